import Verif.Model.Diff
import Verif.Spec.Backward

/-!
# The backward pass and `vmap`

Model of `GenredAutograd_base._backward` and of `GenredAutograd.vmap` in `torch/generic/generic_red.py`.
-/

namespace Verif

open Finset Spec

/-- `grad.sum(-2)`. `torch/generic/generic_red.py:228`. -/
noncomputable def sumM2 (g : Arr ℝ) : Arr ℝ where
  shape := g.shape.take (g.shape.length - 2) ++ g.shape.drop (g.shape.length - 1)
  get idx := ∑ q ∈ range (g.shape.getD (g.shape.length - 2) 0),
    g.get (idx.take (g.shape.length - 2) ++ q :: idx.drop (g.shape.length - 2))

/-- The entries of `grad.sum(dims, keepdim=True)`; the flags tell which dimensions are summed, those after the last
flag are not. `torch/generic/generic_red.py:252`. -/
noncomputable def sumKeepGet : List Bool → List Nat → (List Nat → ℝ) → List Nat → ℝ
  | true :: fs, n :: s, g, _ :: idx => ∑ k ∈ range n, sumKeepGet fs s (fun r => g (k :: r)) idx
  | false :: fs, _ :: s, g, k :: idx => sumKeepGet fs s (fun r => g (k :: r)) idx
  | _, _, g, idx => g idx

/-- The shape of `grad.sum(dims, keepdim=True)`. -/
def sumKeepShape : List Bool → List Nat → List Nat
  | true :: fs, _ :: s => 1 :: sumKeepShape fs s
  | false :: fs, n :: s => n :: sumKeepShape fs s
  | _, s => s

/-- Position of a multi-index in a contiguous array. -/
def ravel : List Nat → List Nat → Nat
  | _ :: s, k :: idx => k * s.prod + ravel s idx
  | _, _ => 0

/-- The multi-index of a position. -/
def unravel : List Nat → Nat → List Nat
  | [], _ => []
  | _ :: s, p => p / s.prod :: unravel s (p % s.prod)

/-- `grad.reshape(shape)`; `none` when PyTorch raises an error. -/
def reshape (shape : List Nat) (g : Arr ℝ) : Option (Arr ℝ) :=
  if shape.prod = g.shape.prod then some ⟨shape, fun idx => g.get (unravel g.shape (ravel shape idx))⟩ else none

/-- `dims_to_collapse`: the dimensions where `x < y`. `torch/generic/generic_red.py:229-235,243-249`. -/
def collapseFlags (argShape gradShape : List Nat) : List Bool :=
  List.zipWith (fun x y => decide (x < y)) argShape gradShape

/-- From the output of the gradient reduction to the gradient with respect to an argument of category `cat`.
`torch/generic/generic_red.py:216-255`. -/
noncomputable def collapse (cat : Int) (argShape : List Nat) (grad : Arr ℝ) : Option (Arr ℝ) :=
  let g := if cat = 2 then sumM2 grad else grad
  let flags := if cat = 2 then collapseFlags argShape.dropLast g.shape.dropLast
    else collapseFlags argShape.dropLast.dropLast g.shape.dropLast.dropLast
  reshape argShape ⟨sumKeepShape flags g.shape, sumKeepGet flags g.shape g.get⟩

/-- The loop over the arguments: `sigs` are the variables of the list of aliases, as read by `get_type`;
`gradOf v` is the output of the reduction `Grad_WithSavedForward(formula, v, eta, resvar)`.  The gradients that are not
needed are not modelled. `torch/generic/generic_red.py:175-256`. -/
noncomputable def backward (sigs : List VarId) (shapes : List (List Nat)) (gradOf : VarId → Arr ℝ) :
    List (Option (Arr ℝ)) :=
  List.zipWith (fun v s => collapse v.cat s (gradOf v)) sigs shapes

/-- Exchanges the first entry of a list and the entry of index `j`. -/
def swap0 {α : Type} (j : Nat) (l : List α) : List α :=
  match l[0]?, l[j]? with
  | some a, some b => (l.set 0 b).set j a
  | _, _ => l

/-- `vmap` on one argument: `args[k][None, ...]` or `args[k].transpose(0, ind)`.
`torch/generic/generic_red.py:310-314`. -/
def vmapArg {V : Type} (ind : Option Nat) (a : Arr V) : Arr V :=
  match ind with
  | none => ⟨1 :: a.shape, fun idx => a.get idx.tail⟩
  | some j => ⟨swap0 j a.shape, fun idx => a.get (swap0 j idx)⟩

/-- `vmap`: the call `F` with one more batch dimension, the first one. `torch/generic/generic_red.py:304-316`. -/
def vmap {V : Type} (F : List (Arr V) → Arr V) (inds : List (Option Nat)) (args : List (Arr V)) : Arr V :=
  F (List.zipWith vmapArg inds args)

end Verif
