import Verif.Spec.Lazy
import Verif.Spec.RedDiff

/-!
# Sums over arrays and arguments broadcast along batch dimensions
-/

namespace Verif.Spec

open Finset

/-- The sum of `φ` over the multi-indices of an array of a given shape. -/
noncomputable def sumIdx : List Nat → (List Nat → ℝ) → ℝ
  | [], φ => φ []
  | n :: s, φ => ∑ k ∈ range n, sumIdx s fun r => φ (k :: r)

/-- The rows of an argument used in the batch `b`: for a parameter the argument has one vector for each batch, for
other variables it has one matrix for each batch.  Batch dimensions equal to 1 are broadcast. -/
def rowsOf (X : Arr ℝ) (v : VarId) (b : List Nat) (r : Nat) (k : Fin v.dim) : ℝ :=
  X.at' (b ++ if v.cat = 2 then [k.val] else [r, k.val])

/-- The trailing shape of an argument of category `c` with `rows` rows and dimension `d`. -/
def tailShape (c : Int) (rows d : Nat) : List Nat := if c = 2 then [d] else [rows, d]

/-- The batch dimensions `xb` of an argument are those of the call, or 1. -/
def Broadcasts (xb batch : List Nat) : Prop := List.Forall₂ (fun x y => 0 < y ∧ (x = y ∨ x = 1)) xb batch

end Verif.Spec
