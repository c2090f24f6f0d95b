import Mathlib.Data.List.Sort
import Verif.Model.FormulaCode

/-!
# Contractions of tensors

Model of `formulas/maths/TensorDot.py` and `formulas/maths/Kron.py`: the constructor, the generated code and the
arguments of the two operations built by `DiffT`.  Python exceptions are `none`.

Simplifications: the sizes of the axes are natural numbers; the quotient of line 104, computed with floating point
numbers, is exact.
-/

namespace Verif.TensorDot

variable {α : Type}

/-- `x[i]`, where a negative `i` counts from the end. `TensorDot.py:19`. -/
def pyGet (x : List α) (i : Int) : Option α :=
  if 0 ≤ i then x[i.toNat]? else if -i ≤ x.length then x[(x.length + i).toNat]? else none

/-- `select`, `TensorDot.py:17-19`. -/
def select (x : List α) (ind : List Int) : Option (List α) := ind.mapM (pyGet x)

/-- `select` with indices that are not negative. `TensorDot.py:17-19`. -/
def selectNat (x : List α) (ind : List Nat) : Option (List α) := ind.mapM (x[·]?)

/-- `delete`, `TensorDot.py:22-27`. -/
def delete (x : List α) (ind : List Int) : Option (List α) :=
  selectNat x ((List.range x.length).filter (fun i => (i : Int) ∉ ind))

/-- The inner function `cumprod`; `p` is the last product. `TensorDot.py:36-40`. -/
def cumprod (p : Nat) : List Nat → List Nat
  | [] => []
  | a :: l => (a * p) :: cumprod (a * p) l

/-- `cumprod_array`, `TensorDot.py:30-42`. -/
def cumprodArray : List Nat → List Nat
  | [] => []
  | _ :: l => (cumprod 1 l.reverse).reverse ++ [1]

/-- `sorted(range(len(perm)), key=perm.__getitem__)`. `TensorDot.py:49`. -/
def argsort (perm : List Int) : List Nat :=
  (List.range perm.length).insertionSort (fun i j => perm.getD i 0 ≤ perm.getD j 0)

/-- `permutation` if `perm` is not `None`. `TensorDot.py:45-50`. -/
def permutation (perm : List Int) (arr : List α) : Option (List α) := selectNat arr (argsort perm)

/-- A list of naturals as a list of integers. `TensorDot.py:74-77`. -/
def ints (l : List Nat) : List Int := l.map (fun n : Nat => (n : Int))

/-- `range(a, b)`. `TensorDot.py:118-127`. -/
def rangeFrom (a b : Nat) : List Nat := (List.range (b - a)).map (a + ·)

/-- Sizes of the axes, dimension of the result and `permute`. `TensorDot.py:79-111`. -/
structure Axes where
  contA : List Nat
  keepIdxA : List Nat
  keepA : List Nat
  keepIdxB : List Nat
  keepB : List Nat
  permKeep : List Nat
  dim : Nat
  permute : List Int

/-- `self.keepdims`, `TensorDot.py:100`. -/
def Axes.keep (x : Axes) : List Nat := x.keepA ++ x.keepB

/-- `self.dim`, `TensorDot.py:103-104`. -/
def dimOf (da db : Nat) (ca : List Int) (contA : List Nat) : Option Nat :=
  if ca = [] then some (da * db) else
  if contA.prod = 0 then none else some (da * db / contA.prod ^ 2)

/-- `self.permute`, `TensorDot.py:106-111`. -/
def permuteOf (n : Nat) : Option (List Int) → Option (List Int)
  | none => some (ints (List.range n))
  | some p => do if (← permutation p p) = ints (List.range n) then some p else none

/-- The first part of the constructor; `da` and `db` are the dimensions of the two arguments.
`TensorDot.py:79-111`. -/
def axes (da db : Nat) (dimsA dimsB : List Nat) (ca cb : List Int) (perm : Option (List Int)) : Option Axes := do
  let contB ← select dimsB cb
  let contA ← select dimsA ca
  if contB ≠ contA ∨ da ≠ dimsA.prod ∨ db ≠ dimsB.prod then none else
  let keepIdxA ← delete (List.range dimsA.length) ca
  let keepA ← delete dimsA ca
  let keepIdxB ← delete (List.range dimsB.length) cb
  let keepB ← delete dimsB cb
  let permKeep ← perm.elim (some (keepA ++ keepB)) (fun p => permutation p (keepA ++ keepB))
  let dim ← dimOf da db ca contA
  let permute ← permuteOf (keepA ++ keepB).length perm
  pure ⟨contA, keepIdxA, keepA, keepIdxB, keepB, permKeep, dim, permute⟩

/-- The loop variables used in the positions: `list_indices_a_intot`, `list_indices_b_intot`, and
`list_indices_keepdim` of `Op`. `TensorDot.py:113-130,167`. -/
structure Loops where
  idxA : List Nat
  idxB : List Nat
  idxOut : List Nat

/-- The second part of the constructor. `TensorDot.py:113-130,167`. -/
def loops (na nb : Nat) (ca cb : List Int) (x : Axes) : Option Loops := do
  let nloop := na + nb - ca.length
  let idxA ← permutation (ints x.keepIdxA ++ ca) (List.range x.keepA.length ++ rangeFrom x.keep.length nloop)
  let idxB ← permutation (ints x.keepIdxB ++ cb)
    (rangeFrom x.keepA.length x.keep.length ++ rangeFrom x.keep.length nloop)
  let idxOut ← permutation x.permute (List.range x.keep.length)
  pure ⟨idxA, idxB, idxOut⟩

/-- The attributes used by `DiffT`. `TensorDot.py:132-152`. -/
structure Grads where
  dimsGrad : List Nat
  moveA : List Int
  moveB : List Int
  contAGrad : List Int
  contBGrad : List Int

/-- The third part of the constructor. `TensorDot.py:132-152`. -/
def grads (ca cb : List Int) (x : Axes) : Option Grads := do
  let dimsGrad ← permutation x.permute x.keep
  let reorderedContA ← permutation cb ca
  let contBGrad ← selectNat x.permute (List.range x.keepA.length)
  let reorderedKeepA ← permutation contBGrad x.keepIdxA
  let reorderedContB ← permutation ca cb
  let contAGrad ← selectNat x.permute (rangeFrom x.keepA.length x.keep.length)
  let reorderedKeepB ← permutation contAGrad x.keepIdxB
  pure ⟨dimsGrad, ints reorderedKeepA ++ reorderedContA, ints reorderedKeepB ++ reorderedContB, contAGrad, contBGrad⟩

/-- The attributes of the object. `TensorDot.py:86-152`. -/
structure T where
  dim : Nat
  dimsA : List Nat
  dimsB : List Nat
  loopdim : List Nat
  loops : Loops
  strOut : List Nat
  strA : List Nat
  strB : List Nat
  keepIdxA : List Nat
  keepIdxB : List Nat
  grads : Grads

/-- The constructor. `TensorDot.py:57-152`. -/
def init (da db : Nat) (dimsA dimsB : List Nat) (ca cb : List Int) (perm : Option (List Int)) : Option T := do
  let x ← axes da db dimsA dimsB ca cb perm
  let l ← loops dimsA.length dimsB.length ca cb x
  let g ← grads ca cb x
  pure { dim := x.dim, dimsA := dimsA, dimsB := dimsB, loopdim := x.keep ++ x.contA, loops := l,
         strOut := cumprodArray x.permKeep, strA := cumprodArray dimsA, strB := cumprodArray dimsB,
         keepIdxA := x.keepIdxA, keepIdxB := x.keepIdxB, grads := g }

/-- Nested loops; the body receives the values of the loop variables. `TensorDot.py:160-165,187`. -/
def nest : List Nat → (List Nat → CArr → Except CErr CArr) → CArr → Except CErr CArr
  | [], body, out => body [] out
  | n :: s, body, out => loop n (fun k out => nest s (fun F => body (k :: F)) out) out

/-- The position `TD_var_v0 * s0 + TD_var_v1 * s1 + ...`. `TensorDot.py:167-180`. -/
def position (vars strides F : List Nat) : Nat :=
  (List.zipWith (fun v s => F.getD v 0 * s) vars strides).sum

/-- The generated code. The loop variables are `TD_var_F`, ..., `TD_var_Z`: with more than 21 loops the next name is
`TD_var_[`, which the compiler rejects. `TensorDot.py:154-200`. -/
noncomputable def op (t : T) (out a b : CArr) : Except CErr CArr := do
  if 21 < t.loopdim.length then .error .table else
  let out ← CArr.fill out 0
  nest t.loopdim (fun F out => do
    let p := position t.loops.idxOut t.strOut F
    let x ← CArr.get a (position t.loops.idxA t.strA F)
    let y ← CArr.get b (position t.loops.idxB t.strB F)
    CArr.put out p ((← CArr.get out p) + x * y)) out

/-- The operation applied to `gradin` and to the second argument, by `DiffT`. `TensorDot.py:207-215`. -/
def gradA (t : T) : Option T :=
  init t.dim t.dimsB.prod t.grads.dimsGrad t.dimsB t.grads.contAGrad (ints t.keepIdxB) (some t.grads.moveA)

/-- The operation applied to `gradin` and to the first argument, by `DiffT`. `TensorDot.py:218-226`. -/
def gradB (t : T) : Option T :=
  init t.dim t.dimsA.prod t.grads.dimsGrad t.dimsA t.grads.contBGrad (ints t.keepIdxA) (some t.grads.moveB)

/-- `Kron`, `Kron.py:17-30`. -/
def kron (da db : Nat) (dimsA dimsB : List Nat) : Option T :=
  if dimsA.length ≠ dimsB.length then none else
  init da db dimsA dimsB [] [] (some (ints ((List.range dimsA.length).map (2 * ·) ++
    (List.range dimsA.length).map (2 * · + 1))))

end Verif.TensorDot
