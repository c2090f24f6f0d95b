import Verif.Spec.KernelReduction

/-!
# Specification of batched calls

An array with batch dimensions `[A, .., B]` holds `A·…·B` blocks in C order.  A dimension equal to
1 is broadcast.
-/

namespace Verif.Spec

variable {V : Type}

/-- Position of the multi-index `idx` in a C-ordered array of dimensions `dims 0, …, dims (n-1)`. -/
def ravel : (n : Nat) → (dims idx : Nat → Nat) → Nat
  | 0, _, _ => 0
  | n + 1, dims, idx => ravel n dims idx * dims n + idx n

/-- Number of blocks of an array of batch dimensions `dims`. -/
def batchCount (n : Nat) (dims : Nat → Nat) : Nat := ((List.range n).map dims).foldl (· * ·) 1

/-- Index used along each dimension: 0 along the broadcast ones. -/
def bcast (dims idx : Nat → Nat) : Nat → Nat := fun b => if dims b = 1 then 0 else idx b

/-- Number of rows in one block of a variable: the points of its axis, 1 for a parameter. -/
def blockRows (M N cat : Nat) : Nat := if cat = 2 then 1 else if cat = 0 then M else N

/-- The shapes of the arrays of a batched call: batch dimensions, then number of points (except for
parameters), then dimension.  Each batch dimension is 1 or the common value `full b`. -/
structure BatchShapes (vars : List VarInfo) (shape : Nat → List Nat) (nb : Nat) (full : Nat → Nat)
    (M N : Nat) : Prop where
  length : ∀ v ∈ vars, (shape v.ind).length = if v.cat = 2 then nb + 1 else nb + 2
  batch : ∀ v ∈ vars, ∀ b < nb, (shape v.ind).getD b 0 = 1 ∨ (shape v.ind).getD b 0 = full b
  rows : ∀ v ∈ vars, v.cat ≠ 2 → (shape v.ind).getD nb 0 = blockRows M N v.cat
  attained : ∀ b < nb, full b = 1 ∨ ∃ v ∈ vars, (shape v.ind).getD b 0 = full b

/-- The arrays as seen from batch `idx`: each variable is shifted to its own block. -/
def batchArgs (vars : List VarInfo) (shape : Nat → List Nat) (nb M N : Nat) (idx : Nat → Nat)
    (args : Nat → Mem V) : Nat → Mem V :=
  fun ind => match vars.find? (fun v => v.ind = ind) with
    | none => args ind
    | some v =>
      let dims := fun b => (shape ind).getD b 0
      fun p => args ind (ravel nb dims (bcast dims idx) * (blockRows M N v.cat * v.dim) + p)

end Verif.Spec
