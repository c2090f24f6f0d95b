import Verif.Spec.Backward

/-!
# Arrays as values of variables, and arrays that move
-/

namespace Verif.Spec

/-- The values of the variables `vars` at the pair `(i, j)`: the variable at position `p`, of dimension `d`, is the row of
the array `args p` for its category: row `i`, row `j`, or row 0 of a parameter. -/
noncomputable def readEnv (vars : List (Int × Nat × Int)) (args : Nat → Nat → ℝ) (p : Nat × Nat) : Env := fun w k =>
  match vars.find? fun u => u.1 = w with
  | some u => if k < u.2.1 then args u.1.toNat (rowAt u.2.2 p * u.2.1 + k) else 0
  | none => 0

/-- Position of a multi-index in an array of shape `shape`, whose last index varies fastest. -/
def pos : (shape idx : List Nat) → Nat
  | _ :: s, k :: idx => k * s.prod + pos s idx
  | _, _ => 0

/-- The values of the variables `vars` in the batch `b`, at the pair `(i, j)`: the variable at position `p`, of dimension
`d`, is the row of the array `args p`, of shape `shapes[p]`, for this batch and for its category.  Batch dimensions equal
to 1 are broadcast; parameters have no rows. -/
noncomputable def readBatch (vars : List (Int × Nat × Int)) (shapes : List (List Nat)) (args : Nat → Nat → ℝ)
    (b : List Nat) (p : Nat × Nat) : Env := fun w k =>
  match vars.find? fun u => u.1 = w with
  | some u =>
    if k < u.2.1 then
      let X : Arr ℝ := ⟨shapes.getD u.1.toNat [], fun idx => args u.1.toNat (pos (shapes.getD u.1.toNat []) idx)⟩
      X.at' (b ++ if u.2.2 = 2 then [k] else [rowAt u.2.2 p, k])
    else 0
  | none => 0

/-- The arrays `args`, where the array at position `p` moves by `τ` in the direction `δ`. -/
def moved (args : Nat → Nat → ℝ) (p : Nat) (δ : Nat → ℝ) (τ : ℝ) : Nat → Nat → ℝ :=
  fun q k => if q = p then args q k + τ * δ k else args q k

end Verif.Spec
