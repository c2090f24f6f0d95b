import Verif.Spec.BackwardCall

/-!
# Arrays that all move
-/

namespace Verif.Spec

/-- The arrays `args`, where the array at position `q` moves by `τ` in the direction `δ q`. -/
def movedAll (args δ : Nat → Nat → ℝ) (τ : ℝ) : Nat → Nat → ℝ := fun q k => args q k + τ * δ q k

/-- The direction of each array: 0 for an argument without tangent. -/
def dirs (tangents : List (Option (Nat → ℝ))) : Nat → Nat → ℝ := fun q k =>
  match tangents[q]? with
  | some (some δ) => δ k
  | _ => 0

/-- The declared variables. -/
def declared (sigs : List VarId) : List (Int × Nat × Int) := sigs.map fun v => (v.ind, v.dim, v.cat)

end Verif.Spec
