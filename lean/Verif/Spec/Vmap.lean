import Verif.Spec.BackwardCall

/-!
# Specification: arrays in memory
-/

namespace Verif.Spec

/-- The arrays `arrs` are stored in `mem`, each one contiguously, with its last index varying fastest. -/
def Stored (mem : Nat → Nat → ℝ) (arrs : List (Arr ℝ)) : Prop :=
  ∀ (q : Nat) (a : Arr ℝ), arrs[q]? = some a → ∀ idx, Arr.Idx a.shape idx → mem q (pos a.shape idx) = a.get idx

end Verif.Spec
