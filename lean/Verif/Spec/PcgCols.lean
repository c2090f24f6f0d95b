import Verif.Spec.Cg
import Mathlib.Logic.Equiv.Fin.Basic

/-!
# Arrays with several columns
-/

namespace Verif.Cg.Spec

/-- The array with `n` rows and `c` columns, entry by entry: the rows come one after the other. -/
def ofMatrix {n c : Nat} (X : Matrix (Fin n) (Fin c) ℝ) : Arr (n * c) := fun q =>
  some (X (finProdFinEquiv.symm q).1 (finProdFinEquiv.symm q).2)

/-- Squared residual of the systems `A X = B`, for all columns. -/
def residuals {n c : Nat} (A : Matrix (Fin n) (Fin n) ℝ) (B X : Matrix (Fin n) (Fin c) ℝ) : ℝ :=
  ∑ i, ∑ j, (B i j - (A * X) i j) ^ 2

/-- Symmetric matrices whose quadratic form is not negative. -/
def Psd {n : Nat} (A : Matrix (Fin n) (Fin n) ℝ) : Prop :=
  (∀ i j, A i j = A j i) ∧ ∀ x : Fin n → ℝ, 0 ≤ ∑ i, x i * A.mulVec x i

end Verif.Cg.Spec
