import Verif.Model.Cg
import Mathlib.Data.Matrix.Mul

/-!
# Specification of the conjugate gradient solver
-/

namespace Verif.Cg.Spec

/-- The array with given real entries. -/
def ofReal {n : Nat} (x : Fin n → ℝ) : Arr n := fun i => some (x i)

/-- The operator `linop` computes the product by the matrix `A`, on arrays with finite entries. -/
def Computes {n : Nat} (linop : Arr n → Arr n) (A : Matrix (Fin n) (Fin n) ℝ) : Prop :=
  ∀ x, linop (ofReal x) = ofReal (A.mulVec x)

/-- Squared residual of a linear system. -/
def residual {n : Nat} (A : Matrix (Fin n) (Fin n) ℝ) (b x : Fin n → ℝ) : ℝ := ∑ i, (b i - A.mulVec x i) ^ 2

/-- Symmetric positive definite matrices. -/
def Spd {n : Nat} (A : Matrix (Fin n) (Fin n) ℝ) : Prop :=
  (∀ i j, A i j = A j i) ∧ ∀ x : Fin n → ℝ, x ≠ 0 → 0 < ∑ i, x i * A.mulVec x i

end Verif.Cg.Spec
