import Verif.Spec.PcgCols
import Mathlib.Analysis.SpecialFunctions.Exp

/-!
# The Gaussian kernel
-/

namespace Verif.Cg.Spec

/-- Squared distance of two points. -/
def dist2 {D : Nat} (x y : Fin D → ℝ) : ℝ := ∑ k, (x k - y k) ^ 2

/-- The matrix of the Gaussian kernel `exp(-s |x_i - y_j|²)`. -/
noncomputable def gaussMatrix {n m D : Nat} (s : ℝ) (x : Matrix (Fin n) (Fin D) ℝ) (y : Matrix (Fin m) (Fin D) ℝ) :
    Matrix (Fin n) (Fin m) ℝ := fun i j => Real.exp (-(s * dist2 (x i) (y j)))

/-- The array, given to a routine, holds the rows of the matrix one after the other. -/
def RowsOf {n c : Nat} (a : Nat → ℝ) (X : Matrix (Fin n) (Fin c) ℝ) : Prop := ∀ (i : Fin n) (k : Fin c), a (i * c + k) = X i k

end Verif.Cg.Spec
