import Mathlib.Data.Matrix.Mul
import Verif.Spec.Methods

/-!
# The matrix of a lazy tensor of numbers
-/

namespace Verif.Spec

/-- The matrix of the numbers `K(i, j)`. -/
noncomputable def kernelMatrix (K : PyE) (data : Nat → Nat → ℝ) (m n : Nat) : Matrix (Fin m) (Fin n) ℝ :=
  fun i j => K.val data i j 0

/-- The array `data src`, with `n` rows and `d` columns. -/
def arrayMatrix (data : Nat → Nat → ℝ) (src n d : Nat) : Matrix (Fin n) (Fin d) ℝ := fun j k => data src (j * d + k)

end Verif.Spec
