import Verif.Model.Pcg
import Verif.Model.PyFormula
import Mathlib.Logic.Equiv.Fin.Basic
import Mathlib.Analysis.SpecialFunctions.Exp

/-!
# The Gaussian kernel of the solver

Model of `GaussKernel`, `GaussKernelMatrix` and `GaussKernelNystromPrecond` in `KernelLinearSolver` (`common/operations.py`).
-/

namespace Verif.Cg

/-- The formula `Exp(-oos2*SqDist(x,y))*b` of `GaussKernel`. `common/operations.py:166-172`. -/
def gaussF (D Dv : Nat) : PyF :=
  .arith .mul (.call1 .exp (.arith .mul (.neg (.var 3 1 2)) (.fun2 .sqDist (.var 0 D 0) (.var 1 D 1)))) (.var 2 Dv 1)

/-- Its variables `x`, `y`, `b` and `oos2`. `common/operations.py:167-172`. -/
def gaussVars (D Dv : Nat) : List (Int × Nat × Int) := [(0, D, 0), (1, D, 1), (2, Dv, 1), (3, 1, 2)]

/-- The formula `Exp(-oos2*(SqDist(u,x)+SqDist(v,x)))` of `GaussKernelNystromPrecond`. `common/operations.py:188-194`. -/
def gaussSpecF (D : Nat) : PyF :=
  .call1 .exp (.arith .mul (.neg (.var 3 1 2))
    (.arith .add (.fun2 .sqDist (.var 0 D 0) (.var 2 D 1)) (.fun2 .sqDist (.var 1 D 0) (.var 2 D 1))))

/-- Its variables `u`, `v`, `x` and `oos2`. `common/operations.py:189-194`. -/
def gaussSpecVars (D : Nat) : List (Int × Nat × Int) := [(0, D, 0), (1, D, 0), (2, D, 1), (3, 1, 2)]

/-- `GaussKernelMatrix(sigma)(x, y)`, where `oos2` is `1 / sigma**2`. `common/operations.py:206-216`. -/
noncomputable def gaussKernelMatrix {n m D : Nat} (oos2 : ℝ) (x : Matrix (Fin n) (Fin D) ℝ) (y : Matrix (Fin m) (Fin D) ℝ) :
    Matrix (Fin n) (Fin m) ℝ := fun i j =>
  Real.exp (-oos2 * (List.ofFn fun k => (x i k - y j k) ^ 2).foldl (· + ·) 0)

/-- `tools.tile(u, (m, 1))`: the rows of `u`, `m` times. `common/operations.py:153`. -/
def tileRows {m D : Nat} (u : Matrix (Fin m) (Fin D) ℝ) : Matrix (Fin (m * m)) (Fin D) ℝ := fun r k => u r.modNat k

/-- `tools.tile(u, (1, m)).reshape(-1, D)`: each row of `u`, `m` times. `common/operations.py:153`. -/
def tileCols {m D : Nat} (u : Matrix (Fin m) (Fin D) ℝ) : Matrix (Fin (m * m)) (Fin D) ℝ := fun r k => u r.divNat k

/-- The matrix `M` of `NystromInversePreconditioner`, where `Kspec` is the sum computed by `GaussKernelNystromPrecond`.
`common/operations.py:152-154`. -/
def gaussM {m D n : Nat} (Kuu : Matrix (Fin m) (Fin D) ℝ → Matrix (Fin m) (Fin D) ℝ → Matrix (Fin m) (Fin m) ℝ)
    (Kspec : Matrix (Fin (m * m)) (Fin D) ℝ → Matrix (Fin (m * m)) (Fin D) ℝ → Matrix (Fin n) (Fin D) ℝ → Fin (m * m) → ℝ)
    (u : Matrix (Fin m) (Fin D) ℝ) (x : Matrix (Fin n) (Fin D) ℝ) : Matrix (Fin m) (Fin m) ℝ := fun p q =>
  Kuu u u p q + Kspec (tileRows u) (tileCols u) x (finProdFinEquiv (p, q))

end Verif.Cg
