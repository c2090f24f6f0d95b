import Verif.Model.Cg
import Mathlib.Data.Matrix.Mul

/-!
# Preconditioned conjugate gradient

Model of `KernelLinearSolver` with `precond=True` in `common/operations.py`: the functions
`PreconditionedConjugateGradientSolver`, `NystromInversePreconditioner` and `KernelLinOp`.
-/

namespace Verif.Cg

/-- The variables of the loop. `common/operations.py:128-145`. -/
structure PSt (n : Nat) where
  a : Arr n
  r : Arr n
  p : Arr n
  rz : Flt

/-- The statements of the loop before the test: `alp`, `a += alp * p` and `r -= alp * linop(p)`.
`common/operations.py:135-137`.  The operator is called twice with the same argument, here once. -/
noncomputable def phalf {n : Nat} (linop : Arr n → Arr n) (s : PSt n) : PSt n :=
  let Mp := linop s.p
  let alp := div s.rz (sum fun i => lift (· * ·) (s.p i) (Mp i))
  ⟨fun i => lift (· + ·) (s.a i) (lift (· * ·) alp (s.p i)), fun i => lift (· - ·) (s.r i) (lift (· * ·) alp (Mp i)),
    s.p, s.rz⟩

/-- The statements of the loop after the test: `z`, `rznew` and `p = z + (rznew / rz) * p`.
`common/operations.py:140-144`. -/
noncomputable def pnext {n : Nat} (inv : Arr n → Arr n) (s : PSt n) : PSt n :=
  let z := inv s.r
  let rznew := sum fun i => lift (· * ·) (s.r i) (z i)
  ⟨s.a, s.r, fun i => lift (· + ·) (z i) (lift (· * ·) (div rznew s.rz) (s.p i)), rznew⟩

/-- The loop `while True`, with a number of iterations; `none` if it is still running after this number.
`common/operations.py:134-146`. -/
noncomputable def ploop {n : Nat} (δ : ℝ) (linop inv : Arr n → Arr n) : Nat → PSt n → Option (Arr n)
  | 0, _ => none
  | k + 1, s =>
    let s' := phalf linop s
    if Lt (sq s'.r) δ then some s'.a else ploop δ linop inv k (pnext inv s')

/-- `PreconditionedConjugateGradientSolver(linop, b, invprecondop, eps)` with at most `k` iterations; `none` if it has not
returned. `common/operations.py:123-146`.  The variable `a` is first the integer 0, which has the same effect as an array of
zeros. -/
noncomputable def psolve {n : Nat} (linop inv : Arr n → Arr n) (b : Arr n) (eps : ℝ) (k : Nat) : Option (Arr n) :=
  let z := inv b
  ploop (eps ^ 2) linop inv k ⟨fun _ => some 0, b, z, sum fun i => lift (· * ·) (b i) (z i)⟩

/-- `KernelLinOp`: `K(x, x, a) + alpha * a`, where `K` is the product with the kernel matrix.
`common/operations.py:162-163`. -/
def kernelLinOp {n : Nat} (K : Arr n → Arr n) (alpha : ℝ) : Arr n → Arr n := fun a i =>
  lift (· + ·) (K a i) (lift (· * ·) (some alpha) (a i))

/-- The function `invprecondop` given by `NystromInversePreconditioner`: `(r - K(x, u, solve(M, K(u, x, r)))) / alpha`.
`common/operations.py:156-160`.  `Kux` and `Kxu` are the products with the kernel matrices `K(u, x)` and `K(x, u)`, and
`solve` the solution of a linear system with the matrix `M`; `n` and `m` are the numbers of entries of the arrays, which may
have several columns. -/
noncomputable def invprecondop {n m : Nat} (Kux : Arr n → Arr m) (Kxu : Arr m → Arr n) (solve : Arr m → Arr m) (alpha : ℝ) :
    Arr n → Arr n := fun r i => div (lift (· - ·) (r i) (Kxu (solve (Kux r)) i)) (some alpha)

/-- The matrix `M` of `NystromInversePreconditioner`: `K(u, u) + Kspec(u, u, x)`.  The two tiled arrays have the rows
`u[q]` and `u[p]` at the position `p * m + q`, and `Kspec` is the sum over `x` of the product of the two kernels.
`common/operations.py:152-154,188`; `k i p` is the kernel at `x[i]` and `u[p]`. -/
def nystromM {n m : Nat} (kuu : Matrix (Fin m) (Fin m) ℝ) (k : Matrix (Fin n) (Fin m) ℝ) : Matrix (Fin m) (Fin m) ℝ :=
  fun p q => kuu p q + ∑ i, k i q * k i p

/-- `KernelLinearSolver(binding, K, x, b, alpha, eps, precond)` with at most `k` iterations; `none` if it has not returned.
`common/operations.py:117-233`, the last statements `common/operations.py:227-233`.  The kernel is given by its products
(see `invprecondop`); the random choice of `u` is part of these products. -/
noncomputable def kernelLinearSolver {n m : Nat} (Kxx : Arr n → Arr n) (Kux : Arr n → Arr m) (Kxu : Arr m → Arr n)
    (solveM : Arr m → Arr m) (alpha eps : ℝ) (precond : Bool) (b : Arr n) (k : Nat) : Option (Arr n) :=
  if precond then psolve (kernelLinOp Kxx alpha) (invprecondop Kux Kxu solveM alpha) b eps k
  else solve (kernelLinOp Kxx alpha) b eps k

end Verif.Cg
