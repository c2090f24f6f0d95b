import Verif.Proofs.PcgGauss
import Verif.Props.PcgCols
import Verif.Props.PyFormula
import Verif.Props.Accept

/-!
# C80 for the Gaussian kernel
-/

namespace Verif.Cg

open Verif.Spec Spec Matrix

variable {n m D Dv : Nat}

/-- The formula of the kernel, as a term. -/
def gaussT (D Dv : Nat) : Term :=
  .bin .mul (.un .exp (.bin .mul (.un .minus (.var 3 1 2)) (.sqDist (.var 0 D 0) (.var 1 D 1)))) (.var 2 Dv 1)

def gaussSpecT (D : Nat) : Term :=
  .un .exp (.bin .mul (.un .minus (.var 3 1 2))
    (.bin .add (.sqDist (.var 0 D 0) (.var 2 D 1)) (.sqDist (.var 1 D 0) (.var 2 D 1))))

/-- The text `x` is evaluated as the term `t`. -/
def IsT (x : PyF) (t : Term) : Prop := ∀ N, x.eval N = PyVal.op <$> t.compile N

theorem IsT.var {i : Int} {d : Nat} {c : Int} : IsT (.var i d c) (.var i d c) := fun _ => rfl

theorem IsT.neg {x : PyF} {t : Term} (h : IsT x t) : IsT (.neg x) (.un .minus t) := fun N => by
  simp only [PyF.eval, h N, Term.compile]
  cases t.compile N <;> rfl

theorem IsT.exp {x : PyF} {t : Term} (h : IsT x t) : IsT (.call1 .exp x) (.un .exp t) := fun N => by
  simp only [PyF.eval, h N, Term.compile]
  cases t.compile N <;> rfl

theorem IsT.mul {x y : PyF} {t u : Term} (h : IsT x t) (h' : IsT y u) : IsT (.arith .mul x y) (.bin .mul t u) := fun N => by
  simp only [PyF.eval, h N, h' N, Term.compile]
  cases t.compile N
  · rfl
  · cases u.compile N <;> rfl

theorem IsT.add {x y : PyF} {t u : Term} (h : IsT x t) (h' : IsT y u) : IsT (.arith .add x y) (.bin .add t u) := fun N => by
  simp only [PyF.eval, h N, h' N, Term.compile]
  cases t.compile N
  · rfl
  · cases u.compile N <;> rfl

theorem IsT.sqDist {x y : PyF} {t u : Term} (h : IsT x t) (h' : IsT y u) : IsT (.fun2 .sqDist x y) (.sqDist t u) := fun N => by
  simp only [PyF.eval, h N, h' N, Term.compile, PyFun2.call]
  cases t.compile N
  · rfl
  · cases u.compile N
    · rfl
    · rename_i f g
      show PyVal.op <$> (build N (.sub f g) >>= fun d => mkSqNorm2 N d) = _
      rfl

theorem IsT.formula {x : PyF} {t : Term} (h : IsT x t) (N : Nat) : x.formula N = t.compile N := by
  simp only [PyF.formula, h N]
  cases t.compile N <;> rfl

theorem gaussF_accepted (h1 : 0 < D) (h2 : 0 < Dv) : ∃ N e, (gaussF D Dv).formula N = .ok e := by
  have : (gaussT D Dv).Accepted := C81_accept (env := fun _ _ => 1) (by simp [gaussT, Term.Pos, Un.dim, h1, h2])
    (by simp [gaussT, Term.Agree, BinTakes, UnTakes, Like, Term.dim, Bin.dim, Un.dim])
    (by simp [gaussT, Term.NoFraction]) (by simp [gaussT, Term.Def, binDef, unDef])
  obtain ⟨N, e, h, _⟩ := this
  have ht : IsT (gaussF D Dv) (gaussT D Dv) := .mul (.exp (.mul (.neg .var) (.sqDist .var .var))) .var
  exact ⟨N, e, (ht.formula N).trans h⟩

theorem gaussSpecF_accepted (h1 : 0 < D) : ∃ N e, (gaussSpecF D).formula N = .ok e := by
  have : (gaussSpecT D).Accepted := C81_accept (env := fun _ _ => 1) (by simp [gaussSpecT, Term.Pos, Un.dim, h1])
    (by simp [gaussSpecT, Term.Agree, BinTakes, UnTakes, Like, Term.dim, Bin.dim, Un.dim])
    (by simp [gaussSpecT, Term.NoFraction]) (by simp [gaussSpecT, Term.Def, binDef, unDef])
  obtain ⟨N, e, h, _⟩ := this
  have ht : IsT (gaussSpecF D) (gaussSpecT D) := .exp (.mul (.neg .var) (.add (.sqDist .var .var) (.sqDist .var .var)))
  exact ⟨N, e, (ht.formula N).trans h⟩

theorem sqn_read (h1 : 0 < D) {X : Matrix (Fin n) (Fin D) ℝ} {Y : Matrix (Fin m) (Fin D) ℝ} {a b : Nat → ℝ} (hX : RowsOf a X)
    (hY : RowsOf b Y) {i : Fin n} {j : Fin m} : (sqn D fun k =>
      (if D = 1 then if 0 < D then a (i * D) else 0 else if k < D then a (i * D + k) else 0) -
        if D = 1 then if 0 < D then b (j * D) else 0 else if k < D then b (j * D + k) else 0) = dist2 (X i) (Y j) := by
  have rd : ∀ (f : Nat → ℝ) (q : Nat) (l : Fin D),
      (if D = 1 then if 0 < D then f q else 0 else if (l : Nat) < D then f (q + l) else 0) = f (q + l) := fun f q l => by
    have := l.2
    by_cases hD : D = 1
    · rw [if_pos hD, if_pos h1, show (l : Nat) = 0 by omega, Nat.add_zero]
    · rw [if_neg hD, if_pos l.2]
  rw [sqn, Finset.sum_range, dist2]
  refine Finset.sum_congr rfl fun l _ => ?_
  rw [rd, rd, hX, hY]

/-- **C80**: the formula of `GaussKernel` is accepted for all dimensions, and every execution of its routine writes the product
of the matrix of the Gaussian kernel by the array `b`. -/
theorem C80_gauss_product (h1 : 0 < D) (h2 : 0 < Dv) {X : Matrix (Fin n) (Fin D) ℝ} {Y : Matrix (Fin m) (Fin D) ℝ}
    {B : Matrix (Fin m) (Fin Dv) ℝ} {args : Nat → Nat → ℝ} (hX : RowsOf (args 0) X) (hY : RowsOf (args 1) Y)
    (hB : RowsOf (args 2) B) (sch : SumScheme) : ∃ N e, (gaussF D Dv).formula N = .ok e ∧ e.dim = Dv ∧
    ∃ S, getScheme (sumRed (V := ℝ) e.dim) sch = some S ∧ ∀ (M : CMath), M.Exact → ∀ junk out out',
      Exec (sumRed e.dim) S (e.call id id M junk 0 n m args) out out' →
      RowsOf out' (gaussMatrix (args 3 0) X Y * B) := by
  obtain ⟨N, e, h⟩ := gaussF_accepted h1 h2
  have hp : (gaussF D Dv).Pos := by simp [gaussF, PyF.Pos, Un.dim, h1, h2]
  have hpl : (gaussF D Dv).Plain := by simp [gaussF, PyF.Plain]
  have hd : (gaussF D Dv).dim = Dv := by simp [gaussF, PyF.dim, Un.dim]; omega
  refine ⟨N, e, h, (C79_partial hp hpl h).1.trans hd, ?_⟩
  obtain ⟨S, hS, hE⟩ := C79_sum_partial hp hpl h (l := gaussVars D Dv) (axis := 0) (m := n) (n := m) (args := args)
    ⟨by simp [gaussVars], by simp [gaussVars], by simp [gaussVars]⟩ (by simp [gaussF, gaussVars, PyF.vars]) (by omega)
    (fun _ _ _ _ => by simp [gaussF, PyF.Def, unDef]) sch
  refine ⟨S, hS, fun M hM junk out out' he i k => ?_⟩
  have := hE M hM junk out out' he i i.2 k (by rw [hd]; exact k.2)
  rw [hd] at this
  rw [this, mul_apply, show redRows 0 n m = m from rfl, Finset.sum_range]
  refine Finset.sum_congr rfl fun j _ => ?_
  rw [← hB j k]
  simp [gaussF, gaussVars, PyF.val, PyF.dim, unVal, readEnv, pairAt, rowAt, cst]
  rw [sqn_read h1 hX hY, gaussMatrix]
  have hk : (k : Nat) < Dv := k.2
  split_ifs with h3
  · rw [show (k : Nat) = 0 by omega, Nat.add_zero]
  · rfl

/-- **C80**: the formula of `GaussKernelNystromPrecond` is accepted for all dimensions, and every execution of its routine
writes the sums over the points `x` of the products of the kernels at `u` and at `v`. -/
theorem C80_gauss_spec (h1 : 0 < D) {U V : Matrix (Fin n) (Fin D) ℝ} {X : Matrix (Fin m) (Fin D) ℝ} {args : Nat → Nat → ℝ}
    (hU : RowsOf (args 0) U) (hV : RowsOf (args 1) V) (hX : RowsOf (args 2) X) (sch : SumScheme) :
    ∃ N e, (gaussSpecF D).formula N = .ok e ∧ e.dim = 1 ∧
    ∃ S, getScheme (sumRed (V := ℝ) e.dim) sch = some S ∧ ∀ (M : CMath), M.Exact → ∀ junk out out',
      Exec (sumRed e.dim) S (e.call id id M junk 0 n m args) out out' →
      ∀ r : Fin n, out' r = ∑ i, Real.exp (-(args 3 0 * (dist2 (U r) (X i) + dist2 (V r) (X i)))) := by
  obtain ⟨N, e, h⟩ := gaussSpecF_accepted h1
  have hp : (gaussSpecF D).Pos := by simp [gaussSpecF, PyF.Pos, Un.dim, h1]
  have hpl : (gaussSpecF D).Plain := by simp [gaussSpecF, PyF.Plain]
  have hd : (gaussSpecF D).dim = 1 := by simp [gaussSpecF, PyF.dim, Un.dim]
  refine ⟨N, e, h, (C79_partial hp hpl h).1.trans hd, ?_⟩
  obtain ⟨S, hS, hE⟩ := C79_sum_partial hp hpl h (l := gaussSpecVars D) (axis := 0) (m := n) (n := m) (args := args)
    ⟨by simp [gaussSpecVars], by simp [gaussSpecVars], by simp [gaussSpecVars]⟩ (by simp [gaussSpecF, gaussSpecVars, PyF.vars]) (by omega)
    (fun _ _ _ _ => by simp [gaussSpecF, PyF.Def, unDef]) sch
  refine ⟨S, hS, fun M hM junk out out' he r => ?_⟩
  have := hE M hM junk out out' he r r.2 0 (by rw [hd]; exact one_pos)
  rw [hd, Nat.mul_one, Nat.add_zero] at this
  rw [this, show redRows 0 n m = m from rfl, Finset.sum_range]
  refine Finset.sum_congr rfl fun i _ => ?_
  rw [← sqn_read h1 hU hX, ← sqn_read h1 hV hX]
  simp [gaussSpecF, gaussSpecVars, PyF.val, PyF.dim, unVal, readEnv, pairAt, rowAt, cst]

/-- **C80** for `KernelLinearSolver(binding, ("gaussian", D, Dv, sigma), x, b, alpha, eps, precond)`: for all points `x`, every
`sigma`, `alpha > 0` and `eps` not 0, the solver returns, and what it returns solves `(K + alpha) X = B` up to the announced
residual, where `K` is the matrix of the kernel `exp(-|x_i - x_j|² / sigma²)`.

`Kxx`, `Kux` and `Kxu` are the routine of `GaussKernel` (see `C80_gauss_product`), `Kspec` is the one of
`GaussKernelNystromPrecond` (see `C80_gauss_spec`), and `solveM` solves the systems with the matrix `M`.

Partial: with `precond=True`, `B` is not 0 (`not_C80_zero`). -/
theorem C80_gauss_partial (x : Matrix (Fin n) (Fin D) ℝ) (sigma : ℝ) {c : Nat} {Kxx : Arr (n * c) → Arr (n * c)}
    (h1 : ∀ X : Matrix (Fin n) (Fin c) ℝ, Kxx (ofMatrix X) = ofMatrix (gaussMatrix (1 / sigma ^ 2) x x * X))
    (ind : Fin m → Fin n) {Kux : Arr (n * c) → Arr (m * c)} {Kxu : Arr (m * c) → Arr (n * c)}
    {solveM : Arr (m * c) → Arr (m * c)} {Kspec}
    {alpha eps : ℝ} (ha : 0 < alpha) (he : eps ≠ 0) (B : Matrix (Fin n) (Fin c) ℝ) (hn : 0 < n * c) (precond : Bool)
    (hpre : precond = true →
      (∀ R : Matrix (Fin n) (Fin c) ℝ, Kux (ofMatrix R) = ofMatrix (gaussMatrix (1 / sigma ^ 2) (x.submatrix ind id) x * R)) ∧
      (∀ A : Matrix (Fin m) (Fin c) ℝ, Kxu (ofMatrix A) = ofMatrix (gaussMatrix (1 / sigma ^ 2) x (x.submatrix ind id) * A)) ∧
      (∀ u v r, Kspec u v x r = ∑ i, Real.exp (-(1 / sigma ^ 2 * (dist2 (u r) (x i) + dist2 (v r) (x i))))) ∧
      (∀ Y : Matrix (Fin m) (Fin c) ℝ, ∃ A, solveM (ofMatrix Y) = ofMatrix A ∧
        gaussM (gaussKernelMatrix (1 / sigma ^ 2)) Kspec (x.submatrix ind id) x * A = Y) ∧ B ≠ 0) :
    ∃ X, kernelLinearSolver Kxx Kux Kxu solveM alpha eps precond (ofMatrix B) (n * c) = some (ofMatrix X) ∧
      residuals (gaussMatrix (1 / sigma ^ 2) x x + alpha • (1 : Matrix (Fin n) (Fin n) ℝ)) B X <
        if precond then eps ^ 2 else ((n * c : Nat) : ℝ) * eps ^ 2 :=
  C80_solver_partial h1 (gauss_psd (by positivity) x) ind ha he B hn precond fun hp => by
    obtain ⟨g1, g2, g3, g4, g5⟩ := hpre hp
    rw [gaussM_eq _ x ind g3] at g4
    exact ⟨g1, g2, g4, g5⟩

/-- The matrix of an array. -/
def toMatrix {n c : Nat} (a : Arr (n * c)) : Matrix (Fin n) (Fin c) ℝ := fun i j => (a (finProdFinEquiv (i, j))).getD 0

theorem toMatrix_of {n c : Nat} (X : Matrix (Fin n) (Fin c) ℝ) : toMatrix (ofMatrix X) = X := by
  funext i j
  simp only [toMatrix, ofMatrix, Equiv.symm_apply_apply, Option.getD_some]

/-- The points 0 and 1 on a line, the first of which is chosen, `sigma = 2`, `alpha = 3` and right-hand sides with two columns. -/
example (B : Matrix (Fin 2) (Fin 2) ℝ) (hB : B ≠ 0) : ∃ (Kxx : Arr (2 * 2) → Arr (2 * 2)) (Kux : Arr (2 * 2) → Arr (1 * 2))
    (Kxu : Arr (1 * 2) → Arr (2 * 2)) (solveM : Arr (1 * 2) → Arr (1 * 2)) (X : Matrix (Fin 2) (Fin 2) ℝ),
    kernelLinearSolver Kxx Kux Kxu solveM 3 (1 / 1000) true (ofMatrix B) (2 * 2) = some (ofMatrix X) ∧
    residuals (gaussMatrix (1 / 2 ^ 2) !![0; 1] !![0; 1] + (3 : ℝ) • (1 : Matrix (Fin 2) (Fin 2) ℝ)) B X < (1 / 1000) ^ 2 := by
  let x : Matrix (Fin 2) (Fin 1) ℝ := !![0; 1]
  let s : ℝ := 1 / 2 ^ 2
  let Kspec : Matrix (Fin (1 * 1)) (Fin 1) ℝ → Matrix (Fin (1 * 1)) (Fin 1) ℝ → Matrix (Fin 2) (Fin 1) ℝ → Fin (1 * 1) → ℝ :=
    fun u v x r => ∑ i, Real.exp (-(s * (dist2 (u r) (x i) + dist2 (v r) (x i))))
  let u : Matrix (Fin 1) (Fin 1) ℝ := x.submatrix (fun _ => 0) id
  let M := gaussM (gaussKernelMatrix s) Kspec u x
  have hM : 0 < M 0 0 := by
    refine add_pos (Real.exp_pos _) (Finset.sum_pos (fun i _ => Real.exp_pos _) ⟨0, Finset.mem_univ _⟩)
  obtain ⟨X, h1, h2⟩ := C80_gauss_partial (m := 1) (c := 2) x 2 (Kxx := fun a => ofMatrix (gaussMatrix s x x * toMatrix a))
    (fun X => by rw [toMatrix_of]) (fun _ => 0) (Kux := fun a => ofMatrix (gaussMatrix s u x * toMatrix a))
    (Kxu := fun a => ofMatrix (gaussMatrix s x u * toMatrix a)) (solveM := fun y => ofMatrix ((M 0 0)⁻¹ • toMatrix y))
    (Kspec := Kspec) (alpha := 3) (eps := 1 / 1000) (by norm_num) (by norm_num) B (by norm_num) true
    fun _ => ⟨fun R => by rw [toMatrix_of], fun R => by rw [toMatrix_of], fun _ _ _ => rfl,
      fun Y => ⟨(M 0 0)⁻¹ • Y, by rw [toMatrix_of], by
        show M * _ = Y
        ext i j
        have hi : i = 0 := Subsingleton.elim _ _
        subst hi
        simp only [mul_apply, Finset.univ_unique, Finset.sum_singleton, Matrix.smul_apply, smul_eq_mul]
        exact mul_inv_cancel_left₀ hM.ne' _⟩, hB⟩
  exact ⟨_, _, _, _, X, h1, h2⟩

end Verif.Cg
