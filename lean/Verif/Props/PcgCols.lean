import Verif.Proofs.PcgCols

/-!
# C80, for arrays with several columns and for the whole solver
-/

namespace Verif.Cg

open Spec Matrix

variable {n m c : Nat}

/-- **C80**: for every kernel whose matrix at the points `x` is symmetric and not negative, `alpha > 0` and `eps` not 0, every
right-hand side `B` with any number of columns, `KernelLinearSolver` returns after at most as many iterations as `B` has
entries, and what it returns solves `(K + alpha) X = B` up to the announced residual.

`Kxx`, `Kux` and `Kxu` are the products with the kernel matrices, for the points `u = x[ind]` chosen by the preconditioner, and
`solveM` solves the systems with the matrix `M`.

Partial: with `precond=True`, `B` is not 0 (`not_C80_zero`). -/
theorem C80_solver_partial {K : Matrix (Fin n) (Fin n) ℝ} {Kxx : Arr (n * c) → Arr (n * c)}
    (h1 : ∀ X : Matrix (Fin n) (Fin c) ℝ, Kxx (ofMatrix X) = ofMatrix (K * X)) (hK : Psd K)
    (ind : Fin m → Fin n) {Kux : Arr (n * c) → Arr (m * c)} {Kxu : Arr (m * c) → Arr (n * c)} {solveM : Arr (m * c) → Arr (m * c)}
    {alpha eps : ℝ} (ha : 0 < alpha) (he : eps ≠ 0) (B : Matrix (Fin n) (Fin c) ℝ) (hn : 0 < n * c) (precond : Bool)
    (hpre : precond = true →
      (∀ R : Matrix (Fin n) (Fin c) ℝ, Kux (ofMatrix R) = ofMatrix (K.submatrix ind id * R)) ∧
      (∀ A : Matrix (Fin m) (Fin c) ℝ, Kxu (ofMatrix A) = ofMatrix (K.submatrix id ind * A)) ∧
      (∀ Y : Matrix (Fin m) (Fin c) ℝ, ∃ A, solveM (ofMatrix Y) = ofMatrix A ∧
        nystromM (K.submatrix ind ind) (K.submatrix id ind) * A = Y) ∧ B ≠ 0) :
    ∃ X, kernelLinearSolver Kxx Kux Kxu solveM alpha eps precond (ofMatrix B) (n * c) = some (ofMatrix X) ∧
      residuals (K + alpha • (1 : Matrix (Fin n) (Fin n) ℝ)) B X <
        if precond then eps ^ 2 else ((n * c : Nat) : ℝ) * eps ^ 2 := by
  have lin : ∀ {p q : Nat} {f : Arr (p * c) → Arr (q * c)} {A : Matrix (Fin q) (Fin p) ℝ},
      (∀ X : Matrix (Fin p) (Fin c) ℝ, f (ofMatrix X) = ofMatrix (A * X)) → ∀ x, f (ofReal x) = ofReal (cols c A *ᵥ x) := by
    intro p q f A h x
    rw [← entries_un (n := p) (c := c) x, cols_mulVec]
    exact h _
  have back : ∀ {x : Arr (n * c)} {δ : ℝ}, (∃ y, x = ofReal y ∧
      residual (cols c K + alpha • (1 : Matrix (Fin (n * c)) (Fin (n * c)) ℝ)) (entries B) y < δ) →
      ∃ X, some x = some (ofMatrix X) ∧ residuals (K + alpha • (1 : Matrix (Fin n) (Fin n) ℝ)) B X < δ := by
    rintro x δ ⟨y, rfl, hy⟩
    refine ⟨unentries y, by rw [ofMatrix_eq, entries_un], ?_⟩
    rwa [← residual_cols, entries_un]
  have hL : Computes (kernelLinOp Kxx alpha) (cols c K + alpha • (1 : Matrix (Fin (n * c)) (Fin (n * c)) ℝ)) := fun x => by
    funext i
    simp only [kernelLinOp, lin h1 x]
    simp [ofReal, lift, add_mulVec, smul_mulVec]
  have hS := C30_ridge (cols_symm (c := c) hK.1) (cols_psd hK) ha
  unfold kernelLinearSolver
  rw [ofMatrix_eq]
  cases precond with
  | false =>
    obtain ⟨x, hx⟩ := C30_stops hL hS hn (entries B) he
    simp only [Bool.false_eq_true, if_false, hx]
    exact back (C30_residual hL _ _ _ _ hx)
  | true =>
    obtain ⟨h2, h3, h4, hB⟩ := hpre rfl
    obtain ⟨hu, hu0⟩ := psd_chosen hK ind
    have h2' := lin h2
    rw [show K.submatrix ind id = (K.submatrix id ind)ᵀ from by ext p i; exact hK.1 _ _, ← cols_transpose] at h2'
    obtain ⟨_, _, P, hP, hPs⟩ := operators_core (lin h1) (cols_symm hK.1) (cols_psd hK) ⟨cols_symm hu.1, cols_psd hu⟩
      (cols_zero (c := c) hu hu0) h2' (lin h3)
      (solve := solveM) (fun y => by
        obtain ⟨A, g1, g2⟩ := h4 (unentries y)
        rw [ofMatrix_eq, entries_un] at g1
        exact ⟨entries A, g1, by rw [nystromM_cols, g2, entries_un]⟩) ha
    have hb : entries B ≠ 0 := fun h => hB (by
      ext i j
      have := congrFun h (finProdFinEquiv (i, j))
      simpa [entries] using this)
    obtain ⟨x, hx⟩ := C80_stops_partial hL hP hS hPs (entries B) hb he
    simp only [if_true, hx]
    exact back (C80_residual hL hP _ _ _ _ hx)

/-- Three points so far from each other that the kernel matrix is the identity, all of them chosen, and two columns. -/
example (B : Matrix (Fin 3) (Fin 2) ℝ) (hB : B ≠ 0) (precond : Bool) : ∃ X : Matrix (Fin 3) (Fin 2) ℝ,
    kernelLinearSolver id id id (fun y i => lift (· * ·) (some (1 / 2)) (y i)) 1 (1 / 1000) precond (ofMatrix B) 6 =
      some (ofMatrix X) ∧
    residuals (1 + (1 : ℝ) • (1 : Matrix (Fin 3) (Fin 3) ℝ)) B X <
      if precond then (1 / 1000) ^ 2 else ((6 : Nat) : ℝ) * (1 / 1000) ^ 2 := by
  have one : Spd (1 : Matrix (Fin 3) (Fin 3) ℝ) := ⟨fun i j => by simp [one_apply, eq_comm], fun x hx => by
    simp only [one_mulVec]
    exact lt_of_le_of_ne (Finset.sum_nonneg fun i _ => mul_self_nonneg _) (Ne.symm (dot_self_ne hx))⟩
  refine C80_solver_partial (n := 3) (m := 3) (c := 2) (K := 1) (fun X => by simp)
    ⟨one.1, fun x => ?_⟩ id one_pos (by norm_num) B (by norm_num) precond
    fun _ => ⟨fun R => by simp, fun R => by simp, fun Y => ⟨(1 / 2 : ℝ) • Y, ?_, ?_⟩, hB⟩
  · simp only [one_mulVec]
    exact Finset.sum_nonneg fun i _ => mul_self_nonneg _
  · funext q
    simp [ofMatrix, lift]
  · ext i j
    rw [nystromM_eq]
    simp [Matrix.add_mul]
    ring

end Verif.Cg
