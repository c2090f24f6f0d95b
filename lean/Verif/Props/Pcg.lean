import Verif.Proofs.PcgOps

/-!
# C80: the preconditioned solver
-/

namespace Verif.Cg

open Spec Matrix

variable {n : Nat}

/-- **C80**, for every linear operator, every preconditioner, every right-hand side and every number of iterations: what the
solver returns has finite entries and its squared residual is below `eps²`. -/
theorem C80_residual {A P : Matrix (Fin n) (Fin n) ℝ} {linop inv : Arr n → Arr n} (hL : Computes linop A)
    (hI : Computes inv P) (b : Fin n → ℝ) (eps : ℝ) (k : Nat) (x : Arr n) (h : psolve linop inv (ofReal b) eps k = some x) :
    ∃ y, x = ofReal y ∧ residual A b y < eps ^ 2 := by
  have e : ∀ y, residual A b y = (b - A *ᵥ y) ⬝ᵥ (b - A *ᵥ y) := fun y => by
    simp only [residual, dotProduct, Pi.sub_apply]
    exact Finset.sum_congr rfl fun i _ => by ring
  simp only [e]
  rcases Nat.eq_zero_or_pos n with rfl | hn
  · refine ⟨0, Subsingleton.elim _ _, ?_⟩
    rw [show (b - A *ᵥ 0) ⬝ᵥ (b - A *ᵥ 0) = 0 by simp [dotProduct]]
    by_contra hle
    unfold psolve at h
    simp only [] at h
    generalize (⟨_, _, _, _⟩ : PSt 0) = s at h
    induction k generalizing s with
    | zero => simp [ploop] at h
    | succ k ih =>
      simp only [ploop] at h
      rw [if_neg (sq_not_lt _ (not_lt.mp hle))] at h
      exact ih _ h
  · refine ploop_residual hL hI hn b k _ x (.inl ⟨⟨0, b, P *ᵥ b, b ⬝ᵥ P *ᵥ b⟩, ?_, by simp⟩) h
    simp only [hI b, dot_ofReal, PRSt.st]
    rfl

/-- **C80**: if the operator and the preconditioner are symmetric and positive definite, the solver stops after at most `n`
iterations.

Partial: right-hand sides which are not 0; for 0 it fails (`not_C80_zero`). -/
theorem C80_stops_partial {A P : Matrix (Fin n) (Fin n) ℝ} {linop inv : Arr n → Arr n} (hL : Computes linop A)
    (hI : Computes inv P) (hA : Spd A) (hP : Spd P) (b : Fin n → ℝ) (hb : b ≠ 0) {eps : ℝ} (he : eps ≠ 0) :
    ∃ x, psolve linop inv (ofReal b) eps n = some x := by
  have := ploop_stops hL hI hA hP (δ := eps ^ 2) (by positivity) b hb
  unfold psolve
  simp only [hI b, dot_ofReal]
  exact this

/-- Not **C80**: for the right-hand side 0, whose solution is 0, the solver never stops, whatever the operator and the
preconditioner: the first step is 0 / 0. -/
theorem not_C80_zero {A P : Matrix (Fin n) (Fin n) ℝ} {linop inv : Arr n → Arr n} (hL : Computes linop A)
    (hI : Computes inv P) (hn : 0 < n) (eps : ℝ) (k : Nat) : psolve linop inv (ofReal 0) eps k = none := by
  unfold psolve
  simp only [hI 0, dot_ofReal]
  refine ploop_broken hn k fun i => ?_
  exact phalf_zero hL ⟨0, 0, P *ᵥ 0, 0 ⬝ᵥ P *ᵥ 0⟩ (by simp) i

/-! ## The preconditioner -/

variable {m : Nat}

/-- **C80**: `KernelLinOp` computes the product by `K + alpha`, and `invprecondop` the product by a matrix which is
symmetric and positive definite, if `alpha` is positive, if the kernel matrix of the points `u` is symmetric and positive
definite and if the system with the matrix `M` is solved exactly.

Partial: arrays with one column. -/
theorem C80_operators_partial {K : Matrix (Fin n) (Fin n) ℝ} {Kuu : Matrix (Fin m) (Fin m) ℝ} {C : Matrix (Fin n) (Fin m) ℝ}
    {Kxx : Arr n → Arr n} (h1 : Computes Kxx K) (hs : ∀ i j, K i j = K j i)
    (hK : ∀ x : Fin n → ℝ, 0 ≤ ∑ i, x i * K.mulVec x i) (hu : Spd Kuu)
    {Kux : Arr n → Arr m} (h2 : ∀ r, Kux (ofReal r) = ofReal (Cᵀ *ᵥ r))
    {Kxu : Arr m → Arr n} (h3 : ∀ a, Kxu (ofReal a) = ofReal (C *ᵥ a))
    {solve : Arr m → Arr m} (h4 : ∀ y, ∃ a, solve (ofReal y) = ofReal a ∧ nystromM Kuu C *ᵥ a = y)
    {alpha : ℝ} (ha : 0 < alpha) :
    Computes (kernelLinOp Kxx alpha) (K + alpha • (1 : Matrix (Fin n) (Fin n) ℝ)) ∧
    Spd (K + alpha • (1 : Matrix (Fin n) (Fin n) ℝ)) ∧
    ∃ P, Computes (invprecondop Kux Kxu solve alpha) P ∧ Spd P :=
  operators_core h1 hs hK ⟨hu.1, fun x => by
    by_cases hx : x = 0
    · subst hx; simp
    · exact (hu.2 x hx).le⟩ (fun w hw => by
    by_cases h : w = 0
    · subst h; simp
    · exact absurd hw (hu.2 w h).ne') h2 h3 h4 ha

/-- Not **C80**: with `alpha = 0`, the default value, the preconditioner divides by 0 and the solver never stops, whatever
the kernel and the right-hand side. -/
theorem not_C80_alpha (linop : Arr n → Arr n) (Kux : Arr n → Arr m) (Kxu : Arr m → Arr n) (solve : Arr m → Arr m) (b : Arr n)
    (hn : 0 < n) (eps : ℝ) (k : Nat) : psolve linop (invprecondop Kux Kxu solve 0) b eps k = none := by
  refine ploop_broken hn k (phalf_broken (.inr fun i => ?_))
  simp only [invprecondop]
  cases lift (· - ·) (b i) (Kxu (solve (Kux b)) i) <;> simp [div]

/-! ## The hypotheses can be met -/

/-- Two points at which the kernel is 1 and 1/2, one of which is chosen, and `alpha = 2`: the solver returns. -/
example : ∃ (linop inv : Arr 2 → Arr 2) (x : Arr 2) (y : Fin 2 → ℝ),
    psolve linop inv (ofReal ![1, 3]) (1 / 1000) 2 = some x ∧ x = ofReal y ∧
    residual (!![1, 1 / 2; 1 / 2, 1] + (2 : ℝ) • (1 : Matrix (Fin 2) (Fin 2) ℝ)) ![1, 3] y < (1 / 1000) ^ 2 := by
  obtain ⟨h1, h2, P, h3, h4⟩ := C80_operators_partial (n := 2) (m := 1) (K := !![1, 1 / 2; 1 / 2, 1]) (Kuu := 1)
    (C := !![1; 1 / 2])
    (Kxx := fun x i => lift (· + ·) (lift (· * ·) (some ((!![1, 1 / 2; 1 / 2, 1] : Matrix (Fin 2) (Fin 2) ℝ) i 0)) (x 0))
      (lift (· * ·) (some ((!![1, 1 / 2; 1 / 2, 1] : Matrix (Fin 2) (Fin 2) ℝ) i 1)) (x 1)))
    (fun x => by
      funext i
      simp [ofReal, lift, mulVec, dotProduct, Fin.sum_univ_two])
    (by
      intro i j
      fin_cases i <;> fin_cases j <;> rfl)
    (fun x => by
      simp [mulVec, dotProduct, Fin.sum_univ_two]
      nlinarith [sq_nonneg (x 0 + x 1), sq_nonneg (x 0), sq_nonneg (x 1)])
    ⟨fun i j => by simp [one_apply, eq_comm], fun x hx => by
      simp only [one_mulVec]
      exact lt_of_le_of_ne (Finset.sum_nonneg fun i _ => mul_self_nonneg _) (Ne.symm (dot_self_ne hx))⟩
    (Kux := fun r _ => lift (fun a b => a + 1 / 2 * b) (r 0) (r 1))
    (fun r => by
      funext i
      simp [ofReal, lift, mulVec, dotProduct, Fin.sum_univ_two, vecHead, vecTail])
    (Kxu := fun a i => lift (· * ·) (some ((!![1; 1 / 2] : Matrix (Fin 2) (Fin 1) ℝ) i 0)) (a 0))
    (fun a => by
      funext i
      simp [ofReal, lift, mulVec, dotProduct])
    (solve := fun y i => lift (· * ·) (some (4 / 9)) (y i))
    (fun y => ⟨fun i => 4 / 9 * y i, by
      funext i
      simp [ofReal, lift], by
      funext i
      have : i = 0 := Subsingleton.elim _ _
      subst this
      simp [nystromM, mulVec, dotProduct, Fin.sum_univ_two]
      ring⟩)
    (alpha := 2) (by norm_num)
  obtain ⟨x, hx⟩ := C80_stops_partial h1 h3 h2 h4 ![1, 3] (fun h => by simpa using congrFun h 0) (eps := 1 / 1000) (by norm_num)
  obtain ⟨y, hy, hr⟩ := C80_residual h1 h3 ![1, 3] _ _ x hx
  exact ⟨_, _, x, y, hx, hy, hr⟩

end Verif.Cg
