import Verif.Proofs.Pcg
import Verif.Props.Cg
import Verif.Spec.PcgCols

/-!
# The operators of the preconditioned solver
-/

namespace Verif.Cg

open Spec Matrix

variable {n m : Nat}

/-- The Nyström preconditioner, as a matrix: `(1 - C W Cᵀ) / alpha`, where `W` is the inverse of `M`. -/
noncomputable def nystrom (C : Matrix (Fin n) (Fin m) ℝ) (W : Matrix (Fin m) (Fin m) ℝ) (alpha : ℝ) :
    Matrix (Fin n) (Fin n) ℝ := alpha⁻¹ • (1 - C * W * Cᵀ)

/-- The operators of the solver, if the kernel matrix of the chosen points is not negative and if it vanishes only where the
product with `C` does. -/
theorem operators_core {K : Matrix (Fin n) (Fin n) ℝ} {Kuu : Matrix (Fin m) (Fin m) ℝ} {C : Matrix (Fin n) (Fin m) ℝ}
    {Kxx : Arr n → Arr n} (h1 : Computes Kxx K) (hs : ∀ i j, K i j = K j i)
    (hK : ∀ x : Fin n → ℝ, 0 ≤ ∑ i, x i * K.mulVec x i) (hu : Psd Kuu)
    (hu0 : ∀ w : Fin m → ℝ, ∑ i, w i * Kuu.mulVec w i = 0 → C *ᵥ w = 0)
    {Kux : Arr n → Arr m} (h2 : ∀ r, Kux (ofReal r) = ofReal (Cᵀ *ᵥ r))
    {Kxu : Arr m → Arr n} (h3 : ∀ a, Kxu (ofReal a) = ofReal (C *ᵥ a))
    {solve : Arr m → Arr m} (h4 : ∀ y, ∃ a, solve (ofReal y) = ofReal a ∧ nystromM Kuu C *ᵥ a = y)
    {alpha : ℝ} (ha : 0 < alpha) :
    Computes (kernelLinOp Kxx alpha) (K + alpha • (1 : Matrix (Fin n) (Fin n) ℝ)) ∧
    Spd (K + alpha • (1 : Matrix (Fin n) (Fin n) ℝ)) ∧
    ∃ P, Computes (invprecondop Kux Kxu solve alpha) P ∧ Spd P := by
  have hM : nystromM Kuu C = Kuu + Cᵀ * C := by
    ext p q
    simp only [nystromM, add_apply, mul_apply, transpose_apply]
    congr 1
    exact Finset.sum_congr rfl fun i _ => mul_comm _ _
  have hdot : ∀ w : Fin m → ℝ, w ⬝ᵥ nystromM Kuu C *ᵥ w = w ⬝ᵥ Kuu *ᵥ w + (C *ᵥ w) ⬝ᵥ (C *ᵥ w) := fun w => by
    rw [hM, add_mulVec, dotProduct_add, ← mulVec_mulVec, dotProduct_mulVec w Cᵀ, vecMul_transpose]
  have hMs : ∀ i j, nystromM Kuu C i j = nystromM Kuu C j i := fun i j => by
    simp only [nystromM, hu.1 i j]
    congr 1
    exact Finset.sum_congr rfl fun _ _ => mul_comm _ _
  choose sol s1 s2 using h4
  -- the solution is linear
  let W : Matrix (Fin m) (Fin m) ℝ := fun p q => sol (Pi.single q 1) p
  have hW : nystromM Kuu C * W = 1 := by
    ext p q
    have := congrFun (s2 (Pi.single q 1)) p
    simp only [mul_apply, W]
    rw [one_apply, ← Pi.single_apply]
    exact this
  have hW' := mul_eq_one_comm.mp hW
  have hinj : ∀ x y, nystromM Kuu C *ᵥ x = nystromM Kuu C *ᵥ y → x = y := fun x y hxy => by
    have := congrArg (W *ᵥ ·) hxy
    simpa only [mulVec_mulVec, hW', one_mulVec] using this
  have hsol : ∀ y, sol y = W *ᵥ y := fun y => hinj _ _ (by rw [s2, mulVec_mulVec, hW, one_mulVec])
  have hWs : Wᵀ = W := by
    have hMt : (nystromM Kuu C)ᵀ = nystromM Kuu C := by
      ext i j
      exact hMs j i
    have h5 : Wᵀ * nystromM Kuu C = 1 := by
      rw [← hMt, ← transpose_mul, hW, transpose_one]
    calc Wᵀ = Wᵀ * (nystromM Kuu C * W) := by rw [hW, Matrix.mul_one]
      _ = W := by rw [← Matrix.mul_assoc, h5, Matrix.one_mul]
  refine ⟨fun x => ?_, C30_ridge hs hK ha, nystrom C W alpha, fun r => ?_, fun i j => ?_, fun x hx => ?_⟩
  · funext i
    simp only [kernelLinOp, h1 x]
    simp [ofReal, lift, add_mulVec, smul_mulVec]
  · funext i
    simp only [invprecondop, h2, s1, h3, ofReal, lift, div, if_neg ha.ne']
    congr 1
    simp only [nystrom, smul_mulVec, sub_mulVec, one_mulVec, Pi.smul_apply, Pi.sub_apply, smul_eq_mul, hsol, mulVec_mulVec,
      Matrix.mul_assoc]
    field_simp
  · have : (nystrom C W alpha)ᵀ = nystrom C W alpha := by
      simp only [nystrom, transpose_smul, transpose_sub, transpose_one, transpose_mul, transpose_transpose, hWs,
        Matrix.mul_assoc]
    exact congrFun (congrFun this j) i
  · show 0 < x ⬝ᵥ nystrom C W alpha *ᵥ x
    let w := W *ᵥ (Cᵀ *ᵥ x)
    have hMw : nystromM Kuu C *ᵥ w = Cᵀ *ᵥ x := by rw [mulVec_mulVec, hW, one_mulVec]
    have e1 : x ⬝ᵥ (C *ᵥ w) = w ⬝ᵥ nystromM Kuu C *ᵥ w := by
      rw [hMw, dotProduct_mulVec, ← mulVec_transpose, dotProduct_comm]
    have e2 : x ⬝ᵥ nystrom C W alpha *ᵥ x = alpha⁻¹ * ((x - C *ᵥ w) ⬝ᵥ (x - C *ᵥ w) + w ⬝ᵥ Kuu *ᵥ w) := by
      have e3 : nystrom C W alpha *ᵥ x = alpha⁻¹ • (x - C *ᵥ w) := by
        simp only [nystrom, smul_mulVec, sub_mulVec, one_mulVec, w, mulVec_mulVec, Matrix.mul_assoc]
      rw [e3, dotProduct_smul, smul_eq_mul]
      congr 1
      rw [dotProduct_sub, dotProduct_sub, sub_dotProduct, sub_dotProduct, dotProduct_comm (C *ᵥ w) x, e1, hdot]
      ring
    rw [e2]
    refine mul_pos (inv_pos.mpr ha) ?_
    have h5 : 0 ≤ (x - C *ᵥ w) ⬝ᵥ (x - C *ᵥ w) := Finset.sum_nonneg fun i _ => mul_self_nonneg _
    have h7 : 0 ≤ w ⬝ᵥ Kuu *ᵥ w := hu.2 w
    rcases h7.lt_or_eq with h7 | h7
    · linarith
    · rw [hu0 w h7.symm, sub_zero, ← h7, add_zero]
      exact lt_of_le_of_ne (Finset.sum_nonneg fun i _ => mul_self_nonneg _) (Ne.symm (dot_self_ne hx))

/-- Where the quadratic form vanishes, so does the product. -/
theorem psd_zero {A : Matrix (Fin n) (Fin n) ℝ} (h : Psd A) {x : Fin n → ℝ} (hx : ∑ i, x i * A.mulVec x i = 0) : A *ᵥ x = 0 := by
  have hx : x ⬝ᵥ A *ᵥ x = 0 := hx
  have nn : ∀ y : Fin n → ℝ, 0 ≤ y ⬝ᵥ A *ᵥ y := h.2
  have At : Aᵀ = A := by
    ext i j
    exact h.1 j i
  have sw : ∀ y, x ⬝ᵥ A *ᵥ y = y ⬝ᵥ A *ᵥ x := fun y => by
    rw [dotProduct_mulVec, ← mulVec_transpose, At, dotProduct_comm]
  rw [← dotProduct_self_eq_zero]
  have key : ∀ t : ℝ, 0 ≤ 2 * t * ((A *ᵥ x) ⬝ᵥ (A *ᵥ x)) + t * t * ((A *ᵥ x) ⬝ᵥ A *ᵥ (A *ᵥ x)) := fun t => by
    have := nn (x + t • (A *ᵥ x))
    simp only [mulVec_add, mulVec_smul, dotProduct_add, add_dotProduct, dotProduct_smul, smul_dotProduct, smul_eq_mul, hx,
      sw (A *ᵥ x)] at this
    linarith
  have hq := nn (A *ᵥ x)
  have h0 : 0 ≤ (A *ᵥ x) ⬝ᵥ (A *ᵥ x) := Finset.sum_nonneg fun i _ => mul_self_nonneg _
  generalize (A *ᵥ x) ⬝ᵥ (A *ᵥ x) = p at *
  generalize (A *ᵥ x) ⬝ᵥ A *ᵥ (A *ᵥ x) = q at *
  by_contra hp
  have hp : 0 < p := lt_of_le_of_ne h0 (Ne.symm hp)
  have := key (-(p / (q + 1)))
  have h1 : 0 < q + 1 := by linarith
  have e : 2 * -(p / (q + 1)) * p + -(p / (q + 1)) * -(p / (q + 1)) * q = -(p ^ 2 * (q + 2) / (q + 1) ^ 2) := by
    field_simp
    ring
  rw [e] at this
  have : 0 < p ^ 2 * (q + 2) / (q + 1) ^ 2 := by positivity
  linarith

/-- The kernel matrix of points chosen among others. -/
theorem psd_chosen {K : Matrix (Fin n) (Fin n) ℝ} (h : Psd K) (ind : Fin m → Fin n) : Psd (K.submatrix ind ind) ∧
    ∀ w : Fin m → ℝ, ∑ i, w i * (K.submatrix ind ind).mulVec w i = 0 → K.submatrix id ind *ᵥ w = 0 := by
  -- the weights on all the points
  let v : (Fin m → ℝ) → Fin n → ℝ := fun w i => ∑ p, if ind p = i then w p else 0
  have hv : ∀ w, K *ᵥ v w = K.submatrix id ind *ᵥ w := fun w => by
    funext i
    simp only [mulVec, dotProduct, v, submatrix_apply, id, Finset.mul_sum]
    rw [Finset.sum_comm]
    refine Finset.sum_congr rfl fun p _ => ?_
    simp
  have hq : ∀ w, ∑ i, v w i * (K *ᵥ v w) i = ∑ p, w p * (K.submatrix ind ind).mulVec w p := fun w => by
    simp only [hv]
    simp only [v, Finset.sum_mul]
    rw [Finset.sum_comm]
    refine Finset.sum_congr rfl fun p _ => ?_
    simp only [ite_mul, zero_mul, Finset.sum_ite_eq, Finset.mem_univ, if_true]
    rfl
  exact ⟨⟨fun i j => h.1 _ _, fun w => by rw [← hq]; exact h.2 _⟩, fun w hw => by
    rw [← hv]
    exact psd_zero h (by rw [hq]; exact hw)⟩

end Verif.Cg
