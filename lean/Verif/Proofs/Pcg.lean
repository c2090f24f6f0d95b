import Verif.Model.Pcg
import Verif.Proofs.Cg

/-!
# The preconditioned conjugate gradient method in exact arithmetic

Same proofs as in `Proofs/Cg.lean`, with the scalar product given by the preconditioner.
-/

namespace Verif.Cg

open Spec Matrix

variable {n : Nat}

theorem dot_ofReal (x y : Fin n → ℝ) : (sum fun i => lift (· * ·) (ofReal x i) (ofReal y i)) = some (x ⬝ᵥ y) := by
  simp only [ofReal, lift]
  rw [sum_ofReal]
  rfl

/-- The variables of the loop, in exact arithmetic. -/
structure PRSt (n : Nat) where
  a : Fin n → ℝ
  r : Fin n → ℝ
  p : Fin n → ℝ
  rz : ℝ

variable (A P : Matrix (Fin n) (Fin n) ℝ)

/-- `alp`. -/
noncomputable def PRSt.alp (s : PRSt n) : ℝ := s.rz / (s.p ⬝ᵥ A *ᵥ s.p)

/-- `a` and `r` after one iteration. -/
noncomputable def PRSt.newA (s : PRSt n) : Fin n → ℝ := s.a + s.alp A • s.p

@[inherit_doc PRSt.newA]
noncomputable def PRSt.newR (s : PRSt n) : Fin n → ℝ := s.r - s.alp A • A *ᵥ s.p

/-- One iteration. -/
noncomputable def PRSt.step (s : PRSt n) : PRSt n :=
  ⟨s.newA A, s.newR A, P *ᵥ s.newR A + ((s.newR A ⬝ᵥ P *ᵥ s.newR A) / s.rz) • s.p, s.newR A ⬝ᵥ P *ᵥ s.newR A⟩

/-- The state of the solver. -/
def PRSt.st (s : PRSt n) : PSt n := ⟨ofReal s.a, ofReal s.r, ofReal s.p, some s.rz⟩

variable {A P}

theorem phalf_st {linop : Arr n → Arr n} (hL : Computes linop A) (s : PRSt n) (h : s.p ⬝ᵥ A *ᵥ s.p ≠ 0) :
    phalf linop s.st = ⟨ofReal (s.newA A), ofReal (s.newR A), ofReal s.p, some s.rz⟩ := by
  have e : (sum fun i => lift (· * ·) (s.st.p i) (linop s.st.p i)) = some (s.p ⬝ᵥ A *ᵥ s.p) := by
    simp only [PRSt.st, hL s.p]
    exact dot_ofReal _ _
  have d : div (s.st.rz) (some (s.p ⬝ᵥ A *ᵥ s.p)) = some (s.alp A) := by
    simp only [PRSt.st, div, if_neg h, PRSt.alp]
  have ha : (fun i => lift (· + ·) (s.st.a i) (lift (· * ·) (some (s.alp A)) (s.st.p i))) = ofReal (s.newA A) := by
    funext i
    simp [PRSt.st, ofReal, lift, PRSt.newA]
  have hr : (fun i => lift (· - ·) (s.st.r i) (lift (· * ·) (some (s.alp A)) (linop s.st.p i))) =
      ofReal (s.newR A) := by
    funext i
    have := congrFun (hL s.p) i
    simp only [PRSt.st, this]
    simp [ofReal, lift, PRSt.newR]
  simp only [phalf, e, d, ha, hr]
  rfl

theorem pnext_st {linop inv : Arr n → Arr n} (hL : Computes linop A) (hP : Computes inv P) (s : PRSt n)
    (h : s.p ⬝ᵥ A *ᵥ s.p ≠ 0) (hz : s.rz ≠ 0) : pnext inv (phalf linop s.st) = (s.step A P).st := by
  rw [phalf_st hL s h]
  simp only [pnext, hP (s.newR A), dot_ofReal, PRSt.st, PRSt.step, div, if_neg hz]
  congr 1

/-- Some variable of the solver has no finite entry: this is so for ever. -/
def Broken (s : PSt n) : Prop := (∀ i, s.r i = none) ∨ ∀ i, s.p i = none

theorem phalf_broken {linop : Arr n → Arr n} {s : PSt n} (h : Broken s) (i : Fin n) : (phalf linop s).r i = none := by
  rcases h with h | h
  · simp [phalf, h, lift]
  · have : (sum fun i => lift (· * ·) (s.p i) (linop s.p i)) = none := sum_none i.pos fun i => by rw [h i]; rfl
    simp only [phalf, this]
    cases s.rz <;> cases s.r i <;> rfl

theorem phalf_zero {linop : Arr n → Arr n} (hL : Computes linop A) (s : PRSt n) (h : s.p ⬝ᵥ A *ᵥ s.p = 0) (i : Fin n) :
    (phalf linop s.st).r i = none := by
  have e : (sum fun i => lift (· * ·) (s.st.p i) (linop s.st.p i)) = some (s.p ⬝ᵥ A *ᵥ s.p) := by
    simp only [PRSt.st, hL s.p]
    exact dot_ofReal _ _
  simp only [phalf, e, h]
  simp only [PRSt.st, div, if_true, ofReal]
  rfl

theorem ploop_broken {linop inv : Arr n → Arr n} (hn : 0 < n) {δ : ℝ} (k : Nat) {s : PSt n}
    (h : ∀ i, (phalf linop s).r i = none) : ploop δ linop inv k s = none := by
  induction k generalizing s with
  | zero => rfl
  | succ k ih =>
    have hq : sq (phalf linop s).r = none := sum_none hn fun i => by rw [h i]; rfl
    simp only [ploop]
    rw [if_neg (by rw [hq]; exact fun h => h)]
    exact ih (phalf_broken (.inl h))

/-- If the loop returns, the residual is small. -/
theorem ploop_residual {linop inv : Arr n → Arr n} (hL : Computes linop A) (hP : Computes inv P) (hn : 0 < n) {δ : ℝ}
    (b : Fin n → ℝ) (k : Nat) (s : PSt n) (x : Arr n)
    (hs : (∃ t : PRSt n, s = t.st ∧ t.r = b - A *ᵥ t.a) ∨ Broken s)
    (h : ploop δ linop inv k s = some x) : ∃ y, x = ofReal y ∧ (b - A *ᵥ y) ⬝ᵥ (b - A *ᵥ y) < δ := by
  induction k generalizing s with
  | zero => simp [ploop] at h
  | succ k ih =>
    have broken : (∀ i, (phalf linop s).r i = none) → ∃ y, x = ofReal y ∧ (b - A *ᵥ y) ⬝ᵥ (b - A *ᵥ y) < δ := fun hb => by
      rw [ploop_broken hn _ hb] at h
      cases h
    rcases hs with ⟨t, rfl, hr⟩ | hs
    · by_cases h0 : t.p ⬝ᵥ A *ᵥ t.p = 0
      · exact broken (phalf_zero hL t h0)
      · have hres : t.newR A = b - A *ᵥ t.newA A := by
          simp only [PRSt.newR, PRSt.newA, mulVec_add, mulVec_smul, hr]
          abel
        simp only [ploop] at h
        by_cases hlt : Lt (sq (phalf linop t.st).r) δ
        · rw [if_pos hlt] at h
          rw [phalf_st hL t h0] at h hlt
          cases h
          rw [sq_ofReal] at hlt
          exact ⟨_, rfl, by rw [← hres]; exact hlt⟩
        · rw [if_neg hlt] at h
          by_cases hz : t.rz = 0
          · refine ih _ (.inr (.inr fun i => ?_)) h
            rw [phalf_st hL t h0]
            simp only [pnext, hP (t.newR A), dot_ofReal, hz]
            simp only [div, if_true, ofReal]
            rfl
          · exact ih _ (.inl ⟨t.step A P, pnext_st hL hP t h0 hz, hres⟩) h
    · exact broken (phalf_broken hs)

/-! ## Orthogonality of the residuals -/

/-- The iterates. -/
noncomputable def pseq (A P : Matrix (Fin n) (Fin n) ℝ) (b : Fin n → ℝ) : Nat → PRSt n
  | 0 => ⟨0, b, P *ᵥ b, b ⬝ᵥ P *ᵥ b⟩
  | k + 1 => (pseq A P b k).step A P

theorem pseq_rz (b : Fin n → ℝ) (k : Nat) : (pseq A P b k).rz = (pseq A P b k).r ⬝ᵥ P *ᵥ (pseq A P b k).r := by
  cases k <;> rfl

theorem porthogonal (hA : Spd A) (hP : Spd P) (b : Fin n → ℝ) (k : Nat) (h0 : ∀ j ≤ k, (pseq A P b j).r ≠ 0) :
    (∀ i j, i < j → j ≤ k → (pseq A P b i).r ⬝ᵥ P *ᵥ (pseq A P b j).r = 0) ∧
    (∀ i j, i < j → j ≤ k → (pseq A P b i).p ⬝ᵥ A *ᵥ (pseq A P b j).p = 0) ∧
    ∀ j ≤ k, (pseq A P b j).p ⬝ᵥ (pseq A P b j).r = (pseq A P b j).rz := by
  have rz0 : ∀ j ≤ k, (pseq A P b j).rz ≠ 0 := fun j hj => by
    rw [pseq_rz]
    exact (spd_pos hP (h0 j hj)).ne'
  induction k with
  | zero =>
    refine ⟨fun i j h1 h2 => by omega, fun i j h1 h2 => by omega, fun j hj => ?_⟩
    obtain rfl : j = 0 := by omega
    exact dotProduct_comm _ _
  | succ k ih =>
    obtain ⟨ia, ib, ic⟩ := ih (fun j hj => h0 j (by omega)) fun j hj => rz0 j (by omega)
    have hp : ∀ j ≤ k, (pseq A P b j).p ≠ 0 := fun j hj e => by
      have := ic j hj
      rw [e, zero_dotProduct] at this
      exact rz0 j (by omega) this.symm
    have hpp : ∀ j ≤ k, (pseq A P b j).p ⬝ᵥ A *ᵥ (pseq A P b j).p ≠ 0 := fun j hj => (spd_pos hA (hp j hj)).ne'
    have hα : ∀ j ≤ k, (pseq A P b j).alp A ≠ 0 := fun j hj => div_ne_zero (rz0 j (by omega)) (hpp j hj)
    have er : ∀ j, (pseq A P b (j + 1)).r = (pseq A P b j).r - (pseq A P b j).alp A • A *ᵥ (pseq A P b j).p := fun j => rfl
    -- scalar products with `A p`
    have ra : ∀ i ≤ k, (P *ᵥ (pseq A P b i).r) ⬝ᵥ A *ᵥ (pseq A P b k).p = (pseq A P b i).p ⬝ᵥ A *ᵥ (pseq A P b k).p := by
      intro i hi
      cases i with
      | zero => rfl
      | succ i =>
        have e : (pseq A P b (i + 1)).p = P *ᵥ (pseq A P b (i + 1)).r +
          ((pseq A P b (i + 1)).rz / (pseq A P b i).rz) • (pseq A P b i).p := rfl
        rw [e, add_dotProduct, smul_dotProduct, ib i k (by omega) (le_refl k)]
        simp
    have alpmul : (pseq A P b k).alp A * ((pseq A P b k).p ⬝ᵥ A *ᵥ (pseq A P b k).p) = (pseq A P b k).rz :=
      div_mul_cancel₀ _ (hpp k (le_refl k))
    have newr : ∀ i ≤ k, (pseq A P b i).r ⬝ᵥ P *ᵥ (pseq A P b (k + 1)).r = 0 := by
      intro i hi
      rw [spd_symm hP, dotProduct_comm, er, dotProduct_sub, dotProduct_smul, ra i hi, smul_eq_mul, dotProduct_comm,
        spd_symm hP]
      rcases Nat.lt_or_eq_of_le hi with hlt | rfl
      · rw [ia i k hlt (le_refl k), ib i k hlt (le_refl k)]
        simp
      · rw [alpmul, pseq_rz, sub_self]
    have Ap : ∀ i ≤ k, A *ᵥ (pseq A P b i).p = ((pseq A P b i).alp A)⁻¹ • ((pseq A P b i).r - (pseq A P b (i + 1)).r) := by
      intro i hi
      rw [er, sub_sub_cancel, smul_smul, inv_mul_cancel₀ (hα i hi), one_smul]
    have ep : (pseq A P b (k + 1)).p = P *ᵥ (pseq A P b (k + 1)).r +
      ((pseq A P b (k + 1)).rz / (pseq A P b k).rz) • (pseq A P b k).p := rfl
    have newp : ∀ i ≤ k, (pseq A P b i).p ⬝ᵥ A *ᵥ (pseq A P b (k + 1)).p = 0 := by
      intro i hi
      rw [spd_symm hA, ep, add_dotProduct, smul_dotProduct, smul_eq_mul]
      rw [show (P *ᵥ (pseq A P b (k + 1)).r) ⬝ᵥ A *ᵥ (pseq A P b i).p = ((pseq A P b i).alp A)⁻¹ *
        ((pseq A P b i).r ⬝ᵥ P *ᵥ (pseq A P b (k + 1)).r - (pseq A P b (i + 1)).r ⬝ᵥ P *ᵥ (pseq A P b (k + 1)).r) by
          rw [Ap i hi, dotProduct_smul, smul_eq_mul, dotProduct_sub, dotProduct_comm,
            dotProduct_comm (P *ᵥ (pseq A P b (k + 1)).r) (pseq A P b (i + 1)).r]]
      rw [newr i hi]
      rcases Nat.lt_or_eq_of_le hi with hlt | rfl
      · rw [newr (i + 1) (by omega), spd_symm hA, ib i k hlt (le_refl k)]
        simp
      · have h1 := hpp i (le_refl i)
        have h2 := rz0 i (by omega)
        rw [← pseq_rz]
        simp only [PRSt.alp]
        field_simp
        ring
    have newc : (pseq A P b k).p ⬝ᵥ (pseq A P b (k + 1)).r = 0 := by
      rw [er, dotProduct_sub, dotProduct_smul, smul_eq_mul, alpmul, ic k (le_refl k), sub_self]
    refine ⟨fun i j h1 h2 => ?_, fun i j h1 h2 => ?_, fun j hj => ?_⟩
    · rcases Nat.lt_or_eq_of_le h2 with h | rfl
      · exact ia i j h1 (by omega)
      · exact newr i (by omega)
    · rcases Nat.lt_or_eq_of_le h2 with h | rfl
      · exact ib i j h1 (by omega)
      · exact newp i (by omega)
    · rcases Nat.lt_or_eq_of_le hj with h | rfl
      · exact ic j (by omega)
      · rw [ep, add_dotProduct, smul_dotProduct, newc, smul_zero, add_zero, dotProduct_comm, pseq_rz]

/-- One of the first `n + 1` residuals is zero. -/
theorem pseq_zero (hA : Spd A) (hP : Spd P) (b : Fin n → ℝ) : ∃ k ≤ n, (pseq A P b k).r = 0 := by
  by_contra hne
  push Not at hne
  obtain ⟨ho, -, -⟩ := porthogonal hA hP b n hne
  have hli : LinearIndependent ℝ fun k : Fin (n + 1) => (pseq A P b k).r := by
    rw [Fintype.linearIndependent_iff]
    intro g hg i
    have h1 : (∑ k : Fin (n + 1), g k • (pseq A P b k).r) ⬝ᵥ P *ᵥ (pseq A P b i).r = 0 := by rw [hg, zero_dotProduct]
    rw [sum_dotProduct, Finset.sum_eq_single i] at h1
    · rw [smul_dotProduct, smul_eq_mul] at h1
      exact (mul_eq_zero.mp h1).resolve_right (spd_pos hP (hne i (by omega))).ne'
    · intro j _ hji
      rw [smul_dotProduct, smul_eq_mul]
      have : (j : Nat) ≠ i := fun e => hji (Fin.ext e)
      rcases Nat.lt_or_gt_of_ne this with h | h
      · rw [ho j i h (by omega), mul_zero]
      · rw [spd_symm hP, ho i j h (by omega), mul_zero]
    · simp
  have := hli.fintype_card_le_finrank
  simp at this

theorem pseq_pp (hA : Spd A) (hP : Spd P) (b : Fin n → ℝ) (m : Nat) (hr : ∀ j ≤ m, (pseq A P b j).r ≠ 0) :
    (pseq A P b m).p ⬝ᵥ A *ᵥ (pseq A P b m).p ≠ 0 ∧ (pseq A P b m).rz ≠ 0 := by
  have hz : (pseq A P b m).rz ≠ 0 := by
    rw [pseq_rz]
    exact (spd_pos hP (hr m (le_refl m))).ne'
  refine ⟨(spd_pos hA fun e => ?_).ne', hz⟩
  have := (porthogonal hA hP b m hr).2.2 m (le_refl m)
  rw [e, zero_dotProduct] at this
  exact hz this.symm

/-- While the residuals are large the loop follows the sequence. -/
theorem ploop_seq {linop inv : Arr n → Arr n} (hL : Computes linop A) (hI : Computes inv P) (hA : Spd A) (hP : Spd P)
    {δ : ℝ} (hδ : 0 < δ) (b : Fin n → ℝ) (hb : b ≠ 0) (m k : Nat)
    (h : ∀ j < m, δ ≤ (pseq A P b (j + 1)).r ⬝ᵥ (pseq A P b (j + 1)).r) :
    ploop δ linop inv (m + k) (pseq A P b 0).st = ploop δ linop inv k (pseq A P b m).st := by
  induction m generalizing k with
  | zero => simp
  | succ m ih =>
    have hr : ∀ j ≤ m, (pseq A P b j).r ≠ 0 := fun j hj e => by
      cases j with
      | zero => exact hb e
      | succ j =>
        have := h j (by omega)
        rw [e, zero_dotProduct] at this
        linarith
    obtain ⟨hpp, hz⟩ := pseq_pp hA hP b m hr
    rw [show m + 1 + k = m + (k + 1) by omega, ih (k + 1) fun j hj => h j (by omega)]
    have e := pnext_st hL hI (pseq A P b m) hpp hz
    have e2 := phalf_st hL (pseq A P b m) hpp
    simp only [ploop]
    rw [if_neg, e]
    · rfl
    · rw [e2, sq_ofReal]
      exact not_lt.mpr (h m (by omega))

theorem ploop_stops {linop inv : Arr n → Arr n} (hL : Computes linop A) (hI : Computes inv P) (hA : Spd A) (hP : Spd P)
    {δ : ℝ} (hδ : 0 < δ) (b : Fin n → ℝ) (hb : b ≠ 0) : ∃ x, ploop δ linop inv n (pseq A P b 0).st = some x := by
  classical
  obtain ⟨k0, hk0, hz⟩ := pseq_zero hA hP b
  obtain ⟨k1, rfl⟩ : ∃ k1, k0 = k1 + 1 := ⟨k0 - 1, by
    rcases k0 with - | k0
    · exact absurd hz hb
    · omega⟩
  have hs : (pseq A P b (k1 + 1)).r ⬝ᵥ (pseq A P b (k1 + 1)).r < δ := by rw [hz, zero_dotProduct]; exact hδ
  have hex : ∃ k, (pseq A P b (k + 1)).r ⬝ᵥ (pseq A P b (k + 1)).r < δ := ⟨k1, hs⟩
  have hle : Nat.find hex ≤ k1 := Nat.find_min' hex hs
  have hsp := Nat.find_spec hex
  have hmin : ∀ j < Nat.find hex, δ ≤ (pseq A P b (j + 1)).r ⬝ᵥ (pseq A P b (j + 1)).r :=
    fun j hj => not_lt.mp (Nat.find_min hex hj)
  generalize Nat.find hex = m at hle hsp hmin
  have hr : ∀ j ≤ m, (pseq A P b j).r ≠ 0 := fun j hj e => by
    cases j with
    | zero => exact hb e
    | succ j =>
      have := hmin j (by omega)
      rw [e, zero_dotProduct] at this
      linarith
  obtain ⟨hpp, -⟩ := pseq_pp hA hP b m hr
  obtain ⟨q, hq⟩ : ∃ q, n = m + (q + 1) := ⟨n - m - 1, by omega⟩
  have e1 := ploop_seq hL hI hA hP hδ b hb m (q + 1) hmin
  rw [← hq] at e1
  rw [e1]
  simp only [ploop]
  refine ⟨_, if_pos ?_⟩
  rw [phalf_st hL _ hpp, sq_ofReal]
  exact hsp

end Verif.Cg
