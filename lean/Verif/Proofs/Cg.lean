import Verif.Spec.Cg
import Mathlib.LinearAlgebra.FiniteDimensional.Basic
import Mathlib.LinearAlgebra.Matrix.DotProduct
import Mathlib.LinearAlgebra.Dimension.Constructions
import Mathlib.Data.Real.Basic
import Mathlib.Algebra.Order.BigOperators.Ring.Finset
import Mathlib.Tactic.Ring
import Mathlib.Tactic.FieldSimp
import Mathlib.Tactic.Linarith

/-!
# The conjugate gradient method in exact arithmetic
-/

namespace Verif.Cg

open Spec Matrix

variable {n : Nat}

/-! ## Operations on finite numbers -/

theorem foldl_some (l : List ℝ) (x : ℝ) :
    (l.map some).foldl (lift (· + ·)) (some x) = some (x + l.sum) := by
  induction l generalizing x with
  | nil => simp
  | cons y l ih =>
    simp only [List.map_cons, List.foldl_cons, lift, ih, List.sum_cons]
    rw [add_assoc]

theorem sum_ofReal (x : Fin n → ℝ) : (sum fun i => some (x i)) = some (∑ i, x i) := by
  unfold sum
  rw [show (List.ofFn fun i => some (x i)) = (List.ofFn x).map some by rw [List.map_ofFn]; rfl, foldl_some,
    List.sum_ofFn, zero_add]

theorem sq_ofReal (x : Fin n → ℝ) : sq (ofReal x) = some (x ⬝ᵥ x) := by
  unfold sq ofReal
  simp only [lift]
  rw [sum_ofReal]
  rfl

theorem foldl_none (l : List Flt) : l.foldl (lift (· + ·)) none = none := by
  induction l with
  | nil => rfl
  | cons y l ih => simpa [lift] using ih

theorem sum_none {x : Arr n} (hn : 0 < n) (hx : ∀ i, x i = none) : sum x = none := by
  obtain ⟨m, rfl⟩ : ∃ m, n = m + 1 := ⟨n - 1, by omega⟩
  unfold sum
  rw [List.ofFn_succ, List.foldl_cons, hx]
  exact foldl_none _

theorem foldl_nonneg (l : List Flt) (hl : ∀ x ∈ l, ∀ y, x = some y → 0 ≤ y) (x : Flt) (hx : ∀ y, x = some y → 0 ≤ y) (y : ℝ)
    (h : l.foldl (lift (· + ·)) x = some y) : 0 ≤ y := by
  induction l generalizing x with
  | nil => exact hx y h
  | cons z l ih =>
    refine ih (fun u hu => hl u (List.mem_cons_of_mem _ hu)) _ (fun w hw => ?_) h
    cases x with
    | none => simp [lift] at hw
    | some x =>
      cases z with
      | none => simp [lift] at hw
      | some z =>
        simp only [lift, Option.some.injEq] at hw
        rw [← hw]
        exact add_nonneg (hx x rfl) (hl _ List.mem_cons_self z rfl)

/-- A sum of squares is not negative. -/
theorem sq_not_lt (x : Arr n) {δ : ℝ} (hδ : δ ≤ 0) : ¬ Lt (sq x) δ := by
  intro h
  rcases hs : sq x with _ | y
  · simp [hs, Lt] at h
  · rw [hs] at h
    have : 0 ≤ y := by
      refine foldl_nonneg _ (fun z hz w hw => ?_) (some 0) (fun y hy => by cases hy; exact le_refl _) y hs
      obtain ⟨i, rfl⟩ := (List.mem_ofFn' _ _).mp hz
      rcases hx : x i with _ | u
      · simp [hx, lift] at hw
      · simp only [hx, lift, Option.some.injEq] at hw
        rw [← hw]
        exact mul_self_nonneg u
    exact absurd h (not_lt.mpr (hδ.trans this))

/-! ## Real sequences -/

/-- The variables of the loop, in exact arithmetic. -/
structure RSt (n : Nat) where
  a : Fin n → ℝ
  r : Fin n → ℝ
  p : Fin n → ℝ

variable (A : Matrix (Fin n) (Fin n) ℝ)

/-- `alp`. -/
noncomputable def RSt.alp (s : RSt n) : ℝ := (s.r ⬝ᵥ s.r) / (s.p ⬝ᵥ A *ᵥ s.p)

/-- `a` and `r` after one iteration. -/
noncomputable def RSt.newA (s : RSt n) : Fin n → ℝ := s.a + s.alp A • s.p

@[inherit_doc RSt.newA]
noncomputable def RSt.newR (s : RSt n) : Fin n → ℝ := s.r - s.alp A • A *ᵥ s.p

/-- One iteration. -/
noncomputable def RSt.step (s : RSt n) : RSt n :=
  ⟨s.newA A, s.newR A, s.newR A + ((s.newR A ⬝ᵥ s.newR A) / (s.r ⬝ᵥ s.r)) • s.p⟩

/-- The state of the solver. -/
def RSt.st (s : RSt n) : St n := ⟨ofReal s.a, ofReal s.r, ofReal s.p, some (s.r ⬝ᵥ s.r)⟩

variable {A}

theorem half_st {linop : Arr n → Arr n} (hL : Computes linop A) (s : RSt n) (h : s.p ⬝ᵥ A *ᵥ s.p ≠ 0) :
    half linop s.st = ⟨ofReal (s.newA A), ofReal (s.newR A), ofReal s.p, some (s.newR A ⬝ᵥ s.newR A)⟩ := by
  have e : (sum fun i => lift (· * ·) (s.st.p i) (linop s.st.p i)) = some (s.p ⬝ᵥ A *ᵥ s.p) := by
    simp only [RSt.st, hL s.p, ofReal, lift]
    rw [sum_ofReal]
    rfl
  have d : div (s.st.nr2) (some (s.p ⬝ᵥ A *ᵥ s.p)) = some (s.alp A) := by
    simp only [RSt.st, div, if_neg h, RSt.alp]
  have ha : (fun i => lift (· + ·) (s.st.a i) (lift (· * ·) (some (s.alp A)) (s.st.p i))) = ofReal (s.newA A) := by
    funext i
    simp [RSt.st, ofReal, lift, RSt.newA]
  have hr : (fun i => lift (· - ·) (s.st.r i) (lift (· * ·) (some (s.alp A)) (linop s.st.p i))) =
      ofReal (s.newR A) := by
    funext i
    have := congrFun (hL s.p) i
    simp only [RSt.st, this]
    simp [ofReal, lift, RSt.newR]
  simp only [half, e, d, ha, hr, sq_ofReal]
  rfl

theorem next_st {linop : Arr n → Arr n} (hL : Computes linop A) (s : RSt n) (h : s.p ⬝ᵥ A *ᵥ s.p ≠ 0)
    (hr : s.r ⬝ᵥ s.r ≠ 0) : next s.st (half linop s.st) = (s.step A).st := by
  rw [half_st hL s h]
  simp only [next, RSt.st, RSt.step, div, if_neg hr]
  congr 1

/-- If the product `⟨p, Mp⟩` is zero all entries of the residual are not finite. -/
theorem half_zero {linop : Arr n → Arr n} (hL : Computes linop A) (s : RSt n) (h : s.p ⬝ᵥ A *ᵥ s.p = 0) (i : Fin n) :
    (half linop s.st).r i = none := by
  have e : (sum fun i => lift (· * ·) (s.st.p i) (linop s.st.p i)) = some (s.p ⬝ᵥ A *ᵥ s.p) := by
    simp only [RSt.st, hL s.p, ofReal, lift]
    rw [sum_ofReal]
    rfl
  simp only [half, e, h]
  simp only [RSt.st, div, if_true, ofReal]
  simp [lift]

theorem half_none {linop : Arr n → Arr n} {s : St n} (h : ∀ i, s.r i = none) (i : Fin n) :
    (half linop s).r i = none := by
  simp [half, h, lift]

/-- If the loop returns, the residual is small. -/
theorem loop_residual {linop : Arr n → Arr n} (hL : Computes linop A) (hn : 0 < n) {δ : ℝ} (hδ : 0 < δ)
    (b : Fin n → ℝ) (k : Nat) (s : St n) (x : Arr n)
    (hs : (∃ t : RSt n, s = t.st ∧ t.r = b - A *ᵥ t.a ∧ δ ≤ t.r ⬝ᵥ t.r) ∨ ∀ i, s.r i = none)
    (h : loop δ linop k s = some x) : ∃ y, x = ofReal y ∧ (b - A *ᵥ y) ⬝ᵥ (b - A *ᵥ y) < δ := by
  induction k generalizing s with
  | zero => simp [loop] at h
  | succ k ih =>
    simp only [loop] at h
    have broken : (∀ i, (half linop s).r i = none) → ∃ y, x = ofReal y ∧ (b - A *ᵥ y) ⬝ᵥ (b - A *ᵥ y) < δ := by
      intro hb
      have hq : (half linop s).nr2 = none := by
        show sq (half linop s).r = none
        exact sum_none hn fun i => by rw [hb i]; rfl
      rw [if_neg (by rw [hq]; exact fun h => h)] at h
      exact ih (next s (half linop s)) (.inr hb) h
    rcases hs with ⟨t, rfl, hr, hd⟩ | hs
    · by_cases h0 : t.p ⬝ᵥ A *ᵥ t.p = 0
      · exact broken (half_zero hL t h0)
      · have hr0 : t.r ⬝ᵥ t.r ≠ 0 := fun e => by linarith
        have hres : t.newR A = b - A *ᵥ t.newA A := by
          simp only [RSt.newR, RSt.newA, mulVec_add, mulVec_smul, hr]
          abel
        by_cases hlt : Lt (half linop t.st).nr2 δ
        · rw [if_pos hlt] at h
          rw [half_st hL t h0] at h hlt
          cases h
          exact ⟨_, rfl, by rw [← hres]; exact hlt⟩
        · rw [if_neg hlt] at h
          refine ih _ (.inl ⟨t.step A, next_st hL t h0 hr0, hres, ?_⟩) h
          rw [half_st hL t h0] at hlt
          exact not_lt.mp hlt
    · exact broken (half_none hs)

/-! ## Orthogonality of the residuals -/

theorem spd_symm (hA : Spd A) (x y : Fin n → ℝ) : x ⬝ᵥ A *ᵥ y = y ⬝ᵥ A *ᵥ x := by
  have : Aᵀ = A := by
    ext i j
    exact hA.1 j i
  rw [dotProduct_mulVec, ← mulVec_transpose, this, dotProduct_comm]

theorem spd_pos (hA : Spd A) {x : Fin n → ℝ} (hx : x ≠ 0) : 0 < x ⬝ᵥ A *ᵥ x := hA.2 x hx

/-- The iterates. -/
noncomputable def seq (A : Matrix (Fin n) (Fin n) ℝ) (b : Fin n → ℝ) : Nat → RSt n
  | 0 => ⟨0, b, b⟩
  | k + 1 => (seq A b k).step A

theorem dot_self_ne {x : Fin n → ℝ} (hx : x ≠ 0) : x ⬝ᵥ x ≠ 0 := fun h => hx (dotProduct_self_eq_zero.mp h)

theorem orthogonal (hA : Spd A) (b : Fin n → ℝ) (k : Nat) (h0 : ∀ j ≤ k, (seq A b j).r ≠ 0) :
    (∀ i j, i < j → j ≤ k → (seq A b i).r ⬝ᵥ (seq A b j).r = 0) ∧
    (∀ i j, i < j → j ≤ k → (seq A b i).p ⬝ᵥ A *ᵥ (seq A b j).p = 0) ∧
    ∀ j ≤ k, (seq A b j).p ⬝ᵥ (seq A b j).r = (seq A b j).r ⬝ᵥ (seq A b j).r := by
  induction k with
  | zero =>
    refine ⟨fun i j h1 h2 => by omega, fun i j h1 h2 => by omega, fun j hj => ?_⟩
    obtain rfl : j = 0 := by omega
    rfl
  | succ k ih =>
    obtain ⟨ia, ib, ic⟩ := ih fun j hj => h0 j (by omega)
    have hp : ∀ j ≤ k, (seq A b j).p ≠ 0 := fun j hj e => by
      have := ic j hj
      rw [e, zero_dotProduct] at this
      exact dot_self_ne (h0 j (by omega)) this.symm
    have hpp : ∀ j ≤ k, (seq A b j).p ⬝ᵥ A *ᵥ (seq A b j).p ≠ 0 := fun j hj => (spd_pos hA (hp j hj)).ne'
    have hα : ∀ j ≤ k, (seq A b j).alp A ≠ 0 := fun j hj =>
      div_ne_zero (dot_self_ne (h0 j (by omega))) (hpp j hj)
    have er : ∀ j, (seq A b (j + 1)).r = (seq A b j).r - (seq A b j).alp A • A *ᵥ (seq A b j).p := fun j => rfl
    -- scalar products with `A p`
    have ra : ∀ i ≤ k, (seq A b i).r ⬝ᵥ A *ᵥ (seq A b k).p = (seq A b i).p ⬝ᵥ A *ᵥ (seq A b k).p := by
      intro i hi
      cases i with
      | zero => rfl
      | succ i =>
        have e : (seq A b (i + 1)).p = (seq A b (i + 1)).r +
          (((seq A b (i + 1)).r ⬝ᵥ (seq A b (i + 1)).r) / ((seq A b i).r ⬝ᵥ (seq A b i).r)) • (seq A b i).p := rfl
        rw [e, add_dotProduct, smul_dotProduct, ib i k (by omega) (le_refl k)]
        simp
    have alpmul : (seq A b k).alp A * ((seq A b k).p ⬝ᵥ A *ᵥ (seq A b k).p) = (seq A b k).r ⬝ᵥ (seq A b k).r :=
      div_mul_cancel₀ _ (hpp k (le_refl k))
    have newr : ∀ i ≤ k, (seq A b i).r ⬝ᵥ (seq A b (k + 1)).r = 0 := by
      intro i hi
      rw [er, dotProduct_sub, dotProduct_smul, ra i hi, smul_eq_mul]
      rcases Nat.lt_or_eq_of_le hi with hlt | rfl
      · rw [ia i k hlt (le_refl k), ib i k hlt (le_refl k)]
        simp
      · rw [alpmul, sub_self]
    have Ap : ∀ i ≤ k, A *ᵥ (seq A b i).p = ((seq A b i).alp A)⁻¹ • ((seq A b i).r - (seq A b (i + 1)).r) := by
      intro i hi
      rw [er, sub_sub_cancel, smul_smul, inv_mul_cancel₀ (hα i hi), one_smul]
    have ep : (seq A b (k + 1)).p = (seq A b (k + 1)).r +
      (((seq A b (k + 1)).r ⬝ᵥ (seq A b (k + 1)).r) / ((seq A b k).r ⬝ᵥ (seq A b k).r)) • (seq A b k).p := rfl
    have newp : ∀ i ≤ k, (seq A b i).p ⬝ᵥ A *ᵥ (seq A b (k + 1)).p = 0 := by
      intro i hi
      rw [spd_symm hA, ep, add_dotProduct, smul_dotProduct, smul_eq_mul]
      rw [show (seq A b (k + 1)).r ⬝ᵥ A *ᵥ (seq A b i).p = ((seq A b i).alp A)⁻¹ *
        ((seq A b i).r ⬝ᵥ (seq A b (k + 1)).r - (seq A b (i + 1)).r ⬝ᵥ (seq A b (k + 1)).r) by
          rw [Ap i hi, dotProduct_smul, smul_eq_mul, dotProduct_sub, dotProduct_comm,
            dotProduct_comm (seq A b (i + 1)).r]]
      rw [newr i hi]
      rcases Nat.lt_or_eq_of_le hi with hlt | rfl
      · rw [newr (i + 1) (by omega), spd_symm hA, ib i k hlt (le_refl k)]
        simp
      · have h1 := hpp i (le_refl i)
        have h2 := dot_self_ne (h0 i (by omega))
        simp only [RSt.alp]
        field_simp
        ring
    have newc : (seq A b k).p ⬝ᵥ (seq A b (k + 1)).r = 0 := by
      rw [er, dotProduct_sub, dotProduct_smul, smul_eq_mul, alpmul, ic k (le_refl k), sub_self]
    refine ⟨fun i j h1 h2 => ?_, fun i j h1 h2 => ?_, fun j hj => ?_⟩
    · rcases Nat.lt_or_eq_of_le h2 with h | rfl
      · exact ia i j h1 (by omega)
      · exact newr i (by omega)
    · rcases Nat.lt_or_eq_of_le h2 with h | rfl
      · exact ib i j h1 (by omega)
      · exact newp i (by omega)
    · rcases Nat.lt_or_eq_of_le hj with h | rfl
      · exact ic j (by omega)
      · rw [ep, add_dotProduct, smul_dotProduct, newc, smul_zero, add_zero]

/-- One of the first `n + 1` residuals is zero. -/
theorem seq_zero (hA : Spd A) (b : Fin n → ℝ) : ∃ k ≤ n, (seq A b k).r = 0 := by
  by_contra hne
  push Not at hne
  obtain ⟨ho, -, -⟩ := orthogonal hA b n hne
  have hli : LinearIndependent ℝ fun k : Fin (n + 1) => (seq A b k).r := by
    rw [Fintype.linearIndependent_iff]
    intro g hg i
    have h1 : (∑ k : Fin (n + 1), g k • (seq A b k).r) ⬝ᵥ (seq A b i).r = 0 := by rw [hg, zero_dotProduct]
    rw [sum_dotProduct, Finset.sum_eq_single i] at h1
    · rw [smul_dotProduct, smul_eq_mul] at h1
      exact (mul_eq_zero.mp h1).resolve_right (dot_self_ne (hne i (by omega)))
    · intro j _ hji
      rw [smul_dotProduct, smul_eq_mul]
      have : (j : Nat) ≠ i := fun e => hji (Fin.ext e)
      rcases Nat.lt_or_gt_of_ne this with h | h
      · rw [ho j i h (by omega), mul_zero]
      · rw [dotProduct_comm, ho i j h (by omega), mul_zero]
    · simp
  have := hli.fintype_card_le_finrank
  simp at this

/-- While the residuals are large the loop follows the sequence. -/
theorem loop_seq {linop : Arr n → Arr n} (hL : Computes linop A) (hA : Spd A) {δ : ℝ} (hδ : 0 < δ) (b : Fin n → ℝ)
    (m k : Nat) (h : ∀ j ≤ m, δ ≤ (seq A b j).r ⬝ᵥ (seq A b j).r) :
    loop δ linop (m + k) (seq A b 0).st = loop δ linop k (seq A b m).st := by
  induction m generalizing k with
  | zero => simp
  | succ m ih =>
    have hr : ∀ j ≤ m, (seq A b j).r ≠ 0 := fun j hj e => by
      have := h j (by omega)
      rw [e, zero_dotProduct] at this
      linarith
    have hpp : (seq A b m).p ⬝ᵥ A *ᵥ (seq A b m).p ≠ 0 := by
      refine (spd_pos hA fun e => ?_).ne'
      have := (orthogonal hA b m hr).2.2 m (le_refl m)
      rw [e, zero_dotProduct] at this
      exact dot_self_ne (hr m (le_refl m)) this.symm
    rw [show m + 1 + k = m + (k + 1) by omega, ih (k + 1) fun j hj => h j (by omega)]
    have e := next_st hL (seq A b m) hpp (dot_self_ne (hr m (le_refl m)))
    have e2 := half_st hL (seq A b m) hpp
    simp only [loop]
    rw [if_neg, e]
    · rfl
    · rw [e2]
      exact not_lt.mpr (h (m + 1) (le_refl _))

theorem loop_stops {linop : Arr n → Arr n} (hL : Computes linop A) (hA : Spd A) {δ : ℝ} (hδ : 0 < δ) (b : Fin n → ℝ)
    (h0 : δ ≤ b ⬝ᵥ b) : ∃ x, loop δ linop n (seq A b 0).st = some x := by
  classical
  have hex : ∃ k, (seq A b k).r ⬝ᵥ (seq A b k).r < δ := by
    obtain ⟨k, -, hk⟩ := seq_zero hA b
    exact ⟨k, by rw [hk, zero_dotProduct]; exact hδ⟩
  obtain ⟨k0, hk0, hz⟩ := seq_zero hA b
  have hle : Nat.find hex ≤ n := (Nat.find_min' hex (by rw [hz, zero_dotProduct]; exact hδ)).trans hk0
  have hsp := Nat.find_spec hex
  have hmin : ∀ j < Nat.find hex, δ ≤ (seq A b j).r ⬝ᵥ (seq A b j).r := fun j hj => not_lt.mp (Nat.find_min hex hj)
  rcases hf : Nat.find hex with _ | m
  · rw [hf] at hsp
    exact absurd hsp (not_lt.mpr h0)
  rw [hf] at hsp hle hmin
  have hr : ∀ j ≤ m, (seq A b j).r ≠ 0 := fun j hj e => by
    have := hmin j (by omega)
    rw [e, zero_dotProduct] at this
    linarith
  have hpp : (seq A b m).p ⬝ᵥ A *ᵥ (seq A b m).p ≠ 0 := by
    refine (spd_pos hA fun e => ?_).ne'
    have := (orthogonal hA b m hr).2.2 m (le_refl m)
    rw [e, zero_dotProduct] at this
    exact dot_self_ne (hr m (le_refl m)) this.symm
  obtain ⟨q, rfl⟩ : ∃ q, n = m + (q + 1) := ⟨n - m - 1, by omega⟩
  rw [loop_seq hL hA hδ b m (q + 1) fun j hj => hmin j (by omega)]
  have e2 := half_st hL (seq A b m) hpp
  simp only [loop]
  refine ⟨_, if_pos ?_⟩
  rw [e2]
  exact hsp

end Verif.Cg
