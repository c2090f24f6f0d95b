import Mathlib.Tactic.FieldSimp
import Mathlib.Tactic.Linarith
import Mathlib.Tactic.Ring
import Mathlib.Algebra.BigOperators.Intervals
import Verif.Model.BSpline
import Verif.Spec.BSpline
import Verif.Proofs.FormulaCode

/-!
# B-splines: helper lemmas
-/

namespace Verif.BSpline

open Finset

/-- The `n` first knots are in order. -/
def Mono (t : Nat → ℝ) (n : Nat) : Prop := ∀ i j, i ≤ j → j < n → t i ≤ t j

variable {t : Nat → ℝ} {n : Nat} {x : ℝ}

theorem mono_knot {l : List ℝ} (h : l.Pairwise (· ≤ ·)) : Mono (knot l) l.length := by
  intro i j hij hj
  rcases Nat.lt_or_eq_of_le hij with h' | rfl
  · unfold knot
    rw [List.getD_eq_getElem?_getD, List.getD_eq_getElem?_getD, List.getElem?_eq_getElem hj,
      List.getElem?_eq_getElem (show i < l.length by omega)]
    exact List.pairwise_iff_getElem.1 h i j _ _ h'
  · exact le_rfl

/-- The weight of the code. -/
noncomputable def omega (t : Nat → ℝ) (x : ℝ) (i k : Nat) : ℝ :=
  if t i < t (i + k) then (x - t i) / (t (i + k) - t i) else 0

theorem basis_support (ht : Mono t n) {p i : Nat} (hi : i + p + 1 < n) (h : ¬ (t i ≤ x ∧ x < t (i + p + 1))) :
    basis t x p i = 0 := by
  induction p generalizing i with
  | zero => rw [basis, if_neg h]
  | succ p ih =>
    rw [basis]
    have h1 := ht i (i + 1) (by omega) (by omega)
    have h2 := ht (i + p + 1) (i + p + 2) (by omega) (by omega)
    rw [ih (i := i) (by omega) (fun h' => h ⟨h'.1, lt_of_lt_of_le h'.2 h2⟩),
      ih (i := i + 1) (by omega) (fun h' => h ⟨h1.trans h'.1, by
        have := h'.2; rwa [show i + 1 + p + 1 = i + (p + 1) + 1 by omega] at this⟩)]
    ring

theorem basis_step (ht : Mono t n) {p i : Nat} (hi : i + p + 2 < n) :
    omega t x i (p + 1) * basis t x p i + (1 - omega t x (i + 1) (p + 1)) * basis t x p (i + 1) =
      basis t x (p + 1) i := by
  rw [basis]
  congr 1
  · congr 1
    unfold omega quot
    have := ht i (i + p + 1) (by omega) (by omega)
    rcases this.lt_or_eq with h | h
    · rw [if_pos (by exact h), if_neg (by linarith)]; rfl
    · rw [if_neg (by exact h.not_lt), if_pos (by linarith)]
  · have := ht (i + 1) (i + p + 2) (by omega) (by omega)
    have e : i + 1 + (p + 1) = i + p + 2 := by omega
    rcases this.lt_or_eq with h | h
    · congr 1
      unfold omega quot
      have h0 : t (i + p + 2) - t (i + 1) ≠ 0 := by linarith
      rw [if_pos (by rw [e]; exact h), if_neg h0, e]
      field_simp
      ring
    · rw [basis_support ht (p := p) (i := i + 1) (by omega), mul_zero, mul_zero]
      rw [show i + 1 + p + 1 = i + p + 2 by omega, ← h]
      exact fun h' => absurd h'.2 (not_lt.2 h'.1)

theorem quot_nonneg {a b : ℝ} (ha : 0 ≤ a) (hb : 0 ≤ b) : 0 ≤ quot a b := by
  unfold quot
  split
  · exact le_rfl
  · exact div_nonneg ha hb

theorem basis_nonneg (ht : Mono t n) {p i : Nat} (hi : i + p + 1 < n) : 0 ≤ basis t x p i := by
  induction p generalizing i with
  | zero => rw [basis]; split <;> norm_num
  | succ p ih =>
    rw [basis]
    refine add_nonneg ?_ ?_
    · by_cases h : t i ≤ x ∧ x < t (i + p + 1)
      · refine mul_nonneg (quot_nonneg (by linarith) ?_) (ih (by omega))
        linarith [ht i (i + p + 1) (by omega) (by omega)]
      · rw [basis_support ht (by omega) h, mul_zero]
    · by_cases h : t (i + 1) ≤ x ∧ x < t (i + 1 + p + 1)
      · have e : i + 1 + p + 1 = i + p + 2 := by omega
        rw [e] at h
        refine mul_nonneg (quot_nonneg (by linarith) ?_) (ih (by omega))
        linarith [ht (i + 1) (i + p + 2) (by omega) (by omega)]
      · rw [basis_support ht (by omega) h, mul_zero]

theorem exists_cell {m : Nat} {a b : Nat} (hab : a ≤ b) (hb : b ≤ m) (h1 : t a ≤ x) (h2 : x < t b) :
    ∃ j, a ≤ j ∧ j < b ∧ t j ≤ x ∧ x < t (j + 1) := by
  induction b with
  | zero =>
    obtain rfl : a = 0 := by omega
    exact absurd h2 (not_lt.2 h1)
  | succ b ih =>
    by_cases h : x < t b
    · have : a ≤ b := by
        rcases Nat.lt_or_eq_of_le hab with h' | rfl
        · omega
        · exact absurd h2 (not_lt.2 h1)
      obtain ⟨j, h3, h4, h5⟩ := ih this (by omega) h
      exact ⟨j, h3, by omega, h5⟩
    · refine ⟨b, ?_, by omega, not_lt.1 h, h2⟩
      rcases Nat.lt_or_eq_of_le hab with h' | rfl
      · omega
      · exact absurd h2 (not_lt.2 h1)

theorem basis_sum (ht : Mono t n) {p : Nat} (hp : 2 * p + 1 < n) (h1 : t p ≤ x) (h2 : x < t (n - 1 - p)) :
    ∑ i ∈ range (n - 1 - p), basis t x p i = 1 := by
  suffices H : ∀ q ≤ p, ∑ i ∈ range (n - 1 - q), basis t x q i = 1 from H p le_rfl
  intro q hq
  induction q with
  | zero =>
    obtain ⟨j, h3, h4, h5, h6⟩ := exists_cell (t := t) (x := x) (m := n) (a := p) (b := n - 1 - p)
      (by omega) (by omega) h1 h2
    rw [Finset.sum_eq_single j]
    · rw [basis, if_pos ⟨h5, h6⟩]
    · intro b hb hbj
      rw [Finset.mem_range] at hb
      rw [basis, if_neg]
      rintro ⟨h7, h8⟩
      rcases Nat.lt_or_gt_of_ne hbj with h | h
      · linarith [ht (b + 1) j (by omega) (by omega)]
      · linarith [ht (j + 1) b (by omega) (by omega)]
    · intro h; exact absurd (Finset.mem_range.2 (by omega)) h
  | succ q ih =>
    have ih := ih (by omega)
    obtain ⟨m, hm⟩ : ∃ m, n - 1 - q = m + 2 := ⟨n - 3 - q, by omega⟩
    rw [show n - 1 - (q + 1) = m + 1 by omega]
    rw [hm, Finset.sum_range_succ, Finset.sum_range_succ'] at ih
    have z0 : basis t x q 0 = 0 := basis_support ht (by omega) fun h => by
      linarith [h.2, ht (0 + q + 1) p (by omega) (by omega)]
    have z1 : basis t x q (m + 1) = 0 := basis_support ht (by omega) fun h => by
      linarith [h.1, ht (n - 1 - p) (m + 1) (by omega) (by omega)]
    rw [z0, z1, add_zero, add_zero] at ih
    rw [← ih, Finset.sum_congr rfl fun i hi => (basis_step ht (p := q) (i := i)
      (by rw [Finset.mem_range] at hi; omega)).symm, Finset.sum_add_distrib, Finset.sum_range_succ',
      Finset.sum_range_succ (fun i => (1 - omega t x (i + 1) (q + 1)) * basis t x q (i + 1)), z0, z1, mul_zero,
      mul_zero, add_zero, add_zero, ← Finset.sum_add_distrib]
    refine Finset.sum_congr rfl fun i _ => ?_
    ring

/-! ## The code -/

variable {M : CMath} {d : Nat} {z : Nat → ℝ}

theorem ratio_vec (hM : M.Exact) {i k : Nat} (h : i + k < n) :
    ratio M (vec n t) x i (i + k) = .ok (omega t x i k) := by
  unfold ratio omega
  rw [get_vec (by omega), ok_bind, get_vec h, ok_bind, pure_ok]
  by_cases h' : t i < t (i + k)
  · rw [if_pos h', if_pos h', hM.div _ _ (by linarith)]
  · rw [if_neg h', if_neg h']

theorem start_vec (h : d + 1 ≤ n) :
    loop d (start (vec n t) x) (vec d z) = .ok (vec d (basis t x 0)) := by
  have := loop_put (s := 0) (n := d) (d := d) (z := z) (v := basis t x 0) (by omega)
  rw [loop_congr (b' := fun k out => CArr.put out (0 + k : Nat) (basis t x 0 k)), this]
  · congr 1
    refine vec_congr fun k hk => ?_
    rw [if_pos (by omega), Nat.sub_zero]
  · intro k hk
    funext out
    unfold start
    rw [get_vec (by omega), ok_bind, get_vec (by omega), ok_bind, Nat.zero_add, basis]

theorem outer_vec (hM : M.Exact) (ht : Mono t n) {p : Nat} (hd : d + 1 = n) (hp : p + 1 < n)
    (hz : ∀ i, i + p < d → z i = basis t x p i) :
    ∃ z', outer M (vec n t) x d (p + 1) (vec d z) = .ok (vec d z') ∧
      ∀ i, i + (p + 1) < d → z' i = basis t x (p + 1) i := by
  refine ⟨fun i => if i < d - (p + 1) then basis t x (p + 1) i else z i, ?_, fun i hi => if_pos (by omega)⟩
  unfold outer
  have h0 := ratio_vec (t := t) (x := x) (n := n) hM (i := 0) (k := p + 1) (by omega)
  rw [Nat.zero_add] at h0
  rw [h0, ok_bind]
  have := loop_state (n := d - (p + 1)) (body := inner M (vec n t) x (p + 1))
    (fun m => (vec d (fun i => if i < m then basis t x (p + 1) i else z i), omega t x m (p + 1))) fun m hm => by
      unfold inner
      rw [ratio_vec hM (by omega), ok_bind]
      dsimp only
      rw [get_vec (by omega), ok_bind, get_vec (by omega), ok_bind, put_vec (by omega), ok_bind, pure_ok]
      congr 2
      refine vec_congr fun i hi => ?_
      rw [if_neg (by omega), if_neg (by omega), hz m (by omega), hz (m + 1) (by omega), basis_step ht (by omega)]
      by_cases h : i = m
      · subst h; rw [Function.update_self, if_pos (by omega)]
      · rw [Function.update_of_ne h]
        by_cases h' : i < m
        · rw [if_pos h', if_pos (by omega)]
        · rw [if_neg h', if_neg (by omega)]
  simp only [Nat.not_lt_zero, if_false] at this
  rw [this, ok_bind, pure_ok]

theorem op_vec (hM : M.Exact) (ht : Mono t n) {order : Nat} (hd : d + 1 = n) (ho : order + 2 ≤ n) {inX : CArr}
    (hx : inX = [x]) :
    ∃ z', op M .float order (vec d z) (vec n t) inX = .ok (vec d z') ∧
      ∀ i, i + order < d → z' i = basis t x order i := by
  have H : ∀ m ≤ order, ∃ z', loop m (fun k out => outer M (vec n t) x out.length (k + 1) out)
      (vec d (basis t x 0)) = .ok (vec d z') ∧ ∀ i, i + m < d → z' i = basis t x m i := by
    intro m hm
    induction m with
    | zero => exact ⟨_, rfl, fun i _ => rfl⟩
    | succ m ih =>
      obtain ⟨z', h1, h2⟩ := ih (by omega)
      rw [loop_succ, h1, ok_bind, vec_length]
      exact outer_vec hM ht hd (by omega) h2
  obtain ⟨z', h1, h2⟩ := H order le_rfl
  refine ⟨z', ?_, h2⟩
  subst hx
  unfold op
  rw [show types .float = .ok () from rfl, ok_bind, show CArr.get [x] 0 = .ok x from rfl, ok_bind, vec_length,
    start_vec (by omega), ok_bind, h1]

end Verif.BSpline
