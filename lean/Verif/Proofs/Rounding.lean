import Mathlib.Algebra.Order.Field.Power
import Mathlib.Tactic.Linarith
import Mathlib.Tactic.Positivity
import Mathlib.Tactic.NormNum
import Mathlib.Tactic.Ring
import Mathlib.Tactic.FieldSimp
import Verif.Spec.RoundedSum

/-!
# Rounding to nearest: lemmas
-/

namespace Verif.Rnd

theorem nearestInt_err (y : ℝ) : |(nearestInt y : ℝ) - y| ≤ 1 / 2 := by
  have h0 := Int.fract_nonneg y
  have h1 := Int.fract_lt_one y
  have h2 : y = ⌊y⌋ + Int.fract y := (Int.floor_add_fract y).symm
  unfold nearestInt
  split_ifs with h
  · rw [abs_le]
    rcases h with h | h <;> constructor <;> linarith
  · push Not at h
    push_cast
    have h3 := h.1
    rw [abs_le]
    constructor <;> linarith

theorem nearestInt_int (n : ℤ) : nearestInt (n : ℝ) = n := by
  simp [nearestInt]

theorem le_nearestInt {y : ℝ} {n : ℤ} (h : (n : ℝ) ≤ y) : n ≤ nearestInt y := by
  have := Int.le_floor.2 h
  unfold nearestInt
  split_ifs <;> omega

theorem nearestInt_le {y : ℝ} {n : ℤ} (h : y ≤ n) : nearestInt y ≤ n := by
  by_cases hy : y = n
  · rw [hy, nearestInt_int]
  · have : ⌊y⌋ < n := Int.floor_lt.2 (lt_of_le_of_ne h hy)
    unfold nearestInt
    split_ifs <;> omega

theorem lastBit_le {p : Nat} {x : ℝ} (hx : x ≠ 0) : (2 : ℝ) ^ lastBit p x * 2 ^ (p : ℤ) ≤ 2 * |x| := by
  have h := Int.zpow_log_le_self (b := 2) (by norm_num) (abs_pos.2 hx)
  unfold lastBit
  rw [← zpow_add₀ (by norm_num), show Int.log 2 |x| + 1 - (p : ℤ) + p = Int.log 2 |x| + 1 by ring,
    zpow_add₀ (by norm_num)]
  push_cast at h
  norm_num
  linarith

theorem lt_lastBit {p : Nat} {x : ℝ} : |x| < (2 : ℝ) ^ lastBit p x * 2 ^ (p : ℤ) := by
  have h := Int.lt_zpow_succ_log_self (b := 2) (by norm_num) |x|
  unfold lastBit
  rw [← zpow_add₀ (by norm_num), show Int.log 2 |x| + 1 - (p : ℤ) + p = Int.log 2 |x| + 1 by ring]
  exact_mod_cast h

theorem rnd_zero (p : Nat) : rnd p 0 = 0 := by
  have : nearestInt 0 = 0 := by simpa using nearestInt_int 0
  simp [rnd, this]

/-- Numbers with `p` significant bits do not change. -/
theorem rnd_fix {p : Nat} (hp : 0 < p) (m k : ℤ) (hm : |m| ≤ 2 ^ p) :
    rnd p (m * 2 ^ k) = m * 2 ^ k := by
  by_cases h0 : m = 0
  · subst h0; simp [rnd_zero]
  have hx : (m : ℝ) * 2 ^ k ≠ 0 := mul_ne_zero (by exact_mod_cast h0) (zpow_ne_zero _ (by norm_num))
  have key : ∀ n : ℤ, (m : ℝ) * 2 ^ k = n * 2 ^ lastBit p (m * 2 ^ k) → rnd p (m * 2 ^ k) = m * 2 ^ k := by
    intro n hn
    have h2 : (2 : ℝ) ^ lastBit p (m * 2 ^ k) ≠ 0 := zpow_ne_zero _ (by norm_num)
    unfold rnd
    rw [show (m : ℝ) * 2 ^ k / 2 ^ lastBit p (m * 2 ^ k) = n by rw [div_eq_iff h2]; exact hn, nearestInt_int]
    exact hn.symm
  have hb := lastBit_le (p := p) hx
  generalize he : lastBit p ((m : ℝ) * 2 ^ k) = e at hb key
  by_cases hek : e ≤ k
  · apply key (m * 2 ^ (k - e).toNat)
    push_cast
    rw [mul_assoc, ← zpow_natCast, ← zpow_add₀ (by norm_num)]
    congr 2
    omega
  · rw [abs_mul, abs_of_pos (by positivity : (0 : ℝ) < 2 ^ k)] at hb
    have hm' : |(m : ℝ)| ≤ 2 ^ (p : ℤ) := by
      rw [zpow_natCast]
      exact_mod_cast hm
    have h2p : (0 : ℝ) < 2 ^ (p : ℤ) := by positivity
    have h1 : (2 : ℝ) ^ e ≤ 2 ^ (k + 1) := by
      rw [zpow_add₀ (by norm_num)]
      have : (2 : ℝ) ^ e * 2 ^ (p : ℤ) ≤ (2 ^ k * 2 ^ (1 : ℤ)) * 2 ^ (p : ℤ) := by
        refine hb.trans ?_
        have := mul_le_mul_of_nonneg_right hm' (by positivity : (0 : ℝ) ≤ 2 ^ k)
        norm_num
        norm_num at this
        linarith
      exact le_of_mul_le_mul_right this h2p
    have h2 : e ≤ k + 1 := (zpow_le_zpow_iff_right₀ (by norm_num : (1 : ℝ) < 2)).1 h1
    have h3 : e = k + 1 := by omega
    subst h3
    have h4 : (2 : ℝ) ^ (p : ℤ) ≤ |(m : ℝ)| := by
      rw [zpow_add₀ (by norm_num)] at hb
      have hk : (0 : ℝ) < 2 ^ k := by positivity
      have : (2 : ℝ) ^ (p : ℤ) * (2 * 2 ^ k) ≤ |(m : ℝ)| * (2 * 2 ^ k) := by
        norm_num at hb ⊢
        linarith
      exact le_of_mul_le_mul_right this (by positivity)
    have h5 : |m| = 2 ^ p := by
      apply le_antisymm hm
      rw [zpow_natCast] at h4
      exact_mod_cast h4
    obtain ⟨q, rfl⟩ : ∃ q, p = q + 1 := ⟨p - 1, by omega⟩
    rcases abs_eq (by positivity) |>.1 h5 with h | h
    · apply key (2 ^ q)
      rw [h, zpow_add₀ (by norm_num)]
      push_cast
      norm_num
      ring
    · apply key (-2 ^ q)
      rw [h, zpow_add₀ (by norm_num)]
      push_cast
      norm_num
      ring

theorem nearestInt_bound {p : Nat} (x : ℝ) : |nearestInt (x / 2 ^ lastBit p x)| ≤ 2 ^ p := by
  have h := lt_lastBit (p := p) (x := x)
  have h2 : (0 : ℝ) < 2 ^ lastBit p x := by positivity
  have h3 : |x / 2 ^ lastBit p x| ≤ 2 ^ (p : ℤ) := by
    rw [abs_div, abs_of_pos h2, div_le_iff₀ h2]
    linarith
  rw [zpow_natCast, abs_le] at h3
  rw [abs_le]
  constructor
  · apply le_nearestInt; push_cast; exact h3.1
  · apply nearestInt_le; push_cast; exact h3.2

theorem rnd_wider {p q : Nat} (hp : p ≤ q) (hq : 0 < q) : Wider (rnd p) (rnd q) := by
  intro x
  exact rnd_fix hq _ _ ((nearestInt_bound x).trans (pow_le_pow_right₀ (by norm_num) hp))

/-- Rounding to nearest is a rounding, with the unit `2 ^ (-p)`. -/
theorem rnd_rounding {p : Nat} (hp : 0 < p) : Rounding (1 / 2 ^ p) (rnd p) where
  err x := by
    by_cases hx : x = 0
    · subst hx; simp [rnd_zero]
    have h2 : (0 : ℝ) < 2 ^ lastBit p x := by positivity
    have h3 := nearestInt_err (x / 2 ^ lastBit p x)
    have hb := lastBit_le (p := p) hx
    have h4 : rnd p x - x = (nearestInt (x / 2 ^ lastBit p x) - x / 2 ^ lastBit p x) * 2 ^ lastBit p x := by
      unfold rnd
      field_simp
    rw [h4, abs_mul, abs_of_pos h2]
    rw [zpow_natCast] at hb
    have h5 := mul_le_mul_of_nonneg_right h3 h2.le
    refine h5.trans ?_
    rw [show 1 / 2 ^ p * |x| = |x| / 2 ^ p by ring, le_div_iff₀ (by positivity)]
    linarith
  idem x := rnd_wider (le_refl p) hp x

theorem rnd_int {p : Nat} (hp : 0 < p) (m : ℤ) (hm : |m| ≤ 2 ^ p) : rnd p m = m := by
  simpa using rnd_fix hp m 0 hm

/-- The first integer that `float32` does not have. -/
theorem rnd_big : rnd 24 (2 ^ 24 + 1) = 2 ^ 24 := by
  have hl : Int.log 2 |(2 : ℝ) ^ 24 + 1| = 24 := by
    rw [abs_of_pos (by norm_num)]
    have h1 : (24 : ℤ) ≤ Int.log 2 ((2 : ℝ) ^ 24 + 1) := by
      rw [← Int.zpow_le_iff_le_log (by norm_num) (by norm_num)]; norm_num
    have h2 : Int.log 2 ((2 : ℝ) ^ 24 + 1) < 25 := by
      rw [← Int.lt_zpow_iff_log_lt (by norm_num) (by norm_num)]; norm_num
    omega
  have he : lastBit 24 ((2 : ℝ) ^ 24 + 1) = 1 := by unfold lastBit; rw [hl]; norm_num
  unfold rnd
  rw [he]
  have hy : ((2 : ℝ) ^ 24 + 1) / 2 ^ (1 : ℤ) = 8388608 + 1 / 2 := by norm_num
  have hf : ⌊(8388608 + 1 / 2 : ℝ)⌋ = 8388608 := by rw [Int.floor_eq_iff]; norm_num
  have hn : nearestInt (8388608 + 1 / 2) = 8388608 := by
    unfold nearestInt
    rw [hf, if_pos]
    right
    constructor
    · rw [Int.fract, hf]; norm_num
    · decide
  rw [hy, hn]
  norm_num

end Verif.Rnd
