import Mathlib.Tactic.GCongr
import Verif.Proofs.Ranges
import Verif.Proofs.RedBasic
import Verif.Proofs.Rounding

/-!
# Rounding errors of sums: lemmas
-/

namespace Verif.Rnd

variable {u v : ℝ} {r rf ra : ℝ → ℝ}

theorem Rounding.nonneg (h : Rounding u r) : 0 ≤ u := by
  have := (abs_nonneg _).trans (h.err 1)
  simpa using this

theorem Rounding.zero (h : Rounding u r) : r 0 = 0 := by
  have := h.err 0
  simpa using this

theorem Rounding.exists_mul (h : Rounding u r) (x : ℝ) : ∃ e, |e| ≤ u ∧ r x = x * (1 + e) := by
  by_cases hx : x = 0
  · exact ⟨0, by simpa using h.nonneg, by rw [hx, h.zero]; ring⟩
  · refine ⟨(r x - x) / x, ?_, by field_simp; ring⟩
    rw [abs_div, div_le_iff₀ (abs_pos.2 hx)]
    exact h.err x

/-- The sum of component `k`. -/
noncomputable def tot (k : Nat) (xs : List (Nat × Mem ℝ)) : ℝ := (xs.map fun x => x.2 k).sum

/-- The sum of the absolute values of component `k`. -/
noncomputable def mag (k : Nat) (xs : List (Nat × Mem ℝ)) : ℝ := (xs.map fun x => |x.2 k|).sum

theorem tot_append (k : Nat) (xs ys : List (Nat × Mem ℝ)) : tot k (xs ++ ys) = tot k xs + tot k ys := by
  simp [tot]

theorem mag_append (k : Nat) (xs ys : List (Nat × Mem ℝ)) : mag k (xs ++ ys) = mag k xs + mag k ys := by
  simp [mag]

theorem tot_single (k j : Nat) (x : Mem ℝ) : tot k [(j, x)] = x k := by simp [tot]

theorem mag_single (k j : Nat) (x : Mem ℝ) : mag k [(j, x)] = |x k| := by simp [mag]

theorem abs_tot_le (k : Nat) (xs : List (Nat × Mem ℝ)) : |tot k xs| ≤ mag k xs := by
  induction xs with
  | nil => simp [tot, mag]
  | cons x xs ih =>
    simp only [tot, mag, List.map_cons, List.sum_cons] at ih ⊢
    exact (abs_add_le _ _).trans (by linarith)

theorem mag_nonneg (k : Nat) (xs : List (Nat × Mem ℝ)) : 0 ≤ mag k xs := (abs_nonneg _).trans (abs_tot_le k xs)

/-- `a` is the sum of component `k` up to a relative error of `E - 1`. -/
def Err (E : ℝ) (k : Nat) (xs : List (Nat × Mem ℝ)) (a : ℝ) : Prop := |a - tot k xs| ≤ (E - 1) * mag k xs

theorem Err.mono {E E' : ℝ} {k : Nat} {xs : List (Nat × Mem ℝ)} {a : ℝ} (h : Err E k xs a) (hE : E ≤ E') :
    Err E' k xs a := by
  have := mul_le_mul_of_nonneg_right (sub_le_sub_right hE 1) (mag_nonneg k xs)
  exact h.trans this

theorem Err.nil {E : ℝ} {k : Nat} {a : ℝ} (h : Err E k [] a) : a = 0 := by
  have : |a| ≤ 0 := by simpa [Err, tot, mag] using h
  exact abs_eq_zero.1 (le_antisymm this (abs_nonneg _))

theorem Err.single (k j : Nat) (x : Mem ℝ) : Err 1 k [(j, x)] (x k) := by simp [Err, tot_single]

/-- One rounded addition. -/
theorem Err.add (h : Rounding u r) {E : ℝ} {k : Nat} {xs ys : List (Nat × Mem ℝ)} {a b : ℝ}
    (ha : Err E k xs a) (hb : Err E k ys b) : Err (E * (1 + u)) k (xs ++ ys) (r (a + b)) := by
  unfold Err at *
  rw [tot_append, mag_append]
  have h1 := h.err (a + b)
  have hu := h.nonneg
  have t1 := abs_tot_le k xs
  have t2 := abs_tot_le k ys
  set S := tot k xs
  set S' := tot k ys
  set T := mag k xs
  set T' := mag k ys
  have h2 : |a + b| ≤ E * (T + T') := by
    have e : a + b = (a - S) + (b - S') + S + S' := by ring
    rw [e]
    have := abs_add_le ((a - S) + (b - S') + S) S'
    have := abs_add_le ((a - S) + (b - S')) S
    have := abs_add_le (a - S) (b - S')
    nlinarith
  have e : r (a + b) - (S + S') = (r (a + b) - (a + b)) + (a - S) + (b - S') := by ring
  rw [e]
  have h3 := abs_add_le ((r (a + b) - (a + b)) + (a - S)) (b - S')
  have h4 := abs_add_le (r (a + b) - (a + b)) (a - S)
  have h5 := mul_le_mul_of_nonneg_left h2 hu
  nlinarith

/-- The conversion of the result. -/
theorem Err.conv (h : Rounding u r) {E : ℝ} {k : Nat} {xs : List (Nat × Mem ℝ)} {a : ℝ}
    (ha : Err E k xs a) : Err (E * (1 + u)) k xs (r a) := by
  have := Err.add h ha (b := 0) (ys := []) (E := E) (by simp [Err, tot, mag])
  simpa using this

/-- The accumulator holds numbers of its type, up to an error that grows with the number of terms. -/
def ErrAcc (u : ℝ) (r : ℝ → ℝ) (d : Nat) (xs : List (Nat × Mem ℝ)) (acc : Mem ℝ) : Prop :=
  ∀ k < d, r (acc k) = acc k ∧ Err ((1 + u) ^ xs.length) k xs (acc k)

theorem errAcc_init (h : Rounding v r) (sch : SumScheme) (d : Nat) (junk : Mem ℝ) :
    ErrAcc u r d [] ((sumRed rf ra sch d).init junk) := by
  intro k hk
  simp [sumRed, vectFill_apply, hk, h.zero, Err, tot, mag]

theorem errAcc_add (h : Rounding u r) {d : Nat} {xs : List (Nat × Mem ℝ)} {acc : Mem ℝ} (ha : ErrAcc u r d xs acc)
    (x : Mem ℝ) (j : Nat) : ErrAcc u r d (xs ++ [(j, x)]) (vectApply d (fun a x => r (a + x)) acc x) := by
  intro k hk
  rw [vectApply_apply, if_pos hk]
  refine ⟨h.idem _, ?_⟩
  have hu := h.nonneg
  rw [List.length_append, List.length_singleton, pow_succ]
  exact Err.add h (ha k hk).2 ((Err.single k j x).mono (one_le_pow₀ (by linarith)))

/-- Adding an accumulator of the type of the data to one of a wider type. -/
theorem errAcc_pair (hf : Rounding u rf) (ha : Rounding v ra) (hw : Wider rf ra) (hv : v ≤ u) {d : Nat}
    {xs ys : List (Nat × Mem ℝ)} {a b : Mem ℝ} (h1 : ErrAcc u ra d xs a) (h2 : ErrAcc u rf d ys b) :
    ErrAcc u ra d (xs ++ ys) (vectApply d (fun a x => ra (a + x)) a b) := by
  intro k hk
  rw [vectApply_apply, if_pos hk]
  refine ⟨ha.idem _, ?_⟩
  obtain ⟨r1, e1⟩ := h1 k hk
  obtain ⟨r2, e2⟩ := h2 k hk
  have hu := hf.nonneg
  have h0 : (1 : ℝ) ≤ 1 + u := by linarith
  by_cases hx : xs = []
  · subst hx
    rw [e1.nil, zero_add, ← r2, hw]
    simpa [r2] using e2
  by_cases hy : ys = []
  · subst hy
    rw [e2.nil, add_zero, r1]
    simpa using e1
  have lx := List.length_pos_of_ne_nil hx
  have ly := List.length_pos_of_ne_nil hy
  have f1 := e1.mono (pow_le_pow_right₀ h0 (le_max_left xs.length ys.length))
  have f2 := e2.mono (pow_le_pow_right₀ h0 (le_max_right xs.length ys.length))
  refine (Err.add ha f1 f2).mono ?_
  calc (1 + u) ^ max xs.length ys.length * (1 + v) ≤ (1 + u) ^ max xs.length ys.length * (1 + u) := by
        apply mul_le_mul_of_nonneg_left (by linarith) (by positivity)
    _ = (1 + u) ^ (max xs.length ys.length + 1) := by rw [pow_succ]
    _ ≤ (1 + u) ^ (xs ++ ys).length := by
        apply pow_le_pow_right₀ h0
        rw [List.length_append]
        omega

/-- `direct_sum`. -/
theorem direct_lawful (ha : Rounding v ra) (d : Nat) :
    LawfulScheme True (sumRed rf ra .direct d) (directScheme (sumRed rf ra .direct d)) (ErrAcc v ra d)
      (fun xs s => ErrAcc v ra d xs s.1) (fun xs s => ErrAcc v ra d xs s.1) where
  cpuInit a t := errAcc_init (rf := rf) (ra := ra) ha .direct d a
  gpuInit a t := errAcc_init (rf := rf) (ra := ra) ha .direct d a
  blockInit _ _ hs := hs
  accum xs s x j hs := errAcc_add ha hs x j
  periodic _ _ _ _ _ hs := hs
  final _ _ _ hs := hs
  acc _ _ hs := hs

/-- `block_sum`. -/
theorem block_lawful (hf : Rounding u rf) (ha : Rounding v ra) (hw : Wider rf ra) (hv : v ≤ u) (d : Nat) :
    LawfulScheme True (sumRed rf ra .block d)
      (blockScheme (sumRed rf ra .block d) (fun acc xi => vectApply d (fun a x => ra (a + x)) acc xi)) (ErrAcc u ra d)
      (fun xs s => ∃ xs1 xs2, xs = xs1 ++ xs2 ∧ ErrAcc u ra d xs1 s.1 ∧ ErrAcc u rf d xs2 s.2)
      (fun xs s => ErrAcc u ra d xs s.1) where
  cpuInit a t := ⟨[], [], rfl, errAcc_init (rf := rf) (ra := ra) ha .block d a, errAcc_init (rf := rf) (ra := ra) hf .block d t⟩
  gpuInit a t := errAcc_init (rf := rf) (ra := ra) ha .block d a
  blockInit xs s hs := ⟨xs, [], by simp, hs, errAcc_init (rf := rf) (ra := ra) hf .block d _⟩
  accum := by
    rintro xs s x j ⟨xs1, xs2, rfl, h1, h2⟩
    exact ⟨xs1, xs2 ++ [(j, x)], by simp, h1, errAcc_add hf h2 x j⟩
  periodic := by
    rintro xs s per j - ⟨xs1, xs2, rfl, h1, h2⟩
    simp only [blockScheme]
    split
    · exact ⟨xs1 ++ xs2, [], by simp, errAcc_pair hf ha hw hv h1 h2, errAcc_init (rf := rf) (ra := ra) hf .block d _⟩
    · exact ⟨xs1, xs2, rfl, h1, h2⟩
  final := by
    rintro xs s - ⟨xs1, xs2, rfl, h1, h2⟩
    exact errAcc_pair hf ha hw hv h1 h2
  acc xs s hs := hs

theorem finLocal (rf ra : ℝ → ℝ) (sch : SumScheme) (d : Nat) : FinLocal (sumRed rf ra sch d) := by
  intro acc out out' p
  simp only [sumRed, vectCopy_apply]
  constructor
  · intro h; rw [if_pos h, if_pos h]
  · intro h; rw [if_neg (by omega)]

/-! ### Kahan summation -/

theorem sumKahan_apply (rf ra : ℝ → ℝ) (d : Nat) (acc xi tmp : Mem ℝ) (p : Nat) :
    (sumKahan rf ra d acc xi tmp).1 p = (if p < d then ra (acc p + rf (xi p - tmp p)) else acc p) ∧
    (sumKahan rf ra d acc xi tmp).2 p = (if p < d then
      rf (ra (ra (ra (acc p + rf (xi p - tmp p)) - acc p) - rf (xi p - tmp p))) else tmp p) := by
  induction d with
  | zero => simp [sumKahan]
  | succ d ih =>
    unfold sumKahan at ih ⊢
    rw [forRange_succ]
    generalize forRange d _ (acc, tmp) = s at ih ⊢
    simp only [Mem.set_apply]
    by_cases hp : p = d
    · subst hp
      simp only [lt_irrefl, if_false] at ih
      simp [ih.1, ih.2]
    · have : (p < d + 1) ↔ p < d := by omega
      simp only [hp, if_false, this]
      exact ih

/-- The invariant of Kahan summation: the accumulator, the correction, and the corrected sum. -/
structure KahanInv (u : ℝ) (n : Nat) (S T s c : ℝ) : Prop where
  corr : |c| ≤ 3 * u * T
  sum : |s - c - S| ≤ (5 * u + 17 * n * u ^ 2) * T

theorem KahanInv.abs_le {n : Nat} {S T s c : ℝ} (h : KahanInv u n S T s c) (h0 : 0 ≤ u) (hu : u ≤ 1 / 64)
    (hn : n * u ≤ 1) (hS : |S| ≤ T) : |s| ≤ 2 * T := by
  have hT : 0 ≤ T := (abs_nonneg _).trans hS
  have e : s = (s - c - S) + c + S := by ring
  have h1 := abs_add_le ((s - c - S) + c) S
  have h2 := abs_add_le (s - c - S) c
  rw [← e] at h1
  have h3 := h.corr
  have h4 := h.sum
  have h5 : 5 * u + 17 * n * u ^ 2 + 3 * u ≤ 1 := by
    have : 17 * n * u ^ 2 = 17 * u * (n * u) := by ring
    nlinarith
  nlinarith

theorem kahan_arith {u T x w y z : ℝ} (h0 : 0 ≤ u) (hu : u ≤ 1 / 64) (hT : 0 ≤ T) (hx : 0 ≤ x) (hw0 : 0 ≤ w)
    (hy0 : 0 ≤ y) (hz0 : 0 ≤ z) (hw : w ≤ x + 3 * u * T) (hy : y ≤ (1 + u) * w) (hz : z ≤ 2 * T + (1 + u) * w) :
    (y + u * z) * (2 * u + u ^ 2) + w * (2 * u + u ^ 2) ≤ 5 * u * x + 17 * u ^ 2 * T := by
  have a0 : (y + u * z) * (2 * u + u ^ 2) + w * (2 * u + u ^ 2) = u * ((2 + u) * (y + w + u * z)) := by ring
  rw [a0]
  have b1 : u * z ≤ u * (2 * T + (1 + u) * w) := mul_le_mul_of_nonneg_left hz h0
  have a1 : y + w + u * z ≤ (2 + u + u * (1 + u)) * w + 2 * u * T := by linarith
  have a2 : 2 + u + u * (1 + u) ≤ 131 / 64 := by nlinarith
  have a3 : (2 + u + u * (1 + u)) * w ≤ 131 / 64 * (x + 3 * u * T) :=
    (mul_le_mul_of_nonneg_right a2 hw0).trans (mul_le_mul_of_nonneg_left hw (by norm_num))
  have a4 : (2 + u) * (y + w + u * z) ≤ 129 / 64 * (131 / 64 * (x + 3 * u * T) + 2 * u * T) :=
    mul_le_mul (by linarith) (by linarith) (by positivity) (by norm_num)
  have a5 : 129 / 64 * (131 / 64 * (x + 3 * u * T) + 2 * u * T) ≤ 5 * x + 17 * u * T := by
    have : 0 ≤ u * T := by positivity
    linarith
  have := mul_le_mul_of_nonneg_left (a4.trans a5) h0
  linarith

theorem kahan_arith' {u T x w y z : ℝ} (h0 : 0 ≤ u) (hu : u ≤ 1 / 64) (hT : 0 ≤ T) (hx : 0 ≤ x) (hw0 : 0 ≤ w)
    (hy0 : 0 ≤ y) (hz0 : 0 ≤ z) (hw : w ≤ x + 3 * u * T) (hy : y ≤ (1 + u) * w) (hz : z ≤ 2 * T + (1 + u) * w) :
    (u * z * (1 + u) + u * y) * (1 + u) ≤ 3 * u * (T + x) := by
  have a0 : u * T ≤ 1 / 64 * T := mul_le_mul_of_nonneg_right hu hT
  have a1 : (1 + u) * w ≤ (65 / 64) * (x + 3 / 64 * T) := mul_le_mul (by linarith) (by linarith) hw0 (by norm_num)
  have a2 : u * z ≤ 1 / 64 * z := mul_le_mul_of_nonneg_right hu hz0
  have a3 : z * (1 + u) + y ≤ (5 / 2) * (T + x) := by linarith
  have a4 : (1 + u) * (z * (1 + u) + y) ≤ (65 / 64) * ((5 / 2) * (T + x)) :=
    mul_le_mul (by linarith) a3 (by positivity) (by norm_num)
  have a5 := mul_le_mul_of_nonneg_left a4 h0
  have a6 : 0 ≤ u * (T + x) := by positivity
  linarith

theorem kahan_step (h : Rounding u r) (hu : u ≤ 1 / 64) {n : Nat} {S T s c : ℝ} (hi : KahanInv u n S T s c)
    (hn : n * u ≤ 1) (hS : |S| ≤ T) (x : ℝ) :
    KahanInv u (n + 1) (S + x) (T + |x|) (r (s + r (x - c)))
      (r (r (r (r (s + r (x - c)) - s) - r (x - c)))) := by
  have h0 := h.nonneg
  have hs := hi.abs_le h0 hu hn hS
  have hT : 0 ≤ T := (abs_nonneg _).trans hS
  have hx := abs_nonneg x
  rw [h.idem]
  obtain ⟨η, hη, e1⟩ := h.exists_mul (x - c)
  obtain ⟨σ, hσ, e2⟩ := h.exists_mul (s + r (x - c))
  obtain ⟨γ, hγ, e3⟩ := h.exists_mul (r (s + r (x - c)) - s)
  obtain ⟨δ, hδ, e4⟩ := h.exists_mul (r (r (s + r (x - c)) - s) - r (x - c))
  set w := x - c with hw
  set y := r w
  set z := s + y with hz
  set t := r z
  have hW : |w| ≤ |x| + 3 * u * T := by
    have := abs_sub x c
    have := hi.corr
    linarith
  have hW0 := abs_nonneg w
  have hY : |y| ≤ (1 + u) * |w| := by
    rw [e1, abs_mul, mul_comm]
    apply mul_le_mul_of_nonneg_right _ hW0
    have := abs_add_le 1 η
    rw [abs_one] at this
    linarith
  have hY0 := abs_nonneg y
  have hZ : |z| ≤ 2 * T + (1 + u) * |w| := by
    have := abs_add_le s y
    linarith
  have hZ0 := abs_nonneg z
  have hts : t - s = y + σ * z := by rw [e2]; simp only [hz]; ring
  rw [hts] at e3 e4
  have key : ∀ {a b A B : ℝ}, |a| ≤ A → |b| ≤ B → |a * b| ≤ A * B := fun ha hb => by
    rw [abs_mul]
    exact mul_le_mul ha hb (abs_nonneg _) ((abs_nonneg _).trans ha)
  constructor
  · -- the correction
    have e5 : r (r (t - s) - y) = (σ * z * (1 + γ) + γ * y) * (1 + δ) := by
      rw [hts, e4, e3]; ring
    rw [e5]
    have g1 : |1 + γ| ≤ 1 + u := by
      have := abs_add_le 1 γ; rw [abs_one] at this; linarith
    have g2 : |1 + δ| ≤ 1 + u := by
      have := abs_add_le 1 δ; rw [abs_one] at this; linarith
    have g3 : |σ * z * (1 + γ) + γ * y| ≤ u * |z| * (1 + u) + u * |y| :=
      (abs_add_le _ _).trans (add_le_add (key (key hσ le_rfl) g1) (key hγ le_rfl))
    refine (key g3 g2).trans ?_
    exact kahan_arith' h0 hu hT hx hW0 hY0 hZ0 hW hY hZ
  · -- the corrected sum
    have e5 : t - r (r (t - s) - y) - (S + x) =
        (s - c - S) + (-((y + σ * z) * (γ + δ + γ * δ)) + w * (η + δ + η * δ)) := by
      rw [hts, e4, e3]
      have : t = s + y + σ * z := by linarith
      rw [this, e1]
      simp only [hw]
      ring
    rw [e5]
    have q1 : ∀ {a b : ℝ}, |a| ≤ u → |b| ≤ u → |a + b + a * b| ≤ 2 * u + u ^ 2 := by
      intro a b ha hb
      have b1 := abs_add_le (a + b) (a * b)
      have b2 := abs_add_le a b
      have b3 := key ha hb
      rw [← sq] at b3
      linarith
    have q2 : |(y + σ * z) * (γ + δ + γ * δ)| ≤ (|y| + u * |z|) * (2 * u + u ^ 2) :=
      key ((abs_add_le _ _).trans (add_le_add le_rfl (key hσ le_rfl))) (q1 hγ hδ)
    have q3 : |w * (η + δ + η * δ)| ≤ |w| * (2 * u + u ^ 2) := key le_rfl (q1 hη hδ)
    have q4 := abs_add_le (s - c - S) (-((y + σ * z) * (γ + δ + γ * δ)) + w * (η + δ + η * δ))
    have q5 := abs_add_le (-((y + σ * z) * (γ + δ + γ * δ))) (w * (η + δ + η * δ))
    rw [abs_neg] at q5
    have q6 := hi.sum
    have q7 : (|y| + u * |z|) * (2 * u + u ^ 2) + |w| * (2 * u + u ^ 2) ≤ 5 * u * |x| + 17 * u ^ 2 * T :=
      kahan_arith h0 hu hT hx hW0 hY0 hZ0 hW hY hZ
    push_cast
    have a7 : 0 ≤ 17 * (n + 1) * u ^ 2 * |x| := by positivity
    have a8 : (5 * u + 17 * (n + 1) * u ^ 2) * (T + |x|) =
        (5 * u + 17 * n * u ^ 2) * T + (5 * u * |x| + 17 * u ^ 2 * T) + 17 * (n + 1) * u ^ 2 * |x| := by ring
    rw [a8]
    linarith

/-- The relation for Kahan summation. -/
def KahanAcc (u : ℝ) (r : ℝ → ℝ) (d : Nat) (xs : List (Nat × Mem ℝ)) (s : Mem ℝ × Mem ℝ) : Prop :=
  (xs.length * u ≤ 1 → ∀ k < d, KahanInv u xs.length (tot k xs) (mag k xs) (s.1 k) (s.2 k)) ∧
  ∀ k < d, r (s.1 k) = s.1 k

theorem kahan_lawful (h : Rounding u r) (hu : u ≤ 1 / 64) (d : Nat) :
    LawfulScheme True (sumRed r r .kahan d) (kahanScheme (fun tmp => vectFill d tmp 0) (sumKahan r r d))
      (fun xs acc => ∃ tmp, KahanAcc u r d xs (acc, tmp)) (KahanAcc u r d) (KahanAcc u r d) where
  cpuInit a t := by
    refine ⟨fun _ k hk => ?_, fun k hk => ?_⟩
    · simp only [sumRed, vectFill_apply, hk, if_true, kahanScheme]
      constructor <;> simp [tot, mag]
    · simp [sumRed, vectFill_apply, hk, h.zero]
  gpuInit a t := by
    refine ⟨fun _ k hk => ?_, fun k hk => ?_⟩
    · simp only [sumRed, vectFill_apply, hk, if_true, kahanScheme]
      constructor <;> simp [tot, mag]
    · simp [sumRed, vectFill_apply, hk, h.zero]
  blockInit _ _ hs := hs
  accum := by
    rintro xs s x j ⟨h1, -⟩
    refine ⟨fun hn k hk => ?_, fun k hk => ?_⟩
    · simp only [kahanScheme, (sumKahan_apply r r d s.1 x s.2 k).1, (sumKahan_apply r r d s.1 x s.2 k).2, hk, if_true]
      rw [tot_append, mag_append, tot_single, mag_single, List.length_append, List.length_singleton]
      have hn' : (xs.length : ℝ) * u ≤ 1 := by
        rw [List.length_append, List.length_singleton] at hn
        push_cast at hn
        have := h.nonneg
        nlinarith
      exact kahan_step h hu (h1 hn' k hk) hn' (abs_tot_le k xs) (x k)
    · simp only [kahanScheme, (sumKahan_apply r r d s.1 x s.2 k).1, hk, if_true]
      exact h.idem _
  periodic _ _ _ _ _ hs := hs
  final _ _ _ hs := hs
  acc xs s hs := ⟨s.2, hs⟩

/-! ### Integers -/

/-- The rounding does not change the integers up to `N`. -/
def FixInt (N : ℝ) (r : ℝ → ℝ) : Prop := ∀ m : ℤ, |(m : ℝ)| ≤ N → r m = m

/-- The terms are integers, and the sum of their absolute values is at most `N`. -/
def IntTerms (N : ℝ) (d : Nat) (xs : List (Nat × Mem ℝ)) : Prop :=
  ∀ k < d, (∀ x ∈ xs, ∃ m : ℤ, x.2 k = m) ∧ mag k xs ≤ N

/-- The accumulator is exact. -/
def IntAcc (N : ℝ) (d : Nat) (xs : List (Nat × Mem ℝ)) (acc : Mem ℝ) : Prop :=
  IntTerms N d xs → ∀ k < d, acc k = tot k xs

theorem IntTerms.left {N : ℝ} {d : Nat} {xs ys : List (Nat × Mem ℝ)} (h : IntTerms N d (xs ++ ys)) :
    IntTerms N d xs := fun k hk => by
  obtain ⟨h1, h2⟩ := h k hk
  rw [mag_append] at h2
  exact ⟨fun x hx => h1 x (by simp [hx]), by linarith [mag_nonneg k ys]⟩

theorem IntTerms.right {N : ℝ} {d : Nat} {xs ys : List (Nat × Mem ℝ)} (h : IntTerms N d (xs ++ ys)) :
    IntTerms N d ys := fun k hk => by
  obtain ⟨h1, h2⟩ := h k hk
  rw [mag_append] at h2
  exact ⟨fun x hx => h1 x (by simp [hx]), by linarith [mag_nonneg k xs]⟩

theorem IntTerms.fix {N : ℝ} {d : Nat} {xs : List (Nat × Mem ℝ)} (h : IntTerms N d xs) (hr : FixInt N r) {k : Nat}
    (hk : k < d) : r (tot k xs) = tot k xs := by
  obtain ⟨h1, h2⟩ := h k hk
  have : ∃ m : ℤ, tot k xs = m := by
    clear h2 h
    induction xs with
    | nil => exact ⟨0, by simp [tot]⟩
    | cons x xs ih =>
      obtain ⟨m, hm⟩ := h1 x (by simp)
      obtain ⟨m', hm'⟩ := ih fun y hy => h1 y (by simp [hy])
      refine ⟨m + m', ?_⟩
      simp only [tot, List.map_cons, List.sum_cons] at hm' ⊢
      rw [hm, hm']
      push_cast
      ring
  obtain ⟨m, hm⟩ := this
  rw [hm]
  refine hr m ?_
  rw [← hm]
  exact (abs_tot_le k xs).trans h2

theorem intAcc_add {N : ℝ} (hr : FixInt N r) {d : Nat} {xs : List (Nat × Mem ℝ)} {acc : Mem ℝ} (h : IntAcc N d xs acc)
    (x : Mem ℝ) (j : Nat) : IntAcc N d (xs ++ [(j, x)]) (vectApply d (fun a x => r (a + x)) acc x) := by
  intro hi k hk
  rw [vectApply_apply, if_pos hk, h hi.left k hk, ← tot_single k j x, ← tot_append, hi.fix hr hk]

theorem intAcc_pair {N : ℝ} (hr : FixInt N r) {d : Nat} {xs ys : List (Nat × Mem ℝ)} {a b : Mem ℝ}
    (h1 : IntAcc N d xs a) (h2 : IntAcc N d ys b) :
    IntAcc N d (xs ++ ys) (vectApply d (fun a x => r (a + x)) a b) := by
  intro hi k hk
  rw [vectApply_apply, if_pos hk, h1 hi.left k hk, h2 hi.right k hk, ← tot_append, hi.fix hr hk]

theorem intAcc_init {N : ℝ} (d : Nat) (junk : Mem ℝ) : IntAcc N d [] (vectFill d junk 0) := by
  intro _ k hk
  simp [vectFill_apply, hk, tot]

/-- The state of Kahan summation on integers: the correction is zero. -/
def IntKahan (N : ℝ) (d : Nat) (xs : List (Nat × Mem ℝ)) (s : Mem ℝ × Mem ℝ) : Prop :=
  IntTerms N d xs → ∀ k < d, s.1 k = tot k xs ∧ s.2 k = 0

theorem int_lawful {N : ℝ} (hf : FixInt N rf) (ha : FixInt N ra) (sch : SumScheme) (d : Nat) :
    ∃ S B G, getScheme (sumRed rf ra sch d) sch = some S ∧
      LawfulScheme True (sumRed rf ra sch d) S (IntAcc N d) B G := by
  cases sch with
  | direct =>
    exact ⟨_, fun xs s => IntAcc N d xs s.1, fun xs s => IntAcc N d xs s.1, rfl,
      { cpuInit := fun a _ => intAcc_init d a
        gpuInit := fun a _ => intAcc_init d a
        blockInit := fun _ _ hs => hs
        accum := fun _ _ x j hs => intAcc_add ha hs x j
        periodic := fun _ _ _ _ _ hs => hs
        final := fun _ _ _ hs => hs
        acc := fun _ _ hs => hs }⟩
  | block =>
    refine ⟨_, fun xs s => ∃ xs1 xs2, xs = xs1 ++ xs2 ∧ IntAcc N d xs1 s.1 ∧ IntAcc N d xs2 s.2,
      fun xs s => IntAcc N d xs s.1, rfl,
      { cpuInit := fun a t => ⟨[], [], rfl, intAcc_init d a, intAcc_init d t⟩
        gpuInit := fun a _ => intAcc_init d a
        blockInit := fun xs _ hs => ⟨xs, [], by simp, hs, intAcc_init d _⟩
        accum := ?_
        periodic := ?_
        final := ?_
        acc := fun _ _ hs => hs }⟩
    · rintro xs s x j ⟨xs1, xs2, rfl, h1, h2⟩
      exact ⟨xs1, xs2 ++ [(j, x)], by simp, h1, intAcc_add hf h2 x j⟩
    · rintro xs s per j - ⟨xs1, xs2, rfl, h1, h2⟩
      simp only [blockScheme]
      split
      · exact ⟨xs1 ++ xs2, [], by simp, intAcc_pair ha h1 h2, intAcc_init d _⟩
      · exact ⟨xs1, xs2, rfl, h1, h2⟩
    · rintro xs s - ⟨xs1, xs2, rfl, h1, h2⟩
      exact intAcc_pair ha h1 h2
  | kahan =>
    have hinit : ∀ a t : Mem ℝ, IntKahan N d [] (vectFill d a 0, vectFill d t 0) := fun a t _ k hk => by
      simp [vectFill_apply, hk, tot]
    refine ⟨_, IntKahan N d, IntKahan N d, rfl,
      { cpuInit := hinit
        gpuInit := hinit
        blockInit := fun _ _ hs => hs
        accum := ?_
        periodic := fun _ _ _ _ _ hs => hs
        final := fun _ _ _ hs => hs
        acc := fun _ s hs hi k hk => (hs hi k hk).1 }⟩
    intro xs s x j hs hi k hk
    obtain ⟨e1, e2⟩ := hs hi.left k hk
    have z : (0 : ℝ) ≤ N := (mag_nonneg k _).trans (hi k hk).2
    have f0 : ∀ {q : ℝ → ℝ}, FixInt N q → q 0 = 0 := fun hq => by simpa using hq 0 (by simpa using z)
    have fx : ∀ {q : ℝ → ℝ}, FixInt N q → q (x k) = x k := fun hq => by
      simpa [tot_single] using hi.right.fix hq hk
    have ft : ra (tot k xs + x k) = tot k xs + x k := by
      rw [← tot_single k j x, ← tot_append, hi.fix ha hk]
    simp only [kahanScheme, sumRed, Option.map_some, (sumKahan_apply rf ra d s.1 x s.2 k).1,
      (sumKahan_apply rf ra d s.1 x s.2 k).2, hk, if_true, e1, e2, sub_zero, fx hf, ft, add_sub_cancel_left, fx ha,
      sub_self, f0 ha, f0 hf, tot_append, tot_single, and_self]

/-! ### The CPU without ranges -/

/-- The state of the loop over `j` with the scheme `block_sum` and the period `p`. -/
structure Blocks (u v : ℝ) (rf : ℝ → ℝ) (d p n : Nat) (xs : List (Nat × Mem ℝ)) (s : Mem ℝ × Mem ℝ) : Prop where
  split : ∃ xs1 xs2, xs = xs1 ++ xs2 ∧ xs2.length = n % p ∧
    (∀ k < d, Err ((1 + u) ^ p * (1 + v) ^ (n / p)) k xs1 (s.1 k)) ∧ ErrAcc u rf d xs2 s.2

theorem blocks_step (hf : Rounding u rf) (ha : Rounding v ra) {d p n : Nat} (hp : 0 < p) {xs : List (Nat × Mem ℝ)}
    {s : Mem ℝ × Mem ℝ} (h : Blocks u v rf d p n xs s) (x : Mem ℝ) :
    Blocks u v rf d p (n + 1) (xs ++ [(n, x)])
      ((blockScheme (sumRed rf ra .block d) (fun acc xi => vectApply d (fun a x => ra (a + x)) acc xi)).periodic p n
        ((blockScheme (sumRed rf ra .block d) (fun acc xi => vectApply d (fun a x => ra (a + x)) acc xi)).accum s x
          n)) := by
  obtain ⟨xs1, xs2, rfl, hl, h1, h2⟩ := h.split
  have h3 := errAcc_add hf h2 x n
  have hu := hf.nonneg
  have hv := ha.nonneg
  have hlt := Nat.mod_lt n hp
  have hmod : (n + 1) % p = if n % p + 1 = p then 0 else n % p + 1 := by
    rw [Nat.add_mod]
    by_cases h1 : p = 1
    · subst h1; simp [Nat.mod_one]
    rw [Nat.mod_eq_of_lt (show 1 < p by omega)]
    split
    · next h => rw [h, Nat.mod_self]
    · exact Nat.mod_eq_of_lt (by omega)
  have hdiv : (n + 1) / p = if n % p + 1 = p then n / p + 1 else n / p := by
    rw [Nat.succ_div]
    split
    · next h => rw [if_pos ?_]; have := Nat.mod_eq_zero_of_dvd h; rw [hmod] at this; split at this <;> omega
    · next h =>
        have h' : ¬ n % p + 1 = p := fun h' => h (Nat.dvd_of_mod_eq_zero (by rw [hmod, if_pos h']))
        rw [if_neg h', Nat.add_zero]
  by_cases hc : n % p + 1 = p
  · refine ⟨xs1 ++ (xs2 ++ [(n, x)]), [], by simp, by rw [hmod, if_pos hc]; rfl, ?_, ?_⟩
    · intro k hk
      have hp' : (n + 1) % p = 0 := by rw [hmod, if_pos hc]
      simp only [blockScheme, hp', if_true, vectApply_apply, hk]
      rw [hdiv, if_pos hc, pow_succ, ← mul_assoc]
      refine Err.add ha (h1 k hk) ?_
      have := (h3 k hk).2
      simp only [sumRed, vectApply_apply, hk, if_true] at this ⊢
      rw [List.length_append, List.length_singleton, hl, hc] at this
      exact this.mono (le_mul_of_one_le_right (by positivity) (one_le_pow₀ (by linarith)))
    · have hp' : (n + 1) % p = 0 := by rw [hmod, if_pos hc]
      simp only [blockScheme, hp', if_true]
      exact errAcc_init (rf := rf) (ra := ra) hf .block d _
  · refine ⟨xs1, xs2 ++ [(n, x)], by simp, by rw [hmod, if_neg hc]; simp [hl], ?_, ?_⟩
    · intro k hk
      have hp' : ¬ (n + 1) % p = 0 := by rw [hmod, if_neg hc]; omega
      simp only [blockScheme, hp', if_false]
      rw [hdiv, if_neg hc]
      exact h1 k hk
    · have hp' : ¬ (n + 1) % p = 0 := by rw [hmod, if_neg hc]; omega
      simp only [blockScheme, hp', if_false]
      exact h3

/-- One row. -/
theorem cpuRow_blocks (hf : Rounding u rf) (ha : Rounding v ra) (d n : Nat) (hn : 0 < periodAccumulate n) (F : Nat → Mem ℝ)
    (accJ tmpJ outi : Mem ℝ) {k : Nat} (hk : k < d) :
    ∃ a, Err ((1 + u) ^ periodAccumulate n * (1 + v) ^ (n / periodAccumulate n + 1)) k (items n F) a ∧ ra a = a ∧
      cpuRow (sumRed rf ra .block d)
        (blockScheme (sumRed rf ra .block d) (fun acc xi => vectApply d (fun a x => ra (a + x)) acc xi)) n F accJ tmpJ
        outi k = rf a := by
  have hu := hf.nonneg
  have hv := ha.nonneg
  unfold cpuRow
  set p := periodAccumulate n
  set S := blockScheme (sumRed rf ra .block d) (fun acc xi => vectApply d (fun a x => ra (a + x)) acc xi) with hS
  have key := forRange_inv (P := fun m s => Blocks u v rf d p m (items m F) s) n
    (fun j s => S.periodic p j (S.accum s (F j) j)) ((sumRed rf ra .block d).init accJ, S.initTmp tmpJ)
    ⟨[], [], by simp [items], by simp, fun k hk => by simp [Err, tot, mag, sumRed, vectFill_apply, hk],
      errAcc_init (rf := rf) (ra := ra) hf .block d tmpJ⟩
    (fun m s _ hs => by
      rw [items_succ]
      exact blocks_step hf ha hn hs (F m))
  generalize forRange n _ _ = s at key ⊢
  obtain ⟨xs1, xs2, e, hl, h1, h2⟩ := key.split
  refine ⟨ra (s.1 k + s.2 k), ?_, ha.idem _, ?_⟩
  · rw [e, pow_succ, ← mul_assoc]
    refine Err.add ha (h1 k hk) ((h2 k hk).2.mono ?_)
    rw [hl]
    refine (pow_le_pow_right₀ (by linarith) (Nat.mod_lt n hn).le).trans ?_
    exact le_mul_of_one_le_right (by positivity) (one_le_pow₀ (by linarith))
  · simp [hS, blockScheme, sumRed, vectCopy_apply, vectApply_apply, hk]

theorem period_pos (n : Nat) : 0 < periodAccumulate n := by
  unfold periodAccumulate
  split
  · omega
  · exact Nat.sqrt_pos.2 (by omega)

/-- The exponent of the bound. -/
theorem period_le {n : Nat} (hn : 10 ≤ n) : periodAccumulate n + (n / periodAccumulate n + 1) ≤ 2 * Nat.sqrt n + 3 := by
  have h : periodAccumulate n = Nat.sqrt n := by
    unfold periodAccumulate
    rw [if_neg (by omega)]
  rw [h]
  have h1 := Nat.lt_succ_sqrt n
  have hp : 0 < Nat.sqrt n := Nat.sqrt_pos.2 (by omega)
  have : n / Nat.sqrt n < Nat.sqrt n + 3 := by
    rw [Nat.div_lt_iff_lt_mul hp]
    simp only [Nat.succ_eq_add_one] at h1
    nlinarith
  omega

/-! ### The CPU with ranges -/

/-- Left to right, in one type. -/
def FoldOf (r : ℝ → ℝ) (d : Nat) (xs : List (Nat × Mem ℝ)) (acc : Mem ℝ) : Prop :=
  ∀ k < d, r (acc k) = acc k ∧ acc k = (xs.map fun x => x.2 k).foldl (fun s x => r (s + x)) 0

/-- Without ranges, the CPU does the same for less than 10 terms. -/
theorem cpuRow_few (hf : Rounding u rf) (hw : Wider rf ra) (d : Nat) {n : Nat} (hn : n < 10) (F : Nat → Mem ℝ)
    (accJ tmpJ outi : Mem ℝ) {k : Nat} (hk : k < d) :
    cpuRow (sumRed rf ra .block d)
      (blockScheme (sumRed rf ra .block d) (fun acc xi => vectApply d (fun a x => ra (a + x)) acc xi)) n F accJ tmpJ
      outi k = ((items n F).map fun x => x.2 k).foldl (fun s x => rf (s + x)) 0 := by
  unfold cpuRow
  have hp : periodAccumulate n = 100 := if_pos hn
  rw [hp]
  set S := blockScheme (sumRed rf ra .block d) (fun acc xi => vectApply d (fun a x => ra (a + x)) acc xi) with hS
  have key := forRange_inv (P := fun m s => (∀ k < d, s.1 k = 0) ∧ FoldOf rf d (items m F) s.2) n
    (fun j s => S.periodic 100 j (S.accum s (F j) j)) ((sumRed rf ra .block d).init accJ, S.initTmp tmpJ)
    ⟨fun k hk => by simp [sumRed, vectFill_apply, hk],
      fun k hk => by simp [items, hS, sumRed, blockScheme, vectFill_apply, hk, hf.zero]⟩
    (fun m s hm ⟨h1, h2⟩ => by
      have hne : ¬ (m + 1) % 100 = 0 := by omega
      simp only [hS, blockScheme, hne, if_false]
      refine ⟨h1, fun k hk => ?_⟩
      rw [items_succ]
      simp [sumRed, vectApply_apply, hk, hf.idem, ← (h2 k hk).2])
  generalize forRange n _ _ = s at key ⊢
  obtain ⟨h1, h2⟩ := key
  obtain ⟨h3, h4⟩ := h2 k hk
  simp only [hS, blockScheme, sumRed, vectCopy_apply, vectApply_apply, hk, if_true, h1 k hk, zero_add]
  rw [← h3, hw, h3, ← h4, h3]

theorem stride_rel {α β : Type} {Q : α → β → Prop} (a i n : Nat) (b : Nat → α → α) (b' : Nat → β → β) (s : α)
    (s' : β) (h0 : Q s s') (hstep : ∀ t s s', Q s s' → Q (b t s) (b' t s')) :
    Q (forStride a i n b s) (forStride a i n b' s') := by
  induction n with
  | zero => simpa using h0
  | succ n ih => rw [forStride_succ, forStride_succ]; exact hstep _ _ _ ih

/-- With ranges, the CPU uses the temporary accumulator only. -/
theorem cpuRangeRow_block (hf : Rounding u rf) (hw : Wider rf ra) (d : Nat) (rangesY : Mem Nat) (s0 s1 : Nat)
    (F : Nat → Nat → Mem ℝ) (ix : Nat → Nat → Nat) (accJ tmpJ : Mem ℝ) :
    cpuRangeRow (sumRed rf ra .block d)
      (blockScheme (sumRed rf ra .block d) (fun acc xi => vectApply d (fun a x => ra (a + x)) acc xi)) rangesY s0 s1 F ix
      accJ tmpJ =
    cpuRangeRow (sumRed rf rf .direct d) (directScheme (sumRed rf rf .direct d)) rangesY s0 s1 F ix accJ tmpJ := by
  funext outi
  unfold cpuRangeRow
  simp only
  have key := stride_rel (Q := fun s s' : Mem ℝ × Mem ℝ => ∀ k < d, s.1 k = 0 ∧ rf (s.2 k) = s.2 k ∧ s'.1 k = s.2 k)
    s0 1 (s1 - s0)
    (fun slice s => forStride (rangesY (2 * slice)) 1 (rangesY (2 * slice + 1) - rangesY (2 * slice)) (fun j s =>
      (blockScheme (sumRed rf ra .block d) (fun acc xi => vectApply d (fun a x => ra (a + x)) acc xi)).accum s
        (F (rangesY (2 * slice)) j) (ix (rangesY (2 * slice)) j)) s)
    (fun slice s => forStride (rangesY (2 * slice)) 1 (rangesY (2 * slice + 1) - rangesY (2 * slice)) (fun j s =>
      (directScheme (sumRed rf rf .direct d)).accum s
        (F (rangesY (2 * slice)) j) (ix (rangesY (2 * slice)) j)) s)
    ((sumRed rf ra .block d).init accJ, (blockScheme (sumRed rf ra .block d)
      (fun acc xi => vectApply d (fun a x => ra (a + x)) acc xi)).initTmp tmpJ)
    ((sumRed rf rf .direct d).init accJ, (directScheme (sumRed rf rf .direct d)).initTmp tmpJ)
    (fun k hk => by simp [sumRed, blockScheme, vectFill_apply, hk, hf.zero])
    (fun slice s s' h => stride_rel (Q := fun s s' : Mem ℝ × Mem ℝ => ∀ k < d, s.1 k = 0 ∧ rf (s.2 k) = s.2 k ∧
      s'.1 k = s.2 k) _ _ _ _ _ _ _ h fun j s s' h k hk => by
      obtain ⟨h1, -, h3⟩ := h k hk
      simp [sumRed, blockScheme, directScheme, vectApply_apply, hk, h1, h3, hf.idem])
  generalize forStride s0 1 (s1 - s0) _ _ = s at key ⊢
  generalize forStride s0 1 (s1 - s0) _ _ = s' at key ⊢
  funext q
  simp only [sumRed, blockScheme, directScheme, vectCopy_apply, vectApply_apply]
  by_cases hq : q < d
  · obtain ⟨h1, h2, h3⟩ := key q hq
    simp only [hq, if_true, h1, zero_add, h3, id]
    rw [← h2, hw]
  · simp only [hq, if_false]

theorem cpuConvRanges_block (hf : Rounding u rf) (hw : Wider rf ra) (d : Nat) (P : RProblem ℝ)
    (junk : Nat → Nat → Mem ℝ) (order : Nat → List Nat) (out : Mem ℝ) :
    cpuConvRanges (sumRed rf ra .block d)
      (blockScheme (sumRed rf ra .block d) (fun acc xi => vectApply d (fun a x => ra (a + x)) acc xi)) P junk order out =
    cpuConvRanges (sumRed rf rf .direct d) (directScheme (sumRed rf rf .direct d)) P junk order out := by
  unfold cpuConvRanges
  simp only [cpuRangeRow_block hf hw]
  rfl

/-- The direct sum in one type. -/
theorem fold_lawful (hr : Rounding u r) (d : Nat) :
    LawfulScheme True (sumRed r r .direct d) (directScheme (sumRed r r .direct d)) (FoldOf r d)
      (fun xs s => FoldOf r d xs s.1) (fun xs s => FoldOf r d xs s.1) := by
  have hi : ∀ a : Mem ℝ, FoldOf r d [] (vectFill d a 0) := fun a k hk => by simp [vectFill_apply, hk, hr.zero]
  exact
    { cpuInit := fun a _ => hi a
      gpuInit := fun a _ => hi a
      blockInit := fun _ _ hs => hs
      accum := fun xs s x j hs k hk => by
        obtain ⟨h1, h2⟩ := hs k hk
        simp [directScheme, sumRed, vectApply_apply, hk, hr.idem, ← h2]
      periodic := fun _ _ _ _ _ hs => hs
      final := fun _ _ _ hs => hs
      acc := fun _ _ hs => hs }

end Verif.Rnd
