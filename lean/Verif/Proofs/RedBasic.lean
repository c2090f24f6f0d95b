import Mathlib.Algebra.BigOperators.Group.List.Basic
import Mathlib.Algebra.BigOperators.Group.Finset.Basic
import Mathlib.Algebra.BigOperators.Intervals
import Mathlib.Order.Lattice
import Mathlib.Order.BoundedOrder.Lattice
import Mathlib.Tactic.Abel
import Mathlib.Tactic.Linarith
import Verif.Proofs.Lawful

namespace Verif

variable {V : Type}

/-! ## Sum -/

theorem list_sum_range [AddCommMonoid V] (n : Nat) (f : Nat → V) :
    ((List.range n).map f).sum = ∑ j ∈ Finset.range n, f j := by
  induction n with
  | zero => simp
  | succ n ih => rw [List.range_succ, Finset.sum_range_succ, List.map_append, List.sum_append, ih]; simp

/-- `acc` holds the component-wise sums of the items. -/
def SumAcc [AddCommGroup V] (d : Nat) (xs : List (Nat × Mem V)) (acc : Mem V) : Prop :=
  ∀ k < d, acc k = (xs.map (fun x => x.2 k)).sum

theorem sumRed_lawful [AddCommGroup V] (d : Nat) : Lawful True (sumRed (V := V) d) (SumAcc d) where
  init junk k hk := by simp [sumRed, vectFill_apply, hk]
  short xs acc x j h k hk := by
    simp [sumRed, vectApply_apply, hk, h k hk]
  pair := by
    intro p hp xs ys a b _ ha hb k hk
    simp only [sumRed, Option.some.injEq] at hp
    subst hp
    simp [vectApply_apply, hk, ha k hk, hb k hk]

theorem sumKahan_apply [AddCommGroup V] (d : Nat) (acc xi tmp : Mem V) (p : Nat) :
    (sumKahan d acc xi tmp).1 p = (if p < d then acc p + (xi p - tmp p) else acc p) ∧
    (sumKahan d acc xi tmp).2 p =
      (if p < d then ((acc p + (xi p - tmp p)) - acc p) - (xi p - tmp p) else tmp p) := by
  induction d with
  | zero => simp [sumKahan]
  | succ d ih =>
    unfold sumKahan at ih ⊢
    rw [forRange_succ]
    generalize forRange d _ (acc, tmp) = s at ih ⊢
    simp only [Mem.set_apply]
    by_cases hp : p = d
    · subst hp
      simp only [lt_irrefl, if_false] at ih
      simp [ih.1, ih.2]
    · have : (p < d + 1) ↔ p < d := by omega
      simp only [hp, if_false, this]
      exact ih

theorem sumKahan_lawful [AddCommGroup V] (d : Nat) :
    LawfulScheme True (sumRed (V := V) d) (kahanScheme (fun tmp => vectFill d tmp 0) (sumKahan d))
      (SumAcc d) (fun xs s => SumAcc d xs s.1 ∧ ∀ k < d, s.2 k = 0)
      (fun xs s => SumAcc d xs s.1 ∧ ∀ k < d, s.2 k = 0) := by
  apply kahanScheme_lawful (T := fun t => ∀ k < d, t k = 0) (sumRed_lawful d)
  · intro t k hk; simp [vectFill_apply, hk]
  · intro xs acc tmp x j h ht
    constructor
    · intro k hk
      rw [(sumKahan_apply d acc x tmp k).1]
      simp [hk, ht k hk, h k hk]
    · intro k hk
      rw [(sumKahan_apply d acc x tmp k).2]
      simp [hk]

theorem sum_getScheme_lawful [AddCommGroup V] (d : Nat) (sch : SumScheme) :
    ∃ S B G, getScheme (sumRed (V := V) d) sch = some S ∧ LawfulScheme True (sumRed d) S (SumAcc d) B G := by
  cases sch with
  | direct => exact ⟨_, _, _, rfl, directScheme_lawful (sumRed_lawful d)⟩
  | block => exact ⟨_, _, _, rfl, blockScheme_lawful (sumRed_lawful d) rfl⟩
  | kahan => exact ⟨_, _, _, rfl, sumKahan_lawful d⟩

theorem sumRed_finLocal [AddCommGroup V] (d : Nat) : FinLocal (sumRed (V := V) d) := by
  intro acc out out' p
  simp only [sumRed, vectCopy_apply]
  constructor
  · intro h; simp [h]
  · intro h; simp [Nat.not_lt.mpr h]

/-! ## Min and max -/

/-- `v` is the minimum of the list, `⊤` for the empty list. -/
def IsMinOf [LinearOrder V] [OrderTop V] (l : List V) (v : V) : Prop :=
  (∀ x ∈ l, v ≤ x) ∧ (v = ⊤ ∨ v ∈ l)

def IsMaxOf [LinearOrder V] [OrderBot V] (l : List V) (v : V) : Prop :=
  (∀ x ∈ l, x ≤ v) ∧ (v = ⊥ ∨ v ∈ l)

def MinAcc [LinearOrder V] [OrderTop V] (d : Nat) (xs : List (Nat × Mem V)) (acc : Mem V) : Prop :=
  ∀ k < d, IsMinOf (xs.map (fun x => x.2 k)) (acc k)

def MaxAcc [LinearOrder V] [OrderBot V] (d : Nat) (xs : List (Nat × Mem V)) (acc : Mem V) : Prop :=
  ∀ k < d, IsMaxOf (xs.map (fun x => x.2 k)) (acc k)

theorem IsMinOf.append [LinearOrder V] [OrderTop V] {l m : List V} {a b : V}
    (ha : IsMinOf l a) (hb : IsMinOf m b) : IsMinOf (l ++ m) (if b < a then b else a) := by
  constructor
  · intro x hx
    rcases List.mem_append.mp hx with hx | hx
    · have := ha.1 x hx
      split
      · next h => exact le_trans h.le this
      · exact this
    · have := hb.1 x hx
      split
      · exact this
      · next h => exact le_trans (not_lt.mp h) this
  · split
    · rcases hb.2 with h | h
      · left; exact h
      · right; simp [h]
    · rcases ha.2 with h | h
      · left; exact h
      · right; simp [h]

theorem IsMaxOf.append [LinearOrder V] [OrderBot V] {l m : List V} {a b : V}
    (ha : IsMaxOf l a) (hb : IsMaxOf m b) : IsMaxOf (l ++ m) (if a < b then b else a) := by
  constructor
  · intro x hx
    rcases List.mem_append.mp hx with hx | hx
    · have := ha.1 x hx
      split
      · next h => exact le_trans this h.le
      · exact this
    · have := hb.1 x hx
      split
      · exact this
      · next h => exact le_trans this (not_lt.mp h)
  · split
    · rcases hb.2 with h | h
      · left; exact h
      · right; simp [h]
    · rcases ha.2 with h | h
      · left; exact h
      · right; simp [h]

theorem IsMinOf.single [LinearOrder V] [OrderTop V] (x : V) : IsMinOf [x] x := by
  simp [IsMinOf]

theorem IsMaxOf.single [LinearOrder V] [OrderBot V] (x : V) : IsMaxOf [x] x := by
  simp [IsMaxOf]

theorem minRed_lawful [LinearOrder V] [OrderTop V] (d : Nat) :
    Lawful True (minRed (V := V) d) (MinAcc d) where
  init junk k hk := by simp [minRed, vectFill_apply, hk, IsMinOf]
  short xs acc x j h k hk := by
    simp only [minRed, vectApply_apply, hk, if_true, List.map_append, List.map_cons, List.map_nil]
    exact (h k hk).append (IsMinOf.single _)
  pair := by
    intro p hp xs ys a b _ ha hb k hk
    simp only [minRed, Option.some.injEq] at hp
    subst hp
    simp only [vectApply_apply, hk, if_true, List.map_append]
    exact (ha k hk).append (hb k hk)

theorem maxRed_lawful [LinearOrder V] [OrderBot V] (d : Nat) :
    Lawful True (maxRed (V := V) d) (MaxAcc d) where
  init junk k hk := by simp [maxRed, vectFill_apply, hk, IsMaxOf]
  short xs acc x j h k hk := by
    simp only [maxRed, vectApply_apply, hk, if_true, List.map_append, List.map_cons, List.map_nil]
    exact (h k hk).append (IsMaxOf.single _)
  pair := by
    intro p hp xs ys a b _ ha hb k hk
    simp only [maxRed, Option.some.injEq] at hp
    subst hp
    simp only [vectApply_apply, hk, if_true, List.map_append]
    exact (ha k hk).append (hb k hk)

theorem minRed_finLocal [LinearOrder V] [OrderTop V] (d : Nat) : FinLocal (minRed (V := V) d) := by
  intro acc out out' p
  simp only [minRed, vectCopy_apply]
  exact ⟨fun h => by simp [h], fun h => by simp [Nat.not_lt.mpr h]⟩

theorem maxRed_finLocal [LinearOrder V] [OrderBot V] (d : Nat) : FinLocal (maxRed (V := V) d) := by
  intro acc out out' p
  simp only [maxRed, vectCopy_apply]
  exact ⟨fun h => by simp [h], fun h => by simp [Nat.not_lt.mpr h]⟩

/-! ## Argmin and argmax -/

/-- `v` is the minimum and `i` the (cast) first index of a strictly finite minimum; the initial
content `(⊤, cast 0)` when nothing is below `⊤`. -/
def FirstMin [LinearOrder V] [OrderTop V] (cast : Nat → V) (l : List (Nat × V)) (v i : V) : Prop :=
  (v = ⊤ ∧ i = cast 0 ∧ ∀ p ∈ l, p.2 = ⊤) ∨
  (v < ⊤ ∧ ∃ pre j post, l = pre ++ (j, v) :: post ∧ (∀ p ∈ pre, v < p.2) ∧
    (∀ p ∈ post, v ≤ p.2) ∧ i = cast j)

def FirstMax [LinearOrder V] [OrderBot V] (cast : Nat → V) (l : List (Nat × V)) (v i : V) : Prop :=
  (v = ⊥ ∧ i = cast 0 ∧ ∀ p ∈ l, p.2 = ⊥) ∨
  (⊥ < v ∧ ∃ pre j post, l = pre ++ (j, v) :: post ∧ (∀ p ∈ pre, p.2 < v) ∧
    (∀ p ∈ post, p.2 ≤ v) ∧ i = cast j)

def ArgMinAcc [LinearOrder V] [OrderTop V] (cast : Nat → V) (d : Nat)
    (xs : List (Nat × Mem V)) (acc : Mem V) : Prop :=
  ∀ k < d, FirstMin cast (xs.map (fun x => (x.1, x.2 k))) (acc k) (acc (d + k))

def ArgMaxAcc [LinearOrder V] [OrderBot V] (cast : Nat → V) (d : Nat)
    (xs : List (Nat × Mem V)) (acc : Mem V) : Prop :=
  ∀ k < d, FirstMax cast (xs.map (fun x => (x.1, x.2 k))) (acc k) (acc (d + k))

theorem FirstMin.step [LinearOrder V] [OrderTop V] {cast : Nat → V} {l : List (Nat × V)} {v i : V}
    (h : FirstMin cast l v i) (x : V) (j : Nat) :
    FirstMin cast (l ++ [(j, x)]) (if x < v then x else v) (if x < v then cast j else i) := by
  by_cases hx : x < v
  · simp only [hx, if_true]
    right
    refine ⟨lt_of_lt_of_le hx le_top, l, j, [], by simp, ?_, by simp, rfl⟩
    intro p hp
    rcases h with ⟨rfl, _, hall⟩ | ⟨_, pre, j', post, rfl, hpre, hpost, _⟩
    · rw [hall p hp]; exact hx
    · rcases List.mem_append.mp hp with hp | hp
      · exact lt_trans hx (hpre p hp)
      · rcases List.mem_cons.mp hp with rfl | hp
        · exact hx
        · exact lt_of_lt_of_le hx (hpost p hp)
  · simp only [hx, if_false]
    rcases h with ⟨rfl, hi, hall⟩ | ⟨hv, pre, j', post, rfl, hpre, hpost, hi⟩
    · left
      refine ⟨rfl, hi, ?_⟩
      intro p hp
      rcases List.mem_append.mp hp with hp | hp
      · exact hall p hp
      · simp only [List.mem_singleton] at hp
        subst hp
        exact le_antisymm le_top (not_lt.mp hx)
    · right
      refine ⟨hv, pre, j', post ++ [(j, x)], by simp, hpre, ?_, hi⟩
      intro p hp
      rcases List.mem_append.mp hp with hp | hp
      · exact hpost p hp
      · simp only [List.mem_singleton] at hp
        subst hp
        exact not_lt.mp hx

theorem FirstMax.step [LinearOrder V] [OrderBot V] {cast : Nat → V} {l : List (Nat × V)} {v i : V}
    (h : FirstMax cast l v i) (x : V) (j : Nat) :
    FirstMax cast (l ++ [(j, x)]) (if v < x then x else v) (if v < x then cast j else i) := by
  by_cases hx : v < x
  · simp only [hx, if_true]
    right
    refine ⟨lt_of_le_of_lt bot_le hx, l, j, [], by simp, ?_, by simp, rfl⟩
    intro p hp
    rcases h with ⟨rfl, _, hall⟩ | ⟨_, pre, j', post, rfl, hpre, hpost, _⟩
    · rw [hall p hp]; exact hx
    · rcases List.mem_append.mp hp with hp | hp
      · exact lt_trans (hpre p hp) hx
      · rcases List.mem_cons.mp hp with rfl | hp
        · exact hx
        · exact lt_of_le_of_lt (hpost p hp) hx
  · simp only [hx, if_false]
    rcases h with ⟨rfl, hi, hall⟩ | ⟨hv, pre, j', post, rfl, hpre, hpost, hi⟩
    · left
      refine ⟨rfl, hi, ?_⟩
      intro p hp
      rcases List.mem_append.mp hp with hp | hp
      · exact hall p hp
      · simp only [List.mem_singleton] at hp
        subst hp
        exact le_antisymm (not_lt.mp hx) bot_le
    · right
      refine ⟨hv, pre, j', post ++ [(j, x)], by simp, hpre, ?_, hi⟩
      intro p hp
      rcases List.mem_append.mp hp with hp | hp
      · exact hpost p hp
      · simp only [List.mem_singleton] at hp
        subst hp
        exact not_lt.mp hx

theorem minArgShort_apply [LinearOrder V] (cast : Nat → V) (d : Nat) (acc xi : Mem V) (ind p : Nat) :
    minArgShort cast d acc xi ind p =
      if p < d then (if xi p < acc p then xi p else acc p)
      else if p < 2 * d then (if xi (p - d) < acc (p - d) then cast ind else acc p)
      else acc p := by
  have gen : ∀ n ≤ d, ∀ p, forRange n (fun k (acc : Mem V) =>
      if xi k < acc k then (acc.set k (xi k)).set (d + k) (cast ind) else acc) acc p =
      if p < n then (if xi p < acc p then xi p else acc p)
      else if d ≤ p ∧ p < d + n then (if xi (p - d) < acc (p - d) then cast ind else acc p)
      else acc p := by
    intro n
    induction n with
    | zero => intro _ p; simp
    | succ n ih =>
      intro hn p
      rw [forRange_succ]
      have ihn := ih (by omega) n
      simp only [lt_irrefl, if_false, show ¬ (d ≤ n) by omega, false_and] at ihn
      rw [ihn]
      have ihp := ih (by omega) p
      split
      · next hlt =>
        rw [Mem.set_apply, Mem.set_apply, ihp]
        by_cases h1 : p = d + n
        · subst h1
          have e : d + n - d = n := by omega
          rw [if_pos rfl, if_neg (by omega), if_pos (by omega), e, if_pos hlt]
        · rw [if_neg h1]
          by_cases h2 : p = n
          · subst h2
            rw [if_pos rfl, if_pos (by omega), if_pos hlt]
          · rw [if_neg h2]
            have a1 : (p < n + 1) ↔ p < n := by omega
            have a2 : (d ≤ p ∧ p < d + (n + 1)) ↔ (d ≤ p ∧ p < d + n) := by omega
            simp only [a1, a2]
      · next hlt =>
        rw [ihp]
        by_cases h1 : p = d + n
        · subst h1
          have e : d + n - d = n := by omega
          rw [if_neg (by omega), if_neg (by omega), if_neg (by omega), if_pos (by omega), e,
            if_neg hlt]
        · by_cases h2 : p = n
          · subst h2
            rw [if_neg (by omega), if_neg (by omega), if_pos (by omega), if_neg hlt]
          · have a1 : (p < n + 1) ↔ p < n := by omega
            have a2 : (d ≤ p ∧ p < d + (n + 1)) ↔ (d ≤ p ∧ p < d + n) := by omega
            simp only [a1, a2]
  have := gen d (le_refl d) p
  unfold minArgShort
  rw [this]
  by_cases h : p < d
  · simp [h]
  · have a : (d ≤ p ∧ p < d + d) ↔ p < 2 * d := by omega
    simp only [h, if_false, a]

theorem maxArgShort_apply [LinearOrder V] (cast : Nat → V) (d : Nat) (acc xi : Mem V) (ind p : Nat) :
    maxArgShort cast d acc xi ind p =
      if p < d then (if acc p < xi p then xi p else acc p)
      else if p < 2 * d then (if acc (p - d) < xi (p - d) then cast ind else acc p)
      else acc p := by
  have h := minArgShort_apply (V := Vᵒᵈ) cast d acc xi ind p
  exact h

theorem minArgInit_apply [LinearOrder V] [OrderTop V] (cast : Nat → V) (d : Nat) (junk : Mem V) {k : Nat}
    (hk : k < d) : minArgInit cast d junk k = ⊤ ∧ minArgInit cast d junk (d + k) = cast 0 := by
  simp only [minArgInit, onSlice_apply, vectFill_apply]
  constructor
  · rw [if_neg (by omega), if_pos hk]
  · rw [if_pos (by omega), if_pos (by omega)]

theorem minArg_lawful_aux [LinearOrder V] [OrderTop V] (cast : Nat → V) (d : Nat) (R : Red V)
    (hi : R.init = minArgInit cast d) (hs : R.short = minArgShort cast d) (hp : R.pair = none) :
    Lawful True R (ArgMinAcc cast d) where
  init junk k hk := by
    rw [hi]
    obtain ⟨h1, h2⟩ := minArgInit_apply cast d junk hk
    rw [h1, h2]
    exact Or.inl ⟨rfl, rfl, by simp⟩
  short xs acc x j h k hk := by
    rw [hs]
    simp only [minArgShort_apply, hk, if_true, List.map_append, List.map_cons, List.map_nil,
      show ¬ (d + k < d) by omega, if_false, show d + k < 2 * d by omega,
      show d + k - d = k by omega]
    exact (h k hk).step _ _
  pair := by
    intro p hpp
    rw [hp] at hpp
    cases hpp

theorem maxArg_lawful_aux [LinearOrder V] [OrderBot V] (cast : Nat → V) (d : Nat) (R : Red V)
    (hi : R.init = maxArgInit cast d) (hs : R.short = maxArgShort cast d) (hp : R.pair = none) :
    Lawful True R (ArgMaxAcc cast d) where
  init junk k hk := by
    rw [hi]
    simp only [maxArgInit, onSlice_apply, vectFill_apply]
    rw [if_neg (by omega), if_pos hk, if_pos (by omega), if_pos (by omega)]
    exact Or.inl ⟨rfl, rfl, by simp⟩
  short xs acc x j h k hk := by
    rw [hs]
    simp only [maxArgShort_apply, hk, if_true, List.map_append, List.map_cons, List.map_nil,
      show ¬ (d + k < d) by omega, if_false, show d + k < 2 * d by omega,
      show d + k - d = k by omega]
    exact (h k hk).step _ _
  pair := by
    intro p hpp
    rw [hp] at hpp
    cases hpp

theorem argMinRed_finLocal [LinearOrder V] [OrderTop V] (cast : Nat → V) (d : Nat) :
    FinLocal (argMinRed cast d) := by
  intro acc out out' p
  simp only [argMinRed, vectCopy_apply]
  exact ⟨fun h => by simp [h], fun h => by simp [Nat.not_lt.mpr h]⟩

theorem argMaxRed_finLocal [LinearOrder V] [OrderBot V] (cast : Nat → V) (d : Nat) :
    FinLocal (argMaxRed cast d) := by
  intro acc out out' p
  simp only [argMaxRed, vectCopy_apply]
  exact ⟨fun h => by simp [h], fun h => by simp [Nat.not_lt.mpr h]⟩

theorem minArgMinRed_finLocal [LinearOrder V] [OrderTop V] (cast : Nat → V) (d : Nat) :
    FinLocal (minArgMinRed cast d) := by
  intro acc out out' p
  simp only [minArgMinRed, vectCopy_apply]
  exact ⟨fun h => by simp [h], fun h => by simp [Nat.not_lt.mpr h]⟩

theorem maxArgMaxRed_finLocal [LinearOrder V] [OrderBot V] (cast : Nat → V) (d : Nat) :
    FinLocal (maxArgMaxRed cast d) := by
  intro acc out out' p
  simp only [maxArgMaxRed, vectCopy_apply]
  exact ⟨fun h => by simp [h], fun h => by simp [Nat.not_lt.mpr h]⟩

end Verif
