import Mathlib.Data.List.GetD
import Verif.Proofs.Lawful
import Verif.Proofs.KMinList

/-! The K-min reductions keep the `K` smallest entries. -/

namespace Verif

variable {V : Type}

theorem pos_inj {a b m l l' : Nat} (ha : a < m) (hb : b < m) (h : a + l * m = b + l' * m) :
    a = b ∧ l = l' := by
  have hl : l = l' := by
    have e1 : (a + l * m) / m = l := by
      rw [Nat.add_mul_div_right _ _ (by omega), Nat.div_eq_of_lt ha, Nat.zero_add]
    have e2 : (b + l' * m) / m = l' := by
      rw [Nat.add_mul_div_right _ _ (by omega), Nat.div_eq_of_lt hb, Nat.zero_add]
    rw [← e1, ← e2, h]
  subst hl
  exact ⟨by omega, rfl⟩

/-- Entry `l` of column `k`: a value and its index. -/
def cell (f k : Nat) (acc : Mem V) (l : Nat) : V × V :=
  (acc (k + l * (2 * f)), acc (k + l * (2 * f) + f))

def setCell (f k l : Nat) (x : V × V) (acc : Mem V) : Mem V :=
  (acc.set (k + l * (2 * f)) x.1).set (k + l * (2 * f) + f) x.2

theorem cell_setCell {f k k' : Nat} (hk : k < f) (hk' : k' < f) (l l' : Nat) (x : V × V)
    (acc : Mem V) :
    cell f k' (setCell f k l x acc) l' = if k' = k ∧ l' = l then x else cell f k' acc l' := by
  have n1 : k' + l' * (2 * f) ≠ k + l * (2 * f) + f := by
    intro h
    have : k' + l' * (2 * f) = (k + f) + l * (2 * f) := by omega
    have := (pos_inj (by omega) (by omega) this).1
    omega
  have n2 : k' + l' * (2 * f) + f ≠ k + l * (2 * f) := by
    intro h
    have : (k' + f) + l' * (2 * f) = k + l * (2 * f) := by omega
    have := (pos_inj (by omega) (by omega) this).1
    omega
  simp only [cell, setCell, Mem.set_apply, n1, n2, if_false]
  by_cases h : k' = k ∧ l' = l
  · obtain ⟨rfl, rfl⟩ := h
    simp
  · have h1 : k' + l' * (2 * f) ≠ k + l * (2 * f) := by
      intro he
      exact h (pos_inj (by omega) (by omega) he)
    have h2 : k' + l' * (2 * f) + f ≠ k + l * (2 * f) + f := by omega
    simp [h, h1, h2]

/-! ### Initialisation -/

theorem kminInit_col [Top V] (cast : Nat → V) (f K k : Nat) (hk : k < f) (acc : Mem V) :
    ∀ k' < f, ∀ l, cell f k' (forStride k (2 * f) K
      (fun l acc => (acc.set l ⊤).set (l + f) (cast 0)) acc) l =
      if k' = k ∧ l < K then (⊤, cast 0) else cell f k' acc l := by
  induction K with
  | zero => intro k' _ l; simp
  | succ K ih =>
    intro k' hk' l
    rw [forStride_succ]
    have := cell_setCell hk hk' K l (⊤, cast 0)
      (forStride k (2 * f) K (fun l acc => (acc.set l ⊤).set (l + f) (cast 0)) acc)
    simp only [setCell] at this
    rw [this, ih k' hk' l]
    by_cases h1 : k' = k
    · by_cases h2 : l = K
      · simp [h1, h2]
      · have : l < K + 1 ↔ l < K := by omega
        simp [h1, h2, this]
    · simp [h1]

theorem kminInit_cell [Top V] (cast : Nat → V) (f K : Nat) (acc : Mem V) {k l : Nat}
    (hk : k < f) (hl : l < K) : cell f k (kminInit cast f K acc) l = (⊤, cast 0) := by
  have : ∀ n ≤ f, ∀ k < f, ∀ l < K,  k < n → cell f k (forRange n (fun k acc =>
      forStride k (2 * f) K (fun l acc => (acc.set l ⊤).set (l + f) (cast 0)) acc) acc) l =
      (⊤, cast 0) := by
    intro n
    induction n with
    | zero => intro _ _ _ _ _ h; omega
    | succ n ih =>
      intro hn k hk l hl hkn
      rw [forRange_succ, kminInit_col cast f K n (by omega) _ k hk l]
      by_cases h : k = n
      · simp [h, hl]
      · rw [if_neg (by simp [h])]
        exact ih (by omega) k hk l hl (by omega)
  exact this f (le_refl f) k hk l hl hk

/-! ### Insertion -/

section
variable [LinearOrder V]

theorem kminIns_spec {f K k : Nat} (hk : k < f) (x : V × V) :
    ∀ c ≤ K, ∀ acc : Mem V, ∃ p ≤ c,
      (∀ l, p ≤ l → l < c → x.1 < (cell f k acc l).1) ∧
      (0 < p → ¬ x.1 < (cell f k acc (p - 1)).1) ∧
      ∀ k' < f, ∀ l < K, cell f k' (kminIns f K k x.1 x.2 c acc) l =
        if k' = k ∧ p < c then
          (if l < p then cell f k acc l else if l = p then x
            else if l ≤ c then cell f k acc (l - 1) else cell f k acc l)
        else cell f k' acc l := by
  intro c
  induction c with
  | zero =>
    intro _ acc
    exact ⟨0, le_refl 0, by omega, by omega, by intro k' _ l _; simp [kminIns]⟩
  | succ c ih =>
    intro hc acc
    have hcell : (cell f k acc c).1 = acc (k + c * (2 * f)) := rfl
    by_cases hx : x.1 < acc (k + c * (2 * f))
    · -- the entry moves up
      have hlt : (k + c * (2 * f) < k + 2 * f * (K - 1)) ↔ c + 1 < K := by
        constructor
        · intro h
          by_contra hcc
          have : K - 1 ≤ c := by omega
          have := Nat.mul_le_mul_left (2 * f) this
          rw [Nat.mul_comm c] at h
          omega
        · intro h
          have h1 : c + 1 ≤ K - 1 := by omega
          have h2 := Nat.mul_le_mul_left (2 * f) h1
          rw [Nat.mul_add, Nat.mul_one] at h2
          rw [Nat.mul_comm c]
          omega
      let acc' : Mem V := if c + 1 < K then
        setCell f k (c + 1) (cell f k acc c) (setCell f k c x acc) else setCell f k c x acc
      have hstep : kminIns f K k x.1 x.2 (c + 1) acc = kminIns f K k x.1 x.2 c acc' := by
        conv_lhs => unfold kminIns
        simp only [hx, if_true]
        congr 1
        simp only [acc']
        by_cases hcc : c + 1 < K
        · rw [if_pos (hlt.mpr hcc), if_pos hcc]
          have e : k + c * (2 * f) + 2 * f = k + (c + 1) * (2 * f) := by
            rw [Nat.succ_mul c]; omega
          simp only [setCell, cell, e]
        · rw [if_neg (fun h => hcc (hlt.mp h)), if_neg hcc]
          rfl
      have hacc' : ∀ k' < f, ∀ l < K, cell f k' acc' l =
          if k' = k ∧ l = c + 1 then cell f k acc c
          else if k' = k ∧ l = c then x else cell f k' acc l := by
        intro k' hk' l hl
        simp only [acc']
        split
        · rw [cell_setCell hk hk', cell_setCell hk hk']
        · next hcc =>
          rw [cell_setCell hk hk', if_neg (c := k' = k ∧ l = c + 1) (by omega)]
      obtain ⟨p, hp, h1, h2, h3⟩ := ih (by omega) acc'
      refine ⟨p, by omega, ?_, ?_, ?_⟩
      · intro l hpl hlc
        by_cases hl : l = c
        · subst hl; exact hx
        · have := h1 l hpl (by omega)
          rw [hacc' k hk l (by omega), if_neg (by omega), if_neg (by omega)] at this
          exact this
      · intro hp0
        have := h2 hp0
        rw [hacc' k hk (p - 1) (by omega), if_neg (by omega), if_neg (by omega)] at this
        exact this
      · intro k' hk' l hl
        rw [hstep, h3 k' hk' l hl]
        by_cases hkk : k' = k
        · subst hkk
          have a1 : p < c + 1 := by omega
          simp only [a1, true_and, if_true]
          by_cases hpc : p < c
          · simp only [hpc, if_true]
            by_cases l1 : l < p
            · rw [if_pos l1, if_pos l1, hacc' k' hk l hl, if_neg (by omega), if_neg (by omega)]
            · rw [if_neg l1, if_neg l1]
              by_cases l2 : l = p
              · rw [if_pos l2, if_pos l2]
              · rw [if_neg l2, if_neg l2]
                by_cases l3 : l ≤ c
                · rw [if_pos l3, if_pos (by omega), hacc' k' hk (l - 1) (by omega),
                    if_neg (by omega), if_neg (by omega)]
                · rw [if_neg l3, hacc' k' hk l hl]
                  by_cases l4 : l = c + 1
                  · subst l4
                    simp
                  · rw [if_neg (by omega), if_neg (by omega), if_neg (by omega)]
          · have hpc' : p = c := by omega
            subst hpc'
            simp only [lt_irrefl, if_false]
            rw [hacc' k' hk l hl]
            by_cases l1 : l < p
            · rw [if_neg (by omega), if_neg (by omega), if_pos l1]
            · rw [if_neg l1]
              by_cases l2 : l = p
              · subst l2
                rw [if_neg (by omega)]; simp
              · by_cases l3 : l = p + 1
                · subst l3; simp
                · rw [if_neg (by omega), if_neg (by omega), if_neg l2, if_neg (by omega)]
        · simp only [hkk, false_and, if_false]
          rw [hacc' k' hk' l hl]
          simp [hkk]
    · refine ⟨c + 1, le_refl _, by omega, ?_, ?_⟩
      · intro _; simpa [hcell] using hx
      · intro k' _ l _
        unfold kminIns
        simp only [hx, if_false, lt_irrefl, and_false]

/-- The list of the `K` entries of column `k`. -/
def kview (f K k : Nat) (acc : Mem V) : List (V × V) := (List.range K).map (cell f k acc)

theorem kminIns_view {f K k : Nat} (hk : k < f) (x : V × V) (acc : Mem V)
    (hs : Srt (kview f K k acc)) :
    kview f K k (kminIns f K k x.1 x.2 K acc) = (ins x (kview f K k acc)).take K := by
  obtain ⟨p, hp, h1, h2, h3⟩ := kminIns_spec hk x K (le_refl K) acc
  have hget : ∀ l (hl : l < K), (kview f K k acc)[l]'(by simp [kview, hl]) = cell f k acc l := by
    intro l hl; simp [kview]
  have hlen : (kview f K k acc).length = K := by simp [kview]
  have hsplit : ins x (kview f K k acc) = (kview f K k acc).take p ++ x :: (kview f K k acc).drop p := by
    apply ins_eq_split
    · intro y hy
      obtain ⟨l, hl, rfl⟩ := List.mem_iff_getElem.mp hy
      simp only [List.length_take, hlen] at hl
      rw [List.getElem_take, hget l (by omega)]
      have hle : (cell f k acc l).1 ≤ (cell f k acc (p - 1)).1 := by
        by_cases he : l = p - 1
        · rw [he]
        · have := List.pairwise_iff_getElem.mp hs l (p - 1) (by omega) (by omega) (by omega)
          rw [hget l (by omega), hget (p - 1) (by omega)] at this
          exact this
      exact hle.trans (not_lt.mp (h2 (by omega)))
    · intro y hy
      by_cases hpK : p < K
      · rw [List.head?_drop, List.getElem?_eq_getElem (by omega)] at hy
        simp only [Option.mem_def, Option.some.injEq] at hy
        rw [← hy, hget p hpK]
        exact h1 p (le_refl p) hpK
      · rw [List.drop_eq_nil_of_le (by omega)] at hy
        simp at hy
  rw [hsplit]
  apply List.ext_getElem
  · simp only [kview, List.length_map, List.length_range, List.length_take, List.length_append,
      List.length_cons, List.length_drop]
    omega
  · intro l hl1 hl2
    have hl : l < K := by simpa [kview] using hl1
    rw [List.getElem_take]
    have e1 : (kview f K k (kminIns f K k x.1 x.2 K acc))[l] =
      cell f k (kminIns f K k x.1 x.2 K acc) l := by simp [kview]
    rw [e1, h3 k hk l hl]
    simp only [true_and]
    rw [List.getElem_append]
    simp only [List.length_take, hlen]
    by_cases l1 : l < p
    · have : l < min p K := by omega
      rw [dif_pos this, List.getElem_take, hget l hl]
      by_cases hpK : p < K
      · rw [if_pos hpK, if_pos l1]
      · rw [if_neg hpK]
    · rw [dif_neg (by omega)]
      have hpK : p < K := by omega
      have hmin : min p K = p := by omega
      rw [if_pos hpK, if_neg l1]
      by_cases l2 : l = p
      · subst l2; simp [hmin]
      · rw [if_neg l2, if_pos (by omega)]
        simp only [hmin]
        obtain ⟨q, rfl⟩ : ∃ q, l = p + 1 + q := ⟨l - (p + 1), by omega⟩
        have : p + 1 + q - p = q + 1 := by omega
        simp only [this, List.getElem_cons_succ, List.getElem_drop]
        rw [hget (p + q) (by omega)]
        congr 1; omega

theorem kminIns_other {f K k k' : Nat} (hk : k < f) (hk' : k' < f) (hne : k' ≠ k) (x : V × V)
    (acc : Mem V) : kview f K k' (kminIns f K k x.1 x.2 K acc) = kview f K k' acc := by
  obtain ⟨p, hp, h1, h2, h3⟩ := kminIns_spec hk x K (le_refl K) acc
  apply List.map_congr_left
  intro l hl
  rw [h3 k' hk' l (by simpa using hl), if_neg (by simp [hne])]

theorem kminShort_view (cast : Nat → V) {f K : Nat} (acc xi : Mem V) (ind : Nat)
    (hs : ∀ k < f, Srt (kview f K k acc)) {k : Nat} (hk : k < f) :
    kview f K k (kminShort cast f K acc xi ind) =
      (ins (xi k, cast ind) (kview f K k acc)).take K := by
  have : ∀ n ≤ f, ∀ k < f, kview f K k (forRange n (fun k acc =>
      kminIns f K k (xi k) (cast ind) K acc) acc) =
      if k < n then (ins (xi k, cast ind) (kview f K k acc)).take K else kview f K k acc := by
    intro n
    induction n with
    | zero => intro _ k _; simp
    | succ n ih =>
      intro hn k hk
      rw [forRange_succ]
      have ihn := ih (by omega)
      by_cases h : k = n
      · subst h
        rw [if_pos (by omega)]
        have e := ihn k hk
        rw [if_neg (by omega)] at e
        have := kminIns_view (K := K) hk (xi k, cast ind) (forRange k (fun k acc =>
          kminIns f K k (xi k) (cast ind) K acc) acc) (by rw [e]; exact hs k hk)
        rw [e] at this
        exact this
      · have := kminIns_other (K := K) (by omega : n < f) hk h (xi n, cast ind) (forRange n (fun k acc =>
          kminIns f K k (xi k) (cast ind) K acc) acc)
        simp only at this
        rw [this, ihn k hk]
        have : k < n + 1 ↔ k < n := by omega
        simp only [this]
  have := this f (le_refl f) k hk
  rw [if_pos hk] at this
  exact this

/-! ### Merge -/

theorem kminPair_col {f K k : Nat} (hk : k < f) (acc xi out : Mem V) :
    let body := fun l (s : Mem V × Nat × Nat) =>
      if xi s.2.1 < acc s.2.2 then
        ((s.1.set l (xi s.2.1)).set (l + f) (xi (s.2.1 + f)), s.2.1 + 2 * f, s.2.2)
      else
        ((s.1.set l (acc s.2.2)).set (l + f) (acc (s.2.2 + f)), s.2.1, s.2.2 + 2 * f)
    ∀ n ≤ K, ∃ p q, p + q = n ∧
      (forStride k (2 * f) n body (out, k, k)).2 = (k + p * (2 * f), k + q * (2 * f)) ∧
      (∀ k' < f, ∀ l, (k' ≠ k ∨ n ≤ l) →
        cell f k' (forStride k (2 * f) n body (out, k, k)).1 l = cell f k' out l) ∧
      mrg (kview f K k acc) (kview f K k xi) =
        (List.range n).map (cell f k (forStride k (2 * f) n body (out, k, k)).1) ++
          mrg ((kview f K k acc).drop q) ((kview f K k xi).drop p) := by
  intro body n
  induction n with
  | zero =>
    intro _
    exact ⟨0, 0, rfl, by simp, by simp, by simp⟩
  | succ n ih =>
    intro hn
    obtain ⟨p, q, hpq, hst, hoth, hm⟩ := ih (by omega)
    rw [forStride_succ]
    generalize forStride k (2 * f) n body (out, k, k) = s at hst hoth hm ⊢
    obtain ⟨o, p', q'⟩ := s
    simp only [Prod.mk.injEq] at hst
    obtain ⟨rfl, rfl⟩ := hst
    have hq : (kview f K k acc).drop q = cell f k acc q :: (kview f K k acc).drop (q + 1) := by
      rw [List.drop_eq_getElem_cons (by simp [kview]; omega)]
      simp [kview]
    have hp : (kview f K k xi).drop p = cell f k xi p :: (kview f K k xi).drop (p + 1) := by
      rw [List.drop_eq_getElem_cons (by simp [kview]; omega)]
      simp [kview]
    have hrange : ∀ (x : V × V) (o : Mem V),
        (List.range (n + 1)).map (cell f k (setCell f k n x o)) =
        (List.range n).map (cell f k o) ++ [x] := by
      intro x o
      rw [List.range_succ, List.map_append]
      congr 1
      · apply List.map_congr_left
        intro l hl
        have : l < n := by simpa using hl
        rw [cell_setCell hk hk, if_neg (by omega)]
      · simp [cell_setCell hk hk]
    have hother : ∀ (x : V × V) (o : Mem V), (∀ k' < f, ∀ l, (k' ≠ k ∨ n ≤ l) →
        cell f k' o l = cell f k' out l) → ∀ k' < f, ∀ l, (k' ≠ k ∨ n + 1 ≤ l) →
        cell f k' (setCell f k n x o) l = cell f k' out l := by
      intro x o ho k' hk' l hl
      rw [cell_setCell hk hk', if_neg (by omega)]
      exact ho k' hk' l (by omega)
    by_cases hlt : xi (k + p * (2 * f)) < acc (k + q * (2 * f))
    · have hb : body (k + n * (2 * f)) (o, k + p * (2 * f), k + q * (2 * f)) =
          (setCell f k n (cell f k xi p) o, k + p * (2 * f) + 2 * f, k + q * (2 * f)) := by
        simp only [body, hlt, if_true]
        rfl
      rw [hb]
      refine ⟨p + 1, q, by omega, ?_, ?_, ?_⟩
      · simp only [Prod.mk.injEq, and_true]; rw [Nat.succ_mul p]; omega
      · exact hother _ _ hoth
      · rw [hm, hrange, hp, hq, mrg_cons]
        have : (cell f k xi p).1 < (cell f k acc q).1 := hlt
        rw [if_pos this]
        simp
    · have hb : body (k + n * (2 * f)) (o, k + p * (2 * f), k + q * (2 * f)) =
          (setCell f k n (cell f k acc q) o, k + p * (2 * f), k + q * (2 * f) + 2 * f) := by
        simp only [body, hlt, if_false]
        rfl
      rw [hb]
      refine ⟨p, q + 1, by omega, ?_, ?_, ?_⟩
      · simp only [Prod.mk.injEq, true_and]; rw [Nat.succ_mul q]; omega
      · exact hother _ _ hoth
      · rw [hm, hrange, hp, hq, mrg_cons]
        have : ¬ (cell f k xi p).1 < (cell f k acc q).1 := hlt
        rw [if_neg this]
        simp

theorem setRange_apply (n : Nat) (out acc : Mem V) (p : Nat) :
    forRange n (fun k (acc : Mem V) => acc.set k (out k)) acc p = if p < n then out p else acc p :=
  vectCopy_apply n acc out p

/-- The content of the uninitialised array `out` does not matter, and the result is the merge. -/
theorem kminPair_view {f K : Nat} (out0 acc xi : Mem V) {k : Nat} (hk : k < f) :
    kview f K k (kminPairFrom f K out0 acc xi) =
      (mrg (kview f K k acc) (kview f K k xi)).take K := by
  have key : ∀ n ≤ f, ∀ k < n, kview f K k (forRange n (fun k out =>
    (forStride k (2 * f) K (fun l (s : Mem V × Nat × Nat) =>
      if xi s.2.1 < acc s.2.2 then
        ((s.1.set l (xi s.2.1)).set (l + f) (xi (s.2.1 + f)), s.2.1 + 2 * f, s.2.2)
      else
        ((s.1.set l (acc s.2.2)).set (l + f) (acc (s.2.2 + f)), s.2.1, s.2.2 + 2 * f))
      (out, k, k)).1) out0) = (mrg (kview f K k acc) (kview f K k xi)).take K := by
    intro n
    induction n with
    | zero => intro _ k hk; omega
    | succ n ih =>
      intro hn k hkn
      rw [forRange_succ]
      generalize hgen : forRange n _ out0 = o at ih
      obtain ⟨p, q, hpq, hst, hoth, hm⟩ := kminPair_col (K := K) (by omega : n < f) acc xi o K (le_refl K)
      by_cases h : k = n
      · subst h
        rw [hm, List.take_append_of_le_length (by simp), List.take_of_length_le (by simp)]
        rfl
      · have h1 := ih (by omega) k (by omega)
        rw [← h1]
        apply List.map_congr_left
        intro l _
        exact hoth k (by omega) l (Or.inl h)
  have hk' := key f (le_refl f) k hk
  unfold kminPairFrom
  simp only
  rw [← hk']
  apply List.map_congr_left
  intro l hl
  have hl' : l < K := by simpa using hl
  have hb : k + l * (2 * f) + f < 2 * K * f := by
    have h1 : (l + 1) * (2 * f) ≤ K * (2 * f) := Nat.mul_le_mul_right _ hl'
    rw [Nat.succ_mul] at h1
    have h2 : 2 * K * f = K * (2 * f) := by rw [Nat.mul_comm 2 K, Nat.mul_assoc]
    omega
  simp only [cell]
  rw [setRange_apply, setRange_apply, if_pos (by omega), if_pos hb]

/-- The array `out` of `ReducePair` is completely overwritten before it is read. -/
theorem kminPair_out_irrelevant {f K : Nat} (out0 out1 acc xi : Mem V) {k : Nat} (hk : k < f) :
    kview f K k (kminPairFrom f K out0 acc xi) = kview f K k (kminPairFrom f K out1 acc xi) := by
  rw [kminPair_view _ _ _ hk, kminPair_view _ _ _ hk]

/-! ### Lawfulness -/

variable [OrderTop V]

/-- Column `k` of the accumulator contains the `K` smallest entries with their indices. -/
def KMinAcc (cast : Nat → V) (f K : Nat) (xs : List (Nat × Mem V)) (acc : Mem V) : Prop :=
  ∀ k < f, kview f K k acc =
    (topK K 0 (xs.map (fun x => (x.2 k, x.1)))).map (Prod.map id cast)

theorem kmin_lawful_aux (cast : Nat → V) (f K : Nat) (R : Red V) (hi : R.init = kminInit cast f K)
    (hs : R.short = kminShort cast f K)
    (hp : R.pair = some (fun acc xi => kminPairFrom f K acc acc xi)) :
    Lawful True R (KMinAcc cast f K) where
  init junk k hk := by
    rw [hi]
    simp only [List.map_nil, topK_nil, List.map_replicate]
    apply List.eq_replicate_iff.mpr
    refine ⟨by simp [kview], ?_⟩
    intro b hb
    obtain ⟨l, hl, rfl⟩ := List.mem_map.mp hb
    rw [kminInit_cell cast f K junk hk (by simpa using hl)]
    rfl
  short xs acc x j h k hk := by
    rw [hs, kminShort_view cast acc x j _ hk]
    · rw [h k hk, List.map_append, List.map_cons, List.map_nil, topK_snoc, List.map_take, ins_map]
      rfl
    · intro k' hk'
      rw [h k' hk', topK_map]
      exact topK_srt _ _ _
  pair := by
    intro p hpp xs ys a b _ ha hb k hk
    rw [hp] at hpp
    cases hpp
    rw [kminPair_view _ _ _ hk, ha k hk, hb k hk, List.map_append, topK_append, List.map_take,
      mrg_map]

theorem kminArgKminRed_lawful (cast : Nat → V) (f K : Nat) :
    Lawful True (kminArgKminRed cast f K) (KMinAcc cast f K) := kmin_lawful_aux cast f K _ rfl rfl rfl
theorem kminRed_lawful (cast : Nat → V) (f K : Nat) :
    Lawful True (kminRed cast f K) (KMinAcc cast f K) := kmin_lawful_aux cast f K _ rfl rfl rfl
theorem argKminRed_lawful (cast : Nat → V) (f K : Nat) :
    Lawful True (argKminRed cast f K) (KMinAcc cast f K) := kmin_lawful_aux cast f K _ rfl rfl rfl

/-! ### Output -/

theorem kfin_col {f k : Nat} (hk : k < f) (g : Nat → V) (out : Mem V) (K : Nat) :
    (forStride k (2 * f) K (fun l (s : Mem V × Nat) => (s.1.set s.2 (g l), s.2 + f)) (out, k)).2 =
      k + K * f ∧
    ∀ k' < f, ∀ l, (forStride k (2 * f) K (fun l (s : Mem V × Nat) =>
      (s.1.set s.2 (g l), s.2 + f)) (out, k)).1 (k' + l * f) =
      if k' = k ∧ l < K then g (k + l * (2 * f)) else out (k' + l * f) := by
  induction K with
  | zero => simp
  | succ K ih =>
    rw [forStride_succ]
    generalize forStride k (2 * f) K _ (out, k) = s at ih ⊢
    obtain ⟨h1, h2⟩ := ih
    refine ⟨by simp only [h1]; rw [Nat.succ_mul]; omega, ?_⟩
    intro k' hk' l
    simp only [Mem.set_apply, h1, h2 k' hk' l]
    by_cases h : k' = k ∧ l = K
    · obtain ⟨rfl, rfl⟩ := h
      simp
    · have : k' + l * f ≠ k + K * f := fun he => h (pos_inj hk' hk he)
      rw [if_neg this]
      by_cases hkk : k' = k
      · have : l < K + 1 ↔ l < K := by
          constructor
          · intro _
            have : l ≠ K := fun he => h ⟨hkk, he⟩
            omega
          · omega
        simp [hkk, this]
      · simp [hkk]

theorem kfin_apply (f K : Nat) (g : Nat → V) (out : Mem V) (p : Nat) (hf : 0 < f) :
    forRange f (fun k out => (forStride k (2 * f) K (fun l (s : Mem V × Nat) =>
      (s.1.set s.2 (g l), s.2 + f)) (out, k)).1) out p =
      if p < K * f then g (p % f + (p / f) * (2 * f)) else out p := by
  have gen : ∀ n ≤ f, ∀ k < f, ∀ l, forRange n (fun k out =>
      (forStride k (2 * f) K (fun l (s : Mem V × Nat) =>
      (s.1.set s.2 (g l), s.2 + f)) (out, k)).1) out (k + l * f) =
      if k < n ∧ l < K then g (k + l * (2 * f)) else out (k + l * f) := by
    intro n
    induction n with
    | zero => simp
    | succ n ih =>
      intro hn k hk l
      rw [forRange_succ, (kfin_col (by omega : n < f) g _ K).2 k hk l, ih (by omega) k hk l]
      by_cases h : k = n
      · subst h; simp
      · have : k < n + 1 ↔ k < n := by omega
        simp [h, this]
  have hp : p = p % f + (p / f) * f := by
    have := Nat.mod_add_div p f
    rw [Nat.mul_comm f] at this
    omega
  have := gen f (le_refl f) (p % f) (Nat.mod_lt _ hf) (p / f)
  rw [← hp] at this
  rw [this]
  have hiff : p / f < K ↔ p < K * f := Nat.div_lt_iff_lt_mul hf
  simp [Nat.mod_lt _ hf, hiff]

theorem kminFin_cell (f K : Nat) (acc out : Mem V) {k l : Nat} (hk : k < f) (hl : l < K) :
    kminFin f K acc out (k + l * f) = (cell f k acc l).1 := by
  unfold kminFin
  rw [kfin_apply f K acc out _ (by omega)]
  have h1 : (l + 1) * f ≤ K * f := Nat.mul_le_mul_right _ hl
  rw [Nat.succ_mul] at h1
  rw [if_pos (by omega)]
  have e1 : (k + l * f) % f = k := by rw [Nat.add_mul_mod_self_right, Nat.mod_eq_of_lt hk]
  have e2 : (k + l * f) / f = l := by
    rw [Nat.add_mul_div_right _ _ (by omega), Nat.div_eq_of_lt hk, Nat.zero_add]
  rw [e1, e2]
  rfl

theorem argKminFin_cell (f K : Nat) (acc out : Mem V) {k l : Nat} (hk : k < f) (hl : l < K) :
    argKminFin f K acc out (k + l * f) = (cell f k acc l).2 := by
  unfold argKminFin
  rw [kfin_apply f K (fun l => acc (l + f)) out _ (by omega)]
  have h1 : (l + 1) * f ≤ K * f := Nat.mul_le_mul_right _ hl
  rw [Nat.succ_mul] at h1
  rw [if_pos (by omega)]
  have e1 : (k + l * f) % f = k := by rw [Nat.add_mul_mod_self_right, Nat.mod_eq_of_lt hk]
  have e2 : (k + l * f) / f = l := by
    rw [Nat.add_mul_div_right _ _ (by omega), Nat.div_eq_of_lt hk, Nat.zero_add]
  rw [e1, e2]
  rfl

theorem kminRed_finLocal (cast : Nat → V) {f : Nat} (hf : 0 < f) (K : Nat) :
    FinLocal (kminRed cast f K) := by
  intro acc out out' p
  simp only [kminRed, kminFin]
  rw [kfin_apply f K acc out p hf, kfin_apply f K acc out' p hf]
  exact ⟨fun h => by simp [h], fun h => by simp [Nat.not_lt.mpr h]⟩

theorem argKminRed_finLocal (cast : Nat → V) {f : Nat} (hf : 0 < f) (K : Nat) :
    FinLocal (argKminRed cast f K) := by
  intro acc out out' p
  simp only [argKminRed, argKminFin]
  rw [kfin_apply f K (fun l => acc (l + f)) out p hf, kfin_apply f K (fun l => acc (l + f)) out' p hf]
  exact ⟨fun h => by simp [h], fun h => by simp [Nat.not_lt.mpr h]⟩

theorem kminArgKminRed_finLocal (cast : Nat → V) (f K : Nat) :
    FinLocal (kminArgKminRed cast f K) := by
  intro acc out out' p
  simp only [kminArgKminRed, vectCopy_apply]
  exact ⟨fun h => by simp [h], fun h => by simp [Nat.not_lt.mpr h]⟩

end

end Verif
