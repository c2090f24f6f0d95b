import Mathlib.Algebra.BigOperators.Intervals
import Mathlib.Algebra.BigOperators.Ring.Finset
import Mathlib.Data.List.Perm.Basic
import Mathlib.Tactic.Ring
import Verif.Model.Cluster
import Verif.Spec.Cluster

/-! # Lemmas on the cluster utilities -/

namespace Verif

/-! ## Floating point integers -/

theorem roundNat_le {p n : Nat} (hp : 0 < p) (h : n ≤ 2 ^ p) : roundNat p n = n := by
  unfold roundNat
  rcases Nat.lt_or_eq_of_le h with h | rfl
  · have : n.log2 + 1 - p = 0 := by
      rcases Nat.eq_zero_or_pos n with rfl | hn
      · simp; omega
      · have := (Nat.log2_lt (by omega)).mpr h
        omega
    simp [this, Nat.mod_one]
  · have : (2 ^ p).log2 + 1 - p = 1 := by rw [Nat.log2_two_pow]; omega
    rw [this]
    obtain ⟨q, rfl⟩ : ∃ q, p = q + 1 := ⟨p - 1, by omega⟩
    have h2 : 2 ^ (q + 1) % 2 ^ 1 = 0 := by rw [pow_succ]; omega
    have h3 : 2 ^ (q + 1) / 2 ^ 1 * 2 ^ 1 = 2 ^ (q + 1) := by rw [pow_succ]; omega
    simp only [h2, h3]
    simp

theorem f32_le {n : Nat} (h : n ≤ 2 ^ 24) : f32 n = n := roundNat_le (by omega) h

theorem f32_witness : f32 (2 ^ 24 + 1) = 2 ^ 24 := by decide +kernel

/-! ## Integer indexing -/

variable {α β : Type}

theorem gather_nil (l : List α) : gather l [] = some [] := rfl

theorem gather_cons (l : List α) (k : Nat) (idx : List Nat) :
    gather l (k :: idx) = (l[k]?).bind (fun a => (gather l idx).map (a :: ·)) := by
  unfold gather
  rw [List.mapM_cons]
  cases l[k]? with
  | none => rfl
  | some a => cases List.mapM (fun k => l[k]?) idx <;> rfl

theorem gather_iff {l : List α} {idx : List Nat} {x : List α} :
    gather l idx = some x ↔ idx.map (l[·]?) = x.map some := by
  induction idx generalizing x with
  | nil =>
    rw [gather_nil]
    cases x <;> simp
  | cons k idx ih =>
    rw [gather_cons]
    cases x with
    | nil => cases l[k]? <;> simp
    | cons a x =>
      cases h : l[k]? with
      | none => simp [h]
      | some b =>
        simp only [Option.bind_some, Option.map_eq_some_iff, List.cons.injEq, List.map_cons, h,
          Option.some.injEq]
        constructor
        · rintro ⟨y, hy, rfl, rfl⟩
          exact ⟨rfl, ih.mp hy⟩
        · rintro ⟨rfl, hx⟩
          exact ⟨x, ih.mpr hx, rfl, rfl⟩

theorem map_range_getElem? (l : List α) : (List.range l.length).map (l[·]?) = l.map some := by
  refine List.ext_getElem (by simp) ?_
  intro n h1 h2
  have : n < l.length := by simpa using h1
  simp

theorem gather_exists {l : List α} {idx : List Nat} (h : ∀ k ∈ idx, k < l.length) :
    ∃ x, gather l idx = some x := by
  induction idx with
  | nil => exact ⟨[], rfl⟩
  | cons k idx ih =>
    obtain ⟨x, hx⟩ := ih (fun k hk => h k (List.mem_cons_of_mem _ hk))
    refine ⟨l[k]'(h k List.mem_cons_self) :: x, ?_⟩
    rw [gather_cons, hx, List.getElem?_eq_getElem (h k List.mem_cons_self)]
    rfl

theorem filterMap_some (x : List α) : (x.map some).filterMap id = x := by
  induction x with
  | nil => rfl
  | cons a x ih => simp

theorem gather_perm {l x : List α} {idx : List Nat} (hp : idx.Perm (List.range l.length))
    (h : gather l idx = some x) : x.Perm l := by
  rw [gather_iff] at h
  have h1 := hp.map (l[·]?)
  rw [h, map_range_getElem?] at h1
  have h2 := h1.filterMap id
  rwa [filterMap_some, filterMap_some] at h2

theorem gather_zip {l : List α} {m : List β} {idx : List Nat} {x : List α} {y : List β}
    (hx : gather l idx = some x) (hy : gather m idx = some y) :
    gather (l.zip m) idx = some (x.zip y) := by
  induction idx generalizing x y with
  | nil =>
    rw [gather_nil, Option.some.injEq] at hx hy
    subst hx hy
    rfl
  | cons k idx ih =>
    rw [gather_cons] at *
    cases h1 : l[k]? with
    | none => simp [h1] at hx
    | some a =>
      cases h2 : m[k]? with
      | none => simp [h2] at hy
      | some b =>
        cases h3 : gather l idx with
        | none => simp [h1, h3] at hx
        | some x' =>
          cases h4 : gather m idx with
          | none => simp [h2, h4] at hy
          | some y' =>
            simp only [h1, h3, h2, h4, Option.bind_some, Option.map_some, Option.some.injEq] at hx hy
            subst hx hy
            have : (l.zip m)[k]? = some (a, b) := List.getElem?_zip_eq_some.mpr ⟨h1, h2⟩
            rw [this, ih h3 h4]
            rfl

theorem gather_length {l x : List α} {idx : List Nat} (h : gather l idx = some x) :
    x.length = idx.length := by
  rw [gather_iff] at h
  have := congrArg List.length h
  simpa using this.symm

theorem gather_map (f : α → β) {l x : List α} {idx : List Nat} (h : gather l idx = some x) :
    gather (l.map f) idx = some (x.map f) := by
  rw [gather_iff] at *
  have := congrArg (List.map (Option.map f)) h
  rw [List.map_map, List.map_map] at this
  rw [List.map_map]
  simpa [Function.comp_def] using this

/-! ## Sorted labels -/

theorem sorted_lt_iff {l : List Nat} (hs : l.Pairwise (· ≤ ·)) (k : Nat) :
    ∀ p, ∀ hp : p < l.length, l[p] < k ↔ p < l.countP (· < k) := by
  induction l with
  | nil => intro p hp; simp at hp
  | cons a l ih =>
    rw [List.pairwise_cons] at hs
    intro p hp
    cases p with
    | zero =>
      simp only [List.getElem_cons_zero]
      rw [List.countP_cons]
      constructor
      · intro h; simp [h]
      · intro h
        by_contra hak
        have h0 : l.countP (· < k) = 0 := by
          rw [List.countP_eq_zero]
          intro b hb
          have := hs.1 b hb
          simp; omega
        simp [h0, hak] at h
    | succ p =>
      simp only [List.length_cons, Nat.add_lt_add_iff_right] at hp
      simp only [List.getElem_cons_succ]
      rw [ih hs.2 p hp, List.countP_cons]
      by_cases hak : a < k
      · simp [hak]
      · have h0 : l.countP (· < k) = 0 := by
          rw [List.countP_eq_zero]
          intro b hb
          have := hs.1 b hb
          simp; omega
        simp [h0, hak]

theorem countP_lt_succ (l : List Nat) (k : Nat) :
    l.countP (· < k + 1) = l.countP (· < k) + l.count k := by
  induction l with
  | nil => rfl
  | cons a l ih =>
    rw [List.countP_cons, List.countP_cons, List.count_cons, ih]
    rcases Nat.lt_trichotomy a k with h | h | h
    · have h2 : a < k + 1 := by omega
      have h3 : (a == k) = false := by simp; omega
      simp only [h, h2, h3, decide_true, if_true]
      simp only [Bool.false_eq_true, if_false]
      omega
    · subst h
      simp only [Nat.lt_irrefl, Nat.lt_succ_self, decide_true, decide_false, if_true, beq_self_eq_true]
      simp only [Bool.false_eq_true, if_false]
      omega
    · have h1 : ¬ a < k := by omega
      have h2 : ¬ a < k + 1 := by omega
      have h3 : (a == k) = false := by simp; omega
      simp only [h1, h2, h3, decide_false, Bool.false_eq_true, if_false]
      omega

theorem sum_take_count (lab : List Nat) (k : Nat) :
    ((List.range k).map (fun q => lab.count q)).sum = lab.countP (· < k) := by
  induction k with
  | zero => simp
  | succ k ih =>
    rw [List.range_succ, List.map_append, List.sum_append, ih, countP_lt_succ]
    simp

theorem lt_binSize {lab : List Nat} {l : Nat} (h : l ∈ lab) : l < binSize lab := by
  unfold binSize
  cases hm : lab.max? with
  | none => rw [List.max?_eq_none_iff] at hm; simp [hm] at h
  | some m =>
    have := (List.max?_eq_some_iff.mp hm).2 l h
    simp only
    omega

theorem binSize_perm {lab lab' : List Nat} (h : lab.Perm lab') : binSize lab = binSize lab' := by
  have key : ∀ {a b : List Nat}, a.Perm b → binSize a ≤ binSize b := by
    intro a b h
    by_contra hc
    unfold binSize at hc
    cases hm : a.max? with
    | none => simp [hm] at hc
    | some m =>
      have h1 := (List.max?_eq_some_iff.mp hm).1
      have h2 := lt_binSize (h.mem_iff.mp h1)
      unfold binSize at h2
      simp only [hm] at hc
      omega
  exact Nat.le_antisymm (key h) (key h.symm)

theorem bincount_perm {lab lab' : List Nat} (h : lab.Perm lab') : bincount lab = bincount lab' := by
  unfold bincount
  rw [binSize_perm h]
  refine List.map_congr_left fun k _ => h.count_eq k

theorem length_bincount (lab : List Nat) : (bincount lab).length = binSize lab := by
  simp [bincount]

theorem take_bincount {lab : List Nat} {k : Nat} (h : k ≤ binSize lab) :
    ((bincount lab).take k).sum = lab.countP (· < k) := by
  rw [← sum_take_count, bincount, ← List.map_take, List.take_range, min_eq_left h]

/-! ## Ranges -/

theorem length_cumsum (l : List Nat) : (cumsum l).length = l.length := by simp [cumsum]

theorem cumsum_getElem {l : List Nat} {k : Nat} (h : k < (cumsum l).length) :
    (cumsum l)[k] = (l.take (k + 1)).sum := by
  simp [cumsum]

/-- Intervals between consecutive cumulated sums. -/
def pivotRanges (N : List Nat) : List (Nat × Nat) :=
  (List.range N.length).map (fun k => ((N.take k).sum, (N.take (k + 1)).sum))

theorem pivots_eq (N : List Nat) :
    ((0 :: cumsum N).dropLast).zip (0 :: cumsum N).tail = pivotRanges N := by
  refine List.ext_getElem ?_ ?_
  · simp [pivotRanges, length_cumsum]
  · intro k h1 h2
    have hk : k < N.length := by simpa [pivotRanges] using h2
    have hk' : k < (cumsum N).length := by rw [length_cumsum]; exact hk
    rw [List.getElem_zip]
    simp only [pivotRanges, List.getElem_map, List.getElem_range, Prod.mk.injEq]
    constructor
    · rw [List.getElem_dropLast]
      cases k with
      | zero => simp
      | succ k => rw [List.getElem_cons_succ, cumsum_getElem]
    · show (cumsum N)[k] = _
      rw [cumsum_getElem]

theorem clusterRanges_eq (lab : List Nat) :
    clusterRanges lab none = (List.range (binSize lab)).map
      (fun k => (lab.countP (· < k), lab.countP (· < k + 1))) := by
  unfold clusterRanges
  simp only [Option.getD_none]
  rw [pivots_eq, pivotRanges, length_bincount]
  refine List.map_congr_left fun k hk => ?_
  have hk : k < binSize lab := by simpa using hk
  rw [take_bincount (by omega), take_bincount (by omega)]

theorem countP_binSize (lab : List Nat) : lab.countP (· < binSize lab) = lab.length := by
  rw [List.countP_eq_length]
  intro a ha
  simpa using lt_binSize ha

theorem classes_sorted {lab lab' : List Nat} (hp : lab'.Perm lab) (hs : lab'.Pairwise (· ≤ ·)) :
    Spec.Classes lab' (clusterRanges lab none) := by
  rw [clusterRanges_eq]
  have hc : ∀ k, lab.countP (· < k) = lab'.countP (· < k) := fun k => (hp.countP_eq _).symm
  refine ⟨?_, ?_, ?_, ?_, ?_, ?_⟩
  · intro l hl
    simpa using lt_binSize (hp.mem_iff.mp hl)
  · intro k hk
    simp only [List.getElem_map, List.getElem_range]
    rw [countP_lt_succ]
    omega
  · intro h
    simp
  · intro k h
    simp
  · intro h
    simp only [List.length_map, List.length_range] at h
    simp only [List.length_map, List.length_range, List.getElem_map, List.getElem_range]
    rw [Nat.sub_add_cancel h, countP_binSize, hp.length_eq]
  · intro k hk p hp'
    simp only [List.getElem_map, List.getElem_range]
    rw [hc, hc]
    have h1 := sorted_lt_iff hs k p hp'
    have h2 := sorted_lt_iff hs (k + 1) p hp'
    omega

theorem clusterRangesTorch_eq {lab : List Nat} (h : lab.length ≤ 2 ^ 24) :
    clusterRangesTorch lab = clusterRanges lab none := by
  have hN : (bincount lab).map f32 = bincount lab := by
    conv_rhs => rw [← List.map_id (bincount lab)]
    refine List.map_congr_left fun n hn => ?_
    obtain ⟨k, -, rfl⟩ := List.mem_map.mp hn
    exact f32_le (le_trans List.count_le_length h)
  have hC : (cumsum (bincount lab)).map f32 = cumsum (bincount lab) := by
    conv_rhs => rw [← List.map_id (cumsum (bincount lab))]
    refine List.map_congr_left fun n hn => ?_
    obtain ⟨k, hk, rfl⟩ := List.mem_map.mp hn
    have hk : k < binSize lab := by simpa [length_bincount] using hk
    rw [take_bincount (by omega)]
    exact f32_le (le_trans List.countP_le_length h)
  unfold clusterRangesTorch clusterRanges
  simp only [hN, hC, Option.getD_none]

end Verif
