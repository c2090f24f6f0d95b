import Verif.Spec.Tensor
import Verif.Model.Tensor
import Verif.Proofs.Backward
import Mathlib.Data.List.Perm.Subperm
import Mathlib.Data.List.Nodup

/-!
# Lists of axes
-/

namespace Verif.TensorDot

open Spec

variable {α : Type}

theorem length_ints (l : List Nat) : (ints l).length = l.length := by simp [ints]

theorem nodup_ints {l : List Nat} : (ints l).Nodup ↔ l.Nodup := by
  unfold ints
  exact List.nodup_map_iff (fun a b h => by exact_mod_cast h)

theorem mem_ints {l : List Nat} {x : Int} : x ∈ ints l ↔ ∃ n ∈ l, (n : Int) = x := by simp [ints]

/-! ## `select` -/

theorem selectNat_some {x : List α} {ind : List Nat} {r : List α} (h : selectNat x ind = some r) :
    r.length = ind.length ∧ ∀ i ∈ ind, i < x.length := by
  unfold selectNat at h
  induction ind generalizing r with
  | nil => simp at h; subst h; simp
  | cons i ind ih =>
    rw [List.mapM_cons] at h
    cases hi : x[i]? with
    | none => rw [hi] at h; simp at h
    | some v =>
      rw [hi] at h
      cases hr : ind.mapM (x[·]?) with
      | none => rw [hr] at h; simp at h
      | some t =>
        rw [hr] at h
        simp at h
        subst h
        obtain ⟨h1, h2⟩ := ih hr
        refine ⟨by simp [h1], ?_⟩
        intro j hj
        rcases List.mem_cons.1 hj with rfl | hj
        · exact (List.getElem?_eq_some_iff.1 hi).1
        · exact h2 j hj

theorem selectNat_eq (d : α) {x : List α} {ind : List Nat} (h : ∀ i ∈ ind, i < x.length) :
    selectNat x ind = some (ind.map (fun i => x.getD i d)) := by
  unfold selectNat
  induction ind with
  | nil => rfl
  | cons i ind ih =>
    have hi := h i (by simp)
    rw [List.mapM_cons, ih fun j hj => h j (by simp [hj])]
    simp [hi]

theorem pyGet_nat (x : List α) (n : Nat) : pyGet x (n : Int) = x[n]? := by simp [pyGet]

theorem select_length {x : List α} {ind : List Int} {r : List α} (h : select x ind = some r) :
    r.length = ind.length := by
  unfold select at h
  induction ind generalizing r with
  | nil => simp at h; subst h; rfl
  | cons i ind ih =>
    rw [List.mapM_cons] at h
    cases hi : pyGet x i with
    | none => rw [hi] at h; simp at h
    | some v =>
      rw [hi] at h
      cases hr : ind.mapM (pyGet x) with
      | none => rw [hr] at h; simp at h
      | some t => rw [hr] at h; simp at h; subst h; simp [ih hr]

theorem select_eq {x : List Nat} {ind : List Int} (h : ∀ i ∈ ind, 0 ≤ i ∧ i < x.length) :
    select x ind = some (gather x ind) := by
  unfold select gather
  induction ind with
  | nil => rfl
  | cons i ind ih =>
    obtain ⟨h0, h1⟩ := h i (by simp)
    have hn : i.toNat < x.length := by omega
    rw [List.mapM_cons, ih fun j hj => h j (by simp [hj])]
    have : pyGet x i = some (x.getD i.toNat 0) := by
      unfold pyGet
      rw [if_pos h0]
      simp [hn]
    rw [this]
    rfl

theorem kept_lt {n : Nat} {cont : List Int} {i : Nat} (h : i ∈ kept n cont) : i < n :=
  List.mem_range.1 (List.mem_filter.1 h).1

theorem nodup_kept (n : Nat) (cont : List Int) : (kept n cont).Nodup := List.nodup_range.filter _

theorem delete_eq (x : List Nat) (ind : List Int) : delete x ind = some (gatherKept x ind) := by
  unfold delete gatherKept
  rw [selectNat_eq 0]
  · rfl
  · intro i hi; exact kept_lt hi

theorem delete_range (n : Nat) (ind : List Int) : delete (List.range n) ind = some (kept n ind) := by
  rw [delete_eq]
  unfold gatherKept
  rw [List.length_range]
  congr 1
  conv_rhs => rw [← List.map_id (kept n ind)]
  apply List.map_congr_left
  intro i hi
  have := kept_lt hi
  simp [this]

/-! ## Sorting -/

theorem argsort_perm (p : List Int) : (argsort p).Perm (List.range p.length) := List.perm_insertionSort _ _

theorem length_argsort (p : List Int) : (argsort p).length = p.length := by
  simpa using (argsort_perm p).length_eq

theorem map_getD_range (d : α) (l : List α) : (List.range l.length).map (fun i => l.getD i d) = l := by
  apply List.ext_getElem (by simp)
  intro i h1 h2
  simp [h2]

theorem map_argsort_perm (d : Int) (p : List Int) : ((argsort p).map (fun i => p.getD i d)).Perm p := by
  have := (argsort_perm p).map (fun i => p.getD i d)
  rwa [map_getD_range] at this

theorem argsort_sorted (p : List Int) : ((argsort p).map (fun i => p.getD i 0)).Pairwise (· ≤ ·) := by
  rw [List.pairwise_map]
  haveI : Std.Total (fun i j : Nat => p.getD i 0 ≤ p.getD j 0) := ⟨fun a b => le_total _ _⟩
  haveI : IsTrans Nat (fun i j : Nat => p.getD i 0 ≤ p.getD j 0) := ⟨fun a b c => le_trans⟩
  exact List.pairwise_insertionSort _ _

/-- Sorting a list of distinct axes gives the increasing list with the same entries. -/
theorem argsort_unique {p q : List Int} (h : p.Perm q) (hq : q.Pairwise (· ≤ ·)) :
    (argsort p).map (fun i => p.getD i 0) = q :=
  ((map_argsort_perm 0 p).trans h).eq_of_pairwise (fun a b _ _ => le_antisymm) (argsort_sorted p) hq

theorem sorted_range (n : Nat) : (ints (List.range n)).Pairwise (· ≤ ·) := by
  unfold ints
  rw [List.pairwise_map]
  exact (List.pairwise_lt_range).imp (fun h => by omega)

theorem sorted_kept (n : Nat) (cont : List Int) : (ints (kept n cont)).Pairwise (· ≤ ·) := by
  unfold ints kept
  rw [List.pairwise_map]
  exact ((List.pairwise_lt_range).imp (fun h => by omega)).filter _

/-- `argsort` of a permutation is its inverse. -/
theorem argsort_eq {p : List Int} {n : Nat} (h : p.Perm (ints (List.range n))) :
    argsort p = (List.range n).map (fun r : Nat => p.idxOf (r : Int)) := by
  have hn : p.Nodup := h.nodup_iff.2 (nodup_ints.2 List.nodup_range)
  have hl : p.length = n := by simpa [length_ints] using h.length_eq
  have hs := argsort_unique h (sorted_range n)
  apply List.ext_getElem (by simp [length_argsort, hl])
  intro r h1 h2
  have hr : r < n := by simpa using h2
  have hlt : (argsort p)[r] < p.length := by
    have := (argsort_perm p).subset (List.getElem_mem h1)
    simpa using this
  have e : p[(argsort p)[r]] = (r : Int) := by
    have e1 : ((argsort p).map (fun i => p.getD i 0))[r]'(by simpa using h1) = (r : Int) := by
      simp only [hs]
      simp [ints]
    simpa [hlt] using e1
  simp only [List.getElem_map, List.getElem_range]
  conv_rhs => rw [← e]
  exact (hn.idxOf_getElem _ hlt).symm

theorem permutation_eq {p : List Int} {n : Nat} (h : p.Perm (ints (List.range n))) {l : List Nat} (hl : l.length = n) :
    permutation p l = some (place p l) := by
  unfold permutation place
  rw [argsort_eq h, selectNat_eq 0, List.map_map, hl]
  · rfl
  · intro i hi
    obtain ⟨r, hr, rfl⟩ := List.mem_map.1 hi
    have : (r : Int) ∈ p := h.symm.subset (mem_ints.2 ⟨r, hr, rfl⟩)
    rw [hl]
    have h2 := h.length_eq
    rw [length_ints, List.length_range] at h2
    rw [← h2]
    exact List.idxOf_lt_length_iff.2 this

/-! ## `place` and `gather` -/

theorem length_place (p : List Int) (l : List Nat) : (place p l).length = l.length := by simp [place]

theorem length_gather (l : List Nat) (p : List Int) : (gather l p).length = p.length := by simp [gather]

theorem gather_append (l : List Nat) (p q : List Int) : gather l (p ++ q) = gather l p ++ gather l q := by
  simp [gather]

theorem gather_place {p : List Int} {n : Nat} (h : p.Perm (ints (List.range n))) {l : List Nat} (hl : l.length = n) :
    gather (place p l) p = l := by
  have hn : p.Nodup := h.nodup_iff.2 (nodup_ints.2 List.nodup_range)
  have hp : p.length = n := by simpa [length_ints] using h.length_eq
  unfold gather place
  apply List.ext_getElem (by simp [hp, hl])
  intro i h1 h2
  have hi : i < p.length := by simpa using h1
  obtain ⟨r, hr, e⟩ := mem_ints.1 (h.subset (List.getElem_mem hi))
  have hr' : r < l.length := by rw [hl]; simpa using hr
  simp only [List.getElem_map, ← e, Int.toNat_natCast]
  have e2 : p.idxOf (r : Int) = i := by rw [e]; exact hn.idxOf_getElem i hi
  simp [hr', e2, h2]

theorem place_gather {p : List Int} {n : Nat} (h : p.Perm (ints (List.range n))) {K : List Nat} (hK : K.length = n) :
    place p (gather K p) = K := by
  have hp : p.length = n := by simpa [length_ints] using h.length_eq
  unfold gather place
  apply List.ext_getElem (by simp [hp, hK])
  intro r h1 h2
  have hr : (r : Int) ∈ p := h.symm.subset (mem_ints.2 ⟨r, by simp; omega, rfl⟩)
  have hi := List.idxOf_lt_length_iff.2 hr
  simp only [List.getElem_map, List.getElem_range]
  simp [hi, h2]

theorem place_iff {p : List Int} {n : Nat} (h : p.Perm (ints (List.range n))) {K l : List Nat} (hK : K.length = n)
    (hl : l.length = n) : K = place p l ↔ gather K p = l := by
  constructor
  · rintro rfl; exact gather_place h hl
  · rintro rfl; exact (place_gather h hK).symm

theorem place_map (p : List Int) (l : List Nat) (f : Nat → Nat) (hp : ∀ r : Nat, r < l.length → (r : Int) ∈ p)
    (hl : p.length = l.length) : (place p l).map f = place p (l.map f) := by
  unfold place
  rw [List.map_map, List.length_map]
  apply List.map_congr_left
  intro r hr
  have hi := List.idxOf_lt_length_iff.2 (hp r (by simpa using hr))
  rw [hl] at hi
  simp [hi]

theorem gather_ints_kept (l : List Nat) (cont : List Int) : gather l (ints (kept l.length cont)) = gatherKept l cont := by
  simp [gather, gatherKept, ints, Function.comp_def]

/-- Complement of the contracted axes. -/
theorem kept_perm {n : Nat} {c : List Int} (hn : c.Nodup) (hc : ∀ x ∈ c, 0 ≤ x ∧ x < n) :
    (ints (kept n c) ++ c).Perm (ints (List.range n)) := by
  apply (List.perm_ext_iff_of_nodup _ _).2
  · intro x
    simp only [List.mem_append, mem_ints, kept, List.mem_filter, List.mem_range, decide_eq_true_eq]
    constructor
    · rintro (⟨m, ⟨h1, _⟩, rfl⟩ | h)
      · exact ⟨m, h1, rfl⟩
      · obtain ⟨h0, h1⟩ := hc x h
        exact ⟨x.toNat, by omega, by omega⟩
    · rintro ⟨m, h1, rfl⟩
      by_cases hm : (m : Int) ∈ c
      · exact .inr hm
      · exact .inl ⟨m, ⟨h1, hm⟩, rfl⟩
  · rw [List.nodup_append]
    refine ⟨nodup_ints.2 (nodup_kept _ _), hn, ?_⟩
    intro x hx y hy e
    subst e
    obtain ⟨m, h, rfl⟩ := mem_ints.1 hx
    have h2 : (m : Int) ∉ c := by simpa using (List.mem_filter.1 h).2
    exact h2 hy
  · exact nodup_ints.2 List.nodup_range

/-- If `p ++ q` lists the axes, then the complement of `q` is `p` sorted. -/
theorem kept_of_perm {n : Nat} {p q : List Int} (h : (p ++ q).Perm (ints (List.range n))) :
    ints (kept n q) = (argsort p).map (fun i => p.getD i 0) := by
  symm
  apply argsort_unique _ (sorted_kept n q)
  have hn : (p ++ q).Nodup := h.nodup_iff.2 (nodup_ints.2 List.nodup_range)
  rw [List.nodup_append] at hn
  apply (List.perm_ext_iff_of_nodup hn.1 (nodup_ints.2 (nodup_kept _ _))).2
  intro x
  simp only [mem_ints, kept, List.mem_filter, List.mem_range, decide_eq_true_eq]
  constructor
  · intro hx
    obtain ⟨m, h1, h2⟩ := mem_ints.1 (h.subset (List.mem_append_left _ hx))
    refine ⟨m, ⟨by simpa using h1, ?_⟩, h2⟩
    intro hq
    exact hn.2.2 x hx m hq h2.symm
  · rintro ⟨m, ⟨h1, h2⟩, rfl⟩
    have : (m : Int) ∈ p ++ q := h.symm.subset (mem_ints.2 ⟨m, by simpa using h1, rfl⟩)
    rcases List.mem_append.1 this with h | h
    · exact h
    · exact absurd h h2

end Verif.TensorDot
