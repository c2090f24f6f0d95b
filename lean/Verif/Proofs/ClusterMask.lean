import Verif.Proofs.Cluster
import Verif.Props.Ranges

/-! # Lemmas on the masks built from boolean matrices -/

namespace Verif

variable {α β : Type}

/-- The columns kept on line `a`. -/
def keptCols (n : Nat) (keep : Nat → Nat → Bool) (a : Nat) : List Nat :=
  (List.range n).filter (fun b => keep a b)

theorem filterMap_if (l : List Nat) (p : Nat → Bool) :
    l.filterMap (fun b => if p b then some b else none) = l.filter p := by
  induction l with
  | nil => rfl
  | cons a l ih =>
    by_cases h : p a = true
    · simp [h, ih]
    · simp [h, ih]

theorem boolIndex_eq (m n : Nat) (keep : Nat → Nat → Bool) :
    boolIndex m n (fun _ b => b) keep = (List.range m).flatMap (keptCols n keep) := by
  unfold boolIndex keptCols
  congr 1
  funext a
  exact filterMap_if _ _

theorem rowCount_eq (n : Nat) (keep : Nat → Nat → Bool) (a : Nat) :
    rowCount n keep a = (keptCols n keep a).length := by
  unfold rowCount keptCols
  induction List.range n with
  | nil => rfl
  | cons b l ih =>
    by_cases h : keep a b = true
    · simp only [List.map_cons, List.sum_cons, ih, h, if_true, List.filter_cons, List.length_cons]
      omega
    · simp only [List.map_cons, List.sum_cons, ih, h, List.filter_cons, Bool.false_eq_true, if_false]
      omega

/-- Number of intervals listed before line `k`. -/
def sliceStart (n : Nat) (keep : Nat → Nat → Bool) (k : Nat) : Nat :=
  ((List.range k).map (fun a => (keptCols n keep a).length)).sum

theorem flatMap_segment (f : Nat → List β) {m k : Nat} (hk : k < m) :
    (((List.range m).flatMap f).drop ((List.range k).map (fun a => (f a).length)).sum).take
      (f k).length = f k := by
  obtain ⟨q, rfl⟩ : ∃ q, m = k + 1 + q := ⟨m - (k + 1), by omega⟩
  rw [List.range_add, List.range_succ, List.flatMap_append, List.flatMap_append]
  have h1 : ((List.range k).map (fun a => (f a).length)).sum
      = ((List.range k).flatMap f).length := by
    rw [List.length_flatMap]
  rw [h1, List.append_assoc, List.drop_left]
  simp

theorem flatMap_segment_le (f : Nat → List β) {m k : Nat} (hk : k < m) :
    ((List.range k).map (fun a => (f a).length)).sum + (f k).length
      ≤ ((List.range m).flatMap f).length := by
  obtain ⟨q, rfl⟩ : ∃ q, m = k + 1 + q := ⟨m - (k + 1), by omega⟩
  rw [List.range_add, List.range_succ, List.flatMap_append, List.flatMap_append,
    List.length_append, List.length_append, List.length_flatMap]
  simp

theorem cumsum_slices {m n k : Nat} (keep : Nat → Nat → Bool) (hk : k < m) :
    (cumsum ((List.range m).map (rowCount n keep))).getD k 0 = sliceStart n keep (k + 1) := by
  have hk' : k < (cumsum ((List.range m).map (rowCount n keep))).length := by
    rw [length_cumsum]; simpa using hk
  rw [List.getD_eq_getElem _ _ hk', cumsum_getElem, ← List.map_take, List.take_range,
    min_eq_left (by omega)]
  unfold sliceStart
  congr 1
  exact List.map_congr_left fun a _ => rowCount_eq n keep a

theorem gather_getD {l : List α} {idx : List Nat} (d : α) (h : ∀ k ∈ idx, k < l.length) :
    gather l idx = some (idx.map (fun k => l.getD k d)) := by
  rw [gather_iff, List.map_map]
  refine List.map_congr_left fun k hk => ?_
  have := h k hk
  simp [this]

theorem range'_getD (R : List α) (d : α) {S len : Nat} (h : S + len ≤ R.length) :
    (List.range' S len).map (fun s => R.getD s d) = (R.drop S).take len := by
  refine List.ext_getElem (by simp; omega) ?_
  intro p h1 h2
  have h3 : p < len := by simpa using h1
  have h4 : S + p < R.length := by omega
  simp [h4]

theorem flatRanges_even (l : List (Nat × Nat)) (s : Nat) :
    flatRanges l (2 * s) = (l.getD s (0, 0)).1 := by
  unfold flatRanges
  have h1 : 2 * s % 2 = 0 := by omega
  have h2 : 2 * s / 2 = s := by omega
  rw [if_pos h1, h2]

theorem flatRanges_odd (l : List (Nat × Nat)) (s : Nat) :
    flatRanges l (2 * s + 1) = (l.getD s (0, 0)).2 := by
  unfold flatRanges
  have h1 : ¬ (2 * s + 1) % 2 = 0 := by omega
  have h2 : (2 * s + 1) / 2 = s := by omega
  rw [if_neg h1, h2]

/-- One half of the ranges built by `from_matrix`. -/
def halfAxis (m n : Nat) (ri rj : List (Nat × Nat)) (keep : Nat → Nat → Bool) : AxisRanges where
  nranges := ri.length
  rangesX := flatRanges ri
  slicesX := fun p => (cumsum ((List.range m).map (rowCount n keep))).getD p 0
  rangesY := flatRanges (((List.range m).flatMap (keptCols n keep)).map (fun k => rj.getD k (0, 0)))

theorem mem_keptCols {n : Nat} {keep : Nat → Nat → Bool} {a b : Nat} :
    b ∈ keptCols n keep a ↔ b < n ∧ keep a b = true := by
  simp [keptCols]

theorem fromMatrix_eq {m n : Nat} {ri rj : List (Nat × Nat)} (keep : Nat → Nat → Bool)
    (hi : ri.length = m) (hj : rj.length = n) :
    ∃ r, fromMatrix m n ri rj keep = some r ∧ r.rangesI = ri ∧ r.rangesJ = rj ∧
      r.toArr.axis 0 = halfAxis m n ri rj keep ∧
      r.toArr.axis 1 = halfAxis n m rj ri (fun b a => keep a b) := by
  have h1 : gather ri (boolIndex n m (fun _ a => a) (fun b a => keep a b)) =
      some (((List.range n).flatMap (keptCols m (fun b a => keep a b))).map
        (fun k => ri.getD k (0, 0))) := by
    rw [boolIndex_eq n m (fun b a => keep a b)]
    refine gather_getD _ fun k hk => ?_
    obtain ⟨a, -, hk⟩ := List.mem_flatMap.mp hk
    have := (mem_keptCols.mp hk).1
    omega
  have h2 : gather rj (boolIndex m n (fun _ b => b) keep) =
      some (((List.range m).flatMap (keptCols n keep)).map (fun k => rj.getD k (0, 0))) := by
    rw [boolIndex_eq]
    refine gather_getD _ fun k hk => ?_
    obtain ⟨a, -, hk⟩ := List.mem_flatMap.mp hk
    have := (mem_keptCols.mp hk).1
    omega
  unfold fromMatrix
  rw [h1, h2]
  refine ⟨_, rfl, rfl, rfl, ?_, ?_⟩
  · rfl
  · rfl

theorem halfAxis_startSlice {m n : Nat} {ri rj : List (Nat × Nat)} {keep : Nat → Nat → Bool}
    {k : Nat} (hk : k < m) : (halfAxis m n ri rj keep).startSlice k = sliceStart n keep k := by
  unfold AxisRanges.startSlice halfAxis
  split_ifs with h
  · have : k = 0 := by omega
    subst this
    rfl
  · simp only
    rw [cumsum_slices keep (by omega), Nat.sub_add_cancel (by omega)]

theorem halfAxis_endSlice {m n : Nat} {ri rj : List (Nat × Nat)} {keep : Nat → Nat → Bool}
    {k : Nat} (hk : k < m) : (halfAxis m n ri rj keep).endSlice k = sliceStart n keep (k + 1) :=
  cumsum_slices keep hk

theorem sliceStart_succ (n : Nat) (keep : Nat → Nat → Bool) (k : Nat) :
    sliceStart n keep (k + 1) = sliceStart n keep k + (keptCols n keep k).length := by
  unfold sliceStart
  rw [List.range_succ, List.map_append, List.sum_append]
  simp

theorem keptCols_segment {m n k : Nat} (keep : Nat → Nat → Bool) (rj : List (Nat × Nat))
    (hk : k < m) :
    (List.range' (sliceStart n keep k) (keptCols n keep k).length).map (fun s =>
      (((List.range m).flatMap (keptCols n keep)).map (fun k => rj.getD k (0, 0))).getD s (0, 0))
      = (keptCols n keep k).map (fun l => rj.getD l (0, 0)) := by
  rw [range'_getD]
  · rw [← List.map_drop]
    have := flatMap_segment (keptCols n keep) hk
    rw [← List.map_take]
    exact congrArg _ this
  · rw [List.length_map]
    exact flatMap_segment_le (keptCols n keep) hk

/-- Indices reduced for cluster `k`: those of the clusters kept on line `k`, each cluster once. -/
theorem halfAxis_clusterList {m n : Nat} {ri rj : List (Nat × Nat)} (keep : Nat → Nat → Bool)
    {k : Nat} (hk : k < m) :
    clusterList (halfAxis m n ri rj keep) k = (keptCols n keep k).flatMap (fun l =>
      List.range' (rj.getD l (0, 0)).1 ((rj.getD l (0, 0)).2 - (rj.getD l (0, 0)).1)) := by
  unfold clusterList
  rw [halfAxis_startSlice hk, halfAxis_endSlice hk, sliceStart_succ, Nat.add_sub_cancel_left]
  have h := keptCols_segment (n := n) keep rj hk
  have h2 : ∀ s, (halfAxis m n ri rj keep).rangesY (2 * s)
      = ((((List.range m).flatMap (keptCols n keep)).map
        (fun k => rj.getD k (0, 0))).getD s (0, 0)).1 := fun s => flatRanges_even _ s
  have h3 : ∀ s, (halfAxis m n ri rj keep).rangesY (2 * s + 1)
      = ((((List.range m).flatMap (keptCols n keep)).map
        (fun k => rj.getD k (0, 0))).getD s (0, 0)).2 := fun s => flatRanges_odd _ s
  simp only [h2, h3]
  rw [← List.flatMap_map (f := fun s => (((List.range m).flatMap (keptCols n keep)).map
        (fun k => rj.getD k (0, 0))).getD s (0, 0))
      (g := fun r : Nat × Nat => List.range' r.1 (r.2 - r.1)), h, List.flatMap_map]

theorem halfAxis_wf {m n : Nat} {ri rj : List (Nat × Nat)} (keep : Nat → Nat → Bool)
    (hi : ri.length = m) (hj : rj.length = n) (hle : ∀ r ∈ rj, r.1 ≤ r.2) :
    WfAxis (halfAxis m n ri rj keep) := by
  intro r hr s hs hs'
  have hr : r < m := by rw [← hi]; exact hr
  rw [halfAxis_startSlice hr] at hs
  rw [halfAxis_endSlice hr, sliceStart_succ] at hs'
  have h := keptCols_segment (n := n) keep rj hr
  show flatRanges _ _ ≤ flatRanges _ _
  rw [flatRanges_even, flatRanges_odd]
  have hmem : (((List.range m).flatMap (keptCols n keep)).map (fun k => rj.getD k (0, 0))).getD s
      (0, 0) ∈ (keptCols n keep r).map (fun l => rj.getD l (0, 0)) := by
    rw [← h]
    refine List.mem_map.mpr ⟨s, ?_, rfl⟩
    rw [List.mem_range'_1]
    omega
  obtain ⟨l, hl, he⟩ := List.mem_map.mp hmem
  rw [← he]
  have hl := (mem_keptCols.mp hl).1
  have hl' : l < rj.length := by omega
  rw [List.getD_eq_getElem _ _ hl']
  exact hle _ (List.getElem_mem hl')

theorem halfAxis_mem {m n : Nat} {ri rj : List (Nat × Nat)} (keep : Nat → Nat → Bool)
    (hj : rj.length = n) {k : Nat} (hk : k < m) (j : Nat) :
    j ∈ clusterList (halfAxis m n ri rj keep) k ↔
      ∃ l, ∃ hl : l < rj.length, keep k l = true ∧ (rj[l]).1 ≤ j ∧ j < (rj[l]).2 := by
  rw [halfAxis_clusterList keep hk, List.mem_flatMap]
  constructor
  · rintro ⟨l, hl, hj'⟩
    have hl' := mem_keptCols.mp hl
    have hl2 : l < rj.length := by omega
    rw [List.getD_eq_getElem _ _ hl2, List.mem_range'_1] at hj'
    exact ⟨l, hl2, hl'.2, by omega, by omega⟩
  · rintro ⟨l, hl, hk', h1, h2⟩
    refine ⟨l, mem_keptCols.mpr ⟨by omega, hk'⟩, ?_⟩
    rw [List.getD_eq_getElem _ _ hl, List.mem_range'_1]
    omega

end Verif
