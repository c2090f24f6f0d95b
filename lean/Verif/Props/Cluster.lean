import Mathlib.Data.Rat.Floor
import Verif.Proofs.ClusterGrid
import Verif.Proofs.ClusterMask

/-!
# Clusters and block masks: C28, C29, C50

Statements on `sort_clusters`, `cluster_ranges`, `cluster_centroids`, `grid_cluster` and
`from_matrix` of `pykeops.numpy.cluster` and `pykeops.torch.cluster`.
-/

namespace Verif

open Spec (Classes Consecutive SameVoxel Kept total EvLocal WfVars)

/-! ## C28: clusters -/

/-- C28 (NumPy): whatever sorting permutation is used, the points and their labels are permuted
together, the labels are sorted, and the ranges computed from the labels, before or after sorting,
describe the classes. -/
theorem C28_ranges {α : Type} (x : List α) (lab perm : List Nat) (hx : x.length = lab.length)
    (hp : IsArgsort lab perm) :
    ∃ x' lab', sortClusters perm x lab = some (x', lab') ∧ (x'.zip lab').Perm (x.zip lab) ∧
      x'.length = x.length ∧ lab'.Pairwise (· ≤ ·) ∧
      Classes lab' (clusterRanges lab none) ∧ Classes lab' (clusterRanges lab' none) := by
  have hin : ∀ k ∈ perm, k < lab.length := fun k hk => by
    simpa using hp.isPerm.mem_iff.mp hk
  obtain ⟨x', h1⟩ := gather_exists (l := x) (idx := perm) (by rw [hx]; exact hin)
  have h2 : gather lab perm = some (perm.map (fun k => lab.getD k 0)) := gather_getD 0 hin
  have hlab := gather_perm hp.isPerm h2
  refine ⟨x', _, ?_, ?_, ?_, hp.sorted, classes_sorted hlab hp.sorted,
    classes_sorted (List.Perm.refl _) hp.sorted⟩
  · unfold sortClusters
    rw [h1, h2]
    rfl
  · refine gather_perm ?_ (gather_zip h1 h2)
    rw [List.length_zip, hx, min_self]
    exact hp.isPerm
  · rw [gather_length h1, hp.isPerm.length_eq, List.length_range, hx]

/-- C28 (tuples): each array of a tuple is sorted as if it were alone, with the same permutation. -/
theorem C28_tuple {α : Type} (x : List (List α)) (lab perm : List Nat)
    (hx : ∀ a ∈ x, a.length = lab.length) (hp : IsArgsort lab perm) :
    ∃ x' lab', sortClustersTuple perm x lab = some (x', lab') ∧ x'.length = x.length ∧
      ∀ q, ∀ h : q < x.length, ∀ h' : q < x'.length,
        sortClusters perm x[q] lab = some (x'[q], lab') := by
  have hin : ∀ k ∈ perm, k < lab.length := fun k hk => by
    simpa using hp.isPerm.mem_iff.mp hk
  have h2 : gather lab perm = some (perm.map (fun k => lab.getD k 0)) := gather_getD 0 hin
  have key : ∃ x', x.mapM (fun a => gather a perm) = some x' ∧ x'.length = x.length ∧
      ∀ q, ∀ h : q < x.length, ∀ h' : q < x'.length, gather x[q] perm = some x'[q] := by
    clear h2
    induction x with
    | nil => exact ⟨[], rfl, rfl, fun q h => absurd h (by simp)⟩
    | cons a x ih =>
      obtain ⟨x', e1, e2, e3⟩ := ih (fun a ha => hx a (List.mem_cons_of_mem _ ha))
      obtain ⟨a', ha⟩ := gather_exists (l := a) (idx := perm)
        (by rw [hx a List.mem_cons_self]; exact hin)
      refine ⟨a' :: x', ?_, by simp [e2], ?_⟩
      · rw [List.mapM_cons, ha, e1]
        rfl
      · intro q h h'
        cases q with
        | zero => exact ha
        | succ q => exact e3 q (by simpa using h) (by simpa using h')
  obtain ⟨x', e1, e2, e3⟩ := key
  refine ⟨x', perm.map (fun k => lab.getD k 0), ?_, e2, ?_⟩
  · unfold sortClustersTuple
    rw [h2, e1]
    rfl
  · intro q h h'
    unfold sortClusters
    rw [h2, e3 q h h']
    rfl

theorem getD_map_lt {α β : Type} (f : α → β) (l : List α) (i : Nat) (a : α) (b : β)
    (h : i < l.length) : (l.map f).getD i b = f (l.getD i a) := by
  simp [h]

theorem getD_range {n k : Nat} (h : k < n) : (List.range n).getD k 0 = k := by simp [h]

section
variable {K : Type} [Field K] [DecidableEq K]

/-- C28 (centroids): the centroid of a nonempty class is the mean of the sorted points over its
interval. -/
theorem C28_centroids [CharZero K] (x x' : List (List K)) (D : Nat) (lab lab' perm : List Nat)
    (hx : x.length = lab.length) (hp : IsArgsort lab perm)
    (hs : sortClusters perm x lab = some (x', lab')) (k : Nat)
    (hk : k < (clusterRanges lab none).length) (d : Nat) (hd : d < D) :
    let r := (clusterRanges lab none)[k]
    r.1 < r.2 →
    ((clusterCentroids x D lab none).getD k []).getD d none
      = some (total (column x' d) r / ((r.2 - r.1 : Nat) : K)) := by
  intro r hr
  obtain ⟨x2, lab2, e1, hz, hl, hso, hc, -⟩ := C28_ranges x lab perm hx hp
  rw [hs] at e1
  simp only [Option.some.injEq, Prod.mk.injEq] at e1
  obtain ⟨rfl, rfl⟩ := e1
  have hk' : k < binSize lab := by
    rw [clusterRanges_eq] at hk
    simpa using hk
  have hlab : lab'.length = lab.length := by
    have := hz.length_eq
    rw [List.length_zip, List.length_zip, hl, hx, min_self] at this
    have h2 : lab'.Perm lab := by
      have h3 : gather lab perm = some lab' := by
        unfold sortClusters at hs
        cases h4 : gather lab perm with
        | none => rw [h4] at hs; simp at hs
        | some l =>
          cases h5 : gather x perm with
          | none => rw [h4, h5] at hs; simp at hs
          | some y =>
            rw [h4, h5] at hs
            have := Option.some.inj hs
            rw [Prod.mk.injEq] at this
            rw [this.2]
      exact gather_perm hp.isPerm h3
    exact h2.length_eq
  have hz' : ((column x' d).zip lab').Perm ((column x d).zip lab) := by
    have := hz.map (Prod.map (fun r : List K => r.getD d 0) id)
    rw [← List.zip_map, ← List.zip_map] at this
    simpa [column] using this
  have h1 := bincountW_getD (v := column x d) (v' := column x' d) (by simp [column, hx]) hz'
    (by simp [column, hl, hx, hlab]) hc hk hk'
  have h2 : (bincount lab)[k]? = some (r.2 - r.1) := by
    unfold bincount
    rw [List.getElem?_map, List.getElem?_range hk', Option.map_some, Option.some.injEq]
    have : r = (lab.countP (· < k), lab.countP (· < k + 1)) := by
      simp [r, clusterRanges_eq]
    rw [this]
    simp only
    rw [countP_lt_succ]
    omega
  unfold clusterCentroids
  simp only [List.map_map]
  rw [getD_map_lt _ _ _ 0 _ (by simpa using hk'), getD_range hk', getD_map_lt _ _ _ 0 _ (by simpa using hd), getD_range hd]
  simp only [Function.comp]
  rw [List.getD_eq_getElem?_getD, List.getElem?_zipWith, h1, List.getElem?_map, h2]
  simp only [Option.map_some, Option.getD_some]
  unfold fdiv
  have : ((r.2 - r.1 : Nat) : K) ≠ 0 := by
    rw [Nat.cast_ne_zero]
    omega
  rw [if_neg this]

/-- C28 (weighted centroids): the centroid of a class whose total weight is not zero is the weighted
mean of the sorted points over its interval; `w'` are the sorted weights. -/
theorem C28_weighted (x x' : List (List K)) (w w' : List K) (D : Nat) (lab lab' perm : List Nat)
    (hx : x.length = lab.length) (hw : w.length = lab.length) (hp : IsArgsort lab perm)
    (hs : sortClusters perm x lab = some (x', lab')) (hs' : sortClusters perm w lab = some (w', lab'))
    (k : Nat) (hk : k < (clusterRanges lab none).length) (d : Nat) (hd : d < D) :
    let r := (clusterRanges lab none)[k]
    total w' r ≠ 0 →
    ((clusterCentroids x D lab (some w)).getD k []).getD d none
      = some (total (List.zipWith (· * ·) (column x' d) w') r / total w' r) := by
  intro r hr
  have split : ∀ {γ : Type} {y y' : List γ}, sortClusters perm y lab = some (y', lab') →
      gather y perm = some y' ∧ gather lab perm = some lab' := by
    intro γ y y' h
    unfold sortClusters at h
    cases h4 : gather lab perm with
    | none => rw [h4] at h; simp at h
    | some l =>
      cases h5 : gather y perm with
      | none => rw [h4, h5] at h; simp at h
      | some z =>
        rw [h4, h5] at h
        have := Option.some.inj h
        rw [Prod.mk.injEq] at this
        rw [this.1, this.2]
        exact ⟨rfl, rfl⟩
  obtain ⟨gx, gl⟩ := split hs
  obtain ⟨gw, -⟩ := split hs'
  have hk' : k < binSize lab := by
    rw [clusterRanges_eq] at hk
    simpa using hk
  have hlp := gather_perm hp.isPerm gl
  have hso : lab'.Pairwise (· ≤ ·) := by
    obtain ⟨_, lab2, e1, -, -, hso, -⟩ := C28_ranges x lab perm hx hp
    rw [hs] at e1
    simp only [Option.some.injEq, Prod.mk.injEq] at e1
    rw [e1.2]
    exact hso
  have hc := classes_sorted hlp hso
  have hw' : w'.length = lab'.length := by rw [gather_length gw, gather_length gl]
  have hx' : x'.length = lab'.length := by rw [gather_length gx, gather_length gl]
  have hzw : (w'.zip lab').Perm (w.zip lab) := by
    refine gather_perm ?_ (gather_zip gw gl)
    rw [List.length_zip, hw, min_self]
    exact hp.isPerm
  have hzp : ((List.zipWith (· * ·) (column x' d) w').zip lab').Perm
      ((List.zipWith (· * ·) (column x d) w).zip lab) := by
    have g1 := gather_map (fun r : List K => r.getD d 0) gx
    have g2 := gather_map (fun p : K × K => p.1 * p.2) (gather_zip g1 gw)
    have e : ∀ (a : List (List K)) (b : List K),
        ((a.map (fun r : List K => r.getD d 0)).zip b).map (fun p : K × K => p.1 * p.2)
        = List.zipWith (· * ·) (column a d) b := by
      intro a b
      rw [List.zip, List.map_zipWith]
      rfl
    rw [e, e] at g2
    refine gather_perm ?_ (gather_zip g2 gl)
    rw [List.length_zip, List.length_zipWith, hw]
    simp only [column, List.length_map, hx, min_self]
    exact hp.isPerm
  have h1 := bincountW_getD (v := List.zipWith (· * ·) (column x d) w)
    (v' := List.zipWith (· * ·) (column x' d) w') (by simp [column, hx, hw]) hzp
    (by simp [column, hx', hw']) hc hk hk'
  have h2 := bincountW_getD (v := w) (v' := w') hw hzw hw' hc hk hk'
  unfold clusterCentroids
  simp only [List.map_map]
  rw [getD_map_lt _ _ _ 0 _ (by simpa using hk'), getD_range hk', getD_map_lt _ _ _ 0 _ (by simpa using hd), getD_range hd]
  simp only [Function.comp]
  rw [List.getD_eq_getElem?_getD, List.getElem?_zipWith, h1, h2]
  simp only [Option.getD_some]
  unfold fdiv
  rw [if_neg hr]

/-- C28 (`cluster_ranges_centroids`): ranges and centroids are those of the two functions, for the
weights `w`, which must exceed `min_weight` in PyTorch; the third result is the total weight (the number of
points, without weights) of each class. -/
theorem C28_ranges_centroids [LinearOrder K] (m : Option K) (x : List (List K)) (D : Nat)
    (lab : List Nat) :
    clusterRangesCentroids m x D lab none = (clusterRanges lab none, clusterCentroids x D lab none,
      (bincount lab).map (Nat.cast : Nat → K)) ∧
    ∀ w : List K, (∀ t, m = some t → ∀ a ∈ w, t < a) →
      clusterRangesCentroids m x D lab (some w) = (clusterRanges lab none,
        clusterCentroids x D lab (some w), bincountW lab w) := by
  refine ⟨rfl, fun w hw => ?_⟩
  cases m with
  | none => rfl
  | some m =>
    have : w.map (fun a => if a ≤ m then m else a) = w := by
      conv_rhs => rw [← List.map_id w]
      refine List.map_congr_left fun a ha => ?_
      rw [if_neg (not_le.mpr (hw m rfl a ha))]
      rfl
    unfold clusterRangesCentroids
    simp only [this]
    rfl

/-- C28 (cluster weights): the total weight of class `k` is the sum of the sorted weights over its
interval. -/
theorem C28_cluster_weights (w w' : List K) (lab lab' perm : List Nat)
    (hw : w.length = lab.length) (hp : IsArgsort lab perm)
    (hs : sortClusters perm w lab = some (w', lab'))
    (k : Nat) (hk : k < (clusterRanges lab none).length) :
    (bincountW lab w)[k]? = some (total w' (clusterRanges lab none)[k]) := by
  obtain ⟨x2, lab2, e1, hz, hl, hso, hc, -⟩ := C28_ranges w lab perm hw hp
  rw [hs] at e1
  simp only [Option.some.injEq, Prod.mk.injEq] at e1
  obtain ⟨rfl, rfl⟩ := e1
  have hk' : k < binSize lab := by
    rw [clusterRanges_eq] at hk
    simpa using hk
  have h2 : w'.length = lab'.length := by
    have := hc.last (by omega)
    rw [hl, hw, ← this]
    have e : (clusterRanges lab none)[(clusterRanges lab none).length - 1] =
        (lab.countP (· < (clusterRanges lab none).length - 1),
          lab.countP (· < (clusterRanges lab none).length - 1 + 1)) := by
      simp [clusterRanges_eq]
    rw [e]
    simp only
    have h3 : (clusterRanges lab none).length = binSize lab := by simp [clusterRanges_eq]
    rw [Nat.sub_add_cancel (by omega), h3, countP_binSize]
  exact bincountW_getD hw hz h2 hc hk hk'

end

/-- C28 (PyTorch), for at most `2^24` points. -/
theorem C28_torch_partial {α : Type} (x : List α) (lab perm : List Nat)
    (hx : x.length = lab.length) (hp : IsArgsort lab perm) (hM : lab.length ≤ 2 ^ 24) :
    ∃ x' lab', sortClusters perm x lab = some (x', lab') ∧ (x'.zip lab').Perm (x.zip lab) ∧
      lab'.Pairwise (· ≤ ·) ∧ Classes lab' (clusterRangesTorch lab) := by
  obtain ⟨x', lab', h1, h2, -, h3, h4, -⟩ := C28_ranges x lab perm hx hp
  exact ⟨x', lab', h1, h2, h3, by rw [clusterRangesTorch_eq hM]; exact h4⟩

theorem bincount_replicate (n : Nat) : bincount (List.replicate (n + 1) 0) = [n + 1] := by
  have : binSize (List.replicate (n + 1) 0) = 1 := by
    unfold binSize
    have : (List.replicate (n + 1) 0).max? = some 0 := by
      rw [List.max?_eq_some_iff]
      constructor
      · simp
      · intro b hb
        rw [List.eq_of_mem_replicate hb]
    rw [this]
  unfold bincount
  rw [this]
  simp

/-- C28 fails in PyTorch beyond: counts and their cumulated sums are stored in single precision.
With `2^24 + 1` points of label 0, the only interval is `[0, 2^24)`: the last point belongs to no
interval. -/
theorem not_C28_torch :
    clusterRangesTorch (List.replicate (2 ^ 24 + 1) 0) = [(0, 2 ^ 24)] ∧
    ∀ lab', lab'.Perm (List.replicate (2 ^ 24 + 1) 0) →
      ¬ Classes lab' (clusterRangesTorch (List.replicate (2 ^ 24 + 1) 0)) := by
  have h : clusterRangesTorch (List.replicate (2 ^ 24 + 1) 0) = [(0, 2 ^ 24)] := by
    unfold clusterRangesTorch
    rw [bincount_replicate]
    simp only [List.map_cons, List.map_nil, f32_witness]
    have : cumsum [2 ^ 24] = [2 ^ 24] := by simp [cumsum]
    rw [this]
    simp only [List.map_cons, List.map_nil, f32_le (le_refl (2 ^ 24))]
    rfl
  refine ⟨h, fun lab' hp hc => ?_⟩
  have := hc.last (by rw [h]; simp)
  rw [hp.length_eq, List.length_replicate] at this
  simp only [h] at this
  simp at this

/-- The documentation's example: five points with labels 0, 2, 0, 0, 1. -/
example : IsArgsort [0, 2, 0, 0, 1] [0, 2, 3, 4, 1] ∧
    sortClusters [0, 2, 3, 4, 1] ["0.", "5.", ".4", ".3", "2."] [0, 2, 0, 0, 1]
      = some (["0.", ".4", ".3", "2.", "5."], [0, 0, 0, 1, 2]) ∧
    clusterRanges [0, 2, 0, 0, 1] none = [(0, 3), (3, 4), (4, 5)] := by
  refine ⟨⟨by decide, by decide⟩, by decide, by decide⟩

/-- Weights `[.5, .5, 2, 1, 1]`: centroids `.5` and `4.75`. -/
example : clusterCentroids (K := ℚ) [[0], [1], [4], [5], [6]] 1 [0, 0, 1, 1, 1]
    (some [1/2, 1/2, 2, 1, 1]) = [[some (1/2)], [some (19/4)]] := by decide +kernel

/-! ## C29: grid clustering -/

section
variable {K : Type} [Field K] [LinearOrder K] [FloorRing K]

/-- C29 (NumPy), when the voxel coordinates after the first one span less than 1024 cells. -/
theorem C29_numpy_partial (D : Nat) (h1 : 1 ≤ D) (h3 : D ≤ 3) (s : List K) (hs : s.length = D)
    (x : List (List K)) (hx : x ≠ []) (hD : ∀ a ∈ x, a.length = D)
    (hb : ∀ a ∈ x, ∀ b ∈ x, ∀ d, 1 ≤ d → d < D →
      ⌊a.getD d 0 / s.getD d 0⌋ < ⌊b.getD d 0 / s.getD d 0⌋ + 2 ^ 10) :
    ∃ lab, gridClusterNumpy D s x = some lab ∧ lab.length = x.length ∧ Consecutive lab ∧
      ∀ i j, i < x.length → j < x.length → (lab.getD i 0 = lab.getD j 0 ↔
        SameVoxel D (fun _ => 0) (fun d => s.getD d 0) (x.getD i []) (x.getD j [])) := by
  obtain ⟨w, hw⟩ := gridWeights_some h1 h3
  unfold gridClusterNumpy gridLabels
  rw [hw]
  have hne : (cellsNumpy s x).map
      (fun c => (List.zipWith (fun a b => id (a * b)) c w).sum) ≠ [] := by
    simp [cellsNumpy, hx]
  obtain ⟨r, e1, e2, e3, e4⟩ := compactLabels_spec hne
  refine ⟨r, e1, by rw [e2]; simp [cellsNumpy], e3, ?_⟩
  intro i j hi hj
  rw [e4 i j (by simpa [cellsNumpy] using hi) (by simpa [cellsNumpy] using hj)]
  have hcell : ∀ i, i < x.length → ((cellsNumpy s x).map
      (fun c => (List.zipWith (fun a b => id (a * b)) c w).sum)).getD i 0
      = (List.zipWith (fun a b => id (a * b))
        (List.zipWith (fun a s => ⌊a / s⌋) (x.getD i []) s) w).sum := by
    intro i hi
    simp [cellsNumpy, hi]
  rw [hcell i hi, hcell j hj]
  have hmem : ∀ i, i < x.length → x.getD i [] ∈ x := by
    intro i hi
    simp [hi]
  have hli := hD _ (hmem i hi)
  have hlj := hD _ (hmem j hj)
  have hget : ∀ a : List K, a.length = D → ∀ d < D,
      (List.zipWith (fun a s => ⌊a / s⌋) a s).getD d 0 = ⌊a.getD d 0 / s.getD d 0⌋ := by
    intro a ha d hd
    have h1 : d < a.length := by omega
    have h2 : d < s.length := by omega
    simp [List.getElem?_zipWith, h1, h2]
  rw [hash_inj hw (by rw [List.length_zipWith, hli, hs, min_self])
    (by rw [List.length_zipWith, hlj, hs, min_self])]
  · rw [zipWith_eq_iff _ D hli hlj hs]
    unfold SameVoxel
    simp only [sub_zero]
  · intro d hd1 hd2
    rw [hget _ hli d hd2, hget _ hlj d hd2]
    exact ⟨hb _ (hmem i hi) _ (hmem j hj) d hd1 hd2, hb _ (hmem j hj) _ (hmem i hi) d hd1 hd2⟩

theorem colMin_getD [IsStrictOrderedRing K] {D : Nat} {x : List (List K)} {o : Nat → K}
    (ho : ∀ d < D, (∃ a ∈ x, a.getD d 0 = o d) ∧ ∀ a ∈ x, o d ≤ a.getD d 0) {d : Nat}
    (hd : d < D) : (colMin D x).getD d 0 = o d := by
  unfold colMin
  rw [getD_map_lt _ _ _ 0 _ (by simpa using hd)]
  rw [getD_range hd]
  obtain ⟨⟨a, ha, ha'⟩, hle⟩ := ho d hd
  have : (x.map (fun r => r.getD d 0)).min? = some (o d) := by
    rw [List.min?_eq_some_iff]
    constructor
    · exact List.mem_map.mpr ⟨a, ha, ha'⟩
    · intro b hb
      obtain ⟨c, hc, rfl⟩ := List.mem_map.mp hb
      exact hle c hc
  rw [this]
  rfl

/-- C29 (PyTorch): the grid starts at the smallest coordinates `o`.  Proved when the voxel
coordinates after the first one are below 1024 and the first one is below `2^31`, `2^21`, `2^11` in
dimension 1, 2, 3. -/
theorem C29_torch_partial [IsStrictOrderedRing K] (D : Nat) (h1 : 1 ≤ D) (h3 : D ≤ 3)
    (s : List K) (hs : s.length = D) (hpos : ∀ d < D, 0 < s.getD d 0)
    (x : List (List K)) (hx : x ≠ []) (hD : ∀ a ∈ x, a.length = D) (o : Nat → K)
    (ho : ∀ d < D, (∃ a ∈ x, a.getD d 0 = o d) ∧ ∀ a ∈ x, o d ≤ a.getD d 0)
    (hb : ∀ a ∈ x, ∀ d, 1 ≤ d → d < D → ⌊(a.getD d 0 - o d) / s.getD d 0⌋ < 2 ^ 10)
    (hb0 : ∀ a ∈ x, ⌊(a.getD 0 0 - o 0) / s.getD 0 0⌋ < 2 ^ (31 - 10 * (D - 1))) :
    ∃ lab, gridClusterTorch D s x = some lab ∧ lab.length = x.length ∧ Consecutive lab ∧
      ∀ i j, i < x.length → j < x.length → (lab.getD i 0 = lab.getD j 0 ↔
        SameVoxel D o (fun d => s.getD d 0) (x.getD i []) (x.getD j [])) := by
  obtain ⟨w, hw⟩ := gridWeights_some h1 h3
  unfold gridClusterTorch gridLabels
  rw [hw]
  have hne : (cellsTorch D s x).map
      (fun c => (List.zipWith (fun a b => Int.bmod (a * b) (2 ^ 32)) c w).sum) ≠ [] := by
    simp [cellsTorch, hx]
  obtain ⟨r, e1, e2, e3, e4⟩ := compactLabels_spec hne
  refine ⟨r, e1, by rw [e2]; simp [cellsTorch], e3, ?_⟩
  intro i j hi hj
  rw [e4 i j (by simpa [cellsTorch] using hi) (by simpa [cellsTorch] using hj)]
  have hlm : (colMin D x).length = D := by simp [colMin]
  let cell : List K → List Int := fun a => List.zipWith (fun a s => ⌊a / s⌋)
    (List.zipWith (· - ·) a (colMin D x)) s
  have hget : ∀ a : List K, a.length = D → ∀ d < D,
      (cell a).getD d 0 = ⌊(a.getD d 0 - o d) / s.getD d 0⌋ := by
    intro a ha d hd
    have h1 : d < a.length := by omega
    have h2 : d < s.length := by omega
    have h3 : d < (colMin D x).length := by omega
    have h4 := colMin_getD ho hd
    rw [List.getD_eq_getElem _ _ h3] at h4
    simp [cell, List.getElem?_zipWith, h1, h2, h3, h4]
  have hlen : ∀ a : List K, a.length = D → (cell a).length = D := by
    intro a ha
    simp [cell, ha, hlm, hs]
  have hmem : ∀ i, i < x.length → x.getD i [] ∈ x := by
    intro i hi
    simp [hi]
  have hnn : ∀ a ∈ x, ∀ d < D, 0 ≤ ⌊(a.getD d 0 - o d) / s.getD d 0⌋ := by
    intro a ha d hd
    rw [Int.floor_nonneg]
    exact div_nonneg (sub_nonneg.mpr ((ho d hd).2 a ha)) (hpos d hd).le
  have hcell : ∀ i, i < x.length → ((cellsTorch D s x).map
      (fun c => (List.zipWith (fun a b => Int.bmod (a * b) (2 ^ 32)) c w).sum)).getD i 0
      = (List.zipWith (fun a b => id (a * b)) (cell (x.getD i [])) w).sum := by
    intro i hi
    have ha := hmem i hi
    have hl := hD _ ha
    rw [← hash_wrap hw (hlen _ hl)]
    · simp [cellsTorch, hi, cell]
    · intro d hd1 hd2
      rw [hget _ hl d hd2]
      exact ⟨hnn _ ha d hd2, hb _ ha d hd1 hd2⟩
    · rw [hget _ hl 0 (by omega)]
      exact ⟨hnn _ ha 0 (by omega), hb0 _ ha⟩
  rw [hcell i hi, hcell j hj]
  have hli := hD _ (hmem i hi)
  have hlj := hD _ (hmem j hj)
  rw [hash_inj hw (hlen _ hli) (hlen _ hlj)]
  · unfold SameVoxel
    constructor
    · intro h d hd
      have := congrArg (fun l : List Int => l.getD d 0) h
      rwa [hget _ hli d hd, hget _ hlj d hd] at this
    · intro h
      refine List.ext_getElem (by rw [hlen _ hli, hlen _ hlj]) ?_
      intro d hd1 hd2
      have hd : d < D := by rw [hlen _ hli] at hd1; exact hd1
      have := h d hd
      rw [← hget _ hli d hd, ← hget _ hlj d hd, List.getD_eq_getElem _ _ hd1,
        List.getD_eq_getElem _ _ hd2] at this
      exact this
  · intro d hd1 hd2
    rw [hget _ hli d hd2, hget _ hlj d hd2]
    have e1 := hnn _ (hmem i hi) d hd2
    have e2 := hnn _ (hmem j hj) d hd2
    have e3 := hb _ (hmem i hi) d hd1 hd2
    have e4 := hb _ (hmem j hj) d hd1 hd2
    omega

end

/-- C29 fails beyond, in both libraries: with voxels of size 1, the points `(0, 1024)` and `(1, 0)`
get the same label. -/
theorem not_C29 :
    gridClusterNumpy (K := ℚ) 2 [1, 1] [[0, 1024], [1, 0]] = some [0, 0] ∧
    gridClusterTorch (K := ℚ) 2 [1, 1] [[0, 1024], [1, 0]] = some [0, 0] ∧
    ¬ SameVoxel (K := ℚ) 2 (fun _ => 0) (fun _ => 1) [0, 1024] [1, 0] := by
  refine ⟨by decide +kernel, by decide +kernel, ?_⟩
  intro h
  have := h 0 (by omega)
  norm_num at this

/-- In dimension 3, 32-bit overflow identifies voxels in PyTorch: first coordinates 0 and 4096. -/
theorem not_C29_torch_overflow :
    gridClusterTorch (K := ℚ) 3 [1, 1, 1] [[0, 0, 0], [4096, 0, 0]] = some [0, 0] := by
  decide +kernel

/-- In dimension 4 nothing is returned. -/
theorem C29_dimension {K : Type} [Field K] [LinearOrder K] [FloorRing K] (D : Nat)
    (h : D = 0 ∨ 4 ≤ D) (s : List K) (x : List (List K)) :
    gridClusterNumpy D s x = none ∧ gridClusterTorch D s x = none := by
  have : gridWeights D = none := by
    unfold gridWeights
    rw [if_neg (by omega), if_neg (by omega), if_neg (by omega)]
  unfold gridClusterNumpy gridClusterTorch gridLabels
  rw [this]
  exact ⟨rfl, rfl⟩

/-- The documentation's example: points of the unit interval, bins of size 0.2. -/
example : gridClusterNumpy (K := ℚ) 1 [1/5] [[0], [1/10], [9/10], [1/20], [1/2]]
    = some [0, 0, 2, 0, 1] := by decide +kernel

/-- A case with two dimensions and negative coordinates that meets the hypothesis. -/
example : gridClusterNumpy (K := ℚ) 2 [1, 1] [[-3/2, 0], [2, 5], [-3/2, 1/2]]
    = some [0, 1, 0] := by decide +kernel

/-! ## C50: masks -/

/-- C50 (pairs): the ranges built by `from_matrix` describe, along each axis, exactly the pairs of
the blocks that are kept. -/
theorem C50_pairs (ri rj : List (Nat × Nat)) (keep : Nat → Nat → Bool) :
    ∃ r, fromMatrix ri.length rj.length ri rj keep = some r ∧
      (∀ i j, (∃ k < r.toArr.nrangesX, (flatRanges ri (2 * k) ≤ i ∧ i < flatRanges ri (2 * k + 1)) ∧
        j ∈ clusterList (r.toArr.axis 0) k) ↔ Kept ri rj keep i j) ∧
      (∀ i j, (∃ l < r.toArr.nrangesY, (flatRanges rj (2 * l) ≤ j ∧ j < flatRanges rj (2 * l + 1)) ∧
        i ∈ clusterList (r.toArr.axis 1) l) ↔ Kept ri rj keep i j) := by
  obtain ⟨r, hr, hi, hj, h0, h1⟩ := fromMatrix_eq (ri := ri) (rj := rj) keep rfl rfl
  refine ⟨r, hr, ?_, ?_⟩
  · intro i j
    have hn : r.toArr.nrangesX = ri.length := by rw [← hi]; rfl
    rw [hn, h0]
    constructor
    · rintro ⟨k, hk, hik, hjk⟩
      rw [flatRanges_even, flatRanges_odd, List.getD_eq_getElem _ _ hk] at hik
      rw [halfAxis_mem keep rfl hk] at hjk
      obtain ⟨l, hl, hkl, h2⟩ := hjk
      exact ⟨k, l, hk, hl, hkl, hik, h2⟩
    · rintro ⟨k, l, hk, hl, hkl, hik, h2⟩
      refine ⟨k, hk, ?_, ?_⟩
      · rw [flatRanges_even, flatRanges_odd, List.getD_eq_getElem _ _ hk]
        exact hik
      · rw [halfAxis_mem keep rfl hk]
        exact ⟨l, hl, hkl, h2⟩
  · intro i j
    have hn : r.toArr.nrangesY = rj.length := by rw [← hj]; rfl
    rw [hn, h1]
    constructor
    · rintro ⟨l, hl, hjl, hil⟩
      rw [flatRanges_even, flatRanges_odd, List.getD_eq_getElem _ _ hl] at hjl
      rw [halfAxis_mem _ rfl hl] at hil
      obtain ⟨k, hk, hkl, h2⟩ := hil
      exact ⟨k, l, hk, hl, hkl, h2, hjl⟩
    · rintro ⟨k, l, hk, hl, hkl, hik, h2⟩
      refine ⟨l, hl, ?_, ?_⟩
      · rw [flatRanges_even, flatRanges_odd, List.getD_eq_getElem _ _ hl]
        exact h2
      · rw [halfAxis_mem _ rfl hl]
        exact ⟨k, hk, hkl, hik⟩

/-- C50 (transposition): swapping the axes of a mask gives the mask of the transposed matrix. -/
theorem C50_transpose (m n : Nat) (ri rj : List (Nat × Nat)) (keep : Nat → Nat → Bool) :
    swapAxes (fromMatrix m n ri rj keep) = fromMatrix n m rj ri (fun b a => keep a b) := by
  unfold fromMatrix
  cases gather ri (boolIndex n m (fun _ a => a) (fun b a => keep a b)) with
  | none => cases gather rj (boolIndex m n (fun _ b => b) keep) <;> rfl
  | some a => cases gather rj (boolIndex m n (fun _ b => b) keep) <;> rfl

/-- C50 (involution): swapping axes twice gives back the original. -/
theorem C50_swap (r : Option Ranges6) : swapAxes (swapAxes r) = r := by cases r <;> rfl

theorem mask_sum {V : Type} [AddCommMonoid V] {lab : List Nat} {rj : List (Nat × Nat)}
    (hc : Classes lab rj) (m : Nat) (ri : List (Nat × Nat)) (keep : Nat → Nat → Bool) {k : Nat}
    (hk : k < m) (f : Nat → V) :
    ((clusterList (halfAxis m rj.length ri rj keep) k).map f).sum
      = ∑ j ∈ (Finset.range lab.length).filter (fun j => keep k (lab.getD j 0) = true), f j := by
  have hnd : (clusterList (halfAxis m rj.length ri rj keep) k).Nodup := by
    rw [halfAxis_clusterList keep hk, List.nodup_flatMap]
    refine ⟨fun l _ => List.nodup_range', ?_⟩
    have hn : (keptCols rj.length keep k).Nodup := List.Nodup.filter _ List.nodup_range
    refine hn.imp_of_mem fun {l l'} hl hl' hne => ?_
    simp only [Function.onFun]
    rw [List.disjoint_left]
    intro j hj hj'
    have h1 := (mem_keptCols.mp hl).1
    have h2 := (mem_keptCols.mp hl').1
    rw [List.getD_eq_getElem _ _ h1, List.mem_range'_1] at hj
    rw [List.getD_eq_getElem _ _ h2, List.mem_range'_1] at hj'
    have h3 := classes_le hc h1
    have h4 : j < lab.length := by omega
    exact hne (((hc.mem l h1 j h4).mpr (by omega)).symm.trans ((hc.mem l' h2 j h4).mpr (by omega)))
  rw [← List.sum_toFinset _ hnd]
  refine Finset.sum_congr ?_ fun _ _ => rfl
  ext j
  rw [List.mem_toFinset, halfAxis_mem keep rfl hk, Finset.mem_filter, Finset.mem_range]
  constructor
  · rintro ⟨l, hl, h1, h2⟩
    have h3 := classes_le hc hl
    have h4 : j < lab.length := by omega
    rw [List.getD_eq_getElem _ _ h4, (hc.mem l hl j h4).mpr h2]
    exact ⟨h4, h1⟩
  · rintro ⟨h4, h1⟩
    rw [List.getD_eq_getElem _ _ h4] at h1
    have hl := hc.label _ (List.getElem_mem h4)
    exact ⟨_, hl, h1, (hc.mem _ hl j h4).mp rfl⟩

theorem mask_inCluster {lab : List Nat} {ri : List (Nat × Nat)} (hc : Classes lab ri)
    (n : Nat) (rj : List (Nat × Nat)) (keep : Nat → Nat → Bool) {i : Nat} (hi : i < lab.length) :
    InCluster (halfAxis ri.length n ri rj keep) lab[i] i := by
  have hl := hc.label _ (List.getElem_mem hi)
  refine ⟨hl, ?_, ?_⟩
  · show flatRanges ri _ ≤ i ∧ i < flatRanges ri _
    rw [flatRanges_even, flatRanges_odd, List.getD_eq_getElem _ _ hl]
    exact (hc.mem _ hl i hi).mp rfl
  · intro r' hr' h1 h2
    have hr' : r' < ri.length := hr'
    change flatRanges ri _ ≤ i at h1
    change i < flatRanges ri _ at h2
    rw [flatRanges_even, List.getD_eq_getElem _ _ hr'] at h1
    rw [flatRanges_odd, List.getD_eq_getElem _ _ hr'] at h2
    exact ((hc.mem _ hr' i hi).mpr ⟨h1, h2⟩).symm

theorem classes_ordered {lab : List Nat} {r : List (Nat × Nat)} (hc : Classes lab r) :
    ∀ a ∈ r, a.1 ≤ a.2 := by
  intro a ha
  obtain ⟨k, hk, rfl⟩ := List.getElem_of_mem ha
  exact hc.ordered k hk

/-- C50 (reduction): labels `labx`, `laby` of sorted points, their ranges, and a boolean matrix.
For each scheme, in every execution of the sum with the ranges of `from_matrix`, row `i` is the sum
over the points `j` whose class is kept with the class of `i`; along both axes. -/
theorem C50_sum (V : Type) [AddCommGroup V] (d : Nat) (sch : SumScheme) :
    ∃ S, getScheme (sumRed (V := V) d) sch = some S ∧
      ∀ (ev : (Nat → Option (Mem V)) → Mem V) (vars : List VarInfo)
        (args : Nat → Mem V) (argshapes : List (List Nat)) (dimout rows tagI : Nat)
        (labx laby : List Nat) (keep : Nat → Nat → Bool),
      WfVars vars → EvLocal vars ev → NoBatch vars argshapes → tagI < 2 →
      labx.Pairwise (· ≤ ·) → laby.Pairwise (· ≤ ·) →
      ∃ r P, fromMatrix (clusterRanges labx none).length (clusterRanges laby none).length
          (clusterRanges labx none) (clusterRanges laby none) keep = some r ∧
        rangeCall ev vars tagI args argshapes labx.length laby.length dimout rows
          (some r.toArr) = some P ∧
        ∀ out out', RExec (sumRed d) S P out out' →
          (tagI = 0 → ∀ i, ∀ hi : i < labx.length, ∀ k < d, out' (i * d + k) =
            ∑ j ∈ (Finset.range laby.length).filter
              (fun j => keep labx[i] (laby.getD j 0) = true), ev (Spec.env vars 0 args i j) k) ∧
          (tagI = 1 → ∀ j, ∀ hj : j < laby.length, ∀ k < d, out' (j * d + k) =
            ∑ i ∈ (Finset.range labx.length).filter
              (fun i => keep (labx.getD i 0) laby[j] = true), ev (Spec.env vars 1 args j i) k) := by
  obtain ⟨S, hS, H⟩ := C17_sum V d sch
  refine ⟨S, hS, fun ev vars args argshapes dimout rows tagI labx laby keep hw hev hsh ht hx hy => ?_⟩
  have cx := classes_sorted (List.Perm.refl labx) hx
  have cy := classes_sorted (List.Perm.refl laby) hy
  obtain ⟨r, hr, -, -, h0, h1⟩ := fromMatrix_eq (ri := clusterRanges labx none)
    (rj := clusterRanges laby none) keep rfl rfl
  have hwf : WfAxis (r.toArr.axis tagI) := by
    have : tagI = 0 ∨ tagI = 1 := by omega
    rcases this with rfl | rfl
    · rw [h0]; exact halfAxis_wf keep rfl rfl (classes_ordered cy)
    · rw [h1]; exact halfAxis_wf _ rfl rfl (classes_ordered cx)
  obtain ⟨P, hP, hout⟩ := H ev vars tagI args argshapes labx.length laby.length dimout rows r.toArr
    hw ht hev hsh hwf
  refine ⟨r, P, hr, hP, fun out out' he => ⟨?_, ?_⟩⟩
  · rintro rfl i hi k hk
    have := hout out out' he labx[i] i (by rw [h0]; exact mask_inCluster cx _ _ keep hi) k hk
    rw [this, ← sum_clusterList _ _ (fun j => ev (Spec.env vars 0 args i j) k), h0,
      mask_sum cy _ _ keep (cx.label _ (List.getElem_mem hi))]
  · rintro rfl j hj k hk
    have := hout out out' he laby[j] j (by rw [h1]; exact mask_inCluster cy _ _ _ hj) k hk
    rw [this, ← sum_clusterList _ _ (fun i => ev (Spec.env vars 1 args j i) k), h1,
      mask_sum cx _ _ _ (cy.label _ (List.getElem_mem hj))]

/-- Classes `{0,1}`, `{2}` on one side, `{0}`, `{1,2}`, and an empty class before a last one on the
other; the second line of the matrix is empty. The hypotheses of `C50_sum` are met. -/
example :
    fromMatrix 2 4 (clusterRanges [0, 0, 1] none) (clusterRanges [0, 1, 1, 3] none)
      (fun a b => a == 0 && b != 0)
      = some ⟨[(0, 2), (2, 3)], [3, 3], [(1, 3), (3, 3), (3, 4)],
          [(0, 1), (1, 3), (3, 3), (3, 4)], [0, 1, 2, 3], [(0, 2), (0, 2), (0, 2)]⟩ ∧
    [0, 0, 1].Pairwise (· ≤ ·) ∧ [0, 1, 1, 3].Pairwise (· ≤ ·) ∧
    NoBatch (exProblem ℤ 3 4 (fun _ k => k)).vars [[3, 1], [4, 1]] ∧
    ∀ S (P : RProblem ℤ) out, ∃ out', RExec (sumRed 1) S P out out' :=
  ⟨by decide, by decide, by decide, by simp [NoBatch, exProblem],
    fun S P out => rexec_exists_gpu _ S P out⟩

end Verif
