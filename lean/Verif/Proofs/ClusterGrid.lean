import Mathlib.Data.List.MinMax
import Mathlib.Tactic.NormNum
import Mathlib.Tactic.Linarith
import Verif.Proofs.Cluster
import Verif.Proofs.RedBasic

/-! # Lemmas on centroids and grid clustering -/

namespace Verif

/-! ## Sums over classes -/

theorem zip_eq_map_range {α : Type} (lab : List Nat) (v : List α) (d : α)
    (h : v.length = lab.length) :
    lab.zip v = (List.range lab.length).map (fun p => (lab.getD p 0, v.getD p d)) := by
  refine List.ext_getElem (by simp [h]) ?_
  intro p h1 h2
  have h3 : p < lab.length := by simpa using h2
  have h4 : p < v.length := by omega
  simp [h3, h4]

theorem classes_le {lab : List Nat} {r : List (Nat × Nat)}
    (hc : Spec.Classes lab r) {k : Nat} (hk : k < r.length) : (r[k]).2 ≤ lab.length := by
  have : ∀ j, ∀ hj : k + j < r.length, (r[k]).2 ≤ (r[k + j]).2 := by
    intro j
    induction j with
    | zero => intro _; exact le_refl _
    | succ j ih =>
      intro hj
      have h1 := ih (by omega)
      have h2 := hc.consecutive (k + j) (by omega)
      have h3 := hc.ordered (k + j + 1) (by omega)
      have h4 : r[k + (j + 1)] = r[k + j + 1] := rfl
      rw [h4]
      omega
  have h1 := this (r.length - 1 - k) (by omega)
  have h2 : k + (r.length - 1 - k) = r.length - 1 := by omega
  simp only [h2] at h1
  rw [hc.last (by omega)] at h1
  exact h1

theorem class_sum {K : Type} [AddCommMonoid K] {lab : List Nat} {r : List (Nat × Nat)}
    (hc : Spec.Classes lab r) (v : List K) (hv : v.length = lab.length) {k : Nat}
    (hk : k < r.length) :
    ((lab.zip v).map (fun p => if p.1 = k then p.2 else 0)).sum = Spec.total v r[k] := by
  rw [zip_eq_map_range lab v 0 hv, List.map_map, list_sum_range]
  unfold Spec.total
  have hle := classes_le hc hk
  rw [← Finset.sum_subset (s₁ := Finset.Ico (r[k]).1 (r[k]).2)]
  · refine Finset.sum_congr rfl fun p hp => ?_
    rw [Finset.mem_Ico] at hp
    have hp' : p < lab.length := by omega
    have := (hc.mem k hk p hp').mpr hp
    simp [hp', this]
  · intro p hp
    rw [Finset.mem_Ico] at hp
    rw [Finset.mem_range]
    omega
  · intro p hp hn
    rw [Finset.mem_range] at hp
    rw [Finset.mem_Ico] at hn
    have := mt (hc.mem k hk p hp).mp hn
    simp [hp, this]

theorem bincountW_getD {K : Type} [AddCommMonoid K] {lab lab' : List Nat} {v v' : List K}
    (hv : v.length = lab.length) (hz : (v'.zip lab').Perm (v.zip lab))
    (hl : v'.length = lab'.length) {r : List (Nat × Nat)} (hc : Spec.Classes lab' r) {k : Nat}
    (hk : k < r.length) (hk' : k < binSize lab) :
    (bincountW lab v)[k]? = some (Spec.total v' r[k]) := by
  rw [← class_sum hc v' hl hk]
  unfold bincountW
  rw [List.getElem?_map, List.getElem?_range hk', Option.map_some, Option.some.injEq]
  have h1 : (lab'.zip v').Perm (lab.zip v) := by
    have := hz.map Prod.swap
    rwa [List.zip_swap, List.zip_swap] at this
  exact ((h1.map _).sum_eq).symm

/-! ## Compact labels -/

theorem compactLabels_spec {lab : List Int} (h : lab ≠ []) :
    ∃ r, compactLabels lab = some r ∧ r.length = lab.length ∧ Spec.Consecutive r ∧
      ∀ i j, i < lab.length → j < lab.length →
        (r.getD i 0 = r.getD j 0 ↔ lab.getD i 0 = lab.getD j 0) := by
  unfold compactLabels
  cases hm : lab.min? with
  | none => rw [List.min?_eq_none_iff] at hm; exact absurd hm h
  | some m =>
    simp only
    set lab' := lab.map (fun l => l - m) with hlab'
    set u := (lab'.dedup).insertionSort (· ≤ ·) with hu
    have hperm : u.Perm lab'.dedup := List.perm_insertionSort _ _
    have hnd : u.Nodup := hperm.nodup_iff.mpr (List.nodup_dedup _)
    have hmem : ∀ a, a ∈ u ↔ a ∈ lab' := fun a => by rw [hperm.mem_iff, List.mem_dedup]
    refine ⟨_, rfl, by simp [hlab'], ?_, ?_⟩
    · intro k hk k' hk'
      obtain ⟨a, ha, rfl⟩ := List.mem_map.mp hk
      have h1 : u.idxOf a < u.length := List.idxOf_lt_length_of_mem ((hmem a).mpr ha)
      have h2 : k' < u.length := by omega
      refine List.mem_map.mpr ⟨u[k'], (hmem _).mp (List.getElem_mem h2), ?_⟩
      exact hnd.idxOf_getElem k' h2
    · intro i j hi hj
      have e : ∀ i, i < lab.length → (lab'.map (fun l => u.idxOf l)).getD i 0
          = u.idxOf (lab.getD i 0 - m) := by
        intro i hi
        simp [hlab', hi]
      rw [e i hi, e j hj]
      constructor
      · intro h
        have hi' : lab.getD i 0 - m ∈ u := by
          rw [hmem]
          refine List.mem_map.mpr ⟨lab.getD i 0, ?_, rfl⟩
          simp [hi]
        have := (List.idxOf_inj hi').mp h
        omega
      · intro h
        rw [h]

/-! ## Hash of the voxels -/

theorem zipWith_eq_iff {K L : Type} [Zero K] (f : K → K → L) (D : Nat) {a b s : List K}
    (ha : a.length = D) (hb : b.length = D) (hs : s.length = D) :
    List.zipWith f a s = List.zipWith f b s ↔
      ∀ d < D, f (a.getD d 0) (s.getD d 0) = f (b.getD d 0) (s.getD d 0) := by
  constructor
  · intro h d hd
    have := congrArg (fun l => l[d]?) h
    have h1 : d < a.length := by omega
    have h2 : d < b.length := by omega
    have h3 : d < s.length := by omega
    simpa [List.getElem?_zipWith, h1, h2, h3] using this
  · intro h
    refine List.ext_getElem (by simp [ha, hb]) ?_
    intro d h1 h2
    have hd : d < D := by simpa [ha, hs] using h1
    have h1 : d < a.length := by omega
    have h2 : d < b.length := by omega
    have h3 : d < s.length := by omega
    simpa [h1, h2, h3] using h d hd

/-- The hash separates voxels whose coordinates after the first one differ by less than 1024. -/
theorem hash_inj {D : Nat} {w : List Int} (hw : gridWeights D = some w) {c c' : List Int}
    (hc : c.length = D) (hc' : c'.length = D)
    (hb : ∀ d, 1 ≤ d → d < D → c.getD d 0 < c'.getD d 0 + 2 ^ 10 ∧
      c'.getD d 0 < c.getD d 0 + 2 ^ 10) :
    (List.zipWith (fun a b => id (a * b)) c w).sum = (List.zipWith (fun a b => id (a * b)) c' w).sum
      ↔ c = c' := by
  constructor
  swap
  · intro h; rw [h]
  unfold gridWeights at hw
  split_ifs at hw with h1 h2 h3 <;> simp only [Option.some.injEq] at hw <;> subst hw
  · subst h1
    match c, c', hc, hc' with
    | [x], [x'], _, _ => simp
  · subst h2
    match c, c', hc, hc' with
    | [x, y], [x', y'], _, _ =>
      have := hb 1 (by omega) (by omega)
      simp at this ⊢
      omega
  · subst h3
    match c, c', hc, hc' with
    | [x, y, z], [x', y', z'], _, _ =>
      have h1 := hb 1 (by omega) (by omega)
      have h2 := hb 2 (by omega) (by omega)
      simp at h1 h2 ⊢
      omega

/-- No wrap-around when the products fit in 32 bits. -/
theorem hash_wrap {D : Nat} {w : List Int} (hw : gridWeights D = some w) {c : List Int}
    (hc : c.length = D) (hb : ∀ d, 1 ≤ d → d < D → 0 ≤ c.getD d 0 ∧ c.getD d 0 < 2 ^ 10)
    (h0 : 0 ≤ c.getD 0 0 ∧ c.getD 0 0 < 2 ^ (31 - 10 * (D - 1))) :
    (List.zipWith (fun a b => Int.bmod (a * b) (2 ^ 32)) c w).sum
      = (List.zipWith (fun a b => id (a * b)) c w).sum := by
  have key : ∀ z : Int, 0 ≤ z → z < 2 ^ 31 → Int.bmod z (2 ^ 32) = z := by
    intro z h1 h2
    rw [Int.bmod_def]
    norm_num
    norm_num at h2
    omega
  unfold gridWeights at hw
  split_ifs at hw with h1 h2 h3 <;> simp only [Option.some.injEq] at hw <;> subst hw
  · subst h1
    match c, hc with
    | [x], _ =>
      simp at h0
      simp only [List.zipWith, List.sum_cons, List.sum_nil, id, mul_one]
      rw [key x (by omega) (by omega)]
  · subst h2
    match c, hc with
    | [x, y], _ =>
      have := hb 1 (by omega) (by omega)
      simp at this h0
      simp only [List.zipWith, List.sum_cons, List.sum_nil, id, mul_one]
      rw [key y (by omega) (by omega), key (x * 2 ^ 10) (by omega) (by omega)]
  · subst h3
    match c, hc with
    | [x, y, z], _ =>
      have h1 := hb 1 (by omega) (by omega)
      have h2 := hb 2 (by omega) (by omega)
      simp at h1 h2 h0
      simp only [List.zipWith, List.sum_cons, List.sum_nil, id, mul_one]
      rw [key z (by omega) (by omega), key (x * 2 ^ 20) (by omega) (by omega),
        key (y * 2 ^ 10) (by omega) (by omega)]

theorem gridWeights_some {D : Nat} (h : 1 ≤ D) (h' : D ≤ 3) : ∃ w, gridWeights D = some w := by
  unfold gridWeights
  have : D = 1 ∨ D = 2 ∨ D = 3 := by omega
  rcases this with rfl | rfl | rfl <;> simp

end Verif
