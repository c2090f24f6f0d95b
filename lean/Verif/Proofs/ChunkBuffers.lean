import Verif.Model.Chunks
import Verif.Proofs.Gpu1D

/-! Local arrays of the chunked kernel: loading, slices of the shared memory, and the table. -/

namespace Verif

variable {V : Type}

theorem sumDims_append (a b : List VarInfo) : sumDims (a ++ b) = sumDims a + sumDims b := by
  simp [sumDims]

theorem sumDims_nil : sumDims [] = 0 := rfl

/-- The chunked variables with chunks of `d` components. -/
def ChunkVars.piece (G : ChunkVars) (d : Nat) : List VarInfo := G.chunked.map fun v => ⟨v.ind, d, v.cat⟩

theorem ChunkVars.all_eq (G : ChunkVars) (d : Nat) : G.all d = G.whole ++ G.piece d := rfl

theorem sumDims_piece (G : ChunkVars) (d : Nat) : sumDims (G.piece d) = G.chunked.length * d := by
  unfold ChunkVars.piece sumDims
  rw [List.map_map]
  induction G.chunked with
  | nil => simp
  | cons a l ih => simp only [List.map_cons, List.sum_cons, ih, Function.comp, List.length_cons, Nat.succ_mul]; omega

theorem loadChunks_eq (G : ChunkVars) (d D : Nat) (args : Nat → Mem V) (chunk row : Nat) :
    loadChunks (G.chunked.map (·.ind)) d D args chunk row =
      loadVars (G.piece d) (fun p q => args p (row * D + chunk * dimchunk + q)) 0 := by
  funext x
  unfold loadChunks loadVars ChunkVars.piece
  rw [List.foldl_map, List.foldl_map]
  simp only [Nat.zero_mul, Nat.zero_add]

/-! ## Buffers -/

/-- The buffer has the whole variables of row `row`. -/
def BufW (G : ChunkVars) (args : Nat → Mem V) (row : Nat) (x : Mem V) : Prop := Holds G.whole args row x

/-- The buffer has the components `s, …, s + d - 1` of the chunked variables of row `row`. -/
def BufC (G : ChunkVars) (args : Nat → Mem V) (row D s d : Nat) (x : Mem V) : Prop :=
  Holds (G.piece d) (fun p q => args p (row * D + s + q)) 0 (x.shift (sumDims G.whole))

theorem Holds.congr {vs : List VarInfo} {args : Nat → Mem V} {row : Nat} {x y : Mem V} (h : Holds vs args row x)
    (hxy : ∀ p < sumDims vs, y p = x p) : Holds vs args row y := by
  intro pre v post hs w hw
  rw [hxy _ (by subst hs; rw [sumDims_append, sumDims_cons]; omega)]
  exact h pre v post hs w hw

theorem buf_load {G : ChunkVars} {args : Nat → Mem V} {row D d chunk : Nat} {x : Mem V} (h : BufW G args row x) :
    BufW G args row (onSlice (sumDims G.whole) (loadChunks (G.chunked.map (·.ind)) d D args chunk row) x) ∧
    BufC G args row D (chunk * dimchunk) d
      (onSlice (sumDims G.whole) (loadChunks (G.chunked.map (·.ind)) d D args chunk row) x) := by
  rw [loadChunks_eq]
  refine ⟨h.congr fun p hp => ?_, holds_of_eq_loadVars (o := fun k => x (sumDims G.whole + k)) fun p _ => ?_⟩
  · rw [onSlice_apply, if_neg (by omega)]
  · rw [Mem.shift_apply, onSlice_apply, if_pos (by omega), Nat.add_sub_cancel_left]

/-- The same for parameters, which are loaded at the beginning of their array. -/
theorem buf_load_params {G : ChunkVars} {args : Nat → Mem V} {row D d chunk : Nat} {x : Mem V}
    (h : BufW G args row x) (hG : G.whole = [] ∨ G.chunked = []) :
    BufW G args row (loadChunks (G.chunked.map (·.ind)) d D args chunk row x) ∧
    BufC G args row D (chunk * dimchunk) d (loadChunks (G.chunked.map (·.ind)) d D args chunk row x) := by
  rcases hG with hG | hG
  · have := buf_load (d := d) (D := D) (chunk := chunk) h
    rw [hG, sumDims_nil] at this
    have e : ∀ f : Mem V → Mem V, onSlice 0 f x = f x := by
      intro f; funext p; rw [onSlice_apply, if_pos (Nat.zero_le _)]; simp
    rwa [e] at this
  · refine ⟨?_, ?_⟩
    · rw [hG]; exact h
    · intro pre v post hs
      simp [ChunkVars.piece, hG] at hs

theorem buf_whole_load {G : ChunkVars} {args : Nat → Mem V} {row : Nat} {x : Mem V} :
    BufW G args row (loadVars G.whole args row x) := holds_of_eq_loadVars fun _ _ => rfl

/-! ## Slices of the shared memory -/

theorem onSlice_row {d : Nat} {g : Mem V → Mem V} (hg : ∀ o p, d ≤ p → g o p = o p) (out : Mem V) (r i : Nat)
    {k : Nat} (hk : k < d) : onSlice (r * d) g out (i * d + k) =
      if i = r then g (out.shift (r * d)) k else out (i * d + k) := by
  rw [onSlice_apply]
  by_cases hir : i = r
  · subst hir
    rw [if_pos rfl, if_pos (by omega), Nat.add_sub_cancel_left]
    rfl
  · rw [if_neg hir]
    rcases Nat.lt_or_gt_of_ne hir with hlt | hgt
    · have : (i + 1) * d ≤ r * d := Nat.mul_le_mul_right d hlt
      rw [Nat.succ_mul] at this
      rw [if_neg (by omega)]
    · have : (r + 1) * d ≤ i * d := Nat.mul_le_mul_right d hgt
      rw [Nat.succ_mul] at this
      rw [if_pos (by omega), hg _ _ (by omega)]
      congr 1
      omega

/-- Each row is transformed by its own thread. -/
theorem foldl_onSlice_slices {d : Nat} (g : Nat → Mem V → Mem V)
    (hg : ∀ i o o', (∀ q < d, o q = o' q) → ∀ p < d, g i o p = g i o' p) (hg' : ∀ i o p, d ≤ p → g i o p = o p)
    (rows : List Nat) (hnd : rows.Nodup) (out : Mem V) :
    (∀ i ∈ rows, ∀ k < d, rows.foldl (fun out i => onSlice (i * d) (g i) out) out (i * d + k) =
      g i (out.shift (i * d)) k) ∧
    ∀ i, i ∉ rows → ∀ k < d, rows.foldl (fun out i => onSlice (i * d) (g i) out) out (i * d + k) =
      out (i * d + k) := by
  induction rows generalizing out with
  | nil => exact ⟨fun _ h => by simp at h, fun _ _ _ _ => rfl⟩
  | cons r rs ih =>
    obtain ⟨hr, hrs⟩ := List.nodup_cons.mp hnd
    obtain ⟨ih1, ih2⟩ := ih hrs (onSlice (r * d) (g r) out)
    refine ⟨fun i hi k hk => ?_, fun i hi k hk => ?_⟩
    · rw [List.foldl_cons]
      rcases List.mem_cons.mp hi with rfl | hi
      · rw [ih2 i hr k hk, onSlice_row (hg' i) out i i hk, if_pos rfl]
      · rw [ih1 i hi k hk]
        refine hg i _ _ (fun q hq => ?_) k hk
        rw [Mem.shift_apply, Mem.shift_apply, onSlice_row (hg' r) out r i hq,
          if_neg (show ¬i = r from fun h => hr (h ▸ hi))]
    · rw [List.foldl_cons, ih2 i (fun h => hi (List.mem_cons_of_mem _ h)) k hk, onSlice_row (hg' r) out r i hk,
        if_neg (show ¬i = r from fun h => hi (h ▸ List.mem_cons_self ..))]

theorem onSlice_onSlice (a b : Nat) (f : Mem V → Mem V) (m : Mem V) :
    onSlice (a + b) f m = onSlice a (onSlice b f) m := by
  funext p
  simp only [onSlice_apply]
  by_cases h : a + b ≤ p
  · rw [if_pos h, if_pos (by omega), if_pos (by omega)]
    congr 1
    · funext k; congr 1; omega
    · omega
  · rw [if_neg h]
    by_cases h' : a ≤ p
    · rw [if_pos h', if_neg (by omega)]; congr 1; omega
    · rw [if_neg h']

/-- A load that writes `n` entries from the position `off`. -/
theorem loadVars_slice (vs : List VarInfo) (args : Nat → Mem V) (row off d : Nat) (h : off + sumDims vs ≤ d) :
    (∀ o o', (∀ q < d, o q = o' q) → ∀ p < d, onSlice off (loadVars vs args row) o p =
      onSlice off (loadVars vs args row) o' p) ∧
    ∀ o p, d ≤ p → onSlice off (loadVars vs args row) o p = o p := by
  refine ⟨fun o o' ho p hp => ?_, fun o p hp => ?_⟩
  · simp only [onSlice_apply]
    split
    · by_cases hp' : p - off < sumDims vs
      · exact loadVars_in args row vs _ _ hp'
      · rw [loadVars_out _ _ _ _ (by omega), loadVars_out _ _ _ _ (by omega)]
        exact ho _ (by omega)
    · exact ho _ hp
  · rw [onSlice_apply]
    split
    · rw [loadVars_out _ _ _ _ (by omega)]; congr 1; omega
    · rfl

/-- Loading the rows of a tile. -/
theorem tile_rows {d B ny tile : Nat} (g : Nat → Mem V → Mem V)
    (hg : ∀ i o o', (∀ q < d, o q = o' q) → ∀ p < d, g i o p = g i o' p) (hg' : ∀ i o p, d ≤ p → g i o p = o p)
    (ts : List Nat) (hnd : ts.Nodup) (yj : Mem V) {t : Nat} (ht : t ∈ ts) (hj : tile * B + t < ny) {k : Nat}
    (hk : k < d) :
    (ts.foldl (fun yj t => if tile * B + t < ny then onSlice (t * d) (g t) yj else yj) yj).shift (t * d) k =
      g t (yj.shift (t * d)) k := by
  have := foldl_if_filter (fun t => decide (tile * B + t < ny)) (fun yj t => onSlice (t * d) (g t) yj) ts yj
  simp only [decide_eq_true_eq] at this
  rw [this, Mem.shift_apply]
  exact (foldl_onSlice_slices g hg hg' _ (hnd.filter _) yj).1 t (by simp [ht, hj]) k hk

/-! ## The table -/

section

variable (dec : V → ℝ)

theorem chunkTable_inner (x : Mem V) (vs : List VarInfo) (hnd : (vs.map (·.ind)).Nodup) (r : Table) (a : Nat)
    (hlt : ∀ v ∈ vs, v.ind < r.length) :
    let s := vs.foldl (fun (s : Table × Nat) v =>
      (s.1.set v.ind (some ((List.range v.dim).map fun q => dec (x (s.2 + q)))), s.2 + v.dim)) (r, a)
    s.1.length = r.length ∧ (∀ ind, ind ∉ vs.map (·.ind) → s.1[ind]? = r[ind]?) ∧
    ∀ pre v post, vs = pre ++ v :: post →
      s.1[v.ind]? = some (some ((List.range v.dim).map fun q => dec (x (a + sumDims pre + q)))) := by
  induction vs generalizing r a with
  | nil => simp
  | cons u us ih =>
    simp only [List.map_cons, List.nodup_cons] at hnd
    simp only [List.foldl_cons]
    obtain ⟨ih0, ih1, ih2⟩ := ih hnd.2 (r.set u.ind (some ((List.range u.dim).map fun q => dec (x (a + q)))))
      (a + u.dim) (fun v hv => by rw [List.length_set]; exact hlt v (List.mem_cons_of_mem _ hv))
    refine ⟨by rw [ih0, List.length_set], fun ind hind => ?_, fun pre v post hs => ?_⟩
    · simp only [List.map_cons, List.mem_cons, not_or] at hind
      rw [ih1 ind hind.2, List.getElem?_set_ne (Ne.symm hind.1)]
    · cases pre with
      | nil =>
        simp only [List.nil_append, List.cons.injEq] at hs
        obtain ⟨rfl, rfl⟩ := hs
        rw [ih1 _ hnd.1, List.getElem?_set_self (hlt _ (List.mem_cons_self ..)), sumDims_nil]
        rfl
      | cons u' pre =>
        simp only [List.cons_append, List.cons.injEq] at hs
        obtain ⟨rfl, rfl⟩ := hs
        rw [ih2 pre v post rfl, sumDims_cons]
        simp only [Nat.add_assoc]

theorem chunkTable_get {n : Nat} {groups : List (List VarInfo × Mem V)}
    (hnd : ((groups.flatMap (·.1)).map (·.ind)).Nodup) (hlt : ∀ v ∈ groups.flatMap (·.1), v.ind < n)
    {g : List VarInfo × Mem V} (hg : g ∈ groups) {pre : List VarInfo} {v : VarInfo} {post : List VarInfo}
    (h : g.1 = pre ++ v :: post) :
    (chunkTable dec n groups)[v.ind]? = some (some ((List.range v.dim).map fun q => dec (g.2 (sumDims pre + q)))) := by
  have key : ∀ (groups : List (List VarInfo × Mem V)) (r : Table),
      ((groups.flatMap (·.1)).map (·.ind)).Nodup → (∀ v ∈ groups.flatMap (·.1), v.ind < r.length) →
      (∀ ind, ind ∉ (groups.flatMap (·.1)).map (·.ind) → (groups.foldl (fun res g =>
        (g.1.foldl (fun (s : Table × Nat) v =>
          (s.1.set v.ind (some ((List.range v.dim).map fun q => dec (g.2 (s.2 + q)))), s.2 + v.dim)) (res, 0)).1)
        r)[ind]? = r[ind]?) ∧
      ∀ g ∈ groups, ∀ pre v post, g.1 = pre ++ v :: post → (groups.foldl (fun res g =>
        (g.1.foldl (fun (s : Table × Nat) v =>
          (s.1.set v.ind (some ((List.range v.dim).map fun q => dec (g.2 (s.2 + q)))), s.2 + v.dim)) (res, 0)).1)
        r)[v.ind]? = some (some ((List.range v.dim).map fun q => dec (g.2 (sumDims pre + q)))) := by
    intro groups
    induction groups with
    | nil => intro r _ _; exact ⟨fun _ _ => rfl, fun _ h => by simp at h⟩
    | cons a l ih =>
      intro r hnd hlt
      simp only [List.flatMap_cons, List.map_append] at hnd hlt
      obtain ⟨hn1, hn2, hdis⟩ := List.nodup_append.mp hnd
      obtain ⟨i0, i1, i2⟩ := chunkTable_inner dec a.2 a.1 hn1 r 0
        (fun v hv => hlt v (List.mem_append_left _ hv))
      obtain ⟨j1, j2⟩ := ih _ hn2 (fun v hv => by rw [i0]; exact hlt v (List.mem_append_right _ hv))
      refine ⟨fun ind hind => ?_, fun g hg pre v post hs => ?_⟩
      · simp only [List.flatMap_cons, List.map_append, List.mem_append, not_or] at hind
        rw [List.foldl_cons, j1 ind hind.2, i1 ind hind.1]
      · rw [List.foldl_cons]
        rcases List.mem_cons.mp hg with rfl | hg
        · have hv : v.ind ∈ g.1.map (·.ind) := List.mem_map_of_mem (hs ▸ by simp)
          rw [j1 v.ind fun h => hdis _ hv _ h rfl, i2 pre v post hs, Nat.zero_add]
        · exact j2 g hg pre v post hs
  exact (key groups _ hnd (by simpa using hlt)).2 g hg pre v post h

/-- Three groups of variables with their buffers. -/
theorem chunkTable_whole {n d : Nat} {groups : List (List VarInfo × Mem V)}
    (hnd : ((groups.flatMap (·.1)).map (·.ind)).Nodup) (hlt : ∀ v ∈ groups.flatMap (·.1), v.ind < n)
    {G : ChunkVars} {x : Mem V} (hg : (G.all d, x) ∈ groups) {args : Nat → Mem V} {row : Nat}
    (hx : BufW G args row x) {v : VarInfo} (hv : v ∈ G.whole) :
    (chunkTable dec n groups)[v.ind]? =
      some (some ((List.range v.dim).map fun q => dec (args v.ind (row * v.dim + q)))) := by
  obtain ⟨pre, post, hs⟩ := List.append_of_mem hv
  have h : (G.all d, x).1 = pre ++ v :: (post ++ G.piece d) := by
    show G.whole ++ G.piece d = _
    rw [hs]; simp
  rw [chunkTable_get dec hnd hlt hg h]
  congr 2
  exact List.map_congr_left fun q hq => congrArg dec (hx pre v post hs q (List.mem_range.mp hq))

theorem chunkTable_chunked {n d : Nat} {groups : List (List VarInfo × Mem V)}
    (hnd : ((groups.flatMap (·.1)).map (·.ind)).Nodup) (hlt : ∀ v ∈ groups.flatMap (·.1), v.ind < n)
    {G : ChunkVars} {x : Mem V} (hg : (G.all d, x) ∈ groups) {args : Nat → Mem V} {row D s : Nat}
    (hx : BufC G args row D s d x) {v : VarInfo} (hv : v ∈ G.chunked) :
    (chunkTable dec n groups)[v.ind]? =
      some (some ((List.range d).map fun q => dec (args v.ind (row * D + s + q)))) := by
  obtain ⟨pre, post, hs⟩ := List.append_of_mem (List.mem_map_of_mem (f := fun v => (⟨v.ind, d, v.cat⟩ : VarInfo)) hv)
  have h : (G.all d, x).1 = (G.whole ++ pre) ++ ⟨v.ind, d, v.cat⟩ :: post := by
    show G.whole ++ _ = _
    rw [hs]; simp
  have := chunkTable_get dec hnd hlt hg h
  simp only at this
  rw [this]
  congr 2
  refine List.map_congr_left fun q hq => congrArg dec ?_
  have := hx pre _ post hs q (List.mem_range.mp hq)
  rw [Mem.shift_apply] at this
  rw [sumDims_append, Nat.add_assoc, this, Nat.zero_mul, Nat.zero_add]

end

end Verif
