import Verif.Model.ChunksRanges
import Verif.Proofs.ChunkKernel
import Verif.Proofs.Ranges

/-! The chunked kernel with ranges gives the same results as the simple one. -/

namespace Verif

open Spec Finset

variable {V : Type} {enc : ℝ → V} {dec : V → ℝ}

/-! ## Loading -/

theorem loadVars_fold_congr {g g' : VarInfo → Nat → V} {vs : List VarInfo} (h : ∀ v ∈ vs, ∀ w, g v w = g' v w)
    (x : Mem V) :
    (vs.foldl (fun (s : Mem V × Nat) v =>
      forRange v.dim (fun w (s : Mem V × Nat) => (s.1.set s.2 (g v w), s.2 + 1)) s) (x, 0)).1 =
    (vs.foldl (fun (s : Mem V × Nat) v =>
      forRange v.dim (fun w (s : Mem V × Nat) => (s.1.set s.2 (g' v w), s.2 + 1)) s) (x, 0)).1 := by
  congr 1
  refine foldl_congr_mem _ _ fun s v hv => ?_
  congr 1
  funext w s
  rw [h v hv w]

theorem loadChunks_fold_congr {d : Nat} {g g' : Nat → Nat → V} {inds : List Nat} (h : ∀ v ∈ inds, ∀ w, g v w = g' v w)
    (x : Mem V) :
    (inds.foldl (fun (s : Mem V × Nat) v =>
      forRange d (fun w (s : Mem V × Nat) => (s.1.set s.2 (g v w), s.2 + 1)) s) (x, 0)).1 =
    (inds.foldl (fun (s : Mem V × Nat) v =>
      forRange d (fun w (s : Mem V × Nat) => (s.1.set s.2 (g' v w), s.2 + 1)) s) (x, 0)).1 := by
  congr 1
  refine foldl_congr_mem _ _ fun s v hv => ?_
  congr 1
  funext w s
  rw [h v hv w]

theorem loadVars_congr {vs : List VarInfo} {args args' : Nat → Mem V} {row row' : Nat}
    (h : ∀ v ∈ vs, ∀ w, args v.ind (row * v.dim + w) = args' v.ind (row' * v.dim + w)) :
    loadVars vs args row = loadVars vs args' row' := by
  funext x
  exact loadVars_fold_congr (g := fun v w => args v.ind (row * v.dim + w))
    (g' := fun v w => args' v.ind (row' * v.dim + w)) h x

theorem loadVarsRef_eq {ref : List Nat} {vs : List VarInfo} {args args' : Nat → Mem V} {row row' : Nat}
    {offs : Mem Int}
    (h : ∀ v ∈ vs, ∀ w : Nat, args v.ind (((row : Int) + offs (ref.idxOf v.ind)) * v.dim + w).toNat =
      args' v.ind (row' * v.dim + w)) :
    loadVarsRef ref vs args row offs = loadVars vs args' row' := by
  funext x
  exact loadVars_fold_congr (g := fun v w => args v.ind (((row : Int) + offs (ref.idxOf v.ind)) * v.dim + w).toNat)
    (g' := fun v w => args' v.ind (row' * v.dim + w)) h x

theorem loadChunks_congr {inds : List Nat} {d D chunk : Nat} {args args' : Nat → Mem V} {row row' : Nat}
    (h : ∀ v ∈ inds, ∀ w, args v (row * D + chunk * dimchunk + w) = args' v (row' * D + chunk * dimchunk + w)) :
    loadChunks inds d D args chunk row = loadChunks inds d D args' chunk row' := by
  funext x
  exact loadChunks_fold_congr (g := fun v w => args v (row * D + chunk * dimchunk + w))
    (g' := fun v w => args' v (row' * D + chunk * dimchunk + w)) h x

theorem loadChunksOff_eq {ref inds : List Nat} {d D chunk : Nat} {args args' : Nat → Mem V} {row row' : Nat}
    {offs : Mem Int}
    (h : ∀ v ∈ inds, ∀ w : Nat, args v (((row : Int) + offs (ref.idxOf v)) * D + chunk * dimchunk + w).toNat =
      args' v (row' * D + chunk * dimchunk + w)) :
    loadChunksOff ref inds d D args chunk row offs = loadChunks inds d D args' chunk row' := by
  funext x
  exact loadChunks_fold_congr
    (g := fun v w => args v (((row : Int) + offs (ref.idxOf v)) * D + chunk * dimchunk + w).toNat)
    (g' := fun v w => args' v (row' * D + chunk * dimchunk + w)) h x

/-! ## The variables of the lists -/

/-- The lists of `chunkConsts` are made of variables of the formula. -/
structure ChunkIn (e : Expr) (tagI : Nat) (C : ChunkConsts) : Prop where
  wi : ∀ v ∈ C.i.whole, v ∈ e.inputs ∧ v.cat = tagI
  wj : ∀ v ∈ C.j.whole, v ∈ e.inputs ∧ v.cat = 1 - tagI
  wp : ∀ v ∈ C.p.whole, v ∈ e.inputs ∧ v.cat = 2
  ci : ∀ v ∈ C.i.chunked.map (·.ind), (⟨v, C.dimOrg, tagI⟩ : VarInfo) ∈ e.inputs
  cj : ∀ v ∈ C.j.chunked.map (·.ind), (⟨v, C.dimOrg, 1 - tagI⟩ : VarInfo) ∈ e.inputs
  cp : ∀ v ∈ C.p.chunked.map (·.ind), (⟨v, C.dimOrg, 2⟩ : VarInfo) ∈ e.inputs
  params : (∀ v ∈ e.outerVars, v.2.2 ≠ 2) → C.p.whole = []

theorem chunkIn {e c : Expr} {tagI : Nat} {C : ChunkConsts} {setList : List (Int × Nat × Int) → List (Int × Nat × Int)}
    (hset : ∀ l, (setList l).Perm l.dedup) (hC : chunkConsts setList e tagI = some C) (ht : tagI < 2)
    (hsums : e.sums = [c]) (hf : e.FactFree) (hw : e.WF) (hin : e.InputVars) : ChunkIn e tagI C := by
  have hcm : c ∈ e.sums := by rw [hsums]; exact List.mem_singleton.mpr rfl
  have hcu : c.useChunk = true := Expr.sums_useChunk hcm
  obtain ⟨hcw, -, hcv⟩ := Expr.sums_wf hcm hf hw
  have hmem : ∀ l u, u ∈ setList l ↔ u ∈ l := fun l u => by rw [(hset l).mem_iff, List.mem_dedup]
  have hform : ∀ d, e.chunkedFormulas d = [(c.chunkedVersion d, c.orgDim)] := fun d => by
    rw [Expr.chunkedFormulas_eq.1, hsums]; rfl
  simp only [chunkConsts, hform, Option.some.injEq] at hC
  subst hC
  have hnf : ∀ v ∈ e.vars, v.1 ≠ (e.nminargs : Int) := fun v hv => by
    have := nminargs_lt hv (hin.pos v hv)
    omega
  have P := Expr.post_one hsums hf hw hnf
  obtain ⟨hv1, hv2, -, hv4⟩ := Expr.chunk_vars hcu hcw (d := dimchunk) (by decide)
  have mw : ∀ k < 3, ∀ w ∈ (chunkVars setList (c.chunkedVersion dimchunk) (e.postChunk e.nminargs) k).whole,
      (∃ u ∈ e.outerVars, u.2.2 = (k : Int)) ∧ w ∈ e.inputs ∧ w.cat = k := by
    intro k hk w
    simp only [chunkVars, hv2, List.append_nil, List.mem_map, hmem, ofCat, List.mem_filter, decide_eq_true_eq, P.vars]
    rintro ⟨u, ⟨rfl | hu, hk'⟩, rfl⟩
    · simp only at hk'; omega
    · exact ⟨⟨u, hu, hk'⟩, Expr.mem_inputs.mpr ⟨u, Expr.outerVars_vars hu, hin.cat u (Expr.outerVars_vars hu), rfl⟩,
        by simp [toInfo, hk']⟩
  have mc : ∀ k, ∀ w ∈ (chunkVars setList (c.chunkedVersion dimchunk) (e.postChunk e.nminargs) k).chunked.map (·.ind),
      (⟨w, c.orgDim, k⟩ : VarInfo) ∈ e.inputs := by
    intro k w
    simp only [chunkVars, List.mem_map, hmem, ofCat, List.mem_filter, decide_eq_true_eq, hv1]
    rintro ⟨w', ⟨u, ⟨⟨u', hu', rfl⟩, hk'⟩, rfl⟩, rfl⟩
    have hu := hv4 u' hu'
    simp only at hk'
    refine Expr.mem_inputs.mpr ⟨u', hcv u' hu.1, hin.cat u' (hcv u' hu.1), ?_⟩
    simp [toInfo, hk', hu.2]
  refine ⟨fun v hv => (mw _ (by omega) v hv).2, fun v hv => (mw _ (by omega) v hv).2,
    fun v hv => (mw 2 (by omega) v hv).2, mc _, mc _, mc 2, fun h => ?_⟩
  refine List.eq_nil_iff_forall_not_mem.mpr fun w hw' => ?_
  obtain ⟨u, hu, hk⟩ := (mw 2 (by omega) w hw').1
  exact h u hu hk

/-! ## The arrays seen from an interval -/

/-- The arrays seen by a block on an interval that starts at `startY`: without batch dimensions, the variables `j`
begin with their row `startY`. -/
def RProblem.seen (P : RProblem V) (r startY : Nat) : Nat → Mem V := fun ind =>
  (P.view r ind).shift (if P.sizes.nbatchdims = 0 then
    match P.vars.find? (fun v => v.ind = ind) with
    | some v => if v.cat = 1 - P.tagI then startY * v.dim else 0
    | none => 0 else 0)

theorem seen_apply {P : RProblem V} (hw : WfVars P.vars) {r startY : Nat} {v : VarInfo} (hv : v ∈ P.vars) (p : Nat) :
    P.seen r startY v.ind p = P.view r v.ind
      ((if P.sizes.nbatchdims = 0 ∧ v.cat = 1 - P.tagI then startY * v.dim else 0) + p) := by
  unfold RProblem.seen
  rw [Mem.shift_apply]
  simp only [find_ind hw.nodup hv]
  congr 2
  by_cases h : P.sizes.nbatchdims = 0 <;> simp [h]

theorem seen_other {P : RProblem V} (hw : WfVars P.vars) {r startY : Nat} {v : VarInfo} (hv : v ∈ P.vars)
    (hc : v.cat ≠ 1 - P.tagI) (p : Nat) : P.seen r startY v.ind p = P.view r v.ind p := by
  rw [seen_apply hw hv, if_neg (fun h => hc h.2), Nat.zero_add]

/-- The row of the view that is row `j` of the interval. -/
def RProblem.rowJ (P : RProblem V) (startY j : Nat) : Nat := if P.sizes.nbatchdims = 0 then startY + j else j

theorem seen_j {P : RProblem V} (hw : WfVars P.vars) {r startY : Nat} {v : VarInfo} (hv : v ∈ P.vars)
    (hc : v.cat = 1 - P.tagI) (j q : Nat) :
    P.seen r startY v.ind (j * v.dim + q) = P.view r v.ind (P.rowJ startY j * v.dim + q) := by
  rw [seen_apply hw hv]
  congr 1
  unfold RProblem.rowJ
  by_cases h : P.sizes.nbatchdims = 0
  · rw [if_pos ⟨h, hc⟩, if_pos h, Nat.add_mul, Nat.add_assoc]
  · rw [if_neg (fun h' => h h'.1), if_neg h, Nat.zero_add]

/-- The offset of a variable, found by its position in the list of its group. -/
theorem offs_at {P : RProblem V} (hP : WfRProblem P) (hnb : P.sizes.nbatchdims ≠ 0) {r : Nat}
    (hr : r < P.ax.nranges) {c start : Nat} {sh : Mem Nat} {add : Int} {row row' : Nat}
    (hsh : ∀ n v, (varsOf P.vars c)[n]? = some v → ∀ l ≤ P.sizes.nbatchdims,
      sh.shift ((P.sizes.nbatchdims + 1) * n) l = P.line v l)
    (hstart : ∀ v ∈ varsOf P.vars c, (if v.cat = 2 then r else if v.cat = P.tagI then r * P.rowsX
      else r * P.rowsY) = start)
    (hrow : (row : Int) + add = row') {v : VarInfo} (hv : v ∈ P.vars) (hc : v.cat = c) (q : Nat) :
    P.args v.ind ((((row : Int) + vectBroadcastIndex start P.sizes.nbatchdims P.sizes.shapes sh add
      (((varsOf P.vars c).map (·.ind)).idxOf v.ind)) * v.dim + q).toNat) = P.view r v.ind (row' * v.dim + q) := by
  have hm : v ∈ varsOf P.vars c := List.mem_filter.mpr ⟨hv, decide_eq_true hc⟩
  have hget : (varsOf P.vars c)[((varsOf P.vars c).map (·.ind)).idxOf v.ind]? = some v := by
    obtain ⟨n, hn, he⟩ := List.getElem_of_mem hm
    have hnd := varsOf_nodup hP.vars.nodup c
    have hi : ((varsOf P.vars c).map (·.ind)).idxOf v.ind = n := by
      have := hnd.idxOf_getElem n (by simpa using hn)
      rw [List.getElem_map, he] at this
      exact this
    rw [hi, List.getElem?_eq_getElem hn, he]
  have e : broadcastIndexLong start P.sizes.nbatchdims P.sizes.shapes
      (sh.shift ((P.sizes.nbatchdims + 1) * (((varsOf P.vars c).map (·.ind)).idxOf v.ind))) = P.rowOff r v := by
    unfold RProblem.rowOff
    rw [hstart v hm]
    exact broadcastIndexLong_congr (hsh _ v hget)
  rw [view_apply hP.vars hnb hv]
  unfold vectBroadcastIndex broadcastIndex
  rw [e, toInt32_of_lt (hP.int32 hnb r hr v hv)]
  congr 1
  have : (row : Int) + (add + (P.rowOff r v : Int)) = ((P.rowOff r v + row' : Nat) : Int) := by
    push_cast; rw [← hrow]; ring
  rw [this]
  have h2 : ((P.rowOff r v + row' : Nat) : Int) * (v.dim : Int) + (q : Int) =
      ((P.rowOff r v * v.dim + (row' * v.dim + q) : Nat) : Int) := by
    push_cast; ring
  rw [h2, Int.toNat_natCast]

/-! ## One interval -/

/-- The block loads the rows of `K'`. -/
structure SameLoads (K : ChunkBlock V) (K' : ChunkCall V) (i startY : Nat) : Prop where
  C : K'.C = K.C
  M : K'.M = K.M
  junk : K'.junk = K.junk
  B : K'.B = K.B
  wj : ∀ j, K.wholeJ startY (startY + j) = loadVars K.C.j.whole K'.args j
  ci : ∀ d chunk, K.chunkI d chunk = loadChunks (K.C.i.chunked.map (·.ind)) d K.C.dimOrg K'.args chunk i
  cj : ∀ d chunk j, K.chunkJ d chunk startY (startY + j) =
    loadChunks (K.C.j.chunked.map (·.ind)) d K.C.dimOrg K'.args chunk j
  cp : ∀ d chunk, K.chunkP d chunk = loadChunks (K.C.p.chunked.map (·.ind)) d K.C.dimOrg K'.args chunk 0

theorem chunkRSub_eq {K : ChunkBlock V} {K' : ChunkCall V} {i startY endY : Nat} (h : SameLoads K K' i startY)
    (hny : K'.ny = endY - startY) (f : Expr) (d tile : Nat) (ts : List Nat) (chunk : Nat) (m : ChunkMem V) :
    chunkRSub enc dec K f d startY endY (startY + tile * K.B) ts chunk m =
      chunkSub enc dec K' f d i tile (tile * K.B) ts chunk m := by
  have hmin : min K.B (endY - (startY + tile * K.B)) = min K.B (endY - startY - tile * K.B) := by omega
  unfold chunkRSub chunkSub chunkLoadTile
  simp only [h.C, h.M, h.junk, h.B, hny, h.ci, h.cp, hmin]
  have hy : ts.foldl (fun yj t => if startY + tile * K.B + t < endY then
      onSlice (t * K.C.dimy + sumDims K.C.j.whole) (K.chunkJ d chunk startY (startY + tile * K.B + t)) yj else yj) m.yj =
      ts.foldl (fun yj t => if tile * K.B + t < endY - startY then
        onSlice (t * K.C.dimy + sumDims K.C.j.whole) (loadChunks (K.C.j.chunked.map (·.ind)) d K.C.dimOrg K'.args chunk
          (tile * K.B + t)) yj else yj) m.yj := by
    refine foldl_congr_mem _ _ fun yj t _ => ?_
    rw [Nat.add_assoc, h.cj]
    by_cases hlt : tile * K.B + t < endY - startY
    · rw [if_pos hlt, if_pos (by omega)]
    · rw [if_neg hlt, if_neg (by omega)]
  rw [hy]

theorem chunkRTile_eq {K : ChunkBlock V} {K' : ChunkCall V} {i startY endY : Nat} (h : SameLoads K K' i startY)
    (hny : K'.ny = endY - startY) (S : Scheme V) (ord : Nat → List Nat) (tile : Nat) (m : ChunkMem V) :
    chunkRTile enc dec S K ord startY endY (startY + tile * K.B) tile m =
      chunkTile enc dec S K' ord i (tile * K.B) tile m := by
  have hmin : min K.B (endY - (startY + tile * K.B)) = min K.B (endY - startY - tile * K.B) := by omega
  unfold chunkRTile chunkTile
  simp only [chunkRSub_eq h hny, h.C, h.M, h.junk, h.B, hny, hmin]
  have hy : (ord 0).foldl (fun yj t => if startY + tile * K.B + t < endY then
      onSlice (t * K.C.dimy) (K.wholeJ startY (startY + tile * K.B + t)) yj else yj) m.yj =
      (ord 0).foldl (fun yj t => if tile * K.B + t < endY - startY then
        onSlice (t * K.C.dimy) (loadVars K.C.j.whole K'.args (tile * K.B + t)) yj else yj) m.yj := by
    refine foldl_congr_mem _ _ fun yj t _ => ?_
    rw [Nat.add_assoc, h.wj]
    by_cases hlt : tile * K.B + t < endY - startY
    · rw [if_pos hlt, if_pos (by omega)]
    · rw [if_neg hlt, if_neg (by omega)]
  rw [hy]

theorem chunkRTiles_abs {e c : Expr} {tagI : Nat} {K : ChunkBlock V} {K' : ChunkCall V} {i startY endY : Nat}
    {env : Nat → Env} (H : ChunkHyp enc dec e c tagI K' i env) (h : SameLoads K K' i startY)
    (hny : K'.ny = endY - startY) (S : Scheme V) {ord : Nat → Nat → List Nat}
    (hord : ∀ tile ph, (ord tile ph).Nodup ∧ ∀ t < K.B, t ∈ ord tile ph) :
    ∀ fuel tile (m : ChunkMem V), BufW K.C.i K'.args i m.xi → BufW K.C.p K'.args 0 m.pp →
      BufW K.C.i K'.args i (chunkRTiles enc dec S K ord startY endY fuel (startY + tile * K.B) tile m).xi ∧
      BufW K.C.p K'.args 0 (chunkRTiles enc dec S K ord startY endY fuel (startY + tile * K.B) tile m).pp ∧
      (chunkRTiles enc dec S K ord startY endY fuel (startY + tile * K.B) tile m).s =
        absTiles S (chunkF enc e env) K.B (endY - startY) fuel (tile * K.B) tile m.s := by
  intro fuel
  induction fuel with
  | zero => intro tile m h1 h2; exact ⟨h1, h2, rfl⟩
  | succ fuel ih =>
    intro tile m h1 h2
    unfold chunkRTiles absTiles
    by_cases hlt : tile * K.B < endY - startY
    · rw [if_pos hlt, if_pos (by omega)]
      rw [← h.C] at h1 h2
      obtain ⟨a, b, d⟩ := chunkTile_spec H S (tile := tile) (by rw [h.B]) (ord := ord tile)
        (by rw [h.B]; exact hord tile) h1 h2
      rw [h.C] at a b
      rw [chunkRTile_eq h hny, show startY + tile * K.B + K.B = startY + (tile + 1) * K.B by rw [Nat.succ_mul]; omega,
        show tile * K.B + K.B = (tile + 1) * K.B by rw [Nat.succ_mul]]
      have := ih (tile + 1) _ a b
      rw [d, h.B, hny] at this
      exact this
    · rw [if_neg hlt, if_neg (by omega)]
      exact ⟨h1, h2, rfl⟩

theorem gpuRTiles_abs (S : Scheme V) (ld : Nat → Mem V → Mem V) (Fs : Mem V → Mem V) (F : Nat → Mem V) (dimy : Nat)
    {B startY endY base : Nat} (hbase : base = 0 ∨ ∀ s x j j', S.accum s x j = S.accum s x j')
    (hld : ∀ j, RowLocal dimy (ld j))
    (hF : ∀ j, startY + j < endY → ∀ y, (∀ o, ∀ p < dimy, y p = ld (startY + j) o p) → Fs y = F j)
    (ord : Nat → List Nat) (hord : ∀ tile, (ord tile).Nodup ∧ ∀ t < B, t ∈ ord tile) :
    ∀ fuel tile yj s,
      (gpuRTiles S ld Fs dimy B endY base ord fuel (startY + tile * B) tile yj s).2 =
        absTiles S F B (endY - startY) fuel (tile * B) tile s := by
  intro fuel
  induction fuel with
  | zero => intro _ _ _; rfl
  | succ fuel ih =>
    intro tile yj s
    unfold gpuRTiles absTiles
    by_cases hlt : tile * B < endY - startY
    · rw [if_pos hlt, if_pos (by omega)]
      dsimp only
      rw [show startY + tile * B + B = startY + (tile + 1) * B by rw [Nat.succ_mul]; omega,
        show tile * B + B = (tile + 1) * B by rw [Nat.succ_mul], ih,
        show endY - (startY + tile * B) = endY - startY - tile * B by omega]
      congr 2
      refine forRange_congr fun jrel s hjr => ?_
      have hjr' : jrel < B ∧ jrel < endY - startY - tile * B := by omega
      rw [hF (tile * B + jrel) (by omega) _ (fun o p hp => by
        rw [← Nat.add_assoc]
        exact gpuRLoadTile_spec ld dimy endY _ hld (ord tile) (hord tile).1 yj o ((hord tile).2 jrel hjr'.1)
          (by omega) hp)]
      rcases hbase with rfl | hb
      · rfl
      · exact hb _ _ _ _
    · rw [if_neg hlt, if_neg (by omega)]

/-! ## A thread -/

theorem forStride_rel {α β : Type} {Q : Nat → α → β → Prop} (a i n : Nat) (b : Nat → α → α) (b' : Nat → β → β) (s : α)
    (s' : β) (h0 : Q 0 s s') (hstep : ∀ t s s', t < n → Q t s s' → Q (t + 1) (b (a + t * i) s) (b' (a + t * i) s')) :
    Q n (forStride a i n b s) (forStride a i n b' s') := by
  have : ∀ m, m ≤ n → Q m (forStride a i m b s) (forStride a i m b' s') := by
    intro m
    induction m with
    | zero => intro _; simpa using h0
    | succ m ih => intro hm; rw [forStride_succ, forStride_succ]; exact hstep m _ _ (by omega) (ih (by omega))
  exact this n le_rfl

section

variable {e c : Expr} {C : ChunkConsts} {M : CMath} {cjunk : Expr → Nat → ℝ} {P : RProblem V} {B r startX t : Nat}

theorem offs_none (h : P.sizes.nbatchdims = 0) (sh : Mem Nat) (i : Nat) (add : Int) : P.offs sh i add = none := by
  unfold RProblem.offs; rw [if_neg (by omega)]

theorem offs_some (h : P.sizes.nbatchdims ≠ 0) (sh : Mem Nat) (i : Nat) (add : Int) :
    P.offs sh i add = some (vectBroadcastIndex i P.sizes.nbatchdims P.sizes.shapes sh add) := by
  unfold RProblem.offs; rw [if_pos (by omega)]

/-- The row of the block `(r, startX)` for its thread `t`. -/
theorem row_add (hb : BatchLike P) (hnb : P.sizes.nbatchdims ≠ 0) (hr : r < P.ax.nranges)
    (hst : P.ax.rangesX (2 * r) ≤ startX) :
    (t : Int) + ((startX : Int) - (r * P.rowsX : Nat)) = (P.locI r (startX + t) : Nat) := by
  have hX := hb.startX hnb r hr
  unfold RProblem.locI
  rw [if_neg hnb]
  rw [hX] at hst ⊢
  push_cast [Nat.cast_sub (show r * P.rowsX ≤ startX + t by omega)]
  ring

theorem view_zero (hnb : P.sizes.nbatchdims = 0) (r : Nat) : P.view r = P.args := by
  unfold RProblem.view; rw [if_pos hnb]

theorem wholeI_eq (hP : WfRProblem P) (hb : BatchLike P) (hr : r < P.ax.nranges) (hin : ChunkIn e P.tagI C)
    (hv : P.vars = e.inputs) (hst : P.ax.rangesX (2 * r) ≤ startX) :
    (⟨C, M, cjunk, P, B, P.blockOffs r startX, startX, t⟩ : ChunkBlock V).wholeI =
      loadVars C.i.whole (P.view r) (P.locI r (startX + t)) := by
  have ht := hP.tag
  unfold ChunkBlock.wholeI RProblem.blockOffs
  dsimp only
  by_cases hnb : P.sizes.nbatchdims = 0
  · rw [offs_none hnb, view_zero hnb, RProblem.locI, if_pos hnb]
  · rw [offs_some hnb]
    refine loadVarsRef_eq fun v hv' w => ?_
    obtain ⟨h1, h2⟩ := hin.wi v hv'
    rw [← hv] at h1
    exact offs_at hP hnb hr (fun n v hv l hl => shapesI_line ht hv hl)
      (fun v hv => by rw [start_cat ht hv, if_neg (by omega), if_pos rfl]; rfl) (row_add hb hnb hr hst) h1 h2 w

theorem wholeP_eq (hP : WfRProblem P) (hr : r < P.ax.nranges) (hin : ChunkIn e P.tagI C)
    (hv : P.vars = e.inputs) (hnd : (C.p.whole.map (·.ind)).Nodup)
    (hpar : P.sizes.nbatchdims = 0 ∨ C.p.whole = [] ∨
      ∀ u ∈ P.vars, ∀ v ∈ P.vars, u.cat = 2 → v.cat = 2 → P.rowOff r u = P.rowOff r v) :
    (⟨C, M, cjunk, P, B, P.blockOffs r startX, startX, t⟩ : ChunkBlock V).wholeP = loadVars C.p.whole (P.view r) 0 := by
  unfold ChunkBlock.wholeP RProblem.blockOffs loadVarsOpt
  dsimp only
  by_cases hnb : P.sizes.nbatchdims = 0
  · rw [offs_none hnb, view_zero hnb]
  · rw [offs_some hnb]
    rcases hpar with h | h | h
    · exact absurd h hnb
    · rw [h]; rfl
    · funext x
      refine loadVarsOff_eq x fun n v hn w _ => ?_
      have hvm : v ∈ C.p.whole := List.mem_of_getElem? hn
      obtain ⟨h1, h2⟩ := hin.wp v hvm
      rw [← hv] at h1
      have hlen : C.p.whole.length ≤ (varsOf P.vars 2).length := by
        have hsub : C.p.whole ⊆ varsOf P.vars 2 := fun u hu => by
          obtain ⟨h1, h2⟩ := hin.wp u hu
          exact List.mem_filter.mpr ⟨hv ▸ h1, decide_eq_true h2⟩
        exact (List.Nodup.subperm (List.Nodup.of_map _ hnd) hsub).length_le
      have hnlt : n < C.p.whole.length := (List.getElem?_eq_some_iff.mp hn).1
      obtain ⟨u, hu⟩ : ∃ u, (varsOf P.vars 2)[n]? = some u := ⟨_, List.getElem?_eq_getElem (by omega)⟩
      have hum := List.mem_filter.mp (List.mem_of_getElem? hu)
      have huc : u.cat = 2 := of_decide_eq_true hum.2
      have e : broadcastIndexLong r P.sizes.nbatchdims P.sizes.shapes
          (P.shapesP.shift ((P.sizes.nbatchdims + 1) * n)) = P.rowOff r v := by
        rw [← h u hum.1 v h1 huc h2]
        unfold RProblem.rowOff
        rw [if_pos huc]
        exact broadcastIndexLong_congr fun l hl => shapesP_line hu hl
      rw [view_apply hP.vars hnb h1]
      unfold vectBroadcastIndex broadcastIndex
      rw [e, toInt32_of_lt (hP.int32 hnb r hr v h1)]
      congr 1
      have h2 : (((0 : Nat) : Int) + (0 + (P.rowOff r v : Int))) * (v.dim : Int) + (w : Int) =
          ((P.rowOff r v * v.dim + (0 * v.dim + w) : Nat) : Int) := by
        push_cast; ring
      rw [h2, Int.toNat_natCast]

theorem sameLoads (hP : WfRProblem P) (hb : BatchLike P) (hr : r < P.ax.nranges) (hin : ChunkIn e P.tagI C)
    (hv : P.vars = e.inputs) (hst : P.ax.rangesX (2 * r) ≤ startX) (startY ny : Nat) :
    SameLoads (⟨C, M, cjunk, P, B, P.blockOffs r startX, startX, t⟩ : ChunkBlock V)
      ⟨C, M, cjunk, P.seen r startY, B, ny⟩ (P.locI r (startX + t)) startY := by
  have ht := hP.tag
  have hor : ∀ D chunk w row : Nat, row * D + chunk * dimchunk + w = row * D + (chunk * dimchunk + w) :=
    fun _ _ _ _ => Nat.add_assoc _ _ _
  have hoi : ∀ (x : Int) (D chunk w : Nat), x * (D : Int) + (chunk : Int) * (dimchunk : Int) + (w : Int) =
      x * (D : Int) + ((chunk * dimchunk + w : Nat) : Int) := fun x D chunk w => by push_cast; ring
  refine ⟨rfl, rfl, rfl, rfl, fun j => ?_, fun d chunk => ?_, fun d chunk j => ?_, fun d chunk => ?_⟩
  · unfold ChunkBlock.wholeJ RProblem.blockOffs
    dsimp only
    by_cases hnb : P.sizes.nbatchdims = 0
    · rw [offs_none hnb]
      refine loadVars_congr fun v hv' w => ?_
      obtain ⟨h1, h2⟩ := hin.wj v hv'
      rw [← hv] at h1
      rw [seen_j hP.vars h1 h2, view_zero hnb, RProblem.rowJ, if_pos hnb]
    · rw [offs_some hnb]
      refine loadVarsRef_eq fun v hv' w => ?_
      obtain ⟨h1, h2⟩ := hin.wj v hv'
      rw [← hv] at h1
      rw [seen_j hP.vars h1 h2, RProblem.rowJ, if_neg hnb]
      exact offs_at hP hnb hr (fun n v hv l hl => shapesJ_line ht hv hl)
        (fun v hv => by rw [start_cat ht hv, if_neg (by omega), if_neg (by omega)]; rfl) (by simp) h1 h2 w
  · unfold ChunkBlock.chunkI RProblem.blockOffs
    dsimp only
    by_cases hnb : P.sizes.nbatchdims = 0
    · rw [offs_none hnb]
      refine loadChunks_congr fun v hv' w => ?_
      have h1 := hin.ci v hv'
      rw [← hv] at h1
      have := seen_other hP.vars (r := r) (startY := startY) h1 (by dsimp only; omega)
      dsimp only at this
      rw [this, view_zero hnb, RProblem.locI, if_pos hnb]
    · rw [offs_some hnb]
      refine loadChunksOff_eq fun v hv' w => ?_
      have h1 := hin.ci v hv'
      rw [← hv] at h1
      have := seen_other hP.vars (r := r) (startY := startY) h1 (by dsimp only; omega)
      dsimp only at this
      rw [this, hor, hoi]
      exact offs_at hP hnb hr (fun n v hv l hl => shapesI_line ht hv hl)
        (fun v hv => by rw [start_cat ht hv, if_neg (by omega), if_pos rfl]; rfl) (row_add hb hnb hr hst) h1 rfl _
  · unfold ChunkBlock.chunkJ RProblem.blockOffs
    dsimp only
    by_cases hnb : P.sizes.nbatchdims = 0
    · rw [offs_none hnb]
      refine loadChunks_congr fun v hv' w => ?_
      have h1 := hin.cj v hv'
      rw [← hv] at h1
      have := seen_j hP.vars (r := r) (startY := startY) h1 rfl j (chunk * dimchunk + w)
      dsimp only at this
      rw [hor, hor, this, view_zero hnb, RProblem.rowJ, if_pos hnb]
    · rw [offs_some hnb]
      refine loadChunksOff_eq fun v hv' w => ?_
      have h1 := hin.cj v hv'
      rw [← hv] at h1
      have := seen_j hP.vars (r := r) (startY := startY) h1 rfl j (chunk * dimchunk + w)
      dsimp only at this
      rw [hor, hoi, this, RProblem.rowJ, if_neg hnb]
      exact offs_at hP hnb hr (fun n v hv l hl => shapesJ_line ht hv hl)
        (fun v hv => by rw [start_cat ht hv, if_neg (by omega), if_neg (by omega)]; rfl) (by simp) h1 rfl _
  · unfold ChunkBlock.chunkP RProblem.blockOffs
    dsimp only
    by_cases hnb : P.sizes.nbatchdims = 0
    · rw [offs_none hnb]
      refine loadChunks_congr fun v hv' w => ?_
      have h1 := hin.cp v hv'
      rw [← hv] at h1
      have := seen_other hP.vars (r := r) (startY := startY) h1 (by dsimp only; omega)
      dsimp only at this
      rw [this, view_zero hnb]
    · rw [offs_some hnb]
      refine loadChunksOff_eq fun v hv' w => ?_
      have h1 := hin.cp v hv'
      rw [← hv] at h1
      have := seen_other hP.vars (r := r) (startY := startY) h1 (by dsimp only; omega)
      dsimp only at this
      rw [this, hor, hoi]
      exact offs_at hP hnb hr (fun n v hv l hl => shapesP_line hv hl)
        (fun v hv => by rw [start_cat ht hv, if_pos rfl]) (by simp) h1 rfl _

theorem bufW_congr {G : ChunkVars} {args args' : Nat → Mem V} {row : Nat} {x : Mem V}
    (h : ∀ v ∈ G.whole, ∀ p, args v.ind p = args' v.ind p) (hx : BufW G args row x) : BufW G args' row x := by
  intro pre v post hs w hw
  rw [← h v (by rw [hs]; simp)]
  exact hx pre v post hs w hw

/-- The reading hypothesis on an interval. -/
theorem envReads_seen (hP : WfRProblem P) (hin : e.InputVars) (hv : P.vars = e.inputs) {startY i j : Nat} {env : Env}
    (h : EnvReads dec e P.tagI (P.view r) i (P.rowJ startY j) env) :
    EnvReads dec e P.tagI (P.seen r startY) i j env := by
  intro v hv' k hk
  have ht := hP.tag
  have hc := hin.cat v hv'
  have hm : (⟨v.1.toNat, v.2.1, v.2.2.toNat⟩ : VarInfo) ∈ P.vars := by
    rw [hv]; exact Expr.mem_inputs.mpr ⟨v, hv', hc, rfl⟩
  rw [h v hv' k hk]
  congr 1
  by_cases hcat : v.2.2.toNat = 1 - P.tagI
  · have := seen_j hP.vars (r := r) (startY := startY) hm hcat j k
    dsimp only at this
    have e1 : ∀ j', row P.tagI i j' v.2.2.toNat = j' := fun j' => by
      unfold row; rw [if_neg (by omega), if_neg (by omega)]
    rw [e1, e1]
    exact this.symm
  · have := seen_other hP.vars (r := r) (startY := startY) hm hcat
    dsimp only at this
    rw [this]
    congr 2
    unfold row
    split
    · rfl
    · rw [if_pos (by omega), if_pos (by omega)]

/-- The simple kernel, in terms of the arrays seen by the range. -/
theorem gpuRangesThread_view {R : Red V} {S : Scheme V} (hP : WfRProblem P) (hb : BatchLike P) (hr : r < P.ax.nranges)
    (hst : P.ax.rangesX (2 * r) ≤ startX) (endX : Nat) (ord : Nat → Nat → List Nat) (junk : Nat → Mem V) (o : Mem V) :
    gpuRangesThread R S P B (r, startX, endX) t ord junk o =
      R.fin (gpuRSlices S (fun startY j => loadVars P.varsJ (P.view r) (P.locJ startY j))
        (fun yjrel => P.ev (table P.vars P.tagI (loadVars P.varsI (P.view r) (P.locI r (startX + t)) (junk 0)) yjrel
          (loadVars P.varsP (P.view r) 0 (junk 2))))
        (sumDims P.varsJ) B P.sizes.nbatchdims P.ax.rangesY (P.ax.startSlice r) (P.ax.endSlice r) ord
        (P.ax.rangesY (2 * P.ax.startSlice r), (junk 1, (R.init (junk 3), S.firstInit (junk 4))))).2.2.1 o := by
  have ht := hP.tag
  unfold gpuRangesThread
  by_cases hnb : P.sizes.nbatchdims = 0
  · simp only [offs_none hnb, view_zero hnb, loadVarsOpt, RProblem.locI, RProblem.locJ, if_pos hnb]
  · have hI : ∀ x, loadVarsOff P.varsI P.args t (vectBroadcastIndex (r * P.rowsX) P.sizes.nbatchdims P.sizes.shapes
        P.shapesI ((startX : Int) - (r * P.rowsX : Nat))) x =
        loadVars P.varsI (P.view r) (P.locI r (startX + t)) x := fun x =>
      offs_load hP hnb hr x (fun n v hv l hl => shapesI_line ht hv hl)
        (fun v hv => by rw [start_cat ht hv, if_neg (by omega), if_pos rfl]) (row_add hb hnb hr hst)
    have hPP : ∀ x, loadVarsOff P.varsP P.args 0 (vectBroadcastIndex r P.sizes.nbatchdims P.sizes.shapes
        P.shapesP 0) x = loadVars P.varsP (P.view r) 0 x := fun x =>
      offs_load hP hnb hr x (fun n v hv l hl => shapesP_line hv hl)
        (fun v hv => by rw [start_cat ht hv, if_pos rfl]) (by simp)
    have hJ : ∀ startY j, loadVarsOff P.varsJ P.args (j - startY) (vectBroadcastIndex (r * P.rowsY)
        P.sizes.nbatchdims P.sizes.shapes P.shapesJ 0) = loadVars P.varsJ (P.view r) (P.locJ startY j) := by
      intro startY j
      funext x
      rw [RProblem.locJ, if_neg hnb]
      exact offs_load hP hnb hr x (fun n v hv l hl => shapesJ_line ht hv hl)
        (fun v hv => by rw [start_cat ht hv, if_neg (by omega), if_neg (by omega)]) (by simp)
    have hXr : (if P.tagI = 0 then P.sizes.M else P.sizes.N) = P.rowsX := rfl
    have hYr : (if P.tagI = 0 then P.sizes.N else P.sizes.M) = P.rowsY := rfl
    simp only [offs_some hnb, loadVarsOpt, hXr, hYr, hI, hPP, hJ]

/-- A thread of the chunked kernel computes what the same thread of the simple kernel computes, except that the index
given to the reduction is counted from the beginning of the interval. -/
theorem chunkRThread_view {R : Red V} {S : Scheme V} {m n : Nat} {args : Nat → Mem V} {env : Nat → Env}
    (hM : M.Exact) (hdec : ∀ x, dec (enc x) = x) (hsums : e.sums = [c]) (hf : e.FactFree) (hw : e.WF)
    (hin : e.InputVars) (hsafe : e.ChunkSafe) (hgood : ChunkGood e c P.tagI C) (hcin : ChunkIn e P.tagI C)
    (hP : WfRProblem P) (hb : BatchLike P) (hr : r < P.ax.nranges)
    (hev : P.ev = (e.call enc dec M cjunk P.tagI m n args).ev) (hv : P.vars = e.inputs)
    (hst : P.ax.rangesX (2 * r) ≤ startX)
    (hpar : P.sizes.nbatchdims = 0 ∨ C.p.whole = [] ∨
      ∀ u ∈ P.vars, ∀ v ∈ P.vars, u.cat = 2 → v.cat = 2 → P.rowOff r u = P.rowOff r v)
    {ny : Nat} (hny : ∀ sl, P.ax.startSlice r ≤ sl → sl < P.ax.endSlice r →
      P.ax.rangesY (2 * sl + 1) - (if P.sizes.nbatchdims = 0 then 0 else P.ax.rangesY (2 * sl)) ≤ ny)
    (henv : ∀ j < ny, e.Def (env j) ∧ EnvReads dec e P.tagI (P.view r) (P.locI r (startX + t)) j (env j))
    {ord : Nat → Nat → Nat → List Nat} (hord : ∀ index tile ph, (ord index tile ph).Nodup ∧ ∀ t < B, t ∈ ord index tile ph)
    (junk : Nat → Mem V) (endX : Nat) (o : Mem V) :
    chunkRThread enc dec R S C M cjunk P B (r, startX, endX) t ord junk o =
      R.fin (gpuRSlices S (fun startY j => loadVars P.varsJ (P.view r) (P.locJ startY j))
        (fun yjrel => P.ev (table P.vars P.tagI (loadVars P.varsI (P.view r) (P.locI r (startX + t)) (junk 0)) yjrel
          (loadVars P.varsP (P.view r) 0 (junk 1))))
        (sumDims P.varsJ) B 1 P.ax.rangesY (P.ax.startSlice r) (P.ax.endSlice r) (fun index tile => ord index tile 0)
        (P.ax.rangesY (2 * P.ax.startSlice r), (junk 0, (R.init (junk 2), S.firstInit (junk 3))))).2.2.1 o := by
  have ht := hP.tag
  have hndp : (C.p.whole.map (·.ind)).Nodup := by
    refine hgood.nodup.sublist (List.Sublist.map _ ?_)
    exact (List.sublist_append_left _ _).trans (List.sublist_append_right _ _)
  unfold chunkRThread
  dsimp only
  rw [wholeI_eq hP hb hr hcin hv hst, wholeP_eq hP hr hcin hv hndp hpar]
  congr 1
  unfold chunkRSlices gpuRSlices
  refine congrArg Prod.fst (forStride_rel (Q := fun k (a : Nat × ChunkMem V) (b : Nat × (Mem V × (Mem V × Mem V))) =>
    a.1 = b.1 ∧ a.2.s = b.2.2 ∧ BufW C.i (P.view r) (P.locI r (startX + t)) a.2.xi ∧ BufW C.p (P.view r) 0 a.2.pp ∧
      (k = 0 → a.1 = P.ax.rangesY (2 * P.ax.startSlice r))) _ _ _ _ _ _ _
    ⟨rfl, rfl, buf_whole_load, buf_whole_load, fun _ => rfl⟩ ?_).2.1
  rintro k ⟨sy, mm⟩ ⟨sy', yj, s⟩ hk ⟨h1, h2, h3, h4, h5⟩
  dsimp only at h1 h2 h3 h4 h5
  subst h1
  rw [Nat.mul_one]
  dsimp only
  split
  · next hcond =>
    set endY := P.ax.rangesY (2 * (P.ax.startSlice r + k) + 1) with hendY
    have hbound : ∀ j, j < endY - sy → P.rowJ sy j < ny := by
      intro j hj
      have hn := hny (P.ax.startSlice r + k) (by omega) (by omega)
      unfold RProblem.rowJ
      by_cases hnb : P.sizes.nbatchdims = 0
      · rw [if_pos hnb] at hn ⊢; omega
      · rw [if_neg hnb] at hn ⊢
        obtain ⟨e1, e2⟩ := hb.slice hnb r hr
        have hk0 : k = 0 := by omega
        have := h5 hk0
        rw [hk0] at hn hendY
        simp only [Nat.add_zero] at hn hendY
        rw [hendY] at hj
        omega
    have H : ChunkHyp enc dec e c P.tagI ⟨C, M, cjunk, P.seen r sy, B, endY - sy⟩ (P.locI r (startX + t))
        (fun j => env (P.rowJ sy j)) := ⟨hM, hdec, hsums, hf, hw, hin, hsafe, hgood,
      fun j hj => (henv _ (hbound j hj)).1, fun j hj => envReads_seen hP hin hv (henv _ (hbound j hj)).2⟩
    have hci : ∀ v ∈ C.i.whole, ∀ p, P.seen r sy v.ind p = P.view r v.ind p := fun v hv' p => by
      obtain ⟨a, b⟩ := hcin.wi v hv'
      exact seen_other hP.vars (hv ▸ a) (by omega) p
    have hcp : ∀ v ∈ C.p.whole, ∀ p, P.seen r sy v.ind p = P.view r v.ind p := fun v hv' p => by
      obtain ⟨a, b⟩ := hcin.wp v hv'
      exact seen_other hP.vars (hv ▸ a) (by omega) p
    have A1 := chunkRTiles_abs H (sameLoads (M := M) (cjunk := cjunk) (B := B) (t := t) hP hb hr hcin hv hst sy
      (endY - sy)) rfl S (hord (P.ax.startSlice r + k)) (endY - sy) 0 mm
      (bufW_congr (fun v hv' p => (hci v hv' p).symm) h3) (bufW_congr (fun v hv' p => (hcp v hv' p).symm) h4)
    simp only [Nat.zero_mul, Nat.add_zero] at A1
    obtain ⟨a1, a2, a3⟩ := A1
    have A2 := gpuRTiles_abs S (fun j => loadVars P.varsJ (P.view r) (P.locJ sy j))
      (fun yjrel => P.ev (table P.vars P.tagI (loadVars P.varsI (P.view r) (P.locI r (startX + t)) (junk 0)) yjrel
        (loadVars P.varsP (P.view r) 0 (junk 1))))
      (chunkF enc e fun j => env (P.rowJ sy j)) (sumDims P.varsJ) (B := B) (startY := sy) (endY := endY)
      (base := 0) (Or.inl rfl)
      (fun j => loadVars_rowLocal _ _ _)
      (fun j hj y hy => by
        have hj' := henv _ (hbound j (by omega))
        have hloc : P.locJ sy (sy + j) = P.rowJ sy j := by
          unfold RProblem.locJ RProblem.rowJ
          rw [Nat.add_sub_cancel_left]
        simp only [hloc] at hy
        rw [hev, hv]
        have := call_chunkF (enc := enc) (junk := cjunk) (m := m) (n := n) hM hf hw hin ht hj'.1 hj'.2
          (table_spec (hv ▸ hP.vars) ht (P.view r) (P.locI r (startX + t)) (P.rowJ sy j)
            (loadVars P.varsI (P.view r) (P.locI r (startX + t)) (junk 0)) y
            (loadVars P.varsP (P.view r) 0 (junk 1))
            (by rw [← hv]; exact holds_of_eq_loadVars fun _ _ => rfl)
            (by rw [← hv]; exact holds_of_eq_loadVars (hy o))
            (by rw [← hv]; exact holds_of_eq_loadVars fun _ _ => rfl))
        exact this)
      (fun tile => ord (P.ax.startSlice r + k) tile 0) (fun tile => hord _ tile 0) (endY - sy) 0 yj s
    simp only [Nat.zero_mul, Nat.add_zero] at A2
    refine ⟨rfl, ?_, bufW_congr hci a1, bufW_congr hcp a2, fun h => absurd h (by omega)⟩
    dsimp only
    rw [if_neg (show ¬ (1 : Nat) = 0 by omega), a3, A2, h2]
  · exact ⟨rfl, h2, h3, h4, fun h => absurd h (by omega)⟩

theorem gpuRSlices_one {S : Scheme V} (hidx : ∀ s x j j', S.accum s x j = S.accum s x j')
    (ld : Nat → Nat → Mem V → Mem V) (Fs : Mem V → Mem V) (dimy B nb : Nat) (rangesY : Mem Nat) (s0 s1 : Nat)
    (ord : Nat → Nat → List Nat) (st : Nat × (Mem V × (Mem V × Mem V))) :
    gpuRSlices S ld Fs dimy B nb rangesY s0 s1 ord st = gpuRSlices S ld Fs dimy B 1 rangesY s0 s1 ord st := by
  have key : ∀ ld base base' endY ord fuel jstart tile yj s,
      gpuRTiles S ld Fs dimy B endY base ord fuel jstart tile yj s =
        gpuRTiles S ld Fs dimy B endY base' ord fuel jstart tile yj s := by
    intro ld base base' endY ord fuel
    induction fuel with
    | zero => intro _ _ _ _; rfl
    | succ fuel ih =>
      intro jstart tile yj s
      unfold gpuRTiles
      split
      · dsimp only
        rw [ih]
        congr 2
        exact forRange_congr fun jrel s _ => hidx _ _ _ _
      · rfl
  unfold gpuRSlices
  congr 1
  funext index st
  split
  · dsimp only
    rw [key (ld st.1) _ (if 1 = 0 then st.1 else 0)]
  · rfl

/-- The chunked kernel with ranges gives what the simple kernel gives. -/
theorem chunksR_exec {R : Red V} {S : Scheme V} {setList : List (Int × Nat × Int) → List (Int × Nat × Int)}
    {m n : Nat} {args : Nat → Mem V} {out out' : Mem V} {env : Nat → Nat → Nat → Env} {ny : Nat → Nat}
    (hset : ∀ l, (setList l).Perm l.dedup) (hM : M.Exact)
    (hdec : ∀ x, dec (enc x) = x) (hmode : chunkMode e = true) (hf : e.FactFree) (hw : e.WF) (hin : e.InputVars)
    (hsafe : e.ChunkSafe) (hP : WfRProblem P) (hb : BatchLike P)
    (hev : P.ev = (e.call enc dec M cjunk P.tagI m n args).ev) (hv : P.vars = e.inputs)
    (hpar : P.sizes.nbatchdims = 0 ∨ (∀ v ∈ e.outerVars, v.2.2 ≠ 2) ∨ ∀ r < P.ax.nranges,
      ∀ u ∈ P.vars, ∀ v ∈ P.vars, u.cat = 2 → v.cat = 2 → P.rowOff r u = P.rowOff r v)
    (hidx : P.sizes.nbatchdims ≠ 0 ∨ ∀ s x j j', S.accum s x j = S.accum s x j')
    (hny : ∀ r < P.ax.nranges, ∀ sl, P.ax.startSlice r ≤ sl → sl < P.ax.endSlice r →
      P.ax.rangesY (2 * sl + 1) - (if P.sizes.nbatchdims = 0 then 0 else P.ax.rangesY (2 * sl)) ≤ ny r)
    (henv : ∀ r < P.ax.nranges, ∀ i, P.ax.rangesX (2 * r) ≤ i → i < P.ax.rangesX (2 * r + 1) → ∀ j < ny r,
      e.Def (env r i j) ∧ EnvReads dec e P.tagI (P.view r) (P.locI r i) j (env r i j))
    (h : ExecChunksR enc dec R S setList M cjunk e P out out') : RExec R S P out out' := by
  obtain ⟨C, hC, B, hB, ord, hord, junk, sched, hsched⟩ := h
  have ht := hP.tag
  obtain ⟨c, hsums⟩ : ∃ c, e.sums = [c] := by
    simp only [chunkMode] at hmode
    rw [Expr.chunkedFormulas_eq.1] at hmode
    rcases hs : e.sums with _ | ⟨a, _ | ⟨b, l⟩⟩
    · rw [hs] at hmode; cases hmode
    · exact ⟨a, rfl⟩
    · rw [hs] at hmode; cases hmode
  have hgood := chunkGood hset hC ht hmode hsums hf hw hin hsafe
  have hcin := chunkIn hset hC ht hsums hf hw hin
  have hord' : ∀ b index tile ph, (ord b index tile ph).Nodup ∧ ∀ t < B, t ∈ ord b index tile ph :=
    fun b index tile ph => ⟨(hord b index tile ph).nodup_iff.mpr List.nodup_range,
      fun t ht => (hord b index tile ph).mem_iff.mpr (List.mem_range.mpr ht)⟩
  have heq : gpuChunksR enc dec R S C M cjunk P B ord junk sched out =
      gpuRanges R S P B (fun b index tile => ord b index tile 0) (fun i k => junk i (k - 1)) sched out := by
    unfold gpuChunksR gpuRanges
    refine foldl_congr_mem _ _ fun o bt _ => ?_
    dsimp only
    cases hblk : (lookupTable B P.ax.nranges P.ax.rangesX)[bt.1]? with
    | none => rfl
    | some blk =>
      dsimp only
      split
      · next hi =>
        congr 1
        funext o
        obtain ⟨r, hr, t, ht', rfl⟩ := (lookupTable_mem hB _ blk).mp (List.mem_of_getElem? hblk)
        dsimp only at hi ⊢
        have hst : P.ax.rangesX (2 * r) ≤ P.ax.rangesX (2 * r) + t * B := by omega
        rw [chunkRThread_view hM hdec hsums hf hw hin hsafe hgood hcin hP hb hr hev hv hst
          (hpar.imp_right fun h => h.imp hcin.params fun h => h r hr) (hny r hr)
          (henv r hr _ (by omega) (by omega)) (hord' bt.1), gpuRangesThread_view hP hb hr hst]
        rcases hidx with h | h
        · unfold gpuRSlices
          simp only [if_neg h, if_neg (show ¬ (1 : Nat) = 0 by omega)]
        · rw [gpuRSlices_one h (nb := P.sizes.nbatchdims)]
      · rfl
  rw [heq]
  exact RExec.gpu B hB (fun b index tile => ord b index tile 0) (fun b index tile => hord b index tile 0) _ sched hsched

end

end Verif
