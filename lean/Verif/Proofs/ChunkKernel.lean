import Verif.Proofs.ChunkConsts
import Verif.Props.Reductions

/-! The chunked kernel gives the same results as the simple one. -/

namespace Verif

open Spec Finset

variable {V : Type} {enc : ℝ → V} {dec : V → ℝ}

/-! ## The loop over tiles, with given values -/

/-- The loop over tiles when the value at `j` is `F j`. -/
def absTiles (S : Scheme V) (F : Nat → Mem V) (B ny : Nat) :
    (fuel jstart tile : Nat) → Mem V × Mem V → Mem V × Mem V
  | 0, _, _, s => s
  | fuel + 1, jstart, tile, s =>
    if jstart < ny then
      absTiles S F B ny fuel (jstart + B) (tile + 1) (S.final (forRange (min B (ny - jstart))
        (fun jrel s => S.accum s (F (tile * B + jrel)) (jrel + tile * B)) (s.1, S.blockInit s.2)))
    else s

theorem gpuTiles_abs (S : Scheme V) (varsj : List VarInfo) (args : Nat → Mem V) (Fs : Mem V → Mem V) (F : Nat → Mem V)
    {B ny : Nat} (hF : ∀ j < ny, ∀ y, Holds varsj args j y → Fs y = F j) (ord : Nat → List Nat)
    (hord : ∀ tile, (ord tile).Nodup ∧ ∀ t < B, t ∈ ord tile) :
    ∀ fuel jstart tile yj s, jstart = tile * B →
      (gpuTiles S varsj args Fs B ny ord fuel jstart tile yj s).2 = absTiles S F B ny fuel jstart tile s := by
  intro fuel
  induction fuel with
  | zero => intro _ _ _ _ _; rfl
  | succ fuel ih =>
    intro jstart tile yj s hj
    unfold gpuTiles absTiles
    split
    · next hlt =>
      rw [ih _ _ _ _ (by rw [hj, Nat.succ_mul])]
      congr 1
      unfold gpuTileThread
      dsimp only
      congr 1
      refine forRange_congr fun jrel s hjr => ?_
      have hjr' : jrel < B ∧ jrel < ny - jstart := by omega
      rw [hF (tile * B + jrel) (by omega) _ (gpuLoadTile_spec varsj args B ny tile (ord tile) (hord tile).1 yj
        ((hord tile).2 jrel hjr'.1) (by omega))]
    · rfl

/-! ## Values computed from the local arrays -/

section

variable {e c : Expr} {tagI : Nat} {C : ChunkConsts} {M : CMath} {junk : Expr → Nat → ℝ} {args : Nat → Mem V}

theorem ChunkConsts.groups_inds (C : ChunkConsts) (d : Nat) (xi yj pp : Mem V) :
    ((C.groups d xi yj pp).flatMap (·.1)).map (·.ind) =
      (C.i.all dimchunk ++ C.j.all dimchunk ++ C.p.all dimchunk).map (·.ind) := by
  simp [ChunkConsts.groups, ChunkVars.all, Function.comp_def]

/-- The buffers of a group and its row. -/
theorem grp_mem (C : ChunkConsts) {d i j : Nat} {xi yj pp : Mem V} (k : Nat) :
    ∃ x, (((C.grp tagI k).all d, x) ∈ C.groups d xi yj pp) ∧
      ((C.grp tagI k = C.p ∧ x = pp ∧ row tagI i j k = 0) ∨ (C.grp tagI k = C.i ∧ x = xi ∧ row tagI i j k = i) ∨
        (C.grp tagI k = C.j ∧ x = yj ∧ row tagI i j k = j)) := by
  unfold ChunkConsts.grp row ChunkConsts.groups
  by_cases h : k = 2
  · exact ⟨pp, by simp [h], Or.inl (by simp [h])⟩
  · by_cases h' : k = tagI
    · subst h'
      exact ⟨xi, by simp [h], Or.inr (Or.inl (by simp [h]))⟩
    · exact ⟨yj, by simp [h, h'], Or.inr (Or.inr (by simp [h, h']))⟩

/-- The whole variables are in the buffers. -/
structure Whole (C : ChunkConsts) (args : Nat → Mem V) (i j : Nat) (xi yj pp : Mem V) : Prop where
  i : BufW C.i args i xi
  j : BufW C.j args j yj
  p : BufW C.p args 0 pp

/-- The components `s, …, s + d - 1` of the chunked variables are in the buffers. -/
structure Piecewise (C : ChunkConsts) (args : Nat → Mem V) (i j s d : Nat) (xi yj pp : Mem V) : Prop where
  i : BufC C.i args i C.dimOrg s d xi
  j : BufC C.j args j C.dimOrg s d yj
  p : BufC C.p args 0 C.dimOrg s d pp

/-- `env` reads the rows `i` and `j` of the arrays. -/
def EnvReads (dec : V → ℝ) (e : Expr) (tagI : Nat) (args : Nat → Mem V) (i j : Nat) (env : Env) : Prop :=
  ∀ v ∈ e.vars, ∀ k < v.2.1, env v.1 k = dec (args v.1.toNat (row tagI i j v.2.2.toNat * v.2.1 + k))

variable {n d i j s : Nat} {xi yj pp : Mem V}

theorem table_whole (hC : ChunkGood e c tagI C) (more : List (List VarInfo × Mem V))
    (hnd : (((C.groups d xi yj pp ++ more).flatMap (·.1)).map (·.ind)).Nodup)
    (hlt : ∀ v ∈ (C.groups d xi yj pp ++ more).flatMap (·.1), v.ind < n)
    (hW : Whole C args i j xi yj pp) {u : Int × Nat × Int} (hu : u ∈ e.outerVars) :
    (chunkTable dec n (C.groups d xi yj pp ++ more))[u.1.toNat]? = some (some (vec u.2.1 fun q =>
      dec (args u.1.toNat (row tagI i j u.2.2.toNat * u.2.1 + q)))) := by
  obtain ⟨x, hx, h⟩ := grp_mem C (d := d) (i := i) (j := j) (xi := xi) (yj := yj) (pp := pp) (tagI := tagI) u.2.2.toNat
  have hb : BufW (C.grp tagI u.2.2.toNat) args (row tagI i j u.2.2.toNat) x := by
    rcases h with ⟨h1, h2, h3⟩ | ⟨h1, h2, h3⟩ | ⟨h1, h2, h3⟩ <;> rw [h1, h2, h3]
    exacts [hW.p, hW.i, hW.j]
  exact chunkTable_whole dec hnd hlt (List.mem_append_left _ hx) hb (hC.whole u hu)

theorem table_chunked (hC : ChunkGood e c tagI C) (hnd : (((C.groups d xi yj pp).flatMap (·.1)).map (·.ind)).Nodup)
    (hlt : ∀ v ∈ (C.groups d xi yj pp).flatMap (·.1), v.ind < n)
    (hP : Piecewise C args i j s d xi yj pp) {u : Int × Nat × Int} (hu : u ∈ c.chunkedVars) :
    (chunkTable dec n (C.groups d xi yj pp))[u.1.toNat]? = some (some (vec d fun q =>
      dec (args u.1.toNat (row tagI i j u.2.2.toNat * C.dimOrg + s + q)))) := by
  obtain ⟨x, hx, h⟩ := grp_mem C (d := d) (i := i) (j := j) (xi := xi) (yj := yj) (pp := pp) (tagI := tagI) u.2.2.toNat
  have hb : BufC (C.grp tagI u.2.2.toNat) args (row tagI i j u.2.2.toNat) C.dimOrg s d x := by
    rcases h with ⟨h1, h2, h3⟩ | ⟨h1, h2, h3⟩ | ⟨h1, h2, h3⟩ <;> rw [h1, h2, h3]
    exacts [hP.p, hP.i, hP.j]
  exact chunkTable_chunked dec hnd hlt hx hb (hC.chunked u hu)

theorem runCode_ok (hM : M.Exact) {f : Expr} {env : Env} {tab : Table} (h1 : f.WF) (h2 : f.FactFree) (h3 : f.Def env)
    (h4 : tab.Holds env f) (k : Nat) : runCode M junk f tab k = (vec f.dim (f.val env)).getD k 0 := by
  obtain ⟨q, hq⟩ := codeOk (junk := junk) hM f env tab (newArr junk f) h1 h2.named h3 h4 (by simp [newArr])
  unfold runCode
  rw [hq]

open Classical in
/-- The values of the variables while the components `s, …` are treated. -/
noncomputable def chunkEnv (c : Expr) (s : Nat) (env : Env) : Env := fun p k =>
  if ∃ u ∈ c.chunkedVars, u.1 = p then env p (s + k) else env p k

theorem chunk_value (hM : M.Exact) (hsums : e.sums = [c]) (hf : e.FactFree) (hw : e.WF)
    (hin : e.InputVars) (hsafe : e.ChunkSafe) (hC : ChunkGood e c tagI C) {env : Env}
    (hd : e.Def env) (hr : EnvReads dec e tagI args i j env) (hd0 : 0 < d) (hs : s + d ≤ c.orgDim)
    (hW : Whole C args i j xi yj pp) (hP : Piecewise C args i j s d xi yj pp) :
    runCode M junk (c.chunkedVersion d) (chunkTable dec C.nminargs (C.groups d xi yj pp)) 0 =
      ∑ k ∈ range d, c.summand env (s + k) := by
  have hcm : c ∈ e.sums := by rw [hsums]; exact List.mem_singleton.mpr rfl
  have hcu := Expr.sums_useChunk hcm
  obtain ⟨hcw, hcd, hcv⟩ := Expr.sums_wf hcm hf hw
  obtain ⟨-, -, -, hv4⟩ := Expr.chunk_vars hcu hcw (d := dimchunk) (by decide)
  have h99 := (Expr.useChunk_dim hcu).2
  have e1 : ∀ u ∈ c.chunkedVars, ∀ k, chunkEnv c s env u.1 k = env u.1 (s + k) := fun u hu k => by
    unfold chunkEnv; rw [if_pos ⟨u, hu, rfl⟩]
  have e2 : ∀ v ∈ c.vars, v.2.1 = 1 → chunkEnv c s env v.1 = env v.1 := fun v hv h1 => by
    funext k
    unfold chunkEnv
    rw [if_neg]
    rintro ⟨u, hu, huv⟩
    have h := hv4 u hu
    have := hin.unique u (hcv u h.1) v (hcv v hv) huv
    subst this
    omega
  have K := Expr.chunk_ok hcu hcw hd0 hs (env := env) (env' := chunkEnv c s env)
    (fun v hv h1 k _ => e1 v (Expr.node_vars hcu hcw hv h1) k) e2
  have hnd : ((((C.groups d xi yj pp)).flatMap (·.1)).map (·.ind)).Nodup := by
    rw [C.groups_inds]; exact hC.nodup
  have hlt : ∀ v ∈ (C.groups d xi yj pp).flatMap (·.1), v.ind < C.nminargs := by
    intro v hv
    have : v.ind ∈ (C.i.all dimchunk ++ C.j.all dimchunk ++ C.p.all dimchunk).map (·.ind) := by
      rw [← C.groups_inds d xi yj pp]; exact List.mem_map_of_mem hv
    obtain ⟨v', hv', he⟩ := List.mem_map.mp this
    rw [hC.nmin, ← he]
    exact hC.lt v' hv'
  have hold : (chunkTable dec C.nminargs (C.groups d xi yj pp)).Holds (chunkEnv c s env) (c.chunkedVersion d) := by
    intro v hv
    rcases K.vars v (Expr.free_vars hv) with ⟨hvd, D, hD⟩ | ⟨hv, h1⟩
    · have hu := hv4 _ hD
      have hpos := hin.pos _ (hcv _ hu.1)
      refine ⟨hpos, ?_⟩
      have := table_chunked (dec := dec) (n := C.nminargs) hC hnd hlt hP hD
      simp only at this
      rw [this, hvd]
      congr 2
      refine vec_congr fun q hq => ?_
      have hr' := hr _ (hcv _ hu.1) (s + q) (by rw [hu.2]; omega)
      simp only at hr' hu
      rw [e1 _ hD, hr', hu.2, hC.org, Nat.add_assoc]
    · have hpos := hin.pos _ (hcv _ hv)
      refine ⟨hpos, ?_⟩
      have := table_whole (dec := dec) (n := C.nminargs) hC [] (by simpa using hnd) (by simpa using hlt) hW
        (hsafe.scalars c hcm v hv h1)
      rw [List.append_nil] at this
      rw [this, e2 v hv h1]
      congr 2
      exact vec_congr fun q hq => (hr v (hcv v hv) q hq).symm
  rw [runCode_ok hM K.wf K.factFree (K.dfn (hcd env hd)) hold, K.dim]
  rw [← K.val]
  rfl

theorem post_value (hM : M.Exact) (hsums : e.sums = [c]) (hf : e.FactFree) (hw : e.WF)
    (hin : e.InputVars) (hC : ChunkGood e c tagI C) {env : Env}
    (hd : e.Def env) (hr : EnvReads dec e tagI args i j env) (hW : Whole C args i j xi yj pp) {fo : Mem V}
    (hfo : dec (fo 0) = c.val env 0) (k : Nat) :
    runCode M junk C.post (chunkTable dec (C.nminargs + 1) [(C.i.all dimchunk, xi), (C.j.all dimchunk, yj),
      (C.p.all dimchunk, pp), ([⟨C.nminargs, C.fun_.dim, 3⟩], fo)]) k = (vec e.dim (e.val env)).getD k 0 := by
  have hcm : c ∈ e.sums := by rw [hsums]; exact List.mem_singleton.mpr rfl
  have hcu := Expr.sums_useChunk hcm
  obtain ⟨hcw, hcd, hcv⟩ := Expr.sums_wf hcm hf hw
  obtain ⟨-, -, hdim1, -⟩ := Expr.chunk_vars hcu hcw (d := dimchunk) (by decide)
  have hnf : ∀ v ∈ e.vars, v.1 ≠ (e.nminargs : Int) := fun v hv => by
    have := nminargs_lt hv (hin.pos v hv)
    omega
  have P := Expr.post_one hsums hf hw hnf
  obtain ⟨s1, s2⟩ := P.sem env (fun _ => c.val env 0) (fun _ => rfl)
  have hgr : ([(C.i.all dimchunk, xi), (C.j.all dimchunk, yj), (C.p.all dimchunk, pp),
      ([⟨C.nminargs, C.fun_.dim, 3⟩], fo)] : List (List VarInfo × Mem V)) =
      C.groups dimchunk xi yj pp ++ [([⟨C.nminargs, C.fun_.dim, 3⟩], fo)] := rfl
  rw [hgr]
  have hfd : C.fun_.dim = 1 := by rw [hC.f, hdim1]
  have hnd : (((C.groups dimchunk xi yj pp ++ [(([⟨C.nminargs, C.fun_.dim, 3⟩] : List VarInfo), fo)]).flatMap (·.1)).map
      (·.ind)).Nodup := by
    rw [List.flatMap_append, List.map_append, C.groups_inds]
    refine List.nodup_append.mpr ⟨hC.nodup, by simp, fun p hp q hq hpq => ?_⟩
    obtain ⟨v, hv, rfl⟩ := List.mem_map.mp hp
    have := hC.lt v hv
    simp only [List.flatMap_cons, List.flatMap_nil, List.append_nil, List.map_cons, List.map_nil,
      List.mem_singleton] at hq
    rw [hC.nmin] at hq
    omega
  have hlt : ∀ v ∈ (C.groups dimchunk xi yj pp ++ [(([⟨C.nminargs, C.fun_.dim, 3⟩] : List VarInfo), fo)]).flatMap (·.1),
      v.ind < C.nminargs + 1 := by
    intro v hv
    rw [List.flatMap_append, List.mem_append] at hv
    rcases hv with hv | hv
    · have : v ∈ C.i.all dimchunk ++ C.j.all dimchunk ++ C.p.all dimchunk := by
        simpa [ChunkConsts.groups] using hv
      have := hC.lt v this
      rw [hC.nmin]; omega
    · simp only [List.flatMap_cons, List.flatMap_nil, List.append_nil, List.mem_singleton] at hv
      rw [hv]; simp
  have hold : (chunkTable dec (C.nminargs + 1) (C.groups dimchunk xi yj pp ++
      [([⟨C.nminargs, C.fun_.dim, 3⟩], fo)])).Holds (Function.update env e.nminargs fun _ => c.val env 0) C.post := by
    intro v hv
    have hv' := Expr.free_vars hv
    rw [hC.post, P.vars] at hv'
    rcases hv' with rfl | hv'
    · refine ⟨by simp, ?_⟩
      have := chunkTable_get dec hnd hlt (g := (([⟨C.nminargs, C.fun_.dim, 3⟩] : List VarInfo), fo)) (by simp) (pre := [])
        (v := ⟨C.nminargs, C.fun_.dim, 3⟩) (post := []) rfl
      simp only [Int.toNat_natCast, Function.update_self]
      rw [hfd, hC.nmin] at this ⊢
      simp only at this
      rw [this]
      congr 2
      refine vec_congr fun q hq => ?_
      have : q = 0 := by omega
      subst this
      rw [sumDims_nil]
      exact hfo
    · have hve := Expr.outerVars_vars hv'
      refine ⟨hin.pos v hve, ?_⟩
      rw [table_whole (dec := dec) (n := C.nminargs + 1) hC _ hnd hlt hW hv']
      congr 2
      refine vec_congr fun q hq => ?_
      rw [Function.update_of_ne (hnf v hve)]
      exact (hr v hve q hq).symm
  rw [hC.post] at hold ⊢
  rw [runCode_ok hM P.wf P.factFree (s2 hd) hold, P.dim, s1]

end

/-! ## The kernel -/

/-- The hypotheses of the following theorems, for the row `i`. -/
structure ChunkHyp (enc : ℝ → V) (dec : V → ℝ) (e c : Expr) (tagI : Nat) (K : ChunkCall V) (i : Nat)
    (env : Nat → Env) : Prop where
  exact : K.M.Exact
  dec_enc : ∀ x, dec (enc x) = x
  sums : e.sums = [c]
  factFree : e.FactFree
  wf : e.WF
  inputs : e.InputVars
  safe : e.ChunkSafe
  good : ChunkGood e c tagI K.C
  dfn : ∀ j < K.ny, e.Def (env j)
  reads : ∀ j < K.ny, EnvReads dec e tagI K.args i j (env j)

/-- The state of the local arrays during a tile. -/
structure TileBufs (K : ChunkCall V) (i tile : Nat) (m : ChunkMem V) : Prop where
  i : BufW K.C.i K.args i m.xi
  p : BufW K.C.p K.args 0 m.pp
  j : ∀ t < K.B, tile * K.B + t < K.ny → BufW K.C.j K.args (tile * K.B + t) (m.yj.shift (t * K.C.dimy))

theorem forRange_set (n : Nat) (g : Nat → V → V) (x : Mem V) (p : Nat) :
    forRange n (fun t x => x.set (t * 1) (g t (x (t * 1)))) x p = if p < n then g p (x p) else x p := by
  induction n with
  | zero => simp
  | succ n ih =>
    have h0 : forRange n (fun t x => x.set (t * 1) (g t (x (t * 1)))) x n = x n := by
      refine forRange_inv (P := fun k (y : Mem V) => k ≤ n → y n = x n) n _ _ (fun _ => rfl) ?_ le_rfl
      intro k y hk hy hkn
      rw [Mem.set_apply, if_neg (by omega)]
      exact hy (by omega)
    rw [forRange_succ, Mem.set_apply, ih, Nat.mul_one, h0]
    by_cases hp : p = n
    · subst hp; rw [if_pos rfl, if_pos (by omega)]
    · rw [if_neg hp]
      by_cases h : p < n
      · rw [if_pos h, if_pos (by omega)]
      · rw [if_neg h, if_neg (by omega)]

section

variable {e c : Expr} {tagI : Nat} {K : ChunkCall V} {i : Nat} {env : Nat → Env}

theorem chunkLoadTile_spec (K : ChunkCall V) {d chunk tile : Nat} (hd : d ≤ dimchunk) {ts : List Nat} (hnd : ts.Nodup)
    {yj : Mem V} {t : Nat} (ht : t ∈ ts) (hj : tile * K.B + t < K.ny)
    (h : BufW K.C.j K.args (tile * K.B + t) (yj.shift (t * K.C.dimy))) :
    BufW K.C.j K.args (tile * K.B + t) ((chunkLoadTile K d chunk tile ts yj).shift (t * K.C.dimy)) ∧
    BufC K.C.j K.args (tile * K.B + t) K.C.dimOrg (chunk * dimchunk) d
      ((chunkLoadTile K d chunk tile ts yj).shift (t * K.C.dimy)) := by
  have hfit : sumDims K.C.j.whole + sumDims (K.C.j.piece d) ≤ K.C.dimy := by
    unfold ChunkConsts.dimy
    rw [ChunkVars.all_eq, sumDims_append, sumDims_piece, sumDims_piece]
    have := Nat.mul_le_mul_left K.C.j.chunked.length hd
    omega
  have key : ∀ k < K.C.dimy, (chunkLoadTile K d chunk tile ts yj).shift (t * K.C.dimy) k =
      onSlice (sumDims K.C.j.whole) (loadChunks (K.C.j.chunked.map (·.ind)) d K.C.dimOrg K.args chunk
        (tile * K.B + t)) (yj.shift (t * K.C.dimy)) k := by
    intro k hk
    have hl := fun j => loadVars_slice (K.C.j.piece d)
      (fun p q => K.args p (j * K.C.dimOrg + chunk * dimchunk + q)) 0 (sumDims K.C.j.whole) K.C.dimy hfit
    have := tile_rows (d := K.C.dimy) (B := K.B) (ny := K.ny) (tile := tile)
      (fun t => onSlice (sumDims K.C.j.whole) (loadChunks (K.C.j.chunked.map (·.ind)) d K.C.dimOrg K.args chunk
        (tile * K.B + t)))
      (fun t => by rw [loadChunks_eq]; exact (hl _).1) (fun t => by rw [loadChunks_eq]; exact (hl _).2) ts hnd yj ht hj hk
    rw [← this]
    unfold chunkLoadTile
    simp only [onSlice_onSlice]
  obtain ⟨h1, h2⟩ := buf_load (d := d) (D := K.C.dimOrg) (chunk := chunk) h
  refine ⟨h1.congr fun p hp => key p (by omega), h2.congr fun p hp => ?_⟩
  rw [Mem.shift_apply, Mem.shift_apply]
  exact key _ (by omega)

theorem chunkSub_spec (H : ChunkHyp enc dec e c tagI K i env) {f : Expr} {d chunk tile jstart : Nat}
    (hf : f = c.chunkedVersion d) (hd0 : 0 < d) (hd : d ≤ dimchunk) (hfit : chunk * dimchunk + d ≤ c.orgDim)
    (hjs : jstart = tile * K.B) {ts : List Nat} (hts : ts.Nodup ∧ ∀ t < K.B, t ∈ ts) {m : ChunkMem V}
    (hm : TileBufs K i tile m) :
    TileBufs K i tile (chunkSub enc dec K f d i tile jstart ts chunk m) ∧
    (chunkSub enc dec K f d i tile jstart ts chunk m).s = m.s ∧
    ∀ t < K.B, tile * K.B + t < K.ny → dec ((chunkSub enc dec K f d i tile jstart ts chunk m).fout t) =
      dec (m.fout t) + ∑ k ∈ range d, c.summand (env (tile * K.B + t)) (chunk * dimchunk + k) := by
  have hcm : c ∈ e.sums := by rw [H.sums]; exact List.mem_singleton.mpr rfl
  have hcu := Expr.sums_useChunk hcm
  obtain ⟨hcw, -, -⟩ := Expr.sums_wf hcm H.factFree H.wf
  have hdim : K.C.fun_.dim = 1 := by
    rw [H.good.f]; exact (Expr.chunk_vars hcu hcw (d := dimchunk) (by decide)).2.2.1
  obtain ⟨x1, x2⟩ := buf_load (d := d) (D := K.C.dimOrg) (chunk := chunk) hm.i
  obtain ⟨p1, p2⟩ := buf_load_params (d := d) (D := K.C.dimOrg) (chunk := chunk) hm.p H.good.params
  have hy := fun t ht hj => chunkLoadTile_spec K (chunk := chunk) hd hts.1 (hts.2 t ht) hj (hm.j t ht hj)
  refine ⟨⟨x1, p1, fun t ht hj => (hy t ht hj).1⟩, rfl, fun t ht hj => ?_⟩
  unfold chunkSub
  simp only [hdim]
  rw [forRange_set _ (fun t x => enc (dec x + runCode K.M K.junk f (chunkTable dec K.C.nminargs
    [(K.C.i.all d, _), (K.C.j.all d, Mem.shift _ (t * K.C.dimy)), (K.C.p.all d, _)]) 0)),
    if_pos (by omega), H.dec_enc, hf]
  congr 1
  exact chunk_value H.exact H.sums H.factFree H.wf H.inputs H.safe H.good (H.dfn _ hj) (H.reads _ hj) hd0 hfit
    ⟨x1, (hy t ht hj).1, p1⟩ ⟨x2, (hy t ht hj).2, p2⟩

/-- The value that is accumulated at `j`. -/
noncomputable def chunkF (enc : ℝ → V) (e : Expr) (env : Nat → Env) (j : Nat) : Mem V :=
  fun k => enc ((vec e.dim (e.val (env j))).getD k 0)

theorem chunkTile_spec (H : ChunkHyp enc dec e c tagI K i env) (S : Scheme V) {tile jstart : Nat}
    (hjs : jstart = tile * K.B) {ord : Nat → List Nat} (hord : ∀ ph, (ord ph).Nodup ∧ ∀ t < K.B, t ∈ ord ph)
    {m : ChunkMem V} (h1 : BufW K.C.i K.args i m.xi) (h2 : BufW K.C.p K.args 0 m.pp) :
    BufW K.C.i K.args i (chunkTile enc dec S K ord i jstart tile m).xi ∧
    BufW K.C.p K.args 0 (chunkTile enc dec S K ord i jstart tile m).pp ∧
    (chunkTile enc dec S K ord i jstart tile m).s = S.final (forRange (min K.B (K.ny - jstart))
      (fun jrel s => S.accum s (chunkF enc e env (tile * K.B + jrel)) (jrel + tile * K.B))
      (m.s.1, S.blockInit m.s.2)) := by
  have hcm : c ∈ e.sums := by rw [H.sums]; exact List.mem_singleton.mpr rfl
  have hcu := Expr.sums_useChunk hcm
  obtain ⟨hcw, -, -⟩ := Expr.sums_wf hcm H.factFree H.wf
  have hdim : K.C.fun_.dim = 1 := by
    rw [H.good.f]; exact (Expr.chunk_vars hcu hcw (d := dimchunk) (by decide)).2.2.1
  have h99 := (Expr.useChunk_dim hcu).2
  unfold chunkTile
  simp only
  -- before the chunks
  generalize hm0 : (⟨_, m.xi, m.pp, _, (m.s.1, S.blockInit m.s.2)⟩ : ChunkMem V) = m0
  have b0 : TileBufs K i tile m0 ∧ m0.s = (m.s.1, S.blockInit m.s.2) ∧
      ∀ t < K.B, tile * K.B + t < K.ny → dec (m0.fout t) = 0 := by
    subst hm0
    refine ⟨⟨h1, h2, fun t ht hj => ?_⟩, rfl, fun t ht hj => ?_⟩
    · have hfit : sumDims K.C.j.whole ≤ K.C.dimy := by
        unfold ChunkConsts.dimy
        rw [ChunkVars.all_eq, sumDims_append]; omega
      have hl := fun j => loadVars_slice K.C.j.whole K.args j 0 K.C.dimy (by omega)
      have e0 : ∀ (f : Mem V → Mem V), onSlice 0 f = f := by
        intro f; funext x p; rw [onSlice_apply, if_pos (Nat.zero_le _)]; simp
      simp only [e0] at hl
      refine Holds.congr (x := loadVars K.C.j.whole K.args (tile * K.B + t) (m.yj.shift (t * K.C.dimy)))
        (holds_of_eq_loadVars fun _ _ => rfl) fun p hp => ?_
      exact tile_rows (fun t => loadVars K.C.j.whole K.args (tile * K.B + t)) (fun t => (hl _).1)
        (fun t => (hl _).2) (ord 0) (hord 0).1 m.yj ((hord 0).2 t ht) hj (by omega)
    · simp only [hdim]
      rw [forRange_set _ (fun _ _ => enc 0), if_pos (by omega), H.dec_enc]
  -- the first chunks
  generalize hm1 : forRange (K.C.nchunks - 1) _ m0 = m1
  have b1 : TileBufs K i tile m1 ∧ m1.s = (m.s.1, S.blockInit m.s.2) ∧
      ∀ t < K.B, tile * K.B + t < K.ny → dec (m1.fout t) =
        ∑ k ∈ range ((K.C.nchunks - 1) * dimchunk), c.summand (env (tile * K.B + t)) k := by
    rw [← hm1]
    refine forRange_inv (P := fun n m' => TileBufs K i tile m' ∧ m'.s = (m.s.1, S.blockInit m.s.2) ∧
      ∀ t < K.B, tile * K.B + t < K.ny → dec (m'.fout t) =
        ∑ k ∈ range (n * dimchunk), c.summand (env (tile * K.B + t)) k) _ _ _ ?_ ?_
    · simpa using b0
    · rintro n m' hn ⟨c1, c2, c3⟩
      have hfit : n * dimchunk + dimchunk ≤ c.orgDim := by
        rw [H.good.num] at hn
        unfold dimchunk at hn ⊢
        omega
      obtain ⟨d1, d2, d3⟩ := chunkSub_spec H (chunk := n) H.good.f (by decide) le_rfl hfit hjs (hord (1 + n)) c1
      refine ⟨d1, d2.trans c2, fun t ht hj => ?_⟩
      rw [d3 t ht hj, c3 t ht hj, Nat.succ_mul, Finset.sum_range_add]
  -- the last one
  have hlast : 0 < K.C.dimLast ∧ K.C.dimLast ≤ dimchunk ∧
      (K.C.nchunks - 1) * dimchunk + K.C.dimLast = c.orgDim := by
    have := H.good.last
    rw [H.good.num] at this ⊢
    unfold dimchunk at *
    omega
  generalize hm2 : chunkSub enc dec K K.C.funLast K.C.dimLast i tile jstart (ord K.C.nchunks) (K.C.nchunks - 1) m1 = m2
  have b2 : TileBufs K i tile m2 ∧ m2.s = (m.s.1, S.blockInit m.s.2) ∧
      ∀ t < K.B, tile * K.B + t < K.ny → dec (m2.fout t) = c.val (env (tile * K.B + t)) 0 := by
    obtain ⟨d1, d2, d3⟩ := chunkSub_spec H (chunk := K.C.nchunks - 1) H.good.fl hlast.1 hlast.2.1 hlast.2.2.le hjs
      (hord K.C.nchunks) b1.1
    rw [← hm2]
    refine ⟨d1, d2.trans b1.2.1, fun t ht hj => ?_⟩
    rw [d3 t ht hj, b1.2.2 t ht hj, ← Finset.sum_range_add, hlast.2.2, Expr.val_node hcu hcw]
  refine ⟨b2.1.i, b2.1.p, ?_⟩
  rw [b2.2.1]
  congr 1
  refine forRange_congr fun jrel s hjr => ?_
  have hjr' : jrel < K.B ∧ tile * K.B + jrel < K.ny := by omega
  congr 1
  funext k
  unfold chunkF
  congr 1
  refine post_value H.exact H.sums H.factFree H.wf H.inputs H.good (H.dfn _ hjr'.2) (H.reads _ hjr'.2)
    ⟨b2.1.i, b2.1.j jrel hjr'.1 hjr'.2, b2.1.p⟩ ?_ k
  rw [hdim, Mem.shift_apply, Nat.mul_one, Nat.add_zero]
  exact b2.2.2 jrel hjr'.1 hjr'.2

theorem chunkTiles_abs (H : ChunkHyp enc dec e c tagI K i env) (S : Scheme V) {ord : Nat → Nat → List Nat}
    (hord : ∀ tile ph, (ord tile ph).Nodup ∧ ∀ t < K.B, t ∈ ord tile ph) :
    ∀ fuel jstart tile (m : ChunkMem V), jstart = tile * K.B → BufW K.C.i K.args i m.xi → BufW K.C.p K.args 0 m.pp →
      (chunkTiles enc dec S K ord i fuel jstart tile m).s =
        absTiles S (chunkF enc e env) K.B K.ny fuel jstart tile m.s := by
  intro fuel
  induction fuel with
  | zero => intro _ _ _ _ _ _; rfl
  | succ fuel ih =>
    intro jstart tile m hj h1 h2
    unfold chunkTiles absTiles
    split
    · obtain ⟨a, b, c⟩ := chunkTile_spec H S hj (hord tile) h1 h2
      rw [ih _ _ _ (by rw [hj, Nat.succ_mul]) a b, c]
    · rfl

/-- The value accumulated by the simple kernel. -/
theorem call_chunkF {M : CMath} {junk : Expr → Nat → ℝ} {args : Nat → Mem V} {m n j : Nat} {env : Env}
    (hM : M.Exact) (hf : e.FactFree) (hw : e.WF) (hin : e.InputVars) (ht : tagI < 2)
    (hd : e.Def env) (hr : EnvReads dec e tagI args i j env) {t : Nat → Option (Mem V)}
    (h : Loaded (varsOf e.inputs tagI) args i t ∧ Loaded (varsOf e.inputs (1 - tagI)) args j t ∧
      Loaded (varsOf e.inputs 2) args 0 t) :
    (e.call enc dec M junk tagI m n args).ev t = chunkF enc e (fun _ => env) j := by
  have hg : GoodVars e.vars := ⟨fun v hv _ => hin.pos v hv, fun v hv => by have := hin.cat v hv; omega,
    fun u hu v hv _ _ => hin.unique u hu v hv⟩
  have hwf := call_wf (enc := enc) (dec := dec) (M := M) (junk := junk) (m := m) (n := n) (args := args) hg ht
  have e1 : (e.call enc dec M junk tagI m n args).ev t =
      (e.call enc dec M junk tagI m n args).ev (Spec.env e.inputs tagI args i j) :=
    ev_loaded hwf.vars hwf.tag hwf.ev h (env_loaded hwf.vars hwf.tag _ i j)
  rw [e1]
  have hold : (e.table fun p => (Spec.env e.inputs tagI args i j p).map fun a q => dec (a q)).Holds env e := by
    intro v hv
    have hv' := Expr.free_vars hv
    have hc := hin.cat v hv'
    refine ⟨hin.pos v hv', ?_⟩
    rw [table_entry hg hv' (by omega)]
    have hi : (⟨v.1.toNat, v.2.1, v.2.2.toNat⟩ : VarInfo) ∈ e.inputs :=
      Expr.mem_inputs.mpr ⟨v, hv', by omega, rfl⟩
    have hfi := find_ind (inputs_wf hg).nodup hi
    simp only at hfi
    simp only [Spec.env, hfi, Option.map_some]
    exact congrArg (some ∘ some) (vec_congr fun k hk => (hr v hv' k hk).symm)
  obtain ⟨q, hq⟩ := codeOk (junk := junk) hM e env _ (newArr junk e) hw hf.named hd hold (by simp [newArr])
  funext k
  simp only [Expr.call, hq]
  rfl

end

/-- The chunked kernel gives what the simple kernel gives. -/
theorem chunks_exec {R : Red V} {S : Scheme V} {M : CMath} {cjunk : Expr → Nat → ℝ} {e : Expr} {tagI m n : Nat}
    {args : Nat → Mem V} {out out' : Mem V} {env : Nat → Nat → Env} (hM : M.Exact) (hdec : ∀ x, dec (enc x) = x)
    (ht : tagI < 2) (hmode : chunkMode e = true) (hf : e.FactFree) (hw : e.WF) (hin : e.InputVars) (hsafe : e.ChunkSafe)
    (hd : ∀ i < outRows tagI m n, ∀ j < redRows tagI m n, e.Def (env i j))
    (hr : ∀ i < outRows tagI m n, ∀ j < redRows tagI m n, EnvReads dec e tagI args i j (env i j))
    (h : ExecChunks enc dec R S M cjunk e tagI m n args out out') :
    Exec R S (e.call enc dec M cjunk tagI m n args) out out' := by
  obtain ⟨setList, hset, C, hC, B, hB, ord, hord, junk, sched, hsched⟩ := h
  obtain ⟨c, hsums⟩ : ∃ c, e.sums = [c] := by
    simp only [chunkMode] at hmode
    rw [Expr.chunkedFormulas_eq.1] at hmode
    rcases hs : e.sums with _ | ⟨a, _ | ⟨b, l⟩⟩
    · rw [hs] at hmode; cases hmode
    · exact ⟨a, rfl⟩
    · rw [hs] at hmode; cases hmode
  have hgood := chunkGood hset hC ht hmode hsums hf hw hin hsafe
  have hgv : GoodVars e.vars := ⟨fun v hv _ => hin.pos v hv, fun v hv => by have := hin.cat v hv; omega,
    fun u hu v hv _ _ => hin.unique u hu v hv⟩
  have hwf := call_wf (enc := enc) (dec := dec) (M := M) (junk := cjunk) (m := m) (n := n) (args := args) hgv ht
  have hnx : (launchSizes tagI m n).1 = outRows tagI m n := nx_eq hwf
  have hny : (launchSizes tagI m n).2 = redRows tagI m n := by
    unfold launchSizes redRows
    by_cases h : tagI = 1
    · simp [h]
    · have : tagI = 0 := by omega
      simp [this]
  have hord' : ∀ b tile ph, (ord b tile ph).Nodup ∧ ∀ t < B, t ∈ ord b tile ph := fun b tile ph =>
    ⟨(hord b tile ph).nodup_iff.mpr List.nodup_range, fun t ht => (hord b tile ph).mem_iff.mpr (List.mem_range.mpr ht)⟩
  have heq : gpuChunks enc dec R S ⟨C, M, cjunk, args, B, (launchSizes tagI m n).2⟩ (launchSizes tagI m n).1 ord junk
      sched out = gpu1D R S (e.call enc dec M cjunk tagI m n args).ev e.inputs tagI B (launchSizes tagI m n).1
        (launchSizes tagI m n).2 args (fun b tile => ord b tile 0) junk sched out := by
    unfold gpuChunks gpu1D
    refine foldl_congr_mem _ _ fun o bt _ => ?_
    dsimp only
    split
    · next hi =>
      congr 1
      funext o
      rw [hnx] at hi
      have H : ChunkHyp enc dec e c tagI ⟨C, M, cjunk, args, B, (launchSizes tagI m n).2⟩ (bt.1 * B + bt.2)
          (env (bt.1 * B + bt.2)) := ⟨hM, hdec, hsums, hf, hw, hin, hsafe, hgood,
        fun j hj => hd _ hi j (hny ▸ hj), fun j hj => hr _ hi j (hny ▸ hj)⟩
      unfold chunkThread gpu1DThread
      dsimp only
      rw [chunkTiles_abs H S (hord' bt.1) _ _ _ _ (by simp) buf_whole_load buf_whole_load]
      rw [gpuTiles_abs S _ args _ (chunkF enc e (env (bt.1 * B + bt.2))) ?_ _ (fun tile => hord' bt.1 tile 0) _ _ _ _ _
        (by simp)]
      intro j hj y hy
      have := call_chunkF (enc := enc) (junk := cjunk) (m := m) (n := n) hM hf hw hin ht
        (hd _ hi j (hny ▸ hj)) (hr _ hi j (hny ▸ hj)) (table_spec hwf.vars ht args (bt.1 * B + bt.2) j _ _ _
          (holds_of_eq_loadVars (o := junk (bt.1 * B + bt.2) 1) fun _ _ => rfl) hy
          (holds_of_eq_loadVars (o := junk (bt.1 * B + bt.2) 0) fun _ _ => rfl))
      exact this
    · rfl
  rw [heq]
  exact Exec.gpu1D B hB (fun b tile => ord b tile 0) (fun b tile => hord b tile 0) junk sched hsched

end Verif
