import Verif.Proofs.ChunkSum
import Verif.Proofs.ChunkBuffers

/-! The constants of the chunked kernel, and the values computed from the local arrays. -/

namespace Verif

open Spec Finset

/-- The variables of a formula that the loader accepts. -/
structure Expr.InputVars (e : Expr) : Prop where
  pos : ∀ v ∈ e.vars, 0 ≤ v.1
  cat : ∀ v ∈ e.vars, v.2.2 = 0 ∨ v.2.2 = 1 ∨ v.2.2 = 2
  unique : ∀ u ∈ e.vars, ∀ v ∈ e.vars, u.1 = v.1 → u = v

/-- The groups of variables, their buffers and their rows at `(i, j)`. -/
def ChunkConsts.groups {V : Type} (C : ChunkConsts) (d : Nat) (xi yj pp : Mem V) : List (List VarInfo × Mem V) :=
  [(C.i.all d, xi), (C.j.all d, yj), (C.p.all d, pp)]

/-- The variables of category `k`. -/
def ChunkConsts.grp (C : ChunkConsts) (tagI k : Nat) : ChunkVars := if k = 2 then C.p else if k = tagI then C.i else C.j

/-- What `chunkConsts` gives for a formula with one sum `c`. -/
structure ChunkGood (e c : Expr) (tagI : Nat) (C : ChunkConsts) : Prop where
  org : C.dimOrg = c.orgDim
  num : C.nchunks = 1 + (c.orgDim - 1) / dimchunk
  last : C.dimLast = c.orgDim - (C.nchunks - 1) * dimchunk
  nmin : C.nminargs = e.nminargs
  f : C.fun_ = c.chunkedVersion dimchunk
  fl : C.funLast = c.chunkedVersion C.dimLast
  post : C.post = e.postChunk e.nminargs
  whole : ∀ u ∈ e.outerVars, toInfo u ∈ (C.grp tagI u.2.2.toNat).whole
  chunked : ∀ u ∈ c.chunkedVars, (⟨u.1.toNat, dimchunk, u.2.2.toNat⟩ : VarInfo) ∈ (C.grp tagI u.2.2.toNat).chunked
  nodup : (((C.i.all dimchunk ++ C.j.all dimchunk ++ C.p.all dimchunk)).map (·.ind)).Nodup
  lt : ∀ v ∈ C.i.all dimchunk ++ C.j.all dimchunk ++ C.p.all dimchunk, v.ind < e.nminargs
  params : C.p.whole = [] ∨ C.p.chunked = []

theorem chunkGood {e c : Expr} {tagI : Nat} {C : ChunkConsts} {setList : List (Int × Nat × Int) → List (Int × Nat × Int)}
    (hset : ∀ l, (setList l).Perm l.dedup) (hC : chunkConsts setList e tagI = some C) (ht : tagI < 2)
    (hmode : chunkMode e = true) (hsums : e.sums = [c]) (hf : e.FactFree) (hw : e.WF) (hin : e.InputVars)
    (hsafe : e.ChunkSafe) : ChunkGood e c tagI C := by
  have hcm : c ∈ e.sums := by rw [hsums]; exact List.mem_singleton.mpr rfl
  have hcu : c.useChunk = true := Expr.sums_useChunk hcm
  obtain ⟨hcw, -, hcv⟩ := Expr.sums_wf hcm hf hw
  have hmem : ∀ l u, u ∈ setList l ↔ u ∈ l := fun l u => by rw [(hset l).mem_iff, List.mem_dedup]
  have hform : ∀ d, e.chunkedFormulas d = [(c.chunkedVersion d, c.orgDim)] := fun d => by
    rw [Expr.chunkedFormulas_eq.1, hsums]; rfl
  simp only [chunkConsts, hform, Option.some.injEq] at hC
  subst hC
  have hnf : ∀ v ∈ e.vars, v.1 ≠ (e.nminargs : Int) := fun v hv => by
    have := nminargs_lt hv (hin.pos v hv)
    omega
  have P := Expr.post_one hsums hf hw hnf
  obtain ⟨hv1, hv2, -, hv4⟩ := Expr.chunk_vars hcu hcw (d := dimchunk) (by decide)
  have hmix : ∀ k ∈ [0, 1, 2], ∀ u ∈ ofCat k (e.postChunk e.nminargs).vars, ∀ v ∈ ofCat k c.chunkedVars,
      u.1 ≠ v.1 := by
    simp only [chunkMode, hform, Bool.not_eq_true', chunkMix, List.any_eq_false, hv1] at hmode
    intro k hk u hu v hv heq
    refine hmode k hk ?_
    rw [List.any_eq_true]
    refine ⟨u.1, List.mem_map_of_mem hu, ?_⟩
    rw [List.contains_iff_mem, List.mem_map]
    have hv' := List.mem_filter.mp hv
    exact ⟨(v.1, dimchunk, v.2.2), List.mem_filter.mpr ⟨List.mem_map.mpr ⟨v, hv'.1, rfl⟩, hv'.2⟩, heq.symm⟩
  -- members of the groups
  have mw : ∀ k < 3, ∀ w, w ∈ (chunkVars setList (c.chunkedVersion dimchunk) (e.postChunk e.nminargs) k).whole ↔
      ∃ u ∈ e.outerVars, u.2.2 = (k : Int) ∧ w = toInfo u := by
    intro k hk w
    simp only [chunkVars, hv2, List.append_nil, List.mem_map, hmem, ofCat, List.mem_filter, decide_eq_true_eq, P.vars]
    constructor
    · rintro ⟨u, ⟨rfl | hu, hk'⟩, rfl⟩
      · simp only at hk'; omega
      · exact ⟨u, hu, hk', rfl⟩
    · rintro ⟨u, hu, hk', rfl⟩
      exact ⟨u, ⟨Or.inr hu, hk'⟩, rfl⟩
  have mc : ∀ k, ∀ w, w ∈ (chunkVars setList (c.chunkedVersion dimchunk) (e.postChunk e.nminargs) k).chunked ↔
      ∃ u ∈ c.chunkedVars, u.2.2 = (k : Int) ∧ w = ⟨u.1.toNat, dimchunk, u.2.2.toNat⟩ := by
    intro k w
    simp only [chunkVars, List.mem_map, hmem, ofCat, List.mem_filter, decide_eq_true_eq, hv1]
    constructor
    · rintro ⟨u, ⟨⟨u', hu', rfl⟩, hk'⟩, rfl⟩
      exact ⟨u', hu', hk', rfl⟩
    · rintro ⟨u, hu, hk', rfl⟩
      exact ⟨_, ⟨⟨u, hu, rfl⟩, hk'⟩, rfl⟩
  have mall : ∀ k < 3, ∀ p, p ∈ ((chunkVars setList (c.chunkedVersion dimchunk) (e.postChunk e.nminargs) k).all
      dimchunk).map (·.ind) → ∃ u ∈ e.vars, u.2.2 = (k : Int) ∧ p = u.1.toNat := by
    intro k hk p hp
    obtain ⟨w, hw', rfl⟩ := List.mem_map.mp hp
    rcases List.mem_append.mp hw' with h | h
    · obtain ⟨u, hu, hk', rfl⟩ := (mw k hk w).mp h
      exact ⟨u, Expr.outerVars_vars hu, hk', rfl⟩
    · obtain ⟨w', h', rfl⟩ := List.mem_map.mp h
      obtain ⟨u, hu, hk', rfl⟩ := (mc k w').mp h'
      exact ⟨u, hcv u (hv4 u hu).1, hk', rfl⟩
  have nd : ∀ k < 3, (((chunkVars setList (c.chunkedVersion dimchunk) (e.postChunk e.nminargs) k).all
      dimchunk).map (·.ind)).Nodup := by
    intro k hk
    have nset : ∀ l, (setList l).Nodup := fun l => (hset l).nodup_iff.mpr (List.nodup_dedup l)
    rw [ChunkVars.all, List.map_append, List.map_map]
    refine List.nodup_append.mpr ⟨?_, ?_, ?_⟩
    · unfold chunkVars
      rw [List.map_map]
      refine List.Nodup.map_on (fun u hu v hv huv => ?_) (nset _)
      have hh : ∀ u ∈ setList (ofCat k ((e.postChunk e.nminargs).vars ++
          (c.chunkedVersion dimchunk).notchunkedVars)), u ∈ e.vars := by
        intro u hu
        rw [hmem, hv2, List.append_nil, ofCat, List.mem_filter, decide_eq_true_eq, P.vars] at hu
        obtain ⟨rfl | hu, hk'⟩ := hu
        · simp only at hk'; omega
        · exact Expr.outerVars_vars hu
      have h1 := hin.pos u (hh u hu)
      have h2 := hin.pos v (hh v hv)
      simp only [Function.comp, toInfo] at huv
      exact hin.unique u (hh u hu) v (hh v hv) (by omega)
    · unfold chunkVars
      rw [List.map_map]
      refine List.Nodup.map_on (fun u hu v hv huv => ?_) (nset _)
      rw [hmem, ofCat, List.mem_filter, hv1] at hu hv
      obtain ⟨u', hu', rfl⟩ := List.mem_map.mp hu.1
      obtain ⟨v', hv', rfl⟩ := List.mem_map.mp hv.1
      have hu'' := hcv u' (hv4 u' hu').1
      have hv'' := hcv v' (hv4 v' hv').1
      have h1 := hin.pos u' hu''
      have h2 := hin.pos v' hv''
      simp only [Function.comp, toInfo] at huv
      rw [hin.unique u' hu'' v' hv'' (by omega)]
    · intro p hp q hq hpq
      obtain ⟨w, hw', rfl⟩ := List.mem_map.mp hp
      obtain ⟨w', hw'', rfl⟩ := List.mem_map.mp hq
      obtain ⟨u, hu, hk', rfl⟩ := (mw k hk w).mp hw'
      obtain ⟨u', hu', hk'', rfl⟩ := (mc k w').mp hw''
      simp only [Function.comp, toInfo] at hpq
      have h1 := hin.pos u (Expr.outerVars_vars hu)
      have h2 := hin.pos u' (hcv u' (hv4 u' hu').1)
      refine hmix k (by simp; omega) u ?_ u' ?_ (by omega)
      · exact List.mem_filter.mpr ⟨(P.vars u).mpr (Or.inr hu), decide_eq_true hk'⟩
      · exact List.mem_filter.mpr ⟨hu', decide_eq_true hk''⟩
  have dis : ∀ k < 3, ∀ k' < 3, k ≠ k' → ∀ p ∈ ((chunkVars setList (c.chunkedVersion dimchunk)
      (e.postChunk e.nminargs) k).all dimchunk).map (·.ind), ∀ q ∈ ((chunkVars setList (c.chunkedVersion dimchunk)
      (e.postChunk e.nminargs) k').all dimchunk).map (·.ind), p ≠ q := by
    intro k hk k' hk' hne p hp q hq hpq
    obtain ⟨u, hu, h1, rfl⟩ := mall k hk p hp
    obtain ⟨v, hv, h2, rfl⟩ := mall k' hk' q hq
    have h3 := hin.pos u hu
    have h4 := hin.pos v hv
    have := hin.unique u hu v hv (by omega)
    subst this
    omega
  have g2 : ∀ k : Int, k = 0 ∨ k = 1 ∨ k = 2 → ∀ C' : ChunkConsts,
      C'.i = chunkVars setList (c.chunkedVersion dimchunk) (e.postChunk e.nminargs) tagI →
      C'.j = chunkVars setList (c.chunkedVersion dimchunk) (e.postChunk e.nminargs) (1 - tagI) →
      C'.p = chunkVars setList (c.chunkedVersion dimchunk) (e.postChunk e.nminargs) 2 →
      C'.grp tagI k.toNat = chunkVars setList (c.chunkedVersion dimchunk) (e.postChunk e.nminargs) k.toNat := by
    intro k hk C' h1 h2 h3
    unfold ChunkConsts.grp
    by_cases hk2 : k = 2
    · subst hk2; rw [if_pos (show Int.toNat 2 = 2 from rfl), h3]; rfl
    · rw [if_neg (by omega)]
      by_cases hkt : k.toNat = tagI
      · rw [if_pos hkt, h1, hkt]
      · rw [if_neg hkt, h2]
        congr 1
        omega
  refine ⟨rfl, rfl, rfl, rfl, rfl, rfl, rfl, fun u hu => ?_, fun u hu => ?_, ?_, ?_, ?_⟩
  · have hc := hin.cat u (Expr.outerVars_vars hu)
    rw [g2 _ hc _ rfl rfl rfl]
    exact (mw _ (by omega) _).mpr ⟨u, hu, by omega, rfl⟩
  · have hc := hin.cat u (hcv u (hv4 u hu).1)
    rw [g2 _ hc _ rfl rfl rfl]
    exact (mc _ _).mpr ⟨u, hu, by omega, rfl⟩
  · rw [List.map_append, List.map_append]
    refine List.nodup_append.mpr ⟨List.nodup_append.mpr ⟨nd _ (by omega), nd _ (by omega),
      dis _ (by omega) _ (by omega) (by omega)⟩, nd _ (by omega), fun p hp q hq => ?_⟩
    rcases List.mem_append.mp hp with hp | hp
    · exact dis _ (by omega) 2 (by omega) (by omega) p hp q hq
    · exact dis _ (by omega) 2 (by omega) (by omega) p hp q hq
  · intro v hv
    have : ∃ k < 3, v ∈ (chunkVars setList (c.chunkedVersion dimchunk) (e.postChunk e.nminargs) k).all dimchunk := by
      rcases List.mem_append.mp hv with hv | hv
      · rcases List.mem_append.mp hv with hv | hv
        · exact ⟨_, by omega, hv⟩
        · exact ⟨_, by omega, hv⟩
      · exact ⟨2, by omega, hv⟩
    obtain ⟨k, hk, hv⟩ := this
    obtain ⟨u, hu, -, h⟩ := mall k hk v.ind (List.mem_map_of_mem hv)
    rw [h]
    exact nminargs_lt hu (hin.pos u hu)
  · rcases hsafe.params with h | h
    · right
      refine List.eq_nil_iff_forall_not_mem.mpr fun w hw' => ?_
      obtain ⟨u, hu, hk, -⟩ := (mc 2 w).mp hw'
      have h1 := h c hcm u (hv4 u hu).1 hk
      have h2 := (hv4 u hu).2
      have h3 := (Expr.useChunk_dim hcu).2
      omega
    · left
      refine List.eq_nil_iff_forall_not_mem.mpr fun w hw' => ?_
      obtain ⟨u, hu, hk, -⟩ := (mw 2 (by omega) w).mp hw'
      exact h u hu hk

end Verif
