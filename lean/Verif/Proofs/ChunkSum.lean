import Verif.Proofs.ChunkFormula

/-! The sum that is evaluated by chunks, and the formula in which its result is used. -/

namespace Verif

open Spec Finset

theorem chunkDim_ge {d : Nat} (h : chunkDim d = true) : 99 ≤ d := by
  unfold chunkDim at h
  simp only [Bool.or_eq_true, decide_eq_true_eq, List.contains_iff_mem, List.mem_cons, List.not_mem_nil,
    or_false] at h
  omega

namespace Expr

/-! ## The sum -/

/-- The dimension of the sum. -/
def orgDim : Expr → Nat
  | .un _ f => f.dim
  | .bin _ f _ => f.dim
  | _ => 0

/-- Its terms. -/
noncomputable def summand (env : Env) : Expr → Nat → ℝ
  | .un _ f, k => f.val env k
  | .bin _ f g, k => f.val env k * g.val env k
  | _, _ => 0

theorem useChunk_cases {c : Expr} (h : c.useChunk = true) :
    (∃ f, c = .un .sum f ∧ f.isChunkable = true ∧ chunkDim f.dim = true) ∨
    ∃ f g, c = .bin .scalprod f g ∧ f.isChunkable = true ∧ g.isChunkable = true ∧ chunkDim f.dim = true := by
  cases c with
  | un o f =>
    simp only [useChunk, Bool.and_eq_true, decide_eq_true_eq] at h
    exact Or.inl ⟨f, by rw [h.1], h.2.1, h.2.2⟩
  | bin o f g =>
    simp only [useChunk, Bool.and_eq_true, decide_eq_true_eq] at h
    exact Or.inr ⟨f, g, by rw [h.1], h.2.1.1, h.2.1.2, h.2.2⟩
  | _ => simp [useChunk] at h

theorem scalprod_dims {f g : Expr} (hw : (bin .scalprod f g).WF) : f.dim = g.dim := by
  have := hw.2.2.1
  simpa [Bin.accept] using this

theorem useChunk_dim {c : Expr} (h : c.useChunk = true) : c.dim = 1 ∧ 99 ≤ c.orgDim := by
  rcases useChunk_cases h with ⟨f, rfl, -, h⟩ | ⟨f, g, rfl, -, -, h⟩
  · exact ⟨rfl, chunkDim_ge h⟩
  · exact ⟨rfl, chunkDim_ge h⟩

theorem useChunk_factFree {c : Expr} (h : c.useChunk = true) : c.FactFree := by
  rcases useChunk_cases h with ⟨f, rfl, h, -⟩ | ⟨f, g, rfl, h, h', -⟩
  · exact isChunkable_factFree (e := f) h
  · exact ⟨isChunkable_factFree h, isChunkable_factFree h'⟩

theorem val_node {c : Expr} (h : c.useChunk = true) (hw : c.WF) (env : Env) (l : Nat) :
    c.val env l = ∑ k ∈ range c.orgDim, c.summand env k := by
  rcases useChunk_cases h with ⟨f, rfl, -, -⟩ | ⟨f, g, rfl, -, -, -⟩
  · rfl
  · have := scalprod_dims hw
    simp only [val, binVal, orgDim, summand, ← this, max_self]

/-- What the chunked version of the sum computes on the components `s, …, s + d - 1`. -/
structure Chunk (c c' : Expr) (d s : Nat) (env env' : Env) : Prop where
  wf : c'.WF
  factFree : c'.FactFree
  dim : c'.dim = 1
  dfn : c.Def env → c'.Def env'
  val : c'.val env' 0 = ∑ k ∈ range d, c.summand env (s + k)
  vars : ∀ v ∈ c'.vars, (v.2.1 = d ∧ ∃ D, (v.1, D, v.2.2) ∈ c.chunkedVars) ∨ v ∈ c.vars ∧ v.2.1 = 1

theorem chunk_ok {c : Expr} (hu : c.useChunk = true) (hw : c.WF) {d s : Nat} (hd : 0 < d) (hs : s + d ≤ c.orgDim)
    {env env' : Env} (h1 : ∀ v ∈ c.vars, v.2.1 ≠ 1 → ∀ k < d, env' v.1 k = env v.1 (s + k))
    (h2 : ∀ v ∈ c.vars, v.2.1 = 1 → env' v.1 = env v.1) : Chunk c (c.chunkedVersion d) d s env env' := by
  rcases useChunk_cases hu with ⟨f, rfl, hf, hdf⟩ | ⟨f, g, rfl, hf, hg, hdf⟩
  · have hD : f.dim ≠ 1 := by have := chunkDim_ge hdf; omega
    have hmem := piece_mem hf hw.1 hD (Or.inr rfl)
    have P := piece_ok hf hw.1 hD (Or.inr rfl) hd hs (env := env) (env' := env')
      (fun v hv => h1 v (hmem.1 v hv).1 (by rw [(hmem.1 v hv).2]; exact hD))
      (fun v hv => h2 v (hmem.2 v hv).1 (hmem.2 v hv).2)
    have e : (un .sum f).chunkedVersion d = un .sum (piece d f) := by
      simp [chunkedVersion, Un.vectorized, piece, hD]
    have hpd : (piece d f).dim = d := by rw [P.dim, if_neg hD]
    rw [e]
    refine ⟨⟨P.wf, rfl, Nat.one_pos, fun _ h => by cases h⟩, P.factFree, rfl,
      fun hd' => ⟨P.dfn hd'.1, trivial⟩, ?_, fun v hv => ?_⟩
    · simp only [Expr.val, unVal, hpd, summand]
      exact Finset.sum_congr rfl fun k hk => P.val k (Finset.mem_range.mp hk)
    · refine (P.vars v hv).imp (fun ⟨a, D, b⟩ => ⟨a, D, ?_⟩) fun hv => hmem.2 v hv
      rw [pieceVars, if_neg hD] at b
      simpa [chunkedVars, Un.vectorized] using b
  · have hfg := scalprod_dims hw
    have hD : f.dim ≠ 1 := by have := chunkDim_ge hdf; omega
    have hD' : g.dim ≠ 1 := by omega
    have hmem := piece_mem hf hw.1 hD (Or.inr rfl)
    have hmem' := piece_mem hg hw.2.1 hD' (Or.inr rfl)
    have P := piece_ok hf hw.1 hD (Or.inr rfl) hd hs (env := env) (env' := env')
      (fun v hv => h1 v (List.mem_append_left _ (hmem.1 v hv).1) (by rw [(hmem.1 v hv).2]; exact hD))
      (fun v hv => h2 v (List.mem_append_left _ (hmem.2 v hv).1) (hmem.2 v hv).2)
    have Q := piece_ok hg hw.2.1 hD' (Or.inr rfl) hd (hfg ▸ hs) (env := env) (env' := env')
      (fun v hv => h1 v (List.mem_append_right _ (hmem'.1 v hv).1) (by rw [(hmem'.1 v hv).2]; exact hD'))
      (fun v hv => h2 v (List.mem_append_right _ (hmem'.2 v hv).1) (hmem'.2 v hv).2)
    have e : (bin .scalprod f g).chunkedVersion d = bin .scalprod (piece d f) (piece d g) := by
      simp [chunkedVersion, Bin.vectorized, piece, hD, hD']
    have hpd : (piece d f).dim = d := by rw [P.dim, if_neg hD]
    have hqd : (piece d g).dim = d := by rw [Q.dim, if_neg hD']
    rw [e]
    refine ⟨⟨P.wf, Q.wf, by simp [Bin.accept, hpd, hqd], Nat.one_pos⟩, ⟨P.factFree, Q.factFree⟩, rfl,
      fun hd' => ⟨P.dfn hd'.1, Q.dfn hd'.2.1, trivial⟩, ?_, fun v hv => ?_⟩
    · simp only [Expr.val, binVal, hpd, hqd, max_self, summand]
      exact Finset.sum_congr rfl fun k hk => by
        rw [P.val k (Finset.mem_range.mp hk), Q.val k (Finset.mem_range.mp hk)]
    · rcases List.mem_append.mp hv with hv | hv
      · refine (P.vars v hv).imp (fun ⟨a, D, b⟩ => ⟨a, D, ?_⟩) fun hv =>
          ⟨List.mem_append_left _ (hmem.2 v hv).1, (hmem.2 v hv).2⟩
        rw [pieceVars, if_neg hD] at b
        simp [chunkedVars, Bin.vectorized, b]
      · refine (Q.vars v hv).imp (fun ⟨a, D, b⟩ => ⟨a, D, ?_⟩) fun hv =>
          ⟨List.mem_append_right _ (hmem'.2 v hv).1, (hmem'.2 v hv).2⟩
        rw [pieceVars, if_neg hD'] at b
        simp [chunkedVars, Bin.vectorized, b]

/-- The constructors accept the children of the chunked version. -/
theorem chunkedVersion_wf {c : Expr} (hu : c.useChunk = true) (hw : c.WF) {d : Nat} (hd : 0 < d)
    (hs : d ≤ c.orgDim) : (c.chunkedVersion d).WF :=
  (chunk_ok hu hw hd (s := 0) (by omega) (env := fun _ _ => 0) (env' := fun _ _ => 0) (fun _ _ _ _ _ => rfl)
    fun _ _ _ => rfl).wf

theorem chunk_vars {c : Expr} (hu : c.useChunk = true) (hw : c.WF) {d : Nat} (hd : 1 < d) :
    (c.chunkedVersion d).chunkedVars = c.chunkedVars.map (fun v => (v.1, d, v.2.2)) ∧
    (c.chunkedVersion d).notchunkedVars = [] ∧ (c.chunkedVersion d).dim = 1 ∧
    ∀ v ∈ c.chunkedVars, v ∈ c.vars ∧ v.2.1 = c.orgDim := by
  rcases useChunk_cases hu with ⟨f, rfl, hf, hdf⟩ | ⟨f, g, rfl, hf, hg, hdf⟩
  · have hD : f.dim ≠ 1 := by have := chunkDim_ge hdf; omega
    have e : (un .sum f).chunkedVersion d = un .sum (piece d f) := by
      simp [chunkedVersion, Un.vectorized, piece, hD]
    have := pieceVars_piece hf hw.1 hd hD
    have hmem := (piece_mem hf hw.1 hD (Or.inr rfl)).1
    rw [pieceVars, if_neg hD] at hmem
    rw [e]
    simpa [chunkedVars, notchunkedVars, Un.vectorized, this.2, vars, orgDim, dim, Un.dim] using hmem
  · have hfg := scalprod_dims hw
    have hD : f.dim ≠ 1 := by have := chunkDim_ge hdf; omega
    have hD' : g.dim ≠ 1 := by omega
    have e : (bin .scalprod f g).chunkedVersion d = bin .scalprod (piece d f) (piece d g) := by
      simp [chunkedVersion, Bin.vectorized, piece, hD, hD']
    have h1 := pieceVars_piece hf hw.1 hd hD
    have h2 := pieceVars_piece hg hw.2.1 hd hD'
    have hmem := (piece_mem hf hw.1 hD (Or.inr rfl)).1
    have hmem' := (piece_mem hg hw.2.1 hD' (Or.inr rfl)).1
    rw [pieceVars, if_neg hD] at hmem
    rw [pieceVars, if_neg hD'] at hmem'
    rw [e]
    refine ⟨?_, ?_, rfl, fun v hv => ?_⟩
    · simp [chunkedVars, Bin.vectorized, h1.2, h2.2]
    · simp [notchunkedVars, Bin.vectorized]
    · simp only [chunkedVars, Bin.vectorized, Bool.false_eq_true, false_and, if_false, List.mem_append] at hv
      rcases hv with hv | hv
      · exact ⟨List.mem_append_left _ (hmem v hv).1, (hmem v hv).2⟩
      · exact ⟨List.mem_append_right _ (hmem' v hv).1, by rw [(hmem' v hv).2, orgDim, hfg]⟩

/-- A variable of the sum is loaded by chunks or has dimension 1. -/
theorem node_vars {c : Expr} (hu : c.useChunk = true) (hw : c.WF) {v : Int × Nat × Int} (hv : v ∈ c.vars)
    (h1 : v.2.1 ≠ 1) : v ∈ c.chunkedVars := by
  -- in an expression of dimension 1, and in an expression of dimension `D`
  have key : ∀ f : Expr, f.isChunkable = true → f.WF → f.dim ≠ 1 → v ∈ f.vars → v ∈ f.chunkedVars := by
    intro f
    have scal : ∀ x : Expr, x.isChunkable = true → x.WF → x.dim = 1 → v ∉ x.vars := fun x hx hwx h hv => by
      have a := mem_vars_dim hx hwx hv
      have b := vars_pos hwx (isChunkable_factFree hx) hv
      omega
    induction f with
    | var i d c => intro _ _ _ h; exact h
    | zero | int | rat | fact => intro h; simp [isChunkable] at h
    | un o f ih =>
      intro hc hw hd hv
      simp only [isChunkable, Bool.and_eq_true] at hc
      rw [dim_un hc.1] at hd
      rw [chunkedVars, if_neg (by omega)]
      exact ih hc.2 hw.1 hd hv
    | bin o f g i1 i2 =>
      intro hc hw hd hv
      simp only [isChunkable, Bool.and_eq_true] at hc
      rw [chunkedVars]
      rcases List.mem_append.mp hv with hv | hv
      · have hf : f.dim ≠ 1 := fun h => scal f hc.2.1 hw.1 h hv
        rw [if_neg (by omega : ¬(o.vectorized = true ∧ f.dim = 1))]
        exact List.mem_append_left _ (i1 hc.2.1 hw.1 hf hv)
      · have hg : g.dim ≠ 1 := fun h => scal g hc.2.2 hw.2.1 h hv
        rw [if_neg (by omega : ¬(o.vectorized = true ∧ g.dim = 1))]
        exact List.mem_append_right _ (i2 hc.2.2 hw.2.1 hg hv)
    | tern o f g k i1 i2 i3 =>
      intro hc hw hd hv
      simp only [isChunkable, Bool.and_eq_true] at hc
      rw [chunkedVars]
      rcases List.mem_append.mp hv with hv | hv
      · have hf : f.dim ≠ 1 := fun h => scal f hc.1 hw.1 h hv
        rw [if_neg hf]
        exact List.mem_append_left _ (i1 hc.1 hw.1 hf hv)
      · rcases List.mem_append.mp hv with hv | hv
        · have hg : g.dim ≠ 1 := fun h => scal g hc.2.1 hw.2.1 h hv
          rw [if_neg hg]
          exact List.mem_append_right _ (List.mem_append_left _ (i2 hc.2.1 hw.2.1 hg hv))
        · have hk : k.dim ≠ 1 := fun h => scal k hc.2.2 hw.2.2.1 h hv
          rw [if_neg hk]
          exact List.mem_append_right _ (List.mem_append_right _ (i3 hc.2.2 hw.2.2.1 hk hv))
  rcases useChunk_cases hu with ⟨f, rfl, hf, hdf⟩ | ⟨f, g, rfl, hf, hg, hdf⟩
  · have hD : f.dim ≠ 1 := by have := chunkDim_ge hdf; omega
    simpa [chunkedVars, Un.vectorized] using key f hf hw.1 hD hv
  · have hfg := scalprod_dims hw
    have hD : f.dim ≠ 1 := by have := chunkDim_ge hdf; omega
    have hD' : g.dim ≠ 1 := by omega
    simp only [chunkedVars, Bin.vectorized, Bool.false_eq_true, false_and, if_false, List.mem_append]
    exact (List.mem_append.mp hv).imp (key f hf hw.1 hD) (key g hg hw.2.1 hD')

/-! ## Finding the sum -/

theorem isChunkable_none {f : Expr} (h : f.isChunkable = true) :
    f.useChunk = false ∧ f.numChunked = 0 ∧ (∀ d, f.chunkedFormulas d = []) ∧ f.sums = [] := by
  induction f with
  | var => exact ⟨rfl, rfl, fun _ => rfl, rfl⟩
  | zero | int | rat | fact => simp [isChunkable] at h
  | un o f ih =>
    simp only [isChunkable, Bool.and_eq_true] at h
    have hu : (un o f).useChunk = false := by
      by_contra hc
      rcases useChunk_cases (by simpa using hc) with ⟨g, e, -⟩ | ⟨g, k, e, -⟩
      · cases e; simp [Un.vectorized] at h
      · cases e
    obtain ⟨-, i2, i3, i4⟩ := ih h.2
    simp [numChunked, chunkedFormulas, sums, hu, i2, i3, i4]
  | bin o f g ih ih' =>
    simp only [isChunkable, Bool.and_eq_true] at h
    have hu : (bin o f g).useChunk = false := by
      by_contra hc
      rcases useChunk_cases (by simpa using hc) with ⟨g, e, -⟩ | ⟨g, k, e, -⟩
      · cases e
      · cases e; simp [Bin.vectorized] at h
    obtain ⟨-, i2, i3, i4⟩ := ih h.2.1
    obtain ⟨-, j2, j3, j4⟩ := ih' h.2.2
    simp [numChunked, chunkedFormulas, sums, hu, i2, i3, i4, j2, j3, j4]
  | tern o f g k ih ih' ih'' =>
    simp only [isChunkable, Bool.and_eq_true] at h
    obtain ⟨-, i2, i3, i4⟩ := ih h.1
    obtain ⟨-, j2, j3, j4⟩ := ih' h.2.1
    obtain ⟨-, k2, k3, k4⟩ := ih'' h.2.2
    simp [numChunked, chunkedFormulas, sums, useChunk, i2, i3, i4, j2, j3, j4, k2, k3, k4]

theorem useChunk_children {c : Expr} (hu : c.useChunk = true) {d : Nat} :
    c.chunkedFormulas d = [(c.chunkedVersion d, c.orgDim)] ∧ c.numChunked = 1 ∧ c.sums = [c] ∧
    c.outerVars = [] := by
  rcases useChunk_cases hu with ⟨f, rfl, hf, -⟩ | ⟨f, g, rfl, hf, hg, -⟩
  · obtain ⟨-, h2, h3, -⟩ := isChunkable_none hf
    simp [chunkedFormulas, numChunked, sums, outerVars, hu, h2, h3, orgDim]
  · obtain ⟨-, h2, h3, -⟩ := isChunkable_none hf
    obtain ⟨-, k2, k3, -⟩ := isChunkable_none hg
    simp [chunkedFormulas, numChunked, sums, outerVars, hu, h2, h3, k2, k3, orgDim]

theorem sums_useChunk {e c : Expr} (h : c ∈ e.sums) : c.useChunk = true := by
  induction e with
  | var | zero | int | rat => cases h
  | un o f ih =>
    rw [sums] at h
    by_cases hu : (un o f).useChunk = true
    · rw [if_pos hu, List.mem_singleton] at h; rw [h]; exact hu
    · rw [if_neg hu] at h; exact ih h
  | bin o f g i1 i2 =>
    rw [sums] at h
    by_cases hu : (bin o f g).useChunk = true
    · rw [if_pos hu, List.mem_singleton] at h; rw [h]; exact hu
    · rw [if_neg hu] at h; exact (List.mem_append.mp h).elim i1 i2
  | tern o f g k i1 i2 i3 =>
    exact (List.mem_append.mp h).elim i1 fun h => (List.mem_append.mp h).elim i2 i3
  | fact i d c f g i1 i2 => exact (List.mem_append.mp h).elim i1 i2

theorem chunkedFormulas_eq {e : Expr} {d : Nat} :
    e.chunkedFormulas d = e.sums.map (fun c => (c.chunkedVersion d, c.orgDim)) ∧ e.numChunked = e.sums.length := by
  induction e with
  | var | zero | int | rat => exact ⟨rfl, rfl⟩
  | un o f ih =>
    by_cases hu : (un o f).useChunk = true
    · obtain ⟨h1, h2, h3, -⟩ := useChunk_children hu (d := d)
      rw [h1, h2, h3]; exact ⟨rfl, rfl⟩
    · simp [chunkedFormulas, numChunked, sums, hu, ih]
  | bin o f g i1 i2 =>
    by_cases hu : (bin o f g).useChunk = true
    · obtain ⟨h1, h2, h3, -⟩ := useChunk_children hu (d := d)
      rw [h1, h2, h3]; exact ⟨rfl, rfl⟩
    · simp [chunkedFormulas, numChunked, sums, hu, i1, i2]
  | tern o f g k i1 i2 i3 => simp [chunkedFormulas, numChunked, sums, i1, i2, i3]; omega
  | fact i d c f g i1 i2 => simp [chunkedFormulas, numChunked, sums, i1, i2]

theorem sums_wf {e c : Expr} (h : c ∈ e.sums) (hf : e.FactFree) (hw : e.WF) :
    c.WF ∧ (∀ env, e.Def env → c.Def env) ∧ ∀ v ∈ c.vars, v ∈ e.vars := by
  induction e with
  | var | zero | int | rat => cases h
  | un o f ih =>
    rw [sums] at h
    by_cases hu : (un o f).useChunk = true
    · rw [if_pos hu, List.mem_singleton] at h; subst h; exact ⟨hw, fun _ h => h, fun _ h => h⟩
    · rw [if_neg hu] at h
      obtain ⟨a, b, c⟩ := ih h hf hw.1
      exact ⟨a, fun env hd => b env hd.1, c⟩
  | bin o f g i1 i2 =>
    rw [sums] at h
    by_cases hu : (bin o f g).useChunk = true
    · rw [if_pos hu, List.mem_singleton] at h; subst h; exact ⟨hw, fun _ h => h, fun _ h => h⟩
    · rw [if_neg hu] at h
      rcases List.mem_append.mp h with h | h
      · obtain ⟨a, b, c⟩ := i1 h hf.1 hw.1
        exact ⟨a, fun env hd => b env hd.1, fun v hv => List.mem_append_left _ (c v hv)⟩
      · obtain ⟨a, b, c⟩ := i2 h hf.2 hw.2.1
        exact ⟨a, fun env hd => b env hd.2.1, fun v hv => List.mem_append_right _ (c v hv)⟩
  | tern o f g k i1 i2 i3 =>
    rcases List.mem_append.mp h with h | h
    · obtain ⟨a, b, c⟩ := i1 h hf.1 hw.1
      exact ⟨a, fun env hd => b env hd.1, fun v hv => List.mem_append_left _ (c v hv)⟩
    · rcases List.mem_append.mp h with h | h
      · obtain ⟨a, b, c⟩ := i2 h hf.2.1 hw.2.1
        exact ⟨a, fun env hd => b env hd.2.1, fun v hv => List.mem_append_right _ (List.mem_append_left _ (c v hv))⟩
      · obtain ⟨a, b, c⟩ := i3 h hf.2.2 hw.2.2.1
        exact ⟨a, fun env hd => b env hd.2.2.1, fun v hv => List.mem_append_right _ (List.mem_append_right _ (c v hv))⟩
  | fact => exact hf.elim

/-! ## The formula after the chunks -/

theorem post_zero {e : Expr} (h : e.sums = []) (n : Nat) : e.postChunk n = e ∧ e.outerVars = e.vars := by
  induction e generalizing n with
  | var | zero | int | rat => exact ⟨rfl, rfl⟩
  | un o f ih =>
    rw [sums] at h
    by_cases hu : (un o f).useChunk = true
    · rw [if_pos hu] at h; cases h
    · rw [if_neg hu] at h
      rw [postChunk, outerVars, if_neg hu, if_neg hu, (ih h n).1, (ih h n).2]
      exact ⟨rfl, rfl⟩
  | bin o f g i1 i2 =>
    rw [sums] at h
    by_cases hu : (bin o f g).useChunk = true
    · rw [if_pos hu] at h; cases h
    · rw [if_neg hu, List.append_eq_nil_iff] at h
      rw [postChunk, outerVars, if_neg hu, if_neg hu, (i1 h.1 n).1, (i1 h.1 n).2, (i2 h.2 _).1, (i2 h.2 n).2]
      exact ⟨rfl, rfl⟩
  | tern o f g k i1 i2 i3 =>
    rw [sums, List.append_eq_nil_iff, List.append_eq_nil_iff] at h
    rw [postChunk, outerVars, (i1 h.1 n).1, (i1 h.1 n).2, (i2 h.2.1 _).1, (i2 h.2.1 n).2, (i3 h.2.2 _).1,
      (i3 h.2.2 n).2]
    exact ⟨rfl, rfl⟩
  | fact i d c f g i1 i2 =>
    rw [sums, List.append_eq_nil_iff] at h
    rw [postChunk, outerVars, (i1 h.1 n).1, (i1 h.1 n).2, (i2 h.2 _).1, (i2 h.2 n).2]
    exact ⟨rfl, rfl⟩

private theorem or_a {a b p : Prop} : a ∨ (p ∨ b) ↔ p ∨ a ∨ b := by tauto
private theorem or_b {a b p : Prop} : (p ∨ a) ∨ b ↔ p ∨ a ∨ b := by tauto
private theorem or_c {a b c p : Prop} : a ∨ b ∨ (p ∨ c) ↔ p ∨ a ∨ b ∨ c := by tauto
private theorem or_d {a b c p : Prop} : a ∨ (p ∨ b) ∨ c ↔ p ∨ a ∨ b ∨ c := by tauto

/-- What `postChunk` does on a formula with one sum `c`. -/
structure Post (e c e' : Expr) (n : Nat) : Prop where
  wf : e'.WF
  factFree : e'.FactFree
  dim : e'.dim = e.dim
  sem : ∀ env x, (∀ k, x k = c.val env 0) →
    e'.val (Function.update env n x) = e.val env ∧ (e.Def env → e'.Def (Function.update env n x))
  vars : ∀ v, v ∈ e'.vars ↔ v = ((n : Int), 1, 3) ∨ v ∈ e.outerVars

theorem post_one {e c : Expr} {n : Nat} (h : e.sums = [c]) (hf : e.FactFree) (hw : e.WF)
    (hn : ∀ v ∈ e.vars, v.1 ≠ n) : Post e c (e.postChunk n) n := by
  have same : ∀ x : Expr, x.FactFree → (∀ v ∈ x.vars, v.1 ≠ n) → ∀ env y,
      x.val (Function.update env n y) = x.val env ∧ (x.Def env → x.Def (Function.update env n y)) := by
    intro x hx hv env y
    have : ∀ v ∈ x.vars, Function.update env (n : Int) y v.1 = env v.1 :=
      fun v h => Function.update_of_ne (hv v h) _ _
    exact ⟨val_agree hx this, def_agree hx this⟩
  have leaf : ∀ e : Expr, e.useChunk = true → Post e e (.var n 1 3) n := by
    intro e hu
    obtain ⟨hd, -⟩ := useChunk_dim hu
    obtain ⟨-, -, -, ho⟩ := useChunk_children hu (d := 0)
    refine ⟨Nat.one_pos, trivial, hd.symm, fun env x hx => ⟨?_, fun _ => trivial⟩, fun v => ?_⟩
    · funext k
      simp only [val, cst, if_true, Function.update_self, hx]
      rcases useChunk_cases hu with ⟨f, rfl, -⟩ | ⟨f, g, rfl, -⟩ <;> rfl
    · rw [ho]; simp [vars]
  induction e with
  | var | zero | int | rat => cases h
  | un o f ih =>
    rw [sums] at h
    by_cases hu : (un o f).useChunk = true
    · rw [if_pos hu] at h
      cases h
      rw [postChunk, if_pos hu]
      exact leaf _ hu
    · rw [if_neg hu] at h
      have P := ih h hf hw.1 hn
      rw [postChunk, if_neg hu]
      refine ⟨⟨P.wf, ?_, ?_, ?_⟩, P.factFree, ?_, fun env x hx => ⟨?_, fun hd => ⟨(P.sem env x hx).2 hd.1, ?_⟩⟩, ?_⟩
      · rw [P.dim]; exact hw.2.1
      · rw [P.dim]; exact hw.2.2.1
      · rw [P.dim]; exact hw.2.2.2
      · simp only [Expr.dim, P.dim]
      · simp only [val, P.dim, (P.sem env x hx).1]
      · rw [P.dim, (P.sem env x hx).1]; exact hd.2
      · simp only [vars, outerVars, if_neg hu]; exact P.vars
  | bin o f g i1 i2 =>
    have hn1 : ∀ v ∈ f.vars, v.1 ≠ n := fun v hv => hn v (List.mem_append_left _ hv)
    have hn2 : ∀ v ∈ g.vars, v.1 ≠ n := fun v hv => hn v (List.mem_append_right _ hv)
    rw [sums] at h
    by_cases hu : (bin o f g).useChunk = true
    · rw [if_pos hu] at h
      cases h
      rw [postChunk, if_pos hu]
      exact leaf _ hu
    · rw [if_neg hu] at h
      rw [postChunk, if_neg hu]
      rcases List.append_eq_cons_iff.mp h with ⟨h1, h2⟩ | ⟨l, h1, h2⟩
      · -- the sum is in `g`
        have P := i2 h2 hf.2 hw.2.1 hn2
        obtain ⟨e1, e2⟩ := post_zero h1 n
        have hz : f.numChunked = 0 := by rw [(chunkedFormulas_eq (d := 0)).2, h1]; rfl
        rw [e1, hz, show (if o = Bin.scalprod then n else n + 0) = n from ite_self n]
        have S := same f hf.1 hn1
        refine ⟨⟨hw.1, P.wf, ?_, ?_⟩, ⟨hf.1, P.factFree⟩, ?_,
          fun env x hx => ⟨?_, fun hd => ⟨(S env x).2 hd.1, (P.sem env x hx).2 hd.2.1, ?_⟩⟩, fun v => ?_⟩
        · rw [P.dim]; exact hw.2.2.1
        · rw [P.dim]; exact hw.2.2.2
        · simp only [Expr.dim, P.dim]
        · simp only [val, P.dim, (P.sem env x hx).1, (S env x).1]
        · rw [P.dim, (P.sem env x hx).1, (S env x).1]; exact hd.2.2
        · simp only [vars, outerVars, if_neg hu, List.mem_append, P.vars v, e2]; exact or_a
      · -- the sum is in `f`
        have h3 : g.sums = [] := (List.append_eq_nil_iff.mp h2.symm).2
        have hl : l = [] := (List.append_eq_nil_iff.mp h2.symm).1
        subst hl
        have P := i1 h1 hf.1 hw.1 hn1
        have e1 := fun m => (post_zero h3 m).1
        have e2 := (post_zero h3 n).2
        rw [e1]
        have S := same g hf.2 hn2
        refine ⟨⟨P.wf, hw.2.1, ?_, ?_⟩, ⟨P.factFree, hf.2⟩, ?_,
          fun env x hx => ⟨?_, fun hd => ⟨(P.sem env x hx).2 hd.1, (S env x).2 hd.2.1, ?_⟩⟩, fun v => ?_⟩
        · rw [P.dim]; exact hw.2.2.1
        · rw [P.dim]; exact hw.2.2.2
        · simp only [Expr.dim, P.dim]
        · simp only [val, P.dim, (P.sem env x hx).1, (S env x).1]
        · rw [P.dim, (P.sem env x hx).1, (S env x).1]; exact hd.2.2
        · simp only [vars, outerVars, if_neg hu, List.mem_append, P.vars v, e2]; exact or_b
  | tern o f g k i1 i2 i3 =>
    have hn1 : ∀ v ∈ f.vars, v.1 ≠ n := fun v hv => hn v (List.mem_append_left _ hv)
    have hn2 : ∀ v ∈ g.vars, v.1 ≠ n := fun v hv => hn v (List.mem_append_right _ (List.mem_append_left _ hv))
    have hn3 : ∀ v ∈ k.vars, v.1 ≠ n := fun v hv => hn v (List.mem_append_right _ (List.mem_append_right _ hv))
    rw [sums] at h
    rw [postChunk]
    rcases List.append_eq_cons_iff.mp h with ⟨h1, h2⟩ | ⟨l, h1, h2⟩
    · obtain ⟨e1, e2⟩ := post_zero h1 n
      have hz : f.numChunked = 0 := by rw [(chunkedFormulas_eq (d := 0)).2, h1]; rfl
      have S := same f hf.1 hn1
      rcases List.append_eq_cons_iff.mp h2 with ⟨h3, h4⟩ | ⟨l, h3, h4⟩
      · -- in `k`
        have P := i3 h4 hf.2.2 hw.2.2.1 hn3
        obtain ⟨e3, e4⟩ := post_zero h3 n
        have hz' : g.numChunked = 0 := by rw [(chunkedFormulas_eq (d := 0)).2, h3]; rfl
        have T := same g hf.2.1 hn2
        rw [e1, hz, hz', Nat.add_zero, e3]
        refine ⟨⟨hw.1, hw.2.1, P.wf, ?_⟩, ⟨hf.1, hf.2.1, P.factFree⟩, ?_,
          fun env x hx => ⟨?_, fun hd => ⟨(S env x).2 hd.1, (T env x).2 hd.2.1, (P.sem env x hx).2 hd.2.2.1, ?_⟩⟩,
          fun v => ?_⟩
        · rw [P.dim]; exact hw.2.2.2
        · simp only [Expr.dim, P.dim]
        · simp only [val, (P.sem env x hx).1, (S env x).1, (T env x).1]
        · rw [(P.sem env x hx).1, (S env x).1, (T env x).1]
          have := hd.2.2.2
          simp only [Expr.dim, P.dim] at this ⊢
          exact this
        · simp only [vars, outerVars, List.mem_append, P.vars v, e2, e4]; exact or_c
      · -- in `g`
        have h5 : k.sums = [] := (List.append_eq_nil_iff.mp h4.symm).2
        have hl : l = [] := (List.append_eq_nil_iff.mp h4.symm).1
        subst hl
        have P := i2 h3 hf.2.1 hw.2.1 hn2
        have e3 := fun m => (post_zero h5 m).1
        have e4 := (post_zero h5 n).2
        have T := same k hf.2.2 hn3
        rw [e1, hz, Nat.add_zero, e3]
        refine ⟨⟨hw.1, P.wf, hw.2.2.1, ?_⟩, ⟨hf.1, P.factFree, hf.2.2⟩, ?_,
          fun env x hx => ⟨?_, fun hd => ⟨(S env x).2 hd.1, (P.sem env x hx).2 hd.2.1, (T env x).2 hd.2.2.1, ?_⟩⟩,
          fun v => ?_⟩
        · rw [P.dim]; exact hw.2.2.2
        · simp only [Expr.dim, P.dim]
        · simp only [val, (P.sem env x hx).1, (S env x).1, (T env x).1]
        · rw [(P.sem env x hx).1, (S env x).1, (T env x).1]
          have := hd.2.2.2
          simp only [Expr.dim, P.dim] at this ⊢
          exact this
        · simp only [vars, outerVars, List.mem_append, P.vars v, e2, e4]; exact or_d
    · -- in `f`
      have h3 : l = [] := (List.append_eq_nil_iff.mp h2.symm).1
      have h4 := List.append_eq_nil_iff.mp (List.append_eq_nil_iff.mp h2.symm).2
      subst h3
      have P := i1 h1 hf.1 hw.1 hn1
      have e1 := fun m => (post_zero h4.1 m).1
      have e2 := (post_zero h4.1 n).2
      have e3 := fun m => (post_zero h4.2 m).1
      have e4 := (post_zero h4.2 n).2
      have S := same g hf.2.1 hn2
      have T := same k hf.2.2 hn3
      rw [e1, e3]
      refine ⟨⟨P.wf, hw.2.1, hw.2.2.1, ?_⟩, ⟨P.factFree, hf.2.1, hf.2.2⟩, ?_,
        fun env x hx => ⟨?_, fun hd => ⟨(P.sem env x hx).2 hd.1, (S env x).2 hd.2.1, (T env x).2 hd.2.2.1, ?_⟩⟩,
        fun v => ?_⟩
      · rw [P.dim]; exact hw.2.2.2
      · simp only [Expr.dim, P.dim]
      · simp only [val, (P.sem env x hx).1, (S env x).1, (T env x).1]
      · rw [(P.sem env x hx).1, (S env x).1, (T env x).1]
        have := hd.2.2.2
        simp only [Expr.dim, P.dim] at this ⊢
        exact this
      · simp only [vars, outerVars, List.mem_append, P.vars v, e2, e4]; exact or_b
  | fact => exact hf.elim

theorem outerVars_vars {e : Expr} {v : Int × Nat × Int} (h : v ∈ e.outerVars) : v ∈ e.vars := by
  induction e with
  | var => exact h
  | zero | int | rat => cases h
  | un o f ih =>
    rw [outerVars] at h
    split at h
    · cases h
    · exact ih h
  | bin o f g i1 i2 =>
    rw [outerVars] at h
    split at h
    · cases h
    · exact List.mem_append.mpr ((List.mem_append.mp h).imp i1 i2)
  | tern o f g k i1 i2 i3 =>
    exact List.mem_append.mpr ((List.mem_append.mp h).imp i1 fun h =>
      List.mem_append.mpr ((List.mem_append.mp h).imp i2 i3))
  | fact i d c f g i1 i2 => exact List.mem_append.mpr ((List.mem_append.mp h).imp i1 i2)

end Expr

end Verif
