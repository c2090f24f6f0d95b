import Verif.Spec.Chunks
import Verif.Proofs.FormulaInputs

/-! Formulas by chunks: the value of the chunked version on a chunk, and of the formula after the chunks. -/

namespace Verif

open Spec Finset

namespace Expr

/-! ## Changing the environment -/

theorem val_agree {e : Expr} (hf : e.FactFree) {env env' : Env} (h : ∀ v ∈ e.vars, env' v.1 = env v.1) :
    e.val env' = e.val env := by
  induction e with
  | var i d c => simp only [val, h (i, d, c) (List.mem_singleton.mpr rfl)]
  | zero | int | rat => rfl
  | un o f ih => simp only [val, ih hf h]
  | bin o f g i1 i2 =>
    simp only [val, i1 hf.1 fun v hv => h v (List.mem_append_left _ hv),
      i2 hf.2 fun v hv => h v (List.mem_append_right _ hv)]
  | tern o f g k i1 i2 i3 =>
    simp only [val, i1 hf.1 fun v hv => h v (List.mem_append_left _ hv),
      i2 hf.2.1 fun v hv => h v (List.mem_append_right _ (List.mem_append_left _ hv)),
      i3 hf.2.2 fun v hv => h v (List.mem_append_right _ (List.mem_append_right _ hv))]
  | fact => exact hf.elim

theorem def_agree {e : Expr} (hf : e.FactFree) {env env' : Env} (h : ∀ v ∈ e.vars, env' v.1 = env v.1)
    (hd : e.Def env) : e.Def env' := by
  induction e with
  | var | zero | int | rat => trivial
  | un o f ih => exact ⟨ih hf h hd.1, by rw [val_agree (e := f) hf h]; exact hd.2⟩
  | bin o f g i1 i2 =>
    have h1 : ∀ v ∈ f.vars, env' v.1 = env v.1 := fun v hv => h v (List.mem_append_left _ hv)
    have h2 : ∀ v ∈ g.vars, env' v.1 = env v.1 := fun v hv => h v (List.mem_append_right _ hv)
    exact ⟨i1 hf.1 h1 hd.1, i2 hf.2 h2 hd.2.1, by rw [val_agree hf.1 h1, val_agree hf.2 h2]; exact hd.2.2⟩
  | tern o f g k i1 i2 i3 =>
    have h1 : ∀ v ∈ f.vars, env' v.1 = env v.1 := fun v hv => h v (List.mem_append_left _ hv)
    have h2 : ∀ v ∈ g.vars, env' v.1 = env v.1 :=
      fun v hv => h v (List.mem_append_right _ (List.mem_append_left _ hv))
    have h3 : ∀ v ∈ k.vars, env' v.1 = env v.1 :=
      fun v hv => h v (List.mem_append_right _ (List.mem_append_right _ hv))
    exact ⟨i1 hf.1 h1 hd.1, i2 hf.2.1 h2 hd.2.1, i3 hf.2.2 h3 hd.2.2.1, by
      rw [val_agree hf.1 h1, val_agree hf.2.1 h2, val_agree hf.2.2 h3]; exact hd.2.2.2⟩
  | fact => exact hf.elim

theorem isChunkable_factFree {e : Expr} (h : e.isChunkable = true) : e.FactFree := by
  induction e with
  | var | zero | int | rat => trivial
  | un o f ih => simp only [isChunkable, Bool.and_eq_true] at h; exact ih h.2
  | bin o f g i1 i2 => simp only [isChunkable, Bool.and_eq_true] at h; exact ⟨i1 h.2.1, i2 h.2.2⟩
  | tern o f g k i1 i2 i3 =>
    simp only [isChunkable, Bool.and_eq_true] at h; exact ⟨i1 h.1, i2 h.2.1, i3 h.2.2⟩
  | fact => simp [isChunkable] at h

/-! ## One chunk -/

/-- What becomes of a child of a vectorized operation. -/
def piece (d : Nat) (f : Expr) : Expr := if f.dim = 1 then f else f.chunkedVersion d

/-- Its variables that are loaded by chunks. -/
def pieceVars (f : Expr) : List (Int × Nat × Int) := if f.dim = 1 then [] else f.chunkedVars

/-- Its variables that are loaded whole. -/
def pieceWhole (f : Expr) : List (Int × Nat × Int) := if f.dim = 1 then f.vars else f.notchunkedVars

theorem unDef_chunk {o : Un} (ho : o.vectorized = true) {d D : Nat} {x y : Vec} {s : Nat} (h : unDef o D x)
    (hy : ∀ k < d, y k = x (s + k)) (hs : s + d ≤ D) : unDef o d y := by
  have : ∀ k < d, s + k < D := fun k hk => by omega
  cases o <;> first
    | trivial
    | (simp [Un.vectorized] at ho; done)
    | (intro k hk; rw [hy k hk]; exact h _ (this k hk))

theorem binDef_chunk {o : Bin} (ho : o.vectorized = true) {d d' D D' : Nat} {x y x' y' : Vec} {s : Nat}
    (h : binDef o D D' x y) (hx : ∀ k < max d d', x' k = x (s + k)) (hy : ∀ k < max d d', y' k = y (s + k))
    (hs : s + max d d' ≤ max D D') : binDef o d d' x' y' := by
  have : ∀ k < max d d', s + k < max D D' := fun k hk => by omega
  cases o <;> first
    | trivial
    | (simp [Bin.vectorized] at ho; done)
    | (intro k hk; first | rw [hx k hk, hy k hk] | rw [hy k hk] | rw [hx k hk]
       exact h _ (this k hk))

theorem ternDef_chunk {o : Tern} {m m' : Nat} {x y z x' y' z' : Vec} {s : Nat} (h : ternDef o m x y z)
    (hy : ∀ k < m', y' k = y (s + k)) (hs : s + m' ≤ m) : ternDef o m' x' y' z' := by
  cases o <;> first
    | trivial
    | (intro k hk; rw [hy k hk]; exact h _ (by omega))

/-- The chunk of `f` of `d` components starting at `s` (or `f` itself if it is a scalar). -/
structure Piece (f f' : Expr) (d s : Nat) (env env' : Env) : Prop where
  wf : f'.WF
  factFree : f'.FactFree
  dim : f'.dim = if f.dim = 1 then 1 else d
  dfn : f.Def env → f'.Def env'
  val : ∀ k < d, f'.val env' k = f.val env (s + k)
  vars : ∀ v ∈ f'.vars, (v.2.1 = d ∧ ∃ D, (v.1, D, v.2.2) ∈ pieceVars f) ∨ v ∈ pieceWhole f

theorem piece_un {o : Un} (ho : o.vectorized = true) {d : Nat} {f : Expr} :
    (un o f).chunkedVersion d = un o (piece d f) := by
  simp [chunkedVersion, ho, piece]

theorem piece_bin {o : Bin} (ho : o.vectorized = true) {d : Nat} {f g : Expr} :
    (bin o f g).chunkedVersion d = bin o (piece d f) (piece d g) := by
  simp [chunkedVersion, ho, piece]

theorem piece_tern {o : Tern} {d : Nat} {f g h : Expr} :
    (tern o f g h).chunkedVersion d = tern o (piece d f) (piece d g) (piece d h) := by
  simp [chunkedVersion, piece]

theorem Un.accept_vec {o : Un} (ho : o.vectorized = true) (d : Nat) : o.accept d = true := by
  cases o <;> first | rfl | (simp [Un.vectorized] at ho; done)

theorem Bin.accept_vec {o : Bin} (ho : o.vectorized = true) (d d' : Nat) : o.accept d d' = dimsOk [d, d'] := by
  cases o <;> first | rfl | (simp [Bin.vectorized] at ho; done)

theorem piece_ok {f : Expr} (hc : f.isChunkable = true) (hw : f.WF) {D d s : Nat} (hD : D ≠ 1)
    (hdim : f.dim = 1 ∨ f.dim = D) (hd : 0 < d) (hs : s + d ≤ D) {env env' : Env}
    (h1 : ∀ v ∈ pieceVars f, ∀ k < d, env' v.1 k = env v.1 (s + k))
    (h2 : ∀ v ∈ pieceWhole f, env' v.1 = env v.1) : Piece f (piece d f) d s env env' := by
  by_cases h : f.dim = 1
  · have hff := isChunkable_factFree hc
    simp only [pieceWhole, if_pos h] at h2
    simp only [piece, if_pos h]
    exact ⟨hw, hff, by rw [if_pos h]; exact h, def_agree hff h2, fun k _ => by
      rw [val_agree hff h2]; exact val_const hw h env _ _, fun v hv => by
      rw [pieceWhole, if_pos h]; exact Or.inr hv⟩
  have hfD : f.dim = D := hdim.resolve_left h
  induction f with
  | var i n c =>
    simp only [pieceVars, if_neg h, chunkedVars, List.mem_singleton, forall_eq] at h1
    simp only [piece, if_neg h, chunkedVersion]
    refine ⟨hd, trivial, by rw [if_neg h]; rfl, fun _ => trivial, fun k hk => ?_, fun v hv => ?_⟩
    · have hn : n ≠ 1 := h
      simp only [val, cst, if_neg hn]
      by_cases hd1 : d = 1
      · rw [if_pos hd1]
        have : k = 0 := by omega
        rw [this]
        exact h1 0 (by omega)
      · rw [if_neg hd1]; exact h1 k hk
    · rw [vars, List.mem_singleton] at hv
      subst hv
      exact Or.inl ⟨rfl, n, by simp [pieceVars, if_neg h, chunkedVars]⟩
  | zero | int | rat | fact => simp [isChunkable] at hc
  | un o f ih =>
    simp only [isChunkable, Bool.and_eq_true] at hc
    have ho := hc.1
    rw [dim_un ho] at h hfD hdim
    have hpv : pieceVars (un o f) = pieceVars f := by
      simp [pieceVars, chunkedVars, dim_un ho, h]
    have hpw : pieceWhole (un o f) = pieceWhole f := by
      simp [pieceWhole, notchunkedVars, ho, dim_un ho, h]
    rw [hpv] at h1
    rw [hpw] at h2
    have P := ih hc.2 hw.1 hdim h1 h2 h hfD
    have e : piece d (un o f) = un o (piece d f) := by
      rw [piece, dim_un ho, if_neg h, piece_un ho]
    have hdp : (piece d f).dim = d := by rw [P.dim, if_neg h]
    rw [e]
    refine ⟨⟨P.wf, Un.accept_vec ho _, ?_, ?_⟩, P.factFree, ?_, fun hd' => ⟨P.dfn hd'.1, ?_⟩, fun k hk => ?_, ?_⟩
    · have := dim_un (f := piece d f) ho
      rw [show o.dim (piece d f).dim = (un o (piece d f)).dim from rfl, this, hdp]; exact hd
    · rintro n rfl; simp [Un.vectorized] at ho
    · rw [dim_un ho, dim_un ho]; exact P.dim
    · rw [hdp]
      exact unDef_chunk ho hd'.2 P.val (by omega)
    · exact unVal_congr ho (P.val k hk)
    · rw [hpv, hpw]; exact P.vars
  | bin o f g i1 i2 =>
    simp only [isChunkable, Bool.and_eq_true] at hc
    have ho := hc.1
    have hd2 := hw.dims ho
    have hmax := dim_bin (f := f) (g := g) ho
    have p1 := hw.1.pos
    have p2 := hw.2.1.pos
    have hf1 : f.dim = 1 ∨ f.dim = D := by omega
    have hg1 : g.dim = 1 ∨ g.dim = D := by omega
    have hpv : pieceVars (bin o f g) = pieceVars f ++ pieceVars g := by
      simp [pieceVars, chunkedVars, ho, h]
    have hpw : pieceWhole (bin o f g) = pieceWhole f ++ pieceWhole g := by
      simp [pieceWhole, notchunkedVars, ho, h]
    rw [hpv] at h1
    rw [hpw] at h2
    have P1 : Piece f (piece d f) d s env env' := by
      have a := fun v hv => h1 v (List.mem_append_left _ hv)
      have b := fun v hv => h2 v (List.mem_append_left _ hv)
      by_cases hf : f.dim = 1
      · have hff := isChunkable_factFree hc.2.1
        simp only [pieceWhole, if_pos hf] at b
        simp only [piece, if_pos hf]
        exact ⟨hw.1, hff, by rw [if_pos hf]; exact hf, def_agree hff b, fun k _ => by
          rw [val_agree hff b]; exact val_const hw.1 hf env _ _, fun v hv => by
          rw [pieceWhole, if_pos hf]; exact Or.inr hv⟩
      · exact i1 hc.2.1 hw.1 hf1 a b hf (hf1.resolve_left hf)
    have P2 : Piece g (piece d g) d s env env' := by
      have a := fun v hv => h1 v (List.mem_append_right _ hv)
      have b := fun v hv => h2 v (List.mem_append_right _ hv)
      by_cases hg : g.dim = 1
      · have hff := isChunkable_factFree hc.2.2
        simp only [pieceWhole, if_pos hg] at b
        simp only [piece, if_pos hg]
        exact ⟨hw.2.1, hff, by rw [if_pos hg]; exact hg, def_agree hff b, fun k _ => by
          rw [val_agree hff b]; exact val_const hw.2.1 hg env _ _, fun v hv => by
          rw [pieceWhole, if_pos hg]; exact Or.inr hv⟩
      · exact i2 hc.2.2 hw.2.1 hg1 a b hg (hg1.resolve_left hg)
    have e : piece d (bin o f g) = bin o (piece d f) (piece d g) := by
      rw [piece, if_neg h, piece_bin ho]
    have hm : max (piece d f).dim (piece d g).dim = d := by
      rw [P1.dim, P2.dim]
      by_cases hf : f.dim = 1 <;> by_cases hg : g.dim = 1
      · omega
      · rw [if_pos hf, if_neg hg]; omega
      · rw [if_neg hf, if_pos hg]; omega
      · rw [if_neg hf, if_neg hg]; omega
    rw [e]
    refine ⟨⟨P1.wf, P2.wf, ?_, ?_⟩, ⟨P1.factFree, P2.factFree⟩, ?_,
      fun hd' => ⟨P1.dfn hd'.1, P2.dfn hd'.2.1, ?_⟩, fun k hk => ?_, ?_⟩
    · rw [Bin.accept_vec ho, dimsOk_pair P1.wf.pos P2.wf.pos, P1.dim, P2.dim]
      by_cases hf : f.dim = 1 <;> by_cases hg : g.dim = 1 <;> simp [hf, hg]
    · have := dim_bin (f := piece d f) (g := piece d g) ho
      rw [show o.dim (piece d f).dim (piece d g).dim = (bin o (piece d f) (piece d g)).dim from rfl, this, hm]
      exact hd
    · rw [dim_bin ho, hm, if_neg h]
    · exact binDef_chunk ho hd'.2.2 (s := s) (by rw [hm]; exact P1.val) (by rw [hm]; exact P2.val)
        (by rw [hm]; omega)
    · exact binVal_congr ho (P1.val k hk) (P2.val k hk)
    · intro v hv
      rw [hpv, hpw]
      rcases List.mem_append.mp hv with hv | hv
      · exact (P1.vars v hv).imp (fun ⟨a, D, b⟩ => ⟨a, D, List.mem_append_left _ b⟩)
          (List.mem_append_left _)
      · exact (P2.vars v hv).imp (fun ⟨a, D, b⟩ => ⟨a, D, List.mem_append_right _ b⟩)
          (List.mem_append_right _)
  | tern o f g k i1 i2 i3 =>
    simp only [isChunkable, Bool.and_eq_true] at hc
    have p1 := hw.1.pos
    have p2 := hw.2.1.pos
    have p3 := hw.2.2.1.pos
    have hmax : (tern o f g k).dim = max (max f.dim g.dim) k.dim := rfl
    have hok := (dimsOk_triple p1 p2 p3).mp hw.2.2.2
    have hpv : pieceVars (tern o f g k) = pieceVars f ++ (pieceVars g ++ pieceVars k) := by
      simp [pieceVars, chunkedVars, h]
    have hpw : pieceWhole (tern o f g k) = pieceWhole f ++ (pieceWhole g ++ pieceWhole k) := by
      simp [pieceWhole, notchunkedVars, h]
    rw [hpv] at h1
    rw [hpw] at h2
    have key : ∀ x : Expr, x.isChunkable = true → x.WF → (x.dim = 1 ∨ x.dim = D) →
        (∀ v ∈ pieceVars x, ∀ k < d, env' v.1 k = env v.1 (s + k)) →
        (∀ v ∈ pieceWhole x, env' v.1 = env v.1) →
        (x.dim ≠ 1 → Piece x (piece d x) d s env env') → Piece x (piece d x) d s env env' := by
      intro x hx hwx hdx a b c
      by_cases hf : x.dim = 1
      · have hff := isChunkable_factFree hx
        simp only [pieceWhole, if_pos hf] at b
        simp only [piece, if_pos hf]
        exact ⟨hwx, hff, by rw [if_pos hf]; exact hf, def_agree hff b, fun k _ => by
          rw [val_agree hff b]; exact val_const hwx hf env _ _, fun v hv => by
          rw [pieceWhole, if_pos hf]; exact Or.inr hv⟩
      · exact c hf
    have hf1 : f.dim = 1 ∨ f.dim = D := by omega
    have hg1 : g.dim = 1 ∨ g.dim = D := by omega
    have hk1 : k.dim = 1 ∨ k.dim = D := by omega
    have P1 : Piece f (piece d f) d s env env' := by
      have a := fun v hv => h1 v (List.mem_append_left _ hv)
      have b := fun v hv => h2 v (List.mem_append_left _ hv)
      exact key f hc.1 hw.1 hf1 a b fun hf => i1 hc.1 hw.1 hf1 a b hf (hf1.resolve_left hf)
    have P2 : Piece g (piece d g) d s env env' := by
      have a := fun v hv => h1 v (List.mem_append_right _ (List.mem_append_left _ hv))
      have b := fun v hv => h2 v (List.mem_append_right _ (List.mem_append_left _ hv))
      exact key g hc.2.1 hw.2.1 hg1 a b fun hf => i2 hc.2.1 hw.2.1 hg1 a b hf (hg1.resolve_left hf)
    have P3 : Piece k (piece d k) d s env env' := by
      have a := fun v hv => h1 v (List.mem_append_right _ (List.mem_append_right _ hv))
      have b := fun v hv => h2 v (List.mem_append_right _ (List.mem_append_right _ hv))
      exact key k hc.2.2 hw.2.2.1 hk1 a b fun hf => i3 hc.2.2 hw.2.2.1 hk1 a b hf (hk1.resolve_left hf)
    have e : piece d (tern o f g k) = tern o (piece d f) (piece d g) (piece d k) := by
      rw [piece, if_neg h, piece_tern]
    have hm : max (max (piece d f).dim (piece d g).dim) (piece d k).dim = d ∧
        ((piece d f).dim = 1 ∨ (piece d f).dim = d) ∧ ((piece d g).dim = 1 ∨ (piece d g).dim = d) ∧
        ((piece d k).dim = 1 ∨ (piece d k).dim = d) := by
      rw [P1.dim, P2.dim, P3.dim]
      clear i1 i2 i3 P1 P2 P3 key
      split_ifs <;> omega
    rw [e]
    refine ⟨⟨P1.wf, P2.wf, P3.wf, ?_⟩, ⟨P1.factFree, P2.factFree, P3.factFree⟩, ?_,
      fun hd' => ⟨P1.dfn hd'.1, P2.dfn hd'.2.1, P3.dfn hd'.2.2.1, ?_⟩, fun k hk => ?_, ?_⟩
    · rw [dimsOk_triple P1.wf.pos P2.wf.pos P3.wf.pos, hm.1]
      exact hm.2
    · rw [if_neg h]; exact hm.1
    · have e2 : (tern o (piece d f) (piece d g) (piece d k)).dim = d := hm.1
      rw [e2]
      exact ternDef_chunk hd'.2.2.2 P2.val (by omega)
    · exact ternVal_congr (P1.val k hk) (P2.val k hk) (P3.val k hk)
    · intro v hv
      rw [hpv, hpw]
      rcases List.mem_append.mp hv with hv | hv
      · exact (P1.vars v hv).imp (fun ⟨a, D, b⟩ => ⟨a, D, List.mem_append_left _ b⟩)
          (List.mem_append_left _)
      · rcases List.mem_append.mp hv with hv | hv
        · exact (P2.vars v hv).imp
            (fun ⟨a, D, b⟩ => ⟨a, D, List.mem_append_right _ (List.mem_append_left _ b)⟩)
            (fun b => List.mem_append_right _ (List.mem_append_left _ b))
        · exact (P3.vars v hv).imp
            (fun ⟨a, D, b⟩ => ⟨a, D, List.mem_append_right _ (List.mem_append_right _ b)⟩)
            (fun b => List.mem_append_right _ (List.mem_append_right _ b))

/-! ## Variables of a chunkable formula -/

theorem mem_vars_dim {f : Expr} (hc : f.isChunkable = true) (hw : f.WF) {v : Int × Nat × Int} (hv : v ∈ f.vars) :
    v.2.1 ≤ f.dim := by
  induction f with
  | var i d c => rw [vars, List.mem_singleton] at hv; subst hv; exact le_refl _
  | zero | int | rat | fact => simp [isChunkable] at hc
  | un o f ih =>
    simp only [isChunkable, Bool.and_eq_true] at hc
    rw [dim_un hc.1]
    exact ih hc.2 hw.1 hv
  | bin o f g i1 i2 =>
    simp only [isChunkable, Bool.and_eq_true] at hc
    rw [dim_bin hc.1]
    rcases List.mem_append.mp hv with hv | hv
    · exact (i1 hc.2.1 hw.1 hv).trans (le_max_left _ _)
    · exact (i2 hc.2.2 hw.2.1 hv).trans (le_max_right _ _)
  | tern o f g k i1 i2 i3 =>
    simp only [isChunkable, Bool.and_eq_true] at hc
    simp only [dim]
    rcases List.mem_append.mp hv with hv | hv
    · have := i1 hc.1 hw.1 hv; omega
    · rcases List.mem_append.mp hv with hv | hv
      · have := i2 hc.2.1 hw.2.1 hv; omega
      · have := i3 hc.2.2 hw.2.2.1 hv; omega

theorem vars_pos {f : Expr} (hw : f.WF) (hff : f.FactFree) {v : Int × Nat × Int} (hv : v ∈ f.vars) : 0 < v.2.1 := by
  induction f with
  | var i d c => rw [vars, List.mem_singleton] at hv; subst hv; exact hw
  | zero | int | rat => cases hv
  | fact => exact hff.elim
  | un o f ih => exact ih hw.1 hff hv
  | bin o f g i1 i2 => exact (List.mem_append.mp hv).elim (i1 hw.1 hff.1) (i2 hw.2.1 hff.2)
  | tern o f g k i1 i2 i3 =>
    exact (List.mem_append.mp hv).elim (i1 hw.1 hff.1) fun hv =>
      (List.mem_append.mp hv).elim (i2 hw.2.1 hff.2.1) (i3 hw.2.2.1 hff.2.2)

/-- The variables loaded by chunks have the dimension of the formula, the others have dimension 1. -/
theorem piece_mem {f : Expr} (hc : f.isChunkable = true) (hw : f.WF) {D : Nat} (hD : D ≠ 1)
    (hdim : f.dim = 1 ∨ f.dim = D) :
    (∀ v ∈ pieceVars f, v ∈ f.vars ∧ v.2.1 = D) ∧ (∀ v ∈ pieceWhole f, v ∈ f.vars ∧ v.2.1 = 1) := by
  by_cases h : f.dim = 1
  · refine ⟨fun v hv => ?_, fun v hv => ?_⟩
    · rw [pieceVars, if_pos h] at hv; cases hv
    · rw [pieceWhole, if_pos h] at hv
      have h1 := mem_vars_dim hc hw hv
      have h2 := vars_pos hw (isChunkable_factFree hc) hv
      exact ⟨hv, by omega⟩
  induction f with
  | var i n c =>
    have hn : n = D := hdim.resolve_left h
    simp only [pieceVars, pieceWhole, if_neg h, chunkedVars, notchunkedVars, vars, List.mem_singleton, forall_eq]
    exact ⟨⟨trivial, hn⟩, fun v hv => by cases hv⟩
  | zero | int | rat | fact => simp [isChunkable] at hc
  | un o f ih =>
    simp only [isChunkable, Bool.and_eq_true] at hc
    have ho := hc.1
    rw [dim_un ho] at h hdim
    have hpv : pieceVars (un o f) = pieceVars f := by simp [pieceVars, chunkedVars, dim_un ho, h]
    have hpw : pieceWhole (un o f) = pieceWhole f := by simp [pieceWhole, notchunkedVars, ho, dim_un ho, h]
    rw [hpv, hpw]
    exact ih hc.2 hw.1 hdim h
  | bin o f g i1 i2 =>
    simp only [isChunkable, Bool.and_eq_true] at hc
    have ho := hc.1
    have hd2 := hw.dims ho
    have hmax := dim_bin (f := f) (g := g) ho
    have p1 := hw.1.pos
    have p2 := hw.2.1.pos
    have hf1 : f.dim = 1 ∨ f.dim = D := by omega
    have hg1 : g.dim = 1 ∨ g.dim = D := by omega
    have hpv : pieceVars (bin o f g) = pieceVars f ++ pieceVars g := by simp [pieceVars, chunkedVars, ho, h]
    have hpw : pieceWhole (bin o f g) = pieceWhole f ++ pieceWhole g := by simp [pieceWhole, notchunkedVars, ho, h]
    have base : ∀ x : Expr, x.isChunkable = true → x.WF → x.dim = 1 →
        (∀ v ∈ pieceVars x, v ∈ x.vars ∧ v.2.1 = D) ∧ (∀ v ∈ pieceWhole x, v ∈ x.vars ∧ v.2.1 = 1) := by
      intro x hx hwx h
      refine ⟨fun v hv => ?_, fun v hv => ?_⟩
      · rw [pieceVars, if_pos h] at hv; cases hv
      · rw [pieceWhole, if_pos h] at hv
        have h1 := mem_vars_dim hx hwx hv
        have h2 := vars_pos hwx (isChunkable_factFree hx) hv
        exact ⟨hv, by omega⟩
    have A := if hf : f.dim = 1 then base f hc.2.1 hw.1 hf else i1 hc.2.1 hw.1 hf1 hf
    have B := if hg : g.dim = 1 then base g hc.2.2 hw.2.1 hg else i2 hc.2.2 hw.2.1 hg1 hg
    rw [hpv, hpw]
    refine ⟨fun v hv => ?_, fun v hv => ?_⟩
    · rcases List.mem_append.mp hv with hv | hv
      · exact ⟨List.mem_append_left _ (A.1 v hv).1, (A.1 v hv).2⟩
      · exact ⟨List.mem_append_right _ (B.1 v hv).1, (B.1 v hv).2⟩
    · rcases List.mem_append.mp hv with hv | hv
      · exact ⟨List.mem_append_left _ (A.2 v hv).1, (A.2 v hv).2⟩
      · exact ⟨List.mem_append_right _ (B.2 v hv).1, (B.2 v hv).2⟩
  | tern o f g k i1 i2 i3 =>
    simp only [isChunkable, Bool.and_eq_true] at hc
    have p1 := hw.1.pos
    have p2 := hw.2.1.pos
    have p3 := hw.2.2.1.pos
    have hmax : (tern o f g k).dim = max (max f.dim g.dim) k.dim := rfl
    have hok := (dimsOk_triple p1 p2 p3).mp hw.2.2.2
    have hf1 : f.dim = 1 ∨ f.dim = D := by omega
    have hg1 : g.dim = 1 ∨ g.dim = D := by omega
    have hk1 : k.dim = 1 ∨ k.dim = D := by omega
    have hpv : pieceVars (tern o f g k) = pieceVars f ++ (pieceVars g ++ pieceVars k) := by
      simp [pieceVars, chunkedVars, h]
    have hpw : pieceWhole (tern o f g k) = pieceWhole f ++ (pieceWhole g ++ pieceWhole k) := by
      simp [pieceWhole, notchunkedVars, h]
    have base : ∀ x : Expr, x.isChunkable = true → x.WF → x.dim = 1 →
        (∀ v ∈ pieceVars x, v ∈ x.vars ∧ v.2.1 = D) ∧ (∀ v ∈ pieceWhole x, v ∈ x.vars ∧ v.2.1 = 1) := by
      intro x hx hwx h
      refine ⟨fun v hv => ?_, fun v hv => ?_⟩
      · rw [pieceVars, if_pos h] at hv; cases hv
      · rw [pieceWhole, if_pos h] at hv
        have h1 := mem_vars_dim hx hwx hv
        have h2 := vars_pos hwx (isChunkable_factFree hx) hv
        exact ⟨hv, by omega⟩
    have A := if hf : f.dim = 1 then base f hc.1 hw.1 hf else i1 hc.1 hw.1 hf1 hf
    have B := if hg : g.dim = 1 then base g hc.2.1 hw.2.1 hg else i2 hc.2.1 hw.2.1 hg1 hg
    have C := if hk : k.dim = 1 then base k hc.2.2 hw.2.2.1 hk else i3 hc.2.2 hw.2.2.1 hk1 hk
    rw [hpv, hpw]
    refine ⟨fun v hv => ?_, fun v hv => ?_⟩
    · rcases List.mem_append.mp hv with hv | hv
      · exact ⟨List.mem_append_left _ (A.1 v hv).1, (A.1 v hv).2⟩
      · rcases List.mem_append.mp hv with hv | hv
        · exact ⟨List.mem_append_right _ (List.mem_append_left _ (B.1 v hv).1), (B.1 v hv).2⟩
        · exact ⟨List.mem_append_right _ (List.mem_append_right _ (C.1 v hv).1), (C.1 v hv).2⟩
    · rcases List.mem_append.mp hv with hv | hv
      · exact ⟨List.mem_append_left _ (A.2 v hv).1, (A.2 v hv).2⟩
      · rcases List.mem_append.mp hv with hv | hv
        · exact ⟨List.mem_append_right _ (List.mem_append_left _ (B.2 v hv).1), (B.2 v hv).2⟩
        · exact ⟨List.mem_append_right _ (List.mem_append_right _ (C.2 v hv).1), (C.2 v hv).2⟩

/-- Variables of a chunk, for chunks of more than one component. -/
theorem pieceVars_piece {f : Expr} (hc : f.isChunkable = true) (hw : f.WF) {d : Nat} (hd : 1 < d) (h : f.dim ≠ 1) :
    (piece d f).dim = d ∧ (piece d f).chunkedVars = f.chunkedVars.map fun v => (v.1, d, v.2.2) := by
  have hfd := hw.pos
  have dim : ∀ {x : Expr}, x.isChunkable = true → x.WF → (x.dim = 1 → (piece d x).dim = 1) ∧
      (x.dim ≠ 1 → (piece d x).dim = d) := by
    intro x hx hwx
    refine ⟨fun h => by rw [piece, if_pos h]; exact h, fun h => ?_⟩
    -- any offset and environment will do
    by_cases hle : d ≤ x.dim
    · have := (piece_ok hx hwx (D := x.dim) (d := d) (s := 0) h (Or.inr rfl) (by omega) (by omega)
        (env := fun _ _ => 0) (env' := fun _ _ => 0) (fun _ _ _ _ => rfl) (fun _ _ => rfl)).dim
      rwa [if_neg h] at this
    · induction x with
      | var i n c => rw [piece, if_neg h]; rfl
      | zero | int | rat | fact => simp [isChunkable] at hx
      | un o f ih =>
        simp only [isChunkable, Bool.and_eq_true] at hx
        have e : piece d (un o f) = un o (piece d f) := by rw [piece, if_neg h, piece_un hx.1]
        rw [e, dim_un hx.1]
        rw [dim_un hx.1] at h hle
        exact ih hx.2 hwx.1 h hle
      | bin o f g i1 i2 =>
        simp only [isChunkable, Bool.and_eq_true] at hx
        have e : piece d (bin o f g) = bin o (piece d f) (piece d g) := by rw [piece, if_neg h, piece_bin hx.1]
        have hm := dim_bin (f := f) (g := g) hx.1
        have p1 := hwx.1.pos
        have p2 := hwx.2.1.pos
        rw [e, dim_bin hx.1]
        have a1 : f.dim = 1 → (piece d f).dim = 1 := fun h => by rw [piece, if_pos h]; exact h
        have a2 : g.dim = 1 → (piece d g).dim = 1 := fun h => by rw [piece, if_pos h]; exact h
        have b1 : f.dim ≠ 1 → (piece d f).dim = d := fun h => i1 hx.2.1 hwx.1 h (by omega)
        have b2 : g.dim ≠ 1 → (piece d g).dim = d := fun h => i2 hx.2.2 hwx.2.1 h (by omega)
        omega
      | tern o f g k i1 i2 i3 =>
        simp only [isChunkable, Bool.and_eq_true] at hx
        have e : piece d (tern o f g k) = tern o (piece d f) (piece d g) (piece d k) := by
          rw [piece, if_neg h, piece_tern]
        have hm : (tern o f g k).dim = max (max f.dim g.dim) k.dim := rfl
        have p1 := hwx.1.pos
        have p2 := hwx.2.1.pos
        have p3 := hwx.2.2.1.pos
        have hm' : (tern o (piece d f) (piece d g) (piece d k)).dim =
          max (max (piece d f).dim (piece d g).dim) (piece d k).dim := rfl
        rw [e, hm']
        have a1 : f.dim = 1 → (piece d f).dim = 1 := fun h => by rw [piece, if_pos h]; exact h
        have a2 : g.dim = 1 → (piece d g).dim = 1 := fun h => by rw [piece, if_pos h]; exact h
        have a3 : k.dim = 1 → (piece d k).dim = 1 := fun h => by rw [piece, if_pos h]; exact h
        have b1 : f.dim ≠ 1 → (piece d f).dim = d := fun h => i1 hx.1 hwx.1 h (by omega)
        have b2 : g.dim ≠ 1 → (piece d g).dim = d := fun h => i2 hx.2.1 hwx.2.1 h (by omega)
        have b3 : k.dim ≠ 1 → (piece d k).dim = d := fun h => i3 hx.2.2 hwx.2.2.1 h (by omega)
        omega
  refine ⟨(dim hc hw).2 h, ?_⟩
  induction f with
  | var i n c => rw [piece, if_neg h]; rfl
  | zero | int | rat | fact => simp [isChunkable] at hc
  | un o f ih =>
    simp only [isChunkable, Bool.and_eq_true] at hc
    have e : piece d (un o f) = un o (piece d f) := by rw [piece, if_neg h, piece_un hc.1]
    rw [dim_un hc.1] at h
    have h1 := (dim hc.2 hw.1).2 h
    rw [e, chunkedVars, chunkedVars, if_neg (by omega), if_neg (by omega)]
    exact ih hc.2 hw.1 h hw.1.pos
  | bin o f g i1 i2 =>
    simp only [isChunkable, Bool.and_eq_true] at hc
    have ho := hc.1
    have e : piece d (bin o f g) = bin o (piece d f) (piece d g) := by rw [piece, if_neg h, piece_bin ho]
    have one : ∀ x : Expr, x.isChunkable = true → x.WF → (x.dim ≠ 1 → (piece d x).chunkedVars =
        x.chunkedVars.map fun v => (v.1, d, v.2.2)) →
        (if o.vectorized = true ∧ (piece d x).dim = 1 then [] else (piece d x).chunkedVars) =
        (if o.vectorized = true ∧ x.dim = 1 then [] else x.chunkedVars).map fun v => (v.1, d, v.2.2) := by
      intro x hx hwx ihx
      by_cases h1 : x.dim = 1
      · rw [if_pos ⟨ho, (dim hx hwx).1 h1⟩, if_pos ⟨ho, h1⟩]; rfl
      · have := (dim hx hwx).2 h1
        rw [if_neg (by omega), if_neg (by omega)]
        exact ihx h1
    rw [e, chunkedVars, chunkedVars, List.map_append, one f hc.2.1 hw.1 fun h => i1 hc.2.1 hw.1 h hw.1.pos,
      one g hc.2.2 hw.2.1 fun h => i2 hc.2.2 hw.2.1 h hw.2.1.pos]
  | tern o f g k i1 i2 i3 =>
    simp only [isChunkable, Bool.and_eq_true] at hc
    have e : piece d (tern o f g k) = tern o (piece d f) (piece d g) (piece d k) := by
      rw [piece, if_neg h, piece_tern]
    have one : ∀ x : Expr, x.isChunkable = true → x.WF → (x.dim ≠ 1 → (piece d x).chunkedVars =
        x.chunkedVars.map fun v => (v.1, d, v.2.2)) →
        (if (piece d x).dim = 1 then [] else (piece d x).chunkedVars) =
        (if x.dim = 1 then [] else x.chunkedVars).map fun v => (v.1, d, v.2.2) := by
      intro x hx hwx ihx
      by_cases h1 : x.dim = 1
      · rw [if_pos ((dim hx hwx).1 h1), if_pos h1]; rfl
      · have := (dim hx hwx).2 h1
        rw [if_neg (by omega), if_neg (by omega)]
        exact ihx h1
    rw [e, chunkedVars, chunkedVars, List.map_append, List.map_append,
      one f hc.1 hw.1 fun h => i1 hc.1 hw.1 h hw.1.pos,
      one g hc.2.1 hw.2.1 fun h => i2 hc.2.1 hw.2.1 h hw.2.1.pos,
      one k hc.2.2 hw.2.2.1 fun h => i3 hc.2.2 hw.2.2.1 h hw.2.2.1.pos]

end Expr

end Verif
