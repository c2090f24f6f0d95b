import Verif.Props.JvpCall
import Verif.Props.BackwardLse

/-!
# C66 for log-sum-exp and softmax-weighted sums
-/

namespace Verif

open Finset Spec Filter Topology

section

variable {tf tw : Term} {f w ω : Expr} {sigs : List VarId} {tagI m n : Nat} {args : Nat → Nat → ℝ}

/-- A call of a log-sum-exp, or of a softmax-weighted sum, for which forward-mode derivatives are asked for: expressions
`tf` (scalar) and `tw` (weights), the formulas `f` and `w` that are run for them, the declarations `sigs` of the
arguments, in the order of the arguments, and arrays at which the formulas are differentiable. -/
structure JvpWeight (tf tw : Term) (f w : Expr) (sigs : List VarId) (tagI m n : Nat) (args : Nat → Nat → ℝ) : Prop where
  pos : tf.Pos ∧ tw.Pos
  score : ∃ N, tf.compile N = .ok f
  weight : ∃ N, tw.compile N = .ok w
  dim : f.dim = 1
  tag : tagI < 2
  rows : 0 < m ∧ 0 < n
  order : ∀ (a : Nat) (v : VarId), sigs[a]? = some v → v.ind = a
  sig : ∀ v ∈ sigs, 0 < v.dim ∧ (v.cat = 0 ∨ v.cat = 1 ∨ v.cat = 2)
  vars : (∀ u ∈ tf.vars, u ∈ declared sigs) ∧ ∀ u ∈ tw.vars, u ∈ declared sigs
  plain : f.NoBroadcast ∧ w.NoBroadcast
  smooth : ∀ i < m, ∀ j < n, f.Smooth (readEnv (declared sigs) args (i, j)) ∧
    w.Smooth (readEnv (declared sigs) args (i, j))

theorem JvpWeight.pieces (h : JvpWeight tf tw f w sigs tagI m n args) :
    Piece (declared sigs) m n args f ∧ Piece (declared sigs) m n args w :=
  ⟨piece_of h.pos.1 h.score h.vars.1 h.plain.1 fun i hi j hj => (h.smooth i hi j hj).1,
    piece_of h.pos.2 h.weight h.vars.2 h.plain.2 fun i hi j hj => (h.smooth i hi j hj).2⟩

/-- The kernels of the forward mode for a shifted sum. -/
theorem weight_jvp (ho : ∀ (a : Nat) (v : VarId), sigs[a]? = some v → v.ind = a)
    (hs : ∀ v ∈ sigs, 0 < v.dim ∧ (v.cat = 0 ∨ v.cat = 1 ∨ v.cat = 2)) (ht : tagI < 2) (hm : 0 < m) (hn : 0 < n)
    (pf : Piece (declared sigs) m n args f) (pw : Piece (declared sigs) m n args ω) (h1 : f.dim = 1)
    (tangents : List (Option (Mem ℝ))) (hlen : tangents.length = sigs.length) (rs : VarId → Expr)
    (hr : ∀ c ∈ jvpCalls sigs tangents, RedDiffs (.maxSumShiftExp f ω tagI) c.1 (tangentVar sigs.length c.1)
      (resVar sigs.length (1 + ω.dim) tagI) (.sum (rs c.1) tagI)) (sch : SumScheme) :
    ∃ S, getScheme (sumRed (V := ℝ) (1 + ω.dim)) sch = some S ∧
      (∀ c ∈ jvpCalls sigs tangents, (rs c.1).dim = 1 + ω.dim) ∧
      ∀ (M : CMath), M.Exact → ∀ junk (res : Nat → ℝ) (o g : VarId → Mem ℝ),
        (∀ c ∈ jvpCalls sigs tangents, Exec (sumRed (1 + ω.dim)) S
          ((rs c.1).call id id M junk tagI m n (gradArgs sigs.length args c.2 res)) (o c.1) (g c.1)) →
        ∀ q < outRows tagI m n,
          jvpOut ((jvpCalls sigs tangents).map fun c => g c.1) (q * (1 + ω.dim)) = 0 ∧
          ∀ k < ω.dim, HasDerivAt (fun τ => ∑ s ∈ range (redRows tagI m n),
              Real.exp (f.val (readEnv (declared sigs) (movedAll args (dirs tangents) τ) (pairAt tagI q s)) 0 -
                res (q * (1 + ω.dim))) *
              ω.val (readEnv (declared sigs) (movedAll args (dirs tangents) τ) (pairAt tagI q s)) k)
            (jvpOut ((jvpCalls sigs tangents).map fun c => g c.1) (q * (1 + ω.dim) + (1 + k))) 0 := by
  obtain ⟨hl, hlt⟩ := declared_plain ho hs
  set u : Int := ((sigs.length + 1 : Nat) : Int) with hu
  set L := declared sigs ++ [(u, 1 + ω.dim, (tagI : Int))] with hLdef
  have hL : PlainVars L := hl.add (x := (u, 1 + ω.dim, (tagI : Int))) (Int.natCast_nonneg _)
    (by simp only; omega) fun x hx => by
      have := hlt x hx
      have := hl.pos x hx
      simp only [hu]
      omega
  have hη : ∀ x ∈ L, x.1 ≠ sigs.length := fun x hx => by
    rcases List.mem_append.mp hx with hx | hx
    · have := hlt x hx
      have := hl.pos x hx
      omega
    · rw [List.mem_singleton.mp hx]
      simp only [hu]
      omega
  have hul : (u, 1 + ω.dim, (tagI : Int)) ∈ L := List.mem_append_right _ (List.mem_singleton_self _)
  have hw0 := pw.wf.pos
  obtain ⟨S0, hS0, -⟩ := C09_sum ℝ (1 + ω.dim) sch
  -- the formulas that are differentiated
  have hshift : ∀ c ∈ jvpCalls sigs tangents, ∃ N p x, shiftExp N f ω (.var u (1 + ω.dim) tagI) = .ok p ∧
      mkBin .concat (.zero 1) p = .ok x ∧ Diffs x c.1 (tangentVar sigs.length c.1) (rs c.1) := fun c hc => by
    obtain ⟨N, h⟩ := hr c hc
    simp only [RedExpr.diff] at h
    obtain ⟨p, e1, h⟩ := bind_ok' h
    obtain ⟨x, e2, h⟩ := bind_ok' h
    obtain ⟨r, e3, h⟩ := bind_ok' h
    cases h
    rw [h1] at e2
    exact ⟨N, p, x, e1, e2, N, e3⟩
  have hat : ∀ {N p x}, shiftExp N f ω (.var u (1 + ω.dim) tagI) = .ok p → mkBin .concat (.zero 1) p = .ok x →
      ∀ {Δ : Domain} {env : Env}, f.Dom Δ env → ω.Dom Δ env → Δ.var u (1 + ω.dim) tagI →
      Δ.un (.extract 0 1) (1 + ω.dim) (cst (1 + ω.dim) (env u)) → (∀ V, Δ.bin .concat 1 ω.dim (fun _ => 0) V) →
      At Δ env x (1 + ω.dim) fun k => if k = 0 then 0 else Real.exp (f.val env 0 - env u 0) * ω.val env (k - 1) := by
    intro N p x e1 e2 Δ env df dw du dx dc
    have hz : At Δ env (.zero 1) 1 fun _ => 0 := ⟨by simp [Expr.WF], rfl, trivial, fun _ => rfl⟩
    refine (hz.bin (shiftExp_at pf.wf pw.wf h1 df dw du dx e1) (o := .concat) (dc _) e2).2.congr rfl fun k => ?_
    simp only [binVal, cst]
    by_cases hk : k = 0 <;> simp [hk, hw0.ne']
  have hread : ∀ (res : Nat → ℝ) τ p, ∀ x ∈ declared sigs,
      readEnv L (movedAll (gradArgs sigs.length args (fun _ => 0) res) (dirs tangents) τ) p x.1 =
        readEnv (declared sigs) (movedAll args (dirs tangents) τ) p x.1 := fun res τ p x hx => by
    rw [readEnv_append hL p hx rfl, gradArgs_read ho hs]
  have h0 : ∀ A : Nat → Nat → ℝ, movedAll A (dirs tangents) 0 = A := fun A => by funext a k; simp [movedAll]
  have hpiece : ∀ (res : Nat → ℝ) {N p x}, shiftExp N f ω (.var u (1 + ω.dim) tagI) = .ok p →
      mkBin .concat (.zero 1) p = .ok x → Piece L m n (gradArgs sigs.length args (fun _ => 0) res) x := by
    intro res N p x e1 e2
    have hagree : ∀ p, ∀ x ∈ declared sigs, readEnv L (gradArgs sigs.length args (fun _ => 0) res) p x.1 =
        readEnv (declared sigs) args p x.1 := fun p x hx => by
      have := hread res 0 p x hx
      rwa [h0, h0] at this
    have hus : ∀ e : Expr, Piece (declared sigs) m n args e → e.Uses ⟨-1, 1, 0⟩ := fun e he =>
      uses_of_vars he.ff fun y hy hi => by
        have := hl.pos y (he.vars y hy)
        simp only at hi
        omega
    have hdom : ∀ i < m, ∀ j < n, x.Dom (.smooth ⟨-1, 1, 0⟩)
        (readEnv L (gradArgs sigs.length args (fun _ => 0) res) (i, j)) := fun i hi j hj =>
      (hat e1 e2 (Expr.dom_smooth.mpr ⟨smooth_agree pf.ff (fun y hy => hagree _ y (pf.vars y hy)) (pf.smooth i hi j hj),
          pf.plain, hus f pf, pf.ff⟩)
        (Expr.dom_smooth.mpr ⟨smooth_agree pw.ff (fun y hy => hagree _ y (pw.vars y hy)) (pw.smooth i hi j hj),
          pw.plain, hus ω pw, pw.ff⟩) (fun e => absurd e (by simp only [hu]; omega)) trivial
        fun V => ⟨trivial, fun h => by rcases h with h | h <;> cases h⟩).dom
    obtain ⟨-, np, -, fp⟩ := Expr.dom_smooth.mp (hdom 0 hm 0 hn)
    have hp : At (structDom (fun i d c => (i, d, c) ∈ L) fun _ => True) (fun _ _ => 0) x (1 + ω.dim) _ :=
      hat e1 e2 (struct_dom pf.ff fun t ht => List.mem_append_left _ (pf.vars t ht))
        (struct_dom pw.ff fun t ht => List.mem_append_left _ (pw.vars t ht)) hul trivial fun _ => trivial
    exact ⟨hp.wf, fp, (dom_struct hp.dom).2, np, fun i hi j hj => (Expr.dom_smooth.mp (hdom i hi j hj)).1⟩
  have hval : ∀ {N p x}, shiftExp N f ω (.var u (1 + ω.dim) tagI) = .ok p → mkBin .concat (.zero 1) p = .ok x →
      ∀ env, At .triv env x (1 + ω.dim) fun k =>
        if k = 0 then 0 else Real.exp (f.val env 0 - env u 0) * ω.val env (k - 1) := fun e1 e2 env =>
    hat e1 e2 (f.dom_triv env) (ω.dom_triv env) trivial trivial fun _ => trivial
  have : Nonempty Expr := ⟨.zero 1⟩
  choose! Ns pp ps hp1 hp2 hp3 using hshift
  by_cases hemp : jvpCalls sigs tangents = []
  · -- no tangent
    refine ⟨S0, hS0, by simp [hemp], fun M hM junk res o g hex q hq => ?_⟩
    have hd : ∀ a b, dirs tangents a b = 0 := fun a b => by
      unfold dirs
      split
      · rename_i δ hδ
        have ha : a < sigs.length := by
          have := (List.getElem?_eq_some_iff.mp hδ).1
          omega
        have := mem_jvpCalls (List.getElem?_eq_getElem ha) hδ
        rw [hemp] at this
        cases this
      · rfl
    have hst : ∀ τ, movedAll args (dirs tangents) τ = args := fun τ => by
      funext a b
      simp [movedAll, hd]
    simp only [hemp, List.map_nil, hst]
    exact ⟨rfl, fun k _ => hasDerivAt_const _ _⟩
  · obtain ⟨c0, hc0⟩ := List.exists_mem_of_ne_nil _ hemp
    have hdim : ∀ c ∈ jvpCalls sigs tangents, (ps c).dim = 1 + ω.dim := fun c hc =>
      (hval (hp1 c hc) (hp2 c hc) fun _ _ => 0).dim
    have hcore := fun (res : Nat → ℝ) => jvp_core (p := ps c0) (rs := rs) (tangents := tangents) ho hlen
      (fun v hv => (hs v hv).1) hL (fun v hv => List.mem_append_left _ (List.mem_map.mpr ⟨v, hv, rfl⟩)) hη
      (hpiece res (hp1 c0 hc0) (hp2 c0 hc0)) (ps := fun v => ps (v, dirs tangents v.ind.toNat)) (fun c hc => by
        obtain ⟨a, a1, a2⟩ := jvpCalls_mem hc
        have e : (c.1, dirs tangents c.1.ind.toNat) = c := by
          rw [ho a _ a1, Int.toNat_natCast]
          refine Prod.ext rfl ?_
          funext k
          simp [dirs, a2]
        simp only [e]
        exact ⟨hpiece res (hp1 c hc) (hp2 c hc), (hdim c hc).trans (hdim c0 hc0).symm, fun env k _ => by
          rw [(hval (hp1 c hc) (hp2 c hc) env).val, (hval (hp1 c0 hc0) (hp2 c0 hc0) env).val]⟩) hm hn ht (fun c hc => by
        obtain ⟨a, a1, a2⟩ := jvpCalls_mem hc
        have e : (c.1, dirs tangents c.1.ind.toNat) = c := by
          rw [ho a _ a1, Int.toNat_natCast]
          refine Prod.ext rfl ?_
          funext k
          simp [dirs, a2]
        simp only [e]
        exact hp3 c hc) sch
    rw [hdim c0 hc0] at hcore
    obtain ⟨S, hS, hd, -⟩ := hcore fun _ => 0
    refine ⟨S, hS, hd, fun M hM junk res o g hex q hq => ?_⟩
    obtain ⟨S', hS', -, hrun⟩ := hcore res
    rw [hS] at hS'
    cases hS'
    have hder := hrun M hM junk o g hex q hq
    have hrow : ∀ τ s, readEnv L (movedAll (gradArgs sigs.length args (fun _ => 0) res) (dirs tangents) τ)
        (pairAt tagI q s) u 0 = res (q * (1 + ω.dim)) := fun τ s => by
      rw [readEnv_at hL hul, if_pos (show 0 < 1 + ω.dim by omega)]
      have e1 : u.toNat = sigs.length + 1 := Int.toNat_natCast _
      have e2 : rowAt (tagI : Int) (pairAt tagI q s) = q := rowAt_pair (by omega) q s
      have e3 : dirs tangents (sigs.length + 1) (q * (1 + ω.dim)) = 0 := by
        unfold dirs
        rw [List.getElem?_eq_none (by omega)]
      simp only [e1, e2, movedAll, add_zero, e3, mul_zero, gradArgs]
      rw [if_neg (by omega), if_neg (by omega)]
    refine ⟨?_, fun k hk => ?_⟩
    · refine ((hder 0 (by omega)).unique ((hasDerivAt_const (0 : ℝ) (0 : ℝ)).congr_of_eventuallyEq
        (.of_forall fun τ => ?_)))
      exact sum_eq_zero fun s _ => by rw [(hval (hp1 c0 hc0) (hp2 c0 hc0) _).val, if_pos rfl]
    · refine (hder (1 + k) (by omega)).congr_of_eventuallyEq (.of_forall fun τ => ?_)
      unfold sumRow
      refine sum_congr rfl fun s _ => ?_
      rw [(hval (hp1 c0 hc0) (hp2 c0 hc0) _).val, if_neg (by omega), hrow, Nat.add_sub_cancel_left,
        Expr.val_agree pf.ff (fun y hy => hread res τ _ y (pf.vars y hy)),
        Expr.val_agree pw.ff (fun y hy => hread res τ _ y (pw.vars y hy))]

/-- **C66**, log-sum-exp with weights (without weights, `w` is the constant 1).  `res` is the memory `(M, S)` written by
the forward kernel, and `T` the array returned by the forward mode for it, which is the sum of the outputs `g v` of one
kernel for each argument `v` with a tangent.  The derivative that PyTorch computes through `L = M + log S`, which is
`T₀ + T / S`, is the derivative of the log-sum-exp when all the arguments move in the directions of their tangents.

Missing: batch dimensions (see `C66_logsumexp_batch_partial`); Kahan summation; the restrictions of C05 on the formulas. -/
theorem C66_logsumexp_partial (h : JvpWeight tf tw f w sigs tagI m n args) (tangents : List (Option (Mem ℝ)))
    (hlen : tangents.length = sigs.length) (rs : VarId → Expr)
    (hr : ∀ c ∈ jvpCalls sigs tangents, RedDiffs (.maxSumShiftExp f w tagI) c.1 (tangentVar sigs.length c.1)
      (resVar sigs.length (1 + w.dim) tagI) (.sum (rs c.1) tagI))
    (hpos : ∀ i < outRows tagI m n, ∀ k < w.dim, 0 < ∑ j ∈ range (redRows tagI m n),
      Real.exp (f.val (readEnv (declared sigs) args (pairAt tagI i j)) 0) *
        w.val (readEnv (declared sigs) args (pairAt tagI i j)) k)
    (big : ℝ → XR) (long : XR → XR) (sch schd : SumScheme) (hsch : sch ≠ .kahan) :
    ∃ S Sd, getScheme (@lseRed XR (xrNum big) w.dim) sch = some S ∧
      getScheme (sumRed (V := ℝ) (1 + w.dim)) schd = some Sd ∧
      (∀ c ∈ jvpCalls sigs tangents, (rs c.1).dim = 1 + w.dim) ∧
      ∀ M : CMath, M.Exact → ∀ junk o₀ res,
        Exec (@lseRed XR (xrNum big) w.dim) S ((Expr.bin .concat f w).call XR.fin XR.val M junk tagI m n
          fun p q => XR.fin (args p q)) o₀ res →
        ∀ o g : VarId → Mem ℝ,
        (∀ c ∈ jvpCalls sigs tangents, Exec (sumRed (1 + w.dim)) Sd
          ((rs c.1).call id id M junk tagI m n (gradArgs sigs.length args c.2 fun q => (res q).val)) (o c.1) (g c.1)) →
        ∀ T, T = jvpOut ((jvpCalls sigs tangents).map fun c => g c.1) →
        ∀ (out₀ out : ℝ → Mem XR) (L : ℝ → Nat → Nat → ℝ),
          (∀ τ, Exec (@lseRed XR (xrNum big) w.dim) S ((Expr.bin .concat f w).call XR.fin XR.val M junk tagI m n
            fun p q => XR.fin (movedAll args (dirs tangents) τ p q)) (out₀ τ) (out τ)) →
          (∀ τ, ∀ i < outRows tagI m n, ∃ arr,
            postprocess (xrPost long) .logSumExp 0 (1 + w.dim) ((out τ).shift (i * (1 + w.dim))) = some [arr] ∧
            ∀ k < w.dim, L τ i k = (arr.get k).val) →
          ∀ i < outRows tagI m n, ∀ k < w.dim,
            HasDerivAt (fun τ => L τ i k)
              (T (i * (1 + w.dim)) + T (i * (1 + w.dim) + (1 + k)) / (res (i * (1 + w.dim) + (1 + k))).val) 0 := by
  obtain ⟨pf, pw⟩ := h.pieces
  obtain ⟨hl, -⟩ := declared_plain h.order h.sig
  have hne : 0 < redRows tagI m n := by
    have := h.rows
    unfold redRows
    split <;> omega
  obtain ⟨S, B, Gd, hS, hL⟩ := lse_scheme big w.dim hsch
  obtain ⟨Sd, hSd, hdim, hrun⟩ := weight_jvp h.order h.sig h.tag h.rows.1 h.rows.2 pf pw h.dim tangents hlen rs hr schd
  refine ⟨S, Sd, hS, hSd, hdim, fun M hM junk o₀ res hres o g hex T hT out₀ out L hout hpost i hi k hk => ?_⟩
  obtain ⟨c, hc, hck⟩ := lse_raw hl pf.wf pw.wf h.dim pf.ff pw.ff pf.vars pw.vars h.tag hne
    (fun i hi j hj => (pf.smooth i hi j hj).def) (fun i hi j hj => (pw.smooth i hi j hj).def) hL hM hres hi
  obtain ⟨hT0, hTk⟩ := hrun M hM junk (fun q => (res q).val) o g hex i hi
  rw [← hT] at hT0 hTk
  have hder := hTk k hk
  rw [hc] at hder
  simp only [XR.val] at hder
  rw [hT0, zero_add, hck k hk]
  simp only [XR.val]
  have h0 : movedAll args (dirs tangents) 0 = args := by funext a b; simp [movedAll]
  have hp := hpos i hi k hk
  rw [sum_unshift _ (fun j => f.val (readEnv (declared sigs) args (pairAt tagI i j)) 0)
      (fun j => w.val (readEnv (declared sigs) args (pairAt tagI i j)) k) c] at hp
  have hSpos := (mul_pos_iff_of_pos_left (Real.exp_pos _)).mp hp
  have hlog := (hder.const_mul (Real.exp c)).log (by rw [h0]; exact hp.ne')
  rw [h0, mul_div_mul_left _ _ (Real.exp_pos c).ne'] at hlog
  refine hlog.congr_of_eventuallyEq ?_
  have hnear : ∀ᶠ τ in 𝓝 (0 : ℝ), 0 < Real.exp c * ∑ s ∈ range (redRows tagI m n),
      Real.exp (f.val (readEnv (declared sigs) (movedAll args (dirs tangents) τ) (pairAt tagI i s)) 0 - c) *
        w.val (readEnv (declared sigs) (movedAll args (dirs tangents) τ) (pairAt tagI i s)) k := by
    refine (hder.const_mul (Real.exp c)).continuousAt.eventually_const_lt ?_
    beta_reduce
    rw [h0]
    exact hp
  filter_upwards [hnear, pf.near (dirs tangents), pw.near (dirs tangents)] with τ hτ df dw
  obtain ⟨c', h2, h3⟩ := lse_raw hl pf.wf pw.wf h.dim pf.ff pw.ff pf.vars pw.vars h.tag hne df dw hL hM (hout τ) hi
  obtain ⟨arr, h4, h5⟩ := hpost τ i hi
  rw [h5 k hk, post_lse h4 hk]
  simp only [Mem.shift_apply, Nat.add_zero]
  rw [← sum_unshift _ (fun j => f.val (readEnv (declared sigs) (movedAll args (dirs tangents) τ) (pairAt tagI i j)) 0)
      (fun j => w.val (readEnv (declared sigs) (movedAll args (dirs tangents) τ) (pairAt tagI i j)) k)] at hτ ⊢
  rw [h2, h3 k hk, log_unshift, ← sum_unshift _ (fun j => f.val (readEnv (declared sigs)
      (movedAll args (dirs tangents) τ) (pairAt tagI i j)) 0)
      (fun j => w.val (readEnv (declared sigs) (movedAll args (dirs tangents) τ) (pairAt tagI i j)) k)]
  simp only [XR.log, hτ, if_true, XR.val]

/-- The weights of a softmax. -/
theorem Piece.one {l : List (Int × Nat × Int)} (h : Piece l m n args w) :
    Piece l m n args (.bin .concat (.int 1) w) where
  wf := ⟨by simp [Expr.WF], h.wf, rfl, by show 0 < 1 + w.dim; omega⟩
  ff := ⟨trivial, h.ff⟩
  vars t ht := h.vars t ht
  plain := ⟨trivial, h.plain⟩
  smooth i hi j hj := ⟨trivial, h.smooth i hi j hj, trivial⟩

/-- **C66**, softmax-weighted sums.  `res` is the memory `(M, S₀, S)` written by the forward kernel, and `T` the array
returned by the forward mode for it.  The derivative that PyTorch computes through `S / S₀` is the derivative of the
softmax-weighted sums when all the arguments move in the directions of their tangents.

Missing: batch dimensions (see `C66_softmax_batch_partial`); Kahan summation; the restrictions of C05 on the formulas. -/
theorem C66_softmax_partial (h : JvpWeight tf tw f w sigs tagI m n args) (tangents : List (Option (Mem ℝ)))
    (hlen : tangents.length = sigs.length) (rs : VarId → Expr)
    (hr : ∀ c ∈ jvpCalls sigs tangents, RedDiffs (.maxSumShiftExp f (.bin .concat (.int 1) w) tagI) c.1
      (tangentVar sigs.length c.1) (resVar sigs.length (2 + w.dim) tagI) (.sum (rs c.1) tagI))
    (big : ℝ → XR) (long : XR → XR) (sch schd : SumScheme) (hsch : sch ≠ .kahan) :
    ∃ S Sd, getScheme (@lseRed XR (xrNum big) (1 + w.dim)) sch = some S ∧
      getScheme (sumRed (V := ℝ) (2 + w.dim)) schd = some Sd ∧
      (∀ c ∈ jvpCalls sigs tangents, (rs c.1).dim = 2 + w.dim) ∧
      ∀ M : CMath, M.Exact → ∀ junk o₀ res,
        Exec (@lseRed XR (xrNum big) (1 + w.dim)) S ((Expr.bin .concat f (.bin .concat (.int 1) w)).call XR.fin XR.val M
          junk tagI m n fun p q => XR.fin (args p q)) o₀ res →
        ∀ o g : VarId → Mem ℝ,
        (∀ c ∈ jvpCalls sigs tangents, Exec (sumRed (2 + w.dim)) Sd
          ((rs c.1).call id id M junk tagI m n (gradArgs sigs.length args c.2 fun q => (res q).val)) (o c.1) (g c.1)) →
        ∀ T, T = jvpOut ((jvpCalls sigs tangents).map fun c => g c.1) →
        ∀ (out₀ out : ℝ → Mem XR) (L : ℝ → Nat → Nat → ℝ),
          (∀ τ, Exec (@lseRed XR (xrNum big) (1 + w.dim)) S ((Expr.bin .concat f (.bin .concat (.int 1) w)).call XR.fin
            XR.val M junk tagI m n fun p q => XR.fin (movedAll args (dirs tangents) τ p q)) (out₀ τ) (out τ)) →
          (∀ τ, ∀ i < outRows tagI m n, ∃ arr,
            postprocess (xrPost long) .sumSoftMaxWeight 0 (2 + w.dim) ((out τ).shift (i * (2 + w.dim))) = some [arr] ∧
            ∀ k < w.dim, L τ i k = (arr.get k).val) →
          ∀ i < outRows tagI m n, ∀ k < w.dim,
            HasDerivAt (fun τ => L τ i k)
              ((T (i * (2 + w.dim) + (2 + k)) * (res (i * (2 + w.dim) + 1)).val -
                (res (i * (2 + w.dim) + (2 + k))).val * T (i * (2 + w.dim) + 1)) /
                (res (i * (2 + w.dim) + 1)).val ^ 2) 0 := by
  obtain ⟨pf, pw⟩ := h.pieces
  have p1 := pw.one
  have h2d : 2 + w.dim = 1 + (1 + w.dim) := by omega
  rw [h2d] at hr ⊢
  obtain ⟨hl, -⟩ := declared_plain h.order h.sig
  have hne : 0 < redRows tagI m n := by
    have := h.rows
    unfold redRows
    split <;> omega
  obtain ⟨S, B, Gd, hS, hL⟩ := lse_scheme big (1 + w.dim) hsch
  obtain ⟨Sd, hSd, hdim, hrun⟩ := weight_jvp h.order h.sig h.tag h.rows.1 h.rows.2 pf p1 h.dim tangents hlen rs hr schd
  refine ⟨S, Sd, hS, hSd, hdim, fun M hM junk o₀ res hres o g hex T hT out₀ out L hout hpost i hi k hk => ?_⟩
  have hone : ∀ env, (Expr.bin .concat (.int 1) w).val env 0 = 1 := fun env => by
    simp [Expr.val, binVal, cst, Expr.dim]
  have hwk : ∀ env, ∀ k < w.dim, (Expr.bin .concat (.int 1) w).val env (1 + k) = w.val env k := fun env k hk => by
    simp only [Expr.val, binVal, Expr.dim]
    rw [cst_eq (by omega)]
    simp
  have raw : ∀ (A : Nat → Nat → ℝ), (∀ i < m, ∀ j < n, f.Def (readEnv (declared sigs) A (i, j))) →
      (∀ i < m, ∀ j < n, w.Def (readEnv (declared sigs) A (i, j))) → ∀ o res,
      Exec (@lseRed XR (xrNum big) (1 + w.dim)) S ((Expr.bin .concat f (.bin .concat (.int 1) w)).call XR.fin XR.val M
          junk tagI m n fun p q => XR.fin (A p q)) o res →
      ∃ c : ℝ, res (i * (1 + (1 + w.dim))) = XR.fin c ∧
        res (i * (1 + (1 + w.dim)) + 1) = XR.fin (∑ s ∈ range (redRows tagI m n),
          Real.exp (f.val (readEnv (declared sigs) A (pairAt tagI i s)) 0 - c)) ∧
        res (i * (1 + (1 + w.dim)) + (2 + k)) = XR.fin (∑ s ∈ range (redRows tagI m n),
          Real.exp (f.val (readEnv (declared sigs) A (pairAt tagI i s)) 0 - c) *
            w.val (readEnv (declared sigs) A (pairAt tagI i s)) k) := by
    intro A df dw o res he
    obtain ⟨c, h1, h2⟩ := lse_raw hl pf.wf p1.wf h.dim pf.ff p1.ff pf.vars p1.vars h.tag hne df
      (fun i hi j hj => ⟨trivial, dw i hi j hj, trivial⟩) hL hM he hi
    refine ⟨c, h1, ?_, ?_⟩
    · have := h2 0 (by show 0 < 1 + w.dim; omega)
      simp only [hone, mul_one, Nat.add_zero] at this
      exact this
    · have := h2 (1 + k) (by show 1 + k < 1 + w.dim; omega)
      rw [← Nat.add_assoc 1 1 k] at this
      refine this.trans ?_
      congr 1
      exact sum_congr rfl fun s _ => by rw [hwk _ k hk]
  obtain ⟨c, hc, hc0, hck⟩ := raw args (fun i hi j hj => (pf.smooth i hi j hj).def)
    (fun i hi j hj => (pw.smooth i hi j hj).def) o₀ res hres
  obtain ⟨-, hTk⟩ := hrun M hM junk (fun q => (res q).val) o g hex i hi
  rw [← hT] at hTk
  have hd0 := hTk 0 (by show 0 < 1 + w.dim; omega)
  have hd1 := hTk (1 + k) (by show 1 + k < 1 + w.dim; omega)
  change HasDerivAt _ (T (i * (1 + (1 + w.dim)) + 1)) 0 at hd0
  rw [← Nat.add_assoc 1 1 k] at hd1
  change HasDerivAt _ (T (i * (1 + (1 + w.dim)) + (2 + k))) 0 at hd1
  simp only [hone, hwk _ k hk, mul_one] at hd0 hd1
  change HasDerivAt (fun τ => ∑ s ∈ range (redRows tagI m n), Real.exp (f.val _ 0 - (res (i * (1 + (1 + w.dim)))).val)) _ 0
    at hd0
  change HasDerivAt (fun τ => ∑ s ∈ range (redRows tagI m n),
    Real.exp (f.val _ 0 - (res (i * (1 + (1 + w.dim)))).val) * w.val _ k) _ 0 at hd1
  rw [hc] at hd0 hd1
  simp only [XR.val] at hd0 hd1
  have h0 : movedAll args (dirs tangents) 0 = args := by funext a b; simp [movedAll]
  have hS0 : ∀ A : Nat → Nat → ℝ, ∀ c : ℝ, 0 < ∑ s ∈ range (redRows tagI m n),
      Real.exp (f.val (readEnv (declared sigs) A (pairAt tagI i s)) 0 - c) := fun A c =>
    Finset.sum_pos (fun _ _ => Real.exp_pos _) ⟨0, mem_range.mpr hne⟩
  have hq := hd1.div hd0 (by rw [h0]; exact (hS0 args c).ne')
  rw [h0] at hq
  rw [hc0, hck]
  simp only [XR.val]
  refine hq.congr_of_eventuallyEq ?_
  filter_upwards [pf.near (dirs tangents), pw.near (dirs tangents)] with τ df dw
  obtain ⟨c', h2, h20, h3⟩ := raw _ df dw _ _ (hout τ)
  obtain ⟨arr, h4, h5⟩ := hpost τ i hi
  rw [h5 k hk]
  cases h4
  simp only [Mem.shift_apply]
  change XR.val (XR.div (out τ (i * (1 + (1 + w.dim)) + (2 + k))) (out τ (i * (1 + (1 + w.dim)) + 1))) = _
  rw [h20, h3]
  simp only [XR.div, (hS0 _ c').ne', if_false, XR.val, Pi.div_apply]
  have e1 := fun c => sum_unshift (redRows tagI m n)
      (fun j => f.val (readEnv (declared sigs) (movedAll args (dirs tangents) τ) (pairAt tagI i j)) 0)
      (fun j => w.val (readEnv (declared sigs) (movedAll args (dirs tangents) τ) (pairAt tagI i j)) k) c
  have e2 := fun c => sum_unshift (redRows tagI m n)
      (fun j => f.val (readEnv (declared sigs) (movedAll args (dirs tangents) τ) (pairAt tagI i j)) 0) (fun _ => 1) c
  simp only [mul_one] at e2
  have key := fun c => (congrArg₂ (· / ·) (e1 c) (e2 c)).trans (mul_div_mul_left _ _ (Real.exp_pos c).ne')
  rw [← key c', ← key c]

end

/-! ## The hypotheses can be met -/

theorem score_jvp (m n : Nat) (hm : 0 < m) (hn : 0 < n) (args : Nat → Nat → ℝ) :
    JvpWeight backScore backB backScoreE (.var 2 2 1) jvpSigs 0 m n args where
  pos := by simp [Term.Pos, Un.dim]
  score := ⟨20, rfl⟩
  weight := ⟨20, rfl⟩
  dim := rfl
  tag := by omega
  rows := ⟨hm, hn⟩
  order := jvpSigs_order
  sig := jvpSigs_sig
  vars := by decide
  plain := by simp [Expr.NoBroadcast]
  smooth i _ j _ := by simp [Expr.Smooth, binSmooth, unSmooth]

/-- The formulas of the derivatives exist, with respect to the three arguments: for the log-sum-exp, … -/
example : ∃ rs : VarId → Expr, ∀ v ∈ jvpSigs, RedDiffs (.maxSumShiftExp backScoreE (.var 2 2 1) 0) v (tangentVar 3 v)
    (resVar 3 3 0) (.sum (rs v) 0) := by
  have h0 : ∃ r, RedDiffs (.maxSumShiftExp backScoreE (.var 2 2 1) 0) ⟨0, 3, 0⟩ (tangentVar 3 ⟨0, 3, 0⟩) (resVar 3 3 0)
    (.sum r 0) := ⟨_, 20, rfl⟩
  have h1 : ∃ r, RedDiffs (.maxSumShiftExp backScoreE (.var 2 2 1) 0) ⟨1, 3, 1⟩ (tangentVar 3 ⟨1, 3, 1⟩) (resVar 3 3 0)
    (.sum r 0) := ⟨_, 20, rfl⟩
  have h2 : ∃ r, RedDiffs (.maxSumShiftExp backScoreE (.var 2 2 1) 0) ⟨2, 2, 1⟩ (tangentVar 3 ⟨2, 2, 1⟩) (resVar 3 3 0)
    (.sum r 0) := ⟨_, 20, rfl⟩
  obtain ⟨r0, h0⟩ := h0
  obtain ⟨r1, h1⟩ := h1
  obtain ⟨r2, h2⟩ := h2
  refine ⟨fun v => if v.ind = 0 then r0 else if v.ind = 1 then r1 else r2, fun v hv => ?_⟩
  simp only [List.mem_cons, List.not_mem_nil, or_false] at hv
  rcases hv with rfl | rfl | rfl
  · exact h0
  · exact h1
  · exact h2

/-- … and for the softmax-weighted sum, for any number of points: the forward kernel and those of the forward mode run, and
the array of PyTorch is the derivative. -/
example (m n : Nat) (hm : 0 < m) (hn : 0 < n) (args : Nat → Nat → ℝ) (big : ℝ → XR) (long : XR → XR)
    (δx δb : Nat → ℝ) :
    ∃ (rs : VarId → Expr) (S : Scheme XR) (Sd : Scheme ℝ) (res : Mem XR) (g : VarId → Mem ℝ) (T : Mem ℝ),
      Exec (@lseRed XR (xrNum big) 3) S ((Expr.bin .concat backScoreE (.bin .concat (.int 1) (.var 2 2 1))).call XR.fin
        XR.val realMath (fun _ _ => 0) 0 m n fun p q => XR.fin (args p q)) (fun _ => XR.fin 0) res ∧
      (∀ c ∈ jvpCalls jvpSigs [some δx, none, some δb], Exec (sumRed 4) Sd
        ((rs c.1).call id id realMath (fun _ _ => 0) 0 m n (gradArgs 3 args c.2 fun q => (res q).val)) (fun _ => 0)
          (g c.1)) ∧
      T = jvpOut [g ⟨0, 3, 0⟩, g ⟨2, 2, 1⟩] ∧
      ∀ (out₀ out : ℝ → Mem XR) (L : ℝ → Nat → Nat → ℝ),
        (∀ τ, Exec (@lseRed XR (xrNum big) 3) S ((Expr.bin .concat backScoreE (.bin .concat (.int 1) (.var 2 2 1))).call
          XR.fin XR.val realMath (fun _ _ => 0) 0 m n
          fun p q => XR.fin (movedAll args (dirs [some δx, none, some δb]) τ p q)) (out₀ τ) (out τ)) →
        (∀ τ, ∀ i < m, ∃ arr, postprocess (xrPost long) .sumSoftMaxWeight 0 4 ((out τ).shift (i * 4)) = some [arr] ∧
          ∀ k < 2, L τ i k = (arr.get k).val) →
        ∀ i < m, ∀ k < 2, HasDerivAt (fun τ => L τ i k)
          ((T (i * 4 + (2 + k)) * (res (i * 4 + 1)).val - (res (i * 4 + (2 + k))).val * T (i * 4 + 1)) /
            (res (i * 4 + 1)).val ^ 2) 0 := by
  have h0 : ∃ r, RedDiffs (.maxSumShiftExp backScoreE (.bin .concat (.int 1) (.var 2 2 1)) 0) ⟨0, 3, 0⟩
    (tangentVar 3 ⟨0, 3, 0⟩) (resVar 3 4 0) (.sum r 0) := ⟨_, 20, rfl⟩
  have h2 : ∃ r, RedDiffs (.maxSumShiftExp backScoreE (.bin .concat (.int 1) (.var 2 2 1)) 0) ⟨2, 2, 1⟩
    (tangentVar 3 ⟨2, 2, 1⟩) (resVar 3 4 0) (.sum r 0) := ⟨_, 20, rfl⟩
  obtain ⟨r0, h0⟩ := h0
  obtain ⟨r2, h2⟩ := h2
  let rs : VarId → Expr := fun v => if v.ind = 0 then r0 else r2
  have hcalls : jvpCalls jvpSigs [some δx, none, some δb] = [(⟨0, 3, 0⟩, δx), (⟨2, 2, 1⟩, δb)] := rfl
  obtain ⟨S, Sd, hS, hSd, hd, h⟩ := C66_softmax_partial (score_jvp m n hm hn args) [some δx, none, some δb] rfl
    rs (by
      rw [hcalls]
      intro c hc
      simp only [List.mem_cons, List.not_mem_nil, or_false] at hc
      rcases hc with rfl | rfl
      · exact h0
      · exact h2) big long .direct .direct (by decide)
  obtain ⟨res, hres⟩ := exec_exists_cpu (@lseRed XR (xrNum big) 3) S
    ((Expr.bin .concat backScoreE (.bin .concat (.int 1) (.var 2 2 1))).call XR.fin XR.val realMath (fun _ _ => 0) 0 m n
      fun p q => XR.fin (args p q)) (fun _ => XR.fin 0)
  have hg : ∀ c : VarId × Mem ℝ, ∃ g, Exec (sumRed 4) Sd
      ((rs c.1).call id id realMath (fun _ _ => 0) 0 m n (gradArgs 3 args c.2 fun q => (res q).val)) (fun _ => 0) g :=
    fun c => exec_exists_cpu ..
  choose G hG using hg
  let g : VarId → Mem ℝ := fun v => if v.ind = 0 then G (⟨0, 3, 0⟩, δx) else G (⟨2, 2, 1⟩, δb)
  have hex : ∀ c ∈ jvpCalls jvpSigs [some δx, none, some δb], Exec (sumRed 4) Sd
      ((rs c.1).call id id realMath (fun _ _ => 0) 0 m n (gradArgs 3 args c.2 fun q => (res q).val)) (fun _ => 0)
        (g c.1) := by
    rw [hcalls]
    intro c hc
    simp only [List.mem_cons, List.not_mem_nil, or_false] at hc
    rcases hc with rfl | rfl
    · exact hG _
    · exact hG _
  exact ⟨rs, S, Sd, res, g, _, hres, hex, rfl, fun out₀ out L hout hpost =>
    h realMath realMath_exact _ _ res hres (fun _ _ => 0) g hex _ rfl out₀ out L hout hpost⟩

end Verif
