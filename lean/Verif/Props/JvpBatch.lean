import Verif.Proofs.JvpBatch
import Verif.Props.JvpCall

/-!
# C66 with batch dimensions
-/

namespace Verif

open Finset Spec Filter Topology

/-- A call with batch dimensions for which forward-mode derivatives are asked for: as `JvpSetting`, with arrays of shapes
`shapes`, whose batch dimensions are those of `batch` or 1, and at which the formula is differentiable in each batch. -/
structure JvpBatch (t : Term) (e : Expr) (sigs : List VarId) (tagI m n : Nat) (shapes : List (List Nat))
    (batch : List Nat) (args : Nat → Nat → ℝ) : Prop where
  pos : t.Pos
  compiled : ∃ N, t.compile N = .ok e
  tag : tagI < 2
  rows : 0 < m ∧ 0 < n
  order : ∀ (a : Nat) (v : VarId), sigs[a]? = some v → v.ind = a
  sig : ∀ v ∈ sigs, 0 < v.dim ∧ (v.cat = 0 ∨ v.cat = 1 ∨ v.cat = 2)
  vars : ∀ u ∈ t.vars, u ∈ declared sigs
  plain : e.NoBroadcast
  count : shapes.length = sigs.length
  fits : ∀ u ∈ declared sigs, ∃ xb, Broadcasts xb batch ∧
    shapes.getD u.1.toNat [] = xb ++ tailShape u.2.2 (if u.2.2 = 1 then n else m) u.2.1
  call : CallBatch e shapes batch
  smooth : ∀ b, Arr.Idx batch b → ∀ i < m, ∀ j < n, e.Smooth (readBatch (declared sigs) shapes args b (i, j))

/-- **C66**, sums with batch dimensions: all the arguments move, each in the direction of its tangent.  The array returned
by the forward mode is the derivative of every entry of the output of the call, in every batch; arguments may be
broadcast along some batch dimensions.

Partial: each derivative that is computed must have the batch dimensions of the output (`hb`); `not_C66_batch` shows that
the property fails otherwise.  The restrictions of C05 on the formula. -/
theorem C66_sum_batch_partial {t : Term} {e : Expr} {sigs : List VarId} {tagI m n : Nat} {shapes : List (List Nat)}
    {batch : List Nat} {args : Nat → Nat → ℝ}
    (h : JvpBatch t e sigs tagI m n shapes batch args) (tangents : List (Option (Mem ℝ)))
    (hlen : tangents.length = sigs.length) (result : Nat → ℝ) (rs : VarId → Expr)
    (hr : ∀ c ∈ jvpCalls sigs tangents, RedDiffs (.sum e tagI) c.1 (tangentVar sigs.length c.1)
      (resVar sigs.length e.dim tagI) (.sum (rs c.1) tagI))
    (hb : ∀ c ∈ jvpCalls sigs tangents,
      CallBatch (rs c.1) (jvpShapes shapes c.1 (outShape batch tagI m n e.dim)) batch) (sch schd : SumScheme) :
    ∃ S Sd, getScheme (sumRed (V := ℝ) e.dim) sch = some S ∧ getScheme (sumRed (V := ℝ) e.dim) schd = some Sd ∧
      (∀ c ∈ jvpCalls sigs tangents, (rs c.1).dim = e.dim) ∧
      ∀ M : CMath, M.Exact → ∀ junk dimout nrows,
        (∀ c ∈ jvpCalls sigs tangents, ∃ P, rangeCall ((rs c.1).call id id M junk tagI m n
            (gradArgs sigs.length args c.2 result)).ev (rs c.1).inputs tagI (gradArgs sigs.length args c.2 result)
            (jvpShapes shapes c.1 (outShape batch tagI m n e.dim)) m n dimout nrows none = some P) ∧
        ∀ (o g : VarId → Mem ℝ),
        (∀ c ∈ jvpCalls sigs tangents, ∀ P, rangeCall ((rs c.1).call id id M junk tagI m n
            (gradArgs sigs.length args c.2 result)).ev (rs c.1).inputs tagI (gradArgs sigs.length args c.2 result)
            (jvpShapes shapes c.1 (outShape batch tagI m n e.dim)) m n dimout nrows none = some P →
          RExec (sumRed e.dim) Sd P (o c.1) (g c.1)) →
        ∀ out₀ out : ℝ → Mem ℝ,
          (∀ τ, ∃ P, rangeCall (e.call id id M junk tagI m n (movedAll args (dirs tangents) τ)).ev e.inputs tagI
              (movedAll args (dirs tangents) τ) shapes m n dimout nrows none = some P ∧
            RExec (sumRed e.dim) S P (out₀ τ) (out τ)) →
          ∀ b, Arr.Idx batch b → ∀ i < outRows tagI m n, ∀ k < e.dim,
            HasDerivAt (fun τ => out τ (Spec.pos (outShape batch tagI m n e.dim) (b ++ [i, k])))
              (jvpOut ((jvpCalls sigs tangents).map fun c => g c.1)
                (Spec.pos (outShape batch tagI m n e.dim) (b ++ [i, k]))) 0 := by
  obtain ⟨N, hc⟩ := h.compiled
  obtain ⟨hff, hvars⟩ := compile_vars h.pos hc
  have hw := (compile_rep h.pos hc).wf
  have hev : ∀ u ∈ e.vars, u ∈ declared sigs := fun u hu => h.vars u (hvars u hu)
  obtain ⟨hl, hlt⟩ := declared_plain h.order h.sig
  have hη : ∀ u ∈ declared sigs, u.1 ≠ sigs.length := fun u hu => by
    have := hlt u hu
    have := hl.pos u hu
    omega
  have hsub : ∀ v ∈ sigs, (v.ind, v.dim, v.cat) ∈ declared sigs := fun v hv => List.mem_map.mpr ⟨v, hv, rfl⟩
  have hsig : ∀ c ∈ jvpCalls sigs tangents, c.1 ∈ sigs := fun c hc => by
    obtain ⟨a, h1, -⟩ := jvpCalls_mem hc
    exact List.mem_of_getElem? h1
  have hd : ∀ c ∈ jvpCalls sigs tangents, Diffs e c.1 (tangentVar sigs.length c.1) (rs c.1) := fun c hc => by
    obtain ⟨N, h1⟩ := hr c hc
    simp only [RedExpr.diff] at h1
    obtain ⟨r', h2, h3⟩ := bind_ok' h1
    cases h3
    exact ⟨N, h2⟩
  set L := declared sigs with hLdef
  set os := outShape batch tagI m n e.dim with hos
  have hext : ∀ c ∈ jvpCalls sigs tangents, PlainVars (L ++ [((sigs.length : Int), c.1.dim, c.1.cat)]) := fun c hc =>
    hl.add (x := ((sigs.length : Int), c.1.dim, c.1.cat)) (Int.natCast_nonneg _)
      (hl.cat (c.1.ind, c.1.dim, c.1.cat) (hsub _ (hsig c hc))) hη
  have hcount := h.count
  have hold : ∀ (v : VarId) p, p < sigs.length → (jvpShapes shapes v os).getD p [] = shapes.getD p [] := fun v p hp => by
    simp [jvpShapes, List.getD_eq_getElem?_getD, List.getElem?_append_left (show p < shapes.length by omega)]
  have hnew : ∀ v : VarId, (jvpShapes shapes v os).getD sigs.length [] = shapes.getD v.ind.toNat [] := fun v => by
    simp [jvpShapes, List.getD_eq_getElem?_getD, h.count.symm]
  have hcsL : CallShapes L shapes batch m n := h.fits
  have hcs : ∀ c ∈ jvpCalls sigs tangents,
      CallShapes (L ++ [((sigs.length : Int), c.1.dim, c.1.cat)]) (jvpShapes shapes c.1 os) batch m n := fun c hc u hu => by
    rcases List.mem_append.mp hu with h1 | h1
    · rw [hold _ _ (hlt u h1)]
      exact h.fits u h1
    · rw [List.mem_singleton.mp h1]
      simp only [Int.toNat_natCast, hnew]
      exact h.fits _ (hsub _ (hsig c hc))
  -- the arrays seen from a batch
  set A : List Nat → Nat → Nat → ℝ := fun b => viewB L shapes m n b args with hA
  set B : List Nat → VarId × Mem ℝ → Nat → Nat → ℝ := fun b c => viewB (L ++ [((sigs.length : Int), c.1.dim, c.1.cat)])
    (jvpShapes shapes c.1 os) m n b (gradArgs sigs.length args c.2 result) with hB
  set A' : List Nat → Nat → Nat → ℝ := fun b q => if q < sigs.length then A b q else
    viewB L (shapes ++ [[], os]) m n b (fun _ => result) q with hA'
  have hP : ∀ b, Arr.Idx batch b → Piece L m n (A b) e := fun b hb =>
    ⟨hw, hff, hev, h.plain, fun i hi j hj => by
      rw [readEnv_view hl hcsL hb args (p := (i, j)) hi hj]
      exact h.smooth b hb i hi j hj⟩
  have hcong : ∀ b (Δ : Nat → Nat → ℝ) τ p, readEnv L (movedAll (A' b) Δ τ) p = readEnv L (movedAll (A b) Δ τ) p :=
    fun b Δ τ p => readEnv_congr (fun u hu => by
      have := hlt u hu
      funext k
      simp [movedAll, hA', this]) p
  have hz : ∀ X Δ : Nat → Nat → ℝ, movedAll X Δ 0 = X := fun X Δ => by funext a k; simp [movedAll]
  have hP' : ∀ b, Arr.Idx batch b → Piece L m n (A' b) e := fun b hb =>
    ⟨hw, hff, hev, h.plain, fun i hi j hj => by
      have := hcong b (fun _ _ => 0) 0 (i, j)
      rw [hz, hz] at this
      rw [this]
      exact (hP b hb).smooth i hi j hj⟩
  have hlenB : ∀ (c : VarId × Mem ℝ) q, q ≠ sigs.length →
      blockLen (L ++ [((sigs.length : Int), c.1.dim, c.1.cat)]) m n q = blockLen L m n q := fun c q hq => by
    simp only [blockLen, List.find?_append]
    cases hf : L.find? (fun u => decide (u.1 = (q : Int))) with
    | none => simp [Ne.symm hq]
    | some u => simp
  have hAB : ∀ b, ∀ c ∈ jvpCalls sigs tangents, ∀ q, q ≠ sigs.length → B b c q = A' b q := fun b c hc q hq => by
    funext k
    by_cases h1 : q < sigs.length
    · simp only [hB, hA', hA, if_pos h1, viewB, hlenB c q hq, hold c.1 q h1]
      simp [gradArgs, h1]
    · have e1 : (jvpShapes shapes c.1 os).getD q [] = (shapes ++ [[], os]).getD q [] := by
        unfold jvpShapes
        rw [List.getD_append_right _ _ _ _ (by omega), List.getD_append_right _ _ _ _ (by omega)]
        obtain ⟨d, hd⟩ : ∃ d, q - shapes.length = d + 1 := ⟨q - shapes.length - 1, by omega⟩
        rw [hd]
        rfl
      simp only [hB, hA', if_neg h1, viewB, hlenB c q hq, e1]
      simp [gradArgs, h1, hq]
  have hdir : ∀ b (a : Nat) v δ, sigs[a]? = some v → tangents[a]? = some (some δ) →
      B b (v, δ) sigs.length = viewB L shapes m n b (dirs tangents) a := fun b a v δ h1 h2 => by
    have ha : a < sigs.length := (List.getElem?_eq_some_iff.mp h1).1
    have hv : v ∈ sigs := List.mem_of_getElem? h1
    have hva := h.order a v h1
    funext k
    have e1 : blockLen (L ++ [((sigs.length : Int), v.dim, v.cat)]) m n sigs.length = blockLen L m n a := by
      have f1 : L.find? (fun u => decide (u.1 = (sigs.length : Int))) = none := by
        rw [List.find?_eq_none]
        intro u hu
        simpa using hη u hu
      have f2 := find_var hl (hsub v hv)
      simp only [hva] at f2
      simp only [blockLen, List.find?_append, f1, f2]
      simp
    have e2 : v.ind.toNat = a := by rw [hva, Int.toNat_natCast]
    simp only [hB, viewB, hnew, e1, e2]
    simp [gradArgs, dirs, h2]
  have h0 : ∀ b (a : Nat), (sigs.length ≤ a ∨ ∀ δ, tangents[a]? ≠ some (some δ)) → ∀ k,
      viewB L shapes m n b (dirs tangents) a k = 0 := fun b a ha k => by
    simp only [viewB, dirs]
    rcases ha with ha | ha
    · rw [List.getElem?_eq_none (by omega)]
    · split
      · rename_i δ hδ
        exact absurd hδ (ha δ)
      · rfl
  obtain ⟨S, hS, hfwd⟩ := sum_exec_batch (args := fun _ _ => 0) hl hw hff hev h.tag
    (fun u hu => hcsL u (hev u hu)) h.call sch
  have hfwd' : ∀ X : Nat → Nat → ℝ, ∀ M : CMath, M.Exact → ∀ junk dimout rows,
      ∃ P, rangeCall (e.call id id M junk tagI m n X).ev e.inputs tagI X shapes m n dimout rows none = some P ∧
      ∀ out out', RExec (sumRed e.dim) S P out out' →
      (∀ b, Arr.Idx batch b → ∀ i < m, ∀ j < n, e.Def (readBatch L shapes X b (i, j))) →
      ∀ b, Arr.Idx batch b → ∀ q < outRows tagI m n, ∀ k < e.dim,
        out' (Spec.pos (batch ++ [outRows tagI m n, e.dim]) (b ++ [q, k])) =
          sumRow e tagI m n (readBatch L shapes X b) q k := fun X => by
    obtain ⟨S', hS', h1⟩ := sum_exec_batch (args := X) hl hw hff hev h.tag (fun u hu => hcsL u (hev u hu)) h.call sch
    rw [hS] at hS'
    cases hS'
    exact h1
  obtain ⟨Sd, hSd, -⟩ := C18_sum_partial ℝ e.dim schd
  have hpair := fun b (hb : Arr.Idx batch b) c (hc : c ∈ jvpCalls sigs tangents) => pair_diff (B := B b c) (hext c hc)
    (hsub _ (hsig c hc)) (h.sig _ (hsig c hc)).1 hη (hAB b c hc) (hP' b hb) (hd c hc) h.rows.1 h.rows.2
  -- a batch
  have hz0 : ∀ c ∈ jvpCalls sigs tangents, Arr.Idx batch (batch.map fun _ => 0) := fun c hc => by
    obtain ⟨xb, hx, -⟩ := h.fits _ (hsub _ (hsig c hc))
    exact idx_zero hx
  have hdim : ∀ c ∈ jvpCalls sigs tangents, (rs c.1).dim = e.dim := fun c hc => (hpair _ (hz0 c hc) c hc).2.2.2.1
  have hrun : ∀ c ∈ jvpCalls sigs tangents, ∀ M : CMath, M.Exact → ∀ junk dimout rows,
      ∃ P, rangeCall ((rs c.1).call id id M junk tagI m n (gradArgs sigs.length args c.2 result)).ev (rs c.1).inputs tagI
          (gradArgs sigs.length args c.2 result) (jvpShapes shapes c.1 os) m n dimout rows none = some P ∧
      ∀ out out', RExec (sumRed e.dim) Sd P out out' →
      ∀ b, Arr.Idx batch b → ∀ q < outRows tagI m n, ∀ k < e.dim,
        out' (Spec.pos os (b ++ [q, k])) = sumRow (rs c.1) tagI m n
          (readEnv (L ++ [((sigs.length : Int), c.1.dim, c.1.cat)]) (B b c)) q k := fun c hc M hM junk dimout rows => by
    obtain ⟨rw', rf, rv, rd, -⟩ := hpair _ (hz0 c hc) c hc
    obtain ⟨S', hS', h1⟩ := sum_exec_batch (args := gradArgs sigs.length args c.2 result) (hext c hc) rw' rf rv h.tag
      (fun u hu => hcs c hc u (rv u hu)) (hb c hc) schd
    rw [rd] at hS'
    rw [hSd] at hS'
    cases hS'
    obtain ⟨P, h2, h3⟩ := h1 M hM junk dimout rows
    refine ⟨P, h2, fun out out' he b hb q hq k hk => ?_⟩
    rw [rd] at h3
    rw [hos, outShape, h3 out out' he (fun b hb i hi j hj => ?_) b hb q hq k hk]
    · unfold sumRow
      refine sum_congr rfl fun s hs => ?_
      obtain ⟨p1, p2⟩ := pairAt_lt hq (mem_range.mp hs)
      rw [hB, readEnv_view (hext c hc) (hcs c hc) hb _ p1 p2]
    · have := ((hpair b hb c hc).2.2.2.2 i hi j hj).1
      rw [hB, readEnv_view (hext c hc) (hcs c hc) hb _ (p := (i, j)) hi hj] at this
      exact this
  refine ⟨S, Sd, hS, hSd, hdim, fun M hM junk dimout rows => ⟨fun c hc => ?_, fun o g hg out₀ out hout b hb i hi k hk => ?_⟩⟩
  · obtain ⟨P, h1, -⟩ := hrun c hc M hM junk dimout rows
    exact ⟨P, h1⟩
  have hkey := jvp_row (rs := rs) (g := g) (x := Spec.pos os (b ++ [i, k])) h.order (fun v hv => (h.sig v hv).1) hl hsub hη
    (hP' b hb) hd (hAB b) (hdir b) (h0 b) hi hk (fun c hc => by
      obtain ⟨P, h1, h2⟩ := hrun c hc M hM junk dimout rows
      exact h2 _ _ (hg c hc P h1) b hb i hi k hk)
  refine hkey.congr_of_eventuallyEq ?_
  have hnear : ∀ᶠ τ in 𝓝 (0 : ℝ), ∀ b, Arr.Idx batch b → ∀ i < m, ∀ j < n,
      e.Def (readBatch L shapes (movedAll args (dirs tangents) τ) b (i, j)) := idx_eventually fun b hb => by
    filter_upwards [(hP b hb).near (viewB L shapes m n b (dirs tangents))] with τ hτ i hi j hj
    rw [← readEnv_view hl hcsL hb _ (p := (i, j)) hi hj, viewB_moved]
    exact hτ i hi j hj
  filter_upwards [hnear] with τ hτ
  obtain ⟨P, h1, h2⟩ := hout τ
  obtain ⟨P', h1', h3⟩ := hfwd' (movedAll args (dirs tangents) τ) M hM junk dimout rows
  rw [h1] at h1'
  cases h1'
  rw [hos, outShape, h3 _ _ h2 hτ b hb i hi k hk]
  unfold sumRow
  refine sum_congr rfl fun s hs => ?_
  obtain ⟨p1, p2⟩ := pairAt_lt hi (mem_range.mp hs)
  rw [hcong, ← viewB_moved, readEnv_view hl hcsL hb _ p1 p2]

/-! ## The hypotheses can be met -/

theorem gauss_jvp_batch (m n : Nat) (hm : 0 < m) (hn : 0 < n) (hm' : m < 2 ^ 28) (hn' : n < 2 ^ 28)
    (args : Nat → Nat → ℝ) : JvpBatch gauss gaussE jvpSigs 0 m n (gaussShapes m n) [3, 2] args where
  pos := gauss_pos
  compiled := ⟨20, rfl⟩
  tag := by omega
  rows := ⟨hm, hn⟩
  order := jvpSigs_order
  sig := jvpSigs_sig
  vars := by decide
  plain := by simp [gaussE, Expr.NoBroadcast]
  count := rfl
  fits := (gauss_back_batch ⟨0, 3, 0⟩ (by decide) m n hm hn hm' hn' args).fits
  call := ⟨by simp, ⟨(0, 3, 0), by decide, by decide⟩, fun c hc => .inr ⟨(2, 2, 1), by decide, by
      obtain rfl | rfl : c = 0 ∨ c = 1 := by simp at hc; omega
      all_goals rfl⟩,
    (gauss_back_batch ⟨0, 3, 0⟩ (by decide) m n hm hn hm' hn' args).int32.1⟩
  smooth b _ i _ j _ := by simp [gaussE, Expr.Smooth, binSmooth, unSmooth, Expr.dim, Un.dim, Bin.dim]

/-- The derivative of a batch of Gaussian convolutions when the points `x`, of shape `(3, 1, m, 3)`, and the signal `b`,
of shape `(3, 2, n, 2)`, move: the two kernels run on GPUs, and the sum of their outputs is the derivative. -/
example (m n : Nat) (hm : 0 < m) (hn : 0 < n) (hm' : m < 2 ^ 28) (hn' : n < 2 ^ 28) (args : Nat → Nat → ℝ)
    (δx δb : Nat → ℝ) (sch : SumScheme) :
    ∃ (S : Scheme ℝ) (g : VarId → Mem ℝ), getScheme (sumRed (V := ℝ) 2) sch = some S ∧
      ∀ out₀ out : ℝ → Mem ℝ,
        (∀ τ, ∃ P, rangeCall (gaussE.call id id realMath (fun _ _ => 0) 0 m n
              (movedAll args (dirs [some δx, none, some δb]) τ)).ev gaussE.inputs 0
            (movedAll args (dirs [some δx, none, some δb]) τ) (gaussShapes m n) m n 2 (6 * m) none = some P ∧
          RExec (sumRed 2) S P (out₀ τ) (out τ)) →
        ∀ b₀ < 3, ∀ b₁ < 2, ∀ i < m, ∀ k < 2,
          HasDerivAt (fun τ => out τ (Spec.pos [3, 2, m, 2] [b₀, b₁, i, k]))
            (g ⟨0, 3, 0⟩ (Spec.pos [3, 2, m, 2] [b₀, b₁, i, k]) +
              g ⟨2, 2, 1⟩ (Spec.pos [3, 2, m, 2] [b₀, b₁, i, k])) 0 := by
  have h0 : ∃ r, RedDiffs (.sum gaussE 0) ⟨0, 3, 0⟩ (tangentVar 3 ⟨0, 3, 0⟩) (resVar 3 gaussE.dim 0) (.sum r 0) ∧
      (0, 3, 0) ∈ r.vars ∧ (2, 2, 1) ∈ r.vars ∧ (∀ u ∈ r.vars, u ∈ declared jvpSigs ++ [(3, 3, 0)]) :=
    ⟨_, ⟨20, rfl⟩, by decide, by decide, by decide⟩
  have h2 : ∃ r, RedDiffs (.sum gaussE 0) ⟨2, 2, 1⟩ (tangentVar 3 ⟨2, 2, 1⟩) (resVar 3 gaussE.dim 0) (.sum r 0) ∧
      (0, 3, 0) ∈ r.vars ∧ (3, 2, 1) ∈ r.vars ∧ (∀ u ∈ r.vars, u ∈ declared jvpSigs ++ [(3, 2, 1)]) :=
    ⟨_, ⟨20, rfl⟩, by decide, by decide, by decide⟩
  obtain ⟨r0, h0, v0, w0, a0⟩ := h0
  obtain ⟨r2, h2, v2, w2, a2⟩ := h2
  let rs : VarId → Expr := fun v => if v.ind = 0 then r0 else r2
  have hcalls : jvpCalls jvpSigs [some δx, none, some δb] = [(⟨0, 3, 0⟩, δx), (⟨2, 2, 1⟩, δb)] := rfl
  obtain ⟨S, Sd, hS, hSd, hd, h⟩ := C66_sum_batch_partial (gauss_jvp_batch m n hm hn hm' hn' args)
    [some δx, none, some δb] rfl (fun _ => 0) rs (by
      rw [hcalls]
      intro c hc
      simp only [List.mem_cons, List.not_mem_nil, or_false] at hc
      rcases hc with rfl | rfl
      · exact h0
      · exact h2) (by
      rw [hcalls]
      intro c hc
      simp only [List.mem_cons, List.not_mem_nil, or_false] at hc
      rcases hc with rfl | rfl
      · refine ⟨by simp, ⟨_, v0, by decide⟩, fun c hc => .inr ⟨_, w0, by
          obtain rfl | rfl : c = 0 ∨ c = 1 := by simp at hc; omega
          all_goals rfl⟩, fun u hu => ?_⟩
        have := a0 u hu
        simp only [declared, List.map_cons, List.map_nil, List.cons_append, List.nil_append, List.mem_cons,
          List.not_mem_nil, or_false] at this
        rcases this with rfl | rfl | rfl | rfl <;> simp [jvpShapes, gaussShapes] <;> omega
      · refine ⟨by simp, ⟨_, v2, by decide⟩, fun c hc => .inr ⟨_, w2, by
          obtain rfl | rfl : c = 0 ∨ c = 1 := by simp at hc; omega
          all_goals rfl⟩, fun u hu => ?_⟩
        have := a2 u hu
        simp only [declared, List.map_cons, List.map_nil, List.cons_append, List.nil_append, List.mem_cons,
          List.not_mem_nil, or_false] at this
        rcases this with rfl | rfl | rfl | rfl <;> simp [jvpShapes, gaussShapes] <;> omega) sch .direct
  obtain ⟨hP, h⟩ := h realMath realMath_exact (fun _ _ => 0) 2 (6 * m)
  rw [hcalls] at hP h
  obtain ⟨P0, hP0⟩ := hP _ (List.mem_cons_self ..)
  obtain ⟨P2, hP2⟩ := hP _ (List.mem_cons_of_mem _ (List.mem_cons_self ..))
  obtain ⟨g0, hg0⟩ := rexec_exists_gpu (sumRed 2) Sd P0 (fun _ => 0)
  obtain ⟨g2, hg2⟩ := rexec_exists_gpu (sumRed 2) Sd P2 (fun _ => 0)
  refine ⟨S, fun v => if v.ind = 0 then g0 else g2, hS, fun out₀ out hout b₀ hb₀ b₁ hb₁ i hi k hk => ?_⟩
  have := h (fun _ _ => 0) (fun v => if v.ind = 0 then g0 else g2) (by
      intro c hc P hP
      simp only [List.mem_cons, List.not_mem_nil, or_false] at hc
      rcases hc with rfl | rfl
      · rw [hP0] at hP
        cases hP
        exact hg0
      · rw [hP2] at hP
        cases hP
        exact hg2) out₀ out hout [b₀, b₁] (.cons hb₀ (.cons hb₁ .nil)) i hi k hk
  simp only [jvpOut, List.map_cons, List.map_nil, List.foldl_cons, List.foldl_nil, zero_add] at this
  exact this

/-! ## Derivatives without a batch dimension of the output -/

/-- The declarations of `x_i + y_j`. -/
abbrev addSigs : List VarId := [⟨0, 1, 0⟩, ⟨1, 1, 1⟩]

/-- `x_i + y_j`. -/
abbrev addF : Expr := .bin .add (.var 0 1 0) (.var 1 1 1)

/-- `x` has the shape `(1, 2, 1)` and `y` the shape `(2, 4, 1)`: the sum over `j` has the shape `(2, 2, 1)`. -/
abbrev addShapes : List (List Nat) := [[1, 2, 1], [2, 4, 1]]

theorem addF_call : CallBatch addF addShapes [2] where
  some := by simp
  axes := ⟨(0, 1, 0), by decide, by decide⟩
  attained c hc := .inr ⟨(1, 1, 1), by decide, by
    obtain rfl : c = 0 := by simpa using hc
    rfl⟩
  int32 := by decide

/-- Not **C66**, when the derivative does not depend on the arrays that have a batch dimension: for the sum over `j` of
`x_i + y_j`, with `x` of shape `(1, 2, 1)` and `y` of shape `(2, 4, 1)`, the derivative in the direction `δ` of `x` is
the sum over `j` of `δ_i`, whose kernel has one batch only.  The array that is returned has two batches: in the second
one, the CPU writes 0, and the GPU nothing, whereas the derivative of the output is `4 δ_i`. -/
theorem not_C66_batch (args : Nat → Nat → ℝ) (δ result : Nat → ℝ) :
    jvpCalls addSigs [some δ, none] = [(⟨0, 1, 0⟩, δ)] ∧
    ∃ r, RedDiffs (.sum addF 0) ⟨0, 1, 0⟩ (tangentVar 2 ⟨0, 1, 0⟩) (resVar 2 1 0) (.sum r 0) ∧
      shapeOutPy (jvpShapes addShapes ⟨0, 1, 0⟩ [2, 2, 1]) 1 2 1 = [2, 2, 1] ∧
      ∀ (M : CMath), M.Exact → ∀ junk,
      (∃ P, rangeCall (r.call id id M junk 0 2 4 (gradArgs 2 args δ result)).ev r.inputs 0 (gradArgs 2 args δ result)
          (jvpShapes addShapes ⟨0, 1, 0⟩ [2, 2, 1]) 2 4 1 4 none = some P ∧
        (∀ S junk order, (∀ r < P.ax.nranges, (order r).Perm
            (List.range' (P.ax.rangesX (2 * r)) (P.ax.rangesX (2 * r + 1) - P.ax.rangesX (2 * r)))) →
          ∀ out i, 2 ≤ i → i < 4 → cpuConvRanges (sumRed 1) S P junk order out i = 0) ∧
        ∀ S B, 0 < B → ∀ ord junk sched out i, 2 ≤ i → gpuRanges (sumRed 1) S P B ord junk sched out i = out i) ∧
      ∃ S, getScheme (sumRed (V := ℝ) 1) .direct = some S ∧ ∀ out₀ out : ℝ → Mem ℝ,
        (∀ τ, ∃ P, rangeCall (addF.call id id M junk 0 2 4 (movedAll args (dirs [some δ, none]) τ)).ev addF.inputs 0
            (movedAll args (dirs [some δ, none]) τ) addShapes 2 4 1 4 none = some P ∧
          RExec (sumRed 1) S P (out₀ τ) (out τ)) →
        ∀ i < 2, HasDerivAt (fun τ => out τ (2 + i)) (4 * δ i) 0 := by
  refine ⟨rfl, .var 2 1 0, ⟨20, rfl⟩, by decide, fun M hM junk => ⟨⟨_, rfl, ?_, ?_⟩, ?_⟩⟩
  · intro S junk order horder out i hi hi4
    have hi' : i = i * (sumRed (V := ℝ) 1).dim + 0 := by simp [sumRed]
    rw [hi']
    refine (C17_uncovered_cpu _ (sumRed_finLocal _) S _ junk order horder out i hi4 ?_ 0 (by simp [sumRed])
      (fun _ => 0)).trans ?_
    · intro r hr h
      have h1 : r < 1 := hr
      have h2 : r = 0 := by omega
      subst h2
      have h3 : i < (0 + 1) * 2 := h.2
      omega
    · simp [sumRed, vectCopy, vectFill, vectApply, forRange]
  · intro S B hB ord junk sched out i hi
    have hi' : i = i * (sumRed (V := ℝ) 1).dim + 0 := by simp [sumRed]
    rw [hi']
    refine C17_uncovered_gpu _ (sumRed_finLocal _) S _ hB ord junk sched out i ?_ 0 (by simp [sumRed])
    intro r hr h
    have h1 : r < 1 := hr
    have h2 : r = 0 := by omega
    subst h2
    have h3 : i < (0 + 1) * 2 := h.2
    omega
  · have hl : PlainVars (declared addSigs) := ⟨by decide, by decide, by decide⟩
    have hs : CallShapes addF.vars addShapes [2] 2 4 := by
      intro u hu
      simp only [Expr.vars, List.cons_append, List.nil_append, List.mem_cons, List.not_mem_nil, or_false] at hu
      rcases hu with rfl | rfl
      · exact ⟨[1], .cons ⟨by omega, .inr rfl⟩ .nil, rfl⟩
      · exact ⟨[2], .cons ⟨by omega, .inl rfl⟩ .nil, rfl⟩
    have hrun := fun τ => sum_exec_batch (args := movedAll args (dirs [some δ, none]) τ) (r := addF) (axis := 0) hl
      (by simp [Expr.WF, Expr.dim, Bin.accept, Bin.dim, dimsOk]) (by simp [Expr.FactFree]) (by decide) (by omega) hs addF_call .direct
    obtain ⟨S, hS, -⟩ := hrun 0
    refine ⟨S, hS, fun out₀ out hout i hi => ?_⟩
    have hout' : (fun τ => out τ (2 + i)) = fun τ => ∑ j ∈ range 4, (args 0 i + τ * δ i + args 1 (4 + j)) := by
      funext τ
      obtain ⟨S', hS', h1⟩ := hrun τ
      rw [hS] at hS'
      cases hS'
      obtain ⟨P, h2, h3⟩ := hout τ
      obtain ⟨P', h2', h4⟩ := h1 M hM junk 1 4
      rw [h2] at h2'
      cases h2'
      have := h4 _ _ h3 (fun b _ i _ j _ => by simp [Expr.Def, binDef]) [1] (.cons (by omega) .nil) i hi 0
        (by decide)
      have e1 : Spec.pos ([2] ++ [outRows 0 2 4, addF.dim]) ([1] ++ [i, 0]) = 2 + i := by
        simp [Spec.pos, outRows, Expr.dim, Bin.dim]
      rw [e1] at this
      rw [this]
      unfold sumRow
      refine sum_congr (by simp [redRows]) fun j hj => ?_
      have hi2 : i = 0 ∨ i = 1 := by omega
      have hj2 := mem_range.mp hj
      simp [Expr.val, binVal, cst, readBatch, declared, pairAt, rowAt, movedAll, dirs, Arr.at', clip, Spec.pos, Expr.dim]
    rw [hout']
    have hd : HasDerivAt (fun τ => ∑ j ∈ range 4, (args 0 i + τ * δ i + args 1 (4 + j))) (∑ _j ∈ range 4, δ i) 0 :=
      HasDerivAt.fun_sum fun j _ => by
        simpa using (((hasDerivAt_id (0 : ℝ)).mul_const (δ i)).const_add (args 0 i)).add_const (args 1 (4 + j))
    simpa using hd

end Verif
