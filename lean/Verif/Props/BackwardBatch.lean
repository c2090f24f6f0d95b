import Verif.Proofs.BackwardBatch
import Verif.Props.BackwardCall

/-!
# C63 with batch dimensions
-/

namespace Verif

open Finset Spec Filter Topology

/-- A call with batch dimensions whose gradient with respect to the argument `v` is asked for: an expression `t`, the
formula `e` that is run for it, arrays of shapes `shapes`, whose batch dimensions are those of `batch` or 1, and at which
the formula is differentiable in each batch. -/
structure BackBatch (t : Term) (e : Expr) (v : VarId) (tagI m n : Nat) (shapes : List (List Nat)) (batch : List Nat)
    (args : Nat → Nat → ℝ) : Prop where
  pos : t.Pos
  inputs : t.Inputs
  compiled : ∃ N, t.compile N = .ok e
  tag : tagI < 2
  rows : 0 < m ∧ 0 < n
  var : (v.ind, v.dim, v.cat) ∈ t.vars
  count : ∀ u ∈ t.vars, u.1 < shapes.length
  plain : e.NoBroadcast
  fits : ∀ u ∈ t.vars, ∃ xb, Broadcasts xb batch ∧
    shapes.getD u.1.toNat [] = xb ++ tailShape u.2.2 (if u.2.2 = 1 then n else m) u.2.1
  some : batch ≠ []
  axes : ∃ u ∈ e.vars, u.2.2 ≠ 2
  attained : ∀ c < batch.length, batch.getD c 0 = 1 ∨
    ∃ u ∈ e.vars, (shapes.getD u.1.toNat []).getD c 0 = batch.getD c 0
  int32 : (∀ u ∈ e.vars, (shapes.getD u.1.toNat []).dropLast.prod < 2 ^ 31) ∧
    (batch ++ [outRows tagI m n]).prod < 2 ^ 31
  smooth : ∀ b, Arr.Idx batch b → ∀ i < m, ∀ j < n, e.Smooth (readBatch t.vars shapes args b (i, j))

/-- The shape of the output of a call. -/
abbrev outShape (batch : List Nat) (tagI m n d : Nat) : List Nat := batch ++ [outRows tagI m n, d]

/-- **C63**, sums with batch dimensions: the loss is a function of the outputs of the call with derivatives `G`; then the
array returned for the argument `v` has the shape of this argument, whose batch dimensions may be broadcast, and is the
derivative of the loss with respect to it.

Missing: the restrictions of C04 on the formula; empty batches; gradients that do not use `G`. -/
theorem C63_sum_batch_partial {t : Term} {e r : Expr} {v : VarId} {tagI axis m n : Nat} {shapes : List (List Nat)}
    {batch : List Nat} {args : Nat → Nat → ℝ}
    (h : BackBatch t e v tagI m n shapes batch args) (G result : Nat → ℝ)
    (hr : RedGrads (.sum e tagI) v (etaVar shapes.length e.dim tagI) (resVar shapes.length e.dim tagI) (.sum r axis))
    (hηr : ((shapes.length : Int), e.dim, (tagI : Int)) ∈ r.vars) (sch schb : SumScheme) :
    ∃ S Sb, getScheme (sumRed (V := ℝ) e.dim) sch = some S ∧ getScheme (sumRed (V := ℝ) r.dim) schb = some Sb ∧
      r.dim = v.dim ∧
      ∀ M : CMath, M.Exact → ∀ junk dimout nrows,
      ∃ Pb, rangeCall (r.call id id M junk axis m n (gradArgs shapes.length args G result)).ev r.inputs axis
          (gradArgs shapes.length args G result) (gradShapes shapes (outShape batch tagI m n e.dim)) m n dimout nrows
          none = some Pb ∧
        ∀ o g, RExec (sumRed r.dim) Sb Pb o g →
        ∃ a, (∀ sigs gradOf, sigs[v.ind.toNat]? = some v →
            gradOf v = asArray (outShape batch axis m n v.dim) g →
            (backward sigs shapes gradOf)[v.ind.toNat]? = some (some a)) ∧
          shapes[v.ind.toNat]? = some a.shape ∧
          ∀ (δ : Nat → ℝ) (out₀ out : ℝ → Mem ℝ),
            (∀ τ, ∃ P, rangeCall (e.call id id M junk tagI m n (moved args v.ind.toNat δ τ)).ev e.inputs tagI
                (moved args v.ind.toNat δ τ) shapes m n dimout nrows none = some P ∧
              RExec (sumRed e.dim) S P (out₀ τ) (out τ)) →
            HasDerivAt (fun τ => sumIdx (outShape batch tagI m n e.dim) fun idx =>
                G (Spec.pos (outShape batch tagI m n e.dim) idx) * out τ (Spec.pos (outShape batch tagI m n e.dim) idx))
              (sumIdx a.shape fun idx => a.get idx * δ (Spec.pos a.shape idx)) 0 := by
  obtain ⟨N, hc⟩ := h.compiled
  obtain ⟨hff, hvars⟩ := compile_vars h.pos hc
  have hw := (compile_rep h.pos hc).wf
  have hvd : 0 < v.dim := term_vars_pos h.pos _ h.var
  have hcat := h.inputs.cat _ h.var
  simp only at hcat
  have hl0 : PlainVars t.vars := ⟨h.inputs.pos, h.inputs.cat, h.inputs.unique⟩
  have hl := hl0.eta h.count e.dim h.tag
  set nargs := shapes.length with hnargs
  set l := t.vars ++ [((nargs : Int), e.dim, (tagI : Int))] with hldef
  set os := outShape batch tagI m n e.dim with hos
  set sg := gradShapes shapes os with hsg
  have hv0 := h.inputs.pos _ h.var
  have hvn := h.count _ h.var
  simp only at hv0 hvn
  have hq : v.ind.toNat < nargs := by omega
  have hvl : (v.ind, v.dim, v.cat) ∈ l := List.mem_append_left _ h.var
  have ht : tagI = 0 ∨ tagI = 1 := by have := h.tag; omega
  have huses : e.Uses v := uses_of_vars hff fun u hu hi => by
    have := h.inputs.unique u (hvars u hu) _ h.var hi
    rw [this]
    exact ⟨rfl, rfl⟩
  -- shapes of the gradient call
  have hold : ∀ p, p < nargs → sg.getD p [] = shapes.getD p [] := fun p hp => by
    simp [hsg, gradShapes, List.getD_eq_getElem?_getD, List.getElem?_append_left (show p < shapes.length from hp)]
  have hnew : sg.getD nargs [] = os := by
    simp [hsg, gradShapes, List.getD_eq_getElem?_getD, hnargs]
  have hpos : ∀ u ∈ t.vars, u.1.toNat < nargs := fun u hu => by
    have := h.inputs.pos u hu
    have := h.count u hu
    omega
  obtain ⟨xb, hxb, hxs⟩ := h.fits _ h.var
  simp only at hxs
  have hbb : Broadcasts batch batch := self_broadcast hxb
  have hηl : ((nargs : Int), e.dim, (tagI : Int)) ∈ l := List.mem_append_right _ (List.mem_singleton_self _)
  have hηs : sg.getD ((nargs : Int)).toNat [] =
      batch ++ tailShape (tagI : Int) (if (tagI : Int) = 1 then n else m) e.dim := by
    rw [Int.toNat_natCast, hnew]
    rcases ht with h' | h' <;> simp [hos, outShape, h', outRows, tailShape]
  have hcs : CallShapes l sg batch m n := by
    intro u hu
    rcases List.mem_append.mp hu with h1 | h1
    · rw [hold _ (hpos u h1)]
      exact h.fits u h1
    · rw [List.mem_singleton.mp h1]
      exact ⟨batch, hbb, hηs⟩
  set argsG := gradArgs nargs args G result with hargsG
  have hagree : ∀ A b p, ∀ u ∈ e.vars,
      readBatch l sg (gradArgs nargs A G result) b p u.1 = readBatch t.vars shapes A b p u.1 := fun A b p u hu =>
    readBatch_congr hl0 hl (hvars u hu) (List.mem_append_left _ (hvars u hu)) (hold _ (hpos u (hvars u hu)))
      (by simp [gradArgs, hpos u (hvars u hu)]) p
  set base := fun b => readBatch l sg argsG b with hbase
  have hsm : ∀ b, Arr.Idx batch b → ∀ i < m, ∀ j < n, e.Smooth (base b (i, j)) := fun b hb i hi j hj =>
    smooth_agree hff (hagree args b (i, j)) (h.smooth b hb i hi j hj)
  set X : Spec.Arr ℝ := ⟨sg.getD v.ind.toNat [], fun idx => args v.ind.toNat (Spec.pos (sg.getD v.ind.toNat []) idx)⟩
    with hX
  have hGv : argsG v.ind.toNat = args v.ind.toNat := by simp [hargsG, gradArgs, hq]
  have hself : ∀ b p, base b p = point (base b) v (Spec.rowsOf X v b) p := fun b p => by
    have := readBatch_point (shapes := sg) (b := b) hl hvl (args := argsG) (args' := argsG) (fun _ _ => rfl) p
    rw [hGv] at this
    exact this
  have hXs : X.shape = xb ++ tailShape v.cat (if v.cat = 1 then n else m) v.dim := by
    simp only [hX, hold _ hq, hxs]
  have hgr : Grads e v (etaVar nargs e.dim tagI) r ∧ axis = if v.cat = 1 then 1 else 0 := by
    obtain ⟨N, hr⟩ := hr
    simp only [RedExpr.diffT, sumDiffT] at hr
    obtain ⟨r', h1, h2⟩ := bind_ok' hr
    cases h2
    exact ⟨⟨N, h1⟩, by rcases hcat with h | h | h <;> simp [VarId.axis, h]⟩
  obtain ⟨hgr, hax⟩ := hgr
  have hax2 : axis < 2 := by rw [hax]; split <;> omega
  have hrows : outRows axis m n = if v.cat = 1 then n else m := by
    rw [hax]
    rcases hcat with h | h | h <;> simp [h, outRows]
  have hgrad := fun b (hb : Arr.Idx batch b) i (hi : i < m) j (hj : j < n) => C04_grad_partial hvd hw hff h.plain huses
    (show (etaVar nargs e.dim tagI).WF from hw.pos) rfl hgr (base b (i, j)) (Spec.rowsOf X v b (rowAt v.cat (i, j)))
    (by have := hsm b hb i hi j hj; rw [hself] at this; exact this) trivial
  have hz := idx_zero hxb
  have hrd : r.dim = v.dim := by
    obtain ⟨L, -, h1⟩ := hgrad _ hz 0 h.rows.1 0 h.rows.2
    exact h1.1
  have hrw : r.WF := grads_wf hvd hw hff h.plain huses (show (etaVar nargs e.dim tagI).WF from hw.pos) rfl hgr
    (base _ (0, 0)) (Spec.rowsOf X v _ (rowAt v.cat (0, 0)))
    (by have := hsm _ hz 0 h.rows.1 0 h.rows.2; rw [hself] at this; exact this) trivial
  obtain ⟨NN, hgr'⟩ := hgr
  have hrf : r.FactFree := diffT_factFree hw hff (show (etaVar nargs e.dim tagI).FactFree from trivial) hgr'
  have hrv : ∀ u ∈ r.vars, u ∈ l := fun u hu => by
    rcases diffT_vars hw hff (show (etaVar nargs e.dim tagI).FactFree from trivial) hgr' hu with h1 | h1
    · exact List.mem_append_left _ (hvars u h1)
    · exact List.mem_append_right _ h1
  have hcb : CallBatch r sg batch := by
    refine ⟨h.some, ⟨_, hηr, by simp only; omega⟩, fun c hc => .inr ⟨_, hηr, ?_⟩, fun u hu => ?_⟩
    · rw [Int.toNat_natCast, hnew]
      simp [hos, outShape, List.getD_eq_getElem?_getD, List.getElem?_append_left hc]
    · rcases diffT_vars hw hff (show (etaVar nargs e.dim tagI).FactFree from trivial) hgr' hu with h1 | h1
      · rw [hold _ (hpos u (hvars u h1))]
        exact h.int32.1 u h1
      · rw [List.mem_singleton.mp h1]
        simp only [Int.toNat_natCast]
        rw [hnew, hos, show outShape batch tagI m n e.dim = (batch ++ [outRows tagI m n]) ++ [e.dim] by simp,
          List.dropLast_concat]
        exact h.int32.2
  obtain ⟨Sb, hSb, hback⟩ := sum_exec_batch (args := argsG) hl hrw hrf hrv hax2 (fun u hu => hcs u (hrv u hu)) hcb schb
  obtain ⟨S, hS, -⟩ := C18_sum_partial ℝ e.dim sch
  refine ⟨S, Sb, hS, hSb, hrd, fun M hM junk dimout nrows => ?_⟩
  obtain ⟨Pb, hPb, hrun⟩ := hback M hM junk dimout nrows
  refine ⟨Pb, hPb, fun o g he => ?_⟩
  have hval := hrun o g he fun b hb i hi j hj => by
    obtain ⟨L, -, h1⟩ := hgrad b hb i hi j hj
    have := h1.2.1
    show r.Def (base b (i, j))
    rw [hself]
    exact this
  have hG : ∀ b, Arr.Idx batch b → HoldsRows (base b) nargs tagI m n 0 e.dim
      fun a k => G (Spec.pos os (b ++ [a, k])) := by
    intro b hb i hi j hj k hk
    rw [hbase]
    simp only
    rw [readBatch_at hl hηl hb hbb hηs (p := (i, j)) hi hj, Nat.zero_add, if_pos hk, clip_self hb, hos, outShape,
      pos_append hb.length_eq]
    have e2 : blockRows m n ((tagI : Int)).toNat = outRows tagI m n := by
      rcases ht with h | h <;> simp [h, blockRows, outRows]
    rw [e2]
    simp only [hargsG, gradArgs, Int.toNat_natCast, lt_irrefl, if_false, if_true]
    congr 1
    simp [Spec.pos]
    ring
  obtain ⟨r', axis', h1, hC40⟩ := C40_sum_partial (m := m) (n := n) ht hvd hcat hw hff h.plain huses
    (show (nargs : Int) ≠ v.ind by omega) hr hxb base X hXs
    (fun b hb i hi j hj => by rw [← hself]; exact hsm b hb i hi j hj) _ hG
  cases h1
  obtain ⟨a, ha, hash, hder⟩ := hC40 (asArray (outShape batch axis m n v.dim) g) (by rw [← hrows]; rfl)
    fun b hb q hq k hk => by
      have := hval b hb q (hrows ▸ hq) k (hrd ▸ hk)
      rw [hrd, pos_eq] at this
      rw [← (funext (hself b) : base b = _)]
      exact this
  have hXv : X.shape = shapes.getD v.ind.toNat [] := hold _ hq
  have hsv : shapes[v.ind.toNat]? = some X.shape := by
    rw [hXv, List.getD_eq_getElem?_getD, List.getElem?_eq_getElem (show v.ind.toNat < shapes.length from hq)]
    rfl
  refine ⟨a, fun sigs gradOf h1 h2 => ?_, by rw [hash, hsv], fun δ out₀ out hex => ?_⟩
  · rw [backward, List.getElem?_zipWith, h1, hsv]
    simp only [h2, ha]
  have hd := hder ⟨X.shape, fun idx => δ (Spec.pos X.shape idx)⟩ rfl
  rw [hash]
  refine HasDerivAt.congr_of_eventuallyEq hd ?_
  filter_upwards [moved_near_batch hw hff v.ind.toNat δ h.smooth] with τ hτ
  obtain ⟨P, hP, hex⟩ := hex τ
  obtain ⟨S', hS', hfwd⟩ := sum_exec_batch (args := moved args v.ind.toNat δ τ) hl0 hw hff hvars h.tag
    (fun u hu => h.fits u (hvars u hu)) ⟨h.some, h.axes, h.attained, h.int32.1⟩ sch
  rw [hS] at hS'
  cases hS'
  obtain ⟨P', hP', hfwd⟩ := hfwd M hM junk dimout nrows
  rw [hP] at hP'
  cases hP'
  have hout := hfwd _ _ hex hτ
  rw [hos, outShape, sumIdx_append]
  refine sumIdx_congr fun b hb => ?_
  simp only [sumIdx, dotRows]
  refine sum_congr rfl fun i hi => sum_congr rfl fun k hk => ?_
  rw [hout b hb i (mem_range.mp hi) k (mem_range.mp hk)]
  congr 1
  unfold sumRow
  refine sum_congr rfl fun s _ => ?_
  have hmv := readBatch_point (shapes := sg) (b := b) hl hvl (args := argsG)
    (args' := gradArgs nargs (moved args v.ind.toNat δ τ) G result)
    (fun q' hq' => by rw [hargsG, gradArgs_moved hq]; funext k; simp only [moved, if_neg hq']) (pairAt tagI i s)
  rw [← Expr.val_agree hff (hagree _ _ _), hmv]
  congr 2
  simp only [hX, gradArgs, hq, if_true, moved]

/-! ## The hypotheses can be met -/

theorem gauss_back_batch (v : VarId) (hv : (v.ind, v.dim, v.cat) ∈ gauss.vars) (m n : Nat) (hm : 0 < m) (hn : 0 < n)
    (hm' : m < 2 ^ 28) (hn' : n < 2 ^ 28) (args : Nat → Nat → ℝ) :
    BackBatch gauss gaussE v 0 m n (gaussShapes m n) [3, 2] args where
  pos := gauss_pos
  inputs := gauss_inputs
  compiled := ⟨20, rfl⟩
  tag := by omega
  rows := ⟨hm, hn⟩
  var := hv
  count := by simp [gaussShapes, gauss, Term.vars]
  plain := by simp [gaussE, Expr.NoBroadcast]
  fits := by
    have h1 : Broadcasts [3, 1] [3, 2] := .cons ⟨by omega, .inl rfl⟩ (.cons ⟨by omega, .inr rfl⟩ .nil)
    have h2 : Broadcasts [1, 2] [3, 2] := .cons ⟨by omega, .inr rfl⟩ (.cons ⟨by omega, .inl rfl⟩ .nil)
    have h3 : Broadcasts [3, 2] [3, 2] := .cons ⟨by omega, .inl rfl⟩ (.cons ⟨by omega, .inl rfl⟩ .nil)
    intro u hu
    simp only [Term.vars, gauss, List.cons_append, List.nil_append, List.mem_cons, List.not_mem_nil, or_false] at hu
    rcases hu with rfl | rfl | rfl
    · exact ⟨_, h1, rfl⟩
    · exact ⟨_, h2, rfl⟩
    · exact ⟨_, h3, rfl⟩
  some := by simp
  axes := ⟨(0, 3, 0), by decide, by decide⟩
  attained c hc := .inr ⟨(2, 2, 1), by decide, by
    obtain rfl | rfl : c = 0 ∨ c = 1 := by simp at hc; omega
    all_goals rfl⟩
  int32 := by
    refine ⟨fun u hu => ?_, by simp [outRows]; omega⟩
    have : u = (0, 3, 0) ∨ u = (1, 3, 1) ∨ u = (2, 2, 1) := by
      simp only [gaussE, Expr.vars, List.cons_append, List.nil_append, List.mem_cons, List.not_mem_nil, or_false] at hu
      tauto
    rcases this with rfl | rfl | rfl <;> simp [gaussShapes] <;> omega
  smooth b _ i _ j _ := by simp [gaussE, Expr.Smooth, binSmooth, unSmooth, Expr.dim, Un.dim, Bin.dim]

/-- The gradient of a batch of Gaussian convolutions with respect to the points `x`, of shape `(3, 1, m, 3)`, which are
broadcast along the second batch dimension: it is computed on GPUs, and its shape is that of `x`. -/
example (m n : Nat) (hm : 0 < m) (hn : 0 < n) (hm' : m < 2 ^ 28) (hn' : n < 2 ^ 28) (args : Nat → Nat → ℝ)
    (G : Nat → ℝ) (sch : SumScheme) :
    ∃ (r : Expr) (S Sb : _) (Pb : _) (g : Mem ℝ) (a : Spec.Arr ℝ), getScheme (sumRed (V := ℝ) 2) sch = some S ∧
      getScheme (sumRed (V := ℝ) 3) .direct = some Sb ∧
      rangeCall (r.call id id realMath (fun _ _ => 0) 0 m n (gradArgs 3 args G fun _ => 0)).ev r.inputs 0
        (gradArgs 3 args G fun _ => 0) [[3, 1, m, 3], [1, 2, n, 3], [3, 2, n, 2], [3, 2, m, 2], [3, 2, m, 2]] m n 3
        (6 * m) none = some Pb ∧
      RExec (sumRed 3) Sb Pb (fun _ => 0) g ∧
      (backward [⟨0, 3, 0⟩, ⟨1, 3, 1⟩, ⟨2, 2, 1⟩] (gaussShapes m n) fun _ => asArray [3, 2, m, 3] g)[0]? =
        some (some a) ∧
      a.shape = [3, 1, m, 3] ∧
      ∀ (δ : Nat → ℝ) (out₀ out : ℝ → Mem ℝ),
        (∀ τ, ∃ P, rangeCall (gaussE.call id id realMath (fun _ _ => 0) 0 m n (moved args 0 δ τ)).ev gaussE.inputs 0
            (moved args 0 δ τ) (gaussShapes m n) m n 3 (6 * m) none = some P ∧
          RExec (sumRed 2) S P (out₀ τ) (out τ)) →
        HasDerivAt (fun τ => sumIdx [3, 2, m, 2] fun idx =>
            G (Spec.pos [3, 2, m, 2] idx) * out τ (Spec.pos [3, 2, m, 2] idx))
          (sumIdx [3, 1, m, 3] fun idx => a.get idx * δ (Spec.pos [3, 1, m, 3] idx)) 0 := by
  have hr : ∃ r, RedGrads (.sum gaussE 0) ⟨0, 3, 0⟩ (etaVar 3 gaussE.dim 0) (resVar 3 gaussE.dim 0) (.sum r 0) ∧
      ((3 : Int), gaussE.dim, (0 : Int)) ∈ r.vars :=
    ⟨_, ⟨20, rfl⟩, by decide⟩
  obtain ⟨r, hr, hη⟩ := hr
  obtain ⟨S, Sb, hS, hSb, hd, h⟩ := C63_sum_batch_partial
    (gauss_back_batch ⟨0, 3, 0⟩ (by decide) m n hm hn hm' hn' args) G (fun _ => 0) hr hη sch .direct
  simp only at hd
  rw [hd] at hSb h
  obtain ⟨Pb, hPb, h⟩ := h realMath realMath_exact (fun _ _ => 0) 3 (6 * m)
  cases hSb
  obtain ⟨g, hg⟩ := rexec_exists_gpu (sumRed 3) (directScheme (sumRed 3)) Pb (fun _ => 0)
  obtain ⟨a, h1, h2, h3⟩ := h _ g hg
  have h2' : a.shape = [3, 1, m, 3] := by
    have : some [3, 1, m, 3] = some a.shape := h2
    exact (Option.some.inj this).symm
  refine ⟨r, S, _, Pb, g, a, hS, rfl, hPb, hg, h1 _ _ rfl rfl, h2', fun δ out₀ out hex => ?_⟩
  have := h3 δ out₀ out hex
  rw [h2'] at this
  exact this

end Verif
