import Verif.Proofs.BackwardLseBatch

/-!
# C63 for log-sum-exps and softmax-weighted sums with batch dimensions
-/

namespace Verif

open Finset Spec Filter Topology

/-- A call with batch dimensions of a log-sum-exp, or of a softmax-weighted sum, whose gradient with respect to the
argument `v` is asked for: expressions `tf` (scalar) and `tw` (weights), the formulas `f` and `w` that are run for them,
arrays of shapes `shapes`, whose batch dimensions are those of `batch` or 1, and at which the formulas are differentiable
in each batch. -/
structure BackWeightBatch (tf tw : Term) (f w : Expr) (v : VarId) (tagI m n : Nat) (shapes : List (List Nat))
    (batch : List Nat) (args : Nat → Nat → ℝ) : Prop where
  pos : tf.Pos ∧ tw.Pos
  inputs : (Term.bin .concat tf tw).Inputs
  score : ∃ N, tf.compile N = .ok f
  weight : ∃ N, tw.compile N = .ok w
  dim : f.dim = 1
  tag : tagI < 2
  rows : 0 < m ∧ 0 < n
  var : (v.ind, v.dim, v.cat) ∈ (Term.bin .concat tf tw).vars
  count : ∀ u ∈ (Term.bin .concat tf tw).vars, u.1 < shapes.length
  plain : f.NoBroadcast ∧ w.NoBroadcast
  fits : ∀ u ∈ (Term.bin .concat tf tw).vars, ∃ xb, Broadcasts xb batch ∧
    shapes.getD u.1.toNat [] = xb ++ tailShape u.2.2 (if u.2.2 = 1 then n else m) u.2.1
  some : batch ≠ []
  axes : ∃ u ∈ f.vars ++ w.vars, u.2.2 ≠ 2
  attained : ∀ c < batch.length, batch.getD c 0 = 1 ∨
    ∃ u ∈ f.vars ++ w.vars, (shapes.getD u.1.toNat []).getD c 0 = batch.getD c 0
  int32 : (∀ u ∈ f.vars ++ w.vars, (shapes.getD u.1.toNat []).dropLast.prod < 2 ^ 31) ∧
    (batch ++ [outRows tagI m n]).prod < 2 ^ 31
  smooth : ∀ b, Arr.Idx batch b → ∀ i < m, ∀ j < n,
    f.Smooth (readBatch (Term.bin .concat tf tw).vars shapes args b (i, j)) ∧
    w.Smooth (readBatch (Term.bin .concat tf tw).vars shapes args b (i, j))

section

variable {tf tw : Term} {f w r : Expr} {v : VarId} {tagI axis m n : Nat} {shapes : List (List Nat)} {batch : List Nat}
  {args : Nat → Nat → ℝ}

theorem BackWeightBatch.parts (h : BackWeightBatch tf tw f w v tagI m n shapes batch args) :
    PartB (Term.bin .concat tf tw).vars v m n shapes batch args f ∧
      PartB (Term.bin .concat tf tw).vars v m n shapes batch args w := by
  obtain ⟨N, hf⟩ := h.score
  obtain ⟨N', hw⟩ := h.weight
  obtain ⟨ff, vf⟩ := compile_vars h.pos.1 hf
  obtain ⟨fw, vw⟩ := compile_vars h.pos.2 hw
  have vf' : ∀ t ∈ f.vars, t ∈ (Term.bin .concat tf tw).vars := fun t ht => List.mem_append_left _ (vf t ht)
  have vw' : ∀ t ∈ w.vars, t ∈ (Term.bin .concat tf tw).vars := fun t ht => List.mem_append_right _ (vw t ht)
  have hu : ∀ e : Expr, e.FactFree → (∀ t ∈ e.vars, t ∈ (Term.bin .concat tf tw).vars) → e.Uses v :=
    fun e he hv => uses_of_vars he fun u hu hi => by
      rw [h.inputs.unique u (hv u hu) _ h.var hi]
      exact ⟨rfl, rfl⟩
  exact ⟨⟨(compile_rep h.pos.1 hf).wf, ff, vf', h.plain.1, hu f ff vf', fun b hb i hi j hj => (h.smooth b hb i hi j hj).1⟩,
    ⟨(compile_rep h.pos.2 hw).wf, fw, vw', h.plain.2, hu w fw vw', fun b hb i hi j hj => (h.smooth b hb i hi j hj).2⟩⟩

/-- The weights of a softmax. -/
theorem PartB.one {l : List (Int × Nat × Int)} (h : PartB l v m n shapes batch args w) :
    PartB l v m n shapes batch args (.bin .concat (.int 1) w) where
  wf := ⟨by simp [Expr.WF], h.wf, rfl, by show 0 < 1 + w.dim; omega⟩
  ff := ⟨trivial, h.ff⟩
  vars t ht := h.vars t ht
  plain := ⟨trivial, h.plain⟩
  uses := ⟨trivial, h.uses⟩
  smooth b hb i hi j hj := ⟨trivial, h.smooth b hb i hi j hj, trivial⟩

/-- What a batch sees of the gradient call. -/
structure BatchView (l l' : List (Int × Nat × Int)) (shapes sg : List (List Nat)) (batch : List Nat) (v : VarId)
    (tagI m n D nargs : Nat) (args : Nat → Nat → ℝ) (E res : Nat → ℝ) : Prop where
  self : ∀ b p, readBatch l' sg (gradArgs nargs args E res) b p = point (readBatch l' sg (gradArgs nargs args E res) b) v
    (Spec.rowsOf ⟨shapes.getD v.ind.toNat [], fun idx => args v.ind.toNat (Spec.pos (shapes.getD v.ind.toNat []) idx)⟩ v b) p
  agree : ∀ A b p, ∀ u ∈ l, readBatch l' sg (gradArgs nargs A E res) b p u.1 = readBatch l shapes A b p u.1
  move : ∀ δ τ b p, point (readBatch l' sg (gradArgs nargs args E res) b) v (line
      (Spec.rowsOf ⟨shapes.getD v.ind.toNat [], fun idx => args v.ind.toNat (Spec.pos (shapes.getD v.ind.toNat []) idx)⟩ v b)
      (Spec.rowsOf ⟨shapes.getD v.ind.toNat [], fun idx => δ (Spec.pos (shapes.getD v.ind.toNat []) idx)⟩ v b) τ) p =
    readBatch l' sg (gradArgs nargs (moved args v.ind.toNat δ τ) E res) b p
  eta : ∀ b, Arr.Idx batch b → ∀ i < m, ∀ j < n, ∀ k < 1 + D, readBatch l' sg (gradArgs nargs args E res) b (i, j) nargs k =
    E (Spec.pos (outShape batch tagI m n (1 + D)) (b ++ [rowAt tagI (i, j), k]))
  saved : ∀ b, Arr.Idx batch b → ∀ i < m, ∀ j < n, ∀ k < 1 + D,
    readBatch l' sg (gradArgs nargs args E res) b (i, j) (nargs + 1 : Nat) k =
    res (Spec.pos (outShape batch tagI m n (1 + D)) (b ++ [rowAt tagI (i, j), k]))

theorem batch_view {l : List (Int × Nat × Int)} (hl : PlainVars l) (hn : ∀ u ∈ l, u.1 < shapes.length)
    (hv : (v.ind, v.dim, v.cat) ∈ l) (ht : tagI = 0 ∨ tagI = 1) (hs : CallShapes l shapes batch m n) (D : Nat)
    (E res : Nat → ℝ) :
    BatchView l (weightVars l shapes.length D tagI) shapes (gradShapes shapes (outShape batch tagI m n (1 + D))) batch v
      tagI m n D shapes.length args E res := by
  have hvn := hn _ hv
  have hv0 := hl.pos _ hv
  simp only at hvn hv0
  have hq : v.ind.toNat < shapes.length := by omega
  obtain ⟨xb, hxb, hxs⟩ := hs _ hv
  obtain ⟨hcs, hold, hnew⟩ := weight_shapes hl hn hs hxb ht D
  have hpl : PlainVars (weightVars l shapes.length D tagI) := hl.weight hn D (by omega)
  have hsub : ∀ u ∈ l, u ∈ weightVars l shapes.length D tagI := fun u hu => List.mem_append_left _ hu
  have hposl : ∀ u ∈ l, u.1.toNat < shapes.length := fun u hu => by
    have := hl.pos u hu
    have := hn u hu
    omega
  have hG : ∀ A, gradArgs shapes.length A E res v.ind.toNat = A v.ind.toNat := fun A => by simp [gradArgs, hq]
  have hos : outShape batch tagI m n (1 + D) =
      batch ++ tailShape (tagI : Int) (if (tagI : Int) = 1 then n else m) (1 + D) := by
    rcases ht with h' | h' <;> simp [outShape, h', outRows, tailShape]
  have hread : ∀ q : Nat, (q = shapes.length ∨ q = shapes.length + 1) → ∀ b, Arr.Idx batch b → ∀ i < m, ∀ j < n,
      ∀ k < 1 + D, readBatch (weightVars l shapes.length D tagI) (gradShapes shapes (outShape batch tagI m n (1 + D)))
        (gradArgs shapes.length args E res) b (i, j) q k =
      gradArgs shapes.length args E res q (Spec.pos (outShape batch tagI m n (1 + D)) (b ++ [rowAt tagI (i, j), k])) := by
    intro q hq b hb i hi j hj k hk
    have hmem : ((q : Int), 1 + D, (tagI : Int)) ∈ weightVars l shapes.length D tagI := by
      refine List.mem_append_right _ ?_
      rcases hq with rfl | rfl <;> simp
    have hsq : (gradShapes shapes (outShape batch tagI m n (1 + D))).getD ((q : Int)).toNat [] =
        batch ++ tailShape (tagI : Int) (if (tagI : Int) = 1 then n else m) (1 + D) := by
      rw [Int.toNat_natCast, hnew q hq, hos]
    have := readBatch_at (args := gradArgs shapes.length args E res) hpl hmem hb (self_broadcast hxb) hsq (p := (i, j)) hi hj k
    rw [if_pos hk] at this
    refine this.trans ?_
    have e2 : blockRows m n ((tagI : Int)).toNat = outRows tagI m n := by
      rcases ht with h | h <;> simp [h, blockRows, outRows]
    simp only
    rw [clip_self hb, e2, pos_row hb, Int.toNat_natCast]
  refine ⟨fun b p => ?_, fun A b p u hu => ?_, fun δ τ b p => ?_, fun b hb i hi j hj k hk => ?_,
    fun b hb i hi j hj k hk => ?_⟩
  · have := readBatch_point (shapes := gradShapes shapes (outShape batch tagI m n (1 + D))) (b := b) hpl (hsub _ hv)
      (args := gradArgs shapes.length args E res) (args' := gradArgs shapes.length args E res) (fun _ _ => rfl) p
    rw [hG, hold _ hq] at this
    exact this
  · exact readBatch_congr hl hpl hu (hsub u hu) (hold _ (hposl u hu)) (by simp [gradArgs, hposl u hu]) p
  · have := readBatch_point (shapes := gradShapes shapes (outShape batch tagI m n (1 + D))) (b := b) hpl (hsub _ hv)
      (args := gradArgs shapes.length args E res)
      (args' := gradArgs shapes.length (moved args v.ind.toNat δ τ) E res)
      (fun q' hq' => by rw [gradArgs_moved hq]; funext k; simp only [moved, if_neg hq']) p
    rw [hG, hold _ hq] at this
    rw [this]
    congr 1
    funext q k
    simp only [Spec.rowsOf, Arr.at', line, Pi.add_apply, Pi.smul_apply, smul_eq_mul, moved, if_true]
  · rw [hread _ (.inl rfl) b hb i hi j hj k hk]
    simp [gradArgs]
  · rw [hread _ (.inr rfl) b hb i hi j hj k hk]
    simp only [gradArgs]
    rw [if_neg (by omega), if_neg (by omega)]

/-- Values of formulas depend continuously on the arrays, in each batch. -/
theorem moved_cont_batch {e : Expr} (hw : e.WF) (hf : e.FactFree) {l : List (Int × Nat × Int)} {b : List Nat}
    (p : Nat × Nat) (q : Nat) (δ : Nat → ℝ) (hs : e.Smooth (readBatch l shapes args b p)) {k : Nat} (hk : k < e.dim) :
    ContinuousAt (fun τ => e.val (readBatch l shapes (moved args q δ τ) b p) k) 0 := by
  have h0 : moved args q δ 0 = args := by funext a k; simp [moved]
  obtain ⟨L, hL⟩ := moved_deriv_batch (l := l) (shapes := shapes) (b := b) (args := args) p q δ
  exact (Expr.hasFDerivAt (x₀ := (0 : ℝ)) (F := fun τ => readBatch l shapes (moved args q δ τ) b p) hw hf hL
    (by rw [h0]; exact hs) (.inl hk)).continuousAt

/-- **C63**, log-sum-exp with weights (without weights, `w` is the constant 1), with batch dimensions.  `res` is the
memory written by the forward kernel; `G` is the gradient of the loss with respect to the log-sum-exp, and `E` the
gradient that PyTorch computes from it, through `L = M + log S`, with respect to the components `S` of this memory.  The
array returned for the argument `v`, whose batch dimensions may be broadcast, has the shape of this argument and is the
derivative of the loss.

Missing: Kahan summation; the restrictions of C04 on the formulas; empty batches; gradients that do not use `E`. -/
theorem C63_logsumexp_batch_partial (h : BackWeightBatch tf tw f w v tagI m n shapes batch args)
    (hr : RedGrads (.maxSumShiftExp f w tagI) v (etaVar shapes.length (1 + w.dim) tagI)
      (resVar shapes.length (1 + w.dim) tagI) (.sum r axis))
    (hηr : ((shapes.length : Int), 1 + w.dim, (tagI : Int)) ∈ r.vars)
    (hpos : ∀ b, Arr.Idx batch b → ∀ i < outRows tagI m n, ∀ k < w.dim, 0 < ∑ j ∈ range (redRows tagI m n),
      Real.exp (f.val (readBatch (Term.bin .concat tf tw).vars shapes args b (pairAt tagI i j)) 0) *
        w.val (readBatch (Term.bin .concat tf tw).vars shapes args b (pairAt tagI i j)) k)
    (big : ℝ → XR) (long : XR → XR) (sch schb : SumScheme) (hsch : sch ≠ .kahan) :
    ∃ S Sb, getScheme (@lseRed XR (xrNum big) w.dim) sch = some S ∧ getScheme (sumRed (V := ℝ) r.dim) schb = some Sb ∧
      r.dim = v.dim ∧
      ∀ M : CMath, M.Exact → ∀ junk dimout nrows dimoutb nrowsb,
      ∃ P, rangeCall ((Expr.bin .concat f w).call XR.fin XR.val M junk tagI m n fun p q => XR.fin (args p q)).ev
          (Expr.bin .concat f w).inputs tagI (fun p q => XR.fin (args p q)) shapes m n dimout nrows none = some P ∧
      ∀ o res, RExec (@lseRed XR (xrNum big) w.dim) S P o res →
        ∀ G E : Nat → ℝ, (∀ b, Arr.Idx batch b → ∀ i < outRows tagI m n, ∀ k < w.dim,
          E (Spec.pos (outShape batch tagI m n (1 + w.dim)) (b ++ [i, 1 + k])) =
            G (Spec.pos (outShape batch tagI m n w.dim) (b ++ [i, k])) /
              (res (Spec.pos (outShape batch tagI m n (1 + w.dim)) (b ++ [i, 1 + k]))).val) →
        ∃ Pb, rangeCall (r.call id id M junk axis m n (gradArgs shapes.length args E fun q => (res q).val)).ev r.inputs
            axis (gradArgs shapes.length args E fun q => (res q).val)
            (gradShapes shapes (outShape batch tagI m n (1 + w.dim))) m n dimoutb nrowsb none = some Pb ∧
        ∀ o' g, RExec (sumRed r.dim) Sb Pb o' g →
        ∃ a, (∀ sigs gradOf, sigs[v.ind.toNat]? = some v →
            gradOf v = asArray (outShape batch axis m n v.dim) g →
            (backward sigs shapes gradOf)[v.ind.toNat]? = some (some a)) ∧
          shapes[v.ind.toNat]? = some a.shape ∧
          ∀ (δ : Nat → ℝ) (out₀ out : ℝ → Mem XR) (L : ℝ → List Nat → Nat → Nat → ℝ),
            (∀ τ, ∃ P, rangeCall ((Expr.bin .concat f w).call XR.fin XR.val M junk tagI m n
                fun p q => XR.fin (moved args v.ind.toNat δ τ p q)).ev (Expr.bin .concat f w).inputs tagI
                (fun p q => XR.fin (moved args v.ind.toNat δ τ p q)) shapes m n dimout nrows none = some P ∧
              RExec (@lseRed XR (xrNum big) w.dim) S P (out₀ τ) (out τ)) →
            (∀ τ, ∀ b, Arr.Idx batch b → ∀ i < outRows tagI m n, ∃ arr,
              postprocess (xrPost long) .logSumExp 0 (1 + w.dim)
                ((out τ).shift (Spec.pos (outShape batch tagI m n (1 + w.dim)) (b ++ [i, 0]))) = some [arr] ∧
              ∀ k < w.dim, L τ b i k = (arr.get k).val) →
            HasDerivAt (fun τ => sumIdx batch fun b => ∑ i ∈ range (outRows tagI m n), ∑ k ∈ range w.dim,
                G (Spec.pos (outShape batch tagI m n w.dim) (b ++ [i, k])) * L τ b i k)
              (sumIdx a.shape fun idx => a.get idx * δ (Spec.pos a.shape idx)) 0 := by
  obtain ⟨pf, pw⟩ := h.parts
  set l := (Term.bin .concat tf tw).vars with hldef
  have hl : PlainVars l := ⟨h.inputs.pos, h.inputs.cat, h.inputs.unique⟩
  have hvd : 0 < v.dim := by
    rcases List.mem_append.mp h.var with h1 | h1
    · exact term_vars_pos h.pos.1 _ h1
    · exact term_vars_pos h.pos.2 _ h1
  have hcat := hl.cat _ h.var
  have hvn := h.count _ h.var
  have hv0 := hl.pos _ h.var
  simp only at hcat hvn hv0
  have hq : v.ind.toNat < shapes.length := by omega
  have ht : tagI = 0 ∨ tagI = 1 := by have := h.tag; omega
  have hne : 0 < redRows tagI m n := by
    have := h.rows
    unfold redRows
    split <;> omega
  have hcs : CallShapes l shapes batch m n := h.fits
  have hcb : CallBatch (.bin .concat f w) shapes batch := ⟨h.some, h.axes, h.attained, h.int32.1⟩
  obtain ⟨S, B, Gd, hS, hL⟩ := lse_scheme big w.dim hsch
  have hrun := fun E res => weight_run_batch hl h.count h.var hvd ht h.rows.1 h.rows.2 hcs h.some h.int32.1 h.int32.2 pf pw
    h.dim hr hηr E res schb
  obtain ⟨hrd, Sb, hSb, -⟩ := hrun (fun _ => 0) fun _ => 0
  refine ⟨S, Sb, hS, hSb, hrd, fun M hM junk dimout nrows dimoutb nrowsb => ?_⟩
  have raw := fun A => lse_raw_batch (args := A) hl pf.wf pw.wf h.dim pf.ff pw.ff pf.vars pw.vars h.tag hne hcs hcb hL hM
    junk dimout nrows
  obtain ⟨P, hP, hrawP⟩ := raw args
  refine ⟨P, hP, fun o res hres G E hE => ?_⟩
  obtain ⟨-, Sb', hSb', hback⟩ := hrun E fun q => (res q).val
  rw [hSb] at hSb'
  cases hSb'
  obtain ⟨Pb, hPb, hback⟩ := hback M hM junk dimoutb nrowsb
  refine ⟨Pb, hPb, fun o' g hg => ?_⟩
  obtain ⟨a, ha, hsh, hadj⟩ := hback o' g hg
  refine ⟨a, ha, hsh, fun δ out₀ out L hex hpost => ?_⟩
  have V := batch_view (args := args) hl h.count h.var ht hcs w.dim E fun q => (res q).val
  set base := readBatch (weightVars l shapes.length w.dim tagI) (gradShapes shapes (outShape batch tagI m n (1 + w.dim)))
    (gradArgs shapes.length args E fun q => (res q).val) with hbase
  set X : Spec.Arr ℝ := ⟨shapes.getD v.ind.toNat [], fun idx => args v.ind.toNat (Spec.pos (shapes.getD v.ind.toNat []) idx)⟩
    with hX
  set Δ : Spec.Arr ℝ := ⟨shapes.getD v.ind.toNat [], fun idx => δ (Spec.pos (shapes.getD v.ind.toNat []) idx)⟩ with hΔ
  have hself : ∀ b, base b = point (base b) v (Spec.rowsOf X v b) := fun b => funext (V.self b)
  have hagr : ∀ e : Expr, e.FactFree → (∀ t ∈ e.vars, t ∈ l) → ∀ A b p,
      e.val (readBatch (weightVars l shapes.length w.dim tagI) (gradShapes shapes (outShape batch tagI m n (1 + w.dim)))
        (gradArgs shapes.length A E fun q => (res q).val) b p) = e.val (readBatch l shapes A b p) :=
    fun e he hv A b p => Expr.val_agree he fun u hu => V.agree A b p u (hv u hu)
  refine hadj δ _ fun b hb => ?_
  have hraw := hrawP o res hres b hb (fun i hi j hj => (pf.smooth b hb i hi j hj).def)
    (fun i hi j hj => (pw.smooth b hb i hi j hj).def)
  choose! c hc hck using hraw
  have hSpos : ∀ a < outRows tagI m n, ∀ k < w.dim,
      0 < (res (Spec.pos (outShape batch tagI m n (1 + w.dim)) (b ++ [a, 1 + k]))).val := fun a ha k hk => by
    have h1 := hpos b hb a ha k hk
    rw [sum_unshift _ (fun j => f.val (readBatch l shapes args b (pairAt tagI a j)) 0)
      (fun j => w.val (readBatch l shapes args b (pairAt tagI a j)) k) (c a)] at h1
    rw [hck a ha k hk]
    exact (mul_pos_iff_of_pos_left (Real.exp_pos _)).mp h1
  obtain ⟨r', axis', h1, -, hder⟩ := C44_logsumexp_partial (m := m) (n := n) (u := (shapes.length + 1 : Nat))
    (η := shapes.length) ht hvd
    hcat h.rows.1 h.rows.2 pf.wf pw.wf h.dim pf.ff pw.ff pf.plain pw.plain pf.uses pw.uses (by push_cast; omega)
    (by omega) hr (base b) (Spec.rowsOf X v b) (Spec.rowsOf Δ v b)
    (fun i hi j hj => by
      rw [← hself]
      exact smooth_agree pf.ff (fun u hu => V.agree _ _ _ u (pf.vars u hu)) (pf.smooth b hb i hi j hj))
    (fun i hi j hj => by
      rw [← hself]
      exact smooth_agree pw.ff (fun u hu => V.agree _ _ _ u (pw.vars u hu)) (pw.smooth b hb i hi j hj))
    c (fun i hi j hj k hk => by
      obtain rfl : k = 0 := by omega
      rw [Nat.zero_add, hbase, V.saved b hb i hi j hj 0 (by omega), hc _ (rowAt_lt ht hi hj)]
      rfl)
    (fun a k => (res (Spec.pos (outShape batch tagI m n (1 + w.dim)) (b ++ [a, 1 + k]))).val) (fun a ha k hk => by
      rw [hck a ha k hk, ← hself]
      refine sum_congr rfl fun s _ => ?_
      rw [hbase, hagr f pf.ff pf.vars, hagr w pw.ff pw.vars]) hSpos
    (fun a k => G (Spec.pos (outShape batch tagI m n w.dim) (b ++ [a, k]))) (fun i hi j hj k hk => by
      rw [hbase, V.eta b hb i hi j hj _ (by omega), hE b hb _ (rowAt_lt ht hi hj) k hk])
  cases h1
  rw [← hself] at hder
  refine hder.congr_of_eventuallyEq ?_
  have h0 : moved args v.ind.toNat δ 0 = args := by funext a k; simp [moved]
  have hcont : ∀ i < outRows tagI m n, ∀ k < w.dim, ContinuousAt (fun τ => ∑ s ∈ range (redRows tagI m n),
      Real.exp (f.val (readBatch l shapes (moved args v.ind.toNat δ τ) b (pairAt tagI i s)) 0) *
        w.val (readBatch l shapes (moved args v.ind.toNat δ τ) b (pairAt tagI i s)) k) 0 := fun i hi k hk =>
    tendsto_finset_sum _ fun s hs => by
      obtain ⟨h2, h3⟩ := pairAt_lt hi (mem_range.mp hs)
      have c1 := moved_cont_batch pf.wf pf.ff (pairAt tagI i s) v.ind.toNat δ (pf.smooth b hb _ h2 _ h3) (k := 0)
        (by have := h.dim; omega)
      have c2 := moved_cont_batch pw.wf pw.ff (pairAt tagI i s) v.ind.toNat δ (pw.smooth b hb _ h2 _ h3) hk
      exact (c1.rexp).mul c2
  have hnear : ∀ᶠ τ in 𝓝 (0 : ℝ), ∀ i ∈ range (outRows tagI m n), ∀ k ∈ range w.dim,
      0 < ∑ s ∈ range (redRows tagI m n),
      Real.exp (f.val (readBatch l shapes (moved args v.ind.toNat δ τ) b (pairAt tagI i s)) 0) *
        w.val (readBatch l shapes (moved args v.ind.toNat δ τ) b (pairAt tagI i s)) k :=
    (eventually_all_finset _).mpr fun i hi => (eventually_all_finset _).mpr fun k hk => by
      refine (hcont i (mem_range.mp hi) k (mem_range.mp hk)).eventually_const_lt ?_
      beta_reduce
      rw [h0]
      exact hpos b hb i (mem_range.mp hi) k (mem_range.mp hk)
  filter_upwards [hnear, moved_near_batch pf.wf pf.ff v.ind.toNat δ pf.smooth,
    moved_near_batch pw.wf pw.ff v.ind.toNat δ pw.smooth] with τ hτ df dw
  unfold dotRows
  refine sum_congr rfl fun i hi => sum_congr rfl fun k hk => ?_
  congr 1
  obtain ⟨P', hP', hex⟩ := hex τ
  obtain ⟨P'', hP'', hraw'⟩ := raw (moved args v.ind.toNat δ τ)
  rw [hP'] at hP''
  cases hP''
  obtain ⟨c', h2, h3⟩ := hraw' _ _ hex b hb (df b hb) (dw b hb) i (mem_range.mp hi)
  obtain ⟨arr, h4, h5⟩ := hpost τ b hb i (mem_range.mp hi)
  have hk' := mem_range.mp hk
  rw [h5 k hk', post_lse h4 hk']
  simp only [Mem.shift_apply, Nat.add_zero]
  have e3 : Spec.pos (outShape batch tagI m n (1 + w.dim)) (b ++ [i, 0]) + (1 + k) =
      Spec.pos (outShape batch tagI m n (1 + w.dim)) (b ++ [i, 1 + k]) := by
    rw [pos_row hb, pos_row hb, Nat.add_zero]
  rw [e3, h2, h3 k hk', log_unshift, ← sum_unshift _
      (fun j => f.val (readBatch l shapes (moved args v.ind.toNat δ τ) b (pairAt tagI i j)) 0)
      (fun j => w.val (readBatch l shapes (moved args v.ind.toNat δ τ) b (pairAt tagI i j)) k)]
  simp only [XR.log, hτ i hi k hk, if_true, XR.val, lseRow]
  congr 1
  refine sum_congr rfl fun s _ => ?_
  rw [hbase, V.move, hagr f pf.ff pf.vars, hagr w pw.ff pw.vars]

/-- **C63**, softmax-weighted sums with batch dimensions.  `res` is the memory `(M, S₀, S)` written by the forward kernel;
`G` is the gradient of the loss with respect to the softmax-weighted sums, and `E` the gradient that PyTorch computes from
it, through `S / S₀`, with respect to the components `S₀` and `S` of this memory.  The array returned for the argument
`v`, whose batch dimensions may be broadcast, has the shape of this argument and is the derivative of the loss.

Missing: Kahan summation; the restrictions of C04 on the formulas; empty batches; gradients that do not use `E`. -/
theorem C63_softmax_batch_partial (h : BackWeightBatch tf tw f w v tagI m n shapes batch args)
    (hr : RedGrads (.maxSumShiftExp f (.bin .concat (.int 1) w) tagI) v (etaVar shapes.length (2 + w.dim) tagI)
      (resVar shapes.length (2 + w.dim) tagI) (.sum r axis))
    (hηr : ((shapes.length : Int), 2 + w.dim, (tagI : Int)) ∈ r.vars)
    (big : ℝ → XR) (long : XR → XR) (sch schb : SumScheme) (hsch : sch ≠ .kahan) :
    ∃ S Sb, getScheme (@lseRed XR (xrNum big) (1 + w.dim)) sch = some S ∧
      getScheme (sumRed (V := ℝ) r.dim) schb = some Sb ∧ r.dim = v.dim ∧
      ∀ M : CMath, M.Exact → ∀ junk dimout nrows dimoutb nrowsb,
      ∃ P, rangeCall ((Expr.bin .concat f (.bin .concat (.int 1) w)).call XR.fin XR.val M junk tagI m n
            fun p q => XR.fin (args p q)).ev
          (Expr.bin .concat f (.bin .concat (.int 1) w)).inputs tagI (fun p q => XR.fin (args p q)) shapes m n dimout nrows
          none = some P ∧
      ∀ o res, RExec (@lseRed XR (xrNum big) (1 + w.dim)) S P o res →
        ∀ G E : Nat → ℝ, (∀ b, Arr.Idx batch b → ∀ i < outRows tagI m n,
          E (Spec.pos (outShape batch tagI m n (2 + w.dim)) (b ++ [i, 1])) =
            -(∑ k ∈ range w.dim, G (Spec.pos (outShape batch tagI m n w.dim) (b ++ [i, k])) *
                (res (Spec.pos (outShape batch tagI m n (2 + w.dim)) (b ++ [i, 2 + k]))).val) /
              (res (Spec.pos (outShape batch tagI m n (2 + w.dim)) (b ++ [i, 1]))).val ^ 2 ∧
          ∀ k < w.dim, E (Spec.pos (outShape batch tagI m n (2 + w.dim)) (b ++ [i, 2 + k])) =
            G (Spec.pos (outShape batch tagI m n w.dim) (b ++ [i, k])) /
              (res (Spec.pos (outShape batch tagI m n (2 + w.dim)) (b ++ [i, 1]))).val) →
        ∃ Pb, rangeCall (r.call id id M junk axis m n (gradArgs shapes.length args E fun q => (res q).val)).ev r.inputs
            axis (gradArgs shapes.length args E fun q => (res q).val)
            (gradShapes shapes (outShape batch tagI m n (2 + w.dim))) m n dimoutb nrowsb none = some Pb ∧
        ∀ o' g, RExec (sumRed r.dim) Sb Pb o' g →
        ∃ a, (∀ sigs gradOf, sigs[v.ind.toNat]? = some v →
            gradOf v = asArray (outShape batch axis m n v.dim) g →
            (backward sigs shapes gradOf)[v.ind.toNat]? = some (some a)) ∧
          shapes[v.ind.toNat]? = some a.shape ∧
          ∀ (δ : Nat → ℝ) (out₀ out : ℝ → Mem XR) (L : ℝ → List Nat → Nat → Nat → ℝ),
            (∀ τ, ∃ P, rangeCall ((Expr.bin .concat f (.bin .concat (.int 1) w)).call XR.fin XR.val M junk tagI m n
                fun p q => XR.fin (moved args v.ind.toNat δ τ p q)).ev
                (Expr.bin .concat f (.bin .concat (.int 1) w)).inputs tagI
                (fun p q => XR.fin (moved args v.ind.toNat δ τ p q)) shapes m n dimout nrows none = some P ∧
              RExec (@lseRed XR (xrNum big) (1 + w.dim)) S P (out₀ τ) (out τ)) →
            (∀ τ, ∀ b, Arr.Idx batch b → ∀ i < outRows tagI m n, ∃ arr,
              postprocess (xrPost long) .sumSoftMaxWeight 0 (2 + w.dim)
                ((out τ).shift (Spec.pos (outShape batch tagI m n (2 + w.dim)) (b ++ [i, 0]))) = some [arr] ∧
              ∀ k < w.dim, L τ b i k = (arr.get k).val) →
            HasDerivAt (fun τ => sumIdx batch fun b => ∑ i ∈ range (outRows tagI m n), ∑ k ∈ range w.dim,
                G (Spec.pos (outShape batch tagI m n w.dim) (b ++ [i, k])) * L τ b i k)
              (sumIdx a.shape fun idx => a.get idx * δ (Spec.pos a.shape idx)) 0 := by
  obtain ⟨pf, pw⟩ := h.parts
  have p1 := pw.one
  have hod : (Expr.bin .concat (.int 1) w).dim = 1 + w.dim := rfl
  have h2d : 2 + w.dim = 1 + (1 + w.dim) := by omega
  have hr' := hr
  rw [h2d] at hr hηr ⊢
  set l := (Term.bin .concat tf tw).vars with hldef
  have hl : PlainVars l := ⟨h.inputs.pos, h.inputs.cat, h.inputs.unique⟩
  have hvd : 0 < v.dim := by
    rcases List.mem_append.mp h.var with h1 | h1
    · exact term_vars_pos h.pos.1 _ h1
    · exact term_vars_pos h.pos.2 _ h1
  have hcat := hl.cat _ h.var
  have hvn := h.count _ h.var
  have hv0 := hl.pos _ h.var
  simp only at hcat hvn hv0
  have hq : v.ind.toNat < shapes.length := by omega
  have ht : tagI = 0 ∨ tagI = 1 := by have := h.tag; omega
  have hne : 0 < redRows tagI m n := by
    have := h.rows
    unfold redRows
    split <;> omega
  have hcs : CallShapes l shapes batch m n := h.fits
  have hcb : CallBatch (.bin .concat f (.bin .concat (.int 1) w)) shapes batch :=
    ⟨h.some, h.axes, h.attained, h.int32.1⟩
  obtain ⟨S, B, Gd, hS, hL⟩ := lse_scheme big (1 + w.dim) hsch
  have hrun := fun E res => weight_run_batch (ω := .bin .concat (.int 1) w) hl h.count h.var hvd ht h.rows.1 h.rows.2 hcs
    h.some h.int32.1 h.int32.2 pf p1 h.dim hr hηr E res schb
  obtain ⟨hrd, Sb, hSb, -⟩ := hrun (fun _ => 0) fun _ => 0
  refine ⟨S, Sb, hS, hSb, hrd, fun M hM junk dimout nrows dimoutb nrowsb => ?_⟩
  have hone : ∀ env, (Expr.bin .concat (.int 1) w).val env 0 = 1 := fun env => by
    simp [Expr.val, binVal, cst, Expr.dim]
  have hwk : ∀ env, ∀ k < w.dim, (Expr.bin .concat (.int 1) w).val env (1 + k) = w.val env k := fun env k hk => by
    simp only [Expr.val, binVal, Expr.dim]
    rw [cst_eq (by omega)]
    simp
  have raw : ∀ A : Nat → Nat → ℝ, ∃ P, rangeCall ((Expr.bin .concat f (.bin .concat (.int 1) w)).call XR.fin XR.val M junk
          tagI m n fun p q => XR.fin (A p q)).ev
        (Expr.bin .concat f (.bin .concat (.int 1) w)).inputs tagI (fun p q => XR.fin (A p q)) shapes m n dimout nrows
        none = some P ∧
      ∀ out out', RExec (@lseRed XR (xrNum big) (1 + w.dim)) S P out out' →
      ∀ b, Arr.Idx batch b → (∀ i < m, ∀ j < n, f.Def (readBatch l shapes A b (i, j))) →
      (∀ i < m, ∀ j < n, w.Def (readBatch l shapes A b (i, j))) → ∀ i < outRows tagI m n,
      ∃ c : ℝ, out' (Spec.pos (outShape batch tagI m n (1 + (1 + w.dim))) (b ++ [i, 0])) = XR.fin c ∧
        out' (Spec.pos (outShape batch tagI m n (1 + (1 + w.dim))) (b ++ [i, 1])) =
          XR.fin (∑ s ∈ range (redRows tagI m n), Real.exp (f.val (readBatch l shapes A b (pairAt tagI i s)) 0 - c)) ∧
        ∀ k < w.dim, out' (Spec.pos (outShape batch tagI m n (1 + (1 + w.dim))) (b ++ [i, 2 + k])) =
          XR.fin (∑ s ∈ range (redRows tagI m n), Real.exp (f.val (readBatch l shapes A b (pairAt tagI i s)) 0 - c) *
            w.val (readBatch l shapes A b (pairAt tagI i s)) k) := by
    intro A
    obtain ⟨P, hP, hP'⟩ := lse_raw_batch (args := A) hl pf.wf p1.wf h.dim pf.ff p1.ff pf.vars p1.vars h.tag hne hcs hcb hL
      hM junk dimout nrows
    refine ⟨P, hP, fun out out' he b hb df dw i hi => ?_⟩
    obtain ⟨c, h1, h2⟩ := hP' out out' he b hb df (fun i hi j hj => ⟨trivial, dw i hi j hj, trivial⟩) i hi
    refine ⟨c, h1, ?_, fun k hk => ?_⟩
    · have := h2 0 (by show 0 < 1 + w.dim; omega)
      simp only [hone, mul_one, Nat.add_zero] at this
      exact this
    · have := h2 (1 + k) (by show 1 + k < 1 + w.dim; omega)
      rw [← Nat.add_assoc 1 1 k] at this
      refine this.trans ?_
      congr 1
      exact sum_congr rfl fun s _ => by rw [hwk _ k hk]
  obtain ⟨P, hP, hrawP⟩ := raw args
  refine ⟨P, hP, fun o res hres G E hE => ?_⟩
  obtain ⟨-, Sb', hSb', hback⟩ := hrun E fun q => (res q).val
  rw [hSb] at hSb'
  cases hSb'
  obtain ⟨Pb, hPb, hback⟩ := hback M hM junk dimoutb nrowsb
  refine ⟨Pb, hPb, fun o' g hg => ?_⟩
  obtain ⟨a, ha, hsh, hadj⟩ := hback o' g hg
  refine ⟨a, ha, hsh, fun δ out₀ out L hex hpost => ?_⟩
  have V := batch_view (args := args) hl h.count h.var ht hcs (1 + w.dim) E fun q => (res q).val
  rw [hod] at hadj
  set base := readBatch (weightVars l shapes.length (1 + w.dim) tagI)
    (gradShapes shapes (outShape batch tagI m n (1 + (1 + w.dim))))
    (gradArgs shapes.length args E fun q => (res q).val) with hbase
  set X : Spec.Arr ℝ := ⟨shapes.getD v.ind.toNat [], fun idx => args v.ind.toNat (Spec.pos (shapes.getD v.ind.toNat []) idx)⟩
    with hX
  set Δ : Spec.Arr ℝ := ⟨shapes.getD v.ind.toNat [], fun idx => δ (Spec.pos (shapes.getD v.ind.toNat []) idx)⟩ with hΔ
  have hself : ∀ b, base b = point (base b) v (Spec.rowsOf X v b) := fun b => funext (V.self b)
  have hagr : ∀ e : Expr, e.FactFree → (∀ t ∈ e.vars, t ∈ l) → ∀ A b p,
      e.val (readBatch (weightVars l shapes.length (1 + w.dim) tagI)
        (gradShapes shapes (outShape batch tagI m n (1 + (1 + w.dim))))
        (gradArgs shapes.length A E fun q => (res q).val) b p) = e.val (readBatch l shapes A b p) :=
    fun e he hv A b p => Expr.val_agree he fun u hu => V.agree A b p u (hv u hu)
  refine hadj δ _ fun b hb => ?_
  have hraw := hrawP o res hres b hb (fun i hi j hj => (pf.smooth b hb i hi j hj).def)
    (fun i hi j hj => (pw.smooth b hb i hi j hj).def)
  choose! c hc hc0 hck using hraw
  have hr2 : RedGrads (.maxSumShiftExp f (.bin .concat (.int 1) w) tagI) v (.var shapes.length (2 + w.dim) tagI)
      (.var (shapes.length + 1 : Nat) (2 + w.dim) tagI) (.sum r axis) := hr'
  obtain ⟨r', axis', h1, -, hder⟩ := C44_softmax_partial (m := m) (n := n) (u := (shapes.length + 1 : Nat))
    (η := shapes.length) ht hvd
    hcat h.rows.1 h.rows.2 pf.wf pw.wf h.dim pf.ff pw.ff pf.plain pw.plain pf.uses pw.uses (by push_cast; omega)
    (by omega) hr2 (base b) (Spec.rowsOf X v b) (Spec.rowsOf Δ v b)
    (fun i hi j hj => by
      rw [← hself]
      exact smooth_agree pf.ff (fun u hu => V.agree _ _ _ u (pf.vars u hu)) (pf.smooth b hb i hi j hj))
    (fun i hi j hj => by
      rw [← hself]
      exact smooth_agree pw.ff (fun u hu => V.agree _ _ _ u (pw.vars u hu)) (pw.smooth b hb i hi j hj))
    c (fun i hi j hj k hk => by
      obtain rfl : k = 0 := by omega
      rw [Nat.zero_add, hbase, V.saved b hb i hi j hj 0 (by omega), hc _ (rowAt_lt ht hi hj)]
      rfl)
    (fun a => (res (Spec.pos (outShape batch tagI m n (1 + (1 + w.dim))) (b ++ [a, 1]))).val)
    (fun a k => (res (Spec.pos (outShape batch tagI m n (1 + (1 + w.dim))) (b ++ [a, 2 + k]))).val)
    (fun a ha => by
      rw [hc0 a ha, ← hself]
      refine sum_congr rfl fun s _ => ?_
      rw [hbase, hagr f pf.ff pf.vars])
    (fun a ha k hk => by
      rw [hck a ha k hk, ← hself]
      refine sum_congr rfl fun s _ => ?_
      rw [hbase, hagr f pf.ff pf.vars, hagr w pw.ff pw.vars])
    (fun a k => G (Spec.pos (outShape batch tagI m n w.dim) (b ++ [a, k])))
    (fun i hi j hj k hk => by
      obtain rfl : k = 0 := by omega
      rw [hbase, V.eta b hb i hi j hj _ (by omega)]
      exact (hE b hb _ (rowAt_lt ht hi hj)).1)
    (fun i hi j hj k hk => by
      rw [hbase, V.eta b hb i hi j hj _ (by omega)]
      exact (hE b hb _ (rowAt_lt ht hi hj)).2 k hk)
  cases h1
  rw [← hself] at hder
  refine hder.congr_of_eventuallyEq ?_
  filter_upwards [moved_near_batch pf.wf pf.ff v.ind.toNat δ pf.smooth,
    moved_near_batch pw.wf pw.ff v.ind.toNat δ pw.smooth] with τ df dw
  unfold dotRows
  refine sum_congr rfl fun i hi => sum_congr rfl fun k hk => ?_
  congr 1
  obtain ⟨P', hP', hex⟩ := hex τ
  obtain ⟨P'', hP'', hraw'⟩ := raw (moved args v.ind.toNat δ τ)
  rw [hP'] at hP''
  cases hP''
  obtain ⟨c', h2, h20, h3⟩ := hraw' _ _ hex b hb (df b hb) (dw b hb) i (mem_range.mp hi)
  obtain ⟨arr, h4, h5⟩ := hpost τ b hb i (mem_range.mp hi)
  have hk' := mem_range.mp hk
  rw [h5 k hk']
  cases h4
  have hden : 0 < ∑ s ∈ range (redRows tagI m n),
      Real.exp (f.val (readBatch l shapes (moved args v.ind.toNat δ τ) b (pairAt tagI i s)) 0 - c') :=
    Finset.sum_pos (fun _ _ => Real.exp_pos _) ⟨0, mem_range.mpr hne⟩
  simp only [Mem.shift_apply]
  change XR.val (XR.div (out τ (Spec.pos (outShape batch tagI m n (1 + (1 + w.dim))) (b ++ [i, 0]) + (2 + k)))
    (out τ (Spec.pos (outShape batch tagI m n (1 + (1 + w.dim))) (b ++ [i, 0]) + 1))) = _
  have e3 : ∀ x, Spec.pos (outShape batch tagI m n (1 + (1 + w.dim))) (b ++ [i, 0]) + x =
      Spec.pos (outShape batch tagI m n (1 + (1 + w.dim))) (b ++ [i, x]) := fun x => by
    rw [pos_row hb, pos_row hb, Nat.add_zero]
  rw [e3, e3, h20, h3 k hk']
  simp only [XR.div, hden.ne', if_false, XR.val, softRow]
  have e1 := sum_unshift (redRows tagI m n)
      (fun j => f.val (readBatch l shapes (moved args v.ind.toNat δ τ) b (pairAt tagI i j)) 0)
      (fun j => w.val (readBatch l shapes (moved args v.ind.toNat δ τ) b (pairAt tagI i j)) k) c'
  have e2 := sum_unshift (redRows tagI m n)
      (fun j => f.val (readBatch l shapes (moved args v.ind.toNat δ τ) b (pairAt tagI i j)) 0) (fun _ => 1) c'
  simp only [mul_one] at e2
  rw [← mul_div_mul_left _ _ (Real.exp_pos c').ne', ← e1, ← e2]
  congr 1
  · refine sum_congr rfl fun s _ => ?_
    rw [hbase, V.move, hagr f pf.ff pf.vars, hagr w pw.ff pw.vars]
  · refine sum_congr rfl fun s _ => ?_
    rw [hbase, V.move, hagr f pf.ff pf.vars]

end

/-! ## The hypotheses can be met -/

theorem score_back_batch (v : VarId) (hv : (v.ind, v.dim, v.cat) ∈ (Term.bin .concat backScore backB).vars) (m n : Nat)
    (hm : 0 < m) (hn : 0 < n) (hm' : m < 2 ^ 28) (hn' : n < 2 ^ 28) (args : Nat → Nat → ℝ) :
    BackWeightBatch backScore backB backScoreE (.var 2 2 1) v 0 m n (gaussShapes m n) [3, 2] args where
  pos := by simp [Term.Pos, Un.dim]
  inputs := ⟨by decide, by decide, by decide⟩
  score := ⟨20, rfl⟩
  weight := ⟨20, rfl⟩
  dim := rfl
  tag := by omega
  rows := ⟨hm, hn⟩
  var := hv
  count := by simp [gaussShapes, Term.vars]
  plain := by simp [Expr.NoBroadcast]
  fits := by
    have h1 : Broadcasts [3, 1] [3, 2] := .cons ⟨by omega, .inl rfl⟩ (.cons ⟨by omega, .inr rfl⟩ .nil)
    have h2 : Broadcasts [1, 2] [3, 2] := .cons ⟨by omega, .inr rfl⟩ (.cons ⟨by omega, .inl rfl⟩ .nil)
    have h3 : Broadcasts [3, 2] [3, 2] := .cons ⟨by omega, .inl rfl⟩ (.cons ⟨by omega, .inl rfl⟩ .nil)
    intro u hu
    simp only [Term.vars, List.cons_append, List.nil_append, List.mem_cons, List.not_mem_nil, or_false] at hu
    rcases hu with rfl | rfl | rfl
    · exact ⟨_, h1, rfl⟩
    · exact ⟨_, h2, rfl⟩
    · exact ⟨_, h3, rfl⟩
  some := by simp
  axes := ⟨(0, 3, 0), by decide, by decide⟩
  attained c hc := .inr ⟨(2, 2, 1), by decide, by
    obtain rfl | rfl : c = 0 ∨ c = 1 := by simp at hc; omega
    all_goals rfl⟩
  int32 := by
    refine ⟨fun u hu => ?_, by simp [outRows]; omega⟩
    have : u = (0, 3, 0) ∨ u = (1, 3, 1) ∨ u = (2, 2, 1) := by
      simp only [Expr.vars, List.cons_append, List.nil_append, List.mem_cons, List.not_mem_nil, or_false] at hu
      tauto
    rcases this with rfl | rfl | rfl <;> simp [gaussShapes] <;> omega
  smooth b _ i _ j _ := by simp [Expr.Smooth, binSmooth, unSmooth, Expr.dim, Un.dim, Bin.dim]

/-- The gradients of a batch of log-sum-exps, and of softmax-weighted sums, with respect to the points `x`, of shape
`(3, 1, m, 3)`, which are broadcast along the second batch dimension, and with respect to the weights `b`: they exist and
use the gradient that PyTorch gives. -/
example : (∃ r, RedGrads (.maxSumShiftExp backScoreE (.var 2 2 1) 0) ⟨0, 3, 0⟩ (etaVar 3 3 0) (resVar 3 3 0) (.sum r 0) ∧
      ((3 : Int), 3, (0 : Int)) ∈ r.vars) ∧
    (∃ r, RedGrads (.maxSumShiftExp backScoreE (.var 2 2 1) 0) ⟨2, 2, 1⟩ (etaVar 3 3 0) (resVar 3 3 0) (.sum r 1) ∧
      ((3 : Int), 3, (0 : Int)) ∈ r.vars) ∧
    (∃ r, RedGrads (.maxSumShiftExp backScoreE (.bin .concat (.int 1) (.var 2 2 1)) 0) ⟨0, 3, 0⟩ (etaVar 3 4 0)
      (resVar 3 4 0) (.sum r 0) ∧ ((3 : Int), 4, (0 : Int)) ∈ r.vars) ∧
    ∃ r, RedGrads (.maxSumShiftExp backScoreE (.bin .concat (.int 1) (.var 2 2 1)) 0) ⟨2, 2, 1⟩ (etaVar 3 4 0)
      (resVar 3 4 0) (.sum r 1) ∧ ((3 : Int), 4, (0 : Int)) ∈ r.vars :=
  ⟨⟨_, ⟨20, rfl⟩, by decide⟩, ⟨_, ⟨20, rfl⟩, by decide⟩, ⟨_, ⟨20, rfl⟩, by decide⟩, ⟨_, ⟨20, rfl⟩, by decide⟩⟩

/-- The softmax-weighted sums of a batch: the forward and backward kernels run on GPUs, and the array that is returned for
the points `x`, of shape `(3, 1, m, 3)`, is the derivative of the loss. -/
example (m n : Nat) (hm : 0 < m) (hn : 0 < n) (hm' : m < 2 ^ 28) (hn' : n < 2 ^ 28) (args : Nat → Nat → ℝ)
    (big : ℝ → XR) (long : XR → XR) (G : Nat → ℝ) :
    ∃ (r : Expr) (S : Scheme XR) (Sb : Scheme ℝ) (P : _) (Pb : _) (res : Mem XR) (E : Nat → ℝ) (g : Mem ℝ)
      (a : Spec.Arr ℝ),
      rangeCall ((Expr.bin .concat backScoreE (.bin .concat (.int 1) (.var 2 2 1))).call XR.fin XR.val realMath
          (fun _ _ => 0) 0 m n fun p q => XR.fin (args p q)).ev
        (Expr.bin .concat backScoreE (.bin .concat (.int 1) (.var 2 2 1))).inputs 0 (fun p q => XR.fin (args p q))
        (gaussShapes m n) m n 4 (6 * m) none = some P ∧
      RExec (@lseRed XR (xrNum big) 3) S P (fun _ => XR.fin 0) res ∧
      rangeCall (r.call id id realMath (fun _ _ => 0) 0 m n (gradArgs 3 args E fun q => (res q).val)).ev r.inputs 0
        (gradArgs 3 args E fun q => (res q).val)
        [[3, 1, m, 3], [1, 2, n, 3], [3, 2, n, 2], [3, 2, m, 4], [3, 2, m, 4]] m n 3 (6 * m) none = some Pb ∧
      RExec (sumRed 3) Sb Pb (fun _ => 0) g ∧
      (backward [⟨0, 3, 0⟩, ⟨1, 3, 1⟩, ⟨2, 2, 1⟩] (gaussShapes m n) fun _ => asArray [3, 2, m, 3] g)[0]? =
        some (some a) ∧
      a.shape = [3, 1, m, 3] ∧
      ∀ (δ : Nat → ℝ) (out₀ out : ℝ → Mem XR) (L : ℝ → List Nat → Nat → Nat → ℝ),
        (∀ τ, ∃ P, rangeCall ((Expr.bin .concat backScoreE (.bin .concat (.int 1) (.var 2 2 1))).call XR.fin XR.val
            realMath (fun _ _ => 0) 0 m n fun p q => XR.fin (moved args 0 δ τ p q)).ev
            (Expr.bin .concat backScoreE (.bin .concat (.int 1) (.var 2 2 1))).inputs 0
            (fun p q => XR.fin (moved args 0 δ τ p q)) (gaussShapes m n) m n 4 (6 * m) none = some P ∧
          RExec (@lseRed XR (xrNum big) 3) S P (out₀ τ) (out τ)) →
        (∀ τ, ∀ b, Arr.Idx [3, 2] b → ∀ i < m, ∃ arr,
          postprocess (xrPost long) .sumSoftMaxWeight 0 4 ((out τ).shift (Spec.pos [3, 2, m, 4] (b ++ [i, 0]))) =
            some [arr] ∧ ∀ k < 2, L τ b i k = (arr.get k).val) →
        HasDerivAt (fun τ => sumIdx [3, 2] fun b => ∑ i ∈ range m, ∑ k ∈ range 2,
            G (Spec.pos [3, 2, m, 2] (b ++ [i, k])) * L τ b i k)
          (sumIdx [3, 1, m, 3] fun idx => a.get idx * δ (Spec.pos [3, 1, m, 3] idx)) 0 := by
  have hr : ∃ r, RedGrads (.maxSumShiftExp backScoreE (.bin .concat (.int 1) (.var 2 2 1)) 0) ⟨0, 3, 0⟩
      (etaVar 3 (2 + (Expr.var 2 2 1).dim) 0) (resVar 3 (2 + (Expr.var 2 2 1).dim) 0) (.sum r 0) ∧
      ((3 : Int), 2 + (Expr.var 2 2 1).dim, (0 : Int)) ∈ r.vars := ⟨_, ⟨20, rfl⟩, by decide⟩
  obtain ⟨r, hr, hη⟩ := hr
  obtain ⟨S, Sb, hS, hSb, hd, h⟩ := C63_softmax_batch_partial
    (score_back_batch ⟨0, 3, 0⟩ (by decide) m n hm hn hm' hn' args) hr hη big long .direct .direct (by decide)
  simp only at hd
  rw [hd] at hSb h
  obtain ⟨P, hP, h⟩ := h realMath realMath_exact (fun _ _ => 0) 4 (6 * m) 3 (6 * m)
  cases hS
  cases hSb
  obtain ⟨res, hres⟩ := rexec_exists_gpu (@lseRed XR (xrNum big) 3) (directScheme (@lseRed XR (xrNum big) 3)) P
    (fun _ => XR.fin 0)
  let E : Nat → ℝ := fun q => if q % 4 = 1 then
      -(∑ k ∈ range 2, G (q / 4 * 2 + k) * (res (q / 4 * 4 + (2 + k))).val) / (res (q / 4 * 4 + 1)).val ^ 2
    else G (q / 4 * 2 + (q % 4 - 2)) / (res (q / 4 * 4 + 1)).val
  obtain ⟨Pb, hPb, h⟩ := h _ res hres G E (fun b hb i _ => by
    have e0 : ∀ D x, Spec.pos (outShape [3, 2] 0 m n D) (b ++ [i, x]) = (Spec.pos [3, 2] b * outRows 0 m n + i) * D + x :=
      fun D x => pos_row hb D i x
    simp only [e0]
    generalize Spec.pos [3, 2] b * outRows 0 m n + i = ρ
    constructor
    · have e1 : (ρ * 4 + 1) % 4 = 1 := by omega
      have e2 : (ρ * 4 + 1) / 4 = ρ := by omega
      show E (ρ * 4 + 1) = _
      simp only [E, e1, e2, if_true]
      rfl
    · intro k hk
      have hk' : k < 2 := hk
      have e1 : (ρ * 4 + (2 + k)) % 4 = 2 + k := by omega
      have e2 : (ρ * 4 + (2 + k)) / 4 = ρ := by omega
      have e3 : ¬ (2 + k = 1) := by omega
      show E (ρ * 4 + (2 + k)) = _
      simp only [E, e1, e2, e3, if_false, Nat.add_sub_cancel_left]
      rfl)
  obtain ⟨g, hg⟩ := rexec_exists_gpu (sumRed 3) (directScheme (sumRed 3)) Pb (fun _ => 0)
  obtain ⟨a, h1, h2, h3⟩ := h _ g hg
  have h2' : a.shape = [3, 1, m, 3] := by
    have : some [3, 1, m, 3] = some a.shape := h2
    exact (Option.some.inj this).symm
  refine ⟨r, _, _, P, Pb, res, E, g, a, hP, hres, hPb, hg, h1 _ _ rfl rfl, h2', fun δ out₀ out L hex hp => ?_⟩
  have := h3 δ out₀ out L hex hp
  rw [h2'] at this
  exact this

/-- The sums of a batch of log-sum-exps are positive when the weights are. -/
example (m n : Nat) (hn : 0 < n) (args : Nat → Nat → ℝ) (hb : ∀ q, 0 < args 2 q) :
    ∀ b, Arr.Idx [3, 2] b → ∀ i < outRows 0 m n, ∀ k < 2, 0 < ∑ j ∈ range (redRows 0 m n),
      Real.exp (backScoreE.val (readBatch (Term.bin .concat backScore backB).vars (gaussShapes m n) args b
          (pairAt 0 i j)) 0) *
        (Expr.var 2 2 1).val (readBatch (Term.bin .concat backScore backB).vars (gaussShapes m n) args b (pairAt 0 i j)) k := by
  intro b hb i _ k hk
  refine Finset.sum_pos (fun j hj => mul_pos (Real.exp_pos _) ?_) ⟨0, mem_range.mpr hn⟩
  simp only [Expr.val]
  rw [cst_eq hk]
  simp only [readBatch, Term.vars, List.cons_append, List.nil_append, List.find?]
  simp [show k < 2 from hk, Arr.at', hb]
  exact ‹∀ q, 0 < args 2 q› _

end Verif
