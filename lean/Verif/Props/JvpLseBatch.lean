import Verif.Proofs.JvpLseBatch
import Verif.Props.BackwardLseBatch

/-!
# C66 for log-sum-exps and softmax-weighted sums with batch dimensions
-/

namespace Verif

open Finset Spec Filter Topology

section

variable {tf tw : Term} {f w : Expr} {sigs : List VarId} {tagI m n : Nat} {shapes : List (List Nat)} {batch : List Nat}
  {args : Nat → Nat → ℝ}

/-- A call with batch dimensions of a log-sum-exp, or of a softmax-weighted sum, for which forward-mode derivatives are
asked for: as `JvpWeight`, with arrays of shapes `shapes`, whose batch dimensions are those of `batch` or 1, and at which
the formulas are differentiable in each batch. -/
structure JvpWeightBatch (tf tw : Term) (f w : Expr) (sigs : List VarId) (tagI m n : Nat) (shapes : List (List Nat))
    (batch : List Nat) (args : Nat → Nat → ℝ) : Prop where
  pos : tf.Pos ∧ tw.Pos
  score : ∃ N, tf.compile N = .ok f
  weight : ∃ N, tw.compile N = .ok w
  dim : f.dim = 1
  tag : tagI < 2
  rows : 0 < m ∧ 0 < n
  order : ∀ (a : Nat) (v : VarId), sigs[a]? = some v → v.ind = a
  sig : ∀ v ∈ sigs, 0 < v.dim ∧ (v.cat = 0 ∨ v.cat = 1 ∨ v.cat = 2)
  vars : (∀ u ∈ tf.vars, u ∈ declared sigs) ∧ ∀ u ∈ tw.vars, u ∈ declared sigs
  plain : f.NoBroadcast ∧ w.NoBroadcast
  count : shapes.length = sigs.length
  fits : ∀ u ∈ declared sigs, ∃ xb, Broadcasts xb batch ∧
    shapes.getD u.1.toNat [] = xb ++ tailShape u.2.2 (if u.2.2 = 1 then n else m) u.2.1
  call : CallBatch (.bin .concat f w) shapes batch
  smooth : ∀ b, Arr.Idx batch b → ∀ i < m, ∀ j < n, f.Smooth (readBatch (declared sigs) shapes args b (i, j)) ∧
    w.Smooth (readBatch (declared sigs) shapes args b (i, j))

theorem JvpWeightBatch.pieces (h : JvpWeightBatch tf tw f w sigs tagI m n shapes batch args) :
    PieceB (declared sigs) m n shapes batch args f ∧ PieceB (declared sigs) m n shapes batch args w := by
  obtain ⟨N, hf⟩ := h.score
  obtain ⟨N', hw⟩ := h.weight
  obtain ⟨ff, vf⟩ := compile_vars h.pos.1 hf
  obtain ⟨fw, vw⟩ := compile_vars h.pos.2 hw
  exact ⟨⟨(compile_rep h.pos.1 hf).wf, ff, fun t ht => h.vars.1 t (vf t ht), h.plain.1,
      fun b hb i hi j hj => (h.smooth b hb i hi j hj).1⟩,
    ⟨(compile_rep h.pos.2 hw).wf, fw, fun t ht => h.vars.2 t (vw t ht), h.plain.2,
      fun b hb i hi j hj => (h.smooth b hb i hi j hj).2⟩⟩

theorem JvpWeightBatch.self (h : JvpWeightBatch tf tw f w sigs tagI m n shapes batch args) : Broadcasts batch batch := by
  obtain ⟨pf, pw⟩ := h.pieces
  obtain ⟨u, hu, -⟩ := h.call.axes
  have hd : u ∈ declared sigs := (List.mem_append.mp hu).elim (pf.vars u) (pw.vars u)
  obtain ⟨xb, hx, -⟩ := h.fits u hd
  exact self_broadcast hx

/-- The weights of a softmax. -/
theorem PieceB.one {l : List (Int × Nat × Int)} (h : PieceB l m n shapes batch args w) :
    PieceB l m n shapes batch args (.bin .concat (.int 1) w) where
  wf := ⟨by simp [Expr.WF], h.wf, rfl, by show 0 < 1 + w.dim; omega⟩
  ff := ⟨trivial, h.ff⟩
  vars t ht := h.vars t ht
  plain := ⟨trivial, h.plain⟩
  smooth b hb i hi j hj := ⟨trivial, h.smooth b hb i hi j hj, trivial⟩

/-- **C66**, log-sum-exp with weights (without weights, `w` is the constant 1), with batch dimensions.  `res` is the memory
`(M, S)` written by the forward kernel, and `T` the array returned by the forward mode for it, which is the sum of the
outputs `g v` of one kernel for each argument `v` with a tangent.  The derivative that PyTorch computes through
`L = M + log S`, which is `T₀ + T / S`, is the derivative of the log-sum-exp, in every batch, when all the arguments move
in the directions of their tangents; arguments may be broadcast along some batch dimensions.

Partial: each derivative that is computed must have the batch dimensions of the output (`hb`), see `not_C66_batch`; Kahan
summation; the restrictions of C05 on the formulas. -/
theorem C66_logsumexp_batch_partial (h : JvpWeightBatch tf tw f w sigs tagI m n shapes batch args)
    (tangents : List (Option (Mem ℝ))) (hlen : tangents.length = sigs.length) (rs : VarId → Expr)
    (hr : ∀ c ∈ jvpCalls sigs tangents, RedDiffs (.maxSumShiftExp f w tagI) c.1 (tangentVar sigs.length c.1)
      (resVar sigs.length (1 + w.dim) tagI) (.sum (rs c.1) tagI))
    (hb : ∀ c ∈ jvpCalls sigs tangents,
      CallBatch (rs c.1) (jvpShapes shapes c.1 (outShape batch tagI m n (1 + w.dim))) batch)
    (hpos : ∀ b, Arr.Idx batch b → ∀ i < outRows tagI m n, ∀ k < w.dim, 0 < ∑ j ∈ range (redRows tagI m n),
      Real.exp (f.val (readBatch (declared sigs) shapes args b (pairAt tagI i j)) 0) *
        w.val (readBatch (declared sigs) shapes args b (pairAt tagI i j)) k)
    (big : ℝ → XR) (long : XR → XR) (sch schd : SumScheme) (hsch : sch ≠ .kahan) :
    ∃ S Sd, getScheme (@lseRed XR (xrNum big) w.dim) sch = some S ∧
      getScheme (sumRed (V := ℝ) (1 + w.dim)) schd = some Sd ∧
      (∀ c ∈ jvpCalls sigs tangents, (rs c.1).dim = 1 + w.dim) ∧
      ∀ M : CMath, M.Exact → ∀ junk dimout nrows dimoutd nrowsd,
      ∃ P, rangeCall ((Expr.bin .concat f w).call XR.fin XR.val M junk tagI m n fun p q => XR.fin (args p q)).ev
          (Expr.bin .concat f w).inputs tagI (fun p q => XR.fin (args p q)) shapes m n dimout nrows none = some P ∧
      ∀ o₀ res, RExec (@lseRed XR (xrNum big) w.dim) S P o₀ res →
        (∀ c ∈ jvpCalls sigs tangents, ∃ Q, rangeCall ((rs c.1).call id id M junk tagI m n
            (gradArgs sigs.length args c.2 fun q => (res q).val)).ev (rs c.1).inputs tagI
            (gradArgs sigs.length args c.2 fun q => (res q).val)
            (jvpShapes shapes c.1 (outShape batch tagI m n (1 + w.dim))) m n dimoutd nrowsd none = some Q) ∧
        ∀ o g : VarId → Mem ℝ,
        (∀ c ∈ jvpCalls sigs tangents, ∀ Q, rangeCall ((rs c.1).call id id M junk tagI m n
            (gradArgs sigs.length args c.2 fun q => (res q).val)).ev (rs c.1).inputs tagI
            (gradArgs sigs.length args c.2 fun q => (res q).val)
            (jvpShapes shapes c.1 (outShape batch tagI m n (1 + w.dim))) m n dimoutd nrowsd none = some Q →
          RExec (sumRed (1 + w.dim)) Sd Q (o c.1) (g c.1)) →
        ∀ T, T = jvpOut ((jvpCalls sigs tangents).map fun c => g c.1) →
        ∀ (out₀ out : ℝ → Mem XR) (L : ℝ → List Nat → Nat → Nat → ℝ),
          (∀ τ, ∃ P, rangeCall ((Expr.bin .concat f w).call XR.fin XR.val M junk tagI m n
              fun p q => XR.fin (movedAll args (dirs tangents) τ p q)).ev (Expr.bin .concat f w).inputs tagI
              (fun p q => XR.fin (movedAll args (dirs tangents) τ p q)) shapes m n dimout nrows none = some P ∧
            RExec (@lseRed XR (xrNum big) w.dim) S P (out₀ τ) (out τ)) →
          (∀ τ, ∀ b, Arr.Idx batch b → ∀ i < outRows tagI m n, ∃ arr,
            postprocess (xrPost long) .logSumExp 0 (1 + w.dim)
              ((out τ).shift (Spec.pos (outShape batch tagI m n (1 + w.dim)) (b ++ [i, 0]))) = some [arr] ∧
            ∀ k < w.dim, L τ b i k = (arr.get k).val) →
          ∀ b, Arr.Idx batch b → ∀ i < outRows tagI m n, ∀ k < w.dim,
            HasDerivAt (fun τ => L τ b i k)
              (T (Spec.pos (outShape batch tagI m n (1 + w.dim)) (b ++ [i, 0])) +
                T (Spec.pos (outShape batch tagI m n (1 + w.dim)) (b ++ [i, 1 + k])) /
                  (res (Spec.pos (outShape batch tagI m n (1 + w.dim)) (b ++ [i, 1 + k]))).val) 0 := by
  obtain ⟨pf, pw⟩ := h.pieces
  obtain ⟨hl, -⟩ := declared_plain h.order h.sig
  have hne : 0 < redRows tagI m n := by
    have := h.rows
    unfold redRows
    split <;> omega
  have hcs : CallShapes (declared sigs) shapes batch m n := h.fits
  obtain ⟨S, B, Gd, hS, hL⟩ := lse_scheme big w.dim hsch
  obtain ⟨Sd, hSd, hdim, hrun⟩ := weight_jvp_batch h.order h.sig h.tag h.rows.1 h.rows.2 h.count hcs h.self pf pw h.dim
    tangents hlen rs hr hb schd
  refine ⟨S, Sd, hS, hSd, hdim, fun M hM junk dimout nrows dimoutd nrowsd => ?_⟩
  have raw := fun A => lse_raw_batch (args := A) hl pf.wf pw.wf h.dim pf.ff pw.ff pf.vars pw.vars h.tag hne hcs h.call hL hM
    junk dimout nrows
  obtain ⟨P, hP, hraw⟩ := raw args
  refine ⟨P, hP, fun o₀ res hres => ?_⟩
  obtain ⟨hex, hrun⟩ := hrun M hM junk dimoutd nrowsd fun q => (res q).val
  refine ⟨hex, fun o g hg T hT out₀ out L hout hpost b hb i hi k hk => ?_⟩
  obtain ⟨c, hc, hck⟩ := hraw o₀ res hres b hb (fun i hi j hj => (pf.smooth b hb i hi j hj).def)
    (fun i hi j hj => (pw.smooth b hb i hi j hj).def) i hi
  obtain ⟨hT0, hTk⟩ := hrun o g hg b hb i hi
  rw [← hT] at hT0 hTk
  have hder := hTk k hk
  rw [hc] at hder
  simp only [XR.val] at hder
  rw [hT0, zero_add, hck k hk]
  simp only [XR.val]
  have h0 : movedAll args (dirs tangents) 0 = args := by funext a b; simp [movedAll]
  have hp := hpos b hb i hi k hk
  rw [sum_unshift _ (fun j => f.val (readBatch (declared sigs) shapes args b (pairAt tagI i j)) 0)
      (fun j => w.val (readBatch (declared sigs) shapes args b (pairAt tagI i j)) k) c] at hp
  have hlog := (hder.const_mul (Real.exp c)).log (by rw [h0]; exact hp.ne')
  rw [h0, mul_div_mul_left _ _ (Real.exp_pos c).ne'] at hlog
  refine hlog.congr_of_eventuallyEq ?_
  have hnear : ∀ᶠ τ in 𝓝 (0 : ℝ), 0 < Real.exp c * ∑ s ∈ range (redRows tagI m n),
      Real.exp (f.val (readBatch (declared sigs) shapes (movedAll args (dirs tangents) τ) b (pairAt tagI i s)) 0 - c) *
        w.val (readBatch (declared sigs) shapes (movedAll args (dirs tangents) τ) b (pairAt tagI i s)) k := by
    refine (hder.const_mul (Real.exp c)).continuousAt.eventually_const_lt ?_
    beta_reduce
    rw [h0]
    exact hp
  filter_upwards [hnear, pf.near hl hcs (dirs tangents) hb, pw.near hl hcs (dirs tangents) hb] with τ hτ df dw
  obtain ⟨P', hP', hex'⟩ := hout τ
  obtain ⟨P'', hP'', hraw'⟩ := raw (movedAll args (dirs tangents) τ)
  rw [hP'] at hP''
  cases hP''
  obtain ⟨c', h2, h3⟩ := hraw' _ _ hex' b hb df dw i hi
  obtain ⟨arr, h4, h5⟩ := hpost τ b hb i hi
  rw [h5 k hk, post_lse h4 hk]
  simp only [Mem.shift_apply, Nat.add_zero]
  have e3 : Spec.pos (outShape batch tagI m n (1 + w.dim)) (b ++ [i, 0]) + (1 + k) =
      Spec.pos (outShape batch tagI m n (1 + w.dim)) (b ++ [i, 1 + k]) := by
    rw [pos_row hb, pos_row hb, Nat.add_zero]
  rw [e3]
  rw [← sum_unshift _ (fun j => f.val (readBatch (declared sigs) shapes (movedAll args (dirs tangents) τ) b
      (pairAt tagI i j)) 0)
      (fun j => w.val (readBatch (declared sigs) shapes (movedAll args (dirs tangents) τ) b (pairAt tagI i j)) k)] at hτ ⊢
  rw [h2, h3 k hk, log_unshift, ← sum_unshift _ (fun j => f.val (readBatch (declared sigs) shapes
      (movedAll args (dirs tangents) τ) b (pairAt tagI i j)) 0)
      (fun j => w.val (readBatch (declared sigs) shapes (movedAll args (dirs tangents) τ) b (pairAt tagI i j)) k)]
  simp only [XR.log, hτ, if_true, XR.val]

/-- **C66**, softmax-weighted sums with batch dimensions.  `res` is the memory `(M, S₀, S)` written by the forward kernel,
and `T` the array returned by the forward mode for it.  The derivative that PyTorch computes through `S / S₀` is the
derivative of the softmax-weighted sums, in every batch, when all the arguments move in the directions of their tangents;
arguments may be broadcast along some batch dimensions.

Partial: each derivative that is computed must have the batch dimensions of the output (`hb`), see `not_C66_batch`; Kahan
summation; the restrictions of C05 on the formulas. -/
theorem C66_softmax_batch_partial (h : JvpWeightBatch tf tw f w sigs tagI m n shapes batch args)
    (tangents : List (Option (Mem ℝ))) (hlen : tangents.length = sigs.length) (rs : VarId → Expr)
    (hr : ∀ c ∈ jvpCalls sigs tangents, RedDiffs (.maxSumShiftExp f (.bin .concat (.int 1) w) tagI) c.1
      (tangentVar sigs.length c.1) (resVar sigs.length (2 + w.dim) tagI) (.sum (rs c.1) tagI))
    (hb : ∀ c ∈ jvpCalls sigs tangents,
      CallBatch (rs c.1) (jvpShapes shapes c.1 (outShape batch tagI m n (2 + w.dim))) batch)
    (big : ℝ → XR) (long : XR → XR) (sch schd : SumScheme) (hsch : sch ≠ .kahan) :
    ∃ S Sd, getScheme (@lseRed XR (xrNum big) (1 + w.dim)) sch = some S ∧
      getScheme (sumRed (V := ℝ) (2 + w.dim)) schd = some Sd ∧
      (∀ c ∈ jvpCalls sigs tangents, (rs c.1).dim = 2 + w.dim) ∧
      ∀ M : CMath, M.Exact → ∀ junk dimout nrows dimoutd nrowsd,
      ∃ P, rangeCall ((Expr.bin .concat f (.bin .concat (.int 1) w)).call XR.fin XR.val M junk tagI m n
          fun p q => XR.fin (args p q)).ev (Expr.bin .concat f (.bin .concat (.int 1) w)).inputs tagI
          (fun p q => XR.fin (args p q)) shapes m n dimout nrows none = some P ∧
      ∀ o₀ res, RExec (@lseRed XR (xrNum big) (1 + w.dim)) S P o₀ res →
        (∀ c ∈ jvpCalls sigs tangents, ∃ Q, rangeCall ((rs c.1).call id id M junk tagI m n
            (gradArgs sigs.length args c.2 fun q => (res q).val)).ev (rs c.1).inputs tagI
            (gradArgs sigs.length args c.2 fun q => (res q).val)
            (jvpShapes shapes c.1 (outShape batch tagI m n (2 + w.dim))) m n dimoutd nrowsd none = some Q) ∧
        ∀ o g : VarId → Mem ℝ,
        (∀ c ∈ jvpCalls sigs tangents, ∀ Q, rangeCall ((rs c.1).call id id M junk tagI m n
            (gradArgs sigs.length args c.2 fun q => (res q).val)).ev (rs c.1).inputs tagI
            (gradArgs sigs.length args c.2 fun q => (res q).val)
            (jvpShapes shapes c.1 (outShape batch tagI m n (2 + w.dim))) m n dimoutd nrowsd none = some Q →
          RExec (sumRed (2 + w.dim)) Sd Q (o c.1) (g c.1)) →
        ∀ T, T = jvpOut ((jvpCalls sigs tangents).map fun c => g c.1) →
        ∀ (out₀ out : ℝ → Mem XR) (L : ℝ → List Nat → Nat → Nat → ℝ),
          (∀ τ, ∃ P, rangeCall ((Expr.bin .concat f (.bin .concat (.int 1) w)).call XR.fin XR.val M junk tagI m n
              fun p q => XR.fin (movedAll args (dirs tangents) τ p q)).ev
              (Expr.bin .concat f (.bin .concat (.int 1) w)).inputs tagI
              (fun p q => XR.fin (movedAll args (dirs tangents) τ p q)) shapes m n dimout nrows none = some P ∧
            RExec (@lseRed XR (xrNum big) (1 + w.dim)) S P (out₀ τ) (out τ)) →
          (∀ τ, ∀ b, Arr.Idx batch b → ∀ i < outRows tagI m n, ∃ arr,
            postprocess (xrPost long) .sumSoftMaxWeight 0 (2 + w.dim)
              ((out τ).shift (Spec.pos (outShape batch tagI m n (2 + w.dim)) (b ++ [i, 0]))) = some [arr] ∧
            ∀ k < w.dim, L τ b i k = (arr.get k).val) →
          ∀ b, Arr.Idx batch b → ∀ i < outRows tagI m n, ∀ k < w.dim,
            HasDerivAt (fun τ => L τ b i k)
              ((T (Spec.pos (outShape batch tagI m n (2 + w.dim)) (b ++ [i, 2 + k])) *
                  (res (Spec.pos (outShape batch tagI m n (2 + w.dim)) (b ++ [i, 1]))).val -
                (res (Spec.pos (outShape batch tagI m n (2 + w.dim)) (b ++ [i, 2 + k]))).val *
                  T (Spec.pos (outShape batch tagI m n (2 + w.dim)) (b ++ [i, 1]))) /
                (res (Spec.pos (outShape batch tagI m n (2 + w.dim)) (b ++ [i, 1]))).val ^ 2) 0 := by
  obtain ⟨pf, pw⟩ := h.pieces
  have p1 := pw.one
  have h2d : 2 + w.dim = 1 + (1 + w.dim) := by omega
  rw [h2d] at hr hb ⊢
  obtain ⟨hl, -⟩ := declared_plain h.order h.sig
  have hne : 0 < redRows tagI m n := by
    have := h.rows
    unfold redRows
    split <;> omega
  have hcs : CallShapes (declared sigs) shapes batch m n := h.fits
  have hcb : CallBatch (.bin .concat f (.bin .concat (.int 1) w)) shapes batch :=
    ⟨h.call.some, h.call.axes, h.call.attained, h.call.int32⟩
  obtain ⟨S, B, Gd, hS, hL⟩ := lse_scheme big (1 + w.dim) hsch
  obtain ⟨Sd, hSd, hdim, hrun⟩ := weight_jvp_batch (ω := .bin .concat (.int 1) w) h.order h.sig h.tag h.rows.1 h.rows.2
    h.count hcs h.self pf p1 h.dim tangents hlen rs hr hb schd
  refine ⟨S, Sd, hS, hSd, hdim, fun M hM junk dimout nrows dimoutd nrowsd => ?_⟩
  have hone : ∀ env, (Expr.bin .concat (.int 1) w).val env 0 = 1 := fun env => by
    simp [Expr.val, binVal, cst, Expr.dim]
  have hwk : ∀ env, ∀ k < w.dim, (Expr.bin .concat (.int 1) w).val env (1 + k) = w.val env k := fun env k hk => by
    simp only [Expr.val, binVal, Expr.dim]
    rw [cst_eq (by omega)]
    simp
  have raw : ∀ A : Nat → Nat → ℝ, ∃ P, rangeCall ((Expr.bin .concat f (.bin .concat (.int 1) w)).call XR.fin XR.val M junk
          tagI m n fun p q => XR.fin (A p q)).ev
        (Expr.bin .concat f (.bin .concat (.int 1) w)).inputs tagI (fun p q => XR.fin (A p q)) shapes m n dimout nrows
        none = some P ∧
      ∀ out out', RExec (@lseRed XR (xrNum big) (1 + w.dim)) S P out out' →
      ∀ b, Arr.Idx batch b → (∀ i < m, ∀ j < n, f.Def (readBatch (declared sigs) shapes A b (i, j))) →
      (∀ i < m, ∀ j < n, w.Def (readBatch (declared sigs) shapes A b (i, j))) → ∀ i < outRows tagI m n,
      ∃ c : ℝ, out' (Spec.pos (outShape batch tagI m n (1 + (1 + w.dim))) (b ++ [i, 0])) = XR.fin c ∧
        out' (Spec.pos (outShape batch tagI m n (1 + (1 + w.dim))) (b ++ [i, 1])) =
          XR.fin (∑ s ∈ range (redRows tagI m n),
            Real.exp (f.val (readBatch (declared sigs) shapes A b (pairAt tagI i s)) 0 - c)) ∧
        ∀ k < w.dim, out' (Spec.pos (outShape batch tagI m n (1 + (1 + w.dim))) (b ++ [i, 2 + k])) =
          XR.fin (∑ s ∈ range (redRows tagI m n),
            Real.exp (f.val (readBatch (declared sigs) shapes A b (pairAt tagI i s)) 0 - c) *
              w.val (readBatch (declared sigs) shapes A b (pairAt tagI i s)) k) := by
    intro A
    obtain ⟨P, hP, hP'⟩ := lse_raw_batch (args := A) hl pf.wf p1.wf h.dim pf.ff p1.ff pf.vars p1.vars h.tag hne hcs hcb hL
      hM junk dimout nrows
    refine ⟨P, hP, fun out out' he b hb df dw i hi => ?_⟩
    obtain ⟨c, h1, h2⟩ := hP' out out' he b hb df (fun i hi j hj => ⟨trivial, dw i hi j hj, trivial⟩) i hi
    refine ⟨c, h1, ?_, fun k hk => ?_⟩
    · have := h2 0 (by show 0 < 1 + w.dim; omega)
      simp only [hone, mul_one, Nat.add_zero] at this
      exact this
    · have := h2 (1 + k) (by show 1 + k < 1 + w.dim; omega)
      rw [← Nat.add_assoc 1 1 k] at this
      refine this.trans ?_
      congr 1
      exact sum_congr rfl fun s _ => by rw [hwk _ k hk]
  obtain ⟨P, hP, hraw⟩ := raw args
  refine ⟨P, hP, fun o₀ res hres => ?_⟩
  obtain ⟨hex, hrun⟩ := hrun M hM junk dimoutd nrowsd fun q => (res q).val
  refine ⟨hex, fun o g hg T hT out₀ out L hout hpost b hb i hi k hk => ?_⟩
  obtain ⟨c, hc, hc0, hck⟩ := hraw o₀ res hres b hb (fun i hi j hj => (pf.smooth b hb i hi j hj).def)
    (fun i hi j hj => (pw.smooth b hb i hi j hj).def) i hi
  obtain ⟨-, hTk⟩ := hrun o g hg b hb i hi
  rw [← hT] at hTk
  have hd0 := hTk 0 (by show 0 < 1 + w.dim; omega)
  have hd1 := hTk (1 + k) (by show 1 + k < 1 + w.dim; omega)
  change HasDerivAt _ (T (Spec.pos (outShape batch tagI m n (1 + (1 + w.dim))) (b ++ [i, 1]))) 0 at hd0
  rw [← Nat.add_assoc 1 1 k] at hd1
  change HasDerivAt _ (T (Spec.pos (outShape batch tagI m n (1 + (1 + w.dim))) (b ++ [i, 2 + k]))) 0 at hd1
  simp only [hone, hwk _ k hk, mul_one] at hd0 hd1
  change HasDerivAt (fun τ => ∑ s ∈ range (redRows tagI m n),
    Real.exp (f.val _ 0 - (res (Spec.pos (outShape batch tagI m n (1 + (1 + w.dim))) (b ++ [i, 0]))).val)) _ 0 at hd0
  change HasDerivAt (fun τ => ∑ s ∈ range (redRows tagI m n),
    Real.exp (f.val _ 0 - (res (Spec.pos (outShape batch tagI m n (1 + (1 + w.dim))) (b ++ [i, 0]))).val) * w.val _ k) _ 0
    at hd1
  rw [hc] at hd0 hd1
  simp only [XR.val] at hd0 hd1
  have h0 : movedAll args (dirs tangents) 0 = args := by funext a b; simp [movedAll]
  have hS0 : ∀ A : Nat → Nat → ℝ, ∀ c : ℝ, 0 < ∑ s ∈ range (redRows tagI m n),
      Real.exp (f.val (readBatch (declared sigs) shapes A b (pairAt tagI i s)) 0 - c) := fun A c =>
    Finset.sum_pos (fun _ _ => Real.exp_pos _) ⟨0, mem_range.mpr hne⟩
  have hq := hd1.div hd0 (by rw [h0]; exact (hS0 args c).ne')
  rw [h0] at hq
  rw [hc0, hck k hk]
  simp only [XR.val]
  refine hq.congr_of_eventuallyEq ?_
  filter_upwards [pf.near hl hcs (dirs tangents) hb, pw.near hl hcs (dirs tangents) hb] with τ df dw
  obtain ⟨P', hP', hex'⟩ := hout τ
  obtain ⟨P'', hP'', hraw'⟩ := raw (movedAll args (dirs tangents) τ)
  rw [hP'] at hP''
  cases hP''
  obtain ⟨c', h2, h20, h3⟩ := hraw' _ _ hex' b hb df dw i hi
  obtain ⟨arr, h4, h5⟩ := hpost τ b hb i hi
  rw [h5 k hk]
  cases h4
  simp only [Mem.shift_apply]
  change XR.val (XR.div (out τ (Spec.pos (outShape batch tagI m n (1 + (1 + w.dim))) (b ++ [i, 0]) + (2 + k)))
    (out τ (Spec.pos (outShape batch tagI m n (1 + (1 + w.dim))) (b ++ [i, 0]) + 1))) = _
  have e3 : ∀ x, Spec.pos (outShape batch tagI m n (1 + (1 + w.dim))) (b ++ [i, 0]) + x =
      Spec.pos (outShape batch tagI m n (1 + (1 + w.dim))) (b ++ [i, x]) := fun x => by
    rw [pos_row hb, pos_row hb, Nat.add_zero]
  rw [e3, e3, h20, h3 k hk]
  simp only [XR.div, (hS0 _ c').ne', if_false, XR.val, Pi.div_apply]
  have e1 := fun c => sum_unshift (redRows tagI m n)
      (fun j => f.val (readBatch (declared sigs) shapes (movedAll args (dirs tangents) τ) b (pairAt tagI i j)) 0)
      (fun j => w.val (readBatch (declared sigs) shapes (movedAll args (dirs tangents) τ) b (pairAt tagI i j)) k) c
  have e2 := fun c => sum_unshift (redRows tagI m n)
      (fun j => f.val (readBatch (declared sigs) shapes (movedAll args (dirs tangents) τ) b (pairAt tagI i j)) 0)
      (fun _ => 1) c
  simp only [mul_one] at e2
  have key := fun c => (congrArg₂ (· / ·) (e1 c) (e2 c)).trans (mul_div_mul_left _ _ (Real.exp_pos c).ne')
  rw [← key c', ← key c]

end

/-! ## The hypotheses can be met -/

theorem score_jvp_batch (m n : Nat) (hm : 0 < m) (hn : 0 < n) (hm' : m < 2 ^ 28) (hn' : n < 2 ^ 28)
    (args : Nat → Nat → ℝ) :
    JvpWeightBatch backScore backB backScoreE (.var 2 2 1) jvpSigs 0 m n (gaussShapes m n) [3, 2] args where
  pos := by simp [Term.Pos, Un.dim]
  score := ⟨20, rfl⟩
  weight := ⟨20, rfl⟩
  dim := rfl
  tag := by omega
  rows := ⟨hm, hn⟩
  order := jvpSigs_order
  sig := jvpSigs_sig
  vars := by decide
  plain := by simp [Expr.NoBroadcast]
  count := rfl
  fits := (gauss_jvp_batch m n hm hn hm' hn' args).fits
  call := ⟨by simp, ⟨(0, 3, 0), by decide, by decide⟩, fun c hc => .inr ⟨(2, 2, 1), by decide, by
      obtain rfl | rfl : c = 0 ∨ c = 1 := by simp at hc; omega
      all_goals rfl⟩,
    (score_back_batch ⟨0, 3, 0⟩ (by decide) m n hm hn hm' hn' args).int32.1⟩
  smooth b _ i _ j _ := by simp [Expr.Smooth, binSmooth, unSmooth, Expr.dim, Un.dim, Bin.dim]

/-- The derivatives of the log-sum-exps of this batch, with respect to `x` and to the weights: they have the batch
dimensions of the output, because they use the weights, of shape `(3, 2, n, 2)`, or the tangent of the weights. -/
example (m n : Nat) (hm : m < 2 ^ 28) (hn : n < 2 ^ 28) :
    (∃ r, RedDiffs (.maxSumShiftExp backScoreE (.var 2 2 1) 0) ⟨0, 3, 0⟩ (tangentVar 3 ⟨0, 3, 0⟩) (resVar 3 3 0)
      (.sum r 0) ∧ CallBatch r (jvpShapes (gaussShapes m n) ⟨0, 3, 0⟩ (outShape [3, 2] 0 m n 3)) [3, 2]) ∧
    ∃ r, RedDiffs (.maxSumShiftExp backScoreE (.var 2 2 1) 0) ⟨2, 2, 1⟩ (tangentVar 3 ⟨2, 2, 1⟩) (resVar 3 3 0)
      (.sum r 0) ∧ CallBatch r (jvpShapes (gaussShapes m n) ⟨2, 2, 1⟩ (outShape [3, 2] 0 m n 3)) [3, 2] := by
  have h0 : ∃ r, RedDiffs (.maxSumShiftExp backScoreE (.var 2 2 1) 0) ⟨0, 3, 0⟩
      (tangentVar 3 ⟨0, 3, 0⟩) (resVar 3 3 0) (.sum r 0) ∧
      (0, 3, 0) ∈ r.vars ∧ (2, 2, 1) ∈ r.vars ∧ (∀ u ∈ r.vars, u ∈ declared jvpSigs ++ [(3, 3, 0), (4, 3, 0)]) :=
    ⟨_, ⟨20, rfl⟩, by decide, by decide, by decide⟩
  have h2 : ∃ r, RedDiffs (.maxSumShiftExp backScoreE (.var 2 2 1) 0) ⟨2, 2, 1⟩
      (tangentVar 3 ⟨2, 2, 1⟩) (resVar 3 3 0) (.sum r 0) ∧
      (0, 3, 0) ∈ r.vars ∧ (3, 2, 1) ∈ r.vars ∧ (∀ u ∈ r.vars, u ∈ declared jvpSigs ++ [(3, 2, 1), (4, 3, 0)]) :=
    ⟨_, ⟨20, rfl⟩, by decide, by decide, by decide⟩
  obtain ⟨r0, h0, v0, w0, a0⟩ := h0
  obtain ⟨r2, h2, v2, w2, a2⟩ := h2
  refine ⟨⟨r0, h0, by simp, ⟨_, v0, by decide⟩, fun c hc => .inr ⟨_, w0, ?_⟩, fun u hu => ?_⟩,
    ⟨r2, h2, by simp, ⟨_, v2, by decide⟩, fun c hc => .inr ⟨_, w2, ?_⟩, fun u hu => ?_⟩⟩
  · obtain rfl | rfl : c = 0 ∨ c = 1 := by simp at hc; omega
    all_goals rfl
  · have := a0 u hu
    simp only [declared, List.map_cons, List.map_nil, List.cons_append, List.nil_append, List.mem_cons,
      List.not_mem_nil, or_false] at this
    rcases this with rfl | rfl | rfl | rfl | rfl <;> simp [jvpShapes, gaussShapes, outShape, outRows] <;> omega
  · obtain rfl | rfl : c = 0 ∨ c = 1 := by simp at hc; omega
    all_goals rfl
  · have := a2 u hu
    simp only [declared, List.map_cons, List.map_nil, List.cons_append, List.nil_append, List.mem_cons,
      List.not_mem_nil, or_false] at this
    rcases this with rfl | rfl | rfl | rfl | rfl <;> simp [jvpShapes, gaussShapes, outShape, outRows] <;> omega

/-- The softmax-weighted sums of a batch, whose points `x`, of shape `(3, 1, m, 3)`, and weights `b`, of shape
`(3, 2, n, 2)`, move: the kernels run on GPUs, and the array that PyTorch computes from the sum of their outputs is the
derivative. -/
example (m n : Nat) (hm : 0 < m) (hn : 0 < n) (hm' : m < 2 ^ 28) (hn' : n < 2 ^ 28) (args : Nat → Nat → ℝ)
    (big : ℝ → XR) (long : XR → XR) (δx δb : Nat → ℝ) :
    ∃ (S : Scheme XR) (res : Mem XR) (g : VarId → Mem ℝ) (T : Mem ℝ),
      T = jvpOut [g ⟨0, 3, 0⟩, g ⟨2, 2, 1⟩] ∧
      ∀ (out₀ out : ℝ → Mem XR) (L : ℝ → List Nat → Nat → Nat → ℝ),
        (∀ τ, ∃ P, rangeCall ((Expr.bin .concat backScoreE (.bin .concat (.int 1) (.var 2 2 1))).call XR.fin XR.val
            realMath (fun _ _ => 0) 0 m n fun p q => XR.fin (movedAll args (dirs [some δx, none, some δb]) τ p q)).ev
            (Expr.bin .concat backScoreE (.bin .concat (.int 1) (.var 2 2 1))).inputs 0
            (fun p q => XR.fin (movedAll args (dirs [some δx, none, some δb]) τ p q)) (gaussShapes m n) m n 4 (6 * m)
            none = some P ∧
          RExec (@lseRed XR (xrNum big) 3) S P (out₀ τ) (out τ)) →
        (∀ τ, ∀ b, Arr.Idx [3, 2] b → ∀ i < m, ∃ arr,
          postprocess (xrPost long) .sumSoftMaxWeight 0 4 ((out τ).shift (Spec.pos [3, 2, m, 4] (b ++ [i, 0]))) =
            some [arr] ∧ ∀ k < 2, L τ b i k = (arr.get k).val) →
        ∀ b, Arr.Idx [3, 2] b → ∀ i < m, ∀ k < 2, HasDerivAt (fun τ => L τ b i k)
          ((T (Spec.pos [3, 2, m, 4] (b ++ [i, 2 + k])) * (res (Spec.pos [3, 2, m, 4] (b ++ [i, 1]))).val -
            (res (Spec.pos [3, 2, m, 4] (b ++ [i, 2 + k]))).val * T (Spec.pos [3, 2, m, 4] (b ++ [i, 1]))) /
            (res (Spec.pos [3, 2, m, 4] (b ++ [i, 1]))).val ^ 2) 0 := by
  have h0 : ∃ r, RedDiffs (.maxSumShiftExp backScoreE (.bin .concat (.int 1) (.var 2 2 1)) 0) ⟨0, 3, 0⟩
      (tangentVar 3 ⟨0, 3, 0⟩) (resVar 3 4 0) (.sum r 0) ∧
      (0, 3, 0) ∈ r.vars ∧ (2, 2, 1) ∈ r.vars ∧ (∀ u ∈ r.vars, u ∈ declared jvpSigs ++ [(3, 3, 0), (4, 4, 0)]) :=
    ⟨_, ⟨20, rfl⟩, by decide, by decide, by decide⟩
  have h2 : ∃ r, RedDiffs (.maxSumShiftExp backScoreE (.bin .concat (.int 1) (.var 2 2 1)) 0) ⟨2, 2, 1⟩
      (tangentVar 3 ⟨2, 2, 1⟩) (resVar 3 4 0) (.sum r 0) ∧
      (0, 3, 0) ∈ r.vars ∧ (3, 2, 1) ∈ r.vars ∧ (∀ u ∈ r.vars, u ∈ declared jvpSigs ++ [(3, 2, 1), (4, 4, 0)]) :=
    ⟨_, ⟨20, rfl⟩, by decide, by decide, by decide⟩
  obtain ⟨r0, h0, v0, w0, a0⟩ := h0
  obtain ⟨r2, h2, v2, w2, a2⟩ := h2
  let rs : VarId → Expr := fun v => if v.ind = 0 then r0 else r2
  have hcalls : jvpCalls jvpSigs [some δx, none, some δb] = [(⟨0, 3, 0⟩, δx), (⟨2, 2, 1⟩, δb)] := rfl
  obtain ⟨S, Sd, hS, hSd, hd, h⟩ := C66_softmax_batch_partial (score_jvp_batch m n hm hn hm' hn' args)
    [some δx, none, some δb] rfl rs (by
      rw [hcalls]
      intro c hc
      simp only [List.mem_cons, List.not_mem_nil, or_false] at hc
      rcases hc with rfl | rfl
      · exact h0
      · exact h2) (by
      rw [hcalls]
      intro c hc
      simp only [List.mem_cons, List.not_mem_nil, or_false] at hc
      rcases hc with rfl | rfl
      · refine ⟨by simp, ⟨_, v0, by decide⟩, fun c hc => .inr ⟨_, w0, by
          obtain rfl | rfl : c = 0 ∨ c = 1 := by simp at hc; omega
          all_goals rfl⟩, fun u hu => ?_⟩
        have := a0 u hu
        simp only [declared, List.map_cons, List.map_nil, List.cons_append, List.nil_append, List.mem_cons,
          List.not_mem_nil, or_false] at this
        rcases this with rfl | rfl | rfl | rfl | rfl <;> simp [jvpShapes, gaussShapes, outShape, outRows] <;> omega
      · refine ⟨by simp, ⟨_, v2, by decide⟩, fun c hc => .inr ⟨_, w2, by
          obtain rfl | rfl : c = 0 ∨ c = 1 := by simp at hc; omega
          all_goals rfl⟩, fun u hu => ?_⟩
        have := a2 u hu
        simp only [declared, List.map_cons, List.map_nil, List.cons_append, List.nil_append, List.mem_cons,
          List.not_mem_nil, or_false] at this
        rcases this with rfl | rfl | rfl | rfl | rfl <;> simp [jvpShapes, gaussShapes, outShape, outRows] <;> omega)
    big long .direct .direct (by decide)
  obtain ⟨P, hP, h⟩ := h realMath realMath_exact (fun _ _ => 0) 4 (6 * m) 4 (6 * m)
  obtain ⟨res, hres⟩ := rexec_exists_gpu (@lseRed XR (xrNum big) 3) S P (fun _ => XR.fin 0)
  obtain ⟨hQ, h⟩ := h _ res hres
  rw [hcalls] at hQ h
  obtain ⟨Q0, hQ0⟩ := hQ _ (List.mem_cons_self ..)
  obtain ⟨Q2, hQ2⟩ := hQ _ (List.mem_cons_of_mem _ (List.mem_cons_self ..))
  obtain ⟨g0, hg0⟩ := rexec_exists_gpu (sumRed 4) Sd Q0 (fun _ => 0)
  obtain ⟨g2, hg2⟩ := rexec_exists_gpu (sumRed 4) Sd Q2 (fun _ => 0)
  refine ⟨S, res, fun v => if v.ind = 0 then g0 else g2, _, rfl, fun out₀ out L hout hpost b hb i hi k hk => ?_⟩
  exact h (fun _ _ => 0) (fun v => if v.ind = 0 then g0 else g2) (by
      intro c hc Q hQ
      simp only [List.mem_cons, List.not_mem_nil, or_false] at hc
      rcases hc with rfl | rfl
      · rw [hQ0] at hQ
        cases hQ
        exact hg0
      · rw [hQ2] at hQ
        cases hQ
        exact hg2) _ rfl out₀ out L hout hpost b hb i hi k hk

end Verif
