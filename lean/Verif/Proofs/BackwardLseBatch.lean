import Verif.Props.BackwardBatch
import Verif.Props.BackwardLse

/-!
# Execution of log-sum-exps, and of their gradients, with batch dimensions
-/

namespace Verif

open Finset Spec Filter Topology

section

variable {l : List (Int × Nat × Int)} {shapes : List (List Nat)} {batch : List Nat} {tagI axis m n nargs : Nat}
  {args : Nat → Nat → ℝ} {f w ω r : Expr} {v : VarId}

/-- The number of a row of the output. -/
theorem pos_row {b : List Nat} (hb : Arr.Idx batch b) (D i k : Nat) :
    Spec.pos (outShape batch tagI m n D) (b ++ [i, k]) = (Spec.pos batch b * outRows tagI m n + i) * D + k := by
  rw [outShape, pos_append hb.length_eq]
  simp [Spec.pos]
  ring

/-- The raw output of a log-sum-exp, in all the batches: a shift, and the shifted sums. -/
theorem lse_raw_batch (hl : PlainVars l) (wf : f.WF) (ww : w.WF) (h1 : f.dim = 1) (ff : f.FactFree) (fw : w.FactFree)
    (vf : ∀ t ∈ f.vars, t ∈ l) (vw : ∀ t ∈ w.vars, t ∈ l) (ht : tagI < 2) (hne : 0 < redRows tagI m n)
    (hs : CallShapes l shapes batch m n) (hc : CallBatch (.bin .concat f w) shapes batch)
    {g : ℝ → XR} {S : Scheme XR} {B Gd}
    (hL : LawfulScheme False (@lseRed XR (xrNum g) w.dim) S (LseAcc w.dim) B Gd)
    {M : CMath} (hM : M.Exact) (junk : Expr → Nat → ℝ) (dimout rows : Nat) :
    ∃ P, rangeCall ((Expr.bin .concat f w).call XR.fin XR.val M junk tagI m n fun p q => XR.fin (args p q)).ev
        (Expr.bin .concat f w).inputs tagI (fun p q => XR.fin (args p q)) shapes m n dimout rows none = some P ∧
      ∀ out out', RExec (@lseRed XR (xrNum g) w.dim) S P out out' →
      ∀ b, Arr.Idx batch b → (∀ i < m, ∀ j < n, f.Def (readBatch l shapes args b (i, j))) →
      (∀ i < m, ∀ j < n, w.Def (readBatch l shapes args b (i, j))) → ∀ i < outRows tagI m n,
      ∃ c : ℝ, out' (Spec.pos (outShape batch tagI m n (1 + w.dim)) (b ++ [i, 0])) = XR.fin c ∧
        ∀ k < w.dim, out' (Spec.pos (outShape batch tagI m n (1 + w.dim)) (b ++ [i, 1 + k])) =
          XR.fin (∑ s ∈ range (redRows tagI m n), Real.exp (f.val (readBatch l shapes args b (pairAt tagI i s)) 0 - c) *
            w.val (readBatch l shapes args b (pairAt tagI i s)) k) := by
  have hd : (Expr.bin .concat f w).dim = 1 + w.dim := by simp only [Expr.dim, Bin.dim, h1]
  have hw0 := ww.pos
  have vcc : ∀ t ∈ (Expr.bin .concat f w).vars, t ∈ l := fun t ht => (List.mem_append.mp ht).elim (vf t) (vw t)
  have hlr : PlainVars (Expr.bin .concat f w).vars := hl.mono vcc
  have hg : GoodVars (Expr.bin .concat f w).vars := ⟨fun v h _ => hlr.pos v h,
    fun v h => by have := hlr.cat v h; omega, fun u hu v hv' _ _ e => hlr.unique u hu v hv' e⟩
  have hwf : WfProblem ((Expr.bin .concat f w).call XR.fin XR.val M junk tagI m n fun p q => XR.fin (args p q)) :=
    call_wf hg ht
  have hs' : CallShapes (Expr.bin .concat f w).vars shapes batch m n := fun u hu => hs u (vcc u hu)
  obtain ⟨c1, c2, c3, c4⟩ := call_shapes hlr hs' hc
  obtain ⟨P, hP, hB⟩ := rangeCall_batch
    (ev := ((Expr.bin .concat f w).call XR.fin XR.val M junk tagI m n fun p q => XR.fin (args p q)).ev)
    (vars := (Expr.bin .concat f w).inputs) (tagI := tagI) (args := fun p q => XR.fin (args p q)) hwf.vars hwf.tag c3 c1 c2
    dimout rows
  refine ⟨P, hP, fun out out' he b hb df dw i hi => ?_⟩
  have hbl := hb.length_eq
  obtain ⟨acc, ha, ho⟩ := batch_correct hL (lseRed_finLocal g w.dim) hB hwf.vars hwf.tag hwf.ev c2 c3 c4 (.inr hne) he
    (idx := fun c => b.getD c 0) (fun c hc => by
      have := (List.forall₂_iff_get.mp hb).2 c hc (by omega)
      have hc' : c < b.length := by omega
      simpa [List.getD_eq_getElem?_getD, hc, hc'] using this) hi
  rw [pos_getD hbl] at ho
  have hF : ∀ j < redRows tagI m n, ∀ k < 1 + w.dim, ((Expr.bin .concat f w).call XR.fin XR.val M junk tagI m n
      fun p q => XR.fin (args p q)).ev (Spec.env (Expr.bin .concat f w).inputs tagI
      (batchArgs (Expr.bin .concat f w).inputs (fun a => shapes.getD a []) batch.length m n (fun c => b.getD c 0)
        fun p q => XR.fin (args p q)) i j) k =
      XR.fin ((Expr.bin .concat f w).val (readBatch l shapes args b (pairAt tagI i j)) k) := fun j hj k hk =>
    call_env_batch (enc := XR.fin) (dec := XR.val) (fun _ => rfl) (r := .bin .concat f w) hl
      ⟨wf, ww, rfl, by show 0 < (Expr.bin .concat f w).dim; omega⟩ ⟨ff, fw⟩ vcc ht hs' hb
      (fun i hi j hj => ⟨df i hi j hj, dw i hi j hj, trivial⟩) hM junk hi hj (by rw [hd]; exact hk)
  have hok := ha (by
    intro x hx
    obtain ⟨j, hj, rfl⟩ := List.mem_map.mp hx
    intro k hk
    dsimp only
    rw [hF j (List.mem_range.mp hj) k hk]
    rfl)
  have hout : ∀ k < 1 + w.dim, out' (Spec.pos (outShape batch tagI m n (1 + w.dim)) (b ++ [i, k])) = acc k := by
    intro k hk
    rw [pos_row hb]
    have := ho k hk out
    simp only [lseRed, vectCopy_apply, hk, if_true] at this
    exact this
  rcases hok with ⟨he0, _⟩ | ⟨_, c, h0, -, -, hk⟩
  · simp only [items, List.map_eq_nil_iff, List.range_eq_nil] at he0
    omega
  · refine ⟨c, by rw [hout 0 (by omega), h0], fun k hkd => ?_⟩
    rw [hout (1 + k) (by omega), hk k hkd, ← list_sum_range]
    simp only [items, List.map_map]
    congr 2
    refine List.map_congr_left fun j hj => ?_
    have hj' := List.mem_range.mp hj
    simp only [Function.comp]
    rw [hF j hj' 0 (by omega), hF j hj' (1 + k) (by omega)]
    simp only [Expr.val, binVal, h1, XR.val]
    rw [cst_eq (by omega), cst_eq (by omega), if_pos (by omega), if_neg (by omega), Nat.add_sub_cancel_left]

/-- The gradient of an argument that may be broadcast, from those of the batches. -/
theorem collapse_grad {xb : List Nat} (hb : Broadcasts xb batch) {s : List Nat}
    (hs : s = xb ++ tailShape v.cat (if v.cat = 1 then n else m) v.dim) (R : List Nat → Nat → Vec) {g : Spec.Arr ℝ}
    (hg : g.shape = batch ++ [if v.cat = 1 then n else m, v.dim])
    (hgv : ∀ b, Arr.Idx batch b → ∀ q < (if v.cat = 1 then n else m), ∀ k < v.dim, g.get (b ++ [q, k]) = R b q k) :
    ∃ a, collapse v.cat s g = some a ∧ a.shape = s ∧ ∀ (δ : Nat → ℝ) (φ : ℝ → List Nat → ℝ),
      (∀ b, Arr.Idx batch b → HasDerivAt (fun τ => φ τ b)
        (dotGrad v m n (R b) (Spec.rowsOf ⟨s, fun idx => δ (Spec.pos s idx)⟩ v b)) 0) →
      HasDerivAt (fun τ => sumIdx batch (φ τ)) (sumIdx a.shape fun idx => a.get idx * δ (Spec.pos a.shape idx)) 0 := by
  obtain ⟨a, ha, has, had⟩ := C40_adjoint (c := v.cat) hb hg
  rw [← hs] at ha has had
  refine ⟨a, ha, has, fun δ φ hφ => ?_⟩
  have e := had ⟨s, fun idx => δ (Spec.pos s idx)⟩ rfl
  simp only at e
  rw [has] at e ⊢
  rw [e]
  refine sumIdx_deriv fun b hib => (hφ b hib).congr_deriv ?_
  unfold dotGrad
  refine sum_congr rfl fun q hq => ?_
  rw [← Fin.sum_univ_eq_sum_range (fun k => g.get (b ++ [q, k]) *
    (⟨s, fun idx => δ (Spec.pos s idx)⟩ : Spec.Arr ℝ).at' (b ++ if v.cat = 2 then [k] else [q, k]))]
  refine sum_congr rfl fun k _ => ?_
  rw [hgv b hib q (mem_range.mp hq) k k.2]
  by_cases h2 : v.cat = 2 <;> simp [Spec.rowsOf, h2]

/-- A formula of variables `l`, differentiable at the arrays in all the batches. -/
structure PartB (l : List (Int × Nat × Int)) (v : VarId) (m n : Nat) (shapes : List (List Nat)) (batch : List Nat)
    (args : Nat → Nat → ℝ) (f : Expr) : Prop where
  wf : f.WF
  ff : f.FactFree
  vars : ∀ t ∈ f.vars, t ∈ l
  plain : f.NoBroadcast
  uses : f.Uses v
  smooth : ∀ b, Arr.Idx batch b → ∀ i < m, ∀ j < n, f.Smooth (readBatch l shapes args b (i, j))

/-- The shapes of the arrays of the gradient call. -/
theorem weight_shapes {l : List (Int × Nat × Int)} (hl : PlainVars l) (hn : ∀ u ∈ l, u.1 < shapes.length)
    (hs : CallShapes l shapes batch m n) {xb : List Nat} (hxb : Broadcasts xb batch) (ht : tagI = 0 ∨ tagI = 1) (D : Nat) :
    CallShapes (weightVars l shapes.length D tagI) (gradShapes shapes (outShape batch tagI m n (1 + D))) batch m n ∧
    (∀ p < shapes.length, (gradShapes shapes (outShape batch tagI m n (1 + D))).getD p [] = shapes.getD p []) ∧
    ∀ p, p = shapes.length ∨ p = shapes.length + 1 →
      (gradShapes shapes (outShape batch tagI m n (1 + D))).getD p [] = outShape batch tagI m n (1 + D) := by
  have hold : ∀ p < shapes.length, (gradShapes shapes (outShape batch tagI m n (1 + D))).getD p [] = shapes.getD p [] :=
    fun p hp => by
      simp [gradShapes, List.getD_eq_getElem?_getD, List.getElem?_append_left hp]
  have hnew : ∀ p, p = shapes.length ∨ p = shapes.length + 1 →
      (gradShapes shapes (outShape batch tagI m n (1 + D))).getD p [] = outShape batch tagI m n (1 + D) := fun p hp => by
    rcases hp with rfl | rfl <;> simp [gradShapes, List.getD_eq_getElem?_getD]
  refine ⟨fun u hu => ?_, hold, hnew⟩
  have hos : outShape batch tagI m n (1 + D) =
      batch ++ tailShape (tagI : Int) (if (tagI : Int) = 1 then n else m) (1 + D) := by
    rcases ht with h' | h' <;> simp [outShape, h', outRows, tailShape]
  rcases List.mem_append.mp hu with h1 | h1
  · have := hl.pos u h1
    have := hn u h1
    rw [hold _ (by omega)]
    exact hs u h1
  · have : u.1.toNat = shapes.length ∨ u.1.toNat = shapes.length + 1 := by
      simp only [List.mem_cons, List.not_mem_nil, or_false] at h1
      rcases h1 with rfl | rfl
      · exact .inl (Int.toNat_natCast _)
      · exact .inr (Int.toNat_natCast _)
    rw [hnew _ this]
    refine ⟨batch, self_broadcast hxb, ?_⟩
    simp only [List.mem_cons, List.not_mem_nil, or_false] at h1
    rcases h1 with rfl | rfl <;> exact hos

/-- The gradient kernel of a shifted sum, in all the batches. -/
theorem weight_run_batch (hl : PlainVars l) (hn : ∀ u ∈ l, u.1 < shapes.length)
    (hv : (v.ind, v.dim, v.cat) ∈ l) (hvd : 0 < v.dim) (ht : tagI = 0 ∨ tagI = 1) (hm : 0 < m) (hn0 : 0 < n)
    (hs : CallShapes l shapes batch m n) (hbn : batch ≠ [])
    (h32 : ∀ u ∈ f.vars ++ ω.vars, (shapes.getD u.1.toNat []).dropLast.prod < 2 ^ 31)
    (h32' : (batch ++ [outRows tagI m n]).prod < 2 ^ 31)
    (pf : PartB l v m n shapes batch args f) (pw : PartB l v m n shapes batch args ω) (h1 : f.dim = 1)
    (hr : RedGrads (.maxSumShiftExp f ω tagI) v (etaVar shapes.length (1 + ω.dim) tagI)
      (resVar shapes.length (1 + ω.dim) tagI) (.sum r axis))
    (hηr : ((shapes.length : Int), 1 + ω.dim, (tagI : Int)) ∈ r.vars) (E res : Nat → ℝ) (sch : SumScheme) :
    r.dim = v.dim ∧ ∃ S, getScheme (sumRed (V := ℝ) r.dim) sch = some S ∧ ∀ (M : CMath), M.Exact → ∀ junk dimout nrows,
      ∃ P, rangeCall (r.call id id M junk axis m n (gradArgs shapes.length args E res)).ev r.inputs axis
          (gradArgs shapes.length args E res) (gradShapes shapes (outShape batch tagI m n (1 + ω.dim))) m n dimout nrows
          none = some P ∧
        ∀ o g, RExec (sumRed r.dim) S P o g →
        ∃ a, (∀ sigs gradOf, sigs[v.ind.toNat]? = some v →
            gradOf v = asArray (outShape batch axis m n v.dim) g →
            (backward sigs shapes gradOf)[v.ind.toNat]? = some (some a)) ∧
          shapes[v.ind.toNat]? = some a.shape ∧ ∀ (δ : Nat → ℝ) (φ : ℝ → List Nat → ℝ),
          (∀ b, Arr.Idx batch b → HasDerivAt (fun τ => φ τ b)
            (dotGrad v m n (sumRow r axis m n (readBatch (weightVars l shapes.length ω.dim tagI)
                (gradShapes shapes (outShape batch tagI m n (1 + ω.dim))) (gradArgs shapes.length args E res) b))
              (Spec.rowsOf ⟨shapes.getD v.ind.toNat [], fun idx => δ (Spec.pos (shapes.getD v.ind.toNat []) idx)⟩ v b))
            0) →
          HasDerivAt (fun τ => sumIdx batch (φ τ))
            (sumIdx a.shape fun idx => a.get idx * δ (Spec.pos a.shape idx)) 0 := by
  have hcat := hl.cat _ hv
  have hw0 := pw.wf.pos
  simp only at hcat
  have hvn := hn _ hv
  have hv0 := hl.pos _ hv
  simp only at hvn hv0
  have ht2 : tagI < 2 := by omega
  obtain ⟨xb, hxb, hxs⟩ := hs _ hv
  simp only at hxs
  obtain ⟨N, hr⟩ := hr
  simp only [RedExpr.diffT] at hr
  obtain ⟨p, e1, hr⟩ := bind_ok' hr
  obtain ⟨gs, e2, hr⟩ := bind_ok' hr
  unfold sumDiffT at hr
  obtain ⟨r', e3, hr⟩ := bind_ok' hr
  cases hr
  obtain ⟨hcs, hold, hnew⟩ := weight_shapes hl hn hs hxb ht ω.dim
  set nargs := shapes.length with hnargs
  set l' := weightVars l nargs ω.dim tagI with hl'
  set sg := gradShapes shapes (outShape batch tagI m n (1 + ω.dim)) with hsg
  have hpl : PlainVars l' := hl.weight hn ω.dim ht2
  have hsub : ∀ u ∈ l, u ∈ l' := fun u hu => List.mem_append_left _ hu
  have hposl : ∀ u ∈ l, u.1.toNat < nargs := fun u hu => by
    have := hl.pos u hu
    have := hn u hu
    omega
  set argsG := gradArgs nargs args E res with hargsG
  have hagree : ∀ b p, ∀ u ∈ l, readBatch l' sg argsG b p u.1 = readBatch l shapes args b p u.1 := fun b p u hu =>
    readBatch_congr hl hpl hu (hsub u hu) (hold _ (hposl u hu)) (by simp [hargsG, gradArgs, hposl u hu]) p
  have hηl : ((nargs : Int), 1 + ω.dim, (tagI : Int)) ∈ l' := List.mem_append_right _ (by simp)
  have hul : (((nargs + 1 : Nat) : Int), 1 + ω.dim, (tagI : Int)) ∈ l' := List.mem_append_right _ (by simp)
  set base := fun b => readBatch l' sg argsG b with hbase
  have smf : ∀ b, Arr.Idx batch b → ∀ i < m, ∀ j < n, f.Smooth (base b (i, j)) := fun b hb i hi j hj =>
    smooth_agree pf.ff (fun u hu => hagree _ _ u (pf.vars u hu)) (pf.smooth b hb i hi j hj)
  have smw : ∀ b, Arr.Idx batch b → ∀ i < m, ∀ j < n, ω.Smooth (base b (i, j)) := fun b hb i hi j hj =>
    smooth_agree pw.ff (fun u hu => hagree _ _ u (pw.vars u hu)) (pw.smooth b hb i hi j hj)
  have hdom : ∀ b, Arr.Idx batch b → ∀ i < m, ∀ j < n, p.Dom (.smooth v) (base b (i, j)) := fun b hb i hi j hj =>
    (shiftExp_at pf.wf pw.wf h1 (Expr.dom_smooth.mpr ⟨smf b hb i hi j hj, pf.plain, pf.uses, pf.ff⟩)
      (Expr.dom_smooth.mpr ⟨smw b hb i hi j hj, pw.plain, pw.uses, pw.ff⟩)
      (fun e => absurd e (by push_cast; omega)) trivial e1).dom
  have hp : At (structDom (fun i d c => (i, d, c) ∈ l') fun _ => True) (fun _ _ => 0) p ω.dim _ :=
    shiftExp_at pf.wf pw.wf h1 (struct_dom pf.ff fun t ht => hsub t (pf.vars t ht))
      (struct_dom pw.ff fun t ht => hsub t (pw.vars t ht)) hul trivial e1
  have hz := idx_zero hxb
  obtain ⟨-, np, up, fp⟩ := Expr.dom_smooth.mp (hdom _ hz 0 hm 0 hn0)
  obtain ⟨-, vp⟩ := dom_struct hp.dom
  have hpv : ∀ u ∈ p.vars, u ∈ f.vars ++ ω.vars ∨ u = (((nargs + 1 : Nat) : Int), 1 + ω.dim, (tagI : Int)) := fun u hu => by
    have hp2 : At (structDom (fun i d c => (i, d, c) ∈ (f.vars ++ ω.vars) ++
        [(((nargs + 1 : Nat) : Int), 1 + ω.dim, (tagI : Int))]) fun _ => True) (fun _ _ => 0) p ω.dim _ :=
      shiftExp_at pf.wf pw.wf h1 (struct_dom pf.ff fun t ht => List.mem_append_left _ (List.mem_append_left _ ht))
        (struct_dom pw.ff fun t ht => List.mem_append_left _ (List.mem_append_right _ ht))
        (List.mem_append_right _ (List.mem_singleton_self _)) trivial e1
    obtain ⟨-, vp2⟩ := dom_struct hp2.dom
    rcases List.mem_append.mp (vp2 u hu) with h | h
    · exact .inl h
    · exact .inr (List.mem_singleton.mp h)
  rw [h1] at e2
  obtain ⟨rfl, hok⟩ := mkUn_ok e2
  have hgw : (Expr.un (.extract 1 ω.dim) (etaVar nargs (1 + ω.dim) tagI)).WF :=
    ⟨by show 0 < 1 + ω.dim; omega, hok, hw0, fun n h => by cases h⟩
  have hgf : (Expr.un (.extract 1 ω.dim) (etaVar nargs (1 + ω.dim) tagI)).FactFree := trivial
  have hvl := hsub _ hv
  have hGv : argsG v.ind.toNat = args v.ind.toNat := by
    have : v.ind.toNat < nargs := by omega
    simp [hargsG, gradArgs, this]
  set X : Spec.Arr ℝ := ⟨sg.getD v.ind.toNat [], fun idx => args v.ind.toNat (Spec.pos (sg.getD v.ind.toNat []) idx)⟩
    with hX
  have hself : ∀ b p, base b p = point (base b) v (Spec.rowsOf X v b) p := fun b p => by
    have := readBatch_point (shapes := sg) (b := b) hpl hvl (args := argsG) (args' := argsG) (fun _ _ => rfl) p
    rw [hGv] at this
    exact this
  have hax : v.axis = if v.cat = 1 then 1 else 0 := by rcases hcat with h | h | h <;> simp [VarId.axis, h]
  have hax2 : v.axis < 2 := by rw [hax]; split <;> omega
  have hrows : outRows v.axis m n = if v.cat = 1 then n else m := by
    rw [hax]
    rcases hcat with h | h | h <;> simp [h, outRows]
  have hsm : ∀ b, Arr.Idx batch b → ∀ i < m, ∀ j < n, p.Smooth (point (base b) v (Spec.rowsOf X v b) (i, j)) :=
    fun b hb i hi j hj => by rw [← hself]; exact (Expr.dom_smooth.mp (hdom b hb i hi j hj)).1
  have hgrad := fun b (hb : Arr.Idx batch b) i (hi : i < m) j (hj : j < n) => C04_grad_partial hvd hp.wf fp np up
    hgw hp.dim.symm ⟨N, e3⟩ (base b (i, j)) (Spec.rowsOf X v b (rowAt v.cat (i, j))) (hsm b hb i hi j hj)
    ⟨trivial, trivial⟩
  have hrd : r.dim = v.dim := by
    obtain ⟨L, -, h1⟩ := hgrad _ hz 0 hm 0 hn0
    exact h1.1
  have hrw : r.WF := grads_wf hvd hp.wf fp np up hgw hp.dim.symm ⟨N, e3⟩
    (base _ (0, 0)) (Spec.rowsOf X v _ (rowAt v.cat (0, 0))) (hsm _ hz 0 hm 0 hn0) ⟨trivial, trivial⟩
  have hrf : r.FactFree := diffT_factFree hp.wf fp hgf e3
  have hrv : ∀ u ∈ r.vars, u ∈ l' := fun u hu => by
    rcases diffT_vars hp.wf fp hgf e3 hu with h1 | h1
    · exact vp u h1
    · rw [List.mem_singleton.mp (show u ∈ [_] from h1)]
      exact hηl
  have hbig : ∀ q, q = nargs ∨ q = nargs + 1 → (sg.getD q []).dropLast.prod < 2 ^ 31 := fun q hq => by
    rw [hnew q hq, show outShape batch tagI m n (1 + ω.dim) = (batch ++ [outRows tagI m n]) ++ [1 + ω.dim] by simp,
      List.dropLast_concat]
    exact h32'
  have hcb : CallBatch r sg batch := by
    refine ⟨hbn, ⟨_, hηr, by simp only; omega⟩, fun c hc => .inr ⟨_, hηr, ?_⟩, fun u hu => ?_⟩
    · rw [Int.toNat_natCast, hnew _ (.inl rfl)]
      simp [outShape, List.getD_eq_getElem?_getD, List.getElem?_append_left hc]
    · rcases diffT_vars hp.wf fp hgf e3 hu with h1 | h1
      · rcases hpv u h1 with h2 | rfl
        · rw [hold _ (hposl u ((List.mem_append.mp h2).elim (pf.vars u) (pw.vars u)))]
          exact h32 u h2
        · exact hbig _ (.inr (Int.toNat_natCast _))
      · rw [List.mem_singleton.mp (show u ∈ [_] from h1)]
        exact hbig _ (.inl (Int.toNat_natCast _))
  obtain ⟨Sb, hSb, hback⟩ := sum_exec_batch (args := argsG) hpl hrw hrf hrv hax2 (fun u hu => hcs u (hrv u hu)) hcb sch
  refine ⟨hrd, Sb, hSb, fun M hM junk dimout nrows => ?_⟩
  obtain ⟨Pb, hPb, hrun⟩ := hback M hM junk dimout nrows
  refine ⟨Pb, hPb, fun o g he => ?_⟩
  have hval := hrun o g he fun b hb i hi j hj => by
    obtain ⟨L, -, h1⟩ := hgrad b hb i hi j hj
    have := h1.2.1
    show r.Def (base b (i, j))
    rw [hself]
    exact this
  obtain ⟨a, ha, hash, hder⟩ := collapse_grad (m := m) (n := n) hxb hxs
    (fun b => sumRow r v.axis m n (base b)) (g := asArray (outShape batch v.axis m n v.dim) g) (by rw [← hrows]; rfl)
    fun b hb q hq k hk => by
      have := hval b hb q (hrows ▸ hq) k (hrd ▸ hk)
      rw [hrd, pos_eq] at this
      exact this
  have hq : v.ind.toNat < shapes.length := by omega
  have hsv : shapes[v.ind.toNat]? = some (shapes.getD v.ind.toNat []) := by
    rw [List.getD_eq_getElem?_getD, List.getElem?_eq_getElem hq]
    rfl
  refine ⟨a, fun sigs gradOf h1 h2 => ?_, by rw [hash, hsv], hder⟩
  rw [backward, List.getElem?_zipWith, h1, hsv]
  simp only [h2, ha]

end

end Verif
