import Verif.Props.FinalChunks
import Verif.Props.ChunksRanges
import Verif.Proofs.FinalChunksRanges

/-!
# C22: sums of scalar times vector on the GPU, with ranges or batch dimensions
-/

namespace Verif

open Finset Spec

theorem ravel_zero (n : Nat) (dims : Nat → Nat) : ravel n dims (fun _ => 0) = 0 := by
  induction n with
  | zero => rfl
  | succ n ih => simp only [ravel, ih, Nat.zero_mul]

section

variable {t : Term} {e : Expr} {tagI m n : Nat} {args : Nat → Nat → ℝ}

/-- What the kernel needs to know about the formula. -/
theorem final_form (hform : e.FinalForm tagI) (ht : tagI < 2) (hbig : 1 < e.dim) (hw : e.WF) (hf : e.FactFree) :
    ∃ F p, finalParts e = some (F, toInfo (p, e.dim, 1 - (tagI : Int))) ∧
      (∀ v, v ∈ e.vars ↔ v ∈ F.vars ∨ v = (p, e.dim, 1 - (tagI : Int))) ∧ F.WF ∧ F.FactFree ∧ F.dim = 1 ∧
      (∀ env, e.Def env → F.Def env) ∧ ∀ env, ∀ k < e.dim, e.val env k = env p k * F.val env 0 := by
  obtain ⟨F, p, d, he, hF⟩ := hform
  have hdim : e.dim = d := by
    rcases he with rfl | rfl <;> simp only [Expr.dim, Bin.dim, hF] at hbig ⊢ <;> omega
  have hd1 : d ≠ 1 := by omega
  have hwF : F.WF := by
    rcases he with rfl | rfl
    · exact hw.1
    · exact hw.2.1
  refine ⟨F, p, ?_, ?_, hwF, ?_, hF, ?_, ?_⟩
  · rw [hdim]
    rcases he with rfl | rfl
    · simp [finalParts, hF]
    · simp [finalParts, hF, Expr.dim, hd1]
  · rw [hdim]
    intro v
    rcases he with rfl | rfl <;> simp [Expr.vars, or_comm]
  · rcases he with rfl | rfl
    · exact hf.1
    · exact hf.2
  · intro env h
    rcases he with rfl | rfl
    · exact h.1
    · exact h.2.1
  · intro env k hk
    have hc := Expr.val_const hwF hF env 0 k
    rcases he with rfl | rfl
    · simp only [Expr.val, binVal, cst, hd1, if_false]
      rw [hc, mul_comm]
    · simp only [Expr.val, binVal, cst, hd1, if_false]
      rw [hc]

theorem finalMode_big {flag : Bool} {d : Nat} (h : finalMode flag d = true) : 1 < d := by
  simp only [finalMode, Bool.and_eq_true, decide_eq_true_eq] at h
  exact lt_trans (by decide) h.2

/-- **C22**, with ranges.  When the kernel for scalar times vector is chosen, each of its executions gives an array
that the simple kernel with ranges can give.  `b` may come before or after the other variables.

`n` and `m` bound the intervals. -/
theorem C22_ranges_exec {env : Nat → Nat → Env} (h : Setting t e tagI m n args env) (hf : e.FactFree) {flag : Bool}
    (hmode : finalMode flag e.dim = true) (hform : e.FinalForm tagI) {M : CMath} (hM : M.Exact)
    (junk : Expr → Nat → ℝ) {argshapes : List (List Nat)} {dimout rows : Nat} {u : RangesArr} {P : RProblem ℝ}
    (hcall : rangeCall (e.call id id M junk tagI m n args).ev e.inputs tagI args argshapes m n dimout rows (some u) =
      some P)
    (hb : NoBatch e.inputs argshapes)
    (hx : ∀ r < (u.axis tagI).nranges, (u.axis tagI).rangesX (2 * r + 1) ≤ outRows tagI m n)
    (hy : ∀ r < (u.axis tagI).nranges, ∀ s, (u.axis tagI).startSlice r ≤ s → s < (u.axis tagI).endSlice r →
      (u.axis tagI).rangesY (2 * s + 1) ≤ redRows tagI m n)
    {out out' : Mem ℝ} (he : ExecFinalR M junk e P out out') :
    RExec (sumRed e.dim) (directScheme (sumRed e.dim)) P out out' := by
  obtain ⟨P', hP', p1, p2, p3, p4, p5, p6, -⟩ := rangeCall_user (args := args) (tagI := tagI)
    (ev := (e.call id id M junk tagI m n args).ev) hb m n dimout rows u
  obtain rfl : P = P' := Option.some.inj (hcall.symm.trans hP')
  obtain ⟨q, e₀, h1, h2⟩ := h.runs
  obtain ⟨hrep, hgood, -, hv⟩ := compiled_good h.pos h.inputs h1 h2
  rw [hf.vars_free] at hv
  have hwf : WfProblem (e.call id id M junk tagI m n args) := call_wf hgood h.tag
  have ht := h.tag
  obtain ⟨F, p, hparts, hmem, hwF, hfF, hF, hdef, hval⟩ := final_form hform ht (finalMode_big hmode) hrep.wf hf
  have hbm : toInfo (p, e.dim, 1 - (tagI : Int)) ∈ e.inputs := by
    have := (hmem (p, e.dim, 1 - (tagI : Int))).mpr (.inr rfl)
    exact Expr.mem_inputs.mpr ⟨_, this, h.inputs.cat _ (hv _ this), rfl⟩
  have hcat : (toInfo (p, e.dim, 1 - (tagI : Int))).cat = 1 - tagI := by
    show (1 - (tagI : Int)).toNat = 1 - tagI
    omega
  refine finalR_exec (b := toInfo (p, e.dim, 1 - (tagI : Int))) (m := m) (n := n) (args := args) (env := fun _ => env)
    (ny := fun _ => redRows tagI m n) hparts hM hrep.wf hf hwF hfF
    ⟨fun v hm => h.inputs.pos v (hv v hm), fun v hm => h.inputs.cat v (hv v hm),
      fun u hu v hm => h.inputs.unique u (hv u hu) v (hv v hm)⟩ (fun v hv => (hmem v).mpr (.inl hv)) hF
    ⟨by rw [p2]; exact hwf.vars, by rw [p3]; exact h.tag, by rw [p1, p2]; exact hwf.ev, fun hn => absurd p5 hn⟩
    ⟨fun hn => absurd p5 hn, fun hn => absurd p5 hn, fun hn => absurd p5 hn⟩ (by rw [p1, p3]) p2
    (by rw [p2]; exact hbm) (by rw [p3]; exact hcat) (show 0 < e.dim from hrep.wf.pos) rfl (.inl p5) ?_ ?_ he
  · intro r hr s hs1 hs2
    rw [p6] at hr hs1 hs2 ⊢
    rw [if_pos p5]
    exact hy r hr s hs1 hs2
  · intro r hr i _ hi j hj
    rw [p6] at hr hi
    have hi' : i < outRows tagI m n := lt_of_lt_of_le hi (hx r hr)
    have hd := (hrep.sem _ (h.defined i hi' j hj)).1
    have hr' : EnvReads id e P.tagI (P.view r) (P.locI r i) j (env i j) := fun v hm k hk => by
      unfold RProblem.view RProblem.locI
      rw [if_pos p5, if_pos p5, p4, p3]
      exact h.reads i hi' j hj v (hv v hm) k hk
    refine ⟨hd, hdef _ hd, hr', fun k hk => ?_⟩
    have hrow : row P.tagI (P.locI r i) j (1 - (tagI : Int)).toNat = j := by
      rw [p3]
      unfold row
      rw [if_neg (show ¬(1 - (tagI : Int)).toNat = 2 by omega),
        if_neg (show ¬(1 - (tagI : Int)).toNat = tagI by omega)]
    have := hr' _ ((hmem (p, e.dim, 1 - (tagI : Int))).mpr (.inr rfl)) k hk
    simp only [hrow, id] at this
    rw [hval _ k hk, this]
    rfl

/-- **C22**, with batch dimensions.  When the kernel for scalar times vector is chosen, each of its executions gives
an array that the simple kernel can give.

Partial: the parameters have no batch dimensions; the property fails otherwise, see `not_C22_batch_params`. -/
theorem C22_batch_exec_partial {nb : Nat} {full : Nat → Nat} {shape : List (List Nat)}
    {env : (Nat → Nat) → Nat → Nat → Env} (h : BatchSetting t e tagI nb full shape m n args env) (hf : e.FactFree)
    {flag : Bool} (hmode : finalMode flag e.dim = true) (hform : e.FinalForm tagI)
    (hpar : ∀ v ∈ e.inputs, v.cat = 2 → ∀ b < nb, (shape.getD v.ind []).getD b 0 = 1)
    {M : CMath} (hM : M.Exact) (junk : Expr → Nat → ℝ) {dimout rows : Nat} {P : RProblem ℝ}
    (hcall : rangeCall (e.call id id M junk tagI m n args).ev e.inputs tagI args shape m n dimout rows none = some P)
    {out out' : Mem ℝ} (he : ExecFinalR M junk e P out out') :
    RExec (sumRed e.dim) (directScheme (sumRed e.dim)) P out out' := by
  obtain ⟨q, e₀, h1, h2⟩ := h.runs
  obtain ⟨hrep, hgood, -, hv⟩ := compiled_good h.pos h.inputs h1 h2
  rw [hf.vars_free] at hv
  have hwf : WfProblem (e.call id id M junk tagI m n args) := call_wf hgood h.tag
  obtain ⟨P', hP', hB⟩ := rangeCall_batch (ev := (e.call id id M junk tagI m n args).ev)
    (args := args) (inputs_wf hgood) h.tag h.shapes h.axes h.batch dimout rows
  obtain rfl : P = P' := Option.some.inj (hcall.symm.trans hP')
  have hnb : P.sizes.nbatchdims ≠ 0 := by rw [hB.nbd]; exact Nat.ne_of_gt h.batch
  have hw := inputs_wf hgood
  have hPw := hB.wf hw h.tag hwf.ev h.shapes h.int32
  have ht := h.tag
  have hidx : ∀ r, ∃ idx : Nat → Nat, r < batchCount nb full → (∀ b < nb, idx b < full b) ∧ ravel nb full idx = r :=
    fun r => by
      by_cases hr : r < batchCount nb full
      · obtain ⟨idx, h1⟩ := exists_unravel nb full r hr
        exact ⟨idx, fun _ => h1⟩
      · exact ⟨fun _ => 0, fun h => absurd h hr⟩
  choose idx hidx using hidx
  obtain ⟨F, p, hparts, hmem, hwF, hfF, hF, hdef, hval⟩ := final_form hform ht (finalMode_big hmode) hrep.wf hf
  have hbm : toInfo (p, e.dim, 1 - (tagI : Int)) ∈ e.inputs := by
    have := (hmem (p, e.dim, 1 - (tagI : Int))).mpr (.inr rfl)
    exact Expr.mem_inputs.mpr ⟨_, this, h.inputs.cat _ (hv _ this), rfl⟩
  have hcat : (toInfo (p, e.dim, 1 - (tagI : Int))).cat = 1 - tagI := by
    show (1 - (tagI : Int)).toNat = 1 - tagI
    omega
  have hFi : ∀ v ∈ F.inputs, v ∈ e.inputs := fun v hv' => by
    obtain ⟨u, h1, h2, rfl⟩ := Expr.mem_inputs.mp hv'
    exact Expr.mem_inputs.mpr ⟨u, (hmem u).mpr (.inl h1), h2, rfl⟩
  refine finalR_exec (b := toInfo (p, e.dim, 1 - (tagI : Int))) (m := m) (n := n) (args := args)
    (env := fun r i j => env (idx r) (i - r * outRows tagI m n) j) (ny := fun _ => redRows tagI m n) hparts hM hrep.wf hf
    hwF hfF ⟨fun v hm => h.inputs.pos v (hv v hm), fun v hm => h.inputs.cat v (hv v hm),
      fun u hu v hm => h.inputs.unique u (hv u hu) v (hv v hm)⟩ (fun v hv => (hmem v).mpr (.inl hv)) hF hPw hB.like
    (by rw [hB.pev, hB.ptag]) hB.pvars (by rw [hB.pvars]; exact hbm) (by rw [hB.ptag]; exact hcat)
    (show 0 < e.dim from hrep.wf.pos) rfl (.inr fun r hr v hv' hv2 => ?_) ?_ ?_ he
  · rw [hB.nr] at hr
    obtain ⟨hi1, hi2⟩ := hidx r hr
    rw [← hi2, hB.rowOff_eq hw h.tag h.shapes hi1 (hFi v hv')]
    have hz : ravel nb (fun b => (shape.getD v.ind []).getD b 0)
        (bcast (fun b => (shape.getD v.ind []).getD b 0) (idx r)) = 0 :=
      (ravel_congr (fun _ _ => rfl)
        (fun b hb => by simp only [bcast, hpar v (hFi v hv') hv2 b hb, if_true])).trans (ravel_zero nb _)
    rw [hz, Nat.zero_mul]
  · intro r hr s hs1 hs2
    rw [(hB.slices r).1] at hs1
    rw [(hB.slices r).2] at hs2
    rw [if_neg hnb, (hB.rangesY s).1, (hB.rangesY s).2, Nat.succ_mul]
    omega
  · intro r hr i hi1 hi2 j hj
    rw [(hB.rangesX r).1] at hi1
    rw [(hB.rangesX r).2, Nat.succ_mul] at hi2
    rw [hB.nr] at hr
    obtain ⟨hx1, hx2⟩ := hidx r hr
    have hi' : i - r * outRows tagI m n < outRows tagI m n := by omega
    have hd := (hrep.sem _ (h.defined _ hx1 _ hi' j hj)).1
    have hr' : EnvReads id e P.tagI (P.view r) (P.locI r i) j (env (idx r) (i - r * outRows tagI m n) j) := by
      intro v hm k hk
      have hmem : (⟨v.1.toNat, v.2.1, v.2.2.toNat⟩ : VarInfo) ∈ P.vars := by
        rw [hB.pvars]; exact Expr.mem_inputs.mpr ⟨v, hm, h.inputs.cat v (hv v hm), rfl⟩
      have hview := view_apply hPw.vars hnb (r := r) hmem
        (row tagI (i - r * outRows tagI m n) j v.2.2.toNat * v.2.1 + k)
      have hoff := hB.rowOff_eq hw h.tag h.shapes hx1 (hB.pvars ▸ hmem)
      rw [hx2] at hoff
      dsimp only at hview hoff
      unfold RProblem.locI
      rw [if_neg hnb, hB.ptag, (hB.rangesX r).1, hview, hoff, hB.pargs,
        h.reads _ hx1 _ hi' j hj v (hv v hm) k hk]
      show _ = args _ _
      congr 1
      rw [Nat.add_mul, Nat.add_assoc]
    refine ⟨hd, hdef _ hd, hr', fun k hk => ?_⟩
    have hrow : row P.tagI (P.locI r i) j (1 - (tagI : Int)).toNat = j := by
      rw [hB.ptag]
      unfold row
      rw [if_neg (show ¬(1 - (tagI : Int)).toNat = 2 by omega),
        if_neg (show ¬(1 - (tagI : Int)).toNat = tagI by omega)]
    have := hr' _ ((hmem (p, e.dim, 1 - (tagI : Int))).mpr (.inr rfl)) k hk
    simp only [hrow, id] at this
    rw [hval _ k hk, this]
    rfl

end

/-- There are executions of the kernel. -/
theorem finalR_exists {t : Term} {e : Expr} {tagI : Nat} (ht : tagI < 2) (hpos : t.Pos) (hin : t.Inputs)
    (hruns : Runs t e) (hf : e.FactFree) {flag : Bool} (hmode : finalMode flag e.dim = true)
    (hform : e.FinalForm tagI) {P : RProblem ℝ} (hv : P.vars = e.inputs) (htag : P.tagI = tagI) (M : CMath)
    (junk : Expr → Nat → ℝ) (out : Mem ℝ) : ∃ out', ExecFinalR M junk e P out out' := by
  obtain ⟨q, e₀, h1, h2⟩ := hruns
  obtain ⟨hrep, -, -, hvars⟩ := compiled_good hpos hin h1 h2
  rw [hf.vars_free] at hvars
  obtain ⟨F, p, hparts, hmem, -⟩ := final_form hform ht (finalMode_big hmode) hrep.wf hf
  have hm := (hmem (p, e.dim, 1 - (tagI : Int))).mpr (.inr rfl)
  refine ⟨_, .mk F _ hparts (List.mem_map.mpr ⟨_, mem_varsOf.mpr ⟨?_, ?_⟩, rfl⟩) 192 (by omega)
    (fun _ _ _ _ => List.range 192) (fun _ _ _ _ => .refl _) (fun _ _ => fun _ => 0) (fun _ _ _ _ => fun _ => 0) _
    (.refl _)⟩
  · rw [hv]
    exact Expr.mem_inputs.mpr ⟨_, hm, hin.cat _ (hvars _ hm), rfl⟩
  · rw [htag]
    show (1 - (tagI : Int)).toNat = 1 - tagI
    omega

/-- **C22**, block-sparse sums: row `i` of cluster `r` is the sum over the ranges of this cluster. -/
theorem C22_ranges_sum {t : Term} {e : Expr} {tagI m n : Nat} {args : Nat → Nat → ℝ} {env : Nat → Nat → Env}
    (h : Setting t e tagI m n args env) (hf : e.FactFree) {flag : Bool} (hmode : finalMode flag e.dim = true)
    (hform : e.FinalForm tagI) {M : CMath} (hM : M.Exact) (junk : Expr → Nat → ℝ) (argshapes : List (List Nat))
    (dimout rows : Nat) (u : RangesArr) (hb : NoBatch e.inputs argshapes) (ha : WfAxis (u.axis tagI))
    (hx : ∀ r < (u.axis tagI).nranges, (u.axis tagI).rangesX (2 * r + 1) ≤ outRows tagI m n)
    (hy : ∀ r s, (u.axis tagI).startSlice r ≤ s → s < (u.axis tagI).endSlice r →
      (u.axis tagI).rangesY (2 * s + 1) ≤ redRows tagI m n) :
    ∃ P, rangeCall (e.call id id M junk tagI m n args).ev e.inputs tagI args argshapes m n dimout rows (some u) =
        some P ∧
      (∀ out, ∃ out', ExecFinalR M junk e P out out') ∧
      ∀ out out', ExecFinalR M junk e P out out' → ∀ r i, InCluster (u.axis tagI) r i → ∀ k < t.dim,
        out' (i * t.dim + k) = ∑ s ∈ Ico ((u.axis tagI).startSlice r) ((u.axis tagI).endSlice r),
          ∑ j ∈ Ico ((u.axis tagI).rangesY (2 * s)) ((u.axis tagI).rangesY (2 * s + 1)), t.val (env i j) k := by
  obtain ⟨S, hS, h1⟩ := C52_sum_ranges h .direct
  cases hS
  obtain ⟨P, hP, h2⟩ := h1 M hM junk argshapes dimout rows u hb ha hy
  obtain ⟨P', hP', -, p2, p3, -⟩ := rangeCall_user (args := args) (tagI := tagI)
    (ev := (e.call id id M junk tagI m n args).ev) hb m n dimout rows u
  obtain rfl : P = P' := Option.some.inj (hP.symm.trans hP')
  exact ⟨P, hP, finalR_exists h.tag h.pos h.inputs h.runs hf hmode hform p2 p3 M junk,
    fun out out' he r i hi k hk => h2 out out' (C22_ranges_exec h hf hmode hform hM junk hP hb hx (fun r _ => hy r) he)
      r i hi (lt_of_lt_of_le hi.2.1.2 (hx r hi.1)) k hk⟩

/-- **C22**, sums with batch dimensions: for each batch index, `out[idx, i] = Σ_j t(x[idx, i], y[idx, j])`.

Partial: the parameters have no batch dimensions; the property fails otherwise, see `not_C22_batch_params`. -/
theorem C22_batch_sum_partial {t : Term} {e : Expr} {tagI nb m n : Nat} {full : Nat → Nat} {shape : List (List Nat)}
    {args : Nat → Nat → ℝ} {env : (Nat → Nat) → Nat → Nat → Env}
    (h : BatchSetting t e tagI nb full shape m n args env) (hf : e.FactFree)
    {flag : Bool} (hmode : finalMode flag e.dim = true) (hform : e.FinalForm tagI)
    (hpar : ∀ v ∈ e.inputs, v.cat = 2 → ∀ b < nb, (shape.getD v.ind []).getD b 0 = 1)
    {M : CMath} (hM : M.Exact) (junk : Expr → Nat → ℝ) (dimout rows : Nat) :
    ∃ P, rangeCall (e.call id id M junk tagI m n args).ev e.inputs tagI args shape m n dimout rows none = some P ∧
      (∀ out, ∃ out', ExecFinalR M junk e P out out') ∧
      ∀ out out', ExecFinalR M junk e P out out' →
        ∀ idx : Nat → Nat, (∀ b < nb, idx b < full b) → ∀ i < outRows tagI m n, ∀ k < t.dim,
          out' ((ravel nb full idx * outRows tagI m n + i) * t.dim + k) =
            ∑ j ∈ range (redRows tagI m n), t.val (env idx i j) k := by
  obtain ⟨S, hS, h1⟩ := C52_sum_batch h .direct
  cases hS
  obtain ⟨P, hP, h2⟩ := h1 M hM junk dimout rows
  obtain ⟨q, e₀, h3, h4⟩ := h.runs
  obtain ⟨-, hgood, -, -⟩ := compiled_good h.pos h.inputs h3 h4
  obtain ⟨P', hP', hB⟩ := rangeCall_batch (ev := (e.call id id M junk tagI m n args).ev)
    (args := args) (inputs_wf hgood) h.tag h.shapes h.axes h.batch dimout rows
  obtain rfl : P = P' := Option.some.inj (hP.symm.trans hP')
  exact ⟨P, hP, finalR_exists h.tag h.pos h.inputs h.runs hf hmode hform hB.pvars hB.ptag M junk,
    fun out out' he => h2 out out' (C22_batch_exec_partial h hf hmode hform hpar hM junk hP he)⟩

/-! ## The hypotheses can be met -/

theorem bigB_inputs : bigBE.inputs = [⟨0, 3, 0⟩, ⟨1, 3, 1⟩, ⟨2, 200, 1⟩] := by decide +kernel

theorem bigB_form : bigBE.FinalForm 0 := ⟨_, 2, 200, .inl rfl, by decide⟩

/-- A Gaussian convolution with weights of dimension 200 and the clusters `exRanges` of four points: row 3, which is in
the cluster of the intervals `[1, 2)` and `[3, 4)`, is the sum over `j = 1` and `j = 3`. -/
example (args : Nat → Nat → ℝ) :
    ∃ P, rangeCall (bigBE.call id id realMath (fun _ _ => 0) 0 4 4 args).ev bigBE.inputs 0 args
        [[4, 3], [4, 3], [4, 200]] 4 4 200 4 (some exRanges) = some P ∧
      (∀ out, ∃ out', ExecFinalR realMath (fun _ _ => 0) bigBE P out out') ∧
      ∀ out out', ExecFinalR realMath (fun _ _ => 0) bigBE P out out' → ∀ k < 200, out' (3 * 200 + k) =
          bigB.val (bigBEnv args 3 1) k + bigB.val (bigBEnv args 3 3) k := by
  have hmode : finalMode (torchFlag (.position 2)) bigBE.dim = true := by decide
  have hr : ∀ r, (exRanges.axis 0).nranges = 2 ∧ (r < 2 ↔ r = 0 ∨ r = 1) := fun r => ⟨rfl, by omega⟩
  obtain ⟨P, hP, h0, h1⟩ := C22_ranges_sum (bigB_setting 4 4 args) (by simp [Expr.FactFree]) hmode bigB_form
    realMath_exact (fun _ _ => 0) [[4, 3], [4, 3], [4, 200]] 200 4 exRanges
    (by rw [bigB_inputs]; simp [NoBatch]) exRanges_wf
    (fun r hr' => by
      rcases (hr r).2.mp hr' with rfl | rfl <;> decide)
    (fun r s h1 h2 => by
      have key : ∀ s, (exRanges.axis 0).rangesY (2 * s + 1) ≤ 4 := by
        intro s
        have : s = 0 ∨ s = 1 ∨ s = 2 ∨ 3 ≤ s := by omega
        rcases this with rfl | rfl | rfl | h
        · decide
        · decide
        · decide
        · show [0, 2, 1, 2, 3, 4].getD (2 * s + 1) 0 ≤ 4
          rw [List.getD_eq_default _ _ (by simp; omega)]
          omega
      exact key s)
  refine ⟨P, hP, h0, fun out out' he k hk => ?_⟩
  have hin : InCluster (exRanges.axis 0) 1 3 := ⟨by decide, by decide, fun r' hr' h1 h2 => by
    rcases (hr r').2.mp hr' with rfl | rfl
    · exact absurd h2 (by decide)
    · rfl⟩
  have h2 : bigB.dim = 200 := by decide
  have := h1 out out' he 1 3 hin k (h2.symm ▸ hk)
  rw [h2] at this
  rw [this]
  have e1 : (exRanges.axis 0).startSlice 1 = 1 := rfl
  have e2 : (exRanges.axis 0).endSlice 1 = 3 := rfl
  rw [e1, e2, show Ico 1 3 = {1, 2} by decide, Finset.sum_pair (by decide)]
  have y1 : Ico ((exRanges.axis 0).rangesY (2 * 1)) ((exRanges.axis 0).rangesY (2 * 1 + 1)) = {1} := by decide
  have y2 : Ico ((exRanges.axis 0).rangesY (2 * 2)) ((exRanges.axis 0).rangesY (2 * 2 + 1)) = {3} := by decide
  rw [y1, y2, Finset.sum_singleton, Finset.sum_singleton]

/-- Points `x` of shape `(3, 1, m, 3)`, points `y` of shape `(1, 2, n, 3)` and signals `b` of shape
`(3, 2, n, 200)`. -/
def bigBShapes (m n : Nat) : List (List Nat) := [[3, 1, m, 3], [1, 2, n, 3], [3, 2, n, 200]]

/-- The values of the variables of `bigB` for these shapes. -/
def bigBBatchEnv (m n : Nat) (args : Nat → Nat → ℝ) (idx : Nat → Nat) (i j : Nat) : Env := fun v k =>
  if v = 0 then args 0 ((idx 0 * m + i) * 3 + k)
  else if v = 1 then args 1 ((idx 1 * n + j) * 3 + k)
  else args 2 (((idx 0 * 2 + idx 1) * n + j) * 200 + k)

theorem bigB_batch (m n : Nat) (hm : m < 2 ^ 28) (hn : n < 2 ^ 28) (args : Nat → Nat → ℝ) :
    BatchSetting bigB bigBE 0 2 (fun b => [3, 2].getD b 0) (bigBShapes m n) m n args (bigBBatchEnv m n args) where
  pos := (bigB_setting m n args).pos
  inputs := (bigB_setting m n args).inputs
  runs := (bigB_setting m n args).runs
  tag := by omega
  batch := by omega
  axes := ⟨⟨0, 3, 0⟩, by rw [bigB_inputs]; simp, by decide⟩
  shapes := by
    rw [bigB_inputs]
    have hb : ∀ b : Nat, b < 2 ↔ b = 0 ∨ b = 1 := by omega
    refine ⟨?_, ?_, ?_, ?_⟩
    · simp [bigBShapes]
    · intro v hv b hb'
      simp only [List.mem_cons, List.not_mem_nil, or_false] at hv
      rcases hv with rfl | rfl | rfl <;> rcases (hb b).mp hb' with rfl | rfl <;> simp [bigBShapes]
    · intro v hv _
      simp only [List.mem_cons, List.not_mem_nil, or_false] at hv
      rcases hv with rfl | rfl | rfl <;> simp [bigBShapes, blockRows]
    · intro b hb'
      refine .inr ⟨⟨2, 200, 1⟩, by simp, ?_⟩
      rcases (hb b).mp hb' with rfl | rfl <;> simp [bigBShapes]
  int32 := by
    rw [bigB_inputs]
    intro v hv
    simp only [List.mem_cons, List.not_mem_nil, or_false] at hv
    rcases hv with rfl | rfl | rfl <;> simp [bigBShapes, blockRows, batchCount, List.range_succ] <;> omega
  reads idx hidx i _ j _ := by
    intro v hv k hk
    simp only [Term.vars, List.cons_append, List.nil_append, List.mem_cons, List.not_mem_nil, or_false] at hv
    rcases hv with rfl | rfl | rfl <;> simp [bigBBatchEnv, bigBShapes, row, ravel, bcast, blockRows]
  defined _ _ i _ j _ := by simp [Term.Def, unDef, binDef]

/-- A batch of Gaussian convolutions with weights of dimension 200: the kernel gives
`Σ_j exp(-|x[a,i] - y[b,j]|²) b[a,b,j]` at the batch index `(a, b)`. -/
example (m n : Nat) (hm : m < 2 ^ 28) (hn : n < 2 ^ 28) (args : Nat → Nat → ℝ) :
    ∃ P, rangeCall (bigBE.call id id realMath (fun _ _ => 0) 0 m n args).ev bigBE.inputs 0 args (bigBShapes m n) m n 200
        (6 * m) none = some P ∧
      (∀ out, ∃ out', ExecFinalR realMath (fun _ _ => 0) bigBE P out out') ∧
      ∀ out out', ExecFinalR realMath (fun _ _ => 0) bigBE P out out' → ∀ a < 3, ∀ b < 2, ∀ i < m, ∀ k < 200,
        out' (((a * 2 + b) * m + i) * 200 + k) = ∑ j ∈ range n,
          Real.exp (-∑ c ∈ range 3, (args 0 ((a * m + i) * 3 + c) - args 1 ((b * n + j) * 3 + c)) ^ 2) *
            args 2 (((a * 2 + b) * n + j) * 200 + k) := by
  have hmode : finalMode (torchFlag (.position 2)) bigBE.dim = true := by decide
  obtain ⟨P, hP, h0, h1⟩ := C22_batch_sum_partial (bigB_batch m n hm hn args) (by simp [Expr.FactFree]) hmode bigB_form
    (by rw [bigB_inputs]; simp) realMath_exact (fun _ _ => 0) 200 (6 * m)
  refine ⟨P, hP, h0, fun out out' he a ha b hb i hi k hk => ?_⟩
  have h2 : bigB.dim = 200 := by decide
  have := h1 out out' he (fun c => [a, b].getD c 0) (fun c hc => by
    have : c = 0 ∨ c = 1 := by omega
    rcases this with rfl | rfl
    · exact ha
    · exact hb) i hi k (h2.symm ▸ hk)
  rw [h2] at this
  simp only [ravel, outRows, redRows] at this
  simp at this
  rw [this]
  refine Finset.sum_congr rfl fun j _ => ?_
  simp [Term.val, binVal, unVal, sqn, Term.dim, cst, bigBBatchEnv]

/-! ## A call for which C22 fails -/

/-- `p * x * b` with numbers `p` and `x`, and `b` of dimension 200. -/
abbrev weighted : Term := .bin .mul (.bin .mul (.var 0 1 2) (.var 1 1 0)) (.var 2 200 1)

abbrev weightedE : Expr := .bin .mul (.bin .mul (.var 0 1 2) (.var 1 1 0)) (.var 2 200 1)

theorem weighted_inputs : weightedE.inputs = [⟨0, 1, 2⟩, ⟨1, 1, 0⟩, ⟨2, 200, 1⟩] := by decide +kernel

/-- Two batches of one point `x` and one vector `b`, with one parameter `p` for each batch. -/
def weightedShapes : List (List Nat) := [[2, 1], [2, 1, 1], [2, 1, 200]]

/-- `p` is 0 in the first batch and 1 in the second one; `x` and `b` are 1. -/
def weightedArgs : Nat → Nat → ℝ := fun a q => if a = 0 ∧ q = 0 then 0 else 1

/-- The values of the variables in the batch `idx`. -/
def weightedEnv (idx : Nat → Nat) (_ _ : Nat) : Env := fun v _ => if v = 0 then weightedArgs 0 (idx 0) else 1

theorem weighted_batch :
    BatchSetting weighted weightedE 0 1 (fun _ => 2) weightedShapes 1 1 weightedArgs weightedEnv where
  pos := by simp [Term.Pos]
  inputs := ⟨by simp [Term.vars], by simp [Term.vars], by simp [Term.vars]⟩
  runs := ⟨20, weightedE, by decide +kernel, .inl rfl⟩
  tag := by omega
  batch := by omega
  axes := ⟨⟨1, 1, 0⟩, by rw [weighted_inputs]; simp, by decide⟩
  shapes := by
    rw [weighted_inputs]
    refine ⟨?_, ?_, ?_, ?_⟩
    · simp [weightedShapes]
    · intro v hv b hb
      obtain rfl : b = 0 := by omega
      simp only [List.mem_cons, List.not_mem_nil, or_false] at hv
      rcases hv with rfl | rfl | rfl <;> simp [weightedShapes]
    · intro v hv _
      simp only [List.mem_cons, List.not_mem_nil, or_false] at hv
      rcases hv with rfl | rfl | rfl <;> simp_all [weightedShapes, blockRows]
    · intro b hb
      obtain rfl : b = 0 := by omega
      exact .inr ⟨⟨1, 1, 0⟩, by simp, by simp [weightedShapes]⟩
  int32 := by
    rw [weighted_inputs]
    intro v hv
    simp only [List.mem_cons, List.not_mem_nil, or_false] at hv
    rcases hv with rfl | rfl | rfl <;> simp [weightedShapes, blockRows, batchCount, List.range_succ]
  reads idx hidx i hi j hj := by
    have hi : i = 0 := by simpa [outRows] using hi
    have hj : j = 0 := by simpa [redRows] using hj
    subst hi hj
    intro v hv k hk
    simp only [Term.vars, List.cons_append, List.nil_append, List.mem_cons, List.not_mem_nil, or_false] at hv
    rcases hv with rfl | rfl | rfl <;> simp_all [weightedEnv, weightedArgs, weightedShapes, row, ravel, bcast, blockRows]
  defined _ _ i _ j _ := by simp [Term.Def, binDef]

/-- If each thread for the row `i` gives `v` at component `k`, then the kernel gives `v`. -/
theorem gpuFinalR_row {F : Expr} {c : VarInfo} {M : CMath} {junk : Expr → Nat → ℝ} {P : RProblem ℝ} {B : Nat}
    (hB : 0 < B) {ord : Nat → Nat → Nat → Nat → List Nat} {mem : Nat → Nat → Mem ℝ} {acc : Nat → Nat → Nat → Nat → Mem ℝ}
    {sched : List (Nat × Nat)}
    (hsched : sched.Perm ((List.range (lookupTable B P.ax.nranges P.ax.rangesX).length).product (List.range B)))
    (hlocal : ∀ b blk t, (lookupTable B P.ax.nranges P.ax.rangesX)[b]? = some blk → blk.2.1 + t < blk.2.2 →
      RowLocal c.dim (finalRThread F c M junk P B blk t (ord b) (mem (blk.2.1 + t)) (acc (blk.2.1 + t))))
    {r i k : Nat} (hr : r < P.ax.nranges)
    (hk : k < c.dim) (hi : P.ax.rangesX (2 * r) ≤ i ∧ i < P.ax.rangesX (2 * r + 1)) {v : ℝ}
    (hv : ∀ b blk t, (lookupTable B P.ax.nranges P.ax.rangesX)[b]? = some blk → blk.2.1 + t = i → i < blk.2.2 → ∀ o,
      finalRThread F c M junk P B blk t (ord b) (mem i) (acc i) o k = v) (out : Mem ℝ) :
    gpuFinalR F c M junk P B ord mem acc sched out (i * c.dim + k) = v := by
  obtain ⟨b, t, blk, hb, ht, -, -, hbi, hlt⟩ := lookup_cover hB P.ax.rangesX hr hi
  have hmem : (b, t) ∈ sched := by
    rw [hsched.mem_iff]
    refine List.mem_product.mpr ⟨List.mem_range.mpr ?_, List.mem_range.mpr ht⟩
    exact (List.getElem?_eq_some_iff.mp hb).1
  clear hsched
  unfold gpuFinalR
  induction sched using List.reverseRecOn generalizing out with
  | nil => simp at hmem
  | append_singleton l a ih =>
    have hl : a ≠ (b, t) → (b, t) ∈ l := fun hne => by
      rcases List.mem_append.mp hmem with h | h
      · exact h
      · exact absurd (List.mem_singleton.mp h).symm hne
    rw [List.foldl_append]
    simp only [List.foldl_cons, List.foldl_nil]
    cases hlk : (lookupTable B P.ax.nranges P.ax.rangesX)[a.1]? with
    | none =>
      refine ih out (hl fun h => ?_)
      rw [h] at hlk
      rw [hlk] at hb
      cases hb
    | some blk' =>
      dsimp only
      split
      · next hlt' =>
        by_cases hrow : blk'.2.1 + a.2 = i
        · rw [hrow] at hlt' ⊢
          rw [onSlice_apply, if_pos (Nat.le_add_right _ _), Nat.add_sub_cancel_left]
          exact hv a.1 blk' a.2 hlk hrow hlt' _
        · rw [onSlice_row_other (hlocal _ _ _ hlk hlt') _ (by
            rcases Nat.lt_or_gt_of_ne hrow with h | h
            · have := Nat.mul_le_mul_right c.dim (Nat.succ_le_of_lt h)
              rw [Nat.succ_mul] at this; omega
            · have := Nat.mul_le_mul_right c.dim (Nat.succ_le_of_lt h)
              rw [Nat.succ_mul] at this; omega)]
          refine ih out (hl fun h => hrow ?_)
          rw [h] at hlk ⊢
          rw [hlk] at hb
          cases hb
          exact hbi
      · next hlt' =>
        refine ih out (hl fun h => hlt' ?_)
        rw [h] at hlk ⊢
        rw [hlk] at hb
        cases hb
        rw [hbi]; exact hlt

theorem weighted_parts :
    finalParts weightedE = some (.bin .mul (.var 0 1 2) (.var 1 1 0), ⟨2, 200, 1⟩) := by decide

theorem weighted_factor : (Expr.bin .mul (.var 0 1 2) (.var 1 1 0)).inputs = [⟨0, 1, 2⟩, ⟨1, 1, 0⟩] := by decide +kernel

/-- The factor is 0 when `p` is. -/
theorem weighted_value {M : CMath} (hM : M.Exact) (junk : Expr → Nat → ℝ) (args : Nat → Mem ℝ) (B ny : Nat)
    (xi pp : Mem ℝ) (h : pp 0 = 0) :
    FinalCall.Value ⟨.bin .mul (.var 0 1 2) (.var 1 1 0), .bin .mul (.var 0 1 2) (.var 1 1 0), ⟨2, 200, 1⟩, 0, M, junk,
      args, B, ny⟩ xi pp (fun _ => 0) := by
  intro j _ yj _
  have hn : (Expr.bin .mul (.var 0 1 2) (.var 1 1 0)).nminargs = 2 := by decide +kernel
  let env : Env := fun p _ => if p = 0 then pp 0 else xi 0
  refine (runCode_ok (f := .bin .mul (.var 0 1 2) (.var 1 1 0)) hM (env := env) ?_ ?_ ?_ ?_ 0).trans ?_
  · simp [Expr.WF, Bin.accept, Expr.dim]; decide
  · simp [Expr.FactFree]
  · simp [Expr.Def, binDef]
  · unfold FinalCall.table
    rw [weighted_factor, hn]
    simp [Table.Holds, Expr.free, chunkTable, vec, env, Expr.dim, Bin.dim, varsOf]
  · simp [vec, Expr.val, binVal, Expr.dim, Bin.dim, env, h, cst]

/-- **C22 fails** with batch dimensions for parameters that have them: every batch is computed with the parameters of
the first one.  Here all executions return 0 for the second batch, where the sum is 1. -/
theorem not_C22_batch_params : finalMode true weightedE.dim = true ∧ weightedE.FactFree ∧ weightedE.FinalForm 0 ∧
    BatchSetting weighted weightedE 0 1 (fun _ => 2) weightedShapes 1 1 weightedArgs weightedEnv ∧
    (∀ k < 200, ∑ j ∈ range 1, weighted.val (weightedEnv (fun _ => 1) 0 j) k = 1) ∧
    ∀ M : CMath, M.Exact → ∀ junk, ∃ P,
      rangeCall (weightedE.call id id M junk 0 1 1 weightedArgs).ev weightedE.inputs 0 weightedArgs weightedShapes 1 1 200 2
        none = some P ∧
      ∀ out, (∃ out', ExecFinalR M junk weightedE P out out') ∧
        ∀ out', ExecFinalR M junk weightedE P out out' →
          ∀ k < 200, out' (ravel 1 (fun _ => 2) (fun _ => 1) * 200 + k) = 0 := by
  have hmode : finalMode true weightedE.dim = true := by decide
  have hform : weightedE.FinalForm 0 := ⟨_, 2, 200, .inl rfl, by decide⟩
  have hfree : weightedE.FactFree := by simp [Expr.FactFree]
  refine ⟨hmode, hfree, hform, weighted_batch, fun k _ => ?_, fun M hM junk => ?_⟩
  · simp [Term.val, binVal, Term.dim, cst, weightedEnv, weightedArgs]
  obtain ⟨hwf, -⟩ := weighted_batch.call (enc := id) (dec := id) hM (fun _ => rfl) junk
  have hw : WfVars weightedE.inputs := hwf.vars
  obtain ⟨P, hP, hB'⟩ := rangeCall_batch (ev := (weightedE.call id id M junk 0 1 1 weightedArgs).ev)
    (args := weightedArgs) hw (show 0 < 2 by omega) weighted_batch.shapes weighted_batch.axes weighted_batch.batch 200 2
  have hPw : WfRProblem P := hB'.wf hw (show 0 < 2 by omega) hwf.ev weighted_batch.shapes weighted_batch.int32
  have hnr : P.ax.nranges = 2 := by rw [hB'.nr]; decide
  refine ⟨P, hP, fun out => ⟨finalR_exists (by omega) weighted_batch.pos weighted_batch.inputs weighted_batch.runs hfree
    hmode hform hB'.pvars hB'.ptag M junk out, ?_⟩⟩
  rintro out' ⟨F, c, hparts, -, B, hB, ord, hord, mem, acc, sched, hsched⟩ k hk
  rw [weighted_parts] at hparts
  obtain ⟨rfl, rfl⟩ := Prod.mk.inj (Option.some.inj hparts)
  have hthread : ∀ b blk t, (lookupTable B P.ax.nranges P.ax.rangesX)[b]? = some blk → ∀ i o p,
      finalRThread (.bin .mul (.var 0 1 2) (.var 1 1 0)) ⟨2, 200, 1⟩ M junk P B blk t (ord b) (mem i) (acc i) o p =
        if p < 200 then 0 else o p := by
    intro b blk t hb i o p
    obtain ⟨r, hr, s, -, rfl⟩ := (lookupTable_mem hB _ blk).mp (List.mem_of_getElem? hb)
    have hFi : ∀ v ∈ (Expr.bin .mul (.var 0 1 2) (.var 1 1 0)).inputs, v ∈ P.vars := by
      rw [weighted_factor, hB'.pvars, weighted_inputs]; simp
    unfold finalRThread
    rw [(hB'.slices r).1, (hB'.slices r).2]
    have y1 := (hB'.rangesY r).1
    have y2 := (hB'.rangesY r).2
    simp only [redRows, if_true, Nat.mul_one] at y1 y2
    unfold finalRSlices forStride
    simp only [Nat.add_sub_cancel_left, List.range_one, List.foldl_cons, List.foldl_nil, Nat.zero_mul, Nat.add_zero]
    rw [if_pos (.inl (by omega)), y1, y2]
    dsimp only
    have A1 := finalRTiles_eq (sameLoadsF (F := .bin .mul (.var 0 1 2) (.var 1 1 0)) (b := ⟨2, 200, 1⟩) (M := M)
      (cjunk := junk) (B := B) (t := t) (startX := P.ax.rangesX (2 * r) + s * B) hPw hr hFi
      (by rw [hB'.pvars, weighted_inputs]; simp) (by rw [hB'.ptag]) r (r + 1)) (ord b r) (acc i r)
    simp only [Nat.add_sub_cancel_left] at A1 ⊢
    have A1 := fun xi pp => A1 xi pp 1 0
    simp only [Nat.zero_mul, Nat.add_zero] at A1
    rw [A1]
    have A2 := fun xi pp hv => finalTiles_spec (K := ⟨.bin .mul (.var 0 1 2) (.var 1 1 0),
      .bin .mul (.var 0 1 2) (.var 1 1 0), ⟨2, 200, 1⟩, P.tagI, M, junk, P.seen r r, B, 1⟩) (xi := xi) (pp := pp)
      (g := fun _ => 0) hv (show 0 < 200 by omega) hB (hord b r) (acc i r) 1 0 (show 1 ≤ _ by omega)
    simp only [Nat.zero_mul] at A2
    have hz := forRange_set 200 (fun _ _ => (0 : ℝ)) o p
    simp only [Nat.mul_one] at hz
    rw [A2]
    · simp only [mul_zero, sum_const_zero, add_zero]
      rw [hz]
      split <;> rfl
    · rw [hB'.ptag]
      refine weighted_value hM junk _ _ _ _ _ ?_
      unfold FinalBlock.loadP FinalBlock.vars
      dsimp only
      rw [weighted_factor, hB'.pargs]
      show weightedArgs 0 0 = 0
      simp [weightedArgs]
  refine gpuFinalR_row (c := ⟨2, 200, 1⟩) hB hsched (fun b blk t hb _ o o' p => ?_) (r := 1) (i := 1) (by omega) hk (by
      have h1 := (hB'.rangesX 1).1
      have h2 := (hB'.rangesX 1).2
      simp only [outRows, if_true] at h1 h2
      omega)
    (fun b blk t hb _ _ o => ?_) out
  · rw [hthread b blk t hb, hthread b blk t hb]
    exact ⟨fun h => by rw [if_pos h, if_pos h], fun h => if_neg (not_lt.mpr h)⟩
  · rw [hthread b blk t hb, if_pos hk]

end Verif
