import Verif.Props.Chunks
import Verif.Props.EndToEndBatch
import Verif.Proofs.ChunksRanges

/-!
# C21: sums over large dimensions, with ranges or batch dimensions
-/

namespace Verif

open Finset Spec

section

variable {V : Type} {enc : ℝ → V} {dec : V → ℝ} {t : Term} {e : Expr} {tagI m n : Nat}
  {args : Nat → Nat → ℝ} {env : Nat → Nat → Env} {setList : List (Int × Nat × Int) → List (Int × Nat × Int)}

/-- **C21**, with ranges.  When the chunked kernel is chosen for a formula, each of its executions gives an array that
the simple kernel with ranges can give, if the accumulation does not use the index `j`: for sums, but not for indices
of minima, see `not_C21_ranges`.

Partial: see `C21_exec_partial`; `n` and `m` bound the intervals. -/
theorem C21_ranges_exec_partial (h : Setting t e tagI m n args env) (hf : e.FactFree) (hmode : chunkMode e = true)
    (hsafe : e.ChunkSafe) (hset : ∀ l, (setList l).Perm l.dedup) (hdec : ∀ x, dec (enc x) = x) (R : Red V)
    (S : Scheme V) (hS : ∀ s x j j', S.accum s x j = S.accum s x j') {M : CMath} (hM : M.Exact)
    (junk : Expr → Nat → ℝ) {argshapes : List (List Nat)} {dimout rows : Nat} {u : RangesArr} {P : RProblem V}
    (hcall : rangeCall (e.call enc dec M junk tagI m n fun p q => enc (args p q)).ev e.inputs tagI
      (fun p q => enc (args p q)) argshapes m n dimout rows (some u) = some P)
    (hb : NoBatch e.inputs argshapes)
    (hx : ∀ r < (u.axis tagI).nranges, (u.axis tagI).rangesX (2 * r + 1) ≤ outRows tagI m n)
    (hy : ∀ r < (u.axis tagI).nranges, ∀ s, (u.axis tagI).startSlice r ≤ s → s < (u.axis tagI).endSlice r →
      (u.axis tagI).rangesY (2 * s + 1) ≤ redRows tagI m n)
    {out out' : Mem V} (he : ExecChunksR enc dec R S setList M junk e P out out') : RExec R S P out out' := by
  obtain ⟨P', hP', p1, p2, p3, p4, p5, p6, -⟩ := rangeCall_user (args := fun p q => enc (args p q)) (tagI := tagI)
    (ev := (e.call enc dec M junk tagI m n fun p q => enc (args p q)).ev) hb m n dimout rows u
  obtain rfl : P = P' := Option.some.inj (hcall.symm.trans hP')
  obtain ⟨q, e₀, h1, h2⟩ := h.runs
  obtain ⟨hrep, hgood, -, hv⟩ := compiled_good h.pos h.inputs h1 h2
  rw [hf.vars_free] at hv
  have hwf : WfProblem (e.call enc dec M junk tagI m n fun p q => enc (args p q)) := call_wf hgood h.tag
  refine chunksR_exec (m := m) (n := n) (args := fun p q => enc (args p q)) (env := fun _ => env)
    (ny := fun _ => redRows tagI m n) hset hM hdec hmode hf hrep.wf
    ⟨fun v hm => h.inputs.pos v (hv v hm), fun v hm => h.inputs.cat v (hv v hm),
      fun u hu v hm => h.inputs.unique u (hv u hu) v (hv v hm)⟩ hsafe
    ⟨by rw [p2]; exact hwf.vars, by rw [p3]; exact h.tag, by rw [p1, p2]; exact hwf.ev, fun hn => absurd p5 hn⟩
    ⟨fun hn => absurd p5 hn, fun hn => absurd p5 hn, fun hn => absurd p5 hn⟩ (by rw [p1, p3]) p2 (.inl p5) (.inr hS)
    ?_ ?_ he
  · intro r hr s hs1 hs2
    rw [p6] at hr hs1 hs2 ⊢
    rw [if_pos p5]
    exact hy r hr s hs1 hs2
  · intro r hr i _ hi j hj
    rw [p6] at hr hi
    have hi' : i < outRows tagI m n := lt_of_lt_of_le hi (hx r hr)
    refine ⟨(hrep.sem _ (h.defined i hi' j hj)).1, fun v hm k hk => ?_⟩
    unfold RProblem.view RProblem.locI
    rw [if_pos p5, if_pos p5, p4, p3, hdec]
    exact h.reads i hi' j hj v (hv v hm) k hk

/-- **C21**, with batch dimensions.  When the chunked kernel is chosen for a formula, each of its executions gives an
array that the simple kernel can give, for all reductions and accumulation schemes.

Partial: see `C21_exec_partial`; if there are parameters outside of the sum, all parameters have the same batch
dimensions, see `not_C21_batch_params`. -/
theorem C21_batch_exec_partial {nb : Nat} {full : Nat → Nat} {shape : List (List Nat)}
    {env : (Nat → Nat) → Nat → Nat → Env} (h : BatchSetting t e tagI nb full shape m n args env) (hf : e.FactFree)
    (hmode : chunkMode e = true) (hsafe : e.ChunkSafe) (hset : ∀ l, (setList l).Perm l.dedup)
    (hpar : (∀ v ∈ e.outerVars, v.2.2 ≠ 2) ∨ ∀ u ∈ e.inputs, ∀ v ∈ e.inputs, u.cat = 2 → v.cat = 2 → ∀ b < nb,
      (shape.getD u.ind []).getD b 0 = (shape.getD v.ind []).getD b 0)
    (hdec : ∀ x, dec (enc x) = x) (R : Red V) (S : Scheme V) {M : CMath} (hM : M.Exact)
    (junk : Expr → Nat → ℝ) {dimout rows : Nat} {P : RProblem V}
    (hcall : rangeCall (e.call enc dec M junk tagI m n fun p q => enc (args p q)).ev e.inputs tagI
      (fun p q => enc (args p q)) shape m n dimout rows none = some P)
    {out out' : Mem V} (he : ExecChunksR enc dec R S setList M junk e P out out') : RExec R S P out out' := by
  obtain ⟨q, e₀, h1, h2⟩ := h.runs
  obtain ⟨hrep, hgood, -, hv⟩ := compiled_good h.pos h.inputs h1 h2
  rw [hf.vars_free] at hv
  have hwf : WfProblem (e.call enc dec M junk tagI m n fun p q => enc (args p q)) := call_wf hgood h.tag
  obtain ⟨P', hP', hB⟩ := rangeCall_batch (ev := (e.call enc dec M junk tagI m n fun p q => enc (args p q)).ev)
    (args := fun p q => enc (args p q)) (inputs_wf hgood) h.tag h.shapes h.axes h.batch dimout rows
  obtain rfl : P = P' := Option.some.inj (hcall.symm.trans hP')
  have hnb : P.sizes.nbatchdims ≠ 0 := by rw [hB.nbd]; exact Nat.ne_of_gt h.batch
  have hw := inputs_wf hgood
  have hPw := hB.wf hw h.tag hwf.ev h.shapes h.int32
  have hidx : ∀ r, ∃ idx : Nat → Nat, r < batchCount nb full → (∀ b < nb, idx b < full b) ∧ ravel nb full idx = r :=
    fun r => by
      by_cases hr : r < batchCount nb full
      · obtain ⟨idx, h1⟩ := exists_unravel nb full r hr
        exact ⟨idx, fun _ => h1⟩
      · exact ⟨fun _ => 0, fun h => absurd h hr⟩
  choose idx hidx using hidx
  refine chunksR_exec (m := m) (n := n) (args := fun p q => enc (args p q))
    (env := fun r i j => env (idx r) (i - r * outRows tagI m n) j)
    (ny := fun _ => redRows tagI m n) hset hM hdec hmode hf hrep.wf
    ⟨fun v hm => h.inputs.pos v (hv v hm), fun v hm => h.inputs.cat v (hv v hm),
      fun u hu v hm => h.inputs.unique u (hv u hu) v (hv v hm)⟩ hsafe hPw hB.like
    (by rw [hB.pev, hB.ptag]) hB.pvars (.inr (hpar.imp_right fun hp r hr u hu v hv' hu2 hv2 => ?_)) (.inl hnb) ?_ ?_ he
  · rw [hB.nr] at hr
    rw [hB.pvars] at hu hv'
    obtain ⟨hi1, hi2⟩ := hidx r hr
    rw [← hi2, hB.rowOff_eq hw h.tag h.shapes hi1 hu, hB.rowOff_eq hw h.tag h.shapes hi1 hv', hu2, hv2]
    congr 1
    refine ravel_congr (hp u hu v hv' hu2 hv2) fun b hb => ?_
    simp only [bcast, hp u hu v hv' hu2 hv2 b hb]
  · intro r hr s hs1 hs2
    rw [(hB.slices r).1] at hs1
    rw [(hB.slices r).2] at hs2
    rw [if_neg hnb, (hB.rangesY s).1, (hB.rangesY s).2, Nat.succ_mul]
    omega
  · intro r hr i hi1 hi2 j hj
    rw [(hB.rangesX r).1] at hi1
    rw [(hB.rangesX r).2, Nat.succ_mul] at hi2
    rw [hB.nr] at hr
    obtain ⟨hx1, hx2⟩ := hidx r hr
    have hi' : i - r * outRows tagI m n < outRows tagI m n := by omega
    refine ⟨(hrep.sem _ (h.defined _ hx1 _ hi' j hj)).1, fun v hm k hk => ?_⟩
    have hmem : (⟨v.1.toNat, v.2.1, v.2.2.toNat⟩ : VarInfo) ∈ P.vars := by
      rw [hB.pvars]; exact Expr.mem_inputs.mpr ⟨v, hm, h.inputs.cat v (hv v hm), rfl⟩
    have hview := view_apply hPw.vars hnb (r := r) hmem (row tagI (i - r * outRows tagI m n) j v.2.2.toNat * v.2.1 + k)
    have hoff := hB.rowOff_eq hw h.tag h.shapes hx1 (hB.pvars ▸ hmem)
    rw [hx2] at hoff
    dsimp only at hview hoff
    unfold RProblem.locI
    rw [if_neg hnb, hB.ptag, (hB.rangesX r).1, hview, hoff, hB.pargs, hdec,
      h.reads _ hx1 _ hi' j hj v (hv v hm) k hk]
    congr 1
    rw [Nat.add_mul, Nat.add_assoc]

end

/-- The three schemes for sums do not use the index. -/
theorem sum_index {d : Nat} {sch : SumScheme} {S : Scheme ℝ} (h : getScheme (sumRed d) sch = some S) :
    ∀ s x j j', S.accum s x j = S.accum s x j' := by
  cases sch <;> cases h <;> intro s x j j' <;> rfl

/-- **C21**, block-sparse sums: row `i` of cluster `r` is the sum over the ranges of this cluster. -/
theorem C21_ranges_sum_partial {t : Term} {e : Expr} {tagI m n : Nat} {args : Nat → Nat → ℝ}
    {env : Nat → Nat → Env} (h : Setting t e tagI m n args env) (hf : e.FactFree) (hmode : chunkMode e = true)
    (hsafe : e.ChunkSafe) (sch : SumScheme) :
    ∃ S, getScheme (sumRed (V := ℝ) e.dim) sch = some S ∧
      ∀ M : CMath, M.Exact → ∀ (junk : Expr → Nat → ℝ) (argshapes : List (List Nat)) (dimout rows : Nat)
        (u : RangesArr), NoBatch e.inputs argshapes → WfAxis (u.axis tagI) →
      (∀ r < (u.axis tagI).nranges, (u.axis tagI).rangesX (2 * r + 1) ≤ outRows tagI m n) →
      (∀ r s, (u.axis tagI).startSlice r ≤ s → s < (u.axis tagI).endSlice r →
        (u.axis tagI).rangesY (2 * s + 1) ≤ redRows tagI m n) →
      ∃ P, rangeCall (e.call id id M junk tagI m n args).ev e.inputs tagI args argshapes m n dimout rows (some u) =
          some P ∧
        ∀ setList : List (Int × Nat × Int) → List (Int × Nat × Int), (∀ l, (setList l).Perm l.dedup) → ∀ out out',
          ExecChunksR id id (sumRed e.dim) S setList M junk e P out out' →
          ∀ r i, InCluster (u.axis tagI) r i → ∀ k < t.dim, out' (i * t.dim + k) =
            ∑ s ∈ Ico ((u.axis tagI).startSlice r) ((u.axis tagI).endSlice r),
              ∑ j ∈ Ico ((u.axis tagI).rangesY (2 * s)) ((u.axis tagI).rangesY (2 * s + 1)),
                t.val (env i j) k := by
  obtain ⟨S, hS, h1⟩ := C52_sum_ranges h sch
  refine ⟨S, hS, fun M hM junk argshapes dimout rows u hb ha hx hy => ?_⟩
  obtain ⟨P, hP, h2⟩ := h1 M hM junk argshapes dimout rows u hb ha hy
  refine ⟨P, hP, fun setList hset out out' he r i hi k hk => h2 out out' ?_ r i hi
    (lt_of_lt_of_le hi.2.1.2 (hx r hi.1)) k hk⟩
  exact C21_ranges_exec_partial (enc := id) (dec := id) h hf hmode hsafe hset (fun _ => rfl) _ S (sum_index hS) hM junk
    hP hb hx (fun r _ => hy r) he

/-- **C21**, sums with batch dimensions: for each batch index, `out[idx, i] = Σ_j t(x[idx, i], y[idx, j])`. -/
theorem C21_batch_sum_partial {t : Term} {e : Expr} {tagI nb m n : Nat} {full : Nat → Nat} {shape : List (List Nat)}
    {args : Nat → Nat → ℝ} {env : (Nat → Nat) → Nat → Nat → Env}
    (h : BatchSetting t e tagI nb full shape m n args env) (hf : e.FactFree) (hmode : chunkMode e = true)
    (hsafe : e.ChunkSafe)
    (hpar : (∀ v ∈ e.outerVars, v.2.2 ≠ 2) ∨ ∀ u ∈ e.inputs, ∀ v ∈ e.inputs, u.cat = 2 → v.cat = 2 → ∀ b < nb,
      (shape.getD u.ind []).getD b 0 = (shape.getD v.ind []).getD b 0) (sch : SumScheme) :
    ∃ S, getScheme (sumRed (V := ℝ) e.dim) sch = some S ∧
      ∀ M : CMath, M.Exact → ∀ (junk : Expr → Nat → ℝ) (dimout rows : Nat),
      ∃ P, rangeCall (e.call id id M junk tagI m n args).ev e.inputs tagI args shape m n dimout rows none = some P ∧
        ∀ setList : List (Int × Nat × Int) → List (Int × Nat × Int), (∀ l, (setList l).Perm l.dedup) → ∀ out out',
          ExecChunksR id id (sumRed e.dim) S setList M junk e P out out' →
        ∀ idx : Nat → Nat, (∀ b < nb, idx b < full b) → ∀ i < outRows tagI m n, ∀ k < t.dim,
          out' ((ravel nb full idx * outRows tagI m n + i) * t.dim + k) =
            ∑ j ∈ range (redRows tagI m n), t.val (env idx i j) k := by
  obtain ⟨S, hS, h1⟩ := C52_sum_batch h sch
  refine ⟨S, hS, fun M hM junk dimout rows => ?_⟩
  obtain ⟨P, hP, h2⟩ := h1 M hM junk dimout rows
  exact ⟨P, hP, fun setList hset out out' he => h2 out out'
    (C21_batch_exec_partial (enc := id) (dec := id) h hf hmode hsafe hset hpar (fun _ => rfl) _ S hM junk hP he)⟩

/-! ## The hypotheses can be met -/

/-- There are executions of the chunked kernel with ranges, for every formula with one sum. -/
theorem chunksR_exists {V : Type} (enc : ℝ → V) (dec : V → ℝ) (R : Red V) (S : Scheme V) (M : CMath)
    (setList : List (Int × Nat × Int) → List (Int × Nat × Int)) (junk : Expr → Nat → ℝ) {e : Expr}
    (h : chunkMode e = true) (P : RProblem V) (out : Mem V) :
    ∃ out', ExecChunksR enc dec R S setList M junk e P out out' := by
  obtain ⟨C, hC⟩ : ∃ C, chunkConsts setList e P.tagI = some C := by
    have h1 := fun d => (Expr.chunkedFormulas_eq (e := e) (d := d)).1
    simp only [chunkMode, h1] at h
    simp only [chunkConsts, h1]
    rcases hs : e.sums with _ | ⟨a, l⟩
    · rw [hs] at h; cases h
    · exact ⟨_, rfl⟩
  exact ⟨_, .mk C hC 192 (by omega) (fun _ _ _ _ => List.range 192) (fun _ _ _ _ => .refl _)
    (fun _ _ => fun _ => enc 0) _ (.refl _)⟩

theorem wide_inputs : wideE.inputs = [⟨0, 200, 0⟩, ⟨1, 200, 1⟩, ⟨2, 2, 1⟩] := by decide +kernel

/-- Gaussian convolutions in dimension 200, with the clusters `exRanges` of four points: the chunked kernel has
executions, and in all of them row 3, which is in the cluster of the intervals `[1, 2)` and `[3, 4)`, is the sum over
`j = 1` and `j = 3`. -/
example (args : Nat → Nat → ℝ) (out : Mem ℝ) :
    ∃ P, rangeCall (wideE.call id id realMath (fun _ _ => 0) 0 4 4 args).ev wideE.inputs 0 args
        [[4, 200], [4, 200], [4, 2]] 4 4 2 4 (some exRanges) = some P ∧
      (∃ out', ExecChunksR id id (sumRed 2) (directScheme (sumRed 2)) List.dedup realMath (fun _ _ => 0) wideE P
        out out') ∧
      ∀ out', ExecChunksR id id (sumRed 2) (directScheme (sumRed 2)) List.dedup realMath (fun _ _ => 0) wideE P
        out out' → ∀ k < 2, out' (3 * 2 + k) =
          wide.val (wideEnv args 3 1) k + wide.val (wideEnv args 3 3) k := by
  have hmode : chunkMode wideE = true := by decide +kernel
  obtain ⟨S, hS, h⟩ := C21_ranges_sum_partial (wide_setting 4 4 args) (by simp [Expr.FactFree]) hmode wide_safe .direct
  cases hS
  have hr : ∀ r, (exRanges.axis 0).nranges = 2 ∧ (r < 2 ↔ r = 0 ∨ r = 1) := fun r => ⟨rfl, by omega⟩
  obtain ⟨P, hP, h1⟩ := h realMath realMath_exact (fun _ _ => 0) [[4, 200], [4, 200], [4, 2]] 2 4 exRanges
    (by rw [wide_inputs]; simp [NoBatch]) exRanges_wf
    (fun r hr' => by
      rcases (hr r).2.mp hr' with rfl | rfl <;> decide)
    (fun r s h1 h2 => by
      have key : ∀ s, (exRanges.axis 0).rangesY (2 * s + 1) ≤ 4 := by
        intro s
        have : s = 0 ∨ s = 1 ∨ s = 2 ∨ 3 ≤ s := by omega
        rcases this with rfl | rfl | rfl | h
        · decide
        · decide
        · decide
        · show [0, 2, 1, 2, 3, 4].getD (2 * s + 1) 0 ≤ 4
          rw [List.getD_eq_default _ _ (by simp; omega)]
          omega
      exact key s)
  refine ⟨P, hP, chunksR_exists _ _ _ _ _ _ _ hmode _ _, fun out' he k hk => ?_⟩
  have hin : InCluster (exRanges.axis 0) 1 3 := ⟨by decide, by decide, fun r' hr' h1 h2 => by
    rcases (hr r').2.mp hr' with rfl | rfl
    · exact absurd h2 (by decide)
    · rfl⟩
  have h2 : wide.dim = 2 := by decide
  have := h1 List.dedup (fun _ => .refl _) out out' he 1 3 hin k (h2.symm ▸ hk)
  rw [h2] at this
  rw [this]
  have e1 : (exRanges.axis 0).startSlice 1 = 1 := rfl
  have e2 : (exRanges.axis 0).endSlice 1 = 3 := rfl
  rw [e1, e2, show Ico 1 3 = {1, 2} by decide, Finset.sum_pair (by decide)]
  have y1 : Ico ((exRanges.axis 0).rangesY (2 * 1)) ((exRanges.axis 0).rangesY (2 * 1 + 1)) = {1} := by decide
  have y2 : Ico ((exRanges.axis 0).rangesY (2 * 2)) ((exRanges.axis 0).rangesY (2 * 2 + 1)) = {3} := by decide
  rw [y1, y2, Finset.sum_singleton, Finset.sum_singleton]

/-- Points `x` of shape `(3, 1, m, 200)`, points `y` of shape `(1, 2, n, 200)` and signals `b` of shape
`(3, 2, n, 2)`. -/
def wideShapes (m n : Nat) : List (List Nat) := [[3, 1, m, 200], [1, 2, n, 200], [3, 2, n, 2]]

/-- The values of the variables of `wide` for these shapes. -/
def wideBatchEnv (m n : Nat) (args : Nat → Nat → ℝ) (idx : Nat → Nat) (i j : Nat) : Env := fun v k =>
  if v = 0 then args 0 ((idx 0 * m + i) * 200 + k)
  else if v = 1 then args 1 ((idx 1 * n + j) * 200 + k)
  else args 2 (((idx 0 * 2 + idx 1) * n + j) * 2 + k)

theorem wide_batch (m n : Nat) (hm : m < 2 ^ 28) (hn : n < 2 ^ 28) (args : Nat → Nat → ℝ) :
    BatchSetting wide wideE 0 2 (fun b => [3, 2].getD b 0) (wideShapes m n) m n args (wideBatchEnv m n args) where
  pos := (wide_setting m n args).pos
  inputs := (wide_setting m n args).inputs
  runs := (wide_setting m n args).runs
  tag := by omega
  batch := by omega
  axes := ⟨⟨0, 200, 0⟩, by rw [wide_inputs]; simp, by decide⟩
  shapes := by
    rw [wide_inputs]
    have hb : ∀ b : Nat, b < 2 ↔ b = 0 ∨ b = 1 := by omega
    refine ⟨?_, ?_, ?_, ?_⟩
    · simp [wideShapes]
    · intro v hv b hb'
      simp only [List.mem_cons, List.not_mem_nil, or_false] at hv
      rcases hv with rfl | rfl | rfl <;> rcases (hb b).mp hb' with rfl | rfl <;> simp [wideShapes]
    · intro v hv _
      simp only [List.mem_cons, List.not_mem_nil, or_false] at hv
      rcases hv with rfl | rfl | rfl <;> simp [wideShapes, blockRows]
    · intro b hb'
      refine .inr ⟨⟨2, 2, 1⟩, by simp, ?_⟩
      rcases (hb b).mp hb' with rfl | rfl <;> simp [wideShapes]
  int32 := by
    rw [wide_inputs]
    intro v hv
    simp only [List.mem_cons, List.not_mem_nil, or_false] at hv
    rcases hv with rfl | rfl | rfl <;> simp [wideShapes, blockRows, batchCount, List.range_succ] <;> omega
  reads idx hidx i _ j _ := by
    intro v hv k hk
    simp only [Term.vars, List.cons_append, List.nil_append, List.mem_cons, List.not_mem_nil, or_false] at hv
    rcases hv with rfl | rfl | rfl <;> simp [wideBatchEnv, wideShapes, row, ravel, bcast, blockRows]
  defined _ _ i _ j _ := by simp [Term.Def, unDef, binDef]

/-- A batch of Gaussian convolutions in dimension 200: the chunked kernel has executions, and they all give
`Σ_j exp(-|x[a,i] - y[b,j]|²) b[a,b,j]` at the batch index `(a, b)`. -/
example (m n : Nat) (hm : m < 2 ^ 28) (hn : n < 2 ^ 28) (args : Nat → Nat → ℝ) (out : Mem ℝ) :
    ∃ P, rangeCall (wideE.call id id realMath (fun _ _ => 0) 0 m n args).ev wideE.inputs 0 args (wideShapes m n) m n 2
        (6 * m) none = some P ∧
      (∃ out', ExecChunksR id id (sumRed 2) (directScheme (sumRed 2)) List.dedup realMath (fun _ _ => 0) wideE P
        out out') ∧
      ∀ out', ExecChunksR id id (sumRed 2) (directScheme (sumRed 2)) List.dedup realMath (fun _ _ => 0) wideE P
        out out' → ∀ a < 3, ∀ b < 2, ∀ i < m, ∀ k < 2,
        out' (((a * 2 + b) * m + i) * 2 + k) = ∑ j ∈ range n,
          Real.exp (-∑ c ∈ range 200, (args 0 ((a * m + i) * 200 + c) - args 1 ((b * n + j) * 200 + c)) ^ 2) *
            args 2 (((a * 2 + b) * n + j) * 2 + k) := by
  have hmode : chunkMode wideE = true := by decide +kernel
  have hout : wideE.outerVars = [(2, 2, 1)] := by decide +kernel
  obtain ⟨S, hS, h⟩ := C21_batch_sum_partial (wide_batch m n hm hn args) (by simp [Expr.FactFree]) hmode wide_safe
    (.inl (by rw [hout]; simp)) .direct
  cases hS
  obtain ⟨P, hP, h1⟩ := h realMath realMath_exact (fun _ _ => 0) 2 (6 * m)
  refine ⟨P, hP, chunksR_exists _ _ _ _ _ _ _ hmode _ _, fun out' he a ha b hb i hi k hk => ?_⟩
  have h2 : wide.dim = 2 := by decide
  have := h1 List.dedup (fun _ => .refl _) out out' he (fun c => [a, b].getD c 0) (fun c hc => by
    have : c = 0 ∨ c = 1 := by omega
    rcases this with rfl | rfl
    · exact ha
    · exact hb) i hi k (h2.symm ▸ hk)
  rw [h2] at this
  simp only [ravel, outRows, redRows] at this
  simp at this
  rw [this]
  refine Finset.sum_congr rfl fun j _ => ?_
  simp [Term.val, binVal, unVal, sqn, Term.dim, cst, wideBatchEnv]

/-! ## Calls for which the property fails -/

/-- If each thread for the row `i` gives `v` at component `k`, then the kernel gives `v`. -/
theorem gpuChunksR_row {V : Type} {enc : ℝ → V} {dec : V → ℝ} {R : Red V} (hf : FinLocal R) {S : Scheme V}
    {C : ChunkConsts} {M : CMath} {junk : Expr → Nat → ℝ} {P : RProblem V} {B : Nat} (hB : 0 < B)
    {ord : Nat → Nat → Nat → Nat → List Nat} {mem : Nat → Nat → Mem V} {sched : List (Nat × Nat)}
    (hsched : sched.Perm ((List.range (lookupTable B P.ax.nranges P.ax.rangesX).length).product (List.range B)))
    {r i k : Nat} (hk : k < R.dim) (hr : r < P.ax.nranges)
    (hi : P.ax.rangesX (2 * r) ≤ i ∧ i < P.ax.rangesX (2 * r + 1)) {v : V}
    (hv : ∀ b blk t, (lookupTable B P.ax.nranges P.ax.rangesX)[b]? = some blk → blk.2.1 + t = i → i < blk.2.2 → ∀ o,
      chunkRThread enc dec R S C M junk P B blk t (ord b) (mem i) o k = v) (out : Mem V) :
    gpuChunksR enc dec R S C M junk P B ord mem sched out (i * R.dim + k) = v := by
  obtain ⟨b, t, blk, hb, ht, -, -, hbi, hlt⟩ := lookup_cover hB P.ax.rangesX hr hi
  have hmem : (b, t) ∈ sched := by
    rw [hsched.mem_iff]
    refine List.mem_product.mpr ⟨List.mem_range.mpr ?_, List.mem_range.mpr ht⟩
    exact (List.getElem?_eq_some_iff.mp hb).1
  clear hsched
  unfold gpuChunksR
  induction sched using List.reverseRecOn generalizing out with
  | nil => simp at hmem
  | append_singleton l a ih =>
    have hl : a ≠ (b, t) → (b, t) ∈ l := fun hne => by
      rcases List.mem_append.mp hmem with h | h
      · exact h
      · exact absurd (List.mem_singleton.mp h).symm hne
    rw [List.foldl_append]
    simp only [List.foldl_cons, List.foldl_nil]
    cases hlk : (lookupTable B P.ax.nranges P.ax.rangesX)[a.1]? with
    | none =>
      refine ih out (hl fun h => ?_)
      rw [h] at hlk
      rw [hlk] at hb
      cases hb
    | some blk' =>
      dsimp only
      split
      · next hlt' =>
        by_cases hrow : blk'.2.1 + a.2 = i
        · rw [hrow] at hlt' ⊢
          rw [onSlice_apply, if_pos (Nat.le_add_right _ _), Nat.add_sub_cancel_left]
          exact hv a.1 blk' a.2 hlk hrow hlt' _
        · have hloc : RowLocal R.dim (chunkRThread enc dec R S C M junk P B blk' a.2 (ord a.1)
              (mem (blk'.2.1 + a.2))) := hf.rowLocal _
          rw [onSlice_row_other hloc _ (by
            rcases Nat.lt_or_gt_of_ne hrow with h | h
            · have := Nat.mul_le_mul_right R.dim (Nat.succ_le_of_lt h)
              rw [Nat.succ_mul] at this; omega
            · have := Nat.mul_le_mul_right R.dim (Nat.succ_le_of_lt h)
              rw [Nat.succ_mul] at this; omega)]
          refine ih out (hl fun h => hrow ?_)
          rw [h] at hlk ⊢
          rw [hlk] at hb
          cases hb
          exact hbi
      · next hlt' =>
        refine ih out (hl fun h => hlt' ?_)
        rw [h] at hlk ⊢
        rw [hlk] at hb
        cases hb
        rw [hbi]; exact hlt

/-- `|x - y|^2`, with points of dimension 200. -/
abbrev wideDist : Term := .sqDist (.var 0 200 0) (.var 1 200 1)

abbrev wideDistE : Expr := .un .sum (.un .square (.bin .sub (.var 0 200 0) (.var 1 200 1)))

theorem wideDist_setting (m n : Nat) (args : Nat → Nat → ℝ) :
    Setting wideDist wideDistE 0 m n args (wideEnv args) where
  pos := by simp [Term.Pos]
  inputs := ⟨by simp [Term.vars], by simp [Term.vars], by simp [Term.vars]⟩
  runs := ⟨20, wideDistE, by decide +kernel, .inl rfl⟩
  tag := by omega
  reads i _ j _ := by
    intro v hv k hk
    simp only [Term.vars, List.cons_append, List.nil_append, List.mem_cons, List.not_mem_nil, or_false] at hv
    rcases hv with rfl | rfl <;> simp [wideEnv, row]
  defined i _ j _ := by simp [Term.Def]

/-- One point `x`, with one interval: the point `j = 1`. -/
def oneRange : RangesArr where
  nrangesX := 1
  nrangesY := 0
  arr := fun k p => match k with
    | 0 => [0, 1].getD p 0
    | 1 => [1].getD p 0
    | 2 => [1, 2].getD p 0
    | _ => 0

theorem forRange_one {σ : Type} (body : Nat → σ → σ) (s : σ) : forRange 1 body s = body 0 s := rfl

theorem chunkRSub_s {V : Type} {enc : ℝ → V} {dec : V → ℝ} (K : ChunkBlock V) (f : Expr)
    (d startY endY jstart : Nat) (ts : List Nat) (c : Nat) (m : ChunkMem V) :
    (chunkRSub enc dec K f d startY endY jstart ts c m).s = m.s := rfl

/-- A tile with one column, for indices of minima: the index is that of the column in the interval. -/
theorem oneRange_tile (cast : Nat → EReal) (K : ChunkBlock EReal) (hB : 0 < K.B) (ord : Nat → List Nat)
    (m : ChunkMem EReal) (h : m.s.1 1 = cast 0) :
    (chunkRTile Real.toEReal EReal.toReal (directScheme (argMinRed cast 1)) K ord 1 2 1 0 m).s.1 1 = cast 0 := by
  unfold chunkRTile
  dsimp only
  rw [show min K.B (2 - 1) = 1 by omega, chunkRSub_s]
  generalize chunkRSub _ _ K K.C.funLast _ _ _ _ _ _ _ = m'
  simp only [forRange_one, Nat.zero_mul, Nat.add_zero]
  have hs := forRange_inv (P := fun _ (m' : ChunkMem EReal) => m'.s.1 1 = cast 0) (K.C.nchunks - 1)
    (fun chunk m => chunkRSub Real.toEReal EReal.toReal K K.C.fun_ dimchunk 1 2 1 (ord (1 + chunk)) chunk m)
    { m with
      yj := (ord 0).foldl (fun yj t => if 1 + t < 2 then onSlice (t * K.C.dimy) (K.wholeJ 1 (1 + t)) yj else yj) m.yj
      fout := m.fout.set (0 * K.C.fun_.dim) (Real.toEReal 0)
      s := (m.s.1, (directScheme (argMinRed cast 1)).blockInit m.s.2) } h fun _ _ _ h => h
  simp only [Nat.zero_mul] at hs
  generalize ChunkMem.s (forRange (K.C.nchunks - 1) _ _) = s at hs ⊢
  simp only [directScheme, argMinRed, minArgShort, forRange_one, id]
  split
  · simp [Mem.set]
  · exact hs

theorem oneRange_thread (cast : Nat → EReal) (C : ChunkConsts) (M : CMath) (junk : Expr → Nat → ℝ)
    (P : RProblem EReal) (hP : P.ax = oneRange.axis 0) {B : Nat} (hB : 0 < B) (blk : Nat × Nat × Nat)
    (hblk : blk.1 = 0) (t : Nat) (ord : Nat → Nat → Nat → List Nat) (mem : Nat → Mem EReal) (o : Mem EReal) :
    chunkRThread Real.toEReal EReal.toReal (argMinRed cast 1) (directScheme (argMinRed cast 1)) C M junk P B blk t ord
      mem o 0 = cast 0 := by
  unfold chunkRThread
  rw [hP, hblk]
  have e1 : (oneRange.axis 0).startSlice 0 = 0 := rfl
  have e2 : (oneRange.axis 0).endSlice 0 = 1 := rfl
  have e3 : (oneRange.axis 0).rangesY = fun p => [1, 2].getD p 0 := rfl
  rw [e1, e2, e3]
  unfold chunkRSlices forStride
  simp only [Nat.sub_zero, List.range_one, List.foldl_cons, List.foldl_nil]
  simp only [Nat.mul_one, Nat.zero_add, Nat.mul_zero, ge_iff_le, le_refl, true_or, if_true]
  show (argMinRed cast 1).fin (chunkRTiles _ _ _ _ _ 1 2 1 1 0 _).s.1 o 0 = cast 0
  unfold chunkRTiles
  rw [if_pos (show 1 < 2 by omega)]
  unfold chunkRTiles
  simp only [argMinRed, vectCopy_apply, if_pos (show 0 < 1 by omega), Nat.add_zero]
  refine oneRange_tile cast _ hB _ _ ?_
  simp [minArgInit, onSlice_apply, vectFill_apply]

/-- **C21 fails** for indices of minima with ranges: the index is counted from the beginning of the interval.  Here
the only point of the interval is `j = 1`, and all executions return 0. -/
theorem not_C21_ranges : chunkMode wideDistE = true ∧ wideDistE.FactFree ∧ wideDistE.ChunkSafe ∧
    clusterList (oneRange.axis 0) 0 = [1] ∧ InCluster (oneRange.axis 0) 0 0 ∧
    ∀ (args : Nat → Nat → ℝ) (cast : Nat → EReal), Setting wideDist wideDistE 0 1 2 args (wideEnv args) ∧
    ∀ M : CMath, M.Exact → ∀ junk, ∃ P,
      rangeCall (wideDistE.call Real.toEReal EReal.toReal M junk 0 1 2 fun p q => (args p q : EReal)).ev wideDistE.inputs
        0 (fun p q => (args p q : EReal)) [[1, 200], [2, 200]] 1 2 1 1 (some oneRange) = some P ∧
      ∀ setList out,
        (∃ out', ExecChunksR Real.toEReal EReal.toReal (argMinRed cast 1) (directScheme (argMinRed cast 1)) setList M
          junk wideDistE P out out') ∧
        (∀ out', ExecChunksR Real.toEReal EReal.toReal (argMinRed cast 1) (directScheme (argMinRed cast 1)) setList M
          junk wideDistE P out out' → out' 0 = cast 0) ∧
        ∀ out', RExec (argMinRed cast 1) (directScheme (argMinRed cast 1)) P out out' → out' 0 = cast 1 := by
  have hmode : chunkMode wideDistE = true := by decide +kernel
  have hsums : wideDistE.sums = [wideDistE] := by decide +kernel
  have hinp : wideDistE.inputs = [⟨0, 200, 0⟩, ⟨1, 200, 1⟩] := by decide +kernel
  have hin : InCluster (oneRange.axis 0) 0 0 := ⟨by decide, by decide, fun r' hr' _ _ => by
    have : r' < 1 := hr'
    omega⟩
  refine ⟨hmode, by simp [Expr.FactFree], ⟨?_, .inr ?_⟩, by decide, hin, fun args cast => ⟨wideDist_setting 1 2 args,
    fun M hM junk => ?_⟩⟩
  · rw [hsums]
    intro c hc v hv h1
    rw [List.mem_singleton] at hc
    subst hc
    simp only [Expr.vars, List.cons_append, List.nil_append, List.mem_cons, List.not_mem_nil, or_false] at hv
    rcases hv with rfl | rfl <;> simp at h1
  · have : wideDistE.outerVars = [] := by decide +kernel
    rw [this]; simp
  have hnb : NoBatch wideDistE.inputs [[1, 200], [2, 200]] := by rw [hinp]; simp [NoBatch]
  obtain ⟨P, hP, p1, p2, p3, p4, p5, p6, -⟩ := rangeCall_user (args := fun p q => (args p q : EReal)) (tagI := 0)
    (ev := (wideDistE.call Real.toEReal EReal.toReal M junk 0 1 2 fun p q => (args p q : EReal)).ev) hnb 1 2 1 1 oneRange
  refine ⟨P, hP, fun setList out => ⟨chunksR_exists _ _ _ _ _ _ _ hmode _ _, ?_, fun out' he => ?_⟩⟩
  · rintro out' ⟨C, hC, B, hB, ord, hord, mem, sched, hsched⟩
    have := gpuChunksR_row (enc := Real.toEReal) (dec := EReal.toReal) (R := argMinRed cast 1)
      (S := directScheme (argMinRed cast 1)) (C := C) (M := M) (junk := junk) (argMinRed_finLocal cast 1) hB (ord := ord) (mem := mem) hsched
      (r := 0) (i := 0) (k := 0) (v := cast 0) (show 0 < 1 by omega) (by rw [p6]; decide) (by rw [p6]; decide)
      (fun b blk t hb _ _ o => oneRange_thread cast C M junk P p6 hB blk (by
        have := (lookup_inside hB _ hb).1
        rw [p6] at this
        have h1 : (oneRange.axis 0).nranges = 1 := rfl
        omega) t _ _ o) out
    exact this
  · obtain ⟨hwf, -⟩ := (wideDist_setting 1 2 args).call (enc := Real.toEReal) (dec := EReal.toReal) hM EReal.toReal_coe
      junk
    obtain ⟨P', hP', h1⟩ := C17_fold (argMinRed cast 1) (argMinRed_finLocal cast 1) _ _ 0 (fun p q => (args p q : EReal))
      [[1, 200], [2, 200]] 1 2 1 1 oneRange hwf.vars hwf.tag hwf.ev hnb (fun r hr s h1 h2 => by
        have : r < 1 := hr
        obtain rfl : r = 0 := by omega
        have : s < 1 := h2
        obtain rfl : s = 0 := by omega
        decide)
    obtain rfl : P = P' := Option.some.inj (hP.symm.trans hP')
    obtain ⟨j, h2⟩ := h1 out out' he 0 0 hin
    have := h2 0 (show 0 < 1 by omega) out
    rw [show 0 * (argMinRed cast 1).dim + 0 = 0 by omega, show clusterList (oneRange.axis 0) 0 = [1] by decide] at this
    rw [this]
    simp only [List.foldl_cons, List.foldl_nil, argMinRed, minArgShort, forRange_one, vectCopy_apply,
      if_pos (show 0 < 1 by omega), Nat.add_zero]
    rw [if_pos]
    · simp [Mem.set]
    · simp only [minArgInit, onSlice_apply, vectFill_apply]
      simp only [Expr.call]
      exact EReal.coe_lt_top _

/-- `p * q * |x - y|^2`, with two numbers `p` and `q`. -/
abbrev scaled : Term :=
  .bin .mul (.bin .mul (.var 1 1 2) (.var 2 1 2)) (.sqDist (.var 0 200 0) (.var 3 200 1))

abbrev scaledE : Expr :=
  .bin .mul (.bin .mul (.var 1 1 2) (.var 2 1 2)) (.un .sum (.un .square (.bin .sub (.var 0 200 0) (.var 3 200 1))))

/-- Two batches for `x` and `q`, one for `p` and `y`; one point in each. -/
def scaledShapes : List (List Nat) := [[2, 1, 200], [1, 1], [2, 1], [1, 1, 200]]

/-- `q = (0, 1)`, `y = 0`, and the other entries are 1. -/
noncomputable def scaledArgs : Nat → Nat → ℝ := fun a k =>
  if a = 2 then (if k = 0 then 0 else 1) else if a = 3 then 0 else 1

noncomputable def scaledEnv (idx : Nat → Nat) (_ _ : Nat) : Env := fun v k =>
  if v = 0 then scaledArgs 0 (idx 0 * 200 + k) else if v = 1 then scaledArgs 1 k
  else if v = 2 then scaledArgs 2 (idx 0 + k) else scaledArgs 3 k

theorem scaled_inputs : scaledE.inputs = [⟨0, 200, 0⟩, ⟨1, 1, 2⟩, ⟨2, 1, 2⟩, ⟨3, 200, 1⟩] := by decide +kernel

theorem scaled_batch : BatchSetting scaled scaledE 0 1 (fun _ => 2) scaledShapes 1 1 scaledArgs scaledEnv where
  pos := by simp [Term.Pos]
  inputs := ⟨by simp [Term.vars], by simp [Term.vars], by simp [Term.vars]⟩
  runs := ⟨20, scaledE, by decide +kernel, .inl rfl⟩
  tag := by omega
  batch := by omega
  axes := ⟨⟨0, 200, 0⟩, by rw [scaled_inputs]; simp, by decide⟩
  shapes := by
    rw [scaled_inputs]
    refine ⟨?_, ?_, ?_, ?_⟩
    · simp [scaledShapes]
    · intro v hv b hb
      obtain rfl : b = 0 := by omega
      simp only [List.mem_cons, List.not_mem_nil, or_false] at hv
      rcases hv with rfl | rfl | rfl | rfl <;> simp [scaledShapes]
    · intro v hv _
      simp only [List.mem_cons, List.not_mem_nil, or_false] at hv
      rcases hv with rfl | rfl | rfl | rfl <;> simp_all [scaledShapes, blockRows]
    · intro b hb
      obtain rfl : b = 0 := by omega
      exact .inr ⟨⟨0, 200, 0⟩, by simp, by simp [scaledShapes]⟩
  int32 := by
    rw [scaled_inputs]
    intro v hv
    simp only [List.mem_cons, List.not_mem_nil, or_false] at hv
    rcases hv with rfl | rfl | rfl | rfl <;> simp [scaledShapes, blockRows, batchCount, List.range_succ]
  reads idx hidx i hi j hj := by
    have hi : i = 0 := by simpa [outRows] using hi
    have hj : j = 0 := by simpa [redRows] using hj
    subst hi hj
    intro v hv k hk
    simp only [Term.vars, List.cons_append, List.nil_append, List.mem_cons, List.not_mem_nil, or_false] at hv
    rcases hv with rfl | rfl | rfl | rfl <;> simp [scaledEnv, scaledShapes, row, ravel, bcast, blockRows]
  defined _ _ i _ j _ := by simp [Term.Def, binDef]

/-- The constants of the kernel for `scaled`. -/
def scaledC : ChunkConsts :=
  ⟨200, 4, 8, 4, .un .sum (.un .square (.bin .sub (.var 0 64 0) (.var 3 64 1))),
    .un .sum (.un .square (.bin .sub (.var 0 8 0) (.var 3 8 1))),
    .bin .mul (.bin .mul (.var 1 1 2) (.var 2 1 2)) (.var 4 1 3), ⟨[], [⟨0, 64, 0⟩]⟩, ⟨[], [⟨3, 64, 1⟩]⟩,
    ⟨[⟨2, 1, 2⟩, ⟨1, 1, 2⟩], []⟩⟩

theorem scaled_consts {setList : List (Int × Nat × Int) → List (Int × Nat × Int)}
    (hset : ∀ l, (setList l).Perm l.dedup) (hord : setList [(1, 1, 2), (2, 1, 2)] = [(2, 1, 2), (1, 1, 2)]) :
    chunkConsts setList scaledE 0 = some scaledC := by
  have h0 : setList [] = [] := List.perm_nil.mp (hset [])
  have h1 : ∀ v, setList [v] = [v] := fun v => by
    have := hset [v]
    rw [List.dedup_cons_of_notMem (by simp), List.dedup_nil] at this
    exact List.perm_singleton.mp this
  have hp : scaledE.postChunk scaledE.nminargs = .bin .mul (.bin .mul (.var 1 1 2) (.var 2 1 2)) (.var 4 1 3) := by
    decide +kernel
  have hn : scaledE.nminargs = 4 := by decide +kernel
  have hf : scaledE.chunkedFormulas dimchunk = [(.un .sum (.un .square (.bin .sub (.var 0 64 0) (.var 3 64 1))), 200)] := by
    decide +kernel
  have hl : scaledE.chunkedFormulas 8 = [(.un .sum (.un .square (.bin .sub (.var 0 8 0) (.var 3 8 1))), 200)] := by
    decide +kernel
  unfold chunkConsts
  rw [hf]
  simp only [hp, show 200 - (1 + (200 - 1) / dimchunk - 1) * dimchunk = 8 by decide, hl]
  simp [hn, scaledC, chunkVars, ofCat, Expr.vars, Expr.chunkedVars, Expr.notchunkedVars, Bin.vectorized, Un.vectorized,
    h0, h1, hord, toInfo, dimchunk, Expr.dim, Bin.dim, Un.dim]

theorem scaled_post {M : CMath} (hM : M.Exact) (junk : Expr → Nat → ℝ) (xi yj pp fout : Mem ℝ) (h : pp 0 = 0) :
    runCode M junk scaledC.post (chunkTable id (scaledC.nminargs + 1) [(scaledC.i.all dimchunk, xi),
      (scaledC.j.all dimchunk, yj), (scaledC.p.all dimchunk, pp),
      ([⟨scaledC.nminargs, scaledC.fun_.dim, 3⟩], fout)]) 0 = 0 := by
  let env : Env := fun p _ => if p = 1 then pp 1 else if p = 2 then pp 0 else fout 0
  rw [runCode_ok hM (env := env)]
  · simp [scaledC, vec, Expr.val, binVal, Expr.dim, Bin.dim, env, h, cst]
  · simp [scaledC, Expr.WF, Bin.accept, Expr.dim, Bin.dim]; decide
  · simp [scaledC, Expr.FactFree]
  · simp [scaledC, Expr.Def, binDef]
  · simp [scaledC, Table.Holds, Expr.free, chunkTable, ChunkVars.all, vec, env, Expr.dim, Bin.dim, Un.dim]

theorem scaled_sub (K : ChunkBlock ℝ) (hK : K.C = scaledC) (f : Expr) (d startY endY jstart : Nat) (ts : List Nat)
    (c : Nat) (m : ChunkMem ℝ) : (chunkRSub id id K f d startY endY jstart ts c m).pp = m.pp := by
  unfold chunkRSub ChunkBlock.chunkP
  simp only [hK, scaledC, List.map_nil]
  cases K.o.p <;> rfl

theorem scaled_tile {M : CMath} (hM : M.Exact) (K : ChunkBlock ℝ) (hK : K.C = scaledC) (hKM : K.M = M) (hB : 0 < K.B)
    (ord : Nat → List Nat) (m : ChunkMem ℝ) (h : m.s.1 0 = 0) (hp : m.pp 0 = 0) :
    (chunkRTile id id (directScheme (sumRed 1)) K ord 1 2 1 0 m).s.1 0 = 0 := by
  unfold chunkRTile
  dsimp only
  rw [show min K.B (2 - 1) = 1 by omega, chunkRSub_s]
  have hs := forRange_inv (P := fun _ (m' : ChunkMem ℝ) => m'.s.1 0 = 0 ∧ m'.pp 0 = 0) (K.C.nchunks - 1)
    (fun chunk m => chunkRSub id id K K.C.fun_ dimchunk 1 2 1 (ord (1 + chunk)) chunk m)
    { m with
      yj := (ord 0).foldl (fun yj t => if 1 + t < 2 then onSlice (t * K.C.dimy) (K.wholeJ 1 (1 + t)) yj else yj) m.yj
      fout := forRange 1 (fun jrel fout => fout.set (jrel * K.C.fun_.dim) (id 0)) m.fout
      s := (m.s.1, (directScheme (sumRed 1)).blockInit m.s.2) } ⟨h, hp⟩
    fun _ _ _ h => ⟨h.1, by rw [scaled_sub K hK]; exact h.2⟩
  generalize forRange (K.C.nchunks - 1) _ _ = m' at hs ⊢
  have hq : (chunkRSub id id K K.C.funLast K.C.dimLast 1 2 1 (ord K.C.nchunks) (K.C.nchunks - 1) m').pp 0 = 0 := by
    rw [scaled_sub K hK]; exact hs.2
  generalize chunkRSub _ _ K K.C.funLast _ _ _ _ _ _ _ = m2 at hq ⊢
  simp only [forRange_one, directScheme, sumRed, id]
  rw [vectApply_apply, if_pos (by omega), hs.1, zero_add, hK, hKM]
  exact scaled_post hM K.junk _ _ _ _ hq

theorem loadTwo (args : Nat → Mem ℝ) (offs : Mem Int) (m : Mem ℝ) :
    loadVarsOff [⟨2, 1, 2⟩, ⟨1, 1, 2⟩] args 0 offs m 0 = args 2 ((((0 : Nat) : Int) + offs 0) * 1 + ((0 : Nat) : Int)).toNat :=
  rfl

theorem scaled_pp {P : RProblem ℝ} (hnb : P.sizes.nbatchdims ≠ 0) (hv2 : (varsOf P.vars 2)[0]? = some ⟨1, 1, 2⟩)
    (hoff : P.rowOff 1 ⟨1, 1, 2⟩ = 0) (hargs : P.args = scaledArgs) (startX : Nat) (m : Mem ℝ) :
    loadVarsOpt scaledC.p.whole P.args 0 (P.blockOffs 1 startX).p m 0 = 0 := by
  have e : broadcastIndexLong 1 P.sizes.nbatchdims P.sizes.shapes
      (P.shapesP.shift ((P.sizes.nbatchdims + 1) * 0)) = P.rowOff 1 ⟨1, 1, 2⟩ := by
    unfold RProblem.rowOff
    exact broadcastIndexLong_congr fun l hl => shapesP_line hv2 hl
  unfold RProblem.blockOffs loadVarsOpt
  dsimp only
  rw [offs_some hnb, hargs]
  refine (loadTwo _ _ _).trans ?_
  unfold vectBroadcastIndex broadcastIndex
  rw [e, hoff, toInt32_of_lt (by omega)]
  show scaledArgs 2 0 = 0
  simp [scaledArgs]

/-- **C21 fails** with batch dimensions for formulas with two parameters outside of the sum, when the order of the
Python set that contains them is not that of their positions: each parameter is read at the offset of the other one.
Here `q` is read in the batch of `p`: all executions return 0 for the second batch, where the sum is 200. -/
theorem not_C21_batch_params : chunkMode scaledE = true ∧ scaledE.FactFree ∧ scaledE.ChunkSafe ∧
    BatchSetting scaled scaledE 0 1 (fun _ => 2) scaledShapes 1 1 scaledArgs scaledEnv ∧
    ∑ j ∈ range 1, scaled.val (scaledEnv (fun _ => 1) 0 j) 0 = 200 ∧
    ∀ M : CMath, M.Exact → ∀ junk, ∃ P,
      rangeCall (scaledE.call id id M junk 0 1 1 scaledArgs).ev scaledE.inputs 0 scaledArgs scaledShapes 1 1 1 2 none =
        some P ∧
      ∀ setList : List (Int × Nat × Int) → List (Int × Nat × Int), (∀ l, (setList l).Perm l.dedup) →
        setList [(1, 1, 2), (2, 1, 2)] = [(2, 1, 2), (1, 1, 2)] → ∀ out,
        (∃ out', ExecChunksR id id (sumRed 1) (directScheme (sumRed 1)) setList M junk scaledE P out out') ∧
        ∀ out', ExecChunksR id id (sumRed 1) (directScheme (sumRed 1)) setList M junk scaledE P out out' →
          out' (ravel 1 (fun _ => 2) (fun _ => 1)) = 0 := by
  have hmode : chunkMode scaledE = true := by decide +kernel
  have hsums : scaledE.sums = [.un .sum (.un .square (.bin .sub (.var 0 200 0) (.var 3 200 1)))] := by decide +kernel
  refine ⟨hmode, by simp [Expr.FactFree], ⟨?_, .inl ?_⟩, scaled_batch, ?_, fun M hM junk => ?_⟩
  · rw [hsums]
    intro c hc v hv h1
    rw [List.mem_singleton] at hc
    subst hc
    simp only [Expr.vars, List.cons_append, List.nil_append, List.mem_cons, List.not_mem_nil, or_false] at hv
    rcases hv with rfl | rfl <;> simp at h1
  · rw [hsums]
    intro c hc v hv
    rw [List.mem_singleton] at hc
    subst hc
    simp only [Expr.vars, List.cons_append, List.nil_append, List.mem_cons, List.not_mem_nil, or_false] at hv
    rcases hv with rfl | rfl <;> simp
  · simp [Term.val, binVal, unVal, sqn, Term.dim, cst, scaledEnv, scaledArgs, Bin.dim]
  obtain ⟨hwf, -⟩ := scaled_batch.call (enc := id) (dec := id) hM (fun _ => rfl) junk
  have hw : WfVars scaledE.inputs := hwf.vars
  obtain ⟨P, hP, hB'⟩ := rangeCall_batch (ev := (scaledE.call id id M junk 0 1 1 scaledArgs).ev) (args := scaledArgs)
    hw (show 0 < 2 by omega) scaled_batch.shapes scaled_batch.axes scaled_batch.batch 1 2
  have hnr : P.ax.nranges = 2 := by rw [hB'.nr]; decide
  have hnb : P.sizes.nbatchdims ≠ 0 := by rw [hB'.nbd]; omega
  have hoff : P.rowOff 1 ⟨1, 1, 2⟩ = 0 := by
    have := hB'.rowOff_eq hw (by omega) scaled_batch.shapes (idx := fun _ => 1) (fun _ _ => by omega)
      (v := ⟨1, 1, 2⟩) (by rw [scaled_inputs]; simp)
    simpa [ravel, bcast, scaledShapes] using this
  refine ⟨P, hP, fun setList hset hord out => ⟨chunksR_exists _ _ _ _ _ _ _ hmode _ _, ?_⟩⟩
  rintro out' ⟨C, hC, B, hB, ord, hord', mem, sched, hsched⟩
  rw [hB'.ptag, scaled_consts hset hord] at hC
  cases hC
  have := gpuChunksR_row (enc := id) (dec := id) (R := sumRed 1) (S := directScheme (sumRed 1)) (C := scaledC) (M := M)
    (junk := junk) (sumRed_finLocal 1) hB (ord := ord) (mem := mem) hsched (r := 1) (i := 1) (k := 0) (v := 0)
    (show 0 < 1 by omega) (by omega) (by
      have h1 := (hB'.rangesX 1).1
      have h2 := (hB'.rangesX 1).2
      simp only [outRows, if_true] at h1 h2
      omega)
    (fun b blk t hb hbt hlt o => ?_) out
  · exact this
  · have hblk : blk.1 = 1 := by
      obtain ⟨h1, h2, h3, h4, h5⟩ := lookup_inside hB _ hb
      have h6 := (hB'.rangesX blk.1).2
      simp only [outRows, if_true] at h6
      omega
    unfold chunkRThread
    rw [hblk, (hB'.slices 1).1, (hB'.slices 1).2]
    have y1 := (hB'.rangesY 1).1
    have y2 := (hB'.rangesY 1).2
    simp only [redRows, if_true] at y1 y2
    unfold chunkRSlices forStride
    simp only [Nat.add_sub_cancel_left, List.range_one, List.foldl_cons, List.foldl_nil, Nat.zero_mul, Nat.add_zero]
    rw [if_pos (.inl (by omega))]
    rw [y1, y2]
    show (sumRed 1).fin (chunkRTiles _ _ _ _ _ 1 2 1 1 0 _).s.1 o 0 = 0
    unfold chunkRTiles
    rw [if_pos (show 1 < 2 by omega)]
    unfold chunkRTiles
    simp only [sumRed, vectCopy_apply, if_pos (show 0 < 1 by omega)]
    refine scaled_tile hM _ rfl rfl hB _ _ ?_ ?_
    · simp [vectFill_apply]
    · exact scaled_pp hnb (by rw [hB'.pvars, scaled_inputs]; decide) hoff hB'.pargs _ _

/-- There is such an order of the sets. -/
example : ∃ setList : List (Int × Nat × Int) → List (Int × Nat × Int), (∀ l, (setList l).Perm l.dedup) ∧
    setList [(1, 1, 2), (2, 1, 2)] = [(2, 1, 2), (1, 1, 2)] :=
  ⟨fun l => l.dedup.reverse, fun l => List.reverse_perm _, by decide⟩

end Verif
