import Verif.Props.MethodsTotal

/-!
# C62 from beginning to end, with ranges

The same as `MethodsTotal` for the calls with ranges: each row is reduced over the indices of the clusters that the ranges give
to it.  No batch dimensions.
-/

namespace Verif.Lazy

open Spec (PyE PyRed rowsOut rowsRed)

variable {r : PyRed} {p w : PyE} {data : Data} {m n a : Nat}

/-- The reduction `r` of `p` along the axis `a` raises no exception; for all the well-formed ranges that stay in the arrays, the
routine that is called, with the reduction `R` of the rows, ends in all the execution environments; and each row `i` that is in one
cluster `k` satisfies `post`, for the list of the indices that the ranges give to `k`. -/
def ComputesRanges {V : Type} (r : PyRed) (p : PyE) (enc : ℝ → V) (dec : V → ℝ) (data : Data) (m n a : Nat) (R : Nat → Red V)
    (sch : SumScheme) (post : List Nat → Nat → Nat → Mem V → Prop) : Prop :=
  ∃ c ex S, redCall r p a = some c ∧ Runs c.f ex ∧ getScheme (R ex.dim) sch = some S ∧
    ∀ M : CMath, M.Exact → ∀ (junk : Expr → Nat → ℝ) (shape : List (List Nat)) (dimout rows : Nat) (u : RangesArr),
      NoBatch ex.inputs shape → WfAxis (u.axis c.cat.toNat) →
      (∀ k s, (u.axis c.cat.toNat).startSlice k ≤ s → s < (u.axis c.cat.toNat).endSlice k →
        (u.axis c.cat.toNat).rangesY (2 * s + 1) ≤ rowsRed a m n) →
      ∃ P, rangeCall (ex.call enc dec M junk c.cat.toNat m n fun p q => enc (given data c.srcs p q)).ev ex.inputs
          c.cat.toNat (fun p q => enc (given data c.srcs p q)) shape m n dimout rows (some u) = some P ∧
        ∀ out, (∃ y, RExec (R ex.dim) S P out y) ∧ ∀ y, RExec (R ex.dim) S P out y →
          ∀ k i, InCluster (u.axis c.cat.toNat) k i → i < rowsOut a m n →
            post (clusterList (u.axis c.cat.toNat) k) (R ex.dim).dim i (y.shift (i * (R ex.dim).dim))

/-- From the statements of C62 on rows to the outputs of the calls with ranges. -/
theorem Ready.computes_ranges {V : Type} {enc : ℝ → V} {dec : V → ℝ} {R : Nat → Red V} {sch : SumScheme}
    {post : List Nat → Nat → Nat → Mem V → Prop} (h : Ready r p data m n a)
    (hall : ∀ {c ex}, redCall r p (nbatch p + a) = some c → Runs c.f ex → ∃ S, getScheme (R ex.dim) sch = some S ∧
      ∀ js i row, OutRow r p enc dec c ex (R ex.dim) S data m n a js i row → post js (R ex.dim).dim i row) :
    ComputesRanges r p enc dec data m n a R sch post := by
  obtain ⟨hz, c, ex, hc, hx, hnb⟩ := h.call
  obtain ⟨S, hS, hrow⟩ := hall hc hx
  refine ⟨c, ex, S, by rw [hz, Nat.zero_add] at hc; exact hc, hx, hS,
    fun M hM junk shape dimout rows u hb ha hle => ?_⟩
  obtain ⟨P, hP, -⟩ := rangeCall_user (ev := (ex.call enc dec M junk c.cat.toNat m n
    fun p q => enc (given data c.srcs p q)).ev) (tagI := c.cat.toNat)
    (args := fun p q => enc (given data c.srcs p q)) hb m n dimout rows u
  exact ⟨P, hP, fun out => ⟨rexec_exists_gpu _ _ _ out,
    fun y hy k i hk hi => hrow _ i _ (.ranges hnb hM hb ha hle hP hy hk hi)⟩⟩

/-- **C62**, sums, with ranges, from beginning to end. -/
theorem C62_sum_ranges_total (h : Ready .sum p data m n a) (P : PostNum ℝ) (sch : SumScheme) :
    ComputesRanges .sum p id id data m n a (fun d => sumRed d) sch fun js d i row =>
      ∃ arr, postprocess P (redOp .sum) (optArg .sum) d row = some [arr] ∧ arr.shape = [p.dim] ∧ ∀ k < p.dim,
        arr.get k = (js.map fun j => p.along data a i j k).sum :=
  h.computes_ranges fun hc hx =>
    have ⟨_, S, hS, hall⟩ := C62_sum h.proper hc hx h.domain P sch
    ⟨S, hS, fun js i row ho => hall js i row ho⟩

/-- **C62**, minima, with ranges, from beginning to end. -/
theorem C62_min_ranges_total (h : Ready .min p data m n a) (P : PostNum EReal) :
    ComputesRanges .min p Real.toEReal EReal.toReal data m n a (fun d => minRed d) .direct fun js d i row => js ≠ [] →
      ∃ arr, postprocess P (redOp .min) (optArg .min) d row = some [arr] ∧ arr.shape = [p.dim] ∧ ∀ k < p.dim, ∃ x : ℝ,
        arr.get k = x ∧ IsLeast {y | ∃ j ∈ js, y = p.along data a i j k} x :=
  h.computes_ranges fun hc hx =>
    have ⟨_, S, hS, hall⟩ := C62_min h.proper hc hx h.domain P
    ⟨S, hS, fun js i row ho hj => hall js i row ho hj⟩

/-- **C62**, maxima, with ranges, from beginning to end. -/
theorem C62_max_ranges_total (h : Ready .max p data m n a) (P : PostNum EReal) :
    ComputesRanges .max p Real.toEReal EReal.toReal data m n a (fun d => maxRed d) .direct fun js d i row => js ≠ [] →
      ∃ arr, postprocess P (redOp .max) (optArg .max) d row = some [arr] ∧ arr.shape = [p.dim] ∧ ∀ k < p.dim, ∃ x : ℝ,
        arr.get k = x ∧ IsGreatest {y | ∃ j ∈ js, y = p.along data a i j k} x :=
  h.computes_ranges fun hc hx =>
    have ⟨_, S, hS, hall⟩ := C62_max h.proper hc hx h.domain P
    ⟨S, hS, fun js i row ho hj => hall js i row ho hj⟩

/-- **C62**, minima with their indices, with ranges, from beginning to end. -/
theorem C62_min_argmin_ranges_total (h : Ready .minArgmin p data m n a) (P : PostNum EReal) (cast : Nat → EReal) :
    ComputesRanges .minArgmin p Real.toEReal EReal.toReal data m n a (fun d => minArgMinRed cast d) .direct fun js d i row => js ≠ [] →
      ∃ vals inds, postprocess P (redOp .minArgmin) (optArg .minArgmin) d row = some [vals, inds] ∧ vals.shape = [p.dim] ∧
        inds.shape = [p.dim] ∧ ∀ k < p.dim, ∃ j, FirstLeast js (fun l => p.along data a i l k) j ∧
          vals.get k = (p.along data a i j k : ℝ) ∧ inds.get k = P.long (cast j) :=
  h.computes_ranges fun hc hx =>
    have ⟨_, S, hS, hall⟩ := C62_min_argmin h.proper hc hx h.domain P cast
    ⟨S, hS, fun js i row ho hj => hall js i row ho hj⟩

/-- **C62**, maxima with their indices, with ranges, from beginning to end. -/
theorem C62_max_argmax_ranges_total (h : Ready .maxArgmax p data m n a) (P : PostNum EReal) (cast : Nat → EReal) :
    ComputesRanges .maxArgmax p Real.toEReal EReal.toReal data m n a (fun d => maxArgMaxRed cast d) .direct fun js d i row => js ≠ [] →
      ∃ vals inds, postprocess P (redOp .maxArgmax) (optArg .maxArgmax) d row = some [vals, inds] ∧ vals.shape = [p.dim] ∧
        inds.shape = [p.dim] ∧ ∀ k < p.dim, ∃ j,
          FirstGreatest js (fun l => p.along data a i l k) j ∧
          vals.get k = (p.along data a i j k : ℝ) ∧ inds.get k = P.long (cast j) :=
  h.computes_ranges fun hc hx =>
    have ⟨_, S, hS, hall⟩ := C62_max_argmax h.proper hc hx h.domain P cast
    ⟨S, hS, fun js i row ho hj => hall js i row ho hj⟩

/-- **C62**, indices of minima, with ranges, from beginning to end. -/
theorem C62_argmin_ranges_total (h : Ready .argmin p data m n a) (P : PostNum EReal) (cast : Nat → EReal) :
    ComputesRanges .argmin p Real.toEReal EReal.toReal data m n a (fun d => argMinRed cast d) .direct fun js d i row => js ≠ [] →
      ∃ arr, postprocess P (redOp .argmin) (optArg .argmin) d row = some [arr] ∧ arr.shape = [p.dim] ∧ ∀ k < p.dim, ∃ j,
        FirstLeast js (fun l => p.along data a i l k) j ∧ arr.get k = P.long (cast j) :=
  h.computes_ranges fun hc hx =>
    have ⟨_, S, hS, hall⟩ := C62_argmin h.proper hc hx h.domain P cast
    ⟨S, hS, fun js i row ho hj => hall js i row ho hj⟩

/-- **C62**, indices of maxima, with ranges, from beginning to end. -/
theorem C62_argmax_ranges_total (h : Ready .argmax p data m n a) (P : PostNum EReal) (cast : Nat → EReal) :
    ComputesRanges .argmax p Real.toEReal EReal.toReal data m n a (fun d => argMaxRed cast d) .direct fun js d i row => js ≠ [] →
      ∃ arr, postprocess P (redOp .argmax) (optArg .argmax) d row = some [arr] ∧ arr.shape = [p.dim] ∧ ∀ k < p.dim, ∃ j,
        FirstGreatest js (fun l => p.along data a i l k) j ∧ arr.get k = P.long (cast j) :=
  h.computes_ranges fun hc hx =>
    have ⟨_, S, hS, hall⟩ := C62_argmax h.proper hc hx h.domain P cast
    ⟨S, hS, fun js i row ho hj => hall js i row ho hj⟩

/-- **C62**, the `K` smallest values with their indices, with ranges, from beginning to end. Past the number of terms, infinity and 0. -/
theorem C62_kmin_argkmin_ranges_total {K : Nat} (h : Ready (.kminArgkmin K) p data m n a) (P : PostNum EReal) (cast : Nat → EReal)
    (sch : SumScheme) (hsch : sch ≠ .kahan) :
    ComputesRanges (.kminArgkmin K) p Real.toEReal EReal.toReal data m n a (fun d => kminArgKminRed cast d K) sch fun js d i row =>
      js.Pairwise (· < ·) →
      ∃ vals inds, postprocess P (redOp (.kminArgkmin K)) (optArg (.kminArgkmin K)) d row = some [vals, inds] ∧
        vals.shape = (if p.dim = 1 then [K] else [K, p.dim]) ∧ inds.shape = (if p.dim = 1 then [K] else [K, p.dim]) ∧
        ∀ k < p.dim, ∃ σ, SortedBy js (fun l => p.along data a i l k) σ ∧ ∀ l < K,
          (∀ hl : l < σ.length, vals.get (l * p.dim + k) = (p.along data a i σ[l] k : ℝ) ∧
            inds.get (l * p.dim + k) = P.long (cast σ[l])) ∧
          (σ.length ≤ l → vals.get (l * p.dim + k) = ⊤ ∧ inds.get (l * p.dim + k) = P.long (cast 0)) :=
  h.computes_ranges fun hc hx =>
    have ⟨_, S, hS, hall⟩ := C62_kmin_argkmin h.proper hc hx h.domain P cast sch hsch
    ⟨S, hS, fun js i row ho hj => hall js i row ho hj⟩

/-- **C62**, the `K` smallest values, with ranges, from beginning to end. -/
theorem C62_kmin_ranges_total {K : Nat} (h : Ready (.kmin K) p data m n a) (P : PostNum EReal) (cast : Nat → EReal)
    (sch : SumScheme) (hsch : sch ≠ .kahan) :
    ComputesRanges (.kmin K) p Real.toEReal EReal.toReal data m n a (fun d => kminRed cast d K) sch fun js d i row =>
      js.Pairwise (· < ·) →
      ∃ arr, postprocess P (redOp (.kmin K)) (optArg (.kmin K)) d row = some [arr] ∧
        arr.shape = (if p.dim = 1 then [K] else [K, p.dim]) ∧
        ∀ k < p.dim, ∃ σ, SortedBy js (fun l => p.along data a i l k) σ ∧ ∀ l < K,
          (∀ hl : l < σ.length, arr.get (l * p.dim + k) = (p.along data a i σ[l] k : ℝ)) ∧
          (σ.length ≤ l → arr.get (l * p.dim + k) = ⊤) :=
  h.computes_ranges fun hc hx =>
    have ⟨_, S, hS, hall⟩ := C62_kmin h.proper hc hx h.domain P cast sch hsch
    ⟨S, hS, fun js i row ho hj => hall js i row ho hj⟩

/-- **C62**, the indices of the `K` smallest values, with ranges, from beginning to end. -/
theorem C62_argkmin_ranges_total {K : Nat} (h : Ready (.argkmin K) p data m n a) (P : PostNum EReal) (cast : Nat → EReal)
    (sch : SumScheme) (hsch : sch ≠ .kahan) :
    ComputesRanges (.argkmin K) p Real.toEReal EReal.toReal data m n a (fun d => argKminRed cast d K) sch fun js d i row =>
      js.Pairwise (· < ·) →
      ∃ arr, postprocess P (redOp (.argkmin K)) (optArg (.argkmin K)) d row = some [arr] ∧
        arr.shape = (if p.dim = 1 then [K] else [K, p.dim]) ∧
        ∀ k < p.dim, ∃ σ, SortedBy js (fun l => p.along data a i l k) σ ∧ ∀ l < K,
          (∀ hl : l < σ.length, arr.get (l * p.dim + k) = P.long (cast σ[l])) ∧
          (σ.length ≤ l → arr.get (l * p.dim + k) = P.long (cast 0)) :=
  h.computes_ranges fun hc hx =>
    have ⟨_, S, hS, hall⟩ := C62_argkmin h.proper hc hx h.domain P cast sch hsch
    ⟨S, hS, fun js i row ho hj => hall js i row ho hj⟩

/-- **C62**, log-sum-exp, with ranges, from beginning to end. -/
theorem C62_logsumexp_ranges_total (h : Ready .logsumexp p data m n a) (g : ℝ → XR) (long : XR → XR) (sch : SumScheme)
    (hsch : sch ≠ .kahan) :
    ComputesRanges .logsumexp p XR.fin XR.val data m n a (fun _ => @lseRed XR (xrNum g) 1) sch fun js d i row => js ≠ [] →
      ∃ arr, postprocess (xrPost long) (redOp .logsumexp) (optArg .logsumexp) d row = some [arr] ∧ arr.shape = [1] ∧
        arr.get 0 = XR.fin (Real.log (js.map fun j => Real.exp (p.along data a i j 0)).sum) :=
  h.computes_ranges fun hc hx =>
    have ⟨_, S, hS, hall⟩ := C62_logsumexp h.proper hc hx h.domain g long sch hsch
    ⟨S, hS, fun js i row ho hj => hall js i row ho hj⟩

/-- **C62**, log-sum-exp with weights, with ranges, from beginning to end. -/
theorem C62_logsumexp_weight_ranges_total (h : Ready (.logsumexpW w) p data m n a) (g : ℝ → XR) (long : XR → XR) (sch : SumScheme)
    (hsch : sch ≠ .kahan) :
    ComputesRanges (.logsumexpW w) p XR.fin XR.val data m n a (fun _ => @lseRed XR (xrNum g) w.dim) sch fun js d i row => js ≠ [] →
      ∃ arr, postprocess (xrPost long) (redOp (.logsumexpW w)) (optArg (.logsumexpW w)) d row = some [arr] ∧
        arr.shape = [w.dim] ∧ ∀ k < w.dim, arr.get k = XR.log (XR.fin
          (js.map fun j => Real.exp (p.along data a i j 0) * w.along data a i j k).sum) :=
  h.computes_ranges fun hc hx =>
    have ⟨_, S, hS, hall⟩ := C62_logsumexp_weight h.proper hc hx h.domain g long sch hsch
    ⟨S, hS, fun js i row ho hj => hall js i row ho hj⟩

/-- **C62**, sums weighted by a softmax (attention layers), with ranges, from beginning to end. -/
theorem C62_sumsoftmaxweight_ranges_total (h : Ready (.sumsoftmaxweight w) p data m n a) (g : ℝ → XR) (long : XR → XR)
    (sch : SumScheme) (hsch : sch ≠ .kahan) :
    ComputesRanges (.sumsoftmaxweight w) p XR.fin XR.val data m n a (fun _ => @lseRed XR (xrNum g) (1 + w.dim)) sch fun js d i row => js ≠ [] →
      ∃ arr, postprocess (xrPost long) (redOp (.sumsoftmaxweight w)) (optArg (.sumsoftmaxweight w)) d row = some [arr] ∧
        arr.shape = [w.dim] ∧ ∀ k < w.dim, arr.get k = XR.fin
          ((js.map fun j => Real.exp (p.along data a i j 0) * w.along data a i j k).sum /
            (js.map fun j => Real.exp (p.along data a i j 0)).sum) :=
  h.computes_ranges fun hc hx =>
    have ⟨_, S, hS, hall⟩ := C62_sumsoftmaxweight h.proper hc hx h.domain g long sch hsch
    ⟨S, hS, fun js i row ho hj => hall js i row ho hj⟩

/-- The hypotheses are met by the attention layer of `exSoftmax_ready` with 5 rows and 7 columns, and the ranges `exRanges`: row 3
is reduced over the columns 1 and 3. -/
example (data : Data) : Ready (.sumsoftmaxweight exVals) exScore data 5 7 1 ∧
    ∃ c ex shape, redCall (.sumsoftmaxweight exVals) exScore 1 = some c ∧ Runs c.f ex ∧ NoBatch ex.inputs shape ∧
      WfAxis (exRanges.axis c.cat.toNat) ∧
      (∀ k s, (exRanges.axis c.cat.toNat).startSlice k ≤ s → s < (exRanges.axis c.cat.toNat).endSlice k →
        (exRanges.axis c.cat.toNat).rangesY (2 * s + 1) ≤ rowsRed 1 5 7) ∧
      InCluster (exRanges.axis c.cat.toNat) 1 3 ∧ clusterList (exRanges.axis c.cat.toNat) 1 = [1, 3] := by
  have h := exSoftmax_ready data
  refine ⟨h, ?_⟩
  obtain ⟨hz, c, ex, hc, hx, -⟩ := h.call
  obtain ⟨-, ls, t, u, hin⟩ := red_inside h.proper hc
  have hcat : c.cat.toNat = 0 := by rw [hin.cat]; rfl
  rw [hz, Nat.zero_add] at hc
  refine ⟨c, ex, List.replicate ((ex.inputs.map fun v => v.ind).sum + 1) [4, 3], hc, hx, ?_, ?_⟩
  · intro v hv _
    have hle : v.ind ≤ (ex.inputs.map fun v => v.ind).sum :=
      List.single_le_sum (fun _ _ => Nat.zero_le _) _ (List.mem_map.2 ⟨v, hv, rfl⟩)
    rw [List.getD_eq_getElem?_getD, List.getElem?_replicate, if_pos (by omega)]
    rfl
  · rw [hcat]
    exact ⟨exRanges_wf, fun k s h1 h2 => (exRanges_le k s h1 h2).trans (by decide), exRanges_in, by decide⟩

end Verif.Lazy
