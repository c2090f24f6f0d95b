import Verif.Props.MethodsTotal
import Verif.Props.MethodsBatch

/-!
# C62 from beginning to end, with batch dimensions

The same as `MethodsTotal` for tensors with batch dimensions: each batch is reduced as if it were alone.
-/

namespace Verif.Lazy

open Spec (PyE PyRed rowsOut rowsRed batchOf ravel)

variable {r : PyRed} {p w : PyE} {data : Data} {sh : Nat → List Nat} {B batch : List Nat} {m n a : Nat}

/-- The lazy tensor `p`, with the batch dimensions `batch`, `m` rows and `n` columns, can be reduced by `r` along the axis `a`:
`Ready` for each of the batches. -/
structure ReadyBatch (r : PyRed) (p : PyE) (sh : Nat → List Nat) (B batch : List Nat) (data : Data) (m n a : Nat) : Prop where
  proper : ProperRed r p
  lazy : p.IsLazy
  fits : p.Fits B m n
  full : 0 ∉ B
  fraction : p.NoFraction
  weight : ∀ w, r.weight = some w → w.IsLazy ∧ w.Fits B m n ∧ w.NoFraction
  sized : Sized r p batch m n
  ne : batch ≠ []
  positive : 0 ∉ batch
  shapes : p.Shapes sh
  weightShapes : ∀ w, r.weight = some w → w.Shapes sh
  zero : ∀ src, 0 ∉ sh src
  domain : ∀ idx : Nat → Nat, (∀ b < batch.length, idx b < batch.getD b 0) → Domain r p (batchOf batch.length sh idx data) m n
  axis : a < 2
  rows : 0 < m
  columns : 0 < n
  sum : r = .sum → p.dim ≤ 100
  size : ∀ K, r = .kmin K ∨ r = .argkmin K ∨ r = .kminArgkmin K → 0 < K
  scalar : r = .logsumexp ∨ r.weight ≠ none → p.dim = 1

/-- The reduction `r` of `p` along the axis `a` raises no exception. If the arrays have less than `2^31` rows, if the formula that is
run depends on `i` or `j`, and if each batch dimension other than 1 is one of its variables, then the routine that is called, with the
reduction `R` of the rows, ends in all the execution environments; and row `i` of each batch satisfies `post`, for the blocks of the
arrays of this batch. -/
def ComputesBatch {V : Type} (r : PyRed) (p : PyE) (enc : ℝ → V) (dec : V → ℝ) (sh : Nat → List Nat) (batch : List Nat)
    (data : Data) (m n a : Nat) (R : Nat → Red V) (sch : SumScheme) (post : Data → Nat → Nat → Mem V → Prop) : Prop :=
  ∃ c ex S, redCall r p (nbatch p + a) = some c ∧ Runs c.f ex ∧ getScheme (R ex.dim) sch = some S ∧
    ((∀ x ∈ c.vars, x.shape.dropLast.prod < 2 ^ 31) → (∃ v ∈ ex.inputs, v.cat < 2) →
      (∀ b < batch.length, batch.getD b 0 = 1 ∨ ∃ v ∈ ex.inputs,
        ((c.vars.map fun x => x.shape).getD v.ind []).getD b 0 = batch.getD b 0) →
      ∀ M : CMath, M.Exact → ∀ (junk : Expr → Nat → ℝ) (dimout rows : Nat),
      ∃ P, rangeCall (ex.call enc dec M junk c.cat.toNat m n fun p q => enc (given data c.srcs p q)).ev ex.inputs
          c.cat.toNat (fun p q => enc (given data c.srcs p q)) (c.vars.map fun x => x.shape) m n dimout rows none = some P ∧
        ∀ out, (∃ y, RExec (R ex.dim) S P out y) ∧ ∀ y, RExec (R ex.dim) S P out y →
          ∀ idx : Nat → Nat, (∀ b < batch.length, idx b < batch.getD b 0) → ∀ i < rowsOut a m n,
            post (batchOf batch.length sh idx data) (R ex.dim).dim i
              (y.shift ((ravel batch.length (fun b => batch.getD b 0) idx * rowsOut a m n + i) * (R ex.dim).dim)))

/-- From the statements of C62 on rows to the outputs of the calls with batch dimensions. -/
theorem ReadyBatch.computes {V : Type} {enc : ℝ → V} {dec : V → ℝ} {R : Nat → Red V} {sch : SumScheme}
    {post : Data → Nat → Nat → Mem V → Prop} (h : ReadyBatch r p sh B batch data m n a)
    (hall : ∀ {c ex}, redCall r p (nbatch p + a) = some c → Runs c.f ex → ∀ D, Domain r p D m n →
      ∃ S, getScheme (R ex.dim) sch = some S ∧ ∀ i row,
        OutRow r p enc dec c ex (R ex.dim) S D m n a (List.range (rowsRed a m n)) i row → post D (R ex.dim).dim i row) :
    ComputesBatch r p enc dec sh batch data m n a R sch post := by
  have h0 : ∀ b < batch.length, (fun _ => 0 : Nat → Nat) b < batch.getD b 0 := fun b hb => by
    rw [List.getD_eq_getElem?_getD, List.getElem?_eq_getElem hb]
    exact Nat.pos_of_ne_zero fun e => h.positive (e ▸ List.getElem_mem hb)
  have hD := h.domain _ h0
  obtain ⟨c, hc, -, ex, hx⟩ := C81_reductions h.proper h.lazy h.full h.fits h.fraction h.weight hD.holds
    (hD.defined 0 h.rows 0 h.columns) (fun w e => ⟨(hD.weight w e).1, (hD.weight w e).2 0 h.rows 0 h.columns⟩)
    h.axis h.sum h.size h.scalar
  obtain ⟨S, hS, -⟩ := hall hc hx _ hD
  refine ⟨c, ex, S, hc, hx, hS, fun hi hax hat M hM junk dimout rows => ?_⟩
  have hB : BatchCall r p c ex sh batch m n data :=
    ⟨h.ne, h.sized, h.shapes, h.weightShapes, h.zero, hi, hax, hat, h.domain⟩
  obtain ⟨P, hP⟩ := C70_call h.proper hc hx hB enc dec M junk dimout rows
  refine ⟨P, hP, fun out => ⟨rexec_exists_gpu _ _ _ out, fun y hy idx hidx i hi => ?_⟩⟩
  obtain ⟨S', hS', hrow⟩ := hall hc hx _ (h.domain idx hidx)
  cases hS.symm.trans hS'
  exact hrow i _ (.batch hB hM hP hy hidx hi)

theorem ReadyBatch.ne_range (h : ReadyBatch r p sh B batch data m n a) : List.range (rowsRed a m n) ≠ [] := by
  have h1 := h.rows
  have h2 := h.columns
  rw [Ne, List.range_eq_nil, rowsRed]
  split <;> omega

/-- **C62**, sums, with batch dimensions, from beginning to end. -/
theorem C62_sum_batch_total (h : ReadyBatch .sum p sh B batch data m n a) (P : PostNum ℝ) (sch : SumScheme) :
    ComputesBatch .sum p id id sh batch data m n a (fun d => sumRed d) sch fun D d i row =>
      ∃ arr, postprocess P (redOp .sum) (optArg .sum) d row = some [arr] ∧ arr.shape = [p.dim] ∧ ∀ k < p.dim,
        arr.get k = ((List.range (rowsRed a m n)).map fun j => p.along D a i j k).sum :=
  h.computes fun hc hx _ hD =>
    have ⟨_, S, hS, hall⟩ := C62_sum h.proper hc hx hD P sch
    ⟨S, hS, fun i row ho => hall _ i row ho⟩

/-- **C62**, minima, with batch dimensions, from beginning to end. -/
theorem C62_min_batch_total (h : ReadyBatch .min p sh B batch data m n a) (P : PostNum EReal) :
    ComputesBatch .min p Real.toEReal EReal.toReal sh batch data m n a (fun d => minRed d) .direct fun D d i row =>
      ∃ arr, postprocess P (redOp .min) (optArg .min) d row = some [arr] ∧ arr.shape = [p.dim] ∧ ∀ k < p.dim, ∃ x : ℝ,
        arr.get k = x ∧ IsLeast {y | ∃ j ∈ List.range (rowsRed a m n), y = p.along D a i j k} x :=
  h.computes fun hc hx _ hD =>
    have ⟨_, S, hS, hall⟩ := C62_min h.proper hc hx hD P
    ⟨S, hS, fun i row ho => hall _ i row ho h.ne_range⟩

/-- **C62**, maxima, with batch dimensions, from beginning to end. -/
theorem C62_max_batch_total (h : ReadyBatch .max p sh B batch data m n a) (P : PostNum EReal) :
    ComputesBatch .max p Real.toEReal EReal.toReal sh batch data m n a (fun d => maxRed d) .direct fun D d i row =>
      ∃ arr, postprocess P (redOp .max) (optArg .max) d row = some [arr] ∧ arr.shape = [p.dim] ∧ ∀ k < p.dim, ∃ x : ℝ,
        arr.get k = x ∧ IsGreatest {y | ∃ j ∈ List.range (rowsRed a m n), y = p.along D a i j k} x :=
  h.computes fun hc hx _ hD =>
    have ⟨_, S, hS, hall⟩ := C62_max h.proper hc hx hD P
    ⟨S, hS, fun i row ho => hall _ i row ho h.ne_range⟩

/-- **C62**, minima with their indices, with batch dimensions, from beginning to end. -/
theorem C62_min_argmin_batch_total (h : ReadyBatch .minArgmin p sh B batch data m n a) (P : PostNum EReal) (cast : Nat → EReal) :
    ComputesBatch .minArgmin p Real.toEReal EReal.toReal sh batch data m n a (fun d => minArgMinRed cast d) .direct fun D d i row =>
      ∃ vals inds, postprocess P (redOp .minArgmin) (optArg .minArgmin) d row = some [vals, inds] ∧ vals.shape = [p.dim] ∧
        inds.shape = [p.dim] ∧ ∀ k < p.dim, ∃ j, FirstLeast (List.range (rowsRed a m n)) (fun l => p.along D a i l k) j ∧
          vals.get k = (p.along D a i j k : ℝ) ∧ inds.get k = P.long (cast j) :=
  h.computes fun hc hx _ hD =>
    have ⟨_, S, hS, hall⟩ := C62_min_argmin h.proper hc hx hD P cast
    ⟨S, hS, fun i row ho => hall _ i row ho h.ne_range⟩

/-- **C62**, maxima with their indices, with batch dimensions, from beginning to end. -/
theorem C62_max_argmax_batch_total (h : ReadyBatch .maxArgmax p sh B batch data m n a) (P : PostNum EReal) (cast : Nat → EReal) :
    ComputesBatch .maxArgmax p Real.toEReal EReal.toReal sh batch data m n a (fun d => maxArgMaxRed cast d) .direct fun D d i row =>
      ∃ vals inds, postprocess P (redOp .maxArgmax) (optArg .maxArgmax) d row = some [vals, inds] ∧ vals.shape = [p.dim] ∧
        inds.shape = [p.dim] ∧ ∀ k < p.dim, ∃ j,
          FirstGreatest (List.range (rowsRed a m n)) (fun l => p.along D a i l k) j ∧
          vals.get k = (p.along D a i j k : ℝ) ∧ inds.get k = P.long (cast j) :=
  h.computes fun hc hx _ hD =>
    have ⟨_, S, hS, hall⟩ := C62_max_argmax h.proper hc hx hD P cast
    ⟨S, hS, fun i row ho => hall _ i row ho h.ne_range⟩

/-- **C62**, indices of minima, with batch dimensions, from beginning to end. -/
theorem C62_argmin_batch_total (h : ReadyBatch .argmin p sh B batch data m n a) (P : PostNum EReal) (cast : Nat → EReal) :
    ComputesBatch .argmin p Real.toEReal EReal.toReal sh batch data m n a (fun d => argMinRed cast d) .direct fun D d i row =>
      ∃ arr, postprocess P (redOp .argmin) (optArg .argmin) d row = some [arr] ∧ arr.shape = [p.dim] ∧ ∀ k < p.dim, ∃ j,
        FirstLeast (List.range (rowsRed a m n)) (fun l => p.along D a i l k) j ∧ arr.get k = P.long (cast j) :=
  h.computes fun hc hx _ hD =>
    have ⟨_, S, hS, hall⟩ := C62_argmin h.proper hc hx hD P cast
    ⟨S, hS, fun i row ho => hall _ i row ho h.ne_range⟩

/-- **C62**, indices of maxima, with batch dimensions, from beginning to end. -/
theorem C62_argmax_batch_total (h : ReadyBatch .argmax p sh B batch data m n a) (P : PostNum EReal) (cast : Nat → EReal) :
    ComputesBatch .argmax p Real.toEReal EReal.toReal sh batch data m n a (fun d => argMaxRed cast d) .direct fun D d i row =>
      ∃ arr, postprocess P (redOp .argmax) (optArg .argmax) d row = some [arr] ∧ arr.shape = [p.dim] ∧ ∀ k < p.dim, ∃ j,
        FirstGreatest (List.range (rowsRed a m n)) (fun l => p.along D a i l k) j ∧ arr.get k = P.long (cast j) :=
  h.computes fun hc hx _ hD =>
    have ⟨_, S, hS, hall⟩ := C62_argmax h.proper hc hx hD P cast
    ⟨S, hS, fun i row ho => hall _ i row ho h.ne_range⟩

/-- **C62**, the `K` smallest values with their indices, with batch dimensions, from beginning to end. Past the number of terms, infinity and 0. -/
theorem C62_kmin_argkmin_batch_total {K : Nat} (h : ReadyBatch (.kminArgkmin K) p sh B batch data m n a) (P : PostNum EReal) (cast : Nat → EReal)
    (sch : SumScheme) (hsch : sch ≠ .kahan) :
    ComputesBatch (.kminArgkmin K) p Real.toEReal EReal.toReal sh batch data m n a (fun d => kminArgKminRed cast d K) sch fun D d i row =>
      ∃ vals inds, postprocess P (redOp (.kminArgkmin K)) (optArg (.kminArgkmin K)) d row = some [vals, inds] ∧
        vals.shape = (if p.dim = 1 then [K] else [K, p.dim]) ∧ inds.shape = (if p.dim = 1 then [K] else [K, p.dim]) ∧
        ∀ k < p.dim, ∃ σ, SortedBy (List.range (rowsRed a m n)) (fun l => p.along D a i l k) σ ∧ ∀ l < K,
          (∀ hl : l < σ.length, vals.get (l * p.dim + k) = (p.along D a i σ[l] k : ℝ) ∧
            inds.get (l * p.dim + k) = P.long (cast σ[l])) ∧
          (σ.length ≤ l → vals.get (l * p.dim + k) = ⊤ ∧ inds.get (l * p.dim + k) = P.long (cast 0)) :=
  h.computes fun hc hx _ hD =>
    have ⟨_, S, hS, hall⟩ := C62_kmin_argkmin h.proper hc hx hD P cast sch hsch
    ⟨S, hS, fun i row ho => hall _ i row ho List.pairwise_lt_range⟩

/-- **C62**, the `K` smallest values, with batch dimensions, from beginning to end. -/
theorem C62_kmin_batch_total {K : Nat} (h : ReadyBatch (.kmin K) p sh B batch data m n a) (P : PostNum EReal) (cast : Nat → EReal)
    (sch : SumScheme) (hsch : sch ≠ .kahan) :
    ComputesBatch (.kmin K) p Real.toEReal EReal.toReal sh batch data m n a (fun d => kminRed cast d K) sch fun D d i row =>
      ∃ arr, postprocess P (redOp (.kmin K)) (optArg (.kmin K)) d row = some [arr] ∧
        arr.shape = (if p.dim = 1 then [K] else [K, p.dim]) ∧
        ∀ k < p.dim, ∃ σ, SortedBy (List.range (rowsRed a m n)) (fun l => p.along D a i l k) σ ∧ ∀ l < K,
          (∀ hl : l < σ.length, arr.get (l * p.dim + k) = (p.along D a i σ[l] k : ℝ)) ∧
          (σ.length ≤ l → arr.get (l * p.dim + k) = ⊤) :=
  h.computes fun hc hx _ hD =>
    have ⟨_, S, hS, hall⟩ := C62_kmin h.proper hc hx hD P cast sch hsch
    ⟨S, hS, fun i row ho => hall _ i row ho List.pairwise_lt_range⟩

/-- **C62**, the indices of the `K` smallest values, with batch dimensions, from beginning to end. -/
theorem C62_argkmin_batch_total {K : Nat} (h : ReadyBatch (.argkmin K) p sh B batch data m n a) (P : PostNum EReal) (cast : Nat → EReal)
    (sch : SumScheme) (hsch : sch ≠ .kahan) :
    ComputesBatch (.argkmin K) p Real.toEReal EReal.toReal sh batch data m n a (fun d => argKminRed cast d K) sch fun D d i row =>
      ∃ arr, postprocess P (redOp (.argkmin K)) (optArg (.argkmin K)) d row = some [arr] ∧
        arr.shape = (if p.dim = 1 then [K] else [K, p.dim]) ∧
        ∀ k < p.dim, ∃ σ, SortedBy (List.range (rowsRed a m n)) (fun l => p.along D a i l k) σ ∧ ∀ l < K,
          (∀ hl : l < σ.length, arr.get (l * p.dim + k) = P.long (cast σ[l])) ∧
          (σ.length ≤ l → arr.get (l * p.dim + k) = P.long (cast 0)) :=
  h.computes fun hc hx _ hD =>
    have ⟨_, S, hS, hall⟩ := C62_argkmin h.proper hc hx hD P cast sch hsch
    ⟨S, hS, fun i row ho => hall _ i row ho List.pairwise_lt_range⟩

/-- **C62**, log-sum-exp, with batch dimensions, from beginning to end. -/
theorem C62_logsumexp_batch_total (h : ReadyBatch .logsumexp p sh B batch data m n a) (g : ℝ → XR) (long : XR → XR) (sch : SumScheme)
    (hsch : sch ≠ .kahan) :
    ComputesBatch .logsumexp p XR.fin XR.val sh batch data m n a (fun _ => @lseRed XR (xrNum g) 1) sch fun D d i row =>
      ∃ arr, postprocess (xrPost long) (redOp .logsumexp) (optArg .logsumexp) d row = some [arr] ∧ arr.shape = [1] ∧
        arr.get 0 = XR.fin (Real.log ((List.range (rowsRed a m n)).map fun j => Real.exp (p.along D a i j 0)).sum) :=
  h.computes fun hc hx _ hD =>
    have ⟨_, S, hS, hall⟩ := C62_logsumexp h.proper hc hx hD g long sch hsch
    ⟨S, hS, fun i row ho => hall _ i row ho h.ne_range⟩

/-- **C62**, log-sum-exp with weights, with batch dimensions, from beginning to end. -/
theorem C62_logsumexp_weight_batch_total (h : ReadyBatch (.logsumexpW w) p sh B batch data m n a) (g : ℝ → XR) (long : XR → XR) (sch : SumScheme)
    (hsch : sch ≠ .kahan) :
    ComputesBatch (.logsumexpW w) p XR.fin XR.val sh batch data m n a (fun _ => @lseRed XR (xrNum g) w.dim) sch fun D d i row =>
      ∃ arr, postprocess (xrPost long) (redOp (.logsumexpW w)) (optArg (.logsumexpW w)) d row = some [arr] ∧
        arr.shape = [w.dim] ∧ ∀ k < w.dim, arr.get k = XR.log (XR.fin
          ((List.range (rowsRed a m n)).map fun j => Real.exp (p.along D a i j 0) * w.along D a i j k).sum) :=
  h.computes fun hc hx _ hD =>
    have ⟨_, S, hS, hall⟩ := C62_logsumexp_weight h.proper hc hx hD g long sch hsch
    ⟨S, hS, fun i row ho => hall _ i row ho h.ne_range⟩

/-- **C62**, sums weighted by a softmax (attention layers), with batch dimensions, from beginning to end. -/
theorem C62_sumsoftmaxweight_batch_total (h : ReadyBatch (.sumsoftmaxweight w) p sh B batch data m n a) (g : ℝ → XR) (long : XR → XR)
    (sch : SumScheme) (hsch : sch ≠ .kahan) :
    ComputesBatch (.sumsoftmaxweight w) p XR.fin XR.val sh batch data m n a (fun _ => @lseRed XR (xrNum g) (1 + w.dim)) sch fun D d i row =>
      ∃ arr, postprocess (xrPost long) (redOp (.sumsoftmaxweight w)) (optArg (.sumsoftmaxweight w)) d row = some [arr] ∧
        arr.shape = [w.dim] ∧ ∀ k < w.dim, arr.get k = XR.fin
          (((List.range (rowsRed a m n)).map fun j => Real.exp (p.along D a i j 0) * w.along D a i j k).sum /
            ((List.range (rowsRed a m n)).map fun j => Real.exp (p.along D a i j 0)).sum) :=
  h.computes fun hc hx _ hD =>
    have ⟨_, S, hS, hall⟩ := C62_sumsoftmaxweight h.proper hc hx hD g long sch hsch
    ⟨S, hS, fun i row ho => hall _ i row ho h.ne_range⟩

/-- The hypotheses are met by the sums of squared distances between the points of four batches and the same points `y`, whatever
is in the arrays; and the conditions of `ComputesBatch` are met by the routine that is called. -/
example (data : Data) : ReadyBatch .sum exBatch exBatchSh [4] [4] data 5 7 1 ∧
    redCall .sum exBatch (nbatch exBatch + 1) = some exBatchC ∧ Runs exBatchC.f exBatchE ∧
    (∀ x ∈ exBatchC.vars, x.shape.dropLast.prod < 2 ^ 31) ∧ (∃ v ∈ exBatchE.inputs, v.cat < 2) ∧
    ∀ b < [4].length, [4].getD b 0 = 1 ∨ ∃ v ∈ exBatchE.inputs,
      ((exBatchC.vars.map fun x => x.shape).getD v.ind []).getD b 0 = [4].getD b 0 := by
  have hB := exBatch_batch data
  have h : Spec.Alike [3, 3] := ⟨3, by simp⟩
  refine ⟨⟨exBatch_proper, trivial, ?_, by simp, by simp [exBatch, PyE.NoFraction], (fun w h => by cases h), hB.sized, hB.ne,
    by simp, hB.shapes, hB.weight, hB.zero, hB.domain, by decide, by decide, by decide, (fun _ => by decide),
    (fun K h => by simp at h), (fun h => by simp [PyRed.weight] at h)⟩,
    exBatch_nb ▸ exBatch_call, exBatch_runs, hB.int32, hB.axes, hB.attained⟩
  simp [exBatch, PyE.Fits, PyE.IsLazy, Spec.FitsShape, Spec.PyOp.Fits, PyE.dim, PyE.IsExponent, h]
  exact ⟨⟨[4], 5, 1, ⟨3, rfl⟩, rfl, by simp⟩, [], 1, 7, ⟨3, rfl⟩, rfl, by simp⟩

end Verif.Lazy
