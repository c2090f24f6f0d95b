import Verif.Props.MethodsRed
import Verif.Proofs.Call

/-!
# C70: batch dimensions of lazy tensors

The theorems **C62** are about the rows of the output, with or without batch dimensions. Here: the shape of the output with
batch dimensions, the existence of the call, sums in full, and what happens to batch dimensions that disappear when the
formula is simplified.
-/

namespace Verif.Lazy
open Alias (Str)
open Spec (LExpr PyE PyOp PyM1 PyRed rowsOut rowsRed batchOf ravel)

section
variable {r : PyRed} {p : PyE} {a : Nat} {c : RedCall} {ex : Expr} {sh : Nat → List Nat} {batch : List Nat} {m n : Nat}
  {data : Data}

/-- The formula of the routine. -/
theorem Inside.termOf {ls : List (Nat × Nat × Nat)} {t u : Term} (hin : Inside r p a c ls t u) :
    ∃ d V D, TermOf ls c.srcs c.f d V D ∧ ∀ data m n, Domain r p data m n → ∀ i < m, ∀ j < n, D data i j := by
  have hbu := hin.built
  have hself : ∀ data m n, Domain r p data m n → ∀ i < m, ∀ j < n, p.Holds data ∧ p.Def data i j :=
    fun data m n hd i hi j hj => ⟨hd.holds, hd.defined i hi j hj⟩
  have plain : c.f = t → ∃ d V D, TermOf ls c.srcs c.f d V D ∧
      ∀ data m n, Domain r p data m n → ∀ i < m, ∀ j < n, D data i j := fun h => ⟨_, _, _, h ▸ hin.self, hself⟩
  cases r <;> simp only [finish, shiftExp, Option.ite_none_left_eq_some, not_not, Option.some.injEq, Prod.mk.injEq] at hbu
  case logsumexp =>
    refine ⟨_, _, _, hbu.2.2 ▸ hin.self.concat (TermOf.int ls c.srcs 1), fun data m n hd i hi j hj =>
      ⟨hself data m n hd i hi j hj, trivial⟩⟩
  case logsumexpW w =>
    refine ⟨_, _, _, hbu.2.2 ▸ hin.self.concat (hin.weight w rfl), fun data m n hd i hi j hj =>
      ⟨hself data m n hd i hi j hj, (hd.weight w rfl).1, (hd.weight w rfl).2 i hi j hj⟩⟩
  case sumsoftmaxweight w =>
    refine ⟨_, _, _, hbu.2.2 ▸ hin.self.concat ((TermOf.int ls c.srcs 1).concat (hin.weight w rfl)),
      fun data m n hd i hi j hj =>
        ⟨hself data m n hd i hi j hj, trivial, (hd.weight w rfl).1, (hd.weight w rfl).2 i hi j hj⟩⟩
  case kmin => exact plain hbu.2.2.symm
  case argkmin => exact plain hbu.2.2.symm
  case kminArgkmin => exact plain hbu.2.2.symm
  all_goals exact plain hbu.2.symm

/-- **C70**, shapes: the number of batch dimensions that the routine finds is that of the lazy tensor (with the weight),
and the shape of the output is that of the batch dimensions followed by the numbers of rows and columns of a batch. -/
theorem C70_shape (hp : ProperRed r p) (h : redCall r p (nbatch p + a) = some c) (hx : Runs c.f ex)
    (hB : BatchCall r p c ex sh batch m n data) (rows dim : Nat) :
    (c.vars.map fun x => x.shape.length).foldl max 0 - 2 = batch.length ∧
    shapeOutPy (c.vars.map fun x => x.shape) batch.length rows dim = batch ++ [rows, dim] := by
  obtain ⟨ha, ls, t, u, hin⟩ := red_inside hp h
  obtain ⟨h0, hv⟩ := hin.vars sh batch m n hB.sized hB.shapes hB.weight hB.zero
  obtain ⟨d, V, D, hto, -⟩ := hin.termOf
  have hall : ∀ x ∈ c.vars, ∃ d k, VarOf sh batch m n x d k := by
    intro x hx
    obtain ⟨q, hq, rfl⟩ := List.mem_iff_getElem.1 hx
    obtain ⟨d, k, hm⟩ := hin.leaves.used q hq
    obtain ⟨y, hy, hV⟩ := hv q d k hm
    rw [List.getElem?_eq_getElem hq] at hy
    cases hy
    exact ⟨d, k, hV⟩
  have hleaf : ∀ v ∈ ex.inputs, ∃ x ∈ c.vars, (c.vars.map fun x => x.shape).getD v.ind [] = x.shape ∧
      VarOf sh batch m n x v.dim v.cat := by
    intro v hv'
    obtain ⟨w, hw, hc, rfl⟩ := Expr.mem_inputs.mp hv'
    obtain ⟨⟨q, d, k⟩, hm, rfl⟩ := hto.vars w ((compiled_vars hto.pos hx w hw).resolve_right (by omega))
    obtain ⟨x, hx, hV⟩ := hv q d k hm
    refine ⟨x, List.mem_of_getElem? hx, ?_, by simpa using hV⟩
    simp [List.getD_eq_getElem?_getD, hx]
  have hpos : ∀ b ∈ batch, 0 < b := fun b hb => Nat.pos_of_ne_zero fun e => h0 (e ▸ hb)
  have hbc : ∀ x ∈ c.vars, Spec.BroadcastsTo (x.shape.take batch.length) batch := by
    intro x hx
    obtain ⟨d, k, hV⟩ := hall x hx
    have hlen := hV.length
    refine List.forall₂_iff_get.2 ⟨by rw [List.length_take]; split_ifs at hlen <;> omega, fun i h1 h2 => ?_⟩
    have := hV.dims i h2
    rw [List.getD_eq_getElem?_getD, List.getD_eq_getElem?_getD, List.getElem?_eq_getElem h2,
      List.getElem?_eq_getElem (by split_ifs at hlen <;> omega)] at this
    simpa [or_comm] using this
  constructor
  · have : (c.vars.map fun x => x.shape.length).foldl max 0 = batch.length + 2 := by
      refine Alias.foldl_max_eq _ _ _ (fun y hy => ?_) (by omega) (.inr ?_)
      · obtain ⟨x, hx, rfl⟩ := List.mem_map.1 hy
        obtain ⟨d, k, hV⟩ := hall x hx
        have := hV.length
        split_ifs at this <;> omega
      · obtain ⟨v, hv', hc⟩ := hB.axes
        obtain ⟨x, hx, -, hV⟩ := hleaf v hv'
        refine List.mem_map.2 ⟨x, hx, ?_⟩
        rw [hV.length, if_neg (by omega)]
    omega
  · unfold shapeOutPy
    have hb := List.length_pos_iff.2 hB.ne
    rw [if_pos (by omega), List.map_map,
      show (fun s => List.take batch.length s) ∘ (fun x : LTensor => x.shape) = fun x => x.shape.take batch.length from rfl]
    congr 1
    cases hvs : c.vars with
    | nil =>
      obtain ⟨v, hv', -⟩ := hB.axes
      obtain ⟨x, hx, -⟩ := hleaf v hv'
      rw [hvs] at hx
      cases hx
    | cons s ss =>
      rw [hvs] at hbc
      simp only [List.map_cons]
      obtain ⟨f1, f2⟩ := Alias.foldl_max_broadcast hpos (ss.map fun x => x.shape.take batch.length)
        (s.shape.take batch.length) (hbc s (by simp)) (by
          intro q hq
          obtain ⟨y, hy, rfl⟩ := List.mem_map.1 hq
          exact hbc y (by simp [hy]))
      refine List.ext_getElem? fun i => ?_
      by_cases hi : i < batch.length
      · refine f2 i ?_
        rw [← List.map_cons (f := fun x : LTensor => x.shape.take batch.length), ← hvs]
        rcases hB.attained i hi with h1 | ⟨v, hv', h1⟩
        · refine ⟨_, List.mem_map.2 ⟨s, by rw [hvs]; simp, rfl⟩, ?_⟩
          obtain ⟨d, k, hV⟩ := hall s (by rw [hvs]; simp)
          have hlen := hV.length
          have h2 := hV.dims i hi
          have h3 : s.shape.getD i 0 = batch.getD i 0 := by omega
          rw [List.getD_eq_getElem?_getD, List.getD_eq_getElem?_getD, List.getElem?_eq_getElem hi,
            List.getElem?_eq_getElem (by split_ifs at hlen <;> omega)] at h3
          rw [List.getElem?_take, if_pos hi, List.getElem?_eq_getElem hi,
            List.getElem?_eq_getElem (by split_ifs at hlen <;> omega)]
          exact congrArg some h3
        · obtain ⟨x, hx, e, hV⟩ := hleaf v hv'
          refine ⟨_, List.mem_map.2 ⟨x, hx, rfl⟩, ?_⟩
          have hlen := hV.length
          rw [e] at h1
          rw [List.getD_eq_getElem?_getD, List.getD_eq_getElem?_getD, List.getElem?_eq_getElem hi,
            List.getElem?_eq_getElem (by split_ifs at hlen <;> omega)] at h1
          rw [List.getElem?_take, if_pos hi, List.getElem?_eq_getElem hi,
            List.getElem?_eq_getElem (by split_ifs at hlen <;> omega)]
          exact congrArg some h1
      · rw [List.getElem?_eq_none (by rw [List.Forall₂.length_eq f1]; omega), List.getElem?_eq_none (by omega)]

/-- **C70**, existence: the routine computes the ranges of the batches. -/
theorem C70_call {V : Type} (hp : ProperRed r p) (h : redCall r p (nbatch p + a) = some c) (hx : Runs c.f ex)
    (hB : BatchCall r p c ex sh batch m n data) (enc : ℝ → V) (dec : V → ℝ) (M : CMath) (junk : Expr → Nat → ℝ)
    (dimout rows : Nat) :
    ∃ P, rangeCall (ex.call enc dec M junk c.cat.toNat m n fun p q => enc (given data c.srcs p q)).ev ex.inputs
        c.cat.toNat (fun p q => enc (given data c.srcs p q)) (c.vars.map fun a => a.shape) m n dimout rows none = some P := by
  obtain ⟨ha, ls, t, u, hin⟩ := red_inside hp h
  obtain ⟨d, W, D, hto, hD⟩ := hin.termOf
  have hset := hto.batchSetting hin.leaves hx ha (List.length_pos_iff.2 hB.ne)
    (hin.vars sh batch m n hB.sized hB.shapes hB.weight hB.zero).2 hB.axes hB.attained hB.int32
    fun idx hidx => hD _ m n (hB.domain idx hidx)
  obtain ⟨_, _, hsum⟩ := C52_sum_batch hset .direct
  obtain ⟨P, hP, -⟩ := hsum realMath realMath_exact (fun _ _ => 0) dimout rows
  have hc' : c.cat.toNat = axis2cat a := by simp [hin.cat]
  rw [hc']
  unfold rangeCall at hP ⊢
  dsimp only at hP ⊢
  split at hP
  · exact ⟨_, rfl⟩
  · cases hP

/-- **C70**, sums: for each batch, `p.sum(axis)` is `Σ_j p(i, j)`, where `p` is evaluated on the blocks of the arrays. -/
theorem C70_sum (hp : ProperRed .sum p) (h : redCall .sum p (nbatch p + a) = some c) (hx : Runs c.f ex)
    (hB : BatchCall .sum p c ex sh batch m n data) (sch : SumScheme) :
    ∃ S, getScheme (sumRed (V := ℝ) ex.dim) sch = some S ∧
      ∀ M : CMath, M.Exact → ∀ (junk : Expr → Nat → ℝ) (dimout rows : Nat),
      ∃ P, rangeCall (ex.call id id M junk c.cat.toNat m n (given data c.srcs)).ev ex.inputs c.cat.toNat
          (given data c.srcs) (c.vars.map fun a => a.shape) m n dimout rows none = some P ∧
        ∀ out out', RExec (sumRed ex.dim) S P out out' →
        ∀ idx : Nat → Nat, (∀ b < batch.length, idx b < batch.getD b 0) → ∀ i < rowsOut a m n, ∀ k < p.dim,
          out' ((ravel batch.length (fun b => batch.getD b 0) idx * rowsOut a m n + i) * p.dim + k) =
            ∑ j ∈ Finset.range (rowsRed a m n), p.along (batchOf batch.length sh idx data) a i j k := by
  obtain ⟨ha, ls, t, u, hin⟩ := red_inside hp h
  have hbu := hin.built
  simp only [finish, Option.some.injEq, Prod.mk.injEq] at hbu
  obtain ⟨S, hS, hsum⟩ := C52_rows_sum (t := c.f) (e := ex) sch
  refine ⟨S, hS, fun M hM junk dimout rows => ?_⟩
  obtain ⟨P, hP⟩ := C70_call hp h hx hB id id M junk dimout rows
  refine ⟨P, hP, fun out out' he idx hidx i hi k hk => ?_⟩
  obtain ⟨hdim, hrow⟩ := row_plain hin ha hbu.2.symm hx (hB.domain idx hidx)
  obtain ⟨env, hro, hv⟩ := hrow (OutRow.batch hB hM hP he hidx hi)
  have h1 := hsum _ _ _ hro k (hdim ▸ hk)
  rw [Mem.shift_apply] at h1
  have h2 : (sumRed (V := ℝ) ex.dim).dim = p.dim := by simp only [sumRed, hro.dim.1, hdim]
  rw [h2] at h1
  rw [h1, list_sum_range]
  exact Finset.sum_congr rfl fun j hj => by rw [hv j (by simpa using hj)]

end

/-! ## The hypotheses can be met -/

/-- `((x_i - y_j)**2).sum(-1)`, with 4 batches of 5 points `x` and 7 points `y` of dimension 3 for all the batches. -/
def exBatch : PyE :=
  .m1 .sum (.op .pow (.op .sub (.lazy 1000 0 [4, 5, 1, 3] none) (.lazy 1001 1 [1, 7, 3] none)) (.int 2))

/-- The shapes of the arrays. -/
def exBatchSh (src : Nat) : List Nat := if src = 0 then [4, 5, 1, 3] else [1, 7, 3]

theorem exBatch_proper : ProperRed .sum exBatch where
  self :=
    { pos := by simp [exBatch, PyE.Pos]
      zero := by simp [exBatch, PyE.NoZero]
      args := by simp [exBatch, PyE.LazyArgs]
      fresh := by simp [exBatch, Fresh]
      ids := ids_of (by decide +kernel) }
  weight := fun w h => by cases h
  ids := fun w e e' L W h => by cases h

/-- The routine of `exBatch.sum(axis=2)`. -/
def exBatchC : RedCall :=
  ⟨.sum, .un .sum (.un .square (.bin .sub (.var 0 3 0) (.var 1 3 1))), 0,
    [⟨1000, 0, [4, 5, 3], false, 0⟩, ⟨1001, 1, [1, 7, 3], false, 1⟩], 1⟩

theorem exBatch_call : redCall .sum exBatch 2 = some exBatchC := by decide +kernel

theorem exBatch_nb : nbatch exBatch = 1 := by decide +kernel

/-- The formula that is run. -/
def exBatchE : Expr := .un .sum (.un .square (.bin .sub (.var 0 3 0) (.var 1 3 1)))

theorem exBatch_runs : Runs exBatchC.f exBatchE := ⟨20, exBatchE, by decide +kernel, .inl rfl⟩

theorem exBatch_batch (data : Data) : BatchCall .sum exBatch exBatchC exBatchE exBatchSh [4] 5 7 data where
  ne := by simp
  sized := by
    obtain ⟨e, he⟩ : ∃ e, run exBatch = some (.lazy e) := ⟨_, rfl⟩
    obtain ⟨L, hL⟩ : ∃ L, eval e = some L := by
      cases he
      exact ⟨_, rfl⟩
    have h : ((run exBatch).bind fun v => match v with | .lazy e => eval e | _ => none).map
        (fun L => (L.batchdims, L.ni, L.nj)) = some (some [4], some 5, some 7) := by decide +kernel
    rw [he] at h
    simp only [Option.bind_some, hL, Option.map_some, Option.some.injEq, Prod.mk.injEq] at h
    obtain ⟨h1, h2, h3⟩ := h
    refine ⟨e, L, none, L, he, hL, rfl, rfl, by rw [h1]; rfl, fun x hx => ?_, fun x hx => ?_⟩
    · rw [h2] at hx
      exact (Option.some.inj hx).symm
    · rw [h3] at hx
      exact (Option.some.inj hx).symm
  shapes := by simp [exBatch, PyE.Shapes, exBatchSh]
  weight := fun w h => by cases h
  zero := fun src => by unfold exBatchSh; split_ifs <;> simp
  int32 := by simp [exBatchC]
  axes := ⟨⟨0, 3, 0⟩, by decide +kernel, by decide⟩
  attained := fun b hb => by
    obtain rfl : b = 0 := by simpa using hb
    exact .inr ⟨⟨0, 3, 0⟩, by decide +kernel, rfl⟩
  domain := fun idx _ =>
    { holds := by simp [exBatch, PyE.Holds]
      defined := fun i _ j _ => by simp [exBatch, PyE.Def, PyM1.Def, PyOp.Def]
      weight := fun w h => by cases h }

/-- Sums of squared distances between the points of each batch and the same points `y`. The output has the shape
`(4, 5, 1)`, and there are executions. -/
example (data : Data) (out : Mem ℝ) :
    shapeOutPy (exBatchC.vars.map fun x => x.shape) 1 5 1 = [4, 5, 1] ∧
    ∃ P, rangeCall (exBatchE.call id id realMath (fun _ _ => 0) 0 5 7 (given data [0, 1])).ev exBatchE.inputs 0
        (given data [0, 1]) [[4, 5, 3], [1, 7, 3]] 5 7 1 20 none = some P ∧
      (∃ out', RExec (sumRed 1) (directScheme (sumRed 1)) P out out') ∧
      ∀ out', RExec (sumRed 1) (directScheme (sumRed 1)) P out out' → ∀ b < 4, ∀ i < 5,
        out' (b * 5 + i) = ∑ j ∈ Finset.range 7, ∑ k ∈ Finset.range 3,
          (data 0 (b * 15 + (i * 3 + k)) - data 1 (j * 3 + k)) ^ 2 := by
  have hb := exBatch_batch data
  refine ⟨(C70_shape (a := 1) exBatch_proper (exBatch_nb ▸ exBatch_call) exBatch_runs hb 5 1).2, ?_⟩
  obtain ⟨S, hS, h⟩ := C70_sum (a := 1) exBatch_proper (exBatch_nb ▸ exBatch_call) exBatch_runs hb .direct
  cases hS
  obtain ⟨P, hP, h1⟩ := h realMath realMath_exact (fun _ _ => 0) 1 20
  refine ⟨P, hP, rexec_exists_gpu _ _ _ out, fun out' he b hb i hi => ?_⟩
  have := h1 out out' he (fun _ => b) (fun c hc => by
    obtain rfl : c = 0 := by simpa using hc
    exact hb) i hi 0 (by decide)
  have hd : exBatch.dim = 1 := rfl
  have hr : ravel [4].length (fun b => [4].getD b 0) (fun _ => b) = b := by
    show ravel 1 _ _ = b
    simp [ravel]
  simp only [hd, hr, rowsOut, rowsRed, PyE.along, Nat.add_zero, Nat.mul_one, one_ne_zero, if_false] at this
  rw [this]
  refine Finset.sum_congr rfl fun j _ => ?_
  simp [exBatch, PyE.val, PyOp.val, PyM1.val, PyE.dim, Spec.readVec, Spec.arrayCat, Spec.rowIJ, Spec.cst, PyOp.dim,
    zpow_ofNat, batchOf, Spec.blockNumber, Spec.blockSize, exBatchSh, Spec.arrayBatch, ravel, Spec.bcast]

/-! ## Batch dimensions that disappear -/

/-- `((x - x) + (z_i - y_j))`, where only `x` has a batch dimension. -/
def lostBatch : PyE :=
  .op .add (.op .sub (.lazy 1000 0 [3, 2, 1, 1] none) (.lazy 1000 0 [3, 2, 1, 1] none))
    (.op .sub (.lazy 1001 1 [2, 1, 1] none) (.lazy 1002 2 [1, 4, 1] none))

/-- The routine of `lostBatch.sum(axis=2)`. -/
def lostBatchC : RedCall :=
  ⟨.sum, .bin .add (.bin .sub (.var 0 1 0) (.var 0 1 0)) (.bin .sub (.var 1 1 0) (.var 2 1 1)), 0,
    [⟨1000, 0, [3, 2, 1], false, 0⟩, ⟨1001, 1, [1, 2, 1], false, 0⟩, ⟨1002, 2, [1, 4, 1], false, 1⟩], 1⟩

/-- The formula that is run: `x` has disappeared. -/
def lostBatchE : Expr := .bin .sub (.var 1 1 0) (.var 2 1 1)

/-- Not **C70**, if a variable that disappears when the formula is simplified has a batch dimension of its own:
the output of `((x - x) + (z_i - y_j)).sum(axis=2)` has the shape `(3, 2, 1)`, but the GPU writes the first batch only; the
other ones keep what was in the memory. -/
theorem not_C70_lost (data : Data) (M : CMath) (junk : Expr → Nat → ℝ) :
    nbatch lostBatch = 1 ∧ redCall .sum lostBatch 2 = some lostBatchC ∧ Runs lostBatchC.f lostBatchE ∧
    shapeOutPy (lostBatchC.vars.map fun x => x.shape) 1 2 1 = [3, 2, 1] ∧
    ∃ P, rangeCall (lostBatchE.call id id M junk 0 2 4 (given data lostBatchC.srcs)).ev lostBatchE.inputs 0
        (given data lostBatchC.srcs) (lostBatchC.vars.map fun x => x.shape) 2 4 1 6 none = some P ∧
      ∀ S B, 0 < B → ∀ ord junk sched out i, 2 ≤ i → gpuRanges (sumRed 1) S P B ord junk sched out i = out i := by
  refine ⟨by decide +kernel, by decide +kernel, ⟨20, lostBatchE, by decide +kernel, .inl rfl⟩, by decide +kernel, _, rfl, ?_⟩
  intro S B hB ord junk sched out i hi
  have hi' : i = i * (sumRed (V := ℝ) 1).dim + 0 := by simp [sumRed]
  rw [hi']
  refine C17_uncovered_gpu _ (sumRed_finLocal _) S _ hB ord junk sched out i ?_ 0 (by simp [sumRed])
  intro r hr h
  have h1 : r < 1 := hr
  have h2 : r = 0 := by omega
  subst h2
  have h3 : i < (0 + 1) * 2 := h.2
  omega

end Verif.Lazy
