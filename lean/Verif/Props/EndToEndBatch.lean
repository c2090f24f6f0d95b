import Verif.Props.EndToEnd

/-!
# C52 with batch dimensions
-/

namespace Verif

open Finset Spec

/-- In `env`, the variables of `t` are the rows `i` and `j` of the blocks of the arrays at the batch index `idx`:
each array has its own batch dimensions, along which indices are broadcast. -/
def Term.ReadsBatch (t : Term) (tagI : Nat) (shape : Nat → List Nat) (nb m n : Nat) (args : Nat → Nat → ℝ)
    (idx : Nat → Nat) (i j : Nat) (env : Env) : Prop :=
  ∀ v ∈ t.vars, ∀ k < v.2.1,
    let dims := fun b => (shape v.1.toNat).getD b 0
    env v.1 k = args v.1.toNat
      ((ravel nb dims (bcast dims idx) * blockRows m n v.2.2.toNat + row tagI i j v.2.2.toNat) * v.2.1 + k)

/-- A call with batch dimensions: an expression, the formula that is run for it, arrays of shapes `shape`, with `nb`
batch dimensions.  `env idx i j` are the values of the variables at the batch index `idx` and at `(i, j)`. -/
structure BatchSetting (t : Term) (e : Expr) (tagI nb : Nat) (full : Nat → Nat) (shape : List (List Nat)) (m n : Nat)
    (args : Nat → Nat → ℝ) (env : (Nat → Nat) → Nat → Nat → Env) : Prop where
  pos : t.Pos
  inputs : t.Inputs
  runs : Runs t e
  tag : tagI < 2
  batch : 0 < nb
  axes : ∃ v ∈ e.inputs, v.cat < 2
  shapes : BatchShapes e.inputs (fun a => shape.getD a []) nb full m n
  int32 : ∀ v ∈ e.inputs, batchCount nb (fun b => (shape.getD v.ind []).getD b 0) * blockRows m n v.cat < 2 ^ 31
  reads : ∀ idx : Nat → Nat, (∀ b < nb, idx b < full b) → ∀ i < outRows tagI m n, ∀ j < redRows tagI m n,
    t.ReadsBatch tagI (fun a => shape.getD a []) nb m n args idx i j (env idx i j)
  defined : ∀ idx : Nat → Nat, (∀ b < nb, idx b < full b) → ∀ i < outRows tagI m n, ∀ j < redRows tagI m n,
    t.Def (env idx i j)

section

variable {V : Type} {enc : ℝ → V} {dec : V → ℝ} {M : CMath} {t : Term} {e : Expr} {tagI nb m n : Nat}
  {full : Nat → Nat} {shape : List (List Nat)} {args : Nat → Nat → ℝ} {env : (Nat → Nat) → Nat → Nat → Env}

/-- The arrays seen from the batch `idx`. -/
theorem batchArgs_var {vars : List VarInfo} (hw : WfVars vars) (shape : Nat → List Nat) (nb m n : Nat)
    (idx : Nat → Nat) (args : Nat → Mem V) {v : VarInfo} (hv : v ∈ vars) (p : Nat) :
    batchArgs vars shape nb m n idx args v.ind p = args v.ind
      (ravel nb (fun b => (shape v.ind).getD b 0) (bcast (fun b => (shape v.ind).getD b 0) idx) *
        blockRows m n v.cat * v.dim + p) := by
  unfold batchArgs
  simp only [find_ind hw.nodup hv, Mem.shift_apply, Nat.mul_assoc]

/-- The call is well formed, and the formula has the values of the expression. -/
theorem BatchSetting.call (h : BatchSetting t e tagI nb full shape m n args env) (hM : M.Exact)
    (hdec : ∀ x, dec (enc x) = x) (junk : Expr → Nat → ℝ) :
    WfProblem (e.call enc dec M junk tagI m n fun p q => enc (args p q)) ∧ e.dim = t.dim ∧ 0 < t.dim ∧
    ∀ idx : Nat → Nat, (∀ b < nb, idx b < full b) → ∀ i < outRows tagI m n, ∀ j < redRows tagI m n, ∀ k < t.dim,
      (e.call enc dec M junk tagI m n fun p q => enc (args p q)).ev (Spec.env e.inputs tagI
        (batchArgs e.inputs (fun a => shape.getD a []) nb m n idx fun p q => enc (args p q)) i j) k =
      enc (t.val (env idx i j) k) := by
  obtain ⟨q, e₀, h1, h2⟩ := h.runs
  obtain ⟨hrep, hgood, hn, hv⟩ := compiled_good h.pos h.inputs h1 h2
  refine ⟨call_wf hgood h.tag, hrep.dim, hrep.dim ▸ hrep.wf.pos, fun idx hidx i hi j hj k hk => ?_⟩
  obtain ⟨hd, hval⟩ := hrep.sem (env idx i j) (h.defined idx hidx i hi j hj)
  rw [← hval]
  refine call_value (m := m) (n := n) (enc := enc) (args := batchArgs e.inputs (fun a => shape.getD a []) nb m n idx
    fun p q => enc (args p q)) hM hgood hrep.wf hn (fun v hv' => ?_) hd (fun v hv' k hk => ?_) (hrep.dim.symm ▸ hk)
  · have := h.inputs.cat v (hv v hv')
    omega
  · have hm : (⟨v.1.toNat, v.2.1, v.2.2.toNat⟩ : VarInfo) ∈ e.inputs :=
      Expr.mem_inputs.mpr ⟨v, Expr.free_vars hv', h.inputs.cat v (hv v hv'), rfl⟩
    have := batchArgs_var (inputs_wf hgood) (fun a => shape.getD a []) nb m n idx (fun p q => enc (args p q)) hm
      (row tagI i j v.2.2.toNat * v.2.1 + k)
    dsimp only at this
    rw [this, hdec]
    have := h.reads idx hidx i hi j hj v (hv v hv') k hk
    rw [this]
    congr 1
    rw [Nat.add_mul, Nat.add_assoc]

end

/-- **C52**, sums with batch dimensions: for each batch index, `out[idx, i] = Σ_j t(x[idx, i], y[idx, j])`, where
arrays are broadcast along the batch dimensions equal to 1. -/
theorem C52_sum_batch {t : Term} {e : Expr} {tagI nb m n : Nat} {full : Nat → Nat} {shape : List (List Nat)}
    {args : Nat → Nat → ℝ} {env : (Nat → Nat) → Nat → Nat → Env}
    (h : BatchSetting t e tagI nb full shape m n args env) (sch : SumScheme) :
    ∃ S, getScheme (sumRed (V := ℝ) e.dim) sch = some S ∧
      ∀ M : CMath, M.Exact → ∀ (junk : Expr → Nat → ℝ) (dimout rows : Nat),
      ∃ P, rangeCall (e.call id id M junk tagI m n args).ev e.inputs tagI args shape m n dimout rows none = some P ∧
        ∀ out out', RExec (sumRed e.dim) S P out out' →
        ∀ idx : Nat → Nat, (∀ b < nb, idx b < full b) → ∀ i < outRows tagI m n, ∀ k < t.dim,
          out' ((ravel nb full idx * outRows tagI m n + i) * t.dim + k) =
            ∑ j ∈ range (redRows tagI m n), t.val (env idx i j) k := by
  obtain ⟨S, hS, hsum⟩ := C18_sum_partial ℝ e.dim sch
  refine ⟨S, hS, fun M hM junk dimout rows => ?_⟩
  obtain ⟨hwf, hdim, -, hF⟩ := h.call (enc := id) (dec := id) hM (fun _ => rfl) junk
  obtain ⟨P, hP, h1⟩ := hsum _ _ tagI args shape nb full m n dimout rows hwf.vars hwf.tag hwf.ev h.axes h.batch
    h.shapes h.int32
  refine ⟨P, hP, fun out out' he idx hidx i hi k hk => ?_⟩
  have := h1 out out' he idx hidx i hi k (hdim.symm ▸ hk)
  rw [hdim] at this
  rw [this]
  exact Finset.sum_congr rfl fun j hj => hF idx hidx i hi j (Finset.mem_range.mp hj) k hk

/-! ## The hypotheses can be met -/

/-- Points `x` of shape `(3, 1, m, 3)`, points `y` of shape `(1, 2, n, 3)` and signals `b` of shape `(3, 2, n, 2)`. -/
def gaussShapes (m n : Nat) : List (List Nat) := [[3, 1, m, 3], [1, 2, n, 3], [3, 2, n, 2]]

/-- The values of the variables of `gauss` for these shapes. -/
def gaussBatchEnv (m n : Nat) (args : Nat → Nat → ℝ) (idx : Nat → Nat) (i j : Nat) : Env := fun v k =>
  if v = 0 then args 0 ((idx 0 * m + i) * 3 + k)
  else if v = 1 then args 1 ((idx 1 * n + j) * 3 + k)
  else args 2 (((idx 0 * 2 + idx 1) * n + j) * 2 + k)

theorem gauss_inputs_eq : gaussE.inputs = [⟨0, 3, 0⟩, ⟨1, 3, 1⟩, ⟨2, 2, 1⟩] := by decide +kernel

theorem gauss_batch (m n : Nat) (hm : m < 2 ^ 28) (hn : n < 2 ^ 28) (args : Nat → Nat → ℝ) :
    BatchSetting gauss gaussE 0 2 (fun b => [3, 2].getD b 0) (gaussShapes m n) m n args (gaussBatchEnv m n args) where
  pos := gauss_pos
  inputs := gauss_inputs
  runs := gauss_runs
  tag := by omega
  batch := by omega
  axes := ⟨⟨0, 3, 0⟩, by rw [gauss_inputs_eq]; simp, by decide⟩
  shapes := by
    rw [gauss_inputs_eq]
    have hb : ∀ b : Nat, b < 2 ↔ b = 0 ∨ b = 1 := by omega
    refine ⟨?_, ?_, ?_, ?_⟩
    · simp [gaussShapes]
    · intro v hv b hb'
      simp only [List.mem_cons, List.not_mem_nil, or_false] at hv
      rcases hv with rfl | rfl | rfl <;> rcases (hb b).mp hb' with rfl | rfl <;> simp [gaussShapes]
    · intro v hv _
      simp only [List.mem_cons, List.not_mem_nil, or_false] at hv
      rcases hv with rfl | rfl | rfl <;> simp [gaussShapes, blockRows]
    · intro b hb'
      refine .inr ⟨⟨2, 2, 1⟩, by simp, ?_⟩
      rcases (hb b).mp hb' with rfl | rfl <;> simp [gaussShapes]
  int32 := by
    rw [gauss_inputs_eq]
    intro v hv
    simp only [List.mem_cons, List.not_mem_nil, or_false] at hv
    rcases hv with rfl | rfl | rfl <;> simp [gaussShapes, blockRows, batchCount, List.range_succ] <;> omega
  reads idx hidx i _ j _ := by
    intro v hv k hk
    simp only [Term.vars, List.cons_append, List.nil_append, List.mem_cons, List.not_mem_nil, or_false] at hv
    rcases hv with rfl | rfl | rfl <;> simp [gaussBatchEnv, gaussShapes, row, ravel, bcast, blockRows]
  defined _ _ i _ j _ := gauss_def _

/-- A batch of Gaussian convolutions, on both backends: there are executions, and they all give
`Σ_j exp(-|x[a,i] - y[b,j]|²) b[a,b,j]` at the batch index `(a, b)`. -/
example (m n : Nat) (hm : m < 2 ^ 28) (hn : n < 2 ^ 28) (args : Nat → Nat → ℝ) (out : Mem ℝ) :
    ∃ P, rangeCall (gaussE.call id id realMath (fun _ _ => 0) 0 m n args).ev gaussE.inputs 0 args (gaussShapes m n) m n 2
        (6 * m) none = some P ∧
      (∃ out', RExec (sumRed 2) (directScheme (sumRed 2)) P out out') ∧
      ∀ out', RExec (sumRed 2) (directScheme (sumRed 2)) P out out' → ∀ a < 3, ∀ b < 2, ∀ i < m, ∀ k < 2,
        out' (((a * 2 + b) * m + i) * 2 + k) = ∑ j ∈ range n,
          Real.exp (-∑ c ∈ range 3, (args 0 ((a * m + i) * 3 + c) - args 1 ((b * n + j) * 3 + c)) ^ 2) *
            args 2 (((a * 2 + b) * n + j) * 2 + k) := by
  obtain ⟨S, hS, h⟩ := C52_sum_batch (gauss_batch m n hm hn args) .direct
  cases hS
  obtain ⟨P, hP, h1⟩ := h realMath realMath_exact (fun _ _ => 0) 2 (6 * m)
  refine ⟨P, hP, rexec_exists_gpu _ _ _ out, fun out' he a ha b hb i hi k hk => ?_⟩
  have h2 : gauss.dim = 2 := by decide
  have := h1 out out' he (fun c => [a, b].getD c 0) (fun c hc => by
    have : c = 0 ∨ c = 1 := by omega
    rcases this with rfl | rfl
    · exact ha
    · exact hb) i hi k (h2.symm ▸ hk)
  rw [h2] at this
  simp only [ravel, outRows, redRows] at this
  simp at this
  rw [this]
  refine Finset.sum_congr rfl fun j _ => ?_
  simp [Term.val, binVal, unVal, sqn, Term.dim, cst, gaussBatchEnv]

end Verif
