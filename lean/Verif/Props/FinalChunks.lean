import Verif.Props.Chunks
import Verif.Spec.FinalChunks
import Verif.Proofs.FinalChunks

/-!
# C22: sums of scalar times vector, on the GPU; C56: the choice of the GPU kernel
-/

namespace Verif

open Finset Spec

section

variable {t : Term} {e : Expr} {tagI m n : Nat} {args : Nat → Nat → ℝ} {env : Nat → Nat → Env}

/-- **C22.**  `Σ_j F(x_i, y_j) b_j` with `b` of dimension larger than 146: all the executions of the kernel for this
case, for all block sizes, schedules and contents of the uninitialised memory, write every component of every row
with the right value, and nothing else.

Partial: `e.FinalSafe` requires that `b` comes after the other variables indexed by `j`; the property fails otherwise
(`not_C22_offset`). -/
theorem C22_sum_partial (h : Setting t e tagI m n args env) (hf : e.FactFree) {flag : Bool}
    (hmode : finalMode flag e.dim = true) (hsafe : e.FinalSafe tagI) {M : CMath} (hM : M.Exact)
    (junk : Expr → Nat → ℝ) (out : Mem ℝ) :
    (∃ out', ExecFinal M junk e tagI m n args out out') ∧
    ∀ out', ExecFinal M junk e tagI m n args out out' →
      (∀ i < outRows tagI m n, ∀ k < t.dim,
        out' (i * t.dim + k) = ∑ j ∈ range (redRows tagI m n), t.val (env i j) k) ∧
      ∀ p, outRows tagI m n * t.dim ≤ p → out' p = out p := by
  obtain ⟨q, e₀, h1, h2⟩ := h.runs
  obtain ⟨hrep, -, -, hv⟩ := compiled_good h.pos h.inputs h1 h2
  rw [hf.vars_free] at hv
  have hin : e.InputVars := ⟨fun v hm => h.inputs.pos v (hv v hm), fun v hm => h.inputs.cat v (hv v hm),
    fun u hu v hm => h.inputs.unique u (hv u hu) v (hv v hm)⟩
  obtain ⟨F, p, d, he, hF, hlast⟩ := hsafe
  have ht := h.tag
  have hbig : 146 < e.dim := by
    simp only [finalMode, Bool.and_eq_true, decide_eq_true_eq] at hmode
    exact hmode.2
  have hdim : e.dim = d := by
    rcases he with rfl | rfl <;> simp only [Expr.dim, Bin.dim, hF] at hbig ⊢ <;> omega
  have hd1 : d ≠ 1 := by omega
  have hparts : finalParts e = some (F, toInfo (p, d, 1 - (tagI : Int))) := by
    rcases he with rfl | rfl
    · simp [finalParts, hF]
    · simp [finalParts, hF, Expr.dim, hd1]
  have hmem : ∀ v, v ∈ e.vars ↔ v ∈ F.vars ∨ v = (p, d, 1 - (tagI : Int)) := by
    intro v
    rcases he with rfl | rfl <;> simp [Expr.vars, or_comm]
  have hw : F.WF := by
    rcases he with rfl | rfl
    · exact hrep.wf.1
    · exact hrep.wf.2.1
  have hff : F.FactFree := by
    rcases he with rfl | rfl
    · exact hf.1
    · exact hf.2
  have hdef : ∀ i < outRows tagI m n, ∀ j < redRows tagI m n, F.Def (env i j) := by
    intro i hi j hj
    have := (hrep.sem _ (h.defined i hi j hj)).1
    rcases he with rfl | rfl
    · exact this.1
    · exact this.2.1
  have hreads : ∀ i < outRows tagI m n, ∀ j < redRows tagI m n, EnvReads id e tagI args i j (env i j) :=
    fun i hi j hj v hm k hk => h.reads i hi j hj v (hv v hm) k hk
  refine ⟨⟨_, .mk F _ hparts 192 (by omega) (fun _ _ _ => List.range 192) (fun _ _ _ => .refl _)
    (fun _ _ => fun _ => 0) (fun _ _ _ => fun _ => 0) _ (.refl _)⟩, fun out' hx => ?_⟩
  obtain ⟨r1, r2⟩ := final_exec hparts hin hmem hlast hw hff hF (by omega) ht hM hdef
    (fun i hi j hj v hm => hreads i hi j hj v ((hmem v).mpr (.inl hm))) hx
  rw [← hrep.dim, hdim]
  refine ⟨fun i hi k hk => (r1 i hi k hk).trans (sum_congr rfl fun j hj => ?_), r2⟩
  have hj := Finset.mem_range.mp hj
  rw [← (hrep.sem _ (h.defined i hi j hj)).2]
  have hb := hreads i hi j hj (p, d, 1 - (tagI : Int)) ((hmem _).mpr (.inr rfl)) k hk
  have hrow : row tagI i j (1 - (tagI : Int)).toNat = j := by
    unfold row
    rw [if_neg (show ¬(1 - (tagI : Int)).toNat = 2 by omega), if_neg (show ¬(1 - (tagI : Int)).toNat = tagI by omega)]
  simp only [hrow, id] at hb
  have hc := Expr.val_const hw hF (env i j) 0 k
  rcases he with rfl | rfl
  · simp only [Expr.val, binVal, cst, hd1, if_false]
    rw [hb, hc, mul_comm]
  · simp only [Expr.val, binVal, cst, hd1, if_false]
    rw [hb, hc]

end

/-! ## The hypotheses can be met -/

/-- `Exp(-|x - y|^2) * b`, with points of dimension 3 and `b` of dimension 200. -/
abbrev bigB : Term :=
  .bin .mul (.un .exp (.un .minus (.sqDist (.var 0 3 0) (.var 1 3 1)))) (.var 2 200 1)

abbrev bigBE : Expr :=
  .bin .mul (.un .exp (.un .minus (.un .sum (.un .square (.bin .sub (.var 0 3 0) (.var 1 3 1)))))) (.var 2 200 1)

/-- The values of the variables of `bigB` at `(i, j)`. -/
def bigBEnv (args : Nat → Nat → ℝ) (i j : Nat) : Env := fun v k =>
  if v = 0 then args 0 (i * 3 + k) else if v = 1 then args 1 (j * 3 + k) else args 2 (j * 200 + k)

theorem bigB_setting (m n : Nat) (args : Nat → Nat → ℝ) : Setting bigB bigBE 0 m n args (bigBEnv args) where
  pos := by simp [Term.Pos, Un.dim]
  inputs := ⟨by simp [Term.vars], by simp [Term.vars], by simp [Term.vars]⟩
  runs := ⟨20, bigBE, by decide +kernel, .inl rfl⟩
  tag := by omega
  reads i _ j _ := by
    intro v hv k hk
    simp only [Term.vars, List.cons_append, List.nil_append, List.mem_cons, List.not_mem_nil, or_false] at hv
    rcases hv with rfl | rfl | rfl <;> simp [bigBEnv, row]
  defined i _ j _ := by simp [Term.Def, unDef, binDef]

theorem bigB_safe : bigBE.FinalSafe 0 :=
  ⟨_, 2, 200, .inl rfl, by decide, .inr (by simp [Expr.vars])⟩

/-- A Gaussian convolution with weights of dimension 200. -/
example (m n : Nat) (args : Nat → Nat → ℝ) (out : Mem ℝ) :
    finalMode (torchFlag (.position 2)) bigBE.dim = true ∧
    (∃ out', ExecFinal realMath (fun _ _ => 0) bigBE 0 m n args out out') ∧
    ∀ out', ExecFinal realMath (fun _ _ => 0) bigBE 0 m n args out out' →
      ∀ i < m, ∀ k < 200, out' (i * 200 + k) = ∑ j ∈ range n,
        Real.exp (-∑ c ∈ range 3, (args 0 (i * 3 + c) - args 1 (j * 3 + c)) ^ 2) * args 2 (j * 200 + k) := by
  have hmode : finalMode (torchFlag (.position 2)) bigBE.dim = true := by decide
  obtain ⟨h1, h2⟩ := C22_sum_partial (bigB_setting m n args) (by simp [Expr.FactFree]) hmode bigB_safe realMath_exact
    (fun _ _ => 0) out
  refine ⟨hmode, h1, fun out' he i hi k hk => ?_⟩
  have hd : bigB.dim = 200 := by decide
  have := (h2 out' he).1 i hi k (hd.symm ▸ hk)
  rw [hd] at this
  rw [this]
  refine Finset.sum_congr rfl fun j _ => ?_
  simp [Term.val, binVal, unVal, sqn, Term.dim, cst, bigBEnv]

/-! ## A formula for which C22 fails -/

/-- `y * b`, with `b` at position 0 and the number `y` at position 1, both indexed by `j`. -/
abbrev firstB : Term := .bin .mul (.var 1 1 1) (.var 0 200 1)

abbrev firstBE : Expr := .bin .mul (.var 1 1 1) (.var 0 200 1)

theorem ones_setting {t : Term} {e : Expr} (hp : t.Pos) (hin : t.Inputs) (hr : Runs t e)
    (hd : ∀ env, t.Def env) : Setting t e 0 1 1 (fun _ _ => 1) (fun _ _ => fun _ _ => 1) :=
  ⟨hp, hin, hr, by omega, fun _ _ _ _ _ _ _ _ => rfl, fun _ _ _ _ => hd _⟩

theorem firstB_setting : Setting firstB firstBE 0 1 1 (fun _ _ => 1) (fun _ _ => fun _ _ => 1) :=
  ones_setting (by simp [Term.Pos]) ⟨by simp [Term.vars], by simp [Term.vars], by simp [Term.vars]⟩
    ⟨20, firstBE, by decide +kernel, .inl rfl⟩ (by simp [Term.Def, binDef])

/-- A launch for one row. -/
theorem launch_one {B d : Nat} (hB : 0 < B) {g : Nat × Nat → Mem ℝ → Mem ℝ} {sched : List (Nat × Nat)}
    (hmem : (0, 0) ∈ sched) {r : ℝ} (hg : ∀ o, g (0, 0) o 0 = r) (out : Mem ℝ) :
    sched.foldl (fun out bt => if bt.1 * B + bt.2 < 1 then onSlice ((bt.1 * B + bt.2) * d) (g bt) out else out) out 0 =
      r := by
  induction sched using List.reverseRecOn generalizing out with
  | nil => simp at hmem
  | append_singleton l a ih =>
    rw [List.foldl_append]
    simp only [List.foldl_cons, List.foldl_nil]
    split
    · next hi =>
      have h0 : a.1 * B + a.2 = 0 := by omega
      have h1 : a.1 = 0 := by
        rcases Nat.eq_zero_or_pos a.1 with h | h
        · exact h
        · have := Nat.mul_pos h hB
          omega
      have ha : a = (0, 0) := Prod.ext h1 (by simp only; omega)
      rw [h0, Nat.zero_mul, onSlice_apply, if_pos le_rfl, ha]
      exact hg _
    · next hi =>
      refine ih ?_ out
      rcases List.mem_append.mp hmem with h | h
      · exact h
      · rw [List.mem_singleton] at h
        subst h
        simp at hi

theorem firstB_thread {M : CMath} (hM : M.Exact) (junk : Expr → Nat → ℝ) {B : Nat} (hB : 0 < B)
    {ord : Nat → Nat → List Nat} (hord : ∀ tile ph, (ord tile ph).Perm (List.range B)) (r : ℝ)
    (acc : Nat → Nat → Mem ℝ) (out : Mem ℝ) :
    finalThread ⟨firstBE, .var 1 1 1, toInfo (0, 200, 1), 0, M, junk, fun _ _ => 1, B, 1⟩ ord (fun _ _ => r) acc 0 out 0
      = r := by
  unfold finalThread finalTiles
  rw [if_pos (by simp)]
  unfold finalTiles
  have h0 : firstBE.inputs = [⟨0, 200, 1⟩, ⟨1, 1, 1⟩] := by decide +kernel
  have h1 : (Expr.var 1 1 1).inputs = [⟨1, 1, 1⟩] := by decide +kernel
  have h2 : firstBE.nminargs = 2 := by decide +kernel
  let K : FinalCall := ⟨firstBE, .var 1 1 1, toInfo (0, 200, 1), 0, M, junk, fun _ _ => 1, B, 1⟩
  have hvars : K.vars (1 - K.tagI) = [⟨1, 1, 1⟩] := by
    show varsOf (Expr.var 1 1 1).inputs 1 = _
    rw [h1]; rfl
  have key := finalTile_code (K := K) (xi := loadVars (K.vars K.tagI) K.args 0 fun _ => r)
    (pp := loadVars (K.vars 2) K.args 0 fun _ => r) (g := fun _ => r)
    (show 0 < 200 by omega) (ord := ord 0) (hord 0) (acc 0) 0
    ⟨fun _ => r, fun _ => r, forRange K.b.dim (fun k out => out.set k 0) out⟩ ?_ 0
  · rw [Nat.zero_mul] at key
    refine key.trans ?_
    have hb : 0 < K.b.dim := show 0 < 200 by omega
    have hz := forRange_set K.b.dim (fun _ _ => (0 : ℝ)) out 0
    have hbr : ∀ j p, K.brow j p = 1 := fun _ _ => rfl
    have hmin : min K.B (K.ny - 0) = 1 := show min B (1 - 0) = 1 by omega
    simp only [Nat.mul_one] at hz
    dsimp only
    rw [if_pos hb, hz, if_pos hb, hmin]
    simp [hbr]
  · intro t ht
    have ht0 : t = 0 := by
      have : t < min B (1 - 0 * B) := ht
      omega
    subst ht0
    rw [hvars]
    generalize hy : List.foldl _ _ _ = yj
    have hyj : yj 200 = r := by
      rw [← hy]
      refine List.foldlRecOn (motive := fun y : Mem ℝ => y 200 = r) (ord 0 0) _ rfl fun y h u _ => ?_
      split
      · next hu =>
        have : u = 0 := by
          have : 0 * B + u < 1 := hu
          omega
        subst this
        rw [onSlice_apply, if_pos (by simp), loadVars_out _ _ _ _ (by simp [sumDims])]
        simpa using h
      · exact h
    refine (runCode_ok (f := .var 1 1 1) hM (env := fun _ _ => r) (by simp [Expr.WF]) (by simp [Expr.FactFree]) (by simp [Expr.Def])
      ?_ 0).trans (by simp [vec, Expr.val, Expr.dim, cst])
    intro v hv
    simp only [Expr.free, List.mem_singleton] at hv
    subst hv
    refine ⟨by simp, ?_⟩
    show (chunkTable id firstBE.nminargs [(varsOf firstBE.inputs 0, _), (varsOf firstBE.inputs 1, _),
      (varsOf firstBE.inputs 2, _)])[1]? = _
    rw [h0, h2]
    show some (some [yj (0 * _ + (0 + 200 + 0))]) = _
    simp [hyj, vec]

/-- **C22 fails** when `b` comes before another variable indexed by `j`: the places of the variables in the shared
memory are those of the whole formula, but only the variables of the factor are loaded.  Here `y` is read 200 entries
after its place, in memory that is not initialised: for a sum that is 1, every value is the result of some
execution. -/
theorem not_C22_offset {M : CMath} (hM : M.Exact) (junk : Expr → Nat → ℝ) (out : Mem ℝ) :
    finalMode true firstBE.dim = true ∧ firstBE.FactFree ∧
    Setting firstB firstBE 0 1 1 (fun _ _ => 1) (fun _ _ => fun _ _ => 1) ∧
    ∑ _j ∈ range 1, firstB.val (fun _ _ => 1) 0 = 1 ∧
    ∀ r : ℝ, ∃ out', ExecFinal M junk firstBE 0 1 1 (fun _ _ => 1) out out' ∧ out' 0 = r := by
  refine ⟨by decide, by simp [Expr.FactFree], firstB_setting, by simp [Term.val, binVal, cst], fun r => ?_⟩
  have hparts : finalParts firstBE = some (.var 1 1 1, toInfo (0, 200, 1)) := by decide
  refine ⟨_, .mk _ _ hparts 192 (by omega) (fun _ _ _ => List.range 192) (fun _ _ _ => .refl _)
    (fun _ _ => fun _ => r) (fun _ _ _ => fun _ => 0) _ (.refl _), ?_⟩
  refine launch_one (B := 192) (by omega) (List.mem_product.mpr ⟨by decide, by decide⟩) (fun o => ?_) out
  exact firstB_thread hM junk (by omega) (fun _ _ => .refl _) r _ o

/-! ## C56: the choice of the kernel does not change the result -/

/-- **C56.**  With the one-dimensional GPU scheme, whichever of the three kernels is chosen, there is an execution and
all of them compute `out[i] = Σ_j t(x_i, y_j)` and write nothing else.

Partial: under the conditions on the formula for which the chosen kernel is right.  The property fails otherwise:
`not_C21_params` and `not_C22_offset` for the two special kernels, and below for their choice. -/
theorem C56_sum_partial {t : Term} {e : Expr} {tagI m n : Nat} {args : Nat → Nat → ℝ} {env : Nat → Nat → Env}
    (h : Setting t e tagI m n args env) (hf : e.FactFree) {flag chunks : Bool} {sch : SumScheme}
    (hfinal : finalMode flag e.dim = true → e.FinalSafe tagI ∧ sch = .block)
    (hchunks : (chunks && chunkMode e) = true → e.ChunkSafe) {M : CMath} (hM : M.Exact) (junk : Expr → Nat → ℝ)
    (out : Mem ℝ) :
    (∃ out', ExecGpuSum flag chunks sch M junk e tagI m n args out out') ∧
    ∀ out', ExecGpuSum flag chunks sch M junk e tagI m n args out out' →
      (∀ i < outRows tagI m n, ∀ k < t.dim,
        out' (i * t.dim + k) = ∑ j ∈ range (redRows tagI m n), t.val (env i j) k) ∧
      ∀ p, outRows tagI m n * t.dim ≤ p → out' p = out p := by
  obtain ⟨S, hS, hsum⟩ := C52_sum h sch
  refine ⟨?_, fun out' he => ?_⟩
  · rcases hfm : finalMode flag e.dim with - | -
    · rcases hcm : chunks && chunkMode e with - | -
      · obtain ⟨o, ho⟩ := exec_exists_gpu (sumRed e.dim) S (e.call id id M junk tagI m n args) out
        exact ⟨o, .simple o hfm hcm S hS ho⟩
      · have := (Bool.and_eq_true _ _ ▸ hcm : _ = true ∧ _ = true)
        obtain ⟨o, ho⟩ := chunks_exists id id (sumRed e.dim) S M junk this.2 tagI m n args out
        exact ⟨o, .chunks o hfm hcm S hS ho⟩
    · obtain ⟨h1, h2⟩ := hfinal hfm
      obtain ⟨o, ho⟩ := (C22_sum_partial h hf hfm h1 hM junk out).1
      exact ⟨o, .final o hfm h2 ho⟩
  · cases he with
    | final hfm hsch hx => exact (C22_sum_partial h hf hfm (hfinal hfm).1 hM junk out).2 out' hx
    | chunks hfm hcm S' hS' hx =>
      rw [hS] at hS'
      cases hS'
      have := (Bool.and_eq_true _ _ ▸ hcm : _ = true ∧ _ = true)
      exact hsum M hM junk out out'
        (C21_exec_partial (enc := id) (dec := id) h hf this.2 (hchunks hcm) (fun _ => rfl) _ S hM junk hx)
    | simple hfm hcm S' hS' hx =>
      rw [hS] at hS'
      cases hS'
      exact hsum M hM junk out out' hx

/-- A Gaussian convolution with weights of dimension 200, by the last kernel; one with points of dimension 200, by the
chunked kernel; and the same one with the simple kernel. -/
example (m n : Nat) (args : Nat → Nat → ℝ) (out : Mem ℝ) :
    (∃ out', ExecGpuSum (torchFlag (.position 2)) true .block realMath (fun _ _ => 0) bigBE 0 m n args out out') ∧
    (∃ out', ExecGpuSum (torchFlag .none) true .kahan realMath (fun _ _ => 0) wideE 0 m n args out out') ∧
    ∃ out', ExecGpuSum (torchFlag .none) false .kahan realMath (fun _ _ => 0) wideE 0 m n args out out' :=
  ⟨(C56_sum_partial (bigB_setting m n args) (by simp [Expr.FactFree]) (fun _ => ⟨bigB_safe, rfl⟩)
      (fun h => absurd h (by decide +kernel)) realMath_exact _ out).1,
    (C56_sum_partial (wide_setting m n args) (by simp [Expr.FactFree]) (fun h => absurd h (by decide))
      (fun _ => wide_safe) realMath_exact _ out).1,
    (C56_sum_partial (wide_setting m n args) (by simp [Expr.FactFree]) (fun h => absurd h (by decide))
      (fun _ => wide_safe) realMath_exact _ out).1⟩

/-! ### Choices for which the property fails -/

/-- `s + b`, with a number `s` and `b` of dimension 200. -/
abbrev plusB : Term := .bin .add (.var 0 1 0) (.var 1 200 1)

abbrev plusBE : Expr := .bin .add (.var 0 1 0) (.var 1 200 1)

theorem plusB_setting : Setting plusB plusBE 0 1 1 (fun _ _ => 1) (fun _ _ => fun _ _ => 1) :=
  ones_setting (by simp [Term.Pos]) ⟨by simp [Term.vars], by simp [Term.vars], by simp [Term.vars]⟩
    ⟨20, plusBE, by decide +kernel, .inl rfl⟩ (by simp [Term.Def, binDef])

/-- **C56 fails** for PyTorch with the default options of `Genred`: `rec_multVar_highdim=False` enables the kernel for
products, that is used for all formulas of dimension larger than 146.  For `s + b` it computes `Σ_j s b_j`: here all
executions give 1 for a sum that is 2. -/
theorem not_C56_add {M : CMath} (hM : M.Exact) (junk : Expr → Nat → ℝ) (chunks : Bool) (out : Mem ℝ) :
    Setting plusB plusBE 0 1 1 (fun _ _ => 1) (fun _ _ => fun _ _ => 1) ∧
    ∑ _j ∈ range 1, plusB.val (fun _ _ => 1) 0 = 2 ∧
    (∃ out', ExecGpuSum (torchFlag (.bool false)) chunks .block M junk plusBE 0 1 1 (fun _ _ => 1) out out') ∧
    ∀ out', ExecGpuSum (torchFlag (.bool false)) chunks .block M junk plusBE 0 1 1 (fun _ _ => 1) out out' →
      out' 0 = 1 := by
  have hmode : finalMode (torchFlag (.bool false)) plusBE.dim = true := by decide
  have hparts : finalParts plusBE = some (.var 0 1 0, toInfo (1, 200, 1)) := by decide
  refine ⟨plusB_setting, by simp [Term.val, binVal, cst]; norm_num, ⟨_, .final _ hmode rfl (.mk _ _ hparts 192 (by omega)
    (fun _ _ _ => List.range 192) (fun _ _ _ => .refl _) (fun _ _ => fun _ => 0) (fun _ _ _ => fun _ => 0) _
    (.refl _))⟩, fun out' he => ?_⟩
  cases he with
  | chunks h => rw [hmode] at h; cases h
  | simple h => rw [hmode] at h; cases h
  | final _ _ hx =>
    have := (final_exec hparts ⟨by simp [Expr.vars], by simp [Expr.vars], by simp [Expr.vars]⟩
      (by simp [Expr.vars]) (.inr (by simp [Expr.vars])) (by simp [Expr.WF]) (by simp [Expr.FactFree]) rfl
      (by omega) (by omega) hM (env := fun _ _ => fun _ _ => 1) (by simp [Expr.Def]) (fun _ _ _ _ _ _ _ _ => rfl) hx).1
      0 (by simp [outRows]) 0 (by omega)
    simpa [redRows, Expr.val, cst] using this

/-- `y * b`, with a number `y` indexed by `j` and `b` of dimension 200 indexed by `i`. -/
abbrev rowB : Term := .bin .mul (.var 0 1 1) (.var 1 200 0)

abbrev rowBE : Expr := .bin .mul (.var 0 1 1) (.var 1 200 0)

/-- All entries are 1, except those of the second row of `b`. -/
noncomputable def rowBArgs : Nat → Nat → ℝ := fun p k => if p = 1 ∧ 200 ≤ k then 5 else 1

noncomputable def rowBEnv (i : Nat) : Env := fun v _ => if v = 1 ∧ i = 1 then 5 else 1

theorem rowB_setting : Setting rowB rowBE 0 2 1 rowBArgs (fun i _ => rowBEnv i) where
  pos := by simp [Term.Pos]
  inputs := ⟨by simp [Term.vars], by simp [Term.vars], by simp [Term.vars]⟩
  runs := ⟨20, rowBE, by decide +kernel, .inl rfl⟩
  tag := by omega
  reads i hi j hj := by
    have hi : i < 2 := by simpa [outRows] using hi
    intro v hv k hk
    simp only [Term.vars, List.cons_append, List.nil_append, List.mem_cons, List.not_mem_nil, or_false] at hv
    rcases hv with rfl | rfl
    · simp [rowBArgs, rowBEnv]
    · have hk : k < 200 := hk
      have : i = 0 ∨ i = 1 := by omega
      rcases this with rfl | rfl
      · simp [rowBArgs, rowBEnv, row, hk]
      · simp [rowBArgs, rowBEnv, row]
  defined i _ j _ := by simp [Term.Def, binDef]

/-- **C56 fails** for PyTorch with the default options of `Genred`, for products with a variable that is not indexed by
the axis of the reduction: the kernel reads row `j` of it.  Here all executions give 1, in place of 5, in the second
row. -/
theorem not_C56_axis {M : CMath} (hM : M.Exact) (junk : Expr → Nat → ℝ) (chunks : Bool) (out : Mem ℝ) :
    Setting rowB rowBE 0 2 1 rowBArgs (fun i _ => rowBEnv i) ∧
    ∑ _j ∈ range 1, rowB.val (rowBEnv 1) 0 = 5 ∧
    (∃ out', ExecGpuSum (torchFlag (.bool false)) chunks .block M junk rowBE 0 2 1 rowBArgs out out') ∧
    ∀ out', ExecGpuSum (torchFlag (.bool false)) chunks .block M junk rowBE 0 2 1 rowBArgs out out' →
      out' (1 * 200 + 0) = 1 := by
  have hmode : finalMode (torchFlag (.bool false)) rowBE.dim = true := by decide
  have hparts : finalParts rowBE = some (.var 0 1 1, toInfo (1, 200, 0)) := by decide
  refine ⟨rowB_setting, by simp [Term.val, binVal, cst, rowBEnv], ⟨_, .final _ hmode rfl (.mk _ _ hparts 192 (by omega)
    (fun _ _ _ => List.range 192) (fun _ _ _ => .refl _) (fun _ _ => fun _ => 0) (fun _ _ _ => fun _ => 0) _
    (.refl _))⟩, fun out' he => ?_⟩
  cases he with
  | chunks h => rw [hmode] at h; cases h
  | simple h => rw [hmode] at h; cases h
  | final _ _ hx =>
    have := (final_exec hparts ⟨by simp [Expr.vars], by simp [Expr.vars], by simp [Expr.vars]⟩
      (by simp [Expr.vars]) (.inr (by simp [Expr.vars])) (by simp [Expr.WF]) (by simp [Expr.FactFree]) rfl
      (by omega) (by omega) hM (env := fun i _ => rowBEnv i) (by simp [Expr.Def])
      (fun i hi j hj v hm k hk => by
        simp only [Expr.vars, List.mem_singleton] at hm
        subst hm
        simp [rowBEnv, rowBArgs]) hx).1 1 (by simp [outRows]) 0 (by omega)
    simpa [redRows, Expr.val, cst, rowBArgs, rowBEnv] using this

/-- There is no execution when the parts of the product are not found. -/
theorem no_exec {flag chunks : Bool} {sch : SumScheme} {M : CMath} {junk : Expr → Nat → ℝ} {e : Expr} {tagI m n : Nat}
    {args : Nat → Mem ℝ} {out out' : Mem ℝ} (hmode : finalMode flag e.dim = true)
    (h : finalParts e = none ∨ sch ≠ .block) : ¬ExecGpuSum flag chunks sch M junk e tagI m n args out out' := by
  intro he
  cases he with
  | chunks h => rw [hmode] at h; cases h
  | simple h => rw [hmode] at h; cases h
  | final _ hs hx =>
    obtain ⟨F, b, hp, -⟩ := hx
    rcases h with h | h
    · rw [h] at hp; cases hp
    · exact h hs

/-- `Exp(y)`, of dimension 200. -/
abbrev expY : Term := .un .exp (.var 0 200 1)

abbrev expYE : Expr := .un .exp (.var 0 200 1)

/-- `(x * y) * b`, three vectors of dimension 200. -/
abbrev threeV : Term := .bin .mul (.bin .mul (.var 0 200 0) (.var 1 200 1)) (.var 2 200 1)

abbrev threeVE : Expr := .bin .mul (.bin .mul (.var 0 200 0) (.var 1 200 1)) (.var 2 200 1)

/-- **C56 fails**, with an exception in place of the result:
* for PyTorch with the default options of `Genred`, for formulas of dimension larger than 146 that are not products,
  as `Exp(y)`, which `NumPy` accepts;
* for `LazyTensor`, with PyTorch and NumPy, for `((x_i * y_j) * b_j).sum(1)` with vectors of dimension larger than 146:
  the test for the special kernel does not look at the dimension of the first factor;
* for `LazyTensor`, with PyTorch and NumPy, for all the products for which the special kernel is chosen when the
  summation scheme is not `block_sum`. -/
theorem not_C56_raise (M : CMath) (junk : Expr → Nat → ℝ) (chunks : Bool) (m n : Nat) (args : Nat → Nat → ℝ)
    (out out' : Mem ℝ) :
    (Runs expY expYE ∧ finalMode (numpyFlag (.bool false)) expYE.dim = false ∧ ∀ sch,
      ¬ExecGpuSum (torchFlag (.bool false)) chunks sch M junk expYE 0 m n args out out') ∧
    (Runs threeV threeVE ∧ ∀ sch,
      ¬ExecGpuSum (torchFlag (.position 2)) chunks sch M junk threeVE 0 m n args out out' ∧
      ¬ExecGpuSum (numpyFlag (.position 2)) chunks sch M junk threeVE 0 m n args out out') ∧
    Runs bigB bigBE ∧ ∀ sch, sch ≠ .block →
      ¬ExecGpuSum (torchFlag (.position 2)) chunks sch M junk bigBE 0 m n args out out' ∧
      ¬ExecGpuSum (numpyFlag (.position 2)) chunks sch M junk bigBE 0 m n args out out' :=
  ⟨⟨⟨20, expYE, by decide +kernel, .inl rfl⟩, by decide, fun _ => no_exec (by decide) (.inl (by decide))⟩,
    ⟨⟨20, threeVE, by decide +kernel, .inl rfl⟩, fun _ => ⟨no_exec (by decide) (.inl (by decide)),
      no_exec (by decide) (.inl (by decide))⟩⟩,
    ⟨20, bigBE, by decide +kernel, .inl rfl⟩, fun _ h => ⟨no_exec (by decide) (.inr h), no_exec (by decide) (.inr h)⟩⟩

end Verif
