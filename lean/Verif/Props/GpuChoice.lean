import Verif.Model.GpuChoice
import Verif.Model.Options
import Verif.Props.FinalChunks

/-!
# C56 for the other reductions
-/

namespace Verif

open Finset Spec

/-- **C56**, all reductions.  When the kernel for products is not chosen, whichever of the two other kernels is, there
is an execution, and every execution gives an array that the simple kernel can give: the theorems of C52 on the simple
kernel give its content, for each reduction.

Partial: the reduction has dimension at most 146, or the option for products is off (`not_C56_kmin`,
`not_C56_logsumexp` otherwise; for sums see `C56_sum_partial`), and when the chunked kernel is chosen the formula is one
for which it is right. -/
theorem C56_exec_partial {V : Type} {enc : ℝ → V} {dec : V → ℝ} {t : Term} {e : Expr} {tagI m n : Nat}
    {args : Nat → Nat → ℝ} {env : Nat → Nat → Env} (h : Setting t e tagI m n args env) (hf : e.FactFree)
    (hdec : ∀ x, dec (enc x) = x) (R : Red V) {flag chunks : Bool} {sch : SumScheme} {S : Scheme V}
    (hS : getScheme R sch = some S) (hmode : flag = false ∨ R.dim ≤ 146)
    (hchunks : chunks = true → chunkMode e = true → e.ChunkSafe) {M : CMath} (hM : M.Exact)
    (junk : Expr → Nat → ℝ) (out : Mem V) :
    (∃ out', ExecGpu enc dec R flag chunks sch M junk e tagI m n args out out') ∧
    ∀ out', ExecGpu enc dec R flag chunks sch M junk e tagI m n args out out' →
      Exec R S (e.call enc dec M junk tagI m n fun p q => enc (args p q)) out out' := by
  have hfm : finalMode flag R.dim = false := by
    simp only [finalMode, Bool.and_eq_false_iff, decide_eq_false_iff_not]
    exact hmode.imp_right fun h => by omega
  refine ⟨?_, fun out' he => ?_⟩
  · rcases hcm : chunks && chunkMode e with - | -
    · obtain ⟨o, ho⟩ := exec_exists_gpu R S (e.call enc dec M junk tagI m n fun p q => enc (args p q)) out
      exact ⟨o, .simple o hfm hcm S hS ho⟩
    · have := (Bool.and_eq_true _ _ ▸ hcm : _ = true ∧ _ = true)
      obtain ⟨o, ho⟩ := chunks_exists enc dec R S M junk this.2 tagI m n (fun p q => enc (args p q)) out
      exact ⟨o, .chunks o hfm hcm S hS ho⟩
  · cases he with
    | final _ _ _ hfm' => rw [hfm] at hfm'; cases hfm'
    | chunks _ _ hcm S' hS' hx =>
      rw [hS] at hS'
      cases hS'
      have := (Bool.and_eq_true _ _ ▸ hcm : _ = true ∧ _ = true)
      exact C21_exec_partial h hf this.2 (hchunks this.1 this.2) hdec R S hM junk hx
    | simple _ _ hcm S' hS' hx =>
      rw [hS] at hS'
      cases hS'
      exact hx

/-- Indices of minima of a formula with points of dimension 200, with the chunked and with the simple kernel: the first
smallest index in both cases. -/
example (m n : Nat) (args : Nat → Nat → ℝ) (hn : 0 < n) (out : Mem EReal) (chunks : Bool) (cast : Nat → EReal) :
    (∃ out', ExecGpu Real.toEReal EReal.toReal (argMinRed cast wideE.dim) (torchFlag .none) chunks .direct realMath
      (fun _ _ => 0) wideE 0 m n args out out') ∧
    ∀ out', ExecGpu Real.toEReal EReal.toReal (argMinRed cast wideE.dim) (torchFlag .none) chunks .direct realMath
      (fun _ _ => 0) wideE 0 m n args out out' →
      ∀ i < m, ∀ k < 2, ∃ j < n, out' (i * 2 + k) = cast j := by
  obtain ⟨S, hS, h⟩ := C52_argmin (wide_setting m n args) hn cast
  obtain ⟨h1, h2⟩ := C56_exec_partial (wide_setting m n args) (by simp [Expr.FactFree]) EReal.toReal_coe
    (argMinRed cast wideE.dim) (flag := torchFlag .none) (chunks := chunks) (sch := .direct) hS (.inl rfl)
    (fun _ _ => wide_safe) realMath_exact (fun _ _ => 0) out
  refine ⟨h1, fun out' he i hi k hk => ?_⟩
  obtain ⟨j, hj, h3, -⟩ := h realMath realMath_exact _ out out' (h2 out' he) i hi k hk
  exact ⟨j, hj, h3⟩

/-! ### Choices for which the property fails -/

/-- The options that are accepted for reductions which are not sums give the direct scheme. -/
theorem direct_of_options {op acc : String} {dbl ch fm : Bool} {sch : String} {fl : Flags} (hop : ¬ sumType op)
    (h : getOptionalFlags op acc dbl sch ch fm = some fl) : fl.sumScheme = "direct_sum" := by
  unfold getOptionalFlags at h
  simp only [hop, if_false, not_false_eq_true, if_true, and_true] at h
  split_ifs at h <;> simp_all <;> (obtain rfl := h; rfl)

/-- A scalar formula. -/
abbrev kmF : Term := .bin .sub (.var 0 1 0) (.var 1 1 1)

abbrev kmFE : Expr := .bin .sub (.var 0 1 0) (.var 1 1 1)

/-- **C56 fails** for `Genred` of PyTorch with the default options, when the output of a reduction which is not a sum has
dimension larger than 146: the kernel for products is chosen, which refuses the only scheme that the options accept for
these reductions, and an exception is raised.  So it is for the 150 smallest values of `x_i - y_j`, that NumPy, or a
CPU, accept. -/
theorem not_C56_kmin (cast : Nat → EReal) (M : CMath) (junk : Expr → Nat → ℝ) (chunks : Bool) (m n : Nat)
    (args : Nat → Nat → ℝ) (out : Mem EReal) :
    (∀ acc dbl sch ch fm fl, getOptionalFlags "KMin" acc dbl sch ch fm = some fl → fl.sumScheme = "direct_sum") ∧
    Runs kmF kmFE ∧
    (∀ out', ¬ ExecGpu Real.toEReal EReal.toReal (kminRed cast kmFE.dim 150) (torchFlag (.bool false)) chunks .direct M junk
      kmFE 0 m n args out out') ∧
    ∃ out', ExecGpu Real.toEReal EReal.toReal (kminRed cast kmFE.dim 150) (numpyFlag (.bool false)) chunks .direct M junk
      kmFE 0 m n args out out' := by
  have hm : finalMode (torchFlag (.bool false)) (kminRed (V := EReal) cast kmFE.dim 150).dim = true := by
    simp [kminRed, Expr.dim, Bin.dim, finalMode, torchFlag]
  refine ⟨fun acc dbl sch ch fm fl => direct_of_options (by decide), ⟨20, kmFE, by decide +kernel, .inl rfl⟩,
    fun out' he => ?_, ?_⟩
  · cases he with
    | final _ _ _ _ hs => cases hs
    | chunks _ h => rw [hm] at h; cases h
    | simple _ h => rw [hm] at h; cases h
  · obtain ⟨o, ho⟩ := exec_exists_gpu (kminRed cast kmFE.dim 150) (directScheme (kminRed cast kmFE.dim 150))
      (kmFE.call Real.toEReal EReal.toReal M junk 0 m n fun p q => (args p q : EReal)) out
    have hc : (chunks && chunkMode kmFE) = false := by cases chunks <;> decide +kernel
    exact ⟨o, .simple o rfl hc _ rfl ho⟩

/-- A scalar `s` with weights `b` of dimension 200. -/
abbrev weightB : Term := .bin .concat (.var 0 1 0) (.var 1 200 1)

abbrev weightBE : Expr := .bin .concat (.var 0 1 0) (.var 1 200 1)

theorem weightB_setting : Setting weightB weightBE 0 1 1 (fun _ _ => 2) (fun _ _ => fun _ _ => 2) :=
  ⟨by simp [Term.Pos], ⟨by simp [Term.vars], by simp [Term.vars], by simp [Term.vars]⟩,
    ⟨20, weightBE, by decide +kernel, .inl rfl⟩, by omega, fun _ _ _ _ _ _ _ _ => rfl,
    fun _ _ _ _ => by simp [Term.Def, binDef]⟩

/-- **C56 fails** for `Genred` of PyTorch with the default options, for log-sum-exps with weights of dimension larger
than 145: the kernel for products takes the score and the weights for the factors of a product, and the sums that it
writes are taken for the maximum and the sums of exponentials.  With one pair of rows, a score of 2 and weights equal
to 2, all executions give `4 + log 4` for a result that is `log (exp 2 * 2)`. -/
theorem not_C56_logsumexp (g : ℝ → XR) (long : XR → XR) {M : CMath} (hM : M.Exact) (junk : Expr → Nat → ℝ)
    (chunks : Bool) (out : Mem ℝ) :
    Setting weightB weightBE 0 1 1 (fun _ _ => 2) (fun _ _ => fun _ _ => 2) ∧
    (∃ out', ExecGpu XR.fin XR.val (@lseRed XR (xrNum g) 200) (torchFlag (.bool false)) chunks .block M junk weightBE 0 1 1
      (fun _ _ => 2) (fun q => XR.fin (out q)) out') ∧
    (∀ out', ExecGpu XR.fin XR.val (@lseRed XR (xrNum g) 200) (torchFlag (.bool false)) chunks .block M junk weightBE 0 1 1
      (fun _ _ => 2) (fun q => XR.fin (out q)) out' →
      ∃ arr, postprocess (xrPost long) .logSumExp 0 201 out' = some [arr] ∧ arr.get 0 = XR.fin (4 + Real.log 4)) ∧
    XR.log (XR.fin (∑ _j ∈ range 1, Real.exp 2 * 2)) ≠ XR.fin (4 + Real.log 4) := by
  have hm : finalMode (torchFlag (.bool false)) (@lseRed XR (xrNum g) 200).dim = true := by
    simp [lseRed, finalMode, torchFlag]
  have hparts : finalParts weightBE = some (.var 0 1 0, toInfo (1, 200, 1)) := by decide
  refine ⟨weightB_setting, ⟨_, .final out _ (fun _ => rfl) hm rfl (.mk _ _ hparts 192 (by omega)
    (fun _ _ _ => List.range 192) (fun _ _ _ => .refl _) (fun _ _ => fun _ => 0) (fun _ _ _ => fun _ => 0) _
    (.refl _))⟩, fun out' he => ?_, ?_⟩
  · cases he with
    | chunks _ h => rw [hm] at h; cases h
    | simple _ h => rw [hm] at h; cases h
    | final o o' _ _ _ hx =>
      have := (final_exec hparts ⟨by simp [Expr.vars], by simp [Expr.vars], by simp [Expr.vars]⟩
        (by simp [Expr.vars]) (.inr (by simp [Expr.vars])) (by simp [Expr.WF]) (by simp [Expr.FactFree]) rfl
        (by omega) (by omega) hM (env := fun _ _ => fun _ _ => 2) (by simp [Expr.Def]) (fun _ _ _ _ _ _ _ _ => rfl) hx).1
        0 (by simp [outRows])
      have h4 : ∀ k < 200, o' k = 4 := fun k hk => by
        have := this k hk
        simp only [redRows, Expr.val, cst] at this
        norm_num at this
        exact this
      refine ⟨_, rfl, ?_⟩
      show XR.add (XR.fin (o' 0)) (XR.log (XR.fin (o' 1))) = _
      rw [h4 0 (by omega), h4 1 (by omega)]
      simp [XR.log, XR.add]
  · have h1 : Real.log (Real.exp 2 * 2) = 2 + Real.log 2 := by
      rw [Real.log_mul (Real.exp_ne_zero _) (by norm_num), Real.log_exp]
    have h2 : Real.log 4 = Real.log 2 + Real.log 2 := by
      rw [← Real.log_mul (by norm_num) (by norm_num)]; norm_num
    have h3 : 0 < Real.log 2 := Real.log_pos (by norm_num)
    have h4 : (0 : ℝ) < Real.exp 2 * 2 := by positivity
    simp only [sum_const, card_range, one_smul, XR.log, h4, if_true, ne_eq, XR.fin.injEq, h1]
    intro h
    linarith

end Verif
