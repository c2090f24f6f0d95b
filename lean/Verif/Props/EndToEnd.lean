import Verif.Props.FormulaCode
import Verif.Props.LogSumExp
import Verif.Props.Gpu2D
import Verif.Props.Ranges
import Mathlib.Data.EReal.Basic

/-!
# C52: from the expression written by the user to the array that is returned

The theorems of the other files, put together: an expression `t` is turned into a formula by the constructors
(with their simplifications), which may be factorized; the code of this formula is run for all pairs of indices by
the reduction engine, on the CPU or the GPU.
-/

namespace Verif

open Finset Spec

/-- A call: an expression, the formula that is run for it, and arrays on which it can be evaluated.  `env i j`
are the values of the variables at `(i, j)`. -/
structure Setting (t : Term) (e : Expr) (tagI m n : Nat) (args : Nat → Nat → ℝ) (env : Nat → Nat → Env) : Prop where
  pos : t.Pos
  inputs : t.Inputs
  runs : Runs t e
  tag : tagI < 2
  reads : ∀ i < outRows tagI m n, ∀ j < redRows tagI m n, t.Reads tagI args i j (env i j)
  defined : ∀ i < outRows tagI m n, ∀ j < redRows tagI m n, t.Def (env i j)

section

variable {V : Type} {enc : ℝ → V} {dec : V → ℝ} {M : CMath} {t : Term} {e : Expr} {tagI m n : Nat}
  {args : Nat → Nat → ℝ} {env : Nat → Nat → Env}

/-- The call is well formed, and the formula has the values of the expression. -/
theorem Setting.call (h : Setting t e tagI m n args env) (hM : M.Exact) (hdec : ∀ x, dec (enc x) = x)
    (junk : Expr → Nat → ℝ) :
    WfProblem (e.call enc dec M junk tagI m n fun p q => enc (args p q)) ∧ e.dim = t.dim ∧ 0 < t.dim ∧
    ∀ i < outRows tagI m n, ∀ j < redRows tagI m n, ∀ k < t.dim,
      F (e.call enc dec M junk tagI m n fun p q => enc (args p q)) i j k = enc (t.val (env i j) k) := by
  obtain ⟨q, e₀, h1, h2⟩ := h.runs
  obtain ⟨hrep, hgood, hn, hv⟩ := compiled_good h.pos h.inputs h1 h2
  refine ⟨call_wf hgood h.tag, hrep.dim, hrep.dim ▸ hrep.wf.pos, fun i hi j hj k hk => ?_⟩
  obtain ⟨hd, hval⟩ := hrep.sem (env i j) (h.defined i hi j hj)
  rw [← hval]
  refine call_value (enc := enc) hM hgood hrep.wf hn (fun v hv' => ?_) hd (fun v hv' k hk => ?_)
    (hrep.dim.symm ▸ hk)
  · have := h.inputs.cat v (hv v hv')
    omega
  · rw [hdec]
    exact h.reads i hi j hj v (hv v hv') k hk

end

/-- **C52**, sums: `out[i] = Σ_j t(x_i, y_j)`, for the three summation schemes, all backends of `Exec` and all
schedules. -/
theorem C52_sum {t : Term} {e : Expr} {tagI m n : Nat} {args : Nat → Nat → ℝ} {env : Nat → Nat → Env}
    (h : Setting t e tagI m n args env) (sch : SumScheme) :
    ∃ S, getScheme (sumRed (V := ℝ) e.dim) sch = some S ∧ ∀ M : CMath, M.Exact → ∀ junk out out',
      Exec (sumRed e.dim) S (e.call id id M junk tagI m n args) out out' →
      (∀ i < outRows tagI m n, ∀ k < t.dim,
        out' (i * t.dim + k) = ∑ j ∈ range (redRows tagI m n), t.val (env i j) k) ∧
      ∀ p, outRows tagI m n * t.dim ≤ p → out' p = out p := by
  obtain ⟨S, hS, hsum⟩ := C09_sum ℝ e.dim sch
  refine ⟨S, hS, fun M hM junk out out' he => ?_⟩
  obtain ⟨hwf, hdim, -, hF⟩ := h.call (enc := id) (dec := id) hM (fun _ => rfl) junk
  obtain ⟨h1, h2⟩ := hsum _ hwf out out' he
  rw [hdim] at h1 h2
  exact ⟨fun i hi k hk => (h1 i hi k hk).trans
    (Finset.sum_congr rfl fun j hj => hF i hi j (Finset.mem_range.mp hj) k hk), h2⟩

/-- **C52**, minima, over at least one term. -/
theorem C52_min {t : Term} {e : Expr} {tagI m n : Nat} {args : Nat → Nat → ℝ} {env : Nat → Nat → Env}
    (h : Setting t e tagI m n args env) (hne : 0 < redRows tagI m n) :
    ∃ S, getScheme (minRed (V := EReal) e.dim) .direct = some S ∧ ∀ M : CMath, M.Exact → ∀ junk out out',
      Exec (minRed e.dim) S (e.call Real.toEReal EReal.toReal M junk tagI m n fun p q => (args p q : EReal))
        out out' →
      ∀ i < outRows tagI m n, ∀ k < t.dim,
        (∀ j < redRows tagI m n, out' (i * t.dim + k) ≤ (t.val (env i j) k : EReal)) ∧
        ∃ j < redRows tagI m n, out' (i * t.dim + k) = (t.val (env i j) k : EReal) := by
  obtain ⟨S, hS, hmin⟩ := C10_min EReal e.dim
  refine ⟨S, hS, fun M hM junk out out' he i hi k hk => ?_⟩
  obtain ⟨hwf, hdim, -, hF⟩ := h.call (enc := Real.toEReal) (dec := EReal.toReal) hM EReal.toReal_coe junk
  obtain ⟨h1, j, hj, h2⟩ := hmin _ hwf hne out out' he i hi k (hdim.symm ▸ hk)
  rw [hdim] at h1 h2
  exact ⟨fun j hj => by rw [← hF i hi j hj k hk]; exact h1 j hj, j, hj, by rw [← hF i hi j hj k hk]; exact h2⟩

/-- **C52**, indices of minima: the first `j` at which `t(x_i, y_j)` is smallest. -/
theorem C52_argmin {t : Term} {e : Expr} {tagI m n : Nat} {args : Nat → Nat → ℝ} {env : Nat → Nat → Env}
    (h : Setting t e tagI m n args env) (hne : 0 < redRows tagI m n) (cast : Nat → EReal) :
    ∃ S, getScheme (argMinRed cast e.dim) .direct = some S ∧ ∀ M : CMath, M.Exact → ∀ junk out out',
      Exec (argMinRed cast e.dim) S
        (e.call Real.toEReal EReal.toReal M junk tagI m n fun p q => (args p q : EReal)) out out' →
      ∀ i < outRows tagI m n, ∀ k < t.dim, ∃ j < redRows tagI m n, out' (i * t.dim + k) = cast j ∧
        (∀ l < redRows tagI m n, t.val (env i j) k ≤ t.val (env i l) k) ∧
        ∀ l < j, t.val (env i j) k < t.val (env i l) k := by
  obtain ⟨S, hS, hmin⟩ := C11_argmin EReal cast e.dim
  refine ⟨S, hS, fun M hM junk out out' he i hi k hk => ?_⟩
  obtain ⟨hwf, hdim, -, hF⟩ := h.call (enc := Real.toEReal) (dec := EReal.toReal) hM EReal.toReal_coe junk
  obtain ⟨j, hj, h2⟩ := hmin _ hwf hne out out' he i hi k (hdim.symm ▸ hk)
  rw [hdim] at h2
  obtain ⟨h3, h4, h5⟩ := hj
  refine ⟨j, h3, h2, fun l hl => ?_, fun l hl => ?_⟩
  · have := h4 l hl
    simp only at this
    rwa [hF i hi j h3 k hk, hF i hi l hl k hk, EReal.coe_le_coe_iff] at this
  · have := h5 l hl
    simp only at this
    have hl' : l < redRows tagI m n := lt_trans hl h3
    rwa [hF i hi j h3 k hk, hF i hi l hl' k hk, EReal.coe_lt_coe_iff] at this

/-- **C52**, sums with the two-pass GPU scheme. -/
theorem C52_sum2D {t : Term} {e : Expr} {tagI m n : Nat} {args : Nat → Nat → ℝ} {env : Nat → Nat → Env}
    (h : Setting t e tagI m n args env) {M : CMath} (hM : M.Exact) (junk : Expr → Nat → ℝ) {out out' : Mem ℝ}
    (he : Exec2D (sumRed e.dim) .block (e.call id id M junk tagI m n args) out out') :
    ∀ i < outRows tagI m n, ∀ k < t.dim,
      out' (i * t.dim + k) = ∑ j ∈ range (redRows tagI m n), t.val (env i j) k := by
  obtain ⟨S, hS, hsum⟩ := C52_sum h .direct
  cases hS
  obtain ⟨out1, h1⟩ := exec_exists_cpu (sumRed e.dim) (directScheme (sumRed e.dim))
    (e.call id id M junk tagI m n args) out
  rw [C20_sum ℝ e.dim (h.call (enc := id) (dec := id) hM (fun _ => rfl) junk).1 he h1]
  exact (hsum M hM junk out out1 h1).1

/-- **C52**, block-sparse sums: row `i` of cluster `r` is the sum over the ranges of this cluster.  `m` and `n` bound
the rows that are used. -/
theorem C52_sum_ranges {t : Term} {e : Expr} {tagI m n : Nat} {args : Nat → Nat → ℝ} {env : Nat → Nat → Env}
    (h : Setting t e tagI m n args env) (sch : SumScheme) :
    ∃ S, getScheme (sumRed (V := ℝ) e.dim) sch = some S ∧
      ∀ M : CMath, M.Exact → ∀ (junk : Expr → Nat → ℝ) (argshapes : List (List Nat)) (dimout rows : Nat)
        (u : RangesArr), NoBatch e.inputs argshapes → WfAxis (u.axis tagI) →
      (∀ r s, (u.axis tagI).startSlice r ≤ s → s < (u.axis tagI).endSlice r →
        (u.axis tagI).rangesY (2 * s + 1) ≤ redRows tagI m n) →
      ∃ P, rangeCall (e.call id id M junk tagI m n args).ev e.inputs tagI args argshapes m n dimout rows (some u) =
          some P ∧
        ∀ out out', RExec (sumRed e.dim) S P out out' → ∀ r i, InCluster (u.axis tagI) r i →
          i < outRows tagI m n → ∀ k < t.dim, out' (i * t.dim + k) =
            ∑ s ∈ Ico ((u.axis tagI).startSlice r) ((u.axis tagI).endSlice r),
              ∑ j ∈ Ico ((u.axis tagI).rangesY (2 * s)) ((u.axis tagI).rangesY (2 * s + 1)),
                t.val (env i j) k := by
  obtain ⟨S, hS, hsum⟩ := C17_sum ℝ e.dim sch
  refine ⟨S, hS, fun M hM junk argshapes dimout rows u hb ha hle => ?_⟩
  obtain ⟨hwf, hdim, -, hF⟩ := h.call (enc := id) (dec := id) hM (fun _ => rfl) junk
  obtain ⟨P, hP, h1⟩ := hsum _ _ tagI args argshapes m n dimout rows u hwf.vars hwf.tag hwf.ev hb ha
  refine ⟨P, hP, fun out out' he r i hi hm k hk => ?_⟩
  have := h1 out out' he r i hi k (hdim.symm ▸ hk)
  rw [hdim] at this
  rw [this]
  refine Finset.sum_congr rfl fun s hs => Finset.sum_congr rfl fun j hj => ?_
  rw [Finset.mem_Ico] at hs hj
  exact hF i hm j (lt_of_lt_of_le hj.2 (hle r s hs.1 hs.2)) k hk

/-- **C52**, log-sum-exp with weights: `out[i] = log Σ_j exp(f(x_i, y_j)) w(x_i, y_j)`, computed with the formula
`Concat(f, w)`. -/
theorem C52_logsumexp {f w : Term} {e : Expr} {tagI m n : Nat} {args : Nat → Nat → ℝ} {env : Nat → Nat → Env}
    (h : Setting (.bin .concat f w) e tagI m n args env) (hf : f.dim = 1) (hne : 0 < redRows tagI m n)
    (g : ℝ → XR) (long : XR → XR) (sch : SumScheme) (hsch : sch ≠ .kahan) :
    ∃ S, getScheme (@lseRed XR (xrNum g) w.dim) sch = some S ∧ ∀ M : CMath, M.Exact → ∀ junk out out',
      Exec (@lseRed XR (xrNum g) w.dim) S (e.call XR.fin XR.val M junk tagI m n fun p q => XR.fin (args p q))
        out out' →
      ∀ i < outRows tagI m n, ∃ arr,
        postprocess (xrPost long) .logSumExp 0 (1 + w.dim) (out'.shift (i * (1 + w.dim))) = some [arr] ∧
        arr.shape = [w.dim] ∧ ∀ k < w.dim, arr.get k =
          XR.log (XR.fin (∑ j ∈ range (redRows tagI m n),
            Real.exp (f.val (env i j) 0) * w.val (env i j) k)) := by
  obtain ⟨S, hS, hlse⟩ := C14_logsumexp_partial g w.dim sch hsch long
  refine ⟨S, hS, fun M hM junk out out' he i hi => ?_⟩
  obtain ⟨hwf, hdim, -, hF⟩ := h.call (enc := XR.fin) (dec := XR.val) hM (fun _ => rfl) junk
  have hd : (Term.bin .concat f w).dim = 1 + w.dim := by simp only [Term.dim, Bin.dim, hf]
  rw [hd] at hF
  have hfin : FiniteTerms (e.call XR.fin XR.val M junk tagI m n fun p q => XR.fin (args p q)) w.dim :=
    fun i hi j hj k hk => by rw [hF i hi j hj k hk]; rfl
  obtain ⟨arr, h1, h2, h3⟩ := hlse _ hwf hne hfin out out' he i hi
  refine ⟨arr, h1, h2, fun k hk => ?_⟩
  rw [h3 k hk]
  congr 2
  refine Finset.sum_congr rfl fun j hj => ?_
  have hj := Finset.mem_range.mp hj
  simp only [score, weight]
  rw [hF i hi j hj 0 (by omega), hF i hi j hj (1 + k) (by omega)]
  simp only [Term.val, binVal, hf]
  rw [cst_eq (by omega), cst_eq (by omega), if_pos (by omega), if_neg (by omega), Nat.add_sub_cancel_left]
  rfl

/-! ## The hypotheses can be met -/

/-- The values of the variables of `gauss` at `(i, j)`. -/
def gaussEnv (args : Nat → Nat → ℝ) (i j : Nat) : Env := fun v k =>
  if v = 0 then args 0 (i * 3 + k) else if v = 1 then args 1 (j * 3 + k) else args 2 (j * 2 + k)

theorem gauss_setting (m n : Nat) (args : Nat → Nat → ℝ) : Setting gauss gaussE 0 m n args (gaussEnv args) where
  pos := gauss_pos
  inputs := gauss_inputs
  runs := gauss_runs
  tag := by omega
  reads i _ j _ := by
    intro v hv k hk
    simp only [Term.vars, List.cons_append, List.nil_append, List.mem_cons, List.not_mem_nil, or_false] at hv
    rcases hv with rfl | rfl | rfl <;> simp [gaussEnv, row]
  defined i _ j _ := gauss_def _

/-- A Gaussian convolution of `m` points by `n` points, on both backends: there are executions, and they all give
`Σ_j exp(-|x_i - y_j|²) b_j`. -/
example (m n : Nat) (args : Nat → Nat → ℝ) (out : Mem ℝ) :
    (∃ out', Exec (sumRed 2) (directScheme (sumRed 2)) (gaussE.call id id realMath (fun _ _ => 0) 0 m n args) out out') ∧
    ∀ out', Exec (sumRed 2) (directScheme (sumRed 2)) (gaussE.call id id realMath (fun _ _ => 0) 0 m n args) out out' →
      ∀ i < m, ∀ k < 2, out' (i * 2 + k) = ∑ j ∈ range n,
        Real.exp (-∑ c ∈ range 3, (args 0 (i * 3 + c) - args 1 (j * 3 + c)) ^ 2) * args 2 (j * 2 + k) := by
  refine ⟨exec_exists_gpu _ _ _ out, fun out' he i hi k hk => ?_⟩
  obtain ⟨S, hS, h⟩ := C52_sum (gauss_setting m n args) .direct
  cases hS
  have h2 : gauss.dim = 2 := by decide
  have := (h realMath realMath_exact _ out out' he).1 i hi k (h2.symm ▸ hk)
  rw [h2] at this
  rw [this]
  refine Finset.sum_congr rfl fun j _ => ?_
  simp [Term.val, binVal, unVal, sqn, Term.dim, cst, gaussEnv]

end Verif
