import Verif.Model.Postprocess
import Verif.Proofs.RedLse
import Verif.Proofs.RedBasic
import Verif.Props.Reductions

/-!
# Log-sum-exp and softmax: C14, C15, C13

The numbers are real numbers, infinities and NaN (`XR`).  `g` gives the values of the exponential
at positive arguments; the theorems hold for every `g`, so that the code never depends on an
exponential that could overflow.
-/

namespace Verif

open Spec (outRows redRows EvLocal WfVars)
open XR

/-- Arithmetic of the post-processing. -/
noncomputable def xrPost (long : XR → XR) : PostNum XR where
  add := XR.add
  div := XR.div
  log := XR.log
  long := long

/-- All the values of the formula met by the call are finite. -/
def FiniteTerms (P : Problem XR) (dG : Nat) : Prop :=
  ∀ i < outRows P.tagI P.M P.N, ∀ j < redRows P.tagI P.M P.N, FinItem dG (F P i j)

/-- The score `f_ij` and the weights `w_ijk` of a term. -/
noncomputable def score (P : Problem XR) (i j : Nat) : ℝ := (F P i j 0).val
noncomputable def weight (P : Problem XR) (i j k : Nat) : ℝ := (F P i j (1 + k)).val

theorem lse_acc {g : ℝ → XR} {dG : Nat} {S : Scheme XR} {B G} {P : Problem XR}
    (hL : LawfulScheme False (@lseRed XR (xrNum g) dG) S (LseAcc dG) B G)
    (hP : WfProblem P) (hne : 0 < redRows P.tagI P.M P.N) (hfin : FiniteTerms P dG)
    {out out' : Mem XR} (he : Exec (@lseRed XR (xrNum g) dG) S P out out')
    {i : Nat} (hi : i < outRows P.tagI P.M P.N) :
    ∃ M : ℝ, out' (i * (1 + dG)) = fin M ∧ (∀ j < redRows P.tagI P.M P.N, score P i j ≤ M) ∧
      (∃ j < redRows P.tagI P.M P.N, score P i j = M) ∧
      ∀ k < dG, out' (i * (1 + dG) + (1 + k)) =
        fin (∑ j ∈ Finset.range (redRows P.tagI P.M P.N),
          Real.exp (score P i j - M) * weight P i j k) := by
  obtain ⟨h1, -⟩ := exec_correct hL (lseRed_finLocal g dG) hP (Or.inr hne) he
  obtain ⟨acc, ha, ho⟩ := h1 i hi
  have hok := ha (by
    intro x hx
    obtain ⟨j, hj, rfl⟩ := rowItems_mem.mp hx
    exact hfin i hi j hj)
  have hout : ∀ k < 1 + dG, out' (i * (1 + dG) + k) = acc k := by
    intro k hk
    have := ho k hk out
    simp only [lseRed, vectCopy_apply, hk, if_true] at this
    exact this
  rcases hok with ⟨he0, _⟩ | ⟨_, M, h0, hle, ⟨x, hx, hxe⟩, hk⟩
  · exact absurd he0 (items_ne_nil hne)
  · refine ⟨M, ?_, ?_, ?_, ?_⟩
    · have := hout 0 (by omega)
      rw [Nat.add_zero] at this
      rw [this, h0]
    · intro j hj
      exact hle (j, F P i j) (rowItems_mem.mpr ⟨j, hj, rfl⟩)
    · obtain ⟨j, hj, rfl⟩ := rowItems_mem.mp hx
      exact ⟨j, hj, hxe⟩
    · intro k hkd
      rw [hout (1 + k) (by omega), hk k hkd, ← list_sum_range]
      simp only [rowItems, items, List.map_map]
      rfl

theorem lse_scheme (g : ℝ → XR) (dG : Nat) {sch : SumScheme} (h : sch ≠ .kahan) :
    ∃ S B G, getScheme (@lseRed XR (xrNum g) dG) sch = some S ∧
      LawfulScheme False (@lseRed XR (xrNum g) dG) S (LseAcc dG) B G := by
  cases sch with
  | direct => exact ⟨_, _, _, rfl, directScheme_lawful (lseRed_lawful g dG)⟩
  | block => exact ⟨_, _, _, rfl, blockScheme_lawful (lseRed_lawful g dG) rfl⟩
  | kahan => exact absurd rfl h

/-- Sum of `exp(f) w` from the shifted sum. -/
theorem sum_unshift (n : Nat) (f w : Nat → ℝ) (M : ℝ) :
    ∑ j ∈ Finset.range n, Real.exp (f j) * w j =
      Real.exp M * ∑ j ∈ Finset.range n, Real.exp (f j - M) * w j := by
  rw [Finset.mul_sum]
  apply Finset.sum_congr rfl
  intro j _
  rw [← mul_assoc, ← Real.exp_add]
  congr 2
  ring

/-- C14: log-sum-exp with weights `w` (the case `w = 1` is the usual log-sum-exp), for the schemes
`direct_sum` and `block_sum` (the default), on every execution: entry `k` of row `i` of the
post-processed output is `log Σ_j exp(f_ij) w_ijk`, whatever the exponential returns on positive
arguments. -/
theorem C14_logsumexp_partial (g : ℝ → XR) (dG : Nat) (sch : SumScheme) (hsch : sch ≠ .kahan)
    (long : XR → XR) :
    ∃ S, getScheme (@lseRed XR (xrNum g) dG) sch = some S ∧
      ∀ P : Problem XR, WfProblem P → 0 < redRows P.tagI P.M P.N → FiniteTerms P dG →
      ∀ out out', Exec (@lseRed XR (xrNum g) dG) S P out out' →
      ∀ i < outRows P.tagI P.M P.N, ∃ arr,
        postprocess (xrPost long) .logSumExp 0 (1 + dG) (out'.shift (i * (1 + dG))) = some [arr] ∧
        arr.shape = [dG] ∧ ∀ k < dG, arr.get k =
          XR.log (fin (∑ j ∈ Finset.range (redRows P.tagI P.M P.N),
            Real.exp (score P i j) * weight P i j k)) := by
  obtain ⟨S, B, G, hS, hL⟩ := lse_scheme g dG hsch
  refine ⟨S, hS, fun P hP hne hfin out out' he i hi => ?_⟩
  obtain ⟨M, h0, -, -, hk⟩ := lse_acc hL hP hne hfin he hi
  have key : ∀ k < dG, XR.add (out' (i * (1 + dG))) (XR.log (out' (i * (1 + dG) + (1 + k)))) =
      XR.log (fin (∑ j ∈ Finset.range (redRows P.tagI P.M P.N),
            Real.exp (score P i j) * weight P i j k)) := by
    intro k hkd
    rw [h0, hk k hkd, sum_unshift _ (score P i) (fun j => weight P i j k) M]
    generalize (∑ j ∈ Finset.range (redRows P.tagI P.M P.N),
      Real.exp (score P i j - M) * weight P i j k) = s
    have hM := Real.exp_pos M
    rcases lt_trichotomy s 0 with hs | hs | hs
    · have h1 : ¬ 0 < s := not_lt.mpr hs.le
      have h2 : ¬ 0 < Real.exp M * s := by
        have := mul_neg_of_pos_of_neg hM hs
        exact not_lt.mpr this.le
      have h3 : Real.exp M * s ≠ 0 := (mul_neg_of_pos_of_neg hM hs).ne
      simp only [XR.log, h1, h2, h3, hs.ne, if_false, XR.add]
    · subst hs; simp [XR.log, XR.add]
    · have h2 : 0 < Real.exp M * s := mul_pos hM hs
      simp only [XR.log, hs, h2, if_true, XR.add]
      rw [Real.log_mul hM.ne' hs.ne', Real.log_exp]
  by_cases hd : 1 + dG = 2
  · have : dG = 1 := by omega
    subst this
    refine ⟨_, rfl, rfl, fun k hkd => ?_⟩
    have : k = 0 := by omega
    subst this
    exact key 0 (by omega)
  · unfold postprocess
    rw [if_neg hd]
    refine ⟨_, rfl, ?_, fun k hkd => key k hkd⟩
    simp only [List.cons.injEq, and_true]; omega

/-- C15: softmax-weighted sums.  The second formula is `Concat(IntCst(1), w)`, so that the first
weight is 1; entry `k` of row `i` is `Σ_j exp(f_ij) w_ijk / Σ_j exp(f_ij)`. -/
theorem C15_sumsoftmaxweight (g : ℝ → XR) (d : Nat) (sch : SumScheme) (hsch : sch ≠ .kahan)
    (long : XR → XR) :
    preprocess .sumSoftMaxWeight (some d) = some (.maxSumShiftExpWeight, some (1 + d)) ∧
    ∃ S, getScheme (@lseRed XR (xrNum g) (1 + d)) sch = some S ∧
      ∀ P : Problem XR, WfProblem P → 0 < redRows P.tagI P.M P.N → FiniteTerms P (1 + d) →
      (∀ i < outRows P.tagI P.M P.N, ∀ j < redRows P.tagI P.M P.N, weight P i j 0 = 1) →
      ∀ out out', Exec (@lseRed XR (xrNum g) (1 + d)) S P out out' →
      ∀ i < outRows P.tagI P.M P.N, ∃ arr,
        postprocess (xrPost long) .sumSoftMaxWeight 0 (1 + (1 + d))
          (out'.shift (i * (1 + (1 + d)))) = some [arr] ∧
        arr.shape = [d] ∧ ∀ k < d, arr.get k =
          fin ((∑ j ∈ Finset.range (redRows P.tagI P.M P.N),
            Real.exp (score P i j) * weight P i j (1 + k)) /
            ∑ j ∈ Finset.range (redRows P.tagI P.M P.N), Real.exp (score P i j)) := by
  refine ⟨rfl, ?_⟩
  obtain ⟨S, B, G, hS, hL⟩ := lse_scheme g (1 + d) hsch
  refine ⟨S, hS, fun P hP hne hfin hone out out' he i hi => ?_⟩
  obtain ⟨M, h0, -, -, hk⟩ := lse_acc hL hP hne hfin he hi
  refine ⟨_, rfl, ?_, ?_⟩
  · simp only [List.cons.injEq, and_true]; omega
  · intro k hkd
    have e1 := hk 0 (by omega)
    have e2 := hk (1 + k) (by omega)
    have hden : 0 < ∑ j ∈ Finset.range (redRows P.tagI P.M P.N),
        Real.exp (score P i j - M) * weight P i j 0 := by
      apply Finset.sum_pos
      · intro j hj; rw [hone i hi j (Finset.mem_range.mp hj), mul_one]; exact Real.exp_pos _
      · exact ⟨0, Finset.mem_range.mpr hne⟩
    change XR.div (out' (i * (1 + (1 + d)) + (2 + k))) (out' (i * (1 + (1 + d)) + 1)) = _
    have a1 : (2 + k) = 1 + (1 + k) := by omega
    rw [a1, e2]
    rw [Nat.add_zero] at e1
    rw [e1]
    simp only [XR.div, hden.ne', if_false]
    congr 1
    rw [sum_unshift _ (score P i) (fun j => weight P i j (1 + k)) M]
    have hs := sum_unshift (redRows P.tagI P.M P.N) (score P i) (fun j => weight P i j 0) M
    have hsum : ∀ f : Nat → ℝ, ∑ j ∈ Finset.range (redRows P.tagI P.M P.N), f j * weight P i j 0 =
        ∑ j ∈ Finset.range (redRows P.tagI P.M P.N), f j := fun f =>
      Finset.sum_congr rfl fun j hj => by rw [hone i hi j (Finset.mem_range.mp hj), mul_one]
    rw [hsum fun j => Real.exp (score P i j), hsum fun j => Real.exp (score P i j - M)] at hs
    rw [hsum fun j => Real.exp (score P i j - M), hs, mul_div_mul_left _ _ (Real.exp_pos M).ne']

/-! A call meeting the hypotheses: `f_ij = x_i + y_j` with constant weights 1. -/

noncomputable def exLse (M N : Nat) (dG : Nat) (args : Nat → Mem XR) : Problem XR where
  ev := fun t => fun k => if k = 0 then
    match t 0, t 1 with
    | some x, some y => XR.add (x 0) (y 0)
    | _, _ => fin 0
    else fin 1
  vars := [⟨0, 1, 0⟩, ⟨1, 1, 1⟩]
  tagI := 0
  M := M
  N := N
  args := args

theorem exLse_wf (M N dG : Nat) (args : Nat → Mem XR) : WfProblem (exLse M N dG args) where
  vars := ⟨by simp [exLse], by simp [exLse]⟩
  tag := by simp [exLse]
  ev := by
    intro t t' h
    obtain ⟨m, m', h1, h2, h3⟩ := h ⟨0, 1, 0⟩ (by simp [exLse])
    obtain ⟨n, n', g1, g2, g3⟩ := h ⟨1, 1, 1⟩ (by simp [exLse])
    have e1 := h3 0 (by simp)
    have e2 := g3 0 (by simp)
    simp only at h1 h2 g1 g2
    simp only [exLse, h1, h2, g1, g2, e1, e2]

example (g : ℝ → XR) (S : Scheme XR) (out : Mem XR) :
    WfProblem (exLse 2 3 2 (fun _ k => fin k)) ∧ FiniteTerms (exLse 2 3 2 (fun _ k => fin k)) 2 ∧
    (∀ i j, weight (exLse 2 3 2 (fun _ k => fin k)) i j 0 = 1) ∧
    score (exLse 2 3 2 (fun _ k => fin k)) 1 2 = 3 ∧
    ∃ out', Exec (@lseRed XR (xrNum g) 2) S (exLse 2 3 2 (fun _ k => fin k)) out out' := by
  refine ⟨exLse_wf .., ?_, ?_, ?_, exec_exists_gpu _ S _ out⟩
  · intro i _ j _ k _
    by_cases hk : k = 0
    · subst hk
      simp [F, exLse, Spec.env, Spec.row, XR.add, XR.val]
    · simp [F, exLse, hk, XR.val]
  · intro i j
    simp [weight, F, exLse, XR.val]
  · simp [score, F, exLse, Spec.env, Spec.row, XR.add, XR.val]; norm_num

/-! ## Where the code does not meet the property -/

/-- C14 is false for the operation named `LogSumExpWeight`: it is pre-processed like a weighted
`LogSumExp`, but `postprocess` returns the raw pair (maximum, shifted sums) unchanged. -/
theorem C14_logSumExpWeight_not_finalised (long : XR → XR) (d : Nat) (row : Mem XR) :
    preprocess .logSumExpWeight (some d) = preprocess .logSumExp (some d) ∧
    (∃ arr, postprocess (xrPost long) .logSumExpWeight 0 (1 + d) row = some [arr] ∧
      arr.shape = [1 + d] ∧ arr.get = row) ∧
    (∀ arr, postprocess (xrPost long) .logSumExpWeight 0 (1 + d) row = some [arr] →
      arr.shape ≠ [d]) := by
  refine ⟨rfl, ⟨_, rfl, rfl, rfl⟩, ?_⟩
  intro arr h
  cases h
  simp

/-- An empty accumulator merged with an empty one is NaN: a row without any term (`N = 0`, or an
empty row of a block-sparse mask) gives NaN with the default scheme. -/
theorem C14_empty_row_nan (g : ℝ → XR) (dG : Nat) (hd : 0 < dG) (junk junk' : Mem XR) :
    @lsePair XR (xrNum g) dG ((@lseRed XR (xrNum g) dG).init junk)
      ((@lseRed XR (xrNum g) dG).init junk') 1 = nan := by
  have hin : ∀ junk, LseOk dG [] ((@lseRed XR (xrNum g) dG).init junk) := fun junk =>
    (lseRed_lawful g dG).init junk (by simp)
  have hi : ∀ junk, ((@lseRed XR (xrNum g) dG).init junk) 0 = ninf ∧
      ((@lseRed XR (xrNum g) dG).init junk) (1 + 0) = fin 0 := by
    intro junk
    rcases hin junk with ⟨_, h0, hk⟩ | ⟨h, _⟩
    · exact ⟨h0, hk 0 hd⟩
    · exact absurd rfl h
  have := (lsePair_apply g dG ((@lseRed XR (xrNum g) dG).init junk)
    ((@lseRed XR (xrNum g) dG).init junk')).2 0 hd
  rw [(hi junk).1, (hi junk').1, (hi junk).2, (hi junk').2] at this
  simpa [XR.gt, XR.sub, XR.neg, XR.add, XR.exp, XR.mul] using this

/-- A first term equal to minus infinity (a masked entry) makes the result NaN, whatever the other
terms are, although `exp(-inf) = 0`: sequential reduction of any number `n ≥ 1` of terms. -/
theorem C14_first_minus_inf_nan (g : ℝ → XR) (dG : Nat) (hd : 0 < dG) (junk : Mem XR)
    (n : Nat) (f : Nat → Mem XR) (h0 : f 0 0 = ninf) :
    seqReduce (@lseRed XR (xrNum g) dG) junk (n + 1) f 1 = nan := by
  induction n with
  | zero =>
    have hi : ((@lseRed XR (xrNum g) dG).init junk) 0 = ninf ∧
        ((@lseRed XR (xrNum g) dG).init junk) (1 + 0) = fin 0 := by
      rcases (lseRed_lawful g dG).init junk (by simp) with ⟨_, h0, hk⟩ | ⟨h, _⟩
      · exact ⟨h0, hk 0 hd⟩
      · exact absurd rfl h
    have := (lsePair_apply g dG ((@lseRed XR (xrNum g) dG).init junk) (f 0)).2 0 hd
    rw [hi.1, hi.2, h0] at this
    have h2 : ∀ x, XR.add x nan = nan := by intro x; cases x <;> rfl
    replace this := this.trans (h2 (f 0 (1 + 0)))
    simpa [seqReduce, List.range_succ, lseRed] using this
  | succ n ih =>
    have := (lsePair_apply g dG (seqReduce (@lseRed XR (xrNum g) dG) junk (n + 1) f)
      (f (n + 1))).2 0 hd
    rw [Nat.add_zero, ih] at this
    have h1 : ∀ y, XR.add nan y = nan := by intro y; cases y <;> rfl
    have h2 : ∀ x, XR.add x (XR.mul nan nan) = nan := by intro x; cases x <;> rfl
    have h3 : ∀ x y, XR.add y (XR.mul x nan) = nan := by
      intro x y; cases x <;> cases y <;> rfl
    rw [h1, h3] at this
    have e : seqReduce (@lseRed XR (xrNum g) dG) junk (n + 1 + 1) f =
        @lsePair XR (xrNum g) dG (seqReduce (@lseRed XR (xrNum g) dG) junk (n + 1) f)
          (f (n + 1)) := by
      unfold seqReduce
      rw [List.range_succ, List.foldl_append]
      rfl
    rw [e, this]
    split <;> rfl

/-- The Kahan scheme, accepted by the options for log-sum-exp, has no code: `dim_kahan` is not
defined on this class. -/
theorem C14_kahan_not_generated (g : ℝ → XR) (dG : Nat) :
    getScheme (@lseRed XR (xrNum g) dG) .kahan = none := rfl

/-- C13 for log-sum-exp accumulators (at least one of the pieces non-empty). -/
theorem C13_logsumexp (g : ℝ → XR) (dG : Nat) :
    ∃ pair, (@lseRed XR (xrNum g) dG).pair = some pair ∧ ∀ xs ys a b, xs ++ ys ≠ [] →
      LseAcc dG xs a → LseAcc dG ys b → LseAcc dG (xs ++ ys) (pair a b) :=
  ⟨_, rfl, fun xs ys a b hne => (lseRed_lawful g dG).pair _ rfl xs ys a b (Or.inr hne)⟩

end Verif
