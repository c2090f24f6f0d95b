import Verif.Proofs.Half
import Verif.Props.Reductions
import Verif.Props.Gpu2D
import Verif.Props.Ranges

/-!
# Half precision: C38
-/

namespace Verif

open Spec (EvLocal WfVars outRows redRows)

variable {V : Type}

/-- C38: unpacking after packing is the identity, and conversely, on all arrays of shape `(M, D)` with
`M` even. -/
theorem C38_roundtrip (M D : Nat) (hM : M % 2 = 0) (x : Mem V) :
    ∀ p < M * D, half22half D (half2half2 D x) p = x p ∧ half2half2 D (half22half D x) p = x p := by
  intro p hp
  have hD : 0 < D := Nat.pos_of_ne_zero (by rintro rfl; simp at hp)
  constructor
  · obtain ⟨r, l, k, hl, hk, rfl⟩ : ∃ r l k, l < 2 ∧ k < D ∧ p = (2 * r + l) * D + k := by
      refine ⟨p / D / 2, p / D % 2, p % D, Nat.mod_lt _ (by omega), Nat.mod_lt _ hD, ?_⟩
      rw [Nat.div_add_mod, Nat.mul_comm, Nat.div_add_mod]
    rw [half22half_apply _ _ hk hl, half2half2_apply _ _ hk hl]
  · obtain ⟨r, l, k, hl, hk, rfl⟩ : ∃ r l k, l < 2 ∧ k < D ∧ p = 2 * (r * D + k) + l := by
      refine ⟨p / 2 / D, p % 2, p / 2 % D, Nat.mod_lt _ (by omega), Nat.mod_lt _ hD, ?_⟩
      have := Nat.div_add_mod (p / 2) D
      rw [Nat.mul_comm] at this
      omega
    rw [half2half2_apply _ _ hk hl, half22half_apply _ _ hk hl]

theorem tagDummy_fold (axis nout : Nat) (vars : List VarInfo) (t : Bool) :
    vars.foldl (fun t v =>
      if v.cat = 2 then t else if v.cat = axis then t
      else (makeEvenSize (V := Unit) nout v.dim (fun _ => ())).2.2) t =
    if ∃ v ∈ vars, v.cat ≠ 2 ∧ v.cat ≠ axis then decide (nout % 2 = 1) else t := by
  induction vars generalizing t with
  | nil => simp
  | cons v vs ih =>
    rw [List.foldl_cons, ih]
    by_cases h : ∃ v ∈ vs, v.cat ≠ 2 ∧ v.cat ≠ axis
    · rw [if_pos h, if_pos]
      obtain ⟨w, hw, h⟩ := h
      exact ⟨w, List.mem_cons_of_mem _ hw, h⟩
    · rw [if_neg h]
      by_cases h2 : v.cat = 2
      · rw [if_pos h2, if_neg]
        rintro ⟨w, hw, h3⟩
        rcases List.mem_cons.1 hw with rfl | hw
        · exact h3.1 h2
        · exact h ⟨w, hw, h3⟩
      · by_cases h3 : v.cat = axis
        · rw [if_neg h2, if_pos h3, if_neg]
          rintro ⟨w, hw, h4⟩
          rcases List.mem_cons.1 hw with rfl | hw
          · exact h4.2 h3
          · exact h ⟨w, hw, h4⟩
        · rw [if_neg h2, if_neg h3, if_pos ⟨v, List.mem_cons_self, h2, h3⟩]
          unfold makeEvenSize
          split_ifs with h4 <;> simp [h4]

/-- The number of rows of the result. -/
theorem postprocessHalf2_rows {P : Problem V} (hP : WfProblem P) (hv : ∃ v ∈ P.vars, v.cat = P.tagI)
    (d : Nat) (out : Mem (V × V)) :
    (postprocessHalf2 d (outRows P.tagI P.M P.N)
      (tagDummy (1 - P.tagI) (outRows P.tagI P.M P.N) P.vars) out).2 = outRows P.tagI P.M P.N := by
  unfold postprocessHalf2 tagDummy
  rw [tagDummy_fold, if_pos]
  · dsimp only
    by_cases h : outRows P.tagI P.M P.N % 2 = 1
    · simp [h]
    · simp only [h, decide_false, Bool.false_eq_true, if_false]; omega
  · obtain ⟨v, hv, h⟩ := hv
    have := hP.tag
    exact ⟨v, hv, by omega, by omega⟩

theorem half_sum_row [AddCommGroup V] {P : Problem V} (hP : WfProblem P) {H : Problem (V × V)}
    (hH : preprocessHalf2 P = some H) {d : Nat} {out' : Mem (V × V)}
    (h : ∀ i < outRows H.tagI H.M H.N, ∀ k < d,
      out' (i * d + k) = ∑ j ∈ Finset.range (redRows H.tagI H.M H.N), F H i j k)
    {i k : Nat} (hi : i < outRows P.tagI P.M P.N) (hk : k < d) :
    half22half d (ofHalf2 out') (i * d + k) =
      ∑ j ∈ Finset.range (redRows P.tagI P.M P.N), F P i j k := by
  obtain ⟨-, e1, e2, e3, hF⟩ := preprocessHalf2_F hP hH
  have hl : i % 2 < 2 := Nat.mod_lt _ (by omega)
  have hi2 : 2 * (i / 2) + i % 2 = i := Nat.div_add_mod i 2
  rw [e1, e2, e3, halfSizes_out, halfSizes_red] at h
  have h1 := half22half_apply (ofHalf2 out') (i / 2) hk hl
  rw [hi2] at h1
  rw [h1, ofHalf2_lane _ _ hl, h _ (by omega) k hk, lane_sum,
    ← sum_oddRow (redRows P.tagI P.M P.N) hl (fun j => F P i j k)]
  refine Finset.sum_congr rfl fun j hj => ?_
  have := hF (i / 2) j (i % 2) k hl (by rw [hi2]; exact hi) (Finset.mem_range.1 hj)
  rw [hi2] at this
  exact this

/-- C38 (sums): in half precision, for each scheme, in every execution of the compiled code on the
packed arrays, the unpacked result has one row for each output index, and row `i` is the sum over all
`j`, each pair `(i, j)` being visited once. The sizes are odd or even; at least one variable is
indexed by the output axis. (`V` is any commutative group: exact arithmetic.) -/
theorem C38_sum (V : Type) [AddCommGroup V] (d : Nat) (sch : SumScheme) :
    ∃ S, getScheme (sumRed (V := V × V) d) sch = some S ∧
      ∀ (P : Problem V), WfProblem P → 0 < redRows P.tagI P.M P.N →
      (∃ v ∈ P.vars, v.cat = P.tagI) →
      ∃ H, preprocessHalf2 P = some H ∧ ∀ out out', Exec (sumRed d) S H out out' →
        ∃ res : Mem V, postprocessHalf2 d (outRows P.tagI P.M P.N)
          (tagDummy (1 - P.tagI) (outRows P.tagI P.M P.N) P.vars) out' =
            (res, outRows P.tagI P.M P.N) ∧
        ∀ i < outRows P.tagI P.M P.N, ∀ k < d,
          res (i * d + k) = ∑ j ∈ Finset.range (redRows P.tagI P.M P.N), F P i j k := by
  obtain ⟨S, hS, h⟩ := C09_sum (V × V) d sch
  refine ⟨S, hS, fun P hP hN hv => ?_⟩
  obtain ⟨H, hH⟩ := preprocessHalf2_isSome hN
  refine ⟨H, hH, fun out out' he => ⟨half22half d (ofHalf2 out'),
    Prod.ext rfl (postprocessHalf2_rows hP hv d out'), fun i hi k hk => ?_⟩⟩
  obtain ⟨hw, -⟩ := preprocessHalf2_F hP hH
  exact half_sum_row hP hH (h H hw out out' he).1 hi hk

/-- C38 (sums, two-pass scheme of the GPU). -/
theorem C38_sum2D (V : Type) [AddCommGroup V] (d : Nat) (P : Problem V) (hP : WfProblem P)
    (hN : 0 < redRows P.tagI P.M P.N) (hv : ∃ v ∈ P.vars, v.cat = P.tagI) :
      ∃ H, preprocessHalf2 P = some H ∧ ∀ out out', Exec2D (sumRed d) .block H out out' →
        ∃ res : Mem V, postprocessHalf2 d (outRows P.tagI P.M P.N)
          (tagDummy (1 - P.tagI) (outRows P.tagI P.M P.N) P.vars) out' =
            (res, outRows P.tagI P.M P.N) ∧
        ∀ i < outRows P.tagI P.M P.N, ∀ k < d,
          res (i * d + k) = ∑ j ∈ Finset.range (redRows P.tagI P.M P.N), F P i j k := by
  obtain ⟨S, hS, h⟩ := C09_sum (V × V) d .direct
  obtain ⟨H, hH⟩ := preprocessHalf2_isSome hN
  refine ⟨H, hH, fun out out' he => ⟨half22half d (ofHalf2 out'),
    Prod.ext rfl (postprocessHalf2_rows hP hv d out'), fun i hi k hk => ?_⟩⟩
  obtain ⟨hw, -⟩ := preprocessHalf2_F hP hH
  have hS' : S = directScheme (sumRed (V := V × V) d) := by
    unfold getScheme at hS
    exact (Option.some.inj hS).symm
  subst hS'
  obtain ⟨out1, he1⟩ := exec_exists_gpu (sumRed (V := V × V) d) (directScheme (sumRed d)) H out
  have := C20_sum (V × V) d hw he he1
  subst this
  exact half_sum_row hP hH (h H hw out _ he1).1 hi hk

/-- A case with 3 output rows and 4 reduced rows. -/
example : WfProblem (exProblem ℤ 3 4 (fun _ k => k)) ∧
    0 < redRows (exProblem ℤ 3 4 (fun _ k => k)).tagI 3 4 ∧
    (∃ v ∈ (exProblem ℤ 3 4 (fun _ k => k)).vars, v.cat = (exProblem ℤ 3 4 (fun _ k => k)).tagI) ∧
    makeOddCat 4 1 (fun k => k) = some (fun p => if p < 4 then p else if p = 4 then 3 else p - 5) ∧
    ∀ S H out, ∃ out', Exec (sumRed (V := ℤ × ℤ) 1) S H out out' :=
  ⟨exProblem_wf .., by decide, ⟨_, List.mem_cons_self, rfl⟩, by
    unfold makeOddCat
    simp only [Nat.reduceMod, if_true, Nat.reduceEqDiff, if_false, Option.some.injEq]
    funext p
    split_ifs <;> omega, fun S H out => exec_exists_gpu _ S H out⟩

/-- C38 fails for a formula without variable indexed by the output axis: the result has two rows,
whereas the output has one (`get_sizes` gives the size 1 to an absent axis). -/
theorem not_C38_no_output_variable (P : Problem V) (h : ∀ v ∈ P.vars, v.cat = 1)
    (ht : P.tagI = 0) (hM : P.M = 1) (d : Nat) (out : Mem (V × V)) :
    (postprocessHalf2 d (outRows P.tagI P.M P.N)
      (tagDummy (1 - P.tagI) (outRows P.tagI P.M P.N) P.vars) out).2 = 2 := by
  unfold postprocessHalf2 tagDummy
  rw [tagDummy_fold, if_neg]
  · simp [ht, hM, outRows]
  · rintro ⟨v, hv, -, h2⟩
    exact h2 (by rw [h v hv, ht])

/-- The reduction `Σ_j y_j` over `j < 4` with two output rows. -/
def exHalf : Problem ℤ where
  ev := fun t => fun k => if k = 0 then
    match t 1 with
    | some y => y 0
    | _ => 0
    else 0
  vars := [⟨0, 1, 0⟩, ⟨1, 1, 1⟩]
  tagI := 0
  M := 2
  N := 4
  args := fun ind p => if ind = 1 then [1, 10, 100, 1000].getD p 0 else 0

theorem exHalf_wf : WfProblem exHalf where
  vars := ⟨by simp [exHalf], by simp [exHalf]⟩
  tag := by simp [exHalf]
  ev := by
    intro t t' h
    obtain ⟨n, n', g1, g2, g3⟩ := h ⟨1, 1, 1⟩ (by simp [exHalf])
    have e2 := g3 0 (by simp)
    simp only at g1 g2
    simp only [exHalf, g1, g2, e2]

/-- The user's ranges: the two output rows see `j ∈ [0, 2)`. -/
def exHRanges : Ranges6 := ⟨[(0, 2)], [1], [(0, 2)], [], [], []⟩

/-- C38 fails with ranges: the intervals of the reduction axis are not converted, so that the
packed rows `[0, 2)`, which hold the rows 0 to 3, are visited. For the output row 0 the result is
`y₀ + y₂` in place of `y₀ + y₁`, in all executions. -/
theorem not_C38_ranges (sch : SumScheme) :
    ∃ S H P, getScheme (sumRed (V := ℤ × ℤ) 1) sch = some S ∧ preprocessHalf2 exHalf = some H ∧
      rangeCall H.ev H.vars H.tagI H.args [[1, 1], [4, 1]] H.M H.N 1 1
        (some (halfRanges 1 2 4 exHRanges).toArr) = some P ∧
      (∃ out', RExec (sumRed 1) S P (fun _ => 0) out') ∧
      (∀ out out', RExec (sumRed 1) S P out out' →
        (postprocessHalf2 1 2 (tagDummy 1 2 exHalf.vars) out').1 0 = 101) ∧
      ∑ j ∈ Finset.Ico 0 2, F exHalf 0 j 0 = 11 := by
  obtain ⟨S, hS, h⟩ := C17_sum (ℤ × ℤ) 1 sch
  obtain ⟨H, hH⟩ := preprocessHalf2_isSome (P := exHalf) (by decide)
  obtain ⟨hw, e1, e2, e3, hF⟩ := preprocessHalf2_F exHalf_wf hH
  have ev : H.vars = exHalf.vars := by
    unfold preprocessHalf2 at hH
    dsimp only at hH
    rw [if_pos (by decide)] at hH
    injection hH with hH
    rw [← hH]
  have et : H.tagI = 0 := e1
  obtain ⟨P, hP, hout⟩ := h H.ev H.vars H.tagI H.args [[1, 1], [4, 1]] H.M H.N 1 1
    (halfRanges 1 2 4 exHRanges).toArr hw.vars hw.tag hw.ev (by
      rw [ev]; intro v hv _
      simp [exHalf] at hv
      rcases hv with rfl | rfl <;> rfl) (by
      rw [et]
      intro r hr s h1 h2
      have hr0 : r = 0 := by
        have : r < 1 := hr
        omega
      subst hr0
      have : s < 1 := h2
      have hs0 : s = 0 := by omega
      subst hs0
      decide)
  refine ⟨S, H, P, hS, hH, hP, rexec_exists_gpu _ _ _ _, fun out out' he => ?_, by decide⟩
  have h1 := hout out out' he 0 0 (by
    rw [et]
    refine ⟨by decide, by decide, fun r hr _ _ => ?_⟩
    have : r < 1 := hr
    omega) 0 (by omega)
  have hp : (postprocessHalf2 1 2 (tagDummy 1 2 exHalf.vars) out').1 0 = lane 0 (out' (0 * 1 + 0)) := rfl
  rw [hp, h1, et]
  have e4 : Finset.Ico (((halfRanges 1 2 4 exHRanges).toArr.axis 0).startSlice 0)
      (((halfRanges 1 2 4 exHRanges).toArr.axis 0).endSlice 0) = {0} := by decide
  have e5 : Finset.Ico (((halfRanges 1 2 4 exHRanges).toArr.axis 0).rangesY (2 * 0))
      (((halfRanges 1 2 4 exHRanges).toArr.axis 0).rangesY (2 * 0 + 1)) = {0, 1} := by decide
  rw [e4, Finset.sum_singleton, e5, Finset.sum_pair (by decide)]
  have hl : ∀ x y : ℤ × ℤ, lane 0 (x + y) = lane 0 x + lane 0 y := fun _ _ => rfl
  rw [et] at hF
  rw [hl, hF 0 0 0 0 (by decide) (by decide) (by decide), hF 0 1 0 0 (by decide) (by decide) (by decide)]
  decide

end Verif
