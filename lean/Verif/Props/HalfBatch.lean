import Verif.Proofs.HalfBatch
import Verif.Props.Half

/-!
# Half precision with batch dimensions: C38
-/

namespace Verif

open Spec (EvLocal WfVars outRows redRows BatchShapes blockRows batchArgs batchCount ravel)

/-- C38 (sums, with batch dimensions): in half precision, for each scheme, in every execution of the compiled code on
the packed arrays, each block of the unpacked result has one row for each output index, and row `i` of the block at
batch index `idx` is the sum over all `j` of the formula on the blocks of the inputs at the broadcast batch index. The
sizes are odd or even; at least one variable is indexed by the output axis; the arrays have less than `2^31` rows. -/
theorem C38_sum_batch (V : Type) [AddCommGroup V] (d : Nat) (sch : SumScheme) :
    ∃ S, getScheme (sumRed (V := V × V) d) sch = some S ∧
      ∀ (ev : (Nat → Option (Mem V)) → Mem V) (vars : List VarInfo) (tagI : Nat)
        (args : Nat → Mem V) (argshapes : List (List Nat)) (nb : Nat) (full : Nat → Nat) (M N dimout : Nat),
      WfVars vars → tagI < 2 → EvLocal vars ev → 0 < nb → 0 < redRows tagI M N → (∃ v ∈ vars, v.cat = tagI) →
      BatchShapes vars (fun a => argshapes.getD a []) nb full M N →
      (∀ v ∈ vars, batchCount nb (fun b => (argshapes.getD v.ind []).getD b 0) *
        blockRows M N v.cat < 2 ^ 31) →
      ∃ H, halfCallB ev vars tagI args argshapes nb M N dimout = some H ∧
        ∀ out out', RExec (sumRed d) S H out out' →
        ∃ res : Mem V, postprocessHalf2B d (outRows tagI M N) (tagDummy (1 - tagI) (outRows tagI M N) vars) out' =
            (res, outRows tagI M N) ∧
        ∀ idx : Nat → Nat, (∀ b < nb, idx b < full b) → ∀ i < outRows tagI M N, ∀ k < d,
          res ((ravel nb full idx * outRows tagI M N + i) * d + k) =
            ∑ j ∈ Finset.range (redRows tagI M N), ev (Spec.env vars tagI
              (batchArgs vars (fun a => argshapes.getD a []) nb M N idx args) i j) k := by
  obtain ⟨S, B, G, hS, hL⟩ := sum_getScheme_lawful (V := V × V) d sch
  refine ⟨S, hS, fun ev vars tagI args argshapes nb full M N dimout hw ht hev hnb hN hv hsh h32 => ?_⟩
  have hex : ∃ v ∈ vars, v.cat < 2 := by
    obtain ⟨v, hv, hc⟩ := hv
    exact ⟨v, hv, by omega⟩
  obtain ⟨H, hH, hB⟩ := halfCallB_batch (ev := ev) (args := args) hw ht hsh hex hnb hN dimout
  refine ⟨H, hH, fun out out' he => ?_⟩
  have hpair := pairShapes_ok hw hsh tagI M N
  have h32' : ∀ v ∈ vars, batchCount nb (fun b => ((pairShapes vars tagI nb M N argshapes).getD v.ind []).getD b 0) *
      blockRows (halfSizes tagI M N).1 (halfSizes tagI M N).2 v.cat < 2 ^ 31 := by
    intro v hv
    refine lt_of_le_of_lt ?_ (h32 v hv)
    have hlen : nb ≤ (argshapes.getD v.ind []).length := by
      have := hsh.length v hv
      split_ifs at this <;> omega
    have e : batchCount nb (fun b => ((pairShapes vars tagI nb M N argshapes).getD v.ind []).getD b 0) =
        batchCount nb (fun b => (argshapes.getD v.ind []).getD b 0) := by
      unfold batchCount
      congr 1
      refine List.map_congr_left fun b hb => ?_
      unfold pairShapes
      rw [rangeMap_getD _ _ (batchShapes_ind_lt hsh hv)]
      simp only [find_ind hw.nodup hv]
      split_ifs <;> rw [take_getD _ hlen (List.mem_range.mp hb)]
    rw [e]
    refine Nat.mul_le_mul_left _ ?_
    unfold blockRows halfSizes
    dsimp only
    split_ifs <;> omega
  have hrow : ∀ idx : Nat → Nat, (∀ b < nb, idx b < full b) → ∀ i < (outRows tagI M N + 1) / 2, ∀ k < d,
      out' ((ravel nb full idx * ((outRows tagI M N + 1) / 2) + i) * d + k) =
        ∑ j ∈ Finset.range (redRows tagI M N), lanes ev (Spec.env vars tagI
          (batchArgs vars (fun a => (pairShapes vars tagI nb M N argshapes).getD a []) nb (halfSizes tagI M N).1
            (halfSizes tagI M N).2 idx (pairArgs vars tagI M N args)) i j) k := by
    intro idx hidx i hi k hk
    have hi' : i < outRows tagI (halfSizes tagI M N).1 (halfSizes tagI M N).2 := by rw [halfSizes_out]; exact hi
    obtain ⟨acc, ha, ho⟩ := batch_correct hL (sumRed_finLocal d) hB hw ht (lanes_local hev) hnb hpair h32'
      (Or.inl trivial) he hidx hi'
    have h1 := ho k hk out
    rw [show (sumRed (V := V × V) d).dim = d from rfl, halfSizes_out] at h1
    rw [h1]
    simp only [sumRed, vectCopy_apply, hk, if_true]
    rw [ha k hk, halfSizes_red, ← list_sum_range]
    simp only [items, List.map_map]
    rfl
  have hdum : tagDummy (1 - tagI) (outRows tagI M N) vars = decide (outRows tagI M N % 2 = 1) := by
    unfold tagDummy
    rw [tagDummy_fold, if_pos]
    obtain ⟨v, hv, hc⟩ := hv
    exact ⟨v, hv, by omega, by omega⟩
  -- one entry of the unpacked array, before the dummy rows are removed
  have hx : ∀ idx : Nat → Nat, (∀ b < nb, idx b < full b) → ∀ i < outRows tagI M N, ∀ k < d,
      perBlock ((outRows tagI M N + outRows tagI M N % 2) * d) ((outRows tagI M N + outRows tagI M N % 2) * d)
        (half22half d) (ofHalf2 out')
        (ravel nb full idx * ((outRows tagI M N + outRows tagI M N % 2) * d) + (i * d + k)) =
      ∑ j ∈ Finset.range (redRows tagI M N), ev (Spec.env vars tagI
        (batchArgs vars (fun a => argshapes.getD a []) nb M N idx args) i j) k := by
    intro idx hidx i hi k hk
    have hl : i % 2 < 2 := Nat.mod_lt _ (by omega)
    have hi2 : 2 * (i / 2) + i % 2 = i := Nat.div_add_mod i 2
    have hlt : i * d + k < (outRows tagI M N + outRows tagI M N % 2) * d := by
      calc i * d + k < i * d + d := by omega
        _ = (i + 1) * d := by ring
        _ ≤ _ := Nat.mul_le_mul_right _ (by omega)
    rw [perBlock_apply _ _ _ _ hlt]
    have h1 := half22half_apply (fun q => ofHalf2 out'
      (ravel nb full idx * ((outRows tagI M N + outRows tagI M N % 2) * d) + q)) (i / 2) hk hl
    rw [hi2] at h1
    have e : ravel nb full idx * ((outRows tagI M N + outRows tagI M N % 2) * d) + (2 * (i / 2 * d + k) + i % 2) =
        2 * ((ravel nb full idx * ((outRows tagI M N + 1) / 2) + i / 2) * d + k) + i % 2 := by
      rw [show outRows tagI M N + outRows tagI M N % 2 = 2 * ((outRows tagI M N + 1) / 2) by omega]
      ring
    rw [h1, e, ofHalf2_lane _ _ hl, hrow idx hidx _ (by omega) k hk, lane_sum,
      ← sum_oddRow (redRows tagI M N) hl (fun j => ev (Spec.env vars tagI
        (batchArgs vars (fun a => argshapes.getD a []) nb M N idx args) i j) k)]
    refine Finset.sum_congr rfl fun j hj => ?_
    have := pairArgs_F (args := args) hw ht hev hsh hN idx hl (r := i / 2) (by rw [hi2]; exact hi)
      (Finset.mem_range.1 hj) k
    rw [hi2] at this
    exact this
  rw [hdum]
  unfold postprocessHalf2B
  dsimp only
  by_cases hR : outRows tagI M N % 2 = 1
  · simp only [hR, decide_true, if_true, Nat.add_sub_cancel] at hx ⊢
    refine ⟨_, rfl, fun idx hidx i hi k hk => ?_⟩
    have hlt : i * d + k < outRows tagI M N * d := by
      calc i * d + k < i * d + d := by omega
        _ = (i + 1) * d := by ring
        _ ≤ _ := Nat.mul_le_mul_right _ (by omega)
    rw [← hx idx hidx i hi k hk, show (ravel nb full idx * outRows tagI M N + i) * d + k =
      ravel nb full idx * (outRows tagI M N * d) + (i * d + k) by ring, perBlock_apply _ _ _ _ hlt]
  · have h0 : outRows tagI M N % 2 = 0 := by omega
    simp only [h0, Nat.add_zero, show ¬ (0 = 1) by omega, decide_false, Bool.false_eq_true, if_false] at hx ⊢
    refine ⟨_, rfl, fun idx hidx i hi k hk => ?_⟩
    rw [← hx idx hidx i hi k hk, Nat.add_mul, Nat.mul_assoc, Nat.add_assoc]

/-- A case with batch dimensions `(3, 2)`, three output rows and four reduced rows: `x` has shape `(3, 1, 3, 1)` and
`y` has shape `(1, 2, 4, 1)`. The packed arrays have 2 and 4 rows of pairs. -/
example : WfVars (exProblem ℤ 3 4 (fun _ k => k)).vars ∧
    BatchShapes (exProblem ℤ 3 4 (fun _ k => k)).vars (fun a => [[3, 1, 3, 1], [1, 2, 4, 1]].getD a []) 2
      (fun b => [3, 2].getD b 0) 3 4 ∧ halfSizes 0 3 4 = (2, 4) ∧
    (halfCallB (exProblem ℤ 3 4 (fun _ k => k)).ev (exProblem ℤ 3 4 (fun _ k => k)).vars 0 (fun _ k => (k : ℤ))
      [[3, 1, 3, 1], [1, 2, 4, 1]] 2 3 4 1).isSome = true ∧
    ∀ S H out, ∃ out', RExec (sumRed (V := ℤ × ℤ) 1) S H out out' := by
  have hB : BatchShapes (exProblem ℤ 3 4 (fun _ k => k)).vars (fun a => [[3, 1, 3, 1], [1, 2, 4, 1]].getD a []) 2
      (fun b => [3, 2].getD b 0) 3 4 := by
    refine ⟨?_, ?_, ?_, ?_⟩
    · simp [exProblem]
    · intro v hv b hb
      have : b = 0 ∨ b = 1 := by omega
      simp only [exProblem, List.mem_cons, List.not_mem_nil, or_false] at hv
      rcases hv with rfl | rfl <;> rcases this with rfl | rfl <;> decide
    · intro v hv _
      simp only [exProblem, List.mem_cons, List.not_mem_nil, or_false] at hv
      rcases hv with rfl | rfl <;> decide
    · intro b hb
      have : b = 0 ∨ b = 1 := by omega
      rcases this with rfl | rfl
      · exact Or.inr ⟨⟨0, 1, 0⟩, by simp [exProblem], by decide⟩
      · exact Or.inr ⟨⟨1, 1, 1⟩, by simp [exProblem], by decide⟩
  refine ⟨(exProblem_wf ℤ 3 4 (fun _ k => k)).vars, hB, by decide, ?_, ?_⟩
  · obtain ⟨H, hH, -⟩ := halfCallB_batch (ev := (exProblem ℤ 3 4 (fun _ k => k)).ev) (args := fun _ k => (k : ℤ))
      (exProblem_wf ℤ 3 4 (fun _ k => k)).vars (tagI := 0) (by omega) hB ⟨⟨0, 1, 0⟩, by simp [exProblem], by decide⟩
      (by omega) (by decide) 1
    rw [hH]; rfl
  · exact fun S H out => rexec_exists_gpu _ S H out

end Verif
