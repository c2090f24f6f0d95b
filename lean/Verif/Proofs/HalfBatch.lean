import Verif.Model.HalfBatch
import Verif.Proofs.Half
import Verif.Proofs.Batch

/-! Lemmas on half precision with batch dimensions. -/

namespace Verif

open Spec (EvLocal WfVars BatchShapes blockRows batchArgs ravel bcast)

variable {V : Type}

theorem perBlock_apply (n : Nat) {n' : Nat} (f : Mem V → Mem V) (x : Mem V) (b : Nat) {q : Nat} (hq : q < n') :
    perBlock n n' f x (b * n' + q) = f (fun r => x (b * n + r)) q := by
  unfold perBlock
  have h1 : (b * n' + q) / n' = b := by
    rw [Nat.add_comm, Nat.add_mul_div_right _ _ (by omega), Nat.div_eq_of_lt hq]; omega
  have h2 : (b * n' + q) % n' = q := by
    rw [Nat.add_comm, Nat.add_mul_mod_self_right, Nat.mod_eq_of_lt hq]
  rw [h1, h2]

theorem halfSizes_padded (tagI nx ny : Nat) :
    halfSizes tagI nx ny = ((paddedSizes tagI nx ny).1 / 2, (paddedSizes tagI nx ny).2 / 2) := by
  unfold halfSizes paddedSizes
  dsimp only
  split_ifs <;> rfl

theorem padded_even (tagI nx ny c : Nat) (hc : c < 2) :
    blockRows (paddedSizes tagI nx ny).1 (paddedSizes tagI nx ny).2 c % 2 = 0 := by
  unfold blockRows paddedSizes
  split_ifs <;> (try dsimp only) <;> omega

theorem halfBlock_padded {tagI nx ny : Nat} (ht : tagI < 2) {v : VarInfo} (hc : v.cat < 2) :
    (halfBlock (1 - tagI) (if tagI = 0 then nx else ny) (if tagI = 0 then ny else nx) v).2 =
      blockRows (paddedSizes tagI nx ny).1 (paddedSizes tagI nx ny).2 v.cat := by
  have ht' : tagI = 0 ∨ tagI = 1 := by omega
  have hc' : v.cat = 0 ∨ v.cat = 1 := by omega
  unfold halfBlock blockRows paddedSizes
  rcases ht' with rfl | rfl <;> rcases hc' with h | h <;> simp [h] <;> split_ifs <;> omega

theorem halfBlock_user {tagI nx ny : Nat} (ht : tagI < 2) {v : VarInfo} (hc : v.cat < 3) :
    (halfBlock (1 - tagI) (if tagI = 0 then nx else ny) (if tagI = 0 then ny else nx) v).1 =
      blockRows nx ny v.cat := by
  have ht' : tagI = 0 ∨ tagI = 1 := by omega
  have hc' : v.cat = 0 ∨ v.cat = 1 ∨ v.cat = 2 := by omega
  unfold halfBlock blockRows
  rcases ht' with rfl | rfl <;> rcases hc' with h | h | h <;> simp [h]

/-- The number of packed rows of a block. -/
theorem halfBlock_half {tagI nx ny : Nat} (ht : tagI < 2) {v : VarInfo} (hc : v.cat < 3) :
    (halfBlock (1 - tagI) (if tagI = 0 then nx else ny) (if tagI = 0 then ny else nx) v).2 =
      2 * blockRows (halfSizes tagI nx ny).1 (halfSizes tagI nx ny).2 v.cat := by
  have ht' : tagI = 0 ∨ tagI = 1 := by omega
  have hc' : v.cat = 0 ∨ v.cat = 1 ∨ v.cat = 2 := by omega
  unfold halfBlock blockRows halfSizes
  rcases ht' with rfl | rfl <;> rcases hc' with h | h | h <;> simp [h] <;> split_ifs <;> omega

theorem rangeMap_getD (n : Nat) (f : Nat → List Nat) {a : Nat} (ha : a < n) :
    ((List.range n).map f).getD a [] = f a := by
  rw [List.getD_eq_getElem?_getD, List.getElem?_map, List.getElem?_range ha]
  rfl

theorem batchShapes_ind_lt {vars : List VarInfo} {argshapes : List (List Nat)} {nb : Nat} {full : Nat → Nat}
    {M N : Nat} (h : BatchShapes vars (fun a => argshapes.getD a []) nb full M N) {v : VarInfo} (hv : v ∈ vars) :
    v.ind < argshapes.length := by
  by_contra hlt
  have h1 := h.length v hv
  have h2 : argshapes.getD v.ind [] = [] := by
    rw [List.getD_eq_getElem?_getD, List.getElem?_eq_none (by omega)]; rfl
  simp only [h2, List.length_nil] at h1
  split_ifs at h1

theorem take_getD {s : List Nat} {nb b : Nat} (t : List Nat) (hs : nb ≤ s.length) (hb : b < nb) :
    (s.take nb ++ t).getD b 0 = s.getD b 0 := by
  rw [List.getD_eq_getElem?_getD, List.getElem?_append_left (by rw [List.length_take]; omega), List.getElem?_take,
    if_pos hb, List.getD_eq_getElem?_getD]

theorem take_getD_last {s : List Nat} {nb : Nat} (x : Nat) (t : List Nat) (hs : nb ≤ s.length) :
    (s.take nb ++ x :: t).getD nb 0 = x := by
  rw [List.getD_eq_getElem?_getD, List.getElem?_append_right (by rw [List.length_take]; omega)]
  simp [List.length_take, hs]

/-- Shapes with other numbers of rows. -/
theorem batchShapes_rerow {vars : List VarInfo} (hw : WfVars vars) {argshapes : List (List Nat)} {nb : Nat}
    {full : Nat → Nat} {M N M' N' : Nat} (h : BatchShapes vars (fun a => argshapes.getD a []) nb full M N)
    (f : VarInfo → List Nat → List Nat)
    (hf : ∀ v ∈ vars, ∀ s : List Nat, nb ≤ s.length → (f v s).length = (if v.cat = 2 then nb + 1 else nb + 2) ∧
      (∀ b < nb, (f v s).getD b 0 = s.getD b 0) ∧ (v.cat ≠ 2 → (f v s).getD nb 0 = blockRows M' N' v.cat)) :
    BatchShapes vars (fun a => ((List.range argshapes.length).map fun a =>
      match vars.find? (fun v => v.ind = a) with
      | none => argshapes.getD a []
      | some v => f v (argshapes.getD a [])).getD a []) nb full M' N' := by
  have key : ∀ v ∈ vars, ((List.range argshapes.length).map fun a =>
      match vars.find? (fun v => v.ind = a) with
      | none => argshapes.getD a []
      | some v => f v (argshapes.getD a [])).getD v.ind [] = f v (argshapes.getD v.ind []) := by
    intro v hv
    rw [rangeMap_getD _ _ (batchShapes_ind_lt h hv)]
    simp only [find_ind hw.nodup hv]
  have hlen : ∀ v ∈ vars, nb ≤ (argshapes.getD v.ind []).length := by
    intro v hv
    have := h.length v hv
    split_ifs at this <;> omega
  refine ⟨fun v hv => ?_, fun v hv b hb => ?_, fun v hv hc => ?_, fun b hb => ?_⟩
  · simp only [key v hv]; exact (hf v hv _ (hlen v hv)).1
  · simp only [key v hv, (hf v hv _ (hlen v hv)).2.1 b hb]; exact h.batch v hv b hb
  · simp only [key v hv]; exact (hf v hv _ (hlen v hv)).2.2 hc
  · rcases h.attained b hb with e | ⟨v, hv, e⟩
    · exact .inl e
    · exact .inr ⟨v, hv, by simp only [key v hv, (hf v hv _ (hlen v hv)).2.1 b hb]; exact e⟩

/-- In the line of a variable of category 1 the column of `M` keeps the value 1. -/
theorem fillC_foldl_one (nb : Nat) (argshapes : List (List Nat)) {a : Nat} :
    ∀ (L : List (Nat × Nat)), (∀ x ∈ L, x.2 = a → x.1 = 1) → ∀ s0 : Mem Nat,
      L.foldl (fillC nb argshapes) s0 ((a + 1) * (nb + 3) + nb) = s0 ((a + 1) * (nb + 3) + nb) := by
  intro L
  induction L with
  | nil => intro _ s0; rfl
  | cons x L ih =>
    intro hL s0
    rw [List.foldl_cons, ih (fun y hy => hL y (List.mem_cons_of_mem _ hy))]
    have hoff : nb + 3 ≤ (a + 1) * (nb + 3) := Nat.le_mul_of_pos_left _ (by omega)
    by_cases hx : x.2 = a
    · have h1 := hL x List.mem_cons_self hx
      obtain ⟨-, -, k3⟩ := bbd_spec nb argshapes x.2 s0
      unfold fillC fillJ
      rw [if_neg (by omega), if_pos h1]
      simp only [Mem.set, hx] at k3 ⊢
      rw [if_neg (by omega), if_neg (by omega)]
      exact k3 _ (by omega) (by omega)
    · obtain ⟨-, -, -, f4⟩ := fillC_spec nb argshapes s0 x
      refine f4 _ (by omega) ?_
      rintro ⟨g1, g2⟩
      exact line_disjoint (nb := nb) (fun e => hx e.symm) (show nb < nb + 3 by omega)
        (show (a + 1) * (nb + 3) + nb - (x.2 + 1) * (nb + 3) < nb + 3 by omega) (by omega)

theorem mkSizes_one {vars : List VarInfo} (hw : WfVars vars) {argshapes : List (List Nat)}
    {nb : Nat} {full : Nat → Nat} {M N : Nat} (dimout : Nat)
    (h : BatchShapes vars (fun a => argshapes.getD a []) nb full M N)
    (hex : ∃ v ∈ vars, v.cat < 2) {v : VarInfo} (hv : v ∈ vars) (hc : v.cat = 1) :
    (mkSizes argshapes M N dimout (indsOf vars 0) (indsOf vars 1) (indsOf vars 2)).shapes
      ((1 + v.ind) * (nb + 3) + nb) = 1 := by
  have hnb : nbatchdimsOf argshapes (indsOf vars 0) (indsOf vars 1) = nb :=
    nbatchdimsOf_eq h.length hex
  let s0 : Mem Nat := ((Mem.set (fun _ => 1) nb M).set (nb + 1) N).set (nb + 2) dimout
  have hshapes : (mkSizes argshapes M N dimout (indsOf vars 0) (indsOf vars 1) (indsOf vars 2)).shapes =
      (steps vars).foldl (fillC nb argshapes) s0 := by
    simp only [mkSizes, hnb, steps, List.foldl_append, List.foldl_map]
    rfl
  have hoff : nb + 3 ≤ (v.ind + 1) * (nb + 3) := Nat.le_mul_of_pos_left _ (by omega)
  rw [hshapes, Nat.add_comm 1, fillC_foldl_one]
  · simp only [s0, Mem.set]
    rw [if_neg (by omega), if_neg (by omega), if_neg (by omega)]
  · intro x hx he
    obtain ⟨w, hw', rfl⟩ := (mem_steps hw).mp hx
    rw [ind_inj hw hw' hv he]
    exact hc

theorem halfArg_isSome {axis nout nred : Nat} (h : 0 < nred) (v : VarInfo) (x : Mem V) :
    (halfArg axis nout nred v x).isSome = true := by
  unfold halfArg makeOddCat
  split_ifs <;> first | rfl | omega

theorem switchHalf2_low (nargs : Nat) (s : Sizes) {b : Nat} (hb : b < s.nbatchdims) :
    (switchHalf2 nargs s).shapes b = s.shapes b := by
  unfold switchHalf2
  dsimp only
  rw [if_neg (by omega), if_neg (by omega)]

/-- The entries of the line of an argument. -/
theorem switchHalf2_line (nargs : Nat) (s : Sizes) {a c : Nat} (ha : a < nargs) (hc : c < s.nbatchdims + 3) :
    (switchHalf2 nargs s).shapes ((1 + a) * (s.nbatchdims + 3) + c) =
      if c = halvedColumn s ((1 + a) * (s.nbatchdims + 3)) then
        s.shapes ((1 + a) * (s.nbatchdims + 3) + c) / 2
      else s.shapes ((1 + a) * (s.nbatchdims + 3) + c) := by
  have hoff : s.nbatchdims + 3 ≤ (1 + a) * (s.nbatchdims + 3) := Nat.le_mul_of_pos_left _ (by omega)
  have hlt : (1 + a) * (s.nbatchdims + 3) + c < (nargs + 1) * (s.nbatchdims + 3) := by
    have := Nat.mul_le_mul_right (s.nbatchdims + 3) (show 1 + a + 1 ≤ nargs + 1 by omega)
    rw [Nat.succ_mul] at this
    omega
  have h1 : ((1 + a) * (s.nbatchdims + 3) + c) / (s.nbatchdims + 3) = 1 + a := by
    rw [Nat.add_comm, Nat.add_mul_div_right _ _ (by omega), Nat.div_eq_of_lt hc]; omega
  have h2 : ((1 + a) * (s.nbatchdims + 3) + c) % (s.nbatchdims + 3) = c := by
    rw [Nat.add_comm, Nat.add_mul_mod_self_right, Nat.mod_eq_of_lt hc]
  unfold switchHalf2
  dsimp only
  rw [if_neg (by omega), h1, h2]
  by_cases h : c = halvedColumn s ((1 + a) * (s.nbatchdims + 3))
  · rw [if_pos ⟨by omega, hlt, h⟩, if_pos h]
  · rw [if_neg (fun g => h g.2.2), if_neg h]

/-- The shapes of the packed arrays, in pairs. -/
def pairShapes (vars : List VarInfo) (tagI nb nx ny : Nat) (argshapes : List (List Nat)) : List (List Nat) :=
  (List.range argshapes.length).map fun a =>
    match vars.find? (fun v => v.ind = a) with
    | none => argshapes.getD a []
    | some v => if v.cat = 2 then (argshapes.getD a []).take nb ++ [v.dim]
      else (argshapes.getD a []).take nb ++ [blockRows (halfSizes tagI nx ny).1 (halfSizes tagI nx ny).2 v.cat, v.dim]

/-- The packed arrays. -/
def pairArgs (vars : List VarInfo) (tagI nx ny : Nat) (args : Nat → Mem V) : Nat → Mem (V × V) :=
  fun ind => match vars.find? (fun v => v.ind = ind) with
    | none => asHalf2 (args ind)
    | some v => asHalf2 ((halfArgB (1 - tagI) (if tagI = 0 then nx else ny) (if tagI = 0 then ny else nx) v
        (args v.ind)).getD (args ind))

theorem pairShapes_ok {vars : List VarInfo} (hw : WfVars vars) {argshapes : List (List Nat)} {nb : Nat}
    {full : Nat → Nat} {M N : Nat} (h : BatchShapes vars (fun a => argshapes.getD a []) nb full M N) (tagI nx ny : Nat) :
    BatchShapes vars (fun a => (pairShapes vars tagI nb nx ny argshapes).getD a []) nb full
      (halfSizes tagI nx ny).1 (halfSizes tagI nx ny).2 := by
  refine batchShapes_rerow hw h (fun v s => if v.cat = 2 then s.take nb ++ [v.dim]
      else s.take nb ++ [blockRows (halfSizes tagI nx ny).1 (halfSizes tagI nx ny).2 v.cat, v.dim]) ?_
  intro v _ s hs
  by_cases h2 : v.cat = 2
  · simp only [h2, if_true]
    exact ⟨by simp [hs], fun b hb => take_getD _ hs hb, fun g => absurd rfl g⟩
  · simp only [h2, if_false]
    exact ⟨by simp [hs], fun b hb => take_getD _ hs hb, fun _ => take_getD_last _ _ hs⟩

/-- A batched call in half precision is the call of a formula on pairs. -/
theorem halfCallB_batch {ev : (Nat → Option (Mem V)) → Mem V} {vars : List VarInfo} {tagI : Nat}
    {args : Nat → Mem V} {argshapes : List (List Nat)} {nb : Nat} {full : Nat → Nat} {M N : Nat}
    (hw : WfVars vars) (ht : tagI < 2)
    (h : BatchShapes vars (fun a => argshapes.getD a []) nb full M N)
    (hex : ∃ v ∈ vars, v.cat < 2) (hnb : 0 < nb) (hN : 0 < Spec.redRows tagI M N) (dimout : Nat) :
    ∃ H, halfCallB ev vars tagI args argshapes nb M N dimout = some H ∧
      BatchCall (lanes ev) vars tagI (pairArgs vars tagI M N args) (pairShapes vars tagI nb M N argshapes) nb full
        (halfSizes tagI M N).1 (halfSizes tagI M N).2 H := by
  have hpad : BatchShapes vars (fun a => ((List.range argshapes.length).map fun a =>
      match vars.find? (fun v => v.ind = a) with
      | none => argshapes.getD a []
      | some v => halfShape (1 - tagI) (if tagI = 0 then M else N) (if tagI = 0 then N else M) nb v
          (argshapes.getD a [])).getD a []) nb full (paddedSizes tagI M N).1 (paddedSizes tagI M N).2 := by
    refine batchShapes_rerow hw h (halfShape (1 - tagI) (if tagI = 0 then M else N) (if tagI = 0 then N else M) nb) ?_
    intro v hv s hs
    unfold halfShape
    by_cases h2 : v.cat = 2
    · simp only [h2, if_true]
      exact ⟨by simp [hs], fun b hb => take_getD _ hs hb, fun g => absurd rfl g⟩
    · simp only [h2, if_false]
      refine ⟨by simp [hs], fun b hb => take_getD _ hs hb, fun _ => ?_⟩
      rw [take_getD_last _ _ hs]
      have := hw.cat v hv
      exact halfBlock_padded ht (by omega)
  have hpair := pairShapes_ok hw h tagI M N
  have hbatch : ∀ v ∈ vars, ∀ b < nb, (((List.range argshapes.length).map fun a =>
      match vars.find? (fun v => v.ind = a) with
      | none => argshapes.getD a []
      | some v => halfShape (1 - tagI) (if tagI = 0 then M else N) (if tagI = 0 then N else M) nb v
          (argshapes.getD a [])).getD v.ind []).getD b 0 =
        ((pairShapes vars tagI nb M N argshapes).getD v.ind []).getD b 0 := by
    intro v hv b hb
    have hlen : nb ≤ (argshapes.getD v.ind []).length := by
      have := h.length v hv
      split_ifs at this <;> omega
    unfold pairShapes
    rw [rangeMap_getD _ _ (batchShapes_ind_lt h hv), rangeMap_getD _ _ (batchShapes_ind_lt h hv)]
    simp only [find_ind hw.nodup hv]
    unfold halfShape
    split_ifs <;> rw [take_getD _ hlen hb, take_getD _ hlen hb]
  obtain ⟨s1, s2, s3, s4, s5, s6, s7⟩ := mkSizes_spec hw dimout hpad hex
  have s8 := fun v (hv : v ∈ vars) hc => mkSizes_one hw dimout hpad hex hv hc
  unfold halfCallB
  dsimp only
  generalize hsh : ((List.range argshapes.length).map fun a =>
      match vars.find? (fun v => v.ind = a) with
      | none => argshapes.getD a []
      | some v => halfShape (1 - tagI) (if tagI = 0 then M else N) (if tagI = 0 then N else M) nb v
          (argshapes.getD a [])) = shapes at *
  generalize hs : mkSizes shapes (paddedSizes tagI M N).1 (paddedSizes tagI M N).2 dimout (indsOf vars 0)
    (indsOf vars 1) (indsOf vars 2) = s at *
  have hs' : mkSizes shapes (paddedSizes tagI M N).1 (paddedSizes tagI M N).2 dimout
    ((varsOf vars 0).map (·.ind)) ((varsOf vars 1).map (·.ind)) ((varsOf vars 2).map (·.ind)) = s := hs
  simp only [hs']
  rw [if_pos]
  swap
  · rw [List.all_eq_true]
    intro v _
    unfold halfArgB
    dsimp only
    rw [if_pos (halfArg_isSome (by exact hN) v _)]
    rfl
  unfold mkRanges
  have n1 : (switchHalf2 argshapes.length s).nbatchdims = nb := s1
  rw [if_neg (by omega)]
  have hM : (switchHalf2 argshapes.length s).M = (halfSizes tagI M N).1 := by
    rw [halfSizes_padded, ← s2]; rfl
  have hN' : (switchHalf2 argshapes.length s).N = (halfSizes tagI M N).2 := by
    rw [halfSizes_padded, ← s3]; rfl
  refine ⟨_, rfl, ?_⟩
  have ht' : tagI = 0 ∨ tagI = 1 := by omega
  refine ⟨rfl, rfl, rfl, rfl, n1, ?_, ?_, ?_, ?_, ?_, ?_, ?_, ?_, ?_⟩
  · unfold RProblem.rowsX Spec.outRows; simp only [hM, hN']
  · unfold RProblem.rowsY Spec.redRows; simp only [hM, hN']
  · intro b hb
    rw [switchHalf2_low _ _ (by omega), s4 b hb]
  · intro v hv b hb
    unfold RProblem.line
    simp only [n1]
    have := switchHalf2_line argshapes.length s (batchShapes_ind_lt h hv) (c := b) (by omega)
    rw [s1] at this
    rw [if_pos hb, this, if_neg, s6 v hv b hb, hbatch v hv b hb]
    unfold halvedColumn
    split_ifs <;> omega
  · intro v hv
    unfold RProblem.line
    simp only [n1, Nat.lt_irrefl, if_false]
    by_cases h2 : v.cat = 2
    · rw [if_pos h2]; unfold blockRows; rw [if_pos h2]
    · rw [if_neg h2]
      have hc := hw.cat v hv
      have hcol := s7 v hv (by omega)
      have hev := padded_even tagI M N v.cat (by omega)
      have hval : (switchHalf2 argshapes.length s).shapes ((1 + v.ind) * (nb + 3) + nb + v.cat) =
          blockRows (halfSizes tagI M N).1 (halfSizes tagI M N).2 v.cat := by
        have := switchHalf2_line argshapes.length s (batchShapes_ind_lt h hv) (c := nb + v.cat) (by omega)
        rw [s1] at this
        rw [Nat.add_assoc, this, ← Nat.add_assoc, hcol]
        have e : blockRows (halfSizes tagI M N).1 (halfSizes tagI M N).2 v.cat =
            blockRows (paddedSizes tagI M N).1 (paddedSizes tagI M N).2 v.cat / 2 := by
          rw [halfSizes_padded]
          unfold blockRows
          rw [if_neg h2, if_neg h2]
          split_ifs <;> rfl
        rw [e]
        unfold halvedColumn
        rw [s1]
        have hc' : v.cat = 0 ∨ v.cat = 1 := by omega
        rcases hc' with hc' | hc'
        · rw [hc'] at hcol hev ⊢
          rw [Nat.add_zero] at hcol
          rw [hcol]
          split_ifs <;> omega
        · have h1 := s8 v hv hc'
          rw [hc'] at hcol hev ⊢
          rw [hcol, h1]
          split_ifs <;> omega
      by_cases h3 : v.cat = tagI
      · rw [if_pos h3, show 1 - (1 - tagI) = v.cat by omega, hval]
      · rw [if_neg h3, show 1 - tagI = v.cat by omega, hval]
  · rw [batchCount_eq, ← s5]
    unfold RProblem.ax RangesArr.axis
    rcases ht' with rfl | rfl <;> simp [switchHalf2]
  · intro r
    have e1 : (2 * r + 1) / 2 = r := by omega
    have e2 : (2 * r + 1) % 2 = 1 := by omega
    unfold RProblem.ax RangesArr.axis Spec.outRows
    rcases ht' with rfl | rfl <;> simp [e1, e2, hM, hN']
  · intro r
    unfold RProblem.ax RangesArr.axis AxisRanges.startSlice AxisRanges.endSlice
    rcases ht' with rfl | rfl <;> simp <;> split <;> omega
  · intro r
    have e1 : (2 * r + 1) / 2 = r := by omega
    have e2 : (2 * r + 1) % 2 = 1 := by omega
    unfold RProblem.ax RangesArr.axis Spec.redRows
    rcases ht' with rfl | rfl <;> simp [e1, e2, hM, hN']

/-- One component of the formula on the packed arrays of one batch. -/
theorem pairArgs_F {ev : (Nat → Option (Mem V)) → Mem V} {vars : List VarInfo} {tagI : Nat}
    {args : Nat → Mem V} {argshapes : List (List Nat)} {nb : Nat} {full : Nat → Nat} {M N : Nat}
    (hw : WfVars vars) (ht : tagI < 2) (hev : EvLocal vars ev)
    (h : BatchShapes vars (fun a => argshapes.getD a []) nb full M N) (hN : 0 < Spec.redRows tagI M N)
    (idx : Nat → Nat) {r j l : Nat} (hl : l < 2) (hr : 2 * r + l < Spec.outRows tagI M N)
    (hj : j < Spec.redRows tagI M N) (k : Nat) :
    lane l (lanes ev (Spec.env vars tagI (batchArgs vars (fun a => (pairShapes vars tagI nb M N argshapes).getD a [])
        nb (halfSizes tagI M N).1 (halfSizes tagI M N).2 idx (pairArgs vars tagI M N args)) r j) k) =
      ev (Spec.env vars tagI (batchArgs vars (fun a => argshapes.getD a []) nb M N idx args) (2 * r + l)
        (oddRow (Spec.redRows tagI M N) (2 * j + l))) k := by
  rw [lanes_lane _ _ _ hl]
  refine congrFun (hev _ _ fun v hv => ?_) k
  have hf := find_ind hw.nodup hv
  have hc := hw.cat v hv
  unfold Spec.env
  rw [hf]
  refine ⟨_, _, rfl, rfl, fun k hk => ?_⟩
  unfold batchArgs
  simp only [hf]
  have hlen : nb ≤ (argshapes.getD v.ind []).length := by
    have := h.length v hv
    split_ifs at this <;> omega
  -- the batch dimensions are those of the user
  have hdims : ∀ b < nb, ((pairShapes vars tagI nb M N argshapes).getD v.ind []).getD b 0 =
      (argshapes.getD v.ind []).getD b 0 := by
    intro b hb
    unfold pairShapes
    rw [rangeMap_getD _ _ (batchShapes_ind_lt h hv)]
    simp only [hf]
    split_ifs <;> rw [take_getD _ hlen hb]
  have hrav : ravel nb (fun b => ((pairShapes vars tagI nb M N argshapes).getD v.ind []).getD b 0)
      (bcast (fun b => ((pairShapes vars tagI nb M N argshapes).getD v.ind []).getD b 0) idx) =
      ravel nb (fun b => (argshapes.getD v.ind []).getD b 0)
        (bcast (fun b => (argshapes.getD v.ind []).getD b 0) idx) := by
    refine ravel_congr (fun b hb => hdims b hb) fun b hb => ?_
    unfold bcast
    simp only [hdims b hb]
  rw [hrav]
  generalize ravel nb (fun b => (argshapes.getD v.ind []).getD b 0)
        (bcast (fun b => (argshapes.getD v.ind []).getD b 0) idx) = b
  generalize hn : halfBlock (1 - tagI) (if tagI = 0 then M else N) (if tagI = 0 then N else M) v = n
  have hn1 : n.1 = blockRows M N v.cat := by rw [← hn]; exact halfBlock_user ht hc
  have hn2 : n.2 = 2 * blockRows (halfSizes tagI M N).1 (halfSizes tagI M N).2 v.cat := by
    rw [← hn]; exact halfBlock_half ht hc
  have hsome : ∀ x : Mem V, ∃ a, halfArg (1 - tagI) (if tagI = 0 then M else N) (if tagI = 0 then N else M) v x =
      some a := by
    intro x
    rw [← Option.isSome_iff_exists]
    exact halfArg_isSome hN v x
  obtain ⟨a0, ha0⟩ := hsome (args v.ind)
  obtain ⟨a, ha⟩ := hsome (fun q => args v.ind (b * (n.1 * v.dim) + q))
  have hrow : Spec.row tagI r j v.cat < blockRows (halfSizes tagI M N).1 (halfSizes tagI M N).2 v.cat := by
    have ho := halfSizes_out tagI M N
    have hd := halfSizes_red tagI M N
    have ht' : tagI = 0 ∨ tagI = 1 := by omega
    have hc' : v.cat = 0 ∨ v.cat = 1 ∨ v.cat = 2 := by omega
    unfold Spec.row blockRows
    unfold Spec.outRows at hr ho
    unfold Spec.redRows at hj hd
    rcases ht' with rfl | rfl <;> rcases hc' with h' | h' | h' <;> simp [h'] at * <;> omega
  have hpos : Spec.row tagI r j v.cat * v.dim + k <
      blockRows (halfSizes tagI M N).1 (halfSizes tagI M N).2 v.cat * v.dim := by
    calc _ < Spec.row tagI r j v.cat * v.dim + v.dim := by omega
      _ = (Spec.row tagI r j v.cat + 1) * v.dim := by ring
      _ ≤ _ := Nat.mul_le_mul_right _ hrow
  have hread : pairArgs vars tagI M N args v.ind
      (b * (blockRows (halfSizes tagI M N).1 (halfSizes tagI M N).2 v.cat * v.dim) +
        (Spec.row tagI r j v.cat * v.dim + k)) =
      asHalf2 a (Spec.row tagI r j v.cat * v.dim + k) := by
    have hB : ∀ q, q < n.2 * v.dim → (halfArgB (1 - tagI) (if tagI = 0 then M else N) (if tagI = 0 then N else M) v
        (args v.ind)).getD (args v.ind) (b * (n.2 * v.dim) + q) = a q := by
      intro q hq
      unfold halfArgB
      rw [if_pos (by rw [ha0]; rfl), hn]
      simp only [Option.getD_some]
      rw [perBlock_apply _ _ _ _ hq, ha]
      rfl
    unfold pairArgs
    simp only [hf]
    unfold asHalf2
    generalize Spec.row tagI r j v.cat * v.dim + k = q at *
    have e : n.2 * v.dim = 2 * (blockRows (halfSizes tagI M N).1 (halfSizes tagI M N).2 v.cat * v.dim) := by
      rw [hn2]; ring
    rw [e] at hB
    generalize blockRows (halfSizes tagI M N).1 (halfSizes tagI M N).2 v.cat * v.dim = w at *
    rw [show 2 * (b * w + q) = b * (2 * w) + 2 * q by ring, Nat.add_assoc, hB _ (by omega), hB _ (by omega)]
  rw [hread]
  have := halfArg_row ht hc ha hl (r := r) (j := j) (k := k) hr hj hk
  rw [hn1] at this
  exact this

end Verif
