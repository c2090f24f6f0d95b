import Mathlib.Algebra.BigOperators.Intervals
import Verif.Props.Reductions
import Verif.Proofs.Batch

/-!
# Block-sparse and batched reductions: C17, C18, C23

`rangeCall` builds the call from the shapes of the arguments and the ranges of the user;
`RExec R S P out out'` ranges over all executions of this call, on the CPU with any order of the
parallel loop and on the GPU with any block size and any order of the threads.
-/

namespace Verif

open Spec (outRows redRows EvLocal WfVars BatchShapes batchArgs ravel batchCount blockRows)

variable {V : Type}

/-- Accumulation from left to right. -/
def FoldAcc (R : Red V) (xs : List (Nat × Mem V)) (acc : Mem V) : Prop :=
  ∃ junk, acc = xs.foldl (fun a x => R.short a x.2 x.1) (R.init junk)

theorem foldScheme_lawful (R : Red V) :
    LawfulScheme True R (directScheme R) (FoldAcc R) (fun xs s => FoldAcc R xs s.1)
      (fun xs s => FoldAcc R xs s.1) where
  cpuInit a t := ⟨a, rfl⟩
  gpuInit a t := ⟨a, rfl⟩
  blockInit xs s hs := hs
  accum xs s x j hs := by
    obtain ⟨junk, h⟩ := hs
    exact ⟨junk, by simp [directScheme, h]⟩
  periodic xs s p j _ hs := hs
  final xs s _ hs := hs
  acc xs s hs := hs

/-! ## C17: ranges -/

/-- The arrays have no batch dimension. -/
def NoBatch (vars : List VarInfo) (argshapes : List (List Nat)) : Prop :=
  ∀ v ∈ vars, v.cat < 2 → (argshapes.getD v.ind []).length = 2

/-- Well-formed ranges along the output axis: the intervals `[start, end)` of the reduction axis
have `start ≤ end`. -/
def WfAxis (ax : AxisRanges) : Prop :=
  ∀ r < ax.nranges, ∀ s, ax.startSlice r ≤ s → s < ax.endSlice r →
    ax.rangesY (2 * s) ≤ ax.rangesY (2 * s + 1)

/-- Row `i` belongs to cluster `r` and to no other cluster. -/
def InCluster (ax : AxisRanges) (r i : Nat) : Prop :=
  r < ax.nranges ∧ (ax.rangesX (2 * r) ≤ i ∧ i < ax.rangesX (2 * r + 1)) ∧
  ∀ r' < ax.nranges, ax.rangesX (2 * r') ≤ i → i < ax.rangesX (2 * r' + 1) → r' = r

/-- The indices `j` of cluster `r`: its intervals one after the other. -/
def clusterList (ax : AxisRanges) (r : Nat) : List Nat :=
  (List.range' (ax.startSlice r) (ax.endSlice r - ax.startSlice r)).flatMap (fun s =>
    List.range' (ax.rangesY (2 * s)) (ax.rangesY (2 * s + 1) - ax.rangesY (2 * s)))

theorem nbatchdims_zero {vars : List VarInfo} {argshapes : List (List Nat)}
    (h : NoBatch vars argshapes) : nbatchdimsOf argshapes (indsOf vars 0) (indsOf vars 1) = 0 := by
  have hmem : ∀ c a, c < 2 → (indsOf vars c).min? = some a →
      (argshapes.getD a []).length = 2 := by
    intro c a hc ha
    have hm := List.min?_mem ha
    simp only [indsOf, varsOf, List.mem_map, List.mem_filter, decide_eq_true_eq] at hm
    obtain ⟨v, ⟨hv, hvc⟩, rfl⟩ := hm
    exact h v hv (by omega)
  unfold nbatchdimsOf
  cases h0 : (indsOf vars 0).min? with
  | none =>
    cases h1 : (indsOf vars 1).min? with
    | none => rfl
    | some b => simp only [hmem 1 b (by omega) h1]
  | some a =>
    cases h1 : (indsOf vars 1).min? with
    | none => simp only [hmem 0 a (by omega) h0]
    | some b =>
      simp only
      rcases Nat.le_total a b with h | h
      · rw [max_eq_right h, hmem 1 b (by omega) h1]
      · rw [max_eq_left h, hmem 0 a (by omega) h0]

/-- A call with ranges given by the user. -/
theorem rangeCall_user {ev : (Nat → Option (Mem V)) → Mem V} {vars : List VarInfo} {tagI : Nat}
    {args : Nat → Mem V} {argshapes : List (List Nat)} (h : NoBatch vars argshapes)
    (M N dimout rows : Nat) (u : RangesArr) :
    ∃ P, rangeCall ev vars tagI args argshapes M N dimout rows (some u) = some P ∧
      P.ev = ev ∧ P.vars = vars ∧ P.tagI = tagI ∧ P.args = args ∧ P.sizes.nbatchdims = 0 ∧
      P.ax = u.axis tagI ∧ P.outRows = rows := by
  have hnb : (mkSizes argshapes M N dimout ((varsOf vars 0).map (·.ind))
      ((varsOf vars 1).map (·.ind)) ((varsOf vars 2).map (·.ind))).nbatchdims = 0 :=
    nbatchdims_zero h
  unfold rangeCall
  simp only
  generalize mkSizes argshapes M N dimout ((varsOf vars 0).map (·.ind))
      ((varsOf vars 1).map (·.ind)) ((varsOf vars 2).map (·.ind)) = s at hnb
  have hm : mkRanges s (some u) = some (some u) := by
    unfold mkRanges
    rw [if_pos hnb]
  simp only [hm]
  exact ⟨_, rfl, rfl, rfl, rfl, rfl, hnb, rfl, rfl⟩

theorem user_correct {E} {R : Red V} {S : Scheme V} {A Bf G} (hL : LawfulScheme E R S A Bf G)
    (hf : FinLocal R) {P : RProblem V} (hw : WfVars P.vars) (ht : P.tagI < 2)
    (hev : EvLocal P.vars P.ev) (hnb : P.sizes.nbatchdims = 0) (hax : WfAxis P.ax)
    {out out' : Mem V} (he : RExec R S P out out') {r i : Nat} (hi : InCluster P.ax r i)
    (hne : E ∨ clusterList P.ax r ≠ []) :
    ∃ acc, A ((clusterList P.ax r).map
        (fun j => (j, P.ev (Spec.env P.vars P.tagI P.args i j)))) acc ∧
      ∀ k < R.dim, ∀ o, out' (i * R.dim + k) = R.fin acc o k := by
  have hitems : P.items r i = (clusterList P.ax r).map
        (fun j => (j, P.ev (Spec.env P.vars P.tagI P.args i j))) := by
    unfold RProblem.items sliceItems clusterList
    rw [List.map_flatMap]
    congr 1
    funext s
    unfold segItems RProblem.locJ RProblem.F RProblem.locI RProblem.view RProblem.locJ
    simp only [hnb, if_true]
  have := rexec_correct hL hf (P := P)
    ⟨hw, ht, hev, fun h => absurd hnb h⟩
    ⟨fun h => absurd hnb h, fun h => absurd hnb h, fun h => absurd hnb h⟩ hax he hi.1 hi.2.1 hi.2.2
    (by rw [hitems]; simpa using hne)
  rw [hitems] at this
  exact this

theorem sum_range' [AddCommMonoid V] (a b : Nat) (f : Nat → V) :
    ((List.range' a (b - a)).map f).sum = ∑ j ∈ Finset.Ico a b, f j := by
  rw [Finset.sum_Ico_eq_sum_range, ← list_sum_range, List.range'_eq_map_range, List.map_map]
  rfl

theorem sum_clusterList [AddCommMonoid V] (ax : AxisRanges) (r : Nat) (f : Nat → V) :
    ((clusterList ax r).map f).sum =
      ∑ s ∈ Finset.Ico (ax.startSlice r) (ax.endSlice r),
        ∑ j ∈ Finset.Ico (ax.rangesY (2 * s)) (ax.rangesY (2 * s + 1)), f j := by
  unfold clusterList
  rw [← sum_range' _ _ (fun s => ∑ j ∈ Finset.Ico (ax.rangesY (2 * s)) (ax.rangesY (2 * s + 1)), f j)]
  generalize List.range' (ax.startSlice r) (ax.endSlice r - ax.startSlice r) = l
  induction l with
  | nil => simp
  | cons s l ih => rw [List.flatMap_cons, List.map_append, List.sum_append, ih, sum_range']; rfl

/-- C17 (sums): with ranges, for each scheme, in every execution, row `i` of cluster `r` is the sum
over the listed intervals of the cluster of the formula. -/
theorem C17_sum (V : Type) [AddCommGroup V] (d : Nat) (sch : SumScheme) :
    ∃ S, getScheme (sumRed (V := V) d) sch = some S ∧
      ∀ (ev : (Nat → Option (Mem V)) → Mem V) (vars : List VarInfo) (tagI : Nat)
        (args : Nat → Mem V) (argshapes : List (List Nat)) (M N dimout rows : Nat) (u : RangesArr),
      WfVars vars → tagI < 2 → EvLocal vars ev → NoBatch vars argshapes → WfAxis (u.axis tagI) →
      ∃ P, rangeCall ev vars tagI args argshapes M N dimout rows (some u) = some P ∧
        ∀ out out', RExec (sumRed d) S P out out' → ∀ r i, InCluster (u.axis tagI) r i →
          ∀ k < d, out' (i * d + k) =
            ∑ s ∈ Finset.Ico ((u.axis tagI).startSlice r) ((u.axis tagI).endSlice r),
              ∑ j ∈ Finset.Ico ((u.axis tagI).rangesY (2 * s)) ((u.axis tagI).rangesY (2 * s + 1)),
                ev (Spec.env vars tagI args i j) k := by
  obtain ⟨S, B, G, hS, hL⟩ := sum_getScheme_lawful (V := V) d sch
  refine ⟨S, hS, fun ev vars tagI args argshapes M N dimout rows u hw ht hev hsh hax => ?_⟩
  obtain ⟨P, hP, e1, e2, e3, e4, e5, e6, -⟩ := rangeCall_user (ev := ev) (args := args)
    (tagI := tagI) hsh M N dimout rows u
  refine ⟨P, hP, fun out out' he r i hi k hk => ?_⟩
  obtain ⟨acc, ha, ho⟩ := user_correct hL (sumRed_finLocal d) (by rw [e2]; exact hw)
    (by rw [e3]; exact ht) (by rw [e1, e2]; exact hev) e5 (by rw [e6]; exact hax) he
    (by rw [e6]; exact hi) (Or.inl trivial)
  rw [e1, e2, e3, e4, e6] at ha
  have h1 := ho k hk out
  rw [show (sumRed (V := V) d).dim = d from rfl] at h1
  rw [h1]
  simp only [sumRed, vectCopy_apply, hk, if_true]
  rw [ha k hk, ← sum_clusterList, List.map_map]
  rfl

/-- C17 (any reduction): with the direct scheme, row `i` of cluster `r` is the accumulation of the
formula over the intervals of the cluster, in the order in which they are listed. -/
theorem C17_fold (R : Red V) (hf : FinLocal R) (ev : (Nat → Option (Mem V)) → Mem V)
    (vars : List VarInfo) (tagI : Nat) (args : Nat → Mem V) (argshapes : List (List Nat))
    (M N dimout rows : Nat) (u : RangesArr) (hw : WfVars vars) (ht : tagI < 2)
    (hev : EvLocal vars ev) (hsh : NoBatch vars argshapes) (hax : WfAxis (u.axis tagI)) :
    ∃ P, rangeCall ev vars tagI args argshapes M N dimout rows (some u) = some P ∧
      ∀ out out', RExec R (directScheme R) P out out' → ∀ r i, InCluster (u.axis tagI) r i →
        ∃ junk, ∀ k < R.dim, ∀ o, out' (i * R.dim + k) =
          R.fin ((clusterList (u.axis tagI) r).foldl
            (fun a j => R.short a (ev (Spec.env vars tagI args i j)) j) (R.init junk)) o k := by
  obtain ⟨P, hP, e1, e2, e3, e4, e5, e6, -⟩ := rangeCall_user (ev := ev) (args := args)
    (tagI := tagI) hsh M N dimout rows u
  refine ⟨P, hP, fun out out' he r i hi => ?_⟩
  obtain ⟨acc, ⟨junk, ha⟩, ho⟩ := user_correct (foldScheme_lawful R) hf (by rw [e2]; exact hw)
    (by rw [e3]; exact ht) (by rw [e1, e2]; exact hev) e5 (by rw [e6]; exact hax) he
    (by rw [e6]; exact hi) (Or.inl trivial)
  refine ⟨junk, fun k hk o => ?_⟩
  rw [ho k hk o, ha, e1, e2, e3, e4, e6, List.foldl_map]

/-- Two clusters of rows `[0,2)`, `[2,4)` with intervals `[0,2)` and `[1,2), [3,4)`. -/
def exRanges : RangesArr where
  nrangesX := 2
  nrangesY := 0
  arr := fun k p => match k with
    | 0 => [0, 2, 2, 4].getD p 0
    | 1 => [1, 3].getD p 0
    | 2 => [0, 2, 1, 2, 3, 4].getD p 0
    | _ => 0

theorem exRanges_wf : WfAxis (exRanges.axis 0) := by
  intro r hr s h1 h2
  have hr' : r = 0 ∨ r = 1 := by
    have : r < 2 := hr
    omega
  rcases hr' with rfl | rfl
  · have h : s = 0 := by
      have h3 : s < 1 := h2
      omega
    subst h; decide
  · have h : s = 1 ∨ s = 2 := by
      have h3 : 1 ≤ s := h1
      have h4 : s < 3 := h2
      omega
    rcases h with rfl | rfl <;> decide

theorem rexec_exists_cpu (R : Red V) (S : Scheme V) (P : RProblem V) (out : Mem V) :
    ∃ out', RExec R S P out out' :=
  ⟨_, RExec.cpu (fun _ _ => out) (fun _ => _) (fun _ _ => List.Perm.refl _)⟩

theorem rexec_exists_gpu (R : Red V) (S : Scheme V) (P : RProblem V) (out : Mem V) :
    ∃ out', RExec R S P out out' :=
  ⟨_, RExec.gpu 192 (by decide) (fun _ _ _ => (List.range 192).reverse)
    (fun _ _ _ => List.reverse_perm _) (fun _ _ => out) _ (List.reverse_perm _)⟩

/-- The hypotheses of `C17_sum` and `C17_fold` are met by `exRanges`, on both backends. -/
example : WfAxis (exRanges.axis 0) ∧ InCluster (exRanges.axis 0) 1 3 ∧
    clusterList (exRanges.axis 0) 1 = [1, 3] ∧
    NoBatch (exProblem ℤ 4 4 (fun _ k => k)).vars [[4, 1], [4, 1]] ∧
    ∀ S (P : RProblem ℤ) out, ∃ out', RExec (sumRed 1) S P out out' :=
  ⟨exRanges_wf, ⟨by decide, by decide, fun r' hr' h1 h2 => by
      have h3 : r' < 2 := hr'
      have h4 : r' = 0 ∨ r' = 1 := by omega
      rcases h4 with rfl | rfl
      · exact absurd h2 (by decide)
      · rfl⟩, by decide, by simp [NoBatch, exProblem], fun S P out => rexec_exists_gpu _ S P out⟩

/-- C17, rows that belong to no cluster, CPU: they contain the value of an empty reduction. -/
theorem C17_uncovered_cpu (R : Red V) (hf : FinLocal R) (S : Scheme V) (P : RProblem V)
    (junk : Nat → Nat → Mem V) (order : Nat → List Nat)
    (horder : ∀ r < P.ax.nranges, (order r).Perm
        (List.range' (P.ax.rangesX (2 * r)) (P.ax.rangesX (2 * r + 1) - P.ax.rangesX (2 * r))))
    (out : Mem V) (i : Nat) (hi : i < P.outRows)
    (hnone : ∀ r < P.ax.nranges, ¬ (P.ax.rangesX (2 * r) ≤ i ∧ i < P.ax.rangesX (2 * r + 1))) :
    ∀ k < R.dim, ∀ o, cpuConvRanges R S P junk order out (i * R.dim + k) =
      R.fin (R.init (junk i 0)) o k := by
  intro k hk o
  have hmem : ∀ w ∈ cpuRangeWrites R S P junk order P.ax.nranges, RowLocal R.dim w.2 ∧ w.1 ≠ i := by
    intro w hw
    obtain ⟨r, hr, i', hi', rfl⟩ := mem_cpuRangeWrites hw
    refine ⟨hf.rowLocal _, ?_⟩
    rintro rfl
    have := (horder r hr).mem_iff.mp hi'
    rw [List.mem_range'_1] at this
    exact hnone r hr ⟨this.1, by omega⟩
  rw [cpuConvRanges_writes, runWrites_frame (fun w hw => (hmem w hw).1) _
    (fun w hw => row_disjoint (fun h => (hmem w hw).2 h.symm) hk)]
  apply runWrites_row (val := R.fin (R.init (junk i 0)) o) (o := o)
  · intro w hw
    obtain ⟨i', _, rfl⟩ := List.mem_map.mp hw
    exact hf.rowLocal _
  · exact ⟨_, List.mem_map.mpr ⟨i, by simpa using hi, rfl⟩, rfl⟩
  · intro w hw hwi c _
    obtain ⟨i', _, rfl⟩ := List.mem_map.mp hw
    simp only at hwi
    rw [hwi]
  · exact hk

/-- C17, rows that belong to no cluster, GPU: they are not written, so that the result contains
whatever was in the (uninitialised) memory of the output.  The CPU and the GPU disagree. -/
theorem C17_uncovered_gpu (R : Red V) (hf : FinLocal R) (S : Scheme V) (P : RProblem V)
    {B : Nat} (hB : 0 < B) (ord : Nat → Nat → Nat → List Nat) (junk : Nat → Nat → Mem V)
    (sched : List (Nat × Nat)) (out : Mem V) (i : Nat)
    (hnone : ∀ r < P.ax.nranges, ¬ (P.ax.rangesX (2 * r) ≤ i ∧ i < P.ax.rangesX (2 * r + 1))) :
    ∀ k < R.dim, gpuRanges R S P B ord junk sched out (i * R.dim + k) = out (i * R.dim + k) := by
  intro k hk
  rw [gpuRanges_writes]
  apply runWrites_frame
  · intro w hw
    obtain ⟨b, t, blk, _, _, _, rfl⟩ := mem_gpuRangeWrites hw
    exact hf.rowLocal _
  · intro w hw
    obtain ⟨b, t, blk, _, hl, hlt, rfl⟩ := mem_gpuRangeWrites hw
    apply row_disjoint _ hk
    rintro rfl
    obtain ⟨g1, g2, g3, g4, g5⟩ := lookup_inside hB P.ax.rangesX hl
    exact hnone blk.1 g1 ⟨by omega, by omega⟩

/-- C17 is not total: ranges given together with batch dimensions are accepted (the check is not
compiled in) and leave the ranges uninitialised. -/
theorem C17_ranges_with_batches_uninitialised (s : Sizes) (h : s.nbatchdims ≠ 0) (u : RangesArr) :
    mkRanges s (some u) = some none := by
  unfold mkRanges
  rw [if_neg h]

example : (mkSizes [[3, 4, 1], [3, 4, 1]] 4 4 1 [0] [1] []).nbatchdims ≠ 0 := by decide

/-! ## C23: the lookup table -/

/-- C23: the table has as many entries as announced; each block is nonempty, has at most `B` rows
and lies in one range; each row of each range is computed by exactly one thread of exactly one
block. -/
theorem C23_lookup (B n : Nat) (hB : 0 < B) (rangesX : Mem Nat) :
    (lookupTable B n rangesX).length = nblocks B n rangesX ∧
    (∀ blk ∈ lookupTable B n rangesX, blk.1 < n ∧ blk.2.1 < blk.2.2 ∧ blk.2.2 ≤ blk.2.1 + B ∧
      rangesX (2 * blk.1) ≤ blk.2.1 ∧ blk.2.2 ≤ rangesX (2 * blk.1 + 1)) ∧
    ∀ r < n, ∀ i, rangesX (2 * r) ≤ i → i < rangesX (2 * r + 1) →
      ∃! bt : Nat × Nat, bt.2 < B ∧ ∃ blk, (lookupTable B n rangesX)[bt.1]? = some blk ∧
        blk.1 = r ∧ blk.2.1 + bt.2 = i ∧ i < blk.2.2 := by
  refine ⟨(nblocks_eq hB rangesX).symm, ?_, ?_⟩
  · intro blk hb
    obtain ⟨b, hb'⟩ := List.mem_iff_getElem?.mp hb
    obtain ⟨g1, g2, g3, g4, g5⟩ := lookup_inside hB rangesX hb'
    exact ⟨g1, g3, g5, g2, g4⟩
  · intro r hr i h1 h2
    obtain ⟨b, k, blk, g1, g2, g3, g4, g5, g6⟩ := lookup_cover hB rangesX hr ⟨h1, h2⟩
    refine ⟨(b, k), ⟨g2, blk, g1, g3, g5, g6⟩, ?_⟩
    rintro ⟨b', k'⟩ ⟨f2, blk', f1, f3, f5, f6⟩
    obtain ⟨rfl, rfl⟩ := lookup_thread_unique hB rangesX f1 g1 f2 g2 (f3.trans g3.symm)
      (f5.trans g5.symm)
    rfl

/-- The table for the ranges `[0,5)`, `[5,7)` and blocks of 2 threads. -/
example : lookupTable 2 2 (fun p => [0, 5, 5, 7].getD p 0) =
    [(0, 0, 2), (0, 2, 4), (0, 4, 5), (1, 5, 7)] := by decide

/-! ## C18: batch dimensions -/

/-- C18 (sums): with batch dimensions, for each scheme, in every execution, row `i` of the block of
the output at batch index `idx` is the sum of the formula over the blocks of the inputs at the
broadcast batch index.  The arrays have less than `2^31` rows. -/
theorem C18_sum_partial (V : Type) [AddCommGroup V] (d : Nat) (sch : SumScheme) :
    ∃ S, getScheme (sumRed (V := V) d) sch = some S ∧
      ∀ (ev : (Nat → Option (Mem V)) → Mem V) (vars : List VarInfo) (tagI : Nat)
        (args : Nat → Mem V) (argshapes : List (List Nat)) (nb : Nat) (full : Nat → Nat)
        (M N dimout rows : Nat),
      WfVars vars → tagI < 2 → EvLocal vars ev → (∃ v ∈ vars, v.cat < 2) → 0 < nb →
      BatchShapes vars (fun a => argshapes.getD a []) nb full M N →
      (∀ v ∈ vars, batchCount nb (fun b => (argshapes.getD v.ind []).getD b 0) *
        blockRows M N v.cat < 2 ^ 31) →
      ∃ P, rangeCall ev vars tagI args argshapes M N dimout rows none = some P ∧
        ∀ out out', RExec (sumRed d) S P out out' →
        ∀ idx : Nat → Nat, (∀ b < nb, idx b < full b) → ∀ i < outRows tagI M N, ∀ k < d,
          out' ((ravel nb full idx * outRows tagI M N + i) * d + k) =
            ∑ j ∈ Finset.range (redRows tagI M N), ev (Spec.env vars tagI
              (batchArgs vars (fun a => argshapes.getD a []) nb M N idx args) i j) k := by
  obtain ⟨S, B, G, hS, hL⟩ := sum_getScheme_lawful (V := V) d sch
  refine ⟨S, hS, fun ev vars tagI args argshapes nb full M N dimout rows hw ht hev hex hnb hsh h32 => ?_⟩
  obtain ⟨P, hP, hB⟩ := rangeCall_batch (ev := ev) (args := args) hw ht hsh hex hnb dimout rows
  refine ⟨P, hP, fun out out' he idx hidx i hi k hk => ?_⟩
  obtain ⟨acc, ha, ho⟩ := batch_correct hL (sumRed_finLocal d) hB hw ht hev hnb hsh h32
    (Or.inl trivial) he hidx hi
  have h1 := ho k hk out
  rw [show (sumRed (V := V) d).dim = d from rfl] at h1
  rw [h1]
  simp only [sumRed, vectCopy_apply, hk, if_true]
  rw [ha k hk, ← list_sum_range]
  simp only [items, List.map_map]
  rfl

/-- C18 (any reduction): with the direct scheme, row `i` of the block of the output at batch index
`idx` is the accumulation of the formula, in increasing order of `j`, over the blocks of the inputs
at the broadcast batch index. -/
theorem C18_fold_partial (R : Red V) (hf : FinLocal R) (ev : (Nat → Option (Mem V)) → Mem V)
    (vars : List VarInfo) (tagI : Nat) (args : Nat → Mem V) (argshapes : List (List Nat))
    (nb : Nat) (full : Nat → Nat) (M N dimout rows : Nat) (hw : WfVars vars) (ht : tagI < 2)
    (hev : EvLocal vars ev) (hex : ∃ v ∈ vars, v.cat < 2) (hnb : 0 < nb)
    (hsh : BatchShapes vars (fun a => argshapes.getD a []) nb full M N)
    (h32 : ∀ v ∈ vars, batchCount nb (fun b => (argshapes.getD v.ind []).getD b 0) *
        blockRows M N v.cat < 2 ^ 31) :
    ∃ P, rangeCall ev vars tagI args argshapes M N dimout rows none = some P ∧
      ∀ out out', RExec R (directScheme R) P out out' →
      ∀ idx : Nat → Nat, (∀ b < nb, idx b < full b) → ∀ i < outRows tagI M N,
        ∃ junk, ∀ k < R.dim, ∀ o,
          out' ((ravel nb full idx * outRows tagI M N + i) * R.dim + k) =
            R.fin ((List.range (redRows tagI M N)).foldl (fun a j =>
              R.short a (ev (Spec.env vars tagI
                (batchArgs vars (fun a => argshapes.getD a []) nb M N idx args) i j)) j)
              (R.init junk)) o k := by
  obtain ⟨P, hP, hB⟩ := rangeCall_batch (ev := ev) (args := args) hw ht hsh hex hnb dimout rows
  refine ⟨P, hP, fun out out' he idx hidx i hi => ?_⟩
  obtain ⟨acc, ⟨junk, ha⟩, ho⟩ := batch_correct (foldScheme_lawful R) hf hB hw ht hev hnb hsh h32
    (Or.inl trivial) he hidx hi
  refine ⟨junk, fun k hk o => ?_⟩
  rw [ho k hk o, ha]
  simp only [items, List.foldl_map]

/-- Batch dimensions `(3, 2)`: `x` has shape `(3, 1, 4, 1)` and `y` has shape `(1, 2, 5, 1)`. -/
def exShapes : List (List Nat) := [[3, 1, 4, 1], [1, 2, 5, 1]]

/-- The hypotheses of `C18_sum_partial` and `C18_fold_partial` are met; batch `(2, 1)` of the output is number 5,
and uses block 2 of `x` and block 1 of `y`. -/
example : WfVars (exProblem ℤ 4 5 (fun _ k => k)).vars ∧
    BatchShapes (exProblem ℤ 4 5 (fun _ k => k)).vars (fun a => exShapes.getD a []) 2
      (fun b => [3, 2].getD b 0) 4 5 ∧
    ravel 2 (fun b => [3, 2].getD b 0) (fun b => [2, 1].getD b 0) = 5 ∧
    batchArgs (exProblem ℤ 4 5 (fun _ k => k)).vars (fun a => exShapes.getD a []) 2 4 5
      (fun b => [2, 1].getD b 0) (fun _ k => (k : ℤ)) 0 0 = 8 ∧
    batchArgs (exProblem ℤ 4 5 (fun _ k => k)).vars (fun a => exShapes.getD a []) 2 4 5
      (fun b => [2, 1].getD b 0) (fun _ k => (k : ℤ)) 1 0 = 5 := by
  refine ⟨(exProblem_wf ℤ 4 5 (fun _ k => k)).vars, ⟨?_, ?_, ?_, ?_⟩, by decide, by decide, by decide⟩
  · simp [exProblem, exShapes]
  · intro v hv b hb
    have : b = 0 ∨ b = 1 := by omega
    simp only [exProblem, List.mem_cons, List.not_mem_nil, or_false] at hv
    rcases hv with rfl | rfl <;> rcases this with rfl | rfl <;> decide
  · intro v hv _
    simp only [exProblem, List.mem_cons, List.not_mem_nil, or_false] at hv
    rcases hv with rfl | rfl <;> decide
  · intro b hb
    have : b = 0 ∨ b = 1 := by omega
    rcases this with rfl | rfl
    · exact Or.inr ⟨⟨0, 1, 0⟩, by simp [exProblem], by decide⟩
    · exact Or.inr ⟨⟨1, 1, 1⟩, by simp [exProblem], by decide⟩

/-- The bound `2^31` of C18 is needed: `broadcast_index` returns a 32-bit integer.  With two
batches of `2^31` points, the offset of the second batch is negative. -/
theorem C18_int32_overflow :
    broadcastIndexLong (1 * 2 ^ 31) 1 (fun _ => 2) (fun b => [2, 2 ^ 31].getD b 0) = 2 ^ 31 ∧
    broadcastIndex (1 * 2 ^ 31) 1 (fun _ => 2) (fun b => [2, 2 ^ 31].getD b 0) = -2 ^ 31 := by
  have h : broadcastIndexLong (1 * 2 ^ 31) 1 (fun _ => 2) (fun b => [2, 2 ^ 31].getD b 0) = 2 ^ 31 := by
    simp [broadcastIndexLong, forRange]
  refine ⟨h, ?_⟩
  unfold broadcastIndex
  rw [h]
  decide

/-- With nonempty axes and nonempty batches no division by zero occurs in `broadcast_index`. -/
theorem C18_no_fault (nb : Nat) (full shape : Mem Nat) (hM : 0 < shape nb)
    (hf : ∀ b < nb, 0 < full b) (hs : ∀ b < nb, 0 < shape b) :
    ∀ q ∈ broadcastDivisors nb full shape, q ≠ 0 := by
  intro q hq
  unfold broadcastDivisors at hq
  rcases List.mem_cons.mp hq with rfl | hq
  · omega
  · obtain ⟨t, ht, hq⟩ := List.mem_flatMap.mp hq
    have ht' : t < nb := by simpa using ht
    simp only at hq
    split at hq
    · rcases List.mem_cons.mp hq with rfl | hq
      · have : ∀ n ≤ nb, 0 < (List.range n).foldl (fun s u => s * full (nb - u - 1)) (shape nb) := by
          intro n
          induction n with
          | zero => intro _; simpa using hM
          | succ n ih =>
            intro hn
            rw [List.range_succ, List.foldl_append]
            exact Nat.mul_pos (ih (by omega)) (hf _ (by omega))
        have := this t (by omega)
        omega
      · rw [List.mem_singleton.mp hq]
        have := hs (nb - t - 1) (by omega)
        omega
    · simp at hq

/-- A batched call with an empty axis divides by zero as soon as a variable lives on this axis. -/
theorem C18_empty_axis_faults (nb : Nat) (full shape : Mem Nat) (hM : shape nb = 0) :
    0 ∈ broadcastDivisors nb full shape := by
  unfold broadcastDivisors
  rw [hM]
  exact List.mem_cons_self

/-- An argument that does not appear in the formula changes the number of batches of the output but
not of the computation.  Formula in `x` of shape `(1, 2, 1)` and `y` of shape `(1, 3, 1)`, third
argument of shape `(3, 2, 1)`: the output has shape `(3, 2, 1)`, as NumPy's rule asks, but only its
two first rows are computed; the others are not written on the GPU. -/
theorem C18_unused_argument (ev : (Nat → Option (Mem V)) → Mem V) (args : Nat → Mem V) :
    let shapes := [[1, 2, 1], [1, 3, 1], [3, 2, 1]]
    shapeOutPy shapes 1 2 1 = [3, 2, 1] ∧
    ∃ P, rangeCall ev [⟨0, 1, 0⟩, ⟨1, 1, 1⟩] 0 args shapes 2 3 1 (3 * 2) none = some P ∧
      ∀ (R : Red V), R.dim = 1 → FinLocal R → ∀ S B, 0 < B → ∀ ord junk sched out i, 2 ≤ i →
        gpuRanges R S P B ord junk sched out i = out i := by
  refine ⟨by decide, ?_⟩
  refine ⟨_, rfl, ?_⟩
  intro R hR hf S B hB ord junk sched out i hi
  have hi' : i = i * R.dim + 0 := by rw [hR]; omega
  rw [hi']
  refine C17_uncovered_gpu R hf S _ hB ord junk sched out i ?_ 0 (by omega)
  intro r hr h
  have h1 : r < 1 := hr
  have h2 : r = 0 := by omega
  subst h2
  have h3 : i < (0 + 1) * 2 := h.2
  omega

end Verif
