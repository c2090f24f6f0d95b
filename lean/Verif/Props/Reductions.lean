import Mathlib.Data.Real.Basic
import Mathlib.Order.WithBot
import Verif.Proofs.RedBasic
import Verif.Proofs.RedKMin
import Verif.Proofs.Exec

/-!
# Reductions: C09, C10, C11, C12, C13, C16, C19

In all statements, `P` is a call (formula code, variables, tag, sizes, arrays), `Exec R S P out out'`
ranges over all executions of this call on all modelled backends under all schedules, and
`F P i j` is the value of the formula on row `i` of the output variables and row `j` of the
reduced ones.
-/

namespace Verif

open Spec (outRows redRows EvLocal WfVars)

variable {V : Type}

/-- The formula at output row `i` and reduction index `j`. -/
def F (P : Problem V) (i j : Nat) : Mem V := P.ev (Spec.env P.vars P.tagI P.args i j)

theorem rowItems_mem {P : Problem V} {i : Nat} {x : Nat × Mem V} :
    x ∈ rowItems P i ↔ ∃ j < redRows P.tagI P.M P.N, x = (j, F P i j) := by
  simp only [rowItems, items, List.mem_map, List.mem_range, F]
  exact ⟨fun ⟨j, h, e⟩ => ⟨j, h, e.symm⟩, fun ⟨j, h, e⟩ => ⟨j, h, e.symm⟩⟩

/-! ## A concrete call, used to show that the hypotheses can be met -/

/-- `x_i + y_j` with one scalar `x` variable and one scalar `y` variable. -/
def exProblem (V : Type) [Add V] [Zero V] (M N : Nat) (args : Nat → Mem V) : Problem V where
  ev := fun t => fun k => if k = 0 then
    match t 0, t 1 with
    | some x, some y => x 0 + y 0
    | _, _ => 0
    else 0
  vars := [⟨0, 1, 0⟩, ⟨1, 1, 1⟩]
  tagI := 0
  M := M
  N := N
  args := args

theorem exProblem_wf (V : Type) [Add V] [Zero V] (M N : Nat) (args : Nat → Mem V) :
    WfProblem (exProblem V M N args) where
  vars := ⟨by simp [exProblem], by simp [exProblem]⟩
  tag := by simp [exProblem]
  ev := by
    intro t t' h
    obtain ⟨m, m', h1, h2, h3⟩ := h ⟨0, 1, 0⟩ (by simp [exProblem])
    obtain ⟨n, n', g1, g2, g3⟩ := h ⟨1, 1, 1⟩ (by simp [exProblem])
    have e1 := h3 0 (by simp)
    have e2 := g3 0 (by simp)
    simp only at h1 h2 g1 g2
    simp only [exProblem, h1, h2, g1, g2, e1, e2]

/-- Every call has executions: the CPU loop in increasing order … -/
theorem exec_exists_cpu (R : Red V) (S : Scheme V) (P : Problem V) (out : Mem V) :
    ∃ out', Exec R S P out out' :=
  ⟨_, Exec.cpu (fun _ => out) (fun _ => out) (List.range P.nx) (List.Perm.refl _)⟩

/-- … and the GPU kernel with blocks of 192 threads, in reverse order. -/
theorem exec_exists_gpu (R : Red V) (S : Scheme V) (P : Problem V) (out : Mem V) :
    ∃ out', Exec R S P out out' :=
  ⟨_, Exec.gpu1D 192 (by decide) (fun _ _ => (List.range 192).reverse)
    (fun _ _ => List.reverse_perm _) (fun _ _ => out) _ (List.reverse_perm _)⟩

/-! ## C09: sums -/

/-- C09: for each of the three schemes the code is generated, and in every execution row `i` of
the output is the sum over all `j` of the formula.  (`V` is any commutative group: exact
arithmetic.)  Nothing is written beyond the output rows. -/
theorem C09_sum (V : Type) [AddCommGroup V] (d : Nat) (sch : SumScheme) :
    ∃ S, getScheme (sumRed (V := V) d) sch = some S ∧
      ∀ (P : Problem V), WfProblem P → ∀ out out', Exec (sumRed d) S P out out' →
        (∀ i < outRows P.tagI P.M P.N, ∀ k < d,
          out' (i * d + k) = ∑ j ∈ Finset.range (redRows P.tagI P.M P.N), F P i j k) ∧
        (∀ p, outRows P.tagI P.M P.N * d ≤ p → out' p = out p) := by
  obtain ⟨S, B, G, hS, hL⟩ := sum_getScheme_lawful (V := V) d sch
  refine ⟨S, hS, fun P hP out out' he => ?_⟩
  obtain ⟨h1, h2⟩ := exec_correct hL (sumRed_finLocal d) hP (Or.inl trivial) he
  refine ⟨fun i hi k hk => ?_, h2⟩
  obtain ⟨acc, ha, ho⟩ := h1 i hi
  rw [show (sumRed (V := V) d).dim = d from rfl] at ho
  rw [ho k hk out]
  simp only [sumRed, vectCopy_apply, hk, if_true]
  rw [ha k hk, ← list_sum_range]
  simp only [rowItems, items, List.map_map, F]
  rfl

/-- The hypotheses of `C09_sum` are met by a call with 3 and 5 points, on both backends. -/
example : WfProblem (exProblem ℤ 3 5 (fun _ k => k)) ∧
    (∀ S out, ∃ out', Exec (sumRed (V := ℤ) 1) S (exProblem ℤ 3 5 (fun _ k => k)) out out') ∧
    F (exProblem ℤ 3 5 (fun _ k => k)) 2 4 0 = 6 :=
  ⟨exProblem_wf .., fun S out => exec_exists_gpu _ S _ out, by
    simp [F, exProblem, Spec.env, Spec.row]⟩

/-! ## C10: min and max -/

/-- C10 (min): lower bound, and attained. -/
theorem C10_min (V : Type) [LinearOrder V] [OrderTop V] (d : Nat) :
    ∃ S, getScheme (minRed (V := V) d) .direct = some S ∧
      ∀ (P : Problem V), WfProblem P → 0 < redRows P.tagI P.M P.N →
      ∀ out out', Exec (minRed d) S P out out' →
        ∀ i < outRows P.tagI P.M P.N, ∀ k < d,
          (∀ j < redRows P.tagI P.M P.N, out' (i * d + k) ≤ F P i j k) ∧
          (∃ j < redRows P.tagI P.M P.N, out' (i * d + k) = F P i j k) := by
  refine ⟨_, rfl, fun P hP hny out out' he i hi k hk => ?_⟩
  obtain ⟨h1, -⟩ := exec_correct (directScheme_lawful (minRed_lawful d)) (minRed_finLocal d) hP (Or.inl trivial) he
  obtain ⟨acc, ha, ho⟩ := h1 i hi
  have e : out' (i * d + k) = acc k := by
    have := ho k hk out
    simp only [minRed, vectCopy_apply, hk, if_true] at this
    exact this
  obtain ⟨g1, g2⟩ := ha k hk
  have low : ∀ j < redRows P.tagI P.M P.N, acc k ≤ F P i j k := fun j hj =>
    g1 _ (List.mem_map.mpr ⟨(j, F P i j), rowItems_mem.mpr ⟨j, hj, rfl⟩, rfl⟩)
  rw [e]
  refine ⟨low, ?_⟩
  rcases g2 with g2 | g2
  · refine ⟨0, hny, ?_⟩
    have := low 0 hny
    rw [g2] at this ⊢
    exact le_antisymm this le_top
  · obtain ⟨x, hx, hxe⟩ := List.mem_map.mp g2
    obtain ⟨j, hj, rfl⟩ := rowItems_mem.mp hx
    exact ⟨j, hj, hxe.symm⟩

/-- C10 (max): upper bound, and attained. -/
theorem C10_max (V : Type) [LinearOrder V] [OrderBot V] (d : Nat) :
    ∃ S, getScheme (maxRed (V := V) d) .direct = some S ∧
      ∀ (P : Problem V), WfProblem P → 0 < redRows P.tagI P.M P.N →
      ∀ out out', Exec (maxRed d) S P out out' →
        ∀ i < outRows P.tagI P.M P.N, ∀ k < d,
          (∀ j < redRows P.tagI P.M P.N, F P i j k ≤ out' (i * d + k)) ∧
          (∃ j < redRows P.tagI P.M P.N, out' (i * d + k) = F P i j k) := by
  refine ⟨_, rfl, fun P hP hny out out' he i hi k hk => ?_⟩
  obtain ⟨h1, -⟩ := exec_correct (directScheme_lawful (maxRed_lawful d)) (maxRed_finLocal d) hP (Or.inl trivial) he
  obtain ⟨acc, ha, ho⟩ := h1 i hi
  have e : out' (i * d + k) = acc k := by
    have := ho k hk out
    simp only [maxRed, vectCopy_apply, hk, if_true] at this
    exact this
  obtain ⟨g1, g2⟩ := ha k hk
  have low : ∀ j < redRows P.tagI P.M P.N, F P i j k ≤ acc k := fun j hj =>
    g1 _ (List.mem_map.mpr ⟨(j, F P i j), rowItems_mem.mpr ⟨j, hj, rfl⟩, rfl⟩)
  rw [e]
  refine ⟨low, ?_⟩
  rcases g2 with g2 | g2
  · refine ⟨0, hny, ?_⟩
    have := low 0 hny
    rw [g2] at this ⊢
    exact le_antisymm bot_le this
  · obtain ⟨x, hx, hxe⟩ := List.mem_map.mp g2
    obtain ⟨j, hj, rfl⟩ := rowItems_mem.mp hx
    exact ⟨j, hj, hxe.symm⟩

/-- Concrete call over the extended integers meeting the hypotheses of `C10_min`. -/
example : WfProblem (exProblem (WithTop ℤ) 2 3 (fun _ k => (k : ℤ))) ∧
    0 < redRows (exProblem (WithTop ℤ) 2 3 (fun _ k => (k : ℤ))).tagI 2 3 ∧
    ∀ S out, ∃ out', Exec (minRed 1) S (exProblem (WithTop ℤ) 2 3 (fun _ k => (k : ℤ))) out out' :=
  ⟨exProblem_wf .., by decide, fun S out => exec_exists_cpu _ S _ out⟩

example : WfProblem (exProblem (WithBot ℤ) 2 3 (fun _ k => (k : ℤ))) ∧
    0 < redRows (exProblem (WithBot ℤ) 2 3 (fun _ k => (k : ℤ))).tagI 2 3 ∧
    ∀ S out, ∃ out', Exec (maxRed 1) S (exProblem (WithBot ℤ) 2 3 (fun _ k => (k : ℤ))) out out' :=
  ⟨exProblem_wf .., by decide, fun S out => exec_exists_cpu _ S _ out⟩

/-! ## C11: argmin and argmax -/

/-- `j` is the first index below `n` at which `f` reaches its minimum. -/
def IsFirstMin [LinearOrder V] (n : Nat) (f : Nat → V) (j : Nat) : Prop :=
  j < n ∧ (∀ j' < n, f j ≤ f j') ∧ (∀ j' < j, f j < f j')

/-- `j` is the first index below `n` at which `f` reaches its maximum. -/
def IsFirstMax [LinearOrder V] (n : Nat) (f : Nat → V) (j : Nat) : Prop :=
  j < n ∧ (∀ j' < n, f j' ≤ f j) ∧ (∀ j' < j, f j' < f j)

theorem split_items {n : Nat} {G : Nat → Mem V} {k : Nat} {pre post : List (Nat × V)} {j : Nat} {v : V}
    (h : (items n G).map (fun x => (x.1, x.2 k)) = pre ++ (j, v) :: post) :
    j < n ∧ v = G j k ∧ (∀ j' < j, (j', G j' k) ∈ pre) ∧
      (∀ j', j < j' → j' < n → (j', G j' k) ∈ post) := by
  have hm : (items n G).map (fun x => (x.1, x.2 k)) = (List.range n).map (fun j => (j, G j k)) := by
    simp [items]
  rw [hm] at h
  have hlen : pre.length + post.length + 1 = n := by
    have := congrArg List.length h
    simp only [List.length_map, List.length_range, List.length_append, List.length_cons] at this
    omega
  have hat : ∀ l (hl : l < n), (pre ++ (j, v) :: post)[l]'(by
      simp only [List.length_append, List.length_cons]; omega) = (l, G l k) := by
    intro l hl
    have : ((List.range n).map (fun j => (j, G j k)))[l]'(by simpa using hl) = (l, G l k) := by simp
    rw [← this]
    congr 1
    exact h.symm
  have hj := hat pre.length (by omega)
  rw [List.getElem_append_right (le_refl _)] at hj
  simp only [Nat.sub_self, List.getElem_cons_zero, Prod.mk.injEq] at hj
  obtain ⟨rfl, rfl⟩ := hj
  refine ⟨by omega, rfl, ?_, ?_⟩
  · intro j' hj'
    have := hat j' (by omega)
    rw [List.getElem_append_left hj'] at this
    rw [← this]
    exact List.getElem_mem _
  · intro j' h1 h2
    have := hat j' h2
    rw [List.getElem_append_right (by omega)] at this
    obtain ⟨q, rfl⟩ : ∃ q, j' = pre.length + 1 + q := ⟨j' - (pre.length + 1), by omega⟩
    have e : pre.length + 1 + q - pre.length = q + 1 := by omega
    simp only [e, List.getElem_cons_succ] at this
    rw [← this]
    exact List.getElem_mem _

theorem firstMin_items [LinearOrder V] [OrderTop V] {cast : Nat → V} {n k : Nat} (hn : 0 < n)
    {G : Nat → Mem V} {v i : V}
    (h : FirstMin cast ((items n G).map (fun x => (x.1, x.2 k))) v i) :
    ∃ j, IsFirstMin n (fun j => G j k) j ∧ v = G j k ∧ i = cast j := by
  have hmem : ∀ j < n, (j, G j k) ∈ (items n G).map (fun x => (x.1, x.2 k)) := by
    intro j hj
    simp only [items, List.map_map, List.mem_map, List.mem_range]
    exact ⟨j, hj, rfl⟩
  rcases h with ⟨rfl, hi, hall⟩ | ⟨_, pre, j, post, hsplit, hpre, hpost, hi⟩
  · refine ⟨0, ⟨hn, ?_, by omega⟩, ?_, hi⟩
    · intro j' hj'
      have h0 := hall _ (hmem j' hj')
      simp only at h0
      change G 0 k ≤ G j' k
      rw [h0]; exact le_top
    · have h0 := hall _ (hmem 0 hn)
      exact h0.symm
  · obtain ⟨hj, rfl, h1, h2⟩ := split_items hsplit
    refine ⟨j, ⟨hj, ?_, fun j' hj' => hpre _ (h1 j' hj')⟩, rfl, hi⟩
    intro j' hj'
    rcases Nat.lt_trichotomy j' j with hlt | rfl | hgt
    · exact (hpre _ (h1 j' hlt)).le
    · exact le_refl _
    · exact hpost _ (h2 j' hgt hj')

theorem firstMax_items [LinearOrder V] [OrderBot V] {cast : Nat → V} {n k : Nat} (hn : 0 < n)
    {G : Nat → Mem V} {v i : V}
    (h : FirstMax cast ((items n G).map (fun x => (x.1, x.2 k))) v i) :
    ∃ j, IsFirstMax n (fun j => G j k) j ∧ v = G j k ∧ i = cast j := by
  have hmem : ∀ j < n, (j, G j k) ∈ (items n G).map (fun x => (x.1, x.2 k)) := by
    intro j hj
    simp only [items, List.map_map, List.mem_map, List.mem_range]
    exact ⟨j, hj, rfl⟩
  rcases h with ⟨rfl, hi, hall⟩ | ⟨_, pre, j, post, hsplit, hpre, hpost, hi⟩
  · refine ⟨0, ⟨hn, ?_, by omega⟩, ?_, hi⟩
    · intro j' hj'
      have h0 := hall _ (hmem j' hj')
      simp only at h0
      change G j' k ≤ G 0 k
      rw [h0]; exact bot_le
    · have h0 := hall _ (hmem 0 hn)
      exact h0.symm
  · obtain ⟨hj, rfl, h1, h2⟩ := split_items hsplit
    refine ⟨j, ⟨hj, ?_, fun j' hj' => hpre _ (h1 j' hj')⟩, rfl, hi⟩
    intro j' hj'
    rcases Nat.lt_trichotomy j' j with hlt | rfl | hgt
    · exact (hpre _ (h1 j' hlt)).le
    · exact le_refl _
    · exact hpost _ (h2 j' hgt hj')

/-- C11 (argmin): the output is (the conversion to the data type of) the first index reaching the
minimum. -/
theorem C11_argmin (V : Type) [LinearOrder V] [OrderTop V] (cast : Nat → V) (d : Nat) :
    ∃ S, getScheme (argMinRed cast d) .direct = some S ∧
      ∀ (P : Problem V), WfProblem P → 0 < redRows P.tagI P.M P.N →
      ∀ out out', Exec (argMinRed cast d) S P out out' →
        ∀ i < outRows P.tagI P.M P.N, ∀ k < d,
          ∃ j, IsFirstMin (redRows P.tagI P.M P.N) (fun j => F P i j k) j ∧
            out' (i * d + k) = cast j := by
  refine ⟨_, rfl, fun P hP hny out out' he i hi k hk => ?_⟩
  obtain ⟨h1, -⟩ := exec_correct (directScheme_lawful (minArg_lawful_aux cast d (argMinRed cast d) rfl rfl rfl))
    (argMinRed_finLocal cast d) hP (Or.inl trivial) he
  obtain ⟨acc, ha, ho⟩ := h1 i hi
  obtain ⟨j, hj, _, hi'⟩ := firstMin_items hny (ha k hk)
  refine ⟨j, hj, ?_⟩
  have := ho k hk out
  simp only [argMinRed, vectCopy_apply, hk, if_true] at this
  rw [← hi']
  exact this

/-- C11 (argmax). -/
theorem C11_argmax (V : Type) [LinearOrder V] [OrderBot V] (cast : Nat → V) (d : Nat) :
    ∃ S, getScheme (argMaxRed cast d) .direct = some S ∧
      ∀ (P : Problem V), WfProblem P → 0 < redRows P.tagI P.M P.N →
      ∀ out out', Exec (argMaxRed cast d) S P out out' →
        ∀ i < outRows P.tagI P.M P.N, ∀ k < d,
          ∃ j, IsFirstMax (redRows P.tagI P.M P.N) (fun j => F P i j k) j ∧
            out' (i * d + k) = cast j := by
  refine ⟨_, rfl, fun P hP hny out out' he i hi k hk => ?_⟩
  obtain ⟨h1, -⟩ := exec_correct (directScheme_lawful (maxArg_lawful_aux cast d (argMaxRed cast d) rfl rfl rfl))
    (argMaxRed_finLocal cast d) hP (Or.inl trivial) he
  obtain ⟨acc, ha, ho⟩ := h1 i hi
  obtain ⟨j, hj, _, hi'⟩ := firstMax_items hny (ha k hk)
  refine ⟨j, hj, ?_⟩
  have := ho k hk out
  simp only [argMaxRed, vectCopy_apply, hk, if_true] at this
  rw [← hi']
  exact this

/-- C11 (min_argmin): the first half of the output row is the minimum, the second half the first
index reaching it. -/
theorem C11_min_argmin (V : Type) [LinearOrder V] [OrderTop V] (cast : Nat → V) (d : Nat) :
    ∃ S, getScheme (minArgMinRed cast d) .direct = some S ∧
      ∀ (P : Problem V), WfProblem P → 0 < redRows P.tagI P.M P.N →
      ∀ out out', Exec (minArgMinRed cast d) S P out out' →
        ∀ i < outRows P.tagI P.M P.N, ∀ k < d,
          ∃ j, IsFirstMin (redRows P.tagI P.M P.N) (fun j => F P i j k) j ∧
            out' (i * (2 * d) + k) = F P i j k ∧ out' (i * (2 * d) + (d + k)) = cast j := by
  refine ⟨_, rfl, fun P hP hny out out' he i hi k hk => ?_⟩
  obtain ⟨h1, -⟩ := exec_correct (directScheme_lawful (minArg_lawful_aux cast d (minArgMinRed cast d) rfl rfl rfl))
    (minArgMinRed_finLocal cast d) hP (Or.inl trivial) he
  obtain ⟨acc, ha, ho⟩ := h1 i hi
  obtain ⟨j, hj, hv, hi'⟩ := firstMin_items hny (ha k hk)
  refine ⟨j, hj, ?_, ?_⟩
  · have := ho k (by simp only [minArgMinRed]; omega) out
    simp only [minArgMinRed, vectCopy_apply, show k < 2 * d by omega, if_true] at this
    exact this.trans hv
  · have := ho (d + k) (by simp only [minArgMinRed]; omega) out
    simp only [minArgMinRed, vectCopy_apply, show d + k < 2 * d by omega, if_true] at this
    exact this.trans hi'

/-- C11 (max_argmax). -/
theorem C11_max_argmax (V : Type) [LinearOrder V] [OrderBot V] (cast : Nat → V) (d : Nat) :
    ∃ S, getScheme (maxArgMaxRed cast d) .direct = some S ∧
      ∀ (P : Problem V), WfProblem P → 0 < redRows P.tagI P.M P.N →
      ∀ out out', Exec (maxArgMaxRed cast d) S P out out' →
        ∀ i < outRows P.tagI P.M P.N, ∀ k < d,
          ∃ j, IsFirstMax (redRows P.tagI P.M P.N) (fun j => F P i j k) j ∧
            out' (i * (2 * d) + k) = F P i j k ∧ out' (i * (2 * d) + (d + k)) = cast j := by
  refine ⟨_, rfl, fun P hP hny out out' he i hi k hk => ?_⟩
  obtain ⟨h1, -⟩ := exec_correct (directScheme_lawful (maxArg_lawful_aux cast d (maxArgMaxRed cast d) rfl rfl rfl))
    (maxArgMaxRed_finLocal cast d) hP (Or.inl trivial) he
  obtain ⟨acc, ha, ho⟩ := h1 i hi
  obtain ⟨j, hj, hv, hi'⟩ := firstMax_items hny (ha k hk)
  refine ⟨j, hj, ?_, ?_⟩
  · have := ho k (by simp only [maxArgMaxRed]; omega) out
    simp only [maxArgMaxRed, vectCopy_apply, show k < 2 * d by omega, if_true] at this
    exact this.trans hv
  · have := ho (d + k) (by simp only [maxArgMaxRed]; omega) out
    simp only [maxArgMaxRed, vectCopy_apply, show d + k < 2 * d by omega, if_true] at this
    exact this.trans hi'

/-- Ties are possible: the first of two equal minima. -/
example : IsFirstMin 3 (fun j => if j = 0 then (5 : WithTop ℤ) else 2) 1 ∧
    ¬ IsFirstMin 3 (fun j => if j = 0 then (5 : WithTop ℤ) else 2) 2 := by
  constructor
  · refine ⟨by decide, fun j' _ => ?_, fun j' h => ?_⟩
    · simp only [Nat.one_ne_zero, if_false]; split <;> decide
    · have : j' = 0 := by omega
      subst this; simp only [Nat.one_ne_zero, if_false, if_true]; decide
  · rintro ⟨_, _, h⟩
    exact absurd (h 1 (by decide)) (by simp)

/-! ## C12: K smallest values -/

/-- `s` lists the pairs (value, index) with a value below `⊤`, by increasing value and, for equal
values, increasing index. -/
def IsSortedList [LinearOrder V] [OrderTop V] (n : Nat) (f : Nat → V) (s : List (V × Nat)) : Prop :=
  s.Perm (((List.range n).map (fun j => (f j, j))).filter (fun x => x.1 < ⊤)) ∧
  s.Pairwise (fun a b => a.1 < b.1 ∨ (a.1 = b.1 ∧ a.2 < b.2))

/-- Entry `l` of the answer: the `l`-th pair of the sorted list, `(⊤, 0)` past its end. -/
def entry [LinearOrder V] [OrderTop V] (s : List (V × Nat)) (l : Nat) : V × Nat := s.getD l (⊤, 0)

theorem kview_entry [LinearOrder V] [OrderTop V] {cast : Nat → V} {fd K n k : Nat}
    {G : Nat → Mem V} {acc : Mem V} (h : KMinAcc cast fd K (items n G) acc) (hk : k < fd) :
    ∃ s, IsSortedList n (fun j => G j k) s ∧ ∀ l < K,
      cell fd k acc l = ((entry s l).1, cast (entry s l).2) := by
  have hv := h k hk
  have hm : (items n G).map (fun x => (x.2 k, x.1)) = (List.range n).map (fun j => (G j k, j)) := by
    simp [items]
  rw [hm] at hv
  obtain ⟨s, post, he, hperm, hlex⟩ := insAll_eq K ((List.range n).map (fun j => (G j k, j))) (by
    rw [List.pairwise_map]
    exact List.pairwise_lt_range)
  refine ⟨s, ⟨hperm, hlex⟩, fun l hl => ?_⟩
  have e1 : (kview fd K k acc)[l]? = some (cell fd k acc l) := by
    simp [kview, hl]
  rw [hv] at e1
  rw [List.getElem?_map, topK, List.getElem?_take, if_pos hl, he, List.append_assoc] at e1
  by_cases hs : l < s.length
  · rw [List.getElem?_append_left hs, List.getElem?_eq_getElem hs] at e1
    simp only [Option.map_some, Option.some.injEq] at e1
    rw [← e1]
    simp [entry, List.getD, List.getElem?_eq_getElem hs, Prod.map]
  · rw [List.getElem?_append_right (by omega), List.getElem?_append_left (by simp; omega),
      List.getElem?_eq_getElem (by simp; omega)] at e1
    simp only [List.getElem_replicate, Option.map_some, Option.some.injEq] at e1
    rw [← e1]
    simp [entry, List.getD, List.getElem?_eq_none (Nat.not_lt.mp hs)]

/-- C12 (KMin_ArgKMin): the output row contains, for `l < K`, the `l`-th smallest values followed
by their indices.  Both the direct and the block scheme. -/
theorem C12_kmin_argkmin (V : Type) [LinearOrder V] [OrderTop V] (cast : Nat → V) (d K : Nat)
    (sch : SumScheme) (hsch : sch ≠ .kahan) :
    ∃ S, getScheme (kminArgKminRed cast d K) sch = some S ∧
      ∀ (P : Problem V), WfProblem P →
      ∀ out out', Exec (kminArgKminRed cast d K) S P out out' →
        ∀ i < outRows P.tagI P.M P.N, ∀ k < d,
          ∃ s, IsSortedList (redRows P.tagI P.M P.N) (fun j => F P i j k) s ∧ ∀ l < K,
            out' (i * (2 * K * d) + (k + l * (2 * d))) = (entry s l).1 ∧
            out' (i * (2 * K * d) + (k + l * (2 * d) + d)) = cast (entry s l).2 := by
  have hex : ∃ S B G, getScheme (kminArgKminRed cast d K) sch = some S ∧
      LawfulScheme True (kminArgKminRed cast d K) S (KMinAcc cast d K) B G := by
    cases sch with
    | direct => exact ⟨_, _, _, rfl, directScheme_lawful (kminArgKminRed_lawful cast d K)⟩
    | block => exact ⟨_, _, _, rfl, blockScheme_lawful (kminArgKminRed_lawful cast d K) rfl⟩
    | kahan => exact absurd rfl hsch
  obtain ⟨S, B, G, hS, hL⟩ := hex
  refine ⟨S, hS, fun P hP out out' he i hi k hk => ?_⟩
  obtain ⟨h1, -⟩ := exec_correct hL (kminArgKminRed_finLocal cast d K) hP (Or.inl trivial) he
  obtain ⟨acc, ha, ho⟩ := h1 i hi
  obtain ⟨s, hs, hc⟩ := kview_entry ha hk
  refine ⟨s, hs, fun l hl => ?_⟩
  have hb : k + l * (2 * d) + d < 2 * K * d := by
    have h1 : (l + 1) * (2 * d) ≤ K * (2 * d) := Nat.mul_le_mul_right _ hl
    rw [Nat.succ_mul l] at h1
    have h2 : 2 * K * d = K * (2 * d) := by rw [Nat.mul_comm 2 K, Nat.mul_assoc]
    omega
  have hc' := hc l hl
  simp only [cell, Prod.mk.injEq] at hc'
  have o1 := ho (k + l * (2 * d)) (by simp only [kminArgKminRed]; omega) out
  have o2 := ho (k + l * (2 * d) + d) (by simp only [kminArgKminRed]; omega) out
  simp only [kminArgKminRed, vectCopy_apply, hb, if_true,
    show k + l * (2 * d) < 2 * K * d by omega] at o1 o2
  exact ⟨o1.trans hc'.1, o2.trans hc'.2⟩

/-- C12 (KMin): values only. -/
theorem C12_kmin (V : Type) [LinearOrder V] [OrderTop V] (cast : Nat → V) (d K : Nat)
    (sch : SumScheme) (hsch : sch ≠ .kahan) :
    ∃ S, getScheme (kminRed cast d K) sch = some S ∧
      ∀ (P : Problem V), WfProblem P →
      ∀ out out', Exec (kminRed cast d K) S P out out' →
        ∀ i < outRows P.tagI P.M P.N, ∀ k < d,
          ∃ s, IsSortedList (redRows P.tagI P.M P.N) (fun j => F P i j k) s ∧ ∀ l < K,
            out' (i * (K * d) + (k + l * d)) = (entry s l).1 := by
  have hex : ∃ S B G, getScheme (kminRed cast d K) sch = some S ∧
      LawfulScheme True (kminRed cast d K) S (KMinAcc cast d K) B G := by
    cases sch with
    | direct => exact ⟨_, _, _, rfl, directScheme_lawful (kminRed_lawful cast d K)⟩
    | block => exact ⟨_, _, _, rfl, blockScheme_lawful (kminRed_lawful cast d K) rfl⟩
    | kahan => exact absurd rfl hsch
  obtain ⟨S, B, G, hS, hL⟩ := hex
  refine ⟨S, hS, fun P hP out out' he i hi k hk => ?_⟩
  obtain ⟨h1, -⟩ := exec_correct hL (kminRed_finLocal cast (by omega) K) hP (Or.inl trivial) he
  obtain ⟨acc, ha, ho⟩ := h1 i hi
  obtain ⟨s, hs, hc⟩ := kview_entry ha hk
  refine ⟨s, hs, fun l hl => ?_⟩
  have hb : k + l * d < K * d := by
    have h1 : (l + 1) * d ≤ K * d := Nat.mul_le_mul_right _ hl
    rw [Nat.succ_mul l] at h1
    omega
  have o1 := ho (k + l * d) hb out
  have o2 : out' (i * (K * d) + (k + l * d)) = kminFin d K acc out (k + l * d) := o1
  rw [o2, kminFin_cell d K acc out hk hl, hc l hl]

/-- C12 (ArgKMin): indices only. -/
theorem C12_argkmin (V : Type) [LinearOrder V] [OrderTop V] (cast : Nat → V) (d K : Nat)
    (sch : SumScheme) (hsch : sch ≠ .kahan) :
    ∃ S, getScheme (argKminRed cast d K) sch = some S ∧
      ∀ (P : Problem V), WfProblem P →
      ∀ out out', Exec (argKminRed cast d K) S P out out' →
        ∀ i < outRows P.tagI P.M P.N, ∀ k < d,
          ∃ s, IsSortedList (redRows P.tagI P.M P.N) (fun j => F P i j k) s ∧ ∀ l < K,
            out' (i * (K * d) + (k + l * d)) = cast (entry s l).2 := by
  have hex : ∃ S B G, getScheme (argKminRed cast d K) sch = some S ∧
      LawfulScheme True (argKminRed cast d K) S (KMinAcc cast d K) B G := by
    cases sch with
    | direct => exact ⟨_, _, _, rfl, directScheme_lawful (argKminRed_lawful cast d K)⟩
    | block => exact ⟨_, _, _, rfl, blockScheme_lawful (argKminRed_lawful cast d K) rfl⟩
    | kahan => exact absurd rfl hsch
  obtain ⟨S, B, G, hS, hL⟩ := hex
  refine ⟨S, hS, fun P hP out out' he i hi k hk => ?_⟩
  obtain ⟨h1, -⟩ := exec_correct hL (argKminRed_finLocal cast (by omega) K) hP (Or.inl trivial) he
  obtain ⟨acc, ha, ho⟩ := h1 i hi
  obtain ⟨s, hs, hc⟩ := kview_entry ha hk
  refine ⟨s, hs, fun l hl => ?_⟩
  have hb : k + l * d < K * d := by
    have h1 : (l + 1) * d ≤ K * d := Nat.mul_le_mul_right _ hl
    rw [Nat.succ_mul l] at h1
    omega
  have o1 := ho (k + l * d) hb out
  have o2 : out' (i * (K * d) + (k + l * d)) = argKminFin d K acc out (k + l * d) := o1
  rw [o2, argKminFin_cell d K acc out hk hl, hc l hl]

/-- A sorted list with a tie and a padding entry. -/
example : IsSortedList 3 (fun j => if j = 1 then (1 : WithTop ℤ) else 2) [(1, 1), (2, 0), (2, 2)] ∧
    entry [((1 : WithTop ℤ), 1), (2, 0), (2, 2)] 3 = (⊤, 0) := by
  refine ⟨⟨?_, ?_⟩, rfl⟩
  · have : (((List.range 3).map (fun j => (if j = 1 then (1 : WithTop ℤ) else 2, j))).filter
        (fun x => decide (x.1 < ⊤))) = [(2, 0), (1, 1), (2, 2)] := by decide
    rw [this]; decide
  · simp only [List.pairwise_cons]; decide

/-! ## C13: splitting the reduction axis -/

/-- C13 for sums: merging the accumulators of two pieces gives the accumulator of the whole
sequence, whatever the pieces. -/
theorem C13_sum (V : Type) [AddCommGroup V] (d : Nat) :
    ∃ pair, (sumRed (V := V) d).pair = some pair ∧ ∀ xs ys a b,
      SumAcc d xs a → SumAcc d ys b → SumAcc d (xs ++ ys) (pair a b) :=
  ⟨_, rfl, fun xs ys a b => (sumRed_lawful d).pair _ rfl xs ys a b (Or.inl trivial)⟩

theorem C13_min (V : Type) [LinearOrder V] [OrderTop V] (d : Nat) :
    ∃ pair, (minRed (V := V) d).pair = some pair ∧ ∀ xs ys a b,
      MinAcc d xs a → MinAcc d ys b → MinAcc d (xs ++ ys) (pair a b) :=
  ⟨_, rfl, fun xs ys a b => (minRed_lawful d).pair _ rfl xs ys a b (Or.inl trivial)⟩

theorem C13_max (V : Type) [LinearOrder V] [OrderBot V] (d : Nat) :
    ∃ pair, (maxRed (V := V) d).pair = some pair ∧ ∀ xs ys a b,
      MaxAcc d xs a → MaxAcc d ys b → MaxAcc d (xs ++ ys) (pair a b) :=
  ⟨_, rfl, fun xs ys a b => (maxRed_lawful d).pair _ rfl xs ys a b (Or.inl trivial)⟩

theorem C13_kmin (V : Type) [LinearOrder V] [OrderTop V] (cast : Nat → V) (d K : Nat) :
    ∃ pair, (kminArgKminRed cast d K).pair = some pair ∧ ∀ xs ys a b,
      KMinAcc cast d K xs a → KMinAcc cast d K ys b → KMinAcc cast d K (xs ++ ys) (pair a b) :=
  ⟨_, rfl, fun xs ys a b => (kminArgKminRed_lawful cast d K).pair _ rfl xs ys a b (Or.inl trivial)⟩

/-- C13 fails for the arg reductions: there is no merge code at all (generating it raises a
`TypeError`), so that a scheme which needs it cannot be generated. -/
theorem C13_arg_no_merge (V : Type) [LinearOrder V] [OrderTop V] [OrderBot V] (cast : Nat → V)
    (d : Nat) :
    getScheme (argMinRed cast d) .block = none ∧ getScheme (argMaxRed cast d) .block = none ∧
    getScheme (minArgMinRed cast d) .block = none ∧ getScheme (maxArgMaxRed cast d) .block = none :=
  ⟨rfl, rfl, rfl, rfl⟩

example : SumAcc (V := ℤ) 1 [(0, fun _ => 3), (1, fun _ => 4)] (fun _ => 7) := by
  intro k _; simp

/-! ## C16, C19: loops and schedules, for an arbitrary reduction -/

/-- Sequential reduction of the terms `j = 0, …, n-1`, in this order, each with its own index. -/
def seqReduce (R : Red V) (junk : Mem V) (n : Nat) (f : Nat → Mem V) : Mem V :=
  (List.range n).foldl (fun acc j => R.short acc (f j) j) (R.init junk)

/-- C16 and C19: for *any* reduction whose output step writes one row (`FinLocal`), every
execution of the direct scheme — CPU loop with rows in any order, GPU kernel with any block size
and any order of the threads — writes in row `i` the sequential reduction over all `j`, in increasing
order and with global indices, of the formula evaluated on row `i`, row `j` and the parameters;
nothing else is written. -/
theorem C16_C19_rows (V : Type) (R : Red V) (hf : FinLocal R) :
    ∃ S, getScheme R .direct = some S ∧
      ∀ (P : Problem V), WfProblem P → ∀ out out', Exec R S P out out' →
        (∀ i < outRows P.tagI P.M P.N, ∃ junk, ∀ k < R.dim, ∀ o,
          out' (i * R.dim + k) =
            R.fin (seqReduce R junk (redRows P.tagI P.M P.N) (F P i)) o k) ∧
        (∀ p, outRows P.tagI P.M P.N * R.dim ≤ p → out' p = out p) := by
  refine ⟨_, rfl, fun P hP out out' he => ?_⟩
  have hL : LawfulScheme True R (directScheme R)
      (fun xs acc => ∃ junk, acc = xs.foldl (fun a x => R.short a x.2 x.1) (R.init junk))
      (fun xs s => ∃ junk, s.1 = xs.foldl (fun a x => R.short a x.2 x.1) (R.init junk))
      (fun xs s => ∃ junk, s.1 = xs.foldl (fun a x => R.short a x.2 x.1) (R.init junk)) :=
    { cpuInit := fun a _ => ⟨a, rfl⟩
      gpuInit := fun a _ => ⟨a, rfl⟩
      blockInit := fun _ _ h => h
      accum := by
        rintro xs s x j ⟨junk, h⟩
        refine ⟨junk, ?_⟩
        rw [List.foldl_append, ← h]
        rfl
      periodic := fun _ _ _ _ _ h => h
      final := fun _ _ _ h => h
      acc := fun _ _ h => h }
  obtain ⟨h1, h2⟩ := exec_correct hL hf hP (Or.inl trivial) he
  refine ⟨fun i hi => ?_, h2⟩
  obtain ⟨acc, ⟨junk, ha⟩, ho⟩ := h1 i hi
  refine ⟨junk, fun k hk o => ?_⟩
  rw [ho k hk o, ha]
  simp only [seqReduce, rowItems, items, List.foldl_map, F]

/-- `FinLocal` holds for the sum, for instance, and the call `exProblem` has executions. -/
example : FinLocal (sumRed (V := ℤ) 3) ∧ WfProblem (exProblem ℤ 4 7 (fun _ k => k)) ∧
    ∀ S out, ∃ out', Exec (sumRed (V := ℤ) 3) S (exProblem ℤ 4 7 (fun _ k => k)) out out' :=
  ⟨sumRed_finLocal 3, exProblem_wf .., fun S out => exec_exists_gpu _ S _ out⟩

/-- C16: with `tagI = 1` (axis 0) the roles of the two indices are exchanged: the term of output
row `i` and index `j` of the transposed call is the term of row `j` and index `i`. -/
theorem C16_swap (V : Type) (P : Problem V) (hP : WfProblem P) (h0 : P.tagI = 0) (i j : Nat) :
    F { P with tagI := 1 } i j = F P j i ∧
    outRows 1 P.M P.N = P.N ∧ redRows 1 P.M P.N = P.M ∧ outRows 0 P.M P.N = P.M ∧
    redRows 0 P.M P.N = P.N := by
  refine ⟨?_, rfl, rfl, rfl, rfl⟩
  change P.ev (Spec.env P.vars 1 P.args i j) = P.ev (Spec.env P.vars P.tagI P.args j i)
  refine congrArg P.ev ?_
  funext ind
  unfold Spec.env
  cases hfind : P.vars.find? (fun v => decide (v.ind = ind)) with
  | none => rfl
  | some v =>
    have hv := List.mem_of_find?_eq_some hfind
    have hc := hP.vars.cat v hv
    simp only [Option.map_some, Option.some.injEq]
    funext k
    have : Spec.row 1 i j v.cat = Spec.row P.tagI j i v.cat := by
      unfold Spec.row
      rw [h0]
      by_cases h2 : v.cat = 2
      · simp [h2]
      · by_cases h1 : v.cat = 1
        · simp [h1]
        · have : v.cat = 0 := by omega
          simp [this]
    rw [this]

end Verif
