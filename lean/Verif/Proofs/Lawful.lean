import Verif.Proofs.Mem

/-!
Helper notion: `A xs acc` reads "`acc` is a correct accumulator for the items `xs`" (an item is
the index passed to the reduction and the content of `fout`).  A reduction is lawful when its
code fragments preserve this relation.
-/

namespace Verif

variable {V : Type}

/-- Correctness of the fragments of a reduction with respect to a relation `A`.  `E` says whether
two empty accumulators may be merged. -/
structure Lawful (E : Prop) (R : Red V) (A : List (Nat × Mem V) → Mem V → Prop) : Prop where
  init : ∀ junk, A [] (R.init junk)
  short : ∀ xs acc x j, A xs acc → A (xs ++ [(j, x)]) (R.short acc x j)
  pair : ∀ p, R.pair = some p → ∀ xs ys a b, (E ∨ xs ++ ys ≠ []) →
    A xs a → A ys b → A (xs ++ ys) (p a b)

/-- Correctness of the fragments of a scheme. `B` relates items and the pair `(acc, tmp)` inside a
loop, `G` between two tiles. -/
structure LawfulScheme (E : Prop) (R : Red V) (S : Scheme V) (A : List (Nat × Mem V) → Mem V → Prop)
    (B G : List (Nat × Mem V) → Mem V × Mem V → Prop) : Prop where
  cpuInit : ∀ a t, B [] (R.init a, S.initTmp t)
  gpuInit : ∀ a t, G [] (R.init a, S.firstInit t)
  blockInit : ∀ xs s, G xs s → B xs (s.1, S.blockInit s.2)
  accum : ∀ xs s x j, B xs s → B (xs ++ [(j, x)]) (S.accum s x j)
  periodic : ∀ xs s p j, xs ≠ [] → B xs s → B xs (S.periodic p j s)
  final : ∀ xs s, (E ∨ xs ≠ []) → B xs s → G xs (S.final s)
  acc : ∀ xs s, G xs s → A xs s.1

theorem directScheme_lawful {E} {R : Red V} {A} (h : Lawful E R A) :
    LawfulScheme E R (directScheme R) A (fun xs s => A xs s.1) (fun xs s => A xs s.1) where
  cpuInit a t := h.init a
  gpuInit a t := h.init a
  blockInit xs s hs := hs
  accum xs s x j hs := h.short _ _ _ _ hs
  periodic xs s p j _ hs := hs
  final xs s _ hs := hs
  acc xs s hs := hs

theorem blockScheme_lawful {E} {R : Red V} {A} (h : Lawful E R A) {p} (hp : R.pair = some p) :
    LawfulScheme E R (blockScheme R p) A
      (fun xs s => ∃ xs1 xs2, xs = xs1 ++ xs2 ∧ A xs1 s.1 ∧ A xs2 s.2)
      (fun xs s => A xs s.1) where
  cpuInit a t := ⟨[], [], rfl, h.init a, h.init t⟩
  gpuInit a t := h.init a
  blockInit xs s hs := ⟨xs, [], by simp, hs, h.init _⟩
  accum := by
    rintro xs s x j ⟨xs1, xs2, rfl, h1, h2⟩
    exact ⟨xs1, xs2 ++ [(j, x)], by simp, h1, h.short _ _ _ _ h2⟩
  periodic := by
    rintro xs s per j hne ⟨xs1, xs2, rfl, h1, h2⟩
    simp only [blockScheme]
    split
    · exact ⟨xs1 ++ xs2, [], by simp, h.pair p hp _ _ _ _ (Or.inr hne) h1 h2, h.init _⟩
    · exact ⟨xs1, xs2, rfl, h1, h2⟩
  final := by
    rintro xs s hne ⟨xs1, xs2, rfl, h1, h2⟩
    exact h.pair p hp _ _ _ _ hne h1 h2
  acc xs s hs := hs

theorem kahanScheme_lawful {E} {R : Red V} {A} {T : Mem V → Prop} (h : Lawful E R A) {z k}
    (hz : ∀ t, T (z t))
    (hk : ∀ xs acc tmp x j, A xs acc → T tmp →
      A (xs ++ [(j, x)]) (k acc x tmp).1 ∧ T (k acc x tmp).2) :
    LawfulScheme E R (kahanScheme z k) A (fun xs s => A xs s.1 ∧ T s.2)
      (fun xs s => A xs s.1 ∧ T s.2) where
  cpuInit a t := ⟨h.init a, hz t⟩
  gpuInit a t := ⟨h.init a, hz t⟩
  blockInit xs s hs := hs
  accum xs s x j hs := hk _ _ _ _ _ hs.1 hs.2
  periodic xs s p j _ hs := hs
  final xs s _ hs := hs
  acc xs s hs := hs.1

/-- Items visited by the sequential loop. -/
def items (ny : Nat) (F : Nat → Mem V) : List (Nat × Mem V) :=
  (List.range ny).map (fun j => (j, F j))

theorem items_succ (ny : Nat) (F : Nat → Mem V) :
    items (ny + 1) F = items ny F ++ [(ny, F ny)] := by
  simp [items, List.range_succ]

theorem items_ne_nil {ny : Nat} {F : Nat → Mem V} (h : 0 < ny) : items ny F ≠ [] := by
  intro he
  have := congrArg List.length he
  simp [items] at this
  omega

theorem cpuRow_correct {E} {R : Red V} {S : Scheme V} {A B G} (h : LawfulScheme E R S A B G)
    (ny : Nat) (hny : E ∨ 0 < ny) (F : Nat → Mem V) (accJ tmpJ outi : Mem V) :
    ∃ acc, A (items ny F) acc ∧ cpuRow R S ny F accJ tmpJ outi = R.fin acc outi := by
  refine ⟨_, ?_, rfl⟩
  apply h.acc
  apply h.final _ _ (hny.imp_right items_ne_nil)
  apply forRange_inv (P := fun n s => B (items n F) s)
  · exact h.cpuInit _ _
  · intro k s _ hs
    rw [items_succ]
    exact h.periodic _ _ _ _ (by simp) (h.accum _ _ _ _ hs)

/-- A reduction whose `FinalizeOutput` only writes `dim` cells, with values that depend on the
accumulator only. -/
def FinLocal (R : Red V) : Prop :=
  ∀ acc out out' p, (p < R.dim → R.fin acc out p = R.fin acc out' p) ∧
    (R.dim ≤ p → R.fin acc out p = out p)

/-- Rows write disjoint slices: after executing distinct rows in any order, row `i` contains what
its own iteration wrote. -/
theorem foldl_onSlice_rows {d : Nat} (g : Nat → Mem V → Mem V)
    (hg : ∀ i out out' p, p < d → g i out p = g i out' p)
    (hg' : ∀ i out p, d ≤ p → g i out p = out p)
    (rows : List Nat) (hnd : rows.Nodup) (out : Mem V) :
    (∀ i ∈ rows, ∀ k < d, ∀ o,
      rows.foldl (fun out i => onSlice (i * d) (g i) out) out (i * d + k) = g i o k) ∧
    (∀ p, (∀ i ∈ rows, ¬ (i * d ≤ p ∧ p < i * d + d)) →
      rows.foldl (fun out i => onSlice (i * d) (g i) out) out p = out p) := by
  have key : ∀ (rows : List Nat), rows.Nodup → ∀ out : Mem V,
      (∀ i ∈ rows, ∀ k < d, ∀ o, 
        rows.foldl (fun out i => onSlice (i * d) (g i) out) out (i * d + k) = g i o k) ∧
      (∀ p, (∀ i ∈ rows, ¬ (i * d ≤ p ∧ p < i * d + d)) →
        rows.foldl (fun out i => onSlice (i * d) (g i) out) out p = out p) := by
    intro rows
    induction rows with
    | nil => intro _ out; simp
    | cons r rs ih =>
      intro hnd out
      obtain ⟨hr, hrs⟩ := List.nodup_cons.mp hnd
      obtain ⟨ih1, ih2⟩ := ih hrs (onSlice (r * d) (g r) out)
      have hdisj : ∀ i, i ≠ r → ∀ k < d, ¬ (r * d ≤ i * d + k ∧ i * d + k < r * d + d) := by
        intro i hir k hk ⟨h1, h2⟩
        rcases Nat.lt_or_gt_of_ne hir with hlt | hgt
        · have : (i + 1) * d ≤ r * d := Nat.mul_le_mul_right d hlt
          rw [Nat.succ_mul] at this; omega
        · have : (r + 1) * d ≤ i * d := Nat.mul_le_mul_right d hgt
          rw [Nat.succ_mul] at this; omega
      constructor
      · intro i hi k hk o
        simp only [List.foldl_cons]
        rcases List.mem_cons.mp hi with rfl | hi
        · rw [ih2]
          · rw [onSlice_apply, if_pos (by omega)]
            rw [show i * d + k - i * d = k by omega]
            exact hg i _ _ k hk
          · intro i' hi'
            have hne : i ≠ i' := fun h => hr (h ▸ hi')
            intro hc
            rcases Nat.lt_or_gt_of_ne hne with hlt | hgt
            · have : (i + 1) * d ≤ i' * d := Nat.mul_le_mul_right d hlt
              rw [Nat.succ_mul] at this; omega
            · have : (i' + 1) * d ≤ i * d := Nat.mul_le_mul_right d hgt
              rw [Nat.succ_mul] at this; omega
        · exact ih1 i hi k hk o
      · intro p hp
        simp only [List.foldl_cons]
        rw [ih2 p (fun i hi => hp i (List.mem_cons_of_mem _ hi))]
        rw [onSlice_apply]
        split
        · next hle =>
          have := hp r (List.mem_cons_self ..)
          rw [hg' r _ _ (by omega)]
          congr 1; omega
        · rfl
  exact key rows hnd out

/-- The rows computed by the CPU routine, in any execution order, are correct; nothing else is
written. -/
theorem cpuRows_correct {E} {R : Red V} {S : Scheme V} {A B G} (h : LawfulScheme E R S A B G)
    (hf : FinLocal R) (ny : Nat) (hny : E ∨ 0 < ny) (F : Nat → Nat → Mem V) (accJ tmpJ : Nat → Mem V)
    (rows : List Nat) (hnd : rows.Nodup) (out : Mem V) :
    (∀ i ∈ rows, ∃ acc, A (items ny (F i)) acc ∧ ∀ k < R.dim, ∀ o,
      cpuRows R S ny F accJ tmpJ rows out (i * R.dim + k) = R.fin acc o k) ∧
    (∀ p, (∀ i ∈ rows, ¬ (i * R.dim ≤ p ∧ p < i * R.dim + R.dim)) →
      cpuRows R S ny F accJ tmpJ rows out p = out p) := by
  have hrow : ∀ i, ∃ acc, A (items ny (F i)) acc ∧
      ∀ o, cpuRow R S ny (F i) (accJ i) (tmpJ i) o = R.fin acc o := by
    intro i
    obtain ⟨acc, ha, _⟩ := cpuRow_correct h ny hny (F i) (accJ i) (tmpJ i) out
    refine ⟨(S.final (forRange ny (fun j s =>
      S.periodic (periodAccumulate ny) j (S.accum s (F i j) j))
        (R.init (accJ i), S.initTmp (tmpJ i)))).1, ?_, fun o => rfl⟩
    apply h.acc
    apply h.final _ _ (hny.imp_right items_ne_nil)
    apply forRange_inv (P := fun n s => B (items n (F i)) s)
    · exact h.cpuInit _ _
    · intro k s _ hs
      rw [items_succ]
      exact h.periodic _ _ _ _ (by simp) (h.accum _ _ _ _ hs)
  have := foldl_onSlice_rows (d := R.dim)
    (fun i => cpuRow R S ny (F i) (accJ i) (tmpJ i))
    (by
      intro i o o' p hp
      obtain ⟨acc, _, he⟩ := hrow i
      simp only [he]
      exact (hf acc o o' p).1 hp)
    (by
      intro i o p hp
      obtain ⟨acc, _, he⟩ := hrow i
      simp only [he]
      exact (hf acc o o p).2 hp) rows hnd out
  refine ⟨?_, this.2⟩
  intro i hi
  obtain ⟨acc, ha, he⟩ := hrow i
  refine ⟨acc, ha, fun k hk o => ?_⟩
  have := this.1 i hi k hk o
  simp only [he] at this
  rw [← this]
  rfl

end Verif
