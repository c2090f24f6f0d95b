import Verif.Proofs.MethodsOps

/-! The values of the variables of a formula made from a program. -/

namespace Verif.Lazy
open Spec (LTree rowIJ)

theorem leaves_of_data {T U : LTree Nat} {f : Nat → Option Nat} (h : T.map f = U.map some) :
    ∀ l ∈ T.leaves, ∃ s, f l.1 = some s ∧ (s, l.2.1, l.2.2) ∈ U.leaves := by
  intro l hl
  have e := congrArg LTree.leaves h
  rw [leaves_map, leaves_map] at e
  have : (f l.1, l.2.1, l.2.2) ∈ T.leaves.map (fun l => (f l.1, l.2.1, l.2.2)) := List.mem_map.2 ⟨l, hl, rfl⟩
  rw [e] at this
  obtain ⟨l', hl', e'⟩ := List.mem_map.1 this
  simp only [Prod.mk.injEq] at e'
  exact ⟨l'.1, e'.1.symm, by rw [← e'.2.1, ← e'.2.2]; exact hl'⟩

/-- The values of the variables at `(i, j)`. -/
noncomputable def envOf (T : LTree Nat) (args : Nat → Nat → ℝ) (i j : Nat) : Env := fun v k =>
  (T.leaves.find? fun l => (l.1 : Int) = v).elim 0 fun l => args l.1 (rowIJ l.2.2 i j * l.2.1 + k)

theorem envOf_leaf {T : LTree Nat} (hs : ∀ p d c d' c', (p, d, c) ∈ T.leaves → (p, d', c') ∈ T.leaves → d = d' ∧ c = c')
    (args : Nat → Nat → ℝ) (i j : Nat) {l : Nat × Nat × Nat} (hl : l ∈ T.leaves) (k : Nat) :
    envOf T args i j l.1 k = args l.1 (rowIJ l.2.2 i j * l.2.1 + k) := by
  unfold envOf
  cases h : T.leaves.find? fun l' => (l'.1 : Int) = l.1 with
  | none =>
    have := List.find?_eq_none.1 h l hl
    simp at this
  | some l' =>
    have h1 := List.find?_some h
    have h2 := List.mem_of_find?_eq_some h
    simp only [decide_eq_true_eq, Nat.cast_inj] at h1
    obtain ⟨p, d, c⟩ := l
    obtain ⟨p', d', c'⟩ := l'
    simp only at h1
    subst h1
    obtain ⟨rfl, rfl⟩ := hs _ _ _ _ _ hl h2
    rfl

theorem row_rowIJ {tagI c i j : Nat} (ht : tagI < 2) (hc : c = 0 ∨ c = 1 ∨ c = 2) :
    Spec.row tagI i j c = if tagI = 0 then rowIJ c i j else rowIJ c j i := by
  obtain rfl | rfl : tagI = 0 ∨ tagI = 1 := by omega
  all_goals rcases hc with rfl | rfl | rfl <;> simp [Spec.row, rowIJ]

end Verif.Lazy
