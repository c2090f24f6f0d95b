import Verif.Model.Layout
import Mathlib.Tactic.NormNum

/-!
# C54: the memory layout of the arguments does not matter
-/

namespace Verif

theorem ravel_unravel {s : List Nat} {p : Nat} (hp : p < s.prod) :
    ((List.zipWith (fun (k : Nat) t => (k : Int) * t) (unravel s p) (rowMajor s)).sum) = (p : Int) := by
  induction s generalizing p with
  | nil => simp at hp; simp [unravel, hp]
  | cons n s ih =>
    have h0 : 0 < s.prod := by
      rcases Nat.eq_zero_or_pos s.prod with h | h
      · simp [h] at hp
      · exact h
    simp only [unravel, rowMajor, List.zipWith_cons_cons, List.sum_cons, ih (Nat.mod_lt p h0)]
    exact_mod_cast Nat.div_add_mod' p s.prod

theorem contiguous_read (a : View) {p : Nat} (hp : p < a.shape.prod) :
    a.contiguous.read p = a.get (unravel a.shape p) := by
  unfold View.contiguous
  split
  · rename_i h
    have h : a.strides = rowMajor a.shape := by simpa [View.contig] using h
    simp only [View.read, View.get, h, ravel_unravel hp]
  · simp [View.read]

/-- **C54**: `Genred` reads the entries of its arguments in the order of their indices, whatever their strides. -/
theorem C54_genred {args : List View} {k : Nat} {a : View} (ha : args[k]? = some a) :
    ∃ f, (genredReads args)[k]? = some f ∧ ∀ p < a.shape.prod, f p = a.get (unravel a.shape p) := by
  unfold genredReads
  split
  · rename_i h
    refine ⟨a.read, by simp [ha], fun p hp => ?_⟩
    have hc : a.contig := List.all_eq_true.mp h a (List.mem_of_getElem? ha)
    have := contiguous_read a hp
    rwa [View.contiguous, if_pos hc] at this
  · exact ⟨a.contiguous.read, by simp [ha], fun p hp => contiguous_read a hp⟩

/-- Two calls of `Genred` on arrays with the same shapes and entries read the same data. -/
theorem C54_genred_same {args args' : List View}
    (h : List.Forall₂ (fun a a' : View => a.shape = a'.shape ∧ ∀ p < a.shape.prod,
      a.get (unravel a.shape p) = a'.get (unravel a.shape p)) args args') :
    List.Forall₂ (fun (a : View) (fg : (Nat → ℝ) × (Nat → ℝ)) => ∀ p < a.shape.prod, fg.1 p = fg.2 p) args
      ((genredReads args).zip (genredReads args')) := by
  have hl : ∀ l, (genredReads l).length = l.length := fun l => by
    unfold genredReads
    split <;> simp
  rw [List.forall₂_iff_get]
  refine ⟨by simp [hl, h.length_eq], fun i h1 h2 p hp => ?_⟩
  have h3 : i < args'.length := h.length_eq ▸ h1
  obtain ⟨f, hf, hfp⟩ := C54_genred (List.getElem?_eq_getElem h1)
  obtain ⟨f', hf', hfp'⟩ := C54_genred (List.getElem?_eq_getElem h3)
  obtain ⟨e1, e2⟩ := (List.forall₂_iff_get.mp h).2 i h1 h3
  simp only [List.get_eq_getElem, List.getElem_zip] at *
  rw [List.getElem?_eq_some_iff] at hf hf'
  obtain ⟨_, hf⟩ := hf
  obtain ⟨_, hf'⟩ := hf'
  rw [hf, hf', hfp p hp, hfp' p (e1 ▸ hp), e2 p hp, e1]

/-- `KernelSolve` ignores the strides: the transpose of a `2 × 2` array is read as the array itself. -/
theorem not_C54_solve : ∃ a : View, a.shape = [2, 2] ∧ ∃ f, (solveReads [a])[0]? = some f ∧
    f 1 ≠ a.get (unravel a.shape 1) :=
  ⟨⟨fun p => p, 0, [2, 2], [1, 2]⟩, rfl, _, rfl, by simp [View.read, View.get, unravel]⟩

/-- `C54_genred` applies to this array: entry `(0, 1)` is read at the position 1. -/
example : ∃ f, (genredReads [⟨fun p => p, 0, [2, 2], [1, 2]⟩])[0]? = some f ∧ f 1 = 2 := by
  obtain ⟨f, h1, h2⟩ := C54_genred (args := [⟨fun p => p, 0, [2, 2], [1, 2]⟩]) (k := 0) rfl
  refine ⟨f, h1, ?_⟩
  rw [h2 1 (by simp)]
  simp [View.get, unravel]

end Verif
