import Verif.Proofs.TensorList
import Verif.Proofs.FormulaCode
import Mathlib.Algebra.BigOperators.Intervals
import Mathlib.Algebra.BigOperators.Ring.Finset

/-!
# Sums over multi-indices, positions and nested loops
-/

namespace Verif.TensorDot

open Spec Finset

/-! ## Sums as sums over finite sets -/

/-- The multi-indices of a shape. -/
def box : List Nat → Finset (List Nat)
  | [] => {[]}
  | n :: s => (range n ×ˢ box s).image (fun p => p.1 :: p.2)

theorem mem_box {s I : List Nat} : I ∈ box s ↔ Arr.Idx s I := by
  induction s generalizing I with
  | nil => cases I <;> simp [box, Arr.Idx]
  | cons n s ih =>
    simp only [box, mem_image, mem_product, mem_range, Prod.exists, ih, Arr.Idx]
    constructor
    · rintro ⟨k, J, ⟨h1, h2⟩, rfl⟩
      exact .cons h1 h2
    · intro h
      cases h with
      | cons h1 h2 => exact ⟨_, _, ⟨h1, h2⟩, rfl⟩

theorem sumIdx_eq (s : List Nat) (φ : List Nat → ℝ) : sumIdx s φ = ∑ I ∈ box s, φ I := by
  induction s generalizing φ with
  | nil => simp [sumIdx, box]
  | cons n s ih =>
    simp only [sumIdx, box]
    rw [sum_image, sum_product]
    · exact sum_congr rfl fun k _ => ih _
    · rintro ⟨a, b⟩ _ ⟨c, d⟩ _ h
      simp at h
      simp [h.1, h.2]

theorem idx_iff {s I : List Nat} : Arr.Idx s I ↔ I.length = s.length ∧ ∀ i < s.length, I.getD i 0 < s.getD i 0 := by
  induction s generalizing I with
  | nil => cases I <;> simp [Arr.Idx]
  | cons n s ih =>
    cases I with
    | nil => simp [Arr.Idx]
    | cons k I =>
      simp only [Arr.Idx, List.forall₂_cons, List.length_cons] at ih ⊢
      rw [ih]
      constructor
      · rintro ⟨h1, h2, h3⟩
        refine ⟨by omega, ?_⟩
        intro i hi
        cases i with
        | zero => simpa using h1
        | succ i => simpa using h3 i (by omega)
      · rintro ⟨h1, h2⟩
        refine ⟨by simpa using h2 0 (by omega), by omega, ?_⟩
        intro i hi
        simpa using h2 (i + 1) (by omega)

theorem idx_gather {s I : List Nat} (h : Arr.Idx s I) {p : List Int} (hp : ∀ x ∈ p, 0 ≤ x ∧ x < s.length) :
    Arr.Idx (gather s p) (gather I p) := by
  obtain ⟨h1, h2⟩ := idx_iff.1 h
  refine idx_iff.2 ⟨by simp [length_gather], ?_⟩
  intro i hi
  rw [length_gather] at hi
  have hx := hp _ (List.getElem_mem hi)
  have := h2 p[i].toNat (by omega)
  simpa [gather, hi] using this

theorem perm_bounds {p : List Int} {n : Nat} (h : p.Perm (ints (List.range n))) : ∀ x ∈ p, 0 ≤ x ∧ x < n := by
  intro x hx
  obtain ⟨m, h1, rfl⟩ := mem_ints.1 (h.subset hx)
  have : m < n := by simpa using h1
  omega

theorem idx_place {p : List Int} {n : Nat} (h : p.Perm (ints (List.range n))) {s I : List Nat} (hs : s.length = n)
    (hI : Arr.Idx s I) : Arr.Idx (place p s) (place p I) := by
  obtain ⟨h1, h2⟩ := idx_iff.1 hI
  refine idx_iff.2 ⟨by simp [length_place, h1], ?_⟩
  intro r hr
  rw [length_place] at hr
  have hm : (r : Int) ∈ p := h.symm.subset (mem_ints.2 ⟨r, by simp; omega, rfl⟩)
  have hi := List.idxOf_lt_length_iff.2 hm
  have hp : p.length = n := by simpa [length_ints] using h.length_eq
  have := h2 (p.idxOf (r : Int)) (by omega)
  have hr' : r < I.length := by omega
  simpa [place, hr, hr'] using this

/-- The axes of a sum may be listed in any order. -/
theorem sum_place {p : List Int} {s : List Nat} (h : p.Perm (ints (List.range s.length))) (φ : List Nat → ℝ) :
    sumIdx s φ = sumIdx (gather s p) fun l => φ (place p l) := by
  have hp : p.length = s.length := by simpa [length_ints] using h.length_eq
  rw [sumIdx_eq, sumIdx_eq]
  refine sum_nbij' (fun I => gather I p) (fun l => place p l) ?_ ?_ ?_ ?_ ?_
  · intro I hI
    exact mem_box.2 (idx_gather (mem_box.1 hI) (perm_bounds h))
  · intro l hl
    have := idx_place h (by rw [length_gather, hp]) (mem_box.1 hl)
    rw [place_gather h rfl] at this
    exact mem_box.2 this
  · intro I hI
    exact place_gather h (mem_box.1 hI).length_eq.symm
  · intro l hl
    refine gather_place h ?_
    rw [← (mem_box.1 hl).length_eq, length_gather, hp]
  · intro I hI
    rw [place_gather h (mem_box.1 hI).length_eq.symm]

/-! ## Positions -/

theorem cumprod_spec (p : Nat) (l : List Nat) :
    cumprod p l = (List.range l.length).map (fun i => (l.take (i + 1)).prod * p) := by
  induction l generalizing p with
  | nil => rfl
  | cons a l ih =>
    simp only [cumprod, List.length_cons, List.range_succ_eq_map, List.map_cons, List.map_map, ih]
    congr 1
    · simp
    · apply List.map_congr_left
      intro i _
      simp only [Function.comp_def, List.take_succ_cons, List.prod_cons]
      ring

theorem cumprodArray_cons (n : Nat) (s : List Nat) : cumprodArray (n :: s) = s.prod :: cumprodArray s := by
  cases s with
  | nil => rfl
  | cons a s =>
    simp only [cumprodArray]
    have e : ∀ p, cumprod p (s.reverse ++ [a]) = cumprod p s.reverse ++ [a * (s.prod * p)] := by
      intro p
      generalize hl : s.reverse = l
      have hs : s.prod = l.prod := by rw [← hl, List.prod_reverse]
      rw [hs]
      clear hl hs
      induction l generalizing p with
      | nil => simp [cumprod]
      | cons b l ih =>
        simp only [List.cons_append, cumprod, ih, List.prod_cons]
        congr 3
        ring
    rw [List.reverse_cons, e]
    simp

theorem length_cumprodArray (s : List Nat) : (cumprodArray s).length = s.length := by
  induction s with
  | nil => rfl
  | cons n s ih => rw [cumprodArray_cons]; simp [ih]

theorem ravel_eq {s I : List Nat} (h : I.length = s.length) :
    (List.zipWith (· * ·) I (cumprodArray s)).sum = ravel s I := by
  induction s generalizing I with
  | nil => cases I <;> simp_all [ravel, cumprodArray]
  | cons n s ih =>
    cases I with
    | nil => simp at h
    | cons k I =>
      rw [cumprodArray_cons, List.zipWith_cons_cons, List.sum_cons, ih (by simpa using h)]
      rfl

theorem position_eq {s vars F : List Nat} (h : vars.length = s.length) :
    position vars (cumprodArray s) F = ravel s (vars.map (fun v => F.getD v 0)) := by
  rw [← ravel_eq (by simpa using h)]
  unfold position
  rw [List.zipWith_map_left]

theorem ravel_inj {s I J : List Nat} (hI : Arr.Idx s I) (hJ : Arr.Idx s J) (h : ravel s I = ravel s J) : I = J := by
  rw [← unravel_ravel hI, ← unravel_ravel hJ, h]

theorem sumIdx_ravel (s : List Nat) (f : Nat → ℝ) : (sumIdx s fun I => f (ravel s I)) = ∑ p ∈ range s.prod, f p := by
  induction s generalizing f with
  | nil => simp [sumIdx, ravel]
  | cons n s ih =>
    simp only [sumIdx, ravel, List.prod_cons]
    have : ∀ k ∈ range n, (sumIdx s fun r => f (k * s.prod + ravel s r)) = ∑ q ∈ range s.prod, f (k * s.prod + q) :=
      fun k _ => ih fun q => f (k * s.prod + q)
    rw [sum_congr rfl this]
    clear this
    induction n with
    | zero => simp
    | succ n ih2 =>
      rw [sum_range_succ, ih2, Nat.succ_mul, sum_range_add]

/-! ## Nested loops -/

theorem nest_eq {s : List Nat} {n : Nat} {pos : List Nat → Nat} {val : List Nat → ℝ}
    {body : List Nat → CArr → Except CErr CArr}
    (hb : ∀ F, Arr.Idx s F → ∀ out : CArr, out.length = n →
      pos F < n ∧ body F out = .ok (out.set (pos F) (out.getD (pos F) 0 + val F)))
    (out : CArr) (ho : out.length = n) :
    nest s body out =
      .ok ((List.range n).map fun p => out.getD p 0 + sumIdx s fun F => if pos F = p then val F else 0) := by
  induction s generalizing pos val body out with
  | nil =>
    obtain ⟨h1, h2⟩ := hb [] .nil out ho
    simp only [nest, h2, sumIdx]
    congr 1
    apply List.ext_getElem (by simp [ho])
    intro i h3 h4
    have hi : i < out.length := by simpa using h3
    by_cases hp : pos [] = i
    · subst hp; simp [hi]
    · simp [hp, hi]
  | cons m s ih =>
    simp only [nest]
    have key : ∀ j ≤ m, loop j (fun k out => nest s (fun F => body (k :: F)) out) out =
        .ok ((List.range n).map fun p => out.getD p 0 + ∑ k ∈ range j,
          sumIdx s fun F => if pos (k :: F) = p then val (k :: F) else 0) := by
      intro j
      induction j with
      | zero =>
        intro _
        simp only [loop, range_zero, sum_empty, add_zero]
        congr 1
        rw [← ho]
        exact (map_getD_range 0 out).symm
      | succ j ihj =>
        intro hj
        rw [loop_succ, ihj (by omega)]
        show nest s (fun F => body (j :: F)) _ = _
        rw [ih (pos := fun F => pos (j :: F)) (val := fun F => val (j :: F))]
        · congr 1
          apply List.map_congr_left
          intro p hp
          have hp' : p < n := by simpa using hp
          rw [sum_range_succ, ← add_assoc]
          congr 1
          simp [hp']
        · intro F hF o ho'
          exact hb (j :: F) (.cons (by omega) hF) o ho'
        · simp
    exact key m le_rfl

end Verif.TensorDot
