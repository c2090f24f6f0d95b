import Mathlib.Analysis.Calculus.Deriv.Add
import Mathlib.Algebra.BigOperators.Ring.Finset
import Mathlib.Data.List.Forall2
import Verif.Model.Backward

/-!
# Sums over multi-indices and the adjoint of broadcasting
-/

namespace Verif

open Finset Spec

theorem sumIdx_append (s t : List Nat) (φ : List Nat → ℝ) :
    sumIdx (s ++ t) φ = sumIdx s fun a => sumIdx t fun b => φ (a ++ b) := by
  induction s generalizing φ with
  | nil => rfl
  | cons n s ih => simp only [List.cons_append, sumIdx, ih]

theorem sumIdx_congr {s : List Nat} {φ ψ : List Nat → ℝ} (h : ∀ idx, Arr.Idx s idx → φ idx = ψ idx) :
    sumIdx s φ = sumIdx s ψ := by
  induction s generalizing φ ψ with
  | nil => exact h [] .nil
  | cons n s ih =>
    exact sum_congr rfl fun k hk => ih fun r hr => h _ (.cons (mem_range.mp hk) hr)

theorem sumIdx_sum {s : List Nat} (n : Nat) (φ : Nat → List Nat → ℝ) :
    (sumIdx s fun idx => ∑ q ∈ range n, φ q idx) = ∑ q ∈ range n, sumIdx s (φ q) := by
  induction s generalizing φ with
  | nil => rfl
  | cons m s ih =>
    simp only [sumIdx, ih]
    exact sum_comm

theorem sumIdx_deriv {s : List Nat} {φ : ℝ → List Nat → ℝ} {φ' : List Nat → ℝ}
    (h : ∀ idx, Arr.Idx s idx → HasDerivAt (fun t => φ t idx) (φ' idx) 0) :
    HasDerivAt (fun t => sumIdx s (φ t)) (sumIdx s φ') 0 := by
  induction s generalizing φ φ' with
  | nil => exact h [] .nil
  | cons n s ih =>
    exact HasDerivAt.fun_sum fun k hk => ih fun r hr => h _ (.cons (mem_range.mp hk) hr)

/-- The index read along the batch dimensions. -/
def clipB (xb b : List Nat) : List Nat := List.zipWith (fun n k => if n = 1 then 0 else k) xb b

/-- Summing the broadcast dimensions is the adjoint of broadcasting. -/
theorem sumKeep_adj {xb batch : List Nat} (h : Broadcasts xb batch) (T : List Nat) (g δ : List Nat → ℝ) :
    (sumIdx (xb ++ T) fun idx => sumKeepGet (collapseFlags xb batch) (batch ++ T) g idx * δ idx) =
      sumIdx batch fun b => sumIdx T fun t => g (b ++ t) * δ (clipB xb b ++ t) := by
  induction h generalizing g δ with
  | nil =>
    refine sumIdx_congr fun idx _ => ?_
    cases T <;> rfl
  | @cons x y xb batch hxy _ ih =>
    obtain ⟨hy, hxy⟩ := hxy
    by_cases e : x = y
    · subst e
      simp only [collapseFlags, List.zipWith_cons_cons, lt_irrefl, decide_false, List.cons_append, sumIdx,
        sumKeepGet, clipB]
      refine sum_congr rfl fun k hk => ?_
      have := ih (fun r => g (k :: r)) fun r => δ (k :: r)
      simp only [collapseFlags, clipB] at this
      rw [this]
      have hk0 : (if x = 1 then 0 else k) = k := by
        have := mem_range.mp hk
        split <;> omega
      rw [hk0]
    · have hx : x = 1 := by tauto
      subst hx
      have hlt : 1 < y := by omega
      simp only [collapseFlags, List.zipWith_cons_cons, hlt, decide_true, List.cons_append, sumIdx,
        sumKeepGet, clipB, range_one, sum_singleton, if_true, sum_mul]
      rw [sumIdx_sum]
      refine sum_congr rfl fun k _ => ?_
      exact ih (fun r => g (k :: r)) fun r => δ (0 :: r)

theorem sumKeepShape_eq {xb batch : List Nat} (h : Broadcasts xb batch) (T : List Nat) :
    sumKeepShape (collapseFlags xb batch) (batch ++ T) = xb ++ T := by
  induction h with
  | nil => cases T <;> rfl
  | @cons x y xb batch hxy _ ih =>
    obtain ⟨hy, hxy⟩ := hxy
    by_cases e : x = y
    · subst e
      simp only [collapseFlags, List.zipWith_cons_cons, lt_irrefl, decide_false, List.cons_append, sumKeepShape]
      exact congrArg _ ih
    · have hx : x = 1 := by tauto
      subst hx
      have hlt : 1 < y := by omega
      simp only [collapseFlags, List.zipWith_cons_cons, hlt, decide_true, List.cons_append, sumKeepShape]
      exact congrArg _ ih

theorem ravel_lt_prod {s idx : List Nat} (h : Arr.Idx s idx) : ravel s idx < s.prod := by
  induction h with
  | nil => simp [ravel]
  | @cons n k s idx hk _ ih =>
    simp only [ravel, List.prod_cons]
    calc k * s.prod + ravel s idx < k * s.prod + s.prod := by omega
      _ = (k + 1) * s.prod := by ring
      _ ≤ n * s.prod := Nat.mul_le_mul_right _ hk

theorem unravel_ravel {s idx : List Nat} (h : Arr.Idx s idx) : unravel s (ravel s idx) = idx := by
  induction h with
  | nil => rfl
  | @cons n k s idx hk hr ih =>
    have hl := ravel_lt_prod hr
    have hp : 0 < s.prod := by omega
    simp only [ravel, unravel]
    rw [Nat.add_comm, Nat.add_mul_div_right _ _ hp, Nat.div_eq_of_lt hl, Nat.zero_add,
      Nat.add_mul_mod_self_right, Nat.mod_eq_of_lt hl, ih]

/-- Reading an array of shape `xb ++ T` at an index of the broadcast shape. -/
theorem at'_append {X : Arr ℝ} {xb batch T b t : List Nat} (hX : X.shape = xb ++ T) (h : Broadcasts xb batch)
    (hb : Arr.Idx batch b) (ht : Arr.Idx T t) : X.at' (b ++ t) = X.get (clipB xb b ++ t) := by
  have hl1 := h.length_eq
  have hl2 := hb.length_eq
  have hl3 := ht.length_eq
  unfold Arr.at' clip
  have h0 : (b ++ t).length - X.shape.length = 0 := by
    rw [hX, List.length_append, List.length_append]; omega
  rw [h0, List.drop_zero, hX, List.zipWith_append (by omega)]
  congr 2
  clear hX hl3 h0
  induction ht with
  | nil => rfl
  | @cons n k T t hk _ ih =>
    rw [List.zipWith_cons_cons, ih]
    congr 1
    split <;> omega

end Verif
