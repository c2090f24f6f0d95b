import Mathlib.Data.Real.Basic

/-!
# B-splines: the Cox–de Boor recursion
-/

namespace Verif.BSpline

/-- A quotient, with the convention that a term with denominator zero is zero. -/
noncomputable def quot (a b : ℝ) : ℝ := if b = 0 then 0 else a / b

/-- The basis function number `i` of degree `p` at `x`, for the knots `t 0 ≤ t 1 ≤ …`. -/
noncomputable def basis (t : Nat → ℝ) (x : ℝ) : (p : Nat) → (i : Nat) → ℝ
  | 0, i => if t i ≤ x ∧ x < t (i + 1) then 1 else 0
  | p + 1, i => quot (x - t i) (t (i + p + 1) - t i) * basis t x p i +
      quot (t (i + p + 2) - x) (t (i + p + 2) - t (i + 1)) * basis t x p (i + 1)

/-- The knot number `i` of a list. -/
noncomputable def knot (knots : List ℝ) (i : Nat) : ℝ := knots.getD i 0

end Verif.BSpline
