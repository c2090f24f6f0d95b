import Mathlib.Algebra.Order.Floor.Ring
import Mathlib.Data.Int.Log
import Mathlib.Data.Real.Archimedean
import Verif.Model.RoundedSum

/-!
# Specification: floating point numbers

Rounding to nearest with a bounded number of significant bits, and what is needed from it.
-/

namespace Verif.Rnd

/-- `r` rounds to some set of numbers with a relative error of at most `u`, and does not change these numbers. -/
structure Rounding (u : ℝ) (r : ℝ → ℝ) : Prop where
  err : ∀ x, |r x - x| ≤ u * |x|
  idem : ∀ x, r (r x) = r x

/-- The numbers of the first type are numbers of the second one. -/
def Wider (rf ra : ℝ → ℝ) : Prop := ∀ x, ra (rf x) = rf x

/-- The nearest integer, the even one if there are two. -/
noncomputable def nearestInt (y : ℝ) : ℤ :=
  if 2 * Int.fract y < 1 ∨ (2 * Int.fract y = 1 ∧ Even ⌊y⌋) then ⌊y⌋ else ⌊y⌋ + 1

/-- The exponent of the last bit of the numbers with `p` significant bits near `x`. -/
noncomputable def lastBit (p : Nat) (x : ℝ) : ℤ := Int.log 2 |x| + 1 - p

/-- Rounding to nearest, ties to even, to `p` significant bits, without bounds on the exponent (IEEE 754 without
overflow and underflow: 24 bits for `float32`, 53 for `float64`). -/
noncomputable def rnd (p : Nat) (x : ℝ) : ℝ := nearestInt (x / 2 ^ lastBit p x) * 2 ^ lastBit p x

end Verif.Rnd
