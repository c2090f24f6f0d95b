import Verif.Spec.FormulaCode
import Verif.Model.Precision

/-!
# What computing in double precision means

Two ways to say that the numbers computed for arrays of doubles only suffer from the errors of double precision:
if the operations of type `double` were exact the result would be exact (`ExactDouble`), and the result does not
depend on the operations of type `float` (`SameDouble`).
-/

namespace Verif.Prec

open Spec

/-- Numbers that the type `float` of IEEE 754 can hold. -/
def Single (x : ℝ) : Prop := ∃ k e : ℤ, |k| < 2 ^ 24 ∧ -149 ≤ e ∧ e ≤ 104 ∧ x = k * (2 : ℝ) ^ e

/-- Conversions to `float` give a `float`, whatever the rounding mode, and keep the numbers that are already of this
type. -/
structure FloatConv (m : Machine) : Prop where
  single : ∀ x, |x| ≤ 2 ^ 127 → Single (m.conv .float x)
  keep : ∀ x, Single x → m.conv .float x = x

/-- The operations of type `double` are exact on their domain. Nothing is said about the operations of type
`float`. -/
structure ExactDouble (m : Machine) : Prop where
  add : ∀ x y, m.arith .double .add x y = x + y
  sub : ∀ x y, m.arith .double .sub x y = x - y
  mul : ∀ x y, m.arith .double .mul x y = x * y
  div : ∀ x y, y ≠ 0 → m.arith .double .div x y = x / y
  fma : ∀ x y z, m.fma .double x y z = x * y + z
  exp : ∀ x, m.fun1 .double .exp x = Real.exp x
  log : ∀ x, 0 < x → m.fun1 .double .log x = Real.log x
  cos : ∀ x, m.fun1 .double .cos x = Real.cos x
  sin : ∀ x, m.fun1 .double .sin x = Real.sin x
  acos : ∀ x, -1 ≤ x → x ≤ 1 → m.fun1 .double .acos x = Real.arccos x
  asin : ∀ x, -1 ≤ x → x ≤ 1 → m.fun1 .double .asin x = Real.arcsin x
  atan : ∀ x, m.fun1 .double .atan x = Real.arctan x
  sqrt : ∀ x, 0 ≤ x → m.fun1 .double .sqrt x = Real.sqrt x
  rsqrt : ∀ x, 0 < x → m.fun1 .double .rsqrt x = 1 / Real.sqrt x
  abs : ∀ x, m.fun1 .double .abs x = |x|
  floor : ∀ x, m.fun1 .double .floor x = ⌊x⌋
  round : ∀ x, m.fun1 .double .round x = roundAway x
  pow : ∀ (x : ℝ) (n : ℤ), (n < 0 → x ≠ 0) → m.fun2 .double .pow x n = x ^ n
  atan2 : ∀ y x, y ≠ 0 ∨ x ≠ 0 → m.fun2 .double .atan2 y x = Complex.arg ⟨x, y⟩
  conv : ∀ x, m.conv .double x = x

/-- Two machines with the same operations of type `double`; those of type `float` may be different. -/
structure SameDouble (m m' : Machine) : Prop where
  arith : m.arith .double = m'.arith .double
  fun1 : m.fun1 .double = m'.fun1 .double
  fun2 : m.fun2 .double = m'.fun2 .double
  fma : m.fma .double = m'.fma .double
  conv : m.conv .double = m'.conv .double

/-- The constants of a formula are numbers of type `float`, and no operation of the formula is a power with a real
exponent, or on the GPU a power with an integer exponent. -/
def Ok (t : Target) : Expr → Prop
  | .var _ _ _ | .zero _ => True
  | .int n => Single n
  | .rat p q => Single (p / q)
  | .un o f => Ok t f ∧ (t = .gpu → ∀ n, o ≠ .pow n)
  | .bin o f g => Ok t f ∧ Ok t g ∧ o ≠ .powf
  | .tern _ f g h => Ok t f ∧ Ok t g ∧ Ok t h
  | .fact _ _ _ f g => Ok t f ∧ Ok t g

end Verif.Prec
