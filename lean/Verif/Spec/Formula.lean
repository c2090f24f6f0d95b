import Mathlib.Analysis.SpecialFunctions.Pow.Real
import Mathlib.Analysis.SpecialFunctions.Trigonometric.Inverse
import Mathlib.Analysis.SpecialFunctions.Trigonometric.Arctan
import Mathlib.Analysis.SpecialFunctions.Complex.Arg
import Mathlib.Analysis.SpecialFunctions.Sqrt
import Verif.Model.Expr

/-!
# What formulas mean

Values are vectors of real numbers, written as functions of a position `k`.  A value of dimension 1
is a constant function: this is the broadcasting convention (a scalar combined with a vector is
repeated along the vector).  `Expr.val env e k` is the component `k` of the value of `e` when the
input of index `i` is the vector `env i`; it is meaningful for `k < e.dim` and when `e.Def env` holds,
i.e. when no operation is applied outside its domain.
-/

namespace Verif

open Finset

/-- Vectors. -/
abbrev Vec := Nat → ℝ

/-- Values of the inputs, and of temporary variables, by index. -/
abbrev Env := Int → Vec

namespace Spec

/-- Vectors of dimension 1 are constant. -/
def cst (d : Nat) (x : Vec) : Vec := fun k => if d = 1 then x 0 else x k

/-- Indicator of a proposition. -/
noncomputable def ind (p : Prop) [Decidable p] : ℝ := if p then 1 else 0

/-- Truncation towards zero (the C conversion to an integer). -/
noncomputable def trunc (x : ℝ) : ℤ := if 0 ≤ x then ⌊x⌋ else ⌈x⌉

/-- Nearest integer, halves being rounded away from zero (the C function `round`). -/
noncomputable def roundAway (x : ℝ) : ℤ := if 0 ≤ x then ⌊x + 1 / 2⌋ else -⌊-x + 1 / 2⌋

/-- First position of the largest of the `d` first entries. -/
noncomputable def argMax (d : Nat) (x : Vec) : Nat := sInf {j | j < d ∧ ∀ i < d, x i ≤ x j}

/-- First position of the smallest of the `d` first entries. -/
noncomputable def argMin (d : Nat) (x : Vec) : Nat := sInf {j | j < d ∧ ∀ i < d, x j ≤ x i}

/-- Value of an operation with one argument of dimension `d`. -/
noncomputable def unVal : Un → (d : Nat) → Vec → Vec
  | .exp, _, x => fun k => Real.exp (x k)
  | .square, _, x => fun k => x k ^ 2
  | .minus, _, x => fun k => -x k
  | .pow m, _, x => fun k => x k ^ m
  | .inv, _, x => fun k => 1 / x k
  | .sqrt, _, x => fun k => Real.sqrt (x k)
  | .rsqrt, _, x => fun k => if x k = 0 then 0 else 1 / Real.sqrt (x k)
  | .log, _, x => fun k => Real.log (x k)
  | .abs, _, x => fun k => |x k|
  | .sign, _, x => fun k => if 0 < x k then 1 else if x k < 0 then -1 else 0
  | .cos, _, x => fun k => Real.cos (x k)
  | .sin, _, x => fun k => Real.sin (x k)
  | .acos, _, x => fun k => Real.arccos (x k)
  | .asin, _, x => fun k => Real.arcsin (x k)
  | .atan, _, x => fun k => Real.arctan (x k)
  | .sinXDivX, _, x => fun k => if x k = 0 then 1 else Real.sin (x k) / x k
  | .xLogX, _, x => fun k => if x k = 0 then 0 else x k * Real.log (x k)
  | .step, _, x => fun k => if x k < 0 then 0 else 1
  | .relu, _, x => fun k => if x k < 0 then 0 else x k
  | .clampInt a b, _, x => fun k => if x k < a then a else if (b : ℝ) < x k then b else x k
  | .diffClampInt a b, _, x => fun k => if x k < a then 0 else if (b : ℝ) < x k then 0 else 1
  | .round d, _, x => fun k => roundAway (x k * 10 ^ d) / 10 ^ d
  | .floor, _, x => fun k => ⌊x k⌋
  | .sum, d, x => fun _ => ∑ j ∈ range d, x j
  | .sumT _, _, x => fun _ => x 0
  | .elem m, _, x => fun _ => x m.toNat
  | .elemT n m, _, x => cst n fun k => if (k : Int) = m then x 0 else 0
  | .extract s n, _, x => cst n fun k => x (s + k)
  | .extractT s n, d, x => cst n fun k => if s ≤ k ∧ k < s + d then x (k - s) else 0
  | .oneHot n, _, x => cst n fun k => ind ((k : ℤ) = trunc (x 0 + 1 / 2))
  | .max, d, x => fun _ => x (argMax d x)
  | .min, d, x => fun _ => x (argMin d x)
  | .argMax, d, x => fun _ => argMax d x
  | .argMin, d, x => fun _ => argMin d x

/-- Domain of an operation with one argument. -/
def unDef : Un → (d : Nat) → Vec → Prop
  | .pow m, d, x => ∀ k < d, m < 0 → x k ≠ 0
  | .inv, d, x => ∀ k < d, x k ≠ 0
  | .sqrt, d, x => ∀ k < d, 0 ≤ x k
  | .rsqrt, d, x => ∀ k < d, 0 ≤ x k
  | .log, d, x => ∀ k < d, 0 < x k
  | .acos, d, x | .asin, d, x => ∀ k < d, -1 ≤ x k ∧ x k ≤ 1
  | .xLogX, d, x => ∀ k < d, 0 ≤ x k
  | .elem m, _, _ => 0 ≤ m
  | .elemT n m, _, _ => 0 ≤ m ∧ m < n
  | .oneHot n, _, x => 0 ≤ trunc (x 0 + 1 / 2) ∧ trunc (x 0 + 1 / 2) < n
  | _, _, _ => True

/-- Value of an operation with two arguments, of dimensions `d` and `d'`. -/
noncomputable def binVal : Bin → (d d' : Nat) → Vec → Vec → Vec
  | .add, _, _, x, y => fun k => x k + y k
  | .sub, _, _, x, y => fun k => x k - y k
  | .mul, _, _, x, y => fun k => x k * y k
  | .div, _, _, x, y => fun k => x k / y k
  | .powf, _, _, x, y => fun k => x k ^ y k
  | .atan2, _, _, x, y => fun k => Complex.arg ⟨y k, x k⟩
  | .lessThan, _, _, x, y => fun k => ind (x k < y k)
  | .lessOrEqual, _, _, x, y => fun k => ind (x k ≤ y k)
  | .equal, _, _, x, y => fun k => ind (x k = y k)
  | .notEqual, _, _, x, y => fun k => ind (x k ≠ y k)
  | .scalprod, d, d', x, y => fun _ => ∑ j ∈ range (max d d'), x j * y j
  | .concat, d, d', x, y => cst (d + d') fun k => if k < d then x k else y (k - d)
  | .matVecMult, d, d', a, b => cst (d / d') fun i => ∑ k ∈ range d', a (i * d' + k) * b k
  | .vecMatMult, d, d', b, a => cst (d' / d) fun i => ∑ k ∈ range d, b k * a (k * (d' / d) + i)
  | .tensorProd, d, d', x, y => cst (d * d') fun q => x (q / d') * y (q % d')

/-- Domain of an operation with two arguments. -/
def binDef : Bin → (d d' : Nat) → Vec → Vec → Prop
  | .div, d, d', _, y => ∀ k < max d d', y k ≠ 0
  | .powf, d, d', x, _ => ∀ k < max d d', 0 < x k
  | .atan2, d, d', x, y => ∀ k < max d d', x k ≠ 0 ∨ y k ≠ 0
  | _, _, _, _, _ => True

/-- Value of an operation with three arguments. -/
noncomputable def ternVal : Tern → Vec → Vec → Vec → Vec
  | .ifElse, x, a, b => fun k => if 0 ≤ x k then a k else b k
  | .clamp, x, a, b => fun k => if x k < a k then a k else if b k < x k then b k else x k
  | .mod, x, n, d => fun k => x k - n k * ⌊(x k - d k) / n k⌋

/-- Domain of an operation with three arguments, `m` being the largest dimension. -/
def ternDef : Tern → (m : Nat) → Vec → Vec → Vec → Prop
  | .mod, m, _, n, _ => ∀ k < m, n k ≠ 0
  | _, _, _, _, _ => True

end Spec

open Spec

/-- Value of a formula. -/
noncomputable def Expr.val (env : Env) : Expr → Vec
  | .var i d _ => cst d (env i)
  | .zero _ => fun _ => 0
  | .int n => fun _ => n
  | .rat p q => fun _ => p / q
  | .un o f => unVal o f.dim (f.val env)
  | .bin o f g => binVal o f.dim g.dim (f.val env) (g.val env)
  | .tern o f g h => ternVal o (f.val env) (g.val env) (h.val env)
  | .fact i _ _ f g => f.val (Function.update env i (g.val env))

/-- No operation of the formula is applied outside its domain. -/
def Expr.Def (env : Env) : Expr → Prop
  | .un o f => f.Def env ∧ unDef o f.dim (f.val env)
  | .bin o f g => f.Def env ∧ g.Def env ∧ binDef o f.dim g.dim (f.val env) (g.val env)
  | .tern o f g h => f.Def env ∧ g.Def env ∧ h.Def env ∧
      ternDef o (Expr.tern o f g h).dim (f.val env) (g.val env) (h.val env)
  | .fact i _ _ f g => g.Def env ∧ f.Def (Function.update env i (g.val env))
  | _ => True

/-- Formulas whose dimensions are positive and that the constructors accept. -/
def Expr.WF : Expr → Prop
  | .var _ d _ => 0 < d
  | .zero d => 0 < d
  | .int _ => True
  | .rat _ q => q ≠ 0
  | .un o f => f.WF ∧ o.accept f.dim = true ∧ 0 < o.dim f.dim ∧ (∀ n, o = .sumT n → f.dim = 1)
  | .bin o f g => f.WF ∧ g.WF ∧ o.accept f.dim g.dim = true ∧ 0 < o.dim f.dim g.dim
  | .tern _ f g h => f.WF ∧ g.WF ∧ h.WF ∧ dimsOk [f.dim, g.dim, h.dim] = true
  | .fact _ d _ f g => f.WF ∧ g.WF ∧ g.dim = d

end Verif
