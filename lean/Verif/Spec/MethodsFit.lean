import Verif.Spec.Methods

/-!
# Programs whose sizes are compatible

The programs on lazy tensors that obey the rules on sizes of the documentation: they raise no exception.
-/

namespace Verif.Spec

/-- The array holds one vector for each row `i < m`, or one for each column `j < n`, or one vector; with `axis=None`, it may
have batch dimensions, which are broadcast to `B`. -/
def FitsShape (B : List Nat) (m n : Nat) (shape : List Nat) : (axis : Option Nat) → Prop
  | none => shape.length ≤ 1 ∨ ∃ b x y d, shape = b ++ [x, y, d] ∧ broadcast b B = some B ∧
      ((x = m ∧ y = 1) ∨ (x = 1 ∧ y = n) ∨ (x = 1 ∧ y = 1))
  | some 0 => ∃ d, shape = [m, d]
  | some 1 => ∃ d, shape = [n, d]
  | some 2 => shape.length ≤ 1
  | _ => False

/-- Dimensions that can be combined component by component: they are equal, apart from those that are 1. -/
def Alike (ds : List Nat) : Prop := ∃ D, ∀ d ∈ ds, d = 1 ∨ d = D

/-- The arguments of a method are in the range of the positions of a vector of dimension `d`. -/
def PyMi.Fits : PyMi → (d : Nat) → Prop
  | .round _, _ => True
  | .elem i, d | .get i, d => 0 ≤ i ∧ i < d
  | .extract i c, d => 0 ≤ i ∧ 1 ≤ c ∧ i + c ≤ d
  | .slice a b, d => 0 ≤ a.getD 0 ∧ a.getD 0 < b.getD d ∧ b.getD d ≤ d
  | .oneHot _, d => d = 1

/-- The dimensions of the operands. -/
def PyOp.Fits : PyOp → (d d' : Nat) → Prop
  | .dot, d, d' => d = d'
  | .pow, d, d' => d' = 1 ∨ d' = d
  | _, d, d' => Alike [d, d']

/-- The same, for the methods with one argument. -/
def PyM2.Fits : PyM2 → (d d' : Nat) → Prop
  | .atan2, d, d' | .sqdist, d, d' => Alike [d, d']
  | .weightedsqnorm, d, d' => d' = 1 ∨ d' = d ∨ d' = d ^ 2
  | .concat, _, _ | .tensorprod, _, _ => True
  | .matvecmult, d, d' => d' ∣ d
  | .vecmatmult, d, d' => d ∣ d'

/-- The same, for the methods with two arguments. -/
def PyM3.Fits : PyM3 → (d d' d'' : Nat) → Prop
  | .weightedsqdist, d, d', ds => Alike [d, d'] ∧ (ds = 1 ∨ ds = Nat.max d d' ∨ ds = Nat.max d d' ^ 2)
  | _, d, d', d'' => Alike [d, d', d'']

/-- The exponents: numbers and lazy tensors. -/
def PyE.IsExponent : PyE → Prop
  | .list _ _ _ | .array _ _ _ => False
  | _ => True

/-- The program combines arrays with `m` rows and arrays with `n` columns, with batch dimensions that are broadcast to `B`;
the dimensions of the vectors are those that the documentation asks for; methods are called on lazy tensors, and one
operand at least of an operator is a lazy tensor. -/
def PyE.Fits (B : List Nat) : (m n : Nat) → PyE → Prop
  | _, _, .int _ | _, _, .float _ _ _ | _, _, .list _ _ _ => True
  | m, n, .array _ _ shape => FitsShape B m n shape none
  | m, n, .lazy _ _ shape axis => FitsShape B m n shape axis
  | m, n, .m1 _ x => x.IsLazy ∧ x.Fits B m n
  | m, n, .mi f x => x.IsLazy ∧ x.Fits B m n ∧ f.Fits x.dim
  | m, n, .op o x y => (x.IsLazy ∨ y.IsLazy) ∧ (o = .pow → x.IsLazy ∧ y.IsExponent) ∧ x.Fits B m n ∧ y.Fits B m n ∧
      o.Fits x.dim y.dim
  | m, n, .m2 f x y => x.IsLazy ∧ x.Fits B m n ∧ y.Fits B m n ∧ f.Fits x.dim y.dim
  | m, n, .m3 f x y z => x.IsLazy ∧ x.Fits B m n ∧ y.Fits B m n ∧ z.Fits B m n ∧ f.Fits x.dim y.dim z.dim
  | m, n, .t _ x => x.IsLazy ∧ x.Fits B n m

end Verif.Spec
