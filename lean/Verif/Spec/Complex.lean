import Mathlib.Analysis.Complex.Trigonometric
import Verif.Spec.FormulaCode
import Verif.Spec.Diff
import Verif.Model.Complex

/-!
# What complex operations mean

A vector of complex numbers is stored as a vector of real numbers where real and imaginary parts alternate:
`cplx x` is the vector of complex numbers stored in `x`, and `store z` the vector that stores `z`.
-/

namespace Verif.Cplx

open Finset Spec

/-- The complex numbers stored in `x`. -/
def cplx (x : Vec) : Nat → ℂ := fun k => ⟨x (2 * k), x (2 * k + 1)⟩

/-- The vector that stores the complex numbers `z`. -/
def store (z : Nat → ℂ) : Vec := fun i => if i % 2 = 0 then (z (i / 2)).re else (z (i / 2)).im

/-- A vector stored with dimension `d`, where a single complex number is repeated (broadcasting). -/
def bcast (d : Nat) (x : Vec) : Nat → ℂ := fun k => if d = 2 then cplx x 0 else cplx x k

/-- A vector of `n` numbers used as a vector of `m`: a single number is repeated. -/
def spread {α : Type} (n : Nat) (z : Nat → α) : Nat → α := fun k => if n = 1 then z 0 else z k

/-- Value of an operation with one argument, of dimension `d`. -/
noncomputable def unVal : Un → (d : Nat) → Vec → Vec
  | .conj, _, x => store fun k => (starRingEnd ℂ) (cplx x k)
  | .real, _, x => fun k => (cplx x k).re
  | .imag, _, x => fun k => (cplx x k).im
  | .ofReal, _, x => store fun k => (x k : ℂ)
  | .ofImag, _, x => store fun k => x k * Complex.I
  | .sqAbs, _, x => fun k => ‖cplx x k‖ ^ 2
  | .sum, d, x => store fun _ => ∑ k ∈ range (d / 2), cplx x k
  | .sumT _, _, x => store fun _ => cplx x 0
  | .exp, _, x => store fun k => Complex.exp (cplx x k)
  | .exp1j, _, x => store fun k => Complex.exp (x k * Complex.I)
  | .rexp, _, x => fun k => Real.exp (x k)
  | .rcos, _, x => fun k => Real.cos (x k)
  | .rsin, _, x => fun k => Real.sin (x k)
  | .rinv, _, x => fun k => 1 / x k
  | .rsqrt, _, x => fun k => Real.sqrt (x k)
  | .rneg, _, x => fun k => -x k
  | .rsquare, _, x => fun k => x k ^ 2
  | .dcos, _, x => fun k => -Real.sin (x k)
  | .dinv, _, x => fun k => -1 / x k ^ 2
  | .dsqrt, _, x => fun k => 1 / (2 * Real.sqrt (x k))

/-- Value of an operation with two arguments, of dimensions `d` and `d'`. -/
noncomputable def binVal : Bin → (d d' : Nat) → Vec → Vec → Vec
  | .add, d, d', x, y => store fun k => bcast d x k + bcast d' y k
  | .sub, d, d', x, y => store fun k => bcast d x k - bcast d' y k
  | .mul, d, d', x, y => store fun k => bcast d x k * bcast d' y k
  | .realScal, _, _, x, y => store fun k => (x 0 : ℂ) * cplx y k
  | .radd, d, d', x, y => fun k => cst d x k + cst d' y k
  | .rmul, d, d', x, y => fun k => cst d x k * cst d' y k
  | .ratan2, d, d', x, y => fun k => Complex.arg ⟨cst d' y k, cst d x k⟩
  | .rsub, d, d', x, y => fun k => cst d x k - cst d' y k
  | .rdiv, d, d', x, y => fun k => cst d x k / cst d' y k
  | .datan2f, d, d', x, y => fun k => cst d' y k / (cst d x k ^ 2 + cst d' y k ^ 2)
  | .datan2g, d, d', x, y => fun k => -cst d x k / (cst d x k ^ 2 + cst d' y k ^ 2)

/-- Value of a formula. -/
noncomputable def Form.val (env : Env) : Form → Vec
  | .var i _ _ => env i
  | .zero _ => fun _ => 0
  | .un o f => unVal o f.dim (f.val env)
  | .bin o f g => binVal o f.dim g.dim (f.val env) (g.val env)

/-- Domain of an operation with one argument. -/
def unDef : Un → (d : Nat) → Vec → Prop
  | .rinv, d, x | .dinv, d, x => ∀ k < d, x k ≠ 0
  | .rsqrt, d, x => ∀ k < d, 0 ≤ x k
  | .dsqrt, d, x => ∀ k < d, 0 < x k
  | _, _, _ => True

/-- Domain of an operation with two arguments. -/
def binDef : Bin → (d d' : Nat) → Vec → Vec → Prop
  | .ratan2, d, d', x, y | .datan2f, d, d', x, y | .datan2g, d, d', x, y =>
    ∀ k < max d d', cst d x k ≠ 0 ∨ cst d' y k ≠ 0
  | .rdiv, d, d', _, y => ∀ k < max d d', cst d' y k ≠ 0
  | _, _, _, _, _ => True

/-- No operation of the formula is applied outside its domain. -/
def Form.Def (env : Env) : Form → Prop
  | .un o f => f.Def env ∧ unDef o f.dim (f.val env)
  | .bin o f g => f.Def env ∧ g.Def env ∧ binDef o f.dim g.dim (f.val env) (g.val env)
  | _ => True

/-- Formulas that the constructors accept, of positive dimension; `ComplexSumT` is used with an even dimension. -/
def Form.WF : Form → Prop
  | .var _ d _ => 0 < d
  | .zero d => 0 < d
  | .un o f => f.WF ∧ o.accept f.dim = true ∧ ∀ n, o = .sumT n → 0 < n ∧ n % 2 = 0
  | .bin o f g => f.WF ∧ g.WF ∧ o.accept f.dim g.dim = true

/-- Every operation is differentiable at the point where it is applied: `ComplexAbs` and `ComplexDivide` away
from 0, `ComplexAngle` away from the negative real axis. -/
def unSmooth : Un → (d : Nat) → Vec → Prop
  | .rinv, d, x => ∀ k < d, x k ≠ 0
  | .rsqrt, d, x => ∀ k < d, 0 < x k
  | _, _, _ => True

/-- Same for two arguments. -/
def binSmooth : Bin → (d d' : Nat) → Vec → Vec → Prop
  | .ratan2, d, d', x, y => ∀ k < max d d', 0 < cst d' y k ∨ cst d x k ≠ 0
  | _, _, _, _, _ => True

/-- Same for a formula. -/
def Form.Smooth (env : Env) : Form → Prop
  | .un o f => f.Smooth env ∧ unSmooth o f.dim (f.val env)
  | .bin o f g => f.Smooth env ∧ g.Smooth env ∧ binSmooth o f.dim g.dim (f.val env) (g.val env)
  | _ => True

/-- Operations that stand for derivatives of real operations, or whose gradient is not modelled. -/
def Un.isDeriv : Un → Prop
  | .rsquare | .dcos | .dinv | .dsqrt => True
  | _ => False

/-- Same for two arguments. -/
def Bin.isDeriv : Bin → Prop
  | .rsub | .rdiv | .datan2f | .datan2g => True
  | _ => False

/-- Operations on real numbers. -/
def Bin.isReal : Bin → Prop
  | .radd | .rmul | .ratan2 => True
  | _ => False

/-- Formulas that users write: no operation that stands for a derivative (or whose gradient is not modelled), and no
broadcasting in operations on real numbers, which `ComplexAngle` and `ComplexDivide` do not use. -/
def Form.Direct : Form → Prop
  | .un o f => f.Direct ∧ ¬o.isDeriv
  | .bin o f g => f.Direct ∧ g.Direct ∧ ¬o.isDeriv ∧ (o.isReal → f.dim = g.dim)
  | _ => True

/-- The index of `v` is used with the dimension and the category of `v` only. -/
def Form.Uses (v : VarId) (f : Form) : Prop := ∀ q ∈ f.vars, q.1 = v.ind → q.2 = (v.dim, v.cat)

end Verif.Cplx
