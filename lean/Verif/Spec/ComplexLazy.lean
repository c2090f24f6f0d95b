import Mathlib.Analysis.SpecialFunctions.Complex.Arg
import Mathlib.Analysis.SpecialFunctions.Trigonometric.Basic
import Verif.Model.ComplexLazy
import Verif.Spec.Complex

/-!
# What programs with complex lazy tensors mean

For each pair of rows, a program gives `p.len` numbers, complex if `p.isC` and real otherwise, with the values
`p.val env`.  A single number is repeated when the other operand has more.
-/

namespace Verif.Cplx

open Finset Spec

/-- The result of a method is complex, when the argument is (`c`). -/
def Meth.isC : Meth → Bool → Bool
  | .abs, _ | .real, _ | .imag, _ | .angle, _ => false
  | .conj, _ | .real2complex, _ | .imag2complex, _ | .exp1j, _ => true
  | _, c => c

/-- The result is complex. -/
def Prog.isC : Prog → Bool
  | .arr _ _ _ c => c
  | .meth m p => m.isC p.isC
  | .bin _ p q => p.isC || q.isC
  | .binNum _ p c _ => p.isC || c.isC
  | .numBin _ c _ p => c.isC || p.isC

/-- Number of numbers of the result. -/
def Prog.len : Prog → Nat
  | .arr _ n _ _ => n
  | .meth .sum _ => 1
  | .meth _ p => p.len
  | .bin _ p q => max p.len q.len
  | .binNum _ p _ _ => p.len
  | .numBin _ _ _ p => p.len

/-- Operators on numbers. -/
noncomputable def Arith.fn : Arith → ℂ → ℂ → ℂ
  | .add, a, b => a + b
  | .sub, a, b => a - b
  | .mul, a, b => a * b
  | .div, a, b => a / b

/-- Methods on vectors of `n` numbers. -/
noncomputable def Meth.fn (m : Meth) (n : Nat) (z : Nat → ℂ) (k : Nat) : ℂ :=
  match m with
  | .neg => -z k
  | .square => z k ^ 2
  | .cos => Complex.cos (z k)
  | .sin => Complex.sin (z k)
  | .exp => Complex.exp (z k)
  | .abs => ‖z k‖
  | .real => (z k).re
  | .imag => (z k).im
  | .angle => Complex.arg (z k)
  | .conj => (starRingEnd ℂ) (z k)
  | .real2complex => z k
  | .imag2complex => z k * Complex.I
  | .exp1j => Complex.exp (z k * Complex.I)
  | .sum => ∑ l ∈ range n, z l

/-- The values, where `env pos` is the row of the array at position `pos`, with real and imaginary parts one after the
other if it is complex. -/
noncomputable def Prog.val (env : Env) : Prog → Nat → ℂ
  | .arr pos _ _ isC => fun k => if isC then ⟨env pos (2 * k), env pos (2 * k + 1)⟩ else (env pos k : ℂ)
  | .meth m p => m.fn p.len (p.val env)
  | .bin o p q => fun k => o.fn (spread p.len (p.val env) k) (spread q.len (q.val env) k)
  | .binNum o p c _ => fun k => o.fn (p.val env k) c.val
  | .numBin o c _ p => fun k => o.fn c.val (p.val env k)

/-- No division by zero, and no argument of zero. -/
def Prog.Def (env : Env) : Prog → Prop
  | .arr .. => True
  | .meth m p => p.Def env ∧ (m = .angle → ∀ k < p.len, p.val env k ≠ 0)
  | .bin o p q => p.Def env ∧ q.Def env ∧ (o = .div → ∀ k < q.len, q.val env k ≠ 0)
  | .binNum o p c _ => p.Def env ∧ (o = .div → c.val ≠ 0)
  | .numBin o _ _ p => p.Def env ∧ (o = .div → ∀ k < p.len, p.val env k ≠ 0)

/-- The number is among the arguments. -/
def Number.Held (c : Number) (env : Env) (key : Int) : Prop :=
  env key 0 = c.val.re ∧ if c.isC then env key 1 = c.val.im else c.val.im = 0

/-- The numbers of the program are among the arguments. -/
def Prog.Held (env : Env) : Prog → Prop
  | .arr .. => True
  | .meth _ p => p.Held env
  | .bin _ p q => p.Held env ∧ q.Held env
  | .binNum _ p c key => p.Held env ∧ c.Held env key
  | .numBin _ c key p => p.Held env ∧ c.Held env key

/-- An operation between a real tensor and a number of type `complex`, other than a product with a number that is not
0, 1 or -1. -/
def Mixed (o : Arith) (c : Number) (isC : Bool) : Prop :=
  c.isC = true ∧ isC = false ∧ ¬(o = .mul ∧ c.val ≠ 0 ∧ c.val ≠ 1 ∧ c.val ≠ -1)

/-- Programs without the operations that are refuted below: `square`, `cos`, `sin` of complex tensors, `1 / z` for a
complex tensor `z`, and sums, differences and quotients of a real tensor and a complex number. -/
def Prog.Fine : Prog → Prop
  | .arr _ n _ _ => 0 < n
  | .meth m p => p.Fine ∧ (p.isC = true → m ≠ .square ∧ m ≠ .cos ∧ m ≠ .sin)
  | .bin _ p q => p.Fine ∧ q.Fine
  | .binNum o p c _ => p.Fine ∧ ¬Mixed o c p.isC
  | .numBin o c _ p => p.Fine ∧ ¬Mixed o c p.isC ∧ ¬(o = .div ∧ c.val = 1 ∧ p.isC = true)

/-- Operations with a number that are decided from its value: `z + 0`, `z - 0`, `z * 1`, `z * (-1)`, `z / 1`. -/
def Trivial : Arith → Number → Prop
  | .add, c | .sub, c => c.val = 0
  | .mul, c => c.val = 1 ∨ c.val = -1
  | .div, c => c.val = 1

/-- Programs that are accepted: methods are those of the type of the tensor; lengths are equal or one of them is 1;
numbers have no type `complex`, or multiply a real tensor; and for complex tensors the operations with numbers are the
trivial ones.  A product by the number 0 gives the number 0, which is not a tensor. -/
def Prog.Ok : Prog → Prop
  | .arr _ n _ _ => 0 < n
  | .meth m p => p.Ok ∧
    match m with
    | .neg | .square | .cos | .sin | .exp => True
    | .real2complex | .imag2complex | .exp1j => p.isC = false
    | .abs | .real | .imag | .angle | .conj | .sum => p.isC = true
  | .bin _ p q => p.Ok ∧ q.Ok ∧ (p.len = q.len ∨ p.len = 1 ∨ q.len = 1)
  | .binNum o p c _ => p.Ok ∧ (p.isC = true → Trivial o c) ∧ ¬Mixed o c p.isC ∧ ¬(o = .mul ∧ c.val = 0)
  | .numBin o c _ p => p.Ok ∧ (p.isC = true → (o = .add ∧ c.val = 0) ∨ (o = .sub ∧ c.val = 0) ∨
      (o = .mul ∧ (c.val = 1 ∨ c.val = -1))) ∧ ¬Mixed o c p.isC ∧ ¬(o = .mul ∧ c.val = 0) ∧ ¬(o = .div ∧ c.val = 0)

/-- The arguments of the program: position, number of columns and category. -/
def Prog.vars : Prog → List (Int × Nat × Int)
  | .arr pos n cat isC => [(pos, if isC then 2 * n else n, cat)]
  | .meth _ p => p.vars
  | .bin _ p q => p.vars ++ q.vars
  | .binNum _ p c key => (key, if c.isC then 2 else 1, 2) :: p.vars
  | .numBin _ c key p => (key, if c.isC then 2 else 1, 2) :: p.vars

end Verif.Cplx
