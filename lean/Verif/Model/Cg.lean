import Mathlib.Data.Real.Basic
import Mathlib.Data.List.OfFn

/-!
# Conjugate gradient

Model of `ConjugateGradientSolver` in `common/operations.py`.
-/

namespace Verif.Cg

/-- A floating point number without rounding; `none` is a number which is not finite (`nan` or an infinity).
Simplification: every operation on a number which is not finite gives a number which is not finite. -/
abbrev Flt := Option ℝ

/-- An operation on finite numbers. -/
def lift (f : ℝ → ℝ → ℝ) : Flt → Flt → Flt
  | some x, some y => some (f x y)
  | _, _ => none

/-- Division; `x / 0` is not finite. -/
noncomputable def div : Flt → Flt → Flt
  | some x, some y => if y = 0 then none else some (x / y)
  | _, _ => none

/-- `x < y`, false if `x` is not finite (the numbers compared by the solver are never `-inf`). -/
def Lt : Flt → ℝ → Prop
  | some x, y => x < y
  | none, _ => False

noncomputable instance (x : Flt) (y : ℝ) : Decidable (Lt x y) := Classical.dec _

/-- An array with `n` entries, whatever its shape. -/
abbrev Arr (n : Nat) := Fin n → Flt

/-- `x.sum()`. -/
def sum {n : Nat} (x : Arr n) : Flt := (List.ofFn x).foldl (lift (· + ·)) (some 0)

/-- `(x**2).sum()`. -/
def sq {n : Nat} (x : Arr n) : Flt := sum fun i => lift (· * ·) (x i) (x i)

/-- The variables of the loop. -/
structure St (n : Nat) where
  a : Arr n
  r : Arr n
  p : Arr n
  nr2 : Flt

/-- The statements of the loop before the test: `a += alp * p`, `r -= alp * Mp`, `nr2new`.  The entry `nr2` of the
result is `nr2new` and `p` is not modified. `common/operations.py:104-108`. -/
noncomputable def half {n : Nat} (linop : Arr n → Arr n) (s : St n) : St n :=
  let Mp := linop s.p
  let alp := div s.nr2 (sum fun i => lift (· * ·) (s.p i) (Mp i))
  let a := fun i => lift (· + ·) (s.a i) (lift (· * ·) alp (s.p i))
  let r := fun i => lift (· - ·) (s.r i) (lift (· * ·) alp (Mp i))
  ⟨a, r, s.p, sq r⟩

/-- The statements of the loop after the test: `p = r + (nr2new / nr2) * p`. `common/operations.py:111-112`. -/
noncomputable def next {n : Nat} (s s' : St n) : St n :=
  { s' with p := fun i => lift (· + ·) (s'.r i) (lift (· * ·) (div s'.nr2 s.nr2) (s.p i)) }

/-- The loop `while True`, with a number of iterations; `none` if it is still running after this number.
`common/operations.py:103-114`. -/
noncomputable def loop {n : Nat} (δ : ℝ) (linop : Arr n → Arr n) : Nat → St n → Option (Arr n)
  | 0, _ => none
  | k + 1, s =>
    let s' := half linop s
    if Lt s'.nr2 δ then some s'.a else loop δ linop k (next s s')

/-- `ConjugateGradientSolver(binding, linop, b, eps)` with at most `k` iterations; `none` if it has not returned.
The variable `a` is first the integer 0, which has the same effect as an array of zeros. `common/operations.py:90-114`. -/
noncomputable def solve {n : Nat} (linop : Arr n → Arr n) (b : Arr n) (eps : ℝ) (k : Nat) : Option (Arr n) :=
  let δ := n * eps ^ 2
  if Lt (sq b) δ then some fun i => lift (· * ·) (some 0) (b i)
  else loop δ linop k ⟨fun _ => some 0, b, b, sq b⟩

end Verif.Cg
