import Verif.Spec.Diff
import Verif.Spec.KernelReduction

/-!
# Derivatives of reductions

`base (i, j)` gives the values of the variables at the pair `(i, j)`, except for those of the variable `v` under
consideration; the array of `v` has rows `x r`.
-/

namespace Verif.Spec

open Finset

/-- The pair `(i, j)` of the output row `a` and of the reduced row `s`. -/
def pairAt (tagI a s : Nat) : Nat × Nat := if tagI = 0 then (a, s) else (s, a)

/-- The row of a variable of category `c` (0: `i`, 1: `j`, 2: parameter) read at a pair. -/
def rowAt (c : Int) (p : Nat × Nat) : Nat := if c = 0 then p.1 else if c = 1 then p.2 else 0

/-- The values of all the variables at a pair. -/
noncomputable def point (base : Nat × Nat → Env) (v : VarId) (x : Nat → Fin v.dim → ℝ) (p : Nat × Nat) : Env :=
  setVar (base p) v (x (rowAt v.cat p))

/-- The array `x` moved by `t` in the direction `δ`. -/
def line {d : Nat} (x δ : Nat → Fin d → ℝ) (t : ℝ) : Nat → Fin d → ℝ := fun r => x r + t • δ r

/-- Row `a` of the sum of the values of a formula, over `m` rows `i` and `n` rows `j`. -/
noncomputable def sumRow (f : Expr) (tagI m n : Nat) (val : Nat × Nat → Env) (a : Nat) : Vec := fun k =>
  ∑ s ∈ range (redRows tagI m n), f.val (val (pairAt tagI a s)) k

/-- Row `a` of the weighted log-sum-exp of formulas `f` (scalar) and `g`. -/
noncomputable def lseRow (f g : Expr) (tagI m n : Nat) (val : Nat × Nat → Env) (a : Nat) : Vec := fun k =>
  Real.log (∑ s ∈ range (redRows tagI m n),
    Real.exp (f.val (val (pairAt tagI a s)) 0) * g.val (val (pairAt tagI a s)) k)

/-- Row `a` of the softmax-weighted sum of `g`. -/
noncomputable def softRow (f g : Expr) (tagI m n : Nat) (val : Nat × Nat → Env) (a : Nat) : Vec := fun k =>
  (∑ s ∈ range (redRows tagI m n),
    Real.exp (f.val (val (pairAt tagI a s)) 0) * g.val (val (pairAt tagI a s)) k) /
    ∑ s ∈ range (redRows tagI m n), Real.exp (f.val (val (pairAt tagI a s)) 0)

/-- Scalar product of arrays with `rows` rows and `d` columns. -/
noncomputable def dotRows (rows d : Nat) (x y : Nat → Vec) : ℝ :=
  ∑ a ∈ range rows, ∑ k ∈ range d, x a k * y a k

/-- Scalar product between the output `g` of the gradient with respect to `v`, which has one row for each `i`
(variables `i` and parameters) or for each `j` (variables `j`), and a direction `δ`.  For a parameter the rows of the
gradient are summed. -/
noncomputable def dotGrad (v : VarId) (m n : Nat) (g : Nat → Vec) (δ : Nat → Fin v.dim → ℝ) : ℝ :=
  ∑ b ∈ range (if v.cat = 1 then n else m), ∑ k : Fin v.dim, g b k * δ (if v.cat = 2 then 0 else b) k

end Verif.Spec
