import Verif.Model.Linear

/-!
# Gradients of reductions

Model of the methods `DiffT` and `Diff` of the reductions and of `Grad_WithSavedForward`,
`Diff_WithSavedForward`, as used by the backward pass and by forward-mode differentiation.
-/

namespace Verif

/-- A reduction of a formula; `tagI` is the axis of the output.

* `sum f`: `Sum_Reduction` (`reductions/Sum_Reduction.py:10-19`);
* `maxSumShiftExp f g`: `Max_SumShiftExpWeight_Reduction`
  (`reductions/Max_SumShiftExpWeight_Reduction.py:16-33`);
* `arg f dim`: `ArgMin_Reduction`, `ArgMax_Reduction` and `ArgKMin_Reduction`, with `dim` the dimension of the
  output (`reductions/ArgMin_Reduction.py:8-17`, `reductions/ArgMax_Reduction.py:8-17`,
  `reductions/ArgKMin_Reduction.py:10-19`);
* `zero dim`: `Zero_Reduction` (`reductions/Zero_Reduction.py:5-14`);
* `value f`: the reductions which return values (`Min`, `Max`, `KMin`, with or without indices). -/
inductive RedExpr
  | sum (f : Expr) (tagI : Nat)
  | maxSumShiftExp (f g : Expr) (tagI : Nat)
  | arg (f : Expr) (dim tagI : Nat)
  | zero (dim tagI : Nat)
  | value (f : Expr) (tagI : Nat)

/-- Axis of the output of the gradient with respect to a variable: `v.cat % 2`. -/
def VarId.axis (v : VarId) : Nat := (v.cat % 2).toNat

/-- `DiffT(v, gradin)` of a sum. `reductions/Sum_Reduction.py:42-45`. -/
def sumDiffT (n : Nat) (f : Expr) (v : VarId) (gradin : Expr) : Except Err RedExpr := do
  let r ← grad n f v gradin
  return .sum r v.axis

/-- The formula `Exp(F - M) * G` with `M = Extract(MS, 0, F.dim)`.
`reductions/Max_SumShiftExpWeight_Reduction.py:101,103`. -/
def shiftExp (n : Nat) (f g ms : Expr) : Except Err Expr := do
  let m ← mkUn (.extract 0 f.dim) ms
  let d ← build n (.sub f m)
  let e ← mkUn .exp d
  build n (.mul e g)

/-- `Grad_WithSavedForward(red, v, gradin, f0)`: the method `DiffT` of the reduction
(`autodiff/Grad_WithSavedForward.py:4-5`): `reductions/Sum_Reduction.py:42-45`,
`reductions/Max_SumShiftExpWeight_Reduction.py:89-103`, `reductions/ArgMin_Reduction.py:23-24`,
`reductions/ArgMax_Reduction.py:23-24`, `reductions/ArgKMin_Reduction.py:33-34`,
`reductions/Zero_Reduction.py:16-17`.  The other reductions have no method `DiffT`; the backward pass refuses
them before (`torch/generic/generic_red.py:21-43,160`). -/
def RedExpr.diffT (n : Nat) (v : VarId) (gradin f0 : Expr) : RedExpr → Except Err RedExpr
  | .sum f _ => sumDiffT n f v gradin
  | .maxSumShiftExp f g _ => do
    let p ← shiftExp n f g f0
    let gs ← mkUn (.extract f.dim g.dim) gradin
    sumDiffT n p v gs
  | .arg _ _ _ | .zero _ _ => .ok (.zero v.dim v.axis)
  | .value _ _ => .error .keops

/-- `Diff_WithSavedForward(red, v, u, f0)`: the method `Diff` of the reduction
(`autodiff/Diff_WithSavedForward.py:4-5`): `reductions/Sum_Reduction.py:47-50`,
`reductions/Max_SumShiftExpWeight_Reduction.py:105-120`, `reductions/ArgMin_Reduction.py:26-27`,
`reductions/ArgMax_Reduction.py:26-27`, `reductions/ArgKMin_Reduction.py:36-37`,
`reductions/Zero_Reduction.py:19-20`. -/
def RedExpr.diff (n : Nat) (v : VarId) (u f0 : Expr) : RedExpr → Except Err RedExpr
  | .sum f t => do
    let r ← Verif.diff n f v u
    return .sum r t
  | .maxSumShiftExp f g t => do
    let p ← shiftExp n f g f0
    let c ← mkBin .concat (.zero f.dim) p
    let r ← Verif.diff n c v u
    return .sum r t
  | .arg _ d t | .zero d t => .ok (.zero d t)
  | .value _ _ => .error .keops

end Verif
