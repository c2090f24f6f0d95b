import Verif.Spec.Methods

/-!
# What the reductions of lazy tensors mean
-/

namespace Verif.Spec

/-- The reductions of a lazy tensor along one of its axes `i` and `j`: `x.sum(axis)`, …, `x.Kmin(K, axis)`, …,
`x.logsumexp(axis)`, `x.logsumexp(axis, weight=w)`, `x.sumsoftmaxweight(w, axis)`. The methods `sum_reduction`,
`min_reduction`, … are the same. -/
inductive PyRed
  | sum | min | max | argmin | argmax | minArgmin | maxArgmax
  | kmin (K : Nat) | argkmin (K : Nat) | kminArgkmin (K : Nat)
  | logsumexp | logsumexpW (w : PyE) | sumsoftmaxweight (w : PyE)

/-- The weight. -/
def PyRed.weight : PyRed → Option PyE
  | .logsumexpW w | .sumsoftmaxweight w => some w
  | _ => none

/-- The vectors that are reduced: the one of row `r` of the output and of reduced index `s`, when the reduction is along
the axis `a` (0 for `i`, 1 for `j`). -/
noncomputable def PyE.along (p : PyE) (data : Nat → Nat → ℝ) (a r s : Nat) : Vec :=
  if a = 0 then p.val data s r else p.val data r s

/-- The number of rows of the output. -/
def rowsOut (a m n : Nat) : Nat := if a = 0 then n else m

/-- The number of reduced indices. -/
def rowsRed (a m n : Nat) : Nat := if a = 0 then m else n

end Verif.Spec
