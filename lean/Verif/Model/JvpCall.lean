import Verif.Model.BackwardCall

/-!
# The calls made by forward-mode differentiation

`jvp` of the PyTorch interface: one call for each argument that has a tangent, and the sum of their outputs.
-/

namespace Verif

/-- `eta`, the variable of the tangent of the argument `v`. `torch/generic/generic_red.py:352`. -/
def tangentVar (nargs : Nat) (v : VarId) : Expr := .var nargs v.dim v.cat

/-- The variables and tangents of the calls, in the order of the loop: the tangent of the argument number `var_ind` goes
with the declaration number `var_ind`; arguments without tangent (`None`) are skipped.
`torch/generic/generic_red.py:344-351,355`. -/
def jvpCalls {V : Type} (sigs : List VarId) (tangents : List (Option (Mem V))) : List (VarId × Mem V) :=
  (sigs.zip tangents).filterMap fun c => c.2.map fun δ => (c.1, δ)

/-- The shapes of `args_d = (*args, grad_input, result)`: a tangent has the shape of its argument `v` (PyTorch), and the
saved output has the shape `out`. `torch/generic/generic_red.py:355`. -/
def jvpShapes (shapes : List (List Nat)) (v : VarId) (out : List Nat) : List (List Nat) :=
  shapes ++ [shapes.getD v.ind.toNat [], out]

/-- `out = 0`, then `out = out + diff` for each call. `torch/generic/generic_red.py:343,376-380`. -/
def jvpOut {V : Type} [Zero V] [Add V] (diffs : List (Mem V)) : Mem V :=
  diffs.foldl (fun out diff q => out q + diff q) fun _ => 0

end Verif
