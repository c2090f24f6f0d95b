import Verif.Model.Backward
import Verif.Model.RedDiff
import Verif.Model.FormulaCall

/-!
# The call made by the backward pass

The arrays given to the gradient reduction, and the array that becomes the gradient of an argument, when there are no
batch dimensions.
-/

namespace Verif

/-- `args_g = (*args, G, result)`, `torch/generic/generic_red.py:156-157,191`: the arguments of the call, then the gradient
of the loss with respect to the output, then the saved output. -/
def gradArgs {V : Type} (nargs : Nat) (args : Nat → Mem V) (G result : Mem V) : Nat → Mem V := fun p =>
  if p < nargs then args p else if p = nargs then G else result

/-- `eta`, the variable of the gradient of the loss with respect to the output. `torch/generic/generic_red.py:162-165`. -/
def etaVar (nargs dimout tagI : Nat) : Expr := .var nargs dimout tagI

/-- `resvar`, the variable of the saved output. `torch/generic/generic_red.py:167-168`. -/
def resVar (nargs dimout tagI : Nat) : Expr := .var (nargs + 1 : Nat) dimout tagI

/-- The memory of the output of a call without batch dimensions, with `rows` rows of dimension `d`, as an array:
`torch/generic/generic_red.py:214`, `common/keops_io/LoadKeOps.py:225,228`. -/
def asArr (rows d : Nat) (g : Mem ℝ) : Spec.Arr ℝ := ⟨[rows, d], fun idx => g (ravel [rows, d] idx)⟩

/-- The memory of the output of a call, as an array of shape `shape`: the batch dimensions of the call, then the rows and
the dimension.  `common/keops_io/LoadKeOps.py:225-228`. -/
def asArray (shape : List Nat) (g : Mem ℝ) : Spec.Arr ℝ := ⟨shape, fun idx => g (ravel shape idx)⟩

/-- The shapes of `args_g = (*args, G, result)`: the output, and its gradient, have the shape `out`.
`torch/generic/generic_red.py:191`. -/
def gradShapes (shapes : List (List Nat)) (out : List Nat) : List (List Nat) := shapes ++ [out, out]

end Verif
