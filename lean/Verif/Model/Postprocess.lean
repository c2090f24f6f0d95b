import Verif.Model.Mem

/-!
# Post-processing of the raw output

Model of `pykeops/pykeops/common/operations.py:7-87` (`preprocess`, `postprocess`).
-/

namespace Verif

/-- The user-level reduction names that `preprocess`/`postprocess` distinguish.
`common/operations.py:10-33,41-81`. -/
inductive RedOp
  | sum | sumSoftMaxWeight | softMax | logSumExp | logSumExpWeight
  | argMin | argMax | minArgMin | maxArgMax | kMin | argKMin | kMinArgKMin | min | max
  deriving DecidableEq, Repr

/-- The internal reductions. `common/operations.py:14,21,24,31,33`. -/
inductive InternalOp
  | same (op : RedOp) | maxSumShiftExp | maxSumShiftExpWeight
  deriving DecidableEq, Repr

/-- `preprocess(reduction_op, formula2)`, `common/operations.py:7-35`.  `formula2` is the dimension of the
second formula (`none` when it is absent).  Returns the internal reduction and the dimension of
the second formula it is called with (`Concat(IntCst(1), formula2)` has one more); `none` is the
`ValueError`. For `SumSoftMaxWeight` without formula the string concatenation raises. -/
def preprocess : RedOp → Option Nat → Option (InternalOp × Option Nat)
  | .sumSoftMaxWeight, some d => some (.maxSumShiftExpWeight, some (1 + d))
  | .softMax, some d => some (.maxSumShiftExpWeight, some (1 + d))
  | .sumSoftMaxWeight, none => none
  | .softMax, none => none
  | .logSumExp, some d => some (.maxSumShiftExpWeight, some d)
  | .logSumExp, none => some (.maxSumShiftExp, none)
  | .logSumExpWeight, some d => some (.maxSumShiftExpWeight, some d)
  | .logSumExpWeight, none => none
  | op, f2 => some (.same op, f2)

/-- The arithmetic used by `postprocess`. `common/operations.py:43,46,84`. -/
structure PostNum (V : Type) where
  add : V → V → V
  div : V → V → V
  log : V → V
  /-- `tools.long` -/
  long : V → V

/-- One output array restricted to one output row: trailing shape and content in row-major order.
`common/operations.py:43-86`. -/
structure Arr (V : Type) where
  shape : List Nat
  get : Mem V

/-- `out.squeeze(-1)` when the last dimension is 1. `common/operations.py:64-65`. -/
def Arr.squeezeLast {V : Type} (a : Arr V) : Arr V :=
  if a.shape.getLast? = some 1 then { a with shape := a.shape.dropLast } else a

/-- `postprocess(out, binding, reduction_op, nout, opt_arg, dtype)`, `common/operations.py:38-87`, on one
row `out` of dimension `dim`.  `view` with `-1` needs an exact division and a non-zero size,
otherwise it raises (`none`).  Slices keep what exists. -/
def postprocess {V : Type} (n : PostNum V) (op : RedOp) (optArg dim : Nat) (out : Mem V) :
    Option (List (Arr V)) :=
  match op with
  | .sumSoftMaxWeight | .softMax =>
    -- out[..., 2:] / out[..., 1][..., None]
    some [⟨[dim - 2], fun k => n.div (out (2 + k)) (out 1)⟩]
  | .argMin | .argMax => some [⟨[dim], fun k => n.long (out k)⟩]
  | .minArgMin | .maxArgMax =>
    if dim % 2 = 0 then
      some [⟨[dim / 2], fun k => out k⟩, ⟨[dim / 2], fun k => n.long (out (dim / 2 + k))⟩]
    else none
  | .kMin =>
    if optArg ≠ 0 ∧ dim % optArg = 0 then
      some [Arr.squeezeLast ⟨[optArg, dim / optArg], out⟩]
    else none
  | .argKMin =>
    if optArg ≠ 0 ∧ dim % optArg = 0 then
      some [Arr.squeezeLast ⟨[optArg, dim / optArg], fun k => n.long (out k)⟩]
    else none
  | .kMinArgKMin =>
    if optArg ≠ 0 ∧ dim % (2 * optArg) = 0 then
      let d := dim / (2 * optArg)
      -- view (optArg, 2, d), then `[..., 0, :]` and `[..., 1, :]`
      some [Arr.squeezeLast ⟨[optArg, d], fun q => out (q / d * (2 * d) + q % d)⟩,
            Arr.squeezeLast ⟨[optArg, d], fun q => n.long (out (q / d * (2 * d) + d + q % d))⟩]
    else none
  | .logSumExp =>
    if dim = 2 then some [⟨[1], fun _ => n.add (out 0) (n.log (out 1))⟩]
    else some [⟨[dim - 1], fun k => n.add (out 0) (n.log (out (1 + k)))⟩]
  | _ => some [⟨[dim], out⟩]

end Verif
