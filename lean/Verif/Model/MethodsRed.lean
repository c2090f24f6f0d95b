import Verif.Spec.MethodsRed
import Verif.Model.Methods
import Verif.Model.Options
import Verif.Model.Postprocess
import Verif.Spec.Term

/-!
# Reductions of lazy tensors

Model of the methods of `pykeops/common/lazy_tensor.py:2072-2486` that reduce a lazy tensor along one of its axes `i` and
`j`: which reduction of which formula is built by the routine that they call, and on which arrays.
-/

namespace Verif.Lazy
open Alias (Str)
open Spec (LExpr PyE PyRed)
open Parse (PArg)

/-- The argument `reduction_op` of `reduction`. `common/lazy_tensor.py:2096,2112,2137-2141,2170-2172,2204,2220,2252,
2268,2287,2319,2335,2367,2383,2402,2428,2454,2480`. -/
def redName : PyRed → String
  | .sum => "Sum"
  | .min => "Min"
  | .max => "Max"
  | .argmin => "ArgMin"
  | .argmax => "ArgMax"
  | .minArgmin => "Min_ArgMin"
  | .maxArgmax => "Max_ArgMax"
  | .kmin _ => "KMin"
  | .argkmin _ => "ArgKMin"
  | .kminArgkmin _ => "KMin_ArgKMin"
  | .logsumexp | .logsumexpW _ => "LogSumExp"
  | .sumsoftmaxweight _ => "SumSoftMaxWeight"

/-- The same argument, as it is compared by `postprocess`. `common/lazy_tensor.py:2096,2112,2137-2141,2170-2172,2204,2220,
2252,2268,2287,2319,2335,2367,2383,2402,2428,2454,2480`; `common/operations.py:41-81`. -/
def redOp : PyRed → RedOp
  | .sum => .sum
  | .min => .min
  | .max => .max
  | .argmin => .argMin
  | .argmax => .argMax
  | .minArgmin => .minArgMin
  | .maxArgmax => .maxArgMax
  | .kmin _ => .kMin
  | .argkmin _ => .argKMin
  | .kminArgkmin _ => .kMinArgKMin
  | .logsumexp | .logsumexpW _ => .logSumExp
  | .sumsoftmaxweight _ => .sumSoftMaxWeight

/-- The argument `opt_arg` of `postprocess`. `common/lazy_tensor.py:2428,2454,2480`; `numpy/generic/generic_red.py:359`. -/
def optArg : PyRed → Nat
  | .kmin K | .argkmin K | .kminArgkmin K => K
  | _ => 0

/-- `str(opt_arg) if opt_arg else ""`. `common/lazy_tensor.py:2428,2454,2480`; `numpy/generic/generic_red.py:169`. -/
def redOpt : PyRed → Str
  | .kmin K | .argkmin K | .kminArgkmin K => if K = 0 then [] else num K
  | _ => []

/-- The reductions of `keopscore/formulas/reductions/__init__.py:1-17`. `shiftExp d` is
`Max_SumShiftExpWeight_Reduction`, which is also `Max_SumShiftExp_Reduction`, for weights of dimension `d`. -/
inductive RedCls
  | sum | min | max | argMin | argMax | minArgMin | maxArgMax
  | kMin (K : Nat) | argKMin (K : Nat) | kMinArgKMin (K : Nat) | shiftExp (d : Nat)
deriving DecidableEq

/-- The classes called with a formula and a category. `reductions/__init__.py:1-17`. -/
def redTable : List (String × RedCls) :=
  [("Sum_Reduction", .sum), ("Min_Reduction", .min), ("Max_Reduction", .max), ("ArgMin_Reduction", .argMin),
   ("ArgMax_Reduction", .argMax), ("Min_ArgMin_Reduction", .minArgMin), ("Max_ArgMax_Reduction", .maxArgMax)]

/-- The classes called with a formula, an integer and a category. `reductions/KMin_Reduction.py:20`,
`ArgKMin_Reduction.py:17`, `KMin_ArgKMin_Reduction.py:23`. -/
def redTableK : List (String × (Nat → RedCls)) :=
  [("KMin_Reduction", .kMin), ("ArgKMin_Reduction", .argKMin), ("KMin_ArgKMin_Reduction", .kMinArgKMin)]

/-- `Max_SumShiftExpWeight_Reduction(f, tagIJ, g)`: the formula that is reduced. `dim` is the dimension of the formula
built from a term (C52).
`reductions/Max_SumShiftExpWeight_Reduction.py:24-32`. -/
def shiftExp (f g : Term) : Option (RedCls × Term) :=
  if f.dim ≠ 1 then none else some (.shiftExp g.dim, .bin .concat f g)

/-- The names of this class. `reductions/Max_SumShiftExpWeight_Reduction.py:22,123`. -/
def isShiftExp (name : Str) : Bool :=
  name = "Max_SumShiftExpWeight_Reduction".toList || name = "Max_SumShiftExp_Reduction".toList

/-- The reduction that is built: its class, its formula and its category. `GetReduction.py:33` and the constructors of
`reductions/*.py`; the default weight is `IntCst(1)`, `Max_SumShiftExpWeight_Reduction.py:24`. -/
def construct (name : Str) : List PArg → Option (RedCls × Term × Int)
  | [.term f, .num c] =>
    if isShiftExp name then (shiftExp f (.int 1)).map fun r => (r.1, r.2, c)
    else (Parse.find redTable name).map fun r => (r, f, c)
  | [.term f, .num K, .num c] =>
    if 0 < K then (Parse.find redTableK name).map fun r => (r K.toNat, f, c) else none
  | [.term f, .num c, .term g] =>
    if isShiftExp name then (shiftExp f g).map fun r => (r.1, r.2, c) else none
  | _ => none

/-- The reduction run by a routine: class, formula, category of the rows of the output, arrays that are passed, number
of batch dimensions. -/
structure RedCall where
  cls : RedCls
  f : Term
  cat : Int
  vars : List LTensor
  nb : Nat

/-- The lazy tensor `weight`. The value of `other` for the reductions without weight is `None`; if `other` is not a lazy
tensor, it has no attribute `is_complex`. `common/lazy_tensor.py:716-720,2136-2141,2170-2172`. -/
def weightOf (r : PyRed) : Option (Option LazyT) :=
  match r.weight with
  | none => some none
  | some w => (run w).bind fun v =>
    match v with
    | .lazy e => (eval e).map some
    | _ => none

/-- `preprocess`, on texts. `common/operations.py:7-35`; `numpy/generic/generic_red.py:153,170`. -/
def preprocessText (op : String) (f2 : Str) : Option (Str × Str) :=
  (preprocessName op (if f2 = [] then none else some (String.ofList f2))).map fun r => (r.1.toList, (r.2.getD "").toList)

/-- `axis2cat`, `pykeops/common/utils.py:11-21`. -/
def axis2cat (a : Nat) : Nat := (a + 1) % 2

/-- The sum of a product by a variable of dimension more than 100 along the axis `a` is not the reduction of the formula of the
product: it is computed with the shortcut of `common/lazy_tensor.py:745-755`, or `variables[0]` (line 758) raises an
exception since the variable is symbolic. -/
def shortcut (e : LExpr) (a : Nat) : Bool :=
  match recOf e with
  | none => false
  | some (_, v) =>
    match eval v with
    | none => true
    | some Lv => decide (Lv.axis ≠ some a) || Lv.tensors.isEmpty

/-- The reduction that is run by a method of the lazy tensor `p`. `common/lazy_tensor.py:716-773,2072-2486`;
`numpy/generic/generic_red.py:152-182`; `keopscore/formulas/GetReduction.py:19-39`. `axis` is not the last axis (then
`sum`, `min`, `max`, `argmin` and `argmax` are operations, and the other reductions raise an exception). `none` means
that an exception is raised, or that a sum is computed with the shortcut of `common/lazy_tensor.py:745-755`
(`Model/Lazy.lean`). The label `rec_multVar_highdim` given to the routine in the other case (lines 756-758) is only used to
choose the kernel on the GPU (`get_keops_dll.py:89-98`, C56). -/
def redCall (r : PyRed) (p : PyE) (axis : Nat) : Option RedCall :=
  (run p).bind fun v =>
    match v with
    | .lazy e => (eval e).bind fun L =>
      (weightOf r).bind fun W =>
        if axis < L.nbatchdims ∨ L.nbatchdims + 1 < axis ∨ (redName r = "Sum" ∧ shortcut e (axis - L.nbatchdims)) then none
        else (reduction L W).bind fun q =>
          (preprocessText (redName r) q.2.1).bind fun n =>
            (Parse.parseRed (genredText n.1 q.1 (redOpt r) (axis2cat (axis - L.nbatchdims)) n.2)).bind fun c =>
              (construct c.1 c.2).map fun k =>
                ⟨k.1, k.2.1, k.2.2, q.2.2, ((W.bind fun W => (join L W).map LazyT.nbatchdims)).getD L.nbatchdims⟩
    | _ => none

/-- `newdims`, `common/lazy_tensor.py:2517-2520`. -/
def matDims (shape : List Nat) : List Nat :=
  if shape.length = 1 then [1, shape.getD 0 0, 1]
  else shape.take (shape.length - 2) ++ 1 :: shape.drop (shape.length - 2)

/-- The lazy tensor `self * v_`; `tools.view` makes the new object `id` with the contents `src` of `v`.
`common/lazy_tensor.py:2522-2523`. -/
def matProg (K : PyE) (id src : Nat) (shape : List Nat) : PyE := .op .mul K (.lazy id src (matDims shape) none)

/-- `K @ v`, for an array `v` with this shape: the sum that is run. `_shape[-1]` is the attribute `ndim`; `Kv.dim() - 2` is
the number of batch dimensions, plus 1. If `v` is a vector, the output is written as a vector. `none` stands for the
cases of `redCall`.
`common/lazy_tensor.py:2509-2527`. -/
def matmul (K : PyE) (id src : Nat) (shape : List Nat) : Option RedCall :=
  (run K).bind fun v =>
    match v with
    | .lazy e => (ndim e).bind fun d =>
      if d ≠ 1 then none
      else (run (matProg K id src shape)).bind fun w =>
        match w with
        | .lazy e' => (eval e').bind fun L => redCall .sum (matProg K id src shape) (L.nbatchdims + 1)
        | _ => none
    | _ => none

end Verif.Lazy
