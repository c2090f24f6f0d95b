import Mathlib.Data.List.Infix
import Verif.Model.FloatInt

/-!
# Options of a reduction

Models of `get_optional_flags` and `parse_dtype_acc` (`pykeops/common/parse_type.py`), of
`preprocess` (`pykeops/common/operations.py`) and of the check on the size of arg reductions
(`generic_red.py`).  Exceptions are `none`.
-/

namespace Verif

/-- `if formula2:`, `common/operations.py:20,27`. -/
def truthy (s : Option String) : Bool := s.getD "" ≠ ""

/-- `preprocess(reduction_op, formula2)`, `common/operations.py:7-35`, on strings: the internal
reduction and the second formula (`none` stands for Python's `None`). See `preprocess` in
`Model/Postprocess.lean` for the version with dimensions. -/
def preprocessName (op : String) (formula2 : Option String) : Option (String × Option String) :=
  if op = "SumSoftMaxWeight" ∨ op = "SoftMax" then
    formula2.map (fun f => ("Max_SumShiftExpWeight", some ("Concat(IntCst(1)," ++ f ++ ")")))
  else if op = "LogSumExp" then
    if truthy formula2 then some ("Max_SumShiftExpWeight", formula2)
    else some ("Max_SumShiftExp", formula2)
  else if op = "LogSumExpWeight" then
    if !truthy formula2 then none
    else some ("Max_SumShiftExpWeight", formula2)
  else some (op, formula2)

/-- The dictionary `optional_flags`, `common/parse_type.py:195-205`. -/
structure Flags where
  dtypeAcc : String
  sumScheme : String
  useFastMath : Nat
  enableChunks : Nat
deriving DecidableEq

/-- `reduction_op_internal in ("Sum", "Max_SumShiftExp", "Max_SumShiftExpWeight")`,
`common/parse_type.py:150-154`. -/
def sumType (op : String) : Prop := op ∈ ["Sum", "Max_SumShiftExp", "Max_SumShiftExpWeight"]

instance (op : String) : Decidable (sumType op) := by unfold sumType; infer_instance

/-- `get_optional_flags`, `common/parse_type.py:134-207`. -/
def getOptionalFlags (op dtypeAcc : String) (useDoubleAcc : Bool) (sumScheme : String)
    (enableChunks useFastMath : Bool) : Option Flags :=
  if dtypeAcc ≠ "auto" ∧ useDoubleAcc = true then none
  else
    let dtypeAcc := if useDoubleAcc = true then "float64" else dtypeAcc
    if dtypeAcc ≠ "auto" ∧ ¬ sumType op then none
    else
      let sumScheme :=
        if sumScheme = "auto" then
          if sumType op then "block_sum" else "direct_sum"
        else sumScheme
      let res : Flags := ⟨dtypeAcc, sumScheme, if useFastMath then 1 else 0,
        if enableChunks then 1 else 0⟩
      if sumScheme = "block_sum" then
        if ¬ sumType op then none else some res
      else if sumScheme = "kahan_scheme" then
        if ¬ sumType op then none else some res
      else if sumScheme ≠ "direct_sum" then none
      else some res

/-- `a in b` on strings. Python's operator, used at `common/parse_type.py:221` and
`numpy/generic/generic_red.py:343`. -/
def isSubstring (a b : String) : Prop := a.toList <:+: b.toList

instance (a b : String) : Decidable (isSubstring a b) := by unfold isSubstring; infer_instance

/-- `parse_dtype_acc`, `common/parse_type.py:210-240`. -/
def parseDtypeAcc (dtypeAcc dtype : String) : Option String :=
  let dtypeAcc := if dtypeAcc = "auto" then dtype else dtypeAcc
  if dtype = "float32" ∧ dtypeAcc ∉ ["float32", "float64"] then none
  else if dtype = "float16" ∧ dtypeAcc ∉ ["float16", "float32"] then none
  else if dtype = "float64" ∧ ¬ isSubstring dtypeAcc "float64" then none
  else if dtypeAcc = "float64" then some "double"
  else if dtypeAcc = "float32" then
    if dtype = "float16" then some "float2" else some "float"
  else if dtypeAcc = "float16" then some "half2"
  else none

/-- The type of the data in the generated code, `LoadKeOps.py:82-92`. -/
def cDtype (dtype : String) : Option String :=
  if dtype = "float32" then some "float"
  else if dtype = "float64" then some "double"
  else if dtype = "float16" then some "half2"
  else none

/-- What the options of a call determine. `numpy/generic/generic_red.py:152-162`,
`LoadKeOps.py:72-92`. -/
structure Accuracy where
  opInternal : String
  dtype : String
  dtypeAcc : String
  sumScheme : String
deriving DecidableEq

/-- The options of `Genred(..., reduction_op, dtype_acc, use_double_acc, sum_scheme, formula2)`
called on data of type `dtype`: construction of the object (`numpy/generic/generic_red.py:152-162`),
then of the compiled routine (`LoadKeOps.py:72-92`). -/
def accuracy (op : String) (formula2 : Option String) (dtype dtypeAcc : String) (useDoubleAcc : Bool) (sumScheme : String)
    (enableChunks useFastMath : Bool) : Option Accuracy := do
  let p ← preprocessName op formula2
  let f ← getOptionalFlags p.1 dtypeAcc useDoubleAcc sumScheme enableChunks useFastMath
  let acc ← parseDtypeAcc f.dtypeAcc dtype
  let c ← cDtype dtype
  pure ⟨p.1, c, acc, f.sumScheme⟩

/-- The check on the number of reduced indices, `numpy/generic/generic_red.py:343-355`,
`torch/generic/generic_red.py:667-679`. `true`: the call goes on, `false`: `ValueError`. -/
def argCheck (op dtype : String) (nred : Nat) : Bool :=
  if isSubstring "Arg" op then
    if nred > 16000000 ∧ (dtype = "float32" ∨ dtype = "float") then false
    else if nred > 2048 ∧ (dtype = "float16" ∨ dtype = "half") then false
    else true
  else true

end Verif
