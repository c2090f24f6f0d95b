/-!
# Specification of the options
-/

namespace Verif.Spec

/-- Reductions of the user interface that compute a sum: those for which an accumulation type or a sum
scheme makes sense. Documentation of the arguments `dtype_acc` and `sum_scheme` of `Genred`. -/
def sumReduction (op : String) : Prop :=
  op = "Sum" ∨ op = "LogSumExp" ∨ op = "LogSumExpWeight" ∨ op = "SumSoftMaxWeight" ∨ op = "SoftMax" ∨
  op = "Max_SumShiftExp" ∨ op = "Max_SumShiftExpWeight"

/-- Number of significant bits of the types. -/
def bits : String → Nat
  | "half2" => 11
  | "float16" => 11
  | "float" => 24
  | "float2" => 24
  | "float32" => 24
  | "double" => 53
  | "float64" => 53
  | _ => 0

/-- The documentation of `dtype_acc`: `float16` is allowed if the data is `float16`, `float32` if the
data is `float16` or `float32`, `float64` if the data is `float32` or `float64`. -/
def allowed (dtype acc : String) : Prop :=
  (acc = "float16" ∧ dtype = "float16") ∨ (acc = "float32" ∧ (dtype = "float16" ∨ dtype = "float32")) ∨
  (acc = "float64" ∧ (dtype = "float32" ∨ dtype = "float64"))

/-- Reductions that return indices. -/
def returnsIndices (op : String) : Prop :=
  op ∈ ["ArgMin", "ArgMax", "Min_ArgMin", "MinArgMin", "Max_ArgMax", "MaxArgMax", "ArgKMin",
    "KMin_ArgKMin", "KMinArgKMin"]

/-- The accumulation type asked for by the two arguments `dtype_acc` and `use_double_acc`. -/
def requested (dtypeAcc : String) (dbl : Bool) : String := if dbl = true then "float64" else dtypeAcc

/-- The arguments `formula` and `formula2` go together. -/
def formula2Ok (op : String) (formula2 : Option String) : Prop :=
  ((op = "SumSoftMaxWeight" ∨ op = "SoftMax") → formula2 ≠ none) ∧
  (op = "LogSumExpWeight" → formula2 ≠ none ∧ formula2 ≠ some "")

end Verif.Spec
