import Mathlib.Analysis.SpecialFunctions.Log.Basic
import Verif.Model.Reduction

/-!
# Extended reals with NaN

The values of a floating point type without rounding: real numbers, two infinities and NaN, with
the IEEE 754 rules for the special values.
-/

namespace Verif

open Classical in
/-- Real numbers, infinities, NaN. Values of the type `TYPE` of the generated code,
`CpuReduc.py:45`; rounding is not modelled. -/
inductive XR
  | nan
  | ninf
  | fin (r : ℝ)
  | pinf

namespace XR

/-- IEEE addition. Floating-point operation of the generated code,
`Max_SumShiftExpWeight_Reduction.py:42-61`. -/
noncomputable def add : XR → XR → XR
  | nan, _ => nan
  | _, nan => nan
  | ninf, pinf => nan
  | pinf, ninf => nan
  | ninf, _ => ninf
  | _, ninf => ninf
  | pinf, _ => pinf
  | _, pinf => pinf
  | fin a, fin b => fin (a + b)

/-- IEEE negation. Floating-point operation of the generated code,
`Max_SumShiftExpWeight_Reduction.py:42-61`. -/
noncomputable def neg : XR → XR
  | nan => nan
  | ninf => pinf
  | pinf => ninf
  | fin a => fin (-a)

/-- IEEE subtraction. Floating-point operation of the generated code,
`Max_SumShiftExpWeight_Reduction.py:42-61`. -/
noncomputable def sub (x y : XR) : XR := add x (neg y)

open Classical in
/-- IEEE multiplication (`0 * inf = NaN`). Floating-point operation of the generated code,
`Max_SumShiftExpWeight_Reduction.py:42-61`. -/
noncomputable def mul : XR → XR → XR
  | nan, _ => nan
  | _, nan => nan
  | fin a, fin b => fin (a * b)
  | fin a, pinf => if a = 0 then nan else if 0 < a then pinf else ninf
  | pinf, fin a => if a = 0 then nan else if 0 < a then pinf else ninf
  | fin a, ninf => if a = 0 then nan else if 0 < a then ninf else pinf
  | ninf, fin a => if a = 0 then nan else if 0 < a then ninf else pinf
  | pinf, pinf => pinf
  | ninf, ninf => pinf
  | pinf, ninf => ninf
  | ninf, pinf => ninf

open Classical in
/-- IEEE division. Floating-point operation of the generated code,
`Max_SumShiftExpWeight_Reduction.py:42-61`. -/
noncomputable def div : XR → XR → XR
  | nan, _ => nan
  | _, nan => nan
  | fin a, fin b =>
    if b = 0 then (if a = 0 then nan else if 0 < a then pinf else ninf) else fin (a / b)
  | fin _, pinf => fin 0
  | fin _, ninf => fin 0
  | pinf, fin b => if 0 ≤ b then pinf else ninf
  | ninf, fin b => if 0 ≤ b then ninf else pinf
  | _, _ => nan

open Classical in
/-- IEEE comparison `x > y`, false as soon as one side is NaN. Used in
`Max_SumShiftExpWeight_Reduction.py:42-61`. -/
noncomputable def gt : XR → XR → Bool
  | nan, _ => false
  | _, nan => false
  | ninf, _ => false
  | _, pinf => false
  | pinf, _ => true
  | _, ninf => true
  | fin a, fin b => decide (b < a)

open Classical in
/-- The exponential. `g` gives its values at positive arguments: it is left arbitrary (an overflow
to infinity, a wrong value, …), so that a result proved for every `g` never uses them.
Floating-point operation of the generated code, `Max_SumShiftExpWeight_Reduction.py:42-61`. -/
noncomputable def exp (g : ℝ → XR) : XR → XR
  | nan => nan
  | ninf => fin 0
  | pinf => pinf
  | fin a => if 0 < a then g a else fin (Real.exp a)

open Classical in
/-- The logarithm: `log 0 = -inf`, `log` of a negative number is NaN. Used in
`common/operations.py:84,86`. -/
noncomputable def log : XR → XR
  | nan => nan
  | ninf => nan
  | pinf => pinf
  | fin a => if 0 < a then fin (Real.log a) else if a = 0 then ninf else nan

end XR

/-- The operations used by the log-sum-exp reduction, `Max_SumShiftExpWeight_Reduction.py:42-61`. -/
@[reducible] noncomputable def xrNum (g : ℝ → XR) : ExpNum XR where
  negInf := XR.ninf
  zero := XR.fin 0
  gt := XR.gt
  add := XR.add
  sub := XR.sub
  mul := XR.mul
  exp := XR.exp g

end Verif
