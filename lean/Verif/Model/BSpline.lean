import Verif.Model.FormulaCode

/-!
# B-splines

Model of `formulas/maths/BSpline.py`: the arguments the constructor accepts, the types of the C++ expressions, which
`c_variable` checks while the code is generated, and the code itself.

Simplifications: numbers are real numbers; `0.0f` and `1.0f` are exact; the operator `/` is a parameter (`CMath`).
-/

namespace Verif.BSpline

/-- The types of the `c_variable` objects of this code. `utils/code_gen_utils.py:54-65,278-290`. -/
inductive CType
  | float | double | half2 | int | long | bool
  deriving DecidableEq, Repr

/-- `a op b`: the type of the result, which is `res` if the caller gives it. `utils/code_gen_utils.py:118-143`. -/
def binaryOp (a b : CType) (res : Option CType := none) : Except CErr CType :=
  if a ≠ b then
    if (a = .int ∧ b = .long) ∨ (a = .long ∧ b = .int) then .ok (res.getD .long) else .error .keops
  else .ok (res.getD a)

/-- `c.ternary(t, f)`. `utils/code_gen_utils.py:188-202`. -/
def ternary (c t f : CType) : Except CErr CType :=
  if c ≠ .bool then .error .keops else if t ≠ f then .error .keops else .ok t

/-- `var.assign(value)`: a value of another type must have a conversion. `utils/code_gen_utils.py:77-97,278-290`; the
types `float2`, which is not used here, and `half` are left out. -/
def assign (var value : CType) : Except CErr Unit :=
  if var = value then .ok () else
  if var ≠ .half2 ∧ value ≠ .half2 then .ok () else
  if var = .half2 ∧ value = .float then .ok () else .error .keops

/-- The ratio of `BSpline.py:61-63` and of `BSpline.py:86-88`, for an array of knots of type `dt`. -/
def ratioType (dt : CType) : Except CErr CType := do
  ternary (← binaryOp dt dt (some .bool)) (← binaryOp (← binaryOp .float dt) (← binaryOp dt dt)) .float

/-- The types of the expressions of `Op`, for arguments and a result of type `dt`. `BSpline.py:46-95`. -/
def types (dt : CType) : Except CErr Unit := do
  assign .float (← ratioType dt)
  assign dt (← binaryOp (← binaryOp .float dt) (← binaryOp (← binaryOp .float .float) dt))
  assign .float .float
  assign .float dt
  assign dt (← binaryOp (← binaryOp dt .float (some .bool)) (← binaryOp .float dt (some .bool)) (some .bool))
  assign .float (← ratioType dt)

/-- `BSpline_Impl.__init__`, for arguments of dimensions `nk` and `nx`: the dimension of the object, or `none` for a
`KeOps_Error`. `BSpline.py:21-44`. -/
def init (order : Int) (nk nx : Nat) : Option Nat :=
  if order < 0 then none else
  if nx ≠ 1 then none else
  if (nk : Int) < order + 2 then none else some (nk - 1)

/-- `Extract(arg, start, dim)`, for `arg` of dimension `d`: the checks of the constructor, and the dimension.
`Extract.py:14-22`. -/
def extractInit (d : Nat) (start dim : Int) : Option Nat :=
  if (d : Int) < start + dim ∨ start < 0 then none else some dim.toNat

/-- The dimension of `BSpline(knots, x, order)`. `BSpline.py:117-118`. -/
def dim (order : Int) (nk nx : Nat) : Option Nat := do
  extractInit (← init order nk nx) 0 (nk - order - 1)

section
variable (M : CMath)

/-- `(knots[a] < knots[b]) ? (x - knots[a]) / (knots[b] - knots[a]) : 0`. `BSpline.py:60-64,85-89`. -/
noncomputable def ratio (knots : CArr) (x : ℝ) (a b : Nat) : Except CErr ℝ := do
  let ta ← CArr.get knots a
  let tb ← CArr.get knots b
  return if ta < tb then M.div (x - ta) (tb - ta) else 0

/-- The body of the inner loop, on `out` and `ratio_1`. `BSpline.py:58-72`. -/
noncomputable def inner (knots : CArr) (x : ℝ) (k i : Nat) (s : CArr × ℝ) : Except CErr (CArr × ℝ) := do
  let ratio2 ← ratio M knots x (i + 1) (i + 1 + k)
  let out ← CArr.put s.1 i (s.2 * (← CArr.get s.1 i) + (1 - ratio2) * (← CArr.get s.1 (i + 1 : Nat)))
  return (out, ratio2)

/-- The body of the outer loop. `BSpline.py:83-93`. -/
noncomputable def outer (knots : CArr) (x : ℝ) (dim k : Nat) (out : CArr) : Except CErr CArr := do
  let ratio1 ← ratio M knots x 0 k
  return (← loop (dim - k) (inner M knots x k) (out, ratio1)).1

/-- The loop that sets the splines of degree 0. `BSpline.py:78`. -/
noncomputable def start (knots : CArr) (x : ℝ) (j : Nat) (out : CArr) : Except CErr CArr := do
  let a ← CArr.get knots j
  let b ← CArr.get knots (j + 1 : Nat)
  CArr.put out j (if a ≤ x ∧ x < b then 1 else 0)

/-- `BSpline_Impl.Op`: generation of the code for arrays of type `dt`, and the content of `out` after it has run.
`BSpline.py:46-95`. -/
noncomputable def op (dt : CType) (order : Nat) (out knots inX : CArr) : Except CErr CArr := do
  types dt
  let x ← CArr.get inX 0
  let out ← loop out.length (start knots x) out
  loop order (fun k out => outer M knots x out.length (k + 1) out) out

/-- The code of `BSpline(knots, x, order)`: `buf` is the array declared for `BSpline_Impl`, and `Extract` copies its first
entries.  `BSpline.py:117-118`, `Extract.py:24-29`, `Operation.py:66-116`. -/
noncomputable def code (dt : CType) (order : Nat) (out buf knots inX : CArr) : Except CErr CArr := do
  vectCopyAt out 0 out.length (← op M dt order buf knots inX) 0

end

end Verif.BSpline
