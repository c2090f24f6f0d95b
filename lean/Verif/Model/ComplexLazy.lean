import Verif.Model.Complex
import Verif.Model.FormulaCall
import Mathlib.Data.Complex.Basic

/-!
# Lazy tensors of complex numbers

Model of the operators and methods of `ComplexGenericLazyTensor`, of those of `GenericLazyTensor` that have complex
operands or give complex results, and of the reduction `sum`.

Simplifications.  The formula is a tree instead of a string, and its variables have their final positions (see `C25`,
`C26` and `C60`).  Batch dimensions, numbers of rows, types, ranges and symbolic variables are not modelled (`C27`).
Methods of real tensors that are not needed here (`C60`) are not modelled.
-/

namespace Verif.Cplx

/-- Names of the operations with one argument that are written in formulas.
`common/lazy_tensor.py:1158,1209,1220,1247,1256,1383,2648-2666,2718-2773`. -/
inductive Op1
  | minus | square | inv | cos | sin | exp
  | cReal | cImag | cAngle | conj | cSum | cAbs | cExp | real2complex | imag2complex | exp1j
  deriving DecidableEq

/-- Names of the operations with two arguments that are written in formulas, the first four as operators.
`common/lazy_tensor.py:1033,1062,1091,1132,2777-2806`. -/
inductive Op2
  | plus | minus | times | over
  | cRealScal | cMult | cAdd | cSubtract | cDivide
  deriving DecidableEq

/-- Formulas that are written. `common/lazy_tensor.py:455-464,543-562`. -/
inductive Src
  | var (ind : Int) (dim : Nat) (cat : Int)
  | un (o : Op1) (f : Src)
  | bin (o : Op2) (f g : Src)
  deriving DecidableEq

/-- Construction of the formula that is written, by the functions of the same names: `GetReduction.py:33`,
`formulas/Operation.py:118-161` for operators.  Simplification: the rewriting rules of `Add`, `Subtract`, `Mult` and
`Divide` (for instance for equal arguments) are left out; they do not change values (`C01`). -/
def Src.build : Src → Except Err Form
  | .var i d c => .ok (.var i d c)
  | .un o f => do
    let f ← f.build
    match o with
    | .minus => mkUn .rneg f
    | .square => mkUn .rsquare f
    | .inv => mkUn .rinv f
    | .cos => mkUn .rcos f
    | .sin => mkUn .rsin f
    | .exp => mkUn .rexp f
    | .cReal => mkUn .real f
    | .cImag => mkUn .imag f
    | .cAngle => angle f
    | .conj => mkUn .conj f
    | .cSum => mkUn .sum f
    | .cAbs => abs f
    | .cExp => mkUn .exp f
    | .real2complex => mkUn .ofReal f
    | .imag2complex => mkUn .ofImag f
    | .exp1j => mkUn .exp1j f
  | .bin o f g => do
    let f ← f.build
    let g ← g.build
    match o with
    | .plus => mkBin .radd f g
    | .minus => mkBin .rsub f g
    | .times => mkBin .rmul f g
    | .over => mkBin .rdiv f g
    | .cRealScal => realScal f g
    | .cMult => mkBin .mul f g
    | .cAdd => mkBin .add f g
    | .cSubtract => mkBin .sub f g
    | .cDivide => divide f g

/-- A lazy tensor; `isC` tells whether it is an instance of `ComplexGenericLazyTensor`.
`common/lazy_tensor.py:50-63,2669-2686`. -/
structure LT where
  formula : Src
  ndim : Nat
  isC : Bool
  deriving DecidableEq

/-- Exceptions of Python, or a result which is not a lazy tensor. -/
inductive PyErr
  /-- `ValueError` -/
  | value
  /-- `AttributeError` -/
  | attribute
  /-- the result is the integer 0, `common/lazy_tensor.py:1101,1121,1156` -/
  | number
  /-- methods that are not modelled -/
  | other
  deriving DecidableEq

/-- A Python number: its type is `complex` or not (`int`, `float`), and its value. `common/lazy_tensor.py:17-23`,
`numpy/utils.py:77-78`. -/
structure Number where
  isC : Bool
  val : ℂ

/-- `unary`, `common/lazy_tensor.py:432-464`. -/
def LT.unary (s : LT) (o : Op1) (dimres : Nat) (isC : Bool) : LT := ⟨.un o s.formula, dimres, isC⟩

/-- `unary` without optional arguments, `common/lazy_tensor.py:441-442,451-452`. -/
def LT.unary' (s : LT) (o : Op1) : LT := s.unary o s.ndim s.isC

/-- `binary`, where `check` tells whether `dimcheck` is `"sameor1"` (otherwise `None`).
`common/lazy_tensor.py:466-567`. -/
def LT.binary (s other : LT) (o : Op2) (check rversion isC : Bool) : Except PyErr LT :=
  if check && s.ndim ≠ other.ndim && s.ndim ≠ 1 && other.ndim ≠ 1 then .error .value
  else .ok ⟨if rversion then .bin o other.formula s.formula else .bin o s.formula other.formula,
    max s.ndim other.ndim, isC⟩

/-- `real2complex`: `common/lazy_tensor.py:2641-2648,2809-2810`. -/
def LT.real2complex (s : LT) : Except PyErr LT :=
  if s.isC then .error .value else .ok (s.unary .real2complex (2 * s.ndim) true)

/-- `mulop` of a complex tensor and a tensor: `common/lazy_tensor.py:2775-2783`; the two cases of a complex factor are
those of the recursive call. -/
def LT.mulopC (s other : LT) (rversion : Bool) : Except PyErr LT :=
  if other.ndim = 1 then other.binary s .cRealScal true rversion true
  else if !other.isC then do
    let r ← other.real2complex
    if r.ndim = 1 then r.binary s .cRealScal true false true else s.binary r .cMult false false true
  else s.binary other .cMult false rversion true

/-- `addop`, `subop` and `divop` of a complex tensor and a tensor: `common/lazy_tensor.py:2785-2807`; `rversion` is
lost in the recursive call. -/
def LT.opC (o : Op2) (s other : LT) (rversion : Bool) : Except PyErr LT :=
  if !other.isC then do s.binary (← other.real2complex) o false false true
  else s.binary other o false rversion true

/-- Operators. -/
inductive Arith
  | add | sub | mul | div
  deriving DecidableEq

/-- The operator of formulas. `common/lazy_tensor.py:1033,1062,1091,1132`. -/
def Arith.real : Arith → Op2
  | .add => .plus
  | .sub => .minus
  | .mul => .times
  | .div => .over

/-- `addop`, `subop`, `mulop`, `divop`: `common/lazy_tensor.py:1032-1033,1061-1062,1090-1091,1131-1132` (real tensors)
and `2775-2807` (complex tensors). -/
def LT.op (o : Arith) (s other : LT) (rversion : Bool) : Except PyErr LT :=
  if s.isC then
    match o with
    | .add => s.opC .cAdd other rversion
    | .sub => s.opC .cSubtract other rversion
    | .mul => s.mulopC other rversion
    | .div => s.opC .cDivide other rversion
  else s.binary other o.real true rversion (s.isC || other.isC)

/-- Same with a number instead of a tensor: `other.real2complex` and `other._shape` raise if `s` is complex
(`common/lazy_tensor.py:2776,2786,2794,2802`); otherwise the number is converted by `binary`, which is given the
tensor `t` of the number (`common/lazy_tensor.py:489-494`). -/
def LT.opNum (o : Arith) (s t : LT) (rversion : Bool) : Except PyErr LT :=
  if s.isC then .error .attribute else s.binary t o.real true rversion (s.isC || t.isC)

/-- `lt_constructor` of a number, stored at position `key`: a parameter. `common/lazy_tensor.py:146-164,2675-2686`.
Simplification: integers are parameters, instead of `IntCst`. -/
def Number.lt (c : Number) (key : Int) : LT := ⟨.var key (if c.isC then 2 else 1) 2, if c.isC then 2 else 1, c.isC⟩

/-- `s + other`, … for two lazy tensors. `common/lazy_tensor.py:1035-1047,1064-1076,1093-1111,1134-1146`. -/
def LT.arith (o : Arith) (s other : LT) : Except PyErr LT :=
  if other.isC && !s.isC then
    match o with
    | .mul => LT.op .mul other s false
    | _ => do LT.op o (← s.real2complex) other false
  else LT.op o s other false

open Classical in
/-- `s + c`, … for a tensor and a number, stored at position `key`.
`common/lazy_tensor.py:1035-1047,1064-1076,1093-1111,1134-1146`. -/
noncomputable def LT.arithNum (o : Arith) (s : LT) (c : Number) (key : Int) : Except PyErr LT :=
  match o with
  | .add | .sub => if c.val = 0 then .ok s else s.opNum o (c.lt key) false
  | .mul =>
    if c.val = 0 then .error .number
    else if c.val = 1 then .ok s
    else if c.val = -1 then .ok (s.unary' .minus)
    else if c.isC && !s.isC then LT.op .mul (c.lt key) s false
    else s.opNum .mul (c.lt key) false
  | .div => if c.val = 1 then .ok s else s.opNum .div (c.lt key) false

open Classical in
/-- `c + s`, … for a number and a tensor: `__radd__`, `__rsub__`, `__rmul__`, `__rtruediv__`.
`common/lazy_tensor.py:1049-1059,1078-1088,1113-1129,1148-1160`. -/
noncomputable def LT.numArith (o : Arith) (c : Number) (key : Int) (s : LT) : Except PyErr LT :=
  match o with
  | .add => if c.val = 0 then .ok s else s.opNum .add (c.lt key) true
  | .sub => if c.val = 0 then .ok (s.unary' .minus) else s.opNum .sub (c.lt key) true
  | .mul =>
    if c.val = 0 then .error .number
    else if c.val = 1 then .ok s
    else if c.val = -1 then .ok (s.unary' .minus)
    else if c.isC && !s.isC then do LT.op .mul (← s.real2complex) (c.lt key) false
    else s.opNum .mul (c.lt key) true
  | .div =>
    if c.val = 0 then .error .number
    else if c.val = 1 then .ok (s.unary' .inv)
    else s.opNum .div (c.lt key) true

/-- Methods. -/
inductive Meth
  | neg | square | cos | sin | exp | abs | real | imag | angle | conj | real2complex | imag2complex | exp1j | sum
  deriving DecidableEq

/-- Call of a method. `common/lazy_tensor.py:1184-1220,1240-1256,1376-1383,2641-2666` for real tensors,
`2710-2773,2809-2816` for complex ones; `__neg__`, `square`, `cos` and `sin` are not redefined for complex tensors.
The attributes `real`, … of a real tensor do not exist; `abs` and `sum` of real tensors are not modelled. -/
def LT.meth (m : Meth) (s : LT) : Except PyErr LT :=
  match m with
  | .neg => .ok (s.unary' .minus)
  | .square => .ok (s.unary' .square)
  | .cos => .ok (s.unary' .cos)
  | .sin => .ok (s.unary' .sin)
  | .exp => .ok (if s.isC then s.unary .cExp s.ndim true else s.unary' .exp)
  | .abs => if s.isC then .ok (s.unary .cAbs (s.ndim / 2) false) else .error .other
  | .real => if s.isC then .ok (s.unary .cReal (s.ndim / 2) false) else .error .attribute
  | .imag => if s.isC then .ok (s.unary .cImag (s.ndim / 2) false) else .error .attribute
  | .angle => if s.isC then .ok (s.unary .cAngle (s.ndim / 2) false) else .error .attribute
  | .conj => if s.isC then .ok (s.unary .conj s.ndim true) else .error .attribute
  | .real2complex => s.real2complex
  | .imag2complex => if s.isC then .error .value else .ok (s.unary .imag2complex (2 * s.ndim) true)
  | .exp1j => if s.isC then .error .value else .ok (s.unary .exp1j (2 * s.ndim) true)
  | .sum => if s.isC then .ok (s.unary .cSum 2 true) else .error .other

/-- Programs: arrays of `n` real or complex numbers (by row), methods, operators on two tensors, on a tensor and a
number, and on a number and a tensor; numbers have a position among the arguments.
`common/lazy_tensor.py:1030-1160,2641-2816`. -/
inductive Prog
  | arr (pos : Int) (n : Nat) (cat : Int) (isC : Bool)
  | meth (m : Meth) (p : Prog)
  | bin (o : Arith) (p q : Prog)
  | binNum (o : Arith) (p : Prog) (c : Number) (key : Int)
  | numBin (o : Arith) (c : Number) (key : Int) (p : Prog)

/-- The lazy tensor of a program.  A complex array is seen as an array of real numbers, with twice as many columns:
`common/lazy_tensor.py:2683-2686`, `numpy/utils.py:88-92`, `torch/utils.py:116-119`. -/
noncomputable def Prog.lt : Prog → Except PyErr LT
  | .arr pos n cat isC => .ok ⟨.var pos (if isC then 2 * n else n) cat, if isC then 2 * n else n, isC⟩
  | .meth m p => do (← p.lt).meth m
  | .bin o p q => do LT.arith o (← p.lt) (← q.lt)
  | .binNum o p c key => do (← p.lt).arithNum o c key
  | .numBin o c key p => do LT.numArith o c key (← p.lt)

/-- `ComplexLazyTensor(x)` for a list `x` of numbers: the list of real numbers that is kept.  In the loop, `x` is the
list of numbers in the first turn and then the list `x_` that is being filled, where entries that are not yet set are
not numbers (here an error).  A real number `a` is also the complex number `a`. `common/lazy_tensor.py:2675-2682`. -/
noncomputable def complexList (x : List ℂ) : Option (List (Option ℝ)) :=
  (List.range x.length).foldlM (fun r i => do
    let e : ℂ ← if i = 0 then x[i]? else (r.getD i none).map Complex.ofReal
    return (r.set (2 * i) (some e.re)).set (2 * i + 1) (some e.im)) (List.replicate (2 * x.length) none)

/-! ## Calls of the compiled code -/

/-- The variables that are loaded, see `Expr.inputs`. `formulas/Operation.py:32-50`,
`utils/code_gen_utils.py:530-560`. -/
def Form.inputs (f : Form) : List VarInfo :=
  ((f.vars.filter fun v => v.2.2 = 0 ∨ v.2.2 = 1 ∨ v.2.2 = 2).dedup.insertionSort
    fun u v => u.1 ≤ v.1).map fun v => ⟨v.1.toNat, v.2.1, v.2.2.toNat⟩

/-- The arrays of the variables, in the table `t` of pointers. `utils/code_gen_utils.py:604-630`. -/
def Form.ins (f : Form) (t : Nat → Option (Mem ℝ)) (i : Int) : CArr :=
  match f.vars.find? fun v => v.1 = i with
  | some v => (List.range v.2.1).map fun k => ((t i.toNat).getD fun _ => 0) k
  | none => []

/-- The call of a reduction on the formula `f`, see `Expr.call`. `mapreduce/MapReduce.py:76`,
`mapreduce/cpu/CpuReduc.py:55`, `mapreduce/gpu/GpuReduc1D.py:84`. -/
noncomputable def Form.call (M : CMath) (junk : Form → Nat → ℝ) (f : Form) (tagI m n : Nat) (args : Nat → Mem ℝ) :
    Problem ℝ where
  ev t := fun k =>
    match f.code M junk (f.ins t) ((List.range f.dim).map (junk f)) with
    | .ok y => y.getD k 0
    | .error _ => 0
  vars := f.inputs
  tagI := tagI
  M := m
  N := n
  args := args

/-- `view_as_complex(out)`: entry `k` of row `i`. `common/lazy_tensor.py:2821-2823`, `numpy/utils.py:81-85`,
`torch/utils.py:108-113`. -/
def viewAsComplex (dim : Nat) (out : Mem ℝ) (i k : Nat) : ℂ := ⟨out (i * dim + 2 * k), out (i * dim + 2 * k + 1)⟩

end Verif.Cplx
