import Mathlib.Data.List.Dedup

/-!
# Formulas

The syntax trees of `keopscore/formulas`, with the dimension each class announces and the checks its
constructor makes.

One class of the code is one operation of the types `Un`, `Bin`, `Tern` (one, two, three children;
the integer parameters of the class are the arguments of the operation).  Simplifications: Python
integers that are dimensions or start positions are natural numbers (the code rejects negative ones);
labels of variables, which play no role in computations, are not modelled.
-/

namespace Verif

/-- Exceptions raised while a formula is built. `fuel` is not an exception of the code: it marks a
construction that has not come to an end. `utils/misc_utils.py:28-35`. -/
inductive Err
  /-- `KeOps_Error`, `utils/misc_utils.py:28-35` -/
  | keops
  /-- Python's `AttributeError` -/
  | attribute
  /-- Python's `ZeroDivisionError` -/
  | zeroDivision
  /-- Python's `TypeError` -/
  | type
  /-- Python's `AssertionError` -/
  | assertion
  | fuel
  deriving DecidableEq, Repr

/-- Operations with one child. The first group are subclasses of `VectorizedScalarOp`. Files and
lines are given for each operation; base class `VectorizedScalarOp.py:6-43`. -/
inductive Un
  /-- `maths/Exp.py:10-26` -/
  | exp
  /-- `Square_Impl`, `maths/Square.py:11-22` -/
  | square
  /-- `Minus_Impl`, `maths/Minus.py:13-37` -/
  | minus
  /-- `Pow_Impl`, `maths/Pow.py:5-37` -/
  | pow (m : Int)
  /-- `maths/Inv.py:10-28` -/
  | inv
  /-- `maths/Sqrt.py:12-31` -/
  | sqrt
  /-- `maths/Rsqrt.py:10-34` -/
  | rsqrt
  /-- `maths/Log.py:5-24` -/
  | log
  /-- `maths/Abs.py:6-22` -/
  | abs
  /-- `maths/Sign.py:11-26` -/
  | sign
  /-- `maths/Cos.py:5-23` -/
  | cos
  /-- `maths/Sin.py:5-23` -/
  | sin
  /-- `maths/Acos.py:6-25` -/
  | acos
  /-- `maths/Asin.py:6-25` -/
  | asin
  /-- `maths/Atan.py:5-21` -/
  | atan
  /-- `maths/SinXDivX.py:7-25` -/
  | sinXDivX
  /-- `maths/XLogX.py:6-25` -/
  | xLogX
  /-- `maths/Step.py:6-14` -/
  | step
  /-- `maths/ReLU.py:6-22` -/
  | relu
  /-- `maths/ClampInt.py:6-37` -/
  | clampInt (a b : Int)
  /-- `maths/DiffClampInt.py:14-34` -/
  | diffClampInt (a b : Int)
  /-- `maths/Round.py:6-27` -/
  | round (d : Int)
  /-- `maths/Floor.py:6-21` -/
  | floor
  /-- `Sum_Impl`, `maths/Sum.py:12-43` -/
  | sum
  /-- `SumT_Impl`, `maths/SumT.py:11-32` -/
  | sumT (dim : Nat)
  /-- `maths/Elem.py:10-46` -/
  | elem (m : Int)
  /-- `maths/ElemT.py:10-57` -/
  | elemT (n : Nat) (m : Int)
  /-- `maths/Extract.py:10-46` -/
  | extract (start dim : Nat)
  /-- `maths/ExtractT.py:10-62` -/
  | extractT (start dim : Nat)
  /-- `maths/OneHot.py:10-54` -/
  | oneHot (dim : Nat)
  /-- `maths/Max.py:12-54` -/
  | max
  /-- `maths/Min.py:12-54` -/
  | min
  /-- `maths/ArgMax.py:17-64` -/
  | argMax
  /-- `maths/ArgMin.py:17-63` -/
  | argMin
  deriving DecidableEq, Repr

/-- Operations with two children. The first group are subclasses of `VectorizedScalarOp`. Files and
lines are given for each operation; base class `VectorizedScalarOp.py:6-43`. -/
inductive Bin
  /-- `Add_Impl`, `maths/Add.py:16-45` -/
  | add
  /-- `Subtract_Impl`, `maths/Subtract.py:14-43` -/
  | sub
  /-- `Mult_Impl`, `maths/Mult.py:18-48` -/
  | mul
  /-- `Divide_Impl`, `maths/Divide.py:16-47` -/
  | div
  /-- `maths/Powf.py:5-26` -/
  | powf
  /-- `maths/Atan2.py:10-25` -/
  | atan2
  /-- `maths/LessThan.py:6-20` -/
  | lessThan
  /-- `maths/LessOrEqual.py:6-20` -/
  | lessOrEqual
  /-- `maths/Equal.py:6-24` -/
  | equal
  /-- `maths/NotEqual.py:6-29` -/
  | notEqual
  /-- `Scalprod_Impl`, `maths/Scalprod.py:15-46` -/
  | scalprod
  /-- `maths/Concat.py:12-38` -/
  | concat
  /-- `maths/MatVecMult.py:14-53` -/
  | matVecMult
  /-- `maths/VecMatMult.py:14-50` -/
  | vecMatMult
  /-- `maths/TensorProd.py:14-43` -/
  | tensorProd
  deriving DecidableEq, Repr

/-- Operations with three children, all subclasses of `VectorizedScalarOp`. Files and lines are
given for each operation; base class `VectorizedScalarOp.py:6-43`. -/
inductive Tern
  /-- `maths/IfElse.py:5-19` -/
  | ifElse
  /-- `maths/Clamp.py:6-22` -/
  | clamp
  /-- `maths/Mod.py:5-30` -/
  | mod
  deriving DecidableEq, Repr

/-- A formula (`Operation`, `formulas/Operation.py:11-38`).  Derived equality is `Operation.__eq__`
(`Operation.py:191-196`), `Var.__eq__` (`variables/Var.py:42-48`), `Zero.__eq__`
(`variables/Zero.py:22-23`). -/
inductive Expr
  /-- `variables/Var.py:10-62` -/
  | var (ind : Int) (dim : Nat) (cat : Int)
  /-- `variables/Zero.py:5-29` -/
  | zero (dim : Nat)
  /-- `IntCst_Impl`, `variables/IntCst.py:6-25` -/
  | int (val : Int)
  /-- `RatCst_Impl`, `variables/RatCst.py:8-26` -/
  | rat (p q : Int)
  | un (op : Un) (f : Expr)
  | bin (op : Bin) (f g : Expr)
  | tern (op : Tern) (f g h : Expr)
  /-- `Factorize_Impl(f, g, Var(ind,dim,cat))`, `factorization/Factorize.py:10-25` -/
  | fact (ind : Int) (dim : Nat) (cat : Int) (f g : Expr)
  deriving DecidableEq, Repr

/-- Subclasses of `VectorizedScalarOp`. `VectorizedScalarOp.py:6`; the class statements are at the
first lines cited in `Un`. -/
def Un.vectorized : Un → Bool
  | .sum | .sumT _ | .elem _ | .elemT _ _ | .extract _ _ | .extractT _ _ | .oneHot _ | .max | .min
  | .argMax | .argMin => false
  | _ => true

/-- Subclasses of `VectorizedScalarOp`. `VectorizedScalarOp.py:6`; the class statements are at the
first lines cited in `Bin`. -/
def Bin.vectorized : Bin → Bool
  | .scalprod | .concat | .matVecMult | .vecMatMult | .tensorProd => false
  | _ => true

/-- Dimension of the result from the dimension of the child (attribute `dim` of each class;
`VectorizedScalarOp.py:17-21` for the vectorized operations). Others: `Sum.py:18`, `SumT.py:23`,
`Elem.py:23`, `ElemT.py:22`, `Extract.py:23`, `ExtractT.py:23`, `OneHot.py:23`, `Max.py:22`,
`Min.py:22`, `ArgMax.py:27`, `ArgMin.py:27`. -/
def Un.dim : Un → Nat → Nat
  | .sum, _ | .elem _, _ | .max, _ | .min, _ | .argMax, _ | .argMin, _ => 1
  | .sumT n, _ | .elemT n _, _ | .extract _ n, _ | .extractT _ n, _ | .oneHot n, _ => n
  | _, d => d

/-- Same for two children. `VectorizedScalarOp.py:17-21`, `Scalprod.py:20`, `Concat.py:22`,
`MatVecMult.py:29`, `VecMatMult.py:29`, `TensorProd.py:23`. -/
def Bin.dim : Bin → Nat → Nat → Nat
  | .scalprod, _, _ => 1
  | .concat, a, b => a + b
  | .matVecMult, a, b => a / b
  | .vecMatMult, b, a => a / b
  | .tensorProd, a, b => a * b
  | _, a, b => max a b

/-- Attribute `dim`. `Var.py:36`, `Zero.py:19`, `IntCst.py:18`, `RatCst.py:19`, `Factorize.py:20`,
`VectorizedScalarOp.py:17-21`. -/
def Expr.dim : Expr → Nat
  | .var _ d _ => d
  | .zero d => d
  | .int _ => 1
  | .rat _ _ => 1
  | .un o f => o.dim f.dim
  | .bin o f g => o.dim f.dim g.dim
  | .tern _ f g h => max (max f.dim g.dim) h.dim
  | .fact _ _ _ f _ => f.dim

/-- Check of `VectorizedScalarOp.__init__`, `VectorizedScalarOp.py:11-15`: at most two different
dimensions, and if there are two the smallest is 1. -/
def dimsOk (dims : List Nat) : Bool :=
  let s := dims.dedup
  !(decide (s.length > 2) || (decide (s.length = 2) && decide (s.min? ≠ some 1)))

/-- Checks made by the constructor of an operation with one child. `Elem.py:21-22`,
`ElemT.py:20-21`, `Extract.py:19-20`, `ExtractT.py:19-20`, `OneHot.py:18-21`, `Max.py:20-21`,
`Min.py:20-21`, `ArgMax.py:25-26`, `ArgMin.py:25-26`. -/
def Un.accept : Un → Nat → Bool
  | .elem m, d => !decide ((d : Int) ≤ m)
  | .elemT _ _, d => decide (d = 1)
  | .extract s n, d => !decide (d < s + n)
  | .extractT s n, d => !decide (s + d > n)
  | .oneHot n, d => decide (d = 1) && !decide (n < 1)
  | .max, d | .min, d | .argMax, d | .argMin, d => !decide (d < 1)
  | _, _ => true

/-- Checks made by the constructor of an operation with two children. `Scalprod.py:28-29`,
`MatVecMult.py:24-28`, `VecMatMult.py:24-28`, `VectorizedScalarOp.py:11-15`. -/
def Bin.accept : Bin → Nat → Nat → Bool
  | .scalprod, a, b => decide (a = b)
  | .concat, _, _ => true
  | .matVecMult, a, b => decide (a % b = 0)
  | .vecMatMult, b, a => decide (a % b = 0)
  | .tensorProd, _, _ => true
  | _, a, b => dimsOk [a, b]

/-- Call of the class of an operation with one child. `Operation.py:27-38`,
`VectorizedScalarOp.py:11-15`. -/
def mkUn (o : Un) (f : Expr) : Except Err Expr :=
  if o.accept f.dim then .ok (.un o f) else .error .keops

/-- Call of the class of an operation with two children. `Operation.py:27-38`,
`VectorizedScalarOp.py:11-15`. -/
def mkBin (o : Bin) (f g : Expr) : Except Err Expr :=
  if o.accept f.dim g.dim then .ok (.bin o f g) else .error .keops

/-- Call of the class of an operation with three children. `Operation.py:27-38`,
`VectorizedScalarOp.py:11-15`. -/
def mkTern (o : Tern) (f g h : Expr) : Except Err Expr :=
  if dimsOk [f.dim, g.dim, h.dim] then .ok (.tern o f g h) else .error .keops

end Verif
