import Verif.Spec.Methods
import Verif.Model.Parse

/-!
# Operators and methods of lazy tensors

Model of the operators and methods of `pykeops/common/lazy_tensor.py:1032-1814`, and of `sum`, `min`, `max`, `argmin` and
`argmax` along the last axis (`common/lazy_tensor.py:2091-2096,2199-2204` and the like): which lazy tensor (`LExpr`,
`Model/Lazy.lean`) a program builds.

Simplifications: complex lazy tensors are not modelled; the arrays are NumPy arrays (`__array_ufunc__ = None`,
`common/lazy_tensor.py:1028`, makes NumPy leave an operator between an array and a lazy tensor to the latter); an operator
between two objects which are not lazy tensors is not modelled (`none`).
-/

namespace Verif.Lazy
open Alias (Str)
open Spec (LExpr PyE PyOp PyM1 PyMi PyM2 PyM3)

/-- `str(n)` for an integer, `common/lazy_tensor.py:140,456-460`. -/
def showInt (n : Int) : Str := if n < 0 then '-' :: num n.natAbs else num n.natAbs

/-- The values of a program: Python integers, other Python numbers, lists, arrays and lazy tensors. -/
inductive Val
  | int (n : Int)
  | float (id src : Nat) (q : ℚ)
  | list (id src len : Nat)
  | array (id src : Nat) (shape : List Nat)
  | lazy (e : LExpr)

/-- `lt_constructor(other)` if `other` is not a lazy tensor, `common/lazy_tensor.py:138-164,491-492`. -/
def Val.toLazy : Val → LExpr
  | .int n => .int (showInt n)
  | .float id src _ => .params id src 1
  | .list id src len => .params id src len
  | .array id src shape => .array id src shape none
  | .lazy e => e

/-- `is_scalar_and_equals(x, val)`, `common/lazy_tensor.py:17-23`. -/
def scalarEq (v : Val) (n : Int) : Bool :=
  match v with
  | .int m => m = n
  | .float _ _ q => q = n
  | _ => false

/-- The lazy tensor, unless an exception was raised while it was built. -/
def mk (e : LExpr) : Option Val := (eval e).map (fun _ => .lazy e)

/-- The attribute `ndim` of a lazy tensor. -/
def ndim (e : LExpr) : Option Nat := (eval e).map LazyT.ndim

/-- `self.unary(op)`, `common/lazy_tensor.py:432-464`. -/
def un (op : String) (x : LExpr) : Option Val := mk (.unary op.toList none [] x)

/-- `self.unary(op, dimres=1)`, `common/lazy_tensor.py:432-464`. -/
def un1 (op : String) (x : LExpr) : Option Val := mk (.unary op.toList (some 1) [] x)

/-- `self.binary(other, op, is_operator=True)`, `common/lazy_tensor.py:466-567`. -/
def infixOp (op : String) (rversion : Bool) (x : LExpr) (o : Val) : Option Val :=
  mk (.binary op.toList true none .sameor1 none rversion x o.toLazy)

/-! ## Operators -/

/-- `__add__`, `common/lazy_tensor.py:1035-1047`. -/
def add (x : LExpr) (o : Val) : Option Val := if scalarEq o 0 then some (.lazy x) else infixOp "+" false x o

/-- `__radd__`, `common/lazy_tensor.py:1049-1059`. -/
def radd (x : LExpr) (o : Val) : Option Val := if scalarEq o 0 then some (.lazy x) else infixOp "+" true x o

/-- `__sub__`, `common/lazy_tensor.py:1064-1076`. -/
def sub (x : LExpr) (o : Val) : Option Val := if scalarEq o 0 then some (.lazy x) else infixOp "-" false x o

/-- `__rsub__`, `common/lazy_tensor.py:1078-1088`. -/
def rsub (x : LExpr) (o : Val) : Option Val := if scalarEq o 0 then un "Minus" x else infixOp "-" true x o

/-- `__mul__`, `common/lazy_tensor.py:1093-1111`. -/
def mul (x : LExpr) (o : Val) : Option Val :=
  if scalarEq o 0 then some (.int 0)
  else if scalarEq o 1 then some (.lazy x)
  else if scalarEq o (-1) then un "Minus" x
  else infixOp "*" false x o

/-- `__rmul__`, `common/lazy_tensor.py:1113-1129`. -/
def rmul (x : LExpr) (o : Val) : Option Val :=
  if scalarEq o 0 then some (.int 0)
  else if scalarEq o 1 then some (.lazy x)
  else if scalarEq o (-1) then un "Minus" x
  else infixOp "*" true x o

/-- `__truediv__`, `common/lazy_tensor.py:1134-1146`. -/
def truediv (x : LExpr) (o : Val) : Option Val :=
  if scalarEq o 1 then some (.lazy x) else infixOp "/" false x o

/-- `__rtruediv__`, `common/lazy_tensor.py:1148-1160`. -/
def rtruediv (x : LExpr) (o : Val) : Option Val :=
  if scalarEq o 0 then some (.int 0)
  else if scalarEq o 1 then un "Inv" x
  else infixOp "/" true x o

/-- `__or__` and `__ror__`, `common/lazy_tensor.py:1162-1180`. -/
def dot (rversion : Bool) (x : LExpr) (o : Val) : Option Val :=
  mk (.binary "|".toList true (some 1) .same none rversion x o.toLazy)

/-- The end of `__pow__`, `common/lazy_tensor.py:1355-1362`. -/
def powf (x y : LExpr) : Option Val :=
  (ndim x).bind fun dx => (ndim y).bind fun dy =>
    if dy = 1 ∨ dy = dx then mk (.binary "Powf".toList false none .any none false x y) else none

/-- `__pow__`, `common/lazy_tensor.py:1330-1366`. -/
def pow (x : LExpr) (o : Val) : Option Val :=
  match o with
  | .int n => if n = 2 then un "Square" x else mk (.unary "Pow".toList none [showInt n] x)
  | .float id src q =>
    if q = 1 / 2 then un "Sqrt" x
    else if q = -1 / 2 then un "Rsqrt" x
    else powf x (.params id src 1)
  | .lazy y => powf x y
  | _ => none

/-- `__eq__`, `__ne__`, and `atan2`, `common/lazy_tensor.py:1303-1310,1385-1401`: `self.binary(other, op,
dimcheck="sameor1")`. -/
def funOp (op : String) (x : LExpr) (o : Val) : Option Val :=
  mk (.binary op.toList false none .sameor1 none false x o.toLazy)

/-- The operator `o` when its left operand is a lazy tensor. `common/lazy_tensor.py:1032-1180,1330-1437`. -/
def left (o : PyOp) (x : LExpr) (v : Val) : Option Val :=
  match o with
  | .add => add x v
  | .sub => sub x v
  | .mul => mul x v
  | .div => truediv x v
  | .dot => dot false x v
  | .pow => pow x v
  | .lt => infixOp "<" false x v
  | .gt => infixOp ">" false x v
  | .le => infixOp "<=" false x v
  | .ge => infixOp ">=" false x v
  | .eq => funOp "Equal" x v
  | .ne => funOp "NotEqual" x v

/-- The operator `o` when only its right operand `x` is a lazy tensor: the reflected method is called. There is no
`__rpow__`; the reflected comparisons are `__gt__` for `<`, `__ge__` for `<=`, and conversely.
`common/lazy_tensor.py:1032-1180,1385-1437`. -/
def right (o : PyOp) (v : Val) (x : LExpr) : Option Val :=
  match o with
  | .add => radd x v
  | .sub => rsub x v
  | .mul => rmul x v
  | .div => rtruediv x v
  | .dot => dot true x v
  | .pow => none
  | .lt => infixOp ">" false x v
  | .gt => infixOp "<" false x v
  | .le => infixOp ">=" false x v
  | .ge => infixOp "<=" false x v
  | .eq => funOp "Equal" x v
  | .ne => funOp "NotEqual" x v

/-- An operator. -/
def opCall (o : PyOp) (v w : Val) : Option Val :=
  match v, w with
  | .lazy x, w => left o x w
  | v, .lazy y => right o v y
  | _, _ => none

/-! ## Methods -/

/-- The methods without argument. `common/lazy_tensor.py:1184-1328,1376-1383,1439-1464,1509-1545`, `sum`
`common/lazy_tensor.py:2093-2094`, `min` `2201-2202`, `argmin` `2249-2250`, `max` `2316-2317`, `argmax` `2364-2365`. -/
def m1Call (m : PyM1) (x : LExpr) : Option Val :=
  match m with
  | .neg => un "Minus" x
  | .abs => un "Abs" x
  | .exp => un "Exp" x
  | .log => un "Log" x
  | .xlogx => un "XLogX" x
  | .cos => un "Cos" x
  | .sin => un "Sin" x
  | .sinxdivx => un "SinXDivX" x
  | .asin => un "Asin" x
  | .acos => un "Acos" x
  | .atan => un "Atan" x
  | .sqrt => un "Sqrt" x
  | .rsqrt => un "Rsqrt" x
  | .square => un "Square" x
  | .sign => un "Sign" x
  | .step => un "Step" x
  | .relu => un "ReLU" x
  | .sqnorm2 => un1 "SqNorm2" x
  | .norm2 => un1 "Norm2" x
  | .normalize => un "Normalize" x
  | .sum => un1 "Sum" x
  | .min => un1 "Min" x
  | .max => un1 "Max" x
  | .argmin => un1 "ArgMin" x
  | .argmax => un1 "ArgMax" x

/-- `elem`, `common/lazy_tensor.py:1614-1627`. -/
def elem (i : Int) (x : LExpr) : Option Val :=
  (ndim x).bind fun d =>
    if i < 0 ∨ i ≥ d then none else mk (.unary "Elem".toList (some 1) [showInt i] x)

/-- `extract`, `common/lazy_tensor.py:1629-1642`. -/
def extract (i d : Int) (x : LExpr) : Option Val :=
  (ndim x).bind fun D =>
    if i < 0 ∨ i ≥ D then none
    else if d < 1 ∨ i + d > D then none
    else mk (.unary "Extract".toList (some d.toNat) [showInt i, showInt d] x)

/-- The methods whose arguments are integers: `round`, `elem`, `extract`, `__getitem__`, `one_hot`.
`common/lazy_tensor.py:1500-1507,1614-1704`. -/
def miCall (m : PyMi) (x : LExpr) : Option Val :=
  match m with
  | .round d => mk (.unary "Round".toList none [showInt d] x)
  | .elem i => elem i x
  | .extract i d => extract i d x
  | .get i => elem i x
  | .slice a b => (ndim x).bind fun D =>
      let start := a.getD 0
      let stop := b.getD D
      extract start (stop - start) x
  | .oneHot D => (ndim x).bind fun d =>
      if d ≠ 1 then none else mk (.unary "OneHot".toList (some D) [showInt D] x)

/-- `other.ndim`: for an array it is the number of its axes. `common/lazy_tensor.py:1724,1783,1798,1813`. -/
def otherNdim : Val → Option Nat
  | .lazy e => ndim e
  | .array _ _ shape => some shape.length
  | _ => none

/-- `weightedsqnorm`, `common/lazy_tensor.py:1556-1576`. -/
def weightedsqnorm (x : LExpr) (o : Val) : Option Val :=
  (ndim x).bind fun d => (ndim o.toLazy).bind fun d' =>
    if d' = 1 ∨ d' = d ∨ d' = d ^ 2 then
      mk (.binary "WeightedSqNorm".toList false (some 1) .any none true x o.toLazy)
    else none

/-- A method which uses `other.ndim`, `common/lazy_tensor.py:1716-1725,1771-1814`. -/
def dimOp (op : String) (dimres : Nat → Nat → Nat) (x : LExpr) (o : Val) : Option Val :=
  (ndim x).bind fun d => (otherNdim o).bind fun d' =>
    mk (.binary op.toList false (some (dimres d d')) .any none false x o.toLazy)

/-- The methods with one argument. `common/lazy_tensor.py:1303-1310,1547-1576,1716-1725,1771-1814`. Python raises an exception
for `self.ndim // other.ndim` if `other.ndim` is 0. -/
def m2Call (m : PyM2) (x : LExpr) (o : Val) : Option Val :=
  match m with
  | .atan2 => funOp "Atan2" x o
  | .sqdist => mk (.binary "SqDist".toList false (some 1) .sameor1 none false x o.toLazy)
  | .weightedsqnorm => weightedsqnorm x o
  | .concat => dimOp "Concat" (fun d d' => d + d') x o
  | .matvecmult => if otherNdim o = some 0 then none else dimOp "MatVecMult" (fun d d' => d / d') x o
  | .vecmatmult => if ndim x = some 0 then none else dimOp "VecMatMult" (fun d d' => d' / d) x o
  | .tensorprod => dimOp "TensorProd" (fun d d' => d' * d) x o

/-- `self.ternary(other1, other2, op, dimcheck="sameor1")`, `common/lazy_tensor.py:569-644`. -/
def terOp (op : String) (x : LExpr) (o o' : Val) : Option Val :=
  mk (.ternary op.toList none .sameor1 x o.toLazy o'.toLazy)

/-- `clamp`, `common/lazy_tensor.py:1466-1477`. -/
def clamp (x : LExpr) (o o' : Val) : Option Val :=
  match o, o' with
  | .int a, .int b => mk (.unary "ClampInt".toList none [showInt a, showInt b] x)
  | o, o' => terOp "Clamp" x o o'

/-- The methods with two arguments. `common/lazy_tensor.py:1466-1498,1578-1589`. -/
def m3Call (m : PyM3) (x : LExpr) (o o' : Val) : Option Val :=
  match m with
  | .clamp => clamp x o o'
  | .ifelse => terOp "IfElse" x o o'
  | .mod => terOp "Mod" x o o'
  | .weightedsqdist =>
    (mk o.toLazy).bind fun g => (mk o'.toLazy).bind fun s =>
      (sub x g).bind fun r =>
        match r with
        | .lazy r => weightedsqnorm r s
        | _ => none

/-! ## Programs -/

/-- The value of a program; `none` if an exception is raised. -/
def run : PyE → Option Val
  | .int n => some (.int n)
  | .float id src q => some (.float id src q)
  | .list id src len => some (.list id src len)
  | .array id src shape => some (.array id src shape)
  | .lazy id src shape axis => mk (.array id src shape axis)
  | .m1 m x => (run x).bind fun v =>
    match v with
    | .lazy e => m1Call m e
    | _ => none
  | .mi m x => (run x).bind fun v =>
    match v with
    | .lazy e => miCall m e
    | _ => none
  | .op o x y => (run x).bind fun v => (run y).bind fun w => opCall o v w
  | .m2 m x y => (run x).bind fun v => (run y).bind fun w =>
    match v with
    | .lazy e => m2Call m e w
    | _ => none
  | .m3 m x y z => (run x).bind fun v => (run y).bind fun w => (run z).bind fun w' =>
    match v with
    | .lazy e => m3Call m e w w'
    | _ => none
  | .t fresh x => (run x).bind fun v =>
    match v with
    | .lazy e => mk (.t fresh e)
    | _ => none

/-- The routine called by a reduction of the lazy tensor `p`: its formula and the contents of the arrays that are passed
to it. `redop` is `"Sum"`, `"Min"`, …, and `cat` is 0 for `axis=1` and 1 for `axis=0` (`axis2cat`,
`pykeops/common/utils.py:11-21`). `reduction`, `common/lazy_tensor.py:722-773`; `numpy/generic/generic_red.py:169-182`;
`keopscore/formulas/GetReduction.py:19-39`. `none` means that an exception is raised, or one of the following cases,
which are modelled elsewhere: batch dimensions, and the shortcut of `common/lazy_tensor.py:745-758` for sums. -/
def callOf (p : PyE) (redop : Str) (cat : Nat) : Option (Term × List Nat) :=
  (run p).bind fun v =>
    match v with
    | .lazy e => (eval e).bind fun L =>
      if L.nbatchdims ≠ 0 ∨ (redop = "Sum".toList ∧ (recOf e).isSome) then none
      else (reduction L none).bind fun r =>
        (Parse.parseRed (genredText redop r.1 [] cat [])).bind fun c =>
          match c with
          | (name, [.term t, .num c']) =>
            if name = redop ++ "_Reduction".toList ∧ c' = cat then some (t, r.2.2.map fun a => a.src) else none
          | _ => none
    | _ => none

end Verif.Lazy
