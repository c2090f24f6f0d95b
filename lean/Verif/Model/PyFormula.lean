import Verif.Model.Term

/-!
# Formulas written as texts

Model of the evaluation of a formula written by the user of `Genred`, `eval(red_formula_string, globals(), aliases_dict)`
(`formulas/GetReduction.py:33`): a Python expression whose operators are the methods of the class `Operation`
(`formulas/Operation.py:118-216`).  The text is already parsed: the parser of Python is trusted.
-/

namespace Verif

/-- Arithmetic operators of Python: `+`, `-`, `*`, `/`, `|`, `**`. `formulas/Operation.py:118-189`. -/
inductive PyArith
  | add | sub | mul | div | or | pow
  deriving DecidableEq, Repr

/-- Comparisons of Python: `<`, `>`, `<=`, `>=`, `==`, `!=`. `formulas/Operation.py:191-216`. -/
inductive PyCmp
  | lt | gt | le | ge | eq | ne
  deriving DecidableEq, Repr

/-- Functions of one formula that are made of operations: `SqNorm2`, `Norm2`, `Normalize`. `maths/SqNorm2.py:5-6`,
`maths/Norm2.py:6-7`, `maths/Normalize.py:6-7`. -/
inductive PyFun1
  | sqNorm2 | norm2 | normalize
  deriving DecidableEq, Repr

/-- Functions of two formulas that are made of operations: `SqDist`, `SqNormIso`, `SqNormDiag`, `SymSqNorm`,
`WeightedSqNorm`. `maths/SqDist.py:5-6`, `maths/SqNormIso.py:9-10`, `maths/SqNormDiag.py:10-11`, `maths/SymSqNorm.py:11-12`,
`maths/WeightedSqNorm.py:14-20`. -/
inductive PyFun2
  | sqDist | sqNormIso | sqNormDiag | symSqNorm | weightedSqNorm
  deriving DecidableEq, Repr

/-- A formula written by the user, as a Python expression. `formulas/GetReduction.py:33`.
Simplifications: comparisons have two or three operands; the operations that are called by their name are those of `Un`,
`Bin` and `Tern`, whose arguments other than formulas are literals. -/
inductive PyF
  /-- an integer literal -/
  | int (n : Int)
  /-- an alias, or `Var(ind,dim,cat)` -/
  | var (ind : Int) (dim : Nat) (cat : Int)
  /-- `IntCst(n)` -/
  | intCst (n : Int)
  /-- `RatCst(p,q)` -/
  | ratCst (p q : Int)
  /-- `Zero(d)` -/
  | zero (d : Nat)
  /-- `f(x)`, `f(x,y)` and `f(x,y,z)` -/
  | call1 (o : Un) (x : PyF)
  | call2 (o : Bin) (x y : PyF)
  | call3 (o : Tern) (x y z : PyF)
  | fun1 (o : PyFun1) (x : PyF)
  | fun2 (o : PyFun2) (x y : PyF)
  /-- `WeightedSqDist(s,x,y)` -/
  | weightedSqDist (s x y : PyF)
  /-- `-x` -/
  | neg (x : PyF)
  | arith (o : PyArith) (x y : PyF)
  | cmp (c : PyCmp) (x y : PyF)
  /-- `x < y < z` -/
  | chain (x : PyF) (c : PyCmp) (y : PyF) (d : PyCmp) (z : PyF)
  deriving Repr

/-- A value of Python: an integer or a formula. `formulas/GetReduction.py:33`.
Simplification: a Boolean is the integer 0 or 1 (`bool` is a subclass of `int`, accepted by `int2Op`,
`formulas/Operation.py:254`); the only difference is the text printed for a constant that remains in the formula. -/
inductive PyVal
  | num (n : Int)
  | op (e : Expr)
  deriving Repr

/-- An exception of Python: `raise Powf(self, other)`, where `Powf` is not a class of exceptions, or an operator that is not
defined. `formulas/Operation.py:118-216`. -/
def pyErr {α : Type} : Except Err α := .error .type

/-- An arithmetic operator.  The methods with `r` are called when the first operand is an integer.  Simplification: two
integers joined by `/` or `|`, and negative powers of integers, are refused (they give a `float`, or an integer computed
bit by bit; `int2Op` refuses a `float`, `formulas/Operation.py:259-260`).
`formulas/Operation.py:118-189`; the method `__ror__` does not exist, `Scalprod` refuses integers (`Scalprod.py:52-55`), and
`__pow__` raises an exception if the exponent is not an integer (`Operation.py:180-183`). -/
def pyArith (n : Nat) : PyArith → PyVal → PyVal → Except Err PyVal
  | .add, .num a, .num b => .ok (.num (a + b))
  | .add, .num a, .op g => .op <$> callBin n .add (intCst a) g
  | .add, .op f, .num b => .op <$> callBin n .add f (intCst b)
  | .add, .op f, .op g => .op <$> callBin n .add f g
  | .sub, .num a, .num b => .ok (.num (a - b))
  | .sub, .num a, .op g => .op <$> callBin n .sub (intCst a) g
  | .sub, .op f, .num b => .op <$> callBin n .sub f (intCst b)
  | .sub, .op f, .op g => .op <$> callBin n .sub f g
  | .mul, .num a, .num b => .ok (.num (a * b))
  | .mul, .num a, .op g => .op <$> callBin n .mul (intCst a) g
  | .mul, .op f, .num b => .op <$> callBin n .mul f (intCst b)
  | .mul, .op f, .op g => .op <$> callBin n .mul f g
  | .div, .num _, .num _ => pyErr
  | .div, .num a, .op g => .op <$> if a = 1 then mkUn .inv g else callBin n .div (intCst a) g
  | .div, .op f, .num b => .op <$> callBin n .div f (intCst b)
  | .div, .op f, .op g => .op <$> callBin n .div f g
  | .or, .op f, .op g => .op <$> callBin n .scalprod f g
  | .or, _, _ => pyErr
  | .pow, .num a, .num b => if 0 ≤ b then .ok (.num (a ^ b.toNat)) else pyErr
  | .pow, .op f, .num b => .op <$> opPow f b
  | .pow, _, .op _ => pyErr

/-- `int2Op`, `formulas/Operation.py:253-261`. -/
def int2Op : PyVal → Expr
  | .num n => intCst n
  | .op e => e

/-- The value of a comparison of two integers, by Python. `formulas/GetReduction.py:33`. -/
def intCmp (c : PyCmp) (a b : Int) : Bool :=
  match c with
  | .lt => a < b
  | .gt => b < a
  | .le => a ≤ b
  | .ge => b ≤ a
  | .eq => a = b
  | .ne => a ≠ b

/-- A comparison, of which one operand at least is a formula: `__lt__`, `__gt__`, `__le__` and `__ge__` give formulas, with
their operands exchanged by Python if the first one is an integer; `__eq__` compares the two objects, and `!=` is its
negation. `formulas/Operation.py:191-216`, `variables/Var.py:42-48`, `variables/Zero.py:22-23`. -/
def pyCmp (c : PyCmp) (v w : PyVal) : Except Err PyVal :=
  match v, w with
  | .num a, .num b => .ok (.num (if intCmp c a b then 1 else 0))
  | v, w =>
    match c with
    | .lt => .op <$> mkBin .lessThan (int2Op v) (int2Op w)
    | .gt => .op <$> mkBin .lessThan (int2Op w) (int2Op v)
    | .le => .op <$> mkBin .lessOrEqual (int2Op v) (int2Op w)
    | .ge => .op <$> mkBin .lessOrEqual (int2Op w) (int2Op v)
    | .eq =>
      match v, w with
      | .op f, .op g => .ok (.num (if f = g then 1 else 0))
      | _, _ => .ok (.num 0)
    | .ne =>
      match v, w with
      | .op f, .op g => .ok (.num (if f = g then 0 else 1))
      | _, _ => .ok (.num 1)

/-- The truth value of an object: 0 is false, and formulas are true, since the classes `Operation` and `Tree` define neither
`__bool__` nor `__len__` (`formulas/Operation.py:16-216`, `utils/Tree.py:8-130`). -/
def pyTruth : PyVal → Bool
  | .num a => a ≠ 0
  | .op _ => true

/-- The argument of an operation that is called by its name: the constructors read its dimension or its variables, which an
integer does not have (`formulas/Operation.py:27-38`).  Simplification: a few of the rules of `Mult` and `Add` would accept
an integer (`maths/Mult.py:82`), and so would functions that are made of operators, such as `SqDist`. -/
def asOp : PyVal → Except Err Expr
  | .num _ => pyErr
  | .op e => .ok e

/-- `SqNorm2(f)`, `Norm2(f)` and `Normalize(f)`. `maths/SqNorm2.py:5-6`, `maths/Norm2.py:6-7`,
`maths/Normalize.py:6-7`. -/
def PyFun1.call (n : Nat) (o : PyFun1) (f : Expr) : Except Err Expr :=
  match o with
  | .sqNorm2 => mkSqNorm2 n f
  | .norm2 => do
    let s ← build n (.scalprod f f)
    mkUn .sqrt s
  | .normalize => do
    let s ← mkSqNorm2 n f
    let r ← mkUn .rsqrt s
    build n (.mul r f)

/-- `SqDist(f,g)`, …  `maths/SqDist.py:5-6`, `maths/SqNormIso.py:9-10`, `maths/SqNormDiag.py:10-11`,
`maths/SymSqNorm.py:11-12`, `maths/WeightedSqNorm.py:14-20`. -/
def PyFun2.call (n : Nat) (o : PyFun2) (f g : Expr) : Except Err Expr :=
  match o with
  | .sqDist => do
    let d ← build n (.sub f g)
    mkSqNorm2 n d
  | .sqNormIso => mkSqNormIso n f g
  | .sqNormDiag => mkSqNormDiag n f g
  | .symSqNorm => mkSymSqNorm n f g
  | .weightedSqNorm => mkWeightedSqNorm n f g

/-- The evaluation of the expression by Python. A comparison `x c y d z` is `x c y and y d z`.
`formulas/GetReduction.py:33`, `formulas/Operation.py:118-216`. -/
def PyF.eval (n : Nat) : PyF → Except Err PyVal
  | .int m => .ok (.num m)
  | .var i d c => .ok (.op (.var i d c))
  | .intCst m => .ok (.op (Verif.intCst m))
  | .ratCst p q => .op <$> Verif.ratCst p q
  | .zero d => .ok (.op (.zero d))
  | .call1 o x => do
    let x' ← x.eval n
    let f ← asOp x'
    .op <$> callUn n o f
  | .call2 o x y => do
    let x' ← x.eval n
    let y' ← y.eval n
    let f ← asOp x'
    let g ← asOp y'
    .op <$> callBin n o f g
  | .call3 o x y z => do
    let x' ← x.eval n
    let y' ← y.eval n
    let z' ← z.eval n
    let f ← asOp x'
    let g ← asOp y'
    let h ← asOp z'
    .op <$> mkTern o f g h
  | .fun1 o x => do
    let x' ← x.eval n
    let f ← asOp x'
    .op <$> o.call n f
  | .fun2 o x y => do
    let x' ← x.eval n
    let y' ← y.eval n
    let f ← asOp x'
    let g ← asOp y'
    .op <$> o.call n f g
  | .weightedSqDist s x y => do
    let s' ← s.eval n
    let x' ← x.eval n
    let y' ← y.eval n
    let w ← asOp s'
    let f ← asOp x'
    let g ← asOp y'
    let d ← build n (.sub f g)
    .op <$> mkWeightedSqNorm n w d
  | .neg x => do
    let x' ← x.eval n
    match x' with
    | .num a => .ok (.num (-a))
    | .op f => .op <$> callUn n .minus f
  | .arith o x y => do
    let x' ← x.eval n
    let y' ← y.eval n
    pyArith n o x' y'
  | .cmp c x y => do
    let x' ← x.eval n
    let y' ← y.eval n
    pyCmp c x' y'
  | .chain x c y d z => do
    let x' ← x.eval n
    let y' ← y.eval n
    let r ← pyCmp c x' y'
    if pyTruth r then do
      let z' ← z.eval n
      pyCmp d y' z'
    else .ok r

/-- The formula that is reduced: an object without the attribute `Vars_` is refused (`reductions/Reduction.py:21`). -/
def PyF.formula (n : Nat) (x : PyF) : Except Err Expr := do
  let v ← x.eval n
  asOp v

end Verif
