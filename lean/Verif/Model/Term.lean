import Verif.Model.Simplify

/-!
# Formulas as the user writes them

`Term` is the syntax tree of the formula string (or of the Python expression) given by the user;
`Term.compile` evaluates it as `GetReduction.__new__` does (`formulas/GetReduction.py:19-39`, a call of
Python's `eval` on the string): each node is a call of a constructor of the library or one of the
overloaded operators of `Operation` (`formulas/Operation.py:118-216`).

Simplifications: reductions, derivatives (`Grad`, `Diff`), `Factorize`, complex operations, `TensorDot`,
`Kron`, `BSpline`, `SoftDTW_SqDist` and `GradMatrix` are not in this language; integers appear only
as literal arguments.
-/

namespace Verif

/-- Syntax of formulas. String evaluated by `formulas/GetReduction.py:33`; operators
`Operation.py:118-216`. -/
inductive Term
  /-- `Var(ind,dim,cat)` -/
  | var (ind : Int) (dim : Nat) (cat : Int)
  /-- `Zero(dim)` -/
  | zero (dim : Nat)
  /-- `IntCst(n)`, and literals `n` next to an operator (`int2Op`, `Operation.py:253-261`) -/
  | int (n : Int)
  /-- `RatCst(p,q)` -/
  | rat (p q : Int)
  /-- `1/f` is `Inv(f)`, `n/f` is `IntCst(n)/f` (`Operation.__rtruediv__`, `Operation.py:135-141`) -/
  | rdiv (n : Int) (f : Term)
  /-- `f**m` (`Operation.__pow__`, `Operation.py:169-183`) -/
  | rpow (f : Term) (m : Int)
  /-- operation with one argument -/
  | un (o : Un) (f : Term)
  /-- operation with two arguments; `f+g`, `f-g`, `f*g`, `f/g`, `f|g`, `f<g`, `f<=g` are `add`, `sub`,
  `mul`, `div`, `scalprod`, `lessThan`, `lessOrEqual` -/
  | bin (o : Bin) (f g : Term)
  | tern (o : Tern) (f g h : Term)
  | intInv (n : Int)
  | sqNorm2 (f : Term)
  | sqDist (f g : Term)
  | norm2 (f : Term)
  | normalize (f : Term)
  | sqNormIso (s f : Term)
  | sqNormDiag (s f : Term)
  | symSqNorm (a x : Term)
  | weightedSqNorm (a x : Term)
  | weightedSqDist (s f g : Term)

/-- Call of the constructor of an operation with one argument. `Square.py:27`, `Minus.py:42`,
`Pow.py:42`, `Sum.py:48`, `SumT.py:37`, otherwise the class itself, `Operation.py:27-38`. -/
def callUn (n : Nat) (o : Un) (f : Expr) : Except Err Expr :=
  match o with
  | .square => square f
  | .minus => build n (.minus f)
  | .pow m => pow f m
  | .sum => build n (.sum f)
  | .sumT d => sumT f d
  | _ => mkUn o f

/-- Call of the constructor of an operation with two arguments. `Add.py:50`, `Subtract.py:48`,
`Mult.py:53`, `Divide.py:52`, `Scalprod.py:49`, otherwise the class itself, `Operation.py:27-38`. -/
def callBin (n : Nat) (o : Bin) (f g : Expr) : Except Err Expr :=
  match o with
  | .add => build n (.add f g)
  | .sub => build n (.sub f g)
  | .mul => build n (.mul f g)
  | .div => build n (.div f g)
  | .scalprod => build n (.scalprod f g)
  | _ => mkBin o f g

/-- `Operation.__pow__`, `Operation.py:169-183`, for an integer exponent. -/
def opPow (f : Expr) (m : Int) : Except Err Expr := if m = 2 then square f else pow f m

/-- `SqNorm2`, `maths/SqNorm2.py:5-6`. -/
def mkSqNorm2 (n : Nat) (f : Expr) : Except Err Expr := do
  let s ← opPow f 2
  build n (.sum s)

/-- `SqNormIso`, `maths/SqNormIso.py:9-10`. -/
def mkSqNormIso (n : Nat) (s f : Expr) : Except Err Expr := do
  let t ← mkSqNorm2 n f
  build n (.mul s t)

/-- `SqNormDiag`, `maths/SqNormDiag.py:10-11`. -/
def mkSqNormDiag (n : Nat) (s f : Expr) : Except Err Expr := do
  let t ← square f
  let u ← build n (.mul s t)
  build n (.sum u)

/-- `SymSqNorm`, `maths/SymSqNorm.py:11-12`. -/
def mkSymSqNorm (n : Nat) (a x : Expr) : Except Err Expr := do
  let t ← mkBin .tensorProd x x
  let u ← build n (.mul a t)
  build n (.sum u)

/-- `WeightedSqNorm`, `maths/WeightedSqNorm.py:14-20`. -/
def mkWeightedSqNorm (n : Nat) (a x : Expr) : Except Err Expr :=
  if a.dim = 1 then mkSqNormIso n a x
  else if a.dim = x.dim then mkSqNormDiag n a x
  else mkSymSqNorm n a x

/-- Evaluate the expression written by the user; `n` bounds the depth of the recursions.
`formulas/GetReduction.py:33`. -/
def Term.compile (n : Nat) : Term → Except Err Expr
  | .var i d c => .ok (.var i d c)
  | .zero d => .ok (.zero d)
  | .int m => .ok (intCst m)
  | .rat p q => ratCst p q
  | .rdiv m f => do
    let f' ← f.compile n
    if m = 1 then mkUn .inv f' else build n (.div (intCst m) f')
  | .rpow f m => do
    let f' ← f.compile n
    opPow f' m
  | .un o f => do
    let f' ← f.compile n
    callUn n o f'
  | .bin o f g => do
    let f' ← f.compile n
    let g' ← g.compile n
    callBin n o f' g'
  | .tern o f g h => do
    let f' ← f.compile n
    let g' ← g.compile n
    let h' ← h.compile n
    mkTern o f' g' h'
  | .intInv m => ratCst 1 m
  | .sqNorm2 f => do
    let f' ← f.compile n
    mkSqNorm2 n f'
  | .sqDist f g => do
    let f' ← f.compile n
    let g' ← g.compile n
    let d ← build n (.sub f' g')
    mkSqNorm2 n d
  | .norm2 f => do
    let f' ← f.compile n
    let s ← build n (.scalprod f' f')
    mkUn .sqrt s
  | .normalize f => do
    let f' ← f.compile n
    let s ← mkSqNorm2 n f'
    let r ← mkUn .rsqrt s
    build n (.mul r f')
  | .sqNormIso s f => do
    let s' ← s.compile n
    let f' ← f.compile n
    mkSqNormIso n s' f'
  | .sqNormDiag s f => do
    let s' ← s.compile n
    let f' ← f.compile n
    mkSqNormDiag n s' f'
  | .symSqNorm a x => do
    let a' ← a.compile n
    let x' ← x.compile n
    mkSymSqNorm n a' x'
  | .weightedSqNorm a x => do
    let a' ← a.compile n
    let x' ← x.compile n
    mkWeightedSqNorm n a' x'
  | .weightedSqDist s f g => do
    let s' ← s.compile n
    let f' ← f.compile n
    let g' ← g.compile n
    let d ← build n (.sub f' g')
    mkWeightedSqNorm n s' d

end Verif
