import Verif.Model.Expr

/-!
# Simplification rules

The functions `Add`, `Subtract`, `Mult`, `Minus`, `Divide`, `Scalprod`, `Sum`, ... that build
formulas call each other recursively.  A call of one of them is a `Req`; `step q` is the body of the
function: a program that either returns a formula (or an exception) or makes further calls; `build`
runs it with a bound on the depth of the recursion.

Each block of tests of the code is one function that returns `none` when the block falls through.
-/

namespace Verif

/-- Calls of the recursive constructors. `Add.py:50`, `Subtract.py:48`, `Mult.py:53`, `Minus.py:42`,
`Divide.py:52`, `Scalprod.py:49`, `Sum.py:48`. -/
inductive Req
  | add (a b : Expr)
  | sub (a b : Expr)
  | mul (a b : Expr)
  | minus (a : Expr)
  | div (a b : Expr)
  | scalprod (a b : Expr)
  | sum (a : Expr)
  deriving DecidableEq, Repr

/-- The body of a constructor: a result, or a call and what is done with its result. Form of the
bodies `Add.py:50-134`, `Mult.py:53-157` and of the others cited below; device of the model. -/
inductive Prog
  | ret (r : Except Err Expr)
  | call (q : Req) (k : Expr → Prog)

namespace Prog

/-- Sequence. Composition of calls as in `Add.py:61`; device of the model. -/
def bind : Prog → (Expr → Prog) → Prog
  | ret (.ok e), f => f e
  | ret (.error er), _ => ret (.error er)
  | call q k, f => call q fun e => (k e).bind f

/-- A recursive call whose result is returned. As in `Mult.py:75`; device of the model. -/
def tail (q : Req) : Prog := call q fun e => ret (.ok e)

/-- Run a body, the recursive calls being answered by `rec`. Execution of the bodies
(`Add.py:50-134` and the others); device of the model. -/
def run (rec : Req → Except Err Expr) : Prog → Except Err Expr
  | ret r => r
  | call q k => match rec q with
    | .ok e => (k e).run rec
    | .error er => .error er

end Prog

/-! ## Classes of the arguments (`isinstance`) -/

/-- `isinstance(e, Zero)`. `variables/Zero.py:5`. -/
def Expr.asZero : Expr → Option Nat
  | .zero d => some d
  | _ => none

/-- `isinstance(e, IntCst_Impl)`. `variables/IntCst.py:6`. -/
def Expr.asInt : Expr → Option Int
  | .int n => some n
  | _ => none

/-- `isinstance(e, RatCst_Impl)`. `variables/RatCst.py:8`. -/
def Expr.asRat : Expr → Option (Int × Int)
  | .rat p q => some (p, q)
  | _ => none

/-- `isinstance(e, (IntCst_Impl, RatCst_Impl))`. As in `Add.py:91`. -/
def Expr.isConst : Expr → Bool
  | .int _ => true
  | .rat _ _ => true
  | _ => false

/-- Children of `e` if `e` is an instance of the class `o`. As in `Add.py:104`. -/
def Expr.asBin (o : Bin) : Expr → Option (Expr × Expr)
  | .bin o' f g => if o' = o then some (f, g) else none
  | _ => none

/-- Child of `e` if `e` is an instance of the class `o`. As in `Mult.py:100`. -/
def Expr.asUn (o : Un) : Expr → Option Expr
  | .un o' f => if o' = o then some f else none
  | _ => none

/-- `isinstance(e, SumT_Impl)`. As in `Mult.py:112`. -/
def Expr.asSumT : Expr → Option Expr
  | .un (.sumT _) f => some f
  | _ => none

/-! ## Constructors that are not recursive -/

/-- `IntCst`, `variables/IntCst.py:30-34`. -/
def intCst (n : Int) : Expr := if n = 0 then .zero 1 else .int n

/-- `RatCst`, `variables/RatCst.py:31-39`.  `Fraction(a,b)` raises when `b = 0`; otherwise its
numerator and denominator are `a` and `b` divided by their gcd, the denominator being positive. -/
def ratCst (a b : Int) : Except Err Expr :=
  if b = 0 then .error .zeroDivision
  else
    let g : Int := Int.gcd a b
    let s : Int := if b < 0 then -1 else 1
    let p := s * (a / g)
    let q := s * (b / g)
    if p = 0 then .ok (.zero 1)
    else if q = 1 then .ok (intCst p)
    else .ok (.rat p q)

/-- `Square`, `maths/Square.py:27-31`. -/
def square (a : Expr) : Except Err Expr :=
  match a.asZero with
  | some _ => .ok a
  | none => mkUn .square a

/-- `Pow`, `maths/Pow.py:42-46`. -/
def pow (f : Expr) (m : Int) : Except Err Expr :=
  if m = 1 then .ok f else mkUn (.pow m) f

/-- `SumT`, `maths/SumT.py:37-43`. -/
def sumT (a : Expr) (dim : Nat) : Except Err Expr :=
  if a.dim ≠ 1 then .error .keops
  else match a.asZero with
    | some _ => .ok (.zero dim)
    | none => .ok (.un (.sumT dim) a)

/-- `Broadcast`, `Operation.py:269-278`. -/
def broadcast (a : Expr) (dim : Nat) : Except Err Expr :=
  if a.dim = dim ∨ dim = 1 then .ok a
  else if a.dim = 1 then sumT a dim
  else .error .keops

open Prog in
/-- First rules that applies, `final` if none does. Sequence of `if ...: return`, as in
`Add.py:55-134`. -/
def firstRule (rules : List (Option Prog)) (final : Except Err Expr) : Prog :=
  (rules.findSome? id).getD (ret final)

/-! ## Add, `maths/Add.py:50-134` -/

open Prog

/-- `maths/Add.py:55-61`: `x+0=x, 0+x=x, x+x=2x`. -/
def addZero (a b : Expr) : Option Prog :=
  match a.asZero, b.asZero with
  | some d, _ => some (ret (broadcast b d))
  | none, some d => some (ret (broadcast a d))
  | none, none => if a = b then some (tail (.mul (intCst 2) a)) else none

/-- `maths/Add.py:63-77`: sums of constants.  For `p/q+n` the code reads `arg1.q`, an attribute that
`IntCst_Impl` does not have (line 74). -/
def addConst (a b : Expr) : Option Prog :=
  match a, b with
  | .int m, .int n => some (ret (.ok (intCst (m + n))))
  | .int m, .rat p q => some (ret (ratCst (m * q + p) q))
  | .rat _ _, .int _ => some (ret (.error .attribute))
  | .rat p q, .rat m n => some (ret (ratCst (p * n + q * m) (q * n)))
  | _, _ => none

/-- `maths/Add.py:79-91`: `m+(r+g) -> (m+r)+g`, `m+(r-g) -> (m+r)-g`. -/
def addGatherL (a b : Expr) : Option Prog :=
  if a.isConst then
    match b.asBin .add, b.asBin .sub with
    | some (r, g), _ =>
      if r.isConst then some (call (.add a r) fun c => tail (.add c g)) else none
    | none, some (r, g) =>
      if r.isConst then some (call (.add a r) fun c => tail (.sub c g)) else none
    | none, none => none
  else none

/-- `maths/Add.py:92-102`: `(r+g)+m -> (m+r)+g`, `(r-g)+m -> (m+r)-g`. -/
def addGatherR (a b : Expr) : Option Prog :=
  if b.isConst then
    match a.asBin .add, a.asBin .sub with
    | some (r, g), _ =>
      if r.isConst then some (call (.add b r) fun c => tail (.add c g)) else none
    | none, some (r, g) =>
      if r.isConst then some (call (.add b r) fun c => tail (.sub c g)) else none
    | none, none => none
  else none

/-- `maths/Add.py:104-115`: `ab+cd` with a common factor. -/
def addFactor (x y : Expr) : Option Prog :=
  match x.asBin .mul, y.asBin .mul with
  | some (a, b), some (c, d) =>
    if a = c then some (call (.add b d) fun s => tail (.mul a s))
    else if a = d then some (call (.add b c) fun s => tail (.mul a s))
    else if b = c then some (call (.add a d) fun s => tail (.mul b s))
    else if b = d then some (call (.add a c) fun s => tail (.mul b s))
    else none
  | _, _ => none

/-- `maths/Add.py:116-129`: `n*x + x`, `x + n*x`. -/
def addMultiple (x y : Expr) : Option Prog :=
  match x.asBin .mul with
  | some (.int n, g) => if g = y then some (tail (.mul (intCst (n + 1)) y)) else other
  | _ => other
where
  /-- second test, lines 123-129 -/
  other : Option Prog :=
    match y.asBin .mul with
    | some (.int n, g) => if g = x then some (tail (.mul (intCst (n + 1)) x)) else none
    | _ => none

/-- `maths/Add.py:130-133`: `(-x)+(-y) -> -(x+y)`, `x+(-y) -> x-y`. -/
def addMinus (a b : Expr) : Option Prog :=
  match b.asUn .minus with
  | some g =>
    match a.asUn .minus with
    | some f => some (call (.add f g) fun s => tail (.minus s))
    | none => some (tail (.sub a g))
  | none => none

/-- `Add`, `maths/Add.py:50-134`. -/
def stepAdd (a b : Expr) : Prog :=
  firstRule [addZero a b, addConst a b, addGatherL a b, addGatherR a b, addFactor a b,
    addMultiple a b, addMinus a b] (mkBin .add a b)

/-! ## Subtract, `maths/Subtract.py:48-128` -/

/-- `maths/Subtract.py:53-59`: `0-x=-x, x-0=x, x-x=0`. -/
def subZero (a b : Expr) : Option Prog :=
  match a.asZero, b.asZero with
  | some d, _ => some ((ret (broadcast b d)).bind fun e => tail (.minus e))
  | none, some d => some (ret (broadcast a d))
  | none, none => if a = b then some (ret (.ok (.zero a.dim))) else none

/-- `maths/Subtract.py:61-75`: differences of constants (same attribute error as `Add`, line 72). -/
def subConst (a b : Expr) : Option Prog :=
  match a, b with
  | .int m, .int n => some (ret (.ok (intCst (m - n))))
  | .int m, .rat p q => some (ret (ratCst (m * q - p) q))
  | .rat _ _, .int _ => some (ret (.error .attribute))
  | .rat p q, .rat m n => some (ret (ratCst (p * n - q * m) (q * n)))
  | _, _ => none

/-- `maths/Subtract.py:77-88`: `m-(r+g) -> (m-r)-g`, `m-(r-g) -> (m-r)+g`. -/
def subGatherL (a b : Expr) : Option Prog :=
  if a.isConst then
    match b.asBin .add, b.asBin .sub with
    | some (r, g), _ =>
      if r.isConst then some (call (.sub a r) fun c => tail (.sub c g)) else none
    | none, some (r, g) =>
      if r.isConst then some (call (.sub a r) fun c => tail (.add c g)) else none
    | none, none => none
  else none

/-- `maths/Subtract.py:89-99`: `(r+g)-m -> (r-m)+g`, `(r-g)-m -> (r-m)-g`. -/
def subGatherR (a b : Expr) : Option Prog :=
  if b.isConst then
    match a.asBin .add, a.asBin .sub with
    | some (r, g), _ =>
      if r.isConst then some (call (.sub r b) fun c => tail (.add c g)) else none
    | none, some (r, g) =>
      if r.isConst then some (call (.sub r b) fun c => tail (.sub c g)) else none
    | none, none => none
  else none

/-- `maths/Subtract.py:101-112`: `ab-cd` with a common factor. -/
def subFactor (x y : Expr) : Option Prog :=
  match x.asBin .mul, y.asBin .mul with
  | some (a, b), some (c, d) =>
    if a = c then some (call (.sub b d) fun s => tail (.mul a s))
    else if a = d then some (call (.sub b c) fun s => tail (.mul a s))
    else if b = c then some (call (.sub a d) fun s => tail (.mul b s))
    else if b = d then some (call (.sub a c) fun s => tail (.mul b s))
    else none
  | _, _ => none

/-- `maths/Subtract.py:113-126`: `n*x - x`, `x - n*x`. -/
def subMultiple (x y : Expr) : Option Prog :=
  match x.asBin .mul with
  | some (.int n, g) => if g = y then some (tail (.mul (intCst (n - 1)) y)) else other
  | _ => other
where
  /-- second test, lines 120-126 -/
  other : Option Prog :=
    match y.asBin .mul with
    | some (.int n, g) => if g = x then some (tail (.mul (intCst (1 - n)) x)) else none
    | _ => none

/-- `Subtract`, `maths/Subtract.py:48-128`. -/
def stepSub (a b : Expr) : Prog :=
  firstRule [subZero a b, subConst a b, subGatherL a b, subGatherR a b, subFactor a b,
    subMultiple a b] (mkBin .sub a b)

/-! ## Mult, `maths/Mult.py:53-157` -/

/-- `maths/Mult.py:56-59`: `0*x`, `x*0`. -/
def mulZero (a b : Expr) : Option Prog :=
  match a.asZero, b.asZero with
  | some _, _ => some (ret (broadcast a b.dim))
  | none, some _ => some (ret (broadcast b a.dim))
  | none, none => none

/-- `maths/Mult.py:60-72`: integer on the left. -/
def mulInt (a b : Expr) : Option Prog :=
  match a.asInt with
  | some m =>
    if m = 1 then some (ret (.ok b))
    else if m = -1 then some (tail (.minus b))
    else match b.asInt, b.asRat with
      | some n, _ => some (ret (.ok (.int (m * n))))
      | none, some (p, q) => some (ret (ratCst (m * p) q))
      | none, none => none
  | none => none

/-- `maths/Mult.py:73-75`: `f*n -> n*f`. -/
def mulSwapInt (a b : Expr) : Option Prog :=
  match b.asInt with
  | some _ => some (tail (.mul b a))
  | none => none

/-- `maths/Mult.py:76-78`: `(p/q)*(m/n)`. -/
def mulRat (a b : Expr) : Option Prog :=
  match a.asRat, b.asRat with
  | some (p, q), some (m, n) => some (ret (ratCst (p * m) (q * n)))
  | _, _ => none

/-- `maths/Mult.py:79-93`: a product with a constant on the right. -/
def mulConstR (a b : Expr) : Option Prog :=
  match b.asBin .mul with
  | some (.int n, g) =>
    match a.asInt with
    | some m => some (tail (.mul (intCst (m * n)) g))
    | none => some (call (.mul a g) fun s => tail (.mul (.int n) s))
  | some (.rat p q, g) =>
    if a.isConst then some (call (.mul a (.rat p q)) fun c => tail (.mul c g))
    else some (call (.mul a g) fun s => tail (.mul (.rat p q) s))
  | _ => none

/-- `maths/Mult.py:94-99`: `(n*f)*g -> n*(f*g)` unless `g` is an exponential, in which case no other
rule of the chain is tried. -/
def mulConstL (a b : Expr) : Option Prog :=
  match a.asBin .mul with
  | some (c, f) =>
    if c.isConst then
      match b.asUn .exp with
      | none => some (call (.mul f b) fun s => tail (.mul c s))
      | some _ => some (ret (mkBin .mul a b))
    else none
  | none => none

/-- `maths/Mult.py:100-108`: signs. -/
def mulMinus (a b : Expr) : Option Prog :=
  match a.asUn .minus, b.asUn .minus with
  | some f, some g => some (tail (.mul f g))
  | some f, none => some (call (.mul f b) fun s => tail (.minus s))
  | none, some g => some (call (.mul a g) fun s => tail (.minus s))
  | none, none => none

/-- `maths/Mult.py:109-111`: `f*f -> f^2`. -/
def mulSquare (a b : Expr) : Option Prog :=
  if a = b then some (ret (square a)) else none

/-- `maths/Mult.py:112-129`: products with `SumT`. -/
def mulSumT (a b : Expr) : Option Prog :=
  match b.asSumT with
  | some g =>
    match a.asSumT with
    | some f =>
      if a.dim ≠ b.dim then some (ret (.error .keops))
      else some (call (.mul f g) fun s => ret (sumT s a.dim))
    | none =>
      if a.dim = 1 then some (call (.mul a g) fun s => ret (sumT s b.dim))
      else if b.dim = a.dim then some (tail (.mul a g))
      else some (ret (.error .keops))
  | none =>
    match a.asSumT with
    | some _ => some (tail (.mul b a))
    | none => none

/-- `maths/Mult.py:130-136`: exponentials. -/
def mulExp (a b : Expr) : Option Prog :=
  match a.asUn .exp with
  | some f =>
    match b.asUn .exp with
    | some g => some (call (.add f g) fun s => ret (mkUn .exp s))
    | none => if b.dim ≤ a.dim then some (tail (.mul b a)) else none
  | none => none

/-- `maths/Mult.py:137-149`: `(u*v)*g` where `v` is an exponential; if nothing applies the code goes
to the final `return` (the `elif` of line 150 is not tried). -/
def mulMulExpL (a b : Expr) : Option Prog :=
  match a.asBin .mul with
  | some (u, v) =>
    match v.asUn .exp with
    | some x =>
      match b.asUn .exp with
      | some y => some (call (.add x y) fun s =>
          (ret (mkUn .exp s)).bind fun e => tail (.mul u e))
      | none =>
        if b.dim ≤ x.dim then some (call (.mul u b) fun s => tail (.mul s v))
        else some (ret (mkBin .mul a b))
    | none => some (ret (mkBin .mul a b))
  | none => none

/-- `maths/Mult.py:150-156`: `f*(u*Exp(v)) -> (f*u)*Exp(v)`. -/
def mulMulExpR (a b : Expr) : Option Prog :=
  match b.asBin .mul with
  | some (u, v) =>
    match v.asUn .exp, a.asInt with
    | some _, none => some (call (.mul a u) fun s => tail (.mul s v))
    | _, _ => none
  | none => none

/-- `Mult`, `maths/Mult.py:53-157`. -/
def stepMul (a b : Expr) : Prog :=
  firstRule [mulZero a b, mulInt a b, mulSwapInt a b, mulRat a b, mulConstR a b, mulConstL a b,
    mulMinus a b, mulSquare a b, mulSumT a b, mulExp a b, mulMulExpL a b, mulMulExpR a b]
    (mkBin .mul a b)

/-! ## The other ones -/

/-- `Minus`, `maths/Minus.py:42-62`. -/
def stepMinus (a : Expr) : Prog :=
  match a with
  | .zero _ => ret (.ok a)
  | .un .minus f => ret (.ok f)
  | .int n => ret (.ok (intCst (-n)))
  | .rat p q => ret (ratCst (-p) q)
  | .bin .mul r g =>
    if r.isConst then call (.minus r) fun c => tail (.mul c g) else ret (mkUn .minus a)
  | _ => ret (mkUn .minus a)

/-- `Divide`, `maths/Divide.py:52-62`. -/
def stepDiv (a b : Expr) : Prog :=
  match a.asZero with
  | some _ => ret (broadcast a b.dim)
  | none =>
    match b with
    | .zero _ => ret (.error .keops)
    | .int n => (ret (ratCst 1 n)).bind fun r => tail (.mul r a)
    | .rat p q => (ret (ratCst q p)).bind fun r => tail (.mul r a)
    | _ => ret (mkBin .div a b)

/-- `maths/Scalprod.py:58-69`: scalar factors of one argument. -/
def scalFactor (a b : Expr) : Option Prog :=
  match a.asBin .mul with
  | some (u, v) =>
    if u.dim = 1 then some (call (.scalprod v b) fun s => tail (.mul u s))
    else if v.dim = 1 then some (call (.scalprod u b) fun s => tail (.mul v s))
    else none
  | none => none

/-- `Scalprod`, `maths/Scalprod.py:49-70`. -/
def stepScalprod (a b : Expr) : Prog :=
  if a.dim = 1 then call (.sum b) fun s => tail (.mul a s)
  else if b.dim = 1 then call (.sum a) fun s => tail (.mul s b)
  else if a = b then (ret (square a)).bind fun s => tail (.sum s)
  else firstRule [scalFactor a b, scalFactor b a] (mkBin .scalprod a b)

/-- `Sum`, `maths/Sum.py:48-66`. -/
def stepSum (a : Expr) : Prog :=
  if a.dim = 1 then ret (.ok a)
  else match a.asZero with
    | some _ => ret (.ok (.zero 1))
    | none =>
      match a.asBin .mul with
      | some (f, g) =>
        if f.dim = 1 then call (.sum g) fun s => tail (.mul f s)
        else if g.dim = 1 then call (.sum f) fun s => tail (.mul s g)
        else tail (.scalprod f g)
      | none => ret (mkUn .sum a)

/-- Body of a call. `Add.py:50-134`, `Subtract.py:48-128`, `Mult.py:53-157`, `Minus.py:42-62`,
`Divide.py:52-62`, `Scalprod.py:49-70`, `Sum.py:48-66`. -/
def step : Req → Prog
  | .add a b => stepAdd a b
  | .sub a b => stepSub a b
  | .mul a b => stepMul a b
  | .minus a => stepMinus a
  | .div a b => stepDiv a b
  | .scalprod a b => stepScalprod a b
  | .sum a => stepSum a

/-- Run a call with recursion depth at most `n`. Recursion of the functions cited in `step`, as in
`Mult.py:75`. -/
def build : Nat → Req → Except Err Expr
  | 0, _ => .error .fuel
  | n + 1, q => (step q).run (build n)

end Verif
