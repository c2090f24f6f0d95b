import Verif.Model.Term
import Verif.Model.Lazy

/-!
# From the text of a formula to the expression

Model of the call of Python's `eval` on the text of a reduction, `keopscore/formulas/GetReduction.py:19-39`: which
classes and operators are called, and on which arguments.  The names are those of the modules imported by
`GetReduction.py:7-13`, and they are bound to the classes with the same names (`maths/__init__.py:1-65`,
`variables/__init__.py:1-4`).

Simplification: only the texts that lazy tensors write are parsed: calls `Name(a,b)` or `Name(a, b)`, where an argument
is an integer or an expression, and operators between parentheses and spaces `(a + b)`.  On other texts the function
gives `none`, which does not mean that Python raises an exception.
-/

namespace Verif.Parse
open Alias (Str)

/-- An argument of a call: an integer or a formula. `GetReduction.py:33`. -/
inductive PArg
  | num (n : Int)
  | term (t : Term)

/-- Functions of one formula. -/
inductive Head1
  | op (o : Un)
  | sqNorm2
  | norm2
  | normalize
deriving DecidableEq

/-- Functions of two formulas. -/
inductive Head2
  | op (o : Bin)
  | sqDist
  | sqNormIso
  | sqNormDiag
  | symSqNorm
  | weightedSqNorm
deriving DecidableEq

/-- Functions of three formulas. -/
inductive Head3
  | op (o : Tern)
  | weightedSqDist
deriving DecidableEq

/-- The classes called with one formula. `maths/__init__.py:1-65`. -/
def table1 : List (String × Head1) :=
  [("Abs", .op .abs), ("Acos", .op .acos), ("ArgMax", .op .argMax), ("ArgMin", .op .argMin), ("Asin", .op .asin),
   ("Atan", .op .atan), ("Cos", .op .cos), ("Exp", .op .exp), ("Floor", .op .floor), ("Inv", .op .inv),
   ("Log", .op .log), ("Max", .op .max), ("Min", .op .min), ("Minus", .op .minus), ("Norm2", .norm2),
   ("Normalize", .normalize), ("ReLU", .op .relu), ("Rsqrt", .op .rsqrt), ("Sign", .op .sign), ("Sin", .op .sin),
   ("SinXDivX", .op .sinXDivX), ("SqNorm2", .sqNorm2), ("Sqrt", .op .sqrt), ("Square", .op .square),
   ("Step", .op .step), ("Sum", .op .sum), ("XLogX", .op .xLogX)]

/-- The classes called with two formulas. `maths/__init__.py:1-65`. -/
def table2 : List (String × Head2) :=
  [("Add", .op .add), ("Atan2", .op .atan2), ("Concat", .op .concat), ("Divide", .op .div), ("Equal", .op .equal),
   ("LessOrEqual", .op .lessOrEqual), ("LessThan", .op .lessThan), ("MatVecMult", .op .matVecMult),
   ("Mult", .op .mul), ("NotEqual", .op .notEqual), ("Powf", .op .powf), ("Scalprod", .op .scalprod),
   ("SqDist", .sqDist), ("SqNormDiag", .sqNormDiag), ("SqNormIso", .sqNormIso), ("Subtract", .op .sub),
   ("SymSqNorm", .symSqNorm), ("TensorProd", .op .tensorProd), ("VecMatMult", .op .vecMatMult),
   ("WeightedSqNorm", .weightedSqNorm)]

/-- The classes called with three formulas. `maths/__init__.py:1-65`. -/
def table3 : List (String × Head3) :=
  [("Clamp", .op .clamp), ("IfElse", .op .ifElse), ("Mod", .op .mod), ("WeightedSqDist", .weightedSqDist)]

/-- The operators between two formulas, and whether they exchange their arguments: `Operation.__add__`, `__sub__`,
`__mul__`, `__truediv__`, `__or__`, `__lt__`, `__gt__`, `__le__`, `__ge__`.
`formulas/Operation.py:118-122,129-133,143-147,153-157,185-189,198-216`. -/
def tableOp : List (String × Bin × Bool) :=
  [("+", .add, false), ("-", .sub, false), ("*", .mul, false), ("/", .div, false), ("|", .scalprod, false),
   ("<", .lessThan, false), (">", .lessThan, true), ("<=", .lessOrEqual, false), (">=", .lessOrEqual, true)]

/-- Search of a name. -/
def find {α : Type} (t : List (String × α)) (f : Str) : Option α :=
  (t.find? (fun e => e.1.toList = f)).map Prod.snd

/-- The classes called with a formula and an integer. `Pow.py:42`, `Round.py:11`, `Elem.py:15`, `OneHot.py:13`,
`SumT.py:37`; `maths/__init__.py:1-65`. A negative dimension is not modelled. -/
def head1i (f : Str) (m : Int) : Option Un :=
  if f = "Pow".toList then some (.pow m)
  else if f = "Round".toList then some (.round m)
  else if f = "Elem".toList then some (.elem m)
  else if f = "OneHot".toList ∧ 0 ≤ m then some (.oneHot m.toNat)
  else if f = "SumT".toList ∧ 0 ≤ m then some (.sumT m.toNat)
  else none

/-- The classes called with a formula and two integers. `ClampInt.py:15`, `DiffClampInt.py:17`, `Extract.py:14`,
`ExtractT.py:14`, `ElemT.py:14`; `maths/__init__.py:1-65`. Negative dimensions and positions are not modelled. -/
def head1ii (f : Str) (a b : Int) : Option Un :=
  if f = "ClampInt".toList then some (.clampInt a b)
  else if f = "DiffClampInt".toList then some (.diffClampInt a b)
  else if f = "Extract".toList ∧ 0 ≤ a ∧ 0 ≤ b then some (.extract a.toNat b.toNat)
  else if f = "ExtractT".toList ∧ 0 ≤ a ∧ 0 ≤ b then some (.extractT a.toNat b.toNat)
  else if f = "ElemT".toList ∧ 0 ≤ a then some (.elemT a.toNat b)
  else none

/-- The expression `F(t)`. -/
def Head1.term : Head1 → Term → Term
  | .op o, t => .un o t
  | .sqNorm2, t => .sqNorm2 t
  | .norm2, t => .norm2 t
  | .normalize, t => .normalize t

/-- The expression `F(t,u)`. -/
def Head2.term : Head2 → Term → Term → Term
  | .op o, t, u => .bin o t u
  | .sqDist, t, u => .sqDist t u
  | .sqNormIso, t, u => .sqNormIso t u
  | .sqNormDiag, t, u => .sqNormDiag t u
  | .symSqNorm, t, u => .symSqNorm t u
  | .weightedSqNorm, t, u => .weightedSqNorm t u

/-- The expression `F(t,u,v)`. -/
def Head3.term : Head3 → Term → Term → Term → Term
  | .op o, t, u, v => .tern o t u v
  | .weightedSqDist, t, u, v => .weightedSqDist t u v

/-- The call `f(args)`. `GetReduction.py:33`; `Var.py:25`, `IntCst.py:30`, `Zero.py:13`, `RatCst.py:31`,
`IntInv.py:5`. -/
def call (f : Str) : List PArg → Option Term
  | [.term t] => (find table1 f).map (·.term t)
  | [.term t, .num m] => (head1i f m).map (.un · t)
  | [.term t, .num a, .num b] => (head1ii f a b).map (.un · t)
  | [.term t, .term u] => (find table2 f).map (·.term t u)
  | [.term t, .term u, .term v] => (find table3 f).map (·.term t u v)
  | [.num n] =>
    if f = "IntCst".toList then some (.int n)
    else if f = "Zero".toList ∧ 0 ≤ n then some (.zero n.toNat)
    else if f = "IntInv".toList then some (.intInv n)
    else none
  | [.num p, .num q] => if f = "RatCst".toList then some (.rat p q) else none
  | [.num i, .num d, .num c] => if f = "Var".toList ∧ 0 ≤ d then some (.var i d.toNat c) else none
  | _ => none

/-- `(t o u)`. `formulas/Operation.py:118-216`. -/
def infix' (o : Str) (t u : Term) : Option Term :=
  (find tableOp o).map (fun e => if e.2 then .bin e.1 u t else .bin e.1 t u)

/-- The characters of a name. -/
def nameChar (c : Char) : Bool := c.isAlpha || c.isDigit || c == '_'

/-- An integer at the beginning of a text, and the rest. -/
def parseInt (s : Str) : Option (Int × Str) :=
  match s with
  | '-' :: s => (Alias.toInt (Alias.digits s).1).map (fun n => (-(n : Int), (Alias.digits s).2))
  | s => (Alias.toInt (Alias.digits s).1).map (fun n => ((n : Int), (Alias.digits s).2))

/-- The text after `c`. -/
def expect (c : Char) : Str → Option Str
  | d :: s => if d = c then some s else none
  | [] => none

mutual

/-- A formula at the beginning of a text, and the rest. `GetReduction.py:33`. -/
def parseE : (fuel : Nat) → Str → Option (Term × Str)
  | 0, _ => none
  | n + 1, s =>
    match s with
    | '(' :: s =>
      (parseE n s).bind fun a =>
      (expect ' ' a.2).bind fun r =>
      (parseE n ((r.dropWhile (· ≠ ' ')).drop 1)).bind fun b =>
      (expect ')' b.2).bind fun s' =>
      (infix' (r.takeWhile (· ≠ ' ')) a.1 b.1).map fun t => (t, s')
    | s =>
      (expect '(' (s.dropWhile nameChar)).bind fun r =>
      (parseArgs n r).bind fun a =>
      (call (s.takeWhile nameChar) a.1).map fun t => (t, a.2)

/-- The arguments of a call, up to the closing parenthesis, and the rest. `GetReduction.py:33`. -/
def parseArgs : (fuel : Nat) → Str → Option (List PArg × Str)
  | 0, _ => none
  | n + 1, s =>
    ((parseInt s).elim ((parseE n s).map fun a => (PArg.term a.1, a.2)) fun a => some (PArg.num a.1, a.2)).bind
      fun (a : PArg × Str) =>
        match a.2 with
        | ')' :: r => some ([a.1], r)
        | ',' :: ' ' :: r => (parseArgs n r).map fun (b : List PArg × Str) => (a.1 :: b.1, b.2)
        | ',' :: r => (parseArgs n r).map fun (b : List PArg × Str) => (a.1 :: b.1, b.2)
        | _ => none

end

/-- The formula written in a text. `GetReduction.py:33`. -/
def parse (s : Str) : Option Term :=
  match parseE (s.length + 1) s with
  | some (t, []) => some t
  | _ => none

/-- The text of a reduction: the name of its class and its arguments. `GetReduction.py:33`. -/
def parseRed (s : Str) : Option (Str × List PArg) :=
  (expect '(' (s.dropWhile nameChar)).bind fun r =>
  match parseArgs (s.length + 1) r with
  | some (a, []) => some (s.takeWhile nameChar, a)
  | _ => none

end Verif.Parse
