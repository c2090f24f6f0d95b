import Mathlib.Algebra.BigOperators.Group.Finset.Basic
import Mathlib.Algebra.Ring.Defs

/-!
# Specification of lazy tensors

Programs over lazy tensors, the expressions they denote, the values of these expressions and NumPy's rules
for shapes.
-/

namespace Verif.Spec

/-- The tests on dimensions of a binary operation. `common/lazy_tensor.py:472,484-485`. -/
inductive DimCheck | same | sameor1 | vecand1 | any
deriving DecidableEq

/-- A program of a user of lazy tensors.

* `array id src shape axis`: an array; `id` is the identity of the Python object that holds the data in the
  lazy tensor (an array or a view of it) and `src` names its contents: two views of an array have the same
  `src`;
* `params id src len`: a list of `len` numbers;
* `int s`: an integer, written `s`;
* `symb ind dim cat`: a symbolic variable;
* `unary`, `binary`, `ternary`: the operations; `opts` and `opt` are additional arguments;
* `deriv op dimres check v x e`: `x.grad(v,e)` and `x.diff(v,e)`;
* `t fresh x`: transposition; `fresh k` is the identity of the view of the `k`-th array of `x` that it makes.
-/
inductive LExpr
  | array (id src : Nat) (shape : List Nat) (axis : Option Nat)
  | params (id src len : Nat)
  | int (s : List Char)
  | symb (ind dim cat : Nat)
  | unary (op : List Char) (dimres : Option Nat) (opts : List (List Char)) (x : LExpr)
  | binary (op : List Char) (isOp : Bool) (dimres : Option Nat) (check : DimCheck)
      (opt : Option (List Char)) (rversion : Bool) (x y : LExpr)
  | deriv (op : List Char) (dimres : Option Nat) (check : DimCheck) (v x e : LExpr)
  | ternary (op : List Char) (dimres : Option Nat) (check : DimCheck) (x y z : LExpr)
  | t (fresh : Nat → Nat) (x : LExpr)

/-- Expressions over arrays `A`. A leaf is an array, read at row `i` (`cat = 0`), at row `j` (`cat = 1`) or as
a vector of parameters (`cat = 2`). An operation is given by the text around its operands. -/
inductive LTree (A : Type)
  | leaf (a : A) (dim cat : Nat)
  | symb (ind dim cat : Nat)
  | const (s : List Char)
  | un (pre post : List Char) (x : LTree A)
  | bin (pre mid post : List Char) (x y : LTree A)
  | ter (pre mid₁ mid₂ post : List Char) (x y z : LTree A)

namespace LTree
variable {A B : Type}

/-- Renames the arrays. -/
def map (f : A → B) : LTree A → LTree B
  | leaf a d c => leaf (f a) d c
  | symb i d c => symb i d c
  | const s => const s
  | un p q x => un p q (x.map f)
  | bin p m q x y => bin p m q (x.map f) (y.map f)
  | ter p m n q x y z => ter p m n q (x.map f) (y.map f) (z.map f)

/-- Exchanges the categories 0 and 1. -/
def swapCat (c : Nat) : Nat := if c = 0 then 1 else if c = 1 then 0 else c

/-- Exchanges the roles of `i` and `j`. -/
def swap : LTree A → LTree A
  | leaf a d c => leaf a d (swapCat c)
  | symb i d c => symb i d (swapCat c)
  | const s => const s
  | un p q x => un p q x.swap
  | bin p m q x y => bin p m q x.swap y.swap
  | ter p m n q x y z => ter p m n q x.swap y.swap z.swap

/-- The leaves: array, dimension and category. -/
def leaves : LTree A → List (A × Nat × Nat)
  | leaf a d c => [(a, d, c)]
  | symb _ _ _ => []
  | const _ => []
  | un _ _ x => x.leaves
  | bin _ _ _ x y => x.leaves ++ y.leaves
  | ter _ _ _ _ x y z => x.leaves ++ y.leaves ++ z.leaves

/-- The indices of the symbolic variables. -/
def symbs : LTree A → List Nat
  | leaf _ _ _ => []
  | symb i _ _ => [i]
  | const _ => []
  | un _ _ x => x.symbs
  | bin _ _ _ x y => x.symbs ++ y.symbs
  | ter _ _ _ _ x y z => x.symbs ++ y.symbs ++ z.symbs

/-- The formula, when the array `a` is the argument number `pos a` of the routine. -/
def text (pos : A → Nat) : LTree A → List Char
  | leaf a d c => "Var(".toList ++ Nat.toDigits 10 (pos a) ++ ',' :: Nat.toDigits 10 d ++ ',' ::
      Nat.toDigits 10 c ++ [')']
  | symb i d c => "Var(".toList ++ Nat.toDigits 10 i ++ ',' :: Nat.toDigits 10 d ++ ',' ::
      Nat.toDigits 10 c ++ [')']
  | const s => s
  | un p q x => p ++ x.text pos ++ q
  | bin p m q x y => p ++ x.text pos ++ m ++ y.text pos ++ q
  | ter p m n q x y z => p ++ x.text pos ++ m ++ y.text pos ++ n ++ z.text pos ++ q

end LTree

/-- The category of an array: given by `axis` up to two dimensions (2 by default), by the place of the dummy
dimensions otherwise. Docstring of the constructor, `common/lazy_tensor.py:71-80`. -/
def arrayCat (shape : List Nat) (axis : Option Nat) : Nat :=
  if shape.length < 3 then axis.getD 2
  else if shape.getD (shape.length - 3) 0 ≠ 1 then 0
  else if shape.getD (shape.length - 2) 0 ≠ 1 then 1
  else 2

/-- The text between the operands, and after them, of an operation. -/
def optText (sep : List Char) (opts : List (List Char)) : List Char :=
  opts.flatMap (fun o => sep ++ o) ++ [')']

/-- The expression denoted by a program: its leaves are the contents of the arrays. -/
def LExpr.tree : LExpr → LTree Nat
  | array _ src shape axis => .leaf src (shape.getLastD 1) (arrayCat shape axis)
  | params _ src len => .leaf src len 2
  | int s => .const ("IntCst(".toList ++ s ++ [')'])
  | symb i d c => .symb i d c
  | unary op _ opts x => .un (op ++ ['(']) (optText [','] opts) x.tree
  | binary op isOp _ _ opt rversion x y =>
    let l := if rversion then y.tree else x.tree
    let r := if rversion then x.tree else y.tree
    if isOp then .bin ['('] (' ' :: op ++ [' ']) [')'] l r
    else .bin (op ++ ['(']) [',', ' '] (optText [',', ' '] opt.toList) l r
  | deriv op _ _ v x e => .ter (op ++ ['(']) [',', ' '] [',', ' '] [')'] x.tree v.tree e.tree
  | ternary op _ _ x y z => .ter (op ++ ['(']) [',', ' '] [',', ' '] [')'] x.tree y.tree z.tree
  | t _ x => x.tree.swap

/-- An argument passed to the routine: identity of the object, name of its contents, shape. -/
structure Arg where
  id : Nat
  src : Nat
  shape : List Nat

/-- The expressions `Ts`, whose leaves are positions in the list `args`, stand for the expressions `Us` over the
data: the leaf written at a position is the array that is passed there. Then an object is passed at most once, every
argument is used, each argument has a single dimension and category in the expressions, the ones in which it is
declared, and its shape has at least `nb` batch dimensions in front of `(rows, dim)` or `(dim)`. -/
structure Stands (nb : Nat) (args : List Arg) (Us Ts : List (LTree Nat)) : Prop where
  data : Ts.map (LTree.map (fun p => args[p]?.map Arg.src)) = Us.map (LTree.map some)
  once : (args.map Arg.id).Nodup
  used : ∀ p < args.length, ∃ d c, (p, d, c) ∈ Ts.flatMap LTree.leaves
  single : ∀ p d c d' c', (p, d, c) ∈ Ts.flatMap LTree.leaves → (p, d', c') ∈ Ts.flatMap LTree.leaves →
    d = d' ∧ c = c'
  shape : ∀ p d c, (p, d, c) ∈ Ts.flatMap LTree.leaves → ∃ a, args[p]? = some a ∧ a.shape.getLastD 1 = d ∧
    nb + (if c = 0 ∨ c = 1 then 2 else 1) ≤ a.shape.length

/-- A text (name of an operation, additional argument) in which no variable begins: without its spaces it does not
contain `Va` and does not end with `V`. -/
def PlainText (s : List Char) : Prop :=
  ¬ ['V', 'a'] <:+: s.filter (· ≠ ' ') ∧ (s.filter (· ≠ ' ')).getLast? ≠ some 'V'

/-! ## Shapes -/

/-- NumPy's rule, on shapes written from the last dimension to the first one: a missing dimension counts as 1;
two dimensions are compatible if they are equal or if one of them is 1, which is then stretched. -/
def broadcastRev : List Nat → List Nat → Option (List Nat)
  | [], t => some t
  | s, [] => some s
  | a :: s, b :: t =>
    if a = b ∨ b = 1 then (broadcastRev s t).map (a :: ·)
    else if a = 1 then (broadcastRev s t).map (b :: ·)
    else none

/-- The shape of the result of a NumPy operation between arrays of shapes `s` and `t`; `none` if it is
rejected. -/
def broadcast (s t : List Nat) : Option (List Nat) := (broadcastRev s.reverse t.reverse).map List.reverse

/-! ## Values -/

/-- An array: its shape and the entry of each multi-index. -/
structure Arr (V : Type) where
  shape : List Nat
  get : List Nat → V

/-- The multi-index read in an array of shape `shape` when the index is `idx` in the broadcast shape: dimensions
are aligned on the right and an index along a dimension 1 is 0. -/
def clip (shape idx : List Nat) : List Nat :=
  List.zipWith (fun n k => if n = 1 then 0 else k) shape (idx.drop (idx.length - shape.length))

namespace Arr
variable {V : Type}

/-- The entry read at the index `idx` of the broadcast shape. -/
def at' (a : Arr V) (idx : List Nat) : V := a.get (clip a.shape idx)

/-- NumPy's product. -/
def mul [Mul V] (a b : Arr V) : Option (Arr V) :=
  (broadcast a.shape b.shape).map (fun s => ⟨s, fun idx => a.at' idx * b.at' idx⟩)

/-- `idx` is an index of the array. -/
def Idx (shape idx : List Nat) : Prop := List.Forall₂ (fun n k => k < n) shape idx

/-- Same shape and same entries. -/
def Same (a b : Arr V) : Prop := a.shape = b.shape ∧ ∀ idx, Idx a.shape idx → a.get idx = b.get idx

end Arr

/-- What the operations compute on vectors, given the text around their operands. -/
structure Interp (V : Type) where
  const : List Char → List V
  symb : Nat → List Nat → Nat → List V
  un : List Char → List Char → List V → List V
  bin : List Char → List Char → List Char → List V → List V → List V
  ter : List Char → List Char → List Char → List Char → List V → List V → List V → List V

/-- Product of two vectors of the same dimension, or of a vector and a scalar. -/
def mulVec {V : Type} [Mul V] (a b : List V) : List V :=
  match a, b with
  | [x], b => b.map (x * ·)
  | a, [y] => a.map (· * y)
  | a, b => List.zipWith (· * ·) a b

/-- The vector at index `i`, `j` and batch index `b` of an expression over arrays. -/
def LTree.den {V : Type} (I : Interp V) (data : Nat → Arr V) :
    LTree Nat → List Nat → Nat → Nat → List V
  | .leaf s d c, b, i, j => (List.range d).map (fun k => (data s).at'
      (b ++ if c = 0 then [i, k] else if c = 1 then [j, k] else [k]))
  | .symb n _ c, b, i, j => I.symb n b (if c = 0 then i else if c = 1 then j else 0)
  | .const s, _, _, _ => I.const s
  | .un p q x, b, i, j => I.un p q (x.den I data b i j)
  | .bin p m q x y, b, i, j => I.bin p m q (x.den I data b i j) (y.den I data b i j)
  | .ter p m n q x y z, b, i, j =>
    I.ter p m n q (x.den I data b i j) (y.den I data b i j) (z.den I data b i j)

/-- The sum of an expression over `i` (`a = 0`) or over `j` (`a = 1`), for `M` values of `i`, `N` values of `j` and a
vector of dimension `D`: an array of shape `(batch, N, D)` or `(batch, M, D)`. -/
def LTree.sumArr {V : Type} [AddCommMonoid V] (I : Interp V) (data : Nat → Arr V) (T : LTree Nat) (a : Nat)
    (batch : List Nat) (M N D : Nat) : Arr V where
  shape := batch ++ [if a = 0 then N else M, D]
  get idx :=
    let b := idx.take (idx.length - 2)
    let r := idx.getD (idx.length - 2) 0
    let k := idx.getD (idx.length - 1) 0
    ∑ s ∈ Finset.range (if a = 0 then M else N),
      (if a = 0 then T.den I data b s r else T.den I data b r s).getD k 0

end Verif.Spec
