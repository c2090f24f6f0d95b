import Verif.Spec.Lazy
import Verif.Model.Aliases

/-!
# Lazy tensors

Models of `pykeops/common/lazy_tensor.py`: constructor, `fixvariables`, `promote`, `join`, `unary`, `binary`,
`ternary`, `reduction`, `sum`, `t`, and of `check_broadcasting` in `pykeops/common/utils.py`.

Exceptions are `none`.  The attributes `_dtype`, `tools`, `Genred`, `KernelSolve`, `ranges` and `backend` are not
modelled (they are supposed to be the same for all operands; `ranges` is in `Model/Cluster.lean`), nor are the
fields `reduction_op` and `is_complex`.
-/

namespace Verif.Lazy
open Alias (Str)
open Spec (DimCheck LExpr)

/-! ## Strings -/

/-- `str(n)`. -/
def num (n : Nat) : Str := Nat.toDigits 10 n

/-- Substitution of the leftmost, non overlapping matches of `m`, which gives the replacement of a match at the
beginning of a string and its (nonzero) length. `re.sub` and `str.replace`,
`common/lazy_tensor.py:294-295,320-325,2557-2565`. The first argument is the number of characters of the
current match still to be skipped. -/
def subAll (m : Str → Option (Str × Nat)) : Nat → Str → Str
  | _, [] => []
  | k + 1, _ :: t => subAll m k t
  | 0, c :: t =>
    match m (c :: t) with
    | some (out, len) => out ++ subAll m (len - 1) t
    | none => c :: subAll m 0 t

/-- `s.replace(old, new)`, `common/lazy_tensor.py:294-295,320-325`. -/
def replaceStr (old new s : Str) : Str :=
  subAll (fun u => if old.isPrefixOf u then some (new, old.length) else none) 0 s

/-- `re.search`: the first match. `common/lazy_tensor.py:302-304`. -/
def search {α : Type} (m : Str → Option α) : Str → Option α
  | [] => none
  | c :: t =>
    match m (c :: t) with
    | some a => some a
    | none => search m t

/-- `tag in s`, `common/lazy_tensor.py:293`. -/
def inStr (tag s : Str) : Bool :=
  (search (fun u => if tag.isPrefixOf u then some () else none) s).isSome

/-- `"Var({},{},{})".format(a, b, c)`, `common/lazy_tensor.py:135,163,233,252`. -/
def formatVar (head : Str) (a b : Nat) (c : Str) : Str :=
  head ++ '(' :: num a ++ ',' :: num b ++ ',' :: c ++ [')']

/-- `u`, if `s = p ++ u`. -/
def dropPre (p s : Str) : Option Str := if p.isPrefixOf s then some (s.drop p.length) else none

/-- `(Var|VarSymb)\(` at the beginning of `s`: the group and the rest. `common/lazy_tensor.py:2558`. -/
def matchHead (s : Str) : Option (Str × Str) :=
  match dropPre "Var(".toList s with
  | some r => some ("Var".toList, r)
  | none => (dropPre "VarSymb(".toList s).map (fun r => ("VarSymb".toList, r))

/-- `(\d+),` at the beginning of `s`: the group and the rest. `common/lazy_tensor.py:2558`. -/
def matchNum (s : Str) : Option (Str × Str) :=
  let d := Alias.digits s
  match d.1, d.2 with
  | [], _ => none
  | g, ',' :: r => some (g, r)
  | _, _ => none

/-- `r"(Var|VarSymb)\((\d+),(\d+),{c}\)"` at the beginning of `s`, replaced by `r"\1(\2,\3,{c'})"`: the
replacement and the length of the match. `common/lazy_tensor.py:2557-2565`. -/
def matchCat (c c' : Str) (s : Str) : Option (Str × Nat) := do
  let h ← matchHead s
  let a ← matchNum h.2
  let b ← matchNum a.2
  let r ← dropPre (c ++ [')']) b.2
  pure (h.1 ++ '(' :: a.1 ++ ',' :: b.1 ++ ',' :: c' ++ [')'], s.length - r.length)

/-- `r"(Var|VarSymb)\({x},(\d+),(\d+)\)"` at the beginning of `s`, replaced by `r"\1({y},\2,\3)"`: the replacement
and the length of the match. `common/lazy_tensor.py:2589-2593`. -/
def matchId (x y : Nat) (s : Str) : Option (Str × Nat) := do
  let h ← matchHead s
  let u ← dropPre (num x ++ [',']) h.2
  let b ← matchNum u
  let d := Alias.digits b.2
  if d.1 = [] then none
  else
    let r ← dropPre [')'] d.2
    pure (h.1 ++ '(' :: num y ++ ',' :: b.1 ++ ',' :: d.1 ++ [')'], s.length - r.length)

/-- `r"Var\({i},\d+,([012])\)"` at the beginning of `s`: the group. `common/lazy_tensor.py:302-304`. -/
def matchVarCat (i : Nat) (s : Str) : Option Char := do
  let u ← dropPre ("Var(".toList ++ num i ++ [',']) s
  let b ← matchNum u
  match b.2 with
  | c :: ')' :: _ => if c = '0' ∨ c = '1' ∨ c = '2' then some c else none
  | _ => none

/-! ## Lazy tensors -/

/-- An entry of `variables`: a list of numbers or an array; `id` is its Python identity, `src` names its contents.
`common/lazy_tensor.py:160,230,249`. The field `cat` is not in the code and no function of the model reads it: it
records the category with which the object is declared, so that "two objects with the same identity are the same
object" can be said. -/
structure LTensor where
  id : Nat
  src : Nat
  shape : List Nat
  isList : Bool
  cat : Nat
deriving DecidableEq

/-- The attributes of a lazy tensor. `common/lazy_tensor.py:48-63`. -/
structure LazyT where
  formula : Str
  tensors : List LTensor
  symb : List (Nat × Nat × Nat)
  ndim : Nat
  axis : Option Nat
  ni : Option Nat
  nj : Option Nat
  batchdims : Option (List Nat)
deriving DecidableEq

/-- `nbatchdims`, `common/lazy_tensor.py:1017-1019`. -/
def LazyT.nbatchdims (L : LazyT) : Nat := (L.batchdims.getD []).length

/-- `_shape`, `common/lazy_tensor.py:993-1000`. -/
def LazyT.shape (L : LazyT) : List Nat := L.batchdims.getD [] ++ [L.ni.getD 1, L.nj.getD 1, L.ndim]

/-- Stage 4 of the constructor: the array is stored. `common/lazy_tensor.py:214-252`. -/
def mkVar (id src : Nat) (shape : List Nat) (cat : Nat) (batchdims : Option (List Nat)) : LazyT where
  formula := formatVar "Var".toList id (shape.getLastD 1) (num cat)
  tensors := [⟨id, src, shape, false, cat⟩]
  symb := []
  ndim := shape.getLastD 1
  axis := some cat
  ni := if cat = 0 then some (shape.getD (shape.length - 2) 0) else none
  nj := if cat = 1 then some (shape.getD (shape.length - 2) 0) else none
  batchdims := batchdims

/-- `LazyTensor(x, axis)` for an array, `common/lazy_tensor.py:181-258`. `id` is the identity of the object that
is stored: the array, or the view made by `squeeze` or `view`. -/
def mkArray (id src : Nat) (shape : List Nat) (axis : Option Nat) : Option LazyT :=
  if shape = [] then
    if axis ≠ none ∧ axis ≠ some 2 then none else some (mkVar id src [1] 2 none)
  else
    let n := shape.length
    if 3 ≤ n then
      if axis ≠ none then none
      else
        let b := shape.take (n - 3)
        let bd := if 3 < n then some b else none
        let d := shape.getLastD 1
        if shape.getD (n - 3) 0 = 1 then
          if shape.getD (n - 2) 0 = 1 then some (mkVar id src (b ++ [d]) 2 bd)
          else some (mkVar id src (b ++ [shape.getD (n - 2) 0, d]) 1 bd)
        else if shape.getD (n - 2) 0 = 1 then some (mkVar id src (b ++ [shape.getD (n - 3) 0, d]) 0 bd)
        else none
    else if n = 2 ∧ axis ≠ some 2 then
      if axis = some 0 then some (mkVar id src shape 0 none)
      else if axis = some 1 then some (mkVar id src shape 1 none)
      else none
    else if axis ≠ none ∧ axis ≠ some 2 then none
    else some (mkVar id src shape 2 none)

/-- `LazyTensor(x)` for a list of `len` numbers, `common/lazy_tensor.py:151-164`. Its shape is the one of the
array made by `fixvariables`, `common/lazy_tensor.py:288-289` (`_dtype` is not `None` there). -/
def mkParams (id src len : Nat) : LazyT where
  formula := formatVar "Var".toList id len (num 2)
  tensors := [⟨id, src, [len], true, 2⟩]
  symb := []
  ndim := len
  axis := some 2
  ni := none
  nj := none
  batchdims := none

/-- `LazyTensor(x)` for an integer, written `s`, `common/lazy_tensor.py:138-143`. -/
def mkInt (s : Str) : LazyT where
  formula := "IntCst(".toList ++ s ++ [')']
  tensors := []
  symb := []
  ndim := 1
  axis := some 2
  ni := none
  nj := none
  batchdims := none

/-- `LazyTensor((ind,dim,cat))`, `common/lazy_tensor.py:115-136`. -/
def mkSymb (ind dim cat : Nat) : LazyT where
  formula := formatVar "VarSymb".toList ind dim (num cat)
  tensors := []
  symb := [(ind, dim, cat)]
  ndim := dim
  axis := some cat
  ni := none
  nj := none
  batchdims := none

/-! ## Operations -/

/-- `promote` for one attribute, `common/lazy_tensor.py:361-381`. -/
def promote (x y : Option Nat) : Option (Option Nat) :=
  match x, y with
  | some a, some b => if a = b then some (some a) else none
  | none, y => some y
  | x, none => some x

/-- `check_broadcasting`, `common/utils.py:73-95`. -/
def checkBroadcasting (d₁ d₂ : Option (List Nat)) : Option (Option (List Nat)) :=
  match d₁, d₂ with
  | none, d => some d
  | d, none => some d
  | some a, some b =>
    let p := List.replicate (b.length - a.length) 1 ++ a
    let q := List.replicate (a.length - b.length) 1 ++ b
    if (List.zip p q).any (fun (x, y) => x ≠ 1 ∧ y ≠ 1 ∧ x ≠ y) then none
    else some (some (List.zipWith max p q))

/-- `join`, `common/lazy_tensor.py:402-428`. The formula, `ndim` and `axis` are those of a new lazy tensor
(`None`). -/
def join (x y : LazyT) : Option LazyT := do
  let ni ← promote x.ni y.ni
  let nj ← promote x.nj y.nj
  let b ← checkBroadcasting x.batchdims y.batchdims
  pure { formula := [], tensors := x.tensors ++ y.tensors, symb := x.symb ++ y.symb, ndim := 0,
         axis := none, ni := ni, nj := nj, batchdims := b }

/-- `if not dimres: dimres = default`, `common/lazy_tensor.py:451-452,504-505,600-601`. -/
def dimOr (dimres : Option Nat) (default : Nat) : Nat :=
  match dimres with
  | none => default
  | some 0 => default
  | some d => d

/-- The additional arguments and the closing parenthesis. `common/lazy_tensor.py:455-462,550-562`. -/
def closing (sep : Str) (opts : List Str) : Str := opts.flatMap (fun o => sep ++ o) ++ [')']

/-- `unary`, `common/lazy_tensor.py:432-464`. -/
def unary (op : Str) (dimres : Option Nat) (opts : List Str) (x : LazyT) : LazyT :=
  { x with
    formula := op ++ '(' :: x.formula ++ closing [','] opts
    ndim := dimOr dimres x.ndim
    axis := none }

/-- The tests on dimensions of `binary`, `common/lazy_tensor.py:507-535`. -/
def checkDims (check : DimCheck) (d d' : Nat) : Bool :=
  match check with
  | .same => d = d'
  | .sameor1 => d = d' ∨ d = 1 ∨ d' = 1
  | .vecand1 => d' = 1
  | .any => true

/-- `binary`, `common/lazy_tensor.py:466-567`, with `opt_pos="last"` and `opt_arg` a string or `None`. -/
def binary (op : Str) (isOp : Bool) (dimres : Option Nat) (check : DimCheck) (opt : Option Str)
    (rversion : Bool) (x y : LazyT) : Option LazyT :=
  let dim := dimOr dimres (max x.ndim y.ndim)
  if ¬ checkDims check x.ndim y.ndim then none
  else
    (join x y).map (fun res =>
      let l := if rversion then y.formula else x.formula
      let r := if rversion then x.formula else y.formula
      { res with
        ndim := dim
        formula :=
          if isOp then '(' :: l ++ ' ' :: op ++ ' ' :: r ++ [')']
          else op ++ '(' :: l ++ ',' :: ' ' :: r ++ closing [',', ' '] opt.toList })

/-- `binary` with `opt_arg` a lazy tensor `v` and `opt_pos="middle"`, `common/lazy_tensor.py:466-567`, called by
`grad` and `diff`, `common/lazy_tensor.py:1917-1956`: the variables of `v` are not joined. -/
def deriv (op : Str) (dimres : Option Nat) (check : DimCheck) (v x e : LazyT) : Option LazyT :=
  let dim := dimOr dimres (max x.ndim e.ndim)
  if ¬ checkDims check x.ndim e.ndim then none
  else
    (join x e).map (fun res =>
      { res with
        ndim := dim
        formula := op ++ '(' :: x.formula ++ ',' :: ' ' :: v.formula ++ ',' :: ' ' :: e.formula ++ [')'] })

/-- `same_or_one_test`, `common/lazy_tensor.py:12-14`. -/
def sameOrOne (ds : List Nat) : Bool := (ds ++ [1]).dedup.length ≤ 2

/-- The tests on dimensions of `ternary`, `common/lazy_tensor.py:603-626`. -/
def checkDims3 (check : DimCheck) (d d' d'' : Nat) : Option Bool :=
  match check with
  | .same => some (d = d' ∧ d = d'')
  | .sameor1 => some (sameOrOne [d, d', d''])
  | .vecand1 => none
  | .any => some true

/-- `ternary`, `common/lazy_tensor.py:569-644`, without `opt_arg`. -/
def ternary (op : Str) (dimres : Option Nat) (check : DimCheck) (x y z : LazyT) : Option LazyT :=
  let dim := dimOr dimres (max (max x.ndim y.ndim) z.ndim)
  match checkDims3 check x.ndim y.ndim z.ndim with
  | some true =>
    ((join y z).bind (join x)).map (fun res =>
      { res with
        ndim := dim
        formula := op ++ '(' :: x.formula ++ ',' :: ' ' :: y.formula ++ ',' :: ' ' :: z.formula ++ [')'] })
  | _ => none

/-- The three substitutions that exchange the categories, `common/lazy_tensor.py:2556-2565`. -/
def swapCats (f : Str) : Str :=
  subAll (matchCat ['i'] ['1']) 0 (subAll (matchCat ['1'] ['0']) 0 (subAll (matchCat ['0'] ['i']) 0 f))

/-- The view of the `k`-th variable made by `t`; lists are kept. `common/lazy_tensor.py:2580-2586`. -/
def viewOf (fresh : Nat → Nat) (k : Nat) (x : LTensor) : LTensor :=
  if x.isList then x else { x with id := fresh k, cat := Spec.LTree.swapCat x.cat }

/-- The loop over the variables of `t`, from the `k`-th one, `common/lazy_tensor.py:2579-2600`. -/
def renameIds (fresh : Nat → Nat) : (k : Nat) → List LTensor → Str → Str
  | _, [], f => f
  | k, x :: xs, f =>
    renameIds fresh (k + 1) xs
      (if x.isList then f else subAll (matchId x.id (fresh k)) 0 f)

/-- `t`, `common/lazy_tensor.py:2529-2601`, for a lazy tensor that is not the output of a reduction
(`formula2` is `None`). `fresh k` is the identity of the view of the `k`-th variable. -/
def transpose (fresh : Nat → Nat) (x : LazyT) : LazyT :=
  { x with
    formula := renameIds fresh 0 x.tensors (swapCats x.formula)
    tensors := x.tensors.mapIdx (viewOf fresh)
    ni := x.nj
    nj := x.ni
    axis := if x.axis = some 0 then some 1 else if x.axis = some 1 then some 0 else x.axis }

/-- The lazy tensor built by a program. -/
def eval : LExpr → Option LazyT
  | .array id src shape axis => mkArray id src shape axis
  | .params id src len => some (mkParams id src len)
  | .int s => some (mkInt s)
  | .symb i d c => some (mkSymb i d c)
  | .unary op dimres opts x => (eval x).map (unary op dimres opts)
  | .binary op isOp dimres check opt rversion x y =>
    (eval x).bind (fun x => (eval y).bind (fun y => binary op isOp dimres check opt rversion x y))
  | .deriv op dimres check v x e =>
    (eval v).bind (fun v => (eval x).bind (fun x => (eval e).bind (fun e => deriv op dimres check v x e)))
  | .ternary op dimres check x y z =>
    (eval x).bind (fun x => (eval y).bind (fun y => (eval z).bind (fun z => ternary op dimres check x y z)))
  | .t fresh x => (eval x).map (transpose fresh)

/-! ## Reductions -/

/-- `new_variable_index`, `common/lazy_tensor.py:270-272`. -/
def newIndex (symb : List (Nat × Nat × Nat)) : Nat :=
  if symb = [] then 0 else 1 + (symb.map (fun v => v.1)).foldl max 0

/-- The local variables of `fixvariables`. `common/lazy_tensor.py:274-328`. -/
structure Fix where
  f : Str
  f2 : Str
  vars : List LTensor
  i : Nat

/-- One iteration of the loop of `fixvariables`, `common/lazy_tensor.py:286-316`; `nb` is `nbatchdims`. If the
search fails, `.group(1)` raises an exception. The label `rec_multVar_highdim` is not modelled. -/
def fixStep (nb : Nat) (s : Fix) (v : LTensor) : Option Fix :=
  let tag := "Var(".toList ++ num v.id ++ [',']
  if inStr tag (s.f ++ s.f2) then
    let new := "Var(".toList ++ num s.i ++ [',']
    let f := replaceStr tag new s.f
    let f2 := replaceStr tag new s.f2
    (search (matchVarCat s.i) (f ++ f2)).map (fun c =>
      let isVar := if c = '0' ∨ c = '1' then 1 else 0
      let pad := nb + 1 + isVar - v.shape.length
      { f := f, f2 := f2, vars := s.vars ++ [{ v with shape := List.replicate pad 1 ++ v.shape }],
        i := s.i + 1 })
  else some s

/-- The loop of `fixvariables`, `common/lazy_tensor.py:286-316`. -/
def fixLoop (nb : Nat) : List LTensor → Fix → Option Fix
  | [], s => some s
  | v :: vs, s => (fixStep nb s v).bind (fixLoop nb vs)

/-- `fixvariables`, `common/lazy_tensor.py:274-328`: the new formulas and variables. The formula `formula2` is the
empty string if there is none. -/
def fixvariables (L : LazyT) (formula2 : Str) : Option (Str × Str × List LTensor) :=
  (fixLoop L.nbatchdims L.tensors ⟨L.formula, formula2, [], newIndex L.symb⟩).map (fun s =>
    (replaceStr "VarSymb(".toList "Var(".toList s.f, replaceStr "VarSymb(".toList "Var(".toList s.f2, s.vars))

/-- `reduction` up to the call of `Genred`, `common/lazy_tensor.py:722-773`, for a lazy tensor without the attribute
`rec_multVar_highdim`: the formulas and the variables that will be passed to the routine. -/
def reduction (x : LazyT) (other : Option LazyT) : Option (Str × Str × List LTensor) :=
  match other with
  | none => fixvariables x []
  | some w => (join x w).bind (fun res => fixvariables { res with formula := x.formula } w.formula)

/-- The formula given to `complete_aliases`, `numpy/generic/generic_red.py:169-182`. `opt` is `str(opt_arg)`, empty
if there is none. -/
def genredText (redop f opt : Str) (cat : Nat) (f2 : Str) : Str :=
  redop ++ "_Reduction(".toList ++ f ++ (if opt = [] then [] else ',' :: opt) ++ ',' :: num cat ++
    (if f2 = [] then [] else ',' :: f2) ++ [')']

/-! ## Sums -/

/-- The attribute `rec_multVar_highdim`, set by `binary`, `common/lazy_tensor.py:564-565`, and kept by the copy in
`t`, `common/lazy_tensor.py:2547`; the other operations make a lazy tensor without it. -/
def recOf : LExpr → Option (LExpr × LExpr)
  | .binary op _ _ _ _ _ x y =>
    (eval y).bind (fun Ly =>
      if op = ['*'] ∧ "Var".toList.isPrefixOf Ly.formula ∧ Ly.ndim > 100 then some (x, y) else none)
  | .t _ x => recOf x
  | _ => none

/-- What `sum(axis)` gives: the reduction of a formula along the axis `a` (0 or 1), the product of another result
by an array, or a lazy tensor. -/
inductive SumOut
  | reduced (x : LExpr) (a : Nat)
  | times (o : SumOut) (v : LTensor)
  | lazy

/-- `sum(axis)`, `common/lazy_tensor.py:2072-2096`, and `reduction`, `common/lazy_tensor.py:722-773`, with the
shortcut of `common/lazy_tensor.py:745-758`. `axis = -1` is not modelled. The product of a lazy tensor and an array
is a lazy tensor (or an exception). If the variable is symbolic, `variables[0]` (lines 754 and 758) raises an exception.
That the reduction of a formula with other symbolic variables is not an array is not modelled. The recursion is on
`fuel`; the size of the expression is enough. -/
def sumOut : (fuel : Nat) → LExpr → Nat → Option SumOut
  | 0, _, _ => none
  | fuel + 1, x, axis =>
    (eval x).bind (fun L =>
      if axis = L.shape.length - 1 then some .lazy
      else if axis < L.nbatchdims ∨ L.nbatchdims + 1 < axis then none
      else
        match recOf x with
        | none => some (.reduced x (axis - L.nbatchdims))
        | some (f, v) =>
          (eval v).bind (fun Lv =>
            if Lv.axis ≠ some (axis - L.nbatchdims) then
              (sumOut fuel f axis).bind (fun o =>
                Lv.tensors.head?.map (fun v =>
                  match o with
                  | .lazy => .lazy
                  | o => .times o v))
            else Lv.tensors.head?.map (fun _ => .reduced x (axis - L.nbatchdims))))

open Spec (Arr Interp) in
/-- The array that is returned. A reduction computes the sum of the expression of its program (C09, C26). The product
by `v` is the one of the array library. `common/lazy_tensor.py:752-755`. -/
def SumOut.val {V : Type} [NonUnitalNonAssocSemiring V] (I : Interp V) (data : Nat → Arr V) : SumOut → Option (Arr V)
  | reduced x a => (eval x).map (fun L =>
      x.tree.sumArr I data a (L.batchdims.getD []) (L.ni.getD 1) (L.nj.getD 1) L.ndim)
  | times o v => (o.val I data).bind (fun r => r.mul (data v.src))
  | lazy => none

/-! ## Complex constants -/

/-- A list of numbers whose entries are pairs (real part, imaginary part), and may be unset (`None`).
`common/lazy_tensor.py:2677-2682`. -/
abbrev CList (R : Type) := List (Option (R × R))

/-- The loop of the constructor of complex lazy tensors, `common/lazy_tensor.py:2678-2682`, for `i` in `is`. `x` is
the current value of the variable `x` and `y` the one of `x_`; both are lists of Python numbers, given by their
attributes `real` and `imag` (a real number has imaginary part 0). After the first iteration `x` is the object `x_`:
`same` is true. `none`: `AttributeError` or `IndexError`. -/
def complexLoop {R : Type} [Zero R] : List Nat → (same : Bool) → (x y : CList R) → Option (CList R)
  | [], same, x, y => some (if same then y else x)
  | i :: is, same, x, y =>
    let cur := if same then y else x
    match cur[i]? with
    | some (some v) =>
      let y := y.set (2 * i) (some (v.1, 0))
      let cur := if same then y else x
      match cur[i]? with
      | some (some v) => complexLoop is true x (y.set (2 * i + 1) (some (v.2, 0)))
      | _ => none
    | _ => none

/-- `ComplexLazyTensor(x)` for a list of complex numbers: the list of the numbers that is passed to the constructor of
real lazy tensors (their real parts: they are Python floats). `common/lazy_tensor.py:2672-2686`. -/
def mkComplex {R : Type} [Zero R] (x : List (R × R)) : Option (List R) :=
  (complexLoop (List.range x.length) false (x.map some) (List.replicate (2 * x.length) none)).bind (fun l =>
    l.mapM (fun o => o.map Prod.fst))

end Verif.Lazy
