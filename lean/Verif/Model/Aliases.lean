import Mathlib.Data.List.Infix
import Mathlib.Data.List.Dedup

/-!
# Aliases

Models of `pykeops/common/parse_type.py` (`complete_aliases`, `get_type`), of the treatment of the
aliases in `pykeops/common/keops_io/LoadKeOps.py` and of the dictionary of
`keopscore/formulas/GetReduction.py`.

Strings are lists of characters.  Regular expressions are replaced by parsers without backtracking
that give the same matches: their lazy groups and optional commas leave one way to match each string
(`[0-9]*?,?[0-9]*\)`: digits before a parenthesis go to the second group; with a comma the first
group takes the digits before it).  Exceptions are `none`.
-/

namespace Verif.Alias

/-- Strings. Python's `str`, `common/parse_type.py:71`. -/
abbrev Str := List Char

/-- `s.replace(" ", "")`, `common/parse_type.py:16,94`, `LoadKeOps.py:49`. -/
def strip (s : Str) : Str := s.filter (· ≠ ' ')

/-- `int(s)` for a string of digits; the empty string is a `ValueError`.
`common/parse_type.py:111,121,131`. -/
def toInt (s : Str) : Option Nat :=
  if s = [] ∨ ¬ s.all Char.isDigit then none
  else some (s.foldl (fun n c => 10 * n + (c.toNat - 48)) 0)

/-- `eval(s)`, `LoadKeOps.py:60,62`, restricted to decimal literals: a literal with a leading zero and
another nonzero digit is a `SyntaxError`. Other expressions are not modelled (`none`). -/
def evalInt (s : Str) : Option Nat :=
  if s.head? = some '0' ∧ ¬ s.all (· = '0') then none else toInt s

/-- Longest prefix of digits and the rest: `[0-9]*`. `common/parse_type.py:93`. -/
def digits (s : Str) : Str × Str := (s.takeWhile Char.isDigit, s.dropWhile Char.isDigit)

/-- `([0-9]*?),?([0-9]*)\)` at the beginning of `s`: the two groups. `common/parse_type.py:93,98`. -/
def matchPair (s : Str) : Option (Str × Str) :=
  let d := digits s
  match d.2 with
  | ')' :: _ => some ([], d.1)
  | ',' :: t =>
    let e := digits t
    match e.2 with
    | ')' :: _ => some (d.1, e.1)
    | _ => none
  | _ => none

/-- `(Vi|Vj|Pm)\(` at the beginning of `s`: the category and the rest. `categories`,
`common/parse_type.py:6,93,98`. -/
def matchCat : Str → Option (Nat × Str)
  | 'V' :: 'i' :: '(' :: t => some (0, t)
  | 'V' :: 'j' :: '(' :: t => some (1, t)
  | 'P' :: 'm' :: '(' :: t => some (2, t)
  | _ => none

/-- `[a-zA-Z_]`, `common/parse_type.py:93`. -/
def identStart (c : Char) : Bool := c.isAlpha || c == '_'
/-- `[a-zA-Z_0-9]`, `common/parse_type.py:93`. -/
def identChar (c : Char) : Bool := c.isAlpha || c == '_' || c.isDigit

/-- `([a-zA-Z_][a-zA-Z_0-9]*)=` at the beginning of `s`. `common/parse_type.py:93`. -/
def matchName (s : Str) : Option (Str × Str) :=
  match s with
  | [] => none
  | c :: t =>
    if identStart c then
      match t.dropWhile identChar with
      | '=' :: u => some (c :: t.takeWhile identChar, u)
      | _ => none
    else none

/-- `s.replace("Vx", "Vi")` for `x, y = 'x', 'i'`. `common/parse_type.py:86-87`. -/
def replaceV (x y : Char) : Str → Str
  | [] => []
  | [c] => [c]
  | c :: d :: t => if c = 'V' ∧ d = x then 'V' :: y :: replaceV x y t else c :: replaceV x y (d :: t)

/-- The position given by the first group, or the position in the list.
`common/parse_type.py:114-119,124-129`. -/
def inferPos (g : Str) (k : Nat) : Option Nat := if g ≠ [] then toInt g else some k

/-- A declaration: name, category, dimension, position. Result of `get_type`,
`common/parse_type.py:81,111,121,131`. -/
structure Decl where
  name : Option Str
  cat : Nat
  dim : Nat
  pos : Nat
deriving DecidableEq

/-- `Var\(([0-9]*?),?([0-9]*),?([0-9]*)\)` followed by `int` on the three groups,
`common/parse_type.py:100-111`. If there are less than two commas the first group is empty and `int`
raises. -/
def matchVar3 : Str → Option (Nat × Nat × Nat × Str)
  | 'V' :: 'a' :: 'r' :: '(' :: s =>
    let a := digits s
    match a.2 with
    | ',' :: t =>
      let b := digits t
      match b.2 with
      | ',' :: u =>
        let c := digits u
        match c.2 with
        | ')' :: v => do
          let a ← toInt a.1
          let b ← toInt b.1
          let c ← toInt c.1
          pure (a, b, c, v)
        | _ => none
      | _ => none
    | _ => none
  | _ => none

/-- `get_type(type_str, position_in_list)`, `common/parse_type.py:71-131`. `none` is an
exception. -/
def getType (s : Str) (k : Nat) : Option Decl :=
  let s := strip (replaceV 'y' 'j' (replaceV 'x' 'i' s))
  match (matchName s).bind (fun n => (matchCat n.2).bind (fun c =>
      (matchPair c.2).map (fun g => (n.1, c.1, g)))) with
  | some (n, c, g) => do
    let pos ← inferPos g.1 k
    let dim ← toInt g.2
    pure ⟨some n, c, dim, pos⟩
  | none =>
    match (matchCat s).bind (fun c => (matchPair c.2).map (fun g => (c.1, g))) with
    | some (c, g) => do
      let pos ← inferPos g.1 k
      let dim ← toInt g.2
      pure ⟨none, c, dim, pos⟩
    | none => (matchVar3 s).map (fun v => ⟨none, v.2.2.1, v.2.1, v.1⟩)

/-! ## The loop of `LoadKeOps.init` -/

/-- `s.split(c)`. `LoadKeOps.py:51,58`. -/
def split (c : Char) : Str → List Str
  | [] => [[]]
  | x :: t =>
    if x = c then [] :: split c t
    else match split c t with
      | [] => [[x]]
      | h :: r => (x :: h) :: r

/-- `a in b` on strings. `LoadKeOps.py:52-56`. -/
def contains (b a : Str) : Bool := decide (a <:+: b)

/-- The local variables `cat`, `ind`, `dim` of the loop, which keep their values from one iteration to
the next one (`none`: unbound). `LoadKeOps.py:48-63`. -/
structure Locals where
  cat : Option Nat
  ind : Option Nat
  dim : Option Nat

/-- A binding `varname=Var(ind,dim,cat)`. `LoadKeOps.py:63`. -/
structure Binding where
  name : Str
  ind : Nat
  dim : Nat
  cat : Nat
deriving DecidableEq

/-- One iteration, `LoadKeOps.py:48-64`. -/
def loadAlias (k : Nat) (loc : Locals) (text : Str) : Option (Locals × List Binding) :=
  let al := strip text
  if '=' ∈ al then
    match split '=' al with
    | [varname, var] =>
      let cat :=
        if contains var ['V', 'i'] then some 0
        else if contains var ['V', 'j'] then some 1
        else if contains var ['P', 'm'] then some 2
        else loc.cat
      let args := split ',' (var.drop 3).dropLast
      let ld : Option (Option Nat × Option Nat) :=
        match args with
        | [a] => (evalInt a).map (fun d => (some k, some d))
        | [a, b] => (evalInt a).bind (fun i => (evalInt b).map (fun d => (some i, some d)))
        | _ => some (loc.ind, loc.dim)
      match ld with
      | none => none
      | some (ind, dim) =>
        match ind, dim, cat with
        | some i, some d, some c => some (⟨cat, ind, dim⟩, [⟨varname, i, d, c⟩])
        | _, _, _ => none
    | _ => none
  else some (loc, [])

/-- The loop over the aliases, from position `k`. `LoadKeOps.py:47-64`. An alias `None` has no
method `replace`: exception. -/
def loadFrom : (k : Nat) → Locals → List (Option Str) → Option (List Binding)
  | _, _, [] => some []
  | _, _, none :: _ => none
  | k, loc, some a :: as =>
    match loadAlias k loc a with
    | none => none
    | some (loc, bs) => (loadFrom (k + 1) loc as).map (bs ++ ·)

/-- `aliases_new`, `LoadKeOps.py:47-64`. -/
def loadAliases (as : List (Option Str)) : Option (List Binding) := loadFrom 0 ⟨none, none, none⟩ as

/-- `aliases_dict`, `keopscore/formulas/GetReduction.py:27-32`: the last binding of a name wins. -/
def lookup (bs : List Binding) (name : Str) : Option Binding :=
  (bs.filter (fun b => b.name = name)).getLast?

/-! ## `complete_aliases` -/

/-- `re.findall(r"Var\([0-9]+,[0-9]+,[0-9]+\)", s)`, `common/parse_type.py:16`: the matches, from left
to right, with their first number. -/
def findVars : (fuel : Nat) → Str → List (Nat × Str)
  | 0, _ => []
  | _ + 1, [] => []
  | fuel + 1, c :: s =>
    match matchVar3 (c :: s) with
    | some (pos, _, _, rest) =>
      (pos, (c :: s).take ((c :: s).length - rest.length)) :: findVars fuel rest
    | none => findVars fuel s

/-- The matches in a formula. `common/parse_type.py:16`. -/
def formulaVars (formula : Str) : List (Nat × Str) :=
  findVars (strip formula).length (strip formula)

/-- `aliases[newpos[i]] = extravars[newind[i]]`, `common/parse_type.py:43-44`; out of range is an
`IndexError`. -/
def assign : List (Nat × Str) → List (Option Str) → Option (List (Option Str))
  | [], as => some as
  | (p, s) :: r, as => if p < as.length then assign r (as.set p (some s)) else none

/-- `complete_aliases(formula, aliases)`, `common/parse_type.py:9-45`. `extravars` is the list made from
the set of matches, whose order is not specified by Python: any permutation of the distinct matches.
The value -1 of a position cannot be matched by `[0-9]+`. -/
def completeAliases (extravars : List (Nat × Str)) (aliases : List Str) : Option (List (Option Str)) :=
  let new := extravars.filter (fun v => ¬ v.1 < aliases.length)
  assign new (aliases.map some ++ List.replicate new.length none)

end Verif.Alias
