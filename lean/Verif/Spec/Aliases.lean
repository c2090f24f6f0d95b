import Mathlib.Data.List.Infix

/-!
# Specification of the aliases

What is written in an alias, and which variables are written in a formula.
-/

namespace Verif.Spec

/-- The keyword of a category: 0 for `Vi`, 1 for `Vj`, 2 for `Pm`.
Docstring of `Genred`, `numpy/generic/generic_red.py:81-98`. -/
def keyword : Nat → List Char
  | 0 => ['V', 'i']
  | 1 => ['V', 'j']
  | _ => ['P', 'm']

/-- An identifier: letters, digits and underscores, not beginning with a digit. -/
def IsIdent (s : List Char) : Prop :=
  (∀ c ∈ s, c.isAlpha ∨ c = '_' ∨ c.isDigit) ∧ ∃ c, s.head? = some c ∧ ¬ c.isDigit

/-- The text `name=Vi(dim)` or `name=Vi(pos,dim)`, without spaces.
Docstring of `Genred`, `numpy/generic/generic_red.py:81-98`. -/
def aliasText (name : List Char) (cat : Nat) (pos : Option Nat) (dim : Nat) : List Char :=
  name ++ '=' :: keyword cat ++ '(' ::
    ((match pos with
      | none => []
      | some p => Nat.toDigits 10 p ++ [',']) ++ Nat.toDigits 10 dim ++ [')'])

/-- `text` is the alias `name=Vi(dim)` or `name=Vi(pos,dim)` (or `Vj`, `Pm`), up to spaces. -/
structure Written (text name : List Char) (cat : Nat) (pos : Option Nat) (dim : Nat) : Prop where
  ident : IsIdent name
  cat_lt : cat < 3
  text_eq : text.filter (· ≠ ' ') = aliasText name cat pos dim

/-- A non empty string of decimal digits. -/
def IsDigits (s : List Char) : Prop := s ≠ [] ∧ ∀ c ∈ s, c.isDigit

/-- The text `Var(a,b,c)`. -/
def varText (a b c : List Char) : List Char :=
  ['V', 'a', 'r', '('] ++ a ++ [','] ++ b ++ [','] ++ c ++ [')']

/-- `Var(a,b,c)`, written as `s`, occurs in the formula (up to spaces) and `a` denotes the
position `p`. -/
def Occurs (formula : List Char) (p : Nat) (s : List Char) : Prop :=
  ∃ a b c, IsDigits a ∧ IsDigits b ∧ IsDigits c ∧ p = Nat.ofDigitChars 10 a 0 ∧ s = varText a b c ∧
    s <:+: formula.filter (· ≠ ' ')

/-- The alias `text`, at position `k` of the list, declares the argument `pos`, of category `cat` and
dimension `dim`. -/
def Declares (text : List Char) (k cat dim pos : Nat) : Prop :=
  (∃ name p, Written text name cat p dim ∧ pos = p.getD k) ∨
  (∃ a b c, IsDigits a ∧ IsDigits b ∧ IsDigits c ∧ text = varText a b c ∧
    pos = Nat.ofDigitChars 10 a 0 ∧ dim = Nat.ofDigitChars 10 b 0 ∧ cat = Nat.ofDigitChars 10 c 0)

/-- The shape `b` can be broadcast to `A`: same number of dimensions, each of them equal or 1. -/
def BroadcastsTo (b A : List Nat) : Prop := List.Forall₂ (fun x y => x = y ∨ x = 1) b A

/-- What the shape of an argument should be: batch dimensions, number of rows, dimension. -/
def Fits (A : List Nat) (M N cat dim : Nat) (shape : List Nat) : Prop :=
  ∃ b, BroadcastsTo b A ∧
    shape = b ++ (if cat = 0 then [M, dim] else if cat = 1 then [N, dim] else [dim])

end Verif.Spec
