import Verif.Model.LazyDot
import Verif.Spec.Tensor

/-!
# Specification: the text of lists of integers, as Python reads it
-/

namespace Verif.LazyDot

open Alias (Str)
open Parse (parseInt)

/-- The integers of a list, and the text after the closing bracket. -/
def readInts : Nat → Str → Option (List Int × Str)
  | 0, _ => none
  | n + 1, s =>
    match parseInt s with
    | none => none
    | some (i, ']' :: r) => some ([i], r)
    | some (i, ',' :: r) => (readInts n r).map fun x => (i :: x.1, x.2)
    | some _ => none

/-- A list display, and the text after it. -/
def readList : Str → Option (List Int × Str)
  | '[' :: ']' :: r => some ([], r)
  | '[' :: r => readInts r.length r
  | _ => none

/-- List displays separated by commas. -/
def readLists : Nat → Str → Option (List (List Int))
  | 0, _ => none
  | n + 1, s =>
    match readList s with
    | none => none
    | some (l, []) => some [l]
    | some (l, ',' :: ' ' :: r) => (readLists n r).map (l :: ·)
    | some _ => none

/-- The arguments after the two formulas in the call `name(f, g, ...)` are the lists `args`. -/
def Calls (t : Str) (name f g : Str) (args : List (List Int)) : Prop :=
  ∃ opt, t = name ++ '(' :: f ++ ", ".toList ++ g ++ ", ".toList ++ opt ++ [')'] ∧ readLists opt.length opt = some args

end Verif.LazyDot
