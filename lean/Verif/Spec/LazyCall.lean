/-!
# Which options a call of a reduction should use

A reduction `F = x.sum(axis=1, call=False, …)` of a lazy tensor is an object that can be called many times, on many
arguments, with options such as `ranges`, `backend`, `alpha`.
-/

namespace Verif.Spec

/-- Keyword arguments: the values of some names. -/
abbrev Kwargs (V : Type) := String → Option V

/-- No keyword argument. -/
def noKwargs {V : Type} : Kwargs V := fun _ => none

/-- The keyword arguments of a call `f(k=v)`. -/
def oneKwarg {V : Type} (k : String) (v : V) : Kwargs V := fun l => if l = k then some v else none

/-- The attributes `ranges` and `backend` of an object, which the user can set. -/
structure Attrs (V : Type) where
  ranges : Option V
  backend : Option V

/-- The value of an attribute. -/
def Attrs.get {V : Type} (a : Attrs V) (k : String) : Option V :=
  if k = "ranges" then a.ranges else if k = "backend" then a.backend else none

/-- The options that a call should use: the keyword arguments `now` of the call, then those that were given when the
reduction was made, then the attributes of the object. -/
def asked {V : Type} (made now : Kwargs V) (a : Attrs V) : Kwargs V := fun k =>
  match now k with
  | some v => some v
  | none =>
    match made k with
    | some v => some v
    | none => a.get k

/-- What a user does with the object, after the attributes were set: call it, or set the attributes. -/
inductive Event (V : Type)
  | call (now : Kwargs V)
  | set (a : Attrs V)

/-- The attributes after some events. -/
def attrsAfter {V : Type} (a : Attrs V) : List (Event V) → Attrs V
  | [] => a
  | .call _ :: es => attrsAfter a es
  | .set a' :: es => attrsAfter a' es

end Verif.Spec
