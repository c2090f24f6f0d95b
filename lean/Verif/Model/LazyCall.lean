import Verif.Spec.LazyCall
import Mathlib.Data.List.Basic

/-!
# Calls of reductions of lazy tensors, and their options

Model of `reduction`, `solve` and `__call__` of `pykeops/common/lazy_tensor.py`, reduced to the options (keyword
arguments).  Python dictionaries are functions from names to optional values: the order of the names does not matter
here.
-/

namespace Verif.LazyCall
open Spec (Kwargs noKwargs Attrs)

variable {V : Type}

/-- `dict.update`. -/
def update (d e : Kwargs V) : Kwargs V := fun k =>
  match e k with
  | some v => some v
  | none => d k

/-- The names that go to the constructor of `Genred` and `KernelSolve`. `common/lazy_tensor.py:340-347`. -/
def initKeys : List String :=
  ["dtype_acc", "use_double_acc", "sum_scheme", "enable_chunks", "use_fast_math", "optional_flags"]

/-- The part of a dictionary with names in a list. -/
def only (l : List String) (d : Kwargs V) : Kwargs V := fun k => if k ∈ l then d k else none

/-- The part of a dictionary with names outside of a list. -/
def without (l : List String) (d : Kwargs V) : Kwargs V := fun k => if k ∈ l then none else d k

/-- `separate_kwargs`, `common/lazy_tensor.py:330-353`. -/
def separate (d : Kwargs V) : Kwargs V × Kwargs V := (only initKeys d, without initKeys d)

/-- What differs between `Genred` and `KernelSolve`: the keyword arguments of their calls.
`numpy/generic/generic_red.py:188`, `torch/generic/generic_red.py:545`, `numpy/operations.py:179-181`,
`torch/operations.py:334-336`. -/
inductive Kind
  | genred
  | solve
deriving DecidableEq

/-- The keyword arguments of `__call__`. `numpy/generic/generic_red.py:188`, `torch/generic/generic_red.py:545`,
`numpy/operations.py:179-181`, `torch/operations.py:334-336`. -/
def Kind.callKeys : Kind → List String
  | .genred => ["backend", "device_id", "ranges", "out"]
  | .solve => ["backend", "device_id", "alpha", "eps", "ranges"]

/-- The keyword arguments of the constructors that may come from the user (`optional_flags` is none of them).
`numpy/generic/generic_red.py:52-68`, `torch/generic/generic_red.py:422-438`, `numpy/operations.py:47-61`,
`torch/operations.py:211-225`. -/
def conKeys : List String := ["dtype_acc", "use_double_acc", "sum_scheme", "enable_chunks", "use_fast_math"]

/-- Python raises `TypeError` if a keyword argument is not one of those of the function. -/
def Accepts (l : List String) (d : Kwargs V) : Prop := ∀ k, (d k).isSome → k ∈ l

open Classical in
/-- A function that is called with the keyword arguments `d`, where `l` are those that it knows. -/
noncomputable def withKwargs {α : Type} (l : List String) (d : Kwargs V) (x : α) : Option α :=
  if Accepts l d then some x else none

/-- The object: is its type known (`_dtype`), `kwargs`, `ranges`, `backend`, and the options with which `callfun` was
made, if it exists. -/
structure Obj (V : Type) where
  kind : Kind
  dtype : Bool
  kwargs : Kwargs V
  attrs : Attrs V
  callfun : Option (Kwargs V)

/-- The end of `reduction` and `solve`, without the call: `common/lazy_tensor.py:741-773,874-892`. The type is known if an
array of two dimensions occurs in the formula. `none` if an exception is raised. -/
noncomputable def make (kind : Kind) (dtype : Bool) (attrs : Attrs V) (kwargs : Kwargs V) : Option (Obj V) :=
  let s := separate kwargs
  if dtype then withKwargs conKeys s.1 ⟨kind, dtype, s.2, attrs, some s.1⟩
  else some ⟨kind, dtype, s.2, attrs, none⟩

/-- Setting the attributes `ranges` and `backend`. -/
def Obj.set (o : Obj V) (a : Attrs V) : Obj V := { o with attrs := a }

/-- `if self.ranges is not None and "ranges" not in self.kwargs: self.kwargs.update({"ranges": self.ranges})`, and the same
for `backend`. `common/lazy_tensor.py:911-915`. -/
def setDefault (d : Kwargs V) (key : String) (v : Option V) : Kwargs V :=
  if v.isSome ∧ (d key).isNone then update d (fun k => if k = key then v else none) else d

/-- The beginning of `__call__`: the dictionary `self.kwargs` is changed. `common/lazy_tensor.py:909-915`. -/
def Obj.merge (o : Obj V) (kwargs : Kwargs V) : Kwargs V :=
  setDefault (setDefault (update o.kwargs kwargs) "ranges" o.attrs.ranges) "backend" o.attrs.backend

/-- `__call__`, `common/lazy_tensor.py:900-957`: the new state of the object, and the options used (those of the
constructor and those of the call) or `none` if an exception is raised. For solvers whose type is not known, the
constructor is given `formula2`, which is `None`, and raises (`numpy/operations.py:165`, `torch/operations.py:321`). If the
constructor raises there is no attribute `callfun`, while the type is known from then on. -/
noncomputable def Obj.call (o : Obj V) (kwargs : Kwargs V) : Obj V × Option (Kwargs V × Kwargs V) :=
  let d := o.merge kwargs
  if o.dtype then ({ o with kwargs := d }, o.callfun.bind fun c => withKwargs o.kind.callKeys d (c, d))
  else
    let s := separate d
    let c := if o.kind = .genred then withKwargs conKeys s.1 s.1 else none
    ({ o with dtype := true, kwargs := s.2, callfun := c },
      c.bind fun c => withKwargs o.kind.callKeys s.2 (c, s.2))

/-- The state after some events. -/
noncomputable def Obj.after (o : Obj V) : List (Spec.Event V) → Obj V
  | [] => o
  | .call kw :: es => (o.call kw).1.after es
  | .set a :: es => (o.set a).after es

/-- The options used by a call. -/
noncomputable def Obj.used (o : Obj V) (kwargs : Kwargs V) : Option (Kwargs V) :=
  (o.call kwargs).2.map fun s => update s.1 s.2

/-! ## Sums of products with large vectors -/

/-- A lazy tensor, reduced to its attributes, and to the attribute `rec_multVar_highdim` of products with a variable of
dimension more than 100: the other factor, and the axis of the variable. `common/lazy_tensor.py:564-565`. -/
inductive LT (V : Type)
  | plain (a : Attrs V)
  | prod (a : Attrs V) (f : LT V) (axis : Nat)

/-- The attributes of a lazy tensor. -/
def LT.attrs : LT V → Attrs V
  | .plain a | .prod a _ _ => a

/-- `self.sum(axis, **kwargs)`: the options used by the reduction that is computed. `common/lazy_tensor.py:735-773`; lines
745-755 for products. The type is known. -/
noncomputable def sumUsed : LT V → Nat → Kwargs V → Option (Kwargs V)
  | .plain a, _, kwargs => (make .genred true a kwargs).bind (·.used noKwargs)
  | .prod a f v, axis, kwargs =>
    if axis ≠ v then sumUsed f axis noKwargs else (make .genred true a kwargs).bind (·.used noKwargs)

end Verif.LazyCall
