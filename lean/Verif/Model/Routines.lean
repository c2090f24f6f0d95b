import Verif.Model.Call
import Verif.Model.MethodsRed

/-!
# Objects `Genred` and the lists of aliases

`Genred` of NumPy keeps the list of aliases given by the user, and completes it in place; `Genred` of PyTorch makes a copy.
Python lists are cells of a heap, named by their index.
-/

namespace Verif.Alias

open Lazy (genredText num axis2cat)

/-- The two classes. `numpy/generic/generic_red.py:182`, `torch/generic/generic_red.py:536-538`. -/
inductive Lang
  | numpy
  | torch
  deriving DecidableEq, Repr

/-- A list in the heap, and whether the user has a reference to it.  Entries `None` are made by `complete_aliases`. -/
structure PyList where
  user : Bool
  items : List (Option Str)

/-- An object `Genred`: attributes `formula`, `aliases` (a reference) and `nargs`.
`numpy/generic/generic_red.py:173-183`, `torch/generic/generic_red.py:535-539`. -/
structure GenredObj where
  formula : Str
  aliases : Nat
  nargs : Nat

/-- The lists and the objects that were made, in order. -/
structure World where
  lists : List PyList
  objs : List GenredObj

/-- `aliases[newpos[i]] = extravars[newind[i]]`, `common/parse_type.py:43-44`, with the list that is left when the index is out
of range; the boolean is false if an exception is raised. -/
def assignIn : List (Nat × Str) → List (Option Str) → List (Option Str) × Bool
  | [], as => (as, true)
  | (p, s) :: r, as => if p < as.length then assignIn r (as.set p (some s)) else (as, false)

/-- `complete_aliases(formula, aliases)`, `common/parse_type.py:9-45`: the content of the list afterwards. `extravars` as for
`completeAliases`. -/
def completeIn (extravars : List (Nat × Str)) (as : List (Option Str)) : List (Option Str) × Bool :=
  let new := extravars.filter (fun v => ¬ v.1 < as.length)
  assignIn new (as ++ List.replicate new.length none)

/-- What a program does. -/
inductive Action
  /-- the user makes a list -/
  | make (items : List (Option Str))
  /-- the user changes a list in any way -/
  | change (ref : Nat) (items : List (Option Str))
  /-- `Genred(formula, aliases)`: `formula` is the text of the attribute, `extravars` as for `completeAliases` -/
  | genred (lang : Lang) (formula : Str) (extravars : List (Nat × Str)) (ref : Nat)
  /-- `generic_sum(formula, output, *aliases)` and others: `list(aliases)` is a new list -/
  | generic (formula : Str) (extravars : List (Nat × Str)) (aliases : List Str)

/-- `list(aliases)` then the construction of the object. `torch/generic/generic_red.py:536-539`,
`numpy/generic/generic_ops.py:50`. -/
def World.copyBuild (w : World) (formula : Str) (ev : List (Nat × Str)) (items : List (Option Str)) : World :=
  match completeIn ev items with
  | (r, true) => ⟨w.lists ++ [⟨false, r⟩], w.objs ++ [⟨formula, w.lists.length, r.length⟩]⟩
  | (_, false) => w

/-- One action.  A reference that the user does not have does nothing.
`numpy/generic/generic_red.py:182-183`, `torch/generic/generic_red.py:536-539`, `numpy/generic/generic_ops.py:49-51`,
`torch/generic/generic_ops.py:43-45`. -/
def World.step (w : World) : Action → World
  | .make items => ⟨w.lists ++ [⟨true, items⟩], w.objs⟩
  | .change ref items =>
    match w.lists[ref]? with
    | some ⟨true, _⟩ => ⟨w.lists.set ref ⟨true, items⟩, w.objs⟩
    | _ => w
  | .genred lang formula ev ref =>
    match w.lists[ref]? with
    | some ⟨true, items⟩ =>
      match lang with
      | .torch => w.copyBuild formula ev items
      | .numpy =>
        let c := completeIn ev items
        ⟨w.lists.set ref ⟨true, c.1⟩, if c.2 then w.objs ++ [⟨formula, ref, c.1.length⟩] else w.objs⟩
    | _ => w
  | .generic formula ev aliases => w.copyBuild formula ev (aliases.map some)

/-- What a call of an object on arrays with these shapes uses: the formula, the variables of the names, and the sizes.
`none` is an exception.  `numpy/generic/generic_red.py:292-295,313-325,340`, `torch/generic/generic_red.py:657-664`. -/
def callWith (formula : Str) (nargs : Nat) (aliases : List (Option Str)) (shapes : List (List Nat)) :
    Option (Str × List Binding × Nat × Nat) :=
  if shapes.length ≠ nargs then none
  else do
    let bs ← loadAliases aliases
    let as ← aliases.mapM id
    let n ← getSizes as shapes
    pure (formula, bs, n)

/-- A call of the object number `i`: the aliases are read in the list at the time of the call. Citations of `callWith`. -/
def World.call (w : World) (i : Nat) (shapes : List (List Nat)) : Option (Str × List Binding × Nat × Nat) := do
  let o ← w.objs[i]?
  let l ← w.lists[o.aliases]?
  callWith o.formula o.nargs l.items shapes

/-- The reductions of `generic_ops.py`. `torch/generic/generic_ops.py:6,48,99,155`,
`numpy/generic/generic_ops.py:6,54,111,176`. -/
inductive Generic
  | sum
  | logsumexp
  | argkmin
  | argmin
  deriving DecidableEq, Repr

/-- `reduction_op`, after `preprocess` (`common/operations.py`). `torch/generic/generic_ops.py:45,96,151,201`. -/
def Generic.op : Generic → Str
  | .sum => "Sum".toList
  | .logsumexp => "Max_SumShiftExp".toList
  | .argkmin => "ArgKMin".toList
  | .argmin => "ArgMin".toList

/-- `cat2axis`, `common/utils.py:24-34`. -/
def cat2axis (cat : Nat) : Option Nat := if cat = 0 ∨ cat = 1 then some ((cat + 1) % 2) else none

/-- The axis and the optional argument that are given to `Genred`: `get_type(output)`, `cat2axis(cat)`; the dimension of the
output is used by `generic_argkmin` only.  `torch/generic/generic_ops.py:43-45,94-96,148-152,199-201`,
`numpy/generic/generic_ops.py:48-51,105-108,165-173,225-228`. -/
def genericArgs (g : Generic) (output : Str) : Option (Nat × Option Nat) := do
  let d ← getType output 0
  let axis ← cat2axis d.cat
  pure (axis, if g = .argkmin then some d.dim else none)

/-- The attribute `formula` of the object that is made. `numpy/generic/generic_red.py:169-181`,
`torch/generic/generic_red.py:533-535`: an optional argument equal to 0 is dropped. -/
def genericText (g : Generic) (formula output : Str) : Option Str :=
  (genericArgs g output).map fun a =>
    genredText g.op formula (match a.2 with | some k => if k = 0 then [] else num k | none => []) (axis2cat a.1) []

end Verif.Alias
