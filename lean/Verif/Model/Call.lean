import Verif.Model.Aliases
import Verif.Model.Ranges

/-!
# Calls of `Genred`

The sizes found by a call of the generic routine and the shape of its output.  Nothing else is checked:
the checks of `keopscore/include/Sizes.h` are compiled only if `do_checks`, which is 0 (`Sizes.h:12`).
-/

namespace Verif.Alias

/-- `args[pos].shape[-2]`; exceptions are `none`. `common/parse_type.py:53,55`. -/
def rowsOf (shapes : List (List Nat)) (pos : Nat) : Option Nat :=
  (shapes[pos]?).bind (fun s => if 2 ≤ s.length then s[s.length - 2]? else none)

/-- The loop of `get_sizes` from position `k`, `common/parse_type.py:50-57`, and its end, lines
63-68. -/
def getSizesFrom (shapes : List (List Nat)) : (k : Nat) → (nx ny : Option Nat) → List Str →
    Option (Nat × Nat)
  | _, nx, ny, [] => some (nx.getD 1, ny.getD 1)
  | k, nx, ny, sig :: sigs =>
    match getType sig k with
    | none => none
    | some d =>
      let r : Option (Option Nat × Option Nat) :=
        if d.cat = 0 then (rowsOf shapes d.pos).map (fun n => (some n, ny))
        else if d.cat = 1 then (rowsOf shapes d.pos).map (fun n => (nx, some n))
        else some (nx, ny)
      match r with
      | none => none
      | some (some nx, some ny) => some (nx, ny)
      | some (nx, ny) => getSizesFrom shapes (k + 1) nx ny sigs

/-- `get_sizes(aliases, *args)`, `common/parse_type.py:48-68`. -/
def getSizes (aliases : List Str) (shapes : List (List Nat)) : Option (Nat × Nat) :=
  getSizesFrom shapes 0 none none aliases

/-- A call of `Genred`, NumPy, up to the shape of the output: number of arguments,
`numpy/generic/generic_red.py:292-295`, number of batch dimensions (line 302), sizes (line 340) and
output shape, `LoadKeOps.py:208-223`. When all arguments have less than two dimensions the number of
batch dimensions is negative in Python and 0 here: the output shape is `(M, dim)` in both cases.
Result: `nx`, `ny` and the shape. -/
def callGenred (aliases : List Str) (shapes : List (List Nat)) (tagI dimout : Nat) :
    Option (Nat × Nat × List Nat) :=
  if shapes.length ≠ aliases.length then none
  else
    match getSizes aliases shapes with
    | none => none
    | some (nx, ny) =>
      let nbatchdims := (shapes.map List.length).foldl max 0 - 2
      some (nx, ny, shapeOutPy shapes nbatchdims (if tagI = 0 then nx else ny) dimout)

end Verif.Alias
