import Verif.Model.Lazy

/-!
# Names of the local variables of the generated code

Model of `new_c_varname` (`keopscore/utils/code_gen_utils.py`).  The dictionary `dict_instances` is a class
attribute: it lives as long as the process and is never emptied.
-/

namespace Verif.Names
open Alias (Str)
open Lazy (num)

/-- `new_c_varname.dict_instances`: the last count used for each base name. `utils/code_gen_utils.py:35`. -/
abbrev Dict := List (Str × Nat)

/-- `dict_instances[template] = cnt`. `utils/code_gen_utils.py:48`. -/
def set (d : Dict) (t : Str) (n : Nat) : Dict := (t, n) :: d.filter (fun p => p.1 ≠ t)

/-- One call without a list: the new name and the new dictionary. `utils/code_gen_utils.py:44-50`. -/
def one (d : Dict) (t : Str) : Str × Dict :=
  let cnt := match d.lookup t with
    | some c => c + 1
    | none => 0
  (t ++ '_' :: num cnt, set d t cnt)

/-- `list(new_c_varname(template_string_id) for k in range(num))`. `utils/code_gen_utils.py:43`. -/
def many (d : Dict) (t : Str) : Nat → List Str × Dict
  | 0 => ([], d)
  | n + 1 =>
    let (x, d) := one d t
    let (xs, d) := many d t n
    (x :: xs, d)

/-- The arguments of a call `new_c_varname(template_string_id, num=1, as_list=False)`.
`utils/code_gen_utils.py:37`. -/
structure Req where
  template : Str
  num : Nat
  asList : Bool

/-- A call; the answer is a name or a list of names. `utils/code_gen_utils.py:37-50`. -/
def call (d : Dict) (r : Req) : (Str ⊕ List Str) × Dict :=
  if r.num > 1 ∨ r.asList = true then
    let (xs, d) := many d r.template r.num
    (.inr xs, d)
  else
    let (x, d) := one d r.template
    (.inl x, d)

/-- The answers of successive calls in one process. `utils/code_gen_utils.py:33-50`. -/
def run (d : Dict) : List Req → List (Str ⊕ List Str)
  | [] => []
  | r :: rs =>
    let (a, d) := call d r
    a :: run d rs

/-- The name of an array: `c_array(dtype, dim, string_id=new_c_varname("array"))`. Python evaluates the default
value once, when the class is defined: all arrays built without a name get the value computed at that time.
`utils/code_gen_utils.py:325-331`. -/
def arrayName (default : Str) (given : Option Str) : Str := given.getD default

end Verif.Names
