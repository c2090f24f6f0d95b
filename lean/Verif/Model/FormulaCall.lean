import Mathlib.Data.List.Sort
import Mathlib.Data.List.Dedup
import Verif.Model.Exec
import Verif.Model.FormulaCode

/-!
# The call of a reduction, built from its formula

The variables that are loaded, the table of their arrays, and the code that is run on it for each pair
of indices.  All paths are relative to `keopscore/keopscore`.
-/

namespace Verif

/-- The variables that are loaded: those of categories 0, 1 and 2, without repetition and sorted by
position.  `Operation.py:32-50`, `utils/code_gen_utils.py:530-560`.  The loader splits this list by
categories (`varsOf`).  Python sorts a set: the order of two variables with the same position is not
specified, here it is that of the formula. -/
def Expr.inputs (e : Expr) : List VarInfo :=
  ((e.vars.filter fun v => v.2.2 = 0 ∨ v.2.2 = 1 ∨ v.2.2 = 2).dedup.insertionSort
    fun u v => u.1 ≤ v.1).map fun v => ⟨v.1.toNat, v.2.1, v.2.2.toNat⟩

/-- `nminargs`, `utils/code_gen_utils.py:563-564`. -/
def Expr.nminargs (e : Expr) : Nat := (e.inds.foldr (fun i m => max (i + 1) m) 0).toNat

/-- The table of the arrays of the variables, `utils/code_gen_utils.py:604-630`.  `t` are the pointers set by
`table` or `direct_table` (`directTable` of `Model/Schedule.lean`), here with their dimensions. -/
def Expr.table (e : Expr) (t : Nat → Option (Nat → ℝ)) : Table :=
  (List.range e.nminargs).map fun p =>
    (e.inputs.find? fun v => v.ind = p).bind fun v => (t p).map fun m => (List.range v.dim).map m

section

variable {V : Type} (enc : ℝ → V) (dec : V → ℝ)

/-- The call of a reduction on the formula `e`: the code of the formula is run on the local array `fout`
(`mapreduce/MapReduce.py:76`) and the table (`mapreduce/cpu/CpuReduc.py:55`, `mapreduce/gpu/GpuReduc1D.py:84`).
The numbers of the machine are `V`; `enc` gives the number for a real value and `dec` the value of a number.
When the code leaves its arrays its result is not defined: it is 0 here, and the theorems are about calls for
which this does not happen.  The uninitialised memory is the same in all the runs of the code: this has no
effect, since the result does not depend on it (`C02_code`). -/
noncomputable def Expr.call (M : CMath) (junk : Expr → Nat → ℝ) (e : Expr) (tagI m n : Nat)
    (args : Nat → Mem V) : Problem V where
  ev t := fun k => enc <|
    match e.code M junk (newArr junk e) (e.table fun p => (t p).map fun a q => dec (a q)) with
    | .ok (y, _) => y.getD k 0
    | .error _ => 0
  vars := e.inputs
  tagI := tagI
  M := m
  N := n
  args := args

end

end Verif
