import Mathlib.Data.List.Defs
import Verif.Model.Schedule

/-!
# Executions

The set of possible outputs of one call, over all backends and all schedules of a backend.
-/

namespace Verif

variable {V : Type}

/-- One call: the code `ev` of the formula, its variables, the tag, the numbers `M`, `N` of points
and the input arrays. Arguments of `launch_keops`, `mapreduce/cpu/CpuReduc.py:70-81`, and of the
generated function, `CpuReduc.py:45-63`. -/
structure Problem (V : Type) where
  ev : (Nat → Option (Mem V)) → Mem V
  vars : List VarInfo
  tagI : Nat
  M : Nat
  N : Nat
  args : Nat → Mem V

/-- `nx` of the generated code (after the swap of `launch_keops`).
`mapreduce/cpu/CpuReduc.py:73-77`. -/
def Problem.nx (P : Problem V) : Nat := (launchSizes P.tagI P.M P.N).1
/-- `ny` of the generated code. `mapreduce/cpu/CpuReduc.py:73-77`. -/
def Problem.ny (P : Problem V) : Nat := (launchSizes P.tagI P.M P.N).2

/-- `Exec R S P out out'`: some backend, under some schedule and with some content of the
uninitialised memory, started with `out` in the output array, ends with `out'`.
* `cpu`: `mapreduce/cpu/CpuReduc.py`, the parallel loop executes the rows in any order;
* `gpu1D`: `mapreduce/gpu/GpuReduc1D.py`, with any block size `B > 0`, the threads of the grid
  (`binders/nvrtc/keops_nvrtc.cpp:441-460,511-519`) being executed in any order. -/
inductive Exec (R : Red V) (S : Scheme V) (P : Problem V) (out : Mem V) : Mem V → Prop
  | cpu (accJ tmpJ : Nat → Mem V) (rows : List Nat) (hrows : rows.Perm (List.range P.nx)) :
      Exec R S P out (cpuConv R S P.ev P.vars P.tagI P.ny P.args accJ tmpJ rows out)
  | gpu1D (B : Nat) (hB : 0 < B) (ord : Nat → Nat → List Nat)
      (hord : ∀ b tile, (ord b tile).Perm (List.range B)) (junk : Nat → Nat → Mem V)
      (sched : List (Nat × Nat))
      (hsched : sched.Perm ((List.range (gridSize P.nx B)).product (List.range B))) :
      Exec R S P out (gpu1D R S P.ev P.vars P.tagI B P.nx P.ny P.args ord junk sched out)

end Verif
