import Verif.Model.RedDiff
import Verif.Model.Call

/-!
# Reductions equal to zero

When the formula of a sum is the constant zero, or when the reduction is the zero reduction (gradients and differentials
of arg reductions), no reduction is run: the Python code fills the output with zeros.  A compiled routine that does the
same is generated too, but the Python code does not call it.
-/

namespace Verif

variable {V : Type}

/-- The two kinds of routines. `keopscore/keopscore/get_keops_dll.py:125-133`. -/
inductive Routine
  | reduce
  | assignZero
  deriving DecidableEq, Repr

/-- `isinstance(rf, Zero_Reduction) or (isinstance(rf.formula, Zero) and isinstance(rf, Sum_Reduction))`.
`keopscore/keopscore/get_keops_dll.py:125-127`. -/
def RedExpr.tagZero : RedExpr → Bool
  | .zero _ _ => true
  | .sum (.zero _) _ => true
  | _ => false

/-- Whether the object has an attribute `dimred`: it is set by the constructors of all the reductions
(`reductions/Sum_Reduction.py:18`, `reductions/Max_SumShiftExpWeight_Reduction.py:33`,
`reductions/Min_ArgMin_Reduction_Base.py:19`, `reductions/Max_ArgMax_Reduction_Base.py:19`,
`reductions/KMin_ArgKMin_Reduction.py:32`, `reductions/Min_Reduction.py:16`, `reductions/Max_Reduction.py:16`), but
neither by `Zero_Reduction` (`reductions/Zero_Reduction.py:12-14`) nor by its base class (`reductions/Reduction.py:8-20`). -/
def RedExpr.hasDimred : RedExpr → Bool
  | .zero _ _ => false
  | _ => true

/-- The routine that is generated.  The code of both kinds begins with `MapReduce.get_code`, which makes the sum scheme
(`mapreduce/MapReduce.py:59`, `reductions/sum_schemes.py:10-15`) and the accumulators (`mapreduce/MapReduce.py:74-75`) from
the attribute `dimred`; `mapreduce/cpu/CpuAssignZero.py:20-21`, `mapreduce/gpu/GpuAssignZero.py:17-18`.  The other
exceptions of the generation of the code are in `getScheme`. -/
def RedExpr.routine (r : RedExpr) : Except Err Routine :=
  if !r.hasDimred then .error .attribute
  else .ok (if r.tagZero then .assignZero else .reduce)

/-- The end of `genred`: `out` is the array given by the user or a new one, which is not initialised; `callKeops` is the
compiled code. `pykeops/pykeops/common/keops_io/LoadKeOps.py:227-236`. -/
def genredOut [Zero V] (r : Routine) (shapeout : List Nat) (callKeops : Mem V → Mem V) (out : Mem V) : Mem V :=
  match r with
  | .assignZero => fun q => if q < shapeout.prod then 0 else out q
  | .reduce => callKeops out

/-- `true_nx`: the product of the dimensions of the output but the last one. `mapreduce/cpu/CpuAssignZero.py:46-49`. -/
def trueNx (shapeout : List Nat) : Nat :=
  forRange (shapeout.length - 1) (fun k n => n * shapeout.getD k 0) 1

/-- The loop of `AssignZeroCpu`, `mapreduce/cpu/CpuAssignZero.py:51-54`: `rows` is the order in which the parallel loop
runs, and `outi` is the array of `dim` entries that begins at `out + i * dim` (`mapreduce/MapReduce.py:77`). -/
def cpuAssignZero [Zero V] (dim : Nat) (rows : List Nat) (out : Mem V) : Mem V :=
  rows.foldl (fun out i => onSlice (i * dim) (fun o => vectFill dim o 0) out) out

/-- The kernel of `GpuAssignZero`, `mapreduce/gpu/GpuAssignZero.py:29-39`, for the threads `(block, thread)` of `sched`, in
this order. -/
def gpuAssignZero [Zero V] (dim B nx : Nat) (sched : List (Nat × Nat)) (out : Mem V) : Mem V :=
  sched.foldl (fun out bt =>
    let i := bt.1 * B + bt.2
    if i < nx then onSlice (i * dim) (fun o => vectFill dim o 0) out else out) out

/-- The number of rows given to the kernel, `keops_nvrtc.cpp:407-419,461-465`: sizes are computed for the lists of
variables of the formula, which are empty here. -/
def zeroNx (argshapes : List (List Nat)) (nx ny dimout tagI : Nat) : Nat :=
  let s := mkSizes argshapes nx ny dimout [] [] []
  (launchSizes tagI (s.nbatches * s.M) (s.nbatches * s.N)).1

/-- The output of the routine on the CPU, over all orders of the rows.  `launch_keops_cpu` ignores the ranges and the
shapes of the arguments. `mapreduce/cpu/CpuAssignZero.py:36-86`.  Not called by the Python code (see `genredOut`). -/
inductive CpuZero [Zero V] (dim : Nat) (shapeout : List Nat) (out : Mem V) : Mem V → Prop
  | mk (rows : List Nat) (hrows : rows.Perm (List.range (trueNx shapeout))) :
      CpuZero dim shapeout out (cpuAssignZero dim rows out)

/-- The output of the routine on the GPU, over all block sizes and orders of the threads: with `tagZero`, the launch is
that of the 1D kernel, with or without ranges.  `keops_nvrtc.cpp:568,596-614`.  Simplification: half precision is not
considered.  Not called by the Python code (see `genredOut`). -/
inductive GpuZero [Zero V] (dim : Nat) (argshapes : List (List Nat)) (nx ny tagI : Nat) (out : Mem V) : Mem V → Prop
  | mk (B : Nat) (hB : 0 < B) (sched : List (Nat × Nat))
      (hsched : sched.Perm ((List.range (gridSize (zeroNx argshapes nx ny dim tagI) B)).product (List.range B))) :
      GpuZero dim argshapes nx ny tagI out (gpuAssignZero dim B (zeroNx argshapes nx ny dim tagI) sched out)

end Verif
