import Mathlib.Data.Nat.Sqrt
import Verif.Model.Reduction

/-!
# Accumulation schemes and map-reduce loops

Models of `keopscore/keopscore/formulas/reductions/sum_schemes.py`,
`keopscore/keopscore/mapreduce/cpu/CpuReduc.py`,
`keopscore/keopscore/mapreduce/gpu/GpuReduc1D.py` and `GpuReduc2D.py`, and of the table
helpers of `keopscore/keopscore/utils/code_gen_utils.py`.
-/

namespace Verif

section
variable {V : Type}

/-! ## Sum schemes -/

/-- The three scheme names, `sum_schemes.py:33,44,74`. -/
inductive SumScheme
  | direct | block | kahan
  deriving DecidableEq, Repr

/-- The code fragments a scheme contributes, as transformers of `(acc, tmp_acc)`.
`sum_schemes.py:9-86`. -/
structure Scheme (V : Type) where
  /-- `initialize_temporary_accumulator()` (on `tmp_acc`) -/
  initTmp : Mem V → Mem V
  /-- `initialize_temporary_accumulator_first_init()` -/
  firstInit : Mem V → Mem V
  /-- `initialize_temporary_accumulator_block_init()` -/
  blockInit : Mem V → Mem V
  /-- `accumulate_result(acc, fout, j)` -/
  accum : Mem V × Mem V → Mem V → Nat → Mem V × Mem V
  /-- `periodic_accumulate_temporary(acc, j)`, first argument `period_accumulate` -/
  periodic : Nat → Nat → Mem V × Mem V → Mem V × Mem V
  /-- `final_operation(acc)` -/
  final : Mem V × Mem V → Mem V × Mem V

/-- `direct_sum`, `sum_schemes.py:9-41`. -/
def directScheme (R : Red V) : Scheme V where
  initTmp := id
  firstInit := id
  blockInit := id
  accum := fun s x j => (R.short s.1 x j, s.2)
  periodic := fun _ _ s => s
  final := id

/-- `block_sum`, `sum_schemes.py:44-71`; `pair` is the code of `ReducePair`. -/
def blockScheme (R : Red V) (pair : Mem V → Mem V → Mem V) : Scheme V where
  initTmp := R.init
  firstInit := id
  blockInit := R.init
  accum := fun s x j => (s.1, R.short s.2 x j)
  periodic := fun period j s =>
    if (j + 1) % period = 0 then (pair s.1 s.2, R.init s.2) else s
  final := fun s => (pair s.1 s.2, s.2)

/-- `kahan_scheme`, `sum_schemes.py:74-86`. -/
def kahanScheme (zero : Mem V → Mem V) (kahan : Mem V → Mem V → Mem V → Mem V × Mem V) :
    Scheme V where
  initTmp := zero
  firstInit := zero
  blockInit := id
  accum := fun s x _ => kahan s.1 x s.2
  periodic := fun _ _ s => s
  final := id

/-- Generation of the code of a scheme: `block_sum` needs `ReducePair`, `kahan_scheme` needs
`dim_kahan` and `KahanScheme`; a missing method is a Python exception. `MapReduce.py:59`,
`sum_schemes.py:62-71,77,86`. -/
def getScheme (R : Red V) : SumScheme → Option (Scheme V)
  | .direct => some (directScheme R)
  | .block => R.pair.map (blockScheme R)
  | .kahan => R.kahan.map (fun k => kahanScheme k.1 k.2)

/-- `period_accumulate = ny<10 ? 100 : sqrt(ny)` converted to an integer,
`sum_schemes.py:51`.  Simplification: `sqrt` on doubles is the exact integer square root. -/
def periodAccumulate (ny : Nat) : Nat := if ny < 10 then 100 else Nat.sqrt ny

/-! ## CPU loop -/

/-- Body of the loop over `i`: `mapreduce/cpu/CpuReduc.py:49-60`.  `F j` is the content
of `fout` after the evaluation of the formula; `accJ`, `tmpJ` are the uninitialised local
arrays and `outi` is the output from position `i * dim` on. -/
def cpuRow (R : Red V) (S : Scheme V) (ny : Nat) (F : Nat → Mem V) (accJ tmpJ outi : Mem V) :
    Mem V :=
  let s := (R.init accJ, S.initTmp tmpJ)
  let s := forRange ny (fun j s =>
    S.periodic (periodAccumulate ny) j (S.accum s (F j) j)) s
  let s := S.final s
  R.fin s.1 outi

/-- The loop over `i`, `mapreduce/cpu/CpuReduc.py:47-61`, executed in the order `rows`:
under `#pragma omp parallel for` the iterations are executed in an unspecified order. -/
def cpuRows (R : Red V) (S : Scheme V) (ny : Nat) (F : Nat → Nat → Mem V)
    (accJ tmpJ : Nat → Mem V) (rows : List Nat) (out : Mem V) : Mem V :=
  rows.foldl (fun out i =>
    onSlice (i * R.dim) (cpuRow R S ny (F i) (accJ i) (tmpJ i)) out) out

/-! ## Input variables -/

/-- `Var(ind, dim, cat)`, `formulas/variables/Var.py:10-48`. -/
structure VarInfo where
  ind : Nat
  dim : Nat
  cat : Nat
  deriving DecidableEq, Repr

/-- `formula.Vars(cat)`, `formulas/Operation.py:40-50`. -/
def varsOf (vars : List VarInfo) (cat : Nat) : List VarInfo := vars.filter (fun v => v.cat = cat)

/-- The pointer `p + off`. `utils/code_gen_utils.py:613`. -/
def Mem.shift (m : Mem V) (off : Nat) : Mem V := fun k => m (off + k)

/-- `direct_table`, `utils/code_gen_utils.py:618-630`: `res[ind] = args[ind] + row*dim`.
The list `res` (initially `None` everywhere) is a partial function of the position. -/
def directTable (vars : List VarInfo) (tagI : Nat) (args : Nat → Mem V) (i j : Nat) :
    Nat → Option (Mem V) :=
  let put (row : Nat) (res : Nat → Option (Mem V)) (v : VarInfo) : Nat → Option (Mem V) :=
    fun ind => if ind = v.ind then some ((args v.ind).shift (row * v.dim)) else res ind
  let res := (varsOf vars tagI).foldl (put i) (fun _ => none)
  let res := (varsOf vars (1 - tagI)).foldl (put j) res
  (varsOf vars 2).foldl (put 0) res

/-- `load_vars` without offsets, `utils/code_gen_utils.py:663-731`: copies row `row` of each
variable, one after the other, in the local array `xloc`; the state is `(xloc, a)`. -/
def loadVars (vs : List VarInfo) (args : Nat → Mem V) (row : Nat) (xloc : Mem V) : Mem V :=
  (vs.foldl (fun (s : Mem V × Nat) v =>
    forRange v.dim (fun w (s : Mem V × Nat) =>
      (s.1.set s.2 (args v.ind (row * v.dim + w)), s.2 + 1)) s) (xloc, 0)).1

/-- `table`, `utils/code_gen_utils.py:604-615`: `res[ind] = xloc + k`, `k` running over the
partial sums of the dimensions. -/
def table (vars : List VarInfo) (tagI : Nat) (xi yj pp : Mem V) : Nat → Option (Mem V) :=
  let put (xloc : Mem V) (s : (Nat → Option (Mem V)) × Nat) (v : VarInfo) :
      (Nat → Option (Mem V)) × Nat :=
    (fun ind => if ind = v.ind then some (xloc.shift s.2) else s.1 ind, s.2 + v.dim)
  let r1 := ((varsOf vars tagI).foldl (put xi) (fun _ => none, 0)).1
  let r2 := ((varsOf vars (1 - tagI)).foldl (put yj) (r1, 0)).1
  ((varsOf vars 2).foldl (put pp) (r2, 0)).1

/-- `sum(GetDims(vars))`, `utils/code_gen_utils.py:521-570`. -/
def sumDims (vs : List VarInfo) : Nat := (vs.map (·.dim)).sum

/-- The whole CPU routine: `mapreduce/cpu/CpuReduc.py:43-103`.  `ev` is the generated code of
the formula (a function of the table of pointers that fills `fout`).  `rows` is the
execution order of the parallel loop. -/
def cpuConv (R : Red V) (S : Scheme V) (ev : (Nat → Option (Mem V)) → Mem V)
    (vars : List VarInfo) (tagI ny : Nat) (args : Nat → Mem V)
    (accJ tmpJ : Nat → Mem V) (rows : List Nat) (out : Mem V) : Mem V :=
  cpuRows R S ny (fun i j => ev (directTable vars tagI args i j)) accJ tmpJ rows out

/-- `launch_keops`, `mapreduce/cpu/CpuReduc.py:70-81`: `nx` and `ny` are swapped when
`tagI = 1`; the loop bounds are returned. -/
def launchSizes (tagI nx ny : Nat) : Nat × Nat := if tagI = 1 then (ny, nx) else (nx, ny)

/-! ## GPU, one-dimensional scheme -/

/-- Shared memory after the threads `ts` (in this order) of a block have executed
`if (j < ny) load_vars("j", yj + threadIdx.x*dimy, args, row_index=j)` with
`j = tile*blockDim.x + threadIdx.x`; `mapreduce/gpu/GpuReduc1D.py:73-77`. -/
def gpuLoadTile (varsj : List VarInfo) (args : Nat → Mem V) (B ny tile : Nat)
    (ts : List Nat) (yj : Mem V) : Mem V :=
  ts.foldl (fun yj t =>
    let j := tile * B + t
    if j < ny then onSlice (t * sumDims varsj) (loadVars varsj args j) yj else yj) yj

/-- Work of one thread on one tile, `mapreduce/gpu/GpuReduc1D.py:80-88`.  `Fs yjrel` is the
formula evaluated with the shared memory pointer `yjrel`.  The loop condition is
`(jrel < blockDim.x) && (jrel < ny - jstart)`. -/
def gpuTileThread (S : Scheme V) (Fs : Mem V → Mem V) (dimy B ny jstart tile : Nat)
    (yj : Mem V) (s : Mem V × Mem V) : Mem V × Mem V :=
  let s := (s.1, S.blockInit s.2)
  let s := forRange (min B (ny - jstart)) (fun jrel s =>
    S.accum s (Fs (yj.shift (jrel * dimy))) (jrel + tile * B)) s
  S.final s

/-- The loop over tiles `for (jstart=0, tile=0; jstart<ny; jstart+=B, tile++)` for one thread
of a block, `mapreduce/gpu/GpuReduc1D.py:70-90`.  `ord tile` is the order in which the threads
of the block execute the loading phase of this tile (the two `__syncthreads` separate the
loading phase from the computing phase).  `fuel` bounds the number of tiles. -/
def gpuTiles (S : Scheme V) (varsj : List VarInfo) (args : Nat → Mem V) (Fs : Mem V → Mem V)
    (B ny : Nat) (ord : Nat → List Nat) :
    (fuel jstart tile : Nat) → (yj : Mem V) → (s : Mem V × Mem V) → Mem V × (Mem V × Mem V)
  | 0, _, _, yj, s => (yj, s)
  | fuel + 1, jstart, tile, yj, s =>
    if jstart < ny then
      let yj := gpuLoadTile varsj args B ny tile (ord tile) yj
      let s := gpuTileThread S Fs (sumDims varsj) B ny jstart tile yj s
      gpuTiles S varsj args Fs B ny ord fuel (jstart + B) (tile + 1) yj s
    else (yj, s)

/-- The kernel executed by the thread of global index `i < nx`,
`mapreduce/gpu/GpuReduc1D.py:49-95`: local copies of the parameters and of row `i`, loop over
tiles, final output in `outi`. -/
def gpu1DThread (R : Red V) (S : Scheme V) (ev : (Nat → Option (Mem V)) → Mem V)
    (vars : List VarInfo) (tagI B ny : Nat) (args : Nat → Mem V) (ord : Nat → List Nat)
    (junk : Nat → Mem V) (i : Nat) (outi : Mem V) : Mem V :=
  let pp := loadVars (varsOf vars 2) args 0 (junk 0)
  let xi := loadVars (varsOf vars tagI) args i (junk 1)
  let s := (R.init (junk 2), S.firstInit (junk 3))
  let r := gpuTiles S (varsOf vars (1 - tagI)) args
    (fun yjrel => ev (table vars tagI xi yjrel pp)) B ny ord ny 0 0 (junk 4) s
  R.fin r.2.1 outi

/-- Number of blocks, `binders/nvrtc/keops_nvrtc.cpp:599` (`gridSize_x = nx/bs + (nx%bs==0 ? 0 : 1)`). -/
def gridSize (nx B : Nat) : Nat := nx / B + (if nx % B = 0 then 0 else 1)

/-- The 1D launch: the threads `(block, thread)` of `sched` are executed in this order and each
one with `i = block*B + thread < nx` writes its row.  `mapreduce/gpu/GpuReduc1D.py:47-95`. -/
def gpu1D (R : Red V) (S : Scheme V) (ev : (Nat → Option (Mem V)) → Mem V)
    (vars : List VarInfo) (tagI B nx ny : Nat) (args : Nat → Mem V)
    (ord : Nat → Nat → List Nat) (junk : Nat → Nat → Mem V)
    (sched : List (Nat × Nat)) (out : Mem V) : Mem V :=
  sched.foldl (fun out bt =>
    let i := bt.1 * B + bt.2
    if i < nx then
      onSlice (i * R.dim) (gpu1DThread R S ev vars tagI B ny args (ord bt.1) (junk i) i) out
    else out) out

end

end Verif
