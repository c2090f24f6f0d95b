import Verif.Model.Chunks

/-!
# The GPU kernel for `Σ_j F(x_i, y_j) b_j` with `b` of large dimension

Model of `keopscore/keopscore/mapreduce/gpu/GpuReduc1D_finalchunks.py` and of the choice of this kernel.  Paths that
begin with `mapreduce`, `config`, `formulas`, `utils` or `binders` are relative to `keopscore/keopscore`.
-/

namespace Verif

/-- `dimfinalchunk`, `config/chunks.py:35`; it is equal to `dimchunk`, and used for the same purpose by
`load_vars_chunks`. -/
def dimfinalchunk : Nat := 64

/-! ## Choice of the kernel -/

/-- The values given to the option `rec_multVar_highdim` of `Genred`: a Boolean by the user, `None` or the position
of the variable by `LazyTensor`.  `pykeops/pykeops/torch/generic/generic_red.py:436,504-506`,
`pykeops/pykeops/common/lazy_tensor.py:312-315,745-760`. -/
inductive MultVar
  | bool (b : Bool)
  | none
  | position (n : Nat)

/-- `pykeops/pykeops/torch/generic/generic_red.py:73-76`; in Python `isinstance(False, int)` is true. -/
def torchFlag : MultVar → Bool
  | .bool _ => true
  | .none => false
  | .position _ => true

/-- `pykeops/pykeops/numpy/generic/generic_red.py:164-167`. -/
def numpyFlag : MultVar → Bool
  | .bool b => b
  | .none => false
  | .position n => n != 0

/-- `use_final_chunks`, `config/chunks.py:48-54`, for a reduction of dimension `dimred`.  `enable_final_chunk` is always
true: `pykeops/pykeops/common/keops_io/LoadKeOps.py:78` gives `-1` to `set_enable_finalchunk`, that keeps its initial
value (`config/chunks.py:24-32`). -/
def finalMode (flag : Bool) (dimred : Nat) : Bool := flag && decide (146 < dimred)

/-- `fun_internal` and `varfinal`: the formula `F` and the variable `b`.  `none`: an exception is raised, by
`children[...]` when there are not two children, by the test `dimfout != 1`, or by `varfinal.ind` when it is not a
variable.  The operation and the reduction are not looked at.  `mapreduce/gpu/GpuReduc1D_finalchunks.py:95-100,114-116,38`. -/
def finalParts (e : Expr) : Option (Expr × VarInfo) :=
  let parts (f g : Expr) : Option (Expr × VarInfo) :=
    let (fun_, varfinal) := if f.dim = 1 then (f, g) else (g, f)
    if fun_.dim = 1 then
      match varfinal with
      | .var i d c => some (fun_, toInfo (i, d, c))
      | _ => none
    else none
  match e with
  | .bin _ f g => parts f g
  | .tern _ f g _ => parts f g
  | .fact _ _ _ f g => parts f g
  | _ => none

/-! ## The kernel -/

/-- The inputs of the kernel: the formula of the reduction, its parts, and the arrays.
`mapreduce/gpu/GpuReduc1D_finalchunks.py:81-136`. -/
structure FinalCall where
  e : Expr
  F : Expr
  b : VarInfo
  tagI : Nat
  M : CMath
  junk : Expr → Nat → ℝ
  args : Nat → Mem ℝ
  B : Nat
  ny : Nat

/-- `table`: the arrays of the variables are at the places given by the whole formula, `self.varloader`.
`mapreduce/gpu/GpuReduc1D_finalchunks.py:133`, `utils/code_gen_utils.py:567-579,604-615`. -/
def FinalCall.table (K : FinalCall) (xi yj pp : Mem ℝ) : Table :=
  chunkTable id K.e.nminargs [(varsOf K.e.inputs K.tagI, xi), (varsOf K.e.inputs (1 - K.tagI), yj),
    (varsOf K.e.inputs 2, pp)]

/-- `varloader`: the variables of category `c` of the internal formula, that are loaded.
`mapreduce/gpu/GpuReduc1D_finalchunks.py:103-109`. -/
def FinalCall.vars (K : FinalCall) (c : Nat) : List VarInfo := varsOf K.F.inputs c

/-- Shared memory, `fout`, and the row `i` of the output. `mapreduce/gpu/GpuReduc1D_finalchunks.py:127-130,181-197`. -/
structure FinalMem where
  yj : Mem ℝ
  fout : Mem ℝ
  out : Mem ℝ

/-- `do_finalchunk_sub`, `mapreduce/gpu/GpuReduc1D_finalchunks.py:19-69`, for a thread with `i < nx`; `acc` is the
content of the accumulator before.  The row of the output is seen through `onSlice` in `gpuFinal`. -/
noncomputable def finalSub (K : FinalCall) (dimLoad tile jstart : Nat) (ts : List Nat) (chunk : Nat) (acc : Mem ℝ)
    (m : FinalMem) : FinalMem :=
  let acc := vectFill dimfinalchunk acc 0
  let yj := ts.foldl (fun yj t =>
    let j := tile * K.B + t
    if j < K.ny then onSlice (t * dimfinalchunk) (loadChunks [K.b.ind] dimLoad K.b.dim K.args chunk j) yj else yj) m.yj
  let acc := forRange (min K.B (K.ny - jstart)) (fun jrel acc =>
    forRange dimLoad (fun k acc => acc.set k (acc k + yj (jrel * dimfinalchunk + k) * m.fout jrel)) acc) acc
  let out := forRange dimLoad (fun k out =>
    out.set (chunk * dimfinalchunk + k) (out (chunk * dimfinalchunk + k) + acc k)) m.out
  { m with yj := yj, out := out }

/-- `nchunks`, `mapreduce/gpu/GpuReduc1D_finalchunks.py:101`. -/
def FinalCall.nchunks (K : FinalCall) : Nat := 1 + (K.b.dim - 1) / dimfinalchunk

/-- `dimlastfinalchunk`, `mapreduce/gpu/GpuReduc1D_finalchunks.py:102`. -/
def FinalCall.dimLast (K : FinalCall) : Nat := K.b.dim - (K.nchunks - 1) * dimfinalchunk

/-- One iteration of the loop over tiles, for a thread with `i < nx`; `ord` are the orders of the threads in the
loading phases.  `blocksize_chunks` is equal to `blockDim.x`.
`mapreduce/gpu/GpuReduc1D_finalchunks.py:203-222,119-122`. -/
noncomputable def finalTile (K : FinalCall) (ord : Nat → List Nat) (acc : Nat → Mem ℝ) (xi pp : Mem ℝ)
    (jstart tile : Nat) (m : FinalMem) : FinalMem :=
  let dimy := sumDims (K.vars (1 - K.tagI))
  let yj := (ord 0).foldl (fun yj t =>
    let j := tile * K.B + t
    if j < K.ny then onSlice (t * dimy) (loadVars (K.vars (1 - K.tagI)) K.args j) yj else yj) m.yj
  let fout := forRange (min K.B (K.ny - jstart)) (fun jrel fout =>
    fout.set (jrel * 1) (runCode K.M K.junk K.F (K.table xi (yj.shift (jrel * dimy)) pp) 0)) m.fout
  let m := { m with yj := yj, fout := fout }
  let m := forRange (K.nchunks - 1) (fun chunk m =>
    finalSub K dimfinalchunk tile jstart (ord (1 + chunk)) chunk (acc chunk) m) m
  finalSub K K.dimLast tile jstart (ord K.nchunks) (K.nchunks - 1) (acc (K.nchunks - 1)) m

/-- The loop over tiles, `mapreduce/gpu/GpuReduc1D_finalchunks.py:201-223`.  `fuel` bounds the number of tiles. -/
noncomputable def finalTiles (K : FinalCall) (ord : Nat → Nat → List Nat) (acc : Nat → Nat → Mem ℝ) (xi pp : Mem ℝ) :
    (fuel jstart tile : Nat) → FinalMem → FinalMem
  | 0, _, _, m => m
  | fuel + 1, jstart, tile, m =>
    if jstart < K.ny then
      finalTiles K ord acc xi pp fuel (jstart + K.B) (tile + 1)
        (finalTile K (ord tile) (acc tile) xi pp jstart tile m)
    else m

/-- The kernel executed by the thread of index `i < nx`, on its row of the output.
`mapreduce/gpu/GpuReduc1D_finalchunks.py:175-224`. -/
noncomputable def finalThread (K : FinalCall) (ord : Nat → Nat → List Nat) (junk : Nat → Mem ℝ)
    (acc : Nat → Nat → Mem ℝ) (i : Nat) (outi : Mem ℝ) : Mem ℝ :=
  let pp := loadVars (K.vars 2) K.args 0 (junk 0)
  let xi := loadVars (K.vars K.tagI) K.args i (junk 1)
  let outi := forRange K.b.dim (fun k out => out.set k 0) outi
  (finalTiles K ord acc xi pp K.ny 0 0 ⟨junk 2, junk 3, outi⟩).out

/-- The launch, as `gpu1D`.  `mapreduce/gpu/GpuReduc1D_finalchunks.py:175-224`,
`binders/nvrtc/keops_nvrtc.cpp:441-460`. -/
noncomputable def gpuFinal (K : FinalCall) (nx : Nat) (ord : Nat → Nat → Nat → List Nat) (junk : Nat → Nat → Mem ℝ)
    (acc : Nat → Nat → Nat → Mem ℝ) (sched : List (Nat × Nat)) (out : Mem ℝ) : Mem ℝ :=
  sched.foldl (fun out bt =>
    let i := bt.1 * K.B + bt.2
    if i < nx then onSlice (i * K.b.dim) (finalThread K (ord bt.1) (junk i) (acc i) i) out else out) out

/-- `ExecFinal … out out'`: the kernel for the formula `e`, started with `out` in the output array, ends with `out'`,
for some block size, some order of the threads and some content of the uninitialised memory. -/
inductive ExecFinal (M : CMath) (cjunk : Expr → Nat → ℝ) (e : Expr) (tagI m n : Nat) (args : Nat → Mem ℝ)
    (out : Mem ℝ) : Mem ℝ → Prop
  | mk (F : Expr) (b : VarInfo) (hparts : finalParts e = some (F, b)) (B : Nat) (hB : 0 < B)
      (ord : Nat → Nat → Nat → List Nat) (hord : ∀ b tile ph, (ord b tile ph).Perm (List.range B))
      (junk : Nat → Nat → Mem ℝ) (acc : Nat → Nat → Nat → Mem ℝ) (sched : List (Nat × Nat))
      (hsched : sched.Perm ((List.range (gridSize (launchSizes tagI m n).1 B)).product (List.range B))) :
      ExecFinal M cjunk e tagI m n args out (gpuFinal ⟨e, F, b, tagI, M, cjunk, args, B, (launchSizes tagI m n).2⟩
        (launchSizes tagI m n).1 ord junk acc sched out)

/-! ## The kernel that is run -/

/-- The executions of a sum with the one-dimensional GPU scheme, after the choice of the kernel in
`get_keops_dll.py:87-112`.  `flag` is `mul_var_highdim`, `chunks` is the option `enable_chunks`, and `sch` the summation
scheme, which must be `block_sum` for the last kernel (`mapreduce/gpu/GpuReduc1D_finalchunks.py:124-125`).  When an
exception is raised there is no execution.  The simple kernel is run as in `Exec`. -/
inductive ExecGpuSum (flag chunks : Bool) (sch : SumScheme) (M : CMath) (cjunk : Expr → Nat → ℝ) (e : Expr)
    (tagI m n : Nat) (args : Nat → Mem ℝ) (out : Mem ℝ) : Mem ℝ → Prop
  | final (out' : Mem ℝ) (hfinal : finalMode flag e.dim = true) (hsch : sch = .block)
      (h : ExecFinal M cjunk e tagI m n args out out') : ExecGpuSum flag chunks sch M cjunk e tagI m n args out out'
  | chunks (out' : Mem ℝ) (hfinal : finalMode flag e.dim = false) (hchunks : (chunks && chunkMode e) = true)
      (S : Scheme ℝ) (hS : getScheme (sumRed e.dim) sch = some S)
      (h : ExecChunks id id (sumRed e.dim) S M cjunk e tagI m n args out out') :
      ExecGpuSum flag chunks sch M cjunk e tagI m n args out out'
  | simple (out' : Mem ℝ) (hfinal : finalMode flag e.dim = false) (hchunks : (chunks && chunkMode e) = false)
      (S : Scheme ℝ) (hS : getScheme (sumRed e.dim) sch = some S)
      (h : Exec (sumRed e.dim) S (e.call id id M cjunk tagI m n args) out out') :
      ExecGpuSum flag chunks sch M cjunk e tagI m n args out out'

end Verif
