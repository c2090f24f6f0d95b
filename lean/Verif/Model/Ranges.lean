import Mathlib.Data.List.Defs
import Verif.Model.Schedule

/-!
# Block-sparse and batched reductions

Models of `keopscore/keopscore/include/Sizes.h`, `Ranges.h`, `ranges_utils.h`, of
`keopscore/keopscore/mapreduce/cpu/CpuReduc_ranges.py`,
`keopscore/keopscore/mapreduce/gpu/GpuReduc1D_ranges.py` and of the range pre-processing of
`keopscore/keopscore/binders/nvrtc/keops_nvrtc.cpp`.

`signed long int` values are natural numbers (the code only handles non-negative ones, except for
the marker `-1` of absent ranges); the conversion to a 32-bit `int` made by the return type of
`broadcast_index` is modelled.
-/

namespace Verif

section
variable {V : Type}

/-! ## Sizes -/

/-- `Sizes<TYPE>`, `include/Sizes.h:31-59`, the attributes used afterwards. -/
structure Sizes where
  nbatchdims : Nat
  /-- table of `(1 + nargs)` lines and `nbatchdims + 3` columns -/
  shapes : Mem Nat
  M : Nat
  N : Nat
  nbatches : Nat

/-- `argshapes[a][b]`; `do_checks` being 0, reading outside of the vector is not detected (0 is
returned here). `include/Sizes.h:239,302,304`. -/
def argShape (argshapes : List (List Nat)) (a b : Nat) : Nat := (argshapes.getD a []).getD b 0

/-- `check_broadcasting_batch_dimensions(argshapes, off_i, i)`, `include/Sizes.h:230-258`
(the check of compatibility is compiled only if `do_checks`, which is 0). -/
def broadcastBatchDims (nb : Nat) (argshapes : List (List Nat)) (a : Nat) (shapes : Mem Nat) :
    Mem Nat :=
  let off := (a + 1) * (nb + 3)
  forRange nb (fun b shapes =>
    let shapes := shapes.set (off + b) (argShape argshapes a b)
    if shapes (off + b) ≠ 1 then
      if shapes b = 1 then shapes.set b (shapes (off + b)) else shapes
    else shapes) shapes

/-- The loop over the `i` variables, `include/Sizes.h:269-326`. -/
def fillI (nb : Nat) (argshapes : List (List Nat)) (shapes : Mem Nat) (a : Nat) : Mem Nat :=
  let off := (a + 1) * (nb + 3)
  let shapes := broadcastBatchDims nb argshapes a shapes
  (shapes.set (off + nb) (argShape argshapes a nb)).set (off + nb + 2) (argShape argshapes a (nb + 1))

/-- The loop over the `j` variables, `include/Sizes.h:328-381`. -/
def fillJ (nb : Nat) (argshapes : List (List Nat)) (shapes : Mem Nat) (a : Nat) : Mem Nat :=
  let off := (a + 1) * (nb + 3)
  let shapes := broadcastBatchDims nb argshapes a shapes
  (shapes.set (off + nb + 1) (argShape argshapes a nb)).set (off + nb + 2)
    (argShape argshapes a (nb + 1))

/-- The loop over the parameters, `include/Sizes.h:383-409`. -/
def fillP (nb : Nat) (argshapes : List (List Nat)) (shapes : Mem Nat) (a : Nat) : Mem Nat :=
  let off := (a + 1) * (nb + 3)
  let shapes := broadcastBatchDims nb argshapes a shapes
  shapes.set (off + nb + 2) (argShape argshapes a nb)

/-- `nbatchdims`, `include/Sizes.h:177-194`: number of dimensions of the argument at position
`max(min indsI, min indsJ)` (with -1 for an empty list) minus 2. -/
def nbatchdimsOf (argshapes : List (List Nat)) (indsI indsJ : List Nat) : Nat :=
  match indsI.min?, indsJ.min? with
  | none, none => 0
  | some a, none => (argshapes.getD a []).length - 2
  | none, some a => (argshapes.getD a []).length - 2
  | some a, some b => (argshapes.getD (max a b) []).length - 2

/-- The constructor `Sizes`, `include/Sizes.h:62-150`, without half precision.  `indsI`, `indsJ`
are the positions of the variables of category 0 and 1. -/
def mkSizes (argshapes : List (List Nat)) (nx ny dimout : Nat) (indsI indsJ indsP : List Nat) :
    Sizes :=
  let nb := nbatchdimsOf argshapes indsI indsJ
  -- fill_shape
  let shapes : Mem Nat := fun _ => 1
  let shapes := shapes.set nb nx
  let shapes := shapes.set (nb + 1) ny
  let shapes := shapes.set (nb + 2) dimout
  -- check_ranges
  let shapes := indsI.foldl (fillI nb argshapes) shapes
  let shapes := indsJ.foldl (fillJ nb argshapes) shapes
  let shapes := indsP.foldl (fillP nb argshapes) shapes
  { nbatchdims := nb
    shapes := shapes
    M := shapes nb
    N := shapes (nb + 1)
    nbatches := (List.range nb).foldl (fun acc b => acc * shapes b) 1 }

/-! ## Ranges -/

/-- The six arrays of `castedranges` and the numbers of ranges, `include/Ranges.h:5-11`. -/
structure RangesArr where
  nrangesX : Nat
  nrangesY : Nat
  arr : Nat → Mem Nat

/-- `Ranges<TYPE>`, `include/Ranges.h:13-98`.  `user = none` is `ranges[6][0] == -1`.  The result
`none` stands for `tagRanges = 0`; `some none` stands for the case of user ranges with batch
dimensions: the check is not compiled, and the attributes are left uninitialised. -/
def mkRanges (s : Sizes) (user : Option RangesArr) : Option (Option RangesArr) :=
  if s.nbatchdims = 0 then
    match user with
    | none => none
    | some u => some (some u)
  else
    match user with
    | none =>
      let rangesI : Mem Nat := fun p => if p % 2 = 0 then p / 2 * s.M else (p / 2 + 1) * s.M
      let slicesI : Mem Nat := fun b => b + 1
      let redrangesJ : Mem Nat := fun p => if p % 2 = 0 then p / 2 * s.N else (p / 2 + 1) * s.N
      some (some {
        nrangesX := s.nbatches
        nrangesY := s.nbatches
        arr := fun k => match k with
          | 0 => rangesI
          | 1 => slicesI
          | 2 => redrangesJ
          | 3 => redrangesJ
          | 4 => slicesI
          | _ => rangesI })
    | some _ => some none

/-- The ranges along the output axis and the reduction axis, `CpuReduc_ranges.py:162-165` and `keops_nvrtc.cpp:173-178`. -/
structure AxisRanges where
  nranges : Nat
  rangesX : Mem Nat
  slicesX : Mem Nat
  rangesY : Mem Nat

/-- The choice on `tagJ`, `CpuReduc_ranges.py:162-165`, `keops_nvrtc.cpp:173-178`. -/
def RangesArr.axis (r : RangesArr) (tagI : Nat) : AxisRanges :=
  if tagI = 0 then ⟨r.nrangesX, r.arr 0, r.arr 1, r.arr 2⟩
  else ⟨r.nrangesY, r.arr 3, r.arr 4, r.arr 5⟩

/-- `start_slice`, `end_slice`. `CpuReduc_ranges.py:176-177`, `GpuReduc1D_ranges.py:97-98`. -/
def AxisRanges.startSlice (r : AxisRanges) (k : Nat) : Nat :=
  if k < 1 then 0 else r.slicesX (k - 1)
/-- `end_slice`, `CpuReduc_ranges.py:177`, `GpuReduc1D_ranges.py:98`. -/
def AxisRanges.endSlice (r : AxisRanges) (k : Nat) : Nat := r.slicesX k

/-! ## Broadcasting -/

/-- The exact value computed in `broadcast_index`, `include/ranges_utils.h:3-15`; the state is
`(res, step, full_step)` and the loop runs over `b = nbatchdims, ..., 1`. -/
def broadcastIndexLong (i nb : Nat) (full shape : Mem Nat) : Nat :=
  let mn := shape nb
  (forRange nb (fun t (s : Nat × Nat × Nat) =>
    let b := nb - t
    let res := if shape (b - 1) ≠ 1 then s.1 + ((i / s.2.2) % shape (b - 1)) * s.2.1 else s.1
    (res, s.2.1 * shape (b - 1), s.2.2 * full (b - 1))) (i % mn, mn, mn)).1

/-- The divisors met by `broadcast_index`: `M_N`, and `full_step`, `shape[b-1]` at each step where
the dimension is not 1. A zero divisor is a division by zero (the process is killed); the total
division used in `broadcastIndexLong` is only meaningful when all of them are nonzero.
`include/ranges_utils.h:6,9`. -/
def broadcastDivisors (nb : Nat) (full shape : Mem Nat) : List Nat :=
  shape nb :: (List.range nb).flatMap (fun t =>
    let b := nb - t
    if shape (b - 1) ≠ 1 then
      [(List.range t).foldl (fun s u => s * full (nb - u - 1)) (shape nb), shape (b - 1)]
    else [])

/-- Conversion to a 32-bit signed `int`. Return type of `broadcast_index`,
`include/ranges_utils.h:3`. -/
def toInt32 (n : Nat) : Int := Int.bmod (n : Int) (2 ^ 32)

/-- `broadcast_index`, `include/ranges_utils.h:3-15`, whose return type is `int`. -/
def broadcastIndex (i nb : Nat) (full shape : Mem Nat) : Int :=
  toInt32 (broadcastIndexLong i nb full shape)

/-- `vect_broadcast_index`, `include/ranges_utils.h:17-25`. -/
def vectBroadcastIndex (i nb : Nat) (full reduced : Mem Nat) (addOffset : Int) : Mem Int :=
  fun k => addOffset + broadcastIndex i nb full (reduced.shift ((nb + 1) * k))

/-- `fill_shapes`, `include/ranges_utils.h:27-90`: lines of the table for the variables `inds`,
with the entry of column `nbatchdims + col` at the end.  Closed form of the loops. -/
def fillShapes (nb : Nat) (shapes : Mem Nat) (inds : List Nat) (col : Nat) : Mem Nat :=
  fun p =>
    let k := p / (nb + 1)
    let l := p % (nb + 1)
    let line := (1 + inds.getD k 0) * (nb + 3)
    if l < nb then shapes (line + l) else shapes (line + nb + col)

/-- Same for the parameters: the last entry is 1. `include/ranges_utils.h:84-90`. -/
def fillShapesP (nb : Nat) (shapes : Mem Nat) (inds : List Nat) : Mem Nat :=
  fun p =>
    let k := p / (nb + 1)
    let l := p % (nb + 1)
    if l < nb then shapes ((1 + inds.getD k 0) * (nb + 3) + l) else 1

/-- `load_vars` with `offsets`, `utils/code_gen_utils.py:663-731`: the row of the `u`-th variable
is `row + offsets[u]`. State: `((xloc, a), u)`. -/
def loadVarsOff (vs : List VarInfo) (args : Nat → Mem V) (row : Nat) (offs : Mem Int)
    (xloc : Mem V) : Mem V :=
  (vs.foldl (fun (s : (Mem V × Nat) × Nat) v =>
    (forRange v.dim (fun w (t : Mem V × Nat) =>
      (t.1.set t.2 (args v.ind (((row : Int) + offs s.2) * v.dim + w).toNat), t.2 + 1)) s.1,
      s.2 + 1)) ((xloc, 0), 0)).1.1

/-- `load_vars` with optional offsets (the two branches on `nbatchdims`).
`CpuReduc_ranges.py:195-199`, `GpuReduc1D_ranges.py:109-113`. -/
def loadVarsOpt (vs : List VarInfo) (args : Nat → Mem V) (row : Nat) (offs : Option (Mem Int))
    (xloc : Mem V) : Mem V :=
  match offs with
  | none => loadVars vs args row xloc
  | some o => loadVarsOff vs args row o xloc

/-! ## A call -/

/-- A call with ranges or batches: code of the formula, variables, arrays, shape table, ranges and
number of rows of the allocated output. `CpuReduc_ranges.py:102-107`. -/
structure RProblem (V : Type) where
  ev : (Nat → Option (Mem V)) → Mem V
  vars : List VarInfo
  tagI : Nat
  args : Nat → Mem V
  sizes : Sizes
  rg : RangesArr
  /-- `true_nx`, `CpuReduc_ranges.py:145-148`: product of `shapeout` without the last dimension -/
  outRows : Nat

/-- The ranges used by the call, `CpuReduc_ranges.py:162-165`. -/
def RProblem.ax (P : RProblem V) : AxisRanges := P.rg.axis P.tagI
/-- `Var_loader.Varsi`, `utils/code_gen_utils.py:531-571`. -/
def RProblem.varsI (P : RProblem V) : List VarInfo := varsOf P.vars P.tagI
/-- `Var_loader.Varsj`, `utils/code_gen_utils.py:531-571`. -/
def RProblem.varsJ (P : RProblem V) : List VarInfo := varsOf P.vars (1 - P.tagI)
/-- `Var_loader.Varsp`, `utils/code_gen_utils.py:531-571`. -/
def RProblem.varsP (P : RProblem V) : List VarInfo := varsOf P.vars 2

/-- `shapes_i`, `shapes_j`, `shapes_p`; `nbatchdims + 1 - tagIJ` and `nbatchdims + tagIJ` with
`tagIJ = tagJ = 1 - tagI`. `include/ranges_utils.h:64-71`. -/
def RProblem.shapesI (P : RProblem V) : Mem Nat :=
  fillShapes P.sizes.nbatchdims P.sizes.shapes (P.varsI.map (·.ind)) (1 - (1 - P.tagI))
/-- `shapes_j`, `include/ranges_utils.h:74-81`. -/
def RProblem.shapesJ (P : RProblem V) : Mem Nat :=
  fillShapes P.sizes.nbatchdims P.sizes.shapes (P.varsJ.map (·.ind)) (1 - P.tagI)
/-- `shapes_p`, `include/ranges_utils.h:84-90`. -/
def RProblem.shapesP (P : RProblem V) : Mem Nat :=
  fillShapesP P.sizes.nbatchdims P.sizes.shapes (P.varsP.map (·.ind))

/-- Offsets of the three groups of variables: `none` if `nbatchdims = 0`.
`CpuReduc_ranges.py:181-186,208-210`, `keops_nvrtc.cpp:243-247`. -/
def RProblem.offs (P : RProblem V) (sh : Mem Nat) (i : Nat) (add : Int) : Option (Mem Int) :=
  if 0 < P.sizes.nbatchdims then
    some (vectBroadcastIndex i P.sizes.nbatchdims P.sizes.shapes sh add)
  else none

/-! ## CPU -/

/-- Body of the loop over `i` of `CpuReduc_ranges.py:189-227`.
`F start_y j` is the content of `fout`, `ix start_y j` the index given to the reduction. -/
def cpuRangeRow (R : Red V) (S : Scheme V) (rangesY : Mem Nat) (startSlice endSlice : Nat)
    (F : Nat → Nat → Mem V) (ix : Nat → Nat → Nat) (accJ tmpJ outi : Mem V) : Mem V :=
  let s := (R.init accJ, S.initTmp tmpJ)
  let s := forStride startSlice 1 (endSlice - startSlice) (fun slice s =>
    let startY := rangesY (2 * slice)
    let endY := rangesY (2 * slice + 1)
    forStride startY 1 (endY - startY) (fun j s => S.accum s (F startY j) (ix startY j)) s) s
  let s := S.final s
  R.fin s.1 outi

/-- `fout` for row `i` of range `r`, interval starting at `startY`, column `j`: local copies of the
variables, then the formula. `junk` is the content of the local arrays before the copies.
`CpuReduc_ranges.py:181-186,195-199,208-222`. -/
def cpuRangeF (P : RProblem V) (junk : Nat → Mem V) (r i startY j : Nat) : Mem V :=
  let startX := P.ax.rangesX (2 * r)
  let xi := match P.offs P.shapesI startX 0 with
    | none => loadVars P.varsI P.args i (junk 0)
    | some o => loadVarsOff P.varsI P.args (i - startX) o (junk 0)
  let yj := match P.offs P.shapesJ startY 0 with
    | none => loadVars P.varsJ P.args j (junk 1)
    | some o => loadVarsOff P.varsJ P.args (j - startY) o (junk 1)
  let pp := match P.offs P.shapesP r 0 with
    | none => loadVars P.varsP P.args 0 (junk 2)
    | some o => loadVarsOff P.varsP P.args 0 o (junk 2)
  P.ev (table P.vars P.tagI xi yj pp)

/-- Index passed to the reduction: `j` or `j-start_y`. `CpuReduc_ranges.py:215,221`. -/
def cpuRangeIx (P : RProblem V) (startY j : Nat) : Nat :=
  if P.sizes.nbatchdims = 0 then j else j - startY

/-- `CpuConv_ranges`, `mapreduce/cpu/CpuReduc_ranges.py:102-230`: first every row of the output is set to
the value of an empty reduction, then the ranges are processed one after the other, the rows of
range `r` in the order `order r` (parallel loop). -/
def cpuConvRanges (R : Red V) (S : Scheme V) (P : RProblem V) (junk : Nat → Nat → Mem V)
    (order : Nat → List Nat) (out : Mem V) : Mem V :=
  let out := forRange P.outRows (fun i out =>
    onSlice (i * R.dim) (R.fin (R.init (junk i 0))) out) out
  forRange P.ax.nranges (fun r out =>
    (order r).foldl (fun out i =>
      onSlice (i * R.dim) (cpuRangeRow R S P.ax.rangesY (P.ax.startSlice r) (P.ax.endSlice r)
        (cpuRangeF P (junk i) r i) (cpuRangeIx P) (junk i 3) (junk i 4)) out) out) out

/-! ## GPU -/

/-- Number of blocks, `keops_nvrtc.cpp:212-217` and `keops_nvrtc.cpp:281-286`. -/
def nblocks (B nranges : Nat) (rangesX : Mem Nat) : Nat :=
  forRange nranges (fun i n =>
    let len := rangesX (2 * i + 1) - rangesX (2 * i)
    n + (len / B + (if len % B = 0 then 0 else 1))) 0

/-- The loop `for (j = 0; j < len_range; j += blockSize_x)` for range `i`; `fuel` bounds the number
of iterations (`len_range` is enough when `blockSize_x > 0`). `keops_nvrtc.cpp:226-231`. -/
def lookupRange (B i start len : Nat) : (fuel j : Nat) → List (Nat × Nat × Nat)
  | 0, _ => []
  | fuel + 1, j =>
    if j < len then (i, start + j, start + j + min B (len - j)) ::
      lookupRange B i start len fuel (j + B)
    else []

/-- The lookup table of thread blocks, `keops_nvrtc.cpp:221-232` and `keops_nvrtc.cpp:290-301`. -/
def lookupTable (B nranges : Nat) (rangesX : Mem Nat) : List (Nat × Nat × Nat) :=
  (List.range nranges).flatMap (fun i =>
    let start := rangesX (2 * i)
    let len := rangesX (2 * i + 1) - start
    lookupRange B i start len len 0)

/-- Loading phase of a tile, `GpuReduc1D_ranges.py:137-145` (`if(j<end_y) load_vars('j', yjloc, ...)`):
the threads `ts`, in this order, copy the row `j = jstart + threadIdx.x`. -/
def gpuRLoadTile (ld : Nat → Mem V → Mem V) (dimy endY jstart : Nat) (ts : List Nat)
    (yj : Mem V) : Mem V :=
  ts.foldl (fun yj t =>
    let j := jstart + t
    if j < endY then onSlice (t * dimy) (ld j) yj else yj) yj

/-- The loop over tiles `for(jstart = start_y, tile = 0; jstart < end_y; jstart += blockDim.x,
tile++)` for one thread; `base` is `start_y` or 0 and is added to the index given to the reduction.
`GpuReduc1D_ranges.py:135-164`. -/
def gpuRTiles (S : Scheme V) (ld : Nat → Mem V → Mem V) (Fs : Mem V → Mem V)
    (dimy B endY base : Nat) (ord : Nat → List Nat) :
    (fuel jstart tile : Nat) → (yj : Mem V) → (s : Mem V × Mem V) → Mem V × (Mem V × Mem V)
  | 0, _, _, yj, s => (yj, s)
  | fuel + 1, jstart, tile, yj, s =>
    if jstart < endY then
      let yj := gpuRLoadTile ld dimy endY jstart (ord tile) yj
      let s := (s.1, S.blockInit s.2)
      let s := forRange (min B (endY - jstart)) (fun jrel s =>
        S.accum s (Fs (yj.shift (jrel * dimy))) (jrel + tile * B + base)) s
      let s := S.final s
      gpuRTiles S ld Fs dimy B endY base ord fuel (jstart + B) (tile + 1) yj s
    else (yj, s)

/-- The loop over the intervals of the row, with the merging of consecutive intervals. State:
`(start_y, (yj, (acc, tmp)))`. `GpuReduc1D_ranges.py:129-168`. -/
def gpuRSlices (S : Scheme V) (ld : Nat → Nat → Mem V → Mem V) (Fs : Mem V → Mem V)
    (dimy B nb : Nat) (rangesY : Mem Nat) (startSlice endSlice : Nat)
    (ord : Nat → Nat → List Nat) (st : Nat × (Mem V × (Mem V × Mem V))) :
    Nat × (Mem V × (Mem V × Mem V)) :=
  forStride startSlice 1 (endSlice - startSlice) (fun index st =>
    if index + 1 ≥ endSlice ∨ rangesY (2 * index + 2) ≠ rangesY (2 * index + 1) then
      let endY := rangesY (2 * index + 1)
      let r := gpuRTiles S (ld st.1) Fs dimy B endY (if nb = 0 then st.1 else 0) (ord index)
        (endY - st.1) st.1 0 st.2.1 st.2.2
      (if index + 1 < endSlice then rangesY (2 * index + 2) else st.1, r)
    else st) st

/-- The kernel `GpuConv1DOnDevice_ranges`, `GpuReduc1D_ranges.py:77-172`, for thread `t` of the block described by
`(range_id, start_x, end_x)`, when `i = start_x + t < end_x`.  The table `offsets_d` of the block
is built by `build_offset_tables`, `keops_nvrtc.cpp:75-149`. -/
def gpuRangesThread (R : Red V) (S : Scheme V) (P : RProblem V) (B : Nat)
    (blk : Nat × Nat × Nat) (t : Nat) (ord : Nat → Nat → List Nat) (junk : Nat → Mem V)
    (outi : Mem V) : Mem V :=
  let r := blk.1
  let startX := blk.2.1
  let i := startX + t
  -- build_offset_tables
  let rowsX := if P.tagI = 0 then P.sizes.M else P.sizes.N
  let rowsY := if P.tagI = 0 then P.sizes.N else P.sizes.M
  let offI := P.offs P.shapesI (r * rowsX) ((startX : Int) - (r * rowsX : Nat))
  let offJ := P.offs P.shapesJ (r * rowsY) 0
  let offP := P.offs P.shapesP r 0
  -- kernel
  let pp := loadVarsOpt P.varsP P.args 0 offP (junk 2)
  let xi := match offI with
    | none => loadVars P.varsI P.args i (junk 0)
    | some o => loadVarsOff P.varsI P.args t o (junk 0)
  let s := (R.init (junk 3), S.firstInit (junk 4))
  let st := gpuRSlices S
    (fun startY j => match offJ with
      | none => loadVars P.varsJ P.args j
      | some o => loadVarsOff P.varsJ P.args (j - startY) o)
    (fun yjrel => P.ev (table P.vars P.tagI xi yjrel pp))
    (sumDims P.varsJ) B P.sizes.nbatchdims P.ax.rangesY (P.ax.startSlice r) (P.ax.endSlice r) ord
    (P.ax.rangesY (2 * P.ax.startSlice r), (junk 1, s))
  R.fin st.2.2.1 outi

/-- The launch in ranges mode: the threads `(block, thread)` of `sched` are executed in this order.
Contrary to the CPU version the output is not initialised. `keops_nvrtc.cpp:568-595`. -/
def gpuRanges (R : Red V) (S : Scheme V) (P : RProblem V) (B : Nat)
    (ord : Nat → Nat → Nat → List Nat) (junk : Nat → Nat → Mem V)
    (sched : List (Nat × Nat)) (out : Mem V) : Mem V :=
  let lookup := lookupTable B P.ax.nranges P.ax.rangesX
  sched.foldl (fun out bt =>
    match lookup[bt.1]? with
    | none => out
    | some blk =>
      let i := blk.2.1 + bt.2
      if i < blk.2.2 then
        onSlice (i * R.dim) (gpuRangesThread R S P B blk bt.2 (ord bt.1) (junk i)) out
      else out) out

/-- Executions of a call with ranges or batches. `CpuReduc_ranges.py:102-230`,
`GpuReduc1D_ranges.py:77-172`. -/
inductive RExec (R : Red V) (S : Scheme V) (P : RProblem V) (out : Mem V) : Mem V → Prop
  | cpu (junk : Nat → Nat → Mem V) (order : Nat → List Nat)
      (horder : ∀ r < P.ax.nranges, (order r).Perm
        (List.range' (P.ax.rangesX (2 * r)) (P.ax.rangesX (2 * r + 1) - P.ax.rangesX (2 * r)))) :
      RExec R S P out (cpuConvRanges R S P junk order out)
  | gpu (B : Nat) (hB : 0 < B) (ord : Nat → Nat → Nat → List Nat)
      (hord : ∀ b index tile, (ord b index tile).Perm (List.range B)) (junk : Nat → Nat → Mem V)
      (sched : List (Nat × Nat))
      (hsched : sched.Perm ((List.range (lookupTable B P.ax.nranges P.ax.rangesX).length).product
        (List.range B))) :
      RExec R S P out (gpuRanges R S P B ord junk sched out)

/-- The beginning of `launch_keops_`, `CpuReduc_ranges.py:249-279` (construction of `Sizes` and `Ranges`)
and of `launch_kernel`, `keops_nvrtc.cpp:407-419`: from the shapes of the arguments and the
optional ranges of the user to the call.  Positions of the variables of category 0, 1, 2 are passed
as `indsi`, `indsj`, `indsp` (`LoadKeOps.py:146-157`).  `none`: no range mode, or ranges left
uninitialised. -/
def rangeCall (ev : (Nat → Option (Mem V)) → Mem V) (vars : List VarInfo) (tagI : Nat)
    (args : Nat → Mem V) (argshapes : List (List Nat)) (nx ny dimout outRows : Nat)
    (user : Option RangesArr) : Option (RProblem V) :=
  let inds := fun c => (varsOf vars c).map (·.ind)
  let s := mkSizes argshapes nx ny dimout (inds 0) (inds 1) (inds 2)
  match mkRanges s user with
  | some (some rg) => some { ev, vars, tagI, args, sizes := s, rg, outRows }
  | _ => none

/-- Shape of the output array, `pykeops/pykeops/common/keops_io/LoadKeOps.py:208-223`
(`reduce(np.maximum, batchdims_shapes)` over ALL the arguments, then `(M, dim)`).  Half precision
aside.  NumPy's `maximum` of two lists of the same length is the componentwise maximum. -/
def shapeOutPy (argshapes : List (List Nat)) (nbatchdims M dim : Nat) : List Nat :=
  if nbatchdims ≠ 0 then
    (match argshapes.map (fun s => s.take nbatchdims) with
      | [] => []
      | b :: bs => bs.foldl (fun acc c => List.zipWith max acc c) b) ++ [M, dim]
  else [M, dim]

end

end Verif
