import Verif.Model.FinalChunks
import Verif.Model.ChunksRanges

/-!
# The GPU kernel for scalar times vector, with ranges or batches

Model of `keopscore/keopscore/mapreduce/gpu/GpuReduc1D_ranges_finalchunks.py`, which is used instead of
`GpuReduc1D_ranges` when `finalMode` holds, `keopscore/keopscore/get_keops_dll.py:98-100`.
-/

namespace Verif

/-- What does not change in a block: the factor `F` and the variable `b`, the call, the block size, the offsets and
the position of the thread, `i = startX + t`. `mapreduce/gpu/GpuReduc1D_ranges_finalchunks.py:118-145,250-273`. -/
structure FinalBlock where
  F : Expr
  b : VarInfo
  M : CMath
  junk : Expr → Nat → ℝ
  P : RProblem ℝ
  B : Nat
  o : BlockOffs
  startX : Nat
  t : Nat

/-- `varloader`: the variables of category `c` of the internal formula.
`mapreduce/gpu/GpuReduc1D_ranges_finalchunks.py:126-132`. -/
def FinalBlock.vars (K : FinalBlock) (c : Nat) : List VarInfo := varsOf K.F.inputs c

/-- `table`: here the places are given by the internal formula.
`mapreduce/gpu/GpuReduc1D_ranges_finalchunks.py:156`, `utils/code_gen_utils.py:604-615`. -/
def FinalBlock.table (K : FinalBlock) (xi yj pp : Mem ℝ) : Table :=
  chunkTable id K.F.nminargs [(K.vars K.P.tagI, xi), (K.vars (1 - K.P.tagI), yj), (K.vars 2, pp)]

/-- Loading of the variables `i`, `mapreduce/gpu/GpuReduc1D_ranges_finalchunks.py:286-292`. -/
def FinalBlock.loadI (K : FinalBlock) : Mem ℝ → Mem ℝ :=
  match K.o.i with
  | none => loadVars (K.vars K.P.tagI) K.P.args (K.startX + K.t)
  | some f => loadVarsRef (K.P.varsI.map (·.ind)) (K.vars K.P.tagI) K.P.args K.t f

/-- Loading of the variables `j`, `mapreduce/gpu/GpuReduc1D_ranges_finalchunks.py:311-317`. -/
def FinalBlock.loadJ (K : FinalBlock) (startY j : Nat) : Mem ℝ → Mem ℝ :=
  match K.o.j with
  | none => loadVars (K.vars (1 - K.P.tagI)) K.P.args j
  | some f => loadVarsRef (K.P.varsJ.map (·.ind)) (K.vars (1 - K.P.tagI)) K.P.args (j - startY) f

/-- Loading of the parameters, `mapreduce/gpu/GpuReduc1D_ranges_finalchunks.py:278-280`, without offsets even if there
are batch dimensions. -/
def FinalBlock.loadP (K : FinalBlock) : Mem ℝ → Mem ℝ := loadVars (K.vars 2) K.P.args 0

/-- Loading of a chunk of `b`, `mapreduce/gpu/GpuReduc1D_ranges_finalchunks.py:43-64,68-74`. -/
def FinalBlock.chunkB (K : FinalBlock) (dimLoad chunk startY j : Nat) : Mem ℝ → Mem ℝ :=
  match K.o.j with
  | none => loadChunks [K.b.ind] dimLoad K.b.dim K.P.args chunk j
  | some f => loadChunksOff (K.P.varsJ.map (·.ind)) [K.b.ind] dimLoad K.b.dim K.P.args chunk (j - startY) f

/-- `do_finalchunk_sub_ranges`, `mapreduce/gpu/GpuReduc1D_ranges_finalchunks.py:20-91`, for a thread with `i < end_x`;
see `finalSub`. -/
noncomputable def finalRSub (K : FinalBlock) (dimLoad startY endY jstart : Nat) (ts : List Nat) (chunk : Nat)
    (acc : Mem ℝ) (m : FinalMem) : FinalMem :=
  let acc := vectFill dimfinalchunk acc 0
  let yj := ts.foldl (fun yj t =>
    let j := jstart + t
    if j < endY then onSlice (t * dimfinalchunk) (K.chunkB dimLoad chunk startY j) yj else yj) m.yj
  let acc := forRange (min K.B (endY - jstart)) (fun jrel acc =>
    forRange dimLoad (fun k acc => acc.set k (acc k + yj (jrel * dimfinalchunk + k) * m.fout jrel)) acc) acc
  let out := forRange dimLoad (fun k out =>
    out.set (chunk * dimfinalchunk + k) (out (chunk * dimfinalchunk + k) + acc k)) m.out
  { m with yj := yj, out := out }

/-- `nchunks`, `mapreduce/gpu/GpuReduc1D_ranges_finalchunks.py:124`. -/
def FinalBlock.nchunks (K : FinalBlock) : Nat := 1 + (K.b.dim - 1) / dimfinalchunk

/-- `dimlastfinalchunk`, `mapreduce/gpu/GpuReduc1D_ranges_finalchunks.py:125`. -/
def FinalBlock.dimLast (K : FinalBlock) : Nat := K.b.dim - (K.nchunks - 1) * dimfinalchunk

/-- One iteration of the loop over tiles, for a thread with `i < end_x`.  `blocksize_chunks` is equal to `blockDim.x`.
`mapreduce/gpu/GpuReduc1D_ranges_finalchunks.py:306-332`; `ord` as in `finalTile`. -/
noncomputable def finalRTile (K : FinalBlock) (ord : Nat → List Nat) (acc : Nat → Mem ℝ) (xi pp : Mem ℝ)
    (startY endY jstart : Nat) (m : FinalMem) : FinalMem :=
  let dimy := sumDims (K.vars (1 - K.P.tagI))
  let yj := (ord 0).foldl (fun yj t =>
    let j := jstart + t
    if j < endY then onSlice (t * dimy) (K.loadJ startY j) yj else yj) m.yj
  let fout := forRange (min K.B (endY - jstart)) (fun jrel fout =>
    fout.set (jrel * 1) (runCode K.M K.junk K.F (K.table xi (yj.shift (jrel * dimy)) pp) 0)) m.fout
  let m := { m with yj := yj, fout := fout }
  let m := forRange (K.nchunks - 1) (fun chunk m =>
    finalRSub K dimfinalchunk startY endY jstart (ord (1 + chunk)) chunk (acc chunk) m) m
  finalRSub K K.dimLast startY endY jstart (ord K.nchunks) (K.nchunks - 1) (acc (K.nchunks - 1)) m

/-- The loop over tiles, `mapreduce/gpu/GpuReduc1D_ranges_finalchunks.py:306-332`. `fuel` bounds the number of tiles. -/
noncomputable def finalRTiles (K : FinalBlock) (ord : Nat → Nat → List Nat) (acc : Nat → Nat → Mem ℝ) (xi pp : Mem ℝ)
    (startY endY : Nat) : (fuel jstart tile : Nat) → FinalMem → FinalMem
  | 0, _, _, m => m
  | fuel + 1, jstart, tile, m =>
    if jstart < endY then
      finalRTiles K ord acc xi pp startY endY fuel (jstart + K.B) (tile + 1)
        (finalRTile K (ord tile) (acc tile) xi pp startY endY jstart m)
    else m

/-- The loop over the intervals of the row, with the merging of consecutive intervals; the state is `start_y` and the
memory. `mapreduce/gpu/GpuReduc1D_ranges_finalchunks.py:302-336`. -/
noncomputable def finalRSlices (K : FinalBlock) (rangesY : Mem Nat) (startSlice endSlice : Nat)
    (ord : Nat → Nat → Nat → List Nat) (acc : Nat → Nat → Nat → Mem ℝ) (xi pp : Mem ℝ) (st : Nat × FinalMem) :
    Nat × FinalMem :=
  forStride startSlice 1 (endSlice - startSlice) (fun index st =>
    if index + 1 ≥ endSlice ∨ rangesY (2 * index + 2) ≠ rangesY (2 * index + 1) then
      let endY := rangesY (2 * index + 1)
      let m := finalRTiles K (ord index) (acc index) xi pp st.1 endY (endY - st.1) st.1 0 st.2
      (if index + 1 < endSlice then rangesY (2 * index + 2) else st.1, m)
    else st) st

/-- The kernel for the thread `t` of the block `(range_id, start_x, end_x)`, when `start_x + t < end_x`, on its row of
the output. `mapreduce/gpu/GpuReduc1D_ranges_finalchunks.py:250-337`. -/
noncomputable def finalRThread (F : Expr) (b : VarInfo) (M : CMath) (cjunk : Expr → Nat → ℝ) (P : RProblem ℝ) (B : Nat)
    (blk : Nat × Nat × Nat) (t : Nat) (ord : Nat → Nat → Nat → List Nat) (junk : Nat → Mem ℝ)
    (acc : Nat → Nat → Nat → Mem ℝ) (outi : Mem ℝ) : Mem ℝ :=
  let r := blk.1
  let startX := blk.2.1
  let K : FinalBlock := ⟨F, b, M, cjunk, P, B, P.blockOffs r startX, startX, t⟩
  let pp := K.loadP (junk 0)
  let xi := K.loadI (junk 1)
  let outi := forRange b.dim (fun k out => out.set k 0) outi
  (finalRSlices K P.ax.rangesY (P.ax.startSlice r) (P.ax.endSlice r) ord acc xi pp
    (P.ax.rangesY (2 * P.ax.startSlice r), ⟨junk 2, junk 3, outi⟩)).2.out

/-- The launch, as `gpuRanges`. `mapreduce/gpu/GpuReduc1D_ranges_finalchunks.py:246-337`,
`binders/nvrtc/keops_nvrtc.cpp:568-595`. -/
noncomputable def gpuFinalR (F : Expr) (b : VarInfo) (M : CMath) (cjunk : Expr → Nat → ℝ) (P : RProblem ℝ) (B : Nat)
    (ord : Nat → Nat → Nat → Nat → List Nat) (junk : Nat → Nat → Mem ℝ) (acc : Nat → Nat → Nat → Nat → Mem ℝ)
    (sched : List (Nat × Nat)) (out : Mem ℝ) : Mem ℝ :=
  let lookup := lookupTable B P.ax.nranges P.ax.rangesX
  sched.foldl (fun out bt =>
    match lookup[bt.1]? with
    | none => out
    | some blk =>
      let i := blk.2.1 + bt.2
      if i < blk.2.2 then
        onSlice (i * b.dim) (finalRThread F b M cjunk P B blk bt.2 (ord bt.1) (junk i) (acc i)) out
      else out) out

/-- `ExecFinalR … out out'`: the kernel for the formula `e`, started with `out` in the output array, ends with `out'`,
for some block size, some order of the threads, and some content of the uninitialised memory.  There is no execution
if `b` is not a variable `j`: `indsref.index` raises an exception (`utils/code_gen_utils.py:803`).
`mapreduce/gpu/GpuReduc1D_ranges_finalchunks.py:94-338`. -/
inductive ExecFinalR (M : CMath) (cjunk : Expr → Nat → ℝ) (e : Expr) (P : RProblem ℝ) (out : Mem ℝ) : Mem ℝ → Prop
  | mk (F : Expr) (b : VarInfo) (hparts : finalParts e = some (F, b)) (hb : b.ind ∈ P.varsJ.map (·.ind))
      (B : Nat) (hB : 0 < B) (ord : Nat → Nat → Nat → Nat → List Nat)
      (hord : ∀ b index tile ph, (ord b index tile ph).Perm (List.range B)) (junk : Nat → Nat → Mem ℝ)
      (acc : Nat → Nat → Nat → Nat → Mem ℝ) (sched : List (Nat × Nat))
      (hsched : sched.Perm ((List.range (lookupTable B P.ax.nranges P.ax.rangesX).length).product
        (List.range B))) :
      ExecFinalR M cjunk e P out (gpuFinalR F b M cjunk P B ord junk acc sched out)

end Verif
