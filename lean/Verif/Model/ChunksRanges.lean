import Verif.Model.Chunks
import Verif.Model.Ranges

/-!
# The chunked kernel with ranges or batches

Model of `keopscore/keopscore/mapreduce/gpu/GpuReduc1D_ranges_chunks.py`, which is used instead of
`GpuReduc1D_ranges` under the conditions of `chunkMode`, `keopscore/keopscore/get_keops_dll.py:98-110`.
-/

namespace Verif

section

variable {V : Type} (enc : ℝ → V) (dec : V → ℝ)

/-- `load_vars` with `offsets` and `indsref`, `utils/code_gen_utils.py:663-731`: the offset of a variable is the one
at the position of this variable in the list `ref`. -/
def loadVarsRef (ref : List Nat) (vs : List VarInfo) (args : Nat → Mem V) (row : Nat) (offs : Mem Int)
    (xloc : Mem V) : Mem V :=
  (vs.foldl (fun (s : Mem V × Nat) v =>
    forRange v.dim (fun w (s : Mem V × Nat) =>
      (s.1.set s.2 (args v.ind (((row : Int) + offs (ref.idxOf v.ind)) * v.dim + w).toNat), s.2 + 1)) s) (xloc, 0)).1

/-- `load_vars_chunks_offsets`, `utils/code_gen_utils.py:774-810`. -/
def loadChunksOff (ref inds : List Nat) (dimLoad dimOrg : Nat) (args : Nat → Mem V) (chunk row : Nat)
    (offs : Mem Int) (xloc : Mem V) : Mem V :=
  (inds.foldl (fun (s : Mem V × Nat) ind =>
    forRange dimLoad (fun v (s : Mem V × Nat) =>
      (s.1.set s.2 (args ind (((row : Int) + offs (ref.idxOf ind)) * dimOrg + chunk * dimchunk + v).toNat),
        s.2 + 1)) s) (xloc, 0)).1

/-- `indices_i`, `indices_j`, `indices_p`: the offsets of a block, absent without batch dimensions.
`mapreduce/gpu/GpuReduc1D_ranges_chunks.py:229-239,375-378`. -/
structure BlockOffs where
  i : Option (Mem Int)
  j : Option (Mem Int)
  p : Option (Mem Int)

/-- The offsets of the block that starts at `startX` in the range `r`: `build_offset_tables`,
`binders/nvrtc/keops_nvrtc.cpp:75-149`, as in `gpuRangesThread`. -/
def RProblem.blockOffs (P : RProblem V) (r startX : Nat) : BlockOffs :=
  let rowsX := if P.tagI = 0 then P.sizes.M else P.sizes.N
  let rowsY := if P.tagI = 0 then P.sizes.N else P.sizes.M
  ⟨P.offs P.shapesI (r * rowsX) ((startX : Int) - (r * rowsX : Nat)), P.offs P.shapesJ (r * rowsY) 0,
    P.offs P.shapesP r 0⟩

/-- What does not change in a block: the constants, the code, the call, the block size, the offsets and the
position of the thread, `i = startX + t`. `mapreduce/gpu/GpuReduc1D_ranges_chunks.py:380-396`. -/
structure ChunkBlock (V : Type) where
  C : ChunkConsts
  M : CMath
  junk : Expr → Nat → ℝ
  P : RProblem V
  B : Nat
  o : BlockOffs
  startX : Nat
  t : Nat

/-- Loading of the whole variables `i`, `mapreduce/gpu/GpuReduc1D_ranges_chunks.py:422-430`. -/
def ChunkBlock.wholeI (K : ChunkBlock V) : Mem V → Mem V :=
  match K.o.i with
  | none => loadVars K.C.i.whole K.P.args (K.startX + K.t)
  | some f => loadVarsRef (K.P.varsI.map (·.ind)) K.C.i.whole K.P.args K.t f

/-- Loading of the whole variables `j`, `mapreduce/gpu/GpuReduc1D_ranges_chunks.py:442-450`. -/
def ChunkBlock.wholeJ (K : ChunkBlock V) (startY j : Nat) : Mem V → Mem V :=
  match K.o.j with
  | none => loadVars K.C.j.whole K.P.args j
  | some f => loadVarsRef (K.P.varsJ.map (·.ind)) K.C.j.whole K.P.args (j - startY) f

/-- Loading of the whole parameters, `mapreduce/gpu/GpuReduc1D_ranges_chunks.py:402-407`.  There is no `indsref`:
the offset is found by the position in the list of whole parameters. -/
def ChunkBlock.wholeP (K : ChunkBlock V) : Mem V → Mem V := loadVarsOpt K.C.p.whole K.P.args 0 K.o.p

/-- Loading of a chunk of the variables `i`, `mapreduce/gpu/GpuReduc1D_ranges_chunks.py:62-90,154-160`. -/
def ChunkBlock.chunkI (K : ChunkBlock V) (dimLoad chunk : Nat) : Mem V → Mem V :=
  match K.o.i with
  | none => loadChunks (K.C.i.chunked.map (·.ind)) dimLoad K.C.dimOrg K.P.args chunk (K.startX + K.t)
  | some f => loadChunksOff (K.P.varsI.map (·.ind)) (K.C.i.chunked.map (·.ind)) dimLoad K.C.dimOrg K.P.args chunk K.t f

/-- Loading of a chunk of the variables `j`, `mapreduce/gpu/GpuReduc1D_ranges_chunks.py:92-114,161-167`. -/
def ChunkBlock.chunkJ (K : ChunkBlock V) (dimLoad chunk startY j : Nat) : Mem V → Mem V :=
  match K.o.j with
  | none => loadChunks (K.C.j.chunked.map (·.ind)) dimLoad K.C.dimOrg K.P.args chunk j
  | some f => loadChunksOff (K.P.varsJ.map (·.ind)) (K.C.j.chunked.map (·.ind)) dimLoad K.C.dimOrg K.P.args chunk
      (j - startY) f

/-- Loading of a chunk of the parameters, `mapreduce/gpu/GpuReduc1D_ranges_chunks.py:116-136,168-172`. -/
def ChunkBlock.chunkP (K : ChunkBlock V) (dimLoad chunk : Nat) : Mem V → Mem V :=
  match K.o.p with
  | none => loadChunks (K.C.p.chunked.map (·.ind)) dimLoad K.C.dimOrg K.P.args chunk 0
  | some f => loadChunksOff (K.P.varsP.map (·.ind)) (K.C.p.chunked.map (·.ind)) dimLoad K.C.dimOrg K.P.args chunk 0 f

/-- `do_chunk_sub_ranges`, `mapreduce/gpu/GpuReduc1D_ranges_chunks.py:21-183`, for a thread with `i < end_x`; the
threads `ts` load the chunk, in this order. -/
noncomputable def chunkRSub (K : ChunkBlock V) (f : Expr) (dimLoad startY endY jstart : Nat) (ts : List Nat)
    (chunk : Nat) (m : ChunkMem V) : ChunkMem V :=
  let C := K.C
  let xi := onSlice (sumDims C.i.whole) (K.chunkI dimLoad chunk) m.xi
  let yj := ts.foldl (fun yj t =>
    let j := jstart + t
    if j < endY then onSlice (t * C.dimy + sumDims C.j.whole) (K.chunkJ dimLoad chunk startY j) yj else yj) m.yj
  let pp := K.chunkP dimLoad chunk m.pp
  let fout := forRange (min K.B (endY - jstart)) (fun jrel fout =>
    let tab := chunkTable dec C.nminargs [(C.i.all dimLoad, xi), (C.j.all dimLoad, yj.shift (jrel * C.dimy)),
      (C.p.all dimLoad, pp)]
    fout.set (jrel * C.fun_.dim) (enc (dec (fout (jrel * C.fun_.dim)) + runCode K.M K.junk f tab 0))) m.fout
  { m with xi := xi, yj := yj, pp := pp, fout := fout }

/-- One iteration of the loop over tiles, for a thread with `i < end_x`.  The index given to the reduction does
not contain `start_y`, with or without batch dimensions.
`mapreduce/gpu/GpuReduc1D_ranges_chunks.py:438-488`; `ord` as in `chunkTile`. -/
noncomputable def chunkRTile (S : Scheme V) (K : ChunkBlock V) (ord : Nat → List Nat)
    (startY endY jstart tile : Nat) (m : ChunkMem V) : ChunkMem V :=
  let C := K.C
  let yj := (ord 0).foldl (fun yj t =>
    let j := jstart + t
    if j < endY then onSlice (t * C.dimy) (K.wholeJ startY j) yj else yj) m.yj
  let fout := forRange (min K.B (endY - jstart)) (fun jrel fout => fout.set (jrel * C.fun_.dim) (enc 0)) m.fout
  let m := { m with yj := yj, fout := fout, s := (m.s.1, S.blockInit m.s.2) }
  let m := forRange (C.nchunks - 1) (fun chunk m =>
    chunkRSub enc dec K C.fun_ dimchunk startY endY jstart (ord (1 + chunk)) chunk m) m
  let m := chunkRSub enc dec K C.funLast C.dimLast startY endY jstart (ord C.nchunks) (C.nchunks - 1) m
  let s := forRange (min K.B (endY - jstart)) (fun jrel s =>
    let tab := chunkTable dec (C.nminargs + 1) [(C.i.all dimchunk, m.xi),
      (C.j.all dimchunk, m.yj.shift (jrel * C.dimy)), (C.p.all dimchunk, m.pp),
      ([⟨C.nminargs, C.fun_.dim, 3⟩], m.fout.shift (jrel * C.fun_.dim))]
    S.accum s (fun k => enc (runCode K.M K.junk C.post tab k)) (jrel + tile * K.B)) m.s
  { m with s := S.final s }

/-- The loop over tiles, `mapreduce/gpu/GpuReduc1D_ranges_chunks.py:438-488`. `fuel` bounds the number of tiles. -/
noncomputable def chunkRTiles (S : Scheme V) (K : ChunkBlock V) (ord : Nat → Nat → List Nat) (startY endY : Nat) :
    (fuel jstart tile : Nat) → ChunkMem V → ChunkMem V
  | 0, _, _, m => m
  | fuel + 1, jstart, tile, m =>
    if jstart < endY then
      chunkRTiles S K ord startY endY fuel (jstart + K.B) (tile + 1)
        (chunkRTile enc dec S K (ord tile) startY endY jstart tile m)
    else m

/-- The loop over the intervals of the row, with the merging of consecutive intervals; the state is `start_y` and the
memory. `mapreduce/gpu/GpuReduc1D_ranges_chunks.py:432-494`. -/
noncomputable def chunkRSlices (S : Scheme V) (K : ChunkBlock V) (rangesY : Mem Nat) (startSlice endSlice : Nat)
    (ord : Nat → Nat → Nat → List Nat) (st : Nat × ChunkMem V) : Nat × ChunkMem V :=
  forStride startSlice 1 (endSlice - startSlice) (fun index st =>
    if index + 1 ≥ endSlice ∨ rangesY (2 * index + 2) ≠ rangesY (2 * index + 1) then
      let endY := rangesY (2 * index + 1)
      let m := chunkRTiles enc dec S K (ord index) st.1 endY (endY - st.1) st.1 0 st.2
      (if index + 1 < endSlice then rangesY (2 * index + 2) else st.1, m)
    else st) st

/-- The kernel for the thread `t` of the block `(range_id, start_x, end_x)`, when `start_x + t < end_x`.
`mapreduce/gpu/GpuReduc1D_ranges_chunks.py:375-498`. -/
noncomputable def chunkRThread (R : Red V) (S : Scheme V) (C : ChunkConsts) (M : CMath) (cjunk : Expr → Nat → ℝ)
    (P : RProblem V) (B : Nat) (blk : Nat × Nat × Nat) (t : Nat) (ord : Nat → Nat → Nat → List Nat)
    (junk : Nat → Mem V) (outi : Mem V) : Mem V :=
  let r := blk.1
  let startX := blk.2.1
  let K : ChunkBlock V := ⟨C, M, cjunk, P, B, P.blockOffs r startX, startX, t⟩
  let pp := K.wholeP (junk 0)
  let s := (R.init (junk 2), S.firstInit (junk 3))
  let xi := K.wholeI (junk 1)
  let st := chunkRSlices enc dec S K P.ax.rangesY (P.ax.startSlice r) (P.ax.endSlice r) ord
    (P.ax.rangesY (2 * P.ax.startSlice r), ⟨junk 4, xi, pp, junk 5, s⟩)
  R.fin st.2.s.1 outi

/-- The launch, as `gpuRanges`. `mapreduce/gpu/GpuReduc1D_ranges_chunks.py:375-498`,
`binders/nvrtc/keops_nvrtc.cpp:568-595`. -/
noncomputable def gpuChunksR (R : Red V) (S : Scheme V) (C : ChunkConsts) (M : CMath) (cjunk : Expr → Nat → ℝ)
    (P : RProblem V) (B : Nat) (ord : Nat → Nat → Nat → Nat → List Nat) (junk : Nat → Nat → Mem V)
    (sched : List (Nat × Nat)) (out : Mem V) : Mem V :=
  let lookup := lookupTable B P.ax.nranges P.ax.rangesX
  sched.foldl (fun out bt =>
    match lookup[bt.1]? with
    | none => out
    | some blk =>
      let i := blk.2.1 + bt.2
      if i < blk.2.2 then
        onSlice (i * R.dim) (chunkRThread enc dec R S C M cjunk P B blk bt.2 (ord bt.1) (junk i)) out
      else out) out

/-- `ExecChunksR … out out'`: the chunked kernel with ranges for the formula `e`, started with `out` in the output
array, ends with `out'`, for some block size, some order of the threads, and some content of the uninitialised
memory.  `setList` gives the order of the elements of a Python set.  `P` gives the arrays, sizes and ranges of the
call.  `mapreduce/gpu/GpuReduc1D_ranges_chunks.py:186-499`. -/
inductive ExecChunksR (R : Red V) (S : Scheme V) (setList : List (Int × Nat × Int) → List (Int × Nat × Int))
    (M : CMath) (cjunk : Expr → Nat → ℝ) (e : Expr) (P : RProblem V) (out : Mem V) : Mem V → Prop
  | mk (C : ChunkConsts) (hC : chunkConsts setList e P.tagI = some C)
      (B : Nat) (hB : 0 < B) (ord : Nat → Nat → Nat → Nat → List Nat)
      (hord : ∀ b index tile ph, (ord b index tile ph).Perm (List.range B)) (junk : Nat → Nat → Mem V)
      (sched : List (Nat × Nat))
      (hsched : sched.Perm ((List.range (lookupTable B P.ax.nranges P.ax.rangesX).length).product
        (List.range B))) :
      ExecChunksR R S setList M cjunk e P out (gpuChunksR enc dec R S C M cjunk P B ord junk sched out)

end

end Verif
