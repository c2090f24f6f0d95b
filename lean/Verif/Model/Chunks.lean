import Verif.Model.FormulaCall
import Verif.Model.Factorize

/-!
# The chunked GPU kernel

Formulas that contain a sum or a scalar product over a large dimension are evaluated by chunks of 64 components
on the GPU.  Model of `keopscore/keopscore/formulas/Chunkable_Op.py`, of the methods about chunks of
`Operation`, `VectorizedScalarOp` and `Var`, of `mapreduce/Chunk_Mode_Constants.py` and of
`mapreduce/gpu/GpuReduc1D_chunks.py`.  All paths are relative to `keopscore/keopscore`.
-/

namespace Verif

/-- `dimchunk`, `config/chunks.py:19`. -/
def dimchunk : Nat := 64

/-- `(child.dim >= dim_treshold_chunk) | (child.dim in specdims_use_chunk)`, `formulas/Chunkable_Op.py:24`,
`config/chunks.py:20-21`. -/
def chunkDim (d : Nat) : Bool :=
  decide (146 ≤ d) || [99, 100, 102, 120, 133, 138, 139, 140, 141, 142].contains d

namespace Expr

/-! ## Methods of formulas -/

/-- `is_chunkable`: `formulas/variables/Var.py:67-69`, `formulas/VectorizedScalarOp.py:45-47`,
`formulas/Operation.py:224-226`. -/
def isChunkable : Expr → Bool
  | .var _ _ _ => true
  | .zero _ | .int _ | .rat _ _ => false
  | .un o f => o.vectorized && f.isChunkable
  | .bin o f g => o.vectorized && (f.isChunkable && g.isChunkable)
  | .tern _ f g h => f.isChunkable && (g.isChunkable && h.isChunkable)
  | .fact _ _ _ _ _ => false

/-- `chunked_version(dimchk)`: `formulas/variables/Var.py:64-65`, `formulas/VectorizedScalarOp.py:49-56`,
`formulas/Chunkable_Op.py:7-9`.  `Operation.chunked_version` (`formulas/Operation.py:221-222`) returns `None`
for the other classes, and is called for none of them (`useChunk` asks for `is_chunkable`): here they are left
as they are.  The constructors check the dimensions again: theorem `chunkedVersion_wf` shows that they accept. -/
def chunkedVersion (d : Nat) : Expr → Expr
  | .var i _ c => .var i d c
  | .un o f => if o.vectorized then .un o (if f.dim = 1 then f else f.chunkedVersion d)
      else if o = .sum then .un o (f.chunkedVersion d) else .un o f
  | .bin o f g => if o.vectorized then
        .bin o (if f.dim = 1 then f else f.chunkedVersion d) (if g.dim = 1 then g else g.chunkedVersion d)
      else if o = .scalprod then .bin o (f.chunkedVersion d) (g.chunkedVersion d) else .bin o f g
  | .tern o f g h => .tern o (if f.dim = 1 then f else f.chunkedVersion d)
      (if g.dim = 1 then g else g.chunkedVersion d) (if h.dim = 1 then h else h.chunkedVersion d)
  | e => e

/-- `use_chunk`, `formulas/Chunkable_Op.py:20-26`; the only subclasses are `Sum_Impl` (`maths/Sum.py:12`) and
`Scalprod_Impl` (`maths/Scalprod.py:15`).  `enable_chunk` is imported by value, and always true there. -/
def useChunk : Expr → Bool
  | .un o f => decide (o = .sum) && (f.isChunkable && chunkDim f.dim)
  | .bin o f g => decide (o = .scalprod) && ((f.isChunkable && g.isChunkable) && chunkDim f.dim)
  | _ => false

/-- `num_chunked_formulas`: `formulas/variables/Var.py:74-76`, `formulas/Operation.py:234-236`,
`formulas/Chunkable_Op.py:42-46`. -/
def numChunked : Expr → Nat
  | .var _ _ _ | .zero _ | .int _ | .rat _ _ => 0
  | .un o f => f.numChunked + if (un o f).useChunk then 1 else 0
  | .bin o f g => f.numChunked + g.numChunked + if (bin o f g).useChunk then 1 else 0
  | .tern _ f g h => f.numChunked + g.numChunked + h.numChunked
  | .fact _ _ _ f g => f.numChunked + g.numChunked

/-- `chunked_formulas(dimchk)`: the formulas and the dimension `dim_org` over which they sum.
`formulas/variables/Var.py:71-72`, `formulas/Operation.py:228-232`, `formulas/Chunkable_Op.py:28-40`. -/
def chunkedFormulas (d : Nat) : Expr → List (Expr × Nat)
  | .var _ _ _ | .zero _ | .int _ | .rat _ _ => []
  | .un o f => (if (un o f).useChunk then [((un o f).chunkedVersion d, f.dim)] else []) ++ f.chunkedFormulas d
  | .bin o f g => (if (bin o f g).useChunk then [((bin o f g).chunkedVersion d, f.dim)] else []) ++
      (f.chunkedFormulas d ++ g.chunkedFormulas d)
  | .tern _ f g h => f.chunkedFormulas d ++ (g.chunkedFormulas d ++ h.chunkedFormulas d)
  | .fact _ _ _ f g => f.chunkedFormulas d ++ g.chunkedFormulas d

/-- `post_chunk_formula(ind)`: `formulas/variables/Var.py:78-79`, `formulas/Operation.py:238-243`,
`formulas/Chunkable_Op.py:48-55` (where all the children are given the same index).  The constructors are called
again on children with the same dimensions. -/
def postChunk (ind : Nat) : Expr → Expr
  | .un o f => if (un o f).useChunk then .var ind 1 3 else .un o (f.postChunk ind)
  | .bin o f g => if (bin o f g).useChunk then .var ind 1 3
      else .bin o (f.postChunk ind) (g.postChunk (if o = .scalprod then ind else ind + f.numChunked))
  | .tern o f g h => .tern o (f.postChunk ind) (g.postChunk (ind + f.numChunked))
      (h.postChunk (ind + f.numChunked + g.numChunked))
  | .fact i d c f g => .fact i d c (f.postChunk ind) (g.postChunk (ind + f.numChunked))
  | e => e

/-- `chunked_vars`, for all categories: `formulas/variables/Var.py:81-82`, `formulas/VectorizedScalarOp.py:58-63`,
`formulas/Chunkable_Op.py:11-15`.  A list with repetitions: the sets are built in `chunkConsts`.  The other
classes have no such method; it is not called for them. -/
def chunkedVars : Expr → List (Int × Nat × Int)
  | .var i d c => [(i, d, c)]
  | .un o f => if o.vectorized ∧ f.dim = 1 then [] else f.chunkedVars
  | .bin o f g => (if o.vectorized ∧ f.dim = 1 then [] else f.chunkedVars) ++
      (if o.vectorized ∧ g.dim = 1 then [] else g.chunkedVars)
  | .tern _ f g h => (if f.dim = 1 then [] else f.chunkedVars) ++
      ((if g.dim = 1 then [] else g.chunkedVars) ++ (if h.dim = 1 then [] else h.chunkedVars))
  | _ => []

/-- `notchunked_vars`, for all categories: `formulas/variables/Var.py:84-85`, `formulas/VectorizedScalarOp.py:65-72`;
empty for `Chunkable_Op` (`formulas/Chunkable_Op.py:17-18`).  The other classes have no such method; it is not
called for them. -/
def notchunkedVars : Expr → List (Int × Nat × Int)
  | .un o f => if o.vectorized then (if f.dim = 1 then f.vars else f.notchunkedVars) else []
  | .bin o f g => if o.vectorized then (if f.dim = 1 then f.vars else f.notchunkedVars) ++
      (if g.dim = 1 then g.vars else g.notchunkedVars) else []
  | .tern _ f g h => (if f.dim = 1 then f.vars else f.notchunkedVars) ++
      ((if g.dim = 1 then g.vars else g.notchunkedVars) ++ (if h.dim = 1 then h.vars else h.notchunkedVars))
  | _ => []

end Expr

/-! ## Constants of the kernel -/

/-- The variables of one category, in the order of the local array: those that are loaded whole, and those that
are loaded by chunks.  `mapreduce/Chunk_Mode_Constants.py:113-126`. -/
structure ChunkVars where
  whole : List VarInfo
  chunked : List VarInfo

/-- `varsi` and `varsi_last`, `mapreduce/Chunk_Mode_Constants.py:95-111,113-126,130-140`: with chunks of `d`
components. -/
def ChunkVars.all (c : ChunkVars) (d : Nat) : List VarInfo :=
  c.whole ++ c.chunked.map fun v => ⟨v.ind, d, v.cat⟩

/-- `Chunk_Mode_Constants`, `mapreduce/Chunk_Mode_Constants.py:6-140`. -/
structure ChunkConsts where
  dimOrg : Nat
  nchunks : Nat
  dimLast : Nat
  nminargs : Nat
  fun_ : Expr
  funLast : Expr
  post : Expr
  i : ChunkVars
  j : ChunkVars
  p : ChunkVars

/-- The variable with its position and category in natural numbers (those that are loaded have them).
`formulas/variables/Var.py:10-48`. -/
def toInfo (v : Int × Nat × Int) : VarInfo := ⟨v.1.toNat, v.2.1, v.2.2.toNat⟩

/-- `v.Vars(cat)`, `formulas/Operation.py:40-50`. -/
def ofCat (c : Nat) (l : List (Int × Nat × Int)) : List (Int × Nat × Int) := l.filter fun v => v.2.2 = c

/-- `varsi_chunked` and `varsi_notchunked` (and `j`, `p`), `mapreduce/Chunk_Mode_Constants.py:26-36,38-50,62-91`.
`setList l` is `list(set(l))`: a list of the elements of `l` in an unspecified order. -/
def chunkVars (setList : List (Int × Nat × Int) → List (Int × Nat × Int)) (f post : Expr) (cat : Nat) : ChunkVars where
  whole := (setList (ofCat cat (post.vars ++ f.notchunkedVars))).map toInfo
  chunked := (setList (ofCat cat f.chunkedVars)).map toInfo

/-- `Chunk_Mode_Constants.__init__`, `mapreduce/Chunk_Mode_Constants.py:7-140`; `chunked_formulas(...)[0]` is an
`IndexError` when there is none. -/
def chunkConsts (setList : List (Int × Nat × Int) → List (Int × Nat × Int)) (e : Expr) (tagI : Nat) :
    Option ChunkConsts :=
  match e.chunkedFormulas dimchunk with
  | [] => none
  | (f, dimOrg) :: _ =>
    let nchunks := 1 + (dimOrg - 1) / dimchunk
    let dimLast := dimOrg - (nchunks - 1) * dimchunk
    match e.chunkedFormulas dimLast with
    | [] => none
    | (fl, _) :: _ =>
      let post := e.postChunk e.nminargs
      some ⟨dimOrg, nchunks, dimLast, e.nminargs, f, fl, post, chunkVars setList f post tagI,
        chunkVars setList f post (1 - tagI), chunkVars setList f post 2⟩

/-- `chunk_postchunk_mix`, `mapreduce/Chunk_Mode_Constants.py:52-60`. -/
def chunkMix (e f : Expr) : Bool :=
  [0, 1, 2].any fun c => ((ofCat c (e.postChunk e.nminargs).vars).map (·.1)).any fun i =>
    ((ofCat c f.chunkedVars).map (·.1)).contains i

/-- The choice of the chunked mode for `GpuReduc1D`, `get_keops_dll.py:101-110`.  The formula of the reduction
is `e`; the other chunked mode is not used. -/
def chunkMode (e : Expr) : Bool :=
  match e.chunkedFormulas dimchunk with
  | [f] => !chunkMix e f.1
  | _ => false

/-! ## The kernel -/

section

variable {V : Type} (enc : ℝ → V) (dec : V → ℝ)

/-- `load_vars_chunks`, `utils/code_gen_utils.py:734-771`. -/
def loadChunks (inds : List Nat) (dimLoad dimOrg : Nat) (args : Nat → Mem V) (chunk row : Nat) (xloc : Mem V) :
    Mem V :=
  (inds.foldl (fun (s : Mem V × Nat) ind =>
    forRange dimLoad (fun v (s : Mem V × Nat) =>
      (s.1.set s.2 (args ind (row * dimOrg + chunk * dimchunk + v)), s.2 + 1)) s) (xloc, 0)).1

/-- `table` and `table4`, `utils/code_gen_utils.py:604-615,633-660`: the arrays of the variables of each list,
one after the other in the local array that goes with it. -/
def chunkTable (n : Nat) (groups : List (List VarInfo × Mem V)) : Table :=
  groups.foldl (fun res g =>
    (g.1.foldl (fun (s : Table × Nat) v =>
      (s.1.set v.ind (some ((List.range v.dim).map fun q => dec (g.2 (s.2 + q)))), s.2 + v.dim)) (res, 0)).1)
    (List.replicate n none)

/-- The array filled by the code of `e`, on a new array; see `Expr.call`.  `formulas/Operation.py:66-117`. -/
noncomputable def runCode (M : CMath) (junk : Expr → Nat → ℝ) (e : Expr) (tab : Table) : Nat → ℝ := fun k =>
  match e.code M junk (newArr junk e) tab with
  | .ok (y, _) => y.getD k 0
  | .error _ => 0

/-- The memory seen by one thread: the shared memory of its block, its local copies of row `i` and of the
parameters, `fout_chunk`, and its accumulators.  `mapreduce/gpu/GpuReduc1D_chunks.py:154-162`. -/
structure ChunkMem (V : Type) where
  yj : Mem V
  xi : Mem V
  pp : Mem V
  fout : Mem V
  s : Mem V × Mem V

/-- The inputs of the kernel that do not change. `mapreduce/gpu/GpuReduc1D_chunks.py:259`. -/
structure ChunkCall (V : Type) where
  C : ChunkConsts
  M : CMath
  junk : Expr → Nat → ℝ
  args : Nat → Mem V
  B : Nat
  ny : Nat

/-- `chk.dimy`, `mapreduce/Chunk_Mode_Constants.py:118-121`. -/
def ChunkConsts.dimy (C : ChunkConsts) : Nat := sumDims (C.j.all dimchunk)

/-- The loading of the chunk `chunk` of the variables `j` by the threads `ts` of a block, in this order:
`mapreduce/gpu/GpuReduc1D_chunks.py:51-53,64-73,103-105`. -/
def chunkLoadTile (K : ChunkCall V) (dimLoad chunk tile : Nat) (ts : List Nat) (yj : Mem V) : Mem V :=
  ts.foldl (fun yj t =>
    let j := tile * K.B + t
    if j < K.ny then
      onSlice (t * K.C.dimy + sumDims K.C.j.whole)
        (loadChunks (K.C.j.chunked.map (·.ind)) dimLoad K.C.dimOrg K.args chunk j) yj
    else yj) yj

/-- `do_chunk_sub`, `mapreduce/gpu/GpuReduc1D_chunks.py:19-118`, for a thread with `i < nx`: loads the chunk
`chunk`, of `dimLoad` components, and adds the value of `f` on it to `fout_chunk`.  The parameters are loaded at
the beginning of `param_loc`.  The numbers are added through their real values. -/
noncomputable def chunkSub (K : ChunkCall V) (f : Expr) (dimLoad i tile jstart : Nat) (ts : List Nat) (chunk : Nat)
    (m : ChunkMem V) : ChunkMem V :=
  let C := K.C
  let xi := onSlice (sumDims C.i.whole) (loadChunks (C.i.chunked.map (·.ind)) dimLoad C.dimOrg K.args chunk i) m.xi
  let yj := chunkLoadTile K dimLoad chunk tile ts m.yj
  let pp := loadChunks (C.p.chunked.map (·.ind)) dimLoad C.dimOrg K.args chunk 0 m.pp
  let fout := forRange (min K.B (K.ny - jstart)) (fun jrel fout =>
    let tab := chunkTable dec C.nminargs [(C.i.all dimLoad, xi), (C.j.all dimLoad, yj.shift (jrel * C.dimy)),
      (C.p.all dimLoad, pp)]
    fout.set (jrel * C.fun_.dim) (enc (dec (fout (jrel * C.fun_.dim)) + runCode K.M K.junk f tab 0))) m.fout
  { m with xi := xi, yj := yj, pp := pp, fout := fout }

/-- One iteration of the loop over tiles, for a thread with `i < nx`.
`mapreduce/gpu/GpuReduc1D_chunks.py:290-323`.  `ord` is the order of the threads in the loading phases: first
those of the whole variables (phase 0), then those of each chunk (phase `1 + chunk`). -/
noncomputable def chunkTile (S : Scheme V) (K : ChunkCall V) (ord : Nat → List Nat) (i jstart tile : Nat)
    (m : ChunkMem V) : ChunkMem V :=
  let C := K.C
  let yj := (ord 0).foldl (fun yj t =>
    let j := tile * K.B + t
    if j < K.ny then onSlice (t * C.dimy) (loadVars C.j.whole K.args j) yj else yj) m.yj
  let fout := forRange (min K.B (K.ny - jstart)) (fun jrel fout => fout.set (jrel * C.fun_.dim) (enc 0)) m.fout
  let m := { m with yj := yj, fout := fout, s := (m.s.1, S.blockInit m.s.2) }
  let m := forRange (C.nchunks - 1) (fun chunk m =>
    chunkSub enc dec K C.fun_ dimchunk i tile jstart (ord (1 + chunk)) chunk m) m
  let m := chunkSub enc dec K C.funLast C.dimLast i tile jstart (ord C.nchunks) (C.nchunks - 1) m
  let s := forRange (min K.B (K.ny - jstart)) (fun jrel s =>
    let tab := chunkTable dec (C.nminargs + 1) [(C.i.all dimchunk, m.xi),
      (C.j.all dimchunk, m.yj.shift (jrel * C.dimy)), (C.p.all dimchunk, m.pp),
      ([⟨C.nminargs, C.fun_.dim, 3⟩], m.fout.shift (jrel * C.fun_.dim))]
    S.accum s (fun k => enc (runCode K.M K.junk C.post tab k)) (jrel + tile * K.B)) m.s
  { m with s := S.final s }

/-- The loop over tiles, `mapreduce/gpu/GpuReduc1D_chunks.py:288-324`. `fuel` bounds the number of tiles. -/
noncomputable def chunkTiles (S : Scheme V) (K : ChunkCall V) (ord : Nat → Nat → List Nat) (i : Nat) :
    (fuel jstart tile : Nat) → ChunkMem V → ChunkMem V
  | 0, _, _, m => m
  | fuel + 1, jstart, tile, m =>
    if jstart < K.ny then
      chunkTiles S K ord i fuel (jstart + K.B) (tile + 1) (chunkTile enc dec S K (ord tile) i jstart tile m)
    else m

/-- The kernel executed by the thread of global index `i < nx`, `mapreduce/gpu/GpuReduc1D_chunks.py:259-330`. -/
noncomputable def chunkThread (R : Red V) (S : Scheme V) (K : ChunkCall V) (ord : Nat → Nat → List Nat)
    (junk : Nat → Mem V) (i : Nat) (outi : Mem V) : Mem V :=
  let pp := loadVars K.C.p.whole K.args 0 (junk 0)
  let s := (R.init (junk 2), S.firstInit (junk 3))
  let xi := loadVars K.C.i.whole K.args i (junk 1)
  let m := chunkTiles enc dec S K ord i K.ny 0 0 ⟨junk 4, xi, pp, junk 5, s⟩
  R.fin m.s.1 outi

/-- The launch, as `gpu1D`: the threads of the grid are executed in the order `sched`.
`mapreduce/gpu/GpuReduc1D_chunks.py:259-330`, `binders/nvrtc/keops_nvrtc.cpp:441-460`. -/
noncomputable def gpuChunks (R : Red V) (S : Scheme V) (K : ChunkCall V) (nx : Nat) (ord : Nat → Nat → Nat → List Nat)
    (junk : Nat → Nat → Mem V) (sched : List (Nat × Nat)) (out : Mem V) : Mem V :=
  sched.foldl (fun out bt =>
    let i := bt.1 * K.B + bt.2
    if i < nx then
      onSlice (i * R.dim) (chunkThread enc dec R S K (ord bt.1) (junk i) i) out
    else out) out

/-- `ExecChunks … out out'`: the chunked kernel for the formula `e`, started with `out` in the output array, ends
with `out'`, for some block size, some order of the threads and of the sets of variables, and some content of the
uninitialised memory. -/
inductive ExecChunks (R : Red V) (S : Scheme V) (M : CMath) (cjunk : Expr → Nat → ℝ) (e : Expr) (tagI m n : Nat)
    (args : Nat → Mem V) (out : Mem V) : Mem V → Prop
  | mk (setList : List (Int × Nat × Int) → List (Int × Nat × Int)) (hset : ∀ l, (setList l).Perm l.dedup)
      (C : ChunkConsts) (hC : chunkConsts setList e tagI = some C)
      (B : Nat) (hB : 0 < B) (ord : Nat → Nat → Nat → List Nat)
      (hord : ∀ b tile ph, (ord b tile ph).Perm (List.range B)) (junk : Nat → Nat → Mem V)
      (sched : List (Nat × Nat))
      (hsched : sched.Perm ((List.range (gridSize (launchSizes tagI m n).1 B)).product (List.range B))) :
      ExecChunks R S M cjunk e tagI m n args out (gpuChunks enc dec R S
        ⟨C, M, cjunk, args, B, (launchSizes tagI m n).2⟩ (launchSizes tagI m n).1 ord junk sched out)

end

end Verif
