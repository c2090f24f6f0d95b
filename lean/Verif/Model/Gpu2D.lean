import Verif.Model.Exec

/-!
# The two-pass GPU scheme

Model of `keopscore/keopscore/mapreduce/gpu/GpuReduc2D.py` and of the launch
`keopscore/keopscore/binders/nvrtc/keops_nvrtc.cpp:509-568`.
-/

namespace Verif

section
variable {V : Type}

/-- Generation of the code, `GpuReduc2D.py:63-68,148-188`: the result is the code of `ReducePair`.
* `kahan_scheme`: the accumulator is refused (`KeOps_Error`, lines 67-68);
* `direct_sum`: the template uses `sum_scheme.tmp_acc`, which `direct_sum` does not have
  (`sum_schemes.py:33-41`): `AttributeError`;
* `block_sum`: the code of `ReducePair` must exist. -/
def gen2D (R : Red V) : SumScheme → Option (Mem V → Mem V → Mem V)
  | .direct => none
  | .kahan => none
  | .block => R.pair

/-- Accumulator of thread `i` in a block of column `by`, `GpuReduc2D.py:130-183`
(`accumulate_result(..., hack=True)` accumulates in `acc` directly, `sum_schemes.py:58-60`).
`ord` is the order in which the threads of the block load the shared memory. -/
def gpu2DThread (R : Red V) (ev : (Nat → Option (Mem V)) → Mem V) (vars : List VarInfo)
    (tagI B ny : Nat) (args : Nat → Mem V) (ord : List Nat) (junk : Nat → Mem V)
    (i blky : Nat) : Mem V :=
  let varsj := varsOf vars (1 - tagI)
  let pp := loadVars (varsOf vars 2) args 0 (junk 0)
  let xi := loadVars (varsOf vars tagI) args i (junk 1)
  let yj := gpuLoadTile varsj args B ny blky ord (junk 2)
  forRange (min B (ny - B * blky)) (fun jrel acc =>
    R.short acc (ev (table vars tagI xi (yj.shift (jrel * sumDims varsj)) pp)) (B * blky + jrel))
    (R.init (junk 3))

/-- First kernel: the threads `((blockIdx.x, blockIdx.y), threadIdx.x)` of `sched`, in this order;
a thread with `i < nx` writes `out[blockIdx.y*dimred*nx + i*dimred + k] = acc[k]`,
`GpuReduc2D.py:186-199`. -/
def gpu2DPass1 (R : Red V) (ev : (Nat → Option (Mem V)) → Mem V) (vars : List VarInfo)
    (tagI B nx ny : Nat) (args : Nat → Mem V) (ord : Nat × Nat → List Nat)
    (junk : Nat × Nat → Nat → Mem V) (sched : List ((Nat × Nat) × Nat)) (outB : Mem V) : Mem V :=
  sched.foldl (fun outB bt =>
    let i := bt.1.1 * B + bt.2
    if i < nx then
      onSlice (bt.1.2 * R.dimred * nx + i * R.dimred) (fun o => vectCopy R.dimred o
        (gpu2DThread R ev vars tagI B ny args (ord bt.1) (junk (i, bt.1.2)) i bt.1.2)) outB
    else outB) outB

/-- Second kernel `reduce2D`, `GpuReduc2D.py:85-125`: thread `tid < nx` merges its `sizeY` partial
results in increasing order and finalises. -/
def gpu2DPass2 (R : Red V) (pair : Mem V → Mem V → Mem V) (B nx sizeY : Nat)
    (junk : Nat → Mem V) (inp : Mem V) (sched : List (Nat × Nat)) (out : Mem V) : Mem V :=
  sched.foldl (fun out bt =>
    let tid := bt.1 * B + bt.2
    if tid < nx then
      onSlice (tid * R.dim) (R.fin (forRange sizeY (fun y acc2 =>
        pair acc2 (inp.shift ((tid + y * nx) * R.dimred))) (R.init (junk tid)))) out
    else out) out

/-- Executions of the 2D scheme, `keops_nvrtc.cpp:509-568`: any block size, any order of the threads
of each kernel; the second kernel starts after the end of the first one (`cuCtxSynchronize`).  An
empty grid is refused by the driver, so that there is no execution if `nx` or `ny` is 0. -/
inductive Exec2D (R : Red V) (sch : SumScheme) (P : Problem V) (out : Mem V) : Mem V → Prop
  | mk (pair : Mem V → Mem V → Mem V) (hgen : gen2D R sch = some pair) (B : Nat) (hB : 0 < B)
      (hx : 0 < gridSize P.nx B) (hy : 0 < gridSize P.ny B)
      (ord : Nat × Nat → List Nat) (hord : ∀ b, (ord b).Perm (List.range B))
      (junk : Nat × Nat → Nat → Mem V) (sched : List ((Nat × Nat) × Nat))
      (hsched : sched.Perm (((List.range (gridSize P.nx B)).product
        (List.range (gridSize P.ny B))).product (List.range B)))
      (outB : Mem V) (junk2 : Nat → Mem V) (sched2 : List (Nat × Nat))
      (hsched2 : sched2.Perm
        ((List.range (gridSize (P.nx * R.dimred) B)).product (List.range B))) :
      Exec2D R sch P out (gpu2DPass2 R pair B P.nx (gridSize P.ny B) junk2
        (gpu2DPass1 R P.ev P.vars P.tagI B P.nx P.ny P.args ord junk sched outB) sched2 out)

end

end Verif
