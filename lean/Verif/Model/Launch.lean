import Verif.Model.Schedule

/-!
# The launches of the GPU routines of a process

The sizes of the grid and of the blocks that are given to the driver, and the two global variables that they depend on.
-/

namespace Verif.Launch

/-- The limits of a device: threads per block, and bytes of shared memory per block. Read at configuration by
`keopscore/config/cuda.py:445-489`, compiled in the binder as `MAXTHREADSPERBLOCKn`, `SHAREDMEMPERBLOCKn`. -/
structure Props where
  threads : Nat
  shared : Nat
deriving DecidableEq, Repr

/-- What may go wrong: the driver does not know the device, `SetGpuProps` throws, an integer division by zero stops the
process, or the driver refuses a launch (`CUDA_SAFE_CALL` throws). -/
inductive Fail
  | noDevice | props | divZero | driver
deriving DecidableEq, Repr

/-- How the kernel is launched: `tag1D2D == 1`, `RR.tagRanges == 1 && tagZero == 0` (with the lengths of the ranges of
rows), or neither. `binders/nvrtc/keops_nvrtc.cpp:509,568,596`. -/
inductive Mode
  | simple
  | ranges (lens : List Nat)
  | twoD
deriving DecidableEq, Repr

/-- The arguments of `launch_kernel` that matter here; `size` is `sizeof(TYPE)`, `cuda` is `cuda_block_size`, and `M`, `N`
are `nx`, `ny` as given. `binders/nvrtc/keops_nvrtc.cpp:390-399`. -/
structure Call where
  mode : Mode
  chunk : Bool
  cuda : Nat
  dimY : Nat
  size : Nat
  dimred : Nat
  tagI : Nat
  M : Nat
  N : Nat
deriving DecidableEq, Repr

/-- One `cuLaunchKernel`: the sizes of the grid, the size of the blocks and the bytes of shared memory; the other sizes
are 1. `binders/nvrtc/keops_nvrtc.cpp:542-546,563-566,591-595,610-614`. -/
structure Grid where
  x : Nat
  y : Nat
  block : Nat
  shared : Nat
deriving DecidableEq, Repr

/-- Conversion to `unsigned int`. -/
def u32 (n : Nat) : Nat := n % 2 ^ 32

/-- `blockSize_x`; `g` are the global variables. All numbers are at most `cuda_block_size`, so that the conversion to
`unsigned int` is not written. `binders/nvrtc/keops_nvrtc.cpp:441-458`. -/
def blockSize (g : Props) (c : Call) : Nat :=
  if c.chunk = false then min c.cuda (min g.threads (g.shared / max 1 (c.dimY * c.size)))
  else min c.cuda (min 1024 (49152 / max 1 (c.dimY * c.size)))

/-- `n / b + (n % b == 0 ? 0 : 1)`, in `signed long int`. `binders/nvrtc/keops_nvrtc.cpp:285,511,519,599`. -/
def ceilDiv (n b : Nat) : Except Fail Nat :=
  if b = 0 then .error .divZero else .ok (n / b + if n % b = 0 then 0 else 1)

/-- The number of blocks with ranges. `binders/nvrtc/keops_nvrtc.cpp:281-286`. -/
def nblocks (lens : List Nat) (b : Nat) : Except Fail Nat :=
  lens.foldlM (fun k len => do return k + (← ceilDiv len b)) 0

/-- The launches of one call: `nx` and `ny` are exchanged if `tagI == 1`.
`binders/nvrtc/keops_nvrtc.cpp:461-465,507-615`. -/
def grids (g : Props) (c : Call) : Except Fail (List Grid) := do
  let b := blockSize g c
  let (nx, ny) := launchSizes c.tagI c.M c.N
  match c.mode with
  | .twoD =>
    let gx ← ceilDiv nx b
    let gy ← ceilDiv ny b
    let g2 ← ceilDiv (nx * c.dimred) b
    return [⟨u32 gx, u32 gy, b, b * c.dimY * c.size⟩, ⟨u32 g2, 1, b, 0⟩]
  | .ranges lens =>
    let n ← nblocks lens b
    return [⟨u32 n, 1, b, b * c.dimY * c.size⟩]
  | .simple =>
    let gx ← ceilDiv nx b
    return [⟨u32 gx, 1, b, b * c.dimY * c.size⟩]

/-- What `cuLaunchKernel` accepts on a device (external, in the trusted base): grids that are not empty, of less than
`2^31` by `65536` blocks, blocks that are not empty, of at most the number of threads and the shared memory of the device.
Registers and static shared memory are not considered. -/
def accepts (p : Props) (g : Grid) : Bool :=
  decide (0 < g.x ∧ g.x < 2 ^ 31 ∧ 0 < g.y ∧ g.y < 2 ^ 16 ∧ 0 < g.block ∧ g.block ≤ p.threads ∧ g.shared ≤ p.shared)

/-- The state of a process: the global variables `maxThreadsPerBlock` and `sharedMemPerBlock`, shared by all the objects
of the binder, and the device of each object. `include/CudaSizes.h:33-37`. -/
structure State where
  glob : Props
  mods : List Nat
deriving DecidableEq, Repr

/-- The variables are zero when the process starts. -/
def State.init : State := ⟨⟨0, 0⟩, []⟩

/-- The creation of an object for a routine on a device, and a call of an object.
`pykeops/common/keops_io/LoadKeOps_nvrtc.py:22-51`. -/
inductive Event
  | create (d : Nat)
  | call (m : Nat) (c : Call)
deriving DecidableEq, Repr

/-- `SetGpuProps(device)` on a machine with these devices: the binder knows at most twelve devices.
`include/CudaSizes.h:39-99`. -/
def setGpuProps (devs : List Props) (d : Nat) : Except Fail Props :=
  match (devs.take 12)[d]? with
  | some p => .ok p
  | none => .error .props

/-- One event: the new state and, for a call, its launches. An object that does not exist is not called.
`binders/nvrtc/keops_nvrtc.cpp:354-380,390-615`. -/
def step (devs : List Props) (s : State) : Event → State × Except Fail (List Grid)
  | .create d =>
    if devs.length ≤ d then (s, .error .noDevice)
    else match setGpuProps devs d with
      | .error e => (s, .error e)
      | .ok p => (⟨p, s.mods ++ [d]⟩, .ok [])
  | .call m c =>
    match s.mods[m]? >>= fun d => devs[d]? with
    | none => (s, .ok [])
    | some p =>
      match grids s.glob c with
      | .error e => (s, .error e)
      | .ok gs => (s, if gs.all (accepts p) then .ok gs else .error .driver)

/-- A history of a process. Errors are exceptions in Python, which the user may catch (a division by zero stops the
process: the events after it do not exist). -/
def run (devs : List Props) (hist : List Event) : State :=
  hist.foldl (fun s e => (step devs s e).1) State.init

/-- The row of a thread: `signed long int i = blockIdx.x * blockDim.x + threadIdx.x`, where the right-hand side is
computed in `unsigned int`. `GpuReduc1D.py:50`, `GpuReduc1D_chunks.py:262`, `GpuReduc1D_finalchunks.py:178`,
`GpuReduc2D.py:95,144`. -/
def rowOf (b B t : Nat) : Nat := u32 (b * B + t)

end Verif.Launch
