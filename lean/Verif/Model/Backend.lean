import Mathlib.Data.List.Basic
import Mathlib.Data.Int.Notation

/-!
# Choice of the backend and of the device

Models of `pykeops/common/get_options.py`, of `set_device` and of the beginning of `_forward`
(`pykeops/torch/generic/generic_red.py`), of `Genred.__call__` (`pykeops/numpy/generic/generic_red.py`), of the
choice of the kernel class (`pykeops/common/keops_io/LoadKeOps.py`, `keopscore/get_keops_dll.py`) and of the way the
binders use the pointers that they receive (`keopscore/binders/nvrtc/keops_nvrtc.cpp`, `keopscore/include/Ranges.h`,
`keopscore/include/utils_pe.h`).  Arrays are reduced to the place where their entries are stored.
-/

namespace Verif.Backend

/-- Exceptions raised by the code below, by their Python type; `keops` is `KeOps_Error`
(`keopscore/utils/misc_utils.py:28-35`) and `cuda` an error of the CUDA driver
(`CUDA_SAFE_CALL`, `keopscore/include/utils_pe.h:27-37`). -/
inductive Err
  | value | type | key | index | keops | cuda
deriving DecidableEq, Repr

/-- Where the entries of an array are stored: `tensor.device`; the index of the device is `None` for the first and
`i` for the second.  Read by `torch/utils.py:10-11` and `torch/generic/generic_red.py:47,50`. -/
inductive Loc
  | host
  | cuda (i : ℕ)
deriving DecidableEq, Repr

/-- The types told apart by `_find_mem`: `np.ndarray`, `torch.Tensor` or `Parameter`, and any other type.
`pykeops/common/get_options.py:92,100`. -/
inductive Arr
  | numpy
  | torch (l : Loc)
  | other (l : Loc)
deriving DecidableEq, Repr

/-- Where an argument is stored; NumPy arrays are on the host (`get_options.py:94`). `torch/generic/generic_red.py:47`. -/
def Arr.loc : Arr → Loc
  | .numpy => .host
  | .torch l => l
  | .other l => l

/-- The configuration: `gpu_available` and `torch_found` (`pykeops/config.py:10,21`), `get_use_cuda()`
(`keopscore/config/cuda.py:153-154`), the number of devices and `default_device_id` (`pykeops/__init__.py:38`). -/
structure Config where
  gpuAvailable : Bool
  torchFound : Bool
  useCuda : Bool
  nGpus : ℕ
  defaultId : ℤ

/-- `possible_options_list`, `pykeops/common/get_options.py:21-31`. -/
def options : List String :=
  ["auto", "CPU", "GPU", "GPU_1D", "GPU_1D_device", "GPU_1D_host", "GPU_2D", "GPU_2D_device", "GPU_2D_host"]

/-- `re.split("_", backend)`, on lists of characters. `pykeops/common/get_options.py:61`. -/
def splitUnderscore : List Char → List (List Char)
  | [] => [[]]
  | c :: l =>
    if c = '_' then [] :: splitUnderscore l
    else
      match splitUnderscore l with
      | [] => [[c]]
      | w :: ws => (c :: w) :: ws

/-- The dictionary `dev`, `pykeops/common/get_options.py:17`. -/
def dev (s : List Char) : Except Err ℕ :=
  if s = ['C', 'P', 'U'] then .ok 0 else if s = ['G', 'P', 'U'] then .ok 1 else .error .key

/-- The dictionary `grid`, `pykeops/common/get_options.py:18`. -/
def grid (s : List Char) : Except Err ℕ :=
  if s = ['1', 'D'] then .ok 0 else if s = ['2', 'D'] then .ok 1 else .error .key

/-- The dictionary `memtype`, `pykeops/common/get_options.py:19`. -/
def memtype (s : List Char) : Except Err ℕ :=
  if s = ['h', 'o', 's', 't'] then .ok 0
  else if s = ['d', 'e', 'v', 'i', 'c', 'e'] then .ok 1 else .error .key

/-- `is_on_device`, `pykeops/torch/utils.py:10-11`. -/
def isOnDevice (a : Arr) : Bool := a.loc ≠ .host

/-- `type(var) is np.ndarray`, `pykeops/common/get_options.py:92`. -/
def Arr.isNumpy : Arr → Bool
  | .numpy => true
  | _ => false

/-- `type(var) in [torch.Tensor, torch.nn.parameter.Parameter]`, `pykeops/common/get_options.py:100`. -/
def Arr.isTorch : Arr → Bool
  | .torch _ => true
  | _ => false

/-- `_find_mem`, `pykeops/common/get_options.py:89-125`. -/
def findMem (cfg : Config) (vars : List Arr) : Except Err ℕ :=
  if vars.all Arr.isNumpy then .ok 0
  else if cfg.torchFound then
    if vars.all Arr.isTorch then
      if vars.all isOnDevice then .ok 1
      else if !vars.any isOnDevice then .ok 0
      else .error .value
    else .error .type
  else .error .type

/-- `_find_grid`, `pykeops/common/get_options.py:127-129`. -/
def findGrid : ℕ := 0

/-- `define_tag_backend`, `pykeops/common/get_options.py:33-79`: `tagCPUGPU`, `tag1D2D`, `tagHostDevice`.  The function
returns `None` for names with more than two underscores, which no option has; `key` stands for the error made by
unpacking it. -/
def defineTag (cfg : Config) (backend : String) (vars : List Arr) : Except Err (ℕ × ℕ × ℕ) :=
  if backend ∉ options then .error .value
  else if backend = "auto" then do
    let m ← findMem cfg vars
    return (if cfg.gpuAvailable then 1 else 0, findGrid, m)
  else
    match splitUnderscore backend.toList with
    | [a] => do
      let d ← dev a
      let m ← findMem cfg vars
      return (d, findGrid, m)
    | [a, b] => do
      let d ← dev a
      let g ← grid b
      let m ← findMem cfg vars
      return (d, g, m)
    | [a, b, c] => do
      let d ← dev a
      let g ← grid b
      let m ← memtype c
      return (d, g, m)
    | _ => .error .key

/-- `device.index`, with `None` for the host. `pykeops/torch/generic/generic_red.py:50`. -/
def Loc.index : Loc → Option ℕ
  | .host => none
  | .cuda i => some i

/-- The truth value of `device.index`: `None` and `0` are false. `pykeops/torch/generic/generic_red.py:56,62`. -/
def truthyIndex : Option ℕ → Bool
  | none => false
  | some i => i ≠ 0

/-- `set_device`, `pykeops/torch/generic/generic_red.py:46-67`.  `tagCPUGPU == 1 & tagHostDevice == 1` is the chained
comparison `tagCPUGPU == (1 & tagHostDevice) == 1`. -/
def setDevice (cfg : Config) (tagCPUGPU tagHostDevice : ℕ) (request : ℤ) (args : List Loc) : Except Err (ℤ × Loc) :=
  match args with
  | [] => .error .index
  | first :: rest =>
    if (tagCPUGPU = 1 &&& tagHostDevice ∧ 1 &&& tagHostDevice = 1) ∧ rest.any (fun l => l.index ≠ first.index) then
      .error .value
    else if request = -1 then
      match first.index with
      | some (i + 1) => .ok ((i + 1 : ℕ), first)
      | _ => .ok (if tagCPUGPU = 1 then cfg.defaultId else -1, first)
    else if truthyIndex first.index ∧ first.index.map Int.ofNat ≠ some request then .error .value
    else .ok (request, first)

/-- The classes found in `keopscore.mapreduce`, which `get_keops_dll` looks up by name:
`keopscore/keopscore/mapreduce/__init__.py:1-7`, `mapreduce/cpu/__init__.py:1-3`, `mapreduce/gpu/__init__.py:1-9`,
`get_keops_dll.py:75`. -/
def classes (cfg : Config) : List String :=
  ["CpuReduc_ranges", "CpuReduc", "CpuAssignZero"] ++
  if cfg.useCuda then
    ["GpuAssignZero", "GpuReduc1D", "GpuReduc1D_chunks", "GpuReduc1D_finalchunks", "GpuReduc1D_ranges",
      "GpuReduc1D_ranges_chunks", "GpuReduc1D_ranges_finalchunks", "GpuReduc2D"]
  else []

/-- `map_reduce_id`, `pykeops/common/keops_io/LoadKeOps.py:98-105`. -/
def mapReduceId (tagCPUGPU tag1D2D : ℕ) (useRanges : Bool) : String :=
  (if tagCPUGPU = 0 then "CpuReduc" else "GpuReduc" ++ (if tag1D2D = 0 then "1D" else "2D")) ++
    (if useRanges then "_ranges" else "")

/-- The class chosen by `get_keops_dll`, `keopscore/keopscore/get_keops_dll.py:87-112`.  `final` is the answer of
`use_final_chunks`, and `chunks` tells whether the conditions of lines 101-108 hold (see `Model/FinalChunks.lean` and
`Model/Chunks.lean`).  `"Gpu" in map_reduce_id` is the condition on `tagCPUGPU`. -/
def chooseClass (cfg : Config) (tagCPUGPU tag1D2D : ℕ) (useRanges final chunks : Bool) : Except Err String :=
  let id := mapReduceId tagCPUGPU tag1D2D useRanges
  if tagCPUGPU ≠ 0 then
    if !cfg.useCuda then .error .keops
    else
      let id' :=
        if final ∧ id ≠ "GpuReduc2D" then id ++ "_finalchunks"
        else if chunks ∧ id ≠ "GpuReduc2D" then id ++ "_chunks" else id
      if id' ∈ classes cfg then .ok id' else .error .key
  else if id ∈ classes cfg then .ok id else .error .key

/-- A call: the keyword arguments of `Genred.__call__`, the places of the arguments, of the ranges and of `out`, the
number of batch dimensions, and the two answers taken by `chooseClass`.
`pykeops/torch/generic/generic_red.py:545,681-692` and `numpy/generic/generic_red.py:188`. -/
structure Call where
  backend : String
  args : List Arr
  ranges : Option (List Loc) := none
  out : Option Loc := none
  nbatch : ℕ := 0
  request : ℤ := -1
  final : Bool := false
  chunks : Bool := false

/-- Who reads or writes the memory: the processor, or the GPU of this number. `keops_nvrtc.cpp:337-343`. -/
inductive Who
  | cpu
  | gpu (d : ℤ)
deriving DecidableEq, Repr

/-- What a call does when no exception is raised: the class of the kernel, where it runs, where the output is stored,
and the accesses to the arrays received from Python (`none` for a pointer that has not been set).
`keops_nvrtc.cpp:390-635`. -/
structure Launch where
  kernel : String
  runs : Who
  out : Loc
  accesses : List (Who × Option Loc)
deriving DecidableEq, Repr

/-- The pointers to the ranges that the kernels use: those of the user without batch dimensions, otherwise arrays built
on the host, unless there are both: then no branch sets the pointers, since `do_checks` is 0 (`Sizes.h:12`).
`keopscore/keopscore/include/Ranges.h:18-97`. -/
def rangePointers (nbatch : ℕ) (ranges : Option (List Loc)) : List (Option Loc) :=
  if nbatch = 0 then (ranges.getD []).map some
  else
    match ranges with
    | none => [some .host]
    | some _ => [none]

/-- The accesses of a launch.  On the CPU every array is read by the processor.  On the GPU with `tagHostDevice = 1`
the arguments and the output are used by the kernel, and so are the ranges without batch dimensions
(`keops_nvrtc.cpp:190-208,493-495`, `utils_pe.h:58-64`); with batch dimensions the processor reads the ranges.  With
`tagHostDevice = 0` everything is copied from and to the host (`keops_nvrtc.cpp:308-314,496-498,625-627`,
`utils_pe.h:67-99`). -/
def accesses (tagCPUGPU tagHostDevice : ℕ) (device : ℤ) (nbatch : ℕ) (args : List Loc) (ranges : Option (List Loc))
    (out : Loc) : List (Who × Option Loc) :=
  let arrays := (args ++ [out]).map some
  let ptrs := rangePointers nbatch ranges
  if tagCPUGPU = 0 then (arrays ++ ptrs).map (Prod.mk .cpu)
  else if tagHostDevice = 1 then
    arrays.map (Prod.mk (.gpu device)) ++ ptrs.map (Prod.mk (if nbatch = 0 then .gpu device else .cpu))
  else (arrays ++ ptrs).map (Prod.mk .cpu)

/-- The common end of a call: the binder is created on the device (`cuDeviceGet` fails for other numbers,
`keops_nvrtc.cpp:354-366`), and the kernel is launched on these pointers.
`torch/generic/generic_red.py:91-129`, `numpy/generic/generic_red.py:313-357`, `LoadKeOps.py:98-146,176-242`. -/
def launch (cfg : Config) (c : Call) (tagCPUGPU tag1D2D tagHostDevice : ℕ) (device : ℤ) (deviceArgs : Loc) :
    Except Err Launch := do
  let useRanges : Bool := 0 < c.nbatch || c.ranges.isSome
  let k ← chooseClass cfg tagCPUGPU tag1D2D useRanges c.final c.chunks
  if tagCPUGPU ≠ 0 ∧ ¬ (0 ≤ device ∧ device < cfg.nGpus) then throw .cuda
  let out := c.out.getD deviceArgs
  return ⟨k, if tagCPUGPU = 0 then .cpu else .gpu device, out,
    accesses tagCPUGPU tagHostDevice device c.nbatch (c.args.map Arr.loc) c.ranges out⟩

/-- `GenredAutograd_base._forward`, `pykeops/torch/generic/generic_red.py:71-131`. -/
def torchCall (cfg : Config) (c : Call) : Except Err Launch := do
  let (g, d, m) ← defineTag cfg c.backend c.args
  let (device, deviceArgs) ← setDevice cfg g m c.request (c.args.map Arr.loc)
  launch cfg c g d m device deviceArgs

/-- `Genred.__call__` for NumPy, `pykeops/numpy/generic/generic_red.py:297-357`. -/
def numpyCall (cfg : Config) (c : Call) : Except Err Launch := do
  let (g, d, m) ← defineTag cfg c.backend c.args
  launch cfg c g d m (if c.request = -1 then (if g = 1 then cfg.defaultId else -1) else c.request) .host

end Verif.Backend
