import Verif.Model.Launch

/-!
# The files of the GPU routines

The folders where the GPU routines are written, the files that a process finds in them, and what it loads. A process sees
some of the GPUs of the machine (`CUDA_VISIBLE_DEVICES`); it may change the folder (`set_build_folder`) and remove the
files (`clean_pykeops`).

Simplifications: one process at a time, which is not killed while it writes files (see `Model/Build.lean` and
`Model/Concurrent.lean`); the formula, the options and the settings of a routine are one number (see `Model/Cache.lean` for
the keys); the file `LoadKeOps_nvrtc_class_cache.pkl`, whose keys contain an address, is not modelled; the library
`nvrtc_jit`, which reads the architecture of the device when it compiles, is always there.
-/

namespace Verif.GpuFiles

open Launch (Props setGpuProps)

/-- A device: its architecture and its limits. `binders/nvrtc/nvrtc_jit.cpp:56-71`, `config/cuda.py:445-489`. -/
structure Dev where
  arch : Nat
  lim : Props
deriving DecidableEq, Repr

/-- The exceptions: `FileNotFoundError` of `read_info`, a device that does not exist, `SetGpuProps`. -/
inductive Fail
  | noFile | noDevice | props
deriving DecidableEq, Repr

/-- The key of a routine: the number of the formula with its options, and the number of the device (`device_id`).
`binders/LinkCompile.py:19-35`. -/
abbrev Key := Nat × Nat

/-- A build folder: the limits with which the binder `pykeops_nvrtc` was compiled, the compiled routines (`cubin_...` files,
with the architecture that they were compiled for), the information files (`.nfo`), and the keys of the file
`get_keops_dll_impl_cache.pkl`. `pykeops/config.py:24-34`, `Gpu_link_compile.py:59-62`, `LinkCompile.py:38-40`,
`utils/Cache.py:20`. -/
structure Folder where
  binder : Option (List Props)
  cubins : List (Key × Nat)
  infos : List Key
  pickle : List Key
deriving DecidableEq, Repr

/-- An empty folder. -/
def Folder.empty : Folder := ⟨none, [], [], []⟩

/-- A routine in memory: the architecture that its code was compiled for, and the limits used at its creation.
`pykeops/common/keops_io/LoadKeOps_nvrtc.py:28-46`. -/
structure Obj where
  arch : Nat
  lim : Props
deriving DecidableEq, Repr

/-- The state: the disk, and the current process with the devices that it sees, the folder read when the module
`Gpu_link_compile` is imported, the current folder, the binder if it has been imported, the routines, and the dictionary
of `get_keops_dll`. `Gpu_link_compile.py:19`, `base_config.py:110-123,396`. -/
structure Sys where
  disk : String → Folder
  vis : List Dev
  base : String
  cur : String
  binder : Option (List Props)
  lib : List (Key × Obj)
  dll : List Key

/-- What a process reads in its environment: `KEOPS_CACHE_FOLDER` (or its default value), `uname`, the version of Python,
and `CUDA_VISIBLE_DEVICES`. `base_config.py:77-86,95-100`, `config/cuda.py:170-172`. -/
structure Env where
  cache : String
  uname : String
  python : String
  visible : Option (List Nat)
deriving DecidableEq, Repr

/-- `config.default_build_path`: the folder that is used. `base_config.py:95-100,110-114`. -/
def Env.folder (e : Env) : String := e.cache ++ "/" ++ (e.uname ++ "_p" ++ e.python)

/-- `cuda_config.build_folder`, which contains the visible devices, and is only used for a temporary file.
`config/cuda.py:170-176,212-222,343-347`. -/
def Env.cudaFolder (e : Env) : String :=
  e.cache ++ "/" ++ (e.uname ++ "_p" ++ e.python ++
    match e.visible with
    | none => ""
    | some l => "_CUDA_VISIBLE_DEVICES_" ++ "_".intercalate (l.map fun d => toString d))

/-- The devices that a process sees, numbered from 0; the numbers in `CUDA_VISIBLE_DEVICES` are distinct and exist
(CUDA, external). -/
def Env.devices (gpus : List Dev) (e : Env) : List Dev :=
  match e.visible with
  | none => gpus
  | some l => l.filterMap fun d => gpus[d]?

/-- The disk with one folder changed. -/
def setDisk (disk : String → Folder) (p : String) (f : Folder) : String → Folder := fun q => if q = p then f else disk q

/-- `if not os.path.exists(pykeops_nvrtc_name(...)): compile_jit_binary()` in the current folder.
`pykeops/__init__.py:40-44,90-93`, `LoadKeOps_nvrtc.py:78-89`, `Gpu_link_compile.py:45,114`. -/
def compileBinder (s : Sys) : Sys :=
  match (s.disk s.cur).binder with
  | some _ => s
  | none => { s with disk := setDisk s.disk s.cur { s.disk s.cur with binder := some (s.vis.map Dev.lim) } }

/-- A new process: `import pykeops`. `base_config.py:110-123`, `Gpu_link_compile.py:19`, `utils/Cache.py:20-25`,
`pykeops/__init__.py:40-44`. -/
def start (gpus : List Dev) (disk : String → Folder) (e : Env) : Sys :=
  compileBinder ⟨disk, e.devices gpus, e.folder, e.folder, none, [], (disk e.folder).pickle⟩

/-- `get_keops_dll` and `get_dll_and_params`: the compiled code is looked for and written in the folder read at import,
and the information file in the current folder. `utils/Cache.py:30-34`, `LinkCompile.py:38-40,93-109`,
`Gpu_link_compile.py:59-93`. -/
def getDll (s : Sys) (k : Key) : Except Fail Sys :=
  if k ∈ s.dll then .ok s
  else
    match (s.disk s.base).cubins.lookup k with
    | some _ => if k ∈ (s.disk s.cur).infos then .ok { s with dll := k :: s.dll } else .error .noFile
    | none =>
      match s.vis[k.2]? with
      | none => .error .noDevice
      | some dev =>
        let d1 := setDisk s.disk s.base { s.disk s.base with cubins := (k, dev.arch) :: (s.disk s.base).cubins }
        let d2 := setDisk d1 s.cur { d1 s.cur with infos := k :: (d1 s.cur).infos }
        .ok { s with disk := d2, dll := k :: s.dll }

/-- The binder that the process uses: imported once, from the current folder. `LoadKeOps_nvrtc.py:18-46`. -/
def theBinder (s : Sys) : Option (List Props) :=
  match s.binder with
  | some b => some b
  | none => (s.disk s.cur).binder

/-- `init_phase2` with the constructor of `KeOps_module`: the binder is imported once, from the current folder; the
compiled code is read in the folder read at import. Whether the driver loads a code for another architecture is not
modelled. `LoadKeOps_nvrtc.py:18-46`, `keops_nvrtc.cpp:354-380`. -/
def initPhase2 (s : Sys) (k : Key) : Except Fail (Obj × Sys) :=
  match theBinder s with
  | none => .error .noFile
  | some b =>
    match s.vis[k.2]? with
    | none => .error .noDevice
    | some _ =>
      match setGpuProps b k.2 with
      | .error _ => .error .props
      | .ok lim =>
        match (s.disk s.base).cubins.lookup k with
        | none => .error .noFile
        | some arch => .ok (⟨arch, lim⟩, { s with binder := some b, lib := (k, ⟨arch, lim⟩) :: s.lib })

/-- A request of a routine. `utils/Cache.py:84-97`, `LoadKeOps.py:14-31`. -/
def request (s : Sys) (k : Key) : Except Fail Obj × Sys :=
  match s.lib.lookup k with
  | some o => (.ok o, s)
  | none =>
    match getDll s k with
    | .error e => (.error e, s)
    | .ok s1 =>
      match initPhase2 s1 k with
      | .error e => (.error e, s1)
      | .ok (o, s2) => (.ok o, s2)

/-- What can happen: a request, `set_build_folder(path)`, `clean_pykeops()`, the end of the process followed by a new one
in another environment. -/
inductive Event
  | request (k : Key)
  | setFolder (p : String)
  | clean
  | exit (e : Env)

/-- `pykeops.set_build_folder`: the dictionaries are emptied, the binder is compiled if it is not there.
`pykeops/__init__.py:83-93`, `base_config.py:326-358`. -/
def setFolder (s : Sys) (p : String) : Sys := compileBinder { s with cur := p, lib := [], dll := [] }

/-- `pykeops.clean_pykeops()`: all the files of the current folder are removed and the binder is compiled again.
`pykeops/__init__.py:47-61`, `utils/code_gen_utils.py:831-850`. -/
def clean (s : Sys) : Sys :=
  compileBinder { s with disk := setDisk s.disk s.cur Folder.empty, lib := [], dll := [] }

/-- One event; at exit the dictionary of `get_keops_dll` is saved in the folder read at import.
`utils/Cache.py:20,26-28,41-44`, `get_keops_dll.py:162-166`. -/
def step (gpus : List Dev) (s : Sys) : Event → Sys
  | .request k => (request s k).2
  | .setFolder p => setFolder s p
  | .clean => clean s
  | .exit e => start gpus (setDisk s.disk s.base { s.disk s.base with pickle := s.dll }) e

/-- The state after a history that begins with a process on an empty disk. -/
def run (gpus : List Dev) (e : Env) (h : List Event) : Sys :=
  h.foldl (step gpus) (start gpus (fun _ => Folder.empty) e)

end Verif.GpuFiles
