import Mathlib.Tactic.Common

/-!
# The build folder and interrupted processes

Model of the files that a process writes for one routine: `LinkCompile.get_dll_and_params`
(`keopscore/binders/LinkCompile.py`), `Cpu_link_compile.py`, `Gpu_link_compile.py`, `LoadKeOps_cpp.init_phase1`
(`pykeops/common/keops_io/LoadKeOps_cpp.py`), and of the two pickle files of `Cache` and `Cache_partial`
(`keopscore/utils/Cache.py`).

Writing a file is two steps: the file is created, then it is complete.  A process may be killed between two steps.
Files are never removed (no call of `clean_pykeops`).  The two memory caches have one entry, the one of the routine.
-/

namespace Verif.Build

/-- A file: missing, created but not complete (a small file is empty then), complete. `LinkCompile.py:48-88`. -/
inductive File
  | absent
  | cut
  | full
deriving DecidableEq

/-- A pickle file: missing, empty, incomplete, or complete (with or without an entry for the routine).
`utils/Cache.py:20-25,72-79`. -/
inductive Pickle
  | absent
  | empty
  | cut
  | full (entry : Bool)
deriving DecidableEq

/-- The files: the source (`.cpp`, `.cu`), the assembly code of the GPU routine, the information file, the source and
the binary of the Python module, the pickle files of `LoadKeOps` and of `get_keops_dll`. `LinkCompile.py:38-46`,
`Gpu_link_compile.py:59-68`, `LoadKeOps_cpp.py:19-37`, `utils/Cache.py:21,73`. -/
structure Disk where
  src : File
  low : File
  nfo : File
  py : File
  dll : File
  loadPkl : Pickle
  dllPkl : Pickle
deriving DecidableEq

/-- An empty build folder. `pykeops/__init__.py:47-61`. -/
def Disk.new : Disk := ⟨.absent, .absent, .absent, .absent, .absent, .absent, .absent⟩

/-- A part of a process: the states of the disk after each step, the last one, and whether there was no exception.
`LinkCompile.py:93-107`. -/
structure Run where
  visited : List Disk
  final : Disk
  ok : Bool

/-- Steps without exceptions. `LinkCompile.py:48-88`. -/
def steps (d : Disk) : List (Disk → Disk) → Run
  | [] => ⟨[], d, true⟩
  | f :: fs =>
    let r := steps (f d) fs
    ⟨f d :: r.visited, r.final, r.ok⟩

/-- One part, then another one unless there is an exception. `LinkCompile.py:93-107`. -/
def Run.andThen (r : Run) (f : Disk → Run) : Run :=
  if r.ok then
    let r' := f r.final
    ⟨r.visited ++ r'.visited, r'.final, r'.ok⟩
  else r

/-- `write_code`, `LinkCompile.py:84-88`. -/
def writeSrc (d : Disk) : Run :=
  steps d [fun d => { d with src := .cut }, fun d => { d with src := .full }]

/-- `save_info`, `LinkCompile.py:48-56`. -/
def saveInfo (d : Disk) : Run :=
  steps d [fun d => { d with nfo := .cut }, fun d => { d with nfo := .full }]

/-- `read_info`: an exception if the file is missing or incomplete. `LinkCompile.py:58-82`. -/
def readInfo (d : Disk) : Run := ⟨[], d, d.nfo = .full⟩

/-- `my_c_dll.Compile`, which receives the code itself and writes the assembly file. `Gpu_link_compile.py:78-91`. -/
def compileGpu (d : Disk) : Run :=
  steps d [fun d => { d with low := .cut }, fun d => { d with low := .full }]

/-- `generate_code`: `Cpu_link_compile.py:17-25`, `Gpu_link_compile.py:70-94`. -/
def generateCode (gpu : Bool) (d : Disk) : Run :=
  if gpu then (writeSrc d).andThen compileGpu else writeSrc d

/-- `file_to_check`. `Cpu_link_compile.py:15`, `Gpu_link_compile.py:68`. -/
def fileToCheck (gpu : Bool) (d : Disk) : File := if gpu then d.low else d.src

/-- `get_dll_and_params`. `LinkCompile.py:93-107`. -/
def getDllAndParams (gpu : Bool) (d : Disk) : Run :=
  if fileToCheck gpu d = .absent then (generateCode gpu d).andThen saveInfo else readInfo d

/-- `init_phase1`: on CPU, the source of the Python module is written and compiled if its binary is missing. The
compilation reads the source of the routine; its errors are printed only (`KeOps_OS_Run`). `LoadKeOps_cpp.py:19-37`,
`utils/misc_utils.py:38-59`. -/
def initPhase1 (gpu : Bool) (d : Disk) : Run :=
  if gpu then ⟨[], d, true⟩
  else if d.dll = .absent then
    let r := steps d [fun d => { d with py := .cut }, fun d => { d with py := .full }]
    r.andThen (fun d =>
      if d.src = .full then steps d [fun d => { d with dll := .cut }, fun d => { d with dll := .full }]
      else ⟨[], d, true⟩)
  else ⟨[], d, true⟩

/-- `init_phase2`: the binary of the module, or the assembly code, is loaded. `LoadKeOps_cpp.py:39-46`,
`LoadKeOps_nvrtc.py:18-45`. -/
def initPhase2 (gpu : Bool) (d : Disk) : Run :=
  ⟨[], d, if gpu then d.low = .full else d.dll = .full⟩

/-- At import, `Cache` reads its pickle file if it is not empty, and `Cache_partial` reads its own if it exists: an
exception if they are not complete. `utils/Cache.py:20-25,72-79`. -/
def startup (d : Disk) : Bool :=
  (match d.dllPkl with | .cut => false | _ => true) &&
  (match d.loadPkl with | .empty => false | .cut => false | _ => true)

/-- Whether a pickle file has an entry for the routine. `utils/Cache.py:22,74`. -/
def Pickle.entry : Pickle → Bool
  | .full b => b
  | _ => false

/-- `LoadKeOps.init` with the cache of `get_keops_dll`: whether the dictionary of `get_keops_dll` has the routine
after the call, and the run. `LoadKeOps.py:107-168`, `utils/Cache.py:30-34`. -/
def init (gpu : Bool) (d : Disk) : Bool × Run :=
  let r := if d.dllPkl.entry then ⟨[], d, true⟩ else getDllAndParams gpu d
  (r.ok, (r.andThen (initPhase1 gpu)).andThen (initPhase2 gpu))

/-- `Cache_partial.__call__`; `hit` tells whether the address in the key is the one of an earlier process.
`utils/Cache.py:84-97`. -/
def call (gpu hit : Bool) (d : Disk) : Bool × Run :=
  if d.loadPkl.entry && hit then (d.dllPkl.entry, initPhase2 gpu d) else init gpu d

/-- `save_cache` of both caches, at exit; the one registered last runs first. `utils/Cache.py:41-44,106-109`. -/
def saveCaches (load dll : Bool) (d : Disk) : Run :=
  steps d [fun d => { d with loadPkl := .empty }, fun d => { d with loadPkl := .cut },
    fun d => { d with loadPkl := .full load }, fun d => { d with dllPkl := .empty },
    fun d => { d with dllPkl := .cut }, fun d => { d with dllPkl := .full dll }]

/-- A process that imports the library, asks for the routine and exits; `ok` tells whether it gets the routine. The
caches are saved even if there was an exception; if the import fails because of the file of `LoadKeOps`, the one of
`get_keops_dll`, which was read before, is saved. `utils/Cache.py:15-109`, `LoadKeOps.py:6,14-168`. -/
def process (gpu hit : Bool) (d : Disk) : Run :=
  if startup d then
    let (dll, r) := call gpu hit d
    let s := saveCaches (d.loadPkl.entry || r.ok) dll r.final
    ⟨r.visited ++ s.visited, s.final, r.ok⟩
  else if d.dllPkl = .cut then ⟨[], d, false⟩
  else
    let s := steps d [fun d => { d with dllPkl := .empty }, fun d => { d with dllPkl := .cut },
      fun e => { e with dllPkl := .full d.dllPkl.entry }]
    ⟨s.visited, s.final, false⟩

/-- What a process leaves on the disk if it is killed after `k` steps (`none`: it is not killed).
`utils/Cache.py:15-109`. -/
def leave (gpu hit : Bool) (k : Option Nat) (d : Disk) : Disk :=
  match k with
  | none => (process gpu hit d).final
  | some k => (d :: (process gpu hit d).visited)[k]?.getD (process gpu hit d).final

/-- The disk after successive processes. `utils/Cache.py:15-109`. -/
def history (gpu : Bool) (d : Disk) (h : List (Bool × Option Nat)) : Disk :=
  h.foldl (fun d p => leave gpu p.1 p.2 d) d

end Verif.Build
