import Mathlib.Logic.Function.Basic
import Verif.Model.Build

/-!
# Processes that use the same build folder at the same time

The process of `Model/Build.lean`, step by step, so that the steps of several processes can alternate. One step reads or
changes one file. Each process imports the library, asks for the same routine, and exits. A process that is killed is a
process that makes no more steps.
-/

namespace Verif.Build

/-- Where a process is: the next thing it does.

* `sizeDll`, `readDll`: `os.path.isfile` and `os.path.getsize`, then `pickle.load`, for the cache of `get_keops_dll`
  (`utils/Cache.py:22-24`);
* `fileLoad`, `readLoad`: `os.path.isfile`, then `pickle.load`, for the cache of `LoadKeOps` (`utils/Cache.py:74-76`);
* `call`: the two caches are looked up (`utils/Cache.py:30-34,84-97`);
* `check`: `os.path.exists(self.file_to_check)` (`LinkCompile.py:97`);
* `src1`, `src2`: `open` and `close` of the source (`LinkCompile.py:84-88`);
* `low1`, `low2`: the same for the assembly code of the GPU routine (`Gpu_link_compile.py:78-87`);
* `nfo1`, `nfo2`: the same for the information file (`LinkCompile.py:48-56`);
* `info`: `read_info` (`LinkCompile.py:58-82`);
* `dllCheck`: `os.path.exists(dllname)` (`LoadKeOps_cpp.py:26`);
* `py1`, `py2`: `open` and `close` of the source of the Python module (`LoadKeOps_cpp.py:27-29`);
* `cc`: the compiler reads the sources and creates the binary; `cc2`: it has written it (`LoadKeOps_cpp.py:30-36`);
* `load`: `init_phase2` (`LoadKeOps_cpp.py:39-46`, `LoadKeOps_nvrtc.py:18-45`);
* `saveLoad1` to `saveDll3`: `open`, part of the writing, and `close` of the two caches, at exit (`utils/Cache.py:41-44,
  106-109`);
* `done`. -/
inductive Pc
  | sizeDll | readDll | fileLoad | readLoad | call | check | src1 | src2 | low1 | low2 | nfo1 | nfo2 | info
  | dllCheck | py1 | py2 | cc | cc2 | load
  | saveLoad1 | saveLoad2 | saveLoad3 | saveDll1 | saveDll2 | saveDll3 | done
deriving DecidableEq

/-- A process: the next thing it does, whether the key of an earlier process is the same (see `call` of
`Model/Build.lean`), whether its two dictionaries have the routine, whether the import succeeded, and whether it got the
routine. `utils/Cache.py:15-109`. -/
structure Proc where
  pc : Pc
  hit : Bool
  load : Bool
  dll : Bool
  imported : Bool
  ok : Bool
deriving DecidableEq

/-- A process that has not started. `utils/Cache.py:15-20,66-71`. -/
def Proc.new (hit : Bool) : Proc := ⟨.sizeDll, hit, false, false, false, false⟩

/-- One step of a process.  `mine` tells whether the binary that it has finished to write is the one of the folder: the
compiler removes the binary that it replaces, so that a binary that another process has begun since is not changed.
Exceptions lead to the end of the process, where the caches that have been read are saved. Simplifications: `pickle.load`
and the compiler read their files in one step, and the removal of the old binary and the creation of the new one are one
step. `utils/Cache.py:15-109`, `LinkCompile.py:48-107`, `Gpu_link_compile.py:70-94`, `LoadKeOps_cpp.py:19-46`,
`LoadKeOps.py:14-168`. -/
def act (gpu mine : Bool) (d : Disk) (q : Proc) : Disk × Proc :=
  match q.pc with
  | .sizeDll =>
    match d.dllPkl with
    | .absent => (d, { q with pc := .fileLoad })
    | .empty => (d, { q with pc := .fileLoad })
    | _ => (d, { q with pc := .readDll })
  | .readDll =>
    match d.dllPkl with
    | .full b => (d, { q with pc := .fileLoad, dll := b })
    | _ => (d, { q with pc := .done })
  | .fileLoad =>
    match d.loadPkl with
    | .absent => (d, { q with pc := .call, imported := true })
    | _ => (d, { q with pc := .readLoad })
  | .readLoad =>
    match d.loadPkl with
    | .full b => (d, { q with pc := .call, load := b, imported := true })
    | _ => (d, { q with pc := .saveDll1 })
  | .call => (d, { q with pc := if q.load && q.hit then .load else if q.dll then .dllCheck else .check })
  | .check => (d, { q with pc := if fileToCheck gpu d = .absent then .src1 else .info })
  | .src1 => ({ d with src := .cut }, { q with pc := .src2 })
  | .src2 => ({ d with src := .full }, { q with pc := if gpu then .low1 else .nfo1 })
  | .low1 => ({ d with low := .cut }, { q with pc := .low2 })
  | .low2 => ({ d with low := .full }, { q with pc := .nfo1 })
  | .nfo1 => ({ d with nfo := .cut }, { q with pc := .nfo2 })
  | .nfo2 => ({ d with nfo := .full }, { q with pc := .dllCheck, dll := true })
  | .info => if d.nfo = .full then (d, { q with pc := .dllCheck, dll := true }) else (d, { q with pc := .saveLoad1 })
  | .dllCheck => (d, { q with pc := if gpu then .load else if d.dll = .absent then .py1 else .load })
  | .py1 => ({ d with py := .cut }, { q with pc := .py2 })
  | .py2 => ({ d with py := .full }, { q with pc := .cc })
  | .cc =>
    if d.py = .full ∧ d.src = .full then ({ d with dll := .cut }, { q with pc := .cc2 }) else (d, { q with pc := .load })
  | .cc2 => (if mine then { d with dll := .full } else d, { q with pc := .load })
  | .load =>
    if (if gpu then d.low else d.dll) = .full then (d, { q with pc := .saveLoad1, load := true, ok := true })
    else (d, { q with pc := .saveLoad1 })
  | .saveLoad1 => ({ d with loadPkl := .empty }, { q with pc := .saveLoad2 })
  | .saveLoad2 => ({ d with loadPkl := .cut }, { q with pc := .saveLoad3 })
  | .saveLoad3 => ({ d with loadPkl := .full q.load }, { q with pc := .saveDll1 })
  | .saveDll1 => ({ d with dllPkl := .empty }, { q with pc := .saveDll2 })
  | .saveDll2 => ({ d with dllPkl := .cut }, { q with pc := .saveDll3 })
  | .saveDll3 => ({ d with dllPkl := .full q.dll }, { q with pc := .done })
  | .done => (d, q)

/-- The folder, the last process that created the binary of the module, and all the processes.
`LoadKeOps_cpp.py:30-36`. -/
structure Sys where
  disk : Disk
  owner : Nat
  procs : Nat → Proc

/-- Process `p` makes a step.  If `c`, a process that finishes a binary completes it although another one has begun to
write it (they write the same bytes in the same file, if the compiler does not remove the file). `LoadKeOps_cpp.py:30-36`. -/
def Sys.step (gpu : Bool) (s : Sys) (p : Nat) (c : Bool) : Sys :=
  let r := act gpu (c || s.owner == p) s.disk (s.procs p)
  ⟨r.1, if r.2.pc = .cc2 then p else s.owner, Function.update s.procs p r.2⟩

/-- The steps of a schedule: which process makes each step. `utils/Cache.py:15-109`. -/
def Sys.run (gpu : Bool) (s : Sys) (sched : List (Nat × Bool)) : Sys :=
  sched.foldl (fun s x => s.step gpu x.1 x.2) s

/-- A folder, and processes that have not started; `hit p` tells whether the key of process `p` is the one of earlier
processes. `utils/Cache.py:15-20,66-71`. -/
def Sys.start (d : Disk) (hit : Nat → Bool) : Sys := ⟨d, 0, fun p => .new (hit p)⟩

end Verif.Build
