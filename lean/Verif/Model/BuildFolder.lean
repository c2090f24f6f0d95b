import Mathlib.Data.List.Basic

/-!
# Changes of the build folder, for the CPU

The life of the routines for the CPU when the build folder is changed by `set_build_folder` and when folders are removed. A
request is the number of a computation, which is also the hash in the names of its files (`LinkCompile.py:19-35`; the keys
themselves are in `Model/Cache.lean`). Simplifications: a source file and its information file are one entry (`Model/Build.lean`
separates them); a folder has one name; settings that change the keys are not changed (C31). GPU: `Model/GpuFiles.lean`.
-/

namespace Verif.Folder

/-- A path given to `set_build_folder`: a name, and whether it is relative to the working directory.
`keopscore/config/base_config.py:314-342`: the path is stored as it is. -/
structure Path where
  name : Nat
  rel : Bool
deriving DecidableEq

/-- The state: the default folder, the current folder, the text `str(env_param)` (an address, `utils/Cache.py:85`), the modules
in `sys.modules`, the dictionaries `library` and `library_params` of `Cache_partial`, the dictionary of `Cache` with the folders
of the source files, the source files and the compiled modules of each folder, and the two pickle files, which are in the default
folder. `utils/Cache.py:15-28,67-82`; `get_keops_dll.py:162-166`; `LoadKeOps_cpp.py:185-187`: these objects are made at import. -/
structure Sys where
  home : Path
  dir : Path
  addr : Nat
  mods : List Nat
  lib : List Nat
  par : List (Nat × Nat)
  dll : List (Nat × Path)
  src : List (Path × Nat)
  bin : List (Path × Nat)
  parFile : List (Nat × Nat)
  dllFile : List (Nat × Path)

/-- `get_keops_dll`: the folder of the source file, which is made in the current folder if it is not there.
`utils/Cache.py:30-34`; `LinkCompile.py:38-46,93-108`. -/
def getDll (s : Sys) (r : Nat) : Path × Sys :=
  match s.dll.lookup r with
  | some f => (f, s)
  | none => (s.dir, { s with dll := (r, s.dir) :: s.dll, src := if (s.dir, r) ∈ s.src then s.src else (s.dir, r) :: s.src })

/-- `init_phase1`: the module is compiled in the current folder if it is not there. The text that is compiled is
`#include "f/tag.cpp"`; the compiler looks for this file from the folder of the text, then in the folders of the flags, so
that a path relative to the working directory is not found. A failure of the compiler is only printed.
`LoadKeOps_cpp.py:18-37,75-77`; `utils/misc_utils.py:38-48`. -/
def compile (s : Sys) (f : Path) (r : Nat) : Sys :=
  if (s.dir, r) ∈ s.bin then s
  else if f.rel = false ∧ (f, r) ∈ s.src then { s with bin := (s.dir, r) :: s.bin }
  else s

/-- `init_phase2`: the module is imported, from `sys.modules` or from the current folder, which is the only build folder in
`sys.path`. `LoadKeOps_cpp.py:39-46`; `base_config.py:338-345`. -/
def canLoad (s : Sys) (r : Nat) : Bool := decide (r ∈ s.mods) || decide ((s.dir, r) ∈ s.bin)

/-- `Cache_partial.__call__` and `LoadKeOps.__init__`: whether the routine is obtained, and the new state.
`utils/Cache.py:84-97`; `LoadKeOps.py:14-31,107-165`. -/
def request (s : Sys) (r : Nat) : Bool × Sys :=
  if r ∈ s.lib then (true, s)
  else if (s.addr, r) ∈ s.par then
    if canLoad s r then (true, { s with lib := r :: s.lib, mods := r :: s.mods }) else (false, s)
  else
    let (f, s) := getDll s r
    let s := compile s f r
    if canLoad s r then (true, { s with lib := r :: s.lib, mods := r :: s.mods, par := (s.addr, r) :: s.par }) else (false, s)

/-- What can happen: a request, `set_build_folder(path)` (`none`: no argument), `clean_pykeops()`, the removal of a folder by
the user, the end of the process (the dictionaries are saved) or its death followed by a new process.
`pykeops/__init__.py:47-61,83-94`; `utils/Cache.py:20-28,36-44,72-82,99-109`. -/
inductive Event
  | request (r : Nat)
  | set (path : Option Path)
  | clean
  | remove (f : Path)
  | exit (addr : Nat)
  | kill (addr : Nat)

/-- A new process: it uses the default folder, and reads the pickle files. `base_config.py:110-121`; `utils/Cache.py:20-25,72-79`. -/
def start (s : Sys) (addr : Nat) : Sys :=
  { s with dir := s.home, addr := addr, mods := [], lib := [], par := s.parFile, dll := s.dllFile }

/-- One event. `reset` changes the attribute `save_folder`, which is not used, and not `cache_file`: the dictionaries are always
saved in the folder of the import. `utils/Cache.py:36-44,99-109`; `base_config.py:314-366`; `pykeops/__init__.py:47-61,83-94`;
`utils/code_gen_utils.py:831-850`. -/
def step (s : Sys) : Event → Sys
  | .request r => (request s r).2
  | .set p => { s with dir := p.getD s.home, lib := [], par := [], dll := [] }
  | .clean =>
    { s with
      lib := [], par := [], dll := []
      src := s.src.filter fun x => decide (x.1 ≠ s.dir)
      bin := s.bin.filter fun x => decide (x.1 ≠ s.dir)
      parFile := if s.dir = s.home then [] else s.parFile
      dllFile := if s.dir = s.home then [] else s.dllFile }
  | .remove f => { s with src := s.src.filter fun x => decide (x.1 ≠ f), bin := s.bin.filter fun x => decide (x.1 ≠ f) }
  | .exit a => start { s with parFile := s.par, dllFile := s.dll } a
  | .kill a => start s a

/-- The state after a history. `utils/Cache.py:15-109`. -/
def after (s : Sys) (h : List Event) : Sys := h.foldl step s

/-- A first process, with empty folders. `utils/Cache.py:15-28,67-82`. -/
def fresh (home : Path) (addr : Nat) : Sys := ⟨home, home, addr, [], [], [], [], [], [], [], []⟩

end Verif.Folder
