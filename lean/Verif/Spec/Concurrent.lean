import Verif.Model.Concurrent

/-!
# Specification of processes that share a build folder
-/

namespace Verif.Build

/-- The folder has all that is needed to load the routine, and the two caches are missing or can be read. -/
def Complete (gpu : Bool) (d : Disk) : Prop :=
  (if gpu then d.low = .full else d.src = .full ∧ d.dll = .full) ∧ d.nfo = .full ∧
    (d.loadPkl = .absent ∨ ∃ b, d.loadPkl = .full b) ∧ (d.dllPkl = .absent ∨ ∃ b, d.dllPkl = .full b)

/-- The process is importing the library. -/
def Importing (q : Proc) : Prop := q.pc ∈ [.sizeDll, .readDll, .fileLoad, .readLoad]

/-- The process is writing one of the two caches. -/
def Saving (q : Proc) : Prop := q.pc ∈ [.saveLoad2, .saveLoad3, .saveDll1, .saveDll2, .saveDll3]

/-- No process is running: those that have started have ended. -/
def Quiet (s : Sys) : Prop := ∀ p, (s.procs p).pc = .sizeDll ∨ (s.procs p).pc = .done

end Verif.Build
