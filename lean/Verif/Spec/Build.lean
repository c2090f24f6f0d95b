import Verif.Model.Build

/-!
# Specification of the build folder

When a build folder is unusable.
-/

namespace Verif.Build

/-- The build folder cannot be used any more for the routine: its source (on GPU: its assembly code) is there but not
its complete information file, or the binary of the Python module is incomplete, or one of the two pickle files cannot
be read. -/
def Poisoned (gpu : Bool) (d : Disk) : Prop :=
  ((if gpu then d.low else d.src) ≠ .absent ∧ d.nfo ≠ .full) ∨ (gpu = false ∧ d.dll = .cut) ∨
    d.loadPkl = .empty ∨ d.loadPkl = .cut ∨ d.dllPkl = .cut

instance (gpu : Bool) (d : Disk) : Decidable (Poisoned gpu d) := by unfold Poisoned; infer_instance

end Verif.Build
