import Verif.Model.GpuFiles

/-!
# Specification: GPU routines made for the device they run on
-/

namespace Verif.GpuFiles

/-- The routine was compiled for the device number `d` of the process, and has its limits. -/
def Right (devs : List Dev) (d : Nat) (o : Obj) : Prop := ∃ dev, devs[d]? = some dev ∧ o = ⟨dev.arch, dev.lim⟩

/-- The environments of the processes of a history. -/
def envs (e : Env) (h : List Event) : List Env :=
  e :: h.filterMap fun
    | .exit e => some e
    | _ => none

/-- The environment of the last process. -/
def lastEnv (e : Env) (h : List Event) : Env :=
  h.foldl (fun e ev => match ev with | .exit e' => e' | _ => e) e

/-- The processes that use the same default folder see the same devices. -/
def SameDevices (gpus : List Dev) (l : List Env) : Prop :=
  ∀ e ∈ l, ∀ e' ∈ l, e.folder = e'.folder → e.devices gpus = e'.devices gpus

/-- No process changes the folder. -/
def NoSetFolder (h : List Event) : Prop := ∀ p, Event.setFolder p ∉ h

end Verif.GpuFiles
