import Verif.Proofs.GpuFiles

/-!
# C77: GPU routines are made for the devices they run on

Property C77: on a device that the process sees, a request gives a routine compiled for the architecture of this device and
created with its limits, whatever was done before, in this process or in those that used the same folders.
-/

namespace Verif.GpuFiles

/-- C77, for at most twelve devices (see C76 for the others): it holds after every history of requests, cleanings and
restarts where no process changes the folder, and where the processes that use the same default folder see the same
devices. The folder depends on the system, on the version of Python and on `KEOPS_CACHE_FOLDER` but not on the GPUs, and a
change of folder is not seen by the module that compiles, hence the hypotheses: see the refutations below. -/
theorem C77_partial (gpus : List Dev) (e : Env) (h : List Event) (hs : SameDevices gpus (envs e h))
    (hn : NoSetFolder h) (k : Key) (hk : k.2 < ((lastEnv e h).devices gpus).length) (h12 : k.2 < 12) :
    ∃ o, (request (run gpus e h) k).1 = .ok o ∧ Right ((lastEnv e h).devices gpus) k.2 o := by
  classical
  let D : String → List Dev := fun p =>
    match (envs e h).find? fun e' => decide (e'.folder = p) with
    | some e' => e'.devices gpus
    | none => []
  have hD : ∀ e' ∈ envs e h, e'.devices gpus = D e'.folder := by
    intro e' he'
    show _ = match (envs e h).find? fun e'' => decide (e''.folder = e'.folder) with
      | some e' => e'.devices gpus
      | none => []
    cases hf : (envs e h).find? fun e'' => decide (e''.folder = e'.folder) with
    | none =>
      have := List.find?_eq_none.mp hf e' he'
      simp at this
    | some e'' =>
      refine hs e' he' e'' (List.mem_of_find?_eq_some hf) ?_
      have := List.find?_some hf
      simpa using (of_decide_eq_true this).symm
  have hI := run_inv (D := D) e h hD hn
  rw [← run_vis, hI.vis] at hk ⊢
  exact request_right hI k hk h12

/-- Two devices of different architectures and limits. -/
def twoGpus : List Dev := [⟨70, ⟨1024, 49152⟩⟩, ⟨86, ⟨512, 40000⟩⟩]

/-- A process that sees the devices `v`. -/
def proc (v : Option (List Nat)) : Env := ⟨"/home/u/.cache/keops2.3", "Linux_host_6.1", "3.10", v⟩

/-- The hypotheses of `C77_partial` are met: a request, a cleaning, a restart, a process with its own cache folder and
other devices. -/
example : ∃ h : List Event, h.length = 6 ∧ SameDevices twoGpus (envs (proc none) h) ∧ NoSetFolder h ∧
    1 < ((lastEnv (proc none) h).devices twoGpus).length := by
  refine ⟨[.request (3, 1), .clean, .request (3, 0), .exit { proc (some [1]) with cache := "/tmp/k" }, .request (3, 0),
    .exit (proc none)], rfl, ?_, ?_, by decide +kernel⟩
  · simp only [SameDevices, envs, List.filterMap_cons, List.filterMap_nil, List.forall_mem_cons]
    decide +kernel
  · intro p; simp

/-- After a process that saw the first GPU only, a process that sees the second GPU only loads the code compiled for the
first one, with the limits of the first one. -/
theorem not_C77_visible : ∃ (gpus : List Dev) (e e' : Env) (k : Key) (o : Obj),
    (request (run gpus e [.request k, .exit e']) k).1 = .ok o ∧ k.2 < (e'.devices gpus).length ∧
    ¬ Right (e'.devices gpus) k.2 o ∧ (∀ dev ∈ e'.devices gpus, o.arch ≠ dev.arch ∧ o.lim ≠ dev.lim) := by
  refine ⟨twoGpus, proc (some [0]), proc (some [1]), (3, 0), ⟨70, ⟨1024, 49152⟩⟩, by decide +kernel, by decide +kernel,
    ?_, by decide +kernel⟩
  rintro ⟨dev, h1, h2⟩
  have h3 : ((proc (some [1])).devices twoGpus)[0]? =
    some ⟨86, ⟨512, 40000⟩⟩ := by decide +kernel
  rw [h3] at h1
  cases h1
  exact absurd h2 (by decide)

/-- After a process that saw one GPU, a process that sees two cannot use the second one. -/
theorem not_C77_number : ∃ (gpus : List Dev) (e e' : Env) (k : Key),
    k.2 < (e'.devices gpus).length ∧ (request (run gpus e [.exit e']) k).1 = .error .props ∧
    ∃ o, (request (run gpus e' []) k).1 = .ok o ∧ Right (e'.devices gpus) k.2 o :=
  ⟨twoGpus, proc (some [0]), proc none, (3, 1), by decide +kernel, by decide +kernel, ⟨86, ⟨512, 40000⟩⟩,
    by decide +kernel, ⟨86, ⟨512, 40000⟩⟩, by decide +kernel, rfl⟩

/-- After `set_build_folder`, a request that succeeded fails: the code is found in the first folder, and its information
file is looked for in the new one. -/
theorem not_C77_folder : ∃ (gpus : List Dev) (e : Env) (k : Key) (p : String),
    (∃ o, (request (run gpus e []) k).1 = .ok o) ∧
    (request (run gpus e [.request k, .setFolder p]) k).1 = .error .noFile :=
  ⟨twoGpus, proc none, (3, 0), "/tmp/new", ⟨⟨70, ⟨1024, 49152⟩⟩, by decide +kernel⟩, by decide +kernel⟩

/-- `clean_pykeops()` does not help, as it removes the files of the new folder. -/
theorem not_C77_clean : ∃ (gpus : List Dev) (e : Env) (k : Key) (p : String),
    (∃ o, (request (run gpus e []) k).1 = .ok o) ∧
    (request (run gpus e [.request k, .setFolder p, .clean]) k).1 = .error .noFile :=
  ⟨twoGpus, proc none, (3, 0), "/tmp/new", ⟨⟨70, ⟨1024, 49152⟩⟩, by decide +kernel⟩, by decide +kernel⟩

/-- After `set_build_folder`, the code of a new formula is written in the first folder, not in the new one. -/
theorem not_C77_where : ∃ (gpus : List Dev) (e : Env) (k : Key) (p : String), p ≠ e.folder ∧
    ((run gpus e [.setFolder p, .request k]).disk p).cubins = [] ∧
    ((run gpus e [.setFolder p, .request k]).disk e.folder).cubins ≠ [] :=
  ⟨twoGpus, proc none, (3, 0), "/tmp/new", by decide +kernel, by decide +kernel, by decide +kernel⟩

end Verif.GpuFiles
