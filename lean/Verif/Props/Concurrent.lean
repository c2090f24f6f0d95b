import Mathlib.Logic.Function.Iterate
import Verif.Proofs.Concurrent
import Verif.Props.Build

/-!
# C67: processes that use the same build folder at the same time
-/

namespace Verif.Build

variable {gpu : Bool}

theorem run_alone (gpu : Bool) (n : Nat) (s : Sys) (h : s.owner = 0) :
    ((s.run gpu (.replicate n (0, false))).disk, (s.run gpu (.replicate n (0, false))).procs 0) =
      Nat.iterate (fun x : Disk × Proc => act gpu true x.1 x.2) n (s.disk, s.procs 0) := by
  induction n generalizing s with
  | zero => rfl
  | succ n ih =>
    rw [List.replicate_succ]
    have h' : (s.step gpu 0 false).owner = 0 := by
      simp only [Sys.step, h]
      split <;> rfl
    refine (ih (s.step gpu 0 false) h').trans ?_
    rw [Function.iterate_succ_apply]
    simp [Sys.step, h]

/-- The state `y` is reached from `x` by a process alone. -/
def Reach (gpu : Bool) (x y : Disk × Proc) : Prop := ∃ n, (fun x : Disk × Proc => act gpu true x.1 x.2)^[n] x = y

theorem Reach.trans {x y z : Disk × Proc} (h : Reach gpu x y) (h' : Reach gpu y z) : Reach gpu x z := by
  obtain ⟨n, rfl⟩ := h
  obtain ⟨k, rfl⟩ := h'
  exact ⟨k + n, Function.iterate_add_apply _ k n x⟩

theorem alone_import (d : Disk) (hit : Bool) (h : startup d = true) :
    Reach gpu (d, .new hit) (d, ⟨.call, hit, d.loadPkl.entry, d.dllPkl.entry, true, false⟩) := by
  obtain ⟨src, low, nfo, py, dll, a, b⟩ := d
  cases a <;> cases b <;> simp only [startup] at h
  all_goals first | (exact absurd h (by decide)) | skip
  · exact ⟨2, rfl⟩
  · exact ⟨2, rfl⟩
  · exact ⟨3, rfl⟩
  · exact ⟨3, rfl⟩
  · exact ⟨3, rfl⟩
  · exact ⟨4, rfl⟩

theorem alone_fail (d : Disk) (hit : Bool) (h : startup d = false) :
    ∃ q, Reach gpu (d, .new hit) ((process gpu hit d).final, q) ∧ q.pc = .done ∧ q.ok = false ∧
      (process gpu hit d).ok = false := by
  obtain ⟨src, low, nfo, py, dll, a, b⟩ := d
  simp only [process, h]
  cases a <;> cases b <;> simp only [startup] at h
  all_goals first | (exact absurd h (by decide)) | skip
  all_goals first
    | exact ⟨_, ⟨2, rfl⟩, rfl, rfl, rfl⟩
    | exact ⟨_, ⟨6, rfl⟩, rfl, rfl, rfl⟩
    | exact ⟨_, ⟨7, rfl⟩, rfl, rfl, rfl⟩

theorem alone_save (d : Disk) (hit l b im ok : Bool) :
    Reach gpu (d, ⟨.saveLoad1, hit, l, b, im, ok⟩) ((saveCaches l b d).final, ⟨.done, hit, l, b, im, ok⟩) := ⟨6, rfl⟩

theorem alone_load (d : Disk) (hit l b : Bool) : Reach gpu (d, ⟨.load, hit, l, b, true, false⟩)
    (d, ⟨.saveLoad1, hit, l || (initPhase2 gpu d).ok, b, true, (initPhase2 gpu d).ok⟩) := by
  refine ⟨1, ?_⟩
  cases gpu
  · by_cases h : d.dll = .full <;> simp [act, initPhase2, h]
  · by_cases h : d.low = .full <;> simp [act, initPhase2, h]

theorem alone_phase1 (d : Disk) (hit l b : Bool) :
    (initPhase1 gpu d).ok = true ∧
    Reach gpu (d, ⟨.dllCheck, hit, l, b, true, false⟩) ((initPhase1 gpu d).final, ⟨.load, hit, l, b, true, false⟩) := by
  cases gpu
  · by_cases h : d.dll = .absent
    · by_cases h' : d.src = .full
      · refine ⟨by simp [initPhase1, h, h', steps, Run.andThen], 5, ?_⟩
        simp [act, initPhase1, h, h', steps, Run.andThen]
      · refine ⟨by simp [initPhase1, h, h', steps, Run.andThen], 4, ?_⟩
        simp [act, initPhase1, h, h', steps, Run.andThen]
    · exact ⟨by simp [initPhase1, h], 1, by simp [act, initPhase1, h]⟩
  · exact ⟨rfl, 1, rfl⟩

theorem alone_dll (d : Disk) (hit l : Bool) : Reach gpu (d, ⟨.check, hit, l, false, true, false⟩)
    ((getDllAndParams gpu d).final, ⟨if (getDllAndParams gpu d).ok then .dllCheck else .saveLoad1, hit, l,
      (getDllAndParams gpu d).ok, true, false⟩) := by
  by_cases h : fileToCheck gpu d = .absent
  · cases gpu
    · exact ⟨5, by simp [act, getDllAndParams, h, generateCode, writeSrc, saveInfo, steps, Run.andThen]⟩
    · exact ⟨7, by simp [act, getDllAndParams, h, generateCode, writeSrc, compileGpu, saveInfo, steps, Run.andThen]⟩
  · refine ⟨2, ?_⟩
    by_cases h' : d.nfo = .full <;> simp [act, getDllAndParams, h, readInfo, h']

/-- A process that makes all its steps without other processes does what `process` of C32 does. -/
theorem C67_alone (gpu hit : Bool) (d : Disk) : ∃ n,
    ((Sys.start d fun _ => hit).run gpu (.replicate n (0, false))).disk = (process gpu hit d).final ∧
    (((Sys.start d fun _ => hit).run gpu (.replicate n (0, false))).procs 0).pc = .done ∧
    (((Sys.start d fun _ => hit).run gpu (.replicate n (0, false))).procs 0).ok = (process gpu hit d).ok := by
  suffices h : ∃ q, Reach gpu (d, .new hit) ((process gpu hit d).final, q) ∧ q.pc = .done ∧
      q.ok = (process gpu hit d).ok by
    obtain ⟨q, ⟨n, h⟩, h1, h2⟩ := h
    have e := (run_alone gpu n (Sys.start d fun _ => hit) rfl).trans h
    rw [Prod.mk.injEq] at e
    exact ⟨n, e.1, by rw [e.2, h1], by rw [e.2, h2]⟩
  cases hs : startup d with
  | false =>
    obtain ⟨q, h1, h2, h3, h4⟩ := alone_fail (gpu := gpu) d hit hs
    exact ⟨q, h1, h2, by rw [h3, h4]⟩
  | true =>
    have h1 := alone_import (gpu := gpu) d hit hs
    suffices h : Reach gpu (d, ⟨.call, hit, d.loadPkl.entry, d.dllPkl.entry, true, false⟩)
        ((call gpu hit d).2.final, ⟨.saveLoad1, hit, d.loadPkl.entry || (call gpu hit d).2.ok, (call gpu hit d).1, true,
          (call gpu hit d).2.ok⟩) by
      have h2 := (h1.trans h).trans (alone_save _ _ _ _ _ _)
      refine ⟨⟨.done, hit, d.loadPkl.entry || (call gpu hit d).2.ok, (call gpu hit d).1, true, (call gpu hit d).2.ok⟩, ?_,
        rfl, by simp only [process, hs, if_true]⟩
      simp only [process, hs, if_true]
      exact h2
    by_cases hh : (d.loadPkl.entry && hit) = true
    · have h2 : Reach gpu (d, ⟨.call, hit, d.loadPkl.entry, d.dllPkl.entry, true, false⟩)
          (d, ⟨.load, hit, d.loadPkl.entry, d.dllPkl.entry, true, false⟩) := ⟨1, by simp only [Function.iterate_one, act, hh]; rfl⟩
      simp only [call, hh, if_true]
      exact h2.trans (alone_load ..)
    · rw [show call gpu hit d = init gpu d by simp [call, hh]]
      cases hd : d.dllPkl.entry with
      | true =>
        have h2 : Reach gpu (d, ⟨.call, hit, d.loadPkl.entry, true, true, false⟩)
            (d, ⟨.dllCheck, hit, d.loadPkl.entry, true, true, false⟩) := ⟨1, by simp only [Function.iterate_one, act, hh]; rfl⟩
        obtain ⟨h3, h4⟩ := alone_phase1 (gpu := gpu) d hit d.loadPkl.entry true
        have h5 := (h2.trans h4).trans (alone_load ..)
        simpa [init, hd, Run.andThen, h3, initPhase2] using h5
      | false =>
        have h2 : Reach gpu (d, ⟨.call, hit, d.loadPkl.entry, false, true, false⟩)
            (d, ⟨.check, hit, d.loadPkl.entry, false, true, false⟩) := ⟨1, by simp only [Function.iterate_one, act, hh]; rfl⟩
        have h3 := h2.trans (alone_dll d hit d.loadPkl.entry)
        cases hg : (getDllAndParams gpu d).ok with
        | false =>
          rw [hg] at h3
          simpa [init, hd, Run.andThen, hg] using h3
        | true =>
          rw [hg] at h3
          obtain ⟨h4, h5⟩ := alone_phase1 (gpu := gpu) (getDllAndParams gpu d).final hit d.loadPkl.entry true
          have h6 := (h3.trans h5).trans (alone_load ..)
          simpa [init, hd, Run.andThen, hg, h4, initPhase2] using h6

theorem sound_start {d : Disk} (hi : Inv gpu d) (hp : ¬ Poisoned gpu d) (hit : Nat → Bool) :
    Sound gpu (Sys.start d hit) := by
  have hw : ∀ p, ((Sys.start d hit).procs p).pc = .sizeDll := fun _ => rfl
  cases gpu
  · simp only [Inv, Poisoned, Bool.false_eq_true, if_false, true_and] at hi hp
    constructor
    · constructor <;> grind [Sys.start, fileToCheck]
    · intro p
      constructor <;> simp [Sys.start, Proc.new, wr]
    all_goals grind [Sys.start, fileToCheck, Torn]
  · simp only [Inv, Poisoned, if_true] at hi hp
    constructor
    · constructor <;> grind [Sys.start, fileToCheck]
    · intro p
      constructor <;> simp [Sys.start, Proc.new, wr]
    all_goals grind [Sys.start, fileToCheck, Torn]

/-- **C67**, no lasting damage: any number of processes, whose steps alternate in any way, use a folder that is not
poisoned (for instance an empty one).  When those that have started have ended, the folder is usable: the next process
gets the routine. -/
theorem C67_recovers (h : List (Bool × Option Nat)) (hp : ¬ Poisoned gpu (history gpu .new h)) (hits : Nat → Bool)
    (sched : List (Nat × Bool)) (hq : Quiet ((Sys.start (history gpu .new h) hits).run gpu sched)) (hit : Bool) :
    (process gpu hit ((Sys.start (history gpu .new h) hits).run gpu sched).disk).ok = true := by
  have hs := (sound_start (history_inv gpu h (new_inv gpu)) hp hits).run sched
  revert hs hq
  generalize (Sys.start (history gpu .new h) hits).run gpu sched = s
  intro hq hs
  have no : ∀ x : Pc, x ≠ .sizeDll → x ≠ .done → ∀ p, (s.procs p).pc ≠ x := fun x h1 h2 p h3 => by
    rcases hq p with h | h <;> simp_all
  have hF : fileToCheck gpu s.disk ≠ .cut := fun h => by
    obtain ⟨p, hp⟩ := hs.file h
    cases gpu <;> exact no _ (by simp [wr]) (by simp [wr]) p hp
  have hN : s.disk.nfo ≠ .cut := fun h => by
    obtain ⟨p, hp⟩ := hs.nfo h
    exact no _ (by simp) (by simp) p hp
  have hI : fileToCheck gpu s.disk ≠ .absent → s.disk.nfo ≠ .absent := fun h => by
    rcases hs.info h with h | ⟨p, h | h⟩
    · exact h
    · cases gpu <;> exact absurd h (no _ (by simp [wr]) (by simp [wr]) p)
    · exact absurd h (no _ (by simp) (by simp) p)
  have hD : gpu = false → s.disk.dll ≠ .cut := fun hg h => no _ (by simp) (by simp) _ (hs.dll hg h)
  have hL : ¬ Torn s.disk.loadPkl := fun h => by
    obtain ⟨p, hp | hp⟩ := hs.load h
    · exact no _ (by simp) (by simp) p hp
    · exact no _ (by simp) (by simp) p hp
  have hP : s.disk.dllPkl ≠ .cut := fun h => by
    obtain ⟨p, hp⟩ := hs.pkl h
    exact no _ (by simp) (by simp) p hp
  obtain ⟨c1, c2, c3, c4, c5⟩ := hs.caches
  have full : ∀ f : File, f = .absent ∨ f = .cut ∨ f = .full := fun f => by cases f <;> simp
  have f1 := full s.disk.nfo
  have f2 := full (fileToCheck gpu s.disk)
  have f3 := full s.disk.dll
  refine (process_cases gpu hit _ _ _ _ _ _ _ ?_).2.2.1.mpr ?_
  · cases gpu
    · simp only [Inv, Bool.false_eq_true, if_false]
      grind [fileToCheck]
    · simp only [Inv, if_true]
      grind [fileToCheck]
  · unfold Poisoned
    cases gpu
    · grind [fileToCheck, Torn]
    · grind [fileToCheck, Torn]

/-- **C67**, complete folders: any number of processes, whose steps alternate in any way, use a folder that has all that is
needed for the routine.  Every process that has ended, and whose import of the library has not failed, got the routine. -/
theorem C67_built {d : Disk} (hd : Complete gpu d) (hits : Nat → Bool) (sched : List (Nat × Bool)) (p : Nat)
    (hp : (((Sys.start d hits).run gpu sched).procs p).pc = .done)
    (hi : (((Sys.start d hits).run gpu sched).procs p).imported = true) :
    (((Sys.start d hits).run gpu sched).procs p).ok = true := by
  obtain ⟨-, h⟩ := built_run (s := Sys.start d hits) ⟨hd.1, hd.2.1⟩
    (fun p => ⟨by simp [Sys.start, Proc.new], by simp [Sys.start, Proc.new]⟩) sched
  have := (h p).ok hi
  rw [hp] at this
  simpa using this

/-- **C67**, complete folders, **partial**: if moreover no process imports the library while another one is writing the
caches, at exit, then every process that has ended got the routine. -/
theorem C67_partial {d : Disk} (hd : Complete gpu d) (hits : Nat → Bool) (sched : List (Nat × Bool))
    (hs : ∀ pre x post, sched = pre ++ x :: post → Importing (((Sys.start d hits).run gpu pre).procs x.1) →
      ∀ i, ¬ Saving (((Sys.start d hits).run gpu pre).procs i)) (p : Nat)
    (hp : (((Sys.start d hits).run gpu sched).procs p).pc = .done) :
    (((Sys.start d hits).run gpu sched).procs p).ok = true := by
  refine C67_built hd hits sched p hp ?_
  have hr : Readable (Sys.start d hits) := by
    obtain ⟨-, -, h1, h2⟩ := hd
    constructor
    · rintro (h | h) <;> rcases h1 with h1 | ⟨b, h1⟩ <;> simp_all [Sys.start]
    · rintro (h | h) <;> rcases h2 with h2 | ⟨b, h2⟩ <;> simp_all [Sys.start]
  have hf : ∀ p, Fine (Sys.start d hits).disk ((Sys.start d hits).procs p) := fun p =>
    ⟨.inl (by simp [Importing, Sys.start, Proc.new]), by simp [Sys.start, Proc.new], by simp [Sys.start, Proc.new]⟩
  have key : ∀ (sched : List (Nat × Bool)) (s : Sys), Readable s → (∀ p, Fine s.disk (s.procs p)) →
      (∀ pre x post, sched = pre ++ x :: post → Importing ((s.run gpu pre).procs x.1) →
        ∀ i, ¬ Saving ((s.run gpu pre).procs i)) → ∀ p, Fine (s.run gpu sched).disk ((s.run gpu sched).procs p) := by
    intro sched
    induction sched with
    | nil => exact fun s _ h _ => h
    | cons x sched ih =>
      intro s hr hf hs
      refine ih (s.step gpu x.1 x.2) (hr.step x.1 x.2) (fun p => ?_) fun pre y post e => by
        have := hs (x :: pre) y post (by simp [e])
        exact this
      by_cases e : p = x.1
      · subst e
        have h0 := hs [] x sched rfl
        have := fine_act (gpu := gpu) (mine := x.2 || s.owner == x.1) (hf x.1) fun hi => by
          have h1 := h0 hi
          constructor
          · intro ht
            obtain ⟨i, h | h⟩ := hr.load ht
            · exact h1 i (by simp [Saving, Sys.run, h])
            · exact h1 i (by simp [Saving, Sys.run, h])
          · intro ht
            obtain ⟨i, h | h⟩ := hr.dll ht
            · exact h1 i (by simp [Saving, Sys.run, h])
            · exact h1 i (by simp [Saving, Sys.run, h])
        simpa [Sys.step] using this
      · simpa [Sys.step, Function.update_of_ne e] using fine_mono (hf p)
  rcases (key sched _ hr hf hs p).pc with h | h
  · simp [Importing, hp] at h
  · exact h

/-! ## Negations -/

/-- **Negation of C67 on CPU**: two processes start with an empty folder.  The first one creates the source of the
routine; then the second one finds this file, and raises an exception because the information file is not there. -/
theorem not_C67_cpu : ∃ sched : List (Nat × Bool),
    (((Sys.start .new fun _ => false).run false sched).procs 1).pc = .done ∧
    (((Sys.start .new fun _ => false).run false sched).procs 1).imported = true ∧
    (((Sys.start .new fun _ => false).run false sched).procs 1).ok = false :=
  ⟨.replicate 5 (0, false) ++ .replicate 24 (1, false), by decide +kernel⟩

/-- The same on GPU, after the creation of the assembly code by the first process. -/
theorem not_C67_gpu : ∃ sched : List (Nat × Bool),
    (((Sys.start .new fun _ => false).run true sched).procs 1).pc = .done ∧
    (((Sys.start .new fun _ => false).run true sched).procs 1).imported = true ∧
    (((Sys.start .new fun _ => false).run true sched).procs 1).ok = false :=
  ⟨.replicate 7 (0, false) ++ .replicate 24 (1, false), by decide +kernel⟩

/-- The second process starts when the first one has written the information file, and finds a binary that the compiler is
writing. -/
theorem not_C67_binary : ∃ sched : List (Nat × Bool),
    (((Sys.start .new fun _ => false).run false sched).disk.nfo = .full) ∧
    (((Sys.start .new fun _ => false).run false sched).procs 1).pc = .done ∧
    (((Sys.start .new fun _ => false).run false sched).procs 1).imported = true ∧
    (((Sys.start .new fun _ => false).run false sched).procs 1).ok = false :=
  ⟨.replicate 12 (0, false) ++ .replicate 24 (1, false), by decide +kernel⟩

/-- **Negation of C67 for complete folders**: the folder is the one left by a process; a process that starts while another
one writes the cache of `LoadKeOps`, at exit, cannot import the library. -/
theorem not_C67_import (gpu : Bool) : Complete gpu (process gpu false .new).final ∧ ∃ sched : List (Nat × Bool),
    (((Sys.start (process gpu false .new).final fun _ => false).run gpu sched).procs 1).pc = .done ∧
    (((Sys.start (process gpu false .new).final fun _ => false).run gpu sched).procs 1).imported = false := by
  refine ⟨?_, ?_⟩
  · cases gpu
    · exact ⟨⟨rfl, rfl⟩, rfl, .inr ⟨_, rfl⟩, .inr ⟨_, rfl⟩⟩
    · exact ⟨rfl, rfl, .inr ⟨_, rfl⟩, .inr ⟨_, rfl⟩⟩
  · cases gpu
    · exact ⟨.replicate 8 (0, false) ++ .replicate 24 (1, false), by decide +kernel⟩
    · exact ⟨.replicate 8 (0, false) ++ .replicate 24 (1, false), by decide +kernel⟩

/-! ## The hypotheses can be met -/

/-- Three processes that alternate on an empty folder, until they have ended; the second one raises an exception. -/
example : Quiet ((Sys.start .new fun _ => false).run false
      ((List.replicate 30 [(0, false), (1, false), (2, false)]).flatten)) := by
  intro p
  match p with
  | 0 => decide +kernel
  | 1 => decide +kernel
  | 2 => decide +kernel
  | p + 3 =>
    left
    have : ∀ (l : List (Nat × Bool)) (s : Sys), (∀ x ∈ l, x.1 < 3) → (s.procs (p + 3)).pc = .sizeDll →
        ((s.run false l).procs (p + 3)).pc = .sizeDll := by
      intro l
      induction l with
      | nil => exact fun s _ h => h
      | cons x l ih =>
        intro s hl h
        refine ih _ (fun y hy => hl y (List.mem_cons_of_mem _ hy)) ?_
        have := hl x List.mem_cons_self
        simpa [Sys.step, Function.update_of_ne (show p + 3 ≠ x.1 by omega)] using h
    refine this _ _ (fun x hx => ?_) rfl
    simp only [List.mem_flatten, List.mem_replicate] at hx
    obtain ⟨l, ⟨-, rfl⟩, hx⟩ := hx
    simp only [List.mem_cons, List.not_mem_nil, or_false] at hx
    rcases hx with rfl | rfl | rfl <;> decide

/-- Two processes that alternate on a complete folder satisfy the hypotheses of `C67_partial`. -/
example : Complete false (process false false .new).final ∧
    ∀ k < 22, Importing (((Sys.start (process false false .new).final fun _ => false).run false
      (((List.replicate 11 [(0, false), (1, false)]).flatten).take k)).procs (k % 2)) →
    ∀ i < 2, ¬ Saving (((Sys.start (process false false .new).final fun _ => false).run false
      (((List.replicate 11 [(0, false), (1, false)]).flatten).take k)).procs i) := by
  refine ⟨⟨⟨rfl, rfl⟩, rfl, .inr ⟨_, rfl⟩, .inr ⟨_, rfl⟩⟩, ?_⟩
  unfold Importing Saving
  decide +kernel

end Verif.Build
