import Verif.Spec.Concurrent

/-!
# Lemmas for C67: processes that share a build folder
-/

namespace Verif.Build

variable {gpu mine : Bool} {d : Disk} {q : Proc}

/-- The step at which the file that is looked for is complete. -/
def wr (gpu : Bool) : Pc := if gpu then .low2 else .src2

theorem fileToCheck_mono (h : fileToCheck gpu d ≠ .absent) : fileToCheck gpu (act gpu mine d q).1 ≠ .absent := by
  obtain ⟨pc, hit, load, dll, im, ok⟩ := q
  cases pc <;> cases gpu <;> simp_all [act, fileToCheck] <;> (repeat' split) <;> simp_all

theorem nfo_mono (h : d.nfo ≠ .absent) : (act gpu mine d q).1.nfo ≠ .absent := by
  obtain ⟨pc, hit, load, dll, im, ok⟩ := q
  cases pc <;> simp_all [act] <;> (repeat' split) <;> simp_all

theorem dll_mono (h : d.dll ≠ .absent) : (act gpu mine d q).1.dll ≠ .absent := by
  obtain ⟨pc, hit, load, dll, im, ok⟩ := q
  cases pc <;> simp_all [act] <;> (repeat' split) <;> simp_all

/-- What a process knows about the folder. -/
structure Knows (gpu : Bool) (d : Disk) (q : Proc) : Prop where
  low : q.pc = .low1 ∨ q.pc = .low2 → gpu = true
  file : q.pc = wr gpu ∨ q.pc = .nfo1 ∨ q.pc = .nfo2 → fileToCheck gpu d ≠ .absent
  nfo : q.dll = true ∨ q.load = true ∨ q.pc = .nfo2 ∨ q.pc = .dllCheck ∨ q.pc = .py1 ∨ q.pc = .py2 ∨ q.pc = .cc ∨
    q.pc = .cc2 ∨ q.pc = .load → d.nfo ≠ .absent
  dll : q.pc = .cc2 ∨ (gpu = false ∧ q.load = true) → d.dll ≠ .absent

theorem Knows.mono {q' : Proc} (h : Knows gpu d q') : Knows gpu (act gpu mine d q).1 q' :=
  ⟨h.low, fun h' => fileToCheck_mono (h.file h'), fun h' => nfo_mono (h.nfo h'), fun h' => dll_mono (h.dll h')⟩

/-- What the two caches tell about the folder. -/
structure Caches (gpu : Bool) (d : Disk) : Prop where
  info : d.nfo ≠ .absent → fileToCheck gpu d ≠ .absent
  dllPkl : d.dllPkl.entry = true → d.nfo ≠ .absent
  loadPkl : d.loadPkl.entry = true → d.nfo ≠ .absent
  loadDll : gpu = false → d.loadPkl.entry = true → d.dll ≠ .absent
  dll : gpu = false → d.dll ≠ .absent → d.nfo ≠ .absent

theorem knows_act (h : Knows gpu d q) (hc : Caches gpu d) : Knows gpu (act gpu mine d q).1 (act gpu mine d q).2 := by
  obtain ⟨h1, h2, h3, h4⟩ := h
  obtain ⟨c1, c2, c3, c4, c5⟩ := hc
  obtain ⟨pc, hit, load, dll, im, ok⟩ := q
  dsimp only at h1 h2 h3 h4
  cases gpu <;> cases pc <;> simp only [act] <;> (repeat' split) <;>
    constructor <;> grind [wr, fileToCheck, Pickle.entry]

theorem caches_act (h : Knows gpu d q) (hc : Caches gpu d) : Caches gpu (act gpu mine d q).1 := by
  obtain ⟨h1, h2, h3, h4⟩ := h
  obtain ⟨c1, c2, c3, c4, c5⟩ := hc
  obtain ⟨pc, hit, load, dll, im, ok⟩ := q
  dsimp only at h1 h2 h3 h4
  cases gpu <;> cases pc <;> simp only [act] <;> (repeat' split) <;>
    constructor <;> grind [wr, fileToCheck, Pickle.entry]

/-! ## Files that are not complete -/

theorem cut_file (h : fileToCheck gpu (act gpu mine d q).1 = .cut) :
    (act gpu mine d q).2.pc = wr gpu ∨ (fileToCheck gpu d = .cut ∧ q.pc ≠ wr gpu) := by
  obtain ⟨pc, hit, load, dll, im, ok⟩ := q
  revert h
  cases gpu <;> cases pc <;> simp only [act] <;> (repeat' split) <;> grind [wr, fileToCheck]

theorem no_info (h : fileToCheck gpu (act gpu mine d q).1 ≠ .absent) : (act gpu mine d q).1.nfo ≠ .absent ∨
    ((act gpu mine d q).2.pc = wr gpu ∨ (act gpu mine d q).2.pc = .nfo1) ∨
    (fileToCheck gpu d ≠ .absent ∧ ¬ (q.pc = wr gpu ∨ q.pc = .nfo1)) := by
  obtain ⟨pc, hit, load, dll, im, ok⟩ := q
  revert h
  cases gpu <;> cases pc <;> simp only [act] <;> (repeat' split) <;> grind [wr, fileToCheck]

theorem cut_info (h : (act gpu mine d q).1.nfo = .cut) :
    (act gpu mine d q).2.pc = .nfo2 ∨ (d.nfo = .cut ∧ q.pc ≠ .nfo2) := by
  obtain ⟨pc, hit, load, dll, im, ok⟩ := q
  revert h
  cases gpu <;> cases pc <;> simp only [act] <;> (repeat' split) <;> grind

theorem cut_dll (h : (act gpu mine d q).1.dll = .cut) :
    (act gpu mine d q).2.pc = .cc2 ∨ (d.dll = .cut ∧ ¬ (q.pc = .cc2 ∧ mine = true)) := by
  obtain ⟨pc, hit, load, dll, im, ok⟩ := q
  revert h
  cases gpu <;> cases pc <;> simp only [act] <;> (repeat' split) <;> grind

/-- A cache that cannot be read. -/
def Torn (f : Pickle) : Prop := f = .empty ∨ f = .cut

theorem pickle_cases (f : Pickle) : f = .absent ∨ Torn f ∨ ∃ b, f = .full b := by
  cases f <;> simp [Torn]

theorem torn_load (h : Torn (act gpu mine d q).1.loadPkl) :
    ((act gpu mine d q).2.pc = .saveLoad2 ∨ (act gpu mine d q).2.pc = .saveLoad3) ∨
    (Torn d.loadPkl ∧ ¬ (q.pc = .saveLoad2 ∨ q.pc = .saveLoad3)) := by
  obtain ⟨pc, hit, load, dll, im, ok⟩ := q
  revert h
  cases gpu <;> cases pc <;> simp only [act] <;> (repeat' split) <;> grind [Torn]

theorem torn_dll (h : Torn (act gpu mine d q).1.dllPkl) :
    ((act gpu mine d q).2.pc = .saveDll2 ∨ (act gpu mine d q).2.pc = .saveDll3) ∨
    (Torn d.dllPkl ∧ ¬ (q.pc = .saveDll2 ∨ q.pc = .saveDll3)) := by
  obtain ⟨pc, hit, load, dll, im, ok⟩ := q
  revert h
  cases gpu <;> cases pc <;> simp only [act] <;> (repeat' split) <;> grind [Torn]

theorem cut_pkl (h : (act gpu mine d q).1.dllPkl = .cut) :
    (act gpu mine d q).2.pc = .saveDll3 ∨ (d.dllPkl = .cut ∧ q.pc ≠ .saveDll3) := by
  obtain ⟨pc, hit, load, dll, im, ok⟩ := q
  revert h
  cases gpu <;> cases pc <;> simp only [act] <;> (repeat' split) <;> grind

/-- What holds at any time, whatever the schedule. -/
structure Sound (gpu : Bool) (s : Sys) : Prop where
  caches : Caches gpu s.disk
  knows : ∀ p, Knows gpu s.disk (s.procs p)
  file : fileToCheck gpu s.disk = .cut → ∃ p, (s.procs p).pc = wr gpu
  info : fileToCheck gpu s.disk ≠ .absent → s.disk.nfo ≠ .absent ∨ ∃ p, (s.procs p).pc = wr gpu ∨ (s.procs p).pc = .nfo1
  nfo : s.disk.nfo = .cut → ∃ p, (s.procs p).pc = .nfo2
  dll : gpu = false → s.disk.dll = .cut → (s.procs s.owner).pc = .cc2
  load : Torn s.disk.loadPkl → ∃ p, (s.procs p).pc = .saveLoad2 ∨ (s.procs p).pc = .saveLoad3
  pkl : s.disk.dllPkl = .cut → ∃ p, (s.procs p).pc = .saveDll3

/-- A process that satisfies a condition, after a step of process `p`. -/
theorem exists_step {procs : Nat → Proc} {p : Nat} {q' : Proc} {Q : Pc → Prop}
    (h : Q q'.pc ∨ ((∃ i, Q (procs i).pc) ∧ ¬ Q (procs p).pc)) : ∃ i, Q (Function.update procs p q' i).pc := by
  rcases h with h | ⟨⟨i, h⟩, h'⟩
  · exact ⟨p, by simpa using h⟩
  · have e : i ≠ p := fun e => h' (e ▸ h)
    refine ⟨i, ?_⟩
    rw [Function.update_of_ne e]
    exact h

theorem Sound.step {s : Sys} (h : Sound gpu s) (p : Nat) (c : Bool) : Sound gpu (s.step gpu p c) := by
  have hk := h.knows p
  constructor
  · exact caches_act hk h.caches
  · intro i
    by_cases e : i = p
    · subst e
      simpa [Sys.step] using knows_act hk h.caches
    · simpa [Sys.step, Function.update_of_ne e] using (h.knows i).mono
  · intro hc
    exact exists_step (Q := fun x => x = wr gpu) ((cut_file hc).imp id fun h' => ⟨h.file h'.1, h'.2⟩)
  · intro hc
    rcases no_info hc with h1 | h1 | ⟨h1, h2⟩
    · exact .inl h1
    · exact .inr (exists_step (Q := fun x => x = wr gpu ∨ x = .nfo1) (.inl h1))
    · rcases h.info h1 with h3 | h3
      · exact .inl (nfo_mono h3)
      · exact .inr (exists_step (Q := fun x => x = wr gpu ∨ x = .nfo1) (.inr ⟨h3, h2⟩))
  · intro hc
    exact exists_step (Q := fun x => x = .nfo2) ((cut_info hc).imp id fun h' => ⟨h.nfo h'.1, h'.2⟩)
  · intro hg hc
    rcases cut_dll hc with h1 | ⟨h1, h2⟩
    · simp [Sys.step, h1]
    · have h3 := h.dll hg h1
      by_cases e : s.owner = p
      · exact absurd ⟨e ▸ h3, by simp [e]⟩ h2
      · by_cases h4 : (act gpu (c || s.owner == p) s.disk (s.procs p)).2.pc = .cc2
        · simp [Sys.step, h4]
        · simp [Sys.step, h4, Function.update_of_ne e, h3]
  · intro hc
    exact exists_step (Q := fun x => x = .saveLoad2 ∨ x = .saveLoad3) ((torn_load hc).imp id fun h' => ⟨h.load h'.1, h'.2⟩)
  · intro hc
    exact exists_step (Q := fun x => x = .saveDll3) ((cut_pkl hc).imp id fun h' => ⟨h.pkl h'.1, h'.2⟩)

theorem Sound.run {s : Sys} (h : Sound gpu s) (sched : List (Nat × Bool)) : Sound gpu (s.run gpu sched) := by
  induction sched generalizing s with
  | nil => exact h
  | cons x sched ih => exact ih (h.step x.1 x.2)

/-! ## A complete folder -/

/-- The part of a complete folder that processes do not change. -/
def Built (gpu : Bool) (d : Disk) : Prop :=
  (if gpu then d.low = .full else d.src = .full ∧ d.dll = .full) ∧ d.nfo = .full

/-- What a process does when the folder is complete. -/
structure Reads (q : Proc) : Prop where
  pc : q.pc ≠ .src1 ∧ q.pc ≠ .src2 ∧ q.pc ≠ .low1 ∧ q.pc ≠ .low2 ∧ q.pc ≠ .nfo1 ∧ q.pc ≠ .nfo2 ∧ q.pc ≠ .py1 ∧
    q.pc ≠ .py2 ∧ q.pc ≠ .cc ∧ q.pc ≠ .cc2
  ok : q.imported = true → q.ok = true ∨ q.pc = .call ∨ q.pc = .check ∨ q.pc = .info ∨ q.pc = .dllCheck ∨ q.pc = .load

theorem built_act (hb : Built gpu d) (h : Reads q) :
    Built gpu (act gpu mine d q).1 ∧ Reads (act gpu mine d q).2 := by
  obtain ⟨h1, h2⟩ := h
  obtain ⟨pc, hit, load, dll, im, ok⟩ := q
  dsimp only at h1 h2
  cases gpu <;> cases pc <;> simp only [act] <;> (repeat' split) <;> refine ⟨?_, ?_, ?_⟩ <;>
    grind [Built, fileToCheck]

theorem built_run {s : Sys} (hb : Built gpu s.disk) (h : ∀ p, Reads (s.procs p)) (sched : List (Nat × Bool)) :
    Built gpu (s.run gpu sched).disk ∧ ∀ p, Reads ((s.run gpu sched).procs p) := by
  induction sched generalizing s with
  | nil => exact ⟨hb, h⟩
  | cons x sched ih =>
    obtain ⟨h1, h2⟩ := built_act (mine := x.2 || s.owner == x.1) hb (h x.1)
    refine ih (s := s.step gpu x.1 x.2) h1 fun p => ?_
    by_cases e : p = x.1
    · subst e
      simpa [Sys.step] using h2
    · simpa [Sys.step, Function.update_of_ne e] using h p

/-- The import of a process has not failed. -/
structure Fine (d : Disk) (q : Proc) : Prop where
  pc : Importing q ∨ q.imported = true
  dll : q.pc = .readDll → d.dllPkl ≠ .absent
  load : q.pc = .readLoad → d.loadPkl ≠ .absent

theorem fine_mono {q' : Proc} (h : Fine d q') : Fine (act gpu mine d q).1 q' := by
  obtain ⟨h1, h2, h3⟩ := h
  obtain ⟨pc, hit, load, dll, im, ok⟩ := q
  cases gpu <;> cases pc <;> simp only [act] <;> (repeat' split) <;> refine ⟨h1, ?_, ?_⟩ <;> grind

theorem fine_act (h : Fine d q) (hi : Importing q → ¬ Torn d.loadPkl ∧ ¬ Torn d.dllPkl) :
    Fine (act gpu mine d q).1 (act gpu mine d q).2 := by
  obtain ⟨h1, h2, h3⟩ := h
  obtain ⟨pc, hit, load, dll, im, ok⟩ := q
  simp only [Importing] at h1 hi
  have t1 := pickle_cases d.dllPkl
  have t2 := pickle_cases d.loadPkl
  cases gpu <;> cases pc <;> simp only [act] <;> (repeat' split) <;> refine ⟨?_, ?_, ?_⟩ <;>
    grind [Torn, Importing]

/-- Caches that cannot be read are being written. -/
structure Readable (s : Sys) : Prop where
  load : Torn s.disk.loadPkl → ∃ p, (s.procs p).pc = .saveLoad2 ∨ (s.procs p).pc = .saveLoad3
  dll : Torn s.disk.dllPkl → ∃ p, (s.procs p).pc = .saveDll2 ∨ (s.procs p).pc = .saveDll3

theorem Readable.step {s : Sys} (h : Readable s) (p : Nat) (c : Bool) : Readable (s.step gpu p c) :=
  ⟨fun hc => exists_step (Q := fun x => x = .saveLoad2 ∨ x = .saveLoad3)
      ((torn_load hc).imp id fun h' => ⟨h.load h'.1, h'.2⟩),
    fun hc => exists_step (Q := fun x => x = .saveDll2 ∨ x = .saveDll3)
      ((torn_dll hc).imp id fun h' => ⟨h.dll h'.1, h'.2⟩)⟩

end Verif.Build
