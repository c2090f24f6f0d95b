import Verif.Spec.Build

/-!
# C32: interrupted compilations
-/

namespace Verif.Build

/-- What holds of the files at any time. -/
def Inv (gpu : Bool) (d : Disk) : Prop :=
  if gpu then
    (d.nfo ≠ .absent → d.low = .full) ∧ (d.dllPkl.entry = true → d.nfo = .full) ∧
      (d.loadPkl.entry = true → d.nfo = .full)
  else
    (d.nfo ≠ .absent → d.src = .full) ∧ (d.dll ≠ .absent → d.nfo = .full) ∧
      (d.dllPkl.entry = true → d.nfo = .full) ∧ (d.loadPkl.entry = true → d.dll = .full)

instance (gpu : Bool) (d : Disk) : Decidable (Inv gpu d) := by unfold Inv; infer_instance

/-- A statement on all files, by cases. -/
theorem forall_file {p : File → Prop} (h1 : p .absent) (h2 : p .cut) (h3 : p .full) : ∀ f, p f
  | .absent => h1
  | .cut => h2
  | .full => h3

instance {p : File → Prop} [DecidablePred p] : Decidable (∀ f, p f) :=
  decidable_of_iff (p .absent ∧ p .cut ∧ p .full)
    ⟨fun h => forall_file h.1 h.2.1 h.2.2, fun h => ⟨h _, h _, h _⟩⟩

theorem forall_pickle {p : Pickle → Prop} (h1 : p .absent) (h2 : p .empty) (h3 : p .cut) (h4 : p (.full true))
    (h5 : p (.full false)) : ∀ f, p f
  | .absent => h1
  | .empty => h2
  | .cut => h3
  | .full true => h4
  | .full false => h5

instance {p : Pickle → Prop} [DecidablePred p] : Decidable (∀ f, p f) :=
  decidable_of_iff (p .absent ∧ p .empty ∧ p .cut ∧ p (.full true) ∧ p (.full false))
    ⟨fun h => forall_pickle h.1 h.2.1 h.2.2.1 h.2.2.2.1 h.2.2.2.2, fun h => ⟨h _, h _, h _, h _, h _⟩⟩

/-- What one process does, for each of the possible states of the files (all of them). -/
theorem process_cases : ∀ (gpu hit : Bool) (src low nfo py dll : File) (a b : Pickle),
    Inv gpu ⟨src, low, nfo, py, dll, a, b⟩ →
    (∀ d ∈ (process gpu hit ⟨src, low, nfo, py, dll, a, b⟩).visited, Inv gpu d) ∧
    Inv gpu (process gpu hit ⟨src, low, nfo, py, dll, a, b⟩).final ∧
    ((process gpu hit ⟨src, low, nfo, py, dll, a, b⟩).ok = true ↔ ¬ Poisoned gpu ⟨src, low, nfo, py, dll, a, b⟩) ∧
    (Poisoned gpu ⟨src, low, nfo, py, dll, a, b⟩ →
      (∀ d ∈ (process gpu hit ⟨src, low, nfo, py, dll, a, b⟩).visited, Poisoned gpu d) ∧
      Poisoned gpu (process gpu hit ⟨src, low, nfo, py, dll, a, b⟩).final) := by
  decide +kernel

theorem leave_mem (gpu hit : Bool) (k : Option Nat) (d : Disk) :
    leave gpu hit k d = d ∨ leave gpu hit k d ∈ (process gpu hit d).visited ∨
      leave gpu hit k d = (process gpu hit d).final := by
  unfold leave
  cases k with
  | none => exact .inr (.inr rfl)
  | some k =>
    dsimp only
    cases h : (d :: (process gpu hit d).visited)[k]? with
    | none => exact .inr (.inr rfl)
    | some d' =>
      rcases List.mem_cons.mp (List.mem_of_getElem? h) with h | h
      · exact .inl h
      · exact .inr (.inl h)

theorem history_inv (gpu : Bool) (h : List (Bool × Option Nat)) {d : Disk} (hd : Inv gpu d) :
    Inv gpu (history gpu d h) := by
  induction h generalizing d with
  | nil => exact hd
  | cons p h ih =>
    refine ih ?_
    obtain ⟨h1, h2, _⟩ := process_cases gpu p.1 d.src d.low d.nfo d.py d.dll d.loadPkl d.dllPkl hd
    show Inv gpu (leave gpu p.1 p.2 d)
    rcases leave_mem gpu p.1 p.2 d with h | h | h
    · rw [h]
      exact hd
    · exact h1 _ h
    · rw [h]
      exact h2

theorem new_inv (gpu : Bool) : Inv gpu Disk.new := by cases gpu <;> decide

/-- **C32, characterisation**: after any number of processes, each of which is killed after any number of steps or
not, the next process gets the routine if and only if the build folder is not poisoned. -/
theorem C32_iff (gpu hit : Bool) (h : List (Bool × Option Nat)) :
    (process gpu hit (history gpu .new h)).ok = true ↔ ¬ Poisoned gpu (history gpu .new h) :=
  (process_cases gpu hit _ _ _ _ _ _ _ (history_inv gpu h (new_inv gpu))).2.2.1

/-- **C32, partial**: the routine is available after any history that does not leave a poisoned folder. In particular
a process killed after the creation of the information file and before the compilation of the Python module, or killed
before the source is created, does no harm. -/
theorem C32_partial (gpu hit : Bool) (h : List (Bool × Option Nat)) (hp : ¬ Poisoned gpu (history gpu .new h)) :
    (process gpu hit (history gpu .new h)).ok = true := (C32_iff gpu hit h).mpr hp

/-- A poisoned folder remains poisoned: no later process can repair it. -/
theorem C32_forever (gpu : Bool) (h h' : List (Bool × Option Nat)) (hp : Poisoned gpu (history gpu .new h)) :
    Poisoned gpu (history gpu .new (h ++ h')) := by
  rw [history, List.foldl_append]
  show Poisoned gpu (history gpu (history gpu .new h) h')
  have hi := history_inv gpu h (new_inv gpu)
  revert hp hi
  generalize history gpu .new h = d
  induction h' generalizing d with
  | nil => exact fun hp _ => hp
  | cons p h' ih =>
    intro hp hi
    obtain ⟨h1, h2, _, h3⟩ := process_cases gpu p.1 d.src d.low d.nfo d.py d.dll d.loadPkl d.dllPkl hi
    obtain ⟨h4, h5⟩ := h3 hp
    refine ih (leave gpu p.1 p.2 d) ?_ ?_
    · rcases leave_mem gpu p.1 p.2 d with h | h | h
      · rw [h]
        exact hp
      · exact h4 _ h
      · rw [h]
        exact h5
    · exact history_inv gpu [p] hi

/-- A history without kills never poisons the folder. -/
theorem C32_normal (gpu hit : Bool) (h : List (Bool × Option Nat)) (hk : ∀ p ∈ h, p.2 = none) :
    (process gpu hit (history gpu .new h)).ok = true := by
  rw [C32_iff]
  suffices hs : ∀ d, Inv gpu d → ¬ Poisoned gpu d → ¬ Poisoned gpu (history gpu d h) from
    hs _ (new_inv gpu) (by cases gpu <;> decide)
  induction h with
  | nil => exact fun d _ hp => hp
  | cons p h ih =>
    intro d hi hp
    have hfinal : ∀ (gpu hit : Bool) (src low nfo py dll : File) (a b : Pickle),
        Inv gpu ⟨src, low, nfo, py, dll, a, b⟩ → ¬ Poisoned gpu ⟨src, low, nfo, py, dll, a, b⟩ →
        ¬ Poisoned gpu (process gpu hit ⟨src, low, nfo, py, dll, a, b⟩).final := by
      decide +kernel
    refine ih (fun q hq => hk q (List.mem_cons_of_mem _ hq)) (leave gpu p.1 p.2 d) (history_inv gpu [p] hi) ?_
    rw [show leave gpu p.1 p.2 d = (process gpu p.1 d).final by unfold leave; rw [hk p List.mem_cons_self]]
    exact hfinal _ _ _ _ _ _ _ _ _ hi hp

/-- **Negation of C32**: for each history `h` that follows the kill of the first process at one of these points (on
CPU: after 1, 2 or 3 steps, between the creation of the source and the end of the writing of the information file;
after 7 steps, during the compilation of the Python module; after 9 or 10 steps and after 13, while the caches are
saved), no process gets the routine any more. -/
theorem not_C32_cpu (k : Nat) (hk : k ∈ [1, 2, 3, 7, 9, 10, 13]) (hit : Bool) (h : List (Bool × Option Nat)) :
    (process false hit (history false .new ((false, some k) :: h))).ok = false := by
  have hp : ∀ k ∈ [1, 2, 3, 7, 9, 10, 13], Poisoned false (history false .new [(false, some k)]) := by decide +kernel
  have := C32_forever false [(false, some k)] h (hp k hk)
  rw [Bool.eq_false_iff]
  intro h'
  exact (C32_iff false hit _).mp h' this

/-- The other points of the first process are harmless. -/
theorem C32_cpu_safe (k : Nat) (hk : k ∉ [1, 2, 3, 7, 9, 10, 13]) (hit : Bool) :
    (process false hit (history false .new [(false, some k)])).ok = true := by
  rw [C32_iff]
  have hp : ∀ k < 15, k ∉ [1, 2, 3, 7, 9, 10, 13] → ¬ Poisoned false (history false .new [(false, some k)]) := by
    decide +kernel
  rcases Nat.lt_or_ge k 15 with h | h
  · exact hp k h hk
  · have hlen : (Disk.new :: (process false false .new).visited).length = 15 := by decide +kernel
    have : history false .new [(false, some k)] = (process false false .new).final := by
      show leave false false (some k) .new = _
      unfold leave
      dsimp only
      rw [List.getElem?_eq_none (by omega)]
      rfl
    rw [this]
    decide +kernel

/-- **Negation of C32 on GPU**: the same if the first process is killed after 3 to 5 steps, between the creation of
the assembly code and the end of the writing of the information file, or after 7, 8 or 11 steps, while the caches are
saved. -/
theorem not_C32_gpu (k : Nat) (hk : k ∈ [3, 4, 5, 7, 8, 11]) (hit : Bool) (h : List (Bool × Option Nat)) :
    (process true hit (history true .new ((false, some k) :: h))).ok = false := by
  have hp : ∀ k ∈ [3, 4, 5, 7, 8, 11], Poisoned true (history true .new [(false, some k)]) := by decide +kernel
  have := C32_forever true [(false, some k)] h (hp k hk)
  rw [Bool.eq_false_iff]
  intro h'
  exact (C32_iff true hit _).mp h' this

/-- The other points of the first process are harmless on GPU. -/
theorem C32_gpu_safe (k : Nat) (hk : k ∉ [3, 4, 5, 7, 8, 11]) (hit : Bool) :
    (process true hit (history true .new [(false, some k)])).ok = true := by
  rw [C32_iff]
  have hp : ∀ k < 13, k ∉ [3, 4, 5, 7, 8, 11] → ¬ Poisoned true (history true .new [(false, some k)]) := by
    decide +kernel
  rcases Nat.lt_or_ge k 13 with h | h
  · exact hp k h hk
  · have hlen : (Disk.new :: (process true false .new).visited).length = 13 := by decide +kernel
    have : history true .new [(false, some k)] = (process true false .new).final := by
      show leave true false (some k) .new = _
      unfold leave
      dsimp only
      rw [List.getElem?_eq_none (by omega)]
      rfl
    rw [this]
    decide +kernel

/-- A history that is killed several times at harmless points: the next process gets the routine. -/
example : ¬ Poisoned false (history false .new [(false, some 0), (false, some 5), (true, some 1), (false, none),
    (true, some 3)]) ∧ (process false true (history false .new [(false, some 0), (false, some 5), (true, some 1),
      (false, none), (true, some 3)])).ok = true := by
  decide +kernel

end Verif.Build
