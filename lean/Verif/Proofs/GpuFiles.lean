import Verif.Spec.GpuFiles
import Mathlib.Data.List.Induction

/-!
# The files of the GPU routines: invariant
-/

namespace Verif.GpuFiles

open Launch (Props setGpuProps)

variable {D : String → List Dev}

/-- A folder whose files were made for the devices `devs`. -/
structure FInv (devs : List Dev) (f : Folder) : Prop where
  binder : ∀ b, f.binder = some b → b = devs.map Dev.lim
  cubin : ∀ k a, f.cubins.lookup k = some a → ∃ dev, devs[k.2]? = some dev ∧ a = dev.arch
  info : ∀ k a, f.cubins.lookup k = some a → k ∈ f.infos
  pickle : ∀ k ∈ f.pickle, ∃ a, f.cubins.lookup k = some a

/-- The invariant of the histories where each folder is used with the same devices. -/
structure Inv (D : String → List Dev) (s : Sys) : Prop where
  cur : s.cur = s.base
  vis : s.vis = D s.base
  fold : ∀ p, FInv (D p) (s.disk p)
  there : ∃ b, (s.disk s.base).binder = some b
  binder : ∀ b, s.binder = some b → b = (D s.base).map Dev.lim
  dll : ∀ k ∈ s.dll, ∃ a, (s.disk s.base).cubins.lookup k = some a
  lib : ∀ k o, s.lib.lookup k = some o → Right (D s.base) k.2 o

theorem FInv.empty (devs : List Dev) : FInv devs Folder.empty :=
  ⟨fun _ h => (by simp [Folder.empty] at h), fun _ _ h => (by simp [Folder.empty] at h),
    fun _ _ h => (by simp [Folder.empty] at h), fun _ h => (by simp [Folder.empty] at h)⟩

theorem setDisk_self (disk : String → Folder) (p : String) (f : Folder) : setDisk disk p f p = f := by simp [setDisk]

theorem setDisk_fold {disk : String → Folder} (h : ∀ p, FInv (D p) (disk p)) {q : String} {f : Folder}
    (hf : FInv (D q) f) (p : String) : FInv (D p) (setDisk disk q f p) := by
  unfold setDisk
  split_ifs with hp
  · subst hp; exact hf
  · exact h p

/-- The invariant without the presence of the binder is restored by compiling it. -/
theorem compileBinder_inv {s : Sys} (cur : s.cur = s.base) (vis : s.vis = D s.base) (fold : ∀ p, FInv (D p) (s.disk p))
    (binder : ∀ b, s.binder = some b → b = (D s.base).map Dev.lim)
    (dll : ∀ k ∈ s.dll, ∃ a, (s.disk s.base).cubins.lookup k = some a)
    (lib : ∀ k o, s.lib.lookup k = some o → Right (D s.base) k.2 o) : Inv D (compileBinder s) := by
  unfold compileBinder
  cases hb : (s.disk s.cur).binder with
  | some b => exact ⟨cur, vis, fold, ⟨b, by rw [← cur]; exact hb⟩, binder, dll, lib⟩
  | none =>
    dsimp only
    have hF : FInv (D s.cur) { s.disk s.cur with binder := some (s.vis.map Dev.lim) } :=
      ⟨fun b h => by
        simp only [Option.some.injEq] at h
        rw [← h, vis, cur], (fold s.cur).cubin, (fold s.cur).info, (fold s.cur).pickle⟩
    refine ⟨cur, vis, setDisk_fold fold hF, ⟨s.vis.map Dev.lim, ?_⟩, binder, ?_, lib⟩
    · dsimp only
      rw [← cur, setDisk_self]
    · dsimp only
      rw [← cur, setDisk_self]
      rw [← cur] at dll
      exact dll

theorem start_inv {gpus : List Dev} {disk : String → Folder} {e : Env} (he : e.devices gpus = D e.folder)
    (hd : ∀ p, FInv (D p) (disk p)) : Inv D (start gpus disk e) :=
  compileBinder_inv rfl he hd (fun b h => by cases h) (hd e.folder).pickle (fun k o h => by simp at h)

theorem getDll_inv {s s1 : Sys} (h : Inv D s) {k : Key} (hs : getDll s k = .ok s1) :
    Inv D s1 ∧ s1.base = s.base ∧ s1.binder = s.binder ∧ ∃ a, (s1.disk s1.base).cubins.lookup k = some a := by
  unfold getDll at hs
  by_cases hk : k ∈ s.dll
  · rw [if_pos hk] at hs
    cases hs
    exact ⟨h, rfl, rfl, h.dll k hk⟩
  · rw [if_neg hk] at hs
    cases hl : (s.disk s.base).cubins.lookup k with
    | some a =>
      rw [hl] at hs
      dsimp only at hs
      split_ifs at hs
      cases hs
      refine ⟨⟨h.cur, h.vis, h.fold, h.there, h.binder, fun k' hk' => ?_, h.lib⟩, rfl, rfl, a, hl⟩
      rcases List.mem_cons.mp hk' with rfl | hk'
      · exact ⟨a, hl⟩
      · exact h.dll k' hk'
    | none =>
      rw [hl] at hs
      dsimp only at hs
      cases hv : s.vis[k.2]? with
      | none => rw [hv] at hs; cases hs
      | some dev =>
        rw [hv] at hs
        simp only [h.cur, setDisk_self, Except.ok.injEq] at hs
        have hlk : ∀ k', List.lookup k' ((k, dev.arch) :: (s.disk s.base).cubins) =
            if k' = k then some dev.arch else (s.disk s.base).cubins.lookup k' := fun k' => by
          rw [List.lookup_cons]
          by_cases hkk : k' = k
          · simp [hkk]
          · rw [beq_eq_false_iff_ne.mpr hkk, if_neg hkk]
        have hold : ∀ k' a, (s.disk s.base).cubins.lookup k' = some a → k' ≠ k := fun k' a h1 h2 => by
          rw [h2, hl] at h1; cases h1
        have hv' : (D s.base)[k.2]? = some dev := by rw [← h.vis]; exact hv
        have hF : FInv (D s.base) ⟨(s.disk s.base).binder, (k, dev.arch) :: (s.disk s.base).cubins,
            k :: (s.disk s.base).infos, (s.disk s.base).pickle⟩ := by
          refine ⟨(h.fold _).binder, fun k' a h1 => ?_, fun k' a h1 => ?_, fun k' hk' => ?_⟩
          · dsimp only at h1
            rw [hlk] at h1
            split_ifs at h1 with h2
            · cases h1; exact ⟨dev, by rw [h2]; exact hv', rfl⟩
            · exact (h.fold _).cubin k' a h1
          · dsimp only at h1 ⊢
            rw [hlk] at h1
            split_ifs at h1 with h2
            · simp [h2]
            · exact List.mem_cons_of_mem _ ((h.fold _).info k' a h1)
          · dsimp only
            rw [hlk]
            split_ifs with h2
            · exact ⟨_, rfl⟩
            · exact (h.fold _).pickle k' hk'
        subst hs
        have hfold := setDisk_fold (setDisk_fold h.fold (q := s.base) (f := { s.disk s.base with
          cubins := (k, dev.arch) :: (s.disk s.base).cubins, infos := k :: (s.disk s.base).infos }) hF) hF
        obtain ⟨b, hb⟩ := h.there
        refine ⟨⟨rfl, h.vis, ?_, ⟨b, ?_⟩, h.binder, fun k' hk' => ?_, h.lib⟩, rfl, rfl, dev.arch, ?_⟩
        · intro p
          have := hfold p
          simp only [setDisk] at this ⊢
          split_ifs with hp
          · rw [if_pos hp] at this; exact this
          · rw [if_neg hp, if_neg hp] at this; exact this
        · dsimp only; rw [setDisk_self]; exact hb
        · dsimp only at hk' ⊢
          rw [setDisk_self]
          dsimp only
          rw [hlk]
          split_ifs with h2
          · exact ⟨_, rfl⟩
          · rcases List.mem_cons.mp hk' with h3 | h3
            · exact absurd h3 h2
            · exact h.dll k' h3
        · dsimp only
          rw [setDisk_self]
          dsimp only
          rw [hlk, if_pos rfl]

theorem getDll_ok {s : Sys} (h : Inv D s) {k : Key} (hk : k.2 < (D s.base).length) : ∃ s1, getDll s k = .ok s1 := by
  unfold getDll
  by_cases h1 : k ∈ s.dll
  · rw [if_pos h1]; exact ⟨_, rfl⟩
  · rw [if_neg h1]
    cases hl : (s.disk s.base).cubins.lookup k with
    | some a =>
      dsimp only
      rw [if_pos]
      · exact ⟨_, rfl⟩
      · rw [h.cur]; exact (h.fold _).info k a hl
    | none =>
      dsimp only
      rw [h.vis, List.getElem?_eq_getElem hk]
      exact ⟨_, rfl⟩

theorem binder_eq {s : Sys} (h : Inv D s) :
    theBinder s = some ((D s.base).map Dev.lim) := by
  unfold theBinder
  cases hb : s.binder with
  | some b => exact congrArg some (h.binder b hb)
  | none =>
    obtain ⟨b, hb'⟩ := h.there
    dsimp only
    rw [h.cur, hb', (h.fold _).binder b hb']

theorem initPhase2_inv {s s2 : Sys} (h : Inv D s) {k : Key} {o : Obj} (hs : initPhase2 s k = .ok (o, s2)) :
    Inv D s2 ∧ s2.base = s.base ∧ Right (D s.base) k.2 o := by
  unfold initPhase2 at hs
  rw [binder_eq h] at hs
  dsimp only at hs
  cases hv : s.vis[k.2]? with
  | none => rw [hv] at hs; cases hs
  | some dev =>
    rw [hv] at hs
    dsimp only at hs
    cases hp : setGpuProps ((D s.base).map Dev.lim) k.2 with
    | error e => rw [hp] at hs; cases hs
    | ok lim =>
      rw [hp] at hs
      dsimp only at hs
      cases hl : (s.disk s.base).cubins.lookup k with
      | none => rw [hl] at hs; cases hs
      | some arch =>
        rw [hl] at hs
        simp only [Except.ok.injEq, Prod.mk.injEq] at hs
        obtain ⟨rfl, rfl⟩ := hs
        have hv' : (D s.base)[k.2]? = some dev := by rw [← h.vis]; exact hv
        obtain ⟨dev', e1, e2⟩ := (h.fold _).cubin k arch hl
        rw [hv'] at e1
        cases e1
        have hlim : lim = dev.lim := by
          unfold setGpuProps at hp
          rw [List.getElem?_take] at hp
          split_ifs at hp with h12
          · rw [List.getElem?_map, hv'] at hp
            cases hp
            rfl
        have hR : Right (D s.base) k.2 ⟨arch, lim⟩ := ⟨dev, hv', by rw [e2, hlim]⟩
        refine ⟨⟨h.cur, h.vis, h.fold, h.there, fun b hb => ?_, h.dll, fun k' o' ho => ?_⟩, rfl, hR⟩
        · cases hb; rfl
        · dsimp only at ho
          rw [List.lookup_cons] at ho
          by_cases hkk : k' = k
          · subst hkk
            simp at ho
            exact ho ▸ hR
          · rw [beq_eq_false_iff_ne.mpr hkk] at ho
            exact h.lib k' o' ho

theorem request_inv {s : Sys} (h : Inv D s) (k : Key) : Inv D (request s k).2 := by
  unfold request
  cases hl : s.lib.lookup k with
  | some o => exact h
  | none =>
    dsimp only
    cases hd : getDll s k with
    | error e => exact h
    | ok s1 =>
      obtain ⟨h1, -, -, -⟩ := getDll_inv h hd
      dsimp only
      cases hp : initPhase2 s1 k with
      | error e => exact h1
      | ok r => exact (initPhase2_inv h1 hp).1

/-- A request on a device that the process sees gives the right routine. -/
theorem request_right {s : Sys} (h : Inv D s) (k : Key) (hk : k.2 < (D s.base).length) (h12 : k.2 < 12) :
    ∃ o, (request s k).1 = .ok o ∧ Right (D s.base) k.2 o := by
  unfold request
  cases hl : s.lib.lookup k with
  | some o => exact ⟨o, rfl, h.lib k o hl⟩
  | none =>
    dsimp only
    obtain ⟨s1, hd⟩ := getDll_ok h hk
    rw [hd]
    obtain ⟨h1, hb, -, a, ha⟩ := getDll_inv h hd
    dsimp only
    have hp : ∃ r, initPhase2 s1 k = .ok r := by
      unfold initPhase2
      rw [binder_eq h1]
      dsimp only
      have hv : s1.vis[k.2]? = some (D s.base)[k.2] := by rw [h1.vis, hb]; exact List.getElem?_eq_getElem hk
      have hg : setGpuProps ((D s1.base).map Dev.lim) k.2 = .ok (D s.base)[k.2].lim := by
        unfold setGpuProps
        rw [List.getElem?_take, if_pos h12, hb, List.getElem?_map, List.getElem?_eq_getElem hk]
        rfl
      rw [hv, hg, ha]
      exact ⟨_, rfl⟩
    obtain ⟨⟨o, s2⟩, hp⟩ := hp
    rw [hp]
    obtain ⟨-, -, hR⟩ := initPhase2_inv h1 hp
    rw [hb] at hR
    exact ⟨o, rfl, hR⟩

theorem run_snoc (gpus : List Dev) (e : Env) (h : List Event) (ev : Event) :
    run gpus e (h ++ [ev]) = step gpus (run gpus e h) ev := by simp [run, List.foldl_append]

theorem compileBinder_vis (s : Sys) : (compileBinder s).vis = s.vis := by
  unfold compileBinder
  cases (s.disk s.cur).binder <;> rfl

theorem request_vis (s : Sys) (k : Key) : (request s k).2.vis = s.vis := by
  have hg : ∀ (s s1 : Sys), getDll s k = .ok s1 → s1.vis = s.vis := fun s s1 hs => by
    unfold getDll at hs
    grind
  have hi : ∀ (s s1 : Sys) (o : Obj), initPhase2 s k = .ok (o, s1) → s1.vis = s.vis := fun s s1 o hs => by
    unfold initPhase2 at hs
    grind
  unfold request
  cases hl : s.lib.lookup k with
  | some o => rfl
  | none =>
    dsimp only
    cases hd : getDll s k with
    | error x => rfl
    | ok s1 =>
      dsimp only
      cases hp : initPhase2 s1 k with
      | error x => exact hg _ _ hd
      | ok r => exact (hi _ _ _ hp).trans (hg _ _ hd)

/-- The devices seen at the end of a history are those of the last process. -/
theorem run_vis (gpus : List Dev) (e : Env) (h : List Event) :
    (run gpus e h).vis = (lastEnv e h).devices gpus := by
  induction h using List.reverseRecOn with
  | nil => exact compileBinder_vis ⟨fun _ => Folder.empty, e.devices gpus, e.folder, e.folder, none, [], []⟩
  | append_singleton h ev ih =>
    rw [run_snoc]
    unfold lastEnv at ih ⊢
    rw [List.foldl_append]
    cases ev with
    | request k => exact (request_vis _ _).trans ih
    | setFolder p => exact (compileBinder_vis _).trans ih
    | clean => exact (compileBinder_vis _).trans ih
    | exit e' => exact compileBinder_vis ⟨_, e'.devices gpus, e'.folder, e'.folder, none, [], _⟩

theorem run_inv {gpus : List Dev} (e : Env) (h : List Event) (hD : ∀ e' ∈ envs e h, e'.devices gpus = D e'.folder)
    (hn : NoSetFolder h) : Inv D (run gpus e h) := by
  induction h using List.reverseRecOn with
  | nil => exact start_inv (hD e (by simp [envs])) fun p => FInv.empty _
  | append_singleton h ev ih =>
    have ih := ih (fun e' he' => hD e' (by
      simp only [envs, List.filterMap_append, List.mem_cons, List.mem_append] at he' ⊢
      rcases he' with he' | he'
      · exact Or.inl he'
      · exact Or.inr (Or.inl he'))) (fun p hp => hn p (by simp [hp]))
    rw [run_snoc]
    cases ev with
    | request k => exact request_inv ih k
    | setFolder p => exact absurd (by simp) (hn p)
    | clean =>
      refine compileBinder_inv ih.cur ih.vis (setDisk_fold ih.fold (FInv.empty _)) ih.binder ?_ ?_
      · intro k hk; simp at hk
      · intro k o hk; simp at hk
    | exit e' =>
      refine start_inv (hD e' (by simp [envs])) (setDisk_fold ih.fold ?_)
      exact ⟨(ih.fold _).binder, (ih.fold _).cubin, (ih.fold _).info, ih.dll⟩

end Verif.GpuFiles
