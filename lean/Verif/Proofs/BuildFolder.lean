import Verif.Model.BuildFolder

/-!
# Changes of the build folder: invariants
-/

namespace Verif.Folder

/-- The dictionaries only speak of files that are in the folder `d`. -/
structure Agree (d : Path) (par : List (Nat × Nat)) (dll : List (Nat × Path)) (src bin : List (Path × Nat)) : Prop where
  par : ∀ x ∈ par, (d, x.2) ∈ bin
  dll : ∀ x ∈ dll, x.2 = d ∧ (d, x.1) ∈ src

theorem Agree.nil {d : Path} {src bin : List (Path × Nat)} : Agree d [] [] src bin where
  par := fun x hx => by cases hx
  dll := fun x hx => by cases hx

theorem Agree.mono {d : Path} {par dll src src' bin bin'} (h : Agree d par dll src bin) (hs : ∀ x ∈ src, x.1 = d → x ∈ src')
    (hb : ∀ x ∈ bin, x.1 = d → x ∈ bin') : Agree d par dll src' bin' where
  par := fun x hx => hb _ (h.par x hx) rfl
  dll := fun x hx => ⟨(h.dll x hx).1, hs _ (h.dll x hx).2 rfl⟩

theorem mem_lookup {l : List (Nat × Path)} {r : Nat} {f : Path} (h : l.lookup r = some f) : (r, f) ∈ l := by
  induction l with
  | nil => cases h
  | cons x l ih =>
    obtain ⟨a, b⟩ := x
    by_cases hr : r = a
    · subst hr
      simp only [List.lookup, beq_self_eq_true, Option.some.injEq] at h
      subst h
      exact List.mem_cons_self
    · have : (r == a) = false := by simpa using hr
      simp only [List.lookup, this] at h
      exact List.mem_cons_of_mem _ (ih h)

/-- The dictionaries of the process agree with the current folder. -/
def Now (s : Sys) : Prop := Agree s.dir s.par s.dll s.src s.bin

/-- The saved dictionaries agree with the default folder. -/
def Saved (s : Sys) : Prop := Agree s.home s.parFile s.dllFile s.src s.bin

theorem request_spec {s : Sys} (r : Nat) (h : Now s) (hd : s.dir.rel = false) :
    (request s r).1 = true ∧ Now (request s r).2 ∧ (request s r).2.dir = s.dir ∧ (request s r).2.home = s.home ∧
      (request s r).2.parFile = s.parFile ∧ (request s r).2.dllFile = s.dllFile ∧
      (∀ x ∈ s.src, x ∈ (request s r).2.src) ∧ ∀ x ∈ s.bin, x ∈ (request s r).2.bin := by
  unfold request
  by_cases h1 : r ∈ s.lib
  · rw [if_pos h1]
    exact ⟨rfl, h, rfl, rfl, rfl, rfl, fun _ h => h, fun _ h => h⟩
  rw [if_neg h1]
  by_cases h2 : (s.addr, r) ∈ s.par
  · have hb : (s.dir, r) ∈ s.bin := h.par _ h2
    have hc : canLoad s r = true := by simp [canLoad, hb]
    rw [if_pos h2, if_pos hc]
    exact ⟨rfl, h, rfl, rfl, rfl, rfl, fun _ h => h, fun _ h => h⟩
  rw [if_neg h2]
  obtain ⟨f, t, hg, hf, hn, e1, e2, e3, e4, e5, e6, e7, e8⟩ : ∃ f t, getDll s r = (f, t) ∧ (f = s.dir ∧ (s.dir, r) ∈ t.src) ∧
      Now t ∧ t.dir = s.dir ∧ t.home = s.home ∧ t.parFile = s.parFile ∧ t.dllFile = s.dllFile ∧ t.bin = s.bin ∧
      t.addr = s.addr ∧ t.lib = s.lib ∧ ∀ x ∈ s.src, x ∈ t.src := by
    unfold getDll
    cases hl : s.dll.lookup r with
    | some f =>
      have := h.dll _ (mem_lookup hl)
      exact ⟨f, s, rfl, ⟨this.1, this.2⟩, h, rfl, rfl, rfl, rfl, rfl, rfl, rfl, fun _ h => h⟩
    | none =>
      have hm : ∀ x ∈ s.src, x ∈ (if (s.dir, r) ∈ s.src then s.src else (s.dir, r) :: s.src) := fun x hx => by
        by_cases h3 : (s.dir, r) ∈ s.src
        · rwa [if_pos h3]
        · rw [if_neg h3]; exact List.mem_cons_of_mem _ hx
      have hr : (s.dir, r) ∈ (if (s.dir, r) ∈ s.src then s.src else (s.dir, r) :: s.src) := by
        by_cases h3 : (s.dir, r) ∈ s.src
        · rwa [if_pos h3]
        · rw [if_neg h3]; exact List.mem_cons_self
      refine ⟨_, _, rfl, ⟨rfl, hr⟩, ⟨h.par, fun x hx => ?_⟩, rfl, rfl, rfl, rfl, rfl, rfl, rfl, hm⟩
      rcases List.mem_cons.1 hx with rfl | hx
      · exact ⟨rfl, hr⟩
      · exact ⟨(h.dll x hx).1, hm _ (h.dll x hx).2⟩
  obtain ⟨u, hu, hb, g0, g1, g2, g3, g4, g5, g6, g7, g8⟩ : ∃ u, compile t f r = u ∧ (s.dir, r) ∈ u.bin ∧ Now u ∧ u.dir = s.dir ∧
      u.home = s.home ∧ u.parFile = s.parFile ∧ u.dllFile = s.dllFile ∧ u.addr = s.addr ∧ u.src = t.src ∧ u.dll = t.dll ∧
      ∀ x ∈ s.bin, x ∈ u.bin := by
    unfold compile
    by_cases h3 : (t.dir, r) ∈ t.bin
    · rw [if_pos h3]
      exact ⟨t, rfl, e1 ▸ h3, hn, e1, e2, e3, e4, e6, rfl, rfl, fun x hx => e5 ▸ hx⟩
    · have h4 : f.rel = false ∧ (f, r) ∈ t.src := by rw [hf.1]; exact ⟨hd, hf.2⟩
      rw [if_neg h3, if_pos h4]
      refine ⟨_, rfl, by rw [e1]; exact List.mem_cons_self, hn.mono (fun _ h _ => h) fun _ h _ => List.mem_cons_of_mem _ h,
        e1, e2, e3, e4, e6, rfl, rfl, fun x hx => List.mem_cons_of_mem _ (e5 ▸ hx)⟩
  simp only [hg, hu]
  have hc : canLoad u r = true := by simp [canLoad, g1, hb]
  rw [if_pos hc]
  refine ⟨rfl, ⟨fun x hx => ?_, g0.dll⟩, g1, g2, g3, g4, fun x hx => ?_, g8⟩
  · rcases List.mem_cons.1 hx with rfl | hx
    · exact g1 ▸ hb
    · exact g0.par x hx
  · exact g6 ▸ e8 x hx

theorem mem_filter_ne {l : List (Path × Nat)} {f : Path} {x : Path × Nat} (h : x ∈ l) (hf : x.1 ≠ f) :
    x ∈ l.filter fun x => decide (x.1 ≠ f) := List.mem_filter.2 ⟨h, by simpa using hf⟩

/-- The request `r` cannot be answered in the default folder: its source is said to be in the folder `b`, and is not there. -/
structure Stuck (r : Nat) (b : Path) (s : Sys) : Prop where
  dir : s.dir = s.home
  lib : r ∉ s.lib
  mods : r ∉ s.mods
  dll : s.dll.lookup r = some b
  file : s.dllFile.lookup r = some b
  src : (b, r) ∉ s.src
  bin : (s.home, r) ∉ s.bin
  ne : b ≠ s.home

theorem Stuck.canLoad {r : Nat} {b : Path} {s : Sys} (h : Stuck r b s) : canLoad s r = false := by
  simp [Folder.canLoad, h.mods, h.dir, h.bin]

theorem lookup_cons_ne {l : List (Nat × Path)} {r q : Nat} {f : Path} (h : q ≠ r) : ((r, f) :: l).lookup q = l.lookup q := by
  have : (q == r) = false := by simpa using h
  simp [List.lookup, this]

theorem Stuck.request_self {r : Nat} {b : Path} {s : Sys} (h : Stuck r b s) : request s r = (false, s) := by
  have hg : getDll s r = (b, s) := by simp only [getDll, h.dll]
  have hc : compile s b r = s := by
    unfold compile
    rw [if_neg (by rw [h.dir]; exact h.bin), if_neg fun hh => h.src hh.2]
  unfold request
  rw [if_neg h.lib]
  by_cases h2 : (s.addr, r) ∈ s.par
  · rw [if_pos h2, if_neg (by simp [h.canLoad])]
  · rw [if_neg h2]
    simp only [hg, hc]
    rw [if_neg (by simp [h.canLoad])]

theorem Stuck.request_other {r q : Nat} {b : Path} {s : Sys} (h : Stuck r b s) (hq : q ≠ r) : Stuck r b (request s q).2 := by
  have hadd : ∀ {t : Sys}, Stuck r b t → ∀ par, Stuck r b { t with lib := q :: t.lib, mods := q :: t.mods, par := par } :=
    fun ht par => { ht with
      lib := fun hm => (List.mem_cons.1 hm).elim (fun e => hq e.symm) ht.lib
      mods := fun hm => (List.mem_cons.1 hm).elim (fun e => hq e.symm) ht.mods }
  unfold request
  by_cases h1 : q ∈ s.lib
  · rwa [if_pos h1]
  rw [if_neg h1]
  by_cases h2 : (s.addr, q) ∈ s.par
  · rw [if_pos h2]
    by_cases h3 : Folder.canLoad s q = true
    · rw [if_pos h3]; exact hadd h _
    · rwa [if_neg h3]
  rw [if_neg h2]
  have hg : Stuck r b (getDll s q).2 := by
    unfold getDll
    cases hl : s.dll.lookup q with
    | some f => exact h
    | none =>
      refine { h with dll := (lookup_cons_ne hq.symm).trans h.dll, src := ?_ }
      by_cases h3 : (s.dir, q) ∈ s.src
      · simpa only [if_pos h3] using h.src
      · simp only [if_neg h3]
        intro hm
        rcases List.mem_cons.1 hm with e | hm
        · exact hq (congrArg Prod.snd e).symm
        · exact h.src hm
  have hc : ∀ f {t : Sys}, Stuck r b t → Stuck r b (compile t f q) := fun f t ht => by
    unfold compile
    by_cases h3 : (t.dir, q) ∈ t.bin
    · rwa [if_pos h3]
    rw [if_neg h3]
    by_cases h4 : f.rel = false ∧ (f, q) ∈ t.src
    · rw [if_pos h4]
      refine { ht with bin := fun hm => ?_ }
      rcases List.mem_cons.1 hm with e | hm
      · exact hq (congrArg Prod.snd e).symm
      · exact ht.bin hm
    · rwa [if_neg h4]
  have hu := hc (getDll s q).1 hg
  simp only
  by_cases h3 : Folder.canLoad (compile (getDll s q).2 (getDll s q).1 q) q = true
  · rw [if_pos h3]; exact hadd hu _
  · rwa [if_neg h3]

end Verif.Folder
