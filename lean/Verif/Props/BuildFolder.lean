import Verif.Proofs.BuildFolder

/-!
# C85: changing the build folder

Whether the routines for the CPU are obtained, whatever the build folders chosen before with `set_build_folder`, in this process
or in earlier ones.
-/

namespace Verif.Folder

variable {home p b : Path} {a r : Nat}

/-- The histories in which paths are absolute, the user only removes folders that are not used, and processes that end have
gone back to the default folder. `d` is the current folder. -/
def Careful (home : Path) : Path → List Event → Prop
  | _, [] => True
  | _, .set p :: h => (p.getD home).rel = false ∧ Careful home (p.getD home) h
  | d, .remove f :: h => f ≠ d ∧ f ≠ home ∧ Careful home d h
  | d, .exit _ :: h => d = home ∧ Careful home home h
  | _, .kill _ :: h => Careful home home h
  | d, .request _ :: h => Careful home d h
  | d, .clean :: h => Careful home d h

/-- The histories of one process in which paths are absolute and the user does not remove the current folder `d`. -/
def Within (home : Path) : Path → List Event → Prop
  | _, [] => True
  | _, .set p :: h => (p.getD home).rel = false ∧ Within home (p.getD home) h
  | d, .remove f :: h => f ≠ d ∧ Within home d h
  | _, .exit _ :: _ => False
  | _, .kill _ :: _ => False
  | d, .request _ :: h => Within home d h
  | d, .clean :: h => Within home d h

theorem careful_inv {h : List Event} : ∀ {s : Sys}, Careful s.home s.dir h → s.home.rel = false → s.dir.rel = false → Now s →
    Saved s → Now (after s h) ∧ (after s h).dir.rel = false := by
  induction h with
  | nil => exact fun _ _ hd hn _ => ⟨hn, hd⟩
  | cons e h ih =>
    intro s hc hh hd hn hs
    rw [after, List.foldl_cons]
    cases e with
    | request r =>
      obtain ⟨-, h1, h2, h3, h4, h5, h6, h7⟩ := request_spec r hn hd
      refine ih (s := (request s r).2) (by rw [h2, h3]; exact hc) (h3 ▸ hh) (h2 ▸ hd) h1 ?_
      unfold Saved
      rw [h3, h4, h5]
      exact Agree.mono hs (fun x hx _ => h6 x hx) fun x hx _ => h7 x hx
    | set p => exact ih (s := step s (.set p)) hc.2 hh hc.1 Agree.nil hs
    | clean =>
      refine ih (s := step s .clean) hc hh hd Agree.nil ?_
      unfold Saved
      simp only [step]
      by_cases hd' : s.dir = s.home
      · rw [if_pos hd', if_pos hd']; exact Agree.nil
      · rw [if_neg hd', if_neg hd']
        exact Agree.mono hs (fun x hx hx' => mem_filter_ne hx (hx' ▸ Ne.symm hd')) fun x hx hx' =>
          mem_filter_ne hx (hx' ▸ Ne.symm hd')
    | remove f =>
      refine ih (s := step s (.remove f)) hc.2.2 hh hd ?_ ?_
      · exact Agree.mono hn (fun x hx hx' => mem_filter_ne hx (hx' ▸ hc.1.symm)) fun x hx hx' =>
          mem_filter_ne hx (hx' ▸ hc.1.symm)
      · exact Agree.mono hs (fun x hx hx' => mem_filter_ne hx (hx' ▸ hc.2.1.symm)) fun x hx hx' =>
          mem_filter_ne hx (hx' ▸ hc.2.1.symm)
    | exit a =>
      have hn' : Agree s.home s.par s.dll s.src s.bin := hc.1 ▸ hn
      exact ih (s := step s (.exit a)) hc.2 hh hh hn' hn'
    | kill a => exact ih (s := step s (.kill a)) hc hh hh hs hs

/-- **C85**, for the histories where paths are absolute, folders in use are not removed, and the processes that end without being
killed have gone back to the default folder (or never left it): every request is answered. -/
theorem C85_partial {h : List Event} (hh : home.rel = false) (hc : Careful home home h) (r : Nat) :
    (request (after (fresh home a) h) r).1 = true :=
  have hi := careful_inv (s := fresh home a) hc hh hh Agree.nil Agree.nil
  (request_spec r hi.1 hi.2).1

theorem within_inv {h : List Event} : ∀ {s : Sys}, Within s.home s.dir h → s.dir.rel = false → Now s →
    Now (after s h) ∧ (after s h).dir.rel = false := by
  induction h with
  | nil => exact fun _ hd hn => ⟨hn, hd⟩
  | cons e h ih =>
    intro s hc hd hn
    rw [after, List.foldl_cons]
    cases e with
    | request r =>
      obtain ⟨-, h1, h2, h3, -⟩ := request_spec r hn hd
      exact ih (s := (request s r).2) (by rw [h2, h3]; exact hc) (h2 ▸ hd) h1
    | set p => exact ih (s := step s (.set p)) hc.2 hc.1 Agree.nil
    | clean => exact ih (s := step s .clean) hc hd Agree.nil
    | remove f =>
      refine ih (s := step s (.remove f)) hc.2 hd ?_
      exact Agree.mono hn (fun x hx hx' => mem_filter_ne hx (hx' ▸ hc.1.symm)) fun x hx hx' =>
        mem_filter_ne hx (hx' ▸ hc.1.symm)
    | exit a => exact hc.elim
    | kill a => exact hc.elim

/-- **C85**, in the process that calls `set_build_folder` with an absolute path: whatever happened before, every later request is
answered, as long as the current folder is not removed. -/
theorem C85_set (s : Sys) {h : List Event} (hp : p.rel = false) (hw : Within s.home p h) (r : Nat) :
    (request (after (step s (.set (some p))) h) r).1 = true :=
  have hi := within_inv (s := step s (.set (some p))) hw hp Agree.nil
  (request_spec r hi.1 hi.2).1

/-- **C85**, after `clean_pykeops` in the default folder: whatever happened before, every request of a later careful history is
answered. -/
theorem C85_clean (s : Sys) {h : List Event} (hd : s.dir = s.home) (hh : s.home.rel = false) (hc : Careful s.home s.home h)
    (r : Nat) : (request (after (step s .clean) h) r).1 = true := by
  have hs : Saved (step s .clean) := by
    unfold Saved
    simp only [step]
    rw [if_pos hd, if_pos hd]
    exact Agree.nil
  have hc' : Careful (step s .clean).home (step s .clean).dir h := by
    show Careful s.home s.dir h
    rwa [hd]
  have hi := careful_inv hc' hh (by show s.dir.rel = false; rwa [hd]) Agree.nil hs
  exact (request_spec r hi.1 hi.2).1

/-- The events of later processes that do not change the folder and do not clean it. -/
def Plain : Event → Prop
  | .request _ => True
  | .exit _ => True
  | .kill _ => True
  | _ => False

theorem stuck_after {h : List Event} (hp : ∀ e ∈ h, Plain e) : ∀ {s : Sys}, Stuck r b s → Stuck r b (after s h) := by
  induction h with
  | nil => exact fun hs => hs
  | cons e h ih =>
    intro s hs
    rw [after, List.foldl_cons]
    refine ih (fun e he => hp e (List.mem_cons_of_mem _ he)) ?_
    have he := hp e List.mem_cons_self
    cases e with
    | request q =>
      by_cases hq : q = r
      · subst hq
        simp only [step, hs.request_self]
        exact hs
      · exact hs.request_other hq
    | exit a' => exact { hs with dir := rfl, lib := List.not_mem_nil, mods := List.not_mem_nil, file := hs.dll }
    | kill a' => exact { hs with dir := rfl, lib := List.not_mem_nil, mods := List.not_mem_nil, dll := hs.file }
    | set p => exact he.elim
    | clean => exact he.elim
    | remove f => exact he.elim

/-- Not **C85**: a first process sets another build folder `b`, makes a request and ends; this folder is then removed. In all the
later processes, which use the default folder, this request always fails (until the default folder is cleaned, or the build
folder is set again). -/
theorem not_C85_removed (hb : b.rel = false) (hne : b ≠ home) (a' : Nat) (r : Nat) {h : List Event} (hp : ∀ e ∈ h, Plain e) :
    (request (after (fresh home a) ([.set (some b), .request r, .exit a', .remove b] ++ h)) r).1 = false := by
  have hs : Stuck r b (after (fresh home a) [.set (some b), .request r, .exit a', .remove b]) := by
    constructor <;>
      simp [after, step, fresh, start, request, getDll, compile, Folder.canLoad, hb, hne]
  have := stuck_after hp hs
  rw [after, List.foldl_append, ← after, ← after, this.request_self]

/-- Not **C85**: if the function `env_param` has the same address in the next process, the request fails although no folder was
removed. -/
theorem not_C85_address (hb : b.rel = false) (hne : b ≠ home) (r : Nat) :
    (request (after (fresh home a) [.set (some b), .request r, .exit a]) r).1 = false := by
  simp [after, step, fresh, start, request, getDll, compile, Folder.canLoad, hb, hne.symm]

/-- Not **C85**: with a relative path, the first request fails. -/
theorem not_C85_relative (hb : b.rel = true) (r : Nat) :
    (request (after (fresh home a) [.set (some b)]) r).1 = false := by
  simp [after, step, fresh, request, getDll, compile, Folder.canLoad, hb]

/-- A careful history: a process uses another folder, goes back to the default one and ends, and the other folder is removed; the
next process is killed in another folder. -/
example : Careful ⟨0, false⟩ ⟨0, false⟩ [.request 5, .set (some ⟨1, false⟩), .request 7, .set none, .request 7, .exit 12,
    .remove ⟨1, false⟩, .set (some ⟨2, false⟩), .request 5, .kill 13] := by
  simp [Careful]

/-- In these histories files are found and dictionaries are read: after the end of the first process, the request 7 is in the saved
dictionaries. -/
example : (after (fresh ⟨0, false⟩ 11) [.set (some ⟨1, false⟩), .request 7, .set none, .request 7, .exit 12]).dll =
    [(7, ⟨0, false⟩)] := by decide +kernel

/-- `C85_clean`, after the history of `not_C85_removed`. -/
example : (request (after (step (after (fresh ⟨0, false⟩ 11) [.set (some ⟨1, false⟩), .request 7, .exit 12, .remove ⟨1, false⟩,
    .request 7]) .clean) [.request 7, .exit 13]) 7).1 = true :=
  C85_clean _ (by decide +kernel) (by decide +kernel) (by simp [Careful]) 7

/-- The hypotheses of `C85_set`, after a history in which a request fails. -/
example : Within ⟨0, false⟩ ⟨3, false⟩ [.request 7, .remove ⟨0, false⟩, .clean, .request 7, .set (some ⟨4, false⟩)] := by
  simp [Within]

end Verif.Folder
