import Verif.Model.Routines

/-! Lists of aliases and objects along a program. -/

namespace Verif.Alias

theorem copyBuild_objs (w : World) (f : Str) (ev) (items) : ∃ l, (w.copyBuild f ev items).objs = w.objs ++ l := by
  unfold World.copyBuild
  split
  · exact ⟨_, rfl⟩
  · exact ⟨[], by simp⟩

theorem step_objs (w : World) (a : Action) : ∃ l, (w.step a).objs = w.objs ++ l := by
  cases a with
  | make => exact ⟨[], by simp [World.step]⟩
  | change =>
    simp only [World.step]
    split <;> exact ⟨[], by simp⟩
  | genred lang f ev ref =>
    simp only [World.step]
    split
    · cases lang with
      | torch => exact copyBuild_objs ..
      | numpy =>
        simp only
        split
        · exact ⟨_, rfl⟩
        · exact ⟨[], by simp⟩
    · exact ⟨[], by simp⟩
  | generic => exact copyBuild_objs ..

theorem copyBuild_lists (w : World) (f : Str) (ev) (items) {k : Nat} {c : PyList} (h : w.lists[k]? = some c) :
    (w.copyBuild f ev items).lists[k]? = some c := by
  unfold World.copyBuild
  split
  · exact (List.getElem?_append_left (List.getElem?_eq_some_iff.mp h).1).trans h
  · exact h

/-- Actions that leave the list `k` as it is. -/
def Keeps (k : Nat) (c : PyList) : Action → Prop
  | .change ref _ => ref = k → c.user = false
  | .genred .numpy _ ev ref => ref = k → c.user = false ∨ ∀ v ∈ ev, v.1 < c.items.length
  | _ => True

theorem completeIn_self {ev : List (Nat × Str)} {l : List (Option Str)} (h : ∀ v ∈ ev, v.1 < l.length) :
    completeIn ev l = (l, true) := by
  unfold completeIn
  have : ev.filter (fun v => ¬ v.1 < l.length) = [] := by
    rw [List.filter_eq_nil_iff]
    intro v hv
    simpa using h v hv
  rw [this]
  simp [assignIn]

theorem step_keeps {w : World} {k : Nat} {c : PyList} (h : w.lists[k]? = some c) {a : Action} (ha : Keeps k c a) :
    (w.step a).lists[k]? = some c := by
  obtain ⟨hk, -⟩ := List.getElem?_eq_some_iff.mp h
  cases a with
  | make => exact (List.getElem?_append_left hk).trans h
  | change ref items =>
    simp only [World.step]
    split
    · next h1 =>
      by_cases e : ref = k
      · subst e
        rw [h] at h1
        cases h1
        exact absurd (ha rfl) (by simp)
      · simp only [List.getElem?_set_ne e, h]
    · exact h
  | genred lang f ev ref =>
    simp only [World.step]
    split
    · next h1 =>
      cases lang with
      | torch => exact copyBuild_lists _ _ _ _ h
      | numpy =>
        by_cases e : ref = k
        · subst e
          rw [h] at h1
          cases h1
          rcases ha rfl with h2 | h2
          · cases h2
          · simp only [completeIn_self h2, List.getElem?_set_self hk]
        · simp only [List.getElem?_set_ne e, h]
    · exact h
  | generic => exact copyBuild_lists _ _ _ _ h

theorem run_keeps {k : Nat} {c : PyList} {acts : List Action} : ∀ {w : World}, w.lists[k]? = some c →
    (∀ a ∈ acts, Keeps k c a) → (acts.foldl World.step w).lists[k]? = some c := by
  induction acts with
  | nil => intro w h _; exact h
  | cons a as ih =>
    intro w h ha
    exact ih (step_keeps h (ha a (by simp))) fun b hb => ha b (by simp [hb])

theorem run_objs {i : Nat} {o : GenredObj} {acts : List Action} : ∀ {w : World}, w.objs[i]? = some o →
    (acts.foldl World.step w).objs[i]? = some o := by
  induction acts with
  | nil => intro w h; exact h
  | cons a as ih =>
    intro w h
    refine ih ?_
    obtain ⟨l, hl⟩ := step_objs w a
    rw [hl]
    exact (List.getElem?_append_left (List.getElem?_eq_some_iff.mp h).1).trans h

theorem copyBuild_call {w : World} {f : Str} {ev} {items r : List (Option Str)} (hr : completeIn ev items = (r, true))
    (acts : List Action) (shapes : List (List Nat)) :
    (acts.foldl World.step (w.copyBuild f ev items)).call w.objs.length shapes = callWith f r.length r shapes := by
  have h1 : (w.copyBuild f ev items).objs[w.objs.length]? = some ⟨f, w.lists.length, r.length⟩ := by
    simp [World.copyBuild, hr]
  have h2 : (w.copyBuild f ev items).lists[w.lists.length]? = some ⟨false, r⟩ := by
    simp [World.copyBuild, hr]
  have h3 : ∀ a ∈ acts, Keeps w.lists.length ⟨false, r⟩ a := by
    intro a _
    unfold Keeps
    split <;> simp
  simp [World.call, run_objs h1, run_keeps h2 h3]

end Verif.Alias
