import Verif.Proofs.Routines
import Verif.Proofs.Call

/-! Lists of aliases that were completed after an object was made. -/

namespace Verif.Alias
open Spec

/-- A variable `Var(a,b,c)` whose position is at least `n`. -/
def Extra (n : Nat) (s : Str) : Prop :=
  ∃ a b c, IsDigits a ∧ IsDigits b ∧ IsDigits c ∧ s = varText a b c ∧ n ≤ Nat.ofDigitChars 10 a 0

/-- The list `l` is `r`, followed by variables at positions after those of `r`, and by entries `None`. -/
def Grown (r l : List (Option Str)) : Prop := ∃ e, l = r ++ e ∧ ∀ s, some s ∈ e → Extra r.length s

theorem Grown.refl (r : List (Option Str)) : Grown r r := ⟨[], by simp, by simp⟩

theorem assignIn_grown {r : List (Option Str)} : ∀ (new : List (Nat × Str)) (l : List (Option Str)), Grown r l →
    (∀ v ∈ new, r.length ≤ v.1 ∧ Extra r.length v.2) → Grown r (assignIn new l).1
  | [], l, hl, _ => hl
  | (p, s) :: new, l, ⟨e, he, hx⟩, hn => by
    unfold assignIn
    by_cases hp : p < l.length
    · rw [if_pos hp]
      refine assignIn_grown new _ ⟨e.set (p - r.length) (some s), ?_, ?_⟩ fun v hv => hn v (by simp [hv])
      · rw [he, List.set_append_right _ _ (hn (p, s) (by simp)).1]
      · intro t ht
        rcases List.mem_or_eq_of_mem_set ht with h | h
        · exact hx t h
        · cases h
          exact (hn (p, s) (by simp)).2
    · rw [if_neg hp]
      exact ⟨e, he, hx⟩

theorem completeIn_grown {r l : List (Option Str)} (hl : Grown r l) {f : Str} {ev : List (Nat × Str)}
    (hev : ∀ v ∈ ev, Occurs f v.1 v.2) : Grown r (completeIn ev l).1 := by
  have hlen : r.length ≤ l.length := by
    obtain ⟨e, rfl, -⟩ := hl
    simp
  refine assignIn_grown _ _ ?_ ?_
  · obtain ⟨e, rfl, hx⟩ := hl
    refine ⟨_, List.append_assoc .., ?_⟩
    intro s hs
    rcases List.mem_append.1 hs with h | h
    · exact hx s h
    · exact absurd (List.eq_of_mem_replicate h) (by simp)
  · intro v hv
    obtain ⟨hv, hp⟩ := List.mem_filter.1 hv
    have hp : l.length ≤ v.1 := by simpa using hp
    obtain ⟨a, b, c, ha, hb, hc, e1, e2, -⟩ := hev v hv
    exact ⟨by omega, a, b, c, ha, hb, hc, e2, by omega⟩

/-- The list `k` has grown from `r`. -/
def ListGrown (k : Nat) (r : List (Option Str)) (w : World) : Prop :=
  ∃ l, w.lists[k]? = some ⟨true, l⟩ ∧ Grown r l

theorem step_grown {w : World} {k : Nat} {r : List (Option Str)} (h : ListGrown k r w) {a : Action}
    (hc : ∀ l, a ≠ .change k l)
    (hg : ∀ f ev, a = .genred .numpy f ev k → ∀ v ∈ ev, Occurs f v.1 v.2) : ListGrown k r (w.step a) := by
  obtain ⟨l, hl, hgr⟩ := h
  obtain ⟨hk, -⟩ := List.getElem?_eq_some_iff.mp hl
  by_cases hi : ∃ f ev, a = .genred .numpy f ev k
  · obtain ⟨f, ev, rfl⟩ := hi
    refine ⟨(completeIn ev l).1, ?_, completeIn_grown hgr (hg f ev rfl)⟩
    simp only [World.step, hl, List.getElem?_set_self hk]
  · refine ⟨l, step_keeps hl ?_, hgr⟩
    unfold Keeps
    split
    · intro e; subst e; exact absurd rfl (hc _)
    · intro e; subst e; exact absurd ⟨_, _, rfl⟩ hi
    · trivial

theorem run_grown {k : Nat} {r : List (Option Str)} {acts : List Action} : ∀ {w : World}, ListGrown k r w →
    (∀ l, Action.change k l ∉ acts) →
    (∀ f ev, Action.genred .numpy f ev k ∈ acts → ∀ v ∈ ev, Occurs f v.1 v.2) →
    ListGrown k r (acts.foldl World.step w) := by
  induction acts with
  | nil => intro w h _ _; exact h
  | cons a as ih =>
    intro w h hc hg
    refine ih (step_grown h (fun l e => hc l (by simp [e])) fun f ev e => hg f ev (by simp [e])) ?_ ?_
    · exact fun l hl => hc l (by simp [hl])
    · exact fun f ev hl => hg f ev (by simp [hl])

theorem extra_noeq {n : Nat} {s : Str} (h : Extra n s) : '=' ∉ s := by
  obtain ⟨a, b, c, ha, hb, hc, rfl, -⟩ := h
  have hd : ∀ s, IsDigits s → '=' ∉ s := fun s hs hm => absurd (hs.2 _ hm) (by decide)
  simp [varText, hd a ha, hd b hb, hd c hc]

theorem loadFrom_extra {n : Nat} : ∀ (e : List (Option Str)) (k : Nat) (loc : Locals), (∀ s, some s ∈ e → Extra n s) →
    loadFrom k loc e = none ∨ loadFrom k loc e = some []
  | [], _, _, _ => .inr rfl
  | none :: _, _, _, _ => .inl rfl
  | some s :: e, k, loc, h => by
    simp only [loadFrom, loadAlias_noeq k loc (extra_noeq (h s (by simp)))]
    rcases loadFrom_extra e (k + 1) loc (fun t ht => h t (by simp [ht])) with h' | h' <;> simp [h']

theorem loadFrom_append {n : Nat} (e : List (Option Str)) (h : ∀ s, some s ∈ e → Extra n s) :
    ∀ (r : List (Option Str)) (k : Nat) (loc : Locals),
    loadFrom k loc (r ++ e) = none ∨ loadFrom k loc (r ++ e) = loadFrom k loc r
  | [], k, loc => by simpa [loadFrom] using loadFrom_extra e k loc h
  | none :: r, k, loc => .inl rfl
  | some s :: r, k, loc => by
    simp only [List.cons_append, loadFrom]
    cases loadAlias k loc s with
    | none => exact .inl rfl
    | some x =>
      obtain ⟨loc', bs⟩ := x
      rcases loadFrom_append e h r (k + 1) loc' with h' | h' <;> simp [h']

theorem getSizesFrom_extra {shapes : List (List Nat)} : ∀ (e : List Str) (k : Nat) (nx ny : Option Nat),
    ¬ (nx.isSome ∧ ny.isSome) → (∀ s ∈ e, Extra shapes.length s) →
    getSizesFrom shapes k nx ny e = none ∨ getSizesFrom shapes k nx ny e = some (nx.getD 1, ny.getD 1)
  | [], _, _, _, _, _ => .inr rfl
  | s :: e, k, nx, ny, hn, h => by
    obtain ⟨a, b, c, ha, hb, hc, hs, hp⟩ := h s (by simp)
    obtain ⟨n, hd⟩ := getType_declares (text := s) (k := k)
      (.inr ⟨a, b, c, ha, hb, hc, hs, rfl, rfl, rfl⟩)
    have hrow : rowsOf shapes (Nat.ofDigitChars 10 a 0) = none := by
      unfold rowsOf
      rw [List.getElem?_eq_none hp]
      rfl
    simp only [getSizesFrom, hd, hrow, Option.map_none]
    by_cases h0 : Nat.ofDigitChars 10 c 0 = 0
    · simp [h0]
    · by_cases h1 : Nat.ofDigitChars 10 c 0 = 1
      · simp [h1]
      · have ih := getSizesFrom_extra e (k + 1) nx ny hn fun t ht => h t (by simp [ht])
        cases nx <;> cases ny <;> simp_all

theorem getSizesFrom_append {shapes : List (List Nat)} (e : List Str) (h : ∀ s ∈ e, Extra shapes.length s) :
    ∀ (r : List Str) (k : Nat) (nx ny : Option Nat), ¬ (nx.isSome ∧ ny.isSome) →
    getSizesFrom shapes k nx ny (r ++ e) = none ∨
      getSizesFrom shapes k nx ny (r ++ e) = getSizesFrom shapes k nx ny r
  | [], k, nx, ny, hn => by simpa [getSizesFrom] using getSizesFrom_extra e k nx ny hn h
  | s :: r, k, nx, ny, hn => by
    simp only [List.cons_append, getSizesFrom]
    cases getType s k with
    | none => exact .inl rfl
    | some d =>
      simp only
      split
      · exact .inl rfl
      · exact .inr rfl
      · next hx _ =>
        refine getSizesFrom_append e h r (k + 1) _ _ ?_
        rintro ⟨h1, h2⟩
        obtain ⟨x, rfl⟩ := Option.isSome_iff_exists.1 h1
        obtain ⟨y, rfl⟩ := Option.isSome_iff_exists.1 h2
        exact hx x y rfl rfl

theorem mapM_append_id : ∀ (r e : List (Option Str)),
    (r ++ e).mapM id = none ∨ ∃ r' e', r.mapM id = some r' ∧ e.mapM id = some e' ∧ (r ++ e).mapM id = some (r' ++ e')
  | r, e => by
    rw [List.mapM_append]
    cases hr : r.mapM id with
    | none => exact .inl rfl
    | some r' =>
      cases he : e.mapM id with
      | none => exact .inl rfl
      | some e' => exact .inr ⟨r', e', rfl, rfl, rfl⟩

theorem mapM_id_mem : ∀ {e : List (Option Str)} {e' : List Str}, e.mapM id = some e' → ∀ s ∈ e', some s ∈ e
  | [], e', h, s, hs => by
    simp at h
    subst h
    cases hs
  | x :: e, e', h, s, hs => by
    cases x with
    | none => simp at h
    | some t =>
      rw [List.mapM_cons] at h
      cases h2 : e.mapM id with
      | none => rw [h2] at h; simp at h
      | some e2 =>
        rw [h2] at h
        simp at h
        subst h
        rcases List.mem_cons.1 hs with rfl | hs
        · simp
        · exact List.mem_cons_of_mem _ (mapM_id_mem h2 s hs)

theorem callWith_grown {f : Str} {r l : List (Option Str)} (h : Grown r l) (shapes : List (List Nat)) :
    callWith f r.length l shapes = none ∨ callWith f r.length l shapes = callWith f r.length r shapes := by
  obtain ⟨e, rfl, hx⟩ := h
  unfold callWith
  by_cases hn : shapes.length ≠ r.length
  · rw [if_pos hn]; exact .inl rfl
  · rw [if_neg hn, if_neg hn]
    have hn : shapes.length = r.length := by simpa using hn
    rcases loadFrom_append e hx r 0 ⟨none, none, none⟩ with h1 | h1
    · left
      simp [loadAliases, h1]
    · rcases mapM_append_id r e with h2 | ⟨r', e', hr, he, h2⟩
      · left
        simp only [loadAliases, h1, h2]
        cases loadFrom 0 ⟨none, none, none⟩ r <;> rfl
      · have h3 := getSizesFrom_append (shapes := shapes) e'
          (fun s hs => hn ▸ hx s (mapM_id_mem he s hs)) r' 0 none none (by simp)
        simp only [loadAliases, h1, h2, hr, getSizes]
        rcases h3 with h3 | h3
        · left
          cases loadFrom 0 ⟨none, none, none⟩ r <;> simp [h3]
        · right
          simp [h3]

end Verif.Alias
