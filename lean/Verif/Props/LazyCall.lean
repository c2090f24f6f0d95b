import Verif.Model.LazyCall
import Mathlib.Data.List.Basic

/-!
# C61: a call of a reduction uses the options that were asked for, and no others
-/

namespace Verif.LazyCall
open Spec (Kwargs noKwargs oneKwarg Attrs asked Event attrsAfter)

variable {V : Type}

/-! ## Lemmas -/

theorem setDefault_eq (d : Kwargs V) (key : String) (v : Option V) (k : String) :
    setDefault d key v k = (d k).or (if k = key then v else none) := by
  unfold setDefault
  by_cases hk : k = key
  · subst hk
    cases v with
    | none => cases h : d k <;> simp [h]
    | some v => cases h : d k <;> simp [h, update]
  · split_ifs
    · simp [update, hk]
    · simp

theorem update_eq (d e : Kwargs V) (k : String) : update d e k = (e k).or (d k) := by
  unfold update
  cases e k <;> rfl

theorem asked_eq (made now : Kwargs V) (a : Attrs V) (k : String) :
    asked made now a k = ((now k).or (made k)).or (a.get k) := by
  unfold asked
  cases now k <;> cases made k <;> rfl

theorem merge_eq (o : Obj V) (kw : Kwargs V) (k : String) :
    o.merge kw k = ((kw k).or (o.kwargs k)).or (o.attrs.get k) := by
  unfold Obj.merge
  rw [setDefault_eq, setDefault_eq, update_eq, Option.or_assoc]
  congr 1
  unfold Attrs.get
  by_cases h1 : k = "ranges"
  · subst h1
    cases o.attrs.ranges <;> simp
  · simp [h1]

theorem get_init (a : Attrs V) {k : String} (hk : k ∈ initKeys) : a.get k = none := by
  unfold Attrs.get
  rw [if_neg, if_neg]
  · rintro rfl
    simp [initKeys] at hk
  · rintro rfl
    simp [initKeys] at hk

theorem callKeys_init {kind : Kind} {k : String} (hk : k ∈ kind.callKeys) : k ∉ initKeys := by
  cases kind <;> simp only [Kind.callKeys, List.mem_cons, List.not_mem_nil, or_false] at hk <;>
    rcases hk with rfl | rfl | rfl | rfl | hk <;> first | decide | (subst hk; decide)

theorem withKwargs_eq {α : Type} {l : List String} {d : Kwargs V} {x y : α} :
    withKwargs l d x = some y ↔ Accepts l d ∧ x = y := by
  unfold withKwargs
  split_ifs with h <;> simp [h]

theorem withKwargs_pos {α : Type} {l : List String} {d : Kwargs V} (h : Accepts l d) (x : α) :
    withKwargs l d x = some x := withKwargs_eq.2 ⟨h, rfl⟩

/-- What is known of the object after some calls; `given k` means that one of them gave the name `k`. -/
structure Inv (made : Kwargs V) (a : Attrs V) (given : String → Prop) (o : Obj V) : Prop where
  attrs : o.attrs = a
  rest : ∀ k ∉ initKeys, ¬ given k → o.kwargs k = made k ∨ (made k = none ∧ o.kwargs k = a.get k)
  init : ∀ k ∈ initKeys, ¬ given k → o.kwargs k = none
  con : ∀ c, o.dtype = true → o.callfun = some c → ∀ k, ¬ given k → c k = if k ∈ initKeys then made k else none
  unknown : o.dtype = false → ∀ k ∈ initKeys, made k = none

theorem inv_make {kind : Kind} {dtype : Bool} {a a' : Attrs V} {made : Kwargs V} {o : Obj V}
    (h : make kind dtype a made = some o) (hd : dtype = true ∨ ∀ k ∈ initKeys, made k = none) :
    Inv made a' (fun _ => False) (o.set a') := by
  unfold make at h
  simp only [separate] at h
  split_ifs at h with h1
  · obtain ⟨-, rfl⟩ := withKwargs_eq.1 h
    refine ⟨rfl, fun k hk _ => .inl (by simp [Obj.set, without, hk]), fun k hk _ => by simp [Obj.set, without, hk], ?_,
      fun h => ?_⟩
    · rintro c - hc k -
      cases hc
      rfl
    · simp only [Obj.set] at h
      rw [h] at h1
      cases h1
  · cases h
    refine ⟨rfl, fun k hk _ => .inl (by simp [Obj.set, without, hk]), fun k hk _ => by simp [Obj.set, without, hk], ?_,
      fun _ => hd.resolve_left h1⟩
    rintro c - hc k -
    cases hc

theorem inv_call {made : Kwargs V} {a : Attrs V} {given : String → Prop} {o : Obj V} (h : Inv made a given o)
    (kw : Kwargs V) : Inv made a (fun k => given k ∨ (kw k).isSome) (o.call kw).1 := by
  have hd : ∀ k, ¬ (given k ∨ (kw k).isSome = true) →
      ¬ given k ∧ o.merge kw k = (o.kwargs k).or (a.get k) := by
    intro k hk
    obtain ⟨h1, h2⟩ := not_or.1 hk
    refine ⟨h1, ?_⟩
    rw [merge_eq, Option.not_isSome_iff_eq_none.1 h2, h.attrs, Option.none_or]
  have hrest : ∀ k ∉ initKeys, ¬ (given k ∨ (kw k).isSome = true) →
      o.merge kw k = made k ∨ (made k = none ∧ o.merge kw k = a.get k) := by
    intro k hk hg
    obtain ⟨h1, h2⟩ := hd k hg
    rw [h2]
    rcases h.rest k hk h1 with h3 | ⟨h3, h4⟩
    · rw [h3]
      cases made k with
      | none => exact .inr ⟨rfl, rfl⟩
      | some v => exact .inl rfl
    · rw [h4]
      refine .inr ⟨h3, ?_⟩
      cases a.get k <;> rfl
  have hinit : ∀ k ∈ initKeys, ¬ (given k ∨ (kw k).isSome = true) → o.merge kw k = none := by
    intro k hk hg
    obtain ⟨h1, h2⟩ := hd k hg
    rw [h2, h.init k hk h1, get_init a hk]
    rfl
  unfold Obj.call
  dsimp only
  by_cases h1 : o.dtype = true
  · rw [if_pos h1]
    exact ⟨h.attrs, hrest, hinit, fun c hd' hc k hk => h.con c hd' hc k (not_or.1 hk).1, h.unknown⟩
  · rw [if_neg h1]
    refine ⟨h.attrs, fun k hk hg => ?_, fun k hk _ => ?_, fun c _ hc k hk => ?_, fun h => by cases h⟩
    · simpa [separate, without, hk] using hrest k hk hg
    · simp [separate, without, hk]
    · dsimp only at hc
      split_ifs at hc
      obtain ⟨-, rfl⟩ := withKwargs_eq.1 hc
      simp only [separate, only]
      split_ifs with hi
      · rw [hinit k hi hk, h.unknown (by simpa using h1) k hi]
      · rfl

theorem inv_calls {made : Kwargs V} {a : Attrs V} (l : List (Kwargs V)) : ∀ {given : String → Prop} {o : Obj V},
    Inv made a given o → Inv made a (fun k => given k ∨ ∃ kw ∈ l, (kw k).isSome) (o.after (l.map .call)) := by
  induction l with
  | nil =>
    intro given o h
    have e : (fun k => given k ∨ ∃ kw ∈ ([] : List (Kwargs V)), (kw k).isSome = true) = given := by simp
    rw [e]
    exact h
  | cons kw l ih =>
    intro given o h
    have := ih (inv_call h kw)
    simpa [Obj.after, or_assoc] using this

theorem used_of_inv {made : Kwargs V} {a : Attrs V} {given : String → Prop} {o : Obj V} (h : Inv made a given o)
    {now u : Kwargs V} (hg : ∀ k, given k → (now k).isSome) (hu : o.used now = some u) : u = asked made now a := by
  unfold Obj.used Obj.call at hu
  dsimp only at hu
  funext k
  rw [asked_eq]
  have hng : now k = none → ¬ given k := fun h1 h2 => by
    have := hg k h2
    rw [h1] at this
    cases this
  by_cases h1 : o.dtype = true
  · rw [if_pos h1] at hu
    simp only [Option.map_eq_some_iff, Option.bind_eq_some_iff, withKwargs_eq] at hu
    obtain ⟨_, ⟨c, hc, hacc, rfl⟩, rfl⟩ := hu
    · 
      simp only [update_eq]
      have hacc' : k ∈ initKeys → o.merge now k = none := fun hk => by
        by_contra hne
        exact callKeys_init (hacc k (Option.isSome_iff_ne_none.2 hne)) hk
      rw [merge_eq, h.attrs] at hacc' ⊢
      by_cases hk : k ∈ initKeys
      · have hn := hacc' hk
        have hnow : now k = none := by
          cases hnow : now k with
          | none => rfl
          | some v => simp [hnow] at hn
        rw [hn, h.con c h1 hc k (hng hnow), if_pos hk, hnow, get_init a hk]
        simp
      · cases hnow : now k with
        | some v => simp
        | none =>
          rw [h.con c h1 hc k (hng hnow), if_neg hk]
          rcases h.rest k hk (hng hnow) with h3 | ⟨h3, h4⟩
          · simp [h3]
          · simp [h3, h4]
  · rw [if_neg h1] at hu
    simp only [Option.map_eq_some_iff, Option.bind_eq_some_iff, withKwargs_eq, Option.ite_none_right_eq_some] at hu
    obtain ⟨_, ⟨_, ⟨_, _, rfl⟩, hacc, rfl⟩, rfl⟩ := hu
    have hm : update (separate (o.merge now)).1 (separate (o.merge now)).2 k = o.merge now k := by
      rw [update_eq]
      simp only [separate, only, without]
      split_ifs <;> simp
    rw [hm, merge_eq, h.attrs]
    cases hnow : now k with
    | some v => simp
    | none =>
      by_cases hk : k ∈ initKeys
      · rw [h.init k hk (hng hnow), h.unknown (by simpa using h1) k hk]
      · rcases h.rest k hk (hng hnow) with h3 | ⟨h3, h4⟩
        · simp [h3]
        · simp [h3, h4]

/-! ## The property -/

/-- **C61**, when every name that was given in an earlier call is given again, when the attributes are not set after the first call, and when the precision and the scheme are not chosen before the type of the data is known
(`not_C61_history`, `not_C61_attribute`, `not_C61_unknown`): a call that does not raise an exception uses the options
that were asked for, whatever the earlier calls were. -/
theorem C61_partial {kind : Kind} {dtype : Bool} {a a' : Attrs V} {made : Kwargs V} {o : Obj V}
    (h : make kind dtype a made = some o) (hd : dtype = true ∨ ∀ k ∈ initKeys, made k = none)
    (earlier : List (Kwargs V)) (now : Kwargs V) (hg : ∀ kw ∈ earlier, ∀ k, (kw k).isSome → (now k).isSome)
    {u : Kwargs V} (hu : ((o.set a').after (earlier.map .call)).used now = some u) : u = asked made now a' :=
  used_of_inv (inv_calls earlier (inv_make h hd)) (by
    rintro k (h | ⟨kw, hkw, hk⟩)
    · cases h
    · exact hg kw hkw k hk) hu

/-- A part of a dictionary of known names has known names. -/
theorem accepts_split {l l' : List String} {d : Kwargs V} (h : Accepts (l ++ l') d) {p : String → Prop}
    [DecidablePred p] (hp : ∀ k ∈ l', p k) : Accepts l fun k => if p k then none else d k := by
  intro k hk
  dsimp only at hk
  split_ifs at hk with h1
  · cases hk
  · exact (List.mem_append.1 (h k hk)).resolve_right fun h2 => h1 (hp k h2)

theorem conKeys_init : ∀ k ∈ conKeys, k ∈ initKeys := by decide

theorem get_callKeys (kind : Kind) (a : Attrs V) : Accepts kind.callKeys a.get := by
  intro k hk
  unfold Attrs.get at hk
  split_ifs at hk with h1 h2
  · subst h1
    cases kind <;> decide
  · subst h2
    cases kind <;> decide
  · cases hk

theorem accepts_or {l : List String} {d e : Kwargs V} (hd : Accepts l d) (he : Accepts l e) :
    Accepts l fun k => (d k).or (e k) := by
  intro k hk
  dsimp only at hk
  cases h : d k with
  | some v => exact hd k (by simp [h])
  | none =>
    rw [h, Option.none_or] at hk
    exact he k hk

theorem merge_accepts {o : Obj V} {now : Kwargs V} (h : Accepts o.kind.callKeys o.kwargs)
    (hn : Accepts o.kind.callKeys now) : Accepts o.kind.callKeys (o.merge now) := by
  rw [show o.merge now = _ from funext (merge_eq o now)]
  exact accepts_or (accepts_or hn h) (get_callKeys o.kind o.attrs)

/-- **C61**, existence: if the type of the data is known, and if only known names are given, then no exception is
raised. -/
theorem C61_runs (kind : Kind) (a a' : Attrs V) {made : Kwargs V} (hm : Accepts (kind.callKeys ++ conKeys) made)
    (earlier : List (Kwargs V)) (he : ∀ kw ∈ earlier, Accepts kind.callKeys kw) {now : Kwargs V}
    (hn : Accepts kind.callKeys now) :
    ∃ o, make kind true a made = some o ∧ ∃ u, ((o.set a').after (earlier.map .call)).used now = some u := by
  have h1 : Accepts conKeys (separate made).1 := by
    intro k hk
    simp only [separate, only] at hk
    split_ifs at hk with h1
    · exact (List.mem_append.1 (hm k hk)).resolve_left fun h2 => callKeys_init h2 h1
    · cases hk
  have h2 : Accepts kind.callKeys (separate made).2 := accepts_split hm conKeys_init
  refine ⟨_, by
    unfold make
    rw [if_pos rfl, withKwargs_pos h1], ?_⟩
  have key : ∀ (l : List (Kwargs V)) (o : Obj V), (∀ kw ∈ l, Accepts kind.callKeys kw) → o.kind = kind →
      o.dtype = true → o.callfun.isSome → Accepts kind.callKeys o.kwargs →
      ∃ u, (o.after (l.map .call)).used now = some u := by
    intro l
    induction l with
    | nil =>
      rintro o - rfl hd hc ho
      obtain ⟨c, hc⟩ := Option.isSome_iff_exists.1 hc
      simp only [List.map_nil, Obj.after, Obj.used, Obj.call, hd, if_true, hc, Option.bind_some,
        withKwargs_pos (merge_accepts ho hn), Option.map_some]
      exact ⟨_, rfl⟩
    | cons kw l ih =>
      rintro o hl rfl hd hc ho
      refine ih (o.call kw).1 (fun kw' h => hl kw' (List.mem_cons_of_mem _ h)) ?_ ?_ ?_ ?_
      · simp only [Obj.call, hd, if_true]
      · simp only [Obj.call, hd, if_true]
      · simpa only [Obj.call, hd, if_true] using hc
      · simpa only [Obj.call, hd, if_true] using merge_accepts ho (hl kw List.mem_cons_self)
  exact key earlier _ he rfl rfl rfl h2

/-- The case of a reduction that is called once, at the time when it is made, as in `x.sum(axis=1, ranges=r)`. -/
theorem C61_once (kind : Kind) (a : Attrs V) {made : Kwargs V} (hm : Accepts (kind.callKeys ++ conKeys) made) :
    (make kind true a made).bind (·.used noKwargs) = some (asked made noKwargs a) := by
  obtain ⟨o, ho, u, hu⟩ := C61_runs kind a a hm [] (by simp) (now := noKwargs) (fun k hk => by cases hk)
  have := C61_partial ho (.inl rfl) [] noKwargs (by simp) hu
  rw [ho, Option.bind_some, ← this]
  have e : o.set a = o := by
    unfold make at ho
    rw [if_pos rfl] at ho
    obtain ⟨-, rfl⟩ := withKwargs_eq.1 ho
    rfl
  rwa [e] at hu

/-- **C61** for sums of lazy tensors that are not products with a vector of dimension larger than 100, or whose sum is
along the axis of this vector: the options and the attributes are used. -/
theorem C61_sum_partial {x : LT V} {axis : Nat} (hx : ∀ a f v, x = .prod a f v → axis = v) {made : Kwargs V}
    (hm : Accepts (Kind.genred.callKeys ++ conKeys) made) : sumUsed x axis made = some (asked made noKwargs x.attrs) := by
  cases x with
  | plain a => exact C61_once .genred a hm
  | prod a f v =>
    obtain rfl := hx a f v rfl
    simp only [sumUsed, ne_eq, not_true, if_false]
    exact C61_once .genred a hm

/-! ## The hypotheses can be met -/

/-- A solver made with `backend="CPU"`, called twice with `alpha`: the second call uses its `alpha`, the backend, and the
attribute `ranges`. -/
example : ∃ o, make .solve true ⟨none, none⟩ (oneKwarg "backend" 10) = some o ∧
    ∃ u, ((o.set ⟨some 7, none⟩).after [.call (oneKwarg "alpha" 1)]).used (oneKwarg "alpha" 2) = some u ∧
      u "alpha" = some 2 ∧ u "backend" = some 10 ∧ u "ranges" = some 7 ∧ u "eps" = none := by
  have hacc : ∀ (k : String) (v : Nat), k ∈ Kind.solve.callKeys → Accepts Kind.solve.callKeys (oneKwarg k v) := by
    intro k v hk l hl
    unfold oneKwarg at hl
    split_ifs at hl with h
    · exact h ▸ hk
    · cases hl
  obtain ⟨o, ho, u, hu⟩ := C61_runs .solve (V := Nat) ⟨none, none⟩ ⟨some 7, none⟩ (made := oneKwarg "backend" 10)
    (fun k hk => List.mem_append_left _ (hacc _ _ (by decide) k hk)) [oneKwarg "alpha" 1]
    (by simpa using hacc _ _ (by decide)) (hacc "alpha" 2 (by decide))
  refine ⟨o, ho, u, hu, ?_⟩
  rw [C61_partial ho (.inl rfl) [oneKwarg "alpha" 1] (oneKwarg "alpha" 2) (by
    simp only [List.mem_singleton, forall_eq]
    intro k hk
    unfold oneKwarg at hk ⊢
    split_ifs at hk ⊢
    · rfl
    · cases hk) hu]
  decide

/-- `F.sum(axis=1, ranges=…)`. -/
example (r : Nat) : sumUsed (.prod ⟨none, none⟩ (.plain ⟨none, none⟩) 1) 1 (oneKwarg "ranges" r) =
    some (asked (oneKwarg "ranges" r) noKwargs ⟨none, none⟩) :=
  C61_sum_partial (by rintro a f v h; cases h; rfl) (fun k hk => by
    unfold oneKwarg at hk
    split_ifs at hk with h
    · subst h
      decide
    · cases hk)

/-! ## What does not hold -/

theorem accepts_one {l : List String} {k : String} (hk : k ∈ l) (v : V) : Accepts l (oneKwarg k v) := by
  intro k' hk'
  unfold oneKwarg at hk'
  split_ifs at hk' with h
  · exact h ▸ hk
  · cases hk'

theorem accepts_none {l : List String} : Accepts l (noKwargs (V := V)) := fun k hk => by cases hk

/-- A reduction that is made without options is called with the option `k`, then without: the second call uses it. -/
theorem used_twice (kind : Kind) {k : String} (hk : k ∈ kind.callKeys) (v : V) :
    ∃ o, make kind true ⟨none, none⟩ noKwargs = some o ∧
      ∃ u, (o.after [.call (oneKwarg k v)]).used noKwargs = some u ∧ u k = some v := by
  obtain ⟨o, ho, u, hu⟩ := C61_runs kind (V := V) ⟨none, none⟩ ⟨none, none⟩ (made := noKwargs) accepts_none
    [oneKwarg k v] (by simpa using accepts_one hk v) (now := noKwargs) accepts_none
  have ho' := ho
  unfold make at ho'
  rw [if_pos rfl] at ho'
  obtain ⟨-, rfl⟩ := withKwargs_eq.1 ho'
  refine ⟨_, ho, u, hu, ?_⟩
  simp only [List.map_cons, List.map_nil, Obj.after, Obj.set, Obj.used, Obj.call, if_true, Option.bind_some,
    Option.map_eq_some_iff, withKwargs_eq] at hu
  obtain ⟨_, ⟨-, rfl⟩, rfl⟩ := hu
  simp [update_eq, merge_eq, oneKwarg, noKwargs]

/-- **Not C61**: options given to a call are used by the later calls. `F = x.sum(axis=1, call=False)`; `F(u, ranges=r)`;
`F(v)` uses the ranges `r`; the same holds for `out` (the array of the first result is overwritten), and for `alpha` in
`solve`. -/
theorem not_C61_history (v : V) :
    ∃ (kind : Kind) (made now : Kwargs V) (o : Obj V), make kind true ⟨none, none⟩ made = some o ∧
      ∃ earlier u, (o.after [.call earlier]).used now = some u ∧ u "ranges" = some v ∧
        asked made now ⟨none, none⟩ "ranges" = none := by
  obtain ⟨o, ho, u, hu, h⟩ := used_twice .genred (k := "ranges") (by decide) v
  exact ⟨.genred, noKwargs, noKwargs, o, ho, oneKwarg "ranges" v, u, hu, h, rfl⟩

/-- The same for `out`, and for `alpha`. -/
theorem not_C61_history_out (v : V) :
    (∃ o : Obj V, make .genred true ⟨none, none⟩ noKwargs = some o ∧
      ∃ u, (o.after [.call (oneKwarg "out" v)]).used noKwargs = some u ∧ u "out" = some v) ∧
    ∃ o : Obj V, make .solve true ⟨none, none⟩ noKwargs = some o ∧
      ∃ u, (o.after [.call (oneKwarg "alpha" v)]).used noKwargs = some u ∧ u "alpha" = some v :=
  ⟨used_twice .genred (by decide) v, used_twice .solve (by decide) v⟩

/-- **Not C61**: the attribute `ranges` is read at the first call only. -/
theorem not_C61_attribute (r r' : V) (hr : r ≠ r') :
    ∃ o : Obj V, make .genred true ⟨some r, none⟩ noKwargs = some o ∧
      ∃ (es : List (Event V)) (u : Kwargs V), (o.after es).used noKwargs = some u ∧ u "ranges" = some r ∧
        asked noKwargs noKwargs (attrsAfter ⟨some r, none⟩ es) "ranges" = some r' := by
  refine ⟨_, by
    unfold make
    rw [if_pos rfl, withKwargs_pos (by intro k hk; simp [separate, only, noKwargs] at hk)],
    [.call noKwargs, .set ⟨some r', none⟩], ?_⟩
  simp only [Obj.after, Obj.set, Obj.used, Obj.call, if_true, Option.bind_some, Option.map_eq_some_iff, withKwargs_eq]
  refine ⟨_, ⟨_, ⟨?_, rfl⟩, rfl⟩, ?_, rfl⟩
  · intro k hk
    simp only [merge_eq, separate, without, noKwargs, ite_self, Option.none_or] at hk
    by_contra hn
    have hn1 : k ≠ "ranges" := fun h => hn (h ▸ by decide)
    have hn2 : k ≠ "backend" := fun h => hn (h ▸ by decide)
    simp [Attrs.get, hn1, hn2] at hk
  · simp [update_eq, merge_eq, separate, without, noKwargs, Attrs.get]

/-- **Not C61**: when the type of the data is not known (only symbolic variables and numbers), the precision and the scheme
of the sum that are given to the reduction are forgotten. -/
theorem not_C61_unknown (v : V) :
    ∃ o : Obj V, make .genred false ⟨none, none⟩ (oneKwarg "sum_scheme" v) = some o ∧
      ∃ u, o.used noKwargs = some u ∧ u "sum_scheme" = none := by
  refine ⟨_, rfl, ?_⟩
  have e : ∀ k, Obj.merge (V := V) ⟨.genred, false, (separate (oneKwarg "sum_scheme" v)).2, ⟨none, none⟩, none⟩ noKwargs k =
      none := by
    intro k
    rw [merge_eq]
    by_cases hk : k = "sum_scheme"
    · subst hk
      simp [separate, without, noKwargs, Attrs.get, initKeys]
    · simp [separate, without, noKwargs, Attrs.get, oneKwarg, hk]
  simp only [separate] at e
  simp only [Obj.used, Obj.call, Bool.false_eq_true, if_false, if_true, Option.map_eq_some_iff, Option.bind_eq_some_iff,
    withKwargs_eq]
  refine ⟨_, ⟨_, ⟨_, ⟨?_, rfl⟩, ?_, rfl⟩, rfl⟩, ?_⟩
  · intro k hk
    simp [separate, only, e] at hk
  · intro k hk
    simp [separate, without, e] at hk
  · simp [update_eq, separate, only, without, e]

/-- **Not C61**: a call with a name that is not known raises an exception, and so do all the later calls, whatever their
options. -/
theorem not_C61_error (v : V) (now : Kwargs V) :
    ∃ o : Obj V, make .genred true ⟨none, none⟩ noKwargs = some o ∧
      (∃ u, o.used noKwargs = some u) ∧ (o.after [.call (oneKwarg "Ranges" v)]).used now = none := by
  obtain ⟨o, ho, u, hu⟩ := C61_runs .genred (V := V) ⟨none, none⟩ ⟨none, none⟩ (made := noKwargs) accepts_none
    [] (by simp) (now := noKwargs) accepts_none
  have ho' := ho
  unfold make at ho'
  rw [if_pos rfl] at ho'
  obtain ⟨-, rfl⟩ := withKwargs_eq.1 ho'
  refine ⟨_, ho, ⟨u, hu⟩, ?_⟩
  rw [Option.eq_none_iff_forall_not_mem]
  intro u' hu'
  simp only [Obj.after, Obj.used, Obj.call, if_true, Option.bind_some, Option.mem_def, Option.map_eq_some_iff,
    withKwargs_eq] at hu'
  obtain ⟨_, ⟨hacc, -⟩, -⟩ := hu'
  have := hacc "Ranges" (by cases h : now "Ranges" <;> simp [merge_eq, oneKwarg, h])
  revert this
  decide

/-- **Not C61** for sums of products with a vector of dimension larger than 100 along the other axis: neither the options
nor the attributes of the product are used. With `F = K * b_i`, `F.sum(axis=1, ranges=r)` is the sum over all `j`. -/
theorem not_C61_sum (r : V) :
    ∃ x : LT V, (∃ u, sumUsed x 1 (oneKwarg "ranges" r) = some u ∧ u "ranges" = none) ∧
      asked (oneKwarg "ranges" r) noKwargs x.attrs "ranges" = some r ∧
    ∃ y : LT V, (∃ u, sumUsed y 1 noKwargs = some u ∧ u "ranges" = none) ∧
      asked noKwargs noKwargs y.attrs "ranges" = some r := by
  have h := C61_once (V := V) .genred ⟨none, none⟩ (made := noKwargs) accepts_none
  exact ⟨.prod ⟨none, none⟩ (.plain ⟨none, none⟩) 0, ⟨_, h, rfl⟩, rfl,
    .prod ⟨some r, none⟩ (.plain ⟨none, none⟩) 0, ⟨_, h, rfl⟩, rfl⟩

end Verif.LazyCall
