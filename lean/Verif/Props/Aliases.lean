import Verif.Proofs.Aliases

/-!
# C25: aliases

The `k`-th alias binds its name to the `k`-th tensor (or to the written position) with the category and
the dimension that were written; the variables written in the formula as `Var(pos,dim,cat)` complete the
list so that each position has one declaration.
-/

namespace Verif
open Alias Spec

/-- C25. Aliases written as `name=Vi(dim)`, `name=Vj(dim)`, `name=Pm(dim)` or with a position. The function
that finds the sizes of the call and the one that binds the names of the formula both give the written
category and dimension, and the position of the alias in the list when no position is written. -/
theorem C25_aliases (as : List Str)
    (h : ∀ a ∈ as, '=' ∉ a ∨ ∃ name cat pos dim, Written a name cat pos dim)
    (hd : ∀ (i j : Nat) a b name cat pos dim cat' pos' dim', as[i]? = some a → as[j]? = some b →
      Written a name cat pos dim → Written b name cat' pos' dim' → i = j) :
    ∃ bs, loadAliases (as.map some) = some bs ∧
      ∀ k text name cat pos dim, as[k]? = some text → Written text name cat pos dim →
        lookup bs name = some ⟨name, pos.getD k, dim, cat⟩ ∧
        ∃ n, getType text k = some ⟨some n, cat, dim, pos.getD k⟩ := by
  obtain ⟨bs, h1, h2, h3⟩ := loadFrom_spec as h 0 ⟨none, none, none⟩
  refine ⟨bs, h1, ?_⟩
  intro k text name cat pos dim hk hW
  refine ⟨?_, getType_written k hW⟩
  have hm := h3 k text name cat pos dim hk hW
  rw [Nat.zero_add] at hm
  refine lookup_of_mem hm ?_
  intro c hc hcn
  obtain ⟨i, a, pos', hi, hW', hp⟩ := h2 c hc
  simp only at hcn
  rw [hcn] at hW'
  have hik := hd i k a text name _ _ _ _ _ _ hi hk hW' hW
  subst hik
  rw [hi] at hk
  cases hk
  obtain ⟨l1, e1⟩ := loadAlias_written i ⟨none, none, none⟩ hW
  obtain ⟨l2, e2⟩ := loadAlias_written i ⟨none, none, none⟩ hW'
  rw [e1] at e2
  simp only [Option.some.injEq, Prod.mk.injEq, List.cons.injEq, and_true, Binding.mk.injEq, true_and] at e2
  cases c
  simp only at hcn hp e2 ⊢
  simp only [Nat.zero_add] at hp
  rw [hcn, hp, ← e2.2.1, ← e2.2.2.1, ← e2.2.2.2]

/-- C25. The positions after the aliases: if the list is completed, the entry at such a position is the
variable written in the formula at this position, and no other variable is written there. -/
theorem C25_complete (f : Str) (ev : List (Nat × Str)) (hev : ev.Perm (formulaVars f).dedup)
    (aliases : List Str) (r : List (Option Str)) (h : completeAliases ev aliases = some r)
    (hn : none ∉ r) :
    (∀ k, k < aliases.length → r[k]? = aliases[k]?.map some) ∧
    (∀ p s, aliases.length ≤ p → (r[p]? = some (some s) ↔ Occurs f p s)) := by
  have hmem : ∀ v, v ∈ ev ↔ Occurs f v.1 v.2 := by
    intro v
    rw [hev.mem_iff, List.mem_dedup, ← mem_formulaVars]
  obtain ⟨hnd, hlen⟩ := complete_perm h hn
  have hnew : ∀ v, v ∈ ev.filter (fun v => ¬ v.1 < aliases.length) ↔
      Occurs f v.1 v.2 ∧ aliases.length ≤ v.1 := by
    intro v
    simp [List.mem_filter, hmem]
  constructor
  · intro k hk
    rw [assign_other _ _ _ k h]
    · rw [List.getElem?_append_left (by simpa using hk), List.getElem?_map]
    · rw [List.mem_map]
      rintro ⟨v, hv, rfl⟩
      have := (hnew v).1 hv
      omega
  · intro p s hp
    constructor
    · intro hr
      by_cases hpm : p ∈ (ev.filter (fun v => ¬ v.1 < aliases.length)).map Prod.fst
      · obtain ⟨v, hv, rfl⟩ := List.mem_map.1 hpm
        have := assign_mem _ _ _ v.1 v.2 h hnd hv
        rw [this] at hr
        simp only [Option.some.injEq] at hr
        rw [← hr]
        exact ((hnew v).1 hv).1
      · rw [assign_other _ _ _ p h hpm, List.getElem?_append_right (by simpa using hp),
          List.getElem?_replicate] at hr
        split_ifs at hr
        cases hr
    · intro ho
      exact assign_mem _ _ _ p s h hnd ((hnew (p, s)).2 ⟨ho, hp⟩)

/-- C25. The completion succeeds when the positions written in the formula after the aliases are
consecutive and each of them is written in one way. -/
theorem C25_complete_ok (f : Str) (ev : List (Nat × Str)) (hev : ev.Perm (formulaVars f).dedup)
    (aliases : List Str) (m : Nat)
    (hpos : ∀ p, aliases.length ≤ p → ((∃ s, Occurs f p s) ↔ p < aliases.length + m))
    (huniq : ∀ p s t, aliases.length ≤ p → Occurs f p s → Occurs f p t → s = t) :
    ∃ r, completeAliases ev aliases = some r ∧ none ∉ r ∧ r.length = aliases.length + m := by
  have hmem : ∀ v, v ∈ ev ↔ Occurs f v.1 v.2 := by
    intro v
    rw [hev.mem_iff, List.mem_dedup, ← mem_formulaVars]
  set new := ev.filter (fun v => ¬ v.1 < aliases.length) with hnewdef
  have hnew : ∀ v, v ∈ new ↔ Occurs f v.1 v.2 ∧ aliases.length ≤ v.1 := by
    intro v
    simp [hnewdef, List.mem_filter, hmem]
  have hnd : (new.map Prod.fst).Nodup := by
    refine List.Nodup.map_on ?_ ((hev.nodup_iff.2 (List.nodup_dedup _)).filter _)
    intro v hv w hw e
    have h1 := (hnew v).1 hv
    have h2 := (hnew w).1 hw
    refine Prod.ext e ?_
    rw [← e] at h2
    exact huniq _ _ _ h1.2 h1.1 h2.1
  have hperm : (new.map Prod.fst).Perm (List.range' aliases.length m) := by
    rw [List.perm_ext_iff_of_nodup hnd List.nodup_range']
    intro p
    rw [List.mem_map, List.mem_range'_1]
    constructor
    · rintro ⟨v, hv, rfl⟩
      have := (hnew v).1 hv
      exact ⟨this.2, (hpos _ this.2).1 ⟨_, this.1⟩⟩
    · rintro ⟨h1, h2⟩
      obtain ⟨s, hs⟩ := (hpos p h1).2 h2
      exact ⟨(p, s), (hnew _).2 ⟨hs, h1⟩, rfl⟩
  have hlen : new.length = m := by simpa using hperm.length_eq
  obtain ⟨r, hr⟩ := assign_some new (aliases.map some ++ List.replicate new.length none) (by
    intro v hv
    have := (hnew v).1 hv
    have h2 := (hpos _ this.2).1 ⟨_, this.1⟩
    simp only [List.length_append, List.length_map, List.length_replicate]
    omega)
  have hrl := assign_length _ _ _ hr
  simp only [List.length_append, List.length_map, List.length_replicate] at hrl
  refine ⟨r, hr, ?_, by omega⟩
  intro hn
  obtain ⟨p, hp, hpe⟩ := List.mem_iff_getElem.1 hn
  by_cases hpm : p ∈ new.map Prod.fst
  · obtain ⟨v, hv, rfl⟩ := List.mem_map.1 hpm
    have := assign_mem _ _ _ v.1 v.2 hr hnd hv
    rw [List.getElem?_eq_getElem hp, hpe] at this
    cases this
  · have ho := assign_other _ _ _ p hr hpm
    rw [List.getElem?_eq_getElem hp, hpe] at ho
    by_cases hpa : p < aliases.length
    · rw [List.getElem?_append_left (by simpa using hpa), List.getElem?_map,
        List.getElem?_eq_getElem hpa] at ho
      cases ho
    · refine hpm (hperm.mem_iff.2 ?_)
      rw [List.mem_range'_1]
      omega

/-- C25. Two variables written differently at the same position after the aliases: an exception. -/
theorem C25_conflict (f : Str) (ev : List (Nat × Str)) (hev : ev.Perm (formulaVars f).dedup)
    (aliases : List Str) (p : Nat) (s t : Str) (hp : aliases.length ≤ p) (hs : Occurs f p s)
    (ht : Occurs f p t) (hst : s ≠ t) : (completeAliases ev aliases).bind loadAliases = none := by
  cases hc : completeAliases ev aliases with
  | none => rfl
  | some r =>
    rw [Option.bind_some]
    by_cases hn : none ∈ r
    · have : ∀ (r : List (Option Str)) k loc, none ∈ r → loadFrom k loc r = none := by
        intro r
        induction r with
        | nil => simp
        | cons a r ih =>
          intro k loc hm
          cases a with
          | none => rfl
          | some a =>
            unfold loadFrom
            cases loadAlias k loc a with
            | none => rfl
            | some q =>
              simp only
              rw [ih _ _ (by simpa using hm)]
              rfl
      exact this r _ _ hn
    · obtain ⟨_, h2⟩ := C25_complete f ev hev aliases r hc hn
      have e1 := (h2 p s hp).2 hs
      rw [(h2 p t hp).2 ht] at e1
      simp only [Option.some.injEq] at e1
      exact absurd e1.symm hst

/-! ## What fails -/

/-- The old keyword `Vy`, which `get_type` accepts as `Vj`, is not known by the function that binds the
names: the alias takes the category of the previous one. -/
theorem not_C25_old_keyword :
    (getType "y=Vy(3)".toList 1).map Decl.cat = some 1 ∧
    (loadAliases ["x=Vi(3)".toList, "y=Vy(3)".toList]).bind (lookup · "y".toList) =
      some ⟨"y".toList, 1, 3, 0⟩ := by
  decide +kernel

/-- The form `name=Var(pos,dim,cat)`, announced by the docstring of `get_type`, takes position, dimension
and category of the previous alias. -/
theorem not_C25_var_alias :
    (loadAliases ["x=Vi(3)".toList, "y=Vj(3)".toList, "b=Var(2,1,1)".toList]).bind
      (lookup · "b".toList) = some ⟨"b".toList, 1, 3, 1⟩ := by
  decide +kernel

/-- A variable written in the formula at the position of an alias, with another category, is accepted:
the position has two declarations. -/
theorem not_C25_inline :
    ∃ (f : Str) (aliases : List Str), ∃ bs s,
      (completeAliases (formulaVars f).dedup aliases).bind loadAliases = some bs ∧
      lookup bs "y".toList = some ⟨"y".toList, 1, 3, 1⟩ ∧ Occurs f 1 s ∧ s = "Var(1,3,0)".toList := by
  refine ⟨"(x|Var(1,3,0))".toList, ["x=Vi(3)".toList, "y=Vj(3)".toList],
    [⟨"x".toList, 0, 3, 0⟩, ⟨"y".toList, 1, 3, 1⟩], "Var(1,3,0)".toList, ?_, ?_, ?_, rfl⟩
  · decide +kernel
  · decide +kernel
  · rw [← mem_formulaVars]
    decide +kernel

/-! ## Examples -/

/-- An alias with spaces. -/
example : Written "x = Vi( 12 , 3)".toList ['x'] 0 (some 12) 3 := by
  refine ⟨⟨by decide, 'x', by decide⟩, by decide, by decide +kernel⟩

example : (loadAliases [some "x = Vi(3)".toList, some "y = Vj(3)".toList, some "p=Pm(0,2)".toList]) =
    some [⟨['x'], 0, 3, 0⟩, ⟨['y'], 1, 3, 1⟩, ⟨['p'], 0, 2, 2⟩] := by decide +kernel

/-- A formula with two variables after the aliases. -/
example : completeAliases (formulaVars "Var(3, 1, 2) * Exp(x - Var(2,3,1)) + Var(3,1,2)".toList).dedup
    ["x=Vi(3)".toList, "y=Vj(3)".toList] =
    some [some "x=Vi(3)".toList, some "y=Vj(3)".toList, some "Var(2,3,1)".toList,
      some "Var(3,1,2)".toList] := by decide +kernel

end Verif
