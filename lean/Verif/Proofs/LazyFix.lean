import Verif.Proofs.LazyRel

/-! The loop of `fixvariables`. -/

namespace Verif.Lazy
open Alias (Str strip)
open Spec (LExpr LTree PlainText)

/-- The pieces of the formulas of a list of expressions. -/
def piecesL (ρ : LTensor → Nat) (U : List (LTree LTensor)) : List Piece := U.flatMap (pieces ρ)

/-- The leaves of a list of expressions. -/
def leavesL (U : List (LTree LTensor)) : List (LTensor × Nat × Nat) := U.flatMap LTree.leaves

theorem mem_pieces_ref (ρ : LTensor → Nat) (T : LTree LTensor) (a b : Nat) (c : Str) :
    Piece.ref false a b c ∈ pieces ρ T ↔ ∃ l ∈ T.leaves, ρ l.1 = a ∧ l.2.1 = b ∧ num l.2.2 = c := by
  induction T with
  | leaf x d k => simp [pieces, LTree.leaves, eq_comm]
  | symb => simp [pieces, LTree.leaves]
  | const => simp [pieces, LTree.leaves]
  | un p q x ih => simp [pieces, LTree.leaves, ih]
  | bin p m q x y ihx ihy => simp [pieces, LTree.leaves, ihx, ihy, or_and_right, exists_or]
  | ter p m n q x y z ihx ihy ihz =>
    simp [pieces, LTree.leaves, ihx, ihy, ihz, or_and_right, exists_or]

theorem mem_piecesL_ref (ρ : LTensor → Nat) (U : List (LTree LTensor)) (a b : Nat) (c : Str) :
    Piece.ref false a b c ∈ piecesL ρ U ↔ ∃ l ∈ leavesL U, ρ l.1 = a ∧ l.2.1 = b ∧ num l.2.2 = c := by
  simp only [piecesL, leavesL, List.mem_flatMap, mem_pieces_ref]
  constructor
  · rintro ⟨T, hT, l, hl, h⟩
    exact ⟨l, ⟨T, hT, hl⟩, h⟩
  · rintro ⟨l, ⟨T, hT, hl⟩, h⟩
    exact ⟨T, hT, l, hl, h⟩

theorem piecesL_good (ρ : LTensor → Nat) (U : List (LTree LTensor)) (h : ∀ T ∈ U, PlainTree T) :
    ∀ p ∈ piecesL ρ U, p.Good := by
  intro p hp
  obtain ⟨T, hT, hp⟩ := List.mem_flatMap.1 hp
  exact pieces_good ρ T (h T hT) p hp

theorem piecesL_tag (ρ : LTensor → Nat) (x y : Nat) (U : List (LTree LTensor)) :
    (piecesL ρ U).map (mapTag x y) = piecesL (fun a => if ρ a = x then y else ρ a) U := by
  simp only [piecesL, List.map_flatMap, pieces_tag]

theorem piecesL_append (ρ : LTensor → Nat) (U U' : List (LTree LTensor)) :
    piecesL ρ (U ++ U') = piecesL ρ U ++ piecesL ρ U' := by
  simp [piecesL]

/-- A tensor reshaped for a variable of category `c`. -/
def padTo (nb : Nat) (a : LTensor) (c : Nat) : LTensor :=
  { a with shape := List.replicate (nb + 1 + (if c = 0 ∨ c = 1 then 1 else 0) - a.shape.length) 1 ++ a.shape }

/-- The state of the loop: the variables `done` are labelled. -/
structure Inv (nb i0 : Nat) (U1 U2 : List (LTree LTensor)) (s : Fix) (done : List LTensor)
    (ρ : LTensor → Nat) : Prop where
  f : s.f = render (piecesL ρ U1)
  f2 : s.f2 = render (piecesL ρ U2)
  i : s.i = i0 + s.vars.length
  len : s.vars.length ≤ done.length
  ids : ∀ v ∈ s.vars, ∃ a ∈ done, a.id = v.id
  nodup : (s.vars.map LTensor.id).Nodup
  lab : ∀ l ∈ leavesL (U1 ++ U2), (ρ l.1 = l.1.id ∧ l.1 ∉ done) ∨
    (i0 ≤ ρ l.1 ∧ ∃ l' ∈ leavesL (U1 ++ U2), l'.1 = l.1 ∧ s.vars[ρ l.1 - i0]? = some (padTo nb l.1 l'.2.2))
  used : ∀ k < s.vars.length, ∃ l ∈ leavesL (U1 ++ U2), ρ l.1 = i0 + k

theorem any_isRef (n : Nat) (ρ : LTensor → Nat) (U : List (LTree LTensor)) :
    (piecesL ρ U).any (isRef n) = true ↔ ∃ l ∈ leavesL U, ρ l.1 = n := by
  rw [List.any_eq_true]
  constructor
  · rintro ⟨p, hp, h⟩
    cases p with
    | txt s => simp [isRef] at h
    | ref sym a b c =>
      simp only [isRef, decide_eq_true_eq] at h
      obtain ⟨rfl, rfl⟩ := h
      obtain ⟨l, hl, e, _⟩ := (mem_piecesL_ref _ _ _ _ _).1 hp
      exact ⟨l, hl, e⟩
  · rintro ⟨l, hl, e⟩
    exact ⟨_, (mem_piecesL_ref ρ U n _ _).2 ⟨l, hl, e, rfl, rfl⟩, by simp [isRef]⟩

theorem num_digit {c : Nat} (h : c < 3) : num c = ['0'] ∨ num c = ['1'] ∨ num c = ['2'] := by
  rcases Nat.lt_or_ge c 1 with h | h
  · obtain rfl : c = 0 := by omega
    exact .inl rfl
  · rcases Nat.lt_or_ge c 2 with h | h
    · obtain rfl : c = 1 := by omega
      exact .inr (.inl rfl)
    · obtain rfl : c = 2 := by omega
      exact .inr (.inr rfl)

/-- The category found by the search is the category of a leaf. -/
theorem search_leaf (n : Nat) (ρ : LTensor → Nat) (U : List (LTree LTensor)) (hp : ∀ T ∈ U, PlainTree T)
    (hc : ∀ l ∈ leavesL U, l.2.2 < 3) (h : ∃ l ∈ leavesL U, ρ l.1 = n) :
    ∃ l ∈ leavesL U, ρ l.1 = n ∧ ∃ ch, search (matchVarCat n) (render (piecesL ρ U)) = some ch ∧
      ((ch = '0' ∨ ch = '1') ↔ (l.2.2 = 0 ∨ l.2.2 = 1)) := by
  rw [search_varCat n _ (piecesL_good ρ U hp)]
  cases hf : (piecesL ρ U).findSome? (catRef n) with
  | none =>
    exfalso
    obtain ⟨l, hl, e⟩ := h
    rw [List.findSome?_eq_none_iff] at hf
    have := hf _ ((mem_piecesL_ref ρ U n _ _).2 ⟨l, hl, e, rfl, rfl⟩)
    simp only [catRef, true_and] at this
    rw [if_pos (num_digit (hc l hl))] at this
    rcases num_digit (hc l hl) with h | h | h <;> rw [h] at this <;> simp at this
  | some ch =>
    obtain ⟨p, hp, h⟩ := List.exists_of_findSome?_eq_some hf
    cases p with
    | txt s => simp [catRef] at h
    | ref sym a b c =>
      simp only [catRef] at h
      split_ifs at h with hcond
      obtain ⟨rfl, rfl, _⟩ := hcond
      obtain ⟨l, hl, e, _, e2⟩ := (mem_piecesL_ref _ _ _ _ _).1 hp
      refine ⟨l, hl, e, ch, rfl, ?_⟩
      subst e2
      have := hc l hl
      have h3 : l.2.2 = 0 ∨ l.2.2 = 1 ∨ l.2.2 = 2 := by omega
      rcases h3 with h3 | h3 | h3 <;> rw [h3] at h ⊢
      · simp [show num 0 = ['0'] from rfl] at h
        simp [← h]
      · simp [show num 1 = ['1'] from rfl] at h
        simp [← h]
      · simp [show num 2 = ['2'] from rfl] at h
        simp [← h]

theorem fixStep_inv {nb i0 : Nat} {U1 U2 : List (LTree LTensor)} {s : Fix} {done : List LTensor}
    {ρ : LTensor → Nat} {v : LTensor} {all : List LTensor} {n : Nat}
    (hp : ∀ T ∈ U1 ++ U2, PlainTree T) (hc : ∀ l ∈ leavesL (U1 ++ U2), l.2.2 < 3)
    (hl : ∀ l ∈ leavesL (U1 ++ U2), l.1 ∈ all) (hd : Distinct all) (hv : v ∈ all)
    (hdone : ∀ a ∈ done, a ∈ all) (hn : done.length < n)
    (hid : ∀ a ∈ all, a.id < i0 ∨ i0 + n ≤ a.id) (h : Inv nb i0 U1 U2 s done ρ) :
    ∃ s' ρ', fixStep nb s v = some s' ∧ Inv nb i0 U1 U2 s' (done ++ [v]) ρ' := by
  have hp1 : ∀ T ∈ U1, PlainTree T := fun T h => hp T (by simp [h])
  have hp2 : ∀ T ∈ U2, PlainTree T := fun T h => hp T (by simp [h])
  have hin : inStr ("Var(".toList ++ num v.id ++ [',']) (s.f ++ s.f2) =
      (piecesL ρ (U1 ++ U2)).any (isRef v.id) := by
    rw [h.f, h.f2, ← render_append, ← piecesL_append]
    exact inStr_render _ _ (piecesL_good ρ _ hp)
  -- a leaf whose label is an identity is not labelled yet
  have hlid : ∀ l ∈ leavesL (U1 ++ U2), ρ l.1 = v.id → l.1 = v ∧ l.1 ∉ done := by
    intro l hll e
    rcases h.lab l hll with ⟨h1, h2⟩ | ⟨h1, l', _, _, h2⟩
    · exact ⟨hd _ (hl l hll) _ hv (h1.symm.trans e), h2⟩
    · exfalso
      have := (List.getElem?_eq_some_iff.1 h2).1
      have := hid v hv
      have := h.len
      omega
  simp only [fixStep]
  by_cases hany : ∃ l ∈ leavesL (U1 ++ U2), ρ l.1 = v.id
  · rw [hin, if_pos ((any_isRef _ _ _).2 hany)]
    set ρ' : LTensor → Nat := fun a => if ρ a = v.id then s.i else ρ a with hρ'
    have hf : replaceStr ("Var(".toList ++ num v.id ++ [',']) ("Var(".toList ++ num s.i ++ [',']) s.f =
        render (piecesL ρ' U1) := by
      rw [h.f]
      exact (replace_tag _ (piecesL_good ρ U1 hp1)).trans (by rw [piecesL_tag])
    have hf2 : replaceStr ("Var(".toList ++ num v.id ++ [',']) ("Var(".toList ++ num s.i ++ [',']) s.f2 =
        render (piecesL ρ' U2) := by
      rw [h.f2]
      exact (replace_tag _ (piecesL_good ρ U2 hp2)).trans (by rw [piecesL_tag])
    obtain ⟨l0, hl0, e0⟩ := hany
    obtain ⟨rfl, hnd⟩ := hlid l0 hl0 e0
    obtain ⟨lc, hlc, elc, ch, hs, hch⟩ := search_leaf s.i ρ' (U1 ++ U2) hp hc ⟨l0, hl0, by simp [hρ', e0]⟩
    have hlcv : lc.1 = l0.1 := by
      simp only [hρ'] at elc
      split_ifs at elc with e
      · exact (hlid lc hlc e).1
      · exfalso
        rcases h.lab lc hlc with ⟨h1, h2⟩ | ⟨h1, l', _, _, h2⟩
        · have := hid lc.1 (hl lc hlc)
          have := h.i
          have := h.len
          omega
        · have := (List.getElem?_eq_some_iff.1 h2).1
          have := h.i
          omega
    rw [piecesL_append, render_append] at hs
    simp only [hf, hf2, hs, Option.map_some]
    refine ⟨_, ρ', rfl, ⟨rfl, rfl, ?_, ?_, ?_, ?_, ?_, ?_⟩⟩
    · simp [h.i, Nat.add_assoc]
    · simp only [List.length_append, List.length_singleton]
      have := h.len
      omega
    · intro w hw
      rw [List.mem_append, List.mem_singleton] at hw
      rcases hw with hw | rfl
      · obtain ⟨a, ha, e⟩ := h.ids w hw
        exact ⟨a, by simp [ha], e⟩
      · exact ⟨l0.1, by simp, rfl⟩
    · rw [List.map_append, List.nodup_append]
      refine ⟨h.nodup, by simp, ?_⟩
      intro x hx y hy e
      obtain ⟨w, hw, rfl⟩ := List.mem_map.1 hx
      simp only [List.map_cons, List.map_nil, List.mem_singleton] at hy
      obtain ⟨a, ha, e'⟩ := h.ids w hw
      exact hnd (hd _ (hdone a ha) _ hv (e'.trans (e.trans hy)) ▸ ha)
    · intro l hll
      have hi := h.i
      by_cases e : ρ l.1 = l0.1.id
      · have el := (hlid l hll e).1
        refine .inr ⟨by simp [hρ', e, hi], lc, hlc, hlcv.trans el.symm, ?_⟩
        have : ρ' l.1 - i0 = s.vars.length := by simp [hρ', e, hi]
        rw [this, List.getElem?_concat_length, el]
        simp only [padTo, hch]
      · rcases h.lab l hll with ⟨h1, h2⟩ | ⟨h1, l', hl', e', h2⟩
        · refine .inl ⟨(if_neg e).trans h1, ?_⟩
          rw [List.mem_append, List.mem_singleton, not_or]
          refine ⟨h2, fun e' => e ?_⟩
          rw [h1, e']
        · refine .inr ⟨by simpa [hρ', e] using h1, l', hl', e', ?_⟩
          have : ρ' l.1 = ρ l.1 := by simp [hρ', e]
          rw [this, List.getElem?_append_left (List.getElem?_eq_some_iff.1 h2).1, h2]
    · intro k hk
      rw [List.length_append, List.length_singleton] at hk
      have hi := h.i
      by_cases hk' : k < s.vars.length
      · obtain ⟨l, hll, e⟩ := h.used k hk'
        refine ⟨l, hll, ?_⟩
        have : ρ l.1 ≠ l0.1.id := by
          have := hid l0.1 hv
          have := h.len
          omega
        exact (if_neg this).trans e
      · refine ⟨l0, hl0, ?_⟩
        simp only [hρ', e0, if_true]
        omega
  · rw [hin, if_neg (by rw [any_isRef]; exact hany)]
    refine ⟨s, ρ, rfl, ⟨h.f, h.f2, h.i, ?_, ?_, h.nodup, ?_, h.used⟩⟩
    · have := h.len
      simp
      omega
    · intro w hw
      obtain ⟨a, ha, e⟩ := h.ids w hw
      exact ⟨a, by simp [ha], e⟩
    · intro l hll
      rcases h.lab l hll with ⟨h1, h2⟩ | h2
      · refine .inl ⟨h1, ?_⟩
        rw [List.mem_append, List.mem_singleton, not_or]
        refine ⟨h2, fun e => hany ⟨l, hll, ?_⟩⟩
        rw [h1, e]
      · exact .inr h2

theorem fixLoop_inv {nb i0 : Nat} {U1 U2 : List (LTree LTensor)} {all : List LTensor}
    (hp : ∀ T ∈ U1 ++ U2, PlainTree T) (hc : ∀ l ∈ leavesL (U1 ++ U2), l.2.2 < 3)
    (hl : ∀ l ∈ leavesL (U1 ++ U2), l.1 ∈ all) (hd : Distinct all)
    (hid : ∀ a ∈ all, a.id < i0 ∨ i0 + all.length ≤ a.id) (todo done : List LTensor) (he : done ++ todo = all)
    (s : Fix) (ρ : LTensor → Nat) (h : Inv nb i0 U1 U2 s done ρ) :
    ∃ s' ρ', fixLoop nb todo s = some s' ∧ Inv nb i0 U1 U2 s' all ρ' := by
  induction todo generalizing done s ρ with
  | nil =>
    rw [List.append_nil] at he
    exact ⟨s, ρ, rfl, he ▸ h⟩
  | cons v vs ih =>
    obtain ⟨s1, ρ1, e1, h1⟩ := fixStep_inv (v := v) (n := all.length) hp hc hl hd (by simp [← he])
      (fun a ha => by simp [← he, ha]) (by simp [← he]) hid h
    obtain ⟨s2, ρ2, e2, h2⟩ := ih (done ++ [v]) (by simpa using he) s1 ρ1 h1
    exact ⟨s2, ρ2, by rw [fixLoop, e1, Option.bind_some, e2], h2⟩

/-- The formula of a list of expressions. -/
def textL (ρ : LTensor → Nat) (U : List (LTree LTensor)) : Str := U.flatMap (LTree.text ρ)

theorem textL_eq (ρ : LTensor → Nat) (U : List (LTree LTensor)) :
    textL ρ U = render ((piecesL ρ U).map unsym) := by
  induction U with
  | nil => rfl
  | cons T U ih =>
    simp only [textL, piecesL, List.flatMap_cons, List.map_append, render_append, text_eq] at ih ⊢
    rw [ih]

theorem fixvariables_spec {L : LazyT} {formula2 : Str} {T : LTree LTensor} {U : List (LTree LTensor)}
    (h1 : L.formula = render (pieces LTensor.id T)) (h2 : formula2 = render (piecesL LTensor.id U))
    (hp : ∀ T' ∈ [T] ++ U, PlainTree T') (hc : ∀ l ∈ leavesL ([T] ++ U), l.2.2 < 3)
    (hl : ∀ l ∈ leavesL ([T] ++ U), l.1 ∈ L.tensors) (hd : Distinct L.tensors)
    (hid : ∀ a ∈ L.tensors, a.id < newIndex L.symb ∨ newIndex L.symb + L.tensors.length ≤ a.id) :
    ∃ (ρ : LTensor → Nat) (vars : List LTensor),
      fixvariables L formula2 = some (T.text ρ, textL ρ U, vars) ∧
      (vars.map LTensor.id).Nodup ∧
      (∀ l ∈ leavesL ([T] ++ U), newIndex L.symb ≤ ρ l.1 ∧ ∃ l' ∈ leavesL ([T] ++ U), l'.1 = l.1 ∧
        vars[ρ l.1 - newIndex L.symb]? = some (padTo L.nbatchdims l.1 l'.2.2)) ∧
      (∀ k < vars.length, ∃ l ∈ leavesL ([T] ++ U), ρ l.1 = newIndex L.symb + k) := by
  obtain ⟨s, ρ, e, h⟩ := fixLoop_inv (nb := L.nbatchdims) hp hc hl hd hid L.tensors [] rfl
    ⟨L.formula, formula2, [], newIndex L.symb⟩ LTensor.id
    ⟨by simp [h1, piecesL], by simp [h2], by simp, by simp, by simp, by simp, fun l _ => .inl ⟨rfl, by simp⟩,
      by simp⟩
  refine ⟨ρ, s.vars, ?_, h.nodup, ?_, h.used⟩
  · rw [fixvariables, e, Option.map_some, h.f, h.f2, replace_symb _ (piecesL_good ρ _ (fun T' h => hp T' (by simp_all))),
      replace_symb _ (piecesL_good ρ _ (fun T' h => hp T' (by simp_all))), textL_eq, text_eq]
    simp [piecesL]
  · intro l hll
    rcases h.lab l hll with ⟨_, h2⟩ | h2
    · exact absurd (hl l hll) h2
    · exact h2

theorem lt_newIndex (symb : List (Nat × Nat × Nat)) (s : Nat) (h : s ∈ symb.map (fun v => v.1)) :
    s < newIndex symb := by
  unfold newIndex
  have hm : ∀ (l : List Nat) (a : Nat), a ≤ l.foldl max a ∧ ∀ x ∈ l, x ≤ l.foldl max a := by
    intro l
    induction l with
    | nil => simp
    | cons y l ih =>
      intro a
      simp only [List.foldl_cons, List.mem_cons, forall_eq_or_imp]
      have := (ih (max a y)).1
      exact ⟨by omega, by omega, (ih (max a y)).2⟩
  have := (hm (symb.map (fun v => v.1)) 0).2 s h
  rw [if_neg (by rintro rfl; simp at h)]
  omega

end Verif.Lazy
