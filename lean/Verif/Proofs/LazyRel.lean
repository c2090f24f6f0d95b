import Verif.Proofs.LazyEval

/-! The expression of a lazy tensor. -/

namespace Verif.Lazy
open Alias (Str strip)
open Spec (LExpr LTree PlainText)

/-- The lazy tensor `L` stands for the expression `T`. -/
structure Rel (L : LazyT) (T : LTree LTensor) : Prop where
  formula : L.formula = render (pieces LTensor.id T)
  mem : ∀ l ∈ T.leaves, l.1 ∈ L.tensors
  cat : ∀ l ∈ T.leaves, l.2.2 < 3
  typ : ∀ l ∈ T.leaves, l.2.1 = l.1.shape.getLastD 1 ∧ l.2.2 = l.1.cat
  lists : ∀ a ∈ L.tensors, a.isList → a.cat = 2
  plain : PlainTree T
  symb : ∀ s ∈ T.symbs, s ∈ L.symb.map (fun v => v.1)

/-- What a view keeps. -/
def core (a : LTensor) : Nat × List Nat × Bool := (a.src, a.shape, a.isList)

theorem core_viewOf (fresh : Nat → Nat) (k : Nat) (a : LTensor) : core (viewOf fresh k a) = core a := by
  unfold viewOf core
  split_ifs <;> rfl

theorem cat_of_core {T T' : LTree LTensor} (h : T'.map core = T.map core) (hc : ∀ l ∈ T.leaves, l.2.2 < 3) :
    ∀ l ∈ T'.leaves, l.2.2 < 3 := by
  intro l hl
  have e := congrArg LTree.leaves h
  rw [leaves_map, leaves_map] at e
  have : (core l.1, l.2.1, l.2.2) ∈ T.leaves.map (fun l => (core l.1, l.2.1, l.2.2)) := by
    rw [← e]
    exact List.mem_map.2 ⟨l, hl, rfl⟩
  obtain ⟨l', hl', e'⟩ := List.mem_map.1 this
  simp only [Prod.mk.injEq] at e'
  rw [← e'.2.2]
  exact hc l' hl'

theorem src_of_core {T T' : LTree LTensor} (h : T'.map core = T.map core) :
    T'.map LTensor.src = T.map LTensor.src := by
  have := congrArg (LTree.map Prod.fst) h
  rwa [map_map, map_map] at this

theorem pieces_digit (ρ : LTensor → Nat) (T : LTree LTensor) (sym : Bool) (a b : Nat) (c : Str)
    (h : Piece.ref sym a b c ∈ pieces ρ T) : ∀ u ∈ c, u.isDigit := by
  induction T with
  | leaf x d k =>
    simp only [pieces, List.mem_singleton, Piece.ref.injEq] at h
    rw [h.2.2.2]
    exact fun _ => isDigit_num
  | symb i d k =>
    simp only [pieces, List.mem_singleton, Piece.ref.injEq] at h
    rw [h.2.2.2]
    exact fun _ => isDigit_num
  | const s => simp [pieces] at h
  | un p q x ihx =>
    simp only [pieces, List.mem_cons, List.mem_append, List.not_mem_nil, or_false, reduceCtorEq, false_or] at h
    exact ihx h
  | bin p m q x y ihx ihy =>
    simp only [pieces, List.mem_cons, List.mem_append, List.not_mem_nil, or_false, reduceCtorEq, false_or] at h
    rcases h with h | h
    · exact ihx h
    · exact ihy h
  | ter p m n q x y z ihx ihy ihz =>
    simp only [pieces, List.mem_cons, List.mem_append, List.not_mem_nil, or_false, reduceCtorEq, false_or] at h
    rcases h with h | h | h
    · exact ihx h
    · exact ihy h
    · exact ihz h

theorem swapCat_two : LTree.swapCat 2 = 2 := rfl

theorem dim_of_core {T T' : LTree LTensor} (h : T'.map core = T.map core)
    (hd : ∀ l ∈ T.leaves, l.2.1 = l.1.shape.getLastD 1) : ∀ l ∈ T'.leaves, l.2.1 = l.1.shape.getLastD 1 := by
  intro l hl
  have e := congrArg LTree.leaves h
  rw [leaves_map, leaves_map] at e
  have : (core l.1, l.2.1, l.2.2) ∈ T.leaves.map (fun l => (core l.1, l.2.1, l.2.2)) := by
    rw [← e]
    exact List.mem_map.2 ⟨l, hl, rfl⟩
  obtain ⟨l', hl', e'⟩ := List.mem_map.1 this
  simp only [Prod.mk.injEq, core] at e'
  rw [← e'.2.1, hd l' hl', e'.1.2.1]

theorem rename_loop (fresh : Nat → Nat) (xs : List LTensor) (k : Nat) (D : List LTensor) (T : LTree LTensor)
    (hp : PlainTree T)
    (hl : ∀ l ∈ T.leaves, (l.1 ∈ D ∧ l.2.2 = l.1.cat) ∨ (l.1 ∈ xs ∧ l.2.2 = LTree.swapCat l.1.cat))
    (hd : Distinct (D ++ xs)) (hli : ∀ a ∈ D ++ xs, a.isList → a.cat = 2)
    (hD : ∀ a ∈ D, a.isList ∨ ∀ b ∈ xs, a.id ≠ b.id)
    (hf : ∀ i < xs.length, ∀ a ∈ D ++ xs, fresh (i + k) ≠ a.id)
    (hinj : ∀ i < xs.length, ∀ i' < xs.length, fresh (i + k) = fresh (i' + k) → i = i')
    (hs : ∀ a ∈ xs, ∀ s ∈ T.symbs, s ≠ a.id) :
    ∃ T', renameIds fresh k xs (render (pieces LTensor.id T)) = render (pieces LTensor.id T') ∧
      T'.map core = T.map core ∧ PlainTree T' ∧ T'.symbs = T.symbs ∧
      ∀ l ∈ T'.leaves, l.1 ∈ D ++ xs.mapIdx (fun i => viewOf fresh (i + k)) ∧ l.2.2 = l.1.cat := by
  induction xs generalizing k D T with
  | nil =>
    refine ⟨T, rfl, rfl, hp, rfl, ?_⟩
    intro l hll
    rcases hl l hll with h | h
    · simpa using h
    · simp at h
  | cons x xs ih =>
    have hmi : (x :: xs).mapIdx (fun i => viewOf fresh (i + k)) =
        viewOf fresh k x :: xs.mapIdx (fun i => viewOf fresh (i + (k + 1))) := by
      rw [List.mapIdx_cons]
      simp only [Nat.zero_add]
      congr 2
      funext i
      rw [Nat.add_right_comm, Nat.add_assoc]
    rw [hmi]
    -- the expression after this iteration
    let g : LTensor → LTensor := fun a => if a.id = x.id then viewOf fresh k x else a
    have hgx : ∀ l ∈ T.leaves, l.1.id = x.id → l.1 = x ∧ l.2.2 = (viewOf fresh k x).cat := by
      intro l h e
      have e' : l.1 = x := by
        refine hd _ ?_ _ (by simp) e
        rw [List.mem_append]
        exact (hl l h).imp And.left And.left
      refine ⟨e', ?_⟩
      have hlx : x.isList → x.cat = 2 := hli x (by simp)
      unfold viewOf
      rcases hl l h with ⟨h1, h2⟩ | ⟨h1, h2⟩
      · have : x.isList = true := by
          rcases hD l.1 h1 with h3 | h3
          · rwa [e'] at h3
          · exact absurd e (h3 x (by simp))
        rw [if_pos this, h2, e']
      · split_ifs with hlist
        · rw [h2, e', hlx hlist, swapCat_two]
        · rw [h2, e']
    have hcore : (T.map g).map core = T.map core := by
      rw [map_map]
      refine map_congr T (fun l h => ?_)
      simp only [Function.comp, g]
      split_ifs with e
      · rw [core_viewOf, (hgx l h e).1]
      · rfl
    have hform : (if x.isList then render (pieces LTensor.id T)
        else subAll (matchId x.id (fresh k)) 0 (render (pieces LTensor.id T))) =
        render (pieces LTensor.id (T.map g)) := by
      split_ifs with hli
      · rw [pieces_map]
        congr 1
        refine pieces_congr T (fun l h => ?_)
        simp only [Function.comp, g]
        split_ifs with e
        · rw [e, viewOf, if_pos hli]
        · rfl
      · rw [subAll_matchId _ (pieces_good _ T hp) (pieces_digit _ T),
          pieces_mapId _ _ _ T (hs x (by simp)), pieces_map]
        congr 2
        funext a
        simp only [Function.comp, g]
        split_ifs with e
        · simp [viewOf, hli]
        · rfl
    have hf0 : ∀ a ∈ D ++ x :: xs, fresh k ≠ a.id := by
      intro a ha
      simpa using hf 0 (by simp) a ha
    have hview : viewOf fresh k x = x ∨ (viewOf fresh k x).id = fresh k := by
      unfold viewOf
      split_ifs
      · exact .inl rfl
      · exact .inr rfl
    obtain ⟨T', h1, h2, h3, h4, h5⟩ := ih (k + 1) (D ++ [viewOf fresh k x]) (T.map g)
      ((plainTree_map g T).2 hp) (by
        intro l h
        rw [leaves_map] at h
        obtain ⟨l', hl', rfl⟩ := List.mem_map.1 h
        simp only [g]
        split_ifs with e
        · exact .inl ⟨by simp, (hgx l' hl' e).2⟩
        · rcases hl l' hl' with ⟨h1, h2⟩ | ⟨h1, h2⟩
          · exact .inl ⟨by simp [h1], h2⟩
          · refine .inr ⟨?_, h2⟩
            rcases List.mem_cons.1 h1 with h1 | h1
            · rw [h1] at e
              exact absurd rfl e
            · exact h1) (by
        intro a ha b hb hab
        have key : ∀ c, c ∈ D ++ [viewOf fresh k x] ++ xs → c ∈ D ++ x :: xs ∨ c = viewOf fresh k x ∧ c.id = fresh k := by
          intro c hc
          simp only [List.mem_append, List.mem_cons, List.not_mem_nil, or_false] at hc ⊢
          rcases hc with (hc | hc) | hc
          · exact .inl (.inl hc)
          · rcases hview with h | h
            · exact .inl (.inr (.inl (hc.trans h)))
            · exact .inr ⟨hc, by rw [hc, h]⟩
          · exact .inl (.inr (.inr hc))
        rcases key a ha with h1 | ⟨h1, h1'⟩ <;> rcases key b hb with h2 | ⟨h2, h2'⟩
        · exact hd a h1 b h2 hab
        · exact absurd (h2'.symm.trans hab.symm) (hf0 a h1)
        · exact absurd (h1'.symm.trans hab) (hf0 b h2)
        · rw [h1, h2]) (by
        intro a ha hal
        simp only [List.mem_append, List.mem_cons, List.not_mem_nil, or_false] at ha
        rcases ha with (ha | ha) | ha
        · exact hli a (by simp [ha]) hal
        · rw [ha] at hal ⊢
          unfold viewOf at hal ⊢
          split_ifs at hal ⊢ with h
          · exact hli x (by simp) hal
          · exact absurd hal h
        · exact hli a (by simp [ha]) hal) (by
        intro a ha
        rw [List.mem_append, List.mem_singleton] at ha
        rcases ha with ha | ha
        · exact (hD a ha).imp id (fun h b hb => h b (by simp [hb]))
        · rw [ha]
          unfold viewOf
          split_ifs with h
          · exact .inl h
          · exact .inr (fun b hb => hf0 b (by simp [hb]))) (by
        intro i hi a ha
        have hi' : i + 1 < (x :: xs).length := by simpa using hi
        have e : i + (k + 1) = i + 1 + k := by omega
        rw [e]
        simp only [List.mem_append, List.mem_cons, List.not_mem_nil, or_false] at ha
        rcases ha with (ha | ha) | ha
        · exact hf (i + 1) hi' a (by simp [ha])
        · rcases hview with h | h
          · rw [ha, h]
            exact hf (i + 1) hi' x (by simp)
          · rw [ha, h]
            intro e2
            have := hinj (i + 1) hi' 0 (by simp) (by simpa using e2)
            omega
        · exact hf (i + 1) hi' a (by simp [ha])) (by
        intro i hi i' hi' e
        have := hinj (i + 1) (by simpa using hi) (i' + 1) (by simpa using hi') (by
          rwa [show i + 1 + k = i + (k + 1) by omega, show i' + 1 + k = i' + (k + 1) by omega])
        omega) (by
        rw [symbs_map]
        exact fun a ha => hs a (by simp [ha]))
    refine ⟨T', ?_, h2.trans hcore, h3, h4.trans (symbs_map g T), ?_⟩
    · rw [renameIds, hform, h1]
    · intro l h
      have := h5 l h
      simp only [List.mem_append, List.mem_cons, List.not_mem_nil, or_false] at this ⊢
      refine ⟨?_, this.2⟩
      rcases this.1 with (h | h) | h
      · exact .inl h
      · exact .inr (.inl h)
      · exact .inr (.inr h)

theorem transpose_rel {fresh : Nat → Nat} {L : LazyT} {T : LTree LTensor} (h : Rel L T)
    (hd : Distinct L.tensors) (hf : ∀ k < L.tensors.length, ∀ a ∈ L.tensors, fresh k ≠ a.id)
    (hinj : ∀ k < L.tensors.length, ∀ k' < L.tensors.length, fresh k = fresh k' → k = k')
    (hs : ∀ a ∈ L.tensors, ∀ s ∈ T.symbs, s ≠ a.id) :
    ∃ T', Rel (transpose fresh L) T' ∧ T'.map core = (T.map core).swap := by
  have hp := (plainTree_swap T).2 h.plain
  obtain ⟨T', h1, h2, h3, h4, h5⟩ := rename_loop fresh L.tensors 0 [] T.swap hp (by
      intro l hl
      rw [leaves_swap] at hl
      obtain ⟨l', hl', rfl⟩ := List.mem_map.1 hl
      exact .inr ⟨h.mem l' hl', by simp only [(h.typ l' hl').2]⟩) (by simpa using hd) (by simpa using h.lists)
    (by simp) (by simpa using hf) (by simpa using hinj) (by rwa [symbs_swap])
  refine ⟨T', ⟨?_, ?_, ?_, ?_, ?_, h3, ?_⟩, h2.trans (map_swap _ _)⟩
  · simp only [transpose]
    rw [h.formula, swapCats_render _ (pieces_good _ T h.plain), pieces_swap, h1]
  · intro l hl
    have := (h5 l hl).1
    simp only [List.nil_append, Nat.add_zero] at this
    exact this
  · refine cat_of_core h2 ?_
    intro l hl
    rw [leaves_swap] at hl
    obtain ⟨l', hl', rfl⟩ := List.mem_map.1 hl
    have := h.cat l' hl'
    simp only [LTree.swapCat]
    split_ifs <;> omega
  · intro l hl
    refine ⟨dim_of_core h2 ?_ l hl, (h5 l hl).2⟩
    intro l hl
    rw [leaves_swap] at hl
    obtain ⟨l', hl', rfl⟩ := List.mem_map.1 hl
    exact (h.typ l' hl').1
  · intro a ha hal
    simp only [transpose, List.mem_mapIdx] at ha
    obtain ⟨k, hk, rfl⟩ := ha
    unfold viewOf at hal ⊢
    split_ifs at hal ⊢ with h'
    · exact h.lists _ (List.getElem_mem hk) hal
    · exact absurd hal h'
  · rw [h4, symbs_swap]
    exact h.symb

theorem closing_eq (sep : Str) (opts : List Str) : closing sep opts = Spec.optText sep opts := rfl

theorem mkVar_rel (id src : Nat) (shape : List Nat) (cat : Nat) (bd : Option (List Nat)) (hc : cat < 3) :
    Rel (mkVar id src shape cat bd) (.leaf ⟨id, src, shape, false, cat⟩ (shape.getLastD 1) cat) := by
  refine ⟨?_, ?_, ?_, ?_, ?_, trivial, ?_⟩
  · simp [mkVar, pieces, render, Piece.str, headOf]
  · simp [mkVar, LTree.leaves]
  · simpa [LTree.leaves] using hc
  · intro l hl
    simp only [LTree.leaves, List.mem_singleton] at hl
    rw [hl]
    exact ⟨rfl, rfl⟩
  · simp [mkVar]
  · simp [LTree.symbs]

theorem mkArray_rel {id src : Nat} {shape : List Nat} {axis : Option Nat} {L : LazyT}
    (h : mkArray id src shape axis = some L) :
    ∃ T, Rel L T ∧ T.map LTensor.src = (LExpr.array id src shape axis).tree := by
  have key : ∀ sh cat bd, L = mkVar id src sh cat bd → cat < 3 → sh.getLastD 1 = shape.getLastD 1 →
      cat = Spec.arrayCat shape axis →
      ∃ T, Rel L T ∧ T.map LTensor.src = (LExpr.array id src shape axis).tree := by
    intro sh cat bd e hc h1 h2
    subst e
    refine ⟨_, mkVar_rel id src sh cat bd hc, ?_⟩
    simp only [LTree.map, LExpr.tree, h1, h2]
  unfold mkArray at h
  unfold Spec.arrayCat at key
  by_cases h0 : shape = []
  · subst h0
    rw [if_pos rfl] at h
    split_ifs at h with ha
    simp only [Option.some.injEq] at h
    refine key [1] 2 none h.symm (by omega) rfl ?_
    cases axis with
    | none => rfl
    | some a => simp at ha; simp [ha]
  · rw [if_neg h0] at h
    simp only at h
    by_cases h3 : 3 ≤ shape.length
    · rw [if_pos h3] at h
      rw [if_neg (by omega)] at key
      have hlast : ∀ l : List Nat, (l ++ [shape.getLastD 1]).getLastD 1 = shape.getLastD 1 := by
        intro l
        rw [List.getLastD_eq_getLast?, List.getLast?_append]
        simp
      have hlast2 : ∀ (l : List Nat) (n : Nat), (l ++ [n, shape.getLastD 1]).getLastD 1 = shape.getLastD 1 := by
        intro l n
        rw [List.getLastD_eq_getLast?, List.getLast?_append]
        simp
      by_cases h1 : axis = none
      · simp only [h1, ne_eq, not_true_eq_false, if_false] at h
        by_cases h2 : shape.getD (shape.length - 3) 0 = 1
        · rw [if_neg (by simpa using h2)] at key
          by_cases h4 : shape.getD (shape.length - 2) 0 = 1
          · rw [if_neg (by simpa using h4)] at key
            rw [if_pos h2, if_pos h4] at h
            simp only [Option.some.injEq] at h
            exact key _ 2 _ h.symm (by omega) (hlast _) rfl
          · rw [if_pos h4] at key
            rw [if_pos h2, if_neg h4] at h
            simp only [Option.some.injEq] at h
            exact key _ 1 _ h.symm (by omega) (hlast2 _ _) rfl
        · rw [if_pos h2] at key
          rw [if_neg h2] at h
          by_cases h4 : shape.getD (shape.length - 2) 0 = 1
          · rw [if_pos h4] at h
            simp only [Option.some.injEq] at h
            exact key _ 0 _ h.symm (by omega) (hlast2 _ _) rfl
          · rw [if_neg h4] at h
            cases h
      · simp [h1] at h
    · rw [if_neg h3] at h
      rw [if_pos (by omega)] at key
      split_ifs at h with h1 h2 h4 h5
      · simp only [Option.some.injEq] at h
        exact key _ 0 _ h.symm (by omega) rfl (by simp [h2])
      · simp only [Option.some.injEq] at h
        exact key _ 1 _ h.symm (by omega) rfl (by simp [h4])
      · simp only [Option.some.injEq] at h
        refine key _ 2 _ h.symm (by omega) rfl ?_
        cases axis with
        | none => rfl
        | some a => simp at h5; simp [h5]

theorem plain_int {s : Str} (h : PlainText s) : PlainText ("IntCst(".toList ++ s ++ [')']) := by
  refine plain_append (plain_append (plainText_of_no_V ?_) h) (plainText_of_no_V ?_)
  · decide +kernel
  · decide

theorem render_const (t : Str) : render (pieces LTensor.id (.const t)) = t := by
  simp [pieces, render, Piece.str]

theorem mkInt_rel {s : Str} (h : PlainText s) :
    Rel (mkInt s) (.const ("IntCst(".toList ++ s ++ [')'])) := by
  refine ⟨?_, ?_, ?_, ?_, ?_, plain_int h, ?_⟩
  · exact (render_const _).symm
  · exact fun l hl => absurd hl List.not_mem_nil
  · exact fun l hl => absurd hl List.not_mem_nil
  · exact fun l hl => absurd hl List.not_mem_nil
  · exact fun l hl => absurd hl List.not_mem_nil
  · exact fun l hl => absurd hl List.not_mem_nil

theorem mkInt_tree (s : Str) : (LTree.const ("IntCst(".toList ++ s ++ [')'])).map LTensor.src = (LExpr.int s).tree := by
  rw [LTree.map, LExpr.tree]

theorem join_tensors {x y res : LazyT} (h : join x y = some res) :
    res.tensors = x.tensors ++ y.tensors ∧ res.symb = x.symb ++ y.symb := by
  unfold join at h
  simp only [Option.bind_eq_bind, Option.bind_eq_some_iff] at h
  obtain ⟨_, _, _, _, _, _, h⟩ := h
  simp only [Option.pure_def, Option.some.injEq] at h
  rw [← h]
  exact ⟨rfl, rfl⟩

theorem eval_rel (e : LExpr) (he : Ok e) (L : LazyT) (h : eval e = some L) :
    ∃ T, Rel L T ∧ T.map LTensor.src = e.tree := by
  induction e generalizing L with
  | array id src shape axis => exact mkArray_rel h
  | params id src len =>
    simp only [eval, Option.some.injEq] at h
    subst h
    refine ⟨.leaf ⟨id, src, [len], true, 2⟩ len 2, ⟨?_, ?_, ?_, ?_, ?_, trivial, ?_⟩, rfl⟩
    · simp [mkParams, pieces, render, Piece.str, headOf]
    · simp [mkParams, LTree.leaves]
    · simp [LTree.leaves]
    · simp [LTree.leaves]
    · simp [mkParams]
    · simp [LTree.symbs]
  | int s =>
    simp only [eval, Option.some.injEq] at h
    exact ⟨_, h ▸ mkInt_rel he, mkInt_tree s⟩
  | symb i d c =>
    simp only [eval, Option.some.injEq] at h
    subst h
    refine ⟨.symb i d c, ⟨?_, ?_, ?_, ?_, ?_, trivial, ?_⟩, rfl⟩
    · simp [mkSymb, pieces, render, Piece.str, headOf]
    · simp [LTree.leaves]
    · simp [LTree.leaves]
    · simp [LTree.leaves]
    · simp [mkSymb]
    · simp [LTree.symbs, mkSymb]
  | unary op dimres opts x ih =>
    obtain ⟨h1, h2, h3⟩ := he
    simp only [eval, Option.map_eq_some_iff] at h
    obtain ⟨Lx, hx, rfl⟩ := h
    obtain ⟨T, hT, e⟩ := ih h3 Lx hx
    refine ⟨.un (op ++ ['(']) (Spec.optText [','] opts) T, ⟨?_, hT.mem, hT.cat, hT.typ, hT.lists, ?_, hT.symb⟩, ?_⟩
    · simp [unary, pieces, render, Piece.str, hT.formula, closing_eq]
    · exact ⟨plain_append h1 (plainText_of_no_V (by decide)), plain_closing (plainText_of_no_V (by decide)) h2,
        hT.plain⟩
    · simp [LTree.map, LExpr.tree, e]
  | binary op isOp dimres check opt rversion x y ihx ihy =>
    obtain ⟨h1, h2, h3, h4⟩ := he
    simp only [eval, Option.bind_eq_some_iff] at h
    obtain ⟨Lx, hx, Ly, hy, h⟩ := h
    obtain ⟨Tx, hTx, ex⟩ := ihx h3 Lx hx
    obtain ⟨Ty, hTy, ey⟩ := ihy h4 Ly hy
    unfold binary at h
    by_cases hck : ¬ checkDims check Lx.ndim Ly.ndim = true
    · simp [hck] at h
    rw [if_neg hck, Option.map_eq_some_iff] at h
    obtain ⟨res, hj, h⟩ := h
    subst h
    obtain ⟨j1, j2⟩ := join_tensors hj
    have sp : PlainText [' '] := plainText_of_no_V (by decide)
    have hopt : ∀ o ∈ opt.toList, PlainText o := fun o ho => h2 o (by simpa using ho)
    -- the operands in the order in which they are written
    have main : ∀ (Ll Lr : LazyT) (Tl Tr : LTree LTensor), Rel Ll Tl → Rel Lr Tr →
        (∀ a, a ∈ Ll.tensors ++ Lr.tensors → a ∈ Lx.tensors ++ Ly.tensors) →
        (∀ a, a ∈ Ll.symb ++ Lr.symb → a ∈ Lx.symb ++ Ly.symb) →
        ∃ T, Rel { res with
            ndim := dimOr dimres (max Lx.ndim Ly.ndim)
            formula := if isOp then '(' :: Ll.formula ++ ' ' :: op ++ ' ' :: Lr.formula ++ [')']
              else op ++ '(' :: Ll.formula ++ ',' :: ' ' :: Lr.formula ++ closing [',', ' '] opt.toList } T ∧
          T.map LTensor.src =
            (if isOp then .bin ['('] (' ' :: op ++ [' ']) [')'] (Tl.map LTensor.src) (Tr.map LTensor.src)
             else .bin (op ++ ['(']) [',', ' '] (Spec.optText [',', ' '] opt.toList) (Tl.map LTensor.src)
               (Tr.map LTensor.src)) := by
      intro Ll Lr Tl Tr hl hr hmem hsy
      have hmem' : ∀ l, l ∈ Tl.leaves ++ Tr.leaves → l.1 ∈ res.tensors := by
        intro l hl'
        rw [j1]
        refine hmem _ ?_
        simp only [List.mem_append] at hl' ⊢
        exact hl'.imp (hl.mem l) (hr.mem l)
      have hcat : ∀ l, l ∈ Tl.leaves ++ Tr.leaves → l.2.2 < 3 := by
        intro l hl'
        simp only [List.mem_append] at hl'
        exact hl'.elim (hl.cat l) (hr.cat l)
      have htyp : ∀ l, l ∈ Tl.leaves ++ Tr.leaves → l.2.1 = l.1.shape.getLastD 1 ∧ l.2.2 = l.1.cat := by
        intro l hl'
        simp only [List.mem_append] at hl'
        exact hl'.elim (hl.typ l) (hr.typ l)
      have hlis : ∀ a ∈ res.tensors, a.isList → a.cat = 2 := by
        intro a ha
        rw [j1, List.mem_append] at ha
        exact ha.elim (hTx.lists a) (hTy.lists a)
      have hsy' : ∀ s, s ∈ Tl.symbs ++ Tr.symbs → s ∈ res.symb.map (fun v => v.1) := by
        intro s hs
        have : ∃ v, v ∈ Ll.symb ++ Lr.symb ∧ v.1 = s := by
          simp only [List.mem_append] at hs ⊢
          rcases hs with hs | hs
          · obtain ⟨v, hv, e⟩ := List.mem_map.1 (hl.symb s hs)
            exact ⟨v, .inl hv, e⟩
          · obtain ⟨v, hv, e⟩ := List.mem_map.1 (hr.symb s hs)
            exact ⟨v, .inr hv, e⟩
        obtain ⟨v, hv, e⟩ := this
        rw [j2]
        exact List.mem_map.2 ⟨v, hsy v hv, e⟩
      cases isOp with
      | true =>
        refine ⟨.bin ['('] (' ' :: op ++ [' ']) [')'] Tl Tr, ⟨?_, hmem', hcat, htyp, hlis, ?_, hsy'⟩, ?_⟩
        · simp [pieces, render, Piece.str, hl.formula, hr.formula]
        · exact ⟨plainText_of_no_V (by decide), plain_append (plain_append (s := [' ']) sp h1) sp,
            plainText_of_no_V (by decide), hl.plain, hr.plain⟩
        · simp [LTree.map]
      | false =>
        refine ⟨.bin (op ++ ['(']) [',', ' '] (Spec.optText [',', ' '] opt.toList) Tl Tr,
          ⟨?_, hmem', hcat, htyp, hlis, ?_, hsy'⟩, ?_⟩
        · simp [pieces, render, Piece.str, hl.formula, hr.formula, closing_eq]
        · exact ⟨plain_append h1 (plainText_of_no_V (by decide)), plainText_of_no_V (by decide),
            plain_closing (plainText_of_no_V (by decide)) hopt, hl.plain, hr.plain⟩
        · simp [LTree.map]
    cases rversion with
    | false =>
      obtain ⟨T, hT, e⟩ := main Lx Ly Tx Ty hTx hTy (fun _ h => h) (fun _ h => h)
      exact ⟨T, hT, by rw [e, ex, ey]; simp [LExpr.tree]⟩
    | true =>
      obtain ⟨T, hT, e⟩ := main Ly Lx Ty Tx hTy hTx
        (fun _ h => by simp only [List.mem_append] at h ⊢; exact h.symm)
        (fun _ h => by simp only [List.mem_append] at h ⊢; exact h.symm)
      exact ⟨T, hT, by rw [e, ex, ey]; simp [LExpr.tree]⟩
  | deriv op dimres check v x g ihv ihx ihg =>
    obtain ⟨h1, h2, h3, h4, h5⟩ := he
    simp only [eval, Option.bind_eq_some_iff] at h
    obtain ⟨Lv, hv, Lx, hx, Le, he, h⟩ := h
    obtain ⟨Tv, hTv, ev⟩ := ihv h2 Lv hv
    obtain ⟨Tx, hTx, ex⟩ := ihx h3 Lx hx
    obtain ⟨Te, hTe, ee⟩ := ihg h4 Le he
    obtain ⟨h5, h6⟩ := h5 Lv Lx Le hv hx he
    unfold deriv at h
    simp only at h
    split_ifs at h with hck
    simp only [Option.map_eq_some_iff] at h
    obtain ⟨res, hj, rfl⟩ := h
    obtain ⟨j1, j2⟩ := join_tensors hj
    refine ⟨.ter (op ++ ['(']) [',', ' '] [',', ' '] [')'] Tx Tv Te, ⟨?_, ?_, ?_, ?_, ?_, ?_, ?_⟩, ?_⟩
    · simp [pieces, render, Piece.str, hTx.formula, hTv.formula, hTe.formula]
    · intro l hl
      simp only [LTree.leaves, List.mem_append] at hl
      rw [j1]
      rcases hl with (hl | hl) | hl
      · exact List.mem_append_left _ (hTx.mem l hl)
      · exact h5 _ (hTv.mem l hl)
      · exact List.mem_append_right _ (hTe.mem l hl)
    · intro l hl
      simp only [LTree.leaves, List.mem_append] at hl
      rcases hl with (hl | hl) | hl
      · exact hTx.cat l hl
      · exact hTv.cat l hl
      · exact hTe.cat l hl
    · intro l hl
      simp only [LTree.leaves, List.mem_append] at hl
      rcases hl with (hl | hl) | hl
      · exact hTx.typ l hl
      · exact hTv.typ l hl
      · exact hTe.typ l hl
    · intro a ha
      simp only [j1, List.mem_append] at ha
      exact ha.elim (hTx.lists a) (hTe.lists a)
    · exact ⟨plain_append h1 (plainText_of_no_V (by decide)), plainText_of_no_V (by decide),
        plainText_of_no_V (by decide), plainText_of_no_V (by decide), hTx.plain, hTv.plain, hTe.plain⟩
    · intro s hs
      simp only [LTree.symbs, List.mem_append] at hs
      simp only [j2]
      rcases hs with (hs | hs) | hs
      · rw [List.map_append]
        exact List.mem_append_left _ (hTx.symb s hs)
      · obtain ⟨w, hw, e⟩ := List.mem_map.1 (hTv.symb s hs)
        exact List.mem_map.2 ⟨w, h6 w hw, e⟩
      · rw [List.map_append]
        exact List.mem_append_right _ (hTe.symb s hs)
    · simp [LTree.map, LExpr.tree, ex, ev, ee]
  | ternary op dimres check x y z ihx ihy ihz =>
    obtain ⟨h1, h2, h3, h4⟩ := he
    simp only [eval, Option.bind_eq_some_iff] at h
    obtain ⟨Lx, hx, Ly, hy, Lz, hz, h⟩ := h
    obtain ⟨Tx, hTx, ex⟩ := ihx h2 Lx hx
    obtain ⟨Ty, hTy, ey⟩ := ihy h3 Ly hy
    obtain ⟨Tz, hTz, ez⟩ := ihz h4 Lz hz
    unfold ternary at h
    simp only at h
    split at h
    · simp only [Option.map_eq_some_iff, Option.bind_eq_some_iff] at h
      obtain ⟨res, ⟨res', hj', hj⟩, rfl⟩ := h
      obtain ⟨j1, j2⟩ := join_tensors hj
      obtain ⟨j1', j2'⟩ := join_tensors hj'
      refine ⟨.ter (op ++ ['(']) [',', ' '] [',', ' '] [')'] Tx Ty Tz, ⟨?_, ?_, ?_, ?_, ?_, ?_, ?_⟩, ?_⟩
      · simp [pieces, render, Piece.str, hTx.formula, hTy.formula, hTz.formula]
      · intro l hl
        simp only [LTree.leaves, List.mem_append] at hl
        simp only [j1, j1', List.mem_append]
        rcases hl with (hl | hl) | hl
        · exact .inl (hTx.mem l hl)
        · exact .inr (.inl (hTy.mem l hl))
        · exact .inr (.inr (hTz.mem l hl))
      · intro l hl
        simp only [LTree.leaves, List.mem_append] at hl
        rcases hl with (hl | hl) | hl
        · exact hTx.cat l hl
        · exact hTy.cat l hl
        · exact hTz.cat l hl
      · intro l hl
        simp only [LTree.leaves, List.mem_append] at hl
        rcases hl with (hl | hl) | hl
        · exact hTx.typ l hl
        · exact hTy.typ l hl
        · exact hTz.typ l hl
      · intro a ha
        simp only [j1, j1', List.mem_append] at ha
        rcases ha with ha | ha | ha
        · exact hTx.lists a ha
        · exact hTy.lists a ha
        · exact hTz.lists a ha
      · exact ⟨plain_append h1 (plainText_of_no_V (by decide)), plainText_of_no_V (by decide),
          plainText_of_no_V (by decide), plainText_of_no_V (by decide), hTx.plain, hTy.plain, hTz.plain⟩
      · intro s hs
        simp only [LTree.symbs, List.mem_append] at hs
        simp only [j2, j2', List.map_append, List.mem_append]
        rcases hs with (hs | hs) | hs
        · exact .inl (hTx.symb s hs)
        · exact .inr (.inl (hTy.symb s hs))
        · exact .inr (.inr (hTz.symb s hs))
      · simp [LTree.map, LExpr.tree, ex, ey, ez]
    · cases h
  | t fresh x ih =>
    obtain ⟨h1, h2⟩ := he
    simp only [eval, Option.map_eq_some_iff] at h
    obtain ⟨Lx, hx, rfl⟩ := h
    obtain ⟨T, hT, e⟩ := ih h1 Lx hx
    obtain ⟨h3, h4, h5, h6⟩ := h2 Lx hx
    obtain ⟨T', hT', e'⟩ := transpose_rel (fresh := fresh) hT h3 h4 h5 (by rwa [← symbs_map LTensor.src, e])
    refine ⟨T', hT', ?_⟩
    have := congrArg (LTree.map Prod.fst) e'
    rw [map_map, map_swap, map_map] at this
    rw [LExpr.tree, ← e]
    exact this

end Verif.Lazy
