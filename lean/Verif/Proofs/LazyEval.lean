import Verif.Proofs.LazyText

/-! The formula and the variables of a lazy tensor. -/

namespace Verif.Lazy
open Alias (Str strip)
open Spec (LExpr LTree PlainText)

/-- An identity belongs to one object. -/
def Distinct (vs : List LTensor) : Prop := ∀ x ∈ vs, ∀ y ∈ vs, x.id = y.id → x = y

/-- What is supposed of a program.

* The names of the operations and their additional arguments do not look like variables.
* An array declared as a parameter has at most one dimension.
* `grad` and `diff` differentiate with respect to a variable that occurs in one of their other arguments.
* When a lazy tensor is transposed, the objects that hold its data have distinct identities, the new views have
  new identities, and these identities are not indices of symbolic variables. -/
def Ok : LExpr → Prop
  | .array _ _ shape axis => axis = some 2 → shape.length ≤ 1
  | .params _ _ _ => True
  | .int s => PlainText s
  | .symb _ _ _ => True
  | .unary op _ opts x => PlainText op ∧ (∀ o ∈ opts, PlainText o) ∧ Ok x
  | .binary op _ _ _ opt _ x y => PlainText op ∧ (∀ o ∈ opt, PlainText o) ∧ Ok x ∧ Ok y
  | .deriv op _ _ v x e => PlainText op ∧ Ok v ∧ Ok x ∧ Ok e ∧
      ∀ Lv Lx Le, eval v = some Lv → eval x = some Lx → eval e = some Le →
        (∀ a ∈ Lv.tensors, a ∈ Lx.tensors ++ Le.tensors) ∧ ∀ s ∈ Lv.symb, s ∈ Lx.symb ++ Le.symb
  | .ternary op _ _ x y z => PlainText op ∧ Ok x ∧ Ok y ∧ Ok z
  | .t fresh x => Ok x ∧ ∀ L, eval x = some L → Distinct L.tensors ∧
      (∀ k < L.tensors.length, ∀ a ∈ L.tensors, fresh k ≠ a.id) ∧
      (∀ k < L.tensors.length, ∀ k' < L.tensors.length, fresh k = fresh k' → k = k') ∧
      ∀ a ∈ L.tensors, ∀ s ∈ x.tree.symbs, s ≠ a.id

/-! ### Plain texts -/

theorem plain_quiet_strip {s : Str} (h : PlainText s) : Quiet (strip s) := h

theorem plain_quiet {s : Str} (h : PlainText s) : Quiet s := by
  refine ⟨fun hi => h.1 ?_, fun hl => h.2 ?_⟩
  · have := hi.filter (fun c => decide (c ≠ ' '))
    simpa using this
  · obtain ⟨t, rfl⟩ := List.getLast?_eq_some_iff.1 hl
    simp

theorem Quiet.append {s t : Str} (hs : Quiet s) (ht : Quiet t) : Quiet (s ++ t) := by
  induction s with
  | nil => exact ht
  | cons c s ih =>
    have ih := ih hs.tail
    refine ⟨fun hi => ?_, fun hl => ?_⟩
    · rw [List.cons_append, List.infix_cons_iff] at hi
      rcases hi with h | h
      · exact hs.not_prefix t h
      · exact ih.1 h
    · rw [List.cons_append, List.getLast?_cons] at hl
      cases h : (s ++ t).getLast? with
      | some x =>
        rw [h] at hl
        simp only [Option.getD_some, Option.some.injEq] at hl
        exact ih.2 (by rw [h, hl])
      | none =>
        rw [h] at hl
        rw [List.getLast?_eq_none_iff, List.append_eq_nil_iff] at h
        obtain ⟨rfl, rfl⟩ := h
        exact hs.2 (by simpa using hl)

theorem plain_append {s t : Str} (hs : PlainText s) (ht : PlainText t) : PlainText (s ++ t) := by
  have : Quiet (strip (s ++ t)) := by
    unfold strip
    rw [List.filter_append]
    exact Quiet.append hs ht
  exact this

theorem plainText_of_no_V {s : Str} (h : ∀ c ∈ s, c ≠ 'V') : PlainText s := by
  have : Quiet (strip s) := quiet_of_no_V (fun c hc => h c (List.mem_of_mem_filter hc))
  exact this

theorem plain_closing {sep : Str} {opts : List Str} (hs : PlainText sep) (ho : ∀ o ∈ opts, PlainText o) :
    PlainText (Spec.optText sep opts) := by
  unfold Spec.optText
  refine plain_append ?_ (plainText_of_no_V (by decide))
  induction opts with
  | nil => exact plainText_of_no_V (by simp)
  | cons o os ih =>
    rw [List.flatMap_cons]
    exact plain_append (plain_append hs (ho o (by simp))) (ih (fun x hx => ho x (by simp [hx])))

/-- All the texts are plain. -/
def PlainTree {A : Type} : LTree A → Prop
  | .leaf _ _ _ => True
  | .symb _ _ _ => True
  | .const s => PlainText s
  | .un p q x => PlainText p ∧ PlainText q ∧ PlainTree x
  | .bin p m q x y => PlainText p ∧ PlainText m ∧ PlainText q ∧ PlainTree x ∧ PlainTree y
  | .ter p m n q x y z => PlainText p ∧ PlainText m ∧ PlainText n ∧ PlainText q ∧ PlainTree x ∧ PlainTree y ∧
      PlainTree z

/-! ### Pieces of an expression -/

/-- The pieces of the formula of an expression. -/
def pieces {A : Type} (ρ : A → Nat) : LTree A → List Piece
  | .leaf a d c => [.ref false (ρ a) d (num c)]
  | .symb i d c => [.ref true i d (num c)]
  | .const s => [.txt s]
  | .un p q x => .txt p :: (pieces ρ x ++ [.txt q])
  | .bin p m q x y => .txt p :: (pieces ρ x ++ .txt m :: (pieces ρ y ++ [.txt q]))
  | .ter p m n q x y z =>
    .txt p :: (pieces ρ x ++ .txt m :: (pieces ρ y ++ .txt n :: (pieces ρ z ++ [.txt q])))

variable {A B : Type}

theorem catText_num (c : Nat) : CatText (num c) := ⟨num_ne_nil c, .inl (fun _ hx => isDigit_num hx)⟩

theorem pieces_good (ρ : A → Nat) (T : LTree A) (h : PlainTree T) : ∀ p ∈ pieces ρ T, p.Good := by
  induction T with
  | leaf a d c =>
    intro p hp
    simp only [pieces, List.mem_singleton] at hp
    subst hp
    exact catText_num c
  | symb i d c =>
    intro p hp
    simp only [pieces, List.mem_singleton] at hp
    subst hp
    exact catText_num c
  | const s =>
    intro p hp
    simp only [pieces, List.mem_singleton] at hp
    subst hp
    exact plain_quiet h
  | un p q x ihx =>
    obtain ⟨h1, h2, h3⟩ := h
    intro r hr
    simp only [pieces, List.mem_cons, List.mem_append, List.not_mem_nil, or_false] at hr
    rcases hr with rfl | hr | rfl
    · exact plain_quiet h1
    · exact ihx h3 r hr
    · exact plain_quiet h2
  | bin p m q x y ihx ihy =>
    obtain ⟨h1, h2, h3, h4, h5⟩ := h
    intro r hr
    simp only [pieces, List.mem_cons, List.mem_append, List.not_mem_nil, or_false] at hr
    rcases hr with rfl | hr | rfl | hr | rfl
    · exact plain_quiet h1
    · exact ihx h4 r hr
    · exact plain_quiet h2
    · exact ihy h5 r hr
    · exact plain_quiet h3
  | ter p m n q x y z ihx ihy ihz =>
    obtain ⟨h1, h2, h3, h4, h5, h6, h7⟩ := h
    intro r hr
    simp only [pieces, List.mem_cons, List.mem_append, List.not_mem_nil, or_false] at hr
    rcases hr with rfl | hr | rfl | hr | rfl | hr | rfl
    · exact plain_quiet h1
    · exact ihx h5 r hr
    · exact plain_quiet h2
    · exact ihy h6 r hr
    · exact plain_quiet h3
    · exact ihz h7 r hr
    · exact plain_quiet h4

theorem text_eq (ρ : A → Nat) (T : LTree A) : T.text ρ = render ((pieces ρ T).map unsym) := by
  induction T with
  | leaf a d c => simp [pieces, LTree.text, render, unsym, Piece.str, formatVar, headOf, num]
  | symb i d c => simp [pieces, LTree.text, render, unsym, Piece.str, formatVar, headOf, num]
  | const s => simp [pieces, LTree.text, render, unsym, Piece.str]
  | un p q x ihx => simp [pieces, LTree.text, ihx, render, unsym, Piece.str]
  | bin p m q x y ihx ihy => simp [pieces, LTree.text, ihx, ihy, render, unsym, Piece.str]
  | ter p m n q x y z ihx ihy ihz => simp [pieces, LTree.text, ihx, ihy, ihz, render, unsym, Piece.str]

theorem pieces_tag (ρ : A → Nat) (x y : Nat) (T : LTree A) :
    (pieces ρ T).map (mapTag x y) = pieces (fun a => if ρ a = x then y else ρ a) T := by
  induction T with
  | leaf a d c => simp [pieces, mapTag]
  | symb i d c => simp [pieces, mapTag]
  | const s => simp [pieces, mapTag]
  | un p q x ihx => simp [pieces, mapTag, ihx]
  | bin p m q x y ihx ihy => simp [pieces, mapTag, ihx, ihy]
  | ter p m n q x y z ihx ihy ihz => simp [pieces, mapTag, ihx, ihy, ihz]

theorem pieces_mapId (ρ : A → Nat) (x y : Nat) (T : LTree A) (hs : ∀ s ∈ T.symbs, s ≠ x) :
    (pieces ρ T).map (mapId x y) = pieces (fun a => if ρ a = x then y else ρ a) T := by
  induction T with
  | leaf a d c => simp [pieces, mapId]
  | symb i d c =>
    have := hs i (by simp [LTree.symbs])
    simp [pieces, mapId, this]
  | const s => simp [pieces, mapId]
  | un p q x ihx =>
    simp only [LTree.symbs] at hs
    simp [pieces, mapId, ihx hs]
  | bin p m q x y ihx ihy =>
    simp only [LTree.symbs, List.mem_append] at hs
    simp [pieces, mapId, ihx (fun s h => hs s (.inl h)), ihy (fun s h => hs s (.inr h))]
  | ter p m n q x y z ihx ihy ihz =>
    simp only [LTree.symbs, List.mem_append] at hs
    simp [pieces, mapId, ihx (fun s h => hs s (.inl (.inl h))), ihy (fun s h => hs s (.inl (.inr h))),
      ihz (fun s h => hs s (.inr h))]

theorem num_zero : num 0 = ['0'] := rfl
theorem num_one : num 1 = ['1'] := rfl

/-- The three substitutions of the categories. -/
def swapPiece (p : Piece) : Piece :=
  mapCat ['i'] ['1'] (mapCat ['1'] ['0'] (mapCat ['0'] ['i'] p))

theorem swapPiece_ref (sym : Bool) (a b c : Nat) :
    swapPiece (.ref sym a b (num c)) = .ref sym a b (num (LTree.swapCat c)) := by
  unfold swapPiece LTree.swapCat
  by_cases h0 : c = 0
  · subst h0; rfl
  · by_cases h1 : c = 1
    · subst h1; rfl
    · have e0 : num c ≠ ['0'] := fun h => h0 (num_inj (h.trans num_zero.symm))
      have e1 : num c ≠ ['1'] := fun h => h1 (num_inj (h.trans num_one.symm))
      have ei : num c ≠ ['i'] := by
        intro h
        have := isDigit_num (n := c) (c := 'i') (by rw [h]; simp)
        exact absurd this (by decide)
      simp [mapCat, h0, h1, e0, e1, ei]

theorem pieces_swap (ρ : A → Nat) (T : LTree A) : (pieces ρ T).map swapPiece = pieces ρ T.swap := by
  have ht : ∀ s, swapPiece (.txt s) = .txt s := fun _ => rfl
  induction T with
  | leaf a d c => simp [pieces, LTree.swap, swapPiece_ref]
  | symb i d c => simp [pieces, LTree.swap, swapPiece_ref]
  | const s => simp [pieces, LTree.swap, ht]
  | un p q x ihx => simp [pieces, LTree.swap, ihx, ht]
  | bin p m q x y ihx ihy => simp [pieces, LTree.swap, ihx, ihy, ht]
  | ter p m n q x y z ihx ihy ihz => simp [pieces, LTree.swap, ihx, ihy, ihz, ht]

theorem swapCats_render (ps : List Piece) (hg : ∀ p ∈ ps, p.Good) :
    swapCats (render ps) = render (ps.map swapPiece) := by
  have c0 : CatText ['0'] := ⟨by simp, .inl (by decide)⟩
  have c1 : CatText ['1'] := ⟨by simp, .inl (by decide)⟩
  have ci : CatText ['i'] := ⟨by simp, .inr rfl⟩
  have good : ∀ c c', CatText c' → ∀ p : Piece, p.Good → (mapCat c c' p).Good := by
    intro c c' hc p hp
    cases p with
    | txt s => exact hp
    | ref sym a b d =>
      simp only [mapCat, Piece.Good]
      split_ifs
      · exact hc
      · exact hp
  unfold swapCats
  rw [subAll_matchCat c0 ps hg, subAll_matchCat c1, subAll_matchCat ci, List.map_map, List.map_map]
  · rfl
  · intro p hp
    obtain ⟨q, hq, rfl⟩ := List.mem_map.1 hp
    obtain ⟨r, hr, rfl⟩ := List.mem_map.1 hq
    exact good _ _ c0 _ (good _ _ ci _ (hg r hr))
  · intro p hp
    obtain ⟨q, hq, rfl⟩ := List.mem_map.1 hp
    exact good _ _ ci _ (hg q hq)

/-! ### Maps of trees -/

theorem plainTree_map (f : A → B) (T : LTree A) : PlainTree (T.map f) ↔ PlainTree T := by
  induction T with
  | leaf => simp [LTree.map, PlainTree]
  | symb => simp [LTree.map, PlainTree]
  | const => simp [LTree.map, PlainTree]
  | un p q x ihx => simp [LTree.map, PlainTree, ihx]
  | bin p m q x y ihx ihy => simp [LTree.map, PlainTree, ihx, ihy]
  | ter p m n q x y z ihx ihy ihz => simp [LTree.map, PlainTree, ihx, ihy, ihz]

theorem plainTree_swap (T : LTree A) : PlainTree T.swap ↔ PlainTree T := by
  induction T with
  | leaf => simp [LTree.swap, PlainTree]
  | symb => simp [LTree.swap, PlainTree]
  | const => simp [LTree.swap, PlainTree]
  | un p q x ihx => simp [LTree.swap, PlainTree, ihx]
  | bin p m q x y ihx ihy => simp [LTree.swap, PlainTree, ihx, ihy]
  | ter p m n q x y z ihx ihy ihz => simp [LTree.swap, PlainTree, ihx, ihy, ihz]

theorem map_map {C : Type} (f : A → B) (g : B → C) (T : LTree A) : (T.map f).map g = T.map (g ∘ f) := by
  induction T with
  | leaf => rfl
  | symb => rfl
  | const => rfl
  | un p q x ihx => simp [LTree.map, ihx]
  | bin p m q x y ihx ihy => simp [LTree.map, ihx, ihy]
  | ter p m n q x y z ihx ihy ihz => simp [LTree.map, ihx, ihy, ihz]

theorem map_swap (f : A → B) (T : LTree A) : T.swap.map f = (T.map f).swap := by
  induction T with
  | leaf => rfl
  | symb => rfl
  | const => rfl
  | un p q x ihx => simp [LTree.map, LTree.swap, ihx]
  | bin p m q x y ihx ihy => simp [LTree.map, LTree.swap, ihx, ihy]
  | ter p m n q x y z ihx ihy ihz => simp [LTree.map, LTree.swap, ihx, ihy, ihz]

theorem map_congr {f g : A → B} (T : LTree A) (h : ∀ l ∈ T.leaves, f l.1 = g l.1) : T.map f = T.map g := by
  induction T with
  | leaf a d c => simp [LTree.map, h (a, d, c) (by simp [LTree.leaves])]
  | symb => rfl
  | const => rfl
  | un p q x ihx => simp [LTree.map, ihx h]
  | bin p m q x y ihx ihy =>
    simp only [LTree.leaves, List.mem_append] at h
    simp [LTree.map, ihx (fun l hl => h l (.inl hl)), ihy (fun l hl => h l (.inr hl))]
  | ter p m n q x y z ihx ihy ihz =>
    simp only [LTree.leaves, List.mem_append] at h
    simp [LTree.map, ihx (fun l hl => h l (.inl (.inl hl))), ihy (fun l hl => h l (.inl (.inr hl))),
      ihz (fun l hl => h l (.inr hl))]

theorem pieces_congr {f g : A → Nat} (T : LTree A) (h : ∀ l ∈ T.leaves, f l.1 = g l.1) :
    pieces f T = pieces g T := by
  induction T with
  | leaf a d c => simp [pieces, h (a, d, c) (by simp [LTree.leaves])]
  | symb => rfl
  | const => rfl
  | un p q x ihx => simp [pieces, ihx h]
  | bin p m q x y ihx ihy =>
    simp only [LTree.leaves, List.mem_append] at h
    simp [pieces, ihx (fun l hl => h l (.inl hl)), ihy (fun l hl => h l (.inr hl))]
  | ter p m n q x y z ihx ihy ihz =>
    simp only [LTree.leaves, List.mem_append] at h
    simp [pieces, ihx (fun l hl => h l (.inl (.inl hl))), ihy (fun l hl => h l (.inl (.inr hl))),
      ihz (fun l hl => h l (.inr hl))]

theorem pieces_map (f : A → B) (ρ : B → Nat) (T : LTree A) : pieces ρ (T.map f) = pieces (ρ ∘ f) T := by
  induction T with
  | leaf => rfl
  | symb => rfl
  | const => rfl
  | un p q x ihx => simp [LTree.map, pieces, ihx]
  | bin p m q x y ihx ihy => simp [LTree.map, pieces, ihx, ihy]
  | ter p m n q x y z ihx ihy ihz => simp [LTree.map, pieces, ihx, ihy, ihz]

theorem leaves_map (f : A → B) (T : LTree A) :
    (T.map f).leaves = T.leaves.map (fun l => (f l.1, l.2.1, l.2.2)) := by
  induction T with
  | leaf => rfl
  | symb => rfl
  | const => rfl
  | un p q x ihx => simp [LTree.map, LTree.leaves, ihx]
  | bin p m q x y ihx ihy => simp [LTree.map, LTree.leaves, ihx, ihy]
  | ter p m n q x y z ihx ihy ihz => simp [LTree.map, LTree.leaves, ihx, ihy, ihz]

theorem leaves_swap (T : LTree A) :
    T.swap.leaves = T.leaves.map (fun l => (l.1, l.2.1, LTree.swapCat l.2.2)) := by
  induction T with
  | leaf => rfl
  | symb => rfl
  | const => rfl
  | un p q x ihx => simp [LTree.swap, LTree.leaves, ihx]
  | bin p m q x y ihx ihy => simp [LTree.swap, LTree.leaves, ihx, ihy]
  | ter p m n q x y z ihx ihy ihz => simp [LTree.swap, LTree.leaves, ihx, ihy, ihz]

theorem symbs_map (f : A → B) (T : LTree A) : (T.map f).symbs = T.symbs := by
  induction T with
  | leaf => rfl
  | symb => rfl
  | const => rfl
  | un p q x ihx => simp [LTree.map, LTree.symbs, ihx]
  | bin p m q x y ihx ihy => simp [LTree.map, LTree.symbs, ihx, ihy]
  | ter p m n q x y z ihx ihy ihz => simp [LTree.map, LTree.symbs, ihx, ihy, ihz]

theorem symbs_swap (T : LTree A) : T.swap.symbs = T.symbs := by
  induction T with
  | leaf => rfl
  | symb => rfl
  | const => rfl
  | un p q x ihx => simp [LTree.swap, LTree.symbs, ihx]
  | bin p m q x y ihx ihy => simp [LTree.swap, LTree.symbs, ihx, ihy]
  | ter p m n q x y z ihx ihy ihz => simp [LTree.swap, LTree.symbs, ihx, ihy, ihz]

end Verif.Lazy
