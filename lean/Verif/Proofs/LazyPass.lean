import Verif.Proofs.LazyAlias

/-! From labels to positions. -/

namespace Verif.Lazy
open Alias (Str strip)
open Spec (LExpr LTree PlainText Occurs varText IsDigits Arg Stands)

/-- The argument passed for a tensor. -/
def argOf (a : LTensor) : Arg := ⟨a.id, a.src, a.shape⟩

theorem text_map {A B : Type} (f : A → B) (ρ : B → Nat) (T : LTree A) : (T.map f).text ρ = T.text (ρ ∘ f) := by
  rw [text_eq, text_eq, pieces_map]

theorem text_congr {A : Type} {f g : A → Nat} (T : LTree A) (h : ∀ l ∈ T.leaves, f l.1 = g l.1) :
    T.text f = T.text g := by
  rw [text_eq, text_eq, pieces_congr T h]

theorem getLastD_ones (k : Nat) (s : List Nat) : (List.replicate k 1 ++ s).getLastD 1 = s.getLastD 1 := by
  cases s with
  | nil =>
    rw [List.append_nil, List.getLastD_eq_getLast?, List.getLast?_replicate]
    split_ifs <;> rfl
  | cons a s =>
    rw [List.getLastD_eq_getLast?, List.getLast?_append, List.getLastD_eq_getLast?, List.getLast?_cons]
    rfl

theorem mem_leavesL_map (f : LTensor → Nat) (U : List (LTree LTensor)) (p d c : Nat) :
    (p, d, c) ∈ (U.map (LTree.map f)).flatMap LTree.leaves ↔ ∃ a, (a, d, c) ∈ leavesL U ∧ f a = p := by
  simp only [leavesL, List.mem_flatMap, List.mem_map]
  constructor
  · rintro ⟨_, ⟨T, hT, rfl⟩, h⟩
    rw [leaves_map] at h
    obtain ⟨⟨a, d', c'⟩, hl, e⟩ := List.mem_map.1 h
    simp only [Prod.mk.injEq] at e
    obtain ⟨e1, rfl, rfl⟩ := e
    exact ⟨a, ⟨T, hT, hl⟩, e1⟩
  · rintro ⟨a, ⟨T, hT, hl⟩, rfl⟩
    refine ⟨_, ⟨T, hT, rfl⟩, ?_⟩
    rw [leaves_map]
    exact List.mem_map.2 ⟨_, hl, rfl⟩

/-- The variables `vars` at the positions of the leaves `ls` are entries of `ts`, whose shapes begin with dummy batch
dimensions. -/
def Padded (nb : Nat) (ts vars : List LTensor) (ls : List (Nat × Nat × Nat)) : Prop :=
  ∀ p d c, (p, d, c) ∈ ls → ∃ a ∈ ts, a.cat = c ∧ a.shape.getLastD 1 = d ∧ vars[p]? = some (padTo nb a c)

/-- The result of `fixvariables`, in terms of positions. -/
theorem fix_stands {L : LazyT} {formula2 : Str} {T : LTree LTensor} {U : List (LTree LTensor)}
    (h1 : L.formula = render (pieces LTensor.id T)) (h2 : formula2 = render (piecesL LTensor.id U))
    (hp : ∀ T' ∈ [T] ++ U, PlainTree T') (hc : ∀ l ∈ leavesL ([T] ++ U), l.2.2 < 3)
    (hl : ∀ l ∈ leavesL ([T] ++ U), l.1 ∈ L.tensors)
    (ht : ∀ l ∈ leavesL ([T] ++ U), l.2.1 = l.1.shape.getLastD 1 ∧ l.2.2 = l.1.cat) (hd : Distinct L.tensors)
    (hid : ∀ a ∈ L.tensors, newIndex L.symb + L.tensors.length ≤ a.id) :
    ∃ (g : LTensor → Nat) (vars : List LTensor),
      fixvariables L formula2 =
        some ((T.map g).text (newIndex L.symb + ·),
          (U.map (LTree.map g)).flatMap (LTree.text (newIndex L.symb + ·)), vars) ∧
      Stands L.nbatchdims (vars.map argOf) (([T] ++ U).map (LTree.map LTensor.src)) (([T] ++ U).map (LTree.map g)) ∧
      Padded L.nbatchdims L.tensors vars ((([T] ++ U).map (LTree.map g)).flatMap LTree.leaves) := by
  obtain ⟨ρ, vars, e, hnd, hlab, hused⟩ := fixvariables_spec h1 h2 hp hc hl hd (fun a ha => .inr (hid a ha))
  set i0 := newIndex L.symb with hi0
  have hg : ∀ l ∈ leavesL ([T] ++ U), i0 + (ρ l.1 - i0) = ρ l.1 := by
    intro l hll
    have := (hlab l hll).1
    omega
  have hg' : ∀ T' ∈ [T] ++ U, (T'.map (fun a => ρ a - i0)).text (i0 + ·) = T'.text ρ := by
    intro T' hT'
    rw [text_map]
    exact text_congr T' (fun l hll => hg l (List.mem_flatMap.2 ⟨T', hT', hll⟩))
  -- the argument of a leaf
  have harg0 : ∀ l ∈ leavesL ([T] ++ U), vars[ρ l.1 - i0]? = some (padTo L.nbatchdims l.1 l.2.2) := by
    intro l hll
    obtain ⟨_, l', hl', e1, e2⟩ := hlab l hll
    have : l'.2.2 = l.2.2 := by
      rw [(ht l' hl').2, (ht l hll).2, e1]
    rw [e2, this]
  have harg : ∀ l ∈ leavesL ([T] ++ U), (vars.map argOf)[ρ l.1 - i0]? =
      some (argOf (padTo L.nbatchdims l.1 l.2.2)) := by
    intro l hll
    rw [List.getElem?_map, harg0 l hll]
    rfl
  have hsame : ∀ l ∈ leavesL ([T] ++ U), ∀ l' ∈ leavesL ([T] ++ U), ρ l.1 - i0 = ρ l'.1 - i0 → l.1 = l'.1 := by
    intro l hll l' hll' e
    have h := harg l hll
    rw [e, harg l' hll'] at h
    simp only [Option.some.injEq, argOf, padTo, Arg.mk.injEq] at h
    exact hd _ (hl l hll) _ (hl l' hll') h.1.symm
  refine ⟨fun a => ρ a - i0, vars, ?_, ⟨?_, ?_, ?_, ?_, ?_⟩, ?_⟩
  · rw [e, hg' T (by simp)]
    congr 3
    rw [List.flatMap_map, textL]
    refine List.flatMap_congr (fun T' hT' => ?_)
    exact (hg' T' (by simp [hT'])).symm
  · rw [List.map_map, List.map_map]
    refine List.map_congr_left (fun T' hT' => ?_)
    simp only [Function.comp]
    rw [map_map, map_map]
    refine map_congr T' (fun l hll => ?_)
    simp only [Function.comp]
    rw [harg l (List.mem_flatMap.2 ⟨T', hT', hll⟩)]
    rfl
  · rw [List.map_map]
    exact hnd
  · intro p hpl
    rw [List.length_map] at hpl
    obtain ⟨⟨a, d, c⟩, hll, e⟩ := hused p hpl
    refine ⟨d, c, (mem_leavesL_map _ _ _ _ _).2 ⟨a, hll, ?_⟩⟩
    simp only at e
    omega
  · intro p d c d' c' h h'
    obtain ⟨a, ha, e⟩ := (mem_leavesL_map _ _ _ _ _).1 h
    obtain ⟨a', ha', e'⟩ := (mem_leavesL_map _ _ _ _ _).1 h'
    have haa : a = a' := hsame _ ha _ ha' (e.trans e'.symm)
    subst haa
    exact ⟨(ht _ ha).1.trans (ht _ ha').1.symm, (ht _ ha).2.trans (ht _ ha').2.symm⟩
  · intro p d c h
    obtain ⟨a, ha, rfl⟩ := (mem_leavesL_map _ _ _ _ _).1 h
    refine ⟨_, harg _ ha, ?_, ?_⟩
    · simp only [argOf, padTo, getLastD_ones]
      exact (ht _ ha).1.symm
    · simp only [argOf, padTo, List.length_append, List.length_replicate]
      split_ifs <;> omega
  · intro p d c h
    obtain ⟨a, ha, rfl⟩ := (mem_leavesL_map _ _ _ _ _).1 h
    exact ⟨a, hl _ ha, (ht _ ha).2.symm, (ht _ ha).1.symm, harg0 _ ha⟩

theorem pieces_plain {A : Type} (ρ : A → Nat) (T : LTree A) (h : PlainTree T) : ∀ p ∈ pieces ρ T, Plain p := by
  have hn : ∀ c, IsDigits (num c) := Alias.isDigits_toDigits
  induction T with
  | leaf a d c =>
    intro p hp
    simp only [pieces, List.mem_singleton] at hp
    rw [hp]
    exact hn c
  | symb i d c =>
    intro p hp
    simp only [pieces, List.mem_singleton] at hp
    rw [hp]
    exact hn c
  | const s =>
    intro p hp
    simp only [pieces, List.mem_singleton] at hp
    rw [hp]
    exact h
  | un p q x ih =>
    intro r hr
    simp only [pieces, List.mem_cons, List.mem_append, List.not_mem_nil, or_false] at hr
    rcases hr with rfl | hr | rfl
    · exact h.1
    · exact ih h.2.2 r hr
    · exact h.2.1
  | bin p m q x y ihx ihy =>
    intro r hr
    obtain ⟨h1, h2, h3, h4, h5⟩ := h
    simp only [pieces, List.mem_cons, List.mem_append, List.not_mem_nil, or_false] at hr
    rcases hr with rfl | hr | rfl | hr | rfl
    · exact h1
    · exact ihx h4 r hr
    · exact h2
    · exact ihy h5 r hr
    · exact h3
  | ter p m n q x y z ihx ihy ihz =>
    intro r hr
    obtain ⟨h1, h2, h3, h4, h5, h6, h7⟩ := h
    simp only [pieces, List.mem_cons, List.mem_append, List.not_mem_nil, or_false] at hr
    rcases hr with rfl | hr | rfl | hr | rfl | hr | rfl
    · exact h1
    · exact ihx h5 r hr
    · exact h2
    · exact ihy h6 r hr
    · exact h3
    · exact ihz h7 r hr
    · exact h4

/-- The variables of an expression without symbolic variables. -/
theorem mem_pieces_nosymb {T : LTree Nat} (hs : T.symbs = []) (sym : Bool) (a b : Nat) (c : Str) :
    Piece.ref sym a b c ∈ pieces id T ↔ ∃ k, (a, b, k) ∈ T.leaves ∧ num k = c ∧ sym = false := by
  induction T with
  | leaf x d k =>
    simp only [pieces, List.mem_singleton, Piece.ref.injEq, LTree.leaves, Prod.mk.injEq, id]
    constructor
    · rintro ⟨rfl, rfl, rfl, rfl⟩
      exact ⟨k, ⟨rfl, rfl, rfl⟩, rfl, rfl⟩
    · rintro ⟨_, ⟨rfl, rfl, rfl⟩, rfl, rfl⟩
      exact ⟨rfl, rfl, rfl, rfl⟩
  | symb => simp [LTree.symbs] at hs
  | const => simp [pieces, LTree.leaves]
  | un p q x ih => simp [pieces, LTree.leaves, ih hs]
  | bin p m q x y ihx ihy =>
    simp only [LTree.symbs, List.append_eq_nil_iff] at hs
    simp [pieces, LTree.leaves, ihx hs.1, ihy hs.2, or_and_right, exists_or]
  | ter p m n q x y z ihx ihy ihz =>
    simp only [LTree.symbs, List.append_eq_nil_iff] at hs
    simp [pieces, LTree.leaves, ihx hs.1.1, ihy hs.1.2, ihz hs.2, or_and_right, exists_or]

/-- The variables written in the formula of the reduction. -/
theorem occurs_genred {redop opt : Str} (cat : Nat) (hr : PlainText redop) (ho : PlainText opt)
    {T : LTree Nat} {U : List (LTree Nat)} (hp : ∀ T' ∈ T :: U, PlainTree T') (hs : ∀ T' ∈ T :: U, T'.symbs = [])
    (n : Nat) (s : Str) :
    Occurs (genredText redop (T.text id) opt cat (U.flatMap (LTree.text id))) n s ↔
      ∃ d c, (n, d, c) ∈ (T :: U).flatMap LTree.leaves ∧ s = varText (num n) (num d) (num c) := by
  set f2 := U.flatMap (LTree.text id) with hf2
  set pre : Str := redop ++ "_Reduction(".toList with hpre
  set mid : Str := (if opt = [] then [] else ',' :: opt) ++ ',' :: num cat with hmid
  set ps : List Piece := Piece.txt pre :: (pieces id T ++ Piece.txt mid ::
    ((if f2 = [] then [] else Piece.txt [','] :: U.flatMap (pieces id)) ++ [Piece.txt [')']])) with hps
  have hc : ∀ c : Char, c ≠ 'V' → PlainText [c] := fun c hc => plainText_of_no_V (by simpa using hc)
  have hU : render ((U.flatMap (pieces id)).map unsym) = f2 := by
    rw [hf2]
    clear hps ps hf2 f2 hp hs
    induction U with
    | nil => rfl
    | cons T U ih => simp only [List.flatMap_cons, List.map_append, render_append, ih, text_eq]
  have htext : genredText redop (T.text id) opt cat f2 = render (ps.map unsym) := by
    rw [hps, genredText, text_eq]
    simp only [List.map_cons, List.map_append, render_cons, render_append, unsym, Piece.str, List.map_nil]
    split_ifs with h1 h2 h2
    · simp [hpre, hmid, render, Piece.str, h1]
    · simp only [List.map_cons, render_cons, unsym, Piece.str, hU]
      simp [hpre, hmid, render, Piece.str, h1]
    · simp [hpre, hmid, render, Piece.str, h1]
    · simp only [List.map_cons, render_cons, unsym, Piece.str, hU]
      simp [hpre, hmid, render, Piece.str, h1]
  have hplain : ∀ p ∈ ps, Plain p := by
    intro p hpp
    rw [hps] at hpp
    simp only [List.mem_cons, List.mem_append, List.not_mem_nil, or_false] at hpp
    have hmp : PlainText mid := by
      rw [hmid]
      have hn : PlainText (',' :: num cat) :=
        plainText_of_no_V (by
          intro c hc
          rcases List.mem_cons.1 hc with rfl | hc
          · decide
          · exact isDigit_ne (isDigit_num hc) (by decide))
      split_ifs
      · exact hn
      · exact plain_append (plain_append (s := [',']) (hc ',' (by decide)) ho) hn
    rcases hpp with rfl | h | rfl | h | rfl
    · exact plain_append hr (plainText_of_no_V (by decide +kernel))
    · exact pieces_plain id T (hp T (by simp)) p h
    · exact hmp
    · split_ifs at h with h0
      · simp at h
      · rcases List.mem_cons.1 h with rfl | h
        · exact hc ',' (by decide)
        · obtain ⟨T', hT', h⟩ := List.mem_flatMap.1 h
          exact pieces_plain id T' (hp T' (by simp [hT'])) p h
    · exact hc ')' (by decide)
  rw [htext, occurs_render ps hplain]
  have hleaf : ∀ sym b c, Piece.ref sym n b c ∈ ps ↔
      ∃ k, (n, b, k) ∈ (T :: U).flatMap LTree.leaves ∧ num k = c ∧ sym = false := by
    intro sym b c
    rw [hps]
    simp only [List.mem_cons, List.mem_append, List.not_mem_nil, or_false, reduceCtorEq, false_or]
    have hUm : Piece.ref sym n b c ∈ (if f2 = [] then [] else Piece.txt [','] :: U.flatMap (pieces id)) ↔
        Piece.ref sym n b c ∈ U.flatMap (pieces id) := by
      split_ifs with h0
      · refine ⟨fun h => absurd h List.not_mem_nil, fun h => ?_⟩
        rw [← hU, render, List.flatMap_eq_nil_iff] at h0
        have := h0 (unsym (.ref sym n b c)) (List.mem_map.2 ⟨_, h, rfl⟩)
        rw [unsym, ref_str_cons] at this
        cases this
      · simp
    rw [hUm, mem_pieces_nosymb (hs T (by simp))]
    simp only [List.flatMap_cons, List.mem_append, List.mem_flatMap, or_and_right, exists_or]
    refine or_congr Iff.rfl ?_
    constructor
    · rintro ⟨T', hT', h⟩
      obtain ⟨k, h1, h2⟩ := (mem_pieces_nosymb (hs T' (by simp [hT'])) sym n b c).1 h
      exact ⟨k, ⟨T', hT', h1⟩, h2⟩
    · rintro ⟨k, ⟨T', hT', h1⟩, h2⟩
      exact ⟨T', hT', (mem_pieces_nosymb (hs T' (by simp [hT'])) sym n b c).2 ⟨k, h1, h2⟩⟩
  constructor
  · rintro ⟨sym, b, c, hm, e⟩
    obtain ⟨k, h1, rfl, _⟩ := (hleaf sym b c).1 hm
    exact ⟨b, k, h1, e⟩
  · rintro ⟨d, c, hm, e⟩
    exact ⟨false, d, num c, (hleaf _ _ _).2 ⟨c, hm, rfl, rfl⟩, e⟩

end Verif.Lazy
