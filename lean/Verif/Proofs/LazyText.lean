import Verif.Model.Lazy
import Verif.Proofs.Aliases

/-! Substitutions in the text of formulas. -/

namespace Verif.Lazy
open Alias (Str strip)
open Spec (IsDigits)

/-- A text in which `Va` does not begin. -/
def Quiet (s : Str) : Prop := ¬ ['V', 'a'] <:+: s ∧ s.getLast? ≠ some 'V'

theorem quiet_nil : Quiet [] := by simp [Quiet]

theorem Quiet.tail {c : Char} {s : Str} (h : Quiet (c :: s)) : Quiet s := by
  refine ⟨fun hi => h.1 (hi.trans (List.suffix_cons c s).isInfix), fun hl => h.2 ?_⟩
  rw [List.getLast?_cons, hl]
  rfl

theorem Quiet.not_prefix {c : Char} {s : Str} (h : Quiet (c :: s)) (t : Str) :
    ¬ ['V', 'a'] <+: (c :: s) ++ t := by
  intro hp
  cases s with
  | nil =>
    obtain ⟨u, hu⟩ := hp
    simp only [List.cons_append, List.nil_append, List.cons.injEq] at hu
    exact h.2 (by simp [← hu.1])
  | cons d s =>
    obtain ⟨u, hu⟩ := hp
    simp only [List.cons_append, List.nil_append, List.cons.injEq] at hu
    obtain ⟨rfl, rfl, -⟩ := hu
    exact h.1 ⟨[], s, by simp⟩

theorem quiet_of_no_V {s : Str} (h : ∀ c ∈ s, c ≠ 'V') : Quiet s := by
  refine ⟨fun hi => h 'V' (hi.subset (by simp)) rfl, fun hl => h 'V' (List.mem_of_getLast? hl) rfl⟩

theorem subAll_skip (m : Str → Option (Str × Nat)) : ∀ (k : Nat) (s : Str),
    subAll m k s = subAll m 0 (s.drop k)
  | 0, s => by simp
  | k + 1, [] => by simp [subAll]
  | k + 1, c :: s => by
    rw [subAll, subAll_skip m k s, List.drop_succ_cons]

theorem subAll_quiet {m : Str → Option (Str × Nat)} (hm : ∀ s, ¬ ['V', 'a'] <+: s → m s = none)
    {s : Str} (hs : Quiet s) (t : Str) : subAll m 0 (s ++ t) = s ++ subAll m 0 t := by
  induction s with
  | nil => rfl
  | cons c s ih =>
    rw [List.cons_append, subAll, ← List.cons_append, hm _ (hs.not_prefix t)]
    simp only [List.cons_append]
    rw [ih hs.tail]

theorem search_quiet {α : Type} {m : Str → Option α} (hm : ∀ s, ¬ ['V', 'a'] <+: s → m s = none)
    {s : Str} (hs : Quiet s) (t : Str) : search m (s ++ t) = search m t := by
  induction s with
  | nil => rfl
  | cons c s ih =>
    rw [List.cons_append, search, ← List.cons_append, hm _ (hs.not_prefix t)]
    simp only
    rw [ih hs.tail]

/-- Pieces of a formula: texts and variables. -/
inductive Piece
  | txt (s : Str)
  | ref (sym : Bool) (a b : Nat) (c : Str)

/-- `Var` or `VarSymb`. -/
def headOf (sym : Bool) : Str := if sym then "VarSymb".toList else "Var".toList

/-- The text of a piece. -/
def Piece.str : Piece → Str
  | .txt s => s
  | .ref sym a b c => formatVar (headOf sym) a b c

/-- The text of a list of pieces. -/
def render (ps : List Piece) : Str := ps.flatMap Piece.str

/-- The text of a category: digits, or the letter `i` used by the transposition. -/
def CatText (c : Str) : Prop := c ≠ [] ∧ ((∀ x ∈ c, x.isDigit) ∨ c = ['i'])

/-- A quiet text or a variable. -/
def Piece.Good : Piece → Prop
  | .txt s => Quiet s
  | .ref _ _ _ c => CatText c

theorem render_cons (p : Piece) (ps : List Piece) : render (p :: ps) = p.str ++ render ps := rfl

theorem render_append (ps qs : List Piece) : render (ps ++ qs) = render ps ++ render qs := by
  simp [render]

theorem isDigit_num {n : Nat} {c : Char} (h : c ∈ num n) : c.isDigit := Alias.isDigit_toDigits h

theorem num_ne_nil (n : Nat) : num n ≠ [] := Nat.toDigits_ne_nil

theorem num_inj {m n : Nat} (h : num m = num n) : m = n := by
  have := Alias.toInt_toDigits m
  unfold num at h
  rw [h, Alias.toInt_toDigits] at this
  simpa using this.symm

theorem isDigit_ne {c d : Char} (h : c.isDigit) (hd : ¬ d.isDigit) : c ≠ d := by
  rintro rfl
  exact hd h

theorem catText_no {c : Str} (h : CatText c) : ∀ x ∈ c, x ≠ 'V' ∧ x ≠ ')' ∧ x ≠ ',' ∧ x ≠ ' ' := by
  intro x hx
  rcases h.2 with h | rfl
  · have := h x hx
    exact ⟨isDigit_ne this (by decide), isDigit_ne this (by decide), isDigit_ne this (by decide),
      isDigit_ne this (by decide)⟩
  · simp only [List.mem_singleton] at hx
    subst hx
    decide

theorem ref_str (sym : Bool) (a b : Nat) (c : Str) :
    (Piece.ref sym a b c).str = headOf sym ++ '(' :: (num a ++ ',' :: (num b ++ ',' :: (c ++ [')']))) := by
  simp [Piece.str, formatVar]

/-- The text of a variable after its first letter. -/
def refTail (sym : Bool) (a b : Nat) (c : Str) : Str :=
  (headOf sym).tail ++ '(' :: (num a ++ ',' :: (num b ++ ',' :: (c ++ [')'])))

theorem ref_str_cons (sym : Bool) (a b : Nat) (c : Str) :
    (Piece.ref sym a b c).str = 'V' :: refTail sym a b c := by
  rw [ref_str]
  cases sym <;> rfl

theorem refTail_no_V {sym : Bool} {a b : Nat} {c : Str} (hc : CatText c) :
    ∀ x ∈ refTail sym a b c, x ≠ 'V' := by
  intro x hx
  unfold refTail at hx
  simp only [List.mem_append, List.mem_cons, List.not_mem_nil, or_false] at hx
  rcases hx with h | h | h | h | h | h | h | h
  · cases sym
    · simp only [headOf, Bool.false_eq_true, if_false] at h
      revert h
      revert x
      decide
    · simp only [headOf, if_true] at h
      revert h
      revert x
      decide
  · subst h; decide
  · exact isDigit_ne (isDigit_num h) (by decide)
  · subst h; decide
  · exact isDigit_ne (isDigit_num h) (by decide)
  · subst h; decide
  · exact (catText_no hc x h).1
  · subst h; decide

/-- A substitution that acts on the variables one by one. -/
theorem subAll_render {m : Str → Option (Str × Nat)} {f : Piece → Piece}
    (hm : ∀ s, ¬ ['V', 'a'] <+: s → m s = none) (ht : ∀ s, f (.txt s) = .txt s)
    (hr : ∀ sym a b c, CatText c → ∀ t,
      (m ((Piece.ref sym a b c).str ++ t) = none ∧ f (.ref sym a b c) = .ref sym a b c) ∨
      ∃ out len, m ((Piece.ref sym a b c).str ++ t) = some (out, len) ∧ 0 < len ∧
        len ≤ (Piece.ref sym a b c).str.length ∧
        out ++ (Piece.ref sym a b c).str.drop len = (f (.ref sym a b c)).str)
    (ps : List Piece) (hg : ∀ p ∈ ps, p.Good) :
    subAll m 0 (render ps) = render (ps.map f) := by
  induction ps with
  | nil => rfl
  | cons p ps ih =>
    have ih := ih (fun q hq => hg q (by simp [hq]))
    rw [List.map_cons, render_cons, render_cons, ← ih]
    cases p with
    | txt s =>
      rw [ht]
      exact subAll_quiet hm (hg (.txt s) (by simp)) _
    | ref sym a b c =>
      have hc : CatText c := hg (.ref sym a b c) (by simp)
      have hq : Quiet (refTail sym a b c) := quiet_of_no_V (refTail_no_V hc)
      rcases hr sym a b c hc (render ps) with ⟨h1, h2⟩ | ⟨out, len, h1, h2, h3, h4⟩
      · rw [h2]
        rw [ref_str_cons] at h1 ⊢
        rw [List.cons_append] at h1 ⊢
        rw [subAll, h1]
        simp only
        rw [subAll_quiet hm hq, List.cons_append]
      · rw [← h4]
        rw [ref_str_cons] at h1 h3 ⊢
        rw [List.cons_append] at h1 ⊢
        rw [subAll, h1]
        simp only
        obtain ⟨k, rfl⟩ : ∃ k, len = k + 1 := ⟨len - 1, by omega⟩
        simp only [Nat.add_sub_cancel, List.drop_succ_cons, List.length_cons] at h3 ⊢
        rw [subAll_skip, List.drop_append_of_le_length (by omega), subAll_quiet hm, List.append_assoc]
        exact quiet_of_no_V (fun x hx => refTail_no_V hc x (List.mem_of_mem_drop hx))

/-! ### Matching the beginning of a variable -/

theorem not_Va {p s : Str} (hp : ['V', 'a'] <+: p) (hs : ¬ ['V', 'a'] <+: s) : p.isPrefixOf s = false := by
  by_contra h
  rw [Bool.not_eq_false, List.isPrefixOf_iff_prefix] at h
  exact hs (hp.trans h)

/-- Two texts that end at the same mark are equal if one is a prefix of the other. -/
theorem prefix_mark {d : Char} {a b t : Str} (ha : d ∉ a) (hb : d ∉ b) :
    (a ++ [d]) <+: (b ++ d :: t) ↔ a = b := by
  constructor
  · intro h
    induction a generalizing b with
    | nil =>
      cases b with
      | nil => rfl
      | cons y b =>
        obtain ⟨u, hu⟩ := h
        simp only [List.nil_append, List.cons_append, List.cons.injEq] at hu
        simp only [List.mem_cons, not_or] at hb
        exact absurd hu.1 hb.1
    | cons x a ih =>
      simp only [List.mem_cons, not_or] at ha
      cases b with
      | nil =>
        obtain ⟨u, hu⟩ := h
        simp only [List.nil_append, List.cons_append, List.cons.injEq] at hu
        exact absurd hu.1.symm ha.1
      | cons y b =>
        simp only [List.mem_cons, not_or] at hb
        simp only [List.cons_append, List.cons_prefix_cons] at h
        rw [h.1, ih ha.2 hb.2 h.2]
  · rintro rfl
    exact ⟨t, by simp⟩

theorem dropPre_self (p t : Str) : dropPre p (p ++ t) = some t := by
  unfold dropPre
  rw [if_pos (by rw [List.isPrefixOf_iff_prefix]; exact List.prefix_append p t), List.drop_left]

theorem dropPre_mark {d : Char} {a b t : Str} (ha : d ∉ a) (hb : d ∉ b) :
    dropPre (a ++ [d]) (b ++ d :: t) = if a = b then some t else none := by
  by_cases h : a = b
  · subst h
    rw [if_pos rfl]
    have : a ++ d :: t = (a ++ [d]) ++ t := by simp
    rw [this, dropPre_self]
  · rw [if_neg h]
    unfold dropPre
    rw [if_neg]
    rw [List.isPrefixOf_iff_prefix, prefix_mark ha hb]
    exact h

theorem matchHead_ref (sym : Bool) (u : Str) : matchHead (headOf sym ++ '(' :: u) = some (headOf sym, u) := by
  cases sym <;> simp [matchHead, headOf, dropPre, List.isPrefixOf]

theorem matchHead_none {s : Str} (h : ¬ ['V', 'a'] <+: s) : matchHead s = none := by
  unfold matchHead dropPre
  rw [not_Va (by decide) h, not_Va (by decide) h]
  rfl

theorem matchNum_num (n : Nat) (u : Str) : matchNum (num n ++ ',' :: u) = some (num n, u) := by
  unfold matchNum
  rw [Alias.digits_append (fun x hx => isDigit_num hx) (by decide)]
  have := num_ne_nil n
  generalize num n = l at this ⊢
  cases l with
  | nil => exact absurd rfl this
  | cons x l => rfl

theorem comma_num (n : Nat) : ',' ∉ num n := fun h => absurd (isDigit_num h) (by decide)

theorem paren_cat {c : Str} (h : CatText c) : ')' ∉ c := fun hx => (catText_no h _ hx).2.1 rfl

theorem ref_str_append (sym : Bool) (a b : Nat) (c t : Str) :
    (Piece.ref sym a b c).str ++ t =
      headOf sym ++ '(' :: (num a ++ ',' :: (num b ++ ',' :: (c ++ ')' :: t))) := by
  rw [ref_str]
  simp

/-- Exchange of a category for another one. -/
def mapCat (c c' : Str) : Piece → Piece
  | .txt s => .txt s
  | .ref sym a b d => .ref sym a b (if d = c then c' else d)

theorem subAll_matchCat {c c' : Str} (hc : CatText c) (ps : List Piece)
    (hg : ∀ p ∈ ps, p.Good) : subAll (matchCat c c') 0 (render ps) = render (ps.map (mapCat c c')) := by
  refine subAll_render ?_ (fun _ => rfl) ?_ ps hg
  · intro s hs
    unfold matchCat
    rw [matchHead_none hs]
    rfl
  · intro sym a b d hd t
    rw [ref_str_append]
    unfold matchCat
    rw [matchHead_ref]
    simp only [Option.bind_eq_bind, Option.bind_some, matchNum_num]
    rw [dropPre_mark (paren_cat hc) (paren_cat hd)]
    by_cases h : c = d
    · subst h
      right
      rw [if_pos rfl]
      refine ⟨_, _, rfl, ?_, ?_, ?_⟩
      · simp
        omega
      · rw [ref_str]
        simp
        omega
      · have : (Piece.ref sym a b c).str.drop
          ((headOf sym ++ '(' :: (num a ++ ',' :: (num b ++ ',' :: (c ++ ')' :: t)))).length - t.length) = [] := by
          rw [List.drop_eq_nil_iff, ref_str]
          simp
          omega
        rw [this]
        simp [mapCat, ref_str]
    · left
      rw [if_neg h]
      refine ⟨rfl, ?_⟩
      simp only [mapCat]
      rw [if_neg (fun e => h e.symm)]

/-- Change of the number of a variable. -/
def mapId (x y : Nat) : Piece → Piece
  | .txt s => .txt s
  | .ref sym a b d => .ref sym (if a = x then y else a) b d

theorem subAll_matchId {x y : Nat} (ps : List Piece)
    (hg : ∀ p ∈ ps, p.Good) (hd : ∀ sym a b c, Piece.ref sym a b c ∈ ps → ∀ u ∈ c, u.isDigit) :
    subAll (matchId x y) 0 (render ps) = render (ps.map (mapId x y)) := by
  have hm : ∀ s, ¬ ['V', 'a'] <+: s → matchId x y s = none := by
    intro s hs
    unfold matchId
    rw [matchHead_none hs]
    rfl
  -- variables whose category is not a number are not matched
  have key := subAll_render (m := matchId x y)
    (f := fun p => match p with
      | .txt s => .txt s
      | .ref sym a b d => .ref sym (if a = x ∧ ∀ u ∈ d, u.isDigit then y else a) b d) hm (fun _ => rfl) (by
    intro sym a b d hd t
    rw [ref_str_append]
    unfold matchId
    rw [matchHead_ref]
    simp only [Option.bind_eq_bind, Option.bind_some]
    rw [dropPre_mark (comma_num x) (comma_num a)]
    by_cases h : x = a
    · subst h
      rw [if_pos rfl]
      simp only [Option.bind_some, matchNum_num]
      rcases hd.2 with hdig | rfl
      · right
        rw [Alias.digits_append hdig (by decide)]
        simp only
        rw [if_neg hd.1]
        have : dropPre [')'] (')' :: t) = some t := dropPre_self [')'] t
        rw [this]
        refine ⟨_, _, rfl, ?_, ?_, ?_⟩
        · simp
          omega
        · rw [ref_str]
          simp
          omega
        · have : (Piece.ref sym x b d).str.drop
            ((headOf sym ++ '(' :: (num x ++ ',' :: (num b ++ ',' :: (d ++ ')' :: t)))).length - t.length) = [] := by
            rw [List.drop_eq_nil_iff, ref_str]
            simp
            omega
          rw [this, if_pos (by simpa using hdig)]
          simp [ref_str]
      · left
        refine ⟨?_, ?_⟩
        · rw [if_pos]
          simp [Alias.digits]
        · rw [if_neg]
          simp
    · left
      rw [if_neg (fun e => h (num_inj e))]
      refine ⟨rfl, ?_⟩
      rw [if_neg (fun e => h e.1.symm)]) ps hg
  rw [key]
  congr 1
  refine List.map_congr_left (fun p hp => ?_)
  cases p with
  | txt s => rfl
  | ref sym a b c =>
    have h := hd sym a b c hp
    by_cases h1 : a = x
    · simp only [mapId]
      rw [if_pos h1, if_pos ⟨h1, h⟩]
    · simp only [mapId]
      rw [if_neg h1, if_neg (fun e => h1 e.1)]

/-- Change of the number of a variable that is not symbolic. -/
def mapTag (x y : Nat) : Piece → Piece
  | .txt s => .txt s
  | .ref sym a b d => .ref sym (if sym = false ∧ a = x then y else a) b d

/-- The tag of a variable. -/
def tagOf (n : Nat) : Str := "Var(".toList ++ num n ++ [',']

theorem tag_prefix (n : Nat) (sym : Bool) (a b : Nat) (c t : Str) :
    (tagOf n).isPrefixOf ((Piece.ref sym a b c).str ++ t) = decide (sym = false ∧ a = n) := by
  rw [ref_str_append, Bool.eq_iff_iff, List.isPrefixOf_iff_prefix, decide_eq_true_iff]
  unfold tagOf
  cases sym with
  | true =>
    simp [headOf]
  | false =>
    simp only [headOf, Bool.false_eq_true, if_false, true_and]
    have e1 : "Var(".toList ++ num n ++ [','] = "Var(".toList ++ (num n ++ [',']) := by simp
    have e2 : "Var".toList ++ '(' :: (num a ++ ',' :: (num b ++ ',' :: (c ++ ')' :: t))) =
        "Var(".toList ++ (num a ++ ',' :: (num b ++ ',' :: (c ++ ')' :: t))) := by
      simp
    rw [e1, e2, List.prefix_append_right_inj, prefix_mark (comma_num n) (comma_num a)]
    exact ⟨fun h => (num_inj h).symm, fun h => by rw [h]⟩

theorem replace_tag {x y : Nat} (ps : List Piece) (hg : ∀ p ∈ ps, p.Good) :
    replaceStr (tagOf x) (tagOf y) (render ps) = render (ps.map (mapTag x y)) := by
  unfold replaceStr
  refine subAll_render ?_ (fun _ => rfl) ?_ ps hg
  · intro s hs
    rw [not_Va ⟨'r' :: '(' :: (num x ++ [',']), by simp [tagOf]⟩ hs]
    rfl
  · intro sym a b d hd t
    rw [tag_prefix]
    by_cases h : sym = false ∧ a = x
    · right
      rw [decide_eq_true h, if_pos rfl]
      obtain ⟨rfl, rfl⟩ := h
      refine ⟨_, _, rfl, by simp [tagOf], ?_, ?_⟩
      · rw [ref_str]
        simp [tagOf, headOf]
      · have e : (Piece.ref false a b d).str = tagOf a ++ (num b ++ ',' :: (d ++ [')'])) := by
          rw [ref_str]
          simp [tagOf, headOf]
        rw [e, List.drop_left]
        simp [mapTag, ref_str, tagOf, headOf]
    · left
      rw [decide_eq_false h]
      refine ⟨rfl, ?_⟩
      simp only [mapTag]
      rw [if_neg h]

/-- Symbolic variables become variables. -/
def unsym : Piece → Piece
  | .txt s => .txt s
  | .ref _ a b d => .ref false a b d

theorem replace_symb (ps : List Piece) (hg : ∀ p ∈ ps, p.Good) :
    replaceStr "VarSymb(".toList "Var(".toList (render ps) = render (ps.map unsym) := by
  unfold replaceStr
  refine subAll_render ?_ (fun _ => rfl) ?_ ps hg
  · intro s hs
    rw [not_Va (by decide) hs]
    rfl
  · intro sym a b d hd t
    rw [ref_str_append]
    cases sym with
    | true =>
      right
      refine ⟨"Var(".toList, 8, ?_, by omega, ?_, ?_⟩
      · rw [if_pos]
        · rfl
        · simp [headOf, List.isPrefixOf]
      · rw [ref_str]
        simp [headOf]
      · simp [ref_str, headOf, unsym]
    | false =>
      left
      simp [headOf, List.isPrefixOf, unsym]

/-! ### Search -/

theorem search_render {α : Type} {m : Str → Option α} {g : Piece → Option α}
    (hm : ∀ s, ¬ ['V', 'a'] <+: s → m s = none) (ht : ∀ s, g (.txt s) = none)
    (hr : ∀ sym a b c, CatText c → ∀ t, m ((Piece.ref sym a b c).str ++ t) = g (.ref sym a b c))
    (ps : List Piece) (hg : ∀ p ∈ ps, p.Good) : search m (render ps) = ps.findSome? g := by
  induction ps with
  | nil => rfl
  | cons p ps ih =>
    have ih := ih (fun q hq => hg q (by simp [hq]))
    rw [render_cons, List.findSome?_cons, ← ih]
    cases p with
    | txt s =>
      rw [ht]
      exact search_quiet hm (hg (.txt s) (by simp)) _
    | ref sym a b c =>
      have hc : CatText c := hg (.ref sym a b c) (by simp)
      rw [← hr sym a b c hc (render ps)]
      rw [ref_str_cons, List.cons_append, search]
      cases m ('V' :: (refTail sym a b c ++ render ps)) with
      | some x => rfl
      | none =>
        simp only
        exact search_quiet hm (quiet_of_no_V (refTail_no_V hc)) _

/-- A variable with number `n`. -/
def isRef (n : Nat) : Piece → Bool
  | .txt _ => false
  | .ref sym a _ _ => decide (sym = false ∧ a = n)

theorem inStr_render (n : Nat) (ps : List Piece) (hg : ∀ p ∈ ps, p.Good) :
    inStr (tagOf n) (render ps) = ps.any (isRef n) := by
  unfold inStr
  rw [search_render (g := fun p => if isRef n p then some () else none) ?_ ?_ ?_ ps hg]
  · induction ps with
    | nil => rfl
    | cons p ps ih =>
      have ih := ih (fun q hq => hg q (by simp [hq]))
      rw [List.findSome?_cons, List.any_cons]
      cases isRef n p with
      | true => rfl
      | false => simpa using ih
  · intro s hs
    rw [not_Va ⟨'r' :: '(' :: (num n ++ [',']), by simp [tagOf]⟩ hs]
    rfl
  · intro s; rfl
  · intro sym a b c hc t
    simp only [tag_prefix]
    rfl

/-- The category of a variable with number `n`. -/
def catRef (n : Nat) : Piece → Option Char
  | .txt _ => none
  | .ref sym a _ c => if sym = false ∧ a = n ∧ (c = ['0'] ∨ c = ['1'] ∨ c = ['2']) then c.head? else none

theorem search_varCat (n : Nat) (ps : List Piece) (hg : ∀ p ∈ ps, p.Good) :
    search (matchVarCat n) (render ps) = ps.findSome? (catRef n) := by
  refine search_render ?_ (fun _ => rfl) ?_ ps hg
  · intro s hs
    unfold matchVarCat dropPre
    rw [not_Va ⟨'r' :: '(' :: (num n ++ [',']), by simp⟩ hs]
    rfl
  · intro sym a b c hc t
    unfold matchVarCat dropPre
    have := tag_prefix n sym a b c t
    unfold tagOf at this
    rw [this]
    by_cases h : sym = false ∧ a = n
    · rw [decide_eq_true h, if_pos rfl]
      obtain ⟨rfl, rfl⟩ := h
      have e : (Piece.ref false a b c).str ++ t =
          ("Var(".toList ++ num a ++ [',']) ++ (num b ++ ',' :: (c ++ ')' :: t)) := by
        rw [ref_str]
        simp [headOf]
      rw [e, List.drop_left]
      simp only [Option.bind_eq_bind, Option.bind_some, matchNum_num, catRef, true_and]
      obtain ⟨h1, h2⟩ := hc
      cases c with
      | nil => exact absurd rfl h1
      | cons x c =>
        cases c with
        | nil => simp
        | cons y c =>
          have hy : y ≠ ')' := (catText_no ⟨h1, h2⟩ y (by simp)).2.1
          simp only [List.cons_append]
          split
          · rename_i heq
            simp only [List.cons.injEq] at heq
            exact absurd heq.2.1 hy
          · simp
    · rw [decide_eq_false h]
      have h' : ¬ (sym = false ∧ a = n ∧ (c = ['0'] ∨ c = ['1'] ∨ c = ['2'])) := fun e => h ⟨e.1, e.2.1⟩
      simp only [catRef, if_neg h', Bool.false_eq_true, if_false]
      rfl

end Verif.Lazy
