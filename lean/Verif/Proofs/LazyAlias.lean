import Verif.Proofs.LazyFix
import Verif.Props.Aliases

/-! The variables written in the formula of a lazy tensor. -/

namespace Verif.Lazy
open Alias (Str strip)
open Spec (LExpr LTree PlainText Occurs varText IsDigits)

theorem digits_cancel {a a' t t' : Str} {c : Char} (ha : ∀ x ∈ a, x.isDigit) (ha' : ∀ x ∈ a', x.isDigit)
    (hc : ¬ c.isDigit) (h : a ++ c :: t = a' ++ c :: t') : a = a' ∧ t = t' := by
  have := congrArg Alias.digits h
  rw [Alias.digits_append ha hc, Alias.digits_append ha' hc] at this
  simpa using this

theorem varText_prefix {a b c : Str} (ha : IsDigits a) (hb : IsDigits b) (hc : IsDigits c) {a' b' : Nat} {c' : Str}
    (hc' : ∀ x ∈ c', x.isDigit) (t : Str) :
    varText a b c <+: (Piece.ref false a' b' c').str ++ t ↔ a = num a' ∧ b = num b' ∧ c = c' := by
  rw [ref_str]
  constructor
  · rintro ⟨r, e⟩
    have e : a ++ ',' :: (b ++ ',' :: (c ++ ')' :: r)) = num a' ++ ',' :: (num b' ++ ',' :: (c' ++ ')' :: t)) := by
      simpa [varText, headOf] using e
    obtain ⟨h1, e⟩ := digits_cancel ha.2 (fun _ => isDigit_num) (by decide) e
    obtain ⟨h2, e⟩ := digits_cancel hb.2 (fun _ => isDigit_num) (by decide) e
    obtain ⟨h3, _⟩ := digits_cancel hc.2 hc' (by decide) e
    exact ⟨h1, h2, h3⟩
  · rintro ⟨rfl, rfl, rfl⟩
    exact ⟨t, by simp [varText, headOf]⟩

theorem search_infix (s u : Str) :
    (search (fun t => if s.isPrefixOf t then some () else none) u).isSome ↔ s ≠ [] ∧ s <:+: u ∨ (s = [] ∧ u ≠ []) := by
  induction u with
  | nil =>
    cases s with
    | nil => simp [search]
    | cons c s => simp [search]
  | cons c u ih =>
    rw [search]
    by_cases h : s.isPrefixOf (c :: u)
    · have h' := List.isPrefixOf_iff_prefix.1 h
      simp only [h, if_true, Option.isSome_some, true_iff]
      by_cases hs : s = []
      · right; simp [hs]
      · left; exact ⟨hs, h'.isInfix⟩
    · have h' : ¬ s <+: c :: u := fun e => h (List.isPrefixOf_iff_prefix.2 e)
      simp only [h, Bool.false_eq_true, if_false]
      rw [ih, List.infix_cons_iff]
      have hs : s ≠ [] := by
        rintro rfl
        exact h' List.nil_prefix
      simp [h', hs]

/-- A piece without its spaces. -/
def stripPiece : Piece → Piece
  | .txt s => .txt (strip s)
  | .ref sym a b c => .ref sym a b c

theorem strip_render (ps : List Piece) (hg : ∀ p ∈ ps, p.Good) : strip (render ps) = render (ps.map stripPiece) := by
  induction ps with
  | nil => rfl
  | cons p ps ih =>
    have ih := ih (fun q hq => hg q (by simp [hq]))
    rw [render_cons, List.map_cons, render_cons, ← ih]
    unfold strip
    rw [List.filter_append]
    congr 1
    cases p with
    | txt s => rfl
    | ref sym a b c =>
      have hc : CatText c := hg (.ref sym a b c) (by simp)
      rw [stripPiece, List.filter_eq_self]
      intro x hx
      rw [ref_str] at hx
      simp only [List.mem_append, List.mem_cons, List.not_mem_nil, or_false] at hx
      simp only [ne_eq, decide_eq_true_eq]
      rcases hx with h | h | h | h | h | h | h | h
      · cases sym
        · simp only [headOf, Bool.false_eq_true, if_false] at h
          revert h
          revert x
          decide
        · simp only [headOf, if_true] at h
          revert h
          revert x
          decide
      · subst h; decide
      · exact isDigit_ne (isDigit_num h) (by decide)
      · subst h; decide
      · exact isDigit_ne (isDigit_num h) (by decide)
      · subst h; decide
      · exact (catText_no hc x h).2.2.2
      · subst h; decide

/-- A piece whose text is plain, or a variable whose category is written with digits. -/
def Plain : Piece → Prop
  | .txt s => PlainText s
  | .ref _ _ _ c => IsDigits c

theorem Plain.good {p : Piece} (h : Plain p) : p.Good ∧ (stripPiece p).Good := by
  cases p with
  | txt s => exact ⟨plain_quiet h, plain_quiet_strip h⟩
  | ref sym a b c => exact ⟨⟨h.1, .inl h.2⟩, ⟨h.1, .inl h.2⟩⟩

theorem occurs_render (ps : List Piece) (hp : ∀ p ∈ ps, Plain p) (n : Nat) (s : Str) :
    Occurs (render (ps.map unsym)) n s ↔
      ∃ sym b c, Piece.ref sym n b c ∈ ps ∧ s = varText (num n) (num b) c := by
  have hu : ∀ p ∈ ps.map unsym, Plain p := by
    intro p hq
    obtain ⟨q, hq', rfl⟩ := List.mem_map.1 hq
    have := hp q hq'
    cases q <;> exact this
  have hst : strip (render (ps.map unsym)) = render ((ps.map unsym).map stripPiece) :=
    strip_render _ (fun p hq => (hu p hq).good.1)
  have hgood : ∀ p ∈ (ps.map unsym).map stripPiece, p.Good := by
    intro p hq
    obtain ⟨q, hq', rfl⟩ := List.mem_map.1 hq
    exact (hu q hq').good.2
  have key : ∀ a b c, IsDigits a → IsDigits b → IsDigits c →
      (varText a b c <:+: strip (render (ps.map unsym)) ↔
        ∃ sym a' b', Piece.ref sym a' b' c ∈ ps ∧ a = num a' ∧ b = num b') := by
    intro a b c ha hb hc
    have hne : varText a b c ≠ [] := by simp [varText]
    have h1 := search_infix (varText a b c) (strip (render (ps.map unsym)))
    simp only [ne_eq, hne, not_false_eq_true, true_and, false_and, or_false] at h1
    rw [← h1, hst, search_render (g := fun p => match p with
        | .txt _ => none
        | .ref sym a' b' c' => if sym = false ∧ (∀ x ∈ c', x.isDigit) ∧ a = num a' ∧ b = num b' ∧ c = c' then some ()
            else none) ?_ (fun _ => rfl) ?_ _ hgood]
    · rw [List.findSome?_isSome_iff]
      constructor
      · rintro ⟨p, hq, h⟩
        obtain ⟨q, hq', rfl⟩ := List.mem_map.1 hq
        obtain ⟨r, hr, rfl⟩ := List.mem_map.1 hq'
        cases r with
        | txt s => simp [unsym, stripPiece] at h
        | ref sym a' b' c' =>
          simp only [unsym, stripPiece] at h
          split_ifs at h with hcond
          · obtain ⟨_, _, h1, h2, rfl⟩ := hcond
            exact ⟨sym, a', b', hr, h1, h2⟩
          · simp at h
      · rintro ⟨sym, a', b', hr, rfl, rfl⟩
        refine ⟨.ref false a' b' c, ?_, ?_⟩
        · exact List.mem_map.2 ⟨.ref false a' b' c, List.mem_map.2 ⟨_, hr, rfl⟩, rfl⟩
        · simpa using hc.2
    · intro t ht
      rw [if_neg]
      intro h
      refine ht ?_
      obtain ⟨r, e⟩ := List.isPrefixOf_iff_prefix.1 h
      rw [← e]
      exact ⟨'r' :: '(' :: a ++ [','] ++ b ++ [','] ++ c ++ [')'] ++ r, by simp [varText]⟩
    · intro sym a' b' c' hc' t
      simp only
      cases sym with
      | true =>
        rw [if_neg, if_neg (by simp)]
        intro h
        obtain ⟨r, e⟩ := List.isPrefixOf_iff_prefix.1 h
        rw [ref_str] at e
        simp [varText, headOf] at e
      | false =>
        by_cases hdig : ∀ x ∈ c', x.isDigit
        · have := varText_prefix ha hb hc (a' := a') (b' := b') hdig t
          rw [← List.isPrefixOf_iff_prefix] at this
          by_cases h : a = num a' ∧ b = num b' ∧ c = c'
          · rw [if_pos (this.2 h), if_pos ⟨rfl, hdig, h⟩]
          · rw [if_neg (fun e => h (this.1 e)), if_neg (fun e => h e.2.2)]
        · rw [if_neg, if_neg (fun e => hdig e.2.1)]
          intro h
          obtain ⟨r, e⟩ := List.isPrefixOf_iff_prefix.1 h
          rw [ref_str] at e
          have e : a ++ ',' :: (b ++ ',' :: (c ++ ')' :: r)) =
              num a' ++ ',' :: (num b' ++ ',' :: (c' ++ ')' :: t)) := by
            simpa [varText, headOf] using e
          obtain ⟨h1, e⟩ := digits_cancel ha.2 (fun _ => isDigit_num) (by decide) e
          obtain ⟨h2, e⟩ := digits_cancel hb.2 (fun _ => isDigit_num) (by decide) e
          rcases hc'.2 with h | rfl
          · exact hdig h
          · have hcc := hc.1
            cases c with
            | nil => exact hcc rfl
            | cons x c =>
              simp only [List.cons_append, List.cons.injEq] at e
              have := hc.2 x (by simp)
              rw [e.1] at this
              exact absurd this (by decide)
  unfold Occurs
  constructor
  · rintro ⟨a, b, c, ha, hb, hc, e1, e2, e3⟩
    rw [e2] at e3
    obtain ⟨sym, a', b', hm, rfl, rfl⟩ := (key a b c ha hb hc).1 e3
    have : n = a' := by
      rw [e1]
      exact Nat.ofDigitChars_ten_toDigits
    subst this
    exact ⟨sym, b', c, hm, e2⟩
  · rintro ⟨sym, b, c, hm, e⟩
    have hc : IsDigits c := hp _ hm
    refine ⟨num n, num b, c, Alias.isDigits_toDigits n, Alias.isDigits_toDigits b, hc, ?_, e, ?_⟩
    · exact Nat.ofDigitChars_ten_toDigits.symm
    · rw [e]
      exact (key _ _ _ (Alias.isDigits_toDigits n) (Alias.isDigits_toDigits b) hc).2 ⟨sym, n, b, hm, rfl, rfl⟩

end Verif.Lazy
