import Verif.Model.Aliases
import Verif.Spec.Aliases
import Mathlib.Tactic.IntervalCases
import Mathlib.Data.List.Forall2
import Batteries.Data.List.Perm

/-! Lemmas on the parsing of aliases. -/

namespace Verif.Alias
open Spec

theorem isDigit_toDigits {n : Nat} {c : Char} (h : c ∈ Nat.toDigits 10 n) : c.isDigit :=
  Nat.isDigit_of_mem_toDigits (by omega) (by omega) h

theorem toInt_eq {s : Str} (h : IsDigits s) : toInt s = some (Nat.ofDigitChars 10 s 0) := by
  unfold toInt
  rw [if_neg, Nat.ofDigitChars_eq_foldl]
  · rfl
  · rintro (h1 | h1)
    · exact h.1 h1
    · exact h1 (List.all_eq_true.2 h.2)

theorem isDigits_toDigits (n : Nat) : IsDigits (Nat.toDigits 10 n) :=
  ⟨Nat.toDigits_ne_nil, fun _ => isDigit_toDigits⟩

theorem toInt_toDigits (n : Nat) : toInt (Nat.toDigits 10 n) = some n := by
  rw [toInt_eq (isDigits_toDigits n), Nat.ofDigitChars_ten_toDigits]

theorem toDigits_head (n : Nat) (h : 0 < n) : (Nat.toDigits 10 n).head? ≠ some '0' := by
  induction n using Nat.strongRecOn with
  | ind n ih =>
    by_cases hn : n < 10
    · rw [Nat.toDigits_of_lt_base hn]
      revert h
      interval_cases n <;> decide
    · rw [Nat.toDigits_of_base_le (by omega) (by omega), List.head?_append_of_ne_nil _ Nat.toDigits_ne_nil]
      exact ih _ (by omega) (by omega)

theorem evalInt_toDigits (n : Nat) : evalInt (Nat.toDigits 10 n) = some n := by
  unfold evalInt
  rw [if_neg, toInt_toDigits]
  rintro ⟨h1, h2⟩
  by_cases hn : n = 0
  · subst hn; exact h2 (by decide)
  · exact toDigits_head n (by omega) h1

/-! ## Digits -/

theorem digits_append {a : Str} {c : Char} {t : Str} (ha : ∀ x ∈ a, x.isDigit) (hc : ¬ c.isDigit) :
    digits (a ++ c :: t) = (a, c :: t) := by
  unfold digits
  rw [List.takeWhile_append_of_pos ha, List.dropWhile_append_of_pos ha]
  simp [hc]

theorem matchPair_one {a t : Str} (ha : ∀ x ∈ a, x.isDigit) :
    matchPair (a ++ ')' :: t) = some ([], a) := by
  unfold matchPair
  rw [digits_append ha (by decide)]
  rfl

theorem matchPair_two {a b t : Str} (ha : ∀ x ∈ a, x.isDigit) (hb : ∀ x ∈ b, x.isDigit) :
    matchPair (a ++ ',' :: (b ++ ')' :: t)) = some (a, b) := by
  unfold matchPair
  rw [digits_append ha (by decide)]
  simp only
  rw [digits_append hb (by decide)]
  rfl

/-! ## Replacement of the old syntax -/

/-- The characters after the replacement. -/
def Rel (c d : Char) : Prop := d = c ∨ (c = 'x' ∧ d = 'i') ∨ (c = 'y' ∧ d = 'j')

theorem replaceV_rel (x y : Char) : ∀ s : Str,
    List.Forall₂ (fun c d => d = c ∨ (c = x ∧ d = y)) s (replaceV x y s)
  | [] => by simp [replaceV]
  | [c] => by simp [replaceV]
  | c :: d :: t => by
    unfold replaceV
    split_ifs with h
    · exact .cons (.inl h.1.symm) (.cons (.inr ⟨h.2, rfl⟩) (replaceV_rel x y t))
    · exact .cons (.inl rfl) (replaceV_rel x y (d :: t))

theorem forall₂_filter {R : Char → Char → Prop} {p : Char → Bool}
    (hR : ∀ c d, R c d → p c = p d) {s t : Str} (h : List.Forall₂ R s t) :
    List.Forall₂ R (s.filter p) (t.filter p) := by
  induction h with
  | nil => simp
  | cons h _ ih =>
    rename_i c d _ _
    rw [List.filter_cons, List.filter_cons, hR _ _ h]
    split_ifs
    · exact .cons h ih
    · exact ih

theorem strip_replace (s : Str) :
    List.Forall₂ Rel (strip s) (strip (replaceV 'y' 'j' (replaceV 'x' 'i' s))) := by
  have h1 := replaceV_rel 'x' 'i' s
  have h2 := replaceV_rel 'y' 'j' (replaceV 'x' 'i' s)
  have h3 : List.Forall₂ Rel s (replaceV 'y' 'j' (replaceV 'x' 'i' s)) := by
    generalize replaceV 'x' 'i' s = u at h1 h2
    generalize replaceV 'y' 'j' u = v at h2
    induction h1 generalizing v with
    | nil => cases h2; exact .nil
    | cons h _ ih =>
      cases h2 with
      | cons h' hs =>
        refine .cons ?_ (ih _ hs)
        unfold Rel
        rcases h with rfl | ⟨rfl, rfl⟩
        · rcases h' with rfl | ⟨rfl, rfl⟩ <;> simp
        · rcases h' with rfl | ⟨h, rfl⟩
          · simp
          · exact absurd h (by decide)
  refine forall₂_filter ?_ h3
  rintro c d (rfl | ⟨rfl, rfl⟩ | ⟨rfl, rfl⟩)
  · rfl
  · decide
  · decide

theorem rel_eq {s t : Str} (h : List.Forall₂ Rel s t) (hs : ∀ c ∈ s, c ≠ 'x' ∧ c ≠ 'y') : t = s := by
  induction h with
  | nil => rfl
  | cons h _ ih =>
    rcases h with rfl | ⟨rfl, rfl⟩ | ⟨rfl, rfl⟩
    · rw [ih (fun c hc => hs c (by simp [hc]))]
    · exact absurd rfl (hs 'x' (by simp)).1
    · exact absurd rfl (hs 'y' (by simp)).2

theorem rel_ident {s t : Str} (h : List.Forall₂ Rel s t) (hs : IsIdent s) : IsIdent t := by
  obtain ⟨h1, c, h2, h3⟩ := hs
  constructor
  · clear h2 h3
    induction h with
    | nil => simp
    | cons h _ ih =>
      intro d hd
      rcases List.mem_cons.1 hd with rfl | hd
      · rcases h with rfl | ⟨rfl, rfl⟩ | ⟨rfl, rfl⟩
        · exact h1 _ (by simp)
        · left; decide
        · left; decide
      · exact ih (fun c hc => h1 c (by simp [hc])) d hd
  · cases h with
    | nil => simp at h2
    | cons h _ =>
      rename_i b _ _ _
      simp only [List.head?_cons, Option.some.injEq] at h2
      subst h2
      refine ⟨b, by simp, ?_⟩
      rcases h with rfl | ⟨rfl, rfl⟩ | ⟨rfl, rfl⟩
      · exact h3
      · decide
      · decide

theorem forall₂_append {R : Char → Char → Prop} {a b t : Str} (h : List.Forall₂ R (a ++ b) t) :
    ∃ a' b', List.Forall₂ R a a' ∧ List.Forall₂ R b b' ∧ t = a' ++ b' := by
  induction a generalizing t with
  | nil => exact ⟨[], t, .nil, h, rfl⟩
  | cons x a ih =>
    cases h with
    | cons hx h =>
      obtain ⟨a', b', h1, h2, rfl⟩ := ih h
      exact ⟨_ :: a', b', .cons hx h1, h2, rfl⟩

/-! ## `get_type` -/

theorem matchName_ident {name t : Str} (h : IsIdent name) :
    matchName (name ++ '=' :: t) = some (name, t) := by
  obtain ⟨h1, c, h2, h3⟩ := h
  cases name with
  | nil => simp at h2
  | cons a name =>
    simp only [List.head?_cons, Option.some.injEq] at h2
    subst h2
    have hall : ∀ x ∈ name, identChar x = true := by
      intro x hx
      have := h1 x (by simp [hx])
      simp only [identChar, Bool.or_eq_true, beq_iff_eq]
      tauto
    have hs : identStart a = true := by
      have := h1 a (by simp)
      simp only [identStart, Bool.or_eq_true, beq_iff_eq]
      tauto
    unfold matchName
    simp only [List.cons_append, hs, if_true]
    rw [List.takeWhile_append_of_pos hall, List.dropWhile_append_of_pos hall]
    simp [identChar]

theorem matchCat_keyword {c : Nat} (hc : c < 3) (t : Str) :
    matchCat (keyword c ++ '(' :: t) = some (c, t) := by
  interval_cases c <;> rfl

/-- What follows the name, without the keyword. -/
def tailText (pos : Option Nat) (dim : Nat) : Str :=
  (match pos with
      | none => []
      | some p => Nat.toDigits 10 p ++ [',']) ++ Nat.toDigits 10 dim ++ [')']

theorem aliasText_eq (name : Str) (cat : Nat) (pos : Option Nat) (dim : Nat) :
    aliasText name cat pos dim = name ++ '=' :: (keyword cat ++ '(' :: tailText pos dim) := by
  cases pos <;> simp [aliasText, tailText]

theorem mem_tailText {pos : Option Nat} {dim : Nat} {c : Char} (h : c ∈ tailText pos dim) :
    c.isDigit ∨ c = ',' ∨ c = ')' := by
  unfold tailText at h
  cases pos with
  | none =>
    simp only [List.nil_append, List.mem_append, List.mem_singleton] at h
    rcases h with h | h
    · exact .inl (isDigit_toDigits h)
    · exact .inr (.inr h)
  | some p =>
    simp only [List.mem_append, List.mem_singleton] at h
    rcases h with ((h | h) | h) | h
    · exact .inl (isDigit_toDigits h)
    · exact .inr (.inl h)
    · exact .inl (isDigit_toDigits h)
    · exact .inr (.inr h)

theorem mem_after {cat : Nat} {pos : Option Nat} {dim : Nat} {c : Char}
    (h : c ∈ keyword cat ++ '(' :: tailText pos dim) :
    c ∈ keyword cat ∨ c = '(' ∨ c.isDigit ∨ c = ',' ∨ c = ')' := by
  simp only [List.mem_append, List.mem_cons] at h
  rcases h with h | h | h
  · exact .inl h
  · exact .inr (.inl h)
  · exact .inr (.inr (mem_tailText h))

theorem getType_written {text name : Str} {cat : Nat} {pos : Option Nat} {dim : Nat} (k : Nat)
    (h : Written text name cat pos dim) :
    ∃ name', getType text k = some ⟨some name', cat, dim, pos.getD k⟩ := by
  have hr := strip_replace text
  have he : strip text = name ++ '=' :: (keyword cat ++ '(' :: tailText pos dim) := by
    rw [← aliasText_eq]; exact h.text_eq
  rw [he] at hr
  obtain ⟨name', rest, hn, hrest, hs⟩ : ∃ name' rest, List.Forall₂ Rel name name' ∧
      List.Forall₂ Rel ('=' :: (keyword cat ++ '(' :: tailText pos dim)) rest ∧
      strip (replaceV 'y' 'j' (replaceV 'x' 'i' text)) = name' ++ rest := by
    exact forall₂_append hr
  have hrest' : rest = '=' :: (keyword cat ++ '(' :: tailText pos dim) := by
    refine rel_eq hrest ?_
    intro c hc
    rcases List.mem_cons.1 hc with rfl | hc
    · decide
    · have hcat := h.cat_lt
      rcases mem_after hc with h | rfl | h | rfl | rfl
      · interval_cases cat <;> simp [keyword] at h <;> rcases h with rfl | rfl <;> decide
      · decide
      · constructor <;> rintro rfl <;> exact absurd h (by decide)
      · decide
      · decide
  subst hrest'
  refine ⟨name', ?_⟩
  unfold getType
  simp only [hs]
  rw [matchName_ident (rel_ident hn h.ident)]
  simp only [Option.bind_some, matchCat_keyword h.cat_lt]
  cases pos with
  | none =>
    have : matchPair (tailText none dim) = some ([], Nat.toDigits 10 dim) := by
      unfold tailText
      simpa using matchPair_one (t := []) (fun _ => isDigit_toDigits (n := dim))
    rw [this]
    simp [inferPos, toInt_toDigits]
  | some p =>
    have : matchPair (tailText (some p) dim) = some (Nat.toDigits 10 p, Nat.toDigits 10 dim) := by
      unfold tailText
      simpa using matchPair_two (t := []) (fun _ => isDigit_toDigits (n := p))
        (fun _ => isDigit_toDigits (n := dim))
    rw [this]
    simp [inferPos, toInt_toDigits, Nat.toDigits_ne_nil]

/-! ## `LoadKeOps` -/

theorem split_none {c : Char} {s : Str} (h : c ∉ s) : split c s = [s] := by
  induction s with
  | nil => rfl
  | cons x t ih =>
    simp only [List.mem_cons, not_or] at h
    unfold split
    rw [if_neg (fun e => h.1 e.symm), ih h.2]

theorem split_append {c : Char} {s t : Str} (h : c ∉ s) : split c (s ++ c :: t) = s :: split c t := by
  induction s with
  | nil => simp [split]
  | cons x u ih =>
    simp only [List.mem_cons, not_or] at h
    rw [List.cons_append]
    conv_lhs => unfold split
    rw [if_neg (fun e => h.1 e.symm), ih h.2]

theorem contains_false {b a : Str} (c : Char) (hc : c ∈ a) (hb : c ∉ b) : contains b a = false := by
  unfold contains
  rw [decide_eq_false_iff_not]
  intro h
  exact hb (h.subset hc)

theorem name_noeq {name : Str} (h : IsIdent name) : '=' ∉ name := by
  intro hm
  rcases h.1 _ hm with h | h | h
  · exact absurd h (by decide)
  · exact absurd h (by decide)
  · exact absurd h (by decide)

theorem loadAlias_written {text name : Str} {cat : Nat} {pos : Option Nat} {dim : Nat} (k : Nat)
    (loc : Locals) (h : Written text name cat pos dim) :
    ∃ loc', loadAlias k loc text = some (loc', [⟨name, pos.getD k, dim, cat⟩]) := by
  have he : strip text = name ++ '=' :: (keyword cat ++ '(' :: tailText pos dim) := by
    rw [← aliasText_eq]; exact h.text_eq
  have hcat := h.cat_lt
  have hno : ∀ c : Char, c ∉ keyword cat → c ≠ '(' → ¬ c.isDigit → c ≠ ',' → c ≠ ')' →
      c ∉ keyword cat ++ '(' :: tailText pos dim := by
    intro c h1 h2 h3 h4 h5 hm
    rcases mem_after hm with h | h | h | h | h
    · exact h1 h
    · exact h2 h
    · exact h3 h
    · exact h4 h
    · exact h5 h
  have heq : '=' ∉ keyword cat ++ '(' :: tailText pos dim := by
    apply hno <;> first | decide | (interval_cases cat <;> decide)
  have hsplit : split '=' (strip text) = [name, keyword cat ++ '(' :: tailText pos dim] := by
    rw [he, split_append (name_noeq h.ident), split_none heq]
  have hdrop : ((keyword cat ++ '(' :: tailText pos dim).drop 3).dropLast = (tailText pos dim).dropLast := by
    congr 1
    interval_cases cat <;> rfl
  have hargs : split ',' (tailText pos dim).dropLast = 
      pos.elim [Nat.toDigits 10 dim] (fun p => [Nat.toDigits 10 p, Nat.toDigits 10 dim]) := by
    have hd : ∀ n, ',' ∉ Nat.toDigits 10 n := fun n hm => absurd (isDigit_toDigits hm) (by decide)
    cases pos with
    | none =>
      simp only [tailText, List.nil_append, List.dropLast_concat]
      exact split_none (hd _)
    | some p =>
      simp only [tailText, List.dropLast_concat]
      rw [List.append_assoc, List.singleton_append, split_append (hd _), split_none (hd _)]
      rfl
  have hc : (if contains (keyword cat ++ '(' :: tailText pos dim) ['V', 'i'] then some 0
        else if contains (keyword cat ++ '(' :: tailText pos dim) ['V', 'j'] then some 1
        else if contains (keyword cat ++ '(' :: tailText pos dim) ['P', 'm'] then some 2
        else loc.cat) = some cat := by
    have hk : contains (keyword cat ++ '(' :: tailText pos dim) (keyword cat) = true := by
      unfold contains
      rw [decide_eq_true_iff]
      exact ⟨[], '(' :: tailText pos dim, by simp⟩
    have hf : ∀ (a : Str) (c : Char), c ∈ a → c ∉ keyword cat → c ≠ '(' → ¬ c.isDigit → c ≠ ',' →
        c ≠ ')' → contains (keyword cat ++ '(' :: tailText pos dim) a = false :=
      fun a c h0 h1 h2 h3 h4 h5 => contains_false c h0 (hno c h1 h2 h3 h4 h5)
    interval_cases cat
    · exact if_pos hk
    · rw [hf ['V', 'i'] 'i' (by decide) (by decide) (by decide) (by decide) (by decide) (by decide)]
      simp only [Bool.false_eq_true, if_false]
      exact if_pos hk
    · rw [hf ['V', 'i'] 'i' (by decide) (by decide) (by decide) (by decide) (by decide) (by decide),
        hf ['V', 'j'] 'j' (by decide) (by decide) (by decide) (by decide) (by decide) (by decide)]
      simp only [Bool.false_eq_true, if_false]
      exact if_pos hk
  have hmem : '=' ∈ strip text := by rw [he]; simp
  unfold loadAlias
  simp only [hmem, if_true, hsplit, hdrop, hargs, hc]
  cases pos with
  | none => simp [evalInt_toDigits]
  | some p => simp [evalInt_toDigits]

/-- An alias without `=` gives no binding. -/
theorem loadAlias_noeq {text : Str} (k : Nat) (loc : Locals) (h : '=' ∉ text) :
    loadAlias k loc text = some (loc, []) := by
  unfold loadAlias
  have : '=' ∉ strip text := fun hm => h (List.mem_filter.1 hm).1
  simp only [this, if_false]

/-- The bindings of a list of aliases. -/
theorem loadFrom_spec (as : List Str)
    (h : ∀ a ∈ as, '=' ∉ a ∨ ∃ name cat pos dim, Written a name cat pos dim) (k : Nat) (loc : Locals) :
    ∃ bs, loadFrom k loc (as.map some) = some bs ∧
      (∀ b ∈ bs, ∃ i a pos, as[i]? = some a ∧ Written a b.name b.cat pos b.dim ∧
        b.ind = pos.getD (k + i)) ∧
      (∀ i a name cat pos dim, as[i]? = some a → Written a name cat pos dim →
        (⟨name, pos.getD (k + i), dim, cat⟩ : Binding) ∈ bs) := by
  induction as generalizing k loc with
  | nil => exact ⟨[], rfl, by simp, by simp⟩
  | cons a as ih =>
    have hw : ∀ name cat pos dim, Written a name cat pos dim → '=' ∈ a := by
      intro name cat pos dim hW
      have : '=' ∈ a.filter (· ≠ ' ') := by rw [hW.text_eq, aliasText_eq]; simp
      exact (List.mem_filter.1 this).1
    rcases h a (by simp) with hn | ⟨name, cat, pos, dim, hW⟩
    · obtain ⟨bs, h1, h2, h3⟩ := ih (fun b hb => h b (by simp [hb])) (k + 1) loc
      refine ⟨bs, ?_, ?_, ?_⟩
      · simp [loadFrom, loadAlias_noeq k loc hn, h1]
      · intro b hb
        obtain ⟨i, a', pos, hi, hW, hp⟩ := h2 b hb
        exact ⟨i + 1, a', pos, by simpa using hi, hW, by rw [hp]; congr 1; omega⟩
      · intro i a' name cat pos dim hi hW
        cases i with
        | zero =>
          simp only [List.getElem?_cons_zero, Option.some.injEq] at hi
          subst hi
          exact absurd (hw _ _ _ _ hW) hn
        | succ i =>
          have := h3 i a' name cat pos dim (by simpa using hi) hW
          rwa [show k + 1 + i = k + (i + 1) from by omega] at this
    · obtain ⟨loc', hl⟩ := loadAlias_written k loc hW
      obtain ⟨bs, h1, h2, h3⟩ := ih (fun b hb => h b (by simp [hb])) (k + 1) loc'
      refine ⟨⟨name, pos.getD k, dim, cat⟩ :: bs, ?_, ?_, ?_⟩
      · simp [loadFrom, hl, h1]
      · intro b hb
        rcases List.mem_cons.1 hb with rfl | hb
        · exact ⟨0, a, pos, by simp, hW, by simp⟩
        · obtain ⟨i, a', pos, hi, hW, hp⟩ := h2 b hb
          exact ⟨i + 1, a', pos, by simpa using hi, hW, by rw [hp]; congr 1; omega⟩
      · intro i a' name' cat' pos' dim' hi hW'
        cases i with
        | zero =>
          simp only [List.getElem?_cons_zero, Option.some.injEq] at hi
          subst hi
          obtain ⟨loc'', hl'⟩ := loadAlias_written k loc hW'
          rw [hl] at hl'
          simp only [Option.some.injEq, Prod.mk.injEq, List.cons.injEq, and_true] at hl'
          rw [hl'.2]
          simp
        | succ i =>
          have := h3 i a' name' cat' pos' dim' (by simpa using hi) hW'
          rw [show k + 1 + i = k + (i + 1) from by omega] at this
          exact List.mem_cons_of_mem _ this

theorem lookup_of_mem {bs : List Binding} {b : Binding} (hb : b ∈ bs)
    (hu : ∀ c ∈ bs, c.name = b.name → c = b) : lookup bs b.name = some b := by
  unfold lookup
  have hm : b ∈ bs.filter (fun c => decide (c.name = b.name)) := by simp [hb]
  cases hg : (bs.filter (fun c => decide (c.name = b.name))).getLast? with
  | none => simp [List.getLast?_eq_none_iff] at hg; exact absurd rfl (hg b hb)
  | some c =>
    have hc := List.mem_of_getLast? hg
    simp only [List.mem_filter, decide_eq_true_eq] at hc
    rw [hu c hc.1 hc.2]

/-! ## Variables in a formula -/

theorem matchVar3_varText {a b c v : Str} (ha : IsDigits a) (hb : IsDigits b) (hc : IsDigits c) :
    matchVar3 (varText a b c ++ v) = some (Nat.ofDigitChars 10 a 0, Nat.ofDigitChars 10 b 0,
      Nat.ofDigitChars 10 c 0, v) := by
  have : varText a b c ++ v = 'V' :: 'a' :: 'r' :: '(' :: (a ++ ',' :: (b ++ ',' :: (c ++ ')' :: v))) := by
    simp [varText]
  rw [this]
  unfold matchVar3
  simp only [digits_append ha.2 (show ¬ (',').isDigit by decide),
    digits_append hb.2 (show ¬ (',').isDigit by decide),
    digits_append hc.2 (show ¬ (')').isDigit by decide), toInt_eq ha, toInt_eq hb, toInt_eq hc]
  rfl

theorem toInt_isDigits {s : Str} {n : Nat} (h : toInt s = some n) :
    IsDigits s ∧ n = Nat.ofDigitChars 10 s 0 := by
  have hd : IsDigits s := by
    unfold toInt at h
    split_ifs at h with h1
    · push_neg at h1
      exact ⟨h1.1, List.all_eq_true.1 h1.2⟩
  rw [toInt_eq hd] at h
  exact ⟨hd, (Option.some.inj h).symm⟩

theorem digits_eq {s : Str} : s = (digits s).1 ++ (digits s).2 := by
  simp [digits, List.takeWhile_append_dropWhile]

theorem matchVar3_some {s : Str} {p d c : Nat} {v : Str} (h : matchVar3 s = some (p, d, c, v)) :
    ∃ a b e, IsDigits a ∧ IsDigits b ∧ IsDigits e ∧ p = Nat.ofDigitChars 10 a 0 ∧
      s = varText a b e ++ v := by
  unfold matchVar3 at h
  split at h
  · rename_i s
    simp only at h
    split at h
    · rename_i t ht
      split at h
      · rename_i u hu
        split at h
        · rename_i w hw
          simp only [Option.bind_eq_bind, Option.pure_def, Option.bind_eq_some_iff] at h
          obtain ⟨x, hx, y, hy, z, hz, h⟩ := h
          simp only [Option.some.injEq, Prod.mk.injEq] at h
          obtain ⟨hx1, hx2⟩ := toInt_isDigits hx
          obtain ⟨hy1, hy2⟩ := toInt_isDigits hy
          obtain ⟨hz1, hz2⟩ := toInt_isDigits hz
          refine ⟨_, _, _, hx1, hy1, hz1, by rw [← h.1, hx2], ?_⟩
          rw [← h.2.2.2]
          have e1 := digits_eq (s := s)
          have e2 := digits_eq (s := t)
          have e3 := digits_eq (s := u)
          rw [ht] at e1
          rw [hu] at e2
          rw [hw] at e3
          simp only [varText, List.append_assoc, List.cons_append, List.nil_append]
          rw [← e3, ← e2, ← e1]
        · cases h
      · cases h
    · cases h
  · cases h

theorem noV {a b c : Str} (ha : IsDigits a) (hb : IsDigits b) (hc : IsDigits c) :
    ∃ t, varText a b c = 'V' :: t ∧ 'V' ∉ t := by
  refine ⟨['a', 'r', '('] ++ a ++ [','] ++ b ++ [','] ++ c ++ [')'], by simp [varText], ?_⟩
  have hd : ∀ s, IsDigits s → 'V' ∉ s := fun s hs hm => absurd (hs.2 _ hm) (by decide)
  simp [hd a ha, hd b hb, hd c hc]

theorem varText_length {a b c : Str} : 0 < (varText a b c).length := by simp [varText]

theorem findVars_spec (fuel : Nat) (s : Str) (hf : s.length ≤ fuel) (p : Nat) (w : Str) :
    (p, w) ∈ findVars fuel s ↔ ∃ a b c, IsDigits a ∧ IsDigits b ∧ IsDigits c ∧
      p = Nat.ofDigitChars 10 a 0 ∧ w = varText a b c ∧ w <:+: s := by
  induction fuel generalizing s with
  | zero =>
    have : s = [] := List.length_eq_zero_iff.1 (by omega)
    subst this
    simp only [findVars, List.not_mem_nil, false_iff]
    rintro ⟨a, b, c, _, _, _, _, rfl, h⟩
    have := h.length_le
    have := varText_length (a := a) (b := b) (c := c)
    simp only [List.length_nil] at *
    omega
  | succ fuel ih =>
    cases s with
    | nil =>
      simp only [findVars, List.not_mem_nil, false_iff]
      rintro ⟨a, b, c, _, _, _, _, rfl, h⟩
      have := h.length_le
      have := varText_length (a := a) (b := b) (c := c)
      simp only [List.length_nil] at *
      omega
    | cons x s =>
      simp only [List.length_cons] at hf
      cases hm : matchVar3 (x :: s) with
      | none =>
        simp only [findVars, hm]
        rw [ih s (by omega)]
        constructor
        · rintro ⟨a, b, c, ha, hb, hc, hp, hw, h⟩
          exact ⟨a, b, c, ha, hb, hc, hp, hw, h.trans (List.suffix_cons x s).isInfix⟩
        · rintro ⟨a, b, c, ha, hb, hc, hp, rfl, h⟩
          refine ⟨a, b, c, ha, hb, hc, hp, rfl, ?_⟩
          rcases List.infix_cons_iff.1 h with ⟨v, hv⟩ | h
          · rw [← hv, matchVar3_varText ha hb hc] at hm
            cases hm
          · exact h
      | some r =>
        obtain ⟨q, d, e, rest⟩ := r
        obtain ⟨a', b', c', ha', hb', hc', hq, hs⟩ := matchVar3_some hm
        have hlen : (x :: s).length = (varText a' b' c').length + rest.length := by rw [hs]; simp
        have htake : (x :: s).take ((x :: s).length - rest.length) = varText a' b' c' := by
          rw [hlen, Nat.add_sub_cancel, hs, List.take_left]
        have hpos := varText_length (a := a') (b := b') (c := c')
        simp only [findVars, hm]
        rw [htake, List.mem_cons, ih rest (by simp at hlen; omega)]
        constructor
        · rintro (h | ⟨a, b, c, ha, hb, hc, hp, hw, h⟩)
          · simp only [Prod.mk.injEq] at h
            exact ⟨a', b', c', ha', hb', hc', by rw [h.1, hq], h.2, by
              rw [h.2, hs]; exact (List.prefix_append _ _).isInfix⟩
          · refine ⟨a, b, c, ha, hb, hc, hp, hw, h.trans ?_⟩
            rw [hs]
            exact (List.suffix_append _ _).isInfix
        · rintro ⟨a, b, c, ha, hb, hc, hp, rfl, u, v, huv⟩
          obtain ⟨t, ht, hV⟩ := noV ha hb hc
          obtain ⟨t', ht', hV'⟩ := noV ha' hb' hc'
          cases u with
          | nil =>
            left
            rw [List.nil_append] at huv
            rw [← huv, matchVar3_varText ha hb hc] at hm
            simp only [Option.some.injEq, Prod.mk.injEq] at hm
            obtain ⟨h1, _, _, h4⟩ := hm
            rw [← huv, h4] at hs
            simp only [Prod.mk.injEq]
            exact ⟨by rw [hp, h1], List.append_cancel_right hs⟩
          | cons y u =>
            right
            refine ⟨a, b, c, ha, hb, hc, hp, rfl, ?_⟩
            rw [hs, ht', ht] at huv
            simp only [List.cons_append, List.cons.injEq, List.append_assoc] at huv
            have h2 := huv.2
            rcases List.append_eq_append_iff.1 h2 with ⟨z, hz1, hz2⟩ | ⟨z, hz1, hz2⟩
            · cases z with
              | nil =>
                rw [List.nil_append] at hz2
                exact ⟨[], v, by rw [ht]; simpa using hz2⟩
              | cons z0 z =>
                simp only [List.cons_append, List.cons.injEq] at hz2
                exact absurd (by rw [hz1, ← hz2.1]; simp) hV'
            · exact ⟨z, v, by rw [hz2, ht]; simp⟩

theorem mem_formulaVars (f : Str) (p : Nat) (w : Str) : (p, w) ∈ formulaVars f ↔ Occurs f p w := by
  unfold formulaVars
  rw [findVars_spec _ _ (Nat.le_refl _)]
  rfl

/-! ## `complete_aliases` -/

theorem assign_length : ∀ (r : List (Nat × Str)) (as as' : List (Option Str)),
    assign r as = some as' → as'.length = as.length
  | [], as, as', h => by simp [assign] at h; rw [h]
  | (p, s) :: r, as, as', h => by
    unfold assign at h
    split_ifs at h
    have := assign_length r _ _ h
    simpa using this

theorem assign_other : ∀ (r : List (Nat × Str)) (as as' : List (Option Str)) (p : Nat),
    assign r as = some as' → p ∉ r.map Prod.fst → as'[p]? = as[p]?
  | [], as, as', p, h, _ => by simp [assign] at h; rw [h]
  | (q, s) :: r, as, as', p, h, hp => by
    unfold assign at h
    split_ifs at h
    simp only [List.map_cons, List.mem_cons, not_or] at hp
    rw [assign_other r _ _ p h hp.2, List.getElem?_set_ne (fun e => hp.1 e.symm)]

theorem assign_mem : ∀ (r : List (Nat × Str)) (as as' : List (Option Str)) (p : Nat) (s : Str),
    assign r as = some as' → (r.map Prod.fst).Nodup → (p, s) ∈ r → as'[p]? = some (some s)
  | [], _, _, _, _, _, _, h => by simp at h
  | (q, t) :: r, as, as', p, s, h, hn, hm => by
    unfold assign at h
    split_ifs at h with hq
    simp only [List.map_cons, List.nodup_cons] at hn
    rcases List.mem_cons.1 hm with he | hm
    · simp only [Prod.mk.injEq] at he
      obtain ⟨rfl, rfl⟩ := he
      rw [assign_other r _ _ p h hn.1]
      simp [hq]
    · exact assign_mem r _ _ p s h hn.2 hm

theorem assign_some : ∀ (r : List (Nat × Str)) (as : List (Option Str)),
    (∀ v ∈ r, v.1 < as.length) → ∃ as', assign r as = some as'
  | [], as, _ => ⟨as, rfl⟩
  | (p, s) :: r, as, h => by
    unfold assign
    rw [if_pos (h (p, s) (by simp))]
    exact assign_some r _ (fun v hv => by simpa using h v (by simp [hv]))

/-- In a completed list the new positions are the positions after the aliases, each of them once. -/
theorem complete_perm {ev : List (Nat × Str)} {aliases : List Str} {r : List (Option Str)}
    (h : completeAliases ev aliases = some r) (hn : none ∉ r) :
    let new := ev.filter (fun v => ¬ v.1 < aliases.length)
    (new.map Prod.fst).Nodup ∧ r.length = aliases.length + new.length := by
  intro new
  have hlen := assign_length _ _ _ h
  simp only [List.length_append, List.length_map, List.length_replicate] at hlen
  refine ⟨?_, hlen⟩
  have hsub : List.range' aliases.length new.length ⊆ new.map Prod.fst := by
    intro p hp
    by_contra hc
    have ho := assign_other _ _ _ p h hc
    simp only [List.mem_range'_1] at hp
    rw [List.getElem?_append_right (by simp; omega), List.getElem?_replicate, if_pos] at ho
    · exact hn (List.mem_of_getElem? ho)
    · simp only [List.length_map]
      change p - aliases.length < new.length
      omega
  have hperm := List.subperm_of_subset (List.nodup_range' (s := aliases.length) (n := new.length)) hsub
  exact (hperm.perm_of_length_le (by simp)).nodup_iff.1 List.nodup_range'

end Verif.Alias
