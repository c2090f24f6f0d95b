import Verif.Model.Parse
import Verif.Model.Methods
import Verif.Proofs.Aliases
import Verif.Spec.FormulaCode

/-!
# The texts written by lazy tensors are read back
-/

namespace Verif.Parse
open Alias (Str)
open Lazy (num showInt)
open Spec (LTree optText)

/-- A name: it begins with a letter. -/
def IsName (f : Str) : Prop := (∃ c r, f = c :: r ∧ c.isAlpha) ∧ ∀ c ∈ f, nameChar c

/-- The expression written by a tree, when the leaf `(a, d, c)` is the variable of index `lab a d c`. -/
inductive Denotes {A : Type} (lab : A → Nat → Nat → Int) : LTree A → Term → Prop
  | leaf (a : A) (d c : Nat) : Denotes lab (.leaf a d c) (.var (lab a d c) d c)
  | int (n : Int) : Denotes lab (.const ("IntCst(".toList ++ showInt n ++ [')'])) (.int n)
  | un {f : Str} {os : List Int} {x : LTree A} {t r : Term} (hf : IsName f) (hx : Denotes lab x t)
      (h : call f (.term t :: os.map .num) = some r) :
      Denotes lab (.un (f ++ ['(']) (optText [','] (os.map showInt)) x) r
  | bin {f : Str} {x y : LTree A} {t u r : Term} (hf : IsName f) (hx : Denotes lab x t) (hy : Denotes lab y u)
      (h : call f [.term t, .term u] = some r) : Denotes lab (.bin (f ++ ['(']) [',', ' '] [')'] x y) r
  | op {o : Str} {x y : LTree A} {t u r : Term} (ho : ∀ c ∈ o, c ≠ ' ') (hx : Denotes lab x t)
      (hy : Denotes lab y u) (h : infix' o t u = some r) :
      Denotes lab (.bin ['('] (' ' :: o ++ [' ']) [')'] x y) r
  | ter {f : Str} {x y z : LTree A} {t u v r : Term} (hf : IsName f) (hx : Denotes lab x t)
      (hy : Denotes lab y u) (hz : Denotes lab z v) (h : call f [.term t, .term u, .term v] = some r) :
      Denotes lab (.ter (f ++ ['(']) [',', ' '] [',', ' '] [')'] x y z) r

/-! ## Integers -/

theorem digits_num {n : Nat} {c : Char} {s : Str} (hc : ¬ c.isDigit) :
    Alias.digits (num n ++ c :: s) = (num n, c :: s) :=
  Alias.digits_append (fun _ h => Alias.isDigit_toDigits h) hc

theorem num_cons (n : Nat) : ∃ c r, num n = c :: r ∧ c.isDigit := by
  cases h : num n with
  | nil => exact absurd h Nat.toDigits_ne_nil
  | cons c r =>
    refine ⟨c, r, rfl, Alias.isDigit_toDigits (n := n) ?_⟩
    show c ∈ num n
    rw [h]
    simp

theorem parseInt_pos {n : Nat} {c : Char} {s : Str} (hc : ¬ c.isDigit) :
    parseInt (num n ++ c :: s) = some ((n : Int), c :: s) := by
  obtain ⟨d, r, hd, hdig⟩ := num_cons n
  have hne : d ≠ '-' := by
    rintro rfl
    exact absurd hdig (by decide)
  have : parseInt (num n ++ c :: s) = (Alias.toInt (Alias.digits (num n ++ c :: s)).1).map
      (fun m => ((m : Int), (Alias.digits (num n ++ c :: s)).2)) := by
    rw [hd, List.cons_append]
    unfold parseInt
    split
    · rename_i heq
      simp only [List.cons.injEq] at heq
      exact absurd heq.1 hne
    · rfl
  rw [this, digits_num hc]
  simp only [num, Alias.toInt_toDigits]
  rfl

theorem parseInt_show {n : Int} {c : Char} {s : Str} (hc : ¬ c.isDigit) :
    parseInt (showInt n ++ c :: s) = some (n, c :: s) := by
  unfold showInt
  split
  · rename_i h
    rw [List.cons_append]
    simp only [parseInt]
    rw [digits_num hc]
    simp only [num, Alias.toInt_toDigits, Option.map_some]
    have e : (-(n.natAbs : Int)) = n := by omega
    rw [← e]
    simp
  · rename_i h
    rw [parseInt_pos hc]
    have e : (n.natAbs : Int) = n := by omega
    simp only [e]

theorem parseInt_name {c : Char} {s : Str} (h1 : ¬ c.isDigit) (h2 : c ≠ '-') : parseInt (c :: s) = none := by
  unfold parseInt
  split
  · rename_i heq
    simp only [List.cons.injEq] at heq
    exact absurd heq.1 h2
  · have : Alias.digits (c :: s) = ([], c :: s) := by
      simp [Alias.digits, List.takeWhile_cons, List.dropWhile_cons, h1]
    rw [this]
    rfl

theorem show_head (n : Int) : ∃ c r, showInt n = c :: r ∧ c ≠ ' ' := by
  unfold showInt
  split
  · exact ⟨_, _, rfl, by decide⟩
  · obtain ⟨c, r, h, hd⟩ := num_cons n.natAbs
    refine ⟨c, r, h, ?_⟩
    rintro rfl
    exact absurd hd (by decide)

/-! ## Arguments -/

/-- The text `w` is read as the argument `a`. -/
def ReadsArg (w : Str) (a : PArg) : Prop :=
  ∀ n rest c, (c = ',' ∨ c = ')') → w.length < n →
    ((parseInt (w ++ c :: rest)).elim ((parseE n (w ++ c :: rest)).map fun a => (PArg.term a.1, a.2))
      fun a => some (PArg.num a.1, a.2)) = some (a, c :: rest)

theorem sep_not_digit {c : Char} (h : c = ',' ∨ c = ')') : ¬ c.isDigit := by
  rcases h with rfl | rfl <;> decide

theorem readsArg_int (n : Int) : ReadsArg (showInt n) (.num n) := by
  intro m rest c hc _
  rw [parseInt_show (sep_not_digit hc)]
  rfl

theorem readsArg_nat (n : Nat) : ReadsArg (num n) (.num n) := by
  intro m rest c hc _
  rw [parseInt_pos (sep_not_digit hc)]
  rfl

theorem readsArg_term {w : Str} {t : Term} (hh : ∃ c r, w = c :: r ∧ (c = '(' ∨ c.isAlpha))
    (h : ∀ n rest, w.length < n → parseE n (w ++ rest) = some (t, rest)) : ReadsArg w (.term t) := by
  intro n rest c hc hn
  obtain ⟨d, r, rfl, hd⟩ := hh
  have h1 : parseInt ((d :: r) ++ c :: rest) = none := by
    rw [List.cons_append]
    rcases hd with rfl | hd
    · exact parseInt_name (by decide) (by decide)
    · refine parseInt_name (fun h => ?_) ?_
      · simp only [Char.isAlpha, Char.isUpper, Char.isLower, Char.isDigit, Bool.or_eq_true, Bool.and_eq_true,
          decide_eq_true_eq, ge_iff_le, UInt32.le_iff_toNat_le] at hd h
        have e1 : 'A'.val.toNat = 65 := rfl
        have e2 : 'Z'.val.toNat = 90 := rfl
        have e3 : 'a'.val.toNat = 97 := rfl
        have e4 : 'z'.val.toNat = 122 := rfl
        have e5 : '0'.val.toNat = 48 := rfl
        have e6 : '9'.val.toNat = 57 := rfl
        omega
      · rintro rfl
        exact absurd hd (by decide)
  rw [h1, h n _ hn]
  rfl

theorem parseArgs_last {w : Str} {a : PArg} (h : ReadsArg w a) {n : Nat} (hn : w.length + 1 < n) (rest : Str) :
    parseArgs n (w ++ ')' :: rest) = some ([a], rest) := by
  obtain ⟨m, rfl⟩ : ∃ m, n = m + 1 := ⟨n - 1, by omega⟩
  rw [parseArgs, h m rest ')' (.inr rfl) (by omega)]
  rfl

theorem parseArgs_space {w s : Str} {a : PArg} (h : ReadsArg w a) {n : Nat} (hn : w.length + 1 < n)
    {as : List PArg} {rest : Str} (hs : parseArgs (n - 1) s = some (as, rest)) :
    parseArgs n (w ++ ',' :: ' ' :: s) = some (a :: as, rest) := by
  obtain ⟨m, rfl⟩ : ∃ m, n = m + 1 := ⟨n - 1, by omega⟩
  rw [Nat.add_sub_cancel] at hs
  rw [parseArgs, h m _ ',' (.inl rfl) (by omega)]
  simp only [Option.bind_some, hs, Option.map_some]

theorem parseArgs_comma {w s : Str} {a : PArg} (h : ReadsArg w a) {n : Nat} (hn : w.length + 1 < n)
    {as : List PArg} {rest : Str} (hs : parseArgs (n - 1) s = some (as, rest)) (hh : s.head? ≠ some ' ') :
    parseArgs n (w ++ ',' :: s) = some (a :: as, rest) := by
  obtain ⟨m, rfl⟩ : ∃ m, n = m + 1 := ⟨n - 1, by omega⟩
  rw [Nat.add_sub_cancel] at hs
  rw [parseArgs, h m _ ',' (.inl rfl) (by omega)]
  simp only [Option.bind_some]
  split
  · rename_i heq
    simp at heq
  · rename_i r heq
    simp only [List.cons.injEq, true_and] at heq
    subst heq
    simp at hh
  · rename_i r _ heq
    simp only [List.cons.injEq, true_and] at heq
    subst heq
    simp [hs]
  · rename_i h1 h2 h3
    exact absurd rfl (h3 _)

theorem parseArgs_ints : ∀ (os : List Int) {w : Str} {a : PArg}, ReadsArg w a → ∀ {n : Nat},
    w.length + (optText [','] (os.map showInt)).length + 1 ≤ n → ∀ rest,
    parseArgs n (w ++ optText [','] (os.map showInt) ++ rest) = some (a :: os.map .num, rest)
  | [], w, a, h, n, hn, rest => by
    simp only [optText, List.map_nil, List.flatMap_nil, List.nil_append, List.length_singleton] at hn ⊢
    rw [List.append_assoc]
    exact parseArgs_last h (by omega) rest
  | o :: os, w, a, h, n, hn, rest => by
    have e : optText [','] ((o :: os).map showInt) = ',' :: (showInt o ++ optText [','] (os.map showInt)) := by
      simp [optText]
    rw [e] at hn ⊢
    simp only [List.length_cons, List.length_append] at hn
    rw [List.append_assoc, List.cons_append]
    refine parseArgs_comma h (by omega) ?_ ?_
    · exact parseArgs_ints os (readsArg_int o) (by omega) rest
    · obtain ⟨c, r, hc, hne⟩ := show_head o
      rw [hc]
      simpa using hne

/-! ## Calls -/

theorem takeWhile_name {f : Str} (h : IsName f) (s : Str) : (f ++ '(' :: s).takeWhile nameChar = f := by
  rw [List.takeWhile_append_of_pos h.2]
  simp [List.takeWhile_cons, show nameChar '(' = false from by decide]

theorem dropWhile_name {f : Str} (h : IsName f) (s : Str) : (f ++ '(' :: s).dropWhile nameChar = '(' :: s := by
  rw [List.dropWhile_append_of_pos h.2]
  simp [List.dropWhile_cons, show nameChar '(' = false from by decide]

theorem parseE_call {f s : Str} (hf : IsName f) {n : Nat} {as : List PArg} {rest : Str} {t : Term}
    (hs : parseArgs n s = some (as, rest)) (hc : call f as = some t) :
    parseE (n + 1) (f ++ '(' :: s) = some (t, rest) := by
  obtain ⟨⟨c, r, rfl, hc'⟩, h2⟩ := id hf
  have e : parseE (n + 1) ((c :: r) ++ '(' :: s) =
      ((expect '(' (((c :: r) ++ '(' :: s).dropWhile nameChar)).bind fun q =>
        (parseArgs n q).bind fun a =>
          (call (((c :: r) ++ '(' :: s).takeWhile nameChar) a.1).map fun t => (t, a.2)) := by
    rw [List.cons_append, parseE]
    intro u hu
    simp only [List.cons.injEq] at hu
    obtain ⟨rfl, -⟩ := hu
    exact absurd hc' (by decide)
  rw [e, dropWhile_name hf, takeWhile_name hf]
  simp [expect, hs, hc]

theorem isName_of {f : Str} (h : f.head?.any Char.isAlpha = true ∧ f.all nameChar = true) : IsName f := by
  obtain ⟨h1, h2⟩ := h
  refine ⟨?_, fun c hc => List.all_eq_true.1 h2 c hc⟩
  cases f with
  | nil => simp at h1
  | cons c r => exact ⟨c, r, rfl, by simpa using h1⟩

theorem isName_Var : IsName "Var".toList := isName_of (by decide +kernel)
theorem isName_IntCst : IsName "IntCst".toList := isName_of (by decide +kernel)

theorem call_int (n : Int) : call "IntCst".toList [.num n] = some (.int n) := by
  simp only [call, if_true]

theorem call_var (i : Int) (d c : Nat) : call "Var".toList [.num i, .num d, .num c] = some (.var i d c) := by
  simp only [call, true_and]
  rw [if_pos (by omega)]
  simp

/-! ## Texts -/

/-- The label of a leaf that is a position. -/
def posLab : Nat → Nat → Nat → Int := fun p _ _ => p

theorem text_head {T : LTree Nat} {t : Term} (h : Denotes posLab T t) :
    ∃ c r, T.text id = c :: r ∧ (c = '(' ∨ c.isAlpha) := by
  have name : ∀ {f s : Str}, IsName f → ∃ c r, f ++ ['('] ++ s = c :: r ∧ (c = '(' ∨ c.isAlpha) := by
    rintro f s ⟨⟨c, r, rfl, hc⟩, -⟩
    exact ⟨c, r ++ ['('] ++ s, by simp, .inr hc⟩
  cases h with
  | leaf a d c =>
    have h := name (f := "Var".toList) (s := num a ++ ',' :: (num d ++ ',' :: (num c ++ [')'])))
      (isName_of (by decide +kernel))
    simpa [LTree.text, num] using h
  | int n =>
    have h := name (f := "IntCst".toList) (s := showInt n ++ [')']) (isName_of (by decide +kernel))
    simpa [LTree.text] using h
  | un hf hx h =>
    simp only [LTree.text]
    rw [List.append_assoc]
    exact name hf
  | bin hf hx hy h =>
    simp only [LTree.text]
    rw [List.append_assoc, List.append_assoc, List.append_assoc]
    exact name hf
  | op ho hx hy h => exact ⟨'(', _, rfl, .inl rfl⟩
  | ter hf hx hy hz h =>
    simp only [LTree.text]
    rw [List.append_assoc, List.append_assoc, List.append_assoc, List.append_assoc, List.append_assoc]
    exact name hf

theorem name_pos {f : Str} (h : IsName f) : 0 < f.length := by
  obtain ⟨⟨c, r, rfl, _⟩, _⟩ := h
  simp

theorem parseE_text {T : LTree Nat} {t : Term} (h : Denotes posLab T t) :
    ∀ n rest, (T.text id).length < n → parseE n (T.text id ++ rest) = some (t, rest) := by
  induction h with
  | leaf a d c =>
    intro n rest hn
    obtain ⟨m, rfl⟩ : ∃ m, n = m + 1 := ⟨n - 1, by omega⟩
    have e : (LTree.leaf a d c).text id ++ rest =
        "Var".toList ++ '(' :: (num a ++ ',' :: (num d ++ ',' :: (num c ++ ')' :: rest))) := by
      simp [LTree.text, num]
    have el : ((LTree.leaf a d c).text id).length = 7 - 1 + (num a).length + (num d).length + (num c).length + 1 := by
      simp [LTree.text, num]
      omega
    rw [el] at hn
    rw [e]
    have hsp : ∀ (k : Nat) (s : Str), (num k ++ s).head? ≠ some ' ' := by
      intro k s
      obtain ⟨x, r, hx, hd⟩ := num_cons k
      rw [hx]
      simp only [List.cons_append, List.head?_cons, ne_eq, Option.some.injEq]
      rintro rfl
      exact absurd hd (by decide)
    refine parseE_call isName_Var (as := [.num (a : Int), .num (d : Int), .num (c : Int)]) ?_ (call_var _ _ _)
    refine parseArgs_comma (readsArg_nat a) (by omega) ?_ (hsp _ _)
    refine parseArgs_comma (readsArg_nat d) (by omega) ?_ (hsp _ _)
    exact parseArgs_last (readsArg_nat c) (by omega) rest
  | int k =>
    intro n rest hn
    obtain ⟨m, rfl⟩ : ∃ m, n = m + 1 := ⟨n - 1, by omega⟩
    have e : (LTree.const ("IntCst(".toList ++ showInt k ++ [')']) : LTree Nat).text id ++ rest =
        "IntCst".toList ++ '(' :: (showInt k ++ ')' :: rest) := by
      simp [LTree.text]
    rw [e]
    simp only [LTree.text, List.length_append, List.length_singleton] at hn
    have : "IntCst(".toList.length = 7 := by decide +kernel
    refine parseE_call isName_IntCst (as := [.num k]) ?_ (call_int k)
    exact parseArgs_last (readsArg_int k) (by omega) rest
  | @un f os x t r hf hx h ih =>
    intro n rest hn
    obtain ⟨m, rfl⟩ : ∃ m, n = m + 1 := ⟨n - 1, by omega⟩
    simp only [LTree.text, List.length_append, List.length_singleton] at hn
    have := name_pos hf
    have e : (LTree.un (f ++ ['(']) (optText [','] (os.map showInt)) x).text id ++ rest =
        f ++ '(' :: (x.text id ++ optText [','] (os.map showInt) ++ rest) := by
      simp [LTree.text]
    rw [e]
    refine parseE_call hf ?_ h
    exact parseArgs_ints os (readsArg_term (text_head hx) ih) (by omega) rest
  | @bin f x y t u r hf hx hy h ihx ihy =>
    intro n rest hn
    obtain ⟨m, rfl⟩ : ∃ m, n = m + 1 := ⟨n - 1, by omega⟩
    simp only [LTree.text, List.length_append, List.length_cons, List.length_nil] at hn
    have := name_pos hf
    have e : (LTree.bin (f ++ ['(']) [',', ' '] [')'] x y).text id ++ rest =
        f ++ '(' :: (x.text id ++ ',' :: ' ' :: (y.text id ++ ')' :: rest)) := by
      simp [LTree.text]
    rw [e]
    refine parseE_call hf ?_ h
    refine parseArgs_space (readsArg_term (text_head hx) ihx) (by omega) ?_
    exact parseArgs_last (readsArg_term (text_head hy) ihy) (by omega) rest
  | @op o x y t u r ho hx hy h ihx ihy =>
    intro n rest hn
    obtain ⟨m, rfl⟩ : ∃ m, n = m + 1 := ⟨n - 1, by omega⟩
    simp only [LTree.text, List.length_append, List.length_cons, List.length_nil] at hn
    have e : (LTree.bin ['('] (' ' :: o ++ [' ']) [')'] x y).text id ++ rest =
        '(' :: (x.text id ++ ' ' :: (o ++ ' ' :: (y.text id ++ ')' :: rest))) := by
      simp [LTree.text]
    have h1 : (o ++ ' ' :: (y.text id ++ ')' :: rest)).takeWhile (· ≠ ' ') = o := by
      rw [List.takeWhile_append_of_pos (by simpa using ho)]
      simp
    have h2 : (o ++ ' ' :: (y.text id ++ ')' :: rest)).dropWhile (· ≠ ' ') = ' ' :: (y.text id ++ ')' :: rest) := by
      rw [List.dropWhile_append_of_pos (by simpa using ho)]
      simp
    rw [e, parseE, ihx m _ (by omega)]
    simp only [Option.bind_some, expect, if_true, h1, h2, List.drop_one, List.tail_cons]
    rw [ihy m _ (by omega)]
    simp only [Option.bind_some, expect, if_true, h, Option.map_some]
  | @ter f x y z t u v r hf hx hy hz h ihx ihy ihz =>
    intro n rest hn
    obtain ⟨m, rfl⟩ : ∃ m, n = m + 1 := ⟨n - 1, by omega⟩
    simp only [LTree.text, List.length_append, List.length_cons, List.length_nil] at hn
    have := name_pos hf
    have e : (LTree.ter (f ++ ['(']) [',', ' '] [',', ' '] [')'] x y z).text id ++ rest =
        f ++ '(' :: (x.text id ++ ',' :: ' ' :: (y.text id ++ ',' :: ' ' :: (z.text id ++ ')' :: rest))) := by
      simp [LTree.text]
    rw [e]
    refine parseE_call hf ?_ h
    refine parseArgs_space (readsArg_term (text_head hx) ihx) (by omega) ?_
    refine parseArgs_space (readsArg_term (text_head hy) ihy) (by omega) ?_
    exact parseArgs_last (readsArg_term (text_head hz) ihz) (by omega) rest

theorem parse_text {T : LTree Nat} {t : Term} (h : Denotes posLab T t) : parse (T.text id) = some t := by
  have := parseE_text h ((T.text id).length + 1) [] (by omega)
  rw [List.append_nil] at this
  rw [parse, this]

theorem readsArg_text {T : LTree Nat} {t : Term} (h : Denotes posLab T t) : ReadsArg (T.text id) (.term t) :=
  readsArg_term (text_head h) (parseE_text h)

/-! ## Text of a reduction -/

theorem parseRed_text {T : LTree Nat} {t : Term} (h : Denotes posLab T t) {redop : Str} (hr : IsName redop)
    (os : List Int) (cat : Nat) :
    parseRed (redop ++ "_Reduction(".toList ++ T.text id ++ (os.map showInt).flatMap (fun o => ',' :: o) ++ ',' :: num cat ++
      [')']) = some (redop ++ "_Reduction".toList, .term t :: os.map .num ++ [.num cat]) := by
  have hn : IsName (redop ++ "_Reduction".toList) := by
    obtain ⟨⟨c, r, rfl, hc⟩, h2⟩ := hr
    refine ⟨⟨c, r ++ "_Reduction".toList, rfl, hc⟩, fun d hd => ?_⟩
    rcases List.mem_append.1 hd with hd | hd
    · exact h2 d hd
    · exact (show ∀ d ∈ "_Reduction".toList, nameChar d from by decide +kernel) d hd
  have e : redop ++ "_Reduction(".toList ++ T.text id ++ (os.map showInt).flatMap (fun o => ',' :: o) ++ ',' :: num cat ++
      [')'] = (redop ++ "_Reduction".toList) ++ '(' :: (T.text id ++ optText [','] ((os ++ [(cat : Int)]).map showInt)) := by
    have h1 : "_Reduction(".toList = "_Reduction".toList ++ ['('] := by decide +kernel
    have h2 : showInt (cat : Int) = num cat := by
      unfold showInt
      rw [if_neg (by omega)]
      rfl
    rw [h1]
    simp [optText, h2]
  have ha := parseArgs_ints (os ++ [(cat : Int)]) (readsArg_text h)
    (n := (redop ++ "_Reduction(".toList ++ T.text id ++ (os.map showInt).flatMap (fun o => ',' :: o) ++ ',' :: num cat ++
      [')']).length + 1) (by rw [e]; simp only [List.length_append, List.length_cons]; omega) []
  rw [List.append_nil] at ha
  unfold parseRed
  generalize hm : redop ++ "_Reduction(".toList ++ T.text id ++ (os.map showInt).flatMap (fun o => ',' :: o) ++
    ',' :: num cat ++ [')'] = s at *
  rw [e, dropWhile_name hn, takeWhile_name hn]
  simp only [expect, if_true, Option.bind_some]
  rw [← e, ha]
  simp

/-! ## Exchange of the categories -/

/-- Exchanges the categories 0 and 1. -/
def swapI (c : Int) : Int := if c = 0 then 1 else if c = 1 then 0 else c

end Verif.Parse

namespace Verif

/-- Exchanges the categories 0 and 1 of the variables. -/
def Term.swapCats : Term → Term
  | .var i d c => .var i d (Parse.swapI c)
  | .zero d => .zero d
  | .int n => .int n
  | .rat p q => .rat p q
  | .intInv n => .intInv n
  | .rdiv n f => .rdiv n f.swapCats
  | .rpow f m => .rpow f.swapCats m
  | .un o f => .un o f.swapCats
  | .bin o f g => .bin o f.swapCats g.swapCats
  | .tern o f g h => .tern o f.swapCats g.swapCats h.swapCats
  | .sqNorm2 f => .sqNorm2 f.swapCats
  | .sqDist f g => .sqDist f.swapCats g.swapCats
  | .norm2 f => .norm2 f.swapCats
  | .normalize f => .normalize f.swapCats
  | .sqNormIso s f => .sqNormIso s.swapCats f.swapCats
  | .sqNormDiag s f => .sqNormDiag s.swapCats f.swapCats
  | .symSqNorm s f => .symSqNorm s.swapCats f.swapCats
  | .weightedSqNorm s f => .weightedSqNorm s.swapCats f.swapCats
  | .weightedSqDist s f g => .weightedSqDist s.swapCats f.swapCats g.swapCats

theorem Term.dim_swapCats (t : Term) : t.swapCats.dim = t.dim := by
  induction t <;> simp_all [Term.swapCats, Term.dim]

theorem Term.pos_swapCats (t : Term) : t.swapCats.Pos ↔ t.Pos := by
  induction t <;> simp_all [Term.swapCats, Term.Pos]

theorem Term.val_swapCats (env : Env) (t : Term) : t.swapCats.val env = t.val env := by
  induction t <;> simp_all [Term.swapCats, Term.val, Term.dim_swapCats]

theorem Term.def_swapCats (env : Env) (t : Term) : t.swapCats.Def env ↔ t.Def env := by
  induction t <;> simp_all [Term.swapCats, Term.Def, Term.dim_swapCats, Term.val_swapCats]

end Verif

namespace Verif.Parse
open Alias (Str)
open Lazy (num showInt)
open Spec (LTree optText)

theorem swapCats_head1 (h : Head1) (t : Term) : (h.term t).swapCats = h.term t.swapCats := by
  cases h <;> rfl

theorem swapCats_head2 (h : Head2) (t u : Term) : (h.term t u).swapCats = h.term t.swapCats u.swapCats := by
  cases h <;> rfl

theorem swapCats_head3 (h : Head3) (t u v : Term) :
    (h.term t u v).swapCats = h.term t.swapCats u.swapCats v.swapCats := by
  cases h <;> rfl

theorem vars_head1 (h : Head1) (t : Term) : (h.term t).vars = t.vars := by
  cases h <;> rfl

theorem vars_head2 (h : Head2) (t u : Term) : (h.term t u).vars = t.vars ++ u.vars := by
  cases h <;> rfl

theorem vars_head3 (h : Head3) (t u v : Term) : (h.term t u v).vars = t.vars ++ (u.vars ++ v.vars) := by
  cases h <;> rfl

theorem call_un {f : Str} {os : List Int} {t r : Term} (h : call f (.term t :: os.map .num) = some r) :
    call f (.term t.swapCats :: os.map .num) = some r.swapCats ∧ r.vars = t.vars := by
  match os with
  | [] =>
    simp only [List.map_nil, call, Option.map_eq_some_iff] at h ⊢
    obtain ⟨o, ho, rfl⟩ := h
    exact ⟨⟨o, ho, (swapCats_head1 o t).symm⟩, vars_head1 o t⟩
  | [m] =>
    simp only [List.map_cons, List.map_nil, call, Option.map_eq_some_iff] at h ⊢
    obtain ⟨o, ho, rfl⟩ := h
    exact ⟨⟨o, ho, rfl⟩, rfl⟩
  | [a, b] =>
    simp only [List.map_cons, List.map_nil, call, Option.map_eq_some_iff] at h ⊢
    obtain ⟨o, ho, rfl⟩ := h
    exact ⟨⟨o, ho, rfl⟩, rfl⟩
  | a :: b :: c :: os => simp [call] at h

theorem call_bin {f : Str} {t u r : Term} (h : call f [.term t, .term u] = some r) :
    call f [.term t.swapCats, .term u.swapCats] = some r.swapCats ∧ r.vars = t.vars ++ u.vars := by
  simp only [call, Option.map_eq_some_iff] at h ⊢
  obtain ⟨o, ho, rfl⟩ := h
  exact ⟨⟨o, ho, (swapCats_head2 o t u).symm⟩, vars_head2 o t u⟩

theorem call_ter {f : Str} {t u v r : Term} (h : call f [.term t, .term u, .term v] = some r) :
    call f [.term t.swapCats, .term u.swapCats, .term v.swapCats] = some r.swapCats ∧
      r.vars = t.vars ++ (u.vars ++ v.vars) := by
  simp only [call, Option.map_eq_some_iff] at h ⊢
  obtain ⟨o, ho, rfl⟩ := h
  exact ⟨⟨o, ho, (swapCats_head3 o t u v).symm⟩, vars_head3 o t u v⟩

theorem infix_bin {o : Str} {t u r : Term} (h : infix' o t u = some r) :
    infix' o t.swapCats u.swapCats = some r.swapCats ∧ ∀ v ∈ r.vars, v ∈ t.vars ∨ v ∈ u.vars := by
  simp only [infix', Option.map_eq_some_iff] at h ⊢
  obtain ⟨⟨b, s⟩, ho, rfl⟩ := h
  refine ⟨⟨(b, s), ho, ?_⟩, ?_⟩
  · cases s <;> rfl
  · intro v hv
    cases s
    · exact List.mem_append.1 hv
    · exact (List.mem_append.1 hv).symm

theorem swapI_cast (c : Nat) : swapI (c : Int) = ((LTree.swapCat c : Nat) : Int) := by
  unfold swapI LTree.swapCat
  split_ifs <;> first | rfl | omega

theorem denotes_swap {T : LTree Nat} {t : Term} (h : Denotes posLab T t) : Denotes posLab T.swap t.swapCats := by
  induction h with
  | leaf a d c =>
    simp only [LTree.swap, Term.swapCats, swapI_cast]
    exact Denotes.leaf a d _
  | int n => exact .int n
  | un hf hx h ih => exact .un hf ih (call_un h).1
  | bin hf hx hy h ihx ihy => exact .bin hf ihx ihy (call_bin h).1
  | op ho hx hy h ihx ihy => exact .op ho ihx ihy (infix_bin h).1
  | ter hf hx hy hz h ihx ihy ihz => exact .ter hf ihx ihy ihz (call_ter h).1

theorem denotes_vars {T : LTree Nat} {t : Term} (h : Denotes posLab T t) :
    ∀ v ∈ t.vars, ∃ l ∈ T.leaves, v = ((l.1 : Int), l.2.1, (l.2.2 : Int)) := by
  induction h with
  | leaf a d c =>
    intro v hv
    simp only [Term.vars, List.mem_singleton] at hv
    exact ⟨(a, d, c), by simp [LTree.leaves], hv⟩
  | int n => simp [Term.vars]
  | un hf hx h ih =>
    rw [(call_un h).2]
    exact ih
  | bin hf hx hy h ihx ihy =>
    rw [(call_bin h).2]
    intro v hv
    simp only [LTree.leaves, List.mem_append]
    rcases List.mem_append.1 hv with hv | hv
    · obtain ⟨l, hl, e⟩ := ihx v hv
      exact ⟨l, .inl hl, e⟩
    · obtain ⟨l, hl, e⟩ := ihy v hv
      exact ⟨l, .inr hl, e⟩
  | op ho hx hy h ihx ihy =>
    intro v hv
    simp only [LTree.leaves, List.mem_append]
    rcases (infix_bin h).2 v hv with hv | hv
    · obtain ⟨l, hl, e⟩ := ihx v hv
      exact ⟨l, .inl hl, e⟩
    · obtain ⟨l, hl, e⟩ := ihy v hv
      exact ⟨l, .inr hl, e⟩
  | ter hf hx hy hz h ihx ihy ihz =>
    rw [(call_ter h).2]
    intro v hv
    simp only [LTree.leaves, List.mem_append]
    rcases List.mem_append.1 hv with hv | hv
    · obtain ⟨l, hl, e⟩ := ihx v hv
      exact ⟨l, .inl (.inl hl), e⟩
    · rcases List.mem_append.1 hv with hv | hv
      · obtain ⟨l, hl, e⟩ := ihy v hv
        exact ⟨l, .inl (.inr hl), e⟩
      · obtain ⟨l, hl, e⟩ := ihz v hv
        exact ⟨l, .inr hl, e⟩

end Verif.Parse
