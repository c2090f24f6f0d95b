import Verif.Spec.LazyDot
import Verif.Proofs.Aliases
import Verif.Proofs.Tensor
import Verif.Proofs.Kron

/-!
# The text of lists of integers, and the dimension that is announced
-/

namespace Verif.LazyDot

open Alias (Str)
open Parse (parseInt)

/-- Integers separated by commas. -/
def itemsText : List Int → Str
  | [] => []
  | [a] => intText a
  | a :: b :: l => intText a ++ ',' :: itemsText (b :: l)

/-- A list display. -/
def listText (l : List Int) : Str := '[' :: itemsText l ++ [']']

/-- List displays separated by commas. -/
def listsText : List (List Int) → Str
  | [] => []
  | [a] => listText a
  | a :: b :: l => listText a ++ ',' :: ' ' :: listsText (b :: l)

theorem foldl_items (l : List Int) (acc : Str) :
    l.foldl (fun acc n => acc ++ (intText n ++ [','])) acc = if l = [] then acc else acc ++ itemsText l ++ [','] := by
  induction l generalizing acc with
  | nil => rfl
  | cons a l ih =>
    rw [List.foldl_cons, ih]
    cases l with
    | nil => simp [itemsText]
    | cons b l => simp [itemsText]

theorem addArg_eq (acc : Str) (l : List Int) : addArg acc l = acc ++ listText l ++ [',', ' '] := by
  unfold addArg listText
  dsimp only
  rw [foldl_items]
  cases l with
  | nil => simp [itemsText]
  | cons a l =>
    rw [if_pos (by simp), if_neg (by simp), List.dropLast_concat]
    simp

theorem foldl_lists (args : List (List Int)) (acc : Str) :
    args.foldl addArg acc = if args = [] then acc else acc ++ listsText args ++ [',', ' '] := by
  induction args generalizing acc with
  | nil => rfl
  | cons a l ih =>
    rw [List.foldl_cons, ih, addArg_eq]
    cases l with
    | nil => simp [listsText]
    | cons b l => simp [listsText]

theorem optArg_eq (a : List Int) (l : List (List Int)) : optArg (a :: l) = listsText (a :: l) := by
  unfold optArg
  dsimp only
  rw [foldl_lists, if_neg (by simp), List.nil_append, List.length_append]
  exact List.take_left' (by simp)

theorem parseInt_intText (i : Int) {c : Char} (hc : ¬ c.isDigit) (r : Str) :
    parseInt (intText i ++ c :: r) = some (i, c :: r) := by
  cases i with
  | ofNat n =>
    obtain ⟨d, t, e⟩ := List.exists_cons_of_ne_nil (Nat.toDigits_ne_nil (b := 10) (n := n))
    have hd : d ≠ '-' := by
      rintro rfl
      have := Alias.isDigit_toDigits (n := n) (c := '-') (by rw [e]; simp)
      simp at this
    have hp : parseInt (intText (.ofNat n) ++ c :: r) =
        (Alias.toInt (Alias.digits (Nat.toDigits 10 n ++ c :: r)).1).map
          (fun m => ((m : Int), (Alias.digits (Nat.toDigits 10 n ++ c :: r)).2)) := by
      show parseInt (Nat.toDigits 10 n ++ c :: r) = _
      unfold parseInt
      rw [e]
      split
      · rename_i h; simp at h; exact absurd h.1 hd
      · rfl
    rw [hp, Alias.digits_append (fun _ h => Alias.isDigit_toDigits h) hc]
    simp [Alias.toInt_toDigits]
  | negSucc n =>
    show parseInt ('-' :: (Nat.toDigits 10 (n + 1) ++ c :: r)) = _
    show (Alias.toInt (Alias.digits (Nat.toDigits 10 (n + 1) ++ c :: r)).1).map
      (fun m => (-(m : Int), (Alias.digits (Nat.toDigits 10 (n + 1) ++ c :: r)).2)) = _
    rw [Alias.digits_append (fun _ h => Alias.isDigit_toDigits h) hc]
    simp [Alias.toInt_toDigits, Int.negSucc_eq]

theorem readInts_items (l : List Int) (hl : l ≠ []) (n : Nat) (hn : l.length ≤ n) (r : Str) :
    readInts n (itemsText l ++ ']' :: r) = some (l, r) := by
  induction l generalizing n with
  | nil => exact absurd rfl hl
  | cons a l ih =>
    obtain ⟨n, rfl⟩ : ∃ k, n = k + 1 := ⟨n - 1, by simp at hn; omega⟩
    cases l with
    | nil =>
      unfold readInts
      rw [show itemsText [a] = intText a from rfl, parseInt_intText a (by decide)]
      rfl
    | cons b l =>
      unfold readInts
      rw [show itemsText (a :: b :: l) ++ ']' :: r = intText a ++ ',' :: (itemsText (b :: l) ++ ']' :: r) by
        simp [itemsText], parseInt_intText a (by decide)]
      show (readInts n (itemsText (b :: l) ++ ']' :: r)).map _ = _
      rw [ih (by simp) n (by simpa using hn)]
      rfl

theorem intText_pos (a : Int) : ∃ c t, intText a = c :: t ∧ c ≠ ']' := by
  cases a with
  | ofNat n =>
    obtain ⟨d, t, e⟩ := List.exists_cons_of_ne_nil (Nat.toDigits_ne_nil (b := 10) (n := n))
    refine ⟨d, t, e, ?_⟩
    rintro rfl
    have := Alias.isDigit_toDigits (n := n) (c := ']') (by rw [e]; simp)
    simp at this
  | negSucc n => exact ⟨'-', _, rfl, by decide⟩

theorem itemsText_pos (l : List Int) (hl : l ≠ []) : ∃ c t, itemsText l = c :: t ∧ c ≠ ']' := by
  cases l with
  | nil => exact absurd rfl hl
  | cons a l =>
    obtain ⟨c, t, e, h⟩ := intText_pos a
    cases l with
    | nil => exact ⟨c, t, e, h⟩
    | cons b l => exact ⟨c, _, by rw [itemsText, e]; rfl, h⟩

theorem length_items (l : List Int) : l.length ≤ (itemsText l).length := by
  induction l with
  | nil => simp
  | cons a l ih =>
    obtain ⟨c, t, e, h⟩ := intText_pos a
    cases l with
    | nil => simp [itemsText, e]
    | cons b l =>
      simp only [itemsText, e, List.length_append, List.length_cons] at ih ⊢
      omega

theorem readList_text (l : List Int) (r : Str) : readList (listText l ++ r) = some (l, r) := by
  cases l with
  | nil => rfl
  | cons a l =>
    obtain ⟨c, t, e, h⟩ := itemsText_pos (a :: l) (by simp)
    have h1 : listText (a :: l) ++ r = '[' :: (itemsText (a :: l) ++ ']' :: r) := by simp [listText]
    have h2 : readList ('[' :: (itemsText (a :: l) ++ ']' :: r)) =
        readInts (itemsText (a :: l) ++ ']' :: r).length (itemsText (a :: l) ++ ']' :: r) := by
      rw [e]
      unfold readList
      split
      · rename_i h3; simp at h3; exact absurd h3.1 h
      · rename_i h3; simp at h3; subst h3; rfl
      · rename_i h3 h4; exact absurd rfl (h4 _)
    rw [h1, h2]
    refine readInts_items _ (by simp) _ ?_ r
    have := length_items (a :: l)
    simp only [List.length_append] at this ⊢
    omega

theorem readLists_text (a : List Int) (l : List (List Int)) (n : Nat) (hn : l.length + 1 ≤ n) :
    readLists n (listsText (a :: l)) = some (a :: l) := by
  induction l generalizing a n with
  | nil =>
    obtain ⟨n, rfl⟩ : ∃ k, n = k + 1 := ⟨n - 1, by omega⟩
    unfold readLists
    rw [show listsText [a] = listText a ++ [] by simp [listsText], readList_text]
  | cons b l ih =>
    obtain ⟨n, rfl⟩ : ∃ k, n = k + 1 := ⟨n - 1, by omega⟩
    unfold readLists
    rw [show listsText (a :: b :: l) = listText a ++ ',' :: ' ' :: listsText (b :: l) from rfl, readList_text]
    show (readLists n (listsText (b :: l))).map _ = _
    rw [ih b n (by simpa using hn)]
    rfl

theorem length_lists (l : List (List Int)) : l.length ≤ (listsText l).length := by
  induction l with
  | nil => simp
  | cons a l ih =>
    cases l with
    | nil => simp [listsText, listText]
    | cons b l =>
      simp only [listsText, List.length_append, List.length_cons] at ih ⊢
      omega

/-- The text is read as the lists it was made from. -/
theorem read_optArg (a : List Int) (l : List (List Int)) :
    readLists (optArg (a :: l)).length (optArg (a :: l)) = some (a :: l) := by
  rw [optArg_eq]
  exact readLists_text a l _ (length_lists (a :: l))

open Spec
open TensorDot (ints)

theorem prod_ints (l : List Nat) : (ints l).prod = (l.prod : Int) := by
  induction l with
  | nil => rfl
  | cons a l ih => simp only [ints, List.map_cons, List.prod_cons, Nat.cast_mul] at ih ⊢; rw [ih]

theorem select_ints {l : List Nat} {c : List Int} (h : ∀ x ∈ c, 0 ≤ x ∧ x < l.length) :
    TensorDot.select (ints l) c = some (ints (gather l c)) := by
  unfold TensorDot.select gather
  induction c with
  | nil => rfl
  | cons x c ih =>
    obtain ⟨h1, h2⟩ := h x (by simp)
    rw [List.mapM_cons, ih (fun y hy => h y (by simp [hy]))]
    have hg : TensorDot.pyGet (ints l) x = some ((l.getD x.toNat 0 : Nat) : Int) := by
      unfold TensorDot.pyGet
      rw [if_pos h1, ints, List.getElem?_map, List.getElem?_eq_getElem (by omega : x.toNat < l.length)]
      simp only [Option.map_some, Option.some.injEq, Nat.cast_inj]
      rw [List.getD_eq_getElem?_getD, List.getElem?_eq_getElem (by omega : x.toNat < l.length)]
      rfl
    rw [hg]
    rfl

/-- The dimension computed by `keops_tensordot` is that of the result, for all contractions that KeOps accepts. -/
theorem dimres_eq {da db : Nat} {dimsA dimsB : List Nat} {ca cb : List Int} {o : Option (List Int)} {t : TensorDot.T}
    (h : TensorDot.init da db dimsA dimsB ca cb o = some t) :
    dimres (.seq (ints dimsA)) (.seq (ints dimsB)) (.seq ca) =
      .ok (outShape dimsA dimsB ca cb (permOf dimsA dimsB ca cb o)).prod := by
  obtain ⟨rfl, rfl, perm, h3, h4, h5, rfl⟩ := TensorDot.init_some h
  rw [← h3.eq]
  have hd := TensorDot.dimOf_eq h4 h5
  unfold TensorDot.dimOf at hd
  cases ca with
  | nil =>
    rw [if_pos rfl] at hd
    rw [← Option.some.inj hd]
    simp only [dimres, Arg.toList, prod_ints]
    rw [← Nat.cast_mul, Int.toNat_natCast]
  | cons x c =>
    rw [if_neg (by simp)] at hd
    have hp : (gather dimsA (x :: c)).prod ≠ 0 := by
      rcases h5 with h5 | h5
      · cases h5
      · exact h5
    rw [if_neg hp] at hd
    rw [← Option.some.inj hd]
    have hc : contProd (.seq (ints dimsA)) (x :: c) = .ok ((gather dimsA (x :: c)).prod : Int) := by
      unfold contProd
      dsimp only
      rw [select_ints h4.bA]
      dsimp only
      rw [prod_ints]
    show (do
      let q ← contProd (.seq (ints dimsA)) (x :: c)
      if q = 0 then Except.error Fail.number
      else .ok ((Arg.toList (.seq (ints dimsA))).prod * (Arg.toList (.seq (ints dimsB))).prod / q ^ 2).toNat) = _
    rw [hc]
    show (if ((gather dimsA (x :: c)).prod : Int) = 0 then _ else _) = _
    rw [if_neg (by exact_mod_cast hp)]
    simp only [Arg.toList, prod_ints]
    congr 1

end Verif.LazyDot
