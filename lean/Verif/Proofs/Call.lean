import Verif.Model.Call
import Verif.Proofs.Aliases

/-! Lemmas on the sizes of a call. -/

namespace Verif.Alias
open Spec

theorem getType_declares {text : Str} {k cat dim pos : Nat} (h : Declares text k cat dim pos) :
    ∃ n, getType text k = some ⟨n, cat, dim, pos⟩ := by
  rcases h with ⟨name, p, hW, rfl⟩ | ⟨a, b, c, ha, hb, hc, rfl, rfl, rfl, rfl⟩
  · obtain ⟨n, hn⟩ := getType_written k hW
    exact ⟨_, hn⟩
  · have hchars : ∀ x ∈ varText a b c, x ≠ 'x' ∧ x ≠ 'y' ∧ x ≠ ' ' := by
      intro x hx
      simp only [varText, List.mem_append, List.mem_cons, List.not_mem_nil, or_false] at hx
      have hd : x.isDigit → x ≠ 'x' ∧ x ≠ 'y' ∧ x ≠ ' ' := by
        intro h
        refine ⟨?_, ?_, ?_⟩ <;> rintro rfl <;> exact absurd h (by decide)
      rcases hx with (((((hx | hx) | hx) | hx) | hx) | hx) | hx
      · rcases hx with rfl | rfl | rfl | rfl <;> decide
      · exact hd (ha.2 x hx)
      · subst hx; decide
      · exact hd (hb.2 x hx)
      · subst hx; decide
      · exact hd (hc.2 x hx)
      · subst hx; decide
    have hstrip : strip (varText a b c) = varText a b c := by
      unfold strip
      rw [List.filter_eq_self]
      intro x hx
      simpa using (hchars x hx).2.2
    have hs : strip (replaceV 'y' 'j' (replaceV 'x' 'i' (varText a b c))) = varText a b c := by
      have hr := strip_replace (varText a b c)
      rw [hstrip] at hr
      exact rel_eq hr (fun x hx => ⟨(hchars x hx).1, (hchars x hx).2.1⟩)
    have hm := matchVar3_varText (v := []) ha hb hc
    rw [List.append_nil] at hm
    have hv : varText a b c = 'V' :: 'a' :: 'r' :: '(' :: (a ++ [','] ++ b ++ [','] ++ c ++ [')']) := by
      simp [varText]
    have hn : matchName (varText a b c) = none := by
      rw [hv]
      unfold matchName
      simp [identStart, identChar]
    have hc' : matchCat (varText a b c) = none := by
      rw [hv]
      unfold matchCat
      rfl
    refine ⟨none, ?_⟩
    unfold getType
    simp only [hs, hn, hc', Option.bind_none, hm, Option.map_some]

theorem declares_unique {text : Str} {k cat dim pos cat' dim' pos' : Nat}
    (h : Declares text k cat dim pos) (h' : Declares text k cat' dim' pos') :
    cat = cat' ∧ dim = dim' ∧ pos = pos' := by
  obtain ⟨n, hn⟩ := getType_declares h
  obtain ⟨n', hn'⟩ := getType_declares h'
  rw [hn] at hn'
  simp only [Option.some.injEq, Decl.mk.injEq] at hn'
  exact hn'.2

theorem rowsOf_fits {shapes : List (List Nat)} {A : List Nat} {M N cat dim pos : Nat} {sh : List Nat}
    (hs : shapes[pos]? = some sh) (hf : Fits A M N cat dim sh) (hc : cat < 2) :
    rowsOf shapes pos = some (if cat = 0 then M else N) := by
  obtain ⟨b, -, rfl⟩ := hf
  unfold rowsOf
  rw [hs, Option.bind_some]
  interval_cases cat
  · simp
  · simp

theorem getSizesFrom_fits (shapes : List (List Nat)) (A : List Nat) (M N : Nat) (as : List Str) (k : Nat)
    (bx bY : Bool) (hb : ¬ (bx = true ∧ bY = true))
    (hfit : ∀ i text, as[i]? = some text → ∃ cat dim pos sh, Declares text (k + i) cat dim pos ∧
      shapes[pos]? = some sh ∧ Fits A M N cat dim sh) :
    ∃ cx cy : Bool, getSizesFrom shapes k (if bx then some M else none) (if bY then some N else none) as =
        some (if cx then M else 1, if cy then N else 1) ∧
      (cx = true ↔ bx = true ∨ ∃ i text dim pos, as[i]? = some text ∧ Declares text (k + i) 0 dim pos) ∧
      (cy = true ↔ bY = true ∨ ∃ i text dim pos, as[i]? = some text ∧ Declares text (k + i) 1 dim pos) := by
  induction as generalizing k bx bY with
  | nil =>
    refine ⟨bx, bY, ?_, by simp, by simp⟩
    cases bx <;> cases bY <;> simp [getSizesFrom]
  | cons a as ih =>
    obtain ⟨cat, dim, pos, sh, hd, hs, hf⟩ := hfit 0 a (by simp)
    rw [Nat.add_zero] at hd
    obtain ⟨n, hn⟩ := getType_declares hd
    have hfit' : ∀ i text, as[i]? = some text → ∃ cat dim pos sh, Declares text (k + 1 + i) cat dim pos ∧
        shapes[pos]? = some sh ∧ Fits A M N cat dim sh := by
      intro i text hi
      have := hfit (i + 1) text (by simpa using hi)
      rwa [show k + (i + 1) = k + 1 + i from by omega] at this
    have hex : ∀ c, (∃ i text dim pos, (a :: as)[i]? = some text ∧ Declares text (k + i) c dim pos) ↔
        c = cat ∨ ∃ i text dim pos, as[i]? = some text ∧ Declares text (k + 1 + i) c dim pos := by
      intro c
      constructor
      · rintro ⟨i, text, dim', pos', hi, hD⟩
        cases i with
        | zero =>
          simp only [List.getElem?_cons_zero, Option.some.injEq] at hi
          subst hi
          exact .inl (declares_unique hD hd).1
        | succ i =>
          refine .inr ⟨i, text, dim', pos', by simpa using hi, ?_⟩
          rwa [show k + (i + 1) = k + 1 + i from by omega] at hD
      · rintro (rfl | ⟨i, text, dim', pos', hi, hD⟩)
        · exact ⟨0, a, dim, pos, by simp, hd⟩
        · refine ⟨i + 1, text, dim', pos', by simpa using hi, ?_⟩
          rwa [show k + 1 + i = k + (i + 1) from by omega] at hD
    rw [hex 0, hex 1]
    by_cases h0 : cat = 0
    · subst h0
      have hr := rowsOf_fits hs hf (by omega)
      cases bY with
      | true =>
        refine ⟨true, true, ?_, by simp, by simp⟩
        simp [getSizesFrom, hn, hr]
      | false =>
        obtain ⟨cx, cy, e, h1, h2⟩ := ih (k + 1) true false (by simp) hfit'
        refine ⟨cx, cy, ?_, ?_, ?_⟩
        · rw [← e]
          simp [getSizesFrom, hn, hr]
        · rw [h1]; simp
        · rw [h2]; simp
    · by_cases h1 : cat = 1
      · subst h1
        have hr := rowsOf_fits hs hf (by omega)
        cases bx with
        | true =>
          refine ⟨true, true, ?_, by simp, by simp⟩
          simp [getSizesFrom, hn, hr]
        | false =>
          obtain ⟨cx, cy, e, h1, h2⟩ := ih (k + 1) false true (by simp) hfit'
          refine ⟨cx, cy, ?_, ?_, ?_⟩
          · rw [← e]
            simp [getSizesFrom, hn, hr]
          · rw [h1]; simp
          · rw [h2]; simp
      · obtain ⟨cx, cy, e, e1, e2⟩ := ih (k + 1) bx bY hb hfit'
        refine ⟨cx, cy, ?_, ?_, ?_⟩
        · rw [← e]
          cases bx <;> cases bY
          · simp [getSizesFrom, hn, h0, h1]
          · simp [getSizesFrom, hn, h0, h1]
          · simp [getSizesFrom, hn, h0, h1]
          · exact absurd ⟨rfl, rfl⟩ hb
        · rw [e1]
          have : ¬ 0 = cat := fun h => h0 h.symm
          simp [this]
        · rw [e2]
          have : ¬ 1 = cat := fun h => h1 h.symm
          simp [this]

theorem broadcast_max {A : List Nat} (hA : ∀ a ∈ A, 0 < a) {b c : List Nat} (hb : BroadcastsTo b A)
    (hc : BroadcastsTo c A) : BroadcastsTo (List.zipWith max b c) A ∧
      ∀ i : Nat, (b[i]? = A[i]? ∨ c[i]? = A[i]?) → (List.zipWith max b c)[i]? = A[i]? := by
  unfold BroadcastsTo at *
  induction hb generalizing c with
  | nil =>
    cases hc
    exact ⟨.nil, by simp⟩
  | cons h hb ih =>
    cases hc with
    | cons h' hc =>
      rename_i x y _ _ z _
      obtain ⟨h1, h2⟩ := ih (fun a ha => hA a (by simp [ha])) hc
      have hy := hA y (by simp)
      constructor
      · refine .cons ?_ h1
        omega
      · intro i hi
        cases i with
        | zero =>
          simp only [List.getElem?_cons_zero, Option.some.injEq, List.zipWith_cons_cons] at hi ⊢
          omega
        | succ i =>
          simp only [List.getElem?_cons_succ, List.zipWith_cons_cons] at hi ⊢
          exact h2 i hi

theorem foldl_max_broadcast {A : List Nat} (hA : ∀ a ∈ A, 0 < a) (bs : List (List Nat)) (b : List Nat)
    (hb : BroadcastsTo b A) (hbs : ∀ c ∈ bs, BroadcastsTo c A) :
    BroadcastsTo (bs.foldl (fun acc c => List.zipWith max acc c) b) A ∧
      ∀ i : Nat, (∃ c ∈ b :: bs, c[i]? = A[i]?) →
        (bs.foldl (fun acc c => List.zipWith max acc c) b)[i]? = A[i]? := by
  induction bs generalizing b with
  | nil => exact ⟨hb, by simp⟩
  | cons c bs ih =>
    obtain ⟨h1, h2⟩ := broadcast_max hA hb (hbs c (by simp))
    obtain ⟨h3, h4⟩ := ih _ h1 (fun d hd => hbs d (by simp [hd]))
    refine ⟨h3, ?_⟩
    rintro i ⟨d, hd, hi⟩
    refine h4 i ?_
    simp only [List.mem_cons] at hd
    rcases hd with rfl | rfl | hd
    · exact ⟨_, by simp, h2 i (.inl hi)⟩
    · exact ⟨_, by simp, h2 i (.inr hi)⟩
    · exact ⟨d, by simp [hd], hi⟩

theorem foldl_max_eq (l : List Nat) (n m : Nat) (hle : ∀ x ∈ l, x ≤ m) (hn : n ≤ m)
    (hm : n = m ∨ m ∈ l) : l.foldl max n = m := by
  induction l generalizing n with
  | nil => simpa using hm
  | cons x l ih =>
    refine ih _ (fun y hy => hle y (by simp [hy])) (by have := hle x (by simp); omega) ?_
    have := hle x (by simp)
    rcases hm with rfl | hm
    · left; omega
    · rcases List.mem_cons.1 hm with rfl | hm
      · left; omega
      · exact .inr hm

end Verif.Alias
