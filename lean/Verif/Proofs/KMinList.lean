import Mathlib.Data.List.Basic
import Mathlib.Data.List.Induction
import Mathlib.Data.List.TakeWhile
import Mathlib.Data.List.Perm.Basic
import Mathlib.Order.BoundedOrder.Basic
import Mathlib.Order.Lattice
import Mathlib.Tactic.Linarith

/-! Sorted insertion and merge on lists of pairs, used for the K-min reduction. -/

namespace Verif

variable {V I : Type} [LinearOrder V]

/-- Insert `x` before the first strictly larger entry. -/
def ins (x : V × I) : List (V × I) → List (V × I)
  | [] => [x]
  | y :: s => if x.1 < y.1 then x :: y :: s else y :: ins x s

/-- Merge of two lists, entries of the first one first when equal. -/
def mrg : List (V × I) → List (V × I) → List (V × I)
  | [], b => b
  | x :: a, [] => x :: a
  | x :: a, y :: b => if y.1 < x.1 then y :: mrg (x :: a) b else x :: mrg a (y :: b)
termination_by a b => a.length + b.length

/-- Sorted by value. -/
def Srt (s : List (V × I)) : Prop := s.Pairwise (fun a b => a.1 ≤ b.1)

theorem mem_ins {x y : V × I} {s : List (V × I)} : y ∈ ins x s ↔ y = x ∨ y ∈ s := by
  induction s with
  | nil => simp [ins]
  | cons z s ih =>
    unfold ins
    split
    · simp
    · simp [ih]; tauto

theorem ins_perm (x : V × I) (s : List (V × I)) : (ins x s).Perm (x :: s) := by
  induction s with
  | nil => simp [ins]
  | cons z s ih =>
    unfold ins
    split
    · exact List.Perm.refl _
    · exact (List.Perm.cons z ih).trans (List.Perm.swap x z s)

theorem ins_length (x : V × I) (s : List (V × I)) : (ins x s).length = s.length + 1 := by
  simpa using (ins_perm x s).length_eq

theorem ins_srt {x : V × I} {s : List (V × I)} (h : Srt s) : Srt (ins x s) := by
  induction s with
  | nil => simp [ins, Srt]
  | cons z s ih =>
    have h' := List.pairwise_cons.mp h
    unfold ins
    split
    · next hlt =>
      refine List.pairwise_cons.mpr ⟨?_, h⟩
      intro y hy
      rcases List.mem_cons.mp hy with rfl | hy
      · exact hlt.le
      · exact hlt.le.trans (h'.1 y hy)
    · next hlt =>
      refine List.pairwise_cons.mpr ⟨?_, ih h'.2⟩
      intro y hy
      rcases mem_ins.mp hy with rfl | hy
      · exact not_lt.mp hlt
      · exact h'.1 y hy

theorem take_ins (K : Nat) (x : V × I) (s : List (V × I)) :
    (ins x s).take K = (ins x (s.take K)).take K := by
  induction s generalizing K with
  | nil => simp
  | cons z s ih =>
    cases K with
    | zero => simp
    | succ K =>
      simp only [List.take_succ_cons, ins]
      split
      · simp only [List.take_succ_cons]
        congr 1
        cases K with
        | zero => simp
        | succ K => simp [List.take_take]
      · simp only [List.take_succ_cons]
        rw [ih]

theorem foldl_ins_take (K : Nat) (xs s : List (V × I)) :
    (xs.foldl (fun s x => ins x s) s).take K = (xs.foldl (fun s x => ins x s) (s.take K)).take K := by
  induction xs generalizing s with
  | nil => simp [List.take_take]
  | cons x xs ih =>
    simp only [List.foldl_cons]
    rw [ih (ins x s), ih (ins x (s.take K)), take_ins]

theorem foldl_ins_srt (xs : List (V × I)) {s : List (V × I)} (h : Srt s) :
    Srt (xs.foldl (fun s x => ins x s) s) := by
  induction xs generalizing s with
  | nil => exact h
  | cons x xs ih => exact ih (ins_srt h)

theorem foldl_ins_length (xs s : List (V × I)) :
    (xs.foldl (fun s x => ins x s) s).length = s.length + xs.length := by
  induction xs generalizing s with
  | nil => simp
  | cons x xs ih => simp only [List.foldl_cons, ih, ins_length, List.length_cons]; omega

theorem ins_map {J : Type} (f : I → J) (x : V × I) (s : List (V × I)) :
    (ins x s).map (Prod.map id f) = ins (Prod.map id f x) (s.map (Prod.map id f)) := by
  induction s with
  | nil => simp [ins]
  | cons z s ih =>
    simp only [ins, List.map_cons, Prod.map_fst, id]
    split
    · simp
    · simp [ih]

theorem ins_all_le {x : V × I} {s : List (V × I)} (h : ∀ y ∈ s, y.1 ≤ x.1) : ins x s = s ++ [x] := by
  induction s with
  | nil => simp [ins]
  | cons z s ih =>
    have : ¬ x.1 < z.1 := not_lt.mpr (h z (by simp))
    simp only [ins, this, if_false, List.cons_append]
    rw [ih (fun y hy => h y (by simp [hy]))]

/-- `ins` through the insertion position. -/
theorem ins_eq_split {x : V × I} {s : List (V × I)} (p : Nat)
    (h1 : ∀ y ∈ s.take p, y.1 ≤ x.1) (h2 : ∀ y ∈ (s.drop p).head?, x.1 < y.1) :
    ins x s = s.take p ++ x :: s.drop p := by
  induction s generalizing p with
  | nil => simp [ins]
  | cons z s ih =>
    cases p with
    | zero =>
      have : x.1 < z.1 := h2 z (by simp)
      simp [ins, this]
    | succ p =>
      have : ¬ x.1 < z.1 := not_lt.mpr (h1 z (by simp))
      simp only [ins, this, if_false, List.take_succ_cons, List.drop_succ_cons, List.cons_append]
      rw [ih p (fun y hy => h1 y (by simp [hy])) (fun y hy => h2 y (by simpa using hy))]

/-! ### Merge -/

theorem mrg_nil_left (b : List (V × I)) : mrg [] b = b := by simp [mrg]

theorem mrg_nil_right (a : List (V × I)) : mrg a [] = a := by cases a <;> simp [mrg]

theorem mrg_cons (x y : V × I) (a b : List (V × I)) :
    mrg (x :: a) (y :: b) = if y.1 < x.1 then y :: mrg (x :: a) b else x :: mrg a (y :: b) := by
  rw [mrg]

theorem mrg_perm (a b : List (V × I)) : (mrg a b).Perm (a ++ b) := by
  induction a, b using mrg.induct with
  | case1 b => simp [mrg_nil_left]
  | case2 x a => simp [mrg_nil_right]
  | case3 x a y b h ih =>
    rw [mrg_cons, if_pos h]
    exact (List.Perm.cons y ih).trans (List.perm_middle (l₁ := x :: a)).symm
  | case4 x a y b h ih =>
    rw [mrg_cons, if_neg h]
    exact List.Perm.cons x ih

theorem mrg_length (a b : List (V × I)) : (mrg a b).length = a.length + b.length := by
  simpa using (mrg_perm a b).length_eq

theorem mrg_ins {a b : List (V × I)} (ha : Srt a) (hb : Srt b) (x : V × I) :
    mrg a (ins x b) = ins x (mrg a b) := by
  induction a, b using mrg.induct with
  | case1 b => simp [mrg_nil_left]
  | case2 z a =>
    rw [mrg_nil_right]
    clear hb
    have aux : ∀ a : List (V × I), Srt a → mrg a [x] = ins x a := by
      intro a
      induction a with
      | nil => intro _; simp [mrg_nil_left, ins]
      | cons z a ih =>
        intro ha
        rw [mrg_cons, ins]
        split
        · rw [mrg_nil_right]
        · rw [ih (List.pairwise_cons.mp ha).2]
    simp only [ins]
    exact aux _ ha
  | case3 z a y b h ih =>
    have hb' := (List.pairwise_cons.mp hb)
    rw [mrg_cons, if_pos h]
    by_cases hx : x.1 < y.1
    · have hxz : x.1 < z.1 := hx.trans h
      simp only [ins, hx, if_true]
      rw [mrg_cons, if_pos hxz, mrg_cons, if_pos h]
    · simp only [ins, hx, if_false]
      rw [mrg_cons, if_pos h, ih ha hb'.2]
  | case4 z a y b h ih =>
    have ha' := (List.pairwise_cons.mp ha)
    rw [mrg_cons, if_neg h]
    by_cases hx : x.1 < y.1
    · simp only [ins, hx, if_true]
      by_cases hxz : x.1 < z.1
      · rw [mrg_cons, if_pos hxz, mrg_cons, if_neg h]
        simp [hxz]
      · have := ih ha'.2 hb
        simp only [ins, hx, if_true] at this
        rw [mrg_cons, if_neg hxz, this]
        simp only [hxz, if_false]
    · have hzx : ¬ x.1 < z.1 := by
        have : z.1 ≤ x.1 := (not_lt.mp h).trans (not_lt.mp hx)
        exact not_lt.mpr this
      have := ih ha'.2 hb
      simp only [ins, hx, if_false] at this
      simp only [ins, hx, if_false, hzx]
      rw [mrg_cons, if_neg h, this]

theorem mrg_foldl_ins {a b : List (V × I)} (ha : Srt a) (hb : Srt b) (ys : List (V × I)) :
    mrg a (ys.foldl (fun s x => ins x s) b) = ys.foldl (fun s x => ins x s) (mrg a b) := by
  induction ys generalizing b with
  | nil => rfl
  | cons y ys ih =>
    simp only [List.foldl_cons]
    rw [ih (ins_srt hb), mrg_ins ha hb]

theorem take_mrg (K : Nat) (a b : List (V × I)) :
    (mrg a b).take K = (mrg (a.take K) (b.take K)).take K := by
  induction K generalizing a b with
  | zero => simp
  | succ K ih =>
    match a, b with
    | [], b => simp [mrg_nil_left, List.take_take]
    | x :: a, [] => simp [mrg_nil_right, List.take_take]
    | x :: a, y :: b =>
      simp only [List.take_succ_cons, mrg_cons]
      split
      · simp only [List.take_succ_cons]
        rw [ih (x :: a) b, ih (x :: a.take K) (b.take K)]
        simp only [List.take_take, min_self]
        congr 2
        cases K with
        | zero => simp
        | succ K => simp [List.take_take]
      · simp only [List.take_succ_cons]
        rw [ih a (y :: b), ih (a.take K) (y :: b.take K)]
        simp only [List.take_take, min_self]
        congr 2
        cases K with
        | zero => simp
        | succ K => simp [List.take_take]

theorem mrg_all_le {a b : List (V × I)} (h : ∀ x ∈ a, ∀ y ∈ b, x.1 ≤ y.1) : mrg a b = a ++ b := by
  induction a with
  | nil => simp [mrg_nil_left]
  | cons x a ih =>
    cases b with
    | nil => simp [mrg_nil_right]
    | cons y b =>
      rw [mrg_cons, if_neg (not_lt.mpr (h x (by simp) y (by simp))),
        ih (fun x hx y hy => h x (by simp [hx]) y hy)]
      rfl

theorem mrg_map {J : Type} (f : I → J) (a b : List (V × I)) :
    (mrg a b).map (Prod.map id f) = mrg (a.map (Prod.map id f)) (b.map (Prod.map id f)) := by
  induction a, b using mrg.induct with
  | case1 b => simp [mrg_nil_left]
  | case2 x a => simp [mrg_nil_right]
  | case3 x a y b h ih =>
    rw [mrg_cons, if_pos h]
    simp only [List.map_cons] at ih ⊢
    rw [mrg_cons, if_pos (by simpa using h), ih]
  | case4 x a y b h ih =>
    rw [mrg_cons, if_neg h]
    simp only [List.map_cons] at ih ⊢
    rw [mrg_cons, if_neg (by simpa using h), ih]

/-! ### The `K` smallest entries -/

/-- `K` padding entries followed by insertions; the accumulator holds its first `K` entries. -/
def insAll [OrderTop V] (K : Nat) (i0 : I) (l : List (V × I)) : List (V × I) :=
  l.foldl (fun s x => ins x s) (List.replicate K (⊤, i0))

def topK [OrderTop V] (K : Nat) (i0 : I) (l : List (V × I)) : List (V × I) :=
  (insAll K i0 l).take K

section top
variable [OrderTop V]

theorem srt_replicate (K : Nat) (x : V × I) : Srt (List.replicate K x) := by
  unfold Srt
  induction K with
  | zero => simp
  | succ K ih =>
    rw [List.replicate_succ, List.pairwise_cons]
    exact ⟨fun y hy => by rw [List.eq_of_mem_replicate hy], ih⟩

theorem insAll_srt (K : Nat) (i0 : I) (l : List (V × I)) : Srt (insAll K i0 l) :=
  foldl_ins_srt l (srt_replicate _ _)

theorem topK_srt (K : Nat) (i0 : I) (l : List (V × I)) : Srt (topK K i0 l) :=
  (insAll_srt K i0 l).sublist (List.take_sublist ..)

theorem topK_length (K : Nat) (i0 : I) (l : List (V × I)) : (topK K i0 l).length = K := by
  simp [topK, insAll, foldl_ins_length]

theorem topK_nil (K : Nat) (i0 : I) : topK K i0 ([] : List (V × I)) = List.replicate K (⊤, i0) := by
  simp [topK, insAll]

theorem topK_snoc (K : Nat) (i0 : I) (l : List (V × I)) (x : V × I) :
    topK K i0 (l ++ [x]) = (ins x (topK K i0 l)).take K := by
  simp only [topK, insAll, List.foldl_append, List.foldl_cons, List.foldl_nil]
  rw [take_ins]

theorem topK_append (K : Nat) (i0 : I) (l m : List (V × I)) :
    topK K i0 (l ++ m) = (mrg (topK K i0 l) (topK K i0 m)).take K := by
  have h1 : (mrg (topK K i0 l) (topK K i0 m)).take K =
      (mrg (insAll K i0 l) (insAll K i0 m)).take K := by
    rw [take_mrg K (insAll K i0 l) (insAll K i0 m)]
    rfl
  rw [h1]
  have h2 : mrg (insAll K i0 l) (insAll K i0 m) =
      m.foldl (fun s x => ins x s) (insAll K i0 l ++ List.replicate K (⊤, i0)) := by
    have := mrg_foldl_ins (insAll_srt K i0 l) (srt_replicate K (⊤, i0)) m
    have h3 : mrg (insAll K i0 l) (List.replicate K (⊤, i0)) =
        insAll K i0 l ++ List.replicate K (⊤, i0) := by
      apply mrg_all_le
      intro x _ y hy
      rw [List.eq_of_mem_replicate hy]
      exact le_top
    rw [h3] at this
    exact this
  rw [h2, foldl_ins_take, topK, insAll, List.foldl_append, foldl_ins_take]
  congr 2
  have hl : K ≤ (insAll K i0 l).length := by simp [insAll, foldl_ins_length]
  rw [List.take_append_of_le_length hl]
  rfl

theorem topK_map {J : Type} (f : I → J) (K : Nat) (i0 : I) (l : List (V × I)) :
    (topK K i0 l).map (Prod.map id f) = topK K (f i0) (l.map (Prod.map id f)) := by
  simp only [topK, List.map_take]
  congr 1
  simp only [insAll]
  have : ∀ s : List (V × I), (l.foldl (fun s x => ins x s) s).map (Prod.map id f) =
      (l.map (Prod.map id f)).foldl (fun s x => ins x s) (s.map (Prod.map id f)) := by
    induction l with
    | nil => intro s; rfl
    | cons x l ih =>
      intro s
      simp only [List.foldl_cons, List.map_cons, ih, ins_map]
  rw [this]
  simp

end top

/-! ### Declarative description -/

/-- Strictly increasing for the lexicographic order (value, index). -/
def LexSrt (s : List (V × Nat)) : Prop :=
  s.Pairwise (fun a b => a.1 < b.1 ∨ (a.1 = b.1 ∧ a.2 < b.2))

theorem ins_lexSrt {x : V × Nat} {s : List (V × Nat)} (h : LexSrt s) (hx : ∀ y ∈ s, y.2 < x.2) :
    LexSrt (ins x s) := by
  induction s with
  | nil => simp [ins, LexSrt]
  | cons z s ih =>
    have h' := List.pairwise_cons.mp h
    unfold ins
    split
    · next hlt =>
      refine List.pairwise_cons.mpr ⟨?_, h⟩
      intro y hy
      rcases List.mem_cons.mp hy with rfl | hy
      · exact Or.inl hlt
      · rcases h'.1 y hy with h1 | h1
        · exact Or.inl (hlt.trans h1)
        · exact Or.inl (h1.1 ▸ hlt)
    · next hlt =>
      refine List.pairwise_cons.mpr ⟨?_, ih h'.2 (fun y hy => hx y (by simp [hy]))⟩
      intro y hy
      rcases mem_ins.mp hy with rfl | hy
      · rcases lt_or_eq_of_le (not_lt.mp hlt) with h1 | h1
        · exact Or.inl h1
        · exact Or.inr ⟨h1, hx z (by simp)⟩
      · exact h'.1 y hy

/-- The insertions below `⊤` all land before the padding, the other ones after it. -/
theorem insAll_eq [OrderTop V] (K : Nat) (l : List (V × Nat))
    (hidx : l.Pairwise (fun a b => a.2 < b.2)) :
    ∃ s post, insAll K 0 l = s ++ List.replicate K (⊤, 0) ++ post ∧
      s.Perm (l.filter (fun x => x.1 < ⊤)) ∧ LexSrt s := by
  have gen : ∀ l : List (V × Nat), l.Pairwise (fun a b => a.2 < b.2) →
      ∃ s post, insAll K 0 l = s ++ List.replicate K (⊤, 0) ++ post ∧
      s.Perm (l.filter (fun x => x.1 < ⊤)) ∧ LexSrt s ∧ (∀ y ∈ s, y.1 < ⊤) ∧ (∀ y ∈ post, y.1 = ⊤) := by
    intro l
    induction l using List.reverseRecOn with
    | nil => intro _; exact ⟨[], [], by simp [insAll], by simp, by simp [LexSrt], by simp, by simp⟩
    | append_singleton l x ih =>
      intro hp
      obtain ⟨hp1, _, hp2⟩ := List.pairwise_append.mp hp
      obtain ⟨s, post, he, hperm, hlex, hs, hpost⟩ := ih hp1
      have he' : insAll K 0 (l ++ [x]) = ins x (insAll K 0 l) := by simp [insAll]
      rw [he', he]
      by_cases hx : x.1 < ⊤
      · refine ⟨ins x s, post, ?_, ?_, ?_, ?_, hpost⟩
        · clear he he' hperm hlex
          induction s with
          | nil =>
            cases K with
            | zero =>
              cases post with
              | nil => simp [ins]
              | cons z post => simp [ins, hpost z (by simp), hx]
            | succ K => simp [List.replicate_succ, ins, hx]
          | cons z s ih =>
            have := ih (fun y hy => hs y (by simp [hy]))
            simp only [List.cons_append, ins] at this ⊢
            split
            · simp
            · rw [this]; simp
        · rw [List.filter_append]
          simp only [List.filter_cons, hx, decide_true, if_true, List.filter_nil]
          refine (ins_perm x s).trans ?_
          refine (List.Perm.cons x hperm).trans ?_
          exact (List.perm_append_singleton x _).symm
        · apply ins_lexSrt hlex
          intro y hy
          have : y ∈ l := (List.mem_filter.mp (hperm.mem_iff.mp hy)).1
          exact hp2 y this x (by simp)
        · intro y hy
          rcases mem_ins.mp hy with rfl | hy
          · exact hx
          · exact hs y hy
      · have hx' : x.1 = ⊤ := le_antisymm le_top (not_lt.mp hx)
        refine ⟨s, post ++ [x], ?_, ?_, hlex, hs, ?_⟩
        · rw [ins_all_le]
          · simp
          · intro y _; rw [hx']; exact le_top
        · rw [List.filter_append]
          simpa [hx'] using hperm
        · intro y hy
          rcases List.mem_append.mp hy with hy | hy
          · exact hpost y hy
          · simp only [List.mem_singleton] at hy
            rw [hy, hx']
  obtain ⟨s, post, h1, h2, h3, _⟩ := gen l hidx
  exact ⟨s, post, h1, h2, h3⟩

end Verif
