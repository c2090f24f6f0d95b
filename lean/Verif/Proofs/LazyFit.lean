import Verif.Proofs.LazyRel
import Verif.Props.LazyShape
import Mathlib.Data.List.Forall2
import Mathlib.Data.List.GetD

/-! Broadcasting of indices, and the shapes of the variables of a lazy tensor. -/

namespace Verif.Lazy
open Alias (Str)
open Spec (LExpr LTree broadcast broadcastRev clip Interp Arr)

/-! ### Shapes written from the last dimension -/

/-- `s` can be stretched to `t`. -/
def SubRev : List Nat → List Nat → Prop
  | [], _ => True
  | _ :: _, [] => False
  | a :: s, b :: t => (a = b ∨ a = 1) ∧ SubRev s t

theorem SubRev.refl (s : List Nat) : SubRev s s := by
  induction s with
  | nil => trivial
  | cons a s ih => exact ⟨.inl rfl, ih⟩

theorem SubRev.trans {s t u : List Nat} (h : SubRev s t) (h' : SubRev t u) : SubRev s u := by
  induction s generalizing t u with
  | nil => trivial
  | cons a s ih =>
    cases t with
    | nil => exact h.elim
    | cons b t =>
      cases u with
      | nil => exact h'.elim
      | cons c u =>
        refine ⟨?_, ih h.2 h'.2⟩
        rcases h.1 with e | e
        · rcases h'.1 with e' | e'
          · exact .inl (e.trans e')
          · exact .inr (e.trans e')
        · exact .inr e

theorem SubRev.length {s t : List Nat} (h : SubRev s t) : s.length ≤ t.length := by
  induction s generalizing t with
  | nil => simp
  | cons a s ih =>
    cases t with
    | nil => exact h.elim
    | cons b t => simpa using ih h.2

theorem broadcastRev_sub {s t u : List Nat} (h : broadcastRev s t = some u) : SubRev s u ∧ SubRev t u := by
  induction s generalizing t u with
  | nil =>
    simp only [broadcastRev, Option.some.injEq] at h
    exact ⟨trivial, h ▸ SubRev.refl t⟩
  | cons a s ih =>
    cases t with
    | nil =>
      simp only [broadcastRev, Option.some.injEq] at h
      exact ⟨h ▸ SubRev.refl _, trivial⟩
    | cons b t =>
      rw [broadcastRev] at h
      by_cases h1 : a = b ∨ b = 1
      · rw [if_pos h1, Option.map_eq_some_iff] at h
        obtain ⟨v, hv, rfl⟩ := h
        obtain ⟨i1, i2⟩ := ih hv
        refine ⟨⟨.inl rfl, i1⟩, ?_, i2⟩
        rcases h1 with e | e
        · exact .inl e.symm
        · exact .inr e
      · rw [if_neg h1] at h
        by_cases h2 : a = 1
        · rw [if_pos h2, Option.map_eq_some_iff] at h
          obtain ⟨v, hv, rfl⟩ := h
          obtain ⟨i1, i2⟩ := ih hv
          exact ⟨⟨.inr h2, i1⟩, .inl rfl, i2⟩
        · rw [if_neg h2] at h
          exact absurd h (by simp)

/-- `clip` on indices written from the last one. -/
def clipRev (s q : List Nat) : List Nat := List.zipWith (fun n k => if n = 1 then 0 else k) s q

theorem zipWith_long {A B C : Type} (f : A → B → C) (s : List A) (q r : List B) (h : s.length ≤ q.length) :
    List.zipWith f s (q ++ r) = List.zipWith f s q := by
  induction s generalizing q with
  | nil => simp
  | cons a s ih =>
    cases q with
    | nil => simp at h
    | cons b q => simp [ih q (by simpa using h)]

theorem clip_eq {s idx : List Nat} (h : s.length ≤ idx.length) : (clip s idx).reverse = clipRev s.reverse idx.reverse := by
  unfold clip clipRev
  rw [List.reverse_zipWith (by simp; omega)]
  have e : idx.reverse = (idx.drop (idx.length - s.length)).reverse ++ (idx.take (idx.length - s.length)).reverse := by
    rw [← List.reverse_append, List.take_append_drop]
  conv_rhs => rw [e]
  rw [zipWith_long _ _ _ _ (by simp; omega)]

theorem clipRev_sub {s t q : List Nat} (h : SubRev s t) (hq : t.length ≤ q.length) :
    clipRev s (clipRev t q) = clipRev s q := by
  induction s generalizing t q with
  | nil => simp [clipRev]
  | cons a s ih =>
    cases t with
    | nil => exact h.elim
    | cons b t =>
      cases q with
      | nil => simp at hq
      | cons k q =>
        have := ih h.2 (by simpa using hq)
        unfold clipRev at this ⊢
        simp only [List.zipWith_cons_cons, this, List.cons.injEq, and_true]
        rcases h.1 with e | e
        · subst e
          split_ifs <;> rfl
        · simp [e]

theorem clipRev_idx {s u q : List Nat} (h : SubRev s u) (hq : List.Forall₂ (fun n k => k < n) u q) :
    List.Forall₂ (fun n k => k < n) s (clipRev s q) := by
  induction s generalizing u q with
  | nil => exact .nil
  | cons a s ih =>
    cases u with
    | nil => exact h.elim
    | cons b u =>
      cases hq with
      | cons h1 h2 =>
        refine .cons ?_ (ih h.2 h2)
        by_cases e : a = 1
        · simp [e]
        · simp only [if_neg e]
          rcases h.1 with e' | e'
          · exact e' ▸ h1
          · exact absurd e' e

theorem clip_append {s r b q : List Nat} (h : r.length = q.length) (hs : s.length ≤ b.length) :
    clip (s ++ r) (b ++ q) = clip s b ++ clip r q := by
  unfold clip
  rw [List.length_append, List.length_append, h, Nat.add_sub_add_right, List.drop_append_of_le_length (by omega),
    List.zipWith_append (by simp; omega)]
  simp

theorem clip_clip {s t b : List Nat} (h : SubRev s.reverse t.reverse) (hb : t.length = b.length) :
    clip s (clip t b) = clip s b := by
  have hl := h.length
  simp only [List.length_reverse] at hl
  have hc : (clip t b).length = t.length := by simp [clip, hb]
  rw [← List.reverse_inj, clip_eq (by omega), clip_eq hb.le, clip_eq (by omega)]
  exact clipRev_sub h (by simp [hb])

/-! ### Shapes of variables -/

/-- The shape of a variable can be stretched to the shape of the lazy tensor. -/
def Fit (L : LazyT) (a : LTensor) : Prop :=
  ∃ sb, SubRev sb.reverse (L.batchdims.getD []).reverse ∧
    ((a.cat = 0 ∧ ∃ m d, L.ni = some m ∧ a.shape = sb ++ [m, d]) ∨
     (a.cat = 1 ∧ ∃ m d, L.nj = some m ∧ a.shape = sb ++ [m, d]) ∨
     (a.cat = 2 ∧ ∃ d, a.shape = sb ++ [d]))

/-- What is known of all variables. -/
structure Fits (L : LazyT) : Prop where
  batch : 0 ∉ L.batchdims.getD []
  fit : ∀ a ∈ L.tensors, Fit L a
  lists : ∀ a ∈ L.tensors, a.isList → a.cat = 2

theorem promote_left {x y z : Option Nat} {m : Nat} (h : promote x y = some z) (hx : x = some m) : z = some m := by
  subst hx
  cases y with
  | none => simpa [promote] using h.symm
  | some b =>
    by_cases e : m = b
    · subst e
      simpa [promote] using h.symm
    · simp [promote, e] at h

theorem promote_right {x y z : Option Nat} {m : Nat} (h : promote x y = some z) (hy : y = some m) : z = some m := by
  subst hy
  cases x with
  | none => simpa [promote] using h.symm
  | some b =>
    by_cases e : b = m
    · subst e
      simpa [promote] using h.symm
    · simp [promote, e] at h

theorem Fit.mono {L L' : LazyT} {a : LTensor} (h : Fit L a)
    (hb : SubRev (L.batchdims.getD []).reverse (L'.batchdims.getD []).reverse)
    (hi : ∀ m, L.ni = some m → L'.ni = some m) (hj : ∀ m, L.nj = some m → L'.nj = some m) : Fit L' a := by
  obtain ⟨sb, h1, h2⟩ := h
  refine ⟨sb, h1.trans hb, ?_⟩
  rcases h2 with ⟨hc, m, d, hm, hs⟩ | ⟨hc, m, d, hm, hs⟩ | h2
  · exact .inl ⟨hc, m, d, hi m hm, hs⟩
  · exact .inr (.inl ⟨hc, m, d, hj m hm, hs⟩)
  · exact .inr (.inr h2)

theorem broadcast_sub {s t u : List Nat} (h : broadcast s t = some u) :
    SubRev s.reverse u.reverse ∧ SubRev t.reverse u.reverse := by
  unfold broadcast at h
  rw [Option.map_eq_some_iff] at h
  obtain ⟨v, hv, rfl⟩ := h
  simpa using broadcastRev_sub hv

theorem broadcastRev_zero {s t u : List Nat} (h : broadcastRev s t = some u) (hs : 0 ∉ s) (ht : 0 ∉ t) : 0 ∉ u := by
  induction s generalizing t u with
  | nil =>
    simp only [broadcastRev, Option.some.injEq] at h
    exact h ▸ ht
  | cons a s ih =>
    cases t with
    | nil =>
      simp only [broadcastRev, Option.some.injEq] at h
      exact h ▸ hs
    | cons b t =>
      simp only [List.mem_cons, not_or] at hs ht
      rw [broadcastRev] at h
      by_cases h1 : a = b ∨ b = 1
      · rw [if_pos h1, Option.map_eq_some_iff] at h
        obtain ⟨v, hv, rfl⟩ := h
        simp only [List.mem_cons, not_or]
        exact ⟨hs.1, ih hv hs.2 ht.2⟩
      · rw [if_neg h1] at h
        by_cases h2 : a = 1
        · rw [if_pos h2, Option.map_eq_some_iff] at h
          obtain ⟨v, hv, rfl⟩ := h
          simp only [List.mem_cons, not_or]
          exact ⟨ht.1, ih hv hs.2 ht.2⟩
        · rw [if_neg h2] at h
          exact absurd h (by simp)

theorem join_parts {x y res : LazyT} (h : join x y = some res) :
    promote x.ni y.ni = some res.ni ∧ promote x.nj y.nj = some res.nj ∧
      checkBroadcasting x.batchdims y.batchdims = some res.batchdims := by
  unfold join at h
  simp only [Option.bind_eq_bind, Option.bind_eq_some_iff] at h
  obtain ⟨_, h1, _, h2, _, h3, h⟩ := h
  simp only [Option.pure_def, Option.some.injEq] at h
  subst h
  exact ⟨h1, h2, h3⟩

theorem join_broadcast {x y res : LazyT} (h : join x y = some res) (hx : 0 ∉ x.batchdims.getD [])
    (hy : 0 ∉ y.batchdims.getD []) :
    broadcast (x.batchdims.getD []) (y.batchdims.getD []) = some (res.batchdims.getD []) := by
  rw [← checkBroadcasting_eq _ _ hx hy, (join_parts h).2.2]
  rfl

theorem Fits.join {x y res : LazyT} (h : join x y = some res) (hx : Fits x) (hy : Fits y) : Fits res := by
  obtain ⟨h1, h2, _⟩ := join_parts h
  have hb := join_broadcast h hx.batch hy.batch
  obtain ⟨s1, s2⟩ := broadcast_sub hb
  obtain ⟨ht, _⟩ := join_tensors h
  refine ⟨?_, ?_, ?_⟩
  · unfold broadcast at hb
    rw [Option.map_eq_some_iff] at hb
    obtain ⟨v, hv, e⟩ := hb
    rw [← e]
    simpa using broadcastRev_zero hv (by simpa using hx.batch) (by simpa using hy.batch)
  · intro a ha
    rw [ht, List.mem_append] at ha
    rcases ha with ha | ha
    · exact (hx.fit a ha).mono s1 (fun m hm => promote_left h1 hm) (fun m hm => promote_left h2 hm)
    · exact (hy.fit a ha).mono s2 (fun m hm => promote_right h1 hm) (fun m hm => promote_right h2 hm)
  · intro a ha
    rw [ht, List.mem_append] at ha
    rcases ha with ha | ha
    · exact hx.lists a ha
    · exact hy.lists a ha

/-- The result of an operation has the sizes of the joined tensors. -/
theorem Fits.congr {L L' : LazyT} (h : Fits L) (hb : L'.batchdims = L.batchdims) (hi : L'.ni = L.ni)
    (hj : L'.nj = L.nj) (ht : L'.tensors = L.tensors) : Fits L' := by
  refine ⟨hb ▸ h.batch, ?_, ?_⟩
  · intro a ha
    exact (h.fit a (ht ▸ ha)).mono (by rw [hb]; exact SubRev.refl _) (by simp [hi]) (by simp [hj])
  · intro a ha
    exact h.lists a (ht ▸ ha)

theorem fits_empty {L : LazyT} (h : L.tensors = []) (hb : L.batchdims = none) : Fits L :=
  ⟨by simp [hb], by simp [h], by simp [h]⟩

theorem getD_append_two (b : List Nat) (m d : Nat) :
    (b ++ [m, d]).getD ((b ++ [m, d]).length - 2) 0 = m := by
  simp

theorem mkVar_fits {id src : Nat} {b r : List Nat} {cat : Nat} {bd : Option (List Nat)} (hb : bd.getD [] = b)
    (h0 : 0 ∉ b) (hr : ((cat = 0 ∨ cat = 1) ∧ ∃ m d, r = [m, d]) ∨ (cat = 2 ∧ ∃ d, r = [d])) :
    Fits (mkVar id src (b ++ r) cat bd) := by
  refine ⟨by simpa [mkVar, hb] using h0, ?_, ?_⟩
  · intro a ha
    simp only [mkVar, List.mem_singleton] at ha
    subst ha
    refine ⟨b, by simpa [mkVar, hb] using SubRev.refl _, ?_⟩
    rcases hr with ⟨hc, m, d, rfl⟩ | ⟨hc, d, rfl⟩
    · rcases hc with rfl | rfl
      · exact .inl ⟨rfl, m, d, by simp [mkVar], rfl⟩
      · exact .inr (.inl ⟨rfl, m, d, by simp [mkVar], rfl⟩)
    · subst hc
      exact .inr (.inr ⟨rfl, d, rfl⟩)
  · intro a ha
    simp only [mkVar, List.mem_singleton] at ha
    subst ha
    simp

theorem mkArray_cases {id src : Nat} {shape : List Nat} {axis : Option Nat} {L : LazyT}
    (hok : axis = some 2 → shape.length ≤ 1) (h : mkArray id src shape axis = some L) :
    ∃ b r cat bd, L = mkVar id src (b ++ r) cat bd ∧ bd.getD [] = b ∧
      (((cat = 0 ∨ cat = 1) ∧ ∃ m d, r = [m, d]) ∨ (cat = 2 ∧ ∃ d, r = [d])) := by
  unfold mkArray at h
  by_cases h0 : shape = []
  · rw [if_pos h0] at h
    by_cases h1 : axis ≠ none ∧ axis ≠ some 2
    · rw [if_pos h1] at h
      exact absurd h (by simp)
    · rw [if_neg h1, Option.some.injEq] at h
      exact ⟨[], [1], 2, none, by simp [← h], rfl, .inr ⟨rfl, 1, rfl⟩⟩
  · rw [if_neg h0] at h
    simp only at h
    by_cases h3 : 3 ≤ shape.length
    · rw [if_pos h3] at h
      by_cases h1 : axis ≠ none
      · rw [if_pos h1] at h
        exact absurd h (by simp)
      · rw [if_neg h1] at h
        have hbd : (if 3 < shape.length then some (shape.take (shape.length - 3)) else none).getD [] =
            shape.take (shape.length - 3) := by
          by_cases h4 : 3 < shape.length
          · rw [if_pos h4]
            rfl
          · rw [if_neg h4, show shape.length - 3 = 0 by omega]
            rfl
        by_cases h5 : shape.getD (shape.length - 3) 0 = 1
        · rw [if_pos h5] at h
          by_cases h6 : shape.getD (shape.length - 2) 0 = 1
          · rw [if_pos h6, Option.some.injEq] at h
            exact ⟨_, _, _, _, h.symm, hbd, .inr ⟨rfl, _, rfl⟩⟩
          · rw [if_neg h6, Option.some.injEq] at h
            exact ⟨_, _, _, _, h.symm, hbd, .inl ⟨.inr rfl, _, _, rfl⟩⟩
        · rw [if_neg h5] at h
          by_cases h6 : shape.getD (shape.length - 2) 0 = 1
          · rw [if_pos h6, Option.some.injEq] at h
            exact ⟨_, _, _, _, h.symm, hbd, .inl ⟨.inl rfl, _, _, rfl⟩⟩
          · rw [if_neg h6] at h
            exact absurd h (by simp)
    · rw [if_neg h3] at h
      have hlen : 0 < shape.length := List.length_pos_iff.2 h0
      by_cases h2 : shape.length = 2 ∧ axis ≠ some 2
      · rw [if_pos h2] at h
        obtain ⟨m, d, rfl⟩ := List.length_eq_two.1 h2.1
        by_cases h4 : axis = some 0
        · rw [if_pos h4, Option.some.injEq] at h
          exact ⟨[], _, _, _, h.symm, rfl, .inl ⟨.inl rfl, _, _, rfl⟩⟩
        · rw [if_neg h4] at h
          by_cases h5 : axis = some 1
          · rw [if_pos h5, Option.some.injEq] at h
            exact ⟨[], _, _, _, h.symm, rfl, .inl ⟨.inr rfl, _, _, rfl⟩⟩
          · rw [if_neg h5] at h
            exact absurd h (by simp)
      · rw [if_neg h2] at h
        by_cases h4 : axis ≠ none ∧ axis ≠ some 2
        · rw [if_pos h4] at h
          exact absurd h (by simp)
        · rw [if_neg h4, Option.some.injEq] at h
          have : shape.length = 1 := by
            by_cases h5 : axis = some 2
            · have := hok h5
              omega
            · have : shape.length ≠ 2 := fun e => h2 ⟨e, h5⟩
              omega
          obtain ⟨d, rfl⟩ := List.length_eq_one_iff.1 this
          exact ⟨[], _, _, _, h.symm, rfl, .inr ⟨rfl, _, rfl⟩⟩

theorem eval_fits (e : LExpr) (he : Ok e) (L : LazyT) (h : eval e = some L) (h0 : ∀ a ∈ L.tensors, 0 ∉ a.shape) :
    Fits L := by
  induction e generalizing L with
  | array id src shape axis =>
    obtain ⟨b, r, cat, bd, rfl, hb, hr⟩ := mkArray_cases he h
    refine mkVar_fits hb ?_ hr
    have := h0 _ (List.mem_singleton.2 rfl)
    simp only [List.mem_append, not_or] at this
    exact this.1
  | params id src len =>
    simp only [eval, Option.some.injEq] at h
    subst h
    refine ⟨by simp [mkParams], ?_, by simp [mkParams]⟩
    intro a ha
    simp only [mkParams, List.mem_singleton] at ha
    subst ha
    exact ⟨[], trivial, .inr (.inr ⟨rfl, len, rfl⟩)⟩
  | int s =>
    simp only [eval, Option.some.injEq] at h
    subst h
    exact fits_empty rfl rfl
  | symb i d c =>
    simp only [eval, Option.some.injEq] at h
    subst h
    exact fits_empty rfl rfl
  | unary op dimres opts x ih =>
    simp only [eval, Option.map_eq_some_iff] at h
    obtain ⟨Lx, hx, rfl⟩ := h
    exact (ih he.2.2 Lx hx h0).congr rfl rfl rfl rfl
  | binary op isOp dimres check opt rv x y ihx ihy =>
    simp only [eval, Option.bind_eq_some_iff] at h
    obtain ⟨Lx, hx, Ly, hy, h⟩ := h
    unfold binary at h
    simp only at h
    by_cases hc : ¬ (checkDims check Lx.ndim Ly.ndim = true)
    · rw [if_pos hc] at h
      exact absurd h (by simp)
    · rw [if_neg hc, Option.map_eq_some_iff] at h
      obtain ⟨res, hr, rfl⟩ := h
      obtain ⟨ht, _⟩ := join_tensors hr
      simp only [ht, List.mem_append] at h0
      exact ((ihx he.2.2.1 Lx hx (fun a ha => h0 a (.inl ha))).join hr
        (ihy he.2.2.2 Ly hy (fun a ha => h0 a (.inr ha)))).congr rfl rfl rfl rfl
  | deriv op dimres check v x e ihv ihx ihe =>
    simp only [eval, Option.bind_eq_some_iff] at h
    obtain ⟨Lv, hv, Lx, hx, Le, hle, h⟩ := h
    unfold deriv at h
    simp only at h
    by_cases hc : ¬ (checkDims check Lx.ndim Le.ndim = true)
    · rw [if_pos hc] at h
      exact absurd h (by simp)
    · rw [if_neg hc, Option.map_eq_some_iff] at h
      obtain ⟨res, hr, rfl⟩ := h
      obtain ⟨ht, _⟩ := join_tensors hr
      simp only [ht, List.mem_append] at h0
      exact ((ihx he.2.2.1 Lx hx (fun a ha => h0 a (.inl ha))).join hr
        (ihe he.2.2.2.1 Le hle (fun a ha => h0 a (.inr ha)))).congr rfl rfl rfl rfl
  | ternary op dimres check x y z ihx ihy ihz =>
    simp only [eval, Option.bind_eq_some_iff] at h
    obtain ⟨Lx, hx, Ly, hy, Lz, hz, h⟩ := h
    unfold ternary at h
    simp only at h
    split at h
    · rw [Option.map_eq_some_iff] at h
      obtain ⟨res, hr, rfl⟩ := h
      rw [Option.bind_eq_some_iff] at hr
      obtain ⟨w, hw, hr⟩ := hr
      obtain ⟨ht, _⟩ := join_tensors hr
      obtain ⟨ht', _⟩ := join_tensors hw
      simp only [ht, ht', List.mem_append] at h0
      exact ((ihx he.2.1 Lx hx (fun a ha => h0 a (.inl ha))).join hr
        ((ihy he.2.2.1 Ly hy (fun a ha => h0 a (.inr (.inl ha)))).join hw
          (ihz he.2.2.2 Lz hz (fun a ha => h0 a (.inr (.inr ha)))))).congr rfl rfl rfl rfl
    · exact absurd h (by simp)
  | t fresh x ih =>
    simp only [eval, Option.map_eq_some_iff] at h
    obtain ⟨Lx, hx, rfl⟩ := h
    have hv : ∀ a ∈ Lx.tensors, 0 ∉ a.shape := by
      intro a ha
      obtain ⟨k, hk, e⟩ := List.mem_iff_getElem.1 ha
      have := h0 (viewOf fresh k a) (by
        simp only [transpose, List.mem_mapIdx]
        exact ⟨k, hk, by rw [e]⟩)
      unfold viewOf at this
      split_ifs at this <;> exact this
    have hF := ih he.1 Lx hx hv
    refine ⟨hF.batch, ?_, ?_⟩
    · intro a ha
      simp only [transpose, List.mem_mapIdx] at ha
      obtain ⟨k, hk, rfl⟩ := ha
      obtain ⟨sb, h1, h2⟩ := hF.fit _ (List.getElem_mem hk)
      refine ⟨sb, h1, ?_⟩
      have hl := hF.lists _ (List.getElem_mem hk)
      unfold viewOf
      by_cases e : (Lx.tensors[k]).isList = true
      · rw [if_pos e]
        have := hl e
        rcases h2 with ⟨hc, _⟩ | ⟨hc, _⟩ | h2
        · omega
        · omega
        · exact .inr (.inr h2)
      · rw [if_neg e]
        simp only [transpose]
        rcases h2 with ⟨hc, h2⟩ | ⟨hc, h2⟩ | ⟨hc, h2⟩
        · exact .inr (.inl ⟨by rw [hc]; rfl, h2⟩)
        · exact .inl ⟨by rw [hc]; rfl, h2⟩
        · exact .inr (.inr ⟨by rw [hc]; rfl, h2⟩)
    · intro a ha
      simp only [transpose, List.mem_mapIdx] at ha
      obtain ⟨k, hk, rfl⟩ := ha
      have hl := hF.lists _ (List.getElem_mem hk)
      unfold viewOf
      by_cases e : (Lx.tensors[k]).isList = true
      · rw [if_pos e]
        exact fun _ => hl e
      · rw [if_neg e]
        exact fun h => absurd h e

/-! ### Values at clipped indices -/

/-- The index along a dimension of size `n`. -/
def clip1 (n k : Nat) : Nat := if n = 1 then 0 else k

theorem at_fit {V : Type} {L : LazyT} {a : LTensor} (h : Fit L a) (A : Arr V) (hA : A.shape = a.shape) (b : List Nat)
    (hb : b.length = L.nbatchdims) (i j k : Nat) :
    A.at' (clip (L.batchdims.getD []) b ++ if a.cat = 0 then [clip1 (L.ni.getD 1) i, k]
        else if a.cat = 1 then [clip1 (L.nj.getD 1) j, k] else [k]) =
      A.at' (b ++ if a.cat = 0 then [i, k] else if a.cat = 1 then [j, k] else [k]) := by
  obtain ⟨sb, h1, h2⟩ := h
  have hl := h1.length
  simp only [List.length_reverse] at hl
  have hb' : (L.batchdims.getD []).length = b.length := hb.symm
  have hcl : (clip (L.batchdims.getD []) b).length = b.length := by simp [clip, hb']
  unfold Arr.at'
  rw [hA]
  congr 1
  have key : ∀ n k : Nat, (if n = 1 then 0 else clip1 n k) = if n = 1 then 0 else k := by
    intro n k
    unfold clip1
    split_ifs <;> rfl
  rcases h2 with ⟨hc, m, d, hm, hs⟩ | ⟨hc, m, d, hm, hs⟩ | ⟨hc, d, hs⟩
  · rw [hs, hc, if_pos rfl, if_pos rfl, clip_append (by simp) (by omega), clip_append (by simp) (by omega), clip_clip h1 hb', hm]
    simp only [clip, List.length_cons, List.length_nil, Nat.sub_self, List.drop_zero, List.zipWith_cons_cons,
      List.zipWith_nil_left, Option.getD_some, key]
  · rw [hs, hc]
    simp only [one_ne_zero, if_false, if_true]
    rw [clip_append (by simp) (by omega), clip_append (by simp) (by omega), clip_clip h1 hb', hm]
    simp only [clip, List.length_cons, List.length_nil, Nat.sub_self, List.drop_zero, List.zipWith_cons_cons,
      List.zipWith_nil_left, Option.getD_some, key]
  · rw [hs, hc]
    simp only [OfNat.ofNat_ne_zero, OfNat.ofNat_ne_one, if_false]
    rw [clip_append (by simp) (by omega), clip_append (by simp) (by omega), clip_clip h1 hb']

theorem den_clip_aux {V : Type} {L : LazyT} (I : Interp V) (data : Nat → Arr V) (T : LTree LTensor)
    (hsym : T.symbs = []) (hfit : ∀ l ∈ T.leaves, Fit L l.1) (hc : ∀ l ∈ T.leaves, l.2.2 = l.1.cat)
    (hA : ∀ l ∈ T.leaves, (data l.1.src).shape = l.1.shape) (b : List Nat) (hb : b.length = L.nbatchdims) (i j : Nat) :
    (T.map LTensor.src).den I data (clip (L.batchdims.getD []) b) (clip1 (L.ni.getD 1) i) (clip1 (L.nj.getD 1) j) =
      (T.map LTensor.src).den I data b i j := by
  induction T with
  | leaf a d c =>
    have h1 := hfit (a, d, c) (by simp [LTree.leaves])
    have h2 : c = a.cat := hc (a, d, c) (by simp [LTree.leaves])
    have h3 := hA (a, d, c) (by simp [LTree.leaves])
    simp only [LTree.map, LTree.den]
    congr 1
    funext k
    rw [h2]
    exact at_fit h1 _ h3 b hb i j k
  | symb n d c => simp [LTree.symbs] at hsym
  | const s => rfl
  | un p q x ih => simp only [LTree.map, LTree.den, ih hsym hfit hc hA]
  | bin p m q x y ihx ihy =>
    simp only [LTree.leaves, List.mem_append, LTree.symbs, List.append_eq_nil_iff] at hfit hc hA hsym
    simp only [LTree.map, LTree.den,
      ihx hsym.1 (fun l hl => hfit l (.inl hl)) (fun l hl => hc l (.inl hl)) (fun l hl => hA l (.inl hl)),
      ihy hsym.2 (fun l hl => hfit l (.inr hl)) (fun l hl => hc l (.inr hl)) (fun l hl => hA l (.inr hl))]
  | ter p m n q x y z ihx ihy ihz =>
    simp only [LTree.leaves, List.mem_append, LTree.symbs, List.append_eq_nil_iff] at hfit hc hA hsym
    simp only [LTree.map, LTree.den,
      ihx hsym.1.1 (fun l hl => hfit l (.inl (.inl hl))) (fun l hl => hc l (.inl (.inl hl)))
        (fun l hl => hA l (.inl (.inl hl))),
      ihy hsym.1.2 (fun l hl => hfit l (.inl (.inr hl))) (fun l hl => hc l (.inl (.inr hl)))
        (fun l hl => hA l (.inl (.inr hl))),
      ihz hsym.2 (fun l hl => hfit l (.inr hl)) (fun l hl => hc l (.inr hl)) (fun l hl => hA l (.inr hl))]

/-- The expression of a lazy tensor has the same value at an index and at the index clipped to its shape. -/
theorem den_clip {V : Type} (I : Interp V) (data : Nat → Arr V) (e : LExpr) (he : Ok e) (L : LazyT) (h : eval e = some L)
    (h0 : ∀ a ∈ L.tensors, 0 ∉ a.shape) (hs : L.symb = []) (hA : ∀ a ∈ L.tensors, (data a.src).shape = a.shape)
    (b : List Nat) (hb : b.length = L.nbatchdims) (i j : Nat) :
    e.tree.den I data (clip (L.batchdims.getD []) b) (clip1 (L.ni.getD 1) i) (clip1 (L.nj.getD 1) j) =
      e.tree.den I data b i j := by
  obtain ⟨T, hT, et⟩ := eval_rel e he L h
  have hF := eval_fits e he L h h0
  rw [← et]
  refine den_clip_aux I data T ?_ (fun l hl => hF.fit _ (hT.mem l hl)) (fun l hl => (hT.typ l hl).2)
    (fun l hl => hA _ (hT.mem l hl)) b hb i j
  rw [List.eq_nil_iff_forall_not_mem]
  intro s hs'
  have := hT.symb s hs'
  simp [hs] at this

end Verif.Lazy
