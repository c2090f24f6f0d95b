import Verif.Proofs.LazyFit
import Mathlib.Algebra.BigOperators.Ring.Finset

/-!
# Lazy tensors: C42

The shortcut for products by a variable of high dimension.
-/

namespace Verif.Lazy
open Alias (Str)
open Spec (LExpr LTree broadcast broadcastRev clip Interp Arr mulVec)

variable {V : Type}

/-! ## Helper lemmas -/

theorem broadcastRev_length {s t u : List Nat} (h : broadcastRev s t = some u) : u.length = max s.length t.length := by
  induction s generalizing t u with
  | nil =>
    simp only [broadcastRev, Option.some.injEq] at h
    simp [h]
  | cons a s ih =>
    cases t with
    | nil =>
      simp only [broadcastRev, Option.some.injEq] at h
      simp [← h]
    | cons b t =>
      rw [broadcastRev] at h
      by_cases h1 : a = b ∨ b = 1
      · rw [if_pos h1, Option.map_eq_some_iff] at h
        obtain ⟨v, hv, rfl⟩ := h
        simp only [List.length_cons, ih hv]
        omega
      · rw [if_neg h1] at h
        by_cases h2 : a = 1
        · rw [if_pos h2, Option.map_eq_some_iff] at h
          obtain ⟨v, hv, rfl⟩ := h
          simp only [List.length_cons, ih hv]
          omega
        · rw [if_neg h2] at h
          exact absurd h (by simp)

theorem broadcast_length {s t u : List Nat} (h : broadcast s t = some u) : u.length = max s.length t.length := by
  unfold broadcast at h
  rw [Option.map_eq_some_iff] at h
  obtain ⟨v, hv, rfl⟩ := h
  simpa using broadcastRev_length hv

theorem broadcast_nil (s : List Nat) : broadcast s [] = some s := by
  unfold broadcast
  cases h : s.reverse with
  | nil =>
    rw [List.reverse_eq_nil_iff] at h
    simp [h, broadcastRev]
  | cons a t =>
    show (some (a :: t)).map List.reverse = some s
    rw [← h]
    simp

theorem broadcast_snoc {s t u : List Nat} {x y z : Nat} (h : broadcast s t = some u)
    (hz : (x = z ∧ y = z) ∨ (x = 1 ∧ y = z) ∨ (x = z ∧ y = 1)) :
    broadcast (s ++ [x]) (t ++ [y]) = some (u ++ [z]) := by
  unfold broadcast at h ⊢
  rw [Option.map_eq_some_iff] at h
  obtain ⟨v, hv, rfl⟩ := h
  simp only [List.reverse_append, List.reverse_cons, List.reverse_nil, List.nil_append, List.singleton_append,
    broadcastRev, hv, Option.map_some]
  by_cases h1 : x = y ∨ y = 1
  · rw [if_pos h1]
    have : x = z := by omega
    simp [this]
  · rw [if_neg h1, if_pos (by omega)]
    have : y = z := by omega
    simp [this]

theorem forall₂_split {R : Nat → Nat → Prop} {s t q : List Nat} (h : List.Forall₂ R (s ++ t) q) :
    ∃ q1 q2, q = q1 ++ q2 ∧ List.Forall₂ R s q1 ∧ List.Forall₂ R t q2 := by
  induction s generalizing q with
  | nil => exact ⟨[], q, rfl, .nil, h⟩
  | cons a s ih =>
    cases h with
    | cons h1 h2 =>
      obtain ⟨q1, q2, rfl, h3, h4⟩ := ih h2
      exact ⟨_ :: q1, q2, rfl, .cons h1 h3, h4⟩

theorem mulVec_getD [MulZeroClass V] (f g : List V) (k : Nat)
    (h : f.length = g.length ∨ f.length = 1 ∨ g.length = 1) (hk : k < max f.length g.length) :
    (mulVec f g).getD k 0 = f.getD (clip1 f.length k) 0 * g.getD (clip1 g.length k) 0 := by
  unfold clip1
  unfold mulVec
  split
  · rename_i x
    simp only [List.length_singleton] at hk h
    rw [if_pos (by simp)]
    by_cases h1 : g.length = 1
    · obtain ⟨y, rfl⟩ := List.length_eq_one_iff.1 h1
      have : k = 0 := by simpa using hk
      simp [this]
    · rw [if_neg h1]
      have hb : k < g.length ∨ (g.length = 0 ∧ k = 0) := by omega
      rcases hb with hb | ⟨hb, rfl⟩
      · simp [List.getD, hb]
      · rw [List.length_eq_zero_iff] at hb
        simp [hb]
  · rename_i y hf
    simp only [List.length_singleton] at hk h
    have h1 : f.length ≠ 1 := by
      intro e
      obtain ⟨x, rfl⟩ := List.length_eq_one_iff.1 e
      exact hf x rfl
    rw [if_neg h1, if_pos (by simp)]
    have hb : k < f.length ∨ (f.length = 0 ∧ k = 0) := by omega
    rcases hb with hb | ⟨hb, rfl⟩
    · simp [List.getD, hb]
    · rw [List.length_eq_zero_iff] at hb
      simp [hb]
  · rename_i hf hg
    have h1 : f.length ≠ 1 := by
      intro e
      obtain ⟨x, rfl⟩ := List.length_eq_one_iff.1 e
      exact hf x rfl
    have h2 : g.length ≠ 1 := by
      intro e
      obtain ⟨x, rfl⟩ := List.length_eq_one_iff.1 e
      exact hg x rfl
    rw [if_neg h1, if_neg h2]
    have hl : f.length = g.length := by omega
    have : k < f.length := by omega
    have : k < g.length := by omega
    simp [List.getD, *]

/-- The value of an expression at batch index `b`, index `r` along the axis that is kept and index `s` along the
summed axis `a`. -/
def denA (I : Interp V) (data : Nat → Arr V) (T : LTree Nat) (a : Nat) (b : List Nat) (r s : Nat) : List V :=
  if a = 0 then T.den I data b s r else T.den I data b r s

theorem sumArr_get [AddCommMonoid V] (I : Interp V) (data : Nat → Arr V) (T : LTree Nat) (a : Nat)
    (batch : List Nat) (M N D : Nat) (b : List Nat) (r k : Nat) :
    (T.sumArr I data a batch M N D).get (b ++ [r, k]) =
      ∑ s ∈ Finset.range (if a = 0 then M else N), (denA I data T a b r s).getD k 0 := by
  simp [LTree.sumArr, denA]

theorem clip1_clip1 (n k : Nat) : clip1 n (clip1 n k) = clip1 n k := by
  unfold clip1
  split_ifs <;> rfl

theorem clip_self (s b : List Nat) (h : s.length = b.length) : clip s (clip s b) = clip s b :=
  clip_clip (SubRev.refl _) h

theorem denA_clip (I : Interp V) (data : Nat → Arr V) (e : LExpr) (he : Ok e) (L : LazyT) (h : eval e = some L)
    (h0 : ∀ a ∈ L.tensors, 0 ∉ a.shape) (hs : L.symb = []) (hA : ∀ a ∈ L.tensors, (data a.src).shape = a.shape)
    (b : List Nat) (hb : b.length = L.nbatchdims) (a r s : Nat) :
    denA I data e.tree a (clip (L.batchdims.getD []) b) (clip1 (if a = 0 then L.nj.getD 1 else L.ni.getD 1) r) s =
      denA I data e.tree a b r s := by
  have hc : (clip (L.batchdims.getD []) b).length = L.nbatchdims := by
    simp [clip, hb, LazyT.nbatchdims]
  have key := den_clip I data e he L h h0 hs hA
  unfold denA
  by_cases ha : a = 0
  · simp only [if_pos ha]
    rw [← key b hb, ← key _ hc, clip_self _ _ hb.symm, clip1_clip1]
  · simp only [if_neg ha]
    rw [← key b hb, ← key _ hc, clip_self _ _ hb.symm, clip1_clip1]

/-! ## C42 -/

/-- The expressions considered: products `x * v` by arrays, where `x` is again such a product or any expression that is
not a product by a variable of dimension more than 100. The array has at most as many batch dimensions as `x`, and no
batch dimension if it is a parameter. The factor `x` has the dimension that it announces. -/
inductive Prods (I : Interp V) (data : Nat → Arr V) : LExpr → Prop
  | base {e : LExpr} : recOf e = none → Prods I data e
  | mul (rversion : Bool) {x : LExpr} {Lx Ly : LazyT} (id src : Nat) (shape : List Nat) (axis : Option Nat) :
    Prods I data x → eval x = some Lx → eval (.array id src shape axis) = some Ly →
    Ly.nbatchdims ≤ Lx.nbatchdims → (Ly.axis = some 2 → Ly.batchdims.getD [] = []) →
    (∀ b i j, (x.tree.den I data b i j).length = Lx.ndim) →
    Prods I data (.binary ['*'] true none .sameor1 none rversion x (.array id src shape axis))

theorem promote_none {x z : Option Nat} (h : promote x none = some z) : z = x := by
  cases x <;> simpa [promote] using h.symm

theorem promote_some {x z : Option Nat} {m : Nat} (h : promote x (some m) = some z) :
    z = some m ∧ (x = none ∨ x = some m) := by
  refine ⟨promote_right h rfl, ?_⟩
  cases x with
  | none => exact .inl rfl
  | some b =>
    by_cases e : b = m
    · exact .inr (by rw [e])
    · simp [promote, e] at h

theorem binary_parts {op : Str} {isOp : Bool} {dimres : Option Nat} {check : Spec.DimCheck} {opt : Option Str} {rv : Bool}
    {x y L : LazyT} (h : binary op isOp dimres check opt rv x y = some L) :
    L.tensors = x.tensors ++ y.tensors ∧ L.symb = x.symb ++ y.symb := by
  unfold binary at h
  simp only at h
  by_cases hc : ¬ (checkDims check x.ndim y.ndim = true)
  · rw [if_pos hc] at h
    exact absurd h (by simp)
  · rw [if_neg hc, Option.map_eq_some_iff] at h
    obtain ⟨res, hres, rfl⟩ := h
    have := join_tensors hres
    exact this

/-- The product of the sum of `x` by the array. -/
theorem mul_sum [CommSemiring V] (I : Interp V) (data : Nat → Arr V)
    (hI : I.bin ['('] [' ', '*', ' '] [')'] = mulVec)
    (rversion : Bool) (x : LExpr) (Lx Ly L : LazyT) (id src : Nat) (shape : List Nat) (axis : Option Nat)
    (hx : eval x = some Lx) (hy : eval (.array id src shape axis) = some Ly)
    (hL : eval (.binary ['*'] true none .sameor1 none rversion x (.array id src shape axis)) = some L)
    (hok : Ok x) (hoky : axis = some 2 → shape.length ≤ 1)
    (h0 : ∀ a ∈ L.tensors, 0 ∉ a.shape) (hs : L.symb = []) (hA : ∀ a ∈ L.tensors, (data a.src).shape = a.shape)
    (hnb : Ly.nbatchdims ≤ Lx.nbatchdims) (hpar : Ly.axis = some 2 → Ly.batchdims.getD [] = [])
    (hlen : ∀ b i j, (x.tree.den I data b i j).length = Lx.ndim) (hdim : 100 < Ly.ndim)
    (a : Nat) (ha : a < 2) (hax : Ly.axis ≠ some a) (A : Arr V)
    (hAx : A.Same (x.tree.sumArr I data a (Lx.batchdims.getD []) (Lx.ni.getD 1) (Lx.nj.getD 1) Lx.ndim)) :
    L.nbatchdims = Lx.nbatchdims ∧ ∃ v, Ly.tensors.head? = some v ∧ ∃ P, A.mul (data v.src) = some P ∧
      P.Same ((LExpr.binary ['*'] true none .sameor1 none rversion x (.array id src shape axis)).tree.sumArr I data a
        (L.batchdims.getD []) (L.ni.getD 1) (L.nj.getD 1) L.ndim) := by
  have hy' : mkArray id src shape axis = some Ly := hy
  obtain ⟨TV, hTV, eTV⟩ := mkArray_rel (id := id) (src := src) hy'
  obtain ⟨by', rr, cat, bd, hLy, hbd, hrr⟩ := mkArray_cases hoky hy'
  simp only [eval, hx, hy', Option.bind_some] at hL
  unfold binary at hL
  simp only at hL
  by_cases hc : ¬ (checkDims .sameor1 Lx.ndim Ly.ndim = true)
  · rw [if_pos hc] at hL
    exact absurd hL (by simp)
  rw [if_neg hc, Option.map_eq_some_iff] at hL
  obtain ⟨res, hres, rfl⟩ := hL
  obtain ⟨ht, hsy⟩ := join_tensors hres
  obtain ⟨hni, hnj, _⟩ := join_parts hres
  simp only [not_not, checkDims, decide_eq_true_eq] at hc
  have h0x : ∀ a ∈ Lx.tensors, 0 ∉ a.shape := fun a ha => h0 a (by simp [ht, ha])
  have h0y : ∀ a ∈ Ly.tensors, 0 ∉ a.shape := fun a ha => h0 a (by simp [ht, ha])
  have hsx : Lx.symb = [] := by
    simp only [hsy, List.append_eq_nil_iff] at hs
    exact hs.1
  have hFx := eval_fits x hok Lx hx h0x
  have hFy := eval_fits (.array id src shape axis) hoky Ly hy h0y
  have hbr := join_broadcast hres hFx.batch hFy.batch
  have hBlen := broadcast_length hbr
  unfold LazyT.nbatchdims at hnb
  have hBx : (res.batchdims.getD []).length = (Lx.batchdims.getD []).length := by omega
  refine ⟨hBx, ⟨id, src, by' ++ rr, false, cat⟩, by rw [hLy]; rfl, ?_⟩
  have hdata : (data src).shape = by' ++ rr := hA ⟨id, src, by' ++ rr, false, cat⟩ (by
    simp only [ht, List.mem_append]
    exact .inr (by rw [hLy]; simp [mkVar]))
  have hLyb : Ly.batchdims.getD [] = by' := by rw [hLy]; exact hbd
  have hLyax : Ly.axis = some cat := by rw [hLy]; rfl
  have hcat : cat ≠ a := fun e => hax (by rw [hLyax, e])
  have hLyd : Ly.ndim = (by' ++ rr).getLastD 1 := by rw [hLy]; rfl
  have hD : dimOr none (max Lx.ndim Ly.ndim) = Ly.ndim := by
    simp only [dimOr]
    omega
  -- the tree of the array
  have htree : (LExpr.array id src shape axis).tree = .leaf src Ly.ndim cat := by
    have hmem := hTV.mem
    rw [← eTV]
    cases TV with
    | leaf t d c =>
      have h1 := hTV.mem (t, d, c) (by simp [LTree.leaves])
      have h2 := hTV.typ (t, d, c) (by simp [LTree.leaves])
      rw [hLy] at h1
      simp only [mkVar, List.mem_singleton] at h1
      subst h1
      simp only at h2
      simp only [LTree.map, h2.1, h2.2, hLyd]
    | symb => simp [LTree.map, LExpr.tree] at eTV
    | const => simp [LTree.map, LExpr.tree] at eTV
    | un => simp [LTree.map, LExpr.tree] at eTV
    | bin => simp [LTree.map, LExpr.tree] at eTV
    | ter => simp [LTree.map, LExpr.tree] at eTV
  -- sizes along the axis that is kept and along the other one
  have hpar' : cat = 2 → by' = [] := fun e => hLyb ▸ hpar (by rw [hLyax, e])
  have hnia : (if a = 0 then res.ni.getD 1 else res.nj.getD 1) = if a = 0 then Lx.ni.getD 1 else Lx.nj.getD 1 := by
    by_cases h : a = 0
    · simp only [if_pos h]
      have : Ly.ni = none := by
        rw [hLy]
        simp only [mkVar]
        rw [if_neg (by omega)]
      rw [this] at hni
      rw [promote_none hni]
    · simp only [if_neg h]
      have : Ly.nj = none := by
        rw [hLy]
        simp only [mkVar]
        rw [if_neg (by omega)]
      rw [this] at hnj
      rw [promote_none hnj]
  have hbcast : broadcast (Lx.batchdims.getD [] ++ [if a = 0 then Lx.nj.getD 1 else Lx.ni.getD 1, Lx.ndim])
      (by' ++ rr) = some (res.batchdims.getD [] ++ [if a = 0 then res.nj.getD 1 else res.ni.getD 1, Ly.ndim]) := by
    rw [hLyb] at hbr
    rcases hrr with ⟨hcc, m, d, rfl⟩ | ⟨hcc, d, rfl⟩
    · have hd : Ly.ndim = d := by rw [hLyd]; simp
      have hm : (if a = 0 then res.nj.getD 1 else res.ni.getD 1) = m ∧
          ((if a = 0 then Lx.nj.getD 1 else Lx.ni.getD 1) = 1 ∨
            (if a = 0 then Lx.nj.getD 1 else Lx.ni.getD 1) = m) := by
        by_cases h : a = 0
        · simp only [if_pos h]
          have : Ly.nj = some m := by
            rw [hLy]
            simp only [mkVar, getD_append_two]
            rw [if_pos (by omega)]
          rw [this] at hnj
          obtain ⟨e1, e2⟩ := promote_some hnj
          rw [e1]
          rcases e2 with e2 | e2 <;> simp [e2]
        · simp only [if_neg h]
          have : Ly.ni = some m := by
            rw [hLy]
            simp only [mkVar, getD_append_two]
            rw [if_pos (by omega)]
          rw [this] at hni
          obtain ⟨e1, e2⟩ := promote_some hni
          rw [e1]
          rcases e2 with e2 | e2 <;> simp [e2]
      have h1 := broadcast_snoc (x := if a = 0 then Lx.nj.getD 1 else Lx.ni.getD 1) (y := m)
        (z := if a = 0 then res.nj.getD 1 else res.ni.getD 1) hbr (by omega)
      have h2 := broadcast_snoc (x := Lx.ndim) (y := d) (z := Ly.ndim) h1 (by omega)
      simpa using h2
    · have hb' := hpar' hcc
      subst hb'
      have hd : Ly.ndim = d := by rw [hLyd]; simp
      have hn : (if a = 0 then res.nj.getD 1 else res.ni.getD 1) = if a = 0 then Lx.nj.getD 1 else Lx.ni.getD 1 := by
        have e1 : Ly.ni = none := by
          rw [hLy]
          simp only [mkVar]
          rw [if_neg (by omega)]
        have e2 : Ly.nj = none := by
          rw [hLy]
          simp only [mkVar]
          rw [if_neg (by omega)]
        rw [e1] at hni
        rw [e2] at hnj
        rw [promote_none hni, promote_none hnj]
      rw [broadcast_nil, Option.some.injEq] at hbr
      have h1 := broadcast_snoc (x := Lx.ndim) (y := d) (z := Ly.ndim)
        (broadcast_nil (Lx.batchdims.getD [] ++ [if a = 0 then Lx.nj.getD 1 else Lx.ni.getD 1])) (by omega)
      rw [hn, ← hbr]
      simpa using h1
  obtain ⟨hsh, hget⟩ := hAx
  have hAsh : A.shape = Lx.batchdims.getD [] ++ [if a = 0 then Lx.nj.getD 1 else Lx.ni.getD 1, Lx.ndim] := hsh
  unfold Arr.mul
  rw [hdata, hAsh, hbcast, Option.map_some]
  refine ⟨_, rfl, ?_, ?_⟩
  · simp only [LTree.sumArr, hD]
  · intro idx hidx
    simp only at hidx ⊢
    have hsub := (broadcast_sub hbcast).1
    have hcl : Arr.Idx A.shape (clip A.shape idx) := by
      unfold Arr.Idx at hidx ⊢
      rw [hAsh, ← List.forall₂_reverse_iff] at *
      have hl := hidx.length_eq
      simp only [List.length_reverse] at hl
      rw [clip_eq (by rw [← hl]; simp [hBx])]
      exact clipRev_idx hsub hidx
    obtain ⟨ib, q, rfl, hib, hq⟩ := forall₂_split hidx
    obtain ⟨r, k, rfl, hr, hk⟩ : ∃ r k, q = [r, k] ∧ r < (if a = 0 then res.nj.getD 1 else res.ni.getD 1) ∧
        k < Ly.ndim := by
      cases hq with
      | cons h1 h2 =>
        cases h2 with
        | cons h3 h4 =>
          cases h4
          exact ⟨_, _, rfl, h1, h3⟩
    have hibl : ib.length = (Lx.batchdims.getD []).length := by rw [← hib.length_eq, hBx]
    have hclip : clip A.shape (ib ++ [r, k]) = clip (Lx.batchdims.getD []) ib ++
        [clip1 (if a = 0 then Lx.nj.getD 1 else Lx.ni.getD 1) r, clip1 Lx.ndim k] := by
      rw [hAsh, clip_append (by simp) (by omega)]
      simp [clip, clip1]
    have e1 : A.at' (ib ++ [r, k]) = ∑ s ∈ Finset.range (if a = 0 then Lx.ni.getD 1 else Lx.nj.getD 1),
        (denA I data x.tree a ib r s).getD (clip1 Lx.ndim k) 0 := by
      unfold Arr.at'
      rw [hget _ hcl, hclip, sumArr_get]
      refine Finset.sum_congr rfl (fun s _ => ?_)
      rw [denA_clip I data x hok Lx hx h0x hsx (fun t ht' => hA t (by simp [ht, ht'])) ib hibl]
    have e2 : ∀ i j, (if a = 0 then j else i) = r →
        ((LExpr.array id src shape axis).tree.den I data ib i j).getD k 0 = (data src).at' (ib ++ [r, k]) := by
      intro i j hij
      rw [htree]
      simp only [LTree.den, List.getD, List.getElem?_map, List.getElem?_range hk, Option.map_some, Option.getD_some]
      rcases hrr with ⟨hcc, m, d, rfl⟩ | ⟨hcc, d, rfl⟩
      · congr 2
        by_cases h : a = 0
        · have : cat = 1 := by omega
          rw [if_pos h] at hij
          simp [this, hij]
        · have : cat = 0 := by omega
          rw [if_neg h] at hij
          simp [this, hij]
      · have hb' := hpar' hcc
        subst hb'
        simp only [hcc, OfNat.ofNat_ne_zero, OfNat.ofNat_ne_one, if_false]
        unfold Arr.at'
        rw [hdata]
        congr 1
        have c1 : clip ([] ++ [d]) (ib ++ [k]) = clip [] ib ++ clip [d] [k] := clip_append (by simp) (by simp)
        have c2 : clip ([] ++ [d]) ((ib ++ [r]) ++ [k]) = clip [] (ib ++ [r]) ++ clip [d] [k] :=
          clip_append (by simp) (by simp)
        rw [c1, show ib ++ [r, k] = (ib ++ [r]) ++ [k] by simp, c2]
        simp [clip]
    have hlenV : ∀ i j, ((LExpr.array id src shape axis).tree.den I data ib i j).length = Ly.ndim := by
      intro i j
      rw [htree]
      simp [LTree.den]
    have e3 : ∀ i j, (if a = 0 then j else i) = r →
        ((LExpr.binary ['*'] true none .sameor1 none rversion x (.array id src shape axis)).tree.den I data ib i j).getD k 0
          = (x.tree.den I data ib i j).getD (clip1 Lx.ndim k) 0 * (data src).at' (ib ++ [r, k]) := by
      intro i j hij
      have hv := e2 i j hij
      have hl1 := hlen ib i j
      have hl2 := hlenV i j
      have hc2 : clip1 Ly.ndim k = k := by
        unfold clip1
        rw [if_neg (by omega)]
      simp only [LExpr.tree] at hv hl2 ⊢
      rw [if_pos trivial]
      simp only [LTree.den]
      have hI' : I.bin ['('] (' ' :: ['*'] ++ [' ']) [')'] = mulVec := hI
      rw [hI']
      cases rversion with
      | false =>
        simp only [Bool.false_eq_true, if_false]
        rw [mulVec_getD _ _ _ (by rw [hl1, hl2]; omega) (by rw [hl1, hl2]; omega), hl1, hl2, hc2, hv]
      | true =>
        simp only [if_true]
        rw [mulVec_getD _ _ _ (by rw [hl1, hl2]; omega) (by rw [hl1, hl2]; omega), hl1, hl2, hc2, hv, mul_comm]
    rw [e1, sumArr_get, Finset.sum_mul]
    simp only [hnia]
    refine Finset.sum_congr rfl (fun s _ => ?_)
    unfold denA
    by_cases h : a = 0
    · simp only [if_pos h]
      exact (e3 s r (by rw [if_pos h])).symm
    · simp only [if_neg h]
      exact (e3 r s (by rw [if_neg h])).symm

/-- **C42**. The sum of a product by a variable of dimension more than 100, computed with the shortcut, is the direct
sum of the product: same shape and same entries, for all sizes, batch dimensions and data, and any meaning of the
operations in which `*` is the product of vectors.

Partial: the array has at most as many batch dimensions as the other factor, and none if it is a parameter (`Prods`);
no dimension is empty and there are no symbolic variables. -/
theorem C42_partial [CommSemiring V] (I : Interp V) (data : Nat → Arr V)
    (hI : I.bin ['('] [' ', '*', ' '] [')'] = mulVec) (e : LExpr) (hp : Prods I data e) (he : Ok e) (L : LazyT)
    (hL : eval e = some L) (h0 : ∀ a ∈ L.tensors, 0 ∉ a.shape) (hs : L.symb = [])
    (hA : ∀ a ∈ L.tensors, (data a.src).shape = a.shape) (a : Nat) (ha : a < 2) :
    ∃ n, ∀ fuel ≥ n, ∃ o A, sumOut fuel e (L.nbatchdims + a) = some o ∧ o.val I data = some A ∧
      A.Same (e.tree.sumArr I data a (L.batchdims.getD []) (L.ni.getD 1) (L.nj.getD 1) L.ndim) := by
  have hsame : ∀ A : Arr V, A.Same A := fun A => ⟨rfl, fun _ _ => rfl⟩
  have hred : ∀ (e : LExpr) (L : LazyT), eval e = some L → recOf e = none →
      ∃ n, ∀ fuel ≥ n, ∃ o A, sumOut fuel e (L.nbatchdims + a) = some o ∧ o.val I data = some A ∧
        A.Same (e.tree.sumArr I data a (L.batchdims.getD []) (L.ni.getD 1) (L.nj.getD 1) L.ndim) := by
    intro e L hL hr
    refine ⟨1, fun fuel hf => ⟨.reduced e a, _, ?_, ?_, hsame _⟩⟩
    · obtain ⟨f, rfl⟩ : ∃ f, fuel = f + 1 := ⟨fuel - 1, by omega⟩
      rw [sumOut, hL, Option.bind_some, if_neg, if_neg, hr]
      · simp
      · omega
      · simp only [LazyT.shape, LazyT.nbatchdims, List.length_append, List.length_cons, List.length_nil]
        omega
    · simp only [SumOut.val, hL, Option.map_some]
  induction hp generalizing L with
  | base hr => exact hred _ L hL hr
  | @mul rversion x Lx Ly id src shape axis hpx hx hy hnb hpar hlen ih =>
    cases hrec : recOf (.binary ['*'] true none .sameor1 none rversion x (.array id src shape axis)) with
    | none => exact hred _ L hL hrec
    | some fv =>
      have hrec' := hrec
      simp only [recOf, hy, Option.bind_some] at hrec'
      split_ifs at hrec' with hcond
      simp only [Option.some.injEq] at hrec'
      subst hrec'
      have hdim : 100 < Ly.ndim := hcond.2.2
      by_cases hax : Ly.axis = some a
      · refine ⟨1, fun fuel hf => ⟨.reduced (.binary ['*'] true none .sameor1 none rversion x (.array id src shape axis)) a, _, ?_, ?_, hsame _⟩⟩
        · obtain ⟨f, rfl⟩ : ∃ f, fuel = f + 1 := ⟨fuel - 1, by omega⟩
          rw [sumOut, hL, Option.bind_some, if_neg, if_neg, hrec]
          · have hhd : ∃ t, Ly.tensors.head? = some t := by
              have hy' : mkArray id src shape axis = some Ly := hy
              unfold mkArray at hy'
              dsimp only at hy'
              repeat' split at hy'
              all_goals first
                | (simp only [Option.some.injEq] at hy'; subst hy'; exact ⟨_, rfl⟩)
                | simp at hy'
            obtain ⟨t, ht⟩ := hhd
            simp [hy, hax, ht]
          · omega
          · simp only [LazyT.shape, LazyT.nbatchdims, List.length_append, List.length_cons, List.length_nil]
            omega
        · simp only [SumOut.val, hL, Option.map_some]
      · have hy' : mkArray id src shape axis = some Ly := hy
        have hL' := hL
        simp only [eval, hx, hy', Option.bind_some] at hL'
        obtain ⟨hten, hsym⟩ := binary_parts hL'
        have hsub : ∀ t ∈ Lx.tensors, t ∈ L.tensors := fun t ht => by simp [hten, ht]
        have hsx : Lx.symb = [] := by
          rw [hsym, List.append_eq_nil_iff] at hs
          exact hs.1
        obtain ⟨n, hn⟩ := ih he.2.2.1 Lx hx (fun t ht => h0 t (hsub t ht)) hsx (fun t ht => hA t (hsub t ht))
        refine ⟨n + 1, fun fuel hf => ?_⟩
        obtain ⟨f, rfl⟩ : ∃ f, fuel = f + 1 := ⟨fuel - 1, by omega⟩
        obtain ⟨o, A, h1, h2, h3⟩ := hn f (by omega)
        obtain ⟨hnbL, v, hv, P, hP, hPs⟩ := mul_sum I data hI rversion x Lx Ly L id src shape axis hx hy hL he.2.2.1
          he.2.2.2 h0 hs hA hnb hpar hlen hdim a ha hax A h3
        refine ⟨.times o v, P, ?_, ?_, hPs⟩
        · rw [sumOut, hL, Option.bind_some, if_neg, if_neg, hrec]
          · simp only [hy, Option.bind_some, Nat.add_sub_cancel_left, ne_eq, hax, not_false_eq_true, if_true, hnbL, h1, hv,
              Option.map_some, Option.some.injEq]
            cases o with
            | lazy => simp [SumOut.val] at h2
            | reduced => rfl
            | times => rfl
          · omega
          · simp only [LazyT.shape, LazyT.nbatchdims, List.length_append, List.length_cons, List.length_nil]
            omega
        · simp only [SumOut.val, h2, Option.bind_some, hP]

/-! ## A case -/

/-- An interpretation in which `*` is the product of vectors, and the other operations are differences. -/
def exI : Interp Int where
  const _ := [0]
  symb _ _ _ := [0]
  un _ _ x := x
  bin _ m _ x y := if m = [' ', '*', ' '] then mulVec x y else List.zipWith (· - ·) x y
  ter _ _ _ _ x _ _ := x

/-- `(x_i - y_j) * v_i`, with batch dimensions `(2)` for `x` and 1 for `v`. -/
def exProd : LExpr := .binary ['*'] true none .sameor1 none false
    (.binary ['-'] true none .sameor1 none false (.array 100 0 [2, 4, 1, 1] none) (.array 200 1 [1, 3, 1] none))
    (.array 300 2 [1, 4, 1, 101] none)

/-- The shapes of the arrays of `exProd`. -/
def exShapes : Nat → Arr Int
  | 0 => ⟨[2, 4, 1], fun idx => idx.sum⟩
  | 1 => ⟨[3, 1], fun idx => idx.sum⟩
  | _ => ⟨[1, 4, 101], fun idx => idx.sum⟩

/-- The hypotheses of `C42_partial` hold for `exProd`, and the shortcut is used. -/
example : exI.bin ['('] [' ', '*', ' '] [')'] = mulVec ∧ Prods exI exShapes exProd ∧ Ok exProd ∧
    (∃ L, eval exProd = some L ∧ (∀ a ∈ L.tensors, 0 ∉ a.shape) ∧ L.symb = [] ∧
      ∀ a ∈ L.tensors, (exShapes a.src).shape = a.shape) ∧
    sumOut 2 exProd 2 = some (.times (.reduced
      (.binary ['-'] true none .sameor1 none false (.array 100 0 [2, 4, 1, 1] none) (.array 200 1 [1, 3, 1] none)) 1)
      ⟨300, 2, [1, 4, 101], false, 0⟩) := by
  obtain ⟨L, hL⟩ : ∃ L, eval exProd = some L := by
    rw [← Option.isSome_iff_exists]
    decide +kernel
  obtain ⟨Lx, hLx⟩ : ∃ L, eval (.binary ['-'] true none .sameor1 none false (.array 100 0 [2, 4, 1, 1] none)
      (.array 200 1 [1, 3, 1] none)) = some L := by
    rw [← Option.isSome_iff_exists]
    decide +kernel
  have hd : (eval (.binary ['-'] true none .sameor1 none false (.array 100 0 [2, 4, 1, 1] none)
      (.array 200 1 [1, 3, 1] none))).map (fun L => (L.nbatchdims, L.ndim)) = some (1, 1) := by decide +kernel
  simp only [hLx, Option.map_some, Option.some.injEq, Prod.mk.injEq] at hd
  have ht : (eval exProd).map LazyT.tensors = some [⟨100, 0, [2, 4, 1], false, 0⟩, ⟨200, 1, [3, 1], false, 1⟩,
    ⟨300, 2, [1, 4, 101], false, 0⟩] := by decide +kernel
  have hsy : (eval exProd).map LazyT.symb = some [] := by decide +kernel
  simp only [hL, Option.map_some, Option.some.injEq] at ht hsy
  refine ⟨rfl, ?_, ?_, ⟨L, hL, ?_, hsy, ?_⟩, rfl⟩
  · refine .mul false 300 2 [1, 4, 1, 101] none (.base rfl) hLx rfl ?_ ?_ ?_
    · rw [hd.1]
      decide
    · decide +kernel
    · intro b i j
      rw [hd.2]
      simp [LExpr.tree, LTree.den, exI]
  · have hp : ∀ c : Char, c ≠ 'V' → Spec.PlainText [c] := by
      intro c hc
      unfold Spec.PlainText
      by_cases h : c = ' '
      · subst h
        decide
      · simp [h, hc, List.infix_cons_iff, List.prefix_cons_iff]
    exact ⟨hp _ (by decide), by simp, ⟨hp _ (by decide), by simp, by simp [Ok], by simp [Ok]⟩, by simp [Ok]⟩
  · rw [ht]
    decide
  · rw [ht]
    decide

/-! ## What fails -/

/-- A product by a parameter with batch dimension 2 and dimension 101. -/
def exParam : LExpr := .binary ['*'] true none .sameor1 none false
    (.array 100 0 [2, 2, 1, 1] none) (.array 200 1 [2, 1, 1, 101] none)

/-- Data for `exParam`: `x = 1`, and the batch index for the parameter. -/
def exParamData : Nat → Arr Int
  | 0 => ⟨[2, 2, 1], fun _ => 1⟩
  | _ => ⟨[2, 101], fun idx => idx.headD 0⟩

/-- **Not C42** for a parameter with batch dimensions: the sum over `i` has its shape `(2,101)`, which is aligned on
`(i,dim)` and not on `(batch,dim)`. The result has the right shape and, at batch index 0, the entry of the batch
index 1. -/
theorem not_C42_param : ((sumOut 2 exParam 2).bind (·.val exI exParamData)).map
      (fun A => (A.shape, A.get [0, 1, 0])) = some ([2, 2, 101], 1) ∧
    (eval exParam).map (fun L =>
      let A := exParam.tree.sumArr exI exParamData 1 (L.batchdims.getD []) (L.ni.getD 1) (L.nj.getD 1) L.ndim
      (A.shape, A.get [0, 1, 0])) = some ([2, 2, 101], 0) := by
  constructor <;> decide +kernel

/-- A product by a variable `j` that has more batch dimensions than the other factor. -/
def exRank : LExpr := .binary ['*'] true none .sameor1 none false
    (.binary ['-'] true none .sameor1 none false (.array 100 0 [2, 1] (some 0)) (.array 200 1 [2, 1] (some 1)))
    (.array 300 2 [2, 1, 2, 101] none)

/-- Data for `exRank`: `x = (0,1)`, `y = (0,0)`, `v = 1`. -/
def exRankData : Nat → Arr Int
  | 0 => ⟨[2, 1], fun idx => idx.headD 0⟩
  | 1 => ⟨[2, 1], fun _ => 0⟩
  | _ => ⟨[2, 2, 101], fun _ => 1⟩

/-- **Not C42** when the variable has more batch dimensions than the other factor: the sum over `i` (axis 1 of the
product) is computed with the sum of the other factor along its axis 1, which is `j`. The shape is right and the entries
are wrong. -/
theorem not_C42_rank : ((sumOut 2 exRank 1).bind (·.val exI exRankData)).map
      (fun A => (A.shape, A.get [0, 0, 0])) = some ([2, 2, 101], 0) ∧
    (eval exRank).map (fun L =>
      let A := exRank.tree.sumArr exI exRankData 0 (L.batchdims.getD []) (L.ni.getD 1) (L.nj.getD 1) L.ndim
      (A.shape, A.get [0, 0, 0])) = some ([2, 2, 101], 1) := by
  constructor <;> decide +kernel

/-- The same product with a variable `i`. -/
def exRank' : LExpr := .binary ['*'] true none .sameor1 none false
    (.binary ['-'] true none .sameor1 none false (.array 100 0 [2, 1] (some 0)) (.array 200 1 [2, 1] (some 1)))
    (.array 300 2 [2, 2, 1, 101] none)

/-- **Not C42**: the sum over `j` (axis 2) is not an array but a lazy tensor, because axis 2 of the other factor is its
last one. -/
theorem not_C42_lazy : sumOut 2 exRank' 2 = some .lazy := rfl

/-- **Not C42** with a symbolic variable: the sums over `i` and over `j` of the product of any expression by a symbolic
variable of dimension more than 100 raise an exception. -/
theorem not_C42_symbolic (x : LExpr) (rversion : Bool) (ind dim cat : Nat) (hdim : 100 < dim) (L : LazyT)
    (hL : eval (.binary ['*'] true none .sameor1 none rversion x (.symb ind dim cat)) = some L) (fuel a : Nat)
    (ha : a < 2) :
    sumOut fuel (.binary ['*'] true none .sameor1 none rversion x (.symb ind dim cat)) (L.nbatchdims + a) = none := by
  cases fuel with
  | zero => rfl
  | succ f =>
    have hy : eval (.symb ind dim cat) = some (mkSymb ind dim cat) := rfl
    have hrec : recOf (.binary ['*'] true none .sameor1 none rversion x (.symb ind dim cat)) =
        some (x, .symb ind dim cat) := by
      rw [recOf, hy, Option.bind_some, if_pos]
      exact ⟨rfl, rfl, hdim⟩
    rw [sumOut, hL, Option.bind_some, if_neg, if_neg, hrec]
    · simp only [hy, Option.bind_some]
      have ht : (mkSymb ind dim cat).tensors = [] := rfl
      simp only [ht, List.head?_nil, Option.map_none]
      split
      · cases sumOut f x (L.nbatchdims + a) <;> rfl
      · rfl
    · omega
    · simp only [LazyT.shape, LazyT.nbatchdims, List.length_append, List.length_cons, List.length_nil]
      omega

/-- The hypotheses are met, and the same product with a variable of dimension 100 is summed. -/
example : (eval (.binary ['*'] true none .sameor1 none false (.array 100 0 [2, 1] (some 0)) (.symb 0 101 1))).isSome ∧
    (sumOut 1 (.binary ['*'] true none .sameor1 none false (.array 100 0 [2, 1] (some 0)) (.symb 0 100 1)) 1).isSome := by
  constructor <;> decide +kernel

end Verif.Lazy
