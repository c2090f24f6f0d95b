import Verif.Proofs.MethodsOps
import Verif.Proofs.LazyFit
import Verif.Spec.MethodsFit

/-! Programs whose sizes are compatible raise no exception. -/

namespace Verif.Lazy
open Alias (Str)
open Spec (LExpr PyE PyOp PyM1 PyMi PyM2 PyM3 Alike FitsShape broadcast broadcastRev)

theorem broadcastRev_fits {s t u : List Nat} (hs : SubRev s u) (ht : SubRev t u) :
    ∃ r, broadcastRev s t = some r ∧ SubRev r u := by
  induction s generalizing t u with
  | nil => exact ⟨t, rfl, ht⟩
  | cons a s ih =>
    cases t with
    | nil => exact ⟨a :: s, rfl, hs⟩
    | cons b t =>
      cases u with
      | nil => exact hs.elim
      | cons c u =>
        obtain ⟨r, hr, hu⟩ := ih hs.2 ht.2
        have h1 := hs.1
        have h2 := ht.1
        rw [broadcastRev, hr]
        by_cases h : a = b ∨ b = 1
        · rw [if_pos h]
          exact ⟨a :: r, rfl, h1, hu⟩
        · rw [if_neg h, if_pos (by omega)]
          exact ⟨b :: r, rfl, h2, hu⟩

theorem SubRev.pos {s t : List Nat} (h : SubRev s t) (ht : 0 ∉ t) : 0 ∉ s := by
  induction s generalizing t with
  | nil => simp
  | cons a s ih =>
    cases t with
    | nil => exact h.elim
    | cons b t =>
      have h1 := h.1
      simp only [List.mem_cons, not_or] at ht ⊢
      exact ⟨by omega, ih h.2 ht.2⟩

theorem subRev_broadcast {s t : List Nat} (h : SubRev s.reverse t.reverse) : Spec.broadcast s t = some t := by
  have key : ∀ u v : List Nat, SubRev u v → broadcastRev u v = some v := by
    intro u
    induction u with
    | nil => exact fun v _ => rfl
    | cons a u ih =>
      intro v hv
      cases v with
      | nil => exact hv.elim
      | cons b v =>
        have h1 := hv.1
        rw [broadcastRev, ih v hv.2]
        by_cases h : a = b ∨ b = 1
        · rw [if_pos h]
          have : a = b := by omega
          subst this
          rfl
        · rw [if_neg h, if_pos (by omega)]
          rfl
  rw [Spec.broadcast, key _ _ h, Option.map_some, List.reverse_reverse]

/-- The sizes of a lazy tensor. -/
structure SizedAs (B : List Nat) (m n : Nat) (L : LazyT) : Prop where
  ni : L.ni = none ∨ L.ni = some m
  nj : L.nj = none ∨ L.nj = some n
  batch : SubRev (L.batchdims.getD []).reverse B.reverse

/-- What is proved of the lazy tensor that is built: no exception is raised. -/
def Tot (B : List Nat) (m n : Nat) (e : LExpr) (d : Nat) : Prop :=
  ∃ L, eval e = some L ∧ L.ndim = d ∧ 0 < d ∧ SizedAs B m n L ∧ (recOf e ≠ none → 100 < d)

section
variable {B : List Nat} {m n : Nat}

theorem promote_fits {x y : Option Nat} {m : Nat} (hx : x = none ∨ x = some m) (hy : y = none ∨ y = some m) :
    ∃ z, promote x y = some z ∧ (z = none ∨ z = some m) := by
  rcases hx with rfl | rfl <;> rcases hy with rfl | rfl <;> simp [promote]

theorem join_fits (hB : 0 ∉ B) {x y : LazyT} (hx : SizedAs B m n x) (hy : SizedAs B m n y) :
    ∃ r, join x y = some r ∧ SizedAs B m n r := by
  obtain ⟨i, hi, hi'⟩ := promote_fits hx.ni hy.ni
  obtain ⟨j, hj, hj'⟩ := promote_fits hx.nj hy.nj
  have hB' : 0 ∉ B.reverse := by simpa using hB
  have h1 : 0 ∉ x.batchdims.getD [] := by simpa using hx.batch.pos hB'
  have h2 : 0 ∉ y.batchdims.getD [] := by simpa using hy.batch.pos hB'
  obtain ⟨r, hr, hu⟩ := broadcastRev_fits hx.batch hy.batch
  have h := checkBroadcasting_eq _ _ h1 h2
  rw [Spec.broadcast, hr, Option.map_some, Option.map_eq_some_iff] at h
  obtain ⟨b, hb, hb'⟩ := h
  refine ⟨{ formula := [], tensors := x.tensors ++ y.tensors, symb := x.symb ++ y.symb, ndim := 0,
            axis := none, ni := i, nj := j, batchdims := b }, by simp [join, hi, hj, hb], ⟨hi', hj', ?_⟩⟩
  simpa [hb'] using hu

theorem tot_unary {x : LExpr} {d : Nat} (h : Tot B m n x d) (op : Str) (dimres : Option Nat) (opts : List Str) {d' : Nat}
    (hd : dimOr dimres d = d') (hp : 0 < d') : Tot B m n (.unary op dimres opts x) d' := by
  obtain ⟨L, hL, hn, -, hs, -⟩ := h
  subst hn
  exact ⟨unary op dimres opts L, by simp [eval, hL], hd, hp, ⟨hs.ni, hs.nj, hs.batch⟩, fun h => (h rfl).elim⟩

theorem tot_binary (hB : 0 ∉ B) {x y : LExpr} {d₁ d₂ : Nat} (hx : Tot B m n x d₁) (hy : Tot B m n y d₂) (op : Str)
    (isOp : Bool) (dimres : Option Nat) (check : Spec.DimCheck) (rv : Bool) {d : Nat} (hc : checkDims check d₁ d₂ = true)
    (hd : dimOr dimres (max d₁ d₂) = d) (hp : 0 < d) (hs : op = ['*'] → dimres = none) :
    Tot B m n (.binary op isOp dimres check none rv x y) d := by
  obtain ⟨X, hX, rfl, -, sx, -⟩ := hx
  obtain ⟨Y, hY, rfl, -, sy, -⟩ := hy
  obtain ⟨r, hr, sr⟩ := join_fits hB sx sy
  refine ⟨{ r with
      ndim := dimOr dimres (max X.ndim Y.ndim)
      formula :=
        if isOp then '(' :: (if rv then Y.formula else X.formula) ++ ' ' :: op ++ ' ' ::
          (if rv then X.formula else Y.formula) ++ [')']
        else op ++ '(' :: (if rv then Y.formula else X.formula) ++ ',' :: ' ' ::
          (if rv then X.formula else Y.formula) ++ closing [',', ' '] [] }, ?_, hd, hp,
    ⟨sr.ni, sr.nj, sr.batch⟩, fun h => ?_⟩
  · simp [eval, hX, hY, binary, hc, hr]
  · simp only [recOf, hY, Option.bind_some] at h
    split_ifs at h with h'
    · have := hs h'.1
      subst this
      rw [← hd]
      exact lt_of_lt_of_le h'.2.2 (le_max_right _ _)
    · exact (h rfl).elim

theorem tot_ternary (hB : 0 ∉ B) {x y z : LExpr} {d₁ d₂ d₃ : Nat} (hx : Tot B m n x d₁) (hy : Tot B m n y d₂)
    (hz : Tot B m n z d₃) (op : Str) (hc : sameOrOne [d₁, d₂, d₃] = true) :
    Tot B m n (.ternary op none .sameor1 x y z) (max (max d₁ d₂) d₃) := by
  obtain ⟨X, hX, rfl, px, sx, -⟩ := hx
  obtain ⟨Y, hY, rfl, -, sy, -⟩ := hy
  obtain ⟨Z, hZ, rfl, -, sz, -⟩ := hz
  obtain ⟨r, hr, sr⟩ := join_fits hB sy sz
  obtain ⟨r', hr', sr'⟩ := join_fits hB sx sr
  refine ⟨{ r' with
      ndim := max (max X.ndim Y.ndim) Z.ndim
      formula := op ++ '(' :: X.formula ++ ',' :: ' ' :: Y.formula ++ ',' :: ' ' :: Z.formula ++ [')'] }, ?_, rfl, ?_,
    ⟨sr'.ni, sr'.nj, sr'.batch⟩, fun h => (h rfl).elim⟩
  · simp [eval, hX, hY, hZ, ternary, checkDims3, hc, hr, hr', dimOr]
  · exact lt_of_lt_of_le px (le_trans (le_max_left _ _) (le_max_left _ _))

theorem tot_t {x : LExpr} {d : Nat} (h : Tot B n m x d) (fresh : Nat → Nat) : Tot B m n (.t fresh x) d := by
  obtain ⟨L, hL, rfl, hp, hs, hr⟩ := h
  exact ⟨transpose fresh L, by simp [eval, hL], rfl, hp, ⟨hs.nj, hs.ni, hs.batch⟩, fun h => hr h⟩

theorem tot_mk {e : LExpr} {d : Nat} (h : Tot B m n e d) : mk e = some (.lazy e) := by
  obtain ⟨L, hL, -⟩ := h
  simp [mk, hL]

theorem tot_ndim {e : LExpr} {d : Nat} (h : Tot B m n e d) : ndim e = some d := by
  obtain ⟨L, hL, rfl, -⟩ := h
  simp [ndim, hL]

theorem tot_pos {e : LExpr} {d : Nat} (h : Tot B m n e d) : 0 < d := h.elim fun _ h => h.2.2.1

/-- A lazy tensor is made. -/
def Made (B : List Nat) (m n : Nat) (v : Option Val) (d : Nat) : Prop := ∃ e, v = some (.lazy e) ∧ Tot B m n e d

theorem made_mk {e : LExpr} {d : Nat} (h : Tot B m n e d) : Made B m n (mk e) d := ⟨e, tot_mk h, h⟩

theorem made_un {x : LExpr} {d : Nat} (h : Tot B m n x d) (op : String) : Made B m n (un op x) d :=
  made_mk (tot_unary h _ _ _ rfl (tot_pos h))

theorem made_un1 {x : LExpr} {d : Nat} (h : Tot B m n x d) (op : String) : Made B m n (un1 op x) 1 :=
  made_mk (tot_unary h _ _ _ rfl Nat.one_pos)

theorem made_bin1 (hB : 0 ∉ B) {x y : LExpr} {d d' : Nat} (hx : Tot B m n x d) (hy : Tot B m n y d') (op : String)
    (isOp : Bool) (check : Spec.DimCheck) (rv : Bool) (hc : checkDims check d d' = true) (ho : op.toList ≠ ['*']) :
    Made B m n (mk (.binary op.toList isOp (some 1) check none rv x y)) 1 :=
  made_mk (tot_binary hB hx hy _ _ (some 1) _ _ hc rfl Nat.one_pos fun h => (ho h).elim)

theorem alike_check {d d' : Nat} (h : Alike [d, d']) : checkDims .sameor1 d d' = true := by
  obtain ⟨D, hD⟩ := h
  have h1 := hD d (by simp)
  have h2 := hD d' (by simp)
  simp only [checkDims, decide_eq_true_eq]
  omega

theorem alike_symm {d d' : Nat} (h : Alike [d, d']) : Alike [d', d] := by
  obtain ⟨D, hD⟩ := h
  exact ⟨D, fun c hc => hD c (by simp at hc ⊢; tauto)⟩

theorem alike_sameOrOne {ds : List Nat} (h : Alike ds) : sameOrOne ds = true := by
  obtain ⟨D, hD⟩ := h
  simp only [sameOrOne, decide_eq_true_eq]
  have hsub : (ds ++ [1]).dedup ⊆ [1, D] := by
    intro c hc
    simp only [List.mem_dedup, List.mem_append, List.mem_singleton] at hc
    simp only [List.mem_cons, List.not_mem_nil, or_false]
    rcases hc with hc | hc
    · exact hD c hc
    · exact .inl hc
  simpa using (List.subperm_of_subset (List.nodup_dedup _) hsub).length_le

theorem made_infix (hB : 0 ∉ B) {x : LExpr} {w : Val} {d d' : Nat} (hx : Tot B m n x d) (hw : Tot B m n w.toLazy d')
    (h : Alike [d, d']) (op : String) (rv : Bool) : Made B m n (infixOp op rv x w) (max d d') :=
  made_mk (tot_binary hB hx hw _ _ _ _ _ (alike_check h) rfl (lt_of_lt_of_le (tot_pos hx) (le_max_left _ _)) fun _ => rfl)

theorem made_fun (hB : 0 ∉ B) {x : LExpr} {w : Val} {d d' : Nat} (hx : Tot B m n x d) (hw : Tot B m n w.toLazy d')
    (h : Alike [d, d']) (op : String) : Made B m n (funOp op x w) (max d d') :=
  made_mk (tot_binary hB hx hw _ _ _ _ _ (alike_check h) rfl (lt_of_lt_of_le (tot_pos hx) (le_max_left _ _)) fun _ => rfl)

theorem scalar_dim {w : Val} {d : Nat} {k : Int} (hw : Tot B m n w.toLazy d) (h : scalarEq w k = true) : d = 1 := by
  obtain ⟨L, hL, rfl, -⟩ := hw
  cases w with
  | int a =>
    obtain rfl := Option.some.inj hL
    rfl
  | float a b c =>
    obtain rfl := Option.some.inj hL
    rfl
  | _ => cases h

theorem Made.cast {v : Option Val} {d d' : Nat} (h : Made B m n v d) (e : d = d') : Made B m n v d' := e ▸ h

theorem made_left (hB : 0 ∉ B) {x : LExpr} {w : Val} {d d' : Nat} (hx : Tot B m n x d) (hw : Tot B m n w.toLazy d')
    {o : PyOp} (ho : o ≠ .pow) (h : o.Fits d d') (hz : o = .mul → scalarEq w 0 = false) :
    Made B m n (left o x w) (o.dim d d') := by
  have hp := tot_pos hx
  have h1 : ∀ k, scalarEq w k = true → Made B m n (some (.lazy x)) (max d d') := fun k hk =>
    ⟨x, rfl, by rw [scalar_dim hw hk, max_eq_left hp]; exact hx⟩
  have h2 : ∀ k, scalarEq w k = true → Made B m n (un "Minus" x) (max d d') := fun k hk => by
    rw [scalar_dim hw hk, max_eq_left hp]
    exact made_un hx _
  cases o with
  | add =>
    simp only [left, add]
    split_ifs with h0
    · exact h1 _ h0
    · exact made_infix hB hx hw h _ _
  | sub =>
    simp only [left, sub]
    split_ifs with h0
    · exact h1 _ h0
    · exact made_infix hB hx hw h _ _
  | mul =>
    simp only [left, mul, hz rfl, Bool.false_eq_true, if_false]
    split_ifs with h0 h0'
    · exact h1 _ h0
    · exact h2 _ h0'
    · exact made_infix hB hx hw h _ _
  | div =>
    simp only [left, truediv]
    split_ifs with h0
    · exact h1 _ h0
    · exact made_infix hB hx hw h _ _
  | dot => exact made_bin1 hB hx hw "|" _ _ _ (decide_eq_true h) (by decide)
  | pow => exact (ho rfl).elim
  | eq => exact made_fun hB hx hw h _
  | ne => exact made_fun hB hx hw h _
  | _ => exact made_infix hB hx hw h _ _

theorem made_right (hB : 0 ∉ B) {x : LExpr} {w : Val} {d d' : Nat} (hw : Tot B m n w.toLazy d) (hx : Tot B m n x d')
    {o : PyOp} (ho : o ≠ .pow) (h : o.Fits d d') (hz : o = .mul ∨ o = .div → scalarEq w 0 = false) :
    Made B m n (right o w x) (o.dim d d') := by
  have hp := tot_pos hx
  have h1 : ∀ k, scalarEq w k = true → Made B m n (some (.lazy x)) (max d d') := fun k hk =>
    ⟨x, rfl, by rw [scalar_dim hw hk, max_eq_right hp]; exact hx⟩
  have h2 : ∀ k op, scalarEq w k = true → Made B m n (un op x) (max d d') := fun k op hk => by
    rw [scalar_dim hw hk, max_eq_right hp]
    exact made_un hx _
  have h3 : ∀ op rv, Alike [d, d'] → Made B m n (infixOp op rv x w) (max d d') := fun op rv h =>
    (made_infix hB hx hw (alike_symm h) _ _).cast (max_comm _ _)
  have h4 : ∀ op, Alike [d, d'] → Made B m n (funOp op x w) (max d d') := fun op h =>
    (made_fun hB hx hw (alike_symm h) _).cast (max_comm _ _)
  cases o with
  | add =>
    simp only [right, radd]
    split_ifs with h0
    · exact h1 _ h0
    · exact h3 _ _ h
  | sub =>
    simp only [right, rsub]
    split_ifs with h0
    · exact h2 _ _ h0
    · exact h3 _ _ h
  | mul =>
    simp only [right, rmul, hz (.inl rfl), Bool.false_eq_true, if_false]
    split_ifs with h0 h0'
    · exact h1 _ h0
    · exact h2 _ _ h0'
    · exact h3 _ _ h
  | div =>
    simp only [right, rtruediv, hz (.inr rfl), Bool.false_eq_true, if_false]
    split_ifs with h0
    · exact h2 _ _ h0
    · exact h3 _ _ h
  | dot =>
    exact made_bin1 hB hx hw "|" _ _ _ (decide_eq_true (Eq.symm h)) (by decide)
  | pow => exact (ho rfl).elim
  | eq => exact h4 _ h
  | ne => exact h4 _ h
  | _ => exact h3 _ _ h

theorem made_powf (hB : 0 ∉ B) {x y : LExpr} {d d' : Nat} (hx : Tot B m n x d) (hy : Tot B m n y d')
    (h : d' = 1 ∨ d' = d) : Made B m n (powf x y) (max d d') := by
  simp only [powf, tot_ndim hx, tot_ndim hy, Option.bind_some, if_pos h]
  exact made_mk (tot_binary hB hx hy _ _ _ _ _ rfl rfl (lt_of_lt_of_le (tot_pos hx) (le_max_left _ _)) fun _ => rfl)

theorem made_m1 {x : LExpr} {d : Nat} (hx : Tot B m n x d) (f : PyM1) : Made B m n (m1Call f x) (f.dim d) := by
  cases f <;> first | exact made_un hx _ | exact made_un1 hx _

theorem made_elem {x : LExpr} {d : Nat} (hx : Tot B m n x d) {i : Int} (h : 0 ≤ i ∧ i < d) : Made B m n (elem i x) 1 := by
  simp only [elem, tot_ndim hx, Option.bind_some]
  rw [if_neg (by omega)]
  exact made_mk (tot_unary hx _ _ _ rfl Nat.one_pos)

theorem made_extract {x : LExpr} {d : Nat} (hx : Tot B m n x d) {i c : Int} (h : 0 ≤ i ∧ 1 ≤ c ∧ i + c ≤ d) :
    Made B m n (extract i c x) c.toNat := by
  simp only [extract, tot_ndim hx, Option.bind_some]
  rw [if_neg (by omega), if_neg (by omega)]
  exact made_mk (tot_unary hx _ _ _ (dimOr_pos (by omega)) (by omega))

theorem made_mi {x : LExpr} {d : Nat} (hx : Tot B m n x d) {f : PyMi} (h : f.Fits d) (hp : ∀ D, f = .oneHot D → 0 < D) :
    Made B m n (miCall f x) (f.dim d) := by
  cases f with
  | round c => exact made_mk (tot_unary hx _ _ _ rfl (tot_pos hx))
  | elem i => exact made_elem hx h
  | get i => exact made_elem hx h
  | extract i c => exact made_extract hx h
  | slice a b =>
    simp only [miCall, tot_ndim hx, Option.bind_some]
    simp only [PyMi.Fits] at h
    exact made_extract hx ⟨h.1, by omega, by omega⟩
  | oneHot D =>
    obtain rfl : d = 1 := h
    simp only [miCall, tot_ndim hx, Option.bind_some, ne_eq, not_true_eq_false, if_false]
    have := hp D rfl
    exact made_mk (tot_unary hx _ _ _ (dimOr_pos this) this)

theorem made_wsq (hB : 0 ∉ B) {x : LExpr} {w : Val} {d d' : Nat} (hx : Tot B m n x d) (hw : Tot B m n w.toLazy d')
    (h : d' = 1 ∨ d' = d ∨ d' = d ^ 2) : Made B m n (weightedsqnorm x w) 1 := by
  simp only [weightedsqnorm, tot_ndim hx, tot_ndim hw, Option.bind_some, if_pos h]
  exact made_bin1 hB hx hw "WeightedSqNorm" _ _ _ rfl (by decide)

theorem made_dim (hB : 0 ∉ B) {x y : LExpr} {d d' D : Nat} (hx : Tot B m n x d) (hy : Tot B m n y d') (op : String)
    (f : Nat → Nat → Nat) (hD : f d d' = D) (hp : 0 < D) (ho : op.toList ≠ ['*']) :
    Made B m n (dimOp op f x (.lazy y)) D := by
  simp only [dimOp, otherNdim, tot_ndim hx, tot_ndim hy, Option.bind_some]
  subst hD
  exact made_mk (tot_binary hB hx hy _ _ _ _ _ rfl (dimOr_pos hp) hp fun h => (ho h).elim)

theorem made_m2 (hB : 0 ∉ B) {x : LExpr} {w : Val} {d d' : Nat} (hx : Tot B m n x d) (hw : Tot B m n w.toLazy d')
    {f : PyM2} (h : f.Fits d d')
    (hl : f = .concat ∨ f = .matvecmult ∨ f = .vecmatmult ∨ f = .tensorprod → ∃ e, w = .lazy e) :
    Made B m n (m2Call f x w) (f.dim d d') := by
  have px := tot_pos hx
  have pw := tot_pos hw
  cases f with
  | atan2 => exact made_fun hB hx hw h _
  | sqdist => exact made_bin1 hB hx hw "SqDist" _ _ _ (alike_check h) (by decide)
  | weightedsqnorm => exact made_wsq hB hx hw h
  | concat =>
    obtain ⟨y, rfl⟩ := hl (by simp)
    exact made_dim hB hx hw _ _ rfl (Nat.add_pos_left px _) (by decide)
  | matvecmult =>
    obtain ⟨y, rfl⟩ := hl (by simp)
    have : otherNdim (.lazy y) ≠ some 0 := by
      rw [show otherNdim (.lazy y) = some d' from tot_ndim hw]
      simp only [ne_eq, Option.some.injEq]
      omega
    simp only [m2Call, if_neg this]
    exact made_dim hB hx hw _ _ rfl (Nat.div_pos (Nat.le_of_dvd px h) pw) (by decide)
  | vecmatmult =>
    obtain ⟨y, rfl⟩ := hl (by simp)
    have : ndim x ≠ some 0 := by
      rw [tot_ndim hx]
      simp only [ne_eq, Option.some.injEq]
      omega
    simp only [m2Call, if_neg this]
    exact made_dim hB hx hw _ _ rfl (Nat.div_pos (Nat.le_of_dvd pw h) px) (by decide)
  | tensorprod =>
    obtain ⟨y, rfl⟩ := hl (by simp)
    exact made_dim hB hx hw _ _ (Nat.mul_comm _ _) (Nat.mul_pos px pw) (by decide)

theorem made_ter (hB : 0 ∉ B) {x : LExpr} {w w' : Val} {d d' d'' : Nat} (hx : Tot B m n x d) (hw : Tot B m n w.toLazy d')
    (hw' : Tot B m n w'.toLazy d'') (h : Alike [d, d', d'']) (op : String) :
    Made B m n (terOp op x w w') (max (max d d') d'') :=
  made_mk (tot_ternary hB hx hw hw' _ (alike_sameOrOne h))

theorem made_m3 (hB : 0 ∉ B) {x : LExpr} {w w' : Val} {d d' d'' : Nat} (hx : Tot B m n x d) (hw : Tot B m n w.toLazy d')
    (hw' : Tot B m n w'.toLazy d'') {f : PyM3} (h : f.Fits d d' d'') :
    Made B m n (m3Call f x w w') (f.dim d d' d'') := by
  have px := tot_pos hx
  cases f with
  | clamp =>
    have key : Made B m n (terOp "Clamp" x w w') (max (max d d') d'') := made_ter hB hx hw hw' h _
    cases w with
    | int a =>
      cases w' with
      | int b =>
        obtain ⟨L, hL, e, -⟩ := hw
        obtain ⟨L', hL', e', -⟩ := hw'
        obtain rfl := Option.some.inj hL
        obtain rfl := Option.some.inj hL'
        obtain rfl : 1 = d' := e
        obtain rfl : 1 = d'' := e'
        refine (made_mk (tot_unary hx _ none _ rfl px)).cast ?_
        show d = max (max d 1) 1
        omega
      | _ => exact key
    | _ => exact key
  | ifelse => exact made_ter hB hx hw hw' h _
  | mod => exact made_ter hB hx hw hw' h _
  | weightedsqdist =>
    have hr : Made B m n (sub x (.lazy w.toLazy)) (max d d') :=
      made_left hB hx (w := .lazy w.toLazy) hw (o := .sub) (by decide) h.1 (fun h => by cases h)
    obtain ⟨r, hr, tr⟩ := hr
    simp only [m3Call, tot_mk hw, tot_mk hw', Option.bind_some, hr]
    exact made_wsq hB tr (w := .lazy w'.toLazy) hw' h.2

theorem tot_params (id src len : Nat) (h : 0 < len) : Tot B m n (.params id src len) len :=
  ⟨_, rfl, rfl, h, ⟨.inl rfl, .inl rfl, trivial⟩, fun h => (h rfl).elim⟩

theorem tot_array {shape : List Nat} {axis : Option Nat} (h : FitsShape B m n shape axis) (hp : 0 < shape.getLastD 1)
    (id src : Nat) : Tot B m n (.array id src shape axis) (shape.getLastD 1) := by
  have key : ∀ L, mkArray id src shape axis = some L → SizedAs B m n L →
      Tot B m n (.array id src shape axis) (shape.getLastD 1) := fun L hL hs =>
    ⟨L, hL, (array_ndim hL).1, hp, hs, fun h => (h rfl).elim⟩
  have vec : shape.length ≤ 1 → axis = none ∨ axis = some 2 → Tot B m n (.array id src shape axis) (shape.getLastD 1) := by
    intro hl ha
    have ha' : ¬ (axis ≠ none ∧ axis ≠ some 2) := by tauto
    match shape, hl with
    | [], _ => exact key (mkVar id src [1] 2 none) (by simp only [mkArray, if_true, if_neg ha']) ⟨.inl rfl, .inl rfl, trivial⟩
    | [d], _ =>
      exact key (mkVar id src [d] 2 none) (by simp [mkArray, if_neg ha']) ⟨.inl rfl, .inl rfl, trivial⟩
  match axis, h with
  | none, .inl hl => exact vec hl (.inl rfl)
  | none, .inr ⟨b, x, y, d, hb, hbr, hxy⟩ =>
    subst hb
    have hsub : SubRev b.reverse B.reverse := by
      rw [Spec.broadcast, Option.map_eq_some_iff] at hbr
      obtain ⟨u, hu, hu'⟩ := hbr
      rw [← hu', List.reverse_reverse]
      exact (broadcastRev_sub hu).1
    have h3 : (b ++ [x, y, d]).length = b.length + 3 := by simp
    have e1 : (b ++ [x, y, d]).getD (b.length + 3 - 3) 0 = x := by simp [List.getD_eq_getElem?_getD]
    have e2 : (b ++ [x, y, d]).getD (b.length + 3 - 2) 0 = y := by simp [List.getD_eq_getElem?_getD]
    have e3 : (b ++ [x, y, d]).take (b.length + 3 - 3) = b := by simp
    have e4 : (b ++ [x, y, d]).getLastD 1 = d := by simp
    have hbd : ((if 3 < b.length + 3 then some b else none : Option (List Nat)).getD []) = b := by
      cases b <;> simp
    have hsz : ∀ c s, (c = 0 → s.getD (s.length - 2) 0 = m) → (c = 1 → s.getD (s.length - 2) 0 = n) →
        SizedAs B m n (mkVar id src s c (if 3 < b.length + 3 then some b else none)) := fun c s h0 h1 => by
      refine ⟨?_, ?_, by simpa only [mkVar, hbd] using hsub⟩
      · by_cases hc : c = 0
        · exact .inr (by simp only [mkVar, if_pos hc, h0 hc])
        · exact .inl (by simp only [mkVar, if_neg hc])
      · by_cases hc : c = 1
        · exact .inr (by simp only [mkVar, if_pos hc, h1 hc])
        · exact .inl (by simp only [mkVar, if_neg hc])
    have hA : mkArray id src (b ++ [x, y, d]) none =
        if x = 1 then
          if y = 1 then some (mkVar id src (b ++ [d]) 2 (if 3 < b.length + 3 then some b else none))
          else some (mkVar id src (b ++ [y, d]) 1 (if 3 < b.length + 3 then some b else none))
        else if y = 1 then some (mkVar id src (b ++ [x, d]) 0 (if 3 < b.length + 3 then some b else none))
        else none := by
      rw [mkArray, if_neg (by simp)]
      dsimp only
      rw [h3, if_pos (by omega), if_neg (by simp), e1, e2, e3, e4]
    by_cases hx : x = 1
    · by_cases hy : y = 1
      · rw [if_pos hx, if_pos hy] at hA
        exact key _ hA (hsz _ _ (fun h => by cases h) fun h => by cases h)
      · rw [if_pos hx, if_neg hy] at hA
        refine key _ hA (hsz _ _ (fun h => by cases h) fun _ => ?_)
        simp [List.getD_eq_getElem?_getD]
        omega
    · have hy : y = 1 := by omega
      rw [if_neg hx, if_pos hy] at hA
      refine key _ hA (hsz _ _ (fun _ => ?_) fun h => by cases h)
      simp [List.getD_eq_getElem?_getD]
      omega
  | some 0, ⟨d, hd⟩ =>
    subst hd
    exact key (mkVar id src [m, d] 0 none) (by simp [mkArray]) ⟨.inr rfl, .inl rfl, trivial⟩
  | some 1, ⟨d, hd⟩ =>
    subst hd
    exact key (mkVar id src [n, d] 1 none) (by simp [mkArray]) ⟨.inl rfl, .inr rfl, trivial⟩
  | some 2, hl => exact vec hl (.inr rfl)

end

/-- What is proved of a program by induction. -/
theorem tot_of_fits {B : List Nat} (hB : 0 ∉ B) {m n : Nat} {p : PyE} (h : p.Fits B m n) (hp : p.Pos) (hz : p.NoZero)
    (hl : p.LazyArgs) :
    ∃ v, run p = some v ∧ Tot B m n v.toLazy p.dim ∧ (p.IsLazy → ∃ e, v = .lazy e) := by
  have made : ∀ {m n : Nat} {o : Option Val} {d : Nat} {q : PyE}, Made B m n o d →
      ∃ v, o = some v ∧ Tot B m n v.toLazy d ∧ (q.IsLazy → ∃ e, v = .lazy e) := fun ⟨e, he, ht⟩ =>
    ⟨_, he, ht, fun _ => ⟨e, rfl⟩⟩
  induction p generalizing m n with
  | int k => exact ⟨_, rfl, ⟨_, rfl, rfl, Nat.one_pos, ⟨.inl rfl, .inl rfl, trivial⟩, fun h => (h rfl).elim⟩, fun h => h.elim⟩
  | float id src q => exact ⟨_, rfl, tot_params _ _ _ Nat.one_pos, fun h => h.elim⟩
  | list id src len => exact ⟨_, rfl, tot_params _ _ _ hp, fun h => h.elim⟩
  | array id src shape => exact ⟨_, rfl, tot_array h hp _ _, fun h => h.elim⟩
  | lazy id src shape axis => exact made (made_mk (tot_array h hp _ _))
  | m1 f x ih =>
    obtain ⟨v, hv, ht, hlv⟩ := ih h.2 hp hz hl
    obtain ⟨e, rfl⟩ := hlv h.1
    simp only [run, hv, Option.bind_some]
    exact made (made_m1 ht f)
  | mi f x ih =>
    have hp' : x.Pos ∧ ∀ n, f = .oneHot n → 0 < n := by
      cases f
      case oneHot n =>
        refine ⟨hp.2, ?_⟩
        rintro _ ⟨⟩
        exact hp.1
      all_goals exact ⟨hp, fun _ h => by cases h⟩
    obtain ⟨v, hv, ht, hlv⟩ := ih h.2.1 hp'.1 hz hl
    obtain ⟨e, rfl⟩ := hlv h.1
    simp only [run, hv, Option.bind_some]
    exact made (made_mi ht h.2.2 hp'.2)
  | op o x y ihx ihy =>
    obtain ⟨h0, hpow, h1, h2, hf⟩ := h
    have hz' := noZero_op hz
    obtain ⟨v, hv, tv, lv⟩ := ihx h1 hp.1 hz'.1 hl.1
    obtain ⟨w, hw, tw, lw⟩ := ihy h2 hp.2 hz'.2 hl.2
    simp only [run, hv, hw, Option.bind_some]
    apply made
    by_cases ho : o = .pow
    · subst ho
      obtain ⟨lx, ey⟩ := hpow rfl
      obtain ⟨e, rfl⟩ := lv lx
      have px := tot_pos tv
      have hf : y.dim = 1 ∨ y.dim = x.dim := hf
      show Made B m n (pow e w) (max x.dim y.dim)
      cases y with
      | int k =>
        obtain rfl := Option.some.inj hw
        have : max x.dim (PyE.int k).dim = x.dim := max_eq_left px
        rw [this]
        simp only [pow]
        split_ifs
        · exact made_un tv _
        · exact made_mk (tot_unary tv _ _ _ rfl px)
      | float id src q =>
        obtain rfl := Option.some.inj hw
        have : max x.dim (PyE.float id src q).dim = x.dim := max_eq_left px
        simp only [pow]
        split_ifs
        · exact (made_un tv _).cast this.symm
        · exact (made_un tv _).cast this.symm
        · exact made_powf hB tv tw hf
      | list id src len => exact ey.elim
      | array id src shape => exact ey.elim
      | _ =>
        obtain ⟨e', rfl⟩ := lw trivial
        exact made_powf hB tv tw hf
    · by_cases lx : x.IsLazy
      · obtain ⟨e, rfl⟩ := lv lx
        refine made_left hB tv tw ho hf fun h => ?_
        subst h
        exact isZero_of hw hz.2.1 lw
      · obtain ⟨e, rfl⟩ := lw (h0.resolve_left lx)
        have hr : Made B m n (right o v e) (o.dim x.dim y.dim) := by
          refine made_right hB tv tw ho hf fun h => ?_
          rcases h with h | h <;> subst h
          · exact isZero_of hv hz.1 lv
          · exact isZero_of hv hz.1 lv
        cases v with
        | lazy e' =>
          exfalso
          cases x with
          | int _ => cases hv
          | float _ _ _ => cases hv
          | list _ _ _ => cases hv
          | array _ _ _ => cases hv
          | _ => exact lx trivial
        | _ => exact hr
  | m2 f x y ihx ihy =>
    obtain ⟨v, hv, tv, lv⟩ := ihx h.2.1 hp.1 hz.1 hl.1
    obtain ⟨w, hw, tw, lw⟩ := ihy h.2.2.1 hp.2 hz.2 hl.2.1
    obtain ⟨e, rfl⟩ := lv h.1
    simp only [run, hv, hw, Option.bind_some]
    exact made (made_m2 hB tv tw h.2.2.2 fun h => lw (hl.2.2.1 h))
  | m3 f x y z ihx ihy ihz =>
    obtain ⟨v, hv, tv, lv⟩ := ihx h.2.1 hp.1 hz.1 hl.1
    obtain ⟨w, hw, tw, lw⟩ := ihy h.2.2.1 hp.2.1 hz.2.1 hl.2.1
    obtain ⟨w', hw', tw', lw'⟩ := ihz h.2.2.2.1 hp.2.2 hz.2.2 hl.2.2
    obtain ⟨e, rfl⟩ := lv h.1
    simp only [run, hv, hw, hw', Option.bind_some]
    exact made (made_m3 hB tv tw tw' h.2.2.2.2)
  | t fresh x ih =>
    obtain ⟨v, hv, tv, lv⟩ := ih h.2 hp hz hl
    obtain ⟨e, rfl⟩ := lv h.1
    simp only [run, hv, Option.bind_some]
    exact made (made_mk (tot_t tv fresh))

end Verif.Lazy
