import Verif.Proofs.Methods

/-!
# Values of the operators and of the methods with several arguments
-/

namespace Verif.Lazy
open Alias (Str)
open Spec (LExpr LTree PyE PyOp PyM1 PyMi PyM2 PyM3 PlainText rowIJ)
open Parse

theorem Sem.congr {x : LExpr} {d d' : Nat} {V V' : Data → Nat → Nat → Vec} {D D' : Data → Nat → Nat → Prop}
    (h : Sem x d V D) (hd : d = d') (hD : ∀ data i j, D' data i j → D data i j ∧ V data i j = V' data i j) :
    Sem x d' V' D' := by
  subst hd
  refine ⟨h.ok, h.ndim, h.pos, fun f T hT => ?_⟩
  obtain ⟨t, ht, hp, hd, hs⟩ := h.sem f T hT
  refine ⟨t, ht, hp, hd, fun data i j env henv hD' => ?_⟩
  obtain ⟨h1, h2⟩ := hD _ _ _ hD'
  rw [← h2]
  exact hs data i j env henv h1

theorem Is.congr {v : Val} {d d' : Nat} {V V' : Data → Nat → Nat → Vec} {D D' : Data → Nat → Nat → Prop}
    (h : Is v d V D) (hd : d = d') (hD : ∀ data i j, D' data i j → D data i j ∧ V data i j = V' data i j) :
    Is v d' V' D' := by
  obtain ⟨e, he, h⟩ := h
  exact ⟨e, he, h.congr hd hD⟩

/-- An operator which can be read again and hides no variable. -/
def goodOp (op : String) : Bool := op.toList.all (· ≠ ' ') && decide (PlainText op.toList)

theorem goodOp_space {op : String} (h : goodOp op = true) : ∀ c ∈ op.toList, c ≠ ' ' := by
  simp only [goodOp, Bool.and_eq_true, List.all_eq_true, decide_eq_true_eq] at h
  exact h.1

theorem goodOp_plain {op : String} (h : goodOp op = true) : PlainText op.toList := by
  simp only [goodOp, Bool.and_eq_true, decide_eq_true_eq] at h
  exact h.2

section
variable {x y : LExpr} {d₁ d₂ : Nat} {V₁ V₂ : Data → Nat → Nat → Vec} {D₁ D₂ : Data → Nat → Nat → Prop}

theorem bin_sem (hx : Sem x d₁ V₁ D₁) (hy : Sem y d₂ V₂ D₂) (op : String) (b : Bin) (sw : Bool) {isOp rv : Bool}
    {dimres : Option Nat} {check : Spec.DimCheck} {v : Val}
    (hv : mk (.binary op.toList isOp dimres check none rv x y) = some v)
    (hn : if isOp then ∀ c ∈ op.toList, c ≠ ' ' else IsName op.toList) (hp : PlainText op.toList)
    (hc : ∀ t u, (if isOp then infix' op.toList t u else call op.toList [.term t, .term u]) =
      some (if sw then .bin b u t else .bin b t u)) {d' : Nat} (h0 : 0 < d') (hdim : dimOr dimres (max d₁ d₂) = d')
    (hb : (if sw != rv then b.dim d₂ d₁ else b.dim d₁ d₂) = d') {W : Vec → Vec → Vec} {P : Vec → Vec → Prop}
    (hw : ∀ a c, P a c → if sw != rv then Spec.binDef b d₂ d₁ c a ∧ Spec.binVal b d₂ d₁ c a = W a c
      else Spec.binDef b d₁ d₂ a c ∧ Spec.binVal b d₁ d₂ a c = W a c) :
    Is v d' (fun data i j => W (V₁ data i j) (V₂ data i j))
      fun data i j => D₁ data i j ∧ D₂ data i j ∧ P (V₁ data i j) (V₂ data i j) := by
  have e : ∀ t u : Term, (if rv then (if sw then Term.bin b t u else .bin b u t)
      else (if sw then .bin b u t else .bin b t u)) = if sw != rv then .bin b u t else .bin b t u := by
    intro t u
    cases sw <;> cases rv <;> rfl
  refine ⟨_, mk_some hv, Sem.binary hx hy (fun t u => if sw then .bin b u t else .bin b t u) hn hp hc h0 hdim ?_
    (fun _ _ _ hD => ⟨hD.1, hD.2.1⟩) ?_⟩
  · intro t u ht hu hdt hdu
    rw [e]
    subst hdt hdu
    cases hf : (sw != rv) <;> simp only [hf, Bool.false_eq_true, if_false, if_true] at hb ⊢
    · exact ⟨⟨ht, hu⟩, hb⟩
    · exact ⟨⟨hu, ht⟩, hb⟩
  · intro t u env data i j hdt hdu ht hu hvt hvu hD
    have := hw _ _ hD.2.2
    rw [e]
    subst hdt hdu
    rw [← hvt, ← hvu] at this ⊢
    cases hf : (sw != rv) <;> simp only [hf, Bool.false_eq_true, if_false, if_true] at this ⊢
    · exact ⟨⟨ht, hu, this.1⟩, this.2⟩
    · exact ⟨⟨hu, ht, this.1⟩, this.2⟩

theorem infix_sem (hx : Sem x d₁ V₁ D₁) (hy : Sem y d₂ V₂ D₂) (op : String) (b : Bin) (sw : Bool) {rv : Bool}
    {dimres : Option Nat} {check : Spec.DimCheck} {v : Val}
    (hv : mk (.binary op.toList true dimres check none rv x y) = some v) (hn : goodOp op = true)
    (hf : find tableOp op.toList = some (b, sw)) {d' : Nat} (h0 : 0 < d') (hdim : dimOr dimres (max d₁ d₂) = d')
    (hb : (if sw != rv then b.dim d₂ d₁ else b.dim d₁ d₂) = d') {W : Vec → Vec → Vec} {P : Vec → Vec → Prop}
    (hw : ∀ a c, P a c → if sw != rv then Spec.binDef b d₂ d₁ c a ∧ Spec.binVal b d₂ d₁ c a = W a c
      else Spec.binDef b d₁ d₂ a c ∧ Spec.binVal b d₁ d₂ a c = W a c) :
    Is v d' (fun data i j => W (V₁ data i j) (V₂ data i j))
      fun data i j => D₁ data i j ∧ D₂ data i j ∧ P (V₁ data i j) (V₂ data i j) := by
  refine bin_sem hx hy op b sw hv (goodOp_space hn) (goodOp_plain hn) (fun t u => ?_) h0 hdim hb hw
  simp only [if_true, infix', hf, Option.map_some]

theorem call_sem (hx : Sem x d₁ V₁ D₁) (hy : Sem y d₂ V₂ D₂) (op : String) (b : Bin)
    {dimres : Option Nat} {check : Spec.DimCheck} {v : Val}
    (hv : mk (.binary op.toList false dimres check none false x y) = some v) (hn : goodName op = true)
    (hf : find table2 op.toList = some (.op b)) {d' : Nat} (h0 : 0 < d') (hdim : dimOr dimres (max d₁ d₂) = d')
    (hb : b.dim d₁ d₂ = d') {W : Vec → Vec → Vec} {P : Vec → Vec → Prop}
    (hw : ∀ a c, P a c → Spec.binDef b d₁ d₂ a c ∧ Spec.binVal b d₁ d₂ a c = W a c) :
    Is v d' (fun data i j => W (V₁ data i j) (V₂ data i j))
      fun data i j => D₁ data i j ∧ D₂ data i j ∧ P (V₁ data i j) (V₂ data i j) := by
  refine bin_sem hx hy op b false hv (goodName_isName hn) (goodName_plain hn) (fun t u => ?_) h0 hdim hb hw
  simp only [Bool.false_eq_true, if_false, call, hf, Option.map_some, Head2.term]

theorem pos_max (hx : Sem x d₁ V₁ D₁) (hy : Sem y d₂ V₂ D₂) : 0 < max d₁ d₂ := lt_of_lt_of_le hx.pos (le_max_left _ _)

theorem Sem.is (h : Sem x d₁ V₁ D₁) : Is (.lazy x) d₁ V₁ D₁ := ⟨x, rfl, h⟩

end

/-! ## Operators -/

/-- When `w` is the number `n`, its vectors are of dimension 1 and equal to `n`. -/
def Scalar (w : Val) (d : Nat) (V : Data → Nat → Nat → Vec) (D : Data → Nat → Nat → Prop) : Prop :=
  ∀ n : Int, scalarEq w n = true → d = 1 ∧ ∀ data i j, D data i j → V data i j = fun _ => (n : ℝ)

section
variable {x : LExpr} {w v : Val} {d₁ d₂ : Nat} {V₁ V₂ : Data → Nat → Nat → Vec} {D₁ D₂ : Data → Nat → Nat → Prop}

theorem left_sem (hx : Sem x d₁ V₁ D₁) (hw : Sem w.toLazy d₂ V₂ D₂) (hs : Scalar w d₂ V₂ D₂) {o : PyOp} (ho : o ≠ .pow)
    (h0 : o = .mul → scalarEq w 0 = false) (hv : left o x w = some v) :
    Is v (o.dim d₁ d₂) (fun data i j => o.val d₁ d₂ (V₁ data i j) (V₂ data i j))
      fun data i j => D₁ data i j ∧ D₂ data i j ∧ o.Def (o.dim d₁ d₂) (V₁ data i j) (V₂ data i j) := by
  have h1 : ∀ {d : Nat}, d = 1 → d₁ = max d₁ d := by
    rintro _ rfl
    have := hx.pos
    omega
  cases o with
  | add =>
    simp only [left, add] at hv
    split at hv
    · rename_i hz
      obtain rfl := Option.some.inj hv
      obtain ⟨e1, e2⟩ := hs 0 hz
      refine hx.is.congr (h1 e1) fun data i j hD => ⟨hD.1, ?_⟩
      rw [e2 _ _ _ hD.2.1]
      funext k
      simp [PyOp.val]
    · exact infix_sem (W := PyOp.add.val d₁ d₂) (P := PyOp.add.Def (PyOp.add.dim d₁ d₂)) hx hw "+" .add false hv
        (by decide +kernel)
        (by decide +kernel) (pos_max hx hw) rfl rfl (fun _ _ _ => ⟨trivial, rfl⟩)
  | sub =>
    simp only [left, sub] at hv
    split at hv
    · rename_i hz
      obtain rfl := Option.some.inj hv
      obtain ⟨e1, e2⟩ := hs 0 hz
      refine hx.is.congr (h1 e1) fun data i j hD => ⟨hD.1, ?_⟩
      rw [e2 _ _ _ hD.2.1]
      funext k
      simp [PyOp.val]
    · exact infix_sem (W := PyOp.sub.val d₁ d₂) (P := PyOp.sub.Def (PyOp.sub.dim d₁ d₂)) hx hw "-" .sub false hv
        (by decide +kernel)
        (by decide +kernel) (pos_max hx hw) rfl rfl (fun _ _ _ => ⟨trivial, rfl⟩)
  | mul =>
    simp only [left, mul] at hv
    rw [h0 rfl] at hv
    simp only [Bool.false_eq_true, if_false] at hv
    split at hv
    · rename_i hz
      obtain rfl := Option.some.inj hv
      obtain ⟨e1, e2⟩ := hs 1 hz
      refine hx.is.congr (h1 e1) fun data i j hD => ⟨hD.1, ?_⟩
      rw [e2 _ _ _ hD.2.1]
      funext k
      simp [PyOp.val]
    · split at hv
      · rename_i hz
        obtain ⟨e1, e2⟩ := hs (-1) hz
        refine (m1_sem (m := .neg) hx hv).congr (h1 e1) fun data i j hD => ⟨⟨hD.1, trivial⟩, ?_⟩
        rw [e2 _ _ _ hD.2.1]
        funext k
        simp [PyOp.val, PyM1.val]
      · exact infix_sem (W := PyOp.mul.val d₁ d₂) (P := PyOp.mul.Def (PyOp.mul.dim d₁ d₂)) hx hw "*" .mul false hv
          (by decide +kernel)
          (by decide +kernel) (pos_max hx hw) rfl rfl (fun _ _ _ => ⟨trivial, rfl⟩)
  | div =>
    simp only [left, truediv] at hv
    split at hv
    · rename_i hz
      obtain rfl := Option.some.inj hv
      obtain ⟨e1, e2⟩ := hs 1 hz
      refine hx.is.congr (h1 e1) fun data i j hD => ⟨hD.1, ?_⟩
      rw [e2 _ _ _ hD.2.1]
      funext k
      simp [PyOp.val]
    · exact infix_sem (W := PyOp.div.val d₁ d₂) (P := PyOp.div.Def (PyOp.div.dim d₁ d₂)) hx hw "/" .div false hv
        (by decide +kernel)
        (by decide +kernel) (pos_max hx hw) rfl rfl (fun _ _ h => ⟨h, rfl⟩)
  | dot =>
    exact infix_sem (W := PyOp.dot.val d₁ d₂) (P := PyOp.dot.Def (PyOp.dot.dim d₁ d₂)) hx hw "|" .scalprod false hv
      (by decide +kernel) (by decide +kernel) Nat.one_pos rfl rfl (fun _ _ _ => ⟨trivial, rfl⟩)
  | pow =>
    exact absurd rfl ho
  | lt =>
    exact infix_sem (W := PyOp.lt.val d₁ d₂) (P := PyOp.lt.Def (PyOp.lt.dim d₁ d₂)) hx hw "<" .lessThan false hv
      (by decide +kernel)
      (by decide +kernel) (pos_max hx hw) rfl rfl (fun _ _ _ => ⟨trivial, rfl⟩)
  | gt =>
    exact infix_sem (W := PyOp.gt.val d₁ d₂) (P := PyOp.gt.Def (PyOp.gt.dim d₁ d₂)) hx hw ">" .lessThan true hv
      (by decide +kernel)
      (by decide +kernel) (pos_max hx hw) rfl (max_comm _ _) (fun _ _ _ => ⟨trivial, rfl⟩)
  | le =>
    exact infix_sem (W := PyOp.le.val d₁ d₂) (P := PyOp.le.Def (PyOp.le.dim d₁ d₂)) hx hw "<=" .lessOrEqual false hv
      (by decide +kernel) (by decide +kernel) (pos_max hx hw) rfl rfl (fun _ _ _ => ⟨trivial, rfl⟩)
  | ge =>
    exact infix_sem (W := PyOp.ge.val d₁ d₂) (P := PyOp.ge.Def (PyOp.ge.dim d₁ d₂)) hx hw ">=" .lessOrEqual true hv
      (by decide +kernel) (by decide +kernel) (pos_max hx hw) rfl (max_comm _ _) (fun _ _ _ => ⟨trivial, rfl⟩)
  | eq =>
    exact call_sem (W := PyOp.eq.val d₁ d₂) (P := PyOp.eq.Def (PyOp.eq.dim d₁ d₂)) hx hw "Equal" .equal hv
      (by decide +kernel) (by decide +kernel) (pos_max hx hw) rfl rfl (fun _ _ _ => ⟨trivial, rfl⟩)
  | ne =>
    exact call_sem (W := PyOp.ne.val d₁ d₂) (P := PyOp.ne.Def (PyOp.ne.dim d₁ d₂)) hx hw "NotEqual" .notEqual hv
      (by decide +kernel) (by decide +kernel) (pos_max hx hw) rfl rfl (fun _ _ _ => ⟨trivial, rfl⟩)

theorem right_sem (hw : Sem w.toLazy d₁ V₁ D₁) (hx : Sem x d₂ V₂ D₂) (hs : Scalar w d₁ V₁ D₁) {o : PyOp}
    (h0 : o = .mul ∨ o = .div → scalarEq w 0 = false) (hv : right o w x = some v) :
    Is v (o.dim d₁ d₂) (fun data i j => o.val d₁ d₂ (V₁ data i j) (V₂ data i j))
      fun data i j => D₁ data i j ∧ D₂ data i j ∧ o.Def (o.dim d₁ d₂) (V₁ data i j) (V₂ data i j) := by
  have h1 : ∀ {d : Nat}, d = 1 → d₂ = max d d₂ := by
    rintro _ rfl
    have := hx.pos
    omega
  have pm := pos_max hw hx
  have fin : ∀ {d' : Nat} {W : Vec → Vec → Vec} {P : Vec → Vec → Prop},
      Is v d' (fun data i j => W (V₂ data i j) (V₁ data i j))
        (fun data i j => D₂ data i j ∧ D₁ data i j ∧ P (V₂ data i j) (V₁ data i j)) →
      Is v d' (fun data i j => W (V₂ data i j) (V₁ data i j))
        (fun data i j => D₁ data i j ∧ D₂ data i j ∧ P (V₂ data i j) (V₁ data i j)) := fun h =>
    h.congr rfl fun _ _ _ hD => ⟨⟨hD.2.1, hD.1, hD.2.2⟩, rfl⟩
  cases o with
  | add =>
    simp only [right, radd] at hv
    split at hv
    · rename_i hz
      obtain rfl := Option.some.inj hv
      obtain ⟨e1, e2⟩ := hs 0 hz
      refine hx.is.congr (h1 e1) fun data i j hD => ⟨hD.2.1, ?_⟩
      rw [e2 _ _ _ hD.1]
      funext k
      simp [PyOp.val]
    · exact fin (W := fun a c => PyOp.add.val d₁ d₂ c a) (P := fun a c => PyOp.add.Def _ c a)
        (infix_sem (W := fun a c => PyOp.add.val d₁ d₂ c a) (P := fun a c => PyOp.add.Def (PyOp.add.dim d₁ d₂) c a)
          hx hw "+" .add false hv (by decide +kernel) (by decide +kernel) pm (max_comm _ _) rfl
          (fun _ _ _ => ⟨trivial, rfl⟩))
  | sub =>
    simp only [right, rsub] at hv
    split at hv
    · rename_i hz
      obtain ⟨e1, e2⟩ := hs 0 hz
      refine (m1_sem (m := .neg) hx hv).congr (h1 e1) fun data i j hD => ⟨⟨hD.2.1, trivial⟩, ?_⟩
      rw [e2 _ _ _ hD.1]
      funext k
      simp [PyOp.val, PyM1.val]
    · exact fin (W := fun a c => PyOp.sub.val d₁ d₂ c a) (P := fun a c => PyOp.sub.Def _ c a)
        (infix_sem (W := fun a c => PyOp.sub.val d₁ d₂ c a) (P := fun a c => PyOp.sub.Def (PyOp.sub.dim d₁ d₂) c a)
          hx hw "-" .sub false hv (by decide +kernel) (by decide +kernel) pm (max_comm _ _) rfl
          (fun _ _ _ => ⟨trivial, rfl⟩))
  | mul =>
    simp only [right, rmul] at hv
    rw [h0 (.inl rfl)] at hv
    simp only [Bool.false_eq_true, if_false] at hv
    split at hv
    · rename_i hz
      obtain rfl := Option.some.inj hv
      obtain ⟨e1, e2⟩ := hs 1 hz
      refine hx.is.congr (h1 e1) fun data i j hD => ⟨hD.2.1, ?_⟩
      rw [e2 _ _ _ hD.1]
      funext k
      simp [PyOp.val]
    · split at hv
      · rename_i hz
        obtain ⟨e1, e2⟩ := hs (-1) hz
        refine (m1_sem (m := .neg) hx hv).congr (h1 e1) fun data i j hD => ⟨⟨hD.2.1, trivial⟩, ?_⟩
        rw [e2 _ _ _ hD.1]
        funext k
        simp [PyOp.val, PyM1.val]
      · exact fin (W := fun a c => PyOp.mul.val d₁ d₂ c a) (P := fun a c => PyOp.mul.Def _ c a)
          (infix_sem (W := fun a c => PyOp.mul.val d₁ d₂ c a)
            (P := fun a c => PyOp.mul.Def (PyOp.mul.dim d₁ d₂) c a) hx hw "*" .mul false hv (by decide +kernel)
              (by decide +kernel) pm (max_comm _ _) rfl
            (fun _ _ _ => ⟨trivial, rfl⟩))
  | div =>
    simp only [right, rtruediv] at hv
    rw [h0 (.inr rfl)] at hv
    simp only [Bool.false_eq_true, if_false] at hv
    split at hv
    · rename_i hz
      obtain ⟨e1, e2⟩ := hs 1 hz
      refine (head1_sem (d' := d₂) (W := fun y k => 1 / y k) (P := fun y => ∀ k < d₂, y k ≠ 0) hx "Inv" (.op .inv) hv
        (by decide +kernel) (by decide +kernel) rfl rfl hx.pos (by rintro _ ⟨⟩; decide)
        (fun y hy => ⟨hy, rfl⟩)).congr (h1 e1) fun data i j hD => ⟨⟨hD.2.1, fun k hk => hD.2.2 k ?_⟩, ?_⟩
      · exact lt_of_lt_of_le hk (le_max_right _ _)
      · rw [e2 _ _ _ hD.1]
        funext k
        simp [PyOp.val]
    · exact fin (W := fun a c => PyOp.div.val d₁ d₂ c a) (P := fun a c => PyOp.div.Def _ c a)
        (infix_sem (W := fun a c => PyOp.div.val d₁ d₂ c a) (P := fun a c => PyOp.div.Def (PyOp.div.dim d₁ d₂) c a)
          hx hw "/" .div false hv (by decide +kernel) (by decide +kernel) pm (max_comm _ _) rfl
          (fun _ _ h => ⟨h, rfl⟩))
  | dot =>
    exact fin (W := fun a c => PyOp.dot.val d₁ d₂ c a) (P := fun a c => PyOp.dot.Def _ c a)
        (infix_sem (W := fun a c => PyOp.dot.val d₁ d₂ c a) (P := fun a c => PyOp.dot.Def (PyOp.dot.dim d₁ d₂) c a)
          hx hw "|" .scalprod false hv (by decide +kernel) (by decide +kernel) Nat.one_pos rfl rfl
        (fun _ _ _ => ⟨trivial, rfl⟩))
  | pow => cases hv
  | lt =>
    exact fin (W := fun a c => PyOp.lt.val d₁ d₂ c a) (P := fun a c => PyOp.lt.Def _ c a)
        (infix_sem (W := fun a c => PyOp.lt.val d₁ d₂ c a) (P := fun a c => PyOp.lt.Def (PyOp.lt.dim d₁ d₂) c a) hx
          hw ">" .lessThan true hv (by decide +kernel) (by decide +kernel) pm (max_comm _ _) rfl
        (fun _ _ _ => ⟨trivial, rfl⟩))
  | gt =>
    exact fin (W := fun a c => PyOp.gt.val d₁ d₂ c a) (P := fun a c => PyOp.gt.Def _ c a)
        (infix_sem (W := fun a c => PyOp.gt.val d₁ d₂ c a) (P := fun a c => PyOp.gt.Def (PyOp.gt.dim d₁ d₂) c a) hx
          hw "<" .lessThan false hv (by decide +kernel) (by decide +kernel) pm (max_comm _ _) (max_comm _ _)
        (fun _ _ _ => ⟨trivial, rfl⟩))
  | le =>
    exact fin (W := fun a c => PyOp.le.val d₁ d₂ c a) (P := fun a c => PyOp.le.Def _ c a)
        (infix_sem (W := fun a c => PyOp.le.val d₁ d₂ c a) (P := fun a c => PyOp.le.Def (PyOp.le.dim d₁ d₂) c a) hx
          hw ">=" .lessOrEqual true hv (by decide +kernel) (by decide +kernel) pm (max_comm _ _) rfl
        (fun _ _ _ => ⟨trivial, rfl⟩))
  | ge =>
    exact fin (W := fun a c => PyOp.ge.val d₁ d₂ c a) (P := fun a c => PyOp.ge.Def _ c a)
        (infix_sem (W := fun a c => PyOp.ge.val d₁ d₂ c a) (P := fun a c => PyOp.ge.Def (PyOp.ge.dim d₁ d₂) c a) hx
          hw "<=" .lessOrEqual false hv (by decide +kernel) (by decide +kernel) pm (max_comm _ _)
        (max_comm _ _) (fun _ _ _ => ⟨trivial, rfl⟩))
  | eq =>
    exact fin (W := fun a c => PyOp.eq.val d₁ d₂ c a) (P := fun a c => PyOp.eq.Def _ c a)
        (call_sem (W := fun a c => PyOp.eq.val d₁ d₂ c a) (P := fun a c => PyOp.eq.Def (PyOp.eq.dim d₁ d₂) c a) hx
          hw "Equal" .equal hv (by decide +kernel) (by decide +kernel) pm (max_comm _ _) (max_comm _ _)
        (fun _ _ _ => ⟨trivial, by funext k; simp only [Spec.binVal, PyOp.val, Spec.ind, eq_comm]⟩))
  | ne =>
    exact fin (W := fun a c => PyOp.ne.val d₁ d₂ c a) (P := fun a c => PyOp.ne.Def _ c a)
        (call_sem (W := fun a c => PyOp.ne.val d₁ d₂ c a) (P := fun a c => PyOp.ne.Def (PyOp.ne.dim d₁ d₂) c a) hx
          hw "NotEqual" .notEqual hv (by decide +kernel) (by decide +kernel) pm (max_comm _ _) (max_comm _ _)
        (fun _ _ _ => ⟨trivial, by funext k; simp only [Spec.binVal, PyOp.val, Spec.ind, ne_comm]⟩))

/-! ## Powers -/

theorem pow_int_sem (hx : Sem x d₁ V₁ D₁) {n : Int} (hv : pow x (.int n) = some v) :
    Is v d₁ (fun data i j k => V₁ data i j k ^ n)
      fun data i j => D₁ data i j ∧ ∀ k < d₁, n < 0 → V₁ data i j k ≠ 0 := by
  simp only [pow] at hv
  split at hv
  · rename_i h2
    subst h2
    refine (m1_sem (m := .square) hx hv).congr rfl fun data i j hD => ⟨⟨hD.1, trivial⟩, ?_⟩
    funext k
    show V₁ data i j k ^ 2 = V₁ data i j k ^ (2 : ℤ)
    norm_cast
  · exact headi_sem (W := fun y k => y k ^ n) (P := fun y => ∀ k < d₁, n < 0 → y k ≠ 0) hx "Pow" (.pow n) [n] hv
      (by decide +kernel) (fun t => by simp [call, head1i]) rfl rfl hx.pos (by show 0 < 1; decide)
        (fun y hy => ⟨hy, rfl⟩)

theorem powf_sem {y : LExpr} (hx : Sem x d₁ V₁ D₁) (hy : Sem y d₂ V₂ D₂) (hv : powf x y = some v) :
    Is v (max d₁ d₂) (fun data i j k => V₁ data i j k ^ V₂ data i j k)
      fun data i j => D₁ data i j ∧ D₂ data i j ∧ ∀ k < max d₁ d₂, 0 < V₁ data i j k := by
  simp only [powf, Option.bind_eq_some_iff] at hv
  obtain ⟨a, ha, b, hb, hv⟩ := hv
  split at hv
  · exact call_sem (W := fun a c k => a k ^ c k) (P := fun a _ => ∀ k < max d₁ d₂, 0 < a k) hx hy "Powf" .powf hv
      (by decide +kernel) (by decide +kernel) (pos_max hx hy) rfl rfl (fun _ _ h => ⟨h, rfl⟩)
  · cases hv

theorem rpow_neg_half (a : ℝ) : (if a = 0 then 0 else 1 / Real.sqrt a) = a ^ (-1 / 2 : ℝ) := by
  rcases lt_trichotomy a 0 with h | h | h
  · rw [if_neg h.ne, Real.sqrt_eq_zero_of_nonpos h.le, div_zero, Real.rpow_def_of_neg h]
    have : Real.cos (-1 / 2 * Real.pi) = 0 := by
      rw [show (-1 / 2 * Real.pi : ℝ) = -(Real.pi / 2) by ring, Real.cos_neg, Real.cos_pi_div_two]
    rw [this, mul_zero]
  · subst h
    rw [if_pos rfl, Real.zero_rpow (by norm_num)]
  · rw [if_neg h.ne', Real.sqrt_eq_rpow, one_div, ← Real.rpow_neg h.le]
    norm_num

theorem pow_float_sem (hx : Sem x d₁ V₁ D₁) {id src : Nat} {q : ℚ}
    (hq : Sem (.params id src 1) 1 (fun _ _ _ _ => (q : ℝ)) D₂) (hv : pow x (.float id src q) = some v) :
    Is v d₁ (fun data i j k => V₁ data i j k ^ (q : ℝ)) fun data i j => D₁ data i j ∧ D₂ data i j ∧
      ∀ k < d₁, 0 < V₁ data i j k ∨ (0 ≤ V₁ data i j k ∧ q = 1 / 2) := by
  simp only [pow] at hv
  split at hv
  · rename_i h2
    subst h2
    refine (m1_sem (m := .sqrt) hx hv).congr rfl fun data i j hD =>
      ⟨⟨hD.1, fun k hk => (hD.2.2 k hk).elim le_of_lt And.left⟩, ?_⟩
    funext k
    show Real.sqrt _ = _
    rw [Real.sqrt_eq_rpow]
    norm_num
  · rename_i hne
    split at hv
    · rename_i h2
      subst h2
      refine (head1_sem (d' := d₁) (W := fun y k => y k ^ (-1 / 2 : ℝ)) (P := fun y => ∀ k < d₁, 0 ≤ y k) hx "Rsqrt"
        (.op .rsqrt) hv (by decide +kernel) (by decide +kernel) rfl rfl hx.pos (by rintro _ ⟨⟩; decide)
        (fun y hy => ⟨hy, ?_⟩)).congr rfl fun data i j hD =>
          ⟨⟨hD.1, fun k hk => (hD.2.2 k hk).elim le_of_lt And.left⟩, ?_⟩
      · funext k
        exact rpow_neg_half (y k)
      · funext k
        norm_num
    · refine (powf_sem hx hq hv).congr (max_eq_left hx.pos) fun data i j hD => ⟨⟨hD.1, hD.2.1, fun k hk => ?_⟩, rfl⟩
      rw [max_eq_left hx.pos] at hk
      exact (hD.2.2 k hk).elim (fun h => h) fun h => absurd h.2 hne

end

/-! ## Methods with one argument -/

theorem wsq_eq {ds d : Nat} (h : ds = 1 ∨ ds = d ∨ ds = d ^ 2)
  (s y : Vec) : Spec.wsq ds d s y = Spec.wSqLen ds d s y := by
  unfold Spec.wsq Spec.wSqLen
  by_cases h1 : ds = 1
  · rw [if_pos h1, if_pos h1]
    rfl
  · rw [if_neg h1, if_neg h1]
    by_cases h2 : ds = d
    · rw [if_pos h2, if_pos h2]
    · rw [if_neg h2, if_neg h2]
      have h3 : ds = d * d := by rw [(h.resolve_left h1).resolve_left h2, sq]
      rw [h3, max_self, sum_range_mul']
      refine Finset.sum_congr rfl fun i _ => Finset.sum_congr rfl fun k hk => ?_
      have hk := Finset.mem_range.1 hk
      have hd : 0 < d := by omega
      have e1 : (i * d + k) / d = i := by
        rw [mul_comm, Nat.mul_add_div hd, Nat.div_eq_of_lt hk, add_zero]
      have e2 : (i * d + k) % d = k := by
        rw [mul_comm, Nat.mul_add_mod, Nat.mod_eq_of_lt hk]
      rw [e1, e2]

theorem dimOr_pos {n m : Nat} (h : 0 < n) : dimOr (some n) m = n := by
  obtain ⟨k, rfl⟩ : ∃ k, n = k + 1 := ⟨n - 1, by omega⟩
  rfl

section
variable {x : LExpr} {w v : Val} {d₁ d₂ : Nat} {V₁ V₂ : Data → Nat → Nat → Vec} {D₁ D₂ : Data → Nat → Nat → Prop}

theorem weightedsqnorm_sem (hx : Sem x d₁ V₁ D₁) (hw : Sem w.toLazy d₂ V₂ D₂) (hv : weightedsqnorm x w = some v) :
    Is v 1 (fun data i j _ => Spec.wSqLen d₂ d₁ (V₂ data i j)
      (V₁ data i j)) fun data i j => D₁ data i j ∧ D₂ data i j := by
  simp only [weightedsqnorm, Option.bind_eq_some_iff] at hv
  obtain ⟨d, hd, d', hd', hv⟩ := hv
  obtain rfl := ndim_some hx hd
  obtain rfl := ndim_some hw hd'
  split at hv
  · rename_i hdim
    refine ⟨_, mk_some hv, Sem.binary (isOp := false) (op := "WeightedSqNorm".toList) hx hw
      (fun t u => .weightedSqNorm t u)
      (goodName_isName (by decide +kernel))
      (goodName_plain (op := "WeightedSqNorm") (by decide +kernel)) (fun t u => ?_) Nat.one_pos rfl ?_
      (fun _ _ _ hD => hD) ?_⟩
    · have : find table2 "WeightedSqNorm".toList = some .weightedSqNorm := by decide +kernel
      simp only [Bool.false_eq_true, if_false, call, this, Option.map_some, Head2.term]
    · intro t u ht hu _ _
      exact ⟨⟨hu, ht⟩, rfl⟩
    · intro t u env data i j hdt hdu ht hu hvt hvu hD
      refine ⟨⟨hu, ht⟩, ?_⟩
      funext k
      show Spec.wsq u.dim t.dim (u.val env) (t.val env) = _
      rw [hdt, hdu, hvt, hvu, wsq_eq hdim]
  · cases hv

theorem sqdist_sem (hx : Sem x d₁ V₁ D₁) (hw : Sem w.toLazy d₂ V₂ D₂) (hv : m2Call .sqdist x w = some v) :
    Is v 1 (fun data i j _ => Spec.sqLen (max d₁ d₂) fun k => V₁ data i j k - V₂ data i j k)
      fun data i j => D₁ data i j ∧ D₂ data i j := by
  refine ⟨_, mk_some hv, Sem.binary (isOp := false) (op := "SqDist".toList) hx hw (fun t u => .sqDist t u)
    (goodName_isName (by decide +kernel))
    (goodName_plain (op := "SqDist") (by decide +kernel)) (fun t u => ?_) Nat.one_pos rfl ?_ (fun _ _ _ hD => hD) ?_⟩
  · have : find table2 "SqDist".toList = some .sqDist := by decide +kernel
    simp only [Bool.false_eq_true, if_false, call, this, Option.map_some, Head2.term]
  · intro t u ht hu _ _
    exact ⟨⟨ht, hu⟩, rfl⟩
  · intro t u env data i j hdt hdu ht hu hvt hvu hD
    refine ⟨⟨ht, hu⟩, ?_⟩
    funext k
    show Spec.sqn (max t.dim u.dim) (fun k => t.val env k - u.val env k) = _
    rw [hdt, hdu, hvt, hvu]
    rfl

theorem dimOp_sem (hx : Sem x d₁ V₁ D₁) (hw : Sem w.toLazy d₂ V₂ D₂) (hl : ∃ e, w = .lazy e) (op : String) (b : Bin)
    {dimres : Nat → Nat → Nat} (hv : dimOp op dimres x w = some v) (hn : goodName op = true)
    (hf : find table2 op.toList = some (.op b)) (h0 : 0 < dimres d₁ d₂) (hb : b.dim d₁ d₂ = dimres d₁ d₂)
    {W : Vec → Vec → Vec} {P : Vec → Vec → Prop}
    (hw' : ∀ a c, P a c → Spec.binDef b d₁ d₂ a c ∧ Spec.binVal b d₁ d₂ a c = W a c) :
    Is v (dimres d₁ d₂) (fun data i j => W (V₁ data i j) (V₂ data i j))
      fun data i j => D₁ data i j ∧ D₂ data i j ∧ P (V₁ data i j) (V₂ data i j) := by
  obtain ⟨e, rfl⟩ := hl
  simp only [dimOp, Option.bind_eq_some_iff] at hv
  obtain ⟨d, hd, d', hd', hv⟩ := hv
  obtain rfl := ndim_some hx hd
  obtain rfl := ndim_some hw hd'
  exact call_sem hx hw op b hv hn hf h0 (dimOr_pos h0) hb hw'

theorem m2_sem (hx : Sem x d₁ V₁ D₁) (hw : Sem w.toLazy d₂ V₂ D₂) {m : PyM2}
    (hl : m = .concat ∨ m = .matvecmult ∨ m = .vecmatmult ∨ m = .tensorprod → ∃ e, w = .lazy e)
    (h1 : m = .matvecmult → d₂ ∣ d₁) (h2 : m = .vecmatmult → d₁ ∣ d₂) (hv : m2Call m x w = some v) :
    Is v (m.dim d₁ d₂) (fun data i j => m.val d₁ d₂ (V₁ data i j) (V₂ data i j))
      fun data i j => D₁ data i j ∧ D₂ data i j ∧ m.Def (m.dim d₁ d₂) (V₁ data i j) (V₂ data i j) := by
  cases m with
  | atan2 =>
    exact call_sem (W := PyM2.atan2.val d₁ d₂) (P := PyM2.atan2.Def (PyM2.atan2.dim d₁ d₂)) hx hw "Atan2" .atan2 hv
      (by decide +kernel) (by decide +kernel) (pos_max hx hw) rfl rfl (fun _ _ h => ⟨h, rfl⟩)
  | sqdist =>
    exact (sqdist_sem hx hw hv).congr rfl fun data i j hD => ⟨⟨hD.1, hD.2.1⟩, rfl⟩
  | weightedsqnorm =>
    exact (weightedsqnorm_sem hx hw hv).congr rfl fun data i j hD => ⟨⟨hD.1, hD.2.1⟩, rfl⟩
  | concat =>
    exact dimOp_sem (W := PyM2.concat.val d₁ d₂) (P := PyM2.concat.Def (PyM2.concat.dim d₁ d₂)) hx hw (hl (by simp))
      "Concat"
      .concat hv (by decide +kernel) (by decide +kernel) (Nat.add_pos_left hx.pos _) rfl (fun _ _ _ => ⟨trivial, rfl⟩)
  | matvecmult =>
    simp only [m2Call] at hv
    split at hv
    · cases hv
    · exact dimOp_sem (W := PyM2.matvecmult.val d₁ d₂) (P := PyM2.matvecmult.Def (PyM2.matvecmult.dim d₁ d₂)) hx hw
        (hl (by simp)) "MatVecMult" .matVecMult hv (by decide +kernel) (by decide +kernel)
        (Nat.div_pos (Nat.le_of_dvd hx.pos (h1 rfl)) hw.pos) rfl (fun _ _ _ => ⟨trivial, rfl⟩)
  | vecmatmult =>
    simp only [m2Call] at hv
    split at hv
    · cases hv
    · exact dimOp_sem (W := PyM2.vecmatmult.val d₁ d₂) (P := PyM2.vecmatmult.Def (PyM2.vecmatmult.dim d₁ d₂)) hx hw
        (hl (by simp)) "VecMatMult" .vecMatMult hv (by decide +kernel) (by decide +kernel)
        (Nat.div_pos (Nat.le_of_dvd hw.pos (h2 rfl)) hx.pos) rfl (fun _ _ _ => ⟨trivial, rfl⟩)
  | tensorprod =>
    refine (dimOp_sem (W := PyM2.tensorprod.val d₁ d₂) (P := PyM2.tensorprod.Def (PyM2.tensorprod.dim d₁ d₂)) hx hw
      (hl (by simp)) "TensorProd" .tensorProd hv (by decide +kernel) (by decide +kernel) (Nat.mul_pos hw.pos hx.pos)
      (Nat.mul_comm _ _) (fun _ _ _ => ⟨trivial, rfl⟩)).congr (Nat.mul_comm _ _) fun _ _ _ hD => ⟨hD, rfl⟩

end

/-! ## Methods with two arguments -/

section
variable {x : LExpr} {w w' v : Val} {d₁ d₂ d₃ : Nat} {V₁ V₂ V₃ : Data → Nat → Nat → Vec}
  {D₁ D₂ D₃ : Data → Nat → Nat → Prop}

theorem terOp_sem (hx : Sem x d₁ V₁ D₁) (hw : Sem w.toLazy d₂ V₂ D₂) (hw' : Sem w'.toLazy d₃ V₃ D₃) (op : String)
    (o : Tern) (hv : terOp op x w w' = some v) (hn : goodName op = true) (hf : find table3 op.toList = some (.op o)) :
    Is v (max (max d₁ d₂) d₃) (fun data i j => Spec.ternVal o (V₁ data i j) (V₂ data i j) (V₃ data i j))
      fun data i j => D₁ data i j ∧ D₂ data i j ∧ D₃ data i j ∧
        Spec.ternDef o (max (max d₁ d₂) d₃) (V₁ data i j) (V₂ data i j) (V₃ data i j) := by
  refine ⟨_, mk_some hv, Sem.ternary hx hw hw' o (goodName_isName hn) (goodName_plain hn) (fun t u v => ?_)
    fun _ _ _ hD => ⟨hD.1, hD.2.1, hD.2.2.1, hD.2.2.2, rfl⟩⟩
  simp only [call, hf, Option.map_some, Head3.term]

/-- `x.clamp(a, b)` with two Python integers. -/
theorem clampInt_sem (hx : Sem x d₁ V₁ D₁) {a b : Int} (hv : clamp x (.int a) (.int b) = some v) :
    Is v d₁ (fun data i j k => if V₁ data i j k < a then (a : ℝ) else if (b : ℝ) < V₁ data i j k then (b : ℝ)
      else V₁ data i j k) D₁ := by
  refine Is.and_true (headi_sem (W := fun y k => if y k < a then (a : ℝ) else if (b : ℝ) < y k then (b : ℝ) else y k)
    (P := fun _ => True) hx "ClampInt" (.clampInt a b) [a, b] hv (by decide +kernel) (fun t => ?_) rfl rfl hx.pos
    (by show 0 < 1; decide) (fun y _ => ⟨trivial, rfl⟩))
  simp [call, head1ii]

/-- When `w` is a Python integer, its vectors are equal to it. -/
def IntVal (w : Val) (d : Nat) (V : Data → Nat → Nat → Vec) (D : Data → Nat → Nat → Prop) : Prop :=
  ∀ n : Int, w = .int n → d = 1 ∧ ∀ data i j, D data i j → V data i j = fun _ => (n : ℝ)

theorem m3_sem (hx : Sem x d₁ V₁ D₁) (hw : Sem w.toLazy d₂ V₂ D₂) (hw' : Sem w'.toLazy d₃ V₃ D₃)
    (hi : IntVal w d₂ V₂ D₂) (hi' : IntVal w' d₃ V₃ D₃) {m : PyM3} (hv : m3Call m x w w' = some v) :
    Is v (m.dim d₁ d₂ d₃) (fun data i j => m.val d₁ d₂ d₃ (V₁ data i j) (V₂ data i j) (V₃ data i j))
      fun data i j => D₁ data i j ∧ D₂ data i j ∧ D₃ data i j ∧
        m.Def (m.dim d₁ d₂ d₃) (V₁ data i j) (V₂ data i j) (V₃ data i j) := by
  cases m with
  | clamp =>
    by_cases hc : (∃ a, w = .int a) ∧ ∃ b, w' = .int b
    · obtain ⟨⟨a, rfl⟩, b, rfl⟩ := hc
      obtain ⟨e1, e2⟩ := hi a rfl
      obtain ⟨e3, e4⟩ := hi' b rfl
      refine (clampInt_sem hx hv).congr ?_ fun data i j hD => ⟨hD.1, ?_⟩
      · show d₁ = max (max d₁ d₂) d₃
        have := hx.pos
        omega
      · rw [e2 _ _ _ hD.2.1, e4 _ _ _ hD.2.2.1]
        rfl
    · have hv' : terOp "Clamp" x w w' = some v := by
        cases w <;> cases w' <;> first | exact hv | exact absurd ⟨⟨_, rfl⟩, _, rfl⟩ hc
      exact terOp_sem hx hw hw' "Clamp" .clamp hv' (by decide +kernel) (by decide +kernel)
  | ifelse => exact terOp_sem hx hw hw' "IfElse" .ifElse hv (by decide +kernel) (by decide +kernel)
  | mod => exact terOp_sem hx hw hw' "Mod" .mod hv (by decide +kernel) (by decide +kernel)
  | weightedsqdist =>
    simp only [m3Call, Option.bind_eq_some_iff] at hv
    obtain ⟨g, hg, s, hs, r, hr, hv⟩ := hv
    obtain rfl := mk_some hg
    obtain rfl := mk_some hs
    have h1 := left_sem (o := .sub) (w := .lazy w.toLazy) hx hw (by intro n hn; cases hn) (by decide)
      (fun h => by cases h) hr
    obtain ⟨e, rfl, he⟩ := h1
    exact (weightedsqnorm_sem (w := .lazy w'.toLazy) he hw' hv).congr rfl fun data i j hD =>
      ⟨⟨⟨hD.1, hD.2.1, trivial⟩, hD.2.2.1⟩, rfl⟩

end

/-! ## Programs -/

/-- When a lazy tensor is transposed, the new views of its arrays have identities of their own. -/
def Fresh : PyE → Prop
  | .int _ | .float _ _ _ | .list _ _ _ | .array _ _ _ => True
  | .lazy _ _ shape axis => axis = some 2 → shape.length ≤ 1
  | .m1 _ x | .mi _ x => Fresh x
  | .op _ x y | .m2 _ x y => Fresh x ∧ Fresh y
  | .m3 _ x y z => Fresh x ∧ Fresh y ∧ Fresh z
  | .t fresh x => Fresh x ∧ ∀ e, run x = some (.lazy e) → Ok (.t fresh e)

theorem isZero_of {p : PyE} {v : Val} (hv : run p = some v) (h : ¬ p.IsZero) (hl : p.IsLazy → ∃ e, v = .lazy e) :
    scalarEq v 0 = false := by
  cases p with
  | int n =>
    obtain rfl := Option.some.inj hv
    simp only [PyE.IsZero] at h
    simp [scalarEq, h]
  | float id src q =>
    obtain rfl := Option.some.inj hv
    simp only [PyE.IsZero] at h
    simp [scalarEq, h]
  | list id src len =>
    obtain rfl := Option.some.inj hv
    rfl
  | array id src shape =>
    obtain rfl := Option.some.inj hv
    rfl
  | _ =>
    obtain ⟨e, rfl⟩ := hl trivial
    rfl

/-- What is proved of a program by induction. -/
structure Good (p : PyE) (v : Val) : Prop where
  sem : Sem v.toLazy p.dim (fun data i j => p.val data i j) fun data i j => p.Holds data ∧ p.Def data i j
  lazy : p.IsLazy → ∃ e, v = .lazy e
  int : ∀ n : Int, v = .int n → p = .int n
  float : ∀ id src q, v = .float id src q → p = .float id src q

theorem Good.of_is {p : PyE} {v : Val}
    (h : Is v p.dim (fun data i j => p.val data i j) fun data i j => p.Holds data ∧ p.Def data i j) : Good p v := by
  obtain ⟨e, rfl, h⟩ := h
  exact ⟨h, fun _ => ⟨e, rfl⟩, (fun _ h => by cases h), (fun _ _ _ h => by cases h)⟩

theorem Good.scalar {p : PyE} {v : Val} (h : Good p v) :
    Scalar v p.dim (fun data i j => p.val data i j) fun data i j => p.Holds data ∧ p.Def data i j := by
  intro n hn
  cases v with
  | int m =>
    obtain rfl := h.int m rfl
    simp only [scalarEq, decide_eq_true_eq] at hn
    subst hn
    exact ⟨rfl, fun _ _ _ _ => rfl⟩
  | float id src q =>
    obtain rfl := h.float id src q rfl
    simp only [scalarEq, decide_eq_true_eq] at hn
    subst hn
    refine ⟨rfl, fun _ _ _ _ => ?_⟩
    funext k
    simp [PyE.val]
  | _ => cases hn

theorem Good.intVal {p : PyE} {v : Val} (h : Good p v) :
    IntVal v p.dim (fun data i j => p.val data i j) fun data i j => p.Holds data ∧ p.Def data i j := by
  rintro n rfl
  obtain rfl := h.int n rfl
  exact ⟨rfl, fun _ _ _ _ => rfl⟩

theorem Good.leaf {p : PyE} {v : Val} {e : LExpr} {d c s : Nat} (hv : v.toLazy = e) (hd : p.dim = d) (hok : Ok e)
    (hn : ∀ L, eval e = some L → L.ndim = d ∧ L.symb = []) (h0 : 0 < d) (ht : e.tree = .leaf s d c)
    (hV : ∀ data i j, p.Holds data → Spec.readVec (data s) d c i j = p.val data i j) :
    Sem v.toLazy p.dim (fun data i j => p.val data i j) fun data i j => p.Holds data ∧ p.Def data i j := by
  rw [hv]
  exact (sem_leaf hok hn h0 ht fun _ _ _ => True).congr hd.symm fun data i j hD => ⟨trivial, hV data i j hD.1⟩

theorem params_ndim {id src len : Nat} : ∀ L, eval (.params id src len) = some L → L.ndim = len ∧ L.symb = [] := by
  intro L hL
  simp only [eval, Option.some.injEq] at hL
  rw [← hL]
  exact ⟨rfl, rfl⟩

theorem array_ndim {id src : Nat} {shape : List Nat} {axis : Option Nat} {L : LazyT}
    (h : mkArray id src shape axis = some L) : L.ndim = shape.getLastD 1 ∧ L.symb = [] := by
  have key : ∀ {s : List Nat} {c : Nat} {b : Option (List Nat)}, some (mkVar id src s c b) = some L →
      s.getLastD 1 = shape.getLastD 1 → L.ndim = shape.getLastD 1 ∧ L.symb = [] := by
    rintro s c b h hs
    obtain rfl := Option.some.inj h
    exact ⟨hs, rfl⟩
  unfold mkArray at h
  dsimp only at h
  split_ifs at h with h1
  all_goals first
    | exact key h (by subst h1; rfl)
    | exact key h rfl
    | exact key h (by simp [List.getLastD_eq_getLast?])

theorem good_op {o : PyOp} {x y : PyE} {v w r : Val} (hx : Good x v) (hy : Good y w) (hvx : run x = some v)
    (hvy : run y = some w) (hz : (PyE.op o x y).NoZero) (hv : opCall o v w = some r) : Good (.op o x y) r := by
  by_cases ho : o = .pow
  · subst ho
    cases v with
    | lazy e =>
      have hl : ∀ v', v' = w → left .pow e v' = some r := by
        rintro _ rfl
        exact hv
      have other : (∀ e', w = .lazy e' → Good (.op .pow x y) r) → Good (.op .pow x y) r := by
        intro h
        cases w with
        | lazy e' => exact h e' rfl
        | int n =>
          obtain rfl := hy.int n rfl
          exact .of_is ((pow_int_sem hx.sem hv).congr (max_eq_left hx.sem.pos).symm fun data i j hD =>
            ⟨⟨⟨hD.1.1, hD.2.1⟩, hD.2.2⟩, rfl⟩)
        | float id src q =>
          obtain rfl := hy.float id src q rfl
          refine .of_is ((pow_float_sem (D₂ := fun data _ _ => data src 0 = q) hx.sem ?_ hv).congr
            (max_eq_left hx.sem.pos).symm fun data i j hD => ⟨⟨⟨hD.1.1, hD.2.1⟩, hD.1.2, hD.2.2⟩, rfl⟩)
          exact hy.sem.congr rfl fun data i j hD => ⟨⟨hD, trivial⟩, rfl⟩
        | list id src len => cases hv
        | array id src shape => cases hv
      refine other fun e' he' => ?_
      subst he'
      have key := powf_sem hx.sem hy.sem hv
      have hb : ∀ data i j, (PyE.op .pow x y).Holds data ∧ (PyE.op .pow x y).Def data i j →
          (x.Holds data ∧ x.Def data i j) ∧ (y.Holds data ∧ y.Def data i j) ∧
          (∀ k < max x.dim y.dim, 0 < x.val data i j k) ∧
          (fun k => x.val data i j k ^ y.val data i j k) = (PyE.op .pow x y).val data i j := by
        intro data i j hD
        cases y with
        | int n => cases hvy
        | float id src q => cases hvy
        | _ => exact ⟨⟨hD.1.1, hD.2.1⟩, ⟨hD.1.2, hD.2.2.1⟩, hD.2.2.2, rfl⟩
      exact .of_is (key.congr rfl fun data i j hD =>
        ⟨⟨(hb _ _ _ hD).1, (hb _ _ _ hD).2.1, (hb _ _ _ hD).2.2.1⟩, (hb _ _ _ hD).2.2.2⟩)
    | _ => cases w <;> cases hv
  · have hval : ∀ data i j, (PyE.op o x y).val data i j = o.val x.dim y.dim (x.val data i j) (y.val data i j) := by
      intro data i j
      cases o <;> first | rfl | exact absurd rfl ho
    have hdef : ∀ data i j, (PyE.op o x y).Def data i j → x.Def data i j ∧ y.Def data i j ∧
        o.Def (o.dim x.dim y.dim) (x.val data i j) (y.val data i j) := by
      intro data i j h
      cases o <;> first | exact h | exact absurd rfl ho
    have fin : Is r (o.dim x.dim y.dim) (fun data i j => o.val x.dim y.dim (x.val data i j) (y.val data i j))
        (fun data i j => (x.Holds data ∧ x.Def data i j) ∧ (y.Holds data ∧ y.Def data i j) ∧
          o.Def (o.dim x.dim y.dim) (x.val data i j) (y.val data i j)) := by
      have hz2 : o = .mul → scalarEq w 0 = false := by
        rintro rfl
        exact isZero_of hvy hz.2.1 hy.lazy
      have hz1 : o = .mul ∨ o = .div → scalarEq v 0 = false := by
        rintro (rfl | rfl)
        · exact isZero_of hvx hz.1 hx.lazy
        · exact isZero_of hvx hz.1 hx.lazy
      cases v with
      | lazy e => exact left_sem hx.sem hy.sem hy.scalar ho hz2 hv
      | _ =>
        cases w with
        | lazy e => exact right_sem hx.sem hy.sem hx.scalar hz1 hv
        | _ => cases hv
    refine .of_is (fin.congr rfl fun data i j hD => ?_)
    have := hdef _ _ _ hD.2
    exact ⟨⟨⟨hD.1.1, this.1⟩, ⟨hD.1.2, this.2.1⟩, this.2.2⟩, (hval _ _ _).symm⟩

theorem noZero_op {o : PyOp} {x y : PyE} (h : (PyE.op o x y).NoZero) : x.NoZero ∧ y.NoZero := by
  cases o
  case mul => exact h.2.2
  case div => exact h.2
  all_goals exact h

theorem good_of_run {p : PyE} {v : Val} (hv : run p = some v) (hp : p.Pos) (hz : p.NoZero) (hl : p.LazyArgs)
    (hf : Fresh p) : Good p v := by
  induction p generalizing v with
  | int n =>
    obtain rfl := Option.some.inj hv
    refine ⟨(sem_int n).congr rfl fun data i j hD => ⟨trivial, rfl⟩, fun h => h.elim, ?_, ?_⟩
    · rintro _ ⟨⟩
      rfl
    · rintro _ _ _ ⟨⟩
  | float id src q =>
    obtain rfl := Option.some.inj hv
    refine ⟨Good.leaf rfl rfl trivial params_ndim Nat.one_pos rfl ?_, fun h => h.elim, ?_, ?_⟩
    · intro data i j h
      funext k
      have h : data src 0 = q := h
      simp [Spec.readVec, Spec.cst, rowIJ, PyE.val, PyE.dim, h]
    · rintro _ ⟨⟩
    · rintro _ _ _ ⟨⟩
      rfl
  | list id src len =>
    obtain rfl := Option.some.inj hv
    refine ⟨Good.leaf rfl rfl trivial params_ndim hp rfl ?_, fun h => h.elim, ?_, ?_⟩
    · intro data i j h
      simp [Spec.readVec, rowIJ, PyE.val, PyE.dim]
    · rintro _ ⟨⟩
    · rintro _ _ _ ⟨⟩
  | array id src shape =>
    obtain rfl := Option.some.inj hv
    refine ⟨Good.leaf rfl rfl (fun h => by cases h) ?_ hp rfl ?_, fun h => h.elim, ?_, ?_⟩
    · exact fun L hL => array_ndim hL
    · intro data i j h
      rfl
    · rintro _ ⟨⟩
    · rintro _ _ _ ⟨⟩
  | lazy id src shape axis =>
    obtain rfl := mk_some hv
    refine .of_is ⟨_, rfl, Good.leaf (v := .lazy _) rfl rfl hf ?_ hp rfl ?_⟩
    · exact fun L hL => array_ndim hL
    · intro data i j h
      rfl
  | m1 m x ih =>
    simp only [run, Option.bind_eq_some_iff] at hv
    obtain ⟨u, hu, hv⟩ := hv
    have hx := ih hu hp hz hl hf
    cases u with
    | lazy e => exact .of_is ((m1_sem hx.sem hv).congr rfl fun data i j hD => ⟨⟨⟨hD.1, hD.2.1⟩, hD.2.2⟩, rfl⟩)
    | _ => cases hv
  | mi m x ih =>
    simp only [run, Option.bind_eq_some_iff] at hv
    obtain ⟨u, hu, hv⟩ := hv
    have hp' : x.Pos ∧ ∀ n, m = .oneHot n → 0 < n := by
      cases m
      case oneHot n =>
        refine ⟨hp.2, ?_⟩
        rintro _ ⟨⟩
        exact hp.1
      all_goals exact ⟨hp, fun _ h => by cases h⟩
    have hx := ih hu hp'.1 hz hl hf
    cases u with
    | lazy e => exact .of_is ((mi_sem hx.sem hp'.2 hv).congr rfl fun data i j hD => ⟨⟨⟨hD.1, hD.2.1⟩, hD.2.2⟩, rfl⟩)
    | _ => cases hv
  | op o x y ihx ihy =>
    simp only [run, Option.bind_eq_some_iff] at hv
    obtain ⟨u, hu, w, hw, hv⟩ := hv
    have hz' := noZero_op hz
    exact good_op (ihx hu hp.1 hz'.1 hl.1 hf.1) (ihy hw hp.2 hz'.2 hl.2 hf.2) hu hw hz hv
  | m2 m x y ihx ihy =>
    simp only [run, Option.bind_eq_some_iff] at hv
    obtain ⟨u, hu, w, hw, hv⟩ := hv
    have hx := ihx hu hp.1 hz.1 hl.1 hf.1
    have hy := ihy hw hp.2 hz.2 hl.2.1 hf.2
    cases u with
    | lazy e =>
      exact .of_is ((m2_sem hx.sem hy.sem (fun h => hy.lazy (hl.2.2.1 h)) hl.2.2.2.1 hl.2.2.2.2 hv).congr rfl
        fun data i j hD => ⟨⟨⟨hD.1.1, hD.2.1⟩, ⟨hD.1.2, hD.2.2.1⟩, hD.2.2.2⟩, rfl⟩)
    | _ => cases hv
  | m3 m x y z ihx ihy ihz =>
    simp only [run, Option.bind_eq_some_iff] at hv
    obtain ⟨u, hu, w, hw, w', hw', hv⟩ := hv
    have hx := ihx hu hp.1 hz.1 hl.1 hf.1
    have hy := ihy hw hp.2.1 hz.2.1 hl.2.1 hf.2.1
    have hzz := ihz hw' hp.2.2 hz.2.2 hl.2.2 hf.2.2
    cases u with
    | lazy e =>
      exact .of_is ((m3_sem hx.sem hy.sem hzz.sem hy.intVal hzz.intVal hv).congr rfl fun data i j hD =>
        ⟨⟨⟨hD.1.1, hD.2.1⟩, ⟨hD.1.2.1, hD.2.2.1⟩, ⟨hD.1.2.2, hD.2.2.2.1⟩, hD.2.2.2.2⟩, rfl⟩)
    | _ => cases hv
  | t fresh x ih =>
    simp only [run, Option.bind_eq_some_iff] at hv
    obtain ⟨u, hu, hv⟩ := hv
    have hx := ih hu hp hz hl hf.1
    cases u with
    | lazy e =>
      obtain rfl := mk_some hv
      exact .of_is ⟨_, rfl, Sem.transpose hx.sem (hf.2 e hu)⟩
    | _ => cases hv

end Verif.Lazy
