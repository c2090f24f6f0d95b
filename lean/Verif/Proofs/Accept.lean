import Verif.Proofs.Simplify

/-! The constructors accept arguments whose dimensions are compatible. -/

namespace Verif
open Prog

/-- The formulas met when no `SumT(f, 1)` is written; if `R` is false, without rational numbers. -/
def Expr.Tidy (R : Bool) : Expr → Prop
  | .int n => n ≠ 0
  | .rat p q => R = true ∧ p ≠ 0 ∧ q ≠ 0
  | .un o f => o ≠ .sumT 1 ∧ f.Tidy R
  | .bin _ f g => f.Tidy R ∧ g.Tidy R
  | .tern _ f g h => f.Tidy R ∧ g.Tidy R ∧ h.Tidy R
  | .fact _ _ _ f g => f.Tidy R ∧ g.Tidy R
  | .var _ _ _ | .zero _ => True

/-- Dimensions that can be combined. -/
def Dims (a b : Nat) : Prop := a = b ∨ a = 1 ∨ b = 1

/-- Arguments of the calls. -/
def Neat (R : Bool) (e : Expr) : Prop := e.WF ∧ e.Tidy R ∧ 0 < e.dim

/-- The calls that are accepted. -/
def Req.Ready (R : Bool) : Req → Prop
  | .add a b | .sub a b | .mul a b | .scalprod a b => Neat R a ∧ Neat R b ∧ Dims a.dim b.dim
  | .div a b => Neat R a ∧ Neat R b ∧ Dims a.dim b.dim ∧ b.asZero = none ∧ (R = false → b.isConst = false)
  | .minus a | .sum a => Neat R a

/-- The only exception is the one of `p/q + n`. -/
def Regular (R : Bool) : Except Err Expr → Prop
  | .ok e => e.Tidy R
  | .error er => R = true ∧ er = .attribute

/-- All calls made by the program are accepted, and it does not raise an exception by itself. -/
def Prog.Acc (R : Bool) : Prog → Prop
  | .ret x => Regular R x
  | .call q k => q.Ready R ∧ ∀ e : Expr, Neat R e → e.dim = q.dim → (k e).Acc R

theorem Req.Ready.pre {R : Bool} {q : Req} (h : q.Ready R) : q.Pre := by
  cases q <;> first | exact ⟨h.1.1, h.2.1.1⟩ | exact h.1

theorem acc_run {R : Bool} {n : Nat} {p : Prog} (hp : p.Acc R)
    (h : ∀ q, q.Ready R → build n q = .error .fuel ∨ Regular R (build n q)) :
    p.run (build n) = .error .fuel ∨ Regular R (p.run (build n)) := by
  induction p with
  | ret x => exact .inr hp
  | call q k ih =>
    simp only [Prog.run]
    cases hq : build n q with
    | ok e =>
      have h1 := h q hp.1
      rw [hq] at h1
      have hw := build_wf hp.1.pre hq
      refine ih e (hp.2 e ⟨hw, ?_, hw.pos⟩ (build_dim hp.1.pre hq))
      rcases h1 with h1 | h1
      · cases h1
      · exact h1
    | error er =>
      have h1 := h q hp.1
      rw [hq] at h1
      rcases h1 with h1 | h1
      · exact .inl h1
      · exact .inr h1

theorem acc_tail {R : Bool} {q : Req} (h : q.Ready R) : (tail q).Acc R := ⟨h, fun _ he _ => he.2.1⟩

theorem acc_bind {R : Bool} {x : Except Err Expr} {f : Expr → Prog} (h : ∀ er, x = .error er → R = true ∧ er = .attribute)
    (hf : ∀ e, x = .ok e → (f e).Acc R) : ((ret x).bind f).Acc R := by
  cases x with
  | ok e => exact hf e rfl
  | error er => exact h er rfl

theorem fine_bin {R : Bool} {o : Bin} (ho : o = .add ∨ o = .sub ∨ o = .mul ∨ o = .div) {a b : Expr}
    (ha : Neat R a) (hb : Neat R b) (hd : Dims a.dim b.dim) : Regular R (mkBin o a b) := by
  have : o.accept a.dim b.dim = true := by
    rcases ho with rfl | rfl | rfl | rfl <;> exact (dimsOk_pair ha.2.2 hb.2.2).2 hd
  rw [mkBin, if_pos this]
  exact ⟨ha.2.1, hb.2.1⟩

theorem fine_un {R : Bool} {o : Un} {a : Expr} (h : o.accept a.dim = true) (ho : o ≠ .sumT 1) (ha : a.Tidy R) :
    Regular R (mkUn o a) := by
  rw [mkUn, if_pos h]
  exact ⟨ho, ha⟩

theorem tidy_intCst {R : Bool} (n : Int) : (intCst n).Tidy R := by
  unfold intCst
  split_ifs with h
  · trivial
  · exact h

theorem ratCst_fine {a b : Int} (hb : b ≠ 0) : Regular true (ratCst a b) := by
  cases h : ratCst a b with
  | error er => simp [ratCst, hb] at h; split_ifs at h
  | ok r =>
    rw [ratCst, if_neg hb] at h
    dsimp only at h
    have hg : (Int.gcd a b : Int) ≠ 0 := by
      simp only [ne_eq, Nat.cast_eq_zero, Int.gcd_eq_zero_iff]
      tauto
    have hq : b / (Int.gcd a b : Int) ≠ 0 := by
      intro h0
      have := Int.ediv_mul_cancel (Int.gcd_dvd_right a b)
      rw [h0, zero_mul] at this
      exact hb this.symm
    split_ifs at h with h1 h2 h3 h4 h5 h6
    all_goals first
      | (cases h; exact tidy_intCst _)
      | (cases h; trivial)
      | (cases h; refine ⟨rfl, ?_, ?_⟩ <;> simp_all)

theorem ratCst_dim {a b : Int} {r : Expr} (h : ratCst a b = .ok r) : r.WF ∧ r.dim = 1 := by
  have := ratCst_ok h
  tauto

theorem good_int {R : Bool} (n : Int) : Neat R (intCst n) :=
  ⟨intCst_wf n, tidy_intCst n, by rw [intCst_dim]; exact Nat.one_pos⟩

theorem good_bin {R : Bool} {o : Bin} (ho : o = .add ∨ o = .sub ∨ o = .mul ∨ o = .div) {f g : Expr} (h : Neat R (.bin o f g)) :
    Neat R f ∧ Neat R g ∧ Dims f.dim g.dim ∧ (Expr.bin o f g).dim = max f.dim g.dim := by
  obtain ⟨⟨h1, h2, h3, _⟩, ⟨h4, h5⟩, _⟩ := h
  refine ⟨⟨h1, h4, h1.pos⟩, ⟨h2, h5, h2.pos⟩, (dimsOk_pair h1.pos h2.pos).1 ?_, ?_⟩
  · rcases ho with rfl | rfl | rfl | rfl <;> exact h3
  · rcases ho with rfl | rfl | rfl | rfl <;> rfl

theorem good_un {R : Bool} {o : Un} {f : Expr} (h : Neat R (.un o f)) : Neat R f :=
  ⟨h.1.1, h.2.1.2, h.1.1.pos⟩

theorem good_sumT {R : Bool} {d : Nat} {f : Expr} (h : Neat R (.un (.sumT d) f)) : f.dim = 1 ∧ d ≠ 1 :=
  ⟨h.1.2.2.2 d rfl, fun e => h.2.1.1 (by rw [e])⟩

theorem good_zero {R : Bool} {d : Nat} (h : 0 < d) : Neat R (.zero d) := ⟨h, trivial, h⟩

theorem broadcast_fine {R : Bool} {a : Expr} {d : Nat} (ha : Neat R a) (h : Dims a.dim d) : Regular R (broadcast a d) := by
  unfold broadcast
  split_ifs with h1 h2
  · exact ha.2.1
  · unfold sumT
    rw [if_neg (not_not.2 h2)]
    split
    · trivial
    · exact ⟨fun e => h1 (.inr (Un.sumT.inj e)), ha.2.1⟩
  · exfalso
    unfold Dims at h
    tauto

theorem sumT_fine {R : Bool} {a : Expr} {d : Nat} (ha : Neat R a) (h : a.dim = 1) (hd : d ≠ 1) : Regular R (sumT a d) := by
  unfold sumT
  rw [if_neg (not_not.2 h)]
  split
  · trivial
  · exact ⟨fun e => hd (Un.sumT.inj e), ha.2.1⟩

theorem square_fine {R : Bool} {a : Expr} (ha : Neat R a) : Regular R (square a) := by
  unfold square
  split
  · exact ha.2.1
  · exact ⟨by simp, ha.2.1⟩

/-- Arithmetic of dimensions. -/
macro "dd" : tactic => `(tactic| (
  simp only [Dims, Req.dim, Expr.dim, intCst_dim, Bin.dim, Un.dim, true_or, or_true] at * <;> omega))

section Add

variable {R : Bool} {a b : Expr} {p : Prog} (ha : Neat R a) (hb : Neat R b) (hd : Dims a.dim b.dim)

include ha hb hd

theorem addZero_acc (h : addZero a b = some p) : p.Acc R := by
  unfold addZero at h
  split at h
  · rename_i d h0
    have := asZero_some h0; subst this
    cases h
    exact broadcast_fine hb (by dd)
  · rename_i d _ h0
    have := asZero_some h0; subst this
    cases h
    exact broadcast_fine ha (by dd)
  · split_ifs at h with hab
    subst hab
    cases h
    exact acc_tail ⟨good_int _, ha, by dd⟩

theorem addConst_acc (h : addConst a b = some p) : p.Acc R := by
  unfold addConst at h
  split at h <;> cases h
  · exact tidy_intCst _
  · obtain ⟨rfl, h1, h2⟩ := hb.2.1
    exact ratCst_fine h2
  · exact ⟨ha.2.1.1, rfl⟩
  · obtain ⟨rfl, h1, h2⟩ := hb.2.1
    obtain ⟨_, h3, h4⟩ := ha.2.1
    exact ratCst_fine (mul_ne_zero h4 h2)

theorem addGatherL_acc (h : addGatherL a b = some p) : p.Acc R := by
  unfold addGatherL at h
  split_ifs at h with hc
  have := isConst_dim hc
  split at h
  · rename_i r g h1
    split_ifs at h with hr
    have := asBin_some h1; subst this
    have := isConst_dim hr
    obtain ⟨g1, g2, g3, g4⟩ := good_bin (.inl rfl) hb
    cases h
    exact ⟨⟨ha, g1, by dd⟩, fun e he hd => acc_tail ⟨he, g2, by dd⟩⟩
  · rename_i r g _ h1
    split_ifs at h with hr
    have := asBin_some h1; subst this
    have := isConst_dim hr
    obtain ⟨g1, g2, g3, g4⟩ := good_bin (.inr (.inl rfl)) hb
    cases h
    exact ⟨⟨ha, g1, by dd⟩, fun e he hd => acc_tail ⟨he, g2, by dd⟩⟩
  · cases h

theorem addGatherR_acc (h : addGatherR a b = some p) : p.Acc R := by
  unfold addGatherR at h
  split_ifs at h with hc
  have := isConst_dim hc
  split at h
  · rename_i r g h1
    split_ifs at h with hr
    have := asBin_some h1; subst this
    have := isConst_dim hr
    obtain ⟨g1, g2, g3, g4⟩ := good_bin (.inl rfl) ha
    cases h
    exact ⟨⟨hb, g1, by dd⟩, fun e he hd => acc_tail ⟨he, g2, by dd⟩⟩
  · rename_i r g _ h1
    split_ifs at h with hr
    have := asBin_some h1; subst this
    have := isConst_dim hr
    obtain ⟨g1, g2, g3, g4⟩ := good_bin (.inr (.inl rfl)) ha
    cases h
    exact ⟨⟨hb, g1, by dd⟩, fun e he hd => acc_tail ⟨he, g2, by dd⟩⟩
  · cases h

theorem addFactor_acc (h : addFactor a b = some p) : p.Acc R := by
  unfold addFactor at h
  split at h
  · rename_i x y z w h1 h2
    have := asBin_some h1; subst this
    have := asBin_some h2; subst this
    obtain ⟨g1, g2, g3, g4⟩ := good_bin (.inr (.inr (.inl rfl))) ha
    obtain ⟨k1, k2, k3, k4⟩ := good_bin (.inr (.inr (.inl rfl))) hb
    have := g1.2.2; have := g2.2.2; have := k1.2.2; have := k2.2.2
    split_ifs at h with e1 e2 e3 e4
    · subst e1; cases h
      exact ⟨⟨g2, k2, by dd⟩, fun e he hd => acc_tail ⟨g1, he, by dd⟩⟩
    · subst e2; cases h
      exact ⟨⟨g2, k1, by dd⟩, fun e he hd => acc_tail ⟨g1, he, by dd⟩⟩
    · subst e3; cases h
      exact ⟨⟨g1, k2, by dd⟩, fun e he hd => acc_tail ⟨g2, he, by dd⟩⟩
    · subst e4; cases h
      exact ⟨⟨g1, k1, by dd⟩, fun e he hd => acc_tail ⟨g2, he, by dd⟩⟩
  · cases h

theorem addMultiple_other_acc (h : addMultiple.other a b = some p) : p.Acc R := by
  unfold addMultiple.other at h
  split at h
  · split_ifs at h
    cases h
    exact acc_tail ⟨good_int _, ha, by dd⟩
  · cases h

theorem addMultiple_acc (h : addMultiple a b = some p) : p.Acc R := by
  unfold addMultiple at h
  split at h
  · split_ifs at h
    · cases h
      exact acc_tail ⟨good_int _, hb, by dd⟩
    · exact addMultiple_other_acc ha hb hd h
  · exact addMultiple_other_acc ha hb hd h

theorem addMinus_acc (h : addMinus a b = some p) : p.Acc R := by
  unfold addMinus at h
  split at h
  · rename_i g h1
    have := asUn_some h1; subst this
    split at h
    · rename_i f h2
      have := asUn_some h2; subst this
      cases h
      exact ⟨⟨good_un ha, good_un hb, hd⟩, fun e he _ => acc_tail he⟩
    · cases h
      exact acc_tail ⟨ha, good_un hb, hd⟩
  · cases h

theorem stepAdd_acc : (stepAdd a b).Acc R := by
  unfold stepAdd firstRule
  rcases h1 : addZero a b with _ | p; swap
  · exact addZero_acc ha hb hd h1
  rcases h2 : addConst a b with _ | p; swap
  · exact addConst_acc ha hb hd h2
  rcases h3 : addGatherL a b with _ | p; swap
  · exact addGatherL_acc ha hb hd h3
  rcases h4 : addGatherR a b with _ | p; swap
  · exact addGatherR_acc ha hb hd h4
  rcases h5 : addFactor a b with _ | p; swap
  · exact addFactor_acc ha hb hd h5
  rcases h6 : addMultiple a b with _ | p; swap
  · exact addMultiple_acc ha hb hd h6
  rcases h7 : addMinus a b with _ | p; swap
  · exact addMinus_acc ha hb hd h7
  exact fine_bin (.inl rfl) ha hb hd

end Add

section Sub

variable {R : Bool} {a b : Expr} {p : Prog} (ha : Neat R a) (hb : Neat R b) (hd : Dims a.dim b.dim)

include ha hb hd

theorem subZero_acc (h : subZero a b = some p) : p.Acc R := by
  unfold subZero at h
  split at h
  · rename_i d h0
    have := asZero_some h0; subst this
    cases h
    have hf := broadcast_fine (d := d) hb (by dd)
    refine acc_bind (fun er he => by rw [he] at hf; exact hf) fun e he => acc_tail ?_
    rw [he] at hf
    have := (broadcast_ok hb.1 ha.2.2 he).2.1
    exact ⟨this, hf, this.pos⟩
  · rename_i d _ h0
    have := asZero_some h0; subst this
    cases h
    exact broadcast_fine ha (by dd)
  · split_ifs at h with hab
    cases h
    trivial

theorem subConst_acc (h : subConst a b = some p) : p.Acc R := by
  unfold subConst at h
  split at h <;> cases h
  · exact tidy_intCst _
  · obtain ⟨rfl, h1, h2⟩ := hb.2.1
    exact ratCst_fine h2
  · exact ⟨ha.2.1.1, rfl⟩
  · obtain ⟨rfl, h1, h2⟩ := hb.2.1
    obtain ⟨_, h3, h4⟩ := ha.2.1
    exact ratCst_fine (mul_ne_zero h4 h2)

theorem subGatherL_acc (h : subGatherL a b = some p) : p.Acc R := by
  unfold subGatherL at h
  split_ifs at h with hc
  have := isConst_dim hc
  split at h
  · rename_i r g h1
    split_ifs at h with hr
    have := asBin_some h1; subst this
    have := isConst_dim hr
    obtain ⟨g1, g2, g3, g4⟩ := good_bin (.inl rfl) hb
    cases h
    exact ⟨⟨ha, g1, by dd⟩, fun e he hd => acc_tail ⟨he, g2, by dd⟩⟩
  · rename_i r g _ h1
    split_ifs at h with hr
    have := asBin_some h1; subst this
    have := isConst_dim hr
    obtain ⟨g1, g2, g3, g4⟩ := good_bin (.inr (.inl rfl)) hb
    cases h
    exact ⟨⟨ha, g1, by dd⟩, fun e he hd => acc_tail ⟨he, g2, by dd⟩⟩
  · cases h

theorem subGatherR_acc (h : subGatherR a b = some p) : p.Acc R := by
  unfold subGatherR at h
  split_ifs at h with hc
  have := isConst_dim hc
  split at h
  · rename_i r g h1
    split_ifs at h with hr
    have := asBin_some h1; subst this
    have := isConst_dim hr
    obtain ⟨g1, g2, g3, g4⟩ := good_bin (.inl rfl) ha
    cases h
    exact ⟨⟨g1, hb, by dd⟩, fun e he hd => acc_tail ⟨he, g2, by dd⟩⟩
  · rename_i r g _ h1
    split_ifs at h with hr
    have := asBin_some h1; subst this
    have := isConst_dim hr
    obtain ⟨g1, g2, g3, g4⟩ := good_bin (.inr (.inl rfl)) ha
    cases h
    exact ⟨⟨g1, hb, by dd⟩, fun e he hd => acc_tail ⟨he, g2, by dd⟩⟩
  · cases h

theorem subFactor_acc (h : subFactor a b = some p) : p.Acc R := by
  unfold subFactor at h
  split at h
  · rename_i x y z w h1 h2
    have := asBin_some h1; subst this
    have := asBin_some h2; subst this
    obtain ⟨g1, g2, g3, g4⟩ := good_bin (.inr (.inr (.inl rfl))) ha
    obtain ⟨k1, k2, k3, k4⟩ := good_bin (.inr (.inr (.inl rfl))) hb
    have := g1.2.2; have := g2.2.2; have := k1.2.2; have := k2.2.2
    split_ifs at h with e1 e2 e3 e4
    · subst e1; cases h
      exact ⟨⟨g2, k2, by dd⟩, fun e he hd => acc_tail ⟨g1, he, by dd⟩⟩
    · subst e2; cases h
      exact ⟨⟨g2, k1, by dd⟩, fun e he hd => acc_tail ⟨g1, he, by dd⟩⟩
    · subst e3; cases h
      exact ⟨⟨g1, k2, by dd⟩, fun e he hd => acc_tail ⟨g2, he, by dd⟩⟩
    · subst e4; cases h
      exact ⟨⟨g1, k1, by dd⟩, fun e he hd => acc_tail ⟨g2, he, by dd⟩⟩
  · cases h

theorem subMultiple_other_acc (h : subMultiple.other a b = some p) : p.Acc R := by
  unfold subMultiple.other at h
  split at h
  · split_ifs at h
    cases h
    exact acc_tail ⟨good_int _, ha, by dd⟩
  · cases h

theorem subMultiple_acc (h : subMultiple a b = some p) : p.Acc R := by
  unfold subMultiple at h
  split at h
  · split_ifs at h
    · cases h
      exact acc_tail ⟨good_int _, hb, by dd⟩
    · exact subMultiple_other_acc ha hb hd h
  · exact subMultiple_other_acc ha hb hd h

theorem stepSub_acc : (stepSub a b).Acc R := by
  unfold stepSub firstRule
  rcases h1 : subZero a b with _ | p; swap
  · exact subZero_acc ha hb hd h1
  rcases h2 : subConst a b with _ | p; swap
  · exact subConst_acc ha hb hd h2
  rcases h3 : subGatherL a b with _ | p; swap
  · exact subGatherL_acc ha hb hd h3
  rcases h4 : subGatherR a b with _ | p; swap
  · exact subGatherR_acc ha hb hd h4
  rcases h5 : subFactor a b with _ | p; swap
  · exact subFactor_acc ha hb hd h5
  rcases h6 : subMultiple a b with _ | p; swap
  · exact subMultiple_acc ha hb hd h6
  exact fine_bin (.inr (.inl rfl)) ha hb hd

end Sub

section Mul

variable {R : Bool} {a b : Expr} {p : Prog} (ha : Neat R a) (hb : Neat R b) (hd : Dims a.dim b.dim)

include ha hb hd

theorem mulZero_acc (h : mulZero a b = some p) : p.Acc R := by
  unfold mulZero at h
  split at h
  · cases h
    exact broadcast_fine ha hd
  · cases h
    exact broadcast_fine hb (by dd)
  · cases h

theorem mulInt_acc (h : mulInt a b = some p) : p.Acc R := by
  unfold mulInt at h
  split at h
  · rename_i m h0
    have := asInt_some h0; subst this
    split_ifs at h with h1 h2
    · cases h
      exact hb.2.1
    · cases h
      exact acc_tail hb
    · split at h
      · rename_i n h3
        have := asInt_some h3; subst this
        cases h
        exact mul_ne_zero ha.2.1 hb.2.1
      · rename_i p q _ h3
        have := asRat_some h3; subst this
        cases h
        obtain ⟨rfl, h1, h2⟩ := hb.2.1
        exact ratCst_fine h2
      · cases h
  · cases h

theorem mulSwapInt_acc (h : mulSwapInt a b = some p) : p.Acc R := by
  unfold mulSwapInt at h
  split at h
  · cases h
    exact acc_tail ⟨hb, ha, by dd⟩
  · cases h

theorem mulRat_acc (h : mulRat a b = some p) : p.Acc R := by
  unfold mulRat at h
  split at h
  · rename_i p q m n h1 h2
    have := asRat_some h1; subst this
    have := asRat_some h2; subst this
    cases h
    obtain ⟨rfl, h1, h2⟩ := hb.2.1
    obtain ⟨_, h3, h4⟩ := ha.2.1
    exact ratCst_fine (mul_ne_zero h4 h2)
  · cases h

theorem mulConstR_acc (h : mulConstR a b = some p) : p.Acc R := by
  have pa := ha.2.2
  unfold mulConstR at h
  split at h
  · rename_i n g h1
    have := asBin_some h1; subst this
    obtain ⟨g1, g2, g3, g4⟩ := good_bin (.inr (.inr (.inl rfl))) hb
    have := g2.2.2
    split at h
    · cases h
      exact acc_tail ⟨good_int _, g2, by dd⟩
    · cases h
      exact ⟨⟨ha, g2, by dd⟩, fun e he hd => acc_tail ⟨g1, he, by dd⟩⟩
  · rename_i p q g h1
    have := asBin_some h1; subst this
    obtain ⟨g1, g2, g3, g4⟩ := good_bin (.inr (.inr (.inl rfl))) hb
    have := g2.2.2
    split_ifs at h with hc
    · cases h
      have := isConst_dim hc
      exact ⟨⟨ha, g1, by dd⟩, fun e he hd => acc_tail ⟨he, g2, by dd⟩⟩
    · cases h
      exact ⟨⟨ha, g2, by dd⟩, fun e he hd => acc_tail ⟨g1, he, by dd⟩⟩
  · cases h

theorem mulConstL_acc (h : mulConstL a b = some p) : p.Acc R := by
  have pb := hb.2.2
  unfold mulConstL at h
  split at h
  · rename_i c f h1
    split_ifs at h with hc
    split at h
    · cases h
      have := asBin_some h1; subst this
      obtain ⟨g1, g2, g3, g4⟩ := good_bin (.inr (.inr (.inl rfl))) ha
      have := isConst_dim hc
      have := g2.2.2
      exact ⟨⟨g2, hb, by dd⟩, fun e he hd => acc_tail ⟨g1, he, by dd⟩⟩
    · cases h
      exact fine_bin (.inr (.inr (.inl rfl))) ha hb hd
  · cases h

theorem mulMinus_acc (h : mulMinus a b = some p) : p.Acc R := by
  unfold mulMinus at h
  split at h
  · rename_i f g h1 h2
    have := asUn_some h1; subst this
    have := asUn_some h2; subst this
    cases h
    exact acc_tail ⟨good_un ha, good_un hb, hd⟩
  · rename_i f h1 _
    have := asUn_some h1; subst this
    cases h
    exact ⟨⟨good_un ha, hb, hd⟩, fun e he _ => acc_tail he⟩
  · rename_i g _ h2
    have := asUn_some h2; subst this
    cases h
    exact ⟨⟨ha, good_un hb, hd⟩, fun e he _ => acc_tail he⟩
  · cases h

omit hb hd in
theorem mulSquare_acc (h : mulSquare a b = some p) : p.Acc R := by
  unfold mulSquare at h
  split_ifs at h
  cases h
  exact square_fine ha

theorem mulSumT_acc (h : mulSumT a b = some p) : p.Acc R := by
  unfold mulSumT at h
  split at h
  · rename_i g h1
    obtain ⟨d, rfl⟩ := asSumT_some h1
    obtain ⟨e1, e2⟩ := good_sumT hb
    split at h
    · rename_i f h2
      obtain ⟨d', rfl⟩ := asSumT_some h2
      obtain ⟨e3, e4⟩ := good_sumT ha
      split_ifs at h with h3
      · exfalso
        dd
      · cases h
        refine ⟨⟨good_un ha, good_un hb, by dd⟩, fun e he hd => sumT_fine he (by dd) e4⟩
    · split_ifs at h with h3 h4
      · cases h
        refine ⟨⟨ha, good_un hb, by dd⟩, fun e he hd => sumT_fine he (by dd) e2⟩
      · cases h
        exact acc_tail ⟨ha, good_un hb, by dd⟩
      · exfalso
        dd
  · split at h
    · cases h
      exact acc_tail ⟨hb, ha, by dd⟩
    · cases h

theorem mulExp_acc (h : mulExp a b = some p) : p.Acc R := by
  unfold mulExp at h
  split at h
  · rename_i f h1
    have := asUn_some h1; subst this
    split at h
    · rename_i g h2
      have := asUn_some h2; subst this
      cases h
      exact ⟨⟨good_un ha, good_un hb, hd⟩, fun e he _ => fine_un rfl (by simp) he.2.1⟩
    · split_ifs at h
      cases h
      exact acc_tail ⟨hb, ha, by dd⟩
  · cases h

theorem mulMulExpL_acc (h : mulMulExpL a b = some p) : p.Acc R := by
  have pb := hb.2.2
  unfold mulMulExpL at h
  split at h
  · rename_i u v h1
    have hfin := fine_bin (.inr (.inr (.inl rfl))) ha hb hd
    have := asBin_some h1; subst this
    obtain ⟨g1, g2, g3, g4⟩ := good_bin (.inr (.inr (.inl rfl))) ha
    have := g1.2.2
    have := g2.2.2
    split at h
    · rename_i x h2
      have := asUn_some h2; subst this
      split at h
      · rename_i y h3
        have := asUn_some h3; subst this
        cases h
        refine ⟨⟨good_un g2, good_un hb, by dd⟩, fun e he hd => acc_tail ⟨g1, ⟨⟨he.1, rfl, he.2.2, by simp⟩, ⟨by simp, he.2.1⟩, he.2.2⟩, by dd⟩⟩
      · split_ifs at h
        · cases h
          exact ⟨⟨g1, hb, by dd⟩, fun e he hd => acc_tail ⟨he, g2, by dd⟩⟩
        · cases h
          exact hfin
    · cases h
      exact hfin
  · cases h

theorem mulMulExpR_acc (h : mulMulExpR a b = some p) : p.Acc R := by
  have pa := ha.2.2
  unfold mulMulExpR at h
  split at h
  · rename_i u v h1
    have := asBin_some h1; subst this
    obtain ⟨g1, g2, g3, g4⟩ := good_bin (.inr (.inr (.inl rfl))) hb
    have := g1.2.2
    have := g2.2.2
    split at h
    · cases h
      exact ⟨⟨ha, g1, by dd⟩, fun e he hd => acc_tail ⟨he, g2, by dd⟩⟩
    · cases h
  · cases h

theorem stepMul_acc : (stepMul a b).Acc R := by
  unfold stepMul firstRule
  rcases h1 : mulZero a b with _ | p; swap
  · exact mulZero_acc ha hb hd h1
  rcases h2 : mulInt a b with _ | p; swap
  · exact mulInt_acc ha hb hd h2
  rcases h3 : mulSwapInt a b with _ | p; swap
  · exact mulSwapInt_acc ha hb hd h3
  rcases h4 : mulRat a b with _ | p; swap
  · exact mulRat_acc ha hb hd h4
  rcases h5 : mulConstR a b with _ | p; swap
  · exact mulConstR_acc ha hb hd h5
  rcases h6 : mulConstL a b with _ | p; swap
  · exact mulConstL_acc ha hb hd h6
  rcases h7 : mulMinus a b with _ | p; swap
  · exact mulMinus_acc ha hb hd h7
  rcases h8 : mulSquare a b with _ | p; swap
  · exact mulSquare_acc ha h8
  rcases h9 : mulSumT a b with _ | p; swap
  · exact mulSumT_acc ha hb hd h9
  rcases h10 : mulExp a b with _ | p; swap
  · exact mulExp_acc ha hb hd h10
  rcases h11 : mulMulExpL a b with _ | p; swap
  · exact mulMulExpL_acc ha hb hd h11
  rcases h12 : mulMulExpR a b with _ | p; swap
  · exact mulMulExpR_acc ha hb hd h12
  exact fine_bin (.inr (.inr (.inl rfl))) ha hb hd

end Mul

theorem stepMinus_acc {R : Bool} {a : Expr} (ha : Neat R a) : (stepMinus a).Acc R := by
  unfold stepMinus
  split
  · exact ha.2.1
  · exact (good_un ha).2.1
  · exact tidy_intCst _
  · obtain ⟨rfl, h1, h2⟩ := ha.2.1
    exact ratCst_fine h2
  · obtain ⟨g1, g2, g3, g4⟩ := good_bin (.inr (.inr (.inl rfl))) ha
    split_ifs with hc
    · have := isConst_dim hc
      exact ⟨g1, fun e he hd => acc_tail ⟨he, g2, by dd⟩⟩
    · exact fine_un rfl (by simp) ha.2.1
  · exact fine_un rfl (by simp) ha.2.1

theorem good_rat {R : Bool} {p q : Int} {r : Expr} (hR : R = true) (hq : q ≠ 0) (h : ratCst p q = .ok r) : Neat R r := by
  subst hR
  have h1 := ratCst_fine (a := p) hq
  rw [h] at h1
  have h2 := ratCst_dim h
  exact ⟨h2.1, h1, h2.1.pos⟩

theorem stepDiv_acc {R : Bool} {a b : Expr} (ha : Neat R a) (hb : Neat R b) (hd : Dims a.dim b.dim)
    (hz : b.asZero = none) (hc : R = false → b.isConst = false) : (stepDiv a b).Acc R := by
  have bnd : ∀ p q : Int, R = true → q ≠ 0 → ((ret (ratCst p q)).bind fun r => tail (.mul r a)).Acc R := by
    intro p q hR hq
    refine acc_bind (fun er he => ?_) fun e he => ?_
    · have := ratCst_fine (a := p) hq
      rw [he] at this
      exact ⟨hR, this.2⟩
    · have := (ratCst_dim he).2
      exact acc_tail ⟨good_rat hR hq he, ha, by dd⟩
  unfold stepDiv
  split
  · exact broadcast_fine ha hd
  · split
    · cases hz
    · refine bnd _ _ ?_ hb.2.1
      cases R
      · cases hc rfl
      · rfl
    · exact bnd _ _ hb.2.1.1 hb.2.1.2.1
    · exact fine_bin (.inr (.inr (.inr rfl))) ha hb hd

theorem scalFactor_acc {R : Bool} {a b : Expr} {p : Prog} (ha : Neat R a) (hb : Neat R b) (hd : Dims a.dim b.dim)
    (h : scalFactor a b = some p) : p.Acc R := by
  unfold scalFactor at h
  split at h
  · rename_i u v h1
    have := asBin_some h1; subst this
    obtain ⟨g1, g2, g3, g4⟩ := good_bin (.inr (.inr (.inl rfl))) ha
    have := g1.2.2
    have := g2.2.2
    split_ifs at h
    · cases h
      exact ⟨⟨g2, hb, by dd⟩, fun e he hd => acc_tail ⟨g1, he, by dd⟩⟩
    · cases h
      exact ⟨⟨g1, hb, by dd⟩, fun e he hd => acc_tail ⟨g2, he, by dd⟩⟩
  · cases h

theorem stepScalprod_acc {R : Bool} {a b : Expr} (ha : Neat R a) (hb : Neat R b) (hd : Dims a.dim b.dim) :
    (stepScalprod a b).Acc R := by
  unfold stepScalprod
  split_ifs with h1 h2 h3
  · exact ⟨hb, fun e he hd => acc_tail ⟨ha, he, by dd⟩⟩
  · exact ⟨ha, fun e he hd => acc_tail ⟨he, hb, by dd⟩⟩
  · have hf := square_fine ha
    refine acc_bind (fun er he => by rw [he] at hf; exact hf) fun e he => acc_tail ?_
    rw [he] at hf
    have := (square_ok ha.1 he).1
    exact ⟨this, hf, this.pos⟩
  · unfold firstRule
    rcases h4 : scalFactor a b with _ | p; swap
    · exact scalFactor_acc ha hb hd h4
    rcases h5 : scalFactor b a with _ | p; swap
    · exact scalFactor_acc hb ha (by dd) h5
    have : a.dim = b.dim := by dd
    change Regular R (mkBin .scalprod a b)
    rw [mkBin, if_pos (by simpa [Bin.accept] using this)]
    exact ⟨ha.2.1, hb.2.1⟩

theorem stepSum_acc {R : Bool} {a : Expr} (ha : Neat R a) : (stepSum a).Acc R := by
  unfold stepSum
  split_ifs with h1
  · exact ha.2.1
  · split
    · trivial
    · split
      · rename_i f g h2
        have := asBin_some h2; subst this
        obtain ⟨g1, g2, g3, g4⟩ := good_bin (.inr (.inr (.inl rfl))) ha
        split_ifs with h3 h4
        · exact ⟨g2, fun e he hd => acc_tail ⟨g1, he, by dd⟩⟩
        · exact ⟨g1, fun e he hd => acc_tail ⟨he, g2, by dd⟩⟩
        · exact acc_tail ⟨g1, g2, g3⟩
      · exact fine_un rfl (by simp) ha.2.1

theorem step_acc {R : Bool} {q : Req} (h : q.Ready R) : (step q).Acc R := by
  cases q with
  | add a b => exact stepAdd_acc h.1 h.2.1 h.2.2
  | sub a b => exact stepSub_acc h.1 h.2.1 h.2.2
  | mul a b => exact stepMul_acc h.1 h.2.1 h.2.2
  | minus a => exact stepMinus_acc h
  | div a b => exact stepDiv_acc h.1 h.2.1 h.2.2.1 h.2.2.2.1 h.2.2.2.2
  | scalprod a b => exact stepScalprod_acc h.1 h.2.1 h.2.2
  | sum a => exact stepSum_acc h

theorem build_fine {R : Bool} (n : Nat) : ∀ q : Req, q.Ready R → build n q = .error .fuel ∨ Regular R (build n q) := by
  induction n with
  | zero => exact fun _ _ => .inl rfl
  | succ n ih => exact fun q hq => acc_run (step_acc hq) ih

end Verif
