import Verif.Spec.PyFormula
import Verif.Proofs.Term
import Verif.Proofs.DiffT
import Verif.Spec.FormulaCode

/-!
# The formulas made by the operators
-/

namespace Verif

open Finset Spec

/-- The formula `e` is made by a term with the dimension and the values of `x`. -/
def PyF.AsTerm (n : Nat) (x : PyF) (e : Expr) : Prop :=
  ∃ t : Term, t.Pos ∧ t.compile n = .ok e ∧ t.dim = x.dim ∧ (∀ env, x.Def env → t.Def env ∧ t.val env = x.val env) ∧
    ∀ u ∈ t.vars, u ∈ x.vars

/-- What a value of Python says of the expression. -/
def PyF.Means (n : Nat) (x : PyF) : PyVal → Prop
  | .num m => x.dim = 1 ∧ ∀ env k, x.val env k = m
  | .op e => x.AsTerm n e

theorem PyF.Means.int2Op {n : Nat} {x : PyF} {v : PyVal} (h : x.Means n v) : x.AsTerm n (int2Op v) := by
  cases v with
  | num m =>
    refine ⟨.int m, trivial, rfl, h.1.symm, fun env _ => ⟨trivial, ?_⟩, fun u hu => by simp [Term.vars] at hu⟩
    funext k
    simp [Term.val, h.2 env k]
  | op e => exact h

theorem map_op {x : Except Err Expr} {v : PyVal} (h : (PyVal.op <$> x) = .ok v) : ∃ e, x = .ok e ∧ v = .op e := by
  cases x with
  | ok e =>
    cases h
    exact ⟨e, rfl, rfl⟩
  | error er => cases h

theorem asOp_ok {v : PyVal} {e : Expr} (h : asOp v = .ok e) : v = .op e := by
  cases v with
  | num m => cases h
  | op f =>
    cases h
    rfl

theorem AsTerm.bin {n : Nat} {x y z : PyF} {f g e : Expr} {o : Bin} (hx : x.AsTerm n f) (hy : y.AsTerm n g)
    (h : callBin n o f g = .ok e) (hd : o.dim x.dim y.dim = z.dim)
    (hv : ∀ env, z.Def env → x.Def env ∧ y.Def env ∧ binDef o x.dim y.dim (x.val env) (y.val env) ∧
      binVal o x.dim y.dim (x.val env) (y.val env) = z.val env)
    (hu : ∀ u, u ∈ x.vars ∨ u ∈ y.vars → u ∈ z.vars) : z.AsTerm n e := by
  obtain ⟨t, h1, h2, h3, h4, h5⟩ := hx
  obtain ⟨s, g1, g2, g3, g4, g5⟩ := hy
  refine ⟨.bin o t s, ⟨h1, g1⟩, ?_, ?_, fun env he => ?_, fun u h => hu u ?_⟩
  · simp only [Term.compile, h2, g2]
    exact h
  · rw [Term.dim, h3, g3, hd]
  · obtain ⟨v1, v2, v3, v4⟩ := hv env he
    obtain ⟨a1, a2⟩ := h4 env v1
    obtain ⟨b1, b2⟩ := g4 env v2
    simp only [Term.Def, Term.val, h3, g3, a2, b2]
    exact ⟨⟨a1, b1, v3⟩, v4⟩
  · rcases List.mem_append.mp h with h | h
    · exact .inl (h5 u h)
    · exact .inr (g5 u h)

theorem AsTerm.un {n : Nat} {x z : PyF} {f e : Expr} {o : Un} (hx : x.AsTerm n f) (h : callUn n o f = .ok e)
    (ho : 0 < o.dim 1) (hd : o.dim x.dim = z.dim)
    (hv : ∀ env, z.Def env → x.Def env ∧ unDef o x.dim (x.val env) ∧ unVal o x.dim (x.val env) = z.val env)
    (hu : x.vars = z.vars) : z.AsTerm n e := by
  obtain ⟨t, h1, h2, h3, h4, h5⟩ := hx
  refine ⟨.un o t, ⟨h1, ho⟩, ?_, ?_, fun env he => ?_, fun u h => hu ▸ h5 u h⟩
  · simp only [Term.compile, h2]
    exact h
  · rw [Term.dim, h3, hd]
  · obtain ⟨v1, v3, v4⟩ := hv env he
    obtain ⟨a1, a2⟩ := h4 env v1
    simp only [Term.Def, Term.val, h3, a2]
    exact ⟨⟨a1, v3⟩, v4⟩

theorem AsTerm.pos {n : Nat} {x : PyF} {f : Expr} (h : x.AsTerm n f) : 0 < x.dim := by
  obtain ⟨t, h1, h2, h3, -⟩ := h
  have := compile_rep h1 h2
  rw [← h3, ← this.dim]
  exact this.wf.pos

theorem means_arith {n : Nat} {o : PyArith} {x y : PyF} {v w r : PyVal} (hx : x.Means n v) (hy : y.Means n w)
    (h : pyArith n o v w = .ok r) : (PyF.arith o x y).Means n r := by
  have hx' := hx.int2Op
  have hy' := hy.int2Op
  have hbin : ∀ {b : Bin} {e : Expr}, callBin n b (int2Op v) (int2Op w) = .ok e → b.dim x.dim y.dim = (PyF.arith o x y).dim →
      (∀ env, (PyF.arith o x y).Def env → x.Def env ∧ y.Def env ∧ binDef b x.dim y.dim (x.val env) (y.val env) ∧
        binVal b x.dim y.dim (x.val env) (y.val env) = (PyF.arith o x y).val env) → (PyF.arith o x y).AsTerm n e :=
    fun h hd hv => AsTerm.bin hx' hy' h hd hv fun u hu => List.mem_append.mpr hu
  cases o with
  | add =>
    cases v with
    | num a =>
      cases w with
      | num b =>
        cases h
        exact ⟨by simp [PyF.dim, hx.1, hy.1], fun env k => by simp [PyF.val, hx.2, hy.2]⟩
      | op g =>
        obtain ⟨e, h1, rfl⟩ := map_op h
        exact hbin h1 rfl fun env he => ⟨he.1, he.2, trivial, rfl⟩
    | op f =>
      cases w <;>
      · obtain ⟨e, h1, rfl⟩ := map_op h
        exact hbin h1 rfl fun env he => ⟨he.1, he.2, trivial, rfl⟩
  | sub =>
    cases v with
    | num a =>
      cases w with
      | num b =>
        cases h
        exact ⟨by simp [PyF.dim, hx.1, hy.1], fun env k => by simp [PyF.val, hx.2, hy.2]⟩
      | op g =>
        obtain ⟨e, h1, rfl⟩ := map_op h
        exact hbin h1 rfl fun env he => ⟨he.1, he.2, trivial, rfl⟩
    | op f =>
      cases w <;>
      · obtain ⟨e, h1, rfl⟩ := map_op h
        exact hbin h1 rfl fun env he => ⟨he.1, he.2, trivial, rfl⟩
  | mul =>
    cases v with
    | num a =>
      cases w with
      | num b =>
        cases h
        exact ⟨by simp [PyF.dim, hx.1, hy.1], fun env k => by simp [PyF.val, hx.2, hy.2]⟩
      | op g =>
        obtain ⟨e, h1, rfl⟩ := map_op h
        exact hbin h1 rfl fun env he => ⟨he.1, he.2, trivial, rfl⟩
    | op f =>
      cases w <;>
      · obtain ⟨e, h1, rfl⟩ := map_op h
        exact hbin h1 rfl fun env he => ⟨he.1, he.2, trivial, rfl⟩
  | div =>
    cases v with
    | num a =>
      cases w with
      | num b => cases h
      | op g =>
        obtain ⟨e, h1, rfl⟩ := map_op h
        have hp := AsTerm.pos hy
        obtain ⟨s, g1, g2, g3, g4, g5⟩ := hy
        refine ⟨.rdiv a s, g1, ?_, ?_, fun env he => ?_, fun u h => List.mem_append_right _ (g5 u h)⟩
        · simp only [Term.compile, g2]
          exact h1
        · simp only [Term.dim, PyF.dim, g3, hx.1]
          omega
        · obtain ⟨d1, d2, d3⟩ := he
          obtain ⟨b1, b2⟩ := g4 env d2
          simp only [Term.Def, Term.val, g3, b2]
          refine ⟨⟨b1, fun k hk => d3 k (by omega)⟩, ?_⟩
          funext k
          simp [PyF.val, hx.2]
    | op f =>
      cases w <;>
      · obtain ⟨e, h1, rfl⟩ := map_op h
        exact hbin h1 rfl fun env he => ⟨he.1, he.2.1, he.2.2, rfl⟩
  | or =>
    cases v with
    | num a => cases w <;> cases h
    | op f =>
      cases w with
      | num b => cases h
      | op g =>
        obtain ⟨e, h1, rfl⟩ := map_op h
        exact hbin h1 rfl fun env he => ⟨he.1, he.2, trivial, rfl⟩
  | pow =>
    cases w with
    | op g => cases v <;> cases h
    | num b =>
      cases v with
      | num a =>
        simp only [pyArith] at h
        split at h
        · rename_i hb
          cases h
          refine ⟨hx.1, fun env k => ?_⟩
          simp only [PyF.val, hx.2, hy.2]
          rw [Real.rpow_intCast]
          push_cast
          conv_lhs => rw [← Int.toNat_of_nonneg hb]
          rw [zpow_natCast]
        · cases h
      | op f =>
        obtain ⟨e, h1, rfl⟩ := map_op h
        obtain ⟨t, g1, g2, g3, g4, g5⟩ := hx
        refine ⟨.rpow t b, g1, ?_, g3, fun env he => ?_, fun u h => List.mem_append_left _ (g5 u h)⟩
        · simp only [Term.compile, g2]
          exact h1
        · obtain ⟨d1, d2, d3⟩ := he
          obtain ⟨b1, b2⟩ := g4 env d1
          simp only [Term.Def, Term.val, g3, b2]
          refine ⟨⟨b1, fun k hk hb => d3 k hk ?_⟩, ?_⟩
          · rw [hy.2]
            exact_mod_cast hb
          · funext k
            simp only [PyF.val, hy.2]
            rw [Real.rpow_intCast]

theorem ind_congr {p q : Prop} [Decidable p] [Decidable q] (h : p ↔ q) : ind p = ind q := by
  unfold ind
  by_cases hp : p
  · rw [if_pos hp, if_pos (h.mp hp)]
  · rw [if_neg hp, if_neg (fun hq => hp (h.mpr hq))]

theorem means_cmp {n : Nat} {c : PyCmp} {x y : PyF} {v w r : PyVal} (hc : c ≠ .eq ∧ c ≠ .ne) (hx : x.Means n v)
    (hy : y.Means n w) (h : pyCmp c v w = .ok r) : (PyF.cmp c x y).Means n r := by
  have hx' := hx.int2Op
  have hy' := hy.int2Op
  have key : (∃ a b, v = .num a ∧ w = .num b) ∨ (match c with
      | .lt => PyVal.op <$> mkBin .lessThan (int2Op v) (int2Op w)
      | .gt => .op <$> mkBin .lessThan (int2Op w) (int2Op v)
      | .le => .op <$> mkBin .lessOrEqual (int2Op v) (int2Op w)
      | .ge => .op <$> mkBin .lessOrEqual (int2Op w) (int2Op v)
      | _ => .ok r) = .ok r := by
    cases v with
    | num a =>
      cases w with
      | num b => exact .inl ⟨a, b, rfl, rfl⟩
      | op g => cases c <;> first | exact .inr h | exact .inr rfl
    | op f => cases c <;> first | exact .inr h | exact .inr rfl
  rcases key with ⟨a, b, rfl, rfl⟩ | h
  · cases h
    refine ⟨by simp [PyF.dim, hx.1, hy.1], fun env k => ?_⟩
    simp only [PyF.val, hx.2, hy.2]
    cases c <;> simp [PyCmp.Holds, intCmp, ind, Int.cast_ite]
  · cases c with
    | eq => exact absurd rfl hc.1
    | ne => exact absurd rfl hc.2
    | lt =>
      obtain ⟨e, h1, rfl⟩ := map_op h
      exact AsTerm.bin (o := .lessThan) hx' hy' h1 rfl (fun env he => ⟨he.1, he.2, trivial, funext fun k => ind_congr Iff.rfl⟩)
        fun u hu => List.mem_append.mpr hu
    | le =>
      obtain ⟨e, h1, rfl⟩ := map_op h
      exact AsTerm.bin (o := .lessOrEqual) hx' hy' h1 rfl (fun env he =>
        ⟨he.1, he.2, trivial, funext fun k => ind_congr Iff.rfl⟩)
        fun u hu => List.mem_append.mpr hu
    | gt =>
      obtain ⟨e, h1, rfl⟩ := map_op h
      exact AsTerm.bin (o := .lessThan) hy' hx' h1 (Nat.max_comm _ _) (fun env he =>
        ⟨he.2, he.1, trivial, funext fun k => ind_congr Iff.rfl⟩)
        fun u hu => List.mem_append.mpr hu.symm
    | ge =>
      obtain ⟨e, h1, rfl⟩ := map_op h
      exact AsTerm.bin (o := .lessOrEqual) hy' hx' h1 (Nat.max_comm _ _) (fun env he =>
        ⟨he.2, he.1, trivial, funext fun k => ind_congr Iff.rfl⟩)
        fun u hu => List.mem_append.mpr hu.symm

theorem mem2 {α : Type} {a b a' b' : List α} (ha : ∀ u ∈ a, u ∈ a') (hb : ∀ u ∈ b, u ∈ b') :
    ∀ u ∈ a ++ b, u ∈ a' ++ b' := fun u h => by
  rcases List.mem_append.mp h with h | h
  · exact List.mem_append_left _ (ha u h)
  · exact List.mem_append_right _ (hb u h)

theorem mem3 {α : Type} {a b c a' b' c' : List α} (ha : ∀ u ∈ a, u ∈ a') (hb : ∀ u ∈ b, u ∈ b') (hc : ∀ u ∈ c, u ∈ c') :
    ∀ u ∈ a ++ (b ++ c), u ∈ a' ++ (b' ++ c') := mem2 ha (mem2 hb hc)

/-- The term of a function of one formula. -/
def PyFun1.term : PyFun1 → Term → Term
  | .sqNorm2 => .sqNorm2
  | .norm2 => .norm2
  | .normalize => .normalize

/-- The term of a function of two formulas. -/
def PyFun2.term : PyFun2 → Term → Term → Term
  | .sqDist => .sqDist
  | .sqNormIso => .sqNormIso
  | .sqNormDiag => .sqNormDiag
  | .symSqNorm => .symSqNorm
  | .weightedSqNorm => .weightedSqNorm

/-- The value of Python represents the expression. -/
theorem eval_means {n : Nat} {x : PyF} (hp : x.Pos) (hx : x.Plain) {v : PyVal} (h : x.eval n = .ok v) : x.Means n v := by
  induction x generalizing v with
  | int m =>
    cases h
    exact ⟨rfl, fun _ _ => rfl⟩
  | var i d c =>
    cases h
    exact ⟨.var i d c, hp, rfl, rfl, fun _ _ => ⟨trivial, rfl⟩, fun u h => h⟩
  | intCst m =>
    cases h
    exact ⟨.int m, trivial, rfl, rfl, fun _ _ => ⟨trivial, rfl⟩, fun u h => h⟩
  | ratCst p q =>
    obtain ⟨e, h1, rfl⟩ := map_op h
    exact ⟨.rat p q, trivial, h1, rfl, fun _ hd => ⟨hd, rfl⟩, fun u h => h⟩
  | zero d =>
    cases h
    exact ⟨.zero d, hp, rfl, rfl, fun _ _ => ⟨trivial, rfl⟩, fun u h => h⟩
  | call1 o x ih =>
    obtain ⟨v1, h1, h⟩ := bind_ok' h
    obtain ⟨f, h2, h⟩ := bind_ok' h
    obtain ⟨e, h3, rfl⟩ := map_op h
    have := asOp_ok h2
    subst this
    exact AsTerm.un (ih hp.1 hx h1) h3 hp.2 rfl (fun env he => ⟨he.1, he.2, rfl⟩) rfl
  | call2 o x y ihx ihy =>
    obtain ⟨v1, h1, h⟩ := bind_ok' h
    obtain ⟨w1, g1, h⟩ := bind_ok' h
    obtain ⟨f, h2, h⟩ := bind_ok' h
    obtain ⟨g, g2, h⟩ := bind_ok' h
    obtain ⟨e, h3, rfl⟩ := map_op h
    have := asOp_ok h2
    subst this
    have := asOp_ok g2
    subst this
    exact AsTerm.bin (ihx hp.1 hx.1 h1) (ihy hp.2 hx.2 g1) h3 rfl (fun env he => ⟨he.1, he.2.1, he.2.2, rfl⟩)
      fun u hu => List.mem_append.mpr hu
  | call3 o x y z ihx ihy ihz =>
    obtain ⟨v1, h1, h⟩ := bind_ok' h
    obtain ⟨w1, g1, h⟩ := bind_ok' h
    obtain ⟨u1, k1, h⟩ := bind_ok' h
    obtain ⟨f, h2, h⟩ := bind_ok' h
    obtain ⟨g, g2, h⟩ := bind_ok' h
    obtain ⟨k, k2, h⟩ := bind_ok' h
    obtain ⟨e, h3, rfl⟩ := map_op h
    have := asOp_ok h2
    subst this
    have := asOp_ok g2
    subst this
    have := asOp_ok k2
    subst this
    obtain ⟨t, a1, a2, a3, a4, a5⟩ := ihx hp.1 hx.1 h1
    obtain ⟨s, b1, b2, b3, b4, b5⟩ := ihy hp.2.1 hx.2.1 g1
    obtain ⟨u, c1, c2, c3, c4, c5⟩ := ihz hp.2.2 hx.2.2 k1
    refine ⟨.tern o t s u, ⟨a1, b1, c1⟩, ?_, ?_, fun env he => ?_, mem3 a5 b5 c5⟩
    · simp only [Term.compile, a2, b2, c2]
      exact h3
    · simp only [Term.dim, PyF.dim, a3, b3, c3]
    · obtain ⟨d1, d2, d3, d4⟩ := he
      obtain ⟨p1, p2⟩ := a4 env d1
      obtain ⟨q1, q2⟩ := b4 env d2
      obtain ⟨r1, r2⟩ := c4 env d3
      simp only [Term.Def, Term.val, a3, b3, c3, p2, q2, r2]
      exact ⟨⟨p1, q1, r1, d4⟩, rfl⟩
  | fun1 o x ih =>
    obtain ⟨v1, h1, h⟩ := bind_ok' h
    obtain ⟨f, h2, h⟩ := bind_ok' h
    obtain ⟨e, h3, rfl⟩ := map_op h
    have := asOp_ok h2
    subst this
    obtain ⟨t, a1, a2, a3, a4, a5⟩ := ih hp hx h1
    refine ⟨o.term t, ?_, ?_, ?_, fun env he => ?_, ?_⟩
    · cases o <;> exact a1
    · cases o <;> (simp only [PyFun1.term, Term.compile, a2]; exact h3)
    · cases o <;> first | rfl | exact a3
    · obtain ⟨p1, p2⟩ := a4 env he
      cases o <;> (simp only [PyFun1.term, Term.Def, Term.val, a3, p2]; exact ⟨p1, rfl⟩)
    · cases o <;> exact a5
  | fun2 o x y ihx ihy =>
    obtain ⟨v1, h1, h⟩ := bind_ok' h
    obtain ⟨w1, g1, h⟩ := bind_ok' h
    obtain ⟨f, h2, h⟩ := bind_ok' h
    obtain ⟨g, g2, h⟩ := bind_ok' h
    obtain ⟨e, h3, rfl⟩ := map_op h
    have := asOp_ok h2
    subst this
    have := asOp_ok g2
    subst this
    obtain ⟨t, a1, a2, a3, a4, a5⟩ := ihx hp.1 hx.1 h1
    obtain ⟨s, b1, b2, b3, b4, b5⟩ := ihy hp.2 hx.2 g1
    refine ⟨o.term t s, ?_, ?_, ?_, fun env he => ?_, ?_⟩
    · cases o <;> exact ⟨a1, b1⟩
    · cases o <;> (simp only [PyFun2.term, Term.compile, a2, b2]; exact h3)
    · cases o <;> first | rfl | exact a3
    · obtain ⟨p1, p2⟩ := a4 env he.1
      obtain ⟨q1, q2⟩ := b4 env he.2
      cases o <;> (simp only [PyFun2.term, Term.Def, Term.val, a3, b3, p2, q2]; exact ⟨⟨p1, q1⟩, rfl⟩)
    · cases o <;> exact mem2 a5 b5
  | weightedSqDist s x y ihs ihx ihy =>
    obtain ⟨u1, k1, h⟩ := bind_ok' h
    obtain ⟨v1, h1, h⟩ := bind_ok' h
    obtain ⟨w1, g1, h⟩ := bind_ok' h
    obtain ⟨k, k2, h⟩ := bind_ok' h
    obtain ⟨f, h2, h⟩ := bind_ok' h
    obtain ⟨g, g2, h⟩ := bind_ok' h
    obtain ⟨d, h4, h⟩ := bind_ok' h
    obtain ⟨e, h3, rfl⟩ := map_op h
    have := asOp_ok h2
    subst this
    have := asOp_ok g2
    subst this
    have := asOp_ok k2
    subst this
    obtain ⟨u, c1, c2, c3, c4, c5⟩ := ihs hp.1 hx.1 k1
    obtain ⟨t, a1, a2, a3, a4, a5⟩ := ihx hp.2.1 hx.2.1 h1
    obtain ⟨s', b1, b2, b3, b4, b5⟩ := ihy hp.2.2 hx.2.2 g1
    refine ⟨.weightedSqDist u t s', ⟨c1, a1, b1⟩, ?_, rfl, fun env he => ?_, mem3 c5 a5 b5⟩
    · simp only [Term.compile, a2, b2, c2]
      show (build n (.sub f g) >>= fun d => mkWeightedSqNorm n k d) = .ok e
      rw [h4]
      exact h3
    · obtain ⟨d3, d1, d2⟩ := he
      obtain ⟨p1, p2⟩ := a4 env d1
      obtain ⟨q1, q2⟩ := b4 env d2
      obtain ⟨r1, r2⟩ := c4 env d3
      simp only [Term.Def, Term.val, a3, b3, c3, p2, q2, r2]
      exact ⟨⟨r1, p1, q1⟩, rfl⟩
  | neg x ih =>
    obtain ⟨v1, h1, h⟩ := bind_ok' h
    have hm := ih hp hx h1
    cases v1 with
    | num a =>
      cases h
      exact ⟨hm.1, fun env k => by simp [PyF.val, hm.2]⟩
    | op f =>
      obtain ⟨e, h3, rfl⟩ := map_op h
      exact AsTerm.un (o := .minus) hm h3 (by simp [Un.dim]) rfl (fun env he => ⟨he, trivial, rfl⟩) rfl
  | arith o x y ihx ihy =>
    obtain ⟨v1, h1, h⟩ := bind_ok' h
    obtain ⟨w1, g1, h⟩ := bind_ok' h
    exact means_arith (ihx hp.1 hx.1 h1) (ihy hp.2 hx.2 g1) h
  | cmp c x y ihx ihy =>
    obtain ⟨v1, h1, h⟩ := bind_ok' h
    obtain ⟨w1, g1, h⟩ := bind_ok' h
    exact means_cmp ⟨hx.1, hx.2.1⟩ (ihx hp.1 hx.2.2.1 h1) (ihy hp.2 hx.2.2.2 g1) h
  | chain x c y d z => exact hx.elim

end Verif
