import Verif.Proofs.Simplify
import Verif.Model.Linear
import Verif.Spec.Linear

/-!
# Degree of a formula in a variable, and nesting of sums

Both are bounded through simplification.
-/

namespace Verif

open Prog

/-- Bounds for the result of a call. -/
def Req.deg (w : Mark) : Req → Nat
  | .add a b | .sub a b => max (a.deg w) (b.deg w)
  | .mul a b | .scalprod a b => a.deg w + b.deg w
  | .minus a | .sum a => a.deg w
  | .div a b => a.deg w + 2 * b.deg w

/-- Bounds for the result of a call. -/
def Req.dep (w : Mark) : Req → Nat
  | .add a b | .sub a b | .mul a b | .div a b => max (a.dep w) (b.dep w)
  | .scalprod a b => max (a.dep w) (b.dep w) + min (max (a.dep w) (b.dep w)) 1
  | .minus a => (a.dep w)
  | .sum a => a.dep w + min (a.dep w) 1

/-- The bounds. -/
def Le (w : Mark) (q : Req) (e : Expr) : Prop := e.deg w ≤ q.deg w ∧ (e.dep w) ≤ (q.dep w)

/-- If the calls satisfy the bounds, then so does the result. -/
def Prog.Le (w : Mark) (q : Req) : Prog → Prop
  | .ret (.ok e) => Verif.Le w q e
  | .ret (.error _) => True
  | .call q' k => ∀ e, Verif.Le w q' e → (k e).Le w q

theorem asZero_iff {e : Expr} {d} : e.asZero = some d ↔ e = .zero d :=
  ⟨asZero_some, fun h => h ▸ rfl⟩

theorem asInt_iff {e : Expr} {d} : e.asInt = some d ↔ e = .int d :=
  ⟨asInt_some, fun h => h ▸ rfl⟩

theorem asRat_iff {e : Expr} {p q} : e.asRat = some (p, q) ↔ e = .rat p q :=
  ⟨asRat_some, fun h => h ▸ rfl⟩

theorem asBin_iff {o : Bin} {e f g : Expr} : e.asBin o = some (f, g) ↔ e = .bin o f g :=
  ⟨asBin_some, fun h => by simp [h, Expr.asBin]⟩

theorem asUn_iff {o : Un} {e f : Expr} : e.asUn o = some f ↔ e = .un o f :=
  ⟨asUn_some, fun h => by simp [h, Expr.asUn]⟩

theorem asSumT_iff {e f : Expr} : e.asSumT = some f ↔ ∃ d, e = .un (.sumT d) f :=
  ⟨asSumT_some, fun ⟨_, h⟩ => h ▸ rfl⟩

section

variable {w : Mark}

theorem intCst_deg (n : Int) : (intCst n).deg w = 0 := by
  unfold intCst; split_ifs <;> rfl

theorem intCst_dep (n : Int) : (intCst n).dep w = 0 := by
  unfold intCst; split_ifs <;> rfl

theorem ratCst_deg {p q : Int} {r : Expr} (h : ratCst p q = .ok r) : r.deg w = 0 ∧ (r.dep w) = 0 := by
  unfold ratCst at h
  simp only at h
  split_ifs at h <;> cases h <;> first
    | exact ⟨rfl, rfl⟩
    | exact ⟨intCst_deg _, intCst_dep _⟩

theorem sumT_deg {a r : Expr} {d : Nat} (h : sumT a d = .ok r) : r.deg w ≤ a.deg w ∧ (r.dep w) ≤ (a.dep w) := by
  unfold sumT at h
  split_ifs at h
  split at h <;> cases h
  · exact ⟨Nat.zero_le _, Nat.zero_le _⟩
  · exact ⟨le_refl _, le_refl _⟩

theorem broadcast_deg {a r : Expr} {d : Nat} (h : broadcast a d = .ok r) :
    r.deg w ≤ a.deg w ∧ (r.dep w) ≤ (a.dep w) := by
  unfold broadcast at h
  split_ifs at h
  · cases h; exact ⟨le_refl _, le_refl _⟩
  · exact sumT_deg h

theorem square_deg {a r : Expr} (h : square a = .ok r) : r.deg w ≤ 2 * a.deg w ∧ (r.dep w) ≤ (a.dep w) := by
  unfold square at h
  split at h
  · cases h; exact ⟨by omega, le_refl _⟩
  · obtain ⟨rfl, -⟩ := mkUn_ok h
    exact ⟨le_refl _, le_refl _⟩

theorem mkUn_deg {o : Un} {a r : Expr} (h : mkUn o a = .ok r) : r.deg w = (Expr.un o a).deg w ∧
    (r.dep w) = (Expr.un o a).dep w := by
  obtain ⟨rfl, -⟩ := mkUn_ok h
  exact ⟨rfl, rfl⟩

theorem mkBin_deg {o : Bin} {a b r : Expr} (h : mkBin o a b = .ok r) :
    r.deg w = (Expr.bin o a b).deg w ∧ (r.dep w) = (Expr.bin o a b).dep w := by
  obtain ⟨rfl, -⟩ := mkBin_ok h
  exact ⟨rfl, rfl⟩

theorem le_ret {q : Req} {x : Except Err Expr} (h : ∀ r, x = .ok r → Le w q r) :
    (Prog.ret x).Le w q := by
  cases x with
  | ok e => exact h e rfl
  | error => trivial

theorem le_bind {q : Req} {x : Except Err Expr} {f : Expr → Prog} (h : ∀ r, x = .ok r → (f r).Le w q) :
    ((Prog.ret x).bind f).Le w q := by
  cases x with
  | ok e => exact h e rfl
  | error => trivial

theorem le_rules {q : Req} {l : List (Option Prog)} {x : Except Err Expr}
    (h : ∀ p, some p ∈ l → p.Le w q) (hx : ∀ r, x = .ok r → Le w q r) : (firstRule l x).Le w q := by
  unfold firstRule
  cases hf : l.findSome? id with
  | none => exact le_ret hx
  | some p =>
    obtain ⟨o, ho, hp⟩ := List.exists_of_findSome?_eq_some hf
    simp only [id] at hp
    subst hp
    exact h p ho

/-- Computation of the bounds. -/
macro "dg" : tactic => `(tactic| (
  simp only [Verif.Le, Prog.Le, Req.deg, Req.dep, Expr.deg, Expr.dep, Un.linear, intCst_deg, intCst_dep, if_true,
    Bool.false_eq_true, if_false] at * <;> omega))

set_option hygiene false in
/-- One rule. -/
macro "rl" : tactic => `(tactic| (
  (repeat' split at h) <;>
  first
  | contradiction
  | (simp only [Option.some.injEq] at h
     subst h
     try simp only [asZero_iff, asInt_iff, asRat_iff, asBin_iff, asUn_iff, asSumT_iff] at *
     try subst_vars
     first
     | exact trivial
     | (refine le_ret fun r hr => ?_
        first
        | (have := broadcast_deg (w := w) hr; dg)
        | (have := ratCst_deg (w := w) hr; dg)
        | (have := square_deg (w := w) hr; dg)
        | (have := mkBin_deg (w := w) hr; dg)
        | (cases hr; dg))
     | (intro e he; dg)
     | (intro e he e' he'; dg)
     | (intro e he
        refine le_ret fun r hr => ?_
        have := mkUn_deg (w := w) hr; dg)
     | (intro e he
        refine le_bind fun r hr => ?_
        have := mkUn_deg (w := w) hr
        intro e' he'; dg)
     | (refine le_bind fun r hr => ?_
        have := broadcast_deg (w := w) hr
        intro e' he'; dg))))

variable {a b : Expr} {p : Prog}

theorem addZero_le (h : addZero a b = some p) : p.Le w (.add a b) := by
  unfold addZero at h; rl

theorem addConst_le (h : addConst a b = some p) : p.Le w (.add a b) := by
  unfold addConst at h; rl

theorem addGatherL_le (h : addGatherL a b = some p) : p.Le w (.add a b) := by
  unfold addGatherL at h; rl

theorem addGatherR_le (h : addGatherR a b = some p) : p.Le w (.add a b) := by
  unfold addGatherR at h; rl

theorem addFactor_le (h : addFactor a b = some p) : p.Le w (.add a b) := by
  unfold addFactor at h; rl

theorem addMultiple_le (h : addMultiple a b = some p) : p.Le w (.add a b) := by
  unfold addMultiple addMultiple.other at h; rl

theorem addMinus_le (h : addMinus a b = some p) : p.Le w (.add a b) := by
  unfold addMinus at h; rl

theorem subZero_le (h : subZero a b = some p) : p.Le w (.sub a b) := by
  unfold subZero at h; rl

theorem subConst_le (h : subConst a b = some p) : p.Le w (.sub a b) := by
  unfold subConst at h; rl

theorem subGatherL_le (h : subGatherL a b = some p) : p.Le w (.sub a b) := by
  unfold subGatherL at h; rl

theorem subGatherR_le (h : subGatherR a b = some p) : p.Le w (.sub a b) := by
  unfold subGatherR at h; rl

theorem subFactor_le (h : subFactor a b = some p) : p.Le w (.sub a b) := by
  unfold subFactor at h; rl

theorem subMultiple_le (h : subMultiple a b = some p) : p.Le w (.sub a b) := by
  unfold subMultiple subMultiple.other at h; rl

theorem mulZero_le (h : mulZero a b = some p) : p.Le w (.mul a b) := by
  unfold mulZero at h; rl

theorem mulInt_le (h : mulInt a b = some p) : p.Le w (.mul a b) := by
  unfold mulInt at h; rl

theorem mulSwapInt_le (h : mulSwapInt a b = some p) : p.Le w (.mul a b) := by
  unfold mulSwapInt at h; rl

theorem mulRat_le (h : mulRat a b = some p) : p.Le w (.mul a b) := by
  unfold mulRat at h; rl

theorem mulConstR_le (h : mulConstR a b = some p) : p.Le w (.mul a b) := by
  unfold mulConstR at h; rl

theorem mulConstL_le (h : mulConstL a b = some p) : p.Le w (.mul a b) := by
  unfold mulConstL at h; rl

theorem mulMinus_le (h : mulMinus a b = some p) : p.Le w (.mul a b) := by
  unfold mulMinus at h; rl

theorem mulSquare_le (h : mulSquare a b = some p) : p.Le w (.mul a b) := by
  unfold mulSquare at h; rl

theorem mulSumT_le (h : mulSumT a b = some p) : p.Le w (.mul a b) := by
  unfold mulSumT at h
  have key : ∀ {e f : Expr}, e.asSumT = some f → e.deg w = f.deg w ∧ (e.dep w) = (f.dep w) := by
    intro e f h
    obtain ⟨d, rfl⟩ := asSumT_some h
    exact ⟨rfl, rfl⟩
  (repeat' split at h) <;> first
    | contradiction
    | cases h
  · trivial
  · rename_i h1 _ _ h2 _
    have := key h1
    have := key h2
    intro e he
    refine le_ret fun r hr => ?_
    have := sumT_deg (w := w) hr; dg
  · rename_i h1 _ _ _
    have := key h1
    intro e he
    refine le_ret fun r hr => ?_
    have := sumT_deg (w := w) hr; dg
  · rename_i h1 _ _ _ _
    have := key h1
    intro e he; dg
  · trivial
  · intro e he; dg

theorem mulExp_le (h : mulExp a b = some p) : p.Le w (.mul a b) := by
  unfold mulExp at h; rl

theorem mulMulExpL_le (h : mulMulExpL a b = some p) : p.Le w (.mul a b) := by
  unfold mulMulExpL at h; rl

theorem mulMulExpR_le (h : mulMulExpR a b = some p) : p.Le w (.mul a b) := by
  unfold mulMulExpR at h; rl

theorem scalFactor_le (h : scalFactor a b = some p) : p.Le w (.scalprod a b) := by
  unfold scalFactor at h; rl

theorem step_le (q : Req) : (step q).Le w q := by
  cases q with
  | add a b =>
    refine le_rules (fun p hp => ?_) fun r hr => ?_
    · simp only [List.mem_cons, List.not_mem_nil, or_false] at hp
      rcases hp with h | h | h | h | h | h | h
      · exact addZero_le h.symm
      · exact addConst_le h.symm
      · exact addGatherL_le h.symm
      · exact addGatherR_le h.symm
      · exact addFactor_le h.symm
      · exact addMultiple_le h.symm
      · exact addMinus_le h.symm
    · have := mkBin_deg (w := w) hr; dg
  | sub a b =>
    refine le_rules (fun p hp => ?_) fun r hr => ?_
    · simp only [List.mem_cons, List.not_mem_nil, or_false] at hp
      rcases hp with h | h | h | h | h | h
      · exact subZero_le h.symm
      · exact subConst_le h.symm
      · exact subGatherL_le h.symm
      · exact subGatherR_le h.symm
      · exact subFactor_le h.symm
      · exact subMultiple_le h.symm
    · have := mkBin_deg (w := w) hr; dg
  | mul a b =>
    refine le_rules (fun p hp => ?_) fun r hr => ?_
    · simp only [List.mem_cons, List.not_mem_nil, or_false] at hp
      rcases hp with h | h | h | h | h | h | h | h | h | h | h | h
      · exact mulZero_le h.symm
      · exact mulInt_le h.symm
      · exact mulSwapInt_le h.symm
      · exact mulRat_le h.symm
      · exact mulConstR_le h.symm
      · exact mulConstL_le h.symm
      · exact mulMinus_le h.symm
      · exact mulSquare_le h.symm
      · exact mulSumT_le h.symm
      · exact mulExp_le h.symm
      · exact mulMulExpL_le h.symm
      · exact mulMulExpR_le h.symm
    · have := mkBin_deg (w := w) hr; dg
  | minus a =>
    show (stepMinus a).Le w _
    unfold stepMinus
    split
    · dg
    · dg
    · dg
    · refine le_ret fun r hr => ?_
      have := ratCst_deg (w := w) hr; dg
    · split
      · intro e he e' he'; dg
      · refine le_ret fun r hr => ?_
        have := mkUn_deg (w := w) hr; dg
    · refine le_ret fun r hr => ?_
      have := mkUn_deg (w := w) hr; dg
  | div a b =>
    show (stepDiv a b).Le w _
    unfold stepDiv
    split
    · refine le_ret fun r hr => ?_
      have := broadcast_deg (w := w) hr; dg
    · split
      · trivial
      · refine le_bind fun r hr => ?_
        have := ratCst_deg (w := w) hr
        intro e he; dg
      · refine le_bind fun r hr => ?_
        have := ratCst_deg (w := w) hr
        intro e he; dg
      · refine le_ret fun r hr => ?_
        have := mkBin_deg (w := w) hr; dg
  | scalprod a b =>
    show (stepScalprod a b).Le w _
    unfold stepScalprod
    split_ifs with h1 h2 h3
    · intro e he e' he'; dg
    · intro e he e' he'; dg
    · subst h3
      refine le_bind fun r hr => ?_
      have := square_deg (w := w) hr
      intro e he; dg
    · refine le_rules (fun p hp => ?_) fun r hr => ?_
      · simp only [List.mem_cons, List.not_mem_nil, or_false] at hp
        rcases hp with h | h
        · exact scalFactor_le h.symm
        · have := scalFactor_le (w := w) h.symm
          have e : ∀ p : Prog, p.Le w (.scalprod b a) → p.Le w (.scalprod a b) := by
            intro p
            induction p with
            | ret x =>
              cases x with
              | ok e => intro h; dg
              | error => exact id
            | call q k ih => exact fun h e he => ih e (h e he)
          exact e p this
      · have := mkBin_deg (w := w) hr; dg
  | sum a =>
    show (stepSum a).Le w _
    unfold stepSum
    split_ifs
    · dg
    · split
      · dg
      · split
        · rename_i f g h
          have := asBin_some h; subst this
          split_ifs
          · intro e he e' he'; dg
          · intro e he e' he'; dg
          · intro e he; dg
        · refine le_ret fun r hr => ?_
          have := mkUn_deg (w := w) hr; dg

/-- Simplification does not increase the degree and the nesting of sums. -/
theorem build_le {n : Nat} {q : Req} {r : Expr} (h : build n q = .ok r) : Le w q r := by
  induction n generalizing q r with
  | zero => cases h
  | succ n ih =>
    have key : ∀ p : Prog, p.Le w q → ∀ r, p.run (build n) = .ok r → Le w q r := by
      intro p
      induction p with
      | ret x => rintro hp r rfl; exact hp
      | call q' k ihk =>
        intro hp r hr
        unfold Prog.run at hr
        split at hr
        · rename_i e he
          exact ihk e (hp e (ih he)) r hr
        · cases hr
    exact key _ (step_le q) r h

end

end Verif
