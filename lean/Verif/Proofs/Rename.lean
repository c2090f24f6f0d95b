import Verif.Spec.Rename
import Verif.Proofs.DiffDeg

/-!
# Renumbering commutes with the constructors and with the gradients
-/

namespace Verif

open Spec Prog

variable {ρ : Int × Int → Int × Int}

theorem Expr.dim_rename (e : Expr) : (e.rename ρ).dim = e.dim := by
  induction e <;> simp_all [Expr.rename, Expr.dim]

theorem Expr.rename_inj (hρ : Function.Injective ρ) {e e' : Expr} : e.rename ρ = e'.rename ρ ↔ e = e' := by
  constructor
  · induction e generalizing e' with
    | var i d c =>
      cases e' <;> simp only [Expr.rename, Expr.var.injEq, reduceCtorEq, false_imp_iff]
      rintro ⟨h, rfl, h'⟩
      have := hρ (Prod.ext h h')
      simp_all
    | fact i d c f g h1 h2 =>
      cases e' <;> simp only [Expr.rename, Expr.fact.injEq, reduceCtorEq, false_imp_iff]
      rintro ⟨h, rfl, h', h3, h4⟩
      have := hρ (Prod.ext h h')
      have := h1 h3
      have := h2 h4
      simp_all
    | _ => cases e' <;> simp_all [Expr.rename] <;> grind
  · rintro rfl; rfl

section

variable (e : Expr)

theorem asZero_rename : (e.rename ρ).asZero = e.asZero := by cases e <;> rfl

theorem asInt_rename : (e.rename ρ).asInt = e.asInt := by cases e <;> rfl

theorem asRat_rename : (e.rename ρ).asRat = e.asRat := by cases e <;> rfl

theorem isConst_rename : (e.rename ρ).isConst = e.isConst := by cases e <;> rfl

theorem asBin_rename (o : Bin) :
    (e.rename ρ).asBin o = (e.asBin o).map (fun p => (p.1.rename ρ, p.2.rename ρ)) := by
  cases e <;> simp only [Expr.rename, Expr.asBin, Option.map_none]
  split <;> rfl

theorem asUn_rename (o : Un) : (e.rename ρ).asUn o = (e.asUn o).map (Expr.rename ρ) := by
  cases e <;> simp only [Expr.rename, Expr.asUn, Option.map_none]
  split <;> rfl

theorem asSumT_rename : (e.rename ρ).asSumT = e.asSumT.map (Expr.rename ρ) := by
  cases e with
  | un o f => cases o <;> rfl
  | _ => rfl

end

/-- A call with the new numbers. -/
def Req.rename (ρ : Int × Int → Int × Int) : Req → Req
  | .add a b => .add (a.rename ρ) (b.rename ρ)
  | .sub a b => .sub (a.rename ρ) (b.rename ρ)
  | .mul a b => .mul (a.rename ρ) (b.rename ρ)
  | .minus a => .minus (a.rename ρ)
  | .div a b => .div (a.rename ρ) (b.rename ρ)
  | .scalprod a b => .scalprod (a.rename ρ) (b.rename ρ)
  | .sum a => .sum (a.rename ρ)

/-- The results `x` and `y` are the same up to the renumbering. -/
def Ex (ρ : Int × Int → Int × Int) (x y : Except Err Expr) : Prop := y = x.map (Expr.rename ρ)

theorem Ex.bind {x y : Except Err Expr} {k l : Expr → Except Err Expr} (h : Ex ρ x y)
    (h' : ∀ a, Ex ρ (k a) (l (a.rename ρ))) : Ex ρ (x >>= k) (y >>= l) := by
  unfold Ex at *
  subst h
  cases x with
  | error e => rfl
  | ok a => exact h' a

theorem Ex.bind_ok {x y : Except Err Expr} {k l : Expr → Except Err Expr} (h : Ex ρ x y)
    (h' : ∀ a, x = .ok a → Ex ρ (k a) (l (a.rename ρ))) : Ex ρ (x >>= k) (y >>= l) := by
  unfold Ex at *
  subst h
  cases x with
  | error e => rfl
  | ok a => exact h' a rfl

theorem Ex.ok (a : Expr) : Ex ρ (.ok a) (.ok (a.rename ρ)) := rfl

theorem Ex.error (e : Err) : Ex ρ (.error e) (.error e) := rfl

theorem Ex.zero (d : Nat) : Ex ρ (.ok (.zero d)) (.ok (.zero d)) := rfl

theorem intCst_rename (n : Int) : (intCst n).rename ρ = intCst n := by
  unfold intCst; split <;> rfl

theorem Ex.intCst (n : Int) : Ex ρ (.ok (intCst n)) (.ok (Verif.intCst n)) := by
  unfold Ex
  simp [Except.map, intCst_rename]

theorem Ex.ratCst (a b : Int) : Ex ρ (ratCst a b) (Verif.ratCst a b) := by
  unfold Verif.ratCst
  dsimp only
  split_ifs <;> first | rfl | exact Ex.intCst _

theorem Ex.mkUn (o : Un) (f : Expr) : Ex ρ (mkUn o f) (Verif.mkUn o (f.rename ρ)) := by
  unfold Verif.mkUn Ex
  rw [Expr.dim_rename]
  split <;> rfl

theorem Ex.mkBin (o : Bin) (f g : Expr) : Ex ρ (mkBin o f g) (Verif.mkBin o (f.rename ρ) (g.rename ρ)) := by
  unfold Verif.mkBin Ex
  rw [Expr.dim_rename, Expr.dim_rename]
  split <;> rfl

theorem Ex.mkTern (o : Tern) (f g h : Expr) :
    Ex ρ (mkTern o f g h) (Verif.mkTern o (f.rename ρ) (g.rename ρ) (h.rename ρ)) := by
  unfold Verif.mkTern Ex
  rw [Expr.dim_rename, Expr.dim_rename, Expr.dim_rename]
  split <;> rfl

theorem Ex.square (f : Expr) : Ex ρ (square f) (Verif.square (f.rename ρ)) := by
  unfold Verif.square
  rw [asZero_rename]
  split
  · exact Ex.ok _
  · exact Ex.mkUn _ _

theorem Ex.pow (f : Expr) (m : Int) : Ex ρ (pow f m) (Verif.pow (f.rename ρ) m) := by
  unfold Verif.pow
  split
  · exact Ex.ok _
  · exact Ex.mkUn _ _

theorem Ex.opPow (f : Expr) (m : Int) : Ex ρ (opPow f m) (Verif.opPow (f.rename ρ) m) := by
  unfold Verif.opPow
  split
  · exact Ex.square _
  · exact Ex.pow _ _

theorem Ex.sumT (f : Expr) (d : Nat) : Ex ρ (sumT f d) (Verif.sumT (f.rename ρ) d) := by
  unfold Verif.sumT
  rw [asZero_rename, Expr.dim_rename]
  split
  · rfl
  · split <;> rfl

theorem Ex.broadcast (f : Expr) (d : Nat) : Ex ρ (broadcast f d) (Verif.broadcast (f.rename ρ) d) := by
  unfold Verif.broadcast
  rw [Expr.dim_rename]
  split
  · rfl
  · split
    · exact Ex.sumT _ _
    · rfl

/-- The bodies `p` and `p'` are the same up to the renumbering. -/
inductive PRel (ρ : Int × Int → Int × Int) : Prog → Prog → Prop
  | ret {x y} : Ex ρ x y → PRel ρ (.ret x) (.ret y)
  | call {q q' k k'} : q' = q.rename ρ → (∀ e, PRel ρ (k e) (k' (e.rename ρ))) → PRel ρ (.call q k) (.call q' k')

theorem PRel.tail {q q' : Req} (h : q' = q.rename ρ) : PRel ρ (tail q) (tail q') :=
  .call h fun e => .ret (Ex.ok e)

theorem PRel.bind {x y : Except Err Expr} {k l : Expr → Prog} (h : Ex ρ x y)
    (h' : ∀ a, PRel ρ (k a) (l (a.rename ρ))) : PRel ρ ((Prog.ret x).bind k) ((Prog.ret y).bind l) := by
  unfold Ex at h
  subst h
  cases x with
  | error e => exact .ret rfl
  | ok a => exact h' a

theorem PRel.run {p p' : Prog} (h : PRel ρ p p') {rec : Req → Except Err Expr}
    (hr : ∀ q, Ex ρ (rec q) (rec (q.rename ρ))) : Ex ρ (p.run rec) (p'.run rec) := by
  induction h with
  | ret h => exact h
  | @call q q' k k' hq hk ih =>
    subst hq
    have := hr q
    unfold Ex at this
    simp only [Prog.run, this]
    cases rec q with
    | error e => rfl
    | ok a => exact ih a

/-- The same for rules, which may not apply. -/
inductive ORel (ρ : Int × Int → Int × Int) : Option Prog → Option Prog → Prop
  | none : ORel ρ none none
  | some {p p'} : PRel ρ p p' → ORel ρ (some p) (some p')

/-- Pairs of rules of two lists. -/
inductive LRel (ρ : Int × Int → Int × Int) : List (Option Prog) → List (Option Prog) → Prop
  | nil : LRel ρ [] []
  | cons {x y l m} : ORel ρ x y → LRel ρ l m → LRel ρ (x :: l) (y :: m)

theorem PRel.firstRule {l m : List (Option Prog)} (h : LRel ρ l m) {x y : Except Err Expr} (h' : Ex ρ x y) :
    PRel ρ (firstRule l x) (Verif.firstRule m y) := by
  unfold Verif.firstRule
  induction h with
  | nil => exact .ret h'
  | cons h1 h2 ih =>
    cases h1 with
    | none => simpa using ih
    | some h => simpa using h

/-- Closes the goals of the rules. -/
macro "ren" : tactic => `(tactic| repeat' (first
  | exact ORel.none
  | apply ORel.some
  | exact PRel.ret (Ex.ok _)
  | exact PRel.ret (Ex.error _)
  | exact PRel.ret (Ex.zero _)
  | exact PRel.ret (Ex.intCst _)
  | exact PRel.ret (Ex.ratCst _ _)
  | exact PRel.ret (Ex.mkUn _ _)
  | exact PRel.ret (Ex.mkBin _ _ _)
  | exact PRel.ret (Ex.square _)
  | exact PRel.ret (Ex.sumT _ _)
  | exact PRel.ret (Ex.broadcast _ _)
  | exact PRel.ret rfl
  | (refine PRel.tail ?_; simp [Req.rename, intCst_rename, Expr.rename]; done)
  | (refine PRel.call (by simp [Req.rename, intCst_rename, Expr.rename]; done) fun _ => ?_)
  | (refine PRel.bind (Ex.ratCst _ _) fun _ => ?_)
  | (refine PRel.bind (Ex.mkUn _ _) fun _ => ?_)
  | (refine PRel.bind (Ex.square _) fun _ => ?_)
  | (refine PRel.bind (Ex.broadcast _ _) fun _ => ?_)
  | split))

section

variable (hρ : Function.Injective ρ) (a b : Expr)

local macro "rens" : tactic => `(tactic| simp only [asZero_rename, asInt_rename, asRat_rename, isConst_rename,
  asBin_rename, asUn_rename, asSumT_rename, Expr.dim_rename])

include hρ in
theorem addZero_rename : ORel ρ (addZero a b) (addZero (a.rename ρ) (b.rename ρ)) := by
  unfold addZero
  simp only [asZero_rename, Expr.rename_inj hρ]
  ren

theorem addConst_rename : ORel ρ (addConst a b) (addConst (a.rename ρ) (b.rename ρ)) := by
  cases a <;> cases b <;> simp only [Expr.rename, addConst] <;> ren

theorem addGatherL_rename : ORel ρ (addGatherL a b) (addGatherL (a.rename ρ) (b.rename ρ)) := by
  unfold addGatherL
  rens
  cases b.asBin .add <;> cases b.asBin .sub <;> simp only [Option.map_none, Option.map_some, isConst_rename] <;> ren

theorem addGatherR_rename : ORel ρ (addGatherR a b) (addGatherR (a.rename ρ) (b.rename ρ)) := by
  unfold addGatherR
  rens
  cases a.asBin .add <;> cases a.asBin .sub <;> simp only [Option.map_none, Option.map_some, isConst_rename] <;> ren

include hρ in
theorem addFactor_rename : ORel ρ (addFactor a b) (addFactor (a.rename ρ) (b.rename ρ)) := by
  unfold addFactor
  rens
  cases a.asBin .mul <;> cases b.asBin .mul <;>
    simp only [Option.map_none, Option.map_some, Expr.rename_inj hρ] <;> ren

include hρ in
theorem addMultiple_other_rename : ORel ρ (addMultiple.other a b) (addMultiple.other (a.rename ρ) (b.rename ρ)) := by
  unfold addMultiple.other
  rens
  rcases b.asBin .mul with _ | ⟨x, y⟩
  · ren
  · cases x <;> simp only [Option.map_some, Expr.rename, Expr.rename_inj hρ] <;> ren

include hρ in
theorem addMultiple_rename : ORel ρ (addMultiple a b) (addMultiple (a.rename ρ) (b.rename ρ)) := by
  have := addMultiple_other_rename hρ a b
  unfold addMultiple
  rens
  rcases a.asBin .mul with _ | ⟨x, y⟩
  · exact this
  · cases x <;> simp only [Option.map_some, Expr.rename, Expr.rename_inj hρ] <;> try exact this
    split
    · ren
    · exact this

theorem addMinus_rename : ORel ρ (addMinus a b) (addMinus (a.rename ρ) (b.rename ρ)) := by
  unfold addMinus
  rens
  cases a.asUn .minus <;> cases b.asUn .minus <;> simp only [Option.map_none, Option.map_some] <;> ren

include hρ in
theorem stepAdd_rename : PRel ρ (stepAdd a b) (stepAdd (a.rename ρ) (b.rename ρ)) :=
  PRel.firstRule (.cons (addZero_rename hρ a b) (.cons (addConst_rename a b) (.cons (addGatherL_rename a b)
    (.cons (addGatherR_rename a b) (.cons (addFactor_rename hρ a b) (.cons (addMultiple_rename hρ a b)
    (.cons (addMinus_rename a b) .nil))))))) (Ex.mkBin _ _ _)

include hρ in
theorem subZero_rename : ORel ρ (subZero a b) (subZero (a.rename ρ) (b.rename ρ)) := by
  unfold subZero
  simp only [asZero_rename, Expr.rename_inj hρ, Expr.dim_rename]
  ren

theorem subConst_rename : ORel ρ (subConst a b) (subConst (a.rename ρ) (b.rename ρ)) := by
  cases a <;> cases b <;> simp only [Expr.rename, subConst] <;> ren

theorem subGatherL_rename : ORel ρ (subGatherL a b) (subGatherL (a.rename ρ) (b.rename ρ)) := by
  unfold subGatherL
  rens
  cases b.asBin .add <;> cases b.asBin .sub <;> simp only [Option.map_none, Option.map_some, isConst_rename] <;> ren

theorem subGatherR_rename : ORel ρ (subGatherR a b) (subGatherR (a.rename ρ) (b.rename ρ)) := by
  unfold subGatherR
  rens
  cases a.asBin .add <;> cases a.asBin .sub <;> simp only [Option.map_none, Option.map_some, isConst_rename] <;> ren

include hρ in
theorem subFactor_rename : ORel ρ (subFactor a b) (subFactor (a.rename ρ) (b.rename ρ)) := by
  unfold subFactor
  rens
  cases a.asBin .mul <;> cases b.asBin .mul <;>
    simp only [Option.map_none, Option.map_some, Expr.rename_inj hρ] <;> ren

include hρ in
theorem subMultiple_other_rename : ORel ρ (subMultiple.other a b) (subMultiple.other (a.rename ρ) (b.rename ρ)) := by
  unfold subMultiple.other
  rens
  rcases b.asBin .mul with _ | ⟨x, y⟩
  · ren
  · cases x <;> simp only [Option.map_some, Expr.rename, Expr.rename_inj hρ] <;> ren

include hρ in
theorem subMultiple_rename : ORel ρ (subMultiple a b) (subMultiple (a.rename ρ) (b.rename ρ)) := by
  have := subMultiple_other_rename hρ a b
  unfold subMultiple
  rens
  rcases a.asBin .mul with _ | ⟨x, y⟩
  · exact this
  · cases x <;> simp only [Option.map_some, Expr.rename, Expr.rename_inj hρ] <;> try exact this
    split
    · ren
    · exact this

include hρ in
theorem stepSub_rename : PRel ρ (stepSub a b) (stepSub (a.rename ρ) (b.rename ρ)) :=
  PRel.firstRule (.cons (subZero_rename hρ a b) (.cons (subConst_rename a b) (.cons (subGatherL_rename a b)
    (.cons (subGatherR_rename a b) (.cons (subFactor_rename hρ a b) (.cons (subMultiple_rename hρ a b)
    .nil)))))) (Ex.mkBin _ _ _)

theorem mulZero_rename : ORel ρ (mulZero a b) (mulZero (a.rename ρ) (b.rename ρ)) := by
  unfold mulZero
  rens
  ren

theorem mulInt_rename : ORel ρ (mulInt a b) (mulInt (a.rename ρ) (b.rename ρ)) := by
  unfold mulInt
  rens
  ren

theorem mulSwapInt_rename : ORel ρ (mulSwapInt a b) (mulSwapInt (a.rename ρ) (b.rename ρ)) := by
  unfold mulSwapInt
  rens
  ren

theorem mulRat_rename : ORel ρ (mulRat a b) (mulRat (a.rename ρ) (b.rename ρ)) := by
  unfold mulRat
  rens
  ren

theorem mulConstR_rename : ORel ρ (mulConstR a b) (mulConstR (a.rename ρ) (b.rename ρ)) := by
  unfold mulConstR
  rens
  rcases b.asBin .mul with _ | ⟨x, y⟩
  · ren
  · cases x <;> simp only [Option.map_some, Expr.rename] <;> ren

theorem mulConstL_rename : ORel ρ (mulConstL a b) (mulConstL (a.rename ρ) (b.rename ρ)) := by
  unfold mulConstL
  rens
  cases a.asBin .mul <;> cases b.asUn .exp <;>
    simp only [Option.map_none, Option.map_some, isConst_rename] <;> ren

theorem mulMinus_rename : ORel ρ (mulMinus a b) (mulMinus (a.rename ρ) (b.rename ρ)) := by
  unfold mulMinus
  rens
  cases a.asUn .minus <;> cases b.asUn .minus <;> simp only [Option.map_none, Option.map_some] <;> ren

include hρ in
theorem mulSquare_rename : ORel ρ (mulSquare a b) (mulSquare (a.rename ρ) (b.rename ρ)) := by
  unfold mulSquare
  simp only [Expr.rename_inj hρ]
  ren

theorem mulSumT_rename : ORel ρ (mulSumT a b) (mulSumT (a.rename ρ) (b.rename ρ)) := by
  unfold mulSumT
  rens
  cases a.asSumT <;> cases b.asSumT <;> simp only [Option.map_none, Option.map_some] <;> ren

theorem mulExp_rename : ORel ρ (mulExp a b) (mulExp (a.rename ρ) (b.rename ρ)) := by
  unfold mulExp
  rens
  cases a.asUn .exp <;> cases b.asUn .exp <;> simp only [Option.map_none, Option.map_some] <;> ren

theorem mulMulExpL_rename : ORel ρ (mulMulExpL a b) (mulMulExpL (a.rename ρ) (b.rename ρ)) := by
  unfold mulMulExpL
  rens
  rcases a.asBin .mul with _ | ⟨u, v⟩
  · ren
  · simp only [Option.map_some, asUn_rename]
    cases v.asUn .exp <;> cases b.asUn .exp <;>
      simp only [Option.map_none, Option.map_some, Expr.dim_rename] <;> ren

theorem mulMulExpR_rename : ORel ρ (mulMulExpR a b) (mulMulExpR (a.rename ρ) (b.rename ρ)) := by
  unfold mulMulExpR
  rens
  rcases b.asBin .mul with _ | ⟨u, v⟩
  · ren
  · simp only [Option.map_some, asUn_rename]
    cases v.asUn .exp <;> cases a.asInt <;> simp only [Option.map_none, Option.map_some] <;> ren

include hρ in
theorem stepMul_rename : PRel ρ (stepMul a b) (stepMul (a.rename ρ) (b.rename ρ)) :=
  PRel.firstRule (.cons (mulZero_rename a b) (.cons (mulInt_rename a b) (.cons (mulSwapInt_rename a b)
    (.cons (mulRat_rename a b) (.cons (mulConstR_rename a b) (.cons (mulConstL_rename a b)
    (.cons (mulMinus_rename a b) (.cons (mulSquare_rename hρ a b) (.cons (mulSumT_rename a b)
    (.cons (mulExp_rename a b) (.cons (mulMulExpL_rename a b) (.cons (mulMulExpR_rename a b)
    .nil)))))))))))) (Ex.mkBin _ _ _)

theorem stepMinus_rename : PRel ρ (stepMinus a) (stepMinus (a.rename ρ)) := by
  have hm := Ex.mkUn (ρ := ρ) .minus a
  cases a with
  | un o f => cases o <;> simp only [Expr.rename, stepMinus] at * <;> first | exact .ret hm | ren
  | bin o f g =>
    cases o <;> simp only [Expr.rename, stepMinus, isConst_rename] at * <;> try exact .ret hm
    split
    · ren
    · exact .ret hm
  | _ =>
    simp only [Expr.rename, stepMinus] at *
    first | exact .ret hm | ren

theorem stepDiv_rename : PRel ρ (stepDiv a b) (stepDiv (a.rename ρ) (b.rename ρ)) := by
  have hm := Ex.mkBin (ρ := ρ) .div a b
  unfold stepDiv
  rens
  split
  · ren
  · cases b <;> simp only [Expr.rename] at * <;> first | exact .ret hm | ren

theorem scalFactor_rename : ORel ρ (scalFactor a b) (scalFactor (a.rename ρ) (b.rename ρ)) := by
  unfold scalFactor
  rens
  rcases a.asBin .mul with _ | ⟨u, v⟩
  · ren
  · simp only [Option.map_some, Expr.dim_rename]
    ren

include hρ in
theorem stepScalprod_rename : PRel ρ (stepScalprod a b) (stepScalprod (a.rename ρ) (b.rename ρ)) := by
  unfold stepScalprod
  simp only [Expr.dim_rename, Expr.rename_inj hρ]
  split
  · ren
  · split
    · ren
    · split
      · ren
      · exact PRel.firstRule (.cons (scalFactor_rename a b) (.cons (scalFactor_rename b a) .nil)) (Ex.mkBin _ _ _)

theorem stepSum_rename : PRel ρ (stepSum a) (stepSum (a.rename ρ)) := by
  unfold stepSum
  rens
  rcases a.asBin .mul with _ | ⟨u, v⟩ <;> simp only [Option.map_none, Option.map_some, Expr.dim_rename] <;> ren

include hρ in
theorem build_rename (n : Nat) : ∀ q : Req, Ex ρ (build n q) (build n (q.rename ρ)) := by
  induction n with
  | zero => exact fun q => rfl
  | succ n ih =>
    intro q
    refine PRel.run (p := step q) (p' := step (q.rename ρ)) ?_ ih
    cases q with
    | add a b => exact stepAdd_rename hρ a b
    | sub a b => exact stepSub_rename hρ a b
    | mul a b => exact stepMul_rename hρ a b
    | minus a => exact stepMinus_rename a
    | div a b => exact stepDiv_rename a b
    | scalprod a b => exact stepScalprod_rename hρ a b
    | sum a => exact stepSum_rename a

include hρ in
/-- A call given by its arguments. -/
theorem Ex.build {n : Nat} {q q' : Req} (h : q' = q.rename ρ) : Ex ρ (build n q) (Verif.build n q') :=
  h ▸ build_rename hρ n q

/-- Closes the goals of the methods that make a sequence of calls. -/
local macro "rend" : tactic => `(tactic| repeat' (first
  | with_reducible exact Ex.ok _
  | with_reducible exact Ex.error _
  | with_reducible exact Ex.zero _
  | with_reducible exact Ex.mkUn _ _
  | with_reducible exact Ex.mkBin _ _ _
  | with_reducible exact Ex.mkTern _ _ _ _
  | with_reducible exact Ex.square _
  | with_reducible exact Ex.opPow _ _
  | with_reducible exact Ex.pow _ _
  | with_reducible exact Ex.sumT _ _
  | with_reducible exact Ex.ratCst _ _
  | (with_reducible refine Ex.build (by assumption) ?_; simp [Req.rename, intCst_rename, Expr.rename]; done)
  | with_reducible assumption
  | (with_reducible refine Ex.bind ?_ fun _ => ?_)))

include hρ in
theorem derivUn_rename (n : Nat) (o : Un) : Ex ρ (derivUn n o a) (derivUn n o (a.rename ρ)) := by
  cases o <;> simp only [derivUn] <;> rend

/-- The same for pairs. -/
def Ex2 (ρ : Int × Int → Int × Int) (x y : Except Err (Expr × Expr)) : Prop :=
  y = x.map fun p => (p.1.rename ρ, p.2.rename ρ)

theorem Ex2.bind {x y : Except Err Expr} {k l : Expr → Except Err (Expr × Expr)} (h : Ex ρ x y)
    (h' : ∀ a, Ex2 ρ (k a) (l (a.rename ρ))) : Ex2 ρ (x >>= k) (y >>= l) := by
  unfold Ex Ex2 at *
  subst h
  cases x with
  | error e => rfl
  | ok a => exact h' a

theorem Ex.bind2 {x y : Except Err (Expr × Expr)} {k l : Expr × Expr → Except Err Expr} (h : Ex2 ρ x y)
    (h' : ∀ p, Ex ρ (k p) (l (p.1.rename ρ, p.2.rename ρ))) : Ex ρ (x >>= k) (y >>= l) := by
  unfold Ex2 at h
  subst h
  cases x with
  | error e => rfl
  | ok a => exact h' a

include hρ in
theorem derivPowf_rename (n : Nat) : Ex2 ρ (derivPowf n a b) (derivPowf n (a.rename ρ) (b.rename ρ)) := by
  unfold derivPowf
  repeat' (refine Ex2.bind ?_ fun _ => ?_)
  any_goals rend
  rfl

include hρ in
theorem derivAtan2_rename (n : Nat) : Ex2 ρ (derivAtan2 n a b) (derivAtan2 n (a.rename ρ) (b.rename ρ)) := by
  unfold derivAtan2
  repeat' (refine Ex2.bind ?_ fun _ => ?_)
  any_goals rend
  rfl

include hρ in
theorem clampAlt_rename (n : Nat) (c : Expr) :
    Ex ρ (clampAlt n a b c) (clampAlt n (a.rename ρ) (b.rename ρ) (c.rename ρ)) := by
  unfold clampAlt
  rend

include hρ in
theorem modAlt_rename (n : Nat) (c : Expr) :
    Ex ρ (modAlt n a b c) (modAlt n (a.rename ρ) (b.rename ρ) (c.rename ρ)) := by
  unfold modAlt
  rend

section chain

variable {D D' E E' : Expr → Except Err Expr} (hD : ∀ g, Ex ρ (D g) (D' (g.rename ρ)))
  (hE : ∀ g, Ex ρ (E g) (E' (g.rename ρ)))

include hρ hD in
theorem chainTerm_rename (n : Nat) (g d : Expr) :
    Ex ρ (chainTerm n D g d) (chainTerm n D' (g.rename ρ) (d.rename ρ)) := by
  unfold chainTerm
  rw [Expr.dim_rename]
  split
  · refine Ex.bind (hD g) fun _ => ?_
    rend
  · refine Ex.bind ?_ hD
    rend

include hρ hD in
theorem chainUn_rename (n : Nat) (g d : Expr) :
    Ex ρ (chainUn n D g d) (chainUn n D' (g.rename ρ) (d.rename ρ)) := by
  unfold chainUn
  refine Ex.bind (chainTerm_rename hρ hD n g d) fun _ => ?_
  rend

include hρ hD hE in
theorem chainBin_rename (n : Nat) (g d d' : Expr) :
    Ex ρ (chainBin n D E g d d') (chainBin n D' E' (g.rename ρ) (d.rename ρ) (d'.rename ρ)) := by
  unfold chainBin
  refine Ex.bind (chainTerm_rename hρ hD n g d) fun _ => Ex.bind ?_ fun _ =>
    Ex.bind (chainTerm_rename hρ hE n g d') fun _ => ?_
  all_goals rend

end chain

section methods

variable {D D' : Expr → Expr → Except Err Expr}

include hρ in
theorem diffUn_rename (n : Nat) (v : VarId) (o : Un) (f : Expr)
    (hD : ∀ g, Ex ρ (D f g) (D' (f.rename ρ) (g.rename ρ))) (g : Expr) :
    Ex ρ (diffUn n D v o f g) (diffUn n D' (v.rename ρ) o (f.rename ρ) (g.rename ρ)) := by
  have hc : ∀ o, Ex ρ (derivUn n o f >>= chainUn n (D f) g)
      (derivUn n o (f.rename ρ) >>= chainUn n (D' (f.rename ρ)) (g.rename ρ)) := fun o =>
    Ex.bind (derivUn_rename hρ f n o) fun _ => chainUn_rename hρ hD n _ _
  cases o <;> simp only [diffUn, Expr.dim_rename] <;> first
    | exact hc _
    | exact Ex.zero _
    | skip
  case minus => exact Ex.bind (hD _) fun _ => by rend
  all_goals
    repeat' (first
      | exact hD _
      | (refine Ex.bind ?_ fun _ => ?_)
      | rend)

include hρ in
theorem addGrad_rename (n : Nat) (f g u : Expr) :
    Ex ρ (addGrad n f g u) (addGrad n (f.rename ρ) (g.rename ρ) (u.rename ρ)) := by
  unfold addGrad
  simp only [Expr.dim_rename]
  split <;> rend

include hρ in
theorem mulGrad_rename (n : Nat) (f g u : Expr) :
    Ex ρ (mulGrad n f g u) (mulGrad n (f.rename ρ) (g.rename ρ) (u.rename ρ)) := by
  unfold mulGrad
  simp only [Expr.dim_rename]
  split <;> rend

include hρ in
theorem diffBin_rename (n : Nat) (v : VarId) (o : Bin) (f g : Expr)
    (hf : ∀ u, Ex ρ (D f u) (D' (f.rename ρ) (u.rename ρ)))
    (hg : ∀ u, Ex ρ (D g u) (D' (g.rename ρ) (u.rename ρ)))
    (he : ∀ e, g.asUn .exp = some e → ∀ u, Ex ρ (D e u) (D' (e.rename ρ) (u.rename ρ))) (u : Expr) :
    Ex ρ (diffBin n D v o f g u) (diffBin n D' (v.rename ρ) o (f.rename ρ) (g.rename ρ) (u.rename ρ)) := by
  cases o <;> simp only [diffBin, Expr.dim_rename, asUn_rename] <;> first
    | exact Ex.zero _
    | skip
  case mul =>
    cases hx : g.asUn .exp with
    | none =>
      simp only [Option.map_none]
      refine Ex.bind (mulGrad_rename hρ n f g u) fun _ => Ex.bind (hf _) fun _ =>
        Ex.bind (mulGrad_rename hρ n g f u) fun _ => Ex.bind (hg _) fun _ => ?_
      rend
    | some e =>
      simp only [Option.map_some]
      cases decide (g.dim = 1) with
      | true =>
        refine Ex.bind (hf _) fun _ => Ex.bind ?_ fun _ => Ex.bind (he e hx _) fun _ => Ex.bind ?_ fun _ => ?_
        all_goals rend
      | false =>
        refine Ex.bind (mulGrad_rename hρ n f g u) fun _ => Ex.bind (hf _) fun _ =>
          Ex.bind (mulGrad_rename hρ n g f u) fun _ => Ex.bind (hg _) fun _ => ?_
        rend
  case powf =>
    exact Ex.bind2 (derivPowf_rename hρ f g n) fun _ => chainBin_rename hρ hf hg n _ _ _
  case atan2 =>
    exact Ex.bind2 (derivAtan2_rename hρ f g n) fun _ => chainBin_rename hρ hf hg n _ _ _
  case add | sub =>
    refine Ex.bind (addGrad_rename hρ n f g u) fun _ => Ex.bind (hf _) fun _ =>
      Ex.bind (addGrad_rename hρ n g f u) fun _ => Ex.bind (hg _) fun _ => ?_
    rend
  case div =>
    split
    · repeat' (first
        | exact hf _
        | exact hg _
        | (refine Ex.bind ?_ fun _ => ?_)
        | rend)
    · split <;> repeat' (first
        | exact hf _
        | exact hg _
        | (refine Ex.bind ?_ fun _ => ?_)
        | rend)
  all_goals
    repeat' (first
      | exact hf _
      | exact hg _
      | (refine Ex.bind ?_ fun _ => ?_)
      | rend)

end methods

theorem VarId.rename_inj (hρ : Function.Injective ρ) {v w : VarId} : v.rename ρ = w.rename ρ ↔ v = w := by
  constructor
  · intro h
    obtain ⟨i, d, c⟩ := v
    obtain ⟨j, d', c'⟩ := w
    simp only [VarId.rename, VarId.mk.injEq] at h ⊢
    obtain ⟨h, rfl, h'⟩ := h
    have := hρ (Prod.ext h h')
    simp_all
  · rintro rfl; rfl

include hρ in
/-- The gradient of the formula with the new numbers. -/
theorem diffT_rename (n : Nat) (v : VarId) : ∀ (e : Expr), e.WF → e.FactFree → ∀ u : Expr,
    Ex ρ (diffT n v e u) (diffT n (v.rename ρ) (e.rename ρ) (u.rename ρ)) := by
  induction n with
  | zero => intro e _ _ u; rfl
  | succ n ih =>
    intro e hw hf u
    cases e with
    | var i d c =>
      have : v.rename ρ = ⟨(ρ (i, c)).1, d, (ρ (i, c)).2⟩ ↔ v = ⟨i, d, c⟩ := VarId.rename_inj (w := ⟨i, d, c⟩) hρ
      simp only [Expr.rename, diffT, this]
      split <;> rfl
    | zero | int | rat => rfl
    | un o f => exact diffUn_rename hρ n v o f (ih f hw.1 hf) u
    | bin o f g =>
      refine diffBin_rename hρ n v o f g (ih f hw.1 hf.1) (ih g hw.2.1 hf.2) (fun e he => ih e ?_ ?_) u
      all_goals
        cases g <;> simp only [Expr.asUn, reduceCtorEq] at he
        split at he
        · cases he
          first | exact hw.2.1.1 | exact hf.2
        · cases he
    | tern o f g h =>
      cases o with
      | ifElse =>
        exact Ex.bind (ih g hw.2.1 hf.2.1 u) fun _ => Ex.bind (ih h hw.2.2.1 hf.2.2 u) fun _ => Ex.mkTern _ _ _ _
      | clamp =>
        refine Ex.bind_ok (clampAlt_rename hρ f g n h) fun a ha => ?_
        obtain ⟨h1, h2⟩ := clampAlt_free ⟨hw.1, hw.2.1, hw.2.2.1⟩ hf ha
        exact ih a h1 h2 u
      | mod =>
        refine Ex.bind_ok (modAlt_rename hρ f g n h) fun a ha => ?_
        obtain ⟨h1, h2⟩ := modAlt_free ⟨hw.1, hw.2.1, hw.2.2.1⟩ hf ha
        exact ih a h1 h2 u
    | fact i d c f g => exact hf.elim

include hρ in
theorem callUn_rename (n : Nat) (o : Un) : Ex ρ (callUn n o a) (callUn n o (a.rename ρ)) := by
  cases o <;> simp only [callUn] <;> rend

include hρ in
theorem callBin_rename (n : Nat) (o : Bin) : Ex ρ (callBin n o a b) (callBin n o (a.rename ρ) (b.rename ρ)) := by
  cases o <;> simp only [callBin] <;> rend

include hρ in
theorem mkSqNorm2_rename (n : Nat) : Ex ρ (mkSqNorm2 n a) (mkSqNorm2 n (a.rename ρ)) := by
  unfold mkSqNorm2
  rend

include hρ in
theorem mkSqNormIso_rename (n : Nat) : Ex ρ (mkSqNormIso n a b) (mkSqNormIso n (a.rename ρ) (b.rename ρ)) := by
  unfold mkSqNormIso
  refine Ex.bind (mkSqNorm2_rename hρ b n) fun _ => ?_
  rend

include hρ in
theorem mkSqNormDiag_rename (n : Nat) : Ex ρ (mkSqNormDiag n a b) (mkSqNormDiag n (a.rename ρ) (b.rename ρ)) := by
  unfold mkSqNormDiag
  rend

include hρ in
theorem mkSymSqNorm_rename (n : Nat) : Ex ρ (mkSymSqNorm n a b) (mkSymSqNorm n (a.rename ρ) (b.rename ρ)) := by
  unfold mkSymSqNorm
  rend

include hρ in
theorem mkWeightedSqNorm_rename (n : Nat) :
    Ex ρ (mkWeightedSqNorm n a b) (mkWeightedSqNorm n (a.rename ρ) (b.rename ρ)) := by
  unfold mkWeightedSqNorm
  simp only [Expr.dim_rename]
  split
  · exact mkSqNormIso_rename hρ a b n
  · split
    · exact mkSqNormDiag_rename hρ a b n
    · exact mkSymSqNorm_rename hρ a b n

include hρ in
/-- The formula that the library builds for the new numbers. -/
theorem compile_rename (n : Nat) (t : Term) : Ex ρ (t.compile n) ((t.rename ρ).compile n) := by
  induction t with
  | var | zero | int | rat | intInv =>
    simp only [Term.rename, Term.compile]
    first | exact Ex.ok _ | exact Ex.zero _ | exact Ex.intCst _ | exact Ex.ratCst _ _
  | rdiv m f h =>
    refine Ex.bind h fun _ => ?_
    beta_reduce
    split <;> rend
  | rpow f m h => exact Ex.bind h fun _ => Ex.opPow _ _
  | un o f h => exact Ex.bind h fun _ => callUn_rename hρ _ n o
  | bin o f g h1 h2 => exact Ex.bind h1 fun _ => Ex.bind h2 fun _ => callBin_rename hρ _ _ n o
  | tern o f g k h1 h2 h3 => exact Ex.bind h1 fun _ => Ex.bind h2 fun _ => Ex.bind h3 fun _ => Ex.mkTern _ _ _ _
  | sqNorm2 f h => exact Ex.bind h fun _ => mkSqNorm2_rename hρ _ n
  | sqDist f g h1 h2 =>
    refine Ex.bind h1 fun _ => Ex.bind h2 fun _ => Ex.bind ?_ fun _ => mkSqNorm2_rename hρ _ n
    rend
  | norm2 f h =>
    refine Ex.bind h fun _ => ?_
    rend
  | normalize f h =>
    refine Ex.bind h fun _ => Ex.bind (mkSqNorm2_rename hρ _ n) fun _ => ?_
    rend
  | sqNormIso s f h1 h2 => exact Ex.bind h1 fun _ => Ex.bind h2 fun _ => mkSqNormIso_rename hρ _ _ n
  | sqNormDiag s f h1 h2 => exact Ex.bind h1 fun _ => Ex.bind h2 fun _ => mkSqNormDiag_rename hρ _ _ n
  | symSqNorm s f h1 h2 => exact Ex.bind h1 fun _ => Ex.bind h2 fun _ => mkSymSqNorm_rename hρ _ _ n
  | weightedSqNorm s f h1 h2 => exact Ex.bind h1 fun _ => Ex.bind h2 fun _ => mkWeightedSqNorm_rename hρ _ _ n
  | weightedSqDist s f g h1 h2 h3 =>
    refine Ex.bind h1 fun _ => Ex.bind h2 fun _ => Ex.bind h3 fun _ => Ex.bind ?_ fun _ =>
      mkWeightedSqNorm_rename hρ _ _ n
    rend

end

end Verif
