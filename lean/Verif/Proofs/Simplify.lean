import Mathlib.Tactic.FieldSimp
import Verif.Model.Simplify
import Verif.Proofs.Domain

/-!
# The simplification rules are sound and terminate
-/

namespace Verif

open Spec Finset Prog

variable {Δ : Domain}

/-! ## Requests and their meaning -/

namespace Req

/-- Dimension of the requested operation. -/
def dim : Req → Nat
  | .add a b | .sub a b | .mul a b | .div a b => max a.dim b.dim
  | .minus a => a.dim
  | .scalprod _ _ => 1
  | .sum _ => 1

/-- Broadcasting is possible. -/
def Compat : Req → Prop
  | .add a b | .sub a b | .mul a b | .div a b | .scalprod a b =>
    a.dim = b.dim ∨ a.dim = 1 ∨ b.dim = 1
  | .minus _ | .sum _ => True

/-- The arguments are well formed. -/
def Pre : Req → Prop
  | .add a b | .sub a b | .mul a b | .div a b | .scalprod a b => a.WF ∧ b.WF
  | .minus a | .sum a => a.WF

/-- Value of the requested operation. -/
noncomputable def val (env : Env) : Req → Vec
  | .add a b => fun k => a.val env k + b.val env k
  | .sub a b => fun k => a.val env k - b.val env k
  | .mul a b => fun k => a.val env k * b.val env k
  | .div a b => fun k => a.val env k / b.val env k
  | .minus a => fun k => -a.val env k
  | .scalprod a b => fun _ => ∑ j ∈ range (max a.dim b.dim), a.val env j * b.val env j
  | .sum a => fun _ => ∑ j ∈ range a.dim, a.val env j

/-- The requested operation is defined. -/
def Def (env : Env) : Req → Prop
  | .add a b | .sub a b | .mul a b | .scalprod a b => a.Def env ∧ b.Def env
  | .div a b => a.Def env ∧ b.Def env ∧ ∀ k < max a.dim b.dim, b.val env k ≠ 0
  | .minus a | .sum a => a.Def env

/-- The requested operation is in the domain. -/
def Dom (Δ : Domain) (env : Env) : Req → Prop
  | .add a b | .sub a b | .mul a b | .scalprod a b => a.Dom Δ env ∧ b.Dom Δ env
  | .div a b => a.Dom Δ env ∧ b.Dom Δ env ∧ Δ.bin .div a.dim b.dim (a.val env) (b.val env)
  | .minus a | .sum a => a.Dom Δ env

theorem dom_defined (q : Req) (env : Env) : q.Dom .defined env ↔ q.Def env := by
  cases q with
  | div a b => exact and_congr (a.dom_defined env) (and_congr (b.dom_defined env) Iff.rfl)
  | _ => simp only [Req.Dom, Req.Def, Expr.dom_defined]

end Req

/-! ## Weights -/

/-- Weight of a formula. -/
def Expr.wt : Expr → Nat
  | .un _ f => f.wt + 1
  | .bin .scalprod f g => f.wt + g.wt + 2
  | .bin _ f g => f.wt + g.wt + 1
  | .tern _ f g h => 20 * (f.wt + g.wt + h.wt) + 50
  | .fact _ _ _ f g => f.wt + g.wt + 1
  | _ => 1

theorem Expr.wt_pos (e : Expr) : 0 < e.wt := by
  unfold Expr.wt
  split <;> omega

/-- Bound of the weight of a sum, difference or product: those of constants are constants. -/
def wt2 (a b : Expr) : Nat := if a.isConst && b.isConst then 1 else a.wt + b.wt + 1

/-- Bound of the weight of the opposite. -/
def wt1 (a : Expr) : Nat := if a.isConst then 1 else a.wt + 1

/-- Bound of the weight of the result. -/
def Req.wt : Req → Nat
  | .add a b | .sub a b | .mul a b => wt2 a b
  | .div a b => a.wt + b.wt + 1
  | .scalprod a b => a.wt + b.wt + 2
  | .minus a => wt1 a
  | .sum a => a.wt + 1

theorem wt2_le (a b : Expr) : wt2 a b ≤ a.wt + b.wt + 1 := by
  unfold wt2; split <;> omega

theorem wt2_const {a b : Expr} (ha : a.isConst = true) (hb : b.isConst = true) : wt2 a b = 1 := by
  simp [wt2, ha, hb]

theorem wt2_left {a : Expr} (ha : a.isConst = false) (b : Expr) : wt2 a b = a.wt + b.wt + 1 := by
  simp [wt2, ha]

theorem wt2_right {b : Expr} (hb : b.isConst = false) (a : Expr) : wt2 a b = a.wt + b.wt + 1 := by
  simp [wt2, hb]

theorem wt1_le (a : Expr) : wt1 a ≤ a.wt + 1 := by unfold wt1; split <;> omega

theorem wt1_const {a : Expr} (ha : a.isConst = true) : wt1 a = 1 := by simp [wt1, ha]

/-- The product of a constant. -/
def Expr.constMul (e : Expr) : Bool :=
  match e.asBin .mul with
  | some (c, _) => c.isConst
  | none => false

/-- Order of the products of the same weight. -/
def mulRank (a b : Expr) : Nat :=
  if a.asInt.isSome then 2
  else if b.asSumT.isSome ∧ a.constMul = false then 0
  else if (b.asUn .exp).isSome then 1
  else if a.asRat.isSome then 3
  else 4

/-- Order of the requests of the same weight. -/
def Req.rank : Req → Nat
  | .minus _ => 0
  | .mul a b => 1 + mulRank a b
  | .add _ _ | .sub _ _ | .div _ _ | .scalprod _ _ => 6
  | .sum _ => 7

/-- Decreases at each recursive call. -/
def Req.meas (q : Req) : Nat := 8 * q.wt + q.rank

/-- What a call returns. -/
structure Post (Δ : Domain) (q : Req) (r : Expr) : Prop where
  wf : r.WF
  dim : r.dim = q.dim
  compat : q.Compat
  wt : r.wt ≤ q.wt
  sem : ∀ env, q.Dom Δ env → r.Dom Δ env ∧ ∀ k, r.val env k = q.val env k

/-- Every call made by the program is smaller than `n`, and if all of them return what they should
then so does the program. -/
def Prog.Sat (Δ : Domain) (n : Nat) (P : Expr → Prop) : Prog → Prop
  | .ret (.ok e) => P e
  | .ret (.error er) => er ≠ .fuel
  | .call q k => q.Pre ∧ q.meas < n ∧ ∀ e, Post Δ q e → (k e).Sat Δ n P

/-! ## From one step to the whole -/

theorem sat_run {n P} {rec : Req → Except Err Expr} {p : Prog} (hp : p.Sat Δ n P)
    (h : ∀ q, q.Pre → q.meas < n → rec q ≠ .error .fuel ∧ ∀ r, rec q = .ok r → Post Δ q r) :
    p.run rec ≠ .error .fuel ∧ ∀ r, p.run rec = .ok r → P r := by
  induction p with
  | ret x =>
    cases x with
    | ok e => exact ⟨by simp [Prog.run], fun r hr => by
        simp only [Prog.run, Except.ok.injEq] at hr; exact hr ▸ hp⟩
    | error er => exact ⟨fun h => hp (by simpa [Prog.run] using h), by simp [Prog.run]⟩
  | call q k ih =>
    obtain ⟨h1, h2, h3⟩ := hp
    obtain ⟨g1, g2⟩ := h q h1 h2
    simp only [Prog.run]
    cases hq : rec q with
    | ok e => exact ih e (h3 e (g2 e hq))
    | error er => exact ⟨by simpa [hq] using g1, by simp⟩

theorem sat_mono {n m P} {Q : Expr → Prop} (hn : n ≤ m) (hP : ∀ e, P e → Q e) {p : Prog}
    (hp : p.Sat Δ n P) : p.Sat Δ m Q := by
  induction p with
  | ret x => cases x with
    | ok e => exact hP e hp
    | error er => exact hp
  | call q k ih => exact ⟨hp.1, by have := hp.2.1; omega, fun e he => ih e (hp.2.2 e he)⟩

theorem sat_tail {n q} {P : Expr → Prop} (h1 : q.Pre) (h2 : q.meas < n) (h3 : ∀ e, Post Δ q e → P e) :
    (tail q).Sat Δ n P := ⟨h1, h2, fun e he => h3 e he⟩

theorem sat_bind {n P} {Q : Expr → Prop} {p : Prog} {f : Expr → Prog} (hp : p.Sat Δ n Q)
    (hf : ∀ e, Q e → (f e).Sat Δ n P) : (p.bind f).Sat Δ n P := by
  induction p with
  | ret x => cases x with
    | ok e => exact hf e hp
    | error er => exact hp
  | call q k ih => exact ⟨hp.1, hp.2.1, fun e he => ih e (hp.2.2 e he)⟩

/-! ## Views -/

theorem asZero_some {e : Expr} {d} (h : e.asZero = some d) : e = .zero d := by
  cases e <;> simp_all [Expr.asZero]

theorem asInt_some {e : Expr} {n} (h : e.asInt = some n) : e = .int n := by
  cases e <;> simp_all [Expr.asInt]

theorem asRat_some {e : Expr} {p q} (h : e.asRat = some (p, q)) : e = .rat p q := by
  cases e <;> simp_all [Expr.asRat]

theorem asBin_some {o : Bin} {e f g : Expr} (h : e.asBin o = some (f, g)) : e = .bin o f g := by
  cases e <;> simp_all [Expr.asBin]

theorem asUn_some {o : Un} {e f : Expr} (h : e.asUn o = some f) : e = .un o f := by
  cases e <;> simp_all [Expr.asUn]

theorem asSumT_some {e f : Expr} (h : e.asSumT = some f) : ∃ d, e = .un (.sumT d) f := by
  unfold Expr.asSumT at h
  split at h
  · simp only [Option.some.injEq] at h; subst h; exact ⟨_, rfl⟩
  · cases h

theorem isConst_cases {e : Expr} (h : e.isConst = true) :
    (∃ n, e = .int n) ∨ ∃ p q, e = .rat p q := by
  cases e <;> simp_all [Expr.isConst]

theorem isConst_dim {e : Expr} (h : e.isConst = true) : e.dim = 1 := by
  rcases isConst_cases h with ⟨n, rfl⟩ | ⟨p, q, rfl⟩ <;> rfl

theorem isConst_wt {e : Expr} (h : e.isConst = true) : e.wt = 1 := by
  rcases isConst_cases h with ⟨n, rfl⟩ | ⟨p, q, rfl⟩ <;> rfl

/-! ## Constructors without recursion -/

theorem intCst_wf (n : Int) : (intCst n).WF := by
  unfold intCst; split
  · exact Nat.one_pos
  · trivial

theorem intCst_dim (n : Int) : (intCst n).dim = 1 := by unfold intCst; split <;> rfl

theorem intCst_wt (n : Int) : (intCst n).wt = 1 := by unfold intCst; split <;> rfl

theorem intCst_def (n : Int) (env : Env) : (intCst n).Dom Δ env := by
  unfold intCst; split <;> trivial

theorem intCst_val (n : Int) (env : Env) (k : Nat) : (intCst n).val env k = n := by
  unfold intCst; split
  · rename_i h; simp [Expr.val, h]
  · rfl

theorem ratCst_err {a b : Int} {er : Err} (h : ratCst a b = .error er) : er ≠ .fuel := by
  unfold ratCst at h
  split at h
  · cases h; simp
  · simp only at h
    split_ifs at h

/-- What `ratCst` returns. -/
theorem ratCst_ok {a b : Int} {r : Expr} (h : ratCst a b = .ok r) :
    r.WF ∧ r.dim = 1 ∧ r.wt = 1 ∧ (∀ (Δ : Domain) env, r.Dom Δ env) ∧ ∀ env k, r.val env k = (a : ℝ) / b := by
  unfold ratCst at h
  split at h
  · cases h
  · rename_i hb
    simp only at h
    have hg : (Int.gcd a b : Int) ≠ 0 := by
      have := Int.gcd_ne_zero_right (a := a) hb
      exact_mod_cast this
    have hga : (Int.gcd a b : Int) ∣ a := Int.gcd_dvd_left ..
    have hgb : (Int.gcd a b : Int) ∣ b := Int.gcd_dvd_right ..
    obtain ⟨s, hs, hsv⟩ : ∃ s : Int, (if b < 0 then (-1 : Int) else 1) = s ∧ (s = 1 ∨ s = -1) := by
      by_cases h0 : b < 0
      · exact ⟨-1, by simp [h0], Or.inr rfl⟩
      · exact ⟨1, by simp [h0], Or.inl rfl⟩
    rw [hs] at h
    have hs0 : s ≠ 0 := by rcases hsv with h | h <;> omega
    obtain ⟨a', ha'⟩ := hga
    obtain ⟨b', hb'⟩ := hgb
    have ea : a / (Int.gcd a b : Int) = a' := by
      conv_lhs => lhs; rw [ha']
      exact Int.mul_ediv_cancel_left _ hg
    have eb : b / (Int.gcd a b : Int) = b' := by
      conv_lhs => lhs; rw [hb']
      exact Int.mul_ediv_cancel_left _ hg
    rw [ea, eb] at h
    have hb0 : b' ≠ 0 := by rintro rfl; apply hb; rw [hb']; simp
    have key : ((s * a' : Int) : ℝ) / ((s * b' : Int) : ℝ) = (a : ℝ) / b := by
      have hg' : ((Int.gcd a b : Int) : ℝ) ≠ 0 := by exact_mod_cast hg
      have hs' : (s : ℝ) ≠ 0 := by exact_mod_cast hs0
      have hb1 : (b' : ℝ) ≠ 0 := by exact_mod_cast hb0
      have e1 : (a : ℝ) = ((Int.gcd a b : Int) : ℝ) * a' := by exact_mod_cast ha'
      have e2 : (b : ℝ) = ((Int.gcd a b : Int) : ℝ) * b' := by exact_mod_cast hb'
      rw [e1, e2]
      push_cast
      rw [mul_div_mul_left _ _ hs', mul_div_mul_left]
      exact hg'
    split_ifs at h with h1 h2
    · cases h
      refine ⟨Nat.one_pos, rfl, rfl, fun _ _ => trivial, fun env k => ?_⟩
      rw [← key, h1]; simp [Expr.val]
    · cases h
      refine ⟨intCst_wf _, intCst_dim _, intCst_wt _, fun _ => intCst_def _, fun env k => ?_⟩
      rw [intCst_val, ← key, h2]; simp
    · cases h
      refine ⟨?_, rfl, rfl, fun _ _ => trivial, fun env k => ?_⟩
      · exact mul_ne_zero hs0 hb0
      · rw [← key]; rfl

theorem mkUn_err {o f er} (h : mkUn o f = .error er) : er ≠ .fuel := by
  unfold mkUn at h; split at h <;> cases h; simp

theorem mkUn_ok {o f r} (h : mkUn o f = .ok r) : r = .un o f ∧ o.accept f.dim = true := by
  unfold mkUn at h; split at h
  · rename_i ha; cases h; exact ⟨rfl, ha⟩
  · cases h

theorem mkBin_err {o f g er} (h : mkBin o f g = .error er) : er ≠ .fuel := by
  unfold mkBin at h; split at h <;> cases h; simp

theorem mkBin_ok {o f g r} (h : mkBin o f g = .ok r) :
    r = .bin o f g ∧ o.accept f.dim g.dim = true := by
  unfold mkBin at h; split at h
  · rename_i ha; cases h; exact ⟨rfl, ha⟩
  · cases h

theorem sat_ret {n} {P : Expr → Prop} {x : Except Err Expr} (h1 : ∀ er, x = .error er → er ≠ .fuel)
    (h2 : ∀ r, x = .ok r → P r) : (ret x).Sat Δ n P := by
  cases x with
  | ok e => exact h2 e rfl
  | error er => exact h1 er rfl

/-- What `sumT` returns. -/
theorem sumT_ok {a : Expr} {d : Nat} (ha : a.WF) (hd : 0 < d) {r : Expr} (h : sumT a d = .ok r) :
    a.dim = 1 ∧ r.WF ∧ r.dim = d ∧ r.wt ≤ a.wt + 1 ∧
      ∀ (Δ : Domain) env, a.Dom Δ env → r.Dom Δ env ∧ ∀ k, r.val env k = a.val env k := by
  unfold sumT at h
  split_ifs at h with h1
  have h1 : a.dim = 1 := by simpa using h1
  refine ⟨h1, ?_⟩
  split at h
  · rename_i hz
    have := asZero_some hz; subst this
    cases h
    exact ⟨hd, rfl, by simp [Expr.wt], fun _ env _ => ⟨trivial, fun k => rfl⟩⟩
  · cases h
    exact ⟨⟨ha, rfl, hd, fun _ _ => h1⟩, rfl, le_refl _, fun _ env he => ⟨⟨he, trivial⟩, fun k =>
      Expr.val_const ha h1 env 0 k⟩⟩

theorem sumT_err {a : Expr} {d : Nat} {er} (h : sumT a d = .error er) : er ≠ .fuel := by
  unfold sumT at h
  split_ifs at h
  · cases h; simp
  · split at h <;> cases h

/-- What `broadcast` returns. -/
theorem broadcast_ok {a : Expr} {d : Nat} (ha : a.WF) (hd : 0 < d) {r : Expr}
    (h : broadcast a d = .ok r) :
    (a.dim = d ∨ a.dim = 1 ∨ d = 1) ∧ r.WF ∧ r.dim = max a.dim d ∧ r.wt ≤ a.wt + 1 ∧
      ∀ (Δ : Domain) env, a.Dom Δ env → r.Dom Δ env ∧ ∀ k, r.val env k = a.val env k := by
  have := ha.pos
  unfold broadcast at h
  split_ifs at h with h1 h2
  · cases h
    exact ⟨by omega, ha, by omega, by omega, fun _ env he => ⟨he, fun _ => rfl⟩⟩
  · obtain ⟨_, g1, g2, g3, g4⟩ := sumT_ok ha hd h
    exact ⟨by omega, g1, by omega, g3, g4⟩

theorem broadcast_err {a : Expr} {d : Nat} {er} (h : broadcast a d = .error er) : er ≠ .fuel := by
  unfold broadcast at h
  split_ifs at h
  · exact sumT_err h
  · cases h; simp

/-- What `square` returns. -/
theorem square_ok {a : Expr} (ha : a.WF) {r : Expr} (h : square a = .ok r) :
    r.WF ∧ r.dim = a.dim ∧ r.wt ≤ a.wt + 1 ∧
      ∀ (Δ : Domain) env, a.Dom Δ env → r.Dom Δ env ∧ ∀ k, r.val env k = a.val env k * a.val env k := by
  unfold square at h
  split at h
  · rename_i hz
    have := asZero_some hz; subst this
    cases h
    exact ⟨ha, rfl, by omega, fun _ env _ => ⟨trivial, fun k => by simp [Expr.val]⟩⟩
  · obtain ⟨rfl, _⟩ := mkUn_ok h
    exact ⟨⟨ha, rfl, ha.pos, fun _ h => by cases h⟩, rfl, le_refl _,
      fun _ env he => ⟨⟨he, trivial⟩, fun k => by simp [Expr.val, unVal, pow_two]⟩⟩

theorem square_err {a : Expr} {er} (h : square a = .error er) : er ≠ .fuel := by
  unfold square at h
  split at h
  · cases h
  · exact mkUn_err h


theorem mulRank_le (a b : Expr) : mulRank a b ≤ 4 := by
  unfold mulRank; split_ifs <;> omega

/-! ## Tactics -/

theorem wt2_bin_l (o f g b) : wt2 (.bin o f g) b = (Expr.bin o f g).wt + b.wt + 1 := rfl
theorem wt2_un_l (o f b) : wt2 (.un o f) b = (Expr.un o f).wt + b.wt + 1 := rfl
theorem wt2_zero_l (d b) : wt2 (.zero d) b = (Expr.zero d).wt + b.wt + 1 := rfl
theorem wt2_bin_r (o f g a) : wt2 a (.bin o f g) = a.wt + (Expr.bin o f g).wt + 1 := by
  simp [wt2, Expr.isConst]
theorem wt2_un_r (o f a) : wt2 a (.un o f) = a.wt + (Expr.un o f).wt + 1 := by
  simp [wt2, Expr.isConst]
theorem wt2_zero_r (d a) : wt2 a (.zero d) = a.wt + (Expr.zero d).wt + 1 := by
  simp [wt2, Expr.isConst]

/-- Unfold dimensions, weights and measures, and conclude by linear arithmetic. -/
macro "dm" : tactic => `(tactic| (
  try simp only [Req.dim, Req.Compat, Req.wt, Req.meas, Req.rank, Expr.dim, Expr.wt, Bin.dim, Un.dim,
    wt2_bin_l, wt2_un_l, wt2_zero_l, wt2_bin_r, wt2_un_r, wt2_zero_r] at *
  omega))

/-- Numerical facts about the result of a call. -/
macro "post" h:ident : tactic => `(tactic| (
  have := ($h).dim
  have := ($h).compat
  have := ($h).wt
  have := ($h).wf.pos))

/-- Compute values. -/
macro "sv" "[" hs:Lean.Parser.Tactic.simpLemma,* "]" : tactic => `(tactic| (
  simp only [$hs,*, Req.val, Expr.val, binVal, unVal]))

/-! ## Add -/

section Add

variable {a b : Expr} {p : Prog} (ha : a.WF) (hb : b.WF)

include ha hb

theorem addZero_sat (h : addZero a b = some p) : p.Sat Δ (Req.add a b).meas (Post Δ (.add a b)) := by
  have pa := ha.pos
  have pb := hb.pos
  unfold addZero at h
  split at h
  · rename_i d h0
    have := asZero_some h0; subst this
    cases h
    refine sat_ret (fun er => broadcast_err) fun r hr => ?_
    obtain ⟨h1, h2, h3, h4, h5⟩ := broadcast_ok hb ha hr
    refine ⟨h2, by dm, by dm, by dm, fun env h => ?_⟩
    obtain ⟨e1, e2⟩ := h5 Δ env h.2
    exact ⟨e1, fun k => by sv [e2]; ring⟩
  · rename_i d _ h0
    have := asZero_some h0; subst this
    cases h
    refine sat_ret (fun er => broadcast_err) fun r hr => ?_
    obtain ⟨h1, h2, h3, h4, h5⟩ := broadcast_ok ha hb hr
    refine ⟨h2, by dm, by dm, by dm, fun env h => ?_⟩
    obtain ⟨e1, e2⟩ := h5 Δ env h.1
    exact ⟨e1, fun k => by sv [e2]; ring⟩
  · split_ifs at h with hab
    subst hab
    rw [show intCst 2 = .int 2 from rfl] at h
    cases h
    have hw : wt2 (.int 2) a ≤ wt2 a a ∧ 1 ≤ wt2 a a := by
      unfold wt2
      have := a.wt_pos
      cases a.isConst <;> simp [Expr.isConst, Expr.wt]
      omega
    have := mulRank_le (.int 2) a
    refine sat_tail ⟨trivial, ha⟩ (by dm) fun e he => ?_
    have hd : e.dim = a.dim := he.dim.trans (Nat.max_eq_right pa)
    refine ⟨he.wf, hd.trans (max_self _).symm, Or.inl rfl, he.wt.trans hw.1, fun env h => ?_⟩
    obtain ⟨e1, e2⟩ := he.sem env ⟨trivial, h.1⟩
    exact ⟨e1, fun k => by sv [e2]; push_cast; ring⟩

theorem addConst_sat (h : addConst a b = some p) : p.Sat Δ (Req.add a b).meas (Post Δ (.add a b)) := by
  unfold addConst at h
  split at h
  · cases h
    exact ⟨intCst_wf _, by rw [intCst_dim]; rfl, Or.inl rfl, (intCst_wt _).le,
      fun env _ => ⟨intCst_def _ _, fun k => by sv [intCst_val]; push_cast; ring⟩⟩
  · rename_i m p q
    cases h
    refine sat_ret (fun er => ratCst_err) fun r hr => ?_
    obtain ⟨h1, h2, h3, h4, h5⟩ := ratCst_ok hr
    refine ⟨h1, h2, Or.inl rfl, h3.le, fun env _ => ⟨h4 _ _, fun k => ?_⟩⟩
    have hq : (q : ℝ) ≠ 0 := by exact_mod_cast (show q ≠ 0 from hb)
    sv [h5]; push_cast; field_simp
  · cases h
    exact fun h => by cases h
  · rename_i p q m n
    cases h
    refine sat_ret (fun er => ratCst_err) fun r hr => ?_
    obtain ⟨h1, h2, h3, h4, h5⟩ := ratCst_ok hr
    refine ⟨h1, h2, Or.inl rfl, h3.le, fun env _ => ⟨h4 _ _, fun k => ?_⟩⟩
    have hq : (q : ℝ) ≠ 0 := by exact_mod_cast (show q ≠ 0 from ha)
    have hn : (n : ℝ) ≠ 0 := by exact_mod_cast (show n ≠ 0 from hb)
    sv [h5]; push_cast; field_simp
  · cases h

theorem addConst_none (h : addConst a b = none) : a.isConst = false ∨ b.isConst = false := by
  cases a <;> cases b <;> simp_all [addConst, Expr.isConst]

theorem addGatherL_sat (h : addGatherL a b = some p) :
    p.Sat Δ (Req.add a b).meas (Post Δ (.add a b)) := by
  unfold addGatherL at h
  split_ifs at h with hc
  have := isConst_wt hc
  have := isConst_dim hc
  split at h
  · rename_i r g h0
    have := asBin_some h0; subst this
    split_ifs at h with hr
    cases h
    have := isConst_wt hr
    have := isConst_dim hr
    have := wt2_const hc hr
    refine ⟨⟨ha, hb.1⟩, by dm, fun c hc' => ?_⟩
    post hc'
    have := wt2_le c g
    refine sat_tail ⟨hc'.wf, hb.2.1⟩ (by dm) fun e he => ?_
    post he
    refine ⟨he.wf, by dm, by dm, by dm, fun env ⟨h1, h2, h3, _⟩ => ?_⟩
    obtain ⟨c1, c2⟩ := hc'.sem env ⟨h1, h2⟩
    obtain ⟨e1, e2⟩ := he.sem env ⟨c1, h3⟩
    exact ⟨e1, fun k => by sv [e2, c2]; ring⟩
  · rename_i r g _ h0
    have := asBin_some h0; subst this
    split_ifs at h with hr
    cases h
    have := isConst_wt hr
    have := isConst_dim hr
    have := wt2_const hc hr
    refine ⟨⟨ha, hb.1⟩, by dm, fun c hc' => ?_⟩
    post hc'
    have := wt2_le c g
    refine sat_tail ⟨hc'.wf, hb.2.1⟩ (by dm) fun e he => ?_
    post he
    refine ⟨he.wf, by dm, by dm, by dm, fun env ⟨h1, h2, h3, _⟩ => ?_⟩
    obtain ⟨c1, c2⟩ := hc'.sem env ⟨h1, h2⟩
    obtain ⟨e1, e2⟩ := he.sem env ⟨c1, h3⟩
    exact ⟨e1, fun k => by sv [e2, c2]; ring⟩
  · cases h

theorem addGatherR_sat (h : addGatherR a b = some p) :
    p.Sat Δ (Req.add a b).meas (Post Δ (.add a b)) := by
  unfold addGatherR at h
  split_ifs at h with hc
  have := isConst_wt hc
  have := isConst_dim hc
  split at h
  · rename_i r g h0
    have := asBin_some h0; subst this
    split_ifs at h with hr
    cases h
    have := isConst_wt hr
    have := isConst_dim hr
    have := wt2_const hc hr
    refine ⟨⟨hb, ha.1⟩, by dm, fun c hc' => ?_⟩
    post hc'
    have := wt2_le c g
    refine sat_tail ⟨hc'.wf, ha.2.1⟩ (by dm) fun e he => ?_
    post he
    refine ⟨he.wf, by dm, by dm, by dm, fun env ⟨⟨h2, h3, _⟩, h1⟩ => ?_⟩
    obtain ⟨c1, c2⟩ := hc'.sem env ⟨h1, h2⟩
    obtain ⟨e1, e2⟩ := he.sem env ⟨c1, h3⟩
    exact ⟨e1, fun k => by sv [e2, c2]; ring⟩
  · rename_i r g _ h0
    have := asBin_some h0; subst this
    split_ifs at h with hr
    cases h
    have := isConst_wt hr
    have := isConst_dim hr
    have := wt2_const hc hr
    refine ⟨⟨hb, ha.1⟩, by dm, fun c hc' => ?_⟩
    post hc'
    have := wt2_le c g
    refine sat_tail ⟨hc'.wf, ha.2.1⟩ (by dm) fun e he => ?_
    post he
    refine ⟨he.wf, by dm, by dm, by dm, fun env ⟨⟨h2, h3, _⟩, h1⟩ => ?_⟩
    obtain ⟨c1, c2⟩ := hc'.sem env ⟨h1, h2⟩
    obtain ⟨e1, e2⟩ := he.sem env ⟨c1, h3⟩
    exact ⟨e1, fun k => by sv [e2, c2]; ring⟩
  · cases h

theorem addFactor_sat (h : addFactor a b = some p) :
    p.Sat Δ (Req.add a b).meas (Post Δ (.add a b)) := by
  unfold addFactor at h
  split at h
  · rename_i x y c d h1 h2
    have := asBin_some h1; subst this
    have := asBin_some h2; subst this
    have := ha.dims rfl
    have := hb.dims rfl
    have := ha.pos
    have := hb.pos
    obtain ⟨hx, hy, _⟩ := ha
    obtain ⟨hc, hd, _⟩ := hb
    have := hx.pos
    have := hy.pos
    have := hc.pos
    have := hd.pos
    split_ifs at h with e1 e2 e3 e4
    · subst e1
      cases h
      have := wt2_le y d
      refine ⟨⟨hy, hd⟩, by dm, fun s hs => ?_⟩
      post hs
      have := wt2_le x s
      have := mulRank_le x s
      refine sat_tail ⟨hx, hs.wf⟩ (by dm) fun e he => ?_
      post he
      refine ⟨he.wf, by dm, by dm, by dm, fun env ⟨⟨a1, a2, _⟩, b1, b2, _⟩ => ?_⟩
      obtain ⟨c1, c2⟩ := hs.sem env ⟨a2, b2⟩
      obtain ⟨e1, e2⟩ := he.sem env ⟨a1, c1⟩
      exact ⟨e1, fun k => by sv [e2, c2]; ring⟩
    · subst e2
      cases h
      have := wt2_le y c
      refine ⟨⟨hy, hc⟩, by dm, fun s hs => ?_⟩
      post hs
      have := wt2_le x s
      have := mulRank_le x s
      refine sat_tail ⟨hx, hs.wf⟩ (by dm) fun e he => ?_
      post he
      refine ⟨he.wf, by dm, by dm, by dm, fun env ⟨⟨a1, a2, _⟩, b1, b2, _⟩ => ?_⟩
      obtain ⟨c1, c2⟩ := hs.sem env ⟨a2, b1⟩
      obtain ⟨e1, e2⟩ := he.sem env ⟨a1, c1⟩
      exact ⟨e1, fun k => by sv [e2, c2]; ring⟩
    · subst e3
      cases h
      have := wt2_le x d
      refine ⟨⟨hx, hd⟩, by dm, fun s hs => ?_⟩
      post hs
      have := wt2_le y s
      have := mulRank_le y s
      refine sat_tail ⟨hy, hs.wf⟩ (by dm) fun e he => ?_
      post he
      refine ⟨he.wf, by dm, by dm, by dm, fun env ⟨⟨a1, a2, _⟩, b1, b2, _⟩ => ?_⟩
      obtain ⟨c1, c2⟩ := hs.sem env ⟨a1, b2⟩
      obtain ⟨e1, e2⟩ := he.sem env ⟨a2, c1⟩
      exact ⟨e1, fun k => by sv [e2, c2]; ring⟩
    · subst e4
      cases h
      have := wt2_le x c
      refine ⟨⟨hx, hc⟩, by dm, fun s hs => ?_⟩
      post hs
      have := wt2_le y s
      have := mulRank_le y s
      refine sat_tail ⟨hy, hs.wf⟩ (by dm) fun e he => ?_
      post he
      refine ⟨he.wf, by dm, by dm, by dm, fun env ⟨⟨a1, a2, _⟩, b1, b2, _⟩ => ?_⟩
      obtain ⟨c1, c2⟩ := hs.sem env ⟨a1, b1⟩
      obtain ⟨e1, e2⟩ := he.sem env ⟨a2, c1⟩
      exact ⟨e1, fun k => by sv [e2, c2]; ring⟩
  · cases h

theorem addMultiple_other_sat (h : addMultiple.other a b = some p) :
    p.Sat Δ (Req.add a b).meas (Post Δ (.add a b)) := by
  unfold addMultiple.other at h
  split at h
  · rename_i n g h1
    have := asBin_some h1; subst this
    split_ifs at h with e1
    subst e1
    cases h
    have := ha.pos
    have := wt2_le (intCst (n + 1)) g
    have := mulRank_le (intCst (n + 1)) g
    have hd := intCst_dim (n + 1)
    have := intCst_wt (n + 1)
    refine sat_tail ⟨intCst_wf _, ha⟩ (by dm) fun e he => ?_
    have hd' : e.dim = max (intCst (n + 1)).dim g.dim := he.dim
    rw [hd] at hd'
    have := he.wt
    refine ⟨he.wf, by dm, by dm, by dm, fun env ⟨a1, _⟩ => ?_⟩
    obtain ⟨e1, e2⟩ := he.sem env ⟨intCst_def _ _, a1⟩
    exact ⟨e1, fun k => by sv [e2, intCst_val]; push_cast; ring⟩
  · cases h

theorem addMultiple_sat (h : addMultiple a b = some p) :
    p.Sat Δ (Req.add a b).meas (Post Δ (.add a b)) := by
  unfold addMultiple at h
  split at h
  · rename_i n g h1
    split_ifs at h with e1
    · have := asBin_some h1; subst this
      subst e1
      cases h
      have := hb.pos
      have := wt2_le (intCst (n + 1)) g
      have := mulRank_le (intCst (n + 1)) g
      have hd := intCst_dim (n + 1)
      have := intCst_wt (n + 1)
      refine sat_tail ⟨intCst_wf _, hb⟩ (by dm) fun e he => ?_
      have hd' : e.dim = max (intCst (n + 1)).dim g.dim := he.dim
      rw [hd] at hd'
      have := he.wt
      refine ⟨he.wf, by dm, by dm, by dm, fun env ⟨_, a1⟩ => ?_⟩
      obtain ⟨e1, e2⟩ := he.sem env ⟨intCst_def _ _, a1⟩
      exact ⟨e1, fun k => by sv [e2, intCst_val]; push_cast; ring⟩
    · exact addMultiple_other_sat ha hb h
  · exact addMultiple_other_sat ha hb h

theorem addMinus_sat (h : addMinus a b = some p) :
    p.Sat Δ (Req.add a b).meas (Post Δ (.add a b)) := by
  unfold addMinus at h
  split at h
  · rename_i g h1
    have := asUn_some h1; subst this
    split at h
    · rename_i f h2
      have := asUn_some h2; subst this
      cases h
      have := wt2_le f g
      refine ⟨⟨ha.1, hb.1⟩, by dm, fun s hs => ?_⟩
      post hs
      have := wt1_le s
      refine sat_tail hs.wf (by dm) fun e he => ?_
      post he
      refine ⟨he.wf, by dm, by dm, by dm, fun env ⟨⟨a1, _⟩, b1, _⟩ => ?_⟩
      obtain ⟨c1, c2⟩ := hs.sem env ⟨a1, b1⟩
      obtain ⟨e1, e2⟩ := he.sem env c1
      exact ⟨e1, fun k => by sv [e2, c2]; ring⟩
    · cases h
      have := wt2_le a g
      refine sat_tail ⟨ha, hb.1⟩ (by dm) fun e he => ?_
      post he
      refine ⟨he.wf, by dm, by dm, by dm, fun env ⟨a1, b1, _⟩ => ?_⟩
      obtain ⟨e1, e2⟩ := he.sem env ⟨a1, b1⟩
      exact ⟨e1, fun k => by sv [e2]; ring⟩
  · cases h

theorem stepAdd_sat : (stepAdd a b).Sat Δ (Req.add a b).meas (Post Δ (.add a b)) := by
  unfold stepAdd firstRule
  rcases h1 : addZero a b with _ | p; swap
  · exact addZero_sat ha hb h1
  rcases h2 : addConst a b with _ | p; swap
  · exact addConst_sat ha hb h2
  rcases h3 : addGatherL a b with _ | p; swap
  · exact addGatherL_sat ha hb h3
  rcases h4 : addGatherR a b with _ | p; swap
  · exact addGatherR_sat ha hb h4
  rcases h5 : addFactor a b with _ | p; swap
  · exact addFactor_sat ha hb h5
  rcases h6 : addMultiple a b with _ | p; swap
  · exact addMultiple_sat ha hb h6
  rcases h7 : addMinus a b with _ | p; swap
  · exact addMinus_sat ha hb h7
  refine sat_ret (fun er => mkBin_err) fun r hr => ?_
  obtain ⟨rfl, hok⟩ := mkBin_ok hr
  have pa := ha.pos
  have pb := hb.pos
  refine ⟨⟨ha, hb, hok, by dm⟩, rfl, (dimsOk_pair pa pb).mp hok, ?_, fun env h => ⟨⟨h.1, h.2, trivial⟩,
    fun k => rfl⟩⟩
  rcases addConst_none ha hb h2 with h | h
  · exact (wt2_left h b).ge
  · exact (wt2_right h a).ge

end Add

/-! ## Subtract -/

section Sub

variable {a b : Expr} {p : Prog} (ha : a.WF) (hb : b.WF)

include ha hb

theorem subZero_sat (h : subZero a b = some p) : p.Sat Δ (Req.sub a b).meas (Post Δ (.sub a b)) := by
  have pa := ha.pos
  have pb := hb.pos
  unfold subZero at h
  split at h
  · rename_i d h0
    have := asZero_some h0; subst this
    cases h
    refine sat_bind (sat_ret (fun er => broadcast_err) fun r hr => broadcast_ok hb ha hr) ?_
    rintro c ⟨h1, h2, h3, h4, h5⟩
    have := wt1_le c
    refine sat_tail h2 (by dm) fun e he => ?_
    post he
    refine ⟨he.wf, by dm, by dm, by dm, fun env h => ?_⟩
    obtain ⟨c1, c2⟩ := h5 Δ env h.2
    obtain ⟨e1, e2⟩ := he.sem env c1
    exact ⟨e1, fun k => by sv [e2, c2]; ring⟩
  · rename_i d _ h0
    have := asZero_some h0; subst this
    cases h
    refine sat_ret (fun er => broadcast_err) fun r hr => ?_
    obtain ⟨h1, h2, h3, h4, h5⟩ := broadcast_ok ha hb hr
    refine ⟨h2, by dm, by dm, by dm, fun env h => ?_⟩
    obtain ⟨e1, e2⟩ := h5 Δ env h.1
    exact ⟨e1, fun k => by sv [e2]; ring⟩
  · split_ifs at h with hab
    subst hab
    cases h
    have hw : 1 ≤ wt2 a a := by unfold wt2; split <;> omega
    exact ⟨pa, (max_self _).symm, Or.inl rfl, hw, fun env _ => ⟨trivial, fun k => by simp [Req.val, Expr.val]⟩⟩

theorem subConst_sat (h : subConst a b = some p) : p.Sat Δ (Req.sub a b).meas (Post Δ (.sub a b)) := by
  unfold subConst at h
  split at h
  · cases h
    exact ⟨intCst_wf _, by rw [intCst_dim]; rfl, Or.inl rfl, (intCst_wt _).le,
      fun env _ => ⟨intCst_def _ _, fun k => by sv [intCst_val]; push_cast; ring⟩⟩
  · rename_i m p q
    cases h
    refine sat_ret (fun er => ratCst_err) fun r hr => ?_
    obtain ⟨h1, h2, h3, h4, h5⟩ := ratCst_ok hr
    refine ⟨h1, h2, Or.inl rfl, h3.le, fun env _ => ⟨h4 _ _, fun k => ?_⟩⟩
    have hq : (q : ℝ) ≠ 0 := by exact_mod_cast (show q ≠ 0 from hb)
    sv [h5]; push_cast; field_simp
  · cases h
    exact fun h => by cases h
  · rename_i p q m n
    cases h
    refine sat_ret (fun er => ratCst_err) fun r hr => ?_
    obtain ⟨h1, h2, h3, h4, h5⟩ := ratCst_ok hr
    refine ⟨h1, h2, Or.inl rfl, h3.le, fun env _ => ⟨h4 _ _, fun k => ?_⟩⟩
    have hq : (q : ℝ) ≠ 0 := by exact_mod_cast (show q ≠ 0 from ha)
    have hn : (n : ℝ) ≠ 0 := by exact_mod_cast (show n ≠ 0 from hb)
    sv [h5]; push_cast; field_simp
  · cases h

theorem subConst_none (h : subConst a b = none) : a.isConst = false ∨ b.isConst = false := by
  cases a <;> cases b <;> simp_all [subConst, Expr.isConst]

theorem subGatherL_sat (h : subGatherL a b = some p) :
    p.Sat Δ (Req.sub a b).meas (Post Δ (.sub a b)) := by
  unfold subGatherL at h
  split_ifs at h with hc
  have := isConst_wt hc
  have := isConst_dim hc
  split at h
  · rename_i r g h0
    have := asBin_some h0; subst this
    split_ifs at h with hr
    cases h
    have := isConst_wt hr
    have := isConst_dim hr
    have := wt2_const hc hr
    refine ⟨⟨ha, hb.1⟩, by dm, fun c hc' => ?_⟩
    post hc'
    have := wt2_le c g
    refine sat_tail ⟨hc'.wf, hb.2.1⟩ (by dm) fun e he => ?_
    post he
    refine ⟨he.wf, by dm, by dm, by dm, fun env ⟨h1, h2, h3, _⟩ => ?_⟩
    obtain ⟨c1, c2⟩ := hc'.sem env ⟨h1, h2⟩
    obtain ⟨e1, e2⟩ := he.sem env ⟨c1, h3⟩
    exact ⟨e1, fun k => by sv [e2, c2]; ring⟩
  · rename_i r g _ h0
    have := asBin_some h0; subst this
    split_ifs at h with hr
    cases h
    have := isConst_wt hr
    have := isConst_dim hr
    have := wt2_const hc hr
    refine ⟨⟨ha, hb.1⟩, by dm, fun c hc' => ?_⟩
    post hc'
    have := wt2_le c g
    refine sat_tail ⟨hc'.wf, hb.2.1⟩ (by dm) fun e he => ?_
    post he
    refine ⟨he.wf, by dm, by dm, by dm, fun env ⟨h1, h2, h3, _⟩ => ?_⟩
    obtain ⟨c1, c2⟩ := hc'.sem env ⟨h1, h2⟩
    obtain ⟨e1, e2⟩ := he.sem env ⟨c1, h3⟩
    exact ⟨e1, fun k => by sv [e2, c2]; ring⟩
  · cases h

theorem subGatherR_sat (h : subGatherR a b = some p) :
    p.Sat Δ (Req.sub a b).meas (Post Δ (.sub a b)) := by
  unfold subGatherR at h
  split_ifs at h with hc
  have := isConst_wt hc
  have := isConst_dim hc
  split at h
  · rename_i r g h0
    have := asBin_some h0; subst this
    split_ifs at h with hr
    cases h
    have := isConst_wt hr
    have := isConst_dim hr
    have := wt2_const hr hc
    refine ⟨⟨ha.1, hb⟩, by dm, fun c hc' => ?_⟩
    post hc'
    have := wt2_le c g
    refine sat_tail ⟨hc'.wf, ha.2.1⟩ (by dm) fun e he => ?_
    post he
    refine ⟨he.wf, by dm, by dm, by dm, fun env ⟨⟨h2, h3, _⟩, h1⟩ => ?_⟩
    obtain ⟨c1, c2⟩ := hc'.sem env ⟨h2, h1⟩
    obtain ⟨e1, e2⟩ := he.sem env ⟨c1, h3⟩
    exact ⟨e1, fun k => by sv [e2, c2]; ring⟩
  · rename_i r g _ h0
    have := asBin_some h0; subst this
    split_ifs at h with hr
    cases h
    have := isConst_wt hr
    have := isConst_dim hr
    have := wt2_const hr hc
    refine ⟨⟨ha.1, hb⟩, by dm, fun c hc' => ?_⟩
    post hc'
    have := wt2_le c g
    refine sat_tail ⟨hc'.wf, ha.2.1⟩ (by dm) fun e he => ?_
    post he
    refine ⟨he.wf, by dm, by dm, by dm, fun env ⟨⟨h2, h3, _⟩, h1⟩ => ?_⟩
    obtain ⟨c1, c2⟩ := hc'.sem env ⟨h2, h1⟩
    obtain ⟨e1, e2⟩ := he.sem env ⟨c1, h3⟩
    exact ⟨e1, fun k => by sv [e2, c2]; ring⟩
  · cases h

theorem subFactor_sat (h : subFactor a b = some p) :
    p.Sat Δ (Req.sub a b).meas (Post Δ (.sub a b)) := by
  unfold subFactor at h
  split at h
  · rename_i x y c d h1 h2
    have := asBin_some h1; subst this
    have := asBin_some h2; subst this
    have := ha.dims rfl
    have := hb.dims rfl
    have := ha.pos
    have := hb.pos
    obtain ⟨hx, hy, _⟩ := ha
    obtain ⟨hc, hd, _⟩ := hb
    have := hx.pos
    have := hy.pos
    have := hc.pos
    have := hd.pos
    split_ifs at h with e1 e2 e3 e4
    · subst e1
      cases h
      have := wt2_le y d
      refine ⟨⟨hy, hd⟩, by dm, fun s hs => ?_⟩
      post hs
      have := wt2_le x s
      have := mulRank_le x s
      refine sat_tail ⟨hx, hs.wf⟩ (by dm) fun e he => ?_
      post he
      refine ⟨he.wf, by dm, by dm, by dm, fun env ⟨⟨a1, a2, _⟩, b1, b2, _⟩ => ?_⟩
      obtain ⟨c1, c2⟩ := hs.sem env ⟨a2, b2⟩
      obtain ⟨e1, e2⟩ := he.sem env ⟨a1, c1⟩
      exact ⟨e1, fun k => by sv [e2, c2]; ring⟩
    · subst e2
      cases h
      have := wt2_le y c
      refine ⟨⟨hy, hc⟩, by dm, fun s hs => ?_⟩
      post hs
      have := wt2_le x s
      have := mulRank_le x s
      refine sat_tail ⟨hx, hs.wf⟩ (by dm) fun e he => ?_
      post he
      refine ⟨he.wf, by dm, by dm, by dm, fun env ⟨⟨a1, a2, _⟩, b1, b2, _⟩ => ?_⟩
      obtain ⟨c1, c2⟩ := hs.sem env ⟨a2, b1⟩
      obtain ⟨e1, e2⟩ := he.sem env ⟨a1, c1⟩
      exact ⟨e1, fun k => by sv [e2, c2]; ring⟩
    · subst e3
      cases h
      have := wt2_le x d
      refine ⟨⟨hx, hd⟩, by dm, fun s hs => ?_⟩
      post hs
      have := wt2_le y s
      have := mulRank_le y s
      refine sat_tail ⟨hy, hs.wf⟩ (by dm) fun e he => ?_
      post he
      refine ⟨he.wf, by dm, by dm, by dm, fun env ⟨⟨a1, a2, _⟩, b1, b2, _⟩ => ?_⟩
      obtain ⟨c1, c2⟩ := hs.sem env ⟨a1, b2⟩
      obtain ⟨e1, e2⟩ := he.sem env ⟨a2, c1⟩
      exact ⟨e1, fun k => by sv [e2, c2]; ring⟩
    · subst e4
      cases h
      have := wt2_le x c
      refine ⟨⟨hx, hc⟩, by dm, fun s hs => ?_⟩
      post hs
      have := wt2_le y s
      have := mulRank_le y s
      refine sat_tail ⟨hy, hs.wf⟩ (by dm) fun e he => ?_
      post he
      refine ⟨he.wf, by dm, by dm, by dm, fun env ⟨⟨a1, a2, _⟩, b1, b2, _⟩ => ?_⟩
      obtain ⟨c1, c2⟩ := hs.sem env ⟨a1, b1⟩
      obtain ⟨e1, e2⟩ := he.sem env ⟨a2, c1⟩
      exact ⟨e1, fun k => by sv [e2, c2]; ring⟩
  · cases h

theorem subMultiple_other_sat (h : subMultiple.other a b = some p) :
    p.Sat Δ (Req.sub a b).meas (Post Δ (.sub a b)) := by
  unfold subMultiple.other at h
  split at h
  · rename_i n g h1
    have := asBin_some h1; subst this
    split_ifs at h with e1
    subst e1
    cases h
    have := ha.pos
    have := wt2_le (intCst (1 - n)) g
    have := mulRank_le (intCst (1 - n)) g
    have hd := intCst_dim (1 - n)
    have := intCst_wt (1 - n)
    refine sat_tail ⟨intCst_wf _, ha⟩ (by dm) fun e he => ?_
    have hd' : e.dim = max (intCst (1 - n)).dim g.dim := he.dim
    rw [hd] at hd'
    have := he.wt
    refine ⟨he.wf, by dm, by dm, by dm, fun env ⟨a1, _⟩ => ?_⟩
    obtain ⟨e1, e2⟩ := he.sem env ⟨intCst_def _ _, a1⟩
    exact ⟨e1, fun k => by sv [e2, intCst_val]; push_cast; ring⟩
  · cases h

theorem subMultiple_sat (h : subMultiple a b = some p) :
    p.Sat Δ (Req.sub a b).meas (Post Δ (.sub a b)) := by
  unfold subMultiple at h
  split at h
  · rename_i n g h1
    split_ifs at h with e1
    · have := asBin_some h1; subst this
      subst e1
      cases h
      have := hb.pos
      have := wt2_le (intCst (n - 1)) g
      have := mulRank_le (intCst (n - 1)) g
      have hd := intCst_dim (n - 1)
      have := intCst_wt (n - 1)
      refine sat_tail ⟨intCst_wf _, hb⟩ (by dm) fun e he => ?_
      have hd' : e.dim = max (intCst (n - 1)).dim g.dim := he.dim
      rw [hd] at hd'
      have := he.wt
      refine ⟨he.wf, by dm, by dm, by dm, fun env ⟨_, a1⟩ => ?_⟩
      obtain ⟨e1, e2⟩ := he.sem env ⟨intCst_def _ _, a1⟩
      exact ⟨e1, fun k => by sv [e2, intCst_val]; push_cast; ring⟩
    · exact subMultiple_other_sat ha hb h
  · exact subMultiple_other_sat ha hb h

theorem stepSub_sat : (stepSub a b).Sat Δ (Req.sub a b).meas (Post Δ (.sub a b)) := by
  unfold stepSub firstRule
  rcases h1 : subZero a b with _ | p; swap
  · exact subZero_sat ha hb h1
  rcases h2 : subConst a b with _ | p; swap
  · exact subConst_sat ha hb h2
  rcases h3 : subGatherL a b with _ | p; swap
  · exact subGatherL_sat ha hb h3
  rcases h4 : subGatherR a b with _ | p; swap
  · exact subGatherR_sat ha hb h4
  rcases h5 : subFactor a b with _ | p; swap
  · exact subFactor_sat ha hb h5
  rcases h6 : subMultiple a b with _ | p; swap
  · exact subMultiple_sat ha hb h6
  refine sat_ret (fun er => mkBin_err) fun r hr => ?_
  obtain ⟨rfl, hok⟩ := mkBin_ok hr
  have pa := ha.pos
  have pb := hb.pos
  refine ⟨⟨ha, hb, hok, by dm⟩, rfl, (dimsOk_pair pa pb).mp hok, ?_, fun env h => ⟨⟨h.1, h.2, trivial⟩,
    fun k => rfl⟩⟩
  rcases subConst_none ha hb h2 with h | h
  · exact (wt2_left h b).ge
  · exact (wt2_right h a).ge

end Sub

/-! ## Mult -/

theorem constMul_bin {c f : Expr} : (Expr.bin .mul c f).constMul = c.isConst := by
  simp [Expr.constMul, Expr.asBin]

theorem mulRank_const {c : Expr} (hc : c.isConst = true) (s : Expr) : mulRank c s ≤ 3 := by
  rcases isConst_cases hc with ⟨n, rfl⟩ | ⟨p, q, rfl⟩
  · simp [mulRank, Expr.asInt]
  · unfold mulRank
    have : (Expr.rat p q).asRat.isSome = true := rfl
    rw [this, if_pos rfl]
    split_ifs <;> omega

theorem mulRank_exp_r (s x : Expr) : mulRank s (.un .exp x) ≤ 2 := by
  unfold mulRank
  have : ((Expr.un .exp x).asUn .exp).isSome = true := by simp [Expr.asUn]
  rw [this, if_pos rfl]
  split_ifs <;> first | omega | rename_i h; simp [Expr.asSumT] at h

/-- Products of which the rank is the largest. -/
theorem mulRank_eq_four {a b : Expr} (h1 : a.isConst = false)
    (h2 : b.asSumT = none ∨ a.constMul = true) (h3 : b.asUn .exp = none) : mulRank a b = 4 := by
  unfold mulRank
  have e1 : a.asInt = none := by cases a <;> simp_all [Expr.isConst, Expr.asInt]
  have e2 : a.asRat = none := by cases a <;> simp_all [Expr.isConst, Expr.asRat]
  rw [e1, e2, h3]
  rcases h2 with h | h <;> simp [h]

theorem mulRank_ge_three {a b : Expr} (h1 : a.asInt = none)
    (h2 : b.asSumT = none) (h3 : b.asUn .exp = none) : 3 ≤ mulRank a b := by
  unfold mulRank
  rw [h1, h2, h3]
  simp
  split_ifs <;> omega

section Mul

variable {a b : Expr} {p : Prog} (ha : a.WF) (hb : b.WF)

include ha hb

theorem mulZero_sat (h : mulZero a b = some p) : p.Sat Δ (Req.mul a b).meas (Post Δ (.mul a b)) := by
  have pa := ha.pos
  have pb := hb.pos
  unfold mulZero at h
  split at h
  · rename_i d h0
    have := asZero_some h0; subst this
    cases h
    refine sat_ret (fun er => broadcast_err) fun r hr => ?_
    obtain ⟨h1, h2, h3, h4, h5⟩ := broadcast_ok ha pb hr
    refine ⟨h2, by dm, by dm, by dm, fun env h => ?_⟩
    obtain ⟨e1, e2⟩ := h5 Δ env h.1
    exact ⟨e1, fun k => by sv [e2]; ring⟩
  · rename_i d _ h0
    have := asZero_some h0; subst this
    cases h
    refine sat_ret (fun er => broadcast_err) fun r hr => ?_
    obtain ⟨h1, h2, h3, h4, h5⟩ := broadcast_ok hb pa hr
    refine ⟨h2, by dm, by dm, by dm, fun env h => ?_⟩
    obtain ⟨e1, e2⟩ := h5 Δ env h.2
    exact ⟨e1, fun k => by sv [e2]; ring⟩
  · cases h

theorem mulInt_sat (h : mulInt a b = some p) : p.Sat Δ (Req.mul a b).meas (Post Δ (.mul a b)) := by
  have pb := hb.pos
  unfold mulInt at h
  split at h
  · rename_i m h0
    have := asInt_some h0; subst this
    have hmax : max (Expr.int m).dim b.dim = b.dim := Nat.max_eq_right pb
    have hcompat : (Req.mul (.int m) b).Compat := Or.inr (Or.inl rfl)
    have hwt : b.wt ≤ wt2 (.int m) b ∧ wt1 b ≤ wt2 (.int m) b := by
      cases hb' : b.isConst
      · rw [wt2_right hb']
        have := wt1_le b
        omega
      · rw [wt2_const rfl hb', wt1_const hb', isConst_wt hb']; omega
    split_ifs at h with h1 h2
    · cases h
      subst h1
      exact ⟨hb, hmax.symm, hcompat, hwt.1, fun env h => ⟨h.2, fun k => by simp only [Req.val, Expr.val]; simp⟩⟩
    · subst h2
      cases h
      refine sat_tail hb (by dm) fun e he => ?_
      refine ⟨he.wf, he.dim.trans hmax.symm, hcompat, he.wt.trans hwt.2, fun env h => ?_⟩
      obtain ⟨e1, e2⟩ := he.sem env h.2
      exact ⟨e1, fun k => by sv [e2]; simp⟩
    · split at h
      · rename_i n h3
        have := asInt_some h3; subst this
        cases h
        exact ⟨trivial, rfl, hcompat, le_refl _, fun env _ => ⟨trivial, fun k => by simp only [Req.val, Expr.val]; push_cast; ring⟩⟩
      · rename_i p q _ h3
        have := asRat_some h3; subst this
        cases h
        refine sat_ret (fun er => ratCst_err) fun r hr => ?_
        obtain ⟨g1, g2, g3, g4, g5⟩ := ratCst_ok hr
        exact ⟨g1, g2, hcompat, g3.le, fun env _ => ⟨g4 _ _, fun k => by sv [g5]; push_cast; ring⟩⟩
      · cases h
  · cases h

theorem mulInt_none (h : mulInt a b = none) (hc : b.isConst = true) : a.asInt = none := by
  unfold mulInt at h
  split at h
  · rename_i m h0
    split_ifs at h
    rcases isConst_cases hc with ⟨n, rfl⟩ | ⟨p, q, rfl⟩ <;> simp [Expr.asInt, Expr.asRat] at h
  · rename_i h0; exact h0

theorem mulSwapInt_sat (h0 : mulInt a b = none) (h : mulSwapInt a b = some p) :
    p.Sat Δ (Req.mul a b).meas (Post Δ (.mul a b)) := by
  unfold mulSwapInt at h
  split at h
  · rename_i n h1
    have := asInt_some h1; subst this
    cases h
    have hw : wt2 (.int n) a = wt2 a (.int n) := by
      unfold wt2; rw [Bool.and_comm]; simp only [add_comm]
    have hr : mulRank (.int n) a = 2 := by simp [mulRank, Expr.asInt]
    have hr' : 3 ≤ mulRank a (.int n) := mulRank_ge_three (mulInt_none ha hb h0 rfl) rfl rfl
    refine sat_tail ⟨hb, ha⟩ (by dm) fun e he => ?_
    post he
    refine ⟨he.wf, he.dim.trans (max_comm _ _), Or.inr (Or.inr rfl), by dm, fun env h => ?_⟩
    obtain ⟨e1, e2⟩ := he.sem env ⟨h.2, h.1⟩
    exact ⟨e1, fun k => by sv [e2]; ring⟩
  · cases h

theorem mulRat_sat (h : mulRat a b = some p) : p.Sat Δ (Req.mul a b).meas (Post Δ (.mul a b)) := by
  unfold mulRat at h
  split at h
  · rename_i p q m n h1 h2
    have := asRat_some h1; subst this
    have := asRat_some h2; subst this
    cases h
    refine sat_ret (fun er => ratCst_err) fun r hr => ?_
    obtain ⟨g1, g2, g3, g4, g5⟩ := ratCst_ok hr
    refine ⟨g1, g2, Or.inl rfl, g3.le, fun env _ => ⟨g4 _ _, fun k => ?_⟩⟩
    sv [g5]; push_cast; rw [div_mul_div_comm]
  · cases h

omit ha hb in
/-- At this point the arguments are not both constant. -/
theorem mul_not_const (h1 : mulInt a b = none) (h2 : mulSwapInt a b = none)
    (h3 : mulRat a b = none) : a.isConst = false ∨ b.isConst = false := by
  by_contra hcon
  simp only [not_or, Bool.not_eq_false] at hcon
  rcases isConst_cases hcon.2 with ⟨n, rfl⟩ | ⟨p, q, rfl⟩
  · simp [mulSwapInt, Expr.asInt] at h2
  · rcases isConst_cases hcon.1 with ⟨n, rfl⟩ | ⟨m, l, rfl⟩
    · simp only [mulInt, Expr.asInt, Expr.asRat] at h1
      split_ifs at h1
    · simp [mulRat, Expr.asRat] at h3

theorem mulConstR_sat (h : mulConstR a b = some p) :
    p.Sat Δ (Req.mul a b).meas (Post Δ (.mul a b)) := by
  unfold mulConstR at h
  have key : ∀ {c g : Expr}, b = .bin .mul c g → c.isConst = true → a.isConst = false →
      (call (.mul a g) fun s => tail (.mul c s)).Sat Δ (Req.mul a b).meas (Post Δ (.mul a b)) := by
    rintro c g rfl hc hna
    have hr : mulRank a (.bin .mul c g) = 4 := mulRank_eq_four hna (Or.inl rfl) rfl
    have pc := isConst_dim hc
    have := isConst_wt hc
    have := wt2_le a g
    have := mulRank_le a g
    have := ha.pos
    have := hb.2.1.pos
    refine ⟨⟨ha, hb.2.1⟩, by dm, fun s hs => ?_⟩
    post hs
    have := wt2_le c s
    have := mulRank_const hc s
    refine sat_tail ⟨hb.1, hs.wf⟩ (by dm) fun e he => ?_
    post he
    refine ⟨he.wf, by dm, by dm, by dm, fun env ⟨a1, c1, g1, _⟩ => ?_⟩
    obtain ⟨s1, s2⟩ := hs.sem env ⟨a1, g1⟩
    obtain ⟨e1, e2⟩ := he.sem env ⟨c1, s1⟩
    exact ⟨e1, fun k => by sv [e2, s2]; ring⟩
  split at h
  · rename_i n g h0
    have h0 := asBin_some h0
    split at h
    · rename_i m h1
      have := asInt_some h1; subst this
      subst h0
      cases h
      have := wt2_le (intCst (m * n)) g
      have := mulRank_le (intCst (m * n)) g
      have hd := intCst_dim (m * n)
      have := intCst_wt (m * n)
      have pg := hb.2.1.pos
      refine sat_tail ⟨intCst_wf _, hb.2.1⟩ (by dm) fun e he => ?_
      have hd' : e.dim = max (intCst (m * n)).dim g.dim := he.dim
      rw [hd] at hd'
      have := he.wt
      have hmax : (Req.mul (.int m) (.bin .mul (.int n) g)).dim = g.dim := by
        show max 1 (max 1 g.dim) = g.dim
        rw [Nat.max_eq_right pg, Nat.max_eq_right pg]
      refine ⟨he.wf, by rw [hmax, hd', Nat.max_eq_right pg], Or.inr (Or.inl rfl), by dm,
        fun env ⟨_, _, g1, _⟩ => ?_⟩
      obtain ⟨e1, e2⟩ := he.sem env ⟨intCst_def _ _, g1⟩
      exact ⟨e1, fun k => by sv [e2, intCst_val]; push_cast; ring⟩
    · rename_i h1
      by_cases hc : a.isConst = true
      · -- `a` is a rational constant
        rcases isConst_cases hc with ⟨m, rfl⟩ | ⟨p', q', rfl⟩
        · simp [Expr.asInt] at h1
        · cases h
          subst h0
          have pg := hb.2.1.pos
          have := wt2_le (.rat p' q') g
          have := mulRank_le (.rat p' q') g
          refine ⟨⟨ha, hb.2.1⟩, by dm, fun s hs => ?_⟩
          have hd' : s.dim = max 1 g.dim := hs.dim
          rw [Nat.max_eq_right pg] at hd'
          have := hs.wt
          have := wt2_le (.int n) s
          have hr : mulRank (.int n) s = 2 := by simp [mulRank, Expr.asInt]
          have hr' : 3 ≤ mulRank (.rat p' q') (.bin .mul (.int n) g) :=
            mulRank_ge_three rfl rfl rfl
          refine sat_tail ⟨hb.1, hs.wf⟩ (by dm) fun e he => ?_
          have hd2 : e.dim = max 1 s.dim := he.dim
          have := he.wt
          have hmax : (Req.mul (.rat p' q') (.bin .mul (.int n) g)).dim = g.dim := by
            show max 1 (max 1 g.dim) = g.dim
            rw [Nat.max_eq_right pg, Nat.max_eq_right pg]
          refine ⟨he.wf, by rw [hmax, hd2, hd', Nat.max_eq_right pg], Or.inr (Or.inl rfl), by dm,
            fun env ⟨a1, c1, g1, _⟩ => ?_⟩
          obtain ⟨s1, s2⟩ := hs.sem env ⟨a1, g1⟩
          obtain ⟨e1, e2⟩ := he.sem env ⟨c1, s1⟩
          exact ⟨e1, fun k => by sv [e2, s2]; ring⟩
      · cases h
        exact key h0 rfl (by simpa using hc)
  · rename_i p' q' g h0
    have h0 := asBin_some h0
    split_ifs at h with hc
    · cases h
      subst h0
      have pg := hb.2.1.pos
      have h1 := wt2_const hc (show (Expr.rat p' q').isConst = true from rfl)
      have := isConst_wt hc
      have pc := isConst_dim hc
      have := mulRank_le a (.rat p' q')
      refine ⟨⟨ha, hb.1⟩, by dm, fun s hs => ?_⟩
      have hd' : s.dim = max a.dim 1 := hs.dim
      rw [pc] at hd'
      have hd' : s.dim = 1 := hd'
      have hsw := hs.wt
      simp only [Req.wt] at hsw
      have := wt2_le s g
      have := mulRank_le s g
      refine sat_tail ⟨hs.wf, hb.2.1⟩ (by dm) fun e he => ?_
      have hd2 : e.dim = max s.dim g.dim := he.dim
      have := he.wt
      have hmax : (Req.mul a (.bin .mul (.rat p' q') g)).dim = g.dim := by
        show max a.dim (max 1 g.dim) = g.dim
        rw [pc, Nat.max_eq_right pg, Nat.max_eq_right pg]
      refine ⟨he.wf, by rw [hmax, hd2, hd', Nat.max_eq_right pg], Or.inr (Or.inl pc), by dm,
        fun env ⟨a1, c1, g1, _⟩ => ?_⟩
      obtain ⟨s1, s2⟩ := hs.sem env ⟨a1, c1⟩
      obtain ⟨e1, e2⟩ := he.sem env ⟨s1, g1⟩
      exact ⟨e1, fun k => by sv [e2, s2]; ring⟩
    · cases h
      exact key h0 rfl (by simpa using hc)
  · cases h

omit ha hb in
theorem mulConstR_none (h : mulConstR a b = none) : b.constMul = false := by
  by_contra hcon
  unfold Expr.constMul at hcon
  split at hcon
  · rename_i c g h0
    rw [Bool.not_eq_false] at hcon
    rcases isConst_cases hcon with ⟨n, rfl⟩ | ⟨p, q, rfl⟩
    · simp only [mulConstR, h0] at h
      split at h <;> cases h
    · simp only [mulConstR, h0] at h
      split_ifs at h
  · simp at hcon

/-- The last resort. -/
theorem mulFinal (hn : a.isConst = false ∨ b.isConst = false) (n : Nat) :
    (ret (mkBin .mul a b)).Sat Δ n (Post Δ (.mul a b)) := by
  refine sat_ret (fun er => mkBin_err) fun r hr => ?_
  obtain ⟨rfl, hok⟩ := mkBin_ok hr
  have pa := ha.pos
  have pb := hb.pos
  refine ⟨⟨ha, hb, hok, by dm⟩, rfl, (dimsOk_pair pa pb).mp hok, ?_, fun env h => ⟨⟨h.1, h.2, trivial⟩,
    fun k => rfl⟩⟩
  rcases hn with h | h
  · exact (wt2_left h b).ge
  · exact (wt2_right h a).ge

theorem mulConstL_sat (h : mulConstL a b = some p) :
    p.Sat Δ (Req.mul a b).meas (Post Δ (.mul a b)) := by
  unfold mulConstL at h
  split at h
  · rename_i c f h0
    have := asBin_some h0; subst this
    split_ifs at h with hc
    split at h
    · rename_i hexp
      cases h
      have hr : mulRank (.bin .mul c f) b = 4 :=
        mulRank_eq_four rfl (Or.inr (constMul_bin.trans hc)) hexp
      have pc := isConst_dim hc
      have := isConst_wt hc
      have := wt2_le f b
      have := mulRank_le f b
      have := hb.pos
      have := ha.2.1.pos
      refine ⟨⟨ha.2.1, hb⟩, by dm, fun s hs => ?_⟩
      post hs
      have := wt2_le c s
      have := mulRank_const hc s
      refine sat_tail ⟨ha.1, hs.wf⟩ (by dm) fun e he => ?_
      post he
      refine ⟨he.wf, by dm, by dm, by dm, fun env ⟨⟨c1, f1, _⟩, b1⟩ => ?_⟩
      obtain ⟨s1, s2⟩ := hs.sem env ⟨f1, b1⟩
      obtain ⟨e1, e2⟩ := he.sem env ⟨c1, s1⟩
      exact ⟨e1, fun k => by sv [e2, s2]; ring⟩
    · cases h
      exact mulFinal ha hb (Or.inl rfl) _
  · cases h

theorem mulMinus_sat (h : mulMinus a b = some p) :
    p.Sat Δ (Req.mul a b).meas (Post Δ (.mul a b)) := by
  have := ha.pos
  have := hb.pos
  unfold mulMinus at h
  split at h
  · rename_i f g h1 h2
    have := asUn_some h1; subst this
    have := asUn_some h2; subst this
    cases h
    have := wt2_le f g
    have := mulRank_le f g
    refine sat_tail ⟨ha.1, hb.1⟩ (by dm) fun e he => ?_
    post he
    refine ⟨he.wf, by dm, by dm, by dm, fun env ⟨a1, b1⟩ => ?_⟩
    obtain ⟨e1, e2⟩ := he.sem env ⟨a1.1, b1.1⟩
    exact ⟨e1, fun k => by sv [e2]; ring⟩
  · rename_i f h1 h2
    have := asUn_some h1; subst this
    cases h
    have := wt2_le f b
    have := mulRank_le f b
    refine ⟨⟨ha.1, hb⟩, by dm, fun s hs => ?_⟩
    post hs
    have := wt1_le s
    refine sat_tail hs.wf (by dm) fun e he => ?_
    post he
    refine ⟨he.wf, by dm, by dm, by dm, fun env ⟨a1, b1⟩ => ?_⟩
    obtain ⟨s1, s2⟩ := hs.sem env ⟨a1.1, b1⟩
    obtain ⟨e1, e2⟩ := he.sem env s1
    exact ⟨e1, fun k => by sv [e2, s2]; ring⟩
  · rename_i g h1 h2
    have := asUn_some h2; subst this
    cases h
    have := wt2_le a g
    have := mulRank_le a g
    refine ⟨⟨ha, hb.1⟩, by dm, fun s hs => ?_⟩
    post hs
    have := wt1_le s
    refine sat_tail hs.wf (by dm) fun e he => ?_
    post he
    refine ⟨he.wf, by dm, by dm, by dm, fun env ⟨a1, b1⟩ => ?_⟩
    obtain ⟨s1, s2⟩ := hs.sem env ⟨a1, b1.1⟩
    obtain ⟨e1, e2⟩ := he.sem env s1
    exact ⟨e1, fun k => by sv [e2, s2]; ring⟩
  · cases h

theorem mulSquare_sat (hn : a.isConst = false ∨ b.isConst = false) (h : mulSquare a b = some p) :
    p.Sat Δ (Req.mul a b).meas (Post Δ (.mul a b)) := by
  unfold mulSquare at h
  split_ifs at h with hab
  subst hab
  cases h
  have hc : a.isConst = false := by rcases hn with h | h <;> exact h
  have hw := wt2_left hc a
  refine sat_ret (fun er => square_err) fun r hr => ?_
  obtain ⟨h1, h2, h3, h4⟩ := square_ok ha hr
  refine ⟨h1, by dm, Or.inl rfl, by dm, fun env h => ?_⟩
  obtain ⟨e1, e2⟩ := h4 Δ env h.1
  exact ⟨e1, e2⟩

theorem mulSumT_sat (hi : mulSwapInt a b = none) (hcr : mulConstR a b = none)
    (h : mulSumT a b = some p) : p.Sat Δ (Req.mul a b).meas (Post Δ (.mul a b)) := by
  have pa := ha.pos
  have pb := hb.pos
  unfold mulSumT at h
  split at h
  · rename_i g h1
    obtain ⟨d, rfl⟩ := asSumT_some h1
    have hg1 : g.dim = 1 := hb.2.2.2 d rfl
    have hgc := fun env k => Expr.val_const hb.1 hg1 env 0 k
    split at h
    · rename_i f h2
      obtain ⟨d', rfl⟩ := asSumT_some h2
      have hf1 : f.dim = 1 := ha.2.2.2 d' rfl
      have hfc := fun env k => Expr.val_const ha.1 hf1 env 0 k
      split_ifs at h with hd
      · cases h
        exact fun h => by cases h
      · cases h
        have := wt2_le f g
        have := mulRank_le f g
        refine ⟨⟨ha.1, hb.1⟩, by dm, fun s hs => ?_⟩
        refine sat_ret (fun er => sumT_err) fun r hr => ?_
        obtain ⟨g1, g2, g3, g4, g5⟩ := sumT_ok hs.wf pa hr
        have hsw := hs.wt
        refine ⟨g2, by dm, by dm, by dm, fun env ⟨a1, b1⟩ => ?_⟩
        obtain ⟨s1, s2⟩ := hs.sem env ⟨a1.1, b1.1⟩
        obtain ⟨e1, e2⟩ := g5 Δ env s1
        exact ⟨e1, fun k => by sv [e2, s2, hfc env k, hgc env k]⟩
    · split_ifs at h with h3 h4
      · cases h
        have := wt2_le a g
        have := mulRank_le a g
        refine ⟨⟨ha, hb.1⟩, by dm, fun s hs => ?_⟩
        refine sat_ret (fun er => sumT_err) fun r hr => ?_
        obtain ⟨g1, g2, g3, g4, g5⟩ := sumT_ok hs.wf pb hr
        have hsw := hs.wt
        refine ⟨g2, by dm, by dm, by dm, fun env ⟨a1, b1⟩ => ?_⟩
        obtain ⟨s1, s2⟩ := hs.sem env ⟨a1, b1.1⟩
        obtain ⟨e1, e2⟩ := g5 Δ env s1
        exact ⟨e1, fun k => by sv [e2, s2, hgc env k]⟩
      · cases h
        have := wt2_le a g
        have := mulRank_le a g
        refine sat_tail ⟨ha, hb.1⟩ (by dm) fun e he => ?_
        post he
        refine ⟨he.wf, by dm, by dm, by dm, fun env ⟨a1, b1⟩ => ?_⟩
        obtain ⟨e1, e2⟩ := he.sem env ⟨a1, b1.1⟩
        exact ⟨e1, fun k => by sv [e2, hgc env k]⟩
      · cases h
        exact fun h => by cases h
  · rename_i h1
    split at h
    · rename_i f h2
      obtain ⟨d', rfl⟩ := asSumT_some h2
      cases h
      have hb' : b.asInt = none := by
        cases hbi : b.asInt
        · rfl
        · simp [mulSwapInt, hbi] at hi
      have hr : mulRank b (.un (.sumT d') f) = 0 := by
        simp [mulRank, hb', Expr.asSumT, mulConstR_none hcr]
      have hr' : 1 ≤ mulRank (.un (.sumT d') f) b := by
        unfold mulRank
        rw [h1]
        simp [Expr.asInt]
        split_ifs <;> omega
      refine sat_tail ⟨hb, ha⟩ (by dm) fun e he => ?_
      post he
      refine ⟨he.wf, by dm, by dm, by dm, fun env ⟨a1, b1⟩ => ?_⟩
      obtain ⟨e1, e2⟩ := he.sem env ⟨b1, a1⟩
      exact ⟨e1, fun k => by sv [e2]; ring⟩
    · cases h

omit ha hb in
theorem mulSumT_none (h : mulSumT a b = none) : b.asSumT = none := by
  unfold mulSumT at h
  split at h
  · split at h
    · split_ifs at h
    · split_ifs at h
  · assumption

theorem mulExp_sat (hs : mulSumT a b = none)
    (h : mulExp a b = some p) : p.Sat Δ (Req.mul a b).meas (Post Δ (.mul a b)) := by
  have pa := ha.pos
  have pb := hb.pos
  unfold mulExp at h
  split at h
  · rename_i f h1
    have := asUn_some h1; subst this
    split at h
    · rename_i g h2
      have := asUn_some h2; subst this
      cases h
      have := wt2_le f g
      refine ⟨⟨ha.1, hb.1⟩, by dm, fun s hs => ?_⟩
      refine sat_ret (fun er => mkUn_err) fun r hr => ?_
      obtain ⟨rfl, hok⟩ := mkUn_ok hr
      post hs
      refine ⟨⟨hs.wf, rfl, hs.wf.pos, fun _ h => by cases h⟩, by dm, by dm, by dm,
        fun env ⟨a1, b1⟩ => ?_⟩
      obtain ⟨s1, s2⟩ := hs.sem env ⟨a1.1, b1.1⟩
      exact ⟨⟨s1, trivial⟩, fun k => by sv [s2]; exact Real.exp_add _ _⟩
    · rename_i h2
      split_ifs at h with h3
      cases h
      have hr := mulRank_exp_r b f
      have hr' : mulRank (.un .exp f) b = 4 := mulRank_eq_four rfl (Or.inl (mulSumT_none hs)) h2
      refine sat_tail ⟨hb, ha⟩ (by dm) fun e he => ?_
      post he
      refine ⟨he.wf, by dm, by dm, by dm, fun env ⟨a1, b1⟩ => ?_⟩
      obtain ⟨e1, e2⟩ := he.sem env ⟨b1, a1⟩
      exact ⟨e1, fun k => by sv [e2]; ring⟩
  · cases h

theorem mulMulExpL_sat (hs : mulSumT a b = none)
    (h : mulMulExpL a b = some p) : p.Sat Δ (Req.mul a b).meas (Post Δ (.mul a b)) := by
  have pa := ha.pos
  have pb := hb.pos
  unfold mulMulExpL at h
  split at h
  · rename_i u v h1
    have := asBin_some h1; subst this
    have := ha.dims rfl
    have pu := ha.1.pos
    have pv := ha.2.1.pos
    split at h
    · rename_i x h2
      have := asUn_some h2; subst this
      split at h
      · rename_i y h3
        have := asUn_some h3; subst this
        cases h
        have hx := ha.2.1.1
        have hy := hb.1
        have := wt2_le x y
        refine ⟨⟨hx, hy⟩, by dm, fun s hs => ?_⟩
        post hs
        refine sat_bind (sat_ret (fun er => mkUn_err) fun r hr => (mkUn_ok hr).1) ?_
        rintro c rfl
        have hcw : (Expr.un .exp s).WF := ⟨hs.wf, rfl, hs.wf.pos, fun _ h => by cases h⟩
        have := wt2_le u (.un .exp s)
        have := mulRank_le u (.un .exp s)
        refine sat_tail ⟨ha.1, hcw⟩ (by dm) fun e he => ?_
        post he
        refine ⟨he.wf, by dm, by dm, by dm, fun env ⟨⟨u1, v1, _⟩, b1⟩ => ?_⟩
        obtain ⟨s1, s2⟩ := hs.sem env ⟨v1.1, b1.1⟩
        obtain ⟨e1, e2⟩ := he.sem env ⟨u1, s1, trivial⟩
        exact ⟨e1, fun k => by sv [e2, s2]; rw [Real.exp_add]; ring⟩
      · rename_i h3
        split_ifs at h with h4
        · cases h
          have hr' : mulRank (.bin .mul u (.un .exp x)) b = 4 :=
            mulRank_eq_four rfl (Or.inl (mulSumT_none hs)) h3
          have := wt2_le u b
          have := mulRank_le u b
          refine ⟨⟨ha.1, hb⟩, by dm, fun s hs => ?_⟩
          post hs
          have := mulRank_exp_r s x
          refine sat_tail ⟨hs.wf, ha.2.1⟩ (by dm) fun e he => ?_
          post he
          refine ⟨he.wf, by dm, by dm, by dm, fun env ⟨⟨u1, v1, _⟩, b1⟩ => ?_⟩
          obtain ⟨s1, s2⟩ := hs.sem env ⟨u1, b1⟩
          obtain ⟨e1, e2⟩ := he.sem env ⟨s1, v1⟩
          exact ⟨e1, fun k => by sv [e2, s2]; ring⟩
        · cases h
          exact mulFinal ha hb (Or.inl rfl) _
    · cases h
      exact mulFinal ha hb (Or.inl rfl) _
  · cases h

theorem mulMulExpR_sat (h : mulMulExpR a b = some p) :
    p.Sat Δ (Req.mul a b).meas (Post Δ (.mul a b)) := by
  have pa := ha.pos
  have pb := hb.pos
  unfold mulMulExpR at h
  split at h
  · rename_i u v h1
    have := asBin_some h1; subst this
    have := hb.dims rfl
    have pu := hb.1.pos
    have pv := hb.2.1.pos
    split at h
    · rename_i x h2 h3
      have := asUn_some h2; subst this
      cases h
      have hr' : 3 ≤ mulRank a (.bin .mul u (.un .exp x)) := mulRank_ge_three h3 rfl rfl
      have := wt2_le a u
      have := mulRank_le a u
      refine ⟨⟨ha, hb.1⟩, by dm, fun s hs => ?_⟩
      post hs
      have := mulRank_exp_r s x
      refine sat_tail ⟨hs.wf, hb.2.1⟩ (by dm) fun e he => ?_
      post he
      refine ⟨he.wf, by dm, by dm, by dm, fun env ⟨a1, u1, v1, _⟩ => ?_⟩
      obtain ⟨s1, s2⟩ := hs.sem env ⟨a1, u1⟩
      obtain ⟨e1, e2⟩ := he.sem env ⟨s1, v1⟩
      exact ⟨e1, fun k => by sv [e2, s2]; ring⟩
    · cases h
  · cases h

theorem stepMul_sat : (stepMul a b).Sat Δ (Req.mul a b).meas (Post Δ (.mul a b)) := by
  unfold stepMul firstRule
  rcases h1 : mulZero a b with _ | p; swap
  · exact mulZero_sat ha hb h1
  rcases h2 : mulInt a b with _ | p; swap
  · exact mulInt_sat ha hb h2
  rcases h3 : mulSwapInt a b with _ | p; swap
  · exact mulSwapInt_sat ha hb h2 h3
  rcases h4 : mulRat a b with _ | p; swap
  · exact mulRat_sat ha hb h4
  have hn := mul_not_const h2 h3 h4
  rcases h5 : mulConstR a b with _ | p; swap
  · exact mulConstR_sat ha hb h5
  rcases h6 : mulConstL a b with _ | p; swap
  · exact mulConstL_sat ha hb h6
  rcases h7 : mulMinus a b with _ | p; swap
  · exact mulMinus_sat ha hb h7
  rcases h8 : mulSquare a b with _ | p; swap
  · exact mulSquare_sat ha hb hn h8
  rcases h9 : mulSumT a b with _ | p; swap
  · exact mulSumT_sat ha hb h3 h5 h9
  rcases h10 : mulExp a b with _ | p; swap
  · exact mulExp_sat ha hb h9 h10
  rcases h11 : mulMulExpL a b with _ | p; swap
  · exact mulMulExpL_sat ha hb h9 h11
  rcases h12 : mulMulExpR a b with _ | p; swap
  · exact mulMulExpR_sat ha hb h12
  exact mulFinal ha hb hn _

end Mul

/-! ## The other ones -/

theorem stepMinus_sat {a : Expr} (ha : a.WF) :
    (stepMinus a).Sat Δ (Req.minus a).meas (Post Δ (.minus a)) := by
  have final : ∀ {a : Expr} (n : Nat), a.WF → a.isConst = false →
      (ret (mkUn .minus a)).Sat Δ n (Post Δ (.minus a)) := by
    intro a n ha hc
    refine sat_ret (fun er => mkUn_err) fun r hr => ?_
    obtain ⟨rfl, hok⟩ := mkUn_ok hr
    exact ⟨⟨ha, rfl, ha.pos, fun _ h => by cases h⟩, rfl, trivial, by simp [Req.wt, wt1, hc, Expr.wt],
      fun env h => ⟨⟨h, trivial⟩, fun k => rfl⟩⟩
  unfold stepMinus
  split
  · exact ⟨ha, rfl, trivial, by simp [Req.wt, wt1, Expr.isConst],
      fun env h => ⟨h, fun k => by simp [Req.val, Expr.val]⟩⟩
  · rename_i f
    exact ⟨ha.1, rfl, trivial, by simp [Req.wt, wt1, Expr.isConst, Expr.wt]; omega,
      fun env h => ⟨h.1, fun k => by simp [Req.val, Expr.val, unVal]⟩⟩
  · exact ⟨intCst_wf _, intCst_dim _, trivial, (intCst_wt _).le,
      fun env h => ⟨intCst_def _ _, fun k => by sv [intCst_val]; push_cast; rfl⟩⟩
  · refine sat_ret (fun er => ratCst_err) fun r hr => ?_
    obtain ⟨g1, g2, g3, g4, g5⟩ := ratCst_ok hr
    exact ⟨g1, g2, trivial, g3.le, fun env h => ⟨g4 _ _, fun k => by sv [g5]; push_cast; ring⟩⟩
  · rename_i r g
    split_ifs with hr
    · have h1 := wt1_const hr
      have := isConst_wt hr
      have hdr := isConst_dim hr
      have hw : wt1 (.bin .mul r g) = r.wt + g.wt + 2 := by simp [wt1, Expr.isConst, Expr.wt]
      refine ⟨ha.1, by dm, fun c hc => ?_⟩
      post hc
      have := wt2_le c g
      have := mulRank_le c g
      have := ha.2.1.pos
      refine sat_tail ⟨hc.wf, ha.2.1⟩ (by dm) fun e he => ?_
      post he
      refine ⟨he.wf, by dm, trivial, by dm, fun env h => ?_⟩
      obtain ⟨c1, c2⟩ := hc.sem env h.1
      obtain ⟨e1, e2⟩ := he.sem env ⟨c1, h.2.1⟩
      exact ⟨e1, fun k => by sv [e2, c2]; ring⟩
    · exact final _ ha rfl
  · rename_i h1 h2 _
    refine final _ ha ?_
    cases a <;> first | rfl | (exact absurd rfl (h1 _)) | (exact absurd rfl (h2 _ _))

theorem stepDiv_sat {a b : Expr} (ha : a.WF) (hb : b.WF) :
    (stepDiv a b).Sat Δ (Req.div a b).meas (Post Δ (.div a b)) := by
  have pa := ha.pos
  have pb := hb.pos
  have key : ∀ {c : Int × Int} (_ : b.dim = 1) (_ : ∀ env k, (c.1 : ℝ) / c.2 = (b.val env k)⁻¹),
      ((ret (ratCst c.1 c.2)).bind fun r => tail (.mul r a)).Sat Δ (Req.div a b).meas
        (Post Δ (.div a b)) := by
    intro c hd hv
    refine sat_bind (sat_ret (fun er => ratCst_err) fun r hr => ratCst_ok hr) ?_
    rintro r ⟨g1, g2, g3, g4, g5⟩
    have := wt2_le r a
    have := mulRank_le r a
    have := b.wt_pos
    refine sat_tail ⟨g1, ha⟩ (by dm) fun e he => ?_
    post he
    refine ⟨he.wf, by dm, Or.inr (Or.inr hd), by dm, fun env h => ?_⟩
    obtain ⟨e1, e2⟩ := he.sem env ⟨g4 _ _, h.1⟩
    exact ⟨e1, fun k => by sv [e2, g5]; rw [hv env k]; ring⟩
  unfold stepDiv
  split
  · rename_i d h0
    have := asZero_some h0; subst this
    refine sat_ret (fun er => broadcast_err) fun r hr => ?_
    obtain ⟨h1, h2, h3, h4, h5⟩ := broadcast_ok ha pb hr
    have := b.wt_pos
    refine ⟨h2, by dm, by dm, by dm, fun env h => ?_⟩
    obtain ⟨e1, e2⟩ := h5 Δ env h.1
    exact ⟨e1, fun k => by sv [e2]; simp⟩
  · split
    · exact fun h => by cases h
    · rename_i n
      exact key (c := (1, n)) rfl fun env k => by simp [Expr.val]
    · rename_i p q
      exact key (c := (q, p)) rfl fun env k => by simp [Expr.val]
    · refine sat_ret (fun er => mkBin_err) fun r hr => ?_
      obtain ⟨rfl, hok⟩ := mkBin_ok hr
      exact ⟨⟨ha, hb, hok, by dm⟩, rfl, (dimsOk_pair pa pb).mp hok, le_refl _, fun env h => ⟨h,
        fun k => rfl⟩⟩

theorem scalFactor_sat {a b : Expr} {p : Prog} (ha : a.WF) (hb : b.WF) (h : scalFactor a b = some p) :
    p.Sat Δ (Req.scalprod a b).meas (Post Δ (.scalprod a b)) := by
  have pa := ha.pos
  have pb := hb.pos
  unfold scalFactor at h
  split at h
  · rename_i u v h1
    have := asBin_some h1; subst this
    have := ha.dims rfl
    have pu := ha.1.pos
    have pv := ha.2.1.pos
    split_ifs at h with h2 h3
    · cases h
      refine ⟨⟨ha.2.1, hb⟩, by dm, fun s hs => ?_⟩
      post hs
      have := wt2_le u s
      have := mulRank_le u s
      refine sat_tail ⟨ha.1, hs.wf⟩ (by dm) fun e he => ?_
      post he
      refine ⟨he.wf, by dm, by dm, by dm, fun env ⟨⟨u1, v1, _⟩, b1⟩ => ?_⟩
      obtain ⟨s1, s2⟩ := hs.sem env ⟨v1, b1⟩
      obtain ⟨e1, e2⟩ := he.sem env ⟨u1, s1⟩
      refine ⟨e1, fun k => ?_⟩
      have hdim : max (Expr.bin .mul u v).dim b.dim = max v.dim b.dim := by dm
      sv [e2, s2, hdim]
      rw [Finset.mul_sum]
      refine Finset.sum_congr rfl fun j _ => ?_
      rw [Expr.val_const ha.1 h2 env k j]; ring
    · cases h
      refine ⟨⟨ha.1, hb⟩, by dm, fun s hs => ?_⟩
      post hs
      have := wt2_le v s
      have := mulRank_le v s
      refine sat_tail ⟨ha.2.1, hs.wf⟩ (by dm) fun e he => ?_
      post he
      refine ⟨he.wf, by dm, by dm, by dm, fun env ⟨⟨u1, v1, _⟩, b1⟩ => ?_⟩
      obtain ⟨s1, s2⟩ := hs.sem env ⟨u1, b1⟩
      obtain ⟨e1, e2⟩ := he.sem env ⟨v1, s1⟩
      refine ⟨e1, fun k => ?_⟩
      have hdim : max (Expr.bin .mul u v).dim b.dim = max u.dim b.dim := by dm
      sv [e2, s2, hdim]
      rw [Finset.mul_sum]
      refine Finset.sum_congr rfl fun j _ => ?_
      rw [Expr.val_const ha.2.1 h3 env k j]; ring
  · cases h

theorem stepScalprod_sat {a b : Expr} (ha : a.WF) (hb : b.WF) :
    (stepScalprod a b).Sat Δ (Req.scalprod a b).meas (Post Δ (.scalprod a b)) := by
  have pa := ha.pos
  have pb := hb.pos
  have wa := a.wt_pos
  have wb := b.wt_pos
  unfold stepScalprod
  split_ifs with h1 h2 h3
  · refine ⟨hb, by dm, fun s hs => ?_⟩
    post hs
    have := wt2_le a s
    have := mulRank_le a s
    refine sat_tail ⟨ha, hs.wf⟩ (by dm) fun e he => ?_
    post he
    refine ⟨he.wf, by dm, by dm, by dm, fun env h => ?_⟩
    obtain ⟨s1, s2⟩ := hs.sem env h.2
    obtain ⟨e1, e2⟩ := he.sem env ⟨h.1, s1⟩
    refine ⟨e1, fun k => ?_⟩
    have hdim : max a.dim b.dim = b.dim := by omega
    sv [e2, s2, hdim]
    rw [Finset.mul_sum]
    exact Finset.sum_congr rfl fun j _ => by rw [Expr.val_const ha h1 env k j]
  · refine ⟨ha, by dm, fun s hs => ?_⟩
    post hs
    have := wt2_le s b
    have := mulRank_le s b
    refine sat_tail ⟨hs.wf, hb⟩ (by dm) fun e he => ?_
    post he
    refine ⟨he.wf, by dm, by dm, by dm, fun env h => ?_⟩
    obtain ⟨s1, s2⟩ := hs.sem env h.1
    obtain ⟨e1, e2⟩ := he.sem env ⟨s1, h.2⟩
    refine ⟨e1, fun k => ?_⟩
    have hdim : max a.dim b.dim = a.dim := by omega
    sv [e2, s2, hdim]
    rw [Finset.sum_mul]
    exact Finset.sum_congr rfl fun j _ => by rw [Expr.val_const hb h2 env k j]
  · subst h3
    refine sat_bind (sat_ret (fun er => square_err) fun r hr => square_ok ha hr) ?_
    rintro s ⟨g1, g2, g3, g4⟩
    refine sat_tail g1 (by dm) fun e he => ?_
    have hd : e.dim = 1 := he.dim
    have := he.wt
    refine ⟨he.wf, hd, Or.inl rfl, by dm, fun env h => ?_⟩
    obtain ⟨s1, s2⟩ := g4 Δ env h.1
    obtain ⟨e1, e2⟩ := he.sem env s1
    refine ⟨e1, fun k => ?_⟩
    sv [e2, g2, max_self]
    exact Finset.sum_congr rfl fun j _ => s2 j
  · unfold firstRule
    rcases h4 : scalFactor a b with _ | p; swap
    · exact scalFactor_sat ha hb h4
    rcases h5 : scalFactor b a with _ | p; swap
    · have := scalFactor_sat (Δ := Δ) hb ha h5
      refine sat_mono (by dm) ?_ this
      intro e he
      post he
      refine ⟨he.wf, he.dim, by dm, by dm, fun env h => ?_⟩
      obtain ⟨e1, e2⟩ := he.sem env ⟨h.2, h.1⟩
      refine ⟨e1, fun k => ?_⟩
      sv [e2, max_comm b.dim a.dim]
      exact Finset.sum_congr rfl fun j _ => mul_comm _ _
    refine sat_ret (fun er => mkBin_err) fun r hr => ?_
    obtain ⟨rfl, hok⟩ := mkBin_ok hr
    exact ⟨⟨ha, hb, hok, Nat.one_pos⟩, rfl, Or.inl (by simpa [Bin.accept] using hok), le_refl _,
      fun env h => ⟨⟨h.1, h.2, trivial⟩, fun k => rfl⟩⟩

theorem stepSum_sat {a : Expr} (ha : a.WF) :
    (stepSum a).Sat Δ (Req.sum a).meas (Post Δ (.sum a)) := by
  have pa := ha.pos
  unfold stepSum
  split_ifs with h1
  · refine ⟨ha, h1, trivial, by dm, fun env h => ⟨h, fun k => ?_⟩⟩
    simp only [Req.val, h1, Finset.sum_range_one]
    exact Expr.val_const ha h1 env k 0
  · split
    · rename_i d h0
      have := asZero_some h0; subst this
      exact ⟨Nat.one_pos, rfl, trivial, by dm, fun env h => ⟨trivial, fun k => by
        simp [Req.val, Expr.val]⟩⟩
    · split
      · rename_i f g h2
        have := asBin_some h2; subst this
        have := ha.dims rfl
        have pf := ha.1.pos
        have pg := ha.2.1.pos
        split_ifs with h3 h4
        · refine ⟨ha.2.1, by dm, fun s hs => ?_⟩
          post hs
          have := wt2_le f s
          have := mulRank_le f s
          refine sat_tail ⟨ha.1, hs.wf⟩ (by dm) fun e he => ?_
          post he
          refine ⟨he.wf, by dm, trivial, by dm, fun env h => ?_⟩
          obtain ⟨s1, s2⟩ := hs.sem env h.2.1
          obtain ⟨e1, e2⟩ := he.sem env ⟨h.1, s1⟩
          refine ⟨e1, fun k => ?_⟩
          have hdim : (Expr.bin .mul f g).dim = g.dim := by dm
          sv [e2, s2, hdim]
          rw [Finset.mul_sum]
          exact Finset.sum_congr rfl fun j _ => by rw [Expr.val_const ha.1 h3 env k j]
        · refine ⟨ha.1, by dm, fun s hs => ?_⟩
          post hs
          have := wt2_le s g
          have := mulRank_le s g
          refine sat_tail ⟨hs.wf, ha.2.1⟩ (by dm) fun e he => ?_
          post he
          refine ⟨he.wf, by dm, trivial, by dm, fun env h => ?_⟩
          obtain ⟨s1, s2⟩ := hs.sem env h.1
          obtain ⟨e1, e2⟩ := he.sem env ⟨s1, h.2.1⟩
          refine ⟨e1, fun k => ?_⟩
          have hdim : (Expr.bin .mul f g).dim = f.dim := by dm
          sv [e2, s2, hdim]
          rw [Finset.sum_mul]
          exact Finset.sum_congr rfl fun j _ => by rw [Expr.val_const ha.2.1 h4 env k j]
        · refine sat_tail ⟨ha.1, ha.2.1⟩ (by dm) fun e he => ?_
          post he
          refine ⟨he.wf, by dm, trivial, by dm, fun env h => ?_⟩
          obtain ⟨e1, e2⟩ := he.sem env ⟨h.1, h.2.1⟩
          exact ⟨e1, fun k => e2 k⟩
      · refine sat_ret (fun er => mkUn_err) fun r hr => ?_
        obtain ⟨rfl, hok⟩ := mkUn_ok hr
        exact ⟨⟨ha, rfl, Nat.one_pos, fun _ h => by cases h⟩, rfl, trivial, le_refl _,
          fun env h => ⟨⟨h, trivial⟩, fun k => rfl⟩⟩

/-- One step of any call. -/
theorem step_sat {q : Req} (hq : q.Pre) : (step q).Sat Δ q.meas (Post Δ q) := by
  cases q with
  | add a b => exact stepAdd_sat hq.1 hq.2
  | sub a b => exact stepSub_sat hq.1 hq.2
  | mul a b => exact stepMul_sat hq.1 hq.2
  | minus a => exact stepMinus_sat hq
  | div a b => exact stepDiv_sat hq.1 hq.2
  | scalprod a b => exact stepScalprod_sat hq.1 hq.2
  | sum a => exact stepSum_sat hq

/-- Partial correctness, whatever the bound on the depth. -/
theorem build_post {n : Nat} {q : Req} (hq : q.Pre) {r : Expr} (h : build n q = .ok r) : Post Δ q r := by
  induction n generalizing q r with
  | zero => cases h
  | succ n ih =>
    have aux : ∀ {P : Expr → Prop} (p : Prog), p.Sat Δ q.meas P → ∀ r, p.run (build n) = .ok r → P r := by
      intro P p hp r hr
      induction p with
      | ret x =>
        cases x with
        | ok e => simp only [Prog.run, Except.ok.injEq] at hr; exact hr ▸ hp
        | error er => simp [Prog.run] at hr
      | call q' k ihk =>
        obtain ⟨h1, h2, h3⟩ := hp
        simp only [Prog.run] at hr
        cases hq' : build n q' with
        | ok e => rw [hq'] at hr; exact ihk e (h3 e (ih h1 hq')) hr
        | error er => rw [hq'] at hr; cases hr
    exact aux _ (step_sat hq) r h

theorem build_wf {n : Nat} {q : Req} (hq : q.Pre) {r : Expr} (h : build n q = .ok r) : r.WF :=
  (build_post (Δ := .triv) hq h).wf

theorem build_dim {n : Nat} {q : Req} (hq : q.Pre) {r : Expr} (h : build n q = .ok r) :
    r.dim = q.dim :=
  (build_post (Δ := .triv) hq h).dim

theorem build_compat {n : Nat} {q : Req} (hq : q.Pre) {r : Expr} (h : build n q = .ok r) :
    q.Compat :=
  (build_post (Δ := .triv) hq h).compat

theorem build_sem {n : Nat} {q : Req} (hq : q.Pre) {r : Expr} (h : build n q = .ok r) (env : Env)
    (hd : q.Def env) : r.Def env ∧ ∀ k, r.val env k = q.val env k := by
  obtain ⟨h1, h2⟩ := (build_post (Δ := .defined) hq h).sem env ((q.dom_defined env).mpr hd)
  exact ⟨(r.dom_defined env).mp h1, h2⟩

/-- The value does not depend on any condition. -/
theorem build_val {n : Nat} {q : Req} (hq : q.Pre) {r : Expr} (h : build n q = .ok r) (env : Env)
    (k : Nat) : r.val env k = q.val env k := by
  refine ((build_post (Δ := .triv) hq h).sem env ?_).2 k
  cases q with
  | div a b => exact ⟨a.dom_triv env, b.dom_triv env, trivial⟩
  | _ => simp only [Req.Dom, Expr.dom_triv, and_self]

/-- Termination. -/
theorem build_terminates {n : Nat} {q : Req} (hq : q.Pre) (hn : q.meas < n) :
    build n q ≠ .error .fuel := by
  induction n generalizing q with
  | zero => omega
  | succ n ih =>
    exact (sat_run (step_sat (Δ := .triv) hq) fun q' h1 h2 => ⟨ih h1 (by omega), fun r => build_post h1⟩).1

/-- Once it comes to an end, the result does not depend on the bound. -/
theorem build_mono {n m : Nat} (hnm : n ≤ m) {q : Req} (h : build n q ≠ .error .fuel) :
    build m q = build n q := by
  induction n generalizing m q with
  | zero => exact absurd rfl h
  | succ n ih =>
    obtain ⟨m, rfl⟩ : ∃ m', m = m' + 1 := ⟨m - 1, by omega⟩
    show (step q).run (build m) = (step q).run (build n)
    have h' : (step q).run (build n) ≠ .error .fuel := h
    generalize step q = p at h'
    induction p with
    | ret x => rfl
    | call q' k ihk =>
      simp only [Prog.run] at h' ⊢
      have hne : build n q' ≠ .error .fuel := by
        intro h0; rw [h0] at h'; exact h' rfl
      rw [ih (by omega) hne]
      cases hb : build n q' with
      | ok e => rw [hb] at h'; exact ihk e h'
      | error er => rfl

end Verif
