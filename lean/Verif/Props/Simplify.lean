import Verif.Proofs.Term

/-!
# C01, C02, C03: construction of formulas

`Builds q r`: the call `q` of a constructor returns the formula `r`.
-/

namespace Verif

open Finset Spec

/-- The call returns `r` (with a recursion of some depth). -/
def Builds (q : Req) (r : Expr) : Prop := ∃ n, build n q = .ok r

/-- The call raises an exception of the program. -/
def Raises (q : Req) (er : Err) : Prop := er ≠ .fuel ∧ ∃ n, build n q = .error er

/-! ## C01: simplification does not change values -/

section Values

variable {a b r : Expr} (ha : a.WF) (hb : b.WF) (env : Env)

include ha in
theorem C01_minus (h : Builds (.minus a) r) (da : a.Def env) :
    r.Def env ∧ ∀ k < a.dim, r.val env k = -a.val env k := by
  obtain ⟨n, h⟩ := h
  obtain ⟨h1, h2⟩ := build_sem (q := .minus a) ha h env da
  exact ⟨h1, fun k _ => h2 k⟩

include ha in
/-- `Sum`: the sum of the components. -/
theorem C01_sum (h : Builds (.sum a) r) (da : a.Def env) :
    r.Def env ∧ r.val env 0 = ∑ k ∈ range a.dim, a.val env k := by
  obtain ⟨n, h⟩ := h
  obtain ⟨h1, h2⟩ := build_sem (q := .sum a) ha h env da
  exact ⟨h1, h2 0⟩

include ha hb

theorem C01_add (h : Builds (.add a b) r) (da : a.Def env) (db : b.Def env) :
    r.Def env ∧ ∀ k < max a.dim b.dim, r.val env k = a.val env k + b.val env k := by
  obtain ⟨n, h⟩ := h
  obtain ⟨h1, h2⟩ := build_sem (q := .add a b) ⟨ha, hb⟩ h env ⟨da, db⟩
  exact ⟨h1, fun k _ => h2 k⟩

theorem C01_sub (h : Builds (.sub a b) r) (da : a.Def env) (db : b.Def env) :
    r.Def env ∧ ∀ k < max a.dim b.dim, r.val env k = a.val env k - b.val env k := by
  obtain ⟨n, h⟩ := h
  obtain ⟨h1, h2⟩ := build_sem (q := .sub a b) ⟨ha, hb⟩ h env ⟨da, db⟩
  exact ⟨h1, fun k _ => h2 k⟩

theorem C01_mul (h : Builds (.mul a b) r) (da : a.Def env) (db : b.Def env) :
    r.Def env ∧ ∀ k < max a.dim b.dim, r.val env k = a.val env k * b.val env k := by
  obtain ⟨n, h⟩ := h
  obtain ⟨h1, h2⟩ := build_sem (q := .mul a b) ⟨ha, hb⟩ h env ⟨da, db⟩
  exact ⟨h1, fun k _ => h2 k⟩

theorem C01_div (h : Builds (.div a b) r) (da : a.Def env) (db : b.Def env)
    (hz : ∀ k < max a.dim b.dim, b.val env k ≠ 0) :
    r.Def env ∧ ∀ k < max a.dim b.dim, r.val env k = a.val env k / b.val env k := by
  obtain ⟨n, h⟩ := h
  obtain ⟨h1, h2⟩ := build_sem (q := .div a b) ⟨ha, hb⟩ h env ⟨da, db, hz⟩
  exact ⟨h1, fun k _ => h2 k⟩

/-- `f|g`: the scalar product; a scalar argument is repeated along the other one. -/
theorem C01_scalprod (h : Builds (.scalprod a b) r) (da : a.Def env) (db : b.Def env) :
    r.Def env ∧ r.val env 0 = ∑ k ∈ range (max a.dim b.dim), a.val env k * b.val env k := by
  obtain ⟨n, h⟩ := h
  obtain ⟨h1, h2⟩ := build_sem (q := .scalprod a b) ⟨ha, hb⟩ h env ⟨da, db⟩
  exact ⟨h1, h2 0⟩

end Values

/-- **C01.**  The formula returned for a whole expression written by the user has the value of this
expression, wherever it is defined. -/
theorem C01_formula {t : Term} (ht : t.Pos) {n : Nat} {e : Expr} (h : t.compile n = .ok e) (env : Env)
    (hd : t.Def env) : e.Def env ∧ ∀ k < e.dim, e.val env k = t.val env k := by
  obtain ⟨h1, h2⟩ := (compile_rep ht h).sem env hd
  exact ⟨h1, fun k _ => by rw [h2]⟩

/-! ## C02: dimensions -/

/-- **C02.**  The simplified formula has the dimension of the operation that was requested. -/
theorem C02_dim {a b r : Expr} (ha : a.WF) (hb : b.WF) :
    (Builds (.add a b) r → r.dim = max a.dim b.dim) ∧
    (Builds (.sub a b) r → r.dim = max a.dim b.dim) ∧
    (Builds (.mul a b) r → r.dim = max a.dim b.dim) ∧
    (Builds (.div a b) r → r.dim = max a.dim b.dim) ∧
    (Builds (.minus a) r → r.dim = a.dim) ∧
    (Builds (.scalprod a b) r → r.dim = 1) ∧
    (Builds (.sum a) r → r.dim = 1) :=
  ⟨fun ⟨_, h⟩ => build_dim (q := .add a b) ⟨ha, hb⟩ h,
   fun ⟨_, h⟩ => build_dim (q := .sub a b) ⟨ha, hb⟩ h,
   fun ⟨_, h⟩ => build_dim (q := .mul a b) ⟨ha, hb⟩ h,
   fun ⟨_, h⟩ => build_dim (q := .div a b) ⟨ha, hb⟩ h,
   fun ⟨_, h⟩ => build_dim (q := .minus a) ha h,
   fun ⟨_, h⟩ => build_dim (q := .scalprod a b) ⟨ha, hb⟩ h,
   fun ⟨_, h⟩ => build_dim (q := .sum a) ha h⟩

/-- **C02**, whole formula. -/
theorem C02_formula {t : Term} (ht : t.Pos) {n : Nat} {e : Expr} (h : t.compile n = .ok e) :
    0 < e.dim ∧ e.dim = t.dim :=
  ⟨(compile_rep ht h).wf.pos, (compile_rep ht h).dim⟩

/-- Dimensions that do not match. -/
def Mismatch (a b : Expr) : Prop := a.dim ≠ b.dim ∧ 1 < a.dim ∧ 1 < b.dim

/-- **C02.**  Operands whose dimensions do not match are rejected, whatever rule is tried first. -/
theorem C02_reject {a b : Expr} (ha : a.WF) (hb : b.WF) (hm : Mismatch a b) (q : Req)
    (hq : q = .add a b ∨ q = .sub a b ∨ q = .mul a b ∨ q = .div a b ∨ q = .scalprod a b) :
    ∃ er, Raises q er := by
  have hpre : q.Pre := by rcases hq with rfl | rfl | rfl | rfl | rfl <;> exact ⟨ha, hb⟩
  have hnc : ¬q.Compat := by
    obtain ⟨h1, h2, h3⟩ := hm
    rcases hq with rfl | rfl | rfl | rfl | rfl <;> simp only [Req.Compat] <;> omega
  have hterm := build_terminates hpre (Nat.lt_succ_self q.meas)
  cases h : build (q.meas + 1) q with
  | ok r => exact absurd (build_compat hpre h) hnc
  | error er => exact ⟨er, fun h' => hterm (by rw [h, h']), _, h⟩

/-! ## C03: termination -/

/-- **C03.**  Every call of a constructor ends: from some depth of recursion on the outcome no longer
changes, and it is a formula or an exception of the program. -/
theorem C03_build {q : Req} (hq : q.Pre) :
    ∃ N, ∀ n, N ≤ n → build n q = build N q ∧ build n q ≠ .error .fuel := by
  obtain ⟨N, x, hx, h⟩ := Stable.build hq
  exact ⟨N, fun n hn => ⟨(h n hn).trans (h N (le_refl _)).symm, fun h' => hx ((h n hn).symm.trans h')⟩⟩

/-- **C03**, whole formula. -/
theorem C03_formula {t : Term} (ht : t.Pos) :
    ∃ N, ∀ n, N ≤ n → t.compile n = t.compile N ∧ t.compile n ≠ .error .fuel := by
  obtain ⟨N, x, hx, h⟩ := compile_stable ht
  exact ⟨N, fun n hn => ⟨(h n hn).trans (h N (le_refl _)).symm, fun h' => hx ((h n hn).symm.trans h')⟩⟩

/-- The outcome of a call is unique. -/
theorem C03_unique {q : Req} {r r' : Expr} (h : Builds q r) (h' : Builds q r') : r = r' := by
  obtain ⟨n, h⟩ := h
  obtain ⟨m, h'⟩ := h'
  rcases le_total n m with hnm | hnm
  · have := build_mono hnm (q := q) (by rw [h]; simp)
    rw [h, h'] at this; cases this; rfl
  · have := build_mono hnm (q := q) (by rw [h']; simp)
    rw [h, h'] at this; cases this; rfl

/-! ## The expressions above are reachable -/

section Examples

/-- `x_i`, dimension 3 -/
private def x : Term := .var 0 3 0
/-- `y_j`, dimension 3 -/
private def y : Term := .var 1 3 1
/-- `g`, parameter -/
private def g : Term := .var 2 1 2

/-- The Gaussian kernel `Exp(-g*SqDist(x,y))*y`. -/
private def gauss : Term :=
  .bin .mul (.un .exp (.un .minus (.bin .mul g (.sqDist x y)))) y

example : gauss.Pos := by
  simp [gauss, x, y, g, Term.Pos, Un.dim]

/-- The code stores the product the other way round (`Mult.py:134-136` does not apply to it, since the
exponential is a scalar and `y` is not). -/
example : gauss.compile 5 = .ok (.bin .mul (.un .exp (.un .minus (.bin .mul (.var 2 1 2)
    (.un .sum (.un .square (.bin .sub (.var 0 3 0) (.var 1 3 1)))))))
    (.var 1 3 1)) := by decide

example : ∀ env, gauss.Def env := by
  intro env; simp [gauss, x, y, g, Term.Def, unDef, binDef]

/-- A case where the product is rewritten. -/
example : Builds (.mul (.un .exp (.var 0 3 0)) (.bin .mul (.var 2 1 2) (.un .exp (.var 1 3 1))))
    (.bin .mul (.var 2 1 2) (.un .exp (.bin .add (.var 1 3 1) (.var 0 3 0)))) :=
  ⟨20, by decide⟩

/-- `2*x + 3*x` -/
example : Builds (.add (.bin .mul (.int 2) (.var 0 3 0)) (.bin .mul (.int 3) (.var 0 3 0)))
    (.bin .mul (.int 5) (.var 0 3 0)) := ⟨20, by decide⟩

example : Mismatch (.var 0 3 0) (.var 1 2 1) := by simp [Mismatch, Expr.dim]

end Examples

/-! ## Disagreement

Adding an integer to a rational constant raises Python's `AttributeError` instead of returning the
sum: `Add.py:74` reads `arg1.q` where `arg0.q` is meant (same in `Subtract.py:72`).  The operands in
the other order are accepted. -/

/-- **Not C01.**  `RatCst(1,2) + 1` is not built although the value is defined and the dimensions
match. -/
theorem not_C01_rat_add_int (p q n : Int) : Raises (.add (.rat p q) (.int n)) .attribute :=
  ⟨by simp, 1, by
    simp [build, step, stepAdd, firstRule, addZero, addConst, Expr.asZero, Prog.run]⟩

theorem not_C01_rat_sub_int (p q n : Int) : Raises (.sub (.rat p q) (.int n)) .attribute :=
  ⟨by simp, 1, by
    simp [build, step, stepSub, firstRule, subZero, subConst, Expr.asZero, Prog.run]⟩

/-- The same sum with the operands exchanged. -/
example : Builds (.add (.int 1) (.rat 1 2)) (.rat 3 2) := ⟨1, by decide⟩

end Verif
