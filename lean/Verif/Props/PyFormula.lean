import Verif.Proofs.PyFormula
import Verif.Model.Zero
import Verif.Proofs.BackwardCall
import Verif.Proofs.FormulaInputs

/-!
# C79: the operators of formulas written as texts
-/

namespace Verif

open Finset Spec

/-- **C79**: if a formula written with `+`, `-`, `*`, `/`, `|`, `**`, `<`, `>`, `<=`, `>=`, integers, variables and operations
is accepted, then the formula that is evaluated has the dimension and, wherever no operation is applied outside its domain,
the value announced by the documentation.

Partial: the operators `==` and `!=`, which are in the documentation, and chains of comparisons such as `x < y < z`.  The
property fails for them: `not_C79_equal`, `not_C79_notEqual`, `not_C79_chain`. -/
theorem C79_partial {x : PyF} (hp : x.Pos) (hx : x.Plain) {n : Nat} {e : Expr} (h : x.formula n = .ok e) :
    e.dim = x.dim ∧ ∀ env, x.Def env → e.Def env ∧ ∀ k < e.dim, e.val env k = x.val env k := by
  obtain ⟨v, h1, h2⟩ := bind_ok' h
  have := asOp_ok h2
  subst this
  obtain ⟨t, t1, t2, t3, t4, -⟩ := eval_means hp hx h1
  have hr := compile_rep t1 t2
  refine ⟨hr.dim.trans t3, fun env hd => ?_⟩
  obtain ⟨d1, d2⟩ := t4 env hd
  obtain ⟨e1, e2⟩ := hr.sem env d1
  exact ⟨e1, fun k _ => by rw [e2, d2]⟩

/-- **C79**, for the whole call: if the formula is accepted, then whatever the order in which the rows are visited, the way
the sum is accumulated and the contents of the buffers, the kernel that is generated for the sum of the formula over one of its
two indices writes the sums of the values announced by the documentation.

Partial: as `C79_partial`; the variables have numbers that are not negative, categories 0, 1 or 2, and each number is used with
one dimension and category; arrays of real numbers without batch dimensions. -/
theorem C79_sum_partial {x : PyF} (hp : x.Pos) (hx : x.Plain) {N : Nat} {e : Expr} (h : x.formula N = .ok e)
    {l : List (Int × Nat × Int)} (hl : PlainVars l) (hv : ∀ u ∈ x.vars, u ∈ l) {axis : Nat} (ht : axis < 2) {m n : Nat}
    {args : Nat → Nat → ℝ} (hd : ∀ i < m, ∀ j < n, x.Def (readEnv l args (i, j))) (sch : SumScheme) :
    ∃ S, getScheme (sumRed (V := ℝ) e.dim) sch = some S ∧ ∀ (M : CMath), M.Exact → ∀ junk out out',
      Exec (sumRed e.dim) S (e.call id id M junk axis m n args) out out' →
      ∀ q < outRows axis m n, ∀ k < x.dim, out' (q * x.dim + k) =
        ∑ s ∈ range (redRows axis m n), x.val (readEnv l args (pairAt axis q s)) k := by
  have hsem := C79_partial hp hx h
  obtain ⟨v, h1, h2⟩ := bind_ok' h
  have := asOp_ok h2
  subst this
  obtain ⟨t, t1, t2, t3, t4, t5⟩ := eval_means hp hx h1
  have hr := compile_rep t1 t2
  obtain ⟨c1, c2⟩ := compile_vars t1 t2
  obtain ⟨S, hS, hE⟩ := sum_exec hl hr.wf c1 (fun u hu => hv u (t5 u (c2 u hu))) ht
    (fun i hi j hj => (hsem.2 _ (hd i hi j hj)).1) sch
  refine ⟨S, hS, fun M hM junk out out' he q hq k hk => ?_⟩
  rw [← hsem.1] at hk ⊢
  rw [hE M hM junk out out' he q hq k hk]
  refine sum_congr rfl fun s hs => ?_
  obtain ⟨p1, p2⟩ := pairAt_lt hq (mem_range.mp hs)
  exact (hsem.2 _ (hd _ p1 _ p2)).2 k hk

/-! ## The hypotheses can be met -/

/-- `2 * (1 - x) / y ** 2 < (x | b)` for vectors `x` and `b` of dimension 3 and scalars `y`. -/
def textF : PyF :=
  .cmp .lt (.arith .div (.arith .mul (.int 2) (.arith .sub (.int 1) (.var 0 3 0))) (.arith .pow (.var 1 1 1) (.int 2)))
    (.arith .or (.var 0 3 0) (.var 2 3 1))

/-- The formula `textF` is accepted, and its value is the one that is announced. -/
example : ∃ e, textF.formula 20 = .ok e ∧ e.dim = 3 ∧ ∀ env : Env, env 1 0 ≠ 0 → ∀ k < 3,
    e.val env k = ind (2 * (1 - env 0 k) / env 1 0 ^ (2 : ℝ) < env 0 0 * env 2 0 + env 0 1 * env 2 1 + env 0 2 * env 2 2) := by
  have h0 : ∃ e, textF.formula 20 = .ok e := ⟨_, rfl⟩
  obtain ⟨e, h⟩ := h0
  have h1 := C79_partial (by simp [textF, PyF.Pos]) (by simp [textF, PyF.Plain]) h
  have h3 : e.dim = 3 := h1.1
  refine ⟨e, h, h3, fun env hy k hk => ?_⟩
  rw [(h1.2 env ?_).2 k (by omega)]
  · simp only [textF, PyF.val, PyCmp.Holds, PyF.dim, cst]
    refine ind_congr ?_
    simp [sum_range_succ]
  · simp [textF, PyF.Def, PyF.val, cst, hy]

/-- `Exp(-g * SqDist(x, y)) * b` for points `x_i` and `y_j` of dimension 3, a parameter `g` and vectors `b_j` of dimension 2. -/
def textG : PyF :=
  .arith .mul (.call1 .exp (.arith .mul (.neg (.var 0 1 2)) (.fun2 .sqDist (.var 1 3 0) (.var 2 3 1)))) (.var 3 2 1)

def textGVars : List (Int × Nat × Int) := [(0, 1, 2), (1, 3, 0), (2, 3, 1), (3, 2, 1)]

/-- The formula `textG` is accepted, and its sums are the products with the Gaussian kernel. -/
example (m n : Nat) (args : Nat → Nat → ℝ) (sch : SumScheme) : ∃ e, textG.formula 20 = .ok e ∧
    ∃ S, getScheme (sumRed (V := ℝ) e.dim) sch = some S ∧ ∀ (M : CMath), M.Exact → ∀ junk out out',
      Exec (sumRed e.dim) S (e.call id id M junk 0 m n args) out out' →
      ∀ i < m, ∀ k < 2, out' (i * 2 + k) = ∑ j ∈ range n,
        Real.exp (-args 0 0 * ((args 1 (i * 3) - args 2 (j * 3)) ^ 2 + (args 1 (i * 3 + 1) - args 2 (j * 3 + 1)) ^ 2 +
          (args 1 (i * 3 + 2) - args 2 (j * 3 + 2)) ^ 2)) * args 3 (j * 2 + k) := by
  have h0 : ∃ e, textG.formula 20 = .ok e := ⟨_, rfl⟩
  obtain ⟨e, h⟩ := h0
  refine ⟨e, h, ?_⟩
  obtain ⟨S, hS, hE⟩ := C79_sum_partial (by simp [textG, PyF.Pos, PyF.dim, Un.dim]) (by simp [textG, PyF.Plain]) h (l := textGVars)
    (axis := 0) (m := m) (n := n) (args := args)
    ⟨by simp [textGVars], by simp [textGVars], by simp [textGVars]⟩ (by simp [textG, textGVars, PyF.vars]) (by omega)
    (fun _ _ _ _ => by simp [textG, PyF.Def, unDef]) sch
  refine ⟨S, hS, fun M hM junk out out' he i hi k hk => ?_⟩
  have := hE M hM junk out out' he i hi k hk
  refine (this.trans ?_)
  refine sum_congr rfl fun j _ => ?_
  have hk' : k = 0 ∨ k = 1 := by omega
  rcases hk' with rfl | rfl <;>
  simp [textG, textGVars, PyF.val, PyF.dim, unVal, sqn, sum_range_succ, readEnv, pairAt, rowAt, cst]

/-! ## Equality -/

/-- `x == y` and `x != y` are numbers, which do not depend on the arrays, if `x` is a formula. -/
theorem equal_num {n : Nat} {x y : PyF} {f : Expr} {w : PyVal} (hx : x.eval n = .ok (.op f)) (hy : y.eval n = .ok w) :
    (∃ m, (PyF.cmp .eq x y).eval n = .ok (.num m)) ∧ ∃ m, (PyF.cmp .ne x y).eval n = .ok (.num m) := by
  cases w with
  | num a =>
    refine ⟨⟨0, ?_⟩, ⟨1, ?_⟩⟩ <;> simp only [PyF.eval, hx, hy] <;> rfl
  | op g =>
    refine ⟨⟨if f = g then 1 else 0, ?_⟩, ⟨if f = g then 0 else 1, ?_⟩⟩ <;> simp only [PyF.eval, hx, hy] <;> rfl

/-- `x == y` alone is refused. -/
theorem equal_refused {n : Nat} {x y : PyF} {f : Expr} {w : PyVal} (hx : x.eval n = .ok (.op f)) (hy : y.eval n = .ok w) :
    (PyF.cmp .eq x y).formula n = .error .type ∧ (PyF.cmp .ne x y).formula n = .error .type := by
  obtain ⟨⟨m, h1⟩, ⟨m', h2⟩⟩ := equal_num hx hy
  constructor
  · simp only [PyF.formula, h1]
    rfl
  · simp only [PyF.formula, h2]
    rfl

/-- Not **C79**: `(x == y) * b`, for scalars `x_i`, `y_j` and `b_j`, is accepted as the formula 0, and its sum is an array of
zeros made without any computation, whereas its value should be 1 if `x_i = y_j` and `b_j = 1`. -/
theorem not_C79_equal (n : Nat) :
    (PyF.arith .mul (.cmp .eq (.var 0 1 0) (.var 1 1 1)) (.var 2 1 1)).formula (n + 1) = .ok (.zero 1) ∧
    (RedExpr.sum (.zero 1) 0).routine = .ok .assignZero ∧
    ∃ env : Env, (PyF.arith .mul (.cmp .eq (.var 0 1 0) (.var 1 1 1)) (.var 2 1 1)).Def env ∧
      (PyF.arith .mul (.cmp .eq (.var 0 1 0) (.var 1 1 1)) (.var 2 1 1)).val env 0 = 1 ∧ (Expr.zero 1).val env 0 = 0 :=
  ⟨rfl, rfl, fun _ _ => 1, by simp [PyF.Def], by simp [PyF.val, PyCmp.Holds, ind, cst], rfl⟩

/-- Not **C79**: `(x != y) * b` is accepted as the formula `b`. -/
theorem not_C79_notEqual (n : Nat) :
    (PyF.arith .mul (.cmp .ne (.var 0 1 0) (.var 1 1 1)) (.var 2 1 1)).formula (n + 1) = .ok (.var 2 1 1) ∧
    ∃ env : Env, (PyF.arith .mul (.cmp .ne (.var 0 1 0) (.var 1 1 1)) (.var 2 1 1)).Def env ∧
      (PyF.arith .mul (.cmp .ne (.var 0 1 0) (.var 1 1 1)) (.var 2 1 1)).val env 0 = 0 ∧ (Expr.var 2 1 1).val env 0 = 1 :=
  ⟨rfl, fun _ _ => 1, by simp [PyF.Def], by simp [PyF.val, PyCmp.Holds, ind, cst], by simp [Expr.val, cst]⟩

/-! ## Chains of comparisons -/

/-- Not **C79**: `x < y < z` is accepted as `y < z`: its value is 1 for `x = 2`, `y = 0` and `z = 1`. -/
theorem not_C79_chain (n : Nat) :
    (PyF.chain (.var 0 1 0) .lt (.var 1 1 1) .lt (.var 2 1 1)).formula n = .ok (.bin .lessThan (.var 1 1 1) (.var 2 1 1)) ∧
    ∃ env : Env, (PyF.chain (.var 0 1 0) .lt (.var 1 1 1) .lt (.var 2 1 1)).Def env ∧
      (PyF.chain (.var 0 1 0) .lt (.var 1 1 1) .lt (.var 2 1 1)).val env 0 = 0 ∧
      (Expr.bin .lessThan (.var 1 1 1) (.var 2 1 1)).val env 0 = 1 :=
  ⟨rfl, fun v _ => if v = 0 then 2 else if v = 1 then 0 else 1, by simp [PyF.Def],
    by norm_num [PyF.val, PyCmp.Holds, ind, cst], by norm_num [Expr.val, binVal, ind, cst]⟩

/-! ## Powers -/

/-- `x ** y` is refused if `y` is a formula: `Operation.__pow__` raises the formula `Powf(x, y)` instead of returning it. -/
theorem power_refused {n : Nat} {x y : PyF} {v : PyVal} {g : Expr} (hx : x.eval n = .ok v) (hy : y.eval n = .ok (.op g)) :
    (PyF.arith .pow x y).formula n = .error .type := by
  simp only [PyF.formula, PyF.eval, hx, hy]
  cases v <;> rfl

end Verif
