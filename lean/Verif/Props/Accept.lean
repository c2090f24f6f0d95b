import Verif.Proofs.AcceptTerm

/-!
# C81: formulas whose dimensions are compatible are accepted

`t.Agree`: the operations of the formula `t` are given vectors of the dimensions that they take (`Spec/Accept.lean`).
`t.Def env`: the value of the formula is defined for the values `env` of the variables (one does not divide by 0, …).
-/

namespace Verif

open Spec

/-- The formula is accepted, and the result has its dimension and its value. -/
def Term.Accepted (t : Term) : Prop :=
  ∃ n e, t.compile n = .ok e ∧ e.dim = t.dim ∧ ∀ env, t.Def env → e.Def env ∧ ∀ k, e.val env k = t.val env k

/-- The formula raises an exception. -/
def Term.Raised (t : Term) (er : Err) : Prop := er ≠ .fuel ∧ ∃ n, t.compile n = .error er

theorem Term.accepted {t : Term} (hp : t.Pos) {n : Nat} {e : Expr} (h : t.compile n = .ok e) : t.Accepted :=
  ⟨n, e, h, (compile_rep hp h).dim, fun env hd => ⟨((compile_rep hp h).sem env hd).1, fun k => by
    rw [((compile_rep hp h).sem env hd).2]⟩⟩

/-- **C81.**  A formula whose dimensions are compatible, that is defined for some values of the variables, and in which one
divides only by formulas whose value is not a constant, is accepted: whatever rules of simplification are applied, no exception is raised. -/
theorem C81_accept {t : Term} (hp : t.Pos) (ha : t.Agree) (hf : t.NoFraction) {env : Env} (hd : t.Def env) : t.Accepted := by
  obtain ⟨n, x, h, hx, hfine⟩ := compile_outcome (R := false) hp ha hd fun _ => hf
  cases x with
  | ok e => exact Term.accepted hp h
  | error er => cases hfine.1

/-- **C81**, with divisions by numbers: the only exception that may be raised is the `AttributeError` of the sum, or of the
difference, of a fraction and an integer.  Missing: the formula is accepted (see `not_C81_fraction`). -/
theorem C81_partial {t : Term} (hp : t.Pos) (ha : t.Agree) {env : Env} (hd : t.Def env) :
    t.Accepted ∨ t.Raised .attribute := by
  obtain ⟨n, x, h, hx, hfine⟩ := compile_outcome (R := true) hp ha hd fun h => by cases h
  cases x with
  | ok e => exact .inl (Term.accepted hp h)
  | error er =>
    obtain ⟨_, rfl⟩ := hfine
    exact .inr ⟨by simp, n, h⟩

/-- An accepted formula raises no exception. -/
theorem C81_exclusive {t : Term} (h : t.Accepted) (er : Err) : ¬t.Raised er := by
  rintro ⟨h1, m, h2⟩
  obtain ⟨n, e, h3, _⟩ := h
  rcases le_total n m with hnm | hnm
  · have := compile_mono t n m hnm (by simp [h3])
    simp [h2, h3] at this
  · have := compile_mono t m n hnm (by simpa [h2] using h1)
    simp [h2, h3] at this

/-- `x/2 + 3*x`, for a variable `x` of dimension 3. -/
def halfPlusThree : Term :=
  .bin .add (.bin .div (.var 0 3 0) (.int 2)) (.bin .mul (.int 3) (.var 0 3 0))

/-- **Negation of C81** with fractions: `x/2 + 3*x` is defined everywhere and its dimensions are compatible, but it raises an
`AttributeError`, although `3*x + x/2` is accepted. -/
theorem not_C81_fraction : halfPlusThree.Pos ∧ halfPlusThree.Agree ∧ (∀ env, halfPlusThree.Def env) ∧
    halfPlusThree.Raised .attribute ∧ ¬halfPlusThree.Accepted ∧
    (Term.bin .add (.bin .mul (.int 3) (.var 0 3 0)) (.bin .div (.var 0 3 0) (.int 2))).Accepted := by
  have hp : halfPlusThree.Pos := by simp [halfPlusThree, Term.Pos]
  have hr : halfPlusThree.Raised .attribute := ⟨by simp, 8, by decide +kernel⟩
  refine ⟨hp, by simp [halfPlusThree, Term.Agree, BinTakes, Like, Term.dim, Bin.dim], fun env => ?_, hr,
    fun h => C81_exclusive h _ hr, ?_⟩
  · simp [halfPlusThree, Term.Def, binDef, Term.val]
  · exact Term.accepted (n := 8) (e := .bin .mul (.var 0 3 0) (.rat 7 2)) (by simp [Term.Pos]) (by decide +kernel)

/-- **Negation of C81** for `SumT(x, 1)`, which is `x` for a scalar `x`: its product with a vector is rejected. -/
theorem not_C81_sumT : ∃ t : Term, t = .bin .mul (.var 0 3 0) (.un (.sumT 1) (.var 1 1 1)) ∧ t.Pos ∧ (∀ env, t.Def env) ∧
    t.dim = 3 ∧ t.Raised .keops :=
  ⟨_, rfl, by simp [Term.Pos, Un.dim], fun env => by simp [Term.Def, binDef, unDef], rfl, by simp, 8, by decide +kernel⟩

/-- `Exp(-SqDist(x,y)/s) * (x|y) * b`, for vectors of dimension 3, a parameter `s` and a vector `b` of dimension 2. -/
def exampleAccept : Term :=
  .bin .mul (.bin .mul (.un .exp (.bin .div (.un .minus (.sqDist (.var 0 3 0) (.var 1 3 1))) (.var 2 1 2)))
    (.bin .scalprod (.var 0 3 0) (.var 1 3 1))) (.var 3 2 1)

example : exampleAccept.Accepted :=
  C81_accept (env := fun _ _ => 1) (by simp [exampleAccept, Term.Pos, Un.dim])
    (by simp [exampleAccept, Term.Agree, BinTakes, UnTakes, Like, Term.dim, Bin.dim, Un.dim])
    (by
      simp only [exampleAccept, Term.NoFraction, true_and, and_true, reduceCtorEq, false_implies, forall_const]
      refine ⟨fun _ _ => 0, fun _ _ => 1, trivial, trivial, fun h => ?_⟩
      have := congrFun h 0
      simp [Term.val, cst] at this)
    (by simp [exampleAccept, Term.Def, binDef, unDef, Term.val, cst, Term.dim, Un.dim])

end Verif
