import Verif.Proofs.Reject
import Verif.Props.Accept

/-!
# C82: formulas whose dimensions are not compatible are rejected

`t.Compatible`: the operations of the formula `t` are given vectors of the dimensions that they take (`Spec/Reject.lean`).
-/

namespace Verif

open Spec

/-- **C82.**  A formula in which an operation is given vectors of dimensions that it does not take raises an exception, whatever
rules of simplification are applied.  Missing: the weighted norms of scalars with a vector of weights (see `not_C82`). -/
theorem C82_partial {t : Term} (hp : t.Pos) (hw : t.ScalarWeights) (hc : ¬t.Compatible) :
    (∃ er, t.Raised er) ∧ ¬t.Accepted := by
  have no : ∀ n e, t.compile n ≠ .ok e := fun n e h => hc (compile_compatible hp hw h)
  refine ⟨?_, fun ⟨n, e, h, _⟩ => no n e h⟩
  obtain ⟨N, x, hx, h⟩ := compile_stable hp
  have h : t.compile N = x := h N (le_refl _)
  cases x with
  | ok e => exact absurd h (no N e)
  | error er => exact ⟨er, fun h' => hx (by rw [h']), N, h⟩

/-- **C81 and C82.**  A formula with no fractions, that is defined for some values of the variables, is accepted if its
dimensions are compatible, and only then. -/
theorem C82_iff_partial {t : Term} (hp : t.Pos) (hw : t.ScalarWeights) (hs : t.NoSumT1) (hf : t.NoFraction) {env : Env}
    (hd : t.Def env) : t.Accepted ↔ t.Compatible :=
  ⟨fun h => by_contra fun hc => (C82_partial hp hw hc).2 h,
   fun h => C81_accept hp ((agree_compatible hs).mp h) hf hd⟩

/-- `WeightedSqNorm(A, X)` for weights of dimension 3 and a scalar `X`. -/
def weightedScalar : Term := .weightedSqNorm (.var 0 3 2) (.var 1 1 0)

/-- **Negation of C82** for the weighted norm of a scalar: weights of dimension 3 are accepted, although the weights of a
vector of dimension `d` have dimension 1, `d` or `d * d`; the value is the sum of the three weights times the square of the scalar. -/
theorem not_C82 : weightedScalar.Pos ∧ ¬weightedScalar.Compatible ∧ weightedScalar.Accepted ∧
    ∃ n e, weightedScalar.compile n = .ok e ∧
      ∀ env k, e.val env k = (env 0 0 + env 0 1 + env 0 2) * (env 1 0 * env 1 0) := by
  have hp : weightedScalar.Pos := by simp [weightedScalar, Term.Pos]
  have h : weightedScalar.compile 8 = .ok (.bin .mul (.un .sum (.var 0 3 2)) (.bin .tensorProd (.var 1 1 0) (.var 1 1 0))) := by
    decide +kernel
  refine ⟨hp, by simp [weightedScalar, Term.Compatible, WeightTakes, Term.dim], Term.accepted hp h, 8, _, h, fun env k => ?_⟩
  simp [Expr.val, binVal, unVal, cst, Expr.dim, Un.dim, Bin.dim, Finset.sum_range_succ]

/-- `SqDist(x,y) * b` for vectors of dimensions 3 and 2. -/
def exampleReject : Term := .bin .mul (.sqDist (.var 0 3 0) (.var 1 2 1)) (.var 2 1 1)

example : ∃ er, exampleReject.Raised er :=
  (C82_partial (by simp [exampleReject, Term.Pos]) (by simp [exampleReject, Term.ScalarWeights])
    (by simp [exampleReject, Term.Compatible, Like, Term.dim])).1

example (d : Nat) (h : 0 < d) : (Term.bin .mul (.bin .scalprod (.var 0 3 0) (.var 1 d 1)) (.var 2 2 1)).Accepted ↔ d = 3 ∨ d = 1 := by
  rw [C82_iff_partial (env := fun _ _ => 1)]
  · simp only [Term.Compatible, BinTakes, Like, Term.dim, Bin.dim, true_and, OfNat.ofNat_ne_one, false_or, or_false]
    rw [or_true, and_true, eq_comm]
  · simp [Term.Pos, h]
  · simp [Term.ScalarWeights]
  · simp [Term.NoSumT1]
  · simp [Term.NoFraction]
  · simp [Term.Def, binDef]

end Verif
