import Verif.Spec.Diff
import Verif.Model.Factorize

/-!
# Well-scoped factorizations
-/

namespace Verif

/-- Factorizations are only at the top of the formula, as in
`F with v2 = g2, with v1 = g1`; each temporary variable is used, has its own index, and is used only in
its scope: `v1` may be used in `g2` and `F`, and `v2` in `F`. -/
def Expr.Scoped : Expr → Prop
  | .fact i d c f g => f.Scoped ∧ g.FactFree ∧ i ∈ f.inds ∧ (∀ t ∈ f.vars, t.1 = i → t = (i, d, c)) ∧
      (∀ s ∈ f.tempVars, s.1 ≠ i ∧ s.1 ∉ g.inds) ∧ i ∉ g.inds
  | e => e.FactFree

/-- All the sub-formulas of a formula, itself included, with as many repetitions as it has
occurrences. -/
def Expr.subs : Expr → List Expr
  | .un o f => .un o f :: f.subs
  | .bin o f g => .bin o f g :: (f.subs ++ g.subs)
  | .tern o f g h => .tern o f g h :: (f.subs ++ (g.subs ++ h.subs))
  | .fact i d c f g => .fact i d c f g :: (f.subs ++ g.subs)
  | e => [e]

/-- No sub-formula is written twice, apart from variables, zeros and integers. -/
def Expr.NoRepeat (e : Expr) : Prop :=
  ∀ g, e.subs.count g ≤ 1 ∨ (∃ i d c, g = .var i d c) ∨ (∃ d, g = .zero d) ∨ ∃ n, g = .int n

end Verif
