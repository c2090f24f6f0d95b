import Verif.Model.Chunks

/-!
# Sums evaluated by chunks

Notions used in the statements about the chunked mode.
-/

namespace Verif

namespace Expr

/-- The sums and scalar products of the formula that are evaluated by chunks: they are over a large dimension
and contain only variables and vectorized operations. -/
def sums : Expr → List Expr
  | .un o f => if (un o f).useChunk then [.un o f] else f.sums
  | .bin o f g => if (bin o f g).useChunk then [.bin o f g] else f.sums ++ g.sums
  | .tern _ f g h => f.sums ++ (g.sums ++ h.sums)
  | .fact _ _ _ f g => f.sums ++ g.sums
  | _ => []

/-- The variables of the formula that occur outside of these sums. -/
def outerVars : Expr → List (Int × Nat × Int)
  | .var i d c => [(i, d, c)]
  | .un o f => if (un o f).useChunk then [] else f.outerVars
  | .bin o f g => if (bin o f g).useChunk then [] else f.outerVars ++ g.outerVars
  | .tern _ f g h => f.outerVars ++ (g.outerVars ++ h.outerVars)
  | .fact _ _ _ f g => f.outerVars ++ g.outerVars
  | _ => []

/-- Conditions under which the chunked mode is right.
* `scalars`: a variable of dimension 1 inside of a sum also occurs outside of it;
* `params`: there are not both parameters summed by chunks and parameters that are used otherwise. -/
structure ChunkSafe (e : Expr) : Prop where
  scalars : ∀ c ∈ e.sums, ∀ v ∈ c.vars, v.2.1 = 1 → v ∈ e.outerVars
  params : (∀ c ∈ e.sums, ∀ v ∈ c.vars, v.2.2 = 2 → v.2.1 = 1) ∨ ∀ v ∈ e.outerVars, v.2.2 ≠ 2

end Expr

end Verif
