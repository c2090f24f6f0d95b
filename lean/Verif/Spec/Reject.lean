import Verif.Spec.Accept

/-!
# Formulas whose dimensions are compatible, and the exceptions to the rules

`t.Compatible` is `t.Agree` (`Spec/Accept.lean`), but `SumT(f, 1)` may be used.
-/

namespace Verif

open Spec

/-- Every operation of the formula is given arguments of the dimensions that it takes. -/
def Term.Compatible : Term → Prop
  | .var _ _ _ | .zero _ | .int _ | .rat _ _ | .intInv _ => True
  | .rdiv _ f | .rpow f _ | .sqNorm2 f | .norm2 f | .normalize f => f.Compatible
  | .un (.sumT _) f => f.Compatible ∧ f.dim = 1
  | .un o f => f.Compatible ∧ UnTakes o f.dim
  | .bin o f g => f.Compatible ∧ g.Compatible ∧ BinTakes o f.dim g.dim
  | .tern _ f g h =>
    f.Compatible ∧ g.Compatible ∧ h.Compatible ∧ Like f.dim g.dim ∧ Like f.dim h.dim ∧ Like g.dim h.dim
  | .sqDist f g | .sqNormDiag f g => f.Compatible ∧ g.Compatible ∧ Like f.dim g.dim
  | .sqNormIso s f => s.Compatible ∧ f.Compatible
  | .symSqNorm a x => a.Compatible ∧ x.Compatible ∧ Like a.dim (x.dim * x.dim)
  | .weightedSqNorm a x => a.Compatible ∧ x.Compatible ∧ WeightTakes a.dim x.dim
  | .weightedSqDist s f g =>
    s.Compatible ∧ f.Compatible ∧ g.Compatible ∧ Like f.dim g.dim ∧ WeightTakes s.dim (max f.dim g.dim)

/-- The weights of the weighted norms of scalars in the formula are scalars. -/
def Term.ScalarWeights : Term → Prop
  | .var _ _ _ | .zero _ | .int _ | .rat _ _ | .intInv _ => True
  | .rdiv _ f | .rpow f _ | .sqNorm2 f | .norm2 f | .normalize f | .un _ f => f.ScalarWeights
  | .bin _ f g | .sqDist f g | .sqNormDiag f g | .sqNormIso f g | .symSqNorm f g => f.ScalarWeights ∧ g.ScalarWeights
  | .tern _ f g h => f.ScalarWeights ∧ g.ScalarWeights ∧ h.ScalarWeights
  | .weightedSqNorm a x => a.ScalarWeights ∧ x.ScalarWeights ∧ (x.dim = 1 → a.dim = 1)
  | .weightedSqDist s f g =>
    s.ScalarWeights ∧ f.ScalarWeights ∧ g.ScalarWeights ∧ (max f.dim g.dim = 1 → s.dim = 1)

/-- `SumT(f, 1)` is not used in the formula. -/
def Term.NoSumT1 : Term → Prop
  | .var _ _ _ | .zero _ | .int _ | .rat _ _ | .intInv _ => True
  | .rdiv _ f | .rpow f _ | .sqNorm2 f | .norm2 f | .normalize f => f.NoSumT1
  | .un o f => f.NoSumT1 ∧ o ≠ .sumT 1
  | .bin _ f g | .sqDist f g | .sqNormDiag f g | .sqNormIso f g | .symSqNorm f g | .weightedSqNorm f g =>
    f.NoSumT1 ∧ g.NoSumT1
  | .tern _ f g h | .weightedSqDist f g h => f.NoSumT1 ∧ g.NoSumT1 ∧ h.NoSumT1

end Verif
