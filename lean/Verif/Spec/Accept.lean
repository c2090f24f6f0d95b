import Verif.Spec.Term

/-!
# Formulas whose dimensions are compatible

The rules on dimensions of the documentation of the formulas.
-/

namespace Verif

namespace Spec

/-- Dimensions of two vectors that can be combined component by component. -/
def Like (d d' : Nat) : Prop := d = d' ∨ d = 1 ∨ d' = 1

/-- The dimensions that an operation with one argument takes. -/
def UnTakes : Un → (d : Nat) → Prop
  | .elem m, d => m < d
  | .elemT _ _, d => d = 1
  | .extract s n, d => s + n ≤ d
  | .extractT s n, d => s + d ≤ n
  | .oneHot n, d => d = 1 ∧ 1 ≤ n
  | .sumT n, d => d = 1 ∧ n ≠ 1
  | _, _ => True

/-- The dimensions that an operation with two arguments takes. -/
def BinTakes : Bin → (d d' : Nat) → Prop
  | .concat, _, _ | .tensorProd, _, _ => True
  | .matVecMult, d, d' => d' ∣ d
  | .vecMatMult, d, d' => d ∣ d'
  | _, d, d' => Like d d'

/-- The dimensions of the weights of a norm on vectors of dimension `d`. -/
def WeightTakes (ds d : Nat) : Prop := ds = 1 ∨ ds = d ∨ ds = d * d

end Spec

open Spec

/-- Every operation of the formula is given arguments of the dimensions that it takes. -/
def Term.Agree : Term → Prop
  | .var _ _ _ | .zero _ | .int _ | .rat _ _ | .intInv _ => True
  | .rdiv _ f | .rpow f _ | .sqNorm2 f | .norm2 f | .normalize f => f.Agree
  | .un o f => f.Agree ∧ UnTakes o f.dim
  | .bin o f g => f.Agree ∧ g.Agree ∧ BinTakes o f.dim g.dim
  | .tern _ f g h => f.Agree ∧ g.Agree ∧ h.Agree ∧ Like f.dim g.dim ∧ Like f.dim h.dim ∧ Like g.dim h.dim
  | .sqDist f g | .sqNormDiag f g => f.Agree ∧ g.Agree ∧ Like f.dim g.dim
  | .sqNormIso s f => s.Agree ∧ f.Agree
  | .symSqNorm a x => a.Agree ∧ x.Agree ∧ Like a.dim (x.dim * x.dim)
  | .weightedSqNorm a x => a.Agree ∧ x.Agree ∧ WeightTakes a.dim x.dim
  | .weightedSqDist s f g => s.Agree ∧ f.Agree ∧ g.Agree ∧ Like f.dim g.dim ∧ WeightTakes s.dim (max f.dim g.dim)

/-- The value of the formula is not a constant. -/
def Term.Varies (t : Term) : Prop := ∃ env env', t.Def env ∧ t.Def env' ∧ t.val env ≠ t.val env'

/-- There are no fractions in the formula: one divides only by formulas whose value is not a constant. -/
def Term.NoFraction : Term → Prop
  | .var _ _ _ | .zero _ | .int _ => True
  | .rat _ _ | .intInv _ => False
  | .rdiv m f => f.NoFraction ∧ (m = 1 ∨ f.Varies)
  | .rpow f _ | .sqNorm2 f | .norm2 f | .normalize f | .un _ f => f.NoFraction
  | .bin o f g => f.NoFraction ∧ g.NoFraction ∧ (o = .div → g.Varies)
  | .tern _ f g h => f.NoFraction ∧ g.NoFraction ∧ h.NoFraction
  | .sqDist f g | .sqNormDiag f g | .sqNormIso f g | .symSqNorm f g | .weightedSqNorm f g => f.NoFraction ∧ g.NoFraction
  | .weightedSqDist s f g => s.NoFraction ∧ f.NoFraction ∧ g.NoFraction

end Verif
