import Verif.Model.Term
import Verif.Spec.Formula

/-!
# What the formula written by the user means

Same conventions as in `Spec/Formula.lean`: the value of a term is a function of the position `k`, and
values of dimension 1 do not depend on `k`.
-/

namespace Verif

open Finset Spec

/-- Dimension announced by the documentation. -/
def Term.dim : Term → Nat
  | .var _ d _ => d
  | .zero d => d
  | .int _ | .rat _ _ | .intInv _ => 1
  | .rdiv _ f => f.dim
  | .rpow f _ => f.dim
  | .un o f => o.dim f.dim
  | .bin o f g => o.dim f.dim g.dim
  | .tern _ f g h => max (max f.dim g.dim) h.dim
  | .sqNorm2 _ | .sqDist _ _ | .norm2 _ | .sqNormDiag _ _ | .symSqNorm _ _ => 1
  | .normalize f => f.dim
  | .sqNormIso s _ => s.dim
  | .weightedSqNorm _ _ | .weightedSqDist _ _ _ => 1

namespace Spec

/-- `|x|²`. -/
def sqn (d : Nat) (x : Vec) : ℝ := ∑ k ∈ range d, x k ^ 2

/-- Weighted squared norm, for a scalar weight, a vector of weights (diagonal matrix) or a matrix given
by rows. -/
def wsq (da d : Nat) (a x : Vec) : ℝ :=
  if da = 1 then a 0 * sqn d x
  else if da = d then ∑ k ∈ range d, a k * x k ^ 2
  else ∑ q ∈ range (max da (d * d)), a q * (x (q / d) * x (q % d))

end Spec

/-- Value of a term. -/
noncomputable def Term.val (env : Env) : Term → Vec
  | .var i d _ => cst d (env i)
  | .zero _ => fun _ => 0
  | .int n => fun _ => n
  | .rat p q => fun _ => p / q
  | .intInv n => fun _ => 1 / n
  | .rdiv n f => fun k => n / f.val env k
  | .rpow f m => fun k => f.val env k ^ m
  | .un o f => unVal o f.dim (f.val env)
  | .bin o f g => binVal o f.dim g.dim (f.val env) (g.val env)
  | .tern o f g h => ternVal o (f.val env) (g.val env) (h.val env)
  | .sqNorm2 f => fun _ => sqn f.dim (f.val env)
  | .sqDist f g => fun _ => sqn (max f.dim g.dim) fun k => f.val env k - g.val env k
  | .norm2 f => fun _ => Real.sqrt (sqn f.dim (f.val env))
  | .normalize f => fun k => if sqn f.dim (f.val env) = 0 then 0
      else f.val env k / Real.sqrt (sqn f.dim (f.val env))
  | .sqNormIso s f => fun k => s.val env k * sqn f.dim (f.val env)
  | .sqNormDiag s f => fun _ => ∑ k ∈ range (max s.dim f.dim), s.val env k * f.val env k ^ 2
  | .symSqNorm a x => fun _ => ∑ q ∈ range (max a.dim (x.dim * x.dim)),
      a.val env q * (x.val env (q / x.dim) * x.val env (q % x.dim))
  | .weightedSqNorm a x => fun _ => wsq a.dim x.dim (a.val env) (x.val env)
  | .weightedSqDist s f g => fun _ =>
      wsq s.dim (max f.dim g.dim) (s.val env) fun k => f.val env k - g.val env k

/-- No operation is applied outside its domain. -/
def Term.Def (env : Env) : Term → Prop
  | .var _ _ _ | .zero _ | .int _ => True
  | .rat _ q => q ≠ 0
  | .intInv n => n ≠ 0
  | .rdiv _ f => f.Def env ∧ ∀ k < f.dim, f.val env k ≠ 0
  | .rpow f m => f.Def env ∧ ∀ k < f.dim, m < 0 → f.val env k ≠ 0
  | .un o f => f.Def env ∧ unDef o f.dim (f.val env)
  | .bin o f g => f.Def env ∧ g.Def env ∧ binDef o f.dim g.dim (f.val env) (g.val env)
  | .tern o f g h => f.Def env ∧ g.Def env ∧ h.Def env ∧
      ternDef o (max (max f.dim g.dim) h.dim) (f.val env) (g.val env) (h.val env)
  | .sqNorm2 f | .norm2 f | .normalize f => f.Def env
  | .sqDist f g | .sqNormIso f g | .sqNormDiag f g | .symSqNorm f g | .weightedSqNorm f g =>
    f.Def env ∧ g.Def env
  | .weightedSqDist s f g => s.Def env ∧ f.Def env ∧ g.Def env

/-- The dimensions written in the term are positive. -/
def Term.Pos : Term → Prop
  | .var _ d _ => 0 < d
  | .zero d => 0 < d
  | .int _ | .rat _ _ | .intInv _ => True
  | .rdiv _ f | .rpow f _ | .sqNorm2 f | .norm2 f | .normalize f => f.Pos
  | .un o f => f.Pos ∧ 0 < o.dim 1
  | .bin _ f g => f.Pos ∧ g.Pos
  | .tern _ f g h => f.Pos ∧ g.Pos ∧ h.Pos
  | .sqDist f g | .sqNormIso f g | .sqNormDiag f g | .symSqNorm f g | .weightedSqNorm f g =>
    f.Pos ∧ g.Pos
  | .weightedSqDist s f g => s.Pos ∧ f.Pos ∧ g.Pos

end Verif
