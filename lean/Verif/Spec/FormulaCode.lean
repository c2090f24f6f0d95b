import Verif.Spec.Formula
import Verif.Spec.Term
import Verif.Spec.KernelReduction
import Verif.Model.FormulaCode

/-!
# What the code of a formula should do

Assumptions on the C functions and on the table, and the array that holds a value.
-/

namespace Verif

open Spec

/-- The array of the `d` first components of a vector. -/
def vec (d : Nat) (x : Vec) : CArr := (List.range d).map x

/-- The functions of the C library and the division are exact on their domain.  Nothing is assumed
outside. -/
structure CMath.Exact (M : CMath) : Prop where
  exp : ∀ x, M.exp x = Real.exp x
  log : ∀ x, 0 < x → M.log x = Real.log x
  cos : ∀ x, M.cos x = Real.cos x
  sin : ∀ x, M.sin x = Real.sin x
  acos : ∀ x, -1 ≤ x → x ≤ 1 → M.acos x = Real.arccos x
  asin : ∀ x, -1 ≤ x → x ≤ 1 → M.asin x = Real.arcsin x
  atan : ∀ x, M.atan x = Real.arctan x
  sqrt : ∀ x, 0 ≤ x → M.sqrt x = Real.sqrt x
  abs : ∀ x, M.abs x = |x|
  floor : ∀ x, M.floor x = ⌊x⌋
  round : ∀ x, M.round x = roundAway x
  pow : ∀ x m, (m < 0 → x ≠ 0) → M.pow x m = x ^ m
  powf : ∀ x y, 0 < x → M.powf x y = x ^ y
  atan2 : ∀ y x, y ≠ 0 ∨ x ≠ 0 → M.atan2 y x = Complex.arg ⟨x, y⟩
  div : ∀ x y, y ≠ 0 → M.div x y = x / y
  toInt : ∀ x, M.toInt x = trunc x

/-- Free variables. -/
def Expr.free : Expr → List (Int × Nat × Int)
  | .var i d c => [(i, d, c)]
  | .zero _ | .int _ | .rat _ _ => []
  | .un _ f => f.free
  | .bin _ f g => f.free ++ g.free
  | .tern _ f g h => f.free ++ (g.free ++ h.free)
  | .fact i _ _ f g => f.free.filter (fun t => t.1 ≠ i) ++ g.free

/-- Indices of all temporary variables, at any depth. -/
def Expr.binders : Expr → List Int
  | .var _ _ _ | .zero _ | .int _ | .rat _ _ => []
  | .un _ f => f.binders
  | .bin _ f g => f.binders ++ g.binders
  | .tern _ f g h => f.binders ++ (g.binders ++ h.binders)
  | .fact i _ _ f g => i :: (f.binders ++ g.binders)

/-- Temporary variables have negative indices, are not bound a second time in their scope, and occur there
with the dimension and category of their declaration.  Two temporary variables whose scopes are disjoint
may have the same index. -/
def Expr.Named : Expr → Prop
  | .var _ _ _ | .zero _ | .int _ | .rat _ _ => True
  | .un _ f => f.Named
  | .bin _ f g => f.Named ∧ g.Named
  | .tern _ f g h => f.Named ∧ g.Named ∧ h.Named
  | .fact i d c f g => f.Named ∧ g.Named ∧ i < 0 ∧ i ∉ f.binders ∧
      ∀ t ∈ f.free, t.1 = i → t = (i, d, c)

/-- The table has, at the position of each free variable, the array of its value. -/
def Table.Holds (tab : Table) (env : Env) (e : Expr) : Prop :=
  ∀ t ∈ e.free, 0 ≤ t.1 ∧ tab[t.1.toNat]? = some (some (vec t.2.1 (env t.1)))

/-- The positions of `Elem` and `ElemT` are inside their vectors; `OneHot` is excluded, since its position
depends on the data. -/
def Un.InRange : Un → Prop
  | .elem m => 0 ≤ m
  | .elemT n m => 0 ≤ m ∧ m < n
  | .oneHot _ => False
  | _ => True

/-- All the operations of the formula are in range. -/
def Expr.InRange : Expr → Prop
  | .var _ _ _ | .zero _ | .int _ | .rat _ _ => True
  | .un o f => f.InRange ∧ o.InRange
  | .bin _ f g => f.InRange ∧ g.InRange
  | .tern _ f g h => f.InRange ∧ g.InRange ∧ h.InRange
  | .fact _ _ _ f g => f.InRange ∧ g.InRange

/-- All the operations written by the user are in range. -/
def Term.InRange : Term → Prop
  | .var _ _ _ | .zero _ | .int _ | .rat _ _ | .intInv _ => True
  | .rdiv _ f | .rpow f _ | .sqNorm2 f | .norm2 f | .normalize f => f.InRange
  | .un o f => f.InRange ∧ o.InRange
  | .bin _ f g => f.InRange ∧ g.InRange
  | .tern _ f g h => f.InRange ∧ g.InRange ∧ h.InRange
  | .sqDist f g | .sqNormIso f g | .sqNormDiag f g | .symSqNorm f g | .weightedSqNorm f g =>
    f.InRange ∧ g.InRange
  | .weightedSqDist s f g => s.InRange ∧ f.InRange ∧ g.InRange

/-- The variables written by the user. -/
def Term.vars : Term → List (Int × Nat × Int)
  | .var i d c => [(i, d, c)]
  | .zero _ | .int _ | .rat _ _ | .intInv _ => []
  | .rdiv _ f | .rpow f _ | .sqNorm2 f | .norm2 f | .normalize f => f.vars
  | .un _ f => f.vars
  | .bin _ f g => f.vars ++ g.vars
  | .tern _ f g h => f.vars ++ (g.vars ++ h.vars)
  | .sqDist f g | .sqNormIso f g | .sqNormDiag f g | .symSqNorm f g | .weightedSqNorm f g =>
    f.vars ++ g.vars
  | .weightedSqDist s f g => s.vars ++ (f.vars ++ g.vars)

/-- The variables of the user: positions are natural numbers, categories are `Vi`, `Vj` and `Pm`, and a
position has one dimension and one category. -/
structure Term.Inputs (t : Term) : Prop where
  pos : ∀ v ∈ t.vars, 0 ≤ v.1
  cat : ∀ v ∈ t.vars, v.2.2 = 0 ∨ v.2.2 = 1 ∨ v.2.2 = 2
  unique : ∀ u ∈ t.vars, ∀ v ∈ t.vars, u.1 = v.1 → u = v

/-- In `env`, the variables of `t` are the rows `i` and `j` of the arrays `args`: row `i` for the variables of
category `tagI`, row `j` for the other category, and row 0 for the parameters. -/
def Term.Reads (t : Term) (tagI : Nat) (args : Nat → Nat → ℝ) (i j : Nat) (env : Env) : Prop :=
  ∀ v ∈ t.vars, ∀ k < v.2.1, env v.1 k = args v.1.toNat (row tagI i j v.2.2.toNat * v.2.1 + k)

end Verif
