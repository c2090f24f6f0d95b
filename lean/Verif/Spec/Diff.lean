import Mathlib.Analysis.Calculus.FDeriv.Basic
import Mathlib.Analysis.Normed.Module.FiniteDimension
import Verif.Spec.Formula
import Verif.Model.Diff

/-!
# Derivatives of formulas

What a gradient is, and the points where the operations are differentiable.
-/

namespace Verif

open Finset

namespace Spec

/-- Points where an operation with one argument, of dimension `d`, is differentiable. -/
def unSmooth : Un → (d : Nat) → Vec → Prop
  | .pow m, d, x => ∀ k < d, m < 0 → x k ≠ 0
  | .inv, d, x | .abs, d, x | .sign, d, x | .step, d, x | .relu, d, x => ∀ k < d, x k ≠ 0
  | .sinXDivX, d, x => ∀ k < d, x k ≠ 0
  | .sqrt, d, x | .rsqrt, d, x | .log, d, x | .xLogX, d, x => ∀ k < d, 0 < x k
  | .acos, d, x | .asin, d, x => ∀ k < d, -1 < x k ∧ x k < 1
  | .clampInt a b, d, x | .diffClampInt a b, d, x => ∀ k < d, x k ≠ a ∧ x k ≠ b
  | .round p, d, x => ∀ k < d, ∀ z : ℤ, x k * 10 ^ p ≠ z + 1 / 2
  | .floor, d, x => ∀ k < d, ∀ z : ℤ, x k ≠ z
  | .elem m, _, _ => 0 ≤ m
  | .elemT n m, _, _ => 0 ≤ m ∧ m < n
  | .oneHot n, _, x => (∀ z : ℤ, x 0 + 1 / 2 ≠ z) ∧
      0 ≤ trunc (x 0 + 1 / 2) ∧ trunc (x 0 + 1 / 2) < n
  | .max, d, x | .argMax, d, x => ∃ j < d, ∀ i < d, i ≠ j → x i < x j
  | .min, d, x | .argMin, d, x => ∃ j < d, ∀ i < d, i ≠ j → x j < x i
  | _, _, _ => True

/-- Same for two arguments. -/
def binSmooth : Bin → (d d' : Nat) → Vec → Vec → Prop
  | .div, d, d', _, y => ∀ k < max d d', y k ≠ 0
  | .powf, d, d', x, _ => ∀ k < max d d', 0 < x k
  | .atan2, d, d', x, y => ∀ k < max d d', 0 < y k ∨ x k ≠ 0
  | .lessThan, d, d', x, y | .lessOrEqual, d, d', x, y | .equal, d, d', x, y
  | .notEqual, d, d', x, y => ∀ k < max d d', x k ≠ y k
  | _, _, _, _, _ => True

/-- Same for three arguments, `m` being the largest dimension. -/
def ternSmooth : Tern → (m : Nat) → Vec → Vec → Vec → Prop
  | .ifElse, m, x, _, _ => ∀ k < m, x k ≠ 0
  | .clamp, m, x, a, b => ∀ k < m, a k < b k ∧ x k ≠ a k ∧ x k ≠ b k
  | .mod, m, x, n, d => ∀ k < m, n k ≠ 0 ∧ ∀ z : ℤ, (x k - d k) / n k ≠ z

/-- The inputs `env` in which the variable `v` receives the value `x`. -/
noncomputable def setVar (env : Env) (v : VarId) (x : Fin v.dim → ℝ) : Env :=
  Function.update env v.ind fun k => if h : k < v.dim then x ⟨k, h⟩ else 0

end Spec

open Spec

/-- Every operation of the formula is differentiable at the point where it is applied. -/
def Expr.Smooth (env : Env) : Expr → Prop
  | .un o f => f.Smooth env ∧ unSmooth o f.dim (f.val env)
  | .bin o f g => f.Smooth env ∧ g.Smooth env ∧ binSmooth o f.dim g.dim (f.val env) (g.val env)
  | .tern o f g h => f.Smooth env ∧ g.Smooth env ∧ h.Smooth env ∧
      ternSmooth o (Expr.tern o f g h).dim (f.val env) (g.val env) (h.val env)
  | .fact i _ _ f g => g.Smooth env ∧ f.Smooth (Function.update env i (g.val env))
  | _ => True

/-- No broadcasting in the operations whose gradient does not support it: the arguments of `Powf` and
`Atan2` have the same dimension, the condition of `IfElse` is a scalar and its two branches have the same
dimension. -/
def Expr.NoBroadcast : Expr → Prop
  | .un _ f => f.NoBroadcast
  | .bin .powf f g | .bin .atan2 f g => f.NoBroadcast ∧ g.NoBroadcast ∧ f.dim = g.dim
  | .bin _ f g => f.NoBroadcast ∧ g.NoBroadcast
  | .tern .ifElse f g h => f.NoBroadcast ∧ g.NoBroadcast ∧ h.NoBroadcast ∧ f.dim = 1 ∧ g.dim = h.dim
  | .tern _ f g h => f.NoBroadcast ∧ g.NoBroadcast ∧ h.NoBroadcast
  | .fact _ _ _ f g => f.NoBroadcast ∧ g.NoBroadcast
  | _ => True

/-- The index of `v` always comes with the dimension and the category of `v`. -/
def Expr.Uses (v : VarId) : Expr → Prop
  | .var i d c => i = v.ind → d = v.dim ∧ c = v.cat
  | .un _ f => f.Uses v
  | .bin _ f g => f.Uses v ∧ g.Uses v
  | .tern _ f g h => f.Uses v ∧ g.Uses v ∧ h.Uses v
  | .fact i _ _ f g => i ≠ v.ind ∧ f.Uses v ∧ g.Uses v
  | _ => True

/-- No `Factorize` in the formula. -/
def Expr.FactFree : Expr → Prop
  | .un _ f => f.FactFree
  | .bin _ f g => f.FactFree ∧ g.FactFree
  | .tern _ f g h => f.FactFree ∧ g.FactFree ∧ h.FactFree
  | .fact _ _ _ _ _ => False
  | _ => True

/-- `L` is the differential of the value of `e` with respect to the variable `v`, at the value `x` of
this variable. -/
def HasDiff (e : Expr) (v : VarId) (env : Env) (x : Fin v.dim → ℝ)
    (L : (Fin v.dim → ℝ) →L[ℝ] (Fin e.dim → ℝ)) : Prop :=
  HasFDerivAt (fun y (k : Fin e.dim) => e.val (setVar env v y) k) L x

end Verif
