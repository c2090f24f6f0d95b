import Verif.Model.PyFormula
import Verif.Spec.Term

/-!
# What the operators of formulas mean

The table "Math operators" of the documentation (`doc/api/math-operations.rst`): arithmetic and comparisons are
element-wise, values of dimension 1 being repeated, a comparison is 1 if it holds and 0 otherwise, and `f | g` is the scalar
product.  Same conventions as in `Spec/Term.lean`: values of dimension 1 do not depend on the position.
-/

namespace Verif

open Finset Spec

/-- `x < y`, `x > y`, … -/
def PyCmp.Holds (c : PyCmp) (x y : ℝ) : Prop :=
  match c with
  | .lt => x < y
  | .gt => x > y
  | .le => x ≤ y
  | .ge => x ≥ y
  | .eq => x = y
  | .ne => x ≠ y

noncomputable instance (c : PyCmp) (x y : ℝ) : Decidable (c.Holds x y) := Classical.dec _

/-- The dimension of a formula. -/
def PyF.dim : PyF → Nat
  | .int _ | .intCst _ | .ratCst _ _ => 1
  | .zero d => d
  | .var _ d _ => d
  | .call1 o x => o.dim x.dim
  | .call2 o x y => o.dim x.dim y.dim
  | .call3 _ x y z => max (max x.dim y.dim) z.dim
  | .fun1 .normalize x => x.dim
  | .fun1 _ _ => 1
  | .fun2 .sqNormIso s _ => s.dim
  | .fun2 _ _ _ | .weightedSqDist _ _ _ => 1
  | .neg x => x.dim
  | .arith .or _ _ => 1
  | .arith .pow x _ => x.dim
  | .arith _ x y => max x.dim y.dim
  | .cmp _ x y => max x.dim y.dim
  | .chain x _ y _ z => max (max x.dim y.dim) z.dim

/-- The value of a formula. -/
noncomputable def PyF.val (env : Env) : PyF → Vec
  | .int m | .intCst m => fun _ => m
  | .var i d _ => cst d (env i)
  | .call1 o x => unVal o x.dim (x.val env)
  | .call2 o x y => binVal o x.dim y.dim (x.val env) (y.val env)
  | .call3 o x y z => ternVal o (x.val env) (y.val env) (z.val env)
  | .ratCst p q => fun _ => p / q
  | .zero _ => fun _ => 0
  | .fun1 .sqNorm2 x => fun _ => sqn x.dim (x.val env)
  | .fun1 .norm2 x => fun _ => Real.sqrt (sqn x.dim (x.val env))
  | .fun1 .normalize x => fun k =>
    if sqn x.dim (x.val env) = 0 then 0 else x.val env k / Real.sqrt (sqn x.dim (x.val env))
  | .fun2 .sqDist x y => fun _ => sqn (max x.dim y.dim) fun k => x.val env k - y.val env k
  | .fun2 .sqNormIso s x => fun k => s.val env k * sqn x.dim (x.val env)
  | .fun2 .sqNormDiag s x => fun _ => ∑ k ∈ range (max s.dim x.dim), s.val env k * x.val env k ^ 2
  | .fun2 .symSqNorm a x => fun _ => ∑ q ∈ range (max a.dim (x.dim * x.dim)),
      a.val env q * (x.val env (q / x.dim) * x.val env (q % x.dim))
  | .fun2 .weightedSqNorm a x => fun _ => wsq a.dim x.dim (a.val env) (x.val env)
  | .weightedSqDist s x y => fun _ =>
      wsq s.dim (max x.dim y.dim) (s.val env) fun k => x.val env k - y.val env k
  | .neg x => fun k => -x.val env k
  | .arith .add x y => fun k => x.val env k + y.val env k
  | .arith .sub x y => fun k => x.val env k - y.val env k
  | .arith .mul x y => fun k => x.val env k * y.val env k
  | .arith .div x y => fun k => x.val env k / y.val env k
  | .arith .or x y => fun _ => ∑ k ∈ range (max x.dim y.dim), x.val env k * y.val env k
  | .arith .pow x y => fun k => x.val env k ^ y.val env k
  | .cmp c x y => fun k => ind (c.Holds (x.val env k) (y.val env k))
  | .chain x c y d z => fun k =>
    ind (c.Holds (x.val env k) (y.val env k) ∧ d.Holds (y.val env k) (z.val env k))

/-- No operation is applied outside its domain. -/
def PyF.Def (env : Env) : PyF → Prop
  | .int _ | .intCst _ | .zero _ | .var _ _ _ => True
  | .ratCst _ q => q ≠ 0
  | .fun1 _ x => x.Def env
  | .fun2 _ x y => x.Def env ∧ y.Def env
  | .weightedSqDist s x y => s.Def env ∧ x.Def env ∧ y.Def env
  | .call1 o x => x.Def env ∧ unDef o x.dim (x.val env)
  | .call2 o x y => x.Def env ∧ y.Def env ∧ binDef o x.dim y.dim (x.val env) (y.val env)
  | .call3 o x y z => x.Def env ∧ y.Def env ∧ z.Def env ∧
      ternDef o (max (max x.dim y.dim) z.dim) (x.val env) (y.val env) (z.val env)
  | .neg x => x.Def env
  | .arith .div x y => x.Def env ∧ y.Def env ∧ ∀ k < max x.dim y.dim, y.val env k ≠ 0
  | .arith .pow x y => x.Def env ∧ y.Def env ∧ ∀ k < x.dim, y.val env k < 0 → x.val env k ≠ 0
  | .arith _ x y | .cmp _ x y => x.Def env ∧ y.Def env
  | .chain x _ y _ z => x.Def env ∧ y.Def env ∧ z.Def env

/-- The dimensions that are written are positive. -/
def PyF.Pos : PyF → Prop
  | .int _ | .intCst _ | .ratCst _ _ => True
  | .var _ d _ | .zero d => 0 < d
  | .call1 o x => x.Pos ∧ 0 < o.dim 1
  | .call2 _ x y | .fun2 _ x y | .arith _ x y | .cmp _ x y => x.Pos ∧ y.Pos
  | .call3 _ x y z | .weightedSqDist x y z | .chain x _ y _ z => x.Pos ∧ y.Pos ∧ z.Pos
  | .fun1 _ x | .neg x => x.Pos

/-- The operators `==` and `!=`, and chains of comparisons, are not used. -/
def PyF.Plain : PyF → Prop
  | .int _ | .intCst _ | .ratCst _ _ | .zero _ | .var _ _ _ => True
  | .call1 _ x | .fun1 _ x | .neg x => x.Plain
  | .call2 _ x y | .fun2 _ x y | .arith _ x y => x.Plain ∧ y.Plain
  | .cmp c x y => c ≠ .eq ∧ c ≠ .ne ∧ x.Plain ∧ y.Plain
  | .call3 _ x y z | .weightedSqDist x y z => x.Plain ∧ y.Plain ∧ z.Plain
  | .chain _ _ _ _ _ => False

/-- The variables, with their dimensions and categories. -/
def PyF.vars : PyF → List (Int × Nat × Int)
  | .int _ | .intCst _ | .ratCst _ _ | .zero _ => []
  | .var i d c => [(i, d, c)]
  | .call1 _ x | .fun1 _ x | .neg x => x.vars
  | .call2 _ x y | .fun2 _ x y | .arith _ x y | .cmp _ x y => x.vars ++ y.vars
  | .call3 _ x y z | .weightedSqDist x y z | .chain x _ y _ z => x.vars ++ (y.vars ++ z.vars)

end Verif
