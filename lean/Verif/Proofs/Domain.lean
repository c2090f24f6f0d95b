import Verif.Proofs.Formula

/-!
# Domains

A family of side conditions, one for each operation, under which a formula is considered.  Sums,
differences, products, opposites, squares, exponentials, sums of components and scalar products, which
the simplification rules create, carry no condition.
-/

namespace Verif

open Spec

/-- Side conditions of the variables, of the temporary variables of factorizations and of the
operations. -/
structure Domain where
  var : Int → Nat → Int → Prop
  fact : Int → Nat → Int → Prop
  un : Un → (d : Nat) → Vec → Prop
  bin : Bin → (d d' : Nat) → Vec → Vec → Prop
  tern : Tern → (d d' d'' : Nat) → Vec → Vec → Vec → Prop

/-- Condition of an operation with one argument. -/
def Domain.un' (Δ : Domain) (o : Un) (d : Nat) (x : Vec) : Prop :=
  match o with
  | .exp | .square | .minus | .sum | .sumT _ => True
  | o => Δ.un o d x

/-- Condition of an operation with two arguments. -/
def Domain.bin' (Δ : Domain) (o : Bin) (d d' : Nat) (x y : Vec) : Prop :=
  match o with
  | .add | .sub | .mul | .scalprod => True
  | o => Δ.bin o d d' x y

/-- All the conditions hold. -/
def Expr.Dom (Δ : Domain) (env : Env) : Expr → Prop
  | .var i d c => Δ.var i d c
  | .un o f => f.Dom Δ env ∧ Δ.un' o f.dim (f.val env)
  | .bin o f g => f.Dom Δ env ∧ g.Dom Δ env ∧ Δ.bin' o f.dim g.dim (f.val env) (g.val env)
  | .tern o f g h => f.Dom Δ env ∧ g.Dom Δ env ∧ h.Dom Δ env ∧
      Δ.tern o f.dim g.dim h.dim (f.val env) (g.val env) (h.val env)
  | .fact i d c f g => Δ.fact i d c ∧ g.Dom Δ env ∧ f.Dom Δ (Function.update env i (g.val env))
  | _ => True

/-- No condition. -/
def Domain.triv : Domain where
  var _ _ _ := True
  fact _ _ _ := True
  un _ _ _ := True
  bin _ _ _ _ _ := True
  tern _ _ _ _ _ _ _ := True

/-- The operations are defined. -/
def Domain.defined : Domain where
  var _ _ _ := True
  fact _ _ _ := True
  un := unDef
  bin := binDef
  tern o d d' d'' := ternDef o (max (max d d') d'')

theorem Expr.dom_triv (e : Expr) (env : Env) : e.Dom .triv env := by
  induction e generalizing env with
  | var | zero | int | rat => trivial
  | un o f ih => exact ⟨ih env, by cases o <;> trivial⟩
  | bin o f g i1 i2 => exact ⟨i1 env, i2 env, by cases o <;> trivial⟩
  | tern o f g h i1 i2 i3 => exact ⟨i1 env, i2 env, i3 env, trivial⟩
  | fact i d c f g i1 i2 => exact ⟨trivial, i2 env, i1 _⟩

theorem Domain.un'_defined (o : Un) (d : Nat) (x : Vec) : Domain.defined.un' o d x ↔ unDef o d x := by
  cases o <;> exact Iff.rfl

theorem Domain.bin'_defined (o : Bin) (d d' : Nat) (x y : Vec) :
    Domain.defined.bin' o d d' x y ↔ binDef o d d' x y := by
  cases o <;> exact Iff.rfl

theorem Expr.dom_defined (e : Expr) (env : Env) : e.Dom .defined env ↔ e.Def env := by
  induction e generalizing env with
  | var | zero | int | rat => exact Iff.rfl
  | un o f ih => exact and_congr (ih env) (Domain.un'_defined ..)
  | bin o f g i1 i2 => exact and_congr (i1 env) (and_congr (i2 env) (Domain.bin'_defined ..))
  | tern o f g h i1 i2 i3 => exact and_congr (i1 env) (and_congr (i2 env) (and_congr (i3 env) Iff.rfl))
  | fact i d c f g i1 i2 =>
    exact ⟨fun h => ⟨(i2 env).mp h.2.1, (i1 _).mp h.2.2⟩,
      fun h => ⟨trivial, (i2 env).mpr h.1, (i1 _).mpr h.2⟩⟩

end Verif
