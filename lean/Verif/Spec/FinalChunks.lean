import Verif.Model.FinalChunks

/-!
# Scalar times vector
-/

namespace Verif

/-- The formula is the product of a number and of a variable `b`, which is indexed by the axis of the reduction
(category `1 - tagI`); and `b` is a variable of the number, or comes after its variables with the same index. -/
def Expr.FinalSafe (tagI : Nat) (e : Expr) : Prop :=
  ∃ F p d, (e = .bin .mul F (.var p d (1 - tagI)) ∨ e = .bin .mul (.var p d (1 - tagI)) F) ∧ F.dim = 1 ∧
    ((p, d, 1 - (tagI : Int)) ∈ F.vars ∨ ∀ v ∈ F.vars, v.2.2 = 1 - (tagI : Int) → v.1 < p)

/-- The formula is the product of a number and of a variable `b`, which is indexed by the axis of the reduction. -/
def Expr.FinalForm (tagI : Nat) (e : Expr) : Prop :=
  ∃ F p d, (e = .bin .mul F (.var p d (1 - tagI)) ∨ e = .bin .mul (.var p d (1 - tagI)) F) ∧ F.dim = 1

end Verif
