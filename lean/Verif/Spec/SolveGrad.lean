import Verif.Spec.RedDiff
import Mathlib.Data.Matrix.Mul

/-!
# Arguments of kernel solvers
-/

namespace Verif.Spec

/-- The rows of a vector with `M` rows and `d` columns. -/
def rows {M d : Nat} (a : Fin M × Fin d → ℝ) (r : Nat) (k : Fin d) : ℝ := if h : r < M then a (⟨r, h⟩, k) else 0

/-- The values of the variables at a pair when the variable `w` receives the array `a`. -/
noncomputable def withInv {M : Nat} (base : Nat × Nat → Env) (w : VarId) (a : Fin M × Fin w.dim → ℝ) (p : Nat × Nat) :
    Env := setVar (base p) w (rows a (rowAt w.cat p))

/-- The variable of index `η`, of the category of the output, has the rows of `g`. -/
def Holds {M d : Nat} (base : Nat × Nat → Env) (η : Int) (tagI m n : Nat) (g : Fin M × Fin d → ℝ) : Prop :=
  ∀ i < m, ∀ j < n, ∀ k : Fin d, base (i, j) η k = rows g (rowAt tagI (i, j)) k

end Verif.Spec
