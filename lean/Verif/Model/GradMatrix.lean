import Verif.Model.Diff

/-!
# Matrices of gradients

Model of `keopscore/formulas/maths/GradMatrix.py`.
-/

namespace Verif

/-- `StandardBasis(dim)`, `GradMatrix.py:13-14`. -/
def standardBasis (dim : Nat) : Except Err (List Expr) :=
  (List.range dim).mapM fun (i : Nat) => mkUn (.elemT dim i) (intCst 1)

/-- Index of the temporary variable, `GradMatrix.py:24-26`; `Vars(cat=3)` is `Operation.py:40-50`. Only the
variables of category 3 are taken into account. -/
def gradMatrixInd (f : Expr) : Int :=
  match ((f.vars.filter fun t => decide (t.2.2 = 3)).map fun t => t.1).max? with
  | none => 1
  | some m => 1 + m

/-- `GradMatrix(f, v)`, `GradMatrix.py:22-34`. `packGrads[0]` raises Python's
`IndexError` if `f.dim` is 0; it is written `type` here. -/
def gradMatrix (n : Nat) (f : Expr) (v : VarId) : Except Err Expr := do
  let gradin := Expr.var (gradMatrixInd f) f.dim 3
  let basis ← standardBasis f.dim
  let packGrads ← basis.mapM fun e => do
    let d ← diffT n v f gradin
    return d.replace gradin e
  match packGrads with
  | [] => .error .type
  | g :: gs => gs.foldlM (fun res elem => mkBin .concat res elem) g

end Verif
