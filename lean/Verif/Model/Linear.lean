import Verif.Model.Diff

/-!
# Linear formulas

Model of `Operation.is_linear`, of `keopscore/formulas/LinearOperators/` and of the operators `Diff`,
`Divergence` and `Laplacian` of `keopscore/formulas/autodiff/`.
-/

namespace Verif

/-- Operations with one argument and `linearity_type = "all"`: `Minus.py:18`, `Sum.py:16`, `SumT.py:15`,
`Elem.py:13`, `ElemT.py:12`, `Extract.py:12`, `ExtractT.py:12`. -/
def Un.linear : Un → Bool
  | .minus | .sum | .sumT _ | .elem _ | .elemT _ _ | .extract _ _ | .extractT _ _ => true
  | _ => false

/-- `e.is_linear(v)`, `Operation.py:16-26`, `Var.py:22-23`, `Zero.py:10-11`; `linearity_type` is `"all"`
for `Add`, `Subtract`, `Concat`, `"one"` for `Mult`, `Scalprod`, `MatVecMult`, `VecMatMult`, `TensorProd`
and `"first"` for `Divide`. -/
def Expr.isLinear (v : VarId) : Expr → Bool
  | .var i d c => decide (v = ⟨i, d, c⟩)
  | .zero _ => true
  | .int _ | .rat _ _ => false
  | .un o f => o.linear && f.isLinear v
  | .bin o f g =>
    match o with
    | .add | .sub | .concat => f.isLinear v && g.isLinear v
    | .mul | .scalprod | .matVecMult | .vecMatMult | .tensorProd => f.isLinear v != g.isLinear v
    | .div => f.isLinear v
    | _ => false
  | .tern _ _ _ _ => false
  | .fact _ _ _ _ _ => false

/-- `AdjointOperator(e, v, u)`: `LinearOperator.py:29-49` followed by `AdjointOperator.py:33-72`; the
first argument bounds the depth of the recursion. -/
def adjoint : Nat → VarId → Expr → Expr → Except Err Expr
  | 0, _, _, _ => .error .fuel
  | n + 1, v, e, u =>
    if !e.isLinear v then .error .keops
    else match e with
    | .bin .add f g => do
      let f' ← broadcast f e.dim
      let a ← adjoint n v f' u
      let g' ← broadcast g e.dim
      let b ← adjoint n v g' u
      mkBin .add a b
    | .bin .sub f g => do
      let f' ← broadcast f e.dim
      let a ← adjoint n v f' u
      let g' ← broadcast g e.dim
      let b ← adjoint n v g' u
      mkBin .sub a b
    | .un .minus f => do
      let f' ← broadcast f e.dim
      let a ← adjoint n v f' u
      mkUn .minus a
    | .bin .scalprod f g => do
      let p ← build n (.mul f g)
      let s ← mkUn .sum p
      adjoint n v s u
    | .bin .mul f g =>
      if f.isLinear v then do
        let f' ← broadcast f e.dim
        let w ← build n (.mul g u)
        adjoint n v f' w
      else do
        let g' ← broadcast g e.dim
        let w ← build n (.mul f u)
        adjoint n v g' w
    | .bin .div f g => do
      let f' ← broadcast f e.dim
      let w ← build n (.div u g)
      adjoint n v f' w
    | .var _ _ _ => .ok u
    | .un (.sumT _) f => do
      let w ← build n (.sum u)
      adjoint n v f w
    | .un .sum f => do
      let w ← sumT u f.dim
      adjoint n v f w
    | .zero _ => .ok (.zero v.dim)
    | .un (.extract s _) f => do
      let w ← mkUn (.extractT s f.dim) u
      adjoint n v f w
    | .un (.extractT s _) f => do
      let w ← mkUn (.extract s f.dim) u
      adjoint n v f w
    | .un (.elem m) f => do
      let w ← mkUn (.elemT f.dim m) u
      adjoint n v f w
    | .un (.elemT _ m) f => do
      let w ← mkUn (.elem m) u
      adjoint n v f w
    | _ => .error .keops

/-- Index of the temporary variable of `Diff`, `Diff.py:24-25`. -/
def diffInd (formula : Expr) (v : VarId) (u : Expr) : Int :=
  match (formula.inds ++ [v.ind] ++ u.inds).max? with
  | some m => 1 + m
  | none => 0

/-- `Diff(formula, v, u)`, `Diff.py:13-32`, for one variable. -/
def diff (n : Nat) (formula : Expr) (v : VarId) (u : Expr) : Except Err Expr := do
  let w : VarId := ⟨diffInd formula v u, formula.dim, -1⟩
  let d ← diffT n v formula w.expr
  adjoint n w d u

/-- A weight: the Python integer 1 (`none`) or a formula. `SumLinOperator.py:29,47-48`,
`TraceOperator.py:30,46`. -/
abbrev Weight := Option Expr

/-- `wldim`, `wrdim`, `wdim`: `SumLinOperator.py:47-48`, `TraceOperator.py:46`. -/
def Weight.dim : Weight → Nat
  | none => 1
  | some w => w.dim

/-- The weight as a formula (`int2Op`, `Operation.py:253-261`). -/
def Weight.op : Weight → Expr
  | none => intCst 1
  | some w => w

/-- `w / f`, `Operation.py:129-141`. -/
def Weight.div (n : Nat) (w : Weight) (f : Expr) : Except Err Expr :=
  match w with
  | none => mkUn .inv f
  | some w => build n (.div w f)

/-- Sum of the `d` components of the weight, `SumLinOperator.py:101`. -/
def Weight.sum (n : Nat) (w : Weight) (d : Nat) : Except Err Expr :=
  match w with
  | none => .ok (intCst d)
  | some w => if w.dim = 1 then build n (.mul w (intCst d)) else build n (.sum w)

/-- `SumLinOperator(e, v, wl, wr)`: `LinearOperator.py:29-49` followed by `SumLinOperator.py:26-113`.  In
the case of `Sum` (line 108), `wr` is passed at the position of `wl`. -/
def sumLin : Nat → VarId → Expr → Weight → Weight → Except Err Expr
  | 0, _, _, _, _ => .error .fuel
  | n + 1, v, e, wl, wr =>
    if !e.isLinear v then .error .keops
    else match e with
    | .bin .add f g => do
      let f' ← broadcast f e.dim
      let a ← sumLin n v f' wl wr
      let g' ← broadcast g e.dim
      let b ← sumLin n v g' wl wr
      mkBin .add a b
    | .bin .sub f g => do
      let f' ← broadcast f e.dim
      let a ← sumLin n v f' wl wr
      let g' ← broadcast g e.dim
      let b ← sumLin n v g' wl wr
      mkBin .sub a b
    | .un .minus f => do
      let f' ← broadcast f e.dim
      let a ← sumLin n v f' wl wr
      mkUn .minus a
    | .bin .scalprod f g => do
      let p ← build n (.mul f g)
      let s ← mkUn .sum p
      sumLin n v s wl wr
    | e =>
      if ¬ (wl.dim = 1 ∨ wl.dim = e.dim) then .error .assertion
      else if ¬ (wr.dim = 1 ∨ wr.dim = v.dim) then .error .assertion
      else match e with
      | .bin .mul f g =>
        if f.isLinear v then do
          let f' ← broadcast f e.dim
          let w ← build n (.mul g wl.op)
          sumLin n v f' (some w) wr
        else do
          let g' ← broadcast g e.dim
          let w ← build n (.mul f wl.op)
          sumLin n v g' (some w) wr
      | .bin .div f g => do
        let f' ← broadcast f e.dim
        let w ← wl.div n g
        sumLin n v f' (some w) wr
      | .var _ _ _ =>
        if wl.dim = 1 ∧ wr.dim = 1 then do
          let a ← build n (.mul (.int v.dim) wl.op)
          build n (.mul a wr.op)
        else do
          let a ← build n (.mul wl.op wr.op)
          build n (.sum a)
      | .un (.sumT _) f => do
        let w ← wl.sum n e.dim
        let s ← sumLin n v f none wr
        build n (.mul w s)
      | .un .sum f => do
        let s ← sumLin n v f wr none
        build n (.mul wl.op s)
      | _ => .error .keops

/-- `TraceOperator(e, v, w)`: `LinearOperator.py:29-49` followed by `TraceOperator.py:27-102`. -/
def trace : Nat → VarId → Expr → Weight → Except Err Expr
  | 0, _, _, _ => .error .fuel
  | n + 1, v, e, w =>
    if !e.isLinear v then .error .keops
    else match e with
    | .bin .add f g => do
      let f' ← broadcast f e.dim
      let a ← trace n v f' w
      let g' ← broadcast g e.dim
      let b ← trace n v g' w
      mkBin .add a b
    | .bin .sub f g => do
      let f' ← broadcast f e.dim
      let a ← trace n v f' w
      let g' ← broadcast g e.dim
      let b ← trace n v g' w
      mkBin .sub a b
    | .un .minus f => do
      let f' ← broadcast f e.dim
      let a ← trace n v f' w
      mkUn .minus a
    | .bin .scalprod f g => do
      let p ← build n (.mul f g)
      let s ← mkUn .sum p
      trace n v s w
    | e =>
      if ¬ (w.dim = 1 ∨ w.dim = v.dim) then .error .keops
      else if ¬ (e.dim = 1 ∨ e.dim = v.dim) then .error .keops
      else match e with
      | .bin .mul f g =>
        if f.isLinear v then
          if g.dim = 1 then do
            let t ← trace n v f w
            build n (.mul t g)
          else do
            let w' ← build n (.mul g w.op)
            trace n v f (some w')
        else do
          let w' ← build n (.mul f w.op)
          trace n v g (some w')
      | .bin .div f g => do
        let w' ← w.div n g
        trace n v f (some w')
      | .var _ _ _ =>
        if w.dim = 1 then build n (.mul (.int v.dim) w.op)
        else build n (.sum w.op)
      | .un (.sumT _) f => trace n v f w
      | .un .sum f => sumLin n v f none w
      | _ => .error .keops

/-- `Divergence(formula, v)`, `Divergence.py:15-35`. -/
def divergence (n : Nat) (formula : Expr) (v : VarId) : Except Err Expr :=
  if formula.dim ≠ v.dim then .error .keops
  else do
    let w : VarId := ⟨gradInd formula, v.dim, -1⟩
    let d ← diffT n v formula w.expr
    trace n w d none

/-- `Laplacian(formula, v)`, `Laplacian.py:16-22`. -/
def laplacian (n : Nat) (formula : Expr) (v : VarId) : Except Err Expr :=
  if formula.dim ≠ 1 then .error .keops
  else do
    let d ← diffT n v formula (intCst 1)
    divergence n d v

end Verif
