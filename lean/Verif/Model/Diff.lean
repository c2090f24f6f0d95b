import Verif.Model.Term
import Verif.Model.Factorize

/-!
# Symbolic gradients

Model of the methods `DiffT` of the formulas and of `Grad` (`formulas/autodiff/Grad.py:14-28`).
-/

namespace Verif

/-- A variable `Var(ind, dim, cat)` (`variables/Var.py:10-48`). -/
structure VarId where
  ind : Int
  dim : Nat
  cat : Int
  deriving DecidableEq, Repr

/-- The variable as a formula. `variables/Var.py:25-39`. -/
abbrev VarId.expr (v : VarId) : Expr := .var v.ind v.dim v.cat

/-- Static method `Derivative` of the operations with one argument: `Exp.py:18-19`, `Square.py:21-22`,
`Pow.py:22-25`, `Inv.py:19-20`, `Sqrt.py:20-21`, `Rsqrt.py:23-24`, `Log.py:13-14`, `Abs.py:14-15`,
`Cos.py:13-16`, `Sin.py:13-16`, `Acos.py:14-15`, `Asin.py:14-15`, `Atan.py:13-14`, `SinXDivX.py:17-18`,
`XLogX.py:14-15`, `ReLU.py:14-15`, `ClampInt.py:26-27`.  For the other classes, which define `DiffT`
themselves, it is the method of the base class, which returns `None` (`VectorizedScalarOp.py:42-43`). -/
def derivUn (n : Nat) (o : Un) (f : Expr) : Except Err Expr :=
  match o with
  | .exp => mkUn .exp f
  | .square => build n (.mul (intCst 2) f)
  | .pow m => do
    let p ← pow f (m - 1)
    build n (.mul (intCst m) p)
  | .inv => do
    let s ← opPow f 2
    build n (.div (intCst (-1)) s)
  | .sqrt => do
    let c ← ratCst 1 2
    let r ← mkUn .rsqrt f
    build n (.mul c r)
  | .rsqrt => do
    let c ← ratCst 1 (-2)
    let r ← mkUn .rsqrt f
    let p ← opPow r 3
    build n (.mul c p)
  | .log => mkUn .inv f
  | .abs => mkUn .sign f
  | .cos => do
    let s ← mkUn .sin f
    build n (.minus s)
  | .sin => mkUn .cos f
  | .acos => do
    let s ← opPow f 2
    let t ← build n (.sub (intCst 1) s)
    let r ← mkUn .rsqrt t
    build n (.minus r)
  | .asin => do
    let s ← opPow f 2
    let t ← build n (.sub (intCst 1) s)
    mkUn .rsqrt t
  | .atan => do
    let s ← opPow f 2
    let t ← build n (.add (intCst 1) s)
    mkUn .inv t
  | .sinXDivX => do
    let c ← mkUn .cos f
    let t1 ← build n (.div c f)
    let s ← mkUn .sin f
    let q ← opPow f 2
    let t2 ← build n (.div s q)
    build n (.sub t1 t2)
  | .xLogX => do
    let l ← mkUn .log f
    build n (.add l (intCst 1))
  | .relu => mkUn .step f
  | .clampInt a b => mkUn (.diffClampInt a b) f
  | _ => .error .attribute

/-- `Powf.Derivative`, `Powf.py:13-16`. -/
def derivPowf (n : Nat) (a b : Expr) : Except Err (Expr × Expr) := do
  let b1 ← build n (.sub b (intCst 1))
  let p1 ← mkBin .powf a b1
  let d1 ← build n (.mul b p1)
  let l ← mkUn .log a
  let p ← mkBin .powf a b
  let d2 ← build n (.mul l p)
  return (d1, d2)

/-- `Atan2.Derivative`, `Atan2.py:16-18`. -/
def derivAtan2 (n : Nat) (f g : Expr) : Except Err (Expr × Expr) := do
  let f2 ← opPow f 2
  let g2 ← opPow g 2
  let r2 ← build n (.add f2 g2)
  let d1 ← build n (.div g r2)
  let mf ← build n (.minus f)
  let d2 ← build n (.div mf r2)
  return (d1, d2)

/-- One term of the sum of `VectorizedScalarOp.DiffT`, `VectorizedScalarOp.py:37-40`; `D` is
`f.DiffT(v, ·)`. -/
def chainTerm (n : Nat) (D : Expr → Except Err Expr) (gradin df : Expr) : Except Err Expr :=
  if df.dim = 1 then do
    let t ← D gradin
    build n (.mul t df)
  else do
    let s ← build n (.mul gradin df)
    D s

/-- `VectorizedScalarOp.DiffT` for one child, `VectorizedScalarOp.py:33-40` (Python's `sum` starts with
the integer 0). -/
def chainUn (n : Nat) (D : Expr → Except Err Expr) (gradin df : Expr) : Except Err Expr := do
  let t ← chainTerm n D gradin df
  build n (.add (intCst 0) t)

/-- `VectorizedScalarOp.DiffT` for two children, `VectorizedScalarOp.py:33-40`. -/
def chainBin (n : Nat) (Df Dg : Expr → Except Err Expr) (gradin : Expr) (df dg : Expr) :
    Except Err Expr := do
  let t ← chainTerm n Df gradin df
  let s ← build n (.add (intCst 0) t)
  let t' ← chainTerm n Dg gradin dg
  build n (.add s t')

/-- The formula whose gradient is used for `Clamp`, `Clamp.py:17-18`. -/
def clampAlt (n : Nat) (f g h : Expr) : Except Err Expr := do
  let a ← build n (.sub f g)
  let b ← build n (.sub h g)
  let c ← build n (.div a b)
  let d ← mkUn (.clampInt 0 1) c
  let b' ← build n (.sub h g)
  let e ← build n (.mul d b')
  build n (.add e g)

/-- The formula whose gradient is used for `Mod`, `Mod.py:18-19`. -/
def modAlt (n : Nat) (x m d : Expr) : Except Err Expr := do
  let a ← build n (.sub x d)
  let b ← build n (.div a m)
  let c ← mkUn .floor b
  let e ← build n (.mul m c)
  build n (.sub x e)

/-- `f.DiffT(v, gradin)`. `D f g` stands for the recursive calls. The lines are those of the methods
`DiffT` cited in each case; vectorized operations: `VectorizedScalarOp.py:33-40`. -/
def diffUn (n : Nat) (D : Expr → Expr → Except Err Expr) (v : VarId) (o : Un) (f gradin : Expr) :
    Except Err Expr :=
  match o with
  -- `Minus.py:25-27`
  | .minus => do
    let t ← D f gradin
    build n (.minus t)
  -- `Sign.py:18-19`, `Step.py:13-14`, `DiffClampInt.py:26-29`, `Round.py:22-23`, `Floor.py:13-14`,
  -- `OneHot.py:39-42`, `ArgMax.py:49-50`, `ArgMin.py:48-49`
  | .sign | .step | .diffClampInt _ _ | .round _ | .floor | .oneHot _ | .argMax | .argMin =>
    .ok (.zero v.dim)
  -- `Sum.py:26-30`
  | .sum => do
    let s ← sumT gradin f.dim
    D f s
  -- `SumT.py:28-32`
  | .sumT _ => do
    let s ← build n (.sum gradin)
    D f s
  -- `Elem.py:29-33`
  | .elem m => do
    let s ← mkUn (.elemT f.dim m) gradin
    D f s
  -- `ElemT.py:35-39`
  | .elemT _ m => do
    let s ← mkUn (.elem m) gradin
    D f s
  -- `Extract.py:31-35`
  | .extract s _ => do
    let t ← mkUn (.extractT s f.dim) gradin
    D f t
  -- `ExtractT.py:40-44`
  | .extractT s _ => do
    let t ← mkUn (.extract s f.dim) gradin
    D f t
  -- `Max.py:40-42`
  | .max => do
    let a ← mkUn .argMax f
    let h ← mkUn (.oneHot f.dim) a
    let t ← build n (.mul h gradin)
    D f t
  -- `Min.py:40-42`
  | .min => do
    let a ← mkUn .argMin f
    let h ← mkUn (.oneHot f.dim) a
    let t ← build n (.mul h gradin)
    D f t
  | o => do
    let df ← derivUn n o f
    chainUn n (D f) gradin df

/-- Gradient passed to the child `f` of a sum `f + g`, `Add.py:29-34`, `Subtract.py:27-32`. -/
def addGrad (n : Nat) (f g gradin : Expr) : Except Err Expr :=
  if f.dim = 1 ∧ g.dim > 1 then build n (.sum gradin) else .ok gradin

/-- Gradient passed to the child `f` of a product of `f` and `g`, `Mult.py:33-37`. -/
def mulGrad (n : Nat) (f g gradin : Expr) : Except Err Expr :=
  if f.dim = 1 ∧ g.dim > 1 then build n (.scalprod gradin g) else build n (.mul g gradin)

/-- Same for two children. Lines cited in each case; vectorized operations:
`VectorizedScalarOp.py:33-40`. -/
def diffBin (n : Nat) (D : Expr → Expr → Except Err Expr) (v : VarId) (o : Bin) (f g gradin : Expr) :
    Except Err Expr :=
  match o with
  -- `Add.py:28-35`
  | .add => do
    let s ← addGrad n f g gradin
    let a ← D f s
    let s' ← addGrad n g f gradin
    let b ← D g s'
    build n (.add a b)
  -- `Subtract.py:26-33`
  | .sub => do
    let s ← addGrad n f g gradin
    let a ← D f s
    let s' ← addGrad n g f gradin
    let b ← D g s'
    build n (.sub a b)
  -- `Mult.py:28-38`
  | .mul =>
    match g.asUn .exp, decide (g.dim = 1) with
    | some u, true => do
      let a ← D f gradin
      let s ← build n (.scalprod gradin f)
      let b ← D u s
      let t ← build n (.add a b)
      build n (.mul t g)
    | _, _ => do
      let s ← mulGrad n f g gradin
      let a ← D f s
      let s' ← mulGrad n g f gradin
      let b ← D g s'
      build n (.add a b)
  -- `Divide.py:28-37`
  | .div =>
    if f.dim = 1 ∧ g.dim > 1 then do
      let q ← build n (.div gradin g)
      let s ← build n (.sum q)
      let a ← D f s
      let p ← build n (.mul f gradin)
      let g2 ← square g
      let s' ← build n (.div p g2)
      let b ← D g s'
      build n (.sub a b)
    else if g.dim = 1 ∧ f.dim > 1 then do
      let s ← build n (.mul g gradin)
      let a ← D f s
      let s' ← build n (.scalprod gradin f)
      let b ← D g s'
      let t ← build n (.sub a b)
      let g2 ← square g
      build n (.div t g2)
    else do
      let s ← build n (.div gradin g)
      let a ← D f s
      let p ← build n (.mul f gradin)
      let g2 ← square g
      let s' ← build n (.div p g2)
      let b ← D g s'
      build n (.sub a b)
  | .powf => do
    let d ← derivPowf n f g
    chainBin n (D f) (D g) gradin d.1 d.2
  | .atan2 => do
    let d ← derivAtan2 n f g
    chainBin n (D f) (D g) gradin d.1 d.2
  -- `LessThan.py:16-17`, `LessOrEqual.py:16-17`, `Equal.py:16-17`, `NotEqual.py:16-17`
  | .lessThan | .lessOrEqual | .equal | .notEqual => .ok (.zero v.dim)
  -- `Scalprod.py:38-40`
  | .scalprod => do
    let a ← D f g
    let b ← D g f
    let s ← build n (.add a b)
    build n (.mul gradin s)
  -- `Concat.py:28-33`
  | .concat => do
    let s ← mkUn (.extract 0 f.dim) gradin
    let a ← D f s
    let s' ← mkUn (.extract f.dim g.dim) gradin
    let b ← D g s'
    build n (.add a b)
  -- `MatVecMult.py:44-48`
  | .matVecMult => do
    let s ← mkBin .tensorProd gradin g
    let a ← D f s
    let s' ← mkBin .vecMatMult gradin f
    let b ← D g s'
    build n (.add a b)
  -- `VecMatMult.py:45-50` (the vector is the first child)
  | .vecMatMult => do
    let s ← mkBin .tensorProd f gradin
    let a ← D g s
    let s' ← mkBin .matVecMult g gradin
    let b ← D f s'
    build n (.add a b)
  -- `TensorProd.py:39-43`
  | .tensorProd => do
    let s ← mkBin .matVecMult gradin g
    let a ← D f s
    let s' ← mkBin .vecMatMult f gradin
    let b ← D g s'
    build n (.add a b)

/-- `e.DiffT(v, gradin)`, with recursion depth at most the first argument. Lines cited in each case;
`variables/Var.py:59-62` for variables. -/
def diffT : Nat → VarId → Expr → Expr → Except Err Expr
  | 0, _, _, _ => .error .fuel
  | n + 1, v, e, gradin =>
    match e with
    -- `Var.py:59-62`
    | .var i d c => .ok (if v = ⟨i, d, c⟩ then gradin else .zero v.dim)
    -- `Zero.py:28-29`, `IntCst.py:24-25`, `RatCst.py:25-26`
    | .zero _ | .int _ | .rat _ _ => .ok (.zero v.dim)
    | .un o f => diffUn n (diffT n v) v o f gradin
    | .bin o f g => diffBin n (diffT n v) v o f g gradin
    -- `IfElse.py:14-16`
    | .tern .ifElse f a b => do
      let a' ← diffT n v a gradin
      let b' ← diffT n v b gradin
      mkTern .ifElse f a' b'
    -- `Clamp.py:13-19`
    | .tern .clamp f g h => do
      let e' ← clampAlt n f g h
      diffT n v e' gradin
    -- `Mod.py:14-20`
    | .tern .mod x m d => do
      let e' ← modAlt n x m d
      diffT n v e' gradin
    -- `Factorize.py:77-81`
    | .fact i d c f g => do
      let t ← diffT n v (f.replace (.var i d c) g) gradin
      return factorize t g

/-- `Grad(formula, v, gradin)`, `autodiff/Grad.py:14-28`, with an explicit `gradin`. -/
def grad (n : Nat) (formula : Expr) (v : VarId) (gradin : Expr) : Except Err Expr :=
  diffT n v formula gradin

/-- The new index for the default `gradin`, `autodiff/Grad.py:22-23`. -/
def gradInd (formula : Expr) : Int :=
  match formula.inds.max? with
  | some m => 1 + m
  | none => 0

/-- `Grad(formula, v)`, `autodiff/Grad.py:14-28`, without `gradin`. -/
def gradNew (n : Nat) (formula : Expr) (v : VarId) : Except Err Expr :=
  if v.cat = 2 then .error .keops
  else grad n formula v (.var (gradInd formula) formula.dim (1 - v.cat))

end Verif
