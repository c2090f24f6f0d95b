import Verif.Model.FormulaCode
import Verif.Model.Diff

/-!
# Complex operations

Model of `keopscore/formulas/complex` and of `VectorizedComplexScalarOp`: constructors, generated code and
gradients.

A vector of `n` complex numbers is an array of dimension `2n`: real and imaginary parts alternate.

Simplifications.  The operations on real numbers are limited to those that the complex operations use
themselves (`ComplexAbs`, `ComplexAngle`, `ComplexDivide`, and the formulas used for gradients) and to the arithmetic
of `C68`, and are built without the simplification rules of `Add`, `Mult`, … (which keep the values, see `C01`).  The formulas of the
derivatives of `Cos`, `Inv`, `Sqrt` and `Atan2` are single operations here.
-/

namespace Verif.Cplx

/-- Operations with one child. -/
inductive Un
  /-- `complex/Conj.py:8-18` -/
  | conj
  /-- `ComplexReal`, `complex/ComplexReal.py:11-30` -/
  | real
  /-- `ComplexImag`, `complex/ComplexImag.py:11-30` -/
  | imag
  /-- `Real2Complex`, `complex/Real2Complex.py:9-29` -/
  | ofReal
  /-- `Imag2Complex`, `complex/Imag2Complex.py:9-29` -/
  | ofImag
  /-- `ComplexSquareAbs`, `complex/ComplexSquareAbs.py:13-33` -/
  | sqAbs
  /-- `ComplexSum`, `complex/ComplexSum.py:10-36` -/
  | sum
  /-- `ComplexSumT`, `complex/ComplexSumT.py:10-33` -/
  | sumT (dim : Nat)
  /-- `ComplexExp`, `complex/ComplexExp.py:23-40` -/
  | exp
  /-- `ComplexExp1j`, `complex/ComplexExp1j.py:15-34` -/
  | exp1j
  /-- `Exp`, `maths/Exp.py:10-19` -/
  | rexp
  /-- `Cos`, `maths/Cos.py:5-16` -/
  | rcos
  /-- `Sin`, `maths/Sin.py:5-16` -/
  | rsin
  /-- `Inv`, `maths/Inv.py:10-20` -/
  | rinv
  /-- `Sqrt`, `maths/Sqrt.py:12-21` -/
  | rsqrt
  /-- `Minus_Impl`, `maths/Minus.py:13-27` -/
  | rneg
  /-- `Square_Impl`, `maths/Square.py:11-22` -/
  | rsquare
  /-- `-Sin(f)`, `maths/Cos.py:16` -/
  | dcos
  /-- `-1 / f**2`, `maths/Inv.py:20` -/
  | dinv
  /-- `IntInv(2) * Rsqrt(f)`, `maths/Sqrt.py:21` -/
  | dsqrt
  deriving DecidableEq, Repr

/-- Operations with two children. -/
inductive Bin
  /-- `ComplexAdd`, `complex/ComplexAdd.py:8-25` -/
  | add
  /-- `ComplexSubtract`, `complex/ComplexSubtract.py:8-25` -/
  | sub
  /-- `ComplexMult`, `complex/ComplexMult.py:10-36` -/
  | mul
  /-- `ComplexRealScal_Impl`, `complex/ComplexRealScal.py:12-35` -/
  | realScal
  /-- `Add_Impl`, `maths/Add.py:16-35` -/
  | radd
  /-- `Mult_Impl`, `maths/Mult.py:18-38` -/
  | rmul
  /-- `Atan2`, `maths/Atan2.py:10-18` -/
  | ratan2
  /-- `Subtract_Impl`, `maths/Subtract.py:14-33` -/
  | rsub
  /-- `Divide_Impl`, `maths/Divide.py:16-38` -/
  | rdiv
  /-- `g / r2` with `r2 = f**2 + g**2`, `maths/Atan2.py:17-18` -/
  | datan2f
  /-- `-f / r2`, `maths/Atan2.py:17-18` -/
  | datan2g
  deriving DecidableEq, Repr

/-- Formulas. `variables/Var.py:25-51`, `variables/Zero.py:5-19`. -/
inductive Form
  | var (ind : Int) (dim : Nat) (cat : Int)
  | zero (dim : Nat)
  | un (o : Un) (f : Form)
  | bin (o : Bin) (f g : Form)
  deriving DecidableEq, Repr

/-- Subclass of `VectorizedScalarOp`; see the definition of each operation: `maths/Exp.py:10`, `maths/Cos.py:5`,
`maths/Sin.py:5`, `maths/Inv.py:10`, `maths/Sqrt.py:12`, `maths/Minus.py:13`, `maths/Square.py:11`. -/
def Un.isReal : Un → Bool
  | .rexp | .rcos | .rsin | .rinv | .rsqrt | .rneg | .rsquare | .dcos | .dinv | .dsqrt => true
  | _ => false

/-- Dimension announced for a child of dimension `d`: `VectorizedComplexScalarOp.py:17-21`,
`complex/ComplexReal.py:20`, `complex/ComplexImag.py:20`, `complex/Real2Complex.py:16`,
`complex/Imag2Complex.py:16`, `complex/ComplexSquareAbs.py:22`, `complex/ComplexSum.py:19`,
`complex/ComplexSumT.py:20`, `complex/ComplexExp1j.py:22`; otherwise `VectorizedScalarOp.py:17-21`. -/
def Un.dim : Un → Nat → Nat
  | .real, d | .imag, d | .sqAbs, d => d / 2
  | .ofReal, d | .ofImag, d | .exp1j, d => 2 * d
  | .sum, _ => 2
  | .sumT n, _ => n
  | _, d => d

/-- The checks of the constructors: `VectorizedComplexScalarOp.py:11-15`, `complex/ComplexReal.py:18-19`,
`complex/ComplexImag.py:18-19`, `complex/ComplexSquareAbs.py:20-21`, `complex/ComplexSum.py:17-18`,
`complex/ComplexSumT.py:18-19`; no check in `complex/Real2Complex.py:12-17`, `complex/Imag2Complex.py:12-17`,
`complex/ComplexExp1j.py:18-23` nor for one child in `VectorizedScalarOp.py:11-15`. -/
def Un.accept : Un → Nat → Bool
  | .conj, d | .exp, d | .real, d | .imag, d | .sqAbs, d | .sum, d => d % 2 == 0
  | .sumT _, d => d == 2
  | _, _ => true

/-- Dimension announced for two children: `VectorizedComplexScalarOp.py:17-21`,
`complex/ComplexRealScal.py:23`, `VectorizedScalarOp.py:17-21`. -/
def Bin.dim : Bin → Nat → Nat → Nat
  | .realScal, _, d' => d'
  | _, d, d' => max d d'

/-- The checks of the constructors: `VectorizedComplexScalarOp.py:11-15`, `complex/ComplexRealScal.py:19-22`,
`VectorizedScalarOp.py:11-15`. -/
def Bin.accept : Bin → Nat → Nat → Bool
  | .add, d, d' | .sub, d, d' | .mul, d, d' => max d d' % 2 == 0 && (d == d' || min d d' == 2)
  | .realScal, d, d' => d == 1 && d' % 2 == 0
  | _, d, d' => d == d' || min d d' == 1

/-- `f.dim`. `variables/Var.py:36`, `variables/Zero.py:19`; `Un.dim`, `Bin.dim`. -/
def Form.dim : Form → Nat
  | .var _ d _ => d
  | .zero d => d
  | .un o f => o.dim f.dim
  | .bin o f g => o.dim f.dim g.dim

/-- The variables of the formula, with their dimensions and categories. `formulas/Operation.py:32-50`,
`variables/Var.py:25-51`, `variables/Zero.py:5-19`. -/
def Form.vars : Form → List (Int × Nat × Int)
  | .var i d c => [(i, d, c)]
  | .zero _ => []
  | .un _ f => f.vars
  | .bin _ f g => f.vars ++ g.vars

/-- Call of a constructor with one child: `KeOps_Error` if the check fails, `utils/misc_utils.py:28-35`. -/
def mkUn (o : Un) (f : Form) : Except Err Form :=
  if o.accept f.dim then .ok (.un o f) else .error .keops

/-- Call of a constructor with two children: `KeOps_Error` if the check fails, `utils/misc_utils.py:28-35`. -/
def mkBin (o : Bin) (f g : Form) : Except Err Form :=
  if o.accept f.dim g.dim then .ok (.bin o f g) else .error .keops

/-- `ComplexRealScal(f, g)`, `complex/ComplexRealScal.py:38-39`. -/
def realScal (f g : Form) : Except Err Form :=
  if f.dim = 1 then mkBin .realScal f g else mkBin .realScal g f

/-- `ComplexAbs(f)`, `complex/ComplexAbs.py:10-11`. -/
def abs (f : Form) : Except Err Form := do
  mkUn .rsqrt (← mkUn .sqAbs f)

/-- `ComplexAngle(f)`, `complex/ComplexAngle.py:10-11`. -/
def angle (f : Form) : Except Err Form := do
  mkBin .ratan2 (← mkUn .imag f) (← mkUn .real f)

/-- `ComplexDivide(f, g)`, `complex/ComplexDivide.py:12-13`. -/
def divide (f g : Form) : Except Err Form := do
  let a ← mkUn .ofReal (← mkUn .rinv (← mkUn .sqAbs g))
  let b ← mkBin .mul f (← mkUn .conj g)
  mkBin .mul a b

/-! ## Generated code -/

/-- `for(i=0; i<n; i+=2) body`, `utils/code_gen_utils.py:228-258`. -/
def loop2 {σ : Type} (n : Nat) (body : Nat → σ → Except CErr σ) (s : σ) : Except CErr σ :=
  loop ((n + 1) / 2) (fun k => body (2 * k)) s

/-- Entries `p` and `p + 1` of an array: the array `(arg+k*incr)` of dimension 2 of
`utils/code_gen_utils.py:452-453`. -/
def getPair (a : CArr) (p : Nat) : Except CErr (ℝ × ℝ) := do
  return (← CArr.get a p, ← CArr.get a (p + 1 : Nat))

/-- `ComplexVectApply(fun, out, *args)`, `utils/code_gen_utils.py:434-456`; `f` gives the two numbers written
in `out` by `fun`, which reads `args` only. -/
def complexVectApply (f : List (ℝ × ℝ) → ℝ × ℝ) (out : CArr) (args : List CArr) : Except CErr CArr :=
  let dims := out.length :: args.map List.length
  let dimloop := dims.foldl max 0
  if dims.all (fun d => decide (d = dimloop) || decide (d = 2)) then
    let incr (d : Nat) : Nat := if d = dimloop then 1 else 0
    let incrOut := incr out.length
    loop2 dimloop (fun k out => do
      let xs ← args.mapM (fun a => getPair a (k * incr a.length))
      let out ← CArr.put out (k * incrOut : Nat) (f xs).1
      CArr.put out (k * incrOut + 1 : Nat) (f xs).2) out
  else .error .keops

section
variable (M : CMath)

/-- `ScalarOp` of the real operations with one argument: `VectorizedScalarOp.py:28-31`, with the functions of
`utils/math_functions.py:71-167`; `maths/Minus.py:20-23`, `maths/Square.py:17-18`. -/
noncomputable def Un.scalar : Un → ℝ → ℝ
  | .rexp, x => M.exp x
  | .rcos, x => M.cos x
  | .rsin, x => M.sin x
  | .rinv, x => M.div 1 x
  | .rsqrt, x => M.sqrt x
  | .rneg, x => -x
  | .rsquare, x => x * x
  | .dcos, x => -M.sin x
  | .dinv, x => M.div (-1) (x * x)
  | .dsqrt, x => M.div 1 2 * (if x = 0 then 0 else M.div 1 (M.sqrt x))
  | _, x => x

/-- Same for two arguments: `VectorizedScalarOp.py:28-31`, `maths/Add.py:23-26`,
`maths/Subtract.py:21-24`, `maths/Divide.py:23-25`, `utils/math_functions.py:69-130`. -/
noncomputable def Bin.scalar : Bin → ℝ → ℝ → ℝ
  | .radd, x, y => x + y
  | .rmul, x, y => x * y
  | .ratan2, x, y => M.atan2 x y
  | .rsub, x, y => x - y
  | .rdiv, x, y => M.div x y
  | .datan2f, x, y => M.div y (x * x + y * y)
  | .datan2g, x, y => M.div (-x) (x * x + y * y)
  | _, x, _ => x

/-- `Op` of an operation with one child of dimension `d`: `VectorizedComplexScalarOp.py:23-26`,
`complex/Conj.py:11-14`, `complex/ComplexReal.py:23-26`, `complex/ComplexImag.py:23-26`,
`complex/Real2Complex.py:19-23`, `complex/Imag2Complex.py:19-23`, `complex/ComplexSquareAbs.py:25-28`,
`complex/ComplexSum.py:22-30`, `complex/ComplexSumT.py:23-27`, `complex/ComplexExp.py:26-31`,
`complex/ComplexExp1j.py:25-28` with `utils/math_functions.py:174-178`; otherwise `VectorizedScalarOp.py:23-26`. -/
noncomputable def Un.op (o : Un) (d : Nat) (out arg : CArr) : Except CErr CArr :=
  match o with
  | .conj => complexVectApply (fun xs => (xs[0]!.1, -xs[0]!.2)) out [arg]
  | .exp => complexVectApply (fun xs =>
      let r := M.exp xs[0]!.1
      (r * M.cos xs[0]!.2, r * M.sin xs[0]!.2)) out [arg]
  | .real => loop2 d (fun i out => do CArr.put out (i / 2 : Nat) (← CArr.get arg i)) out
  | .imag => loop2 d (fun i out => do CArr.put out (i / 2 : Nat) (← CArr.get arg (i + 1 : Nat))) out
  | .ofReal => loop2 (2 * d) (fun i out => do
      let out ← CArr.put out i (← CArr.get arg (i / 2 : Nat))
      CArr.put out (i + 1 : Nat) 0) out
  | .ofImag => loop2 (2 * d) (fun i out => do
      let out ← CArr.put out i 0
      CArr.put out (i + 1 : Nat) (← CArr.get arg (i / 2 : Nat))) out
  | .sqAbs => loop2 d (fun i out => do
      let x ← CArr.get arg i
      let y ← CArr.get arg (i + 1 : Nat)
      CArr.put out (i / 2 : Nat) (x * x + y * y)) out
  | .sum => do
    let out ← CArr.put out 0 0
    let out ← CArr.put out 1 (← CArr.get out 0)
    loop2 d (fun i out => do
      let out ← CArr.put out 0 ((← CArr.get out 0) + (← CArr.get arg i))
      CArr.put out 1 ((← CArr.get out 1) + (← CArr.get arg (i + 1 : Nat)))) out
  | .sumT n => loop2 n (fun i out => do
      let out ← CArr.put out i (← CArr.get arg 0)
      CArr.put out (i + 1 : Nat) (← CArr.get arg 1)) out
  | .exp1j => loop2 (2 * d) (fun i out => do
      let out ← CArr.put out (i + 1 : Nat) (M.sin (← CArr.get arg (i / 2 : Nat)))
      CArr.put out i (M.cos (← CArr.get arg (i / 2 : Nat)))) out
  | o => vectApplyC (fun _ xs => o.scalar M xs[0]!) out [arg]

/-- `Op` of an operation with two children: `VectorizedComplexScalarOp.py:23-26`, `complex/ComplexAdd.py:11-14`,
`complex/ComplexSubtract.py:11-14`, `complex/ComplexMult.py:13-16`, `complex/ComplexRealScal.py:26-30`;
otherwise `VectorizedScalarOp.py:23-26`. -/
noncomputable def Bin.op (o : Bin) (out a b : CArr) : Except CErr CArr :=
  match o with
  | .add => complexVectApply (fun xs => (xs[0]!.1 + xs[1]!.1, xs[0]!.2 + xs[1]!.2)) out [a, b]
  | .sub => complexVectApply (fun xs => (xs[0]!.1 - xs[1]!.1, xs[0]!.2 - xs[1]!.2)) out [a, b]
  | .mul => complexVectApply (fun xs =>
      (xs[0]!.1 * xs[1]!.1 - xs[0]!.2 * xs[1]!.2, xs[0]!.1 * xs[1]!.2 + xs[0]!.2 * xs[1]!.1)) out [a, b]
  | .realScal => loop2 b.length (fun i out => do
      let out ← CArr.put out i ((← CArr.get a 0) * (← CArr.get b i))
      CArr.put out (i + 1 : Nat) ((← CArr.get a 0) * (← CArr.get b (i + 1 : Nat)))) out
  | o => vectApplyC (fun _ xs => o.scalar M xs[0]! xs[1]!) out [a, b]

/-- The index of a variable, `isinstance(child, Var)` in `formulas/Operation.py:86`. -/
def Form.input? : Form → Option Int
  | .var i _ _ => some i
  | _ => none

/-- The code of a formula: content of `out` after it has run.  The arrays of the children are new arrays,
whose content `junk` is not initialised, except for variables; `Operation.py:66-116`, `Var.py:53-54`,
`Zero.py:25-26`.  Simplification: the inputs `env` are read by index, with the table left out (see
`Verif.Expr.code`). -/
noncomputable def Form.code (junk : Form → Nat → ℝ) (env : Int → CArr) : Form → CArr → Except CErr CArr
  | .var i _ _, out => vectCopyAt out 0 out.length (env i) 0
  | .zero _, out => out.fill 0
  | .un o f, out => do
    let a ← f.input?.elim (f.code junk env ((List.range f.dim).map (junk f))) fun i => .ok (env i)
    o.op M f.dim out a
  | .bin o f g, out => do
    let a ← f.input?.elim (f.code junk env ((List.range f.dim).map (junk f))) fun i => .ok (env i)
    let b ← g.input?.elim (g.code junk env ((List.range g.dim).map (junk g))) fun i => .ok (env i)
    o.op M out a b

end

/-! ## Gradients

The method `DiffT(v, gradin)` of each class, with the calls of the methods of the children as arguments
`Df`, `Dg`. -/

/-- A call `f.DiffT(v, ·)`; the argument is `gradin`. `variables/Var.py:59`, `VectorizedScalarOp.py:33`. -/
abbrev Diff := Form → Except Err Form

/-- `complex/Conj.py:16-18`. -/
def dConj (Df : Diff) : Diff := fun gradin => do Df (← mkUn .conj gradin)

/-- `complex/ComplexReal.py:28-30`. -/
def dReal (Df : Diff) : Diff := fun gradin => do Df (← mkUn .ofReal gradin)

/-- `complex/ComplexImag.py:28-30`. -/
def dImag (Df : Diff) : Diff := fun gradin => do Df (← mkUn .ofImag gradin)

/-- `complex/Real2Complex.py:25-29`. -/
def dOfReal (Df : Diff) : Diff := fun gradin => do Df (← mkUn .real gradin)

/-- `complex/Imag2Complex.py:25-29`. -/
def dOfImag (Df : Diff) : Diff := fun gradin => do Df (← mkUn .imag gradin)

/-- `complex/ComplexSum.py:32-36`. -/
def dSum (d : Nat) (Df : Diff) : Diff := fun gradin => do Df (← mkUn (.sumT d) gradin)

/-- `complex/ComplexSumT.py:29-33`. -/
def dSumT (Df : Diff) : Diff := fun gradin => do Df (← mkUn .sum gradin)

/-- `maths/Minus.py:25-27`. -/
def dNeg (Df : Diff) : Diff := fun gradin => do mkUn .rneg (← Df gradin)

/-- The common form of `complex/ComplexAdd.py:16-25` and `complex/ComplexSubtract.py:16-25`, `o` being the
operation. -/
def dAddSub (o : Bin) (d d' : Nat) (Df Dg : Diff) : Diff := fun gradin =>
  if d = 2 ∧ d' > 2 then do
    mkBin o (← Df (← mkUn .sum gradin)) (← Dg gradin)
  else if d' = 2 ∧ d > 2 then do
    mkBin o (← Df gradin) (← Dg (← mkUn .sum gradin))
  else do
    mkBin o (← Df gradin) (← Dg gradin)

/-- `complex/ComplexMult.py:18-36`. -/
def dMul (f g : Form) (Df Dg : Diff) : Diff := fun gradin =>
  if f.dim = 2 ∧ g.dim > 2 then do
    let p ← mkUn .sum (← mkBin .mul (← mkUn .conj g) gradin)
    let a ← Df p
    let q ← mkBin .mul (← mkUn .conj f) gradin
    mkBin .add a (← Dg q)
  else if g.dim = 2 ∧ f.dim > 2 then do
    let p ← mkBin .mul (← mkUn .conj g) gradin
    let a ← Df p
    let q ← mkUn .sum (← mkBin .mul (← mkUn .conj f) gradin)
    mkBin .add a (← Dg q)
  else do
    let p ← mkBin .mul (← mkUn .conj g) gradin
    let a ← Df p
    let q ← mkBin .mul (← mkUn .conj f) gradin
    mkBin .add a (← Dg q)

/-- One term of the sum of `VectorizedScalarOp.py:37-40`, `df` being the derivative. -/
def dTerm (df : Form) (Df : Diff) : Diff := fun gradin =>
  if df.dim = 1 then do
    mkBin .rmul (← Df gradin) df
  else do
    Df (← mkBin .rmul gradin df)

/-- `Add_Impl.DiffT` for arguments of the same dimension, `maths/Add.py:35`.  Other dimensions do not occur here
and are not modelled. -/
def dRadd (d d' : Nat) (Df Dg : Diff) : Diff := fun gradin =>
  if d = d' then do mkBin .radd (← Df gradin) (← Dg gradin) else .error .attribute

/-- `Mult_Impl.DiffT` for arguments of the same dimension, `maths/Mult.py:38`.  Other dimensions, and the rule for
scalar exponentials (`maths/Mult.py:30-32`), are not modelled. -/
def dRmul (f g : Form) (Df Dg : Diff) : Diff := fun gradin =>
  if f.dim = g.dim then do
    let a ← Df (← mkBin .rmul g gradin)
    let b ← Dg (← mkBin .rmul f gradin)
    mkBin .radd a b
  else .error .attribute

/-- `Atan2`, with its two derivatives: `maths/Atan2.py:15-18`, `VectorizedScalarOp.py:33-40`. -/
def dRatan2 (f g : Form) (Df Dg : Diff) : Diff := fun gradin =>
  if f.dim = g.dim then do
    let a ← dTerm (.bin .datan2f f g) Df gradin
    let b ← dTerm (.bin .datan2g f g) Dg gradin
    mkBin .radd a b
  else .error .attribute

/-- `AltFormula.DiffT(v, gradin)` of `complex/ComplexExp.py:34-40`, for
`AltFormula = Real2Complex(AltAbs * Cos(ComplexImag(f))) + Imag2Complex(AltAbs * Sin(ComplexImag(f)))`, with
`AltAbs = Exp(ComplexReal(f))`. -/
def dExp (f : Form) (Df : Diff) : Diff :=
  let re : Form := .un .real f
  let im : Form := .un .imag f
  let dAbs := dTerm (.un .rexp re) (dReal Df)
  let dCos := dTerm (.un .dcos im) (dImag Df)
  let dSin := dTerm (.un .rcos im) (dImag Df)
  let dAltReal := dRmul (.un .rexp re) (.un .rcos im) dAbs dCos
  let dAltImag := dRmul (.un .rexp re) (.un .rsin im) dAbs dSin
  dRadd (2 * re.dim) (2 * re.dim) (dOfReal dAltReal) (dOfImag dAltImag)

/-- `AltFormula.DiffT(v, gradin)` of `complex/ComplexExp1j.py:30-34`, for
`AltFormula = Real2Complex(Cos(f)) + Imag2Complex(Sin(f))`. -/
def dExp1j (f : Form) (Df : Diff) : Diff :=
  dRadd (2 * f.dim) (2 * f.dim) (dOfReal (dTerm (.un .dcos f) Df)) (dOfImag (dTerm (.un .rcos f) Df))

/-- `AltFormula.DiffT(v, gradin)` of `complex/ComplexSquareAbs.py:30-33`, for
`AltFormula = ComplexReal(ComplexMult(f, Conj(f)))`. -/
def dSqAbs (f : Form) (Df : Diff) : Diff := dReal (dMul f (.un .conj f) Df (dConj Df))

/-- `AltFormula.DiffT(v, gradin)` of `complex/ComplexRealScal.py:32-35`, for
`AltFormula = ComplexMult(Real2Complex(f), g)`. -/
def dRealScal (f g : Form) (Df Dg : Diff) : Diff := dMul (.un .ofReal f) g (dOfReal Df) Dg

/-- `f.DiffT(v, gradin)`: `variables/Var.py:59-62`, `variables/Zero.py:28-29`, and the methods above.  For the
real operations with one argument, `VectorizedScalarOp.py:33-40` with the derivatives of `maths/Exp.py:18-19`,
`maths/Cos.py:13-16`, `maths/Sin.py:13-16`, `maths/Inv.py:19-20`, `maths/Sqrt.py:20-21`.  The gradients of the
operations that stand for derivatives (second order), and those of `Square`, `Subtract` and `Divide`, are not
modelled. -/
def Form.diffT (v : VarId) : Form → Diff
  | .var i d c => fun gradin => .ok (if i = v.ind ∧ d = v.dim ∧ c = v.cat then gradin else .zero v.dim)
  | .zero _ => fun _ => .ok (.zero v.dim)
  | .un o f =>
    match o with
    | .conj => dConj (f.diffT v)
    | .real => dReal (f.diffT v)
    | .imag => dImag (f.diffT v)
    | .ofReal => dOfReal (f.diffT v)
    | .ofImag => dOfImag (f.diffT v)
    | .sqAbs => dSqAbs f (f.diffT v)
    | .sum => dSum f.dim (f.diffT v)
    | .sumT _ => dSumT (f.diffT v)
    | .exp => dExp f (f.diffT v)
    | .exp1j => dExp1j f (f.diffT v)
    | .rexp => dTerm (.un .rexp f) (f.diffT v)
    | .rcos => dTerm (.un .dcos f) (f.diffT v)
    | .rsin => dTerm (.un .rcos f) (f.diffT v)
    | .rinv => dTerm (.un .dinv f) (f.diffT v)
    | .rsqrt => dTerm (.un .dsqrt f) (f.diffT v)
    | .rneg => dNeg (f.diffT v)
    | .rsquare | .dcos | .dinv | .dsqrt => fun _ => .error .attribute
  | .bin o f g =>
    match o with
    | .add => dAddSub .add f.dim g.dim (f.diffT v) (g.diffT v)
    | .sub => dAddSub .sub f.dim g.dim (f.diffT v) (g.diffT v)
    | .mul => dMul f g (f.diffT v) (g.diffT v)
    | .realScal => dRealScal f g (f.diffT v) (g.diffT v)
    | .radd => dRadd f.dim g.dim (f.diffT v) (g.diffT v)
    | .rmul => dRmul f g (f.diffT v) (g.diffT v)
    | .ratan2 => dRatan2 f g (f.diffT v) (g.diffT v)
    | .rsub | .rdiv | .datan2f | .datan2g => fun _ => .error .attribute

end Verif.Cplx
