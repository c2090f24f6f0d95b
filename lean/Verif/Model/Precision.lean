import Mathlib.Data.Real.Archimedean
import Mathlib.Algebra.Order.Floor.Ring
import Verif.Model.Factorize

/-!
# Types of the numbers in the code of a formula

Model of the C++ expressions written by the operations of `formulas/maths` and by the constants of
`formulas/variables`, with the type (`float`, `double`, integer) in which each operation is done: the text written
by `math_function` (`utils/math_functions.py`) for the CPU and for the GPU, and the conversions of C++.

The loops and the accesses to arrays are modelled in `Model/FormulaCode.lean`; here an array is a function of the
position, and loops that accumulate a result are folds.

Simplifications: numbers are real numbers, so that infinities and NaN are left out; an arithmetic operation or a
function of the C library is an arbitrary function for each type (`Machine`); the compiler does not contract or
reorder operations; `half2` is left out (`Model/Half.lean`).
-/

namespace Verif.Prec

/-- `#ifdef __CUDACC__`, `utils/math_functions.py:50-54`. -/
inductive Target
  | cpu | gpu
  deriving DecidableEq

/-- The floating point types of the arrays, `LoadKeOps.py:82-92`. -/
inductive Fl
  | float | double
  deriving DecidableEq

/-- The type of a C++ expression. `utils/code_gen_utils.py:54-65`; `int` stands for all integer types. -/
inductive Ty
  | int | fl (t : Fl)
  deriving DecidableEq

/-- The arithmetic operators of the code, `utils/code_gen_utils.py:145-159`. -/
inductive Arith
  | add | sub | mul | div
  deriving DecidableEq

/-- The functions of one argument of the code, `utils/math_functions.py:71-167`. -/
inductive F1
  | abs | cos | sin | acos | asin | atan | exp | floor | log | sqrt | rsqrt | round
  deriving DecidableEq

/-- The functions of two arguments of the code, `utils/math_functions.py:82,91-101`; the function `powf` is the
version of `pow` for `float`. -/
inductive F2
  | atan2 | pow
  deriving DecidableEq

/-- Comparisons, `utils/math_functions.py:102-161`. -/
inductive Cmp
  | lt | gt | le | ge | eq | ne
  deriving DecidableEq

/-- C++ expressions. `utils/math_functions.py:69-167`. -/
inductive CExp
  /-- `arg.id`, of the type of the arrays -/
  | arg (k : Nat)
  /-- a literal such as `3` -/
  | int (n : Int)
  /-- a literal such as `1.0f`: only small integers are written this way -/
  | flt (n : Int)
  /-- a decimal literal such as `0.1`, of type `double` -/
  | dbl (x : ℚ)
  | neg (e : CExp)
  | bin (o : Arith) (a b : CExp)
  | call1 (f : F1) (a : CExp)
  | call2 (f : F2) (a b : CExp)
  /-- `fma(a,b,c)` -/
  | fma (a b c : CExp)
  /-- `powf(a,b)`: the arguments are converted to `float`, and so is the result -/
  | powf (a b : CExp)
  /-- `(float)(a)` -/
  | toFloat (a : CExp)
  /-- `a cmp b ? t : f` -/
  | ite (c : Cmp) (a b t f : CExp)

/-- The usual arithmetic conversions of C++: the type in which an operator works. -/
def Ty.join : Ty → Ty → Ty
  | .fl .double, _ => .fl .double
  | _, .fl .double => .fl .double
  | .fl .float, _ => .fl .float
  | _, .fl .float => .fl .float
  | .int, .int => .int

/-- The version of a function of `<cmath>` that is chosen for an argument of this type: integers are converted to
`double`. -/
def Ty.over : Ty → Fl
  | .fl .float => .float
  | _ => .double

/-- The version of a function of `<cmath>` of several arguments. -/
def Fl.join : Fl → Fl → Fl
  | .float, .float => .float
  | _, _ => .double

/-- What the processor and the libraries compute: the operations of each type, on numbers of this type, and the
conversion of a number to a type. Operations between integers do not occur in the code. -/
structure Machine where
  arith : Fl → Arith → ℝ → ℝ → ℝ
  fun1 : Fl → F1 → ℝ → ℝ
  fun2 : Fl → F2 → ℝ → ℝ → ℝ
  fma : Fl → ℝ → ℝ → ℝ → ℝ
  conv : Fl → ℝ → ℝ

/-- The type of an expression, when the arrays have type `dt`. Rules of C++ for `utils/math_functions.py:69-167`. -/
def CExp.ty (dt : Fl) : CExp → Ty
  | .arg _ => .fl dt
  | .int _ => .int
  | .flt _ => .fl .float
  | .dbl _ => .fl .double
  | .neg e => e.ty dt
  | .bin _ a b => (a.ty dt).join (b.ty dt)
  | .call1 _ a => .fl (a.ty dt).over
  | .call2 _ a b => .fl ((a.ty dt).over.join (b.ty dt).over)
  | .fma a b c => .fl (((a.ty dt).over.join (b.ty dt).over).join (c.ty dt).over)
  | .powf _ _ => .fl .float
  | .toFloat _ => .fl .float
  | .ite _ _ _ t f => (t.ty dt).join (f.ty dt)

/-- Conversion of a number of type `src` to the type `dst`: `float` is a subset of `double`.
Rules of C++, and `cast_to`, `utils/code_gen_utils.py:281-293`. -/
def Machine.to (m : Machine) (src : Ty) (dst : Ty) (x : ℝ) : ℝ :=
  match src, dst with
  | .fl .float, .fl .double => x
  | .fl .double, .fl .float => m.conv .float x
  | .int, .fl t => m.conv t x
  | _, _ => x

/-- The truth value of a comparison, `utils/math_functions.py:102-161`. -/
def Cmp.holds : Cmp → ℝ → ℝ → Prop
  | .lt, x, y => x < y
  | .gt, x, y => x > y
  | .le, x, y => x ≤ y
  | .ge, x, y => x ≥ y
  | .eq, x, y => x = y
  | .ne, x, y => x ≠ y

open Classical in
/-- The value of an expression. Rules of C++ for the expressions of `utils/math_functions.py:69-167`. -/
noncomputable def CExp.eval (m : Machine) (dt : Fl) (args : Nat → ℝ) : CExp → ℝ
  | .arg k => args k
  | .int n => n
  | .flt n => n
  | .dbl x => m.conv .double x
  | .neg e => -e.eval m dt args
  | .bin o a b =>
    let t := (a.ty dt).join (b.ty dt)
    match t with
    | .fl t => m.arith t o (m.to (a.ty dt) (.fl t) (a.eval m dt args)) (m.to (b.ty dt) (.fl t) (b.eval m dt args))
    | .int => 0
  | .call1 f a =>
    let t := (a.ty dt).over
    m.fun1 t f (m.to (a.ty dt) (.fl t) (a.eval m dt args))
  | .call2 f a b =>
    let t := (a.ty dt).over.join (b.ty dt).over
    m.fun2 t f (m.to (a.ty dt) (.fl t) (a.eval m dt args)) (m.to (b.ty dt) (.fl t) (b.eval m dt args))
  | .fma a b c =>
    let t := ((a.ty dt).over.join (b.ty dt).over).join (c.ty dt).over
    m.fma t (m.to (a.ty dt) (.fl t) (a.eval m dt args)) (m.to (b.ty dt) (.fl t) (b.eval m dt args))
      (m.to (c.ty dt) (.fl t) (c.eval m dt args))
  | .powf a b =>
    m.fun2 .float .pow (m.to (a.ty dt) (.fl .float) (a.eval m dt args)) (m.to (b.ty dt) (.fl .float) (b.eval m dt args))
  | .toFloat a => m.to (a.ty dt) (.fl .float) (a.eval m dt args)
  | .ite c a b t f =>
    let u := (a.ty dt).join (b.ty dt)
    let v := (t.ty dt).join (f.ty dt)
    if c.holds (m.to (a.ty dt) u (a.eval m dt args)) (m.to (b.ty dt) u (b.eval m dt args))
    then m.to (t.ty dt) v (t.eval m dt args)
    else m.to (f.ty dt) v (f.eval m dt args)

/-- `out.assign(value)`, `out` being an entry of an array: the value is converted to the type of the array.
`utils/code_gen_utils.py:77-97`. -/
noncomputable def CExp.assign (m : Machine) (dt : Fl) (args : Nat → ℝ) (e : CExp) : ℝ :=
  m.to (e.ty dt) (.fl dt) (e.eval m dt args)

/-- `math_function(cpu_code, gpu_code, gpu_float_code)`: the code for arguments of type `dt`.
`utils/math_functions.py:12-60`; `gpu_half2_code` is left out. -/
def mathFunction (cpu : CExp) (gpu : Option CExp := none) (gpuFloat : Option CExp := none) (t : Target) (dt : Fl) : CExp :=
  let gpu := gpu.getD cpu
  let gpuFloat := gpuFloat.getD gpu
  match t with
  | .cpu => cpu
  | .gpu => if dt = .float then gpuFloat else gpu

/-- `10**eval(d)`, a Python integer if `d ≥ 0` and a Python float otherwise: the text written in the code.
`utils/math_functions.py:162-167`. -/
def tenPow (d : Int) : CExp := if 0 ≤ d then .int (10 ^ d.toNat) else .dbl (10 ^ d)

/-- `ScalarOp` of the vectorized operations with one argument: `VectorizedScalarOp.py:28-31`,
`Square.py:17-18`, `Minus.py:20-23`, `Rsqrt.py:17-20` and `utils/math_functions.py:71-173`. The other operations are
not vectorized. -/
def unExp (t : Target) (dt : Fl) : Un → CExp
  | .exp => mathFunction (.call1 .exp (.arg 0)) none none t dt
  | .square => .bin .mul (.arg 0) (.arg 0)
  | .minus => .neg (.arg 0)
  | .pow m => mathFunction (.call2 .pow (.arg 0) (.int m)) (some (.powf (.arg 0) (.int m))) none t dt
  | .inv => mathFunction (.bin .div (.flt 1) (.arg 0)) none none t dt
  | .sqrt => mathFunction (.call1 .sqrt (.arg 0)) none none t dt
  | .rsqrt => mathFunction (.ite .eq (.arg 0) (.flt 0) (.flt 0) (.bin .div (.flt 1) (.call1 .sqrt (.arg 0))))
      (some (.ite .eq (.arg 0) (.flt 0) (.flt 0) (.call1 .rsqrt (.arg 0)))) none t dt
  | .log => mathFunction (.call1 .log (.arg 0)) none none t dt
  | .abs => mathFunction (.call1 .abs (.arg 0)) none none t dt
  | .sign => mathFunction (.ite .gt (.arg 0) (.flt 0) (.flt 1) (.ite .lt (.arg 0) (.flt 0) (.flt (-1)) (.flt 0)))
      none none t dt
  | .cos => mathFunction (.call1 .cos (.arg 0)) none none t dt
  | .sin => mathFunction (.call1 .sin (.arg 0)) none none t dt
  | .acos => mathFunction (.call1 .acos (.arg 0)) none none t dt
  | .asin => mathFunction (.call1 .asin (.arg 0)) none none t dt
  | .atan => mathFunction (.call1 .atan (.arg 0)) none none t dt
  | .sinXDivX => mathFunction (.ite .ne (.arg 0) (.int 0) (.bin .div (.call1 .sin (.arg 0)) (.arg 0)) (.flt 1))
      none none t dt
  | .xLogX => mathFunction (.ite .ne (.arg 0) (.int 0) (.bin .mul (.arg 0) (.call1 .log (.arg 0))) (.flt 0))
      none none t dt
  | .step => mathFunction (.ite .lt (.arg 0) (.flt 0) (.flt 0) (.flt 1)) none none t dt
  | .relu => mathFunction (.ite .lt (.arg 0) (.flt 0) (.flt 0) (.arg 0)) none none t dt
  | .clampInt a b => mathFunction (.ite .lt (.arg 0) (.int a) (.int a)
      (.ite .gt (.arg 0) (.int b) (.int b) (.arg 0))) none none t dt
  | .diffClampInt a b => mathFunction (.ite .lt (.arg 0) (.int a) (.flt 0)
      (.ite .gt (.arg 0) (.int b) (.flt 0) (.flt 1))) none none t dt
  | .round d => mathFunction (if d = 0 then .call1 .round (.arg 0) else
      .bin .div (.call1 .round (.bin .mul (.arg 0) (tenPow d))) (tenPow d)) none none t dt
  | .floor => mathFunction (.call1 .floor (.arg 0)) none none t dt
  | _ => .arg 0

/-- `ScalarOp` of the vectorized operations with two arguments: `VectorizedScalarOp.py:28-31`, `Add.py:23-26`,
`Subtract.py:21-24`, `Divide.py:23-25` and `utils/math_functions.py:69-130`. -/
def binExp (t : Target) (dt : Fl) : Bin → CExp
  | .add => .bin .add (.arg 0) (.arg 1)
  | .sub => .bin .sub (.arg 0) (.arg 1)
  | .mul => mathFunction (.bin .mul (.arg 0) (.arg 1)) none none t dt
  | .div => .bin .div (.arg 0) (.arg 1)
  | .powf => mathFunction (.powf (.arg 0) (.arg 1)) none none t dt
  | .atan2 => mathFunction (.call2 .atan2 (.arg 0) (.arg 1)) none none t dt
  | .lessThan => mathFunction (.ite .lt (.arg 0) (.arg 1) (.flt 1) (.flt 0)) none none t dt
  | .lessOrEqual => mathFunction (.ite .le (.arg 0) (.arg 1) (.flt 1) (.flt 0)) none none t dt
  | .equal => mathFunction (.ite .eq (.arg 0) (.arg 1) (.flt 1) (.flt 0)) none none t dt
  | .notEqual => mathFunction (.ite .ne (.arg 0) (.arg 1) (.flt 1) (.flt 0)) none none t dt
  | _ => .arg 0

/-- `ScalarOp` of the operations with three arguments: `VectorizedScalarOp.py:28-31`,
`utils/math_functions.py:142-161`. -/
def ternExp (t : Target) (dt : Fl) : Tern → CExp
  | .ifElse => mathFunction (.ite .ge (.arg 0) (.flt 0) (.arg 1) (.arg 2)) none none t dt
  | .clamp => mathFunction (.ite .lt (.arg 0) (.arg 1) (.arg 1) (.ite .gt (.arg 0) (.arg 2) (.arg 2) (.arg 0)))
      none none t dt
  | .mod => mathFunction (.bin .sub (.arg 0) (.bin .mul (.arg 1) (.call1 .floor
      (.bin .div (.bin .sub (.arg 0) (.arg 2)) (.arg 1))))) none none t dt

/-- The values of the arguments of an expression. Not in the code. -/
def argv (xs : List ℝ) (k : Nat) : ℝ := xs.getD k 0

/-- `a[k]` for an argument of dimension `d` of a vectorized operation: arguments of dimension 1 are not moved.
`utils/code_gen_utils.py:405-429`. -/
def bc (d : Nat) (x : Nat → ℝ) (k : Nat) : ℝ := if d = 1 then x 0 else x k

/-- The result of a loop `for(k=0; k<n; k++) acc = f(k, acc)`. `utils/code_gen_utils.py:228-258`. -/
def iter (n : Nat) (f : Nat → ℝ → ℝ) (acc : ℝ) : ℝ := (List.range n).foldl (fun acc k => f k acc) acc

open Classical in
/-- `Op` of `Max` and `Min`, on an array of dimension `d`; `c` is the comparison with the current value.
`Max.py:25-37`, `Min.py:24-38`. -/
noncomputable def extremum (c : Cmp) (d : Nat) (x : Nat → ℝ) : ℝ :=
  iter (d - 1) (fun k z => if c.holds (x (k + 1)) z then x (k + 1) else z) (x 0)

open Classical in
/-- `Op` of `ArgMax` and `ArgMin`, the position being written in an array of type `dt`. `ArgMax.py:29-46`,
`ArgMin.py:29-46`. -/
noncomputable def argExtremum (m : Machine) (dt : Fl) (c : Cmp) (d : Nat) (x : Nat → ℝ) : ℝ :=
  ((List.range (d - 1)).foldl (fun (s : ℝ × ℝ) k =>
    if c.holds (x (k + 1)) s.1 then (x (k + 1), m.to .int (.fl dt) (k + 1 : Nat)) else s) (x 0, 0)).2

/-- `Op` of an operation with one child of dimension `d` and value `x`: `VectorizedScalarOp.py:23-26`,
`Sum.py:20-24`, `SumT.py:25-26`, `Elem.py:26-27`, `ElemT.py:26-33`, `Extract.py:25-29`, `ExtractT.py:27-39`,
`OneHot.py:33-38`, `Max.py:25-37`, `Min.py:24-38`, `ArgMax.py:29-46`, `ArgMin.py:29-46`. In `OneHot`, `.5` is a `double`
and `(int)` is truncation. -/
noncomputable def unOp (m : Machine) (t : Target) (dt : Fl) (o : Un) (d : Nat) (x : Nat → ℝ) : Nat → ℝ :=
  match o with
  | .sum => fun _ => iter d (fun k z => m.arith dt .add z (x k)) 0
  | .sumT _ => fun _ => x 0
  | .elem i => fun _ => x i.toNat
  | .elemT n i => bc n fun k => if (k : Int) = i then x 0 else 0
  | .extract s n => bc n fun k => x (s + k)
  | .extractT s n => bc n fun k => if s ≤ k ∧ k < s + d then x (k - s) else 0
  | .oneHot n => bc n fun k =>
      let y := m.arith .double .add (x 0) (1 / 2)
      if (k : ℤ) = (if 0 ≤ y then ⌊y⌋ else ⌈y⌉) then 1 else 0
  | .max => fun _ => extremum .gt d x
  | .min => fun _ => extremum .lt d x
  | .argMax => fun _ => argExtremum m dt .gt d x
  | .argMin => fun _ => argExtremum m dt .lt d x
  | o => fun k => (unExp t dt o).assign m dt (argv [bc d x k])

/-- `Op` of an operation with two children of dimensions `d`, `d'` and values `x`, `y`: `VectorizedScalarOp.py:23-26`,
`Scalprod.py:32-36`, `Concat.py:24-26`, `MatVecMult.py:31-42`, `VecMatMult.py:31-43`, `TensorProd.py:25-37`. -/
noncomputable def binOp (m : Machine) (t : Target) (dt : Fl) (o : Bin) (d d' : Nat) (x y : Nat → ℝ) : Nat → ℝ :=
  match o with
  | .scalprod => fun _ => iter (max d d') (fun k z => m.fma dt (bc d x k) (bc d' y k) z) 0
  | .concat => bc (d + d') fun k => if k < d then x k else y (k - d)
  | .matVecMult => bc (d / d') fun i =>
      iter d' (fun k z => m.arith dt .add z (m.arith dt .mul (x (i * d' + k)) (y k))) 0
  | .vecMatMult => bc (d' / d) fun i =>
      iter d (fun k z => m.arith dt .add z (m.arith dt .mul (y (k * (d' / d) + i)) (x k))) 0
  | .tensorProd => bc (d * d') fun q => m.arith dt .mul (x (q / d')) (y (q % d'))
  | o => fun k => (binExp t dt o).assign m dt (argv [bc d x k, bc d' y k])

/-- The value computed by the code of a formula. `Operation.__call__`, `Operation.py:66-116`; `Var.Op`,
`Var.py:53-54`; `Zero.Op`, `Zero.py:25-26`; `IntCst_Impl.Op`, `IntCst.py:20-22`; `RatCst_Impl.Op`,
`RatCst.py:21-23` (`p/q` is a Python float, whose text is a literal of type `double`); `Factorize_Impl.__call__`,
`Factorize.py:27-75`. -/
noncomputable def run (m : Machine) (t : Target) (dt : Fl) (env : Int → Nat → ℝ) : Expr → Nat → ℝ
  | .var i d _ => bc d (env i)
  | .zero _ => fun _ => 0
  | .int n => fun _ => (CExp.toFloat (.int n)).assign m dt (argv [])
  | .rat p q => fun _ => (CExp.toFloat (.dbl (p / q))).assign m dt (argv [])
  | .un o f => unOp m t dt o f.dim (run m t dt env f)
  | .bin o f g => binOp m t dt o f.dim g.dim (run m t dt env f) (run m t dt env g)
  | .tern o f g h => fun k => (ternExp t dt o).assign m dt
      (argv [bc f.dim (run m t dt env f) k, bc g.dim (run m t dt env g) k,
        bc h.dim (run m t dt env h) k])
  | .fact i _ _ f g => run m t dt (Function.update env i (run m t dt env g)) f

end Verif.Prec
