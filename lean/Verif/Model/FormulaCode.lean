import Mathlib.Data.Real.Basic
import Verif.Model.Factorize

/-!
# Code generated for a formula

Model of the C++ code returned by `formula(out, table)`: `Operation.__call__`,
`Factorize_Impl.__call__`, the methods `Op` and `ScalarOp` of the classes of `formulas/maths` and
`formulas/variables`, and the helpers of `utils/code_gen_utils.py` they use.

Generating a piece of code and running it are one step here: a function of the model takes the contents
of the arrays and returns the contents of the output array after the code has run, or an error.  Reads
and writes are checked against the declared length of the array, so that a result without error means
that the code can be generated and makes no access outside of its arrays.

Simplifications: numbers are real numbers; the branches for `half2` and for column-major arrays
(`C_CONTIGUOUS` is always 1, `mapreduce/MapReduce.py:46`) are left out; loop counters do not overflow.
The names given by `new_c_varname` to the local arrays are different from each other and from the arrays
of the table, so that no code block changes an array of another one.
-/

namespace Verif

/-- What can go wrong when the code of a formula is generated, compiled or run. -/
inductive CErr
  /-- `KeOps_Error` while generating, e.g. `utils/code_gen_utils.py:417-418` -/
  | keops
  /-- a Python `IndexError` or `AttributeError` while generating (no entry of the table, or `None`,
  `utils/code_gen_utils.py:605,619`), or a name that is not declared when compiling -/
  | table
  /-- access outside of an array when running -/
  | bounds
  deriving DecidableEq, Repr

/-- The content of a `c_array` of dimension `length`, `utils/code_gen_utils.py:325-332`. -/
abbrev CArr := List ℝ

/-- The list `table`; entries that are `None` (`utils/code_gen_utils.py:605,619`), or whose name is no
longer declared, are `none`. -/
abbrev Table := List (Option CArr)

/-- `a[k]`, `utils/code_gen_utils.py:362-373`. -/
def CArr.get (a : CArr) (k : Int) : Except CErr ℝ :=
  if k < 0 then .error .bounds else
  match a[k.toNat]? with
  | some x => .ok x
  | none => .error .bounds

/-- `a[k] = x`, `utils/code_gen_utils.py:77-97,362-373`. -/
def CArr.put (a : CArr) (k : Int) (x : ℝ) : Except CErr CArr :=
  if k < 0 ∨ (a.length : Int) ≤ k then .error .bounds else .ok (a.set k.toNat x)

/-- `for(k=0; k<n; k++) body`, `utils/code_gen_utils.py:228-258`. -/
def loop {σ : Type} (n : Nat) (body : Nat → σ → Except CErr σ) (s : σ) : Except CErr σ :=
  match n with
  | 0 => .ok s
  | n + 1 => do body n (← loop n body s)

/-- `out.assign(x)`: all entries, `utils/code_gen_utils.py:356-360`. -/
def CArr.fill (out : CArr) (x : ℝ) : Except CErr CArr :=
  loop out.length (fun k out => CArr.put out k x) out

/-- `VectCopy(out + s, arg + t, dim=n)`, `utils/code_gen_utils.py:459-468`; sub-arrays, which come from
`c_array.split` (`utils/code_gen_utils.py:346-354`) or `Extract.py:28`, are given by the positions `s` and
`t` of their first entries. -/
def vectCopyAt (out : CArr) (s n : Nat) (arg : CArr) (t : Nat) : Except CErr CArr :=
  loop n (fun k out => do CArr.put out (s + k : Nat) (← CArr.get arg (t + k : Nat))) out

/-- `(out + s).assign(x)` for a sub-array of dimension `n`, `utils/code_gen_utils.py:346-360`. -/
def fillAt (out : CArr) (s n : Nat) (x : ℝ) : Except CErr CArr :=
  loop n (fun k out => CArr.put out (s + k : Nat) x) out

/-- `VectApply(fun, out, *args)`, `utils/code_gen_utils.py:390-431`; `f` gives the new value of the entry
of `out` from its old value and the entries of the arguments. -/
def vectApplyC (f : ℝ → List ℝ → ℝ) (out : CArr) (args : List CArr) : Except CErr CArr :=
  let dims := out.length :: args.map List.length
  let dimloop := dims.foldl max 0
  if dims.all (fun d => decide (d = dimloop) || decide (d = 1)) then
    let incr (d : Nat) : Nat := if d = dimloop then 1 else 0
    let incrOut := incr out.length
    loop dimloop (fun k out => do
      let xs ← args.mapM (fun a => CArr.get a (k * incr a.length : Nat))
      CArr.put out (k * incrOut : Nat) (f (← CArr.get out (k * incrOut : Nat)) xs)) out
  else .error .keops

/-- The functions of the C library and the arithmetic operations used by the scalar operations,
`utils/math_functions.py:69-178`.  They are parameters of the model: `CMath.Exact` says what is assumed
about them. -/
structure CMath where
  exp : ℝ → ℝ
  log : ℝ → ℝ
  cos : ℝ → ℝ
  sin : ℝ → ℝ
  acos : ℝ → ℝ
  asin : ℝ → ℝ
  atan : ℝ → ℝ
  sqrt : ℝ → ℝ
  abs : ℝ → ℝ
  floor : ℝ → ℝ
  round : ℝ → ℝ
  pow : ℝ → ℤ → ℝ
  powf : ℝ → ℝ → ℝ
  atan2 : ℝ → ℝ → ℝ
  /-- the operator `/` -/
  div : ℝ → ℝ → ℝ
  /-- the conversion `(int)` -/
  toInt : ℝ → ℤ

section
variable (M : CMath)

/-- `ScalarOp` of the vectorized operations with one argument: `VectorizedScalarOp.py:28-31`,
`Square.py:17-18`, `Minus.py:20-23` and `utils/math_functions.py:71-167` (the CPU code). -/
noncomputable def Un.scalar : Un → ℝ → ℝ
  | .exp, x => M.exp x
  | .square, x => x * x
  | .minus, x => -x
  | .pow m, x => M.pow x m
  | .inv, x => M.div 1 x
  | .sqrt, x => M.sqrt x
  | .rsqrt, x => if x = 0 then 0 else M.div 1 (M.sqrt x)
  | .log, x => M.log x
  | .abs, x => M.abs x
  | .sign, x => if x > 0 then 1 else if x < 0 then -1 else 0
  | .cos, x => M.cos x
  | .sin, x => M.sin x
  | .acos, x => M.acos x
  | .asin, x => M.asin x
  | .atan, x => M.atan x
  | .sinXDivX, x => if x ≠ 0 then M.div (M.sin x) x else 1
  | .xLogX, x => if x ≠ 0 then x * M.log x else 0
  | .step, x => if x < 0 then 0 else 1
  | .relu, x => if x < 0 then 0 else x
  | .clampInt a b, x => if x < a then a else if x > b then b else x
  | .diffClampInt a b, x => if x < a then 0 else if x > b then 0 else 1
  | .round d, x => if d = 0 then M.round x else M.div (M.round (x * 10 ^ d)) (10 ^ d)
  | .floor, x => M.floor x
  | _, x => x

/-- `ScalarOp` of the vectorized operations with two arguments: `VectorizedScalarOp.py:28-31`,
`Add.py:23-26`, `Subtract.py:21-24`, `Divide.py:23-25` and `utils/math_functions.py:69-130`. -/
noncomputable def Bin.scalar : Bin → ℝ → ℝ → ℝ
  | .add, x, y => x + y
  | .sub, x, y => x - y
  | .mul, x, y => x * y
  | .div, x, y => M.div x y
  | .powf, x, y => M.powf x y
  | .atan2, x, y => M.atan2 x y
  | .lessThan, x, y => if x < y then 1 else 0
  | .lessOrEqual, x, y => if x ≤ y then 1 else 0
  | .equal, x, y => if x = y then 1 else 0
  | .notEqual, x, y => if x ≠ y then 1 else 0
  | _, x, _ => x

/-- `ScalarOp` of the operations with three arguments: `VectorizedScalarOp.py:28-31`,
`utils/math_functions.py:142-161`. -/
noncomputable def Tern.scalar : Tern → ℝ → ℝ → ℝ → ℝ
  | .ifElse, x, a, b => if x ≥ 0 then a else b
  | .clamp, x, a, b => if x < a then a else if x > b then b else x
  | .mod, x, n, d => x - n * M.floor (M.div (x - d) n)

/-- `Op` of an operation with one child of dimension `d`, `arg` being its value: `VectorizedScalarOp.py:23-26`,
`Sum.py:20-24`, `SumT.py:25-26`, `Elem.py:26-27`, `ElemT.py:26-33`, `Extract.py:25-29`,
`ExtractT.py:27-39`, `OneHot.py:33-38`, `Max.py:25-37`, `Min.py:24-38`, `ArgMax.py:29-46`,
`ArgMin.py:29-46`. -/
noncomputable def Un.op (o : Un) (d : Nat) (out arg : CArr) : Except CErr CArr :=
  match o with
  | .sum => do
    let out ← out.fill 0
    vectApplyC (fun z xs => z + xs[0]!) out [arg]
  | .sumT _ => do out.fill (← CArr.get arg 0)
  | .elem m => do CArr.put out 0 (← CArr.get arg m)
  | .elemT n m => do
    let out ← loop m.toNat (fun k out => CArr.put out k 0) out
    let out ← CArr.put out m (← CArr.get arg 0)
    -- a loop from m+1 to n
    loop ((n : Int) - (m + 1)).toNat (fun k out => CArr.put out (m + 1 + k) 0) out
  | .extract s _ => vectCopyAt out 0 out.length arg s
  | .extractT s n => do
    if s + d + (n - s - d) ≠ out.length then .error .keops else
    let out ← fillAt out 0 s 0
    let out ← vectCopyAt out s d arg 0
    fillAt out (s + d) (n - s - d) 0
  | .oneHot _ => do
    let out ← out.fill 0
    CArr.put out (M.toInt ((← CArr.get arg 0) + 1 / 2)) 1
  | .max => do
    let out ← CArr.put out 0 (← CArr.get arg 0)
    loop (arg.length - 1) (fun k out => do
      if (← CArr.get arg (k + 1)) > (← CArr.get out 0) then CArr.put out 0 (← CArr.get arg (k + 1))
      else pure out) out
  | .min => do
    let out ← CArr.put out 0 (← CArr.get arg 0)
    loop (d - 1) (fun k out => do
      if (← CArr.get arg (k + 1)) < (← CArr.get out 0) then CArr.put out 0 (← CArr.get arg (k + 1))
      else pure out) out
  | .argMax => do
    let out ← CArr.put out 0 0
    let tmp ← CArr.get arg 0
    let s ← loop (arg.length - 1) (fun k (s : ℝ × CArr) => do
      if (← CArr.get arg (k + 1)) > s.1 then
        pure (← CArr.get arg (k + 1), ← CArr.put s.2 0 (k + 1 : Nat))
      else pure s) (tmp, out)
    pure s.2
  | .argMin => do
    let out ← CArr.put out 0 0
    let tmp ← CArr.get arg 0
    let s ← loop (arg.length - 1) (fun k (s : ℝ × CArr) => do
      if (← CArr.get arg (k + 1)) < s.1 then
        pure (← CArr.get arg (k + 1), ← CArr.put s.2 0 (k + 1 : Nat))
      else pure s) (tmp, out)
    pure s.2
  | o => vectApplyC (fun _ xs => o.scalar M xs[0]!) out [arg]

/-- `Op` of an operation with two children of dimensions `d` and `d'`: `VectorizedScalarOp.py:23-26`, `Scalprod.py:32-36`,
`Concat.py:24-26`, `MatVecMult.py:31-42`, `VecMatMult.py:31-43`, `TensorProd.py:25-37`.  In the loops of
`MatVecMult` and `TensorProd`, `q` is the running position. -/
noncomputable def Bin.op (o : Bin) (d d' : Nat) (out a b : CArr) : Except CErr CArr :=
  match o with
  | .scalprod => do
    let out ← out.fill 0
    vectApplyC (fun z xs => xs[0]! * xs[1]! + z) out [a, b]
  | .concat => do
    if a.length + b.length ≠ out.length then .error .keops else
    let out ← vectCopyAt out 0 a.length a 0
    vectCopyAt out a.length b.length b 0
  | .matVecMult => do
    let s ← loop (d / d') (fun i (s : CArr × Nat) => do
      let out ← CArr.put s.1 i 0
      loop b.length (fun k (s : CArr × Nat) => do
        let z ← CArr.get s.1 i
        let out ← CArr.put s.1 i (z + (← CArr.get a s.2) * (← CArr.get b k))
        pure (out, s.2 + 1)) (out, s.2)) (out, 0)
    pure s.1
  | .vecMatMult =>
    loop (d' / d) (fun i out => do
      let out ← CArr.put out i 0
      loop a.length (fun k out => do
        let z ← CArr.get out i
        CArr.put out i (z + (← CArr.get b (k * (d' / d) + i : Nat)) * (← CArr.get a k)))
        out) out
  | .tensorProd => do
    let s ← loop a.length (fun k (s : CArr × Nat) =>
      loop b.length (fun l (s : CArr × Nat) => do
        let out ← CArr.put s.1 s.2 ((← CArr.get a k) * (← CArr.get b l))
        pure (out, s.2 + 1)) s) (out, 0)
    pure s.1
  | o => vectApplyC (fun _ xs => o.scalar M xs[0]! xs[1]!) out [a, b]

/-- `Op` of an operation with three children, `VectorizedScalarOp.py:23-26`. -/
noncomputable def Tern.op (o : Tern) (out a b c : CArr) : Except CErr CArr :=
  vectApplyC (fun _ xs => o.scalar M xs[0]! xs[1]! xs[2]!) out [a, b, c]

end

/-- `table[ind]`, with Python's convention for negative indices; `Operation.py:89`, `Var.py:54`. -/
def Table.look (tab : Table) (ind : Int) : Except CErr CArr :=
  let k := if ind < 0 then tab.length + ind else ind
  if k < 0 then .error .table else
  match tab[k.toNat]? with
  | some (some a) => .ok a
  | _ => .error .table

/-- A new local array of dimension `e.dim`, for the value of `e`: its content is not initialised.
`Operation.py:95-99`, `Factorize.py:52-55`. -/
def newArr (junk : Expr → Nat → ℝ) (e : Expr) : CArr := (List.range e.dim).map (junk e)

/-- The argument of an operation for a child: the entry of the table for a variable, and a new array
filled by the code of the child otherwise; `Operation.py:85-102`. -/
def evalArg (junk : Expr → Nat → ℝ) (e : Expr) (run : CArr → Table → Except CErr (CArr × Table))
    (tab : Table) : Except CErr (CArr × Table) :=
  match e with
  | .var i _ _ => do return (← tab.look i, tab)
  | e => run (newArr junk e) tab

/-- Number of nodes of a formula. Not in the code: a measure for the recursion of `Expr.code`. -/
def Expr.nodes : Expr → Nat
  | .un _ f => f.nodes + 1
  | .bin _ f g => f.nodes + g.nodes + 1
  | .tern _ f g h => f.nodes + g.nodes + h.nodes + 1
  | .fact _ _ _ f g => f.nodes + g.nodes + 1
  | _ => 1

/-- Renaming a variable keeps the number of nodes. Not in the code: for the recursion of `Expr.code`. -/
theorem Expr.nodes_rename (e : Expr) (i : Int) (d : Nat) (c : Int) (i' : Int) (d' : Nat) (c' : Int) :
    (e.replace (.var i d c) (.var i' d' c')).nodes = e.nodes := by
  induction e with
  | var j d2 c2 => unfold Expr.replace; split <;> rfl
  | zero | int | rat => unfold Expr.replace; simp
  | un o f ih => unfold Expr.replace; simp [Expr.nodes, ih]
  | bin o f g i1 i2 => unfold Expr.replace; simp [Expr.nodes, i1, i2]
  | tern o f g h i1 i2 i3 => unfold Expr.replace; simp [Expr.nodes, i1, i2, i3]
  | fact j d2 c2 f g i1 i2 => unfold Expr.replace; simp [Expr.nodes, i1, i2]

/-- The code of a formula: content of `out` after it has run, and the table, which is a list shared by
all the calls.  `Operation.__call__`, `Operation.py:66-116`; `Var.Op`, `Var.py:53-54`; `Zero.Op`,
`Zero.py:25-26`; `IntCst_Impl.Op`, `IntCst.py:20-22`; `RatCst_Impl.Op`, `RatCst.py:21-23`;
`Factorize_Impl.__call__`, `Factorize.py:27-75`.  After the code block of a factorization the array of
its temporary variable is out of scope: its entry of the table becomes `none`. -/
noncomputable def Expr.code (M : CMath) (junk : Expr → Nat → ℝ) (e : Expr) (out : CArr) (tab : Table) :
    Except CErr (CArr × Table) :=
  match e with
  | .var i _ _ => do return (← vectCopyAt out 0 out.length (← tab.look i) 0, tab)
  | .zero _ => do return (← out.fill 0, tab)
  | .int n => do return (← CArr.put out 0 n, tab)
  | .rat p q => do return (← CArr.put out 0 (p / q), tab)
  | .un o f => do
    let (a, tab) ← evalArg junk f (fun out tab => f.code M junk out tab) tab
    return (← o.op M f.dim out a, tab)
  | .bin o f g => do
    let (a, tab) ← evalArg junk f (fun out tab => f.code M junk out tab) tab
    let (b, tab) ← evalArg junk g (fun out tab => g.code M junk out tab) tab
    return (← o.op M f.dim g.dim out a b, tab)
  | .tern o f g h => do
    let (a, tab) ← evalArg junk f (fun out tab => f.code M junk out tab) tab
    let (b, tab) ← evalArg junk g (fun out tab => g.code M junk out tab) tab
    let (c, tab) ← evalArg junk h (fun out tab => h.code M junk out tab) tab
    return (← o.op M out a b c, tab)
  | .fact i d c f g => do
    let (b, tab) ← g.code M junk (newArr junk g) tab
    let newind := tab.length
    let newf := f.replace (.var i d c) (.var newind d c)
    let (r, tab) ← newf.code M junk out (tab ++ [some b])
    return (r, tab.set newind none)
termination_by e.nodes
decreasing_by
  all_goals simp only [Expr.nodes, Expr.nodes_rename]
  all_goals omega

end Verif
