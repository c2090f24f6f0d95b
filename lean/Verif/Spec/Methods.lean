import Verif.Spec.Formula
import Verif.Spec.Lazy
import Mathlib.Data.Real.Sign
import Mathlib.Analysis.SpecialFunctions.Trigonometric.Sinc

/-!
# What the operators and the methods of lazy tensors mean

Programs that combine lazy tensors, numbers, lists and arrays with the operators and the methods of the documentation,
and the arrays of real numbers that they stand for.

A program stands for an array with three dimensions: at row `i` and column `j` there is a vector, whose component `k` is
`p.val data i j k`; a vector of dimension 1 is constant, so that it can be combined with vectors of any dimension.
-/

namespace Verif.Spec
open Finset

/-- The operators of Python. -/
inductive PyOp
  | add | sub | mul | div | dot | pow | lt | gt | le | ge | eq | ne
deriving DecidableEq

/-- The methods without argument: `-x`, `x.abs()`, `x.exp()`, …; `sum`, `min`, `max`, `argmin` and `argmax` are those
along the last axis (`axis=-1`); `norm2` is also `norm(-1)`. -/
inductive PyM1
  | neg | abs | exp | log | xlogx | cos | sin | sinxdivx | asin | acos | atan | sqrt | rsqrt | square | sign | step
  | relu | sqnorm2 | norm2 | normalize | sum | min | max | argmin | argmax
deriving DecidableEq

/-- The methods whose arguments are integers: `x.round(d)`, `x.elem(i)`, `x.extract(i,d)`, `x[i]`, `x[a:b]` (`none` for a
missing bound), `x.one_hot(D)`. -/
inductive PyMi
  | round (d : Int)
  | elem (i : Int)
  | extract (i d : Int)
  | get (i : Int)
  | slice (a b : Option Int)
  | oneHot (D : Nat)
deriving DecidableEq

/-- The methods with one argument. -/
inductive PyM2
  | atan2 | sqdist | weightedsqnorm | concat | matvecmult | vecmatmult | tensorprod
deriving DecidableEq

/-- The methods with two arguments. -/
inductive PyM3
  | clamp | ifelse | mod | weightedsqdist
deriving DecidableEq

/-- Programs.

* `int n`: a Python integer;
* `float id src q`: a Python number of value `q`, written as a list with one element in the object `id` when it is turned
  into a lazy tensor; `src` names the contents of this list;
* `list id src len`: a list of `len` numbers;
* `array id src shape`: an array (not turned into a lazy tensor by the user);
* `lazy id src shape axis`: `LazyTensor(x, axis)`; `Vi(x)` and `Vj(x)` are those with `axis` 0 and 1, `Pm(x)` those with
  a vector and `axis` 2;
* `t fresh x`: `x.t()`; `fresh k` is the identity of the view of the `k`-th array of `x` that it makes. -/
inductive PyE
  | int (n : Int)
  | float (id src : Nat) (q : ℚ)
  | list (id src len : Nat)
  | array (id src : Nat) (shape : List Nat)
  | lazy (id src : Nat) (shape : List Nat) (axis : Option Nat)
  | m1 (m : PyM1) (x : PyE)
  | mi (m : PyMi) (x : PyE)
  | op (o : PyOp) (x y : PyE)
  | m2 (m : PyM2) (x y : PyE)
  | m3 (m : PyM3) (x y z : PyE)
  | t (fresh : Nat → Nat) (x : PyE)

/-! ## Dimensions -/

/-- The dimension of the vectors `m(x)`, for vectors of dimension `d`. -/
def PyM1.dim : PyM1 → Nat → Nat
  | .sqnorm2, _ | .norm2, _ | .sum, _ | .min, _ | .max, _ | .argmin, _ | .argmax, _ => 1
  | _, d => d

/-- The same, for the methods whose arguments are integers. -/
def PyMi.dim : PyMi → Nat → Nat
  | .round _, d => d
  | .elem _, _ | .get _, _ => 1
  | .extract _ d, _ => d.toNat
  | .slice a b, d => (b.getD d - a.getD 0).toNat
  | .oneHot D, _ => D

/-- The same, for the operators. -/
def PyOp.dim : PyOp → Nat → Nat → Nat
  | .dot, _, _ => 1
  | _, d, d' => Nat.max d d'

/-- The same, for the methods with one argument. -/
def PyM2.dim : PyM2 → Nat → Nat → Nat
  | .atan2, d, d' => Nat.max d d'
  | .sqdist, _, _ | .weightedsqnorm, _, _ => 1
  | .concat, d, d' => d + d'
  | .matvecmult, d, d' => d / d'
  | .vecmatmult, d, d' => d' / d
  | .tensorprod, d, d' => d * d'

/-- The same, for the methods with two arguments. -/
def PyM3.dim : PyM3 → Nat → Nat → Nat → Nat
  | .weightedsqdist, _, _, _ => 1
  | _, d, d', d'' => Nat.max (Nat.max d d') d''

/-- The dimension of the vectors of a program. -/
def PyE.dim : PyE → Nat
  | .int _ | .float _ _ _ => 1
  | .list _ _ len => len
  | .array _ _ shape | .lazy _ _ shape _ => shape.getLastD 1
  | .m1 m x => m.dim x.dim
  | .mi m x => m.dim x.dim
  | .op o x y => o.dim x.dim y.dim
  | .m2 m x y => m.dim x.dim y.dim
  | .m3 m x y z => m.dim x.dim y.dim z.dim
  | .t _ x => x.dim

/-! ## Values -/

/-- `Σ_k x_k²`. -/
def sqLen (d : Nat) (x : Vec) : ℝ := ∑ k ∈ range d, x k ^ 2

/-- The squared norm of a vector of dimension `d` for the weights `s`: a number (`ds = 1`), the entries of a diagonal
matrix (`ds = d`) or the entries of a matrix. -/
def wSqLen (ds d : Nat) (s x : Vec) : ℝ :=
  if ds = 1 then s 0 * sqLen d x
  else if ds = d then ∑ k ∈ range d, s k * x k ^ 2
  else ∑ k ∈ range d, ∑ l ∈ range d, s (k * d + l) * (x k * x l)

/-- The vector `m(x)`. -/
noncomputable def PyM1.val : PyM1 → (d : Nat) → Vec → Vec
  | .neg, _, x => fun k => -x k
  | .abs, _, x => fun k => |x k|
  | .exp, _, x => fun k => Real.exp (x k)
  | .log, _, x => fun k => Real.log (x k)
  | .xlogx, _, x => fun k => x k * Real.log (x k)
  | .cos, _, x => fun k => Real.cos (x k)
  | .sin, _, x => fun k => Real.sin (x k)
  | .sinxdivx, _, x => fun k => Real.sinc (x k)
  | .asin, _, x => fun k => Real.arcsin (x k)
  | .acos, _, x => fun k => Real.arccos (x k)
  | .atan, _, x => fun k => Real.arctan (x k)
  | .sqrt, _, x => fun k => Real.sqrt (x k)
  | .rsqrt, _, x => fun k => 1 / Real.sqrt (x k)
  | .square, _, x => fun k => x k ^ 2
  | .sign, _, x => fun k => Real.sign (x k)
  | .step, _, x => fun k => ind (0 ≤ x k)
  | .relu, _, x => fun k => Max.max (x k) 0
  | .sqnorm2, d, x => fun _ => sqLen d x
  | .norm2, d, x => fun _ => Real.sqrt (sqLen d x)
  | .normalize, d, x => fun k => x k / Real.sqrt (sqLen d x)
  | .sum, d, x => fun _ => ∑ k ∈ range d, x k
  | .min, d, x => fun _ => x (argMin d x)
  | .max, d, x => fun _ => x (argMax d x)
  | .argmin, d, x => fun _ => argMin d x
  | .argmax, d, x => fun _ => argMax d x

/-- The same, for the methods whose arguments are integers. -/
noncomputable def PyMi.val : PyMi → (d : Nat) → Vec → Vec
  | .round n, _, x => fun k => roundAway (x k * 10 ^ n) / 10 ^ n
  | .elem i, _, x | .get i, _, x => fun _ => x i.toNat
  | .extract i d, _, x => cst d.toNat fun k => x (i.toNat + k)
  | .slice a b, d, x => cst (b.getD d - a.getD 0).toNat fun k => x ((a.getD 0).toNat + k)
  | .oneHot D, _, x => cst D fun k => ind ((k : ℤ) = trunc (x 0 + 1 / 2))

/-- The same, for the operators other than `**`. -/
noncomputable def PyOp.val : PyOp → (d d' : Nat) → Vec → Vec → Vec
  | .add, _, _, x, y => fun k => x k + y k
  | .sub, _, _, x, y => fun k => x k - y k
  | .mul, _, _, x, y => fun k => x k * y k
  | .div, _, _, x, y => fun k => x k / y k
  | .dot, d, d', x, y => fun _ => ∑ k ∈ range (Max.max d d'), x k * y k
  | .pow, _, _, x, y => fun k => x k ^ y k
  | .lt, _, _, x, y => fun k => ind (x k < y k)
  | .gt, _, _, x, y => fun k => ind (x k > y k)
  | .le, _, _, x, y => fun k => ind (x k ≤ y k)
  | .ge, _, _, x, y => fun k => ind (x k ≥ y k)
  | .eq, _, _, x, y => fun k => ind (x k = y k)
  | .ne, _, _, x, y => fun k => ind (x k ≠ y k)

/-- The same, for the methods with one argument: `x.atan2(y)` is the angle of the point `(y, x)`; the matrices of
`x.matvecmult(y)` and `x.vecmatmult(y)` are given by rows. -/
noncomputable def PyM2.val : PyM2 → (d d' : Nat) → Vec → Vec → Vec
  | .atan2, _, _, x, y => fun k => Complex.arg ⟨y k, x k⟩
  | .sqdist, d, d', x, y => fun _ => sqLen (Max.max d d') fun k => x k - y k
  | .weightedsqnorm, d, d', x, s => fun _ => wSqLen d' d s x
  | .concat, d, d', x, y => cst (d + d') fun k => if k < d then x k else y (k - d)
  | .matvecmult, d, d', x, y => cst (d / d') fun i => ∑ k ∈ range d', x (i * d' + k) * y k
  | .vecmatmult, d, d', x, y => cst (d' / d) fun i => ∑ k ∈ range d, x k * y (k * (d' / d) + i)
  | .tensorprod, d, d', x, y => cst (d * d') fun q => x (q / d') * y (q % d')

/-- The same, for the methods with two arguments. -/
noncomputable def PyM3.val : PyM3 → (d d' d'' : Nat) → Vec → Vec → Vec → Vec
  | .clamp, _, _, _, x, a, b => fun k => if x k < a k then a k else if b k < x k then b k else x k
  | .ifelse, _, _, _, x, a, b => fun k => if 0 ≤ x k then a k else b k
  | .mod, _, _, _, x, n, d => fun k => x k - n k * ⌊(x k - d k) / n k⌋
  | .weightedsqdist, d, d', ds, x, y, s => fun _ => wSqLen ds (Max.max d d') s fun k => x k - y k

/-- The row of an array of category `cat` that is read at `(i, j)`. -/
def rowIJ (cat i j : Nat) : Nat := if cat = 0 then i else if cat = 1 then j else 0

/-- The vector of dimension `d` that is read at `(i, j)` in an array of category `cat`, whose entries are `x 0`, `x 1`, … -/
def readVec (x : Nat → ℝ) (d cat i j : Nat) : Vec := cst d fun k => x (rowIJ cat i j * d + k)

/-- The vector at `(i, j)` of a program; `data src` are the entries of the array `src`, row after row. -/
noncomputable def PyE.val (data : Nat → Nat → ℝ) : PyE → (i j : Nat) → Vec
  | .int n, _, _ => fun _ => n
  | .float _ _ q, _, _ => fun _ => q
  | .list _ src len, _, _ => cst len (data src)
  | .array _ src shape, i, j => readVec (data src) (shape.getLastD 1) (arrayCat shape none) i j
  | .lazy _ src shape axis, i, j => readVec (data src) (shape.getLastD 1) (arrayCat shape axis) i j
  | .m1 m x, i, j => m.val x.dim (x.val data i j)
  | .mi m x, i, j => m.val x.dim (x.val data i j)
  | .op .pow x (.int n), i, j => fun k => x.val data i j k ^ n
  | .op o x y, i, j => o.val x.dim y.dim (x.val data i j) (y.val data i j)
  | .m2 m x y, i, j => m.val x.dim y.dim (x.val data i j) (y.val data i j)
  | .m3 m x y z, i, j => m.val x.dim y.dim z.dim (x.val data i j) (y.val data i j) (z.val data i j)
  | .t _ x, i, j => x.val data j i

/-! ## Domains -/

/-- The vectors to which `m` applies. -/
def PyM1.Def : PyM1 → (d : Nat) → Vec → Prop
  | .log, d, x => ∀ k < d, 0 < x k
  | .xlogx, d, x | .sqrt, d, x => ∀ k < d, 0 ≤ x k
  | .rsqrt, d, x => ∀ k < d, 0 < x k
  | .asin, d, x | .acos, d, x => ∀ k < d, -1 ≤ x k ∧ x k ≤ 1
  | .normalize, d, x => sqLen d x ≠ 0
  | _, _, _ => True

/-- The same, for the methods whose arguments are integers. -/
def PyMi.Def : PyMi → (d : Nat) → Vec → Prop
  | .oneHot D, _, x => 0 ≤ trunc (x 0 + 1 / 2) ∧ trunc (x 0 + 1 / 2) < D
  | _, _, _ => True

/-- The same, for the operators; `D` is the dimension of the result. -/
def PyOp.Def : PyOp → (D : Nat) → Vec → Vec → Prop
  | .div, D, _, y => ∀ k < D, y k ≠ 0
  | .pow, D, x, _ => ∀ k < D, 0 < x k
  | _, _, _, _ => True

/-- The same, for the methods with one argument. -/
def PyM2.Def : PyM2 → (D : Nat) → Vec → Vec → Prop
  | .atan2, D, x, y => ∀ k < D, x k ≠ 0 ∨ y k ≠ 0
  | _, _, _, _ => True

/-- The same, for the methods with two arguments. -/
def PyM3.Def : PyM3 → (D : Nat) → Vec → Vec → Vec → Prop
  | .mod, D, _, n, _ => ∀ k < D, n k ≠ 0
  | _, _, _, _, _ => True

/-- No operation of the program is applied outside its domain at `(i, j)`. A power with a number which is not an integer
is defined for positive numbers, and `x ** 0.5`, where `0.5` is a Python number, also for 0. -/
def PyE.Def (data : Nat → Nat → ℝ) : PyE → (i j : Nat) → Prop
  | .int _, _, _ | .float _ _ _, _, _ | .list _ _ _, _, _ | .array _ _ _, _, _ | .lazy _ _ _ _, _, _ => True
  | .m1 m x, i, j => x.Def data i j ∧ m.Def x.dim (x.val data i j)
  | .mi m x, i, j => x.Def data i j ∧ m.Def x.dim (x.val data i j)
  | .op .pow x (.int n), i, j => x.Def data i j ∧ ∀ k < x.dim, n < 0 → x.val data i j k ≠ 0
  | .op .pow x (.float _ _ q), i, j => x.Def data i j ∧
      ∀ k < x.dim, 0 < x.val data i j k ∨ (0 ≤ x.val data i j k ∧ q = 1 / 2)
  | .op o x y, i, j => x.Def data i j ∧ y.Def data i j ∧
      o.Def (o.dim x.dim y.dim) (x.val data i j) (y.val data i j)
  | .m2 m x y, i, j => x.Def data i j ∧ y.Def data i j ∧
      m.Def (m.dim x.dim y.dim) (x.val data i j) (y.val data i j)
  | .m3 m x y z, i, j => x.Def data i j ∧ y.Def data i j ∧ z.Def data i j ∧
      m.Def (m.dim x.dim y.dim z.dim) (x.val data i j) (y.val data i j) (z.val data i j)
  | .t _ x, i, j => x.Def data j i

/-- The lists made from the numbers of the program contain these numbers. -/
def PyE.Holds (data : Nat → Nat → ℝ) : PyE → Prop
  | .float _ src q => data src 0 = q
  | .int _ | .list _ _ _ | .array _ _ _ | .lazy _ _ _ _ => True
  | .m1 _ x | .mi _ x | .t _ x => x.Holds data
  | .op _ x y | .m2 _ x y => x.Holds data ∧ y.Holds data
  | .m3 _ x y z => x.Holds data ∧ y.Holds data ∧ z.Holds data

/-- The dimensions of the arrays and lists are positive, and so are those asked by `one_hot`. -/
def PyE.Pos : PyE → Prop
  | .int _ | .float _ _ _ => True
  | .list _ _ len => 0 < len
  | .array _ _ shape | .lazy _ _ shape _ => 0 < shape.getLastD 1
  | .mi (.oneHot D) x => 0 < D ∧ x.Pos
  | .m1 _ x | .mi _ x | .t _ x => x.Pos
  | .op _ x y | .m2 _ x y => x.Pos ∧ y.Pos
  | .m3 _ x y z => x.Pos ∧ y.Pos ∧ z.Pos

/-- The number 0, as a Python integer or as another Python number. -/
def PyE.IsZero : PyE → Prop
  | .int n => n = 0
  | .float _ _ q => q = 0
  | _ => False

/-- No lazy tensor is multiplied by the number 0, and the number 0 is not divided by a lazy tensor. -/
def PyE.NoZero : PyE → Prop
  | .int _ | .float _ _ _ | .list _ _ _ | .array _ _ _ | .lazy _ _ _ _ => True
  | .m1 _ x | .mi _ x | .t _ x => x.NoZero
  | .op .mul x y => ¬ x.IsZero ∧ ¬ y.IsZero ∧ x.NoZero ∧ y.NoZero
  | .op .div x y => ¬ x.IsZero ∧ x.NoZero ∧ y.NoZero
  | .op _ x y | .m2 _ x y => x.NoZero ∧ y.NoZero
  | .m3 _ x y z => x.NoZero ∧ y.NoZero ∧ z.NoZero

/-- A program that is a lazy tensor: it is neither a number nor a list nor an array. -/
def PyE.IsLazy : PyE → Prop
  | .int _ | .float _ _ _ | .list _ _ _ | .array _ _ _ => False
  | _ => True

/-- The arguments of `concat`, `matvecmult`, `vecmatmult` and `tensorprod` are lazy tensors, and the sizes of matrices
are multiples of the sizes of the vectors by which they are multiplied. -/
def PyE.LazyArgs : PyE → Prop
  | .int _ | .float _ _ _ | .list _ _ _ | .array _ _ _ | .lazy _ _ _ _ => True
  | .m1 _ x | .mi _ x | .t _ x => x.LazyArgs
  | .op _ x y => x.LazyArgs ∧ y.LazyArgs
  | .m2 m x y => x.LazyArgs ∧ y.LazyArgs ∧
      (m = .concat ∨ m = .matvecmult ∨ m = .vecmatmult ∨ m = .tensorprod → y.IsLazy) ∧
      (m = .matvecmult → y.dim ∣ x.dim) ∧ (m = .vecmatmult → x.dim ∣ y.dim)
  | .m3 _ x y z => x.LazyArgs ∧ y.LazyArgs ∧ z.LazyArgs

end Verif.Spec
