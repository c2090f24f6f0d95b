import Mathlib.Order.Notation
import Verif.Model.Mem

/-!
# Reductions

Model of `keopscore/keopscore/formulas/reductions/*.py`.  Every method of a
reduction class returns a piece of C++ code acting on flat buffers; here it is the
state transformer this code implements.  All numbers of an accumulator, including
the indices of the arg-reductions, live in one buffer of the floating point type
`V`; the conversion of an index to `V` is the parameter `cast` (see C47 for its
exactness).

Half precision (`half2`) branches, which raise or use packed arithmetic, are not
modelled here.  Casts between the accumulation type and the data type are the
identity (exact arithmetic).
-/

namespace Verif

/-- What a reduction class provides to the map-reduce schemes
(`reductions/Reduction.py:5-43` for the defaults).
`none` in `pair`/`kahan` means that generating the code raises a Python exception. -/
structure Red (V : Type) where
  /-- `formula.dim` -/
  dimF : Nat
  /-- dimension of the accumulator -/
  dimred : Nat
  /-- dimension of the output -/
  dim : Nat
  /-- `InitializeReduction(acc)`; the argument is the uninitialised buffer -/
  init : Mem V → Mem V
  /-- `ReducePairShort(acc, xi, ind)` -/
  short : Mem V → Mem V → Nat → Mem V
  /-- `ReducePair(acc, xi)` -/
  pair : Option (Mem V → Mem V → Mem V)
  /-- `tmp_acc.assign(c_zero_float)` on `dim_kahan` entries (`sum_schemes.py:77-80`) and
  `KahanScheme(acc, xi, tmp)`, returning the new `(acc, tmp)` -/
  kahan : Option ((Mem V → Mem V) × (Mem V → Mem V → Mem V → Mem V × Mem V))
  /-- `FinalizeOutput(acc, out, i)`: `fin acc out` -/
  fin : Mem V → Mem V → Mem V

section
variable {V : Type}

/-! ## Sum -/

/-- `Sum_Reduction.KahanScheme`, `reductions/Sum_Reduction.py:31-40`. -/
def sumKahan [Add V] [Sub V] (d : Nat) (acc xi tmp : Mem V) : Mem V × Mem V :=
  forRange d (fun k (s : Mem V × Mem V) =>
    let a := xi k - s.2 k
    let b := s.1 k + a
    let tmp := s.2.set k ((b - s.1 k) - a)
    let acc := s.1.set k b
    (acc, tmp)) (acc, tmp)

/-- `Sum_Reduction`, `reductions/Sum_Reduction.py:10-50`; the default `ReducePair`,
`ReducePairShort` and `FinalizeOutput` come from `reductions/Reduction.py:22-40`. -/
def sumRed [Zero V] [Add V] [Sub V] (d : Nat) : Red V where
  dimF := d
  dimred := d
  dim := d
  init := fun acc => vectFill d acc 0
  short := fun acc xi _ => vectApply d (fun a x => a + x) acc xi
  pair := some (fun acc xi => vectApply d (fun a x => a + x) acc xi)
  kahan := some (fun tmp => vectFill d tmp 0, sumKahan d)
  fin := fun acc out => vectCopy d out acc

/-! ## Min and Max -/

/-- `Min_Reduction`, `reductions/Min_Reduction.py:6-27`.  `⊤` is `infinity(dtype)`. -/
def minRed [LT V] [DecidableLT V] [Top V] (d : Nat) : Red V where
  dimF := d
  dimred := d
  dim := d
  init := fun acc => vectFill d acc ⊤
  short := fun acc xi _ => vectApply d (fun a x => if x < a then x else a) acc xi
  pair := some (fun acc xi => vectApply d (fun a x => if x < a then x else a) acc xi)
  kahan := none
  fin := fun acc out => vectCopy d out acc

/-- `Max_Reduction`, `reductions/Max_Reduction.py:6-27`.  `⊥` is `neg_infinity(dtype)`. -/
def maxRed [LT V] [DecidableLT V] [Bot V] (d : Nat) : Red V where
  dimF := d
  dimred := d
  dim := d
  init := fun acc => vectFill d acc ⊥
  short := fun acc xi _ => vectApply d (fun a x => if a < x then x else a) acc xi
  pair := some (fun acc xi => vectApply d (fun a x => if a < x then x else a) acc xi)
  kahan := none
  fin := fun acc out => vectCopy d out acc

/-! ## ArgMin and ArgMax -/

/-- The pointer `p + off`: apply a transformer of the sub-buffer starting at `off`. `c_array.split`,
`utils/code_gen_utils.py:346-354`; `MapReduce.py:77`. -/
def onSlice (off : Nat) (f : Mem V → Mem V) (m : Mem V) : Mem V :=
  fun p => if off ≤ p then f (fun k => m (off + k)) (p - off) else m p

/-- `Min_ArgMin_Reduction_Base.InitializeReduction`,
`reductions/Min_ArgMin_Reduction_Base.py:21-25`: values to infinity, indices to 0. -/
def minArgInit [Top V] (cast : Nat → V) (d : Nat) (acc : Mem V) : Mem V :=
  onSlice d (fun ind => vectFill d ind (cast 0)) (vectFill d acc ⊤)

/-- `Min_ArgMin_Reduction_Base.ReducePairShort`,
`reductions/Min_ArgMin_Reduction_Base.py:27-31,40-49`. -/
def minArgShort [LT V] [DecidableLT V] (cast : Nat → V) (d : Nat) (acc xi : Mem V) (ind : Nat) :
    Mem V :=
  forRange d (fun k acc =>
    if xi k < acc k then (acc.set k (xi k)).set (d + k) (cast ind) else acc) acc

/-- The three min-arg reductions.  `ReducePair` calls the four-argument method
`ReducePairScalar` with three arguments
(`reductions/Min_ArgMin_Reduction_Base.py:27,33-38`), so that generating it raises a
`TypeError`: `pair := none`.  `Min_ArgMin_Reduction.py:7-19`, `ArgMin_Reduction.py:8-27`. -/
def minArgMinRed [LT V] [DecidableLT V] [Top V] (cast : Nat → V) (d : Nat) : Red V where
  dimF := d
  dimred := 2 * d
  dim := 2 * d
  init := minArgInit cast d
  short := minArgShort cast d
  pair := none
  kahan := none
  fin := fun acc out => vectCopy (2 * d) out acc

/-- `ArgMin_Reduction`, `reductions/ArgMin_Reduction.py:8-27`. -/
def argMinRed [LT V] [DecidableLT V] [Top V] (cast : Nat → V) (d : Nat) : Red V where
  dimF := d
  dimred := 2 * d
  dim := d
  init := minArgInit cast d
  short := minArgShort cast d
  pair := none
  kahan := none
  fin := fun acc out => vectCopy d out (fun k => acc (d + k))

/-- `Max_ArgMax_Reduction_Base.InitializeReduction`,
`reductions/Max_ArgMax_Reduction_Base.py:21-25`. -/
def maxArgInit [Bot V] (cast : Nat → V) (d : Nat) (acc : Mem V) : Mem V :=
  onSlice d (fun ind => vectFill d ind (cast 0)) (vectFill d acc ⊥)

/-- `Max_ArgMax_Reduction_Base.ReducePairShort`,
`reductions/Max_ArgMax_Reduction_Base.py:27-31,40-49`. -/
def maxArgShort [LT V] [DecidableLT V] (cast : Nat → V) (d : Nat) (acc xi : Mem V) (ind : Nat) :
    Mem V :=
  forRange d (fun k acc =>
    if acc k < xi k then (acc.set k (xi k)).set (d + k) (cast ind) else acc) acc

/-- `Max_ArgMax_Reduction`, `reductions/Max_ArgMax_Reduction.py:7-19`. -/
def maxArgMaxRed [LT V] [DecidableLT V] [Bot V] (cast : Nat → V) (d : Nat) : Red V where
  dimF := d
  dimred := 2 * d
  dim := 2 * d
  init := maxArgInit cast d
  short := maxArgShort cast d
  pair := none
  kahan := none
  fin := fun acc out => vectCopy (2 * d) out acc

/-- `ArgMax_Reduction`, `reductions/ArgMax_Reduction.py:8-27`. -/
def argMaxRed [LT V] [DecidableLT V] [Bot V] (cast : Nat → V) (d : Nat) : Red V where
  dimF := d
  dimred := 2 * d
  dim := d
  init := maxArgInit cast d
  short := maxArgShort cast d
  pair := none
  kahan := none
  fin := fun acc out => vectCopy d out (fun k => acc (d + k))

/-! ## KMin -/

/-- `KMin_ArgKMin_Reduction.InitializeReduction`,
`reductions/KMin_ArgKMin_Reduction.py:34-45`. -/
def kminInit [Top V] (cast : Nat → V) (fdim K : Nat) (acc : Mem V) : Mem V :=
  forRange fdim (fun k acc =>
    forStride k (2 * fdim) K (fun l acc => (acc.set l ⊤).set (l + fdim) (cast 0)) acc) acc

/-- Inner loop of `ReducePairShort`, `reductions/KMin_ArgKMin_Reduction.py:88-97`:
`for(l=k+(K-1)*2*fdim; l>=k && xik<acc[l]; l-=2*fdim)`.  The first argument is the
number of cells still below: `l = k + c*2*fdim` in case `c+1`, and `l < k` in case 0.
The cast of the displaced index to `signed long int` (line 79) is the identity. -/
def kminIns [LT V] [DecidableLT V] (fdim K k : Nat) (xik ind : V) : Nat → Mem V → Mem V
  | 0, acc => acc
  | c + 1, acc =>
    let l := k + c * (2 * fdim)
    if xik < acc l then
      let tmpl := acc l
      let indtmpl := acc (l + fdim)
      let acc := acc.set l xik
      let acc := acc.set (l + fdim) ind
      let acc :=
        if l < k + 2 * fdim * (K - 1) then
          (acc.set (l + 2 * fdim) tmpl).set (l + 2 * fdim + fdim) indtmpl
        else acc
      kminIns fdim K k xik ind c acc
    else acc

/-- `ReducePairShort`, `reductions/KMin_ArgKMin_Reduction.py:71-100`. -/
def kminShort [LT V] [DecidableLT V] (cast : Nat → V) (fdim K : Nat) (acc xi : Mem V) (ind : Nat) :
    Mem V :=
  forRange fdim (fun k acc => kminIns fdim K k (xi k) (cast ind) K acc) acc

/-- `ReducePair`, `reductions/KMin_ArgKMin_Reduction.py:47-69`.  The local array `out`
is uninitialised in C++; here it starts as a copy of `acc` (all its cells are
overwritten, see `kminPair_out_irrelevant`). -/
def kminPairFrom [LT V] [DecidableLT V] (fdim K : Nat) (out0 acc xi : Mem V) : Mem V :=
  let out := forRange fdim (fun k out =>
    (forStride k (2 * fdim) K (fun l (s : Mem V × Nat × Nat) =>
      let (out, p, q) := s
      if xi p < acc q then
        ((out.set l (xi p)).set (l + fdim) (xi (p + fdim)), p + 2 * fdim, q)
      else
        ((out.set l (acc q)).set (l + fdim) (acc (q + fdim)), p, q + 2 * fdim))
      (out, k, k)).1) out0
  forRange (2 * K * fdim) (fun k acc => acc.set k (out k)) acc

/-- `KMin_ArgKMin_Reduction`, `reductions/KMin_ArgKMin_Reduction.py:16-100`. -/
def kminArgKminRed [LT V] [DecidableLT V] [Top V] (cast : Nat → V) (fdim K : Nat) : Red V where
  dimF := fdim
  dimred := 2 * K * fdim
  dim := 2 * K * fdim
  init := kminInit cast fdim K
  short := kminShort cast fdim K
  pair := some (fun acc xi => kminPairFrom fdim K acc acc xi)
  kahan := none
  fin := fun acc out => vectCopy (2 * K * fdim) out acc

/-- `KMin_Reduction.FinalizeOutput`, `reductions/KMin_Reduction.py:24-31`. -/
def kminFin (fdim K : Nat) (acc out : Mem V) : Mem V :=
  forRange fdim (fun k out =>
    (forStride k (2 * fdim) K (fun l (s : Mem V × Nat) =>
      (s.1.set s.2 (acc l), s.2 + fdim)) (out, k)).1) out

/-- `ArgKMin_Reduction.FinalizeOutput`, `reductions/ArgKMin_Reduction.py:21-31`. -/
def argKminFin (fdim K : Nat) (acc out : Mem V) : Mem V :=
  forRange fdim (fun k out =>
    (forStride k (2 * fdim) K (fun l (s : Mem V × Nat) =>
      (s.1.set s.2 (acc (l + fdim)), s.2 + fdim)) (out, k)).1) out

/-- `KMin_Reduction`, `reductions/KMin_Reduction.py:13-31`. -/
def kminRed [LT V] [DecidableLT V] [Top V] (cast : Nat → V) (fdim K : Nat) : Red V where
  dimF := fdim
  dimred := 2 * K * fdim
  dim := K * fdim
  init := kminInit cast fdim K
  short := kminShort cast fdim K
  pair := some (fun acc xi => kminPairFrom fdim K acc acc xi)
  kahan := none
  fin := kminFin fdim K

/-- `ArgKMin_Reduction`, `reductions/ArgKMin_Reduction.py:10-37`. -/
def argKminRed [LT V] [DecidableLT V] [Top V] (cast : Nat → V) (fdim K : Nat) : Red V where
  dimF := fdim
  dimred := 2 * K * fdim
  dim := K * fdim
  init := kminInit cast fdim K
  short := kminShort cast fdim K
  pair := some (fun acc xi => kminPairFrom fdim K acc acc xi)
  kahan := none
  fin := argKminFin fdim K

/-! ## Log-sum-exp accumulators -/

/-- Floating point operations used by the log-sum-exp reduction. -/
class ExpNum (V : Type) where
  negInf : V
  zero : V
  gt : V → V → Bool
  add : V → V → V
  sub : V → V → V
  mul : V → V → V
  exp : V → V

open ExpNum in
/-- `Max_SumShiftExpWeight_Reduction.ReducePair`,
`reductions/Max_SumShiftExpWeight_Reduction.py:42-61`; `dimred = 1 + dG`. -/
def lsePair [ExpNum V] (dG : Nat) (acc xi : Mem V) : Mem V :=
  if gt (acc 0) (xi 0) then
    let tmpexp := exp (sub (xi 0) (acc 0))
    forStride 1 1 dG (fun k acc => acc.set k (add (acc k) (mul (xi k) tmpexp))) acc
  else
    let tmpexp := exp (sub (acc 0) (xi 0))
    (forStride 1 1 dG (fun k acc => acc.set k (add (xi k) (mul tmpexp (acc k)))) acc).set 0 (xi 0)

open ExpNum in
/-- `KahanScheme`, `reductions/Max_SumShiftExpWeight_Reduction.py:66-87`. -/
def lseKahan [ExpNum V] (dG : Nat) (acc xi tmp : Mem V) : Mem V × Mem V :=
  if gt (acc 0) (xi 0) then
    let tmpexp := exp (sub (xi 0) (acc 0))
    forStride 1 1 dG (fun k (s : Mem V × Mem V) =>
      let a := sub (mul (xi k) tmpexp) (s.2 (k - 1))
      let b := add (s.1 k) a
      (s.1.set k b, s.2.set (k - 1) (sub (sub b (s.1 k)) a))) (acc, tmp)
  else
    let tmpexp := exp (sub (acc 0) (xi 0))
    let s := forStride 1 1 dG (fun k (s : Mem V × Mem V) =>
      let u := mul tmpexp (s.1 k)
      let a := sub (xi k) (mul tmpexp (s.2 (k - 1)))
      let b := add u a
      (s.1.set k b, s.2.set (k - 1) (sub (sub b u) a))) (acc, tmp)
    (s.1.set 0 (xi 0), s.2)

open ExpNum in
/-- `Max_SumShiftExpWeight_Reduction(F, tag, G)` with `G.dim = dG`,
`reductions/Max_SumShiftExpWeight_Reduction.py:16-87`.  The class defines no
`dim_kahan`, so the Kahan scheme (`sum_schemes.py:77`) raises: `kahan := none`.
The scheme itself is modelled by `lseKahan`. -/
def lseRed [ExpNum V] (dG : Nat) : Red V where
  dimF := 1 + dG
  dimred := 1 + dG
  dim := 1 + dG
  init := fun acc => onSlice 1 (fun s => vectFill dG s zero) (acc.set 0 negInf)
  short := fun acc xi _ => lsePair dG acc xi
  pair := some (lsePair dG)
  kahan := none
  fin := fun acc out => vectCopy (1 + dG) out acc

end

end Verif
