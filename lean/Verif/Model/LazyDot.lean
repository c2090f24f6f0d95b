import Verif.Model.Tensor
import Verif.Model.Parse

/-!
# `keops_tensordot` and `keops_kron` of lazy tensors

The two methods of lazy tensors that give contractions: the text of the optional arguments, the dimension that is
announced, and what they refuse. Only the dimension, the formula and whether the values are complex are kept of a lazy
tensor (see `Model/Lazy.lean` and `Model/LazyShape.lean` for the rest).

Simplification: the products and the quotient computed by NumPy are exact.
-/

namespace Verif.LazyDot

open Alias (Str)

/-- What is kept of a lazy tensor. `common/lazy_tensor.py:30-80`. -/
structure LT where
  formula : Str
  ndim : Nat
  isC : Bool
deriving DecidableEq, Repr

/-- The exceptions. -/
inductive Fail
  | value | type | index | number
deriving DecidableEq, Repr

/-- The kinds of optional arguments: an integer, or a tuple or list of integers. -/
inductive Arg
  | int (n : Int)
  | seq (l : List Int)
deriving DecidableEq, Repr

/-- `intseq` after the conversion of integers. `common/lazy_tensor.py:1838-1839`. -/
def Arg.toList : Arg → List Int
  | .int n => [n]
  | .seq l => l

/-- `f"{item}"`. -/
def intText : Int → Str
  | .ofNat n => Nat.toDigits 10 n
  | .negSucc n => '-' :: Nat.toDigits 10 (n + 1)

/-- The body of the outer loop. `common/lazy_tensor.py:1836-1843,1898-1907`. -/
def addArg (acc : Str) (l : List Int) : Str :=
  let acc := acc ++ ['[']
  let acc := l.foldl (fun acc n => acc ++ (intText n ++ [','])) acc
  let acc := if l.length ≠ 0 then acc.dropLast else acc
  acc ++ "], ".toList

/-- `opt_arg`. `common/lazy_tensor.py:1835-1844,1897-1908`. -/
def optArg (args : List (List Int)) : Str :=
  let acc := args.foldl addArg []
  acc.take (acc.length - 2)

/-- `binary(other, operation, dimres=dimres, dimcheck=None, opt_arg=opt_arg)` for real or complex lazy tensors.
`common/lazy_tensor.py:493-494,503-505,537-553`. -/
def binary (s other : LT) (operation : Str) (dimres : Nat) (opt : Str) : LT :=
  let dimres := if dimres = 0 then max s.ndim other.ndim else dimres
  ⟨operation ++ '(' :: s.formula ++ ", ".toList ++ other.formula ++ ", ".toList ++ opt ++ [')'], dimres,
    s.isC || other.isC⟩

/-- `np.array(dimfa)[np.array(contfa)].prod()` for a `contfa` that is not empty: `dimfa` cannot be an integer.
`common/lazy_tensor.py:1846`. -/
def contProd (dimfa : Arg) (contfa : List Int) : Except Fail Int :=
  match dimfa with
  | .int _ => .error .index
  | .seq l =>
    match TensorDot.select l contfa with
    | none => .error .index
    | some c => .ok c.prod

/-- The quotient `int(dimres)`; NumPy divides by 0, then `int` raises. `common/lazy_tensor.py:1845-1848`. -/
def dimres (dimfa dimfb contfa : Arg) : Except Fail Nat :=
  let p := dimfa.toList.prod * dimfb.toList.prod
  match contfa with
  | .int _ => .error .type
  | .seq [] => .ok p.toNat
  | .seq c => do
    let q ← contProd dimfa c
    if q = 0 then .error .number else .ok (p / q ^ 2).toNat

/-- The second operand: a lazy tensor, or an array with its number of axes, given with the lazy tensor that `binary` makes of
it. `common/lazy_tensor.py:489-491`. -/
inductive Other
  | lazy (x : LT)
  | array (axes : Nat) (x : LT)
deriving DecidableEq, Repr

/-- The lazy tensor. `common/lazy_tensor.py:489-491`. -/
def Other.lt : Other → LT
  | .lazy x => x
  | .array _ x => x

/-- `is_complex_lazytensor(other)`: false for arrays. `common/lazy_tensor.py:26-27`. -/
def Other.isC : Other → Bool
  | .lazy x => x.isC
  | .array _ _ => false

/-- `other.ndim`: the number of axes of an array. -/
def Other.ndim : Other → Nat
  | .lazy x => x.ndim
  | .array n _ => n

/-- `keops_tensordot`, which is redefined for complex lazy tensors. `common/lazy_tensor.py:1816-1849,2818-2819`. -/
def tensordot (s : LT) (other : Other) (dimfa dimfb contfa contfb : Arg) (args : List Arg) : Except Fail LT :=
  if s.isC then .error .value else
  if other.isC then .error .value else do
  let opt := optArg (([dimfa, dimfb, contfa, contfb] ++ args).map Arg.toList)
  let d ← dimres dimfa dimfb contfa
  .ok (binary s other.lt "TensorDot".toList d opt)

/-- `keops_kron`, which is not redefined for complex lazy tensors; an exception for integers.
`common/lazy_tensor.py:1851,1893-1916`. -/
def kron (s : LT) (other : Other) (dimfself dimfother : Arg) : Except Fail LT :=
  if other.isC then .error .value else
  match dimfself, dimfother with
  | .seq a, .seq b => .ok (binary s other.lt "Kron".toList (other.ndim * s.ndim) (optArg [a, b]))
  | _, _ => .error .value

end Verif.LazyDot
