import Verif.Model.MethodsRed
import Verif.Model.Exec
import Verif.Model.FormulaCall
import Verif.Model.Cg

/-!
# Linear systems written with lazy tensors

Models of `solve` and of the part of `__call__` which concerns it, `pykeops/common/lazy_tensor.py`, and of the class
`KernelSolve`, `pykeops/numpy/operations.py` and `pykeops/torch/operations.py`.  The options are in
`Model/LazyCall.lean`, the conjugate gradient is in `Model/Cg.lean`.

Simplifications.  The keyword argument `var` of `solve` is `None`.  Exceptions are `none`.
-/

namespace Verif.Lazy
open Alias (Str)
open Spec (LExpr)

/-- `_dtype is not None`: it is set by arrays (not by lists of numbers, integers and symbolic variables) and kept by the
operations. `common/lazy_tensor.py:62,165-166,240,361-381,390,407-420`. -/
def LazyT.hasDtype (L : LazyT) : Bool := L.tensors.any fun a => !a.isList

/-- What `solve` stores in the lazy tensor that it returns, or calls: the formula and the variables (`res`), the formula of
the unknown (`varformula`), the axis of the reduction and the second member (`other`).
`common/lazy_tensor.py:847-881`. -/
structure Solve where
  res : LazyT
  varformula : Str
  axis : Nat
  other : LazyT

/-- `self.solve(other)`, where `self` is the lazy tensor of `e` and `other` the one of `o`.  If `other.axis` is `None`,
`1 - other.axis` raises an exception; if it is 2, `axis2cat` raises an exception later (here at once).
`common/lazy_tensor.py:839-881`; `common/utils.py:11-21`. -/
def solve (e o : LExpr) : Option Solve :=
  (eval e).bind fun L => (eval o).bind fun B =>
    if B.symb = [] ∧ L.symb ≠ [] then none
    else B.axis.bind fun a =>
      if 2 ≤ a then none
      else
        let axis := 1 - a
        let varindex := newIndex L.symb
        (mul e (.lazy (.symb varindex B.ndim axis))).bind fun v =>
          match v with
          | .lazy e' => (eval e').map fun R =>
            ⟨R, replaceStr "VarSymb".toList "Var".toList (mkSymb varindex B.ndim axis).formula, axis, B⟩
          | _ => none

/-- `other`, when it is not a lazy tensor: an array, which gets `axis=0`. `common/lazy_tensor.py:839-842`. -/
def otherOf : Val → Option LExpr
  | .lazy o => some o
  | .array id src shape => some (.array id src shape (some 0))
  | _ => none

/-- `s.strip()`, for spaces at both ends. `numpy/operations.py:172`, `torch/operations.py:328`. -/
def stripEnds (s : Str) : Str := ((s.dropWhile (· = ' ')).reverse.dropWhile (· = ' ')).reverse

/-- `s[: s.find("=")]`: without `=`, `find` gives -1 and the last character is dropped.  `numpy/operations.py:172`,
`torch/operations.py:328`. -/
def beforeEq (s : Str) : Str := if '=' ∈ s then s.takeWhile (· ≠ '=') else s.dropLast

/-- `varinvpos`: the position of the unknown among the arguments, from the argument `varinvalias`, which is `None` in one
of the calls (then `varinvalias[:4]` raises an exception).  `numpy/operations.py:162-174`,
`torch/operations.py:317-330`. -/
def varinvPos (aliases : List Str) (varinvalias : Option Str) : Option Nat :=
  varinvalias.bind fun s =>
    if s.take 4 = "Var(".toList then Alias.toInt ((s.drop 4).takeWhile (· ≠ ','))
    else (aliases.map fun a => stripEnds (beforeEq a)).idxOf? s

/-- A solver: the reduction that is run and the position of the unknown. -/
structure Solver where
  cls : RedCls
  f : Term
  cat : Int
  pos : Nat

/-- `KernelSolve(formula, [], varinvalias, axis)`.  The aliases which are completed from the formula contain no `=`;
they are not used when `varinvalias` begins with `Var(`. `numpy/operations.py:131-178`,
`torch/operations.py:296-333`; `keopscore/formulas/GetReduction.py:19-39`. -/
def kernelSolve (formula : Str) (varinvalias : Option Str) (axis : Nat) : Option Solver :=
  (varinvPos [] varinvalias).bind fun pos =>
    (Parse.parseRed (genredText "Sum".toList formula [] (axis2cat axis) [])).bind fun c =>
      (construct c.1 c.2).map fun k => ⟨k.1, k.2.1, k.2.2, pos⟩

/-- The routine made by `solve`, if the type of the numbers is known, or else by `__call__`, which gives `formula2`
(`None`) instead of `varformula`.  The variables which are passed after the other arguments are those of
`fixvariables`. `common/lazy_tensor.py:882-892,917-937`. -/
def Solve.routine (s : Solve) : Option (Solver × List LTensor) :=
  (fixvariables s.res []).bind fun q =>
    (kernelSolve q.1 (if s.res.hasDtype then some s.varformula else none) s.axis).map fun k => (k, q.2.2)

/-- The arguments of the routine: the array of the second member, or the arguments of the user if it is symbolic, and
then the variables.  `common/lazy_tensor.py:950-957`. -/
def Solve.args (s : Solve) (user vars : List LTensor) : List LTensor :=
  (if s.other.symb = [] then s.other.tensors.take 1 else user) ++ vars

/-- `newargs`: the current vector of the solver takes the place of the second member.  `numpy/operations.py:266`,
`torch/operations.py:67`. -/
def newargs {α : Type} (args : List α) (pos : Nat) (var : α) : List α := args.take pos ++ var :: args.drop (pos + 1)

/-- `res += alpha * var`, unless `alpha` is 0.  `numpy/operations.py:271-273`, `torch/operations.py:77-79`. -/
noncomputable def ridge (alpha res var : ℝ) : ℝ := if alpha ≠ 0 then res + alpha * var else res

/-- The array with the entries `x`. -/
def memOf {n : Nat} (x : Fin n → ℝ) : Mem ℝ := fun q => if h : q < n then x ⟨q, h⟩ else 0

/-- `linop`, on arrays with finite entries: the result is that of an execution of the routine of the formula `ex`, for `N`
rows `i` and `N` rows `j`, to which the ridge is added.  `M` are the mathematical functions.  `numpy/operations.py:265-273`,
`torch/operations.py:66-79`. -/
def Linop (M : CMath) (ex : Expr) (S : Scheme ℝ) (cat N : Nat) (args : List (Mem ℝ)) (pos : Nat) (alpha : ℝ) {n : Nat}
    (linop : Cg.Arr n → Cg.Arr n) : Prop :=
  ∀ x : Fin n → ℝ, ∃ (junk : Expr → Nat → ℝ) (out out' : Mem ℝ),
    Exec (sumRed ex.dim) S
      (ex.call id id M junk cat N N fun p => (newargs args pos (memOf x)).getD p fun _ => 0) out out' ∧
    ∀ q : Fin n, linop (fun q => some (x q)) q = some (ridge alpha (out' q) (x q))

end Verif.Lazy
