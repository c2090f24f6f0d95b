import Verif.Model.Lazy

/-!
# Symbolic methods of lazy tensors

Model of `grad_matrix` and `trace_operator`, `common/lazy_tensor.py:1990-2037`.
-/

namespace Verif.Lazy

open Alias (Str)
open Spec (DimCheck)

/-- `str(v)`, `common/lazy_tensor.py:959-987`, for a lazy tensor that is not the output of a reduction. `descr` is the
text of lines 970-978: the symbolic variables and the shape. -/
def strOf (descr : Str) (v : LazyT) : Option Str :=
  (fixvariables v []).map fun r => "KeOps LazyTensor\n    formula: ".toList ++ r.1 ++ descr

/-- `x.grad_matrix(v)`, `common/lazy_tensor.py:1990-2006`. The method `unary` writes its argument `opt_arg` with
`format`, `common/lazy_tensor.py:459-460`, which is `str` for a lazy tensor. -/
def gradMatrixMethod (descr : Str) (x v : LazyT) : Option LazyT :=
  (strOf descr v).map fun s => unary "GradMatrix".toList (some (x.ndim * v.ndim)) [s] x

/-- A lazy tensor with two more facts: whether its attribute `symbolic_variables` is a list instead of a tuple, and
its attribute `ind`, if it has one. `common/lazy_tensor.py:58,131-132,2029-2031`. -/
structure LazyS where
  lazy : LazyT
  isList : Bool
  ind : Option Nat

/-- `LazyTensor((ind,dim,cat))`, `common/lazy_tensor.py:115-136`. -/
def LazyS.symb (ind dim cat : Nat) : LazyS := ⟨mkSymb ind dim cat, false, some ind⟩

/-- A lazy tensor made of arrays and numbers: `symbolic_variables` is the empty tuple of `common/lazy_tensor.py:58`,
there is no attribute `ind`. -/
def LazyS.data (x : LazyT) : LazyS := ⟨x, false, none⟩

/-- `unary`, `common/lazy_tensor.py:432-464`; the copy is `init`, `common/lazy_tensor.py:382-400`. -/
def LazyS.unary (op : Str) (dimres : Option Nat) (opts : List Str) (x : LazyS) : LazyS :=
  ⟨Lazy.unary op dimres opts x.lazy, x.isList, none⟩

/-- `binary`, `common/lazy_tensor.py:466-567`: `join` adds the attributes `symbolic_variables`,
`common/lazy_tensor.py:421`; the sum of a list and of a tuple raises a `TypeError`. -/
def LazyS.binary (op : Str) (isOp : Bool) (dimres : Option Nat) (check : DimCheck) (opt : Option Str)
    (rversion : Bool) (x y : LazyS) : Option LazyS :=
  if x.isList ≠ y.isList then none
  else (Lazy.binary op isOp dimres check opt rversion x.lazy y.lazy).map fun r => ⟨r, x.isList, none⟩

/-- `x.trace_operator(v)`, `common/lazy_tensor.py:2008-2037`. If `v` has no attribute `ind`, line 2032 raises an
`AttributeError`. The order of the list made from the set (line 2029) is not specified in Python; here it is that of the
variables. -/
def LazyS.trace (x v : LazyS) : Option LazyS :=
  (LazyS.binary "TraceOperator".toList false (some 1) .same none false x v).bind fun r =>
    v.ind.map fun i =>
      ⟨{ r.lazy with
          symb := (r.lazy.symb.filter fun s => decide (s ∉ v.lazy.symb)).dedup
          formula := replaceStr v.lazy.formula
            ("VarSymb(-".toList ++ num i ++ "-1,".toList ++ num v.lazy.ndim ++ ',' ::
              num (v.lazy.axis.getD 0) ++ [')']) r.lazy.formula },
        true, none⟩

end Verif.Lazy
