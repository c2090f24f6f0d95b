/-!
# A small imperative substrate

The generated C++ code works on flat buffers with `for` loops.  A buffer of type
`T*` is a function `ℕ → T`; an assignment `a[k] = v` is `Mem.set`; a loop
`for(k=0; k<n; k++) body` is `forRange n body`.

Simplification: a buffer is total, so reading outside its declared length is not
an error in the model.  Properties that depend on the absence of out-of-bounds
accesses state the bounds of the positions that are read or written explicitly.
-/

namespace Verif

/-- A flat buffer (`TYPE*`). `c_array`, `utils/code_gen_utils.py:325-332`. Simplification:
unbounded. -/
abbrev Mem (α : Type _) := Nat → α

/-- `m[k] = v`. `c_variable.assign` on `c_array.__getitem__`,
`utils/code_gen_utils.py:77-97,362-373`. -/
def Mem.set {α : Type _} (m : Mem α) (k : Nat) (v : α) : Mem α :=
  fun i => if i = k then v else m i

/-- `for(k=0; k<n; k++) s = body(k, s)`; generated by
`keopscore/keopscore/utils/code_gen_utils.py:228-258` (`c_for_loop` with start 0, increment 1). -/
def forRange {σ : Type _} (n : Nat) (body : Nat → σ → σ) (s : σ) : σ :=
  (List.range n).foldl (fun s k => body k s) s

/-- `for(k=start; k<start+n*incr; k+=incr)`, i.e. `n` iterations of
`code_gen_utils.py:228-258` (`c_for_loop`) with a general start and increment. -/
def forStride {σ : Type _} (start incr n : Nat) (body : Nat → σ → σ) (s : σ) : σ :=
  (List.range n).foldl (fun s t => body (start + t * incr) s) s

/-- `VectApply(fun, out, arg)` when both arrays have dimension `d`:
`for k<d: fun(out[k], arg[k])`, `fun` updating its first argument.
`code_gen_utils.py:390-431`. -/
def vectApply {α β : Type _} (d : Nat) (f : α → β → α) (out : Mem α) (arg : Mem β) : Mem α :=
  forRange d (fun k out => out.set k (f (out k) (arg k))) out

/-- `VectCopy(out, arg)` with dimension `d`; `code_gen_utils.py:459-468`. -/
def vectCopy {α : Type _} (d : Nat) (out arg : Mem α) : Mem α :=
  forRange d (fun k out => out.set k (arg k)) out

/-- `out.assign(v)` for a `c_array` of dimension `d`; `code_gen_utils.py:356-360`. -/
def vectFill {α : Type _} (d : Nat) (out : Mem α) (v : α) : Mem α :=
  forRange d (fun k out => out.set k v) out

end Verif
