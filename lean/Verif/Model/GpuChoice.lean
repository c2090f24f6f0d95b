import Verif.Model.FinalChunks

/-!
# The choice of the kernel for any reduction

One-dimensional GPU scheme, `keopscore/keopscore/get_keops_dll.py:87-112`.  `ExecGpuSum` is the case of sums.
-/

namespace Verif

/-- The executions of a reduction with the one-dimensional GPU scheme, after the choice of the kernel in
`get_keops_dll.py:87-112`: `R` is the reduction, whose output has dimension `R.dim` (`config/chunks.py:48-54`), `flag`
is `mul_var_highdim`, `chunks` the option `enable_chunks` and `sch` the summation scheme.  The kernel for the products
never uses the reduction (`mapreduce/gpu/GpuReduc1D_finalchunks.py:81-224`): it writes sums, whose rows have the
dimension of the last variable, at the beginning of the output array.  It only adds and multiplies: it is modelled on
real numbers, that `enc` embeds in the numbers `V` of the reduction.  When an exception is raised there is no
execution. -/
inductive ExecGpu {V : Type} (enc : ℝ → V) (dec : V → ℝ) (R : Red V) (flag chunks : Bool) (sch : SumScheme) (M : CMath)
    (cjunk : Expr → Nat → ℝ) (e : Expr) (tagI m n : Nat) (args : Nat → Mem ℝ) (out : Mem V) : Mem V → Prop
  | final (out₀ out₀' : Mem ℝ) (hout : ∀ q, out q = enc (out₀ q)) (hfinal : finalMode flag R.dim = true)
      (hsch : sch = .block) (h : ExecFinal M cjunk e tagI m n args out₀ out₀') :
      ExecGpu enc dec R flag chunks sch M cjunk e tagI m n args out (fun q => enc (out₀' q))
  | chunks (out' : Mem V) (hfinal : finalMode flag R.dim = false) (hchunks : (chunks && chunkMode e) = true)
      (S : Scheme V) (hS : getScheme R sch = some S)
      (h : ExecChunks enc dec R S M cjunk e tagI m n (fun p q => enc (args p q)) out out') :
      ExecGpu enc dec R flag chunks sch M cjunk e tagI m n args out out'
  | simple (out' : Mem V) (hfinal : finalMode flag R.dim = false) (hchunks : (chunks && chunkMode e) = false)
      (S : Scheme V) (hS : getScheme R sch = some S)
      (h : Exec R S (e.call enc dec M cjunk tagI m n fun p q => enc (args p q)) out out') :
      ExecGpu enc dec R flag chunks sch M cjunk e tagI m n args out out'

end Verif
