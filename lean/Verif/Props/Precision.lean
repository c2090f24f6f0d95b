import Verif.Proofs.Precision
import Verif.Model.Simplify

/-!
# Computations on arrays of doubles: C71

Full statement: on arrays of doubles, the code of every formula computes in double precision.  This is refuted for
rational constants (hence for the division by an integer), for large integer constants, for powers with a real
exponent, and on the GPU for powers with an integer exponent: all of them are computed in single precision.  Without
these operations it is proved in two ways: the result is exact if the operations of type `double` are exact, whatever
the operations of type `float` do, and it does not depend on the operations of type `float`.
-/

namespace Verif.Prec

open Spec

/-- C71, for formulas whose constants are numbers of type `float` and without powers: if the operations of type
`double` are exact, the code computes the value of the formula, whatever the operations of type `float` are. -/
theorem C71_exact_partial {m : Machine} (hm : ExactDouble m) (hf : FloatConv m) (t : Target) {e : Expr} (ho : Ok t e)
    (hw : e.WF) (hn : e.Named) {env : Env} (hd : e.Def env) {k : Nat} (hk : k < e.dim) :
    run m t .double env e k = e.val env k :=
  run_eq hm t hf e ho hw hn hd (fun _ _ _ _ => rfl) k hk

/-- C71, for the same formulas: the operations of type `float` have no effect on the result. -/
theorem C71_same_partial {m m' : Machine} (hs : SameDouble m m') (hf : FloatConv m) (hf' : FloatConv m')
    (hd : ∀ x, Single x → m.conv .double x = x) (t : Target) {e : Expr} (ho : Ok t e) (env : Env) :
    run m t .double env e = run m' t .double env e :=
  run_same hs t hf hf' hd e ho

/-! ## Examples -/

theorem single_zero : Single 0 := ⟨0, 0, by norm_num, by norm_num, by norm_num, by norm_num⟩

theorem single_int {n : ℤ} (h : |n| < 2 ^ 24) : Single n := ⟨n, 0, h, by norm_num, by norm_num, by norm_num⟩

theorem single_half : Single (1 / 2) :=
  ⟨1, -1, by norm_num, by norm_num, by norm_num, by norm_num⟩

open Classical in
/-- A machine with exact operations of type `double`, and useless operations of type `float`. -/
noncomputable def exMachine (r : ℝ) : Machine where
  arith
    | .double, .add, x, y => x + y
    | .double, .sub, x, y => x - y
    | .double, .mul, x, y => x * y
    | .double, .div, x, y => x / y
    | .float, _, _, _ => r
  fun1
    | .double, .abs, x => |x|
    | .double, .cos, x => Real.cos x
    | .double, .sin, x => Real.sin x
    | .double, .acos, x => Real.arccos x
    | .double, .asin, x => Real.arcsin x
    | .double, .atan, x => Real.arctan x
    | .double, .exp, x => Real.exp x
    | .double, .floor, x => ⌊x⌋
    | .double, .log, x => Real.log x
    | .double, .sqrt, x => Real.sqrt x
    | .double, .rsqrt, x => 1 / Real.sqrt x
    | .double, .round, x => roundAway x
    | .float, _, _ => r
  fun2
    | .double, .atan2, y, x => Complex.arg ⟨x, y⟩
    | .double, .pow, x, y => x ^ y
    | .float, _, _, _ => r
  fma
    | .double, x, y, z => x * y + z
    | .float, _, _, _ => r
  conv
    | .double, x => x
    | .float, x => if Single x then x else 0

theorem exMachine_exact (r : ℝ) : ExactDouble (exMachine r) where
  add _ _ := rfl
  sub _ _ := rfl
  mul _ _ := rfl
  div _ _ _ := rfl
  fma _ _ _ := rfl
  exp _ := rfl
  log _ _ := rfl
  cos _ := rfl
  sin _ := rfl
  acos _ _ _ := rfl
  asin _ _ _ := rfl
  atan _ := rfl
  sqrt _ _ := rfl
  rsqrt _ _ := rfl
  abs _ := rfl
  floor _ := rfl
  round _ := rfl
  pow x n _ := Real.rpow_intCast x n
  atan2 _ _ _ := rfl
  conv _ := rfl

open Classical in
theorem exMachine_conv (r : ℝ) : FloatConv (exMachine r) where
  single x _ := by
    show Single (if Single x then x else 0)
    split_ifs with h
    · exact h
    · exact single_zero
  keep x h := if_pos h

/-- `Exp(-(1/2) * Sum(Square(x - y))) * Clamp(b, 0, 5)`, as it is kept after the simplifications of the constructors. -/
def exFormula : Expr :=
  .bin .mul (.un .exp (.un .minus (.bin .mul (.rat 1 2) (.un .sum (.un .square (.bin .sub (.var 0 3 0) (.var 1 3 1)))))))
    (.tern .clamp (.var 2 2 1) (.zero 1) (.int 5))

example (t : Target) (env : Env) {k : Nat} (hk : k < 2) :
    run (exMachine 7) t .double env exFormula k =
      Real.exp (-(1 / 2 * ∑ j ∈ Finset.range 3, (env 0 j - env 1 j) ^ 2)) *
        (if env 2 k < 0 then 0 else if 5 < env 2 k then 5 else env 2 k) := by
  have h := C71_exact_partial (exMachine_exact 7) (exMachine_conv 7) t (e := exFormula)
    (by
      have h5 : Single 5 := by simpa using single_int (n := 5) (by norm_num)
      have h2 : Single 2⁻¹ := by simpa using single_half
      simp [exFormula, Ok, h5, h2])
    (by simp [exFormula, Expr.WF, Expr.dim, Un.dim, Bin.dim, Un.accept, Bin.accept]; decide)
    (by simp [exFormula, Expr.Named])
    (env := env) (by simp [exFormula, Expr.Def, unDef, binDef, ternDef]) (k := k) hk
  rw [h]
  simp [exFormula, Expr.val, unVal, binVal, ternVal, cst, Expr.dim, Un.dim, Bin.dim]

/-! ## Operations that are computed in single precision -/

/-- C71 fails for `x / 3`: the constructor of the division writes the product of `x` with the rational constant 1/3,
which is rounded to single precision.  Even if the operations of type `double` are exact, the relative error is at
least 2 ^ (-25). -/
theorem not_C71_quotient {m : Machine} (hm : ExactDouble m) (hf : FloatConv m) (t : Target) :
    ∃ e, build 3 (.div (.var 0 1 0) (.int 3)) = .ok e ∧
      ∀ env, e.val env 0 = env 0 0 / 3 ∧ |env 0 0 / 3| / 2 ^ 25 ≤ |run m t .double env e 0 - env 0 0 / 3| := by
  refine ⟨.bin .mul (.rat 1 3) (.var 0 1 0), by decide +kernel, fun env => ⟨?_, ?_⟩⟩
  · simp [Expr.val, binVal, cst]; ring
  · have h1 : run m t .double env (.bin .mul (.rat 1 3) (.var 0 1 0)) 0 = m.conv .float (1 / 3) * env 0 0 := by
      have : run m t .double env (.bin .mul (.rat 1 3) (.var 0 1 0)) 0 =
          m.arith .double .mul (m.conv .float (m.conv .double (((1 : ℤ) / (3 : ℤ) : ℚ) : ℝ))) (env 0 0) := by
        cases t <;> simp [run, binOp, binExp, mathFunction, CExp.assign, CExp.eval, CExp.ty, Machine.to, Ty.join, argv, bc,
          Expr.dim]
      rw [this, hm.mul, hm.conv]
      norm_num
    rw [h1, show m.conv .float (1 / 3) * env 0 0 - env 0 0 / 3 = (m.conv .float (1 / 3) - 1 / 3) * env 0 0 by ring,
      abs_mul, abs_div]
    have h2 := single_third (hf.single (1 / 3) (by rw [abs_of_pos] <;> norm_num))
    have h3 := mul_le_mul_of_nonneg_right h2 (abs_nonneg (env 0 0))
    refine le_trans (le_of_eq ?_) h3
    rw [abs_of_pos (by norm_num : (0 : ℝ) < 3)]
    field_simp

/-- C71 fails for integer constants of more than 24 bits: the code does not compute the constant 2 ^ 24 + 1. -/
theorem not_C71_int {m : Machine} (hf : FloatConv m) (t : Target) (env : Env) :
    (intCst 16777217).val env 0 = 16777217 ∧ run m t .double env (intCst 16777217) 0 ≠ 16777217 := by
  refine ⟨by simp [intCst, Expr.val], fun h => ?_⟩
  have h1 : run m t .double env (intCst 16777217) 0 = m.conv .float ((16777217 : ℤ) : ℝ) := by
    simp [intCst, run, CExp.assign, CExp.eval, CExp.ty, Machine.to]
  have h2 := hf.single ((16777217 : ℤ) : ℝ) (by rw [abs_of_pos] <;> norm_num)
  rw [← h1, h] at h2
  exact not_single_odd (n := 16777217) (by norm_num) (by norm_num) (by exact_mod_cast h2)

/-- C71 fails for powers with a real exponent, on the CPU and on the GPU: for 4097 to the power 2 the code does not
compute 16785409. -/
theorem not_C71_powf {m : Machine} (hp : ∀ x y, Single (m.fun2 .float .pow x y)) (t : Target) {env : Env}
    (h0 : env 0 0 = 4097) (h1 : env 1 0 = 2) :
    Expr.val env (.bin .powf (.var 0 1 0) (.var 1 1 1)) 0 = 16785409 ∧
      run m t .double env (.bin .powf (.var 0 1 0) (.var 1 1 1)) 0 ≠ 16785409 := by
  refine ⟨?_, fun h => ?_⟩
  · simp [Expr.val, binVal, cst, h0, h1]
    norm_num
  · have h2 : run m t .double env (.bin .powf (.var 0 1 0) (.var 1 1 1)) 0 =
        m.fun2 .float .pow (m.conv .float (env 0 0)) (m.conv .float (env 1 0)) := by
      cases t <;> simp [run, binOp, binExp, mathFunction, CExp.assign, CExp.eval, CExp.ty, Machine.to, argv, bc, Expr.dim]
    have h3 := hp (m.conv .float (env 0 0)) (m.conv .float (env 1 0))
    rw [← h2, h] at h3
    exact not_single_odd (n := 16785409) (by norm_num) (by norm_num) (by exact_mod_cast h3)

/-- C71 fails on the GPU for powers with an integer exponent: for 257 to the power 3 the code does not compute
16974593. -/
theorem not_C71_pow_gpu {m : Machine} (hp : ∀ x y, Single (m.fun2 .float .pow x y)) {env : Env} (h0 : env 0 0 = 257) :
    Expr.val env (.un (.pow 3) (.var 0 1 0)) 0 = 16974593 ∧
      run m .gpu .double env (.un (.pow 3) (.var 0 1 0)) 0 ≠ 16974593 := by
  refine ⟨?_, fun h => ?_⟩
  · simp [Expr.val, unVal, cst, h0]
    norm_num
  · have h2 : run m .gpu .double env (.un (.pow 3) (.var 0 1 0)) 0 =
        m.fun2 .float .pow (m.conv .float (env 0 0)) (m.conv .float 3) := by
      simp [run, unOp, unExp, mathFunction, CExp.assign, CExp.eval, CExp.ty, Machine.to, argv, bc, Expr.dim]
    have h3 := hp (m.conv .float (env 0 0)) (m.conv .float 3)
    rw [← h2, h] at h3
    exact not_single_odd (n := 16974593) (by norm_num) (by norm_num) (by exact_mod_cast h3)

/-- The same power is computed in double precision on the CPU. -/
example {env : Env} (h0 : env 0 0 = 257) :
    run (exMachine 7) .cpu .double env (.un (.pow 3) (.var 0 1 0)) 0 = 16974593 := by
  rw [C71_exact_partial (exMachine_exact 7) (exMachine_conv 7) .cpu (by simp [Ok])
    (by simp [Expr.WF, Expr.dim, Un.dim, Un.accept]) (by simp [Expr.Named])
    (by simp [Expr.Def, unDef]) (by simp [Expr.dim, Un.dim])]
  simp [Expr.val, unVal, cst, h0]
  norm_num

end Verif.Prec
