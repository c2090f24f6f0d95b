import Mathlib.Analysis.SpecialFunctions.Trigonometric.DerivHyp
import Verif.Proofs.ComplexLazyTotal
import Verif.Props.Reductions

/-!
# C68: operators of complex lazy tensors

Programs, their values `p.val` and the conditions `p.Fine`, `p.Ok`, `p.Def` are those of `Verif/Spec/ComplexLazy.lean`.
`Computes env f y` (C36): for the inputs `env`, the code of `f` writes the numbers `y`.
-/

namespace Verif.Cplx

open Finset Spec

/-- **C68.**  A program made of methods and operators of real and complex tensors has the type and the number of columns
of its value, and its formula computes that value: real and imaginary parts one after the other if it is complex.
Operations that are refuted below are excluded (`Fine`). -/
theorem C68_value_partial {p : Prog} {env : Env} (hfine : p.Fine) (hheld : p.Held env) (hdef : p.Def env) {t : LT}
    {f : Form} (h : p.lt = .ok t) (hf : t.formula.build = .ok f) :
    t.isC = p.isC ∧ t.ndim = f.dim ∧
    (p.isC = true → f.dim = 2 * p.len ∧
      Computes env f fun i => if i % 2 = 0 then (p.val env (i / 2)).re else (p.val env (i / 2)).im) ∧
    (p.isC = false → f.dim = p.len ∧ Computes env f (fun k => (p.val env k).re) ∧
      ∀ k < p.len, (p.val env k).im = 0) := by
  have hr := Prog.rep hfine hheld hdef h
  have hv := hr.val f hf
  have hn := hr.ndim
  have hd := hv.dim
  refine ⟨hr.isC, hn.trans hd.symm, fun hc => ?_, fun hc => ?_⟩
  · rw [hc] at hv hd
    exact ⟨hd, C36_complex hv⟩
  · rw [hc] at hv hd
    exact ⟨hd, C36_real hv.1, hv.2⟩

/-- **C68.**  Programs where methods are those of the type of the tensor, lengths are equal or 1, and numbers are used as
described in `Ok`, are accepted, and their formula can be built. -/
theorem C68_accepts {p : Prog} (h : p.Ok) : ∃ t f, p.lt = .ok t ∧ t.formula.build = .ok f := by
  obtain ⟨t, ht, hfit⟩ := Prog.fits h
  obtain ⟨f, hf, -⟩ := hfit.built
  exact ⟨t, f, ht, hf⟩

/-- **C68.**  Sums over an axis of a complex program, with any scheme and in any execution: entry `k` of row `i` of the
complex array that is returned is the sum over all `j` of the values of the program.  The arguments `args` are those of
the program; `envs i j` are their rows for the indices `i` and `j`. -/
theorem C68_sum_partial {p : Prog} (hfine : p.Fine) (hc : p.isC = true) {t : LT} {f : Form} (h : p.lt = .ok t)
    (hf : t.formula.build = .ok f) (hgood : GoodVars p.vars) (hcat : ∀ v ∈ p.vars, v.2.2 ≠ 3) {tagI m n : Nat}
    (htag : tagI < 2) (args : Nat → Mem ℝ) (envs : Nat → Nat → Env)
    (henv : ∀ i j, ∀ v ∈ p.vars, ∀ k < v.2.1,
      envs i j v.1 k = args v.1.toNat (Spec.row tagI i j v.2.2.toNat * v.2.1 + k))
    (hheld : ∀ i j, p.Held (envs i j)) (hdef : ∀ i j, p.Def (envs i j))
    {M : CMath} (hM : M.Exact) (junk : Form → Nat → ℝ) (sch : SumScheme) :
    ∃ S, getScheme (sumRed (V := ℝ) f.dim) sch = some S ∧
      ∀ out out', Exec (sumRed f.dim) S (f.call M junk tagI m n args) out out' →
        ∀ i < outRows tagI m n, ∀ k < p.len,
          viewAsComplex f.dim out' i k = ∑ j ∈ range (redRows tagI m n), p.val (envs i j) k := by
  obtain ⟨S, hS, hex⟩ := C09_sum ℝ f.dim sch
  have hsub : ∀ v ∈ f.vars, v ∈ p.vars := fun v hv => Prog.lt_vars h v (build_vars hf v hv)
  have hg : GoodVars f.vars := GoodVars.sub hgood hsub
  have h3 : ∀ v ∈ f.vars, v.2.2 ≠ 3 := fun v hv => hcat v (hsub v hv)
  refine ⟨S, hS, fun out out' he i hi k hk => ?_⟩
  obtain ⟨hsum, -⟩ := hex (f.call M junk tagI m n args) (form_call_wf hg h3 htag) out out' he
  have hval := fun j => (C68_value_partial hfine (hheld i j) (hdef i j) h hf).2.2.1 hc
  have hdim := (hval 0).1
  have key : ∀ q < f.dim, out' (i * f.dim + q) = ∑ j ∈ range (redRows tagI m n),
      if q % 2 = 0 then (p.val (envs i j) (q / 2)).re else (p.val (envs i j) (q / 2)).im := fun q hq => by
    refine (hsum i hi q hq).trans (Finset.sum_congr rfl fun j _ => ?_)
    exact form_call_value hg h3 hM (hval j).2 (fun v hv => henv i j v (hsub v hv)) hq
  have hre := key (2 * k) (by omega)
  have him := key (2 * k + 1) (by omega)
  apply Complex.ext
  · rw [Complex.re_sum]
    refine hre.trans (Finset.sum_congr rfl fun j _ => ?_)
    rw [if_pos (by omega), show 2 * k / 2 = k by omega]
  · rw [Complex.im_sum]
    refine him.trans (Finset.sum_congr rfl fun j _ => ?_)
    rw [if_neg (by omega), show (2 * k + 1) / 2 = k by omega]

/-- A list of one complex number is kept as its real and imaginary parts. -/
theorem C68_list_partial (z : ℂ) : complexList [z] = some [some z.re, some z.im] := rfl

/-! ## What is not true -/

/-- The program is accepted, its numbers are among the arguments and it divides by nothing that is 0, its result is
complex and flagged so, but the first number that is computed is not the first value. -/
def Wrong (p : Prog) (env : Env) : Prop :=
  p.Held env ∧ p.Def env ∧ p.isC = true ∧
    ∃ t f y, p.lt = .ok t ∧ t.isC = true ∧ t.formula.build = .ok f ∧ Computes env f y ∧ (⟨y 0, y 1⟩ : ℂ) ≠ p.val env 0

/-- A complex tensor with one column. -/
def zArg : Prog := .arr 0 1 0 true

/-- A real tensor with one column. -/
def xArg : Prog := .arr 0 1 0 false

/-- The number `1j`. -/
noncomputable def numI : Number := ⟨true, Complex.I⟩

/-- The inputs where the argument is `(a, b)` and the number at position 1 is `1j`. -/
def envAB (a b : ℝ) : Env := fun i k => if i = 0 then (if k = 0 then a else b) else if k = 0 then 0 else 1

/-- **C68 is refuted** for squares: `z.square()` is `a² + b² i` for `z = a + b i`. -/
theorem not_C68_square : Wrong (.meth .square zArg) (envAB 1 1) := by
  refine ⟨trivial, ⟨trivial, by simp⟩, rfl, _, _, _, rfl, rfl, rfl,
    C36_code ⟨show 0 < 2 by omega, rfl, by simp⟩ ⟨trivial, trivial⟩, ?_⟩
  intro h
  have := congrArg Complex.re h
  simp [Form.val, unVal, Prog.val, Meth.fn, zArg, envAB, pow_two] at this

/-- … for cosines: `z.cos()` is `1 + i` for `z = 0` … -/
theorem not_C68_cos : Wrong (.meth .cos zArg) (envAB 0 0) := by
  refine ⟨trivial, ⟨trivial, by simp⟩, rfl, _, _, _, rfl, rfl, rfl,
    C36_code ⟨show 0 < 2 by omega, rfl, by simp⟩ ⟨trivial, trivial⟩, ?_⟩
  intro h
  have := congrArg Complex.im h
  have h0 : (⟨0, 0⟩ : ℂ) = 0 := rfl
  simp [Form.val, unVal, Prog.val, Meth.fn, zArg, envAB, h0] at this

/-- … and sines … -/
theorem not_C68_sin : Wrong (.meth .sin zArg) (envAB 0 Real.pi) := by
  refine ⟨trivial, ⟨trivial, by simp⟩, rfl, _, _, _, rfl, rfl, rfl,
    C36_code ⟨show 0 < 2 by omega, rfl, by simp⟩ ⟨trivial, trivial⟩, ?_⟩
  intro h
  have := congrArg Complex.im h
  have h0 : (⟨0, Real.pi⟩ : ℂ) = Real.pi * Complex.I := Complex.ext (by simp) (by simp)
  simp [Form.val, unVal, Prog.val, Meth.fn, zArg, envAB, h0, Complex.sin_mul_I, ← Complex.ofReal_sinh] at this
  exact absurd this (ne_of_lt (Real.sinh_pos_iff.mpr Real.pi_pos))

/-- … for inverses: `1 / z` is `1/a + (1/b) i` … -/
theorem not_C68_inv : Wrong (.numBin .div ⟨false, 1⟩ 1 zArg) (fun _ _ => 1) := by
  refine ⟨⟨trivial, by simp [Number.Held]⟩, ⟨trivial, fun _ k _ h => ?_⟩, rfl, ⟨.un .inv (.var 0 2 0), 2, true⟩,
    .un .rinv (.var 0 2 0), _, ?_, rfl, rfl,
    C36_code ⟨show 0 < 2 by omega, rfl, by simp⟩ ⟨trivial, fun k _ => by simp [Form.val]⟩, ?_⟩
  · have := congrArg Complex.re h
    simp [zArg, Prog.val] at this
  · simp [Prog.lt, zArg, LT.numArith, ok_bind, LT.unary', LT.unary]
  · intro h
    have := congrArg Complex.re h
    simp [Form.val, unVal, Prog.val, Arith.fn, zArg, Complex.inv_re, Complex.normSq] at this

/-- … and for sums of a real tensor and a complex number: for `x = 5`, `x + 1j` is `5 + 6 i`.  Differences and quotients
have the same fault. -/
theorem not_C68_mixed : Wrong (.binNum .add xArg numI 1) (envAB 5 0) := by
  refine ⟨⟨trivial, by simp [Number.Held, numI, envAB]⟩, ⟨trivial, by simp⟩, rfl,
    ⟨.bin .plus (.var 0 1 0) (.var 1 2 2), 2, true⟩, .bin .radd (.var 0 1 0) (.var 1 2 2), _, ?_, rfl, ?_,
    C36_code ⟨show 0 < 1 by omega, show 0 < 2 by omega, rfl⟩ ⟨trivial, trivial, trivial⟩, ?_⟩
  · simp [Prog.lt, xArg, LT.arithNum, ok_bind, numI, LT.opNum, LT.binary, Number.lt, Arith.real]
  · rfl
  · intro h
    have := congrArg Complex.im h
    simp [Form.val, binVal, cst, Form.dim, Prog.val, Arith.fn, xArg, numI, envAB] at this

/-- **C68 is refuted** for complex tensors and numbers: apart from the operations decided from the value of the number,
all operators raise an `AttributeError`: `z * 2.0`, `z + 1`, `z / 2`, `z * 1j`, … -/
theorem not_C68_number {s : LT} (hs : s.isC = true) (o : Arith) (x : Number) (key : Int) (ht : ¬Trivial o x)
    (h0 : ¬(o = .mul ∧ x.val = 0)) : s.arithNum o x key = .error .attribute := by
  have h : ∀ o, s.opNum o (x.lt key) false = .error .attribute := fun o => if_pos hs
  cases o with
  | add => exact (if_neg ht).trans (h _)
  | sub => exact (if_neg ht).trans (h _)
  | div => exact (if_neg ht).trans (h _)
  | mul =>
    have h0 : x.val ≠ 0 := fun h => h0 ⟨rfl, h⟩
    have h1 : x.val ≠ 1 := fun h => ht (Or.inl h)
    have h2 : x.val ≠ -1 := fun h => ht (Or.inr h)
    simp only [LT.arithNum, if_neg h0, if_neg h1, if_neg h2]
    rw [hs]
    simpa using h .mul

/-- Same with the number first: `2.0 * z`, `1 + z`, `2 / z`, … -/
theorem not_C68_numberFirst {s : LT} (hs : s.isC = true) (o : Arith) (x : Number) (key : Int) (h0 : x.val ≠ 0)
    (h1 : x.val = 1 → o = .add ∨ o = .sub) (h2 : ¬(o = .mul ∧ x.val = -1)) :
    LT.numArith o x key s = .error .attribute := by
  have h : ∀ o, s.opNum o (x.lt key) true = .error .attribute := fun o => if_pos hs
  cases o with
  | add => exact (if_neg h0).trans (h _)
  | sub => exact (if_neg h0).trans (h _)
  | div =>
    have h1 : x.val ≠ 1 := fun h => by simpa using h1 h
    simp only [LT.numArith, if_neg h0, if_neg h1]
    exact h .div
  | mul =>
    have h1 : x.val ≠ 1 := fun h => by simpa using h1 h
    have h2 : x.val ≠ -1 := fun h => h2 ⟨rfl, h⟩
    simp only [LT.numArith, if_neg h0, if_neg h1, if_neg h2]
    rw [hs]
    simpa using h .mul

/-- **C68 is refuted** for lists of two complex numbers: `[a, b]` is kept as `[a, a.imag]`. -/
theorem not_C68_list (a b : ℂ) : complexList [a, b] = some [some a.re, some a.im, some a.im, some 0] := rfl

/-! ## The hypotheses are met -/

/-- `(x * 1j).exp() * z.conj() / (abs(z) + 1.0)` for a real tensor `x` with 1 column, indexed by `i`, and a complex
tensor `z` with 3 columns, indexed by `j`. -/
noncomputable def exProg : Prog :=
  .bin .div (.bin .mul (.meth .exp (.binNum .mul (.arr 0 1 0 false) numI 2)) (.meth .conj (.arr 1 3 1 true)))
    (.binNum .add (.meth .abs (.arr 1 3 1 true)) ⟨false, 1⟩ 3)

theorem numI_ne : numI.val ≠ 0 ∧ numI.val ≠ 1 ∧ numI.val ≠ -1 := by
  refine ⟨Complex.I_ne_zero, fun h => ?_, fun h => ?_⟩
  · have := congrArg Complex.im h
    simp [numI] at this
  · have := congrArg Complex.im h
    simp [numI] at this

theorem exProg_ok : exProg.Ok := by
  have h : ¬Mixed .mul numI false := fun h => h.2.2 ⟨rfl, numI_ne⟩
  refine ⟨⟨⟨⟨Nat.one_pos, by simp [Prog.isC], h, by simpa using numI_ne.1⟩, trivial⟩, ⟨Nat.succ_pos 2, rfl⟩, by simp [Prog.len]⟩,
    ⟨⟨Nat.succ_pos 2, rfl⟩, by simp [Prog.isC, Meth.isC], by simp [Mixed], by simp⟩, by simp [Prog.len]⟩

/-- The arguments: `x = (0, 1, 2, …)`, `z` has real parts `0, 2, …` and imaginary parts `1, 3, …`, and the numbers. -/
noncomputable def exEnvs (i j : Nat) : Env := fun p k =>
  if p = 0 then i + k else if p = 1 then j * 6 + k else if p = 2 then (if k = 0 then 0 else 1) else 1

/-- `C68_accepts`, `C68_value_partial` and `C68_sum_partial` apply, for sums over `j` on both backends. -/
example : ∃ t f, exProg.lt = .ok t ∧ t.formula.build = .ok f ∧ exProg.Fine ∧ exProg.isC = true ∧ exProg.len = 3 ∧
    GoodVars exProg.vars ∧ (∀ v ∈ exProg.vars, v.2.2 ≠ 3) ∧ (∀ i j, exProg.Held (exEnvs i j)) ∧
    (∀ i j, exProg.Def (exEnvs i j)) ∧
    ∃ args : Nat → Mem ℝ, (∀ i j, ∀ v ∈ exProg.vars, ∀ k < v.2.1,
      exEnvs i j v.1 k = args v.1.toNat (Spec.row 0 i j v.2.2.toNat * v.2.1 + k)) ∧
      ∀ M junk S out, ∃ out', Exec (sumRed f.dim) S (f.call M junk 0 3 5 args) out out' := by
  obtain ⟨t, f, ht, hf⟩ := C68_accepts exProg_ok
  have hm : ¬Mixed .mul numI false := fun h => h.2.2 ⟨rfl, numI_ne⟩
  have hv : exProg.vars = [(2, 2, 2), (0, 1, 0), (1, 6, 1), (3, 1, 2), (1, 6, 1)] := rfl
  refine ⟨t, f, ht, hf, ?_, rfl, rfl, ?_, ?_, fun i j => ?_, fun i j => ?_,
    fun p k => if p = 0 then k else if p = 1 then k else if p = 2 then (if k = 0 then 0 else 1) else 1,
    fun i j v hv' k hk => ?_, fun M junk S out => exec_exists_gpu _ S _ out⟩
  · exact ⟨⟨⟨⟨by simp [Prog.Fine], hm⟩, by simp⟩, ⟨by simp [Prog.Fine], by simp⟩⟩,
      ⟨⟨by simp [Prog.Fine], by simp⟩, by simp [Mixed]⟩⟩
  · rw [hv]
    exact ⟨by decide, by decide, by decide⟩
  · rw [hv]
    decide
  · simp [exProg, Prog.Held, Number.Held, numI, exEnvs]
  · refine ⟨⟨⟨⟨trivial, by simp⟩, by simp⟩, ⟨trivial, by simp⟩, by simp⟩, ⟨⟨trivial, by simp⟩, by simp⟩, fun _ k _ h => ?_⟩
    have := congrArg Complex.re h
    simp only [Prog.val, Meth.fn, Arith.fn, Complex.add_re, Complex.ofReal_re, Complex.one_re, Complex.zero_re] at this
    exact absurd this (ne_of_gt (add_pos_of_nonneg_of_pos (norm_nonneg _) one_pos))
  · rw [hv] at hv'
    simp only [List.mem_cons, List.not_mem_nil, or_false] at hv'
    rcases hv' with rfl | rfl | rfl | rfl | rfl <;> simp [exEnvs, Spec.row]

end Verif.Cplx
