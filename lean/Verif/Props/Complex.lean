import Mathlib.Analysis.Complex.Norm
import Mathlib.Tactic.NormNum
import Verif.Proofs.ComplexCode
import Verif.Proofs.ComplexTotal
import Verif.Props.Diff

/-!
# C36: complex arithmetic

`IsComplex env f n z`: the formula `f` announces `n` complex numbers, can be evaluated for the inputs `env`, and has
the values `z 0, ..., z (n - 1)` there; `IsReal env f n x`: same with real numbers.
-/

namespace Verif.Cplx

open Finset Spec

/-- For the inputs `env`, the formula `f` announces `n` complex numbers, whose values are those of `z`. -/
structure IsComplex (env : Env) (f : Form) (n : Nat) (z : Nat → ℂ) : Prop where
  wf : f.WF
  defined : f.Def env
  dim : f.dim = 2 * n
  val : ∀ k < n, (⟨f.val env (2 * k), f.val env (2 * k + 1)⟩ : ℂ) = z k

/-- For the inputs `env`, the formula `f` announces `n` real numbers, whose values are those of `x`. -/
structure IsReal (env : Env) (f : Form) (n : Nat) (x : Nat → ℝ) : Prop where
  wf : f.WF
  defined : f.Def env
  dim : f.dim = n
  val : ∀ k < n, f.val env k = x k

/-- The code of the formula writes the numbers `y`, whatever the content of memory, provided that the inputs are
arrays that hold `env`. -/
def Computes (env : Env) (f : Form) (y : Vec) : Prop :=
  ∀ M : CMath, M.Exact → ∀ (junk : Form → Nat → ℝ) (ins : Int → CArr) (out : CArr),
    (∀ q ∈ f.vars, ins q.1 = (List.range q.2.1).map (env q.1)) → out.length = f.dim →
    ∃ r, f.code M junk ins out = .ok r ∧ r.length = f.dim ∧ ∀ k < f.dim, r[k]? = some (y k)

/-! ## Values -/

theorem C36_code {f : Form} {env : Env} (hw : f.WF) (hd : f.Def env) : Computes env f (f.val env) :=
  fun M hM junk ins out hin ho => by
    refine ⟨_, ?_, vec_length, fun k hk => vec_getElem? hk⟩
    rw [vec_of_list out, ho]
    exact f.code_vec hM _ hw hd hin

/-- **C36.**  The code of a formula that announces complex numbers writes their real and imaginary parts, one after
the other. -/
theorem C36_complex {env : Env} {f : Form} {n : Nat} {z : Nat → ℂ} (h : IsComplex env f n z) :
    Computes env f fun i => if i % 2 = 0 then (z (i / 2)).re else (z (i / 2)).im :=
  fun M hM junk ins out hin ho => by
    obtain ⟨r, h1, h2, h3⟩ := C36_code h.wf h.defined M hM junk ins out hin ho
    refine ⟨r, h1, h2, fun i hi => (h3 i hi).trans (congrArg some ?_)⟩
    have hdim := h.dim
    have hk := h.val (i / 2) (by omega)
    show _ = if i % 2 = 0 then (z (i / 2)).re else (z (i / 2)).im
    split_ifs with he
    · rw [← hk]; show _ = f.val env (2 * (i / 2)); congr 1; omega
    · rw [← hk]; show _ = f.val env (2 * (i / 2) + 1); congr 1; omega

/-- **C36.**  Same for real numbers. -/
theorem C36_real {env : Env} {f : Form} {n : Nat} {x : Nat → ℝ} (h : IsReal env f n x) : Computes env f x :=
  fun M hM junk ins out hin ho => by
    obtain ⟨r, h1, h2, h3⟩ := C36_code h.wf h.defined M hM junk ins out hin ho
    exact ⟨r, h1, h2, fun i hi => (h3 i hi).trans (congrArg some (h.val i (h.dim ▸ hi)))⟩

section

variable {env : Env} {f g r : Form} {n n' : Nat} {z w : Nat → ℂ} {x : Nat → ℝ}

/-- A variable of dimension `2n` holds `n` complex numbers. -/
theorem C36_var (i c : Int) (hn : 0 < n) :
    IsComplex env (.var i (2 * n) c) n fun k => ⟨env i (2 * k), env i (2 * k + 1)⟩ :=
  ⟨show 0 < 2 * n by omega, trivial, rfl, fun _ _ => rfl⟩

/-- A variable of dimension `n` holds `n` real numbers. -/
theorem C36_varReal (i c : Int) (hn : 0 < n) : IsReal env (.var i n c) n (env i) :=
  ⟨hn, trivial, rfl, fun _ _ => rfl⟩

theorem IsComplex.cplx (h : IsComplex env f n z) : ∀ k < n, cplx (f.val env) k = z k := h.val

theorem IsComplex.bcast (h : IsComplex env f n z) {k : Nat} (hk : n = 1 ∨ k < n) :
    bcast f.dim (f.val env) k = spread n z k := by
  have hd := h.dim
  unfold Cplx.bcast spread
  by_cases hn : n = 1
  · rw [if_pos (by omega), if_pos hn]
    exact h.cplx 0 (by omega)
  · rw [if_neg (by omega), if_neg hn]
    exact h.cplx k (by omega)

/-- A new operation whose value is a vector of complex numbers. -/
theorem isComplex_un {o : Un} (hw : f.WF) (hd : f.Def env) (ha : o.accept f.dim = true)
    (hn : ∀ n, o = .sumT n → 0 < n ∧ n % 2 = 0)
    (hdef : unDef o f.dim (f.val env)) (hdim : o.dim f.dim = 2 * n)
    (hz : ∀ k < n, cplx (unVal o f.dim (f.val env)) k = z k) : IsComplex env (.un o f) n z :=
  ⟨⟨hw, ha, hn⟩, ⟨hd, hdef⟩, hdim, hz⟩

/-- **C36.**  `Conj(f)`: conjugate numbers. -/
theorem C36_conj (h : IsComplex env f n z) (hr : mkUn .conj f = .ok r) :
    IsComplex env r n fun k => (starRingEnd ℂ) (z k) := by
  obtain ⟨rfl, ha⟩ := mkUn_ok hr
  exact isComplex_un h.wf h.defined ha (fun n h => by cases h) trivial h.dim
    fun k hk => by simp only [unVal, cplx_store]; rw [h.cplx k hk]

/-- **C36.**  `ComplexReal(f)`: real parts. -/
theorem C36_realPart (h : IsComplex env f n z) (hr : mkUn .real f = .ok r) :
    IsReal env r n fun k => (z k).re := by
  obtain ⟨rfl, ha⟩ := mkUn_ok hr
  exact ⟨⟨h.wf, ha, fun n h => by cases h⟩, ⟨h.defined, trivial⟩, by show f.dim / 2 = n; rw [h.dim]; omega,
    fun k hk => congrArg Complex.re (h.cplx k hk)⟩

/-- **C36.**  `ComplexImag(f)`: imaginary parts. -/
theorem C36_imagPart (h : IsComplex env f n z) (hr : mkUn .imag f = .ok r) :
    IsReal env r n fun k => (z k).im := by
  obtain ⟨rfl, ha⟩ := mkUn_ok hr
  exact ⟨⟨h.wf, ha, fun n h => by cases h⟩, ⟨h.defined, trivial⟩, by show f.dim / 2 = n; rw [h.dim]; omega,
    fun k hk => congrArg Complex.im (h.cplx k hk)⟩

/-- **C36.**  `Real2Complex(f)`: real numbers as complex numbers. -/
theorem C36_real2complex (h : IsReal env f n x) (hr : mkUn .ofReal f = .ok r) :
    IsComplex env r n fun k => x k := by
  obtain ⟨rfl, ha⟩ := mkUn_ok hr
  exact isComplex_un h.wf h.defined ha (fun n h => by cases h) trivial (congrArg (2 * ·) h.dim)
    fun k hk => by simp only [unVal, cplx_store]; rw [h.val k hk]

/-- **C36.**  `Imag2Complex(f)`: real numbers times `i`. -/
theorem C36_imag2complex (h : IsReal env f n x) (hr : mkUn .ofImag f = .ok r) :
    IsComplex env r n fun k => x k * Complex.I := by
  obtain ⟨rfl, ha⟩ := mkUn_ok hr
  exact isComplex_un h.wf h.defined ha (fun n h => by cases h) trivial (congrArg (2 * ·) h.dim)
    fun k hk => by simp only [unVal, cplx_store]; rw [h.val k hk]

/-- **C36.**  `ComplexExp(f)`: complex exponentials. -/
theorem C36_exp (h : IsComplex env f n z) (hr : mkUn .exp f = .ok r) :
    IsComplex env r n fun k => Complex.exp (z k) := by
  obtain ⟨rfl, ha⟩ := mkUn_ok hr
  exact isComplex_un h.wf h.defined ha (fun n h => by cases h) trivial h.dim
    fun k hk => by simp only [unVal, cplx_store]; rw [h.cplx k hk]

/-- **C36.**  `ComplexExp1j(f)`: complex exponentials of `i` times a real number. -/
theorem C36_exp1j (h : IsReal env f n x) (hr : mkUn .exp1j f = .ok r) :
    IsComplex env r n fun k => Complex.exp (x k * Complex.I) := by
  obtain ⟨rfl, ha⟩ := mkUn_ok hr
  exact isComplex_un h.wf h.defined ha (fun n h => by cases h) trivial (congrArg (2 * ·) h.dim)
    fun k hk => by simp only [unVal, cplx_store]; rw [h.val k hk]

/-- **C36.**  `ComplexSum(f)`: sum of the numbers. -/
theorem C36_sum (h : IsComplex env f n z) (hr : mkUn .sum f = .ok r) :
    IsComplex env r 1 fun _ => ∑ k ∈ range n, z k := by
  obtain ⟨rfl, ha⟩ := mkUn_ok hr
  refine isComplex_un h.wf h.defined ha (fun n h => by cases h) trivial rfl fun k hk => ?_
  have hd := h.dim
  simp only [unVal, cplx_store]
  rw [show f.dim / 2 = n by omega]
  exact sum_congr rfl fun k hk => h.cplx k (mem_range.mp hk)

/-- **C36.**  `ComplexSumT(f, 2m)`: a single number, repeated. -/
theorem C36_sumT {m : Nat} (hm : 0 < m) (h : IsComplex env f 1 z) (hr : mkUn (.sumT (2 * m)) f = .ok r) :
    IsComplex env r m fun _ => z 0 := by
  obtain ⟨rfl, ha⟩ := mkUn_ok hr
  exact isComplex_un h.wf h.defined ha (fun n h => by cases h; omega) trivial rfl
    fun k hk => by simp only [unVal, cplx_store]; exact h.cplx 0 (by omega)

/-- **C36.**  `ComplexSquareAbs(f)`: squared moduli. -/
theorem C36_squareAbs (h : IsComplex env f n z) (hr : mkUn .sqAbs f = .ok r) :
    IsReal env r n fun k => ‖z k‖ ^ 2 := by
  obtain ⟨rfl, ha⟩ := mkUn_ok hr
  exact ⟨⟨h.wf, ha, fun n h => by cases h⟩, ⟨h.defined, trivial⟩, by show f.dim / 2 = n; rw [h.dim]; omega,
    fun k hk => congrArg (fun z => ‖z‖ ^ 2) (h.cplx k hk)⟩

/-- **C36.**  `ComplexAbs(f)`: moduli. -/
theorem C36_abs (h : IsComplex env f n z) (hr : abs f = .ok r) : IsReal env r n fun k => ‖z k‖ := by
  obtain ⟨s, hs, hr⟩ := bindOk hr
  have hs := C36_squareAbs h hs
  obtain ⟨rfl, ha⟩ := mkUn_ok hr
  have hd := hs.dim
  refine ⟨⟨hs.wf, ha, fun n h => by cases h⟩, ⟨hs.defined, fun k hk => ?_⟩, hs.dim, fun k hk => ?_⟩
  · rw [hs.val k (by omega)]
    positivity
  · show Real.sqrt (s.val env k) = _
    rw [hs.val k hk, Real.sqrt_sq (norm_nonneg _)]

/-- **C36.**  `ComplexAngle(f)`: arguments of numbers that are not 0. -/
theorem C36_angle (h : IsComplex env f n z) (h0 : ∀ k < n, z k ≠ 0) (hr : angle f = .ok r) :
    IsReal env r n fun k => Complex.arg (z k) := by
  obtain ⟨a, ha, hr⟩ := bindOk hr
  obtain ⟨b, hb, hr⟩ := bindOk hr
  have ha := C36_imagPart h ha
  have hb := C36_realPart h hb
  obtain ⟨rfl, hacc⟩ := mkBin_ok hr
  have hda := ha.dim
  have hdb := hb.dim
  refine ⟨⟨ha.wf, hb.wf, hacc⟩, ⟨ha.defined, hb.defined, fun k hk => ?_⟩, ?_, fun k hk => ?_⟩
  · rw [cst_of_lt _ (by omega), cst_of_lt _ (by omega), ha.val k (by omega), hb.val k (by omega)]
    by_contra hc
    push Not at hc
    exact h0 k (by omega) (Complex.ext hc.2 hc.1)
  · show max a.dim b.dim = n
    omega
  · show Complex.arg ⟨cst b.dim _ k, cst a.dim _ k⟩ = _
    rw [cst_of_lt _ (by omega), cst_of_lt _ (by omega), ha.val k hk, hb.val k hk]

theorem isComplex_bin {o : Bin} {F : Nat → ℂ} (hf : IsComplex env f n z) (hg : IsComplex env g n' w)
    (ho : o = .add ∨ o = .sub ∨ o = .mul) (ha : o.accept f.dim g.dim = true)
    (hF : ∀ k < max n n', cplx (binVal o f.dim g.dim (f.val env) (g.val env)) k = F k) :
    IsComplex env (.bin o f g) (max n n') F :=
  ⟨⟨hf.wf, hg.wf, ha⟩, ⟨hf.defined, hg.defined, by rcases ho with rfl | rfl | rfl <;> trivial⟩, by
    have h1 := hf.dim
    have h2 := hg.dim
    have : (Form.bin o f g).dim = max f.dim g.dim := by rcases ho with rfl | rfl | rfl <;> rfl
    omega, hF⟩

theorem spread_ok {o : Bin} (hf : IsComplex env f n z) (hg : IsComplex env g n' w)
    (ho : o = .add ∨ o = .sub ∨ o = .mul) (ha : o.accept f.dim g.dim = true) {k : Nat} (hk : k < max n n') :
    (n = 1 ∨ k < n) ∧ (n' = 1 ∨ k < n') := by
  obtain ⟨m, h1, h2, h3⟩ := accept_cplx ho ha
  have d1 := hf.dim
  have d2 := hg.dim
  omega

/-- **C36.**  `ComplexAdd(f, g)`: sums, where a single number is added to all numbers. -/
theorem C36_add (hf : IsComplex env f n z) (hg : IsComplex env g n' w) (hr : mkBin .add f g = .ok r) :
    IsComplex env r (max n n') fun k => spread n z k + spread n' w k := by
  obtain ⟨rfl, ha⟩ := mkBin_ok hr
  refine isComplex_bin hf hg (by tauto) ha fun k hk => ?_
  obtain ⟨h1, h2⟩ := spread_ok hf hg (by tauto) ha hk
  simp only [binVal, cplx_store]
  rw [hf.bcast h1, hg.bcast h2]

/-- **C36.**  `ComplexSubtract(f, g)`: differences. -/
theorem C36_sub (hf : IsComplex env f n z) (hg : IsComplex env g n' w) (hr : mkBin .sub f g = .ok r) :
    IsComplex env r (max n n') fun k => spread n z k - spread n' w k := by
  obtain ⟨rfl, ha⟩ := mkBin_ok hr
  refine isComplex_bin hf hg (by tauto) ha fun k hk => ?_
  obtain ⟨h1, h2⟩ := spread_ok hf hg (by tauto) ha hk
  simp only [binVal, cplx_store]
  rw [hf.bcast h1, hg.bcast h2]

/-- **C36.**  `ComplexMult(f, g)`: products. -/
theorem C36_mult (hf : IsComplex env f n z) (hg : IsComplex env g n' w) (hr : mkBin .mul f g = .ok r) :
    IsComplex env r (max n n') fun k => spread n z k * spread n' w k := by
  obtain ⟨rfl, ha⟩ := mkBin_ok hr
  refine isComplex_bin hf hg (by tauto) ha fun k hk => ?_
  obtain ⟨h1, h2⟩ := spread_ok hf hg (by tauto) ha hk
  simp only [binVal, cplx_store]
  rw [hf.bcast h1, hg.bcast h2]

theorem IsComplex.congr (h : IsComplex env f n z) (hn : n = n') (hz : ∀ k < n', z k = w k) : IsComplex env f n' w := by
  subst hn
  exact ⟨h.wf, h.defined, h.dim, fun k hk => (h.val k hk).trans (hz k hk)⟩

/-- **C36.**  `ComplexDivide(f, g)`: quotients by numbers that are not 0. -/
theorem C36_divide (hf : IsComplex env f n z) (hg : IsComplex env g n' w) (h0 : ∀ k < n', w k ≠ 0)
    (hr : divide f g = .ok r) :
    IsComplex env r (max n n') fun k => spread n z k / spread n' w k := by
  unfold divide at hr
  obtain ⟨s, hs, hr⟩ := bindOk hr
  obtain ⟨i, hi, hr⟩ := bindOk hr
  obtain ⟨a, ha, hr⟩ := bindOk hr
  obtain ⟨c, hc, hr⟩ := bindOk hr
  obtain ⟨b, hb, hr⟩ := bindOk hr
  have hs := C36_squareAbs hg hs
  have hi' : IsReal env i n' fun k => 1 / ‖w k‖ ^ 2 := by
    obtain ⟨rfl, hacc⟩ := mkUn_ok hi
    have hd := hs.dim
    refine ⟨⟨hs.wf, hacc, fun n h => by cases h⟩, ⟨hs.defined, fun k hk => ?_⟩, hs.dim, fun k hk => ?_⟩
    · rw [hs.val k (by omega)]
      exact pow_ne_zero 2 (norm_ne_zero_iff.mpr (h0 k (by omega)))
    · show 1 / s.val env k = _
      rw [hs.val k hk]
  have ha := C36_real2complex hi' ha
  have hb' := C36_mult hf (C36_conj hg hc) hb
  have := C36_mult ha hb' hr
  refine this.congr (by omega) fun k hk => ?_
  obtain ⟨rfl, hacc⟩ := mkBin_ok hb
  obtain ⟨k1, k2⟩ := spread_ok hf (C36_conj hg hc) (by tauto) hacc hk
  have key : ∀ u w : ℂ, w ≠ 0 → ((1 / ‖w‖ ^ 2 : ℝ) : ℂ) * (u * (starRingEnd ℂ) w) = u / w := fun u w hw => by
    have hn : ((‖w‖ : ℂ)) ^ 2 ≠ 0 := by
      have := norm_ne_zero_iff.mpr hw
      exact pow_ne_zero 2 (Complex.ofReal_ne_zero.mpr this)
    have hc := Complex.mul_conj w
    rw [Complex.normSq_eq_norm_sq] at hc
    push_cast at hc ⊢
    rw [div_mul_eq_mul_div, one_mul, div_eq_div_iff hn hw, ← hc]
    ring
  have hpos := hg.wf.pos
  have hd := hg.dim
  unfold spread
  by_cases hn' : n' = 1
  · by_cases hn : n = 1
    · have hm : max n n' = 1 := by omega
      simp only [hm, hn, hn', if_true]
      exact key _ _ (h0 0 (by omega))
    · have hm : max n n' ≠ 1 := by omega
      rw [if_neg hm]
      simp only [hn, hn', if_true, if_false]
      exact key _ _ (h0 0 (by omega))
  · have hm : max n n' ≠ 1 := by omega
    simp only [hm, hn', if_false]
    exact key _ _ (h0 k (by omega))

/-- **C36.**  `ComplexRealScal(f, g)`: products of complex numbers by a real number, given first or second. -/
theorem C36_realScal {a : ℝ} (hf : IsReal env f 1 fun _ => a) (hg : IsComplex env g n z)
    (hr : realScal f g = .ok r ∨ realScal g f = .ok r) : IsComplex env r n fun k => a * z k := by
  have hdf := hf.dim
  have hdg := hg.dim
  have : mkBin .realScal f g = .ok r := by
    unfold realScal at hr
    rw [if_pos hdf, if_neg (by omega)] at hr
    exact hr.elim id id
  obtain ⟨rfl, ha⟩ := mkBin_ok this
  refine ⟨⟨hf.wf, hg.wf, ha⟩, ⟨hf.defined, hg.defined, trivial⟩, hg.dim, fun k hk => ?_⟩
  show cplx (binVal .realScal _ _ _ _) k = _
  simp only [binVal, cplx_store]
  rw [hf.val 0 one_pos, hg.cplx k hk]

/-! ## What is accepted -/

/-- **C36.**  `ComplexAdd`, `ComplexSubtract` and `ComplexMult` of two vectors of complex numbers are accepted if the
vectors have the same length, or one of them is a single number; in all other cases, and for all vectors which do not
hold complex numbers, they raise `KeOps_Error`. -/
theorem C36_accepts {o : Bin} (ho : o = .add ∨ o = .sub ∨ o = .mul) (hf : 0 < f.dim) (hg : 0 < g.dim) :
    ((∃ n n', f.dim = 2 * n ∧ g.dim = 2 * n' ∧ (n = n' ∨ n = 1 ∨ n' = 1)) → ∃ r, mkBin o f g = .ok r) ∧
    ((¬∃ n n', f.dim = 2 * n ∧ g.dim = 2 * n' ∧ (n = n' ∨ n = 1 ∨ n' = 1)) → mkBin o f g = .error .keops) := by
  have key : o.accept f.dim g.dim = true ↔
      ∃ n n', f.dim = 2 * n ∧ g.dim = 2 * n' ∧ (n = n' ∨ n = 1 ∨ n' = 1) := by
    have : o.accept f.dim g.dim = (max f.dim g.dim % 2 == 0 && (f.dim == g.dim || min f.dim g.dim == 2)) := by
      rcases ho with rfl | rfl | rfl <;> rfl
    rw [this]
    simp only [Bool.and_eq_true, beq_iff_eq, Bool.or_eq_true]
    constructor
    · intro h
      exact ⟨f.dim / 2, g.dim / 2, by omega, by omega, by omega⟩
    · rintro ⟨n, n', h1, h2, h3⟩
      omega
  exact ⟨fun h => ⟨_, mkBin_eq (key.mpr h)⟩, fun h => if_neg fun h' => h (key.mp h')⟩

/-- **C36.**  The other operations on complex numbers accept all vectors of complex numbers, and raise `KeOps_Error`
for vectors that do not hold complex numbers. -/
theorem C36_acceptsUn {o : Un} (ho : o = .conj ∨ o = .real ∨ o = .imag ∨ o = .sqAbs ∨ o = .sum ∨ o = .exp) :
    ((∃ n, f.dim = 2 * n) → ∃ r, mkUn o f = .ok r) ∧ ((¬∃ n, f.dim = 2 * n) → mkUn o f = .error .keops) := by
  have key : o.accept f.dim = true ↔ ∃ n, f.dim = 2 * n := by
    have : o.accept f.dim = (f.dim % 2 == 0) := by rcases ho with rfl | rfl | rfl | rfl | rfl | rfl <;> rfl
    rw [this, beq_iff_eq]
    exact ⟨fun h => ⟨f.dim / 2, by omega⟩, fun ⟨n, h⟩ => by omega⟩
  exact ⟨fun h => ⟨_, mkUn_eq (key.mpr h)⟩, fun h => if_neg fun h' => h (key.mp h')⟩

/-- **C36.**  `Real2Complex`, `Imag2Complex` and `ComplexExp1j` accept all vectors. -/
theorem C36_acceptsReal {o : Un} (ho : o = .ofReal ∨ o = .ofImag ∨ o = .exp1j) : ∃ r, mkUn o f = .ok r := by
  rcases ho with rfl | rfl | rfl <;> exact ⟨_, mkUn_eq rfl⟩

/-- **C36.**  `ComplexAbs` and `ComplexAngle` accept all vectors of complex numbers, `ComplexDivide` all those that
`ComplexMult` accepts, and `ComplexRealScal` a real number and a vector of complex numbers, in any order. -/
theorem C36_acceptsDerived (hf : 0 < f.dim) (hg : 0 < g.dim) :
    (f.dim = 2 * n → (∃ r, abs f = .ok r) ∧ ∃ r, angle f = .ok r) ∧
    (f.dim = 2 * n → g.dim = 2 * n' → n = n' ∨ n = 1 ∨ n' = 1 → ∃ r, divide f g = .ok r) ∧
    (f.dim = 1 → g.dim = 2 * n' → (∃ r, realScal f g = .ok r) ∧ ∃ r, realScal g f = .ok r) := by
  have hun : ∀ {o : Un} {f : Form} {n : Nat}, o = .conj ∨ o = .real ∨ o = .imag ∨ o = .sqAbs → f.dim = 2 * n →
      mkUn o f = .ok (.un o f) := fun {o f n} ho h => mkUn_eq (by
    rcases ho with rfl | rfl | rfl | rfl <;> exact beq_iff_eq.mpr (by omega))
  have hmul : ∀ {f g : Form}, 0 < f.dim → 0 < g.dim →
      (∃ n n', f.dim = 2 * n ∧ g.dim = 2 * n' ∧ (n = n' ∨ n = 1 ∨ n' = 1)) →
      mkBin .mul f g = .ok (.bin .mul f g) := fun {f g} hf hg h => by
    obtain ⟨r, hr⟩ := (C36_accepts (o := .mul) (by tauto) hf hg).1 h
    obtain ⟨rfl, _⟩ := mkBin_ok hr
    exact hr
  refine ⟨fun h => ⟨?_, ?_⟩, fun h h' hn => ?_, fun h h' => ⟨?_, ?_⟩⟩
  · exact ⟨_, by unfold abs; rw [hun (by tauto) h, ok_bind, mkUn_eq rfl]⟩
  · refine ⟨.bin .ratan2 (.un .imag f) (.un .real f), ?_⟩
    unfold angle
    rw [hun (by tauto) h, hun (by tauto) h, ok_bind, ok_bind, mkBin_eq]
    exact (real_accept (by simp) _).1
  · refine ⟨.bin .mul (.un .ofReal (.un .rinv (.un .sqAbs g))) (.bin .mul f (.un .conj g)), ?_⟩
    unfold divide
    have hd : (Form.un .sqAbs g).dim = n' := by show g.dim / 2 = n'; omega
    rw [hun (o := .sqAbs) (by tauto) h', ok_bind, mkUn_eq rfl, ok_bind, mkUn_eq rfl, ok_bind,
      hun (o := .conj) (by tauto) h', ok_bind, hmul (g := .un .conj g) hf hg ⟨n, n', h, h', hn⟩, ok_bind,
      hmul (by show 0 < 2 * Form.dim _; rw [show (Form.un .rinv (.un .sqAbs g)).dim = n' from hd]; omega)
        (by show 0 < max f.dim g.dim; omega)]
    refine ⟨n', max n n', congrArg (2 * ·) hd, ?_, by omega⟩
    show max f.dim g.dim = _
    omega
  · unfold realScal
    rw [if_pos h]
    exact ⟨_, mkBin_eq (by simp [Bin.accept, h, h'])⟩
  · unfold realScal
    rw [if_neg (by omega)]
    exact ⟨_, mkBin_eq (by simp [Bin.accept, h, h'])⟩

/-- `ComplexSumT(f, n)` is accepted for odd `n`, and its code then writes outside its array. -/
theorem not_C36_sumT (M : CMath) (hn : n % 2 = 1) (i c : Int) (ins : Int → CArr) (h : ins i = [1, 2])
    (junk : Form → Nat → ℝ) (out : CArr) (ho : out.length = n) :
    ∃ f, mkUn (.sumT n) (.var i 2 c) = .ok f ∧ f.dim = n ∧ f.code M junk ins out = .error .bounds := by
  refine ⟨_, mkUn_eq rfl, rfl, ?_⟩
  show (Except.ok (ins i) >>= fun a => Un.op M (.sumT n) 2 out a) = _
  rw [ok_bind, h]
  show loop ((n + 1) / 2) _ out = _
  obtain ⟨m, rfl⟩ : ∃ m, n = 2 * m + 1 := ⟨n / 2, by omega⟩
  rw [show (2 * m + 1 + 1) / 2 = m + 1 by omega, loop_succ]
  have hlen : ∀ k ≤ m, ∃ s, loop k (fun k (out : CArr) => do
      let out ← CArr.put out (2 * k : Nat) (← CArr.get [1, 2] 0)
      CArr.put out (2 * k + 1 : Nat) (← CArr.get [1, 2] 1)) out = .ok s ∧ s.length = 2 * m + 1 := by
    intro k hk
    induction k with
    | zero => exact ⟨out, rfl, ho⟩
    | succ k ih =>
      obtain ⟨s, hs, hl⟩ := ih (by omega)
      rw [loop_succ, hs, ok_bind, vec_of_list s, hl]
      exact ⟨vec _ _, by
        show (do
          let out ← CArr.put (vec (2 * m + 1) fun k => s.getD k 0) (2 * k : Nat) 1
          CArr.put out (2 * k + 1 : Nat) 2) = _
        rw [put_vec (by omega), ok_bind, put_vec (by omega)], vec_length⟩
  obtain ⟨s, hs, hl⟩ := hlen m le_rfl
  rw [hs, ok_bind, vec_of_list s, hl]
  show (do
    let out ← CArr.put (vec (2 * m + 1) fun k => s.getD k 0) (2 * m : Nat) 1
    CArr.put out (2 * m + 1 : Nat) 2) = _
  rw [put_vec (by omega), ok_bind, put_out]
  rw [vec_length]
  omega

end

/-! ## Gradients -/

/-- **C36.**  At every point where its operations are differentiable, a formula with complex operations has a
differential, in the sense of real analysis (real and imaginary parts are independent), and the formula that
`Grad(f, v, gradin)` returns is its transpose applied to `gradin`.

Partial: `f` does not contain operations that stand for derivatives (gradients of gradients), and real operations are
those that the complex ones use. -/
theorem C36_grad_partial {f gradin r : Form} {v : VarId} (hv : 0 < v.dim) (hw : f.WF) (hdir : f.Direct) (hu : f.Uses v)
    (hg : gradin.WF) (hd : gradin.dim = f.dim) (h : f.diffT v gradin = .ok r) (env : Env) (x : Fin v.dim → ℝ)
    (hs : f.Smooth (setVar env v x)) (hgd : gradin.Def (setVar env v x)) :
    ∃ L : (Fin v.dim → ℝ) →L[ℝ] (Fin f.dim → ℝ),
      HasFDerivAt (fun y (k : Fin f.dim) => f.val (setVar env v y) k) L x ∧
      r.dim = v.dim ∧ r.Def (setVar env v x) ∧ ∀ u : Fin v.dim → ℝ,
        ∑ k : Fin v.dim, r.val (setVar env v x) k * u k =
          ∑ k : Fin f.dim, gradin.val (setVar env v x) k * L u k := by
  have hδ := setVar_hasFDerivAt env v x
  set δ : Int → Nat → ((Fin v.dim → ℝ) →L[ℝ] ℝ) := fun i k =>
    if i = v.ind then if h : k < v.dim then
        (ContinuousLinearMap.proj (R := ℝ) (φ := fun _ : Fin v.dim => ℝ) ⟨k, h⟩) else 0 else 0 with hδd
  obtain ⟨f', hf⟩ := Form.good (F := fun y => setVar env v y) (p := x) (δ' := δ) hv hδ
    (fun i k hi => by simp only [hδd, hi, if_false]) f hw hdir hu hs
  obtain ⟨h1, h2, h3, h4⟩ := hf.adj hg hgd hd h
  refine ⟨ContinuousLinearMap.pi fun k : Fin f.dim => f' k, hasFDerivAt_pi.mpr fun k => hf.deriv k k.2, h3, h2,
    fun u => ?_⟩
  have := congrArg (fun M : (Fin v.dim → ℝ) →L[ℝ] ℝ => M u) h4
  simp only [ip, ContinuousLinearMap.sum_apply, ContinuousLinearMap.smul_apply, smul_eq_mul] at this
  rw [← Fin.sum_univ_eq_sum_range (fun k => r.val (setVar env v x) k * δ v.ind k u),
    ← Fin.sum_univ_eq_sum_range (fun k => gradin.val (setVar env v x) k * f' k u)] at this
  simp only [ContinuousLinearMap.coe_pi', ← this]
  refine sum_congr rfl fun k _ => ?_
  simp [hδd]

/-- **C36.**  The gradient exists with respect to all variables of even dimension, in particular those that hold
complex numbers. -/
theorem C36_gradExists {f gradin : Form} {v : VarId} (hv : 0 < v.dim) (he : v.dim % 2 = 0) (hw : f.WF)
    (hdir : f.Direct) (hg : gradin.WF) (hd : gradin.dim = f.dim) : ∃ r, f.diffT v gradin = .ok r := by
  have := (f.tot (v := v) hv hw hdir).adj hg hd
  cases h : f.diffT v gradin with
  | ok r => exact ⟨r, rfl⟩
  | error e =>
    rw [h] at this
    exact absurd this.2 (by omega)

/-- With respect to a variable of odd dimension, such as a real number, the gradient of every sum, difference or
product of complex numbers raises `KeOps_Error`: the two terms are added by `ComplexAdd` or `ComplexSubtract`, which
do not accept vectors of odd dimension. -/
theorem not_C36_gradOdd {o : Bin} (ho : o = .add ∨ o = .sub ∨ o = .mul) {f g gradin : Form} {v : VarId}
    (hodd : v.dim % 2 = 1) (hw : (Form.bin o f g).WF) (hdir : (Form.bin o f g).Direct) (hg : gradin.WF)
    (hd : gradin.dim = (Form.bin o f g).dim) : (Form.bin o f g).diffT v gradin = .error .keops := by
  have hv : 0 < v.dim := by omega
  have h1 := f.tot hv hw.1 hdir.1
  have h2 := g.tot hv hw.2.1 hdir.2.1
  rcases ho with rfl | rfl | rfl
  · obtain ⟨x, y, hx, hy, h⟩ := addSub_res (.inl rfl) h1 h2 hw hg hd
    exact h.trans (hx.odd (by tauto) hy hodd)
  · obtain ⟨x, y, hx, hy, h⟩ := addSub_res (.inr rfl) h1 h2 hw hg hd
    exact h.trans (hx.odd (by tauto) hy hodd)
  · obtain ⟨x, y, hx, hy, h⟩ := mul_res h1 h2 hw hg hd
    exact h.trans (hx.odd (by tauto) hy hodd)

/-- The same for the squared modulus, hence for the modulus and the quotient. -/
theorem not_C36_gradOdd_squareAbs {f gradin : Form} {v : VarId} (hodd : v.dim % 2 = 1) (hw : (Form.un .sqAbs f).WF)
    (hdir : f.Direct) (hg : gradin.WF) (hd : gradin.dim = (Form.un .sqAbs f).dim) :
    (Form.un .sqAbs f).diffT v gradin = .error .keops := by
  have hv : 0 < v.dim := by omega
  have he : f.dim % 2 = 0 := eq_of_beq hw.2.1
  have h1 := f.tot hv hw.1 hdir
  have h2 := h1.conj (WF_even (by tauto) hw.1 he)
  have ha : Bin.mul.accept f.dim f.dim = true := by simp [Bin.accept, he]
  have hd' : gradin.dim = f.dim / 2 := hd
  show (do dMul f (.un .conj f) _ _ (← mkUn .ofReal gradin)) = _
  rw [mkUn_eq rfl]
  obtain ⟨x, y, hx, hy, h⟩ := mul_res (η := .un .ofReal gradin) h1 h2 ⟨hw.1, h2.wf, ha⟩ (WF_of (by tauto) hg)
    (by show 2 * gradin.dim = max f.dim f.dim; omega)
  exact h.trans (hx.odd (by tauto) hy hodd)

/-! ## Examples -/

/-- `ComplexMult(x, y)` with `x` a vector of three complex numbers and `y` a single one. -/
abbrev exMult : Form := .bin .mul (.var 0 6 0) (.var 1 2 1)

theorem exMult_runs : mkBin .mul (.var 0 6 0) (.var 1 2 1) = .ok exMult := by decide +kernel

/-- `C36_complex` and `C36_mult` apply. -/
example (env : Env) : Computes env exMult fun i =>
    if i % 2 = 0 then ((⟨env 0 (2 * (i / 2)), env 0 (2 * (i / 2) + 1)⟩ : ℂ) * ⟨env 1 0, env 1 1⟩).re
    else ((⟨env 0 (2 * (i / 2)), env 0 (2 * (i / 2) + 1)⟩ : ℂ) * ⟨env 1 0, env 1 1⟩).im := by
  have := C36_complex (C36_mult (C36_var (n := 3) 0 0 (by omega)) (C36_var (n := 1) 1 1 (by omega))
    (env := env) exMult_runs)
  exact this

/-- `ComplexDivide(x, y)` is accepted, and `C36_divide` applies. -/
example (env : Env) (h : env 1 0 ≠ 0) : ∃ r, divide (.var 0 6 0) (.var 1 2 1) = .ok r ∧
    IsComplex env r 3 fun k => ⟨env 0 (2 * k), env 0 (2 * k + 1)⟩ / ⟨env 1 0, env 1 1⟩ :=
  ⟨_, rfl, C36_divide (n := 3) (n' := 1) (C36_var 0 0 (by omega)) (C36_var 1 1 (by omega))
    (fun k hk => by
      obtain rfl : k = 0 := by omega
      exact fun hc => h (congrArg Complex.re hc)) rfl⟩

/-- `C36_grad_partial` and `C36_gradExists` apply to the modulus of this product, at points where it is not 0. -/
example (env : Env) (x : Fin 6 → ℝ)
    (h : ∀ k < 3, 0 < (Form.un .sqAbs exMult).val (setVar env ⟨0, 6, 0⟩ x) k) :
    ∃ f r, abs exMult = .ok f ∧ f.diffT ⟨0, 6, 0⟩ (.var 2 3 0) = .ok r ∧
      ∃ L : (Fin 6 → ℝ) →L[ℝ] (Fin 3 → ℝ),
        HasFDerivAt (fun y (k : Fin 3) => f.val (setVar env ⟨0, 6, 0⟩ y) k) L x ∧
        r.dim = 6 ∧ r.Def (setVar env ⟨0, 6, 0⟩ x) ∧ ∀ u : Fin 6 → ℝ,
          ∑ k : Fin 6, r.val (setVar env ⟨0, 6, 0⟩ x) k * u k =
            ∑ k : Fin 3, (Form.var 2 3 0).val (setVar env ⟨0, 6, 0⟩ x) k * L u k := by
  have hw : (Form.un .rsqrt (.un .sqAbs exMult)).WF := by
    simp [Form.WF, Un.accept, Bin.accept, Form.dim, Bin.dim]
  have hdir : (Form.un .rsqrt (.un .sqAbs exMult)).Direct := by
    simp [Form.Direct, Un.isDeriv, Bin.isDeriv, Bin.isReal]
  obtain ⟨r, hr⟩ := C36_gradExists (f := .un .rsqrt (.un .sqAbs exMult)) (v := ⟨0, 6, 0⟩) (gradin := .var 2 3 0)
    (by decide) (by decide) hw hdir (by decide : 0 < 3) rfl
  have hg : (Form.var 2 3 0).WF := (by decide : 0 < 3)
  have ha : abs exMult = .ok (.un .rsqrt (.un .sqAbs exMult)) := by decide +kernel
  refine ⟨_, r, ha, hr, ?_⟩
  exact C36_grad_partial (gradin := .var 2 3 0) (v := ⟨0, 6, 0⟩) (by decide) hw hdir
    (by simp [Form.Uses, Form.vars]) hg rfl hr env x ⟨⟨⟨trivial, trivial, trivial⟩, trivial⟩, h⟩ trivial

/-- There are such points. -/
example : ∃ (env : Env) (x : Fin 6 → ℝ), ∀ k < 3, 0 < (Form.un .sqAbs exMult).val (setVar env ⟨0, 6, 0⟩ x) k := by
  refine ⟨fun _ _ => 1, fun _ => 1, fun k hk => ?_⟩
  have : k = 0 ∨ k = 1 ∨ k = 2 := by omega
  rcases this with rfl | rfl | rfl <;>
    simp [Form.val, unVal, binVal, store, bcast, cplx, setVar, Form.dim, Complex.ext_iff]

/-- `not_C36_gradOdd` applies to `ComplexMult(ComplexExp1j(x), y)`, with `x` a real number. -/
example : (Form.bin .mul (.un .exp1j (.var 0 1 0)) (.var 1 2 1)).diffT ⟨0, 1, 0⟩ (.var 2 2 0) = .error .keops :=
  not_C36_gradOdd (by tauto) (by decide) (by simp [Form.WF, Un.accept, Bin.accept, Form.dim, Bin.dim, Un.dim])
    (by simp [Form.Direct, Un.isDeriv, Bin.isDeriv, Bin.isReal]) (by decide : 0 < 2) rfl

end Verif.Cplx
