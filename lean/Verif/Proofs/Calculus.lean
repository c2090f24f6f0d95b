import Mathlib.Analysis.SpecialFunctions.Pow.Deriv
import Mathlib.Analysis.SpecialFunctions.Trigonometric.InverseDeriv
import Mathlib.Analysis.SpecialFunctions.Trigonometric.ArctanDeriv
import Mathlib.Analysis.SpecialFunctions.Complex.LogDeriv
import Mathlib.Analysis.Calculus.Deriv.ZPow
import Mathlib.Analysis.Calculus.Deriv.Abs
import Mathlib.Analysis.Calculus.FDeriv.Pi
import Mathlib.Tactic.FieldSimp
import Verif.Spec.Diff
import Verif.Proofs.Formula

/-!
# Differentials of the values of formulas
-/

namespace Verif

open Spec Finset Filter Topology

/-! ## Tangents -/

section Tangent

variable {M : Type} [AddCommGroup M] [Module ℝ M]

/-- Derivatives of the vectorized operations with one argument. -/
noncomputable def unD : Un → ℝ → ℝ
  | .exp, x => Real.exp x
  | .square, x => 2 * x
  | .minus, _ => -1
  | .pow m, x => m * x ^ (m - 1)
  | .inv, x => -1 / x ^ 2
  | .sqrt, x => 1 / 2 * (1 / Real.sqrt x)
  | .rsqrt, x => 1 / (-2) * (1 / Real.sqrt x) ^ 3
  | .log, x => 1 / x
  | .abs, x => if 0 < x then 1 else if x < 0 then -1 else 0
  | .cos, x => -Real.sin x
  | .sin, x => Real.cos x
  | .acos, x => -(1 / Real.sqrt (1 - x ^ 2))
  | .asin, x => 1 / Real.sqrt (1 - x ^ 2)
  | .atan, x => 1 / (1 + x ^ 2)
  | .sinXDivX, x => Real.cos x / x - Real.sin x / x ^ 2
  | .xLogX, x => Real.log x + 1
  | .relu, x => if x < 0 then 0 else 1
  | .clampInt a b, x => if x < a then 0 else if (b : ℝ) < x then 0 else 1
  | _, _ => 0

/-- Scalars are constant. -/
def cstM (d : Nat) (t : Nat → M) : Nat → M := fun k => if d = 1 then t 0 else t k

/-- Differential of an operation with one argument: `x` is the argument, `t` its differential. -/
noncomputable def unTan : Un → (d : Nat) → Vec → (Nat → M) → Nat → M
  | .sum, d, _, t => fun _ => ∑ j ∈ range d, t j
  | .sumT _, _, _, t => fun _ => t 0
  | .elem m, _, _, t => fun _ => t m.toNat
  | .elemT n m, _, _, t => cstM n fun k => if (k : Int) = m then t 0 else 0
  | .extract s n, _, _, t => cstM n fun k => t (s + k)
  | .extractT s n, d, _, t => cstM n fun k => if s ≤ k ∧ k < s + d then t (k - s) else 0
  | .oneHot _, _, _, _ => fun _ => 0
  | .max, d, x, t => fun _ => t (argMax d x)
  | .min, d, x, t => fun _ => t (argMin d x)
  | .argMax, _, _, _ => fun _ => 0
  | .argMin, _, _, _ => fun _ => 0
  | o, _, x, t => fun k => unD o (x k) • t k

/-- Same for two arguments. -/
noncomputable def binTan : Bin → (d d' : Nat) → Vec → Vec → (Nat → M) → (Nat → M) → Nat → M
  | .add, _, _, _, _, s, t => fun k => s k + t k
  | .sub, _, _, _, _, s, t => fun k => s k - t k
  | .mul, _, _, x, y, s, t => fun k => y k • s k + x k • t k
  | .div, _, _, x, y, s, t => fun k => (1 / y k) • s k - (x k / y k ^ 2) • t k
  | .powf, _, _, x, y, s, t => fun k =>
      (y k * x k ^ (y k - 1)) • s k + (Real.log (x k) * x k ^ y k) • t k
  | .atan2, _, _, x, y, s, t => fun k =>
      (y k / (x k ^ 2 + y k ^ 2)) • s k + (-x k / (x k ^ 2 + y k ^ 2)) • t k
  | .scalprod, d, d', x, y, s, t => fun _ => ∑ j ∈ range (max d d'), (y j • s j + x j • t j)
  | .concat, d, d', _, _, s, t => cstM (d + d') fun k => if k < d then s k else t (k - d)
  | .matVecMult, d, d', a, b, s, t => cstM (d / d') fun i =>
      ∑ k ∈ range d', (b k • s (i * d' + k) + a (i * d' + k) • t k)
  | .vecMatMult, d, d', b, a, s, t => cstM (d' / d) fun i =>
      ∑ k ∈ range d, (a (k * (d' / d) + i) • s k + b k • t (k * (d' / d) + i))
  | .tensorProd, d, d', x, y, s, t => cstM (d * d') fun q =>
      y (q % d') • s (q / d') + x (q / d') • t (q % d')
  | _, _, _, _, _, _, _ => fun _ => 0

/-- Same for three arguments. -/
noncomputable def ternTan : Tern → Vec → Vec → Vec → (Nat → M) → (Nat → M) → (Nat → M) → Nat → M
  | .ifElse, x, _, _, _, s, t => fun k => if 0 ≤ x k then s k else t k
  | .clamp, x, a, b, r, s, t => fun k => if x k < a k then s k else if b k < x k then t k else r k
  | .mod, x, n, d, r, s, _ => fun k => r k - (⌊(x k - d k) / n k⌋ : ℝ) • s k

/-- Differential of the value of a formula; `δ i k` is the differential of the component `k` of the
variable of index `i`. -/
noncomputable def Expr.tan (env : Env) (δ : Int → Nat → M) : Expr → Nat → M
  | .var i d _ => cstM d (δ i)
  | .zero _ | .int _ | .rat _ _ => fun _ => 0
  | .un o f => unTan o f.dim (f.val env) (f.tan env δ)
  | .bin o f g => binTan o f.dim g.dim (f.val env) (g.val env) (f.tan env δ) (g.tan env δ)
  | .tern o f g h => ternTan o (f.val env) (g.val env) (h.val env) (f.tan env δ) (g.tan env δ)
      (h.tan env δ)
  | .fact i _ _ f g => f.tan (Function.update env i (g.val env))
      (Function.update δ i (g.tan env δ))

end Tangent

/-! ## Scalar functions -/

/-- The scalar function of a vectorized operation. -/
noncomputable def unFun (o : Un) (t : ℝ) : ℝ := unVal o 1 (fun _ => t) 0

theorem unVal_fun {o : Un} (ho : o.vectorized = true) (d : Nat) (x : Vec) (k : Nat) :
    unVal o d x k = unFun o (x k) := unVal_congr ho rfl

/-- A function that is constant near a point. -/
theorem hasDerivAt_const_near {f : ℝ → ℝ} {x c : ℝ} (h : ∀ᶠ y in 𝓝 x, f y = c) :
    HasDerivAt f 0 x :=
  (hasDerivAt_const x c).congr_of_eventuallyEq (h.mono fun _ hy => hy)

theorem floor_near {x : ℝ} (h : ∀ z : ℤ, x ≠ z) : ∀ᶠ y in 𝓝 x, ⌊y⌋ = ⌊x⌋ := by
  have h1 : (⌊x⌋ : ℝ) < x := lt_of_le_of_ne (Int.floor_le x) (Ne.symm (h _))
  have h2 : x < ⌊x⌋ + 1 := Int.lt_floor_add_one x
  filter_upwards [lt_mem_nhds h1, gt_mem_nhds h2] with y h3 h4
  exact Int.floor_eq_iff.mpr ⟨h3.le, h4⟩

theorem ceil_near {x : ℝ} (h : ∀ z : ℤ, x ≠ z) : ∀ᶠ y in 𝓝 x, ⌈y⌉ = ⌈x⌉ := by
  have h1 : x < (⌈x⌉ : ℝ) := lt_of_le_of_ne (Int.le_ceil x) (h _)
  have h2 : (⌈x⌉ : ℝ) - 1 < x := by have := Int.ceil_lt_add_one x; linarith
  filter_upwards [lt_mem_nhds h2, gt_mem_nhds h1] with y h3 h4
  exact Int.ceil_eq_iff.mpr ⟨h3, h4.le⟩

theorem trunc_near {x : ℝ} (h : ∀ z : ℤ, x ≠ z) : ∀ᶠ y in 𝓝 x, trunc y = trunc x := by
  have h0 : x ≠ 0 := by simpa using h 0
  unfold trunc
  rcases lt_or_gt_of_ne h0 with h1 | h1
  · filter_upwards [gt_mem_nhds h1, ceil_near h] with y h2 h3
    rw [if_neg (not_le.mpr h2), if_neg (not_le.mpr h1), h3]
  · filter_upwards [lt_mem_nhds h1, floor_near h] with y h2 h3
    rw [if_pos h2.le, if_pos h1.le, h3]

theorem roundAway_near {x : ℝ} (h : ∀ z : ℤ, x ≠ z + 1 / 2) :
    ∀ᶠ y in 𝓝 x, roundAway y = roundAway x := by
  have hp : ∀ z : ℤ, x + 1 / 2 ≠ z := fun z hz => h (z - 1) (by push_cast; linarith)
  have hm : ∀ z : ℤ, -x + 1 / 2 ≠ z := fun z hz => h (-z) (by push_cast; linarith)
  have c1 : ∀ᶠ y in 𝓝 x, ⌊y + 1 / 2⌋ = ⌊x + 1 / 2⌋ :=
    (Continuous.tendsto (f := fun y : ℝ => y + 1 / 2) (by fun_prop) x).eventually (floor_near hp)
  have c2 : ∀ᶠ y in 𝓝 x, ⌊-y + 1 / 2⌋ = ⌊-x + 1 / 2⌋ :=
    (Continuous.tendsto (f := fun y : ℝ => -y + 1 / 2) (by fun_prop) x).eventually (floor_near hm)
  unfold roundAway
  rcases lt_trichotomy x 0 with h1 | h1 | h1
  · filter_upwards [gt_mem_nhds h1, c2] with y h2 h3
    rw [if_neg (not_le.mpr h2), if_neg (not_le.mpr h1), h3]
  · subst h1
    filter_upwards [c1, c2] with y h2 h3
    rw [h2, h3]
    have : ⌊(0 : ℝ) + 1 / 2⌋ = 0 := by rw [Int.floor_eq_iff]; norm_num
    have h' : ⌊-(0 : ℝ) + 1 / 2⌋ = 0 := by rw [Int.floor_eq_iff]; norm_num
    rw [this, h']; simp
  · filter_upwards [lt_mem_nhds h1, c1] with y h2 h3
    rw [if_pos h2.le, if_pos h1.le, h3]

/-- The scalar functions are differentiable. -/
theorem unFun_deriv {o : Un} (ho : o.vectorized = true) {t : ℝ}
    (hs : unSmooth o 1 (fun _ => t)) : HasDerivAt (unFun o) (unD o t) t := by
  cases o with
  | exp => exact Real.hasDerivAt_exp t
  | square =>
    have h1 := hasDerivAt_pow 2 t
    have h2 : unFun .square = fun x => x ^ 2 := by funext x; simp [unFun, unVal]
    rw [h2]; simpa [unD] using h1
  | minus => exact hasDerivAt_neg t
  | pow m =>
    have h : t ≠ 0 ∨ 0 ≤ m := by
      by_cases hm : m < 0
      · exact Or.inl (hs 0 Nat.one_pos hm)
      · exact Or.inr (by omega)
    exact hasDerivAt_zpow m t h
  | inv =>
    have h : t ≠ 0 := hs 0 Nat.one_pos
    have h1 := hasDerivAt_inv h
    have h2 : unFun .inv = fun x => x⁻¹ := by funext x; simp [unFun, unVal]
    rw [h2]; simpa [unD, neg_div] using h1
  | sqrt =>
    have h : 0 < t := hs 0 Nat.one_pos
    have h1 : HasDerivAt (unFun .sqrt) _ t := Real.hasDerivAt_sqrt h.ne'
    have h2 : unD .sqrt t = 1 / (2 * Real.sqrt t) := by simp only [unD]; field_simp
    rw [h2]; exact h1
  | rsqrt =>
    have h : 0 < t := hs 0 Nat.one_pos
    have h1 := (Real.hasDerivAt_sqrt h.ne').inv (Real.sqrt_pos.mpr h).ne'
    have h2 : unFun .rsqrt =ᶠ[𝓝 t] (Real.sqrt)⁻¹ := by
      filter_upwards [lt_mem_nhds h] with y hy
      simp [unFun, unVal, hy.ne']
    have h0 := (Real.sqrt_pos.mpr h).ne'
    have h3 : unD .rsqrt t = -(1 / (2 * Real.sqrt t)) / Real.sqrt t ^ 2 := by
      simp only [unD]; field_simp
    rw [h3]; exact h1.congr_of_eventuallyEq h2
  | log =>
    have h : 0 < t := hs 0 Nat.one_pos
    have h1 : HasDerivAt (unFun .log) _ t := Real.hasDerivAt_log h.ne'
    simpa [unD] using h1
  | abs =>
    have h : t ≠ 0 := hs 0 Nat.one_pos
    simp only [unD]
    rcases lt_or_gt_of_ne h with h1 | h1
    · rw [if_neg (not_lt.mpr h1.le), if_pos h1]
      exact hasDerivAt_abs_neg h1
    · rw [if_pos h1]
      exact hasDerivAt_abs_pos h1
  | sign =>
    have h : t ≠ 0 := hs 0 Nat.one_pos
    rcases lt_or_gt_of_ne h with h1 | h1
    · exact hasDerivAt_const_near (c := -1) (by
        filter_upwards [gt_mem_nhds h1] with y hy; simp [unFun, unVal, hy, not_lt.mpr hy.le])
    · exact hasDerivAt_const_near (c := 1) (by
        filter_upwards [lt_mem_nhds h1] with y hy; simp [unFun, unVal, hy])
  | cos => exact Real.hasDerivAt_cos t
  | sin => exact Real.hasDerivAt_sin t
  | acos =>
    have h := hs 0 Nat.one_pos
    exact Real.hasDerivAt_arccos h.1.ne' h.2.ne
  | asin =>
    have h := hs 0 Nat.one_pos
    exact Real.hasDerivAt_arcsin h.1.ne' h.2.ne
  | atan => exact Real.hasDerivAt_arctan t
  | sinXDivX =>
    have h : t ≠ 0 := hs 0 Nat.one_pos
    have h1 := (Real.hasDerivAt_sin t).div (hasDerivAt_id t) h
    have h2 : unFun .sinXDivX =ᶠ[𝓝 t] Real.sin / id := by
      filter_upwards [isOpen_ne.mem_nhds h] with y hy
      have hy : y ≠ 0 := hy
      simp [unFun, unVal, hy]
    have h3 : unD .sinXDivX t = (Real.cos t * id t - Real.sin t * 1) / id t ^ 2 := by
      simp only [unD, id]; field_simp
    rw [h3]; exact h1.congr_of_eventuallyEq h2
  | xLogX =>
    have h : 0 < t := hs 0 Nat.one_pos
    have h1 := (hasDerivAt_id t).mul (Real.hasDerivAt_log h.ne')
    have h2 : unFun .xLogX =ᶠ[𝓝 t] id * Real.log := by
      filter_upwards [lt_mem_nhds h] with y hy
      simp [unFun, unVal, hy.ne']
    have h3 : unD .xLogX t = 1 * Real.log t + id t * t⁻¹ := by simp [unD, h.ne']
    rw [h3]; exact h1.congr_of_eventuallyEq h2
  | step =>
    have h : t ≠ 0 := hs 0 Nat.one_pos
    rcases lt_or_gt_of_ne h with h1 | h1
    · exact hasDerivAt_const_near (c := 0) (by
        filter_upwards [gt_mem_nhds h1] with y hy; simp [unFun, unVal, hy])
    · exact hasDerivAt_const_near (c := 1) (by
        filter_upwards [lt_mem_nhds h1] with y hy; simp [unFun, unVal, not_lt.mpr hy.le])
  | relu =>
    have h : t ≠ 0 := hs 0 Nat.one_pos
    simp only [unD]
    rcases lt_or_gt_of_ne h with h1 | h1
    · rw [if_pos h1]
      exact hasDerivAt_const_near (c := 0) (by
        filter_upwards [gt_mem_nhds h1] with y hy; simp [unFun, unVal, hy])
    · rw [if_neg (not_lt.mpr h1.le)]
      refine (hasDerivAt_id t).congr_of_eventuallyEq ?_
      filter_upwards [lt_mem_nhds h1] with y hy
      simp [unFun, unVal, not_lt.mpr hy.le]
  | clampInt a b =>
    obtain ⟨ha, hb⟩ : t ≠ a ∧ t ≠ b := hs 0 Nat.one_pos
    simp only [unD]
    rcases lt_or_gt_of_ne ha with h1 | h1
    · rw [if_pos h1]
      exact hasDerivAt_const_near (c := a) (by
        filter_upwards [gt_mem_nhds h1] with y hy; simp [unFun, unVal, hy])
    · rw [if_neg (not_lt.mpr h1.le)]
      rcases lt_or_gt_of_ne hb with h2 | h2
      · rw [if_neg (not_lt.mpr h2.le)]
        refine (hasDerivAt_id t).congr_of_eventuallyEq ?_
        filter_upwards [lt_mem_nhds h1, gt_mem_nhds h2] with y hy hz
        simp [unFun, unVal, not_lt.mpr hy.le, not_lt.mpr hz.le]
      · rw [if_pos h2]
        exact hasDerivAt_const_near (c := b) (by
          filter_upwards [lt_mem_nhds h1, lt_mem_nhds h2] with y hy hz
          simp [unFun, unVal, not_lt.mpr hy.le, hz])
  | diffClampInt a b =>
    obtain ⟨ha, hb⟩ : t ≠ a ∧ t ≠ b := hs 0 Nat.one_pos
    rcases lt_or_gt_of_ne ha with h1 | h1
    · exact hasDerivAt_const_near (c := 0) (by
        filter_upwards [gt_mem_nhds h1] with y hy; simp [unFun, unVal, hy])
    · rcases lt_or_gt_of_ne hb with h2 | h2
      · exact hasDerivAt_const_near (c := 1) (by
          filter_upwards [lt_mem_nhds h1, gt_mem_nhds h2] with y hy hz
          simp [unFun, unVal, not_lt.mpr hy.le, not_lt.mpr hz.le])
      · exact hasDerivAt_const_near (c := 0) (by
          filter_upwards [lt_mem_nhds h1, lt_mem_nhds h2] with y hy hz
          simp [unFun, unVal, not_lt.mpr hy.le, hz])
  | round p =>
    have h : ∀ z : ℤ, t * 10 ^ p ≠ z + 1 / 2 := hs 0 Nat.one_pos
    refine hasDerivAt_const_near (c := roundAway (t * 10 ^ p) / 10 ^ p) ?_
    have := (Continuous.tendsto (f := fun y : ℝ => y * (10 : ℝ) ^ p) (by fun_prop) t).eventually
      (roundAway_near h)
    filter_upwards [this] with y hy
    simp only [unFun, unVal, hy]
  | floor =>
    have h : ∀ z : ℤ, t ≠ z := hs 0 Nat.one_pos
    refine hasDerivAt_const_near (c := ⌊t⌋) ?_
    filter_upwards [floor_near h] with y hy
    simp only [unFun, unVal, hy]
  | _ => cases ho

/-! ## Positions of extrema -/

theorem argMax_spec {d : Nat} (hd : 0 < d) (x : Vec) :
    argMax d x < d ∧ ∀ i < d, x i ≤ x (argMax d x) := by
  have : {j | j < d ∧ ∀ i < d, x i ≤ x j}.Nonempty := by
    obtain ⟨j, hj, h⟩ := Finset.exists_max_image (range d) x ⟨0, by simpa using hd⟩
    exact ⟨j, by simpa using hj, fun i hi => h i (by simpa using hi)⟩
  exact Nat.sInf_mem this

theorem argMin_spec {d : Nat} (hd : 0 < d) (x : Vec) :
    argMin d x < d ∧ ∀ i < d, x (argMin d x) ≤ x i := by
  have : {j | j < d ∧ ∀ i < d, x j ≤ x i}.Nonempty := by
    obtain ⟨j, hj, h⟩ := Finset.exists_min_image (range d) x ⟨0, by simpa using hd⟩
    exact ⟨j, by simpa using hj, fun i hi => h i (by simpa using hi)⟩
  exact Nat.sInf_mem this

theorem argMax_unique {d j : Nat} (hj : j < d) {x : Vec} (h : ∀ i < d, i ≠ j → x i < x j) :
    argMax d x = j := by
  obtain ⟨h1, h2⟩ := argMax_spec (by omega : 0 < d) x
  by_contra hne
  exact absurd (h2 j hj) (not_le.mpr (h _ h1 hne))

theorem argMin_unique {d j : Nat} (hj : j < d) {x : Vec} (h : ∀ i < d, i ≠ j → x j < x i) :
    argMin d x = j := by
  obtain ⟨h1, h2⟩ := argMin_spec (by omega : 0 < d) x
  by_contra hne
  exact absurd (h2 j hj) (not_le.mpr (h _ h1 hne))

/-! ## Constancy of the differentials of scalars -/

theorem Expr.tan_const {M : Type} [AddCommGroup M] [Module ℝ M] {e : Expr} (hw : e.WF)
    (hd : e.dim = 1) (env : Env) (δ : Int → Nat → M) (k l : Nat) :
    e.tan env δ k = e.tan env δ l := by
  induction e generalizing env δ with
  | var i d c =>
    have : d = 1 := hd
    simp [Expr.tan, cstM, this]
  | zero | int | rat => rfl
  | un o f ih =>
    by_cases ho : o.vectorized = true
    · rw [dim_un ho] at hd
      have h1 := ih hw.1 hd env δ
      have h2 := f.val_const hw.1 hd env k l
      cases o <;> first | (cases ho; done) | (simp only [Expr.tan, unTan, h1, h2])
    · cases o <;> first | rfl | (exact absurd rfl ho) | (
        simp only [Expr.dim, Un.dim] at hd
        subst hd
        simp [Expr.tan, unTan, cstM])
  | bin o f g i1 i2 =>
    by_cases ho : o.vectorized = true
    · have h1 := hw.1.pos
      have h2 := hw.2.1.pos
      rw [dim_bin ho] at hd
      have h3 := i1 hw.1 (by omega) env δ
      have h4 := i2 hw.2.1 (by omega) env δ
      have h5 := f.val_const hw.1 (by omega) env k l
      have h6 := g.val_const hw.2.1 (by omega) env k l
      cases o <;> first | (cases ho; done) | rfl | (simp only [Expr.tan, binTan, h3, h4, h5, h6])
    · cases o <;> first | rfl | (exact absurd rfl ho) | (
        simp only [Expr.dim, Bin.dim] at hd
        simp [Expr.tan, binTan, cstM, hd])
  | tern o f g h i1 i2 i3 =>
    have h1 := hw.1.pos
    have h2 := hw.2.1.pos
    have h3 := hw.2.2.1.pos
    simp only [Expr.dim] at hd
    have h4 := i1 hw.1 (by omega) env δ
    have h5 := i2 hw.2.1 (by omega) env δ
    have h6 := i3 hw.2.2.1 (by omega) env δ
    have h7 := f.val_const hw.1 (by omega) env k l
    have h8 := g.val_const hw.2.1 (by omega) env k l
    have h9 := h.val_const hw.2.2.1 (by omega) env k l
    cases o <;> simp only [Expr.tan, ternTan, h4, h5, h6, h7, h8, h9]
  | fact i d c f g i1 _ => exact i1 hw.1 hd _ _

/-! ## Differentials of the values -/

section Calculus

variable {X : Type} [NormedAddCommGroup X] [NormedSpace ℝ X]

theorem hasFDerivAt_const_near {f : X → ℝ} {x : X} {c : ℝ} (h : ∀ᶠ y in 𝓝 x, f y = c) :
    HasFDerivAt f (0 : X →L[ℝ] ℝ) x :=
  (hasFDerivAt_const c x).congr_of_eventuallyEq h

theorem unSmooth_at {o : Un} (ho : o.vectorized = true) {d k : Nat} (hk : k < d) {x : Vec}
    (h : unSmooth o d x) : unSmooth o 1 (fun _ => x k) := by
  cases o <;> first | (cases ho; done) | trivial | exact fun l _ => h k hk

theorem hasFDerivAt_atan2 {f g : X → ℝ} {f' g' : X →L[ℝ] ℝ} {x : X} (hf : HasFDerivAt f f' x)
    (hg : HasFDerivAt g g' x) (h : 0 < g x ∨ f x ≠ 0) :
    HasFDerivAt (fun y => Complex.arg ⟨g y, f y⟩)
      ((g x / (f x ^ 2 + g x ^ 2)) • f' + (-f x / (f x ^ 2 + g x ^ 2)) • g') x := by
  have hz : (⟨g x, f x⟩ : ℂ) ∈ Complex.slitPlane := by
    rw [Complex.mem_slitPlane_iff]; exact h
  have h1 : HasFDerivAt (fun y => (⟨g y, f y⟩ : ℂ))
      (Complex.ofRealCLM.comp g' + (Complex.I : ℂ) • (Complex.ofRealCLM.comp f')) x := by
    have h2 := (Complex.ofRealCLM.hasFDerivAt (x := g x)).comp x hg
    have h3 := ((Complex.ofRealCLM.hasFDerivAt (x := f x)).comp x hf).const_smul Complex.I
    have h4 := h2.add h3
    refine h4.congr_of_eventuallyEq (Eventually.of_forall fun y => ?_)
    apply Complex.ext <;> simp
  have h2 := ((Complex.hasStrictDerivAt_log hz).hasDerivAt.hasFDerivAt.restrictScalars ℝ).comp x h1
  have h3 := (Complex.imCLM.hasFDerivAt (x := Complex.log ⟨g x, f x⟩)).comp x h2
  have h4 : HasFDerivAt (fun y => Complex.arg ⟨g y, f y⟩) _ x :=
    h3.congr_of_eventuallyEq (Eventually.of_forall fun y => by simp [Complex.log_im])
  refine h4.congr_fderiv ?_
  ext u
  simp [Complex.inv_re, Complex.inv_im, Complex.normSq_apply]
  ring

theorem ind_near {p : X → Prop} [DecidablePred p] {x : X} (h : ∀ᶠ y in 𝓝 x, (p y ↔ p x)) :
    HasFDerivAt (fun y => Spec.ind (p y)) (0 : X →L[ℝ] ℝ) x := by
  refine hasFDerivAt_const_near (c := Spec.ind (p x)) ?_
  filter_upwards [h] with y hy
  unfold Spec.ind
  by_cases hp : p x
  · rw [if_pos hp, if_pos (hy.mpr hp)]
  · rw [if_neg hp, if_neg (fun h => hp (hy.mp h))]

theorem near_lt {f g : X → ℝ} {x : X} (hf : ContinuousAt f x) (hg : ContinuousAt g x)
    (h : f x < g x) : ∀ᶠ y in 𝓝 x, f y < g y := hf.eventually_lt hg h

/-- The value of a formula is differentiable where all its operations are. -/
theorem Expr.hasFDerivAt {e : Expr} (hw : e.WF) (hff : e.FactFree) {F : X → Env} {x₀ : X}
    {δ : Int → Nat → (X →L[ℝ] ℝ)} (hδ : ∀ i k, HasFDerivAt (fun x => F x i k) (δ i k) x₀)
    (hs : e.Smooth (F x₀)) {k : Nat} (hk : k < e.dim ∨ e.dim = 1) :
    HasFDerivAt (fun x => e.val (F x) k) (e.tan (F x₀) δ k) x₀ := by
  have ext : ∀ e : Expr, e.WF →
      (∀ k, k < e.dim → HasFDerivAt (fun x => e.val (F x) k) (e.tan (F x₀) δ k) x₀) →
      ∀ k, (k < e.dim ∨ e.dim = 1) →
        HasFDerivAt (fun x => e.val (F x) k) (e.tan (F x₀) δ k) x₀ := by
    intro e hw h k hk
    rcases hk with hk | hk
    · exact h k hk
    · have := h 0 (by omega)
      rw [e.tan_const hw hk (F x₀) δ k 0]
      refine this.congr_of_eventuallyEq (Eventually.of_forall fun y => ?_)
      exact e.val_const hw hk _ _ _
  refine ext e hw ?_ k hk
  clear hk k
  induction e with
  | var i d c =>
    intro k _
    simp only [Expr.val, Expr.tan, cst, cstM]
    split
    · exact hδ i 0
    · exact hδ i k
  | zero | int | rat => intro k _; exact hasFDerivAt_const _ _
  | un o f ih =>
    intro k hk
    have IH := ext f hw.1 (ih hw.1 hff hs.1)
    have hd := hw.1.pos
    have hu := hs.2
    by_cases ho : o.vectorized = true
    · rw [dim_un ho] at hk
      have h1 := (unFun_deriv ho (unSmooth_at ho hk hu)).comp_hasFDerivAt x₀ (IH k (Or.inl hk))
      have h2 : (Expr.un o f).tan (F x₀) δ k = unD o (f.val (F x₀) k) • f.tan (F x₀) δ k := by
        cases o <;> first | (cases ho; done) | rfl
      rw [h2]
      exact h1.congr_of_eventuallyEq (Eventually.of_forall fun y => unVal_fun ho _ _ _)
    · have hacc := hw.2.1
      cases o with
      | sum =>
        simp only [Expr.val, Expr.tan, unVal, unTan]
        exact HasFDerivAt.fun_sum fun j hj => IH j (Or.inl (by simpa using hj))
      | sumT n => exact IH 0 (Or.inl hd)
      | elem m =>
        simp only [Un.accept] at hacc
        have hm : 0 ≤ m := hu
        refine IH _ (Or.inl ?_)
        simp at hacc
        omega
      | elemT n m =>
        simp only [Expr.val, Expr.tan, unVal, unTan, cst, cstM]
        split_ifs
        · exact IH 0 (Or.inl hd)
        · exact hasFDerivAt_const _ _
        · exact IH 0 (Or.inl hd)
        · exact hasFDerivAt_const _ _
      | extract s n =>
        simp [Un.accept] at hacc
        have hk' : k < n := hk
        simp only [Expr.val, Expr.tan, unVal, unTan, cst, cstM]
        split_ifs
        · exact IH _ (Or.inl (by omega))
        · exact IH _ (Or.inl (by omega))
      | extractT s n =>
        simp only [Expr.val, Expr.tan, unVal, unTan, cst, cstM]
        split_ifs
        · exact IH _ (Or.inl (by omega))
        · exact hasFDerivAt_const _ _
        · exact IH _ (Or.inl (by omega))
        · exact hasFDerivAt_const _ _
      | oneHot n =>
        have h1 : ∀ᶠ y in 𝓝 x₀, trunc (f.val (F y) 0 + 1 / 2) = trunc (f.val (F x₀) 0 + 1 / 2) :=
          ((IH 0 (Or.inl hd)).continuousAt.add continuousAt_const).eventually (trunc_near hu.1)
        refine hasFDerivAt_const_near (c := (Expr.un (.oneHot n) f).val (F x₀) k) ?_
        filter_upwards [h1] with y hy
        simp only [Expr.val, unVal, hy]
      | max | argMax =>
        obtain ⟨j, hj, hlt⟩ := hu
        have h0 := argMax_unique hj hlt
        have h1 : ∀ᶠ y in 𝓝 x₀, argMax f.dim (f.val (F y)) = j := by
          have h2 : ∀ᶠ y in 𝓝 x₀, ∀ i ∈ range f.dim, i ≠ j → f.val (F y) i < f.val (F y) j := by
            refine (Finset.eventually_all _).mpr fun i hi => ?_
            have hi : i < f.dim := by simpa using hi
            by_cases hij : i = j
            · exact Eventually.of_forall fun y hne => absurd hij hne
            · filter_upwards [near_lt (IH i (Or.inl hi)).continuousAt (IH j (Or.inl hj)).continuousAt
                (hlt i hi hij)] with y hy _ using hy
          filter_upwards [h2] with y hy
          exact argMax_unique hj fun i hi => hy i (by simpa using hi)
        first
        | refine hasFDerivAt_const_near (c := j) ?_
          filter_upwards [h1] with y hy
          simp only [Expr.val, unVal, hy]
          done
        | simp only [Expr.tan, unTan, h0]
          refine (IH j (Or.inl hj)).congr_of_eventuallyEq ?_
          filter_upwards [h1] with y hy
          simp only [Expr.val, unVal, hy]
      | min | argMin =>
        obtain ⟨j, hj, hlt⟩ := hu
        have h0 := argMin_unique hj hlt
        have h1 : ∀ᶠ y in 𝓝 x₀, argMin f.dim (f.val (F y)) = j := by
          have h2 : ∀ᶠ y in 𝓝 x₀, ∀ i ∈ range f.dim, i ≠ j → f.val (F y) j < f.val (F y) i := by
            refine (Finset.eventually_all _).mpr fun i hi => ?_
            have hi : i < f.dim := by simpa using hi
            by_cases hij : i = j
            · exact Eventually.of_forall fun y hne => absurd hij hne
            · filter_upwards [near_lt (IH j (Or.inl hj)).continuousAt (IH i (Or.inl hi)).continuousAt
                (hlt i hi hij)] with y hy _ using hy
          filter_upwards [h2] with y hy
          exact argMin_unique hj fun i hi => hy i (by simpa using hi)
        first
        | refine hasFDerivAt_const_near (c := j) ?_
          filter_upwards [h1] with y hy
          simp only [Expr.val, unVal, hy]
          done
        | simp only [Expr.tan, unTan, h0]
          refine (IH j (Or.inl hj)).congr_of_eventuallyEq ?_
          filter_upwards [h1] with y hy
          simp only [Expr.val, unVal, hy]
      | _ => exact absurd rfl ho
  | bin o f g i1 i2 =>
    intro k hk
    have I1 := ext f hw.1 (i1 hw.1 hff.1 hs.1)
    have I2 := ext g hw.2.1 (i2 hw.2.1 hff.2 hs.2.1)
    have hp1 := hw.1.pos
    have hp2 := hw.2.1.pos
    have hb := hs.2.2
    by_cases ho : o.vectorized = true
    · have hdd := WF.dims hw ho
      rw [dim_bin ho] at hk
      have J1 := I1 k (by omega)
      have J2 := I2 k (by omega)
      cases o with
      | add => exact J1.add J2
      | sub => exact J1.sub J2
      | mul =>
        refine (J1.mul J2).congr_fderiv ?_
        simp only [Expr.tan, binTan]
        exact add_comm _ _
      | div =>
        have hy : g.val (F x₀) k ≠ 0 := hb k hk
        have h1 := J1.mul ((hasDerivAt_inv hy).comp_hasFDerivAt x₀ J2)
        have h2 : (fun x => (Expr.bin .div f g).val (F x) k) =
            (fun x => f.val (F x) k) * ((fun y => y⁻¹) ∘ fun x => g.val (F x) k) := by
          funext x; simp [Expr.val, binVal, div_eq_mul_inv]
        rw [h2]
        refine h1.congr_fderiv ?_
        ext u
        simp [Expr.tan, binTan]
        field_simp
        ring
      | powf =>
        have hx : 0 < f.val (F x₀) k := hb k hk
        refine (J1.rpow J2 hx).congr_fderiv ?_
        ext u
        simp only [Expr.tan, binTan, ContinuousLinearMap.add_apply, ContinuousLinearMap.smul_apply,
          smul_eq_mul]
        ring
      | atan2 => exact hasFDerivAt_atan2 J1 J2 ((hb k hk).imp id id)
      | lessThan | lessOrEqual | equal | notEqual =>
        have hne : f.val (F x₀) k ≠ g.val (F x₀) k := hb k hk
        refine ind_near ?_
        rcases lt_or_gt_of_ne hne with h | h
        · filter_upwards [near_lt J1.continuousAt J2.continuousAt h] with y hy
          simp [h, hy, h.le, hy.le, h.ne, hy.ne]
        · filter_upwards [near_lt J2.continuousAt J1.continuousAt h] with y hy
          simp [not_lt.mpr h.le, not_lt.mpr hy.le, not_le.mpr h, not_le.mpr hy, h.ne', hy.ne']
      | _ => cases ho
    · have hacc := hw.2.2.1
      have hkd := hk
      cases o with
      | scalprod =>
        have hd : f.dim = g.dim := by simpa [Bin.accept] using hacc
        simp only [Expr.val, Expr.tan, binVal, binTan]
        refine HasFDerivAt.fun_sum fun j hj => ?_
        have hj : j < max f.dim g.dim := by simpa using hj
        refine ((I1 j (Or.inl (by omega))).mul (I2 j (Or.inl (by omega)))).congr_fderiv ?_
        exact add_comm _ _
      | concat =>
        have hk' : k < f.dim + g.dim := hk
        simp only [Expr.val, Expr.tan, binVal, binTan, cst, cstM]
        split_ifs <;> first | omega | exact I1 _ (Or.inl (by omega)) | exact I2 _ (Or.inl (by omega))
      | matVecMult =>
        have hk' : k < f.dim / g.dim := hk
        have key : ∀ i < f.dim / g.dim, HasFDerivAt
            (fun x => ∑ k ∈ range g.dim, f.val (F x) (i * g.dim + k) * g.val (F x) k)
            (∑ k ∈ range g.dim, (g.val (F x₀) k • f.tan (F x₀) δ (i * g.dim + k) +
              f.val (F x₀) (i * g.dim + k) • g.tan (F x₀) δ k)) x₀ := by
          intro i hi
          refine HasFDerivAt.fun_sum fun j hj => ?_
          have hj : j < g.dim := by simpa using hj
          have : i * g.dim + j < f.dim := by
            have h1 : (i + 1) * g.dim ≤ f.dim / g.dim * g.dim := Nat.mul_le_mul_right _ hi
            have h2 := Nat.div_mul_le_self f.dim g.dim
            rw [Nat.succ_mul i] at h1
            omega
          refine ((I1 _ (Or.inl this)).mul (I2 j (Or.inl hj))).congr_fderiv ?_
          exact add_comm _ _
        simp only [Expr.val, Expr.tan, binVal, binTan, cst, cstM]
        split_ifs
        · exact key 0 (by omega)
        · exact key k hk'
      | vecMatMult =>
        have hk' : k < g.dim / f.dim := hk
        have key : ∀ i < g.dim / f.dim, HasFDerivAt
            (fun x => ∑ k ∈ range f.dim, f.val (F x) k * g.val (F x) (k * (g.dim / f.dim) + i))
            (∑ k ∈ range f.dim, (g.val (F x₀) (k * (g.dim / f.dim) + i) • f.tan (F x₀) δ k +
              f.val (F x₀) k • g.tan (F x₀) δ (k * (g.dim / f.dim) + i))) x₀ := by
          intro i hi
          refine HasFDerivAt.fun_sum fun j hj => ?_
          have hj : j < f.dim := by simpa using hj
          have : j * (g.dim / f.dim) + i < g.dim := by
            have h1 : (j + 1) * (g.dim / f.dim) ≤ f.dim * (g.dim / f.dim) :=
              Nat.mul_le_mul_right _ hj
            have h2 := Nat.mul_div_le g.dim f.dim
            rw [Nat.succ_mul j] at h1
            omega
          refine ((I1 j (Or.inl hj)).mul (I2 _ (Or.inl this))).congr_fderiv ?_
          exact add_comm _ _
        simp only [Expr.val, Expr.tan, binVal, binTan, cst, cstM]
        split_ifs
        · exact key 0 (by omega)
        · exact key k hk'
      | tensorProd =>
        have hk' : k < f.dim * g.dim := hk
        have key : ∀ q < f.dim * g.dim, HasFDerivAt
            (fun x => f.val (F x) (q / g.dim) * g.val (F x) (q % g.dim))
            (g.val (F x₀) (q % g.dim) • f.tan (F x₀) δ (q / g.dim) +
              f.val (F x₀) (q / g.dim) • g.tan (F x₀) δ (q % g.dim)) x₀ := by
          intro q hq
          have h1 : q / g.dim < f.dim := Nat.div_lt_of_lt_mul (by rwa [Nat.mul_comm])
          have h2 : q % g.dim < g.dim := Nat.mod_lt _ hp2
          refine ((I1 _ (Or.inl h1)).mul (I2 _ (Or.inl h2))).congr_fderiv ?_
          exact add_comm _ _
        simp only [Expr.val, Expr.tan, binVal, binTan, cst, cstM]
        split_ifs
        · exact key 0 (by omega)
        · exact key k hk'
      | _ => exact absurd rfl ho
  | tern o f g h i1 i2 i3 =>
    intro k hk
    have hp1 := hw.1.pos
    have hp2 := hw.2.1.pos
    have hp3 := hw.2.2.1.pos
    have hdd := (dimsOk_triple hp1 hp2 hp3).mp hw.2.2.2
    have hk' : k < max (max f.dim g.dim) h.dim := hk
    have J1 := ext f hw.1 (i1 hw.1 hff.1 hs.1) k (by omega)
    have J2 := ext g hw.2.1 (i2 hw.2.1 hff.2.1 hs.2.1) k (by omega)
    have J3 := ext h hw.2.2.1 (i3 hw.2.2.1 hff.2.2 hs.2.2.1) k (by omega)
    have ht := hs.2.2.2
    cases o with
    | ifElse =>
      have h0 : f.val (F x₀) k ≠ 0 := ht k hk
      simp only [Expr.tan, ternTan]
      rcases lt_or_gt_of_ne h0 with h1 | h1
      · rw [if_neg (not_le.mpr h1)]
        refine J3.congr_of_eventuallyEq ?_
        filter_upwards [near_lt J1.continuousAt continuousAt_const h1] with y hy
        simp only [Expr.val, ternVal, if_neg (not_le.mpr hy)]
      · rw [if_pos h1.le]
        refine J2.congr_of_eventuallyEq ?_
        filter_upwards [near_lt continuousAt_const J1.continuousAt h1] with y hy
        simp only [Expr.val, ternVal, if_pos (le_of_lt hy)]
    | clamp =>
      obtain ⟨h0, ha, hb⟩ : g.val (F x₀) k < h.val (F x₀) k ∧ f.val (F x₀) k ≠ g.val (F x₀) k ∧
        f.val (F x₀) k ≠ h.val (F x₀) k := ht k hk
      simp only [Expr.tan, ternTan]
      rcases lt_or_gt_of_ne ha with h1 | h1
      · rw [if_pos h1]
        refine J2.congr_of_eventuallyEq ?_
        filter_upwards [near_lt J1.continuousAt J2.continuousAt h1] with y hy
        simp only [Expr.val, ternVal, if_pos hy]
      · rw [if_neg (not_lt.mpr h1.le)]
        rcases lt_or_gt_of_ne hb with h2 | h2
        · rw [if_neg (not_lt.mpr h2.le)]
          refine J1.congr_of_eventuallyEq ?_
          filter_upwards [near_lt J2.continuousAt J1.continuousAt h1,
            near_lt J1.continuousAt J3.continuousAt h2] with y hy hz
          simp only [Expr.val, ternVal, if_neg (not_lt.mpr hy.le), if_neg (not_lt.mpr hz.le)]
        · rw [if_pos h2]
          refine J3.congr_of_eventuallyEq ?_
          filter_upwards [near_lt J2.continuousAt J1.continuousAt h1,
            near_lt J3.continuousAt J1.continuousAt h2] with y hy hz
          simp only [Expr.val, ternVal, if_neg (not_lt.mpr hy.le), if_pos hz]
    | mod =>
      obtain ⟨h0, hz⟩ : g.val (F x₀) k ≠ 0 ∧
        ∀ z : ℤ, (f.val (F x₀) k - h.val (F x₀) k) / g.val (F x₀) k ≠ z := ht k hk
      have hc : ContinuousAt (fun x => (f.val (F x) k - h.val (F x) k) / g.val (F x) k) x₀ :=
        (J1.continuousAt.sub J3.continuousAt).div J2.continuousAt h0
      have hfl := hc.eventually (floor_near hz)
      have h1 := J1.sub (J2.const_mul
        (⌊(f.val (F x₀) k - h.val (F x₀) k) / g.val (F x₀) k⌋ : ℝ))
      refine h1.congr_of_eventuallyEq ?_
      filter_upwards [hfl] with y hy
      simp only [Expr.val, ternVal, hy]
      simp [mul_comm]
  | fact => exact absurd hff id

end Calculus

end Verif
