import Verif.Proofs.DiffTerm

/-!
# C04: gradients

`Grads e v gradin r`: the call `Grad(e, v, gradin)` returns the formula `r`.
-/

namespace Verif

open Finset Spec

/-- The call `Grad(e, v, gradin)` returns `r` (with a recursion of some depth). -/
def Grads (e : Expr) (v : VarId) (gradin r : Expr) : Prop := ∃ n, grad n e v gradin = .ok r

/-- `r` is the gradient of `e` with respect to `v`, at the value `x` of `v` and along `gradin`: it has
the dimension of `v`, can be evaluated at this point, and its scalar product with a direction `u` is that
of `gradin` with the derivative of `e` in the direction `u`. -/
def IsGrad (e : Expr) (v : VarId) (gradin r : Expr) (env : Env) (x : Fin v.dim → ℝ)
    (L : (Fin v.dim → ℝ) →L[ℝ] (Fin e.dim → ℝ)) : Prop :=
  r.dim = v.dim ∧ r.Def (setVar env v x) ∧ ∀ u : Fin v.dim → ℝ,
    ∑ k : Fin v.dim, r.val (setVar env v x) k * u k =
      ∑ k : Fin e.dim, gradin.val (setVar env v x) k * L u k

/-- The coordinates of the inputs, as functions of the value of `v`. -/
theorem setVar_hasFDerivAt (env : Env) (v : VarId) (x : Fin v.dim → ℝ) (i : Int) (k : Nat) :
    HasFDerivAt (fun y => setVar env v y i k)
      (if i = v.ind then if h : k < v.dim then
        (ContinuousLinearMap.proj (R := ℝ) (φ := fun _ : Fin v.dim => ℝ) ⟨k, h⟩) else 0 else 0) x := by
  by_cases hi : i = v.ind
  · subst hi
    by_cases hk : k < v.dim
    · simp only [setVar, Function.update_self, hk, dif_pos, if_true]
      exact (ContinuousLinearMap.proj (R := ℝ) (φ := fun _ : Fin v.dim => ℝ) ⟨k, hk⟩).hasFDerivAt
    · simp only [setVar, Function.update_self, hk, dif_neg, if_true, not_false_eq_true]
      exact hasFDerivAt_const _ _
  · simp only [setVar, hi, if_false, Function.update_of_ne, ne_eq, not_false_eq_true]
    exact hasFDerivAt_const _ _

/-- **C04**: at every point where the operations of `e` are differentiable, `e` has a differential and
`Grad(e, v, gradin)` is its transpose applied to `gradin`.

Missing with respect to the full property, which fails for them (see `not_C04_*` below): points where `e`
is differentiable although one of its operations is not, and broadcasting in `Powf`, `Atan2` and `IfElse`
(hypothesis `NoBroadcast`).  Also missing: formulas which contain `Factorize`. -/
theorem C04_grad_partial {e gradin r : Expr} {v : VarId} (hv : 0 < v.dim) (he : e.WF)
    (hf : e.FactFree) (hn : e.NoBroadcast) (hu : e.Uses v) (hg : gradin.WF) (hd : gradin.dim = e.dim)
    (h : Grads e v gradin r) (env : Env) (x : Fin v.dim → ℝ)
    (hs : e.Smooth (setVar env v x)) (hgd : gradin.Def (setVar env v x)) :
    ∃ L, HasDiff e v env x L ∧ IsGrad e v gradin r env x L := by
  obtain ⟨n, h⟩ := h
  have hδ := setVar_hasFDerivAt env v x
  set δ : Int → Nat → ((Fin v.dim → ℝ) →L[ℝ] ℝ) := fun i k =>
    if i = v.ind then if h : k < v.dim then
        (ContinuousLinearMap.proj (R := ℝ) (φ := fun _ : Fin v.dim => ℝ) ⟨k, h⟩) else 0 else 0 with hδd
  obtain ⟨R, hR, hL⟩ := diffT_res (F := fun y => setVar env v y) (x₀ := x) (δ := δ) hv hδ
    (fun i k hi => by simp only [hδd, hi, if_false]) he
    (Expr.dom_smooth.mpr ⟨hs, hn, hu, hf⟩)
    (G := gradin.val (setVar env v x))
    ⟨hg, hd, (gradin.dom_defined _).mpr hgd, fun _ => rfl⟩ h
  refine ⟨ContinuousLinearMap.pi fun k : Fin e.dim => e.tan (setVar env v x) δ k,
    hasFDerivAt_pi.mpr fun k => Expr.hasFDerivAt he hf hδ hs (Or.inl k.2), hR.dim,
    (r.dom_defined _).mp hR.dom, fun u => ?_⟩
  have := congrArg (fun M : (Fin v.dim → ℝ) →L[ℝ] ℝ => M u) hL
  simp only [pairV, pairE, ContinuousLinearMap.sum_apply, ContinuousLinearMap.smul_apply,
    smul_eq_mul] at this
  rw [← Fin.sum_univ_eq_sum_range (fun k => R k * δ v.ind k u),
    ← Fin.sum_univ_eq_sum_range (fun k => gradin.val (setVar env v x) k *
      e.tan (setVar env v x) δ k u)] at this
  simp only [ContinuousLinearMap.coe_pi', ← this, hR.val]
  refine sum_congr rfl fun k _ => ?_
  simp [hδd]

/-- **C04** without `gradin`: the gradient is taken along a new variable. -/
theorem C04_gradNew_partial {e r : Expr} {v : VarId} (hv : 0 < v.dim) (he : e.WF)
    (hf : e.FactFree) (hn : e.NoBroadcast) (hu : e.Uses v)
    (h : ∃ n, gradNew n e v = .ok r) (env : Env) (x : Fin v.dim → ℝ)
    (hs : e.Smooth (setVar env v x)) :
    ∃ i, i ∉ e.inds ∧ ∃ L, HasDiff e v env x L ∧
      IsGrad e v (.var i e.dim (1 - v.cat)) r env x L := by
  obtain ⟨n, h⟩ := h
  unfold gradNew at h
  split_ifs at h
  refine ⟨gradInd e, fun hi => ?_, C04_grad_partial hv he hf hn hu (gradin := .var _ _ _) he.pos rfl
    ⟨n, h⟩ env x hs trivial⟩
  unfold gradInd at hi
  split at hi
  · rename_i m hm
    have := (List.max?_eq_some_iff.mp hm).2 _ hi
    omega
  · rename_i hm
    rw [List.max?_eq_none_iff.mp hm] at hi
    cases hi

/-- `Grad` always comes to an end: it returns a formula or raises an exception. -/
theorem C04_terminates {e gradin : Expr} {v : VarId} (hv : 0 < v.dim) (he : e.WF) (hf : e.FactFree)
    (hg : gradin.WF) : (∃ r, r.WF ∧ Grads e v gradin r) ∨
      ∃ er, er ≠ .fuel ∧ ∃ n, grad n e v gradin = .error er := by
  obtain ⟨N, x, hx, hN, hw⟩ := diffT_fine hv he hf gradin hg
  cases x with
  | ok r => exact .inl ⟨r, hw r rfl, N, hN N (le_refl _)⟩
  | error er => exact .inr ⟨er, fun h => hx (h ▸ rfl), N, hN N (le_refl _)⟩

section Example

/-- The points `x_i` and `y_j`. -/
private abbrev xi : Expr := .var 0 2 0
private abbrev yj : Expr := .var 1 2 1

/-- A Gaussian kernel. -/
private abbrev gauss : Expr :=
  .un .exp (.un .minus (.bin .scalprod (.bin .sub xi yj) (.bin .sub xi yj)))

/-- The theorem applies to the gradient of a Gaussian kernel, at every point. -/
example (env : Env) (x : Fin 2 → ℝ) : ∃ r, Grads gauss ⟨0, 2, 0⟩ (.var 2 1 1) r ∧
    ∃ L, HasDiff gauss ⟨0, 2, 0⟩ env x L ∧ IsGrad gauss ⟨0, 2, 0⟩ (.var 2 1 1) r env x L := by
  refine ⟨_, ⟨20, rfl⟩, C04_grad_partial (v := ⟨0, 2, 0⟩) (by decide) ?_ ?_ ?_ ?_ ?_ ?_ ⟨20, rfl⟩ env x ?_ ?_⟩
  all_goals simp [Expr.WF, Expr.FactFree, Expr.NoBroadcast, Expr.Uses, Expr.dim, Expr.Smooth, Expr.Def,
    unSmooth, binSmooth, Un.dim, Bin.dim, Un.accept, Bin.accept, dimsOk]

end Example

/-! ## Where the property fails -/

section Fails

private abbrev x0 : Expr := .var 0 1 0
private abbrev v0 : VarId := ⟨0, 1, 0⟩

/-- The formula `ReLU(x) - ReLU(-x)`, i.e. `x`. -/
private abbrev reluId : Expr := .bin .sub (.un .relu x0) (.un .relu (.un .minus x0))

/-- `ReLU(x) - ReLU(-x)` is differentiable at 0, with derivative 1; its gradient is 2 there. -/
theorem not_C04_relu : ∃ (e gradin r : Expr) (v : VarId) (env : Env) (x : Fin v.dim → ℝ)
    (L : (Fin v.dim → ℝ) →L[ℝ] (Fin e.dim → ℝ)), e.WF ∧ e.FactFree ∧ e.NoBroadcast ∧ e.Uses v ∧
    gradin.WF ∧ gradin.dim = e.dim ∧ e.Def (setVar env v x) ∧ gradin.Def (setVar env v x) ∧
    Grads e v gradin r ∧ HasDiff e v env x L ∧ ¬ IsGrad e v gradin r env x L := by
  refine ⟨reluId, .int 1, _, v0, fun _ _ => 0, fun _ => 0, ContinuousLinearMap.id ℝ (Fin 1 → ℝ),
    ?_, ?_, ?_, ?_, ?_, ?_, ?_, ?_, ⟨20, rfl⟩, ?_, ?_⟩
  · simp [Expr.WF, Expr.dim, Un.dim, Bin.dim, Un.accept, Bin.accept, dimsOk]
  · simp [Expr.FactFree]
  · simp [Expr.NoBroadcast]
  · simp [Expr.Uses]
  · simp [Expr.WF]
  · simp [Expr.dim, Un.dim, Bin.dim]
  · simp [Expr.Def, unDef, binDef]
  · simp [Expr.Def]
  · have : (fun (y : Fin 1 → ℝ) (k : Fin 1) => reluId.val (setVar (fun _ _ => 0) v0 y) k) = id := by
      funext y k
      have hk : k = 0 := Subsingleton.elim _ _
      subst hk
      simp [Expr.val, Expr.dim, unVal, binVal, cst, setVar]
      split_ifs <;> first | linarith | (have : y 0 = 0 := by linarith); simp [this]
    show HasFDerivAt (fun (y : Fin 1 → ℝ) (k : Fin 1) => reluId.val (setVar (fun _ _ => 0) v0 y) k) _ _
    rw [this]
    exact hasFDerivAt_id _
  · rintro ⟨-, -, h⟩
    have : _ = ∑ k : Fin 1, _ := h fun _ => 1
    rw [Fin.sum_univ_one] at this
    simp [Expr.val, Expr.dim, unVal, binVal, cst, setVar, Un.dim, Bin.dim] at this
    have hL : (ContinuousLinearMap.id ℝ (Fin 1 → ℝ)) (fun _ => 1) (0 : Fin 1) = 1 := rfl
    have := this.trans hL
    norm_num at this

/-- The function computed by `SinXDivX`. -/
private noncomputable def sinc (x : ℝ) : ℝ := if x = 0 then 1 else Real.sin x / x

private theorem sinc_deriv : HasDerivAt sinc 0 0 := by
  have h : HasFDerivAt (fun x => sinc x - 1) (0 : ℝ →L[ℝ] ℝ) 0 := by
    refine Asymptotics.IsBigO.hasFDerivAt (n := 2) (.of_bound 1 ?_) (by decide)
    filter_upwards [Metric.ball_mem_nhds (0 : ℝ) one_pos] with x hx
    have hx : |x| < 1 := by simpa using hx
    rw [sub_zero, one_mul, Real.norm_eq_abs, Real.norm_eq_abs, Real.norm_eq_abs, abs_pow, abs_abs]
    unfold sinc
    split_ifs with h0
    · simp [h0]
    · have hb := Real.sin_bound hx.le
      have hp : 0 < |x| := abs_pos.mpr h0
      have e : Real.sin x / x - 1 = (Real.sin x - x) / x := by field_simp
      rw [e, abs_div, div_le_iff₀ hp]
      have h3 : |x ^ 3 / 6| = |x| ^ 3 / 6 := by rw [abs_div, abs_pow]; norm_num
      have : |Real.sin x - x| ≤ |Real.sin x - (x - x ^ 3 / 6)| + |x ^ 3 / 6| := by
        have := abs_sub (Real.sin x - (x - x ^ 3 / 6)) (x ^ 3 / 6)
        ring_nf at this ⊢
        exact this
      have h4 : |x| ^ 5 ≤ |x| ^ 3 := pow_le_pow_of_le_one hp.le hx.le (by decide)
      have h5 : 0 ≤ |x| ^ 3 := by positivity
      have h6 : |x| ^ 2 * |x| = |x| ^ 3 := by ring
      rw [h6]; linarith
  have h2 := h.hasDerivAt.add_const 1
  simpa using h2

private theorem sinc_vec : HasFDerivAt (fun (y : Fin 1 → ℝ) (_ : Fin 1) => sinc (y 0))
    (0 : (Fin 1 → ℝ) →L[ℝ] (Fin 1 → ℝ)) fun _ => 0 := by
  refine hasFDerivAt_pi'.mpr fun k => ?_
  have h1 := HasFDerivAt.comp (g := sinc) (fun _ : Fin 1 => (0 : ℝ)) sinc_deriv.hasFDerivAt
    (ContinuousLinearMap.proj (R := ℝ) (φ := fun _ : Fin 1 => ℝ) 0).hasFDerivAt
  refine h1.congr_fderiv ?_
  ext; simp

/-- `SinXDivX` is differentiable at 0; its gradient divides by 0 there. -/
theorem not_C04_sinXDivX : ∃ (e gradin r : Expr) (v : VarId) (env : Env) (x : Fin v.dim → ℝ)
    (L : (Fin v.dim → ℝ) →L[ℝ] (Fin e.dim → ℝ)), e.WF ∧ e.FactFree ∧ e.NoBroadcast ∧ e.Uses v ∧
    gradin.WF ∧ gradin.dim = e.dim ∧ e.Def (setVar env v x) ∧ gradin.Def (setVar env v x) ∧
    Grads e v gradin r ∧ HasDiff e v env x L ∧ ¬ r.Def (setVar env v x) := by
  refine ⟨.un .sinXDivX x0, .int 1, _, v0, fun _ _ => 0, fun _ => 0, 0,
    ?_, ?_, ?_, ?_, ?_, ?_, ?_, ?_, ⟨20, rfl⟩, ?_, ?_⟩
  · simp [Expr.WF, Expr.dim, Un.dim, Un.accept]
  · simp [Expr.FactFree]
  · simp [Expr.NoBroadcast]
  · simp [Expr.Uses]
  · simp [Expr.WF]
  · simp [Expr.dim, Un.dim]
  · simp [Expr.Def, unDef]
  · simp [Expr.Def]
  · have : (fun (y : Fin 1 → ℝ) (k : Fin 1) =>
        (Expr.un .sinXDivX x0).val (setVar (fun _ _ => 0) v0 y) k) = fun y _ => sinc (y 0) := by
      funext y k
      simp [Expr.val, Expr.dim, unVal, cst, setVar, sinc]
    show HasFDerivAt (fun (y : Fin 1 → ℝ) (k : Fin 1) =>
        (Expr.un .sinXDivX x0).val (setVar (fun _ _ => 0) v0 y) k) _ _
    rw [this]
    exact sinc_vec
  · simp [Expr.Def, Expr.val, Expr.dim, unVal, binDef, cst, setVar, Un.dim]

/-- The gradient of `Powf(x, b)` with a scalar `x` and a vector `b` does not have the dimension of
`x`. -/
theorem not_C04_powf : ∃ (e gradin r : Expr) (v : VarId) (env : Env) (x : Fin v.dim → ℝ),
    e.WF ∧ e.FactFree ∧ e.Uses v ∧ gradin.WF ∧ gradin.dim = e.dim ∧ e.Smooth (setVar env v x) ∧
    gradin.Def (setVar env v x) ∧ Grads e v gradin r ∧ r.dim ≠ v.dim := by
  refine ⟨.bin .powf x0 (.var 1 3 1), .var 2 3 1, _, v0, fun _ _ => 1, fun _ => 1,
    ?_, ?_, ?_, ?_, ?_, ?_, ?_, ⟨20, rfl⟩, ?_⟩
  · simp [Expr.WF, Expr.dim, Bin.dim, Bin.accept, dimsOk]
  · simp [Expr.FactFree]
  · simp [Expr.Uses]
  · simp [Expr.WF]
  · simp [Expr.dim, Bin.dim]
  · simp [Expr.Smooth, binSmooth, Expr.val, cst, setVar]
  · simp [Expr.Def]
  · simp [Expr.dim, Bin.dim, intCst]

/-- The formula `IfElse(f, (v_0, v_0), 0)`, with a vector `f` of dimension 2. -/
private abbrev ifVec : Expr :=
  .tern .ifElse (.var 1 2 1) (.un (.sumT 2) (.un (.elem 0) (.var 0 2 0))) (.zero 2)

/-- With a condition `f = (1, -1)`, the gradient of `IfElse(f, (v_0, v_0), 0)` along `(1, 1)` is `(2, 0)`
instead of `(1, 0)`. -/
theorem not_C04_ifElse : ∃ (e gradin r : Expr) (v : VarId) (env : Env) (x : Fin v.dim → ℝ)
    (L : (Fin v.dim → ℝ) →L[ℝ] (Fin e.dim → ℝ)), e.WF ∧ e.FactFree ∧ e.Uses v ∧
    gradin.WF ∧ gradin.dim = e.dim ∧ e.Smooth (setVar env v x) ∧ gradin.Def (setVar env v x) ∧
    Grads e v gradin r ∧ HasDiff e v env x L ∧ ¬ IsGrad e v gradin r env x L := by
  refine ⟨ifVec, .var 2 2 1, _, ⟨0, 2, 0⟩,
    fun i k => if i = 1 ∧ k = 1 then -1 else 1, fun _ => 0,
    ContinuousLinearMap.pi fun k : Fin 2 => if k = 0 then
      ContinuousLinearMap.proj (R := ℝ) (φ := fun _ : Fin 2 => ℝ) 0 else 0,
    ?_, ?_, ?_, ?_, ?_, ?_, ?_, ⟨20, rfl⟩, ?_, ?_⟩
  · simp [Expr.WF, Expr.dim, Un.dim, Un.accept, dimsOk]
  · simp [Expr.FactFree]
  · simp [Expr.Uses]
  · simp [Expr.WF]
  · simp [Expr.dim, Un.dim]
  · simp [Expr.Smooth, unSmooth, ternSmooth, Expr.val, cst, setVar, Expr.dim]
    intro k hk; split_ifs <;> norm_num
  · simp [Expr.Def]
  · refine hasFDerivAt_pi.mpr fun (k : Fin 2) => ?_
    have hk : k = 0 ∨ k = 1 := by omega
    rcases hk with rfl | rfl
    · simp [Expr.val, Expr.dim, unVal, ternVal, cst, setVar]
      exact (ContinuousLinearMap.proj (R := ℝ) (φ := fun _ : Fin 2 => ℝ) 0).hasFDerivAt
    · simp [Expr.val, Expr.dim, unVal, ternVal, cst, setVar]
      norm_num
      exact hasFDerivAt_const _ _
  · rintro ⟨-, -, h⟩
    have : _ = ∑ k : Fin 2, _ := h fun k : Fin 2 => if k = 0 then 1 else 0
    rw [Fin.sum_univ_two] at this
    simp [Expr.val, Expr.dim, unVal, ternVal, cst, setVar, Un.dim, Fin.sum_univ_two] at this
    have hL : ∀ k : Fin 2, (ContinuousLinearMap.pi fun k : Fin 2 => if k = 0 then
      ContinuousLinearMap.proj (R := ℝ) (φ := fun _ : Fin 2 => ℝ) 0 else 0)
        (fun k => if k = 0 then 1 else 0) k = if k = 0 then 1 else 0 := by
      intro k; rw [ContinuousLinearMap.pi_apply]; split_ifs <;> simp
    have := this.trans (congrArg₂ (· + ·) (hL 0) (hL 1))
    norm_num at this

end Fails

end Verif
