import Verif.Proofs.DiffDeg
import Verif.Props.Diff

/-!
# C05, C06, C07, C51: linear formulas, adjoints, traces and forward derivatives
-/

namespace Verif

open Finset Spec

/-- The formula `Sum(v * y) * y - v / z`. -/
private abbrev linEx : Expr :=
  .bin .sub (.bin .mul (.un .sum (.bin .mul (.var 0 3 0) (.var 1 3 1))) (.var 1 3 1))
    (.bin .div (.var 0 3 0) (.var 2 1 0))

/-! ## C07: the linearity test -/

/-- **C07**: if the library reports that `e` is linear in `v`, then the value of `e` is additive and
homogeneous in `v`.

Missing with respect to the full property, which fails without it (see `not_C07_mul` and `not_C07_div`):
the hypothesis on the degree, i.e. that `v` does not occur in both factors of a product, nor in a
denominator. -/
theorem C07_linear_partial {e : Expr} {v : VarId} (hl : e.isLinear v = true) (hd : e.deg v.ind ≤ 1)
    (env : Env) (a b : ℝ) (x y : Fin v.dim → ℝ) (k : Nat) :
    e.val (setVar env v fun i => a * x i + b * y i) k =
      a * e.val (setVar env v x) k + b * e.val (setVar env v y) k := by
  have off : ∀ x y : Fin v.dim → ℝ, Off v.ind (setVar env v x) (setVar env v y) := fun x y i hi => by
    simp only [setVar, Function.update_of_ne hi]
  refine Expr.val_linear hl hd (off _ _) (off _ _) (fun k => ?_) k
  simp only [setVar, Function.update_self]
  split_ifs <;> simp

/-- The theorem applies to `Sum(v * y) * y - v / z`. -/
example (env : Env) (a b : ℝ) (x y : Fin 3 → ℝ) (k : Nat) :
    linEx.val (setVar env ⟨0, 3, 0⟩ fun i => a * x i + b * y i) k =
      a * linEx.val (setVar env ⟨0, 3, 0⟩ x) k + b * linEx.val (setVar env ⟨0, 3, 0⟩ y) k :=
  C07_linear_partial (v := ⟨0, 3, 0⟩) (by decide) (by decide) env a b x y k

/-- `v * Exp(v)` is accepted as linear. -/
theorem not_C07_mul : ∃ (e : Expr) (v : VarId) (env : Env) (x : Fin v.dim → ℝ), e.WF ∧
    e.isLinear v = true ∧ (∀ y, e.Def (setVar env v y)) ∧
    e.val (setVar env v fun i => 2 * x i) 0 ≠ 2 * e.val (setVar env v x) 0 := by
  refine ⟨.bin .mul (.var 0 1 0) (.un .exp (.var 0 1 0)), ⟨0, 1, 0⟩, fun _ _ => 0, fun _ => 1, ?_,
    by decide, ?_, ?_⟩
  · simp [Expr.WF, Expr.dim, Bin.accept, Bin.dim, Un.dim, Un.accept, dimsOk]
  · simp [Expr.Def, binDef, unDef]
  · simp [Expr.val, unVal, binVal, cst, setVar]

/-- `v / v` is accepted as linear. -/
theorem not_C07_div : ∃ (e : Expr) (v : VarId) (env : Env) (x y : Fin v.dim → ℝ), e.WF ∧
    e.isLinear v = true ∧ e.Def (setVar env v x) ∧ e.Def (setVar env v y) ∧
    e.Def (setVar env v fun i => x i + y i) ∧
    e.val (setVar env v fun i => x i + y i) 0 ≠ e.val (setVar env v x) 0 + e.val (setVar env v y) 0 := by
  refine ⟨.bin .div (.var 0 1 0) (.var 0 1 0), ⟨0, 1, 0⟩, fun _ _ => 0, fun _ => 1, fun _ => 1,
    ?_, by decide, ?_, ?_, ?_, ?_⟩
  · simp [Expr.WF, Expr.dim, Bin.accept, Bin.dim, dimsOk]
  all_goals simp [Expr.Def, binDef, Expr.val, binVal, cst, setVar, Expr.dim]

/-! ## C06: adjoints and traces -/

/-- The call `AdjointOperator(e, v, u)` returns `r`. -/
def Adjoints (e : Expr) (v : VarId) (u r : Expr) : Prop := ∃ n, adjoint n v e u = .ok r

/-- The call `TraceOperator(e, v)` returns `r`. -/
def Traces (e : Expr) (v : VarId) (r : Expr) : Prop := ∃ n, trace n v e none = .ok r

/-- **C06**: `AdjointOperator(e, v, u)` is the adjoint of the linear map `v ↦ e` applied to `u`: its scalar
product with any vector `y` is that of `u` with the value of `e` for `v = y`.

Missing: as for C07, the hypothesis on the degree.  Operations that the linearity test accepts and for
which the adjoint is not implemented make the call fail (`not_C06_adjoint`). -/
theorem C06_adjoint_partial {e u r : Expr} {v : VarId} (hv : 0 < v.dim) (he : e.WF)
    (hd : e.deg v.ind ≤ 1) (hu : u.WF) (hud : u.dim = e.dim) (h : Adjoints e v u r) (env : Env)
    (hed : e.Def env) (hdu : u.Def env) : r.dim = v.dim ∧ r.Def env ∧ ∀ y : Fin v.dim → ℝ,
      ∑ k : Fin v.dim, r.val env k * y k =
        ∑ k : Fin e.dim, u.val env k * e.val (setVar env v y) k := by
  obtain ⟨n, h⟩ := h
  obtain ⟨R, h1, h2⟩ := adjoint_res (env := env) hv ⟨he, hd, (e.dom_defined _).mpr hed⟩
    (U := u.val env) ⟨hu, hud, (u.dom_defined _).mpr hdu, fun _ => rfl⟩ h
  refine ⟨h1.dim, (r.dom_defined _).mp h1.dom, fun y => ?_⟩
  have := h2 (setVar env v y) fun i hi => (Function.update_of_ne hi _ _).symm
  unfold dot at this
  rw [← Fin.sum_univ_eq_sum_range (fun k => R k * setVar env v y v.ind k),
    ← Fin.sum_univ_eq_sum_range (fun k => u.val env k * e.val (setVar env v y) k)] at this
  rw [← this]
  refine sum_congr rfl fun k _ => ?_
  simp [h1.val, setVar]

/-- The theorem applies to `Sum(v * y) * y - v / z`. -/
example (env : Env) (hz : env 2 0 ≠ 0) :
    ∃ r, Adjoints linEx ⟨0, 3, 0⟩ (.var 3 3 1) r ∧ r.Def env := by
  refine ⟨_, ⟨20, rfl⟩, (C06_adjoint_partial (e := linEx) (u := .var 3 3 1) (v := ⟨0, 3, 0⟩) (by decide) ?_ (by decide) ?_ ?_ ⟨20, rfl⟩
    env ?_ ?_).2.1⟩
  all_goals simp [Expr.WF, Expr.dim, Expr.Def, binDef, unDef, Un.dim, Bin.dim, Un.accept, Bin.accept,
    dimsOk, Expr.val, cst, hz, Weight.op]

/-- `Concat(v, v)` is accepted as linear, but its adjoint is not implemented. -/
theorem not_C06_adjoint : ∃ (e u : Expr) (v : VarId), e.WF ∧ e.isLinear v = true ∧ e.deg v.ind ≤ 1 ∧
    u.WF ∧ u.dim = e.dim ∧ ∃ n, adjoint n v e u = .error .keops := by
  refine ⟨.bin .concat (.var 0 1 0) (.var 0 1 0), .var 1 2 1, ⟨0, 1, 0⟩, ?_, by decide, by decide, ?_, ?_,
    5, rfl⟩
  all_goals simp [Expr.WF, Expr.dim, Bin.dim, Bin.accept]

theorem basis_eq (env : Env) (v : VarId) (i : Fin v.dim) :
    basis env v i = setVar env v (Pi.single i 1) := by
  unfold basis setVar
  congr 1
  funext k
  by_cases hk : k < v.dim
  · simp only [hk, dif_pos, Pi.single_apply, Fin.ext_iff]
  · have : k ≠ i := by omega
    simp [hk, this]

/-- **C06**: `TraceOperator(e, v)` is the trace of the linear map `v ↦ e`.

Missing: the hypothesis on the degree, as for C07, and that `v` occurs under at most one sum over
components (`dep`); otherwise the result can be wrong (`not_C06_trace`). -/
theorem C06_trace_partial {e r : Expr} {v : VarId} (hv : 0 < v.dim) (he : e.WF)
    (hd : e.deg v.ind ≤ 1) (hp : e.dep v.ind ≤ 2) (hev : e.dim = v.dim) (h : Traces e v r) (env : Env)
    (hed : e.Def env) : r.dim = 1 ∧ r.Def env ∧
      r.val env 0 = ∑ i : Fin v.dim, e.val (setVar env v (Pi.single i 1)) i := by
  obtain ⟨n, h⟩ := h
  have h1 := trace_res (env := env) (w := none) (W := fun _ => 1) hv ⟨he, hd, (e.dom_defined _).mpr hed⟩
    ⟨rfl, fun _ => rfl⟩ hp (.inr hev) (.inl rfl) h
  refine ⟨h1.dim, (r.dom_defined _).mp h1.dom, ?_⟩
  rw [h1.val, ← Fin.sum_univ_eq_sum_range (fun i => 1 * mat env v e i i)]
  refine sum_congr rfl fun i _ => ?_
  rw [one_mul, mat, basis_eq]

/-- The theorem applies to `Sum(v * y) * y - v / z`. -/
example (env : Env) (hz : env 2 0 ≠ 0) :
    ∃ r, Traces linEx ⟨0, 3, 0⟩ r ∧ r.Def env := by
  refine ⟨_, ⟨20, rfl⟩, (C06_trace_partial (e := linEx) (v := ⟨0, 3, 0⟩) (by decide) ?_ (by decide) (by decide) ?_
    ⟨20, rfl⟩ env ?_).2.1⟩
  all_goals simp [Expr.WF, Expr.dim, Expr.Def, binDef, unDef, Un.dim, Bin.dim, Un.accept, Bin.accept,
    dimsOk, Expr.val, cst, hz, Weight.op]

/-- The trace of `v ↦ c * Sum(Sum(b * Sum(v)))` is `Sum(c) * Sum(b)`; the operator returns
`2 * Sum(b * c)` for vectors of dimension 2. -/
theorem not_C06_trace : ∃ (e r : Expr) (v : VarId) (env : Env), 0 < v.dim ∧ e.WF ∧ e.isLinear v = true ∧
    e.deg v.ind ≤ 1 ∧ e.dim = v.dim ∧ Traces e v r ∧ e.Def env ∧
      r.val env 0 ≠ ∑ i : Fin v.dim, e.val (setVar env v (Pi.single i 1)) i := by
  refine ⟨.bin .mul (.var 1 2 1) (.un .sum (.un .sum (.bin .mul (.var 2 2 1) (.un .sum (.var 0 2 0))))),
    _, ⟨0, 2, 0⟩, fun i k => if (i = 1 ∧ k = 0) ∨ (i = 2 ∧ k = 1) then 1 else 0, by decide, ?_, by decide,
    by decide, ?_, ⟨20, rfl⟩, ?_, ?_⟩
  · simp [Expr.WF, Expr.dim, Bin.dim, Un.dim, Bin.accept, Un.accept, dimsOk]
  · simp [Expr.dim, Bin.dim, Un.dim]
  · simp [Expr.Def, unDef, binDef]
  · intro h
    have : _ = ∑ i : Fin 2, _ := h
    rw [Fin.sum_univ_two] at this
    simp [Expr.val, unVal, binVal, cst, setVar, Expr.dim, Bin.dim, Un.dim, sum_range_succ, Weight.op] at this

/-- The trace of the null map is not implemented. -/
theorem not_C06_trace_zero : ∃ (e : Expr) (v : VarId), e.WF ∧ e.isLinear v = true ∧ e.dim = v.dim ∧
    ∃ n, trace n v e none = .error .keops :=
  ⟨.zero 2, ⟨0, 2, 0⟩, by simp [Expr.WF], by decide, by decide, 5, rfl⟩

/-! ## C05: forward derivatives -/

/-- The call `Diff(e, v, u)` returns `r`. -/
def Diffs (e : Expr) (v : VarId) (u r : Expr) : Prop := ∃ n, diff n e v u = .ok r

theorem diffInd_fresh {e u : Expr} {v : VarId} {i : Int} (h : i ∈ e.inds ∨ i = v.ind ∨ i ∈ u.inds) :
    i ≠ diffInd e v u := by
  intro hi
  have hm : i ∈ e.inds ++ [v.ind] ++ u.inds := by
    simp only [List.mem_append, List.mem_singleton]; tauto
  unfold diffInd at hi
  split at hi
  · rename_i m hm'
    have := (List.max?_eq_some_iff.mp hm').2 _ hm
    omega
  · rename_i hm'
    rw [List.max?_eq_none_iff.mp hm'] at hm
    cases hm

theorem gradInd_fresh {e : Expr} {i : Int} (h : i ∈ e.inds) : i ≠ gradInd e := by
  intro hi
  unfold gradInd at hi
  split at hi
  · rename_i m hm'
    have := (List.max?_eq_some_iff.mp hm').2 _ h
    omega
  · rename_i hm'
    rw [List.max?_eq_none_iff.mp hm'] at h
    cases h

/-- The value of a temporary variable does not matter. -/
theorem setVar_update (env : Env) (v : VarId) (x : Fin v.dim → ℝ) {w : Int} (hw : w ≠ v.ind) (G : Vec) :
    setVar (Function.update env w G) v x = Function.update (setVar env v x) w G := by
  unfold setVar
  exact Function.update_comm hw _ _ _

/-- The gradient along a temporary variable, for a value of this variable. -/
theorem grad_temp_at {e d : Expr} {v : VarId} {w : Int} (hv : 0 < v.dim) (he : e.WF) (hf : e.FactFree)
    (hn : e.NoBroadcast) (hu : e.Uses v) (hw : e.deg w = 0) (hwv : w ≠ v.ind) {n : Nat}
    (h : diffT n v e (.var w e.dim (-1)) = .ok d) (env : Env) (x : Fin v.dim → ℝ)
    (hs : e.Smooth (setVar env v x)) (G : Vec) :
    ∃ L, HasDiff e v env x L ∧ d.Def (Function.update (setVar env v x) w G) ∧
      d.dim = v.dim ∧ ∀ y : Fin v.dim → ℝ,
        ∑ k : Fin v.dim, d.val (Function.update (setVar env v x) w G) k * y k =
          ∑ k : Fin e.dim, G k * L y k := by
  have off : ∀ y, Off w (setVar env v y) (setVar (Function.update env w G) v y) := fun y i hi => by
    rw [setVar_update env v y hwv, Function.update_of_ne hi]
  have hs' : e.Smooth (setVar (Function.update env w G) v x) :=
    (Expr.dom_smooth.mp (e.dom_free hw (off x) (Expr.dom_smooth.mpr ⟨hs, hn, hu, hf⟩))).1
  obtain ⟨L, h1, h2, h3, h4⟩ := C04_grad_partial (gradin := .var w e.dim (-1)) hv he hf hn hu he.pos rfl
    ⟨n, h⟩ (Function.update env w G) x hs' trivial
  refine ⟨L, ?_, setVar_update env v x hwv G ▸ h3, h2, fun y => ?_⟩
  · unfold HasDiff at h1 ⊢
    simpa only [← e.val_free hw (off _)] using h1
  · have := h4 y
    rw [setVar_update env v x hwv] at this
    rw [this]
    refine sum_congr rfl fun k _ => ?_
    congr 1
    simp only [Expr.val, cst, Function.update_self]
    split_ifs with h0
    · have : (k : Nat) = 0 := by have := k.2; omega
      rw [this]
    · rfl

/-- The gradient along a temporary variable. -/
theorem grad_temp {e d : Expr} {v : VarId} {w : Int} (hv : 0 < v.dim) (he : e.WF) (hf : e.FactFree)
    (hn : e.NoBroadcast) (hu : e.Uses v) (hw : e.deg w = 0) (hwv : w ≠ v.ind) {n : Nat}
    (h : diffT n v e (.var w e.dim (-1)) = .ok d) (env : Env) (x : Fin v.dim → ℝ)
    (hs : e.Smooth (setVar env v x)) :
    Good w (setVar env v x) d ∧ d.dim = v.dim ∧ ∃ L, HasDiff e v env x L ∧
      ∀ (G : Vec) (y : Fin v.dim → ℝ),
        ∑ k : Fin v.dim, d.val (Function.update (setVar env v x) w G) k * y k =
          ∑ k : Fin e.dim, G k * L y k := by
  have key := grad_temp_at hv he hf hn hu hw hwv h env x hs
  obtain ⟨L, hL, -⟩ := key 0
  obtain ⟨-, -, h3, h4, -⟩ := key (setVar env v x w)
  rw [Function.update_eq_self] at h3
  have hdg := diffT_deg (w := w) he hf hw h
  have hwf : d.WF := (diffT_res (F := fun y => setVar env v y) (x₀ := x) hv (setVar_hasFDerivAt env v x)
    (fun i k hi => by simp only [hi, if_false]) he (Expr.dom_smooth.mpr ⟨hs, hn, hu, hf⟩)
    (At.self (a := .var w e.dim (-1)) (by exact he.pos) trivial) h).choose_spec.1.wf
  refine ⟨⟨hwf, ?_, (d.dom_defined _).mpr h3⟩, h4, L, hL, fun G y => ?_⟩
  · simpa [Expr.deg] using hdg
  · obtain ⟨L', hL', -, -, h5⟩ := key G
    rw [h5, hL.unique hL']

/-- A variable of degree 0 does not occur. -/
theorem Expr.not_mem_inds {e : Expr} {w : Int} (h : e.deg w = 0) : w ∉ e.inds := by
  induction e with
  | var i d c =>
    simp only [Expr.deg, ite_eq_right_iff, one_ne_zero, imp_false] at h
    simpa [Expr.inds] using Ne.symm h
  | zero | int | rat => simp [Expr.inds]
  | un o f ih =>
    refine ih ?_
    simp only [Expr.deg] at h
    split at h <;> omega
  | bin o f g i1 i2 =>
    have := Expr.deg_bin_zero h
    simp only [Expr.inds, List.mem_append, not_or]
    exact ⟨i1 this.1, i2 this.2⟩
  | tern o f g k i1 i2 i3 =>
    have := Expr.deg_tern_zero h
    simp only [Expr.inds, List.mem_append, not_or]
    exact ⟨i1 this.1, i2 this.2.1, i3 this.2.2⟩
  | fact i d c f g i1 i2 =>
    have := Expr.deg_fact_zero h
    simp only [Expr.inds, List.mem_append, not_or]
    exact ⟨i1 this.1, i2 this.2⟩

/-- **C05**: `Diff(e, v, u)` is the derivative of `e` with respect to `v` in the direction `u`, at every
point where the operations of `e` are differentiable.

Missing: the restrictions of C04, which `Diff` uses, and formulas with a gradient whose adjoint is not
implemented, for which an exception is raised (`not_C05_adjoint`). -/
theorem C05_diff_partial {e u r : Expr} {v : VarId} (hv : 0 < v.dim) (he : e.WF) (hf : e.FactFree)
    (hn : e.NoBroadcast) (hu : e.Uses v) (hw : u.WF) (hd : u.dim = v.dim) (h : Diffs e v u r)
    (env : Env) (x : Fin v.dim → ℝ) (hs : e.Smooth (setVar env v x)) (hud : u.Def (setVar env v x)) :
    ∃ L, HasDiff e v env x L ∧ r.dim = e.dim ∧ r.Def (setVar env v x) ∧
      ∀ k : Fin e.dim, r.val (setVar env v x) k = L (fun i => u.val (setVar env v x) i) k := by
  obtain ⟨n, h⟩ := h
  unfold diff at h
  obtain ⟨d, h1, h⟩ := bind_ok h
  have hi : e.deg (diffInd e v u) = 0 :=
    Expr.deg_inds fun hm => diffInd_fresh (.inl hm) rfl
  obtain ⟨hg, hdd, L, hL, hG⟩ := grad_temp hv he hf hn hu hi (Ne.symm (diffInd_fresh (.inr (.inl rfl))))
    h1 env x hs
  obtain ⟨R, hR, ha⟩ := adjoint_res (v := ⟨diffInd e v u, e.dim, -1⟩) he.pos hg
    (U := u.val (setVar env v x)) ⟨hw, hd.trans hdd.symm, (u.dom_defined _).mpr hud, fun _ => rfl⟩ h
  refine ⟨L, hL, hR.dim, (r.dom_defined _).mp hR.dom, fun k => ?_⟩
  have h2 := ha _ (basis_off (v := ⟨diffInd e v u, e.dim, -1⟩) k)
  have h3 := hG (fun j => if j = k then 1 else 0) (fun i => u.val (setVar env v x) i)
  simp only [basis, Function.update_self] at h2
  unfold dot at h2
  rw [hdd, ← Fin.sum_univ_eq_sum_range (fun j => u.val (setVar env v x) j * d.val _ j)] at h2
  simp only [mul_comm (u.val _ _)] at h2
  rw [h3] at h2
  rw [hR.val]
  simpa [Fin.val_inj] using h2

/-- The temporary variable of `Diff` does not occur in the result. -/
theorem C05_temp {e u r : Expr} {v : VarId} (he : e.WF) (hf : e.FactFree)
    (h : Diffs e v u r) : diffInd e v u ∉ r.inds := by
  obtain ⟨n, h⟩ := h
  unfold diff at h
  obtain ⟨d, h1, h⟩ := bind_ok h
  have hi : e.deg (diffInd e v u) = 0 :=
    Expr.deg_inds fun hm => diffInd_fresh (.inl hm) rfl
  have hi' : u.deg (diffInd e v u) = 0 :=
    Expr.deg_inds fun hm => diffInd_fresh (.inr (.inr hm)) rfl
  have := diffT_deg he hf hi h1
  refine Expr.not_mem_inds (adjoint_deg (v := ⟨diffInd e v u, e.dim, -1⟩) ?_ (.inr hi') h)
  simpa [Expr.deg, VarId.expr] using this

/-- `Diff` and `Grad` are transposed: for every `a`, the scalar product of `a` and `Diff(e, v, u)` is that
of `Grad(e, v, a)` and `u`. -/
theorem C05_transpose_partial {e u a r s : Expr} {v : VarId} (hv : 0 < v.dim) (he : e.WF)
    (hf : e.FactFree) (hn : e.NoBroadcast) (hu : e.Uses v) (hw : u.WF) (hd : u.dim = v.dim)
    (hw' : a.WF) (hd' : a.dim = e.dim) (h : Diffs e v u r) (h' : Grads e v a s)
    (env : Env) (hs : e.Smooth env) (hud : u.Def env) (had : a.Def env)
    (henv : ∀ k, v.dim ≤ k → env v.ind k = 0) :
    ∑ k : Fin e.dim, a.val env k * r.val env k = ∑ k : Fin v.dim, s.val env k * u.val env k := by
  obtain ⟨x, hx⟩ : ∃ x, setVar env v x = env := by
    refine ⟨fun i => env v.ind i, ?_⟩
    unfold setVar
    rw [Function.update_eq_self_iff]
    funext k
    split_ifs with hk
    · rfl
    · exact (henv k (by omega)).symm
  rw [← hx] at hs hud had
  obtain ⟨L, h1, -, -, h2⟩ := C05_diff_partial hv he hf hn hu hw hd h env x hs hud
  obtain ⟨L', h3, -, -, h4⟩ := C04_grad_partial hv he hf hn hu hw' hd' h' env x hs had
  have h5 := h4 fun i => u.val (setVar env v x) i
  rw [← h1.unique h3] at h5
  simp only [hx] at h2 h5
  rw [h5]
  exact sum_congr rfl fun k _ => by rw [h2]

/-- The theorem applies to `Exp(-SqDist(x, y))` (written with `Sum` and `Square`) in the direction `u`. -/
example (env : Env) (x : Fin 3 → ℝ) : ∃ r, Diffs (.un .exp (.un .minus (.un .sum (.un .square
    (.bin .sub (.var 0 3 0) (.var 1 3 1)))))) ⟨0, 3, 0⟩ (.var 2 3 0) r ∧ r.Def (setVar env ⟨0, 3, 0⟩ x) := by
  obtain ⟨r, hr⟩ : ∃ r, Diffs (.un .exp (.un .minus (.un .sum (.un .square
    (.bin .sub (.var 0 3 0) (.var 1 3 1)))))) ⟨0, 3, 0⟩ (.var 2 3 0) r := ⟨_, 30, rfl⟩
  refine ⟨r, hr, (C05_diff_partial (v := ⟨0, 3, 0⟩) (u := .var 2 3 0) (by decide)
    ?_ ?_ ?_ ?_ ?_ rfl hr env x ?_ ?_).choose_spec.2.2.1⟩
  all_goals simp [Expr.WF, Expr.dim, Bin.dim, Un.dim, Bin.accept, Un.accept, dimsOk, Expr.FactFree,
    Expr.NoBroadcast, Expr.Uses, Expr.Smooth, unSmooth, binSmooth, Expr.Def]

/-- The derivative of a matrix-vector product cannot be computed: an exception is raised. -/
theorem not_C05_adjoint : ∃ (e u : Expr) (v : VarId), e.WF ∧ e.FactFree ∧ e.NoBroadcast ∧ e.Uses v ∧ u.WF ∧
    u.dim = v.dim ∧ (∀ env, e.Smooth env) ∧ ∃ n, diff n e v u = .error .keops := by
  refine ⟨.bin .matVecMult (.var 0 4 0) (.var 1 2 1), .var 2 2 1, ⟨1, 2, 1⟩, ?_, ?_, ?_, ?_, ?_, rfl, ?_,
    20, rfl⟩
  all_goals simp [Expr.WF, Expr.dim, Bin.dim, Un.dim, Bin.accept, Un.accept, dimsOk, Expr.FactFree,
    Expr.NoBroadcast, Expr.Uses, Expr.Smooth, unSmooth, binSmooth, Expr.Def]

/-! ## C51: divergence and Laplacian -/

/-- In the gradient of `e` along the new variable of index `gradInd e`, computed by at most `n` nested
calls, this variable occurs under at most one sum over components. -/
def OneSum (n : Nat) (e : Expr) (v : VarId) : Prop :=
  ∀ d, grad n e v (.var (gradInd e) e.dim (-1)) = .ok d → d.dep (gradInd e) ≤ 2

/-- **C51**: `Divergence(e, v)` is the trace of the differential of `e`.

Missing: the restrictions of C04, those of `TraceOperator` (`OneSum`), and variables which do not occur in
`e` (then the temporary variable may have the index of `v`). -/
theorem C51_divergence_partial {n : Nat} {e r : Expr} {v : VarId} (hv : 0 < v.dim) (he : e.WF) (hf : e.FactFree)
    (hn : e.NoBroadcast) (hu : e.Uses v) (hm : v.ind ∈ e.inds) (ho : OneSum n e v)
    (h : divergence n e v = .ok r) (env : Env) (x : Fin v.dim → ℝ) (hs : e.Smooth (setVar env v x)) :
    ∃ hd : v.dim = e.dim, ∃ L, HasDiff e v env x L ∧ r.dim = 1 ∧ r.Def (setVar env v x) ∧
      r.val (setVar env v x) 0 = ∑ i : Fin v.dim, L (Pi.single i 1) (Fin.cast hd i) := by
  unfold divergence at h
  split_ifs at h with hd
  rw [not_not] at hd
  obtain ⟨d, h1, h⟩ := bind_ok h
  have h1 : diffT n v e (.var (gradInd e) e.dim (-1)) = .ok d := hd ▸ h1
  have hi : e.deg (gradInd e) = 0 := Expr.deg_inds fun hm => gradInd_fresh hm rfl
  obtain ⟨hg, hdd, L, hL, hG⟩ := grad_temp hv he hf hn hu hi (Ne.symm (gradInd_fresh hm)) h1 env x hs
  have h2 := trace_res (v := ⟨gradInd e, v.dim, -1⟩) (env := setVar env v x) (w := none)
    (W := fun _ => 1) hv hg ⟨rfl, fun _ => rfl⟩ (ho _ h1)
    (.inr hdd) (.inl rfl) h
  refine ⟨hd.symm, L, hL, h2.dim, (r.dom_defined _).mp h2.dom, ?_⟩
  rw [h2.val, ← Fin.sum_univ_eq_sum_range (fun i => 1 * mat _ ⟨gradInd e, v.dim, -1⟩ d i i)]
  refine sum_congr rfl fun i _ => ?_
  have h3 := hG (fun j => if j = i then 1 else 0) (Pi.single i 1)
  rw [one_mul, mat, basis]
  have h4 : ∀ k : Fin e.dim, (k : Nat) = i ↔ k = Fin.cast hd.symm i := fun k => by simp [Fin.ext_iff]
  simpa [Pi.single_apply, h4] using h3

/-- The formula `Exp(-|x - y|^2) * (x - y)`. -/
private abbrev divEx : Expr :=
  .bin .mul (.un .exp (.un .minus (.un .sum (.un .square (.bin .sub (.var 0 3 0) (.var 1 3 1))))))
    (.bin .sub (.var 0 3 0) (.var 1 3 1))

/-- The theorem applies to this formula. -/
example (env : Env) (x : Fin 3 → ℝ) : ∃ r, divergence 40 divEx ⟨0, 3, 0⟩ = .ok r ∧
    r.Def (setVar env ⟨0, 3, 0⟩ x) := by
  obtain ⟨r, hr⟩ : ∃ r, divergence 40 divEx ⟨0, 3, 0⟩ = .ok r := ⟨_, rfl⟩
  refine ⟨r, hr, (C51_divergence_partial (v := ⟨0, 3, 0⟩) (by decide)
    ?_ ?_ ?_ ?_ (by decide) ?_ hr env x ?_).choose_spec.choose_spec.2.2.1⟩
  case refine_5 =>
    intro d hd
    injection hd with hd
    subst hd
    decide
  all_goals simp [Expr.WF, Expr.dim, Bin.dim, Un.dim, Bin.accept, Un.accept, dimsOk, Expr.FactFree,
    Expr.NoBroadcast, Expr.Uses, Expr.Smooth, unSmooth, binSmooth, Expr.Def]

/-- **C51**: `Laplacian(e, v)` is the trace of the second differential of `e`: around the value `x` of `v`,
the formula `e` has a gradient `D`, which is differentiable at `x`, and the value is the trace of the
differential of `D`.

Missing: the restrictions of C04 on `e` and on its gradient `g`, and those of `Divergence` on `g`. -/
theorem C51_laplacian_partial {n : Nat} {e r : Expr} {v : VarId} (hv : 0 < v.dim) (he : e.WF)
    (hf : e.FactFree) (hn : e.NoBroadcast) (hu : e.Uses v) (h : laplacian n e v = .ok r)
    (env : Env) (x : Fin v.dim → ℝ) (hs : ∀ᶠ y in nhds x, e.Smooth (setVar env v y))
    (hg : ∀ g, grad n e v (intCst 1) = .ok g → g.NoBroadcast ∧ g.Uses v ∧
      v.ind ∈ g.inds ∧ OneSum n g v ∧ g.Smooth (setVar env v x)) :
    ∃ D : (Fin v.dim → ℝ) → Fin v.dim → ℝ, ∃ H : (Fin v.dim → ℝ) →L[ℝ] Fin v.dim → ℝ,
      (∀ᶠ y in nhds x, ∃ L : (Fin v.dim → ℝ) →L[ℝ] ℝ,
        HasFDerivAt (fun z => e.val (setVar env v z) 0) L y ∧ ∀ u, L u = ∑ k, D y k * u k) ∧
      HasFDerivAt D H x ∧ r.dim = 1 ∧ r.Def (setVar env v x) ∧
      r.val (setVar env v x) 0 = ∑ i, H (Pi.single i 1) i := by
  unfold laplacian at h
  split_ifs at h with hd
  rw [not_not] at hd
  obtain ⟨g, h1, h⟩ := bind_ok h
  obtain ⟨g2, g3, g4, g5, g6⟩ := hg g h1
  have g1 := diffT_factFree he hf (gradin := intCst 1) (by simp [intCst, Expr.FactFree]) h1
  have hc : (intCst 1).WF := by simp [intCst, Expr.WF]
  have hcd : (intCst 1).dim = e.dim := by rw [hd]; rfl
  have hgr : ∀ y, e.Smooth (setVar env v y) → _ := fun y hy =>
    C04_grad_partial hv he hf hn hu hc hcd ⟨n, h1⟩ env y hy (by simp [intCst, Expr.Def])
  have hgd : v.dim = g.dim := (hgr x hs.self_of_nhds).choose_spec.2.1.symm
  have hw : g.WF := (diffT_res (F := fun y => setVar env v y) (x₀ := x) hv (setVar_hasFDerivAt env v x)
    (fun i k hi => by simp only [hi, if_false]) he
    (Expr.dom_smooth.mpr ⟨hs.self_of_nhds, hn, hu, hf⟩)
    (by rw [← hcd]; exact At.self (a := intCst 1) hc (by simp [intCst, Expr.Dom])) h1).choose_spec.1.wf
  obtain ⟨hgd', L, hL, r1, r2, r3⟩ := C51_divergence_partial hv hw g1 g2 g3 g4 g5 h env x g6
  refine ⟨fun y k => g.val (setVar env v y) k,
    ContinuousLinearMap.pi fun k => (ContinuousLinearMap.proj (Fin.cast hgd k)).comp L, ?_, ?_, r1, r2, ?_⟩
  · filter_upwards [hs] with y hy
    obtain ⟨M, m1, -, -, m2⟩ := hgr y hy
    have hz : 0 < e.dim := by omega
    refine ⟨(ContinuousLinearMap.proj ⟨0, hz⟩).comp M, hasFDerivAt_pi'.mp m1 ⟨0, hz⟩, fun u => ?_⟩
    rw [m2]
    have : ∀ k : Fin e.dim, k = ⟨0, hz⟩ := fun k => by ext; simp; omega
    rw [Finset.sum_eq_single_of_mem ⟨0, hz⟩ (mem_univ _) fun k _ hk => absurd (this k) hk]
    simp [intCst, Expr.val]
  · exact hasFDerivAt_pi'.mpr fun k => hasFDerivAt_pi'.mp hL (Fin.cast hgd k)
  · rw [r3]; rfl

/-- The theorem applies to `Exp(Scalprod(x, y))`. -/
example (env : Env) (x : Fin 3 → ℝ) : ∃ r,
    laplacian 40 (.un .exp (.bin .scalprod (.var 0 3 0) (.var 1 3 1))) ⟨0, 3, 0⟩ = .ok r ∧
    r.Def (setVar env ⟨0, 3, 0⟩ x) := by
  obtain ⟨r, hr⟩ : ∃ r,
    laplacian 40 (.un .exp (.bin .scalprod (.var 0 3 0) (.var 1 3 1))) ⟨0, 3, 0⟩ = .ok r := ⟨_, rfl⟩
  refine ⟨r, hr, (C51_laplacian_partial (v := ⟨0, 3, 0⟩) (by decide)
    ?_ ?_ ?_ ?_ hr env x ?_ ?_).choose_spec.choose_spec.2.2.2.1⟩
  case refine_6 =>
    intro g hg
    injection hg with hg
    subst hg
    refine ⟨?_, ?_, by decide, ?_, ?_⟩
    case refine_3 =>
      intro d hd
      injection hd with hd
      subst hd
      decide
    all_goals simp [Expr.FactFree, Expr.NoBroadcast, Expr.Uses, Expr.Smooth, unSmooth, binSmooth]
  all_goals simp [Expr.WF, Expr.dim, Bin.dim, Un.dim, Bin.accept, Un.accept, dimsOk, Expr.FactFree,
    Expr.NoBroadcast, Expr.Uses, Expr.Smooth, unSmooth, binSmooth, Expr.Def]

end Verif
