import Verif.Proofs.BackwardCall

/-!
# C63: the backward pass, from the arrays of the call to the arrays of the gradients
-/

namespace Verif

open Finset Spec Filter Topology

/-- A call whose gradient with respect to the argument `v` is asked for: an expression `t`, the formula `e` that is run
for it, and arrays at which it is differentiable. -/
structure BackSetting (t : Term) (e : Expr) (v : VarId) (tagI m n nargs : Nat) (args : Nat → Nat → ℝ) : Prop where
  pos : t.Pos
  inputs : t.Inputs
  compiled : ∃ N, t.compile N = .ok e
  tag : tagI < 2
  rows : 0 < m ∧ 0 < n
  var : (v.ind, v.dim, v.cat) ∈ t.vars
  count : ∀ u ∈ t.vars, u.1 < nargs
  plain : e.NoBroadcast
  smooth : ∀ i < m, ∀ j < n, e.Smooth (readEnv t.vars args (i, j))

/-- The rows of the argument `v`: a parameter has none, and its gradient is computed with the rows `i`. -/
abbrev rowsOf (v : VarId) (m n : Nat) : Nat := if v.cat = 1 then n else m

/-- **C63**, sums: the loss is a function of the outputs of the call with derivatives `G`; then the array returned for
the argument `v` has the shape of this argument, and is the derivative of the loss with respect to it.  `sigs` are the
declared variables, `shapes` the shapes of the arguments, `g` the memory written by the gradient kernel for `v`.

Missing: batch dimensions; the restrictions of C04 on the formula. -/
theorem C63_sum_partial {t : Term} {e r : Expr} {v : VarId} {tagI axis m n nargs : Nat} {args : Nat → Nat → ℝ}
    (h : BackSetting t e v tagI m n nargs args) (G result : Nat → ℝ)
    (hr : RedGrads (.sum e tagI) v (etaVar nargs e.dim tagI) (resVar nargs e.dim tagI) (.sum r axis))
    (sch schb : SumScheme) :
    ∃ S Sb, getScheme (sumRed (V := ℝ) e.dim) sch = some S ∧ getScheme (sumRed (V := ℝ) r.dim) schb = some Sb ∧
      r.dim = v.dim ∧
      ∀ M : CMath, M.Exact → ∀ junk o g,
        Exec (sumRed r.dim) Sb (r.call id id M junk axis m n (gradArgs nargs args G result)) o g →
        ∃ a, (∀ sigs shapes gradOf, sigs[v.ind.toNat]? = some v →
            shapes[v.ind.toNat]? = some (tailShape v.cat (rowsOf v m n) v.dim) →
            gradOf v = asArr (rowsOf v m n) v.dim g →
            (backward sigs shapes gradOf)[v.ind.toNat]? = some (some a)) ∧
          a.shape = tailShape v.cat (rowsOf v m n) v.dim ∧
          ∀ (δ : Nat → ℝ) (out₀ out : ℝ → Mem ℝ),
            (∀ τ, Exec (sumRed e.dim) S (e.call id id M junk tagI m n (moved args v.ind.toNat δ τ)) (out₀ τ) (out τ)) →
            HasDerivAt (fun τ => ∑ i ∈ range (outRows tagI m n), ∑ k ∈ range e.dim,
                G (i * e.dim + k) * out τ (i * e.dim + k))
              (sumIdx a.shape fun idx => a.get idx * δ (ravel a.shape idx)) 0 := by
  obtain ⟨N, hc⟩ := h.compiled
  obtain ⟨hff, hvars⟩ := compile_vars h.pos hc
  have hw := (compile_rep h.pos hc).wf
  have hvd : 0 < v.dim := term_vars_pos h.pos _ h.var
  have hcat := h.inputs.cat _ h.var
  simp only at hcat
  have hl0 : PlainVars t.vars := ⟨h.inputs.pos, h.inputs.cat, h.inputs.unique⟩
  have hl := hl0.eta h.count e.dim h.tag
  set l := t.vars ++ [((nargs : Int), e.dim, (tagI : Int))] with hldef
  have hv0 := h.inputs.pos _ h.var
  have hvn := h.count _ h.var
  simp only at hv0 hvn
  have hq : v.ind.toNat < nargs := by omega
  have hvl : (v.ind, v.dim, v.cat) ∈ l := List.mem_append_left _ h.var
  have huses : e.Uses v := uses_of_vars hff fun u hu hi => by
    have := h.inputs.unique u (hvars u hu) _ h.var hi
    rw [this]
    exact ⟨rfl, rfl⟩
  have hagree : ∀ A p, ∀ u ∈ e.vars, readEnv l (gradArgs nargs A G result) p u.1 = readEnv t.vars A p u.1 :=
    fun A p u hu => readEnv_gradArgs hl h.count p (hvars u hu)
  set argsG := gradArgs nargs args G result with hargsG
  set base := readEnv l argsG with hbase
  have hsm : ∀ i < m, ∀ j < n, e.Smooth (base (i, j)) := fun i hi j hj =>
    smooth_agree hff (hagree args (i, j)) (h.smooth i hi j hj)
  have hself : ∀ p, base p = point base v (fun r k => argsG v.ind.toNat (r * v.dim + k)) p :=
    readEnv_point hl hvl (args := argsG) (args' := argsG) fun _ _ => rfl
  have hη : ((nargs : Int), e.dim, (tagI : Int)) ∈ l := List.mem_append_right _ (List.mem_singleton_self _)
  have hG : HoldsRows base nargs tagI m n 0 e.dim fun a k => G (a * e.dim + k) := by
    intro i _ j _ k hk
    rw [hbase, readEnv_at hl hη, Nat.zero_add, if_pos hk]
    simp [hargsG, gradArgs]
  have ht : tagI = 0 ∨ tagI = 1 := by have := h.tag; omega
  have hgr : Grads e v (etaVar nargs e.dim tagI) r ∧ axis = if v.cat = 1 then 1 else 0 := by
    obtain ⟨N, hr⟩ := hr
    simp only [RedExpr.diffT, sumDiffT] at hr
    obtain ⟨r', h1, h2⟩ := bind_ok' hr
    cases h2
    exact ⟨⟨N, h1⟩, by rcases hcat with h | h | h <;> simp [VarId.axis, h]⟩
  obtain ⟨S, hS, -⟩ := C09_sum ℝ e.dim sch
  obtain ⟨hrd, Sb, hSb, hback⟩ := grad_run hl hvl hvd h.rows.1 h.rows.2 hw hff h.plain huses
    (fun u hu => List.mem_append_left _ (hvars u hu)) hsm (gradin := etaVar nargs e.dim tagI) hw.pos trivial rfl
    (fun u hu => List.mem_append_right _ hu) (fun _ _ _ _ => trivial) hgr.1 hgr.2 schb
  refine ⟨S, Sb, hS, hSb, hrd, fun M hM junk o g he => ?_⟩
  obtain ⟨a, ha, hsh, hadj⟩ := hback M hM junk o g he
  refine ⟨a, ha, hsh, fun δ out₀ out hex => ?_⟩
  rw [hadj]
  obtain ⟨r', axis', h1, h2, hder⟩ := C44_sum_partial (m := m) (n := n) ht hvd hcat hw hff h.plain huses
    (show (nargs : Int) ≠ v.ind by omega) hr base _ (fun r k => δ (r * v.dim + k))
    (fun i hi j hj => by rw [← hself]; exact hsm i hi j hj) _ hG
  cases h1
  rw [← (funext hself : base = _)] at hder
  refine hder.congr_of_eventuallyEq ?_
  have hnear : ∀ᶠ τ in 𝓝 (0 : ℝ), ∀ i < m, ∀ j < n, e.Def (readEnv t.vars (moved args v.ind.toNat δ τ) (i, j)) := by
    have : ∀ᶠ τ in 𝓝 (0 : ℝ), ∀ i ∈ range m, ∀ j ∈ range n, e.Def (readEnv t.vars (moved args v.ind.toNat δ τ) (i, j)) :=
      (eventually_all_finset _).mpr fun i hi => (eventually_all_finset _).mpr fun j hj =>
        moved_near hw hff (i, j) v.ind.toNat δ (h.smooth i (mem_range.mp hi) j (mem_range.mp hj))
    filter_upwards [this] with τ hτ i hi j hj
    exact hτ i (mem_range.mpr hi) j (mem_range.mpr hj)
  filter_upwards [hnear] with τ hτ
  obtain ⟨S', hS', hfwd⟩ := sum_exec hl0 hw hff hvars h.tag hτ sch
  rw [hS] at hS'
  cases hS'
  unfold dotRows
  refine sum_congr rfl fun i hi => sum_congr rfl fun k hk => ?_
  congr 1
  rw [hfwd M hM junk _ _ (hex τ) i (mem_range.mp hi) k (mem_range.mp hk)]
  unfold sumRow
  refine sum_congr rfl fun s _ => ?_
  rw [← readEnv_moved hl hvl hq, Expr.val_agree hff (hagree _ _)]

/-! ## The hypotheses can be met -/

theorem gauss_back (v : VarId) (hv : (v.ind, v.dim, v.cat) ∈ gauss.vars) (m n : Nat) (hm : 0 < m) (hn : 0 < n)
    (args : Nat → Nat → ℝ) : BackSetting gauss gaussE v 0 m n 3 args where
  pos := gauss_pos
  inputs := gauss_inputs
  compiled := ⟨20, rfl⟩
  tag := by omega
  rows := ⟨hm, hn⟩
  var := hv
  count := by decide
  plain := by simp [gaussE, Expr.NoBroadcast]
  smooth i _ j _ := by simp [gaussE, Expr.Smooth, binSmooth, unSmooth, Expr.dim, Un.dim, Bin.dim]

/-- The gradient of a Gaussian convolution with respect to the points `x`, `y` and the signal `b` can be computed. -/
example : (∃ r, RedGrads (.sum gaussE 0) ⟨0, 3, 0⟩ (etaVar 3 2 0) (resVar 3 2 0) (.sum r 0)) ∧
    (∃ r, RedGrads (.sum gaussE 0) ⟨1, 3, 1⟩ (etaVar 3 2 0) (resVar 3 2 0) (.sum r 1)) ∧
    ∃ r, RedGrads (.sum gaussE 0) ⟨2, 2, 1⟩ (etaVar 3 2 0) (resVar 3 2 0) (.sum r 1) := by
  refine ⟨⟨_, 20, rfl⟩, ⟨_, 20, rfl⟩, ⟨_, 20, rfl⟩⟩

/-- The gradient with respect to the points `x`, for any number of points: it is computed, and its shape is that of `x`. -/
example (m n : Nat) (hm : 0 < m) (hn : 0 < n) (args : Nat → Nat → ℝ) (G : Nat → ℝ) (sch : SumScheme) :
    ∃ (r : Expr) (S Sb : _) (g : Mem ℝ) (a : Spec.Arr ℝ), getScheme (sumRed (V := ℝ) 2) sch = some S ∧
      getScheme (sumRed (V := ℝ) 3) .direct = some Sb ∧
      Exec (sumRed 3) Sb (r.call id id realMath (fun _ _ => 0) 0 m n (gradArgs 3 args G fun _ => 0)) (fun _ => 0) g ∧
      (backward [⟨0, 3, 0⟩, ⟨1, 3, 1⟩, ⟨2, 2, 1⟩] [[m, 3], [n, 3], [n, 2]] fun _ => asArr m 3 g)[0]? = some (some a) ∧
      a.shape = [m, 3] ∧
      ∀ (δ : Nat → ℝ) (out₀ out : ℝ → Mem ℝ),
        (∀ τ, Exec (sumRed 2) S (gaussE.call id id realMath (fun _ _ => 0) 0 m n (moved args 0 δ τ)) (out₀ τ) (out τ)) →
        HasDerivAt (fun τ => ∑ i ∈ range m, ∑ k ∈ range 2, G (i * 2 + k) * out τ (i * 2 + k))
          (sumIdx [m, 3] fun idx => a.get idx * δ (ravel [m, 3] idx)) 0 := by
  have hr : ∃ r, RedGrads (.sum gaussE 0) ⟨0, 3, 0⟩ (etaVar 3 gaussE.dim 0) (resVar 3 gaussE.dim 0) (.sum r 0) :=
    ⟨_, 20, rfl⟩
  obtain ⟨r, hr⟩ := hr
  obtain ⟨S, Sb, hS, hSb, hd, h⟩ := C63_sum_partial (gauss_back ⟨0, 3, 0⟩ (by decide) m n hm hn args) G (fun _ => 0) hr
    sch .direct
  simp only at hd
  rw [hd] at hSb h
  obtain ⟨g, hg⟩ := exec_exists_cpu (sumRed 3) Sb
    (r.call id id realMath (fun _ _ => 0) 0 m n (gradArgs 3 args G fun _ => 0)) (fun _ => 0)
  obtain ⟨a, h1, h2, h3⟩ := h realMath realMath_exact _ _ g hg
  have h2' : a.shape = [m, 3] := h2
  refine ⟨r, S, Sb, g, a, hS, hSb, hg, h1 _ _ _ rfl rfl rfl, h2', fun δ out₀ out hex => ?_⟩
  have := h3 δ out₀ out hex
  rw [h2'] at this
  exact this

end Verif
