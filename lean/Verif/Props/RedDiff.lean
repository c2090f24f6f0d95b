import Mathlib.Analysis.SpecialFunctions.Log.Deriv
import Verif.Proofs.RedDiff
import Verif.Props.Linear

/-!
# C44: the gradient of a reduction

The backward pass receives the gradient `G` of a loss with respect to the output, as a variable `η` of the category of
the output, and computes the reduction `Grad_WithSavedForward(red, v, η, result)` for each variable `v`.

The theorems say that the derivative of the loss, when the array of `v` moves in any direction `δ`, is the scalar
product of the output of this reduction with `δ`.  `base p` gives the values of the other variables at the pair
`p = (i, j)`; nothing is assumed about them.
-/

namespace Verif

open Finset Spec

/-- `Grad_WithSavedForward(red, v, gradin, f0)` returns `r` (with a recursion of some depth). -/
def RedGrads (red : RedExpr) (v : VarId) (gradin f0 : Expr) (r : RedExpr) : Prop :=
  ∃ n, red.diffT n v gradin f0 = .ok r

/-- The rows of the variable of index `w`, of the category of the output, are those of `G`, from component `s` on. -/
def HoldsRows (base : Nat × Nat → Env) (w : Int) (tagI m n s d : Nat) (G : Nat → Vec) : Prop :=
  ∀ i < m, ∀ j < n, ∀ k < d, base (i, j) w (s + k) = G (rowAt tagI (i, j)) k

theorem rowAt_pair {tagI : Nat} (ht : tagI = 0 ∨ tagI = 1) (a s : Nat) : rowAt tagI (pairAt tagI a s) = a := by
  rcases ht with rfl | rfl <;> simp [rowAt, pairAt]

theorem HoldsRows.pair {base : Nat × Nat → Env} {w : Int} {tagI m n s d : Nat} {G : Nat → Vec}
    (h : HoldsRows base w tagI m n s d G) (ht : tagI = 0 ∨ tagI = 1) {a q k : Nat} (ha : a < outRows tagI m n)
    (hq : q < redRows tagI m n) (hk : k < d) : base (pairAt tagI a q) w (s + k) = G a k := by
  obtain ⟨h1, h2⟩ := pairAt_lt ha hq
  have := h _ h1 _ h2 k hk
  rwa [Prod.mk.eta, rowAt_pair ht] at this

theorem point_other (base : Nat × Nat → Env) (v : VarId) (x : Nat → Fin v.dim → ℝ) (p : Nat × Nat) {w : Int}
    (hw : w ≠ v.ind) : point base v x p w = base p w := by
  simp [point, setVar, Function.update_of_ne hw]

theorem dotRows_deriv {rows d : Nat} {G S : Nat → Vec} {φ : ℝ → Nat → Vec}
    (h : ∀ a < rows, ∀ k < d, HasDerivAt (fun t => φ t a k) (S a k) 0) :
    HasDerivAt (fun t => dotRows rows d G (φ t)) (dotRows rows d G S) 0 := by
  unfold dotRows
  exact HasDerivAt.fun_sum fun a ha => HasDerivAt.fun_sum fun k hk =>
    (h a (mem_range.mp ha) k (mem_range.mp hk)).const_mul (G a k)

/-- **C44**, sums, for variables of every category: the gradient reduction computes the derivative of
`Σ_a ⟨G_a, Σ_s f(a, s)⟩`.

Missing: the restrictions of C04 on the formula. -/
theorem C44_sum_partial {f f0 : Expr} {v : VarId} {tagI m n : Nat} {red : RedExpr} {η : Int}
    (ht : tagI = 0 ∨ tagI = 1) (hv : 0 < v.dim) (hc : v.cat = 0 ∨ v.cat = 1 ∨ v.cat = 2)
    (he : f.WF) (hf : f.FactFree) (hn : f.NoBroadcast) (hu : f.Uses v) (hη : η ≠ v.ind)
    (h : RedGrads (.sum f tagI) v (.var η f.dim tagI) f0 red)
    (base : Nat × Nat → Env) (x δ : Nat → Fin v.dim → ℝ)
    (hs : ∀ i < m, ∀ j < n, f.Smooth (point base v x (i, j)))
    (G : Nat → Vec) (hG : HoldsRows base η tagI m n 0 f.dim G) :
    ∃ r axis, red = .sum r axis ∧ axis = (if v.cat = 1 then 1 else 0) ∧
      HasDerivAt (fun t => dotRows (outRows tagI m n) f.dim G (sumRow f tagI m n (point base v (line x δ t))))
        (dotGrad v m n (sumRow r axis m n (point base v x)) δ) 0 := by
  obtain ⟨N, h⟩ := h
  simp only [RedExpr.diffT, sumDiffT] at h
  obtain ⟨r, h1, h⟩ := bind_ok' h
  cases h
  refine ⟨r, v.axis, rfl, by rcases hc with h | h | h <;> simp [VarId.axis, h], ?_⟩
  have hval : ∀ a < outRows tagI m n, ∀ s < redRows tagI m n, ∀ k < f.dim,
      (Expr.var η f.dim tagI).val (point base v x (pairAt tagI a s)) k = G a k := by
    intro a ha s hs k hk
    have := hG.pair ht ha hs hk
    rw [Nat.zero_add] at this
    simp only [Expr.val, point_other base v x _ hη, cst]
    split
    · obtain rfl : k = 0 := by omega
      exact this
    · exact this
  obtain ⟨S, h2, h3⟩ := sum_grad (tagI := tagI) (m := m) (n := n) hv hc he hf hn hu
    (gradin := .var η f.dim tagI) he.pos rfl ⟨N, h1⟩ base x δ hs (fun _ _ _ _ => trivial) G hval
  rw [← h3]
  exact dotRows_deriv h2

section Shift

variable {f g gradin p : Expr} {v : VarId} {tagI m n : Nat} {u w : Int} {N c : Nat}

/-- The formula `Exp(F - M) * G`. -/
theorem shiftExp_at {Δ : Domain} {env : Env} (hf : f.WF) (hg : g.WF) (h1 : f.dim = 1) (hdf : f.Dom Δ env)
    (hdg : g.Dom Δ env) (hu : Δ.var u (1 + g.dim) c) (hx : Δ.un (.extract 0 1) (1 + g.dim) (cst (1 + g.dim) (env u)))
    (h : shiftExp N f g (.var u (1 + g.dim) c) = .ok p) :
    At Δ env p g.dim fun k => Real.exp (f.val env 0 - env u 0) * g.val env k := by
  unfold shiftExp at h
  obtain ⟨a, e1, h⟩ := bind_ok' h
  obtain ⟨b, e2, h⟩ := bind_ok' h
  obtain ⟨d, e3, h⟩ := bind_ok' h
  rw [h1] at e1
  have hg0 := hg.pos
  have ha : At Δ env (.var u (1 + g.dim) c) (1 + g.dim) (cst (1 + g.dim) (env u)) :=
    ⟨by show 0 < 1 + g.dim; omega, rfl, hu, fun _ => rfl⟩
  have hb := ha.un (o := .extract 0 1) Nat.one_pos (fun n h => by cases h) hx e1
  have hd := (At.self hf hdf).sub hb e2
  have he := hd.un (o := .exp) (by show 0 < max f.dim 1; omega) (fun n h => by cases h) trivial e3
  have hm := he.mul (At.self hg hdg) h
  refine hm.congr ?_ fun k => ?_
  · show max (max f.dim 1) g.dim = g.dim
    omega
  · simp only [unVal, cst, if_true, Nat.zero_add]
    rw [f.val_const hf h1 env k 0]
    split <;> rfl

/-- Derivative of the shifted sums. -/
theorem shift_grad (ht : tagI = 0 ∨ tagI = 1) (hv : 0 < v.dim) (hc : v.cat = 0 ∨ v.cat = 1 ∨ v.cat = 2)
    (hm : 0 < m) (hn : 0 < n)
    (wf : f.WF) (wg : g.WF) (h1 : f.dim = 1) (ff : f.FactFree) (fg : g.FactFree) (nf : f.NoBroadcast)
    (ng : g.NoBroadcast) (uf : f.Uses v) (ug : g.Uses v) (hu : u ≠ v.ind) (hw : w ≠ v.ind) {red : RedExpr}
    (h : RedGrads (.maxSumShiftExp f g tagI) v (.var w (1 + g.dim) tagI) (.var u (1 + g.dim) tagI) red)
    (base : Nat × Nat → Env) (x δ : Nat → Fin v.dim → ℝ)
    (sf : ∀ i < m, ∀ j < n, f.Smooth (point base v x (i, j)))
    (sg : ∀ i < m, ∀ j < n, g.Smooth (point base v x (i, j)))
    (M : Nat → ℝ) (hM : HoldsRows base u tagI m n 0 1 fun a _ => M a)
    (E : Nat → Vec) (hE : HoldsRows base w tagI m n 1 g.dim E) :
    ∃ r axis, red = .sum r axis ∧ axis = (if v.cat = 1 then 1 else 0) ∧ ∃ S : Nat → Vec,
      (∀ a < outRows tagI m n, ∀ k < g.dim,
        HasDerivAt (fun t => ∑ s ∈ range (redRows tagI m n),
          Real.exp (f.val (point base v (line x δ t) (pairAt tagI a s)) 0 - M a) *
            g.val (point base v (line x δ t) (pairAt tagI a s)) k) (S a k) 0) ∧
      dotRows (outRows tagI m n) g.dim E S = dotGrad v m n (sumRow r axis m n (point base v x)) δ := by
  obtain ⟨N, h⟩ := h
  simp only [RedExpr.diffT] at h
  obtain ⟨p, e1, h⟩ := bind_ok' h
  obtain ⟨gs, e2, h⟩ := bind_ok' h
  unfold sumDiffT at h
  obtain ⟨r, e3, h⟩ := bind_ok' h
  cases h
  have hval : ∀ env, At .triv env p g.dim fun k => Real.exp (f.val env 0 - env u 0) * g.val env k := fun env =>
    shiftExp_at wf wg h1 (f.dom_triv env) (g.dom_triv env) trivial trivial e1
  have hdom : ∀ i < m, ∀ j < n, p.Dom (.smooth v) (point base v x (i, j)) := fun i hi j hj =>
    (shiftExp_at wf wg h1 (Expr.dom_smooth.mpr ⟨sf i hi j hj, nf, uf, ff⟩)
      (Expr.dom_smooth.mpr ⟨sg i hi j hj, ng, ug, fg⟩) (fun e => absurd e hu) trivial e1).dom
  obtain ⟨-, np, up, fp⟩ := Expr.dom_smooth.mp (hdom 0 hm 0 hn)
  have hpd : p.dim = g.dim := (hval fun _ _ => 0).dim
  have hg0 := wg.pos
  rw [h1] at e2
  have hgs : ∀ env, At .defined env gs g.dim fun k => cst g.dim (fun k => cst (1 + g.dim) (env w) (1 + k)) k :=
    fun env => (At.un (Δ := .defined) (env := env) (a := .var w (1 + g.dim) tagI) (V := cst (1 + g.dim) (env w))
      ⟨by show 0 < 1 + g.dim; omega, rfl, trivial, fun _ => rfl⟩ (o := .extract 1 g.dim) hg0
      (fun n h => by cases h) trivial e2).congr rfl fun _ => rfl
  refine ⟨r, v.axis, rfl, by rcases hc with h | h | h <;> simp [VarId.axis, h], ?_⟩
  have hgv : ∀ a < outRows tagI m n, ∀ s < redRows tagI m n, ∀ k < p.dim,
      gs.val (point base v x (pairAt tagI a s)) k = E a k := by
    intro a ha s hs k hk
    rw [hpd] at hk
    rw [(hgs _).val]
    simp only [cst, point_other base v x _ hw]
    have := hE.pair ht ha hs hk
    split
    · rename_i h
      obtain rfl : k = 0 := by omega
      rw [if_neg (by omega)]
      exact this
    · rw [if_neg (by omega)]
      exact this
  obtain ⟨S, h2, h3⟩ := sum_grad (tagI := tagI) (m := m) (n := n) hv hc (hval fun _ _ => 0).wf fp np up
    (gradin := gs) (hgs fun _ _ => 0).wf ((hgs fun _ _ => 0).dim.trans hpd.symm) ⟨N, e3⟩ base x δ
    (fun i hi j hj => (Expr.dom_smooth.mp (hdom i hi j hj)).1)
    (fun i hi j hj => (gs.dom_defined _).mp (hgs _).dom) E hgv
  refine ⟨S, fun a ha k hk => ?_, by rw [← hpd]; exact h3⟩
  have := h2 a ha k (hpd ▸ hk)
  refine this.congr_of_eventuallyEq (.of_forall fun t => ?_)
  refine sum_congr rfl fun s hs => ?_
  rw [(hval _).val, point_other base v _ _ hu]
  have := hM.pair ht ha (mem_range.mp hs) (k := 0) (by decide)
  rw [Nat.zero_add] at this
  rw [this]

end Shift

/-- **C44**, log-sum-exp with weights `g` (without weights `g` is the constant 1).  The saved output is `(M, S)`, where
`M` is any shift, and the gradient that reaches `S` is `G / S`, as computed by PyTorch through `L = M + log S`; the
first component of the gradient is not used.

Missing: the restrictions of C04 on the formulas. -/
theorem C44_logsumexp_partial {f g : Expr} {v : VarId} {tagI m n : Nat} {red : RedExpr} {u η : Int}
    (ht : tagI = 0 ∨ tagI = 1) (hv : 0 < v.dim) (hc : v.cat = 0 ∨ v.cat = 1 ∨ v.cat = 2)
    (hm : 0 < m) (hn : 0 < n) (wf : f.WF) (wg : g.WF) (h1 : f.dim = 1) (ff : f.FactFree) (fg : g.FactFree)
    (nf : f.NoBroadcast) (ng : g.NoBroadcast) (uf : f.Uses v) (ug : g.Uses v) (hu : u ≠ v.ind) (hη : η ≠ v.ind)
    (h : RedGrads (.maxSumShiftExp f g tagI) v (.var η (1 + g.dim) tagI) (.var u (1 + g.dim) tagI) red)
    (base : Nat × Nat → Env) (x δ : Nat → Fin v.dim → ℝ)
    (sf : ∀ i < m, ∀ j < n, f.Smooth (point base v x (i, j)))
    (sg : ∀ i < m, ∀ j < n, g.Smooth (point base v x (i, j)))
    (M : Nat → ℝ) (hM : HoldsRows base u tagI m n 0 1 fun a _ => M a) (S : Nat → Vec)
    (hS : ∀ a < outRows tagI m n, ∀ k < g.dim, S a k = ∑ s ∈ range (redRows tagI m n),
      Real.exp (f.val (point base v x (pairAt tagI a s)) 0 - M a) * g.val (point base v x (pairAt tagI a s)) k)
    (hpos : ∀ a < outRows tagI m n, ∀ k < g.dim, 0 < S a k)
    (G : Nat → Vec) (hG : HoldsRows base η tagI m n 1 g.dim fun a k => G a k / S a k) :
    ∃ r axis, red = .sum r axis ∧ axis = (if v.cat = 1 then 1 else 0) ∧
      HasDerivAt (fun t => dotRows (outRows tagI m n) g.dim G (lseRow f g tagI m n (point base v (line x δ t))))
        (dotGrad v m n (sumRow r axis m n (point base v x)) δ) 0 := by
  obtain ⟨r, axis, h2, h3, S', hd, he⟩ := shift_grad ht hv hc hm hn wf wg h1 ff fg nf ng uf ug hu hη h base x δ sf sg
    M hM _ hG
  refine ⟨r, axis, h2, h3, ?_⟩
  rw [← he]
  have hconv : dotRows (outRows tagI m n) g.dim (fun a k => G a k / S a k) S' =
      dotRows (outRows tagI m n) g.dim G fun a k => S' a k / S a k := by
    unfold dotRows
    exact sum_congr rfl fun a _ => sum_congr rfl fun k _ => by ring
  rw [hconv]
  refine dotRows_deriv fun a ha k hk => ?_
  have h0 : line x δ 0 = x := by funext r; simp [line]
  have hp := hpos a ha k hk
  have hd' := (hd a ha k hk).const_mul (Real.exp (M a))
  have hZ : ∀ t, Real.exp (M a) * ∑ s ∈ range (redRows tagI m n),
      Real.exp (f.val (point base v (line x δ t) (pairAt tagI a s)) 0 - M a) *
        g.val (point base v (line x δ t) (pairAt tagI a s)) k =
      ∑ s ∈ range (redRows tagI m n), Real.exp (f.val (point base v (line x δ t) (pairAt tagI a s)) 0) *
        g.val (point base v (line x δ t) (pairAt tagI a s)) k := fun t => by
    rw [mul_sum]
    refine sum_congr rfl fun s _ => ?_
    rw [← mul_assoc, ← Real.exp_add]
    congr 2
    ring
  have h4 := hd'.log (by
    rw [h0, ← hS a ha k hk]
    exact (mul_pos (Real.exp_pos _) hp).ne')
  rw [h0, ← hS a ha k hk] at h4
  have h5 : Real.exp (M a) * S' a k / (Real.exp (M a) * S a k) = S' a k / S a k :=
    mul_div_mul_left _ _ (Real.exp_pos _).ne'
  rw [h5] at h4
  refine h4.congr_of_eventuallyEq (.of_forall fun t => ?_)
  simp only [lseRow, hZ t]

/-- **C44**, softmax-weighted sums `Σ_s exp(f) g / Σ_s exp(f)`: the reduction has weights `Concat(1, g)` and output
`(M, S₀, S)`; the gradients that reach `S₀` and `S` are those of `S / S₀`, as computed by PyTorch.

Missing: the restrictions of C04 on the formulas. -/
theorem C44_softmax_partial {f g : Expr} {v : VarId} {tagI m n : Nat} {red : RedExpr} {u η : Int}
    (ht : tagI = 0 ∨ tagI = 1) (hv : 0 < v.dim) (hc : v.cat = 0 ∨ v.cat = 1 ∨ v.cat = 2)
    (hm : 0 < m) (hn : 0 < n) (wf : f.WF) (wg : g.WF) (h1 : f.dim = 1) (ff : f.FactFree) (fg : g.FactFree)
    (nf : f.NoBroadcast) (ng : g.NoBroadcast) (uf : f.Uses v) (ug : g.Uses v) (hu : u ≠ v.ind) (hη : η ≠ v.ind)
    (h : RedGrads (.maxSumShiftExp f (.bin .concat (.int 1) g) tagI) v (.var η (2 + g.dim) tagI)
      (.var u (2 + g.dim) tagI) red)
    (base : Nat × Nat → Env) (x δ : Nat → Fin v.dim → ℝ)
    (sf : ∀ i < m, ∀ j < n, f.Smooth (point base v x (i, j)))
    (sg : ∀ i < m, ∀ j < n, g.Smooth (point base v x (i, j)))
    (M : Nat → ℝ) (hM : HoldsRows base u tagI m n 0 1 fun a _ => M a) (S₀ : Nat → ℝ) (S : Nat → Vec)
    (hS₀ : ∀ a < outRows tagI m n, S₀ a = ∑ s ∈ range (redRows tagI m n),
      Real.exp (f.val (point base v x (pairAt tagI a s)) 0 - M a))
    (hS : ∀ a < outRows tagI m n, ∀ k < g.dim, S a k = ∑ s ∈ range (redRows tagI m n),
      Real.exp (f.val (point base v x (pairAt tagI a s)) 0 - M a) * g.val (point base v x (pairAt tagI a s)) k)
    (G : Nat → Vec)
    (hG₀ : HoldsRows base η tagI m n 1 1 fun a _ => -(∑ k ∈ range g.dim, G a k * S a k) / S₀ a ^ 2)
    (hG : HoldsRows base η tagI m n 2 g.dim fun a k => G a k / S₀ a) :
    ∃ r axis, red = .sum r axis ∧ axis = (if v.cat = 1 then 1 else 0) ∧
      HasDerivAt (fun t => dotRows (outRows tagI m n) g.dim G (softRow f g tagI m n (point base v (line x δ t))))
        (dotGrad v m n (sumRow r axis m n (point base v x)) δ) 0 := by
  have hg0 := wg.pos
  have hcd : (Expr.bin .concat (.int 1) g).dim = 1 + g.dim := rfl
  have hcv : ∀ env k, k < 1 + g.dim → (Expr.bin .concat (.int 1) g).val env k =
      if k = 0 then 1 else g.val env (k - 1) := fun env k _ => by
    simp only [Expr.val, binVal, cst, Expr.dim]
    by_cases hk : k = 0
    · simp [hk]
    · simp [hk, wg.pos.ne']
  let E : Nat → Vec := fun a k => if k = 0 then -(∑ k ∈ range g.dim, G a k * S a k) / S₀ a ^ 2
    else G a (k - 1) / S₀ a
  have hE : HoldsRows base η tagI m n 1 (Expr.bin .concat (.int 1) g).dim E := by
    intro i hi j hj k hk
    rw [hcd] at hk
    by_cases h0 : k = 0
    · subst h0
      exact hG₀ i hi j hj 0 (by decide)
    · obtain ⟨q, rfl⟩ : ∃ q, k = q + 1 := ⟨k - 1, by omega⟩
      have := hG i hi j hj q (by omega)
      simp only [E, if_neg h0, Nat.add_sub_cancel]
      refine Eq.trans ?_ this
      congr 1
      omega
  have h2d : 2 + g.dim = 1 + (Expr.bin .concat (.int 1) g).dim := by rw [hcd]; omega
  rw [h2d] at h
  obtain ⟨r, axis, h2, h3, S', hd, he⟩ := shift_grad ht hv hc hm hn wf (g := .bin .concat (.int 1) g)
    ⟨by simp [Expr.WF], wg, rfl, by show 0 < 1 + g.dim; omega⟩ h1 ff ⟨trivial, fg⟩ nf
    ⟨trivial, ng⟩ uf ⟨trivial, ug⟩ hu hη h base x δ sf
    (fun i hi j hj => ⟨trivial, sg i hi j hj, trivial⟩) M hM E hE
  refine ⟨r, axis, h2, h3, ?_⟩
  rw [← he, hcd]
  have h0 : line x δ 0 = x := by funext r; simp [line]
  have hpos : ∀ a < outRows tagI m n, 0 < S₀ a := fun a ha => by
    rw [hS₀ a ha]
    refine sum_pos (fun _ _ => Real.exp_pos _) ⟨0, ?_⟩
    unfold redRows
    rw [mem_range]
    split <;> assumption
  -- the derivatives of `S₀` and `S`
  have hd0 : ∀ a < outRows tagI m n, HasDerivAt (fun t => ∑ s ∈ range (redRows tagI m n),
      Real.exp (f.val (point base v (line x δ t) (pairAt tagI a s)) 0 - M a)) (S' a 0) 0 := fun a ha => by
    refine (hd a ha 0 (by rw [hcd]; omega)).congr_of_eventuallyEq (.of_forall fun t => ?_)
    exact sum_congr rfl fun s _ => by rw [hcv _ 0 (by omega), if_pos rfl, mul_one]
  have hd1 : ∀ a < outRows tagI m n, ∀ k < g.dim, HasDerivAt (fun t => ∑ s ∈ range (redRows tagI m n),
      Real.exp (f.val (point base v (line x δ t) (pairAt tagI a s)) 0 - M a) *
        g.val (point base v (line x δ t) (pairAt tagI a s)) k) (S' a (k + 1)) 0 := fun a ha k hk => by
    refine (hd a ha (k + 1) (by rw [hcd]; omega)).congr_of_eventuallyEq (.of_forall fun t => ?_)
    exact sum_congr rfl fun s _ => by
      rw [hcv _ (k + 1) (by omega), if_neg (by omega), Nat.add_sub_cancel]
  have hconv : dotRows (outRows tagI m n) (1 + g.dim) E S' = dotRows (outRows tagI m n) g.dim G
      fun a k => (S' a (k + 1) * S₀ a - S a k * S' a 0) / S₀ a ^ 2 := by
    unfold dotRows
    refine sum_congr rfl fun a ha => ?_
    have hp := (hpos a (mem_range.mp ha)).ne'
    rw [Nat.add_comm, sum_range_succ']
    have e0 : E a 0 = -(∑ k ∈ range g.dim, G a k * S a k) / S₀ a ^ 2 := rfl
    rw [e0, neg_div, sum_div, neg_mul, sum_mul, ← sub_eq_add_neg, ← sum_sub_distrib]
    refine sum_congr rfl fun k _ => ?_
    have e1 : E a (k + 1) = G a k / S₀ a := rfl
    rw [e1]
    field_simp
  rw [hconv]
  refine dotRows_deriv fun a ha k hk => ?_
  have hq := (hd1 a ha k hk).div (hd0 a ha) (by rw [h0, ← hS₀ a ha]; exact (hpos a ha).ne')
  rw [h0, ← hS₀ a ha, ← hS a ha k hk] at hq
  refine hq.congr_of_eventuallyEq (.of_forall fun t => ?_)
  have hsh : ∀ y : ℝ, Real.exp y = Real.exp (M a) * Real.exp (y - M a) := fun y => by
    rw [← Real.exp_add]; congr 1; ring
  simp only [softRow, Pi.div_apply]
  simp_rw [hsh (f.val _ 0), mul_assoc, ← mul_sum]
  exact mul_div_mul_left _ _ (Real.exp_pos _).ne'

/-! ## Indices -/

/-- The values of a formula vary continuously along a line. -/
theorem continuousAt_line {f : Expr} {v : VarId} {base : Nat × Nat → Env} {x δ : Nat → Fin v.dim → ℝ}
    {p : Nat × Nat} (he : f.WF) (hf : f.FactFree) (hs : f.Smooth (point base v x p)) {k : Nat} (hk : k < f.dim) :
    ContinuousAt (fun t => f.val (point base v (line x δ t) p) k) 0 := by
  have h1 := (Expr.hasFDerivAt (F := fun y => setVar (base p) v y) he hf
    (setVar_hasFDerivAt (base p) v (x (rowAt v.cat p))) hs (.inl hk)).continuousAt
  have h2 : ContinuousAt (fun t : ℝ => line x δ t (rowAt v.cat p)) 0 :=
    continuousAt_const.add (continuousAt_id.smul continuousAt_const)
  have h0 : line x δ 0 (rowAt v.cat p) = x (rowAt v.cat p) := by simp [line]
  rw [← h0] at h1
  exact ContinuousAt.comp (f := fun t : ℝ => line x δ t (rowAt v.cat p)) h1 h2

/-- A quantity which does not change near 0 has derivative 0. -/
theorem hasDerivAt_locally {φ : ℝ → ℝ} (h : ∀ᶠ t in nhds 0, φ t = φ 0) : HasDerivAt φ 0 0 :=
  (hasDerivAt_const 0 (φ 0)).congr_of_eventuallyEq h

/-- **C44**, `ArgMin`: the gradient is zero, which is right at every point where the minimisers are unique: the index
is constant around them.  `ι t a k` is the index of a smallest value of component `k` of row `a`. -/
theorem C44_argmin {f gradin f0 : Expr} {v : VarId} {tagI m n d : Nat} {red : RedExpr}
    (hc : v.cat = 0 ∨ v.cat = 1 ∨ v.cat = 2) (he : f.WF) (hf : f.FactFree)
    (h : RedGrads (.arg f d tagI) v gradin f0 red)
    (base : Nat × Nat → Env) (x δ : Nat → Fin v.dim → ℝ)
    (hs : ∀ i < m, ∀ j < n, f.Smooth (point base v x (i, j)))
    (ι : ℝ → Nat → Nat → Nat)
    (hι : ∀ t, ∀ a < outRows tagI m n, ∀ k < f.dim, ι t a k < redRows tagI m n ∧
      ∀ s < redRows tagI m n, f.val (point base v (line x δ t) (pairAt tagI a (ι t a k))) k ≤
        f.val (point base v (line x δ t) (pairAt tagI a s)) k)
    (hu : ∀ a < outRows tagI m n, ∀ k < f.dim, ∀ s < redRows tagI m n, s ≠ ι 0 a k →
      f.val (point base v x (pairAt tagI a (ι 0 a k))) k < f.val (point base v x (pairAt tagI a s)) k)
    (G : Nat → Vec) :
    red = .zero v.dim (if v.cat = 1 then 1 else 0) ∧
      HasDerivAt (fun t => dotRows (outRows tagI m n) f.dim G fun a k => ι t a k)
        (dotGrad v m n (fun _ _ => 0) δ) 0 := by
  obtain ⟨N, h⟩ := h
  cases h
  refine ⟨by rcases hc with h | h | h <;> simp [VarId.axis, h], ?_⟩
  have h0 : line x δ 0 = x := by funext r; simp [line]
  have hz : dotGrad v m n (fun _ _ => 0) δ = dotRows (outRows tagI m n) f.dim G fun _ _ => 0 := by
    simp [dotGrad, dotRows]
  rw [hz]
  refine dotRows_deriv fun a ha k hk => hasDerivAt_locally ?_
  have key : ∀ s ∈ range (redRows tagI m n), ∀ᶠ t in nhds (0 : ℝ), s ≠ ι 0 a k →
      f.val (point base v (line x δ t) (pairAt tagI a (ι 0 a k))) k <
        f.val (point base v (line x δ t) (pairAt tagI a s)) k := by
    intro s hs'
    by_cases hsi : s = ι 0 a k
    · exact .of_forall fun t h => absurd hsi h
    · obtain ⟨p1, p2⟩ := pairAt_lt ha (hι 0 a ha k hk).1
      obtain ⟨q1, q2⟩ := pairAt_lt ha (mem_range.mp hs')
      have c1 := continuousAt_line (δ := δ) he hf (hs _ p1 _ p2) hk
      have c2 := continuousAt_line (δ := δ) he hf (hs _ q1 _ q2) hk
      have hlt := hu a ha k hk s (mem_range.mp hs') hsi
      have := c1.eventually_lt c2 (by simpa [h0] using hlt)
      exact this.mono fun t ht _ => ht
  refine ((Filter.eventually_all_finset _).mpr key).mono fun t ht => ?_
  by_contra hne
  have hne' : ι t a k ≠ ι 0 a k := fun e => hne (by rw [e])
  have h1 := ht _ (mem_range.mpr (hι t a ha k hk).1) hne'
  exact absurd ((hι t a ha k hk).2 _ (hι 0 a ha k hk).1) (not_le.mpr h1)

/-- **C44**, `ArgMin`, `ArgMax` and `ArgKMin`: the gradient is zero, which is right at every point where the values of
each row are distinct.  `out a c y` is an entry of the output, computed from the values `y s` of component `κ c` of row
`a`; it only depends on their order. -/
theorem C44_order {f gradin f0 : Expr} {v : VarId} {tagI m n d : Nat} {red : RedExpr}
    (hc : v.cat = 0 ∨ v.cat = 1 ∨ v.cat = 2) (he : f.WF) (hf : f.FactFree)
    (h : RedGrads (.arg f d tagI) v gradin f0 red)
    (base : Nat × Nat → Env) (x δ : Nat → Fin v.dim → ℝ)
    (hs : ∀ i < m, ∀ j < n, f.Smooth (point base v x (i, j)))
    (κ : Nat → Nat) (hκ : ∀ c < d, κ c < f.dim) (out : Nat → Nat → (Nat → ℝ) → ℝ)
    (ho : ∀ a c y z, (∀ s < redRows tagI m n, ∀ s' < redRows tagI m n, y s < y s' ↔ z s < z s') →
      out a c y = out a c z)
    (hu : ∀ a < outRows tagI m n, ∀ k < f.dim, ∀ s < redRows tagI m n, ∀ s' < redRows tagI m n, s ≠ s' →
      f.val (point base v x (pairAt tagI a s)) k ≠ f.val (point base v x (pairAt tagI a s')) k)
    (G : Nat → Vec) :
    red = .zero v.dim (if v.cat = 1 then 1 else 0) ∧
      HasDerivAt (fun t => dotRows (outRows tagI m n) d G fun a c =>
          out a c fun s => f.val (point base v (line x δ t) (pairAt tagI a s)) (κ c))
        (dotGrad v m n (fun _ _ => 0) δ) 0 := by
  obtain ⟨N, h⟩ := h
  cases h
  refine ⟨by rcases hc with h | h | h <;> simp [VarId.axis, h], ?_⟩
  have h0 : line x δ 0 = x := by funext r; simp [line]
  have hz : dotGrad v m n (fun _ _ => 0) δ = dotRows (outRows tagI m n) d G fun _ _ => 0 := by
    simp [dotGrad, dotRows]
  rw [hz]
  refine dotRows_deriv fun a ha c hcd => hasDerivAt_locally ?_
  have hk := hκ c hcd
  generalize κ c = k at hk ⊢
  have key : ∀ s ∈ range (redRows tagI m n), ∀ᶠ t in nhds (0 : ℝ), ∀ s' ∈ range (redRows tagI m n),
      (f.val (point base v (line x δ t) (pairAt tagI a s)) k <
        f.val (point base v (line x δ t) (pairAt tagI a s')) k ↔
      f.val (point base v (line x δ 0) (pairAt tagI a s)) k <
        f.val (point base v (line x δ 0) (pairAt tagI a s')) k) := by
    intro s hs1
    rw [Filter.eventually_all_finset]
    intro s' hs2
    rw [h0]
    obtain ⟨p1, p2⟩ := pairAt_lt ha (mem_range.mp hs1)
    obtain ⟨q1, q2⟩ := pairAt_lt ha (mem_range.mp hs2)
    have c1 := continuousAt_line (δ := δ) he hf (hs _ p1 _ p2) hk
    have c2 := continuousAt_line (δ := δ) he hf (hs _ q1 _ q2) hk
    by_cases hss : s = s'
    · subst hss
      exact .of_forall fun t => by simp
    rcases lt_or_gt_of_ne (hu a ha k hk s (mem_range.mp hs1) s' (mem_range.mp hs2) hss) with hlt | hlt
    · exact (c1.eventually_lt c2 (by simpa [h0] using hlt)).mono fun t ht => iff_of_true ht hlt
    · exact (c2.eventually_lt c1 (by simpa [h0] using hlt)).mono fun t ht =>
        iff_of_false (not_lt.mpr ht.le) (not_lt.mpr hlt.le)
  refine ((Filter.eventually_all_finset _).mpr key).mono fun t ht => ?_
  exact ho a c _ _ fun s hs s' hs' => ht s (mem_range.mpr hs) s' (mem_range.mpr hs')

/-- The reductions which return values (`Min`, `Max`, `KMin`) are refused. -/
theorem C44_refused (f gradin f0 : Expr) (v : VarId) (tagI : Nat) (r : RedExpr) :
    ¬ RedGrads (.value f tagI) v gradin f0 r := by
  rintro ⟨n, h⟩
  cases h

/-! ## Forward mode -/

/-- `Diff_WithSavedForward(red, v, u, f0)` returns `r`. -/
def RedDiffs (red : RedExpr) (v : VarId) (u f0 : Expr) (r : RedExpr) : Prop :=
  ∃ n, red.diff n v u f0 = .ok r

/-- Derivative of a sum along a line, by `Diff`. -/
theorem sum_diff {f r : Expr} {v : VarId} {tagI m n : Nat} {w : Int} (hv : 0 < v.dim)
    (he : f.WF) (hf : f.FactFree) (hn : f.NoBroadcast) (hu : f.Uses v) (hw : w ≠ v.ind)
    (h : Diffs f v (.var w v.dim v.cat) r) (base : Nat × Nat → Env) (x δ : Nat → Fin v.dim → ℝ)
    (hs : ∀ i < m, ∀ j < n, f.Smooth (point base v x (i, j)))
    (hδ : ∀ i < m, ∀ j < n, ∀ k : Fin v.dim, base (i, j) w k = δ (rowAt v.cat (i, j)) k) :
    ∀ a < outRows tagI m n, ∀ k < f.dim,
      HasDerivAt (fun t => sumRow f tagI m n (point base v (line x δ t)) a k)
        (sumRow r tagI m n (point base v x) a k) 0 := by
  intro a ha k hk
  unfold sumRow
  refine HasDerivAt.fun_sum fun s hs' => ?_
  obtain ⟨h1, h2⟩ := pairAt_lt ha (mem_range.mp hs')
  generalize pairAt tagI a s = p at h1 h2 ⊢
  obtain ⟨L, hL, -, -, hr⟩ := C05_diff_partial hv he hf hn hu (u := .var w v.dim v.cat) hv rfl h (base p)
    (x (rowAt v.cat p)) (hs p.1 h1 p.2 h2) trivial
  have hl : HasDerivAt (fun t : ℝ => line x δ t (rowAt v.cat p)) (δ (rowAt v.cat p)) 0 := by
    have := ((hasDerivAt_id (0 : ℝ)).smul_const (δ (rowAt v.cat p))).const_add (x (rowAt v.cat p))
    simpa [line] using this
  have h0 : line x δ 0 (rowAt v.cat p) = x (rowAt v.cat p) := by simp [line]
  have hD := hL
  rw [HasDiff, ← h0] at hD
  have := (hasDerivAt_pi.mp (hD.comp_hasDerivAt (0 : ℝ) hl)) ⟨k, hk⟩
  have e := hr ⟨k, hk⟩
  have hvec : (fun i : Fin v.dim => (Expr.var w v.dim v.cat).val (setVar (base p) v (x (rowAt v.cat p))) i) =
      δ (rowAt v.cat p) := by
    funext i
    have hp := hδ p.1 h1 p.2 h2 i
    have hi := i.2
    simp only [Expr.val, cst, setVar, Function.update_of_ne hw]
    split
    · rename_i h
      have : (i : Nat) = 0 := by omega
      rw [this] at hp
      exact hp
    · exact hp
  rw [hvec] at e
  unfold point at *
  rw [e]
  exact this

/-- **C53**, sums: the forward mode computes the derivative of every entry of the output when the array of `v` moves
in the direction `δ`.

Missing: the restrictions of C05 on the formula. -/
theorem C53_sum_partial {f f0 : Expr} {v : VarId} {tagI m n : Nat} {red : RedExpr} {w : Int} (hv : 0 < v.dim)
    (he : f.WF) (hf : f.FactFree) (hn : f.NoBroadcast) (hu : f.Uses v) (hw : w ≠ v.ind)
    (h : RedDiffs (.sum f tagI) v (.var w v.dim v.cat) f0 red)
    (base : Nat × Nat → Env) (x δ : Nat → Fin v.dim → ℝ)
    (hs : ∀ i < m, ∀ j < n, f.Smooth (point base v x (i, j)))
    (hδ : ∀ i < m, ∀ j < n, ∀ k : Fin v.dim, base (i, j) w k = δ (rowAt v.cat (i, j)) k) :
    ∃ r, red = .sum r tagI ∧ ∀ a < outRows tagI m n, ∀ k < f.dim,
      HasDerivAt (fun t => sumRow f tagI m n (point base v (line x δ t)) a k)
        (sumRow r tagI m n (point base v x) a k) 0 := by
  obtain ⟨N, h⟩ := h
  simp only [RedExpr.diff] at h
  obtain ⟨r, h1, h⟩ := bind_ok' h
  cases h
  exact ⟨r, rfl, sum_diff hv he hf hn hu hw ⟨N, h1⟩ base x δ hs hδ⟩

/-- **C53**, log-sum-exp: the forward mode returns `(0, S')` and `S' / S`, which is what PyTorch computes through
`L = M + log S`, is the derivative of the log-sum-exp.

Missing: the restrictions of C05 on the formulas. -/
theorem C53_logsumexp_partial {f g : Expr} {v : VarId} {tagI m n : Nat} {red : RedExpr} {u w : Int}
    (ht : tagI = 0 ∨ tagI = 1) (hv : 0 < v.dim)
    (hm : 0 < m) (hn : 0 < n) (wf : f.WF) (wg : g.WF) (h1 : f.dim = 1) (ff : f.FactFree) (fg : g.FactFree)
    (nf : f.NoBroadcast) (ng : g.NoBroadcast) (uf : f.Uses v) (ug : g.Uses v) (hu : u ≠ v.ind) (hw : w ≠ v.ind)
    (h : RedDiffs (.maxSumShiftExp f g tagI) v (.var w v.dim v.cat) (.var u (1 + g.dim) tagI) red)
    (base : Nat × Nat → Env) (x δ : Nat → Fin v.dim → ℝ)
    (sf : ∀ i < m, ∀ j < n, f.Smooth (point base v x (i, j)))
    (sg : ∀ i < m, ∀ j < n, g.Smooth (point base v x (i, j)))
    (hδ : ∀ i < m, ∀ j < n, ∀ k : Fin v.dim, base (i, j) w k = δ (rowAt v.cat (i, j)) k)
    (M : Nat → ℝ) (hM : HoldsRows base u tagI m n 0 1 fun a _ => M a) (S : Nat → Vec)
    (hS : ∀ a < outRows tagI m n, ∀ k < g.dim, S a k = ∑ s ∈ range (redRows tagI m n),
      Real.exp (f.val (point base v x (pairAt tagI a s)) 0 - M a) * g.val (point base v x (pairAt tagI a s)) k)
    (hpos : ∀ a < outRows tagI m n, ∀ k < g.dim, 0 < S a k) :
    ∃ r, red = .sum r tagI ∧ ∀ a < outRows tagI m n,
      sumRow r tagI m n (point base v x) a 0 = 0 ∧ ∀ k < g.dim,
      HasDerivAt (fun t => lseRow f g tagI m n (point base v (line x δ t)) a k)
        (sumRow r tagI m n (point base v x) a (1 + k) / S a k) 0 := by
  obtain ⟨N, h⟩ := h
  simp only [RedExpr.diff] at h
  obtain ⟨p, e1, h⟩ := bind_ok' h
  obtain ⟨c, e2, h⟩ := bind_ok' h
  obtain ⟨r, e3, h⟩ := bind_ok' h
  cases h
  have hg0 := wg.pos
  rw [h1] at e2
  have hconcat : ∀ {Δ : Domain} {env : Env} (hp : At Δ env p g.dim fun k =>
      Real.exp (f.val env 0 - env u 0) * g.val env k) (hb : Δ.bin .concat 1 g.dim (fun _ => 0) fun k =>
      Real.exp (f.val env 0 - env u 0) * g.val env k), At Δ env c (1 + g.dim) fun k =>
      if k = 0 then 0 else Real.exp (f.val env 0 - env u 0) * g.val env (k - 1) := by
    intro Δ env hp hb
    have hz : At Δ env (.zero 1) 1 fun _ => 0 := ⟨by simp [Expr.WF], rfl, trivial, fun _ => rfl⟩
    refine (hz.bin hp (o := .concat) hb e2).2.congr rfl fun k => ?_
    simp only [binVal, cst]
    by_cases hk : k = 0 <;> simp [hk, hg0.ne']
  have hval : ∀ env, At .triv env c (1 + g.dim) fun k =>
      if k = 0 then 0 else Real.exp (f.val env 0 - env u 0) * g.val env (k - 1) := fun env =>
    hconcat (shiftExp_at wf wg h1 (f.dom_triv env) (g.dom_triv env) trivial trivial e1) trivial
  have hdom : ∀ i < m, ∀ j < n, c.Dom (.smooth v) (point base v x (i, j)) := fun i hi j hj =>
    (hconcat (shiftExp_at wf wg h1 (Expr.dom_smooth.mpr ⟨sf i hi j hj, nf, uf, ff⟩)
      (Expr.dom_smooth.mpr ⟨sg i hi j hj, ng, ug, fg⟩) (fun e => absurd e hu) trivial e1)
      ⟨trivial, fun h => by rcases h with h | h <;> cases h⟩).dom
  obtain ⟨-, nc, uc, fc⟩ := Expr.dom_smooth.mp (hdom 0 hm 0 hn)
  have hcd : c.dim = 1 + g.dim := (hval fun _ _ => 0).dim
  have hd := sum_diff (tagI := tagI) hv (hval fun _ _ => 0).wf fc nc uc hw ⟨N, e3⟩ base x δ
    (fun i hi j hj => (Expr.dom_smooth.mp (hdom i hi j hj)).1) hδ
  rw [hcd] at hd
  refine ⟨r, rfl, fun a ha => ⟨?_, fun k hk => ?_⟩⟩
  · refine (hd a ha 0 (by omega)).unique ((hasDerivAt_const (0 : ℝ) (0 : ℝ)).congr_of_eventuallyEq
      (.of_forall fun t => ?_))
    exact sum_eq_zero fun s _ => by rw [(hval _).val, if_pos rfl]
  · have h0 : line x δ 0 = x := by funext r; simp [line]
    have hs1 : ∀ t, sumRow c tagI m n (point base v (line x δ t)) a (1 + k) = ∑ s ∈ range (redRows tagI m n),
        Real.exp (f.val (point base v (line x δ t) (pairAt tagI a s)) 0 - M a) *
          g.val (point base v (line x δ t) (pairAt tagI a s)) k := fun t => by
      refine sum_congr rfl fun s hs => ?_
      have hMv := hM.pair ht ha (mem_range.mp hs) (k := 0) (by decide)
      rw [Nat.zero_add] at hMv
      rw [(hval _).val, if_neg (by omega), point_other base v _ _ hu, hMv, Nat.add_sub_cancel_left]
    have hd' := (hd a ha (1 + k) (by omega)).const_mul (Real.exp (M a))
    have hZ : ∀ t, Real.exp (M a) * sumRow c tagI m n (point base v (line x δ t)) a (1 + k) =
        ∑ s ∈ range (redRows tagI m n), Real.exp (f.val (point base v (line x δ t) (pairAt tagI a s)) 0) *
          g.val (point base v (line x δ t) (pairAt tagI a s)) k := fun t => by
      rw [hs1, mul_sum]
      refine sum_congr rfl fun s _ => ?_
      rw [← mul_assoc, ← Real.exp_add]
      congr 2
      ring
    have hS0 : sumRow c tagI m n (point base v (line x δ 0)) a (1 + k) = S a k := by
      rw [hs1, h0, hS a ha k hk]
    have h4 := hd'.log (by
      rw [hS0]
      exact (mul_pos (Real.exp_pos _) (hpos a ha k hk)).ne')
    rw [hS0, mul_div_mul_left _ _ (Real.exp_pos (M a)).ne'] at h4
    refine h4.congr_of_eventuallyEq (.of_forall fun t => ?_)
    simp only [lseRow, hZ t]

/-! ## Examples -/

section Example

private abbrev xi : Expr := .var 0 2 0
private abbrev yj : Expr := .var 1 2 1
private abbrev bj : Expr := .var 2 3 1
private abbrev σp : Expr := .var 3 1 2
private abbrev sq : Expr := .un .minus (.bin .scalprod (.bin .sub xi yj) (.bin .sub xi yj))

/-- The score `-σ |x_i - y_j|²` and the vectors `exp(-σ |x_i - y_j|²) b_j`. -/
private abbrev score' : Expr := .bin .mul σp sq
private abbrev kern : Expr := .bin .mul (.un .exp score') bj

/-- A Gaussian convolution, differentiated with respect to the points `y_j`, for all data. -/
example (base : Nat × Nat → Env) (x δ : Nat → Fin 2 → ℝ) (m n : Nat) (G : Nat → Vec)
    (hG : HoldsRows base 4 0 m n 0 3 G) : ∃ r,
    RedGrads (.sum kern 0) ⟨1, 2, 1⟩ (.var 4 3 0) (.var 5 3 0) (.sum r 1) ∧
      HasDerivAt (fun t => dotRows m 3 G (sumRow kern 0 m n (point base ⟨1, 2, 1⟩ (line x δ t))))
        (dotGrad ⟨1, 2, 1⟩ m n (sumRow r 1 m n (point base ⟨1, 2, 1⟩ x)) δ) 0 := by
  have h : RedGrads (.sum kern 0) ⟨1, 2, 1⟩ (.var 4 3 0) (.var 5 3 0) _ := ⟨20, rfl⟩
  obtain ⟨r, axis, h1, h2, h3⟩ := C44_sum_partial (v := ⟨1, 2, 1⟩) (m := m) (n := n) (.inl rfl) (by decide)
    (by decide) (by simp [Expr.WF, Expr.dim, Un.dim, Bin.dim, Un.accept, Bin.accept, dimsOk])
    (by simp [Expr.FactFree]) (by simp [Expr.NoBroadcast]) (by simp [Expr.Uses]) (by decide) h base x δ
    (by simp [Expr.Smooth, unSmooth, binSmooth]) G hG
  rw [if_pos rfl] at h2
  subst h2
  exact ⟨r, h1 ▸ h, h3⟩

/-- Its log-sum-exp with weights 1, differentiated with respect to the parameter `σ`. -/
example (base : Nat × Nat → Env) (x δ : Nat → Fin 1 → ℝ) (m n : Nat) (hm : 0 < m) (hn : 0 < n) (M : Nat → ℝ)
    (hM : HoldsRows base 5 0 m n 0 1 fun a _ => M a) (G : Nat → Vec)
    (hG : HoldsRows base 4 0 m n 1 1 fun a k => G a k / ∑ s ∈ range n,
      Real.exp (score'.val (point base ⟨3, 1, 2⟩ x (a, s)) 0 - M a)) : ∃ r,
    RedGrads (.maxSumShiftExp score' (.int 1) 0) ⟨3, 1, 2⟩ (.var 4 2 0) (.var 5 2 0) (.sum r 0) ∧
      HasDerivAt (fun t => dotRows m 1 G (lseRow score' (.int 1) 0 m n (point base ⟨3, 1, 2⟩ (line x δ t))))
        (dotGrad ⟨3, 1, 2⟩ m n (sumRow r 0 m n (point base ⟨3, 1, 2⟩ x)) δ) 0 := by
  have h : RedGrads (.maxSumShiftExp score' (.int 1) 0) ⟨3, 1, 2⟩ (.var 4 2 0) (.var 5 2 0) _ := ⟨20, rfl⟩
  obtain ⟨r, axis, h1, h2, h3⟩ := C44_logsumexp_partial (f := score') (g := .int 1) (v := ⟨3, 1, 2⟩) (m := m)
    (n := n) (.inl rfl) (by decide) (by decide) hm hn (by simp [Expr.WF, Expr.dim, Un.dim, Bin.dim, Un.accept, Bin.accept, dimsOk])
    (by simp [Expr.WF]) rfl (by simp [Expr.FactFree]) trivial (by simp [Expr.NoBroadcast]) trivial
    (by simp [Expr.Uses]) trivial (by decide) (by decide) h base x δ
    (by simp [Expr.Smooth, unSmooth, binSmooth]) (fun _ _ _ _ => trivial) M hM
    (fun a _ => ∑ s ∈ range n, Real.exp (score'.val (point base ⟨3, 1, 2⟩ x (a, s)) 0 - M a))
    (fun a _ k _ => sum_congr rfl fun s _ => by simp [Expr.val, pairAt])
    (fun a _ k _ => sum_pos (fun _ _ => Real.exp_pos _) ⟨0, mem_range.mpr hn⟩) G hG
  rw [if_neg (by decide)] at h2
  subst h2
  exact ⟨r, h1 ▸ h, h3⟩

/-- The softmax-weighted sum of the `b_j`, differentiated with respect to `x_i`: the gradient exists. -/
example : ∃ r, RedGrads (.maxSumShiftExp score' (.bin .concat (.int 1) bj) 0) ⟨0, 2, 0⟩ (.var 4 5 0) (.var 5 5 0)
    (.sum r 0) := ⟨_, 20, rfl⟩

/-- The index of the smallest of two numbers `y_0 = 0`, `y_1 = 1`. -/
example (δ : Nat → Fin 1 → ℝ) (G : Nat → Vec) :
    HasDerivAt (fun t => dotRows 1 1 G fun _ _ =>
        ((if t * δ 0 0 ≤ 1 + t * δ 1 0 then 0 else 1 : Nat) : ℝ))
      (dotGrad ⟨1, 1, 1⟩ 1 2 (fun _ _ => 0) δ) 0 := by
  have hv : ∀ t s, (Expr.var 1 1 1).val (point (fun _ _ _ => 0) ⟨1, 1, 1⟩ (line (fun r _ => (r : ℝ)) δ t)
      (pairAt 0 0 s)) 0 = s + t * δ s 0 := fun t s => by
    simp [Expr.val, cst, point, setVar, rowAt, pairAt, line]
  have hv0 : ∀ s : Nat, (Expr.var 1 1 1).val (point (fun _ _ _ => 0) ⟨1, 1, 1⟩ (fun r _ => (r : ℝ))
      (pairAt 0 0 s)) 0 = s := fun s => by
    simp [Expr.val, cst, point, setVar, rowAt, pairAt]
  refine (C44_argmin (f := .var 1 1 1) (v := ⟨1, 1, 1⟩) (tagI := 0) (m := 1) (n := 2) (d := 1) (by decide)
    (by simp [Expr.WF]) trivial (gradin := .var 4 1 0) (f0 := .var 5 1 0) ⟨0, rfl⟩ (fun _ _ _ => 0)
    (fun r _ => r) δ (fun _ _ _ _ => trivial)
    (fun t _ _ => if t * δ 0 0 ≤ 1 + t * δ 1 0 then 0 else 1) ?_ ?_ G).2
  · intro t a ha k hk
    obtain rfl : a = 0 := by simp [outRows] at ha; omega
    obtain rfl : k = 0 := by simp [Expr.dim] at hk; omega
    simp only [hv]
    refine ⟨by simp only [redRows]; split <;> simp, fun s hs => ?_⟩
    obtain rfl | rfl : s = 0 ∨ s = 1 := by simp [redRows] at hs; omega
    · split
      · simp
      · rename_i h; push Not at h; simp; linarith
    · split
      · rename_i h; simp; linarith
      · simp
  · intro a ha k hk s hs hne
    obtain rfl : a = 0 := by simp [outRows] at ha; omega
    obtain rfl : k = 0 := by simp [Expr.dim] at hk; omega
    simp only [hv0]
    obtain rfl | rfl : s = 0 ∨ s = 1 := by simp [redRows] at hs; omega
    · simp at hne
    · simp

/-- The forward mode for the Gaussian convolution and for the log-sum-exp. -/
example : ∃ r, RedDiffs (.sum kern 0) ⟨1, 2, 1⟩ (.var 4 2 1) (.var 5 3 0) (.sum r 0) := ⟨_, 20, rfl⟩

example : ∃ r, RedDiffs (.maxSumShiftExp score' (.int 1) 0) ⟨0, 2, 0⟩ (.var 4 2 0) (.var 5 2 0) (.sum r 0) :=
  ⟨_, 20, rfl⟩

end Example

end Verif
