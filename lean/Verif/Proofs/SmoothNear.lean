import Verif.Proofs.Diff

/-!
# Formulas are defined near the points where they are differentiable
-/

namespace Verif

open Spec Finset Filter Topology

variable {X : Type} [NormedAddCommGroup X] [NormedSpace ℝ X] {x₀ : X}

theorem near_all {d : Nat} {P : Nat → X → Prop} (h : ∀ k < d, ∀ᶠ x in 𝓝 x₀, P k x) :
    ∀ᶠ x in 𝓝 x₀, ∀ k < d, P k x := by
  have := (Finset.eventually_all (range d)).mpr fun k hk => h k (mem_range.mp hk)
  filter_upwards [this] with x hx k hk using hx k (mem_range.mpr hk)

theorem unDef_near {φ : X → Vec} {d : Nat} {o : Un} (h : unSmooth o d (φ x₀)) (hd : 0 < d)
    (hc : ∀ k < d, ContinuousAt (fun x => φ x k) x₀) : ∀ᶠ x in 𝓝 x₀, unDef o d (φ x) := by
  have ne : (∀ k < d, φ x₀ k ≠ 0) → ∀ᶠ x in 𝓝 x₀, ∀ k < d, φ x k ≠ 0 := fun h =>
    near_all fun k hk => (hc k hk).eventually_ne (h k hk)
  have lt : (∀ k < d, 0 < φ x₀ k) → ∀ᶠ x in 𝓝 x₀, ∀ k < d, 0 < φ x k := fun h =>
    near_all fun k hk => continuousAt_const.eventually_lt (hc k hk) (h k hk)
  have le : (∀ k < d, 0 < φ x₀ k) → ∀ᶠ x in 𝓝 x₀, ∀ k < d, 0 ≤ φ x k := fun h =>
    (lt h).mono fun x hx k hk => (hx k hk).le
  have ab : (∀ k < d, -1 < φ x₀ k ∧ φ x₀ k < 1) → ∀ᶠ x in 𝓝 x₀, ∀ k < d, -1 ≤ φ x k ∧ φ x k ≤ 1 := fun h =>
    near_all fun k hk => by
      filter_upwards [continuousAt_const.eventually_lt (hc k hk) (h k hk).1,
        (hc k hk).eventually_lt continuousAt_const (h k hk).2] with x h1 h2 using ⟨h1.le, h2.le⟩
  cases o <;> first
    | exact Eventually.of_forall fun _ => trivial
    | exact Eventually.of_forall fun _ => h
    | exact ne h
    | exact lt h
    | exact le h
    | exact ab h
    | skip
  case pow m =>
    by_cases hm : m < 0
    · exact (ne fun k hk => h k hk hm).mono fun x hx k hk _ => hx k hk
    · exact Eventually.of_forall fun x k _ hm' => absurd hm' hm
  case oneHot n =>
    have : ∀ᶠ x in 𝓝 x₀, trunc (φ x 0 + 1 / 2) = trunc (φ x₀ 0 + 1 / 2) :=
      ((hc 0 hd).add continuousAt_const).eventually (trunc_near h.1)
    filter_upwards [this] with x hx
    simp only [unDef, hx]
    exact h.2

theorem binDef_near {φ ψ : X → Vec} {d d' : Nat} {o : Bin} (h : binSmooth o d d' (φ x₀) (ψ x₀))
    (ha : o = .div ∨ o = .powf ∨ o = .atan2 →
      ∀ k < max d d', ContinuousAt (fun x => φ x k) x₀ ∧ ContinuousAt (fun x => ψ x k) x₀) :
    ∀ᶠ x in 𝓝 x₀, binDef o d d' (φ x) (ψ x) := by
  cases o <;> first
    | exact Eventually.of_forall fun _ => trivial
    | skip
  case div => exact near_all fun k hk => (ha (by simp) k hk).2.eventually_ne (h k hk)
  case powf => exact near_all fun k hk => continuousAt_const.eventually_lt (ha (by simp) k hk).1 (h k hk)
  case atan2 =>
    refine near_all fun k hk => ?_
    rcases h k hk with h1 | h1
    · exact ((ha (by simp) k hk).2.eventually_ne h1.ne').mono fun x hx => .inr hx
    · exact ((ha (by simp) k hk).1.eventually_ne h1).mono fun x hx => .inl hx

/-- A formula whose operations are differentiable at a point is defined near it. -/
theorem Expr.Smooth.near {e : Expr} (hw : e.WF) (hf : e.FactFree) {F : X → Env} {δ : Int → Nat → (X →L[ℝ] ℝ)}
    (hδ : ∀ i k, HasFDerivAt (fun x => F x i k) (δ i k) x₀) (hs : e.Smooth (F x₀)) :
    ∀ᶠ x in 𝓝 x₀, e.Def (F x) := by
  have cont : ∀ {e : Expr}, e.WF → e.FactFree → e.Smooth (F x₀) → ∀ k, (k < e.dim ∨ e.dim = 1) →
      ContinuousAt (fun x => e.val (F x) k) x₀ := fun h1 h2 h3 k hk =>
    (Expr.hasFDerivAt h1 h2 hδ h3 hk).continuousAt
  induction e with
  | var | zero | int | rat => exact Eventually.of_forall fun _ => trivial
  | un o f ih =>
    filter_upwards [ih hw.1 hf hs.1, unDef_near (φ := fun x => f.val (F x)) hs.2 hw.1.pos fun k hk =>
      cont hw.1 hf hs.1 k (.inl hk)] with x h1 h2 using ⟨h1, h2⟩
  | bin o f g i1 i2 =>
    have := binDef_near (φ := fun x => f.val (F x)) (ψ := fun x => g.val (F x)) hs.2.2 fun ho k hk => by
      have hacc : dimsOk [f.dim, g.dim] = true := by
        have := hw.2.2.1
        rcases ho with rfl | rfl | rfl <;> exact this
      have hdd := (dimsOk_pair hw.1.pos hw.2.1.pos).mp hacc
      have := hw.1.pos
      have := hw.2.1.pos
      exact ⟨cont hw.1 hf.1 hs.1 k (by omega), cont hw.2.1 hf.2 hs.2.1 k (by omega)⟩
    filter_upwards [i1 hw.1 hf.1 hs.1, i2 hw.2.1 hf.2 hs.2.1, this] with x h1 h2 h3 using ⟨h1, h2, h3⟩
  | tern o f g k i1 i2 i3 =>
    have hp1 := hw.1.pos
    have hp2 := hw.2.1.pos
    have hp3 := hw.2.2.1.pos
    have hdd := (dimsOk_triple hp1 hp2 hp3).mp hw.2.2.2
    have : ∀ᶠ x in 𝓝 x₀, ternDef o (Expr.tern o f g k).dim (f.val (F x)) (g.val (F x)) (k.val (F x)) := by
      cases o with
      | mod =>
        refine near_all fun j hj => ?_
        have hj' : j < max (max f.dim g.dim) k.dim := hj
        exact (cont hw.2.1 hf.2.1 hs.2.1 j (by omega)).eventually_ne (hs.2.2.2 j hj).1
      | _ => exact Eventually.of_forall fun _ => trivial
    filter_upwards [i1 hw.1 hf.1 hs.1, i2 hw.2.1 hf.2.1 hs.2.1, i3 hw.2.2.1 hf.2.2 hs.2.2.1, this] with x h1 h2 h3 h4
      using ⟨h1, h2, h3, h4⟩
  | fact => exact absurd hf id

end Verif
