import Verif.Spec.SolveGrad
import Verif.Props.RedDiff
import Mathlib.Analysis.Calculus.Deriv.Mul
import Mathlib.Analysis.Calculus.Deriv.Inv
import Mathlib.Analysis.Calculus.FDeriv.Mul
import Mathlib.LinearAlgebra.Matrix.NonsingularInverse
import Mathlib.LinearAlgebra.Matrix.Symmetric

/-!
# Derivative of the solution of a linear system
-/

namespace Verif

open Finset Matrix Spec

variable {ι : Type} [Fintype ι] [DecidableEq ι]

theorem det_differentiable {A : ℝ → Matrix ι ι ℝ} (h : ∀ i j, DifferentiableAt ℝ (fun t => A t i j) 0) :
    DifferentiableAt ℝ (fun t => (A t).det) 0 := by
  simp only [det_apply]
  refine DifferentiableAt.fun_sum fun σ _ => ?_
  refine DifferentiableAt.const_smul (DifferentiableAt.fun_finset_prod fun i _ => h _ _) _

theorem adjugate_differentiable {A : ℝ → Matrix ι ι ℝ} (h : ∀ i j, DifferentiableAt ℝ (fun t => A t i j) 0) (i j : ι) :
    DifferentiableAt ℝ (fun t => (A t).adjugate i j) 0 := by
  simp only [adjugate_apply]
  refine det_differentiable fun k l => ?_
  by_cases hk : k = j
  · subst hk
    simp only [updateRow_self]
    exact differentiableAt_const _
  · simp only [updateRow_ne hk]
    exact h k l

/-- The solution of a linear system is differentiable. -/
theorem solution_differentiable {A : ℝ → Matrix ι ι ℝ} (h : ∀ i j, DifferentiableAt ℝ (fun t => A t i j) 0)
    (hdet : IsUnit (A 0).det) {b : ι → ℝ} {x : ℝ → ι → ℝ} (hx : ∀ᶠ t in nhds 0, A t *ᵥ x t = b) (i : ι) :
    DifferentiableAt ℝ (fun t => x t i) 0 := by
  have hd := det_differentiable h
  have hne : ∀ᶠ t in nhds (0 : ℝ), (A t).det ≠ 0 := hd.continuousAt.eventually_ne hdet.ne_zero
  have e : (fun t => x t i) =ᶠ[nhds 0] fun t => ∑ j, (A t).det⁻¹ * (A t).adjugate i j * b j := by
    filter_upwards [hne, hx] with t h1 h2
    have : x t = (A t)⁻¹ *ᵥ b := by
      rw [← h2, mulVec_mulVec, nonsing_inv_mul _ (isUnit_iff_ne_zero.mpr h1), one_mulVec]
    rw [this]
    simp only [mulVec, dotProduct, Matrix.inv_def, Ring.inverse_eq_inv', Matrix.smul_apply, smul_eq_mul]
  refine DifferentiableAt.congr_of_eventuallyEq ?_ e
  refine DifferentiableAt.fun_sum fun j _ => ?_
  exact ((hd.inv hdet.ne_zero).mul (adjugate_differentiable h i j)).mul_const _

/-- The derivative of `⟨G, A(t)⁻¹ b⟩` is that of `-⟨A(0)⁻¹ G, A(t) x(0)⟩`, for `A(0)` symmetric. -/
theorem solve_grad {A : ℝ → Matrix ι ι ℝ} (h : ∀ i j, DifferentiableAt ℝ (fun t => A t i j) 0)
    (hdet : IsUnit (A 0).det) (hs : (A 0).IsSymm) {b G g : ι → ℝ} {x : ℝ → ι → ℝ}
    (hx : ∀ᶠ t in nhds 0, A t *ᵥ x t = b) (hg : A 0 *ᵥ g = G) {D : ℝ}
    (hD : HasDerivAt (fun t => -(g ⬝ᵥ A t *ᵥ x 0)) D 0) : HasDerivAt (fun t => G ⬝ᵥ x t) D 0 := by
  have hxd := solution_differentiable h hdet hx
  have hψ : HasDerivAt (fun t => ∑ i, g i * ∑ j, (A t i j - A 0 i j) * (x t j - x 0 j)) 0 0 := by
    have : HasDerivAt (fun t => ∑ i, g i * ∑ j, (A t i j - A 0 i j) * (x t j - x 0 j)) (∑ i : ι, g i * ∑ j : ι, (0 : ℝ)) 0 := by
      refine HasDerivAt.fun_sum fun i _ => HasDerivAt.const_mul _ (HasDerivAt.fun_sum fun j _ => ?_)
      have h1 := ((h i j).hasDerivAt.sub_const (A 0 i j)).fun_mul ((hxd j).hasDerivAt.sub_const (x 0 j))
      refine h1.congr_deriv (by simp)
    simpa using this
  have h2 := (hD.add_const (g ⬝ᵥ b + g ⬝ᵥ A 0 *ᵥ x 0)).sub hψ
  rw [sub_zero] at h2
  refine h2.congr_of_eventuallyEq ?_
  filter_upwards [hx] with t ht
  have e1 : G ⬝ᵥ x t = g ⬝ᵥ A 0 *ᵥ x t := by
    rw [← hg, dotProduct_comm, dotProduct_mulVec, ← mulVec_transpose, hs.eq, dotProduct_comm]
  have e2 : ∑ i, g i * ∑ j, (A t i j - A 0 i j) * (x t j - x 0 j) =
      g ⬝ᵥ (A t - A 0) *ᵥ (x t - x 0) := rfl
  simp only [Pi.sub_apply]
  rw [e1, e2, sub_mulVec, mulVec_sub, mulVec_sub, ht]
  simp only [dotProduct_sub]
  ring

end Verif
