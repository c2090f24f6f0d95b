import Verif.Model.PcgGauss
import Verif.Spec.PcgGauss
import Verif.Proofs.PcgCols
import Mathlib.Analysis.SpecialFunctions.Exponential
import Mathlib.Algebra.BigOperators.Ring.Finset

/-!
# The Gaussian kernel is not negative
-/

namespace Verif.Cg

open Spec Matrix

variable {n m D : Nat}

theorem pow_quad (x : Matrix (Fin n) (Fin D) ℝ) (a : Fin n → ℝ) (k : Nat) :
    ∑ i, ∑ j, a i * a j * (x i ⬝ᵥ x j) ^ k = ∑ f : Fin k → Fin D, (∑ i, a i * ∏ l, x i (f l)) ^ 2 := by
  have h1 : ∀ i j, a i * a j * (x i ⬝ᵥ x j) ^ k = ∑ f : Fin k → Fin D, (a i * ∏ l, x i (f l)) * (a j * ∏ l, x j (f l)) :=
    fun i j => by
      simp only [dotProduct, Fintype.sum_pow, Finset.mul_sum, Finset.prod_mul_distrib]
      exact Finset.sum_congr rfl fun f _ => by ring
  simp only [h1, pow_two, Finset.sum_mul_sum]
  rw [Finset.sum_congr rfl fun i _ => Finset.sum_comm, Finset.sum_comm]

theorem gauss_split (s : ℝ) (x : Matrix (Fin n) (Fin D) ℝ) (i j : Fin n) : gaussMatrix s x x i j =
    Real.exp (-(s * (x i ⬝ᵥ x i))) * Real.exp (-(s * (x j ⬝ᵥ x j))) * Real.exp (2 * s * (x i ⬝ᵥ x j)) := by
  have : dist2 (x i) (x j) = x i ⬝ᵥ x i + x j ⬝ᵥ x j - 2 * (x i ⬝ᵥ x j) := by
    simp only [dist2, dotProduct, Finset.mul_sum, ← Finset.sum_add_distrib, ← Finset.sum_sub_distrib]
    exact Finset.sum_congr rfl fun k _ => by ring
  rw [gaussMatrix, this, ← Real.exp_add, ← Real.exp_add]
  congr 1
  ring

theorem gauss_psd {s : ℝ} (hs : 0 ≤ s) (x : Matrix (Fin n) (Fin D) ℝ) : Psd (gaussMatrix s x x) := by
  refine ⟨fun i j => ?_, fun c => ?_⟩
  · simp only [gaussMatrix, dist2]
    congr 3
    exact Finset.sum_congr rfl fun k _ => by ring
  · let a : Fin n → ℝ := fun i => c i * Real.exp (-(s * (x i ⬝ᵥ x i)))
    have e : ∑ i, c i * (gaussMatrix s x x).mulVec c i = ∑ i, ∑ j, a i * a j * Real.exp (2 * s * (x i ⬝ᵥ x j)) := by
      refine Finset.sum_congr rfl fun i _ => ?_
      show c i * ∑ j, gaussMatrix s x x i j * c j = _
      rw [Finset.mul_sum]
      exact Finset.sum_congr rfl fun j _ => by rw [gauss_split]; simp only [a]; ring
    rw [e]
    have h : HasSum (fun k : ℕ => ∑ i, ∑ j, a i * a j * ((2 * s * (x i ⬝ᵥ x j)) ^ k / k.factorial))
        (∑ i, ∑ j, a i * a j * Real.exp (2 * s * (x i ⬝ᵥ x j))) :=
      hasSum_sum fun i _ => hasSum_sum fun j _ => by
        have := NormedSpace.expSeries_div_hasSum_exp (2 * s * (x i ⬝ᵥ x j))
        rw [← Real.exp_eq_exp_ℝ] at this
        exact this.mul_left _
    refine h.nonneg fun k => ?_
    have e2 : ∑ i, ∑ j, a i * a j * ((2 * s * (x i ⬝ᵥ x j)) ^ k / k.factorial) =
        (2 * s) ^ k / k.factorial * ∑ i, ∑ j, a i * a j * (x i ⬝ᵥ x j) ^ k := by
      simp only [Finset.mul_sum]
      exact Finset.sum_congr rfl fun i _ => Finset.sum_congr rfl fun j _ => by rw [mul_pow]; ring
    rw [e2, pow_quad]
    exact mul_nonneg (by positivity) (Finset.sum_nonneg fun f _ => sq_nonneg _)

theorem gaussKernelMatrix_eq (s : ℝ) (x : Matrix (Fin n) (Fin D) ℝ) (y : Matrix (Fin m) (Fin D) ℝ) :
    gaussKernelMatrix s x y = gaussMatrix s x y := by
  funext i j
  have : ∀ (l : List ℝ) (a : ℝ), l.foldl (· + ·) a = a + l.sum := fun l => by
    induction l with
    | nil => simp
    | cons b l ih => intro a; simp only [List.foldl_cons, ih, List.sum_cons]; ring
  simp only [gaussKernelMatrix, gaussMatrix, dist2, this, List.sum_ofFn, zero_add, neg_mul]

theorem gaussM_eq (s : ℝ) (x : Matrix (Fin n) (Fin D) ℝ) (ind : Fin m → Fin n) {Kspec} (hK : ∀ u v r,
      Kspec u v x r = ∑ i, Real.exp (-(s * (dist2 (u r) (x i) + dist2 (v r) (x i))))) :
    gaussM (gaussKernelMatrix s) Kspec (x.submatrix ind id) x =
      nystromM ((gaussMatrix s x x).submatrix ind ind) ((gaussMatrix s x x).submatrix id ind) := by
  have sym : ∀ (y z : Fin D → ℝ), dist2 y z = dist2 z y := fun y z => by
    simp only [dist2]
    exact Finset.sum_congr rfl fun k _ => by ring
  funext p q
  simp only [gaussM, nystromM, gaussKernelMatrix_eq, hK]
  congr 1
  refine Finset.sum_congr rfl fun i _ => ?_
  simp only [gaussMatrix, submatrix_apply, id, ← Real.exp_add]
  have h1 : (finProdFinEquiv (p, q)).modNat = q := by
    have := congrArg Prod.snd (finProdFinEquiv.symm_apply_apply (p, q))
    exact this
  have h2 : (finProdFinEquiv (p, q)).divNat = p := by
    have := congrArg Prod.fst (finProdFinEquiv.symm_apply_apply (p, q))
    exact this
  have e1 : tileRows (x.submatrix ind id) (finProdFinEquiv (p, q)) = x (ind q) := by
    funext k
    simp only [tileRows, h1, submatrix_apply, id]
  have e2 : tileCols (x.submatrix ind id) (finProdFinEquiv (p, q)) = x (ind p) := by
    funext k
    simp only [tileCols, h2, submatrix_apply, id]
  rw [e1, e2, sym (x (ind q)), sym (x (ind p))]
  congr 1
  ring

end Verif.Cg
