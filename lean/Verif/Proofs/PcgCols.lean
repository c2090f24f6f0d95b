import Verif.Proofs.PcgOps
import Verif.Props.Pcg
import Mathlib.Data.Fintype.BigOperators

/-!
# Lemmas on arrays with several columns
-/

namespace Verif.Cg

open Spec Matrix

variable {n m c : Nat}

/-- The entries of an array, row after row. -/
def entries (X : Matrix (Fin n) (Fin c) ℝ) : Fin (n * c) → ℝ := fun q =>
  X (finProdFinEquiv.symm q).1 (finProdFinEquiv.symm q).2

theorem ofMatrix_eq (X : Matrix (Fin n) (Fin c) ℝ) : ofMatrix X = ofReal (entries X) := rfl

/-- The array with given entries. -/
def unentries (x : Fin (n * c) → ℝ) : Matrix (Fin n) (Fin c) ℝ := fun i j => x (finProdFinEquiv (i, j))

theorem entries_un (x : Fin (n * c) → ℝ) : entries (unentries x) = x := by
  funext q
  simp only [entries, unentries, Prod.mk.eta, Equiv.apply_symm_apply]

/-- The matrix that acts on the columns of an array. -/
def cols (c : Nat) (A : Matrix (Fin n) (Fin m) ℝ) : Matrix (Fin (n * c)) (Fin (m * c)) ℝ := fun p q =>
  if (finProdFinEquiv.symm p).2 = (finProdFinEquiv.symm q).2 then A (finProdFinEquiv.symm p).1 (finProdFinEquiv.symm q).1
  else 0

theorem sum_entries (f : Fin n → Fin c → ℝ) :
    ∑ q : Fin (n * c), f (finProdFinEquiv.symm q).1 (finProdFinEquiv.symm q).2 = ∑ i, ∑ j, f i j := by
  rw [← Equiv.sum_comp (finProdFinEquiv (m := n) (n := c)), Fintype.sum_prod_type]
  simp only [Equiv.symm_apply_apply]

theorem cols_mulVec (A : Matrix (Fin n) (Fin m) ℝ) (X : Matrix (Fin m) (Fin c) ℝ) :
    cols c A *ᵥ entries X = entries (A * X) := by
  funext p
  simp only [mulVec, dotProduct, cols, entries, mul_apply]
  generalize finProdFinEquiv.symm p = p'
  rw [sum_entries fun i j => (if p'.2 = j then A p'.1 i else 0) * X i j]
  refine Finset.sum_congr rfl fun i _ => ?_
  simp

theorem cols_transpose (A : Matrix (Fin n) (Fin m) ℝ) : (cols c A)ᵀ = cols c Aᵀ := by
  ext p q
  simp only [cols, transpose_apply, eq_comm]

theorem cols_symm {A : Matrix (Fin n) (Fin n) ℝ} (h : ∀ i j, A i j = A j i) (p q) : cols c A p q = cols c A q p := by
  simp only [cols]
  rw [h]
  simp only [eq_comm]

theorem cols_quad (A : Matrix (Fin n) (Fin n) ℝ) (x : Fin (n * c) → ℝ) :
    ∑ p, x p * (cols c A).mulVec x p =
      ∑ j, ∑ i, (fun i => unentries x i j) i * A.mulVec (fun i => unentries x i j) i := by
  have h := cols_mulVec A (unentries x)
  rw [entries_un] at h
  rw [h, Finset.sum_comm]
  have := sum_entries (n := n) (c := c) fun i j => unentries x i j * (A * unentries x) i j
  rw [show (∑ i, ∑ j, unentries x i j * (A * unentries x) i j) =
    ∑ i, ∑ j, (fun i => unentries x i j) i * A.mulVec (fun i => unentries x i j) i from rfl] at this
  rw [← this]
  refine Finset.sum_congr rfl fun q _ => ?_
  have hx := congrFun (entries_un (n := n) (c := c) x) q
  exact congrArg (· * _) hx.symm

theorem cols_psd {A : Matrix (Fin n) (Fin n) ℝ} (h : Psd A) (x : Fin (n * c) → ℝ) : 0 ≤ ∑ i, x i * (cols c A).mulVec x i := by
  rw [cols_quad]
  exact Finset.sum_nonneg fun j _ => h.2 _

theorem cols_zero {A : Matrix (Fin m) (Fin m) ℝ} (h : Psd A) {C : Matrix (Fin n) (Fin m) ℝ}
    (hz : ∀ w : Fin m → ℝ, ∑ i, w i * A.mulVec w i = 0 → C *ᵥ w = 0) (w : Fin (m * c) → ℝ)
    (hw : ∑ i, w i * (cols c A).mulVec w i = 0) : cols c C *ᵥ w = 0 := by
  rw [cols_quad, Finset.sum_eq_zero_iff_of_nonneg fun j _ => h.2 _] at hw
  rw [← entries_un (n := m) (c := c) w, cols_mulVec]
  funext q
  exact congrFun (hz _ (hw (finProdFinEquiv.symm q).2 (Finset.mem_univ _))) (finProdFinEquiv.symm q).1

theorem nystromM_eq (Kuu : Matrix (Fin m) (Fin m) ℝ) (C : Matrix (Fin n) (Fin m) ℝ) : nystromM Kuu C = Kuu + Cᵀ * C := by
  ext p q
  simp only [nystromM, add_apply, mul_apply, transpose_apply]
  congr 1
  exact Finset.sum_congr rfl fun i _ => mul_comm _ _

theorem nystromM_cols (Kuu : Matrix (Fin m) (Fin m) ℝ) (C : Matrix (Fin n) (Fin m) ℝ) (A : Matrix (Fin m) (Fin c) ℝ) :
    nystromM (cols c Kuu) (cols c C) *ᵥ entries A = entries (nystromM Kuu C * A) := by
  rw [nystromM_eq, nystromM_eq, add_mulVec, ← mulVec_mulVec, cols_transpose, cols_mulVec, cols_mulVec, cols_mulVec,
    Matrix.add_mul, Matrix.mul_assoc]
  rfl

theorem ridge_cols (K : Matrix (Fin n) (Fin n) ℝ) (alpha : ℝ) (X : Matrix (Fin n) (Fin c) ℝ) :
    (cols c K + alpha • (1 : Matrix (Fin (n * c)) (Fin (n * c)) ℝ)) *ᵥ entries X =
      entries ((K + alpha • (1 : Matrix (Fin n) (Fin n) ℝ)) * X) := by
  rw [add_mulVec, smul_mulVec, one_mulVec, cols_mulVec, Matrix.add_mul, Matrix.smul_mul, Matrix.one_mul]
  rfl

theorem residual_cols (K : Matrix (Fin n) (Fin n) ℝ) (alpha : ℝ) (B X : Matrix (Fin n) (Fin c) ℝ) :
    residual (cols c K + alpha • (1 : Matrix (Fin (n * c)) (Fin (n * c)) ℝ)) (entries B) (entries X) =
      residuals (K + alpha • (1 : Matrix (Fin n) (Fin n) ℝ)) B X := by
  unfold residual residuals
  rw [ridge_cols, ← sum_entries]
  rfl

end Verif.Cg
