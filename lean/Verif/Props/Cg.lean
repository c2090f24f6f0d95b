import Verif.Proofs.Cg
import Mathlib.Tactic.NormNum

/-!
# C30: the conjugate gradient solver
-/

namespace Verif.Cg

open Spec Matrix

variable {n : Nat}

/-- **C30**, for every linear operator, every right-hand side and every number of iterations: what the solver returns has
finite entries and its squared residual is below the threshold `n eps²`. -/
theorem C30_residual {A : Matrix (Fin n) (Fin n) ℝ} {linop : Arr n → Arr n} (hL : Computes linop A) (b : Fin n → ℝ)
    (eps : ℝ) (k : Nat) (x : Arr n) (h : solve linop (ofReal b) eps k = some x) :
    ∃ y, x = ofReal y ∧ residual A b y < n * eps ^ 2 := by
  have e : ∀ y, residual A b y = (b - A *ᵥ y) ⬝ᵥ (b - A *ᵥ y) := fun y => by
    simp only [residual, dotProduct, Pi.sub_apply]
    exact Finset.sum_congr rfl fun i _ => by ring
  simp only [e]
  unfold solve at h
  simp only [sq_ofReal] at h
  split at h
  · rename_i hlt
    cases h
    refine ⟨0, by funext i; simp [ofReal, lift], ?_⟩
    simpa [Lt] using hlt
  · rename_i hlt
    have hle : n * eps ^ 2 ≤ b ⬝ᵥ b := not_lt.mp hlt
    by_cases hδ : (0 : ℝ) < n * eps ^ 2
    · have hn : 0 < n := by
        rcases Nat.eq_zero_or_pos n with rfl | hn
        · simp at hδ
        · exact hn
      exact loop_residual hL hn hδ b k _ x (.inl ⟨⟨0, b, b⟩, rfl, by simp, hle⟩) h
    · exfalso
      clear hlt hle
      generalize hs : (⟨_, _, _, _⟩ : St n) = s at h
      clear hs
      induction k generalizing s with
      | zero => simp [loop] at h
      | succ k ih =>
        simp only [loop] at h
        rw [if_neg (show ¬ Lt (half linop s).nr2 _ from sq_not_lt (half linop s).r (not_lt.mp hδ))] at h
        exact ih _ h

/-- **C30**, for every symmetric positive definite operator and every right-hand side which is not empty: the solver
stops after at most `n` iterations. -/
theorem C30_stops {A : Matrix (Fin n) (Fin n) ℝ} {linop : Arr n → Arr n} (hL : Computes linop A) (hA : Spd A)
    (hn : 0 < n) (b : Fin n → ℝ) {eps : ℝ} (he : eps ≠ 0) : ∃ x, solve linop (ofReal b) eps n = some x := by
  unfold solve
  simp only [sq_ofReal]
  have hδ : (0 : ℝ) < n * eps ^ 2 := mul_pos (by exact_mod_cast hn) (by positivity)
  by_cases h : Lt (some (b ⬝ᵥ b)) (n * eps ^ 2)
  · exact ⟨_, if_pos h⟩
  · rw [if_neg h]
    exact loop_stops hL hA hδ b (not_lt.mp h)

/-- If the right-hand side is empty, or if `eps` is 0, the solver never stops, whatever the operator. -/
theorem not_C30_stops (linop : Arr n → Arr n) (b : Arr n) (eps : ℝ) (h : n = 0 ∨ eps = 0) (k : Nat) :
    solve linop b eps k = none := by
  have hδ : (n : ℝ) * eps ^ 2 ≤ 0 := by
    rcases h with rfl | rfl <;> simp
  unfold solve
  simp only []
  rw [if_neg (sq_not_lt _ hδ)]
  generalize (⟨_, _, _, _⟩ : St n) = s
  induction k generalizing s with
  | zero => rfl
  | succ k ih =>
    simp only [loop]
    rw [if_neg (show ¬ Lt (half linop s).nr2 _ from sq_not_lt (half linop s).r hδ)]
    exact ih _

/-- The operator of `KernelSolve`: a kernel matrix which is symmetric and non-negative, plus `alpha` times the identity.
`numpy/operations.py:265-273`, `torch/operations.py:66-79`. -/
theorem C30_ridge {K : Matrix (Fin n) (Fin n) ℝ} (hs : ∀ i j, K i j = K j i)
    (hK : ∀ x : Fin n → ℝ, 0 ≤ ∑ i, x i * K.mulVec x i) {α : ℝ} (hα : 0 < α) : Spd (K + α • (1 : Matrix (Fin n) (Fin n) ℝ)) := by
  refine ⟨fun i j => ?_, fun x hx => ?_⟩
  · simp only [add_apply, smul_apply, hs i j, one_apply, eq_comm]
  · have e : ∑ i, x i * (K + α • (1 : Matrix (Fin n) (Fin n) ℝ)).mulVec x i = ∑ i, x i * K.mulVec x i + α * (x ⬝ᵥ x) := by
      simp only [add_mulVec, smul_mulVec, one_mulVec, Pi.add_apply, Pi.smul_apply, smul_eq_mul, mul_add,
        Finset.sum_add_distrib, dotProduct, Finset.mul_sum]
      congr 1
      exact Finset.sum_congr rfl fun i _ => by ring
    rw [e]
    have : 0 < x ⬝ᵥ x := lt_of_le_of_ne (Finset.sum_nonneg fun i _ => mul_self_nonneg _) (Ne.symm (dot_self_ne hx))
    have := mul_pos hα this
    linarith [hK x]

/-- The hypotheses of `C30_stops` are met by the matrix `[[2, 1], [1, 2]]`. -/
example : Spd (!![2, 1; 1, 2] : Matrix (Fin 2) (Fin 2) ℝ) := by
  have := C30_ridge (K := (!![1, 1; 1, 1] : Matrix (Fin 2) (Fin 2) ℝ)) (by
    intro i j
    fin_cases i <;> fin_cases j <;> rfl) (fun x => by
      simp [mulVec, dotProduct, Fin.sum_univ_two]
      nlinarith [sq_nonneg (x 0 + x 1)]) one_pos
  convert this using 1
  ext i j
  fin_cases i <;> fin_cases j <;> simp [one_apply] <;> norm_num

/-- An operator that computes this matrix. -/
example : ∃ linop : Arr 2 → Arr 2, Computes linop (!![2, 1; 1, 2] : Matrix (Fin 2) (Fin 2) ℝ) :=
  ⟨fun x => ![lift (fun a b => 2 * a + b) (x 0) (x 1), lift (fun a b => a + 2 * b) (x 0) (x 1)], fun x => by
    funext i
    fin_cases i <;> simp [ofReal, lift, mulVec, dotProduct, Fin.sum_univ_two]⟩

end Verif.Cg
