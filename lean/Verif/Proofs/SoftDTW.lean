import Mathlib.Tactic.FieldSimp
import Mathlib.Tactic.Linarith
import Mathlib.Tactic.Ring
import Mathlib.Algebra.BigOperators.Intervals
import Verif.Model.SoftDTW
import Verif.Spec.SoftDTW
import Verif.Proofs.FormulaCode

/-!
# Soft-DTW: the recursion, the alignments and the code
-/

namespace Verif.SoftDTW

open Finset

variable {γ : ℝ} {X Y : Nat → ℝ}

/-! ## Alignments -/

theorem Align.head {i j : Nat} {p : List (Nat × Nat)} (h : Align i j p) : p.head? = some (i, j) := by
  cases h <;> rfl

/-- All the alignments. -/
def paths : Nat → Nat → Finset (List (Nat × Nat))
  | 0, 0 => {[(0, 0)]}
  | i + 1, 0 => (paths i 0).image (fun p => (i + 1, 0) :: p)
  | 0, j + 1 => (paths 0 j).image (fun p => (0, j + 1) :: p)
  | i + 1, j + 1 => (paths i j ∪ paths i (j + 1) ∪ paths (i + 1) j).image (fun p => (i + 1, j + 1) :: p)

theorem mem_paths {i j : Nat} {p : List (Nat × Nat)} : p ∈ paths i j ↔ Align i j p := by
  induction i, j using paths.induct generalizing p with
  | case1 =>
    rw [paths, mem_singleton]
    exact ⟨fun h => h ▸ .start, fun h => by cases h; rfl⟩
  | case2 i ih =>
    rw [paths, mem_image]
    constructor
    · rintro ⟨q, hq, rfl⟩; exact .left (ih.1 hq)
    · intro h; cases h with | left h => exact ⟨_, ih.2 h, rfl⟩
  | case3 j ih =>
    rw [paths, mem_image]
    constructor
    · rintro ⟨q, hq, rfl⟩; exact .right (ih.1 hq)
    · intro h; cases h with | right h => exact ⟨_, ih.2 h, rfl⟩
  | case4 i j ih1 ih2 ih3 =>
    rw [paths, mem_image]
    constructor
    · rintro ⟨q, hq, rfl⟩
      rw [mem_union, mem_union, ih1, ih2, ih3] at hq
      rcases hq with (h | h) | h
      · exact .both h
      · exact .left h
      · exact .right h
    · intro h
      cases h with
      | left h => exact ⟨_, by rw [mem_union, mem_union, ih2]; exact .inl (.inr h), rfl⟩
      | right h => exact ⟨_, by rw [mem_union, mem_union, ih3]; exact .inr h, rfl⟩
      | both h => exact ⟨_, by rw [mem_union, mem_union, ih1]; exact .inl (.inl h), rfl⟩

theorem disjoint_paths {i j i' j' : Nat} (h : (i, j) ≠ (i', j')) : Disjoint (paths i j) (paths i' j') := by
  rw [Finset.disjoint_left]
  intro p h1 h2
  have := (mem_paths.1 h1).head.symm.trans (mem_paths.1 h2).head
  exact h (Option.some.inj this)

theorem exp_total_cons (q : Nat × Nat) (p : List (Nat × Nat)) :
    Real.exp (-total X Y (q :: p) / γ) = Real.exp (-cost X Y q.1 q.2 / γ) * Real.exp (-total X Y p / γ) := by
  rw [← Real.exp_add]
  congr 1
  simp only [total, List.map_cons, List.sum_cons]
  ring

theorem sum_image_cons (q : Nat × Nat) (s : Finset (List (Nat × Nat))) :
    ∑ p ∈ s.image (fun p => q :: p), Real.exp (-total X Y p / γ) =
      Real.exp (-cost X Y q.1 q.2 / γ) * ∑ p ∈ s, Real.exp (-total X Y p / γ) := by
  rw [Finset.sum_image (fun a _ b _ h => (List.cons.inj h).2), Finset.mul_sum]
  exact Finset.sum_congr rfl fun p _ => exp_total_cons q p

theorem exp_softmin (hγ : γ ≠ 0) (a b c : ℝ) :
    Real.exp (-softmin γ a b c / γ) = Real.exp (-a / γ) + Real.exp (-b / γ) + Real.exp (-c / γ) := by
  unfold softmin
  rw [show ∀ L : ℝ, -(-γ * L) / γ = L from fun L => by field_simp, Real.exp_log (by positivity)]

theorem sum_paths (hγ : γ ≠ 0) (i j : Nat) :
    ∑ p ∈ paths i j, Real.exp (-total X Y p / γ) = Real.exp (-table γ X Y i j / γ) := by
  have split : ∀ a b : ℝ, Real.exp (-(a + b) / γ) = Real.exp (-a / γ) * Real.exp (-b / γ) := fun a b => by
    rw [← Real.exp_add]; congr 1; ring
  induction i, j using paths.induct with
  | case1 => rw [paths, table, sum_singleton]; simp [total]
  | case2 i ih => rw [paths, table, sum_image_cons, ih, split]
  | case3 j ih => rw [paths, table, sum_image_cons, ih, split]
  | case4 i j ih1 ih2 ih3 =>
    rw [paths, table, sum_image_cons, split, exp_softmin hγ, sum_union, sum_union, ih1, ih2, ih3]
    · exact disjoint_paths (by simp)
    · rw [disjoint_union_left]
      exact ⟨disjoint_paths (by simp), disjoint_paths (by simp)⟩

theorem table_eq (hγ : γ ≠ 0) (i j : Nat) :
    table γ X Y i j = -γ * Real.log (∑ p ∈ paths i j, Real.exp (-total X Y p / γ)) := by
  rw [sum_paths hγ, Real.log_exp]
  field_simp

/-! ## The code -/

variable {M : CMath} {fmin : ℝ → ℝ → ℝ}

/-- The value does not depend on the function used as a minimum. -/
theorem softmin3_eq (hM : M.Exact) (hγ : γ ≠ 0) (a b c : ℝ) : softmin3 M fmin γ a b c = softmin γ a b c := by
  unfold softmin3 softmin
  dsimp only
  generalize fmin (fmin a c) b = t
  have e : ∀ u : ℝ, M.exp (M.div (t - u) γ) = Real.exp (t / γ) * Real.exp (-u / γ) := fun u => by
    rw [hM.div _ _ hγ, hM.exp, ← Real.exp_add]; congr 1; ring
  rw [e, e, e, ← mul_add, ← mul_add, hM.log _ (by positivity), Real.log_mul (by positivity) (by positivity),
    Real.log_exp]
  field_simp
  ring

variable {n m N K : Nat} {Z : Nat → ℝ}

theorem diff_vec {i j : Nat} (hi : i < n) (hj : j < m) : diff (vec n X) (vec m Y) i j = .ok (X i - Y j) := by
  unfold diff; rw [get_vec hi, ok_bind, get_vec hj]; rfl

theorem sq_vec {i j : Nat} (hi : i < n) (hj : j < m) : sq (vec n X) (vec m Y) i j = .ok (cost X Y i j) := by
  unfold sq; rw [diff_vec hi hj, ok_bind, pure_ok, cost, pow_two]

theorem first_vec (hm : 0 < m) :
    first (vec (N + 1) X) (vec m Y) (N + 1) (vec (N + 1) Z) =
      .ok ⟨vec (N + 1) (fun i => table γ X Y i 0), table γ X Y N 0, table γ X Y N 0⟩ := by
  unfold first
  rw [sq_vec (by omega) hm, ok_bind]
  have := loop_state (n := N) (body := fun i s => firstStep (vec (N + 1) X) (vec m Y) (i + 1) s)
    (fun k => ⟨vec (N + 1) (fun i => if i < k then table γ X Y i 0 else Z i), table γ X Y k 0, table γ X Y k 0⟩)
    fun k hk => by
      unfold firstStep
      rw [sq_vec (by omega) hm, ok_bind]
      dsimp only
      rw [Nat.add_sub_cancel, put_vec (by omega), ok_bind, pure_ok, table]
      congr 2
      refine vec_congr fun i _ => ?_
      by_cases h : i = k
      · subst h; rw [Function.update_self, if_pos (by omega)]
      · rw [Function.update_of_ne h]
        by_cases h' : i < k
        · rw [if_pos h', if_pos (by omega)]
        · rw [if_neg h', if_neg (by omega)]
  simp only [Nat.not_lt_zero, if_false, table] at this
  rw [Nat.add_sub_cancel, this, ok_bind, put_vec (by omega), ok_bind, pure_ok]
  congr 2
  refine vec_congr fun i hi => ?_
  by_cases h : i = N
  · subst h; rw [Function.update_self]
  · rw [Function.update_of_ne h, if_pos (by omega)]

theorem next_vec (hM : M.Exact) (hγ : γ ≠ 0) {j : Nat} (hj : j + 1 < m) (a b : ℝ) :
    next M fmin (vec (N + 1) X) (vec m Y) γ (N + 1) (j + 1) ⟨vec (N + 1) (fun i => table γ X Y i j), a, b⟩ =
      .ok ⟨vec (N + 1) (fun i => table γ X Y i (j + 1)), table γ X Y N (j + 1), table γ X Y N (j + 1)⟩ := by
  unfold next
  rw [sq_vec (by omega) hj, ok_bind]
  dsimp only
  rw [get_vec_zero (by omega), ok_bind]
  have := loop_state (n := N) (body := fun i s => nextStep M fmin (vec (N + 1) X) (vec m Y) γ (j + 1) (i + 1) s)
    (fun k => ⟨vec (N + 1) (fun i => if i < k then table γ X Y i (j + 1) else table γ X Y i j),
      table γ X Y k (j + 1), table γ X Y k (j + 1)⟩)
    fun k hk => by
      unfold nextStep
      rw [sq_vec (by omega) hj, ok_bind]
      dsimp only
      rw [Nat.add_sub_cancel, get_vec (by omega), ok_bind, get_vec (by omega), ok_bind, put_vec (by omega), ok_bind,
        pure_ok, softmin3_eq hM hγ, if_neg (by omega), if_neg (by omega), ← table]
      congr 2
      refine vec_congr fun i _ => ?_
      by_cases h : i = k
      · subst h; rw [Function.update_self, if_pos (by omega)]
      · rw [Function.update_of_ne h]
        by_cases h' : i < k
        · rw [if_pos h', if_pos (by omega)]
        · rw [if_neg h', if_neg (by omega)]
  simp only [Nat.not_lt_zero, if_false] at this
  rw [Nat.add_sub_cancel, ← table, this, ok_bind, put_vec (by omega), ok_bind, pure_ok]
  congr 2
  refine vec_congr fun i hi => ?_
  by_cases h : i = N
  · subst h; rw [Function.update_self]
  · rw [Function.update_of_ne h, if_pos (by omega)]

theorem op_vec (hM : M.Exact) (hγ : γ ≠ 0) (o : ℝ) :
    op M fmin (N + 1) (K + 1) (vec (N + 1) Z) [o] (vec (N + 1) X) (vec (K + 1) Y) [γ] = .ok [table γ X Y N K] := by
  unfold op
  rw [first_vec (γ := γ) (by omega), ok_bind, show CArr.get [γ] 0 = .ok γ from rfl, ok_bind, Nat.add_sub_cancel]
  have := loop_state (n := K)
    (body := fun j s => next M fmin (vec (N + 1) X) (vec (K + 1) Y) γ (N + 1) (j + 1) s)
    (fun k => ⟨vec (N + 1) (fun i => table γ X Y i k), table γ X Y N k, table γ X Y N k⟩)
    fun k hk => next_vec hM hγ (by omega) _ _
  rw [this, ok_bind]
  rfl

end Verif.SoftDTW
