import Mathlib.Analysis.Normed.Group.Constructions
import Aesop
import Verif.Proofs.SoftDTWGrad

/-!
# C46: soft-DTW

`SoftDTW_SqDist(x, y, gamma)` (`keopscore/formulas/maths/SoftDTW_SqDist.py`): the code computes the soft-DTW recursion on
the squared differences, which is the smooth minimum of the costs of all alignments, and the gradient operation computes
its derivatives.
-/

namespace Verif.SoftDTW

open Finset

/-- The value number `i` of a list. -/
noncomputable def at' (l : List ℝ) (i : Nat) : ℝ := l.getD i 0

variable {M : CMath} {fmin : ℝ → ℝ → ℝ} {γ : ℝ} {x y : CArr}

/-- For all sequences that are not empty and every `γ ≠ 0`, the code computes the last value of the recursion.  It does
not depend on the function `fmin`, nor on the initial content of the arrays. -/
theorem C46_recursion (hM : M.Exact) (hγ : γ ≠ 0) (hx : x ≠ []) (hy : y ≠ []) {junk out : CArr}
    (hj : junk.length = x.length) (ho : out.length = 1) :
    op M fmin x.length y.length junk out x y [γ] = .ok [table γ (at' x) (at' y) (x.length - 1) (y.length - 1)] := by
  obtain ⟨N, hN⟩ : ∃ N, x.length = N + 1 := ⟨x.length - 1, by have := List.length_pos_iff.2 hx; omega⟩
  obtain ⟨K, hK⟩ : ∃ K, y.length = K + 1 := ⟨y.length - 1, by have := List.length_pos_iff.2 hy; omega⟩
  obtain ⟨o, rfl⟩ := List.length_eq_one_iff.1 ho
  have h := op_vec (M := M) (fmin := fmin) (N := N) (K := K) (X := at' x) (Y := at' y) (Z := at' junk) hM hγ o
  have ej : vec (N + 1) (at' junk) = junk := by rw [← hN, ← hj]; exact (vec_of_list junk).symm
  have ex : vec (N + 1) (at' x) = x := by rw [← hN]; exact (vec_of_list x).symm
  have ey : vec (K + 1) (at' y) = y := by rw [← hK]; exact (vec_of_list y).symm
  rw [ej, ex, ey] at h
  rw [hN, hK, h, Nat.add_sub_cancel, Nat.add_sub_cancel]

/-- The value is the smooth minimum of the costs of all the alignments of the two sequences. -/
theorem C46_alignments (hM : M.Exact) (hγ : γ ≠ 0) (hx : x ≠ []) (hy : y ≠ []) {junk out : CArr}
    (hj : junk.length = x.length) (ho : out.length = 1) {A : Finset (List (Nat × Nat))}
    (hA : ∀ p, p ∈ A ↔ Align (x.length - 1) (y.length - 1) p) :
    op M fmin x.length y.length junk out x y [γ] =
      .ok [-γ * Real.log (∑ p ∈ A, Real.exp (-total (at' x) (at' y) p / γ))] := by
  have : A = paths (x.length - 1) (y.length - 1) := by ext p; rw [hA, mem_paths]
  rw [C46_recursion hM hγ hx hy hj ho, table_eq hγ, this]

/-- There are finitely many alignments. -/
theorem C46_finite (i j : Nat) : ∃ A : Finset (List (Nat × Nat)), ∀ p, p ∈ A ↔ Align i j p :=
  ⟨paths i j, fun _ => mem_paths⟩

/-- The code for the gradients computes the derivatives with respect to all the entries of both sequences: if the entries
are differentiable functions of a point `q`, then so is the value of the recursion, and its derivative is the sum of the
derivatives of the entries with the computed coefficients. -/
theorem C46_grad (hM : M.Exact) (hγ : γ ≠ 0) {n m : Nat} (hn : 0 < n) (hm : 0 < m) {r junk out : CArr}
    (hr : r.length = n * m) (hj : junk.length = n) (ho : out.length = n + m)
    {E : Type} [NormedAddCommGroup E] [NormedSpace ℝ E] {q : E} {F G : Nat → E → ℝ} {F' G' : Nat → E →L[ℝ] ℝ}
    (hF : ∀ i, HasFDerivAt (F i) (F' i) q) (hG : ∀ j, HasFDerivAt (G j) (G' j) q) :
    ∃ g, gradOp M fmin n m r junk out ((List.range n).map (F · q)) ((List.range m).map (G · q)) [γ] = .ok g ∧
      g.length = n + m ∧
      HasFDerivAt (fun q => table γ (F · q) (G · q) (n - 1) (m - 1))
        (∑ i ∈ range n, at' g i • F' i + ∑ j ∈ range m, at' g (n + j) • G' j) q := by
  obtain ⟨N, rfl⟩ : ∃ N, n = N + 1 := ⟨n - 1, by omega⟩
  obtain ⟨K, rfl⟩ : ∃ K, m = K + 1 := ⟨m - 1, by omega⟩
  have h := gradOp_vec (M := M) (fmin := fmin) (N := N) (K := K) (X := (F · q)) (Y := (G · q)) (Z := at' r)
    (W := at' junk) (O := at' out) hM hγ
  have er : vec ((N + 1) * (K + 1)) (at' r) = r := by rw [← hr]; exact (vec_of_list r).symm
  have ej : vec (N + 1) (at' junk) = junk := by rw [← hj]; exact (vec_of_list junk).symm
  have eo : vec (N + 1 + (K + 1)) (at' out) = out := by rw [← ho]; exact (vec_of_list out).symm
  rw [er, ej, eo] at h
  refine ⟨_, h, vec_length, ?_⟩
  refine (table_grad (N := N) (K := K) hγ hF hG).congr_fderiv ?_
  congr 1
  · refine sum_congr rfl fun i hi => ?_
    rw [mem_range] at hi
    rw [at', List.getD_eq_getElem?_getD, vec_getElem? (by omega), Option.getD_some, if_pos hi]
  · refine sum_congr rfl fun j hj => ?_
    rw [mem_range] at hj
    rw [at', List.getD_eq_getElem?_getD, vec_getElem? (by omega), Option.getD_some, if_neg (by omega),
      Nat.add_sub_cancel_left]

/-- `DiffT` gives to `x.DiffT` and `y.DiffT` the gradients of the operation times the incoming gradient: for a result
`g` of the code of `C46_grad` it returns two vectors of the dimensions of `x` and `y`, with these entries.  A derivative
with respect to a variable of `gamma` is refused. -/
theorem C46_diffT {n m : Nat} {g : CArr} (hg : g.length = n + m) (η : ℝ) :
    diffT true n m g η = none ∧
    ∃ a b, diffT false n m g η = some (a, b) ∧ a.length = n ∧ b.length = m ∧
      (∀ i < n, at' a i = at' g i * η) ∧ ∀ j < m, at' b j = at' g (n + j) * η := by
  refine ⟨rfl, _, _, rfl, by simp [hg], by simp [hg], fun i hi => ?_, fun j hj => ?_⟩
  · simp only [at', List.getD_eq_getElem?_getD]
    rw [List.getElem?_take_of_lt hi, List.getElem?_map, List.getElem?_eq_getElem (by omega)]
    rfl
  · simp only [at', List.getD_eq_getElem?_getD]
    rw [List.getElem?_take_of_lt hj, List.getElem?_drop, List.getElem?_map, List.getElem?_eq_getElem (by omega)]
    rfl

/-- Which arguments are accepted. -/
theorem C46_accepts (d dg : Nat) : init d dg = some d ↔ dg = 1 := by
  unfold init
  by_cases h : dg = 1
  · simp [h]
  · simp [h]

/-- The hypotheses of the theorems hold for sequences of two and three points. -/
example (hM : M.Exact) : op M fmin 2 3 [5, 5] [7] [0, 1] [0, 1, 3] [2] =
    .ok [table 2 (at' [0, 1]) (at' [0, 1, 3]) 1 2] :=
  C46_recursion hM (by norm_num) (by simp) (by simp) rfl rfl

/-- The three alignments of two sequences of two points. -/
example : ∀ p, p ∈ ([[(1, 1), (0, 0)], [(1, 1), (0, 1), (0, 0)], [(1, 1), (1, 0), (0, 0)]] : List _) ↔ Align 1 1 p := by
  intro p
  rw [← mem_paths]
  simp only [paths, Finset.mem_image, Finset.mem_union, Finset.mem_singleton]
  aesop

/-- The hypotheses of `C46_grad` hold for the coordinates of the pairs of sequences. -/
example (hM : M.Exact) (q : (Fin 2 → ℝ) × (Fin 2 → ℝ)) : ∃ g : CArr, g.length = 4 ∧
    HasFDerivAt (fun q : (Fin 2 → ℝ) × (Fin 2 → ℝ) =>
        table 1 (fun i => if h : i < 2 then q.1 ⟨i, h⟩ else 0) (fun j => if h : j < 2 then q.2 ⟨j, h⟩ else 0) 1 1)
      (∑ i : Fin 2, at' g i • (ContinuousLinearMap.proj i).comp (ContinuousLinearMap.fst ℝ _ _) +
        ∑ j : Fin 2, at' g (2 + j) • (ContinuousLinearMap.proj j).comp (ContinuousLinearMap.snd ℝ _ _)) q := by
  have hF : ∀ i : Nat, HasFDerivAt (fun q : (Fin 2 → ℝ) × (Fin 2 → ℝ) => if h : i < 2 then q.1 ⟨i, h⟩ else 0)
      (if h : i < 2 then (ContinuousLinearMap.proj (⟨i, h⟩ : Fin 2)).comp (ContinuousLinearMap.fst ℝ _ _) else 0) q := by
    intro i
    by_cases h : i < 2
    · simp only [h, dif_pos]
      exact ((ContinuousLinearMap.proj (R := ℝ) (φ := fun _ : Fin 2 => ℝ) ⟨i, h⟩).comp
        (ContinuousLinearMap.fst ℝ (Fin 2 → ℝ) (Fin 2 → ℝ))).hasFDerivAt
    · simp only [h, dif_neg, not_false_iff]
      exact hasFDerivAt_const 0 q
  have hG : ∀ i : Nat, HasFDerivAt (fun q : (Fin 2 → ℝ) × (Fin 2 → ℝ) => if h : i < 2 then q.2 ⟨i, h⟩ else 0)
      (if h : i < 2 then (ContinuousLinearMap.proj (⟨i, h⟩ : Fin 2)).comp (ContinuousLinearMap.snd ℝ _ _) else 0) q := by
    intro i
    by_cases h : i < 2
    · simp only [h, dif_pos]
      exact ((ContinuousLinearMap.proj (R := ℝ) (φ := fun _ : Fin 2 => ℝ) ⟨i, h⟩).comp
        (ContinuousLinearMap.snd ℝ (Fin 2 → ℝ) (Fin 2 → ℝ))).hasFDerivAt
    · simp only [h, dif_neg, not_false_iff]
      exact hasFDerivAt_const 0 q
  obtain ⟨g, _, h1, h2⟩ := C46_grad (fmin := min) (γ := 1) hM one_ne_zero (n := 2) (m := 2) (by norm_num) (by norm_num)
    (r := [0, 0, 0, 0]) (junk := [0, 0]) (out := [0, 0, 0, 0]) rfl rfl rfl hF hG
  refine ⟨g, h1, h2.congr_fderiv ?_⟩
  simp [Finset.sum_range_succ, Fin.sum_univ_two]

end Verif.SoftDTW
