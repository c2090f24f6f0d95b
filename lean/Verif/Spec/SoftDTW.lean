import Mathlib.Analysis.SpecialFunctions.Log.Basic

/-!
# Soft-DTW: alignments and the recursion
-/

namespace Verif.SoftDTW

/-- The alignments of the first points of two sequences, up to the points number `i` and `j`: lists of pairs of matched
points, from the last one to the first one, where each step advances in one of the sequences or in both. -/
inductive Align : Nat → Nat → List (Nat × Nat) → Prop
  | start : Align 0 0 [(0, 0)]
  | left {i j p} : Align i j p → Align (i + 1) j ((i + 1, j) :: p)
  | right {i j p} : Align i j p → Align i (j + 1) ((i, j + 1) :: p)
  | both {i j p} : Align i j p → Align (i + 1) (j + 1) ((i + 1, j + 1) :: p)

/-- The squared difference of two points. -/
noncomputable def cost (x y : Nat → ℝ) (i j : Nat) : ℝ := (x i - y j) ^ 2

/-- The cost of an alignment. -/
noncomputable def total (x y : Nat → ℝ) (p : List (Nat × Nat)) : ℝ := (p.map (fun q => cost x y q.1 q.2)).sum

/-- The smooth minimum of three numbers. -/
noncomputable def softmin (γ a b c : ℝ) : ℝ :=
  -γ * Real.log (Real.exp (-a / γ) + Real.exp (-b / γ) + Real.exp (-c / γ))

/-- The soft-DTW recursion. -/
noncomputable def table (γ : ℝ) (x y : Nat → ℝ) : Nat → Nat → ℝ
  | 0, 0 => cost x y 0 0
  | i + 1, 0 => cost x y (i + 1) 0 + table γ x y i 0
  | 0, j + 1 => cost x y 0 (j + 1) + table γ x y 0 j
  | i + 1, j + 1 => cost x y (i + 1) (j + 1) +
      softmin γ (table γ x y i j) (table γ x y i (j + 1)) (table γ x y (i + 1) j)

end Verif.SoftDTW
