import Mathlib.Algebra.BigOperators.Group.Finset.Basic
import Mathlib.Algebra.Field.Defs
import Mathlib.Algebra.Order.Floor.Ring
import Mathlib.Order.Interval.Finset.Nat

/-!
# Specification of the cluster utilities
-/

namespace Verif.Spec

/-- The intervals `r` describe the classes of the labels `lab`: interval `k` contains exactly the
positions of label `k`, the intervals are consecutive and cover all the positions, and every label
has its interval. -/
structure Classes (lab : List Nat) (r : List (Nat × Nat)) : Prop where
  label : ∀ l ∈ lab, l < r.length
  ordered : ∀ k, ∀ h : k < r.length, (r[k]).1 ≤ (r[k]).2
  first : ∀ h : 0 < r.length, (r[0]).1 = 0
  consecutive : ∀ k, ∀ h : k + 1 < r.length, (r[k]).2 = (r[k + 1]).1
  last : ∀ h : 0 < r.length, (r[r.length - 1]).2 = lab.length
  mem : ∀ k, ∀ hk : k < r.length, ∀ p, ∀ hp : p < lab.length,
    lab[p] = k ↔ (r[k]).1 ≤ p ∧ p < (r[k]).2

/-- The labels are consecutive integers starting at 0. -/
def Consecutive (lab : List Nat) : Prop := ∀ k ∈ lab, ∀ k' ≤ k, k' ∈ lab

/-- Two points fall in the same voxel of the grid of origin `o` and size `s`. -/
def SameVoxel {K : Type} [Field K] [LinearOrder K] [FloorRing K] (D : Nat) (o s : Nat → K)
    (a b : List K) : Prop :=
  ∀ d < D, ⌊(a.getD d 0 - o d) / s d⌋ = ⌊(b.getD d 0 - o d) / s d⌋

/-- The pair `(i, j)` belongs to a block `(k, l)` that is kept. -/
def Kept (ri rj : List (Nat × Nat)) (keep : Nat → Nat → Bool) (i j : Nat) : Prop :=
  ∃ k l, ∃ hk : k < ri.length, ∃ hl : l < rj.length, keep k l = true ∧
    ((ri[k]).1 ≤ i ∧ i < (ri[k]).2) ∧ ((rj[l]).1 ≤ j ∧ j < (rj[l]).2)

/-- Total weight of the points at the positions of an interval. -/
def total {K : Type} [AddCommMonoid K] (w : List K) (r : Nat × Nat) : K :=
  ∑ p ∈ Finset.Ico r.1 r.2, w.getD p 0

end Verif.Spec
