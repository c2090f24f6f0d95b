import Verif.Model.Launch

/-!
# Specification: launches within the limits of a device
-/

namespace Verif.Launch

/-- The number of rows of the result. -/
def Call.rows (c : Call) : Nat := if c.tagI = 1 then c.N else c.M

/-- The number of points of the axis that is reduced. -/
def Call.cols (c : Call) : Nat := if c.tagI = 1 then c.M else c.N

/-- The number of blocks of `B` rows needed for `n` rows. -/
def blocks (n B : Nat) : Nat := (n + B - 1) / B

/-- The memory of one point of the reduced axis fits in the shared memory of a device with limits `p`; chunks suppose that
the device has the usual limits. -/
structure Fits (p : Props) (c : Call) : Prop where
  cuda : 0 < c.cuda
  threads : 0 < p.threads
  point : c.dimY * c.size ≤ p.shared
  shared : 0 < p.shared
  chunk : c.chunk = true → 1024 ≤ p.threads ∧ 49152 ≤ p.shared ∧ c.dimY * c.size ≤ 49152

/-- The sizes of a call are those of numbers of 32 bits. -/
def Small (c : Call) : Prop :=
  match c.mode with
  | .simple => c.rows ≤ 2 ^ 32
  | .ranges lens => lens.sum < 2 ^ 32
  | .twoD => c.rows < 2 ^ 32 ∧ c.cols < 2 ^ 32 ∧ c.rows * c.dimred < 2 ^ 32

/-- The numbers of blocks of a call are those that a device accepts. -/
def GridOk (c : Call) (B : Nat) : Prop :=
  match c.mode with
  | .simple => 0 < c.rows ∧ blocks c.rows B < 2 ^ 31
  | .ranges lens => (∃ l ∈ lens, 0 < l) ∧ (lens.map fun l => blocks l B).sum < 2 ^ 31
  | .twoD => 0 < c.rows ∧ 0 < c.cols ∧ 0 < c.dimred ∧ blocks c.rows B < 2 ^ 31 ∧ blocks c.cols B < 2 ^ 16 ∧
      blocks (c.rows * c.dimred) B < 2 ^ 31

/-- Every row below `n` is the row of a thread of the launch. -/
def Covers (g : Grid) (n : Nat) : Prop := ∀ i < n, ∃ b < g.x, ∃ t < g.block, rowOf b g.block t = i

end Verif.Launch
