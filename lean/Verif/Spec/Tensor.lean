import Verif.Model.Backward

/-!
# Contractions of tensors: specification

Tensors are functions of multi-indices.  The axes `ca` of the first tensor are contracted with the axes `cb` of the
second one, the other axes are kept in increasing order, those of the first tensor before those of the second one, and
the `i`-th kept axis becomes the axis `perm[i]` of the result.
-/

namespace Verif.Spec

/-- The axes that are kept. -/
def kept (n : Nat) (cont : List Int) : List Nat := (List.range n).filter (fun i => (i : Int) ∉ cont)

/-- The list whose entry `perm[i]` is `l[i]`. -/
def place (perm : List Int) (l : List Nat) : List Nat :=
  (List.range l.length).map (fun (r : Nat) => l.getD (perm.idxOf (r : Int)) 0)

/-- The entries of `l` at the positions `ind`. -/
def gather (l : List Nat) (ind : List Int) : List Nat := ind.map (fun i => l.getD i.toNat 0)

/-- The entries of a multi-index (or of a shape) along the kept axes. -/
def gatherKept (l : List Nat) (cont : List Int) : List Nat := (kept l.length cont).map (fun i => l.getD i 0)

/-- The shape of the result. -/
def outShape (dimsA dimsB : List Nat) (ca cb perm : List Int) : List Nat :=
  place perm (gatherKept dimsA ca ++ gatherKept dimsB cb)

/-- The permutation of the kept axes: the identity if `permute` is not given. -/
def permOf (dimsA dimsB : List Nat) (ca cb : List Int) (o : Option (List Int)) : List Int :=
  o.getD ((List.range ((kept dimsA.length ca).length + (kept dimsB.length cb).length)).map (fun n : Nat => (n : Int)))

/-- `A[I] * B[J]` contributes to the entry `K` of the result. -/
def Contracts (ca cb perm : List Int) (I J K : List Nat) : Prop :=
  gather I ca = gather J cb ∧ K = place perm (gatherKept I ca ++ gatherKept J cb)

instance (ca cb perm : List Int) (I J K : List Nat) : Decidable (Contracts ca cb perm I J K) := by
  unfold Contracts; infer_instance

/-- The contraction of two tensors. -/
noncomputable def tensorDot (dimsA dimsB : List Nat) (ca cb perm : List Int) (A B : List Nat → ℝ) (K : List Nat) : ℝ :=
  sumIdx dimsA fun I => sumIdx dimsB fun J => if Contracts ca cb perm I J K then A I * B J else 0

/-- The tensor of shape `s` stored in row-major order in an array. -/
noncomputable def entry (s : List Nat) (a : List ℝ) (I : List Nat) : ℝ := a.getD (ravel s I) 0

/-- The position of `I`, `J` in the Kronecker product, axis by axis; `s` is the second shape. -/
def kronIdx : List Nat → List Nat → List Nat → List Nat
  | D :: s, i :: I, j :: J => (i * D + j) :: kronIdx s I J
  | _, _, _ => []

end Verif.Spec
