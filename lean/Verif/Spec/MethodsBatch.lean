import Verif.Spec.MethodsRed
import Verif.Spec.Batch

/-!
# What lazy tensors with batch dimensions mean

The value of a program at a batch index is its value for the blocks of its arrays at this index, with NumPy's rule: the
last batch dimensions of an array are aligned with the last batch dimensions of the lazy tensor; along a dimension of size
1, there is only the index 0.
-/

namespace Verif.Spec

/-- The batch dimensions of an array: all dimensions but the last three. -/
def arrayBatch (shape : List Nat) : List Nat := shape.take (shape.length - 3)

/-- The number of entries of a block. -/
def blockSize (shape : List Nat) : Nat := (shape.drop (shape.length - 3)).prod

/-- The number of the block of an array at the index `idx` of `nb` batch dimensions. -/
def blockNumber (nb : Nat) (shape : List Nat) (idx : Nat → Nat) : Nat :=
  let s := arrayBatch shape
  ravel s.length (fun b => s.getD b 0) (bcast (fun b => s.getD b 0) fun b => idx (nb - s.length + b))

/-- The blocks of the arrays at the index `idx`; the array `src` has the shape `sh src`. -/
def batchOf (nb : Nat) (sh : Nat → List Nat) (idx : Nat → Nat) (data : Nat → Nat → ℝ) : Nat → Nat → ℝ :=
  fun src q => data src (blockNumber nb (sh src) idx * blockSize (sh src) + q)

/-- The arrays of a program have the shapes `sh`. -/
def PyE.Shapes (sh : Nat → List Nat) : PyE → Prop
  | .int _ => True
  | .float _ src _ => sh src = [1]
  | .list _ src len => sh src = [len]
  | .array _ src shape | .lazy _ src shape _ => sh src = shape
  | .m1 _ x | .mi _ x | .t _ x => x.Shapes sh
  | .op _ x y | .m2 _ x y => x.Shapes sh ∧ y.Shapes sh
  | .m3 _ x y z => x.Shapes sh ∧ y.Shapes sh ∧ z.Shapes sh

end Verif.Spec
