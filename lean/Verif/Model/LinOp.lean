import Verif.Model.MethodsRed

/-!
# Lazy tensors as linear operators
-/

namespace Verif.Lazy

open Spec (PyE)

/-- `K.matvec(v)`, for an array `v` with this shape, which `tools.view` copies in the object `id` with the contents `src`.
`common/lazy_tensor.py:2610-2631`. -/
def matvec (K : PyE) (id src : Nat) (shape : List Nat) : Option RedCall := matmul K id src shape

/-- `K.rmatvec(v)`: the property `T` is `K.t()`, whose arrays are the objects numbered by `fresh`.
`common/lazy_tensor.py:2603-2608` (`T`) and `2633-2639`. -/
def rmatvec (fresh : Nat → Nat) (K : PyE) (id src : Nat) (shape : List Nat) : Option RedCall :=
  matmul (.t fresh K) id src shape

end Verif.Lazy
