import Verif.Model.Mem
import Mathlib.Data.Nat.Notation
import Mathlib.Data.Int.Notation

/-!
# Transfers between the host and the GPU

Model of `load_args_FromHost` (`keopscore/keopscore/include/utils_pe.h:66-99`), of the copy of the output to the host
(`keopscore/keopscore/binders/nvrtc/keops_nvrtc.cpp:491-498,625-627`) and of the copies of the ranges
(`keops_nvrtc.cpp:190-208,308-314`).  Memory is made of bytes, of an arbitrary type `α`; the addresses of the device
are counted from the end of the array of pointers (`dataloc`, `utils_pe.h:83`).  That the driver copies the number of
bytes which it is asked to copy is assumed.
-/

namespace Verif.Staging

variable {α : Type}

/-- `std::accumulate(shape.begin(), shape.end(), 1, std::multiplies<signed long int>())`: the type of the accumulator is
the type of `1`, an `int` of 32 bits. `utils_pe.h:74-75`, `keops_nvrtc.cpp:491-492`. -/
def intProduct (shape : List ℕ) : ℤ := shape.foldl (fun acc (d : ℕ) => Int.bmod (acc * d) (2 ^ 32)) 1

/-- `sizeof(TYPE) * n`, converted to the unsigned type of 64 bits of the sizes. `utils_pe.h:80,93`. -/
def byteCount (sz : ℕ) (n : ℤ) : ℕ := ((sz * n) % 2 ^ 64).toNat

/-- `cuMemcpyHtoD(dst, src, n)`, `utils_pe.h:92-93`. -/
def memcpy (dst : ℤ) (src : Mem α) (n : ℕ) (buf : ℤ → α) : ℤ → α :=
  fun i => if dst ≤ i ∧ i < dst + n then src (i - dst).toNat else buf i

/-- The loop over the arguments: the addresses `ph` and the memory of the device. `utils_pe.h:89-95`. -/
def loadLoop (sz : ℕ) (dataloc : ℤ) : List (Mem α × List ℕ) → (ℤ → α) → List ℤ × (ℤ → α)
  | [], buf => ([], buf)
  | (arg, shape) :: rest, buf =>
    let buf := memcpy dataloc arg (byteCount sz (intProduct shape)) buf
    let r := loadLoop sz (dataloc + sz * intProduct shape) rest buf
    (dataloc :: r.1, r.2)

/-- What `load_args_FromHost` computes: the address of the output, the addresses of the arguments, the number of bytes
allocated after the array of pointers, and the memory of the device. `utils_pe.h:67-99`. -/
structure Staged (α : Type) where
  outPos : ℤ
  argPos : List ℤ
  allocated : ℕ
  buf : ℤ → α

/-- `totsize`, `utils_pe.h:72-77`. -/
def totalSize (sizeout : ℤ) (args : List (Mem α × List ℕ)) : ℤ :=
  args.foldl (fun tot a => tot + intProduct a.2) sizeout

/-- `load_args_FromHost`, `utils_pe.h:66-99`, where `sz` is `sizeof(TYPE)`. -/
def loadArgsFromHost (sz : ℕ) (shapeout : List ℕ) (args : List (Mem α × List ℕ)) (buf : ℤ → α) : Staged α :=
  let sizeout := intProduct shapeout
  let r := loadLoop sz (sz * sizeout) args buf
  ⟨0, r.1, byteCount sz (totalSize sizeout args), r.2⟩

/-- The number of bytes of the output copied to the host, `keops_nvrtc.cpp:625-627`. -/
def copyBack (sz : ℕ) (shapeout : List ℕ) : ℕ := byteCount sz (intProduct shapeout)

/-- The size of `TYPE` for each type of array: `float`, `double` and `half2`.
`pykeops/pykeops/common/keops_io/LoadKeOps.py:82-92`, `LoadKeOps_nvrtc.py:28-45`. -/
def sizeofType (dtype : String) : Option ℕ :=
  if dtype = "float32" then some 4
  else if dtype = "float64" then some 8
  else if dtype = "float16" then some 4 else none

/-- The numbers of entries copied from `slices_x` and `ranges_y` to the device, when the ranges are on the host:
`range_preprocess_from_host`, `keops_nvrtc.cpp:308-314`, and `range_preprocess_from_device` with batch dimensions,
`keops_nvrtc.cpp:202-208`. -/
def rangeCopies (fromDevice : Bool) (nranges nredranges : ℕ) : ℕ × ℕ :=
  if fromDevice then (nranges, 2 * nranges) else (2 * nranges, 2 * nredranges)

end Verif.Staging
