import Verif.Model.Backward

/-!
# Memory layout of the arguments

Arrays of NumPy and PyTorch are views of a memory block, with strides.  The compiled code receives a pointer and reads
the entries one after the other.
-/

namespace Verif

/-- A view of a memory block: the entry `idx` is at `offset + Σ idx_k stride_k`. -/
structure View where
  data : Int → ℝ
  offset : Int
  shape : List Nat
  strides : List Int

/-- The entries of a view, as seen by the user. -/
def View.get (a : View) (idx : List Nat) : ℝ :=
  a.data (a.offset + (List.zipWith (fun (k : Nat) s => (k : Int) * s) idx a.strides).sum)

/-- The strides of an array whose entries are stored one after the other. -/
def rowMajor : List Nat → List Int
  | [] => []
  | _ :: s => (s.prod : Int) :: rowMajor s

/-- `arg.is_contiguous()`, `arg.flags["C_CONTIGUOUS"]`. Simplification: the strides of dimensions of size 1, which are
ignored by the libraries, are tested too, so that more copies are made. -/
def View.contig (a : View) : Bool := a.strides = rowMajor a.shape

/-- `arg.contiguous()`, `np.ascontiguousarray(arg)`. -/
def View.contiguous (a : View) : View :=
  if a.contig then a else ⟨fun p => a.get (unravel a.shape p.toNat), 0, a.shape, rowMajor a.shape⟩

/-- What the compiled code reads at the position `p` of an argument: `data_ptr` is the address of the first entry.
`common/keops_io/LoadKeOps.py:204`. -/
def View.read (a : View) (p : Nat) : ℝ := a.data (a.offset + p)

/-- The data read by a call of `Genred`. `torch/generic/generic_red.py:105-112`, `numpy/generic/generic_red.py:327-334`. -/
def genredReads (args : List View) : List (Nat → ℝ) :=
  (if args.all View.contig then args else args.map View.contiguous).map View.read

/-- The data read by the operator of `KernelSolve`, for the arguments other than the unknown.
`torch/operations.py:66-76`, `numpy/operations.py:265-270`. -/
def solveReads (args : List View) : List (Nat → ℝ) := args.map View.read

end Verif
