import Verif.Model.CodeTypes
import Verif.Spec.Options

/-!
# Specification: options for which the code of a reduction can be written
-/

namespace Verif.Types

open Spec

/-- The classes used for products of a scalar and a vector of high dimension. -/
def Cls.isFinal (c : Cls) : Prop := c = .finalChunks ∨ c = .rangesFinalChunks

/-- The classes used for formulas that are computed by chunks. -/
def Cls.isChunked (c : Cls) : Prop := c = .chunks ∨ c = .rangesChunks ∨ c.isFinal

/-- The classes of the CPU. -/
def Cls.isCpu (c : Cls) : Prop := c = .cpu ∨ c = .cpuRanges

/-- The names of the reductions that a user may write. -/
def knownReduction (op : String) : Prop :=
  op ∈ ["Sum", "LogSumExp", "LogSumExpWeight", "SumSoftMaxWeight", "SoftMax", "Max_SumShiftExp", "Max_SumShiftExpWeight",
    "Max", "ArgMax", "Max_ArgMax", "Min", "ArgMin", "Min_ArgMin", "KMin", "ArgKMin", "KMin_ArgKMin"]

/-- The options for which the code is written and compiled: the class of the kernel, the reduction, the scheme, the
type of the arrays and the type asked for the accumulators.

* Sums: the 2D scheme and the final chunks only have `block_sum`, no chunks accept half precision, and the Kahan
  scheme cannot have accumulators of single precision for arrays of half precision.
* Log-sum-exp and softmax: no Kahan scheme, no half precision, accumulators of the type of the arrays; the 2D scheme only
  has `block_sum`.
* Other reductions: no half precision, no 2D scheme. -/
def Writable (c : Cls) (op scheme dtype acc : String) : Prop :=
  (op = "Sum" →
    ((c = .gpu2D ∨ c.isFinal) → scheme = "auto" ∨ scheme = "block_sum") ∧
    (c.isChunked → dtype ≠ "float16") ∧
    ¬ (scheme = "kahan_scheme" ∧ dtype = "float16" ∧ acc = "float32")) ∧
  (sumReduction op → op ≠ "Sum" →
    scheme ≠ "kahan_scheme" ∧ dtype ≠ "float16" ∧ (acc = "auto" ∨ acc = dtype) ∧
    (c = .gpu2D → scheme = "auto" ∨ scheme = "block_sum")) ∧
  (¬ sumReduction op → dtype ≠ "float16" ∧ c ≠ .gpu2D)

end Verif.Types
