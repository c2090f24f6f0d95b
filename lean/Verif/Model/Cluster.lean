import Mathlib.Algebra.Field.Defs
import Mathlib.Algebra.Order.Floor.Ring
import Mathlib.Data.List.Dedup
import Mathlib.Data.List.Sort
import Verif.Model.FloatInt
import Verif.Model.Ranges

/-!
# Cluster utilities

Models of `pykeops/pykeops/numpy/cluster/{utils,matrix,grid_cluster}.py` and of their counterparts
in `pykeops/pykeops/torch/cluster`.  One-dimensional arrays are lists, `(M,D)` arrays are lists of
rows, `(C,2)` arrays of ranges are lists of pairs.  NumPy and PyTorch primitives (`bincount`,
`cumsum`, boolean and integer indexing, `unique`, `meshgrid`) are modelled by the list functions
below; `argsort` and `sort` are parameters, constrained in the theorems by their contract.  Negative
labels, rejected by `bincount`, are excluded by the type.
-/

namespace Verif

/-- Integer array indexing `l[idx]`; `none` is the `IndexError` of an index out of range.
`numpy/cluster/utils.py:35,41`, `numpy/cluster/matrix.py:113-116`. -/
def gather {α : Type} (l : List α) (idx : List Nat) : Option (List α) := idx.mapM (fun k => l[k]?)

/-- The permutation returned by `np.argsort(lab)` or `torch.sort(lab)`: some sorting permutation, not
necessarily a stable one. `numpy/cluster/utils.py:34`, `torch/cluster/utils.py:39`. -/
structure IsArgsort (lab perm : List Nat) : Prop where
  isPerm : perm.Perm (List.range lab.length)
  sorted : (perm.map (fun k => lab.getD k 0)).Pairwise (· ≤ ·)

/-- `sort_clusters(x, lab)`, `numpy/cluster/utils.py:34-43`, `torch/cluster/utils.py:39-47`, with
`x` an array; `perm` is the result of `argsort`. -/
def sortClusters {α : Type} (perm : List Nat) (x : List α) (lab : List Nat) :
    Option (List α × List Nat) := do
  let lab' ← gather lab perm
  let x' ← gather x perm
  pure (x', lab')

/-- `sort_clusters(x, lab)` with `x` a tuple or a list of arrays, `numpy/cluster/utils.py:36-39`. -/
def sortClustersTuple {α : Type} (perm : List Nat) (x : List (List α)) (lab : List Nat) :
    Option (List (List α) × List Nat) := do
  let lab' ← gather lab perm
  let x' ← x.mapM (fun a => gather a perm)
  pure (x', lab')

/-- Length of `np.bincount(lab)`: `max(lab) + 1`, 0 for an empty array.
`numpy/cluster/utils.py:92`. -/
def binSize (lab : List Nat) : Nat :=
  match lab.max? with
  | none => 0
  | some m => m + 1

/-- `np.bincount(lab)`. `numpy/cluster/utils.py:92,134`, `torch/cluster/utils.py:96,137`. -/
def bincount (lab : List Nat) : List Nat := (List.range (binSize lab)).map (fun k => lab.count k)

/-- `np.bincount(lab, weights=w)`. `numpy/cluster/utils.py:136,141,144`. -/
def bincountW {K : Type} [AddCommMonoid K] (lab : List Nat) (w : List K) : List K :=
  (List.range (binSize lab)).map (fun k =>
    ((lab.zip w).map (fun p => if p.1 = k then p.2 else 0)).sum)

/-- `np.cumsum`. `numpy/cluster/utils.py:93`, `numpy/cluster/matrix.py:117-122`. -/
def cumsum (l : List Nat) : List Nat :=
  (List.range l.length).map (fun k => (l.take (k + 1)).sum)

/-- `cluster_ranges(lab, Nlab)`, `numpy/cluster/utils.py:91-94`: integers. -/
def clusterRanges (lab : List Nat) (Nlab : Option (List Nat)) : List (Nat × Nat) :=
  let Nlab := Nlab.getD (bincount lab)
  let pivots := 0 :: cumsum Nlab
  pivots.dropLast.zip pivots.tail

/-- `cluster_ranges(lab)`, `torch/cluster/utils.py:95-98`: counts are converted to `float32`, their
cumulated sums are computed (exactly, with a wider accumulator, as PyTorch does on the CPU) and
stored in `float32`. -/
def clusterRangesTorch (lab : List Nat) : List (Nat × Nat) :=
  let Nlab := (bincount lab).map f32
  let pivots := 0 :: (cumsum Nlab).map f32
  pivots.dropLast.zip pivots.tail

section
variable {K : Type} [Field K] [DecidableEq K]

/-- Division of floating point numbers; `none` stands for the result of a division by zero (`nan` or
an infinity). `numpy/cluster/utils.py:141,144`. -/
def fdiv (a b : K) : Option K := if b = 0 then none else some (a / b)

/-- Column `d` of an array: `x[:, d]`, `numpy/cluster/utils.py:141,144`. -/
def column (x : List (List K)) (d : Nat) : List K := x.map (fun r => r.getD d 0)

/-- `cluster_centroids(x, lab, weights=w)`, `numpy/cluster/utils.py:133-146`,
`torch/cluster/utils.py:136-149`, in exact arithmetic, without the optional precomputed counts.
Result: one line per label, one entry per column. `D` is `x.shape[1]`. -/
def clusterCentroids (x : List (List K)) (D : Nat) (lab : List Nat) (weights : Option (List K)) :
    List (List (Option K)) :=
  let cols := (List.range D).map (fun d =>
    match weights with
    | none => List.zipWith fdiv (bincountW lab (column x d))
        ((bincount lab).map (Nat.cast : Nat → K))
    | some w => List.zipWith fdiv (bincountW lab (List.zipWith (· * ·) (column x d) w))
        (bincountW lab w))
  (List.range (binSize lab)).map (fun k => cols.map (fun c => c.getD k none))

/-- `cluster_ranges_centroids(x, lab, weights=w)`, `numpy/cluster/utils.py:215-224`,
`torch/cluster/utils.py:220-232` (the latter with `clusterRangesTorch`): ranges, centroids, and
weights of the clusters.  In PyTorch weights below `min_weight` are replaced by `min_weight`;
`m = none` stands for the NumPy version, which has no such argument. Counts are `float64` in the
NumPy version, hence exact. -/
def clusterRangesCentroids [LinearOrder K] (m : Option K) (x : List (List K)) (D : Nat)
    (lab : List Nat) (weights : Option (List K)) :
    List (Nat × Nat) × List (List (Option K)) × List K :=
  match weights with
  | some w =>
    let w := match m with
      | some m => w.map (fun a => if a ≤ m then m else a)
      | none => w
    (clusterRanges lab (some (bincount lab)), clusterCentroids x D lab (some w), bincountW lab w)
  | none =>
    (clusterRanges lab (some (bincount lab)), clusterCentroids x D lab none,
      (bincount lab).map (Nat.cast : Nat → K))

end

/-! ## Masks -/

/-- The six arrays of the argument `ranges`. `numpy/cluster/matrix.py:123-130`. -/
structure Ranges6 where
  rangesI : List (Nat × Nat)
  slicesI : List Nat
  redrangesJ : List (Nat × Nat)
  rangesJ : List (Nat × Nat)
  slicesJ : List Nat
  redrangesI : List (Nat × Nat)
deriving DecidableEq

/-- Entries of the array `g` of shape `(m, n)` at the positions where `keep` holds, in row-major
order: boolean indexing `g[keep]`. `numpy/cluster/matrix.py:113-116`. -/
def boolIndex {α : Type} (m n : Nat) (g : Nat → Nat → α) (keep : Nat → Nat → Bool) : List α :=
  (List.range m).flatMap (fun a => (List.range n).filterMap (fun b =>
    if keep a b then some (g a b) else none))

/-- `np.sum(keep, axis=1)`, entry `a`, for `keep` with `n` columns.
`numpy/cluster/matrix.py:117-122`. -/
def rowCount (n : Nat) (keep : Nat → Nat → Bool) (a : Nat) : Nat :=
  ((List.range n).map (fun b => if keep a b then 1 else 0)).sum

/-- `from_matrix(ranges_i, ranges_j, keep)`, `numpy/cluster/matrix.py:112-130`,
`torch/cluster/matrix.py:113-130`, for `keep` of shape `(m, n)`. `none` is an `IndexError`. -/
def fromMatrix (m n : Nat) (rangesI rangesJ : List (Nat × Nat)) (keep : Nat → Nat → Bool) :
    Option Ranges6 := do
  let redrangesI ← gather rangesI (boolIndex n m (fun _ a => a) (fun b a => keep a b))
  let redrangesJ ← gather rangesJ (boolIndex m n (fun _ b => b) keep)
  let slicesI := cumsum ((List.range m).map (rowCount n keep))
  let slicesJ := cumsum ((List.range n).map (rowCount m (fun b a => keep a b)))
  pure ⟨rangesI, slicesI, redrangesJ, rangesJ, slicesJ, redrangesI⟩

/-- `swap_axes(ranges)`, `numpy/cluster/utils.py:227-235`, `torch/cluster/utils.py:235-246`. -/
def swapAxes : Option Ranges6 → Option Ranges6
  | none => none
  | some r => some ⟨r.rangesJ, r.slicesJ, r.redrangesI, r.rangesI, r.slicesI, r.redrangesJ⟩

/-- C order content of an array of ranges, as read by the compiled code.
`common/keops_io/LoadKeOps.py:195-202`. -/
def flatRanges (l : List (Nat × Nat)) : Mem Nat :=
  fun p => if p % 2 = 0 then (l.getD (p / 2) (0, 0)).1 else (l.getD (p / 2) (0, 0)).2

/-- The argument `ranges` as it reaches the compiled code: pointers to the data of the six arrays,
and the numbers of ranges `ranges_i.shape[0]`, `ranges_j.shape[0]`.
`common/keops_io/LoadKeOps.py:195-202`. -/
def Ranges6.toArr (r : Ranges6) : RangesArr where
  nrangesX := r.rangesI.length
  nrangesY := r.rangesJ.length
  arr := fun k => match k with
    | 0 => flatRanges r.rangesI
    | 1 => fun p => r.slicesI.getD p 0
    | 2 => flatRanges r.redrangesJ
    | 3 => flatRanges r.rangesJ
    | 4 => fun p => r.slicesJ.getD p 0
    | _ => flatRanges r.redrangesI

/-! ## Grid clustering -/

/-- The weights of the voxel coordinates, by dimension. `none` is the `NotImplementedError`.
`numpy/cluster/grid_cluster.py:27-34`, `torch/cluster/grid_cluster.py:28-39`. -/
def gridWeights (D : Nat) : Option (List Int) :=
  if D = 1 then some [1]
  else if D = 2 then some [2 ^ 10, 1]
  else if D = 3 then some [2 ^ 20, 2 ^ 10, 1]
  else none

/-- Replacement of arbitrary labels by consecutive ones: `lab - min(lab)`, sorted distinct values,
table `foo` with `foo[u_lab[k]] = k`, then `foo[lab]`.  The table is represented by the function
that gives the position in `u_lab`. `none` is the error raised by the minimum of an empty array.
`numpy/cluster/grid_cluster.py:38-45`, `torch/cluster/grid_cluster.py:44-51`. -/
def compactLabels (lab : List Int) : Option (List Nat) :=
  match lab.min? with
  | none => none
  | some m =>
    let lab := lab.map (fun l => l - m)
    let uLab := (lab.dedup).insertionSort (· ≤ ·)
    some (lab.map (fun l => uLab.idxOf l))

/-- `grid_cluster(x, size)` after the quantization: `cells` are the voxel coordinates, `wrap` the
conversion to the integer type of the product `x_ *= weights`.
`numpy/cluster/grid_cluster.py:27-47`, `torch/cluster/grid_cluster.py:28-53`. -/
def gridLabels (wrap : Int → Int) (D : Nat) (cells : List (List Int)) : Option (List Nat) := do
  let w ← gridWeights D
  compactLabels (cells.map (fun c => (List.zipWith (fun a b => wrap (a * b)) c w).sum))

section
variable {K : Type} [Field K] [LinearOrder K] [FloorRing K]

/-- `np.floor(x / size)`, `numpy/cluster/grid_cluster.py:35`. -/
def cellsNumpy (size : List K) (x : List (List K)) : List (List Int) :=
  x.map (fun r => List.zipWith (fun a s => ⌊a / s⌋) r size)

/-- Minimum of each column; 0 for an empty array, on which `min` raises an error (as it does
in `compactLabels`). `torch/cluster/grid_cluster.py:41`. -/
def colMin (D : Nat) (x : List (List K)) : List K :=
  (List.range D).map (fun d => ((x.map (fun r => r.getD d 0)).min?).getD 0)

/-- `((x - x.min(axis=0)) / size).floor()`, `torch/cluster/grid_cluster.py:41`. -/
def cellsTorch (D : Nat) (size : List K) (x : List (List K)) : List (List Int) :=
  x.map (fun r => List.zipWith (fun a s => ⌊a / s⌋)
    (List.zipWith (· - ·) r (colMin D x)) size)

/-- `grid_cluster(x, size)`, `numpy/cluster/grid_cluster.py:26-47`, in exact arithmetic with
unbounded integers (`int64` in the code); `size` is given for each axis. -/
def gridClusterNumpy (D : Nat) (size : List K) (x : List (List K)) : Option (List Nat) :=
  gridLabels id D (cellsNumpy size x)

/-- `grid_cluster(x, size)`, `torch/cluster/grid_cluster.py:26-53`: the products are 32-bit
integers, their sum is computed with 64 bits.  Exact arithmetic for the quantization; voxel
coordinates are assumed to fit in 32 bits. -/
def gridClusterTorch (D : Nat) (size : List K) (x : List (List K)) : Option (List Nat) :=
  gridLabels (fun z => Int.bmod z (2 ^ 32)) D (cellsTorch D size x)

end

end Verif
