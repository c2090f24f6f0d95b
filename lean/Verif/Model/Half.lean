import Verif.Model.Ranges
import Verif.Model.Exec
import Verif.Model.Cluster

/-!
# Half precision

Models of `pykeops/torch/half2_convert.py` and of its use in
`pykeops/common/keops_io/LoadKeOps.py` and `keopscore/include/Sizes.h`.

In half precision the compiled code works on pairs (`half2`).  `V` is the type of the scalars,
`V × V` the type `half2`, whose operations act on the two components.  Arrays are memories in
C order, without batch dimensions (`bdims = ()`; see `Model/HalfBatch.lean`).
-/

namespace Verif

variable {V : Type}

/-- `make_odd_cat(y)` for an array of shape `(N, D)`, `torch/half2_convert.py:5-14`: an array of shape
`(2 N, D)`.  `y[..., -1, :]` is an `IndexError` for `N = 0`. -/
def makeOddCat (N D : Nat) (y : Mem V) : Option (Mem V) :=
  if N % 2 = 0 then
    if N = 0 then none
    else some (fun p =>
      if p < N * D then y p
      else if p < N * D + D then y ((N - 1) * D + (p - N * D))
      else y (p - (N * D + D)))
  else some (fun p => if p < N * D then y p else y (p - N * D))

/-- `make_even_size(x)` for an array of shape `(M, D)`, `torch/half2_convert.py:17-26`: the array, its
number of rows and `tag_dummy`. -/
def makeEvenSize (M D : Nat) (x : Mem V) : Mem V × Nat × Bool :=
  if M % 2 = 1 then
    (fun p => if p < M * D then x p else x ((M - 1) * D + (p - M * D)), M + 1, true)
  else (x, M, false)

/-- `half2half2(x)`, `torch/half2_convert.py:29-37`: `x.view(M/2, 2, D).transpose(-1, -2)` in C order;
position `p` of the result has the indices `(p / (2 D), p % (2 D) / 2, p % 2)` in the shape
`(M/2, D, 2)`. -/
def half2half2 (D : Nat) (x : Mem V) : Mem V :=
  fun p => x (p / (2 * D) * (2 * D) + p % 2 * D + p % (2 * D) / 2)

/-- `half22half(x)`, `torch/half2_convert.py:40-48`: `x.view(M/2, D, 2).transpose(-1, -2)` in C order;
position `p` of the result has the indices `(p / (2 D), p % (2 D) / D, p % D)` in the shape
`(M/2, 2, D)`. -/
def half22half (D : Nat) (x : Mem V) : Mem V :=
  fun p => x (p / (2 * D) * (2 * D) + p % D * 2 + p % (2 * D) / D)

/-- The array seen by the compiled code: pointers to `half2`.
`keops_nvrtc.cpp:648`, `LoadKeOps.py:204`. -/
def asHalf2 (x : Mem V) : Mem (V × V) := fun p => (x (2 * p), x (2 * p + 1))

/-- The converse: an array of `half2` seen from Python. `LoadKeOps.py:227-229`. -/
def ofHalf2 (x : Mem (V × V)) : Mem V := fun p => if p % 2 = 0 then (x (p / 2)).1 else (x (p / 2)).2

/-- The conversion of one argument in `preprocess_half2`, `torch/half2_convert.py:106-124`. -/
def halfArg (axis nout nred : Nat) (v : VarInfo) (arg : Mem V) : Option (Mem V) :=
  if v.cat = 2 then some (half2half2 v.dim (makeEvenSize 1 v.dim arg).1)
  else if v.cat = axis then (makeOddCat nred v.dim arg).map (half2half2 v.dim)
  else some (half2half2 v.dim (makeEvenSize nout v.dim arg).1)

/-- `tag_dummy`, `torch/half2_convert.py:105,118`: the value given by the last variable of the output
axis. -/
def tagDummy (axis nout : Nat) (vars : List VarInfo) : Bool :=
  vars.foldl (fun t v =>
    if v.cat = 2 then t else if v.cat = axis then t
    else (makeEvenSize (V := Unit) nout v.dim (fun _ => ())).2.2) false

/-- `M`, `N` of the compiled code: `include/Sizes.h:211-218`, then `switch_to_half2_indexing`,
`include/Sizes.h:413-420`. -/
def halfSizes (tagI nx ny : Nat) : Nat × Nat :=
  let M := if tagI = 0 then (if nx % 2 ≠ 0 then nx + 1 else nx) else 2 * nx
  let N := if tagI = 0 then 2 * ny else (if ny % 2 ≠ 0 then ny + 1 else ny)
  (M / 2, N / 2)

/-- The code of the formula on `half2`: every operation acts on the two components
(`half2` arithmetic of CUDA). The generated expressions are those of the other types,
`formulas/VectorizedScalarOp.py:23-31`. -/
def lanes (ev : (Nat → Option (Mem V)) → Mem V) (t : Nat → Option (Mem (V × V))) : Mem (V × V) :=
  fun k => (ev (fun n => (t n).map (fun m k => (m k).1)) k, ev (fun n => (t n).map (fun m k => (m k).2)) k)

/-- `preprocess_half2` and the call of the compiled code, without ranges:
`torch/half2_convert.py:73-126`, `LoadKeOps.py:187-192,204-236`.  `none` is an exception. The tag of
the call is `tagI = 1 - axis` (`LoadKeOps.py:167`). -/
def preprocessHalf2 (P : Problem V) : Option (Problem (V × V)) :=
  let axis := 1 - P.tagI
  let nout := if P.tagI = 0 then P.M else P.N
  let nred := if P.tagI = 0 then P.N else P.M
  let conv := fun (v : VarInfo) => halfArg axis nout nred v (P.args v.ind)
  if P.vars.all (fun v => (conv v).isSome) then
    some {
      ev := lanes P.ev
      vars := P.vars
      tagI := P.tagI
      M := (halfSizes P.tagI P.M P.N).1
      N := (halfSizes P.tagI P.M P.N).2
      args := fun ind => match P.vars.find? (fun v => v.ind = ind) with
        | none => asHalf2 (P.args ind)
        | some v => asHalf2 ((conv v).getD (P.args ind)) }
  else none

/-- `postprocess_half2`, `torch/half2_convert.py:129-132,144-145`, for reductions that do not return
indices: the array and its number of rows. `M` is the number of allocated rows, `LoadKeOps.py:211-214`. -/
def postprocessHalf2 (d nout : Nat) (dummy : Bool) (out : Mem (V × V)) : Mem V × Nat :=
  let M := nout + nout % 2
  (half22half d (ofHalf2 out), if dummy then M - 1 else M)

/-- `ranges2half2(ranges, N)`, `torch/half2_convert.py:51-70`, with exact integers (in PyTorch the
result of the last concatenation is in floating point, because the blocks are). -/
def ranges2half2 (rangesI : List (Nat × Nat)) (slicesI : List Nat) (redrangesJ : List (Nat × Nat))
    (N : Nat) : List (Nat × Nat) × List Nat × List (Nat × Nat) :=
  let rangesI := rangesI.map (fun r => (r.1 / 2, (r.2 + 1) / 2))
  let slicesI := slicesI ++ slicesI.map (· + redrangesJ.length)
  let block2 := redrangesJ.map (fun r => (N / 2 + (r.1 + 1) / 2, N / 2 + (r.2 + 2) / 2))
  let block2 :=
    if N % 2 = 0 ∧ (redrangesJ.getLastD (0, 0)).2 = N then
      block2.dropLast ++ (block2.getLast?.map (fun r => (r.1, r.2 - 1))).toList
    else block2
  (rangesI, slicesI, redrangesJ ++ block2)

/-- The ranges passed to the compiled code, `torch/half2_convert.py:98-103`. -/
def halfRanges (axis nx ny : Nat) (r : Ranges6) : Ranges6 :=
  if axis = 1 then
    let h := ranges2half2 r.rangesI r.slicesI r.redrangesJ ny
    { r with rangesI := h.1, slicesI := h.2.1, redrangesJ := h.2.2 }
  else
    let h := ranges2half2 r.rangesJ r.slicesJ r.redrangesI nx
    { r with rangesJ := h.1, slicesJ := h.2.1, redrangesI := h.2.2 }

end Verif
