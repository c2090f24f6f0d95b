import Verif.Model.Half

/-!
# Half precision with batch dimensions

`pykeops/torch/half2_convert.py` converts the last two dimensions of the arrays, for each index of the batch
dimensions; the compiled code then makes its table of sizes and divides it by two (`include/Sizes.h`).
-/

namespace Verif

variable {V : Type}

/-- A function of arrays applied to each block of an array in C order: the blocks of `n` entries become blocks of
`n'` entries. This is what the operations on `x[..., :, :]` of `torch/half2_convert.py:5-48` do, `bdims` being the
leading dimensions. -/
def perBlock (n n' : Nat) (f : Mem V → Mem V) (x : Mem V) : Mem V :=
  fun p => f (fun q => x (p / n' * n + q)) (p % n')

/-- The numbers of rows of a block of an argument, before and after the conversion,
`torch/half2_convert.py:106-124` (for a parameter, before the factor 2 is moved to the last dimension). -/
def halfBlock (axis nout nred : Nat) (v : VarInfo) : Nat × Nat :=
  if v.cat = 2 then (1, 2) else if v.cat = axis then (nred, 2 * nred) else (nout, nout + nout % 2)

/-- The conversion of one argument with batch dimensions, `torch/half2_convert.py:106-124`. `none` is an exception. -/
def halfArgB (axis nout nred : Nat) (v : VarInfo) (arg : Mem V) : Option (Mem V) :=
  let n := halfBlock axis nout nred v
  if (halfArg axis nout nred v arg).isSome then
    some (perBlock (n.1 * v.dim) (n.2 * v.dim) (fun x => (halfArg axis nout nred v x).getD x) arg)
  else none

/-- The shape of a converted argument, `torch/half2_convert.py:106-124`: `(…, rows, D)`, or `(…, 2 D)` for a
parameter. -/
def halfShape (axis nout nred nb : Nat) (v : VarInfo) (s : List Nat) : List Nat :=
  if v.cat = 2 then s.take nb ++ [2 * v.dim]
  else s.take nb ++ [(halfBlock axis nout nred v).2, s.getD (nb + 1) 0]

/-- The sizes put in the first row of the table, `include/Sizes.h:210-222`. -/
def paddedSizes (tagI nx ny : Nat) : Nat × Nat :=
  if tagI = 0 then (if nx % 2 ≠ 0 then nx + 1 else nx, 2 * ny)
  else (2 * nx, if ny % 2 ≠ 0 then ny + 1 else ny)

/-- The column divided by two in a line `(…, M, N, D)` of the table, `include/Sizes.h:424-434`. -/
def halvedColumn (s : Sizes) (line : Nat) : Nat :=
  if s.shapes (line + s.nbatchdims) > 1 then s.nbatchdims
  else if s.shapes (line + s.nbatchdims + 1) > 1 then s.nbatchdims + 1
  else s.nbatchdims + 2

/-- `switch_to_half2_indexing`, `include/Sizes.h:413-436`; `nx`, `ny` are not attributes of the model (they are the
products of the number of batches by `M`, `N`). -/
def switchHalf2 (nargs : Nat) (s : Sizes) : Sizes :=
  let w := s.nbatchdims + 3
  { s with
    M := s.M / 2
    N := s.N / 2
    shapes := fun p =>
      if p = s.nbatchdims ∨ p = s.nbatchdims + 1 then s.shapes p / 2
      else if w ≤ p ∧ p < (nargs + 1) * w ∧ p % w = halvedColumn s (p / w * w) then s.shapes p / 2
      else s.shapes p }

/-- `preprocess_half2` and the call of the compiled code with batch dimensions: `torch/half2_convert.py:73-126`,
`LoadKeOps.py:187-236`, `keops_nvrtc.cpp:407-419`. The arrays have the shapes `argshapes`; `nx`, `ny` are the sizes
given by the user. `none` is an exception, or no batch dimension. `outRows` is used by the code for CPU only, and half
precision exists on GPU only. -/
def halfCallB (ev : (Nat → Option (Mem V)) → Mem V) (vars : List VarInfo) (tagI : Nat)
    (args : Nat → Mem V) (argshapes : List (List Nat)) (nb nx ny dimout : Nat) : Option (RProblem (V × V)) :=
  let axis := 1 - tagI
  let nout := if tagI = 0 then nx else ny
  let nred := if tagI = 0 then ny else nx
  let conv := fun (v : VarInfo) => halfArgB axis nout nred v (args v.ind)
  let shapes := (List.range argshapes.length).map fun a =>
    match vars.find? (fun v => v.ind = a) with
    | none => argshapes.getD a []
    | some v => halfShape axis nout nred nb v (argshapes.getD a [])
  let inds := fun c => (varsOf vars c).map (·.ind)
  let padded := paddedSizes tagI nx ny
  let s := switchHalf2 argshapes.length (mkSizes shapes padded.1 padded.2 dimout (inds 0) (inds 1) (inds 2))
  if vars.all (fun v => (conv v).isSome) then
    match mkRanges s none with
    | some (some rg) => some {
        ev := lanes ev
        vars := vars
        tagI := tagI
        args := fun ind => match vars.find? (fun v => v.ind = ind) with
          | none => asHalf2 (args ind)
          | some v => asHalf2 ((conv v).getD (args ind))
        sizes := s
        rg := rg
        outRows := s.nbatches * (if tagI = 0 then s.M else s.N) }
    | _ => none
  else none

/-- `postprocess_half2` with batch dimensions, for reductions that do not return indices: the array and the number
of rows of its blocks. `torch/half2_convert.py:129-132,144-145`, `LoadKeOps.py:211-223`. -/
def postprocessHalf2B (d nout : Nat) (dummy : Bool) (out : Mem (V × V)) : Mem V × Nat :=
  let M := nout + nout % 2
  let rows := if dummy then M - 1 else M
  let x := perBlock (M * d) (M * d) (half22half d) (ofHalf2 out)
  (if dummy then perBlock (M * d) (rows * d) (fun y => y) x else x, rows)

end Verif
