# Formal model of getkeops/keops in Lean 4

## 1. What is modelled, in one page

KeOps turns a formula `F(p, x_i, y_j)` and a reduction `Red_j` into C++/CUDA code
that computes `Red_j F(p, x_i, y_j)` for all `i` without storing the matrix.  The
code of interest is

1. the symbolic layer (`keopscore/formulas`): constructors that simplify, the
   dimension calculus, automatic differentiation, linear operators;
2. the reductions (`keopscore/formulas/reductions`): accumulators, their merge,
   final output;
3. the map-reduce schedules (`keopscore/mapreduce`, `include/*.h`,
   `binders/nvrtc/keops_nvrtc.cpp`): loops, tiles, chunks, ranges, batches;
4. the Python front end (`pykeops`): parsing, broadcasting, lazy tensors,
   clusters, solvers, half precision packing, backward pass;
5. the build folder and the caches (`keopscore/binders`, `utils/Cache.py`).

The model is a shallow embedding: every Python/C++ function that matters is a
total Lean function on lists, naturals, integers, options or an inductive type of
formulas, written branch by branch after the source.  Python exceptions are
values (`Option`/`Except`).  Loops are folds or structural recursions.  Each
definition cites the file and lines it follows and the simplifications made.

Numbers.  Generated code works in floating point; the model works in exact
arithmetic (ordered fields, `ℝ` where `exp`/`log` are needed).  Claims on rounding
are out of scope, except for integers (C47), the types of the operations (C71) and the rounding errors of sums (C73).

## 2. Trusted base

* Lean 4.33.0's kernel.  Axioms allowed: `propext`, `Classical.choice`,
  `Quot.sound`.  No axiom is added, no `sorry`, no `native_decide`/`bv_decide`.
* The reading of the source: the Lean definitions are a manual transcription.
* External code taken as given: NumPy/PyTorch primitives (`argsort`, `unique`,
  `cumsum`, `bincount`, broadcasting, `einsum`), the C++ compiler, CUDA's
  execution model (threads of a block between two `__syncthreads` may be run in
  any order; blocks are independent), the file system (a write either happened or
  not), SHA hash functions.
* The code of formulas (`Model/FormulaCode.lean`): C arrays are lists with checked bounds; arrays with different
  names, and the rows of the inputs, do not overlap; the functions of the C library and the division are exact on
  their domains (`CMath.Exact`), with no assumption outside; a new name is given to each local array
  (`new_c_varname`).
* Regular expressions of the parsers of aliases are replaced by parsers without backtracking
  (`Model/Aliases.lean`); `eval` of the numbers in aliases is restricted to decimal literals.
* Lazy tensors (`Model/Lazy.lean`): objects are values with an identity; objects that are alive have distinct
  identities (hypothesis `Distinct`), that exceed the number of arguments; the identity of the views made by `t`
  is an arbitrary function (`fresh`). Torch/NumPy `view`, `transpose` keep the data (field `src`).
* Texts of formulas (`Model/Parse.lean`): Python's `eval` is modelled for the texts that lazy tensors write: calls of
  the classes of formulas, operators between parentheses, integers, names without keywords.
* Half precision: the operations of CUDA on `half2` act on the two components separately (`lanes`); the type
  promotions of PyTorch are not modelled.
* Gradients of reductions (`Model/RedDiff.lean`, `Model/Backward.lean`): PyTorch differentiates the post-processing
  (`M + log S`, `S / S0`) by the chain rule; `sum`, `reshape`, `transpose` of PyTorch as on contiguous arrays.
* Caches (`Model/Cache.lean`): the text of a parsed reduction, the class of the map-reduce scheme and the generated
  code are functions of the hashed data (parameters `Gen`); formulas are texts `f(...)` with balanced parentheses
  (`IsCall`); the truncated hash has no collision during the history (hypothesis `NoCollision`). Files
  (`Model/Build.lean`): writing a file is two steps, creation and completion; one process at a time.
* Chunks (`Model/Chunks.lean`): `list(set(...))` is any order of the elements (`setList`); the block size is any
  positive number: Python and the launcher compute it by the same formula (`GpuReduc1D_chunks.py:130-132`,
  `keops_nvrtc.cpp:452-460`), so that `fout_chunk` has room for the columns of a tile. With ranges
  (`Model/ChunksRanges.lean`) the same holds (`GpuReduc1D_ranges_chunks.py:196-198`).
* Scalar times vector (`Model/FinalChunks.lean`): `blocksize_chunks` and `blockDim.x` are the same number, as above
  (`GpuReduc1D_finalchunks.py:119-122`, `GpuReduc1D_ranges_finalchunks.py:142-145`). The values are real numbers.
* Types of numbers (`Model/Precision.lean`): the usual arithmetic conversions of C++, the overloads of the functions of
  `<cmath>` (those of CUDA on the GPU) are chosen by the types of their arguments, `powf` works on `float`; the
  operations of each type are arbitrary functions. The compiler does not contract operations.
* Types of the code of a reduction (`Model/CodeTypes.lean`): CUDA defines no arithmetic operators on `float2`, no
  assignment of a `float` or a `float2` to a `half2`, and compiles every other expression that the generator writes.
* Rounded sums (C73): each addition, subtraction and conversion is the exact one followed by a rounding, which for
  `float32` and `float64` is the rounding to nearest even; no overflow and no underflow, no reordering and no fused operation
  by the compiler (`-use_fast_math` on the GPU keeps additions rounded to nearest, but flushes denormal numbers).
* Launches (`Model/Launch.lean`): `cuLaunchKernel` accepts exactly the sizes of `accepts` (limits of CUDA on grids, threads and
  dynamic shared memory); registers, static shared memory and the available memory are not modelled. In the other files
  the row of a thread is computed without overflow (less than `2^32` rows, see `not_C76_rows`).
* Files of the GPU (`Model/GpuFiles.lean`): the numbers in `CUDA_VISIBLE_DEVICES` are distinct and exist; whether the driver
  loads code compiled for another architecture is not modelled; one process at a time.
* Contractions of lazy tensors (`Model/LazyDot.lean`): the products and the quotient computed by NumPy are exact; the
  reading of lists of integers by Python is `readLists` (`Spec/LazyDot.lean`).
* Formulas written as texts (`Model/PyFormula.lean`): the parser of Python, and its choice of the methods called for an
  operator, are trusted; a Boolean is the integer 0 or 1.
* Preconditioned solver (`Model/Pcg.lean`): the products with kernel matrices and the solution of the small linear system
  are parameters, exact on arrays of finite numbers; the built-in Gaussian kernel of `KernelLinearSolver` is not modelled.
* Build folders (`Model/BuildFolder.lean`): the compiler looks for a file included between quotes from the folder of the text that
  includes it and in the folders of its flags, not in the working directory; `importlib` sees files that were just made; a
  folder has one name; one process at a time.
* Not modelled: rkeops (R), the test/bench/doc code, floating point rounding outside C47, C71 and C73,
  GPU memory allocation, the CUDA driver API, the compiler command lines.

## 3. Properties

For each property: model, and proof technique.

| id | model | proof |
|----|-------|-------|
| C01 | inductive formulas, fuelled transcription of the simplifying constructors, evaluation in a field | induction on fuel, one case per rule |
| C02 | same; `dim` function; generated code as a state transformer on bounded arrays | same induction; loop invariants |
| C03 | same | well-founded measure, enough fuel always exists |
| C04 | `DiffT` on formulas, Mathlib's `HasFDerivAt` over ℝ | structural induction, adjoint identity |
| C05 | `Diff` | corollary of C04 and C06 |
| C06 | `AdjointOperator`, `TraceOperator` | structural induction |
| C07 | `is_linear` | false in general: counterexample; partial theorem for a syntactic class |
| C08 | `replace`, `Factorize` | structural induction |
| C09 | accumulators as folds, three schemes | invariant on the fold |
| C10 | min/max fold | invariant |
| C11 | (value,index) fold | invariant: first strict optimum |
| C12 | insertion network over the accumulator | refinement to insertion in a sorted list |
| C13 | `ReducePair` | homomorphism of folds |
| C14 | (m,s) accumulator over ℝ | invariant `s = Σ exp(f_j-m)`, `m = max` |
| C15 | same with weights | same |
| C16 | CPU loops over flat arrays | refinement to the mathematical map-reduce |
| C17 | ranges loops | refinement |
| C18 | `broadcast_index` | induction on the rank |
| C19 | tiled loops | refinement: concatenation of tiles is `range ny` |
| C20 | two-pass loops | C13 + tiles |
| C21 | `chunked_version`, `post_chunk_formula`, `Chunk_Mode_Constants`, kernel of `GpuReduc1D_chunks` (`Model/Chunks`) | the value of a chunk is a partial sum (`ChunkFormula`, `ChunkSum`); content of the local buffers (`ChunkBuffers`, `ChunkConsts`); simulation of the simple kernel (`ChunkKernel`); kernel of `GpuReduc1D_ranges_chunks` (`Model/ChunksRanges`): simulation of `GpuReduc1D_ranges`, then C18/C20 |
| C22 | kernels of `GpuReduc1D_finalchunks` and `GpuReduc1D_ranges_finalchunks` (`Model/FinalChunks`, `Model/FinalChunksRanges`) | value of a tile and of the loop over tiles; the variables of the factor are a prefix of those of the formula; with ranges and batches, simulation of the simple kernel with ranges; negations |
| C23 | lookup table construction | arithmetic + induction |
| C24 | `get_sizes` and output shape (`Model/Call`) | induction on the aliases; false: nothing but the number of arguments is rejected |
| C25 | parsers on lists of characters (`Model/Aliases`), any order of Python sets | list reasoning; pigeonhole for the completion |
| C26 | `LazyTensor` objects with their formula as text, `fixvariables`, aliases (`Model/Lazy`) | the text of every object is the text of a tree (`LazyRel`); each replacement changes one leaf (`LazyFix`), because the text `Var(id,` occurs nowhere else (`LazyAlias`) |
| C27 | `check_broadcasting`, `promote`, `join` | equivalence with NumPy's rule written independently; negations for one row and empty batches |
| C28 | counts, prefix sums, argsort as a parameter, float32 counts (`Model/Cluster`) | counting lemmas on sorted lists; PyTorch false beyond 2^24 points |
| C29 | voxel hash (`Model/Cluster`) | false: collision witness; partial: injectivity of the hash below 1024 cells per axis |
| C30 | the loop on real numbers with a value for non-finite numbers (`Model/Cg`) | invariant for the residual; orthogonality of the residuals and linear independence |
| C31 | keys as string concatenations, caches and processes (`Model/Cache`) | injectivity of the keys; invariant over histories; negation for the settings |
| C32 | build folder state machine (`Model/Build`) | invariant over histories of killed processes; negation with witnesses |
| C33 | counter (`Model/Names`) | invariant |
| C34 | constructor, strides and nested loops (`Model/Tensor`) | change of summation variables along permutations of axes; characterisation of accepted arguments; adjoints |
| C35 | loops of the generated code on flat arrays | loop invariants |
| C36 | constructors, generated code and `DiffT` of all classes of `formulas/complex` (`Model/Complex.lean`) | loop invariants over pairs; algebra in ℂ; induction on formulas for the transpose of the differential |
| C37 | generated code on bounded arrays | loop invariants, adjunction; false for out-of-range positions |
| C38 | packing | list lemmas, permutation of pairs |
| C39 | reshape | index arithmetic |
| C40 | collapse of broadcast axes (`Model/Backward`) | adjunction by induction on the batch dimensions; then C44; negations for positions and empty batches |
| C41 | `t` as text substitutions | the tree of `K.t()` is the swapped tree; value of swapped trees; negation for the stale shortcut; `Props/TransposeRed.lean`: both reductions meet the specification of C62, whose vectors are the same |
| C42 | `sum` with the shortcut, values of broadcast arrays (`Model/Lazy`, `Spec/Lazy`) | expressions do not change when indices are clipped to the shape (`LazyFit`); distributivity; negations for ranks |
| C43 | decision table | case analysis over arbitrary strings |
| C44 | `DiffT` of the reductions (`Model/RedDiff`) | exchange of sums, C04 for each pair; derivative of log-sum-exp; locally constant indices |
| C45 | constructor, types of the C expressions, in-place loops (`Model/BSpline.lean`) | loop invariants; support and telescoping sums; negation for double precision |
| C46 | rolling buffer, forward and backward passes of the gradient (`Model/SoftDTW.lean`) | loop invariants; sum over alignments by induction; transposition of the linearised recursion |
| C47 | integers in binary floating point | arithmetic |
| C48 | `vmap` on arrays given by index functions | slices of the transposed arguments; for all reductions, the values read by the kernel in a batch of the call given by `vmap` are those of one call of the loop; negation for axis 2 |
| C49 | loop over the list, with the aliasing of `x` and `x_` | partial for one number; the loop ignores all numbers but the first |
| C50 | from_matrix, swap_axes (`Model/Cluster`) | segments of concatenated lists, then C17 |
| C51 | `Divergence`, `Laplacian` | corollary of C04 and C06 |
| C52 | composition of the symbolic, code and schedule models | C01 + C08 + C02 + C09/C10/C11/C14/C17/C20, with ranges (`EndToEnd`) and batches (`EndToEndBatch`); all reductions for the three kinds of calls (`EndToEndRows`: one lemma on the accumulator of a row, then one theorem for each reduction) |
| C53 | `Diff` of the reductions | C05 for each pair |
| C54 | views with strides (`Model/Layout`) | index arithmetic; negation for solvers |
| C55 | equations of the backward pass of solvers | derivative of the solution of a linear system, then C44 |
| C56 | flags, `use_final_chunks`, choice in `get_keops_dll` (`ExecGpuSum`; `Model/GpuChoice.lean` for all reductions) | C21 + C22 + C52; negations for the default options of PyTorch |
| C57 | `SetBackend`, `set_device`, beginning of both calls, use of the pointers (`Model/Backend.lean`); arrays are reduced to their place | case analysis on the nine options; negations with concrete calls |
| C58 | same, with the name of the class looked up in `get_keops_dll` | case analysis; negation for the 2D scheme with ranges |
| C59 | `load_args_FromHost`, copy of the output, copies of ranges, in bytes (`Model/Staging.lean`) | induction on the arguments; products modulo 2^32; negations |
| C60 | operators and methods of `GenericLazyTensor` (`Model/Methods.lean`), `eval` of the text of formulas (`Model/Parse.lean`) | induction on the program: each method is a tree (C26) whose reading is a formula with the value of the specification; then C52; that programs with compatible sizes (`Spec/MethodsFit.lean`) raise no exception by induction on the program; negations |
| C61 | `reduction`, `solve`, `__call__` and `separate_kwargs`, reduced to the keyword arguments (`Model/LazyCall.lean`) | invariant of the object over all histories; negations with concrete histories |
| C62 | methods that reduce a lazy tensor, `K @ v`, `preprocess`, constructors of reductions (`Model/MethodsRed.lean`) | the text of the call is read (C60) as a reduction of a formula with the values of the program; then the rows of C52, the aliases and weights of C26, the arrays of C22; with C81, from the program to the output (`Props/MethodsTotal.lean`, with ranges `Props/MethodsTotalRanges.lean`, with batch dimensions `Props/MethodsTotalBatch.lean`) |
| C63 | arguments of the gradient reduction and its output (`Model/BackwardCall.lean`), `DiffT`, collapse, formulas as code | variables of the gradient are those of the formula and the new one (degrees of C07); formulas are defined near smooth points; C52 for the forward and backward kernels, C44 and C40 in between; for log-sum-exp and softmax, the raw outputs of the forward kernel are `(shift, shifted sums)`, the derivative of the loss does not depend on the shift, and positivity of the sums is an open condition; with batch dimensions, each batch is a call on the blocks of the arrays (C18), and the derivative is the sum over the batches (C40) |
| C64 | choice of the routine, end of `genred`, `CpuAssignZero`, `GpuAssignZero`, sizes for empty lists of variables (`Model/Zero.lean`) | the compiled routine is not called; C52 for the formula zero; every order of rows or threads of the compiled routines writes each row once, sizes computed from empty lists |
| C65 | lists as cells of a heap, `complete_aliases` in place, constructors of `Genred`, `generic_ops.py` (`Model/Routines.lean`) | invariants over histories: lists that the user cannot reach never change; negations with concrete histories |
| C66 | calls of `jvp` and the sum of their outputs (`Model/JvpCall.lean`), `Diff` of formulas and reductions, formulas as code | the derivative with respect to one variable is linear in its tangent (C05), so that the sum of the kernels is the derivative along a line where all the variables move; then as C63; with batch dimensions, the arrays seen from one batch; negations for declarations in another order and for derivatives without the batch dimensions of the output |
| C67 | the process of C32 step by step, several processes and a schedule (`Model/Concurrent.lean`) | invariant over all schedules: a file that is not complete has a writer; files are never removed; then C32; negations with concrete schedules |
| C68 | operators and methods of `ComplexGenericLazyTensor`, mixed operators of `GenericLazyTensor`, construction of the formula (`Model/ComplexLazy.lean`) | induction on programs, with the type, the number of columns and the values as invariant, using C36; sums with C09; negations with concrete values |
| C69 | `solve` and `__call__` of lazy tensors, `KernelSolve` (`Model/LazySolve.lean`), with the models of C26, C30, C52, C60 | the formula that is read back is the product of `K` by the unknown at position 0; the operator given to the conjugate gradient is therefore the matrix of `K` plus `alpha` times the identity; then C30 |
| C70 | same models as C62, shapes of the arrays (`Spec/MethodsBatch`), `shapeOutPy`, `rangeCall` | the arrays passed to the routine are those of the program with batch dimensions padded with 1 (C26), all compatible with the batch dimensions of the lazy tensor (C27); offsets of blocks in the padded arrays are those in the arrays of the user; then the batches of C52 |
| C71 | typed C++ expressions written by `math_function` and by the constants, for the CPU and the GPU (`Model/Precision`), over arbitrary operations of each floating point type | induction on formulas: with exact operations of type `double`, conversions to `float` only act on constants that are numbers of this type; same induction with two machines that agree on `double` |
| C72 | the generator of the code as a computation on types: `assign`, `add_assign`, operators, `VectApply`, the methods of the reductions and of the summation schemes, and the calls of each kind of kernel (`Model/CodeTypes`) | the result does not depend on the dimensions (lemma by cases on the reduction), then cases on the finite set of reductions, schemes, types and kernels; together with C43 |
| C73 | `Model/RoundedSum.lean`: the sum reduction where each addition is followed by a rounding `rf` to the type of the data or `ra` to the type of the accumulators; run by the kernels of C09, C17 and C18 (`Exec`, `RExec`) | invariants on the accumulators (relative error `(1+u)^n - 1`, Kahan's corrected sum, exactness on integers) given to the general theorems on schemes (`LawfulScheme`); a finer invariant for the periodic flush on the CPU; for ranges on the CPU a simulation by the direct sum in the type of the data; `Proofs/Rounding.lean` proves that rounding to nearest even with `p` bits is such a rounding; negations by evaluation on `2^25` ones and on three terms |
| C74 | `Spec/Rename.lean`: formula with renamed variables; the model is that of C01 and C04 (`Term.compile`, `grad`) | every constructor, simplification and derivative commutes with an injective renaming (`Proofs/Rename.lean`, relation `Ex` on results and exceptions, one rule per step of the model); values by induction on formulas; `Props/RenameCall.lean`: the prepared formula, the tables of variables and the launch sizes of the exchanged call are the exchanged ones, hence the executions are the same |
| C75 | `Model/GradMatrix.lean`: the basis, the temporary variable and the concatenation of the substituted gradients; `Model/LazySymb.lean`: the lazy tensor methods | the gradient with respect to a temporary variable is linear in it (`grad_temp_at`, as in C05) so each substitution gives one row; C74 moves the temporary variable away from the variables of the user; negations for the methods for all lazy tensors |
| C76 | sizes of blocks and grids of `launch_kernel`, global variables of `CudaSizes.h`, histories of a process (`Model/Launch.lean`) | invariant over histories; arithmetic of the sizes; negations with concrete calls |
| C77 | files of the build folders for the GPU, environments of processes, `set_build_folder`, `clean_pykeops` (`Model/GpuFiles.lean`) | invariant over histories; negations with concrete histories |
| C78 | text and dimension written by `keops_tensordot` and `keops_kron` (`Model/LazyDot.lean`), with the operations of `Model/Tensor.lean` | induction on the lists; the announced dimension is that of C34; negations with concrete calls |
| C79 | evaluation by Python of a formula written as a text, with the methods of `Operation` for its operators (`Model/PyFormula.lean`) | induction on the expression: every accepted expression is a term of C01 with the same value, and so its sum kernel writes the sums of the announced values; negations with concrete formulas |
| C80 | loop of the preconditioned conjugate gradient, with numbers that are not finite; its operator and the Nyström preconditioner (`Model/Pcg.lean`), the formulas and matrices of its Gaussian kernel (`Model/PcgGauss.lean`) | invariant `r = b - A a`; orthogonality of the residuals for the scalar product given by the preconditioner; the matrix of the Gaussian kernel is a sum of squares, by the series of the exponential; the formulas through C79 and C81; negations for `b = 0` and `alpha = 0` |
| C81 | the constructors and their rules of simplification (`Model/Simplify.lean`, `Model/Term.lean`) | invariant on the formulas that are met (no `SumT(f, 1)`, no constant 0), checked for each rule; induction on the depth of recursion and on the formula; negations for `x/2 + 3*x` and `SumT(f, 1)`; programs on lazy tensors build formulas that obey the rules (`Proofs/MethodsAgree.lean`), by induction on the program, and so do their reductions with weights (`Props/RedAccept.lean`) |
| C82 | the constructors and their rules of simplification (`Model/Simplify.lean`, `Model/Term.lean`) | the dimensions of the arguments of a constructor that does not raise are compatible (invariant of the rules, as for C02); induction on the formula; equivalence with C81; negation for weighted norms of scalars |
| C83 | `matvec`, `rmatvec`, `T` (`Model/LinOp.lean`), on top of `__matmul__`, `t` (C62, C41) and `from_matrix`, `swap_axes` (C50) | rows of both products as sums over lists of indices, counted with multiplicities; the lists of the two axes are transposed of each other |
| C84 | the shapes of lazy tensors, `promote` and `__matmul__` (C62), on top of `Model/LinOp.lean` | the shape of the array made from `v`, then the test of `promote` on the two numbers of columns; conversely the acceptance of C81 |
| C85 | folders, dictionaries and files of the routines for the CPU, `set_build_folder`, `clean_pykeops`, removal of folders, successive processes (`Model/BuildFolder.lean`) | invariant over histories: the dictionaries agree with the current folder, the saved ones with the default folder; negations for all later histories |

## 4. Disagreements between the code and the properties

Each line is a theorem with a concrete witness, unless it says "no theorem".  Line numbers are in the comments of the model.

* C01 `not_C01_rat_add_int`, `not_C01_rat_sub_int`: a rational constant plus (minus) an integer
  constant raises AttributeError (`Add.py:74`, `Subtract.py:72` read `arg1.q`).
* C04 `not_C04_relu`: at a point where the formula is differentiable but ReLU is not (ReLU(x)-ReLU(-x)
  at 0) the gradient is wrong (2 instead of 1).
* C04 `not_C04_sinXDivX`: the gradient of SinXDivX divides by zero at 0.
* C04 `not_C04_powf`: with a scalar and a vector argument, the gradient of Powf (the same code serves
  Atan2) does not have the dimension of the variable.
* C04 `not_C04_ifElse`: with a vector condition the gradient of IfElse selects components of the gradient
  by the condition.
* C05 `not_C05_adjoint`: `Diff` of a matrix-vector product raises KeOps_Error, since the adjoint of
  VecMatMult is not implemented.
* C06 `not_C06_adjoint`: the adjoint of Concat, accepted as linear, is not implemented.
* C06 `not_C06_trace`: `SumLinOperator` passes the right weight at the position of the left one for
  `Sum` (`SumLinOperator.py:109`); traces of maps with nested sums are wrong.
* C06 `not_C06_trace_zero`: the trace of the null map raises an exception.
* C07 `not_C07_mul`, `not_C07_div`: `v*Exp(v)` and `v/v` are reported as linear in `v`.
* C08 `not_C08`: in a sum of two factorized formulas both temporary variables have index -1;
  `AutoFactorize` identifies sub-formulas which use them and moves them out of their scopes.
* C08, not in the model (read from the source, no theorem): with the flag `auto_factorize`,
  `GetReduction.py:37` stores the factorized formula in `children[0]` of the reduction (a list,
  `Reduction.py:15`) and leaves its attribute `formula` unchanged. Code generation reads `formula`
  (`MapReduce.py:55`, `CpuReduc.py:55`), so the flag changes the printed reduction and not the
  computation. Values are not affected.
* C13 `C13_arg_no_merge`: the reductions ArgMin, ArgMax (and their variants) call the merge code of
  their base class with a missing argument; no merge code can be generated.
* C14 `C14_logSumExpWeight_not_finalised`: the operation name `LogSumExpWeight` returns the raw
  accumulator, the post-processing recognises `LogSumExp` only.
* C14 `C14_first_minus_inf_nan`: if the first term of a row is minus infinity the result is NaN,
  although the other terms are finite.
* C14 `C14_empty_row_nan`: an empty row gives NaN with the default scheme.
* C14 `C14_kahan_not_generated`: no code for the Kahan scheme.
* C17 `C17_uncovered_gpu`: rows outside every cluster are left uninitialised on the GPU;
  `C17_uncovered_cpu`: they are the empty reduction on the CPU.
* C17 `C17_ranges_with_batches_uninitialised`: ranges given together with batch dimensions are
  accepted and ignored, the ranges used are uninitialised.
* C18 `C18_int32_overflow`: offsets of batches are 32-bit.
* C18 `C18_empty_axis_faults`: a batched call with an empty axis divides by zero.
* C18 `C18_unused_argument`: an argument that does not occur in the formula contributes to the batch
  shape of the output but not to the computed batches.
* C20 `C20_generated`: the two-pass GPU scheme can only be generated with `block_sum`, and not for
  the arg reductions.
* C24 `not_C24_rows`, `not_C24_dims`: `do_checks` is 0 in `Sizes.h:12`, so that numbers of rows, dimensions and
  batch sizes are never compared; `get_sizes` takes the sizes of the first variables. Results then depend on the
  memory after the arrays.
* C25 `not_C25_old_keyword`: `Vx` and `Vy`, accepted by `get_type` with a warning, are unknown to
  `LoadKeOps.py:52-57`: the category of the previous alias is used (`y=Vy(3)` after `x=Vi(3)` becomes an
  `i` variable).
* C25 `not_C25_var_alias`: `b=Var(2,1,1)`, a form announced by the docstring of `get_type`, gets position, dimension
  and category of the previous alias.
* C25 `not_C25_inline`: a variable written in the formula at the position of an alias with another category is
  accepted.
* C25, not in the model (no theorem): the NumPy `Genred` completes the list of the caller in place
  (`numpy/generic/generic_red.py:182`), so that a list used for two formulas may keep variables of the first.
* C26 `not_C26_deriv`: `x.grad(v, e)` inserts the formula of `v` without joining its variables
  (`lazy_tensor.py:537-556`): if `v` occurs neither in `x` nor in `e`, the address of the object stays in the formula.
* C27 `not_C27_one_row`: an array with one row along `i` is not stretched against an array with several rows;
  `not_C27_empty`: an empty batch dimension combined with one of size 1 gives size 1 (`utils.py:73-95` takes maxima).
* C41 `not_C41_sum`: `t` copies the attribute `rec_multVar_highdim` (`lazy_tensor.py:2547`), and the sum of the
  transpose of `F * V`, with `V` of dimension more than 100, uses the factors of `F * V`.
* C42 `not_C42_param`, `not_C42_rank`, `not_C42_lazy`: the shortcut (`lazy_tensor.py:745-758`) multiplies arrays with
  the broadcasting rule of the array library, in which a parameter with batch dimensions is aligned on the rows; and it
  gives the axis number of the product to a factor with fewer batch dimensions, where it means another axis.
* C42 `not_C42_symbolic`: the same lines read `variables[0]` of the variable, which is empty for a symbolic one, so that the
  sums over `i` and over `j` of a product by a symbolic variable of dimension more than 100 always raise `IndexError`.
* C49 `not_C49`: the loop of `ComplexGenericLazyTensor.__init__` executes `x = x_` in its first iteration
  (`lazy_tensor.py:2678-2682`), so that only the first number is read.
* C40 `not_C40_positions`: the backward pass pairs the list of aliases with the arguments by list order
  (`torch/generic/generic_red.py:175-190`), whereas the forward pass uses the positions written in the aliases: with
  `["y = Vj(1,1)", "x = Vi(0,1)"]` the two gradients are exchanged. `not_C40_empty`: a dimension 1 broadcast to 0 is not
  collapsed (`1 < 0` is false) and `reshape` raises.
* C44 `C44_refused`: Min, Max and KMin have no gradient (an error is raised).
* C48 `not_C48`: `vmap` exchanges the mapped axis with the first one (`generic_red.py:314`), which reorders the other
  axes if the mapped axis is after the second one; `not_C48_sum` follows a sum through the kernels: no error is raised and
  the output is wrong.
* C30 `not_C30_stops`: with an empty right-hand side, or with `eps=0`, the test `nr2 < delta` is never true and the loop
  never ends.
* C54 `not_C54_solve`: `KernelSolve` gives the pointers of its arguments to the compiled code without making them
  contiguous (`torch/operations.py:66-76`, `numpy/operations.py:265-270`); in PyTorch the gradient `G` of the backward
  pass is not made contiguous either. The documentation asks for contiguous arguments.
* C55 (no theorem): for a parameter in a call with batch dimensions, the backward pass multiplies by a row of
  `grad.shape[0]` ones (`torch/operations.py:159`), which is not the number of rows. The position of the unknown is its
  rank in the list of aliases (`torch/operations.py:320-330`), even if the aliases give positions.
* C28 `not_C28_torch`: the PyTorch `cluster_ranges` stores counts in `float32` (`torch/cluster/utils.py:96`);
  with 2^24 + 1 points the last one belongs to no interval.
* C29 `not_C29`: `grid_cluster` combines voxel coordinates with weights 2^10, so that voxels `(0, 1024)` and
  `(1, 0)` get the same label; `not_C29_torch_overflow`: 32-bit overflow in dimension 3.
* C37 `not_C37`: `Elem` accepts negative positions, `ElemT` accepts all positions (`Elem.py:21`, `ElemT.py:20`),
  and the position of `OneHot` is read from the data and not checked (`OneHot.py:35`): the generated code reads or
  writes outside its arrays.
* C38 `not_C38_ranges`: in half precision the intervals of user ranges are not converted to packed
  indices (`half2_convert.py:69` concatenates the original intervals), and the wrong rows are summed. In addition
  (no theorem) the concatenation of integer and floating point tensors is passed as integers, and `ranges_i` is
  modified in place.
* C38 `not_C38_no_output_variable`: without variable along the output axis the result has two rows.
* C02, not in the model (no theorem): `MatVecMult` and `VecMatMult` on an argument of dimension 0 raise
  ZeroDivisionError (`MatVecMult.py:24`); formulas of dimension 0 are excluded by `Expr.WF`.
* C31 `not_C31_settings`: `Cache_partial` puts `str(env_param)`, the representation of a function with its address, in
  its keys (`utils/Cache.py:85`) instead of `str(env_param())` (line 31): after a change of `auto_factorize` or of the
  compilation flags, a process gets the routine compiled before. As the address changes from one process to the next,
  the file `LoadKeOps_cpp_class_cache.pkl` is in general useless. Not in the model: `reset(new_save_folder)` sets an
  attribute that is never read, so that the caches are saved in the old folder.
* C32 `not_C32_cpu`, `not_C32_gpu`: files are written in place and only their existence is tested. If a process is
  killed between the creation of the source and the end of the writing of the information file, during the
  compilation of the Python module, or while the caches are saved, no later process gets the routine, until the folder
  is cleaned. `Cache_partial` does not even test that its file is not empty (`utils/Cache.py:74`), and the exception
  is raised by `import pykeops`.
* C33 `not_C33_arrays`: `c_array.__init__(..., string_id=new_c_varname("array"))` computes its default value once
  (`code_gen_utils.py:325-331`). The only use (`GpuReduc1D_chunks.py:49`) declares the arrays in separate blocks.
* C34 `not_C34_axes`: the loop variables are named `TD_var_` followed by `chr(70 + i)`, which is not a letter for
  `i = 21`: from 22 loops on, the code does not compile (`TensorDot.py:160-165`). Not in the model: the division on
  line 104 is a division of floating point numbers.

* C36 `not_C36_gradOdd`, `not_C36_gradOdd_squareAbs`: the `DiffT` methods of `ComplexAdd`, `ComplexSubtract` and
  `ComplexMult` add the two gradients with `ComplexAdd`, whatever the variable (`ComplexMult.py:18-36`). With respect
  to a real variable of odd dimension, for example `x` in `ComplexMult(ComplexExp1j(x), y)`, this raises KeOps_Error.
* C36 `not_C36_sumT`: `ComplexSumT(f, n)` does not test that `n` is even (`ComplexSumT.py:12-21`), and writes
  `out[n]` when it is not. The gradient of `ComplexSum` only uses even dimensions.
* C45 `not_C45_double`: the variables `x`, `ratio_1`, `ratio_2` and the constants of `BSpline_Impl.Op` have the type
  `float` (`BSpline.py:49-51,63,68`), and `c_variable.binary_op` refuses operands of different types
  (`code_gen_utils.py:126-138`): with arrays of doubles the code is not generated (KeOps_Error).
* C21 `not_C21_params`: `do_chunk_sub` loads the chunks of the parameters at the beginning of `param_loc`
  (`GpuReduc1D_chunks.py:75-83`), and not after the parameters that are loaded whole, as it does for the variables
  `i` and `j` (lines 50-53). For `s * x * (q | y)` with parameters `s` (a number) and `q` of dimension 146 or more, `s`
  is replaced by a component of `q`, and the components of `q` are shifted.
* C21 `not_C21_scalar`: `Chunkable_Op.notchunked_vars` returns the empty set (`Chunkable_Op.py:17-18`) instead of the
  variables of dimension 1 of its children. For `SqDist(x, s)` with `x` of dimension 200 and a number `s`, the code
  cannot be generated on the GPU.
* C21 `not_C21_ranges`: with ranges, the chunked kernel gives to the reduction the index `jrel + tile * blockDim.x`
  (`GpuReduc1D_ranges_chunks.py:243,475,482`), counted from the beginning of the interval, where the simple kernel adds
  `start_y`. Indices of minima with ranges are wrong.
* C21 `not_C21_batch_params`: with batch dimensions, the chunked kernel reads the whole parameters with
  `offsets=indices_p` and without `indsref` (`GpuReduc1D_ranges_chunks.py:406`). The parameters are listed in the order
  of a Python set (`Chunk_Mode_Constants.py`), the offsets in the order of the arrays: when these orders differ, each
  parameter is read in the batch of another one.
* C22 `not_C22_offset`: `GpuReduc1D_finalchunks` loads the variables of the factor `F` one after the other
  (`varloader`, line 103), but the code of `F` reads them at the places given by the loader of the whole formula
  (`self.varloader.table`, line 133). When `b` comes before another variable `y` indexed by `j`, `y` is read `b.dim`
  entries after its place.
* C22 `not_C22_batch_params`: with batch dimensions, `GpuReduc1D_ranges_finalchunks` reads the parameters without
  offsets (line 280), where the simple kernel uses `indices_p`: every batch is computed with the parameters of the
  first one.
* C56 `not_C56_add`, `not_C56_axis`, `not_C56_raise`: in `torch/generic/generic_red.py:73`,
  `isinstance(params.rec_multVar_highdim, int)` is true for the default value `False`, so that with PyTorch the
  kernel for products is used for all reductions of dimension larger than 146 on the GPU. It does not look at the
  operation (`GpuReduc1D_finalchunks.py:95-100`): `s + b` is computed as `s * b`; it reads row `j` of `b` even if `b` is
  indexed by `i`; and it raises an exception for other formulas, and for `direct_sum` and `kahan_scheme`.
  `lazy_tensor.py:564` enables it for `(x_i * y_j) * b_j` with vectors, where it raises.
  `not_C56_kmin`, `not_C56_logsumexp`: the test is on the dimension of the output of any reduction
  (`config/chunks.py:48-54`) and the kernel does not look at the reduction: `KMin` with `K * dim` larger than 146 raises,
  as all reductions which are not sums, and a log-sum-exp with weights of dimension larger than 145 is computed as the
  sum of the products of the score and the weights.
* C57 `not_C57_cpu`: `define_tag_backend` returns `tagHostDevice = 1` for tensors on a GPU with the backend `"CPU"`
  (`common/get_options.py:62-67`); nothing rejects this, and the C++ code reads pointers of the device.
  `not_C57_request`: `if device_args.index:` (`torch/generic/generic_red.py:56,62`) is false for the first GPU, so that
  `device_id=1` with tensors on `cuda:0` is accepted.  `not_C57_ranges`: the places of the ranges are never looked at.
  `not_C57_batch`: with ranges and batch dimensions no branch of `Ranges.h:18-86` is taken, and the error of lines
  89-96 is not compiled.  `not_C57_memory`: `"GPU_1D_device"`, `"GPU_1D_host"` and their 2D versions are believed.
  (`tagCPUGPU == 1 & tagHostDevice == 1`, line 48, is a chained comparison, which happens to be right.)
* C58 `not_C58`: there is no class `GpuReduc2D_ranges`, so that `"GPU_2D"` with ranges or batch dimensions raises
  `KeyError` (`get_keops_dll.py:112`).
* C59 `not_C59_large`: `std::accumulate(..., 1, ...)` accumulates in an `int` (`utils_pe.h:74`, `keops_nvrtc.cpp:491`).
  `not_C59_half`: `TYPE` is `half2` and the shapes count halves.  `not_C59_slices`: `2 * nranges` entries are copied from
  `slices_x`, which has `nranges` (`keops_nvrtc.cpp:310`).
* C60 `not_C60_zero`, `not_C60_zero_sum`: `x * 0`, `0 * x` and `0 / x` return the Python integer 0
  (`lazy_tensor.py:1093-1160`), so that the dimension and the rows of `x` are lost: `(x * 0).exp()` raises, and
  `(y_j + x_i * 0).sum(axis=0)` does not know the number of rows `i`.  `not_C60_concat`: `concat`, `matvecmult`,
  `vecmatmult` and `tensorprod` use `other.ndim` (`lazy_tensor.py:1724,1783,1798,1813`), which for arrays is the number of
  axes.  `difference_matrix` (`lazy_tensor.py:1591-1594`) writes the name of a class that does not exist in `keopscore`, so
  that any use of it raises; it is not modelled.
* C61 `not_C61_history`, `not_C61_history_out`: `self.kwargs.update(kwargs)` (`lazy_tensor.py:909`) changes the object, so
  that the options of a call are used by the later calls.  `not_C61_attribute`: the attributes are copied in the same
  dictionary (lines 911-915).  `not_C61_error`: an unknown name stays in the dictionary.  `not_C61_unknown`: `kwargs_init` is
  lost if `_dtype` is `None` (lines 741-743, 758-769).  `not_C61_sum`: `self.rec_multVar_highdim[0].sum(axis=axis)` (line 753)
  is called without `kwargs`, on a lazy tensor that does not have the attributes of `self`.  For solvers whose type is not
  known, line 933 passes `formula2`, which is `None`, so that the call raises.
* C64 `not_C64_arg`: `Zero_Reduction` has no attribute `dimred`, which `sum_schemes.py:13` and `MapReduce.py:74-75` read, so
  that `AttributeError` is raised by the differential of an arg reduction (`jvp`).  `backward` does not reach this case,
  because outputs that are indices are converted to integers.  `C64_gpu_batch` is not a disagreement: the routine compiled
  for the GPU does not know the batch dimensions (the lists of variables are empty), but `LoadKeOps.py:233-234` does not call
  it.
* C65 `not_C65_list`, `not_C65_earlier`, `not_C65_later`, `not_C65_change`: `self.aliases = complete_aliases(self.formula,
  aliases)` (`numpy/generic/generic_red.py:182`, and `numpy/operations.py:162` for `KernelSolve`) does `aliases += ...` on the
  list of the user, and keeps it; PyTorch uses `list(aliases)`.
* C66 `not_C66_batch`: the output of a kernel has the largest batch dimensions of all the arguments
  (`LoadKeOps.py:215-222`), but the kernel runs over the batches of the variables of its formula. The derivative of the sum
  of `x_i + y_j` in a direction of `x` is the sum of the tangents, whose kernel has the batches of `x`: if `y` has more of
  them, `jvp` returns 0 (CPU) or what was in memory (GPU) in the later ones.
* C66 `not_C66_positions`: as for C40, `jvp` gives `grad_inputs[var_ind + 1]` to the declaration number `var_ind`, and
  differentiates with respect to `Var(pos, ...)` (`torch/generic/generic_red.py:344-353`), so that tangents are exchanged
  when aliases give the positions in another order.
* C67 `not_C67_cpu`, `not_C67_gpu`: `get_dll_and_params` looks for the source (on GPU, the assembly code), which is written
  before the information file that the other processes read (`LinkCompile.py:97-107`).  `not_C67_binary`: `init_phase1` looks
  for the binary, which exists while the compiler writes it (`LoadKeOps_cpp.py:26-36`).  `not_C67_import`: the caches are
  written in place at exit (`utils/Cache.py:41-44,106-109`), and `Cache_partial` reads its file even if it is empty.
* C68 `not_C68_square`, `not_C68_cos`, `not_C68_sin`, `not_C68_inv`: `ComplexGenericLazyTensor` inherits `square`, `cos`,
  `sin`, `__rtruediv__` and many others, which write real operations (`lazy_tensor.py:1158,1240-1256,1376-1383`).
  `not_C68_mixed`: `__add__`, `__sub__`, `__truediv__` look for complex tensors, not for complex numbers
  (`lazy_tensor.py:1044-1047`; `__mul__` does, line 1108), so that `x + 1j` adds `x` to both parts.  `not_C68_number`,
  `not_C68_numberFirst`: `other._shape` and `other.real2complex()` are used on numbers (`lazy_tensor.py:2776,2786`).
  `not_C68_list`: in `__init__` the statement `x = x_` is inside the loop (`lazy_tensor.py:2679-2682`), so that the second
  number is read in the list that is being filled.
* C69 `not_C69_symbolic`: `solve` stores the name of the unknown in `varformula` and uses it if the type of the numbers is
  known (`lazy_tensor.py:870,883-892`), but `__call__`, which makes the solver otherwise, gives `self.formula2`, which is
  `None` (`lazy_tensor.py:867,929-937`), and `varinvalias[:4]` raises an exception (`numpy/operations.py:165`,
  `torch/operations.py:321`).  A system whose variables are all symbolic cannot be solved.
* C70 `not_C70_lost`: the shape of the output uses all the arrays (`LoadKeOps.py:216-223`), the number of batches that are
  computed uses the variables of the simplified formula only (as in C18 `C18_unused_argument`).  In
  `((x - x) + (z_i - y_j)).sum(axis=2)`, where `x` alone has a batch dimension, `Subtract.py:58-59` removes `x`, so that only
  the first batch of the output is written.

* C71 `not_C71_quotient`: `x / n` with an integer `n` is written as the product of `x` with `RatCst(1,n)`
  (`Divide.py:57-60`), whose code is `(float)(0.333...)` (`RatCst.py:21-23`): on arrays of doubles `x / 3` has a relative
  error of at least 2^-25, for every array, on the CPU and on the GPU. `not_C71_int`: in the same way `IntCst(n)` is
  `(float)n` (`IntCst.py:20-22`), so that 16777217 becomes 16777216. `not_C71_powf`: `x ** y` is `powf(x, y)`
  (`math_functions.py:99-101`), which converts its arguments to `float`: 4097 to the power 2 is not computed exactly on
  arrays of doubles, while NumPy does. `not_C71_pow_gpu`: on the GPU the same holds for `x ** 3`
  (`math_functions.py:94-98`), which is computed in double precision on the CPU.
* C72 `not_C72_lse_double`: `K.logsumexp(use_double_acc=True)` on `float32` arrays is accepted, but on every backend
  the difference of a `float` and a `double` (`Max_SumShiftExpWeight_Reduction.py:55`) raises a `KeOps_Error`: the two types
  must be the same (`code_gen_utils.py:117-146`). `not_C72_min_2d`: with `backend="GPU_2D"` every reduction other than a
  sum raises: `direct_sum` has no `tmp_acc` (`GpuReduc2D.py:148`), and for argmin and argmax `ReducePairScalar` gets three
  arguments instead of four (`Min_ArgMin_Reduction_Base.py:38`). `not_C72_kahan_half`: `sum_scheme="kahan_scheme"` with
  half precision and `dtype_acc="float32"` writes `float2 + float2` (`Sum_Reduction.py:31-40`), which CUDA does not define.
  `not_C72_half_chunks`: a sum of `float16` arrays computed by chunks (vectors of large dimension, with the default
  options) stops with `KeOps_Error`, since `sizeof` does not know `half2` (`code_gen_utils.py:22-30`).
  `not_C72_final_chunks`: products of dimension larger than 100 only have `block_sum`
  (`GpuReduc1D_finalchunks.py`). `not_C72_names`: `MinArgMin`, `MaxArgMax` and `KMinArgKMin` are documented
  (`numpy/generic/generic_red.py:108`) and accepted, but are the names of no reduction.
* C73 `not_C73_double_ranges`: the documentation of `use_double_acc=True` says "accumulate results of reduction in float64
  variables" (`torch/generic/generic_red.py:489-492`).  With `block_sum`, the default for sums, the terms are first added in a
  temporary accumulator of the type of the data (`sum_schemes.py:44-60`), and on the CPU with ranges or batch dimensions this
  accumulator is only flushed at the end (`CpuReduc_ranges.py:200-226` does not call `periodic_accumulate_temporary`):
  the option has no effect there (`C73_cpu_ranges`), and the sum of `2^25` ones in `float32` is `2^24`.
  `not_C73_double_block`: without ranges the same holds for less than 10 terms, e.g. `2^24 + 1 - 2^24` gives 0.
  `C73_wide_direct`: with `sum_scheme="direct_sum"` the option does what the documentation says.
* C75 `not_C75_method`: `x.grad_matrix(v)` (`lazy_tensor.py:1990-2006`) passes `opt_arg=other`, the lazy tensor itself and not its
  formula, to `unary`, which writes it with `format`: the formula contains `KeOps LazyTensor`, a line break, `formula: ...` and is
  not a formula, whatever `x` and `v`.  `not_C75_trace_data`: `x.trace_operator(v)` reads `v.ind` (line 2032), which exists only
  if `v` is a symbolic variable.  `not_C75_trace_then`: its result has a list of symbolic variables instead of a tuple (line
  2029), and `join` (line 421) adds a list and a tuple: every operation with an ordinary lazy tensor raises.
* C76 `not_C76_point`: if one point of the reduced axis does not fit in the shared memory (12289 numbers in `float32`, without
  chunks) the size of the blocks is 0 and the launcher divides by it (`keops_nvrtc.cpp:445-449,511,599`).
  `not_C76_devices`: `SetGpuProps` is called when a routine is created (`keops_nvrtc.cpp:369`) and not at each call as the
  comment of `CudaSizes.h:33-36` says; with devices of different limits a routine that worked is refused after another one
  has been created on another device. `not_C76_thirteen`: `CudaSizes.h` knows 12 devices. `not_C76_empty`: a result without
  rows gives an empty grid, which the driver refuses. `not_C76_2d`: with `GPU_2D` more than 65535 blocks of columns are
  refused. `not_C76_rows`: `signed long int i = blockIdx.x * blockDim.x + threadIdx.x` is computed with 32 bits
  (`GpuReduc1D.py:50`), so that rows from `2^32` on are never written.
* C77 `not_C77_visible`, `not_C77_number`: all files are in `config.get_build_folder()`, whose name does not depend on
  the GPUs (`base_config.py:95-100`); the name with `CUDA_VISIBLE_DEVICES` (`config/cuda.py:171-176`) is only used for a
  temporary file. A process that sees other GPUs than a previous one takes the code compiled for the architecture of the
  latter, with its limits; with more GPUs than the first process, the new ones cannot be used. `not_C77_folder`,
  `not_C77_clean`, `not_C77_where`: `Gpu_link_compile.py:19` reads the folder once, at import; after `set_build_folder` the
  code is still written and looked for in the first folder, but its information file in the new one, so that a formula used
  before the change fails with `FileNotFoundError`, also after `clean_pykeops()`.
* C78 `not_C78_shapes`, `not_C78_negative`: `keops_tensordot` does not compare the shapes with the dimensions of its operands
  and counts negative axes from the end; KeOps refuses such contractions when the tensor is reduced. `not_C78_integer`: an
  integer is converted in the text (`lazy_tensor.py:1838-1839`) but `len(contfa)` raises `TypeError`. `not_C78_array`:
  `keops_kron` uses `other.ndim`, which for an array is its number of axes (`lazy_tensor.py:1913`). `not_C78_complex`:
  `keops_kron` is not redefined for complex lazy tensors (`keops_tensordot` is, `lazy_tensor.py:2818`), and pairs of real
  and imaginary parts are mixed.
* C79 `not_C79_equal`, `not_C79_notEqual`: the table "Math operators" of the documentation gives `f == g` and `f != g` as
  element-wise tests, but `Operation.__eq__` (`formulas/Operation.py:191-196`) compares the two formulas as objects and
  gives a Boolean of Python. `(x == y) * b` is then `Mult(IntCst(False), b)`, that is `Zero`, and `(x != y) * b` is `b`: both
  are accepted without any message (lazy tensors write `Equal(x, y)` and are not concerned). `not_C79_chain`: Python reads
  `x < y < z` as `x < y and y < z`, and every formula is true, so that the result is `y < z`. `power_refused`: `x ** y`
  raises the formula `Powf(x, y)` instead of returning it (`formulas/Operation.py:183`), hence a `TypeError`.
* C80 `not_C80_zero`: `PreconditionedConjugateGradientSolver` (`common/operations.py:123-146`) has no test before its loop, as
  `ConjugateGradientSolver` has: for `b = 0` the first step is 0 / 0, the residual is `nan` for ever and `KernelLinearSolver`
  does not return. `not_C80_alpha`: same with `precond=True` and `alpha=0`, the default value, since `invprecondop` divides by
  `alpha` (line 158). Remark, not a violation: `M` should be `alpha * K(u, u) + ...` for `invprecondop` to be the inverse of
  the Nyström approximation plus `alpha`; what is used is still symmetric and positive definite (`C80_operators_partial`).
  No theorem: with PyTorch the Gaussian kernel raises a `TypeError`, since `tools.array` (`torch/utils.py:173`) needs a third
  argument that `common/operations.py:176` does not give; the theorems on this kernel are about NumPy.
* C81 `not_C81_fraction`: `x/2 + 3*x` raises an `AttributeError`. `x/2` is `RatCst(1,2)*x`; the rule of the common factor
  (`Add.py:104-115`) computes `RatCst(1,2) + IntCst(3)`, and for a fraction plus an integer `Add.py:74` reads `arg1.q`, an
  attribute of fractions only (`arg0.q` is meant). `3*x + x/2` is accepted. Same for differences (`Subtract.py:72`).
  `not_C81_lazy`: the sums of the lazy tensor `x_i / 2 + 3 * x_i` raise it, when the routine reads the formula.
  `not_C81_sumT`: `SumT(f, 1)` with `f` of dimension 1 is accepted, but its product with a vector is not
  (`Mult.py:112-129` compares the two dimensions).
* C82 `not_C82`: `WeightedSqNorm(s, f)` with `s` of dimension 3 and `f` of dimension 1 is accepted, although the documentation
  asks for 1, `N` or `N * N` weights: `WeightedSqNorm.py:14-20` falls back on `SymSqNorm`, which multiplies the weights by
  `TensorProd(f, f)`, of dimension 1, and broadcasts it. The value is the sum of the weights times `f * f`.
* C84 `not_C84_row`, `not_C84_column`: the documentation of `K @ v` (`pykeops/common/lazy_tensor.py:2490-2498`) asks for as many
  rows in `v` as `K` has columns, but `v` is only reshaped and multiplied by `K` with the rules of broadcasting
  (`lazy_tensor.py:2517-2524`). A `v` with one row becomes a parameter (`lazy_tensor.py:198-201`): the product is accepted and gives
  `Σ_j K(i, j) v_0`. A `K` with one column that was made from an array has no number of columns at all, and accepts every `v`.
* C85 `not_C85_removed`, `not_C85_address`, `not_C85_relative`: `reset(new_save_folder)` sets the attribute `save_folder`, which nothing
  reads, and not `cache_file` (`utils/Cache.py:36-39,99-104`). A process that called `set_build_folder(b)` therefore saves at exit, in
  the default folder, dictionaries that speak of sources in `b`. The next processes begin in the default folder (the file
  `build_folder_location.txt` is written and never read by the library) and compile `#include "b/tag.cpp"`: if `b` was deleted the
  module cannot be made nor imported, in all later processes, until `clean_pykeops()` is called. A relative path is stored as it is
  (`base_config.py:342`), so that this `#include` is looked for from the folder itself and not found. The search rule of the
  compiler is part of the trusted base.

## 5. How to read the mutation log

`seeded/LOG.jsonl` has one line per edit of the model. `theorems_failed` lists the theorems whose proofs
fail in the first modules that no longer build; `blocked_modules` lists the modules that import them and
were therefore not checked. A failing proof of a helper lemma does not show that the property theorem has
become false: it may only show that the proof followed the text of the definition. Where the statement of the property theorem was found to
survive the edit, the line says so in `note`, and `theorems_tightened` names the theorem restated or added.
Lines whose `claim` begins with "none" are edits that keep the claim true.
