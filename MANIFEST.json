{
 "claims": [
  {
   "property": "C01",
   "status": "proved",
   "theorems": [
    "Verif.C01_add",
    "Verif.C01_sub",
    "Verif.C01_mul",
    "Verif.C01_div",
    "Verif.C01_minus",
    "Verif.C01_sum",
    "Verif.C01_scalprod",
    "Verif.C01_formula",
    "Verif.not_C01_rat_add_int",
    "Verif.not_C01_rat_sub_int"
   ],
   "note": "Exact arithmetic over the reals. A rational constant plus or minus an integer constant raises an AttributeError instead of being built."
  },
  {
   "property": "C02",
   "status": "partial",
   "theorems": [
    "Verif.C02_dim",
    "Verif.C02_formula",
    "Verif.C02_reject",
    "Verif.C02_code",
    "Verif.C02_bounds",
    "Verif.C02_term"
   ],
   "note": "Announced dimension = number of components written by the generated code, within the arrays, with the right values, for all modelled operations. The other operations (TensorDot, Kron, complex, BSpline, SoftDTW) are modelled apart (C34, C36, C45, C46). Missing: out-of-range Elem, ElemT and OneHot (see not_C37)."
  },
  {
   "property": "C03",
   "status": "proved",
   "theorems": [
    "Verif.C03_build",
    "Verif.C03_formula",
    "Verif.C03_unique"
   ],
   "note": ""
  },
  {
   "property": "C04",
   "status": "partial",
   "theorems": [
    "Verif.C04_factorized_partial",
    "Verif.C04_factorized_terminates",
    "Verif.C04_grad_partial",
    "Verif.C04_gradNew_partial",
    "Verif.C04_terminates",
    "Verif.not_C04_relu",
    "Verif.not_C04_sinXDivX",
    "Verif.not_C04_powf",
    "Verif.not_C04_ifElse"
   ],
   "note": "Proved for all formulas of the modelled operations, with factorizations at the top (as AutoFactorize makes them), at all points where every operation is differentiable, without broadcasting in Powf, Atan2 and IfElse. Refuted beyond by concrete witnesses."
  },
  {
   "property": "C05",
   "status": "partial",
   "theorems": [
    "Verif.C05_diff_partial",
    "Verif.C05_temp",
    "Verif.C05_transpose_partial",
    "Verif.not_C05_adjoint"
   ],
   "note": "Directional derivative at all points where the operations are differentiable, under the restrictions of C04. Refuted for formulas whose gradient has no implemented adjoint (matrix products, Concat): an exception is raised."
  },
  {
   "property": "C06",
   "status": "partial",
   "theorems": [
    "Verif.C06_adjoint_partial",
    "Verif.C06_trace_partial",
    "Verif.not_C06_adjoint",
    "Verif.not_C06_trace",
    "Verif.not_C06_trace_zero"
   ],
   "note": "Adjoint and trace identities for formulas of degree at most one in the variable; the trace when the variable is under at most one sum. Refuted beyond: nested sums give a wrong trace; missing cases raise exceptions."
  },
  {
   "property": "C07",
   "status": "partial",
   "theorems": [
    "Verif.C07_linear_partial",
    "Verif.not_C07_mul",
    "Verif.not_C07_div"
   ],
   "note": "Proved for formulas where the variable is not in both factors of a product nor in a denominator. Refuted for v*Exp(v) and v/v, accepted as linear."
  },
  {
   "property": "C08",
   "status": "partial",
   "theorems": [
    "Verif.C08_replace_partial",
    "Verif.C08_factorize_partial",
    "Verif.C08_autoFactorize_partial",
    "Verif.C08_autoFactorize_terminates",
    "Verif.C08_autoFactorize_complete",
    "Verif.C08_negative",
    "Verif.not_C08"
   ],
   "note": "Proved for formulas whose factorizations are at the top, in particular for all formulas without factorization and everything Factorize and AutoFactorize return for them. Refuted for factorizations below other operations: temporary variables are captured."
  },
  {
   "property": "C09",
   "status": "proved",
   "theorems": [
    "Verif.C09_sum"
   ],
   "note": "Exact arithmetic in any commutative group; all three schemes; CPU loop and GPU 1D kernel under all schedules."
  },
  {
   "property": "C10",
   "status": "proved",
   "theorems": [
    "Verif.C10_min",
    "Verif.C10_max"
   ],
   "note": "Any linear order with a top (resp. bottom) element; CPU and GPU 1D."
  },
  {
   "property": "C11",
   "status": "proved",
   "theorems": [
    "Verif.C11_argmin",
    "Verif.C11_argmax",
    "Verif.C11_min_argmin",
    "Verif.C11_max_argmax"
   ],
   "note": "The index is given through the conversion to the data type; see C47 for its exactness."
  },
  {
   "property": "C12",
   "status": "proved",
   "theorems": [
    "Verif.C12_kmin_argkmin",
    "Verif.C12_kmin",
    "Verif.C12_argkmin"
   ],
   "note": "Entries equal to infinity are reported as padding (infinity, 0)."
  },
  {
   "property": "C13",
   "status": "partial",
   "theorems": [
    "Verif.C13_sum",
    "Verif.C13_min",
    "Verif.C13_max",
    "Verif.C13_kmin",
    "Verif.C13_logsumexp",
    "Verif.C13_arg_no_merge",
    "Verif.C13_sum_merge",
    "Verif.C13_min_merge",
    "Verif.C13_max_merge",
    "Verif.C13_kmin_merge",
    "Verif.C13_lse_merge"
   ],
   "note": "Refuted for arg reductions: their merge code cannot be generated."
  },
  {
   "property": "C14",
   "status": "partial",
   "theorems": [
    "Verif.C14_logsumexp_partial",
    "Verif.C14_logSumExpWeight_not_finalised",
    "Verif.C14_first_minus_inf_nan",
    "Verif.C14_empty_row_nan",
    "Verif.C14_kahan_not_generated"
   ],
   "note": "Proved for the operation LogSumExp (direct and block schemes) with finite terms, the exponential being arbitrary on positive arguments. Refuted for the operation name LogSumExpWeight, whose result is not finalised, and for a first term equal to minus infinity."
  },
  {
   "property": "C15",
   "status": "proved",
   "theorems": [
    "Verif.C15_sumsoftmaxweight"
   ],
   "note": "Finite terms, at least one term; direct and block schemes."
  },
  {
   "property": "C16",
   "status": "proved",
   "theorems": [
    "Verif.C16_C19_rows",
    "Verif.C16_swap"
   ],
   "note": ""
  },
  {
   "property": "C17",
   "status": "proved",
   "theorems": [
    "Verif.C17_sum",
    "Verif.C17_fold",
    "Verif.C17_uncovered_cpu",
    "Verif.C17_uncovered_gpu",
    "Verif.C17_ranges_with_batches_uninitialised",
    "Verif.C52_rows_min",
    "Verif.C52_rows_argmin",
    "Verif.C52_rows_kmin_argkmin",
    "Verif.C52_rows_logsumexp",
    "Verif.C52_rows_sumsoftmaxweight"
   ],
   "note": "Rows that belong to exactly one cluster: sums for the three schemes, every other reduction for the direct scheme, CPU and GPU, all schedules; through C52, the closed form of each reduction, also for the block scheme. Rows that belong to no cluster: empty reduction on the CPU, not written on the GPU."
  },
  {
   "property": "C18",
   "status": "partial",
   "theorems": [
    "Verif.C18_sum_partial",
    "Verif.C18_fold_partial",
    "Verif.C18_no_fault",
    "Verif.C18_int32_overflow",
    "Verif.C18_empty_axis_faults",
    "Verif.C18_unused_argument",
    "Verif.C52_rows_min",
    "Verif.C52_rows_argmin",
    "Verif.C52_rows_kmin_argkmin",
    "Verif.C52_rows_logsumexp",
    "Verif.C52_rows_sumsoftmaxweight"
   ],
   "note": "Proved when every array has less than 2^31 rows and every argument occurs in the formula. Refuted beyond: 32-bit offsets, division by zero for an empty axis, arguments that do not occur in the formula."
  },
  {
   "property": "C19",
   "status": "proved",
   "theorems": [
    "Verif.C16_C19_rows",
    "Verif.C09_sum"
   ],
   "note": ""
  },
  {
   "property": "C20",
   "status": "partial",
   "theorems": [
    "Verif.C20_sum",
    "Verif.C20_min",
    "Verif.C20_max",
    "Verif.C20_kmin_argkmin",
    "Verif.C20_kmin",
    "Verif.C20_argkmin",
    "Verif.C20_lse",
    "Verif.C20_generated"
   ],
   "note": "Proved with the block_sum scheme for sums, min, max, KMin variants and log-sum-exp (finite terms). Refuted otherwise: with the direct and Kahan schemes, and for arg reductions, no two-pass code can be generated."
  },
  {
   "property": "C21",
   "status": "partial",
   "theorems": [
    "Verif.C21_exec_partial",
    "Verif.C21_sum_partial",
    "Verif.C21_argmin_partial",
    "Verif.C21_ranges_exec_partial",
    "Verif.C21_batch_exec_partial",
    "Verif.C21_ranges_sum_partial",
    "Verif.C21_batch_sum_partial",
    "Verif.not_C21_params",
    "Verif.not_C21_scalar",
    "Verif.not_C21_ranges",
    "Verif.not_C21_batch_params"
   ],
   "note": "Every execution of the chunked kernel is an execution of the simple kernel: all formulas with one chunked sum, all dimensions, reductions, schemes, schedules and block sizes. Refuted when a parameter is summed by chunks and another one is used outside of the sum (overwritten), and when a number is used inside of the sum only (no code). With ranges and batches: same for reductions that do not use indices; refuted for indices of minima with ranges, and for several parameters with batch dimensions. Missing: factorized formulas."
  },
  {
   "property": "C22",
   "status": "partial",
   "theorems": [
    "Verif.C22_sum_partial",
    "Verif.C22_ranges_exec",
    "Verif.C22_ranges_sum",
    "Verif.C22_batch_exec_partial",
    "Verif.C22_batch_sum_partial",
    "Verif.not_C22_offset",
    "Verif.not_C22_batch_params"
   ],
   "note": "Every component of every row is the sum over j of F*b, and nothing else is written: all dimensions, sizes, block sizes, schedules and contents of uninitialised memory. Refuted when b comes before another variable indexed by j (shared memory is read at the wrong place). With ranges the kernel is right for every order of the variables; with batch dimensions it is right if the parameters have none, and refuted otherwise (every batch uses the parameters of the first)."
  },
  {
   "property": "C23",
   "status": "proved",
   "theorems": [
    "Verif.C23_lookup"
   ],
   "note": ""
  },
  {
   "property": "C24",
   "status": "partial",
   "theorems": [
    "Verif.C24_accepts_partial",
    "Verif.C24_nargs",
    "Verif.C24_reads_partial",
    "Verif.not_C24_rows",
    "Verif.not_C24_dims"
   ],
   "note": "Compatible calls are accepted with the right sizes and output shape; without batch dimensions, sums read only the entries of the arrays. Refuted: incompatible numbers of rows, dimensions and batch sizes are accepted, and memory outside of the arrays is read."
  },
  {
   "property": "C25",
   "status": "partial",
   "theorems": [
    "Verif.C25_aliases",
    "Verif.C25_complete",
    "Verif.C25_complete_ok",
    "Verif.C25_conflict",
    "Verif.not_C25_old_keyword",
    "Verif.not_C25_var_alias",
    "Verif.not_C25_inline"
   ],
   "note": "On strings, with spaces. Aliases name=Vi|Vj|Pm(dim) or (pos,dim) with distinct names; completion by the variables written in the formula. Refuted for the old keywords Vx, Vy and the form name=Var(pos,dim,cat), which take values of the previous alias, and for variables written at the position of an alias. Only decimal literals in aliases."
  },
  {
   "property": "C26",
   "status": "partial",
   "theorems": [
    "Verif.Lazy.C26",
    "Verif.Lazy.C26_weights",
    "Verif.Lazy.C26_aliases",
    "Verif.Lazy.not_C26_deriv"
   ],
   "note": "For every expression of arrays, lists, numbers, symbolic variables, operations and transpositions, as text substitutions, and up to the aliases computed by Genred. Assumes distinct addresses, and that names of operations contain no Var(...) text. Refuted for x.grad(v,e) when v occurs neither in x nor in e. A tensor is an object: views made by several calls of Vj on the same array are passed separately. Complex tensors are not modelled."
  },
  {
   "property": "C27",
   "status": "partial",
   "theorems": [
    "Verif.Lazy.C27_partial",
    "Verif.Lazy.C27_other_partial",
    "Verif.Lazy.not_C27_one_row",
    "Verif.Lazy.not_C27_empty"
   ],
   "note": "Exactly the rule of NumPy on batch dimensions, sizes and dimensions, when no size is 0 and no row or column dimension is an explicit 1. Refuted otherwise by witnesses."
  },
  {
   "property": "C28",
   "status": "partial",
   "theorems": [
    "Verif.C28_ranges",
    "Verif.C28_tuple",
    "Verif.C28_centroids",
    "Verif.C28_weighted",
    "Verif.C28_ranges_centroids",
    "Verif.C28_cluster_weights",
    "Verif.C28_torch_partial",
    "Verif.not_C28_torch"
   ],
   "note": "Proved for NumPy, with any sorting permutation, and for PyTorch up to 2^24 points. Refuted beyond for PyTorch: counts are stored in single precision."
  },
  {
   "property": "C29",
   "status": "partial",
   "theorems": [
    "Verif.C29_numpy_partial",
    "Verif.C29_torch_partial",
    "Verif.C29_dimension",
    "Verif.not_C29",
    "Verif.not_C29_torch_overflow"
   ],
   "note": "Proved when the coordinates after the first span less than 1024 voxels (and the first one fits in 32 bits after weighting, PyTorch). Refuted beyond: distinct voxels get the same label. Exact arithmetic for the quantization."
  },
  {
   "property": "C30",
   "status": "partial",
   "theorems": [
    "Verif.Cg.C30_residual",
    "Verif.Cg.C30_stops",
    "Verif.Cg.C30_ridge",
    "Verif.Cg.not_C30_stops"
   ],
   "note": "In exact arithmetic with non-finite values. Every returned solution has a residual below the threshold, for every linear operator; the solver stops after at most n iterations for symmetric positive definite operators, if b is not empty and eps is not 0. Refuted otherwise: the solver never stops on an empty right-hand side or with eps = 0."
  },
  {
   "property": "C31",
   "status": "partial",
   "theorems": [
    "Verif.Cache.C31_key_load",
    "Verif.Cache.C31_key_dll",
    "Verif.Cache.C31_key_file",
    "Verif.Cache.C31_routine",
    "Verif.Cache.C31_answer",
    "Verif.Cache.C31_settings_partial",
    "Verif.Cache.C31_formula",
    "Verif.Cache.not_C31_settings"
   ],
   "note": "All histories of requests, changes of settings, process ends, kills and cleanings. Keys of different requests differ; a request gets the code generated for it, if the truncated hash has no collision among the strings hashed so far. Refuted for changes of settings inside a process: the key of LoadKeOps contains the printed function env_param and not its value. set_build_folder: see C85."
  },
  {
   "property": "C32",
   "status": "partial",
   "theorems": [
    "Verif.Build.C32_iff",
    "Verif.Build.C32_partial",
    "Verif.Build.C32_forever",
    "Verif.Build.C32_normal",
    "Verif.Build.C32_cpu_safe",
    "Verif.Build.C32_gpu_safe",
    "Verif.Build.not_C32_cpu",
    "Verif.Build.not_C32_gpu"
   ],
   "note": "Refuted: a process killed at some points leaves files which make all later processes fail. Exact characterisation of the states of the build folder from which processes succeed, for all histories of processes killed at any step. One routine, one process at a time (see C67 for several)."
  },
  {
   "property": "C33",
   "status": "partial",
   "theorems": [
    "Verif.Names.C33_names",
    "Verif.Names.C33_count",
    "Verif.Names.C33_reserved",
    "Verif.Names.not_C33_arrays"
   ],
   "note": "All sequences of calls of new_c_varname. Refuted for arrays built without a name: the default name is computed once."
  },
  {
   "property": "C34",
   "status": "partial",
   "theorems": [
    "Verif.TensorDot.C34_accepts",
    "Verif.TensorDot.C34_value_partial",
    "Verif.TensorDot.C34_gradient_first_partial",
    "Verif.TensorDot.C34_gradient_second_partial",
    "Verif.TensorDot.C34_kron_partial",
    "Verif.TensorDot.not_C34_axes"
   ],
   "note": "All shapes, contracted axes and permutations, through the generated loops. Refuted beyond 21 loops: the name of the next loop variable is not an identifier."
  },
  {
   "property": "C35",
   "status": "partial",
   "theorems": [
    "Verif.C35_matVecMult",
    "Verif.C35_vecMatMult",
    "Verif.C35_tensorProd",
    "Verif.TensorDot.C34_kron_accepts",
    "Verif.TensorDot.C34_kron_partial"
   ],
   "note": "Layout of the four products through the generated code; gradients are covered by C04 and, for Kron, by C34. Partial: Kron up to 10 axes (see not_C34_axes)."
  },
  {
   "property": "C36",
   "status": "partial",
   "theorems": [
    "Verif.Cplx.C36_complex",
    "Verif.Cplx.C36_real",
    "Verif.Cplx.C36_var",
    "Verif.Cplx.C36_varReal",
    "Verif.Cplx.C36_conj",
    "Verif.Cplx.C36_realPart",
    "Verif.Cplx.C36_imagPart",
    "Verif.Cplx.C36_real2complex",
    "Verif.Cplx.C36_imag2complex",
    "Verif.Cplx.C36_exp",
    "Verif.Cplx.C36_exp1j",
    "Verif.Cplx.C36_sum",
    "Verif.Cplx.C36_sumT",
    "Verif.Cplx.C36_squareAbs",
    "Verif.Cplx.C36_abs",
    "Verif.Cplx.C36_angle",
    "Verif.Cplx.C36_add",
    "Verif.Cplx.C36_sub",
    "Verif.Cplx.C36_mult",
    "Verif.Cplx.C36_divide",
    "Verif.Cplx.C36_realScal",
    "Verif.Cplx.C36_accepts",
    "Verif.Cplx.C36_acceptsUn",
    "Verif.Cplx.C36_acceptsReal",
    "Verif.Cplx.C36_acceptsDerived",
    "Verif.Cplx.C36_grad_partial",
    "Verif.Cplx.C36_gradExists",
    "Verif.Cplx.not_C36_sumT",
    "Verif.Cplx.not_C36_gradOdd",
    "Verif.Cplx.not_C36_gradOdd_squareAbs"
   ],
   "note": "Values and rejections of all complex operations, through the generated code, with broadcasting, for all lengths and nested formulas; gradients with respect to variables of even dimension. Refuted: gradients with respect to variables of odd dimension of every sum, product or modulus of complex numbers raise KeOps_Error; ComplexSumT with an odd dimension leaves its array. Missing: gradients of gradients; the complex methods of LazyTensor."
  },
  {
   "property": "C37",
   "status": "partial",
   "theorems": [
    "Verif.C37_concat",
    "Verif.C37_elem",
    "Verif.C37_elemT",
    "Verif.C37_extract",
    "Verif.C37_extractT",
    "Verif.C37_oneHot_partial",
    "Verif.C37_elem_adjoint",
    "Verif.C37_extract_adjoint",
    "Verif.not_C37"
   ],
   "note": "Entries selected or placed by the generated code, rejections of Extract, ExtractT and of positions after the end in Elem, adjoints. Refuted: negative positions in Elem, all out-of-range positions in ElemT and OneHot are accepted and leave the arrays."
  },
  {
   "property": "C38",
   "status": "partial",
   "theorems": [
    "Verif.C38_roundtrip",
    "Verif.C38_sum",
    "Verif.C38_sum2D",
    "Verif.C38_sum_batch",
    "Verif.not_C38_ranges",
    "Verif.not_C38_no_output_variable"
   ],
   "note": "Sums (the only reduction generated for half2), with or without batch dimensions, with a variable along the output axis: all sizes, schemes and schedules. Refuted with ranges and without variable along the output axis."
  },
  {
   "property": "C39",
   "status": "proved",
   "theorems": [
    "Verif.C39_kmin",
    "Verif.C39_argkmin",
    "Verif.C39_kmin_argkmin",
    "Verif.C39_min_argmin",
    "Verif.C39_max_argmax",
    "Verif.C39_K_zero"
   ],
   "note": "End to end: executions followed by postprocess."
  },
  {
   "property": "C40",
   "status": "partial",
   "theorems": [
    "Verif.C40_adjoint",
    "Verif.C40_sum_partial",
    "Verif.C40_order",
    "Verif.not_C40_positions",
    "Verif.not_C40_empty"
   ],
   "note": "The collapse of broadcast axes is the adjoint of broadcasting for all shapes; with C44, the gradient of sums. Aliases in the order of the arguments. Refuted: aliases with explicit positions in another order get exchanged gradients; empty batch dimensions that are broadcast raise."
  },
  {
   "property": "C41",
   "status": "partial",
   "theorems": [
    "Verif.Lazy.C41_entry",
    "Verif.Lazy.C41_involution",
    "Verif.Lazy.C41_sum_partial",
    "Verif.Lazy.not_C41_sum",
    "Verif.Lazy.C41_sum",
    "Verif.Lazy.C41_min",
    "Verif.Lazy.C41_argmin",
    "Verif.Lazy.C41_logsumexp",
    "Verif.Lazy.C41_max",
    "Verif.Lazy.C41_argmax",
    "Verif.Lazy.C41_min_argmin",
    "Verif.Lazy.C41_max_argmax",
    "Verif.Lazy.C41_kmin",
    "Verif.Lazy.C41_argkmin",
    "Verif.Lazy.C41_kmin_argkmin",
    "Verif.Lazy.C41_logsumexp_weight",
    "Verif.Lazy.C41_sumsoftmaxweight"
   ],
   "note": "Entries and involution for all expressions of C26, through the formula and arguments given to Genred; sums when the tensor is not a product by a variable of dimension more than 100. Refuted for such products: K.t() keeps the factors of K. All the reductions of K.t() along an axis (with the transposed weights) give the results of K along the other one, for the calls of C62."
  },
  {
   "property": "C42",
   "status": "partial",
   "theorems": [
    "Verif.Lazy.C42_partial",
    "Verif.Lazy.not_C42_param",
    "Verif.Lazy.not_C42_rank",
    "Verif.Lazy.not_C42_lazy",
    "Verif.Lazy.not_C42_symbolic"
   ],
   "note": "Shape and entries of nested products by arrays, all sizes and batch dimensions, when the array has at most as many batch dimensions as the other factor and none if it is a parameter. Refuted otherwise: wrong entries, or a lazy tensor instead of an array; with a symbolic variable of dimension more than 100 all sums raise. The final chunk mode of the generated code is not part of the model."
  },
  {
   "property": "C43",
   "status": "proved",
   "theorems": [
    "Verif.C43_accepts",
    "Verif.C43_result"
   ],
   "note": "Exact set of accepted combinations, over arbitrary strings for the options; types and scheme of accepted calls."
  },
  {
   "property": "C44",
   "status": "partial",
   "theorems": [
    "Verif.C44_sum_partial",
    "Verif.C44_logsumexp_partial",
    "Verif.C44_softmax_partial",
    "Verif.C44_argmin",
    "Verif.C44_order",
    "Verif.C44_refused"
   ],
   "note": "Sum, log-sum-exp with weights and softmax-weighted sums for variables of every category, with the restrictions of C04 on the formula; ArgMin, ArgMax, ArgKMin where values are distinct. Min, Max and KMin refuse the gradient. The chain rule of PyTorch through the post-processing is trusted."
  },
  {
   "property": "C45",
   "status": "partial",
   "theorems": [
    "Verif.BSpline.C45_accepts",
    "Verif.BSpline.C45_value_partial",
    "Verif.BSpline.C45_nonneg",
    "Verif.BSpline.C45_support",
    "Verif.BSpline.C45_sum",
    "Verif.BSpline.not_C45_double"
   ],
   "note": "All orders, all increasing sequences of knots with repetitions, all points, in single precision (exact arithmetic). Refuted in double and half precision, where no code is generated. Knots that are not in order are not considered."
  },
  {
   "property": "C46",
   "status": "proved",
   "theorems": [
    "Verif.SoftDTW.C46_accepts",
    "Verif.SoftDTW.C46_recursion",
    "Verif.SoftDTW.C46_alignments",
    "Verif.SoftDTW.C46_finite",
    "Verif.SoftDTW.C46_grad",
    "Verif.SoftDTW.C46_diffT"
   ],
   "note": "All lengths at least 1, all data and every gamma different from 0, in exact arithmetic; also the sum over alignments and the gradients."
  },
  {
   "property": "C47",
   "status": "proved",
   "theorems": [
    "Verif.C47_exact",
    "Verif.C47_argmin",
    "Verif.C47_argmax",
    "Verif.C47_argkmin"
   ],
   "note": "For float64 data, up to 2^53 rows (not checked by the code; such arrays do not fit in memory)."
  },
  {
   "property": "C48",
   "status": "partial",
   "theorems": [
    "Verif.C48_partial",
    "Verif.C48_sum_partial",
    "Verif.C48_sum_batch_partial",
    "Verif.C48_runs",
    "Verif.C48_comparison_partial",
    "Verif.C48_logsumexp_partial",
    "Verif.C48_sumsoftmaxweight_partial",
    "Verif.not_C48",
    "Verif.not_C48_sum"
   ],
   "note": "Mapped axes 0 and 1 and unmapped arguments: for sums, minima, maxima, their indices, the K smallest values, log-sum-exp and softmax (without compensated summation for the last two), from the kernels, with or without batch dimensions in the mapped call; for any call that acts batch by batch with broadcasting. Refuted for later axes: transpose(0, k) reorders the other axes."
  },
  {
   "property": "C49",
   "status": "partial",
   "theorems": [
    "Verif.Lazy.C49_partial",
    "Verif.Lazy.not_C49",
    "Verif.Lazy.not_C49_two"
   ],
   "note": "Lists of at most one complex number. Refuted for all longer lists: only the first number is used."
  },
  {
   "property": "C50",
   "status": "proved",
   "theorems": [
    "Verif.C50_pairs",
    "Verif.C50_transpose",
    "Verif.C50_swap",
    "Verif.C50_sum"
   ],
   "note": "Both halves; with the labels of sorted points, the sum reduction is the sum over the kept pairs, on CPU and GPU, all schedules."
  },
  {
   "property": "C51",
   "status": "partial",
   "theorems": [
    "Verif.C51_divergence_partial",
    "Verif.C51_laplacian_partial"
   ],
   "note": "Under the restrictions of C04 and of the trace operator (C06)."
  },
  {
   "property": "C52",
   "status": "partial",
   "theorems": [
    "Verif.C52_sum",
    "Verif.C52_min",
    "Verif.C52_argmin",
    "Verif.C52_sum2D",
    "Verif.C52_sum_ranges",
    "Verif.C52_sum_batch",
    "Verif.C52_logsumexp",
    "Verif.C52_rows_sum",
    "Verif.C52_rows_min",
    "Verif.C52_rows_max",
    "Verif.C52_rows_argmin",
    "Verif.C52_rows_argmax",
    "Verif.C52_rows_min_argmin",
    "Verif.C52_rows_max_argmax",
    "Verif.C52_rows_kmin_argkmin",
    "Verif.C52_rows_kmin",
    "Verif.C52_rows_argkmin",
    "Verif.C52_rows_logsumexp",
    "Verif.C52_rows_sumsoftmaxweight"
   ],
   "note": "All reductions (sums, min, max, arg, KMin variants, log-sum-exp, softmax-weighted sums), without ranges, with ranges and with batch dimensions, all schedules of the CPU and GPU; the chunked kernels through C21. Missing: expressions that contain TensorDot, Kron, complex operations, BSpline or SoftDTW, which are modelled apart (C34, C36, C45, C46)."
  },
  {
   "property": "C53",
   "status": "partial",
   "theorems": [
    "Verif.C53_sum_partial",
    "Verif.C53_logsumexp_partial"
   ],
   "note": "Sum and log-sum-exp with weights, for one variable; restrictions of C05 on the formula."
  },
  {
   "property": "C54",
   "status": "partial",
   "theorems": [
    "Verif.C54_genred",
    "Verif.C54_genred_same",
    "Verif.not_C54_solve"
   ],
   "note": "For Genred, all shapes and strides. Refuted for KernelSolve, which passes pointers without making the arrays contiguous."
  },
  {
   "property": "C55",
   "status": "partial",
   "theorems": [
    "Verif.C55_rhs",
    "Verif.C55_partial"
   ],
   "note": "Exact solutions of the two linear systems; restrictions of C04 on the formula; no batch dimensions."
  },
  {
   "property": "C56",
   "status": "partial",
   "theorems": [
    "Verif.C56_sum_partial",
    "Verif.C56_exec_partial",
    "Verif.not_C56_add",
    "Verif.not_C56_axis",
    "Verif.not_C56_raise",
    "Verif.not_C56_kmin",
    "Verif.not_C56_logsumexp"
   ],
   "note": "The three kernels give the same sums under the conditions of C21 and C22. Refuted for PyTorch with the default options (formulas of dimension larger than 146 use the kernel for products: s + b is computed as s * b, other formulas raise) and for LazyTensor products of vectors. C56_exec_partial: for all reductions, when the kernel for products is not chosen, every execution is one of the simple kernel. Refuted with the default options of PyTorch: log-sum-exps with weights of dimension larger than 145 are wrong, and other reductions whose output has dimension larger than 146, as the 150 smallest values, raise."
  },
  {
   "property": "C57",
   "status": "partial",
   "theorems": [
    "Verif.Backend.C57_partial",
    "Verif.Backend.C57_places",
    "Verif.Backend.C57_numpy",
    "Verif.Backend.not_C57_cpu",
    "Verif.Backend.not_C57_request",
    "Verif.Backend.not_C57_ranges",
    "Verif.Backend.not_C57_batch",
    "Verif.Backend.not_C57_memory"
   ],
   "note": "All machines, backends, devices and places. Refuted: tensors on a GPU are accepted by the CPU backend; device_id is not compared with the first GPU (index 0 is false in Python); the places of ranges are not looked at; ranges with batch dimensions leave pointers unset; options naming the memory are not compared with the arguments. Proved for all other calls."
  },
  {
   "property": "C58",
   "status": "partial",
   "theorems": [
    "Verif.Backend.C58_names",
    "Verif.Backend.C58_unknown",
    "Verif.Backend.C58_partial",
    "Verif.Backend.not_C58"
   ],
   "note": "All machines, backends, ranges and batches. Refuted for the 2D scheme with ranges or batch dimensions, which always raises KeyError. That the kernels compute the same values is C16 to C22 and C56."
  },
  {
   "property": "C59",
   "status": "partial",
   "theorems": [
    "Verif.Staging.C59_partial",
    "Verif.Staging.not_C59_large",
    "Verif.Staging.not_C59_half",
    "Verif.Staging.not_C59_slices"
   ],
   "note": "All numbers and shapes of arrays of single or double precision with less than 2^31 entries. Refuted for larger arrays (sizes are multiplied in 32 bits), for half precision (twice the bytes of the arrays are read and written on the host) and for the ranges (twice the entries of slices are read)."
  },
  {
   "property": "C60",
   "status": "partial",
   "theorems": [
    "Verif.Lazy.C60_total",
    "Verif.Lazy.C60_total_call",
    "Verif.Lazy.C60_sum_total",
    "Verif.Lazy.C60_call",
    "Verif.Lazy.C60_ndim",
    "Verif.Lazy.C60_partial",
    "Verif.Lazy.C60_setting",
    "Verif.Lazy.C60_sum_axis1",
    "Verif.Lazy.C60_sum_axis0",
    "Verif.Lazy.C60_argmin_axis1",
    "Verif.Lazy.not_C60_zero",
    "Verif.Lazy.not_C60_zero_sum",
    "Verif.Lazy.not_C60_concat"
   ],
   "note": "All programs with real values, without batch dimensions, through the text of the formula and its reading, for every execution of the kernels. Refuted for products with the number 0 (the result is a Python integer, which has no dimension and no rows) and for concat, matvecmult, vecmatmult and tensorprod with arrays (the announced dimension is wrong). C60_total: programs with compatible sizes (Spec/MethodsFit.lean), with or without batch dimensions, raise no exception before the routine is made. C60_sum_total: the sums of these programs raise no exception at all, and have the values (no divisions by integers, see C81; no batch dimensions). Batch dimensions: see C70. Missing: complex values (see C68)."
  },
  {
   "property": "C61",
   "status": "partial",
   "theorems": [
    "Verif.LazyCall.C61_partial",
    "Verif.LazyCall.C61_runs",
    "Verif.LazyCall.C61_once",
    "Verif.LazyCall.C61_sum_partial",
    "Verif.LazyCall.not_C61_history",
    "Verif.LazyCall.not_C61_history_out",
    "Verif.LazyCall.not_C61_attribute",
    "Verif.LazyCall.not_C61_unknown",
    "Verif.LazyCall.not_C61_error",
    "Verif.LazyCall.not_C61_sum"
   ],
   "note": "All histories, options and attributes. Proved when each call gives the names given by the earlier ones, the attributes are set before the first call, and the type is known. Refuted otherwise: options of a call (ranges, out, alpha) are used by the later calls; the attributes are read once; a call that raises an exception makes all later calls raise; sum_scheme and dtype_acc are forgotten if the type is not known; sums of products with vectors of dimension larger than 100 along the other axis drop all options and the attribute ranges."
  },
  {
   "property": "C62",
   "status": "partial",
   "theorems": [
    "Verif.Lazy.C62_total",
    "Verif.Lazy.C62_call",
    "Verif.Lazy.C62_sum",
    "Verif.Lazy.C62_min",
    "Verif.Lazy.C62_max",
    "Verif.Lazy.C62_argmin",
    "Verif.Lazy.C62_argmax",
    "Verif.Lazy.C62_min_argmin",
    "Verif.Lazy.C62_max_argmax",
    "Verif.Lazy.C62_kmin",
    "Verif.Lazy.C62_argkmin",
    "Verif.Lazy.C62_kmin_argkmin",
    "Verif.Lazy.C62_logsumexp",
    "Verif.Lazy.C62_logsumexp_weight",
    "Verif.Lazy.C62_sumsoftmaxweight",
    "Verif.Lazy.C62_matmul_partial",
    "Verif.Lazy.C62_matmul_call",
    "Verif.Lazy.C62_sum_ranges_total",
    "Verif.Lazy.C62_min_ranges_total",
    "Verif.Lazy.C62_max_ranges_total",
    "Verif.Lazy.C62_min_argmin_ranges_total",
    "Verif.Lazy.C62_max_argmax_ranges_total",
    "Verif.Lazy.C62_argmin_ranges_total",
    "Verif.Lazy.C62_argmax_ranges_total",
    "Verif.Lazy.C62_kmin_argkmin_ranges_total",
    "Verif.Lazy.C62_kmin_ranges_total",
    "Verif.Lazy.C62_argkmin_ranges_total",
    "Verif.Lazy.C62_logsumexp_ranges_total",
    "Verif.Lazy.C62_logsumexp_weight_ranges_total",
    "Verif.Lazy.C62_sumsoftmaxweight_ranges_total",
    "Verif.Lazy.C62_sum_batch_total",
    "Verif.Lazy.C62_min_batch_total",
    "Verif.Lazy.C62_max_batch_total",
    "Verif.Lazy.C62_min_argmin_batch_total",
    "Verif.Lazy.C62_max_argmax_batch_total",
    "Verif.Lazy.C62_argmin_batch_total",
    "Verif.Lazy.C62_argmax_batch_total",
    "Verif.Lazy.C62_kmin_argkmin_batch_total",
    "Verif.Lazy.C62_kmin_batch_total",
    "Verif.Lazy.C62_argkmin_batch_total",
    "Verif.Lazy.C62_logsumexp_batch_total",
    "Verif.Lazy.C62_logsumexp_weight_batch_total",
    "Verif.Lazy.C62_sumsoftmaxweight_batch_total",
    "Verif.Lazy.C62_sum_total",
    "Verif.Lazy.C62_min_total",
    "Verif.Lazy.C62_max_total",
    "Verif.Lazy.C62_argmin_total",
    "Verif.Lazy.C62_argmax_total",
    "Verif.Lazy.C62_min_argmin_total",
    "Verif.Lazy.C62_max_argmax_total",
    "Verif.Lazy.C62_kmin_total",
    "Verif.Lazy.C62_argkmin_total",
    "Verif.Lazy.C62_kmin_argkmin_total",
    "Verif.Lazy.C62_logsumexp_total",
    "Verif.Lazy.C62_logsumexp_weight_total",
    "Verif.Lazy.C62_sumsoftmaxweight_total"
   ],
   "note": "Missing: complex values, products with the number 0. The theorems named _total go from beginning to end, without batch dimensions (with ranges, those named _ranges_total; with batch dimensions, under the conditions of C70 on the arrays and the formula, those named _batch_total): for programs with compatible sizes (C81) every reduction raises no exception, ends, and gives the value. All programs of C60 (real values, no product with the number 0), with or without batch dimensions (see C70), all weights, both axes, with and without ranges, all sizes and executions; real arithmetic, direct and block summation for log-sum-exp. C62_call, C62_total: when the routine exists (for all programs with compatible sizes). C62_matmul_partial supposes that v does not have exactly one row (a single row is broadcast without an error); any number of columns (C62_matmul_call)."
  },
  {
   "property": "C63",
   "status": "partial",
   "theorems": [
    "Verif.C63_sum_partial",
    "Verif.C63_sum_batch_partial",
    "Verif.C63_logsumexp_partial",
    "Verif.C63_softmax_partial",
    "Verif.C63_logsumexp_batch_partial",
    "Verif.C63_softmax_batch_partial"
   ],
   "note": "Sums, log-sum-exps (where the sums of the weighted exponentials are positive) and softmax-weighted sums, without and with batch dimensions (which may be broadcast for some arguments; then the gradient formula must use the gradient of the loss, as C64 treats zero gradients); at least one pair of rows, at arrays where the formulas are differentiable, for formulas without the broadcasts that C04 refutes. Variables i, j and parameters, all schemes (but Kahan for log-sum-exp and softmax) and executions of both kernels, real arithmetic. The gradients that PyTorch computes through the postprocessing, which is a PyTorch expression, are given by their formulas."
  },
  {
   "property": "C64",
   "status": "partial",
   "theorems": [
    "Verif.C64_routine",
    "Verif.C64_zero",
    "Verif.C64_other",
    "Verif.C64_same",
    "Verif.C64_grad_partial",
    "Verif.C64_cpu",
    "Verif.C64_gpu_rows",
    "Verif.C64_gpu_partial",
    "Verif.not_C64_arg"
   ],
   "note": "C64_zero: true for every sum of the formula zero that is called. Differentials of argmin, argmax and argKmin reductions cannot be compiled (negation proved). C64_same: executions of the general routine on the formula zero give the same array, so that C63 applies to gradients equal to zero (C64_grad_partial, with the restrictions of C63). C64_cpu, C64_gpu_rows, C64_gpu_partial are about the compiled routines that are generated for this case but not called by the Python code: with batch dimensions the one for the GPU writes only the rows of the first batch. Half precision is not considered."
  },
  {
   "property": "C65",
   "status": "partial",
   "theorems": [
    "Verif.Alias.C65_torch",
    "Verif.Alias.C65_torch_lists",
    "Verif.Alias.C65_generic",
    "Verif.Alias.C65_numpy_partial",
    "Verif.Alias.C65_numpy_safe_partial",
    "Verif.Alias.C65_output",
    "Verif.Alias.C65_dimension",
    "Verif.Alias.not_C65_list",
    "Verif.Alias.not_C65_earlier",
    "Verif.Alias.not_C65_later",
    "Verif.Alias.not_C65_change"
   ],
   "note": "True for PyTorch and for generic_sum and others. Genred of NumPy keeps and completes in place the list of the user: negations with concrete histories, and C65_numpy_partial when the list is not changed and later formulas declare no new variable; C65_numpy_safe_partial: if only later routines change the list, a call raises or is unchanged. A call is described by the formula, the variables of the names and the sizes that it uses."
  },
  {
   "property": "C66",
   "status": "partial",
   "theorems": [
    "Verif.C66_sum_partial",
    "Verif.C66_logsumexp_partial",
    "Verif.C66_softmax_partial",
    "Verif.C66_sum_batch_partial",
    "Verif.C66_logsumexp_batch_partial",
    "Verif.C66_softmax_batch_partial",
    "Verif.not_C66_positions",
    "Verif.not_C66_batch"
   ],
   "note": "Sums, log-sum-exps (where the sums of the weighted exponentials are positive) and softmax-weighted sums, for any set of arguments with tangents, without batch dimensions or with batch dimensions (broadcast or not) when each derivative has the batch dimensions of the output, at least one pair of rows, at arrays where the formulas are differentiable, under the restrictions of C05. All schemes (but Kahan for log-sum-exp and softmax) and executions of all the kernels, real arithmetic. Declarations are in the order of the arguments; refuted otherwise: the tangents are exchanged. Also refuted: batch dimensions that a derivative does not depend on (the CPU returns 0 in the later batches, and the GPU what was in memory). The derivative that PyTorch computes through the last operations on the output (log and division) is in the statements as a formula."
  },
  {
   "property": "C67",
   "status": "partial",
   "theorems": [
    "Verif.Build.C67_alone",
    "Verif.Build.C67_recovers",
    "Verif.Build.C67_built",
    "Verif.Build.C67_partial",
    "Verif.Build.not_C67_cpu",
    "Verif.Build.not_C67_gpu",
    "Verif.Build.not_C67_binary",
    "Verif.Build.not_C67_import"
   ],
   "note": "Any number of processes, all alternations of their steps. Refuted: with an empty folder, a process that starts while another one builds the routine raises; with a complete folder, a process that starts while another one writes its caches at exit cannot import the library. Proved: on a complete folder every process whose import succeeds gets the routine (imports succeed if no process is writing its caches), and any alternation leaves a usable folder once the processes have ended. C67_alone: a process alone does what the model of C32 says. One routine."
  },
  {
   "property": "C68",
   "status": "partial",
   "theorems": [
    "Verif.Cplx.C68_value_partial",
    "Verif.Cplx.C68_accepts",
    "Verif.Cplx.C68_sum_partial",
    "Verif.Cplx.C68_list_partial",
    "Verif.Cplx.not_C68_square",
    "Verif.Cplx.not_C68_cos",
    "Verif.Cplx.not_C68_sin",
    "Verif.Cplx.not_C68_inv",
    "Verif.Cplx.not_C68_mixed",
    "Verif.Cplx.not_C68_number",
    "Verif.Cplx.not_C68_numberFirst",
    "Verif.Cplx.not_C68_list"
   ],
   "note": "All programs, lengths, numbers, inputs and executions, without batch dimensions, in exact arithmetic. Refuted: square, cos, sin and 1/z of complex tensors act on real and imaginary parts; sums, differences and quotients of a real tensor and a complex number use the real operators; complex tensors and numbers raise an AttributeError; lists of two complex numbers are not read correctly. Proved for all other programs."
  },
  {
   "property": "C69",
   "status": "partial",
   "theorems": [
    "Verif.Lazy.C69_residual_partial",
    "Verif.Lazy.C69_stops_partial",
    "Verif.Lazy.C69_position",
    "Verif.Lazy.C69_alias",
    "Verif.Lazy.not_C69_symbolic"
   ],
   "note": "All programs K of C60 without symbolic variables, with entries that are numbers or vectors of the dimension of b, as many rows as columns, both axes, all schemes and executions of the kernels without ranges nor batch dimensions, in exact arithmetic. Not covered: batch dimensions, ranges, the argument var, the values when some but not all variables are symbolic (their positions are proved). Refuted: if all the variables are symbolic, the solver is built with None as the name of the unknown and the call raises an exception."
  },
  {
   "property": "C70",
   "status": "partial",
   "theorems": [
    "Verif.Lazy.C70_shape",
    "Verif.Lazy.C70_call",
    "Verif.Lazy.C70_sum",
    "Verif.Lazy.C62_sum",
    "Verif.Lazy.C62_min",
    "Verif.Lazy.C62_max",
    "Verif.Lazy.C62_argmin",
    "Verif.Lazy.C62_argmax",
    "Verif.Lazy.C62_min_argmin",
    "Verif.Lazy.C62_max_argmax",
    "Verif.Lazy.C62_kmin",
    "Verif.Lazy.C62_argkmin",
    "Verif.Lazy.C62_kmin_argkmin",
    "Verif.Lazy.C62_logsumexp",
    "Verif.Lazy.C62_logsumexp_weight",
    "Verif.Lazy.C62_sumsoftmaxweight",
    "Verif.Lazy.C62_matmul_partial",
    "Verif.Lazy.not_C70_lost"
   ],
   "note": "The theorems C62 are about every row of every batch; C70_shape, C70_call and C70_sum add the shape of the output and the existence of the call. Suppose arrays without dimension 0, less than 2^31 rows per array (all batches together), a formula that depends on i or j after simplification, and for each batch dimension other than 1 a variable that has it in the simplified formula. Refuted without the last hypothesis: the batches other than the first one are not written. Same restrictions as C62; batch dimensions with ranges are not considered."
  },
  {
   "property": "C71",
   "status": "partial",
   "theorems": [
    "Verif.Prec.C71_exact_partial",
    "Verif.Prec.C71_same_partial",
    "Verif.Prec.not_C71_quotient",
    "Verif.Prec.not_C71_int",
    "Verif.Prec.not_C71_powf",
    "Verif.Prec.not_C71_pow_gpu"
   ],
   "note": "All formulas of C01 (constructors of Expr), CPU and GPU, arbitrary operations of type float. Refuted: rational constants, hence division by an integer (relative error at least 2^-25 for x/3), integer constants of more than 24 bits, powers with a real exponent, and on the GPU powers with an integer exponent, are computed in single precision. Proved for formulas whose constants are numbers of single precision, without these powers, in two ways: exact if operations of type double are, and independent of the operations of type float. Infinities, NaN, half precision, reductions and contraction by the compiler are left out."
  },
  {
   "property": "C72",
   "status": "partial",
   "theorems": [
    "Verif.Types.C72_partial",
    "Verif.Types.C72_default",
    "Verif.Types.not_C72",
    "Verif.Types.not_C72_lse_double",
    "Verif.Types.not_C72_min_2d",
    "Verif.Types.not_C72_kahan_half",
    "Verif.Types.not_C72_final_chunks",
    "Verif.Types.not_C72_half_chunks",
    "Verif.Types.not_C72_names"
   ],
   "note": "C72_partial: exact list of the combinations that work, for all reductions, options, types, kinds of kernels and dimensions (half precision only on the GPU, where it exists). Refuted: log-sum-exp and softmax with accumulators of another type than the arrays or with the Kahan scheme, all reductions other than sums with the 2D scheme, the Kahan scheme with half precision and accumulators of single precision, other schemes than block_sum with the 2D scheme and with the final chunks, half precision for reductions other than sums and for formulas computed by chunks (vectors of large dimension), and three documented names of reductions. The code of the formula itself is not considered (see C01, C52, C71)."
  },
  {
   "property": "C73",
   "status": "partial",
   "theorems": [
    "Verif.Rnd.C73_same",
    "Verif.Rnd.C73_wide_direct",
    "Verif.Rnd.C73_wide_block",
    "Verif.Rnd.C73_kahan",
    "Verif.Rnd.C73_integers",
    "Verif.Rnd.C73_cpu_block",
    "Verif.Rnd.C73_cpu_ranges",
    "Verif.Rnd.C73_cpu_few",
    "Verif.Rnd.C73_types",
    "Verif.Rnd.not_C73_double_ranges",
    "Verif.Rnd.not_C73_double_block"
   ],
   "note": "All terms, roundings, schemes, executions without ranges, with ranges and with batch dimensions on CPU and GPU (GPU_1D kernels). C73_cpu_block: on the CPU without ranges the exponent is about twice the square root of n. C73_types: rounding to nearest with 24 and 53 bits meets the hypotheses. Refuted: with use_double_acc=True and the default scheme the temporary accumulator has the type of the data; on the CPU with ranges or batch dimensions it is never flushed (C73_cpu_ranges), so the option has no effect and 2^25 ones give 2^24. Missing: Kahan with accumulators of another type (C72), overflow and underflow, the chunked and 2D kernels, errors of the values of the formula themselves."
  },
  {
   "property": "C74",
   "status": "proved",
   "theorems": [
    "Verif.C74_build",
    "Verif.C74_grad",
    "Verif.C74_values",
    "Verif.C74_swap",
    "Verif.C74_result",
    "Verif.C74_runs",
    "Verif.C74_call"
   ],
   "note": "All formulas of the language of Model/Term.lean, all injective renumberings; gradients for formulas without factorization. C74_call: whole calls on the CPU when i and j are exchanged."
  },
  {
   "property": "C75",
   "status": "partial",
   "theorems": [
    "Verif.C75_matrix_partial",
    "Verif.Lazy.not_C75_method",
    "Verif.Lazy.not_C75_trace_data",
    "Verif.Lazy.not_C75_trace_then"
   ],
   "note": "C75_matrix_partial: all smooth formulas of the language that use v, without factorization and without broadcasting of scalars (C04 has the same restrictions), v not of category 3. Refuted for the lazy tensors: grad_matrix writes the printed description of v in the formula, so the formula cannot be parsed; trace_operator raises AttributeError for variables that hold data, and its result cannot be combined with another lazy tensor."
  },
  {
   "property": "C76",
   "status": "partial",
   "theorems": [
    "Verif.Launch.C76_partial",
    "Verif.Launch.not_C76",
    "Verif.Launch.not_C76_point",
    "Verif.Launch.not_C76_empty",
    "Verif.Launch.not_C76_2d",
    "Verif.Launch.not_C76_devices",
    "Verif.Launch.not_C76_thirteen",
    "Verif.Launch.not_C76_rows"
   ],
   "note": "C76_partial: all histories of objects created on devices with the same limits, all calls of the three kinds of launches and of the chunks whose reduced points fit in the shared memory, sizes below 2^32: exact condition of success, limits respected, all rows covered (without ranges). Refuted: points that do not fit (division by zero), empty results, large reduced axes with the 2D scheme, devices with different limits (the limits are set at the creation of an object and not at each call), the thirteenth device, more than 2^32 rows. What the driver accepts is in the trusted base; registers and static shared memory are not modelled."
  },
  {
   "property": "C77",
   "status": "partial",
   "theorems": [
    "Verif.GpuFiles.C77_partial",
    "Verif.GpuFiles.not_C77_visible",
    "Verif.GpuFiles.not_C77_number",
    "Verif.GpuFiles.not_C77_folder",
    "Verif.GpuFiles.not_C77_clean",
    "Verif.GpuFiles.not_C77_where"
   ],
   "note": "C77_partial: all histories of requests, cleanings and restarts where no process changes the folder and where the processes with the same default folder see the same devices (at most twelve). Refuted: processes that see other GPUs or another number of GPUs with the same folder, set_build_folder (also followed by clean_pykeops)."
  },
  {
   "property": "C78",
   "status": "partial",
   "theorems": [
    "Verif.LazyDot.C78_tensordot_partial",
    "Verif.LazyDot.C78_kron_partial",
    "Verif.LazyDot.not_C78_shapes",
    "Verif.LazyDot.not_C78_negative",
    "Verif.LazyDot.not_C78_integer",
    "Verif.LazyDot.not_C78_array",
    "Verif.LazyDot.not_C78_complex"
   ],
   "note": "All real lazy tensors and contractions that KeOps accepts, through the text of the arguments and its reading; with C34 the values are those of the contraction. Refuted: shapes that do not fit and negative axes are accepted until the reduction, an integer for the contracted axes raises TypeError, keops_kron with an array announces a wrong dimension, and keops_kron accepts a complex first operand and gives wrong values."
  },
  {
   "property": "C79",
   "status": "partial",
   "theorems": [
    "Verif.C79_partial",
    "Verif.C79_sum_partial",
    "Verif.not_C79_equal",
    "Verif.not_C79_notEqual",
    "Verif.not_C79_chain",
    "Verif.equal_num",
    "Verif.equal_refused",
    "Verif.power_refused"
   ],
   "note": "All accepted expressions with integers, variables, constants, operations, the functions SqNorm2, Norm2, Normalize, SqDist, SqNormIso, SqNormDiag, SymSqNorm, WeightedSqNorm, WeightedSqDist and the operators + - * / | ** < > <= >=, of any depth; C79_sum_partial: every execution of the sum kernel of an accepted expression writes the sums of the announced values. Refuted for ==, != and chains of comparisons: == compares the two formulas as objects, so that (x == y) * b is silently 0 and (x != y) * b is b; x < y < z is y < z. x == y alone and x ** y are refused."
  },
  {
   "property": "C80",
   "status": "partial",
   "theorems": [
    "Verif.Cg.C80_residual",
    "Verif.Cg.C80_stops_partial",
    "Verif.Cg.C80_operators_partial",
    "Verif.Cg.C80_solver_partial",
    "Verif.Cg.C80_gauss_product",
    "Verif.Cg.C80_gauss_spec",
    "Verif.Cg.C80_gauss_partial",
    "Verif.Cg.not_C80_zero",
    "Verif.Cg.not_C80_alpha"
   ],
   "note": "Exact arithmetic with numbers that are not finite. Everything that is returned has a residual below eps, for all operators; for symmetric positive definite operators and preconditioners and b not 0 the loop stops in at most n iterations. C80_solver_partial: the whole solver, with and without preconditioner, for every kernel that is not negative, alpha > 0 and any number of columns. C80_gauss_partial: for the Gaussian kernel this holds for all points; the texts of its formulas are accepted and their routines compute the products with its matrix. The systems with the small matrix are supposed to be solved exactly. Refuted: b = 0, and alpha = 0 which is the default value: the loop never ends."
  },
  {
   "property": "C81",
   "status": "partial",
   "theorems": [
    "Verif.C81_accept",
    "Verif.C81_partial",
    "Verif.C81_exclusive",
    "Verif.not_C81_fraction",
    "Verif.not_C81_sumT",
    "Verif.Lazy.C81_lazy_agree",
    "Verif.Lazy.C81_lazy",
    "Verif.Lazy.C81_lazy_partial",
    "Verif.Lazy.not_C81_lazy",
    "Verif.Lazy.C81_reductions",
    "Verif.Lazy.C81_reductions_partial"
   ],
   "note": "Proved for formulas in which one divides only by formulas whose value is not a constant; with fractions, the only exception that may be raised is the AttributeError of the sum or difference of a fraction and an integer. Refuted: x/2 + 3*x raises it; the product of a vector and SumT(f, 1) is rejected. C81_lazy: the same for the formulas built by programs on lazy tensors with compatible sizes, without batch dimensions; C81_reductions: for all the reductions of C62, with weights and batch dimensions. Nested reductions, derivatives, complex operations, TensorDot, Kron are not in these formulas."
  },
  {
   "property": "C82",
   "status": "partial",
   "theorems": [
    "Verif.C82_partial",
    "Verif.C82_iff_partial",
    "Verif.not_C82"
   ],
   "note": "Proved for formulas whose weighted norms of scalars have scalar weights; with C81, a formula with no fractions and no SumT(f, 1) is accepted if and only if its dimensions are compatible. Refuted: WeightedSqNorm(s, f) with s of dimension 3 and f of dimension 1 is accepted. Reductions, derivatives, complex operations, TensorDot, Kron are not in these formulas."
  },
  {
   "property": "C83",
   "status": "partial",
   "theorems": [
    "Verif.Lazy.C83_partial",
    "Verif.Lazy.C83_total",
    "Verif.Lazy.C83_batch_total",
    "Verif.Lazy.C83_blocks",
    "Verif.Lazy.C83_ranges"
   ],
   "note": "All programs of C62 (real values, no product with the number 0), all sizes and executions, each batch, arrays with any number of columns; C83_blocks: with the ranges of from_matrix for sorted labels, and of swap_axes for the transpose. Exact arithmetic. C83_total: for compatible sizes, no division by constants and at most 100 columns, both products raise no exception and end (no batch dimensions). Missing: complex lazy tensors, for which both products raise ValueError; rounding. C83_batch_total: the same for each batch, under the conditions of C70 on the arrays and the formula."
  },
  {
   "property": "C84",
   "status": "partial",
   "theorems": [
    "Verif.Lazy.C84_partial",
    "Verif.Lazy.C84_transpose_partial",
    "Verif.Lazy.C84_accepts",
    "Verif.Lazy.C84_accepts_batch",
    "Verif.Lazy.not_C84_row",
    "Verif.Lazy.not_C84_column"
   ],
   "note": "False as stated: not_C84_row, an array with one row is accepted for every number of columns, and its row is repeated; not_C84_column, a lazy tensor with one column accepts arrays with any number of rows. C84_partial and C84_transpose_partial: all other wrong sizes are refused, for every program of the Python interface and all batch dimensions. C84_accepts and C84_accepts_batch: for the programs of C83, without and with batch dimensions, the accepted sizes are exactly N and 1."
  },
  {
   "property": "C85",
   "status": "partial",
   "theorems": [
    "Verif.Folder.C85_partial",
    "Verif.Folder.C85_set",
    "Verif.Folder.C85_clean",
    "Verif.Folder.not_C85_removed",
    "Verif.Folder.not_C85_address",
    "Verif.Folder.not_C85_relative"
   ],
   "note": "False as stated: a process that ends in another folder saves its dictionaries in the default one, and the later processes fail if the other folder is deleted (not_C85_removed, for all later histories without cleaning) or if the printed address is the same (not_C85_address); with a relative path all new routines fail (not_C85_relative). Proved for all histories with absolute paths in which processes go back to the default folder before they end (C85_partial), and, after any history, in the process that sets the folder (C85_set), and after clean_pykeops in the default folder (C85_clean). One process at a time; keys and files are in C31 and C32; GPU: C77."
  }
 ]
}