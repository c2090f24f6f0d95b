{"id": "C01", "title": "Symbolic simplification never changes the value of a formula", "statement": "Whatever rewriting the formula constructors perform (x+0, a*b+a*c, Exp(f)*Exp(g), Sum(f*g), f|g, constants gathering, ...), the formula they return evaluates, on every input where the requested expression is defined, to the same vector as the requested sum, difference, product, quotient, opposite, square, power, sum or scalar product of the operands' values with scalar broadcasting.", "quantifier": "all formulas (any nesting) given as operands, all input vectors", "why_tests_cant": "Rules fire on nested patterns of sub-formulas with side conditions on dimensions; there are unboundedly many shapes of operands and infinitely many input values.", "anchors": ["keopscore/keopscore/formulas/maths/Add.py:Add", "keopscore/keopscore/formulas/maths/Subtract.py:Subtract", "keopscore/keopscore/formulas/maths/Mult.py:Mult", "keopscore/keopscore/formulas/maths/Minus.py:Minus", "keopscore/keopscore/formulas/maths/Divide.py:Divide", "keopscore/keopscore/formulas/maths/Sum.py:Sum", "keopscore/keopscore/formulas/maths/SumT.py:SumT", "keopscore/keopscore/formulas/maths/Scalprod.py:Scalprod", "keopscore/keopscore/formulas/maths/Square.py:Square", "keopscore/keopscore/formulas/maths/Pow.py:Pow", "keopscore/keopscore/formulas/Operation.py:Broadcast"]}
{"id": "C02", "title": "The announced dimension of a formula is the length of its value", "statement": "Whenever a formula is accepted, its dim attribute is the number of components the generated code writes for it: simplification keeps the dimension max(dim f, dim g) of the unsimplified operation, and operands of incompatible dimensions (both greater than 1 and different) are rejected rather than silently truncated or broadcast.", "quantifier": "all pairs of operands and all constructors", "why_tests_cant": "The output buffer and every memory offset are computed from dim; a mismatch for one nesting pattern is a silent buffer overrun.", "anchors": ["keopscore/keopscore/formulas/VectorizedScalarOp.py:VectorizedScalarOp", "keopscore/keopscore/formulas/Operation.py:Broadcast", "keopscore/keopscore/formulas/maths/Mult.py:Mult", "keopscore/keopscore/formulas/maths/Add.py:Add"]}
{"id": "C03", "title": "Building a formula always terminates", "statement": "The mutually recursive simplification rules of sum, difference, product, opposite, quotient, Sum and scalar product reach a final formula (or an error) after finitely many rewriting steps for every pair of operands: no sequence of rules loops.", "quantifier": "all operands", "why_tests_cant": "Non termination needs a cyclic chain of rules on a particular nesting of operands; tests only visit a few nestings.", "anchors": ["keopscore/keopscore/formulas/maths/Add.py:Add", "keopscore/keopscore/formulas/maths/Subtract.py:Subtract", "keopscore/keopscore/formulas/maths/Mult.py:Mult", "keopscore/keopscore/formulas/maths/Minus.py:Minus", "keopscore/keopscore/formulas/maths/Scalprod.py:Scalprod", "keopscore/keopscore/formulas/maths/Sum.py:Sum"]}
{"id": "C04", "title": "Grad computes the transpose of the derivative", "statement": "For every formula f, variable v and gradient e, Grad(f,v,e) evaluates at every point where f is differentiable to the vector g such that <g,u> = <e, Df(v).u> for every direction u.", "quantifier": "all formulas built from the supported operations, all variables, all points of differentiability, all directions", "why_tests_cant": "Finite-difference tests probe a few formulas at random points and cannot see errors that need particular broadcasting between scalar and vector operands.", "anchors": ["keopscore/keopscore/formulas/autodiff/Grad.py:Grad", "keopscore/keopscore/formulas/VectorizedScalarOp.py:DiffT", "keopscore/keopscore/formulas/maths/Mult.py:Mult_Impl.DiffT", "keopscore/keopscore/formulas/maths/Divide.py:Divide_Impl.DiffT", "keopscore/keopscore/formulas/variables/Var.py:Var.DiffT"]}
{"id": "C05", "title": "Forward derivative and adjoint agree", "statement": "Diff(f,v,u), the forward directional derivative, satisfies <Diff(f,v,u),e> = <u,Grad(f,v,e)> for every u and e and equals the derivative of f in direction u.", "quantifier": "all formulas, variables, points and directions", "why_tests_cant": "It is an identity between two symbolic transformations over all formulas.", "anchors": ["keopscore/keopscore/formulas/autodiff/Diff.py:Diff", "keopscore/keopscore/formulas/LinearOperators/AdjointOperator.py:AdjointOperator"]}
{"id": "C06", "title": "AdjointOperator returns the adjoint of a linear formula", "statement": "If a formula is accepted as linear in v, AdjointOperator(f,v,w) evaluates to the adjoint of the linear map v -> f applied to w; TraceOperator returns its trace.", "quantifier": "all formulas accepted as linear, all inputs", "why_tests_cant": "A structural recursion over formulas; a wrong case only shows for formulas that use that case.", "anchors": ["keopscore/keopscore/formulas/LinearOperators/AdjointOperator.py", "keopscore/keopscore/formulas/LinearOperators/TraceOperator.py", "keopscore/keopscore/formulas/LinearOperators/SumLinOperator.py", "keopscore/keopscore/formulas/Operation.py:is_linear"]}
{"id": "C07", "title": "The linearity test only accepts linear formulas", "statement": "If the library reports that a formula is linear in v then the value of the formula is additive and homogeneous in v.", "quantifier": "all formulas and variables, all inputs", "why_tests_cant": "It quantifies over all formulas and over all pairs of input vectors.", "anchors": ["keopscore/keopscore/formulas/Operation.py:is_linear", "keopscore/keopscore/formulas/variables/Var.py:is_linear"]}
{"id": "C08", "title": "Factorization and substitution preserve the value", "statement": "Replacing every occurrence of a sub-formula by a variable bound to its value (Factorize, AutoFactorize, replace) gives a formula with the same value as the original one.", "quantifier": "all formulas and all sub-formulas", "why_tests_cant": "Depends on capture and on every nesting.", "anchors": ["keopscore/keopscore/formulas/factorization/Factorize.py", "keopscore/keopscore/formulas/Operation.py:replace"]}
{"id": "C09", "title": "Sum reduction is the mathematical sum for every accumulation scheme", "statement": "The row i of a sum reduction is the sum over j of the formula, and the three accumulation schemes (direct_sum, block_sum, kahan_scheme) give the same result in exact arithmetic for every number of terms, including numbers that are not multiples of the block length and zero.", "quantifier": "all sequences of summands of any length, all schemes", "why_tests_cant": "Block boundaries: the flush happens periodically (the period depends on the number of terms) and at the end; tests use a handful of sizes and compare up to float tolerance.", "anchors": ["keopscore/keopscore/formulas/reductions/Sum_Reduction.py", "keopscore/keopscore/formulas/reductions/sum_schemes.py"]}
{"id": "C10", "title": "Min and Max reductions return the extremum", "statement": "For a non-empty reduction axis min (resp. max) is a lower (resp. upper) bound of the reduced values in each component and is attained by one of them.", "quantifier": "all finite sequences of values, all dimensions", "why_tests_cant": "Quantifies over all sequences.", "anchors": ["keopscore/keopscore/formulas/reductions/Min_Reduction.py", "keopscore/keopscore/formulas/reductions/Max_Reduction.py"]}
{"id": "C11", "title": "Argmin and argmax return the first index that reaches the extremum", "statement": "For a non-empty reduction axis, the index returned by ArgMin/ArgMax/Min_ArgMin/Max_ArgMax in each component is in range, the value at this index equals the extremum and every smaller index has a strictly worse value.", "quantifier": "all finite sequences of values", "why_tests_cant": "Ties and the position of the extremum relative to tile boundaries.", "anchors": ["keopscore/keopscore/formulas/reductions/Min_ArgMin_Reduction_Base.py", "keopscore/keopscore/formulas/reductions/Max_ArgMax_Reduction_Base.py", "keopscore/keopscore/formulas/reductions/ArgMin_Reduction.py", "keopscore/keopscore/formulas/reductions/ArgMax_Reduction.py"]}
{"id": "C12", "title": "KMin returns the K smallest values in increasing order, with their indices", "statement": "For every K and every sequence of N values, the K outputs of KMin/ArgKMin/KMin_ArgKMin are the first K elements of the sequence sorted by value then by index (padded when N<K), each index being the position of the value it accompanies.", "quantifier": "all K, all sequences", "why_tests_cant": "The insertion network acts in place on an interleaved buffer; ties and N<K matter.", "anchors": ["keopscore/keopscore/formulas/reductions/KMin_ArgKMin_Reduction.py", "keopscore/keopscore/formulas/reductions/ArgKMin_Reduction.py", "keopscore/keopscore/formulas/reductions/KMin_Reduction.py"]}
{"id": "C13", "title": "Splitting the reduction axis does not change the result", "statement": "Reducing two consecutive pieces of the reduction axis separately and merging the two accumulators gives the accumulator of the whole axis, for each reduction (sum, min, max, argmin/argmax, KMin, log-sum-exp, softmax-weighted sum).", "quantifier": "all splittings of all sequences", "why_tests_cant": "This is what makes tiled, two-level and block-summed schedules legitimate; the number of splittings is unbounded.", "anchors": ["keopscore/keopscore/formulas/reductions/Reduction.py:ReducePair", "keopscore/keopscore/formulas/reductions/Max_SumShiftExpWeight_Reduction.py", "keopscore/keopscore/formulas/reductions/KMin_ArgKMin_Reduction.py:ReducePair"]}
{"id": "C14", "title": "LogSumExp is exact and stable", "statement": "logsumexp returns log sum_j exp(f_j) (or log sum_j w_j exp(f_j)) in exact arithmetic, and every exponential evaluated on the way has a non-positive argument, so no overflow can occur whatever the magnitude of the inputs.", "quantifier": "all non-empty sequences", "why_tests_cant": "The running maximum can change at any step.", "anchors": ["keopscore/keopscore/formulas/reductions/Max_SumShiftExpWeight_Reduction.py", "pykeops/pykeops/common/operations.py:postprocess"]}
{"id": "C15", "title": "SumSoftMaxWeight is the softmax-weighted average", "statement": "sumsoftmaxweight returns sum_j exp(f_j) w_j / sum_j exp(f_j).", "quantifier": "all non-empty sequences of scores and weights", "why_tests_cant": "Same as C14.", "anchors": ["pykeops/pykeops/common/operations.py:preprocess", "pykeops/pykeops/common/operations.py:postprocess", "keopscore/keopscore/formulas/reductions/Max_SumShiftExpWeight_Reduction.py"]}
{"id": "C16", "title": "The CPU loop computes row i of the output from row i and all rows j", "statement": "With no ranges, output row i is the reduction over all j, in increasing order, of the formula evaluated at rows i of the i-variables, rows j of the j-variables and the parameters; rows of the output are disjoint so that the parallel loop is race free. With axis=0 the roles of i and j are exchanged.", "quantifier": "all sizes, all data, all formulas and all interleavings of rows", "why_tests_cant": "Pointer arithmetic for every size; parallel schedules.", "anchors": ["keopscore/keopscore/mapreduce/cpu/CpuReduc.py", "keopscore/keopscore/utils/code_gen_utils.py:load_vars"]}
{"id": "C17", "title": "Block-sparse reductions sum exactly over the pairs of the mask", "statement": "With a ranges argument, output row i is the reduction over those j that belong to one of the j-intervals attached to the i-cluster of i, each listed interval being visited once and in order.", "quantifier": "all families of ranges, all data", "why_tests_cant": "Index arithmetic over prefix arrays; off-by-one errors only show for particular cluster layouts.", "anchors": ["keopscore/keopscore/mapreduce/cpu/CpuReduc_ranges.py", "keopscore/keopscore/include/Ranges.h", "pykeops/pykeops/numpy/cluster/matrix.py:from_matrix"]}
{"id": "C18", "title": "Batch dimensions broadcast as in NumPy", "statement": "With batch dimensions, the slice of the output of batch index b is the reduction of the slices of the inputs at the broadcast batch index (dimensions of size 1 being repeated).", "quantifier": "any number of batch dimensions of any sizes", "why_tests_cant": "Strided offset computation for arbitrary rank.", "anchors": ["keopscore/keopscore/include/ranges_utils.h:broadcast_index", "keopscore/keopscore/include/Sizes.h", "keopscore/keopscore/mapreduce/cpu/CpuReduc_ranges.py"]}
{"id": "C19", "title": "The tiled GPU schedule equals the sequential one", "statement": "For every block size and number of threads, the GPU 1D kernel computes the same result as the sequential reduction: every (i,j) is visited exactly once, in increasing j for each i, indices passed to arg reductions are global, no read past the end of the arrays.", "quantifier": "all nx, ny, block sizes", "why_tests_cant": "Schedule arithmetic for sizes which are not multiples of the block size.", "anchors": ["keopscore/keopscore/mapreduce/gpu/GpuReduc1D.py", "keopscore/keopscore/binders/nvrtc/keops_nvrtc.cpp"]}
{"id": "C20", "title": "The two-pass GPU schedule equals the sequential one", "statement": "The GPU 2D scheme, where blocks compute partial results that a second kernel merges, returns the same result as the sequential reduction for every grid.", "quantifier": "all nx, ny, block sizes and grids", "why_tests_cant": "Same as C19, plus the layout of the intermediate buffer.", "anchors": ["keopscore/keopscore/mapreduce/gpu/GpuReduc2D.py"]}
{"id": "C21", "title": "Chunked evaluation of high-dimensional formulas is exact", "statement": "Splitting the vector dimension of chunkable formulas (sqdist, scalar products, sums) in chunks of 64 and recombining with the post-chunk formula gives the same value as the unchunked formula, for every dimension.", "quantifier": "all dimensions, all chunkable formulas", "why_tests_cant": "The last chunk has a different size; several chunkable sub-formulas share numbered accumulators.", "anchors": ["keopscore/keopscore/mapreduce/gpu/GpuReduc1D_chunks.py", "keopscore/keopscore/formulas/Chunkable_Op.py", "keopscore/keopscore/utils/code_gen_utils.py:load_vars_chunks", "keopscore/keopscore/mapreduce/Chunk_Mode_Constants.py"]}
{"id": "C22", "title": "Final-chunk mode computes sum_j F_ij b_j exactly", "statement": "For Sum_j F_ij b_j with b of large dimension the chunk-by-chunk schedule writes every component of the output exactly once with the right value.", "quantifier": "all dimensions, sizes and tiles", "why_tests_cant": "Index arithmetic of chunk, tile and row for every size.", "anchors": ["keopscore/keopscore/mapreduce/gpu/GpuReduc1D_finalchunks.py"]}
{"id": "C23", "title": "The GPU block lookup table partitions each range", "statement": "For a block-sparse or batched reduction on the GPU the table of thread blocks covers each i of each range by exactly one thread of exactly one block, never crossing two ranges.", "quantifier": "all ranges and block sizes", "why_tests_cant": "Off-by-one in ceil divisions.", "anchors": ["keopscore/keopscore/binders/nvrtc/keops_nvrtc.cpp:range_preprocess", "keopscore/keopscore/include/Ranges.h"]}
{"id": "C24", "title": "Incompatible array sizes are rejected", "statement": "A call is accepted only if all i-arrays have the same length, all j-arrays have the same length, last dimensions equal the announced dims and batch dimensions are compatible; then the output shape is (broadcast batch, nx or ny, dim).", "quantifier": "all lists of input shapes", "why_tests_cant": "The check is an incremental fold over the arguments from right to left.", "anchors": ["keopscore/keopscore/include/Sizes.h", "pykeops/pykeops/common/utils.py:check_broadcasting", "pykeops/pykeops/common/parse_type.py:get_sizes"]}
{"id": "C25", "title": "Aliases denote the right argument", "statement": "In the generic syntax, the k-th alias binds the k-th tensor of the call with the category and dimension that were written, and variables written inline as Var(pos,dim,cat) are completed so that each tensor position has exactly one declaration.", "quantifier": "all lists of aliases and formulas", "why_tests_cant": "String parsing with regular expressions; unbounded inputs.", "anchors": ["pykeops/pykeops/common/parse_type.py:get_type", "pykeops/pykeops/common/parse_type.py:complete_aliases", "pykeops/pykeops/common/keops_io/LoadKeOps.py"]}
{"id": "C26", "title": "Symbolic tensors keep data and labels together", "statement": "When lazy tensors are combined and reduced, every occurrence of an input tensor in the formula is renamed to the position at which this tensor is passed to the routine; distinct tensors get distinct positions and a tensor used several times is passed once.", "quantifier": "all expression trees over lazy tensors", "why_tests_cant": "Renaming is a sequence of textual substitutions; capture would only show for particular identifiers.", "anchors": ["pykeops/pykeops/common/lazy_tensor.py:fixvariables", "pykeops/pykeops/common/lazy_tensor.py:join"]}
{"id": "C27", "title": "Lazy tensor shape arithmetic follows NumPy broadcasting", "statement": "Binary operations on lazy tensors accept exactly the pairs of shapes NumPy accepts and return the broadcast shape.", "quantifier": "all shapes of all ranks", "why_tests_cant": "Rank and size are unbounded.", "anchors": ["pykeops/pykeops/common/utils.py:check_broadcasting", "pykeops/pykeops/common/lazy_tensor.py:binary"]}
{"id": "C28", "title": "Cluster utilities partition the points", "statement": "After sort_clusters, cluster_ranges gives for every label the half-open interval that contains exactly the points with this label; the intervals are consecutive and cover all points; cluster_centroids are the means over these intervals.", "quantifier": "all label vectors", "why_tests_cant": "Empty clusters and arbitrary label counts.", "anchors": ["pykeops/pykeops/numpy/cluster/utils.py:sort_clusters", "pykeops/pykeops/numpy/cluster/utils.py:cluster_ranges", "pykeops/pykeops/numpy/cluster/utils.py:cluster_ranges_centroids"]}
{"id": "C29", "title": "grid_cluster gives the same label exactly to points in the same voxel", "statement": "Two points get the same label if and only if they fall in the same voxel, labels being consecutive integers starting at 0.", "quantifier": "all point clouds and voxel sizes", "why_tests_cant": "Collisions only appear for clouds that span many voxels.", "anchors": ["pykeops/pykeops/numpy/cluster/grid_cluster.py:grid_cluster", "pykeops/pykeops/torch/cluster/grid_cluster.py:grid_cluster"]}
{"id": "C30", "title": "Conjugate gradient returns a solution of the regularised system", "statement": "ConjugateGradientSolver applied to a symmetric positive definite operator maintains residual = b - A x at each step, stops only when the squared residual is below the threshold, and does stop after at most dim steps in exact arithmetic.", "quantifier": "all SPD operators, all right-hand sides", "why_tests_cant": "An invariant over all iterations and all operators.", "anchors": ["pykeops/pykeops/common/operations.py:ConjugateGradientSolver"]}
{"id": "C31", "title": "A cached compiled routine is only reused for the same computation", "statement": "Two calls that differ in formula, aliases, precision, accumulation type, sum scheme, tag, device class or chunking get different compiled code: the memory cache never returns the routine of another request.", "quantifier": "all histories of requests", "why_tests_cant": "It is a property of key construction over all pairs of requests.", "anchors": ["keopscore/keopscore/utils/Cache.py:Cache", "keopscore/keopscore/utils/Cache.py:Cache_partial", "keopscore/keopscore/get_keops_dll.py", "keopscore/keopscore/utils/misc_utils.py:get_hash_name", "keopscore/keopscore/binders/LinkCompile.py"]}
{"id": "C32", "title": "An interrupted compilation does not poison the build folder", "statement": "If the process is killed at any point while a routine is generated and compiled, a later request for the same routine in a new process still succeeds.", "quantifier": "all crash points and all subsequent histories", "why_tests_cant": "A crash point property: tests never kill the process between two file writes.", "anchors": ["keopscore/keopscore/binders/LinkCompile.py", "keopscore/keopscore/binders/cpp/Cpu_link_compile.py", "keopscore/keopscore/utils/Cache.py:Cache_partial"]}
{"id": "C33", "title": "Generated local variable names never clash", "statement": "All the C variable names generated while the code of one routine is produced are pairwise distinct.", "quantifier": "all formulas", "why_tests_cant": "Names are produced by a global counter shared by all code generators.", "anchors": ["keopscore/keopscore/utils/code_gen_utils.py:new_c_varname"]}
{"id": "C34", "title": "TensorDot computes the requested contraction", "statement": "TensorDot(f,g,dimsf,dimsg,contf,contg,permute) equals numpy.tensordot, with the i-th kept axis moved to the axis permute[i] of the result, for all shapes, and its gradients are its adjoints.", "quantifier": "all tensor shapes and contraction lists", "why_tests_cant": "Unbounded rank; stride arithmetic.", "anchors": ["keopscore/keopscore/formulas/maths/TensorDot.py"]}
{"id": "C35", "title": "Kronecker, tensor and matrix-vector products have the announced layout", "statement": "Kron, TensorProd, MatVecMult, VecMatMult write at every flat position the product prescribed by the row-major layout, and their gradients are their adjoints.", "quantifier": "all dimensions and all data", "why_tests_cant": "Flat index arithmetic for all dimensions.", "anchors": ["keopscore/keopscore/formulas/maths/Kron.py", "keopscore/keopscore/formulas/maths/TensorProd.py", "keopscore/keopscore/formulas/maths/MatVecMult.py", "keopscore/keopscore/formulas/maths/VecMatMult.py"]}
{"id": "C36", "title": "Complex arithmetic on interleaved pairs is correct", "statement": "ComplexAdd, ComplexMult, ComplexDivide, Conj, ComplexAbs, ... on (re,im) interleaved vectors compute the corresponding complex operation, broadcasting complex scalars; vectors that do not hold complex numbers, or do not have matching lengths, are rejected; the gradient with respect to every variable exists and is the transpose of the differential of the real and imaginary parts.", "quantifier": "all formulas of complex operations, all lengths and all vectors of complex numbers", "why_tests_cant": "Layout, signs and gradients for all lengths and all nested formulas.", "anchors": ["keopscore/keopscore/formulas/complex", "keopscore/keopscore/formulas/VectorizedComplexScalarOp.py"]}
{"id": "C37", "title": "Indexing operations and their gradients are consistent", "statement": "Elem, Extract, Concat, OneHot select or place the announced entries, ElemT/ExtractT are their exact adjoints, out-of-range requests are rejected.", "quantifier": "all dimensions and positions", "why_tests_cant": "Boundary positions for all dimensions.", "anchors": ["keopscore/keopscore/formulas/maths/Elem.py", "keopscore/keopscore/formulas/maths/ElemT.py", "keopscore/keopscore/formulas/maths/Extract.py", "keopscore/keopscore/formulas/maths/ExtractT.py", "keopscore/keopscore/formulas/maths/Concat.py", "keopscore/keopscore/formulas/maths/OneHot.py"]}
{"id": "C38", "title": "Half precision packing visits each pair once", "statement": "In half precision two rows are packed in one; unpacking after packing is the identity, and the doubled reduction visits each pair (i,j) exactly once so that the result equals the unpacked reduction.", "quantifier": "all sizes, odd or even, all data", "why_tests_cant": "Parity and padding conditions.", "anchors": ["pykeops/pykeops/torch/half2_convert.py"]}
{"id": "C39", "title": "Multi-output reductions are unpacked in the announced layout", "statement": "The raw output of KMin, ArgKMin, KMin_ArgKMin, Min_ArgMin, Max_ArgMax is reshaped so that entry (k,d) (values, indices) of the user's array is the k-th smallest (value, index) of component d.", "quantifier": "all K, D and sizes", "why_tests_cant": "Layout equality for all sizes.", "anchors": ["pykeops/pykeops/common/operations.py:postprocess", "keopscore/keopscore/formulas/reductions/KMin_ArgKMin_Reduction.py:FinalizeOutput", "keopscore/keopscore/formulas/reductions/Min_ArgMin_Reduction.py"]}
{"id": "C40", "title": "Gradients of broadcast arguments are summed over the broadcast axes", "statement": "In the backward pass the gradient returned for an input has the shape of this input and is the adjoint of the forward map even when the input was broadcast along batch dimensions or is a parameter.", "quantifier": "all shapes and inputs", "why_tests_cant": "Adjointness over all shapes.", "anchors": ["pykeops/pykeops/torch/generic/generic_red.py:GenredAutograd_base._backward"]}
{"id": "C41", "title": "Transposing a lazy tensor exchanges rows and columns", "statement": "K.t() is the lazy tensor whose (j,i) entry is the (i,j) entry of K, t() is an involution, and every later reduction of K.t() equals the reduction of K along the other axis.", "quantifier": "all lazy tensors", "why_tests_cant": "Textual substitutions inside formulas and stale attributes.", "anchors": ["pykeops/pykeops/common/lazy_tensor.py:t"]}
{"id": "C42", "title": "The high-dimension shortcut does not change sums", "statement": "The shortcut that rewrites Sum_j F_ij b_i as (Sum_j F_ij) b_i gives the same result and shape as the direct sum for every batch shape.", "quantifier": "all shapes and data", "why_tests_cant": "Only triggers for dim > 100 and misbehaves for particular ranks.", "anchors": ["pykeops/pykeops/common/lazy_tensor.py:reduction", "keopscore/keopscore/config/chunks.py"]}
{"id": "C43", "title": "Options are validated before use", "statement": "For each dtype and reduction, the accumulation type and sum scheme that are finally used are consistent (accumulator at least as precise as the data, float16 never accumulated in float16 silently when another type is requested, schemes only for sums), and inconsistent requests raise.", "quantifier": "all combinations of options", "why_tests_cant": "Decision table over strings.", "anchors": ["pykeops/pykeops/common/parse_type.py:get_optional_flags", "pykeops/pykeops/common/parse_type.py:parse_dtype_acc"]}
{"id": "C44", "title": "Gradient of a reduction is the reduction of the gradient", "statement": "The gradient formula of Sum, LogSumExp, Min, ArgMin-based and KMin reductions is the adjoint of the derivative of the reduced output with respect to the variable, whatever its category (i, j or parameter).", "quantifier": "all formulas, data and categories", "why_tests_cant": "Universal statement over data.", "anchors": ["keopscore/keopscore/formulas/reductions/Sum_Reduction.py:DiffT", "keopscore/keopscore/formulas/reductions/Max_SumShiftExpWeight_Reduction.py:DiffT", "keopscore/keopscore/formulas/reductions/Min_Reduction.py"]}
{"id": "C45", "title": "B-spline operation evaluates the Cox-de Boor basis", "statement": "BSpline(k,x,n) evaluated at every x equals the Cox-de Boor basis functions of degree n, in single and double precision; the values are non-negative, vanish outside of n+2 consecutive knots, and sum to one inside the base interval.", "quantifier": "all knots, orders and points", "why_tests_cant": "All orders and points.", "anchors": ["keopscore/keopscore/formulas/maths/BSpline.py"]}
{"id": "C46", "title": "Soft-DTW evaluates the announced recursion", "statement": "SoftDTW_SqDist(x,y,gamma) equals the value of the soft-DTW recursion on the matrix of squared differences, which is the smooth minimum of the costs of all alignments of x and y; its gradient operation computes the derivatives of that value.", "quantifier": "all lengths and data", "why_tests_cant": "In-place rolling buffer.", "anchors": ["keopscore/keopscore/formulas/maths/SoftDTW_SqDist.py"]}
{"id": "C47", "title": "Indices returned as floats are exact or rejected", "statement": "Arg reductions store indices in the floating point type of the data; whenever a call is accepted, all indices are exactly representable.", "quantifier": "all sizes and dtypes", "why_tests_cant": "Sizes above 2^24 are never tested.", "anchors": ["pykeops/pykeops/numpy/generic/generic_red.py", "pykeops/pykeops/torch/generic/generic_red.py"]}
{"id": "C48", "title": "Batched transforms keep axes in order", "statement": "vmap over any position of the batch axis gives the same result as looping over this axis.", "quantifier": "all positions and ranks", "why_tests_cant": "All ranks and axes.", "anchors": ["pykeops/pykeops/torch/generic/generic_red.py:vmap"]}
{"id": "C49", "title": "Complex symbolic constants keep all their components", "statement": "A lazy tensor built from a list of complex numbers represents these numbers, component by component.", "quantifier": "all lists of complex numbers", "why_tests_cant": "Lists of length one, the usual test, hide the problem.", "anchors": ["pykeops/pykeops/common/lazy_tensor.py:ComplexGenericLazyTensor"]}
{"id": "C50", "title": "Block masks built from boolean matrices are faithful", "statement": "from_matrix(ranges_i, ranges_j, keep) describes exactly the set of pairs (i,j) whose cluster pair is kept, the transposed half describes the transposed set, and swapping axes twice gives back the original.", "quantifier": "all boolean matrices, all cluster ranges", "why_tests_cant": "Rows without any kept cluster and arbitrary patterns.", "anchors": ["pykeops/pykeops/numpy/cluster/matrix.py:from_matrix", "pykeops/pykeops/numpy/cluster/utils.py:swap_axes"]}
{"id": "C51", "title": "Divergence and Laplacian are traces of differentials", "statement": "Divergence(f,v) evaluates to the sum of the partial derivatives of the components of f with respect to the same components of v, and Laplacian(f,v) to the divergence of the gradient.", "quantifier": "all formulas, variables and points", "why_tests_cant": "Closed forms are only compared on a few formulas.", "anchors": ["keopscore/keopscore/formulas/autodiff/Divergence.py", "keopscore/keopscore/formulas/autodiff/Laplacian.py", "keopscore/keopscore/formulas/LinearOperators/TraceOperator.py"]}
{"id": "C52", "title": "A reduction computes the expression that was written", "statement": "For every expression built from the documented operations, every reduction and every accepted arrays, row i of the result is the reduction over j of the mathematical value of this expression at (x_i, y_j, p): through the simplifications made when the expression is built, optional factorizations, the generated code of the formula, the loading of variables, the summation scheme and the schedule of the CPU or GPU.", "quantifier": "all expressions, reductions, sizes, data, backends, schedules", "why_tests_cant": "The composition of all the layers is only tested on a few kernels.", "anchors": ["keopscore/keopscore/formulas/Operation.py:Operation.__call__", "keopscore/keopscore/mapreduce/MapReduce.py", "keopscore/keopscore/mapreduce/cpu/CpuReduc.py", "keopscore/keopscore/mapreduce/gpu/GpuReduc1D.py", "keopscore/keopscore/utils/code_gen_utils.py:Var_loader"]}
{"id": "C53", "title": "Forward-mode derivatives of reductions", "statement": "The forward mode (jvp) of a sum or log-sum-exp reduction gives, for every direction, the derivative of every entry of the output when the input array moves in this direction.", "quantifier": "all formulas, data, categories of variables and directions", "why_tests_cant": "Universal statement over data and directions; forward mode is hardly tested.", "anchors": ["pykeops/pykeops/torch/generic/generic_red.py:jvp", "keopscore/keopscore/formulas/reductions/Sum_Reduction.py:Diff", "keopscore/keopscore/formulas/reductions/Max_SumShiftExpWeight_Reduction.py:Diff"]}
{"id": "C54", "title": "The memory layout of the arguments does not matter", "statement": "Calls on arrays with the same shapes and entries give the same result, whatever the strides of the arrays (transposed, sliced or broadcast views).", "quantifier": "all shapes, strides and offsets", "why_tests_cant": "Tests use one or two transposed arrays, and only with Genred.", "anchors": ["pykeops/pykeops/torch/generic/generic_red.py:GenredAutograd_base._forward", "pykeops/pykeops/numpy/generic/generic_red.py", "pykeops/pykeops/torch/operations.py:KernelSolveAutograd.forward", "pykeops/pykeops/numpy/operations.py:KernelSolve", "pykeops/pykeops/common/keops_io/LoadKeOps.py:genred"]}
{"id": "C55", "title": "Gradients go through kernel solvers", "statement": "The backward pass of KernelSolve returns, for the right-hand side and for every other variable of the formula, the gradient of the loss composed with the exact solution of the regularised linear system.", "quantifier": "all symmetric systems, formulas, data, losses and directions", "why_tests_cant": "Universal statement over data; tests compare one gradient with a tolerance.", "anchors": ["pykeops/pykeops/torch/operations.py:KernelSolveAutograd.backward"]}
{"id": "C56", "title": "The choice of the GPU kernel does not change the result", "statement": "A reduction computed on the GPU is the reduction of the values of the formula (for a sum, the sum of the values), whichever of the simple, chunked and scalar-times-vector kernels the library selects for this formula and these options, with the default options in particular.", "quantifier": "all formulas, options, sizes, block sizes and schedules", "why_tests_cant": "The choice depends on the form and the dimensions of the formula and on options; tests only see some of the combinations.", "anchors": ["keopscore/keopscore/get_keops_dll.py", "keopscore/keopscore/config/chunks.py", "keopscore/keopscore/mapreduce/gpu/GpuReduc1D_finalchunks.py", "pykeops/pykeops/torch/generic/generic_red.py", "pykeops/pykeops/numpy/generic/generic_red.py"]}
{"id": "C57", "title": "Kernels only use memory that they can address", "statement": "Whatever the backend, the requested device and the places of the arguments, of the ranges and of the output, a call raises an exception or every array is used by a processor that can address it: arrays on the host by the CPU, arrays on a GPU by this GPU. The output is stored with the arguments.", "quantifier": "all backends, devices, machines and places of the arrays", "why_tests_cant": "Test machines have at most one GPU, and tests put all the arrays in one place.", "anchors": ["pykeops/pykeops/common/get_options.py:SetBackend", "pykeops/pykeops/torch/generic/generic_red.py:set_device", "pykeops/pykeops/torch/generic/generic_red.py:GenredAutograd_base._forward", "pykeops/pykeops/numpy/generic/generic_red.py", "keopscore/keopscore/binders/nvrtc/keops_nvrtc.cpp", "keopscore/keopscore/include/Ranges.h"]}
{"id": "C58", "title": "The backend that is asked for is the one that is used", "statement": "Every documented value of the option backend is accepted for arrays that are all in the same place, on a machine that has the hardware it needs, and the computation is done by the kernel it names; other values are rejected.", "quantifier": "all backends, machines, numbers of batch dimensions and ranges", "why_tests_cant": "Tests only use some combinations of backends, ranges and batch dimensions.", "anchors": ["pykeops/pykeops/common/get_options.py:SetBackend", "pykeops/pykeops/common/keops_io/LoadKeOps.py", "keopscore/keopscore/get_keops_dll.py", "keopscore/keopscore/mapreduce/gpu/__init__.py"]}
{"id": "C59", "title": "Transfers between the host and the GPU are exact", "statement": "When the arrays are on the host and the computation is done on the GPU, every argument is copied entirely to a memory of its own, the output is copied back entirely, and no memory outside of the arrays is read or written.", "quantifier": "all numbers, shapes, types and contents of the arrays", "why_tests_cant": "Large arrays do not fit in the memory of test machines, and memory outside of the arrays that is read or written is not observed.", "anchors": ["keopscore/keopscore/include/utils_pe.h:load_args_FromHost", "keopscore/keopscore/binders/nvrtc/keops_nvrtc.cpp:launch_kernel"]}
{"id": "C60", "title": "Operators and methods of lazy tensors compute the functions they are named after", "statement": "Take any program that combines lazy tensors, numbers, lists and arrays with the operators and the methods of the documentation. The formula that is evaluated for it has the announced dimension, and at every row i and column j its value is the one obtained by applying the named functions to the rows i and j of the arrays; hence sum, argmin and other reductions of the program reduce these values.", "quantifier": "all programs, dimensions, numbers of rows, contents of arrays, rows and columns", "why_tests_cant": "Tests call each method on a few arrays; the formula goes through a text that is built, renumbered and read again, and simplified in between, and the combinations of operators are unbounded.", "anchors": ["pykeops/pykeops/common/lazy_tensor.py:GenericLazyTensor", "keopscore/keopscore/formulas/GetReduction.py:GetReduction", "keopscore/keopscore/formulas/Operation.py:Operation"]}
{"id": "C61", "title": "A call of a reduction uses the options asked for, and no others", "statement": "A reduction of a lazy tensor, or a solver, made with call=False can be called many times. Each call uses the options given to it, then those given when the reduction was made, then the attributes ranges and backend of the object; options of other calls have no effect. Options given to sum(...) are used by the reduction that is computed.", "quantifier": "all reductions and solvers, all options, all histories of calls and of changes of the attributes", "why_tests_cant": "Tests make a reduction and call it once; an option that leaks into later calls shows only with a particular history.", "anchors": ["pykeops/pykeops/common/lazy_tensor.py:GenericLazyTensor.__call__", "pykeops/pykeops/common/lazy_tensor.py:GenericLazyTensor.reduction", "pykeops/pykeops/common/lazy_tensor.py:GenericLazyTensor.separate_kwargs"]}
{"id": "C62", "title": "Reductions of lazy tensors compute the functions they are named after", "statement": "For any program that makes a lazy tensor, the methods sum, min, max, argmin, argmax, min_argmin, max_argmax, Kmin, argKmin, Kmin_argKmin, logsumexp (with or without weights) and sumsoftmaxweight along the axis of the rows or of the columns return the sum, least values, first positions of the least values, sorted lists of the K least values and positions, log-sum-exp and softmax-weighted sums of the values of the program, with the announced shape; and K @ v is the product of the matrix K and of the array v.", "quantifier": "all programs, weights, axes, numbers K, sizes, contents of arrays, ranges, summation schemes and executions of the kernels", "why_tests_cant": "Tests compare a few reductions of a few formulas with a dense computation; ties, shapes, schemes and combinations with weights and ranges are unbounded.", "anchors": ["pykeops/pykeops/common/lazy_tensor.py:GenericLazyTensor", "pykeops/pykeops/common/operations.py:preprocess", "pykeops/pykeops/common/operations.py:postprocess", "keopscore/keopscore/formulas/GetReduction.py:GetReduction", "keopscore/keopscore/formulas/reductions/Max_SumShiftExpWeight_Reduction.py"]}
{"id": "C63", "title": "The backward pass returns the derivative of the loss with respect to the arguments", "statement": "Call a routine on arrays, and take any loss that depends on its output. The array that backward() returns for an argument has the shape of this argument, and is the derivative of the loss with respect to it: moving the argument in a direction changes the outputs of the call, and the loss, at the rate given by the scalar product of the returned array and of the direction.", "quantifier": "all formulas, arguments (indexed by i, by j, or parameters), sizes, contents of arrays, gradients of the loss, summation schemes and executions of the forward and backward kernels", "why_tests_cant": "Gradient checks compare a few entries with finite differences; the backward pass makes a new formula, which is simplified, compiled and run with two more arguments, so that errors depend on the formula, the category of the argument and the sizes.", "anchors": ["pykeops/pykeops/torch/generic/generic_red.py:GenredAutograd_base._backward", "keopscore/keopscore/formulas/reductions/Sum_Reduction.py:Sum_Reduction.DiffT", "keopscore/keopscore/formulas/reductions/Max_SumShiftExpWeight_Reduction.py:Max_SumShiftExpWeight_Reduction.DiffT", "pykeops/pykeops/common/operations.py:postprocess", "keopscore/keopscore/formulas/autodiff/Grad_WithSavedForward.py"]}
{"id": "C64", "title": "Reductions of a formula that is identically zero are arrays of zeros", "statement": "When the formula of a sum is, or simplifies to, the constant zero (as for a gradient with respect to an argument on which the output does not depend), the library does not run the general routine. The call still returns an array of the shape announced by the formula and the arguments, whose entries are all 0, as the general routine would; for gradients, this is the derivative of the loss.", "quantifier": "all formulas, shapes of arguments, batch dimensions, backends, block sizes and schedules", "why_tests_cant": "The output is not initialised: rows that are not written contain what the memory contained before, which is often 0 in tests; and the special routine is reached only by formulas that simplify to zero.", "anchors": ["keopscore/keopscore/get_keops_dll.py:get_keops_dll_impl", "pykeops/pykeops/common/keops_io/LoadKeOps.py:LoadKeOps.genred", "keopscore/keopscore/mapreduce/cpu/CpuAssignZero.py", "keopscore/keopscore/mapreduce/gpu/GpuAssignZero.py", "keopscore/keopscore/formulas/reductions/Zero_Reduction.py", "keopscore/keopscore/include/Sizes.h"]}
{"id": "C65", "title": "Routines do not depend on what happens to the list of aliases they were made from", "statement": "A routine Genred(formula, aliases) behaves as its formula and the content of the list when it was made say, for every later call: other routines made from the same list, or changes of the list, have no effect on it. Making a routine does not change the list. Aliases for particular reductions (generic_sum, generic_logsumexp, generic_argkmin, generic_argmin) make the routine whose output has the declared category.", "quantifier": "all histories of creation and change of lists, and of creation and calls of routines; all formulas and aliases", "why_tests_cant": "Tests make a routine from a literal list and call it at once; the effect of shared lists depends on the order of the creations and on variables that a formula declares itself.", "anchors": ["pykeops/pykeops/numpy/generic/generic_red.py:Genred.__init__", "pykeops/pykeops/torch/generic/generic_red.py:Genred.__init__", "pykeops/pykeops/common/parse_type.py:complete_aliases", "pykeops/pykeops/numpy/generic/generic_ops.py", "pykeops/pykeops/torch/generic/generic_ops.py"]}
{"id": "C66", "title": "Forward-mode derivatives are the derivatives of the outputs when all the arguments move", "statement": "Give tangents to some of the arguments of a call (torch.func.jvp, forward-mode automatic differentiation). The array that is returned with the output is its derivative: every entry is the rate of change of the entry of the output when all these arguments move at once in the directions of their tangents, the others being fixed.", "quantifier": "all formulas, sets of arguments with tangents, tangents, sizes, contents of arrays, summation schemes and executions of all the kernels", "why_tests_cant": "The derivative is the sum of one computation for each argument, made with new formulas; tests check a few entries for one or two formulas, with the arguments in the usual order.", "anchors": ["pykeops/pykeops/torch/generic/generic_red.py:GenredAutograd.jvp", "keopscore/keopscore/formulas/autodiff/Diff.py", "keopscore/keopscore/formulas/autodiff/Diff_WithSavedForward.py", "keopscore/keopscore/formulas/reductions/Sum_Reduction.py:Sum_Reduction.Diff", "keopscore/keopscore/formulas/reductions/Max_SumShiftExpWeight_Reduction.py"]}
{"id": "C67", "title": "Processes can share a build folder at the same time", "statement": "Several processes of one user (as in distributed training) use the same build folder. Whatever the way their steps alternate, each of them gets the routine that it asks for; and when they have ended, the folder is usable by the next process.", "quantifier": "all numbers of processes, all alternations of their steps, all states of the folder at the start", "why_tests_cant": "A race shows only for particular alternations of a few file operations; tests run one process at a time, on folders that are already filled.", "anchors": ["keopscore/keopscore/binders/LinkCompile.py:LinkCompile.get_dll_and_params", "keopscore/keopscore/utils/Cache.py", "pykeops/pykeops/common/keops_io/LoadKeOps_cpp.py:LoadKeOps_cpp_class.init_phase1", "keopscore/keopscore/binders/nvrtc/Gpu_link_compile.py:Gpu_link_compile.generate_code"]}
{"id": "C68", "title": "Operators of complex lazy tensors compute the complex functions they are named after", "statement": "Programs that combine real and complex lazy tensors and numbers with the operators + - * / and the methods (real, imag, abs, angle, conj, exp, exp1j, real2complex, imag2complex, sum, square, cos, sin) are accepted when the lengths are equal or 1; their results have the announced type, real or complex, and are the values of these functions on complex numbers; and the sum of a complex tensor along an axis of rows is the complex array of the sums.", "quantifier": "all programs, lengths, numbers, contents of arrays, axes, summation schemes and executions of the kernels", "why_tests_cant": "Tests try a few operators on tensors of one type; what is computed depends on the types of the two operands, on the number of columns (1 is special for real tensors, 2 for complex ones) and on the value of numbers.", "anchors": ["pykeops/pykeops/common/lazy_tensor.py:ComplexGenericLazyTensor", "pykeops/pykeops/common/lazy_tensor.py:GenericLazyTensor", "pykeops/pykeops/numpy/utils.py", "pykeops/pykeops/torch/utils.py", "keopscore/keopscore/formulas/complex"]}
{"id": "C69", "title": "Solving a linear system written with a lazy tensor gives a solution of this system", "statement": "For a lazy tensor K and vectors b, K.solve(b, alpha, eps) returns vectors a such that sum_j K(i,j) a_j + alpha a_i is b_i up to a mean square error of eps squared, and it returns if K is symmetric and non-negative, alpha is positive and eps is not 0. The unknown takes the place of b among the arguments of the routine, whichever way it is named, and symbolic variables can be given when the solver is called.", "quantifier": "all programs that make K, sizes, contents of arrays, axes, alpha, eps, summation schemes and executions of the kernels; all lists of aliases", "why_tests_cant": "The result depends on labels that are computed from the text of the formula and on an iteration without bound; tests compare one Gaussian kernel with a dense solver, at one size.", "anchors": ["pykeops/pykeops/common/lazy_tensor.py:GenericLazyTensor.solve", "pykeops/pykeops/common/lazy_tensor.py:GenericLazyTensor.__call__", "pykeops/pykeops/common/lazy_tensor.py:GenericLazyTensor.fixvariables", "pykeops/pykeops/numpy/operations.py:KernelSolve", "pykeops/pykeops/torch/operations.py:KernelSolve", "pykeops/pykeops/common/operations.py:ConjugateGradientSolver"]}
{"id": "C70", "title": "Batch dimensions of lazy tensors are independent problems", "statement": "If the arrays of a lazy tensor have batch dimensions, a reduction along the rows or the columns returns an array whose first dimensions are the batch dimensions, broadcast as in NumPy, and whose block at each batch index is the reduction of the same program applied to the blocks of its arrays at this index.", "quantifier": "all programs, weights, reductions, axes, numbers and sizes of batch dimensions, contents of arrays, executions of the kernels", "why_tests_cant": "The block that is read depends on the batch dimensions of all the arrays, on padding with ones and on offsets computed by the kernels; tests use one or two batch shapes, and never a variable that the simplification of the formula removes.", "anchors": ["pykeops/pykeops/common/lazy_tensor.py:GenericLazyTensor.reduction", "pykeops/pykeops/common/lazy_tensor.py:GenericLazyTensor.fixvariables", "pykeops/pykeops/common/keops_io/LoadKeOps.py:LoadKeOps_class.genred", "keopscore/keopscore/binders/nvrtc/keops_nvrtc.cpp", "keopscore/keopscore/mapreduce/cpu/CpuReduc_ranges.py"]}
{"id": "C71", "title": "Formulas on arrays of doubles are computed in double precision", "statement": "On arrays of type float64, every operation of a formula and every constant is computed in double precision: if the operations on doubles are exact then the result is the value of the formula, and operations on numbers of single precision have no influence on it.", "quantifier": "all formulas, constants, values of the arrays, behaviours of the floating point operations of each type, on the CPU and on the GPU", "why_tests_cant": "The loss is a relative error of 1e-8, below the tolerances of the tests, which use arrays of single precision; it depends on the type that C++ gives to each literal and each function of the code.", "anchors": ["keopscore/keopscore/formulas/variables/RatCst.py", "keopscore/keopscore/formulas/variables/IntCst.py", "keopscore/keopscore/formulas/maths/Divide.py", "keopscore/keopscore/utils/math_functions.py", "keopscore/keopscore/utils/code_gen_utils.py:cast_to"]}
{"id": "C72", "title": "Every accepted combination of reduction, accuracy options and backend gives a routine", "statement": "If the library accepts a reduction with the options dtype_acc, use_double_acc and sum_scheme for arrays of some type, then on every backend, with or without ranges and chunks, the routine can be made: the generator of its code raises no exception and the code has no error of type.", "quantifier": "all reductions, options, types of arrays, backends, kinds of kernels, dimensions of the formula", "why_tests_cant": "The combinations are many and each needs a compilation, most of them on a GPU; tests use the default options on the default backend.", "anchors": ["keopscore/keopscore/formulas/reductions/sum_schemes.py", "keopscore/keopscore/formulas/reductions/Sum_Reduction.py", "keopscore/keopscore/formulas/reductions/Max_SumShiftExpWeight_Reduction.py", "keopscore/keopscore/mapreduce/gpu/GpuReduc2D.py", "keopscore/keopscore/utils/code_gen_utils.py:c_variable", "pykeops/pykeops/common/parse_type.py:get_optional_flags"]}
{"id": "C73", "title": "The rounding errors of a sum are bounded, and smaller with the accuracy options", "statement": "For a sum of n values of the formula with additions rounded with relative error u, the result differs from the exact sum of the computed values by at most ((1+u)^n - 1) times the sum of their absolute values, on every backend and for every schedule, with or without ranges and batch dimensions; with sum_scheme=\"kahan_scheme\" by at most 8u times this sum, up to a term of second order; with use_double_acc=True by at most the error of a sum in double precision followed by one conversion. Sums of integers are exact as long as the sum of their absolute values is representable.", "quantifier": "all terms, numbers of terms, roundings, summation schemes, schedules, ranges and batches", "why_tests_cant": "The worst case over all inputs and schedules cannot be sampled, and tests compare with tolerances on small random data.", "anchors": ["keopscore/keopscore/formulas/reductions/sum_schemes.py", "keopscore/keopscore/formulas/reductions/Sum_Reduction.py", "keopscore/keopscore/mapreduce/cpu/CpuReduc.py", "keopscore/keopscore/mapreduce/cpu/CpuReduc_ranges.py", "keopscore/keopscore/mapreduce/gpu/GpuReduc1D.py", "pykeops/pykeops/torch/generic/generic_red.py:Genred"]}
{"id": "C74", "title": "The numbers of the arguments and the names i and j do not matter", "statement": "If the user renumbers the arguments of a formula, or exchanges the roles of i and j, without confusing two variables, the formula is accepted if and only if it was (with the same exception otherwise), the same simplifications are made, and the values are the same once the arguments are passed in the new order; the gradients are the renumbered gradients.", "quantifier": "all formulas, injective renumberings, variables, incoming gradients and data", "why_tests_cant": "Tests use a few fixed numberings; a simplification or a rule that compares, sorts or generates numbers of variables could depend on them for some formulas only.", "anchors": ["keopscore/keopscore/formulas/Operation.py", "keopscore/keopscore/formulas/variables/Var.py", "keopscore/keopscore/formulas/maths/Add.py", "keopscore/keopscore/formulas/maths/Mult.py", "keopscore/keopscore/formulas/autodiff/Grad.py", "keopscore/keopscore/formulas/GetReduction.py"]}
{"id": "C75", "title": "GradMatrix computes the matrix of the derivative", "statement": "GradMatrix(f,v) has dimension dim(f)*dim(v), and its entry (k,l) in row-major order is the partial derivative of the k-th component of f with respect to the l-th component of v, for all numbers of variables; the lazy tensor methods grad_matrix and trace_operator give this operation and the trace for the variables of the user.", "quantifier": "all smooth formulas, variables and data; all lazy tensors for the methods", "why_tests_cant": "The temporary variable that the operation creates may collide with variables of the user for particular numberings; the order of the entries must hold for all dimensions.", "anchors": ["keopscore/keopscore/formulas/maths/GradMatrix.py", "pykeops/pykeops/common/lazy_tensor.py:grad_matrix", "pykeops/pykeops/common/lazy_tensor.py:trace_operator"]}
{"id": "C76", "title": "GPU calls are launched within the limits of their device and compute every row", "statement": "Whatever routines a process has created before and on whatever GPUs, each call of a routine uses blocks and grids within the limits of the device it runs on, so that the call does not fail, and every row of the result is computed by some thread.", "quantifier": "all machines and limits of devices, histories of creations and calls, kinds of kernels, dimensions, types, numbers of points", "why_tests_cant": "The limits depend on the hardware and on the history of the process; the failures need several GPUs with different limits, large dimensions or billions of rows.", "anchors": ["keopscore/keopscore/binders/nvrtc/keops_nvrtc.cpp:launch_kernel", "keopscore/keopscore/include/CudaSizes.h:SetGpuProps", "keopscore/keopscore/mapreduce/gpu/GpuReduc1D.py", "keopscore/keopscore/mapreduce/gpu/GpuReduc2D.py", "keopscore/keopscore/config/cuda.py"]}
{"id": "C77", "title": "GPU routines are made for the devices they run on", "statement": "On a GPU that the process sees, a request of a routine succeeds and gives code compiled for the architecture of this GPU and created with its limits, whatever was done before with the same folders: other processes that saw other GPUs (CUDA_VISIBLE_DEVICES), changes of the build folder, cleanings.", "quantifier": "all machines, environments of processes, histories of requests, changes of folder, cleanings and restarts", "why_tests_cant": "Needs several GPUs of different kinds, several processes and the files left by the previous ones; tests run on one machine with one environment and often with an empty cache.", "anchors": ["keopscore/keopscore/binders/nvrtc/Gpu_link_compile.py", "keopscore/keopscore/binders/LinkCompile.py:get_dll_and_params", "keopscore/keopscore/config/base_config.py:set_different_build_folder", "keopscore/keopscore/config/cuda.py:set_specific_gpus", "pykeops/pykeops/__init__.py", "pykeops/pykeops/common/keops_io/LoadKeOps_nvrtc.py"]}
{"id": "C78", "title": "Contractions of lazy tensors announce the dimension of their result", "statement": "x.keops_tensordot(y, ...) and x.keops_kron(y, ...) return a lazy tensor whose formula is the contraction asked for with exactly the shapes, axes and permutation that were given, and whose announced dimension is the number of entries of its value; operands and arguments that make no sense are refused.", "quantifier": "all operands, shapes, contracted axes and permutations", "why_tests_cant": "Shapes, axes and permutations of any rank; tests use a few contractions.", "anchors": ["pykeops/pykeops/common/lazy_tensor.py:keops_tensordot", "pykeops/pykeops/common/lazy_tensor.py:keops_kron", "keopscore/keopscore/formulas/maths/TensorDot.py", "keopscore/keopscore/formulas/maths/Kron.py"]}
{"id": "C79", "title": "Formulas written with operators mean what the operators mean", "statement": "In a formula written as a text, +, -, *, /, |, **, <, >, <=, >=, == and != between formulas and integers, in any order, have the element-wise meaning given by the documentation: if the formula is accepted, the dimension and the value of what is computed are those of the expression, and comparisons are 1 where they hold and 0 elsewhere.", "quantifier": "all formulas built from integers, variables, operators and operations, and all arrays", "why_tests_cant": "Expressions of any depth, mixing integers and formulas on both sides of every operator; tests use a few formulas.", "anchors": ["keopscore/keopscore/formulas/Operation.py:Operation", "keopscore/keopscore/formulas/Operation.py:int2Op", "keopscore/keopscore/formulas/GetReduction.py:GetReduction", "doc/api/math-operations.rst"]}
{"id": "C80", "title": "The preconditioned solver returns a solution", "statement": "KernelLinearSolver(binding, K, x, b, alpha, eps, precond=True, ...) returns, for every right-hand side b, and what it returns is a vector a such that the norm of b - (K + alpha) a is below eps.", "quantifier": "all kernels, points, right-hand sides, ridges and tolerances", "why_tests_cant": "The loop has no bound on its iterations; whether it stops, and on what, depends on exact zeros that tests with random data never meet.", "anchors": ["pykeops/pykeops/common/operations.py:KernelLinearSolver"]}
{"id": "C81", "title": "A formula whose dimensions are compatible is accepted", "statement": "A formula whose operations are given vectors of the dimensions that the documentation asks for, and that is defined for some values of its variables, is accepted: no rule of simplification raises an exception, and the result has the dimension and the value of the formula.", "quantifier": "all formulas, of any size, built from the operations of the documentation", "why_tests_cant": "The rules of simplification call each other and look at the shape of their arguments; an exception may come from the combination of two rules deep in a formula that no test writes.", "anchors": ["keopscore/keopscore/formulas/maths/Add.py:Add", "keopscore/keopscore/formulas/maths/Subtract.py:Subtract", "keopscore/keopscore/formulas/maths/Mult.py:Mult", "keopscore/keopscore/formulas/maths/Divide.py:Divide", "keopscore/keopscore/formulas/Operation.py:Broadcast"]}
{"id": "C82", "title": "A formula whose dimensions are not compatible is rejected", "statement": "A formula in which some operation is given vectors of dimensions that the documentation does not allow raises an exception when it is built: it is never computed, and no rule of simplification hides the mistake.", "quantifier": "all formulas, of any size, built from the operations of the documentation", "why_tests_cant": "The rules of simplification rewrite the formula before the dimensions are compared, so a mistake may be hidden only for particular combinations of operations, deep in a formula.", "anchors": ["keopscore/keopscore/formulas/maths/Add.py:Add", "keopscore/keopscore/formulas/maths/Mult.py:Mult", "keopscore/keopscore/formulas/maths/WeightedSqNorm.py:WeightedSqNorm", "keopscore/keopscore/formulas/Operation.py:Broadcast", "keopscore/keopscore/formulas/VectorizedScalarOp.py:VectorizedScalarOp"]}
{"id": "C83", "title": "matvec and rmatvec of a lazy tensor are products with one matrix and its transpose", "statement": "For a lazy tensor K of numbers with M rows and N columns, with or without a block-sparsity pattern, K.matvec(v) is the product of v with the matrix of the entries of K, and K.rmatvec(w) is the product of w with the transpose of the same matrix: the inner product of w and K.matvec(v) is that of K.rmatvec(w) and v. This is what the iterative solvers of SciPy suppose when K is given to aslinearoperator.", "quantifier": "all lazy tensors of numbers, all vectors v of size N and w of size M (or arrays with several columns), all block-sparsity patterns made by from_matrix, all executions of the kernels", "why_tests_cant": "The two products run different routines, with exchanged categories and ranges; tests compare a few kernels, mostly symmetric ones, for which an error in the transposition cannot be seen.", "anchors": ["pykeops/pykeops/common/lazy_tensor.py:LazyTensor.matvec", "pykeops/pykeops/common/lazy_tensor.py:LazyTensor.rmatvec", "pykeops/pykeops/common/lazy_tensor.py:LazyTensor.t", "pykeops/pykeops/common/lazy_tensor.py:LazyTensor.__matmul__", "pykeops/pykeops/numpy/cluster/utils.py:swap_axes"]}
{"id": "C84", "title": "products with arrays of the wrong size are refused", "statement": "For a lazy tensor K with M rows and N columns, K @ v (and K.matvec(v)) raises an error when v does not have N rows, and K.rmatvec(w) raises an error when w does not have M rows: no output is computed from a vector of the wrong length.", "quantifier": "all lazy tensors K of numbers, made by any program of the Python interface, all sizes M and N, all arrays v, with or without batch dimensions", "why_tests_cant": "Tests use vectors of the right length; the sizes are checked far from the product, by the broadcasting rules of the element-wise product, for each way of building K.", "anchors": ["pykeops/pykeops/common/lazy_tensor.py:LazyTensor.__matmul__", "pykeops/pykeops/common/lazy_tensor.py:LazyTensor.matvec", "pykeops/pykeops/common/lazy_tensor.py:LazyTensor.rmatvec", "pykeops/pykeops/common/lazy_tensor.py:LazyTensor.promote"]}
{"id": "C85", "title": "the build folder can be changed at any time", "statement": "After set_build_folder(path), in the same process and in all later processes, reductions on the CPU can still be computed: the routine of a formula is obtained, whatever the folders used before, and even if folders that are no longer used are deleted.", "quantifier": "all histories of requests, changes of the build folder, cleanings, deletions of folders, ends and deaths of processes", "why_tests_cant": "The errors come from dictionaries saved by an earlier process in another folder; tests run in one process, with one folder.", "anchors": ["pykeops/pykeops/__init__.py:set_build_folder", "pykeops/pykeops/__init__.py:clean_pykeops", "keopscore/keopscore/config/base_config.py:Config.set_different_build_folder", "keopscore/keopscore/utils/Cache.py:Cache.reset", "keopscore/keopscore/utils/Cache.py:Cache_partial.reset", "pykeops/pykeops/common/keops_io/LoadKeOps_cpp.py:LoadKeOps_cpp_class.init_phase1", "keopscore/keopscore/binders/LinkCompile.py:LinkCompile"]}
