{"id": "C01", "title": "split partitions the work exactly and evenly", "statement": "split(n, m) yields exactly m slices which are consecutive, start at 0, end at n, never overlap and leave no gap; the slice lengths differ by at most one and the longer slices come first; split(n, m, rank) returns exactly the rank-th of those slices.", "quantifier": "all n >= 0, all m >= 1, all ranks 0 <= rank < m", "why_tests_cant": "The two code paths (rank formula and accumulating generator) must agree for every n, m, rank; tests sample a few pairs.", "anchors": ["src/pyoperators/utils/misc.py:split"]}
{"id": "C02", "title": "distribute_shape and combine_shape are mutually inverse", "statement": "For every global shape and number of processes, the local shapes returned to the ranks agree on every dimension but the first, their first dimensions add up to the global one, and combining them gives back the global shape; the slice given to a rank has exactly the length of its local shape and the slices tile the global first dimension.", "quantifier": "all global shapes of at least one dimension, all communicator sizes >= 1, all ranks", "why_tests_cant": "Communicator sizes and shapes are unbounded and CI runs a handful of MPI sizes.", "anchors": ["src/pyoperators/utils/mpi.py:distribute_shape", "src/pyoperators/utils/mpi.py:combine_shape", "src/pyoperators/utils/mpi.py:distribute_slice", "src/pyoperators/utils/mpi.py:distribute_shapes"]}
{"id": "C03", "title": "MPI distribution operators: partial isometry, transpose and adjoint", "statement": "Applying the distribution operator of a global array on every rank and gathering the local parts with its transpose gives the global array back on every rank, and its transpose is its adjoint with respect to the sum over ranks of the local inner products. The transpose of the identity distribution operator, which gives a copy to every rank, is the sum over the ranks and is its adjoint too.", "quantifier": "all global arrays, all communicator sizes, all ranks", "why_tests_cant": "Needs all process counts including more processes than rows; counts and offsets must match for each one.", "anchors": ["src/pyoperators/operators_mpi.py:MPIDistributionGlobalOperator", "src/pyoperators/operators_mpi.py:MPIDistributionIdentityOperator"]}
{"id": "C04", "title": "empty returns aligned memory inside its allocation", "statement": "An array returned by empty starts at an address that is a multiple of the configured alignment, and all its bytes lie inside the underlying allocation, whatever the address handed out by the allocator.", "quantifier": "all sizes, all alignments >= 1, all base addresses", "why_tests_cant": "The base address is chosen by the allocator; a test sees only a few of them and never the worst-case residue.", "anchors": ["src/pyoperators/memory.py:empty"]}
{"id": "C05", "title": "memory pool stays sorted with one entry per start address", "statement": "After any sequence of additions, extractions, removals, clears and context-manager entries and exits, including the ones that fail, the pool never holds two entries with the same start address and its entries are ordered by increasing size; a failed operation leaves the pool unchanged.", "quantifier": "all histories of pool operations", "why_tests_cant": "The invariant ranges over unbounded interleavings of nested contexts.", "anchors": ["src/pyoperators/memory.py:MemoryPool.add", "src/pyoperators/memory.py:MemoryPool.extract", "src/pyoperators/memory.py:MemoryPool.remove", "src/pyoperators/memory.py:MemoryPool.get", "src/pyoperators/memory.py:MemoryPool.set"]}
{"id": "C06", "title": "an extracted buffer satisfies the request and is no longer in the pool", "statement": "A buffer taken out of the pool for a given shape, dtype, alignment and contiguity has at least the requested number of bytes, is aligned and contiguous if requested, wastes no more than the tolerance, can always be viewed with the requested shape and dtype, and cannot be handed out again before it is put back; if no entry fits, a fresh one is returned and the pool is unchanged.", "quantifier": "all pool contents, all requests", "why_tests_cant": "All sizes, strides and alignments of the pool entries have to be considered together.", "anchors": ["src/pyoperators/memory.py:MemoryPool.extract", "src/pyoperators/memory.py:iscompatible", "src/pyoperators/memory.py:MemoryPool.view"]}
{"id": "C07", "title": "the user's output array never stays in the pool after a call", "statement": "Whatever happens during the application of an operator to user arrays (including an exception raised by the operator), once the call has returned or raised, the pool does not contain the arrays given by the user.", "quantifier": "all operators, all outcomes of the computation (normal return or exception at any point)", "why_tests_cant": "Requires every exception point in arbitrary user code.", "anchors": ["src/pyoperators/core.py:Operator.__call__", "src/pyoperators/memory.py:MemoryPool.set", "src/pyoperators/memory.py:MemoryPool.set_if"]}
{"id": "C08", "title": "copy_if provides an array meeting the alignment and contiguity requirements", "statement": "Inside a copy_if context the yielded array satisfies the alignment and contiguity that were asked for and holds the values of the original array, and on a normal exit the original array holds whatever values were left in the yielded array.", "quantifier": "all input arrays, all requirement combinations, all pool contents", "why_tests_cant": "Depends on every possible content of the global pool at the time of the call.", "anchors": ["src/pyoperators/memory.py:MemoryPool.copy_if"]}
{"id": "C09", "title": "simplification triggers are restored on leaving a rule_manager context", "statement": "On leaving a rule_manager context, normally or through an exception, all the simplification triggers have the values they had when that context was entered, for any nesting of contexts, including re-entering the same manager object.", "quantifier": "all nestings and histories of contexts and trigger assignments", "why_tests_cant": "Histories of nested contexts are unbounded.", "anchors": ["src/pyoperators/rules.py:RuleManager.__enter__", "src/pyoperators/rules.py:RuleManager.__exit__", "src/pyoperators/rules.py:RuleManager.__call__"]}
{"id": "C10", "title": "flags deduced from the declared ones are mathematically implied", "statement": "Whenever the flags declared by the user are true of the matrix of the operator, all the flags deduced by the library at construction (hermitian, symmetric, orthogonal, unitary, idempotent, involutary, real, linear) are true of this matrix as well.", "quantifier": "all matrices over all sizes, all combinations of declared flags", "why_tests_cant": "The semantics is about all matrices; tests look at the flag values only.", "anchors": ["src/pyoperators/core.py:Operator._init_flags", "src/pyoperators/core.py:Operator._set_flags"]}
{"id": "C11", "title": "conjugate, transpose, adjoint and inverse of an operator form a consistent group", "statement": "For every operator the attributes C, T, H and I satisfy A.C.C = A.T.T = A.H.H = A.I.I = A, A.C.T = A.T.C = A.H, A.I.C = A.C.I, A.I.T = A.T.I, A.I.H = A.H.I as the very same objects.", "quantifier": "all combinations of the flags and of the user-supplied methods and rules", "why_tests_cant": "The number of combinations of flags, rules and methods is large and the attributes are set by pointer assignments that can overwrite each other.", "anchors": ["src/pyoperators/core.py:Operator._generate_associated_operators"]}
{"id": "C12", "title": "flags of a composition are sound", "statement": "If each operand satisfies its flags (linear, real, square, orthogonal, unitary ...), then the composition of the operands satisfies all the flags the library gives to it.", "quantifier": "all lists of operands (matrices of all sizes) and all flag combinations", "why_tests_cant": "Unbounded number of operands and all matrices.", "anchors": ["src/pyoperators/core.py:CompositionOperator._merge_flags"]}
{"id": "C13", "title": "flags of a sum are sound", "statement": "If each operand satisfies its flags, then the sum of the operands satisfies all the flags the library gives to it (linear, real, square, symmetric, hermitian ...).", "quantifier": "all lists of operands and all flag combinations", "why_tests_cant": "Unbounded number of operands and all matrices.", "anchors": ["src/pyoperators/core.py:AdditionOperator._merge_flags"]}
{"id": "C14", "title": "simplifying a composition preserves its value and terminates", "statement": "When every simplification rule in force maps a pair of adjacent operands to operands with the same composite effect, the composition obtained after simplification has the same effect on every input as the composition that was written, and the simplification loop ends whenever each rule reduces the number of operands.", "quantifier": "all operand lists, all sound rule sets, all inputs", "why_tests_cant": "All operand sequences and all rule tables.", "anchors": ["src/pyoperators/core.py:NonCommutativeCompositeOperator._apply_rules"]}
{"id": "C15", "title": "simplifying a sum preserves its value", "statement": "When every simplification rule in force replaces two operands by an operator equal to their sum, the sum obtained after simplification has the same effect on every input as the sum that was written, whatever the order of the operands.", "quantifier": "all operand lists, all sound rule sets, all inputs", "why_tests_cant": "All operand multisets and all rule tables.", "anchors": ["src/pyoperators/core.py:CommutativeCompositeOperator._apply_rules"]}
{"id": "C16", "title": "moving scalars through a composition preserves the product", "statement": "Collecting the scalar multiplications of a composition across its linear operands yields a composition with the same effect on every input; scalars are never moved across a non-linear operand and complex scalars never across an operand that is not complex-linear.", "quantifier": "all operand lists mixing scalars, linear and non-linear operands", "why_tests_cant": "Unbounded operand lists.", "anchors": ["src/pyoperators/core.py:CompositionOperator._apply_rule_homothety", "src/pyoperators/core.py:CompositionOperator._apply_rule_homothety_linear"]}
{"id": "C17", "title": "the buffers of a composition compute the composition", "statement": "Applying a composition to an input writes into the output the result of applying the operands successively from right to left, for any mix of operands able or not to work in place, and leaves the input unchanged when input and output are different arrays.", "quantifier": "all lists of operands with all in-place / out-of-place capability patterns, in-place and out-of-place calls", "why_tests_cant": "The number of buffer schedules grows exponentially with the number of operands.", "anchors": ["src/pyoperators/core.py:CompositionOperator.direct", "src/pyoperators/core.py:CompositionOperator._get_info", "src/pyoperators/core.py:CompositionOperator._get_requirements"]}
{"id": "C18", "title": "the intermediate buffers of a composition are large enough and few", "statement": "Each intermediate result of a composition is stored in a buffer that is at least as large as the result, and the number of groups sharing a buffer equals the number of changes of buffer forced by operands that cannot work in place.", "quantifier": "all operand lists, all shapes and dtypes", "why_tests_cant": "Combinations of sizes and in-place patterns are unbounded.", "anchors": ["src/pyoperators/core.py:CompositionOperator._get_bufsizes", "src/pyoperators/core.py:CompositionOperator._get_requirements"]}
{"id": "C19", "title": "the evaluation of a sum or product of operators does not depend on update capabilities", "statement": "Applying a sum (or an element-wise product) of operators writes into the output the sum (or product) of the results of the operands on the input, whether or not each operand is able to accumulate into its output, and whatever their order.", "quantifier": "all non-empty operand lists, all capability patterns, all inputs", "why_tests_cant": "All capability patterns of arbitrarily long operand lists.", "anchors": ["src/pyoperators/core.py:CommutativeCompositeOperator.direct"]}
{"id": "C20", "title": "broadcast_shapes computes the NumPy broadcast", "statement": "broadcast_shapes of several shapes is the shape of the NumPy broadcast of arrays of these shapes, fails exactly when broadcasting is impossible, and does not depend on the order or grouping of the shapes.", "quantifier": "all finite lists of shapes of all ranks", "why_tests_cant": "Unbounded number of shapes and dimensions.", "anchors": ["src/pyoperators/utils/misc.py:broadcast_shapes"]}
{"id": "C21", "title": "merge_none merges two partially known tuples into their least upper bound", "statement": "merging two partitions whose unknown entries are None returns the only partition that agrees with every known entry of both and is unknown exactly where both are; it fails exactly when two known entries differ or the lengths differ; merging is commutative, associative and idempotent.", "quantifier": "all pairs (triples) of partially known tuples", "why_tests_cant": "All lengths and all patterns of unknown entries.", "anchors": ["src/pyoperators/utils/misc.py:merge_none"]}
{"id": "C22", "title": "block slices tile the partitioned axis", "statement": "For every explicit partition of an axis, the slices used to give each block its part of the array are disjoint, cover the axis and have the declared lengths, so gathering the parts and scattering them back is the identity.", "quantifier": "all partitions (any number of blocks, any sizes), all axes", "why_tests_cant": "Unbounded number of blocks and sizes.", "anchors": ["src/pyoperators/core.py:BlockOperator._get_slices", "src/pyoperators/core.py:BlockDiagonalOperator.direct"]}
{"id": "C23", "title": "block column, block row and block diagonal act like block matrices", "statement": "Applying a block column, block row or block diagonal operator is the multiplication by the block matrix made of the operands, and transposing the operator transposes the block matrix (the transpose of a column being the row of the transposes).", "quantifier": "all numbers and sizes of blocks, all operand matrices, all inputs", "why_tests_cant": "All block structures.", "anchors": ["src/pyoperators/core.py:BlockDiagonalOperator", "src/pyoperators/core.py:BlockColumnOperator", "src/pyoperators/core.py:BlockRowOperator"]}
{"id": "C24", "title": "fusing two block operators preserves their product and sum", "statement": "Replacing the product (or the sum) of two block operators with compatible partitions by the block operator of the products (or sums) of their blocks gives an operator with the same effect; the fusion is refused when the partitions are incompatible.", "quantifier": "all pairs of block operators, all partitions", "why_tests_cant": "All block structures and partitions.", "anchors": ["src/pyoperators/core.py:BlockOperator._rule_operator_commutative", "src/pyoperators/core.py:BlockOperator._rule_blockdiagonal_blockdiagonal_composition", "src/pyoperators/core.py:BlockOperator._validate_partition_composition"]}
{"id": "C25", "title": "implicit partitions are resolved from the array shape", "statement": "A block column or block row operator whose blocks have no explicit shape can be applied to any array whose shape is compatible with its blocks, and the result is the one of the block matrix.", "quantifier": "all block operators with implicit block shapes, all compatible inputs", "why_tests_cant": "All partitions.", "anchors": ["src/pyoperators/core.py:BlockColumnOperator.direct", "src/pyoperators/core.py:BlockRowOperator.direct"]}
{"id": "C26", "title": "shapes propagate consistently through a composition", "statement": "The input and output shapes reported by a composition are the ones obtained by propagating the known shapes through the operands in both directions; for every input shape accepted, the composition's output shape is the output shape of the successive operands, and inconsistent operands are rejected.", "quantifier": "all operand lists with explicit, implicit and unconstrained shapes", "why_tests_cant": "Unbounded operand lists and shapes.", "anchors": ["src/pyoperators/core.py:CompositionOperator._get_shapes", "src/pyoperators/core.py:CompositionOperator.reshapein", "src/pyoperators/core.py:CompositionOperator._merge_reshapein"]}
{"id": "C27", "title": "combining broadcast diagonals preserves the diagonal operator", "statement": "The sum, the product and the composition of diagonal operators with scalar, leftward, rightward or no broadcast simplify, when they do simplify, to a diagonal operator that acts on every compatible input like the unsimplified expression.", "quantifier": "all diagonals of all shapes and broadcast kinds, all inputs", "why_tests_cant": "All shapes and broadcast combinations.", "anchors": ["src/pyoperators/core.py:BroadcastingBase._rule_broadcast", "src/pyoperators/core.py:DiagonalOperator"]}
{"id": "C28", "title": "diagonal operators morph into an equal operator", "statement": "A diagonal operator built from values that are all zero, all one, all equal, or all zero or one is turned respectively into the zero, identity, scalar and mask operator, and the operator obtained acts on every input as the diagonal.", "quantifier": "all diagonals, all inputs", "why_tests_cant": "All data arrays: the classification scans the data with early exits.", "anchors": ["src/pyoperators/core.py:DiagonalOperator.__init__", "src/pyoperators/utils/misc.py:inspect_special_values", "src/pyoperators/utils/cythonutils.pyx", "src/pyoperators/linear.py:MaskOperator"]}
{"id": "C29", "title": "packing and unpacking are adjoint and simplify correctly", "statement": "Unpacking is the transpose of packing for the same mask, packing after unpacking is the identity, and whenever the library simplifies the composition of one of them with its transpose into the identity, the composition is the identity.", "quantifier": "all masks, all inputs", "why_tests_cant": "All masks.", "anchors": ["src/pyoperators/linear.py:PackOperator", "src/pyoperators/linear.py:UnpackOperator"]}
{"id": "C30", "title": "index conversion operators are inverse of each other", "statement": "Converting multi-dimensional indices to 1-dimensional ones and back is the identity on the indices that lie inside the shape, in C and in Fortran order, and conversely; the 1-d index lies inside the array.", "quantifier": "all shapes, all indices inside the shape, both orders", "why_tests_cant": "All shapes and indices.", "anchors": ["src/pyoperators/nonlinear.py:To1dOperator", "src/pyoperators/nonlinear.py:ToNdOperator"]}
{"id": "C31", "title": "rounding operators follow their documented tie rule", "statement": "Each rounding method returns an integer at distance at most 1/2 (or less than 1 for the directed methods) of the input, and rounds ties in the documented direction.", "quantifier": "all real numbers, all methods", "why_tests_cant": "Ties and negative values over all reals.", "anchors": ["src/pyoperators/nonlinear.py:RoundOperator"]}
{"id": "C32", "title": "thresholding operators compose as declared", "statement": "Hard thresholding is idempotent and composing two hard thresholdings is the hard thresholding by the larger threshold; soft thresholding shrinks the magnitude by the threshold, keeps the sign and is non-expansive.", "quantifier": "all inputs, all non-negative thresholds", "why_tests_cant": "All reals.", "anchors": ["src/pyoperators/nonlinear.py:HardThresholdingOperator", "src/pyoperators/nonlinear.py:SoftThresholdingOperator", "src/pyoperators/utils/ufuncs.c.src"]}
{"id": "C33", "title": "composition of power operators", "statement": "The simplification of the composition of two power operators has the same effect as applying them one after the other on every input for which the latter is defined.", "quantifier": "all exponents, all inputs in the domain", "why_tests_cant": "All reals including negative inputs.", "anchors": ["src/pyoperators/nonlinear.py:PowerOperator"]}
{"id": "C34", "title": "3-d rotation operators are proper rotations matching their convention", "statement": "For each supported convention (intrinsic or extrinsic, one, two or three axes), the matrix built by the rotation operator is orthogonal with determinant one and equals the product of the elementary rotations named by the convention.", "quantifier": "all angles, all conventions", "why_tests_cant": "All angles, for each of the closed-form tables.", "anchors": ["src/pyoperators/linear.py:Rotation3dOperator", "src/pyoperators/linear.py:Rotation2dOperator"]}
{"id": "C35", "title": "transposes of the structured linear operators are adjoint to them", "statement": "For difference, tridiagonal, band and sum operators, the transpose operator B of A satisfies <A x, y> = <x, B y>.", "quantifier": "all sizes, all coefficients, all vectors, all axes", "why_tests_cant": "All sizes and coefficients.", "anchors": ["src/pyoperators/linear.py:DifferenceOperator", "src/pyoperators/linear.py:TridiagonalOperator", "src/pyoperators/linear.py:BandOperator", "src/pyoperators/linear.py:SumOperator"]}
{"id": "C36", "title": "circulant embedding of a symmetric band Toeplitz operator is exact", "statement": "The FFT based application of a symmetric band Toeplitz operator equals the multiplication by the Toeplitz matrix of its first row for every number of samples and every correlation length.", "quantifier": "all numbers of samples, all band widths, all inputs", "why_tests_cant": "All sizes, in particular band widths close to or above the number of samples.", "anchors": ["src/pyoperators/linear.py:SymmetricBandToeplitzOperator"]}
{"id": "C37", "title": "a proxy group holds at most one live operator and always uses the right one", "statement": "Accessing any of the proxies of a group in any order uses the operator computed by the callback for that very proxy, keeps at most one operator alive and calls the callback only when another proxy was accessed in between, even if a callback raised an exception before.", "quantifier": "all groups, all access sequences, all exception points", "why_tests_cant": "Access sequences are unbounded.", "anchors": ["src/pyoperators/proxy.py:proxy_group", "src/pyoperators/proxy.py:ProxyBase"]}
{"id": "C38", "title": "iterative algorithms keep the last states in order", "statement": "At the beginning of each iteration the variables x, x_old, x_old2, ... of an iterative algorithm hold the last values of the recurrence in order, starting with the initial values, for any recursion order, and the buffer for the new value is never one of those still needed.", "quantifier": "all recursion orders, all iteration counts, all update functions", "why_tests_cant": "All orders and iteration counts; aliasing of rotating buffers.", "anchors": ["src/pyoperators/iterative/core.py:IterativeAlgorithm._update_variables", "src/pyoperators/iterative/core.py:IterativeAlgorithm.next"]}
{"id": "C39", "title": "running an algorithm in several steps is the same as running it at once", "statement": "Performing n iterations then m iterations leaves the algorithm in the same state as n + m iterations, the iteration counter counts the completed iterations, stop conditions are checked before each iteration, and restarting yields the same sequence of states as the first run; running an algorithm that is already started is refused.", "quantifier": "all algorithms, all n and m, all stop conditions", "why_tests_cant": "All schedules of next/run/cont/restart calls.", "anchors": ["src/pyoperators/iterative/core.py:IterativeAlgorithm.next", "src/pyoperators/iterative/core.py:IterativeAlgorithm.run", "src/pyoperators/iterative/core.py:IterativeAlgorithm.restart", "src/pyoperators/iterative/core.py:IterativeAlgorithm.cont"]}
{"id": "C40", "title": "run stops as soon as a stop condition holds", "statement": "Running an algorithm ends normally at the first iteration at which the normal stop condition holds, raises at the first one at which the abnormal condition holds and the normal one does not, and never performs more than the maximum number of iterations given by a maximum-iteration condition.", "quantifier": "all algorithms, all stop conditions, all maximum numbers of iterations", "why_tests_cant": "All stop conditions and iteration histories.", "anchors": ["src/pyoperators/iterative/core.py:IterativeAlgorithm._check_stop_conditions", "src/pyoperators/iterative/stopconditions.py"]}
{"id": "C41", "title": "the residual of the conjugate gradient is the true residual and directions are conjugate", "statement": "At every iteration of pcg in exact arithmetic the stored residual equals b - A x, successive search directions are A-conjugate, and the algorithm stopping normally means that the norm of the true residual relative to that of b is below the tolerance.", "quantifier": "all symmetric positive definite A, all b, all starting points, all preconditioners, all iterations", "why_tests_cant": "All matrices and iteration counts.", "anchors": ["src/pyoperators/iterative/cg.py:PCGAlgorithm"]}
{"id": "C42", "title": "rules for an operator are unique per subject and class rules come last", "statement": "After any sequence of rule definitions and deletions, an operator has at most one rule per subject, the latest definition wins, and rules matching by class have a lower priority than the others, a rule for a class never hiding a rule for a subclass.", "quantifier": "all sequences of set_rule and del_rule, all class hierarchies", "why_tests_cant": "Sequences of definitions are unbounded.", "anchors": ["src/pyoperators/core.py:Operator.set_rule", "src/pyoperators/core.py:Operator.del_rule"]}
{"id": "C43", "title": "trapezoidal integration operator", "statement": "The integration operator applied to the samples of a function returns the sum over the bins of the width times the average of the values at both ends.", "quantifier": "all abscissa lists of at least two points, all samples", "why_tests_cant": "All numbers of points.", "anchors": ["src/pyoperators/linear.py:IntegrationTrapezeOperator"]}
{"id": "C44", "title": "trigger file parsing never corrupts the known triggers", "statement": "Reading the user rule file only changes triggers that exist, assigns them the last valid value given in the file, and ignores malformed lines, comments and unknown names, whatever the content of the file.", "quantifier": "all file contents", "why_tests_cant": "All texts.", "anchors": ["src/pyoperators/rules.py:RuleManager._update_user_default_triggers"]}
{"id": "C45", "title": "nested timers measure only the outermost interval", "statement": "For any well-nested use of a timer with nesting, the elapsed time is the total duration of the outermost intervals, and the nesting level returns to zero when all contexts are left, including through exceptions.", "quantifier": "all well-nested histories of enter, exit and reset", "why_tests_cant": "Nesting depth and histories are unbounded.", "anchors": ["src/pyoperators/utils/misc.py:Timer"]}
{"id": "C46", "title": "dense block diagonal operators: product and transpose rules", "statement": "The composition of two dense block diagonal operators simplifies to the dense block diagonal operator of the products of the blocks, the transpose to the one of the transposed blocks, and both act on every compatible input like the unsimplified operators.", "quantifier": "all block numbers, sizes, data and inputs", "why_tests_cant": "All shapes.", "anchors": ["src/pyoperators/linear.py:DenseBlockDiagonalOperator"]}
{"id": "C47", "title": "garbage collection is triggered once the deleted bytes reach the threshold", "statement": "The counter of deleted bytes stays strictly below the threshold after each deletion, and a collection happens exactly when the bytes deleted since the last collection reach the threshold.", "quantifier": "all sequences of deletions", "why_tests_cant": "Sequences are unbounded.", "anchors": ["src/pyoperators/memory.py:garbage_collect", "src/pyoperators/core.py:Operator.delete"]}
{"id": "C48", "title": "FFT convolution centres the kernel and its transpose is the correlation", "statement": "Convolving by a kernel through the discrete Fourier transform is the circular convolution whose origin is the kernel element (size - 1) // 2, and the transposed operator is its adjoint.", "quantifier": "all sizes, all kernels not larger than the input, all inputs", "why_tests_cant": "All sizes and kernels.", "anchors": ["src/pyoperators/fft.py:_get_kernel_fft", "src/pyoperators/fft.py:_FFTWRealConvolutionOperator", "src/pyoperators/fft.py:_FFTWRealConvolutionTransposeOperator"]}
{"id": "C49", "title": "wavelet coefficient packing round-trips", "statement": "Packing the list of coefficient arrays into one vector and unpacking it gives back the same arrays in the same order.", "quantifier": "all lists of coefficient arrays (1-d and 2-d), all sizes", "why_tests_cant": "All numbers of levels and sizes.", "anchors": ["src/pyoperators/operators_pywt.py:WaveletOperator", "src/pyoperators/operators_pywt.py:Wavelet2dOperator"]}
{"id": "C50", "title": "in-place and out-of-place calls of an operator agree", "statement": "Calling an operator on an input, with no output, a distinct output or the input itself as output, yields the same values, whatever the alignment and contiguity of the arrays and whether or not the operator can work in place, and the input is only modified if it is also the output or the caller allows it.", "quantifier": "all operators, all array layouts, all calls", "why_tests_cant": "All layouts and flag combinations.", "anchors": ["src/pyoperators/core.py:Operator.__call__", "src/pyoperators/core.py:Operator._validate_arguments"]}
{"id": "C51", "title": "blocks applied in place on parts that must be copied give the right result", "statement": "Applying a block diagonal or block slice operator writes the image of each input part by its block into the corresponding output part, including when the operator is applied in place and when the parts do not meet the alignment or contiguity requirements of the blocks.", "quantifier": "all blocks, all layouts of the parts, in-place and out-of-place calls, all pool contents", "why_tests_cant": "It depends on the combination of the in-place capability, the memory layout of each part and the content of the pool; tests use contiguous aligned arrays or out-of-place calls.", "anchors": ["src/pyoperators/core.py:BlockDiagonalOperator.direct", "src/pyoperators/core.py:BlockSliceOperator.direct", "src/pyoperators/memory.py:MemoryPool.copy_if"]}
{"id": "C52", "title": "associated operators compute what their names say", "statement": "When the flags, rules and methods of an operator are right, every chain of attributes such as A.I.T.C yields an operator that, if it can be evaluated, computes exactly the corresponding chain of conjugates, transposes, adjoints and inverses of what A computes.", "quantifier": "all combinations of flags, unary rules and methods, all chains of attributes of any length", "why_tests_cant": "The chains are unbounded and the combinations of flags, rules and methods too many; a wrong pointer shows only for particular combinations.", "anchors": ["src/pyoperators/core.py:Operator._generate_associated_operators"]}
{"id": "C53", "title": "flags of an element-wise product are sound", "statement": "If each operand satisfies its flags, then the element-wise product of the operands satisfies all the flags the library gives to it.", "quantifier": "all lists of operands and all flag combinations", "why_tests_cant": "Unbounded number of operands and all functions.", "anchors": ["src/pyoperators/core.py:MultiplicationOperator._merge_flags", "src/pyoperators/core.py:CommutativeCompositeOperator._merge_flags"]}
{"id": "C54", "title": "block slices apply each operand to its own slice", "statement": "BlockSliceOperator(operands, slices) applies the i-th operand to the i-th slice and copies the elements that are in no slice, both in place and out of place.", "quantifier": "all lists of square operands, all lists of disjoint slices, all inputs", "why_tests_cant": "Unbounded number of operands; the outcome depends on the classes of the operands (a homothety or an identity among them) and on their positions.", "anchors": ["src/pyoperators/core.py:BlockSliceOperator", "src/pyoperators/core.py:CommutativeCompositeOperator._apply_rules"]}
{"id": "C55", "title": "block slices times a scalar", "statement": "The composition of a linear BlockSliceOperator by a scalar on its right computes the block slice operator applied to the input multiplied by the scalar, for every element of the output.", "quantifier": "all linear block slice operators, all scalars, all inputs", "why_tests_cant": "All operands, slices and inputs; the elements that are in no slice are easily forgotten by the tests.", "anchors": ["src/pyoperators/core.py:BlockSliceOperator"]}
{"id": "C56", "title": "simplification triggers inside a rule_manager context", "statement": "Inside `with rule_manager(**keywords)` the names given as keywords have the given values and all the other triggers keep theirs; an unknown name raises KeyError before anything is changed; entering a context without keywords changes no trigger.", "quantifier": "all histories and nestings of contexts, all keywords", "why_tests_cant": "Unbounded histories of contexts and assignments.", "anchors": ["src/pyoperators/rules.py:RuleManager.__call__", "src/pyoperators/rules.py:RuleManager.__enter__"]}
{"id": "C57", "title": "a composition updates its output with the operation it is given", "statement": "When a composition whose first operand is able to update its output is asked to add its result to an array (as an operand of a sum is, or to multiply the array by its result), the array ends up with its previous contents plus the result of the composition.", "quantifier": "all lists of operands, all in-place patterns, all operations and contents", "why_tests_cant": "The loss of the previous contents depends on the buffer schedule, which varies with the number, order and in-place ability of the operands.", "anchors": ["src/pyoperators/core.py:CompositionOperator.direct", "src/pyoperators/core.py:CompositionOperator._get_info", "src/pyoperators/core.py:CommutativeCompositeOperator.direct"]}
{"id": "C58", "title": "a sum accepts only the shapes that all its operands accept", "statement": "If a sum or an element-wise product of operators accepts an input shape, every operand accepts this shape, and the output shape of every operand that knows it is the output shape of the sum.", "quantifier": "all operand lists with explicit, implicit and unconstrained shapes, all input shapes", "why_tests_cant": "Unbounded operand lists, all kinds of shape declarations.", "anchors": ["src/pyoperators/core.py:CommutativeCompositeOperator._get_attributes", "src/pyoperators/core.py:CommutativeCompositeOperator._merge_reshapein", "src/pyoperators/core.py:AdditionOperator._merge_flags"]}
{"id": "C59", "title": "a composition refuses the shapes that one of its operands refuses", "statement": "The shapes that a composition gives to its operands are accepted by the shape validation of each of them: an input is never handed to an operand whose validatein or validateout would refuse it.", "quantifier": "all operand lists, all shapes", "why_tests_cant": "Unbounded operand lists and shapes.", "anchors": ["src/pyoperators/core.py:CompositionOperator._get_shapes", "src/pyoperators/core.py:CompositionOperator._get_attributes", "src/pyoperators/core.py:Operator._validate_shapes"]}
{"id": "C60", "title": "the shapes, flags and methods of an operator are consistent", "statement": "For every operator that has been instantiated, a known input (output) shape is the only one accepted and the only one inferred, implicit sides always infer a shape, and square operators have equal shapes; shapes that contradict each other through reshapein, reshapeout or the flag square are rejected.", "quantifier": "all combinations of declared shapes, methods and square flag", "why_tests_cant": "All reshape and validation methods and all shapes.", "anchors": ["src/pyoperators/core.py:Operator._init_inout"]}
{"id": "C61", "title": "blocks are given arrays that meet their requirements", "statement": "When a block operator is evaluated, the arrays handed to its blocks have the alignment and the contiguity that the flags of the blocks require, whatever the layout of the input and of the output.", "quantifier": "all block diagonal, column and row operators, all flags of their blocks, all layouts of the input and output", "why_tests_cant": "All combinations of layouts and requirements; a violation only shows with blocks that rely on their requirement.", "anchors": ["src/pyoperators/core.py:BlockDiagonalOperator.direct", "src/pyoperators/core.py:BlockColumnOperator.direct", "src/pyoperators/core.py:BlockRowOperator.direct"]}
{"id": "C62", "title": "the shape of a block operator is the shape of the assembled blocks", "statement": "The input (output) shape of a block operator is the shape whose parts along the partitioned axis, or along the new axis, are the input (output) shapes of its blocks; blocks that cannot be assembled are rejected.", "quantifier": "all numbers of blocks, all block shapes, all axes and partitions", "why_tests_cant": "All shapes, ranks and axes, positive or negative.", "anchors": ["src/pyoperators/core.py:BlockOperator._get_shape_composite", "src/pyoperators/core.py:BlockOperator._get_shape_operands", "src/pyoperators/core.py:BlockOperator.reshapein"]}
{"id": "C63", "title": "inferred partitions are the dimensions of the blocks", "statement": "When the output partition of a block operator is inferred from its input partition, an entry that is inferred is the dimension of the output of the block for every input that has the given dimension along the partitioned axis.", "quantifier": "all blocks, all partitions, all input shapes", "why_tests_cant": "The inference tries 33 shapes; the claim is about all of them.", "anchors": ["src/pyoperators/core.py:BlockOperator._get_partitionin", "src/pyoperators/core.py:BlockOperator._get_partitionout"]}
{"id": "C64", "title": "packing returns the kept elements as a vector", "statement": "The result of a pack operator is the vector of the elements that the mask keeps, in the order of the array, in place of the dimensions of the mask, for each element along the other dimensions.", "quantifier": "all masks, all broadcast kinds, all inputs", "why_tests_cant": "All masks and shapes.", "anchors": ["src/pyoperators/linear.py:PackOperator", "src/pyoperators/linear.py:PackBase"]}
{"id": "C65", "title": "products and inverses of power operators", "statement": "The simplification of the elementwise product of two power operators has the effect of the product of their results wherever both are defined, and the inverse of a power operator undoes it.", "quantifier": "all exponents, all inputs in the domain", "why_tests_cant": "All reals including negative inputs.", "anchors": ["src/pyoperators/nonlinear.py:PowerOperator"]}
{"id": "C66", "title": "converting a tridiagonal operator to a band operator keeps its effect", "statement": "The operator returned by the method toband of a tridiagonal operator returns the same output as the tridiagonal operator for every input.", "quantifier": "all sizes, all diagonals (possibly given by a single value), all inputs", "why_tests_cant": "All sizes and all coefficients, in particular diagonals that are nearly equal.", "anchors": ["src/pyoperators/linear.py:TridiagonalOperator.toband", "src/pyoperators/linear.py:SymmetricBandOperator"]}
{"id": "C67", "title": "operators stored by diagonals multiply by the matrix that is stored", "statement": "The tridiagonal, band and symmetric band operators return the product of their input by the matrix whose diagonals they store, in the LAPACK format for the last two, and the array rab of a band operator stores the transpose of the matrix.", "quantifier": "all sizes, all numbers of diagonals below and above the main one, all coefficients, all inputs", "why_tests_cant": "Only a few numbers of diagonals can be tested.", "anchors": ["src/pyoperators/linear.py:TridiagonalOperator.direct", "src/pyoperators/linear.py:BandOperator.direct", "src/pyoperators/linear.py:BandOperator.rab", "src/pyoperators/linear.py:SymmetricBandOperator.direct"]}
{"id": "C68", "title": "the adjoint and inverse of the Fourier operator", "statement": "The operator H of the discrete Fourier transform operators is their adjoint, their inverse undoes the transform, and the simplification of a forward transform composed with a backward one has the effect of the composition, also for transforms along some of the axes.", "quantifier": "all sizes, all numbers of axes, all choices of the transformed axes, all inputs", "why_tests_cant": "The adjoint relation is for all pairs of inputs, all shapes and all axes.", "anchors": ["src/pyoperators/fft.py:FFTOperator", "src/pyoperators/fft.py:_FFTWComplexForwardOperator", "src/pyoperators/fft.py:_FFTWComplexBackwardOperator"]}
{"id": "C69", "title": "the flags of the associated operators are true of them", "statement": "If the flags of an operator are true of what it computes, the flags of A.C, A.T, A.H, A.I and of their own associated operators are true of the conjugate, transpose, adjoint and inverse of it, so that the simplifications that rest on these flags (for instance that the product of an orthogonal operator by its transpose is the identity) are right.", "quantifier": "all matrices of all sizes, all combinations of declared flags and methods, all associated operators", "why_tests_cant": "The flags of the associated operators are deduced twice, from a declared part of the flags and without the data type at first; whether they are true depends on the matrix and on the combination of flags.", "anchors": ["src/pyoperators/core.py:Operator._generate_associated_operators", "src/pyoperators/core.py:_copy_direct_all", "src/pyoperators/core.py:_copy_reverse_all", "src/pyoperators/core.py:Operator._init_flags"]}
{"id": "C70", "title": "copies keep the associated operators", "statement": "A copy of an operator, such as the result of its composition with the identity or of its addition to zero, has the same conjugate, transpose, adjoint and inverse as the operator: every chain of attributes of the copy computes what the chain computes for the original.", "quantifier": "all operators given by methods and flags, all chains of attributes before and after the copy", "why_tests_cant": "Copies lose the links to the associated operators, which are generated again from the flags and methods of the copy; the chains of attributes are unbounded and the combinations of flags and methods many.", "anchors": ["src/pyoperators/core.py:Operator.copy", "src/pyoperators/core.py:Operator._generate_associated_operators", "src/pyoperators/core.py:IdentityOperator._rule_left", "src/pyoperators/core.py:IdentityOperator._rule_right"]}
{"id": "C71", "title": "conversions between unit vectors and spherical coordinates are inverse of each other", "statement": "For each of the four conventions (whatever the case and the spaces of its name) and for both units, Cartesian2SphericalOperator returns the zenith angle (0 to pi) or the elevation and the azimuth (0 to 2 pi excluded) of a unit vector, Spherical2CartesianOperator returns the unit vector of two angles, and composing the two operators of the same convention, before or after simplification, gives the input back.", "quantifier": "for all unit vectors, all angles (off the polar axis and with an azimuth in [0, 2 pi) for the round trip), all conventions and both units", "why_tests_cant": "the tests sample a handful of directions; the poles, the quadrants and the simplification of the composition into the identity cannot be covered by samples", "anchors": ["src/pyoperators/nonlinear.py:_CartesianSpherical", "src/pyoperators/nonlinear.py:Cartesian2SphericalOperator", "src/pyoperators/nonlinear.py:Spherical2CartesianOperator", "src/pyoperators/linear.py:DegreesOperator", "src/pyoperators/linear.py:RadiansOperator"]}
{"id": "C72", "title": "clipping, maximum and minimum operators limit the values", "statement": "ClipOperator keeps the values inside the interval and replaces the others by the nearest edge, MaximumOperator and MinimumOperator raise or lower the values to the parameter; array parameters are broadcast as NumPy does; fusing such an operator with a block operator does not change the result.", "quantifier": "for all inputs, all limits that can be broadcast to the input, and all block operators", "why_tests_cant": "the fusion with block operators depends on the shapes of the parameters and on the axis of the blocks, and the values are unbounded", "anchors": ["src/pyoperators/nonlinear.py:ClipOperator", "src/pyoperators/nonlinear.py:MaximumOperator", "src/pyoperators/nonlinear.py:MinimumOperator", "src/pyoperators/core.py:BlockOperator._rule_operator_lcomp"]}
{"id": "C73", "title": "normalised vectors have length one", "statement": "NormalizeOperator replaces each vector along the last axis by the vector of length one that has the same direction; it is idempotent and does not depend on the lengths of the vectors.", "quantifier": "for all arrays of non-zero vectors of any dimension", "why_tests_cant": "the claim is about all real vectors", "anchors": ["src/pyoperators/nonlinear.py:NormalizeOperator"]}
{"id": "C74", "title": "eigendecomposition operators: powers, inverse, determinant, trace and condition number", "statement": "EigendecompositionOperator(v=v, w=w), where the columns of v are orthonormal, is symmetric and has the eigenvalues w and the eigenvectors v; A**n is the n-th power of the operator, A.I its inverse, A.det(), A.logdet() and A.trace() its determinant, the logarithm of it and its trace, and A.cond() its condition number.", "quantifier": "for all orthonormal eigenvectors and all real eigenvalues, all sizes, complete or not, and all integer powers", "why_tests_cant": "the test compares floating point arrays for a few tridiagonal matrices; the identities hold for all matrices or fail for incomplete decompositions and indefinite ones, which are not sampled", "anchors": ["src/pyoperators/linear.py: EigendecompositionOperator"]}
{"id": "C75", "title": "the Lanczos algorithm returns an approximation of the operator on the Krylov subspace", "statement": "LanczosAlgorithm(A, v0, maxiter).run() for a symmetric operator A returns an EigendecompositionOperator with orthonormal eigenvectors that is equal to A on v0, A v0, ..., A^(maxiter-2) v0, whose eigenvalues are between the extreme eigenvalues of A and that is equal to A if maxiter is the number of rows; the array v0 is left unchanged.", "quantifier": "for all symmetric matrices, all starting vectors and all numbers of iterations, in exact arithmetic", "why_tests_cant": "the orthogonality of the Lanczos vectors is an invariant of the three-term recurrence over all iterations and all matrices; a test sees one matrix and rounding errors", "anchors": ["src/pyoperators/iterative/lanczos.py: LanczosAlgorithm", "src/pyoperators/iterative/core.py: IterativeAlgorithm.run"]}
{"id": "C76", "title": "a criterion returns the sum of its norms and diff its gradient, whatever was called before", "statement": "criterion(x) of the module iterative.criterions is the sum of the norms of the residuals op(x) - data of its elements and criterion.diff(x) is the gradient of this function, whatever the calls made before (the elements cache op(x)); quadratic_criterion(model, data, hypers, priors) is the sum of the squares of model(x) - data and of the squares of the priors multiplied by the hyperparameters; data that have the shape of the output of the model are accepted.", "quantifier": "for all operators, data, norms (2-norm with a covariance, Huber, p-norm) and scalar multiples, all arguments and all sequences of calls", "why_tests_cant": "a gradient is a limit, and a cache is right only if it is so after each sequence of calls; tests compare a few values of the 2-norm", "anchors": ["src/pyoperators/iterative/criterions.py: CriterionElement", "src/pyoperators/iterative/criterions.py: Criterion", "src/pyoperators/iterative/criterions.py: Norm2", "src/pyoperators/iterative/criterions.py: Huber", "src/pyoperators/iterative/criterions.py: Normp", "src/pyoperators/iterative/criterions.py: quadratic_criterion"]}
{"id": "C77", "title": "line searches: the optimal step minimises a quadratic criterion, and backtracking starts with it", "statement": "optimal_step(algo) returns the step for which the criterion is the smallest along the descent direction if the norms are 2-norms (with covariances and scalar factors); Backtracking(maxiter, tau) starts with the optimal step and reduces it by the factor tau until the criterion does not increase, with at most maxiter trials.", "quantifier": "for all quadratic criterions, all solutions, all descent directions, all maxiter and tau", "why_tests_cant": "minimality is a comparison with all the other steps; no test calls these functions", "anchors": ["src/pyoperators/iterative/linesearch.py: optimal_step", "src/pyoperators/iterative/linesearch.py: Backtracking"]}
{"id": "C78", "title": "double loop algorithm: gradient and Hessian of the inner criterion, variances and widths", "statement": "for the inner criterion of DoubleLoopAlgorithm, gradient(u) is the gradient of the criterion and hessian_p(u, p) the derivative of the gradient along p; the outer loop sets z to the variances of the prior components, the diagonal of B A⁻¹ Bᵀ, where A is the inverse of the covariance of the posterior, and update_gamma gives the widths that minimise the bound (z + (s / sigma)²) / gamma + tau² gamma.", "quantifier": "for all models, priors, noise covariances, tau, sigma, z > 0 and all points", "why_tests_cant": "derivatives are limits, and the algorithm converges to something even if they are wrong; there is no test", "anchors": ["src/pyoperators/iterative/dli.py: Criterion", "src/pyoperators/iterative/dli.py: DoubleLoopAlgorithm"]}
{"id": "C79", "title": "the conjugate gradient for criterions reaches the minimum of quadratic criterions and returns it", "statement": "ConjugateGradient(criterion, x0, stop_condition).run(), and acg, with the default line search and updates, start from x0 and return the minimum of a strictly convex quadratic criterion, up to the tolerances of the stop condition: the directions are conjugate, the gradients orthogonal, the criterion decreases, the minimum is reached after at most as many iterations as there are unknowns, and the algorithm stops; a second call of run() does as the first one.", "quantifier": "for all strictly convex quadratic criterions, all stop conditions and all states before the call, in exact arithmetic", "why_tests_cant": "conjugacy is an invariant over all iterations; the test of acg is marked as an expected failure for an unknown reason", "anchors": ["src/pyoperators/iterative/algorithms.py: ConjugateGradient", "src/pyoperators/iterative/algorithms.py: StopCondition", "src/pyoperators/iterative/algorithms.py: Algorithm.run", "src/pyoperators/iterative/algorithms.py: acg"]}
{"id": "C80", "title": "constant operators: applying an operator to a constant, sums and products of constants", "statement": "op * ConstantOperator(data) has the same value as the operator applied to the constant array, whatever the memory layout of the data; the sum and the product of two constants are constants with the sum and product of their values, and the product of a constant and a linear operator has the product of the values.", "quantifier": "for all operators, data, memory layouts, broadcasts and shapes", "why_tests_cant": "the tests use contiguous data of a few shapes; the broadcast view is made from strides that are computed, and the claim is for all shapes and layouts", "anchors": ["src/pyoperators/core.py: ConstantOperator", "src/pyoperators/core.py: BroadcastingBase._as_strided", "src/pyoperators/core.py: BroadcastingBase._rule_broadcast"]}
{"id": "C81", "title": "a diagonal, mask or constant operator is distributed over the blocks of a block operator without changing its values", "statement": "when a diagonal, mask, homothety or constant operator is composed with a block operator, added to it or multiplied with it, the simplification that moves it inside the blocks (replicating or slicing its data) gives an operator with the same values, and raises no exception, for all the arrays that the original operators accept.", "quantifier": "for all data, memory layouts, broadcasts, block operators, axes, partitions, and shapes of arrays, known or not when the operators are combined", "why_tests_cant": "the replication depends on the relative position of the axis of the blocks and of the dimensions of the data, for all numbers of dimensions; the tests have a few shapes", "anchors": ["src/pyoperators/core.py: BroadcastingBase._rule_block", "src/pyoperators/core.py: BroadcastingBase._rule_left_block", "src/pyoperators/core.py: BroadcastingBase._rule_right_block", "src/pyoperators/core.py: BroadcastingBase._as_strided"]}
{"id": "C82", "title": "least_greater_multiple returns the least product of powers of the factors that is not less than the number", "statement": "least_greater_multiple(a, factors) returns, for each element of a, the smallest number that is a product of the factors (each of them being used any number of times) and that is greater than or equal to the element.", "quantifier": "for all arrays of integers and all lists of positive factors", "why_tests_cant": "minimality is a comparison with the infinitely many products; the test uses products of 2, 3 and 5 that are small", "anchors": ["src/pyoperators/utils/misc.py: least_greater_multiple"]}
{"id": "C83", "title": "reshape_broadcast is the broadcasting of NumPy", "statement": "reshape_broadcast(x, shape) returns a view of the given shape with the values that NumPy broadcasts, raises ValueError exactly if NumPy cannot broadcast x to the shape, and reads only the memory of x; broadcasting twice is the same as broadcasting once.", "quantifier": "for all arrays, whatever their strides and number of dimensions, and all shapes", "why_tests_cant": "the strides of the view are computed from those of the array, for all layouts; a wrong stride reads memory outside of the array", "anchors": ["src/pyoperators/utils/misc.py: reshape_broadcast"]}
{"id": "C84", "title": "Ctrl-C is deferred in uninterruptible blocks and in the iterations of algorithms, and is not lost", "statement": "the body of an uninterruptible block is executed completely when Ctrl-C is pressed, KeyboardInterrupt is raised after the block, and the signal handler is restored; an interruptible block restores the handler; with clean_interrupt, an interrupted iterative algorithm has performed a whole number of iterations.", "quantifier": "for all programs, all the points at which Ctrl-C is pressed, all initial handlers", "why_tests_cant": "signals are asynchronous: a test presses Ctrl-C at one point of one program", "anchors": ["src/pyoperators/utils/misc.py: interruptible", "src/pyoperators/utils/misc.py: uninterruptible", "src/pyoperators/utils/misc.py: uninterruptible_if", "src/pyoperators/iterative/core.py: IterativeAlgorithm.next"]}
{"id": "C85", "title": "the context managers restore what they set", "statement": "with setting(obj, attr, value), settingerr(...) and pool_threading(), the setting has the given value inside of the block, is as before after the block, and the other changes that the block makes are kept.", "quantifier": "for all objects, attributes, values and blocks, nested or not, with or without exceptions", "why_tests_cant": "the block is an arbitrary program, that may raise an exception or change the same setting", "anchors": ["src/pyoperators/utils/misc.py: setting", "src/pyoperators/utils/misc.py: settingerr", "src/pyoperators/utils/misc.py: pool_threading"]}
{"id": "C86", "title": "todense is the matrix of the operator", "statement": "the product of op.todense() and a vector is the operator applied to the vector, op.matvec(x) is this product, the matrix of the transpose is the transpose of the matrix and the one of a composition is the product; the in-place variant gives the same matrix.", "quantifier": "for all linear operators with explicit shapes, all dtypes and vectors", "why_tests_cant": "the tests compare the matrices of particular operators with expected ones; the claim is about all vectors", "anchors": ["src/pyoperators/core.py: Operator.todense", "src/pyoperators/core.py: Operator.matvec", "src/pyoperators/core.py: Operator.toshapein", "src/pyoperators/core.py: Operator.toshapeout"]}
{"id": "C87", "title": "operators are equal if their types and attributes are", "statement": "op1 == op2 returns True if the operators have the same type and the same attributes (apart from the rules and the associated operators), and False otherwise; numbers are compared within the tolerances of np.allclose, arrays must have the same shape; the comparison never raises an exception, and it is an equivalence.", "quantifier": "for all operators, whatever their attributes (nested sequences, dictionaries, arrays, functions)", "why_tests_cant": "the attributes are arbitrary nested values; symmetry, transitivity and the absence of exceptions are about all pairs", "anchors": ["src/pyoperators/utils/misc.py: all_eq", "src/pyoperators/core.py: Operator.__eq__"]}
{"id": "C88", "title": "products and powers of operators in expressions", "statement": "A * x applies a linear operator to an array, x * A is the product of a row by the matrix, A * B composes linear operators, products with a non-linear operator are those of the values, scalars multiply on both sides, and A ** n is the n-th power for all integers.", "quantifier": "for all operators, linear or not, all scalars, arrays, lists and matrices, all integer exponents", "why_tests_cant": "the meaning of * depends on the types and flags of both factors; the powers are about all exponents", "anchors": ["src/pyoperators/core.py: Operator.__mul__", "src/pyoperators/core.py: Operator.__rmul__", "src/pyoperators/core.py: Operator.__pow__", "src/pyoperators/core.py: asoperator"]}
{"id": "C89", "title": "a sparse operator multiplies by the stored matrix in all storage formats", "statement": "SparseOperator(m)(x) is the product of the sparse matrix by the vector, whatever its format (BSR, COO, CSC, CSR, DIA, DOK), including elements that are stored several times; with operator.iadd the product is added to the output; its transpose multiplies by the transpose; it can be multiplied by scalars.", "quantifier": "for all sparse matrices with valid indices, all formats, vectors and outputs", "why_tests_cant": "the tests use a single square matrix without repeated elements; the claim is about all index arrays", "anchors": ["src/pyoperators/linear.py: SparseOperator.direct", "src/pyoperators/linear.py: SparseOperator.__init__"]}
{"id": "C90", "title": "conversions from arrays and linear operators of SciPy, and to SciPy", "statement": "asoperator(x)(v) is the product of the matrix x by v, and its transpose, conjugate and adjoint are those of the matrix, for scalars, arrays and linear operators of SciPy; the methods matvec and rmatvec of an operator are those that SciPy expects.", "quantifier": "for all scalars, arrays and linear operators, real or complex, and all vectors", "why_tests_cant": "the tests of the conversion check the classes and the direct product, not the associated operators; SciPy's contract is about all vectors", "anchors": ["src/pyoperators/core.py: asoperator", "src/pyoperators/core.py: Operator.matvec", "src/pyoperators/core.py: Operator.rmatvec"]}
{"id": "C91", "title": "searches of sequences return the first and last matching elements and positions", "statement": "first, last, ifirst and ilast return the first and last elements (positions) that match a condition or a value, first_is_not, last_is_not, ifirst_is_not and ilast_is_not those that differ from a value; ValueError is raised only if there is none (the value is returned by first_is_not and last_is_not); the positions are those of the elements returned; renumerate is the reversed enumerate.", "quantifier": "for all sequences, conditions and values", "why_tests_cant": "sequences are unbounded, and the values are arbitrary Python objects, whose equality differs from identity", "anchors": ["src/pyoperators/utils/misc.py: first", "src/pyoperators/utils/misc.py: last", "src/pyoperators/utils/misc.py: ifirst", "src/pyoperators/utils/misc.py: ilast", "src/pyoperators/utils/misc.py: first_is_not", "src/pyoperators/utils/misc.py: ifirst_is_not", "src/pyoperators/utils/misc.py: ilast_is_not", "src/pyoperators/utils/misc.py: last_is_not", "src/pyoperators/utils/misc.py: renumerate"]}
{"id": "C92", "title": "zip_broadcast zips sequences and repeats scalars", "statement": "zip_broadcast yields as many tuples as the shortest of its non-repeated arguments, and its i-th tuple contains the scalars (and the element of the containers of length 1) and the i-th elements of the others; like zip it raises no exception for iterables.", "quantifier": "for all numbers and types of arguments (scalars, strings, sequences, sets, generators) and all lengths", "why_tests_cant": "the tests use a few tuples of arguments; the claim is about all combinations of types and lengths", "anchors": ["src/pyoperators/utils/misc.py: zip_broadcast"]}
{"id": "C93", "title": "reductions along an axis", "statement": "ReductionOperator(func, axis) reduces its input along the axis (or all its elements): the output shape is the input shape without the axis and each element is the reduction of the elements along it; shapes without the axis are rejected; NaN are skipped if skipna is True; all callables that reduce arrays can be used, with an explicit shape or not.", "quantifier": "for all functions, axes (positive or negative), shapes and values", "why_tests_cant": "shapes have any number of dimensions, and the claim is about all callables and versions of NumPy", "anchors": ["src/pyoperators/core.py: ReductionOperator", "src/pyoperators/nonlinear.py: ProductOperator", "src/pyoperators/nonlinear.py: MaxOperator", "src/pyoperators/nonlinear.py: MinOperator"]}
{"id": "C94", "title": "class and attributes of the output", "statement": "The output of an operator has the class classout (or the one of the input) and the attributes attrout besides those of the input that the class change and the change of shape leave valid; a composition gives the output the class and attributes that the nested calls give, simplified or not; sums and blocks give those that their operands specify; the argument out receives the same class and attributes; a function attrout is used as documented.", "quantifier": "for all classes, attributes, operators, compositions of any length, and output arguments", "why_tests_cant": "the number of operands, classes and attributes is unbounded and the tests check single operators and pairs", "anchors": ["src/pyoperators/core.py: Operator.propagate_attributes", "src/pyoperators/core.py: Operator.__call__", "src/pyoperators/core.py: CompositionOperator.propagate_attributes", "src/pyoperators/core.py: CompositeOperator.propagate_attributes", "src/pyoperators/core.py: CompositionOperator._merge"]}
{"id": "C95", "title": "MPI communicators of compositions, sums and blocks", "statement": "Operands whose MPI communicators are incompatible are rejected; otherwise the composite has the communicators of its ends, the operands that specify communicators keep them and those that adapt to the communicator receive the one of the vectors they are applied to.", "quantifier": "for all numbers of operands and assignments of communicators", "why_tests_cant": "the tests enumerate two and three operands; the number of operands and communicators is unbounded", "anchors": ["src/pyoperators/core.py: CompositionOperator.propagate_commin", "src/pyoperators/core.py: CompositionOperator.propagate_commout", "src/pyoperators/core.py: CompositionOperator._validate_comm", "src/pyoperators/core.py: CompositeOperator.propagate_commin", "src/pyoperators/core.py: CompositeOperator._validate_comm"]}
{"id": "C96", "title": "vectors are reshaped into inputs that the operator accepts", "statement": "For an operator of implicit input shape, matvec(v) reshapes the vector into an array with the same number of elements that the operator accepts, whenever there is one, and raises ValueError otherwise; this holds for diagonal operators that broadcast their data, for blocks, and for sums and block columns.", "quantifier": "for all data shapes, broadcasting directions, numbers of blocks, and sizes of vectors", "why_tests_cant": "the claim compares the shape chosen with all the shapes that the operator accepts; the tests use a few vectors", "anchors": ["src/pyoperators/core.py: Operator.matvec", "src/pyoperators/core.py: DiagonalOperator.toshapein", "src/pyoperators/core.py: DiagonalOperator.validatein", "src/pyoperators/core.py: BlockOperator.toshapein", "src/pyoperators/core.py: BlockOperator.toshapeout"]}
{"id": "C97", "title": "the keywords of an iterative algorithm define its recursion", "statement": "Given the keywords x, x_old, x_old2, ... of one or more variables and optional data types x_dtype, IterativeAlgorithm makes a recursion whose order is the number of initial values, whose variables are the ones given, whose attributes are the current, previous and next values, whose initial values are those of the keywords in the same order, and whose data types are the ones given or the default promoted to complex when an initial value is complex; initial values that are missing are rejected, the order of the keywords does not matter, keywords are not silently ignored, and with reuse_initial_state initial values that share memory are rejected.", "quantifier": "for all variables names, orders, orders of the keywords, shapes and data types", "why_tests_cant": "the names are strings without bound and the order of the recursion is arbitrary; the tests use the variables x and y up to order 3", "anchors": ["src/pyoperators/iterative/core.py: IterativeAlgorithm._set_order", "src/pyoperators/iterative/core.py: IterativeAlgorithm._set_variables", "src/pyoperators/iterative/core.py: IterativeAlgorithm._get_suffix", "src/pyoperators/iterative/core.py: IterativeAlgorithm._set_initial_state"]}
{"id": "C98", "title": "groups of operators stay grouped in compositions", "statement": "The operators of a GroupOperator are applied in order, compositions with other operators keep the group as one operand with its own data type, however the composition is parenthesised, and the conjugate, transpose, adjoint and inverses of a group are those of the product of its operators.", "quantifier": "for all sequences of operators, groups and compositions, and all complex matrices", "why_tests_cant": "the claim is about all the sequences and parenthesisations; the tests use a few products", "anchors": ["src/pyoperators/core.py: GroupOperator", "src/pyoperators/core.py: GroupOperator.__init__", "src/pyoperators/core.py: CompositionOperator.__init__", "src/pyoperators/core.py: NonCommutativeCompositeOperator._apply_rules"]}
{"id": "C99", "title": "the operators of numexpr compute their expression", "statement": "DiagonalNumexprOperator(data, expr, global_dict, var, broadcast) multiplies each element of the input by the value of the expression for the corresponding datum, whatever the operations of the expression and their precedence, like DiagonalOperator of get_data() with the same broadcast; and NumexprOperator(expr, global_dict) assigns the value of the expression for each element of the input to the output, or adds, subtracts, multiplies or divides the output by it; whatever the names of the variables, for scalar and array variables, and when the operator is distributed over blocks.", "quantifier": "for all expressions, data, shapes, broadcasting directions, names of variables and reduction operations", "why_tests_cant": "the expressions are texts without bound, which are concatenated with others before they are parsed; the tests use three expressions with two names", "anchors": ["src/pyoperators/linear.py: DiagonalNumexprOperator.direct", "src/pyoperators/linear.py: DiagonalNumexprOperator.get_data", "src/pyoperators/linear.py: DiagonalNumexprOperator._rule_block", "src/pyoperators/linear.py: DiagonalNumexprOperator.__init__", "src/pyoperators/nonlinear.py: NumexprOperator.direct"]}
{"id": "C100", "title": "rules are applied to the operators that they describe", "statement": "A rule given by a pair of subjects (the reference '.', its associated operators 'C', 'T', 'H', 'I', or a class) and a predicate (operators designated by symbols, None, or a function) is accepted; applied to two operators it returns the operators designated by the predicate exactly if the operators are those described by the subjects, and None otherwise; a function receives the operators in the order of the subjects; and rules that cannot be applied are rejected.", "quantifier": "for all subjects, predicates and pairs of operators", "why_tests_cant": "whether a rule is applied depends on which associated operators have been generated before; the tests of the rules use operators whose associated operators are generated", "anchors": ["src/pyoperators/rules.py: Rule.__init__", "src/pyoperators/rules.py: Rule._symbol2operator", "src/pyoperators/rules.py: BinaryRule.__call__", "src/pyoperators/rules.py: UnaryRule.__call__", "src/pyoperators/rules.py: UnaryRule.__init__", "src/pyoperators/core.py: Operator.set_rule"]}
{"id": "C101", "title": "the data type of the output is the common type of the operator and the input", "statement": "The output has the type of the input if the operator has none, otherwise a smallest type to which both can be cast, complex only if one of them is; an output that is provided is accepted exactly if it has this type; all the operands of a composition work with a type to which the types of all of them and of the input can be cast; the type of composite operators does not depend on the order of the operands; the output of a composition has the type of the successive applications; and the conversion of the input does not change its values.", "quantifier": "for all data types of the inputs, of the outputs and of the operators, and all numbers of operands", "why_tests_cant": "the operands of a composition are any number of operators with any types; the tests use a few types and two operands, and the changed values are a few among 2^64", "anchors": ["src/pyoperators/core.py: Operator._find_common_type", "src/pyoperators/core.py: Operator._validate_arguments", "src/pyoperators/core.py: CompositeOperator.__init__", "src/pyoperators/core.py: CompositionOperator._get_dtypes"]}
{"id": "C102", "title": "the replacement of MPI behaves as MPI with one process", "statement": "Without mpi4py, the attributes of communicators behave as those of MPI: a key is valid from its creation until it is freed and is different from all other keys, an attribute that is read is the one last stored on this communicator with this key, and the attributes are copied to duplicates as told when the key was created; and Allreduce and Allgatherv put into the output the values that MPI puts with one process.", "quantifier": "for all sequences of calls on any number of communicators and keys, and all buffers, shapes and operations", "why_tests_cant": "the faults appear after particular sequences of calls, and the numbers of keys are reused only if the most recent key is freed; the tests call each function once", "anchors": ["src/pyoperators/utils/fake_MPI.py: Comm.Create_keyval", "src/pyoperators/utils/fake_MPI.py: Comm.Free_keyval", "src/pyoperators/utils/fake_MPI.py: Comm.Get_attr", "src/pyoperators/utils/fake_MPI.py: Comm.Set_attr", "src/pyoperators/utils/fake_MPI.py: Comm.Delete_attr", "src/pyoperators/utils/fake_MPI.py: Comm.Dup", "src/pyoperators/utils/fake_MPI.py: Comm.Allreduce", "src/pyoperators/utils/fake_MPI.py: Comm.Allgatherv"]}
{"id": "C103", "title": "groups of processes, messages and totals over processes", "statement": "filter_comm gives to the processes that meet the condition, and to no others, the communicator of exactly these processes in the order of their ranks, and frees it at the end; mprint prints from the process of rank 0 the message once if it is the same for all the processes, and otherwise the messages of all the processes with their ranks in order; combine returns the total of the numbers of the processes, and in particular the number of items that split has distributed.", "quantifier": "for all numbers of processes, conditions, programs with nested groups, messages and numbers of items", "why_tests_cant": "the tests run with the few processes of the launcher; the numbers of processes, conditions and nested groups are unbounded", "anchors": ["src/pyoperators/utils/mpi.py: filter_comm", "src/pyoperators/utils/mpi.py: mprint", "src/pyoperators/utils/mpi.py: combine"]}
{"id": "C104", "title": "sums and multiples of criterions are those of the functions", "statement": "Criterions that are built from elements by additions and multiplications by numbers compute the sums and multiples of the functions and of the gradients of their elements, also if the elements are shared and have been called before with other arguments; criterions whose inputs have different shapes and non-zero numbers are refused in sums; huber_criterion and normp_criterion compute the norm of the residual plus the weighted norms of the priors.", "quantifier": "for all programs that create, add, scale and call criterions in any order, all elements, norms, data and arguments, and all numbers of priors", "why_tests_cant": "the elements remember their last argument and are shared between criterions, so that a result can depend on all the previous calls; the programs and the sums are unbounded", "anchors": ["src/pyoperators/iterative/criterions.py: CriterionElement.__add__", "src/pyoperators/iterative/criterions.py: CriterionElement.__mul__", "src/pyoperators/iterative/criterions.py: Criterion.__init__", "src/pyoperators/iterative/criterions.py: Criterion.__add__", "src/pyoperators/iterative/criterions.py: Criterion.__mul__", "src/pyoperators/iterative/criterions.py: Criterion.__call__", "src/pyoperators/iterative/criterions.py: Criterion.diff", "src/pyoperators/iterative/criterions.py: huber_criterion", "src/pyoperators/iterative/criterions.py: normp_criterion"]}
{"id": "C105", "title": "products with zeros and identities keep their shapes", "statement": "The shapes of a product of operators are those of the product of matrices: the output has the shape of the rows of the leftmost factor, inputs that have not the shape of the columns of the rightmost factor are refused, and products whose factors do not match are refused, also if the product is simplified because a factor is zero or the identity, and whatever the parentheses.", "quantifier": "for all products of any number of factors with any parentheses, factors being zeros, identities and other operators whose shapes are known on both sides, on one side, or not at all", "why_tests_cant": "the simplifications depend on the parentheses and on the neighbours of the zeros and identities; the tests check some products of two factors", "anchors": ["src/pyoperators/core.py: CompositionOperator.__init__", "src/pyoperators/core.py: CompositionOperator._merge", "src/pyoperators/core.py: CompositionOperator._get_attributes", "src/pyoperators/core.py: NonCommutativeCompositeOperator._apply_rules", "src/pyoperators/core.py: ZeroOperator._rule_left", "src/pyoperators/core.py: IdentityOperator._rule_left", "src/pyoperators/core.py: IdentityOperator._rule_right", "src/pyoperators/core.py: Operator._validate_arguments"]}
{"id": "C106", "title": "conjugate gradient on several processes", "statement": "On several MPI processes, pcg returns on every process its part of the solution that one process with all the elements would compute, with the same success, number of iterations and error; no process waits for ever for the others; the error is the norm of the residual of all the processes together relative to that of the right-hand side, the success is that it is less than the tolerance, and the maximum number of iterations is not exceeded; for symmetric positive definite operators and a sufficient maximum number of iterations, all the processes succeed.", "quantifier": "for all numbers of processes, distributions of the elements (also none on some processes), linear operators and preconditioners, right-hand sides, first guesses, tolerances and maximum numbers of iterations", "why_tests_cant": "the tests solve some small systems on one process; the agreement of all the processes on each decision to stop depends on every intermediate sum", "anchors": ["src/pyoperators/iterative/cg.py: PCGAlgorithm.__init__", "src/pyoperators/iterative/cg.py: PCGAlgorithm.initialize", "src/pyoperators/iterative/cg.py: PCGAlgorithm.iteration", "src/pyoperators/iterative/cg.py: pcg", "src/pyoperators/iterative/cg.py: _norm2", "src/pyoperators/iterative/cg.py: _dot"]}
{"id": "C107", "title": "expressions of operators", "statement": "The operator built for an expression of sums, differences, opposites, multiples, compositions and element-wise products of operators computes the corresponding expression of functions: (A + B)(x) = A(x) + B(x), (A - B)(x) = A(x) - B(x), (-A)(x) = -A(x), (c * A)(x) = c A(x), A(B)(x) = A(B(x)) and the product A(x) B(x), whichever rules of the identity, zero, constant, homothety, diagonal, power, dense and composite operators simplify it on the way, and also if the rules are disabled; the simplification ends.", "quantifier": "for all expressions, operands (linear or not), vectors, orders in which the rules are tried, flags, kinds of broadcasting, communicators and depths of nested simplifications", "why_tests_cant": "the tests compare the simplified operators for pairs of classes; the simplifications of nested expressions are combinations of rules that call the constructors again", "anchors": ["src/pyoperators/core.py: CompositionOperator", "src/pyoperators/core.py: AdditionOperator", "src/pyoperators/core.py: MultiplicationOperator", "src/pyoperators/core.py: Operator.__neg__", "src/pyoperators/core.py: Operator.__sub__", "src/pyoperators/core.py: Operator.__rmul__", "src/pyoperators/core.py: IdentityOperator", "src/pyoperators/core.py: ZeroOperator", "src/pyoperators/core.py: ConstantOperator", "src/pyoperators/core.py: DiagonalBase", "src/pyoperators/core.py: HomothetyOperator", "src/pyoperators/nonlinear.py: PowerOperator"]}
{"id": "C108", "title": "comparison of arrays in tests", "statement": "assert_same(actual, desired, atol, rtol) passes if and only if the arrays have the same shape (or can be broadcast, if it is asked for) and at each place the elements are equal, both NaN, or finite with a difference not greater than (rtol * min(|actual|, |desired|) + atol) in units of the eps of the less precise type; integers must be equal; otherwise it raises an AssertionError. It does not depend on the order of the arrays, and an array is the same as itself.", "quantifier": "for all shapes, elements (also infinite or NaN), numerical types and tolerances", "why_tests_cant": "the tests of the function compare some samples of types; the tests of the package only show that it passes", "anchors": ["src/pyoperators/utils/testing.py: assert_same"]}
{"id": "C109", "title": "minimisation with the functions of SciPy", "statement": "FminBFGS, FminCG, FminCOBYLA, FminLBFGSB, FminNCG, FminPowell, FminSLSQP and FminTNC call the function of SciPy of the same name with the criterion, the first guess x0 (zero if it is not given), the derivatives of the criterion, the extra arguments and the options, return its solution and keep it in current_solution, each time that they are called. If SciPy never returns a worse point than its first guess, the solution is not worse than x0, and the inner loops of DoubleLoopAlgorithm never increase the criterion that they minimise.", "quantifier": "for all criterions, first guesses, extra arguments, options, numbers of calls and functions in place of those of SciPy", "why_tests_cant": "the wrappers are not tested; tests with convex criterions would find the same minimum from every first guess", "anchors": ["src/pyoperators/iterative/optimize.py: FminWrapper", "src/pyoperators/iterative/optimize.py: FminCOBYLA", "src/pyoperators/iterative/optimize.py: FminPowell", "src/pyoperators/iterative/optimize.py: FminCG", "src/pyoperators/iterative/optimize.py: FminTNC", "src/pyoperators/iterative/optimize.py: FminNCG", "src/pyoperators/iterative/optimize.py: FminLBFGSB", "src/pyoperators/iterative/optimize.py: FminSLSQP", "src/pyoperators/iterative/optimize.py: FminBFGS", "src/pyoperators/iterative/dli.py: DoubleLoopAlgorithm.update_current_solution"]}
{"id": "C110", "title": "texts of expressions of operators", "statement": "The text of an expression of operators (str(op), print(op)), read as a formula in which * is the composition, + the sum, × the element-wise product and f(g) the application, with the usual precedences, is the operator: it stands for the function that the operator computes. Hence operators with the same text compute the same function.", "quantifier": "for all expressions made of sums, products and compositions of linear and nonlinear operators, of any size and depth, and all meanings of the names", "why_tests_cant": "tests/test_str.py compares the texts of compositions of up to four operators with expected texts and leaves out sums; whether a text stands for the operator is a matter of all the expressions", "anchors": ["src/pyoperators/core.py: CompositeOperator.__str__", "src/pyoperators/core.py: CompositionOperator.__str__"]}
{"id": "C111", "title": "callbacks of iterative algorithms", "statement": "The callback of an iterative algorithm is called once after each iteration, in order, with the number of the iteration and the new values of the variables, also after the iteration that stops the algorithm; an exception that it raises reaches the caller. Displaying or saving them does not change what the algorithm computes, and an algorithm whose callback has raised an exception can be continued.", "quantifier": "for all algorithms, all callbacks, all states and all numbers of iterations, and each of the methods next, run, cont and restart", "why_tests_cant": "the tests run a few algorithms with one variable, and callbacks that only print; that a callback is harmless is a statement about all the algorithms, all the ends of the iterations and all the callbacks", "anchors": ["src/pyoperators/iterative/core.py: IterativeAlgorithm.callback", "src/pyoperators/iterative/core.py: IterativeAlgorithm.next", "src/pyoperators/iterative/core.py: IterativeAlgorithm._set_callback"]}
{"id": "C112", "title": "conversions to floating and complex data types", "statement": "complex_dtype, float_dtype and float_or_complex_dtype return, for each numeric data type, a data type of NumPy of the kind that their names tell, into which each value (or its real and imaginary parts) is converted exactly; so does float_intrinsic_dtype up to double precision. TypeError is raised for the others. The functions are idempotent and consistent with each other (the floating data type of the complex one is the floating one, and conversely), and keep the order of the bytes.", "quantifier": "for all the data types of NumPy and all their finite values", "why_tests_cant": "the tests compare some data types with expected ones; that no value is changed is a statement about all the values of all the formats, 2^64 of them for a single data type", "anchors": ["src/pyoperators/utils/misc.py: complex_dtype", "src/pyoperators/utils/misc.py: float_dtype", "src/pyoperators/utils/misc.py: float_intrinsic_dtype", "src/pyoperators/utils/misc.py: float_or_complex_dtype"]}
{"id": "C113", "title": "sums, differences, opposites and quotients of operators", "statement": "a + b, a - b, -a and a / b compute the sum, the difference, the opposite and the quotient of what the operators compute, whether they are linear or not; the sum of linear operators is linear and its transpose is the sum of the transposes. With linear operators, scalars and arrays in sums stand for the operators that multiply by them; with the others, they are constants, as in products and quotients.", "quantifier": "for all operators, linear, constant or neither, all scalars, arrays and lists on both sides, all inputs", "why_tests_cant": "the tests check the types of some sums and quotients, and values for linear operators; the meaning of the four operations is a statement about all the operators and all the inputs", "anchors": ["src/pyoperators/core.py: Operator.__add__", "src/pyoperators/core.py: Operator.__radd__", "src/pyoperators/core.py: Operator.__sub__", "src/pyoperators/core.py: Operator.__rsub__", "src/pyoperators/core.py: Operator.__neg__", "src/pyoperators/core.py: Operator.__truediv__", "src/pyoperators/core.py: Operator.__rtruediv__", "src/pyoperators/core.py: ConstantOperator.__neg__", "src/pyoperators/core.py: ZeroOperator.__neg__"]}
{"id": "C114", "title": "comparison of nested objects in tests", "statement": "If assert_eq(a, b) raises no exception, the same is found at the same places of a and b, at any depth of lists, tuples, dictionaries and arrays: numbers within a relative tolerance of 1e-7, NaN with NaN, equal strings, and nothing in one of them that is not in the other. An object is equal to a copy of itself, and the order of the arguments does not matter.", "quantifier": "for all nested objects of any depth, and all the places in them", "why_tests_cant": "assert_eq is what the tests rely on: a test that passes because of a wrong comparison cannot tell; the objects are nested in unboundedly many ways", "anchors": ["src/pyoperators/utils/testing.py: assert_eq"]}
{"id": "C115", "title": "The decorators of a class of operators set the flags that they document, and only for the class and its heirs", "statement": "Each of the twenty decorators (linear, square, symmetric, inplace_only, ...) gives the class the flags that its documentation announces and leaves the others; several decorators may be applied in any order; `Operator` and the other classes that do not inherit from the decorated one keep their flags, and a class that inherits from it has them.", "quantifier": "all hierarchies of classes (any method resolution orders and any flags of their own), all decorators, all lists of decorators and all their permutations", "why_tests_cant": "A test decorates a few classes; the interplay of the attributes that are inherited, copied and overridden depends on the whole hierarchy and on the order of the decorators.", "anchors": ["src/pyoperators/flags.py:flags", "src/pyoperators/flags.py:orthogonal", "src/pyoperators/flags.py:inplace_only", "src/pyoperators/core.py:Operator._set_flags"]}
{"id": "C116", "title": "The value of a nested expression of sums, products and compositions is what its operands compute", "statement": "For an expression in which sums and element-wise products of operators are operands of compositions, whose operands are again compositions or sums, a call with an output writes in it what the operands compute, whatever the buffers that the nested operators take from the shared pool and put back in it; the input and the other arrays of the user are not modified and are not left in the pool.", "quantifier": "all expressions of any depth and size, all shapes, all operands, all contents of the memory and of the pool", "why_tests_cant": "The nested calls share a pool of buffers; which buffer an operator takes depends on the sizes of the operands, on the number of groups of the enclosing compositions and on the previous calls.", "anchors": ["src/pyoperators/core.py:CompositionOperator.direct", "src/pyoperators/core.py:CommutativeCompositeOperator.direct", "src/pyoperators/memory.py:MemoryPool.get_if"]}
{"id": "C117", "title": "The rule manager is a dictionary with lexically scoped contexts", "statement": "Any program of assignments, registrations, updates, removals, contexts and caught exceptions raises an exception exactly when it does with a plain map of triggers in which a context assigns its keywords on top of the triggers and the triggers are put back after it, and leaves the same value for every trigger; a registered rule is known under the name it has been registered with.", "quantifier": "all programs of any length and nesting, in any state and inside any active contexts", "why_tests_cant": "Programs of nested contexts, removals and exceptions are unbounded.", "anchors": ["src/pyoperators/rules.py:RuleManager.__setitem__", "src/pyoperators/rules.py:RuleManager.pop", "src/pyoperators/rules.py:RuleManager.update", "src/pyoperators/rules.py:RuleManager.register", "src/pyoperators/rules.py:RuleManager.__enter__", "src/pyoperators/rules.py:RuleManager.__exit__"]}
{"id": "C118", "title": "The input and output shapes of dense block diagonal operators agree", "statement": "The output shape inferred from an accepted input shape is accepted, the input shape inferred back from it gives the same output shape, and the output side of an operator is the input side of its transpose; an accepted output shape is the one of the input shape inferred from it, and an operator instantiated with explicit shapes has an input and an output shape that correspond to each other.", "quantifier": "all data shapes, numbers of axes, leftward and rightward broadcasts, input and output shapes", "why_tests_cant": "All shapes, with any number of extra and additional dimensions.", "anchors": ["src/pyoperators/linear.py:DenseBlockDiagonalOperator.reshapein", "src/pyoperators/linear.py:DenseBlockDiagonalOperator.reshapeout", "src/pyoperators/linear.py:DenseBlockDiagonalOperator.validatein", "src/pyoperators/linear.py:DenseBlockDiagonalOperator.validateout", "src/pyoperators/core.py:Operator._init_inout"]}
{"id": "C119", "title": "Dense operators have the axes and the data type that they are given", "statement": "A dense or dense block diagonal operator that is instantiated has the numbers of input and output axes asked for, at least one of each, the dimensions of the data are split into extra, output and input dimensions accordingly, and the type of its elements is the keyword dtype, or the one of the data converted to a real or complex type.", "quantifier": "all shapes of data, all combinations and values of the keywords naxes, naxesin, naxesout, dtype", "why_tests_cant": "All combinations of keywords and all shapes.", "anchors": ["src/pyoperators/linear.py:DenseBase.__init__", "src/pyoperators/linear.py:DenseOperator.__init__", "src/pyoperators/linear.py:DenseBlockDiagonalOperator.__init__"]}
{"id": "C120", "title": "proxies have the shapes and the flags of the operators that they stand for", "statement": "proxy_group returns as many proxies as asked for; a proxy has the input and output shapes of its operator, or those given for it, infers and accepts the same shapes and has the same flags, whichever proxy of the group has been used last, and so do its associated operators.", "quantifier": "all groups, all operators of explicit, implicit or unconstrained shapes, all shapes given, all access histories", "why_tests_cant": "All shapes and all histories of accesses; the tests only use proxies of one explicit square shape.", "anchors": ["src/pyoperators/proxy.py:proxy_group", "src/pyoperators/proxy.py:ProxyBase", "src/pyoperators/proxy.py:ProxyReverseBase", "src/pyoperators/proxy.py:ProxyOperator.__init__", "src/pyoperators/core.py:Operator._init_inout"]}
{"id": "C121", "title": "the products of variables stand for the products that are written", "statement": "The products of scalars, linear operators, variables and transposed variables can be built whenever they make sense (matrix times vector, quadratic forms, outer products, scalar multiples), are refused otherwise, and the operator that is returned and its transpose stand for the product that is written, whatever the values of the variables.", "quantifier": "all sequences of scalars, linear operators and variables, all values of the variables", "why_tests_cant": "Products of any length, with scalars in any position; whether they are accepted depends on how the scalars are moved.", "anchors": ["src/pyoperators/core.py:Variable", "src/pyoperators/core.py:VariableTranspose", "src/pyoperators/core.py:Operator.__mul__", "src/pyoperators/core.py:CompositionOperator._apply_rule_homothety"]}
{"id": "C122", "title": "deprecating a function or a class only adds a warning", "statement": "A function or a class decorated with 'deprecated' behaves as the function or the class that is decorated, apart from a warning at each call or instantiation: same results and exceptions, same attributes, same initialisation of the objects.", "quantifier": "all functions and sequences of calls, all classes, all hierarchies of base classes, all attributes, all arguments", "why_tests_cant": "All class bodies and hierarchies; the documentation only shows a class with an empty body.", "anchors": ["src/pyoperators/utils/misc.py:deprecated"]}
{"id": "C123", "title": "the text of a shape identifies it", "statement": "strshape writes different texts for different shapes: two shapes have the same text only if they are equal and their ellipsis (broadcast) is on the same side; None and the empty shape are distinguished from all the others.", "quantifier": "all shapes, all dimensions, both sides of the ellipsis", "why_tests_cant": "All pairs of shapes: the spaces, the quotes and the parentheses of the tuple are removed from the text, which could make two shapes alike.", "anchors": ["src/pyoperators/utils/misc.py:strshape"]}
{"id": "C124", "title": "an enumeration identifies its elements", "statement": "strenum, which writes the choices in the error messages, writes different texts for different lists of choices, and refuses the empty list only.", "quantifier": "all lists of strings, all separators; all lists of shapes", "why_tests_cant": "All pairs of lists, of any length.", "anchors": ["src/pyoperators/utils/misc.py:strenum", "src/pyoperators/core.py:CommutativeCompositeOperator._merge_shape"]}
{"id": "C125", "title": "the messages of the processes are distinguished and aligned", "statement": "The lines that strinfo returns for the same message in the processes of a node are pairwise different and have the same length; different messages give different lines.", "quantifier": "all numbers of processes, all ranks, all messages", "why_tests_cant": "All numbers of processes; the tests run with one.", "anchors": ["src/pyoperators/utils/misc.py:strinfo"]}
{"id": "C126", "title": "sizes are written exactly", "statement": "The number and the unit that strnbytes returns are those of the number of bytes: their product is the number of bytes, the number is less than 1024 (but for GiB) and not less than one (but for bytes).", "quantifier": "all numbers of bytes", "why_tests_cant": "All sizes, around all the thresholds.", "anchors": ["src/pyoperators/utils/misc.py:strnbytes"]}
{"id": "C127", "title": "temporary arrays have the data type that is requested", "statement": "The array that the memory pool hands out has the requested shape and data type, whatever arrays it has been given, so that a sum of operators, which takes temporary arrays from the pool, returns the sum of the values of its operands.", "quantifier": "all pools, all requests, all histories of the pool, all sums, inputs that are preserved or not", "why_tests_cant": "All histories of the pool, which is global: the arrays in it depend on all the previous calls.", "anchors": ["src/pyoperators/memory.py:MemoryPool.view", "src/pyoperators/memory.py:iscompatible", "src/pyoperators/core.py:CommutativeCompositeOperator.direct", "src/pyoperators/core.py:Operator.__call__"]}
{"id": "C128", "title": "a call that is refused leaves the arrays unchanged", "statement": "If the call of an operator raises an exception because of its arguments (data type or shape of the output, shape of the input, update of the output), the input and the output given by the user have not been modified.", "quantifier": "all operators, all flags, all arguments, all contents of the memory", "why_tests_cant": "All combinations of flags, types and shapes; the tests check that the exception is raised, not what has been written before.", "anchors": ["src/pyoperators/core.py:Operator._validate_arguments", "src/pyoperators/core.py:Operator.__call__"]}
{"id": "C129", "title": "the conjugate of an operator computes conj(A(conj(x)))", "statement": "For an operator that defines its method direct, A.C(x) is the conjugate of the value of A for the conjugate of x, and x is not modified, whatever temporary arrays the method direct takes from the memory pool: the input and the output that it is given are not in the pool.", "quantifier": "all operators, all inputs, all contents of the pool", "why_tests_cant": "All operators written by the users and all contents of the global pool; the operators of the tests take no temporary array.", "anchors": ["src/pyoperators/core.py:Operator.conjugate", "src/pyoperators/memory.py:MemoryPool.get"]}
{"id": "C130", "title": "the text of an operator is a call that rebuilds its parameters", "statement": "repr(A) does not raise an exception and is a call of the class of A, in which the parameters that differ from their default values have the values of A; arrays of one dimension and at most two elements that have the same text are equal.", "quantifier": "all classes of operators, with any parameters, all values of the attributes, all arrays", "why_tests_cant": "All classes and all values; the tests only check the text of a deleted operator.", "anchors": ["src/pyoperators/core.py:Operator.__repr__"]}
{"id": "C131", "title": "flags of block operators are sound", "statement": "If each block satisfies its flags, then the block diagonal, block column and block row operators (whose blocks are added) satisfy all the flags that the library gives to them (linear, real, square, symmetric, hermitian ...).", "quantifier": "all numbers of blocks, all functions computed by the blocks, all flags of the blocks, all partitions of the input and of the output", "why_tests_cant": "Unbounded numbers of blocks and all functions; a wrong flag only shows in the simplifications and the associated operators that rest on it.", "anchors": ["src/pyoperators/core.py:BlockOperator._merge_flags", "src/pyoperators/core.py:BlockDiagonalOperator._merge_flags", "src/pyoperators/core.py:BlockRowOperator.__init__", "src/pyoperators/core.py:BlockOperator._get_attributes"]}
{"id": "C132", "title": "deleting an operator deletes it and its associated operators, and nothing else", "statement": "A.delete(), or the deletion of any of the operators associated to A (A.C, A.T, A.H, A.I, A.I.C ...), turns A and all its associated operators into deleted operators, which hold no reference any more, and no other operator; each deleted object counts once, with its memory footprint, in the bytes that trigger the garbage collections; and to delete again any of them changes nothing.", "quantifier": "all operators (flags, rules, methods), all chains of attributes from which the deletion is asked for, all footprints, all other operators of the program, all thresholds", "why_tests_cant": "The associated operators share objects in many ways according to the flags, and the chains of attributes are unbounded.", "anchors": ["src/pyoperators/core.py:Operator.delete", "src/pyoperators/core.py:Operator._generate_associated_operators", "src/pyoperators/core.py:DeletedOperator", "src/pyoperators/memory.py:garbage_collect", "src/pyoperators/nonlinear.py:PowerOperator.nbytes"]}
{"id": "C133", "title": "the settings of the environment are honoured or replaced by the defaults", "statement": "An integer setting (alignment of the memory) or a switch (no MPI, verbose) that is written in its environment variable as an integer, possibly with white space around it, has this value; a variable that is not set or blank gives the default; another text gives the default with a warning; and the library can allocate memory with all the settings that it accepts.", "quantifier": "all texts of the variables, all integers, all addresses and sizes of the buffers", "why_tests_cant": "The texts and the integers are unbounded; the settings are read once, when the library is imported.", "anchors": ["src/pyoperators/config.py:getenv", "src/pyoperators/config.py:MEMORY_ALIGNMENT", "src/pyoperators/config.py:NO_MPI", "src/pyoperators/config.py:VERBOSE", "src/pyoperators/memory.py:empty"]}
