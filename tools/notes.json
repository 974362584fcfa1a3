{
 "C01": "Model of split in both forms; the three parts of the claim (tiling, balance, rank form).",
 "C02": "A communicator is its size; allgather is the list over the ranks. The rejections are covered.",
 "C03": "All ranks of the communicator; adjointness with respect to the sum of the local inner products.",
 "C04": "Address arithmetic of empty for every base address.",
 "C05": "Invariant over all histories, including failing operations, and for the context managers with any body.",
 "C06": "Request met, view succeeds, best fit, and exclusivity over whole executions for any notion of disjointness.",
 "C07": "The code violates the property when the operator raises (witness proved); proved for normal returns.",
 "C08": "The code violates the requirements when the pool holds unaligned or non-contiguous arrays (witnesses proved); proved otherwise.",
 "C47": "Exact condition of a collection and value of the counter after any history.",
 "C51": "The code loses the result of a block applied in place on a part that has to be copied (witness proved); proved for distinct arrays.",
 "C09": "The code violates the property when the same manager object is entered twice (witness proved); proved for contexts opened with distinct managers.",
 "C10": "The code deduces idempotent from symmetric+orthogonal and hermitian+unitary (witness: reflection); proved for all other declarations.",
 "C11": "The code violates the identity of the objects for some complex flags and for '.' rules (witnesses proved); proved for regular flags and all chains of attributes.",
 "C12": "Chains of functions of any sizes; separability on vectors of any size.",
 "C13": "The code computes hermitian from the flags symmetric (witness proved); everything else is proved.",
 "C42": "Invariants of the sorted rule lists for all histories of set_rule; replacement, priority and removal.",
 "C44": "The code accepts unknown names in rules.txt (witness proved); last value wins is proved.",
 "C52": "All flags, rules and methods, all chains.",
 "C53": "All lists of operands.",
 "C14": "All rule tables; termination for merging rules with a bound on the number of iterations, and a rule table on which the loop runs forever.",
 "C15": "All rule tables, all lists of operands; termination always.",
 "C16": "All operands and rules; the absorption rules are assumed sound.",
 "C54": "The code permutes the operands and not the slices when a homothety is not the first operand (witness proved); proved otherwise.",
 "C55": "The code does not scale the elements out of the slices (witness proved); proved for the elements of the slices.",
 "C56": "Contexts entered without keywords apply again the keywords of the last call (witness proved).",
 "C17": "Partial: proved for out-of-place and in-place calls under the stated restrictions; the negations (in-place call with a single out-of-place operand, operand using the pool, non-contiguous output, requirement on the output only) are proved.",
 "C18": "Both halves proved on the model of _get_info.",
 "C57": "Partial: proved if the first operand does not work in place and no operand uses the pool; negations proved otherwise.",
 "C19": "Partial: proved for operands without requirement on their output when a temporary buffer is needed; the negation with a requirement is proved.",
 "C50": "Partial: proved for all layouts and flags, except preserve_input=False with an output sharing the memory of the input (negation proved) and the updates of outputs through temporary buffers (negations proved).",
 "C20": "All lists of shapes.",
 "C21": "All pairs and triples of partitions.",
 "C26": "Proved for operands whose output is explicit or implicit, and for any operands with inverse reshape methods; the code accepts inconsistent operands otherwise (witness proved).",
 "C58": "Partial: proved for operands without their own validation whose implicit shapes agree; the code only looks at the first operand otherwise (witnesses proved).",
 "C59": "Partial: proved for operands without their own validation; the validation of inner operands is never called (witness proved).",
 "C60": "Flags and methods: proved. Consistency of the declared shapes: partial, the code accepts contradictory shapes in two cases (witnesses proved).",
 "C22": "All partitions of an existing or of a new axis.",
 "C23": "Out of place: all block matrices over a semiring, for the three classes. In place: proved when no part of the input has to be copied to meet the requirements of its block; otherwise the result is overwritten (witness proved).",
 "C24": "Composition, sum and product of block operators, and separable operators, for known partitions. Three violations: product of block rows, custom operation, separable operator added to a block row (witnesses proved).",
 "C25": "Violated for every block column or row with an unknown partition (proved); known partitions and block diagonal operators proved.",
 "C61": "Proved for block diagonal operators; block columns do not check their input, block rows do not check their output (witnesses proved).",
 "C62": "Proved for several blocks; a single block loses the new axis (witness proved).",
 "C63": "Proved for operators whose output dimension only depends on the input dimension along the axis; otherwise zero can be inferred (witness proved).",
 "C27": "Compositions, sums and products of diagonal, mask, scalar, identity and zero operators, for every broadcast kind. Violations (witnesses proved): the sum of two masks is a logical or; the product of an array diagonal and of a rightward one broadcasts to the wrong side or raises.",
 "C28": "Classification and effect for every data and broadcast kind, provided that the conversion to double precision is exact on the tests for 0, 1 and equality; a witness shows that it is not for extended precision.",
 "C38": "Every recursion order, iteration count and update function, with and without buffers updated in place. Initial buffers that overlap partially (views sharing only some elements) are not modelled.",
 "C39": "Steps, the counter of normal runs and the restart are proved. Violations (witnesses proved): restart raises when the initialisation stops normally, the counter counts the iteration that raised an abnormal stop, run(0) runs without bound, cont starts an algorithm of order 2 that has not been started.",
 "C40": "Proved for every algorithm and stop condition; the bound on the iterations needs order - 1 <= maximum, otherwise the equality test is never true (witness proved).",
 "C41": "Exact real arithmetic, in a real inner product space; the conjugacy also needs the preconditioner to be symmetric positive definite.",
 "C29": "Adjoint, transposes, left inverse and masking proved for every mask and broadcast kind. Violations (witnesses proved): the composition of the transpose of a pack operator and of itself is simplified into the identity; a mask of rank zero broadcast over a vector raises instead of giving the identity.",
 "C30": "Both orders, every shape of at least two dimensions (one dimension is documented as not implemented, and rank zero raises).",
 "C31": "Proved for the implemented methods when the two sums are exact, and without condition for the methods that do no sum. Violations (witnesses proved): two documented methods are not implemented; 2^52 is rounded to 2^52 - 1 in double precision by rhtmi.",
 "C32": "Exact arithmetic in an ordered field, scalar and array thresholds; NaN and signed zeros are not modelled.",
 "C33": "Proved on the positive numbers, and on every number for integer exponents, if the product of the exponents is not within the tolerance of a special exponent. Violations (witnesses proved): the square root of the square is simplified into the identity; exponents close to 1 are mistaken for 1.",
 "C34": "All conventions, all angles, exact arithmetic; one rotation per block of angles.",
 "C64": "Proved unless the mask has several dimensions and keeps everything, in which case the result is not a vector (witness proved).",
 "C65": "The product is proved on the whole domain and the inverse on the positive numbers, if the exponent is not within the tolerance of a special one. Violation (witness proved): the inverse of the square on the negative numbers.",
 "C35": "Difference and sum operators along any axis of arrays of any shape, tridiagonal operators (transpose and adjoint) and symmetric band operators. Violations (witnesses proved): sums along negative axes that are neither the first nor the last one, transposes of differences of complex vectors, tridiagonal operators with nearly equal diagonals, transposes of band operators.",
 "C37": "All access sequences with any exceptions for the uniqueness and the identity of the operator. Violation (witness proved): after the callback has raised, the previous proxy is given an operator that has been deleted.",
 "C43": "All abscissa and all positions of the integrated axis, exact arithmetic. Violation (witness proved): the weights of integer abscissa are truncated.",
 "C45": "All well-nested programs, with exceptions. Violation (witness proved): a reset inside a running block does not discard the time before it.",
 "C49": "All coefficients of 1-dimensional and 2-dimensional transforms.",
 "C66": "All sizes and coefficients, if diagonals that np.allclose declares equal are equal. Violation (witness proved): nearly equal diagonals.",
 "C67": "Tridiagonal operators, band operators without lower diagonals or with one upper diagonal, symmetric band operators stored by their lower part, all transposed arrays. Violations (witnesses proved): band operators with other numbers of diagonals, symmetric band operators stored by their upper part.",
 "C36": "Proved with exact arithmetic, for the real operators built from FFTW transforms, for any number of samples n >= 1, any correlation length, any contents of the buffers. Partial: the number of matrices must be one or the number of input rows (fewer matrices leave output rows unwritten), and without samples the constructor raises.",
 "C48": "Exact arithmetic, grids of any number of dimensions; kernels not larger than the input. The constructor, transpose, sum, composition, product by real scalars and exchange with the Fourier operators are proved for all operators the rules can build. Partial: complex scalars and transposes of copies.",
 "C68": "Exact arithmetic, grids of any number of dimensions. The inverse is proved, the operator H is the adjoint up to the number of elements only, and transforms along some of the axes divide by the total number of elements.",
 "C46": "The effect of the operators, their transposes and compositions are proved for all shapes, numbers of axes and broadcasts, with merged axes as in the code. Partial: mixed broadcasts, rightward broadcasts with different numbers of extra axes, scalars with rightward broadcasts, different groupings of axes, broadcast inputs and empty blocks violate the statement.",
 "C69": "Proved for real operators without unary rules (all flags, all chains). Fails for complex operators: the associated operators are created without a data type and get the flag real (and orthogonal if unitary).",
 "C70": "Proved for real operators given by methods: whatever the copy can compute is right. Fails: some associated operators of the copy cannot be evaluated, and the conjugate of a copy is wrong for complex operators.",
 "C71": "proved for unit vectors and proper angles; C71_simplify_fails: the composition is simplified into the identity also for vectors that are not unit vectors, azimuths outside [0, 2 pi) and poles",
 "C72": "values proved; the fusion with block operators is proved for scalar parameters only, and C72_blocks_fails shows a wrong result for an array parameter; C72_maximum_fails: the documentation of MaximumOperator says the opposite of what it does",
 "C73": "proved for real vectors; C73_complex_fails: complex vectors are not normalised to length one",
 "C74": "the eigenvalues, the symmetry, the trace and the positive powers are proved for all decompositions; the inverse, the determinant, the other powers and the condition number for complete ones (positive for the condition number); the _fails theorems show that these hypotheses are needed",
 "C75": "proved when the algorithm returns; it returns if and only if the Krylov vectors are independent (C75_returns_partial). C75_returns_fails: ValueError whenever maxiter is larger than the number of rows, for instance the default value; C75_identity_fails; C75_v0_fails: v0 is normalised in place; C75_run_fails: run(n) with n < maxiter mixes zeros into the tridiagonal matrix. The eigendecomposition of the tridiagonal matrix by SciPy is assumed to be exact",
 "C76": "the value and the gradient are proved for all sequences of calls with non-empty arrays, the gradient where the derivative of each norm is right: C76_norms_partial gives these points (symmetric covariance, delta not negative, p > 1 or no zero). The _fails theorems: non-symmetric covariance, negative delta, integer arrays truncated by huber, data with several dimensions refused, cached result returned for an array of another shape, empty arrays, priors without a hyperparameter ignored",
 "C77": "optimal_step is the only minimum for strictly convex quadratic criterions (C77_optimal, C77_decrease); backtracking is characterised for positive criterions. C77_backtracking_fails: the optimal step is never tried, so that for a quadratic criterion the result is tau times the optimal step (C77_backtracking_quadratic); C77_scale_fails: the scalar that multiplies another norm is lost; C77_nonpositive_fails: no trial if the criterion is not positive. The wrappers of SciPy are not modelled",
 "C78": "C78_gradient_partial: gradient is the gradient of the likelihood plus twice the penalization; C78_hessian_partial: hessian_p is half of its derivative; C78_z_partial: z is the diagonal of B A Bᵀ. The _fails theorems show when these differ from the claim; C78_gamma holds as claimed. The optimisers of SciPy and the Lanczos approximation (C75) are not part of it",
 "C79": "conjugacy, decrease, finite termination, the number of iterations and restarts are proved; C79_result_partial says what is returned. C79_nan_fails and C79_zero_fails: NaN is returned if the minimum is reached exactly; C79_loop_fails: with tol only the algorithm then never stops; C79_x0_fails: x0 is ignored; C79_gtol_fails: gtol is compared to the square of the norm",
 "C80": "C80_applied_partial holds for contiguous data; sums, products and the cases where the rule applies are proved. C80_applied_fails: for the transpose of an array the operator is applied to the array that is not transposed; C80_memory_fails: for a broadcast view, memory outside of the array is read; C80_empty_fails: a constant cannot be empty",
 "C81": "C81_known_partial: known shape and contiguous data; C81_unknown_partial: unknown shape, under conditions on the dimension of the data along the axis, the rank of the blocks and the axis; C81_after, C81_before and C81_pointwise_partial: values of the operators. The _fails theorems are the cases that are left out: C81_length_fails (wrong zeros), C81_axis_fails and C81_empty_fails (exceptions), C81_size_fails (a wrong size is accepted), C81_rank_fails, C81_strides_fails (non contiguous data), C81_pointwise_fails (sum with a block operator whose input and output axes differ)",
 "C82": "C82_least_partial: versions of NumPy before 2, factors greater than 1, no overflow of the products of the grid, numbers up to 2^53. C82_numpy2_fails: with NumPy 2 the function always raises an exception; C82_one_fails: so does the factor 1; C82_overflow_fails: values that overflow are returned; C82_rounding_fails: no value for 2^53 + 1",
 "C83": "",
 "C84": "deferral, restoration by uninterruptible and immediate interruption proved; C84_normal_partial: interruptible without exceptions; C84_iterations_partial: Ctrl-C in an iteration that does not stop the algorithm. C84_exception_fails: interruptible does not restore the handler after an exception; C84_lost_fails, C84_last_fails: Ctrl-C is lost if the block raises an exception, such as StopIteration in the last iteration; C84_nested_fails: nested blocks are interrupted",
 "C85": "settingerr is proved; setting and pool_threading restore only if no exception is raised (C85_exception_fails, C85_threads_fails) and the attribute is not deleted (C85_deleted_fails); an attribute of the class is copied to the object (C85_class_fails)",
 "C86": "for dtypes that represent the elements of the matrix; C86_integer_fails: the matrix of an operator without dtype has integer elements, so that its values are truncated",
 "C87": "C87_exact_partial: attributes without floating point numbers and arrays, C87_tolerance: arrays of the same shape. C87_shapes_fails: data of different shapes raise an exception; C87_broadcast_fails: or are equal if they can be broadcast; C87_symmetric_fails, C87_transitive_fails: the tolerances are relative to the second value; C87_closure_fails: functions with different values of the variables of the enclosing function are equal",
 "C88": "C88_array_partial and C88_pointwise_partial: arrays on the left are lists or tuples. C88_ndarray_fails: the product of a NumPy array by an operator is an array of operators; C88_float_fails: the exponent 2.0 raises TypeError; C88_associative_fails: products that mix linear and non-linear operators are not associative",
 "C89": "the product is proved for the six formats; C89_transpose_partial: the formats CSR, CSC, COO and DOK, in which SciPy exchanges arrays. C89_scalar_fails: the product by a scalar is an infinite recursion",
 "C90": "the direct product is proved; C90_associated_partial: arrays, scalars and real linear operators; C90_scipy_partial: real operators. C90_complex_fails: the transpose of a complex linear operator of SciPy is its adjoint; C90_scipy_fails: rmatvec is not the adjoint",
 "C91": "C91_positions_partial: values that are not callable; C91_exclusions_partial: values for which equality is identity. C91_identity_fails: first_is_not compares with != but ifirst_is_not with `is not`; C91_callable_fails: a callable value is called instead of compared",
 "C92": "C92_partial: scalars, strings, sequences and generators, at least one argument. C92_set_fails: a set of length 1 raises; C92_empty_fails: no argument raises ValueError",
 "C93": "C93_values_partial and C93_success_partial: NumPy 1, ufuncs and Python functions. C93_nan_fails: ProductOperator ignores skipna; C93_numpy2_fails: ufunc reductions always raise with NumPy 2; C93_callable_fails: other callables raise UnboundLocalError; C93_explicit_fails: axis=None with an explicit shape raises TypeError",
 "C94": "C94_operator and C94_class hold without restriction; the others are partial: C94_composition_fails, C94_merged_fails, C94_sum_fails, C94_block_fails (the output of blocks has the class of the first block), C94_inplace_fails, C94_static_fails, C94_function_fails",
 "C95": "C95_partial: consistent communicators; C95_reject_partial: operands that all specify communicators; C95_sum_partial: the same input and output communicator. C95_incompatible_fails: communicators separated by an operand that specifies none are not compared; C95_sum_fails: an operand that adapts receives the input communicator on both sides",
 "C96": "C96_diagonal holds for all data without zero dimension and at most one dimension equal to 1 (the others are ambiguous and rejected as such); C96_block_partial: operands that accept arrays of one and two dimensions; C96_first_partial: operands that reshape vectors in the same way. C96_block_fails: blocks of operands with more dimensions; C96_first_fails: sums and block columns use the first operand only",
 "C97": "C97_partial: the keywords of recursions (all orders, variables and data types, except complex values with a default of half precision; order 1 for in-place recursions); C97_missing, C97_shapes and C97_keywords hold for all keywords; C97_buffers_partial: initial values whose buffers are equal or disjoint. C97_unused_fails: x_old2 without x_old and y_old without y are ignored; C97_inplace_fails: x_old in an in-place recursion; C97_half_fails: float16 with complex values; C97_overlap_fails: overlapping views",
 "C98": "C98_order and C98_associated hold in general; C98_kept_partial: no group follows the last composition of the operands. C98_dissolved_fails: A * B * G dissolves the group G and loses its data type, A * (B * G) does not",
 "C99": "C99_diagonal_partial and C99_numexpr_partial: all expressions whose variables other than the data and the input are scalars of global_dict, with names that are not those of local variables of the methods. C99_names_fails: variables called input, op, expr; C99_transposed_fails: arrays of global_dict with a rightward broadcast; C99_sliced_fails: arrays of global_dict when the operator is distributed over blocks",
 "C100": "C100_partial: documented binary rules whose reference has its associated operators generated; C100_same and C100_unary hold for the rules '.,.' and the unary rules. C100_generated_fails: rules with symbols are not applied before the associated operators have been generated; C100_inverse_fails: IC, IT and IH are accepted as subjects and raise ValueError when applied; C100_unchecked_fails: rules without '.' and any text as predicate are accepted; C100_swapped_fails: the function of a rule (class, '.') receives its arguments in the other order in sums and products",
 "C101": "C101_output, C101_kind, C101_composition and C101_order hold for all types; C101_values_partial: except 64-bit integers converted to double precision; C101_successive_partial: operators of floating point or complex types, or types that can be cast one to another. C101_values_fails: 2^53 + 1; C101_successive_fails: int16, uint16 and float32",
 "C102": "C102_attributes_partial: programs that use valid keys only, remove the attributes of a key before freeing it, and duplicate communicators without attributes to be copied (Careful); C102_transfer_partial: outputs given with their type and of the shape of the input, and IN_PLACE; C102_row_partial: outputs given as arrays whose first of several dimensions has length one. C102_keyval_fails: the number of a freed key is given again and reads the attribute of the former key; C102_freed_fails: a freed key becomes valid again; C102_dup_fails: Dup copies no attributes; C102_array_fails: outputs given as arrays are refused; C102_shape_fails: buffers of other shapes",
 "C103": "C103_filter and C103_combine_split hold for all inputs; C103_free_partial: programs without exceptions; C103_print_partial: messages that are texts; C103_combine_partial: totals below 2^63. C103_free_fails: n nested groups lose n communicators if the innermost body raises; C103_print_fails: NaN, 1 and True, arrays; C103_combine_fails: the total wraps around",
 "C104": "C104_functions and C104_gradient hold for all programs (arguments with at least one element); C104_generate_partial: one parameter per prior and one norm more than priors. C104_default_fails: the default values of deltas and ps raise IndexError; C104_norms_fails: with as many norms as priors, the last prior is ignored",
 "C105": "C105_shapes_partial, C105_output_partial: products in which no zero is on the left of a composition between parentheses and no identity with a shape multiplies a composition (Safe). C105_zero_fails: Z * (A * B) has no shapes, its output has the shape of the input, and mismatches are accepted; C105_identity_fails: the shape of an identity that multiplies a composition without shapes is forgotten",
 "C106": "exact real arithmetic and processes that receive the same sums. C106_complex_fails: the imaginary part of the right-hand side is dropped, although the documentation of pcg admits complex systems, and pcg reports success and an error of zero",
 "C107": "exact arithmetic in a commutative ring, one shape, no block operators; the recursion of the constructors through the rules is represented by an arbitrary depth. C107_opposite_fails: for a nonlinear operator f, -f computes -x f(x) and g - f computes g(x) - x f(x); C107_expression_partial requires that opposites and differences are those of linear operators or constants",
 "C108": "rational numbers with exact arithmetic, zero imaginary parts. C108_infinity_fails: plus and minus infinity are the same; C108_type_fails: double precision against complex single precision depends on the order. C108_scalar is the broadcasting of a number",
 "C109": "the functions of SciPy are arbitrary functions of the arguments that they receive. C109_partial: x0 zero or not given, not COBYLA, criterions with the attribute gradient or without derivative; C109_descent_partial, C109_inner_partial: not worse than zero. C109_x0_fails, C109_inner_fails: x0 is ignored; C109_cobyla_fails: COBYLA returns None; C109_gradient_fails: the derivative of the criterions of the package is not used; C109_arguments_fails, C109_args_fails: extra arguments raise TypeError",
 "C110": "texts are lists of tokens, the texts of the other operators are names, functions with other arguments or powers; shapes and block operators are left out. C110_composition holds for compositions of any names; C110_partial, C110_same_partial: Readable expressions. C110_sum_fails: the text of (A + B) * C is that of A + B * C; C110_nonlinear_fails, C110_product_fails: (f + g)(h) and (f × g)(h); C110_power_fails: powers of powers",
 "C111": "C111_quiet, C111_called hold for all algorithms and callbacks that raise nothing, the latter with a callback that saves what it is given; C111_display_partial: one variable, in-place recursions or processes other than the first one. C111_display_fails: with several variables, disp=True raises UnboundLocalError in the first iteration; C111_exception_fails: after an exception of the callback the iteration is counted but its result is lost. Callbacks that modify the attributes are left out, and so are the displayed texts and the method finalize, which the display of in-place recursions calls",
 "C112": "the data types of a little-endian x86-64, finite values as rational numbers, formats of IEEE 754 with subnormal numbers and long doubles. C112_kinds, C112_intrinsic, C112_idempotent hold for all data types; C112_exact_partial: all except integers of 64 bits (C112_integers_fails: 2^53 + 1; the conversion to the default floating data type is documented); C112_consistent_partial: all except the half precision (C112_half_fails)",
 "C113": "vectors over any field, before the simplifications of sums and products; matrices and the division by zero are left out. C113_add, C113_div hold for all operators, C113_numbers for linear ones; C113_neg_partial, C113_sub_partial: linear or constant operators. C113_neg_fails: the opposite of any other operator is x -> -x f(x); C113_sub_fails: f - f is not zero for the square; C113_constant_fails: f + 1 is x -> f(x) + x; C113_ndarray_fails: an array plus an operator is an array of operators",
 "C114": "numbers are rational or NaN; sub-classes of arrays, sets, complex and infinite numbers are left out. C114_reflexive holds for all objects; C114_sound_partial: all objects that do not have a scalar and an array, or a dictionary and a sequence, at the same place. C114_dict_fails: a dictionary is equal to the list of its keys; C114_broadcast_fails: scalars are equal to arrays, and to all the empty ones; C114_symmetric_fails: the tolerance is relative to the second argument",
 "C115": "Partial: orthogonal does not set the flag real (C115_orthogonal_fails), and the decorators raise KeyError for a class whose last parent is not a class of operators (C115_mixin_fails).",
 "C116": "Partial: in a composition, the operands that take buffers from the pool are the first one, the last one, or come after an even number of operands that are not able to work in place (C116_middle_fails for an odd number); the arrays and buffers are aligned and contiguous, and the output is not the input.",
 "C117": "Partial: all the contexts are given their keywords (C117_bare_context_fails), no manager is entered while its own context is active (C09_reentry_fails), registered names are in lower case (C117_upper_case_fails).",
 "C118": "Partial: output shapes without the extra dimensions of the blocks are accepted (C118_output_fails), explicit output shapes can contradict the input shape (C118_shapeout_fails, C118_both_fails). The characterisation of the accepted shapes, the round trip from the input and the transpose are complete.",
 "C119": "Partial: keywords naxesin and naxesout given together are positive (C119_axes_fails); the dtype is ignored by DenseBlockDiagonalOperator without extra dimension (C119_dtype_fails).",
 "C120": "Partial: C120_default_partial, C120_associated_partial, C120_kind_partial: operators with the same shapes; C120_given_partial: shapes accepted by the operator 0; C120_flags_partial: real operators that are not involutary. C120_explicit_fails: operators of different explicit shapes raise ValueError, although the documentation asks to specify their shapes; C120_history_fails: the shape inferred depends on the last access; C120_number_fails: fewer proxies; C120_kind_fails: unconstrained sides; C120_flags_fails: the associated operators of complex operators are declared real.",
 "C121": "Partial: C121_built_partial and C121_product_partial say exactly which compositions and products are built, C121_transpose_partial which ones have a transpose. C121_scalar_fails: a scalar times a transposed variable; C121_outer_fails: outer products; C121_transpose_fails: the transpose of a scaled variable; C121_quadratic_fails: a scaled quadratic form whose operator does not absorb scalars; C121_right_fails: a variable on the left of a linear operator gives an element-wise product.",
 "C122": "Partial: C122_inherited_partial: attributes that are not in the body of the class; C122_init_partial: an __init__ that does not call super; C122_instance_partial: the other classes; C122_alias_partial: the documented use. C122_body_fails: the attributes of the body are lost; C122_super_fails: an __init__ that calls super raises TypeError.",
 "C124": "Partial: choices without quotes (C124_quote_fails); the tuples of the error messages have none (C124_shapes_partial).",
 "C125": "np.log10 is supposed to be exact for the powers of ten.",
 "C126": "Partial: sizes of less than 2^53 bytes; the others are rounded (C126_rounding_fails).",
 "C127": "Partial: contiguous requests, pools without strided arrays of another type (C127_dtype_fails otherwise); sums whose input is preserved, contiguous or not converted (C127_sum_fails otherwise).",
 "C128": "Partial: out-of-place operators, inputs that need no conversion, calls without output. C128_dtype_fails, C128_shape_fails: an in-place operator converts its input in the output before it refuses it.",
 "C129": "Partial: real inputs; complex inputs if the operator takes no temporary array from the pool, or one that is larger than the buffer of the conjugate of the input. C129_pool_fails, C129_value_fails: that buffer is put back in the pool before direct reads it, and is overwritten by a temporary array of its size.",
 "C130": "Partial: constructors without **keywords; arrays that are not empty, up to the elements that are elided and to the shape. C130_keywords_fails, C130_syntax_fails: **keywords is displayed as a positional argument None; C130_empty_fails, C130_shape_fails.",
 "C131": "Partial: block columns; block rows whose blocks are linear (C131_row_fails otherwise: they are always flagged linear); block diagonals whose elements have the same positions in the input and in the output (C131_diagonal_fails: partitions along different axes).",
 "C132": "Partial: operators whose footprints can be read (C132_power_fails: SquareOperator().delete() raises an exception), whose rules return new operators and whose flags are regular in the sense of C11 (C132_unitary_fails: complex operators that are orthogonal and unitary; complex hermitian operators are not proved). The footprints of composites are given, not computed from their operands.",
 "C133": "Partial: allocations for positive alignments (C133_zero_fails: zero and negative alignments are accepted, and no memory can be allocated; C133_true_fails: 'true' does not switch on). The settings of class float, the digits of other alphabets and the texts made of digits with misplaced signs, underscores or white space are not covered."
}