{
 "claims": [
  {
   "property": "C01",
   "status": "proved",
   "theorems": [
    "Verif.Split.C01_split_partition",
    "Verif.Split.C01_split_balanced",
    "Verif.Split.C01_split_rank"
   ],
   "note": "Model of split in both forms; the three parts of the claim (tiling, balance, rank form)."
  },
  {
   "property": "C02",
   "status": "proved",
   "theorems": [
    "Verif.Split.C02_distribute_combine",
    "Verif.Split.C02_distribute_slice",
    "Verif.Split.C02_combine_rejects",
    "Verif.Split.C02_scalar_rejected"
   ],
   "note": "A communicator is its size; allgather is the list over the ranks. The rejections are covered."
  },
  {
   "property": "C03",
   "status": "proved",
   "theorems": [
    "Verif.Split.C03_gather_distribute",
    "Verif.Split.C03_adjoint",
    "Verif.Split.C03_identity_adjoint"
   ],
   "note": "All ranks of the communicator; adjointness with respect to the sum of the local inner products."
  },
  {
   "property": "C04",
   "status": "proved",
   "theorems": [
    "Verif.Memory.C04_empty_aligned_in_bounds",
    "Verif.Memory.C04_empty_array"
   ],
   "note": "Address arithmetic of empty for every base address."
  },
  {
   "property": "C05",
   "status": "proved",
   "theorems": [
    "Verif.Memory.C05_pool_invariant",
    "Verif.Memory.C05_new_pool_invariant",
    "Verif.Memory.C05_failed_operations",
    "Verif.Memory.C05_content",
    "Verif.Memory.C05_membership",
    "Verif.Memory.C05_contexts"
   ],
   "note": "Invariant over all histories, including failing operations, and for the context managers with any body."
  },
  {
   "property": "C06",
   "status": "proved",
   "theorems": [
    "Verif.Memory.C06_extract_meets",
    "Verif.Memory.C06_view_succeeds",
    "Verif.Memory.C06_view_inside",
    "Verif.Memory.C06_extract_exclusive",
    "Verif.Memory.C06_extract_best_fit",
    "Verif.Memory.C06_live_disjoint"
   ],
   "note": "Request met, view succeeds, best fit, and exclusivity over whole executions for any notion of disjointness."
  },
  {
   "property": "C07",
   "status": "partial",
   "theorems": [
    "Verif.Memory.C07_user_arrays_absent_partial",
    "Verif.Memory.C07_user_array_left_in_pool_fails"
   ],
   "note": "The code violates the property when the operator raises (witness proved); proved for normal returns."
  },
  {
   "property": "C08",
   "status": "partial",
   "theorems": [
    "Verif.Memory.C08_copy_if_partial",
    "Verif.Memory.C08_copy_if_alignment_fails",
    "Verif.Memory.C08_copy_if_contiguity_fails"
   ],
   "note": "The code violates the requirements when the pool holds unaligned or non-contiguous arrays (witnesses proved); proved otherwise."
  },
  {
   "property": "C09",
   "status": "partial",
   "theorems": [
    "Verif.Rules.C09_triggers_restored_partial",
    "Verif.Rules.C09_reentry_fails"
   ],
   "note": "The code violates the property when the same manager object is entered twice (witness proved); proved for contexts opened with distinct managers."
  },
  {
   "property": "C10",
   "status": "partial",
   "theorems": [
    "Verif.Flags.C10_flags_sound_partial",
    "Verif.Flags.C10_flags_kept",
    "Verif.Flags.C10_reflection_fails",
    "Verif.Flags.C10_reset_fails"
   ],
   "note": "The code deduces idempotent from symmetric+orthogonal and hermitian+unitary (witness: reflection); proved for all other declarations."
  },
  {
   "property": "C11",
   "status": "partial",
   "theorems": [
    "Verif.Flags.C11_same_objects_partial",
    "Verif.Flags.C11_real_flags_regular",
    "Verif.Flags.C11_hermitian_fails",
    "Verif.Flags.C11_unitary_fails",
    "Verif.Flags.C11_rule_fails"
   ],
   "note": "The code violates the identity of the objects for some complex flags and for '.' rules (witnesses proved); proved for regular flags and all chains of attributes."
  },
  {
   "property": "C12",
   "status": "proved",
   "theorems": [
    "Verif.Flags.C12_composition_flags",
    "Verif.Flags.C12_composition_separable"
   ],
   "note": "Chains of functions of any sizes; separability on vectors of any size."
  },
  {
   "property": "C13",
   "status": "partial",
   "theorems": [
    "Verif.Flags.C13_addition_flags_partial",
    "Verif.Flags.C13_addition_separable",
    "Verif.Flags.C13_addition_hermitian_fails"
   ],
   "note": "The code computes hermitian from the flags symmetric (witness proved); everything else is proved."
  },
  {
   "property": "C14",
   "status": "proved",
   "theorems": [
    "Verif.Simplify.C14_simplification_effect",
    "Verif.Simplify.C14_terminates",
    "Verif.Simplify.C14_swap_rule_diverges"
   ],
   "note": "All rule tables; termination for merging rules with a bound on the number of iterations, and a rule table on which the loop runs forever."
  },
  {
   "property": "C15",
   "status": "proved",
   "theorems": [
    "Verif.Simplify.C15_sum_preserved",
    "Verif.Simplify.C15_terminates",
    "Verif.Simplify.C15_nonempty"
   ],
   "note": "All rule tables, all lists of operands; termination always."
  },
  {
   "property": "C16",
   "status": "proved",
   "theorems": [
    "Verif.Simplify.C16_scalars_moved",
    "Verif.Simplify.C16_one_scalar_left"
   ],
   "note": "All operands and rules; the absorption rules are assumed sound."
  },
  {
   "property": "C17",
   "status": "partial",
   "theorems": [
    "Verif.Compose.C17_out_of_place_partial",
    "Verif.Compose.C17_in_place_partial",
    "Verif.Compose.C17_in_place_fails",
    "Verif.Compose.C17_pool_fails",
    "Verif.Compose.C17_noncontiguous_fails",
    "Verif.Compose.C17_requirements_fails"
   ],
   "note": "Partial: proved for out-of-place and in-place calls under the stated restrictions; the negations (in-place call with a single out-of-place operand, operand using the pool, non-contiguous output, requirement on the output only) are proved."
  },
  {
   "property": "C18",
   "status": "proved",
   "theorems": [
    "Verif.Compose.C18_large_enough",
    "Verif.Compose.C18_number_of_groups"
   ],
   "note": "Both halves proved on the model of _get_info."
  },
  {
   "property": "C19",
   "status": "partial",
   "theorems": [
    "Verif.Sum.C19_sum_partial",
    "Verif.Sum.C19_requirements_fails"
   ],
   "note": "Partial: proved for operands without requirement on their output when a temporary buffer is needed; the negation with a requirement is proved."
  },
  {
   "property": "C20",
   "status": "proved",
   "theorems": [
    "Verif.Shape.C20_broadcast",
    "Verif.Shape.C20_failure",
    "Verif.Shape.C20_order",
    "Verif.Shape.C20_grouping"
   ],
   "note": "All lists of shapes."
  },
  {
   "property": "C21",
   "status": "proved",
   "theorems": [
    "Verif.Shape.C21_merge",
    "Verif.Shape.C21_failure",
    "Verif.Shape.C21_least",
    "Verif.Shape.C21_commutative",
    "Verif.Shape.C21_idempotent",
    "Verif.Shape.C21_associative"
   ],
   "note": "All pairs and triples of partitions."
  },
  {
   "property": "C22",
   "status": "proved",
   "theorems": [
    "Verif.Block.C22_tiles",
    "Verif.Block.C22_parts",
    "Verif.Block.C22_roundtrip"
   ],
   "note": "All partitions of an existing or of a new axis."
  },
  {
   "property": "C23",
   "status": "partial",
   "theorems": [
    "Verif.Block.C23_inplace_partial",
    "Verif.Block.C23_inplace_fails",
    "Verif.Block.C23_matrix",
    "Verif.Block.C23_transpose"
   ],
   "note": "Out of place: all block matrices over a semiring, for the three classes. In place: proved when no part of the input has to be copied to meet the requirements of its block; otherwise the result is overwritten (witness proved)."
  },
  {
   "property": "C24",
   "status": "partial",
   "theorems": [
    "Verif.Block.C24_refused",
    "Verif.Block.C24_fused",
    "Verif.Block.C24_fused_commutative",
    "Verif.Block.C24_refused_commutative",
    "Verif.Block.C24_pointwise",
    "Verif.Block.C24_row_add",
    "Verif.Block.C24_composition",
    "Verif.Block.C24_separable_partial",
    "Verif.Block.C24_left",
    "Verif.Block.C24_right",
    "Verif.Block.C24_mul_fails",
    "Verif.Block.C24_operation_fails",
    "Verif.Block.C24_separable_fails"
   ],
   "note": "Composition, sum and product of block operators, and separable operators, for known partitions. Three violations: product of block rows, custom operation, separable operator added to a block row (witnesses proved)."
  },
  {
   "property": "C25",
   "status": "partial",
   "theorems": [
    "Verif.Block.C25_fails",
    "Verif.Block.C25_known_partial",
    "Verif.Block.C25_diagonal_partial"
   ],
   "note": "Violated for every block column or row with an unknown partition (proved); known partitions and block diagonal operators proved."
  },
  {
   "property": "C26",
   "status": "partial",
   "theorems": [
    "Verif.Shape.C26_call",
    "Verif.Shape.C26_known_partial",
    "Verif.Shape.C26_implicit",
    "Verif.Shape.C26_back",
    "Verif.Shape.C26_rejection_fails"
   ],
   "note": "Proved for operands whose output is explicit or implicit, and for any operands with inverse reshape methods; the code accepts inconsistent operands otherwise (witness proved)."
  },
  {
   "property": "C27",
   "status": "partial",
   "theorems": [
    "Verif.Broadcast.C27_composition_partial",
    "Verif.Broadcast.C27_addition_partial",
    "Verif.Broadcast.C27_multiplication_partial",
    "Verif.Broadcast.C27_explicit",
    "Verif.Broadcast.C27_addition_fails",
    "Verif.Broadcast.C27_multiplication_fails",
    "Verif.Broadcast.C27_multiplication_error_fails"
   ],
   "note": "Compositions, sums and products of diagonal, mask, scalar, identity and zero operators, for every broadcast kind. Violations (witnesses proved): the sum of two masks is a logical or; the product of an array diagonal and of a rightward one broadcasts to the wrong side or raises."
  },
  {
   "property": "C28",
   "status": "partial",
   "theorems": [
    "Verif.Broadcast.C28_diagonal_partial",
    "Verif.Broadcast.C28_default_partial",
    "Verif.Broadcast.C28_mask",
    "Verif.Broadcast.C28_class_partial",
    "Verif.Broadcast.C28_fails"
   ],
   "note": "Classification and effect for every data and broadcast kind, provided that the conversion to double precision is exact on the tests for 0, 1 and equality; a witness shows that it is not for extended precision."
  },
  {
   "property": "C29",
   "status": "partial",
   "theorems": [
    "Verif.Pack.C29_transposes",
    "Verif.Pack.C29_adjoint",
    "Verif.Pack.C29_inverse",
    "Verif.Pack.C29_mask",
    "Verif.Pack.C29_simplify_partial",
    "Verif.Pack.C29_simplify_fails",
    "Verif.Pack.C29_inverse_fails"
   ],
   "note": "Adjoint, transposes, left inverse and masking proved for every mask and broadcast kind. Violations (witnesses proved): the composition of the transpose of a pack operator and of itself is simplified into the identity; a mask of rank zero broadcast over a vector raises instead of giving the identity."
  },
  {
   "property": "C30",
   "status": "proved",
   "theorems": [
    "Verif.Pointwise.C30_back",
    "Verif.Pointwise.C30_forth",
    "Verif.Pointwise.C30_order"
   ],
   "note": "Both orders, every shape of at least two dimensions (one dimension is documented as not implemented, and rank zero raises)."
  },
  {
   "property": "C31",
   "status": "partial",
   "theorems": [
    "Verif.Pointwise.C31_rounds_partial",
    "Verif.Pointwise.C31_exact",
    "Verif.Pointwise.C31_methods_fails",
    "Verif.Pointwise.C31_large_fails"
   ],
   "note": "Proved for the implemented methods when the two sums are exact, and without condition for the methods that do no sum. Violations (witnesses proved): two documented methods are not implemented; 2^52 is rounded to 2^52 - 1 in double precision by rhtmi."
  },
  {
   "property": "C32",
   "status": "proved",
   "theorems": [
    "Verif.Pointwise.C32_hard",
    "Verif.Pointwise.C32_idempotent",
    "Verif.Pointwise.C32_compose",
    "Verif.Pointwise.C32_soft",
    "Verif.Pointwise.C32_nonexpansive"
   ],
   "note": "Exact arithmetic in an ordered field, scalar and array thresholds; NaN and signed zeros are not modelled."
  },
  {
   "property": "C33",
   "status": "partial",
   "theorems": [
    "Verif.Pointwise.C33_power_partial",
    "Verif.Pointwise.C33_compose_partial",
    "Verif.Pointwise.C33_sqrt_square_fails",
    "Verif.Pointwise.C33_close_fails"
   ],
   "note": "Proved on the positive numbers, and on every number for integer exponents, if the product of the exponents is not within the tolerance of a special exponent. Violations (witnesses proved): the square root of the square is simplified into the identity; exponents close to 1 are mistaken for 1."
  },
  {
   "property": "C34",
   "status": "proved",
   "theorems": [
    "Verif.Linear.C34_single",
    "Verif.Linear.C34_intrinsic_two",
    "Verif.Linear.C34_intrinsic_three",
    "Verif.Linear.C34_extrinsic_two",
    "Verif.Linear.C34_extrinsic_three",
    "Verif.Linear.C34_conventions",
    "Verif.Linear.C34_rotation3d",
    "Verif.Linear.C34_rotation2d"
   ],
   "note": "All conventions, all angles, exact arithmetic; one rotation per block of angles."
  },
  {
   "property": "C35",
   "status": "partial",
   "theorems": [
    "Verif.Linear.Axis.C35_difference_partial",
    "Verif.Linear.Axis.C35_sum_partial",
    "Verif.Linear.Axis.C35_sum_fails",
    "Verif.Linear.Axis.C35_sum_raises_fails",
    "Verif.Linear.Axis.C35_difference_fails",
    "Verif.Linear.Band.C35_tridiagonal_partial",
    "Verif.Linear.Band.C35_hermitian_partial",
    "Verif.Linear.Band.C35_symmetric_partial",
    "Verif.Linear.Band.C35_tridiagonal_fails",
    "Verif.Linear.Band.C35_band_fails"
   ],
   "note": "Difference and sum operators along any axis of arrays of any shape, tridiagonal operators (transpose and adjoint) and symmetric band operators. Violations (witnesses proved): sums along negative axes that are neither the first nor the last one, transposes of differences of complex vectors, tridiagonal operators with nearly equal diagonals, transposes of band operators."
  },
  {
   "property": "C36",
   "status": "partial",
   "theorems": [
    "Verif.Fourier.Toeplitz.C36_toeplitz",
    "Verif.Fourier.Toeplitz.C36_rows_partial",
    "Verif.Fourier.Toeplitz.C36_rows_fails",
    "Verif.Fourier.Toeplitz.C36_empty_fails"
   ],
   "note": "Proved with exact arithmetic, for the real operators built from FFTW transforms, for any number of samples n >= 1, any correlation length, any contents of the buffers. Partial: the number of matrices must be one or the number of input rows (fewer matrices leave output rows unwritten), and without samples the constructor raises."
  },
  {
   "property": "C37",
   "status": "partial",
   "theorems": [
    "Verif.Utils.Proxy.C37_single",
    "Verif.Utils.Proxy.C37_right_operator",
    "Verif.Utils.Proxy.C37_alive_partial",
    "Verif.Utils.Proxy.C37_recovers_partial",
    "Verif.Utils.Proxy.C37_calls",
    "Verif.Utils.Proxy.C37_cached",
    "Verif.Utils.Proxy.C37_shapes",
    "Verif.Utils.Proxy.C37_exception_fails"
   ],
   "note": "All access sequences with any exceptions for the uniqueness and the identity of the operator. Violation (witness proved): after the callback has raised, the previous proxy is given an operator that has been deleted."
  },
  {
   "property": "C38",
   "status": "proved",
   "theorems": [
    "Verif.Iter.C38_window",
    "Verif.Iter.C38_inplace",
    "Verif.Iter.C38_initial",
    "Verif.Iter.C38_equivalent",
    "Verif.Iter.C38_arguments"
   ],
   "note": "Every recursion order, iteration count and update function, with and without buffers updated in place. Initial buffers that overlap partially (views sharing only some elements) are not modelled."
  },
  {
   "property": "C39",
   "status": "partial",
   "theorems": [
    "Verif.Iter.C39_next",
    "Verif.Iter.C39_steps",
    "Verif.Iter.C39_started",
    "Verif.Iter.C39_restart_partial",
    "Verif.Iter.C39_steps_like",
    "Verif.Iter.C39_restart_fails",
    "Verif.Iter.C39_counter_fails",
    "Verif.Iter.C39_run_zero_fails",
    "Verif.Iter.C39_cont_fails",
    "Verif.Iter.C39_restart_recurrence"
   ],
   "note": "Steps, the counter of normal runs and the restart are proved. Violations (witnesses proved): restart raises when the initialisation stops normally, the counter counts the iteration that raised an abnormal stop, run(0) runs without bound, cont starts an algorithm of order 2 that has not been started."
  },
  {
   "property": "C40",
   "status": "partial",
   "theorems": [
    "Verif.Iter.C40_normal",
    "Verif.Iter.C40_abnormal",
    "Verif.Iter.C40_iteration",
    "Verif.Iter.C40_all",
    "Verif.Iter.C40_only",
    "Verif.Iter.C40_run",
    "Verif.Iter.C40_union",
    "Verif.Iter.C40_bounds",
    "Verif.Iter.C40_max_partial",
    "Verif.Iter.C40_max_fails"
   ],
   "note": "Proved for every algorithm and stop condition; the bound on the iterations needs order - 1 <= maximum, otherwise the equality test is never true (witness proved)."
  },
  {
   "property": "C41",
   "status": "proved",
   "theorems": [
    "Verif.Iter.C41_residual",
    "Verif.Iter.C41_stop",
    "Verif.Iter.C41_conjugate",
    "Verif.Iter.C41_finite"
   ],
   "note": "Exact real arithmetic, in a real inner product space; the conjugacy also needs the preconditioner to be symmetric positive definite."
  },
  {
   "property": "C42",
   "status": "proved",
   "theorems": [
    "Verif.Rules.C42_rule_lists",
    "Verif.Rules.C42_set_rule_succeeds",
    "Verif.Rules.C42_commutative_subjects",
    "Verif.Rules.C42_sides"
   ],
   "note": "Invariants of the sorted rule lists for all histories of set_rule; replacement, priority and removal."
  },
  {
   "property": "C43",
   "status": "partial",
   "theorems": [
    "Verif.Linear.Trapeze.C43_integral",
    "Verif.Linear.Trapeze.C43_accepts",
    "Verif.Linear.Trapeze.C43_integers_fails"
   ],
   "note": "All abscissa and all positions of the integrated axis, exact arithmetic. Violation (witness proved): the weights of integer abscissa are truncated."
  },
  {
   "property": "C44",
   "status": "partial",
   "theorems": [
    "Verif.Rules.C44_last_value_partial",
    "Verif.Rules.C44_unknown_name_fails"
   ],
   "note": "The code accepts unknown names in rules.txt (witness proved); last value wins is proved."
  },
  {
   "property": "C45",
   "status": "partial",
   "theorems": [
    "Verif.Utils.Timer.C45_outermost",
    "Verif.Utils.Timer.C45_running",
    "Verif.Utils.Timer.C45_reset",
    "Verif.Utils.Timer.C45_reset_inside_fails"
   ],
   "note": "All well-nested programs, with exceptions. Violation (witness proved): a reset inside a running block does not discard the time before it."
  },
  {
   "property": "C46",
   "status": "partial",
   "theorems": [
    "Verif.Linear.Dense.C46_direct",
    "Verif.Linear.Dense.C46_transpose",
    "Verif.Linear.Dense.C46_compose_partial",
    "Verif.Linear.Dense.C46_homothety_partial",
    "Verif.Linear.Dense.C46_shapein_partial",
    "Verif.Linear.Dense.C46_mixed_fails",
    "Verif.Linear.Dense.C46_rightward_fails",
    "Verif.Linear.Dense.C46_axes_fails",
    "Verif.Linear.Dense.C46_homothety_fails",
    "Verif.Linear.Dense.C46_input_fails",
    "Verif.Linear.Dense.C46_shapein_fails",
    "Verif.Linear.Dense.C46_empty_fails"
   ],
   "note": "The effect of the operators, their transposes and compositions are proved for all shapes, numbers of axes and broadcasts, with merged axes as in the code. Partial: mixed broadcasts, rightward broadcasts with different numbers of extra axes, scalars with rightward broadcasts, different groupings of axes, broadcast inputs and empty blocks violate the statement."
  },
  {
   "property": "C47",
   "status": "proved",
   "theorems": [
    "Verif.Memory.C47_gc_threshold",
    "Verif.Memory.C47_gc_history"
   ],
   "note": "Exact condition of a collection and value of the counter after any history."
  },
  {
   "property": "C48",
   "status": "partial",
   "theorems": [
    "Verif.Fourier.Convolution.C48_real",
    "Verif.Fourier.Convolution.C48_complex",
    "Verif.Fourier.Convolution.C48_transpose",
    "Verif.Fourier.Convolution.C48_correlation",
    "Verif.Fourier.Convolution.C48_adjoint",
    "Verif.Fourier.Convolution.C48_made_transpose",
    "Verif.Fourier.Convolution.C48_add",
    "Verif.Fourier.Convolution.C48_compose",
    "Verif.Fourier.Convolution.C48_homothety_partial",
    "Verif.Fourier.Convolution.C48_forward",
    "Verif.Fourier.Convolution.C48_backward",
    "Verif.Fourier.Convolution.C48_homothety_fails",
    "Verif.Fourier.Convolution.C48_copy_fails"
   ],
   "note": "Exact arithmetic, grids of any number of dimensions; kernels not larger than the input. The constructor, transpose, sum, composition, product by real scalars and exchange with the Fourier operators are proved for all operators the rules can build. Partial: complex scalars and transposes of copies."
  },
  {
   "property": "C49",
   "status": "proved",
   "theorems": [
    "Verif.Wavelet.C49_coeffs",
    "Verif.Wavelet.C49_vect",
    "Verif.Wavelet.C49_coeffs2d"
   ],
   "note": "All coefficients of 1-dimensional and 2-dimensional transforms."
  },
  {
   "property": "C50",
   "status": "partial",
   "theorems": [
    "Verif.Call.C50_call_partial",
    "Verif.Call.C50_update_partial",
    "Verif.Call.C50_update_refused",
    "Verif.Call.C50_not_preserved_fails",
    "Verif.Call.C50_update_copy_fails",
    "Verif.Call.C50_update_temporary_fails"
   ],
   "note": "Partial: proved for all layouts and flags, except preserve_input=False with an output sharing the memory of the input (negation proved) and the updates of outputs through temporary buffers (negations proved)."
  },
  {
   "property": "C51",
   "status": "partial",
   "theorems": [
    "Verif.Memory.C51_block_in_place_fails",
    "Verif.Memory.C51_block_out_of_place_partial"
   ],
   "note": "The code loses the result of a block applied in place on a part that has to be copied (witness proved); proved for distinct arrays."
  },
  {
   "property": "C52",
   "status": "proved",
   "theorems": [
    "Verif.Flags.C52_chain_value"
   ],
   "note": "All flags, rules and methods, all chains."
  },
  {
   "property": "C53",
   "status": "proved",
   "theorems": [
    "Verif.Flags.C53_multiplication_flags"
   ],
   "note": "All lists of operands."
  },
  {
   "property": "C54",
   "status": "partial",
   "theorems": [
    "Verif.Simplify.C54_block_slice_partial",
    "Verif.Simplify.C54_homothety_fails"
   ],
   "note": "The code permutes the operands and not the slices when a homothety is not the first operand (witness proved); proved otherwise."
  },
  {
   "property": "C55",
   "status": "partial",
   "theorems": [
    "Verif.Simplify.C55_scalar_slices_partial",
    "Verif.Simplify.C55_scalar_fails"
   ],
   "note": "The code does not scale the elements out of the slices (witness proved); proved for the elements of the slices."
  },
  {
   "property": "C56",
   "status": "partial",
   "theorems": [
    "Verif.Rules.C56_context_values_partial",
    "Verif.Rules.C56_unknown_name",
    "Verif.Rules.C56_bare_context_fails"
   ],
   "note": "Contexts entered without keywords apply again the keywords of the last call (witness proved)."
  },
  {
   "property": "C57",
   "status": "partial",
   "theorems": [
    "Verif.Compose.C57_update_partial",
    "Verif.Compose.C57_in_place_first_fails",
    "Verif.Compose.C57_pool_fails"
   ],
   "note": "Partial: proved if the first operand does not work in place and no operand uses the pool; negations proved otherwise."
  },
  {
   "property": "C58",
   "status": "partial",
   "theorems": [
    "Verif.Shape.C58_accepted_partial",
    "Verif.Shape.C58_validation_fails",
    "Verif.Shape.C58_reshape_fails",
    "Verif.Shape.C58_square_fails",
    "Verif.Shape.C58_mixed_fails"
   ],
   "note": "Partial: proved for operands without their own validation whose implicit shapes agree; the code only looks at the first operand otherwise (witnesses proved)."
  },
  {
   "property": "C59",
   "status": "partial",
   "theorems": [
    "Verif.Shape.C59_composition_partial",
    "Verif.Shape.C59_composition_fails"
   ],
   "note": "Partial: proved for operands without their own validation; the validation of inner operands is never called (witness proved)."
  },
  {
   "property": "C60",
   "status": "partial",
   "theorems": [
    "Verif.Shape.C60_initialised",
    "Verif.Shape.C60_consistent_partial",
    "Verif.Shape.C60_validation_fails",
    "Verif.Shape.C60_validated_partial",
    "Verif.Shape.C60_square_fails"
   ],
   "note": "Flags and methods: proved. Consistency of the declared shapes: partial, the code accepts contradictory shapes in two cases (witnesses proved)."
  },
  {
   "property": "C61",
   "status": "partial",
   "theorems": [
    "Verif.Block.C61_diagonal_partial",
    "Verif.Block.C61_column_partial",
    "Verif.Block.C61_row_partial",
    "Verif.Block.C61_column_fails",
    "Verif.Block.C61_row_fails"
   ],
   "note": "Proved for block diagonal operators; block columns do not check their input, block rows do not check their output (witnesses proved)."
  },
  {
   "property": "C62",
   "status": "partial",
   "theorems": [
    "Verif.Block.C62_composite",
    "Verif.Block.C62_reshapein",
    "Verif.Block.C62_rejected",
    "Verif.Block.C62_single_fails",
    "Verif.Block.C62_constructed_partial"
   ],
   "note": "Proved for several blocks; a single block loses the new axis (witness proved)."
  },
  {
   "property": "C63",
   "status": "partial",
   "theorems": [
    "Verif.Block.C63_inferred_partial",
    "Verif.Block.C63_found_partial",
    "Verif.Block.C63_fails"
   ],
   "note": "Proved for operators whose output dimension only depends on the input dimension along the axis; otherwise zero can be inferred (witness proved)."
  },
  {
   "property": "C64",
   "status": "partial",
   "theorems": [
    "Verif.Pack.C64_vector_partial",
    "Verif.Pack.C64_vector_fails"
   ],
   "note": "Proved unless the mask has several dimensions and keeps everything, in which case the result is not a vector (witness proved)."
  },
  {
   "property": "C65",
   "status": "partial",
   "theorems": [
    "Verif.Pointwise.C65_product_partial",
    "Verif.Pointwise.C65_inverse_partial",
    "Verif.Pointwise.C65_inverse_fails"
   ],
   "note": "The product is proved on the whole domain and the inverse on the positive numbers, if the exponent is not within the tolerance of a special one. Violation (witness proved): the inverse of the square on the negative numbers."
  },
  {
   "property": "C66",
   "status": "partial",
   "theorems": [
    "Verif.Linear.Band.C66_toband_partial",
    "Verif.Linear.Band.C66_toband_fails"
   ],
   "note": "All sizes and coefficients, if diagonals that np.allclose declares equal are equal. Violation (witness proved): nearly equal diagonals."
  },
  {
   "property": "C67",
   "status": "partial",
   "theorems": [
    "Verif.Linear.Band.C67_tridiagonal",
    "Verif.Linear.Band.C67_band_partial",
    "Verif.Linear.Band.C67_symmetric_partial",
    "Verif.Linear.Band.C67_rab",
    "Verif.Linear.Band.C67_band_fails",
    "Verif.Linear.Band.C67_lower_fails",
    "Verif.Linear.Band.C67_upper_fails"
   ],
   "note": "Tridiagonal operators, band operators without lower diagonals or with one upper diagonal, symmetric band operators stored by their lower part, all transposed arrays. Violations (witnesses proved): band operators with other numbers of diagonals, symmetric band operators stored by their upper part."
  },
  {
   "property": "C68",
   "status": "partial",
   "theorems": [
    "Verif.Fourier.Convolution.C68_inverse",
    "Verif.Fourier.Convolution.C68_adjoint_partial",
    "Verif.Fourier.Convolution.C68_adjoint_fails",
    "Verif.Fourier.Convolution.C68_axes_partial",
    "Verif.Fourier.Convolution.C68_axes_fails"
   ],
   "note": "Exact arithmetic, grids of any number of dimensions. The inverse is proved, the operator H is the adjoint up to the number of elements only, and transforms along some of the axes divide by the total number of elements."
  },
  {
   "property": "C69",
   "status": "partial",
   "theorems": [
    "Verif.Flags.C69_flags_partial",
    "Verif.Flags.C69_real_fails",
    "Verif.Flags.C69_unitary_fails"
   ],
   "note": "Proved for real operators without unary rules (all flags, all chains). Fails for complex operators: the associated operators are created without a data type and get the flag real (and orthogonal if unitary)."
  },
  {
   "property": "C70",
   "status": "partial",
   "theorems": [
    "Verif.Flags.C70_copy_partial",
    "Verif.Flags.C70_conjugate_fails",
    "Verif.Flags.C70_direct_fails"
   ],
   "note": "Proved for real operators given by methods: whatever the copy can compute is right. Fails: some associated operators of the copy cannot be evaluated, and the conjugate of a copy is wrong for complex operators."
  },
  {
   "property": "C71",
   "status": "partial",
   "theorems": [
    "Verif.Pointwise.C71_conventions",
    "Verif.Pointwise.C71_spherical",
    "Verif.Pointwise.C71_cartesian",
    "Verif.Pointwise.C71_vector",
    "Verif.Pointwise.C71_angles",
    "Verif.Pointwise.C71_simplify_partial",
    "Verif.Pointwise.C71_units",
    "Verif.Pointwise.C71_simplify_fails"
   ],
   "note": "proved for unit vectors and proper angles; C71_simplify_fails: the composition is simplified into the identity also for vectors that are not unit vectors, azimuths outside [0, 2 pi) and poles"
  },
  {
   "property": "C72",
   "status": "partial",
   "theorems": [
    "Verif.Pointwise.C72_clip",
    "Verif.Pointwise.C72_idempotent",
    "Verif.Pointwise.C72_maximum",
    "Verif.Pointwise.C72_minimum",
    "Verif.Pointwise.C72_order",
    "Verif.Pointwise.C72_blocks_partial",
    "Verif.Pointwise.C72_blocks_fails",
    "Verif.Pointwise.C72_maximum_fails"
   ],
   "note": "values proved; the fusion with block operators is proved for scalar parameters only, and C72_blocks_fails shows a wrong result for an array parameter; C72_maximum_fails: the documentation of MaximumOperator says the opposite of what it does"
  },
  {
   "property": "C73",
   "status": "partial",
   "theorems": [
    "Verif.Pointwise.C73_unit",
    "Verif.Pointwise.C73_scale",
    "Verif.Pointwise.C73_complex_fails"
   ],
   "note": "proved for real vectors; C73_complex_fails: complex vectors are not normalised to length one"
  },
  {
   "property": "C74",
   "status": "partial",
   "theorems": [
    "Verif.Eigen.C74_eigen",
    "Verif.Eigen.C74_power_partial",
    "Verif.Eigen.C74_inverse_partial",
    "Verif.Eigen.C74_trace",
    "Verif.Eigen.C74_det_partial",
    "Verif.Eigen.C74_cond_partial",
    "Verif.Eigen.C74_power_fails",
    "Verif.Eigen.C74_inverse_fails",
    "Verif.Eigen.C74_det_fails",
    "Verif.Eigen.C74_cond_fails"
   ],
   "note": "the eigenvalues, the symmetry, the trace and the positive powers are proved for all decompositions; the inverse, the determinant, the other powers and the condition number for complete ones (positive for the condition number); the _fails theorems show that these hypotheses are needed"
  },
  {
   "property": "C75",
   "status": "partial",
   "theorems": [
    "Verif.Lanczos.C75_orthonormal",
    "Verif.Lanczos.C75_krylov",
    "Verif.Lanczos.C75_bounds",
    "Verif.Lanczos.C75_complete",
    "Verif.Lanczos.C75_returns_partial",
    "Verif.Lanczos.C75_returns_fails",
    "Verif.Lanczos.C75_identity_fails",
    "Verif.Lanczos.C75_v0_fails",
    "Verif.Lanczos.C75_run_fails"
   ],
   "note": "proved when the algorithm returns; it returns if and only if the Krylov vectors are independent (C75_returns_partial). C75_returns_fails: ValueError whenever maxiter is larger than the number of rows, for instance the default value; C75_identity_fails; C75_v0_fails: v0 is normalised in place; C75_run_fails: run(n) with n < maxiter mixes zeros into the tridiagonal matrix. The eigendecomposition of the tridiagonal matrix by SciPy is assumed to be exact"
  },
  {
   "property": "C76",
   "status": "partial",
   "theorems": [
    "Verif.Criterions.C76_norms_partial",
    "Verif.Criterions.C76_value",
    "Verif.Criterions.C76_gradient",
    "Verif.Criterions.C76_quadratic",
    "Verif.Criterions.C76_covariance_fails",
    "Verif.Criterions.C76_huber_fails",
    "Verif.Criterions.C76_integers_partial",
    "Verif.Criterions.C76_integers_fails",
    "Verif.Criterions.C76_data_partial",
    "Verif.Criterions.C76_data_fails",
    "Verif.Criterions.C76_cache_fails",
    "Verif.Criterions.C76_empty_fails",
    "Verif.Criterions.C76_priors_fails"
   ],
   "note": "the value and the gradient are proved for all sequences of calls with non-empty arrays, the gradient where the derivative of each norm is right: C76_norms_partial gives these points (symmetric covariance, delta not negative, p > 1 or no zero). The _fails theorems: non-symmetric covariance, negative delta, integer arrays truncated by huber, data with several dimensions refused, cached result returned for an array of another shape, empty arrays, priors without a hyperparameter ignored"
  },
  {
   "property": "C77",
   "status": "partial",
   "theorems": [
    "Verif.Criterions.C77_optimal",
    "Verif.Criterions.C77_decrease",
    "Verif.Criterions.C77_backtracking",
    "Verif.Criterions.C77_backtracking_decreases",
    "Verif.Criterions.C77_backtracking_quadratic",
    "Verif.Criterions.C77_backtracking_fails",
    "Verif.Criterions.C77_scale_fails",
    "Verif.Criterions.C77_nonpositive_fails"
   ],
   "note": "optimal_step is the only minimum for strictly convex quadratic criterions (C77_optimal, C77_decrease); backtracking is characterised for positive criterions. C77_backtracking_fails: the optimal step is never tried, so that for a quadratic criterion the result is tau times the optimal step (C77_backtracking_quadratic); C77_scale_fails: the scalar that multiplies another norm is lost; C77_nonpositive_fails: no trial if the criterion is not positive. The wrappers of SciPy are not modelled"
  },
  {
   "property": "C78",
   "status": "partial",
   "theorems": [
    "Verif.Criterions.C78_gradient_partial",
    "Verif.Criterions.C78_gradient_fails",
    "Verif.Criterions.C78_hessian_partial",
    "Verif.Criterions.C78_hessian_fails",
    "Verif.Criterions.C78_gamma",
    "Verif.Criterions.C78_precision",
    "Verif.Criterions.C78_z_partial",
    "Verif.Criterions.C78_z_fails"
   ],
   "note": "C78_gradient_partial: gradient is the gradient of the likelihood plus twice the penalization; C78_hessian_partial: hessian_p is half of its derivative; C78_z_partial: z is the diagonal of B A B\u1d40. The _fails theorems show when these differ from the claim; C78_gamma holds as claimed. The optimisers of SciPy and the Lanczos approximation (C75) are not part of it"
  },
  {
   "property": "C79",
   "status": "partial",
   "theorems": [
    "Verif.Criterions.C79_finite",
    "Verif.Criterions.C79_conjugate",
    "Verif.Criterions.C79_stops",
    "Verif.Criterions.C79_result_partial",
    "Verif.Criterions.C79_maxiter",
    "Verif.Criterions.C79_tol",
    "Verif.Criterions.C79_restart",
    "Verif.Criterions.C79_nan_fails",
    "Verif.Criterions.C79_zero_fails",
    "Verif.Criterions.C79_default",
    "Verif.Criterions.C79_loop_fails",
    "Verif.Criterions.C79_x0_fails",
    "Verif.Criterions.C79_gtol_fails"
   ],
   "note": "conjugacy, decrease, finite termination, the number of iterations and restarts are proved; C79_result_partial says what is returned. C79_nan_fails and C79_zero_fails: NaN is returned if the minimum is reached exactly; C79_loop_fails: with tol only the algorithm then never stops; C79_x0_fails: x0 is ignored; C79_gtol_fails: gtol is compared to the square of the norm"
  },
  {
   "property": "C80",
   "status": "partial",
   "theorems": [
    "Verif.Broadcast.C80_applied_partial",
    "Verif.Broadcast.C80_applies",
    "Verif.Broadcast.C80_combined",
    "Verif.Broadcast.C80_shapes",
    "Verif.Broadcast.C80_product",
    "Verif.Broadcast.C80_applied_fails",
    "Verif.Broadcast.C80_memory_fails",
    "Verif.Broadcast.C80_empty_fails"
   ],
   "note": "C80_applied_partial holds for contiguous data; sums, products and the cases where the rule applies are proved. C80_applied_fails: for the transpose of an array the operator is applied to the array that is not transposed; C80_memory_fails: for a broadcast view, memory outside of the array is read; C80_empty_fails: a constant cannot be empty"
  },
  {
   "property": "C81",
   "status": "partial",
   "theorems": [
    "Verif.Broadcast.C81_known_partial",
    "Verif.Broadcast.C81_unresolved",
    "Verif.Broadcast.C81_unknown_partial",
    "Verif.Broadcast.C81_after",
    "Verif.Broadcast.C81_before",
    "Verif.Broadcast.C81_pointwise_partial",
    "Verif.Broadcast.C81_length_fails",
    "Verif.Broadcast.C81_axis_fails",
    "Verif.Broadcast.C81_size_fails",
    "Verif.Broadcast.C81_rank_fails",
    "Verif.Broadcast.C81_strides_fails",
    "Verif.Broadcast.C81_empty_fails",
    "Verif.Broadcast.C81_pointwise_fails"
   ],
   "note": "C81_known_partial: known shape and contiguous data; C81_unknown_partial: unknown shape, under conditions on the dimension of the data along the axis, the rank of the blocks and the axis; C81_after, C81_before and C81_pointwise_partial: values of the operators. The _fails theorems are the cases that are left out: C81_length_fails (wrong zeros), C81_axis_fails and C81_empty_fails (exceptions), C81_size_fails (a wrong size is accepted), C81_rank_fails, C81_strides_fails (non contiguous data), C81_pointwise_fails (sum with a block operator whose input and output axes differ)"
  },
  {
   "property": "C82",
   "status": "partial",
   "theorems": [
    "Verif.Multiple.C82_least_partial",
    "Verif.Multiple.C82_numpy2_fails",
    "Verif.Multiple.C82_one_fails",
    "Verif.Multiple.C82_overflow_fails",
    "Verif.Multiple.C82_rounding_fails"
   ],
   "note": "C82_least_partial: versions of NumPy before 2, factors greater than 1, no overflow of the products of the grid, numbers up to 2^53. C82_numpy2_fails: with NumPy 2 the function always raises an exception; C82_one_fails: so does the factor 1; C82_overflow_fails: values that overflow are returned; C82_rounding_fails: no value for 2^53 + 1"
  },
  {
   "property": "C83",
   "status": "proved",
   "theorems": [
    "Verif.Broadcast.C83_accepted",
    "Verif.Broadcast.C83_values",
    "Verif.Broadcast.C83_twice"
   ],
   "note": ""
  },
  {
   "property": "C84",
   "status": "partial",
   "theorems": [
    "Verif.Interrupt.C84_restored",
    "Verif.Interrupt.C84_normal_partial",
    "Verif.Interrupt.C84_deferred",
    "Verif.Interrupt.C84_immediate",
    "Verif.Interrupt.C84_iterations_partial",
    "Verif.Interrupt.C84_exception_fails",
    "Verif.Interrupt.C84_lost_fails",
    "Verif.Interrupt.C84_last_fails",
    "Verif.Interrupt.C84_nested_fails"
   ],
   "note": "deferral, restoration by uninterruptible and immediate interruption proved; C84_normal_partial: interruptible without exceptions; C84_iterations_partial: Ctrl-C in an iteration that does not stop the algorithm. C84_exception_fails: interruptible does not restore the handler after an exception; C84_lost_fails, C84_last_fails: Ctrl-C is lost if the block raises an exception, such as StopIteration in the last iteration; C84_nested_fails: nested blocks are interrupted"
  },
  {
   "property": "C85",
   "status": "partial",
   "theorems": [
    "Verif.Setting.C85_setting_partial",
    "Verif.Setting.C85_nested_partial",
    "Verif.Setting.C85_errors",
    "Verif.Setting.C85_threads_partial",
    "Verif.Setting.C85_exception_fails",
    "Verif.Setting.C85_threads_fails",
    "Verif.Setting.C85_class_fails",
    "Verif.Setting.C85_deleted_fails"
   ],
   "note": "settingerr is proved; setting and pool_threading restore only if no exception is raised (C85_exception_fails, C85_threads_fails) and the attribute is not deleted (C85_deleted_fails); an attribute of the class is copied to the object (C85_class_fails)"
  },
  {
   "property": "C86",
   "status": "partial",
   "theorems": [
    "Verif.Todense.C86_product_partial",
    "Verif.Todense.C86_injective_partial",
    "Verif.Todense.C86_transpose_partial",
    "Verif.Todense.C86_composition_partial",
    "Verif.Todense.C86_matvec_partial",
    "Verif.Todense.C86_integer_fails"
   ],
   "note": "for dtypes that represent the elements of the matrix; C86_integer_fails: the matrix of an operator without dtype has integer elements, so that its values are truncated"
  },
  {
   "property": "C87",
   "status": "partial",
   "theorems": [
    "Verif.Equality.C87_exact_partial",
    "Verif.Equality.C87_reflexive",
    "Verif.Equality.C87_tolerance",
    "Verif.Equality.C87_shapes_fails",
    "Verif.Equality.C87_symmetric_fails",
    "Verif.Equality.C87_transitive_fails",
    "Verif.Equality.C87_broadcast_fails",
    "Verif.Equality.C87_closure_fails"
   ],
   "note": "C87_exact_partial: attributes without floating point numbers and arrays, C87_tolerance: arrays of the same shape. C87_shapes_fails: data of different shapes raise an exception; C87_broadcast_fails: or are equal if they can be broadcast; C87_symmetric_fails, C87_transitive_fails: the tolerances are relative to the second value; C87_closure_fails: functions with different values of the variables of the enclosing function are equal"
  },
  {
   "property": "C88",
   "status": "partial",
   "theorems": [
    "Verif.Algebra.C88_array_partial",
    "Verif.Algebra.C88_composition",
    "Verif.Algebra.C88_scalar",
    "Verif.Algebra.C88_pointwise_partial",
    "Verif.Algebra.C88_matrix",
    "Verif.Algebra.C88_power",
    "Verif.Algebra.C88_fractional",
    "Verif.Algebra.C88_associative_fails",
    "Verif.Algebra.C88_float_fails",
    "Verif.Algebra.C88_ndarray_fails"
   ],
   "note": "C88_array_partial and C88_pointwise_partial: arrays on the left are lists or tuples. C88_ndarray_fails: the product of a NumPy array by an operator is an array of operators; C88_float_fails: the exponent 2.0 raises TypeError; C88_associative_fails: products that mix linear and non-linear operators are not associative"
  },
  {
   "property": "C89",
   "status": "partial",
   "theorems": [
    "Verif.Sparse.C89_product",
    "Verif.Sparse.C89_transpose_partial",
    "Verif.Sparse.C89_scalar_fails"
   ],
   "note": "the product is proved for the six formats; C89_transpose_partial: the formats CSR, CSC, COO and DOK, in which SciPy exchanges arrays. C89_scalar_fails: the product by a scalar is an infinite recursion"
  },
  {
   "property": "C90",
   "status": "partial",
   "theorems": [
    "Verif.Asoperator.C90_direct",
    "Verif.Asoperator.C90_associated_partial",
    "Verif.Asoperator.C90_roundtrip",
    "Verif.Asoperator.C90_scipy_partial",
    "Verif.Asoperator.C90_complex_fails",
    "Verif.Asoperator.C90_scipy_fails"
   ],
   "note": "the direct product is proved; C90_associated_partial: arrays, scalars and real linear operators; C90_scipy_partial: real operators. C90_complex_fails: the transpose of a complex linear operator of SciPy is its adjoint; C90_scipy_fails: rmatvec is not the adjoint"
  },
  {
   "property": "C91",
   "status": "partial",
   "theorems": [
    "Verif.Search.C91_positions_partial",
    "Verif.Search.C91_elements",
    "Verif.Search.C91_exclusions_partial",
    "Verif.Search.C91_identity_fails",
    "Verif.Search.C91_callable_fails",
    "Verif.Search.C91_renumerate"
   ],
   "note": "C91_positions_partial: values that are not callable; C91_exclusions_partial: values for which equality is identity. C91_identity_fails: first_is_not compares with != but ifirst_is_not with `is not`; C91_callable_fails: a callable value is called instead of compared"
  },
  {
   "property": "C92",
   "status": "partial",
   "theorems": [
    "Verif.ZipBroadcast.C92_partial",
    "Verif.ZipBroadcast.C92_set_fails",
    "Verif.ZipBroadcast.C92_empty_fails"
   ],
   "note": "C92_partial: scalars, strings, sequences and generators, at least one argument. C92_set_fails: a set of length 1 raises; C92_empty_fails: no argument raises ValueError"
  },
  {
   "property": "C93",
   "status": "partial",
   "theorems": [
    "Verif.Linear.Reduction.C93_axes",
    "Verif.Linear.Reduction.C93_shape",
    "Verif.Linear.Reduction.C93_values_partial",
    "Verif.Linear.Reduction.C93_success_partial",
    "Verif.Linear.Reduction.C93_nan_fails",
    "Verif.Linear.Reduction.C93_numpy2_fails",
    "Verif.Linear.Reduction.C93_callable_fails",
    "Verif.Linear.Reduction.C93_explicit_fails"
   ],
   "note": "C93_values_partial and C93_success_partial: NumPy 1, ufuncs and Python functions. C93_nan_fails: ProductOperator ignores skipna; C93_numpy2_fails: ufunc reductions always raise with NumPy 2; C93_callable_fails: other callables raise UnboundLocalError; C93_explicit_fails: axis=None with an explicit shape raises TypeError"
  },
  {
   "property": "C94",
   "status": "partial",
   "theorems": [
    "Verif.Attributes.C94_operator",
    "Verif.Attributes.C94_composition_partial",
    "Verif.Attributes.C94_composition_fails",
    "Verif.Attributes.C94_class",
    "Verif.Attributes.C94_merged_partial",
    "Verif.Attributes.C94_merged_class",
    "Verif.Attributes.C94_merged_fails",
    "Verif.Attributes.C94_sum_partial",
    "Verif.Attributes.C94_sum_fails",
    "Verif.Attributes.C94_block_partial",
    "Verif.Attributes.C94_block_fails",
    "Verif.Attributes.C94_out_partial",
    "Verif.Attributes.C94_inplace_fails",
    "Verif.Attributes.C94_static_fails",
    "Verif.Attributes.C94_function_fails"
   ],
   "note": "C94_operator and C94_class hold without restriction; the others are partial: C94_composition_fails, C94_merged_fails, C94_sum_fails, C94_block_fails (the output of blocks has the class of the first block), C94_inplace_fails, C94_static_fails, C94_function_fails"
  },
  {
   "property": "C95",
   "status": "partial",
   "theorems": [
    "Verif.Comm.C95_partial",
    "Verif.Comm.C95_reject_partial",
    "Verif.Comm.C95_incompatible_fails",
    "Verif.Comm.C95_out_partial",
    "Verif.Comm.C95_sum_reject",
    "Verif.Comm.C95_sum_partial",
    "Verif.Comm.C95_sum_fails"
   ],
   "note": "C95_partial: consistent communicators; C95_reject_partial: operands that all specify communicators; C95_sum_partial: the same input and output communicator. C95_incompatible_fails: communicators separated by an operand that specifies none are not compared; C95_sum_fails: an operand that adapts receives the input communicator on both sides"
  },
  {
   "property": "C96",
   "status": "partial",
   "theorems": [
    "Verif.ToShape.C96_diagonal",
    "Verif.ToShape.C96_block_partial",
    "Verif.ToShape.C96_block_fails",
    "Verif.ToShape.C96_first_partial",
    "Verif.ToShape.C96_first_fails"
   ],
   "note": "C96_diagonal holds for all data without zero dimension and at most one dimension equal to 1 (the others are ambiguous and rejected as such); C96_block_partial: operands that accept arrays of one and two dimensions; C96_first_partial: operands that reshape vectors in the same way. C96_block_fails: blocks of operands with more dimensions; C96_first_fails: sums and block columns use the first operand only"
  },
  {
   "property": "C97",
   "status": "partial",
   "theorems": [
    "Verif.Iter.Keywords.C97_partial",
    "Verif.Iter.Keywords.C97_missing",
    "Verif.Iter.Keywords.C97_shapes",
    "Verif.Iter.Keywords.C97_keywords",
    "Verif.Iter.Keywords.C97_unused_fails",
    "Verif.Iter.Keywords.C97_inplace_fails",
    "Verif.Iter.Keywords.C97_half_fails",
    "Verif.Iter.Keywords.C97_buffers_partial",
    "Verif.Iter.Keywords.C97_overlap_fails"
   ],
   "note": "C97_partial: the keywords of recursions (all orders, variables and data types, except complex values with a default of half precision; order 1 for in-place recursions); C97_missing, C97_shapes and C97_keywords hold for all keywords; C97_buffers_partial: initial values whose buffers are equal or disjoint. C97_unused_fails: x_old2 without x_old and y_old without y are ignored; C97_inplace_fails: x_old in an in-place recursion; C97_half_fails: float16 with complex values; C97_overlap_fails: overlapping views"
  },
  {
   "property": "C98",
   "status": "partial",
   "theorems": [
    "Verif.Group.C98_order",
    "Verif.Group.C98_kept_partial",
    "Verif.Group.C98_dtype",
    "Verif.Group.C98_dissolved_fails",
    "Verif.Group.C98_associated"
   ],
   "note": "C98_order and C98_associated hold in general; C98_kept_partial: no group follows the last composition of the operands. C98_dissolved_fails: A * B * G dissolves the group G and loses its data type, A * (B * G) does not"
  },
  {
   "property": "C99",
   "status": "partial",
   "theorems": [
    "Verif.Numexpr.C99_diagonal_partial",
    "Verif.Numexpr.C99_blocks_partial",
    "Verif.Numexpr.C99_numexpr_partial",
    "Verif.Numexpr.C99_names_fails",
    "Verif.Numexpr.C99_transposed_fails",
    "Verif.Numexpr.C99_sliced_fails"
   ],
   "note": "C99_diagonal_partial and C99_numexpr_partial: all expressions whose variables other than the data and the input are scalars of global_dict, with names that are not those of local variables of the methods. C99_names_fails: variables called input, op, expr; C99_transposed_fails: arrays of global_dict with a rightward broadcast; C99_sliced_fails: arrays of global_dict when the operator is distributed over blocks"
  },
  {
   "property": "C100",
   "status": "partial",
   "theorems": [
    "Verif.Rules.Apply.C100_partial",
    "Verif.Rules.Apply.C100_commutative_partial",
    "Verif.Rules.Apply.C100_same",
    "Verif.Rules.Apply.C100_unary",
    "Verif.Rules.Apply.C100_rejected",
    "Verif.Rules.Apply.C100_generated_fails",
    "Verif.Rules.Apply.C100_inverse_fails",
    "Verif.Rules.Apply.C100_unchecked_fails",
    "Verif.Rules.Apply.C100_swapped_fails"
   ],
   "note": "C100_partial: documented binary rules whose reference has its associated operators generated; C100_same and C100_unary hold for the rules '.,.' and the unary rules. C100_generated_fails: rules with symbols are not applied before the associated operators have been generated; C100_inverse_fails: IC, IT and IH are accepted as subjects and raise ValueError when applied; C100_unchecked_fails: rules without '.' and any text as predicate are accepted; C100_swapped_fails: the function of a rule (class, '.') receives its arguments in the other order in sums and products"
  },
  {
   "property": "C101",
   "status": "partial",
   "theorems": [
    "Verif.Call.Dtype.C101_output",
    "Verif.Call.Dtype.C101_composition",
    "Verif.Call.Dtype.C101_order",
    "Verif.Call.Dtype.C101_values_partial",
    "Verif.Call.Dtype.C101_successive_partial",
    "Verif.Call.Dtype.C101_kind",
    "Verif.Call.Dtype.C101_values_fails",
    "Verif.Call.Dtype.C101_successive_fails"
   ],
   "note": "C101_output, C101_kind, C101_composition and C101_order hold for all types; C101_values_partial: except 64-bit integers converted to double precision; C101_successive_partial: operators of floating point or complex types, or types that can be cast one to another. C101_values_fails: 2^53 + 1; C101_successive_fails: int16, uint16 and float32"
  },
  {
   "property": "C102",
   "status": "partial",
   "theorems": [
    "Verif.Utils.Stub.C102_attributes_partial",
    "Verif.Utils.Stub.C102_keyval_fails",
    "Verif.Utils.Stub.C102_freed_fails",
    "Verif.Utils.Stub.C102_dup_fails",
    "Verif.Utils.Stub.C102_transfer_partial",
    "Verif.Utils.Stub.C102_array_fails",
    "Verif.Utils.Stub.C102_row_partial",
    "Verif.Utils.Stub.C102_shape_fails"
   ],
   "note": "C102_attributes_partial: programs that use valid keys only, remove the attributes of a key before freeing it, and duplicate communicators without attributes to be copied (Careful); C102_transfer_partial: outputs given with their type and of the shape of the input, and IN_PLACE; C102_row_partial: outputs given as arrays whose first of several dimensions has length one. C102_keyval_fails: the number of a freed key is given again and reads the attribute of the former key; C102_freed_fails: a freed key becomes valid again; C102_dup_fails: Dup copies no attributes; C102_array_fails: outputs given as arrays are refused; C102_shape_fails: buffers of other shapes"
  },
  {
   "property": "C103",
   "status": "partial",
   "theorems": [
    "Verif.Utils.Group.C103_filter",
    "Verif.Utils.Group.C103_free_partial",
    "Verif.Utils.Group.C103_free_fails",
    "Verif.Utils.Group.C103_print_partial",
    "Verif.Utils.Group.C103_print_fails",
    "Verif.Utils.Group.C103_combine_partial",
    "Verif.Utils.Group.C103_combine_split",
    "Verif.Utils.Group.C103_combine_fails"
   ],
   "note": "C103_filter and C103_combine_split hold for all inputs; C103_free_partial: programs without exceptions; C103_print_partial: messages that are texts; C103_combine_partial: totals below 2^63. C103_free_fails: n nested groups lose n communicators if the innermost body raises; C103_print_fails: NaN, 1 and True, arrays; C103_combine_fails: the total wraps around"
  },
  {
   "property": "C104",
   "status": "partial",
   "theorems": [
    "Verif.CriterionAlgebra.C104_functions",
    "Verif.CriterionAlgebra.C104_gradient",
    "Verif.CriterionAlgebra.C104_generate_partial",
    "Verif.CriterionAlgebra.C104_default_fails",
    "Verif.CriterionAlgebra.C104_norms_fails"
   ],
   "note": "C104_functions and C104_gradient hold for all programs (arguments with at least one element); C104_generate_partial: one parameter per prior and one norm more than priors. C104_default_fails: the default values of deltas and ps raise IndexError; C104_norms_fails: with as many norms as priors, the last prior is ignored"
  },
  {
   "property": "C105",
   "status": "partial",
   "theorems": [
    "Verif.Shape.Product.C105_shapes_partial",
    "Verif.Shape.Product.C105_output_partial",
    "Verif.Shape.Product.C105_zero_fails",
    "Verif.Shape.Product.C105_identity_fails"
   ],
   "note": "C105_shapes_partial, C105_output_partial: products in which no zero is on the left of a composition between parentheses and no identity with a shape multiplies a composition (Safe). C105_zero_fails: Z * (A * B) has no shapes, its output has the shape of the input, and mismatches are accepted; C105_identity_fails: the shape of an identity that multiplies a composition without shapes is forgotten"
  },
  {
   "property": "C106",
   "status": "partial",
   "theorems": [
    "Verif.CgMpi.C106_processes",
    "Verif.CgMpi.C106_truth",
    "Verif.CgMpi.C106_converges",
    "Verif.CgMpi.C106_complex_fails"
   ],
   "note": "exact real arithmetic and processes that receive the same sums. C106_complex_fails: the imaginary part of the right-hand side is dropped, although the documentation of pcg admits complex systems, and pcg reports success and an error of zero"
  },
  {
   "property": "C107",
   "status": "partial",
   "theorems": [
    "Verif.Expression.C107_expression_partial",
    "Verif.Expression.C107_positive",
    "Verif.Expression.C107_rules",
    "Verif.Expression.C107_ends",
    "Verif.Expression.C107_opposite_product",
    "Verif.Expression.C107_opposite_fails"
   ],
   "note": "exact arithmetic in a commutative ring, one shape, no block operators; the recursion of the constructors through the rules is represented by an arbitrary depth. C107_opposite_fails: for a nonlinear operator f, -f computes -x f(x) and g - f computes g(x) - x f(x); C107_expression_partial requires that opposites and differences are those of linear operators or constants"
  },
  {
   "property": "C108",
   "status": "partial",
   "theorems": [
    "Verif.AssertSame.C108_same_partial",
    "Verif.AssertSame.C108_integers",
    "Verif.AssertSame.C108_symmetric_partial",
    "Verif.AssertSame.C108_reflexive",
    "Verif.AssertSame.C108_scalar",
    "Verif.AssertSame.C108_broadcasting_partial",
    "Verif.AssertSame.C108_infinity_fails",
    "Verif.AssertSame.C108_type_fails"
   ],
   "note": "rational numbers with exact arithmetic, zero imaginary parts. C108_infinity_fails: plus and minus infinity are the same; C108_type_fails: double precision against complex single precision depends on the order. C108_scalar is the broadcasting of a number"
  },
  {
   "property": "C109",
   "status": "partial",
   "theorems": [
    "Verif.Minimisers.C109_partial",
    "Verif.Minimisers.C109_repeated",
    "Verif.Minimisers.C109_descent_partial",
    "Verif.Minimisers.C109_inner_partial",
    "Verif.Minimisers.C109_x0_fails",
    "Verif.Minimisers.C109_inner_fails",
    "Verif.Minimisers.C109_cobyla_fails",
    "Verif.Minimisers.C109_gradient_fails",
    "Verif.Minimisers.C109_arguments_fails",
    "Verif.Minimisers.C109_args_fails"
   ],
   "note": "the functions of SciPy are arbitrary functions of the arguments that they receive. C109_partial: x0 zero or not given, not COBYLA, criterions with the attribute gradient or without derivative; C109_descent_partial, C109_inner_partial: not worse than zero. C109_x0_fails, C109_inner_fails: x0 is ignored; C109_cobyla_fails: COBYLA returns None; C109_gradient_fails: the derivative of the criterions of the package is not used; C109_arguments_fails, C109_args_fails: extra arguments raise TypeError"
  },
  {
   "property": "C110",
   "status": "partial",
   "theorems": [
    "Verif.Printing.C110_partial",
    "Verif.Printing.C110_composition",
    "Verif.Printing.C110_same_partial",
    "Verif.Printing.C110_sum_fails",
    "Verif.Printing.C110_nonlinear_fails",
    "Verif.Printing.C110_product_fails",
    "Verif.Printing.C110_power_fails"
   ],
   "note": "texts are lists of tokens, the texts of the other operators are names, functions with other arguments or powers; shapes and block operators are left out. C110_composition holds for compositions of any names; C110_partial, C110_same_partial: Readable expressions. C110_sum_fails: the text of (A + B) * C is that of A + B * C; C110_nonlinear_fails, C110_product_fails: (f + g)(h) and (f \u00d7 g)(h); C110_power_fails: powers of powers"
  },
  {
   "property": "C111",
   "status": "partial",
   "theorems": [
    "Verif.Iter.Callback.C111_quiet",
    "Verif.Iter.Callback.C111_raised",
    "Verif.Iter.Callback.C111_display_partial",
    "Verif.Iter.Callback.C111_called",
    "Verif.Iter.Callback.C111_display_fails",
    "Verif.Iter.Callback.C111_exception_fails"
   ],
   "note": "C111_quiet, C111_called hold for all algorithms and callbacks that raise nothing, the latter with a callback that saves what it is given; C111_display_partial: one variable, in-place recursions or processes other than the first one. C111_display_fails: with several variables, disp=True raises UnboundLocalError in the first iteration; C111_exception_fails: after an exception of the callback the iteration is counted but its result is lost. Callbacks that modify the attributes are left out, and so are the displayed texts and the method finalize, which the display of in-place recursions calls"
  },
  {
   "property": "C112",
   "status": "partial",
   "theorems": [
    "Verif.Dtypes.C112_kinds",
    "Verif.Dtypes.C112_exact_partial",
    "Verif.Dtypes.C112_consistent_partial",
    "Verif.Dtypes.C112_intrinsic",
    "Verif.Dtypes.C112_idempotent",
    "Verif.Dtypes.C112_integers_fails",
    "Verif.Dtypes.C112_half_fails"
   ],
   "note": "the data types of a little-endian x86-64, finite values as rational numbers, formats of IEEE 754 with subnormal numbers and long doubles. C112_kinds, C112_intrinsic, C112_idempotent hold for all data types; C112_exact_partial: all except integers of 64 bits (C112_integers_fails: 2^53 + 1; the conversion to the default floating data type is documented); C112_consistent_partial: all except the half precision (C112_half_fails)"
  },
  {
   "property": "C113",
   "status": "partial",
   "theorems": [
    "Verif.Arithmetic.C113_add",
    "Verif.Arithmetic.C113_numbers",
    "Verif.Arithmetic.C113_neg_partial",
    "Verif.Arithmetic.C113_sub_partial",
    "Verif.Arithmetic.C113_div",
    "Verif.Arithmetic.C113_neg_fails",
    "Verif.Arithmetic.C113_sub_fails",
    "Verif.Arithmetic.C113_constant_fails",
    "Verif.Arithmetic.C113_ndarray_fails"
   ],
   "note": "vectors over any field, before the simplifications of sums and products; matrices and the division by zero are left out. C113_add, C113_div hold for all operators, C113_numbers for linear ones; C113_neg_partial, C113_sub_partial: linear or constant operators. C113_neg_fails: the opposite of any other operator is x -> -x f(x); C113_sub_fails: f - f is not zero for the square; C113_constant_fails: f + 1 is x -> f(x) + x; C113_ndarray_fails: an array plus an operator is an array of operators"
  },
  {
   "property": "C114",
   "status": "partial",
   "theorems": [
    "Verif.AssertEq.C114_sound_partial",
    "Verif.AssertEq.C114_reflexive",
    "Verif.AssertEq.C114_dict_fails",
    "Verif.AssertEq.C114_broadcast_fails",
    "Verif.AssertEq.C114_symmetric_fails"
   ],
   "note": "numbers are rational or NaN; sub-classes of arrays, sets, complex and infinite numbers are left out. C114_reflexive holds for all objects; C114_sound_partial: all objects that do not have a scalar and an array, or a dictionary and a sequence, at the same place. C114_dict_fails: a dictionary is equal to the list of its keys; C114_broadcast_fails: scalars are equal to arrays, and to all the empty ones; C114_symmetric_fails: the tolerance is relative to the second argument"
  },
  {
   "property": "C115",
   "status": "partial",
   "theorems": [
    "Verif.Decorators.C115_documented_partial",
    "Verif.Decorators.C115_others",
    "Verif.Decorators.C115_inherited",
    "Verif.Decorators.C115_order",
    "Verif.Decorators.C115_several",
    "Verif.Decorators.C115_orthogonal_fails",
    "Verif.Decorators.C115_mixin_fails"
   ],
   "note": "Partial: orthogonal does not set the flag real (C115_orthogonal_fails), and the decorators raise KeyError for a class whose last parent is not a class of operators (C115_mixin_fails)."
  },
  {
   "property": "C116",
   "status": "partial",
   "theorems": [
    "Verif.Nested.C116_nested_partial",
    "Verif.Nested.C116_middle_fails"
   ],
   "note": "Partial: in a composition, the operands that take buffers from the pool are the first one, the last one, or come after an even number of operands that are not able to work in place (C116_middle_fails for an odd number); the arrays and buffers are aligned and contiguous, and the output is not the input."
  },
  {
   "property": "C117",
   "status": "partial",
   "theorems": [
    "Verif.Rules.C117_scoped_partial",
    "Verif.Rules.C117_bare_context_fails",
    "Verif.Rules.C117_registered_partial",
    "Verif.Rules.C117_upper_case_fails"
   ],
   "note": "Partial: all the contexts are given their keywords (C117_bare_context_fails), no manager is entered while its own context is active (C09_reentry_fails), registered names are in lower case (C117_upper_case_fails)."
  },
  {
   "property": "C118",
   "status": "partial",
   "theorems": [
    "Verif.Linear.Dense.C118_validatein",
    "Verif.Linear.Dense.C118_transpose",
    "Verif.Linear.Dense.C118_validateout",
    "Verif.Linear.Dense.C118_round_trip",
    "Verif.Linear.Dense.C118_output_partial",
    "Verif.Linear.Dense.C118_shapein_partial",
    "Verif.Linear.Dense.C118_explicit_partial",
    "Verif.Linear.Dense.C118_output_fails",
    "Verif.Linear.Dense.C118_shapeout_fails",
    "Verif.Linear.Dense.C118_both_fails"
   ],
   "note": "Partial: output shapes without the extra dimensions of the blocks are accepted (C118_output_fails), explicit output shapes can contradict the input shape (C118_shapeout_fails, C118_both_fails). The characterisation of the accepted shapes, the round trip from the input and the transpose are complete."
  },
  {
   "property": "C119",
   "status": "partial",
   "theorems": [
    "Verif.Linear.DenseInit.C119_axes_partial",
    "Verif.Linear.DenseInit.C119_dtype_partial",
    "Verif.Linear.DenseInit.C119_accepted",
    "Verif.Linear.DenseInit.C119_axes_fails",
    "Verif.Linear.DenseInit.C119_dtype_fails"
   ],
   "note": "Partial: keywords naxesin and naxesout given together are positive (C119_axes_fails); the dtype is ignored by DenseBlockDiagonalOperator without extra dimension (C119_dtype_fails)."
  },
  {
   "property": "C120",
   "status": "partial",
   "theorems": [
    "Verif.Shape.ProxyGroup.C120_default_partial",
    "Verif.Shape.ProxyGroup.C120_associated_partial",
    "Verif.Shape.ProxyGroup.C120_given_partial",
    "Verif.Shape.ProxyGroup.C120_explicit_fails",
    "Verif.Shape.ProxyGroup.C120_history_fails",
    "Verif.Shape.ProxyGroup.C120_number_fails",
    "Verif.Shape.ProxyGroup.C120_kind_fails",
    "Verif.Shape.ProxyGroup.C120_kind_partial",
    "Verif.Shape.ProxyGroup.C120_flags_partial",
    "Verif.Shape.ProxyGroup.C120_flags_fails"
   ],
   "note": "Partial: C120_default_partial, C120_associated_partial, C120_kind_partial: operators with the same shapes; C120_given_partial: shapes accepted by the operator 0; C120_flags_partial: real operators that are not involutary. C120_explicit_fails: operators of different explicit shapes raise ValueError, although the documentation asks to specify their shapes; C120_history_fails: the shape inferred depends on the last access; C120_number_fails: fewer proxies; C120_kind_fails: unconstrained sides; C120_flags_fails: the associated operators of complex operators are declared real."
  },
  {
   "property": "C121",
   "status": "partial",
   "theorems": [
    "Verif.Simplify.Variables.C121_built_partial",
    "Verif.Simplify.Variables.C121_meaning",
    "Verif.Simplify.Variables.C121_product",
    "Verif.Simplify.Variables.C121_transpose",
    "Verif.Simplify.Variables.C121_product_partial",
    "Verif.Simplify.Variables.C121_transpose_partial",
    "Verif.Simplify.Variables.C121_scalar_fails",
    "Verif.Simplify.Variables.C121_outer_fails",
    "Verif.Simplify.Variables.C121_transpose_fails",
    "Verif.Simplify.Variables.C121_quadratic_fails",
    "Verif.Simplify.Variables.C121_right_fails"
   ],
   "note": "Partial: C121_built_partial and C121_product_partial say exactly which compositions and products are built, C121_transpose_partial which ones have a transpose. C121_scalar_fails: a scalar times a transposed variable; C121_outer_fails: outer products; C121_transpose_fails: the transpose of a scaled variable; C121_quadratic_fails: a scaled quadratic form whose operator does not absorb scalars; C121_right_fails: a variable on the left of a linear operator gives an element-wise product."
  },
  {
   "property": "C122",
   "status": "partial",
   "theorems": [
    "Verif.Utils.Deprecated.C122_function",
    "Verif.Utils.Deprecated.C122_inherited_partial",
    "Verif.Utils.Deprecated.C122_init_partial",
    "Verif.Utils.Deprecated.C122_instance_partial",
    "Verif.Utils.Deprecated.C122_alias_partial",
    "Verif.Utils.Deprecated.C122_body_fails",
    "Verif.Utils.Deprecated.C122_super_fails"
   ],
   "note": "Partial: C122_inherited_partial: attributes that are not in the body of the class; C122_init_partial: an __init__ that does not call super; C122_instance_partial: the other classes; C122_alias_partial: the documented use. C122_body_fails: the attributes of the body are lost; C122_super_fails: an __init__ that calls super raises TypeError."
  },
  {
   "property": "C123",
   "status": "proved",
   "theorems": [
    "Verif.Utils.Text.C123_shape"
   ],
   "note": ""
  },
  {
   "property": "C124",
   "status": "partial",
   "theorems": [
    "Verif.Utils.Text.C124_enum_partial",
    "Verif.Utils.Text.C124_shapes_partial",
    "Verif.Utils.Text.C124_empty_partial",
    "Verif.Utils.Text.C124_quote_fails"
   ],
   "note": "Partial: choices without quotes (C124_quote_fails); the tuples of the error messages have none (C124_shapes_partial)."
  },
  {
   "property": "C125",
   "status": "proved",
   "theorems": [
    "Verif.Utils.Text.C125_rank",
    "Verif.Utils.Text.C125_message"
   ],
   "note": "np.log10 is supposed to be exact for the powers of ten."
  },
  {
   "property": "C126",
   "status": "partial",
   "theorems": [
    "Verif.Utils.Text.C126_bytes_partial",
    "Verif.Utils.Text.C126_rounding_fails"
   ],
   "note": "Partial: sizes of less than 2^53 bytes; the others are rounded (C126_rounding_fails)."
  },
  {
   "property": "C127",
   "status": "partial",
   "theorems": [
    "Verif.Memory.Typed.C127_shape_partial",
    "Verif.Memory.Typed.C127_dtype_partial",
    "Verif.Memory.Typed.C127_contiguous_partial",
    "Verif.Memory.Typed.C127_dtype_fails",
    "Verif.Memory.Typed.C127_sum_partial",
    "Verif.Memory.Typed.C127_sum_fails"
   ],
   "note": "Partial: contiguous requests, pools without strided arrays of another type (C127_dtype_fails otherwise); sums whose input is preserved, contiguous or not converted (C127_sum_fails otherwise)."
  },
  {
   "property": "C128",
   "status": "partial",
   "theorems": [
    "Verif.Call.Refused.C128_refused_partial",
    "Verif.Call.Refused.C128_accepted",
    "Verif.Call.Refused.C128_dtype_fails",
    "Verif.Call.Refused.C128_shape_fails"
   ],
   "note": "Partial: out-of-place operators, inputs that need no conversion, calls without output. C128_dtype_fails, C128_shape_fails: an in-place operator converts its input in the output before it refuses it."
  },
  {
   "property": "C129",
   "status": "partial",
   "theorems": [
    "Verif.Call.Conjugate.C129_direct_partial",
    "Verif.Call.Conjugate.C129_conjugate_partial",
    "Verif.Call.Conjugate.C129_real_partial",
    "Verif.Call.Conjugate.C129_pool_fails",
    "Verif.Call.Conjugate.C129_value_fails"
   ],
   "note": "Partial: real inputs; complex inputs if the operator takes no temporary array from the pool, or one that is larger than the buffer of the conjugate of the input. C129_pool_fails, C129_value_fails: that buffer is put back in the pool before direct reads it, and is overwritten by a temporary array of its size."
  },
  {
   "property": "C130",
   "status": "partial",
   "theorems": [
    "Verif.Utils.Repr.C130_rebuild_partial",
    "Verif.Utils.Repr.C130_keywords_fails",
    "Verif.Utils.Repr.C130_syntax_fails",
    "Verif.Utils.Repr.C130_array_partial",
    "Verif.Utils.Repr.C130_empty_fails",
    "Verif.Utils.Repr.C130_shape_fails"
   ],
   "note": "Partial: constructors without **keywords; arrays that are not empty, up to the elements that are elided and to the shape. C130_keywords_fails, C130_syntax_fails: **keywords is displayed as a positional argument None; C130_empty_fails, C130_shape_fails."
  },
  {
   "property": "C131",
   "status": "partial",
   "theorems": [
    "Verif.Flags.Blocks.C131_diagonal_partial",
    "Verif.Flags.Blocks.C131_column_partial",
    "Verif.Flags.Blocks.C131_row_partial",
    "Verif.Flags.Blocks.C131_row_fails",
    "Verif.Flags.Blocks.C131_diagonal_fails"
   ],
   "note": "Partial: block columns; block rows whose blocks are linear (C131_row_fails otherwise: they are always flagged linear); block diagonals whose elements have the same positions in the input and in the output (C131_diagonal_fails: partitions along different axes)."
  },
  {
   "property": "C132",
   "status": "partial",
   "theorems": [
    "Verif.Flags.Delete.C132_family_partial",
    "Verif.Flags.Delete.C132_again_partial",
    "Verif.Flags.Delete.C132_alone",
    "Verif.Flags.Delete.C132_power_fails",
    "Verif.Flags.Delete.C132_unitary_fails"
   ],
   "note": "Partial: operators whose footprints can be read (C132_power_fails: SquareOperator().delete() raises an exception), whose rules return new operators and whose flags are regular in the sense of C11 (C132_unitary_fails: complex operators that are orthogonal and unitary; complex hermitian operators are not proved). The footprints of composites are given, not computed from their operands."
  },
  {
   "property": "C133",
   "status": "partial",
   "theorems": [
    "Verif.Utils.Environment.C133_integer",
    "Verif.Utils.Environment.C133_blank",
    "Verif.Utils.Environment.C133_invalid",
    "Verif.Utils.Environment.C133_misplaced",
    "Verif.Utils.Environment.C133_alignment_partial",
    "Verif.Utils.Environment.C133_zero_fails",
    "Verif.Utils.Environment.C133_true_fails"
   ],
   "note": "Partial: allocations for positive alignments (C133_zero_fails: zero and negative alignments are accepted, and no memory can be allocated; C133_true_fails: 'true' does not switch on). The settings of class float, the digits of other alphabets and the texts made of digits with misplaced signs, underscores or white space are not covered."
  }
 ]
}