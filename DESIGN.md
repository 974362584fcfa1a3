# Design of the formal model of pyoperators

The model is written in Lean 4 (4.33.0) with Mathlib, in `lean/Verif/`.  The Python/Cython/C code in `/repo` is read
as text; nothing here is extracted automatically.  Every model definition carries a comment that cites the file and
lines it follows and states the simplifications made.

## Layout

For each area there is one directory `Verif/<Area>/` with

* `Model.lean`  – small total functions following the Python functions one by one (exceptions are `Except`/`Option`
  values, mutable objects are explicit state, NumPy arrays are functions or lists, floats are elements of a
  ring / field / ℝ: rounding errors are out of scope);
* `Spec.lean`   – (when the specification needs vocabulary) the independent meaning: matrices, sums over sets of
  indices, NumPy broadcasting relation, …, written without using the model's helpers;
* `Lemmas.lean` – helper lemmas;
* `Props.lean`  – the property theorems (named `Cnn_…`), each followed by an `example` showing a concrete non-trivial
  instance of its hypotheses.

Theorems that only cover part of the English property have the suffix `_partial`; when the code violates the property
the negation is proved on a concrete witness (`Cnn_…_fails`) and a `_partial` theorem covers the fragment that holds.

## Plan per property (what is modelled, how it is proved)

| id | modelled code | proof idea |
|----|---------------|-----------|
| C01 | `split` (rank form and generator form) on ℕ | closed form of the accumulated start by induction on the rank; interval partition |
| C02 | `distribute_shape(s)`, `combine_shape`, `distribute_slice`; a communicator is a size, `allgather` is the list over ranks | sums of the C01 lengths |
| C03 | `MPIDistributionGlobalOperator` direct/transpose, `Allgatherv` as writing each rank's chunk at its offset; the transpose of `MPIDistributionIdentityOperator` as a sum over the ranks | flattening by rows; C01 offsets; induction over the ranks |
| C04 | `empty` address arithmetic | `Nat` arithmetic |
| C05 | `MemoryPool` as a list of buffers, all operations as a step relation | invariant by induction on histories |
| C06 | `iscompatible`, `extract`, `view` | case analysis + list lemmas |
| C07 | `set`, `set_if`, `__call__` skeleton with an operator that returns or raises | witness for the violation, proof for normal outcomes |
| C08 | `copy_if`, `get` | witness (unaligned buffer handed out), partial for pools of aligned contiguous buffers |
| C09 | `RuleManager.__call__/__enter__/__exit__` on a heap of managers | witness for re-entry of the same manager, proof for fresh managers |
| C10 | `_set_flags`, `_init_flags` closure; meaning of flags over `Matrix n n ℂ` | witness: reflection declared symmetric+orthogonal; partial for the other deductions |
| C11 | `_generate_associated_operators` as an allocation graph + pointer writes | exhaustive kernel computation over the finite configuration space lifted to all configurations |
| C12 | composition `_merge_flags` | induction over the operand list with Mathlib matrix lemmas |
| C13 | addition `_merge_flags` | witness for `hermitian`, induction for the rest |
| C14 | `NonCommutativeCompositeOperator._apply_rules` | loop invariant: product of the list in a monoid; measure for termination |
| C15 | `CommutativeCompositeOperator._apply_rules` | loop invariant: sum of the list in a commutative monoid |
| C16 | `_apply_rule_homothety(_linear)` | invariant on the value of the product |
| C17 | `_get_info`, `_get_requirements`, `CompositionOperator.direct` over a store of zones of memory and a pool (Verif/Compose); the cache `_info` and the dtypes are left out, an operand is a function on contents | invariant over the groups: the current buffer holds the partial composition, is not in the pool, the pool holds only scratch buffers; witnesses for the violations |
| C18 | `_get_bufsizes`, `_get_requirements`, the splits of the first and last operands | decomposition of the operands in groups (`Fits`), by induction on the loop |
| C19 | Verif/Sum/Model.lean: the schedule of the operands and the loop of CommutativeCompositeOperator.direct, on the memory, pool and operands of the model of compositions | the swap of two operands is a permutation; the operation is associative and commutative; invariant of the loop: the output is the fold over the operands already applied |
| C20 | `Shape/Model.lean`: broadcast_shapes with the padding, the deletion of the ones and the comparison of the remaining dimensions | the result is compared dimension by dimension with the definition of NumPy (`Broadcasts`); failure iff no such shape; order and grouping follow |
| C21 | `Shape/Model.lean`: merge_none | result iff it agrees with both and is unknown exactly where both are; least upper bound, commutativity, idempotence, associativity (with failures) |
| C22 | `Block/Model.lean`, `Block/Slices.lean`: `_get_slices`, NumPy basic indexing (view and assignment) | prefix sums locate every element in exactly one slice; gather then scatter is the identity |
| C23 | `Block/Matrix.lean`, `Block/Inplace.lean`: `direct` of block diagonal, column and row operators, rule 'T' | sum over the array = sum over the tiles; loop invariants; the output is the product by the block matrix, also transposed; in place: disjointness of the slices |
| C24 | `Block/Fuse.lean`: `_validate_partition_commutative`, `_validate_partition_composition`, `_rule_blocksameoperator_commutative`, `_rule_blockoperator_noncommutative`, `_rule_operator_commutative`, `_rule_operator_lcomp`, `_rule_operator_rcomp` | effect of a block operator characterised by the results of its blocks; the results of the fused operator are those of the unfused one; refusals from C21 |
| C25 | `Block/Implicit.lean`: resolution of the unknown entries in the three methods direct | the entries resolved by columns and rows are tuples, which raise; known entries reduce to C23 |
| C26 | `Shape/Operator.lean`: _init_inout, _validate_shapes, the two scans of _get_shapes, the merged reshape methods and the initialisation of a composition | `Sends` and `Agrees` relate a list of shapes to the operands; C26_call: the shapes are found iff they satisfy both; C26_implicit: the composition's reshapein; C26_known_partial: no contradiction for any kinds; C26_rejection_fails |
| C27 | `Broadcast/Model.lean`: numpy broadcasting, `_rule_broadcast`, `merge` of the broadcast kinds, `DiagonalBase._rule_multiply`, `get_data` of each class | coefficient of a broadcast diagonal at an index; the coefficient of the combination is the combination of the coefficients, by the alignment of the shapes; then C28 |
| C28 | `Broadcast/Model.lean`: `inspect_special_values` (three loops), morphing in `DiagonalOperator.__init__`, `HomothetyOperator.__init__` and `MaskOperator.__init__`, `direct`, `validatein` | loop invariant of the scan against the list of the values; effect of each class computed through the coefficient |
| C29 | `Pack/Model.lean`: constructors (with the conversion to a diagonal operator), shape functions, `direct`, transposes and the rule 'T,.' | sums over the multi-indices split into the dimensions of the mask and the other ones (`glue`); the kept places are distinct |
| C30 | `Pointwise/Index.lean`: `_1dNdOperator.__init__` (cumulative products), `direct` of both operators, inverses | the coefficients are the products of the next dimensions; induction on the shape; Fortran order by reversal |
| C31 | `Pointwise/Round.lean`: `RoundOperator`, with the rounding `fl` of the floating-point sums as a parameter | inequalities of floor and ceil; the violations by evaluation |
| C32 | `Pointwise/Threshold.lean`: constructors, both ufuncs, the rule of the composition with `np.maximum` broadcasting | case analysis on the signs and magnitudes; the broadcast of the thresholds is reduced to `thresholdAt` |
| C33 | `Pointwise/Power.lean`: constructor with `np.allclose`, `direct` of the four classes, rules | laws of real powers; integers through `zpow` |
| C34 | `Linear/Rotation.lean`: `Rotation2dOperator`, `Rotation3dOperator` with the table of the 21 conventions and the conversion of the extrinsic ones | each entry of the table compared with the product of elementary rotations; rotations are closed under products |
| C35 | `Linear/Axis.lean`, `Linear/Band.lean` | sums along one axis exchanged with the enumeration of the array; the transpose multiplies by the transposed matrix |
| C36 | `Fourier/Dft.lean` (discrete Fourier transforms over finite abelian groups, r2c and c2r on Hermitian halves), `Fourier/Toeplitz.lean` (padded size, kernel buffer, input buffer, rows) | convolution theorem on ZMod fftsize; the circulant kernel restricted to the first n samples is the Toeplitz matrix because fftsize ≥ nsamples + ncorr; buffers of any contents |
| C37 | `Utils/Proxy.lean`: heap of operators made by the callback | invariant by induction on the accesses, exceptions included |
| C38 | `Iter/Buffers.lean`, `Iter/Restart.lean`: `_set_buffer_handling`, `initialize`, `_update_variables` as a rotation of named buffers in a memory; `next` | invariant `Good`: the window of the named variables holds the last values of the recurrence in order and the buffer of the new value is separate; compared with `sequential`, which has no buffers |
| C39 | `Iter/Control.lean`: `next`, `run`, `restart`, `cont` over an abstract algorithm (setup, iteration, update, stop conditions) | induction on the number of iterations; restart through a simulation relation between the first run and the next ones |
| C40 | `Iter/Control.lean`: `_check_stop_conditions`, `StopCondition`, `MaxIterationStopCondition`, `|` | characterisation of the first iteration at which a condition holds by induction on the fuel of the loop |
| C41 | `Iter/Cg.lean`: `PCGAlgorithm.initialize` and `iteration` over a real inner product space, exact arithmetic, no MPI reduction | invariant of the residual; conjugacy and orthogonality by a joint induction; termination from the linear independence of the residuals |
| C42 | `set_rule`, `del_rule` | list invariants |
| C43 | `Linear/Trapeze.lean`, on top of the block rows | value of a block row, telescoping of the weights |
| C44 | `_update_user_default_triggers` | fold over the lines |
| C45 | `Utils/Timer.lean`: programs of nested blocks, with exceptions | induction on the programs |
| C46 | `Linear/Reshape.lean` (`reshape` in C order, `broadcast_shapes` against NumPy's broadcasting), `Linear/Dense.lean` (validation, output shape, direct with merged axes and einsum, rollaxis transposition, product rule, homothety rule, check of shapein) | ranks of multi-indices under concatenation; the calls that succeed are those with a `Layout`, for which the output is a sum over the input axes; associativity of broadcasting; exchange of sums |
| C47 | `garbage_collect` | invariant |
| C48 | `Fourier/Convolution.lean`: padding, roll, constructor, real and complex operators, rules T, H, +, composition, homothety, exchange with the transforms | each operator represents the half transform of a real kernel (`Represents`); closure of the rules by induction (`Made`); convolution is associative and its adjoint is the correlation |
| C49 | `Wavelet/Coeffs.lean` | slices between partial sums of the sizes |
| C50 | Verif/Call/Model.lean: __call__ and _validate_arguments, with the copies of the input and output in temporary buffers, on the memory and pool of the model of compositions | what is known of the arrays given to direct (structures InputOk, OutputOk), then one lemma for the context managers of the pool |
| C51 | `direct` of the blocks with the copies of `copy_if`, in place | witness (partial overlap of copies), partial without copies |
| C52 | `_generate_associated_operators`: values of the chains of attributes | invariant: every node of the graph holds the value its name says, by induction on the chain |
| C53 | `MultiplicationOperator._merge_flags` | induction over the operands |
| C54 | `BlockSliceOperator.__init__/direct` with the reordering of `CommutativeCompositeOperator._apply_rules` | witness; fold invariant for the partial theorem |
| C55 | the rule ('.', HomothetyOperator) of `BlockSliceOperator` | witness; fold invariant for the elements in the slices |
| C56 | `RuleManager.__call__/__enter__/__exit__`, the values of the triggers inside the context | list lemmas; witness for a bare re-entry |
| C57 | `CompositionOperator.direct` with an operation | same invariant as C17, with the old contents of the output kept until the last group; witnesses |
| C58 | `Shape/Operator.lean`: initialisation of sums | the operands accept what the sum accepts when they have no own validation and agree; four negations |
| C59 | `Shape/Operator.lean`: _get_shapes and the validation of a composition | from C26_known_partial for operands without own validation; negation otherwise |
| C60 | `Shape/Operator.lean`: _init_inout | case analysis on the declared shapes |
| C61 | `Block/Needs.lean`: arrays handed to the operands, `copy_if` | case analysis and induction on the operands |
| C62 | `Block/Infer.lean`: `_get_shape_composite`, `_get_shape_operands`, `reshapein`, single operand | the shapes of the parts (C22) are those of the operands, and the composite shape inverts them |
| C63 | `Block/Infer.lean`: `_get_partitionin`, `_get_partitionout` with the shapes that are tried | every tried shape has the dimension of the partition along the axis |
| C64 | `Pack/Model.lean` | the packed vector enumerates the kept places |
| C65 | `Pointwise/Power.lean` | laws of real powers |
| C66 | `Linear/Band.lean`: `toband` | both operators multiply by the same matrix |
| C67 | `Linear/Band.lean`: `direct` of the three classes, `rab` | sum over the diagonals exchanged with the sum over the columns |
| C68 | `Fourier/Convolution.lean`: rules of the forward and backward transforms | orthogonality of characters; adjoint up to the number of elements; counter-examples over two elements and over a 2×2 array |
| C69 | Flags/Copy.lean: the flags given to the associated operators, the two successive deductions (without data type, then with it) | Which objects are created is determined from the flags; the flags are then true by C10's deductions, the second one being checked over the complete table of the flags |
| C70 | Flags/Copy.lean: the configuration of a copy of each of the eight objects | The flags of the copies are true (C69), so that the configuration of a copy is sound and the theorem on the chains of attributes (C52) applies to it |
| C71 | Both conversions row by row over the reals (`arctan2` is `Complex.arg`), the names of the conventions, the degrees variants as compositions with homotheties, and the simplification of such compositions | `direction_of_unit` and `azimuth_of_direction` relate the two angles and the vector; the four conventions are a case analysis on `written` |
| C72 | `direct` of the three operators with NumPy broadcasting, and the separable rule of the block operators | element-wise formulas through `apply_broadcast`; the fusion is an instance of C24_left for scalar parameters |
| C73 | `direct` row by row over the reals and the complex numbers | `lengthSq_map`: the length is homogeneous |
| C74 | The arrays v and w over the reals, the matrix of the composition V W Vᵀ, and the methods as formulas on w | `matrix_eq` writes the operator as V diag(w) Vᵀ; VᵀV = 1 gives the products, and VVᵀ = 1 for a square V |
| C75 | The algorithm as an instance of the iteration control of C40, in exact real arithmetic where a division by zero gives NaN (`none`); the eigendecomposition of the tridiagonal matrix is a parameter assumed to be exact (`Exact`, shown to be satisfiable from the spectral theorem) | `recurrence` extracts the three-term recurrence from the run; strong induction gives orthonormality (`Recurrence.orthonormal`) and QᵀAQ = T (`Recurrence.compressed`), so the operator is P A P with P = QQᵀ; `Leads` tracks the leading Krylov vector for the equivalence with independence |
| C76 | Norms as pairs of functions over the reals, elements with a matrix and optional data, the cache of each element as a state threaded through the calls | `gradient_sum` and `gradient_quadratic` give the derivatives of the norms (for Huber from a quadratic bound on each side of the transition); the invariant `Live.Good` says that what is cached is op(x), and is preserved by `call` and `diff`; the chain rule for the transposed operator |
| C77 | The elements of C76 with the flag `isinstance(norm, Norm2)`; the loop of the backtracking with the remaining number of trials as fuel | `value_line`: along a line the criterion is value + t d·g + t² curvature; completing the square; induction on the fuel for the backtracking |
| C78 | The methods of the criterion and the updates of z and gamma as formulas over real vectors and matrices | `gradient_sum_index` and the chain rule of C76 for the gradient; derivatives of s / sqrt(z + s²) for the Hessian; an exact eigendecomposition gives z; completing the square for gamma |
| C79 | The attributes as a state where NaN is `none`; `iterate` as the composition of the updates; `Stops` says after how many iterations `run` ends | `fine_step` shows by induction that the values are finite and the gradient orthogonal to the last direction; `is_cg` then identifies the sequences with those of C41, whose proofs give conjugacy and finite termination; `nan_step` is the step after the minimum |
| C80 | NumPy arrays as a memory with base, shape and strides (in elements); `_as_strided`, the constructor and the rules of ConstantOperator; the other operator is an arbitrary function with its shape and flags | `offset_own`: the strides of `_as_strided` give the C order number of the broadcast index; contiguous arrays are read at this number. Sums and products reuse `combine_data` of C27 |
| C81 | `_rule_block` with the decision between replication and slicing, NumPy's indexing with its exceptions, and the broadcast view of C80; the result is the list of the data of the new operators | `part_view` and `part_place` decompose a part of an array along the axis; `replicate_piece`: broadcasting does not see the axis; `slice_piece`: broadcasting commutes with the selection. The values follow from the tiling of C22 (`left_pieces`, `right_pieces`) |
| C82 | the grid of powers, the products with 64 bit integers, the conversion of the number to a double; the logarithms are exact | the powers of the grid go up to ⌈log m/log v⌉ = `Nat.clog v m`; a product with a larger power is at least v^clog ≥ m, which is in the grid (`exact_cut`). The specification uses the submonoid generated by the factors |
| C83 | arrays with base, shape and strides (shared with C80), the test of the shapes and the strides of the view | `offset_masked`: a zero stride ignores the index; NumPy's broadcasting is stated with positions from the end |
| C84 | programs as trees of work, Ctrl-C, exceptions, the two kinds of blocks and try/except; a state with the signal handler and the recorded interrupts; the loop of `next` as a sequence of uninterruptible blocks | simulation between the execution with the recorder of the block and the one with a handler that only counts (`run_recorder`), by induction over the program |
| C85 | objects with own and class attributes, modes of `np.seterr`, environment variables and MKL threads; the body of the block is an arbitrary function that ends normally or with an exception | case analysis; nesting by applying the theorem of the outer block to the inner one |
| C86 | the two loops of `todense` (a vector with a single one, or the shared memory of the in-place variant), conversions to the dtype, `matvec`; elements are numbered in C order | the loops return the images of the unit vectors; linear functions are determined by them (`linear_sum`) |
| C87 | values as trees of numbers (with NaN), strings, arrays, sequences, dictionaries, methods and functions; the branches of `all_eq` in order; exceptions as `none`; `Operator.__eq__` removes the attributes of the rules | structural (recursive) proofs over the trees; `C87_tolerance` from an enumeration of the positions of an array in C order (`positions`) |
| C88 | operators as functions with flags, a transpose and an object identity; the dispatch of `__mul__`, `__rmul__` (and of NumPy, lists and `np.matrix` on the left), `__pow__` and `asoperator` | case analysis; x * A is specified by the scalar products with all vectors; powers by a recurrence over all integers |
| C89 | the six storage formats, the loops of scipy.sparse._sparsetools and the loop over the items of a DOK matrix; the simplification of the product by a scalar, with the depth of the stack | `loop_sum`: a loop of additions is a sum over an interval, then exchanges of finite sums; the elements of the matrix are defined by the documentation of the formats |
| C90 | scalars, vectors, matrices and SciPy's linear operators over a commutative ring with conjugation; direct and transpose methods, T, C, H; `matvec`, `rmatvec` | products by matrices (Mathlib); SciPy's contract is `rmatvec y = aᴴ y` |
| C91 | Python objects as values with the relations `is` and `==`, and a call for the callable ones; the eight functions over lists, exceptions as `none` | induction over the lists; the first position is specified by the element at it and the absence of earlier ones |
| C92 | arguments as scalars, strings, sequences, other collections and generators; `itertools.repeat`, `zip`, `sys.maxsize` | the number of tuples by `IsCount`, then induction over the arguments |
| C93 | the constructor of `ReductionOperator` for the kinds of callables and the two major versions of NumPy; arrays as shapes and flat lists in C order, `func.reduce` and functions with an argument axis, slices of the shapes | `IsAxis` specifies the position of an axis; the elements along an axis by their positions in C order (`Verif.Linear.Axis`) |
| C94 | classes with their class attributes, arrays as (class, dictionary), dict or function attrout; the attributes at the end of `__call__` with and without out, compositions, merged compositions, sums and blocks | lemmas on lookups in dictionaries; induction over the operands |
| C95 | operands as optional communicators with a flag for those that adapt; the loops of the two propagations and the validation, which precedes them | `Consistent` assigns a communicator to each vector between the operands; induction over it in both directions |
| C96 | shapes as lists; `validatein` and `toshapein` of diagonal operators, blocks along the first or last axis, sums and columns; `ndarray.reshape` with a -1 | `Broadcasts` and `BlockAccepts` specify the accepted shapes without the model; products of dimensions and divisibility |
| C97 | keywords as lists of characters; the loop over suffixes, the regular expression, the sort of the variables, the promotion of data types, the comparison of addresses | `lag`, `IsVariable` and `IsRecursion` specify the keywords by their names; a name ends with `_old` and digits in one way, the representation of numbers is injective; bounded loop shown to end by counting keywords |
| C98 | operands as operators, groups and flattened compositions; the right to left loop of the rules with its priorities; the tables of the associated operators over complex matrices | induction on the operands from the last composition; products of adjoints and inverses in `Matrix` |
| C99 | texts as lists of tokens with the grammar of Python's arithmetic expressions (recursive descent with fuel), variables looked up in the local variables of the caller and then in global_dict, arrays broadcast from their last dimensions, transpositions; trusted: numexpr follows this grammar and evaluates elementwise | `parse_append`: a closing parenthesis ends an expression, so that the concatenated text is the product; fuel monotonicity; the reversal of the trailing alignment is the leading one; expression values by induction |
| C100 | subjects, predicates and associated operators as finite types; the constructor's checks; which associated operators have been generated as part of the state | `Described` and `meaning` specify the pairs and the results by the operators themselves; case analysis on the subjects and predicates |
| C101 | the 16 numeric types of NumPy with the table of safe casts and the order of np.find_common_type (NumPy 1; trusted), None for operators without type; sets of values as integer ranges and binary floating point formats | finite tables by kernel `decide`; all lists of operands by induction: a type to which all can be cast absorbs them; inclusions of the sets of values from their bounds |
| C102 | the stub as a state machine over its class dictionary of keys and the dictionaries of the communicators; assignments of NumPy with broadcasting | `Mpi` specifies attributes with keys that are never reused; simulation relation preserved by every step of a careful program; copied values are compared in the order of the memory |
| C103 | MPI_Comm_split with colours, keys and sorting (trusted); programs with nested statements and exceptions; objects compared by ==; 64-bit sums that wrap | the keys are the ranks, so sorting leaves the filtered ranks; inductions over programs, lists of messages and lists of numbers; `sum_work` for the slices of split |
| C104 | objects as references to a heap of elements with their caches; programs that create, add, scale and call them; the functions that build criterions from lists | simulation of the programs by the algebra of functions (`Sim`): the caches are right (`Live.Good` of C76), and the value of an object is that of its function; induction over the program and over the lists of priors |
| C105 | the factors as zero, identity or other operators with the shape attributes of C26; the rules of zeros, identities and compositions in their order of precedence; `_merge`; the allocation of the output | `composeWith_opOf`: the two scans of `_get_shapes` give the dimensions of the product (invariants seen from the left and from the right), and the initialisation leaves them; associativity of the dimensions; induction over the parentheses with the class of the intermediate result |
| C106 | the attributes of every process; `_dot` and `_norm2` as sums of the processes that every process receives; tests before collective actions, whose result is `none` (deadlock) if the processes do not agree; `initialize`, `iteration`, the loop of `next`, `pcg` | simulation: the state of the processes is always the parts of the state of the sequential algorithm of C41 (`setup_parts`, `iteration_parts`, `loop_parts`), because the sum of the local products is the inner product of the distributed arrays; then the theorems about the sequential algorithm, and an invariant of its loop for the success |
| C107 | the classes of operators with what they compute and their flag linear; the constructors that morph (`newHomothety`, `newDiagonal`, `newConstant`, `newPower`); the rules of the composition, sum and product (`leftRules`, `rightRules`, `scalarTable`, `sumRules`, `productRules`) given to the loops of C14, C15 and C16; the constructors by depth (`make`); the expressions (`build`) | every rule preserves the function computed if the constructors that it calls do; the theorems about the loops in the monoids of the functions with composition, addition and product; induction on the depth, then on the expression |
| C108 | the arithmetic of floating point numbers with infinities and NaN, types with their eps and safe casts, arrays with broadcasting, `assert_same` | case analysis of the comparison of two elements (`same_iff`, `same_comm`), lifted to all the indices of the arrays |
| C109 | constructors with the binding of arguments of Python, `first_guess`, `__call__` of the eight classes with an arbitrary function in place of SciPy, `update_current_solution` | case analysis of the methods; induction on the number of calls |
| C110 | tokens, the two methods `__str__` for sums, products and compositions (groups of linear operators, holes `...`, protections), and a reader of formulas with the usual precedences, which gives the function that a text stands for | the reader applied to a text followed by any text that does not continue it (`Good`), one lemma per construction, induction on the operands of compositions (`good_chain`) and on expressions |
| C111 | the loop of `next` with a callback which changes a store of the user and may raise an exception, `run`, `cont`, `restart`, the default callback, a callback that saves its arguments | simulation of the algorithm without callback (`loop_quiet`); induction on the number of iterations for the list of the calls (`loop_saving`); `C111_raised`: a callback that remembers its exceptions, by induction on the loop |
| C112 | the data types as kind, size and order of the bytes, the four functions, and the rational values of the formats (m 2^e with bounds) | inclusion of the formats (`Binary.mono`), integers of at most 32 bits as numbers of 53 bits, cases on the kinds and sizes; parity for the number that is not converted exactly (`not_binary`) |
| C113 | the dispatch of `__add__`, `__radd__`, `__sub__`, `__rsub__`, `__neg__` (three classes), `__truediv__`, `__rtruediv__`, `asoperator` with and without constants, the opposites that Python computes, arrays on the left; the products are those of C88 | case analysis on the terms; linearity and transposes of sums from those of the operands |
| C114 | objects as a nested type, `assert_eq` with its order of cases, `assert_allclose` of NumPy with its broadcasting of scalars, the conversion of nested lists to arrays; the specification reads the objects along paths | mutual induction on the first object (`assertEq_sound`); slices of stacked arrays (`flatten_slice`, `toArray_represents`) |
| C115 | The decorators of flags.py as the arguments that they give to `_set_flags`; classes as method resolution orders (data) and optional attributes `flags`; attribute lookup along the order; KeyError as none | Decorated flags against a table of the docstrings (all but orthogonal); lookup lemmas by induction on the order; commutation of two decorators (every decorator that touches a flag gives it the same value) lifted to all permutations; characterisation of the flags after a list of decorators |
| C116 | Nodes of an expression with their `direct` as a state transformer; leaves, `CompositionOperator.direct` over nodes, `CommutativeCompositeOperator.direct` over nodes, all of them sharing the memory and the pool of Verif/Compose/Model.lean | A contract of a call (value, frame, well-formed pool, no buffer lost, new buffers are fresh) that leaves satisfy and that compositions (invariant over the groups) and sums (invariant over the operands) preserve; induction on the inductive predicate `Built`, which also gives the meaning of the expression; the number of a group is that of the operands before it that do not work in place, whence the condition of parity on the operands that use the pool |
| C117 | `Rules/Manager.lean`: heap of dictionaries, managers with deferred keywords and saved references, programs with exceptions. `Rules/Scoped.lean`: the reference semantics `scopedExec` over maps from names to values, without heap, references or deferred keywords; `registerName`. | `C117_scoped_partial`: simulation by induction over the program, with the invariant on the saved dictionaries of C09; every operation of the dictionaries is the operation of the maps. `C117_registered_partial` for `register`. `C117_bare_context_fails`, `C117_upper_case_fails`. |
| C118 | `Linear/DenseShapes.lean`: `reshapeout`, `validateout` and the part of `_init_inout` that sets the explicit shapes, with the methods of the dense block diagonal operators; `reshapein`, `validatein` and `checkShapein` are in `Linear/Dense.lean`. | `C118_validatein`, `C118_validateout`: the accepted shapes in terms of NumPy's broadcasting rules. `C118_round_trip`, `C118_transpose`. `C118_output_partial`, `C118_shapein_partial`, `C118_explicit_partial`. `C118_output_fails`, `C118_shapeout_fails`, `C118_both_fails`. |
| C119 | `Linear/DenseInit.lean`: the keywords of the constructors, the change of class, the slices of the shape of the data with Python's semantics for negative bounds, the reshape of the data. | `C119_axes_partial`, `C119_dtype_partial`, `C119_accepted` by cases on the keywords. `C119_axes_fails`, `C119_dtype_fails`. |
| C120 | `Shape/ProxyGroup.lean`: the initialisation of the shapes of a proxy by the operator that is current in the group, the methods of the proxies as functions of the current operator, `proxy_group`, the proxies of the associated operators (initialised twice), and their flags. The accesses are those of C37, the operators those of C60. | `C120_default_partial`, `C120_associated_partial`, `C120_kind_partial`, `C120_given_partial` by cases on the known shapes; `C120_flags_partial` on all the flags. `C120_explicit_fails`, `C120_history_fails`, `C120_number_fails`, `C120_kind_fails`, `C120_flags_fails`. |
| C121 | `Simplify/Variables.lean`: `Variable`, `VariableTranspose`, the dispatch of the products, the transpose of a composition; the simplification is that of C14 and C16 with the rules of the variables and of the identities. | the operands that are not identities are an invariant of the loop (`loop_total`), which gives `C121_built_partial` (compositions), `C121_product_partial` (products of two factors) and `C121_transpose_partial`; `C121_meaning`, `C121_product`, `C121_transpose` from C14 and C16 in any monoid with central scalars. `C121_scalar_fails`, `C121_outer_fails`, `C121_transpose_fails`, `C121_quadratic_fails`, `C121_right_fails`. |
| C122 | `Utils/Deprecated.lean`: `deprecated` for functions and classes; the search of attributes and of `__init__` along the `__mro__`, `super()` and `isinstance` as Python does them. | `C122_function` by induction on the calls; `C122_inherited_partial`, `C122_init_partial`, `C122_instance_partial`, `C122_alias_partial` by induction on the bases. `C122_body_fails`, `C122_super_fails` for all classes. |
| C123 | `Utils/Text.lean`: `strshape`, with `str` of tuples of integers and ellipses, the removal of spaces and quotes, and the decimal texts of Lean's core library. | `C123_shape` (iff): the filtered text is the intercalation by commas of the elements; it is split at the commas, and decimal texts are injective. |
| C124 | `strenum`. | `C124_enum_partial` by splitting the text at the quotes; `C124_shapes_partial` from it and the text of tuples; `C124_empty_partial`. `C124_quote_fails`: concrete choices with quotes. |
| C125 | `strinfo`, the format with zeros, the number of digits from the integer part of the logarithm. | `C125_rank`: a decimal text has at most as many digits as the width, padding keeps the value; `C125_message`. |
| C126 | `strnbytes`, for an arbitrary rounding of the quotient that is exact for quotients with 53 bits. | `C126_bytes_partial` by cases; `C126_rounding_fails` for any rounding, by parity. |
| C127 | `Memory/Typed.lean`: `iscompatible`, `add`, `extract`, `view`, `get` with data types; the call of a sum of operators with its converted input and its temporary array. Integers are truncated when they are assigned; other roundings are not modelled. | `C127_shape_partial`, `C127_dtype_partial` by cases on the entry that is found; `C127_contiguous_partial` by induction on the history of the pool; `C127_sum_partial` from them and a fold. `C127_dtype_fails`, `C127_sum_fails`: concrete strided arrays of integers. |
| C128 | `Call/Refused.lean`: the order of the checks and of the copies in `__call__` and `_validate_arguments`, for arbitrary validations of the shapes; the memory as words of 8 bytes. | `C128_refused_partial` by cases; `C128_accepted` characterises the calls that are refused. `C128_dtype_fails`, `C128_shape_fails`: concrete calls of an in-place operator. |
| C129 | `Call/Conjugate.lean`: `Operator.conjugate` and a method `direct` that takes a temporary array from the pool, on the memory and the pool of `Compose/Model.lean`. The arrays of the pool are contiguous or have the shape of the request; the method `direct` writes its temporary array before it reads its input again. | `C129_direct_partial`, `C129_conjugate_partial`, `C129_real_partial` from the cases of `extract` and the distinctness of the buffers. `C129_pool_fails` for every operator with a temporary array of the size of its input; `C129_value_fails`: a concrete operator. |
| C130 | `Utils/Repr.lean`: the parameters that `__repr__` displays, and the text of arrays as lists of characters. The specification `bindCall` is the way in which Python gives the arguments of a call to its parameters. Parameters `*args` and the texts of the other values are not modelled. | `C130_rebuild_partial`: the displayed arguments are split in positional and named ones, and each name is looked up by induction on the parameters. `C130_array_partial`: the separators determine the parts of the text. `C130_keywords_fails`, `C130_syntax_fails` for all the constructors with `**keywords`; `C130_empty_fails`, `C130_shape_fails`. |
| C131 | `Flags/Blocks.lean`: the flags of block operators, as they are merged, replaced by those given to the constructor and completed; the functions that they compute, for arbitrary positions of the elements of the blocks in the input and in the output. | `FnTrue` of C13 is the meaning of the flags. `C131_diagonal_partial`: the sums over the input are reindexed by the blocks; `C131_column_partial`, `C131_row_partial` pointwise. `C131_row_fails`: a row of squares; `C131_diagonal_fails`: three identities of shape (2, 1), from shape (6, 1) to shape (2, 3). |
| C132 | `Flags/Delete.lean`: `Operator.delete` over the objects and references of C11 (`Flags/Assoc.lean`), embedded in a program with any other objects; the footprints, the loop that stops at the first exception and the garbage collection counter of C47. | `C132_family_partial`: the eight references that are read from any associated operator are all the objects reached by chains of attributes (table of C11), and induction on the loop, in which an object met again has the footprint 0. `C132_again_partial`; `C132_alone`: associated operators not asked for yet. `C132_power_fails`, `C132_unitary_fails`: witnesses. |
| C133 | `Utils/Environment.lean`: `config.getenv` for integers and switches, with `strip` and the integer literals of python character by character; the offset of aligned allocations for any alignment. | `C133_integer`: induction on the digits, against `Nat.ofDigits`; `C133_blank`, `C133_invalid`, `C133_misplaced` (no digit): characters that survive `strip` and that no literal accepts; `C133_alignment_partial`: division algorithm. `C133_zero_fails` (for all addresses and sizes), `C133_true_fails`: witnesses. |

(The status of each property is in `MANIFEST.json`; disagreements found between code and property are listed below.)

## Trusted base

* the Lean 4.33.0 kernel; Mathlib's definitions used in statements (`List`, `Matrix`, `Finset.sum`, `ℝ`, …);
* axioms: at most `propext`, `Classical.choice`, `Quot.sound` (Lean's standard ones) – no others, no `sorry`,
  no `native_decide`, no `bv_decide`;
* the hand-made correspondence between the Lean definitions and the Python lines they cite.

Not modelled: NumPy/SciPy/FFTW/mpi4py/numexpr/pywt internals (given their documented meaning), floating point
rounding (the Fourier transforms are the exact sums of FFTW's documentation, c2r being defined on Hermitian halves), dtype promotion (except item sizes in buffers), attributes and classes of ndarray subclasses, printing.

## Disagreements between the code and the properties

Each item names the theorem that proves the violation on the model; the partial theorem beside it covers what holds.

* C07: if the operator raises, the user's output array stays in the memory pool (`set` has no `finally`), a later call can
  then use it as a temporary buffer (`C07_user_array_left_in_pool_fails`).
* C08: `copy_if` does not pass its requirements to `get`: the buffer it yields can be unaligned, or not contiguous
  (`C08_…_fails`).
* C09: entering twice the same rule manager object does not restore the triggers (`C09_reentry_fails`).
* C10: the flag `idempotent` is deduced from the others for operators that are not idempotent (a reflection); a flag reset
  to False can contradict another one (`C10_reflection_fails`, `C10_reset_fails`).
* C11: for hermitian or unitary operators that are not real, and with some unary rules, two names of the same associated
  operator give different objects (`C11_hermitian_fails`, `C11_unitary_fails`, `C11_rule_fails`).
* C13: a sum of symmetric complex operators is flagged hermitian (`C13_addition_hermitian_fails`).
* C44: unknown names in the file rules.txt are accepted (`C44_unknown_name_fails`).
* C51: block operators used in place with copies (see `C51_…_fails`).
* C54: `BlockSliceOperator` lets its base class move a homothety to the front of the operands, the slices do not follow
  (`C54_homothety_fails`).
* C55: the product of a block slice operator by a scalar leaves the elements out of the slices unscaled
  (`C55_scalar_fails`).
* C56: entering again a rule manager with `with manager:` re-applies the keywords of its previous call (`C56_bare_context_fails`).
* C17: called in place, a composition with exactly one operand that is not able to work in place gives this operand the same
  array as input and output (`C17_in_place_fails`, marked xfail in tests/test_inplace_outofplace.py); the output is put
  in the pool while it holds a live intermediate result, an operand that takes temporary buffers (a sum, for instance)
  then destroys its own input (`C17_pool_fails`); with a non-contiguous output, an in-place first operand that changes
  the shape makes the call raise (`C17_noncontiguous_fails`); the requirements of in-place operands on their output are
  not taken into account (`C17_requirements_fails`).
* C57: a composition whose first operand works in place and can update its output (NumexprOperator, ConstantOperator)
  overwrites the output instead of updating it (`C57_in_place_first_fails`); the output to be updated is lent as
  scratch to the operands through the pool (`C57_pool_fails`).
* C19: the temporary buffer of a sum is taken from the pool without the alignment and contiguity required by the operands (C19_requirements_fails).
* C50: `op(x, x, preserve_input=False)` raises a ValueError when the operator requires a temporary input and output: both are lent to the pool, and they are the same array (C50_not_preserved_fails).
* C50: `op(x, out, operation=iadd)` loses the contents of the output if the operator works in place and the input has to be converted: the input is converted in the output (C50_update_copy_fails).
* C50: `op(x, out, operation=iadd)` on an output that does not meet the requirements of the operator updates a temporary buffer that has not been initialised with the output (C50_update_temporary_fails).
* C26: the composition of an explicit operator of input shape (4,) with Cartesian2SphericalOperator, whose outputs have a last dimension 2, is accepted; the error only occurs at the call (C26_rejection_fails).
* C58: only the validation methods of the first operand of a sum are used (C58_validation_fails), the output shape is the one of the first implicit operand (C58_reshape_fails), a sum is square if any of its operands is (C58_square_fails), and implicit operands are ignored if there is an explicit one (C58_mixed_fails).
* C59: the methods validatein and validateout of the operands of a composition are not called, except for the first and last ones (C59_composition_fails).
* C60: two contradictory shapes are accepted for an operator that has its own validation (C60_validation_fails); a square operator with different shapes silently loses its flag (C60_square_fails).
* C23: a block diagonal operator that works in place overwrites its result with its input if a part of the array does not meet the requirements of its block, because the temporary copy of the input is copied back after the output has been written (C23_inplace_fails).
* C24: the elementwise product of two block rows is replaced by the block row of the products (C24_mul_fails); the fusions forget the operation of a block row (C24_operation_fails); the sum of a block row and of a separable operator adds the separable operator once per block (C24_separable_fails).
* C25: a block column or row whose partition is not known always raises a TypeError, because `tointtuple` is applied to the dimension instead of the shape (C25_fails).
* C61: the alignment and contiguity required by the blocks of a block column on their input, and by the blocks of a block row on their output, are ignored (C61_column_fails, C61_row_fails).
* C62: a block operator with a single block is a copy of the block, without the new axis (C62_single_fails).
* C63: the dimensions other than the one along the axis are taken to be zero in the inference of the partition, so that an operator that exchanges axes has a partition 0 (C63_fails).
* C27: the sum of two mask operators is the mask operator of the logical or of the kept elements (C27_addition_fails); the product of a diagonal without broadcasting and of a rightward one is aligned on the last dimensions (C27_multiplication_fails) or raises (C27_multiplication_error_fails), because `'rightward' in b` tests the merged string.
* C28: the values are converted to double precision before they are classified, so that an extended precision diagonal of 1 + 2⁻⁶⁰ becomes the identity (C28_fails).
* C39: `restart` lets the StopIteration of an initialisation that has already converged escape (C39_restart_fails); the iteration that raises AbnormalStop is counted (C39_counter_fails); `run(0)` is `run` without a limit, as 0 is false (C39_run_zero_fails); `cont` starts an algorithm of order 2 that has not been started (C39_cont_fails).
* C40: the maximum-iteration condition tests equality, so that an algorithm of order 3 whose counter starts at 2 never stops with a maximum of 1 (C40_max_fails).
* C29: `PackOperator` declares that its transpose times itself is the identity (C29_simplify_fails); with the mask `False` broadcast over a vector, packing the unpacked array raises (C29_inverse_fails).
* C31: the methods rhti and rhto are documented but are not implemented (C31_methods_fails); in double precision rhtmi returns 2⁵² - 1 for 2⁵², as 2⁵² + 1/2 is rounded to 2⁵² (C31_large_fails).
* C33: the square root of the square is simplified into the identity (C33_sqrt_square_fails); exponents are compared with a tolerance, so that an exponent 1.000005 is dropped (C33_close_fails).
* C64: a mask of several dimensions that keeps everything turns the pack operator into the identity, which does not return a vector (C64_vector_fails).
* C65: the inverse of the square operator is the square root, also on negative numbers (C65_inverse_fails).
* C35: the transpose of a sum along a negative axis in the middle uses the wrong axis or raises (C35_sum_fails, C35_sum_raises_fails); the transpose of a difference drops imaginary parts (C35_difference_fails); a tridiagonal operator with nearly equal diagonals is its own transpose (C35_tridiagonal_fails); the transpose of a band operator raises AttributeError (C35_band_fails).
* C37: if the callback raises, the proxy that was used before is given a deleted operator (C37_exception_fails).
* C43: the weights of integer abscissa are truncated to integers (C43_integers_fails).
* C45: a reset inside a block does not discard the time already spent in it (C45_reset_inside_fails).
* C66: a tridiagonal operator with nearly equal diagonals is converted to a symmetric operator (C66_toband_fails).
* C67: a band operator with lower diagonals and a number of upper diagonals other than 1 multiplies by another matrix (C67_band_fails) or raises (C67_lower_fails); the keyword lower=False of the symmetric band operators is ignored (C67_upper_fails).
* C36: with several rows of samples and fewer (but more than one) matrices than rows, the last output rows are not written (C36_rows_fails); zero samples raise in the constructor (C36_empty_fails).
* C48: a real convolution operator multiplied by a complex scalar is simplified into a real convolution operator (C48_homothety_fails); the transpose of a copy of a transpose acts as the transpose (C48_copy_fails).
* C68: the unnormalised Fourier operator is flagged unitary, so that its operator H is its inverse but not its adjoint (C68_adjoint_fails); the inverse of a transform along some of the axes divides by the total number of elements (C68_axes_fails).
* C46: the composition rule keeps the broadcast of the second operator only (C46_mixed_fails), merges rightward broadcasts with different numbers of extra axes (C46_rightward_fails) and raises for operators whose groups of axes differ (C46_axes_fails); the product by a scalar drops a rightward broadcast (C46_homothety_fails); the transpose ignores that the input was broadcast (C46_input_fails); explicit input shapes of rightward broadcasts are rejected (C46_shapein_fails); empty blocks with rightward broadcasts raise (C46_empty_fails).
* C69: `Operator(direct=.., flags=..)` in `_generate_associated_operators` is called without data type, which sets the flag real; the later initialisation does not remove it. So A.T, A.H, ... of a complex operator given by its methods are flagged real (C69_real_fails), and those of a unitary one are flagged orthogonal: A.H.T * A.H is simplified into the identity, although it is not (C69_unitary_fails).
* C70: a copy of A.T (for instance `IdentityOperator() * A.T`) has no link to A any more: its transpose cannot be evaluated if A is given by its methods (C70_direct_fails), and for a complex operator its conjugate is itself (C70_conjugate_fails).
* C71: `_rule_identity` replaces Spherical2Cartesian(Cartesian2Spherical) and its converse by the identity for all inputs: a vector of length 2 is returned instead of its projection, an azimuth of -1 or at the pole is returned unchanged (`C71_simplify_fails`).
* C72: Clip-, Maximum- and MinimumOperator are flagged separable although their parameters can be arrays: maximum(…, [0, 10]) applied to two copies of the input along a new last axis gives a transposed result once fused (`C72_blocks_fails`). The documentation of MaximumOperator describes the minimum (`C72_maximum_fails`).
* C73: NormalizeOperator divides by the square root of the sum of the squares, which is not the length of a complex vector: (1, i, 1) is left unchanged (`C73_complex_fails`).
* C74: for incomplete decompositions A**0 is a projection, A.det() the product of the given eigenvalues and A.I A is not the identity, although it is simplified into it (`C74_power_fails`, `C74_det_fails`, `C74_inverse_fails`). A.cond() is -1 for a reflection, because the signs are not removed (`C74_cond_fails`).
* C75: after the Krylov subspace is exhausted, the next vector is divided by zero and `finalize` raises a ValueError: always if maxiter is larger than the number of rows, for instance with the default value (`C75_returns_fails`), and for two iterations with the identity (`C75_identity_fails`). The documented maxiter=None raises a TypeError in `__init__`. v0 is normalised in place (`C75_v0_fails`). `run(n)` with n < maxiter returns the decomposition of a matrix whose last coefficients are zero but still coupled (`C75_run_fails`).
* C76: `diff` is 2 C x, which is not the gradient of x·C x if C is not symmetric (`C76_covariance_fails`); the derivative of the Huber norm is wrong for a negative delta (`C76_huber_fails`); the Huber norm of an array of integers is truncated (`C76_integers_fails`). `data.shape == np.prod(op.shapeout)` refuses the data with several dimensions and accepts flattened ones (`C76_data_fails`). `np.all(x == last_x)` broadcasts, so that the result for another shape may be returned (`C76_cache_fails`), and is true for empty arrays (`C76_empty_fails`). The priors that have no hyperparameter are ignored (`C76_priors_fails`). Not modelled: the attributes C, delta and p of a scaled norm are a dictionary.
* C77: `Backtracking` multiplies the step by tau before the first trial: the optimal step is never tried (`C77_backtracking_fails`), and there is no trial if the criterion is not positive (`C77_nonpositive_fails`). Norms that are not `Norm2` are replaced by `Norm2()`, without the scalar that multiplies them (`C77_scale_fails`).
* C78: `dpen` has a factor 2 that `penalization` has not (a comment in the code has it), so that `gradient` is not the gradient of `__call__` (`C78_gradient_fails`); `hessian` is half of the Hessian (`C78_hessian_fails`). `update_z` multiplies by the eigenvalues of the inverse covariance instead of dividing by them (`C78_z_fails`).
* C79: the gradient that is tested is that of the preceding solution, and at least one iteration is done: if the minimum is reached exactly, the next step is 0 / 0 and NaN is returned, for instance by acg for the identity (`C79_nan_fails`) or for zero data (`C79_zero_fails`); without gtol, it never stops (`C79_loop_fails`). x0 is not stored (`C79_x0_fails`). `current_gradient_norm` is the square of the norm (`C79_gtol_fails`). Not modelled: `polak_ribiere` calls np.norm, which does not exist; `__call__` returns None; hacg ignores return_algo.
* C80: `_as_strided` computes the strides of a contiguous array whatever the strides of the data: for transposed data the wrong elements are read (`C80_applied_fails`), for broadcast views the memory that follows them (`C80_memory_fails`). `ConstantOperator([])` raises IndexError (`C80_empty_fails`).
* C81: if the shape is unknown and the data have length one along the axis of the blocks, all the slices but the first one are empty, and the result is zero there (`C81_length_fails`); if the axis follows the last dimension of data that are broadcast rightward, IndexError is raised (`C81_axis_fails`: the test is `axis_ > ndim`); data without broadcasting that are too long are cut (`C81_size_fails`); data are replicated to blocks that are scalars (`C81_rank_fails`). If the shape is known, the view assumes contiguous data (`C81_strides_fails`), and an empty block raises IndexError with a homothety (`C81_empty_fails`). The rule for sums only looks at the output axis: 2 I + (transposition as a block operator) becomes three times the transposition (`C81_pointwise_fails`).
* C82: with NumPy 2, `np.amin(values, where=...)` without `initial` raises ValueError for all inputs (`C82_numpy2_fails`). The factor 1 passes the validation but gives an infinite power (`C82_one_fails`). Products that overflow 64 bits wrap around and may be returned (`C82_overflow_fails`: 321404015565561879 = 3²·29·… for the factors 11 and 13). 2^53 + 1 is rounded before the logarithm, and there is no value (`C82_rounding_fails`).
* C84: `interruptible` has no `finally` (`C84_exception_fails`). In `uninterruptible`, KeyboardInterrupt is only raised if the block ends without an exception: Ctrl-C is lost in the last iteration of an algorithm, which ends with StopIteration (`C84_lost_fails`, `C84_last_fails`). A block that contains an uninterruptible block is interrupted at the end of the inner one (`C84_nested_fails`).
* C85: `setting` and `pool_threading` have no `finally` (`C85_exception_fails`, `C85_threads_fails`), `setting` turns attributes of the class into attributes of the object (`C85_class_fails`) and raises if the block has deleted the attribute (`C85_deleted_fails`).
* C86: `todense` uses integers if the operator has no dtype (core.py:538), values are truncated (`C86_integer_fails`).
* C87: `DiagonalOperator([1,2]) == DiagonalOperator([1,2,3])` raises ValueError (`np.allclose` cannot broadcast; `C87_shapes_fails`), data that can be broadcast are equal (`C87_broadcast_fails`), the comparison is neither symmetric nor transitive (`C87_symmetric_fails`, `C87_transitive_fails`), and functions are compared by their code only (`C87_closure_fails`).
* C88: the class has neither `__array_ufunc__` nor `__array_priority__`, so that `ndarray * op` is computed by NumPy, element by element, and `Operator.__rmul__` receives scalars (`C88_ndarray_fails`). `op ** 2.0` passes the validation but `2.0 * [op]` raises TypeError (`C88_float_fails`). Mixed products are not associative (`C88_associative_fails`).
* C89: the predicate of the rule for homotheties (linear.py:601-605) evaluates `o * s.matrix`, which is `Operator.__mul__`: the matrix becomes a SparseOperator and the rule is applied again. `2 * SparseOperator(m)` and `-SparseOperator(m)` raise RecursionError (`C89_scalar_fails`).
* C90: SciPy's `rmatvec` is the adjoint, but `asoperator` uses it as the transpose, and `Operator.rmatvec` is the transpose: both are wrong for complex operators (`C90_complex_fails`, `C90_scipy_fails`).
* C91: `first_is_not` compares with `!=` and `ifirst_is_not` with `is not` (`C91_identity_fails`); values that are callable, such as operators, are called instead of compared (`C91_callable_fails`).
* C92: `a[0]` is used for all containers of length 1, including sets and dictionaries (`C92_set_fails`); `zip_broadcast()` raises ValueError (`C92_empty_fails`).
* C93: with NumPy 2 (`np.__version__ < '2'` is False) skipna is passed to `func.reduce`, which has no such argument (`C93_numpy2_fails`); skipna is ignored by `ProductOperator` with NumPy 1 (`C93_nan_fails`); callables that are neither ufuncs nor Python functions, such as np.nansum since NumPy 1.25, raise UnboundLocalError (`C93_callable_fails`); `axis=None` with shapein raises TypeError (`C93_explicit_fails`).
* C94: the attributes that the class change removes stay if out is the input (`C94_inplace_fails`) or if the composition is simplified (`C94_merged_fails`); an output of a subclass raises TypeError if the input is an ndarray (`C94_static_fails`); the attributes of a sum are those of its first operand, since attrout is never None (`C94_sum_fails`), and those of the output of a block operator are the ones of the first block (`C94_block_fails`); the value returned by a function attrout is ignored (`C94_function_fails`).
* C95: the communicators are validated between neighbours and before the propagation, so that incompatible ones are accepted (`C95_incompatible_fails`, `C95_sum_fails`).
* C96: the reshaping of vectors by block operators ignores the dimensions that the operands require besides the one of the axis (`C96_block_fails`), and sums and block columns use the first operand only, so that the result depends on the order of the operands (`C96_first_fails`).
* C97: keywords that do not make a recursion are ignored and not rejected: x_old2 without x_old, y_old without y (`C97_unused_fails`); an in-place recursion accepts x_old, which changes the count of iterations only (`C97_inplace_fails`); dtype=float16 with complex values raises TypeError (`C97_half_fails`); overlapping views are not detected with reuse_initial_state (`C97_overlap_fails`).
* C98: a composition on the left of a group dissolves it: A * B * G is not A * (B * G) (`C98_dissolved_fails`), because the rule of compositions matches groups on the right, which are instances of CompositionOperator.
* C99: the variables of the expressions are hidden by the local variables of `direct`: var='input' in DiagonalNumexprOperator, names expr, operation and (with a reduction) op in NumexprOperator (`C99_names_fails`); arrays in global_dict are neither transposed with the data for a rightward broadcast (`C99_transposed_fails`) nor sliced with it when the operator is distributed over blocks (`C99_sliced_fails`).
* C100: rules with symbols as subjects are not applied until the associated operators of the reference have been generated (`C100_generated_fails`); the subjects IC, IT and IH are accepted but raise ValueError (`C100_inverse_fails`); rules without '.' and meaningless predicates are accepted (`C100_unchecked_fails`); the function of a rule (class, '.') receives (other, reference) in compositions but (reference, other) in sums and products (`C100_swapped_fails`).
* C101: np.find_common_type is not associative, so the output of A * B can have another type than A(B(x)) (`C101_successive_fails`); 64-bit integers lose digits in operators of double precision (`C101_values_fails`), which is NumPy's convention for safe casts.
* C102: without mpi4py, Create_keyval gives the number of the freed key again, so that the attribute stored under the former key is read with the new one (`C102_keyval_fails`), and freed keys become valid again (`C102_freed_fails`); Dup copies no attribute (`C102_dup_fails`); Allreduce and Allgatherv index the output by 0, so that an output given as an array raises an exception (`C102_array_fails`), and they broadcast instead of copying the memory (`C102_shape_fails`).
* C103: the communicator of filter_comm is not freed if the body raises an exception (`C103_free_fails`); mprint compares objects by ==, so that a NaN is printed with a rank, True is taken for 1 and arrays raise ValueError (`C103_print_fails`); combine wraps around at 2^63 (`C103_combine_fails`).
* C104: huber_criterion and normp_criterion raise IndexError with the default values of deltas and ps (`C104_default_fails`), and since the first norm is that of the data, with as many norms as priors the last prior is ignored (`C104_norms_fails`).
* C105: `_merge` does nothing if a factor is a composition, so that Z * (A * B) is a zero operator without shapes, whose output has the shape of the input (`C105_zero_fails`), and the shape of an identity that multiplies a composition is forgotten (`C105_identity_fails`). In the same way, A.I * A is an identity without shapes if A is a composition (not modelled).
* C106: `pcg` converts the right-hand side to the type of the real operator, so that the imaginary part is dropped (with a NumPy warning), and reports success and the error of the real system (`C106_complex_fails`); complex operators are refused, although the documentation admits them.
* C107: `Operator.__neg__` is `HomothetyOperator(-1) * self`, which for a nonlinear operator is the element-wise product of the two: `-f` computes `-x * f(x)`, and `g - f` computes `g(x) - x * f(x)` (`C107_opposite_product`, `C107_opposite_fails`).
* C108: `assert_same(inf, -inf)` passes, because the tolerance relative to infinity is infinite (`C108_infinity_fails`).
* C108: for a float64 and a complex64 array, `sorted` keeps the order of the types, which cannot be compared, so that the result of `assert_same` depends on the order of its arguments (`C108_type_fails`).
* C109: every call starts with `self.first_guess()`, which sets the first guess to zero: x0 is ignored (`C109_x0_fails`), also in the double loop algorithm, whose inner loops do not start from the last solution (`C109_inner_fails`).
* C109: `FminCOBYLA` stores the result in `current_solution` and then replaces it by `optimizer_output`, which is None (`C109_cobyla_fails`).
* C109: the wrappers look for the attribute `gradient`, but the criterions of iterative/criterions.py call it `diff` (`C109_gradient_fails`).
* C109: extra positional arguments of `FminNCG` and `FminCOBYLA` raise TypeError (`C109_arguments_fails`); so does the documented keyword `args` for all the classes (`C109_args_fails`).
* C110: no parentheses are written around sums in compositions: `str((A + B) * C)` is `a + b * c` (`C110_sum_fails`), and `str((f + g)(h))` is `f + g(h)` (`C110_nonlinear_fails`, `C110_product_fails`).
* C110: `...**3**2` is the text of the square of the cube (`C110_power_fails`; the rules of PowerOperator merge such powers, other classes are not merged, and the test expects a failure). Not modelled: `SquareOperator.__str__` returns bytes, so that `str` raises TypeError, and `RoundOperator.__str__` never returns `round_floor` since it compares with 'rmi' instead of 'tmi'.
* C111: the default callback of an algorithm with several variables does not assign what it prints: with disp=True the first iteration raises UnboundLocalError (`C111_display_fails`).
* C111: `next` counts the iteration before the callback and updates the variables after it: if the callback raises an exception, the algorithm continues from the old variables with the new number (`C111_exception_fails`).
* C112: the default integers (64 bits) are converted to float64, which changes 2^53 + 1 (`C112_integers_fails`): a DenseOperator of integers does not have the matrix that it is given.
* C112: `complex_dtype` of the half precision is the native complex128, not complex64, and its order of the bytes is lost (`C112_half_fails`).
* C113: `-f` is `HomothetyOperator(-1) * f`, an element-wise product of two operators if f is not linear: it computes -x f(x) (`C113_neg_fails`), and f - f is not zero (`C113_sub_fails`). Only constant operators redefine the opposite.
* C113: numbers are multiplications in the sums of operators that are not linear, (f + 1)(x) = f(x) + x, whereas they are constants in the products (`C113_constant_fails`). `ndarray + op` is an array of operators (`C113_ndarray_fails`).
* C114: mappings are containers, so that a dictionary and a list are compared through the keys: `assert_eq({'a': 1, 'b': 2}, ['a', 'b'])` passes (`C114_dict_fails`).
* C114: `assert_allclose` broadcasts scalars, an array of shape (2, 1) is equal to a number and an empty array to all of them (`C114_broadcast_fails`); the tolerance depends on the order of the arguments (`C114_symmetric_fails`).
C115: the decorator `orthogonal` announces the flag real but does not set it (flags.py); decorating a class such as `class A(Operator, Mixin)` raises KeyError, because `cls.__mro__[-2]` is the mixin.
C116: `A * (B + C + D) * E` with operands that are not able to update their output gives a wrong result: the output holds the result of E, is set in the pool while the sum is computed (core.py:2360-2364), and the sum takes it as its temporary buffer (core.py:1853), overwriting the input of its third operand.
C117: `rule_manager.register('MyRule', ...)` stores the rule under 'myrule', but `rule_manager['MyRule']`, assignments and contexts use the name as it is: KeyError (`C117_upper_case_fails`).
C117: a context entered without keywords assigns again the keywords of the previous context of the same manager, even for a trigger that has been removed since (`C117_bare_context_fails`).
C118: `DenseBlockDiagonalOperator(data, shapeout=(1, 1))` with data of shape (2, 1, 3) is accepted, with an input shape (2, 3) whose outputs have the shape (2, 1) (`C118_shapeout_fails`); `shapein=(2, 3), shapeout=(5, 2, 1)` is accepted too (`C118_both_fails`).
C119: `DenseBlockDiagonalOperator([[1, 2], [3, 4]], dtype=complex)` is a real operator: the keyword dtype is replaced by None when the class is changed to `DenseOperator` (`C119_dtype_fails`). `DenseBlockDiagonalOperator(np.ones((1, 2, 3)), naxesin=0, naxesout=2)` is accepted (`C119_axes_fails`).
C120: `proxy_group(2, callback, shapeins=[2, 4], shapeouts=[3, 3])` raises ValueError if the callback returns operators of these explicit shapes (`C120_explicit_fails`); the proxies of operators of different implicit shapes infer the shapes of the operator accessed last (`C120_history_fails`); `proxy_group(3, callback, shapeins=[5, 6], shapeouts=[5, 6])` has two proxies (`C120_number_fails`); the transposes of proxies of complex operators have the flag real (`C120_flags_fails`).
C121: `2 * X.T`, `X.T * 2` and `-X.T` raise, although `VariableTranspose.__mul__` and `__rmul__` provide for them: the scalar is moved to the left of the transposed variable, which refuses it (`C121_scalar_fails`); so does `(2 * X).T` (`C121_transpose_fails`) and `2 * (X.T * A * X)` unless A absorbs scalars (`C121_quadratic_fails`); `X * Y.T` raises TypeError (`C121_outer_fails`); `X * A` is the element-wise product of A and X (`C121_right_fails`).
C122: `deprecated` makes a class from the bases of the decorated class, without its body: its methods and attributes are lost, those of the bases are used instead (`C122_body_fails`), and if its `__init__` calls `super().__init__`, it cannot be instantiated (`C122_super_fails`).
C124: choices that contain quotes make different enumerations alike (`C124_quote_fails`).
C126: from 2^53 bytes on, the size is rounded (`C126_rounding_fails`).
C127: `MemoryPool.view` and `iscompatible` compare the item sizes of strided arrays instead of their data types: a strided array of 64-bit integers is handed out for floating point numbers (`C127_dtype_fails`), and `(A + B)(x, preserve_input=False)`, where x is a strided array of integers, truncates the values of B (`C127_sum_fails`).
C128: an in-place operator copies an input that must be converted in the output before the data type and the shape of the output are checked: the output is overwritten by a call that raises ValueError (`C128_dtype_fails`, `C128_shape_fails`).
C129: `Operator.conjugate` puts the buffer that holds the conjugate of the input back in the pool before it calls `direct`, against the comment that precedes it ("input and output are not in the memory pool"): if `direct` takes a temporary array of the same size from the pool, its input is overwritten, and the operator x + 2 x has a conjugate that computes 4 x (`C129_pool_fails`, `C129_value_fails`).
C130: `Operator.__repr__` displays the parameter `**keywords` of most constructors as a positional argument None: `HomothetyOperator(2, None)` is refused by Python (`C130_keywords_fails`) and the text of a `DiagonalOperator` is not a valid expression (`C130_syntax_fails`). `repr` raises an IndexError for an operator that has an empty array (`C130_empty_fails`), and is the same for a row and a column of two elements (`C130_shape_fails`).
C131: `BlockRowOperator` passes the flag linear to `BlockOperator` for every operation iadd, where it replaces the flag merged from the blocks: a row of operators that are not linear is flagged linear (`C131_row_fails`). `BlockDiagonalOperator` is flagged symmetric (hermitian) if its blocks are, even if its input and output are partitioned along different axes: its transpose is then itself, although its shapes differ (`C131_diagonal_fails`).
C132: `PowerOperator.nbytes` reads the attribute `nbytes` of the exponent, which python numbers do not have: `SquareOperator().delete()`, `SqrtOperator().delete()` and `PowerOperator(3).delete()` raise AttributeError and delete nothing (`C132_power_fails`). For a complex operator that is orthogonal and unitary, `A.delete()` leaves `A.T.I` (`C132_unitary_fails`, see C11).
C133: `PYOPERATORS_MEMORY_ALIGNMENT=0` or a negative value is accepted without warning, and all the allocations then raise an exception (`C133_zero_fails`). `PYOPERATORS_NO_MPI=true` issues a warning and leaves MPI on (`C133_true_fails`).
