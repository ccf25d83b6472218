{"claims": [
{"property": "C01", "status": "proved", "theorems": ["Linear.C01_arr", "Linear.C01_blk", "Linear.C01_dia"], "note": ""},
{"property": "C02", "status": "proved", "theorems": ["Linear.C02_arr", "Linear.C02_arr_refused", "Linear.C02_arr_column", "Linear.C02_blk", "Linear.C02_blk_refused", "Linear.C02_dia"], "note": ""},
{"property": "C03", "status": "proved", "theorems": ["Linear.C03_new", "Linear.C03_fromSlices", "Linear.C03_fromSlices_refused", "Linear.C03_identity", "Linear.C03_withDiagonal"], "note": ""},
{"property": "C04", "status": "proved", "theorems": ["Linear.C04_roundTrip", "Linear.C04_positions", "Linear.C04_onto"], "note": ""},
{"property": "C05", "status": "proved", "theorems": ["Linear.C05_setEntry", "Linear.C05_addToEntry", "Linear.C05_multiplyEntry"], "note": ""},
{"property": "C06", "status": "proved", "theorems": ["Linear.C06_step", "Linear.C06_history", "Linear.C06_offDiagonal", "Linear.C06_line", "Linear.C06_lineMatrix"], "note": "Any history of calls on a diagonal matrix, panicking calls included, keeps off-diagonal entries zero and refines the abstract diagonal."},
{"property": "C07", "status": "proved", "theorems": ["Linear.C07_at", "Linear.C07_write", "Linear.C07_write_ok"], "note": ""},
{"property": "C08", "status": "partial", "theorems": ["Linear.C08_step", "Linear.C08_refines", "Linear.C08_same", "Linear.C08_faults_partial", "Linear.C08_class_false"], "note": "Contents and completion agree in full. The code refutes \"same panic class\" for SetSubMatrix only: for an empty outer slice the row-array storage panics with no-data and the block storage with an index error, and for ragged data that also do not fit one checks the shape first and the other the range (C08_class_false). C08_faults_partial: same class for every other call and for nil or rectangular data."},
{"property": "C09", "status": "proved", "theorems": ["Linear.C09_add", "Linear.C09_subtract", "Linear.C09_scalarAdd", "Linear.C09_scalarMultiply", "Linear.C09_refused"], "note": "dense receivers, arguments of any storage; diagonal receivers are C45"},
{"property": "C10", "status": "proved", "theorems": ["Linear.C10_bits", "Linear.C10_product", "Linear.C10_refused", "Linear.C10_preMultiply", "Linear.C10_preMultiply_refused"], "note": ""},
{"property": "C100", "status": "proved", "theorems": ["Linear.C100_solve"], "note": "Exact arithmetic over an Archimedean field with square roots, such as the real numbers. The bound of the rounds is C69."},
{"property": "C101", "status": "proved", "theorems": ["Linear.C101_backward", "Linear.C101_linear", "Linear.C101_binary64"], "note": "For every arithmetic meeting the laws of Rnd; C101_binary64 is the instance for binary64."},
{"property": "C102", "status": "proved", "theorems": ["Linear.C102_near", "Linear.C102_factors", "Linear.C102_underflow", "Linear.C102_tiny"], "note": "Finite U and V are a hypothesis; C102_underflow and C102_tiny show why it is needed."},
{"property": "C103", "status": "proved", "theorems": ["Linear.C103_backward", "Linear.C103_linear", "Linear.C103_binary64"], "note": "For every arithmetic meeting the laws of Rnd; C103_binary64 is the instance for binary64."},
{"property": "C104", "status": "proved", "theorems": ["Linear.C104_near", "Linear.C104_factors", "Linear.C104_binary64", "Linear.C104_skip", "Linear.C104_tiny"], "note": "C104_skip and C104_tiny show that the condition on the entries next to the diagonal cannot be dropped."},
{"property": "C105", "status": "proved", "theorems": ["Linear.C105_solves", "Linear.C105_residual", "Linear.C105_agree", "Linear.C105_columns", "Linear.C105_singular", "Linear.C105_refuse"], "note": "The eigen solver is covered for matrices taken as symmetric; for the others see C65_general_false."},
{"property": "C106", "status": "proved", "theorems": ["Linear.C106_backward", "Linear.C106_linear", "Linear.C106_binary64"], "note": ""},
{"property": "C107", "status": "proved", "theorems": ["Linear.C107_near", "Linear.C107_factors", "Linear.C107_binary64", "Linear.C107_underflow", "Linear.C107_tiny"], "note": ""},
{"property": "C108", "status": "proved", "theorems": ["Linear.C108_tridiagonal", "Linear.C108_binary64"], "note": ""},
{"property": "C109", "status": "proved", "theorems": ["Linear.C109_symmetric", "Linear.C109_pairs", "Linear.C109_binary64"], "note": ""},
{"property": "C11", "status": "proved", "theorems": ["Linear.C11_operate", "Linear.C11_preMultiply", "Linear.C11_refused"], "note": ""},
{"property": "C110", "status": "proved", "theorems": ["Linear.C110_qr", "Linear.C110_rrqr", "Linear.C110_lu", "Linear.C110_lu_small", "Linear.C110_chol", "Linear.C110_eigen"], "note": ""},
{"property": "C111", "status": "proved", "theorems": ["Linear.C111_power", "Linear.C111_linear", "Linear.C111_binary64"], "note": ""},
{"property": "C112", "status": "proved", "theorems": ["Linear.C112_squareRoot", "Linear.C112_squared", "Linear.C112_binary64"], "note": ""},
{"property": "C113", "status": "proved", "theorems": ["Linear.C113_vector_terms", "Linear.C113_matrix_terms", "Linear.C113_inverse_terms", "Linear.C113_matrix", "Linear.C113_vector", "Linear.C113_inverse", "Linear.C113_matrix_binary64", "Linear.C113_vector_binary64", "Linear.C113_inverse_binary64"], "note": ""},
{"property": "C114", "status": "proved", "theorems": ["Linear.C114_outcome", "Linear.C114_backward", "Linear.C114_binary64", "Linear.C114_underflow", "Linear.C114_overflow", "Linear.C114_nan"], "note": ""},
{"property": "C115", "status": "proved", "theorems": ["Linear.C115_iteration", "Linear.C115_binary64"], "note": ""},
{"property": "C116", "status": "proved", "theorems": ["Linear.C116_reduction", "Linear.C116_core", "Linear.C116_tall", "Linear.C116_wide", "Linear.C116_binary64"], "note": ""},
{"property": "C117", "status": "proved", "theorems": ["Linear.C117_values", "Linear.C117_tall", "Linear.C117_wide", "Linear.C117_symmetric", "Linear.C117_binary64_svd", "Linear.C117_binary64_symmetric", "Linear.C117_exact_svd", "Linear.C117_exact_symmetric"], "note": ""},
{"property": "C118", "status": "proved", "theorems": ["Linear.C118_tall", "Linear.C118_wide", "Linear.C118_binary64", "Linear.C118_tolerance", "Linear.C117_binary64_explicit"], "note": ""},
{"property": "C119", "status": "proved", "theorems": ["Linear.C119_terms", "Linear.C119_near", "Linear.C119_tall", "Linear.C119_wide", "Linear.C119_solve", "Linear.C119_finite", "Linear.C119_binary64"], "note": ""},
{"property": "C12", "status": "proved", "theorems": ["Linear.C12_transpose", "Linear.C12_transpose_dia", "Linear.C12_twice"], "note": ""},
{"property": "C120", "status": "partial", "theorems": ["Linear.C120_refuted", "Linear.C120_partial"], "note": "The code refutes the full claim: for the column (2^-1074, 2^-1074) U is (-1, -1), because math.Hypot has no relative accuracy there (C120_refuted). C120_partial proves the claim where no result of math.Hypot, other than that of two zeros, is below 2^-1000."},
{"property": "C121", "status": "proved", "theorems": ["Linear.C121_determinant_terms", "Linear.C121_determinant", "Linear.C121_values", "Linear.C121_regular", "Linear.C121_binary64"], "note": "Under the hypotheses of C109 (finite vectors, no underflow of the off-diagonal of the tridiagonal form) and for eigenvalues whose squares do not overflow."},
{"property": "C122", "status": "partial", "theorems": ["Linear.C122_small", "Linear.C122_refuted", "Linear.C122_large", "Linear.C122_refuted_large", "Linear.C122_partial"], "note": "The code refutes the full claim: for the matrix with the only entry 2^-600 the answer is no, because eigenvalueNormAt squares the eigenvalue, which underflows (C122_refuted; C122_small for all decompositions with eigenvalues below 2^-540); for the diagonal matrix (2^513, 2^510) it is no, because the larger square overflows (C122_refuted_large; C122_large for all decompositions with such eigenvalues). C122_partial proves the claim where the eigenvalues exceed 5 sqrt(eta) and their squares do not overflow."},
{"property": "C123", "status": "proved", "theorems": ["Linear.C123_condition_terms", "Linear.C123_condition", "Linear.C123_covariance_terms", "Linear.C123_covariance", "Linear.C123_binary64"], "note": "For at least as many rows as columns, under the hypotheses of C117 (finite reduction, math.Hypot replaced below 2^-1000); the entries of the covariance are compared where they and the quotients are finite."},
{"property": "C124", "status": "partial", "theorems": ["Linear.C124_terms", "Linear.C124_small", "Linear.C124_small_projection", "Linear.C124_large", "Linear.C124_refuted", "Linear.C124_partial"], "note": "The code refutes the full claim: UnitVector refuses (2^-600) as a zero vector and gives the zero vector for (2^600) (C124_refuted), because VecNorm sums squares; C124_small, C124_small_projection and C124_large prove this for all vectors of such entries. C124_partial proves the claim where the computed norm is finite and the squares do not underflow."},
{"property": "C125", "status": "partial", "theorems": ["Linear.C125_terms", "Linear.C125_large", "Linear.C125_refuted", "Linear.C125_refuted_large", "Linear.C125_partial"], "note": "The code refutes the full claim: the cosine of (1, 1, 1) with itself is 1 + 2^-52 (C125_refuted), and that of (2^600) and (1) is 0 instead of 1 (C125_refuted_large), which C125_large proves for all vectors with an entry from 2^513 on. C125_partial proves the bound of the error where the norms are finite and nothing underflows."},
{"property": "C126", "status": "partial", "theorems": ["Linear.C126_terms", "Linear.C126_large", "Linear.C126_refuted", "Linear.C126_partial"], "note": "The code refutes the full claim: the projection of (1) on (2^600) is (0) instead of (1) (C126_refuted), which C126_large proves for all vectors with an entry from 2^513 on and a finite dot product; C124_small_projection covers underflow. C126_partial proves the bound where the dot products are finite and nothing underflows."},
{"property": "C127", "status": "partial", "theorems": ["Linear.C127_terms", "Linear.C127_symmetric", "Linear.C127_zero", "Linear.C127_refuted", "Linear.C127_partial"], "note": "The code refutes one part: the L2 distance of (2^-600) and (0) is 0 (C127_refuted). Symmetry is proved for all three distances and all doubles, separation for the L1 and LInf distances; C127_partial proves for the L2 distance that it is zero for equal vectors and that zero means differences whose squares are below the smallest positive number."},
{"property": "C128", "status": "partial", "theorems": ["Linear.C128_terms", "Linear.C128_symmetric", "Linear.C128_blind", "Linear.C128_refuted", "Linear.C128_partial"], "note": "The code refutes one part: with an infinity or NaN opposite to any number the answer is yes (C128_blind, C128_refuted). C128_symmetric proves the answer yes for all matrices of doubles that are symmetric, C128_partial both directions for finite entries."},
{"property": "C129", "status": "partial", "theorems": ["Linear.C129_vector", "Linear.C129_matrix", "Linear.C129_terms", "Linear.C129_frobenius", "Linear.C129_refuted", "Linear.C129_partial"], "note": "The code refutes the claim for the norms that square: entries up to 2^-540 have Frobenius norm 0, and one finite entry from 2^513 on makes it infinite (C129_frobenius, C129_refuted). C129_vector and C129_matrix prove the claim for the L1 and LInf norms; C129_partial proves that a zero L2 or Frobenius norm leaves only squares up to the underflow bound, and that zero entries give norm zero."},
{"property": "C13", "status": "proved", "theorems": ["Linear.C13_subMatrix", "Linear.C13_subMatrix_refused", "Linear.C13_setSubMatrix", "Linear.C13_setSubMatrix_refused"], "note": ""},
{"property": "C130", "status": "proved", "theorems": ["Linear.C130_monotone", "Linear.C130_order", "Linear.C130_matrix", "Linear.C130_refuted"], "note": "Exact inequalities between doubles, without error terms. C130_refuted shows that the inequality between the LInf and the L2 norm, which is not claimed, fails by underflow."},
{"property": "C131", "status": "proved", "theorems": ["Linear.C131_gram", "Linear.C131_product", "Linear.C131_symmetric"], "note": "C131_gram and C131_product hold in every arithmetic whose product commutes; C131_symmetric is their use in binary64, where products commute (B64.mul_comm)."},
{"property": "C132", "status": "proved", "theorems": ["Linear.C132_vectors", "Linear.C132_entries", "Linear.C132_outer", "Linear.C132_add", "Linear.C132_binary64", "Linear.C132_grouping"], "note": "The first four hold in every arithmetic whose sums and products commute; binary64 is one (C132_binary64). C132_grouping shows that the order of grouping does matter."},
{"property": "C14", "status": "partial", "theorems": ["Linear.C14_rowAt", "Linear.C14_columnAt", "Linear.C14_read_refused", "Linear.C14_setColumn", "Linear.C14_setRow_partial", "Linear.C14_setRow_false", "Linear.C14_write_refused"], "note": "the code contradicts the property for SetRow on row-array storage with index >= 1: C14_setRow_false"},
{"property": "C15", "status": "partial", "theorems": ["Linear.C15_rowMatrixAt", "Linear.C15_columnMatrixAt", "Linear.C15_read_refused", "Linear.C15_setRowMatrix", "Linear.C15_setColumnMatrix", "Linear.C15_setMatrix_refused", "Linear.C15_setRowVector_partial", "Linear.C15_setColumnVector_partial", "Linear.C15_setVector_refused", "Linear.C15_foreign_false", "Linear.C15_rowVectorAt", "Linear.C15_columnVectorAt", "Linear.C15_vector_refused"], "note": "the code contradicts the property for foreign vectors on block storage: C15_foreign_false"},
{"property": "C16", "status": "proved", "theorems": ["Linear.C16_walk", "Linear.C16_walkBounded", "Linear.C16_refused"], "note": "Every storage, every order, every visitor (panicking visitors included)."},
{"property": "C17", "status": "proved", "theorems": ["Linear.C17_refines", "Linear.C17_refinesBounded", "Linear.C17_update", "Linear.C17_updateBounded"], "note": "Every storage that can be updated, every order, every visitor; on a panic the entries written so far stay."},
{"property": "C18", "status": "proved", "theorems": ["Linear.C18_power", "Linear.C18_refused"], "note": "Exact arithmetic; every exponent, every storage of the library."},
{"property": "C19", "status": "proved", "theorems": ["Linear.C19_vector_copy", "Linear.C19_vector_toArray", "Linear.C19_vector_new", "Linear.C19_vector_sub", "Linear.C19_matrix_copy", "Linear.C19_matrix_data", "Linear.C19_matrix_new", "Linear.C19_matrix_rowAt", "Linear.C19_matrix_columnAt", "Linear.C19_block_copy", "Linear.C19_block_data", "Linear.C19_diagonal_copy", "Linear.C19_diagonal_data"], "note": "On the heap model: original and copy keep the values their own calls give them under every interleaving of calls through both handles."},
{"property": "C20", "status": "proved", "theorems": ["Linear.C20_vector_new", "Linear.C20_vector_dataRef", "Linear.C20_matrix_new", "Linear.C20_matrix_dataRef", "Linear.C20_diagonal", "Linear.C20_block", "Linear.C20_sharedRows"], "note": "On the heap model, for every interleaving of calls through both handles."},
{"property": "C21", "status": "proved", "theorems": ["Linear.C21_binary", "Linear.C21_map", "Linear.C21_mapFun"], "note": "Machine arithmetic, any argument implementation."},
{"property": "C22", "status": "partial", "theorems": ["Linear.C22_append", "Linear.C22_subVector", "Linear.C22_roundtrip_partial", "Linear.C22_setSubVector", "Linear.C22_false"], "note": "Proved except for empty windows, which the code refuses (C22_false). Unshared storage."},
{"property": "C23", "status": "proved", "theorems": ["Linear.C23_special", "Linear.C23_equals", "Linear.C23_equivalence", "Linear.C23_foreign"], "note": "Comparison laws are hypotheses (EqNaN), witnessed by a scalar type with NaN and infinities."},
{"property": "C24", "status": "proved", "theorems": ["Linear.C24_machine", "Linear.C24_distance", "Linear.C24_exact", "Linear.C24_lInfDistance", "Linear.C24_cosine"], "note": "C24_machine and C24_distance hold in machine arithmetic, the rest exactly."},
{"property": "C25", "status": "proved", "theorems": ["Linear.C25_min", "Linear.C25_max"], "note": "Order laws are hypotheses (OrdNaN), witnessed by a scalar type with NaN and infinities."},
{"property": "C26", "status": "proved", "theorems": ["Linear.C26_unit", "Linear.C26_projection"], "note": "Exact arithmetic."},
{"property": "C27", "status": "proved", "theorems": ["Linear.C27_factors", "Linear.C27_square", "Linear.C27_pivots"], "note": "Exact arithmetic over any ordered field; singularity threshold positive. A matrix reported singular differs from a singular one in one column only, by less than the threshold in each entry."},
{"property": "C28", "status": "proved", "theorems": ["Linear.C28_determinant", "Linear.C28_isNonSingular"], "note": "Exact arithmetic; also right for every singular matrix. C28_isNonSingular: what the flag says of A."},
{"property": "C29", "status": "proved", "theorems": ["Linear.C29_vector", "Linear.C29_matrix", "Linear.C29_inverse", "Linear.C29_refuse"], "note": "Exact arithmetic; refusals in any arithmetic."},
{"property": "C30", "status": "proved", "theorems": ["Linear.C30_factors"], "note": "Exact arithmetic over any ordered field with exact square roots; any non-negative positivity threshold, any symmetry threshold."},
{"property": "C31", "status": "proved", "theorems": ["Linear.C31_iff", "Linear.C31_errors", "Linear.C31_square", "Linear.C31_thresholds", "Linear.C31_isNonSingular"], "note": "Exact arithmetic; zero thresholds give the equivalence, C31_thresholds characterises success and each error for any non-negative thresholds, C31_square the non-square refusal."},
{"property": "C32", "status": "proved", "theorems": ["Linear.C32_determinant", "Linear.C32_vector", "Linear.C32_matrix", "Linear.C32_inverse", "Linear.C32_refuse"], "note": "Exact arithmetic; refusal of wrong heights in any arithmetic."},
{"property": "C33", "status": "proved", "theorems": ["Linear.C33_factors", "Linear.C33_h"], "note": "Over every ordered field with square roots (exact arithmetic); all shapes m, n >= 1, matrix kinds of the library."},
{"property": "C34", "status": "proved", "theorems": ["Linear.C34_isNonSingular", "Linear.C34_vector", "Linear.C34_matrix", "Linear.C34_inverse", "Linear.C34_refuse"], "note": "Exact arithmetic; the refusals hold in any arithmetic. For m < n the code refuses some matrices of full row rank; stated exactly by C34_isNonSingular."},
{"property": "C35", "status": "proved", "theorems": ["Linear.C35_factors"], "note": "Q orthogonal, R upper trapezoidal, P a permutation, QR = AP, with |R_kk| never growing."},
{"property": "C36", "status": "partial", "theorems": ["Linear.C36_posSemi_partial", "Linear.C36_threshold_partial", "Linear.C36_symmetric_partial", "Linear.C36_safe", "Linear.C36_false_zero", "Linear.C36_false_indefinite"], "note": "The full statement is false of the code: the zero matrix is refused (C36_false_zero) and some indefinite symmetric matrices are accepted with B*BT different from A (C36_false_indefinite). Proved: success with B*BT = A and Rank = rank of A on every non-zero positive semidefinite matrix; for every threshold success on a positive semidefinite matrix exactly when a diagonal entry exceeds the threshold, with a positive semidefinite remainder whose entries are within the threshold; on any symmetric matrix the diagonal is reproduced within the threshold and all of A when Rank is the order; in any arithmetic no index fault."},
{"property": "C37", "status": "proved", "theorems": ["Linear.C37_factors", "Linear.C37_symmetric", "Linear.C37_upper", "Linear.C37_square"], "note": "Exact arithmetic with square roots; C37_upper (only the upper triangle is read) and C37_square hold for any arithmetic."},
{"property": "C38", "status": "proved", "theorems": ["Linear.C38_factors"], "note": "Exact arithmetic with square roots; every matrix with rows and columns."},
{"property": "C39", "status": "proved", "theorems": ["Linear.C39_factors", "Linear.C39_square"], "note": "Exact arithmetic with square roots; C39_square holds for any arithmetic."},
{"property": "C40", "status": "proved", "theorems": ["Linear.C40_ends", "Linear.C40_square", "Linear.C40_small", "Linear.C40_zero_panics", "Linear.C40_hundred", "Linear.C40_triangular"], "note": "Law-free: holds for every arithmetic and every value of the literals. The loop is modelled with fuel; the outcome with 101*n rounds is the same for every larger fuel. C40_hundred: exactly when it panics. C40_zero_panics shows that the panic is reachable (zero 3x3 matrix). C40_triangular (exact): triangular matrices are left as they are."},
{"property": "C41", "status": "proved", "theorems": ["Linear.C41_decomposition", "Linear.C41_pairs", "Linear.C41_exact", "Linear.C41_symmetric", "Linear.C41_tridiagonal"], "note": "Sorted, paired, orthonormal; backward error bound for the two removal steps; exact arithmetic. C41_exact: tolerance 0 gives V D VT = A. C41_tridiagonal: the constructor from two diagonals."},
{"property": "C42", "status": "proved", "theorems": ["Linear.C42_ends", "Linear.C42_thirty", "Linear.C42_constructor", "Linear.C42_tridiagonal", "Linear.C42_two", "Linear.C42_diagonal"], "note": "Law-free: ends for every input with a result or maxIter; at most 30 sweeps per eigenvalue. C42_two: 2x2 always succeeds; C42_diagonal: two diagonals with a zero secondary one succeed for every size (exact)."},
{"property": "C43", "status": "proved", "theorems": ["Linear.C43_sorted"], "note": "For every arithmetic whose comparisons form a total order; nothing is assumed of sums, products and roots. Exact fields meet the hypothesis (OrdLaws.exact)."},
{"property": "C44", "status": "partial", "theorems": ["Linear.C44_partial", "Linear.C44_sound_partial", "Linear.C44_reflexive", "Linear.C44_false"], "note": "False as stated on every platform (C44_false). C44_partial is the exact behaviour on all pairs of patterns; C44_sound_partial is the only-if half."},
{"property": "C45", "status": "partial", "theorems": ["Linear.C45_partial", "Linear.C45_false"], "note": "False for every finite scalar with the sign bit set (C45_false); proved for the others."},
{"property": "C46", "status": "partial", "theorems": ["Linear.C46_partial", "Linear.C46_false", "Linear.C46_nil"], "note": "The claim is false for the code (C46_false); C46_partial gives exactly what is returned."},
{"property": "C47", "status": "partial", "theorems": ["Linear.C47_exact", "Linear.C47_setSubVector_partial", "Linear.C47_setSubSlice", "Linear.C47_false"], "note": "The property is false for overlaps at different offsets (C47_false). C47_exact gives the result for every overlap; the partial theorem covers all arguments without such an overlap; SetSubVectorWithSlice is right for every overlap."},
{"property": "C48", "status": "partial", "theorems": ["Linear.C48_array", "Linear.C48_diagonal_partial", "Linear.C48_false"], "note": "the code contradicts the property: C48_false"},
{"property": "C49", "status": "partial", "theorems": ["Linear.C49_lInf_partial", "Linear.C49_frobenius", "Linear.C49_lInf_false"], "note": "Frobenius norm proved. The LInf norm computes the greatest column sum, not the documented row sum: refuted by C49_lInf_false, and C49_lInf_partial proves what it does compute."},
{"property": "C50", "status": "proved", "theorems": ["Linear.C50_inverse"], "note": ""},
{"property": "C51", "status": "proved", "theorems": ["Linear.C51_outer", "Linear.C51_outer_refused", "Linear.C51_trace", "Linear.C51_trace_refused"], "note": "Law-free."},
{"property": "C52", "status": "proved", "theorems": ["Linear.C52_equals", "Linear.C52_equivalence"], "note": ""},
{"property": "C53", "status": "partial", "theorems": ["Linear.C53_product", "Linear.C53_symmetric_partial", "Linear.C53_general_false"], "note": "Holds for symmetric matrices; for general matrices the code multiplies real parts only and the claim is false (witness: rotation by a right angle)."},
{"property": "C54", "status": "proved", "theorems": ["Linear.C54_lu", "Linear.C54_cholesky", "Linear.C54_rectCholesky", "Linear.C54_qr", "Linear.C54_rrqr", "Linear.C54_tridiagonal", "Linear.C54_hessenberg", "Linear.C54_bidiagonal", "Linear.C54_svd", "Linear.C54_schur", "Linear.C54_eigen"], "note": "All eleven constructors, for row-array, block and diagonal matrices on the heap: no array that existed before the call changes, the argument reads as before, and the outcome is the one of the value model. In SVD, Schur and eigen decomposition the phases that work on slices made by the constructor itself are kept as values. Matrices with no row or no column are excluded. Foreign implementations of the matrix interface are not modelled on the heap."},
{"property": "C55", "status": "proved", "theorems": ["Linear.C55_penrose", "Linear.C55_vector", "Linear.C55_matrix"], "note": "Exact arithmetic. The wording was sharpened: a singular value equal to a positive tolerance is dropped by the code, so it must be excluded too. Least squares with smallest norm is proved from the Penrose equations."},
{"property": "C56", "status": "proved", "theorems": ["Linear.C56_walk", "Linear.C56_update"], "note": ""},
{"property": "C57", "status": "proved", "theorems": ["Linear.C57_entry", "Linear.C57_whole", "Linear.C57_construct"], "note": ""},
{"property": "C58", "status": "proved", "theorems": ["Linear.C58_lu", "Linear.C58_cholesky", "Linear.C58_qr", "Linear.C58_rrqr", "Linear.C58_tri", "Linear.C58_bi", "Linear.C58_hess"], "note": "Any arithmetic."},
{"property": "C59", "status": "partial", "theorems": ["Linear.C59_copy", "Linear.C59_copy_refused", "Linear.C59_indices", "Linear.C59_indices_refused", "Linear.C59_indices_false", "Linear.C59_subMatrix", "Linear.C59_subMatrix_refused"], "note": "False for one refusal: CopySubMatrixFromIndices checks later destination rows only when it reaches them, so a short later row panics after earlier rows were overwritten (C59_indices_false). Everything else is proved."},
{"property": "C60", "status": "proved", "theorems": ["Linear.C60_isNonSingular", "Linear.C60_vector", "Linear.C60_matrix", "Linear.C60_inverse", "Linear.C60_refuse"], "note": "Exact arithmetic with square roots."},
{"property": "C61", "status": "partial", "theorems": ["Linear.C61_rank_partial", "Linear.C61_false"], "note": "False for the zero matrix (C61_false: Rank is 1). Partial: Rank = max 1 (rank A) for every matrix."},
{"property": "C62", "status": "proved", "theorems": ["Linear.C62_orthogonal", "Linear.C62_zero_false"], "note": "A = P T P^T itself is not exact in this code, because entries below the tolerance are neglected; orthogonality and the trace are. C62_zero_false: for the zero matrix P is NaN, so the non-zero hypothesis is needed."},
{"property": "C63", "status": "proved", "theorems": ["Linear.C63_shape"], "note": "Law-free."},
{"property": "C64", "status": "proved", "theorems": ["Linear.C64_vectors", "Linear.C64_product", "Linear.C64_branch", "Linear.C64_diagonal", "Linear.C64_general"], "note": "C64_diagonal is law-free; C64_general shows that its two hypotheses on the position of imaginary parts hold for every result of the general branch (exact arithmetic)."},
{"property": "C65", "status": "proved", "theorems": ["Linear.C65_isNonSingular", "Linear.C65_inverse", "Linear.C65_vector", "Linear.C65_matrix", "Linear.C65_refused", "Linear.C65_general_false"], "note": "Stated for symmetric matrices. C65_general_false: the solver also accepts non-symmetric matrices with real eigenvalues and returns a wrong solution."},
{"property": "C66", "status": "proved", "theorems": ["Linear.C66_squareRoot", "Linear.C66_refused"], "note": ""},
{"property": "C67", "status": "proved", "theorems": ["Linear.C67_safe"], "note": "Any arithmetic; the fuel of the model bounds the number of rounds."},
{"property": "C68", "status": "proved", "theorems": ["Linear.C68_factors", "Linear.C68_exact"], "note": "Exact arithmetic with an exact hypotenuse."},
{"property": "C69", "status": "proved", "theorems": ["Linear.C69_ends", "Linear.C69_rounds", "Linear.C69_small", "Linear.C69_fuel"], "note": "Exact arithmetic over any Archimedean field with roots (the reals), all sizes, the neglect constant tiny positive as in the code. C69_rounds gives a bound on the rounds; C69_small: three rounds for at most two columns or rows, any constants. C69_fuel: any arithmetic."},
{"property": "C70", "status": "proved", "theorems": ["Linear.C70_rank", "Linear.Svd.rank_count", "Linear.C70_isNonSingular", "Linear.C70_inverse", "Linear.C70_floor_false"], "note": "The tolerance of the code never goes below the root of 2^-53, unlike its documentation: C70_floor_false shows a regular 1 x 1 matrix with rank 0."},
{"property": "C71", "status": "proved", "theorems": ["Linear.C71_norm", "Linear.C71_cond"], "note": "Exact arithmetic."},
{"property": "C72", "status": "proved", "theorems": ["Linear.C72_covariance", "Linear.C72_normal", "Linear.C72_wide_false"], "note": "Exact arithmetic. C72_wide_false: for wide matrices the result has fewer rows than the documentation promises."},
{"property": "C73", "status": "proved", "theorems": ["Linear.C73_accessors"], "note": "Any arithmetic."},
{"property": "C74", "status": "proved", "theorems": ["Linear.C74_iterator", "Linear.C74_drain", "Linear.C74_writes"], "note": "Model/Iter.lean, Props/Iter.lean."},
{"property": "C75", "status": "proved", "theorems": ["Linear.C75_accepts", "Linear.C75_entries", "Linear.C75_covered", "Linear.C75_roundTrip"], "note": "Model/More.lean, Props/More.lean. Sharing of the slices is C20."},
{"property": "C76", "status": "proved", "theorems": ["Linear.C76_ends", "Linear.C76_arith", "Linear.C76_square", "Linear.C76_reads", "Linear.C76_trace", "Linear.C76_small", "Linear.C76_result", "Linear.C76_spectrum", "Linear.C76_small_refused"], "note": "C76_ends, C76_arith: any arithmetic; the arithmetic error is the outcome exactly when the sum of the absolute values of the Schur form counts as zero. The others: exact arithmetic. C76_small_refused: a finding, a regular matrix of tiny entries is refused."},
{"property": "C77", "status": "partial", "theorems": ["Linear.C77_pairs_false", "Linear.C77_pairs_partial"], "note": "Refuted with the literals of the code: the Schur iteration neglects relative to the size of the matrix, the pairing uses an absolute tolerance. C77_pairs_partial: holds for symmetric matrices and where the Schur form has no entry below the diagonal above the tolerance."},
{"property": "C78", "status": "proved", "theorems": ["Linear.C78_backward", "Linear.C78_factor"], "note": "Exact arithmetic with exact square root (reals and any ordered field having roots). The bound is not sharp: it allows the full 101 n rounds."},
{"property": "C79", "status": "proved", "theorems": ["Linear.C79_spectrum"], "note": "Over the reals. The condition on the norm is needed: C77_pairs_false is a case outside it."},
{"property": "C80", "status": "proved", "theorems": ["Linear.C80_dot", "Linear.C80_norms", "Linear.C80_distances", "Linear.C80_matrix"], "note": "For every arithmetic with the laws of class Rnd; binary64 (B64) is an instance. Multiplications and additions are not fused."},
{"property": "C81", "status": "proved", "theorems": ["Linear.C81_product_terms", "Linear.C81_vector_terms", "Linear.C81_product", "Linear.C81_vector"], "note": "The first two use no law of arithmetic. The bounds hold for every arithmetic with the laws of class Rnd; binary64 (B64) is an instance."},
{"property": "C82", "status": "proved", "theorems": ["Linear.C82_recurrence", "Linear.C82_backward"], "note": "The recurrence holds in any arithmetic. The bound holds for every arithmetic with the laws of class Rnd; binary64 (B64) is an instance. Operations are not fused."},
{"property": "C83", "status": "proved", "theorems": ["Linear.C83_vector", "Linear.C83_matrix", "Linear.C83_inverse"], "note": "For every arithmetic with the laws of class Rnd; binary64 (B64) is an instance. Operations are not fused."},
{"property": "C84", "status": "proved", "theorems": ["Linear.C84_outcome", "Linear.C84_upper", "Linear.C84_backward", "Linear.C84_symmetric", "Linear.C84_nan"], "note": "Outcome and recurrence hold in any arithmetic. The bounds hold for every arithmetic with the laws of class Rnd; binary64 (B64) is an instance. Operations are not fused."},
{"property": "C85", "status": "proved", "theorems": ["Linear.C85_vector", "Linear.C85_matrix", "Linear.C85_inverse"], "note": "For every arithmetic with the laws of class Rnd; binary64 (B64) is an instance. Operations are not fused."},
{"property": "C86", "status": "proved", "theorems": ["Linear.C86_vectors", "Linear.C86_product"], "note": "Exact real arithmetic; complex division is a parameter that divides exactly."},
{"property": "C87", "status": "partial", "theorems": ["Linear.C87_residual_partial", "Linear.C87_residual_false"], "note": "Proved when no imaginary part lies between zero and epsEd. Otherwise the code refutes it: for [[1,-1e-15,0],[1e-11,1,1],[0,0,2]] the column of 2 is (0,0,-1)."},
{"property": "C88", "status": "proved", "theorems": ["Linear.C88_lineMatrix", "Linear.C88_subMatrix", "Linear.C88_walk", "Linear.C88_change"], "note": "Law-free: holds for any arithmetic."},
{"property": "C89", "status": "proved", "theorems": ["Linear.C89_backward", "Linear.C89_linear", "Linear.C89_binary64"], "note": "Hypotheses: R is finite and no square of its diagonal is lost to underflow or overflow."},
{"property": "C90", "status": "proved", "theorems": ["Linear.C90_near", "Linear.C90_factors", "Linear.C90_underflow", "Linear.C90_tiny"], "note": "The exception (a Q that is not finite) is proved for 2^-600 in binary64."},
{"property": "C91", "status": "proved", "theorems": ["Linear.C91_factors"], "note": "Hypotheses: R is finite and no square of its diagonal is lost to underflow or overflow."},
{"property": "C92", "status": "proved", "theorems": ["Linear.C92_vector", "Linear.C92_matrix", "Linear.C92_inverse", "Linear.C92_binary64"], "note": "Hypotheses: R and the answer are finite and no square of the diagonal of R is lost to underflow or overflow."},
{"property": "C93", "status": "proved", "theorems": ["Linear.C93_vector", "Linear.C93_matrix", "Linear.C93_inverse"], "note": "Hypotheses as for C92. The inverse is stated for square matrices, the only ones for which the code gives one."},
{"property": "C94", "status": "partial", "theorems": ["Linear.C94_filled_partial", "Linear.C94_number_false", "Linear.C94_pattern_false", "Linear.C94_number_messages", "Linear.C94_rows_false"], "note": "Proved for the errors that are not about one number. The code refutes the rest: mathIllegalNumberErrorf passes a slice without spreading it, two constructors drop pattern or argument, one call swaps its arguments."},
{"property": "C95", "status": "partial", "theorems": ["Linear.C95_accessors", "Linear.C95_status_partial", "Linear.C95_status_false", "Linear.C95_bound_false"], "note": "Accessors proved in full. The code refutes the claim on the status for one pair of types (too small, not positive definite)."},
{"property": "C96", "status": "proved", "theorems": ["Linear.C96_lu", "Linear.C96_chol", "Linear.C96_qr", "Linear.C96_rrqr", "Linear.C96_tri", "Linear.C96_bi", "Linear.C96_hess", "Linear.C96_schur", "Linear.C96_eig", "Linear.C96_svd"], "note": "Law-free. One theorem per class; the answers on their own are the functions of the other model files. The Hessenberg transformer changes its work slice in P; the theorem covers it."},
{"property": "C97", "status": "partial", "theorems": ["Linear.C97_lu_partial", "Linear.C97_chol_partial", "Linear.C97_qr_partial", "Linear.C97_rrqr_partial", "Linear.C97_tri_partial", "Linear.C97_bi_partial", "Linear.C97_hess_partial", "Linear.C97_schur_partial", "Linear.C97_eig_partial", "Linear.C97_svd_partial", "Linear.C97_lu_shared", "Linear.C97_chol_shared", "Linear.C97_qr_shared", "Linear.C97_rrqr_false", "Linear.C97_rank_false", "Linear.C97_sqrt_false", "Linear.C97_svd_false"], "note": "Refuted by the code, since the returned matrix is the cached one. Proved: private data never change, and an answer changes only if one of the matrices it reads (listed per method) has been overwritten, for all interleavings. Missing: independence of the overwritten ones (false)."},
{"property": "C98", "status": "proved", "theorems": ["Linear.C98_lu_product", "Linear.C98_lu", "Linear.C98_chol_product", "Linear.C98_chol"], "note": "The products are law-free; the errors are for arithmetic with the rounding laws of Base/Rnd, which binary64 meets."},
{"property": "C99", "status": "proved", "theorems": ["Linear.C99_total", "Linear.C99_regular"], "note": "No assumption on the outcome. The threshold must be finite and positive."}
]}
