{"id": "C01", "title": "Zero-filled construction", "statement": "Creating a dense matrix of r rows and c columns (row-array or block storage) succeeds exactly when r>=1 and c>=1; the result reports r and c as its dimensions and every in-range entry reads as zero; any other (r,c) yields the strictly-positive error and no matrix.", "quantifier": "all integers r and c, both dense storages", "why_tests_cant": "The dimensions are unbounded and the block storage has ragged edge blocks whose sizes depend on r and c modulo the block size.", "anchors": ["array_2d_row_real_matrix.go: NewArray2DRowRealMatrix", "block_real_matrix.go: NewBlockRealMatrix, createBlocksLayout"]}
{"id": "C02", "title": "Construction from slices accepts exactly rectangular data", "statement": "Building a matrix from a slice of slices yields a matrix whose dimensions and entries are exactly those of the data when the data is non-empty and rectangular with at least one column; every empty or ragged input is refused (error or panic), never silently accepted.", "quantifier": "all slices of slices of numbers, both copy modes of the row-array storage and the block storage", "why_tests_cant": "Raggedness may appear at any row of an input of any size.", "anchors": ["array_2d_row_real_matrix.go: NewArray2DRowRealMatrixFromSlices, copyIn, SetSubMatrix", "block_real_matrix.go: NewBlockRealMatrixFromSlices, toBlocksLayout", "real_matrix.go: NewRealMatrixFromSlices"]}
{"id": "C03", "title": "Storage choice is unobservable", "statement": "The general factories return a matrix with the requested dimensions and contents whatever storage they select, so the 4096-element switch between storages cannot be observed through entry reads.", "quantifier": "all dimensions and all rectangular data", "why_tests_cant": "Tests sample a few sizes; the switch point and the block boundaries interact.", "anchors": ["real_matrix.go: NewRealMatrixWithDimension, NewRealMatrixFromSlices, NewRealIdentityMatrix, NewRealDiagonalMatrix, NewRowRealMatrix, NewColumnRealMatrix"]}
{"id": "C04", "title": "Block layout round trip", "statement": "Laying rectangular data out in blocks and reading all the data back returns the same data; and every (row,column) is stored at its own distinct position inside the blocks with no index outside any block.", "quantifier": "all rectangular data of any dimensions", "why_tests_cant": "Layout arithmetic has four edge cases (full/partial block in each direction) times arbitrarily many blocks.", "anchors": ["block_real_matrix.go: toBlocksLayout, Data, At, SetEntry, blockHeight, blockWidth"]}
{"id": "C05", "title": "Dense get-after-set", "statement": "After a successful SetEntry(i,j,v) on a dense matrix, At(i,j) is v and every other entry and both dimensions are unchanged; AddToEntry and MultiplyEntry store exactly old+v and old*v.", "quantifier": "all dense matrices, all indices, all values, including non-finite values", "why_tests_cant": "A layout collision could corrupt an unrelated entry only at particular sizes.", "anchors": ["array_2d_row_real_matrix.go: At, SetEntry, AddToEntry, MultiplyEntry", "block_real_matrix.go: At, SetEntry, AddToEntry, MultiplyEntry"]}
{"id": "C06", "title": "Diagonal storage stays diagonal", "statement": "For every finite sequence of mutating calls on a diagonal matrix, completed or refused, every off-diagonal entry still reads as zero and the dimensions are unchanged.", "quantifier": "all diagonal matrices and all finite sequences of SetEntry/AddToEntry/MultiplyEntry/SetRow/SetColumn/SetSubMatrix calls with any arguments", "why_tests_cant": "Call sequences are unbounded.", "anchors": ["diagonal_matrix.go: SetEntry, AddToEntry, MultiplyEntry, SetRow, SetColumn, SetSubMatrix, At, ensureZero"]}
{"id": "C07", "title": "Out-of-range access is refused without effect", "statement": "On dense matrices, reading or writing an entry with a row or column index outside the matrix always panics with the out-of-range error and leaves the matrix unchanged; in-range accesses never panic.", "quantifier": "all dense matrices, all integer index pairs", "why_tests_cant": "The index space is infinite in both directions.", "anchors": ["array_2d_row_real_matrix.go: checkRowIndex, checkColumnIndex, checkMatrixIndex, At, SetEntry", "block_real_matrix.go: At, SetEntry"]}
{"id": "C08", "title": "Storage refinement over histories", "statement": "Applying the same finite sequence of mutating calls (SetEntry, AddToEntry, MultiplyEntry, SetSubMatrix, SetColumn) to a row-array matrix and a block matrix with equal contents gives, at every step, the same outcome (completion or panic class) and equal contents.", "quantifier": "all pairs of matrices with equal contents and all finite call sequences", "why_tests_cant": "Histories are unbounded.", "anchors": ["array_2d_row_real_matrix.go", "block_real_matrix.go"]}
{"id": "C09", "title": "Entrywise arithmetic", "statement": "Add, Subtract, ScalarAdd and ScalarMultiply return a new matrix of the same dimensions whose entry (i,j) is exactly one machine operation on the operand entries, whichever storages the two dense operands use; operands of different dimensions are refused with the dimension-mismatch error.", "quantifier": "all dense matrices, all operand storages including foreign implementations, all values", "why_tests_cant": "Sizes and storage combinations are unbounded; block code uses separate index arithmetic.", "anchors": ["array_2d_row_real_matrix.go: Add, Subtract, ScalarAdd, ScalarMultiply", "block_real_matrix.go: Add, Subtract, ScalarAdd, ScalarMultiply"]}
{"id": "C10", "title": "Matrix product", "statement": "Multiply returns the matrix whose entry (i,j) is the sum over k of a(i,k)*b(k,j) (exact arithmetic) for every combination of operand storages, and refuses operands whose inner dimensions differ. For row-array times anything the machine result is the left-to-right sum, bit for bit.", "quantifier": "all matrices of compatible and incompatible dimensions, all storage pairs", "why_tests_cant": "The block kernel is unrolled by four with remainder loops for every width; the result depends on widths modulo 4 and modulo the block size.", "anchors": ["array_2d_row_real_matrix.go: Multiply", "block_real_matrix.go: Multiply", "diagonal_matrix.go: Multiply"]}
{"id": "C11", "title": "Matrix-vector products", "statement": "Operate(v) and PreMultiply(v) return the vectors with entries sum_j a(i,j)v(j) and sum_i v(i)a(i,j) (exact arithmetic), and refuse vectors of the wrong length, for every storage.", "quantifier": "all matrices and vectors", "why_tests_cant": "Unrolled kernels with remainders for every width.", "anchors": ["array_2d_row_real_matrix.go: Operate, PreMultiply", "block_real_matrix.go: Operate, PreMultiply", "diagonal_matrix.go: Operate, PreMultiply"]}
{"id": "C12", "title": "Transpose", "statement": "Transpose returns the matrix with dimensions exchanged and entry (j,i) equal to entry (i,j) of the original, for every storage; transposing twice restores the contents.", "quantifier": "all matrices", "why_tests_cant": "Block transpose walks blocks of four different shapes.", "anchors": ["array_2d_row_real_matrix.go: Transpose", "block_real_matrix.go: Transpose", "diagonal_matrix.go: Transpose"]}
{"id": "C13", "title": "Sub-matrix extraction and insertion", "statement": "SubMatrix(r0,r1,c0,c1) returns exactly the window of entries; SetSubMatrix writes exactly the window and leaves all else unchanged; windows outside the matrix or inverted are refused and leave the matrix unchanged.", "quantifier": "all dense matrices, all integer windows", "why_tests_cant": "Block extraction copies up to four source-block pieces per destination block, depending on offsets modulo the block size.", "anchors": ["array_2d_row_real_matrix.go: SubMatrix, SetSubMatrix, checkSubMatrixIndex", "block_real_matrix.go: SubMatrix, copyBlockPart, SetSubMatrix"]}
{"id": "C14", "title": "Row and column access", "statement": "RowAt/ColumnAt return exactly the row/column; SetRow/SetColumn replace exactly that row/column and nothing else, for every valid index and any slice of the right length; other indices and lengths are refused.", "quantifier": "all dense matrices, all indices, all slices", "why_tests_cant": "Only index 0 and a few sizes are sampled by tests.", "anchors": ["array_2d_row_real_matrix.go: RowAt, ColumnAt, SetRow, SetColumn", "block_real_matrix.go: RowAt, ColumnAt, SetRow, SetColumn"]}
{"id": "C15", "title": "Row/column matrices and vectors", "statement": "RowMatrixAt, ColumnMatrixAt, RowVectorAt, ColumnVectorAt return exactly the selected line; SetRowMatrix, SetColumnMatrix, SetRowVector, SetColumnVector replace exactly the selected line, across any number of blocks; shape mismatches are refused.", "quantifier": "all dense matrices, all indices, all line arguments", "why_tests_cant": "The block versions straddle block boundaries.", "anchors": ["block_real_matrix.go: RowMatrixAt, SetRowMatrix, setRowBlock, ColumnMatrixAt, SetColumnMatrix, setColumnBlock", "array_2d_row_real_matrix.go: RowMatrixAt, SetRowMatrix"]}
{"id": "C16", "title": "Walks visit every cell exactly once in the declared order", "statement": "A row-order (column-order) walk calls start once with the dimensions and bounds, then visits every cell of the range once in row-major (column-major) order with its current value, then calls end once and returns its result. The optimized-order walk visits the same cells exactly once.", "quantifier": "all dense matrices, all visitors with any internal state, all valid ranges", "why_tests_cant": "Visitors are arbitrary stateful programs.", "anchors": ["array_2d_row_real_matrix.go: WalkIn*", "block_real_matrix.go: WalkIn*"]}
{"id": "C17", "title": "Updating walks store what the visitor returned", "statement": "After an updating walk every visited cell holds the value the visitor returned for it and every other cell is unchanged.", "quantifier": "all dense matrices, visitors and ranges", "why_tests_cant": "Visitors are arbitrary.", "anchors": ["array_2d_row_real_matrix.go: WalkInUpdate*", "block_real_matrix.go: WalkInUpdate*"]}
{"id": "C18", "title": "Exponentiation", "statement": "Power(m,p) equals the p-fold product of the square matrix m for every p>=0 (identity at 0); non-square matrices and negative exponents are refused.", "quantifier": "all square matrices and all integers p", "why_tests_cant": "p is unbounded and the code works on its binary expansion.", "anchors": ["real_matrix.go: Power"]}
{"id": "C19", "title": "Copies are independent", "statement": "Mutating a matrix or vector obtained by Copy, Data, RowAt, ToArray, or construction with copying never changes the source, and mutating the source never changes the copy.", "quantifier": "all matrices/vectors and all finite sequences of writes through either handle", "why_tests_cant": "Unbounded sequences of interleaved writes.", "anchors": ["array_2d_row_real_matrix.go: Copy, Data, NewArray2DRowRealMatrixFromSlices", "array_real_vector.go: Copy, ToArray, NewArrayRealVector"]}
{"id": "C20", "title": "References alias", "statement": "A matrix built without copying, and the slice returned by DataRef, share storage with the matrix in both directions: a write through one is read through the other.", "quantifier": "all matrices and all finite interleavings of writes", "why_tests_cant": "Unbounded interleavings.", "anchors": ["array_2d_row_real_matrix.go: DataRef, NewArray2DRowRealMatrixFromSlices", "array_real_vector.go: DataRef, NewArrayRealVector"]}
{"id": "C21", "title": "Entrywise vector arithmetic", "statement": "Vector Add/Subtract/EBEMultiply/EBEDivide return a new vector with exactly one machine operation per entry; Map and MapAdd/MapSubtract/MapMultiply/MapDivide replace each entry of the receiver by exactly one operation on it. Operands of different lengths are refused, and operands are otherwise unchanged (a panicking Map function leaves exactly the entries before it replaced).", "quantifier": "all vectors and values", "why_tests_cant": "Length is unbounded.", "anchors": ["array_real_vector.go: Add, Subtract, EBEMultiply, EBEDivide, Map*"]}
{"id": "C22", "title": "Vector append and slice laws", "statement": "Append concatenates; SubVector(len(u),len(v)) of the concatenation returns v; SetSubVector writes exactly the window; out-of-range windows are refused.", "quantifier": "all vectors", "why_tests_cant": "Unbounded lengths.", "anchors": ["array_real_vector.go: Append, AppendVector, SubVector, SetSubVector"]}
{"id": "C23", "title": "Vector equality is an equivalence", "statement": "Equals on vectors is reflexive (even with NaN entries), symmetric and transitive.", "quantifier": "all vectors over any value set whose comparison behaves like the machine one", "why_tests_cant": "All vectors, with NaN at any position.", "anchors": ["array_real_vector.go: Equals, IsNaN"]}
{"id": "C24", "title": "Dot product and norms", "statement": "DotProduct is the sum of products; the L2, L1 and LInf norms are the square root of the self dot product, the sum of absolute values and the maximum absolute value; norms are non-negative and distances satisfy d(u,v)=norm(u-v) (exact arithmetic).", "quantifier": "all vectors", "why_tests_cant": "Unbounded lengths.", "anchors": ["array_real_vector.go: DotProduct", "real_vector.go: VecNorm, VecL1Norm, VecLInfNorm, VecDistance, VecL1Distance, VecLInfDistance"]}
{"id": "C25", "title": "Extremum index", "statement": "The minimum (maximum) index functions return an index of an entry that no entry undercuts (exceeds), the last such one, and -1 exactly when no entry is comparable.", "quantifier": "all vectors with a total order on their non-NaN entries", "why_tests_cant": "All orderings and tie patterns.", "anchors": ["real_vector.go: MinIndex, MaxIndex, MinValue, MaxValue"]}
{"id": "C26", "title": "Unit vector and projection", "statement": "UnitVector/Unitize give the vector scaled to norm 1 and refuse the zero vector; the projection on a non-zero vector is parallel to it and its residual is orthogonal to it (exact arithmetic).", "quantifier": "all vectors", "why_tests_cant": "Real-valued inputs.", "anchors": ["real_vector.go: UnitVector, Unitize, Projection"]}
{"id": "C27", "title": "LU factorisation", "statement": "When LU decomposition does not report singularity, with positive threshold, L is unit lower triangular with entries at most 1 in magnitude, U is upper triangular with non-zero diagonal, P is a permutation matrix, and P*A = L*U (exact arithmetic); a singular matrix is always reported singular, and a matrix that is reported singular differs from a singular one in one column only, by less than the threshold in each entry.", "quantifier": "all square matrices of any size, all positive thresholds", "why_tests_cant": "All matrices and pivot orders.", "anchors": ["lu_decomposition.go: NewLUDecompositionWithThreshold, L, U, P, Pivot"]}
{"id": "C28", "title": "LU determinant", "statement": "When not reported singular, Determinant equals the determinant of A (exact arithmetic). The solver calls A non-singular only if it is, and calls singular only matrices within the threshold of a singular one.", "quantifier": "all square matrices", "why_tests_cant": "Sign of an arbitrary permutation.", "anchors": ["lu_decomposition.go: Determinant"]}
{"id": "C29", "title": "LU solve and inverse", "statement": "SolveVector and SolveMatrix return the unique X with A*X=B; Inverse returns the inverse; a right-hand side of the wrong height is refused and a singular decomposition refuses to solve (exact arithmetic).", "quantifier": "all square non-singular matrices and right-hand sides", "why_tests_cant": "All systems.", "anchors": ["lu_decomposition.go: luSolver SolveVector, SolveMatrix, Inverse"]}
{"id": "C30", "title": "Cholesky factorisation", "statement": "When the Cholesky constructor succeeds, L is lower triangular with positive diagonal, LT is its transpose and L*LT is the symmetric matrix with the upper triangle of A; with symmetry threshold 0 it is A itself (exact arithmetic).", "quantifier": "all square matrices and thresholds >= 0", "why_tests_cant": "All matrices.", "anchors": ["cholesky_decomposition.go: NewCholeskyDecompositionWithThreshold, L, LT"]}
{"id": "C31", "title": "Cholesky accepts exactly the positive definite matrices", "statement": "With zero thresholds the constructor succeeds if and only if A is symmetric positive definite (exact arithmetic); with positive thresholds success and each error have an exact characterisation; non-square, non-symmetric and non-positive-definite inputs get the corresponding error.", "quantifier": "all square matrices", "why_tests_cant": "Positive definiteness is a statement about all vectors.", "anchors": ["cholesky_decomposition.go: NewCholeskyDecompositionWithThreshold"]}
{"id": "C32", "title": "Cholesky determinant and solve", "statement": "Determinant is det(A); SolveVector/SolveMatrix return X with A*X=B; Inverse is the inverse (exact arithmetic).", "quantifier": "all symmetric positive definite matrices, all right-hand sides", "why_tests_cant": "All systems.", "anchors": ["cholesky_decomposition.go: Determinant, solver"]}
{"id": "C33", "title": "QR factorisation", "statement": "Q*R = A with Q orthogonal and R upper trapezoidal, for every m x n matrix (exact arithmetic).", "quantifier": "all rectangular matrices including rank-deficient and zero columns", "why_tests_cant": "All shapes and degenerate columns.", "anchors": ["qr_decomposition.go: decompose, performHouseholderReflection, Q, QT, R"]}
{"id": "C34", "title": "QR least squares", "statement": "For a full-column-rank m>=n matrix the solver returns the x minimising |Ax-b| (and Ax=b when square); rank-deficient systems are refused (exact arithmetic).", "quantifier": "all matrices and right-hand sides", "why_tests_cant": "The minimum is over all vectors.", "anchors": ["qr_decomposition.go: qrDecompositionSolver"]}
{"id": "C35", "title": "Rank-revealing QR", "statement": "A*P = Q*R with P a permutation matrix, Q orthogonal, R upper trapezoidal with diagonal non-increasing in magnitude (exact arithmetic).", "quantifier": "all rectangular matrices", "why_tests_cant": "All matrices and pivot orders.", "anchors": ["rrqr_decomposition.go: performHouseholderReflection, P"]}
{"id": "C36", "title": "Rectangular Cholesky", "statement": "When it succeeds with threshold 0 on a symmetric matrix the root B satisfies B*BT = A and B has Rank columns; it succeeds on every positive semidefinite matrix (exact arithmetic).", "quantifier": "all symmetric matrices", "why_tests_cant": "All matrices and pivot orders.", "anchors": ["rectangular_cholesky_decomposition.go"]}
{"id": "C37", "title": "Tridiagonal reduction", "statement": "For a symmetric A, Q*T*QT = A, Q orthogonal, T symmetric tridiagonal; only the upper triangle of A is read (exact arithmetic).", "quantifier": "all symmetric matrices", "why_tests_cant": "All matrices.", "anchors": ["tridiagonal_transformer.go"]}
{"id": "C38", "title": "Bidiagonal reduction", "statement": "U*B*VT = A with U, V orthogonal and B bidiagonal (upper when m>=n, else lower) (exact arithmetic).", "quantifier": "all rectangular matrices", "why_tests_cant": "All matrices.", "anchors": ["bidiagonal_transformer.go"]}
{"id": "C39", "title": "Hessenberg reduction", "statement": "P*H*PT = A with P orthogonal and H upper Hessenberg (exact arithmetic).", "quantifier": "all square matrices", "why_tests_cant": "All matrices.", "anchors": ["hessenberg_transformer.go"]}
{"id": "C40", "title": "Schur iteration always ends without index errors", "statement": "The Schur transform of any square matrix, including NaN or infinite entries, ends after at most 100 shifts per eigenvalue, either with a result or with the max-count panic, and never with an index error.", "quantifier": "all square matrices over any values, with no assumption on arithmetic beyond 0+0 = 0-0 = 0*0 = 0 and 0 being equal to itself", "why_tests_cant": "Termination over all inputs including non-finite ones.", "anchors": ["schur_transformer.go: transform"]}
{"id": "C41", "title": "Symmetric eigenvalues are sorted", "statement": "For symmetric input, when decomposition succeeds, eigenvalues are in non-increasing order and each stays paired with its eigenvector after sorting and clean-up.", "quantifier": "all symmetric/tridiagonal inputs", "why_tests_cant": "All inputs.", "anchors": ["eigen_decomposition.go: findEigenVectors"]}
{"id": "C42", "title": "Symmetric eigen iteration always ends", "statement": "The symmetric eigenvalue iteration ends for every input, either with a result or the max-count error after 30 iterations for one eigenvalue.", "quantifier": "all inputs over any values, no assumption on arithmetic beyond 0+0 = 0-0 = 0*0 = 0 and 0 being equal to itself", "why_tests_cant": "Termination over all inputs.", "anchors": ["eigen_decomposition.go: findEigenVectors"]}
{"id": "C43", "title": "Singular values are non-negative and sorted", "statement": "When the singular value decomposition returns, its singular values are non-negative and non-increasing (exact comparisons).", "quantifier": "all matrices for which the iteration ends", "why_tests_cant": "All inputs and iteration counts.", "anchors": ["singular_value_decomposition.go"]}
{"id": "C44", "title": "ULP comparison", "statement": "Comparing two numbers for equality within one unit in the last place is true exactly when neither is NaN and they are the same or adjacent machine numbers; it is symmetric and identifies the two zeros.", "quantifier": "all pairs of 64-bit patterns", "why_tests_cant": "2^128 pairs.", "anchors": ["utils.go: equals, equalsWithULP"]}
{"id": "C45", "title": "Diagonal scaling", "statement": "ScalarMultiply on a diagonal matrix returns the diagonal matrix of the scaled entries for every finite scalar.", "quantifier": "all diagonal matrices and scalars", "why_tests_cant": "All scalars, in particular negative ones.", "anchors": ["diagonal_matrix.go: ScalarMultiply, SetEntry, ensureZero", "utils.go: equalsWithULP"]}
{"id": "C46", "title": "Vector concatenation constructor", "statement": "The two-vector constructor returns the concatenation of its arguments.", "quantifier": "all pairs of vectors", "why_tests_cant": "Unbounded lengths.", "anchors": ["array_real_vector.go: NewArrayRealVectorFromTwoRealVector"]}
{"id": "C47", "title": "Overlapping sub-vector assignment", "statement": "SetSubVector stores the value the argument had at the time of the call, even when the argument shares storage with the receiver.", "quantifier": "all vectors, offsets and overlaps", "why_tests_cant": "All overlap patterns.", "anchors": ["array_real_vector.go: SetSubVector"]}
{"id": "C48", "title": "Vectors of any implementation are accepted", "statement": "OperateVector and PreMultiplyVector give the product for any RealVector implementation of the right length.", "quantifier": "all matrices and all implementations", "why_tests_cant": "Implementations are open-ended.", "anchors": ["array_2d_row_real_matrix.go: OperateVector, PreMultiplyVector", "block_real_matrix.go: OperateVector, PreMultiplyVector"]}
{"id": "C49", "title": "Matrix norms", "statement": "The LInf matrix norm is the maximum absolute row sum as documented; the Frobenius norm is the square root of the sum of squares (exact arithmetic).", "quantifier": "all matrices", "why_tests_cant": "Unbounded sizes.", "anchors": ["real_matrix.go: MatLInfNorm, MatFrobeniusNorm"]}
{"id": "C50", "title": "Diagonal inverse", "statement": "Inverse of a diagonal matrix, when not refused as singular, is its two-sided inverse; it is refused exactly when some diagonal entry is within the threshold of zero (exact arithmetic).", "quantifier": "all diagonal matrices and thresholds >= 0", "why_tests_cant": "All matrices.", "anchors": ["diagonal_matrix.go: Inverse, InverseWithThreshold, IsSingular"]}
{"id": "C51", "title": "Outer product and trace", "statement": "OuterProduct(u,v) has entry u(i)*v(j); Trace is the sum of the diagonal and refuses non-square matrices.", "quantifier": "all vectors and matrices", "why_tests_cant": "Unbounded sizes.", "anchors": ["real_vector.go/real_matrix.go: OuterProduct", "array_2d_row_real_matrix.go: Trace"]}
{"id": "C52", "title": "Matrix equality", "statement": "Equals across storages is true exactly when the dimensions agree and all entries compare equal; on NaN-free matrices it is an equivalence.", "quantifier": "all dense matrices", "why_tests_cant": "Unbounded sizes.", "anchors": ["array_2d_row_real_matrix.go: Equals", "block_real_matrix.go: Equals"]}
{"id": "C53", "title": "Eigen determinant", "statement": "For symmetric matrices the product of eigenvalues reported as Determinant is the determinant; the documented contract covers general matrices.", "quantifier": "all square matrices", "why_tests_cant": "All matrices.", "anchors": ["eigen_decomposition.go: Determinant"]}
{"id": "C54", "title": "Decomposition leaves its input unchanged", "statement": "Running any decomposition does not change the matrix it was given.", "quantifier": "all matrices", "why_tests_cant": "Aliasing over all inputs.", "anchors": ["*_decomposition.go: New*", "array_2d_row_real_matrix.go: Data"]}
{"id": "C55", "title": "SVD pseudo-inverse", "statement": "Given orthonormal singular vectors reproducing A, the solver applies the Moore-Penrose inverse: all four Penrose equations hold when no singular value is positive and at or below the tolerance (exact arithmetic). SolveVector and SolveMatrix then return the least squares solution of smallest norm.", "quantifier": "all matrices", "why_tests_cant": "All matrices.", "anchors": ["singular_value_decomposition.go: newSVDecompositionSolver, SolveVector, SolveMatrix, Inverse"]}
{"id": "C56", "title": "Vector walks", "statement": "Every vector walk visits each index of its range exactly once, in increasing order, with the current entry; an updating walk stores the visitor's answer at that index and nowhere else, also when the visitor panics part-way; bad ranges are refused before the visitor is called.", "quantifier": "all vectors, ranges and visitors (including panicking ones)", "why_tests_cant": "Arbitrary visitors and unbounded lengths.", "anchors": ["array_real_vector.go: WalkIn*"]}
{"id": "C57", "title": "Vector construction, entry access and whole-vector writes", "statement": "Sized, preset and copying constructors give exactly the documented entries and refuse nil or negative sizes; At/SetEntry/AddToEntry read or change exactly the addressed entry; Set, CopyFrom and Combine replace every entry as documented; bad indices and lengths are refused and leave the vector unchanged.", "quantifier": "all vectors, indices and values", "why_tests_cant": "Unbounded lengths and arbitrary indices.", "anchors": ["array_real_vector.go: NewSizedArrayRealVector, NewArrayRealVectorCopy, At, SetEntry, AddToEntry, Set, CopyFrom, Combine"]}
{"id": "C58", "title": "Decompositions never fault on their own indices", "statement": "Building any of the direct decompositions (LU, Cholesky, QR, rank-revealing QR, tridiagonal, bidiagonal, Hessenberg) of an accepted matrix never ends in an index fault, whatever the entries are, NaN and infinities included; it ends in a decomposition or in one of its documented errors. The LU pivot is always a permutation of the row indices.", "quantifier": "all matrices, all thresholds, any arithmetic", "why_tests_cant": "NaN and infinities steer the pivot choice and the loop bounds in ways no sample covers.", "anchors": ["lu_decomposition.go: NewLUDecompositionWithThreshold", "cholesky_decomposition.go", "qr_decomposition.go", "rrqr_decomposition.go", "tridiagonal_transformer.go", "bidiagonal_transformer.go", "hessenberg_transformer.go"]}
{"id": "C59", "title": "Submatrices by index lists and into caller's slices", "statement": "CopySubMatrix and CopySubMatrixFromIndices overwrite exactly the corner of the destination with the chosen entries (repeated and unordered indices included) and leave every other element and length alone; SubMatrix from index lists is the matrix of the chosen entries. A bad window or index list, or a destination that is too small, is refused with the destination unchanged.", "quantifier": "all matrices, windows, index lists and destinations", "why_tests_cant": "Ragged destinations and arbitrary index lists are unbounded.", "anchors": ["real_matrix.go: CopySubMatrix, CopySubMatrixFromIndices, SubMatrix, checkSubMatrixIndexFromIndices"]}
{"id": "C60", "title": "Rank-revealing QR solver", "statement": "In exact arithmetic, the rank-revealing QR solver with threshold 0 reports non-singular exactly when the matrix has full rank min(m,n), which for m >= n means independent columns, and for m >= n the returned vector or matrix is the least squares solution (the exact solution for square systems) and Inverse is the two-sided inverse; right-hand sides of the wrong size and singular matrices are refused.", "quantifier": "all matrices over any ordered field with square roots, all right-hand sides", "why_tests_cant": "Column pivoting depends on all the norms of the trailing columns.", "anchors": ["rrqr_decomposition.go: rrqrSolver"]}
{"id": "C61", "title": "Rank of the rank-revealing QR decomposition", "statement": "In exact arithmetic and with a drop threshold that only discards zero rows, Rank is the rank of the matrix.", "quantifier": "all matrices over any ordered field with square roots", "why_tests_cant": "Rank deficiency is a measure-zero set that random tests miss.", "anchors": ["rrqr_decomposition.go: Rank"]}
{"id": "C62", "title": "Schur vectors are orthonormal and the trace is kept", "statement": "In exact arithmetic, whenever NewSchurTransformer returns for a square matrix A that is not zero, P is orthogonal, PT is its transpose, and the sum of the diagonal of T equals that of A, for every positive tolerance, however many shifted double QR steps, deflations and exceptional shifts were made.", "quantifier": "all non-zero square matrices over any ordered field with square roots, all tolerances and shift constants", "why_tests_cant": "The number of QR steps, the deflation points and the exceptional shifts depend on the matrix; tests reach a handful of paths and rarely the shifts at iterations 10 and 30.", "anchors": ["schur_transformer.go: transform, computeShift, initQRStep, performDoubleQRStep"]}
{"id": "C63", "title": "Shape of the Schur form", "statement": "In any arithmetic, rounding included, the entries of T below the first sub-diagonal are exactly zero when NewSchurTransformer returns.", "quantifier": "all square matrices, any scalar arithmetic", "why_tests_cant": "Leftover fill-in depends on where the double steps start and stop and on the rounds that are skipped.", "anchors": ["schur_transformer.go: performDoubleQRStep (lines 393-398)"]}
{"id": "C64", "title": "Accessors and branch choice of the eigen decomposition", "statement": "V has the eigenvectors as columns and VT is its transpose. D shows the real parts on the diagonal and each complex pair as a 2x2 block. The constructor takes the symmetric branch exactly when each mirrored pair of entries differs by at most the tolerance times the larger absolute value. For a symmetric input V*D*VT is the matrix whose eigenpairs the decomposition holds.", "quantifier": "all square matrices; the accessor facts in any arithmetic", "why_tests_cant": "All sizes, all storages and all results of the iteration are covered.", "anchors": ["eigen_decomposition.go: V, VT, D, NewEigenDecomposition", "matrix_utils.go: isSymmetric"]}
{"id": "C65", "title": "Eigen solver", "statement": "For symmetric matrices: the non-singularity test answers true exactly when no eigenvalue is negligible against the largest one; then SolveVector, SolveMatrix and Inverse return the unique solution; otherwise Solver and solves refuse with a singular-matrix error, and wrong row counts are refused.", "quantifier": "all decompositions with orthonormal vectors, all right-hand sides (exact arithmetic)", "why_tests_cant": "All matrices and right-hand sides, including nearly singular ones.", "anchors": ["eigen_decomposition.go: eigenSolver"]}
{"id": "C66", "title": "Matrix square root", "statement": "For a symmetric positive definite matrix with real eigenvalues SquareRoot returns R symmetric with R*R equal to the matrix; with a complex eigenvalue it refuses.", "quantifier": "all decompositions with orthonormal vectors (exact arithmetic)", "why_tests_cant": "The identity R*R = A must hold for all matrices, not for samples within tolerance.", "anchors": ["eigen_decomposition.go: SquareRoot"]}
{"id": "C67", "title": "SVD construction never faults", "statement": "For a non-empty matrix of the package NewSingularValueDecomposition never panics or fails with an index error, in any arithmetic; if the iteration ends, U is m x p, V is n x p and there are p = min(m, n) singular values.", "quantifier": "all dimensions, all entries including NaN and infinities, every number of rounds", "why_tests_cant": "Every index expression of the reduction, the four cases of the iteration and the sorting must stay in range for all data-dependent paths.", "anchors": ["singular_value_decomposition.go: NewSingularValueDecomposition"]}
{"id": "C68", "title": "SVD factors", "statement": "When the construction returns, U and V have orthonormal columns and U S V^T differs from A by at most (p-1)(tiny + 2 eps N) in the Frobenius norm, where N bounds the norm of A (exact arithmetic); the only error is that of the neglected entries.", "quantifier": "all non-empty matrices, tall and wide, every number of rounds", "why_tests_cant": "The error bound must hold for all matrices and all iteration paths.", "anchors": ["singular_value_decomposition.go: NewSingularValueDecomposition"]}
{"id": "C69", "title": "SVD iteration ends", "statement": "The unbounded main iteration of the singular value decomposition ends, and its result does not depend on how many rounds are allowed.", "quantifier": "all matrices", "why_tests_cant": "A non-terminating input cannot be found by sampling.", "anchors": ["singular_value_decomposition.go: NewSingularValueDecomposition, main iteration loop"]}
{"id": "C70", "title": "SVD rank and non-singularity", "statement": "Rank counts the singular values above the tolerance and is the rank of A when none is positive and at or below it; IsNonSingular holds exactly for square matrices whose singular values all exceed the tolerance, and the pseudo-inverse is then the two-sided inverse.", "quantifier": "all decompositions with orthonormal singular vectors (exact arithmetic)", "why_tests_cant": "Rank and inverse are statements about all vectors.", "anchors": ["singular_value_decomposition.go: Rank, IsNonSingular, Inverse"]}
{"id": "C71", "title": "SVD norm and condition number", "statement": "Norm is the largest stretch factor of A and is attained; ConditionNumber and InverseConditionNumber are the quotients of the largest and smallest singular values, and the smallest is the smallest stretch factor when rows >= columns.", "quantifier": "all decompositions with orthonormal singular vectors, all vectors (exact arithmetic)", "why_tests_cant": "A maximum over all vectors.", "anchors": ["singular_value_decomposition.go: Norm, ConditionNumber, InverseConditionNumber"]}
{"id": "C72", "title": "SVD covariance", "statement": "Covariance(c) is V J V^T, where J has the inverse squares of the singular values >= c; it panics when no singular value is >= c; for full column rank it is the inverse of A^T A. (For wide matrices it is the leading p x p part only.)", "quantifier": "all decompositions with orthonormal singular vectors, all cutoffs (exact arithmetic)", "why_tests_cant": "All matrices and cutoffs.", "anchors": ["singular_value_decomposition.go: Covariance"]}
{"id": "C73", "title": "SVD accessors", "statement": "UT and VT are the transposes of U and V, and S is the diagonal matrix of the singular values, in any arithmetic.", "quantifier": "all decompositions", "why_tests_cant": "All dimensions and entries.", "anchors": ["singular_value_decomposition.go: UT, VT, S"]}
{"id": "C74", "title": "Vector iterators", "statement": "For any interleaving of HasNext, Next and mutators of the vector, the k-th successful Next returns index k-1 and the entry the vector holds at that moment; HasNext is true exactly while fewer than Dimension entries were returned; afterwards Next panics and changes nothing. Every mutator of the vector keeps its dimension, also when it fails halfway.", "quantifier": "all vectors, all interleavings of iterator calls and writes", "why_tests_cant": "Unbounded interleavings of reads through the iterator and writes to the vector.", "anchors": ["real_vector.go: entryIteratorImpl.HasNext, Next", "array_real_vector.go: Iterator"]}
{"id": "C75", "title": "Block matrices from block data", "statement": "NewBlockRealMatrixFromBlockData accepts exactly positive dimensions with every tile present and of the right size; the matrix shows at (i,j) the element of the tile covering it; the blocks of any block matrix given back reproduce its entries.", "quantifier": "all dimensions and all block data", "why_tests_cant": "All dimensions, including those not divisible by the block size, and all wrong shapes.", "anchors": ["block_real_matrix.go: NewBlockRealMatrixFromBlockData"]}
{"id": "C76", "title": "Eigenvalues of general matrices", "statement": "The decomposition of a square matrix through its Schur form ends in a result, the arithmetic error, or the panic on too many iterations. Each result reads its eigenvalues off the Schur form: diagonal entries, or a conjugate pair per 2x2 block with entry below the diagonal above the tolerance. Their sum is the trace. Where the form is quasi-triangular with blocks of non-positive discriminant, they are all complex eigenvalues of the form, with multiplicity.", "quantifier": "all square matrices, all literals, all rounds of the iteration", "why_tests_cant": "All dimensions and entries, and every pattern of blocks along the diagonal.", "anchors": ["eigen_decomposition.go: transformToSchur, findEigenVectorsFromSchur, NewEigenDecomposition"]}
{"id": "C77", "title": "Pairing of eigenvalues", "statement": "A matrix whose eigenvalues are all real is reported without complex eigenvalues.", "quantifier": "all square matrices", "why_tests_cant": "All scalings of the matrix; the tolerance that decides is absolute.", "anchors": ["eigen_decomposition.go: transformToSchur", "schur_transformer.go: findSmallSubDiagonalElement"]}
{"id": "C78", "title": "Backward error of the Schur form", "statement": "For a matrix that is not zero, with Frobenius norm at most N, every Schur form the transformer returns is exact for a nearby matrix: P is orthogonal, T becomes a real Schur form V (1x1 blocks and 2x2 blocks with complex eigenvalues) when some entries just below the diagonal, each at most eps(n+4)(N+err), are set to zero, and P V P^T differs from A by at most err = (N+1)((1+(8n+24)eps)^(101n) - 1) in Frobenius norm.", "quantifier": "all square matrices, all n, all positive tolerances eps, all paths of the shifted QR iteration including exceptional shifts", "why_tests_cant": "Which entries are neglected depends on the path of the iteration; the bound must cover every sequence of deflations, shifts and skipped reflections.", "anchors": ["schur_transformer.go: transform, findSmallSubDiagonalElement, performDoubleQRStep, computeShift, initQRStep"]}
{"id": "C79", "title": "Backward error of general eigenvalues", "statement": "When the entries the Schur form neglects are within the pairing tolerance, the reported numbers re_i + i im_i are, with multiplicity, all complex eigenvalues of A + E for a real E of Frobenius norm at most err + n * tolerance.", "quantifier": "all square matrices whose norm meets the condition, all results", "why_tests_cant": "All dimensions, entries and block patterns; individual eigenvalues of defective matrices move by much more than the backward error, so comparing numbers cannot decide.", "anchors": ["eigen_decomposition.go: transformToSchur", "schur_transformer.go: transform"]}
{"id": "C80", "title": "Rounding errors of inner products, norms and distances", "statement": "When the returned number is finite, all entries are finite and the number differs from the exact value by at most a small multiple of the sum of absolute values: ((1+u)^n-1) sum|a_k||b_k| plus an underflow term for inner products, ((1+u)^(n-1)-1) times the sum for sums of absolute values and the trace, ((1+u)^(n+2)-1) on the square of Euclidean and Frobenius norms, ((1+u)^(n+4)-1) on the square of distances; the largest absolute value of finite entries is exact.", "quantifier": "all vectors and matrices, all dimensions, every storage, every arithmetic with the standard rounding model, binary64 in particular", "why_tests_cant": "Worst cases of rounding are rare among samples, and depend on the order of the additions, which differs between storages.", "anchors": ["real_vector.go: VecDotProduct, VecNorm, VecL1Norm, VecLInfNorm, VecDistance, VecL1Distance", "real_matrix.go: MatTrace, MatFrobeniusNorm"]}
{"id": "C81", "title": "Rounding errors of products", "statement": "Every entry of a matrix product and of a matrix-vector product is a sum of the rounded products of its row and column in some order, so a finite entry differs from the exact inner product by at most ((1+u)^n-1) times the inner product of absolute values, plus an underflow term.", "quantifier": "all matrices and vectors of matching dimensions, all pairs of storages (blocks sum in blocks, diagonal matrices take one term), all arithmetics with the standard rounding model", "why_tests_cant": "Each storage adds in its own order; only a theorem over all orders covers them, for all dimensions.", "anchors": ["array_2d_row_real_matrix.go: Multiply, Operate, PreMultiply", "block_real_matrix.go: Multiply, Operate, PreMultiply", "diagonal_matrix.go: Multiply, PreMultiply, Operate"]}
{"id": "C82", "title": "Backward error of the LU decomposition", "statement": "In any arithmetic the factors follow Doolittle's recurrence for the permuted matrix operation by operation. In rounded arithmetic, when L and U are finite, A is finite, |L_ij| <= 1, and |LU - PA| <= ((1+u)^n-1)|L||U| entrywise, plus (1+u)^n (n+|U_jj|) eta for underflow.", "quantifier": "all square matrices of every storage, all n, all thresholds, every arithmetic with the standard rounding model, binary64 in particular", "why_tests_cant": "Rounding errors depend on every entry and on the pivots chosen; the worst case over all matrices of all sizes cannot be sampled.", "anchors": ["lu_decomposition.go: NewLUDecompositionWithThreshold, L, U, P, Pivot"]}
{"id": "C83", "title": "Residual of the LU solver", "statement": "When the solution and the diagonal of U are finite, A and b are finite, U has no zero on its diagonal and |Ax-b| <= ((1+u)^(3n)-1) (|L||U||x|) in each row, plus an explicit underflow term; likewise for each column of SolveMatrix and of Inverse.", "quantifier": "all square matrices not reported singular, all right-hand sides, all n, every arithmetic with the standard rounding model", "why_tests_cant": "The bound must hold for ill-conditioned matrices too, where the solution itself is meaningless and cannot be compared.", "anchors": ["lu_decomposition.go: SolveVector, SolveMatrix, Inverse"]}
{"id": "C84", "title": "Backward error of the Cholesky decomposition", "statement": "In any arithmetic the constructor answers a factor R that follows the Cholesky recurrence operation by operation, or the symmetry error exactly when a pair fails the test, or the positivity error exactly when no R follows the recurrence. Only the upper triangle decides the factor, and NaN below the diagonal passes the test. In rounded arithmetic, when R is finite, the upper triangle of A is finite, the diagonal of R is positive and |R^T R - A| <= ((1+u)^(n+1)-1)|R^T||R| entrywise, plus an explicit underflow term; a pair that passed the test differs by at most rel times its larger magnitude up to rounding.", "quantifier": "all square matrices of every storage, all n, all thresholds, every arithmetic with the standard rounding model, binary64 in particular", "why_tests_cant": "Rounding errors depend on every entry; whether a nearly singular matrix is accepted depends on rounding, so the bound has to hold for each accepted matrix.", "anchors": ["cholesky_decomposition.go: NewCholeskyDecomposition, L, LT"]}
{"id": "C85", "title": "Residual of the Cholesky solver", "statement": "When the solution and the diagonal of R are finite, the upper triangle of A and b are finite, the diagonal of R has no zero and |Ax-b| <= ((1+u)^(3n+1)-1) (|R^T||R||x|) in each row, plus an explicit underflow term, where A is completed symmetrically from its upper triangle; likewise for each column of SolveMatrix and of Inverse.", "quantifier": "all accepted matrices, all right-hand sides, all n, every arithmetic with the standard rounding model", "why_tests_cant": "The bound must hold for ill-conditioned matrices too, where the solution itself cannot be compared.", "anchors": ["cholesky_decomposition.go: SolveVector, SolveMatrix, Inverse"]}
{"id": "C86", "title": "Eigenvectors of general matrices", "statement": "For a matrix that is not zero, decomposed by way of its Schur form, when no imaginary part lies between zero and the pairing tolerance: there is one matrix E of norm at most schurErr + n*epsEd such that the column of each real eigenvalue is not zero and is an eigenvector of A+E with exactly this eigenvalue (of A+E+F with an explicit bound on F when the eigenvalue has occurred before), and the two columns of each pair that has not occurred before are the real and the imaginary part of an eigenvector of A+E that is not zero, with the eigenvalue re + i im. When no eigenvalue occurs twice, (A+E) V = V D with the matrices V and D of the result, and no column of V is zero.", "quantifier": "all square matrices of every storage, all n, all tolerances with schurDrop <= epsEd, exact real arithmetic", "why_tests_cant": "The back substitution couples every column with all blocks above it; tests compare a few fixed matrices with a tolerance.", "anchors": ["eigen_decomposition.go: findEigenVectorsFromSchur, transformToSchur, V, D, Eigenvector"]}
{"id": "C87", "title": "Residual of real eigenvalues and their vectors", "statement": "Whatever the other eigenvalues are, the residual |Av - re v| of a real eigenvalue and its column is small against |v|.", "quantifier": "all square matrices that are not symmetric, all n, exact real arithmetic", "why_tests_cant": "The failing matrices have a complex pair with an imaginary part below 1e-12, which no sample contains by chance.", "anchors": ["eigen_decomposition.go: findEigenVectorsFromSchur"]}
{"id": "C88", "title": "Lines, windows and walks of diagonal matrices", "statement": "For a diagonal matrix the outcome of RowMatrixAt, ColumnMatrixAt, SubMatrix and of all walks is determined by the diagonal: a line as a matrix exists only when n = 1; a window exists only when it is square, in range and has zeros off its own diagonal, and then shows the entries of the window; a reading or changing walk with any bounds, legal or not, visits the cells of its window in order up to the first cell outside the matrix, and a changing walk also stops at the first cell off the diagonal that gets a value that is not zero, keeping what was stored before.", "quantifier": "all n, all diagonals, all bounds, all visitors with any state, any arithmetic", "why_tests_cant": "The index check of the bounded walks is discarded, so the outcome depends on where the window leaves the matrix and on the visitor.", "anchors": ["diagonal_matrix.go: RowMatrixAt, ColumnMatrixAt, SubMatrix, WalkIn*Order, WalkInUpdate*Order and the bounded forms"]}
{"id": "C89", "title": "Backward error of the QR decomposition", "statement": "In rounded arithmetic, when R is finite and its diagonal entries are 0 or not so small or large that their squares are lost (4 m eta <= e R_ii^2 and 4 R_ii^2 <= big, with u <= e <= 1/(100(m+4))), the matrix is finite, R is zero below its diagonal, and there is an exactly orthogonal Q such that every column of A - Q R has norm at most ((1+36(m+4)e)^p - 1) times the norm of that column of A plus 6 p (1+36(m+4)e)^p sqrt(m eta), p = min(m, n). In binary64 with p(m+4) <= 2^46 this is at most 9 p (m+4) 2^-50 ||A_j|| + 18 p sqrt(m 2^-1075).", "quantifier": "all matrices of every storage, all m, n > 0, every arithmetic with the standard rounding model, binary64 in particular", "why_tests_cant": "The bound is a statement about every matrix, ill-conditioned and rank-deficient ones included, and about a Q that the code never forms.", "anchors": ["qr_decomposition.go: NewQRDecomposition, performHouseholderReflection, R"]}
{"id": "C90", "title": "The computed orthogonal factor of the QR decomposition", "statement": "Under the hypotheses of C89, Q is the transpose of QT, and when Q is finite each of its columns differs from that of an exactly orthogonal matrix (the one of C89) by at most d = ((1+36(m+4)e)^p - 1) + 6 p (1+36(m+4)e)^p sqrt(m eta); hence |Q^T Q - I| <= 2d + d^2 entrywise and every column of A - Q R is bounded by the bound of C89 plus d times the sum of the magnitudes of that column of R. Q is not always finite: when the square of the entry of a 1 x 1 matrix underflows (2^-600 in binary64) R is 0 and Q is not finite.", "quantifier": "all matrices of every storage, all m, n > 0, every arithmetic with the standard rounding model, binary64 in particular", "why_tests_cant": "Loss of orthogonality depends on every rounding error; tests use well-scaled matrices and a tolerance.", "anchors": ["qr_decomposition.go: Q, QT, R"]}
{"id": "C91", "title": "Backward error of the rank-revealing QR decomposition", "statement": "In rounded arithmetic, when the R of the rank-revealing decomposition is finite and its diagonal meets the scaling condition of C89, the matrix is finite, R is zero below its diagonal, P is the matrix of a permutation s of the columns, and there is an exactly orthogonal matrix O such that every column j of A P - O R is bounded as in C89 with the norm of column s(j) of A; when the computed Q is finite it is near to O, its columns are nearly orthonormal, and A P is near to the computed Q R.", "quantifier": "all matrices of every storage, all m, n > 0, every arithmetic with the standard rounding model, binary64 in particular", "why_tests_cant": "Which columns are exchanged depends on rounded norms; the bound must hold whatever columns the rounded comparison picks.", "anchors": ["rrqr_decomposition.go: NewRRQRDecomposition, P", "qr_decomposition.go: performHouseholderReflection, Q, QT, R"]}
{"id": "C92", "title": "Backward error of the QR solver", "statement": "In rounded arithmetic, when R is finite, its diagonal meets the scaling condition of C89 and the answer of the QR solver is finite, the right-hand side is finite and the computed x solves exactly a nearby problem: there are E and g such that x is a least-squares solution of (A + E) x = b + g when m >= n and satisfies it exactly when m <= n, each column of E being bounded by a small multiple of the norm of that column of A plus an underflow term, and g by a small multiple of the norm of b plus an underflow term. It holds for vectors, for every column of a matrix of right-hand sides and for every column of the (pseudo-)inverse.", "quantifier": "all matrices of every storage, all m, n > 0, all right-hand sides, every arithmetic with the standard rounding model, binary64 in particular", "why_tests_cant": "A test compares with a known answer on one well-conditioned system; backward stability is a statement on every input, ill-conditioned ones included.", "anchors": ["qr_decomposition.go: qrDecompositionSolver.SolveVector, SolveMatrix, Inverse, checkSingular"]}
{"id": "C93", "title": "Backward error of the rank-revealing QR solver", "statement": "Under the conditions of C92 the solver of the rank-revealing decomposition, which applies P to the answer of the QR solver, has the same backward error with respect to the matrix A itself: multiplying by P adds no rounding error and undoes the exchanges of columns.", "quantifier": "all matrices of every storage, all m, n > 0, all right-hand sides, every arithmetic with the standard rounding model, binary64 in particular", "why_tests_cant": "The pivot order depends on rounded comparisons; the bound must hold whatever the order.", "anchors": ["rrqr_decomposition.go: rRQRDecompositionSolver.SolveVector, SolveMatrix, Inverse, P"]}
{"id": "C94", "title": "Messages of errors name their arguments", "statement": "Every constructor of an error in error.go produces the text of its pattern with each verb replaced by one argument, in order, none missing and none left over; constructors with a fixed pattern show the values that the pattern announces.", "quantifier": "all constructors, all patterns, all arguments", "why_tests_cant": "A test looks at a few messages; whether a variadic slice is spread is visible only over all patterns and numbers of arguments.", "anchors": ["error.go: patterns (37-71), mathErrorf, mathIllegalArgumentErrorf, mathIllegalNumberErrorf, mathIllegalStateErrorf and every constructor built on them"]}
{"id": "C95", "title": "Accessors and status of errors", "statement": "The accessors of an error (dimensions, row, column, threshold, argument, bounds, index, maximum) answer what its constructor was given, indices outside the stored dimensions panic, and the status code tells the type of the error.", "quantifier": "all constructors, all arguments, all pairs of errors", "why_tests_cant": "That no two types share a status is a statement on all pairs.", "anchors": ["error.go: accessors and error types", "status.go"]}
{"id": "C96", "title": "Caching of factors does not show", "statement": "A decomposition or transformer caches the factors it hands out. In every sequence of calls of its accessors and of the methods built on them (rank, square root, covariance, solvers), every call answers exactly what it would answer as the first call on a fresh object, and fails exactly when it would fail then.", "quantifier": "all decompositions, all contents, all finite sequences of calls, any arithmetic", "why_tests_cant": "The number of orders of calls is unbounded, and a stale or wrongly shared slot shows only in some of them.", "anchors": ["cachedL, cachedU, \u2026 in lu_/cholesky_/qr_/rrqr_/eigen_/singular_value_decomposition.go and the four transformers"]}
{"id": "C97", "title": "Writing to a returned factor does not change later answers", "statement": "A caller who overwrites the entries of a matrix returned by an accessor changes no later answer of the decomposition.", "quantifier": "all decompositions, all interleavings of calls and overwritings, any arithmetic", "why_tests_cant": "All interleavings of calls and writes, and every answer after them, have to be considered.", "anchors": ["the accessors that return a cached matrix, and Rank, SquareRoot, Covariance, SolveVector, SolveMatrix, Inverse, Solver, which use them"]}
{"id": "C98", "title": "Rounding errors of determinants", "statement": "In any arithmetic the determinant of the LU decomposition is the product of the diagonal of U from the left, starting at the sign of the permutation (0 when reported singular), and that of the Cholesky decomposition is the product of the squares of the diagonal. In rounded arithmetic, when the factors and the determinant are finite, the number differs from the determinant of A + E by at most ((1+u)^n-1)|det(A+E)| plus an underflow term, where E is within the bound of C82 (LU), respectively by the rounding of 2n multiplications with E symmetric and within the bound of C84, and the latter determinant is not negative.", "quantifier": "all n, all matrices with finite factors, any arithmetic with the rounding laws (binary64 is one)", "why_tests_cant": "The error must be bounded for all matrices and all roundings.", "anchors": ["lu_decomposition.go:Determinant", "cholesky_decomposition.go:Determinant"]}
{"id": "C99", "title": "LU decomposition without overflow, and what a report of singularity means", "statement": "In rounded arithmetic, for every matrix with entries of magnitude at most M with ((1+u)(2+u))^n (M+eta) <= big and a positive threshold: the decomposition ends; if the matrix is not reported singular then L and U are finite, |L_ij| <= 1, |U_ij| <= ((1+u)(2+u))^i (M+eta), |U_ii| is at least the threshold, and LU is within an explicit bound of PA; if it is reported singular, there is a singular matrix within the same bound of A, plus the threshold in one column. Hence a matrix with no singular matrix so near is not reported singular.", "quantifier": "all n, all matrices of moderate size, any arithmetic with the rounding laws", "why_tests_cant": "Absence of overflow and nearness to singularity must hold for all matrices and all sequences of pivots.", "anchors": ["lu_decomposition.go:NewLUDecompositionWithThreshold"]}
{"id": "C100", "title": "Solving by the singular value decomposition, from the matrix to the solution", "statement": "For every non-empty matrix A the construction of the singular value decomposition returns, and a single matrix A' near A explains everything that is computed from it: Rank is the rank of A', the pseudo-inverse is the Moore-Penrose inverse of A', and SolveVector returns, for every right-hand side, the least squares solution of smallest norm for A'. The distance of A' from A is bounded by the entries that the iteration neglects and the singular values that the tolerance drops, and the tolerance is bounded by its floor and max(m,n) eps times the size of the matrix.", "quantifier": "all dimensions, all real matrices of every storage of the package, all right-hand sides, all values of the constants with a positive tiny", "why_tests_cant": "Tests solve a handful of systems; that an iteration without a bound on its rounds ends for every matrix, and that one nearby matrix explains rank, pseudo-inverse and all solutions, quantifies over a continuum.", "anchors": ["singular_value_decomposition.go:31-560"]}
{"id": "C101", "title": "Backward error of the bidiagonal reduction in rounded arithmetic", "statement": "In floating point: if the entries on the two diagonals of B are finite and neither their squares nor the squares of smaller norms are lost to underflow or overflow, then the matrix A is finite, B is exactly zero off the two diagonals, and there are exactly orthogonal matrices U and V such that the Frobenius norm of A - U B VT is at most a small multiple, of order min(m,n) max(m,n) u, of that of A plus a term for underflow.", "quantifier": "all dimensions, tall and wide, all matrices of every storage, every arithmetic meeting the rounding laws, in particular binary64 with subnormals and overflow", "why_tests_cant": "A bound on rounding errors holds for all inputs or not at all; tests compare a few matrices with a tolerance and never meet the worst alignment of errors.", "anchors": ["bidiagonal_transformer.go:13-29", "bidiagonal_transformer.go:86-117", "bidiagonal_transformer.go:189-323"]}
{"id": "C102", "title": "The orthogonal factors of the bidiagonal reduction in rounded arithmetic", "statement": "In floating point: when U and V are finite too, each of their columns is within a small multiple of the unit roundoff of a column of an exactly orthogonal matrix, the same matrices that explain A by B; their columns are nearly orthonormal, and the product U B VT of the computed factors is near A. Without finite factors this fails: if the squares of a column underflow, B has a 0 and U is not finite.", "quantifier": "all dimensions, tall and wide, all matrices of every storage, every arithmetic meeting the rounding laws, in particular binary64 with subnormals and overflow", "why_tests_cant": "Near-orthogonality of accumulated products of reflections quantifies over all rounding patterns; the underflow that breaks it needs entries near 2^-540, which tests do not try.", "anchors": ["bidiagonal_transformer.go:31-84", "bidiagonal_transformer.go:119-171"]}
{"id": "C103", "title": "Backward error of the Hessenberg reduction in rounded arithmetic", "statement": "In floating point: if the entries of H are finite, then the matrix A is finite, H is exactly zero below the diagonal next to the main one, and there is an exactly orthogonal matrix P such that the Frobenius norm of A - P H PT is at most a small multiple, of order m^2 u, of that of A plus a term of order m^3 times the smallest positive number. No condition on the size of the entries is needed, because each column is scaled by the sum of its magnitudes before it is squared.", "quantifier": "all dimensions, all square matrices of every storage, every arithmetic meeting the rounding laws, in particular binary64 with subnormals and overflow, for m + 4 up to 2^23", "why_tests_cant": "A bound on rounding errors holds for all inputs or not at all; tests compare a few matrices with a tolerance and never meet the worst alignment of errors, nor columns near the underflow threshold that the code skips.", "anchors": ["hessenberg_transformer.go:46-61", "hessenberg_transformer.go:131-158", "hessenberg_transformer.go:173-228"]}
{"id": "C104", "title": "The orthogonal factor of the Hessenberg reduction in rounded arithmetic", "statement": "In floating point: if the entries of H and P are finite and every entry of H next to the diagonal is 0 or not tiny (at least m 2^-1022 in binary64), then the columns of the computed P are within about 150 m (m+4) u of those of an exactly orthogonal matrix for which A - P0 H P0T is small as in C103; hence the columns of P are nearly orthonormal and P H PT is near to A. Without the last condition the claim is false: the reduction skips a column whose sum is the smallest positive number, P does not skip it and divides 0 by 0.", "quantifier": "all dimensions, all square matrices of every storage, every arithmetic meeting the rounding laws, in particular binary64 with subnormals and overflow, for m + 4 up to 2^20", "why_tests_cant": "Orthogonality is tested for a few matrices with a tolerance; that the loss of orthogonality stays of order m^2 u whatever the matrix, and that two different tests for zero in the two loops disagree on one binary64 number only, is not seen by sampling.", "anchors": ["hessenberg_transformer.go:67-113", "hessenberg_transformer.go:173-228"]}
{"id": "C105", "title": "The solvers behind DecompositionSolver agree", "statement": "Whichever of the six decompositions a DecompositionSolver comes from, if it reports a nonsingular square matrix A then there is one invertible matrix M such that SolveVector, SolveMatrix and Inverse give the only solution of M x = b, the only solution of M X = B and the inverse of M. M = A for LU, QR and rank-revealing QR (and Cholesky with symmetry threshold 0); for Cholesky, the eigen decomposition of a matrix taken as symmetric, and the singular value decomposition, M is within an explicit distance of A, which bounds the residual. Hence any two of the exact solvers give equal answers, SolveMatrix answers column by column what SolveVector answers, no exact solver reports a singular matrix as nonsingular, and all six refuse right-hand sides of the wrong height.", "quantifier": "all n, all square matrices of every storage kind of the package, all right-hand sides, all admissible thresholds, all pairs of solvers; exact arithmetic over any ordered field with square roots", "why_tests_cant": "Each solver has its own test file with its own few matrices; that all of them implement one interface contract on every matrix, and agree pairwise, is not compared anywhere.", "anchors": ["decomposition_solver.go:19-60", "lu_decomposition.go:237-340", "cholesky_decomposition.go:161-260", "qr_decomposition.go:277-430", "rrqr_decomposition.go:158-200", "eigen_decomposition.go:305-310", "eigen_decomposition.go:707-831", "singular_value_decomposition.go:633-680"]}
{"id": "C106", "title": "Backward error of the tridiagonal reduction in floating point", "statement": "In any arithmetic with the standard rounding model (in particular IEEE binary64 with round to nearest even), if the diagonal of T handed out by the tridiagonal reduction is finite and the entries next to it are 0 or not so small or large that their squares are lost, then the upper triangle of the argument is finite, T is symmetric and tridiagonal, and there is an exactly orthogonal Q such that the symmetric matrix with this upper triangle differs from Q T Q^T by at most ((1+410(m+4)e)^(m-1)-1) of its Frobenius norm plus an underflow term.", "quantifier": "all m >= 1, all square matrices of every storage kind of the package, all arithmetics satisfying the rounding laws; binary64 for m up to about four million", "why_tests_cant": "The tests reduce three small matrices and compare Q T Q^T to a tolerance; a bound that holds for every order and every rounding behaviour of the rank-two update cannot be sampled.", "anchors": ["tridiagonal_transformer.go:181-249", "tridiagonal_transformer.go:127-152"]}
{"id": "C107", "title": "Error of the orthogonal factor of the tridiagonal reduction in floating point", "statement": "In any arithmetic with the standard rounding model, if moreover Q is finite, each column of Q differs from that of the exactly orthogonal matrix of C106 by at most ((1+36(m+4)e)^(m-1)-1) plus an underflow term, the columns of Q are nearly orthonormal (160(m-1)(m+4)2^-53 in binary64), Q T Q^T of the computed factors is near to the symmetric matrix with the upper triangle of the argument, and QT is the transpose of Q. Finiteness of Q does not follow from that of T: for the 2x2 matrix with 1 on the diagonal and 2^-600 next to it T is the identity and QT divides by 0.", "quantifier": "all m >= 1, all square matrices of every storage kind of the package, all arithmetics satisfying the rounding laws; binary64 for m up to about four million", "why_tests_cant": "The tests check Q Q^T = I to a tolerance for three small matrices; the growth of the error with the order and the underflow case cannot be sampled.", "anchors": ["tridiagonal_transformer.go:69-122", "tridiagonal_transformer.go:181-249"]}
{"id": "C108", "title": "Error of the eigen decomposition from two diagonals in floating point", "statement": "In any arithmetic with the standard rounding model, for a tridiagonal symmetric matrix T of finite entries far from overflow: if the constructor from two diagonals succeeds with finite vectors, then all eigenvalues are finite, real and sorted in descending order, the matrix V of the vectors differs from an exactly orthogonal matrix O by at most a bound that depends only on the size and the unit roundoff, O D O^T differs from T in the Frobenius norm by at most the size of T times such a bound plus an underflow term, the vectors are nearly orthonormal, and T V is near to V D. In binary64 and up to 65536 rows: |V-O| <= 2700 n^2.5 2^-53 and |T - O D O^T| <= 43000 n^2 (2^-53 |T| + 2^-1075).", "quantifier": "all n >= 1, all pairs of diagonals, every number of sweeps the iteration makes, all arithmetics satisfying the rounding laws; binary64 for n up to 65536", "why_tests_cant": "The number of rotations and their order depend on the data; tests compare a few matrices to a tolerance chosen by hand and say nothing about the growth of the error with the order or about the entries that are set to zero on the way.", "anchors": ["eigen_decomposition.go:104-125", "eigen_decomposition.go:331-490"]}
{"id": "C109", "title": "Error of the symmetric eigen decomposition in floating point", "statement": "The same as C108 for the constructor from a symmetric matrix: when the reduction to tridiagonal form is finite without harmful underflow (as in C106) and the vectors are finite, the eigenvalues are finite, real and sorted, V is near to an exactly orthogonal matrix O and O D O^T is near to the symmetric matrix that has the upper triangle of the argument. In binary64 and up to 65536 rows: |V-O| <= 3000 n^2.5 2^-53 and |A - O D O^T| <= 45000 n^2 2^-53 |A| + 400 n^2 sqrt(2^-1075).", "quantifier": "all n >= 1, all square matrices of every storage kind of the package, all arithmetics satisfying the rounding laws; binary64 for n up to 65536", "why_tests_cant": "As for C108, and the errors of the reduction, of the accumulated reflections and of the rotations combine; no finite sample bounds their sum.", "anchors": ["eigen_decomposition.go:80-86", "eigen_decomposition.go:315-326", "eigen_decomposition.go:331-490", "tridiagonal_transformer.go:181-249"]}
{"id": "C110", "title": "Constructors without thresholds and the solvers they give", "statement": "The QR and rank-revealing QR solvers made without a threshold exist for every square matrix and report exactly the matrices with a determinant other than 0 as regular. The LU solver with the default threshold reports only regular matrices as regular and reports a matrix as singular only when it becomes singular by a change of one column below the threshold; the converse fails for a regular matrix of size one. The Cholesky solver with the default thresholds exists exactly when the matrix is symmetric up to the relative threshold and all pivots exceed the absolute one, with the matching error otherwise, and always reports a regular matrix. The eigen decomposition gives a solver exactly when no imaginary part exceeds the tolerance, and panics with the unsupported-operation error otherwise.", "quantifier": "all orders n >= 1, all square matrices of every storage kind of the package, all positive default thresholds, exact arithmetic", "why_tests_cant": "A wrong default changes the answer only for matrices near to singular ones; tests use a few well-conditioned and a few exactly singular matrices, on which a wide range of defaults gives the same answers.", "anchors": ["lu_decomposition.go:50-52", "cholesky_decomposition.go:62-64", "qr_decomposition.go:50-52", "rrqr_decomposition.go:41-43", "eigen_decomposition.go:212-219", "eigen_decomposition.go:305-310"]}
{"id": "C111", "title": "Powers of a matrix in floating point neither overflow nor drift", "statement": "For a square matrix with finite entries and Frobenius norm at most N (N >= 1), the binary power algorithm with rounded arithmetic returns a matrix whose entries are all finite and which differs from the exact p-th power by at most (1+u)^((n+1)(p-1)) (N + tiny)^p - N^p in the Frobenius norm, provided this bound on the size does not exceed the overflow threshold; power 0 is the identity without error. For binary64: if N^p <= 2^1022 and p(n+2) <= 2^52, no entry overflows and the error is at most 2 p (n+2) 2^-53 N^p.", "quantifier": "all orders n >= 1, all exponents p, all matrices of every storage kind of the package with finite entries, all arithmetics with the rounding laws and binary64 in particular", "why_tests_cant": "The intermediate squares depend on the binary digits of p; tests try a few exponents on small integer matrices whose powers are computed without any rounding.", "anchors": ["real_matrix.go:490-551"]}
{"id": "C112", "title": "The square root of a symmetric positive definite matrix in floating point", "statement": "For the eigen decomposition of a symmetric matrix A, computed with rounded arithmetic, with all computed eigenvalues positive: SquareRoot returns a matrix R with finite entries, and R differs from O sqrt(D) O^T by at most an explicit bound, where O is an exactly orthogonal matrix near to the computed vectors and D holds the computed eigenvalues; the exact square of R differs from A by at most 62000 n^3 2^-53 |A| + 450 n^2 sqrt(2^-1075) in the Frobenius norm for binary64 and n <= 2^12.", "quantifier": "all orders 1 <= n <= 2^12, all symmetric binary64 matrices of every storage kind with Frobenius norm at most 2^1000 whose tridiagonal form is finite with off-diagonal entries in the range of C109, whenever the iteration ends with finite vectors and positive eigenvalues; the general bound for all arithmetics with the rounding laws", "why_tests_cant": "The existing tests compare the square of one 3x3 root with the matrix up to 1e-12; neither larger orders nor matrices of extreme scale or with close eigenvalues are tried.", "anchors": ["eigen_decomposition.go:275-296", "eigen_decomposition.go:62-98"]}
{"id": "C113", "title": "The solver of the symmetric eigen decomposition in floating point", "statement": "For the eigen decomposition of a symmetric matrix A, computed with rounded arithmetic: whatever SolveVector or SolveMatrix returns is finite only if the right-hand side B is, and if the result X is finite, A X differs from B by at most an explicit multiple of the rounding unit times |A||X| and |B|; the result of Inverse, if finite, satisfies |A X - 1| <= an explicit multiple of the rounding unit times |A| / mu where mu is the least magnitude of a computed eigenvalue. For binary64 and n <= 2^12 the factors are 48500 n^2.5 2^-53 and 3010 n^2.5 2^-53 plus terms for underflow.", "quantifier": "all orders 1 <= n <= 2^12, all symmetric binary64 matrices of every storage kind with Frobenius norm at most 2^1000 whose tridiagonal form is finite with off-diagonal entries in the range of C109, whenever the iteration ends with finite vectors; all right-hand sides of every storage kind and with any number of columns for which the result is finite; the general bounds for all arithmetics with the rounding laws, all n and all vectors near to an orthogonal matrix", "why_tests_cant": "The existing tests solve one 3x3 system and compare with the known solution up to 1e-11; the residual for other orders, right-hand sides and spectra is not examined.", "anchors": ["eigen_decomposition.go:739-761", "eigen_decomposition.go:763-800", "eigen_decomposition.go:802-831"]}
{"id": "C114", "title": "Backward error of the rectangular Cholesky decomposition in floating point", "statement": "For a symmetric matrix A the rectangular Cholesky decomposition computed with rounded arithmetic either refuses A, because no diagonal element is above the threshold or because what is left of the diagonal after some columns has no element above the threshold and one below its negative, or returns a root B that, in the order in which the rows are taken, is lower trapezoidal with positive diagonal. If B is finite, B B^T differs from A in the rows and columns of the pivots by at most ((1+u)^(n+19) - 1) |B||B|^T plus explicit terms for underflow, and on the diagonal of the remaining rows by at most (1+u)^n times the threshold more. For binary64 and a normal threshold this holds without further assumptions; the terms for underflow cannot be dropped, and matrices whose squares overflow may be refused although they are positive semidefinite.", "quantifier": "all orders n >= 1, all matrices of every storage kind that are symmetric bit by bit, all finite thresholds that are not negative, all arithmetics with the rounding laws and u <= 1/8; the unconditional form for all binary64 matrices with finite diagonal and all thresholds of at least 2^-1022", "why_tests_cant": "The existing tests check B B^T for two fixed matrices up to 1e-15 and 1e-12; the size of the error for other matrices, ranks and scales, and the behaviour with tiny or large entries, are not examined.", "anchors": ["rectangular_cholesky_decomposition.go:34-129"]}
{"id": "C115", "title": "Backward error of the singular value iteration in floating point", "statement": "The implicit QR iteration of the singular value decomposition, started with finite entries of a bidiagonal matrix B and any U and V and computed with rounded arithmetic, does not fail. If it ends within a given number of rounds with finite U' and V', all singular values are finite, not negative and sorted, and there are exactly orthogonal matrices P and Q such that U' is near to U P, V' near to V Q and B near to P S Q^T, with explicit bounds in the Frobenius norm that grow with the number of rotations times the unit round-off; neglected entries are included.", "quantifier": "all sizes n <= m, all numbers of rounds, all finite bidiagonal matrices whose norm leaves room below overflow, all U and V, all arithmetics with the rounding laws and all hypot functions with a small relative error; in binary64 for the literals of the code and the hypot of the Go library where its result is at least 2^-1000", "why_tests_cant": "The existing tests compare the factors of a few small matrices up to 1e-10 or so; they say nothing about how the error grows with the size, the number of rounds and the neglected entries.", "anchors": ["singular_value_decomposition.go:232-444"]}
{"id": "C116", "title": "Backward error of the singular value decomposition in floating point", "statement": "The reduction of a matrix to bidiagonal form with its two factors does not fail; when its results are finite, the two factors are near to exactly orthonormal columns U and V, and the matrix is near to U B V^T for the computed bidiagonal B, with an explicit bound in the Frobenius norm of about 100 n (m+2) times the unit round-off times the norm of the matrix. With the iteration (C115): the whole construction, for tall and for wide matrices, does not fail, and when it ends within a given number of rounds with finite factors, the singular values are finite, not negative and sorted, and the factors are near to exactly orthonormal columns that make up nearly the matrix.", "quantifier": "all sizes, all numbers of rounds, all matrices whose bidiagonal form is computed without overflow and whose norm leaves room below overflow, all kinds of storage, all arithmetics with the rounding laws and all hypot functions with a small relative error; in binary64 for up to 2^40 rows, the literals of the code and the hypot of the Go library where its result is at least 2^-1000", "why_tests_cant": "The existing tests compare the factors of a few small matrices; they cannot show how the errors of the reflections, of the generation of the factors and of the iteration add up for every size and every input.", "anchors": ["singular_value_decomposition.go:46-473"]}
{"id": "C117", "title": "Computed singular values and symmetric eigenvalues are near to the true ones", "statement": "Every real matrix has exactly one sorted sequence of singular values (roots of the eigenvalues of A^T A) and every symmetric one exactly one of eigenvalues. Each singular value that the decomposition returns differs from the true one of the same rank by no more than the bound of C116, and each eigenvalue of a symmetric matrix by no more than the bound of C109 (in binary64, up to 65536 rows: 45000 n^2 2^-53 |A| + 400 n^2 sqrt(2^-1075)). The norm returned by the decomposition is within the bound of the largest stretching of a vector by the matrix, and the smallest singular value within it of the smallest stretching. In exact arithmetic the bounds are those of the neglected entries.", "quantifier": "all sizes, all storages, all matrices that meet the hypotheses of C109 and C116, tall and wide, all arithmetics with the rounding laws; binary64; exact arithmetic without further hypotheses", "why_tests_cant": "A test compares the values of single matrices with values computed elsewhere; it cannot bound the error for all matrices.", "anchors": ["singular_value_decomposition.go:46-473", "singular_value_decomposition.go:594-596", "eigen_decomposition.go:315-490"]}
{"id": "C118", "title": "Rank and regularity by singular values are right in floating point up to the error bound", "statement": "When the tolerance of the decomposition is not below the error bound of its singular values, Rank is never above the rank of the matrix and IsNonSingular answers yes only for regular square matrices. When moreover no true singular value lies between 0 and the tolerance plus the bound, Rank is the rank. In binary64 this holds with the tolerance of the code as soon as the explicit bound (200 c (r+2) + 300 K) 2^-52 |A| plus a term below the underflow range, K the number of rotations allowed for, is not above the constant sqrt(2^-53) of the code; the computed singular values then differ from the true ones by no more than this bound.", "quantifier": "all sizes, all storages, all matrices that meet the hypotheses of C116, tall and wide, all arithmetics with the rounding laws; binary64 with at least as many rows as columns, at most 2^40 rows and a norm of at most 2^900", "why_tests_cant": "A test compares the rank of single matrices; that no matrix gets a rank that is too large needs the error bound for all of them.", "anchors": ["singular_value_decomposition.go:446-447", "singular_value_decomposition.go:620-629", "singular_value_decomposition.go:674-676"]}
{"id": "C119", "title": "The pseudo-inverse and solver of the singular value decomposition in floating point", "statement": "The entries of the computed pseudo-inverse are sums, in some order, of the products V(i,k) (U(j,k) w(k)) with w(k) the rounded reciprocal of the k-th singular value when that is above the tolerance and zero otherwise, in any arithmetic. When the factors are finite and the tolerance is positive, the result is within an explicit bound of the exact Moore-Penrose inverse of a matrix whose rank is what Rank returns and whose distance from the given matrix is at most the error of the decomposition plus the square root of the number of singular values times the tolerance. When all singular values are kept it is nearly a left inverse (right inverse for more columns than rows) of the given matrix itself, and both when IsNonSingular says yes. SolveMatrix and SolveVector apply it with a further explicit error. In binary64 with the tolerance of the code the pseudo-inverse never overflows.", "quantifier": "all sizes, all storages, all matrices that meet the hypotheses of C116, tall and wide, all right-hand sides, all arithmetics with the rounding laws; binary64 with at least as many rows as columns, at most 2^40 rows and a norm of at most 2^900", "why_tests_cant": "A test compares the pseudo-inverse of single matrices with a tolerance found by trial; the bound must hold for all matrices, also those where a singular value is near to the tolerance.", "anchors": ["singular_value_decomposition.go:642-664", "singular_value_decomposition.go:666-680"]}
{"id": "C120", "title": "The factors of the singular value decomposition are orthonormal up to rounding in binary64", "statement": "For every matrix of finite doubles for which the decomposition ends with finite factors, the Gram matrices of the columns of U and V differ from the identity only by an explicit multiple of the unit roundoff.", "quantifier": "all matrices of finite doubles with at least as many rows as columns, at most 2^40 rows and a norm of at most 2^900, all storages, all limits on the number of rounds", "why_tests_cant": "The claim fails only for columns in the subnormal range, which tests with ordinary numbers never reach; where it holds it must hold for all matrices.", "anchors": ["singular_value_decomposition.go:79-97", "singular_value_decomposition.go:178-230", "singular_value_decomposition.go:404-415"]}
{"id": "C121", "title": "Determinant and regularity by eigenvalues are right for a matrix near to the given symmetric one", "statement": "For a symmetric matrix, Determinant of the eigen decomposition is the determinant of a matrix near to the given one up to the rounding of n products; when IsNonSingular says yes a matrix near to the given one is regular with its eigenvalues within a factor of about 1/eps, and when it says no a singular matrix is near to the given one up to about eps times its norm.", "quantifier": "all symmetric matrices of finite doubles with at most 2^16 rows and a norm of at most 2^500, all storages, all tolerances between 2^-1000 and 1", "why_tests_cant": "Backward errors concern matrices that no run computes, and a bound must hold for all matrices and all sizes.", "anchors": ["eigen_decomposition.go:262-268", "eigen_decomposition.go:711-731", "eigen_decomposition.go:833-837"]}
{"id": "C122", "title": "IsNonSingular of an eigen decomposition accepts eigenvalues of similar magnitude", "statement": "When all eigenvalues are real and each exceeds 1.05 eps times every other one in magnitude, IsNonSingular says yes.", "quantifier": "all decompositions with finite real eigenvalues, all tolerances", "why_tests_cant": "The claim fails only for eigenvalues so small that their squares underflow, which tests with ordinary numbers never reach; where it holds it must hold for all eigenvalues.", "anchors": ["eigen_decomposition.go:711-731", "eigen_decomposition.go:833-837"]}
{"id": "C123", "title": "Condition numbers and covariance by singular values are near to the true ones in floating point", "statement": "ConditionNumber and InverseConditionNumber are finite and within explicit bounds around the quotients of the true singular values of the matrix when the smallest one exceeds the error of the computed ones. Covariance considers exactly the singular values before the first one below the bound, panics when there is none, and otherwise differs from the sum of v_i v_j / sigma^2 by no more than an explicit rounding bound.", "quantifier": "all matrices of finite doubles with at most 2^40 rows and a norm of at most 2^900, all storages; for Covariance all decompositions with finite singular values and all positive bounds", "why_tests_cant": "The true singular values are not computed by any run, and the bounds must hold for all matrices and sizes.", "anchors": ["singular_value_decomposition.go:555-587", "singular_value_decomposition.go:601-611"]}
{"id": "C124", "title": "Unit vectors are near to the true ones in floating point", "statement": "For a vector that is not zero, UnitVector and Unitize give a vector whose entries differ from those of the true unit vector by a relative error of the order of the rounding unit times the dimension; the zero vector is refused. VecCosine and Projection refuse only zero vectors.", "quantifier": "all vectors of finite doubles, all dimensions", "why_tests_cant": "The claim fails only where squares underflow or overflow, which tests with ordinary numbers never reach; where it holds it must hold for all vectors and dimensions.", "anchors": ["array_real_vector.go:346-353", "real_vector.go:276-300", "real_vector.go:473-496"]}
{"id": "C125", "title": "Cosines are near to the true ones in floating point", "statement": "For vectors of one dimension that are not zero, VecCosine gives a number that differs from the true cosine of the angle between them by an error of the order of the rounding unit times the dimension, and that lies between -1 and 1.", "quantifier": "all pairs of vectors of finite doubles, all dimensions", "why_tests_cant": "Tests compare cosines with a tolerance, so values above one by a last place and results for very large vectors go unnoticed; the bound must hold for all vectors and dimensions.", "anchors": ["real_vector.go:276-300", "real_vector.go:305-317"]}
{"id": "C126", "title": "Projections are near to the true ones in floating point", "statement": "For a second vector that is not zero, Projection gives a vector whose entries differ from those of the true orthogonal projection by an error of the order of the rounding unit times the dimension, relative to the quotient of the norms times the entry.", "quantifier": "all pairs of vectors of finite doubles, all dimensions", "why_tests_cant": "The claim fails only where squares underflow or overflow, which tests with ordinary numbers never reach; where it holds it must hold for all vectors and dimensions.", "anchors": ["real_vector.go:473-481", "real_vector.go:305-317"]}
{"id": "C127", "title": "Distances are symmetric and separate vectors in floating point", "statement": "The L2, L1 and LInf distances of two vectors do not depend on their order, also for infinite entries and NaN; where they are finite they are zero exactly when the vectors are equal; vectors of different dimensions are refused.", "quantifier": "all pairs of vectors of doubles, all dimensions", "why_tests_cant": "Separation fails only where the square of a difference underflows, and symmetry must hold for every rounding of every difference; neither is reached by samples.", "anchors": ["real_vector.go:353-368", "real_vector.go:376-389", "real_vector.go:397-410"]}
{"id": "C128", "title": "The test for symmetry is right in floating point", "statement": "isSymmetric, which selects the method of the eigen decomposition, says yes for every square matrix whose mirrored entries are the same; when it says yes mirrored entries differ by at most the tolerance times the larger magnitude up to rounding, and when it says no some pair differs by at least this up to rounding; matrices that are not square are never symmetric.", "quantifier": "all matrices of doubles, all storages and dimensions, all tolerances that are not negative", "why_tests_cant": "The answer must be right for all entries and roundings, and wrong answers come from entries that no test uses, infinities and NaN.", "anchors": ["utils.go:35-63", "eigen_decomposition.go:76-98"]}
{"id": "C129", "title": "In floating point only the zero vector and the zero matrix have norm zero", "statement": "VecNorm, VecL1Norm, VecLInfNorm, MatLInfNorm and MatFrobeniusNorm, when finite, are zero exactly if all entries are zero.", "quantifier": "all vectors and all matrices of doubles, all own storages and dimensions", "why_tests_cant": "Underflow of squares and sums must be followed for all entries, dimensions and orders of summation; tests use entries near 1.", "anchors": ["real_vector.go:276-285", "real_vector.go:323-345", "real_matrix.go:553-604"]}
{"id": "C130", "title": "Norms are monotone in floating point", "statement": "When no entry of a vector is larger in magnitude than that of another, neither VecNorm, VecL1Norm nor VecLInfNorm is larger as a double, overflow included and with no error term; the same holds for MatLInfNorm of matrices of any two storages. VecLInfNorm is at most VecL1Norm and at least every magnitude.", "quantifier": "all vectors and matrices of doubles without NaN, all dimensions and own storages", "why_tests_cant": "The order must survive every rounding and overflow in sums of any length; samples cannot show that a one-ulp inversion never happens.", "anchors": ["real_vector.go:276-285", "real_vector.go:323-345", "real_matrix.go:553-581"]}
{"id": "C131", "title": "Transposes of products agree in floating point", "statement": "The product of a dense matrix and its transpose, in whatever storages, has the same value in mirrored places, infinities and NaN included, so that isSymmetric holds for it with every tolerance that is not negative; for two matrices of one dense storage the transpose of the product is the product of the transposes in reverse order, value for value.", "quantifier": "all dense matrices of doubles, all dimensions", "why_tests_cant": "The order of summation of the plain, the blocked and the unrolled product must agree for mirrored entries of all dimensions; rounding hides a difference from tests with a tolerance.", "anchors": ["array_2d_row_real_matrix.go:174-230", "array_2d_row_real_matrix.go:418-434", "block_real_matrix.go:321-424", "block_real_matrix.go:927-963", "utils.go:35-63"]}
{"id": "C132", "title": "Operations that should commute commute in floating point", "statement": "VecDotProduct, VecCosine, Add and EBEMultiply of vectors give the same double, or the same panic, in both orders; Add of dense matrices of any two storages gives the same entries in both orders; the outer products of two vectors in both orders are transposes of each other.", "quantifier": "all vectors and all dense matrices of doubles, infinities and NaN included, all dimensions", "why_tests_cant": "The agreement is exact and must hold for all entries and for the different loops of the storages; tests compare with a tolerance.", "anchors": ["real_vector.go:291-317", "real_matrix.go:609-628", "array_real_vector.go:204-238", "array_real_vector.go:275-306", "array_2d_row_real_matrix.go:93-132", "block_real_matrix.go:196-239"]}
