# Design: a Lean 4 model of jtejido/linear and its properties

The code under study is the Go library in `/repo`, read as text. It was not
built or run. The model is in `lean/Verif`; a property `Cnn` of
`properties.jsonl` is proved by the theorems `Linear.Cnn_…`, listed in
`MANIFEST.json` and in section 6.

## 1. What is modelled, and how

**Scalars.** The code computes on `float64`. The model is polymorphic in the
scalar type through a *lawless* class `Flt` (`Verif/Base/Flt.lean`): one field
per machine operation the code uses, and no axiom about any of them. This gives
four kinds of theorems.

* *Any arithmetic*: the theorem quantifies over every `Flt` type. It uses no law
  of arithmetic, so it holds for IEEE binary64 with NaN, infinities, signed
  zeros and rounding. Storage, indexing, walks, entrywise operations, copies,
  refusals, absence of index faults and termination are of this kind.
* *Exact arithmetic*: the class `Exact K` says that the operations are those of
  a linearly ordered field, `ExactSqrt K` that `sqrt` is the root of
  non-negative numbers. `ℝ` is an instance of both, `ℚ` of the first. The
  algebraic identities (P·A = L·U, A = Q·R, …) are of this kind. They say
  nothing about rounding errors; the last kind does.
* In between: some theorems assume only laws of comparison (`OrdLaws`, `EqNaN`,
  `OrdNaN`), met by `Xq` (`Verif/Base/Xq.lean`: rationals with two infinities
  and NaN).
* *Rounded arithmetic*: the class `Rnd` (`Verif/Base/Rnd.lean`) is the standard
  model: some numbers are finite and have a real value; a finite result of
  `+`, `-`, `√` has relative error at most `u` (of the exact or of the computed
  value), of `×` and `÷` also an absolute error `η` for underflow; a finite result comes from
  finite arguments; comparisons are those of the values. `B64` is
  IEEE binary64, defined there as round-to-nearest-even of the real result with
  subnormals, overflow, infinities and NaN (the two zeros are one), and proved
  to be an instance with `u = 2^-53`, `η = 2^-1075`; its `ulpEq` is the comparison of the bits that the
  code uses (`/repo/utils.go`). `Rnd` also has laws about the smallest and the largest numbers. Error bounds (C80 and later)
  are of this kind; they assume the result to be finite and prove that the
  inputs are.

Numerical literals that are not 0, 1 or 2 (tolerances, `0.75`, …) are
parameters (`Schur.Lit`, `Svd.Lit`, `Eig.Lit`, thresholds), so the theorems hold
for all their values; where the real literal matters it is used (C77, C79).

**Slices.** `[]float64` is `Row α n` or a list, `[][]float64` is `Jag`/`Tab`.
Contents are total functions, but reading and writing go through bounds-checked
operations whose failure is Go's run-time panic; a theorem that concludes `.ok`
therefore also says that no index was out of range. `nil` is `none` where the
code tests for it.

**Failures.** `Fault` tells apart an `error` returned (`.err`), a panic with an
error of the library (`.pan`), a Go run-time panic (`.rt`) and a panic of a
caller's function (`.user`). Mutating methods keep the state they had reached
(`Mut`). An error is represented by its `Status()` code; messages and the
other fields of errors are not modelled.

**Loops.** `for i := a; i < b; i++` is `forUp a b body`, a monadic fold; other
loops have their own combinators (`Verif/Base/Outcome.lean`). A loop whose bound
depends on the data has a fuel parameter; that the result does not depend on it,
and how much is enough, is part of a theorem (C40, C42, C69), or the theorem is
about all results for every fuel.

**Interfaces.** A `RealMatrix` is a sum: row array, block, diagonal, or a foreign
implementation given by its dimensions and entries. A `RealVector` is an
`ArrayRealVector` or foreign. Foreign objects are assumed to check their
indices and to behave as documented.

**Sharing.** The value model above does not see aliasing. `Model/Heap*.lean` is a
second model for the questions about sharing (C19, C20, C47, C54): arrays on a
heap, slices as (array, offset, length, capacity), computations as state
transformers, and a refinement of the value model (`SimAt`, `RunOld`) that
carries its results over.

## 2. Trusted base

* The Lean 4 kernel. Every theorem depends on no axioms other than `propext`,
  `Classical.choice` and `Quot.sound` (checked with `#print axioms`). No axiom
  of our own, no `sorry`, no `native_decide`, no `bv_decide`, no
  `implemented_by`.
* The reading of the Go source into Lean definitions. Each definition cites file
  and lines and says where it simplifies.
* The Go language as rendered by the combinators in `Verif/Base` and
  `Verif/Model/Heap.lean`: order of evaluation, `copy`, `append`, slicing,
  `make`, nil, panics.
* Go `int` is an unbounded integer: overflow of `rows*columns` and of index
  arithmetic is ignored. `int(math.Min(float64(a), float64(b)))` is the integer
  minimum (equal below 2^53).
* The compiler is assumed not to fuse `x*y+z` (the specification allows it, and
  it happens on arm64, ppc64le, s390x, riscv64). Theorems that fix the sequence of roundings
  (C10_bits, C24_machine, …) rely on it; the others do not.
* `strconv.FormatInt(p, 2)` gives the usual digits; `complex128` division and
  `math.Hypot` are parameters.
* Memory exhaustion, goroutines and data races are not modelled.

## 3. Which functions are modelled

Every exported and unexported function of the library except those below is
modelled, function by function (`Verif/Model`):

| Go file | Lean |
|---|---|
| array_2d_row_real_matrix.go | Storage, ArrOps, Walks, More (checks: Storage) |
| block_real_matrix.go | Storage, BlkOps, Walks, More |
| diagonal_matrix.go | Storage, DiaOps, Walks, Matrix, More |
| real_matrix.go | Matrix, Walking |
| array_real_vector.go, real_vector.go | Vector, Iter |
| lu_decomposition.go | LU, HeapLU |
| cholesky_decomposition.go | Cholesky, HeapDec |
| rectangular_cholesky_decomposition.go | RectCholesky, HeapDec |
| qr_decomposition.go, rrqr_decomposition.go | QR, HeapDec, HeapMat |
| tridiagonal_/bidiagonal_/hessenberg_transformer.go | Tri, Bi, Hess, HeapDec |
| schur_transformer.go | Schur, HeapSvd |
| eigen_decomposition.go | Eigen, HeapSvd |
| singular_value_decomposition.go | Svd, HeapSvd |
| utils.go | Ulp, Eigen, DiaOps |
| the cached factors of all decompositions and transformers | Cache |
| error.go | Errors (messages, accessors), Base/Outcome (status) |

Not modelled:

* The texts of messages inside the other models: there an error is its status (`Fault`). The messages
  themselves are modelled in Model/Errors, as lists of texts and shown arguments; how `%v` prints a number is not.
* The constructors with default thresholds (`NewLUDecomposition`,
  `NewQRDecomposition`, `NewRRQRDecomposition`,
  `NewRectangularCholeskyDecomposition`, `NewDefaultCholeskyDecomposition`):
  they call the modelled constructor with a constant, and the theorems hold for
  every constant of the stated sign. The `Solver()` methods wrap the object.
* Accessors that return a field as it is (`…Ref`, `RootMatrix`,
  `SingularValues`, `RealEigenvalues`, …): in the model they are the fields.
* String output, test files.

## 4. Code and documentation at variance

Each is proved on a concrete witness (`…_false`) or described by an exact theorem.

* `NewArrayRealVectorFromTwoArrayRealVector` and its sibling do not concatenate (C46).
* `SetSubVector` copies twice and is wrong for some overlaps (C47). `SubVector`
  refuses empty windows (C22).
* `Array2DRowRealMatrix.SetRow` panics for rows other than the first unless the
  row has spare capacity (C14). Foreign vectors crash `OperateVector`, `SetRowVector`,
  … of some storages (C15, C48).
* `SetColumnVector` of row arrays discards the result of its index check; so do
  `SetSubMatrix`, `SubMatrix` and the bounded walks of diagonal matrices. Off-diagonal
  writes of zero are accepted at any index (C06, C16).
* `equalsWithULP` uses bit 31 as sign mask (C44); scaling a diagonal matrix by
  a negative number panics (C45).
* `MatLInfNorm` is the greatest column sum (C49). `Projection` modifies its argument.
* `SetSubMatrix` with an empty outer slice panics with no-data on row arrays and with an index error on blocks; for
  ragged data that do not fit, one reports the shape and the other the range (C08_class_false).
* `CopySubMatrixFromIndices` may overwrite rows before it refuses (C59).
* Cholesky: NaN below the diagonal passes the symmetry test and is ignored (C84).
* QR: when the squares of a column underflow, R gets a 0 on the diagonal although the column is not 0; `QT` then divides by that 0 and Q is not finite (C90_tiny, the 1 × 1 matrix 2⁻⁶⁰⁰). The bidiagonal reduction does the same with `U` (C102_tiny), the tridiagonal one with `Q` (C107_tiny).
* Hessenberg: `transform` skips a column when `equals(scale, 0)`, which also holds for the smallest positive number, but `P` skips it only when the entry next to the diagonal is exactly 0. For the 3 × 3 identity with 2⁻¹⁰⁷⁴ below its first diagonal entry H is the matrix itself and P divides 0 by 0 (C104_tiny).
* Rectangular Cholesky refuses the zero matrix and accepts some indefinite ones (C36). It squares entries of the
  matrix: for ((1,1),(1,1)) times 2⁻⁶⁰⁰ it answers rank 2 and a diagonal element of B Bᵀ twice that of the matrix, times
  2⁶⁰⁰ it refuses the matrix, and for 2⁻¹⁰⁷⁴ times the identity the root contains a NaN (C114_underflow, C114_overflow,
  C114_nan; threshold 0).
* The singular value decomposition takes the norm of a column with `math.Hypot`, which has no relative accuracy below the normal
  numbers: for the column (2⁻¹⁰⁷⁴, 2⁻¹⁰⁷⁴) the norm is 2⁻¹⁰⁷⁴ and the column of `U` is (-1, -1), of norm √2 (C120_refuted). The theorems
  on its rounding errors (C115 to C119) therefore take a `math.Hypot` whose results below 2⁻¹⁰⁰⁰ are replaced by NaN.
* `IsNonSingular` of the eigen decomposition squares the eigenvalues: when all of them are below 2⁻⁵⁴⁰ in magnitude it says no and the
  solver panics, also for the regular 1 × 1 matrix 2⁻⁶⁰⁰ (C122_small, C122_refuted).
  Squares that overflow have the same effect: with one eigenvalue of at least 2⁵¹³ and one of at most 2⁵¹⁰ the answer is no, also for
  the diagonal matrix (2⁵¹³, 2⁵¹⁰), whose condition number is 8 (C122_large, C122_refuted_large).
* `VecNorm` sums squares: `UnitVector`, `Unitize`, `VecCosine` and `Projection` refuse vectors with entries below 2⁻⁵⁴⁰ as zero vectors, and
  the unit vector of a vector with an entry from 2⁵¹³ on is the zero vector (C124_small, C124_small_projection, C124_large).
* `VecCosine` of (1, 1, 1) with itself is 1 + 2⁻⁵², so that its arc cosine is not a number (C125_refuted).  With an entry from 2⁵¹³ on
  and a finite dot product and second norm it is 0 whatever the angle; for (2⁶⁰⁰) and (1) the true cosine is 1 (C125_large, C125_refuted_large).
* `Projection` on a vector with an entry from 2⁵¹³ on is the zero vector when the dot product is finite; that of (1) on (2⁶⁰⁰) should be (1)
  (C126_large, C126_refuted).
* `VecDistance` of different vectors can be 0: for (2⁻⁶⁰⁰) and (0) it is (C127_refuted). The other two distances do not have this defect (C127_zero).
* `isSymmetric` says yes when mirrored entries are an infinity or NaN and any number, so that such matrices go to the symmetric method
  (C128_blind, C128_refuted).
* The Frobenius norm of a nonzero matrix is 0 when the entries are at most 2⁻⁵⁴⁰, and infinite when a finite entry is from 2⁵¹³ on
  (C129_frobenius, C129_refuted). The LInf norm does not have this defect (C129_matrix).
* `VecLInfNorm` of (2⁻⁶⁰⁰) is larger than `VecNorm`, which is 0 (C130_refuted), though it is never larger than `VecL1Norm` (C130_order).
* `Rank` of rank-revealing QR is at least 1 (C61).
* The Schur transformer gives NaN for the zero 2×2 matrix (C62) and panics for the zero
  3×3 matrix (C40).
* The eigen decomposition multiplies only real parts for the determinant (C53), its
  solver is wrong for matrices that are not symmetric (C65), and real eigenvalues may be
  reported as complex because one tolerance is relative and the other absolute (C77). A
  complex pair with imaginary part at most 1e-12 makes vectors of real eigenvalues wrong (C87).
  A regular matrix that is not symmetric and has tiny entries is refused as one of norm zero (C76_small_refused).
* The accessors return the cached matrix itself: writing to a returned factor changes later answers, among them those of
  `Rank` and the solver of rank-revealing QR, of `SquareRoot`, and of new solvers of the SVD (C97).
* Errors (C94, C95): `mathIllegalNumberErrorf` passes the slice of its other arguments without spreading it, so
  bounds appear in brackets, the range message ends in `%!v(MISSING)`, patterns with one verb get an extra argument;
  `maxIterationSimpleErrorf` does not pass the maximum; `mathIllegalStateSimpleErrorf` ignores its pattern; `addMsg`
  has a value receiver, so the message for matrices that are not positive definite never shows the index; "initial row
  after final row" is called with its arguments swapped; "not positive definite" and "too small" share a status; the
  error that refuses the dimension 0 says that its bound 0 is allowed.
* The tolerance of the SVD is never below about 1e-8 (C70); the covariance of a wide
  matrix has too few rows (C72). The iteration has no bound on its rounds; in exact
  arithmetic it always ends (C69).

## 5. Tests of the theorems

`seeded/LOG.jsonl` records edits of the model that imitate realistic bugs, the
theorems that then fail, and the theorems tightened when none did. Beside the
theorems are examples that meet their hypotheses.

## 6. Property by property

"Any arithmetic" means a theorem over every `Flt` type, machine numbers with rounding and NaN included. All theorems are in namespace `Linear`.

| Id | Status | Modelled | Proof | Theorems |
|---|---|---|---|---|
| C01 Zero-filled construction | proved | constructors of the three storages (ArrOps, BlkOps, DiaOps) | case split on the Int arguments; any arithmetic | `C01_arr`, `C01_blk`, `C01_dia` |
| C02 Construction from slices accepts exactly rectangular data | proved | construction from slices of slices, with and without copying | loop invariant over rows; refused cases by list induction; any arithmetic | `C02_arr`, `C02_arr_refused`, `C02_arr_column`, `C02_blk`, `C02_blk_refused`, `C02_dia` |
| C03 Storage choice is unobservable | proved | the factories of real_matrix.go with the 4096 switch | reduces to C01/C02 for both storages; any arithmetic | `C03_new`, `C03_fromSlices`, `C03_fromSlices_refused`, `C03_identity`, `C03_withDiagonal` |
| C04 Block layout round trip | proved | block geometry (Storage, BlkOps: layout and Data) | division and remainder arithmetic for all dimensions (Lemmas/Geometry); any arithmetic | `C04_roundTrip`, `C04_positions`, `C04_onto` |
| C05 Dense get-after-set | proved | SetEntry, AddToEntry, MultiplyEntry | frame reasoning on one index; any arithmetic | `C05_setEntry`, `C05_addToEntry`, `C05_multiplyEntry` |
| C06 Diagonal storage stays diagonal | proved | all mutators of the diagonal matrix, state kept on panic | induction over the list of calls against an abstract diagonal; any arithmetic | `C06_step`, `C06_history`, `C06_offDiagonal`, `C06_line`, `C06_lineMatrix` |
| C07 Out-of-range access is refused without effect | proved | index checks of entry access | decision logic on Int indices; any arithmetic | `C07_at`, `C07_write`, `C07_write_ok` |
| C08 Storage refinement over histories | partial | a call language interpreted on both storages | forward simulation, induction over the call list; contents and completion agree; panic classes agree except for SetSubMatrix with empty or ragged data, where the code refutes it; any arithmetic | `C08_step`, `C08_refines`, `C08_same`, `C08_faults_partial`, `C08_class_false` |
| C09 Entrywise arithmetic | proved | Add, Subtract, ScalarAdd, ScalarMultiply of dense storages | loop invariants; block tiling through Geometry; any arithmetic | `C09_add`, `C09_subtract`, `C09_scalarAdd`, `C09_scalarMultiply`, `C09_refused` |
| C10 Matrix product | proved | all product kernels, with the loop unrolled by four | loop invariants, exact sums; the row-array order of additions in any arithmetic (C10_bits) | `C10_bits`, `C10_product`, `C10_refused`, `C10_preMultiply`, `C10_preMultiply_refused` |
| C11 Matrix-vector products | proved | Operate and PreMultiply of the three storages | loop invariants, exact sums | `C11_operate`, `C11_preMultiply`, `C11_refused` |
| C12 Transpose | proved | Transpose of the three storages | loop and walk invariants; any arithmetic | `C12_transpose`, `C12_transpose_dia`, `C12_twice` |
| C13 Sub-matrix extraction and insertion | proved | SubMatrix, SetSubMatrix | window loops, for blocks the four tile cases; any arithmetic | `C13_subMatrix`, `C13_subMatrix_refused`, `C13_setSubMatrix`, `C13_setSubMatrix_refused` |
| C14 Row and column access | partial | RowAt, ColumnAt, SetRow, SetColumn | loops with slack capacity of Go rows; any arithmetic; refuted for SetRow of row arrays | `C14_rowAt`, `C14_columnAt`, `C14_read_refused`, `C14_setColumn`, `C14_setRow_partial`, `C14_setRow_false`, `C14_write_refused` |
| C15 Row/column matrices and vectors | partial | row/column matrices and vectors | loops across blocks; any arithmetic; refuted for foreign vectors on blocks | `C15_rowMatrixAt`, `C15_columnMatrixAt`, `C15_read_refused`, `C15_setRowMatrix`, `C15_setColumnMatrix`, `C15_setMatrix_refused`, `C15_setRowVector_partial`, `C15_setColumnVector_partial`, `C15_setVector_refused`, `C15_foreign_false`, `C15_rowVectorAt`, `C15_columnVectorAt`, `C15_vector_refused` |
| C16 Walks visit every cell exactly once in the declared order | proved | twelve reading walks, any stateful visitor | the trace of visits equals an explicit list of cells, without repetition and covering the range; any arithmetic | `C16_walk`, `C16_walkBounded`, `C16_refused` |
| C17 Updating walks store what the visitor returned | proved | twelve updating walks | simulation by a fold over the same list; any arithmetic | `C17_refines`, `C17_refinesBounded`, `C17_update`, `C17_updateBounded` |
| C18 Exponentiation | proved | Power with the table of squares | induction on binary digits; exact arithmetic | `C18_power`, `C18_refused` |
| C19 Copies are independent | proved | heap of arrays, slices as descriptors (Model/Heap) | frame lemmas, induction over interleaved writes; any arithmetic | `C19_vector_copy`, `C19_vector_toArray`, `C19_vector_new`, `C19_vector_sub`, `C19_matrix_copy`, `C19_matrix_data`, `C19_matrix_new`, `C19_matrix_rowAt`, `C19_matrix_columnAt`, `C19_block_copy`, `C19_block_data`, `C19_diagonal_copy`, `C19_diagonal_data` |
| C20 References alias | proved | the same heap | simulation of both handles by one object; any arithmetic | `C20_vector_new`, `C20_vector_dataRef`, `C20_matrix_new`, `C20_matrix_dataRef`, `C20_diagonal`, `C20_block`, `C20_sharedRows` |
| C21 Entrywise vector arithmetic | proved | vector arithmetic for known and foreign arguments | list induction; any arithmetic | `C21_binary`, `C21_map`, `C21_mapFun` |
| C22 Vector append and slice laws | partial | Append, SubVector, SetSubVector | list lemmas; refuted for empty windows; any arithmetic | `C22_append`, `C22_subVector`, `C22_roundtrip_partial`, `C22_setSubVector`, `C22_false` |
| C23 Vector equality is an equivalence | proved | Equals, IsNaN, IsInf of vectors | laws of comparison as hypotheses (EqNaN), met by a type with NaN and infinities | `C23_special`, `C23_equals`, `C23_equivalence`, `C23_foreign` |
| C24 Dot product and norms | proved | dot product, norms, distances, cosine | summation order in any arithmetic, values in exact arithmetic | `C24_machine`, `C24_distance`, `C24_exact`, `C24_lInfDistance`, `C24_cosine` |
| C25 Extremum index | proved | MinIndex, MaxIndex and values | order laws as hypotheses (OrdNaN), met by a type with NaN | `C25_min`, `C25_max` |
| C26 Unit vector and projection | proved | UnitVector, Unitize, Projection | algebra on finite sums; exact arithmetic | `C26_unit`, `C26_projection` |
| C27 LU factorisation | proved | NewLUDecomposition, L, U, P | loop invariant over columns with row permutation; exact arithmetic | `C27_factors`, `C27_square`, `C27_pivots` |
| C28 LU determinant | proved | Determinant of LU | product of pivots and sign of the permutation, Mathlib `det`; exact arithmetic | `C28_determinant`, `C28_isNonSingular` |
| C29 LU solve and inverse | proved | LU solver | triangular substitution invariants; exact arithmetic | `C29_vector`, `C29_matrix`, `C29_inverse`, `C29_refuse` |
| C30 Cholesky factorisation | proved | NewCholeskyDecomposition, L, LT | Schur complement invariant; exact arithmetic | `C30_factors` |
| C31 Cholesky accepts exactly the positive definite matrices | proved | the checks and errors of Cholesky | equivalence with positive definiteness by completing squares; exact arithmetic | `C31_iff`, `C31_errors`, `C31_square`, `C31_thresholds`, `C31_isNonSingular` |
| C32 Cholesky determinant and solve | proved | Cholesky determinant and solver | triangular substitution; exact arithmetic | `C32_determinant`, `C32_vector`, `C32_matrix`, `C32_inverse`, `C32_refuse` |
| C33 QR factorisation | proved | QR: construction, Q, QT, R, H | products of Householder reflections; exact arithmetic | `C33_factors`, `C33_h` |
| C34 QR least squares | proved | QR solver | least squares by orthogonality; exact arithmetic | `C34_isNonSingular`, `C34_vector`, `C34_matrix`, `C34_inverse`, `C34_refuse` |
| C35 Rank-revealing QR | proved | rank-revealing QR | as C33 with a permutation invariant and a norm argument; exact arithmetic | `C35_factors` |
| C36 Rectangular Cholesky | partial | rectangular Cholesky | pivoted Schur complement invariant; exact arithmetic; full claim refuted | `C36_posSemi_partial`, `C36_threshold_partial`, `C36_symmetric_partial`, `C36_safe`, `C36_false_zero`, `C36_false_indefinite` |
| C37 Tridiagonal reduction | proved | TriDiagonalTransformer | reflections applied on both sides of the upper triangle; exact arithmetic | `C37_factors`, `C37_symmetric`, `C37_upper`, `C37_square` |
| C38 Bidiagonal reduction | proved | BiDiagonalTransformer | reflections from the left and right, both shapes; exact arithmetic | `C38_factors` |
| C39 Hessenberg reduction | proved | HessenbergTransformer | reflections as a similarity; exact arithmetic | `C39_factors`, `C39_square` |
| C40 Schur iteration always ends without index errors | proved | SchurTransformer with fuel for the outer loop | a measure shows that 101 n rounds are enough and more change nothing; any arithmetic | `C40_ends`, `C40_square`, `C40_small`, `C40_zero_panics`, `C40_hundred`, `C40_triangular` |
| C41 Symmetric eigenvalues are sorted | proved | symmetric eigen decomposition | plane rotations as a similarity; deflation error in Frobenius norm; selection sort; exact arithmetic | `C41_decomposition`, `C41_pairs`, `C41_exact`, `C41_symmetric`, `C41_tridiagonal` |
| C42 Symmetric eigen iteration always ends | proved | QL iteration with counter | measure on eigenvalue and counter; any arithmetic | `C42_ends`, `C42_thirty`, `C42_constructor`, `C42_tridiagonal`, `C42_two`, `C42_diagonal` |
| C43 Singular values are non-negative and sorted | proved | sorting phase of the SVD | bubble invariant; comparisons of a total order only | `C43_sorted` |
| C44 ULP comparison | partial | equalsWithULP on 64-bit patterns | arithmetic on `BitVec 64`; refuted on every platform | `C44_partial`, `C44_sound_partial`, `C44_reflexive`, `C44_false` |
| C45 Diagonal scaling | partial | ScalarMultiply of diagonal matrices | exact condition on the sign bit; refuted for negative scalars | `C45_partial`, `C45_false` |
| C46 Vector concatenation constructor | partial | the two-vector constructor as coded | the list it returns, for all arguments; refuted as concatenation | `C46_partial`, `C46_false`, `C46_nil` |
| C47 Overlapping sub-vector assignment | partial | SetSubVector on the heap with overlap | exact result for every overlap; refuted in general | `C47_exact`, `C47_setSubVector_partial`, `C47_setSubSlice`, `C47_false` |
| C48 Vectors of any implementation are accepted | partial | OperateVector, PreMultiplyVector with foreign vectors | evaluation; refuted for block storage | `C48_array`, `C48_diagonal_partial`, `C48_false` |
| C49 Matrix norms | partial | MatLInfNorm, MatFrobeniusNorm | walk with state; LInf refuted; exact arithmetic | `C49_lInf_partial`, `C49_frobenius`, `C49_lInf_false` |
| C50 Diagonal inverse | proved | Inverse of diagonal matrices | entrywise; exact arithmetic | `C50_inverse` |
| C51 Outer product and trace | proved | OuterProduct, Trace | loop invariants; any arithmetic | `C51_outer`, `C51_outer_refused`, `C51_trace`, `C51_trace_refused` |
| C52 Matrix equality | proved | Equals of matrices | loop with early exit; any arithmetic | `C52_equals`, `C52_equivalence` |
| C53 Eigen determinant | partial | Determinant of the eigen decomposition | Mathlib `det` and C41; refuted for general matrices | `C53_product`, `C53_symmetric_partial`, `C53_general_false` |
| C54 Decomposition leaves its input unchanged | proved | all eleven constructors on the heap | the heap program refines the value program and writes only new arrays (`RunOld`); any arithmetic | `C54_lu`, `C54_cholesky`, `C54_rectCholesky`, `C54_qr`, `C54_rrqr`, `C54_tridiagonal`, `C54_hessenberg`, `C54_bidiagonal`, `C54_svd`, `C54_schur`, `C54_eigen` |
| C55 SVD pseudo-inverse | proved | SVD solver | Penrose equations, then least squares of smallest norm; exact arithmetic | `C55_penrose`, `C55_vector`, `C55_matrix` |
| C56 Vector walks | proved | vector walks | as C16/C17; any arithmetic | `C56_walk`, `C56_update` |
| C57 Vector construction, entry access and whole-vector writes | proved | vector constructors and entries | list lemmas; any arithmetic | `C57_entry`, `C57_whole`, `C57_construct` |
| C58 Decompositions never fault on their own indices | proved | the seven direct decompositions | every loop body is shown free of index faults; any arithmetic | `C58_lu`, `C58_cholesky`, `C58_qr`, `C58_rrqr`, `C58_tri`, `C58_bi`, `C58_hess` |
| C59 Submatrices by index lists and into caller's slices | partial | CopySubMatrix, CopySubMatrixFromIndices, SubMatrix | loop invariants on ragged destinations; refuted for one refusal; any arithmetic | `C59_copy`, `C59_copy_refused`, `C59_indices`, `C59_indices_refused`, `C59_indices_false`, `C59_subMatrix`, `C59_subMatrix_refused` |
| C60 Rank-revealing QR solver | proved | RRQR solver | C34 with the permutation; exact arithmetic | `C60_isNonSingular`, `C60_vector`, `C60_matrix`, `C60_inverse`, `C60_refuse` |
| C61 Rank of the rank-revealing QR decomposition | partial | RRQR Rank | rank of the trailing block; refuted for zero; exact arithmetic | `C61_rank_partial`, `C61_false` |
| C62 Schur vectors are orthonormal and the trace is kept | proved | Schur: P and trace | invariant of the iteration: reflections and rotations; exact arithmetic | `C62_orthogonal`, `C62_zero_false` |
| C63 Shape of the Schur form | proved | Schur: shape of T | invariant of the iteration; any arithmetic | `C63_shape` |
| C64 Accessors and branch choice of the eigen decomposition | proved | V, VT, D and the branch of the eigen decomposition | loop invariants; any arithmetic; positions of pairs exact | `C64_vectors`, `C64_product`, `C64_branch`, `C64_diagonal`, `C64_general` |
| C65 Eigen solver | proved | eigen solver | spectral form of the inverse; exact arithmetic; refuted beyond symmetric | `C65_isNonSingular`, `C65_inverse`, `C65_vector`, `C65_matrix`, `C65_refused`, `C65_general_false` |
| C66 Matrix square root | proved | SquareRoot | spectral form; exact arithmetic | `C66_squareRoot`, `C66_refused` |
| C67 SVD construction never faults | proved | SVD construction | every read and write in range, through all phases; any arithmetic | `C67_safe` |
| C68 SVD factors | proved | SVD factors | orthogonal transformations and a bound on the neglected entries; exact arithmetic | `C68_factors`, `C68_exact` |
| C69 SVD iteration ends | proved | SVD main loop with fuel | potential argument: every QR step with the shift of the code multiplies the square of the last product of neighbours times the one before by at most 13/20 (Lemmas/SvdConv.lean), all other rounds finish a column or clear an entry; result independent of fuel by induction on it | `C69_ends`, `C69_rounds`, `C69_small`, `C69_fuel` |
| C70 SVD rank and non-singularity | proved | SVD rank and non-singularity | Mathlib `rank`; exact arithmetic | `C70_rank`, `Svd.rank_count`, `C70_isNonSingular`, `C70_inverse`, `C70_floor_false` |
| C71 SVD norm and condition number | proved | SVD norm and condition number | supremum of |Ax|/|x|, attained; exact arithmetic | `C71_norm`, `C71_cond` |
| C72 SVD covariance | proved | SVD covariance | V J VT; exact arithmetic | `C72_covariance`, `C72_normal`, `C72_wide_false` |
| C73 SVD accessors | proved | SVD accessors | any arithmetic | `C73_accessors` |
| C74 Vector iterators | proved | vector iterators interleaved with mutators | induction over the calls; any arithmetic | `C74_iterator`, `C74_drain`, `C74_writes` |
| C75 Block matrices from block data | proved | NewBlockRealMatrixFromBlockData | geometry; any arithmetic | `C75_accepts`, `C75_entries`, `C75_covered`, `C75_roundTrip` |
| C76 Eigenvalues of general matrices | proved | general eigenvalues | blocks of the quasi-triangular form, characteristic polynomial over the complex numbers | `C76_ends`, `C76_arith`, `C76_square`, `C76_reads`, `C76_trace`, `C76_small`, `C76_result`, `C76_spectrum`, `C76_small_refused` |
| C77 Pairing of eigenvalues | partial | pairing of eigenvalues | witness with the literals of the code | `C77_pairs_false`, `C77_pairs_partial` |
| C78 Backward error of the Schur form | proved | Schur: all branches of the iteration | invariant: P V PT stays within a growing bound of A, where V is T with neglected entries cleared; exact arithmetic | `C78_backward`, `C78_factor` |
| C79 Backward error of general eigenvalues | proved | eigenvalues from the Schur form | C76 and C78; real matrices | `C79_spectrum` |
| C80 Rounding errors of inner products, norms and distances | proved | VecDotProduct, norms, distances, trace, Frobenius norm | any summation tree (`SumOf`), induction; standard rounding model | `C80_dot`, `C80_norms`, `C80_distances`, `C80_matrix` |
| C81 Rounding errors of products | proved | Multiply, Operate, PreMultiply of all storages | each entry is a summation tree over the products; standard rounding model | `C81_product_terms`, `C81_vector_terms`, `C81_product`, `C81_vector` |
| C82 Backward error of the LU decomposition | proved | LU construction | the exact operation sequence as loop invariant, then repeated subtraction (`lsub_prods`); any arithmetic, then standard rounding model | `C82_recurrence`, `C82_backward` |
| C83 Residual of the LU solver | proved | LU SolveVector, SolveMatrix, Inverse | the operation sequence of both substitutions (`fwdBits`, `bwdBits`), then error bounds; standard rounding model | `C83_vector`, `C83_matrix`, `C83_inverse` |
| C84 Backward error of the Cholesky decomposition | proved | Cholesky construction | the exact operation sequence as loop invariant (`Chol.RInv`), uniqueness of the recurrence, then repeated subtraction, root and rounded reciprocal; any arithmetic, then standard rounding model | `C84_outcome`, `C84_upper`, `C84_backward`, `C84_symmetric`, `C84_nan` |
| C85 Residual of the Cholesky solver | proved | Cholesky SolveVector, SolveMatrix, Inverse | the operation sequence of both substitutions, then error bounds; standard rounding model | `C85_vector`, `C85_matrix`, `C85_inverse` |
| C86 Eigenvectors of general matrices | proved | vectors of general matrices: back substitution, product with P | invariant of the back substitution: the equations of the rows done so far hold for the quasi-triangular table; then similarity to a matrix near A (C79) | `C86_vectors`, `C86_product` |
| C87 Residual of real eigenvalues and their vectors | partial | vectors of general matrices | from C86 by the Cauchy-Schwarz inequality; witness by evaluation of the model with the literals of the code | `C87_residual_partial`, `C87_residual_false` |
| C88 Lines, windows and walks of diagonal matrices | proved | lines, windows, reading and changing walks of the diagonal storage | case analysis of the checks; the nested loops are one loop over an explicit list of cells, then induction over the list | `C88_lineMatrix`, `C88_subMatrix`, `C88_walk`, `C88_change` |
| C89 Backward error of the QR decomposition | proved | the decomposition and R, operation by operation, over the rounding model `Rnd` | one computed reflection differs from the exact reflection along the computed vector by a relative 36(m+4)e (Lemmas/RoundHH, RoundQR: error of the norm, of the head, of the dot product, of the update); induction over the steps with the product of the exact reflections | `C89_backward`, `C89_linear`, `C89_binary64` |
| C90 The computed orthogonal factor of the QR decomposition | proved | Q and QT over the rounding model | the rows of QT go through the same reflections downwards; induction with the partial products; Cauchy-Schwarz for the Gram matrix; the exception by following the operations | `C90_near`, `C90_factors`, `C90_underflow`, `C90_tiny` |
| C91 Backward error of the rank-revealing QR decomposition | proved | the rank-revealing decomposition, P, Q, QT and R over the rounding model `Rnd` | the invariant of C89 is carried through the column exchanges (Lemmas/RoundRRQR), then the proofs of C89 and C90 | `C91_factors` |
| C92 Backward error of the QR solver | proved | the QR solver (vector, blocked matrix, inverse) over the rounding model `Rnd` | law-free bit-level description of the solver (Lemmas/QRSolveBits), the reflections of the right-hand side as exact orthogonal maps up to error (Lemmas/RoundHH, RoundQRSolve), backward error of the substitution moved into R and through the exact orthogonal factor | `C92_vector`, `C92_matrix`, `C92_inverse`, `C92_binary64` |
| C93 Backward error of the rank-revealing QR solver | proved | the rank-revealing QR solver and P over the rounding model | C92 on the permuted columns; a row of a permutation matrix has one entry that is not zero, so its dot product is exact (`Spec.DotOf.pick`) | `C93_vector`, `C93_matrix`, `C93_inverse` |
| C94 Messages of errors name their arguments | partial | all of error.go: patterns as lists of literals and verbs, arguments, errors as structures, `fmt.Sprintf` for the verbs that are used | induction over the pattern (`sprintf_filled`); refutations for all arguments | `C94_filled_partial`, `C94_number_false`, `C94_pattern_false`, `C94_number_messages`, `C94_rows_false` |
| C95 Accessors and status of errors | partial | the error types, their fields and accessors, the status | evaluation of the constructors for all arguments; case analysis over pairs of types | `C95_accessors`, `C95_status_partial`, `C95_status_false`, `C95_bound_false` |
| C96 Caching of factors does not show | proved | objects with one slot per cached factor; accessors and dependent methods as steps (Model/Cache) | induction over the calls with an invariant on the slots | `C96_lu`, `C96_chol`, `C96_qr`, `C96_rrqr`, `C96_tri`, `C96_bi`, `C96_hess`, `C96_schur`, `C96_eig`, `C96_svd` |
| C97 Writing to a returned factor does not change later answers | partial | the same, with client writes to handed-out matrices as further actions | induction over the actions; the invariant is conditioned on what has been overwritten; refutations by evaluation | `C97_lu_partial`, `C97_chol_partial`, `C97_qr_partial`, `C97_rrqr_partial`, `C97_tri_partial`, `C97_bi_partial`, `C97_hess_partial`, `C97_schur_partial`, `C97_eig_partial`, `C97_svd_partial`, `C97_lu_shared`, `C97_chol_shared`, `C97_qr_shared`, `C97_rrqr_false`, `C97_rank_false`, `C97_sqrt_false`, `C97_svd_false` |
| C98 Rounding errors of determinants | proved | LU.determinant and Chol.determinant in rounded arithmetic | majorants by induction over the factors, with C82 and C84 for the factors | `C98_lu_product`, `C98_lu`, `C98_chol_product`, `C98_chol` |
| C99 LU decomposition without overflow, and what a report of singularity means | proved | LU.new in rounded arithmetic | invariant on finiteness and growth over the columns; a stopped column gives the exact factors of a nearby matrix, to which the argument of C27 applies | `C99_total`, `C99_regular` |
| C100 Solving by the singular value decomposition, from the matrix to the solution | proved | singular value decomposition, from matrix to solution | C69 for the end of the iteration, C68 for the factors, singular values within the tolerance replaced by 0, Penrose equations | `C100_solve` |
| C101 Backward error of the bidiagonal reduction in rounded arithmetic | proved | bidiagonal reduction in rounded arithmetic | each pass is an exact reflection up to a columnwise error, carried to the Frobenius norm through the left and right products by induction over the passes | `C101_backward`, `C101_linear`, `C101_binary64` |
| C102 The orthogonal factors of the bidiagonal reduction in rounded arithmetic | proved | U and V of the reduction in rounded arithmetic | induction over the accumulation, columnwise; products of near-orthogonal factors | `C102_near`, `C102_factors`, `C102_underflow`, `C102_tiny` |
| C103 Backward error of the Hessenberg reduction in rounded arithmetic | proved | Hessenberg reduction in rounded arithmetic | the scaled column is near its exact multiple, so each round is an exact two-sided reflection up to an error in the Frobenius norm; a skipped column is below three units of underflow; induction over the rounds | `C103_backward`, `C103_linear`, `C103_binary64` |
| C104 The orthogonal factor of the Hessenberg reduction in rounded arithmetic | proved | Hess.p in rounded arithmetic | the vector used by P is the stored column with its head, near to the exact Householder vector up to scale; each round is an exact reflection of each column up to 70 (m + 4) e of its norm; induction downwards over the rounds of the accumulation, against the product of the same reflections as in C103 | `C104_near`, `C104_factors`, `C104_binary64`, `C104_skip`, `C104_tiny` |
| C105 The solvers behind DecompositionSolver agree | proved | the interface DecompositionSolver, the six Solver methods, the default constructors | one specification `Solves M s`; by cases on the constructor from C29, C32, C34, C60, C41+C65, C55+C68+C70; Cauchy-Schwarz for the residual; uniqueness for the agreement | `C105_solves`, `C105_residual`, `C105_agree`, `C105_columns`, `C105_singular`, `C105_refuse` |
| C106 Backward error of the tridiagonal reduction in floating point | proved | the rounds of `transform` (signed norm, beta A v, gamma, rank-two update of the upper triangle) and T, law-free | forward error of z, gamma and the rank-two update in the Frobenius norm (`Rank2`), so one round is near to an exact reflection from both sides; induction over the rounds | `C106_backward`, `C106_linear`, `C106_binary64` |
| C107 Error of the orthogonal factor of the tridiagonal reduction in floating point | proved | `QT` and `Q` (rows accumulated from the last reflection), law-free | forward error of one row of the accumulation (`Tri.QStep.rows`, both ways the code forms the factor), induction over the reflections in the column norm of the transpose; concrete binary64 witness for the underflow | `C107_near`, `C107_factors`, `C107_binary64`, `C107_underflow`, `C107_tiny` |
| C108 Error of the eigen decomposition from two diagonals in floating point | proved | `NewEigenDecompositionFromTridiagonal` and `findEigenVectors` with its sweeps, sorting and clean-up, law-free | backward error of one plane rotation on the tridiagonal matrix (also when products underflow) and on the vectors, of one sweep, of a deflation, of the removal of small entries; an invariant over the sweeps (`Eig.Inv`: near to an orthogonal similarity of the start), sorting as an exact permutation; norm bounds for the exit | `C108_tridiagonal`, `C108_binary64` |
| C109 Error of the symmetric eigen decomposition in floating point | proved | the symmetric branch of `NewEigenDecomposition`, law-free | the start of C108 is the rounded tridiagonal form and its accumulated factor, for which C106 and C107 give the exactly orthogonal matrix from which the invariant of C108 starts | `C109_symmetric`, `C109_pairs`, `C109_binary64` |
| C110 Constructors without thresholds and the solvers they give | proved | the four constructors with defaults, `Solver` of the eigen decomposition, `IsNonSingular` of each solver | from C34, C60, C27/C28 and C31 at the default thresholds; regularity as determinant by linear algebra; for LU a law-free invariant that no accepted pivot is below the threshold (`C27_pivots`) | `C110_qr`, `C110_rrqr`, `C110_lu`, `C110_lu_small`, `C110_chol`, `C110_eigen` |
| C111 Powers of a matrix in floating point neither overflow nor drift | proved | `Power` of every storage kind, through the products of C81 | a relation respected by products holds for the result of the binary power algorithm (`Mat.power_rel`); the relation bounds the distance to the exact power and rules out overflow (`Spec.DotOf.fine`) | `C111_power`, `C111_linear`, `C111_binary64` |
| C112 The square root of a symmetric positive definite matrix in floating point | proved | `SquareRoot` of the symmetric eigen decomposition with its square roots, the diagonal matrix and the two products, law-free | the error of a rounded product in the Frobenius norm without overflow (`Mat.multiply_fro`) applied twice; orthogonal matrices keep the norm; the distance of the computed vectors to an orthogonal matrix from C109 | `C112_squareRoot`, `C112_squared`, `C112_binary64` |
| C113 The solver of the symmetric eigen decomposition in floating point | proved | `SolveVector`, `SolveMatrix` and `Inverse` of the symmetric eigen decomposition; what they compute is stated law-free as left-to-right sums | the errors of the two nested rounded sums in the Frobenius norm; the coefficients V^T B / d are bounded back by the computed X, so that the bound does not depend on the condition number; the distance of the computed vectors to an orthogonal matrix and that of A to O D O^T from C109 | `C113_vector_terms`, `C113_matrix_terms`, `C113_inverse_terms`, `C113_matrix`, `C113_vector`, `C113_inverse`, `C113_matrix_binary64`, `C113_vector_binary64`, `C113_inverse_binary64` |
| C114 Backward error of the rectangular Cholesky decomposition in floating point | proved | `NewRectangularCholeskyDecompositionWithThreshold` with its pivoting, its early end and its errors | an invariant of the loop that records every operation in the order of the pivots (no laws used); the error of each off-diagonal entry as for Cholesky; on the diagonal the code subtracts (x x)(1/d) and not the square of the entry of the root, and the distance of the two is bounded relatively; in binary64 what is left of a diagonal is finite or minus infinity, and the last check excludes the latter | `C114_outcome`, `C114_backward`, `C114_binary64`, `C114_underflow`, `C114_overflow`, `C114_nan` |
| C115 Backward error of the singular value iteration in floating point | proved | the whole iteration of the singular value decomposition: both searches, deflation, splitting, the QR step with its chase, the signs and the order | an invariant of the loop: the state is finite and represents an orthogonal transformation of B up to a budget of rotations; every rotation made with hypot is near to an exact one, and the entries the code sets to zero are within the thresholds; when a rotation is not finite U or V is not finite at the end. math.Hypot is modelled from the Go library (p sqrt(1+q²)); the theorem uses it where its result is at least 2⁻¹⁰⁰⁰ and replaces it by NaN elsewhere, since below that it has no relative accuracy | `C115_iteration`, `C115_binary64` |
| C116 Backward error of the singular value decomposition in floating point | proved | the reduction to bidiagonal form, the generation of U and V and the whole constructor of the singular value decomposition | the vector the code stores for a reflection is near to one that gives an exact reflection, and applying it is near to applying that one; invariants of the three loops bound the distance to the product of the exact reflections; finite results imply that all intermediate values used were finite; joined with C115. Finiteness of the bidiagonal form is a hypothesis, since math.Hypot below 2⁻¹⁰⁰⁰ is replaced by NaN as in C115 | `C116_reduction`, `C116_core`, `C116_tall`, `C116_wide`, `C116_binary64` |
| C117 Computed singular values and symmetric eigenvalues are near to the true ones | proved | the values returned by the singular value and the symmetric eigen decomposition | Weyl's inequalities, proved in Lemmas/Weyl.lean by counting dimensions, applied to C116, C109, C68 and C41; existence of the true values from the spectral theorem of Mathlib, uniqueness from Weyl's inequalities. For wide matrices the true values are those of the transposed matrix | `C117_values`, `C117_tall`, `C117_wide`, `C117_symmetric`, `C117_binary64_svd`, `C117_binary64_symmetric`, `C117_exact_svd`, `C117_exact_symmetric` |
| C118 Rank and regularity by singular values are right in floating point up to the error bound | proved | tolerance, Rank and IsNonSingular of the singular value decomposition | the rank is the number of positive singular values (from the Gram matrix and the spectral theorem); C117 compares them with the computed ones, C67 gives the tolerance of the code, and the bound of C117 is made linear by Bernoulli's inequality | `C118_tall`, `C118_wide`, `C118_binary64`, `C118_tolerance`, `C117_binary64_explicit` |
| C119 The pseudo-inverse and solver of the singular value decomposition in floating point | proved | pseudo-inverse and solver of the singular value decomposition | the terms of the two products (law-free); the rounding errors of reciprocal, products and sums are bounded in the Frobenius norm against the exact factors of C116, for which the four Penrose equations are proved; the binary64 case takes the tolerance from C118 and bounds all intermediate values | `C119_terms`, `C119_near`, `C119_tall`, `C119_wide`, `C119_solve`, `C119_finite`, `C119_binary64` |
| C120 The factors of the singular value decomposition are orthonormal up to rounding in binary64 | partial | the whole construction of the singular value decomposition with `math.Hypot` in binary64 | the run on a column of two numbers is computed symbolically in any arithmetic and evaluated in binary64 for the smallest positive number; the partial claim follows from C116 and the linear bounds of C118 and C119 | `C120_refuted`, `C120_partial` |
| C121 Determinant and regularity by eigenvalues are right for a matrix near to the given symmetric one | proved | `Determinant`, `IsNonSingular` and `eigenvalueNormAt` on decompositions of symmetric matrices, in rounded arithmetic and binary64 | the product is expanded without laws and bounded by the error bound of C98; the magnitudes, their maximum and the tests are bounded step by step; C109 supplies the orthogonal frame that turns statements about eigenvalues into statements about matrices near to the given one | `C121_determinant_terms`, `C121_determinant`, `C121_values`, `C121_regular`, `C121_binary64` |
| C122 IsNonSingular of an eigen decomposition accepts eigenvalues of similar magnitude | partial | `IsNonSingular` and `eigenvalueNormAt` in rounded arithmetic, and the decompositions of a matrix with one entry and of a diagonal matrix with two | products below the smallest number are shown to be zero, so the maximum is zero, and products from 2^1025 on to be infinite, so the maximum is infinite; the runs on one and two numbers are computed symbolically in any arithmetic; the partial claim follows from C121 | `C122_small`, `C122_refuted`, `C122_large`, `C122_refuted_large`, `C122_partial` |
| C123 Condition numbers and covariance by singular values are near to the true ones in floating point | proved | `cond`, `invCond` and `covariance` of the singular value decomposition in every arithmetic, in rounded arithmetic and in binary64 | the results are expanded without laws (the covariance through the walk over a window of `Vᵀ` and the product of C81); quotients of perturbed numbers are bounded, with C117 supplying the perturbation; the covariance is bounded as a rounded scalar product of rounded quotients | `C123_condition_terms`, `C123_condition`, `C123_covariance_terms`, `C123_covariance`, `C123_binary64` |
| C124 Unit vectors are near to the true ones in floating point | partial | `Unitize`, `UnitVector`, `VecCosine`, `Projection` in every arithmetic, in rounded arithmetic and in binary64 | the operations are exposed without laws; sums of vanishing squares are zero and sums with an overflowing square infinite by induction over the entries; the bound follows from that of the norm (C80) and the error of one division | `C124_terms`, `C124_small`, `C124_small_projection`, `C124_large`, `C124_refuted`, `C124_partial` |
| C125 Cosines are near to the true ones in floating point | partial | `VecCosine` in every arithmetic, in rounded arithmetic and in binary64 | the operations are exposed without laws; the bound combines those of the norms and the dot product (C80) with the Cauchy-Schwarz inequality and the errors of one product and one division; the witnesses are evaluated bit by bit | `C125_terms`, `C125_large`, `C125_refuted`, `C125_refuted_large`, `C125_partial` |
| C126 Projections are near to the true ones in floating point | partial | `Projection` in every arithmetic, in rounded arithmetic and in binary64 | the operations are exposed without laws; the bound combines those of the two dot products (C80) with the Cauchy-Schwarz inequality and the errors of one division and one product | `C126_terms`, `C126_large`, `C126_refuted`, `C126_partial` |
| C127 Distances are symmetric and separate vectors in floating point | partial | `VecDistance`, `VecL1Distance`, `VecLInfDistance` in every arithmetic, in rounded arithmetic and in binary64 | the operations are exposed without laws; rounding to nearest, ties to even, is odd, so differences are antisymmetric; sums and maxima of magnitudes vanish only if all terms do, by induction over the entries | `C127_terms`, `C127_symmetric`, `C127_zero`, `C127_refuted`, `C127_partial` |
| C128 The test for symmetry is right in floating point | partial | `isSymmetric` in every arithmetic, in rounded arithmetic and in binary64 | the two loops with early exit are characterised by an invariant without laws of arithmetic; the bounds follow from the errors of one difference and one product; infinities and NaN by cases | `C128_terms`, `C128_symmetric`, `C128_blind`, `C128_refuted`, `C128_partial` |
| C129 In floating point only the zero vector and the zero matrix have norm zero | partial | the five norms in rounded arithmetic, the Frobenius norm also in binary64 | a sum of numbers that are not negative is zero only if all are, by induction on the sum with one rounding per step; the maximum likewise; the walk of the matrix visits every cell (C16) | `C129_vector`, `C129_matrix`, `C129_terms`, `C129_frobenius`, `C129_refuted`, `C129_partial` |
| C130 Norms are monotone in floating point | proved | the norms in binary64 | rounding to nearest is monotone (proved from the definition, across binades), so sums, squares and roots of values that are not negative keep the order, infinities included; induction on the entries | `C130_monotone`, `C130_order`, `C130_matrix`, `C130_refuted` |
| C131 Transposes of products agree in floating point | proved | `Multiply`, `Transpose` and `isSymmetric` in every arithmetic with commuting products, and in binary64 | the exact order of summation of each product is known without laws of arithmetic (C10); mirrored entries are the same sums of swapped products | `C131_gram`, `C131_product`, `C131_symmetric` |
| C132 Operations that should commute commute in floating point | proved | the operations in every arithmetic whose sums and products commute, and in binary64 | the value of each operation is known without laws of arithmetic (C09, C21, C24, C51); the sums are the same up to swapped factors | `C132_vectors`, `C132_entries`, `C132_outer`, `C132_add`, `C132_binary64`, `C132_grouping` |

### What is missing from the partial ones

* **C08.** Contents and completion agree in full. The code refutes "same panic class" for SetSubMatrix only: for an empty outer slice the row-array storage panics with no-data and the block storage with an index error, and for ragged data that also do not fit one checks the shape first and the other the range (C08_class_false). C08_faults_partial: same class for every other call and for nil or rectangular data.
* **C14.** the code contradicts the property for SetRow on row-array storage with index >= 1: C14_setRow_false
* **C15.** the code contradicts the property for foreign vectors on block storage: C15_foreign_false
* **C22.** Proved except for empty windows, which the code refuses (C22_false). Unshared storage.
* **C36.** The full statement is false of the code: the zero matrix is refused (C36_false_zero) and some indefinite symmetric matrices are accepted with B*BT different from A (C36_false_indefinite). Proved: success with B*BT = A and Rank = rank of A on every non-zero positive semidefinite matrix; for every threshold success on a positive semidefinite matrix exactly when a diagonal entry exceeds the threshold, with a positive semidefinite remainder whose entries are within the threshold; on any symmetric matrix the diagonal is reproduced within the threshold and all of A when Rank is the order; in any arithmetic no index fault.
* **C44.** False as stated on every platform (C44_false). C44_partial is the exact behaviour on all pairs of patterns; C44_sound_partial is the only-if half.
* **C45.** False for every finite scalar with the sign bit set (C45_false); proved for the others.
* **C46.** The claim is false for the code (C46_false); C46_partial gives exactly what is returned.
* **C47.** The property is false for overlaps at different offsets (C47_false). C47_exact gives the result for every overlap; the partial theorem covers all arguments without such an overlap; SetSubVectorWithSlice is right for every overlap.
* **C48.** the code contradicts the property: C48_false
* **C49.** Frobenius norm proved. The LInf norm computes the greatest column sum, not the documented row sum: refuted by C49_lInf_false, and C49_lInf_partial proves what it does compute.
* **C53.** Holds for symmetric matrices; for general matrices the code multiplies real parts only and the claim is false (witness: rotation by a right angle).
* **C59.** False for one refusal: CopySubMatrixFromIndices checks later destination rows only when it reaches them, so a short later row panics after earlier rows were overwritten (C59_indices_false). Everything else is proved.
* **C61.** False for the zero matrix (C61_false: Rank is 1). Partial: Rank = max 1 (rank A) for every matrix.
* **C77.** Refuted with the literals of the code: the Schur iteration neglects relative to the size of the matrix, the pairing uses an absolute tolerance. C77_pairs_partial: holds for symmetric matrices and where the Schur form has no entry below the diagonal above the tolerance.
* **C87.** Proved when no imaginary part lies between zero and epsEd. Otherwise the code refutes it: for [[1,-1e-15,0],[1e-11,1,1],[0,0,2]] the column of 2 is (0,0,-1).
* **C94.** Proved for the errors that are not about one number. The code refutes the rest: mathIllegalNumberErrorf passes a slice without spreading it, two constructors drop pattern or argument, one call swaps its arguments.
* **C95.** Accessors proved in full. The code refutes the claim on the status for one pair of types (too small, not positive definite).
* **C97.** Refuted by the code, since the returned matrix is the cached one. Proved: private data never change, and an answer changes only if one of the matrices it reads (listed per method) has been overwritten, for all interleavings. Missing: independence of the overwritten ones (false).
* **C120.** The code refutes the full claim: for the column (2^-1074, 2^-1074) U is (-1, -1), because math.Hypot has no relative accuracy there (C120_refuted). C120_partial proves the claim where no result of math.Hypot, other than that of two zeros, is below 2^-1000.
* **C122.** The code refutes the full claim: for the matrix with the only entry 2^-600 the answer is no, because eigenvalueNormAt squares the eigenvalue, which underflows (C122_refuted; C122_small for all decompositions with eigenvalues below 2^-540); for the diagonal matrix (2^513, 2^510) it is no, because the larger square overflows (C122_refuted_large; C122_large for all decompositions with such eigenvalues). C122_partial proves the claim where the eigenvalues exceed 5 sqrt(eta) and their squares do not overflow.
* **C124.** The code refutes the full claim: UnitVector refuses (2^-600) as a zero vector and gives the zero vector for (2^600) (C124_refuted), because VecNorm sums squares; C124_small, C124_small_projection and C124_large prove this for all vectors of such entries. C124_partial proves the claim where the computed norm is finite and the squares do not underflow.
* **C125.** The code refutes the full claim: the cosine of (1, 1, 1) with itself is 1 + 2^-52 (C125_refuted), and that of (2^600) and (1) is 0 instead of 1 (C125_refuted_large), which C125_large proves for all vectors with an entry from 2^513 on. C125_partial proves the bound of the error where the norms are finite and nothing underflows.
* **C126.** The code refutes the full claim: the projection of (1) on (2^600) is (0) instead of (1) (C126_refuted), which C126_large proves for all vectors with an entry from 2^513 on and a finite dot product; C124_small_projection covers underflow. C126_partial proves the bound where the dot products are finite and nothing underflows.
* **C127.** The code refutes one part: the L2 distance of (2^-600) and (0) is 0 (C127_refuted). Symmetry is proved for all three distances and all doubles, separation for the L1 and LInf distances; C127_partial proves for the L2 distance that it is zero for equal vectors and that zero means differences whose squares are below the smallest positive number.
* **C128.** The code refutes one part: with an infinity or NaN opposite to any number the answer is yes (C128_blind, C128_refuted). C128_symmetric proves the answer yes for all matrices of doubles that are symmetric, C128_partial both directions for finite entries.
* **C129.** The code refutes the claim for the norms that square: entries up to 2^-540 have Frobenius norm 0, and one finite entry from 2^513 on makes it infinite (C129_frobenius, C129_refuted). C129_vector and C129_matrix prove the claim for the L1 and LInf norms; C129_partial proves that a zero L2 or Frobenius norm leaves only squares up to the underflow bound, and that zero entries give norm zero.
