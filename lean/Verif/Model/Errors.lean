import Verif.Base.Outcome

/-!
# Error values and their messages (`/repo/error.go`)

Embedding of Go structs is `extends`. `α` is the type of `float64`; the conversion `float64(int)` is
the parameter `cvt`. A message is the list of its parts and not one string: how `%v` prints one number
is not modelled, which argument is printed where is.
-/

namespace Linear.Msg

/-- Argument of a message: the dynamic types that `/repo/error.go` puts into `interface{}`. -/
inductive Arg (α : Type)
  | int (i : Int)
  | num (x : α)
  | list (l : List (Arg α))

/-- Part of a pattern: literal text or a verb (`%v`, `%d`). -/
inductive Piece
  | lit (s : String)
  | verb
  deriving DecidableEq, Repr

/-- Part of a message. `missing` is Go's `%!v(MISSING)`, `extra` is `%!(EXTRA type=value)`. -/
inductive Tok (α : Type)
  | text (s : String)
  | shown (a : Arg α)
  | missing
  | extra (a : Arg α)

/-- `fmt.Sprintf` on patterns whose verbs are all `%v` or `%d` with no flags (package `fmt`). -/
def sprintf {α : Type} : List Piece → List (Arg α) → List (Tok α)
  | [], as => as.map .extra
  | .lit s :: p, as => .text s :: sprintf p as
  | .verb :: p, [] => .missing :: sprintf p []
  | .verb :: p, a :: as => .shown a :: sprintf p as

/-! ## Patterns, `/repo/error.go:36-72` -/

open Piece

/-- `/repo/error.go:37` -/
def invalidInput : List Piece := [lit "invalid input"]
/-- `/repo/error.go:38` -/
def arithmeticException : List Piece := [lit "arithmetic exception"]
/-- `/repo/error.go:39` -/
def zeroNorm : List Piece := [lit "zero norm"]
/-- `/repo/error.go:40` -/
def dimensionsMismatchSimple : List Piece := [verb, lit " != ", verb]
/-- `/repo/error.go:41` -/
def dimensionsMismatch : List Piece := [lit "dimensions mismatch"]
/-- `/repo/error.go:42` -/
def noData : List Piece := [lit "no data"]
/-- `/repo/error.go:43` -/
def outOfRangeSimple : List Piece := [verb, lit " out of [", verb, lit ", ", verb, lit "] range"]
/-- `/repo/error.go:44` -/
def index : List Piece := [lit "index (", verb, lit ")"]
/-- `/repo/error.go:45` -/
def numberOfElementsShouldBePositive : List Piece :=
  [lit "number of elements should be positive (", verb, lit ")"]
/-- `/repo/error.go:46` -/
def initialRowAfterFinalRow : List Piece := [lit "initial row ", verb, lit " after final row ", verb]
/-- `/repo/error.go:47` -/
def initialColumnAfterFinalColumn : List Piece :=
  [lit "initial column ", verb, lit " after final column ", verb]
/-- `/repo/error.go:48` -/
def numberTooSmall : List Piece := [verb, lit " is smaller than the minimum (", verb, lit ")"]
/-- `/repo/error.go:49` -/
def numberTooSmallBoundExcluded : List Piece :=
  [verb, lit " is smaller than, or equal to, the minimum (", verb, lit ")"]
/-- `/repo/error.go:50` -/
def numberTooLarge : List Piece := [verb, lit " is larger than the maximum (", verb, lit ")"]
/-- `/repo/error.go:51` -/
def numberTooLargeBoundExcluded : List Piece :=
  [verb, lit " is larger than, or equal to, the maximum (", verb, lit ")"]
/-- `/repo/error.go:54` -/
def rowIndex : List Piece := [lit "row index (", verb, lit ")"]
/-- `/repo/error.go:55`, with its doubled parenthesis -/
def columnIndex : List Piece := [lit "column index ((", verb, lit ")"]
/-- `/repo/error.go:56` -/
def illegalState : List Piece := [lit "illegal state"]
/-- `/repo/error.go:57` -/
def firstRowsNotInitializedYet : List Piece := [lit "first ", verb, lit " rows are not initialized yet"]
/-- `/repo/error.go:61` -/
def dimensionsMismatch2x2 : List Piece :=
  [lit "got ", verb, lit "x", verb, lit " but expected ", verb, lit "x", verb]
/-- `/repo/error.go:62` -/
def nonSquareMatrix : List Piece := [lit "non square (", verb, lit "x", verb, lit ") matrix"]
/-- `/repo/error.go:63` -/
def nonSymmetricMatrix : List Piece :=
  [lit "non symmetric matrix: the difference between entries at (", verb, lit ",", verb, lit ") and (",
    verb, lit ",", verb, lit ") is larger than ", verb]
/-- `/repo/error.go:64` -/
def notPositiveDefiniteMatrix : List Piece := [lit "not positive definite matrix"]
/-- `/repo/error.go:65` -/
def arrayElement : List Piece := [lit "value ", verb, lit " at index ", verb]
/-- `/repo/error.go:66` -/
def notPositiveExponent : List Piece := [lit "invalid exponent ", verb, lit " (must be positive)"]
/-- `/repo/error.go:67` -/
def singularMatrix : List Piece := [lit "matrix is singular"]
/-- `/repo/error.go:68` -/
def unsupportedOperation : List Piece := [lit "unsupported operation"]
/-- `/repo/error.go:69` -/
def convergenceFailed : List Piece := [lit "convergence failed"]
/-- `/repo/error.go:70` -/
def maxCountExceeded : List Piece := [lit "maximal count (", verb, lit ") exceeded"]
/-- `/repo/error.go:71`; the braces are no verbs. -/
def tooLargeCutoff : List Piece := [lit "cutoff singular value is {0}, should be at most {1}"]

/-! ## Base types -/

variable {α : Type}

/-- `mathError`, `/repo/error.go:530-532`. -/
structure MathError (α : Type) where
  msg : List (Tok α)

/-- `mathErrorf`, `/repo/error.go:546-548`. -/
def mathErrorf (pattern : List Piece) (arguments : List (Arg α)) : MathError α :=
  ⟨sprintf (lit "Math Error: " :: pattern) arguments⟩

/-- `mathError.addMsg`, `/repo/error.go:542-544`: the receiver is a copy, so the caller's value stays
as it is. The answer is the value that the caller has afterwards. -/
def MathError.addMsg (e : MathError α) (msg : List (Tok α)) : MathError α :=
  let _copy : MathError α := ⟨e.msg ++ .text " : " :: msg⟩
  e

/-- `mathIllegalArgumentError`, `/repo/error.go:498-500`. -/
structure IllegalArgument (α : Type) extends MathError α

/-- `mathIllegalArgumentErrorf`, `/repo/error.go:506-510`. -/
def illegalArgumentf (pattern : List Piece) (arguments : List (Arg α)) : IllegalArgument α :=
  ⟨mathErrorf pattern arguments⟩

/-- `mathIllegalNumberError`, `/repo/error.go:479-482`; `Argument`, 488-490, is the field. -/
structure IllegalNumber (α : Type) extends IllegalArgument α where
  argument : α

/-- `mathIllegalNumberErrorf`, `/repo/error.go:492-496`: `arguments` is passed on without `...`, so it
is one argument, the slice itself. -/
def illegalNumberf (pattern : List Piece) (wrong : α) (arguments : List (Arg α)) : IllegalNumber α :=
  ⟨illegalArgumentf pattern [.num wrong, .list arguments], wrong⟩

/-- `mathIllegalStateError`, `/repo/error.go:512-514`. -/
structure IllegalState (α : Type) extends MathError α

/-- `mathIllegalStateErrorf`, `/repo/error.go:524-528`. -/
def illegalStatef (pattern : List Piece) (arguments : List (Arg α)) : IllegalState α :=
  ⟨mathErrorf pattern arguments⟩

/-- `mathIllegalStateSimpleErrorf`, `/repo/error.go:520-522`: both parameters are ignored. -/
def illegalStateSimplef (_pattern : List Piece) (_arguments : List (Arg α)) : IllegalState α :=
  illegalStatef illegalState []

/-! ## The library's errors -/

/-- `maxIterationError`, `/repo/error.go:74-77`; `Max`, 79-81, is the field. -/
structure MaxIteration (α : Type) extends IllegalState α where
  max : Int

/-- `maxIterationErrorf`, `/repo/error.go:91-95`. -/
def maxIterationf (pattern : List Piece) (max : Int) (arguments : List (Arg α)) : MaxIteration α :=
  ⟨illegalStatef pattern arguments, max⟩

/-- `maxIterationSimpleErrorf`, `/repo/error.go:87-89`. -/
def maxIterationSimplef (max : Int) : MaxIteration α := maxIterationf maxCountExceeded max []

/-- `mathUnsupportedOperationError`, `/repo/error.go:97-99`. -/
structure Unsupported (α : Type) extends MathError α

/-- `mathUnsupportedOperationErrorf`, `/repo/error.go:105-109`. -/
def unsupportedf : Unsupported α := ⟨mathErrorf unsupportedOperation []⟩

/-- `mathArithmeticError`, `/repo/error.go:111-113`. -/
structure Arithmetic (α : Type) extends MathError α

/-- `mathArithmeticErrorf`, `/repo/error.go:123-127`. -/
def arithmeticf (pattern : List Piece) (arguments : List (Arg α)) : Arithmetic α :=
  ⟨mathErrorf pattern arguments⟩

/-- `mathArithmeticSimpleErrorf`, `/repo/error.go:119-121`. -/
def arithmeticSimplef : Arithmetic α := arithmeticf arithmeticException []

/-- `invalidArgumentError`, `/repo/error.go:129-131`. -/
structure InvalidArgument (α : Type) extends MathError α

/-- `invalidArgumentErrorf`, `/repo/error.go:141-145`. -/
def invalidArgumentf (pattern : List Piece) (arguments : List (Arg α)) : InvalidArgument α :=
  ⟨mathErrorf pattern arguments⟩

/-- `invalidArgumentSimpleErrorf`, `/repo/error.go:137-139`. -/
def invalidArgumentSimplef : InvalidArgument α := invalidArgumentf invalidInput []

/-- `noDataError`, `/repo/error.go:147-149`. -/
structure NoData (α : Type) extends IllegalArgument α

/-- `noDataErrorf`, `/repo/error.go:159-163`. -/
def noDataf (pattern : List Piece) (arguments : List (Arg α)) : NoData α :=
  ⟨illegalArgumentf pattern arguments⟩

/-- `noDataErrorSimpleErrorf`, `/repo/error.go:155-157`. -/
def noDataSimplef : NoData α := noDataf noData []

/-- `multiDimensionMismatchError`, `/repo/error.go:195-198`; `WrongDimensions` and
`ExpectedDimensions`, 204-210, are the fields. -/
structure MultiDimension (α : Type) extends IllegalArgument α where
  wrong : List Int
  expected : List Int

/-- `WrongDimension`, `/repo/error.go:212-214`: an index out of range panics. -/
def MultiDimension.wrongDimension (e : MultiDimension α) (i : Nat) : Res Int :=
  match e.wrong[i]? with
  | some x => .ok x
  | none => .error .rt

/-- `ExpectedDimension`, `/repo/error.go:216-218`. -/
def MultiDimension.expectedDimension (e : MultiDimension α) (i : Nat) : Res Int :=
  match e.expected[i]? with
  | some x => .ok x
  | none => .error .rt

/-- Loop of `multiDimensionMismatchErrorf`, `/repo/error.go:226-237`: the two slices one behind the
other. -/
def mismatchArgs (wrong expected : List Int) : Res (List (Arg α)) :=
  forUp 0 (wrong.length + expected.length) (fun i args =>
    if i < wrong.length then
      match wrong[i]? with
      | some x => .ok (args.set i (.int x))
      | none => .error .rt
    else
      match expected[i - wrong.length]? with
      | some x => .ok (args.set i (.int x))
      | none => .error .rt) (List.replicate (wrong.length + expected.length) (.int 0))

/-- `multiDimensionMismatchErrorf`, `/repo/error.go:224-241`. -/
def multiDimensionf (pattern : List Piece) (wrong expected : List Int) : Res (MultiDimension α) := do
  let args ← mismatchArgs wrong expected
  return ⟨illegalArgumentf pattern args, wrong, expected⟩

/-- `multiDimensionMismatchSimpleErrorf`, `/repo/error.go:220-222`. -/
def multiDimensionSimplef (wrong expected : List Int) : Res (MultiDimension α) :=
  multiDimensionf dimensionsMismatch wrong expected

/-- `matrixDimensionMismatchError`, `/repo/error.go:165-167`. -/
structure MatrixDimension (α : Type) extends MultiDimension α

/-- `matrixDimensionMismatchErrorf`, `/repo/error.go:189-193`. -/
def matrixDimensionf (wrongRow wrongCol expectedRow expectedCol : Int) : Res (MatrixDimension α) := do
  let e ← multiDimensionf dimensionsMismatch2x2 [wrongRow, wrongCol] [expectedRow, expectedCol]
  return ⟨e⟩

/-- `WrongRowDimension`, `/repo/error.go:173-175`. -/
def MatrixDimension.wrongRow (e : MatrixDimension α) : Res Int := e.wrongDimension 0
/-- `ExpectedRowDimension`, `/repo/error.go:177-179`. -/
def MatrixDimension.expectedRow (e : MatrixDimension α) : Res Int := e.expectedDimension 0
/-- `WrongColumnDimension`, `/repo/error.go:181-183`. -/
def MatrixDimension.wrongCol (e : MatrixDimension α) : Res Int := e.wrongDimension 1
/-- `ExpectedColumnDimension`, `/repo/error.go:185-187`. -/
def MatrixDimension.expectedCol (e : MatrixDimension α) : Res Int := e.expectedDimension 1

/-- `nonSymmetricMatrixError`, `/repo/error.go:243-247`; `Row`, `Column` and `Threshold`, 253-263, are
the fields. -/
structure NonSymmetric (α : Type) extends IllegalArgument α where
  row : Int
  column : Int
  threshold : α

/-- `nonSymmetricMatrixErrorf`, `/repo/error.go:269-273`. -/
def nonSymmetricf (pattern : List Piece) (row column : Int) (threshold : α) : NonSymmetric α :=
  ⟨illegalArgumentf pattern [.int row, .int column, .int column, .int row, .num threshold], row, column,
    threshold⟩

/-- `nonSymmetricMatrixSimpleErrorf`, `/repo/error.go:265-267`. -/
def nonSymmetricSimplef (row column : Int) (threshold : α) : NonSymmetric α :=
  nonSymmetricf nonSymmetricMatrix row column threshold

/-- `dimensionsMismatchError`, `/repo/error.go:293-296`. -/
structure Dimension (α : Type) extends IllegalNumber α where
  dimension : Int

/-- `dimensionsMismatchErrorf`, `/repo/error.go:306-310`. -/
def dimensionf (cvt : Int → α) (pattern : List Piece) (wrong expected : Int) : Dimension α :=
  ⟨illegalNumberf pattern (cvt wrong) [.int expected], expected⟩

/-- `dimensionsMismatchSimpleErrorf`, `/repo/error.go:302-304`. -/
def dimensionSimplef (cvt : Int → α) (wrong expected : Int) : Dimension α :=
  dimensionf cvt dimensionsMismatchSimple wrong expected

/-- `nonSquareMatrixError`, `/repo/error.go:275-277`. -/
structure NonSquare (α : Type) extends Dimension α

/-- `nonSquareMatrixErrorf`, `/repo/error.go:287-291`. -/
def nonSquaref (cvt : Int → α) (pattern : List Piece) (wrong expected : Int) : NonSquare α :=
  ⟨dimensionf cvt pattern wrong expected⟩

/-- `nonSquareMatrixSimpleErrorf`, `/repo/error.go:283-285`. -/
def nonSquareSimplef (cvt : Int → α) (wrong expected : Int) : NonSquare α :=
  nonSquaref cvt nonSquareMatrix wrong expected

/-- `numberIsTooSmallError`, `/repo/error.go:447-451`; `Min` and `IsBoundAllowed`, 457-463, are the
fields. -/
structure TooSmall (α : Type) extends IllegalNumber α where
  min : α
  boundIsAllowed : Bool

/-- `numberIsTooSmallErrorf`, `/repo/error.go:473-477`. -/
def tooSmallf (pattern : List Piece) (wrong min : α) (boundIsAllowed : Bool) : TooSmall α :=
  ⟨illegalNumberf pattern wrong [.num min], min, boundIsAllowed⟩

/-- `numberIsTooSmallBoundedErrorf`, `/repo/error.go:465-471`. -/
def tooSmallBoundedf (wrong min : α) (boundIsAllowed : Bool) : TooSmall α :=
  if boundIsAllowed then tooSmallf numberTooSmall wrong min boundIsAllowed
  else tooSmallf numberTooSmallBoundExcluded wrong min boundIsAllowed

/-- `notStrictlyPositiveError`, `/repo/error.go:312-314`. -/
structure NotStrictlyPositive (α : Type) extends TooSmall α

/-- `notStrictlyPositiveErrorf`, `/repo/error.go:320-324`. -/
def notStrictlyPositivef (cvt : Int → α) (number : α) : NotStrictlyPositive α :=
  ⟨tooSmallBoundedf number (cvt 0) true⟩

/-- `notPositiveError`, `/repo/error.go:326-328`. -/
structure NotPositive (α : Type) extends TooSmall α

/-- `notPositiveErrorf`, `/repo/error.go:334-338`. -/
def notPositivef (cvt : Int → α) (pattern : List Piece) (number : α) : NotPositive α :=
  ⟨tooSmallf pattern number (cvt 0) true⟩

/-- `outOfRangeError`, `/repo/error.go:340-343`; `Low` and `High`, 349-355, are the fields. -/
structure OutOfRange (α : Type) extends IllegalNumber α where
  lo : α
  high : α

/-- `outOfRangeErrorf`, `/repo/error.go:361-365`. -/
def outOfRangef (pattern : List Piece) (wrong lo high : α) : OutOfRange α :=
  ⟨illegalNumberf pattern wrong [.num lo, .num high], lo, high⟩

/-- `outOfRangeSimpleErrorf`, `/repo/error.go:357-359`. -/
def outOfRangeSimplef (wrong lo high : α) : OutOfRange α := outOfRangef outOfRangeSimple wrong lo high

/-- `nonPositiveDefiniteMatrixError`, `/repo/error.go:367-371`; `Threshold`, 385-387, is the field. -/
structure NonPositiveDefinite (α : Type) extends TooSmall α where
  index : Int
  threshold : α

/-- `Row`, `/repo/error.go:377-379`. -/
def NonPositiveDefinite.row (e : NonPositiveDefinite α) : Int := e.index
/-- `Column`, `/repo/error.go:381-383`. -/
def NonPositiveDefinite.column (e : NonPositiveDefinite α) : Int := e.index

/-- `nonPositiveDefiniteMatrixErrorf`, `/repo/error.go:389-395`. -/
def nonPositiveDefinitef (wrong : α) (index : Int) (threshold : α) : NonPositiveDefinite α :=
  let ret : NonPositiveDefinite α := ⟨tooSmallBoundedf wrong threshold false, index, threshold⟩
  let ret := { ret with toMathError := ret.toMathError.addMsg (sprintf notPositiveDefiniteMatrix []) }
  { ret with toMathError := ret.toMathError.addMsg (sprintf arrayElement [.num wrong, .int index]) }

/-- `singularMatrixError`, `/repo/error.go:397-399`. -/
structure Singular (α : Type) extends IllegalArgument α

/-- `singularMatrixErrorf`, `/repo/error.go:409-413`. -/
def singularf (pattern : List Piece) (arguments : List (Arg α)) : Singular α :=
  ⟨illegalArgumentf pattern arguments⟩

/-- `singularMatrixSimpleErrorf`, `/repo/error.go:405-407`. -/
def singularSimplef : Singular α := singularf singularMatrix []

/-- `numberIsTooLargeError`, `/repo/error.go:415-419`; `Max` and `IsBoundAllowed`, 425-431, are the
fields. -/
structure TooLarge (α : Type) extends IllegalNumber α where
  max : α
  boundIsAllowed : Bool

/-- `numberIsTooLargeErrorf`, `/repo/error.go:441-445`. -/
def tooLargef (pattern : List Piece) (wrong max : α) (boundIsAllowed : Bool) : TooLarge α :=
  ⟨illegalNumberf pattern wrong [.num max], max, boundIsAllowed⟩

/-- `numberIsTooLargeBoundedErrorf`, `/repo/error.go:433-439`. -/
def tooLargeBoundedf (wrong max : α) (boundIsAllowed : Bool) : TooLarge α :=
  if boundIsAllowed then tooLargef numberTooLarge wrong max boundIsAllowed
  else tooLargef numberTooLargeBoundExcluded wrong max boundIsAllowed

/-! ## Status -/

/-- Any error of the library, as the interface `LinearMathError`, `/repo/error.go:7-10`, holds it. -/
inductive LinearMathError (α : Type)
  | math (e : MathError α)
  | illegalArgument (e : IllegalArgument α)
  | illegalNumber (e : IllegalNumber α)
  | illegalState (e : IllegalState α)
  | maxIteration (e : MaxIteration α)
  | unsupported (e : Unsupported α)
  | arithmetic (e : Arithmetic α)
  | invalidArgument (e : InvalidArgument α)
  | noData (e : NoData α)
  | multiDimension (e : MultiDimension α)
  | matrixDimension (e : MatrixDimension α)
  | nonSymmetric (e : NonSymmetric α)
  | dimension (e : Dimension α)
  | nonSquare (e : NonSquare α)
  | tooSmall (e : TooSmall α)
  | notStrictlyPositive (e : NotStrictlyPositive α)
  | notPositive (e : NotPositive α)
  | outOfRange (e : OutOfRange α)
  | nonPositiveDefinite (e : NonPositiveDefinite α)
  | singular (e : Singular α)
  | tooLarge (e : TooLarge α)

/-- The `Status` methods, `/repo/error.go:83-85, 101-103, 115-117, 133-135, 151-153, 169-171, 200-202,
249-251, 279-281, 298-300, 316-318, 330-332, 345-347, 373-375, 401-403, 421-423, 453-455, 484-486,
502-504, 516-518, 534-536`; `none` is `FAILURE`. -/
def LinearMathError.status : LinearMathError α → Option Status
  | .math _ => none
  | .illegalArgument _ => some .illArg
  | .illegalNumber _ => some .illN
  | .illegalState _ => some .illState
  | .maxIteration _ => some .maxIter
  | .unsupported _ => some .unsup
  | .arithmetic _ => some .arith
  | .invalidArgument _ => some .inv
  | .noData _ => some .noDat
  | .multiDimension _ => some .multiDim
  | .matrixDimension _ => some .matDim
  | .nonSymmetric _ => some .symm
  | .dimension _ => some .dim
  | .nonSquare _ => some .sqMat
  | .tooSmall _ => some .small
  | .notStrictlyPositive _ => some .notSPos
  | .notPositive _ => some .notPos
  | .outOfRange _ => some .range
  | .nonPositiveDefinite _ => some .small
  | .singular _ => some .sing
  | .tooLarge _ => some .big

/-- `Error`, `/repo/error.go:538-540`, promoted through the embedded structs. -/
def LinearMathError.error : LinearMathError α → List (Tok α)
  | .math e => e.msg
  | .illegalArgument e => e.msg
  | .illegalNumber e => e.msg
  | .illegalState e => e.msg
  | .maxIteration e => e.msg
  | .unsupported e => e.msg
  | .arithmetic e => e.msg
  | .invalidArgument e => e.msg
  | .noData e => e.msg
  | .multiDimension e => e.msg
  | .matrixDimension e => e.msg
  | .nonSymmetric e => e.msg
  | .dimension e => e.msg
  | .nonSquare e => e.msg
  | .tooSmall e => e.msg
  | .notStrictlyPositive e => e.msg
  | .notPositive e => e.msg
  | .outOfRange e => e.msg
  | .nonPositiveDefinite e => e.msg
  | .singular e => e.msg
  | .tooLarge e => e.msg

end Linear.Msg
