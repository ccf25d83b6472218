import Verif.Model.HeapDec

/-!
# The constructors of the decompositions on the heap

A matrix argument is one of the three storages of the library. Each constructor takes its table from `Data` and works in
place on that table (`Verif.Model.HeapLU`, `Verif.Model.HeapDec`).
-/

namespace Linear

open HM Heap

/-- A matrix on the heap: the descriptor in the field `data` (`blocks` for block storage) and the kind of storage. (/repo/real_matrix.go:24-325) -/
inductive HMat : Nat → Nat → Type
  | arr {r c : Nat} (m : Sl) : HMat r c
  | blk {r c : Nat} (m : Sl) : HMat r c
  | dia {n : Nat} (v : Sl) : HMat n n

namespace Heap

variable {α : Type} [Flt α]

/-- `Transpose` of a block matrix, `/repo/block_real_matrix.go:927-963`. The code goes through the blocks; here the
entries are copied one by one. -/
def bTranspose (r c : Nat) (m : Sl) : HM α Sl := do
  let out ← bLayout c r
  for' 0 c fun p => for' 0 r fun q => do
    let v ← get m (blkIdx c q p) (blkOff c q p)
    put out (blkIdx r p q) (blkOff r p q) v
  pure out

/-- `Transpose` of a diagonal matrix, `/repo/diagonal_matrix.go:641-664`: a walk with a visitor that sets
`(column, row)`. -/
def dTranspose (v : Sl) : HM α Sl := do
  let out ← make v.len
  for' 0 v.len fun i => for' 0 v.len fun j => do
    let x ← dAt v i j
    dSetEntry out j i x
  pure out

/-! ## Rank-revealing QR, `/repo/rrqr_decomposition.go` -/

/-- `/repo/rrqr_decomposition.go:75-87`. -/
def rrBest (t : Sl) (m n minor : Nat) : HM α (α × Nat) :=
  forS minor n (fun i best => do
    let l2 ← HM.sumUp minor m (fun j => do
      let x ← get t i j
      let y ← get t i j
      pure (Flt.mul x y)) Flt.zero
    pure (if Flt.lt best.1 l2 then (l2, i) else best)) (Flt.zero, minor)

/-- `/repo/rrqr_decomposition.go:90`: the descriptors of two rows are exchanged. -/
def rrSwap (t : Sl) (i j : Nat) : HM α Unit := do
  let u ← rdH t j
  let w ← rdH t i
  wrH t i u
  wrH t j w

/-- `/repo/rrqr_decomposition.go:74-95`: what the object holds besides `qrt`. -/
def rrReflect (t : Sl) (m n minor : Nat) {p : Nat} (s : Row α p × Row Nat n) : HM α (Row α p × Row Nat n) := do
  let best ← rrBest t m n minor
  if best.2 ≠ minor then do
    rrSwap t minor best.2
    let pm ← lift (s.2.get minor)
    let pq ← lift (s.2.get best.2)
    let pv ← lift (s.2.set minor pq)
    let pv ← lift (pv.set best.2 pm)
    let d ← qrReflect t m n minor s.1
    pure (d, pv)
  else do
    let d ← qrReflect t m n minor s.1
    pure (d, s.2)

/-- `decompose`, `/repo/rrqr_decomposition.go:60-69`. -/
def rrWork (t : Sl) (m n : Nat) : HM α (Row α (min m n) × Row Nat n) := do
  let pv ← lift (forUp 0 n (fun i (pv : Row Nat n) => pv.set i i) ⟨fun _ => 0⟩)
  if n = 0 then lift (.error .rt)
  else forS 0 (min n m) (fun minor s => rrReflect t m n minor s) (Row.zero _, pv)

end Heap

namespace HMat

variable {α : Type} [Flt α] {r c : Nat}

/-- Interface dispatch of `At`. (/repo/real_matrix.go:179) -/
def at' : {r c : Nat} → HMat r c → Int → Int → HM α α
  | _, _, .arr m, i, j => mAt m i j
  | r, c, .blk m, i, j => bAt r c m i j
  | _, _, .dia v, i, j => dAt v i j

/-- Interface dispatch of `RowDimension`. (/repo/real_matrix.go:28) -/
def rows : {r c : Nat} → HMat r c → Nat
  | _, _, .arr m => m.len
  | r, _, .blk _ => r
  | _, _, .dia v => v.len

/-- Interface dispatch of `ColumnDimension`. (/repo/real_matrix.go:33) -/
def cols : {r c : Nat} → HMat r c → HM α Nat
  | _, _, .arr m => mCols m
  | _, c, .blk _ => pure c
  | _, _, .dia v => pure v.len

/-- Interface dispatch of `Data`. (/repo/real_matrix.go:78) -/
def data : {r c : Nat} → HMat r c → HM α Sl
  | _, _, .arr m => mData m
  | r, c, .blk m => bData r c m
  | _, _, .dia v => dData v

/-- `m.Transpose().Data()`. (/repo/lu_decomposition.go:57-70, /repo/qr_decomposition.go:54-60) -/
def transData : {r c : Nat} → HMat r c → HM α Sl
  | _, _, .arr m => do
    let t ← mTranspose m
    mData t
  | r, c, .blk m => do
    let t ← bTranspose r c m
    bData c r t
  | _, _, .dia v => do
    let t ← dTranspose v
    dData t

/-- A constructor that works in place on a table: the new object holds the table and what `work` returns. (/repo/lu_decomposition.go:57-135 and the other constructors below) -/
def build {β : Type} (table : HM α Sl) (work : Sl → HM α β) : HM α (Sl × β) := do
  let d ← table
  let b ← work d
  pure (d, b)

/-- `if !isSquare(matrix) { return error }`, then the rest. (/repo/lu_decomposition.go:58-60) -/
def square {β : Type} (x : HMat r c) (k : HM α β) : HM α β := do
  let n ← x.cols
  if n = x.rows then k else lift (.error (.err .sqMat))

/-- `NewLUDecompositionWithThreshold`, `/repo/lu_decomposition.go:57-135`. -/
def lu (thr ninf : α) (x : HMat r c) : HM α (Sl × LuRest c) :=
  square x (build x.data fun d => luWork thr ninf d c)

/-- `NewCholeskyDecomposition`, `/repo/cholesky_decomposition.go:69-122`. -/
def chol (rel pos : α) (x : HMat r c) : HM α (Sl × Unit) :=
  square x (build x.data fun d => cholWork rel pos d r)

/-- `NewQRDecompositionWithThreshold`, `/repo/qr_decomposition.go:54-88`. -/
def qr (x : HMat r c) : HM α (Sl × Row α (min r c)) := do
  let _ ← x.cols
  build x.transData fun d => qrWork d r c

/-- `NewRRQRDecompositionWithThreshold`, `/repo/rrqr_decomposition.go:45-69`. -/
def rrqr (x : HMat r c) : HM α (Sl × (Row α (min r c) × Row Nat c)) := do
  let _ ← x.cols
  build x.transData fun d => rrWork d r c

/-- `NewRectangularCholeskyDecompositionWithThreshold`, `/repo/rectangular_cholesky_decomposition.go:34-114`; the root
matrix is built afterwards from what is returned here. -/
def rectChol (small : α) (x : HMat r c) : HM α (Sl × (Nat × RcRest α r)) :=
  build x.data fun d => rcWork small d r

/-- `NewTriDiagonalTransformer`, `/repo/tridiagonal_transformer.go:47-61`. -/
def tri (x : HMat r c) : HM α (Sl × (Row α r × Row α (r - 1))) :=
  square x (build x.data fun d => do
    let s ← triWork d r
    pure (s.main, s.sec))

/-- `NewHessenbergTransformer`, `/repo/hessenberg_transformer.go:46-61`. -/
def hess (x : HMat r c) : HM α (Sl × Row α r) :=
  square x (build x.data fun d => hessWork d r)

/-- `NewBiDiagonalTransformer`, `/repo/bidiagonal_transformer.go:13-29`. -/
def bi (x : HMat r c) : HM α (Sl × BiRest α r c) := do
  let _ ← x.cols
  build x.data fun d => biWork d r c

end HMat

end Linear
