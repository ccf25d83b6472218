import Verif.Model.Cholesky

/-!
# QR decompositions (`/repo/qr_decomposition.go`, `/repo/rrqr_decomposition.go`)

The matrix has `m` rows and `n` columns. `int(math.Min(float64(m), float64(n)))` is `min m n` (exact
for sizes below 2^53). The cached matrices are recomputed at each call here; in the code the second
call returns the matrix computed by the first.
-/

namespace Linear

variable {α : Type} [Flt α] {m n p : Nat}

/-- `QRDecomposition`, `/repo/qr_decomposition.go:33-45`; `p` is `min m n`. -/
structure QR (α : Type) (m n p : Nat) where
  qrt : Tab α n m
  rDiag : Row α p

/-- The signed norm `a`, `/repo/qr_decomposition.go:90-98`. -/
def QR.norm (minor : Nat) (t : Tab α n m) : Res α := do
  let xNormSqr ← sumUp minor m (fun row => do
    let c ← t.get minor row
    return Flt.mul c c) Flt.zero
  let a := Flt.sqrt xNormSqr
  if Flt.lt Flt.zero (← t.get minor minor) then return Flt.mul a (Flt.neg Flt.one) else return a

/-- The transformation of one column, `/repo/qr_decomposition.go:127-137`. -/
def QR.column (minor : Nat) (a : α) (col : Nat) (t : Tab α n m) : Res (Tab α n m) := do
  let alpha ← subUp minor m (fun row => do
    return Flt.mul (← t.get col row) (← t.get minor row)) Flt.zero
  let alpha := Flt.div alpha (Flt.mul a (← t.get minor minor))
  forUp minor m (fun row (t : Tab α n m) => do
    t.set col row (Flt.sub (← t.get col row) (Flt.mul alpha (← t.get minor row)))) t

/-- `performHouseholderReflection`, `/repo/qr_decomposition.go:79-140`. -/
def QR.reflect (minor : Nat) (s : QR α m n p) : Res (QR α m n p) := do
  let a ← QR.norm minor s.qrt
  let d ← s.rDiag.set minor a
  if !Flt.eq a Flt.zero then
    let t ← s.qrt.set minor minor (Flt.sub (← s.qrt.get minor minor) a)
    let t ← forUp (minor + 1) n (QR.column minor a) t
    return ⟨t, d⟩
  else return ⟨s.qrt, d⟩

/-- `NewQRDecompositionWithThreshold` and `decompose`, `/repo/qr_decomposition.go:54-75`. Without columns `matrix[0]` is an
index panic. The threshold is a parameter of the solver here. -/
def QR.new (a : Mat α m n) : Res (QR α m n (min m n)) := do
  let _ ← a.colDim
  let t : Mat α n m ← a.transpose
  let t ← t.dataCopy
  if n = 0 then throw .rt
  forUp 0 (min n m) QR.reflect ⟨t, Row.zero _⟩

/-- `R`, `/repo/qr_decomposition.go:146-173`. The rows of `ra` are never nil. -/
def QR.r (s : QR α m n p) : Res (SMat α) := do
  if n = 0 then throw .rt
  let ra : Tab α m n ← forDown (min m n) 0 (fun row (ra : Tab α m n) => do
    let ra ← ra.set row row (← s.rDiag.get row)
    forUp (row + 1) n (fun col (ra : Tab α m n) => do ra.set row col (← s.qrt.get col row)) ra)
    (Jag.zero m _)
  (SMat.fromSlices (some ra.toLists) false).must

/-- The transformation of one row of `qta`, `/repo/qr_decomposition.go:216-224`. -/
def QR.qtRow (s : QR α m n p) (minor col : Nat) (q : Tab α m m) : Res (Tab α m m) := do
  let alpha ← subUp minor m (fun row => do
    return Flt.mul (← q.get col row) (← s.qrt.get minor row)) Flt.zero
  let alpha := Flt.div alpha (Flt.mul (← s.rDiag.get minor) (← s.qrt.get minor minor))
  forUp minor m (fun row (q : Tab α m m) => do
    q.set col row (Flt.add (← q.get col row) (Flt.mul (Flt.neg alpha) (← s.qrt.get minor row)))) q

/-- `QT`, `/repo/qr_decomposition.go:191-237`. -/
def QR.qT (s : QR α m n p) : Res (SMat α) := do
  if n = 0 then throw .rt
  let q : Tab α m m ← forDown m (min m n) (fun minor (q : Tab α m m) => q.set minor minor Flt.one)
    (Jag.zero m _)
  let q ← forDown (min m n) 0 (fun minor (q : Tab α m m) => do
    let q ← q.set minor minor Flt.one
    if !Flt.eq (← s.qrt.get minor minor) Flt.zero then
      forUp minor m (s.qtRow minor) q
    else return q) q
  (SMat.fromSlices (some q.toLists) false).must

/-- `Q`, `/repo/qr_decomposition.go:179-185`. -/
def QR.q (s : QR α m n p) : Res (SMat α) := do
  let t ← s.qT
  return ⟨t.c, t.r, ← t.m.transpose⟩

/-- `H`, `/repo/qr_decomposition.go:245-266`. -/
def QR.h (s : QR α m n p) : Res (SMat α) := do
  if n = 0 then throw .rt
  let ha : Tab α m n ← forUp 0 m (fun i (ha : Tab α m n) =>
    forUp 0 (min (i + 1) n) (fun j (ha : Tab α m n) => do
      ha.set i j (Flt.div (← s.qrt.get j i) (Flt.neg (← s.rDiag.get j)))) ha) (Jag.zero m _)
  (SMat.fromSlices (some ha.toLists) false).must

/-- `checkSingular`, `/repo/qr_decomposition.go:293-306`: whether some diagonal element is at most `thr` in magnitude. -/
def checkSingular (d : Row α p) (thr : α) : Res Bool := do
  match ← forUpBrk 0 p (fun i (_ : Unit) => do
    if Flt.le (Flt.abs (← d.get i)) thr then return .inr () else return .inl ()) () with
  | .inl _ => return false
  | .inr _ => return true

/-- `IsNonSingular`, `/repo/qr_decomposition.go:289-291`. -/
def QR.isNonSingular (s : QR α m n p) (thr : α) : Res Bool := do return !(← checkSingular s.rDiag thr)

/-- `SolveVector`, `/repo/qr_decomposition.go:308-349`. The result has `n` elements; those after `p` stay 0. -/
def QR.solveVector (s : QR α m n p) (thr : α) (b : RVec α) : Res (List α) := do
  if n = 0 then throw .rt
  if b.dim ≠ m then throw (.pan .dim)
  if ← checkSingular s.rDiag thr then throw (.pan .sing)
  let y := b.toRow m
  let y ← forUp 0 (min m n) (fun minor (y : Row α m) => do
    let dot ← sumUp minor m (fun row => do
      return Flt.mul (← y.get row) (← s.qrt.get minor row)) Flt.zero
    let dot := Flt.div dot (Flt.mul (← s.rDiag.get minor) (← s.qrt.get minor minor))
    forUp minor m (fun row (y : Row α m) => do
      y.set row (Flt.add (← y.get row) (Flt.mul dot (← s.qrt.get minor row)))) y) y
  let xy ← forDown p 0 (fun row (xy : Row α n × Row α m) => do
    let y ← xy.2.set row (Flt.div (← xy.2.get row) (← s.rDiag.get row))
    let yRow ← y.get row
    let x ← xy.1.set row yRow
    let y ← forUp 0 row (fun i (y : Row α m) => do
      y.set i (Flt.sub (← y.get i) (Flt.mul yRow (← s.qrt.get row i)))) y
    return (x, y)) (Row.zero n, y)
  return xy.1.toList

/-- A caller's slice of slices read back as a table; `CopySubMatrix` keeps all lengths. (/repo/real_matrix.go:398-420, /repo/rrqr_decomposition.go:131-147) -/
def Tab.ofLists (r c : Nat) (l : List (List α)) : Tab α r c :=
  ⟨fun i j => (l.getD i []).getD j Flt.zero⟩

/-- Householder transforms of one block of columns, `/repo/qr_decomposition.go:379-405`. `alpha` is a buffer. -/
def QR.applyBlock (s : QR α m n p) (kWidth : Nat) (y : Tab α m 52) : Res (Tab α m 52) := do
  let x ← forUp 0 (min m n) (fun minor (ya : Tab α m 52 × Row α 52) => do
    let factor := Flt.div Flt.one (Flt.mul (← s.rDiag.get minor) (← s.qrt.get minor minor))
    let alpha ← forUp 0 kWidth (fun i (alpha : Row α 52) => alpha.set i Flt.zero) ya.2
    let alpha ← forUp minor m (fun row (alpha : Row α 52) => do
      let d ← s.qrt.get minor row
      forUp 0 kWidth (fun k (alpha : Row α 52) => do
        alpha.set k (Flt.add (← alpha.get k) (Flt.mul d (← ya.1.get row k)))) alpha) alpha
    let alpha ← forUp 0 kWidth (fun k (alpha : Row α 52) => do
      alpha.set k (Flt.mul (← alpha.get k) factor)) alpha
    let y ← forUp minor m (fun row (y : Tab α m 52) => do
      let d ← s.qrt.get minor row
      forUp 0 kWidth (fun k (y : Tab α m 52) => do
        y.set row k (Flt.add (← y.get row k) (Flt.mul (← alpha.get k) d))) y) ya.1
    return (y, alpha)) (y, Row.zero 52)
  return x.1

/-- Back substitution of one block of columns, `/repo/qr_decomposition.go:408-429`. -/
def QR.backBlock {q : Nat} (s : QR α m n p) (kBlock kWidth : Nat)
    (xy : Blocks α n q × Tab α m 52) : Res (Blocks α n q × Tab α m 52) :=
  forDown p 0 (fun j (xy : Blocks α n q × Tab α m 52) => do
    let jBlock := j / BLOCK_SIZE
    let jStart := jBlock * BLOCK_SIZE
    let factor := Flt.div Flt.one (← s.rDiag.get j)
    let index := (j - jStart) * kWidth
    let xy ← forUp 0 kWidth (fun k (xy : Blocks α n q × Tab α m 52) => do
      let y ← xy.2.set j k (Flt.mul (← xy.2.get j k) factor)
      let x ← xy.1.set (jBlock * nBlocks q + kBlock) (index + k) (← y.get j k)
      return (x, y)) xy
    let y ← forUp 0 j (fun i (y : Tab α m 52) => do
      let rIJ ← s.qrt.get j i
      forUp 0 kWidth (fun k (y : Tab α m 52) => do
        y.set i k (Flt.sub (← y.get i k) (Flt.mul (← y.get j k) rIJ))) y) xy.2
    return (xy.1, y)) xy

/-- One block of columns, `/repo/qr_decomposition.go:371-430`. A fault inside `CopySubMatrix` loses the buffer. -/
def QR.solveBlock {q : Nat} (s : QR α m n p) (b : Mat α m q) (kBlock : Nat)
    (xy : Blocks α n q × Tab α m 52) : Res (Blocks α n q × Tab α m 52) := do
  let kStart := kBlock * BLOCK_SIZE
  let kEnd := min (kStart + BLOCK_SIZE) q
  let kWidth := kEnd - kStart
  let y ← match b.copySubMatrix 0 ((m : Int) - 1) kStart ((kEnd : Int) - 1) xy.2.toLists with
    | .ok l => (.ok (Tab.ofLists m 52 l) : Res (Tab α m 52))
    | .error e => .error e.1
  let y ← s.applyBlock kWidth y
  s.backBlock kBlock kWidth (xy.1, y)

/-- `SolveMatrix`, `/repo/qr_decomposition.go:351-438`. `nColB` is the run-time column dimension, which is `q`. The block
lengths match by construction. -/
def QR.solveMatrix {r q : Nat} (s : QR α m n p) (thr : α) (b : Mat α r q) : Res (SMat α) := do
  if n = 0 then throw .rt
  if h : r = m then
    if ← checkSingular s.rDiag thr then throw (.pan .sing)
    let _ ← b.colDim
    let x ← forUp 0 (nBlocks q) (s.solveBlock (h ▸ b : Mat α m q)) (Jag.zero _ _, Jag.zero m _)
    return ⟨n, q, .blk ⟨x.1⟩⟩
  else throw (.pan .dim)

/-- `Inverse`, `/repo/qr_decomposition.go:440-447`. -/
def QR.inverse (s : QR α m n p) (thr : α) : Res (SMat α) := do
  if n = 0 then throw .rt
  let i : Mat α m m ← (Mat.identity (m : Int)).must
  s.solveMatrix thr i

/-! ## Column pivoting -/

/-- `RRQRDecomposition`, `/repo/rrqr_decomposition.go:35-39`. -/
structure RRQR (α : Type) (m n p : Nat) where
  qr : QR α m n p
  p : Row Nat n

/-- The remaining column with the greatest norm, `/repo/rrqr_decomposition.go:75-87`: the state is `(l2NormSquaredMax,
l2NormSquaredMaxIndex)`. -/
def RRQR.best (minor : Nat) (t : Tab α n m) : Res (α × Nat) :=
  forUp minor n (fun i (best : α × Nat) => do
    let l2 ← sumUp minor m (fun j => do return Flt.mul (← t.get i j) (← t.get i j)) Flt.zero
    return if Flt.lt best.1 l2 then (l2, i) else best) (Flt.zero, minor)

/-- `performHouseholderReflection`, `/repo/rrqr_decomposition.go:74-95`. The rows of `qrt` are distinct slices, so that
exchanging the slice headers is exchanging the rows. -/
def RRQR.reflect (minor : Nat) (s : RRQR α m n p) : Res (RRQR α m n p) := do
  let best ← RRQR.best minor s.qr.qrt
  let q := best.2
  if q ≠ minor then
    let pm ← s.p.get minor
    let pq ← s.p.get q
    let pv ← s.p.set minor pq
    let pv ← pv.set q pm
    let t : Tab α n m := ⟨fun i => s.qr.qrt.f (if i = minor then q else if i = q then minor else i)⟩
    return ⟨← QR.reflect minor ⟨t, s.qr.rDiag⟩, pv⟩
  else return ⟨← QR.reflect minor s.qr, s.p⟩

/-- `NewRRQRDecompositionWithThreshold` and `decompose`, `/repo/rrqr_decomposition.go:45-69`. -/
def RRQR.new (a : Mat α m n) : Res (RRQR α m n (min m n)) := do
  let _ ← a.colDim
  let t : Mat α n m ← a.transpose
  let t ← t.dataCopy
  let pv ← forUp 0 n (fun i (pv : Row Nat n) => pv.set i i) ⟨fun _ => 0⟩
  if n = 0 then throw .rt
  forUp 0 (min n m) RRQR.reflect ⟨⟨t, Row.zero _⟩, pv⟩

/-- `P`, `/repo/rrqr_decomposition.go:102-115`. -/
def RRQR.pMat (s : RRQR α m n p) : Res (Mat α n n) := do
  let a : Mat α n n ← (Mat.new (n : Int) (n : Int)).must
  forUp 0 n (fun i (a : Mat α n n) => do a.put (← s.p.get i) i Flt.one) a

/-- `Rank`, `/repo/rrqr_decomposition.go:131-147`. The loop ends because `rank` grows up to `min rows columns`. -/
def RRQR.rank (s : RRQR α m n p) (drop : α) : Res Nat := do
  let r ← s.qr.r
  let rNorm ← r.m.frobeniusNorm
  match ← forUpBrk 1 (min r.r r.c) (fun rank (lastNorm : α) => do
    let sub ← r.m.subMatrix rank ((r.r : Int) - 1) rank ((r.c : Int) - 1)
    let thisNorm ← sub.m.frobeniusNorm
    if Flt.eq thisNorm Flt.zero || Flt.lt (Flt.mul (Flt.div thisNorm lastNorm) rNorm) drop then
      return .inr rank
    else return .inl thisNorm) rNorm with
  | .inl _ => return max 1 (min r.r r.c)
  | .inr rank => return rank

/-- `IsNonSingular`, `/repo/rrqr_decomposition.go:171-173`. -/
def RRQR.isNonSingular (s : RRQR α m n p) (thr : α) : Res Bool := s.qr.isNonSingular thr

/-- `SolveVector`, `/repo/rrqr_decomposition.go:175-177`. Go evaluates `P()` first. -/
def RRQR.solveVector (s : RRQR α m n p) (thr : α) (b : RVec α) : Res (List α) := do
  let pm ← s.pMat
  let x ← s.qr.solveVector thr b
  pm.operateVector (.arr x)

/-- `SolveMatrix`, `/repo/rrqr_decomposition.go:179-181`. -/
def RRQR.solveMatrix {r q : Nat} (s : RRQR α m n p) (thr : α) (b : Mat α r q) : Res (SMat α) := do
  let pm ← s.pMat
  let x ← s.qr.solveMatrix thr b
  pm.multiply x.m

/-- `Inverse`, `/repo/rrqr_decomposition.go:183-190`: the identity has the size of `P`, the number of columns. -/
def RRQR.inverse (s : RRQR α m n p) (thr : α) : Res (SMat α) := do
  let pm ← s.pMat
  let _ := pm
  let i : Mat α n n ← (Mat.identity (n : Int)).must
  s.solveMatrix thr i

end Linear
