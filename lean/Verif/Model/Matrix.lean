import Verif.Model.Walks

/-!
# The `RealMatrix` interface: method dispatch, factories and free functions

`/repo/real_matrix.go`. Calling a method on a `RealMatrix` value runs the method of its storage.
A foreign receiver runs foreign code, which is not modelled: those cases answer `.user`.
-/

namespace Linear

variable {α : Type} [Flt α] {τ : Type}

/-- A matrix whose dimensions are only known at run time. (/repo/real_matrix.go:24-325) -/
structure SMat (α : Type) where
  r : Nat
  c : Nat
  m : Mat α r c

/-- Result of a method that returns a `*Array2DRowRealMatrix` as a `RealMatrix`. (/repo/real_matrix.go:24-325) -/
def SArr.toSMat (s : SArr α) : SMat α := ⟨s.r, s.c, .arr s.m⟩

/-- Result of a method that returns a `*BlockRealMatrix` as a `RealMatrix`. (/repo/real_matrix.go:24-325) -/
def SBlk.toSMat (s : SBlk α) : SMat α := ⟨s.r, s.c, .blk s.m⟩

/-- Result of a method that returns a `*DiagonalMatrix` as a `RealMatrix`. (/repo/real_matrix.go:24-325) -/
def SDia.toSMat (s : SDia α) : SMat α := ⟨s.n, s.n, .dia s.m⟩

/-- A mutation of the underlying object seen through the interface value. (/repo/real_matrix.go:24-325) -/
def liftMut {σ τ : Type} (f : σ → τ) : Mut σ → Mut τ
  | .ok s => .ok (f s)
  | .error (e, s) => .error (e, f s)

/-- `ColumnDimension` of any storage; `RowDimension` is the type parameter. (/repo/real_matrix.go:33,
/repo/array_2d_row_real_matrix.go:402-416, /repo/block_real_matrix.go:965-971, /repo/diagonal_matrix.go:246-252) -/
def Mat.colDim {r c : Nat} : Mat α r c → Res Nat
  | .arr m => m.colDim
  | _ => .ok c

/-- Interface dispatch of `SetEntry`. (/repo/real_matrix.go:185) -/
def Mat.setEntry : {r c : Nat} → Mat α r c → Int → Int → α → Mut (Mat α r c)
  | _, _, .arr m, i, j, v => liftMut .arr (m.setEntry i j v)
  | _, _, .blk m, i, j, v => liftMut .blk (m.setEntry i j v)
  | _, _, .dia m, i, j, v => liftMut .dia (m.setEntry i j v)
  | _, _, .ext m, _, _, _ => .error (.user, .ext m)

/-- Interface dispatch of `AddToEntry`. (/repo/real_matrix.go:191) -/
def Mat.addToEntry : {r c : Nat} → Mat α r c → Int → Int → α → Mut (Mat α r c)
  | _, _, .arr m, i, j, v => liftMut .arr (m.addToEntry i j v)
  | _, _, .blk m, i, j, v => liftMut .blk (m.addToEntry i j v)
  | _, _, .dia m, i, j, v => liftMut .dia (m.addToEntry i j v)
  | _, _, .ext m, _, _, _ => .error (.user, .ext m)

/-- Interface dispatch of `MultiplyEntry`. (/repo/real_matrix.go:197) -/
def Mat.multiplyEntry : {r c : Nat} → Mat α r c → Int → Int → α → Mut (Mat α r c)
  | _, _, .arr m, i, j, v => liftMut .arr (m.multiplyEntry i j v)
  | _, _, .blk m, i, j, v => liftMut .blk (m.multiplyEntry i j v)
  | _, _, .dia m, i, j, v => liftMut .dia (m.multiplyEntry i j v)
  | _, _, .ext m, _, _, _ => .error (.user, .ext m)

/-- Interface dispatch of `SetRow`. (/repo/real_matrix.go:161) -/
def Mat.setRow : {r c : Nat} → Mat α r c → Int → List α → Mut (Mat α r c)
  | _, _, .arr m, i, l => liftMut .arr (m.setRow i l)
  | _, _, .blk m, i, l => liftMut .blk (m.setRow i l)
  | _, _, .dia m, i, l => liftMut .dia (m.setRow i l)
  | _, _, .ext m, _, _ => .error (.user, .ext m)

/-- Interface dispatch of `SetColumn`. (/repo/real_matrix.go:173) -/
def Mat.setColumn : {r c : Nat} → Mat α r c → Int → List α → Mut (Mat α r c)
  | _, _, .arr m, i, l => liftMut .arr (m.setColumn i l)
  | _, _, .blk m, i, l => liftMut .blk (m.setColumn i l)
  | _, _, .dia m, i, l => liftMut .dia (m.setColumn i l)
  | _, _, .ext m, _, _ => .error (.user, .ext m)

/-- Interface dispatch of `SetSubMatrix`. (/repo/real_matrix.go:102) -/
def Mat.setSubMatrix : {r c : Nat} → Mat α r c → Option (List (List α)) → Int → Int →
    Mut (Mat α r c)
  | _, _, .arr m, s, i, j => liftMut .arr (m.setSubMatrix s i j)
  | _, _, .blk m, s, i, j => liftMut .blk (m.setSubMatrix s i j)
  | _, _, .dia m, s, i, j => liftMut .dia (m.setSubMatrix s i j)
  | _, _, .ext m, _, _, _ => .error (.user, .ext m)

/-- Interface dispatch of `SetRowMatrix`. (/repo/real_matrix.go:114) -/
def Mat.setRowMatrix {p q : Nat} : {r c : Nat} → Mat α r c → Int → Mat α p q → Mut (Mat α r c)
  | _, _, .arr m, i, b => liftMut .arr (m.setRowMatrix i b)
  | _, _, .blk m, i, b => liftMut .blk (m.setRowMatrix i b)
  | _, _, .dia m, i, b => liftMut .dia (m.setRowMatrix i b)
  | _, _, .ext m, _, _ => .error (.user, .ext m)

/-- Interface dispatch of `SetColumnMatrix`. (/repo/real_matrix.go:126) -/
def Mat.setColumnMatrix {p q : Nat} : {r c : Nat} → Mat α r c → Int → Mat α p q → Mut (Mat α r c)
  | _, _, .arr m, i, b => liftMut .arr (m.setColumnMatrix i b)
  | _, _, .blk m, i, b => liftMut .blk (m.setColumnMatrix i b)
  | _, _, .dia m, i, b => liftMut .dia (m.setColumnMatrix i b)
  | _, _, .ext m, _, _ => .error (.user, .ext m)

/-- Interface dispatch of `SetRowVector`. (/repo/real_matrix.go:138) -/
def Mat.setRowVector : {r c : Nat} → Mat α r c → Int → RVec α → Mut (Mat α r c)
  | _, _, .arr m, i, b => liftMut .arr (m.setRowVector i b)
  | _, _, .blk m, i, b => liftMut .blk (m.setRowVector i b)
  | _, _, .dia m, i, b => liftMut .dia (m.setRowVector i b)
  | _, _, .ext m, _, _ => .error (.user, .ext m)

/-- Interface dispatch of `SetColumnVector`. (/repo/real_matrix.go:150) -/
def Mat.setColumnVector : {r c : Nat} → Mat α r c → Int → RVec α → Mut (Mat α r c)
  | _, _, .arr m, i, b => liftMut .arr (m.setColumnVector i b)
  | _, _, .blk m, i, b => liftMut .blk (m.setColumnVector i b)
  | _, _, .dia m, i, b => liftMut .dia (m.setColumnVector i b)
  | _, _, .ext m, _, _ => .error (.user, .ext m)

/-- Interface dispatch of `Add`. (/repo/real_matrix.go:52) -/
def Mat.add {p q : Nat} : {r c : Nat} → Mat α r c → Mat α p q → Res (Mat α r c)
  | _, _, .arr m, b => do return .arr (← m.add b)
  | _, _, .blk m, b => do return .blk (← m.add b)
  | _, _, .dia m, b => do return .dia (← m.add b)
  | _, _, .ext _, _ => .error .user

/-- Interface dispatch of `Subtract`. (/repo/real_matrix.go:56) -/
def Mat.subtract {p q : Nat} : {r c : Nat} → Mat α r c → Mat α p q → Res (Mat α r c)
  | _, _, .arr m, b => do return .arr (← m.subtract b)
  | _, _, .blk m, b => do return .blk (← m.subtract b)
  | _, _, .dia m, b => do return .dia (← m.subtract b)
  | _, _, .ext _, _ => .error .user

/-- Interface dispatch of `ScalarAdd`. (/repo/real_matrix.go:60) -/
def Mat.scalarAdd : {r c : Nat} → Mat α r c → α → Res (Mat α r c)
  | _, _, .arr m, d => do return .arr (← m.scalarAdd d)
  | _, _, .blk m, d => do return .blk (← m.scalarAdd d)
  | _, _, .dia m, d => do return .dia (← m.scalarAdd d)
  | _, _, .ext _, _ => .error .user

/-- Interface dispatch of `ScalarMultiply`. (/repo/real_matrix.go:65) -/
def Mat.scalarMultiply : {r c : Nat} → Mat α r c → α → Res (Mat α r c)
  | _, _, .arr m, d => do return .arr (← m.scalarMultiply d)
  | _, _, .blk m, d => do return .blk (← m.scalarMultiply d)
  | _, _, .dia m, d => do return .dia (← m.scalarMultiply d)
  | _, _, .ext _, _ => .error .user

/-- `Multiply` of a diagonal matrix after the dimension check, `/repo/diagonal_matrix.go:144-169`. -/
def Dia.mulAny {n p q : Nat} (a : Dia α n) : Mat α p q → Res (SMat α)
  | .dia m => Except.map (fun d => ⟨n, n, .dia d⟩) (a.mulDia m)
  | .arr m => Except.map SArr.toSMat (a.mulGen (.arr m))
  | .blk m => Except.map SArr.toSMat (a.mulGen (.blk m))
  | .ext m => Except.map SArr.toSMat (a.mulGen (.ext m))

/-- `Multiply` of a diagonal matrix, `/repo/diagonal_matrix.go:139-170`. -/
def Dia.multiply {n p q : Nat} (a : Dia α n) (b : Mat α p q) : Res (SMat α) := do
  (checkMultiplicationCompatible n p).must
  a.mulAny b

/-- Interface dispatch of `Multiply`. (/repo/real_matrix.go:69) -/
def Mat.multiply {p q : Nat} : {r c : Nat} → Mat α r c → Mat α p q → Res (SMat α)
  | _, _, .arr m, b => do return ⟨_, _, .arr (← m.multiply b)⟩
  | _, _, .blk m, b => do return ⟨_, _, .blk (← m.multiply b)⟩
  | _, _, .dia m, b => m.multiply b
  | _, _, .ext _, _ => .error .user

/-- Interface dispatch of `Copy`. (/repo/real_matrix.go:48) -/
def Mat.copy : {r c : Nat} → Mat α r c → Res (SMat α)
  | _, _, .arr m => do return (← m.copy).toSMat
  | _, _, .blk m => do return ⟨_, _, .blk (← m.copy)⟩
  | _, _, .dia m => do return ⟨_, _, .dia (← m.copy)⟩
  | _, _, .ext _ => .error .user

/-- Interface dispatch of `Data`. (/repo/real_matrix.go:78) -/
def Mat.dataCopy : {r c : Nat} → Mat α r c → Res (Tab α r c)
  | _, _, .arr m => m.dataCopy
  | _, _, .blk m => m.dataCopy
  | _, _, .dia m => m.dataCopy
  | _, _, .ext _ => .error .user

/-- Interface dispatch of `Operate`. (/repo/real_matrix.go:211) -/
def Mat.operate : {r c : Nat} → Mat α r c → List α → Res (List α)
  | _, _, .arr m, v => m.operate v
  | _, _, .blk m, v => m.operate v
  | _, _, .dia m, v => m.operate v
  | _, _, .ext _, _ => .error .user

/-- Interface dispatch of `OperateVector`. (/repo/real_matrix.go:216) -/
def Mat.operateVector : {r c : Nat} → Mat α r c → RVec α → Res (List α)
  | _, _, .arr m, v => m.operateVector v
  | _, _, .blk m, v => m.operateVector v
  | _, _, .dia m, v => m.operateVector v
  | _, _, .ext _, _ => .error .user

/-- Interface dispatch of `PreMultiply`. (/repo/real_matrix.go:221) -/
def Mat.preMultiply : {r c : Nat} → Mat α r c → List α → Res (List α)
  | _, _, .arr m, v => m.preMultiply v
  | _, _, .blk m, v => m.preMultiply v
  | _, _, .dia m, v => m.preMultiply v
  | _, _, .ext _, _ => .error .user

/-- Interface dispatch of `PreMultiplyVector`. (/repo/real_matrix.go:227) -/
def Mat.preMultiplyVector : {r c : Nat} → Mat α r c → RVec α → Res (List α)
  | _, _, .arr m, v => m.preMultiplyVector v
  | _, _, .blk m, v => m.preMultiplyVector v
  | _, _, .dia m, v => m.preMultiplyVector v
  | _, _, .ext _, _ => .error .user

/-- Interface dispatch of `Transpose`. (/repo/real_matrix.go:201) -/
def Mat.transpose : {r c : Nat} → Mat α r c → Res (Mat α c r)
  | _, _, .arr m => do return .arr (← m.transpose)
  | _, _, .blk m => do return .blk (← m.transpose)
  | _, _, .dia m => do return .dia (← m.transpose)
  | _, _, .ext _ => .error .user

/-- Interface dispatch of `Trace`. (/repo/real_matrix.go:206) -/
def Mat.trace : {r c : Nat} → Mat α r c → Res α
  | _, _, .arr m => m.trace
  | _, _, .blk m => m.trace
  | _, _, .dia m => m.trace
  | _, _, .ext _ => .error .user

/-- Interface dispatch of `SubMatrix`. (/repo/real_matrix.go:84) -/
def Mat.subMatrix : {r c : Nat} → Mat α r c → Int → Int → Int → Int → Res (SMat α)
  | _, _, .arr m, sr, er, sc, ec => do return ⟨_, _, .arr (← m.subMatrix sr er sc ec)⟩
  | _, _, .blk m, sr, er, sc, ec => do return ⟨_, _, .blk (← m.subMatrix sr er sc ec)⟩
  | _, _, .dia m, sr, er, sc, ec => do return ⟨_, _, .dia (← m.subMatrix sr er sc ec)⟩
  | _, _, .ext _, _, _, _, _ => .error .user

/-- Interface dispatch of `RowAt` (and `RowVectorAt`, which wraps it in an `ArrayRealVector`). (/repo/real_matrix.go:155) -/
def Mat.rowAt : {r c : Nat} → Mat α r c → Int → Res (List α)
  | _, _, .arr m, i => m.rowAt i
  | _, _, .blk m, i => m.rowAt i
  | _, _, .dia m, i => m.rowAt i
  | _, _, .ext _, _ => .error .user

/-- Interface dispatch of `ColumnAt` (and `ColumnVectorAt`). (/repo/real_matrix.go:167) -/
def Mat.columnAt : {r c : Nat} → Mat α r c → Int → Res (List α)
  | _, _, .arr m, i => m.columnAt i
  | _, _, .blk m, i => m.columnAt i
  | _, _, .dia m, i => m.columnAt i
  | _, _, .ext _, _ => .error .user

/-- Interface dispatch of `RowMatrixAt`. (/repo/real_matrix.go:108) -/
def Mat.rowMatrixAt : {r c : Nat} → Mat α r c → Int → Res (SMat α)
  | _, _, .arr m, i => do return ⟨_, _, .arr (← m.rowMatrixAt i)⟩
  | _, _, .blk m, i => do return ⟨_, _, .blk (← m.rowMatrixAt i)⟩
  | _, _, .dia m, i => do return ⟨_, _, .dia (← m.rowMatrixAt i)⟩
  | _, _, .ext _, _ => .error .user

/-- Interface dispatch of `ColumnMatrixAt`. (/repo/real_matrix.go:120) -/
def Mat.columnMatrixAt : {r c : Nat} → Mat α r c → Int → Res (SMat α)
  | _, _, .arr m, i => do return ⟨_, _, .arr (← m.columnMatrixAt i)⟩
  | _, _, .blk m, i => do return ⟨_, _, .blk (← m.columnMatrixAt i)⟩
  | _, _, .dia m, i => do return ⟨_, _, .dia (← m.columnMatrixAt i)⟩
  | _, _, .ext _, _ => .error .user

/-- Interface dispatch of `Equals` on a distinct object. (/repo/real_matrix.go:232) -/
def Mat.equals {p q : Nat} : {r c : Nat} → Mat α r c → Mat α p q → Res Bool
  | _, _, .arr m, b => m.equals b
  | _, _, .blk m, b => m.equals b
  | _, _, .dia m, b => m.equals b
  | _, _, .ext _, _ => .error .user

/-- Interface dispatch of `WalkInColumnOrder`. (/repo/real_matrix.go:280) -/
def Mat.walkCol : {r c : Nat} → Mat α r c → VisP α τ → τ → Res (τ × α)
  | _, _, .arr m, v, t => m.walkCol v t
  | _, _, .blk m, v, t => m.walkCol v t
  | _, _, .dia m, v, t => m.walkCol v t
  | _, _, .ext _, _, _ => .error .user

/-- Interface dispatch of `WalkInOptimizedOrder`. (/repo/real_matrix.go:310) -/
def Mat.walkOpt : {r c : Nat} → Mat α r c → VisP α τ → τ → Res (τ × α)
  | _, _, .arr m, v, t => m.walkRow v t
  | _, _, .blk m, v, t => m.walkOpt v t
  | _, _, .dia m, v, t => m.walkRow v t
  | _, _, .ext _, _, _ => .error .user

/-- Interface dispatch of `WalkInUpdateRowOrder`. (/repo/real_matrix.go:240) -/
def Mat.updRow : {r c : Nat} → Mat α r c → VisC α τ → τ →
    Except (Fault × Mat α r c) ((τ × α) × Mat α r c)
  | _, _, .arr m, v, t => match m.updRow v t with
    | .ok (x, m) => .ok (x, .arr m)
    | .error (e, m) => .error (e, .arr m)
  | _, _, .blk m, v, t => match m.updRow v t with
    | .ok (x, m) => .ok (x, .blk m)
    | .error (e, m) => .error (e, .blk m)
  | _, _, .dia m, v, t => match m.updRow v t with
    | .ok (x, m) => .ok (x, .dia m)
    | .error (e, m) => .error (e, .dia m)
  | _, _, .ext m, _, _ => .error (.user, .ext m)

/-! ## Factories (`/repo/real_matrix.go:327-374`) -/

/-- `NewRealMatrixWithDimension`, `/repo/real_matrix.go:327-333`. The product `rows*columns` is taken over unbounded
integers (no wrap-around). -/
def Mat.new (rows columns : Int) : Res (Mat α rows.toNat columns.toNat) := do
  if rows * columns ≤ 4096 then
    return .arr (← Arr.new rows columns)
  else
    return .blk (← Blk.new rows columns)

/-- `NewRealMatrixFromSlices`, `/repo/real_matrix.go:335-345`. `none` is a nil slice, `firstNil` says whether
`data[0]` is nil (as opposed to empty; only meaningful when it has no element). -/
def SMat.fromSlices (data : Option (List (List α))) (firstNil : Bool) : Res (SMat α) := do
  match data with
  | none => throw (.err .inv)
  | some d =>
    let row0 ← rdL d 0
    if row0.length = 0 ∧ firstNil then throw (.err .inv)
    if d.length * row0.length ≤ 4096 then
      return (← Arr.fromSlices (some d) true fun _ => 0).toSMat
    else
      return (← Blk.fromSlices d).toSMat

/-- A statement `m.SetEntry(i, j, v)` on a fresh matrix: a panic loses the matrix. (/repo/real_matrix.go:185) -/
def Mat.put {r c : Nat} (m : Mat α r c) (i j : Int) (v : α) : Res (Mat α r c) :=
  match m.setEntry i j v with
  | .ok m => .ok m
  | .error e => .error e.1

/-- `NewRealIdentityMatrix`, `/repo/real_matrix.go:347-358`. -/
def Mat.identity (n : Int) : Res (Mat α n.toNat n.toNat) := do
  let m ← Mat.new n n
  forUp 0 n.toNat (fun i m => m.put i i Flt.one) m

/-- `NewRealMatrixWithDiagonal`, `/repo/real_matrix.go:360-371`. -/
def Mat.withDiagonal (d : List α) : Res (SMat α) := do
  let m ← Mat.new d.length d.length
  let m ← forUp 0 d.length (fun i m => do m.put i i (← rdL d i)) m
  return ⟨_, _, m⟩

/-- `NewRealDiagonalMatrix`, `/repo/real_matrix.go:373-375`. -/
def SMat.diagonal (d : Option (List α)) : Res (SMat α) := do
  return (← Dia.fromSlice d).toSMat

/-! ## Free functions -/

/-- `checkSubMatrixIndexFromIndices`, `/repo/array_2d_row_real_matrix.go:912-939` (`none` is nil). -/
def checkSubMatrixIndexFromIndices (r c : Nat) (rows columns : Option (List Int)) : Res Unit := do
  match rows, columns with
  | some rows, some columns =>
    if rows.length = 0 then throw (.err .noDat)
    if columns.length = 0 then throw (.err .noDat)
    rows.forM (checkRowIndex r)
    columns.forM (checkColumnIndex c)
  | _, _ => throw (.err .inv)

/-- `CopySubMatrix`, `/repo/real_matrix.go:398-420`, into a caller's slice of slices. -/
def Mat.copySubMatrix {r c : Nat} (m : Mat α r c) (sr er sc ec : Int) (dest : List (List α)) :
    Mut (List (List α)) := do
  (checkSubMatrixIndex r c sr er sc ec).must.at dest
  let rowsCount := (er + 1 - sr).toNat
  let columnsCount := (ec + 1 - sc).toNat
  let row0 ← (rdL dest 0).at dest
  if dest.length < rowsCount ∨ row0.length < columnsCount then throw (.pan .matDim, dest)
  forUp 1 rowsCount (fun i (_ : Unit) => do
    if (← (rdL dest i).at dest).length < columnsCount then throw (Fault.pan .matDim, dest)) ()
  forUp 0 rowsCount (fun i d => forUp 0 columnsCount (fun j (d : List (List α)) => do
    let row ← (rdL d i).at d
    let v ← (m.at (sr + i) (sc + j)).at d
    if j < row.length then return d.set i (row.set j v) else throw (Fault.rt, d)) d) dest

/-- `CopySubMatrixFromIndices`, `/repo/real_matrix.go:425-444`. -/
def Mat.copySubMatrixFromIndices {r c : Nat} (m : Mat α r c) (rows columns : Option (List Int))
    (dest : List (List α)) : Mut (List (List α)) := do
  (checkSubMatrixIndexFromIndices r c rows columns).must.at dest
  let rows := rows.getD []
  let columns := columns.getD []
  let row0 ← (rdL dest 0).at dest
  if dest.length < rows.length ∨ row0.length < columns.length then throw (.pan .matDim, dest)
  forUp 0 rows.length (fun i (d : List (List α)) => do
    let row ← (rdL d i).at d
    if row.length < columns.length then throw (Fault.pan .matDim, d)
    forUp 0 columns.length (fun j (d : List (List α)) => do
      let row ← (rdL d i).at d
      let v ← (m.at (← (rdL rows i).at d) (← (rdL columns j).at d)).at d
      if j < row.length then return d.set i (row.set j v) else throw (Fault.rt, d)) d) dest

/-- `SubMatrix` from index lists, `/repo/real_matrix.go:462-477`. The result of the index check is discarded; the
fresh matrix is filled by an updating row-order walk whose visitor reads `m`. -/
def Mat.subMatrixOf {r c : Nat} (m : Mat α r c) (rows columns : List Int) : Res (SMat α) := do
  let out ← (Mat.new rows.length columns.length).must
  let vis : VisC α Unit :=
    { start := fun _ _ _ _ _ _ t => .ok t
      visit := fun i j _ t => do
        let v ← m.at (← rdL rows i.toNat) (← rdL columns j.toNat)
        return (t, v)
      fin := fun t => .ok (t, Flt.zero) }
  match out.updRow vis () with
  | .ok (_, out) => return ⟨_, _, out⟩
  | .error (e, _) => throw e

/-- `IsSquare`, `/repo/real_matrix.go:482-484`. -/
def Mat.isSquare {r c : Nat} (m : Mat α r c) : Res Bool := do return (← m.colDim) == r

/-- `Multiply` of two matrices of run-time dimensions. (/repo/real_matrix.go:69) -/
def SMat.multiply (a b : SMat α) : Res (SMat α) := a.m.multiply b.m

/-- Positions of the `1` digits of `strconv.FormatInt(power, 2)`, most significant first, `/repo/real_matrix.go:521-535`. `strconv` is taken to give the usual binary representation. -/
def onePositions (power : Nat) : List Nat :=
  (List.range (Nat.size power)).reverse.filter power.testBit

/-- Go `x[i]` on a slice of matrices. (/repo/real_matrix.go:490-551) -/
def rdS {β : Type} (l : List β) (i : Nat) : Res β := rdL l i

/-- `Power`, `/repo/real_matrix.go:490-551`. `results` is filled in order, so it is a list that grows. -/
def Mat.power {r c : Nat} (m : Mat α r c) (p : Int) : Res (SMat α) := do
  if p < 0 then throw (.pan .notPos)
  if !(← m.isSquare) then throw (.pan .sqMat)
  if p = 0 then
    let id : Mat α (r : Int).toNat (r : Int).toNat ← (Mat.identity (r : Int)).must
    return ⟨_, _, id⟩
  if p = 1 then
    m.copy
  else
    let power := (p - 1).toNat
    let nonZero := onePositions power
    let maxI ← rdL nonZero 0
    let results ← forUp 1 (maxI + 1) (fun i (res : List (SMat α)) => do
      let x ← rdS res (i - 1)
      return res ++ [← x.multiply x]) [← m.copy]
    nonZero.foldlM (fun result i => do result.multiply (← rdS results i)) (← m.copy)

/-- Visitor of `MatLInfNorm`, `/repo/real_matrix.go:553-574`: state is `(endRow, columnSum, maxColSum)`. -/
def normVis : VisP α (Int × α × α) where
  start _ _ _ endRow _ _ _ := .ok (endRow, Flt.zero, Flt.zero)
  visit row _ value t :=
    let s := Flt.add t.2.1 (Flt.abs value)
    if row = t.1 then .ok (t.1, Flt.zero, Flt.fmax t.2.2 s) else .ok (t.1, s, t.2.2)
  fin t := .ok (t, t.2.2)

/-- `MatLInfNorm`, `/repo/real_matrix.go:579-581`. -/
def Mat.lInfNorm {r c : Nat} (m : Mat α r c) : Res α := do
  return (← m.walkCol normVis (0, Flt.zero, Flt.zero)).2

/-- Visitor of `MatFrobeniusNorm`, `/repo/real_matrix.go:583-597`. -/
def frobVis : VisP α α where
  start _ _ _ _ _ _ _ := .ok Flt.zero
  visit _ _ value t := .ok (Flt.add t (Flt.mul value value))
  fin t := .ok (t, Flt.sqrt t)

/-- `MatFrobeniusNorm`, `/repo/real_matrix.go:602-604`. -/
def Mat.frobeniusNorm {r c : Nat} (m : Mat α r c) : Res α := do
  return (← m.walkOpt frobVis Flt.zero).2

/-- `OuterProduct`, `/repo/real_matrix.go:609-628`. -/
def outerProduct (u v : RVec α) : Res (SMat α) := do
  let out ← (Mat.new u.dim v.dim).must
  let out ← forUp 0 u.dim (fun i out => forUp 0 v.dim (fun j out => do
    out.put i j (Flt.mul (← u.at i) (← v.at j))) out) out
  return ⟨_, _, out⟩

end Linear
