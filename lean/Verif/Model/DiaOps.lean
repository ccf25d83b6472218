import Verif.Model.BlkOps

/-!
# `DiagonalMatrix` (`/repo/diagonal_matrix.go`), method by method
-/

namespace Linear

variable {α : Type} [Flt α]

/-- A diagonal matrix whose dimension is only known at run time. (/repo/diagonal_matrix.go:24-26) -/
structure SDia (α : Type) where
  n : Nat
  m : Dia α n

/-- Contents of a caller's slice of known length as a row (the default is never read). (/repo/diagonal_matrix.go:42-55) -/
def rowOfList (n : Nat) (d : List α) : Row α n := ⟨fun i => d[i]?.getD Flt.zero⟩

/-- `NewDiagonalMatrixWithDimension`, `/repo/diagonal_matrix.go:28-36`. -/
def Dia.new (n : Int) : Res (Dia α n.toNat) := do
  if n < 1 then throw (.err .notSPos)
  return ⟨Row.zero _⟩

/-- `NewDiagonalMatrix`, `/repo/diagonal_matrix.go:42-55`, and `NewDiagonalMatrixFromSlice`, `/repo/diagonal_matrix.go:38-40` (`none` is nil).
Copied or not, the contents are those of the slice; sharing is treated in the heap model. -/
def Dia.fromSlice (data : Option (List α)) : Res (SDia α) :=
  match data with
  | none => .error (.err .inv)
  | some d => .ok ⟨d.length, ⟨rowOfList d.length d⟩⟩

section
variable {n : Nat}

/-- `Copy`, `/repo/diagonal_matrix.go:57-61`. -/
def Dia.copy (m : Dia α n) : Res (Dia α n) := do
  return ⟨← Row.build n (fun i => m.data.get i) .rt⟩

/-- The double loop `out.SetEntry(row, col, cell row col)` over a fresh diagonal matrix shared by
`Add`, `Subtract`, `ScalarAdd`, `ScalarMultiply`, `/repo/diagonal_matrix.go:92-96, 130-134, 475-479, 494-498`. A panic
inside loses the unfinished matrix, so only the fault is kept. -/
def Dia.fill (cell : Nat → Nat → Res α) : Res (Dia α n) :=
  forUp 0 n (fun row out => forUp 0 n (fun col (out : Dia α n) => do
    let v ← cell row col
    match out.setEntry row col v with
    | .ok o => .ok o
    | .error e => .error e.1) out) ⟨Row.zero n⟩

/-- `Add` of another diagonal matrix, `/repo/diagonal_matrix.go:64-78`. -/
def Dia.addDia {p : Nat} (a : Dia α n) (m : Dia α p) : Res (Dia α n) := do
  (checkAdditionCompatible n n p p).must
  return ⟨← Row.build n (fun i => do return Flt.add (← a.data.get i) (← m.data.get i)) .rt⟩

/-- `Add` of any other matrix, `/repo/diagonal_matrix.go:79-98`. -/
def Dia.addGen {p q : Nat} (a : Dia α n) (b : Mat α p q) : Res (Dia α n) := do
  (checkAdditionCompatible n n p q).must
  if n < 1 then throw (.pan .notSPos)
  Dia.fill fun row col => do return Flt.add (← a.at row col) (← b.at row col)

/-- `Add`, `/repo/diagonal_matrix.go:63-100`. -/
def Dia.add {p q : Nat} (a : Dia α n) : Mat α p q → Res (Dia α n)
  | .dia m => a.addDia m
  | .arr m => a.addGen (.arr m)
  | .blk m => a.addGen (.blk m)
  | .ext m => a.addGen (.ext m)

/-- `Subtract` of another diagonal matrix, `/repo/diagonal_matrix.go:103-116`. -/
def Dia.subDia {p : Nat} (a : Dia α n) (m : Dia α p) : Res (Dia α n) := do
  (checkAdditionCompatible n n p p).must
  return ⟨← Row.build n (fun i => do return Flt.sub (← a.data.get i) (← m.data.get i)) .rt⟩

/-- `Subtract` of any other matrix, `/repo/diagonal_matrix.go:117-136`. -/
def Dia.subGen {p q : Nat} (a : Dia α n) (b : Mat α p q) : Res (Dia α n) := do
  (checkAdditionCompatible n n p q).must
  if n < 1 then throw (.pan .notSPos)
  Dia.fill fun row col => do return Flt.sub (← a.at row col) (← b.at row col)

/-- `Subtract`, `/repo/diagonal_matrix.go:102-137`. -/
def Dia.subtract {p q : Nat} (a : Dia α n) : Mat α p q → Res (Dia α n)
  | .dia m => a.subDia m
  | .arr m => a.subGen (.arr m)
  | .blk m => a.subGen (.blk m)
  | .ext m => a.subGen (.ext m)

/-- `Multiply` by another diagonal matrix, `/repo/diagonal_matrix.go:144-155`. -/
def Dia.mulDia {p : Nat} (a : Dia α n) (m : Dia α p) : Res (Dia α n) := do
  return ⟨← Row.build n (fun i => do return Flt.mul (← a.data.get i) (← m.data.get i)) .rt⟩

/-- `Multiply` by any other matrix, `/repo/diagonal_matrix.go:157-169`: the product is handed to `copyIn`, which panics on
an empty table. -/
def Dia.mulGen {p q : Nat} (a : Dia α n) (m : Mat α p q) : Res (SArr α) := do
  let product ← Tab.build p q (fun r c => do return Flt.mul (← a.data.get r) (← m.at r c)) .rt
  Arr.copyIn (some product.toLists)

/-- `Data`, `/repo/diagonal_matrix.go:172-185`. -/
def Dia.dataCopy (m : Dia α n) : Res (Tab α n n) :=
  forUp 0 n (fun i t => do Jag.set t i i (← m.data.get i)) (Jag.zero n (fun _ => n))

/-- `Operate`, `/repo/diagonal_matrix.go:254-259`: the slice is wrapped in a diagonal matrix and multiplied. -/
def Dia.operate (m : Dia α n) (v : List α) : Res (List α) := do
  (checkMultiplicationCompatible n v.length).must
  let d ← m.mulDia (⟨rowOfList v.length v⟩ : Dia α v.length)
  return d.data.toList

/-- `OperateVector`, `/repo/diagonal_matrix.go:261-286`. -/
def Dia.operateVector (m : Dia α n) (v : RVec α) : Res (List α) :=
  match v with
  | .arr d => m.operate d
  | v => do
    if v.dim ≠ n then throw (.pan .dim)
    let out ← Row.build n (fun row =>
      sumUp 0 n (fun i => do return Flt.mul (← m.at row i) (← v.at i)) Flt.zero) .rt
    return out.toList

/-- `PreMultiply`, `/repo/diagonal_matrix.go:288-290`. -/
def Dia.preMultiply (m : Dia α n) (v : List α) : Res (List α) := m.operate v

/-- `PreMultiplyVector`, `/repo/diagonal_matrix.go:292-305`. -/
def Dia.preMultiplyVector (m : Dia α n) (v : RVec α) : Res (List α) :=
  match v with
  | .arr d => m.preMultiply d
  | .ext d => m.preMultiply d

/-- `equalsWithError`, `/repo/utils.go:78-80`. -/
def equalsWithError (x y eps : α) : Bool := Flt.ulpEq x y || Flt.le (Flt.abs (Flt.sub y x)) eps

/-- `IsSingular`, `/repo/diagonal_matrix.go:330-337`. -/
def Dia.isSingular (m : Dia α n) (threshold : α) : Res Bool := do
  let s ← forUpBrk 0 n (fun i (_ : Unit) => do
    return if equalsWithError (← m.data.get i) Flt.zero threshold then .inr () else .inl ()) ()
  return match s with
    | .inl _ => false
    | .inr _ => true

/-- `InverseWithThreshold`, `/repo/diagonal_matrix.go:315-328`, and `Inverse` (threshold `0`), `/repo/diagonal_matrix.go:311-313`. -/
def Dia.inverse (m : Dia α n) (threshold : α) : Res (Dia α n) := do
  if ← m.isSingular threshold then throw (.pan .sing)
  return ⟨← Row.build n (fun i => do return Flt.div Flt.one (← m.data.get i)) .rt⟩

/-- `ColumnAt`, `/repo/diagonal_matrix.go:339-350`, and `ColumnVectorAt`, `/repo/diagonal_matrix.go:384-388`. -/
def Dia.columnAt (m : Dia α n) (column : Int) : Res (List α) := do
  (checkColumnIndex n column).must
  let out ← Row.build n (fun i => m.at i column) .rt
  return out.toList

/-- `RowAt`, `/repo/diagonal_matrix.go:427-438`, and `RowVectorAt`, `/repo/diagonal_matrix.go:459-463`. -/
def Dia.rowAt (m : Dia α n) (row : Int) : Res (List α) := do
  (checkRowIndex n row).must
  let out ← Row.build n (fun i => m.at row i) .rt
  return out.toList

/-- `ColumnMatrixAt`, `/repo/diagonal_matrix.go:352-369`. -/
def Dia.columnMatrixAt (m : Dia α n) (column : Int) : Res (Dia α 1) := do
  (checkColumnIndex n column).must
  if 1 ≠ n then throw (.pan .dim)
  forUp 0 n (fun i (out : Dia α 1) => do
    let v ← m.at i column
    match out.setEntry i 0 v with
    | .ok o => .ok o
    | .error e => .error e.1) ⟨Row.zero 1⟩

/-- `RowMatrixAt`, `/repo/diagonal_matrix.go:440-457`. -/
def Dia.rowMatrixAt (m : Dia α n) (row : Int) : Res (Dia α 1) := do
  (checkRowIndex n row).must
  if 1 ≠ n then throw (.pan .dim)
  forUp 0 n (fun i (out : Dia α 1) => do
    let v ← m.at row i
    match out.setEntry 0 i v with
    | .ok o => .ok o
    | .error e => .error e.1) ⟨Row.zero 1⟩

/-- `SetColumnMatrix`, `/repo/diagonal_matrix.go:371-382`. -/
def Dia.setColumnMatrix {p q : Nat} (m : Dia α n) (column : Int) (b : Mat α p q) :
    Mut (Dia α n) := do
  (checkColumnIndex n column).must.at m
  if p ≠ n ∨ q ≠ 1 then throw (.pan .matDim, m)
  forUp 0 n (fun i m => do
    let v ← (b.at i 0).at m
    m.setEntry i column v) m

/-- `SetRowMatrix`, `/repo/diagonal_matrix.go:531-542`. -/
def Dia.setRowMatrix {p q : Nat} (m : Dia α n) (row : Int) (b : Mat α p q) :
    Mut (Dia α n) := do
  (checkRowIndex n row).must.at m
  if p ≠ 1 ∨ q ≠ n then throw (.pan .matDim, m)
  forUp 0 n (fun i m => do
    let v ← (b.at 0 i).at m
    m.setEntry row i v) m

/-- `SetColumnVector`, `/repo/diagonal_matrix.go:390-401`. -/
def Dia.setColumnVector (m : Dia α n) (column : Int) (v : RVec α) : Mut (Dia α n) := do
  (checkColumnIndex n column).must.at m
  if v.dim ≠ n then throw (.pan .matDim, m)
  forUp 0 n (fun i m => do
    let x ← (v.at i).at m
    m.setEntry i column x) m

/-- `SetRowVector`, `/repo/diagonal_matrix.go:544-556`. -/
def Dia.setRowVector (m : Dia α n) (row : Int) (v : RVec α) : Mut (Dia α n) := do
  (checkRowIndex n row).must.at m
  if v.dim ≠ n then throw (.pan .matDim, m)
  forUp 0 n (fun i m => do
    let x ← (v.at i).at m
    m.setEntry row i x) m

/-- `SetColumn`, `/repo/diagonal_matrix.go:503-516`. -/
def Dia.setColumn (m : Dia α n) (column : Int) (array : List α) : Mut (Dia α n) := do
  (checkColumnIndex n column).must.at m
  if array.length ≠ n then throw (.pan .matDim, m)
  forUp 0 n (fun i m => do
    let v ← (rdL array i).at m
    m.setEntry i column v) m

/-- `SetRow`, `/repo/diagonal_matrix.go:518-529`. -/
def Dia.setRow (m : Dia α n) (row : Int) (array : List α) : Mut (Dia α n) := do
  (checkRowIndex n row).must.at m
  if array.length ≠ n then throw (.pan .matDim, m)
  forUp 0 n (fun i m => do
    let v ← (rdL array i).at m
    m.setEntry row i v) m

/-- `Equals` on another matrix object, `/repo/diagonal_matrix.go:411-425`. -/
def Dia.equals {p q : Nat} (a : Dia α n) (b : Mat α p q) : Res Bool := do
  if q ≠ n ∨ p ≠ n then return false
  let s ← forUpBrk 0 n (fun row (_ : Unit) => do
    let t ← forUpBrk 0 n (fun col (_ : Unit) => do
      let x ← a.at row col
      let y ← b.at row col
      return if Flt.eq x y then .inl () else .inr ()) ()
    return t) ()
  return match s with
    | .inl _ => true
    | .inr _ => false

/-- `ScalarAdd`, `/repo/diagonal_matrix.go:465-482`. -/
def Dia.scalarAdd (a : Dia α n) (d : α) : Res (Dia α n) := do
  if n < 1 then throw (.pan .notSPos)
  Dia.fill fun row col => do return Flt.add (← a.at row col) d

/-- `ScalarMultiply`, `/repo/diagonal_matrix.go:484-501`. -/
def Dia.scalarMultiply (a : Dia α n) (d : α) : Res (Dia α n) := do
  if n < 1 then throw (.pan .notSPos)
  Dia.fill fun row col => do return Flt.mul (← a.at row col) d

/-- `SetSubMatrix`, `/repo/diagonal_matrix.go:558-588` (`none` is nil). The four index checks are made and their results
discarded, so they do not appear. -/
def Dia.setSubMatrix (m : Dia α n) (sub : Option (List (List α))) (row column : Int) :
    Mut (Dia α n) := do
  match sub with
  | none => throw (.pan .inv, m)
  | some sub =>
    let nRows := sub.length
    if nRows = 0 then throw (.pan .noDat, m)
    let nCols := (← (rdL sub 0).at m).length
    if nCols = 0 then throw (.pan .noDat, m)
    forUp 1 nRows (fun i (_ : Unit) => do
      if (← (rdL sub i).at m).length ≠ nCols then throw (Fault.pan .dim, m)) ()
    forUp 0 nRows (fun i m => forUp 0 nCols (fun j m => do
      let v ← (rdL (← (rdL sub i).at m) j).at m
      m.setEntry (row + i) (column + j) v) m) m

/-- `SubMatrix`, `/repo/diagonal_matrix.go:590-608` (the result of the index check is discarded). -/
def Dia.subMatrix (m : Dia α n) (startRow endRow startColumn endColumn : Int) :
    Res (Dia α (endRow - startRow + 1).toNat) := do
  if endRow - startRow + 1 ≠ endColumn - startColumn + 1 then throw (.pan .dim)
  if endRow - startRow + 1 < 1 then throw (.pan .notSPos)
  forUp 0 (endRow - startRow + 1).toNat (fun i out =>
    forUp 0 (endColumn - startColumn + 1).toNat
      (fun j (out : Dia α (endRow - startRow + 1).toNat) => do
        let v ← m.at (startRow + i) (startColumn + j)
        match out.setEntry i j v with
        | .ok o => .ok o
        | .error e => .error e.1) out) ⟨Row.zero _⟩

/-- `Trace`, `/repo/diagonal_matrix.go:610-621`. -/
def Dia.trace (m : Dia α n) : Res α := sumUp 0 n (fun i => m.at i i) Flt.zero

/-- `Transpose`, `/repo/diagonal_matrix.go:641-664`: a row-order walk with a visitor that sets `(column, row)`. -/
def Dia.transpose (m : Dia α n) : Res (Dia α n) :=
  forUp 0 n (fun i out => forUp 0 n (fun j (out : Dia α n) => do
    let v ← m.at i j
    match out.setEntry j i v with
    | .ok o => .ok o
    | .error e => .error e.1) out) ⟨Row.zero n⟩

end

end Linear
