import Verif.Model.Storage

/-!
# `Array2DRowRealMatrix` (`/repo/array_2d_row_real_matrix.go`), method by method
-/

namespace Linear

variable {α : Type} [Flt α]

/-- A row-array matrix whose dimensions are only known at run time. (/repo/array_2d_row_real_matrix.go:20-22) -/
structure SArr (α : Type) where
  r : Nat
  c : Nat
  m : Arr α r c

/-- `NewArray2DRowRealMatrix`, `/repo/array_2d_row_real_matrix.go:24-38`. -/
def Arr.new (r c : Int) : Res (Arr α r.toNat c.toNat) := do
  if r < 1 then throw (.err .notSPos)
  if c < 1 then throw (.err .notSPos)
  return { data := Jag.zero _ _ }

/-- `copy(dst[i][0:n], src[0:n])`: element by element (source and destination are disjoint). (/repo/array_2d_row_real_matrix.go:313) -/
def copyRowL {r c : Nat} (t : Tab α r c) (i n : Nat) (src : List α) : Res (Tab α r c) :=
  forUp 0 n (fun j t => do t.set i j (← rdL src j)) t

/-- `copyIn` on a fresh matrix, `/repo/array_2d_row_real_matrix.go:274-314` (`SetSubMatrix(in, 0, 0)` with `data == nil`).
`none` is a nil slice. -/
def Arr.copyIn (sub : Option (List (List α))) : Res (SArr α) := do
  match sub with
  | none => throw (.pan .inv)
  | some sub =>
    if sub.length = 0 then throw (.pan .noDat)
    let nCols := (← rdL sub 0).length
    if nCols = 0 then throw (.pan .noDat)
    let d ← forUp 0 sub.length (fun i t => do
      let row ← rdL sub i
      if row.length ≠ nCols then throw (.pan .dim)
      copyRowL t i nCols row) (Jag.zero sub.length (fun _ => nCols))
    return ⟨sub.length, nCols, { data := d }⟩

/-- Reading a caller-supplied slice of slices that is kept by reference: contents by position. The
default is never read (see `Arr.fromSlices`: all rows have the same length). (/repo/array_2d_row_real_matrix.go:61) -/
def tabOfLists (r c : Nat) (d : List (List α)) : Tab α r c :=
  ⟨fun i j => ((d[i]?.getD [])[j]?).getD Flt.zero⟩

/-- `NewArray2DRowRealMatrixFromSlices`, `/repo/array_2d_row_real_matrix.go:40-65`. `slack` gives the spare capacity of the
caller's rows (kept when `copyArray` is false). -/
def Arr.fromSlices (data : Option (List (List α))) (copyArray : Bool) (slack : Nat → Nat) :
    Res (SArr α) := do
  if copyArray then
    Arr.copyIn data
  else
    match data with
    | none => throw (.err .inv)
    | some data =>
      if data.length = 0 then throw (.err .noDat)
      let nCols := (← rdL data 0).length
      if nCols = 0 then throw (.err .noDat)
      forUp 1 data.length (fun r _ => do
        if (← rdL data r).length ≠ nCols then throw (.err .dim)) ()
      return ⟨data.length, nCols, { data := tabOfLists data.length nCols data, slack := slack }⟩

/-- `NewArray2DRowRealMatrixFromSlice`, `/repo/array_2d_row_real_matrix.go:67-85` (`none` is nil). -/
def Arr.fromSlice (v : Option (List α)) : Res (SArr α) := do
  match v with
  | none => throw (.err .inv)
  | some v =>
    let d ← forUp 0 v.length (fun row t => do Jag.set t row 0 (← rdL v row))
      (Jag.zero v.length (fun _ => 1))
    return ⟨v.length, 1, { data := d }⟩

section
variable {r c : Nat}

/-- `copyOut` and `Data`, `/repo/array_2d_row_real_matrix.go:266-268, 681-689`. -/
def Arr.dataCopy (m : Arr α r c) : Res (Tab α r c) := do
  Tab.build r c (fun i j => m.data.get i j) .rt

/-- `Copy`, `/repo/array_2d_row_real_matrix.go:87-91`: `copyIn(copyOut())`. -/
def Arr.copy (m : Arr α r c) : Res (SArr α) := do
  let d ← m.dataCopy
  Arr.copyIn (some d.toLists)

/-- `Add`, `/repo/array_2d_row_real_matrix.go:93-132`. Both branches run the same loop; the first reads `m.data` directly, the
second goes through the interface. -/
def Arr.add {p q : Nat} (a : Arr α r c) (b : Mat α p q) : Res (Arr α r c) := do
  let nc ← a.colDim
  (checkAdditionCompatible r nc p q).must
  let cell : Nat → Nat → Res α := match b with
    | .arr m => fun row col => do return Flt.add (← a.data.get row col) (← m.data.get row col)
    | m => fun row col => do return Flt.add (← a.data.get row col) (← m.at row col)
  return { data := ← Tab.build r c cell .rt }

/-- `Subtract`, `/repo/array_2d_row_real_matrix.go:134-172`. -/
def Arr.subtract {p q : Nat} (a : Arr α r c) (b : Mat α p q) : Res (Arr α r c) := do
  let nc ← a.colDim
  (checkAdditionCompatible r nc p q).must
  let cell : Nat → Nat → Res α := match b with
    | .arr m => fun row col => do return Flt.sub (← a.data.get row col) (← m.data.get row col)
    | m => fun row col => do return Flt.sub (← a.data.get row col) (← m.at row col)
  return { data := ← Tab.build r c cell .rt }

/-- `Multiply`, row-array by row-array branch, `/repo/array_2d_row_real_matrix.go:181-205`: column by column through the scratch
slice `mCol`, which is reused between columns. -/
def Arr.mulArr {p q : Nat} (a : Arr α r c) (m : Arr α p q) : Res (Tab α r q) := do
  let nCols ← m.colDim
  let s ← forUp 0 nCols (fun col (s : Tab α r q × Row α c) => do
    let mCol ← forUp 0 c (fun mRow mCol => do Row.set mCol mRow (← m.data.get mRow col)) s.2
    let out ← forUp 0 r (fun row out => do
      let sum ← sumUp 0 c (fun i => do return Flt.mul (← a.data.get row i) (← mCol.get i)) Flt.zero
      Jag.set out row col sum) s.1
    return (out, mCol)) (Jag.zero r _, Row.zero c)
  return s.1

/-- `Multiply`, other operands, `/repo/array_2d_row_real_matrix.go:208-223`. -/
def Arr.mulGen {p q : Nat} (a : Arr α r c) (m : Mat α p q) : Res (Tab α r q) :=
  Tab.build r q (fun row col =>
    sumUp 0 c (fun i => do return Flt.mul (← a.data.get row i) (← m.at i col)) Flt.zero) .rt

/-- `Multiply`, `/repo/array_2d_row_real_matrix.go:174-230`. -/
def Arr.multiply {p q : Nat} (a : Arr α r c) (b : Mat α p q) : Res (Arr α r q) := do
  let nc ← a.colDim
  (checkMultiplicationCompatible nc p).must
  match b with
  | .arr m => return { data := ← a.mulArr m }
  | m => return { data := ← a.mulGen m }

/-- `ScalarAdd`, `/repo/array_2d_row_real_matrix.go:232-247`. -/
def Arr.scalarAdd (a : Arr α r c) (d : α) : Res (Arr α r c) := do
  let _ ← a.colDim
  return { data := ← Tab.build r c (fun i j => do return Flt.add (← a.data.get i j) d) .rt }

/-- `ScalarMultiply`, `/repo/array_2d_row_real_matrix.go:249-264`. -/
def Arr.scalarMultiply (a : Arr α r c) (d : α) : Res (Arr α r c) := do
  let _ ← a.colDim
  return { data := ← Tab.build r c (fun i j => do return Flt.mul (← a.data.get i j) d) .rt }

/-- `SetSubMatrix` on an initialised matrix, `/repo/array_2d_row_real_matrix.go:278-343` (`none` is nil). -/
def Arr.setSubMatrix (m : Arr α r c) (sub : Option (List (List α))) (row column : Int) :
    Mut (Arr α r c) := do
  match sub with
  | none => throw (.pan .inv, m)
  | some sub =>
    let nRows := sub.length
    if nRows = 0 then throw (.pan .noDat, m)
    let nCols := (← (rdL sub 0).at m).length
    if nCols = 0 then throw (.pan .noDat, m)
    forUp 1 nRows (fun i (_ : Unit) => do
      if (← (rdL sub i).at m).length ≠ nCols then throw (Fault.pan .dim, m)) ()
    (checkRowIndex r row).must.at m
    let nc ← m.colDim.at m
    (checkColumnIndex nc column).must.at m
    (checkRowIndex r (nRows + row - 1)).must.at m
    (checkColumnIndex nc (nCols + column - 1)).must.at m
    forUp 0 nRows (fun i m => forUp 0 nCols (fun j m => do
      let v ← (rdL (← (rdL sub i).at m) j).at m
      m.setEntry (row + i) (column + j) v) m) m

/-- `ColumnAt`, `/repo/array_2d_row_real_matrix.go:352-363`. -/
def Arr.columnAt (m : Arr α r c) (column : Int) : Res (List α) := do
  let nc ← m.colDim
  (checkColumnIndex nc column).must
  let out ← Row.build r (fun i => m.data.get i column.toNat) .rt
  return out.toList

/-- `SetColumn`, `/repo/array_2d_row_real_matrix.go:365-376`. -/
def Arr.setColumn (m : Arr α r c) (column : Int) (array : List α) : Mut (Arr α r c) := do
  let nc ← m.colDim.at m
  (checkColumnIndex nc column).must.at m
  if array.length ≠ r then throw (.pan .matDim, m)
  forUp 0 r (fun i m => do
    let v ← (rdL array i).at m
    let d ← (m.data.set i column.toNat v).at m
    return { m with data := d }) m

/-- `Transpose`, `/repo/array_2d_row_real_matrix.go:418-434`. -/
def Arr.transpose (m : Arr α r c) : Res (Arr α c r) := do
  let _ ← m.colDim
  let d ← forUp 0 r (fun i t => forUp 0 c (fun j t => do
    Jag.set t j i (← m.data.get i j)) t) (Jag.zero c (fun _ => r))
  return { data := d }

/-- `Trace`, `/repo/array_2d_row_real_matrix.go:436-447`. -/
def Arr.trace (m : Arr α r c) : Res α := do
  let nc ← m.colDim
  if r ≠ nc then throw (.pan .sqMat)
  sumUp 0 r (fun i => m.data.get i i) Flt.zero

/-- `Operate`, `/repo/array_2d_row_real_matrix.go:449-464`. -/
def Arr.operate (m : Arr α r c) (v : List α) : Res (List α) := do
  let nc ← m.colDim
  if v.length ≠ nc then throw (.pan .dim)
  let out ← Row.build r (fun row =>
    sumUp 0 c (fun i => do return Flt.mul (← m.data.get row i) (← rdL v i)) Flt.zero) .rt
  return out.toList

/-- `OperateVector`, `/repo/array_2d_row_real_matrix.go:466-490`. In the `else` branch the Go code calls `v.Dimension()` on the
nil pointer left by the failed type assertion: a nil dereference. -/
def Arr.operateVector (m : Arr α r c) (v : RVec α) : Res (List α) :=
  match v with
  | .arr d => m.operate d
  | .ext _ => do
    let _ ← m.colDim
    throw .rt

/-- `PreMultiply`, `/repo/array_2d_row_real_matrix.go:522-540`. -/
def Arr.preMultiply (m : Arr α r c) (v : List α) : Res (List α) := do
  let nc ← m.colDim
  if v.length ≠ r then throw (.pan .dim)
  let out ← Row.build nc (fun col =>
    sumUp 0 r (fun i => do return Flt.mul (← m.data.get i col) (← rdL v i)) Flt.zero) .rt
  return out.toList

/-- `PreMultiplyVector`, `/repo/array_2d_row_real_matrix.go:496-520` (same nil dereference as `OperateVector`). -/
def Arr.preMultiplyVector (m : Arr α r c) (v : RVec α) : Res (List α) :=
  match v with
  | .arr d => m.preMultiply d
  | .ext _ => do
    let _ ← m.colDim
    throw .rt

/-- `SubMatrix`, `/repo/array_2d_row_real_matrix.go:542-557`. -/
def Arr.subMatrix (m : Arr α r c) (startRow endRow startColumn endColumn : Int) :
    Res (Arr α (endRow - startRow + 1).toNat (endColumn - startColumn + 1).toNat) := do
  (checkSubMatrixIndex r c startRow endRow startColumn endColumn).must
  let d ← Tab.build _ _ (fun i j => m.data.get (startRow.toNat + i) (startColumn.toNat + j)) .rt
  return { data := d }

/-- `RowAt`, `/repo/array_2d_row_real_matrix.go:691-700`. -/
def Arr.rowAt (m : Arr α r c) (row : Int) : Res (List α) := do
  (checkRowIndex r row).must
  let nc ← m.colDim
  let out ← Row.build nc (fun j => m.data.get row.toNat j) .rt
  return out.toList

/-- `SetRow`, `/repo/array_2d_row_real_matrix.go:702-711`. The destination expression is `data[row][0:row+nCols]`: Go panics when
`row + nCols` exceeds the capacity of that row; otherwise `copy` writes `nCols` elements. -/
def Arr.setRow (m : Arr α r c) (row : Int) (array : List α) : Mut (Arr α r c) := do
  (checkRowIndex r row).must.at m
  let nc ← m.colDim.at m
  if array.length ≠ nc then throw (.pan .matDim, m)
  if row.toNat + nc > c + m.slack row.toNat then throw (.rt, m)
  forUp 0 nc (fun j m => do
    let v ← (rdL array j).at m
    let d ← (m.data.set row.toNat j v).at m
    return { m with data := d }) m

/-- `RowMatrixAt`, `/repo/array_2d_row_real_matrix.go:713-727`. -/
def Arr.rowMatrixAt (m : Arr α r c) (row : Int) : Res (Arr α 1 c) := do
  (checkRowIndex r row).must
  let nc ← m.colDim
  if nc < 1 then throw (.pan .notSPos)
  return { data := ← Tab.build 1 c (fun _ i => m.data.get row.toNat i) .rt }

/-- `SetRowMatrix`, `/repo/array_2d_row_real_matrix.go:729-740`. -/
def Arr.setRowMatrix {p q : Nat} (m : Arr α r c) (row : Int) (b : Mat α p q) :
    Mut (Arr α r c) := do
  (checkRowIndex r row).must.at m
  let nc ← m.colDim.at m
  if p ≠ 1 ∨ q ≠ nc then throw (.pan .matDim, m)
  forUp 0 nc (fun i m => do
    let v ← (b.at 0 i).at m
    let d ← (m.data.set row.toNat i v).at m
    return { m with data := d }) m

/-- `ColumnMatrixAt`, `/repo/array_2d_row_real_matrix.go:742-756`. -/
def Arr.columnMatrixAt (m : Arr α r c) (column : Int) : Res (Arr α r 1) := do
  let nc ← m.colDim
  (checkColumnIndex nc column).must
  if r < 1 then throw (.pan .notSPos)
  return { data := ← Tab.build r 1 (fun i _ => m.data.get i column.toNat) .rt }

/-- `SetColumnMatrix`, `/repo/array_2d_row_real_matrix.go:758-769`. -/
def Arr.setColumnMatrix {p q : Nat} (m : Arr α r c) (column : Int) (b : Mat α p q) :
    Mut (Arr α r c) := do
  let nc ← m.colDim.at m
  (checkColumnIndex nc column).must.at m
  if p ≠ r ∨ q ≠ 1 then throw (.pan .matDim, m)
  forUp 0 r (fun i m => do
    let v ← (b.at i 0).at m
    let d ← (m.data.set i column.toNat v).at m
    return { m with data := d }) m

/-- `RowVectorAt`, `/repo/array_2d_row_real_matrix.go:771-775`. -/
def Arr.rowVectorAt (m : Arr α r c) (row : Int) : Res (List α) := m.rowAt row

/-- `ColumnVectorAt`, `/repo/array_2d_row_real_matrix.go:791-795`. -/
def Arr.columnVectorAt (m : Arr α r c) (column : Int) : Res (List α) := m.columnAt column

/-- Interface method `At` of a vector (`/repo/array_real_vector.go`; a foreign implementation is
assumed to check its index). -/
def RVec.at (v : RVec α) (i : Int) : Res α :=
  let d := match v with | .arr d => d | .ext d => d
  if i < 0 ∨ i ≥ d.length then .error (.pan .range) else rdL d i.toNat

/-- `SetRowVector`, `/repo/array_2d_row_real_matrix.go:777-789`. -/
def Arr.setRowVector (m : Arr α r c) (row : Int) (v : RVec α) : Mut (Arr α r c) := do
  (checkRowIndex r row).must.at m
  let nc ← m.colDim.at m
  if v.dim ≠ nc then throw (.pan .matDim, m)
  forUp 0 nc (fun i m => do
    let x ← (v.at i).at m
    let d ← (m.data.set row.toNat i x).at m
    return { m with data := d }) m

/-- Go `data[i][column] = v` with an unchecked `int` column: negative indices panic too. (/repo/array_2d_row_real_matrix.go:797-807) -/
def Arr.rawSet (m : Arr α r c) (i : Nat) (column : Int) (v : α) : Mut (Arr α r c) := do
  if column < 0 then throw (.rt, m)
  let d ← (m.data.set i column.toNat v).at m
  return { m with data := d }

/-- `SetColumnVector`, `/repo/array_2d_row_real_matrix.go:797-807`: the result of `checkColumnIndex` is discarded. -/
def Arr.setColumnVector (m : Arr α r c) (column : Int) (v : RVec α) : Mut (Arr α r c) := do
  let _ ← m.colDim.at m
  if v.dim ≠ r then throw (.pan .matDim, m)
  forUp 0 r (fun i m => do
    let x ← (v.at i).at m
    m.rawSet i column x) m

/-- `Equals` on another matrix object, `/repo/array_2d_row_real_matrix.go:817-830` (the pointer-identity shortcut of `/repo/array_2d_row_real_matrix.go:810` is
not part of this function). -/
def Arr.equals {p q : Nat} (a : Arr α r c) (b : Mat α p q) : Res Bool := do
  let nc ← a.colDim
  if q ≠ nc ∨ p ≠ r then return false
  let s ← forUpBrk 0 r (fun row (_ : Unit) => do
    let t ← forUpBrk 0 c (fun col (_ : Unit) => do
      let x ← a.at row col
      let y ← b.at row col
      return if Flt.eq x y then .inl () else .inr ()) ()
    return t) ()
  return match s with
    | .inl _ => true
    | .inr _ => false

end

end Linear
