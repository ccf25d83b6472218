import Verif.Base.Tab

/-!
# Matrix storages: dimensions, entry access, index checks

The three `RealMatrix` implementations of the library and a fourth, foreign one.
Dimensions are type parameters: no method changes them.
-/

namespace Linear

variable {α : Type}

/-! ## Index checks (`/repo/array_2d_row_real_matrix.go:833-939`) -/

/-- `checkRowIndex`, `/repo/array_2d_row_real_matrix.go:868-874`; `n` is `m.RowDimension()`. -/
def checkRowIndex (n : Nat) (row : Int) : Res Unit :=
  if row < 0 ∨ row ≥ n then .error (.err .range) else .ok ()

/-- `checkColumnIndex`, `/repo/array_2d_row_real_matrix.go:876-882`. -/
def checkColumnIndex (n : Nat) (column : Int) : Res Unit :=
  if column < 0 ∨ column ≥ n then .error (.err .range) else .ok ()

/-- `checkMatrixIndex`, `/repo/array_2d_row_real_matrix.go:857-866`. -/
def checkMatrixIndex (r c : Nat) (row column : Int) : Res Unit := do
  checkRowIndex r row
  checkColumnIndex c column

/-- `checkSubMatrixIndex`, `/repo/array_2d_row_real_matrix.go:884-910`. -/
def checkSubMatrixIndex (r c : Nat) (startRow endRow startColumn endColumn : Int) : Res Unit := do
  checkRowIndex r startRow
  checkRowIndex r endRow
  if endRow < startRow then throw (.err .small)
  checkColumnIndex c startColumn
  checkColumnIndex c endColumn
  if endColumn < startColumn then throw (.err .small)

/-- `checkAdditionCompatible`, `/repo/array_2d_row_real_matrix.go:833-843`. -/
def checkAdditionCompatible (r c r' c' : Nat) : Res Unit :=
  if ¬ (r = r' ∧ c = c') then .error (.err .matDim) else .ok ()

/-- `checkMultiplicationCompatible`, `/repo/array_2d_row_real_matrix.go:845-855`. -/
def checkMultiplicationCompatible (c r' : Nat) : Res Unit :=
  if ¬ (c = r') then .error (.err .dim) else .ok ()

/-! ## Row-array storage -/

/-- `Array2DRowRealMatrix`, `/repo/array_2d_row_real_matrix.go:20-22`, with `r` rows of `c` entries.
`slack i` is `cap(data[i]) - len(data[i])`: it is `0` for every row the library allocates itself
(`make`), and arbitrary for rows supplied by the caller with `copyArray = false`. The zero value
(`data == nil`) is not modelled as a matrix; `copyIn` on it is part of the constructors. -/
structure Arr (α : Type) (r c : Nat) where
  data : Tab α r c
  slack : Nat → Nat := fun _ => 0

/-- `ColumnDimension`, `/repo/array_2d_row_real_matrix.go:411-416`: `data[0]` is an index panic when
there is no row. -/
def Arr.colDim {r c : Nat} (_ : Arr α r c) : Res Nat :=
  if r = 0 then .error .rt else .ok c

/-- `At`, `/repo/array_2d_row_real_matrix.go:345-350`. -/
def Arr.at {r c : Nat} (m : Arr α r c) (row column : Int) : Res α := do
  (checkRowIndex r row).must
  let nc ← m.colDim
  (checkColumnIndex nc column).must
  m.data.get row.toNat column.toNat

/-- `SetEntry`, `/repo/array_2d_row_real_matrix.go:378-384`. -/
def Arr.setEntry {r c : Nat} (m : Arr α r c) (row column : Int) (v : α) : Mut (Arr α r c) := do
  (checkRowIndex r row).must.at m
  let nc ← m.colDim.at m
  (checkColumnIndex nc column).must.at m
  let d ← (m.data.set row.toNat column.toNat v).at m
  return { m with data := d }

/-- `AddToEntry`, `/repo/array_2d_row_real_matrix.go:386-392`. -/
def Arr.addToEntry [Flt α] {r c : Nat} (m : Arr α r c) (row column : Int) (v : α) :
    Mut (Arr α r c) := do
  (checkRowIndex r row).must.at m
  let nc ← m.colDim.at m
  (checkColumnIndex nc column).must.at m
  let x ← (m.data.get row.toNat column.toNat).at m
  let d ← (m.data.set row.toNat column.toNat (Flt.add x v)).at m
  return { m with data := d }

/-- `MultiplyEntry`, `/repo/array_2d_row_real_matrix.go:394-400`. -/
def Arr.multiplyEntry [Flt α] {r c : Nat} (m : Arr α r c) (row column : Int) (v : α) :
    Mut (Arr α r c) := do
  (checkRowIndex r row).must.at m
  let nc ← m.colDim.at m
  (checkColumnIndex nc column).must.at m
  let x ← (m.data.get row.toNat column.toNat).at m
  let d ← (m.data.set row.toNat column.toNat (Flt.mul x v)).at m
  return { m with data := d }

/-! ## Block storage -/

/-- `BLOCK_SIZE`, `/repo/block_real_matrix.go:24`. -/
notation "BLOCK_SIZE" => (52 : Nat)

/-- `(n + BLOCK_SIZE - 1) / BLOCK_SIZE`, number of blocks along a dimension,
`/repo/block_real_matrix.go:75-76,98-99,121-122,161-162`. -/
def nBlocks (n : Nat) : Nat := (n + BLOCK_SIZE - 1) / BLOCK_SIZE

/-- `pEnd - pStart` in `createBlocksLayout`, `/repo/block_real_matrix.go:167-169`: extent of block
`b` along a dimension of size `n`. -/
def blkExt (n b : Nat) : Nat := min (b * BLOCK_SIZE + BLOCK_SIZE) n - b * BLOCK_SIZE

/-- Length of the block with index `idx` as allocated by `createBlocksLayout`,
`/repo/block_real_matrix.go:160-180` (blocks are numbered row by row). -/
def blkLen (r c : Nat) (idx : Nat) : Nat :=
  blkExt r (idx / nBlocks c) * blkExt c (idx % nBlocks c)

/-- `blockHeight` and `blockWidth`, `/repo/block_real_matrix.go:1354-1368`; `n` is the dimension
and `b` the block row or column. -/
def blockDim (n b : Nat) : Nat :=
  if b + 1 = nBlocks n then n - b * BLOCK_SIZE else BLOCK_SIZE

/-- The slices of a block matrix. (/repo/block_real_matrix.go:59-63) -/
abbrev Blocks (α : Type) (r c : Nat) := Jag α (nBlocks r * nBlocks c) (blkLen r c)

/-- `BlockRealMatrix`, `/repo/block_real_matrix.go:59-62`. -/
structure Blk (α : Type) (r c : Nat) where
  blocks : Blocks α r c

/-- Block index computed by `At`/`SetEntry`, `/repo/block_real_matrix.go:891-894`. -/
def blkIdx (c row column : Nat) : Nat :=
  row / BLOCK_SIZE * nBlocks c + column / BLOCK_SIZE

/-- Offset inside the block computed by `At`/`SetEntry`, `/repo/block_real_matrix.go:893`. -/
def blkOff (c row column : Nat) : Nat :=
  (row - row / BLOCK_SIZE * BLOCK_SIZE) * blockDim c (column / BLOCK_SIZE) +
    (column - column / BLOCK_SIZE * BLOCK_SIZE)

/-- `At`, `/repo/block_real_matrix.go:887-895`. -/
def Blk.at {r c : Nat} (m : Blk α r c) (row column : Int) : Res α := do
  (checkMatrixIndex r c row column).must
  m.blocks.get (blkIdx c row.toNat column.toNat) (blkOff c row.toNat column.toNat)

/-- `SetEntry`, `/repo/block_real_matrix.go:897-905`. -/
def Blk.setEntry {r c : Nat} (m : Blk α r c) (row column : Int) (v : α) : Mut (Blk α r c) := do
  (checkMatrixIndex r c row column).must.at m
  let b ← (m.blocks.set (blkIdx c row.toNat column.toNat) (blkOff c row.toNat column.toNat) v).at m
  return ⟨b⟩

/-- `AddToEntry`, `/repo/block_real_matrix.go:907-915`. -/
def Blk.addToEntry [Flt α] {r c : Nat} (m : Blk α r c) (row column : Int) (v : α) :
    Mut (Blk α r c) := do
  (checkMatrixIndex r c row column).must.at m
  let i := blkIdx c row.toNat column.toNat
  let k := blkOff c row.toNat column.toNat
  let x ← (m.blocks.get i k).at m
  let b ← (m.blocks.set i k (Flt.add x v)).at m
  return ⟨b⟩

/-- `MultiplyEntry`, `/repo/block_real_matrix.go:917-925`. -/
def Blk.multiplyEntry [Flt α] {r c : Nat} (m : Blk α r c) (row column : Int) (v : α) :
    Mut (Blk α r c) := do
  (checkMatrixIndex r c row column).must.at m
  let i := blkIdx c row.toNat column.toNat
  let k := blkOff c row.toNat column.toNat
  let x ← (m.blocks.get i k).at m
  let b ← (m.blocks.set i k (Flt.mul x v)).at m
  return ⟨b⟩

/-! ## Diagonal storage -/

/-- `DiagonalMatrix`, `/repo/diagonal_matrix.go:24-26`. -/
structure Dia (α : Type) (n : Nat) where
  data : Row α n

/-- `At`, `/repo/diagonal_matrix.go:191-200`. -/
def Dia.at [Flt α] {n : Nat} (m : Dia α n) (row column : Int) : Res α := do
  (checkMatrixIndex n n row column).must
  if row = column then m.data.get row.toNat else return Flt.zero

/-- `ensureZero`, `/repo/diagonal_matrix.go:228-234`. -/
def ensureZero [Flt α] (v : α) : Res Unit :=
  if ¬ Flt.ulpEq Flt.zero v then .error (.err .big) else .ok ()

/-- `SetEntry`, `/repo/diagonal_matrix.go:202-213`. -/
def Dia.setEntry [Flt α] {n : Nat} (m : Dia α n) (row column : Int) (v : α) :
    Mut (Dia α n) := do
  if row = column then
    (checkRowIndex n row).must.at m
    let d ← (m.data.set row.toNat v).at m
    return ⟨d⟩
  else
    (ensureZero v).must.at m
    return m

/-- `AddToEntry`, `/repo/diagonal_matrix.go:215-226`. -/
def Dia.addToEntry [Flt α] {n : Nat} (m : Dia α n) (row column : Int) (v : α) :
    Mut (Dia α n) := do
  if row = column then
    (checkRowIndex n row).must.at m
    let x ← (m.data.get row.toNat).at m
    let d ← (m.data.set row.toNat (Flt.add x v)).at m
    return ⟨d⟩
  else
    (ensureZero v).must.at m
    return m

/-- `MultiplyEntry`, `/repo/diagonal_matrix.go:236-244`. -/
def Dia.multiplyEntry [Flt α] {n : Nat} (m : Dia α n) (row column : Int) (v : α) :
    Mut (Dia α n) := do
  if row = column then
    (checkRowIndex n row).must.at m
    let x ← (m.data.get row.toNat).at m
    let d ← (m.data.set row.toNat (Flt.mul x v)).at m
    return ⟨d⟩
  else
    return m

/-! ## The `RealMatrix` and `RealVector` interfaces -/

/-- A foreign `RealMatrix` implementation. Only its dimensions and its in-range entries matter to
the library; it is assumed to check its indices like the others. (/repo/real_matrix.go:24-325) -/
structure Ext (α : Type) (r c : Nat) where
  ent : Nat → Nat → α

/-- `At` of a foreign implementation. (/repo/real_matrix.go:179) -/
def Ext.at {r c : Nat} (m : Ext α r c) (row column : Int) : Res α := do
  (checkMatrixIndex r c row column).must
  return m.ent row.toNat column.toNat

/-- A `RealMatrix` argument: the library tests for the three known implementations and otherwise
goes through the interface. (/repo/real_matrix.go:24-325) -/
inductive Mat (α : Type) : Nat → Nat → Type
  | arr {r c : Nat} (m : Arr α r c) : Mat α r c
  | blk {r c : Nat} (m : Blk α r c) : Mat α r c
  | dia {n : Nat} (m : Dia α n) : Mat α n n
  | ext {r c : Nat} (m : Ext α r c) : Mat α r c

/-- Interface dispatch of `At`. (/repo/real_matrix.go:179) -/
def Mat.at [Flt α] {r c : Nat} : Mat α r c → Int → Int → Res α
  | .arr m => m.at
  | .blk m => m.at
  | .dia m => m.at
  | .ext m => m.at

/-- A `RealVector` argument: an `ArrayRealVector` (its slice) or a foreign implementation. (/repo/real_vector.go:34-215) -/
inductive RVec (α : Type)
  | arr (data : List α)
  | ext (data : List α)

/-- Interface method `Dimension`. (/repo/real_vector.go:40, /repo/array_real_vector.go:368-370) -/
def RVec.dim : RVec α → Nat
  | .arr d => d.length
  | .ext d => d.length

end Linear
