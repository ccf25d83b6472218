import Verif.Model.Vector

/-!
# Memory: which slices share storage

The other models describe a slice by its contents. Here slices are what they are in Go: a descriptor (array,
offset, length, capacity) of a window of an array on the heap. Arrays hold numbers or descriptors (a `[][]float64` is
a slice of descriptors). Garbage collection is not modelled: arrays live forever, and each allocation takes a new
array. A matrix or vector object of the library is identified with the descriptor in its field `data`, which no method
changes once the object is built.
-/

namespace Linear

/-- A slice descriptor. (Go language; arrays behind the slices of /repo/array_real_vector.go:23-25 and /repo/array_2d_row_real_matrix.go:20-22) -/
structure Sl where
  id : Nat
  off : Nat
  len : Nat
  cap : Nat
  deriving DecidableEq, Repr

/-- The heap: the number of the next array, the arrays of numbers and the arrays of descriptors. (Go language; arrays behind the slices of /repo/array_real_vector.go:23-25 and /repo/array_2d_row_real_matrix.go:20-22) -/
structure Heap (α : Type) where
  next : Nat
  cell : Nat → Nat → Option α
  head : Nat → Nat → Option Sl

/-- A computation on the heap. After a panic the heap is as the panic left it. (Go language; arrays behind the slices of /repo/array_real_vector.go:23-25 and /repo/array_2d_row_real_matrix.go:20-22) -/
def HM (α β : Type) := Heap α → Except Fault β × Heap α

instance {α : Type} : Monad (HM α) where
  pure b := fun h => (.ok b, h)
  bind x f := fun h => match (x h).1 with
    | .ok b => f b (x h).2
    | .error e => (.error e, (x h).2)

namespace HM

variable {α β : Type}

/-- A computation that does not touch the heap. (Go language; arrays behind the slices of /repo/array_real_vector.go:23-25 and /repo/array_2d_row_real_matrix.go:20-22) -/
def lift (x : Res β) : HM α β := fun h => (x, h)

/-- `for i := a; i < b; i++ { body }`. (Go language; arrays behind the slices of /repo/array_real_vector.go:23-25 and /repo/array_2d_row_real_matrix.go:20-22) -/
def for' (a b : Nat) (body : Nat → HM α Unit) : HM α Unit :=
  (List.range' a (b - a)).foldlM (fun _ i => body i) ()

/-- `s[i]` for numbers. (Go language; arrays behind the slices of /repo/array_real_vector.go:23-25 and /repo/array_2d_row_real_matrix.go:20-22) -/
def rd (s : Sl) (i : Nat) : HM α α := fun h =>
  if i < s.len then
    match h.cell s.id (s.off + i) with
    | some v => (.ok v, h)
    | none => (.error .rt, h)
  else (.error .rt, h)

/-- `s[i] = v` for numbers. (Go language; arrays behind the slices of /repo/array_real_vector.go:23-25 and /repo/array_2d_row_real_matrix.go:20-22) -/
def wr (s : Sl) (i : Nat) (v : α) : HM α Unit := fun h =>
  if i < s.len then
    match h.cell s.id (s.off + i) with
    | some _ => (.ok (), { h with cell := upd2 h.cell s.id (s.off + i) (some v) })
    | none => (.error .rt, h)
  else (.error .rt, h)

/-- `s[i]` for descriptors. (Go language; arrays behind the slices of /repo/array_real_vector.go:23-25 and /repo/array_2d_row_real_matrix.go:20-22) -/
def rdH (s : Sl) (i : Nat) : HM α Sl := fun h =>
  if i < s.len then
    match h.head s.id (s.off + i) with
    | some v => (.ok v, h)
    | none => (.error .rt, h)
  else (.error .rt, h)

/-- `s[i] = v` for descriptors. (Go language; arrays behind the slices of /repo/array_real_vector.go:23-25 and /repo/array_2d_row_real_matrix.go:20-22) -/
def wrH (s : Sl) (i : Nat) (v : Sl) : HM α Unit := fun h =>
  if i < s.len then
    match h.head s.id (s.off + i) with
    | some _ => (.ok (), { h with head := upd2 h.head s.id (s.off + i) (some v) })
    | none => (.error .rt, h)
  else (.error .rt, h)

/-- `make([]float64, n)` -/
def make [Flt α] (n : Nat) : HM α Sl := fun h =>
  (.ok ⟨h.next, 0, n, n⟩,
   { h with next := h.next + 1,
            cell := fun a k => if a = h.next then (if k < n then some Flt.zero else none) else h.cell a k })

/-- `make([][]float64, n)`: the descriptors are those of the nil slice. -/
def makeH (n : Nat) : HM α Sl := fun h =>
  (.ok ⟨h.next, 0, n, n⟩,
   { h with next := h.next + 1,
            head := fun a k => if a = h.next then (if k < n then some ⟨0, 0, 0, 0⟩ else none) else h.head a k })

/-- `s[a:b]`. (Go language; arrays behind the slices of /repo/array_real_vector.go:23-25 and /repo/array_2d_row_real_matrix.go:20-22) -/
def slice (s : Sl) (a b : Nat) : HM α Sl :=
  lift (if a ≤ b ∧ b ≤ s.cap then .ok ⟨s.id, s.off + a, b - a, s.cap - a⟩ else .error .rt)

/-- `copy(dst, src)`: as many entries as the shorter one has, and correct when the two overlap. (Go language; arrays behind the slices of /repo/array_real_vector.go:23-25 and /repo/array_2d_row_real_matrix.go:20-22) -/
def copy (dst src : Sl) : HM α Unit := fun h =>
  (.ok (), ⟨h.next, fun a k =>
    if a = dst.id ∧ dst.off ≤ k ∧ k < dst.off + min dst.len src.len then h.cell src.id (src.off + (k - dst.off))
    else h.cell a k, h.head⟩)

/-- `append([]float64{}, s...)`: a new array. Its capacity may be larger than the length in Go; no code of the library
depends on it. (/repo/array_real_vector.go:41-52) -/
def clone [Flt α] (s : Sl) : HM α Sl := do
  let d ← make s.len
  copy d s
  return d

end HM

open HM

namespace Heap

variable {α : Type} [Flt α]

/-! ## Vectors, `/repo/array_real_vector.go` -/

/-- `At`, `/repo/array_real_vector.go:359-366`. -/
def vAt (v : Sl) (i : Int) : HM α α := do
  lift (checkIndex v.len i).must
  rd v i.toNat

/-- `NewArrayRealVectorCopy` of a vector of the library, `/repo/array_real_vector.go:41-52`, and `Copy`, `/repo/array_real_vector.go:163-169`. -/
def vCopy (v : Sl) : HM α Sl := do
  let d ← make v.len
  for' 0 v.len fun i => do
    let x ← vAt v i
    wr d i x
  return d

/-- `NewArrayRealVector`, `/repo/array_real_vector.go:82-94`, with `NewArrayRealVectorFromSlice`, `/repo/array_real_vector.go:59-67`, for a slice that is not
nil. -/
def vNew (d : Sl) (copyArray : Bool) : HM α Sl := if copyArray then clone d else pure d

/-- `ToArray`, `/repo/array_real_vector.go:486-488`. -/
def vToArray (v : Sl) : HM α Sl := clone v

/-- `DataRef`, `/repo/array_real_vector.go:342-344`. -/
def vDataRef (v : Sl) : HM α Sl := pure v

/-- `SetEntry`, `/repo/array_real_vector.go:427-434`. -/
def vSetEntry (v : Sl) (i : Int) (x : α) : HM α Unit := do
  lift (checkIndex v.len i).must
  wr v i.toNat x

/-- `AddToEntry`, `/repo/array_real_vector.go:436-443`. -/
def vAddToEntry (v : Sl) (i : Int) (x : α) : HM α Unit := do
  lift (checkIndex v.len i).must
  let y ← rd v i.toNat
  wr v i.toNat (Flt.add y x)

/-- `Set`, `/repo/array_real_vector.go:480-484`. -/
def vSet (v : Sl) (x : α) : HM α Unit := for' 0 v.len fun i => wr v i x

/-- `Map`, `/repo/array_real_vector.go:171-175`. -/
def vMap (v : Sl) (f : α → Res α) : HM α Unit := for' 0 v.len fun i => do
  let x ← rd v i
  let y ← lift (f x)
  wr v i y

/-- `SetSubVectorWithSlice`, `/repo/array_real_vector.go:466-478`. -/
def vSetSubSlice (v : Sl) (index : Int) (s : Sl) : HM α Unit := do
  lift (checkIndex v.len index).must
  lift (checkIndex v.len (index + s.len - 1)).must
  let d ← slice v index.toNat (index.toNat + s.len)
  copy d s

/-- `SetSubVector` with a vector of the library, `/repo/array_real_vector.go:445-464`: the entries are stored twice. -/
def vSetSub (v : Sl) (index : Int) (w : Sl) : HM α Unit := do
  lift (checkIndex v.len index).must
  lift (checkIndex v.len (index + w.len - 1)).must
  vSetSubSlice v index w
  for' 0 w.len fun i => do
    let x ← vAt w i
    wr v (index.toNat + i) x

/-- `SubVector`, `/repo/array_real_vector.go:402-425`. -/
def vSub (v : Sl) (index n : Int) : HM α Sl := do
  if n < 0 then lift (.error (.pan .notPos))
  let out ← make n.toNat
  lift (checkIndex v.len index).must
  lift (checkIndex v.len (index + n - 1)).must
  let s ← slice v index.toNat v.len
  copy out s
  return out

/-! ## Row-array matrices, `/repo/array_2d_row_real_matrix.go` -/

/-- `ColumnDimension`, `/repo/array_2d_row_real_matrix.go:411-416`. -/
def mCols (m : Sl) : HM α Nat := do
  let s ← rdH m 0
  return s.len

/-- `m.data[i][j]`. (/repo/array_2d_row_real_matrix.go:345-350) -/
def get (m : Sl) (i j : Nat) : HM α α := do
  let s ← rdH m i
  rd s j

/-- `m.data[i][j] = v`. (/repo/array_2d_row_real_matrix.go:378-384) -/
def put (m : Sl) (i j : Nat) (v : α) : HM α Unit := do
  let s ← rdH m i
  wr s j v

/-- `checkMatrixIndex`, `/repo/array_2d_row_real_matrix.go:857-866`: the columns are counted after the row was found in range. -/
def mCheck (m : Sl) (i j : Int) : HM α Unit := do
  lift (checkRowIndex m.len i).must
  let nc ← mCols m
  lift (checkColumnIndex nc j).must

/-- `At`, `/repo/array_2d_row_real_matrix.go:345-350`. -/
def mAt (m : Sl) (i j : Int) : HM α α := do
  mCheck m i j
  get m i.toNat j.toNat

/-- `SetEntry`, `/repo/array_2d_row_real_matrix.go:378-384`. -/
def mSetEntry (m : Sl) (i j : Int) (v : α) : HM α Unit := do
  mCheck m i j
  put m i.toNat j.toNat v

/-- `AddToEntry`, `/repo/array_2d_row_real_matrix.go:386-392`. -/
def mAddToEntry (m : Sl) (i j : Int) (v : α) : HM α Unit := do
  mCheck m i j
  let x ← get m i.toNat j.toNat
  put m i.toNat j.toNat (Flt.add x v)

/-- `MultiplyEntry`, `/repo/array_2d_row_real_matrix.go:394-400`. -/
def mMultiplyEntry (m : Sl) (i j : Int) (v : α) : HM α Unit := do
  mCheck m i j
  let x ← get m i.toNat j.toNat
  put m i.toNat j.toNat (Flt.mul x v)

/-- `SetRow`, `/repo/array_2d_row_real_matrix.go:701-711`, for an argument that shares no storage with the matrix. -/
def mSetRow (m : Sl) (row : Int) (array : List α) : HM α Unit := do
  lift (checkRowIndex m.len row).must
  let nc ← mCols m
  if array.length ≠ nc then lift (.error (.pan .matDim))
  let s ← rdH m row.toNat
  let _ ← slice s 0 (row.toNat + nc)
  for' 0 nc fun j => do
    let v ← lift (rdL array j)
    put m row.toNat j v

/-- `SetColumn`, `/repo/array_2d_row_real_matrix.go:365-376`, for an argument that shares no storage with the matrix. -/
def mSetColumn (m : Sl) (column : Int) (array : List α) : HM α Unit := do
  let nc ← mCols m
  lift (checkColumnIndex nc column).must
  if array.length ≠ m.len then lift (.error (.pan .matDim))
  for' 0 m.len fun i => do
    let v ← lift (rdL array i)
    put m i column.toNat v

/-- `SetSubMatrix` on an initialised matrix, `/repo/array_2d_row_real_matrix.go:278-342`, for an argument that shares no storage with it. -/
def mSetSubMatrix (m : Sl) (sub : Option (List (List α))) (row column : Int) : HM α Unit :=
  match sub with
  | none => lift (.error (.pan .inv))
  | some sub => do
    if sub.length = 0 then lift (.error (.pan .noDat))
    let first ← lift (rdL sub 0)
    if first.length = 0 then lift (.error (.pan .noDat))
    for' 1 sub.length fun i => do
      let s ← lift (rdL sub i)
      if s.length ≠ first.length then lift (.error (.pan .dim))
    lift (checkRowIndex m.len row).must
    let nc ← mCols m
    lift (checkColumnIndex nc column).must
    lift (checkRowIndex m.len (sub.length + row - 1)).must
    lift (checkColumnIndex nc (first.length + column - 1)).must
    for' 0 sub.length fun i => for' 0 first.length fun j => do
      let s ← lift (rdL sub i)
      let v ← lift (rdL s j)
      mSetEntry m (row + i) (column + j) v

/-- `copyOut`, `/repo/array_2d_row_real_matrix.go:681-689`, which is `Data`, `/repo/array_2d_row_real_matrix.go:266-268`. -/
def mData (m : Sl) : HM α Sl := do
  let out ← makeH m.len
  for' 0 m.len fun i => do
    let nc ← mCols m
    let d ← make nc
    wrH out i d
    let s ← rdH m i
    let d ← slice d 0 s.len
    copy d s
  return out

/-- `make([][]float64, n)` with the inner slices made one after the other. (/repo/array_2d_row_real_matrix.go:24-38) -/
def makeJag (n : Nat) (len : Nat → Nat) : HM α Sl := do
  let out ← makeH n
  for' 0 n fun i => do
    let d ← make (len i)
    wrH out i d
  return out

/-- `copyIn`, `/repo/array_2d_row_real_matrix.go:274-276`, on a new matrix: `SetSubMatrix` with nil data, `/repo/array_2d_row_real_matrix.go:278-314`. -/
def mCopyIn (src : Sl) : HM α Sl := do
  if src.len = 0 then lift (.error (.pan .noDat))
  let first ← rdH src 0
  if first.len = 0 then lift (.error (.pan .noDat))
  let out ← makeJag src.len fun _ => first.len
  for' 0 src.len fun i => do
    let s ← rdH src i
    if s.len ≠ first.len then lift (.error (.pan .dim))
    let d ← rdH out i
    copy d s
  return out

/-- `Copy`, `/repo/array_2d_row_real_matrix.go:87-91`. -/
def mCopy (m : Sl) : HM α Sl := do
  let d ← mData m
  mCopyIn d

/-- `NewArray2DRowRealMatrixFromSlices`, `/repo/array_2d_row_real_matrix.go:40-65`, for data that is not nil. -/
def mNew (data : Sl) (copyArray : Bool) : HM α Sl :=
  if copyArray then mCopyIn data
  else do
    if data.len = 0 then lift (.error (.err .noDat))
    let first ← rdH data 0
    if first.len = 0 then lift (.error (.err .noDat))
    for' 1 data.len fun i => do
      let s ← rdH data i
      if s.len ≠ first.len then lift (.error (.err .dim))
    return data

/-- `DataRef`, `/repo/array_2d_row_real_matrix.go:270-272`. -/
def mDataRef (m : Sl) : HM α Sl := pure m

/-- `RowAt`, `/repo/array_2d_row_real_matrix.go:691-699`. -/
def mRowAt (m : Sl) (row : Int) : HM α Sl := do
  lift (checkRowIndex m.len row).must
  let nc ← mCols m
  let out ← make nc
  let s ← rdH m row.toNat
  let s ← slice s 0 nc
  copy out s
  return out

/-- `ColumnAt`, `/repo/array_2d_row_real_matrix.go:352-363`. -/
def mColumnAt (m : Sl) (column : Int) : HM α Sl := do
  let nc ← mCols m
  lift (checkColumnIndex nc column).must
  let out ← make m.len
  for' 0 m.len fun i => do
    let v ← get m i column.toNat
    wr out i v
  return out

/-! ## Block matrices, `/repo/block_real_matrix.go`

A block matrix is the descriptor in its field `blocks` together with its dimensions. -/

/-- `At`, `/repo/block_real_matrix.go:887-895`. -/
def bAt (r c : Nat) (m : Sl) (i j : Int) : HM α α := do
  lift (checkMatrixIndex r c i j).must
  get m (blkIdx c i.toNat j.toNat) (blkOff c i.toNat j.toNat)

/-- `SetEntry`, `/repo/block_real_matrix.go:897-905`. -/
def bSetEntry (r c : Nat) (m : Sl) (i j : Int) (v : α) : HM α Unit := do
  lift (checkMatrixIndex r c i j).must
  put m (blkIdx c i.toNat j.toNat) (blkOff c i.toNat j.toNat) v

/-- `AddToEntry`, `/repo/block_real_matrix.go:907-915`. -/
def bAddToEntry (r c : Nat) (m : Sl) (i j : Int) (v : α) : HM α Unit := do
  lift (checkMatrixIndex r c i j).must
  let x ← get m (blkIdx c i.toNat j.toNat) (blkOff c i.toNat j.toNat)
  put m (blkIdx c i.toNat j.toNat) (blkOff c i.toNat j.toNat) (Flt.add x v)

/-- `MultiplyEntry`, `/repo/block_real_matrix.go:917-925`. -/
def bMultiplyEntry (r c : Nat) (m : Sl) (i j : Int) (v : α) : HM α Unit := do
  lift (checkMatrixIndex r c i j).must
  let x ← get m (blkIdx c i.toNat j.toNat) (blkOff c i.toNat j.toNat)
  put m (blkIdx c i.toNat j.toNat) (blkOff c i.toNat j.toNat) (Flt.mul x v)

/-- `createBlocksLayout`, `/repo/block_real_matrix.go:160-180`; the running `blockIndex` numbers the blocks row by row. -/
def bLayout (r c : Nat) : HM α Sl := makeJag (nBlocks r * nBlocks c) (blkLen r c)

/-- `Copy`, `/repo/block_real_matrix.go:182-194`. -/
def bCopy (r c : Nat) (m : Sl) : HM α Sl := do
  let out ← bLayout r c
  for' 0 m.len fun i => do
    let d ← rdH out i
    let s ← rdH m i
    copy d s
  return out

/-- `NewBlockRealMatrixFromBlockData`, `/repo/block_real_matrix.go:85-116`: the blocks are kept, not copied. The running `index` numbers the
blocks row by row. -/
def bNew (r c : Int) (blocks : Sl) : HM α Sl := do
  if r < 1 then lift (.error (.err .notSPos))
  if c < 1 then lift (.error (.err .notSPos))
  for' 0 (nBlocks r.toNat) fun iBlock => for' 0 (nBlocks c.toNat) fun jBlock => do
    let s ← rdH blocks (iBlock * nBlocks c.toNat + jBlock)
    if s.len ≠ blockDim r.toNat iBlock * blockDim c.toNat jBlock then lift (.error (.err .dim))
  return blocks

/-- `Data`, `/repo/block_real_matrix.go:426-450`. The code copies the stretches of a row that lie in one block; here the entries are copied one
by one, after the rows are made. -/
def bData (r c : Nat) (m : Sl) : HM α Sl := do
  let out ← makeJag r fun _ => c
  for' 0 r fun p => for' 0 c fun q => do
    let v ← get m (blkIdx c p q) (blkOff c p q)
    put out p q v
  return out

/-! ## Diagonal matrices, `/repo/diagonal_matrix.go` -/

/-- `At`, `/repo/diagonal_matrix.go:191-200`. -/
def dAt (v : Sl) (i j : Int) : HM α α := do
  lift (checkMatrixIndex v.len v.len i j).must
  if i = j then rd v i.toNat else return Flt.zero

/-- `SetEntry`, `/repo/diagonal_matrix.go:202-213`. -/
def dSetEntry (v : Sl) (i j : Int) (x : α) : HM α Unit :=
  if i = j then do
    lift (checkRowIndex v.len i).must
    wr v i.toNat x
  else lift (ensureZero x).must

/-- `AddToEntry`, `/repo/diagonal_matrix.go:215-226`. -/
def dAddToEntry (v : Sl) (i j : Int) (x : α) : HM α Unit :=
  if i = j then do
    lift (checkRowIndex v.len i).must
    let y ← rd v i.toNat
    wr v i.toNat (Flt.add y x)
  else lift (ensureZero x).must

/-- `MultiplyEntry`, `/repo/diagonal_matrix.go:236-244`. -/
def dMultiplyEntry (v : Sl) (i j : Int) (x : α) : HM α Unit :=
  if i = j then do
    lift (checkRowIndex v.len i).must
    let y ← rd v i.toNat
    wr v i.toNat (Flt.mul y x)
  else pure ()

/-- `NewDiagonalMatrix`, `/repo/diagonal_matrix.go:42-55`, and `NewDiagonalMatrixFromSlice`, `/repo/diagonal_matrix.go:38-40`, for a slice that is not nil. -/
def dNew (d : Sl) (copyArray : Bool) : HM α Sl := if copyArray then clone d else pure d

/-- `Copy`, `/repo/diagonal_matrix.go:57-61`. -/
def dCopy (v : Sl) : HM α Sl := clone v

/-- `DataRef`, `/repo/diagonal_matrix.go:187-189`. -/
def dDataRef (v : Sl) : HM α Sl := pure v

/-- `Data`, `/repo/diagonal_matrix.go:172-185`. The code makes each row just before it is used; here all rows are made first. -/
def dData (v : Sl) : HM α Sl := do
  let out ← makeJag v.len fun _ => v.len
  for' 0 v.len fun i => do
    let x ← rd v i
    put out i i x
  return out

end Heap

end Linear
