import Verif.Model.ArrOps

/-!
# `BlockRealMatrix` (`/repo/block_real_matrix.go`), method by method
-/

namespace Linear

variable {α : Type} [Flt α]

/-- A block matrix whose dimensions are only known at run time. (/repo/block_real_matrix.go:59-63) -/
structure SBlk (α : Type) where
  r : Nat
  c : Nat
  m : Blk α r c

/-- Bounds check of the Go slice expression `x[i][a:a+k]` (capacity equals length here). (/repo/block_real_matrix.go:531-540) -/
def Jag.seg {n : Nat} {len : Nat → Nat} (_ : Jag α n len) (i a k : Nat) : Res Unit :=
  if i < n ∧ a + k ≤ len i then .ok () else .error .rt

/-- Go `copy(dst[i][a:a+k], src[i'][b:b+k])`; the two tables never share memory here. (/repo/block_real_matrix.go:531-540) -/
def Jag.copySeg {n n' : Nat} {len len' : Nat → Nat} (dst : Jag α n len) (i a : Nat)
    (src : Jag α n' len') (i' b k : Nat) : Res (Jag α n len) := do
  dst.seg i a k
  src.seg i' b k
  forUp 0 k (fun t d => do d.set i (a + t) (← src.get i' (b + t))) dst

/-- Go `copy(dst[i][a:a+k], src[b:b+k])` from a caller's slice. (/repo/block_real_matrix.go:542-591) -/
def Jag.copySegL {n : Nat} {len : Nat → Nat} (dst : Jag α n len) (i a : Nat) (src : List α)
    (b k : Nat) : Res (Jag α n len) := do
  dst.seg i a k
  if b + k > src.length then throw .rt
  forUp 0 k (fun t d => do d.set i (a + t) (← rdL src (b + t))) dst

/-- Go `copy(out[a:a+k], src[i'][b:b+k])`. (/repo/block_real_matrix.go:803-820) -/
def Row.copySeg {n n' : Nat} {len' : Nat → Nat} (dst : Row α n) (a : Nat)
    (src : Jag α n' len') (i' b k : Nat) : Res (Row α n) := do
  if a + k > n then throw .rt
  src.seg i' b k
  forUp 0 k (fun t d => do d.set (a + t) (← src.get i' (b + t))) dst

/-- The unrolled loop `for l < lEnd-3 { body; l += 4 }`; returns the final `l`. (/repo/block_real_matrix.go:357-363) -/
def stride4 {ε σ : Type} (body : Nat → σ → Except ε σ) (l lEnd : Nat) (s : σ) :
    Except ε (Nat × σ) :=
  if l + 3 < lEnd then do
    let s ← body l s
    stride4 body (l + 4) lEnd s
  else .ok (l, s)
termination_by lEnd - l

/-- `NewBlockRealMatrix`, `/repo/block_real_matrix.go:64-79` (with `createBlocksLayout`, `/repo/block_real_matrix.go:160-180`: the block lengths
are those of `blkLen`). -/
def Blk.new (r c : Int) : Res (Blk α r.toNat c.toNat) := do
  if r < 1 then throw (.err .notSPos)
  if c < 1 then throw (.err .notSPos)
  return ⟨Jag.zero _ _⟩

/-- `toBlocksLayout`, `/repo/block_real_matrix.go:118-158`, on `rows` slices whose first has `columns` elements. -/
def toBlocksLayout (raw : List (List α)) (columns : Nat) : Res (Blocks α raw.length columns) := do
  let rows := raw.length
  forUp 0 rows (fun i (_ : Unit) => do
    if (← rdL raw i).length ≠ columns then throw (.pan .dim)) ()
  let s ← forUp 0 (nBlocks rows) (fun iBlock s => do
    let pStart := iBlock * BLOCK_SIZE
    let pEnd := min (pStart + BLOCK_SIZE) rows
    forUp 0 (nBlocks columns) (fun jBlock (s : Nat × Blocks α rows columns) => do
      let qStart := jBlock * BLOCK_SIZE
      let qEnd := min (qStart + BLOCK_SIZE) columns
      let jWidth := qEnd - qStart
      let t ← forUp pStart pEnd (fun p (t : Nat × Blocks α rows columns) => do
        let b ← t.2.copySegL s.1 t.1 (← rdL raw p) qStart jWidth
        return (t.1 + jWidth, b)) (0, s.2)
      return (s.1 + 1, t.2)) s) (0, Jag.zero _ _)
  return s.2

/-- `NewBlockRealMatrixFromSlices`, `/repo/block_real_matrix.go:81-83`. Indexing `rawData[0]` on an empty slice is an index
panic. The block lengths match by construction, so `NewBlockRealMatrixFromBlockData` (`/repo/block_real_matrix.go:85-116`) only checks the dimensions. -/
def Blk.fromSlices (raw : List (List α)) : Res (SBlk α) := do
  let columns := (← rdL raw 0).length
  let b ← toBlocksLayout raw columns
  if raw.length < 1 then throw (.err .notSPos)
  if columns < 1 then throw (.err .notSPos)
  return ⟨raw.length, columns, ⟨b⟩⟩

section
variable {r c : Nat}

/-- `Copy`, `/repo/block_real_matrix.go:182-194`. -/
def Blk.copy (m : Blk α r c) : Res (Blk α r c) := do
  let b ← forUp 0 (nBlocks r * nBlocks c) (fun i b =>
    b.copySeg i 0 m.blocks i 0 (blkLen r c i)) (Jag.zero _ _)
  return ⟨b⟩

/-- The block-wise loop shared by `Add`, `Subtract`, `ScalarAdd`, `ScalarMultiply`, `/repo/block_real_matrix.go:206-212`,
252-258, 294-299, 311-316: `out.blocks[b][k] = cell b k` for every block and every `k`. -/
def Blk.mapBlocks (cell : Nat → Nat → Res α) : Res (Blk α r c) := do
  let b ← forUp 0 (nBlocks r * nBlocks c) (fun bi out =>
    forUp 0 (blkLen r c bi) (fun k out => do out.set bi k (← cell bi k)) out) (Jag.zero _ _)
  return ⟨b⟩

/-- The cell-wise loop of `WalkInOptimizedOrder` (`/repo/block_real_matrix.go:1282-1298`), `WalkInUpdateOptimizedOrder`
(1260-1276) and of `Add` and `Subtract` on other operands (216-235, 261-280): block by block, with
the running counters `blockIndex` and `k` of the code. `step p q blockIndex k` is the loop body for
row `p`, column `q`. -/
def blkLoopOpt {ε σ : Type} (r c : Nat) (step : Nat → Nat → Nat → Nat → σ → Except ε σ) (s : σ) :
    Except ε σ := do
  let s ← forUp 0 (nBlocks r) (fun iBlock s => do
    let pStart := iBlock * BLOCK_SIZE
    let pEnd := min (pStart + BLOCK_SIZE) r
    forUp 0 (nBlocks c) (fun jBlock (s : Nat × σ) => do
      let qStart := jBlock * BLOCK_SIZE
      let qEnd := min (qStart + BLOCK_SIZE) c
      let t ← forUp pStart pEnd (fun p t =>
        forUp qStart qEnd (fun q (t : Nat × σ) => do
          let b ← step p q s.1 t.1 t.2
          return (t.1 + 1, b)) t) (0, s.2)
      return (s.1 + 1, t.2)) s) (0, s)
  return s.2

/-- The generic branch of `Add` and `Subtract`, `/repo/block_real_matrix.go:216-235, 261-280`:
`out.blocks[blockIndex][k] = cell blockIndex k p q`. -/
def Blk.mapCells (cell : Nat → Nat → Nat → Nat → Res α) : Res (Blk α r c) := do
  let b ← blkLoopOpt r c (fun p q bi k (b : Blocks α r c) => do
    b.set bi k (← cell bi k p q)) (Jag.zero _ _)
  return ⟨b⟩

/-- `Add`, `/repo/block_real_matrix.go:196-239`. -/
def Blk.add {p q : Nat} (a : Blk α r c) (b : Mat α p q) : Res (Blk α r c) := do
  (checkAdditionCompatible r c p q).must
  if r < 1 ∨ c < 1 then throw (.pan .notSPos)
  match b with
  | .blk m => Blk.mapBlocks fun bi k => do
      return Flt.add (← a.blocks.get bi k) (← m.blocks.get bi k)
  | m => Blk.mapCells fun bi k p q => do
      return Flt.add (← a.blocks.get bi k) (← m.at p q)

/-- `Subtract`, `/repo/block_real_matrix.go:241-284`. -/
def Blk.subtract {p q : Nat} (a : Blk α r c) (b : Mat α p q) : Res (Blk α r c) := do
  (checkAdditionCompatible r c p q).must
  if r < 1 ∨ c < 1 then throw (.pan .notSPos)
  match b with
  | .blk m => Blk.mapBlocks fun bi k => do
      return Flt.sub (← a.blocks.get bi k) (← m.blocks.get bi k)
  | m => Blk.mapCells fun bi k p q => do
      return Flt.sub (← a.blocks.get bi k) (← m.at p q)

/-- `ScalarAdd`, `/repo/block_real_matrix.go:286-302`. -/
def Blk.scalarAdd (a : Blk α r c) (d : α) : Res (Blk α r c) := do
  if r < 1 ∨ c < 1 then throw (.pan .notSPos)
  Blk.mapBlocks fun bi k => do return Flt.add (← a.blocks.get bi k) d

/-- `ScalarMultiply`, `/repo/block_real_matrix.go:304-319`. -/
def Blk.scalarMultiply (a : Blk α r c) (d : α) : Res (Blk α r c) := do
  if r < 1 ∨ c < 1 then throw (.pan .notSPos)
  Blk.mapBlocks fun bi k => do return Flt.mul (← a.blocks.get bi k) d

/-- The unrolled inner product of `/repo/block_real_matrix.go:354-369` (`x` is `tBlock`, `y` is `mBlock`): starts at
`l = lStart`, `n = nStart`, consumes `x` with step 1 and `y` with step `w`. -/
def dotUnrolled (x y : Nat → Res α) (lStart lEnd nStart w : Nat) : Res α := do
  let (l, (n, sum)) ← stride4 (fun l (s : Nat × α) => do
    let n := s.1
    let t := Flt.add (Flt.add (Flt.add
      (Flt.mul (← x l) (← y n))
      (Flt.mul (← x (l + 1)) (← y (n + w))))
      (Flt.mul (← x (l + 2)) (← y (n + 2 * w))))
      (Flt.mul (← x (l + 3)) (← y (n + 3 * w)))
    return (n + 4 * w, Flt.add s.2 t)) lStart lEnd (nStart, Flt.zero)
  let s ← forUp l lEnd (fun l (s : Nat × α) => do
    return (s.1 + w, Flt.add s.2 (Flt.mul (← x l) (← y s.1)))) (n, sum)
  return s.2

/-- `Multiply`, block by block branch, `/repo/block_real_matrix.go:326-379`. -/
def Blk.mulBlk {p q : Nat} (a : Blk α r c) (m : Blk α p q) : Res (Blk α r q) := do
  if r < 1 ∨ q < 1 then throw (.pan .notSPos)
  let s ← forUp 0 (nBlocks r) (fun iBlock s => do
    let pStart := iBlock * BLOCK_SIZE
    let pEnd := min (pStart + BLOCK_SIZE) r
    forUp 0 (nBlocks q) (fun jBlock (s : Nat × Blocks α r q) => do
      let jWidth := blockDim q jBlock
      let out ← forUp 0 (nBlocks c) (fun kBlock out => do
        let kWidth := blockDim c kBlock
        let tIdx := iBlock * nBlocks c + kBlock
        let mIdx := kBlock * nBlocks q + jBlock
        let t ← forUp pStart pEnd (fun p t => do
          let lStart := (p - pStart) * kWidth
          let lEnd := lStart + kWidth
          forUp 0 jWidth (fun nStart (t : Nat × Blocks α r q) => do
            let sum ← dotUnrolled (a.blocks.get tIdx) (m.blocks.get mIdx) lStart lEnd nStart jWidth
            let old ← t.2.get s.1 t.1
            let b ← t.2.set s.1 t.1 (Flt.add old sum)
            return (t.1 + 1, b)) t) (0, out)
        return t.2) s.2
      return (s.1 + 1, out)) s) (0, Jag.zero _ _)
  return ⟨s.2⟩

/-- `Multiply`, other operands, `/repo/block_real_matrix.go:380-423`. -/
def Blk.mulGen {p q : Nat} (a : Blk α r c) (m : Mat α p q) : Res (Blk α r q) := do
  if r < 1 ∨ q < 1 then throw (.pan .notSPos)
  let s ← forUp 0 (nBlocks r) (fun iBlock s => do
    let pStart := iBlock * BLOCK_SIZE
    let pEnd := min (pStart + BLOCK_SIZE) r
    forUp 0 (nBlocks q) (fun jBlock (s : Nat × Blocks α r q) => do
      let qStart := jBlock * BLOCK_SIZE
      let qEnd := min (qStart + BLOCK_SIZE) q
      let out ← forUp 0 (nBlocks c) (fun kBlock out => do
        let kWidth := blockDim c kBlock
        let tIdx := iBlock * nBlocks c + kBlock
        let rStart := kBlock * BLOCK_SIZE
        let t ← forUp pStart pEnd (fun p t => do
          let lStart := (p - pStart) * kWidth
          let lEnd := lStart + kWidth
          forUp qStart qEnd (fun q' (t : Nat × Blocks α r q) => do
            let u ← forUp lStart lEnd (fun l (u : Nat × α) => do
              let v := Flt.mul (← a.blocks.get tIdx l) (← m.at u.1 q')
              return (u.1 + 1, Flt.add u.2 v)) (rStart, Flt.zero)
            let old ← t.2.get s.1 t.1
            let b ← t.2.set s.1 t.1 (Flt.add old u.2)
            return (t.1 + 1, b)) t) (0, out)
        return t.2) s.2
      return (s.1 + 1, out)) s) (0, Jag.zero _ _)
  return ⟨s.2⟩

/-- `Multiply`, `/repo/block_real_matrix.go:321-424`. -/
def Blk.multiply {p q : Nat} (a : Blk α r c) (b : Mat α p q) : Res (Blk α r q) := do
  (checkMultiplicationCompatible c p).must
  match b with
  | .blk m => a.mulBlk m
  | m => a.mulGen m

/-- `Data`, `/repo/block_real_matrix.go:426-450`. `brm.columns - (brm.blockColumns-1)*BLOCK_SIZE` is non-negative for
`c ≥ 1`. -/
def Blk.dataCopy (m : Blk α r c) : Res (Tab α r c) := do
  let lastColumns := c - (nBlocks c - 1) * BLOCK_SIZE
  forUp 0 (nBlocks r) (fun iBlock data => do
    let pStart := iBlock * BLOCK_SIZE
    let pEnd := min (pStart + BLOCK_SIZE) r
    let s ← forUp pStart pEnd (fun p (s : (Nat × Nat) × Tab α r c) => do
      let (regularPos, lastPos) := s.1
      let u ← forUp 0 (nBlocks c - 1) (fun _ (u : (Nat × Nat) × Tab α r c) => do
        let (blockIndex, dataPos) := u.1
        let d ← Jag.copySeg u.2 p dataPos m.blocks blockIndex regularPos BLOCK_SIZE
        return ((blockIndex + 1, dataPos + BLOCK_SIZE), d)) ((iBlock * nBlocks c, 0), s.2)
      let (blockIndex, dataPos) := u.1
      let d ← Jag.copySeg u.2 p dataPos m.blocks blockIndex lastPos lastColumns
      return ((regularPos + BLOCK_SIZE, lastPos + lastColumns), d)) ((0, 0), data)
    return s.2) (Jag.zero r (fun _ => c))

/-- `Trace`, `/repo/block_real_matrix.go:452-463`. -/
def Blk.trace (m : Blk α r c) : Res α := do
  if r ≠ c then throw (.pan .sqMat)
  sumUp 0 r (fun i => m.at i i) Flt.zero

/-- `copyBlockPart`, `/repo/block_real_matrix.go:531-540`. -/
def copyBlockPart {n n' : Nat} {len len' : Nat → Nat} (src : Jag α n len) (srcIdx : Nat)
    (srcWidth srcStartRow srcEndRow srcStartColumn srcEndColumn : Nat)
    (dst : Jag α n' len') (dstIdx : Nat) (dstWidth dstStartRow dstStartColumn : Nat) :
    Res (Jag α n' len') := do
  let length := srcEndColumn - srcStartColumn
  let s ← forUp srcStartRow srcEndRow (fun _ (s : (Nat × Nat) × Jag α n' len') => do
    let d ← s.2.copySeg dstIdx s.1.2 src srcIdx s.1.1 length
    return ((s.1.1 + srcWidth, s.1.2 + dstWidth), d))
    ((srcStartRow * srcWidth + srcStartColumn, dstStartRow * dstWidth + dstStartColumn), dst)
  return s.2

/-- `SubMatrix`, `/repo/block_real_matrix.go:465-529`. `heightExcess` and `widthExcess` are only used when positive. -/
def Blk.subMatrix (m : Blk α r c) (startRow endRow startColumn endColumn : Int) :
    Res (Blk α (endRow - startRow + 1).toNat (endColumn - startColumn + 1).toNat) := do
  (checkSubMatrixIndex r c startRow endRow startColumn endColumn).must
  let orows := (endRow - startRow + 1).toNat
  let ocols := (endColumn - startColumn + 1).toNat
  if orows < 1 ∨ ocols < 1 then throw (.pan .notSPos)
  let blockStartRow := startRow.toNat / BLOCK_SIZE
  let rowsShift := startRow.toNat % BLOCK_SIZE
  let blockStartColumn := startColumn.toNat / BLOCK_SIZE
  let columnsShift := startColumn.toNat % BLOCK_SIZE
  let s ← forUp 0 (nBlocks orows) (fun iBlock (s : Nat × Blocks α orows ocols) => do
    let pBlock := s.1
    let iHeight := blockDim orows iBlock
    let t ← forUp 0 (nBlocks ocols) (fun jBlock (t : Nat × Blocks α orows ocols) => do
      let qBlock := t.1
      let jWidth := blockDim ocols jBlock
      let outIndex := iBlock * nBlocks ocols + jBlock
      let index := pBlock * nBlocks c + qBlock
      let width := blockDim c qBlock
      let out := t.2
      let out ← if iHeight + rowsShift > BLOCK_SIZE then
          let heightExcess := iHeight + rowsShift - BLOCK_SIZE
          if jWidth + columnsShift > BLOCK_SIZE then do
            let widthExcess := jWidth + columnsShift - BLOCK_SIZE
            let width2 := blockDim c (qBlock + 1)
            let out ← copyBlockPart m.blocks index width rowsShift BLOCK_SIZE columnsShift BLOCK_SIZE
              out outIndex jWidth 0 0
            let out ← copyBlockPart m.blocks (index + 1) width2 rowsShift BLOCK_SIZE 0 widthExcess
              out outIndex jWidth 0 (jWidth - widthExcess)
            let out ← copyBlockPart m.blocks (index + nBlocks c) width 0 heightExcess
              columnsShift BLOCK_SIZE out outIndex jWidth (iHeight - heightExcess) 0
            copyBlockPart m.blocks (index + nBlocks c + 1) width2 0 heightExcess 0 widthExcess
              out outIndex jWidth (iHeight - heightExcess) (jWidth - widthExcess)
          else do
            let out ← copyBlockPart m.blocks index width rowsShift BLOCK_SIZE columnsShift
              (jWidth + columnsShift) out outIndex jWidth 0 0
            copyBlockPart m.blocks (index + nBlocks c) width 0 heightExcess columnsShift
              (jWidth + columnsShift) out outIndex jWidth (iHeight - heightExcess) 0
        else
          if jWidth + columnsShift > BLOCK_SIZE then do
            let widthExcess := jWidth + columnsShift - BLOCK_SIZE
            let width2 := blockDim c (qBlock + 1)
            let out ← copyBlockPart m.blocks index width rowsShift (iHeight + rowsShift) columnsShift
              BLOCK_SIZE out outIndex jWidth 0 0
            copyBlockPart m.blocks (index + 1) width2 rowsShift (iHeight + rowsShift) 0 widthExcess
              out outIndex jWidth 0 (jWidth - widthExcess)
          else
            copyBlockPart m.blocks index width rowsShift (iHeight + rowsShift) columnsShift
              (jWidth + columnsShift) out outIndex jWidth 0 0
      return (qBlock + 1, out)) (blockStartColumn, s.2)
    return (pBlock + 1, t.2)) (blockStartRow, Jag.zero _ _)
  return ⟨s.2⟩

/-- `SetSubMatrix`, `/repo/block_real_matrix.go:542-591` (`none` is nil; an empty outer slice is an index panic). -/
def Blk.setSubMatrix (m : Blk α r c) (sub : Option (List (List α))) (row column : Int) :
    Mut (Blk α r c) := do
  match sub with
  | none => throw (.pan .inv, m)
  | some sub =>
    let refLength := (← (rdL sub 0).at m).length
    if refLength = 0 then throw (.pan .noDat, m)
    let endRow := row + sub.length - 1
    let endColumn := column + refLength - 1
    (checkSubMatrixIndex r c row endRow column endColumn).must.at m
    forUp 0 sub.length (fun i (_ : Unit) => do
      if (← (rdL sub i).at m).length ≠ refLength then throw (Fault.pan .dim, m)) ()
    let row := row.toNat
    let column := column.toNat
    let endRow := endRow.toNat
    let endColumn := endColumn.toNat
    let blockStartRow := row / BLOCK_SIZE
    let blockEndRow := (endRow + BLOCK_SIZE) / BLOCK_SIZE
    let blockStartColumn := column / BLOCK_SIZE
    let blockEndColumn := (endColumn + BLOCK_SIZE) / BLOCK_SIZE
    forUp blockStartRow blockEndRow (fun iBlock m => do
      let iHeight := blockDim r iBlock
      let firstRow := iBlock * BLOCK_SIZE
      let iStart := max row firstRow
      let iEnd := min (endRow + 1) (firstRow + iHeight)
      forUp blockStartColumn blockEndColumn (fun jBlock m => do
        let jWidth := blockDim c jBlock
        let firstColumn := jBlock * BLOCK_SIZE
        let jStart := max column firstColumn
        let jEnd := min (endColumn + 1) (firstColumn + jWidth)
        let jLength := jEnd - jStart
        forUp iStart iEnd (fun i (m : Blk α r c) => do
          let pos := (i - firstRow) * jWidth + (jStart - firstColumn)
          let src ← (rdL sub (i - row)).at m
          let b ← (m.blocks.copySegL (iBlock * nBlocks c + jBlock) pos src (jStart - column)
            jLength).at m
          return ⟨b⟩) m) m) m

/-- `RowMatrixAt`, `/repo/block_real_matrix.go:593-622`. -/
def Blk.rowMatrixAt (m : Blk α r c) (row : Int) : Res (Blk α 1 c) := do
  (checkRowIndex r row).must
  if c < 1 then throw (.pan .notSPos)
  let iBlock := row.toNat / BLOCK_SIZE
  let iRow := row.toNat - iBlock * BLOCK_SIZE
  let s ← forUp 0 (nBlocks c) (fun jBlock (s : (Nat × Nat) × Blocks α 1 c) => do
    let (outBlockIndex, outIndex) := s.1
    let jWidth := blockDim c jBlock
    let srcIdx := iBlock * nBlocks c + jBlock
    if outBlockIndex ≥ nBlocks 1 * nBlocks c then throw .rt
    let available := blkLen 1 c outBlockIndex - outIndex
    if jWidth > available then
      let o ← s.2.copySeg outBlockIndex outIndex m.blocks srcIdx (iRow * jWidth) available
      let outBlockIndex := outBlockIndex + 1
      let o ← o.copySeg outBlockIndex 0 m.blocks srcIdx (iRow * jWidth) (jWidth - available)
      return ((outBlockIndex, jWidth - available), o)
    else
      let o ← s.2.copySeg outBlockIndex outIndex m.blocks srcIdx (iRow * jWidth) jWidth
      return ((outBlockIndex, outIndex + jWidth), o)) ((0, 0), Jag.zero _ _)
  return ⟨s.2⟩

/-- `SetRowMatrix`, `/repo/block_real_matrix.go:624-658`. -/
def Blk.setRowMatrix {p q : Nat} (m : Blk α r c) (row : Int) (b : Mat α p q) :
    Mut (Blk α r c) := do
  (checkRowIndex r row).must.at m
  if p ≠ 1 ∨ q ≠ c then throw (.pan .matDim, m)
  match b with
  | .blk mb =>
    let iBlock := row.toNat / BLOCK_SIZE
    let iRow := row.toNat - iBlock * BLOCK_SIZE
    let s ← forUp 0 (nBlocks c) (fun jBlock (s : (Nat × Nat) × Blk α r c) => do
      let (mBlockIndex, mIndex) := s.1
      let m := s.2
      let jWidth := blockDim c jBlock
      let dstIdx := iBlock * nBlocks c + jBlock
      if mBlockIndex ≥ nBlocks p * nBlocks q then throw (.rt, m)
      let available := blkLen p q mBlockIndex - mIndex
      if jWidth > available then
        let o ← (m.blocks.copySeg dstIdx (iRow * jWidth) mb.blocks mBlockIndex mIndex available).at m
        let mBlockIndex := mBlockIndex + 1
        let o' ← (o.copySeg dstIdx (iRow * jWidth) mb.blocks mBlockIndex 0 (jWidth - available)).at
          (⟨o⟩ : Blk α r c)
        return ((mBlockIndex, jWidth - available), ⟨o'⟩)
      else
        let o ← (m.blocks.copySeg dstIdx (iRow * jWidth) mb.blocks mBlockIndex mIndex jWidth).at m
        return ((mBlockIndex, mIndex + jWidth), ⟨o⟩)) ((0, 0), m)
    return s.2
  | b => forUp 0 c (fun i m => do
      let v ← (b.at 0 i).at m
      m.setEntry row i v) m

/-- `ColumnMatrixAt`, `/repo/block_real_matrix.go:660-688`. -/
def Blk.columnMatrixAt (m : Blk α r c) (column : Int) : Res (Blk α r 1) := do
  (checkColumnIndex c column).must
  if r < 1 then throw (.pan .notSPos)
  let jBlock := column.toNat / BLOCK_SIZE
  let jColumn := column.toNat - jBlock * BLOCK_SIZE
  let jWidth := blockDim c jBlock
  let s ← forUp 0 (nBlocks r) (fun iBlock s => do
    let iHeight := blockDim r iBlock
    forUp 0 iHeight (fun i (s : (Nat × Nat) × Blocks α r 1) => do
      let (outBlockIndex, outIndex) := s.1
      if outBlockIndex ≥ nBlocks r * nBlocks 1 then throw .rt
      let (outBlockIndex, outIndex) :=
        if outIndex ≥ blkLen r 1 outBlockIndex then (outBlockIndex + 1, 0)
        else (outBlockIndex, outIndex)
      let v ← m.blocks.get (iBlock * nBlocks c + jBlock) (i * jWidth + jColumn)
      let o ← s.2.set outBlockIndex outIndex v
      return ((outBlockIndex, outIndex + 1), o)) s) ((0, 0), Jag.zero _ _)
  return ⟨s.2⟩

/-- `SetColumnMatrix`, `/repo/block_real_matrix.go:690-722`. -/
def Blk.setColumnMatrix {p q : Nat} (m : Blk α r c) (column : Int) (b : Mat α p q) :
    Mut (Blk α r c) := do
  (checkColumnIndex c column).must.at m
  if p ≠ r ∨ q ≠ 1 then throw (.pan .matDim, m)
  match b with
  | .blk mb =>
    let jBlock := column.toNat / BLOCK_SIZE
    let jColumn := column.toNat - jBlock * BLOCK_SIZE
    let jWidth := blockDim c jBlock
    let s ← forUp 0 (nBlocks r) (fun iBlock s => do
      let iHeight := blockDim r iBlock
      forUp 0 iHeight (fun i (s : (Nat × Nat) × Blk α r c) => do
        let (mBlockIndex, mIndex) := s.1
        let m := s.2
        if mBlockIndex ≥ nBlocks p * nBlocks q then throw (.rt, m)
        let (mBlockIndex, mIndex) :=
          if mIndex ≥ blkLen p q mBlockIndex then (mBlockIndex + 1, 0)
          else (mBlockIndex, mIndex)
        let v ← (mb.blocks.get mBlockIndex mIndex).at m
        let o ← (m.blocks.set (iBlock * nBlocks c + jBlock) (i * jWidth + jColumn) v).at m
        return ((mBlockIndex, mIndex + 1), ⟨o⟩)) s) ((0, 0), m)
    return s.2
  | b => forUp 0 r (fun i m => do
      let v ← (b.at i 0).at m
      m.setEntry i column v) m

/-- `RowAt`, `/repo/block_real_matrix.go:803-820`, and `RowVectorAt`, `/repo/block_real_matrix.go:724-743` (same loop). -/
def Blk.rowAt (m : Blk α r c) (row : Int) : Res (List α) := do
  (checkRowIndex r row).must
  let iBlock := row.toNat / BLOCK_SIZE
  let iRow := row.toNat - iBlock * BLOCK_SIZE
  let s ← forUp 0 (nBlocks c) (fun jBlock (s : Nat × Row α c) => do
    let jWidth := blockDim c jBlock
    let o ← s.2.copySeg s.1 m.blocks (iBlock * nBlocks c + jBlock) (iRow * jWidth) jWidth
    return (s.1 + jWidth, o)) (0, Row.zero c)
  return s.2.toList

/-- `SetRow`, `/repo/block_real_matrix.go:822-840`. -/
def Blk.setRow (m : Blk α r c) (row : Int) (array : List α) : Mut (Blk α r c) := do
  (checkRowIndex r row).must.at m
  if array.length ≠ c then throw (.pan .matDim, m)
  let iBlock := row.toNat / BLOCK_SIZE
  let iRow := row.toNat - iBlock * BLOCK_SIZE
  let s ← forUp 0 (nBlocks c) (fun jBlock (s : Nat × Blk α r c) => do
    let jWidth := blockDim c jBlock
    let o ← (s.2.blocks.copySegL (iBlock * nBlocks c + jBlock) (iRow * jWidth) array s.1 jWidth).at
      s.2
    return (s.1 + jWidth, ⟨o⟩)) (0, m)
  return s.2

/-- `ColumnAt`, `/repo/block_real_matrix.go:842-862`, and `ColumnVectorAt`, `/repo/block_real_matrix.go:762-784` (same loop). -/
def Blk.columnAt (m : Blk α r c) (column : Int) : Res (List α) := do
  (checkColumnIndex c column).must
  let jBlock := column.toNat / BLOCK_SIZE
  let jColumn := column.toNat - jBlock * BLOCK_SIZE
  let jWidth := blockDim c jBlock
  let s ← forUp 0 (nBlocks r) (fun iBlock s => do
    let iHeight := blockDim r iBlock
    forUp 0 iHeight (fun i (s : Nat × Row α r) => do
      let v ← m.blocks.get (iBlock * nBlocks c + jBlock) (i * jWidth + jColumn)
      let o ← s.2.set s.1 v
      return (s.1 + 1, o)) s) (0, Row.zero r)
  return s.2.toList

/-- `SetColumn`, `/repo/block_real_matrix.go:864-885`. -/
def Blk.setColumn (m : Blk α r c) (column : Int) (array : List α) : Mut (Blk α r c) := do
  (checkColumnIndex c column).must.at m
  if array.length ≠ r then throw (.pan .matDim, m)
  let jBlock := column.toNat / BLOCK_SIZE
  let jColumn := column.toNat - jBlock * BLOCK_SIZE
  let jWidth := blockDim c jBlock
  let s ← forUp 0 (nBlocks r) (fun iBlock s => do
    let iHeight := blockDim r iBlock
    forUp 0 iHeight (fun i (s : Nat × Blk α r c) => do
      let v ← (rdL array s.1).at s.2
      let o ← (s.2.blocks.set (iBlock * nBlocks c + jBlock) (i * jWidth + jColumn) v).at s.2
      return (s.1 + 1, ⟨o⟩)) s) (0, m)
  return s.2

/-- `SetRowVector`, `/repo/block_real_matrix.go:745-760`. For a foreign vector the row index is checked and then
`vec.Dimension()` is called on the nil pointer shadowing the argument: nil dereference. -/
def Blk.setRowVector (m : Blk α r c) (row : Int) (v : RVec α) : Mut (Blk α r c) :=
  match v with
  | .arr d => m.setRow row d
  | .ext _ => do
    (checkRowIndex r row).must.at m
    throw (.rt, m)

/-- `SetColumnVector`, `/repo/block_real_matrix.go:786-801` (same nil dereference for a foreign vector). -/
def Blk.setColumnVector (m : Blk α r c) (column : Int) (v : RVec α) : Mut (Blk α r c) :=
  match v with
  | .arr d => m.setColumn column d
  | .ext _ => do
    (checkColumnIndex c column).must.at m
    throw (.rt, m)

/-- `Transpose`, `/repo/block_real_matrix.go:927-963`, with the running counters of the code. -/
def Blk.transpose (m : Blk α r c) : Res (Blk α c r) := do
  let s ← forUp 0 (nBlocks c) (fun iBlock s =>
    forUp 0 (nBlocks r) (fun jBlock (s : Nat × Blocks α c r) => do
      let pStart := iBlock * BLOCK_SIZE
      let pEnd := min (pStart + BLOCK_SIZE) c
      let qStart := jBlock * BLOCK_SIZE
      let qEnd := min (qStart + BLOCK_SIZE) r
      let t ← forUp pStart pEnd (fun p (t : Nat × Blocks α c r) => do
        let lInc := pEnd - pStart
        let u ← forUp qStart qEnd (fun _ (u : Nat × Nat × Blocks α c r) => do
          let (k, l, b) := u
          let v ← m.blocks.get (jBlock * nBlocks c + iBlock) l
          let b ← b.set s.1 k v
          return (k + 1, l + lInc, b)) (t.1, p - pStart, t.2)
        return (u.1, u.2.2)) (0, s.2)
      return (s.1 + 1, t.2)) s) (0, Jag.zero _ _)
  return ⟨s.2⟩

/-- `Operate`, `/repo/block_real_matrix.go:1000-1036`. The block is read at `k` while `q` runs over the columns of the
block; both advance by one per element, so one row of a block is `dotUnrolled` with step one. -/
def Blk.operate (m : Blk α r c) (v : List α) : Res (List α) := do
  if v.length ≠ c then throw (.pan .dim)
  let out ← forUp 0 (nBlocks r) (fun iBlock out => do
    let pStart := iBlock * BLOCK_SIZE
    let pEnd := min (pStart + BLOCK_SIZE) r
    forUp 0 (nBlocks c) (fun jBlock out => do
      let qStart := jBlock * BLOCK_SIZE
      let qEnd := min (qStart + BLOCK_SIZE) c
      let t ← forUp pStart pEnd (fun p (t : Nat × Row α r) => do
        let (q, (k, sum)) ← stride4 (fun q (s : Nat × α) => do
          let k := s.1
          let b := m.blocks.get (iBlock * nBlocks c + jBlock)
          let x := Flt.add (Flt.add (Flt.add
            (Flt.mul (← b k) (← rdL v q))
            (Flt.mul (← b (k + 1)) (← rdL v (q + 1))))
            (Flt.mul (← b (k + 2)) (← rdL v (q + 2))))
            (Flt.mul (← b (k + 3)) (← rdL v (q + 3)))
          return (k + 4, Flt.add s.2 x)) qStart qEnd (t.1, Flt.zero)
        let s ← forUp q qEnd (fun q (s : Nat × α) => do
          let x := Flt.mul (← m.blocks.get (iBlock * nBlocks c + jBlock) s.1) (← rdL v q)
          return (s.1 + 1, Flt.add s.2 x)) (k, sum)
        let old ← t.2.get p
        let o ← t.2.set p (Flt.add old s.2)
        return (s.1, o)) (0, out)
      return t.2) out) (Row.zero r)
  return out.toList

/-- `OperateVector`, `/repo/block_real_matrix.go:973-998` (nil dereference for a foreign vector). -/
def Blk.operateVector (m : Blk α r c) (v : RVec α) : Res (List α) :=
  match v with
  | .arr d => m.operate d
  | .ext _ => throw .rt

/-- `PreMultiply`, `/repo/block_real_matrix.go:1068-1108`. -/
def Blk.preMultiply (m : Blk α r c) (v : List α) : Res (List α) := do
  if v.length ≠ r then throw (.pan .dim)
  let out ← forUp 0 (nBlocks c) (fun jBlock out => do
    let jWidth := blockDim c jBlock
    let qStart := jBlock * BLOCK_SIZE
    let qEnd := min (qStart + BLOCK_SIZE) c
    forUp 0 (nBlocks r) (fun iBlock out => do
      let pStart := iBlock * BLOCK_SIZE
      let pEnd := min (pStart + BLOCK_SIZE) r
      forUp qStart qEnd (fun q (out : Row α c) => do
        let (p, (k, sum)) ← stride4 (fun p (s : Nat × α) => do
          let k := s.1
          let b := m.blocks.get (iBlock * nBlocks c + jBlock)
          let x := Flt.add (Flt.add (Flt.add
            (Flt.mul (← b k) (← rdL v p))
            (Flt.mul (← b (k + jWidth)) (← rdL v (p + 1))))
            (Flt.mul (← b (k + 2 * jWidth)) (← rdL v (p + 2))))
            (Flt.mul (← b (k + 3 * jWidth)) (← rdL v (p + 3)))
          return (k + 4 * jWidth, Flt.add s.2 x)) pStart pEnd (q - qStart, Flt.zero)
        let s ← forUp p pEnd (fun p (s : Nat × α) => do
          let x := Flt.mul (← m.blocks.get (iBlock * nBlocks c + jBlock) s.1) (← rdL v p)
          return (s.1 + jWidth, Flt.add s.2 x)) (k, sum)
        let old ← out.get q
        out.set q (Flt.add old s.2)) out) out) (Row.zero c)
  return out.toList

/-- `PreMultiplyVector`, `/repo/block_real_matrix.go:1042-1066` (nil dereference for a foreign vector). -/
def Blk.preMultiplyVector (m : Blk α r c) (v : RVec α) : Res (List α) :=
  match v with
  | .arr d => m.preMultiply d
  | .ext _ => throw .rt

/-- `Equals` on another matrix object, `/repo/block_real_matrix.go:1378-1391`. -/
def Blk.equals {p q : Nat} (a : Blk α r c) (b : Mat α p q) : Res Bool := do
  if q ≠ c ∨ p ≠ r then return false
  let s ← forUpBrk 0 r (fun row (_ : Unit) => do
    let t ← forUpBrk 0 c (fun col (_ : Unit) => do
      let x ← a.at row col
      let y ← b.at row col
      return if Flt.eq x y then .inl () else .inr ()) ()
    return t) ()
  return match s with
    | .inl _ => true
    | .inr _ => false

end

end Linear
