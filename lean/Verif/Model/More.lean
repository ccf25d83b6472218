import Verif.Model.Matrix

/-!
# Remaining entry points of the three storages

`NewBlockRealMatrixFromBlockData`, `PreMultiplyMatrix`, `RowVectorAt` and `ColumnVectorAt`.
-/

namespace Linear

variable {α : Type} [Flt α]

/-- `NewBlockRealMatrixFromBlockData`, `/repo/block_real_matrix.go:85-116`. The running `index` is
the loop state. Slices behind the last block are never read, so the matrix keeps only the blocks of
its geometry; that the slices are shared and not copied is the subject of the heap model. The
default `Flt.zero` is never read: the lengths have been checked. -/
def Blk.fromBlockData (rows columns : Int) (blockData : List (List α)) :
    Res (Blk α rows.toNat columns.toNat) :=
  if rows < 1 then .error (.err .notSPos)
  else if columns < 1 then .error (.err .notSPos)
  else do
    let _ ← forUp 0 (nBlocks rows.toNat) (fun iBlock index =>
      forUp 0 (nBlocks columns.toNat) (fun jBlock index => do
        let b ← rdL blockData index
        if b.length ≠ blockDim rows.toNat iBlock * blockDim columns.toNat jBlock then
          .error (.err .dim)
        else .ok (index + 1)) index) 0
    return ⟨⟨fun i k => ((blockData[i]?.getD [])[k]?).getD Flt.zero⟩⟩

/-- `PreMultiplyMatrix`, `/repo/array_2d_row_real_matrix.go:492-494`,
`/repo/block_real_matrix.go:1038-1040`, `/repo/diagonal_matrix.go:307-309`: the same body for the
three storages. -/
def Mat.preMultiplyMatrix {r c p q : Nat} (m : Mat α r c) (b : Mat α p q) : Res (SMat α) :=
  b.multiply m

/-- Interface dispatch of `RowVectorAt`: `/repo/array_2d_row_real_matrix.go:771-775`,
`/repo/block_real_matrix.go:724-743` (the loop of `RowAt`), `/repo/diagonal_matrix.go:459-463`. The
vector is the contents of its slice; a foreign receiver is not modelled. -/
def Mat.rowVectorAt : {r c : Nat} → Mat α r c → Int → Res (List α)
  | _, _, .arr m, i => m.rowVectorAt i
  | _, _, .blk m, i => m.rowAt i
  | _, _, .dia m, i => m.rowAt i
  | _, _, .ext _, _ => .error .user

/-- Interface dispatch of `ColumnVectorAt`: `/repo/array_2d_row_real_matrix.go:791-795`,
`/repo/block_real_matrix.go:762-784` (the loop of `ColumnAt`), `/repo/diagonal_matrix.go:384-388`. -/
def Mat.columnVectorAt : {r c : Nat} → Mat α r c → Int → Res (List α)
  | _, _, .arr m, i => m.columnVectorAt i
  | _, _, .blk m, i => m.columnAt i
  | _, _, .dia m, i => m.columnAt i
  | _, _, .ext _, _ => .error .user

end Linear
