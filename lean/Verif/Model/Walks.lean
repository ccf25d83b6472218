import Verif.Model.DiaOps

/-!
# Visitor walks of the three matrix implementations

A visitor is code of the caller with its own state `τ`. It may panic (any `Fault`). It is assumed
not to touch the matrix being walked except through the value it returns.
-/

namespace Linear

variable {α : Type} [Flt α] {τ : Type}

/-- `RealMatrixPreservingVisitor` (`/repo/real_matrix_visitor.go`; made of three functions in `/repo/diagonal_matrix.go:623-639`
and `/repo/real_matrix.go:377-393`): `Start` receives the
dimensions and the window, `Visit` one entry, `End` gives the result. -/
structure VisP (α τ : Type) where
  start : Int → Int → Int → Int → Int → Int → τ → Res τ
  visit : Int → Int → α → τ → Res τ
  fin : τ → Res (τ × α)

/-- `RealMatrixChangingVisitor` (`/repo/real_matrix_visitor.go`; made of one function in `/repo/real_matrix.go:446-460`): `Visit` also gives the new
entry. -/
structure VisC (α τ : Type) where
  start : Int → Int → Int → Int → Int → Int → τ → Res τ
  visit : Int → Int → α → τ → Res (τ × α)
  fin : τ → Res (τ × α)

/-- `for i := a; i <= b; i++` over Go `int`s. (Go language; as in /repo/array_2d_row_real_matrix.go:572-585) -/
def forIncl {ε σ : Type} (a b : Int) (body : Int → σ → Except ε σ) (s : σ) : Except ε σ :=
  forUp 0 (b - a + 1).toNat (fun k s => body (a + k) s) s

/-! ## Row-array storage (`/repo/array_2d_row_real_matrix.go:559-679`) -/

section
variable {r c : Nat}

/-- `rowI[j] = visitor.Visit(i, j, rowI[j])` (`i`, `j` already checked, so not negative). (/repo/array_2d_row_real_matrix.go:587-598) -/
def Arr.visitSet (v : VisC α τ) (i j : Int) (s : τ × Arr α r c) :
    Except (Fault × Arr α r c) (τ × Arr α r c) := do
  let x ← (s.2.data.get i.toNat j.toNat).at s.2
  let y ← (v.visit i j x s.1).at s.2
  let d ← (s.2.data.set i.toNat j.toNat y.2).at s.2
  return (y.1, { s.2 with data := d })

/-- `WalkInRowOrder`, `/repo/array_2d_row_real_matrix.go:559-570` (and `WalkInOptimizedOrder`, `/repo/array_2d_row_real_matrix.go:669-671`). -/
def Arr.walkRow (m : Arr α r c) (v : VisP α τ) (t : τ) : Res (τ × α) := do
  let _ ← m.colDim
  let t ← v.start r c 0 (r - 1) 0 (c - 1) t
  let t ← forUp 0 r (fun i t => forUp 0 c (fun j t => do
    v.visit i j (← m.data.get i j) t) t) t
  v.fin t

/-- `WalkInRowOrderBounded`, `/repo/array_2d_row_real_matrix.go:572-584` (and `WalkInOptimizedOrderBounded`, `/repo/array_2d_row_real_matrix.go:677-679`). -/
def Arr.walkRowB (m : Arr α r c) (v : VisP α τ) (t : τ) (sr er sc ec : Int) : Res (τ × α) := do
  (checkSubMatrixIndex r c sr er sc ec).must
  let t ← v.start r c sr er sc ec t
  let t ← forIncl sr er (fun i t => forIncl sc ec (fun j t => do
    v.visit i j (← m.data.get i.toNat j.toNat) t) t) t
  v.fin t

/-- `WalkInColumnOrder`, `/repo/array_2d_row_real_matrix.go:626-636`. -/
def Arr.walkCol (m : Arr α r c) (v : VisP α τ) (t : τ) : Res (τ × α) := do
  let _ ← m.colDim
  let t ← v.start r c 0 (r - 1) 0 (c - 1) t
  let t ← forUp 0 c (fun j t => forUp 0 r (fun i t => do
    v.visit i j (← m.data.get i j) t) t) t
  v.fin t

/-- `WalkInColumnOrderBounded`, `/repo/array_2d_row_real_matrix.go:652-663`. -/
def Arr.walkColB (m : Arr α r c) (v : VisP α τ) (t : τ) (sr er sc ec : Int) : Res (τ × α) := do
  (checkSubMatrixIndex r c sr er sc ec).must
  let t ← v.start r c sr er sc ec t
  let t ← forIncl sc ec (fun j t => forIncl sr er (fun i t => do
    v.visit i j (← m.data.get i.toNat j.toNat) t) t) t
  v.fin t

/-- `WalkInUpdateRowOrder`, `/repo/array_2d_row_real_matrix.go:586-597` (and `WalkInUpdateOptimizedOrder`, `/repo/array_2d_row_real_matrix.go:665-667`). -/
def Arr.updRow (m : Arr α r c) (v : VisC α τ) (t : τ) :
    Except (Fault × Arr α r c) ((τ × α) × Arr α r c) := do
  let _ ← m.colDim.at m
  let t ← (v.start r c 0 (r - 1) 0 (c - 1) t).at m
  let s ← forUp 0 r (fun i s => forUp 0 c (fun j s => Arr.visitSet v i j s) s) (t, m)
  return (← (v.fin s.1).at s.2, s.2)

/-- `WalkInUpdateRowOrderBounded`, `/repo/array_2d_row_real_matrix.go:599-611` (and `WalkInUpdateOptimizedOrderBounded`, `/repo/array_2d_row_real_matrix.go:673-675`). -/
def Arr.updRowB (m : Arr α r c) (v : VisC α τ) (t : τ) (sr er sc ec : Int) :
    Except (Fault × Arr α r c) ((τ × α) × Arr α r c) := do
  (checkSubMatrixIndex r c sr er sc ec).must.at m
  let t ← (v.start r c sr er sc ec t).at m
  let s ← forIncl sr er (fun i s => forIncl sc ec (fun j s => Arr.visitSet v i j s) s) (t, m)
  return (← (v.fin s.1).at s.2, s.2)

/-- `WalkInUpdateColumnOrder`, `/repo/array_2d_row_real_matrix.go:613-624`. -/
def Arr.updCol (m : Arr α r c) (v : VisC α τ) (t : τ) :
    Except (Fault × Arr α r c) ((τ × α) × Arr α r c) := do
  let _ ← m.colDim.at m
  let t ← (v.start r c 0 (r - 1) 0 (c - 1) t).at m
  let s ← forUp 0 c (fun j s => forUp 0 r (fun i s => Arr.visitSet v i j s) s) (t, m)
  return (← (v.fin s.1).at s.2, s.2)

/-- `WalkInUpdateColumnOrderBounded`, `/repo/array_2d_row_real_matrix.go:638-650`. -/
def Arr.updColB (m : Arr α r c) (v : VisC α τ) (t : τ) (sr er sc ec : Int) :
    Except (Fault × Arr α r c) ((τ × α) × Arr α r c) := do
  (checkSubMatrixIndex r c sr er sc ec).must.at m
  let t ← (v.start r c sr er sc ec t).at m
  let s ← forIncl sc ec (fun j s => forIncl sr er (fun i s => Arr.visitSet v i j s) s) (t, m)
  return (← (v.fin s.1).at s.2, s.2)

/-! ## Block storage (`/repo/block_real_matrix.go:1110-1352`) -/

/-- Loop skeleton of `WalkInUpdateRowOrder` (`/repo/block_real_matrix.go:1112-1127`) and `WalkInRowOrder` (1133-1148). -/
def blkLoopRow {ε σ : Type} (r c : Nat) (step : Nat → Nat → Nat → Nat → σ → Except ε σ) (s : σ) :
    Except ε σ :=
  forUp 0 (nBlocks r) (fun iBlock s =>
    let pStart := iBlock * BLOCK_SIZE
    let pEnd := min (pStart + BLOCK_SIZE) r
    forUp pStart pEnd (fun p s =>
      forUp 0 (nBlocks c) (fun jBlock (s : σ) => do
        let jWidth := blockDim c jBlock
        let qStart := jBlock * BLOCK_SIZE
        let qEnd := min (qStart + BLOCK_SIZE) c
        let t ← forUp qStart qEnd (fun q (t : Nat × σ) => do
          let b ← step p q (iBlock * nBlocks c + jBlock) t.1 t.2
          return (t.1 + 1, b)) ((p - pStart) * jWidth, s)
        return t.2) s) s) s

/-- Loop skeleton of `WalkInUpdateRowOrderBounded` (`/repo/block_real_matrix.go:1157-1174`) and `WalkInRowOrderBounded`
(1183-1200). -/
def blkLoopRowB {ε σ : Type} (c : Nat) (sr er sc ec : Nat)
    (step : Nat → Nat → Nat → Nat → σ → Except ε σ) (s : σ) : Except ε σ :=
  forUp (sr / BLOCK_SIZE) (1 + er / BLOCK_SIZE) (fun iBlock s =>
    let p0 := iBlock * BLOCK_SIZE
    let pStart := max sr p0
    let pEnd := min ((iBlock + 1) * BLOCK_SIZE) (1 + er)
    forUp pStart pEnd (fun p s =>
      forUp (sc / BLOCK_SIZE) (1 + ec / BLOCK_SIZE) (fun jBlock (s : σ) => do
        let jWidth := blockDim c jBlock
        let q0 := jBlock * BLOCK_SIZE
        let qStart := max sc q0
        let qEnd := min ((jBlock + 1) * BLOCK_SIZE) (1 + ec)
        let t ← forUp qStart qEnd (fun q (t : Nat × σ) => do
          let b ← step p q (iBlock * nBlocks c + jBlock) t.1 t.2
          return (t.1 + 1, b)) ((p - p0) * jWidth + qStart - q0, s)
        return t.2) s) s) s

/-- Loop skeleton of `WalkInUpdateOptimizedOrderBounded` (`/repo/block_real_matrix.go:1307-1324`) and
`WalkInOptimizedOrderBounded` (1333-1350). -/
def blkLoopOptB {ε σ : Type} (c : Nat) (sr er sc ec : Nat)
    (step : Nat → Nat → Nat → Nat → σ → Except ε σ) (s : σ) : Except ε σ :=
  forUp (sr / BLOCK_SIZE) (1 + er / BLOCK_SIZE) (fun iBlock s =>
    let p0 := iBlock * BLOCK_SIZE
    let pStart := max sr p0
    let pEnd := min ((iBlock + 1) * BLOCK_SIZE) (1 + er)
    forUp (sc / BLOCK_SIZE) (1 + ec / BLOCK_SIZE) (fun jBlock (s : σ) =>
      let jWidth := blockDim c jBlock
      let q0 := jBlock * BLOCK_SIZE
      let qStart := max sc q0
      let qEnd := min ((jBlock + 1) * BLOCK_SIZE) (1 + ec)
      forUp pStart pEnd (fun p s => do
        let t ← forUp qStart qEnd (fun q (t : Nat × σ) => do
          let b ← step p q (iBlock * nBlocks c + jBlock) t.1 t.2
          return (t.1 + 1, b)) ((p - p0) * jWidth + qStart - q0, s)
        return t.2) s) s) s

/-- `visitor.Visit(p, q, blocks[b][k])`. (/repo/block_real_matrix.go:1131-1151) -/
def Blk.visitStep (m : Blk α r c) (v : VisP α τ) (p q b k : Nat) (t : τ) : Res τ := do
  v.visit p q (← m.blocks.get b k) t

/-- `blocks[b][k] = visitor.Visit(p, q, blocks[b][k])`. (/repo/block_real_matrix.go:1110-1130) -/
def Blk.visitSet (v : VisC α τ) (p q b k : Nat) (s : τ × Blk α r c) :
    Except (Fault × Blk α r c) (τ × Blk α r c) := do
  let x ← (s.2.blocks.get b k).at s.2
  let y ← (v.visit p q x s.1).at s.2
  let d ← (s.2.blocks.set b k y.2).at s.2
  return (y.1, ⟨d⟩)

/-- `oldValue := At; newValue := Visit; SetEntry`, `/repo/block_real_matrix.go:1210-1212, 1237-1239`. -/
def Blk.visitAt (v : VisC α τ) (i j : Int) (s : τ × Blk α r c) :
    Except (Fault × Blk α r c) (τ × Blk α r c) := do
  let x ← (s.2.at i j).at s.2
  let y ← (v.visit i j x s.1).at s.2
  let m ← s.2.setEntry i j y.2
  return (y.1, m)

/-- `WalkInRowOrder`, `/repo/block_real_matrix.go:1131-1150`. -/
def Blk.walkRow (m : Blk α r c) (v : VisP α τ) (t : τ) : Res (τ × α) := do
  let t ← v.start r c 0 (r - 1) 0 (c - 1) t
  let t ← blkLoopRow r c (m.visitStep v) t
  v.fin t

/-- `WalkInRowOrderBounded`, `/repo/block_real_matrix.go:1178-1202`. -/
def Blk.walkRowB (m : Blk α r c) (v : VisP α τ) (t : τ) (sr er sc ec : Int) : Res (τ × α) := do
  (checkSubMatrixIndex r c sr er sc ec).must
  let t ← v.start r c sr er sc ec t
  let t ← blkLoopRowB c sr.toNat er.toNat sc.toNat ec.toNat (m.visitStep v) t
  v.fin t

/-- `WalkInColumnOrder`, `/repo/block_real_matrix.go:1218-1228`. -/
def Blk.walkCol (m : Blk α r c) (v : VisP α τ) (t : τ) : Res (τ × α) := do
  let t ← v.start r c 0 (r - 1) 0 (c - 1) t
  let t ← forUp 0 c (fun j t => forUp 0 r (fun i t => do v.visit i j (← m.at i j) t) t) t
  v.fin t

/-- `WalkInColumnOrderBounded`, `/repo/block_real_matrix.go:1245-1256`. -/
def Blk.walkColB (m : Blk α r c) (v : VisP α τ) (t : τ) (sr er sc ec : Int) : Res (τ × α) := do
  (checkSubMatrixIndex r c sr er sc ec).must
  let t ← v.start r c sr er sc ec t
  let t ← forIncl sc ec (fun j t => forIncl sr er (fun i t => do
    v.visit i j (← m.at i j) t) t) t
  v.fin t

/-- `WalkInOptimizedOrder`, `/repo/block_real_matrix.go:1280-1300`. -/
def Blk.walkOpt (m : Blk α r c) (v : VisP α τ) (t : τ) : Res (τ × α) := do
  let t ← v.start r c 0 (r - 1) 0 (c - 1) t
  let t ← blkLoopOpt r c (m.visitStep v) t
  v.fin t

/-- `WalkInOptimizedOrderBounded`, `/repo/block_real_matrix.go:1328-1352`. -/
def Blk.walkOptB (m : Blk α r c) (v : VisP α τ) (t : τ) (sr er sc ec : Int) : Res (τ × α) := do
  (checkSubMatrixIndex r c sr er sc ec).must
  let t ← v.start r c sr er sc ec t
  let t ← blkLoopOptB c sr.toNat er.toNat sc.toNat ec.toNat (m.visitStep v) t
  v.fin t

/-- `WalkInUpdateRowOrder`, `/repo/block_real_matrix.go:1110-1129`. -/
def Blk.updRow (m : Blk α r c) (v : VisC α τ) (t : τ) :
    Except (Fault × Blk α r c) ((τ × α) × Blk α r c) := do
  let t ← (v.start r c 0 (r - 1) 0 (c - 1) t).at m
  let s ← blkLoopRow r c (Blk.visitSet v) (t, m)
  return (← (v.fin s.1).at s.2, s.2)

/-- `WalkInUpdateRowOrderBounded`, `/repo/block_real_matrix.go:1152-1176`. -/
def Blk.updRowB (m : Blk α r c) (v : VisC α τ) (t : τ) (sr er sc ec : Int) :
    Except (Fault × Blk α r c) ((τ × α) × Blk α r c) := do
  (checkSubMatrixIndex r c sr er sc ec).must.at m
  let t ← (v.start r c sr er sc ec t).at m
  let s ← blkLoopRowB c sr.toNat er.toNat sc.toNat ec.toNat (Blk.visitSet v) (t, m)
  return (← (v.fin s.1).at s.2, s.2)

/-- `WalkInUpdateColumnOrder`, `/repo/block_real_matrix.go:1204-1216`. -/
def Blk.updCol (m : Blk α r c) (v : VisC α τ) (t : τ) :
    Except (Fault × Blk α r c) ((τ × α) × Blk α r c) := do
  let t ← (v.start r c 0 (r - 1) 0 (c - 1) t).at m
  let s ← forUp 0 c (fun j s => forUp 0 r (fun i s => Blk.visitAt v i j s) s) (t, m)
  return (← (v.fin s.1).at s.2, s.2)

/-- `WalkInUpdateColumnOrderBounded`, `/repo/block_real_matrix.go:1230-1243`. -/
def Blk.updColB (m : Blk α r c) (v : VisC α τ) (t : τ) (sr er sc ec : Int) :
    Except (Fault × Blk α r c) ((τ × α) × Blk α r c) := do
  (checkSubMatrixIndex r c sr er sc ec).must.at m
  let t ← (v.start r c sr er sc ec t).at m
  let s ← forIncl sc ec (fun j s => forIncl sr er (fun i s => Blk.visitAt v i j s) s) (t, m)
  return (← (v.fin s.1).at s.2, s.2)

/-- `WalkInUpdateOptimizedOrder`, `/repo/block_real_matrix.go:1258-1278`. -/
def Blk.updOpt (m : Blk α r c) (v : VisC α τ) (t : τ) :
    Except (Fault × Blk α r c) ((τ × α) × Blk α r c) := do
  let t ← (v.start r c 0 (r - 1) 0 (c - 1) t).at m
  let s ← blkLoopOpt r c (Blk.visitSet v) (t, m)
  return (← (v.fin s.1).at s.2, s.2)

/-- `WalkInUpdateOptimizedOrderBounded`, `/repo/block_real_matrix.go:1302-1326`. -/
def Blk.updOptB (m : Blk α r c) (v : VisC α τ) (t : τ) (sr er sc ec : Int) :
    Except (Fault × Blk α r c) ((τ × α) × Blk α r c) := do
  (checkSubMatrixIndex r c sr er sc ec).must.at m
  let t ← (v.start r c sr er sc ec t).at m
  let s ← blkLoopOptB c sr.toNat er.toNat sc.toNat ec.toNat (Blk.visitSet v) (t, m)
  return (← (v.fin s.1).at s.2, s.2)

end

/-! ## Diagonal storage (`/repo/diagonal_matrix.go:666-772`) -/

section
variable {n : Nat}

/-- `dm.SetEntry(i, j, visitor.Visit(i, j, dm.At(i, j)))`. (/repo/diagonal_matrix.go:689-700) -/
def Dia.visitAt (v : VisC α τ) (i j : Int) (s : τ × Dia α n) :
    Except (Fault × Dia α n) (τ × Dia α n) := do
  let x ← (s.2.at i j).at s.2
  let y ← (v.visit i j x s.1).at s.2
  let m ← s.2.setEntry i j y.2
  return (y.1, m)

/-- `WalkInRowOrder`, `/repo/diagonal_matrix.go:666-676` (and `WalkInOptimizedOrder`, `/repo/diagonal_matrix.go:762-764`). -/
def Dia.walkRow (m : Dia α n) (v : VisP α τ) (t : τ) : Res (τ × α) := do
  let t ← v.start n n 0 (n - 1) 0 (n - 1) t
  let t ← forUp 0 n (fun i t => forUp 0 n (fun j t => do v.visit i j (← m.at i j) t) t) t
  v.fin t

/-- `WalkInRowOrderBounded`, `/repo/diagonal_matrix.go:678-687` (and `WalkInOptimizedOrderBounded`, `/repo/diagonal_matrix.go:770-772`); the
result of the index check is discarded. -/
def Dia.walkRowB (m : Dia α n) (v : VisP α τ) (t : τ) (sr er sc ec : Int) : Res (τ × α) := do
  let t ← v.start n n sr er sc ec t
  let t ← forIncl sr er (fun i t => forIncl sc ec (fun j t => do
    v.visit i j (← m.at i j) t) t) t
  v.fin t

/-- `WalkInColumnOrder`, `/repo/diagonal_matrix.go:724-734`. -/
def Dia.walkCol (m : Dia α n) (v : VisP α τ) (t : τ) : Res (τ × α) := do
  let t ← v.start n n 0 (n - 1) 0 (n - 1) t
  let t ← forUp 0 n (fun j t => forUp 0 n (fun i t => do v.visit i j (← m.at i j) t) t) t
  v.fin t

/-- `WalkInColumnOrderBounded`, `/repo/diagonal_matrix.go:747-756` (index check discarded). -/
def Dia.walkColB (m : Dia α n) (v : VisP α τ) (t : τ) (sr er sc ec : Int) : Res (τ × α) := do
  let t ← v.start n n sr er sc ec t
  let t ← forIncl sc ec (fun j t => forIncl sr er (fun i t => do
    v.visit i j (← m.at i j) t) t) t
  v.fin t

/-- `WalkInUpdateRowOrder`, `/repo/diagonal_matrix.go:689-699` (and `WalkInUpdateOptimizedOrder`, `/repo/diagonal_matrix.go:758-760`). -/
def Dia.updRow (m : Dia α n) (v : VisC α τ) (t : τ) :
    Except (Fault × Dia α n) ((τ × α) × Dia α n) := do
  let t ← (v.start n n 0 (n - 1) 0 (n - 1) t).at m
  let s ← forUp 0 n (fun i s => forUp 0 n (fun j s => Dia.visitAt v i j s) s) (t, m)
  return (← (v.fin s.1).at s.2, s.2)

/-- `WalkInUpdateRowOrderBounded`, `/repo/diagonal_matrix.go:701-710` (and `WalkInUpdateOptimizedOrderBounded`, `/repo/diagonal_matrix.go:766-768`; index check discarded). -/
def Dia.updRowB (m : Dia α n) (v : VisC α τ) (t : τ) (sr er sc ec : Int) :
    Except (Fault × Dia α n) ((τ × α) × Dia α n) := do
  let t ← (v.start n n sr er sc ec t).at m
  let s ← forIncl sr er (fun i s => forIncl sc ec (fun j s => Dia.visitAt v i j s) s) (t, m)
  return (← (v.fin s.1).at s.2, s.2)

/-- `WalkInUpdateColumnOrder`, `/repo/diagonal_matrix.go:712-722`. -/
def Dia.updCol (m : Dia α n) (v : VisC α τ) (t : τ) :
    Except (Fault × Dia α n) ((τ × α) × Dia α n) := do
  let t ← (v.start n n 0 (n - 1) 0 (n - 1) t).at m
  let s ← forUp 0 n (fun j s => forUp 0 n (fun i s => Dia.visitAt v i j s) s) (t, m)
  return (← (v.fin s.1).at s.2, s.2)

/-- `WalkInUpdateColumnOrderBounded`, `/repo/diagonal_matrix.go:736-745` (index check discarded). -/
def Dia.updColB (m : Dia α n) (v : VisC α τ) (t : τ) (sr er sc ec : Int) :
    Except (Fault × Dia α n) ((τ × α) × Dia α n) := do
  let t ← (v.start n n sr er sc ec t).at m
  let s ← forIncl sc ec (fun j s => forIncl sr er (fun i s => Dia.visitAt v i j s) s) (t, m)
  return (← (v.fin s.1).at s.2, s.2)

end

end Linear
