import Verif.Model.LU

/-!
# Cholesky decomposition (`/repo/cholesky_decomposition.go`)

The cached matrices `cachedL`, `cachedLT` are recomputed at each call here; in the code the second
call returns the matrix computed by the first.
-/

namespace Linear

variable {α : Type} [Flt α] {r c : Nat}

/-- `CholeskyDecomposition`, `/repo/cholesky_decomposition.go:50-54`; the field `m` is the number of rows `r`. -/
structure Chol (α : Type) (r c : Nat) where
  lT : Tab α r c

/-- The symmetry check, `/repo/cholesky_decomposition.go:79-94`: the lower triangle is reset to 0. -/
def Chol.check (rel : α) (t : Tab α r c) : Res (Tab α r c) :=
  forUp 0 r (fun i t =>
    forUp (i + 1) r (fun j (t : Tab α r c) => do
      let lIJ ← t.get i j
      let lJI ← t.get j i
      let maxDelta := Flt.mul rel (Flt.fmax (Flt.abs lIJ) (Flt.abs lJI))
      if Flt.lt maxDelta (Flt.abs (Flt.sub lIJ lJI)) then throw (.err .symm)
      t.set j i Flt.zero) t) t

/-- One row of the transformation, `/repo/cholesky_decomposition.go:97-116`. -/
def Chol.step (pos : α) (i : Nat) (t : Tab α r c) : Res (Tab α r c) := do
  if Flt.le (← t.get i i) pos then throw (.err .small)
  let t ← t.set i i (Flt.sqrt (← t.get i i))
  let inverse := Flt.div Flt.one (← t.get i i)
  forDown r (i + 1) (fun q (t : Tab α r c) => do
    let t ← t.set i q (Flt.mul (← t.get i q) inverse)
    forUp q r (fun p (t : Tab α r c) => do
      t.set q p (Flt.sub (← t.get q p) (Flt.mul (← t.get i q) (← t.get i p)))) t) t

/-- `NewCholeskyDecomposition`, `/repo/cholesky_decomposition.go:69-120`. -/
def Chol.new (rel pos : α) (m : Mat α r c) : Res (Chol α r c) := do
  if !(← m.isSquare) then throw (.err .sqMat)
  let t ← m.dataCopy
  let t ← Chol.check rel t
  let t ← forUp 0 r (Chol.step pos) t
  return ⟨t⟩

/-- `LT`, `/repo/cholesky_decomposition.go:135-144`. The rows of `lTData` are never nil. -/
def Chol.getLT (d : Chol α r c) : Res (SMat α) := (SMat.fromSlices (some d.lT.toLists) false).must

/-- `L`, `/repo/cholesky_decomposition.go:125-130`. -/
def Chol.getL (d : Chol α r c) : Res (SMat α) := do
  let s ← d.getLT
  return ⟨s.c, s.r, ← s.m.transpose⟩

/-- `Determinant`, `/repo/cholesky_decomposition.go:149-156`. -/
def Chol.determinant (d : Chol α r c) : Res α :=
  forUp 0 r (fun i det => do
    let lTii ← d.lT.get i i
    return Flt.mul det (Flt.mul lTii lTii)) Flt.one

/-- `IsNonSingular`, `/repo/cholesky_decomposition.go:173-176`. -/
def Chol.isNonSingular (_ : Chol α r c) : Bool := true

/-- The slice answered by `ToArray` of a vector of length `n`. (/repo/array_real_vector.go:486-488) -/
def RVec.toRow (n : Nat) : RVec α → Row α n
  | .arr l => ⟨fun i => l.getD i Flt.zero⟩
  | .ext l => ⟨fun i => l.getD i Flt.zero⟩

/-- `SolveVector`, `/repo/cholesky_decomposition.go:178-208`. -/
def Chol.solveVector (d : Chol α r c) (b : RVec α) : Res (List α) := do
  if b.dim ≠ r then throw (.pan .dim)
  let x := b.toRow r
  let x ← forUp 0 r (fun j (x : Row α r) => do
    let x ← x.set j (Flt.div (← x.get j) (← d.lT.get j j))
    let xJ ← x.get j
    forUp (j + 1) r (fun i (x : Row α r) => do
      x.set i (Flt.sub (← x.get i) (Flt.mul xJ (← d.lT.get j i)))) x) x
  let x ← forDown r 0 (fun j (x : Row α r) => do
    let x ← x.set j (Flt.div (← x.get j) (← d.lT.get j j))
    let xJ ← x.get j
    forUp 0 j (fun i (x : Row α r) => do
      x.set i (Flt.sub (← x.get i) (Flt.mul xJ (← d.lT.get i j)))) x) x
  return x.toList

/-- `SolveMatrix`, `/repo/cholesky_decomposition.go:210-255`. `xJ` is the slice `x[j]` itself, read where it is used. -/
def Chol.solveMatrix {p q : Nat} (d : Chol α r c) (b : Mat α p q) : Res (SMat α) := do
  if p ≠ r then throw (.pan .dim)
  let nColB ← b.colDim
  let x ← b.dataCopy
  let x ← forUp 0 r (fun j (x : Tab α p q) => do
    let lJJ ← d.lT.get j j
    let x ← forUp 0 nColB (fun k (x : Tab α p q) => do
      x.set j k (Flt.div (← x.get j k) lJJ)) x
    forUp (j + 1) r (fun i (x : Tab α p q) => do
      let lJI ← d.lT.get j i
      forUp 0 nColB (fun k (x : Tab α p q) => do
        x.set i k (Flt.sub (← x.get i k) (Flt.mul (← x.get j k) lJI))) x) x) x
  let x ← forDown r 0 (fun j (x : Tab α p q) => do
    let lJJ ← d.lT.get j j
    let x ← forUp 0 nColB (fun k (x : Tab α p q) => do
      x.set j k (Flt.div (← x.get j k) lJJ)) x
    forUp 0 j (fun i (x : Tab α p q) => do
      let lIJ ← d.lT.get i j
      forUp 0 nColB (fun k (x : Tab α p q) => do
        x.set i k (Flt.sub (← x.get i k) (Flt.mul (← x.get j k) lIJ))) x) x) x
  return (← Arr.copyIn (some x.toLists)).toSMat

/-- `Inverse`, `/repo/cholesky_decomposition.go:257-264`. -/
def Chol.inverse (d : Chol α r c) : Res (SMat α) := do
  let m : Mat α r r ← (Mat.identity (r : Int)).must
  d.solveMatrix m

end Linear
