import Verif.Model.Vector
import Verif.Model.Matrix

/-!
# LU decomposition (`/repo/lu_decomposition.go`)

Constants are parameters: `thr` the singularity threshold and `ninf` for `math.Inf(-1)`. The cached
matrices `cachedL`, `cachedU`, `cachedP` are recomputed at each call here; in the code the second
call returns the matrix computed by the first.
-/

namespace Linear

variable {α : Type} [Flt α] {r c : Nat}

/-- The model of `for i := a; i < b; i++ { sum -= term }`. (/repo/lu_decomposition.go:77-85) -/
def subUp {ε : Type} (a b : Nat) (term : Nat → Except ε α) (s : α) : Except ε α :=
  forUp a b (fun i s => do return Flt.sub s (← term i)) s

/-- `LUDecomposition`, `/repo/lu_decomposition.go:38-43`. -/
structure LU (α : Type) (r c : Nat) where
  lu : Tab α r c
  pivot : Row Nat c
  even : Bool
  singular : Bool

/-- The upper part of one column, `/repo/lu_decomposition.go:77-85`. -/
def LU.upper (col : Nat) (t : Tab α r c) : Res (Tab α r c) :=
  forUp 0 col (fun row t => do
    let sum ← subUp 0 row (fun i => do return Flt.mul (← t.get row i) (← t.get i col))
      (← t.get row col)
    t.set row col sum) t

/-- The lower part of one column with the choice of the pivot row, `/repo/lu_decomposition.go:87-103`. The state is the
table, `max` and `largest`. -/
def LU.lower (ninf : α) (col : Nat) (t : Tab α r c) : Res (Tab α r c × Nat × α) :=
  forUp col c (fun row s => do
    let sum ← subUp 0 col (fun i => do return Flt.mul (← s.1.get row i) (← s.1.get i col))
      (← s.1.get row col)
    let t ← s.1.set row col sum
    return if Flt.lt s.2.2 (Flt.abs sum) then (t, row, Flt.abs sum) else (t, s.2)) (t, col, ninf)

/-- Exchange of two rows, `/repo/lu_decomposition.go:113-120`. -/
def LU.swapRows (max col : Nat) (t : Tab α r c) : Res (Tab α r c) :=
  forUp 0 c (fun i t => do
    let tmp ← t.get max i
    let t ← t.set max i (← t.get col i)
    t.set col i tmp) t

/-- `/repo/lu_decomposition.go:111-125`: nothing when `max = col`. -/
def LU.doPivot (max col : Nat) (s : LU α r c) : Res (LU α r c) := do
  if max ≠ col then
    let t ← LU.swapRows max col s.lu
    let temp ← s.pivot.get max
    let p ← s.pivot.set max (← s.pivot.get col)
    let p ← p.set col temp
    return { s with lu := t, pivot := p, even := !s.even }
  else return s

/-- Division of the lower elements, `/repo/lu_decomposition.go:127-131`. -/
def LU.divide (col : Nat) (t : Tab α r c) : Res (Tab α r c) := do
  let luDiag ← t.get col col
  forUp (col + 1) c (fun row t => do t.set row col (Flt.div (← t.get row col) luDiag)) t

/-- One column, `/repo/lu_decomposition.go:75-132`; `.inr` is the early return of `/repo/lu_decomposition.go:105-109`. -/
def LU.step (thr ninf : α) (col : Nat) (s : LU α r c) : Res (LU α r c ⊕ LU α r c) := do
  let t ← LU.upper col s.lu
  let x ← LU.lower ninf col t
  let s := { s with lu := x.1 }
  let big ← s.lu.get x.2.1 col
  if Flt.lt (Flt.abs big) thr then return .inr { s with singular := true }
  let s ← LU.doPivot x.2.1 col s
  let t ← LU.divide col s.lu
  return .inl { s with lu := t }

/-- `NewLUDecompositionWithThreshold`, `/repo/lu_decomposition.go:57-135`. -/
def LU.new (thr ninf : α) (m : Mat α r c) : Res (LU α r c) := do
  if !(← m.isSquare) then throw (.err .sqMat)
  let lu ← m.dataCopy
  let pivot ← forUp 0 c (fun row (p : Row Nat c) => p.set row row) ⟨fun _ => 0⟩
  match ← forUpBrk 0 c (LU.step thr ninf) ⟨lu, pivot, true, false⟩ with
  | .inl s => return s
  | .inr s => return s

/-- `L`, `/repo/lu_decomposition.go:141-159` (`none` is nil). -/
def LU.l (d : LU α r c) : Res (Option (Mat α c c)) := do
  if d.singular then return none
  let m : Mat α c c ← (Mat.new (c : Int) (c : Int)).must
  let m ← forUp 0 c (fun i (m : Mat α c c) => do
    let m ← forUp 0 i (fun j (m : Mat α c c) => do m.put i j (← d.lu.get i j)) m
    m.put i i Flt.one) m
  return some m

/-- `U`, `/repo/lu_decomposition.go:166-182`. -/
def LU.u (d : LU α r c) : Res (Option (Mat α c c)) := do
  if d.singular then return none
  let m : Mat α c c ← (Mat.new (c : Int) (c : Int)).must
  let m ← forUp 0 c (fun i (m : Mat α c c) =>
    forUp i c (fun j (m : Mat α c c) => do m.put i j (← d.lu.get i j)) m) m
  return some m

/-- `P`, `/repo/lu_decomposition.go:191-204`. -/
def LU.p (d : LU α r c) : Res (Option (Mat α c c)) := do
  if d.singular then return none
  let m : Mat α c c ← (Mat.new (c : Int) (c : Int)).must
  let m ← forUp 0 c (fun i (m : Mat α c c) => do m.put i (← d.pivot.get i) Flt.one) m
  return some m

/-- `Pivot`, `/repo/lu_decomposition.go:209-211`. -/
def LU.pivots (d : LU α r c) : List Nat := d.pivot.toList

/-- `Determinant`, `/repo/lu_decomposition.go:216-231`. -/
def LU.determinant (d : LU α r c) : Res α := do
  if d.singular then return Flt.zero
  forUp 0 c (fun i det => do return Flt.mul det (← d.lu.get i i))
    (if d.even then Flt.one else Flt.neg Flt.one)

/-- `IsNonSingular`, `/repo/lu_decomposition.go:249-251`. -/
def LU.isNonSingular (d : LU α r c) : Bool := !d.singular

/-- `SolveVector`, `/repo/lu_decomposition.go:253-289`. -/
def LU.solveVector (d : LU α r c) (b : RVec α) : Res (List α) := do
  if b.dim ≠ c then throw (.pan .dim)
  if d.singular then throw (.pan .sing)
  let bp : Row α c ← forUp 0 c (fun row (bp : Row α c) => do
    bp.set row (← b.at (← d.pivot.get row))) (Row.zero c)
  let bp ← forUp 0 c (fun col (bp : Row α c) => do
    let bpCol ← bp.get col
    forUp (col + 1) c (fun i (bp : Row α c) => do
      bp.set i (Flt.sub (← bp.get i) (Flt.mul bpCol (← d.lu.get i col)))) bp) bp
  let bp ← forDown c 0 (fun col (bp : Row α c) => do
    let bp ← bp.set col (Flt.div (← bp.get col) (← d.lu.get col col))
    let bpCol ← bp.get col
    forUp 0 col (fun i (bp : Row α c) => do
      bp.set i (Flt.sub (← bp.get i) (Flt.mul bpCol (← d.lu.get i col)))) bp) bp
  return bp.toList

/-- `SolveMatrix`, `/repo/lu_decomposition.go:291-344`. `bpCol` is the slice `bp[col]` itself, read where it is used. -/
def LU.solveMatrix {p q : Nat} (d : LU α r c) (b : Mat α p q) : Res (SMat α) := do
  if p ≠ c then throw (.pan .dim)
  if d.singular then throw (.pan .sing)
  let nColB ← b.colDim
  let bp : Tab α c nColB ← forUp 0 c (fun row (bp : Tab α c nColB) => do
    let pRow ← d.pivot.get row
    forUp 0 nColB (fun col bp => do bp.set row col (← b.at pRow col)) bp) (Jag.zero c _)
  let bp ← forUp 0 c (fun col (bp : Tab α c nColB) =>
    forUp (col + 1) c (fun i bp => do
      let luICol ← d.lu.get i col
      forUp 0 nColB (fun j bp => do
        bp.set i j (Flt.sub (← bp.get i j) (Flt.mul (← bp.get col j) luICol))) bp) bp) bp
  let bp ← forDown c 0 (fun col (bp : Tab α c nColB) => do
    let luDiag ← d.lu.get col col
    let bp ← forUp 0 nColB (fun j bp => do bp.set col j (Flt.div (← bp.get col j) luDiag)) bp
    forUp 0 col (fun i bp => do
      let luICol ← d.lu.get i col
      forUp 0 nColB (fun j bp => do
        bp.set i j (Flt.sub (← bp.get i j) (Flt.mul (← bp.get col j) luICol))) bp) bp) bp
  return (← Arr.copyIn (some bp.toLists)).toSMat

/-- `Inverse`, `/repo/lu_decomposition.go:346-353`. -/
def LU.inverse (d : LU α r c) : Res (SMat α) := do
  let m : Mat α c c ← (Mat.identity (c : Int)).must
  d.solveMatrix m

end Linear
