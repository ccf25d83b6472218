import Verif.Model.LU

/-!
# Rectangular Cholesky decomposition (`/repo/rectangular_cholesky_decomposition.go`)
-/

namespace Linear

variable {α : Type} [Flt α] {r c : Nat}

/-- The local variables `c`, `b` and `index`, `/repo/rectangular_cholesky_decomposition.go:36-44`. The rows of `b` are distinct slices, so that
exchanging the slice headers is exchanging the rows. -/
structure RChol (α : Type) (r c : Nat) where
  c : Tab α r c
  b : Tab α r r
  index : Row Nat r

/-- The maximal diagonal element, `/repo/rectangular_cholesky_decomposition.go:49-56`. -/
def RChol.best (k : Nat) (s : RChol α r c) : Res Nat :=
  forUp (k + 1) r (fun i swapR => do
    let ii ← s.index.get i
    let isr ← s.index.get swapR
    return if Flt.lt (← s.c.get isr isr) (← s.c.get ii ii) then i else swapR) k

/-- Exchange of two elements of `index` and two rows of `b`, `/repo/rectangular_cholesky_decomposition.go:59-66`. -/
def RChol.swap (k q : Nat) (s : RChol α r c) : Res (RChol α r c) := do
  if q ≠ k then
    let tmpIndex ← s.index.get k
    let p ← s.index.set k (← s.index.get q)
    let p ← p.set q tmpIndex
    return { s with index := p, b := ⟨fun i => s.b.f (if i = k then q else if i = q then k else i)⟩ }
  else return s

/-- The check of the remaining diagonal elements, `/repo/rectangular_cholesky_decomposition.go:76-82`. -/
def RChol.rest (small : α) (k : Nat) (s : RChol α r c) : Res Unit :=
  forUp k r (fun i _ => do
    let ii ← s.index.get i
    if Flt.lt (← s.c.get ii ii) (Flt.neg small) then throw (.err .small)) ()

/-- The transformation of the matrix, `/repo/rectangular_cholesky_decomposition.go:89-105`. -/
def RChol.transform (k : Nat) (s : RChol α r c) : Res (RChol α r c) := do
  let ir ← s.index.get k
  let d ← s.c.get ir ir
  let sqrt := Flt.sqrt d
  let b ← s.b.set k k sqrt
  let inverse := Flt.div Flt.one sqrt
  let inverse2 := Flt.div Flt.one d
  forUp (k + 1) r (fun i (s : RChol α r c) => do
    let ii ← s.index.get i
    let e := Flt.mul inverse (← s.c.get ii ir)
    let b ← s.b.set i k e
    let x ← s.c.get ii ir
    let t ← s.c.set ii ii (Flt.sub (← s.c.get ii ii) (Flt.mul (Flt.mul x x) inverse2))
    forUp (k + 1) i (fun j (s : RChol α r c) => do
      let ij ← s.index.get j
      let f := Flt.sub (← s.c.get ii ij) (Flt.mul e (← s.b.get j k))
      let t ← s.c.set ii ij f
      let t ← t.set ij ii f
      return { s with c := t }) { s with b := b, c := t }) { s with b := b }

/-- One round, `/repo/rectangular_cholesky_decomposition.go:47-112`; `.inr` is the `break` of `/repo/rectangular_cholesky_decomposition.go:86`. -/
def RChol.step (small : α) (k : Nat) (s : RChol α r c) :
    Res (RChol α r c ⊕ Nat × RChol α r c) := do
  let q ← s.best k
  let s ← s.swap k q
  let ir ← s.index.get k
  if Flt.le (← s.c.get ir ir) small then
    if k = 0 then throw (.err .small)
    s.rest small k
    return .inr (k, s)
  else
    return .inl (← s.transform k)

/-- The loop of `/repo/rectangular_cholesky_decomposition.go:46-114` with the rank at its end. With no row `index[0]` is an index panic. -/
def RChol.loop (small : α) (m : Mat α r c) : Res (Nat × RChol α r c) := do
  let t ← m.dataCopy
  let p ← forUp 0 r (fun row (p : Row Nat r) => p.set row row) ⟨fun _ => 0⟩
  if r = 0 then throw .rt
  match ← forUpBrk 0 r (RChol.step small) ⟨t, Jag.zero r r, p⟩ with
  | .inl s => return (r, s)
  | .inr x => return x

/-- `RectangularCholeskyDecomposition`, `/repo/rectangular_cholesky_decomposition.go:25-28`. `RootMatrix` and `Rank`
(`/repo/rectangular_cholesky_decomposition.go:131-137`) return the fields. -/
structure RectChol (α : Type) (r : Nat) where
  rank : Nat
  root : Mat α r rank

/-- The root matrix, `/repo/rectangular_cholesky_decomposition.go:117-128`. -/
def RChol.root (k : Nat) (s : RChol α r c) : Res (RectChol α r) := do
  let m : Mat α r k ← Mat.new (r : Int) (k : Int)
  let m ← forUp 0 r (fun i (m : Mat α r k) =>
    forUp 0 k (fun j (m : Mat α r k) => do m.put (← s.index.get i) j (← s.b.get i j)) m) m
  return ⟨k, m⟩

/-- `NewRectangularCholeskyDecompositionWithThreshold`, `/repo/rectangular_cholesky_decomposition.go:34-129`. -/
def RectChol.new (small : α) (m : Mat α r c) : Res (RectChol α r) := do
  let x ← RChol.loop small m
  x.2.root x.1

/-- `NewRectangularCholeskyDecomposition`, `/repo/rectangular_cholesky_decomposition.go:30-32`: threshold 0. -/
def RectChol.newDefault (m : Mat α r c) : Res (RectChol α r) := RectChol.new Flt.zero m

end Linear
