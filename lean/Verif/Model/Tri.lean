import Verif.Model.QR

/-!
# Tridiagonal reduction (`/repo/tridiagonal_transformer.go`)

The cached matrices are recomputed at each call here; in the code the second call returns the matrix
computed by the first. `m` of the code is the number of rows `r`; the constructor refuses `r ≠ c`.
-/

namespace Linear

variable {α : Type} [Flt α] {r c : Nat}

/-- `TriDiagonalTransformer`, `/repo/tridiagonal_transformer.go:37-41`. `HouseholderVectorsRef`, `MainDiagonalRef` and
`SecondaryDiagonalRef` (`/repo/tridiagonal_transformer.go:157-177`) return the fields, without a copy. -/
structure Tri (α : Type) (r c : Nat) where
  hv : Tab α r c
  main : Row α r
  sec : Row α (r - 1)

/-- The signed norm `a`, `/repo/tridiagonal_transformer.go:188-197`. -/
def Tri.norm (k : Nat) (t : Tab α r c) : Res α := do
  let xNormSqr ← sumUp (k + 1) r (fun j => do
    let x ← t.get k j
    return Flt.mul x x) Flt.zero
  let a := Flt.sqrt xNormSqr
  if Flt.lt Flt.zero (← t.get k (k + 1)) then return Flt.mul a (Flt.neg Flt.one) else return a

/-- One row of the product `beta A v`, `/repo/tridiagonal_transformer.go:215-224`. -/
def Tri.zRow (k : Nat) (beta : α) (t : Tab α r c) (i : Nat) (z : Row α r) : Res (Row α r) := do
  let hKI ← t.get k i
  let s ← forUp (i + 1) r (fun j (s : α × Row α r) => do
    let hIJ ← t.get i j
    let hKJ ← t.get k j
    let z ← s.2.set j (Flt.add (← s.2.get j) (Flt.mul hIJ hKI))
    return (Flt.add s.1 (Flt.mul hIJ hKJ), z)) (Flt.mul (← t.get i i) hKI, z)
  s.2.set i (Flt.mul beta (Flt.add (← s.2.get i) s.1))

/-- The vector `z`, `/repo/tridiagonal_transformer.go:211-236`. -/
def Tri.z (k : Nat) (beta : α) (t : Tab α r c) (z : Row α r) : Res (Row α r) := do
  let z ← forUp (k + 1) r (fun i (z : Row α r) => z.set i Flt.zero) z
  let z ← forUp (k + 1) r (Tri.zRow k beta t) z
  let gamma ← sumUp (k + 1) r (fun i => do
    return Flt.mul (← z.get i) (← t.get k i)) Flt.zero
  let gamma := Flt.mul gamma (Flt.div beta Flt.two)
  forUp (k + 1) r (fun i (z : Row α r) => do
    z.set i (Flt.sub (← z.get i) (Flt.mul gamma (← t.get k i)))) z

/-- The update of the upper triangle, `/repo/tridiagonal_transformer.go:240-245`. -/
def Tri.update (k : Nat) (z : Row α r) (t : Tab α r c) : Res (Tab α r c) :=
  forUp (k + 1) r (fun i (t : Tab α r c) =>
    forUp i r (fun j (t : Tab α r c) => do
      t.set i j (Flt.sub (← t.get i j) (Flt.add (Flt.mul (← t.get k i) (← z.get j))
        (Flt.mul (← z.get i) (← t.get k j))))) t) t

/-- One round of `transform`, `/repo/tridiagonal_transformer.go:184-247`; the state carries the buffer `z`. -/
def Tri.step (k : Nat) (s : Tri α r c × Row α r) : Res (Tri α r c × Row α r) := do
  let main ← s.1.main.set k (← s.1.hv.get k k)
  let a ← Tri.norm k s.1.hv
  let sec ← s.1.sec.set k a
  if !Flt.eq a Flt.zero then
    let t ← s.1.hv.set k (k + 1) (Flt.sub (← s.1.hv.get k (k + 1)) a)
    let z ← Tri.z k (Flt.div (Flt.neg Flt.one) (Flt.mul a (← t.get k (k + 1)))) t s.2
    let t ← Tri.update k z t
    return (⟨t, main, sec⟩, z)
  else return (⟨s.1.hv, main, sec⟩, s.2)

/-- `NewTriDiagonalTransformer` with `transform`, `/repo/tridiagonal_transformer.go:48-63, 181-249`. Without rows
`make([]float64, m-1)` panics. -/
def Tri.new (a : Mat α r c) : Res (Tri α r c) := do
  if !(← a.isSquare) then throw (.err .sqMat)
  let t ← a.dataCopy
  if r = 0 then throw .rt
  let s ← forUp 0 (r - 1) Tri.step (⟨t, Row.zero r, Row.zero (r - 1)⟩, Row.zero r)
  let main ← s.1.main.set (r - 1) (← s.1.hv.get (r - 1) (r - 1))
  return { s.1 with main := main }

/-- The transformation of row `j` of `qta`, `/repo/tridiagonal_transformer.go:100-109`. -/
def Tri.qtRow (s : Tri α r c) (k : Nat) (inv : α) (j : Nat) (q : Tab α r r) : Res (Tab α r r) := do
  let beta ← sumUp (k + 1) r (fun i => do
    return Flt.mul (← q.get j i) (← s.hv.get (k - 1) i)) Flt.zero
  let beta := Flt.mul beta inv
  let q ← q.set j k (Flt.mul beta (← s.hv.get (k - 1) k))
  forUp (k + 1) r (fun i (q : Tab α r r) => do
    q.set j i (Flt.add (← q.get j i) (Flt.mul beta (← s.hv.get (k - 1) i)))) q

/-- One round of `QT`, `/repo/tridiagonal_transformer.go:88-111` (`1 ≤ k`). -/
def Tri.qtStep (s : Tri α r c) (k : Nat) (q : Tab α r r) : Res (Tab α r r) := do
  let q ← q.set k k Flt.one
  let hKk ← s.hv.get (k - 1) k
  if !Flt.eq hKk Flt.zero then
    let d ← s.sec.get (k - 1)
    let q ← q.set k k (Flt.add Flt.one (Flt.mul (Flt.div Flt.one d) hKk))
    let q ← forUp (k + 1) r (fun i (q : Tab α r r) => do
      q.set k i (Flt.mul (Flt.div Flt.one d) (← s.hv.get (k - 1) i))) q
    forUp (k + 1) r (s.qtRow k (Flt.div Flt.one (Flt.mul d hKk))) q
  else return q

/-- `QT`, `/repo/tridiagonal_transformer.go:79-122`. -/
def Tri.qT (s : Tri α r c) : Res (SMat α) := do
  let q : Tab α r r ← forDown r 1 s.qtStep (Jag.zero r _)
  let q ← q.set 0 0 Flt.one
  (SMat.fromSlices (some q.toLists) false).must

/-- `Q`, `/repo/tridiagonal_transformer.go:69-74`. -/
def Tri.q (s : Tri α r c) : Res (SMat α) := do
  let t ← s.qT
  return ⟨t.c, t.r, ← t.m.transpose⟩

/-- `T`, `/repo/tridiagonal_transformer.go:127-152`. -/
def Tri.t (s : Tri α r c) : Res (SMat α) := do
  let ta : Tab α r r ← forUp 0 r (fun i (ta : Tab α r r) => do
    let ta ← ta.set i i (← s.main.get i)
    let ta ← if i > 0 then ta.set i (i - 1) (← s.sec.get (i - 1)) else pure ta
    if i < r - 1 then ta.set i (i + 1) (← s.sec.get i) else pure ta) (Jag.zero r _)
  (SMat.fromSlices (some ta.toLists) false).must

end Linear
