import Verif.Model.Tri

/-!
# Bidiagonal reduction (`/repo/bidiagonal_transformer.go`)

The cached matrices are recomputed at each call here; in the code the second call returns the matrix
computed by the first. The number `p` of the code is `min m n`.
-/

namespace Linear

variable {α : Type} [Flt α] {m n : Nat}

/-- `BiDiagonalTransformer`, `/repo/bidiagonal_transformer.go:7-11`. `HouseholderVectorsRef`, `MainDiagonalRef` and
`SecondaryDiagonalRef` (`/repo/bidiagonal_transformer.go:173-183`) return the fields, without a copy. -/
structure Bi (α : Type) (m n : Nat) where
  hv : Tab α m n
  main : Row α (min m n)
  sec : Row α (min m n - 1)

/-- The signed norm, `/repo/bidiagonal_transformer.go:201-206, 232-237, 268-273, 298-303`. -/
def Bi.sign (x0 sqr : α) : α :=
  if Flt.lt Flt.zero x0 then Flt.neg (Flt.sqrt sqr) else Flt.sqrt sqr

/-- The reflection of column `j` along column `k` from row `i0` on, `/repo/bidiagonal_transformer.go:212-221, 308-318`. -/
def Bi.colApply (i0 k : Nat) (a : α) (j : Nat) (t : Tab α m n) : Res (Tab α m n) := do
  let alpha ← subUp i0 m (fun i => do return Flt.mul (← t.get i j) (← t.get i k)) Flt.zero
  let den ← t.get i0 k
  forUp i0 m (fun i (t : Tab α m n) => do
    t.set i j (Flt.sub (← t.get i j) (Flt.mul (Flt.div alpha (Flt.mul a den)) (← t.get i k)))) t

/-- The reflections along column `k`, `/repo/bidiagonal_transformer.go:209-223, 305-319`. -/
def Bi.colRefl (i0 k : Nat) (a : α) (t : Tab α m n) : Res (α × Tab α m n) := do
  if !Flt.eq a Flt.zero then
    let t ← t.set i0 k (Flt.sub (← t.get i0 k) a)
    let t ← forUp (k + 1) n (Bi.colApply i0 k a) t
    return (a, t)
  else return (a, t)

/-- Zero-out column `k` from row `i0` on, `/repo/bidiagonal_transformer.go:195-223` (`i0 = k`) and 292-319 (`i0 = k + 1`). The code
stores the norm in `main` or `secondary` before it applies the reflections. -/
def Bi.colPass (i0 k : Nat) (t : Tab α m n) : Res (α × Tab α m n) := do
  let sqr ← sumUp i0 m (fun i => do
    let c ← t.get i k
    return Flt.mul c c) Flt.zero
  Bi.colRefl i0 k (Bi.sign (← t.get i0 k) sqr) t

/-- The reflection of row `i` along row `k` from column `j0` on, `/repo/bidiagonal_transformer.go:242-250, 278-286`. -/
def Bi.rowApply (k j0 : Nat) (a : α) (i : Nat) (t : Tab α m n) : Res (Tab α m n) := do
  let beta ← subUp j0 n (fun j => do return Flt.mul (← t.get i j) (← t.get k j)) Flt.zero
  let den ← t.get k j0
  forUp j0 n (fun j (t : Tab α m n) => do
    t.set i j (Flt.sub (← t.get i j) (Flt.mul (Flt.div beta (Flt.mul a den)) (← t.get k j)))) t

/-- The reflections along row `k`, `/repo/bidiagonal_transformer.go:239-252, 275-288`. -/
def Bi.rowRefl (k j0 : Nat) (a : α) (t : Tab α m n) : Res (α × Tab α m n) := do
  if !Flt.eq a Flt.zero then
    let t ← t.set k j0 (Flt.sub (← t.get k j0) a)
    let t ← forUp (k + 1) m (Bi.rowApply k j0 a) t
    return (a, t)
  else return (a, t)

/-- Zero-out row `k` from column `j0` on, `/repo/bidiagonal_transformer.go:227-252` (`j0 = k + 1`) and 262-288 (`j0 = k`). -/
def Bi.rowPass (k j0 : Nat) (t : Tab α m n) : Res (α × Tab α m n) := do
  let sqr ← sumUp j0 n (fun j => do
    let c ← t.get k j
    return Flt.mul c c) Flt.zero
  Bi.rowRefl k j0 (Bi.sign (← t.get k j0) sqr) t

/-- One round of `transformToUpperBiDiagonal`, `/repo/bidiagonal_transformer.go:193-254`. -/
def Bi.upStep (k : Nat) (s : Bi α m n) : Res (Bi α m n) := do
  let at1 ← Bi.colPass k k s.hv
  let main ← s.main.set k at1.1
  if k + 1 < n then
    let bt ← Bi.rowPass k (k + 1) at1.2
    let sec ← s.sec.set k bt.1
    return ⟨bt.2, main, sec⟩
  else return ⟨at1.2, main, s.sec⟩

/-- One round of `transformToLowerBiDiagonal`, `/repo/bidiagonal_transformer.go:260-322`. -/
def Bi.lowStep (k : Nat) (s : Bi α m n) : Res (Bi α m n) := do
  let at1 ← Bi.rowPass k k s.hv
  let main ← s.main.set k at1.1
  if k + 1 < m then
    let bt ← Bi.colPass (k + 1) k at1.2
    let sec ← s.sec.set k bt.1
    return ⟨bt.2, main, sec⟩
  else return ⟨at1.2, main, s.sec⟩

/-- `NewBiDiagonalTransformer`, `/repo/bidiagonal_transformer.go:13-29`. Without rows or columns `make([]float64, p-1)` panics. -/
def Bi.new (a : Mat α m n) : Res (Bi α m n) := do
  let _ ← a.colDim
  let t ← a.dataCopy
  if min m n = 0 then throw .rt
  if n ≤ m then forUp 0 n Bi.upStep ⟨t, Row.zero _, Row.zero _⟩
  else forUp 0 m Bi.lowStep ⟨t, Row.zero _, Row.zero _⟩

/-- The reflection of one column of `ua` or `va`, `/repo/bidiagonal_transformer.go:59-67, 147-155`; `v` reads the vector and `d` the
norm. -/
def Bi.accCol {N : Nat} (k : Nat) (v : Nat → Res α) (d : Res α) (j : Nat) (q : Tab α N N) :
    Res (Tab α N N) := do
  let alpha ← subUp k N (fun i => do return Flt.mul (← q.get i j) (← v i)) Flt.zero
  let d ← d
  let vk ← v k
  forUp k N (fun i (q : Tab α N N) => do
    q.set i j (Flt.add (← q.get i j) (Flt.mul (Flt.neg (Flt.div alpha (Flt.mul d vk))) (← v i)))) q

/-- One round of the accumulation, `/repo/bidiagonal_transformer.go:55-70, 143-157`. -/
def Bi.accStep {N : Nat} (k : Nat) (v : Nat → Res α) (d : Res α) (q : Tab α N N) : Res (Tab α N N) := do
  let q ← q.set k k Flt.one
  if !Flt.eq (← v k) Flt.zero then forUp k N (Bi.accCol k v d) q else return q

/-- The accumulation of `U`, `/repo/bidiagonal_transformer.go:53-73`. -/
def Bi.uAcc (s : Bi α m n) (q : Tab α m m) : Res (Tab α m m) := do
  if n ≤ m then
    forDown (min m n) 0 (fun k => Bi.accStep k (fun i => s.hv.get i k) (s.main.get k)) q
  else
    let q ← forDown (min m n) 1
      (fun k => Bi.accStep k (fun i => s.hv.get i (k - 1)) (s.sec.get (k - 1))) q
    q.set 0 0 Flt.one

/-- `U`, `/repo/bidiagonal_transformer.go:31-84`. -/
def Bi.u (s : Bi α m n) : Res (SMat α) := do
  let q : Tab α m m ← forDown m (min m n) (fun k (q : Tab α m m) => q.set k k Flt.one) (Jag.zero m _)
  let q ← s.uAcc q
  (SMat.fromSlices (some q.toLists) false).must

/-- The accumulation of `V`, `/repo/bidiagonal_transformer.go:141-161`. -/
def Bi.vAcc (s : Bi α m n) (q : Tab α n n) : Res (Tab α n n) := do
  if n ≤ m then
    let q ← forDown (min m n) 1
      (fun k => Bi.accStep k (fun i => s.hv.get (k - 1) i) (s.sec.get (k - 1))) q
    q.set 0 0 Flt.one
  else
    forDown (min m n) 0 (fun k => Bi.accStep k (fun i => s.hv.get k i) (s.main.get k)) q

/-- `V`, `/repo/bidiagonal_transformer.go:119-171`. -/
def Bi.v (s : Bi α m n) : Res (SMat α) := do
  let q : Tab α n n ← forDown n (min m n) (fun k (q : Tab α n n) => q.set k k Flt.one) (Jag.zero n _)
  let q ← s.vAcc q
  (SMat.fromSlices (some q.toLists) false).must

/-- One row of `B`, `/repo/bidiagonal_transformer.go:95-105`. -/
def Bi.bRow (s : Bi α m n) (i : Nat) (b : Tab α m n) : Res (Tab α m n) := do
  let b ← b.set i i (← s.main.get i)
  if m < n then
    if i > 0 then b.set i (i - 1) (← s.sec.get (i - 1)) else pure b
  else
    if i < min m n - 1 then b.set i (i + 1) (← s.sec.get i) else pure b

/-- `B`, `/repo/bidiagonal_transformer.go:86-117`. -/
def Bi.b (s : Bi α m n) : Res (SMat α) := do
  let b : Tab α m n ← forUp 0 (min m n) s.bRow (Jag.zero m _)
  (SMat.fromSlices (some b.toLists) false).must

/-- `IsUpperBiDiagonal`, `/repo/bidiagonal_transformer.go:185-187`. -/
def Bi.isUpper (_ : Bi α m n) : Bool := n ≤ m

end Linear
