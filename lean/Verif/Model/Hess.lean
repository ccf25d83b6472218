import Verif.Model.Tri

/-!
# Hessenberg reduction (`/repo/hessenberg_transformer.go`)

The cached matrices are recomputed at each call here; in the code the second call returns the matrix
computed by the first. `n` of the code is the number of rows `r`, `high` is `r - 1`; the constructor
refuses `r ≠ c`.
-/

namespace Linear

variable {α : Type} [Flt α] {r c : Nat}

/-- `for i := b - 1; i >= a; i-- { s += term(i) }`. (/repo/hessenberg_transformer.go:203-210) -/
def sumDown {ε : Type} (b a : Nat) (term : Nat → Except ε α) (s : α) : Except ε α :=
  forDown b a (fun i s => do return Flt.add s (← term i)) s

/-- `HessenbergTransformer`, `/repo/hessenberg_transformer.go:37-41`. `HouseholderVectorsRef`
(`/repo/hessenberg_transformer.go:165-167`) returns the field, without a copy. -/
structure Hess (α : Type) (r c : Nat) where
  hv : Tab α r c
  ort : Row α r

/-- The scaled column and the sum of its squares, `/repo/hessenberg_transformer.go:186-190`. -/
def Hess.column (m : Nat) (scale : α) (t : Tab α r c) (ort : Row α r) : Res (α × Row α r) :=
  forDown r m (fun i (s : α × Row α r) => do
    let ort ← s.2.set i (Flt.div (← t.get i (m - 1)) scale)
    return (Flt.add s.1 (Flt.mul (← ort.get i) (← ort.get i)), ort)) (Flt.zero, ort)

/-- The signed norm, `/repo/hessenberg_transformer.go:191-194`. -/
def Hess.sign (x0 h : α) : α :=
  if Flt.lt Flt.zero x0 then Flt.mul (Flt.sqrt h) (Flt.neg Flt.one) else Flt.sqrt h

/-- The reflection of column `j`, `/repo/hessenberg_transformer.go:203-210`. -/
def Hess.leftCol (m : Nat) (h : α) (ort : Row α r) (j : Nat) (t : Tab α r c) : Res (Tab α r c) := do
  let f ← sumDown r m (fun i => do return Flt.mul (← ort.get i) (← t.get i j)) Flt.zero
  forUp m r (fun i (t : Tab α r c) => do
    t.set i j (Flt.sub (← t.get i j) (Flt.mul (Flt.div f h) (← ort.get i)))) t

/-- The reflection of row `i`, `/repo/hessenberg_transformer.go:214-221`. -/
def Hess.rightRow (m : Nat) (h : α) (ort : Row α r) (i : Nat) (t : Tab α r c) : Res (Tab α r c) := do
  let f ← sumDown r m (fun j => do return Flt.mul (← ort.get j) (← t.get i j)) Flt.zero
  forUp m r (fun j (t : Tab α r c) => do
    t.set i j (Flt.sub (← t.get i j) (Flt.mul (Flt.div f h) (← ort.get j)))) t

/-- The two-sided reflection and the stored reflector, `/repo/hessenberg_transformer.go:202-225`; `ort` already has its head
decreased by `g`. -/
def Hess.reflect (m : Nat) (scale g h : α) (ort : Row α r) (t : Tab α r c) : Res (Hess α r c) := do
  let t ← forUp m r (Hess.leftCol m h ort) t
  let t ← forUp 0 r (Hess.rightRow m h ort) t
  let ort ← ort.set m (Flt.mul scale (← ort.get m))
  let t ← t.set m (m - 1) (Flt.mul scale g)
  return ⟨t, ort⟩

/-- The norm, the change of the head and the reflection, `/repo/hessenberg_transformer.go:191-225`; `h` is the sum of squares and `x0`
the head. -/
def Hess.apply (m : Nat) (scale x0 h : α) (ort : Row α r) (t : Tab α r c) : Res (Hess α r c) := do
  let ort ← ort.set m (Flt.sub (← ort.get m) (Hess.sign x0 h))
  Hess.reflect m scale (Hess.sign x0 h) (Flt.sub h (Flt.mul x0 (Hess.sign x0 h))) ort t

/-- One round of `transform`, `/repo/hessenberg_transformer.go:177-227` (`1 ≤ m`). -/
def Hess.step (m : Nat) (s : Hess α r c) : Res (Hess α r c) := do
  let scale ← sumUp m r (fun i => do return Flt.abs (← s.hv.get i (m - 1))) Flt.zero
  if !Flt.ulpEq scale Flt.zero then
    let ho ← Hess.column m scale s.hv s.ort
    Hess.apply m scale (← ho.2.get m) ho.1 ho.2 s.hv
  else return s

/-- `NewHessenbergTransformer` with `transform`, `/repo/hessenberg_transformer.go:46-61, 173-228`. -/
def Hess.new (a : Mat α r c) : Res (Hess α r c) := do
  if !(← a.isSquare) then throw (.err .sqMat)
  let t ← a.dataCopy
  forUp 1 (r - 1) Hess.step ⟨t, Row.zero r⟩

/-- The reflection of column `j` of `pa`, `/repo/hessenberg_transformer.go:91-102`. -/
def Hess.pCol (s : Hess α r c) (m : Nat) (ort : Row α r) (j : Nat) (p : Tab α r r) : Res (Tab α r r) := do
  let g ← sumUp m r (fun i => do return Flt.mul (← ort.get i) (← p.get i j)) Flt.zero
  let om ← ort.get m
  let hm ← s.hv.get m (m - 1)
  forUp m r (fun i (p : Tab α r r) => do
    p.set i j (Flt.add (← p.get i j) (Flt.mul (Flt.div (Flt.div g om) hm) (← ort.get i)))) p

/-- One round of `P`, `/repo/hessenberg_transformer.go:85-104` (`1 ≤ m`). -/
def Hess.pStep (s : Hess α r c) (m : Nat) (x : Row α r × Tab α r r) : Res (Row α r × Tab α r r) := do
  if !Flt.eq (← s.hv.get m (m - 1)) Flt.zero then
    let ort ← forUp (m + 1) r (fun i (o : Row α r) => do o.set i (← s.hv.get i (m - 1))) x.1
    let p ← forUp m r (s.pCol m ort) x.2
    return (ort, p)
  else return x

/-- `P`, `/repo/hessenberg_transformer.go:67-113`. The code keeps the changes to `ort`; nothing reads them afterwards, because the
result is cached, so they are dropped here. -/
def Hess.p (s : Hess α r c) : Res (SMat α) := do
  let p : Tab α r r ← forUp 0 r (fun i (p : Tab α r r) =>
    forUp 0 r (fun j (p : Tab α r r) => if i = j then p.set i j Flt.one else pure p) p) (Jag.zero r _)
  let x ← forDown (r - 1) 1 s.pStep (s.ort, p)
  (SMat.fromSlices (some x.2.toLists) false).must

/-- `PT`, `/repo/hessenberg_transformer.go:119-126`. -/
def Hess.pT (s : Hess α r c) : Res (SMat α) := do
  let t ← s.p
  return ⟨t.c, t.r, ← t.m.transpose⟩

/-- One row of `H`, `/repo/hessenberg_transformer.go:139-147`. -/
def Hess.hRow (s : Hess α r c) (i : Nat) (h : Tab α r r) : Res (Tab α r r) := do
  let h ← if i > 0 then h.set i (i - 1) (← s.hv.get i (i - 1)) else pure h
  forUp i r (fun j (h : Tab α r r) => do h.set i j (← s.hv.get i j)) h

/-- `H`, `/repo/hessenberg_transformer.go:131-158`. -/
def Hess.h (s : Hess α r c) : Res (SMat α) := do
  let h : Tab α r r ← forUp 0 r s.hRow (Jag.zero r _)
  (SMat.fromSlices (some h.toLists) false).must

end Linear
