import Verif.Model.ArrOps

/-!
# `ArrayRealVector` (`/repo/array_real_vector.go`) and the vector functions of `/repo/real_vector.go`

An `ArrayRealVector` is the contents of its slice, a list (sharing of slices between vectors is the
subject of the heap model; here a mutator's argument does not share storage with its receiver unless
they are the same object). A `RealVector` argument is an `RVec`: an `ArrayRealVector` or a foreign
implementation that behaves like a list. Methods of foreign receivers are not modelled.
-/

namespace Linear

variable {α : Type} [Flt α] {τ : Type}

/-- Go `x[i] = v` on a slice given as a list. (Go language; as in /repo/array_real_vector.go:427-434) -/
def wrL {β : Type} (l : List β) (i : Nat) (v : β) : Res (List β) :=
  if i < l.length then .ok (l.set i v) else .error .rt

/-- Go `make([]float64, n)`; a negative length is a runtime panic. (Go language; as in /repo/array_real_vector.go:32-34) -/
def mkL (n : Int) : Res (List α) :=
  if n < 0 then .error .rt else .ok (List.replicate n.toNat Flt.zero)

/-! ## Checks, lines 613-647 -/

/-- `checkIndex`, `/repo/array_real_vector.go:613-620`. -/
def checkIndex (dim : Nat) (idx : Int) : Res Unit :=
  if idx < 0 ∨ idx ≥ dim then .error (.err .range) else .ok ()

/-- `checkIndices`, `/repo/array_real_vector.go:622-635`. -/
def checkIndices (dim : Nat) (start end' : Int) : Res Unit :=
  if start < 0 ∨ start ≥ dim then .error (.err .range)
  else if end' < 0 ∨ end' ≥ dim then .error (.err .range)
  else if end' < start then .error (.err .small)
  else .ok ()

/-- `checkDimensions`, `/repo/array_real_vector.go:641-647` (and `checkVectorDimensions`, `/repo/array_real_vector.go:637-639`). -/
def checkDims (dim n : Nat) : Res Unit :=
  if dim ≠ n then .error (.err .dim) else .ok ()

/-! ## Constructors -/

/-- `NewSizedArrayRealVector`, `/repo/array_real_vector.go:32-34`. -/
def Vec.newSized (size : Int) : Res (List α) := mkL size

/-- `NewArrayRealVectorCopy`, `/repo/array_real_vector.go:41-52` (`none` is a nil interface), and `Copy`, `/repo/array_real_vector.go:163-169`. -/
def Vec.newCopy (v : Option (RVec α)) : Res (List α) :=
  match v with
  | none => .error (.err .inv)
  | some v => do
    let data ← mkL v.dim
    forUp 0 v.dim (fun i d => do wrL d i (← v.at i)) data

/-- `NewArrayRealVector`, `/repo/array_real_vector.go:82-94`, `NewArrayRealVectorFromSlice`, `/repo/array_real_vector.go:59-67`, and
`NewRealVector`, `/repo/real_vector.go:264-270`: the contents do not depend on `copyArray`. -/
def Vec.fromSlice (d : Option (List α)) (_copyArray : Bool) : Res (List α) :=
  match d with
  | none => .error (.err .inv)
  | some d => .ok d

/-- `NewSizedArrayRealVectorWithPreset`, `/repo/array_real_vector.go:102-108`. -/
def Vec.newPreset (size : Int) (preset : α) : Res (List α) := do
  let d ← mkL size
  forUp 0 size.toNat (fun i d => wrL d i preset) d

/-- Go `copy(dst[a:a+len(src)], src)` between slices that do not overlap; the slice expression
panics when it is out of range. (Go language; as in /repo/array_real_vector.go:445-464) -/
def copyL (dst : List α) (a : Nat) (src : List α) : Res (List α) :=
  if a + src.length ≤ dst.length then .ok (dst.take a ++ src ++ dst.drop (a + src.length))
  else .error .rt

/-- `NewArrayRealVectorFromTwoArrayRealVector`, `/repo/array_real_vector.go:115-124` (`none` is a nil pointer). -/
def Vec.fromTwoArr (v1 v2 : Option (List α)) : Res (List α) :=
  match v1, v2 with
  | some v1, some v2 => do
    let data ← mkL (v1.length + v2.length)
    copyL (← copyL data 0 v1) v1.length v2
  | _, _ => .error (.err .inv)

/-- `NewArrayRealVectorFromTwoRealVector`, `/repo/array_real_vector.go:131-148`. The second loop runs from `l1` up to `l2`
and reads `v2` at the destination index. -/
def Vec.fromTwo (v1 v2 : Option (RVec α)) : Res (List α) :=
  match v1, v2 with
  | some v1, some v2 => do
    let l1 := v1.dim
    let l2 := v2.dim
    let data ← mkL (l1 + l2)
    let data ← forUp 0 l1 (fun i d => do wrL d i (← v1.at i)) data
    forUp l1 l2 (fun i d => do wrL d i (← v2.at i)) data
  | _, _ => .error (.err .inv)

/-! ## Entries -/

/-- `At`, `/repo/array_real_vector.go:359-366`. -/
def Vec.at (d : List α) (i : Int) : Res α := do
  (checkIndex d.length i).must
  rdL d i.toNat

/-- `SetEntry`, `/repo/array_real_vector.go:427-434`. -/
def Vec.setEntry (d : List α) (i : Int) (v : α) : Mut (List α) := do
  (checkIndex d.length i).must.at d
  (wrL d i.toNat v).at d

/-- `AddToEntry`, `/repo/array_real_vector.go:436-443`. -/
def Vec.addToEntry (d : List α) (i : Int) (v : α) : Mut (List α) := do
  (checkIndex d.length i).must.at d
  let x ← (rdL d i.toNat).at d
  (wrL d i.toNat (Flt.add x v)).at d

/-- `CopyFrom`, `/repo/array_real_vector.go:150-161`. -/
def Vec.copyFrom (d : List α) (v : RVec α) : Mut (List α) := do
  (checkDims d.length v.dim).must.at d
  forUp 0 v.dim (fun i d => do (wrL d i (← (v.at i).at d)).at d) d

/-- `Set`, `/repo/array_real_vector.go:480-484`. -/
def Vec.set (d : List α) (v : α) : Mut (List α) :=
  forUp 0 d.length (fun i d => (wrL d i v).at d) d

/-- `Map`, `/repo/array_real_vector.go:171-175`; `f` is code of the caller and may panic. -/
def Vec.map (d : List α) (f : α → Res α) : Mut (List α) :=
  forUp 0 d.length (fun i d => do
    let x ← (rdL d i).at d
    let y ← (f x).at d
    (wrL d i y).at d) d

/-- `MapAdd`, `/repo/array_real_vector.go:177-182`. -/
def Vec.mapAdd (d : List α) (x : α) : Mut (List α) :=
  forUp 0 d.length (fun i d => do
    let y ← (rdL d i).at d
    (wrL d i (Flt.add y x)).at d) d

/-- `MapSubtract`, `/repo/array_real_vector.go:184-189`. -/
def Vec.mapSubtract (d : List α) (x : α) : Mut (List α) :=
  forUp 0 d.length (fun i d => do
    let y ← (rdL d i).at d
    (wrL d i (Flt.sub y x)).at d) d

/-- `MapMultiply`, `/repo/array_real_vector.go:191-196`. -/
def Vec.mapMultiply (d : List α) (x : α) : Mut (List α) :=
  forUp 0 d.length (fun i d => do
    let y ← (rdL d i).at d
    (wrL d i (Flt.mul y x)).at d) d

/-- `MapDivide`, `/repo/array_real_vector.go:198-202`. -/
def Vec.mapDivide (d : List α) (x : α) : Mut (List α) :=
  forUp 0 d.length (fun i d => do
    let y ← (rdL d i).at d
    (wrL d i (Flt.div y x)).at d) d

/-! ## Arithmetic -/

/-- `Add`, `/repo/array_real_vector.go:204-238`. -/
def Vec.add (a : List α) (v : RVec α) : Res (List α) :=
  match v with
  | .arr b => do
    (checkDims a.length b.length).must
    forUp 0 b.length (fun i out => do wrL out i (Flt.add (← rdL a i) (← rdL b i)))
      (← mkL b.length)
  | .ext b => do
    (checkDims a.length b.length).must
    forUp 0 a.length (fun i out => do wrL out i (Flt.add (← rdL a i) (← (RVec.ext b).at i)))
      (← mkL b.length)

/-- `Subtract`, `/repo/array_real_vector.go:240-273`. -/
def Vec.subtract (a : List α) (v : RVec α) : Res (List α) :=
  match v with
  | .arr b => do
    (checkDims a.length b.length).must
    forUp 0 b.length (fun i out => do wrL out i (Flt.sub (← rdL a i) (← rdL b i)))
      (← mkL b.length)
  | .ext b => do
    (checkDims a.length b.length).must
    forUp 0 a.length (fun i out => do wrL out i (Flt.sub (← rdL a i) (← (RVec.ext b).at i)))
      (← mkL b.length)

/-- `EBEMultiply`, `/repo/array_real_vector.go:275-306`. -/
def Vec.ebeMultiply (a : List α) (v : RVec α) : Res (List α) :=
  match v with
  | .arr b => do
    (checkDims a.length b.length).must
    forUp 0 b.length (fun i out => do wrL out i (Flt.mul (← rdL a i) (← rdL b i)))
      (← mkL b.length)
  | .ext b => do
    (checkDims a.length b.length).must
    forUp 0 a.length (fun i out => do wrL out i (Flt.mul (← rdL a i) (← (RVec.ext b).at i)))
      (← mkL b.length)

/-- `EBEDivide`, `/repo/array_real_vector.go:308-340`. -/
def Vec.ebeDivide (a : List α) (v : RVec α) : Res (List α) :=
  match v with
  | .arr b => do
    (checkDims a.length b.length).must
    forUp 0 b.length (fun i out => do wrL out i (Flt.div (← rdL a i) (← rdL b i)))
      (← mkL b.length)
  | .ext b => do
    (checkDims a.length b.length).must
    forUp 0 a.length (fun i out => do wrL out i (Flt.div (← rdL a i) (← (RVec.ext b).at i)))
      (← mkL b.length)

/-- `Combine`, `/repo/array_real_vector.go:539-548`. -/
def Vec.combine (d : List α) (a b : α) (y : RVec α) : Mut (List α) := do
  (checkDims d.length y.dim).must.at d
  forUp 0 d.length (fun i d => do
    let x ← (rdL d i).at d
    let z ← (y.at i).at d
    (wrL d i (Flt.add (Flt.mul a x) (Flt.mul b z))).at d) d

/-! ## Concatenation and slices -/

/-- `AppendVector`, `/repo/array_real_vector.go:372-388`. -/
def Vec.appendVector (d : List α) (v : RVec α) : Res (List α) :=
  match v with
  | .arr b => (Vec.fromTwoArr (some d) (some b)).must
  | .ext b => (Vec.fromTwo (some (.arr d)) (some (.ext b))).must

/-- `Append`, `/repo/array_real_vector.go:390-400`. -/
def Vec.append (d : List α) (x : α) : Res (List α) := do
  let out ← mkL (d.length + 1)
  let out ← copyL out 0 d
  let out ← wrL out d.length x
  (Vec.fromSlice (some out) false).must

/-- `SubVector`, `/repo/array_real_vector.go:402-425`. `copy(out.data[0:n], arv.data[index:])` copies
`min(n, len - index)` elements. -/
def Vec.subVector (d : List α) (index n : Int) : Res (List α) := do
  if n < 0 then throw (.pan .notPos)
  let out ← (Vec.newSized n).must
  (checkIndex d.length index).must
  (checkIndex d.length (index + n - 1)).must
  let src := (d.drop index.toNat).take n.toNat
  copyL out 0 src

/-- `SetSubVectorWithSlice`, `/repo/array_real_vector.go:466-478`. -/
def Vec.setSubVectorWithSlice (d : List α) (index : Int) (v : List α) : Mut (List α) := do
  (checkIndex d.length index).must.at d
  (checkIndex d.length (index + v.length - 1)).must.at d
  (copyL d index.toNat v).at d

/-- `SetSubVector`, `/repo/array_real_vector.go:445-464`: after the fast path for an `ArrayRealVector` the general loop
runs as well (storage not shared here). -/
def Vec.setSubVector (d : List α) (index : Int) (v : RVec α) : Mut (List α) := do
  (checkIndex d.length index).must.at d
  (checkIndex d.length (index + v.dim - 1)).must.at d
  let d ← match v with
    | .arr b => Vec.setSubVectorWithSlice d index b
    | .ext _ => pure d
  forUp index.toNat (index.toNat + v.dim) (fun i d => do
    let x ← (v.at (i - index)).at d
    (wrL d i x).at d) d

/-- `ToArray`, `/repo/array_real_vector.go:486-488`. -/
def Vec.toArray (d : List α) : List α := d

/-! ## Predicates -/

/-- `IsNaN`, `/repo/array_real_vector.go:490-497`. -/
def Vec.isNaN (d : List α) : Res Bool := do
  match ← forUpBrk 0 d.length (fun i (_ : Unit) => do
    return if Flt.isNaN (← rdL d i) then .inr true else .inl ()) () with
  | .inl _ => return false
  | .inr b => return b

/-- `IsInf`, `/repo/array_real_vector.go:499-511` (`Flt.isInf` is true on both infinities). -/
def Vec.isInf (d : List α) : Res Bool := do
  if ← Vec.isNaN d then return false
  match ← forUpBrk 0 d.length (fun i (_ : Unit) => do
    return if Flt.isInf (← rdL d i) then .inr true else .inl ()) () with
  | .inl _ => return false
  | .inr b => return b

/-- `IsNaN` of an argument; a foreign implementation is assumed to answer as documented. (/repo/real_vector.go:72) -/
def RVec.isNaN (v : RVec α) : Res Bool :=
  match v with
  | .arr d => Vec.isNaN d
  | .ext d => .ok (d.any Flt.isNaN)

/-- `Equals`, `/repo/array_real_vector.go:513-537`. `same`: the argument is the receiver itself. `none`: the argument is
not a `RealVector`. -/
def Vec.equals (d : List α) (same : Bool) (other : Option (RVec α)) : Res Bool :=
  if same then .ok true else
  match other with
  | none => .ok false
  | some rhs => do
    if d.length ≠ rhs.dim then return false
    if ← rhs.isNaN then return ← Vec.isNaN d
    match ← forUpBrk 0 d.length (fun i (_ : Unit) => do
      return if Flt.eq (← rdL d i) (← rhs.at i) then .inl () else .inr false) () with
    | .inl _ => return true
    | .inr b => return b

/-! ## Walks, lines 550-611 -/

/-- `RealVectorPreservingVisitor` (`/repo/real_vector_visitor.go`). -/
structure VVisP (α τ : Type) where
  start : Int → Int → Int → τ → Res τ
  visit : Int → α → τ → Res τ
  fin : τ → Res (τ × α)

/-- `RealVectorChangingVisitor` (`/repo/real_vector_visitor.go`). -/
structure VVisC (α τ : Type) where
  start : Int → Int → Int → τ → Res τ
  visit : Int → α → τ → Res (τ × α)
  fin : τ → Res (τ × α)

/-- `WalkInDefaultOrder`, `/repo/array_real_vector.go:550-558` (and `WalkInOptimizedOrder`, `/repo/array_real_vector.go:597-599`). -/
def Vec.walk (d : List α) (v : VVisP α τ) (t : τ) : Res (τ × α) := do
  let t ← v.start d.length 0 (d.length - 1) t
  let t ← forUp 0 d.length (fun i t => do v.visit i (← rdL d i) t) t
  v.fin t

/-- `WalkInDefaultOrderBounded`, `/repo/array_real_vector.go:560-572` (and `WalkInOptimizedOrderBounded`, `/repo/array_real_vector.go:601-603`).
The loop runs over `start <= i <= end`, both already checked not to be negative. -/
def Vec.walkB (d : List α) (v : VVisP α τ) (t : τ) (start end' : Int) : Res (τ × α) := do
  (checkIndices d.length start end').must
  let t ← v.start d.length start end' t
  let t ← forUp start.toNat (end'.toNat + 1) (fun i t => do v.visit i (← rdL d i) t) t
  v.fin t

/-- `arv.data[i] = visitor.Visit(i, arv.data[i])`. (/repo/array_real_vector.go:574-582) -/
def Vec.visitSet (v : VVisC α τ) (i : Nat) (s : τ × List α) :
    Except (Fault × List α) (τ × List α) := do
  let x ← (rdL s.2 i).at s.2
  let y ← (v.visit i x s.1).at s.2
  let d ← (wrL s.2 i y.2).at s.2
  return (y.1, d)

/-- `WalkInUpdateDefaultOrder`, `/repo/array_real_vector.go:574-582` (and `WalkInUpdateOptimizedOrder`, `/repo/array_real_vector.go:605-607`). -/
def Vec.upd (d : List α) (v : VVisC α τ) (t : τ) :
    Except (Fault × List α) ((τ × α) × List α) := do
  let t ← (v.start d.length 0 (d.length - 1) t).at d
  let s ← forUp 0 d.length (Vec.visitSet v) (t, d)
  return (← (v.fin s.1).at s.2, s.2)

/-- `WalkInUpdateDefaultOrderBounded`, `/repo/array_real_vector.go:584-595` (and `WalkInUpdateOptimizedOrderBounded`, `/repo/array_real_vector.go:609-611`). -/
def Vec.updB (d : List α) (v : VVisC α τ) (t : τ) (start end' : Int) :
    Except (Fault × List α) ((τ × α) × List α) := do
  (checkIndices d.length start end').must.at d
  let t ← (v.start d.length start end' t).at d
  let s ← forUp start.toNat (end'.toNat + 1) (Vec.visitSet v) (t, d)
  return (← (v.fin s.1).at s.2, s.2)

/-! ## Functions of `/repo/real_vector.go` -/

/-- `it := v.Iterator(); for it.HasNext() { e := it.Next(); body }` with `entryIteratorImpl`, `/repo/real_vector.go:240-262`: the loop ends because every `Next` moves the index up to the dimension. Foreign vectors are
assumed to have the same iterator. -/
def RVec.iterate {σ : Type} (v : RVec α) (body : Nat → α → σ → Res σ) (idx : Nat) (s : σ) : Res σ :=
  if idx < v.dim then do
    let x ← v.at idx
    let s ← body idx x s
    v.iterate body (idx + 1) s
  else .ok s
termination_by v.dim - idx

/-- `VecNorm`, `/repo/real_vector.go:276-285`. -/
def vecNorm (v : RVec α) : Res α := do
  let sum ← v.iterate (fun _ x s => .ok (Flt.add s (Flt.mul x x))) 0 Flt.zero
  return Flt.sqrt sum

/-- `VecDotProduct`, `/repo/real_vector.go:305-317`. -/
def vecDotProduct (v1 v2 : RVec α) : Res α := do
  (checkDims v1.dim v2.dim).must
  sumUp 0 v1.dim (fun i => do return Flt.mul (← v1.at i) (← v2.at i)) Flt.zero

/-- `VecCosine`, `/repo/real_vector.go:291-300`. -/
def vecCosine (v1 v2 : RVec α) : Res α := do
  let norm ← vecNorm v1
  let vNorm ← vecNorm v2
  if Flt.eq norm Flt.zero || Flt.eq vNorm Flt.zero then throw (.pan .arith)
  return Flt.div (← vecDotProduct v1 v2) (Flt.mul norm vNorm)

/-- `VecL1Norm`, `/repo/real_vector.go:323-331`. -/
def vecL1Norm (v : RVec α) : Res α :=
  v.iterate (fun _ x s => .ok (Flt.add s (Flt.abs x))) 0 Flt.zero

/-- `VecLInfNorm`, `/repo/real_vector.go:337-345`. -/
def vecLInfNorm (v : RVec α) : Res α :=
  v.iterate (fun _ x s => .ok (Flt.fmax s (Flt.abs x))) 0 Flt.zero

/-- `VecDistance`, `/repo/real_vector.go:353-368`. -/
def vecDistance (v1 v2 : RVec α) : Res α := do
  (checkDims v1.dim v2.dim).must
  let d ← v1.iterate (fun i x s => do
    let diff := Flt.sub x (← v2.at i)
    return Flt.add s (Flt.mul diff diff)) 0 Flt.zero
  return Flt.sqrt d

/-- `VecL1Distance`, `/repo/real_vector.go:376-389`. -/
def vecL1Distance (v1 v2 : RVec α) : Res α := do
  (checkDims v1.dim v2.dim).must
  v1.iterate (fun i x s => do return Flt.add s (Flt.abs (Flt.sub x (← v2.at i)))) 0 Flt.zero

/-- `VecLInfDistance`, `/repo/real_vector.go:397-410`. -/
def vecLInfDistance (v1 v2 : RVec α) : Res α := do
  (checkDims v1.dim v2.dim).must
  v1.iterate (fun i x s => do return Flt.fmax (Flt.abs (Flt.sub x (← v2.at i))) s) 0 Flt.zero

/-- `MinIndex`, `/repo/real_vector.go:415-427`. `inf` is `math.Inf(1)`. -/
def minIndex (inf : α) (v : RVec α) : Res Int := do
  let s ← v.iterate (fun i x (s : Int × α) => .ok (if Flt.le x s.2 then ((i : Int), x) else s)) 0
    (-1, inf)
  return s.1

/-- `MinValue`, `/repo/real_vector.go:432-440`. -/
def minValue (inf : α) (v : RVec α) : Res α := do
  let i ← minIndex inf v
  if i < 0 then return Flt.nan
  v.at i

/-- `MaxIndex`, `/repo/real_vector.go:445-457`. `ninf` is `math.Inf(-1)`; Go's `x >= y` is `y <= x`. -/
def maxIndex (ninf : α) (v : RVec α) : Res Int := do
  let s ← v.iterate (fun i x (s : Int × α) => .ok (if Flt.le s.2 x then ((i : Int), x) else s)) 0
    (-1, ninf)
  return s.1

/-- `MaxValue`, `/repo/real_vector.go:462-468`. -/
def maxValue (ninf : α) (v : RVec α) : Res α := do
  let i ← maxIndex ninf v
  if i < 0 then return Flt.nan
  v.at i

/-- `Unitize`, `/repo/array_real_vector.go:346-353`. -/
def Vec.unitize (d : List α) : Mut (List α) := do
  let norm ← (vecNorm (.arr d)).at d
  if Flt.eq norm Flt.zero then throw (.pan .arith, d)
  Vec.mapDivide d norm

/-- `UnitVector`, `/repo/real_vector.go:487-496` (`none` is a nil interface). -/
def unitVector (v : Option (RVec α)) : Res (List α) := do
  let a ← (Vec.newCopy v).must
  match Vec.unitize a with
  | .ok a => return a
  | .error (e, _) => throw e

/-- `Projection`, `/repo/real_vector.go:473-481`, on an `ArrayRealVector` `dest`: `dest` itself is rescaled and
returned. `MapMultiply` of a foreign `dest` is not modelled. -/
def projection (src : RVec α) (dest : List α) : Mut (List α) := do
  let norm2 ← (vecDotProduct (.arr dest) (.arr dest)).at dest
  if Flt.eq norm2 Flt.zero then throw (.pan .arith, dest)
  let a ← (vecDotProduct src (.arr dest)).at dest
  let b ← (vecDotProduct (.arr dest) (.arr dest)).at dest
  Vec.mapMultiply dest (Flt.div a b)

end Linear
