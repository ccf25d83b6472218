import Verif.Model.LU
import Verif.Model.Cholesky
import Verif.Model.QR
import Verif.Model.Tri
import Verif.Model.Bi
import Verif.Model.Hess
import Verif.Model.Schur
import Verif.Model.Eigen
import Verif.Model.Svd

/-!
# The cached factors of the decompositions

Every decomposition keeps the factors it has handed out (`cachedL`, `cachedU`, …): the first call of an accessor builds the matrix,
stores the pointer and returns it, every later call returns the same pointer.  The other model files describe what is built; here a
decomposition is an object with one slot per cached factor, an accessor is a step of that object, and a caller who keeps a returned
matrix may overwrite its entries (`write`), which changes the slot because the pointer is shared.

A factor is built from the private slices of the decomposition by constructors that copy (`NewRealMatrixFromSlices`,
`NewRealMatrixWithDimension` followed by `SetEntry`, `Transpose`, `NewRealDiagonalMatrix`; see C19 for the copying), so a slot shares
storage with nothing but the matrix the caller holds.  The state after a panic inside an accessor is not modelled.
-/

namespace Linear

variable {α : Type} [Flt α] {r c m n p : Nat}

/-- What a call on a decomposition returns. (/repo/lu_decomposition.go:141-204, /repo/rrqr_decomposition.go:102-190,
/repo/singular_value_decomposition.go:476-682) -/
inductive Ans (α : Type) where
  | nil
  | mat (a : SMat α)
  | vec (l : List α)
  | nat (k : Nat)

/-- `if cachedX == nil { cachedX = … }; return cachedX`: the cached value, or the value just built.
(/repo/cholesky_decomposition.go:136-143) -/
def cached {β : Type} (slot : Option β) (build : Res β) : Res β :=
  match slot with
  | some x => pure x
  | none => build

/-- `x.Transpose()` of a matrix given as a `RealMatrix`. (/repo/cholesky_decomposition.go:127) -/
def SMat.flip (s : SMat α) : Res (SMat α) := do
  return ⟨s.c, s.r, ← s.m.transpose⟩

/-- What the caller does to the matrix in a slot: it is overwritten by a matrix of the same dimensions; a slot that has not been
handed out cannot be reached. (/repo/real_matrix.go:24-325) -/
def overwrite (x : SMat α) (slot : Option (SMat α)) : Option (SMat α) :=
  match slot with
  | some y => if x.r = y.r ∧ x.c = y.c then some x else some y
  | none => none

/-- A sequence of calls on an object, with the answers in order. (/repo/lu_decomposition.go:141-204) -/
def runCalls {A β σ : Type} (call : A → σ → Res (β × σ)) : List A → σ → Res (List β × σ)
  | [], s => return ([], s)
  | a :: as, s => do
    let x ← call a s
    let y ← runCalls call as x.2
    return (x.1 :: y.1, y.2)

/-- One action of a client: a call, or overwriting the matrix the accessor `a` has returned. (/repo/real_matrix.go:24-325) -/
inductive Act (A α : Type) where
  | call (a : A)
  | write (a : A) (x : SMat α)

/-- A sequence of actions of a client; the answers of the calls are dropped. (/repo/lu_decomposition.go:141-204) -/
def runActs {A β σ : Type} (call : A → σ → Res (β × σ)) (write : A → SMat α → σ → σ) : List (Act A α) → σ → Res σ
  | [], s => return s
  | .call a :: as, s => do
    let x ← call a s
    runActs call write as x.2
  | .write a x :: as, s => runActs call write as (write a x s)

/-! ## LU -/

/-- `LUDecomposition` with its cached factors, `/repo/lu_decomposition.go:38-43`. -/
structure LU.Obj (α : Type) (r c : Nat) where
  d : LU α r c
  l : Option (SMat α)
  u : Option (SMat α)
  p : Option (SMat α)

/-- The object the constructor returns, `/repo/lu_decomposition.go:50-135`. -/
def LU.obj (d : LU α r c) : LU.Obj α r c := ⟨d, none, none, none⟩

/-- The accessors `L`, `U`, `P`, `/repo/lu_decomposition.go:141, 166, 191`. -/
inductive LU.Acc where
  | l
  | u
  | p

/-- The content of a slot after `if cachedX == nil && !singular { cachedX = … }`, `/repo/lu_decomposition.go:142, 167, 192`: a
matrix that is not built stays `nil`. -/
def LU.fill (slot : Option (SMat α)) (build : Res (Option (Mat α c c))) : Res (Option (SMat α)) :=
  match slot with
  | some x => pure (some x)
  | none => do return (← build).map fun x => ⟨c, c, x⟩

/-- A `RealMatrix` that may be `nil`. (/repo/lu_decomposition.go:158, 181, 203) -/
def Ans.ofOpt : Option (SMat α) → Ans α
  | none => .nil
  | some x => .mat x

/-- `L`, `U` and `P`, `/repo/lu_decomposition.go:141-159, 166-182, 191-204`. -/
def LU.Obj.call : LU.Acc → LU.Obj α r c → Res (Ans α × LU.Obj α r c)
  | .l, o => do
    let x ← LU.fill o.l o.d.l
    return (.ofOpt x, { o with l := x })
  | .u, o => do
    let x ← LU.fill o.u o.d.u
    return (.ofOpt x, { o with u := x })
  | .p, o => do
    let x ← LU.fill o.p o.d.p
    return (.ofOpt x, { o with p := x })

/-- Overwriting a returned factor. (/repo/lu_decomposition.go:158, 181, 203) -/
def LU.Obj.write : LU.Acc → SMat α → LU.Obj α r c → LU.Obj α r c
  | .l, x, o => { o with l := overwrite x o.l }
  | .u, x, o => { o with u := overwrite x o.u }
  | .p, x, o => { o with p := overwrite x o.p }

/-! ## Cholesky -/

/-- `CholeskyDecomposition` with its cached factors, `/repo/cholesky_decomposition.go:50-54`. -/
structure Chol.Obj (α : Type) (r c : Nat) where
  d : Chol α r c
  l : Option (SMat α)
  lT : Option (SMat α)

/-- The object the constructor returns, `/repo/cholesky_decomposition.go:62-120`. -/
def Chol.obj (d : Chol α r c) : Chol.Obj α r c := ⟨d, none, none⟩

/-- The accessors `L`, `LT`, `/repo/cholesky_decomposition.go:125, 135`. -/
inductive Chol.Acc where
  | l
  | lT

/-- `LT`, `/repo/cholesky_decomposition.go:135-144`. -/
def Chol.Obj.callLT (o : Chol.Obj α r c) : Res (SMat α × Chol.Obj α r c) := do
  let x ← cached o.lT o.d.getLT
  return (x, { o with lT := some x })

/-- `L`, `/repo/cholesky_decomposition.go:125-130`: it calls `LT`, so it fills two slots. -/
def Chol.Obj.callL (o : Chol.Obj α r c) : Res (SMat α × Chol.Obj α r c) :=
  match o.l with
  | some x => pure (x, o)
  | none => do
    let t ← o.callLT
    let x ← t.1.flip
    return (x, { t.2 with l := some x })

/-- The accessors, `/repo/cholesky_decomposition.go:125-144`. -/
def Chol.Obj.call : Chol.Acc → Chol.Obj α r c → Res (Ans α × Chol.Obj α r c)
  | .l, o => do
    let x ← o.callL
    return (.mat x.1, x.2)
  | .lT, o => do
    let x ← o.callLT
    return (.mat x.1, x.2)

/-- Overwriting a returned factor. (/repo/cholesky_decomposition.go:129, 143) -/
def Chol.Obj.write : Chol.Acc → SMat α → Chol.Obj α r c → Chol.Obj α r c
  | .l, x, o => { o with l := overwrite x o.l }
  | .lT, x, o => { o with lT := overwrite x o.lT }

/-! ## QR -/

/-- `QRDecomposition` with its cached factors, `/repo/qr_decomposition.go:33-44`. -/
structure QR.Obj (α : Type) (m n p : Nat) where
  d : QR α m n p
  q : Option (SMat α)
  qT : Option (SMat α)
  r : Option (SMat α)
  h : Option (SMat α)

/-- The object the constructor returns, `/repo/qr_decomposition.go:50-67`. -/
def QR.obj (d : QR α m n p) : QR.Obj α m n p := ⟨d, none, none, none, none⟩

/-- The accessors `Q`, `QT`, `R`, `H`, `/repo/qr_decomposition.go:146, 179, 191, 245`. -/
inductive QR.Acc where
  | q
  | qT
  | r
  | h

/-- `QT`, `/repo/qr_decomposition.go:191-237`. -/
def QR.Obj.callQT (o : QR.Obj α m n p) : Res (SMat α × QR.Obj α m n p) := do
  let x ← cached o.qT o.d.qT
  return (x, { o with qT := some x })

/-- `Q`, `/repo/qr_decomposition.go:179-185`: it calls `QT`. -/
def QR.Obj.callQ (o : QR.Obj α m n p) : Res (SMat α × QR.Obj α m n p) :=
  match o.q with
  | some x => pure (x, o)
  | none => do
    let t ← o.callQT
    let x ← t.1.flip
    return (x, { t.2 with q := some x })

/-- `R`, `/repo/qr_decomposition.go:146-173`. -/
def QR.Obj.callR (o : QR.Obj α m n p) : Res (SMat α × QR.Obj α m n p) := do
  let x ← cached o.r o.d.r
  return (x, { o with r := some x })

/-- `H`, `/repo/qr_decomposition.go:245-266`. -/
def QR.Obj.callH (o : QR.Obj α m n p) : Res (SMat α × QR.Obj α m n p) := do
  let x ← cached o.h o.d.h
  return (x, { o with h := some x })

/-- The accessors, `/repo/qr_decomposition.go:146-266`. -/
def QR.Obj.call : QR.Acc → QR.Obj α m n p → Res (Ans α × QR.Obj α m n p)
  | .q, o => do
    let x ← o.callQ
    return (.mat x.1, x.2)
  | .qT, o => do
    let x ← o.callQT
    return (.mat x.1, x.2)
  | .r, o => do
    let x ← o.callR
    return (.mat x.1, x.2)
  | .h, o => do
    let x ← o.callH
    return (.mat x.1, x.2)

/-- Overwriting a returned factor. (/repo/qr_decomposition.go:172, 184, 236, 265) -/
def QR.Obj.write : QR.Acc → SMat α → QR.Obj α m n p → QR.Obj α m n p
  | .q, x, o => { o with q := overwrite x o.q }
  | .qT, x, o => { o with qT := overwrite x o.qT }
  | .r, x, o => { o with r := overwrite x o.r }
  | .h, x, o => { o with h := overwrite x o.h }

/-! ## Rank-revealing QR -/

/-- `RRQRDecomposition` with its cached factors, `/repo/rrqr_decomposition.go:35-39`: the embedded decomposition has its own. -/
structure RRQR.Obj (α : Type) (m n p : Nat) where
  qr : QR.Obj α m n p
  perm : Row Nat n
  p : Option (SMat α)

/-- The object the constructor returns, `/repo/rrqr_decomposition.go:41-69`. -/
def RRQR.obj (d : RRQR α m n p) : RRQR.Obj α m n p := ⟨d.qr.obj, d.p, none⟩

/-- The methods that use a cached factor: the accessors, `Rank`, and `SolveVector`, `SolveMatrix`, `Inverse` of the solver.
(/repo/rrqr_decomposition.go:102-190) The threshold of the decomposition is a parameter, as in the other model files. -/
inductive RRQR.Acc (α : Type) where
  | qr (a : QR.Acc)
  | p
  | rank (drop : α)
  | solveVector (thr : α) (b : RVec α)
  | solveMatrix (thr : α) (b : SMat α)
  | inverse (thr : α)

/-- `P`, `/repo/rrqr_decomposition.go:102-115`. -/
def RRQR.Obj.callP (o : RRQR.Obj α m n p) : Res (SMat α × RRQR.Obj α m n p) := do
  let x ← cached o.p (do return ⟨n, n, ← RRQR.pMat ⟨o.qr.d, o.perm⟩⟩)
  return (x, { o with p := some x })

/-- The search of `Rank` in the matrix that `R` has returned, `/repo/rrqr_decomposition.go:132-147`. -/
def RRQR.rankOf (r : SMat α) (drop : α) : Res Nat := do
  let rNorm ← r.m.frobeniusNorm
  match ← forUpBrk 1 (min r.r r.c) (fun rank (lastNorm : α) => do
    let sub ← r.m.subMatrix rank ((r.r : Int) - 1) rank ((r.c : Int) - 1)
    let thisNorm ← sub.m.frobeniusNorm
    if Flt.eq thisNorm Flt.zero || Flt.lt (Flt.mul (Flt.div thisNorm lastNorm) rNorm) drop then
      return .inr rank
    else return .inl thisNorm) rNorm with
  | .inl _ => return max 1 (min r.r r.c)
  | .inr rank => return rank

/-- `SolveMatrix`, `/repo/rrqr_decomposition.go:179-181`. -/
def RRQR.Obj.callSolve {k q : Nat} (thr : α) (b : Mat α k q) (o : RRQR.Obj α m n p) :
    Res (SMat α × RRQR.Obj α m n p) := do
  let pm ← o.callP
  let x ← o.qr.d.solveMatrix thr b
  let y ← pm.1.m.multiply x.m
  return (y, pm.2)

/-- The methods, `/repo/rrqr_decomposition.go:102-190`. -/
def RRQR.Obj.call : RRQR.Acc α → RRQR.Obj α m n p → Res (Ans α × RRQR.Obj α m n p)
  | .qr a, o => do
    let x ← o.qr.call a
    return (x.1, { o with qr := x.2 })
  | .p, o => do
    let x ← o.callP
    return (.mat x.1, x.2)
  | .rank drop, o => do
    let x ← o.qr.callR
    let k ← RRQR.rankOf x.1 drop
    return (.nat k, { o with qr := x.2 })
  | .solveVector thr b, o => do
    let pm ← o.callP
    let x ← o.qr.d.solveVector thr b
    let y ← pm.1.m.operateVector (.arr x)
    return (.vec y, pm.2)
  | .solveMatrix thr b, o => do
    let x ← o.callSolve thr b.m
    return (.mat x.1, x.2)
  | .inverse thr, o => do
    let pm ← o.callP
    let i : Mat α pm.1.r pm.1.r ← (Mat.identity (pm.1.r : Int)).must
    let x ← pm.2.callSolve thr i
    return (.mat x.1, x.2)

/-- Overwriting a returned factor. (/repo/rrqr_decomposition.go:114) -/
def RRQR.Obj.write : RRQR.Acc α → SMat α → RRQR.Obj α m n p → RRQR.Obj α m n p
  | .qr a, x, o => { o with qr := o.qr.write a x }
  | .p, x, o => { o with p := overwrite x o.p }
  | _, _, o => o

/-! ## The transformers -/

/-- `TriDiagonalTransformer` with its cached factors, `/repo/tridiagonal_transformer.go:36-40`. -/
structure Tri.Obj (α : Type) (r c : Nat) where
  d : Tri α r c
  q : Option (SMat α)
  qT : Option (SMat α)
  t : Option (SMat α)

/-- The object the constructor returns, `/repo/tridiagonal_transformer.go:47-61`. -/
def Tri.obj (d : Tri α r c) : Tri.Obj α r c := ⟨d, none, none, none⟩

/-- The accessors `Q`, `QT`, `T`, `/repo/tridiagonal_transformer.go:67, 78, 125`. -/
inductive Tri.Acc where
  | q
  | qT
  | t

/-- `QT`, `/repo/tridiagonal_transformer.go:78-120`. -/
def Tri.Obj.callQT (o : Tri.Obj α r c) : Res (SMat α × Tri.Obj α r c) := do
  let x ← cached o.qT o.d.qT
  return (x, { o with qT := some x })

/-- The accessors, `/repo/tridiagonal_transformer.go:67-150`. -/
def Tri.Obj.call : Tri.Acc → Tri.Obj α r c → Res (Ans α × Tri.Obj α r c)
  | .q, o =>
    match o.q with
    | some x => pure (.mat x, o)
    | none => do
      let t ← o.callQT
      let x ← t.1.flip
      return (.mat x, { t.2 with q := some x })
  | .qT, o => do
    let x ← o.callQT
    return (.mat x.1, x.2)
  | .t, o => do
    let x ← cached o.t o.d.t
    return (.mat x, { o with t := some x })

/-- Overwriting a returned factor. (/repo/tridiagonal_transformer.go:71, 119, 149) -/
def Tri.Obj.write : Tri.Acc → SMat α → Tri.Obj α r c → Tri.Obj α r c
  | .q, x, o => { o with q := overwrite x o.q }
  | .qT, x, o => { o with qT := overwrite x o.qT }
  | .t, x, o => { o with t := overwrite x o.t }

/-- `BiDiagonalTransformer` with its cached factors, `/repo/bidiagonal_transformer.go:7-11`. -/
structure Bi.Obj (α : Type) (m n : Nat) where
  d : Bi α m n
  u : Option (SMat α)
  b : Option (SMat α)
  v : Option (SMat α)

/-- The object the constructor returns, `/repo/bidiagonal_transformer.go:13-29`. -/
def Bi.obj (d : Bi α m n) : Bi.Obj α m n := ⟨d, none, none, none⟩

/-- The accessors `U`, `B`, `V`, `/repo/bidiagonal_transformer.go:31, 86, 119`. -/
inductive Bi.Acc where
  | u
  | b
  | v

/-- The accessors, `/repo/bidiagonal_transformer.go:31-171`. -/
def Bi.Obj.call : Bi.Acc → Bi.Obj α m n → Res (Ans α × Bi.Obj α m n)
  | .u, o => do
    let x ← cached o.u o.d.u
    return (.mat x, { o with u := some x })
  | .b, o => do
    let x ← cached o.b o.d.b
    return (.mat x, { o with b := some x })
  | .v, o => do
    let x ← cached o.v o.d.v
    return (.mat x, { o with v := some x })

/-- Overwriting a returned factor. (/repo/bidiagonal_transformer.go:82, 115, 170) -/
def Bi.Obj.write : Bi.Acc → SMat α → Bi.Obj α m n → Bi.Obj α m n
  | .u, x, o => { o with u := overwrite x o.u }
  | .b, x, o => { o with b := overwrite x o.b }
  | .v, x, o => { o with v := overwrite x o.v }

/-- `HessenbergTransformer` with its cached factors, `/repo/hessenberg_transformer.go:37-41`. -/
structure Hess.Obj (α : Type) (r c : Nat) where
  d : Hess α r c
  p : Option (SMat α)
  pT : Option (SMat α)
  h : Option (SMat α)

/-- The object the constructor returns, `/repo/hessenberg_transformer.go:46-61`. -/
def Hess.obj (d : Hess α r c) : Hess.Obj α r c := ⟨d, none, none, none⟩

/-- The accessors `P`, `PT`, `H`, `/repo/hessenberg_transformer.go:67, 119, 131`. -/
inductive Hess.Acc where
  | p
  | pT
  | h

/-- The computation of `P` together with the work slice `ort`, which it overwrites, `/repo/hessenberg_transformer.go:69-110`. -/
def Hess.pWith (s : Hess α r c) : Res (SMat α × Row α r) := do
  let p : Tab α r r ← forUp 0 r (fun i (p : Tab α r r) =>
    forUp 0 r (fun j (p : Tab α r r) => if i = j then p.set i j Flt.one else pure p) p) (Jag.zero r _)
  let x ← forDown (r - 1) 1 s.pStep (s.ort, p)
  let y ← (SMat.fromSlices (some x.2.toLists) false).must
  return (y, x.1)

/-- `P`, `/repo/hessenberg_transformer.go:67-113`: the first call changes `ort` for good. -/
def Hess.Obj.callP (o : Hess.Obj α r c) : Res (SMat α × Hess.Obj α r c) :=
  match o.p with
  | some x => pure (x, o)
  | none => do
    let x ← o.d.pWith
    return (x.1, { o with d := ⟨o.d.hv, x.2⟩, p := some x.1 })

/-- The accessors, `/repo/hessenberg_transformer.go:67-158`. -/
def Hess.Obj.call : Hess.Acc → Hess.Obj α r c → Res (Ans α × Hess.Obj α r c)
  | .p, o => do
    let x ← o.callP
    return (.mat x.1, x.2)
  | .pT, o =>
    match o.pT with
    | some x => pure (.mat x, o)
    | none => do
      let t ← o.callP
      let x ← t.1.flip
      return (.mat x, { t.2 with pT := some x })
  | .h, o => do
    let x ← cached o.h o.d.h
    return (.mat x, { o with h := some x })

/-- Overwriting a returned factor. (/repo/hessenberg_transformer.go:112, 125, 157) -/
def Hess.Obj.write : Hess.Acc → SMat α → Hess.Obj α r c → Hess.Obj α r c
  | .p, x, o => { o with p := overwrite x o.p }
  | .pT, x, o => { o with pT := overwrite x o.pT }
  | .h, x, o => { o with h := overwrite x o.h }

/-- `SchurTransformer` with its cached factors, `/repo/schur_transformer.go:39-42`. -/
structure Schur.Obj (α : Type) (n : Nat) where
  d : Schur α n
  p : Option (SMat α)
  pT : Option (SMat α)
  t : Option (SMat α)

/-- The object the constructor returns, `/repo/schur_transformer.go:44-60`. -/
def Schur.obj (d : Schur α n) : Schur.Obj α n := ⟨d, none, none, none⟩

/-- The accessors `P`, `PT`, `T`, `/repo/schur_transformer.go:66, 82, 96`. -/
inductive Schur.Acc where
  | p
  | pT
  | t

/-- `P`, `/repo/schur_transformer.go:66-76`. -/
def Schur.Obj.callP (o : Schur.Obj α n) : Res (SMat α × Schur.Obj α n) := do
  let x ← cached o.p o.d.pMat
  return (x, { o with p := some x })

/-- The accessors, `/repo/schur_transformer.go:66-108`. -/
def Schur.Obj.call : Schur.Acc → Schur.Obj α n → Res (Ans α × Schur.Obj α n)
  | .p, o => do
    let x ← o.callP
    return (.mat x.1, x.2)
  | .pT, o =>
    match o.pT with
    | some x => pure (.mat x, o)
    | none => do
      let t ← o.callP
      let x ← t.1.flip
      return (.mat x, { t.2 with pT := some x })
  | .t, o => do
    let x ← cached o.t o.d.tMat
    return (.mat x, { o with t := some x })

/-- Overwriting a returned factor. (/repo/schur_transformer.go:75, 88, 107) -/
def Schur.Obj.write : Schur.Acc → SMat α → Schur.Obj α n → Schur.Obj α n
  | .p, x, o => { o with p := overwrite x o.p }
  | .pT, x, o => { o with pT := overwrite x o.pT }
  | .t, x, o => { o with t := overwrite x o.t }

/-! ## Eigen -/

/-- `EigenDecomposition` with its cached factors, `/repo/eigen_decomposition.go:62-69`. -/
structure Eig.Obj (α : Type) (n : Nat) where
  d : Eig α n
  v : Option (SMat α)
  dm : Option (SMat α)
  vT : Option (SMat α)

/-- The object the constructor returns, `/repo/eigen_decomposition.go:76-125`. -/
def Eig.obj (d : Eig α n) : Eig.Obj α n := ⟨d, none, none, none⟩

/-- The methods that use a cached factor: `V`, `D`, `VT`, `SquareRoot`, and those that copy out the eigenvalues and
eigenvectors. (/repo/eigen_decomposition.go:135, 159, 188, 224-257, 275) -/
inductive Eig.Acc where
  | v
  | d
  | vT
  | squareRoot
  | reals
  | imags
  | realAt (i : Int)
  | imagAt (i : Int)
  | vectorAt (i : Int)

/-- `RealEigenvalueAt`, `/repo/eigen_decomposition.go:232-234`: an index that is not there panics. -/
def Eig.realAt (d : Eig α n) (i : Int) : Res α := if i < 0 then .error .rt else d.re.get i.toNat

/-- `ImagEigenvalue`, `/repo/eigen_decomposition.go:248-250`. -/
def Eig.imagAt (d : Eig α n) (i : Int) : Res α := if i < 0 then .error .rt else d.im.get i.toNat

/-- `EigenvectorAt`, `/repo/eigen_decomposition.go:255-257`: a copy. -/
def Eig.vectorAt (d : Eig α n) (i : Int) : Res (List α) :=
  if i < 0 ∨ (n : Int) ≤ i then .error .rt else .ok (d.vector' i.toNat)

/-- `V`, `/repo/eigen_decomposition.go:135-151`. -/
def Eig.Obj.callV (o : Eig.Obj α n) : Res (SMat α × Eig.Obj α n) := do
  let x ← cached o.v o.d.v
  return (x, { o with v := some x })

/-- `VT`, `/repo/eigen_decomposition.go:188-204`. -/
def Eig.Obj.callVT (o : Eig.Obj α n) : Res (SMat α × Eig.Obj α n) := do
  let x ← cached o.vT o.d.vT
  return (x, { o with vT := some x })

/-- The methods, `/repo/eigen_decomposition.go:135-204, 224-257, 275-296`. One number is answered as a list with one element. -/
def Eig.Obj.call (epsEd : α) : Eig.Acc → Eig.Obj α n → Res (Ans α × Eig.Obj α n)
  | .v, o => do
    let x ← o.callV
    return (.mat x.1, x.2)
  | .d, o => do
    let x ← cached o.dm (o.d.dMat epsEd)
    return (.mat x, { o with dm := some x })
  | .vT, o => do
    let x ← o.callVT
    return (.mat x.1, x.2)
  | .squareRoot, o => do
    if !o.d.sym then throw (.pan .unsup)
    let w ← o.d.roots
    let d ← (SMat.diagonal (some w.toList)).must
    let v ← o.callV
    let vT ← v.2.callVT
    let x ← SMat.multiply v.1 d
    let y ← SMat.multiply x vT.1
    return (.mat y, vT.2)
  | .reals, o => return (.vec o.d.re.toList, o)
  | .imags, o => return (.vec o.d.im.toList, o)
  | .realAt i, o => do return (.vec [← o.d.realAt i], o)
  | .imagAt i, o => do return (.vec [← o.d.imagAt i], o)
  | .vectorAt i, o => do return (.vec (← o.d.vectorAt i), o)

/-- Overwriting a returned factor; the eigenvalues and eigenvectors are copies. (/repo/eigen_decomposition.go:150, 177, 203,
224-257) -/
def Eig.Obj.write : Eig.Acc → SMat α → Eig.Obj α n → Eig.Obj α n
  | .v, x, o => { o with v := overwrite x o.v }
  | .d, x, o => { o with dm := overwrite x o.dm }
  | .vT, x, o => { o with vT := overwrite x o.vT }
  | _, _, o => o

/-! ## Singular values -/

/-- `SingularValueDecomposition` with its cached factors, `/repo/singular_value_decomposition.go:38-44`: `cachedU` and `cachedV` are
set by the constructor and are the fields `u` and `v` of `d`. -/
structure Svd.Obj (α : Type) where
  d : Svd α
  uT : Option (SMat α)
  s : Option (SMat α)
  vT : Option (SMat α)

/-- The object the constructor returns, `/repo/singular_value_decomposition.go:46-470`. -/
def Svd.obj (d : Svd α) : Svd.Obj α := ⟨d, none, none, none⟩

/-- The methods that use a cached factor: `U`, `UT`, `S`, `V`, `VT`, `Covariance` and `Solver`, whose work is the pseudo-inverse.
(/repo/singular_value_decomposition.go:476-664) -/
inductive Svd.Acc (α : Type) where
  | u
  | uT
  | s
  | v
  | vT
  | covariance (minSv : α)
  | solver

/-- `UT`, `/repo/singular_value_decomposition.go:486-492`. -/
def Svd.Obj.callUT (o : Svd.Obj α) : Res (SMat α × Svd.Obj α) := do
  let x ← cached o.uT o.d.uT
  return (x, { o with uT := some x })

/-- `VT`, `/repo/singular_value_decomposition.go:533-539`. -/
def Svd.Obj.callVT (o : Svd.Obj α) : Res (SMat α × Svd.Obj α) := do
  let x ← cached o.vT o.d.vT
  return (x, { o with vT := some x })

/-- The rest of `Covariance` after `VT()`, `/repo/singular_value_decomposition.go:563-586`. -/
def Svd.covarianceOf (x : Svd α) (vt : SMat α) (minSv : α) : Res (SMat α) := do
  let t ← vt.m.walkInB .opt (x.visitor (Svd.cutoff minSv x.sv)) (Jag.zero _ _) 0
    (Svd.cutoff minSv x.sv - 1) 0 (x.sv.length - 1)
  let jv ← (Arr.copyIn (some t.1.toLists)).must
  let jt ← jv.toSMat.m.transpose
  jt.multiply jv.toSMat.m

/-- The rest of `newSVDecompositionSolver` after `UT()`, `/repo/singular_value_decomposition.go:645-664`. -/
def Svd.pinvOf (x : Svd α) (ut : SMat α) : Res (SMat α) := do
  let d ← ut.m.dataCopy
  let d ← forUp 0 x.sv.length (fun i (d : Tab α ut.r ut.c) => do
    let s ← rdL x.sv i
    forUp 0 ut.c (fun j (d : Tab α ut.r ut.c) => do
      d.set i j (Flt.mul (← d.get i j) (x.factor s))) d) d
  let mat ← (Arr.copyIn (some d.toLists)).must
  x.v.m.multiply mat.toSMat.m

/-- The methods, `/repo/singular_value_decomposition.go:476-664`. -/
def Svd.Obj.call : Svd.Acc α → Svd.Obj α → Res (Ans α × Svd.Obj α)
  | .u, o => pure (.mat o.d.u, o)
  | .uT, o => do
    let x ← o.callUT
    return (.mat x.1, x.2)
  | .s, o => do
    let x ← cached o.s o.d.sMat
    return (.mat x, { o with s := some x })
  | .v, o => pure (.mat o.d.v, o)
  | .vT, o => do
    let x ← o.callVT
    return (.mat x.1, x.2)
  | .covariance minSv, o => do
    if Svd.cutoff minSv o.d.sv = 0 then
      let _ ← rdL o.d.sv 0
      throw (.pan .big)
    let x ← o.callVT
    let y ← o.d.covarianceOf x.1 minSv
    return (.mat y, x.2)
  | .solver, o => do
    let x ← o.callUT
    let y ← x.2.d.pinvOf x.1
    return (.mat y, x.2)

/-- Overwriting a returned factor. (/repo/singular_value_decomposition.go:478, 491, 508, 526, 538) -/
def Svd.Obj.write : Svd.Acc α → SMat α → Svd.Obj α → Svd.Obj α
  | .u, x, o => { o with d := { o.d with u := (overwrite x (some o.d.u)).getD o.d.u } }
  | .uT, x, o => { o with uT := overwrite x o.uT }
  | .s, x, o => { o with s := overwrite x o.s }
  | .v, x, o => { o with d := { o.d with v := (overwrite x (some o.d.v)).getD o.d.v } }
  | .vT, x, o => { o with vT := overwrite x o.vT }
  | _, _, o => o

end Linear
