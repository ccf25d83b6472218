import Verif.Model.HeapMat
import Verif.Model.Svd
import Verif.Model.Eigen

/-!
# Singular value, Schur and eigen decomposition on the heap

What these constructors do to the matrix they are given. The singular value decomposition works in place on the table from
`Data` until the bidiagonal form is reached; the rest works on slices of its own, kept as values. The Schur transformer
and the eigen decomposition hand their argument to the transformers of `Verif.Model.HeapMat` and go on with what
these hold.
-/

namespace Linear

open HM

namespace Heap

variable {α : Type} [Flt α]

/-! ## The reduction of `/repo/singular_value_decomposition.go` -/

/-- The variables of the reduction besides the table `A`. (/repo/singular_value_decomposition.go:60-77) -/
structure SvdRest (α : Type) (m n : Nat) where
  s : Row α n
  e : Row α n
  u : Tab α m n
  v : Tab α n n

/-- `/repo/singular_value_decomposition.go:83-86`: the norm of column `k`. -/
def svdNorm (hyp : α → α → α) (t : Sl) (m k : Nat) : HM α α :=
  forS k m (fun i s => do
    let x ← get t i k
    pure (hyp s x)) Flt.zero

/-- `/repo/singular_value_decomposition.go:87-95`. -/
def svdColScale (t : Sl) (m k : Nat) (nu : α) : HM α Unit :=
  if !Flt.eq nu Flt.zero then do
    for' k m fun i => do
      let x ← get t i k
      put t i k (Flt.div x nu)
    let x ← get t k k
    put t k k (Flt.add x Flt.one)
  else pure ()

/-- `/repo/singular_value_decomposition.go:79-97`. -/
def svdColPass (hyp : α → α → α) (t : Sl) {m n : Nat} (nct k : Nat) (w : SvdRest α m n) : HM α (SvdRest α m n) :=
  if k < nct then do
    let nu ← svdNorm hyp t m k
    let x ← get t k k
    svdColScale t m k (Svd.signed nu x)
    let s ← lift (w.s.set k (Flt.neg (Svd.signed nu x)))
    pure ⟨s, w.e, w.u, w.v⟩
  else pure w

/-- `/repo/singular_value_decomposition.go:101-108`. -/
def svdReflect (t : Sl) (m k j : Nat) : HM α Unit := do
  let s ← HM.sumUp k m (fun i => do
    let x ← get t i k
    let y ← get t i j
    pure (Flt.mul x y)) Flt.zero
  let h ← get t k k
  for' k m fun i => do
    let x ← get t i j
    let y ← get t i k
    put t i j (Flt.add x (Flt.mul (Flt.div (Flt.neg s) h) y))

/-- `/repo/singular_value_decomposition.go:98-113`. -/
def svdColRest (t : Sl) {m n : Nat} (nct k : Nat) (w : SvdRest α m n) : HM α (SvdRest α m n) := do
  let e ← forS (k + 1) n (fun j e => do
    let sk ← lift (w.s.get k)
    if k < nct ∧ !Flt.eq sk Flt.zero then svdReflect t m k j else pure ()
    let x ← get t k j
    let e ← lift (e.set j x)
    pure e) w.e
  pure ⟨w.s, e, w.u, w.v⟩

/-- `/repo/singular_value_decomposition.go:114-120`. -/
def svdKeepU (t : Sl) {m n : Nat} (nct k : Nat) (w : SvdRest α m n) : HM α (SvdRest α m n) :=
  if k < nct then do
    let u ← forS k m (fun i (u : Tab α m n) => do
      let x ← get t i k
      lift (u.set i k x)) w.u
    pure ⟨w.s, w.e, u, w.v⟩
  else pure w

/-- `/repo/singular_value_decomposition.go:139-156`. -/
def svdRowApply (t : Sl) (m : Nat) {n : Nat} (k : Nat) (e : Row α n) : HM α Unit := do
  let ek ← lift (e.get k)
  if k + 1 < m ∧ !Flt.eq ek Flt.zero then do
    let work ← forS (k + 1) n (fun j (work : Row α m) =>
      forS (k + 1) m (fun i (work : Row α m) => do
        let x ← lift (work.get i)
        let y ← lift (e.get j)
        let z ← get t i j
        lift (work.set i (Flt.add x (Flt.mul y z)))) work) (Row.zero m)
    for' (k + 1) n fun j => do
      let ej ← lift (e.get j)
      let h ← lift (e.get (k + 1))
      for' (k + 1) m fun i => do
        let x ← get t i j
        let y ← lift (work.get i)
        put t i j (Flt.add x (Flt.mul (Flt.div (Flt.neg ej) h) y))
  else pure ()

/-- `/repo/singular_value_decomposition.go:121-163`. -/
def svdRowPass (hyp : α → α → α) (t : Sl) {m n : Nat} (nrt k : Nat) (w : SvdRest α m n) : HM α (SvdRest α m n) :=
  if k < nrt then do
    let nu ← lift (Svd.norm hyp (k + 1) n (fun i => w.e.get i))
    let x ← lift (w.e.get (k + 1))
    let e ← lift (Svd.rowScale k (Svd.signed nu x) w.e)
    let e ← lift (e.set k (Flt.neg (Svd.signed nu x)))
    svdRowApply t m k e
    let v ← lift (forUp (k + 1) n (fun i (v : Tab α n n) => do v.set i k (← e.get i)) w.v)
    pure ⟨w.s, e, w.u, v⟩
  else pure w

/-- `/repo/singular_value_decomposition.go:78-164`. -/
def svdStep (hyp : α → α → α) (t : Sl) {m n : Nat} (nct nrt k : Nat) (w : SvdRest α m n) : HM α (SvdRest α m n) := do
  let w ← svdColPass hyp t nct k w
  let w ← svdColRest t nct k w
  let w ← svdKeepU t nct k w
  svdRowPass hyp t nrt k w

/-- `/repo/singular_value_decomposition.go:165-176`. -/
def svdLast (t : Sl) {m n : Nat} (nct nrt : Nat) (w : SvdRest α m n) : HM α (Row α n × Row α n) := do
  let s ← if nct < n then do
      let x ← get t nct nct
      lift (w.s.set nct x)
    else pure w.s
  let e ← if nrt + 1 < n then do
      let x ← get t nrt (n - 1)
      lift (w.e.set nrt x)
    else pure w.e
  let e ← lift (e.set (n - 1) Flt.zero)
  pure (s, e)

/-- `/repo/singular_value_decomposition.go:60-444` for the slice `t` (the variable `A`). -/
def svdWork (κ : Svd.Lit α) (fuel : Nat) (t : Sl) (m n : Nat) : HM α (Option (Svd.St α m n)) :=
  if n = 0 then lift (.error .rt)
  else do
    let w ← forS 0 (max (min (m - 1) n) (n - 2)) (fun k w => svdStep κ.hyp t (min (m - 1) n) (n - 2) k w)
      (⟨Row.zero n, Row.zero n, Jag.zero m _, Jag.zero n _⟩ : SvdRest α m n)
    let se ← svdLast t (min (m - 1) n) (n - 2) w
    let u ← lift (Svd.genU (min (m - 1) n) se.1 w.u)
    let v ← lift (Svd.genV (n - 2) se.2 w.v)
    lift (Svd.loop κ fuel n ⟨se.1, se.2, u, v⟩)

/-- The entries of a table, read one after the other. (/repo/schur_transformer.go:44-60) -/
def readTab (t : Sl) (r c : Nat) : HM α (Tab α r c) :=
  forS 0 r (fun i (d : Tab α r c) => forS 0 c (fun j (d : Tab α r c) => do
    let x ← get t i j
    lift (d.set i j x)) d) (Jag.zero r _)

end Heap

namespace HMat

open Heap

variable {α : Type} [Flt α] {r c n : Nat}

/-- `NewSingularValueDecomposition`, `/repo/singular_value_decomposition.go:46-473`. -/
def svd (κ : Svd.Lit α) (fuel : Nat) (x : HMat r c) : HM α (Option (Svd α)) := do
  let col ← x.cols
  if x.rows < col then do
    let d ← x.transData
    let y ← svdWork κ fuel d c r
    lift (match y with
      | none => pure none
      | some s => do
        let s ← Svd.pack κ true s
        pure (some s))
  else do
    let d ← x.data
    let y ← svdWork κ fuel d r c
    lift (match y with
      | none => pure none
      | some s => do
        let s ← Svd.pack κ false s
        pure (some s))

/-- `NewSchurTransformer`, `/repo/schur_transformer.go:44-60`. `H` and `P` read the slices of the Hessenberg transformer
and store in new matrices; all that follows works on copies of these. -/
def schur (κ : Schur.Lit α) (fuel : Nat) (x : HMat n c) : HM α (Option (Schur α n)) :=
  square x (do
    let y ← x.hess
    let hv ← readTab y.1 n c
    lift (do
      let t ← Schur.tab n (← (⟨hv, y.2⟩ : Hess α n c).h)
      let p ← Schur.tab n (← (⟨hv, y.2⟩ : Hess α n c).p)
      let norm ← Schur.norm t
      Schur.loop κ norm fuel n 0 Flt.zero ⟨t, p⟩))

/-- `isSymmetric`, `/repo/utils.go:35-63`. -/
def isSymm (x : HMat r c) (tol : α) : HM α Bool := do
  let col ← x.cols
  if x.rows ≠ col then pure false
  else do
    let s ← forBrk 0 r (fun i (_ : Unit) => forBrk (i + 1) r (fun j (_ : Unit) => do
      let a ← x.at' i j
      let b ← x.at' j i
      pure (if Flt.lt (Flt.mul (Flt.fmax (Flt.abs a) (Flt.abs b)) tol) (Flt.abs (Flt.sub a b)) then
        (.inr () : Unit ⊕ Unit) else .inl ())) ()) ()
    pure (match s with | .inl _ => true | .inr _ => false)

/-- `NewEigenDecomposition`, `/repo/eigen_decomposition.go:76-98`. `Q` of the tridiagonal transformer reads its slices and
stores in new matrices; all that follows works on copies of these, or on copies of what the Schur transformer holds. -/
def eigen (σ : Schur.Lit α) (κ : Eig.Lit α) (symTol : α) (fuel : Nat) (x : HMat n c) : HM α (Option (Eig α n)) := do
  let sym ← x.isSymm symTol
  if sym then do
    let y ← x.tri
    let hv ← readTab y.1 n c
    lift (do
      let z ← Schur.tab n (← (⟨hv, y.2.1, y.2.2⟩ : Tri α n c).q)
      return some (← Eig.findSym κ.eps y.2.1 y.2.2 z))
  else do
    let s ← x.schur σ fuel
    lift (match s with
      | none => pure none
      | some s => do
        let t ← Schur.tab n (← s.tMat)
        let v ← Eig.values κ.epsEd κ.half t n 0 (Row.zero n, Row.zero n)
        let p ← Schur.tab n (← s.pMat)
        return some (← Eig.findGen κ v.1 v.2 t p))

end HMat

end Linear
