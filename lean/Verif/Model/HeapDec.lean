import Verif.Model.HeapLU
import Verif.Model.RectCholesky
import Verif.Model.Bi
import Verif.Model.Hess

/-!
# Other decompositions on the heap

The constructors again, with the table that comes from the given matrix on the heap (see `Verif.Model.HeapLU`).
Every read and write of that table is one of the heap. Slices of numbers that the constructors make
themselves (`rDiag`, `main`, `secondary`, `ort`, `z`, `b`, `index`) never leave the object and are kept as
values.
-/

namespace Linear

namespace HM

variable {α σ : Type}

/-- `for i := a - 1; i >= b; i-- { body }` with local variables `s`. (Go language; as in /repo/hessenberg_transformer.go:186-190) -/
def forDownS (a b : Nat) (body : Nat → σ → HM α σ) (s : σ) : HM α σ :=
  (List.range' b (a - b)).reverse.foldlM (fun s i => body i s) s

/-- `for i := a; i < b; i++ { s += term(i) }`. (Go language; as in /repo/qr_decomposition.go:90-98) -/
def sumUp [Flt α] (a b : Nat) (term : Nat → HM α α) (s : α) : HM α α :=
  forS a b (fun i s => do
    let x ← term i
    pure (Flt.add s x)) s

/-- `for i := a; i < b; i++ { s -= term(i) }`. (Go language; as in /repo/lu_decomposition.go:77-85) -/
def subUp [Flt α] (a b : Nat) (term : Nat → HM α α) (s : α) : HM α α :=
  forS a b (fun i s => do
    let x ← term i
    pure (Flt.sub s x)) s

/-- `for i := a - 1; i >= b; i-- { s += term(i) }`. (Go language; as in /repo/hessenberg_transformer.go:203-210) -/
def sumDown [Flt α] (a b : Nat) (term : Nat → HM α α) (s : α) : HM α α :=
  forDownS a b (fun i s => do
    let x ← term i
    pure (Flt.add s x)) s

end HM

open HM

namespace Heap

variable {α : Type} [Flt α]

/-- `Transpose` of a row-array matrix, `/repo/array_2d_row_real_matrix.go:418-434`. -/
def mTranspose (m : Sl) : HM α Sl := do
  let nCols ← mCols m
  let data ← makeJag nCols fun _ => m.len
  for' 0 m.len fun i => for' 0 nCols fun j => do
    let x ← get m i j
    put data j i x
  pure data

/-! ## Cholesky, `/repo/cholesky_decomposition.go` -/

/-- `/repo/cholesky_decomposition.go:79-94`. -/
def cholCheck (rel : α) (t : Sl) (r : Nat) : HM α Unit :=
  for' 0 r fun i => for' (i + 1) r fun j => do
    let lIJ ← get t i j
    let lJI ← get t j i
    if Flt.lt (Flt.mul rel (Flt.fmax (Flt.abs lIJ) (Flt.abs lJI))) (Flt.abs (Flt.sub lIJ lJI)) then
      lift (.error (.err .symm))
    else put t j i Flt.zero

/-- `/repo/cholesky_decomposition.go:105-114`. -/
def cholRow (t : Sl) (r i : Nat) (inverse : α) : HM α Unit :=
  forDownS r (i + 1) (fun q _ => do
    let x ← get t i q
    put t i q (Flt.mul x inverse)
    for' q r fun p => do
      let x ← get t q p
      let y ← get t i q
      let z ← get t i p
      put t q p (Flt.sub x (Flt.mul y z))) ()

/-- `/repo/cholesky_decomposition.go:97-116`. -/
def cholStep (pos : α) (t : Sl) (r i : Nat) : HM α Unit := do
  let d ← get t i i
  if Flt.le d pos then lift (.error (.err .small))
  else do
    let d ← get t i i
    put t i i (Flt.sqrt d)
    let d ← get t i i
    cholRow t r i (Flt.div Flt.one d)

/-- `/repo/cholesky_decomposition.go:77-117` for the slice `t` (`ans.lTData`). -/
def cholWork (rel pos : α) (t : Sl) (r : Nat) : HM α Unit := do
  cholCheck rel t r
  for' 0 r fun i => cholStep pos t r i

/-! ## QR, `/repo/qr_decomposition.go` -/

/-- `/repo/qr_decomposition.go:90-98`. -/
def qrNorm (t : Sl) (m minor : Nat) : HM α α := do
  let xNormSqr ← HM.sumUp minor m (fun row => do
    let c ← get t minor row
    pure (Flt.mul c c)) Flt.zero
  let d ← get t minor minor
  if Flt.lt Flt.zero d then pure (Flt.mul (Flt.sqrt xNormSqr) (Flt.neg Flt.one)) else pure (Flt.sqrt xNormSqr)

/-- `/repo/qr_decomposition.go:127-137`. -/
def qrColumn (t : Sl) (m minor : Nat) (a : α) (col : Nat) : HM α Unit := do
  let alpha ← HM.subUp minor m (fun row => do
    let x ← get t col row
    let y ← get t minor row
    pure (Flt.mul x y)) Flt.zero
  let d ← get t minor minor
  for' minor m fun row => do
    let x ← get t col row
    let y ← get t minor row
    put t col row (Flt.sub x (Flt.mul (Flt.div alpha (Flt.mul a d)) y))

/-- `/repo/qr_decomposition.go:79-140`. -/
def qrReflect (t : Sl) (m n minor : Nat) {p : Nat} (rDiag : Row α p) : HM α (Row α p) := do
  let a ← qrNorm t m minor
  let d ← lift (rDiag.set minor a)
  if !Flt.eq a Flt.zero then
    let x ← get t minor minor
    put t minor minor (Flt.sub x a)
    for' (minor + 1) n fun col => qrColumn t m minor a col
    pure d
  else pure d

/-- `/repo/qr_decomposition.go:62-75` for the slice `t` (`ans.qrt`). -/
def qrWork (t : Sl) (m n : Nat) : HM α (Row α (min m n)) := do
  if n = 0 then lift (.error .rt)
  else forS 0 (min n m) (fun minor d => qrReflect t m n minor d) (Row.zero _)

/-! ## Rectangular Cholesky, `/repo/rectangular_cholesky_decomposition.go` -/

/-- The local variables `b` and `index`. (/repo/rectangular_cholesky_decomposition.go:37-46) -/
structure RcRest (α : Type) (r : Nat) where
  b : Tab α r r
  index : Row Nat r

/-- `/repo/rectangular_cholesky_decomposition.go:49-56`. -/
def rcBest (t : Sl) {r : Nat} (k : Nat) (s : RcRest α r) : HM α Nat :=
  forS (k + 1) r (fun i swapR => do
    let ii ← lift (s.index.get i)
    let isr ← lift (s.index.get swapR)
    let x ← get t isr isr
    let y ← get t ii ii
    pure (if Flt.lt x y then i else swapR)) k

/-- `/repo/rectangular_cholesky_decomposition.go:59-66`. -/
def rcSwap {r : Nat} (k q : Nat) (s : RcRest α r) : HM α (RcRest α r) := do
  if q ≠ k then
    let tmpIndex ← lift (s.index.get k)
    let x ← lift (s.index.get q)
    let p ← lift (s.index.set k x)
    let p ← lift (p.set q tmpIndex)
    pure ⟨⟨fun i => s.b.f (if i = k then q else if i = q then k else i)⟩, p⟩
  else pure s

/-- `/repo/rectangular_cholesky_decomposition.go:76-82`. -/
def rcRest (small : α) (t : Sl) {r : Nat} (k : Nat) (s : RcRest α r) : HM α Unit :=
  forS k r (fun i _ => do
    let ii ← lift (s.index.get i)
    let x ← get t ii ii
    if Flt.lt x (Flt.neg small) then lift (.error (.err .small)) else pure ()) ()

/-- `/repo/rectangular_cholesky_decomposition.go:95-104`: one row. -/
def rcRow (t : Sl) {r : Nat} (k ir : Nat) (inverse inverse2 : α) (i : Nat) (s : RcRest α r) : HM α (RcRest α r) := do
  let ii ← lift (s.index.get i)
  let x ← get t ii ir
  let b ← lift (s.b.set i k (Flt.mul inverse x))
  let y ← get t ii ir
  let z ← get t ii ii
  put t ii ii (Flt.sub z (Flt.mul (Flt.mul y y) inverse2))
  forS (k + 1) i (fun j s => do
    let ij ← lift (s.index.get j)
    let u ← get t ii ij
    let v ← lift (s.b.get j k)
    put t ii ij (Flt.sub u (Flt.mul (Flt.mul inverse x) v))
    put t ij ii (Flt.sub u (Flt.mul (Flt.mul inverse x) v))
    pure s) { s with b := b }

/-- `/repo/rectangular_cholesky_decomposition.go:89-105`. -/
def rcTransform (t : Sl) {r : Nat} (k : Nat) (s : RcRest α r) : HM α (RcRest α r) := do
  let ir ← lift (s.index.get k)
  let d ← get t ir ir
  let b ← lift (s.b.set k k (Flt.sqrt d))
  forS (k + 1) r (fun i s => rcRow t k ir (Flt.div Flt.one (Flt.sqrt d)) (Flt.div Flt.one d) i s) { s with b := b }

/-- `/repo/rectangular_cholesky_decomposition.go:47-112`. -/
def rcStep (small : α) (t : Sl) {r : Nat} (k : Nat) (s : RcRest α r) : HM α (RcRest α r ⊕ Nat × RcRest α r) := do
  let q ← rcBest t k s
  let s ← rcSwap k q s
  let ir ← lift (s.index.get k)
  let d ← get t ir ir
  if Flt.le d small then
    if k = 0 then lift (.error (.err .small))
    else do
      rcRest small t k s
      pure (.inr (k, s))
  else do
    let s ← rcTransform t k s
    pure (.inl s)

/-- `/repo/rectangular_cholesky_decomposition.go:37-114` for the slice `t` (the local variable `c`). -/
def rcWork (small : α) (t : Sl) (r : Nat) : HM α (Nat × RcRest α r) := do
  let p ← lift (forUp 0 r (fun row (p : Row Nat r) => p.set row row) ⟨fun _ => 0⟩)
  if r = 0 then lift (.error .rt)
  else do
    let x ← forBrk 0 r (fun k s => rcStep small t k s) ⟨Jag.zero r r, p⟩
    match x with
    | .inl s => pure (r, s)
    | .inr x => pure x

/-! ## Tridiagonal form, `/repo/tridiagonal_transformer.go` -/

/-- `/repo/tridiagonal_transformer.go:188-197`. -/
def triNorm (t : Sl) (r k : Nat) : HM α α := do
  let xNormSqr ← HM.sumUp (k + 1) r (fun j => do
    let x ← get t k j
    pure (Flt.mul x x)) Flt.zero
  let d ← get t k (k + 1)
  if Flt.lt Flt.zero d then pure (Flt.mul (Flt.sqrt xNormSqr) (Flt.neg Flt.one)) else pure (Flt.sqrt xNormSqr)

/-- `/repo/tridiagonal_transformer.go:215-224`. -/
def triZRow (t : Sl) {r : Nat} (k : Nat) (beta : α) (i : Nat) (z : Row α r) : HM α (Row α r) := do
  let hKI ← get t k i
  let d ← get t i i
  let s ← forS (i + 1) r (fun j (s : α × Row α r) => do
    let hIJ ← get t i j
    let hKJ ← get t k j
    let zj ← lift (s.2.get j)
    let z ← lift (s.2.set j (Flt.add zj (Flt.mul hIJ hKI)))
    pure (Flt.add s.1 (Flt.mul hIJ hKJ), z)) (Flt.mul d hKI, z)
  let zi ← lift (s.2.get i)
  lift (s.2.set i (Flt.mul beta (Flt.add zi s.1)))

/-- `/repo/tridiagonal_transformer.go:211-236`. -/
def triZ (t : Sl) {r : Nat} (k : Nat) (beta : α) (z : Row α r) : HM α (Row α r) := do
  let z ← lift (forUp (k + 1) r (fun i (z : Row α r) => z.set i Flt.zero) z)
  let z ← forS (k + 1) r (fun i z => triZRow t k beta i z) z
  let gamma ← HM.sumUp (k + 1) r (fun i => do
    let zi ← lift (z.get i)
    let x ← get t k i
    pure (Flt.mul zi x)) Flt.zero
  forS (k + 1) r (fun i (z : Row α r) => do
    let zi ← lift (z.get i)
    let x ← get t k i
    lift (z.set i (Flt.sub zi (Flt.mul (Flt.mul gamma (Flt.div beta Flt.two)) x)))) z

/-- `/repo/tridiagonal_transformer.go:240-245`. -/
def triUpdate (t : Sl) {r : Nat} (k : Nat) (z : Row α r) : HM α Unit :=
  for' (k + 1) r fun i => for' i r fun j => do
    let x ← get t i j
    let y ← get t k i
    let zj ← lift (z.get j)
    let zi ← lift (z.get i)
    let w ← get t k j
    put t i j (Flt.sub x (Flt.add (Flt.mul y zj) (Flt.mul zi w)))

/-- The slices `main` and `secondary` and the buffer `z`. (/repo/tridiagonal_transformer.go:47-61, 183-186) -/
structure TriRest (α : Type) (r : Nat) where
  main : Row α r
  sec : Row α (r - 1)
  z : Row α r

/-- `/repo/tridiagonal_transformer.go:184-247`. -/
def triStep (t : Sl) {r : Nat} (k : Nat) (s : TriRest α r) : HM α (TriRest α r) := do
  let d ← get t k k
  let main ← lift (s.main.set k d)
  let a ← triNorm t r k
  let sec ← lift (s.sec.set k a)
  if !Flt.eq a Flt.zero then
    let x ← get t k (k + 1)
    put t k (k + 1) (Flt.sub x a)
    let y ← get t k (k + 1)
    let z ← triZ t k (Flt.div (Flt.neg Flt.one) (Flt.mul a y)) s.z
    triUpdate t k z
    pure ⟨main, sec, z⟩
  else pure ⟨main, sec, s.z⟩

/-- `/repo/tridiagonal_transformer.go:55-62, 181-249` for the slice `t` (`ans.householderVectors`). -/
def triWork (t : Sl) (r : Nat) : HM α (TriRest α r) := do
  if r = 0 then lift (.error .rt)
  else do
    let s ← forS 0 (r - 1) (fun k s => triStep t k s) ⟨Row.zero r, Row.zero (r - 1), Row.zero r⟩
    let d ← get t (r - 1) (r - 1)
    let main ← lift (s.main.set (r - 1) d)
    pure { s with main := main }

/-! ## Hessenberg form, `/repo/hessenberg_transformer.go` -/

/-- `/repo/hessenberg_transformer.go:186-190`. -/
def hessColumn (t : Sl) {r : Nat} (m : Nat) (scale : α) (ort : Row α r) : HM α (α × Row α r) :=
  forDownS r m (fun i (s : α × Row α r) => do
    let x ← get t i (m - 1)
    let ort ← lift (s.2.set i (Flt.div x scale))
    let u ← lift (ort.get i)
    let v ← lift (ort.get i)
    pure (Flt.add s.1 (Flt.mul u v), ort)) (Flt.zero, ort)

/-- `/repo/hessenberg_transformer.go:203-210`. -/
def hessLeft (t : Sl) {r : Nat} (m : Nat) (h : α) (ort : Row α r) (j : Nat) : HM α Unit := do
  let f ← HM.sumDown r m (fun i => do
    let o ← lift (ort.get i)
    let x ← get t i j
    pure (Flt.mul o x)) Flt.zero
  for' m r fun i => do
    let x ← get t i j
    let o ← lift (ort.get i)
    put t i j (Flt.sub x (Flt.mul (Flt.div f h) o))

/-- `/repo/hessenberg_transformer.go:214-221`. -/
def hessRight (t : Sl) {r : Nat} (m : Nat) (h : α) (ort : Row α r) (i : Nat) : HM α Unit := do
  let f ← HM.sumDown r m (fun j => do
    let o ← lift (ort.get j)
    let x ← get t i j
    pure (Flt.mul o x)) Flt.zero
  for' m r fun j => do
    let x ← get t i j
    let o ← lift (ort.get j)
    put t i j (Flt.sub x (Flt.mul (Flt.div f h) o))

/-- `/repo/hessenberg_transformer.go:202-225`. -/
def hessReflect (t : Sl) {r : Nat} (m : Nat) (scale g h : α) (ort : Row α r) : HM α (Row α r) := do
  for' m r fun j => hessLeft t m h ort j
  for' 0 r fun i => hessRight t m h ort i
  let o ← lift (ort.get m)
  let ort ← lift (ort.set m (Flt.mul scale o))
  put t m (m - 1) (Flt.mul scale g)
  pure ort

/-- `/repo/hessenberg_transformer.go:191-225`. -/
def hessApply (t : Sl) {r : Nat} (m : Nat) (scale x0 h : α) (ort : Row α r) : HM α (Row α r) := do
  let o ← lift (ort.get m)
  let ort ← lift (ort.set m (Flt.sub o (Hess.sign x0 h)))
  hessReflect t m scale (Hess.sign x0 h) (Flt.sub h (Flt.mul x0 (Hess.sign x0 h))) ort

/-- `/repo/hessenberg_transformer.go:177-227`. -/
def hessStep (t : Sl) {r : Nat} (m : Nat) (ort : Row α r) : HM α (Row α r) := do
  let scale ← HM.sumUp m r (fun i => do
    let x ← get t i (m - 1)
    pure (Flt.abs x)) Flt.zero
  if !Flt.ulpEq scale Flt.zero then
    let ho ← hessColumn t m scale ort
    let x0 ← lift (ho.2.get m)
    hessApply t m scale x0 ho.1 ho.2
  else pure ort

/-- `/repo/hessenberg_transformer.go:55-60, 173-228` for the slice `t` (`ans.householderVectors`). -/
def hessWork (t : Sl) (r : Nat) : HM α (Row α r) :=
  forS 1 (r - 1) (fun m ort => hessStep t m ort) (Row.zero r)

/-! ## Bidiagonal form, `/repo/bidiagonal_transformer.go` -/

/-- `/repo/bidiagonal_transformer.go:212-221, 308-318`. -/
def biColApply (t : Sl) (m i0 k : Nat) (a : α) (j : Nat) : HM α Unit := do
  let alpha ← HM.subUp i0 m (fun i => do
    let x ← get t i j
    let y ← get t i k
    pure (Flt.mul x y)) Flt.zero
  let den ← get t i0 k
  for' i0 m fun i => do
    let x ← get t i j
    let y ← get t i k
    put t i j (Flt.sub x (Flt.mul (Flt.div alpha (Flt.mul a den)) y))

/-- `/repo/bidiagonal_transformer.go:195-223, 292-319`. -/
def biColPass (t : Sl) (m n i0 k : Nat) : HM α α := do
  let sqr ← HM.sumUp i0 m (fun i => do
    let c ← get t i k
    pure (Flt.mul c c)) Flt.zero
  let x0 ← get t i0 k
  if !Flt.eq (Bi.sign x0 sqr) Flt.zero then
    let x ← get t i0 k
    put t i0 k (Flt.sub x (Bi.sign x0 sqr))
    for' (k + 1) n fun j => biColApply t m i0 k (Bi.sign x0 sqr) j
    pure (Bi.sign x0 sqr)
  else pure (Bi.sign x0 sqr)

/-- `/repo/bidiagonal_transformer.go:242-250, 278-286`. -/
def biRowApply (t : Sl) (n k j0 : Nat) (a : α) (i : Nat) : HM α Unit := do
  let beta ← HM.subUp j0 n (fun j => do
    let x ← get t i j
    let y ← get t k j
    pure (Flt.mul x y)) Flt.zero
  let den ← get t k j0
  for' j0 n fun j => do
    let x ← get t i j
    let y ← get t k j
    put t i j (Flt.sub x (Flt.mul (Flt.div beta (Flt.mul a den)) y))

/-- `/repo/bidiagonal_transformer.go:227-252, 262-288`. -/
def biRowPass (t : Sl) (m n k j0 : Nat) : HM α α := do
  let sqr ← HM.sumUp j0 n (fun j => do
    let c ← get t k j
    pure (Flt.mul c c)) Flt.zero
  let x0 ← get t k j0
  if !Flt.eq (Bi.sign x0 sqr) Flt.zero then
    let x ← get t k j0
    put t k j0 (Flt.sub x (Bi.sign x0 sqr))
    for' (k + 1) m fun i => biRowApply t n k j0 (Bi.sign x0 sqr) i
    pure (Bi.sign x0 sqr)
  else pure (Bi.sign x0 sqr)

/-- The slices `main` and `secondary`. (/repo/bidiagonal_transformer.go:13-29) -/
structure BiRest (α : Type) (m n : Nat) where
  main : Row α (min m n)
  sec : Row α (min m n - 1)

/-- `/repo/bidiagonal_transformer.go:193-254`. -/
def biUpStep (t : Sl) {m n : Nat} (k : Nat) (s : BiRest α m n) : HM α (BiRest α m n) := do
  let a ← biColPass t m n k k
  let main ← lift (s.main.set k a)
  if k + 1 < n then
    let b ← biRowPass t m n k (k + 1)
    let sec ← lift (s.sec.set k b)
    pure ⟨main, sec⟩
  else pure ⟨main, s.sec⟩

/-- `/repo/bidiagonal_transformer.go:260-322`. -/
def biLowStep (t : Sl) {m n : Nat} (k : Nat) (s : BiRest α m n) : HM α (BiRest α m n) := do
  let a ← biRowPass t m n k k
  let main ← lift (s.main.set k a)
  if k + 1 < m then
    let b ← biColPass t m n (k + 1) k
    let sec ← lift (s.sec.set k b)
    pure ⟨main, sec⟩
  else pure ⟨main, s.sec⟩

/-- `/repo/bidiagonal_transformer.go:19-28` for the slice `t` (`ans.householderVectors`). -/
def biWork (t : Sl) (m n : Nat) : HM α (BiRest α m n) :=
  if min m n = 0 then lift (.error .rt)
  else if n ≤ m then forS 0 n (fun k s => biUpStep t k s) ⟨Row.zero _, Row.zero _⟩
  else forS 0 m (fun k s => biLowStep t k s) ⟨Row.zero _, Row.zero _⟩

end Heap

end Linear
