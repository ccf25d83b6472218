import Verif.Model.Hess

/-!
# Schur form (`/repo/schur_transformer.go`)

The outer loop of `transform` has no bound of its own in the code, so it is modelled with fuel: `none` means
that the fuel ran out. `C40_ends` shows that this does not happen once the fuel reaches `101 * n`.
The numeric literals `doubleeps`, `0.75`, `-0.4375` and `0.964` are the fields of a parameter, so the theorems
hold for every value of them. `P()`, `PT()` and `T()` build a matrix once and return the same one at each later
call; here they are recomputed.
-/

namespace Linear

variable {α : Type} [Flt α] {n : Nat}

/-- The literals of the algorithm: `doubleeps` (`/repo/eigen_decomposition.go:25`), `0.75` and `-0.4375`
(`/repo/schur_transformer.go:252-254`), `0.964` (`/repo/schur_transformer.go:271-273`). -/
structure Schur.Lit (α : Type) where
  eps : α
  c75 : α
  c4375 : α
  c964 : α

/-- `SchurTransformer`, `/repo/schur_transformer.go:39-42`. -/
structure Schur (α : Type) (n : Nat) where
  t : Tab α n n
  p : Tab α n n

/-- `ShiftInfo`, `/repo/schur_transformer.go:401-403`. -/
structure Schur.Shift (α : Type) where
  x : α
  y : α
  w : α
  ex : α

/-- `norm`, `/repo/schur_transformer.go:203-212`. -/
def Schur.norm (t : Tab α n n) : Res α :=
  forUp 0 n (fun i s => sumUp (i - 1) n (fun j => do return Flt.abs (← t.get i j)) s) Flt.zero

/-- The reference size of an entry below the diagonal, `/repo/schur_transformer.go:220-223`. -/
def Schur.scale (norm a b : α) : α :=
  if Flt.eq (Flt.add (Flt.abs a) (Flt.abs b)) Flt.zero then norm else Flt.add (Flt.abs a) (Flt.abs b)

/-- `findSmallSubDiagonalElement`, `/repo/schur_transformer.go:217-230`; the argument is `l`. -/
def Schur.find (eps norm : α) (t : Tab α n n) : Nat → Res Nat
  | 0 => pure 0
  | l + 1 => do
    let a ← t.get l l
    let b ← t.get (l + 1) (l + 1)
    let x ← t.get (l + 1) l
    if Flt.lt (Flt.abs x) (Flt.mul eps (Schur.scale norm a b)) then return l + 1
    else Schur.find eps norm t l

/-- `for i := 0; i <= idx; i++ { T[i][i] -= x }`, `/repo/schur_transformer.go:248-250, 267-269`. -/
def Schur.lower (idx : Nat) (x : α) (t : Tab α n n) : Res (Tab α n n) :=
  forUp 0 (idx + 1) (fun i (t : Tab α n n) => do t.set i i (Flt.sub (← t.get i i) x)) t

/-- The first shift, `/repo/schur_transformer.go:237-243`. -/
def Schur.shift0 (l idx : Nat) (t : Tab α n n) (ex : α) : Res (Schur.Shift α) := do
  let x ← t.get idx idx
  if l < idx then
    let y ← t.get (idx - 1) (idx - 1)
    let a ← t.get idx (idx - 1)
    let b ← t.get (idx - 1) idx
    return ⟨x, y, Flt.mul a b, ex⟩
  else return ⟨x, Flt.zero, Flt.zero, ex⟩

/-- The shift at iteration 10, `/repo/schur_transformer.go:247-254`. -/
def Schur.shift10 (κ : Schur.Lit α) (idx : Nat) (t : Tab α n n) (h : Schur.Shift α) :
    Res (Tab α n n × Schur.Shift α) := do
  let t ← Schur.lower idx h.x t
  let a ← t.get idx (idx - 1)
  let b ← t.get (idx - 1) (idx - 2)
  return (t, ⟨Flt.mul κ.c75 (Flt.add (Flt.abs a) (Flt.abs b)), Flt.mul κ.c75 (Flt.add (Flt.abs a) (Flt.abs b)),
    Flt.mul (Flt.mul κ.c4375 (Flt.add (Flt.abs a) (Flt.abs b))) (Flt.add (Flt.abs a) (Flt.abs b)),
    Flt.add h.ex h.x⟩)

/-- `s` of `/repo/schur_transformer.go:259-260`. -/
def Schur.disc (h : Schur.Shift α) : α :=
  Flt.add (Flt.mul (Flt.div (Flt.sub h.y h.x) Flt.two) (Flt.div (Flt.sub h.y h.x) Flt.two)) h.w

/-- The amount taken from the diagonal at iteration 30, `/repo/schur_transformer.go:262-266`. -/
def Schur.amount (h : Schur.Shift α) : α :=
  Flt.sub h.x (Flt.div h.w (Flt.add (Flt.div (Flt.sub h.y h.x) Flt.two)
    (if Flt.lt h.y h.x then Flt.neg (Flt.sqrt (Schur.disc h)) else Flt.sqrt (Schur.disc h))))

/-- The shift at iteration 30, `/repo/schur_transformer.go:259-274`. -/
def Schur.shift30 (κ : Schur.Lit α) (idx : Nat) (t : Tab α n n) (h : Schur.Shift α) :
    Res (Tab α n n × Schur.Shift α) := do
  if Flt.lt Flt.zero (Schur.disc h) then
    let t ← Schur.lower idx (Schur.amount h) t
    return (t, ⟨κ.c964, κ.c964, κ.c964, Flt.add h.ex (Schur.amount h)⟩)
  else return (t, h)

/-- `computeShift`, `/repo/schur_transformer.go:235-276`. The two `if`s exclude each other. The fields `x`, `y`, `w` of the old
shift are overwritten before they are read, so only `exShift` is passed. -/
def Schur.computeShift (κ : Schur.Lit α) (l idx iteration : Nat) (t : Tab α n n) (ex : α) :
    Res (Tab α n n × Schur.Shift α) := do
  let h ← Schur.shift0 l idx t ex
  if iteration = 10 then Schur.shift10 κ idx t h
  else if iteration = 30 then Schur.shift30 κ idx t h
  else return (t, h)

/-- `hVec`, `/repo/schur_transformer.go:285-290`. -/
def Schur.hVec (t : Tab α n n) (h : Schur.Shift α) (im : Nat) : Res (α × α × α) := do
  let z ← t.get im im
  let a ← t.get (im + 1) im
  let b ← t.get im (im + 1)
  let c ← t.get (im + 1) (im + 1)
  let d ← t.get (im + 2) (im + 1)
  return (Flt.add (Flt.div (Flt.sub (Flt.mul (Flt.sub h.x z) (Flt.sub h.y z)) h.w) a) b,
    Flt.sub (Flt.sub (Flt.sub c z) (Flt.sub h.x z)) (Flt.sub h.y z), d)

/-- The test of `/repo/schur_transformer.go:296-301` (`im ≥ 1`). -/
def Schur.twoSmall (eps : α) (t : Tab α n n) (im : Nat) (v : α × α × α) : Res Bool := do
  let a ← t.get im (im - 1)
  let b ← t.get (im - 1) (im - 1)
  let z ← t.get im im
  let c ← t.get (im + 1) (im + 1)
  return Flt.lt (Flt.mul (Flt.abs a) (Flt.add (Flt.abs v.2.1) (Flt.abs v.2.2)))
    (Flt.mul eps (Flt.mul (Flt.abs v.1) (Flt.add (Flt.add (Flt.abs b) (Flt.abs z)) (Flt.abs c))))

/-- `initQRStep`, `/repo/schur_transformer.go:281-308`; the last argument is `im - il`. The loop starts at `im = iu - 2 ≥ il`, so its
body runs at least once and it is left by one of the two `break`s. -/
def Schur.initQR (eps : α) (t : Tab α n n) (h : Schur.Shift α) (il : Nat) : Nat → Res (Nat × α × α × α)
  | 0 => do return (il, ← Schur.hVec t h il)
  | d + 1 => do
    let v ← Schur.hVec t h (il + (d + 1))
    if ← Schur.twoSmall eps t (il + (d + 1)) v then return (il + (d + 1), v)
    else Schur.initQR eps t h il d

/-- The combination of rows or columns subtracted by a reflection of three of them (`nl`) or of two,
`/repo/schur_transformer.go:358-360, 369-371, 381-383`. -/
def Schur.comb (nl : Bool) (a b c : α) : α := if nl then Flt.add (Flt.add a b) c else Flt.add a b

/-- Body of the row modification, `/repo/schur_transformer.go:358-364`. -/
def Schur.rowBody (k : Nat) (nl : Bool) (q r x y z : α) (j : Nat) (t : Tab α n n) : Res (Tab α n n) := do
  let a ← t.get k j
  let b ← t.get (k + 1) j
  let c ← if nl then t.get (k + 2) j else pure Flt.zero
  let t ← if nl then t.set (k + 2) j (Flt.sub c (Flt.mul (Schur.comb nl a (Flt.mul q b) (Flt.mul r c)) z))
    else pure t
  let t ← t.set k j (Flt.sub a (Flt.mul (Schur.comb nl a (Flt.mul q b) (Flt.mul r c)) x))
  t.set (k + 1) j (Flt.sub b (Flt.mul (Schur.comb nl a (Flt.mul q b) (Flt.mul r c)) y))

/-- Body of the column modification, `/repo/schur_transformer.go:369-375` for `matrixT` and 381-387 for `matrixP`. -/
def Schur.colBody (k : Nat) (nl : Bool) (q r x y z : α) (i : Nat) (t : Tab α n n) : Res (Tab α n n) := do
  let a ← t.get i k
  let b ← t.get i (k + 1)
  let c ← if nl then t.get i (k + 2) else pure Flt.zero
  let t ← if nl then
      t.set i (k + 2) (Flt.sub c (Flt.mul (Schur.comb nl (Flt.mul x a) (Flt.mul y b) (Flt.mul z c)) r))
    else pure t
  let t ← t.set i k (Flt.sub a (Schur.comb nl (Flt.mul x a) (Flt.mul y b) (Flt.mul z c)))
  t.set i (k + 1) (Flt.sub b (Flt.mul (Schur.comb nl (Flt.mul x a) (Flt.mul y b) (Flt.mul z c)) q))

/-- The three modifications, `/repo/schur_transformer.go:356-388`. -/
def Schur.modify (iu k : Nat) (nl : Bool) (q r x y z : α) (s : Schur α n) : Res (Schur α n) := do
  let t ← forUp k n (Schur.rowBody k nl q r x y z) s.t
  let t ← forUp 0 (min iu (k + 3) + 1) (Schur.colBody k nl q r x y z) t
  let p ← forUp 0 n (Schur.colBody k nl q r x y z) s.p
  return ⟨t, p⟩

/-- The signed norm of the reflector, `/repo/schur_transformer.go:339-342`. -/
def Schur.sgnNorm (p q r : α) : α :=
  if Flt.lt p Flt.zero then Flt.neg (Flt.sqrt (Flt.add (Flt.add (Flt.mul p p) (Flt.mul q q)) (Flt.mul r r)))
  else Flt.sqrt (Flt.add (Flt.add (Flt.mul p p) (Flt.mul q q)) (Flt.mul r r))

/-- The entry left of the reflected block, `/repo/schur_transformer.go:344-348`; `x` is `shift.x`. -/
def Schur.left (il im k : Nat) (sn x : α) (t : Tab α n n) : Res (Tab α n n) := do
  if k ≠ im then t.set k (k - 1) (Flt.mul (Flt.neg sn) x)
  else if il ≠ im then t.set k (k - 1) (Flt.neg (← t.get k (k - 1)))
  else return t

/-- `/repo/schur_transformer.go:343-389` for a given signed norm. -/
def Schur.reflect (il im iu k : Nat) (p q r sn x : α) (s : Schur α n) : Res (Schur α n) := do
  if !Flt.eq sn Flt.zero then
    let t ← Schur.left il im k sn x s.t
    Schur.modify iu k (k ≠ iu - 1) (Flt.div q (Flt.add p sn)) (Flt.div r (Flt.add p sn))
      (Flt.div (Flt.add p sn) sn) (Flt.div q sn) (Flt.div r sn) ⟨t, s.p⟩
  else return s

/-- One round of `performDoubleQRStep`, `/repo/schur_transformer.go:321-389`; `v` is `hVec`, `hx` is `shift.x` on entry, which is read
only where it was just written. -/
def Schur.qrRound (eps : α) (il im iu : Nat) (v : α × α × α) (k : Nat) (s : Schur α n) : Res (Schur α n) := do
  if k ≠ im then
    let p ← s.t.get k (k - 1)
    let q ← s.t.get (k + 1) (k - 1)
    let r ← if k ≠ iu - 1 then s.t.get (k + 2) (k - 1) else pure Flt.zero
    if equalsWithError (Flt.add (Flt.add (Flt.abs p) (Flt.abs q)) (Flt.abs r)) Flt.zero eps then return s
    else
      Schur.reflect il im iu k (Flt.div p (Flt.add (Flt.add (Flt.abs p) (Flt.abs q)) (Flt.abs r)))
        (Flt.div q (Flt.add (Flt.add (Flt.abs p) (Flt.abs q)) (Flt.abs r)))
        (Flt.div r (Flt.add (Flt.add (Flt.abs p) (Flt.abs q)) (Flt.abs r)))
        (Schur.sgnNorm (Flt.div p (Flt.add (Flt.add (Flt.abs p) (Flt.abs q)) (Flt.abs r)))
          (Flt.div q (Flt.add (Flt.add (Flt.abs p) (Flt.abs q)) (Flt.abs r)))
          (Flt.div r (Flt.add (Flt.add (Flt.abs p) (Flt.abs q)) (Flt.abs r))))
        (Flt.add (Flt.add (Flt.abs p) (Flt.abs q)) (Flt.abs r)) s
  else Schur.reflect il im iu k v.1 v.2.1 v.2.2 (Schur.sgnNorm v.1 v.2.1 v.2.2) Flt.zero s

/-- The final clearing, `/repo/schur_transformer.go:393-398`. -/
def Schur.clear (im iu : Nat) (t : Tab α n n) : Res (Tab α n n) :=
  forUp (im + 2) (iu + 1) (fun i (t : Tab α n n) => do
    let t ← t.set i (i - 2) Flt.zero
    if i > im + 2 then t.set i (i - 3) Flt.zero else pure t) t

/-- `performDoubleQRStep`, `/repo/schur_transformer.go:313-399`. -/
def Schur.qrStep (eps : α) (il im iu : Nat) (v : α × α × α) (s : Schur α n) : Res (Schur α n) := do
  let s ← forUp im iu (Schur.qrRound eps il im iu v) s
  let t ← Schur.clear im iu s.t
  return ⟨t, s.p⟩

/-- Rotation of rows `k` and `k + 1` in column `j`, `/repo/schur_transformer.go:160-162`. -/
def Schur.rotRow (k : Nat) (p q : α) (j : Nat) (t : Tab α n n) : Res (Tab α n n) := do
  let a ← t.get k j
  let b ← t.get (k + 1) j
  let t ← t.set k j (Flt.add (Flt.mul q a) (Flt.mul p b))
  t.set (k + 1) j (Flt.sub (Flt.mul q b) (Flt.mul p a))

/-- Rotation of columns `k` and `k + 1` in row `i`, `/repo/schur_transformer.go:167-169` for `matrixT`, 174-176 for `matrixP`. -/
def Schur.rotCol (k : Nat) (p q : α) (i : Nat) (t : Tab α n n) : Res (Tab α n n) := do
  let a ← t.get i k
  let b ← t.get i (k + 1)
  let t ← t.set i k (Flt.add (Flt.mul q a) (Flt.mul p b))
  t.set i (k + 1) (Flt.sub (Flt.mul q b) (Flt.mul p a))

/-- The three rotations, `/repo/schur_transformer.go:158-177`, with `k = iu - 1`. -/
def Schur.rotate (k : Nat) (p q : α) (s : Schur α n) : Res (Schur α n) := do
  let t ← forUp k n (Schur.rotRow k p q) s.t
  let t ← forUp 0 (k + 2) (Schur.rotCol k p q) t
  let p ← forUp 0 n (Schur.rotCol k p q) s.p
  return ⟨t, p⟩

/-- The normalisation of the rotation, `/repo/schur_transformer.go:151-156`. -/
def Schur.unit (x z : α) : α × α :=
  (Flt.div (Flt.div x (Flt.add (Flt.abs x) (Flt.abs z))) (Flt.sqrt (Flt.add
      (Flt.mul (Flt.div x (Flt.add (Flt.abs x) (Flt.abs z))) (Flt.div x (Flt.add (Flt.abs x) (Flt.abs z))))
      (Flt.mul (Flt.div z (Flt.add (Flt.abs x) (Flt.abs z))) (Flt.div z (Flt.add (Flt.abs x) (Flt.abs z)))))),
    Flt.div (Flt.div z (Flt.add (Flt.abs x) (Flt.abs z))) (Flt.sqrt (Flt.add
      (Flt.mul (Flt.div x (Flt.add (Flt.abs x) (Flt.abs z))) (Flt.div x (Flt.add (Flt.abs x) (Flt.abs z))))
      (Flt.mul (Flt.div z (Flt.add (Flt.abs x) (Flt.abs z))) (Flt.div z (Flt.add (Flt.abs x) (Flt.abs z)))))))

/-- `z` of `/repo/schur_transformer.go:144-149`. -/
def Schur.root (p q : α) : α :=
  if Flt.le Flt.zero p then Flt.add p (Flt.sqrt (Flt.abs q)) else Flt.sub p (Flt.sqrt (Flt.abs q))

/-- `/repo/schur_transformer.go:143-178` for given `p` and `q`, with `k = iu - 1`. -/
def Schur.pairRot (k : Nat) (p q : α) (s : Schur α n) : Res (Schur α n) := do
  if Flt.le Flt.zero q then
    let x ← s.t.get (k + 1) k
    Schur.rotate k (Schur.unit x (Schur.root p q)).1 (Schur.unit x (Schur.root p q)).2 s
  else return s

/-- Two roots found, `/repo/schur_transformer.go:138-178`, with `k = iu - 1`. -/
def Schur.pair (k : Nat) (ex : α) (s : Schur α n) : Res (Schur α n) := do
  let a ← s.t.get k k
  let b ← s.t.get k (k + 1)
  let c ← s.t.get (k + 1) k
  let d ← s.t.get (k + 1) (k + 1)
  let t ← s.t.set (k + 1) (k + 1) (Flt.add d ex)
  let t ← t.set k k (Flt.add (← t.get k k) ex)
  Schur.pairRot k (Flt.div (Flt.sub a d) Flt.two)
    (Flt.add (Flt.mul (Flt.div (Flt.sub a d) Flt.two) (Flt.div (Flt.sub a d) Flt.two)) (Flt.mul c b)) ⟨t, s.p⟩

/-- One root found, `/repo/schur_transformer.go:133`. -/
def Schur.single (iu : Nat) (ex : α) (s : Schur α n) : Res (Schur α n) := do
  let t ← s.t.set iu iu (Flt.add (← s.t.get iu iu) ex)
  return ⟨t, s.p⟩

/-- The loop of `transform`, `/repo/schur_transformer.go:125-197`: the arguments are the fuel, `iu + 1`, `iteration`, `shift.exShift`
and the two tables. `none` when the fuel runs out. -/
def Schur.loop (κ : Schur.Lit α) (norm : α) : Nat → Nat → Nat → α → Schur α n → Res (Option (Schur α n))
  | _, 0, _, _, s => pure (some s)
  | 0, _ + 1, _, _, _ => pure none
  | f + 1, iu + 1, it, ex, s => do
    let il ← Schur.find κ.eps norm s.t iu
    if il = iu then
      let s ← Schur.single iu ex s
      Schur.loop κ norm f iu 0 ex s
    else if il + 1 = iu then
      let s ← Schur.pair (iu - 1) ex s
      Schur.loop κ norm f (iu - 1) 0 ex s
    else
      let th ← Schur.computeShift κ il iu it s.t ex
      if it + 1 > 100 then throw (.pan .maxIter)
      else
        let v ← Schur.initQR κ.eps th.1 th.2 il (iu - 2 - il)
        let s ← Schur.qrStep κ.eps il v.1 iu v.2 ⟨th.1, s.p⟩
        Schur.loop κ norm f (iu + 1) (it + 1) th.2.ex s

/-- The `n × n` table of a matrix built from `n` rows of length `n`; any other shape does not occur, because
`H` and `P` build theirs from such rows. (/repo/schur_transformer.go:44-60) -/
def Schur.tab (n : Nat) (m : SMat α) : Res (Tab α n n) := do
  if m.r = n ∧ m.c = n then return ⟨(← m.m.dataCopy).f⟩ else throw .rt

/-- `NewSchurTransformer` with `transform`, `/repo/schur_transformer.go:44-60, 113-123`. -/
def Schur.new {c : Nat} (κ : Schur.Lit α) (fuel : Nat) (a : Mat α n c) : Res (Option (Schur α n)) := do
  if !(← a.isSquare) then throw (.err .sqMat)
  let h ← Hess.new a
  let t ← Schur.tab n (← h.h)
  let p ← Schur.tab n (← h.p)
  let norm ← Schur.norm t
  Schur.loop κ norm fuel n 0 Flt.zero ⟨t, p⟩

/-- `P`, `/repo/schur_transformer.go:66-76`. -/
def Schur.pMat (s : Schur α n) : Res (SMat α) := (SMat.fromSlices (some s.p.toLists) false).must

/-- `PT`, `/repo/schur_transformer.go:82-89`. -/
def Schur.ptMat (s : Schur α n) : Res (SMat α) := do
  let t ← s.pMat
  return ⟨t.c, t.r, ← t.m.transpose⟩

/-- `T`, `/repo/schur_transformer.go:96-108`. -/
def Schur.tMat (s : Schur α n) : Res (SMat α) := (SMat.fromSlices (some s.t.toLists) false).must

end Linear
