import Verif.Model.Schur
import Verif.Model.Tri
import Verif.Model.Vector
import Verif.Model.DiaOps

/-!
# Eigen decomposition (`/repo/eigen_decomposition.go`)

`doubleeps` and `eps_ed` are parameters. `eigenvectors[k]` is row `k` of a table. `V()`, `D()` and `VT()`
build a matrix once and return the same one at each later call; here they are recomputed.
-/

namespace Linear

variable {α : Type} [Flt α] {n : Nat}

/-- `isSymmetric`, `/repo/utils.go:35-63` (the variant that does not panic). -/
def isSymmetric {r c : Nat} (a : Mat α r c) (tol : α) : Res Bool := do
  if r ≠ (← a.colDim) then return false
  let s ← forUpBrk 0 r (fun i (_ : Unit) => do
    let t ← forUpBrk (i + 1) r (fun j (_ : Unit) => do
      let x ← a.at i j
      let y ← a.at j i
      return if Flt.lt (Flt.mul (Flt.fmax (Flt.abs x) (Flt.abs y)) tol) (Flt.abs (Flt.sub x y)) then .inr ()
        else .inl ()) ()
    return t) ()
  return match s with | .inl _ => true | .inr _ => false

/-- `compareTo`, `/repo/utils.go:65-72`. -/
def compareTo (x y eps : α) : Int :=
  if equalsWithError x y eps then 0 else if Flt.lt x y then -1 else 1

/-- `EigenDecomposition`, `/repo/eigen_decomposition.go:62-69`, without the fields that only serve the construction. -/
structure Eig (α : Type) (n : Nat) where
  re : Row α n
  im : Row α n
  vec : Tab α n n
  sym : Bool

/-! ## The symmetric case: `findEigenVectors`, lines 331-490 -/

/-- `if math.Abs(x) > max { max = math.Abs(x) }`, `/repo/eigen_decomposition.go:354-359, 467-469`. -/
def Eig.grow (mx x : α) : α := if Flt.lt mx (Flt.abs x) then Flt.abs x else mx

/-- The copies `realEigenvalues` and `e` of the two diagonals, `/repo/eigen_decomposition.go:341-349`. -/
def Eig.diagonals {l : Nat} (main : Row α n) (sec : Row α l) : Res (Row α n × Row α n) := do
  if n = 0 then throw .rt
  let s ← forUp 0 (n - 1) (fun i (s : Row α n × Row α n) => do
    let d ← s.1.set i (← main.get i)
    let e ← s.2.set i (← sec.get i)
    return (d, e)) (Row.zero n, Row.zero n)
  let d ← s.1.set (n - 1) (← main.get (n - 1))
  let e ← s.2.set (n - 1) Flt.zero
  return (d, e)

/-- `if math.Abs(v[i]) <= thr { v[i] = 0 }`, `/repo/eigen_decomposition.go:364-369`. -/
def Eig.cutLe (thr : α) (i : Nat) (v : Row α n) : Res (Row α n) := do
  if Flt.le (Flt.abs (← v.get i)) thr then v.set i Flt.zero else pure v

/-- The removal of insignificant entries of both diagonals, `/repo/eigen_decomposition.go:352-371`. -/
def Eig.null2 (eps : α) (s : Row α n × Row α n) : Res (Row α n × Row α n) := do
  let mx ← forUp 0 n (fun i mx => do
    return Eig.grow (Eig.grow mx (← s.1.get i)) (← s.2.get i)) Flt.zero
  if !Flt.eq mx Flt.zero then
    forUp 0 n (fun i (s : Row α n × Row α n) => do
      let d ← Eig.cutLe (Flt.mul eps mx) i s.1
      let e ← Eig.cutLe (Flt.mul eps mx) i s.2
      return (d, e)) s
  else pure s

/-- The search for a negligible entry `e[m]`, `/repo/eigen_decomposition.go:377-383`: `m` runs up to `m + k`. -/
def Eig.find (d e : Row α n) : Nat → Nat → Res Nat
  | 0, m => pure m
  | k + 1, m => do
    let x ← d.get m
    let y ← d.get (m + 1)
    let z ← e.get m
    if Flt.eq (Flt.add (Flt.abs z) (Flt.add (Flt.abs x) (Flt.abs y))) (Flt.add (Flt.abs x) (Flt.abs y)) then
      return m
    else Eig.find d e k (m + 1)

/-- The vectors and the two diagonals. (/repo/eigen_decomposition.go:331-345) -/
structure Eig.St (α : Type) (n : Nat) where
  z : Tab α n n
  d : Row α n
  e : Row α n

/-- The variables of the sweep, `/repo/eigen_decomposition.go:389-400`. -/
structure Eig.Sw (α : Type) (n : Nat) where
  z : Tab α n n
  d : Row α n
  e : Row α n
  q : α
  u : α
  s : α
  c : α
  t : α

/-- A plane rotation: the value stored in `e[i+1]`, then `s`, `c` and `t`. (/repo/eigen_decomposition.go:400-416) -/
structure Eig.Rot (α : Type) where
  r : α
  s : α
  c : α
  t : α

/-- `/repo/eigen_decomposition.go:404-408`, where `c` is already `q / p`. -/
def Eig.rotP (p c : α) : Eig.Rot α :=
  ⟨Flt.mul p (Flt.sqrt (Flt.add (Flt.mul c c) Flt.one)),
   Flt.div Flt.one (Flt.sqrt (Flt.add (Flt.mul c c) Flt.one)),
   Flt.mul c (Flt.div Flt.one (Flt.sqrt (Flt.add (Flt.mul c c) Flt.one))),
   Flt.sqrt (Flt.add (Flt.mul c c) Flt.one)⟩

/-- `/repo/eigen_decomposition.go:410-414`, where `s` is already `p / q`. -/
def Eig.rotQ (q s : α) : Eig.Rot α :=
  ⟨Flt.mul q (Flt.sqrt (Flt.add (Flt.mul s s) Flt.one)),
   Flt.mul s (Flt.div Flt.one (Flt.sqrt (Flt.add (Flt.mul s s) Flt.one))),
   Flt.div Flt.one (Flt.sqrt (Flt.add (Flt.mul s s) Flt.one)),
   Flt.sqrt (Flt.add (Flt.mul s s) Flt.one)⟩

/-- The choice of the rotation, `/repo/eigen_decomposition.go:403-415`. -/
def Eig.rot (p q : α) : Eig.Rot α :=
  if Flt.le (Flt.abs q) (Flt.abs p) then Eig.rotP p (Flt.div q p) else Eig.rotQ q (Flt.div p q)

/-- The rotation of columns `i` and `i + 1` of `z`, `/repo/eigen_decomposition.go:426-430`. -/
def Eig.turnZ (i : Nat) (s c : α) (z : Tab α n n) : Res (Tab α n n) :=
  forUp 0 n (fun ia (z : Tab α n n) => do
    let p ← z.get ia (i + 1)
    let z ← z.set ia (i + 1) (Flt.add (Flt.mul s (← z.get ia i)) (Flt.mul c p))
    z.set ia i (Flt.sub (Flt.mul c (← z.get ia i)) (Flt.mul s p))) z

/-- `/repo/eigen_decomposition.go:421-430` for given `h`, `q = d[i+1] - u` and `t`. -/
def Eig.bulgeT (i : Nat) (h q t : α) (w : Eig.Sw α n) : Res (Eig.Sw α n) := do
  let d ← w.d.set (i + 1) (Flt.add q (Flt.mul w.s t))
  let z ← Eig.turnZ i w.s w.c w.z
  return ⟨z, d, w.e, Flt.sub (Flt.mul w.c t) h, Flt.mul w.s t, w.s, w.c, t⟩

/-- `/repo/eigen_decomposition.go:421-430` for given `h` and `q = d[i+1] - u`. -/
def Eig.bulgeQ (i : Nat) (h q : α) (w : Eig.Sw α n) : Res (Eig.Sw α n) := do
  let di ← w.d.get i
  Eig.bulgeT i h q (Flt.add (Flt.mul (Flt.sub di q) w.s) (Flt.mul (Flt.mul Flt.two w.c) h)) w

/-- The similarity transformation, `/repo/eigen_decomposition.go:421-430`. -/
def Eig.bulge (i : Nat) (h : α) (w : Eig.Sw α n) : Res (Eig.Sw α n) := do
  let d1 ← w.d.get (i + 1)
  Eig.bulgeQ i h (Flt.sub d1 w.u) w

/-- The rotation `g` is taken over and its first value stored, `/repo/eigen_decomposition.go:403-415`. -/
def Eig.take (i : Nat) (g : Eig.Rot α) (w : Eig.Sw α n) : Res (Eig.Sw α n) := do
  let e ← w.e.set (i + 1) g.r
  return ⟨w.z, w.d, e, w.q, w.u, g.s, g.c, g.t⟩

/-- The way out when `e[i+1]` is zero, `/repo/eigen_decomposition.go:417-419`. -/
def Eig.leave (i m : Nat) (w : Eig.Sw α n) : Res (Eig.Sw α n) := do
  let d ← w.d.set (i + 1) (Flt.sub (← w.d.get (i + 1)) w.u)
  let e ← w.e.set m Flt.zero
  return ⟨w.z, d, e, w.q, w.u, w.s, w.c, w.t⟩

/-- The loop `for i = m - 1; i >= j; i--`, `/repo/eigen_decomposition.go:400-431`: `k` rounds are left and the current `i` is
`j + k - 1`. The answer says whether the loop was left by `break` (that is, whether `i >= j` afterwards). -/
def Eig.sweep (j m : Nat) : Nat → Eig.Sw α n → Res (Bool × Eig.Sw α n)
  | 0, w => pure (false, w)
  | k + 1, w => do
    let ei ← w.e.get (j + k)
    let w' ← Eig.take (j + k) (Eig.rot (Flt.mul w.s ei) w.q) w
    let r ← w'.e.get (j + k + 1)
    if Flt.eq r Flt.zero then
      let w' ← Eig.leave (j + k) m w'
      return (true, w')
    else
      let w' ← Eig.bulge (j + k) (Flt.mul w.c ei) w'
      Eig.sweep j m k w'

/-- `t = sqrt(1 + q*q)`, `/repo/eigen_decomposition.go:390`. -/
def Eig.t0 (q : α) : α := Flt.sqrt (Flt.add Flt.one (Flt.mul q q))

/-- The first `q` of the sweep, `/repo/eigen_decomposition.go:391-395`. -/
def Eig.q0 (dm dj ej q : α) : α :=
  if Flt.lt q Flt.zero then Flt.add (Flt.sub dm dj) (Flt.div ej (Flt.sub q (Eig.t0 q)))
  else Flt.add (Flt.sub dm dj) (Flt.div ej (Flt.add q (Eig.t0 q)))

/-- The end of a sweep, `/repo/eigen_decomposition.go:432-437`: `continue` evaluates the loop condition `m != j`, which holds. -/
def Eig.finish (j m : Nat) (b : Bool) (w : Eig.Sw α n) : Res (Eig.St α n) := do
  if Flt.eq w.t Flt.zero && b then return ⟨w.z, w.d, w.e⟩
  else
    let d ← w.d.set j (Flt.sub (← w.d.get j) w.u)
    let e ← w.e.set j w.q
    let e ← e.set m Flt.zero
    return ⟨w.z, d, e⟩

/-- One sweep from `m` down to `j` with the shift, `/repo/eigen_decomposition.go:389-437`. -/
def Eig.round (j m : Nat) (x : Eig.St α n) : Res (Eig.St α n) := do
  let d1 ← x.d.get (j + 1)
  let dj ← x.d.get j
  let ej ← x.e.get j
  let dm ← x.d.get m
  let bw ← Eig.sweep j m (m - j) ⟨x.z, x.d, x.e,
    Eig.q0 dm dj ej (Flt.div (Flt.sub d1 dj) (Flt.mul Flt.two ej)), Flt.zero, Flt.one, Flt.one,
    Eig.t0 (Flt.div (Flt.sub d1 dj) (Flt.mul Flt.two ej))⟩
  Eig.finish j m bw.1 bw.2

/-- The loop on `its`, `/repo/eigen_decomposition.go:374-440`, with `k` sweeps left of the thirty. -/
def Eig.ql (j : Nat) : Nat → Eig.St α n → Res (Eig.St α n)
  | 0, x => do
    let m ← Eig.find x.d x.e (n - 1 - j) j
    if m = j then return x else throw (.err .maxIter)
  | k + 1, x => do
    let m ← Eig.find x.d x.e (n - 1 - j) j
    if m = j then return x
    else
      let x ← Eig.round j m x
      Eig.ql j k x

/-- The position and value of the largest of `d[i..]`, `/repo/eigen_decomposition.go:445-452`. -/
def Eig.largest (i : Nat) (d : Row α n) : Res (Nat × α) := do
  let p ← d.get i
  forUp (i + 1) n (fun j (kp : Nat × α) => do
    let x ← d.get j
    return if Flt.lt kp.2 x then (j, x) else kp) (i, p)

/-- One step of the selection sort, `/repo/eigen_decomposition.go:445-461`. -/
def Eig.select (i : Nat) (x : Tab α n n × Row α n) : Res (Tab α n n × Row α n) := do
  let kp ← Eig.largest i x.2
  if kp.1 ≠ i then
    let d ← x.2.set kp.1 (← x.2.get i)
    let d ← d.set i kp.2
    let z ← forUp 0 n (fun j (z : Tab α n n) => do
      let p ← z.get j i
      let z ← z.set j i (← z.get j kp.1)
      z.set j kp.1 p) x.1
    return (z, d)
  else pure x

/-- `if math.Abs(v[i]) < thr { v[i] = 0 }`, `/repo/eigen_decomposition.go:474-476`. -/
def Eig.cutLt (thr : α) (i : Nat) (v : Row α n) : Res (Row α n) := do
  if Flt.lt (Flt.abs (← v.get i)) thr then v.set i Flt.zero else pure v

/-- The removal of insignificant eigenvalues, `/repo/eigen_decomposition.go:465-478`. -/
def Eig.null1 (eps : α) (d : Row α n) : Res (Row α n) := do
  let mx ← forUp 0 n (fun i mx => do return Eig.grow mx (← d.get i)) Flt.zero
  if !Flt.eq mx Flt.zero then forUp 0 n (Eig.cutLt (Flt.mul eps mx)) d else pure d

/-- `findEigenVectors`, `/repo/eigen_decomposition.go:331-490`. -/
def Eig.findSym {l : Nat} (eps : α) (main : Row α n) (sec : Row α l) (z : Tab α n n) : Res (Eig α n) := do
  let s ← Eig.diagonals main sec
  let s ← Eig.null2 eps s
  let x ← forUp 0 n (fun j (x : Eig.St α n) => Eig.ql j 30 x) ⟨z, s.1, s.2⟩
  let y ← forUp 0 n Eig.select (x.z, x.d)
  let d ← Eig.null1 eps y.2
  let v ← Tab.build n n (fun i j => y.1.get j i) .rt
  return ⟨d, Row.zero n, v, true⟩

/-- `NewEigenDecompositionFromTridiagonal`, `/repo/eigen_decomposition.go:104-125`. -/
def Eig.ofTri {l : Nat} (eps : α) (main : Row α n) (sec : Row α l) : Res (Eig α n) := do
  let z : Tab α n n ← forUp 0 n (fun i (z : Tab α n n) => z.set i i Flt.one) (Jag.zero n _)
  Eig.findSym eps main sec z

/-- The branch of `NewEigenDecomposition` for symmetric matrices, `/repo/eigen_decomposition.go:80-86`, with `transformToTridiagonal`,
`/repo/eigen_decomposition.go:315-326`. -/
def Eig.newSym {c : Nat} (eps : α) (a : Mat α n c) : Res (Eig α n) := do
  let t ← Tri.new a
  let z ← Schur.tab n (← t.q)
  Eig.findSym eps t.main t.sec z

/-! ## The general case: `transformToSchur` and `findEigenVectorsFromSchur`, lines 495-694 -/

/-- The eigenvalues of one diagonal block of size two, `/repo/eigen_decomposition.go:510-516`: `x + p`, then `z`. -/
def Eig.pair (half tii tij tji tjj : α) : α × α :=
  (Flt.add tjj (Flt.mul half (Flt.sub tii tjj)),
   Flt.sqrt (Flt.abs (Flt.add (Flt.mul (Flt.mul half (Flt.sub tii tjj)) (Flt.mul half (Flt.sub tii tjj)))
     (Flt.mul tji tij))))

/-- The test for a block of size one, `/repo/eigen_decomposition.go:507`. -/
def Eig.isReal (epsEd : α) (t : Tab α n n) (i : Nat) : Res Bool := do
  if i = n - 1 then return true
  let x ← t.get (i + 1) i
  return equalsWithError x Flt.zero epsEd

/-- The loop over the diagonal blocks, `/repo/eigen_decomposition.go:506-519`: `f` bounds the rounds, of which there are at most `n`. -/
def Eig.values (epsEd half : α) (t : Tab α n n) : Nat → Nat → Row α n × Row α n → Res (Row α n × Row α n)
  | 0, _, v => pure v
  | f + 1, i, v => do
    if i ≥ n then return v
    let last ← Eig.isReal epsEd t i
    if last then
      let re ← v.1.set i (← t.get i i)
      Eig.values epsEd half t f (i + 1) (re, v.2)
    else
      let tjj ← t.get (i + 1) (i + 1)
      let tii ← t.get i i
      let tji ← t.get (i + 1) i
      let tij ← t.get i (i + 1)
      let re ← v.1.set i (Eig.pair half tii tij tji tjj).1
      let im ← v.2.set i (Eig.pair half tii tij tji tjj).2
      let re ← re.set (i + 1) (Eig.pair half tii tij tji tjj).1
      let im ← im.set (i + 1) (Flt.neg (Eig.pair half tii tij tji tjj).2)
      Eig.values epsEd half t f (i + 2) (re, im)

/-- The literals of the general case: `doubleeps`, `eps_ed`, `0.5`, and the division of complex numbers of the
Go run-time library. (/repo/eigen_decomposition.go:23-26) -/
structure Eig.Lit (α : Type) where
  eps : α
  epsEd : α
  half : α
  cdiv : α × α → α × α → α × α

/-- The variables of the back substitution: the table, `r`, `s`, `z` (which keep their values from one vector
to the next) and `l`. (/repo/eigen_decomposition.go:536-548) -/
structure Eig.Bk (α : Type) (n : Nat) where
  t : Tab α n n
  r : α
  s : α
  z : α
  l : Nat

/-- Overflow control for one column, `/repo/eigen_decomposition.go:589-594`. -/
def Eig.guard1 (eps : α) (i idx : Nat) (t : Tab α n n) : Res (Tab α n n) := do
  let x ← t.get i idx
  if Flt.lt Flt.one (Flt.mul (Flt.mul eps (Flt.abs x)) (Flt.abs x)) then
    forUp i (idx + 1) (fun j (t : Tab α n n) => do
      t.set j idx (Flt.div (← t.get j idx) (Flt.abs x))) t
  else pure t

/-- `/repo/eigen_decomposition.go:568-586`: the entry `i` (and `i + 1`) of a real vector; `w` and `r` are given. -/
def Eig.realSet (κ : Eig.Lit α) (norm : α) (re im : Row α n) (idx i : Nat) (p w r : α) (b : Eig.Bk α n) :
    Res (Tab α n n) := do
  let imi ← im.get i
  if Flt.ulpEq imi Flt.zero then
    if !Flt.eq w Flt.zero then b.t.set i idx (Flt.div (Flt.neg r) w)
    else b.t.set i idx (Flt.div (Flt.neg r) (Flt.mul κ.eps norm))
  else
    let x ← b.t.get i (i + 1)
    let y ← b.t.get (i + 1) i
    let rei ← re.get i
    let t ← b.t.set i idx (Flt.div (Flt.sub (Flt.mul x b.s) (Flt.mul b.z r))
      (Flt.add (Flt.mul (Flt.sub rei p) (Flt.sub rei p)) (Flt.mul imi imi)))
    let ti ← t.get i idx
    if Flt.lt (Flt.abs b.z) (Flt.abs x) then
      t.set (i + 1) idx (Flt.div (Flt.sub (Flt.neg r) (Flt.mul w ti)) x)
    else t.set (i + 1) idx (Flt.div (Flt.sub (Flt.neg b.s) (Flt.mul y ti)) b.z)

/-- `/repo/eigen_decomposition.go:563-595` for one `i`, with `w` and `r` given. -/
def Eig.realCase (κ : Eig.Lit α) (norm : α) (re im : Row α n) (idx i : Nat) (p w r : α) (b : Eig.Bk α n) :
    Res (Eig.Bk α n) := do
  let imi ← im.get i
  if compareTo imi Flt.zero κ.epsEd < 0 then return ⟨b.t, r, r, w, b.l⟩
  else
    let t ← Eig.realSet κ norm re im idx i p w r b
    let t ← Eig.guard1 κ.eps i idx t
    return ⟨t, r, b.s, b.z, i⟩

/-- `/repo/eigen_decomposition.go:558-595` for one `i`. -/
def Eig.realStep (κ : Eig.Lit α) (norm : α) (re im : Row α n) (idx : Nat) (p : α) (i : Nat) (b : Eig.Bk α n) :
    Res (Eig.Bk α n) := do
  let tii ← b.t.get i i
  let r ← sumUp b.l (idx + 1) (fun j => do return Flt.mul (← b.t.get i j) (← b.t.get j idx)) Flt.zero
  Eig.realCase κ norm re im idx i p (Flt.sub tii p) r b

/-- A real vector, `/repo/eigen_decomposition.go:554-596`. -/
def Eig.realVec (κ : Eig.Lit α) (norm : α) (re im : Row α n) (idx : Nat) (p : α) (b : Eig.Bk α n) :
    Res (Eig.Bk α n) := do
  let t ← b.t.set idx idx Flt.one
  forDown idx 0 (Eig.realStep κ norm re im idx p) ⟨t, b.r, b.s, b.z, idx⟩

/-- Overflow control for two columns, `/repo/eigen_decomposition.go:659-666`. -/
def Eig.guard2 (eps : α) (i idx : Nat) (t : Tab α n n) : Res (Tab α n n) := do
  let x ← t.get i (idx - 1)
  let y ← t.get i idx
  if Flt.lt Flt.one (Flt.mul (Flt.mul eps (Flt.fmax (Flt.abs x) (Flt.abs y))) (Flt.fmax (Flt.abs x) (Flt.abs y)))
  then
    forUp i (idx + 1) (fun j (t : Tab α n n) => do
      let t ← t.set j (idx - 1) (Flt.div (← t.get j (idx - 1)) (Flt.fmax (Flt.abs x) (Flt.abs y)))
      t.set j idx (Flt.div (← t.get j idx) (Flt.fmax (Flt.abs x) (Flt.abs y)))) t
  else pure t

/-- A pair of entries is stored. (/repo/eigen_decomposition.go:605-609) -/
def Eig.put2 (i idx : Nat) (c : α × α) (t : Tab α n n) : Res (Tab α n n) := do
  let t ← t.set i (idx - 1) c.1
  t.set i idx c.2

/-- `vr` of `/repo/eigen_decomposition.go:637-641`. -/
def Eig.vr (eps norm w q x y z rei imi p : α) : α :=
  if Flt.ulpEq (Flt.sub (Flt.add (Flt.mul (Flt.sub rei p) (Flt.sub rei p)) (Flt.mul imi imi)) (Flt.mul q q))
      Flt.zero && Flt.ulpEq (Flt.mul (Flt.mul (Flt.sub rei p) Flt.two) q) Flt.zero then
    Flt.mul (Flt.mul eps norm)
      (Flt.add (Flt.add (Flt.add (Flt.add (Flt.abs w) (Flt.abs q)) (Flt.abs x)) (Flt.abs y)) (Flt.abs z))
  else Flt.sub (Flt.add (Flt.mul (Flt.sub rei p) (Flt.sub rei p)) (Flt.mul imi imi)) (Flt.mul q q)

/-- `/repo/eigen_decomposition.go:629-656`: the entries `i` (and `i + 1`) of a complex vector. -/
def Eig.cplxSet (κ : Eig.Lit α) (norm : α) (re im : Row α n) (idx i : Nat) (p q w ra sa : α) (b : Eig.Bk α n) :
    Res (Tab α n n) := do
  let imi ← im.get i
  if Flt.ulpEq imi Flt.zero then
    Eig.put2 i idx (κ.cdiv (Flt.neg ra, Flt.neg sa) (w, q)) b.t
  else
    let x ← b.t.get i (i + 1)
    let y ← b.t.get (i + 1) i
    let rei ← re.get i
    let t ← Eig.put2 i idx (κ.cdiv
      (Flt.add (Flt.sub (Flt.mul x b.r) (Flt.mul b.z ra)) (Flt.mul q sa),
       Flt.sub (Flt.sub (Flt.mul x b.s) (Flt.mul b.z sa)) (Flt.mul q ra))
      (Eig.vr κ.eps norm w q x y b.z rei imi p, Flt.mul (Flt.mul (Flt.sub rei p) Flt.two) q)) b.t
    let t1 ← t.get i (idx - 1)
    let t2 ← t.get i idx
    if Flt.lt (Flt.add (Flt.abs b.z) (Flt.abs q)) (Flt.abs x) then
      Eig.put2 (i + 1) idx
        (Flt.div (Flt.add (Flt.sub (Flt.neg ra) (Flt.mul w t1)) (Flt.mul q t2)) x,
         Flt.div (Flt.sub (Flt.sub (Flt.neg sa) (Flt.mul w t2)) (Flt.mul q t1)) x) t
    else
      Eig.put2 (i + 1) idx (κ.cdiv (Flt.sub (Flt.neg b.r) (Flt.mul y t1), Flt.sub (Flt.neg b.s) (Flt.mul y t2))
        (b.z, q)) t

/-- `/repo/eigen_decomposition.go:623-667` for one `i`, with `w`, `ra`, `sa` given. -/
def Eig.cplxCase (κ : Eig.Lit α) (norm : α) (re im : Row α n) (idx i : Nat) (p q w ra sa : α) (b : Eig.Bk α n) :
    Res (Eig.Bk α n) := do
  let imi ← im.get i
  if compareTo imi Flt.zero κ.epsEd < 0 then return ⟨b.t, ra, sa, w, b.l⟩
  else
    let t ← Eig.cplxSet κ norm re im idx i p q w ra sa b
    let t ← Eig.guard2 κ.eps i idx t
    return ⟨t, b.r, b.s, b.z, i⟩

/-- `/repo/eigen_decomposition.go:616-667` for one `i`. -/
def Eig.cplxStep (κ : Eig.Lit α) (norm : α) (re im : Row α n) (idx : Nat) (p q : α) (i : Nat) (b : Eig.Bk α n) :
    Res (Eig.Bk α n) := do
  let ra ← sumUp b.l (idx + 1) (fun j => do return Flt.mul (← b.t.get i j) (← b.t.get j (idx - 1))) Flt.zero
  let sa ← sumUp b.l (idx + 1) (fun j => do return Flt.mul (← b.t.get i j) (← b.t.get j idx)) Flt.zero
  let tii ← b.t.get i i
  Eig.cplxCase κ norm re im idx i p q (Flt.sub tii p) ra sa b

/-- The last two components, `/repo/eigen_decomposition.go:602-613`. `idx` is never 0 here, because the first eigenvalue of a pair has
a positive imaginary part; `matrixT[idx][-1]` would be an index panic. -/
def Eig.cplxTop (κ : Eig.Lit α) (idx : Nat) (p q : α) (t : Tab α n n) : Res (Tab α n n) := do
  if idx = 0 then throw .rt
  let x ← t.get idx (idx - 1)
  let y ← t.get (idx - 1) idx
  let t ← if Flt.lt (Flt.abs y) (Flt.abs x) then do
      let t ← t.set (idx - 1) (idx - 1) (Flt.div q x)
      t.set (idx - 1) idx (Flt.div (Flt.neg (Flt.sub (← t.get idx idx) p)) x)
    else do
      let a ← t.get (idx - 1) (idx - 1)
      Eig.put2 (idx - 1) idx (κ.cdiv (Flt.zero, Flt.neg y) (Flt.sub a p, q)) t
  let t ← t.set idx (idx - 1) Flt.zero
  t.set idx idx Flt.one

/-- A complex vector, `/repo/eigen_decomposition.go:598-668`. -/
def Eig.cplxVec (κ : Eig.Lit α) (norm : α) (re im : Row α n) (idx : Nat) (p q : α) (b : Eig.Bk α n) :
    Res (Eig.Bk α n) := do
  let t ← Eig.cplxTop κ idx p q b.t
  forDown (idx - 1) 0 (Eig.cplxStep κ norm re im idx p q) ⟨t, b.r, b.s, b.z, idx - 1⟩

/-- One vector of the triangular form, `/repo/eigen_decomposition.go:550-669`. -/
def Eig.vector (κ : Eig.Lit α) (norm : α) (re im : Row α n) (idx : Nat) (b : Eig.Bk α n) : Res (Eig.Bk α n) := do
  let p ← re.get idx
  let q ← im.get idx
  if Flt.ulpEq q Flt.zero then Eig.realVec κ norm re im idx p b
  else if Flt.lt q Flt.zero then Eig.cplxVec κ norm re im idx p q b
  else pure b

/-- The product of `P` and the triangular vectors, `/repo/eigen_decomposition.go:673-681`. -/
def Eig.back (t p : Tab α n n) : Res (Tab α n n) :=
  forDown n 0 (fun j (p : Tab α n n) =>
    forUp 0 n (fun i (p : Tab α n n) => do
      let z ← sumUp 0 (min j (n - 1) + 1) (fun k => do return Flt.mul (← p.get i k) (← t.get k j)) Flt.zero
      p.set i j z) p) p

/-- `findEigenVectorsFromSchur`, `/repo/eigen_decomposition.go:526-694`. -/
def Eig.findGen (κ : Eig.Lit α) (re im : Row α n) (t p : Tab α n n) : Res (Eig α n) := do
  let norm ← Schur.norm t
  if equalsWithError norm Flt.zero κ.epsEd then throw (.err .arith)
  let b ← forDown n 0 (Eig.vector κ norm re im) ⟨t, Flt.zero, Flt.zero, Flt.zero, 0⟩
  let p ← Eig.back b.t p
  let v ← Tab.build n n (fun i j => p.get j i) .rt
  return ⟨re, im, v, false⟩

/-- The branch of `NewEigenDecomposition` for other matrices, `/repo/eigen_decomposition.go:87-95`, with `transformToSchur`, `/repo/eigen_decomposition.go:495-521`. `none` means that the fuel of the Schur iteration ran out. -/
def Eig.newGen {c : Nat} (σ : Schur.Lit α) (κ : Eig.Lit α) (fuel : Nat) (a : Mat α n c) :
    Res (Option (Eig α n)) := do
  match ← Schur.new σ fuel a with
  | none => return none
  | some s => do
    let t ← Schur.tab n (← s.tMat)
    let v ← Eig.values κ.epsEd κ.half t n 0 (Row.zero n, Row.zero n)
    let p ← Schur.tab n (← s.pMat)
    return some (← Eig.findGen κ v.1 v.2 t p)

/-- `NewEigenDecomposition`, `/repo/eigen_decomposition.go:76-98`; `symTol` is `10 * rows * columns * doubleeps`. -/
def Eig.new {c : Nat} (σ : Schur.Lit α) (κ : Eig.Lit α) (symTol : α) (fuel : Nat) (a : Mat α n c) :
    Res (Option (Eig α n)) := do
  if ← isSymmetric a symTol then return some (← Eig.newSym κ.eps a)
  else Eig.newGen σ κ fuel a

/-! ## Results, lines 127-310 -/

/-- Vector `k`. (/repo/eigen_decomposition.go:255-257) -/
def Eig.vector' (s : Eig α n) (k : Nat) : List α := (List.range n).map (s.vec.f k)

/-- A mutation whose panic ends the caller: only the fault matters. (/repo/eigen_decomposition.go:275-296) -/
def Mat.orFault {β : Type} {r c : Nat} (x : Except (Fault × Mat α r c) β) : Res β :=
  match x with
  | .ok m => .ok m
  | .error e => .error e.1

/-- `V`, `/repo/eigen_decomposition.go:135-151`. -/
def Eig.v (s : Eig α n) : Res (SMat α) := do
  let m ← (Mat.new (α := α) (n : Int) (n : Int)).must
  let m ← forUp 0 n (fun k (m : Mat α _ _) => Mat.orFault (m.setColumnVector k (.arr (s.vector' k)))) m
  return ⟨_, _, m⟩

/-- `VT`, `/repo/eigen_decomposition.go:188-204`. -/
def Eig.vT (s : Eig α n) : Res (SMat α) := do
  let m ← (Mat.new (α := α) (n : Int) (n : Int)).must
  let m ← forUp 0 n (fun k (m : Mat α _ _) => Mat.orFault (m.setRowVector k (.arr (s.vector' k)))) m
  return ⟨_, _, m⟩

/-- `D`, `/repo/eigen_decomposition.go:159-178`. -/
def Eig.dMat (epsEd : α) (s : Eig α n) : Res (SMat α) := do
  let a ← (Mat.withDiagonal s.re.toList).must
  let m ← forUp 0 n (fun i (m : Mat α _ _) => do
    let x ← s.im.get i
    if compareTo x Flt.zero epsEd > 0 then m.put i (i + 1) x
    else if compareTo x Flt.zero epsEd < 0 then m.put i ((i : Int) - 1) x
    else pure m) a.m
  return ⟨_, _, m⟩

/-- `HasComplexEigenvalues`, `/repo/eigen_decomposition.go:212-219`. -/
def Eig.hasComplex (epsEd : α) (s : Eig α n) : Bool :=
  (List.range n).any fun i => !equalsWithError (s.im.f i) Flt.zero epsEd

/-- `Determinant`, `/repo/eigen_decomposition.go:262-268`. -/
def Eig.det (s : Eig α n) : Res α :=
  forUp 0 n (fun i x => do return Flt.mul x (← s.re.get i)) Flt.one

/-- The square roots of the eigenvalues, `/repo/eigen_decomposition.go:280-287`. -/
def Eig.roots (s : Eig α n) : Res (Row α n) :=
  forUp 0 n (fun i (v : Row α n) => do
    let x ← s.re.get i
    if Flt.le x Flt.zero then throw (.pan .unsup)
    v.set i (Flt.sqrt x)) (Row.zero n)

/-- `SquareRoot`, `/repo/eigen_decomposition.go:275-296`. -/
def Eig.squareRoot (s : Eig α n) : Res (SMat α) := do
  if !s.sym then throw (.pan .unsup)
  let w ← s.roots
  let d ← (SMat.diagonal (some w.toList)).must
  let v ← s.v
  let vT ← s.vT
  let x ← SMat.multiply v d
  SMat.multiply x vT

/-! ## The solver, lines 696-837 -/

/-- `eigenvalueNormAt`, `/repo/eigen_decomposition.go:833-837`. -/
def Eig.normAt (s : Eig α n) (i : Nat) : Res α := do
  let re ← s.re.get i
  let im ← s.im.get i
  return Flt.sqrt (Flt.add (Flt.mul re re) (Flt.mul im im))

/-- `IsNonSingular`, `/repo/eigen_decomposition.go:711-731`. -/
def Eig.isNonSingular (epsEd : α) (s : Eig α n) : Res Bool := do
  let big ← forUp 0 n (fun i x => do return Flt.fmax x (← s.normAt i)) Flt.zero
  if Flt.eq big Flt.zero then return false
  let r ← forUpBrk 0 n (fun i (_ : Unit) => do
    let x ← s.normAt i
    return if equalsWithError (Flt.div x big) Flt.zero epsEd then .inr () else .inl ()) ()
  return match r with | .inl _ => true | .inr _ => false

/-- `Solver`, `/repo/eigen_decomposition.go:305-310` (the panic for complex eigenvalues). -/
def Eig.solver (epsEd : α) (s : Eig α n) : Res Unit :=
  if s.hasComplex epsEd then .error (.pan .unsup) else .ok ()

/-- `SolveVector`, `/repo/eigen_decomposition.go:739-761`. -/
def Eig.solveVector (epsEd : α) (s : Eig α n) (b : RVec α) : Res (List α) := do
  if b.dim ≠ n then throw (.pan .dim)
  if !(← s.isNonSingular epsEd) then throw (.pan .sing)
  let bp ← forUp 0 n (fun i (bp : Row α n) => do
    let v ← vecDotProduct (.arr (s.vector' i)) b
    let re ← s.re.get i
    forUp 0 n (fun j (bp : Row α n) => do
      bp.set j (Flt.add (← bp.get j) (Flt.mul (Flt.div v re) (← s.vec.get i j)))) bp) (Row.zero n)
  return bp.toList

/-- One column of `SolveMatrix`, `/repo/eigen_decomposition.go:776-795`. -/
def Eig.solveCol {p q : Nat} (s : Eig α n) (b : Mat α p q) (k : Nat) (bp : Tab α n q) : Res (Tab α n q) := do
  let w ← forUp 0 n (fun i (w : Row α n × Tab α n q) => do
    let tmp ← w.1.set i (← b.at i k)
    let bp ← w.2.set i k Flt.zero
    return (tmp, bp)) (Row.zero n, bp)
  forUp 0 n (fun i (bp : Tab α n q) => do
    let ss ← sumUp 0 n (fun j => do return Flt.mul (← s.vec.get i j) (← w.1.get j)) Flt.zero
    let re ← s.re.get i
    forUp 0 n (fun j (bp : Tab α n q) => do
      bp.set j k (Flt.add (← bp.get j k) (Flt.mul (Flt.div ss re) (← s.vec.get i j)))) bp) w.2

/-- `SolveMatrix`, `/repo/eigen_decomposition.go:763-800`. `tmpCol` is written in full before each use. -/
def Eig.solveMatrix {p q : Nat} (epsEd : α) (s : Eig α n) (b : Mat α p q) : Res (SMat α) := do
  if p ≠ n then throw (.pan .dim)
  if !(← s.isNonSingular epsEd) then throw (.pan .sing)
  let nColB ← b.colDim
  let bp ← forUp 0 nColB (s.solveCol b) (Jag.zero n _ : Tab α n q)
  return (← Arr.copyIn (some bp.toLists)).toSMat

/-- `Inverse`, `/repo/eigen_decomposition.go:802-831`. -/
def Eig.inverse (epsEd : α) (s : Eig α n) : Res (SMat α) := do
  if !(← s.isNonSingular epsEd) then throw (.pan .sing)
  let t ← Tab.build n n (fun i j => sumUp 0 n (fun k => do
    return Flt.div (Flt.mul (← s.vec.get k i) (← s.vec.get k j)) (← s.re.get k)) Flt.zero) .rt
  (SMat.fromSlices (some t.toLists) false).must

end Linear
