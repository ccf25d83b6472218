import Verif.Model.Walking
import Verif.Model.Vector

/-!
# Singular value decomposition (`/repo/singular_value_decomposition.go`)

`m` is the larger and `n` the smaller dimension. `eps_svd`, `tiny_svd`, `math.Hypot`, the conversion
`float64(m)` and `math.Sqrt(doubleeps)` are parameters. The main iteration has no bound in the code; here it has
fuel, and `none` says that the fuel ran out. The cached matrices are recomputed at each call.
-/

namespace Linear

variable {α : Type} [Flt α] {m n : Nat}

/-- The literals and library functions of the construction: `eps_svd` and `tiny_svd`, `/repo/singular_value_decomposition.go:23-26`, `math.Hypot`,
`math.Sqrt(doubleeps)` and `float64` of an `int`, `/repo/singular_value_decomposition.go:447`. -/
structure Svd.Lit (α : Type) where
  eps : α
  tiny : α
  hyp : α → α → α
  floor : α
  conv : Nat → α

/-! ## The reduction to bidiagonal form, lines 60-176 -/

/-- The variables of the reduction; `work` is local to one round here, since the part in use is cleared first. (/repo/singular_value_decomposition.go:60-77) -/
structure Svd.Red (α : Type) (m n : Nat) where
  a : Tab α m n
  s : Row α n
  e : Row α n
  u : Tab α m n
  v : Tab α n n

/-- The norm of the entries `k, …, m - 1` read by `x`, `/repo/singular_value_decomposition.go:83-86, 125-128`. -/
def Svd.norm (hyp : α → α → α) (k m : Nat) (x : Nat → Res α) : Res α :=
  forUp k m (fun i s => do return hyp s (← x i)) Flt.zero

/-- The sign of the norm, `/repo/singular_value_decomposition.go:87-90, 129-132`. -/
def Svd.signed (nu x : α) : α :=
  if !Flt.eq nu Flt.zero then (if Flt.lt x Flt.zero then Flt.neg nu else nu) else nu

/-- The column is divided by its norm and its first entry increased, `/repo/singular_value_decomposition.go:87-95`. -/
def Svd.colScale (k : Nat) (nu : α) (a : Tab α m n) : Res (Tab α m n) := do
  if !Flt.eq nu Flt.zero then
    let a ← forUp k m (fun i (a : Tab α m n) => do a.set i k (Flt.div (← a.get i k) nu)) a
    a.set k k (Flt.add (← a.get k k) Flt.one)
  else pure a

/-- The transformation of column `k`, `/repo/singular_value_decomposition.go:79-97`. -/
def Svd.colPass (hyp : α → α → α) (nct k : Nat) (w : Svd.Red α m n) : Res (Svd.Red α m n) := do
  if k < nct then
    let nu ← Svd.norm hyp k m (fun i => w.a.get i k)
    let x ← w.a.get k k
    let a ← Svd.colScale k (Svd.signed nu x) w.a
    let s ← w.s.set k (Flt.neg (Svd.signed nu x))
    return ⟨a, s, w.e, w.u, w.v⟩
  else pure w

/-- The reflection of column `j` along column `k`, from row `k0` on, `/repo/singular_value_decomposition.go:101-108, 188-195, 216-223`. -/
def Svd.reflect {r : Nat} (k0 k : Nat) (j : Nat) (a : Tab α r n) : Res (Tab α r n) := do
  let t ← sumUp k0 r (fun i => do return Flt.mul (← a.get i k) (← a.get i j)) Flt.zero
  let h ← a.get k0 k
  forUp k0 r (fun i (a : Tab α r n) => do
    a.set i j (Flt.add (← a.get i j) (Flt.mul (Flt.div (Flt.neg t) h) (← a.get i k)))) a

/-- The other columns, `/repo/singular_value_decomposition.go:98-113`. -/
def Svd.colRest (nct k : Nat) (w : Svd.Red α m n) : Res (Svd.Red α m n) := do
  let ae ← forUp (k + 1) n (fun j (ae : Tab α m n × Row α n) => do
    let sk ← w.s.get k
    let a ← if k < nct ∧ !Flt.eq sk Flt.zero then Svd.reflect k k j ae.1 else pure ae.1
    let e ← ae.2.set j (← a.get k j)
    return (a, e)) (w.a, w.e)
  return ⟨ae.1, w.s, ae.2, w.u, w.v⟩

/-- The transformation is placed in `U`, `/repo/singular_value_decomposition.go:114-120`. -/
def Svd.keepU (nct k : Nat) (w : Svd.Red α m n) : Res (Svd.Red α m n) := do
  if k < nct then
    let u ← forUp k m (fun i (u : Tab α m n) => do u.set i k (← w.a.get i k)) w.u
    return ⟨w.a, w.s, w.e, u, w.v⟩
  else pure w

/-- The row is divided by its norm, `/repo/singular_value_decomposition.go:129-137`. -/
def Svd.rowScale (k : Nat) (nu : α) (e : Row α n) : Res (Row α n) := do
  if !Flt.eq nu Flt.zero then
    let e ← forUp (k + 1) n (fun i (e : Row α n) => do e.set i (Flt.div (← e.get i) nu)) e
    e.set (k + 1) (Flt.add (← e.get (k + 1)) Flt.one)
  else pure e

/-- The transformation of row `k` is applied to the rows below, `/repo/singular_value_decomposition.go:139-156`. -/
def Svd.rowApply (k : Nat) (e : Row α n) (a : Tab α m n) : Res (Tab α m n) := do
  let ek ← e.get k
  if k + 1 < m ∧ !Flt.eq ek Flt.zero then
    let work ← forUp (k + 1) n (fun j (work : Row α m) =>
      forUp (k + 1) m (fun i (work : Row α m) => do
        work.set i (Flt.add (← work.get i) (Flt.mul (← e.get j) (← a.get i j)))) work) (Row.zero m)
    forUp (k + 1) n (fun j (a : Tab α m n) => do
      let ej ← e.get j
      let h ← e.get (k + 1)
      forUp (k + 1) m (fun i (a : Tab α m n) => do
        a.set i j (Flt.add (← a.get i j) (Flt.mul (Flt.div (Flt.neg ej) h) (← work.get i)))) a) a
  else pure a

/-- The transformation of row `k`, `/repo/singular_value_decomposition.go:121-163`. -/
def Svd.rowPass (hyp : α → α → α) (nrt k : Nat) (w : Svd.Red α m n) : Res (Svd.Red α m n) := do
  if k < nrt then
    let nu ← Svd.norm hyp (k + 1) n (fun i => w.e.get i)
    let x ← w.e.get (k + 1)
    let e ← Svd.rowScale k (Svd.signed nu x) w.e
    let e ← e.set k (Flt.neg (Svd.signed nu x))
    let a ← Svd.rowApply k e w.a
    let v ← forUp (k + 1) n (fun i (v : Tab α n n) => do v.set i k (← e.get i)) w.v
    return ⟨a, w.s, e, w.u, v⟩
  else pure w

/-- One round of the reduction, `/repo/singular_value_decomposition.go:78-164`. -/
def Svd.redStep (hyp : α → α → α) (nct nrt k : Nat) (w : Svd.Red α m n) : Res (Svd.Red α m n) := do
  let w ← Svd.colPass hyp nct k w
  let w ← Svd.colRest nct k w
  let w ← Svd.keepU nct k w
  Svd.rowPass hyp nrt k w

/-- The last entries of the bidiagonal form, `/repo/singular_value_decomposition.go:165-176`. The case `m < p` of `/repo/singular_value_decomposition.go:170` does not occur. -/
def Svd.lastEntries (nct nrt : Nat) (w : Svd.Red α m n) : Res (Row α n × Row α n) := do
  let s ← if nct < n then do w.s.set nct (← w.a.get nct nct) else pure w.s
  let e ← if nrt + 1 < n then do w.e.set nrt (← w.a.get nrt (n - 1)) else pure w.e
  let e ← e.set (n - 1) Flt.zero
  return (s, e)

/-! ## The generation of `U` and `V`, lines 178-230 -/

/-- Column `j` becomes a unit vector, `/repo/singular_value_decomposition.go:180-183, 205-208, 226-229`. -/
def Svd.unitCol {r : Nat} (j : Nat) (u : Tab α r n) : Res (Tab α r n) := do
  let u ← forUp 0 r (fun i (u : Tab α r n) => u.set i j Flt.zero) u
  u.set j j Flt.one

/-- One round of the generation of `U`, `/repo/singular_value_decomposition.go:186-209`. -/
def Svd.genUStep (s : Row α n) (k : Nat) (u : Tab α m n) : Res (Tab α m n) := do
  let sk ← s.get k
  if !Flt.eq sk Flt.zero then
    let u ← forUp (k + 1) n (Svd.reflect k k) u
    let u ← forUp k m (fun i (u : Tab α m n) => do u.set i k (Flt.neg (← u.get i k))) u
    let u ← u.set k k (Flt.add Flt.one (← u.get k k))
    forUp 0 (k - 1) (fun i (u : Tab α m n) => u.set i k Flt.zero) u
  else Svd.unitCol k u

/-- The generation of `U`, `/repo/singular_value_decomposition.go:178-210`. -/
def Svd.genU (nct : Nat) (s : Row α n) (u : Tab α m n) : Res (Tab α m n) := do
  let u ← forUp nct n (fun j => Svd.unitCol j) u
  forDown nct 0 (Svd.genUStep s) u

/-- One round of the generation of `V`, `/repo/singular_value_decomposition.go:214-229`. -/
def Svd.genVStep (nrt : Nat) (e : Row α n) (k : Nat) (v : Tab α n n) : Res (Tab α n n) := do
  let ek ← e.get k
  let v ← if k < nrt ∧ !Flt.eq ek Flt.zero then forUp (k + 1) n (Svd.reflect (k + 1) k) v else pure v
  Svd.unitCol k v

/-- The generation of `V`, `/repo/singular_value_decomposition.go:212-230`. -/
def Svd.genV (nrt : Nat) (e : Row α n) (v : Tab α n n) : Res (Tab α n n) :=
  forDown n 0 (Svd.genVStep nrt e) v

/-! ## The iteration, lines 232-444 -/

/-- The variables of the iteration. (/repo/singular_value_decomposition.go:222-236) -/
structure Svd.St (α : Type) (m n : Nat) where
  s : Row α n
  e : Row α n
  u : Tab α m n
  v : Tab α n n

/-- The rotation of columns `a` and `b` of a table, `/repo/singular_value_decomposition.go:312-316, 333-337, 377-381, 391-395`. -/
def Svd.turn {r : Nat} (a b : Nat) (cs sn : α) (t : Tab α r n) : Res (Tab α r n) :=
  forUp 0 r (fun i (t : Tab α r n) => do
    let x ← t.get i a
    let y ← t.get i b
    let t ← t.set i b (Flt.add (Flt.mul (Flt.neg sn) x) (Flt.mul cs y))
    t.set i a (Flt.add (Flt.mul cs x) (Flt.mul sn y))) t

/-- The search for a negligible entry of `e`, `/repo/singular_value_decomposition.go:245-259`, from index `k - 1` down. The answer is one more than
the `k` of the code, whose value after the loop may be -1. -/
def Svd.findE (κ : Svd.Lit α) (s : Row α n) : Nat → Row α n → Res (Nat × Row α n)
  | 0, e => pure (0, e)
  | k + 1, e => do
    let x ← e.get k
    let s0 ← s.get k
    let s1 ← s.get (k + 1)
    if !Flt.lt (Flt.add κ.tiny (Flt.mul κ.eps (Flt.add (Flt.abs s0) (Flt.abs s1)))) (Flt.abs x) then
      let e ← e.set k Flt.zero
      return (k + 1, e)
    else Svd.findE κ s k e

/-- The sum `t` of `/repo/singular_value_decomposition.go:270-278`; `ks != p` always holds. -/
def Svd.around (k ks : Nat) (e : Row α n) : Res α := do
  let x ← e.get ks
  if ks ≠ k then
    let y ← e.get (ks - 1)
    return Flt.add (Flt.abs x) (Flt.abs y)
  else return Flt.abs x

/-- The search for a negligible entry of `s`, `/repo/singular_value_decomposition.go:265-284`, at `k + d - 1, …, k`, where `k` is one more than the `k`
of the code. -/
def Svd.findS (κ : Svd.Lit α) (e : Row α n) (k : Nat) : Nat → Row α n → Res (Option Nat × Row α n)
  | 0, s => pure (none, s)
  | d + 1, s => do
    let t ← Svd.around k (k + d) e
    let x ← s.get (k + d)
    if Flt.le (Flt.abs x) (Flt.add κ.tiny (Flt.mul κ.eps t)) then
      let s ← s.set (k + d) Flt.zero
      return (some (k + d), s)
    else Svd.findS κ e k d s

/-- One step of case 1, `/repo/singular_value_decomposition.go:303-316`, with `t` given. -/
def Svd.deflateT (p k j : Nat) (t : α) (w : α × Svd.St α m n) : Res (α × Svd.St α m n) := do
  let sj ← w.2.s.get j
  let s ← w.2.s.set j t
  let fe ← if j ≠ k then do
      let y ← w.2.e.get (j - 1)
      let e ← w.2.e.set (j - 1) (Flt.mul (Flt.div sj t) y)
      pure (Flt.mul (Flt.neg (Flt.div w.1 t)) y, e)
    else pure (w.1, w.2.e)
  let v ← Svd.turn j (p - 1) (Flt.div sj t) (Flt.div w.1 t) w.2.v
  return (fe.1, ⟨s, fe.2, w.2.u, v⟩)

/-- One step of case 1, `/repo/singular_value_decomposition.go:303-316`. -/
def Svd.deflateStep (hyp : α → α → α) (p k j : Nat) (w : α × Svd.St α m n) : Res (α × Svd.St α m n) := do
  let sj ← w.2.s.get j
  Svd.deflateT p k j (hyp sj w.1) w

/-- Case 1: the last entry of `s` is negligible, `/repo/singular_value_decomposition.go:298-319`. -/
def Svd.deflate (hyp : α → α → α) (p k : Nat) (x : Svd.St α m n) : Res (Svd.St α m n) := do
  let f ← x.e.get (p - 2)
  let e ← x.e.set (p - 2) Flt.zero
  let w ← forDown (p - 1) k (Svd.deflateStep hyp p k) (f, ⟨x.s, e, x.u, x.v⟩)
  return w.2

/-- One step of case 2, `/repo/singular_value_decomposition.go:326-337`, with `t` given. -/
def Svd.splitT (k j : Nat) (t : α) (w : α × Svd.St α m n) : Res (α × Svd.St α m n) := do
  let sj ← w.2.s.get j
  let s ← w.2.s.set j t
  let y ← w.2.e.get j
  let e ← w.2.e.set j (Flt.mul (Flt.div sj t) y)
  let u ← Svd.turn j (k - 1) (Flt.div sj t) (Flt.div w.1 t) w.2.u
  return (Flt.mul (Flt.neg (Flt.div w.1 t)) y, ⟨s, e, u, w.2.v⟩)

/-- One step of case 2, `/repo/singular_value_decomposition.go:326-337`. -/
def Svd.splitStep (hyp : α → α → α) (k j : Nat) (w : α × Svd.St α m n) : Res (α × Svd.St α m n) := do
  let sj ← w.2.s.get j
  Svd.splitT k j (hyp sj w.1) w

/-- Case 2: entry `k - 1` of `s` is negligible, `/repo/singular_value_decomposition.go:321-340`. -/
def Svd.split (hyp : α → α → α) (p k : Nat) (x : Svd.St α m n) : Res (Svd.St α m n) := do
  let f ← x.e.get (k - 1)
  let e ← x.e.set (k - 1) Flt.zero
  let w ← forUp k p (Svd.splitStep hyp k) (f, ⟨x.s, e, x.u, x.v⟩)
  return w.2

/-- `shift` for given `b` and `c`, `/repo/singular_value_decomposition.go:354-361`. -/
def Svd.shift (b c : α) : α :=
  if !Flt.eq b Flt.zero || !Flt.eq c Flt.zero then
    if Flt.lt b Flt.zero then Flt.div c (Flt.add b (Flt.neg (Flt.sqrt (Flt.add (Flt.mul b b) c))))
    else Flt.div c (Flt.add b (Flt.sqrt (Flt.add (Flt.mul b b) c)))
  else Flt.zero

/-- `f` and `g` for the scaled entries, `/repo/singular_value_decomposition.go:352-363`. -/
def Svd.start (sp spm1 epm1 sk ek : α) : α × α :=
  (Flt.add (Flt.mul (Flt.add sk sp) (Flt.sub sk sp))
    (Svd.shift (Flt.div (Flt.add (Flt.mul (Flt.add spm1 sp) (Flt.sub spm1 sp)) (Flt.mul epm1 epm1)) Flt.two)
      (Flt.mul (Flt.mul sp epm1) (Flt.mul sp epm1))),
   Flt.mul sk ek)

/-- `scale`, `/repo/singular_value_decomposition.go:345-346`. -/
def Svd.scale (s1 s2 e2 sk ek : α) : α :=
  Flt.fmax (Flt.fmax (Flt.fmax (Flt.fmax (Flt.abs s1) (Flt.abs s2)) (Flt.abs e2)) (Flt.abs sk)) (Flt.abs ek)

/-- `/repo/singular_value_decomposition.go:345-363` for given entries. -/
def Svd.first (s1 s2 e2 sk ek : α) : α × α :=
  Svd.start (Flt.div s1 (Svd.scale s1 s2 e2 sk ek)) (Flt.div s2 (Svd.scale s1 s2 e2 sk ek))
    (Flt.div e2 (Svd.scale s1 s2 e2 sk ek)) (Flt.div sk (Svd.scale s1 s2 e2 sk ek))
    (Flt.div ek (Svd.scale s1 s2 e2 sk ek))

/-- The chase: `f`, `g` and the state. (/repo/singular_value_decomposition.go:365-366) -/
structure Svd.Ch (α : Type) (m n : Nat) where
  f : α
  g : α
  x : Svd.St α m n

/-- The rotation of columns `j` and `j + 1`, `/repo/singular_value_decomposition.go:366-381`, with `t` given. -/
def Svd.chaseV (k j : Nat) (t : α) (w : Svd.Ch α m n) : Res (Svd.Ch α m n) := do
  let e ← if j ≠ k then w.x.e.set (j - 1) t else pure w.x.e
  let sj ← w.x.s.get j
  let ej ← e.get j
  let e ← e.set j (Flt.sub (Flt.mul (Flt.div w.f t) ej) (Flt.mul (Flt.div w.g t) sj))
  let s1 ← w.x.s.get (j + 1)
  let s ← w.x.s.set (j + 1) (Flt.mul (Flt.div w.f t) s1)
  let v ← Svd.turn j (j + 1) (Flt.div w.f t) (Flt.div w.g t) w.x.v
  return ⟨Flt.add (Flt.mul (Flt.div w.f t) sj) (Flt.mul (Flt.div w.g t) ej), Flt.mul (Flt.div w.g t) s1,
    ⟨s, e, w.x.u, v⟩⟩

/-- The rotation of rows `j` and `j + 1`, `/repo/singular_value_decomposition.go:382-396`, with `t` given. -/
def Svd.chaseU (j : Nat) (t : α) (w : Svd.Ch α m n) : Res (Svd.Ch α m n) := do
  let s ← w.x.s.set j t
  let ej ← w.x.e.get j
  let s1 ← s.get (j + 1)
  let s ← s.set (j + 1) (Flt.add (Flt.mul (Flt.neg (Flt.div w.g t)) ej) (Flt.mul (Flt.div w.f t) s1))
  let e1 ← w.x.e.get (j + 1)
  let e ← w.x.e.set (j + 1) (Flt.mul (Flt.div w.f t) e1)
  let u ← if j < m - 1 then Svd.turn j (j + 1) (Flt.div w.f t) (Flt.div w.g t) w.x.u else pure w.x.u
  return ⟨Flt.add (Flt.mul (Flt.div w.f t) ej) (Flt.mul (Flt.div w.g t) s1), Flt.mul (Flt.div w.g t) e1,
    ⟨s, e, u, w.x.v⟩⟩

/-- One step of the chase, `/repo/singular_value_decomposition.go:365-397`. -/
def Svd.chase (hyp : α → α → α) (k j : Nat) (w : Svd.Ch α m n) : Res (Svd.Ch α m n) := do
  let w ← Svd.chaseV k j (hyp w.f w.g) w
  Svd.chaseU j (hyp w.f w.g) w

/-- Case 3: one QR step, `/repo/singular_value_decomposition.go:342-400`. -/
def Svd.qr (hyp : α → α → α) (p k : Nat) (x : Svd.St α m n) : Res (Svd.St α m n) := do
  let s1 ← x.s.get (p - 1)
  let s2 ← x.s.get (p - 2)
  let e2 ← x.e.get (p - 2)
  let sk ← x.s.get k
  let ek ← x.e.get k
  let w ← forUp k (p - 1) (Svd.chase hyp k) ⟨(Svd.first s1 s2 e2 sk ek).1, (Svd.first s1 s2 e2 sk ek).2, x⟩
  let e ← w.x.e.set (p - 2) w.f
  return ⟨w.x.s, e, w.x.u, w.x.v⟩

/-- The singular value is made non-negative, `/repo/singular_value_decomposition.go:404-415`. -/
def Svd.positive (k : Nat) (x : Svd.St α m n) : Res (Svd.St α m n) := do
  let sk ← x.s.get k
  if Flt.le sk Flt.zero then
    let s ← x.s.set k (if Flt.lt sk Flt.zero then Flt.neg sk else Flt.zero)
    let v ← forUp 0 n (fun i (v : Tab α n n) => do v.set i k (Flt.neg (← v.get i k))) x.v
    return ⟨s, x.e, x.u, v⟩
  else pure x

/-- Columns `k` and `k + 1` are exchanged, `/repo/singular_value_decomposition.go:425-429, 432-436`. -/
def Svd.swapCols {r : Nat} (k : Nat) (t : Tab α r n) : Res (Tab α r n) :=
  forUp 0 r (fun i (t : Tab α r n) => do
    let x ← t.get i (k + 1)
    let t ← t.set i (k + 1) (← t.get i k)
    t.set i k x) t

/-- The singular value is moved to its place, `/repo/singular_value_decomposition.go:417-439`; `d` bounds the number of exchanges. -/
def Svd.order : Nat → Nat → Svd.St α m n → Res (Svd.St α m n)
  | 0, _, x => pure x
  | d + 1, k, x => do
    if k < n - 1 then
      let a ← x.s.get k
      let b ← x.s.get (k + 1)
      if Flt.le b a then return x
      else
        let s ← x.s.set k b
        let s ← s.set (k + 1) a
        let v ← if k < n - 1 then Svd.swapCols k x.v else pure x.v
        let u ← if k < m - 1 then Svd.swapCols k x.u else pure x.u
        Svd.order d (k + 1) ⟨s, x.e, u, v⟩
    else return x

/-- Case 4: convergence, `/repo/singular_value_decomposition.go:402-442`. -/
def Svd.converged (k : Nat) (x : Svd.St α m n) : Res (Svd.St α m n) := do
  let x ← Svd.positive k x
  Svd.order n k x

/-- One round of the iteration, `/repo/singular_value_decomposition.go:234-443`, for `p > 0`; the new `p` and state. -/
def Svd.round (κ : Svd.Lit α) (p : Nat) (x : Svd.St α m n) : Res (Nat × Svd.St α m n) := do
  let ke ← Svd.findE κ x.s (p - 1) x.e
  if ke.1 = p - 1 then
    let x ← Svd.converged (p - 1) ⟨x.s, ke.2, x.u, x.v⟩
    return (p - 1, x)
  else
    let ks ← Svd.findS κ ke.2 ke.1 (p - ke.1) x.s
    match ks.1 with
    | none => do
      let x ← Svd.qr κ.hyp p ke.1 ⟨ks.2, ke.2, x.u, x.v⟩
      return (p, x)
    | some i => do
      if i = p - 1 then
        let x ← Svd.deflate κ.hyp p ke.1 ⟨ks.2, ke.2, x.u, x.v⟩
        return (p, x)
      else
        let x ← Svd.split κ.hyp p (i + 1) ⟨ks.2, ke.2, x.u, x.v⟩
        return (p, x)

/-- The iteration, `/repo/singular_value_decomposition.go:234-444`. -/
def Svd.loop (κ : Svd.Lit α) : Nat → Nat → Svd.St α m n → Res (Option (Svd.St α m n))
  | 0, p, x => if p = 0 then pure (some x) else pure none
  | fuel + 1, p, x =>
    if p = 0 then pure (some x)
    else do
      let px ← Svd.round κ p x
      Svd.loop κ fuel px.1 px.2

/-- The bidiagonal form and its two factors, `/repo/singular_value_decomposition.go:60-230`. -/
def Svd.reduce (hyp : α → α → α) (a : Tab α m n) : Res (Svd.St α m n) := do
  let w ← forUp 0 (max (min (m - 1) n) (n - 2)) (Svd.redStep hyp (min (m - 1) n) (n - 2))
    ⟨a, Row.zero n, Row.zero n, Jag.zero m _, Jag.zero n _⟩
  let se ← Svd.lastEntries (min (m - 1) n) (n - 2) w
  let u ← Svd.genU (min (m - 1) n) se.1 w.u
  let v ← Svd.genV (n - 2) se.2 w.v
  return ⟨se.1, se.2, u, v⟩

/-- The construction for the tall data `a`, `/repo/singular_value_decomposition.go:60-444`. Without columns `e[p-1]` (`/repo/singular_value_decomposition.go:176`) is an index panic. -/
def Svd.core (κ : Svd.Lit α) (fuel : Nat) (a : Tab α m n) : Res (Option (Svd.St α m n)) := do
  if n = 0 then throw .rt
  let x ← Svd.reduce κ.hyp a
  Svd.loop κ fuel n x

/-! ## The decomposition and its results -/

/-- `SingularValueDecomposition`, `/repo/singular_value_decomposition.go:38-44`: the singular values, the larger dimension `m`, the two matrices and
the tolerance. -/
structure Svd (α : Type) where
  sv : List α
  big : Nat
  u : SMat α
  v : SMat α
  tol : α

/-- `/repo/singular_value_decomposition.go:446-470`. -/
def Svd.pack (κ : Svd.Lit α) (transposed : Bool) (x : Svd.St α m n) : Res (Svd α) := do
  let s0 ← x.s.get 0
  let a ← SMat.fromSlices (some x.u.toLists) false
  let b ← SMat.fromSlices (some x.v.toLists) false
  return ⟨x.s.toList, m, if transposed then b else a, if transposed then a else b,
    Flt.fmax (Flt.mul (Flt.mul (κ.conv m) s0) κ.eps) κ.floor⟩

/-- `NewSingularValueDecomposition`, `/repo/singular_value_decomposition.go:46-473`. -/
def Svd.new {r c : Nat} (κ : Svd.Lit α) (fuel : Nat) (a : Mat α r c) : Res (Option (Svd α)) := do
  let col ← a.colDim
  if r < col then
    let t ← a.transpose
    let d ← t.dataCopy
    match ← Svd.core κ fuel d with
    | none => return none
    | some x => do
      let s ← Svd.pack κ true x
      return some s
  else
    let d ← a.dataCopy
    match ← Svd.core κ fuel d with
    | none => return none
    | some x => do
      let s ← Svd.pack κ false x
      return some s

/-- `UT`, `/repo/singular_value_decomposition.go:486-492`. -/
def Svd.uT (x : Svd α) : Res (SMat α) := do
  let t ← x.u.m.transpose
  return ⟨_, _, t⟩

/-- `VT`, `/repo/singular_value_decomposition.go:533-539`. -/
def Svd.vT (x : Svd α) : Res (SMat α) := do
  let t ← x.v.m.transpose
  return ⟨_, _, t⟩

/-- `S`, `/repo/singular_value_decomposition.go:499-509`. -/
def Svd.sMat (x : Svd α) : Res (SMat α) := (SMat.diagonal (some x.sv)).must

/-- The number of singular values to consider, `/repo/singular_value_decomposition.go:557-561`. -/
def Svd.cutoff (minSv : α) : List α → Nat
  | [] => 0
  | x :: l => if Flt.le minSv x then Svd.cutoff minSv l + 1 else 0

/-- The visitor of `Covariance`, `/repo/singular_value_decomposition.go:541-547, 572-578`. -/
def Svd.visitor (x : Svd α) (d : Nat) : VisP α (Tab α d x.sv.length) where
  start _ _ _ _ _ _ t := pure t
  visit i j value t := do
    let s ← rdL x.sv i.toNat
    t.set i.toNat j.toNat (Flt.div value s)
  fin t := pure (t, Flt.zero)

/-- `Covariance`, `/repo/singular_value_decomposition.go:555-587`. -/
def Svd.covariance (x : Svd α) (minSv : α) : Res (SMat α) := do
  if Svd.cutoff minSv x.sv = 0 then
    let _ ← rdL x.sv 0
    throw (.pan .big)
  let vt ← x.vT
  let t ← vt.m.walkInB .opt (x.visitor (Svd.cutoff minSv x.sv)) (Jag.zero _ _) 0
    (Svd.cutoff minSv x.sv - 1) 0 (x.sv.length - 1)
  let jv ← (Arr.copyIn (some t.1.toLists)).must
  let jt ← jv.toSMat.m.transpose
  jt.multiply jv.toSMat.m

/-- `Norm`, `/repo/singular_value_decomposition.go:594-596`. -/
def Svd.norm2 (x : Svd α) : Res α := rdL x.sv 0

/-- `ConditionNumber`, `/repo/singular_value_decomposition.go:601-603`. `n` is the number of singular values. -/
def Svd.cond (x : Svd α) : Res α := do
  let a ← rdL x.sv 0
  let b ← rdL x.sv (x.sv.length - 1)
  return Flt.div a b

/-- `InverseConditionNumber`, `/repo/singular_value_decomposition.go:609-611`. -/
def Svd.invCond (x : Svd α) : Res α := do
  let b ← rdL x.sv (x.sv.length - 1)
  let a ← rdL x.sv 0
  return Flt.div b a

/-- `Rank`, `/repo/singular_value_decomposition.go:620-628`. -/
def Svd.rank (x : Svd α) : Nat := (x.sv.filter fun s => Flt.lt x.tol s).length

/-- The factor of row `i` of `UT`, `/repo/singular_value_decomposition.go:647-650`. -/
def Svd.factor (x : Svd α) (s : α) : α := if Flt.lt x.tol s then Flt.div Flt.one s else Flt.zero

/-- `newSVDecompositionSolver`, `/repo/singular_value_decomposition.go:642-664`: the pseudo-inverse. -/
def Svd.pinv (x : Svd α) : Res (SMat α) := do
  let ut ← x.uT
  let d ← ut.m.dataCopy
  let d ← forUp 0 x.sv.length (fun i (d : Tab α ut.r ut.c) => do
    let s ← rdL x.sv i
    forUp 0 ut.c (fun j (d : Tab α ut.r ut.c) => do
      d.set i j (Flt.mul (← d.get i j) (x.factor s))) d) d
  let mat ← (Arr.copyIn (some d.toLists)).must
  x.v.m.multiply mat.toSMat.m

/-- `SolveVector`, `/repo/singular_value_decomposition.go:666-668`. -/
def Svd.solveVector (x : Svd α) (b : RVec α) : Res (List α) := do
  let p ← x.pinv
  p.m.operateVector b

/-- `SolveMatrix`, `/repo/singular_value_decomposition.go:670-672`. -/
def Svd.solveMatrix (x : Svd α) (b : SMat α) : Res (SMat α) := do
  let p ← x.pinv
  p.m.multiply b.m

/-- `IsNonSingular`, `/repo/singular_value_decomposition.go:674-676`. -/
def Svd.isNonSingular (x : Svd α) : Bool := x.rank == x.big

end Linear
