import Verif.Lemmas.QRSolveM
import Verif.Lemmas.RoundChol

/-!
# The solvers of the QR decompositions, operation by operation, in any arithmetic
-/

set_option linter.unusedSectionVars false

namespace Linear

open Spec Finset

variable {α : Type} [Flt α] {m n p q : Nat}

/-- One reflection of a right-hand side, with the factor of `SolveVector` or that of `SolveMatrix`. -/
structure QR.VStep (m k : Nat) (f : Nat → Nat → α) (d : Nat → α) (y y' : Nat → α) (al : α) : Prop where
  fac : al = Flt.div (lsum k m (fun r => Flt.mul (y r) (f k r)) Flt.zero) (Flt.mul (d k) (f k k)) ∨
    al = Flt.mul (lsum k m (fun r => Flt.mul (f k r) (y r)) Flt.zero)
      (Flt.div Flt.one (Flt.mul (d k) (f k k)))
  row : ∀ i, k ≤ i → i < m → y' i = Flt.add (y i) (Flt.mul al (f k i))
  low : ∀ i, i < k → y' i = y i

/-- The right-hand side after `k` reflections. -/
inductive QR.Refl (m : Nat) (f : Nat → Nat → α) (d : Nat → α) (b : Nat → α) : Nat → (Nat → α) → Prop
  | zero {y : Nat → α} (h : ∀ i, i < m → y i = b i) : QR.Refl m f d b 0 y
  | step {k : Nat} {y y' : Nat → α} {al : α} (h : QR.Refl m f d b k y) (hs : QR.VStep m k f d y y' al) :
      QR.Refl m f d b (k + 1) y'

/-- The back substitution, with the division of `SolveVector` or the reciprocal of `SolveMatrix`. -/
def QR.Back (p : Nat) (f : Nat → Nat → α) (d y x : Nat → α) : Prop :=
  ∀ i, i < p → x i = Flt.div (rsub (i + 1) p (fun j => Flt.mul (x j) (f j i)) (y i)) (d i) ∨
    x i = Flt.mul (rsub (i + 1) p (fun j => Flt.mul (x j) (f j i)) (y i)) (Flt.div Flt.one (d i))

theorem QR.Back.congr {f : Nat → Nat → α} {d y x x' : Nat → α} (h : QR.Back p f d y x)
    (he : ∀ i, i < p → x' i = x i) : QR.Back p f d y x' := by
  intro i hi
  rw [he i hi, rsub_congr (g := fun j => Flt.mul (x' j) (f j i)) (g' := fun j => Flt.mul (x j) (f j i))
    fun j _ hj => by rw [he j hj]]
  exact h i hi

theorem QR.transform_bits (s : QR α m n p) (hp : p = min m n) (b : Row α m) :
    ∃ y : Row α m, forUp 0 (min m n) (fun minor (y : Row α m) => do
      let dot ← sumUp minor m (fun row => do
        return Flt.mul (← y.get row) (← s.qrt.get minor row)) Flt.zero
      let dot := Flt.div dot (Flt.mul (← s.rDiag.get minor) (← s.qrt.get minor minor))
      forUp minor m (fun row (y : Row α m) => do
        y.set row (Flt.add (← y.get row) (Flt.mul dot (← s.qrt.get minor row)))) y) b = .ok y ∧
      QR.Refl m s.qrt.f s.rDiag.f b.f p y.f := by
  subst hp
  refine Wp.exists_ok (wp_forUp (fun k (y : Row α m) => QR.Refl m s.qrt.f s.rDiag.f b.f k y.f)
    (Nat.zero_le _) (.zero fun _ _ => rfl) ?_)
  intro k y _ hk hI
  rw [sumUp_ok (fun r => Flt.mul (y.f r) (s.qrt.f k r)) fun i h1 h2 => by
    rw [Row.get_ok h2, ok_bind, Tab.get_ok (by omega) h2]; rfl, ok_bind, Row.get_ok (by omega), ok_bind,
    Tab.get_ok (by omega) (by omega), ok_bind]
  obtain ⟨y', e, h1, h2⟩ := Row.loop (ε := Fault) (n := m) (a := k) (b := m) (t := y)
    (fun row v => Flt.add v (Flt.mul (Flt.div (lsum k m (fun r => Flt.mul (y.f r) (s.qrt.f k r)) Flt.zero)
      (Flt.mul (s.rDiag.f k) (s.qrt.f k k))) (s.qrt.f k row)))
    (body := fun row (y_1 : Row α m) => do
      y_1.set row (Flt.add (← y_1.get row) (Flt.mul (Flt.div
        (lsum k m (fun r => Flt.mul (y.f r) (s.qrt.f k r)) Flt.zero)
        (Flt.mul (s.rDiag.f k) (s.qrt.f k k))) (← s.qrt.get k row)))) (by
    intro i y' h1 h2 h3
    rw [Row.get_ok h2, ok_bind, Tab.get_ok (by omega) h2, ok_bind, Row.set_ok h2, h3 i (by omega)])
  rw [e]
  exact hI.step ⟨.inl rfl, h1, fun i hi => h2 i (by omega)⟩

theorem QR.back_bits (s : QR α m n p) (hp : p = min m n) (y : Row α m) :
    ∃ xy : Row α n × Row α m, forDown p 0 (fun row (xy : Row α n × Row α m) => do
      let y ← xy.2.set row (Flt.div (← xy.2.get row) (← s.rDiag.get row))
      let yRow ← y.get row
      let x ← xy.1.set row yRow
      let y ← forUp 0 row (fun i (y : Row α m) => do
        y.set i (Flt.sub (← y.get i) (Flt.mul yRow (← s.qrt.get row i)))) y
      return (x, y)) (Row.zero n, y) = .ok xy ∧
      QR.Back p s.qrt.f s.rDiag.f y.f xy.1.f ∧ ∀ i, p ≤ i → xy.1.f i = Flt.zero := by
  have hb : ∀ k (xy : Row α n × Row α m), k < p → ∃ xy' : Row α n × Row α m,
      (do
        let y ← xy.2.set k (Flt.div (← xy.2.get k) (← s.rDiag.get k))
        let yRow ← y.get k
        let x ← xy.1.set k yRow
        let y ← forUp 0 k (fun i (y : Row α m) => do
          y.set i (Flt.sub (← y.get i) (Flt.mul yRow (← s.qrt.get k i)))) y
        return (x, y) : Res _) = .ok xy' ∧
      (∀ i, k < i → xy'.2.f i = xy.2.f i) ∧ xy'.2.f k = Flt.div (xy.2.f k) (s.rDiag.f k) ∧
      (∀ i, i < k → xy'.2.f i = Flt.sub (xy.2.f i) (Flt.mul (xy'.2.f k) (s.qrt.f k i))) ∧
      ∀ i, xy'.1.f i = if i = k then xy'.2.f k else xy.1.f i := by
    rintro k ⟨x, z⟩ hk
    dsimp only
    rw [Row.get_ok (by omega), ok_bind, Row.get_ok hk, ok_bind, Row.set_ok (by omega), ok_bind,
      Row.get_ok (by omega), ok_bind, Row.set_ok (by omega), ok_bind]
    dsimp only
    rw [upd1_eq z.f k _ k, if_pos rfl]
    obtain ⟨z', e, h4, h5⟩ := Row.loop (ε := Fault) (n := m) (a := 0) (b := k)
      (t := (⟨upd1 z.f k (Flt.div (z.f k) (s.rDiag.f k))⟩ : Row α m))
      (fun i v => Flt.sub v (Flt.mul (Flt.div (z.f k) (s.rDiag.f k)) (s.qrt.f k i)))
      (body := fun i (y : Row α m) => do
        y.set i (Flt.sub (← y.get i) (Flt.mul (Flt.div (z.f k) (s.rDiag.f k)) (← s.qrt.get k i)))) (by
      intro i z' _ h4 h5
      rw [Row.get_ok (by omega), ok_bind, Tab.get_ok (by omega) (by omega), ok_bind,
        Row.set_ok (by omega), h5 i (by omega)])
    rw [e, ok_bind]
    dsimp only at h4 h5
    have hzk : z'.f k = Flt.div (z.f k) (s.rDiag.f k) := by
      rw [h5 k (by omega), upd1_eq, if_pos rfl]
    refine ⟨_, rfl, fun i hi => ?_, hzk, fun i hi => ?_, fun i => ?_⟩
    · dsimp only
      rw [h5 i (by omega), upd1_eq, if_neg (by omega)]
    · dsimp only
      rw [h4 i (Nat.zero_le _) hi, upd1_eq, if_neg (by omega), hzk]
    · dsimp only
      rw [upd1_eq, hzk]
  obtain ⟨xy, e, h1⟩ := bwdBits (ε := Fault) (n := p) (ι := Unit) (fun _ (s : Row α n × Row α m) => s.2.f)
    (fun k v => Flt.div v (s.rDiag.f k)) (fun i k v => Flt.mul v (s.qrt.f k i)) (fun k xy hk => by
      obtain ⟨xy', e, h1, h2, h3, -⟩ := hb k xy hk
      exact ⟨xy', e, fun _ => ⟨fun i hi _ => h1 i hi, h2, h3⟩⟩) (Row.zero n, y)
  obtain ⟨xy', e', h2, h3⟩ := Wp.exists_ok (wp_forDown (E := fun _ : Fault => False)
    (s := (Row.zero n, y)) (a := p) (b := 0) (body := fun row (xy : Row α n × Row α m) => do
      let y ← xy.2.set row (Flt.div (← xy.2.get row) (← s.rDiag.get row))
      let yRow ← y.get row
      let x ← xy.1.set row yRow
      let y ← forUp 0 row (fun i (y : Row α m) => do
        y.set i (Flt.sub (← y.get i) (Flt.mul yRow (← s.qrt.get row i)))) y
      return (x, y)) (fun k (xy : Row α n × Row α m) =>
      (∀ i, k ≤ i → i < p → xy.1.f i = xy.2.f i) ∧ ∀ i, p ≤ i → xy.1.f i = Flt.zero) (Nat.zero_le _)
    (And.intro (by omega) (fun _ _ => rfl)) (by
      rintro k xy - hk ⟨h2, h3⟩
      obtain ⟨xy', e, h4, -, -, h5⟩ := hb k xy hk
      rw [e]
      refine ⟨fun i h6 h7 => ?_, fun i h6 => ?_⟩
      · rw [h5]
        by_cases e : i = k
        · rw [if_pos e, e]
        · rw [if_neg e, h2 i (by omega) h7, h4 i (by omega)]
      · rw [h5, if_neg (by omega), h3 i h6]))
  rw [e] at e'
  cases Except.ok.inj e'
  refine ⟨xy, e, ?_, h3⟩
  refine QR.Back.congr (x := xy.2.f) (fun i hi => .inl (h1 () i hi)) fun i hi => h2 i (Nat.zero_le _) hi

/-- `SolveVector`, when the test for singularity is passed. -/
theorem QR.solveVector_bits (s : QR α m n p) (hp : p = min m n) (hn : 0 < n) {thr : α}
    (hc : checkSingular s.rDiag thr = .ok false) {b : RVec α} (hb : b.dim = m) :
    ∃ (x : List α) (y : Nat → α), s.solveVector thr b = .ok x ∧ x.length = n ∧
      QR.Refl m s.qrt.f s.rDiag.f (nth b.list) p y ∧ QR.Back p s.qrt.f s.rDiag.f y (nth x) ∧
      ∀ i, p ≤ i → nth x i = Flt.zero := by
  unfold QR.solveVector
  rw [if_neg (by omega), if_neg (by simpa using hb), hc, ok_bind, if_neg (by simp)]
  obtain ⟨y, e1, h1⟩ := QR.transform_bits s hp (b.toRow m)
  obtain ⟨xy, e2, h2, h3⟩ := QR.back_bits s hp y
  rw [RVec.toRow_nth] at h1
  have hx : ∀ i, i < n → nth xy.1.toList i = xy.1.f i := fun i hi => by
    have h2 := (Row.toList_isList xy.1).2 i hi
    simp [nth, h2]
  refine ⟨xy.1.toList, y.f, ?_, by simp, h1, h2.congr fun i hi => hx i (by omega), fun i hi => ?_⟩
  · refine Eq.trans (congrArg (fun z : Res (Row α m) => z >>= _) e1) ?_
    exact congrArg (fun z : Res (Row α n × Row α m) => z >>= fun xy => .ok xy.1.toList) e2
  · by_cases e : i < n
    · rw [hx i e, h3 i hi]
    · have : xy.1.toList[i]? = none := List.getElem?_eq_none (by simp; omega)
      simp [nth, this]

/-! ## The blocked solver -/

theorem QR.applyBlock_bits (s : QR α m n p) (hp : p = min m n) {w : Nat} (hw : w ≤ 52) (b : Tab α m 52) :
    ∃ y : Tab α m 52, s.applyBlock w b = .ok y ∧
      ∀ c, c < w → QR.Refl m s.qrt.f s.rDiag.f (fun i => b.f i c) p fun i => y.f i c := by
  subst hp
  unfold QR.applyBlock
  obtain ⟨ya, e, h⟩ := Wp.exists_ok (wp_forUp (E := fun _ : Fault => False) (a := 0) (b := min m n)
    (s := (b, Row.zero 52))
    (body := fun minor (ya : Tab α m 52 × Row α 52) => do
      let factor := Flt.div Flt.one (Flt.mul (← s.rDiag.get minor) (← s.qrt.get minor minor))
      let alpha ← forUp 0 w (fun i (alpha : Row α 52) => alpha.set i Flt.zero) ya.2
      let alpha ← forUp minor m (fun row (alpha : Row α 52) => do
        let d ← s.qrt.get minor row
        forUp 0 w (fun k (alpha : Row α 52) => do
          alpha.set k (Flt.add (← alpha.get k) (Flt.mul d (← ya.1.get row k)))) alpha) alpha
      let alpha ← forUp 0 w (fun k (alpha : Row α 52) => do
        alpha.set k (Flt.mul (← alpha.get k) factor)) alpha
      let y ← forUp minor m (fun row (y : Tab α m 52) => do
        let d ← s.qrt.get minor row
        forUp 0 w (fun k (y : Tab α m 52) => do
          y.set row k (Flt.add (← y.get row k) (Flt.mul (← alpha.get k) d))) y) ya.1
      return (y, alpha))
    (fun k (ya : Tab α m 52 × Row α 52) => ∀ c, c < w →
      QR.Refl m s.qrt.f s.rDiag.f (fun i => b.f i c) k fun i => ya.1.f i c) (Nat.zero_le _)
    (fun c _ => .zero fun _ _ => rfl) (by
    rintro k ⟨y, al⟩ - hk hI
    dsimp only at hI ⊢
    rw [Row.get_ok hk, ok_bind, Tab.get_ok (by omega) (by omega), ok_bind]
    obtain ⟨a1, e1, h1, -⟩ := Row.loop (ε := Fault) (n := 52) (a := 0) (b := w) (t := al)
      (fun _ _ => Flt.zero) (body := fun i (alpha : Row α 52) => alpha.set i Flt.zero) (by
      intro i t' _ h2 _
      rw [Row.set_ok (by omega)])
    rw [e1, ok_bind]
    obtain ⟨a2, e2, h2⟩ := Wp.exists_ok (wp_forUp (E := fun _ : Fault => False) (a := k) (b := m)
      (s := a1) (body := fun row (alpha : Row α 52) => do
        let d ← s.qrt.get k row
        forUp 0 w (fun k (alpha : Row α 52) => do
          alpha.set k (Flt.add (← alpha.get k) (Flt.mul d (← y.get row k)))) alpha)
      (fun row (a : Row α 52) => ∀ c, c < w →
        a.f c = lsum k row (fun r => Flt.mul (s.qrt.f k r) (y.f r c)) Flt.zero) (by omega)
      (by intro c hc; rw [h1 c (Nat.zero_le _) hc, lsum_self le_rfl]) (by
      intro row a h2 h3 h4
      rw [Tab.get_ok (by omega) h3, ok_bind]
      obtain ⟨a', e', h5, -⟩ := Row.loop (ε := Fault) (n := 52) (a := 0) (b := w) (t := a)
        (fun c v => Flt.add v (Flt.mul (s.qrt.f k row) (y.f row c)))
        (body := fun c (alpha : Row α 52) => do
          alpha.set c (Flt.add (← alpha.get c) (Flt.mul (s.qrt.f k row) (← y.get row c)))) (by
        intro i t' _ h5 h6
        rw [Row.get_ok (by omega), ok_bind, Tab.get_ok h3 (by omega), ok_bind, Row.set_ok (by omega),
          h6 i (by omega)])
      rw [e']
      intro c hc
      rw [h5 c (Nat.zero_le _) hc, h4 c hc, lsum_succ h2]))
    rw [e2, ok_bind]
    obtain ⟨a3, e3, h3, -⟩ := Row.loop (ε := Fault) (n := 52) (a := 0) (b := w) (t := a2)
      (fun _ v => Flt.mul v (Flt.div Flt.one (Flt.mul (s.rDiag.f k) (s.qrt.f k k))))
      (body := fun c (alpha : Row α 52) => do
        alpha.set c (Flt.mul (← alpha.get c)
          (Flt.div Flt.one (Flt.mul (s.rDiag.f k) (s.qrt.f k k))))) (by
      intro i t' _ h5 h6
      rw [Row.get_ok (by omega), ok_bind, Row.set_ok (by omega), h6 i (by omega)])
    rw [e3, ok_bind]
    obtain ⟨y', e4, h4, h5⟩ := Tab.rowsLoop (ε := Fault) (r := m) (c := 52) (a := k) (b := m) (p := 0)
      (q := w) (t := y) (fun row c v => Flt.add v (Flt.mul (a3.f c) (s.qrt.f k row)))
      (body := fun row (y : Tab α m 52) => do
        let d ← s.qrt.get k row
        forUp 0 w (fun k (y : Tab α m 52) => do
          y.set row k (Flt.add (← y.get row k) (Flt.mul (← a3.get k) d))) y) (by
      intro row t' h5 h6 h7
      rw [Tab.get_ok (by omega) h6, ok_bind]
      obtain ⟨t'', e', h8, h9⟩ := Tab.rowLoop (ε := Fault) (r := m) (c := 52) (a := 0) (b := w)
        (i := row) (t := t') (fun c v => Flt.add v (Flt.mul (a3.f c) (s.qrt.f k row)))
        (body := fun k_1 (y : Tab α m 52) => do
          y.set row k_1 (Flt.add (← y.get row k_1) (Flt.mul (← a3.get k_1) (s.qrt.f k row)))) (by
        intro c t'' _ h8 h9
        rw [Tab.get_ok h6 (by omega), ok_bind, Row.get_ok (by omega), ok_bind,
          Tab.set_ok h6 (by omega), h9 row c (by omega)])
      refine ⟨t'', e', fun c h10 h11 => ?_, h9⟩
      rw [h8 c h10 h11, h7 row c (by omega)])
    rw [e4, ok_bind]
    intro c hc
    refine (hI c hc).step (al := a3.f c) ⟨.inr ?_, fun i hi hi' => h4 i c hi hi' (Nat.zero_le _) hc,
      fun i hi => h5 i c (by omega)⟩
    rw [h3 c (Nat.zero_le _) hc, h2 c hc]))
  rw [e, ok_bind]
  exact ⟨ya.1, rfl, h⟩

theorem QR.backBlock_bits (s : QR α m n p) (hp : p = min m n)
    {kB : Nat} (_hk : kB < nBlocks q) (x : Blocks α n q) (y : Tab α m 52) :
    ∃ xy : Blocks α n q × Tab α m 52, s.backBlock kB (blkExt q kB) (x, y) = .ok xy ∧
      (∀ c, c < blkExt q kB → QR.Back p s.qrt.f s.rDiag.f (fun i => y.f i c)
        fun i => entB xy.1 i (kB * 52 + c)) ∧
      ∀ i c, ¬ (i < p ∧ kB * 52 ≤ c ∧ c < kB * 52 + blkExt q kB) → entB xy.1 i c = entB x i c := by
  have hw := blkExt_le q kB
  have hcell : ∀ j c, c < blkExt q kB → j / 52 * nBlocks q + kB = blkIdx q j (kB * 52 + c) ∧
      (j - j / 52 * 52) * blkExt q kB + c = blkOff q j (kB * 52 + c) := by
    intro j c hc
    have h1 : (kB * 52 + c) / 52 = kB := by omega
    have h2 : (kB * 52 + c) % 52 = c := by omega
    constructor
    · rw [blkIdx, h1]
    · rw [blkOff_eq (blkExt_add_lt hc), h1, h2]
      congr 2
      omega
  unfold QR.backBlock
  have hb : ∀ j (xy : Blocks α n q × Tab α m 52), j < p → ∃ xy' : Blocks α n q × Tab α m 52,
      (do
        let jBlock := j / BLOCK_SIZE
        let jStart := jBlock * BLOCK_SIZE
        let factor := Flt.div Flt.one (← s.rDiag.get j)
        let index := (j - jStart) * blkExt q kB
        let xy ← forUp 0 (blkExt q kB) (fun k (xy : Blocks α n q × Tab α m 52) => do
          let y ← xy.2.set j k (Flt.mul (← xy.2.get j k) factor)
          let x ← xy.1.set (jBlock * nBlocks q + kB) (index + k) (← y.get j k)
          return (x, y)) xy
        let y ← forUp 0 j (fun i (y : Tab α m 52) => do
          let rIJ ← s.qrt.get j i
          forUp 0 (blkExt q kB) (fun k (y : Tab α m 52) => do
            y.set i k (Flt.sub (← y.get i k) (Flt.mul (← y.get j k) rIJ))) y) xy.2
        return (xy.1, y) : Res _) = .ok xy' ∧
      (∀ i c, j < i → xy'.2.f i c = xy.2.f i c) ∧
      (∀ c, c < blkExt q kB → xy'.2.f j c = Flt.mul (xy.2.f j c) (Flt.div Flt.one (s.rDiag.f j))) ∧
      (∀ i c, i < j → c < blkExt q kB →
        xy'.2.f i c = Flt.sub (xy.2.f i c) (Flt.mul (xy'.2.f j c) (s.qrt.f j i))) ∧
      ∀ i c, entB xy'.1 i c = if i = j ∧ kB * 52 ≤ c ∧ c < kB * 52 + blkExt q kB then
        xy'.2.f j (c - kB * 52) else entB xy.1 i c := by
    rintro j ⟨x1, y1⟩ hj
    dsimp only
    rw [Row.get_ok hj, ok_bind]
    obtain ⟨xy2, e2, h3, h4, h5⟩ := Wp.exists_ok (wp_forUp (E := fun _ : Fault => False) (a := 0)
      (b := blkExt q kB) (s := (x1, y1)) (body := fun k (xy : Blocks α n q × Tab α m 52) => do
        let y ← xy.2.set j k (Flt.mul (← xy.2.get j k) (Flt.div Flt.one (s.rDiag.f j)))
        let x ← xy.1.set (j / BLOCK_SIZE * nBlocks q + kB)
          ((j - j / BLOCK_SIZE * BLOCK_SIZE) * blkExt q kB + k) (← y.get j k)
        return (x, y)) (fun k (xy : Blocks α n q × Tab α m 52) =>
        (∀ c, c < k → xy.2.f j c = Flt.mul (y1.f j c) (Flt.div Flt.one (s.rDiag.f j))) ∧
        (∀ i c, ¬ (i = j ∧ c < k) → xy.2.f i c = y1.f i c) ∧
        ∀ i c, entB xy.1 i c = if i = j ∧ kB * 52 ≤ c ∧ c < kB * 52 + k then
          Flt.mul (y1.f j (c - kB * 52)) (Flt.div Flt.one (s.rDiag.f j)) else entB x1 i c) (Nat.zero_le _)
      (And.intro (by omega) (And.intro (fun _ _ _ => rfl) (fun i c => by rw [if_neg (by omega)]))) (by
      rintro k ⟨x2, y2⟩ - hk2 ⟨h3, h4, h5⟩
      dsimp only at h3 h4 h5 ⊢
      rw [Tab.get_ok (by omega) (by omega), ok_bind, Tab.set_ok (by omega) (by omega), ok_bind,
        Tab.get_ok (by omega) (by omega), ok_bind, (hcell j k hk2).1,
        (hcell j k hk2).2]
      obtain ⟨x3, e3, h6⟩ := set_cell x2 (i := j) (j := kB * 52 + k) (upd2 y2.f j k
        (Flt.mul (y2.f j k) (Flt.div Flt.one (s.rDiag.f j))) j k) (by omega) (blkExt_add_lt hk2)
      dsimp only
      rw [e3, ok_bind]
      have hv : upd2 y2.f j k (Flt.mul (y2.f j k) (Flt.div Flt.one (s.rDiag.f j))) j k =
          Flt.mul (y1.f j k) (Flt.div Flt.one (s.rDiag.f j)) := by
        rw [upd2_eq, if_pos ⟨rfl, rfl⟩, h4 j k (by omega)]
      rw [hv] at h6
      refine ⟨fun c hc => ?_, fun i c hc => ?_, fun i c => ?_⟩
      · by_cases e : c = k
        · subst e; exact hv
        · dsimp only
          rw [upd2_eq, if_neg (by omega), h3 c (by omega)]
      · dsimp only
        rw [upd2_eq, if_neg (by omega), h4 i c (by omega)]
      · dsimp only
        rw [h6, upd2_eq, h5]
        by_cases e : i = j ∧ c = kB * 52 + k
        · rw [if_pos e, if_pos (by omega), show c - kB * 52 = k by omega]
        · rw [if_neg e]
          refine if_congr ?_ rfl rfl
          omega))
    rw [e2, ok_bind]
    obtain ⟨y3, e3, h6, h7⟩ := Tab.rowsLoop (ε := Fault) (r := m) (c := 52) (a := 0) (b := j) (p := 0)
      (q := blkExt q kB) (t := xy2.2) (fun i c v => Flt.sub v (Flt.mul (xy2.2.f j c) (s.qrt.f j i)))
      (body := fun i (y : Tab α m 52) => do
        let rIJ ← s.qrt.get j i
        forUp 0 (blkExt q kB) (fun k (y : Tab α m 52) => do
          y.set i k (Flt.sub (← y.get i k) (Flt.mul (← y.get j k) rIJ))) y) (by
      intro i t' _ h6 h7
      rw [Tab.get_ok (by omega) (by omega), ok_bind]
      obtain ⟨t'', e', h8, h9⟩ := Tab.rowLoop (ε := Fault) (r := m) (c := 52) (a := 0)
        (b := blkExt q kB) (i := i) (t := t')
        (fun c v => Flt.sub v (Flt.mul (xy2.2.f j c) (s.qrt.f j i)))
        (body := fun k (y : Tab α m 52) => do
          y.set i k (Flt.sub (← y.get i k) (Flt.mul (← y.get j k) (s.qrt.f j i)))) (by
        intro c t'' _ h8 h9
        rw [Tab.get_ok (by omega) (by omega), ok_bind, Tab.get_ok (by omega) (by omega), ok_bind,
          Tab.set_ok (by omega) (by omega), h9 i c (by omega), h9 j c (by omega), h7 j c (by omega)])
      refine ⟨t'', e', fun c h10 h11 => ?_, h9⟩
      rw [h8 c h10 h11, h7 i c (by omega)])
    rw [e3, ok_bind]
    refine ⟨_, rfl, fun i c hi => ?_, fun c hc => ?_, fun i c hi hc => ?_, fun i c => ?_⟩
    · dsimp only
      rw [h7 i c (by omega), h4 i c (by omega)]
    · dsimp only
      rw [h7 j c (by omega), h3 c hc]
    · dsimp only
      rw [h6 i c (Nat.zero_le _) hi (Nat.zero_le _) hc, h7 j c (by omega), h4 i c (by omega)]
    · dsimp only
      rw [h5]
      by_cases hc : i = j ∧ kB * 52 ≤ c ∧ c < kB * 52 + blkExt q kB
      · rw [if_pos hc, if_pos hc, h7 j _ (by omega), h3 _ (by omega)]
      · rw [if_neg hc, if_neg hc]
  obtain ⟨xy, e, h1⟩ := bwdBits (ε := Fault) (n := p) (ι := Fin (blkExt q kB))
    (fun c (s : Blocks α n q × Tab α m 52) i => s.2.f i c)
    (fun k v => Flt.mul v (Flt.div Flt.one (s.rDiag.f k))) (fun i k v => Flt.mul v (s.qrt.f k i))
    (fun k xy hk => by
      obtain ⟨xy', e, h1, h2, h3, -⟩ := hb k xy hk
      exact ⟨xy', e, fun c => ⟨fun i hi _ => h1 i c hi, h2 c c.2, fun i hi => h3 i c hi c.2⟩⟩) (x, y)
  obtain ⟨xy', e', h2⟩ := Wp.exists_ok (wp_forDown (E := fun _ : Fault => False) (a := p) (b := 0)
    (s := (x, y)) (body := fun j (xy : Blocks α n q × Tab α m 52) => do
      let jBlock := j / BLOCK_SIZE
      let jStart := jBlock * BLOCK_SIZE
      let factor := Flt.div Flt.one (← s.rDiag.get j)
      let index := (j - jStart) * blkExt q kB
      let xy ← forUp 0 (blkExt q kB) (fun k (xy : Blocks α n q × Tab α m 52) => do
        let y ← xy.2.set j k (Flt.mul (← xy.2.get j k) factor)
        let x ← xy.1.set (jBlock * nBlocks q + kB) (index + k) (← y.get j k)
        return (x, y)) xy
      let y ← forUp 0 j (fun i (y : Tab α m 52) => do
        let rIJ ← s.qrt.get j i
        forUp 0 (blkExt q kB) (fun k (y : Tab α m 52) => do
          y.set i k (Flt.sub (← y.get i k) (Flt.mul (← y.get j k) rIJ))) y) xy.2
      return (xy.1, y))
    (fun k (xy : Blocks α n q × Tab α m 52) =>
      ∀ i c, entB xy.1 i c = if k ≤ i ∧ i < p ∧ kB * 52 ≤ c ∧ c < kB * 52 + blkExt q kB then
        xy.2.f i (c - kB * 52) else entB x i c) (Nat.zero_le _)
    (fun i c => by rw [if_neg (by omega)]) (by
      rintro j xy - hj h2
      obtain ⟨xy', e, h3, -, -, h4⟩ := hb j xy hj
      rw [e]
      intro i c
      rw [h4, h2]
      by_cases hc : kB * 52 ≤ c ∧ c < kB * 52 + blkExt q kB
      · by_cases e : i = j
        · subst e
          rw [if_pos (by omega), if_pos (by omega)]
        · rw [if_neg (by omega)]
          by_cases e' : j + 1 ≤ i ∧ i < p
          · rw [if_pos (by omega), if_pos (by omega), h3 i _ (by omega)]
          · rw [if_neg (by omega), if_neg (by omega)]
      · rw [if_neg (by omega), if_neg (by omega), if_neg (by omega)]))
  rw [e] at e'
  cases Except.ok.inj e'
  refine ⟨xy, e, fun c hc => ?_, fun i c h => ?_⟩
  · refine QR.Back.congr (x := fun i => xy.2.f i c) (fun i hi => .inr (h1 ⟨c, hc⟩ i hi)) fun i hi => ?_
    rw [h2, if_pos (by omega), show kB * 52 + c - kB * 52 = c by omega]
  · rw [h2, if_neg (by omega)]

theorem QR.Refl.congr {f : Nat → Nat → α} {d b b' y : Nat → α} {k : Nat} (h : QR.Refl m f d b k y)
    (hb : ∀ i, i < m → b i = b' i) : QR.Refl m f d b' k y := by
  induction h with
  | zero h => exact .zero fun i hi => (h i hi).trans (hb i hi)
  | step _ hs ih => exact ih.step hs

/-- `SolveMatrix`, when the test for singularity is passed. -/
theorem QR.solveMatrix_bits (s : QR α m n p) (hp : p = min m n) (hm : 0 < m) (hn : 0 < n) {thr : α}
    (hs : checkSingular s.rDiag thr = .ok false) (b : Mat α m q) {B : Nat → Nat → α} (hB : Shows b.at m q B) :
    ∃ x : Blocks α n q, s.solveMatrix thr b = .ok ⟨n, q, .blk ⟨x⟩⟩ ∧
      (∀ c, c < q → ∃ y, QR.Refl m s.qrt.f s.rDiag.f (fun i => B i c) p y ∧
        QR.Back p s.qrt.f s.rDiag.f y fun i => entB x i c) ∧
      ∀ i c, p ≤ i → entB x i c = Flt.zero := by
  subst hp
  unfold QR.solveMatrix
  rw [if_neg (by omega), dif_pos rfl, hs, ok_bind, if_neg (by simp), Mat.colDim_ok hm, ok_bind]
  obtain ⟨xy, e, h1⟩ := Wp.exists_ok (wp_forUp (E := fun _ : Fault => False) (a := 0) (b := nBlocks q)
    (s := ((Jag.zero _ _ : Blocks α n q), (Jag.zero m _ : Tab α m 52)))
    (body := s.solveBlock b)
    (fun k (xy : Blocks α n q × Tab α m 52) =>
      (∀ c, c < q → c < k * 52 → ∃ y, QR.Refl m s.qrt.f s.rDiag.f (fun i => B i c) (min m n) y ∧
        QR.Back (min m n) s.qrt.f s.rDiag.f y fun i => entB xy.1 i c) ∧
      ∀ i c, min m n ≤ i → entB xy.1 i c = Flt.zero) (Nat.zero_le _)
    (And.intro (by omega) (fun i c _ => by rw [entB_zero])) (by
    rintro kB ⟨x1, y1⟩ - hk ⟨h1, h2⟩
    unfold QR.solveBlock
    dsimp only at h1 h2 ⊢
    have hlt := mul_lt_of_lt_nBlocks hk
    have hwd : min (kB * BLOCK_SIZE + BLOCK_SIZE) q - kB * BLOCK_SIZE = blkExt q kB := (blkExt_eq q kB).symm
    have hw := blkExt_le q kB
    have hpos := blkExt_pos hk
    have hend := blkExt_end hk
    obtain ⟨l, e1, h3⟩ := Mat.copySubMatrix_ok hB (sr := 0) (er := m - 1) (sc := kB * 52)
      (ec := min (kB * 52 + 52) q - 1) (by unfold window; omega) (dest := y1.toLists)
      (by rw [show m - 1 + 1 - 0 = m by omega]; exact toLists_room y1 (by omega))
    have e1' : b.copySubMatrix 0 ((m : Int) - 1) ((kB * BLOCK_SIZE : Nat) : Int)
        (((min (kB * BLOCK_SIZE + BLOCK_SIZE) q : Nat) : Int) - 1) y1.toLists = .ok l := by
      rw [← e1, show ((m : Int) - 1) = ((m - 1 : Nat) : Int) by omega,
        show ((min (kB * 52 + 52) q : Nat) : Int) - 1 = ((min (kB * 52 + 52) q - 1 : Nat) : Int) by omega]
      rfl
    rw [e1', hwd]
    show Wp (s.applyBlock (blkExt q kB) (Tab.ofLists m 52 l) >>= _) _ _
    obtain ⟨y2, e2, h4⟩ := QR.applyBlock_bits s rfl hw (Tab.ofLists m 52 l)
    rw [e2, ok_bind]
    obtain ⟨xy3, e3, h5, h6⟩ := QR.backBlock_bits s rfl hk x1 y2
    rw [e3]
    refine ⟨fun c hc hck => ?_, fun i c hi => ?_⟩
    · by_cases e : c < kB * 52
      · obtain ⟨y, a1, a2⟩ := h1 c hc e
        exact ⟨y, a1, a2.congr fun i hi => h6 i c (by omega)⟩
      · refine ⟨_, (h4 (c - kB * 52) (by omega)).congr fun i hi => ofLists_cell ?_, ?_⟩
        · rw [h3.2, if_pos (by omega)]
          dsimp only
          rw [Nat.zero_add, show kB * 52 + (c - kB * 52) = c by omega]
        · have := h5 (c - kB * 52) (by omega)
          rwa [show kB * 52 + (c - kB * 52) = c by omega] at this
    · rw [h6 i c (by omega), h2 i c hi]))
  rw [e, ok_bind]
  refine ⟨xy.1, rfl, fun c hc => h1.1 c hc ?_, h1.2⟩
  rw [nBlocks_eq]; omega

end Linear
