import Verif.Lemmas.QRSolve

/-!
# Lemmas on the blocked matrix solver of the QR decompositions
-/

set_option linter.unusedSectionVars false

namespace Linear

open Spec Finset Matrix

theorem ofLists_cell {α : Type} [Flt α] {r c : Nat} {l : List (List α)} {i j : Nat} {v : α}
    (h : cell l i j = some v) : (Tab.ofLists r c l).f i j = v := by
  unfold cell at h
  show (l.getD i []).getD j Flt.zero = v
  rw [List.getD_eq_getElem?_getD, List.getD_eq_getElem?_getD]
  cases e : l[i]? with
  | none => rw [e] at h; cases h
  | some row =>
    rw [e] at h
    have h : row[j]? = some v := h
    show row[j]?.getD Flt.zero = v
    rw [h]
    rfl

theorem toLists_room {α : Type} [Flt α] {r c : Nat} (t : Tab α r c) {c' : Nat} (h : c' ≤ c) :
    room t.toLists r c' := by
  intro i hi
  obtain ⟨row, e, h1, -⟩ := (Jag.toLists_rect t).2 i hi
  exact ⟨row, e, by omega⟩

section exact

variable {K : Type} [Field K] [LinearOrder K] [IsStrictOrderedRing K] [Flt K] [Exact K] [ExactSqrt K]
variable {m n p q : Nat}

theorem QR.applyBlock_ok (s : QR K m n p) (hp : p = min m n) (hf : ∀ i, i < p → s.qrt.f i i ≠ 0)
    {w : Nat} (hw : w ≤ 52) (b : Tab K m 52) :
    ∃ y : Tab K m 52, s.applyBlock w b = .ok y ∧
      mx m w y.f = (hprod m (QR.H m s.qrt.f s.rDiag.f) (min m n))ᵀ * mx m w b.f := by
  subst hp
  unfold QR.applyBlock
  obtain ⟨ya, e, h⟩ := Wp.exists_ok (wp_forUp (E := fun _ : Fault => False) (a := 0) (b := min m n)
    (s := (b, Row.zero 52))
    (body := fun minor (ya : Tab K m 52 × Row K 52) => do
      let factor := Flt.div Flt.one (Flt.mul (← s.rDiag.get minor) (← s.qrt.get minor minor))
      let alpha ← forUp 0 w (fun i (alpha : Row K 52) => alpha.set i Flt.zero) ya.2
      let alpha ← forUp minor m (fun row (alpha : Row K 52) => do
        let d ← s.qrt.get minor row
        forUp 0 w (fun k (alpha : Row K 52) => do
          alpha.set k (Flt.add (← alpha.get k) (Flt.mul d (← ya.1.get row k)))) alpha) alpha
      let alpha ← forUp 0 w (fun k (alpha : Row K 52) => do
        alpha.set k (Flt.mul (← alpha.get k) factor)) alpha
      let y ← forUp minor m (fun row (y : Tab K m 52) => do
        let d ← s.qrt.get minor row
        forUp 0 w (fun k (y : Tab K m 52) => do
          y.set row k (Flt.add (← y.get row k) (Flt.mul (← alpha.get k) d))) y) ya.1
      return (y, alpha))
    (fun k (ya : Tab K m 52 × Row K 52) => mx m w ya.1.f =
      (hprod m (QR.H m s.qrt.f s.rDiag.f) k)ᵀ * mx m w b.f) (Nat.zero_le _)
    (by rw [hprod, Matrix.transpose_one, Matrix.one_mul]) (by
    rintro k ⟨y, al⟩ - hk hI
    dsimp only at hI ⊢
    rw [Row.get_ok hk, ok_bind, Tab.get_ok (by omega) (by omega), ok_bind]
    obtain ⟨a1, e1, h1, -⟩ := Row.loop (ε := Fault) (n := 52) (a := 0) (b := w) (t := al)
      (fun _ _ => Flt.zero) (body := fun i (alpha : Row K 52) => alpha.set i Flt.zero) (by
      intro i t' _ h2 _
      rw [Row.set_ok (by omega)])
    rw [e1, ok_bind]
    obtain ⟨a2, e2, h2⟩ := Wp.exists_ok (wp_forUp (E := fun _ : Fault => False) (a := k) (b := m)
      (s := a1) (body := fun row (alpha : Row K 52) => do
        let d ← s.qrt.get k row
        forUp 0 w (fun k (alpha : Row K 52) => do
          alpha.set k (Flt.add (← alpha.get k) (Flt.mul d (← y.get row k)))) alpha)
      (fun row (a : Row K 52) => ∀ c, c < w →
        a.f c = ∑ r ∈ Ico k row, s.qrt.f k r * y.f r c) (by omega)
      (by intro c hc; rw [h1 c (Nat.zero_le _) hc]; simp) (by
      intro row a h2 h3 h4
      rw [Tab.get_ok (by omega) h3, ok_bind]
      obtain ⟨a', e', h5, -⟩ := Row.loop (ε := Fault) (n := 52) (a := 0) (b := w) (t := a)
        (fun c v => Flt.add v (Flt.mul (s.qrt.f k row) (y.f row c)))
        (body := fun c (alpha : Row K 52) => do
          alpha.set c (Flt.add (← alpha.get c) (Flt.mul (s.qrt.f k row) (← y.get row c)))) (by
        intro i t' _ h5 h6
        rw [Row.get_ok (by omega), ok_bind, Tab.get_ok h3 (by omega), ok_bind, Row.set_ok (by omega),
          h6 i (by omega)])
      rw [e']
      intro c hc
      rw [h5 c (Nat.zero_le _) hc, h4 c hc, sum_Ico_succ_top h2, Exact.add_eq, Exact.mul_eq]))
    rw [e2, ok_bind]
    obtain ⟨a3, e3, h3, -⟩ := Row.loop (ε := Fault) (n := 52) (a := 0) (b := w) (t := a2)
      (fun _ v => Flt.mul v (Flt.div Flt.one (Flt.mul (s.rDiag.f k) (s.qrt.f k k))))
      (body := fun c (alpha : Row K 52) => do
        alpha.set c (Flt.mul (← alpha.get c)
          (Flt.div Flt.one (Flt.mul (s.rDiag.f k) (s.qrt.f k k))))) (by
      intro i t' _ h5 h6
      rw [Row.get_ok (by omega), ok_bind, Row.set_ok (by omega), h6 i (by omega)])
    rw [e3, ok_bind]
    obtain ⟨y', e4, h4, h5⟩ := Tab.rowsLoop (ε := Fault) (r := m) (c := 52) (a := k) (b := m) (p := 0)
      (q := w) (t := y) (fun row c v => Flt.add v (Flt.mul (a3.f c) (s.qrt.f k row)))
      (body := fun row (y : Tab K m 52) => do
        let d ← s.qrt.get k row
        forUp 0 w (fun k (y : Tab K m 52) => do
          y.set row k (Flt.add (← y.get row k) (Flt.mul (← a3.get k) d))) y) (by
      intro row t' h5 h6 h7
      rw [Tab.get_ok (by omega) h6, ok_bind]
      obtain ⟨t'', e', h8, h9⟩ := Tab.rowLoop (ε := Fault) (r := m) (c := 52) (a := 0) (b := w)
        (i := row) (t := t') (fun c v => Flt.add v (Flt.mul (a3.f c) (s.qrt.f k row)))
        (body := fun k_1 (y : Tab K m 52) => do
          y.set row k_1 (Flt.add (← y.get row k_1) (Flt.mul (← a3.get k_1) (s.qrt.f k row)))) (by
        intro c t'' _ h8 h9
        rw [Tab.get_ok h6 (by omega), ok_bind, Row.get_ok (by omega), ok_bind,
          Tab.set_ok h6 (by omega), h9 row c (by omega)])
      refine ⟨t'', e', fun c h10 h11 => ?_, h9⟩
      rw [h8 c h10 h11, h7 row c (by omega)])
    rw [e4, ok_bind]
    show mx m w y'.f = _
    rw [hprod, Matrix.transpose_mul, Matrix.mul_assoc, ← hI]
    rw [show (QR.H m s.qrt.f s.rDiag.f k)ᵀ = QR.H m s.qrt.f s.rDiag.f k from hh_transpose _ _ _ _]
    refine QR.H_col (hf k hk) fun i c hi hc => ?_
    unfold tl
    by_cases e : k ≤ i
    · rw [if_pos e, h4 i c e hi (Nat.zero_le _) hc, h3 c (Nat.zero_le _) hc, h2 c hc]
      simp only [Exact.add_eq, Exact.mul_eq, Exact.div_eq, Exact.one_eq]
      ring
    · rw [if_neg e, h5 i c (by omega)]
      ring))
  rw [e, ok_bind]
  exact ⟨ya.1, rfl, h⟩

theorem QR.backBlock_ok (s : QR K m n p) (hp : p = min m n) (hd : ∀ i, i < p → s.rDiag.f i ≠ 0)
    {kB : Nat} (_hk : kB < nBlocks q) (x : Blocks K n q) (y : Tab K m 52) :
    ∃ xy : Blocks K n q × Tab K m 52, s.backBlock kB (blkExt q kB) (x, y) = .ok xy ∧
      (∀ c, c < blkExt q kB → ∀ i, i < p →
        ∑ j ∈ Ico i p, QR.U s.qrt.f s.rDiag.f i j * entB xy.1 j (kB * 52 + c) = y.f i c) ∧
      ∀ i c, ¬ (i < p ∧ kB * 52 ≤ c ∧ c < kB * 52 + blkExt q kB) → entB xy.1 i c = entB x i c := by
  have hw := blkExt_le q kB
  have hcell : ∀ j c, c < blkExt q kB → j / 52 * nBlocks q + kB = blkIdx q j (kB * 52 + c) ∧
      (j - j / 52 * 52) * blkExt q kB + c = blkOff q j (kB * 52 + c) := by
    intro j c hc
    have h1 : (kB * 52 + c) / 52 = kB := by omega
    have h2 : (kB * 52 + c) % 52 = c := by omega
    constructor
    · rw [blkIdx, h1]
    · rw [blkOff_eq (blkExt_add_lt hc), h1, h2]
      congr 2
      omega
  unfold QR.backBlock
  obtain ⟨xy, e, h1⟩ := Wp.exists_ok (wp_forDown (E := fun _ : Fault => False) (a := p) (b := 0)
    (s := (x, y)) (body := fun j (xy : Blocks K n q × Tab K m 52) => do
      let jBlock := j / BLOCK_SIZE
      let jStart := jBlock * BLOCK_SIZE
      let factor := Flt.div Flt.one (← s.rDiag.get j)
      let index := (j - jStart) * blkExt q kB
      let xy ← forUp 0 (blkExt q kB) (fun k (xy : Blocks K n q × Tab K m 52) => do
        let y ← xy.2.set j k (Flt.mul (← xy.2.get j k) factor)
        let x ← xy.1.set (jBlock * nBlocks q + kB) (index + k) (← y.get j k)
        return (x, y)) xy
      let y ← forUp 0 j (fun i (y : Tab K m 52) => do
        let rIJ ← s.qrt.get j i
        forUp 0 (blkExt q kB) (fun k (y : Tab K m 52) => do
          y.set i k (Flt.sub (← y.get i k) (Flt.mul (← y.get j k) rIJ))) y) xy.2
      return (xy.1, y))
    (fun k (xy : Blocks K n q × Tab K m 52) =>
      (∀ c, c < blkExt q kB →
        Bwd p (QR.U s.qrt.f s.rDiag.f) (fun i => y.f i c) k fun i => xy.2.f i c) ∧
      ∀ i c, entB xy.1 i c = if k ≤ i ∧ i < p ∧ kB * 52 ≤ c ∧ c < kB * 52 + blkExt q kB then
        xy.2.f i (c - kB * 52) else entB x i c) (Nat.zero_le _)
    (And.intro (fun c _ => Bwd.init fun _ _ => rfl) (fun i c => by rw [if_neg (by omega)])) (by
    rintro j ⟨x1, y1⟩ - hj ⟨h1, h2⟩
    dsimp only at h1 h2 ⊢
    rw [Row.get_ok hj, ok_bind]
    obtain ⟨xy2, e2, h3, h4, h5⟩ := Wp.exists_ok (wp_forUp (E := fun _ : Fault => False) (a := 0)
      (b := blkExt q kB) (s := (x1, y1)) (body := fun k (xy : Blocks K n q × Tab K m 52) => do
        let y ← xy.2.set j k (Flt.mul (← xy.2.get j k) (Flt.div Flt.one (s.rDiag.f j)))
        let x ← xy.1.set (j / BLOCK_SIZE * nBlocks q + kB)
          ((j - j / BLOCK_SIZE * BLOCK_SIZE) * blkExt q kB + k) (← y.get j k)
        return (x, y)) (fun k (xy : Blocks K n q × Tab K m 52) =>
        (∀ c, c < k → xy.2.f j c = y1.f j c / s.rDiag.f j) ∧
        (∀ i c, ¬ (i = j ∧ c < k) → xy.2.f i c = y1.f i c) ∧
        ∀ i c, entB xy.1 i c = if i = j ∧ kB * 52 ≤ c ∧ c < kB * 52 + k then
          y1.f j (c - kB * 52) / s.rDiag.f j else entB x1 i c) (Nat.zero_le _)
      (And.intro (by omega) (And.intro (fun _ _ _ => rfl) (fun i c => by rw [if_neg (by omega)]))) (by
      rintro k ⟨x2, y2⟩ - hk2 ⟨h3, h4, h5⟩
      dsimp only at h3 h4 h5 ⊢
      rw [Tab.get_ok (by omega) (by omega), ok_bind, Tab.set_ok (by omega) (by omega), ok_bind,
        Tab.get_ok (by omega) (by omega), ok_bind, (hcell j k hk2).1,
        (hcell j k hk2).2]
      obtain ⟨x3, e3, h6⟩ := set_cell x2 (i := j) (j := kB * 52 + k) (upd2 y2.f j k
        (Flt.mul (y2.f j k) (Flt.div Flt.one (s.rDiag.f j))) j k) (by omega) (blkExt_add_lt hk2)
      dsimp only
      rw [e3, ok_bind]
      have hv : upd2 y2.f j k (Flt.mul (y2.f j k) (Flt.div Flt.one (s.rDiag.f j))) j k =
          y1.f j k / s.rDiag.f j := by
        rw [upd2_eq, if_pos ⟨rfl, rfl⟩, h4 j k (by omega), Exact.mul_eq, Exact.div_eq, Exact.one_eq]
        ring
      rw [hv] at h6
      refine ⟨fun c hc => ?_, fun i c hc => ?_, fun i c => ?_⟩
      · by_cases e : c = k
        · subst e; exact hv
        · dsimp only
          rw [upd2_eq, if_neg (by omega), h3 c (by omega)]
      · dsimp only
        rw [upd2_eq, if_neg (by omega), h4 i c (by omega)]
      · dsimp only
        rw [h6, upd2_eq, h5]
        by_cases e : i = j ∧ c = kB * 52 + k
        · rw [if_pos e, if_pos (by omega), show c - kB * 52 = k by omega]
        · rw [if_neg e]
          refine if_congr ?_ rfl rfl
          omega))
    rw [e2, ok_bind]
    obtain ⟨y3, e3, h6, h7⟩ := Tab.rowsLoop (ε := Fault) (r := m) (c := 52) (a := 0) (b := j) (p := 0)
      (q := blkExt q kB) (t := xy2.2) (fun i c v => Flt.sub v (Flt.mul (xy2.2.f j c) (s.qrt.f j i)))
      (body := fun i (y : Tab K m 52) => do
        let rIJ ← s.qrt.get j i
        forUp 0 (blkExt q kB) (fun k (y : Tab K m 52) => do
          y.set i k (Flt.sub (← y.get i k) (Flt.mul (← y.get j k) rIJ))) y) (by
      intro i t' _ h6 h7
      rw [Tab.get_ok (by omega) (by omega), ok_bind]
      obtain ⟨t'', e', h8, h9⟩ := Tab.rowLoop (ε := Fault) (r := m) (c := 52) (a := 0)
        (b := blkExt q kB) (i := i) (t := t')
        (fun c v => Flt.sub v (Flt.mul (xy2.2.f j c) (s.qrt.f j i)))
        (body := fun k (y : Tab K m 52) => do
          y.set i k (Flt.sub (← y.get i k) (Flt.mul (← y.get j k) (s.qrt.f j i)))) (by
        intro c t'' _ h8 h9
        rw [Tab.get_ok (by omega) (by omega), ok_bind, Tab.get_ok (by omega) (by omega), ok_bind,
          Tab.set_ok (by omega) (by omega), h9 i c (by omega), h9 j c (by omega), h7 j c (by omega)])
      refine ⟨t'', e', fun c h10 h11 => ?_, h9⟩
      rw [h8 c h10 h11, h7 i c (by omega)])
    rw [e3, ok_bind]
    refine ⟨fun c hc => (h1 c hc).step hj (by unfold QR.U; rw [if_pos rfl]; exact hd j hj) ?_ ?_ ?_,
      fun i c => ?_⟩
    · intro i h8 _
      dsimp only
      rw [h7 i c (by omega), h4 i c (by omega)]
    · dsimp only
      rw [h7 j c (by omega), h3 c hc]
      unfold QR.U
      rw [if_pos rfl]
    · intro i hi
      dsimp only
      rw [h6 i c (Nat.zero_le _) hi (Nat.zero_le _) hc, h7 j c (by omega), h4 i c (by omega)]
      unfold QR.U
      rw [if_neg (by omega), Exact.sub_eq, Exact.mul_eq]
      ring
    · dsimp only
      rw [h5, h2]
      by_cases hc : kB * 52 ≤ c ∧ c < kB * 52 + blkExt q kB
      · by_cases e : i = j
        · subst e
          rw [if_pos (by omega), if_pos (by omega), h7 i _ (by omega), h3 _ (by omega)]
        · rw [if_neg (by omega)]
          by_cases e' : j + 1 ≤ i ∧ i < p
          · rw [if_pos (by omega), if_pos (by omega), h7 i _ (by omega), h4 i _ (by omega)]
          · rw [if_neg (by omega), if_neg (by omega)]
      · rw [if_neg (by omega), if_neg (by omega), if_neg (by omega)]))
  refine ⟨xy, e, fun c hc i hi => ?_, fun i c h => ?_⟩
  · rw [← (h1.1 c hc).done hi]
    refine sum_congr rfl fun j hj => ?_
    have := mem_Ico.1 hj
    rw [h1.2, if_pos (by omega), show kB * 52 + c - kB * 52 = c by omega]
  · rw [h1.2, if_neg (by omega)]

/-- Entries of `Qᵀ B`. -/
def QR.Y (Q : Matrix (Fin m) (Fin m) K) (B : Nat → Nat → K) (i c : Nat) : K :=
  if h : i < m then ∑ r : Fin m, Q r ⟨i, h⟩ * B r c else 0

theorem QR.Y_mx (Q : Matrix (Fin m) (Fin m) K) (B : Nat → Nat → K) (q : Nat) :
    mx m q (QR.Y Q B) = Qᵀ * mx m q B := by
  ext i c
  show QR.Y Q B i c = _
  rw [QR.Y, dif_pos i.2, Matrix.mul_apply]
  rfl

theorem QR.solveMatrix_exact (s : QR K m n p) (hp : p = min m n) (hm : 0 < m) (hn : 0 < n) {thr : K}
    (hs : checkSingular s.rDiag thr = .ok false) (hd : ∀ i, i < p → s.rDiag.f i ≠ 0)
    (hf : ∀ i, i < p → s.qrt.f i i ≠ 0) (b : Mat K m q) {B : Nat → Nat → K} (hB : Shows b.at m q B) :
    ∃ x : Blocks K n q, s.solveMatrix thr b = .ok ⟨n, q, .blk ⟨x⟩⟩ ∧
      (∀ c, c < q → ∀ i, i < p → ∑ j ∈ Ico i p, QR.U s.qrt.f s.rDiag.f i j * entB x j c =
        QR.Y (hprod m (QR.H m s.qrt.f s.rDiag.f) p) B i c) ∧
      ∀ i c, p ≤ i → entB x i c = 0 := by
  subst hp
  unfold QR.solveMatrix
  rw [if_neg (by omega), dif_pos rfl, hs, ok_bind, if_neg (by simp), Mat.colDim_ok hm, ok_bind]
  generalize hQ : hprod m (QR.H m s.qrt.f s.rDiag.f) (min m n) = Q
  obtain ⟨xy, e, h1⟩ := Wp.exists_ok (wp_forUp (E := fun _ : Fault => False) (a := 0) (b := nBlocks q)
    (s := ((Jag.zero _ _ : Blocks K n q), (Jag.zero m _ : Tab K m 52)))
    (body := s.solveBlock b)
    (fun k (xy : Blocks K n q × Tab K m 52) =>
      (∀ c, c < q → c < k * 52 → ∀ i, i < min m n →
        ∑ j ∈ Ico i (min m n), QR.U s.qrt.f s.rDiag.f i j * entB xy.1 j c = QR.Y Q B i c) ∧
      ∀ i c, min m n ≤ i → entB xy.1 i c = 0) (Nat.zero_le _)
    (And.intro (by omega) (fun i c _ => by rw [entB_zero]; exact Exact.zero_eq)) (by
    rintro kB ⟨x1, y1⟩ - hk ⟨h1, h2⟩
    unfold QR.solveBlock
    dsimp only at h1 h2 ⊢
    have hlt := mul_lt_of_lt_nBlocks hk
    have hwd : min (kB * BLOCK_SIZE + BLOCK_SIZE) q - kB * BLOCK_SIZE = blkExt q kB := (blkExt_eq q kB).symm
    have hw := blkExt_le q kB
    have hpos := blkExt_pos hk
    have hend := blkExt_end hk
    obtain ⟨l, e1, h3⟩ := Mat.copySubMatrix_ok hB (sr := 0) (er := m - 1) (sc := kB * 52)
      (ec := min (kB * 52 + 52) q - 1) (by unfold window; omega) (dest := y1.toLists)
      (by rw [show m - 1 + 1 - 0 = m by omega]; exact toLists_room y1 (by omega))
    have e1' : b.copySubMatrix 0 ((m : Int) - 1) ((kB * BLOCK_SIZE : Nat) : Int)
        (((min (kB * BLOCK_SIZE + BLOCK_SIZE) q : Nat) : Int) - 1) y1.toLists = .ok l := by
      rw [← e1, show ((m : Int) - 1) = ((m - 1 : Nat) : Int) by omega,
        show ((min (kB * 52 + 52) q : Nat) : Int) - 1 = ((min (kB * 52 + 52) q - 1 : Nat) : Int) by omega]
      rfl
    rw [e1', hwd]
    show Wp (s.applyBlock (blkExt q kB) (Tab.ofLists m 52 l) >>= _) _ _
    obtain ⟨y2, e2, h4⟩ := QR.applyBlock_ok s rfl hf hw (Tab.ofLists m 52 l)
    rw [e2, ok_bind]
    obtain ⟨xy3, e3, h5, h6⟩ := QR.backBlock_ok s rfl hd hk x1 y2
    rw [e3]
    have hy : ∀ i c, i < m → c < blkExt q kB → y2.f i c = QR.Y Q B i (kB * 52 + c) := by
      have : mx m (blkExt q kB) y2.f = mx m (blkExt q kB) (QR.Y Q fun i c => B i (kB * 52 + c)) := by
        rw [QR.Y_mx, h4, hQ]
        congr 1
        refine mx_congr fun i c hi hc => ofLists_cell ?_
        rw [h3.2, if_pos (by omega)]
        dsimp only
        rw [Nat.zero_add]
      exact fun i c hi hc => mx_inj this hi hc
    refine ⟨fun c hc hck i hi => ?_, fun i c hi => ?_⟩
    · by_cases e : c < kB * 52
      · rw [← h1 c hc e i hi]
        refine sum_congr rfl fun j hj => ?_
        rw [h6 j c (by omega)]
      · have := h5 (c - kB * 52) (by omega) i hi
        rw [hy i _ (by omega) (by omega)] at this
        rw [show c = kB * 52 + (c - kB * 52) by omega]
        exact this
    · rw [h6 i c (by omega), h2 i c hi]))
  rw [e, ok_bind]
  refine ⟨xy.1, rfl, fun c hc => h1.1 c hc ?_, h1.2⟩
  rw [nBlocks_eq]; omega

end exact

end Linear
