import Verif.Lemmas.BlkOps2

/-!
# Block storage: `SetSubMatrix`, row and column matrices
-/

set_option linter.unusedSectionVars false
set_option linter.unusedSimpArgs false

namespace Linear

open Spec

variable {α : Type} [Flt α] {r c : Nat}

theorem Blk.setSubMatrix_ok (m : Blk α r c) {d : List (List α)} {p q : Nat} {B : Nat → Nat → α}
    {row col : Int} (hd : Rect d p q B) (hp : 0 < p) (hq : 0 < q)
    (hrow : 0 ≤ row ∧ row + p ≤ r) (hcol : 0 ≤ col ∧ col + q ≤ c) :
    ∃ m', m.setSubMatrix (some d) row col = .ok m' ∧
      Wr (fun x y => B (x - row.toNat) (y - col.toNat))
        (fun x y => (row.toNat ≤ x ∧ x < row.toNat + p) ∧ (col.toNat ≤ y ∧ y < col.toNat + q))
        (entB m.blocks) (entB m'.blocks) := by
  obtain ⟨rfl, h⟩ := hd
  obtain ⟨row0, h01, h02, -⟩ := h 0 hp
  unfold Blk.setSubMatrix
  simp only [rdL_eq_ok.2 h01, res_at_ok, ok_bind, h02, show q ≠ 0 by omega, if_false]
  rw [checkSubMatrixIndex_ok (by unfold window; omega)]
  rw [forUp_check_ok (fun i _ hi => by
    obtain ⟨ri, h1, h2, -⟩ := h i hi
    simp only [rdL_eq_ok.2 h1, res_at_ok, ok_bind, h2, ne_eq, not_true_eq_false, if_false]; rfl)]
  simp only [must_ok, res_at_ok, ok_bind]
  rw [show (row + d.length - 1).toNat = row.toNat + d.length - 1 by omega,
    show (col + q - 1).toNat = col.toNat + q - 1 by omega]
  generalize hrow' : row.toNat = row' at *
  generalize hcol' : col.toNat = col' at *
  generalize hP : d.length = P at *
  refine Wp.exists_ok ?_
  refine (wr_loop' (fun m : Blk α r c => entB m.blocks) (fun x y => B (x - row') (y - col'))
    (fun ib x y => ((row' ≤ x ∧ x < row' + P) ∧ (ib * 52 ≤ x ∧ x < ib * 52 + 52)) ∧
      (col' ≤ y ∧ y < col' + q)) (by omega) ?_).imp ?_
  · intro ib m1 hib1 hib2 _
    have hib : ib < nBlocks r := by rw [nBlocks_eq]; omega
    have hrE := blkExt_end hib
    rw [blockDim_eq_blkExt hib, hrE]
    refine (wr_loop' (fun m : Blk α r c => entB m.blocks) (fun x y => B (x - row') (y - col'))
      (fun jb x y => ((row' ≤ x ∧ x < row' + P) ∧ (ib * 52 ≤ x ∧ x < ib * 52 + 52)) ∧
      ((col' ≤ y ∧ y < col' + q) ∧ (jb * 52 ≤ y ∧ y < jb * 52 + 52))) (by omega) ?_).imp ?_
    · intro jb m2 hjb1 hjb2 _
      have hjb : jb < nBlocks c := by rw [nBlocks_eq]; omega
      have hcE := blkExt_end hjb
      rw [blockDim_eq_blkExt hjb, hcE]
      refine (wr_loop' (fun m : Blk α r c => entB m.blocks) (fun x y => B (x - row') (y - col'))
        (fun i x y => x = i ∧ ((col' ≤ y ∧ y < col' + q) ∧ (jb * 52 ≤ y ∧ y < jb * 52 + 52)))
        (by omega) ?_).imp ?_
      · intro i m3 hi1 hi2 _
        obtain ⟨ri, h1, h2, h3⟩ := h (i - row') (by omega)
        simp only [rdL_eq_ok.2 h1, res_at_ok, ok_bind]
        have hpos := blkExt_pos hjb
        have hle := blkExt_le c jb
        obtain ⟨b, e, w⟩ := copySegL_cell m3.blocks (i := i) (j := max col' (jb * 52))
          (k := min (col' + q - 1 + 1) (min (jb * 52 + 52) c) - max col' (jb * 52))
          (s := max col' (jb * 52) - col') (src := ri)
          (G := fun x y => B (x - row') (y - col')) (by omega) (by omega)
          (by rw [show max col' (jb * 52) / 52 = jb by omega]; omega) (by omega)
          (fun t ht => by
            rw [h3 _ (by omega)]
            congr 2
            omega)
        rw [← off_of (ib := ib) (p := i - ib * 52) (jb := jb) (q := max col' (jb * 52) - jb * 52)
          (by omega) (by omega) (by omega) hjb (by omega), ← idx_of (ib := ib) (p := i - ib * 52)
          (jb := jb) (q := max col' (jb * 52) - jb * 52) (by omega) (by omega) (by omega)
          (by omega), blockDim_eq_blkExt hjb] at e
        rw [e]
        refine w.congr fun x y => ?_
        omega
      · intro m3 w
        refine w.congr fun x y => ?_
        constructor
        · rintro ⟨i, h1, h2, rfl, h3⟩; exact ⟨by omega, h3⟩
        · rintro ⟨h1, h2⟩; exact ⟨x, by omega, by omega, rfl, h2⟩
    · intro m2 w
      refine w.congr fun x y => ?_
      constructor
      · rintro ⟨jb, h1, h2, h3, h4, h5⟩; exact ⟨h3, h4⟩
      · rintro ⟨h1, h2⟩; exact ⟨y / 52, by omega, by omega, h1, h2, by omega⟩
  · intro m1 w
    refine w.congr fun x y => ?_
    constructor
    · rintro ⟨ib, h1, h2, ⟨h3, h4⟩, h5⟩; exact ⟨h3, h5⟩
    · rintro ⟨h1, h2⟩; exact ⟨x / 52, by omega, by omega, ⟨h1, by omega⟩, h2⟩

theorem Blk.setSubMatrix_range (m : Blk α r c) {d : List (List α)} {p q : Nat} {B : Nat → Nat → α}
    {row col : Int} (hd : Rect d p q B) (hp : 0 < p) (hq : 0 < q)
    (hw : ¬ ((0 ≤ row ∧ row + p ≤ r) ∧ (0 ≤ col ∧ col + q ≤ c))) :
    m.setSubMatrix (some d) row col = .error (.pan .range, m) := by
  obtain ⟨rfl, h⟩ := hd
  obtain ⟨row0, h01, h02, -⟩ := h 0 hp
  unfold Blk.setSubMatrix
  simp only [rdL_eq_ok.2 h01, res_at_ok, ok_bind, h02, show q ≠ 0 by omega, if_false]
  have e : checkSubMatrixIndex r c row (row + d.length - 1) col (col + q - 1) = .error (.err .range) := by
    unfold checkSubMatrixIndex
    by_cases h1 : 0 ≤ row ∧ row < r
    · by_cases h2 : row + d.length ≤ r
      · rw [checkRowIndex_ok h1, checkRowIndex_ok (by omega), if_neg (by omega)]
        by_cases h3 : 0 ≤ col ∧ col < c
        · rw [checkColumnIndex_ok h3, checkColumnIndex_err (by omega)]; rfl
        · rw [checkColumnIndex_err h3]; rfl
      · rw [checkRowIndex_ok h1, checkRowIndex_err (by omega)]; rfl
    · rw [checkRowIndex_err h1]; rfl
  rw [e]
  rfl

/-- `SetSubMatrix` with nil, empty or ragged data: a panic without effect. -/
theorem Blk.setSubMatrix_ragged (m : Blk α r c) {sub : Option (List (List α))} {row col : Int}
    (hd : ∀ d p q B, sub = some d → Rect d p q B → p = 0 ∨ q = 0) :
    m.setSubMatrix sub row col = .error (.rt, m) ∨
      ∃ s, m.setSubMatrix sub row col = .error (.pan s, m) := by
  unfold Blk.setSubMatrix
  cases sub with
  | none => exact Or.inr ⟨_, rfl⟩
  | some d =>
    dsimp only
    by_cases hl : d.length = 0
    · rw [rdL_rt (by omega)]; exact Or.inl rfl
    · obtain ⟨row0, h0⟩ : ∃ row0, d[0]? = some row0 := by
        cases d with
        | nil => simp at hl
        | cons a l => exact ⟨a, rfl⟩
      simp only [rdL_eq_ok.2 h0, res_at_ok, ok_bind]
      by_cases hq : row0.length = 0
      · rw [if_pos hq]; exact Or.inr ⟨_, rfl⟩
      · rw [if_neg hq]
        by_cases hw : window r c row (row + d.length - 1) col (col + row0.length - 1)
        swap
        · obtain ⟨s, e⟩ := checkSubMatrixIndex_err hw
          rw [e]; exact Or.inr ⟨_, rfl⟩
        rw [checkSubMatrixIndex_ok hw]
        simp only [must_ok, res_at_ok, ok_bind]
        by_cases hrag : ∃ i, i < d.length ∧ ∃ ri, d[i]? = some ri ∧ ri.length ≠ row0.length
        · obtain ⟨i, h2, ri, h3, h4⟩ := hrag
          rw [forUp_check_err (e := (Fault.pan .dim, m)) ?_ (Nat.zero_le i) h2 ?_]
          · exact Or.inr ⟨_, rfl⟩
          · intro i' _ hi'
            have : d[i']? = some d[i'] := by simp [hi']
            simp only [rdL_eq_ok.2 this, res_at_ok, ok_bind]
            split
            · exact Or.inr rfl
            · exact Or.inl rfl
          · simp only [rdL_eq_ok.2 h3, res_at_ok, ok_bind, ne_eq, h4, not_false_eq_true, if_true]
            rfl
        · exfalso
          have hlen : ∀ i (hi : i < d.length), d[i].length = row0.length := by
            intro i hi
            by_contra hne
            exact hrag ⟨i, hi, d[i], by simp [hi], hne⟩
          have := hd d d.length row0.length (fun i j => ((d[i]?.getD [])[j]?).getD Flt.zero) rfl
            ⟨rfl, fun i hi => ⟨d[i], by simp [hi], hlen i hi, fun j hj => ?_⟩⟩
          · omega
          · have hj' : j < d[i].length := by rw [hlen i hi]; omega
            simp [hi, hj']

/-! ## Row and column matrices -/

theorem nBlocks_one : nBlocks 1 = 1 := rfl

theorem blkLen_one_row {jb : Nat} (h : jb < nBlocks c) : blkLen 1 c jb = blkExt c jb := by
  have := blkLen_pair (r := 1) (a := 0) h
  rw [Nat.zero_mul, Nat.zero_add] at this
  rw [this, show blkExt 1 0 = 1 from rfl, Nat.one_mul]

theorem blkLen_one_col {ib : Nat} : blkLen r 1 ib = blkExt r ib := by
  rw [blkLen, nBlocks_one, Nat.div_one, Nat.mod_one, show blkExt 1 0 = 1 from rfl, Nat.mul_one]

/-- Copying nothing is allowed anywhere inside the blocks. -/
theorem Jag.copySeg_zero {n n' : Nat} {len len' : Nat → Nat} (dst : Jag α n len) {i a : Nat}
    (src : Jag α n' len') {i' b : Nat} (h : i < n ∧ a ≤ len i) (h' : i' < n' ∧ b ≤ len' i') :
    dst.copySeg i a src i' b 0 = .ok dst := by
  unfold Jag.copySeg Jag.seg
  rw [if_pos (by simpa using h), if_pos (by simpa using h')]
  simp only [ok_bind]
  rw [forUp_eq_self (le_refl _)]

theorem Blk.rowMatrixAt_ok (m : Blk α r c) {i : Int} (hc : 0 < c) (hi : 0 ≤ i ∧ i < r) :
    ∃ m', m.rowMatrixAt i = .ok m' ∧ Shows m'.at 1 c fun _ j => entB m.blocks i.toNat j := by
  have key : ∃ m' : Blk α 1 c, m.rowMatrixAt i = .ok m' ∧
      ∀ x y, x < 1 → y < c → entB m'.blocks x y = entB m.blocks i.toNat y := by
    unfold Blk.rowMatrixAt
    simp only [checkRowIndex_ok hi, must_ok, ok_bind]
    rw [if_neg (by omega)]
    have hi' : i.toNat < r := by omega
    generalize i.toNat = i at hi'
    refine Wp.exists_ok ?_
    rw [wp_bind]
    refine (wr_loop (fun s : (Nat × Nat) × Blocks α 1 c => entB s.2)
      (fun _ y => entB m.blocks i y)
      (fun jb x y => x = 0 ∧ (jb * 52 ≤ y ∧ y < jb * 52 + blkExt c jb))
      (fun jb s => s.1 = if jb = 0 then (0, 0) else (jb - 1, blkExt c (jb - 1)))
      (Nat.zero_le _) rfl ?_).imp ?_
    · rintro jb ⟨⟨k1, k2⟩, d⟩ _ hjb hk _
      have hm := mul_lt_of_lt_nBlocks hjb
      have hpos := blkExt_pos hjb
      have hle := blkExt_le c jb
      have hend := blkExt_end hjb
      have hidx := idx_of (c := c) (i := i) (j := jb * 52) (ib := i / 52) (p := i - i / 52 * 52)
        (jb := jb) (q := 0) (by omega) (by omega) (by omega) (by omega)
      have hoff := off_of (c := c) (i := i) (j := jb * 52) (ib := i / 52) (p := i - i / 52 * 52)
        (jb := jb) (q := 0) (by omega) (by omega) (by omega) hjb hpos
      rw [Nat.add_zero, blockDim_eq_blkExt hjb] at hoff
      have hseg : jb * 52 % 52 + blkExt c jb ≤ blkExt c (jb * 52 / 52) := by
        rw [show jb * 52 / 52 = jb by omega, show jb * 52 % 52 = 0 by omega]; omega
      obtain ⟨d', e, w⟩ := copySeg_cell d m.blocks (i := 0) (j := jb * 52) (i' := i)
        (j' := jb * 52) (k := blkExt c jb) (G := fun _ y => entB m.blocks i y) (by omega) hm hseg
        hi' hm hseg (fun t ht => rfl)
      have hidx1 := idx_of (c := c) (i := 0) (j := jb * 52) (ib := 0) (p := 0)
        (jb := jb) (q := 0) (by omega) (by omega) (by omega) (by omega)
      have hoff1 := off_of (c := c) (i := 0) (j := jb * 52) (ib := 0) (p := 0)
        (jb := jb) (q := 0) (by omega) (by omega) (by omega) hjb hpos
      rw [Nat.zero_mul, Nat.zero_add] at hidx1 hoff1
      rw [← hidx1, ← hoff1, ← hidx, ← hoff] at e
      dsimp only
      rw [blockDim_eq_blkExt hjb]
      by_cases h0 : jb = 0
      · subst h0
        simp only [if_true, Prod.mk.injEq] at hk
        obtain ⟨rfl, rfl⟩ := hk
        rw [if_neg (by rw [nBlocks_one]; omega), blkLen_one_row hjb, if_neg (by omega)]
        simp only [wp_bind, e, pure_eq_ok, wp_ok]
        refine ⟨?_, w⟩
        simp
      · simp only [h0, if_false, Prod.mk.injEq] at hk
        obtain ⟨rfl, rfl⟩ := hk
        rw [if_neg (by rw [nBlocks_one]; omega), blkLen_one_row (by omega), if_pos (by omega), Nat.sub_self]
        rw [Jag.copySeg_zero d m.blocks
          ⟨by rw [nBlocks_one]; omega, by rw [blkLen_one_row (by omega)]⟩
          ⟨by rw [hidx]; exact blkIdx_lt hi' hm,
           by rw [hidx, hoff]; exact (blkOff_lt hi' hm).le⟩]
        rw [show jb - 1 + 1 = jb by omega]
        simp only [pure_bind, ok_bind, wp_bind, Nat.sub_zero, e, pure_eq_ok, wp_ok]
        refine ⟨?_, w⟩
        simp
    · rintro ⟨k, d⟩ ⟨-, w⟩ x y hx hy
      exact (w x y).1 (ex_blockcol.2 ⟨by omega, hy⟩)
  obtain ⟨m', e, h⟩ := key
  exact ⟨m', e, m'.shows_of h⟩

theorem Blk.rowMatrixAt_err (m : Blk α r c) {i : Int} (hi : ¬ (0 ≤ i ∧ i < r)) :
    m.rowMatrixAt i = .error (.pan .range) := by
  unfold Blk.rowMatrixAt
  simp only [checkRowIndex_err hi, must_err, error_bind]

/-- Loop of single-entry writes. -/
theorem Blk.wloop {n : Nat} {m : Blk α r c} {g : Nat → Nat → α} (ρ κ : Nat → Nat)
    {body : Nat → Blk α r c → Except (Fault × Blk α r c) (Blk α r c)}
    (h : ∀ i m, i < n → ∃ m', body i m = .ok m' ∧
      entB m'.blocks = upd2 (entB m.blocks) (ρ i) (κ i) (g (ρ i) (κ i))) :
    ∃ m', forUp 0 n body m = .ok m' ∧
      Wr g (fun x y => ∃ i, i < n ∧ x = ρ i ∧ y = κ i) (entB m.blocks) (entB m'.blocks) := by
  refine Wp.exists_ok ?_
  refine (wr_loop' (fun m : Blk α r c => entB m.blocks) g (fun i x y => x = ρ i ∧ y = κ i)
    (Nat.zero_le _) ?_).imp ?_
  · intro i m _ hi _
    obtain ⟨m', e, hm⟩ := h i m hi
    rw [e]
    show Wr _ _ _ _
    rw [hm]
    exact Wr.upd2 rfl
  · intro m' w
    refine w.congr fun x y => ?_
    constructor
    · rintro ⟨i, -, h⟩; exact ⟨i, h⟩
    · rintro ⟨i, h⟩; exact ⟨i, by omega, h⟩

theorem Blk.setRowMatrix_ok (m : Blk α r c) {i : Int} (b : Mat α 1 c) (hi : 0 ≤ i ∧ i < r) :
    ∃ m', m.setRowMatrix i b = .ok m' ∧
      Wr (fun _ y => b.ent 0 y) (fun x y => x = i.toNat ∧ y < c)
        (entB m.blocks) (entB m'.blocks) := by
  have gen : ∀ b : Mat α 1 c, ∃ m', forUp 0 c (fun j m => do
      let v ← (b.at 0 j).at m
      m.setEntry i j v) m = .ok m' ∧
      Wr (fun _ y => b.ent 0 y) (fun x y => x = i.toNat ∧ y < c)
        (entB m.blocks) (entB m'.blocks) := by
    intro b
    obtain ⟨m', e, w⟩ := Blk.wloop (g := fun _ y => b.ent 0 y) (n := c) (m := m)
      (fun _ => i.toNat) (fun j => j) (body := fun j m => do
      let v ← (b.at 0 j).at m
      m.setEntry i j v) (fun j m hj => by
        have := b.at_ok (i := 0) (j := j) (by omega) hj
        simp only [Nat.cast_zero] at this
        simp only [this, res_at_ok, ok_bind]
        exact m.setEntry_ok (by unfold inRange; omega))
    refine ⟨m', e, w.congr fun x y => ?_⟩
    constructor
    · rintro ⟨j, hj, rfl, rfl⟩; exact ⟨rfl, hj⟩
    · rintro ⟨rfl, hy⟩; exact ⟨y, hy, rfl, rfl⟩
  unfold Blk.setRowMatrix
  simp only [checkRowIndex_ok hi, must_ok, res_at_ok, ok_bind, ne_eq, not_true_eq_false, or_self,
    if_false]
  cases b with
  | arr b => exact gen _
  | ext b => exact gen _
  | dia b => exact gen _
  | blk mb =>
    have hi' : i.toNat < r := by omega
    generalize i.toNat = i at hi'
    refine Wp.exists_ok ?_
    rw [wp_bind]
    refine (wr_loop (fun s : (Nat × Nat) × Blk α r c => entB s.2.blocks)
      (fun _ y => mb.ent 0 y)
      (fun jb x y => x = i ∧ (jb * 52 ≤ y ∧ y < jb * 52 + blkExt c jb))
      (fun jb s => s.1 = if jb = 0 then (0, 0) else (jb - 1, blkExt c (jb - 1)))
      (Nat.zero_le _) rfl ?_).imp ?_
    · rintro jb ⟨⟨k1, k2⟩, d⟩ _ hjb hk _
      have hm := mul_lt_of_lt_nBlocks hjb
      have hpos := blkExt_pos hjb
      have hle := blkExt_le c jb
      have hend := blkExt_end hjb
      have hidx := idx_of (c := c) (i := i) (j := jb * 52) (ib := i / 52) (p := i - i / 52 * 52)
        (jb := jb) (q := 0) (by omega) (by omega) (by omega) (by omega)
      have hoff := off_of (c := c) (i := i) (j := jb * 52) (ib := i / 52) (p := i - i / 52 * 52)
        (jb := jb) (q := 0) (by omega) (by omega) (by omega) hjb hpos
      rw [Nat.add_zero, blockDim_eq_blkExt hjb] at hoff
      have hseg : jb * 52 % 52 + blkExt c jb ≤ blkExt c (jb * 52 / 52) := by
        rw [show jb * 52 / 52 = jb by omega, show jb * 52 % 52 = 0 by omega]; omega
      obtain ⟨d', e, w⟩ := copySeg_cell d.blocks mb.blocks (i := i) (j := jb * 52) (i' := 0)
        (j' := jb * 52) (k := blkExt c jb) (G := fun _ y => mb.ent 0 y) hi' hm hseg (by omega) hm
        hseg (fun t ht => (Blk.ent_eq mb (by omega) (by omega)).symm)
      have hidx1 := idx_of (c := c) (i := 0) (j := jb * 52) (ib := 0) (p := 0)
        (jb := jb) (q := 0) (by omega) (by omega) (by omega) (by omega)
      have hoff1 := off_of (c := c) (i := 0) (j := jb * 52) (ib := 0) (p := 0)
        (jb := jb) (q := 0) (by omega) (by omega) (by omega) hjb hpos
      rw [Nat.zero_mul, Nat.zero_add] at hidx1 hoff1
      rw [← hidx1, ← hoff1, ← hidx, ← hoff] at e
      dsimp only
      rw [blockDim_eq_blkExt hjb]
      by_cases h0 : jb = 0
      · subst h0
        simp only [if_true, Prod.mk.injEq] at hk
        obtain ⟨rfl, rfl⟩ := hk
        rw [if_neg (by rw [nBlocks_one]; omega), blkLen_one_row hjb, if_neg (by omega)]
        simp only [wp_bind, e, res_at_ok, pure_eq_ok, wp_ok]
        refine ⟨?_, w⟩
        simp
      · simp only [h0, if_false, Prod.mk.injEq] at hk
        obtain ⟨rfl, rfl⟩ := hk
        rw [if_neg (by rw [nBlocks_one]; omega), blkLen_one_row (by omega), if_pos (by omega), Nat.sub_self]
        rw [Jag.copySeg_zero d.blocks mb.blocks
          ⟨by rw [hidx]; exact blkIdx_lt hi' hm,
           by rw [hidx, hoff]; exact (blkOff_lt hi' hm).le⟩
          ⟨by rw [nBlocks_one]; omega, by rw [blkLen_one_row (by omega)]⟩]
        rw [show jb - 1 + 1 = jb by omega]
        simp only [pure_bind, res_at_ok, ok_bind, wp_bind, Nat.sub_zero, e, pure_eq_ok, wp_ok]
        refine ⟨?_, w⟩
        simp
    · rintro ⟨k, d⟩ ⟨-, w⟩
      exact w.congr fun x y => ex_blockcol

theorem Blk.setRowMatrix_range {p q : Nat} (m : Blk α r c) {i : Int} (b : Mat α p q)
    (hi : ¬ (0 ≤ i ∧ i < r)) : m.setRowMatrix i b = .error (.pan .range, m) := by
  unfold Blk.setRowMatrix
  simp only [checkRowIndex_err hi, must_err, res_at_error, error_bind]

theorem Blk.setRowMatrix_dim {p q : Nat} (m : Blk α r c) {i : Int} (b : Mat α p q)
    (hi : 0 ≤ i ∧ i < r) (h : ¬ (p = 1 ∧ q = c)) :
    m.setRowMatrix i b = .error (.pan .matDim, m) := by
  unfold Blk.setRowMatrix
  simp only [checkRowIndex_ok hi, must_ok, res_at_ok, ok_bind]
  rw [if_pos (by tauto)]
  rfl

/-- Running position in a one-column block matrix before row `k`. -/
def colPos (k : Nat) : Nat × Nat := if k = 0 then (0, 0) else ((k - 1) / 52, (k - 1) % 52 + 1)

theorem colPos_step {k : Nat} (hk : k < r) :
    (colPos k).1 < nBlocks r * nBlocks 1 ∧
      (if (colPos k).2 ≥ blkLen r 1 (colPos k).1 then ((colPos k).1 + 1, 0) else colPos k) =
        (blkIdx 1 k 0, blkOff 1 k 0) ∧
      colPos (k + 1) = (blkIdx 1 k 0, blkOff 1 k 0 + 1) := by
  rw [nBlocks_one, Nat.mul_one, blkLen_one_col]
  have h1 : blkIdx 1 k 0 = k / 52 := by
    unfold blkIdx; rw [nBlocks_one]; omega
  have h2 : blkOff 1 k 0 = k % 52 := by
    rw [blkOff_eq (by omega), show blkExt 1 (0 / 52) = 1 from rfl]; omega
  rw [h1, h2]
  have h3 := div_lt_nBlocks hk
  unfold colPos
  by_cases h0 : k = 0
  · subst h0
    have := blkExt_pos (n := r) (b := 0) (by omega)
    simp only [if_true]
    refine ⟨by omega, ?_, by simp⟩
    rw [if_neg (by omega)]
  · simp only [h0, if_false]
    refine ⟨?_, ?_, by simp⟩
    · have : (k - 1) / 52 ≤ k / 52 := Nat.div_le_div_right (by omega)
      omega
    · rw [blkExt_eq]
      split
      · simp only [Prod.mk.injEq]; omega
      · simp only [Prod.mk.injEq]; omega

theorem Blk.columnMatrixAt_ok (m : Blk α r c) {j : Int} (hr : 0 < r) (hj : 0 ≤ j ∧ j < c) :
    ∃ m', m.columnMatrixAt j = .ok m' ∧ Shows m'.at r 1 fun i _ => entB m.blocks i j.toNat := by
  have key : ∃ m' : Blk α r 1, m.columnMatrixAt j = .ok m' ∧
      ∀ x y, x < r → y < 1 → entB m'.blocks x y = entB m.blocks x j.toNat := by
    unfold Blk.columnMatrixAt
    simp only [checkColumnIndex_ok hj, must_ok, ok_bind]
    rw [if_neg (by omega)]
    have hj' : j.toNat < c := by omega
    generalize j.toNat = j at hj'
    refine Wp.exists_ok ?_
    rw [wp_bind]
    refine (col_loop (fun s : (Nat × Nat) × Blocks α r 1 => entB s.2)
      (fun x _ => entB m.blocks x j) (fun i x y => x = i ∧ y = 0) (fun k s => s.1 = colPos k)
      rfl ?_).imp ?_
    · rintro ib i ⟨⟨k1, k2⟩, d⟩ hib hi hk
      have h1 := blkExt_le r ib
      have h2 := blkExt_add_lt hi
      obtain ⟨hlt, hpos, hnext⟩ := colPos_step h2
      dsimp only at hk ⊢
      rw [← hk] at hlt hpos
      rw [if_neg (by dsimp only at hlt; omega)]
      dsimp only at hpos ⊢
      rw [hpos, col_idx (i := i) (by omega), col_off (ib := ib) (by omega) hj', get_cell _ h2 hj']
      obtain ⟨b, e, hb⟩ := set_cell d (entB m.blocks (ib * 52 + i) j) h2 (show 0 < 1 by omega)
      simp only [ok_bind, wp_bind, e, pure_eq_ok, wp_ok]
      refine ⟨hnext.symm, ?_⟩
      rw [hb]
      exact Wr.upd2 rfl
    · rintro ⟨k, d⟩ ⟨-, w⟩ x y hx hy
      exact (w x y).1 ⟨x, hx, rfl, by omega⟩
  obtain ⟨m', e, h⟩ := key
  exact ⟨m', e, m'.shows_of h⟩

theorem Blk.columnMatrixAt_err (m : Blk α r c) {j : Int} (hj : ¬ (0 ≤ j ∧ j < c)) :
    m.columnMatrixAt j = .error (.pan .range) := by
  unfold Blk.columnMatrixAt
  simp only [checkColumnIndex_err hj, must_err, error_bind]

theorem Blk.setColumnMatrix_ok (m : Blk α r c) {j : Int} (b : Mat α r 1) (hj : 0 ≤ j ∧ j < c) :
    ∃ m', m.setColumnMatrix j b = .ok m' ∧
      Wr (fun x _ => b.ent x 0) (fun x y => x < r ∧ y = j.toNat)
        (entB m.blocks) (entB m'.blocks) := by
  have gen : ∀ b : Mat α r 1, ∃ m', forUp 0 r (fun i m => do
      let v ← (b.at i 0).at m
      m.setEntry i j v) m = .ok m' ∧
      Wr (fun x _ => b.ent x 0) (fun x y => x < r ∧ y = j.toNat)
        (entB m.blocks) (entB m'.blocks) := by
    intro b
    obtain ⟨m', e, w⟩ := Blk.wloop (g := fun x _ => b.ent x 0) (n := r) (m := m)
      (fun i => i) (fun _ => j.toNat) (body := fun i m => do
      let v ← (b.at i 0).at m
      m.setEntry i j v) (fun i m hi => by
        have := b.at_ok (i := i) (j := 0) hi (by omega)
        simp only [Nat.cast_zero] at this
        simp only [this, res_at_ok, ok_bind]
        exact m.setEntry_ok (by unfold inRange; omega))
    refine ⟨m', e, w.congr fun x y => ?_⟩
    constructor
    · rintro ⟨i, hi, rfl, rfl⟩; exact ⟨hi, rfl⟩
    · rintro ⟨hx, rfl⟩; exact ⟨x, hx, rfl, rfl⟩
  unfold Blk.setColumnMatrix
  simp only [checkColumnIndex_ok hj, must_ok, res_at_ok, ok_bind, ne_eq, not_true_eq_false, or_self,
    if_false]
  cases b with
  | arr b => exact gen _
  | ext b => exact gen _
  | dia b => exact gen _
  | blk mb =>
    have hj' : j.toNat < c := by omega
    generalize j.toNat = j at hj'
    refine Wp.exists_ok ?_
    rw [wp_bind]
    refine (col_loop (fun s : (Nat × Nat) × Blk α r c => entB s.2.blocks)
      (fun x _ => mb.ent x 0) (fun i x y => x = i ∧ y = j) (fun k s => s.1 = colPos k)
      rfl ?_).imp ?_
    · rintro ib i ⟨⟨k1, k2⟩, d⟩ hib hi hk
      have h1 := blkExt_le r ib
      have h2 := blkExt_add_lt hi
      obtain ⟨hlt, hpos, hnext⟩ := colPos_step h2
      dsimp only at hk ⊢
      rw [← hk] at hlt hpos
      rw [if_neg (by dsimp only at hlt; omega)]
      dsimp only at hpos ⊢
      rw [hpos, col_idx (i := i) (by omega), col_off (ib := ib) (by omega) hj',
        get_cell _ h2 (show 0 < 1 by omega)]
      obtain ⟨b, e, hb⟩ := set_cell d.blocks (entB mb.blocks (ib * 52 + i) 0) h2 hj'
      simp only [res_at_ok, ok_bind, wp_bind, e, pure_eq_ok, wp_ok]
      refine ⟨hnext.symm, ?_⟩
      rw [hb]
      exact Wr.upd2 (Blk.ent_eq mb h2 (by omega)).symm
    · rintro ⟨k, d⟩ ⟨-, w⟩
      refine w.congr fun x y => ?_
      constructor
      · rintro ⟨i, hi, rfl, rfl⟩; exact ⟨hi, rfl⟩
      · rintro ⟨hx, rfl⟩; exact ⟨x, hx, rfl, rfl⟩

theorem Blk.setColumnMatrix_range {p q : Nat} (m : Blk α r c) {j : Int} (b : Mat α p q)
    (hj : ¬ (0 ≤ j ∧ j < c)) : m.setColumnMatrix j b = .error (.pan .range, m) := by
  unfold Blk.setColumnMatrix
  simp only [checkColumnIndex_err hj, must_err, res_at_error, error_bind]

theorem Blk.setColumnMatrix_dim {p q : Nat} (m : Blk α r c) {j : Int} (b : Mat α p q)
    (hj : 0 ≤ j ∧ j < c) (h : ¬ (p = r ∧ q = 1)) :
    m.setColumnMatrix j b = .error (.pan .matDim, m) := by
  unfold Blk.setColumnMatrix
  simp only [checkColumnIndex_ok hj, must_ok, res_at_ok, ok_bind]
  rw [if_pos (by tauto)]
  rfl

end Linear
