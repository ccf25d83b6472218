import Verif.Lemmas.BlkOps3

/-!
# Block storage: windows and products
-/

set_option linter.unusedSectionVars false
set_option linter.unusedSimpArgs false

namespace Linear

open Spec

variable {α : Type} [Flt α] {r c : Nat}

/-! ## `SubMatrix` -/

/-- `copyBlockPart` between two blocks. -/
theorem copyBlockPart_cell {r' c' : Nat} (src : Blocks α r' c') (dst : Blocks α r c)
    {pb qb ib jb sr er sc ec dr dc : Nat} {G : Nat → Nat → α}
    (hsr : sr ≤ er) (hsc : sc < ec)
    (her : er ≤ blkExt r' pb) (hec : ec ≤ blkExt c' qb)
    (hdr : dr + (er - sr) ≤ blkExt r ib) (hdc : dc + (ec - sc) ≤ blkExt c jb)
    (hG : ∀ a b, a < er - sr → b < ec - sc →
      entB src (pb * 52 + (sr + a)) (qb * 52 + (sc + b)) =
        G (ib * 52 + (dr + a)) (jb * 52 + (dc + b))) :
    ∃ d, copyBlockPart src (pb * nBlocks c' + qb) (blkExt c' qb) sr er sc ec dst
        (ib * nBlocks c + jb) (blkExt c jb) dr dc = .ok d ∧
      Wr G (fun x y => (ib * 52 + dr ≤ x ∧ x < ib * 52 + (dr + (er - sr))) ∧
        (jb * 52 + dc ≤ y ∧ y < jb * 52 + (dc + (ec - sc)))) (entB dst) (entB d) := by
  have l1 := blkExt_le r' pb
  have l2 := blkExt_le c' qb
  have l3 := blkExt_le r ib
  have l4 := blkExt_le c jb
  unfold copyBlockPart
  refine Wp.exists_ok ?_
  rw [wp_bind]
  refine (wr_loop (fun s : (Nat × Nat) × Blocks α r c => entB s.2) G
    (fun i x y => x = ib * 52 + (dr + (i - sr)) ∧
      (jb * 52 + dc ≤ y ∧ y < jb * 52 + (dc + (ec - sc))))
    (fun i s => s.1 = (i * blkExt c' qb + sc, (dr + (i - sr)) * blkExt c jb + dc))
    hsr (by simp) ?_).imp ?_
  · rintro i ⟨⟨k1, k2⟩, d⟩ hi1 hi2 hk _
    simp only [Prod.mk.injEq] at hk
    obtain ⟨rfl, rfl⟩ := hk
    dsimp only
    have hx : pb * 52 + i < r' := blkExt_add_lt (by omega)
    have hy : qb * 52 + sc < c' := blkExt_add_lt (by omega)
    have hx' : ib * 52 + (dr + (i - sr)) < r := blkExt_add_lt (by omega)
    have hy' : jb * 52 + dc < c := blkExt_add_lt (by omega)
    obtain ⟨d', e, w⟩ := copySeg_cell d src (i := ib * 52 + (dr + (i - sr))) (j := jb * 52 + dc)
      (i' := pb * 52 + i) (j' := qb * 52 + sc) (k := ec - sc) (G := G) hx' hy'
      (by rw [show (jb * 52 + dc) / 52 = jb by omega]; omega) hx hy
      (by rw [show (qb * 52 + sc) / 52 = qb by omega]; omega)
      (fun t ht => by
        have := hG (i - sr) t (by omega) ht
        rw [show sr + (i - sr) = i by omega] at this
        rw [Nat.add_assoc, Nat.add_assoc, this])
    rw [blkIdx_local (by omega) (by omega), blkIdx_local (by omega) (by omega),
      blkOff_local (by omega) (by omega), blkOff_local (by omega) (by omega)] at e
    rw [e]
    refine ⟨?_, w.congr fun x y => by omega⟩
    simp only [Prod.mk.injEq]
    rw [show dr + (i + 1 - sr) = dr + (i - sr) + 1 by omega, Nat.succ_mul, Nat.succ_mul]
    omega
  · rintro ⟨k, d⟩ ⟨-, w⟩
    refine w.congr fun x y => ?_
    constructor
    · rintro ⟨i, h1, h2, rfl, h3⟩; omega
    · rintro ⟨h1, h2⟩
      exact ⟨x - (ib * 52 + dr) + sr, by omega, by omega, by omega, h2⟩

set_option maxHeartbeats 1600000 in
theorem Blk.subMatrix_ok (m : Blk α r c) {sr er sc ec : Int} (h : window r c sr er sc ec) :
    ∃ m', m.subMatrix sr er sc ec = .ok m' ∧
      Shows m'.at (er - sr + 1).toNat (ec - sc + 1).toNat
        fun i j => entB m.blocks (sr.toNat + i) (sc.toNat + j) := by
  have key : ∃ m', m.subMatrix sr er sc ec = .ok m' ∧
      ∀ i j, i < (er - sr + 1).toNat → j < (ec - sc + 1).toNat →
        entB m'.blocks i j = entB m.blocks (sr.toNat + i) (sc.toNat + j) := by
    unfold Blk.subMatrix
    simp only [checkSubMatrixIndex_ok h, must_ok, ok_bind]
    unfold window at h
    rw [if_neg (by omega)]
    generalize hR : (er - sr + 1).toNat = R
    generalize hC : (ec - sc + 1).toNat = C
    have hsrR : sr.toNat + R ≤ r := by omega
    have hscC : sc.toNat + C ≤ c := by omega
    generalize sr.toNat = a at *
    generalize sc.toNat = b at *
    refine Wp.exists_ok ?_
    rw [wp_bind]
    refine (wr_loop (fun s : Nat × Blocks α R C => entB s.2)
      (fun x y => entB m.blocks (a + x) (b + y))
      (fun ib x y => (ib * 52 ≤ x ∧ x < ib * 52 + blkExt R ib) ∧ y < C)
      (fun ib s => s.1 = a / 52 + ib) (Nat.zero_le _) rfl ?_).imp ?_
    · rintro ib ⟨pB, o⟩ _ hib hs _
      dsimp only at hs
      subst hs
      rw [wp_bind]
      refine (wr_loop (fun s : Nat × Blocks α R C => entB s.2)
        (fun x y => entB m.blocks (a + x) (b + y))
        (fun jb x y => (ib * 52 ≤ x ∧ x < ib * 52 + blkExt R ib) ∧
          (jb * 52 ≤ y ∧ y < jb * 52 + blkExt C jb))
        (fun jb s => s.1 = b / 52 + jb) (Nat.zero_le _) rfl ?_).imp ?_
      · rintro jb ⟨qB, o⟩ _ hjb hs _
        dsimp only at hs ⊢
        subst hs
        rw [blockDim_eq_blkExt hib, blockDim_eq_blkExt hjb]
        have p1 := blkExt_pos hib
        have p2 := blkExt_pos hjb
        have l1 := blkExt_le R ib
        have l2 := blkExt_le C jb
        have e1 := blkExt_end hib
        have e2 := blkExt_end hjb
        have hq : b / 52 + jb < nBlocks c := by rw [nBlocks_eq]; omega
        rw [blockDim_eq_blkExt hq]
        have x1 := blkExt_eq r (a / 52 + ib)
        have x2 := blkExt_eq c (b / 52 + jb)
        have x3 := blkExt_eq r (a / 52 + ib + 1)
        have x4 := blkExt_eq c (b / 52 + jb + 1)
        have i1 : (a / 52 + ib) * nBlocks c + (b / 52 + jb) + 1 =
            (a / 52 + ib) * nBlocks c + (b / 52 + jb + 1) := rfl
        have i2 : (a / 52 + ib) * nBlocks c + (b / 52 + jb) + nBlocks c =
            (a / 52 + ib + 1) * nBlocks c + (b / 52 + jb) := by rw [Nat.succ_mul]; omega
        have i3 : (a / 52 + ib) * nBlocks c + (b / 52 + jb) + nBlocks c + 1 =
            (a / 52 + ib + 1) * nBlocks c + (b / 52 + jb + 1) := by rw [Nat.succ_mul]; omega
        rw [i1, i3, i2]
        -- one block part
        have part : ∀ (o : Blocks α R C) (pb qb s1 s2 t1 t2 d1 d2 : Nat),
            s1 ≤ s2 → t1 < t2 → s2 ≤ blkExt r pb → t2 ≤ blkExt c qb →
            d1 + (s2 - s1) ≤ blkExt R ib → d2 + (t2 - t1) ≤ blkExt C jb →
            pb * 52 + s1 = a + ib * 52 + d1 → qb * 52 + t1 = b + jb * 52 + d2 →
            ∃ d, copyBlockPart m.blocks (pb * nBlocks c + qb) (blkExt c qb) s1 s2 t1 t2 o
              (ib * nBlocks C + jb) (blkExt C jb) d1 d2 = .ok d ∧
            Wr (fun x y => entB m.blocks (a + x) (b + y))
              (fun x y => (ib * 52 + d1 ≤ x ∧ x < ib * 52 + (d1 + (s2 - s1))) ∧
              (jb * 52 + d2 ≤ y ∧ y < jb * 52 + (d2 + (t2 - t1)))) (entB o) (entB d) := by
          intro o pb qb s1 s2 t1 t2 d1 d2 h2 h3 h4 h5 h6 h7 h8 h9
          refine copyBlockPart_cell m.blocks o h2 h3 h4 h5 h6 h7 fun u v hu hv => ?_
          congr 1 <;> omega
        by_cases hh : blkExt R ib + a % 52 > 52
        · rw [if_pos hh]
          by_cases hw : blkExt C jb + b % 52 > 52
          · have hq' : b / 52 + jb + 1 < nBlocks c := by rw [nBlocks_eq]; omega
            rw [if_pos hw, blockDim_eq_blkExt hq']
            obtain ⟨d1, f1, w1⟩ := part o (a / 52 + ib) (b / 52 + jb) (a % 52) 52 (b % 52) 52 0 0
              (by omega) (by omega) (by omega) (by omega) (by omega) (by omega) (by omega)
              (by omega)
            obtain ⟨d2, f2, w2⟩ := part d1 (a / 52 + ib) (b / 52 + jb + 1) (a % 52) 52 0
              (blkExt C jb + b % 52 - 52) 0 (blkExt C jb - (blkExt C jb + b % 52 - 52))
              (by omega) (by omega) (by omega) (by omega) (by omega) (by omega) (by omega)
              (by omega)
            obtain ⟨d3, f3, w3⟩ := part d2 (a / 52 + ib + 1) (b / 52 + jb) 0
              (blkExt R ib + a % 52 - 52) (b % 52) 52
              (blkExt R ib - (blkExt R ib + a % 52 - 52)) 0
              (by omega) (by omega) (by omega) (by omega) (by omega) (by omega) (by omega)
              (by omega)
            obtain ⟨d4, f4, w4⟩ := part d3 (a / 52 + ib + 1) (b / 52 + jb + 1) 0
              (blkExt R ib + a % 52 - 52) 0 (blkExt C jb + b % 52 - 52)
              (blkExt R ib - (blkExt R ib + a % 52 - 52))
              (blkExt C jb - (blkExt C jb + b % 52 - 52))
              (by omega) (by omega) (by omega) (by omega) (by omega) (by omega) (by omega)
              (by omega)
            simp only [f1, f2, f3, f4, ok_bind, wp_ok, pure_eq_ok]
            refine ⟨by omega, (((w1.trans w2).trans w3).trans w4).congr fun x y => ?_⟩
            clear w1 w2 w3 w4 f1 f2 f3 f4 part
            omega
          · rw [if_neg hw]
            obtain ⟨d1, f1, w1⟩ := part o (a / 52 + ib) (b / 52 + jb) (a % 52) 52 (b % 52)
              (blkExt C jb + b % 52) 0 0
              (by omega) (by omega) (by omega) (by omega) (by omega) (by omega) (by omega)
              (by omega)
            obtain ⟨d3, f3, w3⟩ := part d1 (a / 52 + ib + 1) (b / 52 + jb) 0
              (blkExt R ib + a % 52 - 52) (b % 52) (blkExt C jb + b % 52)
              (blkExt R ib - (blkExt R ib + a % 52 - 52)) 0
              (by omega) (by omega) (by omega) (by omega) (by omega) (by omega) (by omega)
              (by omega)
            simp only [f1, f3, ok_bind, wp_ok, pure_eq_ok]
            refine ⟨by omega, (w1.trans w3).congr fun x y => ?_⟩
            clear w1 w3 f1 f3 part
            omega
        · rw [if_neg hh]
          by_cases hw : blkExt C jb + b % 52 > 52
          · have hq' : b / 52 + jb + 1 < nBlocks c := by rw [nBlocks_eq]; omega
            rw [if_pos hw, blockDim_eq_blkExt hq']
            obtain ⟨d1, f1, w1⟩ := part o (a / 52 + ib) (b / 52 + jb) (a % 52)
              (blkExt R ib + a % 52) (b % 52) 52 0 0
              (by omega) (by omega) (by omega) (by omega) (by omega) (by omega) (by omega)
              (by omega)
            obtain ⟨d2, f2, w2⟩ := part d1 (a / 52 + ib) (b / 52 + jb + 1) (a % 52)
              (blkExt R ib + a % 52) 0
              (blkExt C jb + b % 52 - 52) 0 (blkExt C jb - (blkExt C jb + b % 52 - 52))
              (by omega) (by omega) (by omega) (by omega) (by omega) (by omega) (by omega)
              (by omega)
            simp only [f1, f2, ok_bind, wp_ok, pure_eq_ok]
            refine ⟨by omega, (w1.trans w2).congr fun x y => ?_⟩
            clear w1 w2 f1 f2 part
            omega
          · rw [if_neg hw]
            obtain ⟨d1, f1, w1⟩ := part o (a / 52 + ib) (b / 52 + jb) (a % 52)
              (blkExt R ib + a % 52) (b % 52) (blkExt C jb + b % 52) 0 0
              (by omega) (by omega) (by omega) (by omega) (by omega) (by omega) (by omega)
              (by omega)
            simp only [f1, ok_bind, wp_ok, pure_eq_ok]
            refine ⟨by omega, w1.congr fun x y => ?_⟩
            clear w1 f1 part
            omega
      · rintro ⟨k, d⟩ ⟨-, w⟩
        exact ⟨by dsimp only; omega, w.congr fun x y => ex_blockcol⟩
    · rintro ⟨k, d⟩ ⟨-, w⟩ i j hi hj
      exact (w i j).1 (ex_blockrow.2 ⟨hi, hj⟩)
  obtain ⟨m', e, h'⟩ := key
  exact ⟨m', e, m'.shows_of h'⟩

theorem Blk.subMatrix_err (m : Blk α r c) {sr er sc ec : Int} (h : ¬ window r c sr er sc ec) :
    ∃ s, m.subMatrix sr er sc ec = .error (.pan s) := by
  unfold Blk.subMatrix
  obtain ⟨s, e⟩ := must_error_err (checkSubMatrixIndex_err h)
  exact ⟨s, by rw [e]; rfl⟩

end Linear
