import Verif.Lemmas.BlkOps1

/-!
# Block storage: layouts, transpose, windows, row and column matrices
-/

set_option linter.unusedSectionVars false
set_option linter.unusedSimpArgs false

namespace Linear

open Spec

variable {α : Type} [Flt α] {r c : Nat}

/-- Cells of a matrix by block row. -/
theorem ex_blockrow {n x : Nat} {P : Prop} :
    (∃ ib, 0 ≤ ib ∧ ib < nBlocks n ∧ (ib * 52 ≤ x ∧ x < ib * 52 + blkExt n ib) ∧ P) ↔ x < n ∧ P := by
  constructor
  · rintro ⟨ib, h1, h2, ⟨h3, h4⟩, h5⟩; exact ⟨ex_block.1 ⟨ib, h1, h2, h3, h4⟩, h5⟩
  · rintro ⟨h1, h5⟩
    obtain ⟨ib, h1, h2, h3, h4⟩ := ex_block.2 h1
    exact ⟨ib, h1, h2, ⟨h3, h4⟩, h5⟩

theorem ex_blockcol {n x : Nat} {P : Prop} :
    (∃ ib, 0 ≤ ib ∧ ib < nBlocks n ∧ P ∧ (ib * 52 ≤ x ∧ x < ib * 52 + blkExt n ib)) ↔ P ∧ x < n := by
  constructor
  · rintro ⟨ib, h1, h2, h5, ⟨h3, h4⟩⟩; exact ⟨h5, ex_block.1 ⟨ib, h1, h2, h3, h4⟩⟩
  · rintro ⟨h5, h1⟩
    obtain ⟨ib, h1, h2, h3, h4⟩ := ex_block.2 h1
    exact ⟨ib, h1, h2, h5, ⟨h3, h4⟩⟩

theorem toBlocksLayout_ok {raw : List (List α)} {c : Nat} {A : Nat → Nat → α}
    (h : Rect raw raw.length c A) :
    ∃ b, toBlocksLayout raw c = .ok b ∧ ∀ i j, i < raw.length → j < c → entB b i j = A i j := by
  obtain ⟨-, h⟩ := h
  unfold toBlocksLayout
  dsimp only
  rw [forUp_check_ok (fun i _ hi => by
    obtain ⟨ri, h1, h2, -⟩ := h i hi
    simp only [rdL_eq_ok.2 h1, ok_bind, h2, ne_eq, not_true_eq_false, if_false]; rfl)]
  rw [ok_bind]
  refine Wp.exists_ok ?_
  rw [wp_bind]
  refine (wr_loop (fun s : Nat × Blocks α raw.length c => entB s.2) A
    (fun ib x y => (ib * 52 ≤ x ∧ x < ib * 52 + blkExt raw.length ib) ∧ y < c)
    (fun ib s => s.1 = ib * nBlocks c) (Nat.zero_le _) (by simp) ?_).imp ?_
  · rintro ib s _ hib hs _
    rw [← blkExt_end hib]
    refine (wr_loop (fun s : Nat × Blocks α raw.length c => entB s.2) A
      (fun jb x y => (ib * 52 ≤ x ∧ x < ib * 52 + blkExt raw.length ib) ∧
        (jb * 52 ≤ y ∧ y < jb * 52 + blkExt c jb))
      (fun jb s => s.1 = ib * nBlocks c + jb) (Nat.zero_le _) (by simpa using hs) ?_).imp ?_
    · rintro jb ⟨bi, b⟩ _ hjb hb _
      dsimp only at hb ⊢
      subst hb
      have hpos := blkExt_pos hjb
      have hle := blkExt_le c jb
      have hm := mul_lt_of_lt_nBlocks hjb
      have hend := blkExt_end hjb
      rw [wp_bind]
      refine (wr_loop (fun s : Nat × Blocks α raw.length c => entB s.2) A
        (fun i x y => x = i ∧ (jb * 52 ≤ y ∧ y < jb * 52 + blkExt c jb))
        (fun i s => s.1 = (i - ib * 52) * blkExt c jb) (by omega) (by simp) ?_).imp ?_
      · rintro i ⟨k, d⟩ hi1 hi2 hk _
        dsimp only at hk ⊢
        subst hk
        have hle' := blkExt_le raw.length ib
        have hi3 : i < raw.length := by
          have := blkExt_add_lt (n := raw.length) (b := ib) (k := i - ib * 52) (by omega); omega
        obtain ⟨ri, h1, h2, h3⟩ := h i hi3
        rw [rdL_eq_ok.2 h1, ok_bind, ← hend, Nat.add_sub_cancel_left]
        obtain ⟨d', e, w⟩ := copySegL_cell d (i := i) (j := jb * 52)
          (k := blkExt c jb) (s := jb * 52) (src := ri) (G := A) hi3 hm
          (by rw [show jb * 52 / 52 = jb by omega, show jb * 52 % 52 = 0 by omega]; omega)
          (by rw [h2]; omega) (fun t ht => h3 _ (by omega))
        rw [← off_of (ib := ib) (p := i - ib * 52) (jb := jb) (q := 0) (by omega)
          (by omega) (by omega) hjb hpos, ← idx_of (ib := ib) (p := i - ib * 52)
          (jb := jb) (q := 0) (by omega) (by omega) (by omega) (by omega),
          blockDim_eq_blkExt hjb, Nat.add_zero] at e
        rw [e]
        refine ⟨?_, w⟩
        dsimp only
        rw [show i + 1 - ib * 52 = i - ib * 52 + 1 by omega, Nat.succ_mul]
      · rintro ⟨k, d⟩ ⟨-, w⟩
        refine ⟨by dsimp only; omega, w.congr fun x y => ?_⟩
        constructor
        · rintro ⟨i, h1, h2, rfl, h3⟩; exact ⟨⟨h1, h2⟩, h3⟩
        · rintro ⟨⟨h1, h2⟩, h3⟩; exact ⟨x, h1, h2, rfl, h3⟩
    · rintro ⟨k, d⟩ ⟨h1, w⟩
      refine ⟨by dsimp only at h1 ⊢; rw [h1, Nat.succ_mul], w.congr fun x y => ex_blockcol⟩
  · rintro ⟨k, d⟩ ⟨-, w⟩ i j hi hj
    exact (w i j).1 (ex_blockrow.2 ⟨hi, hj⟩)

theorem Blk.dataCopy_ok (m : Blk α r c) (hc : 0 < c) :
    ∃ t, m.dataCopy = .ok t ∧ ∀ i j, i < r → j < c → t.f i j = entB m.blocks i j := by
  unfold Blk.dataCopy
  have hnb := nBlocks_pos hc
  have hlast : c - (nBlocks c - 1) * 52 = blkExt c (nBlocks c - 1) := by
    rw [← blockDim_eq_blkExt (by omega)]
    unfold blockDim
    rw [if_pos (by omega)]
  dsimp only
  rw [hlast]
  refine Wp.exists_ok ?_
  refine (wr_loop' (fun t : Tab α r c => t.f) (entB m.blocks)
    (fun ib x y => (ib * 52 ≤ x ∧ x < ib * 52 + blkExt r ib) ∧ y < c) (Nat.zero_le _) ?_).imp ?_
  · rintro ib t _ hib _
    rw [← blkExt_end hib, wp_bind]
    have hle' := blkExt_le r ib
    refine (wr_loop (fun s : (Nat × Nat) × Tab α r c => s.2.f) (entB m.blocks)
      (fun i x y => x = i ∧ y < c)
      (fun i s => s.1 = ((i - ib * 52) * 52, (i - ib * 52) * blkExt c (nBlocks c - 1)))
      (by omega) (by simp) ?_).imp ?_
    · rintro i ⟨⟨k1, k2⟩, d⟩ hi1 hi2 hk _
      have hi3 : i < r := by
        have := blkExt_add_lt (n := r) (b := ib) (k := i - ib * 52) (by omega); omega
      simp only [Prod.mk.injEq] at hk
      obtain ⟨hk1, hk2⟩ := hk
      subst hk1 hk2
      dsimp only
      rw [wp_bind]
      refine (wr_loop (fun s : (Nat × Nat) × Tab α r c => s.2.f) (entB m.blocks)
        (fun jb x y => x = i ∧ (jb * 52 ≤ y ∧ y < jb * 52 + 52))
        (fun jb s => s.1 = (ib * nBlocks c + jb, jb * 52)) (Nat.zero_le _) (by simp) ?_).imp ?_
      · rintro jb ⟨⟨k1, k2⟩, d⟩ _ hjb hk _
        simp only [Prod.mk.injEq] at hk
        obtain ⟨hk1, hk2⟩ := hk
        subst hk1 hk2
        have hw := width_step (n := c) (jb := jb) (by omega)
        have hend := blkExt_end (n := c) (b := jb) (by omega)
        have hm := mul_lt_of_lt_nBlocks (n := c) (b := jb) (by omega)
        obtain ⟨d', e, w⟩ := Tab.copySeg_cell d m.blocks (x := i) (a := jb * 52) (i := i)
          (j := jb * 52) (k := 52) (G := entB m.blocks) hi3 (by omega) hi3 hm
          (by rw [show jb * 52 / 52 = jb by omega, show jb * 52 % 52 = 0 by omega]; omega)
          (fun t ht => rfl)
        rw [← off_of (ib := ib) (p := i - ib * 52) (jb := jb) (q := 0) (by omega)
          (by omega) (by omega) (by omega) (by omega), ← idx_of (ib := ib) (p := i - ib * 52)
          (jb := jb) (q := 0) (by omega) (by omega) (by omega) (by omega),
          blockDim_eq_blkExt (by omega), hw, Nat.add_zero] at e
        dsimp only
        rw [e]
        refine ⟨?_, w⟩
        simp only [Prod.mk.injEq]
        omega
      · rintro ⟨⟨k1, k2⟩, d1⟩ ⟨hk, w1⟩
        simp only [Prod.mk.injEq] at hk
        obtain ⟨hk1, hk2⟩ := hk
        subst hk1 hk2
        generalize hjb' : nBlocks c - 1 = jb at *
        have hjb : jb < nBlocks c := by omega
        have hend := blkExt_end hjb
        have hm := mul_lt_of_lt_nBlocks hjb
        have hpos := blkExt_pos hjb
        have hle := blkExt_le c jb
        have hfull : jb * 52 + blkExt c jb = c := by
          rw [hend]; rw [nBlocks_eq] at hjb'; omega
        obtain ⟨d', e, w⟩ := Tab.copySeg_cell d1 m.blocks (x := i) (a := jb * 52) (i := i)
          (j := jb * 52) (k := blkExt c jb) (G := entB m.blocks) hi3 (by omega) hi3 hm
          (by rw [show jb * 52 / 52 = jb by omega, show jb * 52 % 52 = 0 by omega]; omega)
          (fun t ht => rfl)
        rw [← off_of (ib := ib) (p := i - ib * 52) (jb := jb) (q := 0) (by omega)
          (by omega) (by omega) (by omega) (by omega), ← idx_of (ib := ib) (p := i - ib * 52)
          (jb := jb) (q := 0) (by omega) (by omega) (by omega) (by omega),
          blockDim_eq_blkExt (by omega), Nat.add_zero] at e
        dsimp only
        rw [e]
        refine ⟨?_, (w1.trans w).congr fun x y => ?_⟩
        · simp only [Prod.mk.injEq]
          rw [show i + 1 - ib * 52 = i - ib * 52 + 1 by omega, Nat.succ_mul, Nat.succ_mul]
          exact ⟨rfl, rfl⟩
        · constructor
          · rintro (⟨b, h1, h2, h3, h4⟩ | h)
            · refine ⟨h3, ?_⟩
              have : b * 52 + 52 ≤ jb * 52 := by omega
              omega
            · exact ⟨h.1, by omega⟩
          · rintro ⟨h1, h2⟩
            by_cases h3 : jb * 52 ≤ y
            · exact Or.inr ⟨h1, h3, by omega⟩
            · exact Or.inl ⟨y / 52, by omega, by omega, h1, by omega, by omega⟩
    · rintro ⟨k, d⟩ ⟨-, w⟩
      refine w.congr fun x y => ?_
      constructor
      · rintro ⟨i, h1, h2, rfl, h3⟩; exact ⟨⟨h1, h2⟩, h3⟩
      · rintro ⟨⟨h1, h2⟩, h3⟩; exact ⟨x, h1, h2, rfl, h3⟩
  · intro t w i j hi hj
    exact (w i j).1 (ex_blockrow.2 ⟨hi, hj⟩)

theorem Blk.transpose_ok (m : Blk α r c) :
    ∃ m', m.transpose = .ok m' ∧ Shows m'.at c r fun i j => entB m.blocks j i := by
  have key : ∃ m' : Blk α c r, m.transpose = .ok m' ∧
      ∀ i j, i < c → j < r → entB m'.blocks i j = entB m.blocks j i := by
    unfold Blk.transpose
    refine Wp.exists_ok ?_
    rw [wp_bind]
    refine (wr_loop (fun s : Nat × Blocks α c r => entB s.2) (fun x y => entB m.blocks y x)
      (fun ib x y => (ib * 52 ≤ x ∧ x < ib * 52 + blkExt c ib) ∧ y < r)
      (fun ib s => s.1 = ib * nBlocks r) (Nat.zero_le _) (by simp) ?_).imp ?_
    · rintro ib s _ hib hs _
      refine (wr_loop (fun s : Nat × Blocks α c r => entB s.2) (fun x y => entB m.blocks y x)
        (fun jb x y => (ib * 52 ≤ x ∧ x < ib * 52 + blkExt c ib) ∧
          (jb * 52 ≤ y ∧ y < jb * 52 + blkExt r jb))
        (fun jb s => s.1 = ib * nBlocks r + jb) (Nat.zero_le _) (by simpa using hs) ?_).imp ?_
      · rintro jb ⟨bi, b⟩ _ hjb hb _
        dsimp only at hb ⊢
        subst hb
        have hle := blkExt_le r jb
        have hle' := blkExt_le c ib
        rw [← blkExt_end hib, ← blkExt_end hjb, wp_bind]
        refine (wr_loop (fun s : Nat × Blocks α c r => entB s.2) (fun x y => entB m.blocks y x)
          (fun i x y => x = i ∧ (jb * 52 ≤ y ∧ y < jb * 52 + blkExt r jb))
          (fun i s => s.1 = (i - ib * 52) * blkExt r jb) (by omega) (by simp) ?_).imp ?_
        · rintro i ⟨k, d⟩ hi1 hi2 hk _
          dsimp only at hk ⊢
          subst hk
          have hi3 : i < c := by
            have := blkExt_add_lt (n := c) (b := ib) (k := i - ib * 52) (by omega); omega
          rw [wp_bind, Nat.add_sub_cancel_left]
          refine (wr_loop (fun s : Nat × Nat × Blocks α c r => entB s.2.2)
            (fun x y => entB m.blocks y x) (fun j x y => x = i ∧ y = j)
            (fun j s => s.1 = (i - ib * 52) * blkExt r jb + (j - jb * 52) ∧
              s.2.1 = (j - jb * 52) * blkExt c ib + (i - ib * 52)) (by omega) (by simp) ?_).imp ?_
          · rintro j ⟨k, l, d⟩ hj1 hj2 ⟨hk, hl⟩ _
            dsimp only at hk hl ⊢
            subst hk hl
            have hj3 : j < r := by
              have := blkExt_add_lt (n := r) (b := jb) (k := j - jb * 52) (by omega); omega
            rw [idx_of (c := c) (i := j) (j := i) (ib := jb) (jb := ib) (p := j - jb * 52)
              (q := i - ib * 52) (by omega) (by omega) (by omega) (by omega)]
            rw [← blockDim_eq_blkExt hib, off_of (i := j) (j := i) (ib := jb) (by omega) (by omega)
              (by omega) hib (by omega), get_cell _ hj3 hi3, ok_bind]
            rw [idx_of (c := r) (i := i) (j := j) (ib := ib) (jb := jb) (p := i - ib * 52)
              (q := j - jb * 52) (by omega) (by omega) (by omega) (by omega)]
            rw [← blockDim_eq_blkExt hjb, off_of (i := i) (j := j) (ib := ib) (by omega) (by omega)
              (by omega) hjb (by omega)]
            obtain ⟨b, e, hb⟩ := set_cell d (entB m.blocks j i) hi3 hj3
            rw [e]
            refine ⟨⟨?_, ?_⟩, ?_⟩
            · dsimp only
              rw [← off_of (ib := ib) (p := i - ib * 52) (q := j - jb * 52) (by omega) (by omega)
                (by omega) hjb (by omega)]
              omega
            · dsimp only
              rw [← off_of (ib := jb) (p := j - jb * 52) (q := i - ib * 52) (by omega) (by omega)
                (by omega) hib (by omega), show j + 1 - jb * 52 = j - jb * 52 + 1 by omega,
                Nat.succ_mul]
              omega
            · dsimp only
              rw [hb]
              exact Wr.upd2 rfl
          · rintro ⟨k, l, d'⟩ ⟨⟨hk, -⟩, w⟩
            refine ⟨?_, w.congr fun x y => ?_⟩
            · dsimp only at hk ⊢
              rw [hk, show i + 1 - ib * 52 = i - ib * 52 + 1 by omega, Nat.succ_mul]
              omega
            · constructor
              · rintro ⟨j, h1, h2, rfl, rfl⟩; exact ⟨rfl, h1, h2⟩
              · rintro ⟨rfl, h1, h2⟩; exact ⟨y, h1, h2, rfl, rfl⟩
        · rintro ⟨k, d⟩ ⟨-, w⟩
          refine ⟨by dsimp only; omega, w.congr fun x y => ?_⟩
          constructor
          · rintro ⟨i, h1, h2, rfl, h3⟩; exact ⟨⟨h1, h2⟩, h3⟩
          · rintro ⟨⟨h1, h2⟩, h3⟩; exact ⟨x, h1, h2, rfl, h3⟩
      · rintro ⟨k, d⟩ ⟨h1, w⟩
        refine ⟨by dsimp only at h1 ⊢; rw [h1, Nat.succ_mul], w.congr fun x y => ex_blockcol⟩
    · rintro ⟨k, d⟩ ⟨-, w⟩ i j hi hj
      exact (w i j).1 (ex_blockrow.2 ⟨hi, hj⟩)
  obtain ⟨m', e, h⟩ := key
  exact ⟨m', e, m'.shows_of h⟩

end Linear
