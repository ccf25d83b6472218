import Verif.Lemmas.BlkLemmas

/-!
# Block storage: construction, copies, entrywise arithmetic, rows and columns
-/

set_option linter.unusedSectionVars false
set_option linter.unusedSimpArgs false

namespace Linear

open Spec

variable {α : Type} [Flt α] {r c : Nat}

theorem Blk.setEntry_ok (m : Blk α r c) {i j : Int} {v : α} (h : inRange r c i j) :
    ∃ m', m.setEntry i j v = .ok m' ∧
      entB m'.blocks = upd2 (entB m.blocks) i.toNat j.toNat v := by
  unfold Blk.setEntry
  rw [checkMatrixIndex_ok h]
  unfold inRange at h
  obtain ⟨b, e, hb⟩ := set_cell m.blocks v (show i.toNat < r by omega) (show j.toNat < c by omega)
  simp only [must_ok, res_at_ok, ok_bind, e]
  exact ⟨⟨b⟩, rfl, hb⟩

theorem Blk.setEntry_err (m : Blk α r c) {i j : Int} {v : α} (h : ¬ inRange r c i j) :
    m.setEntry i j v = .error (.pan .range, m) := by
  unfold Blk.setEntry
  rw [checkMatrixIndex_err h]
  rfl

theorem Blk.addToEntry_ok (m : Blk α r c) {i j : Int} {v : α} (h : inRange r c i j) :
    ∃ m', m.addToEntry i j v = .ok m' ∧
      entB m'.blocks = upd2 (entB m.blocks) i.toNat j.toNat
        (Flt.add (entB m.blocks i.toNat j.toNat) v) := by
  unfold Blk.addToEntry
  rw [checkMatrixIndex_ok h]
  unfold inRange at h
  obtain ⟨b, e, hb⟩ := set_cell m.blocks (Flt.add (entB m.blocks i.toNat j.toNat) v)
    (show i.toNat < r by omega) (show j.toNat < c by omega)
  simp only [must_ok, res_at_ok, ok_bind,
    get_cell m.blocks (show i.toNat < r by omega) (show j.toNat < c by omega), e]
  exact ⟨⟨b⟩, rfl, hb⟩

theorem Blk.addToEntry_err (m : Blk α r c) {i j : Int} {v : α} (h : ¬ inRange r c i j) :
    m.addToEntry i j v = .error (.pan .range, m) := by
  unfold Blk.addToEntry
  rw [checkMatrixIndex_err h]
  rfl

theorem Blk.multiplyEntry_ok (m : Blk α r c) {i j : Int} {v : α} (h : inRange r c i j) :
    ∃ m', m.multiplyEntry i j v = .ok m' ∧
      entB m'.blocks = upd2 (entB m.blocks) i.toNat j.toNat
        (Flt.mul (entB m.blocks i.toNat j.toNat) v) := by
  unfold Blk.multiplyEntry
  rw [checkMatrixIndex_ok h]
  unfold inRange at h
  obtain ⟨b, e, hb⟩ := set_cell m.blocks (Flt.mul (entB m.blocks i.toNat j.toNat) v)
    (show i.toNat < r by omega) (show j.toNat < c by omega)
  simp only [must_ok, res_at_ok, ok_bind,
    get_cell m.blocks (show i.toNat < r by omega) (show j.toNat < c by omega), e]
  exact ⟨⟨b⟩, rfl, hb⟩

theorem Blk.multiplyEntry_err (m : Blk α r c) {i j : Int} {v : α} (h : ¬ inRange r c i j) :
    m.multiplyEntry i j v = .error (.pan .range, m) := by
  unfold Blk.multiplyEntry
  rw [checkMatrixIndex_err h]
  rfl

/-! ## Whole-matrix loops -/

theorem Blk.mapBlocks_ok {cell : Nat → Nat → Res α} (G : Nat → Nat → α)
    (h : ∀ i j, i < r → j < c → cell (blkIdx c i j) (blkOff c i j) = .ok (G i j)) :
    ∃ m : Blk α r c, Blk.mapBlocks cell = .ok m ∧ Shows m.at r c G := by
  have key : Wp (forUp 0 (nBlocks r * nBlocks c) (fun bi out =>
      forUp 0 (blkLen r c bi) (fun k out => do out.set bi k (← cell bi k)) out)
      (Jag.zero _ _ : Blocks α r c))
      (fun b => ∀ k l, k < nBlocks r * nBlocks c → l < blkLen r c k →
        b.f k l = G (cellRow c k l) (cellCol c k l)) (fun _ => False) := by
    refine (wr_loop' (fun b : Blocks α r c => b.f) (fun k l => G (cellRow c k l) (cellCol c k l))
      (fun bi x y => x = bi ∧ y < blkLen r c bi) (Nat.zero_le _) ?_).imp ?_
    · intro bi b _ hbi _
      refine (wr_loop' (fun b : Blocks α r c => b.f)
        (fun k l => G (cellRow c k l) (cellCol c k l))
        (fun k x y => x = bi ∧ y = k) (Nat.zero_le _) ?_).imp ?_
      · intro k b _ hk _
        have := h _ _ (cellRow_lt hk) (cellCol_lt hk)
        rw [blkIdx_cell hk, blkOff_cell hk] at this
        rw [this, ok_bind, Jag.set_ok hbi hk]
        exact Wr.upd2 rfl
      · intro b hb
        refine hb.congr fun x y => ?_
        constructor
        · rintro ⟨k, -, hk, rfl, rfl⟩; exact ⟨rfl, hk⟩
        · rintro ⟨rfl, hy⟩; exact ⟨y, by omega, hy, rfl, rfl⟩
    · intro b hb k l hk hl
      exact (hb k l).1 ⟨k, by omega, hk, rfl, hl⟩
  obtain ⟨b, e, h'⟩ := key.exists_ok
  refine ⟨⟨b⟩, by unfold Blk.mapBlocks; rw [e]; rfl, Blk.shows_of _ fun i j hi hj => ?_⟩
  rw [entB_eq _ hi hj, h' _ _ (blkIdx_lt hi hj) (blkOff_lt hi hj), cellRow_at hj, cellCol_at hj]

theorem Blk.mapCells_ok {cell : Nat → Nat → Nat → Nat → Res α} (G : Nat → Nat → α)
    (h : ∀ i j, i < r → j < c → cell (blkIdx c i j) (blkOff c i j) i j = .ok (G i j)) :
    ∃ m : Blk α r c, Blk.mapCells cell = .ok m ∧ Shows m.at r c G := by
  unfold Blk.mapCells
  rw [blkLoopOpt_eq]
  have key := (wr_list (E := fun _ : Fault => False) (fun b : Blocks α r c => entB b) G
    (fun p x y => x = p.1 ∧ y = p.2) (fun _ => True) (blkCells r c)
    (body := fun b p => do
      b.set (blkIdx c p.1 p.2) (blkOff c p.1 p.2)
        (← cell (blkIdx c p.1 p.2) (blkOff c p.1 p.2) p.1 p.2))
    (s := (Jag.zero _ _ : Blocks α r c)) trivial ?_)
  · obtain ⟨b, e, -, w⟩ := key.exists_ok
    refine ⟨⟨b⟩, by rw [e]; rfl, Blk.shows_of _ fun i j hi hj => ?_⟩
    exact (w i j).1 ⟨(i, j), mem_blkCells.2 ⟨hi, hj⟩, rfl, rfl⟩
  · rintro done ⟨i, j⟩ rest b hl - -
    have hm : (i, j) ∈ blkCells r c := by rw [hl]; simp
    obtain ⟨hi, hj⟩ := mem_blkCells.1 hm
    dsimp only
    rw [h i j hi hj, ok_bind]
    obtain ⟨b', e, h'⟩ := set_cell b (G i j) hi hj
    rw [e]
    refine ⟨trivial, ?_⟩
    rw [h']
    exact Wr.upd2 rfl

theorem Blk.add_ok (a : Blk α r c) (b : Mat α r c) (hr : 0 < r) (hc : 0 < c) :
    ∃ m, a.add b = .ok m ∧
      Shows m.at r c fun i j => Flt.add (entB a.blocks i j) (b.ent i j) := by
  unfold Blk.add
  simp only [checkAdd_ok, must_ok, ok_bind]
  rw [if_neg (by omega)]
  cases b with
  | blk m =>
    refine Blk.mapBlocks_ok _ fun i j hi hj => ?_
    rw [get_cell _ hi hj, get_cell _ hi hj, ← Blk.ent_eq m hi hj]; rfl
  | arr m =>
    refine Blk.mapCells_ok _ fun i j hi hj => ?_
    rw [get_cell _ hi hj, Mat.at_ok _ hi hj]; rfl
  | dia m =>
    refine Blk.mapCells_ok _ fun i j hi hj => ?_
    rw [get_cell _ hi hj, Mat.at_ok _ hi hj]; rfl
  | ext m =>
    refine Blk.mapCells_ok _ fun i j hi hj => ?_
    rw [get_cell _ hi hj, Mat.at_ok _ hi hj]; rfl

theorem Blk.add_err {p q : Nat} (a : Blk α r c) (b : Mat α p q)
    (h : ¬ (r = p ∧ c = q)) : a.add b = .error (.pan .matDim) := by
  unfold Blk.add
  simp only [checkAdd_err h, must_err, error_bind]

theorem Blk.subtract_ok (a : Blk α r c) (b : Mat α r c) (hr : 0 < r) (hc : 0 < c) :
    ∃ m, a.subtract b = .ok m ∧
      Shows m.at r c fun i j => Flt.sub (entB a.blocks i j) (b.ent i j) := by
  unfold Blk.subtract
  simp only [checkAdd_ok, must_ok, ok_bind]
  rw [if_neg (by omega)]
  cases b with
  | blk m =>
    refine Blk.mapBlocks_ok _ fun i j hi hj => ?_
    rw [get_cell _ hi hj, get_cell _ hi hj, ← Blk.ent_eq m hi hj]; rfl
  | arr m =>
    refine Blk.mapCells_ok _ fun i j hi hj => ?_
    rw [get_cell _ hi hj, Mat.at_ok _ hi hj]; rfl
  | dia m =>
    refine Blk.mapCells_ok _ fun i j hi hj => ?_
    rw [get_cell _ hi hj, Mat.at_ok _ hi hj]; rfl
  | ext m =>
    refine Blk.mapCells_ok _ fun i j hi hj => ?_
    rw [get_cell _ hi hj, Mat.at_ok _ hi hj]; rfl

theorem Blk.subtract_err {p q : Nat} (a : Blk α r c) (b : Mat α p q)
    (h : ¬ (r = p ∧ c = q)) : a.subtract b = .error (.pan .matDim) := by
  unfold Blk.subtract
  simp only [checkAdd_err h, must_err, error_bind]

theorem Blk.scalarAdd_ok (a : Blk α r c) (d : α) (hr : 0 < r) (hc : 0 < c) :
    ∃ m, a.scalarAdd d = .ok m ∧ Shows m.at r c fun i j => Flt.add (entB a.blocks i j) d := by
  unfold Blk.scalarAdd
  rw [if_neg (by omega)]
  refine Blk.mapBlocks_ok _ fun i j hi hj => ?_
  rw [get_cell _ hi hj]; rfl

theorem Blk.scalarMultiply_ok (a : Blk α r c) (d : α) (hr : 0 < r) (hc : 0 < c) :
    ∃ m, a.scalarMultiply d = .ok m ∧
      Shows m.at r c fun i j => Flt.mul (entB a.blocks i j) d := by
  unfold Blk.scalarMultiply
  rw [if_neg (by omega)]
  refine Blk.mapBlocks_ok _ fun i j hi hj => ?_
  rw [get_cell _ hi hj]; rfl

theorem Blk.copy_ok (m : Blk α r c) : ∃ m', m.copy = .ok m' ∧ Shows m'.at r c (entB m.blocks) := by
  have key : Wp (forUp 0 (nBlocks r * nBlocks c) (fun i b =>
      b.copySeg i 0 m.blocks i 0 (blkLen r c i)) (Jag.zero _ _ : Blocks α r c))
      (fun b => ∀ k l, k < nBlocks r * nBlocks c → l < blkLen r c k → b.f k l = m.blocks.f k l)
      (fun _ => False) := by
    refine (wr_loop' (fun b : Blocks α r c => b.f) m.blocks.f
      (fun bi x y => x = bi ∧ y < blkLen r c bi) (Nat.zero_le _) ?_).imp ?_
    · intro bi b _ hbi _
      unfold Jag.copySeg Jag.seg
      rw [if_pos (by simp [hbi])]
      simp only [ok_bind]
      refine (wr_loop' (fun b : Blocks α r c => b.f) m.blocks.f
        (fun k x y => x = bi ∧ y = k) (Nat.zero_le _) ?_).imp ?_
      · intro k b _ hk _
        simp only [Nat.zero_add]
        rw [Jag.get_ok hbi hk, ok_bind, Jag.set_ok hbi hk]
        exact Wr.upd2 rfl
      · intro b hb
        refine hb.congr fun x y => ?_
        constructor
        · rintro ⟨k, -, hk, rfl, rfl⟩; exact ⟨rfl, hk⟩
        · rintro ⟨rfl, hy⟩; exact ⟨y, by omega, hy, rfl, rfl⟩
    · intro b hb k l hk hl
      exact (hb k l).1 ⟨k, by omega, hk, rfl, hl⟩
  obtain ⟨b, e, h'⟩ := key.exists_ok
  refine ⟨⟨b⟩, by unfold Blk.copy; rw [e]; rfl, Blk.shows_of _ fun i j hi hj => ?_⟩
  rw [entB_eq _ hi hj, entB_eq _ hi hj, h' _ _ (blkIdx_lt hi hj) (blkOff_lt hi hj)]

theorem Blk.trace_ok (m : Blk α r r) :
    m.trace = .ok (lsum 0 r (fun i => entB m.blocks i i) Flt.zero) := by
  unfold Blk.trace
  simp only [ne_eq, not_true_eq_false, if_false]
  exact sumUp_ok _ fun i _ hi => by rw [Blk.at_ok _ hi hi, Blk.ent_eq _ hi hi]

theorem Blk.trace_err (m : Blk α r c) (h : r ≠ c) : m.trace = .error (.pan .sqMat) := by
  unfold Blk.trace
  simp only [ne_eq, h, not_false_eq_true, if_true]
  rfl

/-! ## Blocked one-dimensional loops -/

/-- The union of the block ranges `[jb*52, jb*52+w)` is the whole range. -/
theorem ex_block {n y : Nat} : (∃ jb, 0 ≤ jb ∧ jb < nBlocks n ∧ jb * 52 ≤ y ∧
    y < jb * 52 + blkExt n jb) ↔ y < n := by
  constructor
  · rintro ⟨jb, -, h1, h2, h3⟩
    have := blkExt_end h1
    omega
  · intro h
    refine ⟨y / 52, by omega, div_lt_nBlocks h, by omega, ?_⟩
    rw [blkExt_end (div_lt_nBlocks h)]
    omega

/-- A counter that grows by the block width is the start of the block. -/
theorem width_step {n jb : Nat} (h : jb + 1 < nBlocks n) : blkExt n jb = 52 := by
  have h1 := mul_lt_of_lt_nBlocks h
  rw [blkExt_eq]; omega

theorem min_start {n jb : Nat} (h : jb < nBlocks n) : min (jb * 52) n = jb * 52 := by
  have := mul_lt_of_lt_nBlocks h; omega

theorem min_start_succ {n jb : Nat} (h : jb < nBlocks n) :
    min ((jb + 1) * 52) n = jb * 52 + blkExt n jb := by
  rw [blkExt_end h]; congr 1; omega

theorem min_start_end {n : Nat} : min (nBlocks n * 52) n = n := by
  rw [nBlocks_eq]; omega

theorem Blk.rowAt_ok (m : Blk α r c) {i : Int} (hi : 0 ≤ i ∧ i < r) :
    ∃ l, m.rowAt i = .ok l ∧ IsList l c fun j => entB m.blocks i.toNat j := by
  unfold Blk.rowAt
  simp only [checkRowIndex_ok hi, must_ok, ok_bind]
  have hi' : i.toNat < r := by omega
  generalize i.toNat = i at hi'
  have key := wr_loop (E := fun _ : Fault => False) (fun s : Nat × Row α c => fun x _ => s.2.f x)
    (fun x _ => entB m.blocks i x) (fun jb x _ => jb * 52 ≤ x ∧ x < jb * 52 + blkExt c jb)
    (fun jb s => s.1 = min (jb * 52) c) (Nat.zero_le (nBlocks c))
    (body := fun jBlock (s : Nat × Row α c) => do
      let o ← s.2.copySeg s.1 m.blocks (i / 52 * nBlocks c + jBlock)
        ((i - i / 52 * 52) * blockDim c jBlock) (blockDim c jBlock)
      return (s.1 + blockDim c jBlock, o)) (s := (0, Row.zero c)) (by simp) ?_
  · obtain ⟨s, e, hK, w⟩ := key.exists_ok
    refine ⟨_, by rw [e]; rfl, (Row.toList_isList _).congr fun j hj => ?_⟩
    exact (w j 0).1 (ex_block.2 hj)
  · rintro jb ⟨k, d⟩ _ hjb hk _
    have hm := mul_lt_of_lt_nBlocks hjb
    have hpos := blkExt_pos hjb
    dsimp only at hk ⊢
    rw [min_start hjb] at hk
    subst hk
    obtain ⟨d', e, w⟩ := Row.copySeg_cell d m.blocks (a := jb * 52) (i := i) (j := jb * 52)
      (k := blkExt c jb) (G := fun x _ => entB m.blocks i x)
      (by rw [blkExt_end hjb]; omega) hi' hm
      (by rw [show jb * 52 / 52 = jb by omega, show jb * 52 % 52 = 0 by omega]; omega)
      (fun _ _ _ => rfl)
    rw [← off_of (ib := i / 52) (p := i - i / 52 * 52) (jb := jb) (q := 0) (by omega) (by omega)
      (by omega) hjb hpos, ← idx_of (ib := i / 52) (p := i - i / 52 * 52) (jb := jb) (q := 0)
      (by omega) (by omega) (by omega) (by omega), ← blockDim_eq_blkExt hjb] at e
    rw [Nat.add_zero] at e
    rw [e]
    refine ⟨?_, w⟩
    dsimp only
    rw [min_start_succ hjb, blockDim_eq_blkExt hjb]

theorem Blk.rowAt_err (m : Blk α r c) {i : Int} (hi : ¬ (0 ≤ i ∧ i < r)) :
    m.rowAt i = .error (.pan .range) := by
  unfold Blk.rowAt
  simp only [checkRowIndex_err hi, must_err, error_bind]

theorem Blk.setRow_ok (m : Blk α r c) {i : Int} {l : List α} {f : Nat → α}
    (hi : 0 ≤ i ∧ i < r) (hl : IsList l c f) :
    ∃ m', m.setRow i l = .ok m' ∧
      Wr (fun _ y => f y) (fun x y => x = i.toNat ∧ y < c) (entB m.blocks) (entB m'.blocks) := by
  unfold Blk.setRow
  simp only [checkRowIndex_ok hi, must_ok, res_at_ok, ok_bind, hl.1, ne_eq, not_true_eq_false,
    if_false]
  have hi' : i.toNat < r := by omega
  generalize i.toNat = i at hi'
  have key := wr_loop (E := fun _ : Fault × Blk α r c => False)
    (fun s : Nat × Blk α r c => entB s.2.blocks)
    (fun _ y => f y) (fun jb x y => x = i ∧ jb * 52 ≤ y ∧ y < jb * 52 + blkExt c jb)
    (fun jb s => s.1 = min (jb * 52) c) (Nat.zero_le (nBlocks c))
    (body := fun jBlock (s : Nat × Blk α r c) => do
      let o ← (s.2.blocks.copySegL (i / 52 * nBlocks c + jBlock)
        ((i - i / 52 * 52) * blockDim c jBlock) l s.1 (blockDim c jBlock)).at s.2
      return (s.1 + blockDim c jBlock, ⟨o⟩)) (s := (0, m)) (by simp) ?_
  · obtain ⟨s, e, hK, w⟩ := key.exists_ok
    refine ⟨s.2, by rw [e]; rfl, w.congr fun x y => ?_⟩
    rw [← ex_block]
    constructor
    · rintro ⟨jb, h1, h2, h3, h4⟩; exact ⟨h3, jb, h1, h2, h4⟩
    · rintro ⟨h3, jb, h1, h2, h4⟩; exact ⟨jb, h1, h2, h3, h4⟩
  · rintro jb ⟨k, d⟩ _ hjb hk _
    have hm := mul_lt_of_lt_nBlocks hjb
    have hpos := blkExt_pos hjb
    have hend := blkExt_end hjb
    dsimp only at hk ⊢
    rw [min_start hjb] at hk
    subst hk
    obtain ⟨d', e, w⟩ := copySegL_cell d.blocks (i := i) (j := jb * 52)
      (k := blkExt c jb) (s := jb * 52) (src := l) (G := fun _ y => f y) hi' hm
      (by rw [show jb * 52 / 52 = jb by omega, show jb * 52 % 52 = 0 by omega]; omega)
      (by rw [hl.1]; omega) (fun t ht => hl.2 _ (by omega))
    rw [← off_of (ib := i / 52) (p := i - i / 52 * 52) (jb := jb) (q := 0) (by omega) (by omega)
      (by omega) hjb hpos, ← idx_of (ib := i / 52) (p := i - i / 52 * 52) (jb := jb) (q := 0)
      (by omega) (by omega) (by omega) (by omega), ← blockDim_eq_blkExt hjb] at e
    rw [Nat.add_zero] at e
    rw [e]
    refine ⟨?_, w⟩
    dsimp only
    rw [min_start_succ hjb, blockDim_eq_blkExt hjb]

theorem Blk.setRow_range (m : Blk α r c) {i : Int} {l : List α}
    (hi : ¬ (0 ≤ i ∧ i < r)) : m.setRow i l = .error (.pan .range, m) := by
  unfold Blk.setRow
  simp only [checkRowIndex_err hi, must_err, res_at_error, error_bind]

theorem Blk.setRow_len (m : Blk α r c) {i : Int} {l : List α}
    (hi : 0 ≤ i ∧ i < r) (hl : l.length ≠ c) : m.setRow i l = .error (.pan .matDim, m) := by
  unfold Blk.setRow
  simp only [ok_bind, res_at_ok, checkRowIndex_ok hi, must_ok, ne_eq, hl, not_false_eq_true,
    if_true]
  rfl

/-- Block rows of a column: cell `(ib*52+i, j)` in code form. -/
theorem col_idx {c ib i j : Nat} (hi : i < 52) :
    ib * nBlocks c + j / 52 = blkIdx c (ib * 52 + i) j :=
  idx_of rfl (q := j - j / 52 * 52) (by omega) hi (by omega)

theorem col_off {c ib i j : Nat} (hi : i < 52) (hj : j < c) :
    i * blockDim c (j / 52) + (j - j / 52 * 52) = blkOff c (ib * 52 + i) j :=
  off_of rfl (by omega) hi (div_lt_nBlocks hj) (by
    have := mod_lt_blkExt hj; omega)

/-- Loop over the rows block by block with a running counter that counts rows. -/
theorem col_loop {ε σ : Type} {E : ε → Prop} (π : σ → Nat → Nat → α) (g : Nat → Nat → α)
    (S : Nat → Nat → Nat → Prop) (K : Nat → σ → Prop) {n : Nat}
    {body : Nat → Nat → σ → Except ε σ} {s : σ} (hK : K 0 s)
    (hs : ∀ ib i s', ib < nBlocks n → i < blkExt n ib → K (ib * 52 + i) s' →
      Wp (body ib i s') (fun s'' => K (ib * 52 + i + 1) s'' ∧
        Wr g (S (ib * 52 + i)) (π s') (π s'')) E) :
    Wp (forUp 0 (nBlocks n) (fun ib s => forUp 0 (blockDim n ib) (fun i s => body ib i s) s) s)
      (fun s' => K n s' ∧ Wr g (fun x y => ∃ i, i < n ∧ S i x y) (π s) (π s')) E := by
  refine (wr_loop π g (fun ib x y => ∃ i, (ib * 52 ≤ i ∧ i < ib * 52 + blkExt n ib) ∧ S i x y)
    (fun ib s => K (min (ib * 52) n) s) (Nat.zero_le _) (by simpa using hK) ?_).imp ?_
  · intro ib s1 _ hib hK1 _
    rw [min_start hib] at hK1
    rw [min_start_succ hib, blockDim_eq_blkExt hib]
    refine (wr_loop π g (fun i x y => S (ib * 52 + i) x y)
      (fun i s => K (ib * 52 + i) s) (Nat.zero_le _) (by simpa using hK1) ?_).imp ?_
    · intro i s2 _ hi hK2 _
      exact hs ib i s2 hib hi hK2
    · rintro s2 ⟨h1, h2⟩
      refine ⟨h1, h2.congr fun x y => ?_⟩
      constructor
      · rintro ⟨i, -, hi, h⟩; exact ⟨ib * 52 + i, by omega, h⟩
      · rintro ⟨i, hi, h⟩
        exact ⟨i - ib * 52, by omega, by omega, by rwa [Nat.add_sub_cancel' hi.1]⟩
  · rintro s2 ⟨h1, h2⟩
    rw [min_start_end] at h1
    refine ⟨h1, h2.congr fun x y => ?_⟩
    constructor
    · rintro ⟨ib, h3, h4, i, h5, h6⟩; exact ⟨i, ex_block.1 ⟨ib, h3, h4, h5⟩, h6⟩
    · rintro ⟨i, h3, h4⟩
      obtain ⟨ib, h5, h6, h7⟩ := ex_block.2 h3
      exact ⟨ib, h5, h6, i, h7, h4⟩

theorem Blk.columnAt_ok (m : Blk α r c) {j : Int} (hj : 0 ≤ j ∧ j < c) :
    ∃ l, m.columnAt j = .ok l ∧ IsList l r fun i => entB m.blocks i j.toNat := by
  unfold Blk.columnAt
  simp only [checkColumnIndex_ok hj, must_ok, ok_bind]
  have hj' : j.toNat < c := by omega
  generalize j.toNat = j at hj'
  have key := col_loop (E := fun _ : Fault => False) (fun s : Nat × Row α r => fun x _ => s.2.f x)
    (fun x _ => entB m.blocks x j) (fun i x _ => x = i) (fun k s => s.1 = k) (n := r)
    (body := fun iBlock i (s : Nat × Row α r) => do
      let v ← m.blocks.get (iBlock * nBlocks c + j / 52)
        (i * blockDim c (j / 52) + (j - j / 52 * 52))
      let o ← s.2.set s.1 v
      return (s.1 + 1, o)) (s := (0, Row.zero r)) rfl ?_
  · obtain ⟨s, e, hK, w⟩ := key.exists_ok
    refine ⟨_, by rw [e]; rfl, (Row.toList_isList _).congr fun i hi => ?_⟩
    exact (w i 0).1 ⟨i, hi, rfl⟩
  · rintro ib i ⟨k, d⟩ hib hi hk
    have h1 := blkExt_le r ib
    have h2 := blkExt_add_lt hi
    dsimp only at hk ⊢
    subst hk
    rw [col_idx (i := i) (by omega), col_off (ib := ib) (by omega) hj', get_cell _ h2 hj', ok_bind,
      Row.set_ok h2]
    exact ⟨rfl, Wr.upd1 fun _ => rfl⟩

theorem Blk.columnAt_err (m : Blk α r c) {j : Int} (hj : ¬ (0 ≤ j ∧ j < c)) :
    m.columnAt j = .error (.pan .range) := by
  unfold Blk.columnAt
  simp only [checkColumnIndex_err hj, must_err, error_bind]

theorem Blk.setColumn_ok (m : Blk α r c) {j : Int} {l : List α} {f : Nat → α}
    (hj : 0 ≤ j ∧ j < c) (hl : IsList l r f) :
    ∃ m', m.setColumn j l = .ok m' ∧
      Wr (fun x _ => f x) (fun x y => x < r ∧ y = j.toNat) (entB m.blocks) (entB m'.blocks) := by
  unfold Blk.setColumn
  simp only [checkColumnIndex_ok hj, must_ok, res_at_ok, ok_bind, hl.1, ne_eq, not_true_eq_false,
    if_false]
  have hj' : j.toNat < c := by omega
  generalize j.toNat = j at hj'
  have key := col_loop (E := fun _ : Fault × Blk α r c => False)
    (fun s : Nat × Blk α r c => entB s.2.blocks)
    (fun x _ => f x) (fun i x y => x = i ∧ y = j) (fun k s => s.1 = k) (n := r)
    (body := fun iBlock i (s : Nat × Blk α r c) => do
      let v ← (rdL l s.1).at s.2
      let o ← (s.2.blocks.set (iBlock * nBlocks c + j / 52)
        (i * blockDim c (j / 52) + (j - j / 52 * 52)) v).at s.2
      return (s.1 + 1, ⟨o⟩)) (s := (0, m)) rfl ?_
  · obtain ⟨s, e, hK, w⟩ := key.exists_ok
    refine ⟨s.2, by rw [e]; rfl, w.congr fun x y => ?_⟩
    constructor
    · rintro ⟨i, hi, rfl, rfl⟩; exact ⟨hi, rfl⟩
    · rintro ⟨hx, rfl⟩; exact ⟨x, hx, rfl, rfl⟩
  · rintro ib i ⟨k, d⟩ hib hi hk
    have h1 := blkExt_le r ib
    have h2 := blkExt_add_lt hi
    dsimp only at hk ⊢
    subst hk
    rw [hl.rdL h2]
    obtain ⟨b, e, hb⟩ := set_cell d.blocks (f (ib * 52 + i)) h2 hj'
    rw [col_idx (i := i) (by omega), col_off (ib := ib) (by omega) hj']
    simp only [res_at_ok, ok_bind, e]
    refine ⟨rfl, ?_⟩
    dsimp only
    rw [hb]
    exact Wr.upd2 rfl

theorem Blk.setColumn_range (m : Blk α r c) {j : Int} {l : List α}
    (hj : ¬ (0 ≤ j ∧ j < c)) : m.setColumn j l = .error (.pan .range, m) := by
  unfold Blk.setColumn
  simp only [checkColumnIndex_err hj, must_err, res_at_error, error_bind]

theorem Blk.setColumn_len (m : Blk α r c) {j : Int} {l : List α}
    (hj : 0 ≤ j ∧ j < c) (hl : l.length ≠ r) : m.setColumn j l = .error (.pan .matDim, m) := by
  unfold Blk.setColumn
  simp only [ok_bind, res_at_ok, checkColumnIndex_ok hj, must_ok, ne_eq, hl, not_false_eq_true,
    if_true]
  rfl

/-- Result of a successful write: `g` on `S`, unchanged elsewhere. -/
theorem Blk.shows_wr {m m' : Blk α r c} {g : Nat → Nat → α} {S : Nat → Nat → Prop}
    [∀ i j, Decidable (S i j)] (h : Wr g S (entB m.blocks) (entB m'.blocks)) :
    Shows m'.at r c fun i j => if S i j then g i j else entB m.blocks i j := by
  refine m'.shows_of fun i j _ _ => ?_
  split
  · exact (h i j).1 ‹_›
  · exact (h i j).2 ‹_›

end Linear
