import Verif.Lemmas.ArrLemmas

/-!
# Operations of the block storage, entry by entry: reading, writing, segments
-/

set_option linter.unusedSectionVars false
set_option linter.unusedSimpArgs false

namespace Linear

open Spec

variable {α : Type} [Flt α] {r c : Nat}

/-- Entries of a block table by cell, zero outside the matrix. -/
def entB (b : Blocks α r c) (i j : Nat) : α :=
  if i < r ∧ j < c then b.f (blkIdx c i j) (blkOff c i j) else Flt.zero

theorem entB_eq (b : Blocks α r c) {i j : Nat} (hi : i < r) (hj : j < c) :
    entB b i j = b.f (blkIdx c i j) (blkOff c i j) := by
  unfold entB; rw [if_pos ⟨hi, hj⟩]

theorem Blk.ent_eq (m : Blk α r c) {i j : Nat} (hi : i < r) (hj : j < c) :
    m.ent i j = entB m.blocks i j := (entB_eq _ hi hj).symm

theorem Blk.shows_of {A : Nat → Nat → α} (m : Blk α r c)
    (h : ∀ i j, i < r → j < c → entB m.blocks i j = A i j) : Shows m.at r c A :=
  m.at_shows.congr fun i j hi hj => by rw [m.ent_eq hi hj, h i j hi hj]

theorem Blk.shows_entB (m : Blk α r c) : Shows m.at r c (entB m.blocks) :=
  m.shows_of fun _ _ _ _ => rfl

theorem get_cell (b : Blocks α r c) {i j : Nat} (hi : i < r) (hj : j < c) :
    b.get (blkIdx c i j) (blkOff c i j) = .ok (entB b i j) := by
  rw [Blk.get_ok b hi hj, entB_eq b hi hj]

theorem entB_upd (b : Blocks α r c) {i j : Nat} {v : α} (hi : i < r) (hj : j < c) :
    entB (⟨upd2 b.f (blkIdx c i j) (blkOff c i j) v⟩ : Blocks α r c) = upd2 (entB b) i j v := by
  funext x y
  rw [upd2_eq]
  unfold entB
  dsimp only
  rw [upd2_eq]
  by_cases hxy : x < r ∧ y < c
  · rw [if_pos hxy, if_pos hxy]
    by_cases h : x = i ∧ y = j
    · obtain ⟨rfl, rfl⟩ := h; simp
    · rw [if_neg h, if_neg]
      intro h'
      exact h (blk_pos_inj hxy.2 hj h')
  · rw [if_neg hxy, if_neg hxy, if_neg]
    rintro ⟨rfl, rfl⟩; exact hxy ⟨hi, hj⟩

theorem set_cell (b : Blocks α r c) {i j : Nat} (v : α) (hi : i < r) (hj : j < c) :
    ∃ b', b.set (blkIdx c i j) (blkOff c i j) v = .ok b' ∧ entB b' = upd2 (entB b) i j v :=
  ⟨_, Blk.set_ok b hi hj, entB_upd b hi hj⟩

theorem entB_zero : entB (Jag.zero _ _ : Blocks α r c) = fun _ _ => Flt.zero := by
  funext i j; unfold entB; split <;> rfl

/-- Two block tables with equal entries agree at all positions inside the blocks. -/
theorem entB_pos {b : Blocks α r c} {k l : Nat} (hl : l < blkLen r c k) :
    b.f k l = entB b (cellRow c k l) (cellCol c k l) := by
  rw [entB_eq _ (cellRow_lt hl) (cellCol_lt hl), blkIdx_cell hl, blkOff_cell hl]

/-! ## Positions inside a row of a block -/

theorem blkIdx_add {c i j t : Nat} (h : j % 52 + t < blkExt c (j / 52)) :
    blkIdx c i (j + t) = blkIdx c i j := by
  have := blkExt_le c (j / 52)
  unfold blkIdx
  congr 1
  omega

theorem blkOff_add {c i j t : Nat} (hj : j < c) (h : j % 52 + t < blkExt c (j / 52)) :
    blkOff c i (j + t) = blkOff c i j + t := by
  have h1 := blkExt_le c (j / 52)
  have h2 : (j + t) / 52 = j / 52 := by omega
  have h3 : j + t < c := by
    have := blkExt_add_lt h
    omega
  rw [blkOff_eq h3, blkOff_eq hj, h2]
  omega

theorem add_lt_of_ext {c j t : Nat} (h : j % 52 + t < blkExt c (j / 52)) : j + t < c := by
  have := blkExt_add_lt h
  omega

/-- A segment of one row of one block lies inside the block. -/
theorem seg_cell (b : Blocks α r c) {i j k : Nat} (hi : i < r) (hj : j < c)
    (hk : j % 52 + k ≤ blkExt c (j / 52)) :
    b.seg (blkIdx c i j) (blkOff c i j) k = .ok () := by
  unfold Jag.seg
  rw [if_pos]
  refine ⟨blkIdx_lt hi hj, ?_⟩
  rcases Nat.eq_zero_or_pos k with rfl | hpos
  · exact (blkOff_lt hi hj).le
  · have h1 : j % 52 + (k - 1) < blkExt c (j / 52) := by omega
    have h2 := blkOff_lt hi (add_lt_of_ext h1)
    rw [blkIdx_add h1, blkOff_add hj h1] at h2
    omega

/-- `copy` into a row segment of a block. -/
theorem write_seg {ε : Type} {E : ε → Prop} {σ : Type} (π : σ → Blocks α r c) (K : σ → Prop)
    {body : Nat → σ → Except ε σ} {s : σ} {i j k : Nat} {G : Nat → Nat → α} (hK : K s)
    (hb : ∀ t s, t < k → K s → Wp (body t s) (fun s' => K s' ∧
      entB (π s') = upd2 (entB (π s)) i (j + t) (G i (j + t))) E) :
    Wp (forUp 0 k body s) (fun s' => K s' ∧
      Wr G (fun x y => x = i ∧ j ≤ y ∧ y < j + k) (entB (π s)) (entB (π s'))) E := by
  refine (wr_loop (fun s => entB (π s)) G (fun t x y => x = i ∧ y = j + t) (fun _ => K)
    (Nat.zero_le _) hK ?_).imp ?_
  · intro t s' _ ht hK' _
    refine (hb t s' ht hK').imp ?_
    rintro s'' ⟨h1, h2⟩
    refine ⟨h1, ?_⟩
    rw [h2]
    exact Wr.upd2 rfl
  · rintro s' ⟨h1, h2⟩
    refine ⟨h1, h2.congr fun x y => ?_⟩
    constructor
    · rintro ⟨t, -, ht, rfl, rfl⟩; omega
    · rintro ⟨rfl, h3, h4⟩; exact ⟨y - j, by omega, by omega, rfl, by omega⟩

theorem copySegL_cell (b : Blocks α r c) {i j k s : Nat} {src : List α} {G : Nat → Nat → α}
    (hi : i < r) (hj : j < c) (hk : j % 52 + k ≤ blkExt c (j / 52))
    (hs : s + k ≤ src.length) (hG : ∀ t, t < k → src[s + t]? = some (G i (j + t))) :
    ∃ b', b.copySegL (blkIdx c i j) (blkOff c i j) src s k = .ok b' ∧
      Wr G (fun x y => x = i ∧ j ≤ y ∧ y < j + k) (entB b) (entB b') := by
  unfold Jag.copySegL
  rw [seg_cell b hi hj hk]
  simp only [ok_bind]
  rw [if_neg (by omega)]
  have := (write_seg (r := r) (c := c) (E := fun _ : Fault => False) (fun b => b)
    (fun _ => True) (s := b) (i := i) (j := j) (k := k) (G := G)
    (body := fun t d => do d.set (blkIdx c i j) (blkOff c i j + t) (← rdL src (s + t)))
    trivial ?_)
  · obtain ⟨b', e, -, w⟩ := this.exists_ok
    exact ⟨b', e, w⟩
  · intro t b' ht _
    have h1 : j % 52 + t < blkExt c (j / 52) := by omega
    rw [rdL_eq_ok.2 (hG t ht), ok_bind]
    obtain ⟨b'', e, h⟩ := set_cell b' (G i (j + t)) hi (add_lt_of_ext h1)
    rw [blkIdx_add h1, blkOff_add hj h1] at e
    rw [e]
    exact ⟨trivial, h⟩

theorem copySeg_cell {r' c' : Nat} (b : Blocks α r c) (src : Blocks α r' c') {i j i' j' k : Nat}
    {G : Nat → Nat → α}
    (hi : i < r) (hj : j < c) (hk : j % 52 + k ≤ blkExt c (j / 52))
    (hi' : i' < r') (hj' : j' < c') (hk' : j' % 52 + k ≤ blkExt c' (j' / 52))
    (hG : ∀ t, t < k → entB src i' (j' + t) = G i (j + t)) :
    ∃ b', b.copySeg (blkIdx c i j) (blkOff c i j) src (blkIdx c' i' j') (blkOff c' i' j') k
        = .ok b' ∧
      Wr G (fun x y => x = i ∧ j ≤ y ∧ y < j + k) (entB b) (entB b') := by
  unfold Jag.copySeg
  rw [seg_cell b hi hj hk, seg_cell src hi' hj' hk']
  simp only [ok_bind]
  have := (write_seg (r := r) (c := c) (E := fun _ : Fault => False) (fun b => b)
    (fun _ => True) (s := b) (i := i) (j := j) (k := k) (G := G)
    (body := fun t d => do
      d.set (blkIdx c i j) (blkOff c i j + t) (← src.get (blkIdx c' i' j') (blkOff c' i' j' + t)))
    trivial ?_)
  · obtain ⟨b', e, -, w⟩ := this.exists_ok
    exact ⟨b', e, w⟩
  · intro t b' ht _
    have h1 : j % 52 + t < blkExt c (j / 52) := by omega
    have h2 : j' % 52 + t < blkExt c' (j' / 52) := by omega
    have h3 := get_cell src hi' (add_lt_of_ext h2)
    rw [blkIdx_add h2, blkOff_add hj' h2, hG t ht] at h3
    rw [h3, ok_bind]
    obtain ⟨b'', e, h⟩ := set_cell b' (G i (j + t)) hi (add_lt_of_ext h1)
    rw [blkIdx_add h1, blkOff_add hj h1] at e
    rw [e]
    exact ⟨trivial, h⟩

/-- `copy` from a row segment of a block into a plain row. -/
theorem Row.copySeg_cell {n : Nat} (d : Row α n) (src : Blocks α r c) {a i j k : Nat}
    {G : Nat → Nat → α} (ha : a + k ≤ n)
    (hi : i < r) (hj : j < c) (hk : j % 52 + k ≤ blkExt c (j / 52))
    (hG : ∀ t y, t < k → entB src i (j + t) = G (a + t) y) :
    ∃ d', d.copySeg a src (blkIdx c i j) (blkOff c i j) k = .ok d' ∧
      Wr G (fun x _ => a ≤ x ∧ x < a + k) (fun x _ => d.f x) (fun x _ => d'.f x) := by
  unfold Row.copySeg
  rw [if_neg (by omega), seg_cell src hi hj hk]
  simp only [ok_bind]
  refine Wp.exists_ok ?_
  refine (wr_loop' (fun d : Row α n => fun x _ => d.f x) G (fun t x _ => x = a + t)
    (Nat.zero_le _) ?_).imp ?_
  · intro t d' _ ht _
    have h1 : j % 52 + t < blkExt c (j / 52) := by omega
    have h3 := get_cell src hi (add_lt_of_ext h1)
    rw [blkIdx_add h1, blkOff_add hj h1] at h3
    rw [h3, ok_bind, Row.set_ok (by omega)]
    exact Wr.upd1 fun y => hG t y ht
  · intro d' hd
    refine hd.congr fun x y => ?_
    constructor
    · rintro ⟨t, -, ht, rfl⟩; omega
    · intro h; exact ⟨x - a, by omega, by omega, by omega⟩

/-- `copy` from a row segment of a block into a row of a table. -/
theorem Tab.copySeg_cell {n p : Nat} (d : Tab α n p) (src : Blocks α r c) {x a i j k : Nat}
    {G : Nat → Nat → α} (hx : x < n) (ha : a + k ≤ p)
    (hi : i < r) (hj : j < c) (hk : j % 52 + k ≤ blkExt c (j / 52))
    (hG : ∀ t, t < k → entB src i (j + t) = G x (a + t)) :
    ∃ d' : Tab α n p, Jag.copySeg d x a src (blkIdx c i j) (blkOff c i j) k = .ok d' ∧
      Wr G (fun x' y => x' = x ∧ a ≤ y ∧ y < a + k) d.f d'.f := by
  unfold Jag.copySeg
  rw [show Jag.seg d x a k = .ok () by unfold Jag.seg; rw [if_pos ⟨hx, ha⟩],
    seg_cell src hi hj hk]
  simp only [ok_bind]
  refine Wp.exists_ok ?_
  refine (wr_loop' (fun d : Tab α n p => d.f) G (fun t x' y => x' = x ∧ y = a + t)
    (Nat.zero_le _) ?_).imp ?_
  · intro t d' _ ht _
    have h1 : j % 52 + t < blkExt c (j / 52) := by omega
    have h3 := get_cell src hi (add_lt_of_ext h1)
    rw [blkIdx_add h1, blkOff_add hj h1] at h3
    rw [h3, ok_bind, Tab.set_ok hx (by omega)]
    exact Wr.upd2 (hG t ht)
  · intro d' hd
    refine hd.congr fun x' y => ?_
    constructor
    · rintro ⟨t, -, ht, rfl, rfl⟩; omega
    · rintro ⟨rfl, h⟩; exact ⟨y - a, by omega, by omega, rfl, by omega⟩

/-! ## Index expressions of the code -/

theorem idx_of {c ib jb p q i j : Nat} (hi : i = ib * 52 + p) (hj : j = jb * 52 + q) (hp : p < 52)
    (hq : q < 52) : ib * nBlocks c + jb = blkIdx c i j := by
  subst hi hj; exact (blkIdx_local hp hq).symm

theorem off_of {c jb p q i j ib : Nat} (hi : i = ib * 52 + p) (hj : j = jb * 52 + q) (hp : p < 52)
    (hjb : jb < nBlocks c) (hq : q < blkExt c jb) : p * blockDim c jb + q = blkOff c i j := by
  subst hi hj; rw [blkOff_local hp hq, blockDim_eq_blkExt hjb]

end Linear
