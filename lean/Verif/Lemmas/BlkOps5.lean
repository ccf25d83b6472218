import Verif.Lemmas.BlkOps4

/-!
# Block storage: products
-/

set_option linter.unusedSectionVars false
set_option linter.unusedSimpArgs false

namespace Linear

open Spec

variable {α : Type} [Flt α] {r c : Nat}

theorem lsum_self {a b : Nat} (h : b ≤ a) (g : Nat → α) (s : α) : lsum a b g s = s := by
  simp [lsum, Nat.sub_eq_zero_of_le h]

theorem lsum_succ {a b : Nat} (h : a ≤ b) (g : Nat → α) (s : α) :
    lsum a (b + 1) g s = Flt.add (lsum a b g s) (g b) := by
  unfold lsum
  rw [show b + 1 - a = (b - a) + 1 by omega, List.range'_1_concat, List.foldl_append]
  simp [show a + (b - a) = b by omega]

/-! ## The unrolled sum -/

/-- The order of summation of the unrolled loops: groups of four terms are added to the running
sum, then the remaining terms one by one. -/
def Spec.usum (n : Nat) (P : Nat → α) : α :=
  lsum (4 * (n / 4)) n P
    (lsum 0 (n / 4) (fun g => Flt.add (Flt.add (Flt.add (P (4 * g)) (P (4 * g + 1)))
      (P (4 * g + 2))) (P (4 * g + 3))) Flt.zero)

theorem stride4_inv {ε σ : Type} {E : ε → Prop} {body : Nat → σ → Except ε σ} (I : Nat → σ → Prop)
    {l0 n : Nat} {s : σ} (h0 : I 0 s)
    (hs : ∀ g s, 4 * g + 3 < n → I g s → Wp (body (l0 + 4 * g) s) (I (g + 1)) E) :
    Wp (stride4 body l0 (l0 + n) s) (fun t => t.1 = l0 + 4 * (n / 4) ∧ I (n / 4) t.2) E := by
  have key : ∀ d g s, n / 4 - g = d → g ≤ n / 4 → I g s →
      Wp (stride4 body (l0 + 4 * g) (l0 + n) s) (fun t => t.1 = l0 + 4 * (n / 4) ∧ I (n / 4) t.2)
        E := by
    intro d
    induction d with
    | zero =>
      intro g s hd hg hI
      have : g = n / 4 := by omega
      subst this
      rw [stride4, if_neg (by omega)]
      exact ⟨rfl, hI⟩
    | succ d ih =>
      intro g s hd hg hI
      rw [stride4, if_pos (by omega), wp_bind]
      refine (hs g s (by omega) hI).imp fun s' hs' => ?_
      exact ih (g + 1) s' (by omega) (by omega) hs'
  exact key _ 0 s rfl (by omega) h0

/-- The unrolled loop and its tail compute `usum`. -/
theorem stride_sum {body tail : Nat → Nat × α → Res (Nat × α)} {l0 n n0 w : Nat} {P : Nat → α}
    (h1 : ∀ g s, 4 * g + 3 < n → body (l0 + 4 * g) (n0 + 4 * g * w, s) =
      .ok (n0 + 4 * g * w + 4 * w, Flt.add s (Flt.add (Flt.add (Flt.add (P (4 * g))
        (P (4 * g + 1))) (P (4 * g + 2))) (P (4 * g + 3)))))
    (h2 : ∀ t s, t < n → tail (l0 + t) (n0 + t * w, s) = .ok (n0 + t * w + w, Flt.add s (P t))) :
    ∃ p, stride4 body l0 (l0 + n) (n0, Flt.zero) = .ok p ∧
      forUp p.1 (l0 + n) tail p.2 = .ok (n0 + n * w, usum n P) := by
  have a1 := stride4_inv (E := fun _ : Fault => False) (body := body)
    (fun g s => s = (n0 + 4 * g * w, lsum 0 g (fun g => Flt.add (Flt.add (Flt.add (P (4 * g))
      (P (4 * g + 1))) (P (4 * g + 2))) (P (4 * g + 3))) Flt.zero)) (l0 := l0) (n := n)
    (s := (n0, Flt.zero)) (by simp [lsum_self]) (by
      rintro g _ hg rfl
      rw [h1 g _ hg, lsum_succ (Nat.zero_le _)]
      show _ = _
      rw [Nat.mul_succ, Nat.add_mul]
      simp only [Prod.mk.injEq, and_true]; omega)
  obtain ⟨p, e, hp1, hp2⟩ := a1.exists_ok
  refine ⟨p, e, ?_⟩
  have a2 := wp_forUp (E := fun _ : Fault => False) (body := tail)
    (fun l s => s = (n0 + (l - l0) * w, lsum (4 * (n / 4)) (l - l0) P
      (lsum 0 (n / 4) (fun g => Flt.add (Flt.add (Flt.add (P (4 * g))
      (P (4 * g + 1))) (P (4 * g + 2))) (P (4 * g + 3))) Flt.zero))) (a := p.1) (b := l0 + n)
    (s := p.2) (by omega)
    (by rw [hp2, hp1, Nat.add_sub_cancel_left, lsum_self (le_refl _)])
    (by
      rintro l _ hl1 hl2 rfl
      have := h2 (l - l0) (lsum (4 * (n / 4)) (l - l0) P
        (lsum 0 (n / 4) (fun g => Flt.add (Flt.add (Flt.add (P (4 * g))
        (P (4 * g + 1))) (P (4 * g + 2))) (P (4 * g + 3))) Flt.zero)) (by omega)
      rw [show l0 + (l - l0) = l by omega] at this
      rw [this, show l + 1 - l0 = l - l0 + 1 by omega, lsum_succ (by omega)]
      show _ = _
      simp only [Prod.mk.injEq, and_true]
      rw [Nat.succ_mul]; omega)
  obtain ⟨q, e2, hq⟩ := a2.exists_ok
  rw [e2, hq, Nat.add_sub_cancel_left]
  rfl

theorem dotUnrolled_ok {x y : Nat → Res α} {l0 n n0 w : Nat} {X Y : Nat → α}
    (hx : ∀ t, t < n → x (l0 + t) = .ok (X t)) (hy : ∀ t, t < n → y (n0 + t * w) = .ok (Y t)) :
    dotUnrolled x y l0 (l0 + n) n0 w = .ok (usum n fun t => Flt.mul (X t) (Y t)) := by
  unfold dotUnrolled
  obtain ⟨p, e, h⟩ := stride_sum (l0 := l0) (n := n) (n0 := n0) (w := w)
    (P := fun t => Flt.mul (X t) (Y t))
    (body := fun l (s : Nat × α) => do
      let n := s.1
      let t := Flt.add (Flt.add (Flt.add
        (Flt.mul (← x l) (← y n))
        (Flt.mul (← x (l + 1)) (← y (n + w))))
        (Flt.mul (← x (l + 2)) (← y (n + 2 * w))))
        (Flt.mul (← x (l + 3)) (← y (n + 3 * w)))
      return (n + 4 * w, Flt.add s.2 t))
    (tail := fun l (s : Nat × α) => do
      return (s.1 + w, Flt.add s.2 (Flt.mul (← x l) (← y s.1))))
    (fun g s hg => by
      have y0 := hy (4 * g) (by omega)
      have y1 := hy (4 * g + 1) (by omega)
      have y2 := hy (4 * g + 2) (by omega)
      have y3 := hy (4 * g + 3) (by omega)
      rw [show n0 + (4 * g + 1) * w = n0 + 4 * g * w + w by ring] at y1
      rw [show n0 + (4 * g + 2) * w = n0 + 4 * g * w + 2 * w by ring] at y2
      rw [show n0 + (4 * g + 3) * w = n0 + 4 * g * w + 3 * w by ring] at y3
      simp only [hx (4 * g) (by omega), hx (4 * g + 1) (by omega), hx (4 * g + 2) (by omega),
        hx (4 * g + 3) (by omega), Nat.add_assoc l0, y0, y1, y2, y3, ok_bind, pure_eq_ok])
    (fun t s ht => by
      simp only [hx t ht, hy t ht, ok_bind, pure_eq_ok])
  rw [e]
  obtain ⟨l, k, s⟩ := p
  dsimp only at h
  simp only [ok_bind, h]
  rfl

/-- A loop whose every round adds a term to all cells of `S`, starting from zeros. -/
theorem acc_loop {ε σ : Type} {E : ε → Prop} {S : Nat → Nat → Prop} (π : σ → Nat → Nat → α)
    (F : Nat → Nat → Nat → α) {n : Nat} {body : Nat → σ → Except ε σ} {s0 : σ}
    (hz : ∀ x y, S x y → π s0 x y = Flt.zero)
    (hb : ∀ k s, k < n → Wp (body k s) (fun s' =>
      Wr (fun x y => Flt.add (π s x y) (F x y k)) S (π s) (π s')) E) :
    Wp (forUp 0 n body s0) (fun s' =>
      Wr (fun x y => lsum 0 n (F x y) Flt.zero) S (π s0) (π s')) E := by
  refine wp_forUp (fun k s => Wr (fun x y => lsum 0 k (F x y) Flt.zero) S (π s0) (π s))
    (Nat.zero_le _) ?_ ?_
  · intro x y
    refine ⟨fun h => ?_, fun _ => rfl⟩
    show _ = lsum 0 0 (F x y) Flt.zero
    rw [lsum_self (le_refl _)]
    exact hz x y h
  · intro k s _ hk hI
    refine (hb k s hk).imp fun s' w x y => ⟨fun h => ?_, fun h => ?_⟩
    · rw [(w x y).1 h]
      show Flt.add (π s x y) (F x y k) = lsum 0 (k + 1) (F x y) Flt.zero
      rw [show π s x y = lsum 0 k (F x y) Flt.zero from (hI x y).1 h, lsum_succ (Nat.zero_le _)]
    · rw [(w x y).2 h, (hI x y).2 h]

/-- The block loops of the two products. -/
theorem mul_outer {q : Nat} {F : Nat → Nat → Nat → α}
    {inner : Nat → Nat → Nat → Nat → Blocks α r q → Res (Blocks α r q)}
    (h : ∀ ib jb kb out, ib < nBlocks r → jb < nBlocks q → kb < nBlocks c →
      Wp (inner ib jb (ib * nBlocks q + jb) kb out) (fun out' =>
        Wr (fun x y => Flt.add (entB out x y) (F x y kb))
          (fun x y => (ib * 52 ≤ x ∧ x < ib * 52 + blkExt r ib) ∧
            (jb * 52 ≤ y ∧ y < jb * 52 + blkExt q jb)) (entB out) (entB out')) (fun _ => False)) :
    Wp (forUp 0 (nBlocks r) (fun ib s =>
      forUp 0 (nBlocks q) (fun jb (s : Nat × Blocks α r q) => do
        let out ← forUp 0 (nBlocks c) (fun kb out => inner ib jb s.1 kb out) s.2
        return (s.1 + 1, out)) s) (0, Jag.zero _ _))
      (fun s => ∀ x y, x < r → y < q → entB s.2 x y = lsum 0 (nBlocks c) (F x y) Flt.zero)
      (fun _ => False) := by
  refine (wr_loop (fun s : Nat × Blocks α r q => entB s.2)
    (fun x y => lsum 0 (nBlocks c) (F x y) Flt.zero)
    (fun ib x y => (ib * 52 ≤ x ∧ x < ib * 52 + blkExt r ib) ∧ y < q)
    (fun ib s => s.1 = ib * nBlocks q) (Nat.zero_le _) (by simp) ?_).imp ?_
  · rintro ib s _ hib hs w1
    refine (wr_loop (fun s : Nat × Blocks α r q => entB s.2)
      (fun x y => lsum 0 (nBlocks c) (F x y) Flt.zero)
      (fun jb x y => (ib * 52 ≤ x ∧ x < ib * 52 + blkExt r ib) ∧
        (jb * 52 ≤ y ∧ y < jb * 52 + blkExt q jb))
      (fun jb s => s.1 = ib * nBlocks q + jb) (Nat.zero_le _) (by simpa using hs) ?_).imp ?_
    · rintro jb ⟨bi, out⟩ _ hjb hb w2
      dsimp only at hb
      subst hb
      rw [wp_bind]
      refine (acc_loop (fun b : Blocks α r q => entB b) F (S := fun x y =>
        (ib * 52 ≤ x ∧ x < ib * 52 + blkExt r ib) ∧ (jb * 52 ≤ y ∧ y < jb * 52 + blkExt q jb))
        ?_ (fun kb out hkb => h ib jb kb out hib hjb hkb)).imp ?_
      · rintro x y ⟨hx, hy⟩
        have l1 := blkExt_le r ib
        have l2 := blkExt_le q jb
        have h2 := (w2 x y).2 (by
          rintro ⟨jb', h1, h2, -, h3⟩
          have := blkExt_le q jb'
          omega)
        have h1 := (w1 x y).2 (by
          rintro ⟨ib', h1, h2, h3, -⟩
          have := blkExt_le r ib'
          omega)
        dsimp only at h1 h2 ⊢
        rw [h2, h1, entB_zero]
      · intro out' w
        exact ⟨by dsimp only; omega, w⟩
    · rintro ⟨k, d⟩ ⟨h1, w⟩
      refine ⟨by dsimp only at h1 ⊢; rw [h1, Nat.succ_mul], w.congr fun x y => ex_blockcol⟩
  · rintro ⟨k, d⟩ ⟨-, w⟩ i j hi hj
    exact (w i j).1 (ex_blockrow.2 ⟨hi, hj⟩)

/-- The order of summation of the block by block product. -/
def Spec.bdot (c : Nat) (x y : Nat → α) : α :=
  lsum 0 (nBlocks c) (fun kb => usum (blkExt c kb)
    (fun t => Flt.mul (x (kb * 52 + t)) (y (kb * 52 + t)))) Flt.zero

/-- The order of summation of the product of a block matrix with another matrix. -/
def Spec.gdot (c : Nat) (x y : Nat → α) : α :=
  lsum 0 (nBlocks c) (fun kb => lsum 0 (blkExt c kb)
    (fun t => Flt.mul (x (kb * 52 + t)) (y (kb * 52 + t))) Flt.zero) Flt.zero

theorem Blk.mulBlk_ok {q : Nat} (a : Blk α r c) (b : Blk α c q) (hr : 0 < r) (hq : 0 < q) :
    ∃ m, a.mulBlk b = .ok m ∧ Shows m.at r q fun i j =>
      bdot c (fun k => entB a.blocks i k) (fun k => entB b.blocks k j) := by
  have key : ∃ m, a.mulBlk b = .ok m ∧ ∀ i j, i < r → j < q → entB m.blocks i j =
      bdot c (fun k => entB a.blocks i k) (fun k => entB b.blocks k j) := by
    unfold Blk.mulBlk
    rw [if_neg (by omega)]
    refine Wp.exists_ok ?_
    rw [wp_bind]
    refine (mul_outer (r := r) (q := q) (c := c) (inner := fun iBlock jBlock bi kBlock out => do
        let t ← forUp (iBlock * 52) (min (iBlock * 52 + 52) r) (fun p t =>
          forUp 0 (blockDim q jBlock) (fun nStart (t : Nat × Blocks α r q) => do
            let sum ← dotUnrolled (a.blocks.get (iBlock * nBlocks c + kBlock))
              (b.blocks.get (kBlock * nBlocks q + jBlock))
              ((p - iBlock * 52) * blockDim c kBlock)
              ((p - iBlock * 52) * blockDim c kBlock + blockDim c kBlock) nStart
              (blockDim q jBlock)
            let old ← t.2.get bi t.1
            let b ← t.2.set bi t.1 (Flt.add old sum)
            return (t.1 + 1, b)) t) (0, out)
        return t.2) (F := fun x y kb => usum (blkExt c kb)
      (fun t => Flt.mul (entB a.blocks x (kb * 52 + t)) (entB b.blocks (kb * 52 + t) y)))
      ?_).imp ?_
    · intro ib jb kb out hib hjb hkb
      have l1 := blkExt_le r ib
      have l2 := blkExt_le q jb
      have l3 := blkExt_le c kb
      have p3 := blkExt_pos hkb
      have p2 := blkExt_pos hjb
      rw [blockDim_eq_blkExt hjb, blockDim_eq_blkExt hkb, ← blkExt_end hib, wp_bind]
      refine (wr_loop (fun s : Nat × Blocks α r q => entB s.2)
        (fun x y => Flt.add (entB out x y) (usum (blkExt c kb)
          (fun t => Flt.mul (entB a.blocks x (kb * 52 + t)) (entB b.blocks (kb * 52 + t) y))))
        (fun i x y => x = i ∧ (jb * 52 ≤ y ∧ y < jb * 52 + blkExt q jb))
        (fun i s => s.1 = (i - ib * 52) * blkExt q jb) (by omega) (by simp) ?_).imp ?_
      · rintro i ⟨k, d⟩ hi1 hi2 hk w1
        dsimp only at hk
        subst hk
        have hi3 : i < r := by
          have := blkExt_add_lt (n := r) (b := ib) (k := i - ib * 52) (by omega); omega
        refine (wr_loop (fun s : Nat × Blocks α r q => entB s.2)
          (fun x y => Flt.add (entB out x y) (usum (blkExt c kb)
            (fun t => Flt.mul (entB a.blocks x (kb * 52 + t)) (entB b.blocks (kb * 52 + t) y))))
          (fun n x y => x = i ∧ y = jb * 52 + n)
          (fun n s => s.1 = (i - ib * 52) * blkExt q jb + n) (by omega) (by simp) ?_).imp ?_
        · rintro n ⟨k, d⟩ _ hn hk w2
          dsimp only at hk ⊢
          subst hk
          have hy : jb * 52 + n < q := blkExt_add_lt hn
          rw [dotUnrolled_ok (X := fun t => entB a.blocks i (kb * 52 + t))
            (Y := fun t => entB b.blocks (kb * 52 + t) (jb * 52 + n))
            (fun t ht => by
              rw [idx_of (c := c) (i := i) (j := kb * 52 + t) (ib := ib) (jb := kb)
                (p := i - ib * 52) (q := t) (by omega) rfl (by omega) (by omega),
                ← blockDim_eq_blkExt hkb, off_of (i := i) (j := kb * 52 + t) (ib := ib) (by omega)
                rfl (by omega) hkb (by omega)]
              exact get_cell _ hi3 (blkExt_add_lt ht))
            (fun t ht => by
              rw [idx_of (c := q) (i := kb * 52 + t) (j := jb * 52 + n) (ib := kb) (jb := jb)
                (p := t) (q := n) rfl rfl (by omega) (by omega),
                ← blockDim_eq_blkExt hjb, Nat.add_comm n, off_of (i := kb * 52 + t)
                (j := jb * 52 + n) (ib := kb) rfl rfl (by omega) hjb (by omega)]
              exact get_cell _ (blkExt_add_lt ht) hy)]
          rw [idx_of (c := q) (i := i) (j := jb * 52 + n) (ib := ib) (jb := jb)
            (p := i - ib * 52) (q := n) (by omega) rfl (by omega) (by omega),
            ← blockDim_eq_blkExt hjb]
          have hoff := off_of (c := q) (i := i) (j := jb * 52 + n) (ib := ib) (jb := jb)
            (p := i - ib * 52) (q := n) (by omega) rfl (by omega) hjb hn
          rw [hoff, ok_bind, get_cell _ hi3 hy, ok_bind]
          have u2 := (w2 i (jb * 52 + n)).2 (by rintro ⟨n', h1, h2, h3, h4⟩; omega)
          have u1 := (w1 i (jb * 52 + n)).2 (by rintro ⟨i', h1, h2, h3, h4⟩; omega)
          dsimp only at u1 u2
          rw [u2, u1]
          obtain ⟨b', e, hb'⟩ := set_cell d (Flt.add (entB out i (jb * 52 + n))
            (usum (blkExt c kb) fun t => Flt.mul (entB a.blocks i (kb * 52 + t))
              (entB b.blocks (kb * 52 + t) (jb * 52 + n)))) hi3 hy
          rw [e]
          refine ⟨?_, ?_⟩
          · dsimp only; rw [← hoff]; omega
          · dsimp only; rw [hb']; exact Wr.upd2 rfl
        · rintro ⟨k, d'⟩ ⟨hk, w⟩
          refine ⟨?_, w.congr fun x y => ?_⟩
          · dsimp only at hk ⊢
            rw [hk, show i + 1 - ib * 52 = i - ib * 52 + 1 by omega, Nat.succ_mul]
          · constructor
            · rintro ⟨n, h1, h2, rfl, rfl⟩; exact ⟨rfl, by omega⟩
            · rintro ⟨rfl, h1, h2⟩; exact ⟨y - jb * 52, by omega, by omega, rfl, by omega⟩
      · rintro ⟨k, d⟩ ⟨-, w⟩
        refine w.congr fun x y => ?_
        constructor
        · rintro ⟨i, h1, h2, rfl, h3⟩; exact ⟨⟨h1, h2⟩, h3⟩
        · rintro ⟨⟨h1, h2⟩, h3⟩; exact ⟨x, h1, h2, rfl, h3⟩
    · intro s h; exact h
  obtain ⟨m, e, h⟩ := key
  exact ⟨m, e, m.shows_of h⟩

theorem Blk.mulGen_ok {q : Nat} (a : Blk α r c) (b : Mat α c q) (hr : 0 < r) (hq : 0 < q) :
    ∃ m, a.mulGen b = .ok m ∧ Shows m.at r q fun i j =>
      gdot c (fun k => entB a.blocks i k) (fun k => b.ent k j) := by
  have key : ∃ m, a.mulGen b = .ok m ∧ ∀ i j, i < r → j < q → entB m.blocks i j =
      gdot c (fun k => entB a.blocks i k) (fun k => b.ent k j) := by
    unfold Blk.mulGen
    rw [if_neg (by omega)]
    refine Wp.exists_ok ?_
    rw [wp_bind]
    refine (mul_outer (r := r) (q := q) (c := c) (inner := fun iBlock jBlock bi kBlock out => do
        let t ← forUp (iBlock * 52) (min (iBlock * 52 + 52) r) (fun p t =>
          forUp (jBlock * 52) (min (jBlock * 52 + 52) q) (fun q' (t : Nat × Blocks α r q) => do
            let u ← forUp ((p - iBlock * 52) * blockDim c kBlock)
              ((p - iBlock * 52) * blockDim c kBlock + blockDim c kBlock) (fun l (u : Nat × α) => do
              let v := Flt.mul (← a.blocks.get (iBlock * nBlocks c + kBlock) l) (← b.at u.1 q')
              return (u.1 + 1, Flt.add u.2 v)) (kBlock * 52, Flt.zero)
            let old ← t.2.get bi t.1
            let b ← t.2.set bi t.1 (Flt.add old u.2)
            return (t.1 + 1, b)) t) (0, out)
        return t.2) (F := fun x y kb => lsum 0 (blkExt c kb)
      (fun t => Flt.mul (entB a.blocks x (kb * 52 + t)) (b.ent (kb * 52 + t) y)) Flt.zero)
      ?_).imp ?_
    · intro ib jb kb out hib hjb hkb
      have l1 := blkExt_le r ib
      have l2 := blkExt_le q jb
      have l3 := blkExt_le c kb
      have p3 := blkExt_pos hkb
      have p2 := blkExt_pos hjb
      rw [blockDim_eq_blkExt hkb, ← blkExt_end hib, ← blkExt_end hjb, wp_bind]
      refine (wr_loop (fun s : Nat × Blocks α r q => entB s.2)
        (fun x y => Flt.add (entB out x y) (lsum 0 (blkExt c kb)
          (fun t => Flt.mul (entB a.blocks x (kb * 52 + t)) (b.ent (kb * 52 + t) y)) Flt.zero))
        (fun i x y => x = i ∧ (jb * 52 ≤ y ∧ y < jb * 52 + blkExt q jb))
        (fun i s => s.1 = (i - ib * 52) * blkExt q jb) (by omega) (by simp) ?_).imp ?_
      · rintro i ⟨k, d⟩ hi1 hi2 hk w1
        dsimp only at hk
        subst hk
        have hi3 : i < r := by
          have := blkExt_add_lt (n := r) (b := ib) (k := i - ib * 52) (by omega); omega
        refine (wr_loop (fun s : Nat × Blocks α r q => entB s.2)
          (fun x y => Flt.add (entB out x y) (lsum 0 (blkExt c kb)
            (fun t => Flt.mul (entB a.blocks x (kb * 52 + t)) (b.ent (kb * 52 + t) y)) Flt.zero))
          (fun n x y => x = i ∧ y = n)
          (fun n s => s.1 = (i - ib * 52) * blkExt q jb + (n - jb * 52)) (by omega) (by simp)
          ?_).imp ?_
        · rintro n ⟨k, d⟩ hn1 hn2 hk w2
          dsimp only at hk ⊢
          subst hk
          have hy : n < q := by
            have := blkExt_add_lt (n := q) (b := jb) (k := n - jb * 52) (by omega); omega
          have inner := wp_forUp (E := fun _ : Fault => False) (fun l (u : Nat × α) =>
              u = (kb * 52 + (l - (i - ib * 52) * blkExt c kb),
                lsum 0 (l - (i - ib * 52) * blkExt c kb)
                (fun t => Flt.mul (entB a.blocks i (kb * 52 + t)) (b.ent (kb * 52 + t) n))
                Flt.zero))
            (a := (i - ib * 52) * blkExt c kb) (b := (i - ib * 52) * blkExt c kb + blkExt c kb)
            (body := fun l (u : Nat × α) => do
              let v := Flt.mul (← a.blocks.get (ib * nBlocks c + kb) l) (← b.at u.1 n)
              return (u.1 + 1, Flt.add u.2 v)) (s := (kb * 52, Flt.zero)) (by omega)
            (by simp [lsum_self]) (by
              rintro l u hl1 hl2 rfl
              have ht : l - (i - ib * 52) * blkExt c kb < blkExt c kb := by omega
              generalize hT : l - (i - ib * 52) * blkExt c kb = t at *
              have hl : l = (i - ib * 52) * blkExt c kb + t := by omega
              dsimp only
              rw [show l + 1 - (i - ib * 52) * blkExt c kb = t + 1 by omega,
                lsum_succ (Nat.zero_le _), hl,
                idx_of (c := c) (i := i) (j := kb * 52 + t) (ib := ib) (jb := kb)
                (p := i - ib * 52) (q := t) (by omega) rfl (by omega) (by omega),
                ← blockDim_eq_blkExt hkb, off_of (i := i) (j := kb * 52 + t) (ib := ib) (by omega)
                rfl (by omega) hkb (by omega), get_cell _ hi3 (blkExt_add_lt ht),
                b.at_ok (blkExt_add_lt ht) hy]
              rfl)
          obtain ⟨u, eu, hu⟩ := inner.exists_ok
          rw [eu, hu, Nat.add_sub_cancel_left]
          rw [idx_of (c := q) (i := i) (j := n) (ib := ib) (jb := jb)
            (p := i - ib * 52) (q := n - jb * 52) (by omega) (by omega) (by omega) (by omega),
            ← blockDim_eq_blkExt hjb]
          have hoff := off_of (c := q) (i := i) (j := n) (ib := ib) (jb := jb)
            (p := i - ib * 52) (q := n - jb * 52) (by omega) (by omega) (by omega) hjb (by omega)
          rw [hoff, ok_bind, get_cell _ hi3 hy, ok_bind]
          have u2 := (w2 i n).2 (by rintro ⟨n', h1, h2, h3, h4⟩; omega)
          have u1 := (w1 i n).2 (by rintro ⟨i', h1, h2, h3, h4⟩; omega)
          dsimp only at u1 u2 ⊢
          rw [u2, u1]
          obtain ⟨b', e, hb'⟩ := set_cell d (Flt.add (entB out i n)
            (lsum 0 (blkExt c kb) (fun t => Flt.mul (entB a.blocks i (kb * 52 + t))
              (b.ent (kb * 52 + t) n)) Flt.zero)) hi3 hy
          rw [e]
          refine ⟨?_, ?_⟩
          · dsimp only; rw [← hoff]; omega
          · dsimp only; rw [hb']; exact Wr.upd2 rfl
        · rintro ⟨k, d'⟩ ⟨hk, w⟩
          refine ⟨?_, w.congr fun x y => ?_⟩
          · dsimp only at hk ⊢
            rw [hk, show i + 1 - ib * 52 = i - ib * 52 + 1 by omega, Nat.succ_mul]
            omega
          · constructor
            · rintro ⟨n, h1, h2, rfl, rfl⟩; exact ⟨rfl, by omega⟩
            · rintro ⟨rfl, h1, h2⟩; exact ⟨y, by omega, by omega, rfl, by omega⟩
      · rintro ⟨k, d⟩ ⟨-, w⟩
        refine w.congr fun x y => ?_
        constructor
        · rintro ⟨i, h1, h2, rfl, h3⟩; exact ⟨⟨h1, h2⟩, h3⟩
        · rintro ⟨⟨h1, h2⟩, h3⟩; exact ⟨x, h1, h2, rfl, h3⟩
    · intro s h; exact h
  obtain ⟨m, e, h⟩ := key
  exact ⟨m, e, m.shows_of h⟩

theorem Blk.multiply_blk {q : Nat} (a : Blk α r c) (b : Blk α c q) (hr : 0 < r) (hq : 0 < q) :
    ∃ m, a.multiply (.blk b) = .ok m ∧ Shows m.at r q fun i j =>
      bdot c (fun k => entB a.blocks i k) (fun k => entB b.blocks k j) := by
  unfold Blk.multiply
  rw [checkMul_ok]
  exact a.mulBlk_ok b hr hq

theorem Blk.multiply_gen {q : Nat} (a : Blk α r c) (b : Mat α c q) (hb : ∀ m, b ≠ .blk m)
    (hr : 0 < r) (hq : 0 < q) :
    ∃ m, a.multiply b = .ok m ∧ Shows m.at r q fun i j =>
      gdot c (fun k => entB a.blocks i k) (fun k => b.ent k j) := by
  unfold Blk.multiply
  rw [checkMul_ok]
  cases b with
  | blk m => exact absurd rfl (hb m)
  | arr m => exact a.mulGen_ok _ hr hq
  | dia m => exact a.mulGen_ok _ hr hq
  | ext m => exact a.mulGen_ok _ hr hq

theorem Blk.multiply_err {p q : Nat} (a : Blk α r c) (b : Mat α p q) (h : c ≠ p) :
    a.multiply b = .error (.pan .dim) := by
  unfold Blk.multiply
  simp only [checkMul_err h, must_err, error_bind]

/-! ## Matrix times vector -/

/-- Order of summation of `Operate`: per block column an unrolled sum. -/
theorem Blk.operate_ok (m : Blk α r c) {v : List α} {f : Nat → α} (hv : IsList v c f) :
    ∃ l, m.operate v = .ok l ∧ IsList l r fun i => bdot c (fun k => entB m.blocks i k) f := by
  unfold Blk.operate
  simp only [hv.1, ne_eq, not_true_eq_false, if_false]
  refine Wp.exists_ok ?_
  rw [wp_bind]
  refine Wp.imp (Q := (fun o : Row α r => ∀ i, i < r → o.f i = bdot c (fun k => entB m.blocks i k) f)) ?_ ?_
  · refine (wr_loop' (fun (o : Row α r) x _ => o.f x)
      (fun x _ => bdot c (fun k => entB m.blocks x k) f)
      (fun ib x _ => ib * 52 ≤ x ∧ x < ib * 52 + blkExt r ib) (Nat.zero_le _) ?_).imp ?_
    · intro ib o _ hib w0
      have l1 := blkExt_le r ib
      rw [← blkExt_end hib]
      refine acc_loop (fun (o : Row α r) x _ => o.f x) (fun x _ jb => usum (blkExt c jb)
        (fun t => Flt.mul (entB m.blocks x (jb * 52 + t)) (f (jb * 52 + t))))
        (S := fun x _ => ib * 52 ≤ x ∧ x < ib * 52 + blkExt r ib) ?_ ?_
      · intro x y hx
        have := (w0 x y).2 (by
          rintro ⟨ib', h1, h2, h3⟩
          have := blkExt_le r ib'
          omega)
        exact this
      · intro jb o hjb
        have l2 := blkExt_le c jb
        have p2 := blkExt_pos hjb
        rw [← blkExt_end hjb, wp_bind]
        refine (wr_loop (fun (s : Nat × Row α r) x _ => s.2.f x)
          (fun x y => Flt.add (o.f x) (usum (blkExt c jb)
            (fun t => Flt.mul (entB m.blocks x (jb * 52 + t)) (f (jb * 52 + t)))))
          (fun i x _ => x = i) (fun i s => s.1 = (i - ib * 52) * blkExt c jb) (by omega) (by simp)
          ?_).imp ?_
        · rintro i ⟨k, d⟩ hi1 hi2 hk w
          dsimp only at hk ⊢
          subst hk
          have hi3 : i < r := by
            have := blkExt_add_lt (n := r) (b := ib) (k := i - ib * 52) (by omega); omega
          have hget : ∀ t, t < blkExt c jb → m.blocks.get (ib * nBlocks c + jb)
              ((i - ib * 52) * blkExt c jb + t) = .ok (entB m.blocks i (jb * 52 + t)) := by
            intro t ht
            rw [idx_of (c := c) (i := i) (j := jb * 52 + t) (ib := ib) (jb := jb)
              (p := i - ib * 52) (q := t) (by omega) rfl (by omega) (by omega),
              ← blockDim_eq_blkExt hjb, off_of (i := i) (j := jb * 52 + t) (ib := ib) (by omega)
              rfl (by omega) hjb (by omega)]
            exact get_cell _ hi3 (blkExt_add_lt ht)
          have hrd : ∀ t, t < blkExt c jb → rdL v (jb * 52 + t) = .ok (f (jb * 52 + t)) :=
            fun t ht => hv.rdL (blkExt_add_lt ht)
          obtain ⟨p, e, h⟩ := stride_sum (l0 := jb * 52) (n := blkExt c jb)
            (n0 := (i - ib * 52) * blkExt c jb) (w := 1)
            (P := fun t => Flt.mul (entB m.blocks i (jb * 52 + t)) (f (jb * 52 + t)))
            (body := fun q (s : Nat × α) => do
              let k := s.1
              let b := m.blocks.get (ib * nBlocks c + jb)
              let x := Flt.add (Flt.add (Flt.add
                (Flt.mul (← b k) (← rdL v q))
                (Flt.mul (← b (k + 1)) (← rdL v (q + 1))))
                (Flt.mul (← b (k + 2)) (← rdL v (q + 2))))
                (Flt.mul (← b (k + 3)) (← rdL v (q + 3)))
              return (k + 4, Flt.add s.2 x))
            (tail := fun q (s : Nat × α) => do
              let x := Flt.mul (← m.blocks.get (ib * nBlocks c + jb) s.1) (← rdL v q)
              return (s.1 + 1, Flt.add s.2 x))
            (fun g s hg => by
              have a0 := hget (4 * g) (by omega)
              have a1 := hget (4 * g + 1) (by omega)
              have a2 := hget (4 * g + 2) (by omega)
              have a3 := hget (4 * g + 3) (by omega)
              have b0 := hrd (4 * g) (by omega)
              have b1 := hrd (4 * g + 1) (by omega)
              have b2 := hrd (4 * g + 2) (by omega)
              have b3 := hrd (4 * g + 3) (by omega)
              simp only [Nat.mul_one, Nat.add_assoc] at *
              simp only [a0, a1, a2, a3, b0, b1, b2, b3, ok_bind, pure_eq_ok])
            (fun t s ht => by
              simp only [Nat.mul_one]
              rw [hget t ht, hrd t ht]
              rfl)
          have u := (w i 0).2 (by rintro ⟨i', h1, h2, h3⟩; omega)
          dsimp only at u
          dsimp only at e
          rw [e]
          obtain ⟨l, k, s⟩ := p
          dsimp only at h
          simp only [ok_bind, h, Row.get_ok hi3, Row.set_ok hi3, u]
          refine ⟨?_, Wr.upd1 fun _ => rfl⟩
          rw [show i + 1 - ib * 52 = i - ib * 52 + 1 by omega, Nat.succ_mul, Nat.mul_one]
        · rintro ⟨k, d⟩ ⟨-, w⟩
          refine w.congr fun x y => ?_
          constructor
          · rintro ⟨i, h1, h2, rfl⟩; exact ⟨h1, h2⟩
          · rintro ⟨h1, h2⟩; exact ⟨x, h1, h2, rfl⟩
    · intro o w i hi
      exact (w i 0).1 (ex_block.2 hi)
  · intro o h
    exact (Row.toList_isList _).congr h

theorem Blk.operate_err (m : Blk α r c) {v : List α} (hv : v.length ≠ c) :
    m.operate v = .error (.pan .dim) := by
  unfold Blk.operate
  simp only [ne_eq, hv, not_false_eq_true, if_true]
  rfl

theorem Blk.preMultiply_ok (m : Blk α r c) {v : List α} {f : Nat → α} (hv : IsList v r f) :
    ∃ l, m.preMultiply v = .ok l ∧ IsList l c fun j => bdot r (fun k => entB m.blocks k j) f := by
  unfold Blk.preMultiply
  simp only [hv.1, ne_eq, not_true_eq_false, if_false]
  refine Wp.exists_ok ?_
  rw [wp_bind]
  refine Wp.imp (Q := (fun o : Row α c => ∀ j, j < c → o.f j = bdot r (fun k => entB m.blocks k j) f)) ?_ ?_
  · refine (wr_loop' (fun (o : Row α c) x _ => o.f x)
      (fun x _ => bdot r (fun k => entB m.blocks k x) f)
      (fun jb x _ => jb * 52 ≤ x ∧ x < jb * 52 + blkExt c jb) (Nat.zero_le _) ?_).imp ?_
    · intro jb o _ hjb w0
      have l1 := blkExt_le c jb
      rw [← blkExt_end hjb, blockDim_eq_blkExt hjb]
      refine acc_loop (fun (o : Row α c) x _ => o.f x) (fun x _ ib => usum (blkExt r ib)
        (fun t => Flt.mul (entB m.blocks (ib * 52 + t) x) (f (ib * 52 + t))))
        (S := fun x _ => jb * 52 ≤ x ∧ x < jb * 52 + blkExt c jb) ?_ ?_
      · intro x y hx
        have := (w0 x y).2 (by
          rintro ⟨ib', h1, h2, h3⟩
          have := blkExt_le c ib'
          omega)
        exact this
      · intro ib o hib
        have l2 := blkExt_le r ib
        have p2 := blkExt_pos hib
        rw [← blkExt_end hib]
        refine (wr_loop' (fun (s : Row α c) x _ => s.f x)
          (fun x y => Flt.add (o.f x) (usum (blkExt r ib)
            (fun t => Flt.mul (entB m.blocks (ib * 52 + t) x) (f (ib * 52 + t)))))
          (fun i x _ => x = i) (by omega) ?_).imp ?_
        · rintro j d hj1 hj2 w
          have hj3 : j < c := by
            have := blkExt_add_lt (n := c) (b := jb) (k := j - jb * 52) (by omega); omega
          have hget : ∀ t, t < blkExt r ib → m.blocks.get (ib * nBlocks c + jb)
              (j - jb * 52 + t * blkExt c jb) = .ok (entB m.blocks (ib * 52 + t) j) := by
            intro t ht
            rw [idx_of (c := c) (i := ib * 52 + t) (j := j) (ib := ib) (jb := jb)
              (p := t) (q := j - jb * 52) rfl (by omega) (by omega) (by omega), Nat.add_comm (j - _),
              ← blockDim_eq_blkExt hjb, off_of (i := ib * 52 + t) (j := j) (ib := ib) rfl
              (by omega) (by omega) hjb (by omega)]
            exact get_cell _ (blkExt_add_lt ht) hj3
          have hrd : ∀ t, t < blkExt r ib → rdL v (ib * 52 + t) = .ok (f (ib * 52 + t)) :=
            fun t ht => hv.rdL (blkExt_add_lt ht)
          obtain ⟨p, e, h⟩ := stride_sum (l0 := ib * 52) (n := blkExt r ib)
            (n0 := j - jb * 52) (w := blkExt c jb)
            (P := fun t => Flt.mul (entB m.blocks (ib * 52 + t) j) (f (ib * 52 + t)))
            (body := fun p (s : Nat × α) => do
              let k := s.1
              let b := m.blocks.get (ib * nBlocks c + jb)
              let x := Flt.add (Flt.add (Flt.add
                (Flt.mul (← b k) (← rdL v p))
                (Flt.mul (← b (k + blkExt c jb)) (← rdL v (p + 1))))
                (Flt.mul (← b (k + 2 * blkExt c jb)) (← rdL v (p + 2))))
                (Flt.mul (← b (k + 3 * blkExt c jb)) (← rdL v (p + 3)))
              return (k + 4 * blkExt c jb, Flt.add s.2 x))
            (tail := fun p (s : Nat × α) => do
              let x := Flt.mul (← m.blocks.get (ib * nBlocks c + jb) s.1) (← rdL v p)
              return (s.1 + blkExt c jb, Flt.add s.2 x))
            (fun g s hg => by
              have a0 := hget (4 * g) (by omega)
              have a1 := hget (4 * g + 1) (by omega)
              have a2 := hget (4 * g + 2) (by omega)
              have a3 := hget (4 * g + 3) (by omega)
              have b0 := hrd (4 * g) (by omega)
              have b1 := hrd (4 * g + 1) (by omega)
              have b2 := hrd (4 * g + 2) (by omega)
              have b3 := hrd (4 * g + 3) (by omega)
              rw [Nat.add_mul, Nat.one_mul] at a1
              rw [Nat.add_mul] at a2 a3
              simp only [Nat.add_assoc] at *
              simp only [a0, a1, a2, a3, b0, b1, b2, b3, ok_bind, pure_eq_ok])
            (fun t s ht => by
              dsimp only
              rw [hget t ht, hrd t ht]
              rfl)
          have u := (w j 0).2 (by rintro ⟨i', h1, h2, h3⟩; omega)
          dsimp only at u
          dsimp only at e
          rw [e]
          obtain ⟨l, k, s⟩ := p
          dsimp only at h
          simp only [ok_bind, h, Row.get_ok hj3, Row.set_ok hj3, wp_ok, u]
          exact Wr.upd1 fun _ => rfl
        · rintro d w
          refine w.congr fun x y => ?_
          constructor
          · rintro ⟨i, h1, h2, rfl⟩; exact ⟨h1, h2⟩
          · rintro ⟨h1, h2⟩; exact ⟨x, h1, h2, rfl⟩
    · intro o w i hi
      exact (w i 0).1 (ex_block.2 hi)
  · intro o h
    exact (Row.toList_isList _).congr h

theorem Blk.preMultiply_err (m : Blk α r c) {v : List α} (hv : v.length ≠ r) :
    m.preMultiply v = .error (.pan .dim) := by
  unfold Blk.preMultiply
  simp only [ne_eq, hv, not_false_eq_true, if_true]
  rfl

end Linear
