import Verif.Lemmas.MatLemmas

/-!
# C01-C04: constructors, factories and the block layout
-/

set_option linter.unusedSectionVars false

namespace Linear

open Spec

variable {α : Type} [Flt α]

/-! ## C01 Zero-filled construction -/

/-- C01, row-array storage. -/
theorem C01_arr (r c : Int) :
    (1 ≤ r ∧ 1 ≤ c → ∃ m : Arr α r.toNat c.toNat, Arr.new r c = .ok m ∧
      m.colDim = .ok c.toNat ∧ Shows m.at r.toNat c.toNat fun _ _ => Flt.zero) ∧
    (¬ (1 ≤ r ∧ 1 ≤ c) → (Arr.new r c : Res (Arr α _ _)) = .error (.err .notSPos)) := by
  constructor
  · intro h
    refine ⟨{ data := Jag.zero _ _ }, ?_, Arr.colDim_ok _ (by omega), Arr.at_shows _⟩
    unfold Arr.new
    rw [if_neg (by omega), if_neg (by omega)]
    rfl
  · intro h
    unfold Arr.new
    by_cases h1 : r < 1
    · rw [if_pos h1]; rfl
    · rw [if_neg h1, if_pos (by omega)]; rfl

/-- C01, block storage. -/
theorem C01_blk (r c : Int) :
    (1 ≤ r ∧ 1 ≤ c → ∃ m : Blk α r.toNat c.toNat, Blk.new r c = .ok m ∧
      Shows m.at r.toNat c.toNat fun _ _ => Flt.zero) ∧
    (¬ (1 ≤ r ∧ 1 ≤ c) → (Blk.new r c : Res (Blk α _ _)) = .error (.err .notSPos)) := by
  constructor
  · intro h
    refine ⟨⟨Jag.zero _ _⟩, ?_, Blk.at_shows _⟩
    unfold Blk.new
    rw [if_neg (by omega), if_neg (by omega)]
    rfl
  · intro h
    unfold Blk.new
    by_cases h1 : r < 1
    · rw [if_pos h1]; rfl
    · rw [if_neg h1, if_pos (by omega)]; rfl

/-- C01, diagonal storage (the dimension is the only argument). -/
theorem C01_dia (n : Int) :
    (1 ≤ n → ∃ m : Dia α n.toNat, Dia.new n = .ok m ∧
      Shows m.at n.toNat n.toNat fun _ _ => Flt.zero) ∧
    (¬ 1 ≤ n → (Dia.new n : Res (Dia α _)) = .error (.err .notSPos)) := by
  constructor
  · intro h
    refine ⟨⟨Row.zero _⟩, ?_, (Dia.shows _).congr fun i j _ _ => ?_⟩
    · unfold Dia.new
      rw [if_neg (by omega)]
      rfl
    · simp [diag, Row.zero]
  · intro h
    unfold Dia.new
    rw [if_pos (by omega)]
    rfl

/-- Concrete case: a 60 × 3 block matrix is created (two block rows) and a `0 × 3` one is refused. -/
example : (∃ m : Blk ℚ 60 3, Blk.new 60 3 = .ok m ∧ m.at 59 2 = .ok 0) ∧
    (Blk.new 0 3 : Res (Blk ℚ _ _)) = .error (.err .notSPos) := by
  refine ⟨?_, (C01_blk 0 3).2 (by omega)⟩
  obtain ⟨m, h1, h2⟩ := (C01_blk (α := ℚ) 60 3).1 (by omega)
  exact ⟨m, h1, h2.ok (i := 59) (j := 2) (by decide) (by decide)⟩

/-! ## C02 Construction from slices -/

/-- C02, row-array storage, accepted data, both copy modes. -/
theorem C02_arr {d : List (List α)} {r c : Nat} {A : Nat → Nat → α} (h : Rect d r c A)
    (hr : 0 < r) (hc : 0 < c) (copyArray : Bool) (slack : Nat → Nat) :
    ∃ m : Arr α r c, Arr.fromSlices (some d) copyArray slack = .ok ⟨r, c, m⟩ ∧
      m.colDim = .ok c ∧ Shows m.at r c A := by
  obtain ⟨m, h1, h2⟩ := Arr.fromSlices_ok h hr hc copyArray slack
  exact ⟨m, h1, m.colDim_ok hr, h2⟩

/-- C02, row-array storage: nil, empty or ragged data is refused: by a panic when copying, by an
error otherwise. -/
theorem C02_arr_refused {d : Option (List (List α))} (slack : Nat → Nat)
    (h : ¬ ∃ l r c A, d = some l ∧ 0 < r ∧ 0 < c ∧ Rect l r c A) :
    (∃ s, Arr.fromSlices d true slack = .error (.pan s)) ∧
      ∃ s, Arr.fromSlices d false slack = .error (.err s) :=
  Arr.fromSlices_bad slack fun l p q B hl hB => by
    by_contra hpq
    exact h ⟨l, p, q, B, hl, by omega, by omega, hB⟩

/-- C02, one column from a slice. -/
theorem C02_arr_column {v : List α} {n : Nat} {f : Nat → α} (h : IsList v n f) :
    ∃ m : Arr α n 1, Arr.fromSlice (some v) = .ok ⟨n, 1, m⟩ ∧ Shows m.at n 1 fun i _ => f i :=
  Arr.fromSlice_ok h

/-- C02, block storage, accepted data. -/
theorem C02_blk {d : List (List α)} {r c : Nat} {A : Nat → Nat → α} (h : Rect d r c A)
    (hr : 0 < r) (hc : 0 < c) :
    ∃ m : Blk α r c, Blk.fromSlices d = .ok ⟨r, c, m⟩ ∧ Shows m.at r c A :=
  Blk.fromSlices_ok h hr hc

/-- C02, block storage: empty or ragged data is refused; the refusal is a Go index panic exactly
when there is no row at all. -/
theorem C02_blk_refused {d : List (List α)}
    (h : ¬ ∃ r c A, 0 < r ∧ 0 < c ∧ Rect d r c A) :
    ∃ f, Blk.fromSlices d = .error f ∧ (f = .rt ↔ d = []) :=
  Blk.fromSlices_bad fun p q B hB => by
    by_contra hpq
    exact h ⟨p, q, B, by omega, by omega, hB⟩

/-- C02, diagonal storage: every slice is accepted, nil is refused. -/
theorem C02_dia {v : List α} {n : Nat} {f : Nat → α} (h : IsList v n f) :
    (∃ m : Dia α n, Dia.fromSlice (some v) = .ok ⟨n, m⟩ ∧ Shows m.at n n (diag f)) ∧
      (Dia.fromSlice none : Res (SDia α)) = .error (.err .inv) := by
  obtain ⟨rfl, h⟩ := h
  exact ⟨⟨_, rfl, Dia.shows_of _ fun i hi => by simp [rowOfList, h i hi]⟩, rfl⟩

/-- Concrete rectangular data satisfies the hypotheses of the C02 theorems, and concrete ragged data
those of the refusals. -/
example : (∃ A, Rect ([[1, 2, 3], [4, 5, 6]] : List (List ℚ)) 2 3 A) ∧
    ¬ ∃ r c A, 0 < r ∧ 0 < c ∧ Rect ([[1, 2, 3], [4, 5]] : List (List ℚ)) r c A := by
  constructor
  · refine ⟨fun i j => if i = 0 then (if j = 0 then 1 else if j = 1 then 2 else 3)
      else (if j = 0 then 4 else if j = 1 then 5 else 6), rfl, fun i hi => ?_⟩
    rcases (by omega : i = 0 ∨ i = 1) with rfl | rfl
    · refine ⟨_, rfl, rfl, fun j hj => ?_⟩
      rcases (by omega : j = 0 ∨ j = 1 ∨ j = 2) with rfl | rfl | rfl <;> rfl
    · refine ⟨_, rfl, rfl, fun j hj => ?_⟩
      rcases (by omega : j = 0 ∨ j = 1 ∨ j = 2) with rfl | rfl | rfl <;> rfl
  · rintro ⟨r, c, A, -, -, rfl, h⟩
    obtain ⟨x, hx, h1, -⟩ := h 0 (by decide)
    obtain ⟨y, hy, h2, -⟩ := h 1 (by decide)
    simp only [List.getElem?_cons_zero, Option.some.injEq, List.getElem?_cons_succ] at hx hy
    subst hx hy
    simp at h1 h2
    omega

/-! ## C03 Storage choice is unobservable -/

/-- C03, `NewRealMatrixWithDimension`: whatever the storage, success exactly for positive
dimensions, and then zeros of the requested dimensions. -/
theorem C03_new (r c : Int) :
    (1 ≤ r ∧ 1 ≤ c → ∃ m : Mat α r.toNat c.toNat, Mat.new r c = .ok m ∧
      m.colDim = .ok c.toNat ∧ Shows m.at r.toNat c.toNat fun _ _ => Flt.zero) ∧
    (¬ (1 ≤ r ∧ 1 ≤ c) → (Mat.new r c : Res (Mat α _ _)) = .error (.err .notSPos)) := by
  constructor
  · intro h
    unfold Mat.new
    split
    · obtain ⟨m, h1, h2, h3⟩ := (C01_arr (α := α) r c).1 h
      rw [h1]
      exact ⟨.arr m, rfl, h2, h3⟩
    · obtain ⟨m, h1, h3⟩ := (C01_blk (α := α) r c).1 h
      rw [h1]
      exact ⟨.blk m, rfl, rfl, h3⟩
  · intro h
    unfold Mat.new
    split
    · rw [(C01_arr (α := α) r c).2 h]; rfl
    · rw [(C01_blk (α := α) r c).2 h]; rfl

/-- C03, `NewRealMatrixFromSlices` on rectangular data, whatever the storage. -/
theorem C03_fromSlices {d : List (List α)} {r c : Nat} {A : Nat → Nat → α} (h : Rect d r c A)
    (hr : 0 < r) (hc : 0 < c) (firstNil : Bool) :
    ∃ m : Mat α r c, SMat.fromSlices (some d) firstNil = .ok ⟨r, c, m⟩ ∧ Shows m.at r c A := by
  obtain ⟨row0, e0, l0, -⟩ := h.2 0 hr
  unfold SMat.fromSlices
  dsimp only
  rw [rdL_eq_ok.2 e0, ok_bind, if_neg (by omega)]
  by_cases hs : d.length * row0.length ≤ 4096
  · rw [if_pos hs]
    obtain ⟨m, h1, h2⟩ := Arr.fromSlices_ok h hr hc true fun _ => 0
    rw [h1]
    exact ⟨.arr m, rfl, h2⟩
  · rw [if_neg hs]
    obtain ⟨m, h1, h2⟩ := Blk.fromSlices_ok h hr hc
    rw [h1]
    exact ⟨.blk m, rfl, h2⟩

/-- C03, `NewRealMatrixFromSlices` refuses nil, empty and ragged data, whatever the storage. -/
theorem C03_fromSlices_refused {d : Option (List (List α))} (firstNil : Bool)
    (h : ¬ ∃ l r c A, d = some l ∧ 0 < r ∧ 0 < c ∧ Rect l r c A) :
    ∃ f, SMat.fromSlices d firstNil = .error f := by
  unfold SMat.fromSlices
  cases d with
  | none => exact ⟨_, rfl⟩
  | some d =>
    dsimp only
    cases e0 : rdL d 0 with
    | error f => exact ⟨f, rfl⟩
    | ok row0 =>
      rw [ok_bind]
      by_cases hn : row0.length = 0 ∧ firstNil = true
      · rw [if_pos hn]; exact ⟨_, rfl⟩
      · rw [if_neg hn]
        by_cases hs : d.length * row0.length ≤ 4096
        · rw [if_pos hs]
          obtain ⟨s, h1⟩ := (C02_arr_refused (fun _ => 0) h).1
          rw [h1]
          exact ⟨_, rfl⟩
        · rw [if_neg hs]
          obtain ⟨f, h1, -⟩ := C02_blk_refused (d := d) (by
            rintro ⟨r, c, A, h1, h2, h3⟩
            exact h ⟨d, r, c, A, rfl, h1, h2, h3⟩)
          rw [h1]
          exact ⟨_, rfl⟩

/-- The factory really does choose both storages: 64 × 64 is row-array, 64 × 65 is block. -/
example : (∃ m : Arr ℚ 64 64, Mat.new 64 64 = .ok (.arr m)) ∧
    ∃ m : Blk ℚ 64 65, Mat.new 64 65 = .ok (.blk m) :=
  ⟨⟨_, rfl⟩, ⟨_, rfl⟩⟩

/-- C03, `NewRealIdentityMatrix`. -/
theorem C03_identity (n : Int) :
    (1 ≤ n → ∃ m : Mat α n.toNat n.toNat, Mat.identity n = .ok m ∧ m.dense ∧
      Shows m.at n.toNat n.toNat fun i j => if i = j then Flt.one else Flt.zero) ∧
    (¬ 1 ≤ n → (Mat.identity n : Res (Mat α _ _)) = .error (.err .notSPos)) := by
  constructor
  · intro h
    obtain ⟨n, rfl⟩ := Int.eq_ofNat_of_zero_le (show 0 ≤ n by omega)
    obtain ⟨m, e, h1, h3⟩ := Mat.new_ok (α := α) (r := n) (c := n) (by omega) (by omega)
    unfold Mat.identity
    show ∃ m : Mat α n n, (Mat.new (n : Int) (n : Int) >>= fun m =>
      forUp 0 n (fun i m => m.put i i Flt.one) m) = .ok m ∧ _
    rw [e, ok_bind]
    exact Mat.put_diag h1 h3 (f := fun _ => Flt.one) fun i m _ => rfl
  · intro h
    unfold Mat.identity
    rw [(C03_new (α := α) n n).2 (by omega)]
    rfl

/-- C03, `NewRealMatrixWithDiagonal`. -/
theorem C03_withDiagonal {d : List α} {n : Nat} {f : Nat → α} (h : IsList d n f) (hn : 0 < n) :
    ∃ m : Mat α n n, Mat.withDiagonal d = .ok ⟨n, n, m⟩ ∧ m.dense ∧ Shows m.at n n (diag f) := by
  obtain ⟨rfl, h⟩ := h
  obtain ⟨m, e, h1, h3⟩ := Mat.new_ok (α := α) (r := d.length) (c := d.length) hn hn
  obtain ⟨m', e', hd, h'⟩ := Mat.put_diag h1 h3 (f := f)
    (body := fun i m => do m.put i i (← rdL d i)) fun i m hi => by
      rw [rdL_eq_ok.2 (h i hi)]; rfl
  refine ⟨m', ?_, hd, h'⟩
  unfold Mat.withDiagonal
  erw [e, ok_bind, e']
  rfl

/-! ## C04 Block layout round trip -/

/-- C04: laying rectangular data out in blocks and reading all of it back. -/
theorem C04_roundTrip {d : List (List α)} {r c : Nat} {A : Nat → Nat → α} (h : Rect d r c A)
    (hr : 0 < r) (hc : 0 < c) :
    ∃ (m : Blk α r c) (t : Tab α r c), Blk.fromSlices d = .ok ⟨r, c, m⟩ ∧ m.dataCopy = .ok t ∧
      t.toLists = d := by
  obtain ⟨m, h1, h2⟩ := Blk.fromSlices_ok h hr hc
  obtain ⟨t, h3, h4⟩ := m.dataCopy_ok hc
  refine ⟨m, t, h1, h3, ?_⟩
  have h5 : Rect t.toLists r c A := (Jag.toLists_rect t).congr fun i j hi hj => by
    rw [h4 i j hi hj]
    exact m.shows_entB.unique h2 hi hj
  obtain ⟨l1, g1⟩ := h5
  obtain ⟨l2, g2⟩ := h
  refine List.ext_getElem? fun i => ?_
  by_cases hi : i < r
  · obtain ⟨x, ex, lx, hx⟩ := g1 i hi
    obtain ⟨y, ey, ly, hy⟩ := g2 i hi
    rw [ex, ey]
    congr 1
    exact IsList.eq ⟨lx, hx⟩ ⟨ly, hy⟩
  · rw [List.getElem?_eq_none (by omega), List.getElem?_eq_none (by omega)]

/-- C04: every cell has a position inside the blocks, and no two cells share one. -/
theorem C04_positions {r c i j i' j' : Nat} (hi : i < r) (hj : j < c) (_hi' : i' < r) (hj' : j' < c) :
    blkIdx c i j < nBlocks r * nBlocks c ∧ blkOff c i j < blkLen r c (blkIdx c i j) ∧
      ((blkIdx c i j, blkOff c i j) = (blkIdx c i' j', blkOff c i' j') → (i, j) = (i', j')) := by
  refine ⟨blkIdx_lt hi hj, blkOff_lt hi hj, fun h => ?_⟩
  simp only [Prod.mk.injEq] at h ⊢
  exact blk_pos_inj hj hj' h

/-- C04: every stored position belongs to a cell, so the blocks have exactly `r * c` elements. -/
theorem C04_onto {r c b k : Nat} (_hb : b < nBlocks r * nBlocks c) (hk : k < blkLen r c b) :
    ∃ i j, i < r ∧ j < c ∧ blkIdx c i j = b ∧ blkOff c i j = k :=
  ⟨cellRow c b k, cellCol c b k, cellRow_lt hk, cellCol_lt hk, blkIdx_cell hk, blkOff_cell hk⟩

/-- Concrete case: in a 60 × 60 matrix cell (59, 59) is in the last of the 4 blocks, the cell before
the block boundary and the one after are in different blocks. -/
example : blkIdx 60 59 59 = 3 ∧ blkOff 60 59 59 = 63 ∧ blkIdx 60 0 51 = 0 ∧ blkIdx 60 0 52 = 1 := by
  decide

end Linear
