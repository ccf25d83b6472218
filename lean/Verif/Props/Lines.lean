import Verif.Props.Arith
import Verif.Props.Entry

/-!
# C13-C15, C52: windows, lines and equality of dense matrices
-/

set_option linter.unusedSectionVars false

namespace Linear

open Spec

variable {α : Type} [Flt α] {r c : Nat}

/-! ## C13 Sub-matrix extraction and insertion -/

/-- C13, `SubMatrix`: exactly the window. -/
theorem C13_subMatrix {a : Mat α r c} (ha : a.dense) {A : Nat → Nat → α} (hA : Shows a.at r c A)
    {sr er sc ec : Int} (h : window r c sr er sc ec) :
    ∃ m, a.subMatrix sr er sc ec = .ok ⟨(er - sr + 1).toNat, (ec - sc + 1).toNat, m⟩ ∧ m.dense ∧
      Shows m.at (er - sr + 1).toNat (ec - sc + 1).toNat
        fun i j => A (sr.toNat + i) (sc.toNat + j) := by
  have hw := h
  unfold window at hw
  revert ha hA
  cases a with
  | arr a =>
    intro _ hA
    obtain ⟨m, e, h⟩ := a.subMatrix_ok h
    exact ⟨.arr m, by rw [Mat.subMatrix, e]; rfl, trivial, h.congr fun i j hi hj =>
      Arr.data_of hA (by omega) (by omega)⟩
  | blk a =>
    intro _ hA
    obtain ⟨m, e, h⟩ := a.subMatrix_ok h
    exact ⟨.blk m, by rw [Mat.subMatrix, e]; rfl, trivial, h.congr fun i j hi hj =>
      Blk.entB_of hA (by omega) (by omega)⟩
  | dia a => exact fun h => h.elim
  | ext a => exact fun h => h.elim

/-- C13, `SubMatrix`: inverted windows and windows outside the matrix are refused. -/
theorem C13_subMatrix_refused {a : Mat α r c} (ha : a.dense) {sr er sc ec : Int}
    (h : ¬ window r c sr er sc ec) : ∃ s, a.subMatrix sr er sc ec = .error (.pan s) := by
  revert ha
  cases a with
  | arr a =>
    obtain ⟨s, e⟩ := a.subMatrix_err h
    exact fun _ => ⟨s, by rw [Mat.subMatrix, e]; rfl⟩
  | blk a =>
    obtain ⟨s, e⟩ := a.subMatrix_err h
    exact fun _ => ⟨s, by rw [Mat.subMatrix, e]; rfl⟩
  | dia a => exact fun h => h.elim
  | ext a => exact fun h => h.elim

/-- C13, `SetSubMatrix`: exactly the window is written. -/
theorem C13_setSubMatrix {m : Mat α r c} (hm : m.dense) {A : Nat → Nat → α}
    (hA : Shows m.at r c A) {d : List (List α)} {p q : Nat} {B : Nat → Nat → α} (hd : Rect d p q B)
    (hp : 0 < p) (hq : 0 < q) {row col : Int} (hrow : 0 ≤ row ∧ row + p ≤ r)
    (hcol : 0 ≤ col ∧ col + q ≤ c) :
    ∃ m', m.setSubMatrix (some d) row col = .ok m' ∧ m'.dense ∧ Shows m'.at r c fun x y =>
      if (row ≤ x ∧ (x : Int) < row + p) ∧ (col ≤ y ∧ (y : Int) < col + q)
      then B (x - row.toNat) (y - col.toNat) else A x y := by
  revert hm hA
  cases m with
  | arr m =>
    intro _ hA
    obtain ⟨m', e, w, -⟩ := m.setSubMatrix_ok hd hp hq hrow hcol
    exact Arr.lift e w hA fun x y hx hy => if_congr (by omega) rfl rfl
  | blk m =>
    intro _ hA
    obtain ⟨m', e, w⟩ := m.setSubMatrix_ok hd hp hq hrow hcol
    exact Blk.lift e w hA fun x y hx hy => if_congr (by omega) rfl rfl
  | dia m => exact fun h => h.elim
  | ext m => exact fun h => h.elim

/-- C13, `SetSubMatrix`: nil, empty, ragged or misplaced data is refused and changes nothing. -/
theorem C13_setSubMatrix_refused {m : Mat α r c} (hm : m.dense) (hr : 0 < r)
    {sub : Option (List (List α))} {row col : Int}
    (h : ¬ ∃ d p q B, sub = some d ∧ Rect d p q B ∧ 0 < p ∧ 0 < q ∧
      (0 ≤ row ∧ row + p ≤ r) ∧ (0 ≤ col ∧ col + q ≤ c)) :
    ∃ f, m.setSubMatrix sub row col = .error (f, m) := by
  refine (C08_step hm hr m.at_shows (.setSubMatrix sub row col)).2 ?_
  cases sub with
  | none => rfl
  | some d =>
    unfold step
    dsimp only
    rw [if_neg]
    rintro ⟨h1, h2, h3⟩
    obtain ⟨h4, h5, h6⟩ := rect_of_isRect h1
    exact h ⟨d, _, _, _, rfl, h4, h5, h6, h2, h3⟩

/-- Concrete case: window rows 0..1, columns 51..53 of a 2 × 60 block matrix crosses a block. -/
example : window 2 60 0 1 51 53 ∧ ∃ m, (Mat.blk ⟨⟨fun b k => (100 * b + k : ℚ)⟩⟩ : Mat ℚ 2 60).subMatrix
    0 1 51 53 = .ok ⟨2, 3, m⟩ ∧ m.at 1 1 = .ok 108 := by
  refine ⟨by decide, ?_⟩
  obtain ⟨m, h1, -, h2⟩ := C13_subMatrix
    (a := (Mat.blk ⟨⟨fun b k => (100 * b + k : ℚ)⟩⟩ : Mat ℚ 2 60)) (Mat.dense_blk _)
    (Mat.at_shows _) (sr := 0) (er := 1) (sc := 51) (ec := 53) (by decide)
  exact ⟨m, h1, (h2.ok (i := 1) (j := 1) (by decide) (by decide)).trans (by decide +kernel)⟩

/-! ## C14 Row and column access -/

/-- C14, `RowAt`. -/
theorem C14_rowAt {a : Mat α r c} (ha : a.own) {A : Nat → Nat → α} (hA : Shows a.at r c A)
    {i : Int} (hi : 0 ≤ i ∧ i < r) :
    ∃ l, a.rowAt i = .ok l ∧ IsList l c fun j => A i.toNat j := by
  revert ha hA
  cases a with
  | arr a =>
    intro _ hA
    obtain ⟨l, e, h⟩ := a.rowAt_ok hi
    exact ⟨l, e, h.congr fun j hj => Arr.data_of hA (by omega) hj⟩
  | blk a =>
    intro _ hA
    obtain ⟨l, e, h⟩ := a.rowAt_ok hi
    exact ⟨l, e, h.congr fun j hj => Blk.entB_of hA (by omega) hj⟩
  | dia a =>
    intro _ hA
    obtain ⟨l, e, h⟩ := a.rowAt_ok hi
    exact ⟨l, e, h.congr fun j hj => (Dia.shows a).unique hA (by omega) hj⟩
  | ext a => exact fun h => h.elim

/-- C14, `ColumnAt`. -/
theorem C14_columnAt {a : Mat α r c} (ha : a.own) (hr : 0 < r) {A : Nat → Nat → α}
    (hA : Shows a.at r c A) {j : Int} (hj : 0 ≤ j ∧ j < c) :
    ∃ l, a.columnAt j = .ok l ∧ IsList l r fun i => A i j.toNat := by
  revert ha hA
  cases a with
  | arr a =>
    intro _ hA
    obtain ⟨l, e, h⟩ := a.columnAt_ok hr hj
    exact ⟨l, e, h.congr fun i hi => Arr.data_of hA hi (by omega)⟩
  | blk a =>
    intro _ hA
    obtain ⟨l, e, h⟩ := a.columnAt_ok hj
    exact ⟨l, e, h.congr fun i hi => Blk.entB_of hA hi (by omega)⟩
  | dia a =>
    intro _ hA
    obtain ⟨l, e, h⟩ := a.columnAt_ok hj
    exact ⟨l, e, h.congr fun i hi => (Dia.shows a).unique hA hi (by omega)⟩
  | ext a => exact fun h => h.elim

/-- C14: other indices are refused, every storage. -/
theorem C14_read_refused {a : Mat α r c} (ha : a.own) (hr : 0 < r) (k : Int) :
    (¬ (0 ≤ k ∧ k < r) → a.rowAt k = .error (.pan .range)) ∧
    (¬ (0 ≤ k ∧ k < c) → a.columnAt k = .error (.pan .range)) := by
  revert ha
  cases a with
  | arr a => exact fun _ => ⟨a.rowAt_err, a.columnAt_err hr⟩
  | blk a => exact fun _ => ⟨a.rowAt_err, a.columnAt_err⟩
  | dia a => exact fun _ => ⟨a.rowAt_err, a.columnAt_err⟩
  | ext a => exact fun h => h.elim

/-- C14, `SetColumn`. -/
theorem C14_setColumn {m : Mat α r c} (hm : m.dense) (hr : 0 < r) {A : Nat → Nat → α}
    (hA : Shows m.at r c A) {j : Int} (hj : 0 ≤ j ∧ j < c) {l : List α} {f : Nat → α}
    (hl : IsList l r f) :
    ∃ m', m.setColumn j l = .ok m' ∧ m'.dense ∧
      Shows m'.at r c fun x y => if (y : Int) = j then f x else A x y := by
  revert hm hA
  cases m with
  | arr m =>
    intro _ hA
    obtain ⟨m', e, w, -⟩ := m.setColumn_ok hr hj hl
    exact Arr.lift e w hA fun x y hx hy => if_congr (by omega) rfl rfl
  | blk m =>
    intro _ hA
    obtain ⟨m', e, w⟩ := m.setColumn_ok hj hl
    exact Blk.lift e w hA fun x y hx hy => if_congr (by omega) rfl rfl
  | dia m => exact fun h => h.elim
  | ext m => exact fun h => h.elim

/-- C14, `SetRow`, what holds: on block storage always, and on row-array storage when row `i` has
spare capacity at least `i` (which holds for row 0). The full property (every valid index) is false
for row-array storage, see `C14_setRow_false`. -/
theorem C14_setRow_partial {m : Mat α r c} (hm : m.dense) {A : Nat → Nat → α}
    (hA : Shows m.at r c A) {i : Int} (hi : 0 ≤ i ∧ i < r)
    (hs : ∀ a, m = .arr a → i.toNat ≤ a.slack i.toNat) {l : List α} {f : Nat → α}
    (hl : IsList l c f) :
    ∃ m', m.setRow i l = .ok m' ∧ m'.dense ∧
      Shows m'.at r c fun x y => if (x : Int) = i then f y else A x y := by
  revert hm hA
  cases m with
  | arr m =>
    intro _ hA
    obtain ⟨m', e, w, -⟩ := m.setRow_ok hi hl (hs m rfl)
    exact Arr.lift e w hA fun x y hx hy => if_congr (by omega) rfl rfl
  | blk m =>
    intro _ hA
    obtain ⟨m', e, w⟩ := m.setRow_ok hi hl
    exact Blk.lift e w hA fun x y hx hy => if_congr (by omega) rfl rfl
  | dia m => exact fun h => h.elim
  | ext m => exact fun h => h.elim

/-- C14 is false for `SetRow` on row-array storage: on every matrix whose rows were allocated by the
library (no spare capacity), `SetRow(i, …)` with a valid index `i ≥ 1` and a slice of the right
length ends in a slice-bounds panic. -/
theorem C14_setRow_false {a : Arr α r c} (ha : a.slack = fun _ => 0) {i : Int}
    (hi : 1 ≤ i ∧ i < r) {l : List α} (hl : l.length = c) :
    (Mat.arr a).setRow i l = .error (.rt, .arr a) := by
  rw [Mat.setRow, a.setRow_rt (by omega) hl (by rw [ha]; dsimp only; omega)]
  rfl

/-- The matrices made by the constructors have no spare capacity. -/
example : ∃ m : Arr ℚ 2 2, Arr.new 2 2 = .ok m ∧ m.slack = fun _ => 0 := ⟨_, rfl, rfl⟩

/-- C14: wrong indices and wrong lengths are refused without effect. -/
theorem C14_write_refused {m : Mat α r c} (hm : m.dense) (hr : 0 < r) (k : Int) (l : List α) :
    (¬ ((0 ≤ k ∧ k < r) ∧ l.length = c) → ∃ s, m.setRow k l = .error (.pan s, m)) ∧
    (¬ ((0 ≤ k ∧ k < c) ∧ l.length = r) → ∃ s, m.setColumn k l = .error (.pan s, m)) := by
  revert hm
  cases m with
  | arr m =>
    refine fun _ => ⟨fun h => ?_, fun h => ?_⟩
    · by_cases h1 : 0 ≤ k ∧ k < r
      · exact ⟨_, by rw [Mat.setRow, m.setRow_len h1 fun h2 => h ⟨h1, h2⟩]; rfl⟩
      · exact ⟨_, by rw [Mat.setRow, m.setRow_range h1]; rfl⟩
    · by_cases h1 : 0 ≤ k ∧ k < c
      · exact ⟨_, by rw [Mat.setColumn, m.setColumn_len hr h1 fun h2 => h ⟨h1, h2⟩]; rfl⟩
      · exact ⟨_, by rw [Mat.setColumn, m.setColumn_range hr h1]; rfl⟩
  | blk m =>
    refine fun _ => ⟨fun h => ?_, fun h => ?_⟩
    · by_cases h1 : 0 ≤ k ∧ k < r
      · exact ⟨_, by rw [Mat.setRow, m.setRow_len h1 fun h2 => h ⟨h1, h2⟩]; rfl⟩
      · exact ⟨_, by rw [Mat.setRow, m.setRow_range h1]; rfl⟩
    · by_cases h1 : 0 ≤ k ∧ k < c
      · exact ⟨_, by rw [Mat.setColumn, m.setColumn_len h1 fun h2 => h ⟨h1, h2⟩]; rfl⟩
      · exact ⟨_, by rw [Mat.setColumn, m.setColumn_range h1]; rfl⟩
  | dia m => exact fun h => h.elim
  | ext m => exact fun h => h.elim

/-- Concrete case: the last column of a 2 × 60 block matrix is replaced by (7, 8). -/
example : IsList ([7, 8] : List ℚ) 2 (fun i => 7 + i) ∧
    ∃ m', (Mat.blk ⟨Jag.zero _ _⟩ : Mat ℚ 2 60).setColumn 59 [7, 8] = .ok m' ∧
      m'.at 1 59 = .ok 8 ∧ m'.at 1 58 = .ok 0 := by
  have hl : IsList ([7, 8] : List ℚ) 2 (fun i => 7 + i) := ⟨rfl, fun i hi => by
    rcases (by omega : i = 0 ∨ i = 1) with rfl | rfl <;> decide +kernel⟩
  refine ⟨hl, ?_⟩
  obtain ⟨m', h1, -, h2⟩ := C14_setColumn (m := (Mat.blk ⟨Jag.zero _ _⟩ : Mat ℚ 2 60))
    (Mat.dense_blk _) (by decide) (Mat.at_shows _) (j := 59) (by decide) hl
  exact ⟨m', h1, (h2.ok (i := 1) (j := 59) (by decide) (by decide)).trans (by decide +kernel),
    (h2.ok (i := 1) (j := 58) (by decide) (by decide)).trans (by decide +kernel)⟩

/-! ## C15 Row and column matrices and vectors -/

/-- C15, `RowMatrixAt`. -/
theorem C15_rowMatrixAt {a : Mat α r c} (ha : a.dense) (hc : 0 < c) {A : Nat → Nat → α}
    (hA : Shows a.at r c A) {i : Int} (hi : 0 ≤ i ∧ i < r) :
    ∃ m, a.rowMatrixAt i = .ok ⟨1, c, m⟩ ∧ m.dense ∧ Shows m.at 1 c fun _ j => A i.toNat j := by
  revert ha hA
  cases a with
  | arr a =>
    intro _ hA
    obtain ⟨m, e, h⟩ := a.rowMatrixAt_ok hc hi
    exact ⟨.arr m, by rw [Mat.rowMatrixAt, e]; rfl, trivial, h.congr fun _ j _ hj =>
      Arr.data_of hA (by omega) hj⟩
  | blk a =>
    intro _ hA
    obtain ⟨m, e, h⟩ := a.rowMatrixAt_ok hc hi
    exact ⟨.blk m, by rw [Mat.rowMatrixAt, e]; rfl, trivial, h.congr fun _ j _ hj =>
      Blk.entB_of hA (by omega) hj⟩
  | dia a => exact fun h => h.elim
  | ext a => exact fun h => h.elim

/-- C15, `ColumnMatrixAt`. -/
theorem C15_columnMatrixAt {a : Mat α r c} (ha : a.dense) (hr : 0 < r) {A : Nat → Nat → α}
    (hA : Shows a.at r c A) {j : Int} (hj : 0 ≤ j ∧ j < c) :
    ∃ m, a.columnMatrixAt j = .ok ⟨r, 1, m⟩ ∧ m.dense ∧ Shows m.at r 1 fun i _ => A i j.toNat := by
  revert ha hA
  cases a with
  | arr a =>
    intro _ hA
    obtain ⟨m, e, h⟩ := a.columnMatrixAt_ok hr hj
    exact ⟨.arr m, by rw [Mat.columnMatrixAt, e]; rfl, trivial, h.congr fun i _ hi _ =>
      Arr.data_of hA hi (by omega)⟩
  | blk a =>
    intro _ hA
    obtain ⟨m, e, h⟩ := a.columnMatrixAt_ok hr hj
    exact ⟨.blk m, by rw [Mat.columnMatrixAt, e]; rfl, trivial, h.congr fun i _ hi _ =>
      Blk.entB_of hA hi (by omega)⟩
  | dia a => exact fun h => h.elim
  | ext a => exact fun h => h.elim

/-- C15: reading a line with an index outside the matrix is refused. -/
theorem C15_read_refused {a : Mat α r c} (ha : a.dense) (hr : 0 < r) (k : Int) :
    (¬ (0 ≤ k ∧ k < r) → a.rowMatrixAt k = .error (.pan .range)) ∧
    (¬ (0 ≤ k ∧ k < c) → a.columnMatrixAt k = .error (.pan .range)) := by
  revert ha
  cases a with
  | arr a => exact fun _ => ⟨fun h => by rw [Mat.rowMatrixAt, a.rowMatrixAt_err h]; rfl,
      fun h => by rw [Mat.columnMatrixAt, a.columnMatrixAt_err hr h]; rfl⟩
  | blk a => exact fun _ => ⟨fun h => by rw [Mat.rowMatrixAt, a.rowMatrixAt_err h]; rfl,
      fun h => by rw [Mat.columnMatrixAt, a.columnMatrixAt_err h]; rfl⟩
  | dia a => exact fun h => h.elim
  | ext a => exact fun h => h.elim

/-- C15, `SetRowMatrix`, an argument of any storage. -/
theorem C15_setRowMatrix {m : Mat α r c} (hm : m.dense) {A : Nat → Nat → α}
    (hA : Shows m.at r c A) {i : Int} (hi : 0 ≤ i ∧ i < r) {b : Mat α 1 c} {B : Nat → Nat → α}
    (hB : Shows b.at 1 c B) :
    ∃ m', m.setRowMatrix i b = .ok m' ∧ m'.dense ∧
      Shows m'.at r c fun x y => if (x : Int) = i then B 0 y else A x y := by
  revert hm hA
  cases m with
  | arr m =>
    intro _ hA
    obtain ⟨m', e, w, -⟩ := m.setRowMatrix_ok b hi
    exact Arr.lift e w hA fun x y hx hy => if_congr (by omega)
      (Mat.ent_of hB (by omega) hy).symm rfl
  | blk m =>
    intro _ hA
    obtain ⟨m', e, w⟩ := m.setRowMatrix_ok b hi
    exact Blk.lift e w hA fun x y hx hy => if_congr (by omega)
      (Mat.ent_of hB (by omega) hy).symm rfl
  | dia m => exact fun h => h.elim
  | ext m => exact fun h => h.elim

/-- C15, `SetColumnMatrix`, an argument of any storage. -/
theorem C15_setColumnMatrix {m : Mat α r c} (hm : m.dense) (hr : 0 < r) {A : Nat → Nat → α}
    (hA : Shows m.at r c A) {j : Int} (hj : 0 ≤ j ∧ j < c) {b : Mat α r 1} {B : Nat → Nat → α}
    (hB : Shows b.at r 1 B) :
    ∃ m', m.setColumnMatrix j b = .ok m' ∧ m'.dense ∧
      Shows m'.at r c fun x y => if (y : Int) = j then B x 0 else A x y := by
  revert hm hA
  cases m with
  | arr m =>
    intro _ hA
    obtain ⟨m', e, w, -⟩ := m.setColumnMatrix_ok b hr hj
    exact Arr.lift e w hA fun x y hx hy => if_congr (by omega)
      (Mat.ent_of hB hx (by omega)).symm rfl
  | blk m =>
    intro _ hA
    obtain ⟨m', e, w⟩ := m.setColumnMatrix_ok b hj
    exact Blk.lift e w hA fun x y hx hy => if_congr (by omega)
      (Mat.ent_of hB hx (by omega)).symm rfl
  | dia m => exact fun h => h.elim
  | ext m => exact fun h => h.elim

/-- C15: wrong indices and shapes are refused without effect. -/
theorem C15_setMatrix_refused {p q : Nat} {m : Mat α r c} (hm : m.dense) (hr : 0 < r) (k : Int)
    (b : Mat α p q) :
    (¬ ((0 ≤ k ∧ k < r) ∧ p = 1 ∧ q = c) → ∃ s, m.setRowMatrix k b = .error (.pan s, m)) ∧
    (¬ ((0 ≤ k ∧ k < c) ∧ p = r ∧ q = 1) → ∃ s, m.setColumnMatrix k b = .error (.pan s, m)) := by
  revert hm
  cases m with
  | arr m =>
    refine fun _ => ⟨fun h => ?_, fun h => ?_⟩
    · by_cases h1 : 0 ≤ k ∧ k < r
      · exact ⟨_, by rw [Mat.setRowMatrix, m.setRowMatrix_dim b h1 fun h2 => h ⟨h1, h2⟩]; rfl⟩
      · exact ⟨_, by rw [Mat.setRowMatrix, m.setRowMatrix_range b h1]; rfl⟩
    · by_cases h1 : 0 ≤ k ∧ k < c
      · exact ⟨_, by rw [Mat.setColumnMatrix, m.setColumnMatrix_dim b hr h1 fun h2 => h ⟨h1, h2⟩]; rfl⟩
      · exact ⟨_, by rw [Mat.setColumnMatrix, m.setColumnMatrix_range b hr h1]; rfl⟩
  | blk m =>
    refine fun _ => ⟨fun h => ?_, fun h => ?_⟩
    · by_cases h1 : 0 ≤ k ∧ k < r
      · exact ⟨_, by rw [Mat.setRowMatrix, m.setRowMatrix_dim b h1 fun h2 => h ⟨h1, h2⟩]; rfl⟩
      · exact ⟨_, by rw [Mat.setRowMatrix, m.setRowMatrix_range b h1]; rfl⟩
    · by_cases h1 : 0 ≤ k ∧ k < c
      · exact ⟨_, by rw [Mat.setColumnMatrix, m.setColumnMatrix_dim b h1 fun h2 => h ⟨h1, h2⟩]; rfl⟩
      · exact ⟨_, by rw [Mat.setColumnMatrix, m.setColumnMatrix_range b h1]; rfl⟩
  | dia m => exact fun h => h.elim
  | ext m => exact fun h => h.elim

/-- C15, `SetRowVector` with an `ArrayRealVector` (any storage) or, on row-array storage, any
vector. The full property (any vector on block storage) is false, see `C15_foreign_false`. -/
theorem C15_setRowVector_partial {m : Mat α r c} (hm : m.dense) {A : Nat → Nat → α}
    (hA : Shows m.at r c A) {i : Int} (hi : 0 ≤ i ∧ i < r) {v : RVec α}
    (hv' : (∃ a, m = .arr a) ∨ ∃ l, v = .arr l) {f : Nat → α} (hv : IsList v.list c f) :
    ∃ m', m.setRowVector i v = .ok m' ∧ m'.dense ∧
      Shows m'.at r c fun x y => if (x : Int) = i then f y else A x y := by
  revert hm hA
  cases m with
  | arr m =>
    intro _ hA
    obtain ⟨m', e, w, -⟩ := m.setRowVector_ok hi hv
    exact Arr.lift e w hA fun x y hx hy => if_congr (by omega) rfl rfl
  | blk m =>
    intro _ hA
    obtain ⟨l, rfl⟩ := hv'.resolve_left (by simp)
    obtain ⟨m', e, w⟩ := m.setRow_ok hi hv
    exact Blk.lift e w hA fun x y hx hy => if_congr (by omega) rfl rfl
  | dia m => exact fun h => h.elim
  | ext m => exact fun h => h.elim

/-- C15, `SetColumnVector`, same conditions. -/
theorem C15_setColumnVector_partial {m : Mat α r c} (hm : m.dense) (hr : 0 < r)
    {A : Nat → Nat → α} (hA : Shows m.at r c A) {j : Int} (hj : 0 ≤ j ∧ j < c) {v : RVec α}
    (hv' : (∃ a, m = .arr a) ∨ ∃ l, v = .arr l) {f : Nat → α} (hv : IsList v.list r f) :
    ∃ m', m.setColumnVector j v = .ok m' ∧ m'.dense ∧
      Shows m'.at r c fun x y => if (y : Int) = j then f x else A x y := by
  revert hm hA
  cases m with
  | arr m =>
    intro _ hA
    obtain ⟨m', e, w, -⟩ := m.setColumnVector_ok hr hj hv
    exact Arr.lift e w hA fun x y hx hy => if_congr (by omega) rfl rfl
  | blk m =>
    intro _ hA
    obtain ⟨l, rfl⟩ := hv'.resolve_left (by simp)
    obtain ⟨m', e, w⟩ := m.setColumn_ok hj hv
    exact Blk.lift e w hA fun x y hx hy => if_congr (by omega) rfl rfl
  | dia m => exact fun h => h.elim
  | ext m => exact fun h => h.elim

/-- C15: vectors of the wrong length and wrong indices are refused without effect, any vector. -/
theorem C15_setVector_refused {m : Mat α r c} (hm : m.dense) (hr : 0 < r) (k : Int) (v : RVec α) :
    (¬ ((0 ≤ k ∧ k < r) ∧ v.dim = c) → ∃ f, m.setRowVector k v = .error (f, m)) ∧
    (¬ ((0 ≤ k ∧ k < c) ∧ v.dim = r) → ∃ f, m.setColumnVector k v = .error (f, m)) := by
  revert hm
  cases m with
  | arr m =>
    refine fun _ => ⟨fun h => ?_, fun h => ?_⟩
    · by_cases h1 : 0 ≤ k ∧ k < r
      · exact ⟨_, by rw [Mat.setRowVector, m.setRowVector_dim v h1 fun h2 => h ⟨h1, h2⟩]; rfl⟩
      · exact ⟨_, by rw [Mat.setRowVector, m.setRowVector_range v h1]; rfl⟩
    · by_cases h2 : v.dim = r
      · exact ⟨_, by rw [Mat.setColumnVector, m.setColumnVector_range v hr h2 fun h1 => h ⟨h1, h2⟩]; rfl⟩
      · exact ⟨_, by rw [Mat.setColumnVector, m.setColumnVector_dim v hr h2]; rfl⟩
  | blk m =>
    cases v with
    | arr l =>
      refine fun _ => ⟨fun h => ?_, fun h => ?_⟩
      · by_cases h1 : 0 ≤ k ∧ k < r
        · exact ⟨_, by rw [Mat.setRowVector, Blk.setRowVector,
            m.setRow_len h1 fun h2 => h ⟨h1, h2⟩]; rfl⟩
        · exact ⟨_, by rw [Mat.setRowVector, Blk.setRowVector, m.setRow_range h1]; rfl⟩
      · by_cases h1 : 0 ≤ k ∧ k < c
        · exact ⟨_, by rw [Mat.setColumnVector, Blk.setColumnVector,
            m.setColumn_len h1 fun h2 => h ⟨h1, h2⟩]; rfl⟩
        · exact ⟨_, by rw [Mat.setColumnVector, Blk.setColumnVector, m.setColumn_range h1]; rfl⟩
    | ext l =>
      refine fun _ => ⟨fun h => ?_, fun h => ?_⟩
      · by_cases h1 : 0 ≤ k ∧ k < r
        · exact ⟨_, by rw [Mat.setRowVector, Blk.setRowVector, checkRowIndex_ok h1]; rfl⟩
        · exact ⟨_, by rw [Mat.setRowVector, Blk.setRowVector, checkRowIndex_err h1]; rfl⟩
      · by_cases h1 : 0 ≤ k ∧ k < c
        · exact ⟨_, by rw [Mat.setColumnVector, Blk.setColumnVector, checkColumnIndex_ok h1]; rfl⟩
        · exact ⟨_, by rw [Mat.setColumnVector, Blk.setColumnVector, checkColumnIndex_err h1]; rfl⟩
  | dia m => exact fun h => h.elim
  | ext m => exact fun h => h.elim

/-- C15 is false for foreign vectors on block storage: every valid call panics. -/
theorem C15_foreign_false (m : Blk α r c) (k : Int) (v : List α) :
    ((0 ≤ k ∧ k < r) → (Mat.blk m).setRowVector k (.ext v) = .error (.rt, .blk m)) ∧
    ((0 ≤ k ∧ k < c) → (Mat.blk m).setColumnVector k (.ext v) = .error (.rt, .blk m)) :=
  ⟨fun h => by rw [Mat.setRowVector, Blk.setRowVector, checkRowIndex_ok h]; rfl,
    fun h => by rw [Mat.setColumnVector, Blk.setColumnVector, checkColumnIndex_ok h]; rfl⟩

/-! ## C52 Matrix equality -/

/-- C52: `Equals` on distinct objects, any storage of the library against any storage: true exactly
when the dimensions agree and all entries compare equal. -/
theorem C52_equals {p q : Nat} {a : Mat α r c} (ha : a.own) (hr : 0 < r) {b : Mat α p q}
    {A B : Nat → Nat → α} (hA : Shows a.at r c A) (hB : Shows b.at p q B) :
    ∃ t, a.equals b = .ok t ∧ (t = true ↔ p = r ∧ q = c ∧
      ∀ i j, i < r → j < c → Flt.eq (A i j) (B i j) = true) := by
  have key : ∃ t, a.equals b = .ok t ∧ (t = true ↔ entEq r c p q a.ent b.ent) := by
    clear hA
    revert ha
    cases a with
    | arr a => exact fun _ => a.equals_iff b hr
    | blk a => exact fun _ => a.equals_iff b
    | dia a => exact fun _ => a.equals_iff b
    | ext a => exact fun h => h.elim
  obtain ⟨t, e, h⟩ := key
  refine ⟨t, e, h.trans ?_⟩
  unfold entEq
  constructor
  · rintro ⟨rfl, rfl, h⟩
    refine ⟨rfl, rfl, fun i j hi hj => ?_⟩
    rw [← Mat.ent_of hA hi hj, ← Mat.ent_of hB hi hj]
    exact h i j hi hj
  · rintro ⟨rfl, rfl, h⟩
    refine ⟨rfl, rfl, fun i j hi hj => ?_⟩
    rw [Mat.ent_of hA hi hj, Mat.ent_of hB hi hj]
    exact h i j hi hj

/-- The comparison `==` of machine numbers on values that are not NaN: an equivalence. (It identifies
the two zeros.) -/
structure EqLaws (α : Type) [Flt α] (good : α → Prop) : Prop where
  refl : ∀ x, good x → Flt.eq x x = true
  symm : ∀ x y : α, Flt.eq x y = true → Flt.eq y x = true
  trans : ∀ x y z : α, Flt.eq x y = true → Flt.eq y z = true → Flt.eq x z = true

/-- C52: on NaN-free matrices (entries satisfying `good`) `Equals` is an equivalence, across
storages. -/
theorem C52_equivalence {good : α → Prop} (L : EqLaws α good) {p q s t : Nat} {a : Mat α r c}
    {b : Mat α p q} {d : Mat α s t} (ha : a.own) (hb : b.own) (hr : 0 < r) (hp : 0 < p)
    (hgood : ∀ i j, i < r → j < c → good (a.ent i j)) :
    a.equals a = .ok true ∧ (a.equals b = .ok true → b.equals a = .ok true) ∧
    (a.equals b = .ok true → b.equals d = .ok true → a.equals d = .ok true) := by
  obtain ⟨x1, e1, h1⟩ := C52_equals ha hr a.at_shows a.at_shows
  obtain ⟨x2, e2, h2⟩ := C52_equals ha hr a.at_shows b.at_shows
  obtain ⟨x3, e3, h3⟩ := C52_equals hb hp b.at_shows a.at_shows
  obtain ⟨x4, e4, h4⟩ := C52_equals hb hp b.at_shows d.at_shows
  obtain ⟨x5, e5, h5⟩ := C52_equals ha hr a.at_shows d.at_shows
  simp only [e1, e2, e3, e4, e5, Except.ok.injEq]
  refine ⟨h1.2 ⟨rfl, rfl, fun i j hi hj => L.refl _ (hgood i j hi hj)⟩, fun h => ?_, fun h h' => ?_⟩
  · obtain ⟨g1, g2, g3⟩ := h2.1 h
    exact h3.2 ⟨g1.symm, g2.symm, fun i j hi hj => L.symm _ _ (g3 i j (by omega) (by omega))⟩
  · obtain ⟨g1, g2, g3⟩ := h2.1 h
    obtain ⟨k1, k2, k3⟩ := h4.1 h'
    exact h5.2 ⟨by omega, by omega, fun i j hi hj =>
      L.trans _ _ _ (g3 i j hi hj) (k3 i j (by omega) (by omega))⟩

/-- The laws hold of the rationals, and a row-array and a diagonal matrix are found equal. -/
example : EqLaws ℚ (fun _ => True) ∧
    (Mat.arr { data := ⟨fun i j => if i = j then (3 : ℚ) else 0⟩ } : Mat ℚ 2 2).equals
      (.dia ⟨⟨fun _ => 3⟩⟩ : Mat ℚ 2 2) = .ok true := by
  refine ⟨⟨fun x _ => by simp, fun x y h => ?_, fun x y z h h' => ?_⟩, by decide +kernel⟩
  · simp only [Exact.eq_eq, decide_eq_true_eq] at h ⊢; exact h.symm
  · simp only [Exact.eq_eq, decide_eq_true_eq] at h h' ⊢; exact h.trans h'

end Linear
