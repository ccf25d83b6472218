import Verif.Lemmas.MatLemmas
import Verif.Lemmas.ExactSums

/-!
# C09-C12, C48, C50, C51: arithmetic on whole matrices

`m.dense`: row-array or block storage. `m.own`: one of the three storages of the library. Argument
matrices may be of any storage, foreign ones included.
-/

set_option linter.unusedSectionVars false

namespace Linear

open Spec

variable {α : Type} [Flt α] {r c : Nat}

/-- Entries seen through the interface. -/
theorem Mat.ent_of {m : Mat α r c} {A : Nat → Nat → α} (h : Shows m.at r c A) {i j : Nat}
    (hi : i < r) (hj : j < c) : m.ent i j = A i j := m.at_shows.unique h hi hj

theorem Blk.entB_of {m : Blk α r c} {A : Nat → Nat → α} (h : Shows (Mat.blk m).at r c A) {i j : Nat}
    (hi : i < r) (hj : j < c) : entB m.blocks i j = A i j := m.shows_entB.unique h hi hj

theorem Arr.data_of {m : Arr α r c} {A : Nat → Nat → α} (h : Shows (Mat.arr m).at r c A) {i j : Nat}
    (hi : i < r) (hj : j < c) : m.data.f i j = A i j := m.at_shows.unique h hi hj

/-! ## C09 Entrywise arithmetic -/

/-- C09, `Add`. -/
theorem C09_add {a : Mat α r c} (ha : a.dense) (hr : 0 < r) (hc : 0 < c) {b : Mat α r c}
    {A B : Nat → Nat → α} (hA : Shows a.at r c A) (hB : Shows b.at r c B) :
    ∃ m, a.add b = .ok m ∧ m.dense ∧ Shows m.at r c fun i j => Flt.add (A i j) (B i j) := by
  revert ha hA
  cases a with
  | arr a =>
    intro _ hA
    obtain ⟨m, e, h⟩ := a.add_ok b hr
    exact ⟨.arr m, by rw [Mat.add, e]; rfl, trivial, h.congr fun i j hi hj => by
      rw [Arr.data_of hA hi hj, Mat.ent_of hB hi hj]⟩
  | blk a =>
    intro _ hA
    obtain ⟨m, e, h⟩ := a.add_ok b hr hc
    exact ⟨.blk m, by rw [Mat.add, e]; rfl, trivial, h.congr fun i j hi hj => by
      rw [Blk.entB_of hA hi hj, Mat.ent_of hB hi hj]⟩
  | dia a => exact fun h => h.elim
  | ext a => exact fun h => h.elim

/-- C09, `Subtract`. -/
theorem C09_subtract {a : Mat α r c} (ha : a.dense) (hr : 0 < r) (hc : 0 < c) {b : Mat α r c}
    {A B : Nat → Nat → α} (hA : Shows a.at r c A) (hB : Shows b.at r c B) :
    ∃ m, a.subtract b = .ok m ∧ m.dense ∧ Shows m.at r c fun i j => Flt.sub (A i j) (B i j) := by
  revert ha hA
  cases a with
  | arr a =>
    intro _ hA
    obtain ⟨m, e, h⟩ := a.subtract_ok b hr
    exact ⟨.arr m, by rw [Mat.subtract, e]; rfl, trivial, h.congr fun i j hi hj => by
      rw [Arr.data_of hA hi hj, Mat.ent_of hB hi hj]⟩
  | blk a =>
    intro _ hA
    obtain ⟨m, e, h⟩ := a.subtract_ok b hr hc
    exact ⟨.blk m, by rw [Mat.subtract, e]; rfl, trivial, h.congr fun i j hi hj => by
      rw [Blk.entB_of hA hi hj, Mat.ent_of hB hi hj]⟩
  | dia a => exact fun h => h.elim
  | ext a => exact fun h => h.elim

/-- C09, `ScalarAdd`. -/
theorem C09_scalarAdd {a : Mat α r c} (ha : a.dense) (hr : 0 < r) (hc : 0 < c) (d : α)
    {A : Nat → Nat → α} (hA : Shows a.at r c A) :
    ∃ m, a.scalarAdd d = .ok m ∧ m.dense ∧ Shows m.at r c fun i j => Flt.add (A i j) d := by
  revert ha hA
  cases a with
  | arr a =>
    intro _ hA
    obtain ⟨m, e, h⟩ := a.scalarAdd_ok d hr
    exact ⟨.arr m, by rw [Mat.scalarAdd, e]; rfl, trivial, h.congr fun i j hi hj => by
      rw [Arr.data_of hA hi hj]⟩
  | blk a =>
    intro _ hA
    obtain ⟨m, e, h⟩ := a.scalarAdd_ok d hr hc
    exact ⟨.blk m, by rw [Mat.scalarAdd, e]; rfl, trivial, h.congr fun i j hi hj => by
      rw [Blk.entB_of hA hi hj]⟩
  | dia a => exact fun h => h.elim
  | ext a => exact fun h => h.elim

/-- C09, `ScalarMultiply`. -/
theorem C09_scalarMultiply {a : Mat α r c} (ha : a.dense) (hr : 0 < r) (hc : 0 < c) (d : α)
    {A : Nat → Nat → α} (hA : Shows a.at r c A) :
    ∃ m, a.scalarMultiply d = .ok m ∧ m.dense ∧ Shows m.at r c fun i j => Flt.mul (A i j) d := by
  revert ha hA
  cases a with
  | arr a =>
    intro _ hA
    obtain ⟨m, e, h⟩ := a.scalarMultiply_ok d hr
    exact ⟨.arr m, by rw [Mat.scalarMultiply, e]; rfl, trivial, h.congr fun i j hi hj => by
      rw [Arr.data_of hA hi hj]⟩
  | blk a =>
    intro _ hA
    obtain ⟨m, e, h⟩ := a.scalarMultiply_ok d hr hc
    exact ⟨.blk m, by rw [Mat.scalarMultiply, e]; rfl, trivial, h.congr fun i j hi hj => by
      rw [Blk.entB_of hA hi hj]⟩
  | dia a => exact fun h => h.elim
  | ext a => exact fun h => h.elim

/-- C09: operands of different dimensions are refused with the dimension error (any receiver of the
library, any argument). -/
theorem C09_refused {p q : Nat} {a : Mat α r c} (ha : a.own) (hr : 0 < r) (b : Mat α p q)
    (h : ¬ (r = p ∧ c = q)) :
    a.add b = .error (.pan .matDim) ∧ a.subtract b = .error (.pan .matDim) := by
  revert ha
  cases a with
  | arr a => exact fun _ => ⟨by rw [Mat.add, a.add_err b hr h]; rfl,
      by rw [Mat.subtract, a.subtract_err b hr h]; rfl⟩
  | blk a => exact fun _ => ⟨by rw [Mat.add, a.add_err b h]; rfl,
      by rw [Mat.subtract, a.subtract_err b h]; rfl⟩
  | dia a => exact fun _ => ⟨by rw [Mat.add, a.add_err b h]; rfl,
      by rw [Mat.subtract, a.subtract_err b h]; rfl⟩
  | ext a => exact fun h => h.elim

/-- Concrete case: a block matrix plus a foreign one. -/
example : ∃ m, (Mat.blk ⟨Jag.zero _ _⟩ : Mat ℚ 2 3).add (.ext ⟨fun i j => (i + 10 * j : ℚ)⟩ : Mat ℚ 2 3) = .ok m ∧
    m.at 1 2 = .ok 21 := by
  obtain ⟨m, h1, -, h2⟩ := C09_add (a := (Mat.blk ⟨Jag.zero _ _⟩ : Mat ℚ 2 3)) trivial (by decide)
    (by decide) (Mat.at_shows _) (Mat.at_shows (.ext ⟨fun i j => (i + 10 * j : ℚ)⟩))
  exact ⟨m, h1, (h2.ok (i := 1) (j := 2) (by decide) (by decide)).trans (by decide +kernel)⟩

/-! ## C10 Matrix product -/

/-- C10: row-array times anything is the left-to-right sum of products, bit for bit. -/
theorem C10_bits (a : Arr α r c) {b : Mat α c q} (hr : 0 < r) (hc : 0 < c) {A B : Nat → Nat → α}
    (hA : Shows a.at r c A) (hB : Shows b.at c q B) :
    ∃ m : Arr α r q, (Mat.arr a).multiply b = .ok ⟨r, q, .arr m⟩ ∧ Shows m.at r q fun i j =>
      lsum 0 c (fun k => Flt.mul (A i k) (B k j)) Flt.zero := by
  obtain ⟨m, e, h⟩ := a.multiply_ok b hr hc
  refine ⟨m, by rw [Mat.multiply, e]; rfl, h.congr fun i j hi hj => ?_⟩
  exact lsum_congr fun k _ hk => by
    dsimp only
    rw [a.at_shows.unique hA hi hk, Mat.ent_of hB hk hj]

/-- C10: in exact arithmetic the product of any two matrices of compatible dimensions has the
entries of the matrix product, whatever the storages. -/
theorem C10_product {K : Type} [Field K] [LinearOrder K] [Flt K] [Exact K] {r c q : Nat}
    {a : Mat K r c} (ha : a.own) (hr : 0 < r) (hc : 0 < c) (hq : 0 < q) {b : Mat K c q}
    {A B : Nat → Nat → K} (hA : Shows a.at r c A) (hB : Shows b.at c q B) :
    ∃ m : Mat K r q, a.multiply b = .ok ⟨r, q, m⟩ ∧ m.own ∧ Shows m.at r q fun i j =>
      ∑ k ∈ Finset.range c, A i k * B k j := by
  revert ha hA
  cases a with
  | arr a =>
    intro _ hA
    obtain ⟨m, e, h⟩ := C10_bits a hr hc hA hB
    refine ⟨.arr m, e, trivial, h.congr fun i j hi hj => ?_⟩
    rw [lsum_exact0]
    simp
  | blk a =>
    intro _ hA
    by_cases hb : ∃ m, b = .blk m
    · obtain ⟨b, rfl⟩ := hb
      obtain ⟨m, e, h⟩ := a.multiply_blk b hr hq
      refine ⟨.blk m, by rw [Mat.multiply, e]; rfl, Mat.own_blk _, h.congr fun i j hi hj => ?_⟩
      rw [bdot_exact]
      refine Finset.sum_congr rfl fun k hk => ?_
      rw [Finset.mem_range] at hk
      rw [Blk.entB_of hA hi hk, Blk.entB_of hB hk hj]
    · obtain ⟨m, e, h⟩ := a.multiply_gen b (fun m hm => hb ⟨m, hm⟩) hr hq
      refine ⟨.blk m, by rw [Mat.multiply, e]; rfl, Mat.own_blk _, h.congr fun i j hi hj => ?_⟩
      rw [gdot_exact]
      refine Finset.sum_congr rfl fun k hk => ?_
      rw [Finset.mem_range] at hk
      rw [Blk.entB_of hA hi hk, Mat.ent_of hB hk hj]
  | dia a =>
    intro _ hA
    have hD : ∀ i j, i < r → j < q → ∑ k ∈ Finset.range r, A i k * B k j = a.data.f i * B i j := by
      intro i j hi hj
      rw [Finset.sum_eq_single i]
      · rw [← (Dia.shows a).unique hA hi hi]
        simp [diag]
      · intro k hk hki
        rw [Finset.mem_range] at hk
        rw [← (Dia.shows a).unique hA hi hk]
        simp [diag, Ne.symm hki]
      · intro h; simp at h; omega
    have gen : ∀ b : Mat K r q, b.nonDia → Shows b.at r q B → ∃ m : Mat K r q,
        (Mat.dia a).multiply b = .ok ⟨r, q, m⟩ ∧ m.own ∧ Shows m.at r q fun i j =>
          ∑ k ∈ Finset.range r, A i k * B k j := by
      intro b hb hB
      obtain ⟨m, e, h⟩ := a.mulGen_ok b hr hq
      refine ⟨.arr m, ?_, trivial, h.congr fun i j hi hj => ?_⟩
      · unfold Mat.multiply Dia.multiply
        dsimp only
        rw [checkMul_ok, must_ok, ok_bind]
        cases b with
        | dia b => exact hb.elim
        | arr b => show Except.map _ (a.mulGen _) = _; rw [e]; rfl
        | blk b => show Except.map _ (a.mulGen _) = _; rw [e]; rfl
        | ext b => show Except.map _ (a.mulGen _) = _; rw [e]; rfl
      · rw [hD i j hi hj, Mat.ent_of hB hi hj]
        simp
    cases b with
    | arr b => exact gen _ trivial hB
    | blk b => exact gen _ trivial hB
    | ext b => exact gen _ trivial hB
    | dia b =>
      obtain ⟨m, e, h⟩ := a.mulDia_ok b
      refine ⟨.dia m, ?_, trivial, h.congr fun i j hi hj => ?_⟩
      · unfold Mat.multiply Dia.multiply
        dsimp only
        rw [checkMul_ok, must_ok, ok_bind]
        show Except.map _ (a.mulDia b) = _
        rw [e]; rfl
      · rw [hD i j hi hj, ← (Dia.shows b).unique hB hi hj]
        unfold diag
        split <;> simp
  | ext a => exact fun h => h.elim

/-- C10: operands whose inner dimensions differ are refused. -/
theorem C10_refused {p q : Nat} {a : Mat α r c} (ha : a.own) (hr : 0 < r) (b : Mat α p q)
    (h : c ≠ p) : a.multiply b = .error (.pan .dim) := by
  revert ha
  cases a with
  | arr a => exact fun _ => by rw [Mat.multiply, a.multiply_err b hr h]; rfl
  | blk a => exact fun _ => by rw [Mat.multiply, a.multiply_err b h]; rfl
  | dia a =>
    intro _
    unfold Mat.multiply Dia.multiply
    dsimp only
    rw [checkMul_err h, must_err]
    rfl
  | ext a => exact fun h => h.elim

/-- Concrete case: block storage times diagonal storage over the rationals. -/
example : ∃ m : Mat ℚ 2 2, (Mat.blk ⟨⟨fun _ k => (k + 1 : ℚ)⟩⟩ : Mat ℚ 2 2).multiply
      (.dia ⟨⟨fun i => (i + 5 : ℚ)⟩⟩ : Mat ℚ 2 2) = .ok ⟨2, 2, m⟩ ∧ m.at 1 1 = .ok 24 := by
  obtain ⟨m, h1, -, h2⟩ := C10_product (a := (Mat.blk ⟨⟨fun _ k => (k + 1 : ℚ)⟩⟩ : Mat ℚ 2 2))
    (b := .dia ⟨⟨fun i => (i + 5 : ℚ)⟩⟩) (Mat.own_blk _) (by decide) (by decide) (by decide)
    (Mat.at_shows _) (Mat.at_shows _)
  exact ⟨m, h1, (h2.ok (i := 1) (j := 1) (by decide) (by decide)).trans (by decide +kernel)⟩

/-! ## C11 Matrix-vector products -/

section
variable {K : Type} [Field K] [LinearOrder K] [Flt K] [Exact K]

/-- C11, `Operate`, every storage of the library, exact arithmetic. -/
theorem C11_operate {a : Mat K r c} (ha : a.own) (hr : 0 < r) {A : Nat → Nat → K}
    (hA : Shows a.at r c A) {v : List K} {f : Nat → K} (hv : IsList v c f) :
    ∃ l, a.operate v = .ok l ∧ IsList l r fun i => ∑ j ∈ Finset.range c, A i j * f j := by
  revert ha hA
  cases a with
  | arr a =>
    intro _ hA
    obtain ⟨l, e, h⟩ := a.operate_ok hr hv
    refine ⟨l, e, h.congr fun i hi => ?_⟩
    rw [ldot_exact]
    exact Finset.sum_congr rfl fun k hk => by rw [Arr.data_of hA hi (Finset.mem_range.1 hk)]
  | blk a =>
    intro _ hA
    obtain ⟨l, e, h⟩ := a.operate_ok hv
    refine ⟨l, e, h.congr fun i hi => ?_⟩
    rw [bdot_exact]
    exact Finset.sum_congr rfl fun k hk => by rw [Blk.entB_of hA hi (Finset.mem_range.1 hk)]
  | dia a =>
    intro _ hA
    obtain ⟨l, e, h⟩ := a.operate_ok hv
    refine ⟨l, e, h.congr fun i hi => ?_⟩
    rw [Finset.sum_eq_single i]
    · rw [← (Dia.shows a).unique hA hi hi]; simp [diag]
    · intro k hk hki
      rw [← (Dia.shows a).unique hA hi (Finset.mem_range.1 hk)]; simp [diag, Ne.symm hki]
    · intro h; simp at h; omega
  | ext a => exact fun h => h.elim

/-- C11, `PreMultiply`, every storage of the library, exact arithmetic. -/
theorem C11_preMultiply {a : Mat K r c} (ha : a.own) (hr : 0 < r) {A : Nat → Nat → K}
    (hA : Shows a.at r c A) {v : List K} {f : Nat → K} (hv : IsList v r f) :
    ∃ l, a.preMultiply v = .ok l ∧ IsList l c fun j => ∑ i ∈ Finset.range r, f i * A i j := by
  revert ha hA
  cases a with
  | arr a =>
    intro _ hA
    obtain ⟨l, e, h⟩ := a.preMultiply_ok hr hv
    refine ⟨l, e, h.congr fun i hi => ?_⟩
    rw [ldot_exact]
    exact Finset.sum_congr rfl fun k hk => by
      rw [Arr.data_of hA (Finset.mem_range.1 hk) hi, mul_comm]
  | blk a =>
    intro _ hA
    obtain ⟨l, e, h⟩ := a.preMultiply_ok hv
    refine ⟨l, e, h.congr fun i hi => ?_⟩
    rw [bdot_exact]
    exact Finset.sum_congr rfl fun k hk => by
      rw [Blk.entB_of hA (Finset.mem_range.1 hk) hi, mul_comm]
  | dia a =>
    intro _ hA
    obtain ⟨l, e, h⟩ := a.operate_ok hv
    refine ⟨l, e, h.congr fun i hi => ?_⟩
    rw [Finset.sum_eq_single i]
    · rw [← (Dia.shows a).unique hA hi hi]; simp [diag, mul_comm]
    · intro k hk hki
      rw [← (Dia.shows a).unique hA (Finset.mem_range.1 hk) hi]; simp [diag, hki]
    · intro h; simp at h; omega
  | ext a => exact fun h => h.elim
end

/-- C11: slices of the wrong length are refused, every storage. -/
theorem C11_refused {a : Mat α r c} (ha : a.own) (hr : 0 < r) (v : List α) :
    (v.length ≠ c → a.operate v = .error (.pan .dim)) ∧
    (v.length ≠ r → a.preMultiply v = .error (.pan .dim)) := by
  revert ha
  cases a with
  | arr a => exact fun _ => ⟨a.operate_err hr, a.preMultiply_err hr⟩
  | blk a => exact fun _ => ⟨a.operate_err, a.preMultiply_err⟩
  | dia a => exact fun _ => ⟨a.operate_err, a.operate_err⟩
  | ext a => exact fun h => h.elim

/-! ## C48 Vectors of any implementation -/

/-- C48: an `ArrayRealVector` argument is the same as its slice, every storage of the library. -/
theorem C48_array {a : Mat α r c} (ha : a.own) (v : List α) :
    a.operateVector (.arr v) = a.operate v ∧ a.preMultiplyVector (.arr v) = a.preMultiply v := by
  revert ha
  cases a with
  | arr a => exact fun _ => ⟨rfl, rfl⟩
  | blk a => exact fun _ => ⟨rfl, rfl⟩
  | dia a => exact fun _ => ⟨rfl, rfl⟩
  | ext a => exact fun h => h.elim

/-- C48, what holds: on diagonal storage a foreign vector gives the product (exact arithmetic). -/
theorem C48_diagonal_partial {K : Type} [Field K] [LinearOrder K] [Flt K] [Exact K] {n : Nat}
    (a : Dia K n) {A : Nat → Nat → K} (hA : Shows a.at n n A) {v : List K} {f : Nat → K}
    (hv : IsList v n f) :
    (∃ l, a.operateVector (.ext v) = .ok l ∧
      IsList l n fun i => ∑ j ∈ Finset.range n, A i j * f j) ∧
    ∃ l, a.preMultiplyVector (.ext v) = .ok l ∧
      IsList l n fun j => ∑ i ∈ Finset.range n, f i * A i j := by
  constructor
  · obtain ⟨l, e, h⟩ := a.operateVector_ext hv
    refine ⟨l, e, h.congr fun i hi => ?_⟩
    rw [ldot_exact]
    exact Finset.sum_congr rfl fun k hk => by
      rw [(Dia.shows a).unique hA hi (Finset.mem_range.1 hk)]
  · by_cases hn : 0 < n
    · exact C11_preMultiply (a := .dia a) trivial hn hA hv
    · obtain ⟨l, e, h⟩ := a.operate_ok hv
      exact ⟨l, e, h.congr fun i hi => by omega⟩

/-- C48 is false for the dense storages: for every dense matrix and every foreign vector, of the
right length or not, both methods end in a nil dereference. -/
theorem C48_false {a : Mat α r c} (ha : a.dense) (v : List α) :
    a.operateVector (.ext v) = .error .rt ∧ a.preMultiplyVector (.ext v) = .error .rt := by
  revert ha
  cases a with
  | arr a =>
    refine fun _ => ⟨?_, ?_⟩
    · unfold Mat.operateVector Arr.operateVector Arr.colDim
      dsimp only
      split <;> rfl
    · unfold Mat.preMultiplyVector Arr.preMultiplyVector Arr.colDim
      dsimp only
      split <;> rfl
  | blk a => exact fun _ => ⟨rfl, rfl⟩
  | dia a => exact fun h => h.elim
  | ext a => exact fun h => h.elim

/-! ## C12 Transpose -/

/-- C12, dense storages, any arithmetic. -/
theorem C12_transpose {a : Mat α r c} (ha : a.dense) (hr : 0 < r) {A : Nat → Nat → α}
    (hA : Shows a.at r c A) :
    ∃ m : Mat α c r, a.transpose = .ok m ∧ m.dense ∧ Shows m.at c r fun i j => A j i := by
  revert ha hA
  cases a with
  | arr a =>
    intro _ hA
    obtain ⟨m, e, h⟩ := a.transpose_ok hr
    exact ⟨.arr m, by rw [Mat.transpose, e]; rfl, trivial, h.congr fun i j hi hj =>
      Arr.data_of hA hj hi⟩
  | blk a =>
    intro _ hA
    obtain ⟨m, e, h⟩ := a.transpose_ok
    exact ⟨.blk m, by rw [Mat.transpose, e]; rfl, trivial, h.congr fun i j hi hj =>
      Blk.entB_of hA hj hi⟩
  | dia a => exact fun h => h.elim
  | ext a => exact fun h => h.elim

/-- C12, diagonal storage; `ZeroLaws` (`0+0=0`, `0-0=0`, `0*0=0`, `equals(0,0)`) holds for IEEE
arithmetic as well as for exact arithmetic. -/
theorem C12_transpose_dia [ZeroLaws α] {n : Nat} (a : Dia α n) {A : Nat → Nat → α}
    (hA : Shows a.at n n A) :
    ∃ m : Dia α n, (Mat.dia a).transpose = .ok (.dia m) ∧ Shows m.at n n fun i j => A j i := by
  obtain ⟨m, e, h⟩ := a.transpose_ok
  refine ⟨m, by rw [Mat.transpose, e]; rfl, h.congr fun i j hi hj => ?_⟩
  rw [← (Dia.shows a).unique hA hj hi]
  unfold diag
  by_cases hij : i = j
  · simp [hij]
  · simp [hij, Ne.symm hij]

/-- C12: transposing twice restores the contents. -/
theorem C12_twice {a : Mat α r c} (ha : a.dense) (hr : 0 < r) (hc : 0 < c) :
    ∃ (t : Mat α c r) (m : Mat α r c), a.transpose = .ok t ∧ t.transpose = .ok m ∧
      ∀ i j, m.at i j = a.at i j := by
  obtain ⟨t, h1, h2, h3⟩ := C12_transpose ha hr a.at_shows
  obtain ⟨m, h4, -, h5⟩ := C12_transpose h2 hc h3
  exact ⟨t, m, h1, h4, fun i j => (h5 i j).trans (a.at_shows i j).symm⟩

/-- Concrete case for C11, C12: a 2 × 3 row-array matrix times (1, 0, 2). -/
example : ∃ l, (Mat.arr { data := ⟨fun i j => (i + 10 * j : ℚ)⟩ } : Mat ℚ 2 3).operate [1, 0, 2] =
    .ok l ∧ l[1]? = some 43 := by
  have hv : IsList ([1, 0, 2] : List ℚ) 3 fun j => if j = 0 then 1 else if j = 1 then 0 else 2 :=
    ⟨rfl, fun i hi => by
      rcases (by omega : i = 0 ∨ i = 1 ∨ i = 2) with rfl | rfl | rfl <;> rfl⟩
  obtain ⟨l, h1, h2⟩ := C11_operate
    (a := (Mat.arr { data := ⟨fun i j => (i + 10 * j : ℚ)⟩ } : Mat ℚ 2 3)) trivial (by decide)
    (Mat.at_shows _) hv
  exact ⟨l, h1, (h2.2 1 (by decide)).trans (by decide +kernel)⟩

/-! ## C50 Diagonal inverse -/

/-- C50: refused exactly when some diagonal entry is within the threshold of zero; otherwise the
result has the reciprocals on the diagonal and is a two-sided inverse (exact arithmetic). -/
theorem C50_inverse {K : Type} [Field K] [LinearOrder K] [IsStrictOrderedRing K] [Flt K] [Exact K]
    {n : Nat} (a : Dia K n) {A : Nat → Nat → K} (hA : Shows a.at n n A) {th : K} (hth : 0 ≤ th) :
    ((∃ i, i < n ∧ |A i i| ≤ th) → a.inverse th = .error (.pan .sing)) ∧
    ((∀ i, i < n → th < |A i i|) → ∃ (m : Dia K n) (B : Nat → Nat → K), a.inverse th = .ok m ∧
      Shows m.at n n B ∧ ∀ i j, i < n → j < n →
        ∑ k ∈ Finset.range n, A i k * B k j = (if i = j then 1 else 0) ∧
        ∑ k ∈ Finset.range n, B i k * A k j = if i = j then 1 else 0) := by
  have hd : ∀ i, i < n → a.data.f i = A i i := fun i hi => by
    rw [← (Dia.shows a).unique hA hi hi]; simp [diag]
  have heq : ∀ i, i < n → (equalsWithError (a.data.f i) Flt.zero th = true ↔ |A i i| ≤ th) := by
    intro i hi
    rw [hd i hi]
    unfold equalsWithError
    simp only [Exact.zero_eq, Exact.ulpEq_eq, Exact.sub_eq, Exact.abs_eq, Exact.le_eq,
      Bool.or_eq_true, decide_eq_true_eq, zero_sub, abs_neg]
    constructor
    · rintro (h | h)
      · rw [h]; simpa using hth
      · exact h
    · exact Or.inr
  constructor
  · rintro ⟨i, hi, h⟩
    exact a.inverse_sing hi ((heq i hi).2 h)
  · intro h
    obtain ⟨m, e, hm⟩ := a.inverse_ok (th := th) fun i hi h' => absurd ((heq i hi).1 h') (by
      rw [not_le]; exact h i hi)
    refine ⟨m, _, e, hm, fun i j hi hj => ?_⟩
    have hne : A i i ≠ 0 := fun h0 => by
      have := h i hi
      rw [h0, abs_zero] at this
      exact absurd this (not_lt.2 hth)
    have hoff : ∀ k l, k < n → l < n → k ≠ l → A k l = 0 := fun k l hk hl hkl => by
      rw [← (Dia.shows a).unique hA hk hl]; simp [diag, hkl]
    constructor
    · rw [Finset.sum_eq_single i]
      · unfold diag
        split
        · rename_i hij; subst hij
          simp [hd i hi, hne]
        · simp
      · intro k hk hki
        rw [hoff i k hi (Finset.mem_range.1 hk) (Ne.symm hki), zero_mul]
      · intro h; simp at h; omega
    · rw [Finset.sum_eq_single i]
      · by_cases hij : i = j
        · subst hij
          simp [diag, hd i hi, hne]
        · rw [hoff i j hi hj hij]
          simp [hij]
      · intro k hk hki
        simp [diag, Ne.symm hki]
      · intro h; simp at h; omega

/-- Concrete cases: diag(2, 3) is invertible at threshold 1, diag(2, 1) is refused. -/
example : (∃ m, (⟨⟨fun i => (i + 2 : ℚ)⟩⟩ : Dia ℚ 2).inverse 1 = .ok m ∧ m.at 1 1 = .ok (1 / 3)) ∧
    (⟨⟨fun i => (2 - i : ℚ)⟩⟩ : Dia ℚ 2).inverse 1 = .error (.pan .sing) := by
  constructor
  · obtain ⟨m', e', h⟩ := (⟨⟨fun i => (i + 2 : ℚ)⟩⟩ : Dia ℚ 2).inverse_ok (th := 1) fun i hi => by
      rcases (by omega : i = 0 ∨ i = 1) with rfl | rfl <;> decide +kernel
    exact ⟨m', e', (h.ok (i := 1) (j := 1) (by decide) (by decide)).trans (by decide +kernel)⟩
  · exact (C50_inverse _ (Dia.at_shows _) (by norm_num)).1 ⟨1, by decide, by norm_num⟩

/-! ## C51 Trace -/

/-- C51, `Trace`: the left-to-right sum of the diagonal, every storage; non-square refused. -/
theorem C51_trace {n : Nat} {a : Mat α n n} (ha : a.own) (hn : 0 < n) {A : Nat → Nat → α}
    (hA : Shows a.at n n A) : a.trace = .ok (lsum 0 n (fun i => A i i) Flt.zero) := by
  revert ha hA
  generalize hc : n = c at a
  cases a with
  | arr a =>
    subst hc
    intro _ hA
    rw [Mat.trace, a.trace_ok hn, lsum_congr fun i _ hi => Arr.data_of hA hi hi]
  | blk a =>
    subst hc
    intro _ hA
    rw [Mat.trace, a.trace_ok, lsum_congr fun i _ hi => Blk.entB_of hA hi hi]
  | dia a =>
    intro _ hA
    rw [Mat.trace, a.trace_ok, lsum_congr fun i _ hi => ?_]
    rw [← (Dia.shows a).unique hA hi hi]
    simp [diag]
  | ext a => exact fun h => h.elim

theorem C51_trace_refused {a : Mat α r c} (ha : a.own) (hr : 0 < r) (h : r ≠ c) :
    a.trace = .error (.pan .sqMat) := by
  revert ha
  cases a with
  | arr a => exact fun _ => a.trace_err hr h
  | blk a => exact fun _ => a.trace_err h
  | dia a => exact absurd rfl h
  | ext a => exact fun h => h.elim

end Linear
