import Verif.Lemmas.MoreOps

/-!
# Operations of the diagonal storage, entry by entry
-/

set_option linter.unusedSectionVars false
set_option linter.unusedSimpArgs false

namespace Linear

open Spec

variable {α : Type} [Flt α] {n : Nat}

/-- Facts about the number zero that hold for IEEE binary64 (round to nearest) as well as for exact
arithmetic: `0+0`, `0-0` and `0*0` are `0`, and `0` equals itself. -/
class ZeroLaws (α : Type) [Flt α] : Prop where
  add_zz : Flt.add (Flt.zero : α) Flt.zero = Flt.zero
  sub_zz : Flt.sub (Flt.zero : α) Flt.zero = Flt.zero
  mul_zz : Flt.mul (Flt.zero : α) Flt.zero = Flt.zero
  ulp_zz : Flt.ulpEq (Flt.zero : α) Flt.zero = true

instance {K : Type} [Field K] [LinearOrder K] [Flt K] [Exact K] : ZeroLaws K where
  add_zz := by simp
  sub_zz := by simp
  mul_zz := by simp
  ulp_zz := by simp

/-- Entries of a diagonal matrix with diagonal `D`. -/
def Spec.diag (D : Nat → α) (i j : Nat) : α := if i = j then D i else Flt.zero

theorem Dia.shows (m : Dia α n) : Shows m.at n n (diag m.data.f) := m.at_shows

theorem Dia.shows_of {D : Nat → α} (m : Dia α n) (h : ∀ i, i < n → m.data.f i = D i) :
    Shows m.at n n (diag D) :=
  m.at_shows.congr fun i j hi _ => by
    unfold diag
    rw [h i hi]

/-! ## Single entries -/

theorem Dia.setEntry_diag (m : Dia α n) {i : Int} {v : α} (h : 0 ≤ i ∧ i < n) :
    m.setEntry i i v = .ok ⟨⟨upd1 m.data.f i.toNat v⟩⟩ := by
  unfold Dia.setEntry
  simp only [if_true, checkRowIndex_ok h, must_ok, res_at_ok, ok_bind,
    Row.set_ok (show i.toNat < n by omega)]
  rfl

theorem Dia.setEntry_range (m : Dia α n) {i : Int} {v : α} (h : ¬ (0 ≤ i ∧ i < n)) :
    m.setEntry i i v = .error (.pan .range, m) := by
  unfold Dia.setEntry
  simp only [if_true, checkRowIndex_err h, must_err, res_at_error, error_bind]

theorem Dia.setEntry_off (m : Dia α n) {i j : Int} {v : α} (h : i ≠ j)
    (hv : Flt.ulpEq Flt.zero v = true) : m.setEntry i j v = .ok m := by
  unfold Dia.setEntry ensureZero
  simp only [h, if_false, hv, not_true_eq_false, must_ok, res_at_ok, ok_bind]
  rfl

theorem Dia.setEntry_big (m : Dia α n) {i j : Int} {v : α} (h : i ≠ j)
    (hv : ¬ Flt.ulpEq Flt.zero v = true) : m.setEntry i j v = .error (.pan .big, m) := by
  unfold Dia.setEntry ensureZero
  rw [if_neg h, if_pos hv]
  rfl

theorem Dia.addToEntry_diag (m : Dia α n) {i : Int} {v : α} (h : 0 ≤ i ∧ i < n) :
    m.addToEntry i i v = .ok ⟨⟨upd1 m.data.f i.toNat (Flt.add (m.data.f i.toNat) v)⟩⟩ := by
  unfold Dia.addToEntry
  simp only [if_true, checkRowIndex_ok h, must_ok, res_at_ok, ok_bind,
    Row.get_ok (show i.toNat < n by omega), Row.set_ok (show i.toNat < n by omega)]
  rfl

theorem Dia.addToEntry_range (m : Dia α n) {i : Int} {v : α} (h : ¬ (0 ≤ i ∧ i < n)) :
    m.addToEntry i i v = .error (.pan .range, m) := by
  unfold Dia.addToEntry
  simp only [if_true, checkRowIndex_err h, must_err, res_at_error, error_bind]

theorem Dia.addToEntry_off (m : Dia α n) {i j : Int} {v : α} (h : i ≠ j)
    (hv : Flt.ulpEq Flt.zero v = true) : m.addToEntry i j v = .ok m := by
  unfold Dia.addToEntry ensureZero
  simp only [h, if_false, hv, not_true_eq_false, must_ok, res_at_ok, ok_bind]
  rfl

theorem Dia.addToEntry_big (m : Dia α n) {i j : Int} {v : α} (h : i ≠ j)
    (hv : ¬ Flt.ulpEq Flt.zero v = true) : m.addToEntry i j v = .error (.pan .big, m) := by
  unfold Dia.addToEntry ensureZero
  rw [if_neg h, if_pos hv]
  rfl

theorem Dia.multiplyEntry_diag (m : Dia α n) {i : Int} {v : α} (h : 0 ≤ i ∧ i < n) :
    m.multiplyEntry i i v = .ok ⟨⟨upd1 m.data.f i.toNat (Flt.mul (m.data.f i.toNat) v)⟩⟩ := by
  unfold Dia.multiplyEntry
  simp only [if_true, checkRowIndex_ok h, must_ok, res_at_ok, ok_bind,
    Row.get_ok (show i.toNat < n by omega), Row.set_ok (show i.toNat < n by omega)]
  rfl

theorem Dia.multiplyEntry_range (m : Dia α n) {i : Int} {v : α} (h : ¬ (0 ≤ i ∧ i < n)) :
    m.multiplyEntry i i v = .error (.pan .range, m) := by
  unfold Dia.multiplyEntry
  simp only [if_true, checkRowIndex_err h, must_err, res_at_error, error_bind]

theorem Dia.multiplyEntry_off (m : Dia α n) {i j : Int} {v : α} (h : i ≠ j) :
    m.multiplyEntry i j v = .ok m := by
  unfold Dia.multiplyEntry
  simp only [h, if_false]
  rfl

/-! ## Filling a fresh diagonal matrix -/

/-- The double loop succeeds when every off-diagonal value passes the zero test, and then holds the
diagonal values. -/
theorem Dia.fill_ok {cell : Nat → Nat → Res α} {g : Nat → Nat → α}
    (h : ∀ i j, i < n → j < n → cell i j = .ok (g i j))
    (hz : ∀ i j, i < n → j < n → i ≠ j → Flt.ulpEq Flt.zero (g i j) = true) :
    ∃ m : Dia α n, Dia.fill cell = .ok m ∧ Shows m.at n n (diag fun i => g i i) := by
  have key : ∃ m : Dia α n, Dia.fill cell = .ok m ∧ ∀ i, i < n → m.data.f i = g i i := by
    refine Wp.exists_ok ?_
    unfold Dia.fill
    refine (wr_loop' (fun (m : Dia α n) x _ => m.data.f x) (fun x _ => g x x)
      (fun i x _ => x = i) (Nat.zero_le _) ?_).imp ?_
    · intro i m _ hi _
      refine (wr_loop' (fun (m : Dia α n) x _ => m.data.f x) (fun x _ => g x x)
        (fun j x _ => x = i ∧ j = i) (Nat.zero_le _) ?_).imp ?_
      · intro j m _ hj _
        rw [h i j hi hj, ok_bind]
        by_cases hij : i = j
        · subst hij
          rw [Dia.setEntry_diag _ (by omega)]
          refine (Wr.upd1 (g := fun x _ => g x x) (i := (i : Int).toNat) fun _ => ?_).congr
            fun x y => ?_
          · simp
          · simp
        · rw [Dia.setEntry_off _ (by omega) (hz i j hi hj hij)]
          exact Wr.rfl'.congr fun x y => by constructor <;> [exact False.elim; omega]
      · intro m w
        refine w.congr fun x y => ?_
        constructor
        · rintro ⟨j, -, -, rfl, -⟩; rfl
        · rintro rfl; exact ⟨x, by omega, hi, rfl, rfl⟩
    · intro m w i hi
      exact (w i 0).1 ⟨i, by omega, hi, rfl⟩
  obtain ⟨m, e, hm⟩ := key
  exact ⟨m, e, m.shows_of hm⟩

theorem Dia.fill_step {m : Dia α n} {i j : Nat} {v : α} (hi : i < n) (hj : j < n) :
    (∃ m', m.setEntry i j v = .ok m') ∨ m.setEntry i j v = .error (.pan .big, m) := by
  by_cases hij : i = j
  · subst hij
    exact Or.inl ⟨_, Dia.setEntry_diag _ (by omega)⟩
  · by_cases hv : Flt.ulpEq Flt.zero v = true
    · exact Or.inl ⟨_, Dia.setEntry_off _ (by omega) hv⟩
    · exact Or.inr (Dia.setEntry_big _ (by omega) hv)

/-- The double loop panics when some off-diagonal value fails the zero test. -/
theorem Dia.fill_err {cell : Nat → Nat → Res α} {g : Nat → Nat → α}
    (h : ∀ i j, i < n → j < n → cell i j = .ok (g i j)) {i j : Nat} (hi : i < n) (hj : j < n)
    (hij : i ≠ j) (hz : ¬ Flt.ulpEq Flt.zero (g i j) = true) :
    (Dia.fill cell : Res (Dia α n)) = .error (.pan .big) := by
  have step : ∀ i j (m : Dia α n), i < n → j < n →
      (∃ m', (do
        let v ← cell i j
        match m.setEntry i j v with
        | .ok o => .ok o
        | .error e => .error e.1 : Res (Dia α n)) = .ok m') ∨ (do
        let v ← cell i j
        match m.setEntry i j v with
        | .ok o => .ok o
        | .error e => .error e.1 : Res (Dia α n)) = .error (.pan .big) := by
    intro i j m hi hj
    rw [h i j hi hj, ok_bind]
    rcases Dia.fill_step (m := m) (v := g i j) hi hj with ⟨m', e⟩ | e
    · exact Or.inl ⟨m', by rw [e]⟩
    · exact Or.inr (by rw [e])
  unfold Dia.fill
  refine forUp_err (fun i' m _ hi' => ?_) (Nat.zero_le i) hi (fun m => ?_)
  · by_cases hex : ∃ m', forUp 0 n (fun j (m : Dia α n) => (do
        let v ← cell i' j
        match m.setEntry i' j v with
        | .ok o => .ok o
        | .error e => .error e.1 : Res (Dia α n))) m = .ok m'
    · exact Or.inl hex
    · refine Or.inr ?_
      have : Wp (forUp 0 n (fun j (m : Dia α n) => (do
        let v ← cell i' j
        match m.setEntry i' j v with
        | .ok o => .ok o
        | .error e => .error e.1 : Res (Dia α n))) m) (fun _ => True) (fun f => f = .pan .big) := by
        refine wp_forUp (fun _ _ => True) (Nat.zero_le _) trivial fun j m _ hj _ => ?_
        rcases step i' j m hi' hj with ⟨m', e⟩ | e <;> rw [e]
        · trivial
        · rfl
      cases hx : forUp 0 n (fun j (m : Dia α n) => (do
        let v ← cell i' j
        match m.setEntry i' j v with
        | .ok o => .ok o
        | .error e => .error e.1 : Res (Dia α n))) m with
      | ok m' => exact absurd ⟨m', hx⟩ hex
      | error f =>
        rw [hx] at this
        exact congrArg _ this
  · refine forUp_err (fun j' m _ hj' => step i j' m hi hj') (Nat.zero_le j) hj (fun m => ?_)
    rw [h i j hi hj, ok_bind, Dia.setEntry_big _ (by omega) hz]

/-! ## Arithmetic -/

theorem Dia.rowmap_ok {cell : Nat → Res α} {D : Nat → α} (h : ∀ i, i < n → cell i = .ok (D i)) :
    ∃ m : Dia α n, (do return ⟨← Row.build n cell .rt⟩ : Res (Dia α n)) = .ok m ∧
      Shows m.at n n (diag D) := by
  refine ⟨⟨⟨fun i => if i < n then D i else Flt.zero⟩⟩, ?_, ?_⟩
  · rw [Row.build_ok D h]; rfl
  · exact Dia.shows_of _ fun i hi => by simp [hi]

theorem Dia.add_dia (a b : Dia α n) :
    ∃ m, a.add (.dia b) = .ok m ∧
      Shows m.at n n (diag fun i => Flt.add (a.data.f i) (b.data.f i)) := by
  show ∃ m, a.addDia b = .ok m ∧ _
  unfold Dia.addDia
  rw [checkAdd_ok, must_ok, ok_bind]
  exact Dia.rowmap_ok fun i hi => by simp only [Row.get_ok hi, ok_bind]; rfl

theorem Dia.subtract_dia (a b : Dia α n) :
    ∃ m, a.subtract (.dia b) = .ok m ∧
      Shows m.at n n (diag fun i => Flt.sub (a.data.f i) (b.data.f i)) := by
  show ∃ m, a.subDia b = .ok m ∧ _
  unfold Dia.subDia
  rw [checkAdd_ok, must_ok, ok_bind]
  exact Dia.rowmap_ok fun i hi => by simp only [Row.get_ok hi, ok_bind]; rfl

/-- A matrix argument that is not stored as a diagonal. -/
def Mat.nonDia {r c : Nat} : Mat α r c → Prop
  | .dia _ => False
  | _ => True

theorem Dia.add_nonDia {p q : Nat} (a : Dia α n) {b : Mat α p q} (hb : b.nonDia) :
    a.add b = a.addGen b := by
  cases b with
  | dia m => exact hb.elim
  | arr m => rfl
  | blk m => rfl
  | ext m => rfl

theorem Dia.subtract_nonDia {p q : Nat} (a : Dia α n) {b : Mat α p q} (hb : b.nonDia) :
    a.subtract b = a.subGen b := by
  cases b with
  | dia m => exact hb.elim
  | arr m => rfl
  | blk m => rfl
  | ext m => rfl

theorem Dia.add_gen (a : Dia α n) (b : Mat α n n) (hb : b.nonDia) (hn : 0 < n)
    (hz : ∀ i j, i < n → j < n → i ≠ j → Flt.ulpEq Flt.zero (Flt.add Flt.zero (b.ent i j)) = true) :
    ∃ m, a.add b = .ok m ∧
      Shows m.at n n (diag fun i => Flt.add (a.data.f i) (b.ent i i)) := by
  rw [a.add_nonDia hb]
  unfold Dia.addGen
  rw [checkAdd_ok, must_ok, ok_bind, if_neg (by omega)]
  obtain ⟨m, e, h⟩ := Dia.fill_ok (n := n)
    (cell := fun row col => do return Flt.add (← a.at row col) (← b.at row col))
    (g := fun i j => Flt.add (if i = j then a.data.f i else Flt.zero) (b.ent i j))
    (fun i j hi hj => by simp only [a.at_ok hi hj, b.at_ok hi hj, ok_bind]; rfl)
    (fun i j hi hj hij => by rw [if_neg hij]; exact hz i j hi hj hij)
  exact ⟨m, e, h.congr fun i j hi hj => by simp [diag]⟩

theorem Dia.add_big (a : Dia α n) (b : Mat α n n) (hb : b.nonDia) {i j : Nat} (hi : i < n)
    (hj : j < n) (hij : i ≠ j)
    (hz : ¬ Flt.ulpEq Flt.zero (Flt.add Flt.zero (b.ent i j)) = true) :
    a.add b = .error (.pan .big) := by
  rw [a.add_nonDia hb]
  unfold Dia.addGen
  rw [checkAdd_ok, must_ok, ok_bind, if_neg (by omega)]
  exact Dia.fill_err (g := fun i j => Flt.add (if i = j then a.data.f i else Flt.zero) (b.ent i j))
    (fun i j hi hj => by simp only [a.at_ok hi hj, b.at_ok hi hj, ok_bind]; rfl) hi hj hij
    (by rw [if_neg hij]; exact hz)

theorem Dia.subtract_gen (a : Dia α n) (b : Mat α n n) (hb : b.nonDia) (hn : 0 < n)
    (hz : ∀ i j, i < n → j < n → i ≠ j → Flt.ulpEq Flt.zero (Flt.sub Flt.zero (b.ent i j)) = true) :
    ∃ m, a.subtract b = .ok m ∧
      Shows m.at n n (diag fun i => Flt.sub (a.data.f i) (b.ent i i)) := by
  rw [a.subtract_nonDia hb]
  unfold Dia.subGen
  rw [checkAdd_ok, must_ok, ok_bind, if_neg (by omega)]
  obtain ⟨m, e, h⟩ := Dia.fill_ok (n := n)
    (cell := fun row col => do return Flt.sub (← a.at row col) (← b.at row col))
    (g := fun i j => Flt.sub (if i = j then a.data.f i else Flt.zero) (b.ent i j))
    (fun i j hi hj => by simp only [a.at_ok hi hj, b.at_ok hi hj, ok_bind]; rfl)
    (fun i j hi hj hij => by rw [if_neg hij]; exact hz i j hi hj hij)
  exact ⟨m, e, h.congr fun i j hi hj => by simp [diag]⟩

theorem Dia.subtract_big (a : Dia α n) (b : Mat α n n) (hb : b.nonDia) {i j : Nat} (hi : i < n)
    (hj : j < n) (hij : i ≠ j)
    (hz : ¬ Flt.ulpEq Flt.zero (Flt.sub Flt.zero (b.ent i j)) = true) :
    a.subtract b = .error (.pan .big) := by
  rw [a.subtract_nonDia hb]
  unfold Dia.subGen
  rw [checkAdd_ok, must_ok, ok_bind, if_neg (by omega)]
  exact Dia.fill_err (g := fun i j => Flt.sub (if i = j then a.data.f i else Flt.zero) (b.ent i j))
    (fun i j hi hj => by simp only [a.at_ok hi hj, b.at_ok hi hj, ok_bind]; rfl) hi hj hij
    (by rw [if_neg hij]; exact hz)

theorem Dia.add_err {p q : Nat} (a : Dia α n) (b : Mat α p q) (h : ¬ (n = p ∧ n = q)) :
    a.add b = .error (.pan .matDim) := by
  cases b with
  | dia m =>
    show a.addDia m = _
    unfold Dia.addDia
    rw [checkAdd_err h]; rfl
  | arr m => rw [a.add_nonDia (by trivial)]; unfold Dia.addGen; rw [checkAdd_err h]; rfl
  | blk m => rw [a.add_nonDia (by trivial)]; unfold Dia.addGen; rw [checkAdd_err h]; rfl
  | ext m => rw [a.add_nonDia (by trivial)]; unfold Dia.addGen; rw [checkAdd_err h]; rfl

theorem Dia.subtract_err {p q : Nat} (a : Dia α n) (b : Mat α p q) (h : ¬ (n = p ∧ n = q)) :
    a.subtract b = .error (.pan .matDim) := by
  cases b with
  | dia m =>
    show a.subDia m = _
    unfold Dia.subDia
    rw [checkAdd_err h]; rfl
  | arr m => rw [a.subtract_nonDia (by trivial)]; unfold Dia.subGen; rw [checkAdd_err h]; rfl
  | blk m => rw [a.subtract_nonDia (by trivial)]; unfold Dia.subGen; rw [checkAdd_err h]; rfl
  | ext m => rw [a.subtract_nonDia (by trivial)]; unfold Dia.subGen; rw [checkAdd_err h]; rfl

theorem Dia.scalarMultiply_ok (a : Dia α n) {d : α} (hn : 0 < n)
    (hz : n = 1 ∨ Flt.ulpEq Flt.zero (Flt.mul Flt.zero d) = true) :
    ∃ m, a.scalarMultiply d = .ok m ∧ Shows m.at n n (diag fun i => Flt.mul (a.data.f i) d) := by
  unfold Dia.scalarMultiply
  rw [if_neg (by omega)]
  obtain ⟨m, e, h⟩ := Dia.fill_ok (n := n)
    (cell := fun row col => do return Flt.mul (← a.at row col) d)
    (g := fun i j => Flt.mul (if i = j then a.data.f i else Flt.zero) d)
    (fun i j hi hj => by simp only [a.at_ok hi hj, ok_bind]; rfl)
    (fun i j hi hj hij => by rw [if_neg hij]; exact hz.resolve_left (by omega))
  exact ⟨m, e, h.congr fun i j hi hj => by simp [diag]⟩

theorem Dia.scalarMultiply_big (a : Dia α n) {d : α} (hn : 2 ≤ n)
    (hz : ¬ Flt.ulpEq Flt.zero (Flt.mul Flt.zero d) = true) :
    a.scalarMultiply d = .error (.pan .big) := by
  unfold Dia.scalarMultiply
  rw [if_neg (by omega)]
  exact Dia.fill_err (i := 0) (j := 1)
    (g := fun i j => Flt.mul (if i = j then a.data.f i else Flt.zero) d)
    (fun i j hi hj => by simp only [a.at_ok hi hj, ok_bind]; rfl) (by omega) (by omega) (by omega)
    (by simpa using hz)

theorem Dia.scalarAdd_ok (a : Dia α n) {d : α} (hn : 0 < n)
    (hz : n = 1 ∨ Flt.ulpEq Flt.zero (Flt.add Flt.zero d) = true) :
    ∃ m, a.scalarAdd d = .ok m ∧ Shows m.at n n (diag fun i => Flt.add (a.data.f i) d) := by
  unfold Dia.scalarAdd
  rw [if_neg (by omega)]
  obtain ⟨m, e, h⟩ := Dia.fill_ok (n := n)
    (cell := fun row col => do return Flt.add (← a.at row col) d)
    (g := fun i j => Flt.add (if i = j then a.data.f i else Flt.zero) d)
    (fun i j hi hj => by simp only [a.at_ok hi hj, ok_bind]; rfl)
    (fun i j hi hj hij => by rw [if_neg hij]; exact hz.resolve_left (by omega))
  exact ⟨m, e, h.congr fun i j hi hj => by simp [diag]⟩

theorem Dia.scalarAdd_big (a : Dia α n) {d : α} (hn : 2 ≤ n)
    (hz : ¬ Flt.ulpEq Flt.zero (Flt.add Flt.zero d) = true) :
    a.scalarAdd d = .error (.pan .big) := by
  unfold Dia.scalarAdd
  rw [if_neg (by omega)]
  exact Dia.fill_err (i := 0) (j := 1)
    (g := fun i j => Flt.add (if i = j then a.data.f i else Flt.zero) d)
    (fun i j hi hj => by simp only [a.at_ok hi hj, ok_bind]; rfl) (by omega) (by omega) (by omega)
    (by simpa using hz)

theorem Dia.mulDia_ok (a b : Dia α n) :
    ∃ m, a.mulDia b = .ok m ∧
      Shows m.at n n (diag fun i => Flt.mul (a.data.f i) (b.data.f i)) := by
  unfold Dia.mulDia
  exact Dia.rowmap_ok fun i hi => by simp only [Row.get_ok hi, ok_bind]; rfl

theorem Dia.mulGen_ok {q : Nat} (a : Dia α n) (b : Mat α n q) (hn : 0 < n) (hq : 0 < q) :
    ∃ m : Arr α n q, a.mulGen b = .ok ⟨n, q, m⟩ ∧
      Shows m.at n q (fun i j => Flt.mul (a.data.f i) (b.ent i j)) := by
  unfold Dia.mulGen
  obtain ⟨t, e, ht⟩ := Tab.build_ex (r := n) (c := q) (rt := Fault.rt)
    (cell := fun r c => do return Flt.mul (← a.data.get r) (← b.at r c))
    (fun i j => Flt.mul (a.data.f i) (b.ent i j)) (fun i j hi hj => by
      simp only [Row.get_ok hi, b.at_ok hi hj, ok_bind]; rfl)
  rw [e, ok_bind]
  obtain ⟨m, e', hm, -⟩ := Arr.copyIn_ok (Jag.toLists_rect t) hn hq
  exact ⟨m, e', m.shows_of fun i j hi hj => by rw [hm i j hi hj, ht i j hi hj]⟩

theorem Dia.copy_ok (m : Dia α n) : ∃ m', m.copy = .ok m' ∧ Shows m'.at n n (diag m.data.f) := by
  unfold Dia.copy
  exact Dia.rowmap_ok fun i hi => Row.get_ok hi

theorem Dia.dataCopy_ok (m : Dia α n) :
    ∃ t, m.dataCopy = .ok t ∧ ∀ i j, i < n → j < n → t.f i j = diag m.data.f i j := by
  unfold Dia.dataCopy
  refine Wp.exists_ok ?_
  refine (wr_loop' (fun t : Tab α n n => t.f) (fun x _ => m.data.f x) (fun i x y => x = i ∧ y = i)
    (Nat.zero_le _) ?_).imp ?_
  · intro i t _ hi _
    rw [Row.get_ok hi, ok_bind, Tab.set_ok hi hi]
    exact Wr.upd2 rfl
  · intro t w i j hi hj
    unfold diag
    by_cases hij : i = j
    · rw [if_pos hij]; exact (w i j).1 ⟨i, by omega, hi, rfl, hij.symm⟩
    · rw [if_neg hij]; exact (w i j).2 (by rintro ⟨k, -, -, rfl, h⟩; exact hij h.symm)

theorem Dia.operate_ok (m : Dia α n) {v : List α} {f : Nat → α} (hv : IsList v n f) :
    ∃ l, m.operate v = .ok l ∧ IsList l n fun i => Flt.mul (m.data.f i) (f i) := by
  obtain ⟨rfl, h⟩ := hv
  unfold Dia.operate
  rw [checkMul_ok, must_ok, ok_bind]
  unfold Dia.mulDia
  rw [Row.build_ok (fun i => Flt.mul (m.data.f i) (f i)) (fun i hi => by
    simp only [Row.get_ok hi, ok_bind, rowOfList, h i hi, Option.getD_some]; rfl)]
  exact ⟨_, rfl, (Row.toList_isList _).congr fun i hi => by simp [hi]⟩

theorem Dia.operate_err (m : Dia α n) {v : List α} (hv : v.length ≠ n) :
    m.operate v = .error (.pan .dim) := by
  unfold Dia.operate
  rw [checkMul_err (Ne.symm hv)]
  rfl

theorem Dia.operateVector_ext (m : Dia α n) {v : List α} {f : Nat → α} (hv : IsList v n f) :
    ∃ l, m.operateVector (.ext v) = .ok l ∧
      IsList l n fun i => ldot n (fun k => diag m.data.f i k) f := by
  unfold Dia.operateVector
  dsimp only
  rw [RVec.dim_eq, show (RVec.ext v).list = v from rfl, if_neg (by simp [hv.1])]
  obtain ⟨t, e, h⟩ := Row.build_ex (n := n) (rt := Fault.rt)
    (cell := fun row => sumUp 0 n (fun i => do
      return Flt.mul (← m.at row i) (← (RVec.ext v).at i)) Flt.zero)
    (fun i => ldot n (fun k => diag m.data.f i k) f) (fun i hi =>
      sumUp_ok _ fun k _ hk => by
        rw [m.at_ok hi hk, ok_bind, RVec.at_ok (v := RVec.ext v) hv hk]; rfl)
  rw [e]
  exact ⟨_, rfl, h⟩

theorem Dia.trace_ok (m : Dia α n) : m.trace = .ok (lsum 0 n m.data.f Flt.zero) := by
  unfold Dia.trace
  exact sumUp_ok _ fun i _ hi => by rw [m.at_ok hi hi, if_pos rfl]

theorem Dia.columnAt_ok (m : Dia α n) {j : Int} (hj : 0 ≤ j ∧ j < n) :
    ∃ l, m.columnAt j = .ok l ∧ IsList l n fun i => diag m.data.f i j.toNat := by
  obtain ⟨j, rfl⟩ := Int.eq_ofNat_of_zero_le hj.1
  unfold Dia.columnAt
  rw [checkColumnIndex_ok hj, must_ok, ok_bind]
  obtain ⟨t, e, h⟩ := Row.build_ex (n := n) (rt := Fault.rt) (cell := fun i => m.at i j)
    (fun i => diag m.data.f i j) (fun i hi => m.at_ok hi (by omega))
  rw [e]
  exact ⟨_, rfl, h⟩

theorem Dia.columnAt_err (m : Dia α n) {j : Int} (hj : ¬ (0 ≤ j ∧ j < n)) :
    m.columnAt j = .error (.pan .range) := by
  unfold Dia.columnAt
  rw [checkColumnIndex_err hj]; rfl

theorem Dia.rowAt_ok (m : Dia α n) {i : Int} (hi : 0 ≤ i ∧ i < n) :
    ∃ l, m.rowAt i = .ok l ∧ IsList l n fun j => diag m.data.f i.toNat j := by
  obtain ⟨i, rfl⟩ := Int.eq_ofNat_of_zero_le hi.1
  unfold Dia.rowAt
  rw [checkRowIndex_ok hi, must_ok, ok_bind]
  obtain ⟨t, e, h⟩ := Row.build_ex (n := n) (rt := Fault.rt) (cell := fun j => m.at i j)
    (fun j => diag m.data.f i j) (fun j hj => m.at_ok (by omega) hj)
  rw [e]
  exact ⟨_, rfl, h⟩

theorem Dia.rowAt_err (m : Dia α n) {i : Int} (hi : ¬ (0 ≤ i ∧ i < n)) :
    m.rowAt i = .error (.pan .range) := by
  unfold Dia.rowAt
  rw [checkRowIndex_err hi]; rfl

theorem Dia.transpose_ok [ZeroLaws α] (m : Dia α n) :
    ∃ m', m.transpose = .ok m' ∧ Shows m'.at n n (diag m.data.f) := by
  have key : ∃ m' : Dia α n, m.transpose = .ok m' ∧ ∀ i, i < n → m'.data.f i = m.data.f i := by
    refine Wp.exists_ok ?_
    unfold Dia.transpose
    refine (wr_loop' (fun (m : Dia α n) x _ => m.data.f x) (fun x _ => m.data.f x)
      (fun i x _ => x = i) (Nat.zero_le _) ?_).imp ?_
    · intro i m1 _ hi _
      refine (wr_loop' (fun (m : Dia α n) x _ => m.data.f x) (fun x _ => m.data.f x)
        (fun j x _ => x = i ∧ j = i) (Nat.zero_le _) ?_).imp ?_
      · intro j m2 _ hj _
        rw [m.at_ok hi hj, ok_bind]
        by_cases hij : i = j
        · subst hij
          rw [if_pos rfl, Dia.setEntry_diag _ (by omega)]
          refine (Wr.upd1 (g := fun x _ => m.data.f x) (i := (i : Int).toNat) fun _ => ?_).congr
            fun x y => ?_
          · simp
          · simp
        · rw [if_neg hij, Dia.setEntry_off _ (by omega) ZeroLaws.ulp_zz]
          exact Wr.rfl'.congr fun x y => by constructor <;> [exact False.elim; omega]
      · intro m w
        refine w.congr fun x y => ?_
        constructor
        · rintro ⟨j, -, -, rfl, -⟩; rfl
        · rintro rfl; exact ⟨x, by omega, hi, rfl, rfl⟩
    · intro m1 w i hi
      exact (w i 0).1 ⟨i, by omega, hi, rfl⟩
  obtain ⟨m', e, hm⟩ := key
  exact ⟨m', e, m'.shows_of hm⟩

/-! ## Singularity and inverse -/

theorem Dia.isSingular_iff (m : Dia α n) (th : α) :
    ∃ b, m.isSingular th = .ok b ∧
      (b = true ↔ ∃ i, i < n ∧ equalsWithError (m.data.f i) Flt.zero th = true) := by
  unfold Dia.isSingular
  rcases forUpBrk_all (n := n)
    (P := fun i => ¬ equalsWithError (m.data.f i) Flt.zero th = true)
    (body := fun i (_ : Unit) => do
      return if equalsWithError (← m.data.get i) Flt.zero th then .inr () else .inl ())
    (fun i hi => by
      rw [Row.get_ok hi, ok_bind]
      by_cases h : equalsWithError (m.data.f i) Flt.zero th = true
      · rw [if_pos h]; exact Or.inr ⟨by simpa using h, rfl⟩
      · rw [if_neg h]; exact Or.inl ⟨h, rfl⟩) with ⟨h1, h2⟩ | ⟨h1, h2⟩
  · rw [h2]
    refine ⟨false, rfl, ⟨fun h => by simp at h, ?_⟩⟩
    rintro ⟨i, hi, h⟩
    exact absurd h (h1 i hi)
  · rw [h2]
    refine ⟨true, rfl, ⟨fun _ => ?_, fun _ => rfl⟩⟩
    by_contra hne
    exact h1 fun i hi h => hne ⟨i, hi, h⟩

theorem Dia.inverse_ok (m : Dia α n) {th : α}
    (h : ∀ i, i < n → ¬ equalsWithError (m.data.f i) Flt.zero th = true) :
    ∃ m', m.inverse th = .ok m' ∧ Shows m'.at n n (diag fun i => Flt.div Flt.one (m.data.f i)) := by
  obtain ⟨b, e, hb⟩ := m.isSingular_iff th
  have : b = false := by
    cases b
    · rfl
    · obtain ⟨i, hi, h'⟩ := hb.1 rfl
      exact absurd h' (h i hi)
  subst this
  unfold Dia.inverse
  rw [e, ok_bind, if_neg (by simp)]
  exact Dia.rowmap_ok fun i hi => by simp only [Row.get_ok hi, ok_bind]; rfl

theorem Dia.inverse_sing (m : Dia α n) {th : α} {i : Nat} (hi : i < n)
    (h : equalsWithError (m.data.f i) Flt.zero th = true) :
    m.inverse th = .error (.pan .sing) := by
  obtain ⟨b, e, hb⟩ := m.isSingular_iff th
  have : b = true := hb.2 ⟨i, hi, h⟩
  subst this
  unfold Dia.inverse
  rw [e]
  rfl

end Linear
