import Verif.Lemmas.DiaLemmas
import Verif.Model.Matrix

/-!
# Interface-level lemmas: which storages are meant, and writing the diagonal of a fresh matrix
-/

set_option linter.unusedSectionVars false

namespace Linear

open Spec

variable {α : Type}

/-- Row-array or block storage: the two dense storages of the library. -/
def Mat.dense : {r c : Nat} → Mat α r c → Prop
  | _, _, .arr _ => True
  | _, _, .blk _ => True
  | _, _, .dia _ => False
  | _, _, .ext _ => False

/-- Storage implemented by the library, as opposed to a caller's own `RealMatrix`. -/
def Mat.own : {r c : Nat} → Mat α r c → Prop
  | _, _, .ext _ => False
  | _, _, _ => True

@[simp] theorem Mat.dense_arr {r c : Nat} (m : Arr α r c) : (Mat.arr m).dense := trivial
@[simp] theorem Mat.dense_blk {r c : Nat} (m : Blk α r c) : (Mat.blk m).dense := trivial
@[simp] theorem Mat.own_arr {r c : Nat} (m : Arr α r c) : (Mat.arr m).own := trivial
@[simp] theorem Mat.own_blk {r c : Nat} (m : Blk α r c) : (Mat.blk m).own := trivial
@[simp] theorem Mat.own_dia {n : Nat} (m : Dia α n) : (Mat.dia m).own := trivial
theorem Mat.dense_own {r c : Nat} {m : Mat α r c} (h : m.dense) : m.own := by
  cases m <;> trivial

/-- Case distinction on a dense matrix. -/
theorem Mat.dense_cases {r c : Nat} {P : Mat α r c → Prop} {m : Mat α r c} (h : m.dense)
    (ha : ∀ m : Arr α r c, P (.arr m)) (hb : ∀ m : Blk α r c, P (.blk m)) : P m := by
  cases m with
  | arr m => exact ha m
  | blk m => exact hb m
  | dia m => exact h.elim
  | ext m => exact h.elim

variable [Flt α]

theorem Mat.setEntry_arr {r c : Nat} (m : Arr α r c) (i j : Int) (v : α) :
    (Mat.arr m).setEntry i j v = liftMut .arr (m.setEntry i j v) := rfl

theorem Mat.setEntry_blk {r c : Nat} (m : Blk α r c) (i j : Int) (v : α) :
    (Mat.blk m).setEntry i j v = liftMut .blk (m.setEntry i j v) := rfl

theorem Mat.setEntry_dense {r c : Nat} {m : Mat α r c} (hm : m.dense) {i j : Int} (v : α)
    (h : inRange r c i j) :
    ∃ m' : Mat α r c, m.setEntry i j v = .ok m' ∧ m'.dense ∧
      ∀ x y, x < r → y < c → m'.ent x y = upd2 m.ent i.toNat j.toNat v x y := by
  revert hm
  cases m with
  | arr m =>
    intro _
    refine ⟨.arr { m with data := ⟨upd2 m.data.f i.toNat j.toNat v⟩ }, ?_, trivial, ?_⟩
    · rw [Mat.setEntry_arr, Arr.setEntry_ok _ h]
      rfl
    · intro x y hx hy
      rfl
  | blk m =>
    intro _
    obtain ⟨m', e, h'⟩ := m.setEntry_ok (v := v) h
    refine ⟨.blk m', ?_, trivial, ?_⟩
    · rw [Mat.setEntry_blk, e]
      rfl
    · intro x y hx hy
      show m'.ent x y = upd2 m.ent _ _ _ x y
      rw [Blk.ent_eq m' hx hy, h', upd2_eq, upd2_eq, Blk.ent_eq m hx hy]
  | dia m => exact False.elim
  | ext m => exact False.elim

/-- Writing one entry of a matrix made by a factory. -/
theorem Mat.put_dense {r c : Nat} {m : Mat α r c} {A : Nat → Nat → α} (hm : m.dense)
    (hA : ∀ i j, i < r → j < c → m.ent i j = A i j) {i j : Nat} (v : α)
    (hi : i < r) (hj : j < c) :
    ∃ m' : Mat α r c, m.put i j v = .ok m' ∧ m'.dense ∧
      ∀ x y, x < r → y < c → m'.ent x y = upd2 A i j v x y := by
  obtain ⟨m', e, h1, h2⟩ := Mat.setEntry_dense hm (i := i) (j := j) v (by unfold inRange; omega)
  refine ⟨m', by unfold Mat.put; rw [e], h1, fun x y hx hy => ?_⟩
  rw [h2 x y hx hy, upd2_eq, upd2_eq, hA x y hx hy]
  rfl

/-- What `Mat.new` returns on positive dimensions. -/
theorem Mat.new_ok {r c : Nat} (hr : 0 < r) (hc : 0 < c) :
    ∃ m : Mat α r c, Mat.new (r : Int) (c : Int) = .ok m ∧ m.dense ∧
      ∀ i j, i < r → j < c → m.ent i j = Flt.zero := by
  unfold Mat.new
  split
  · unfold Arr.new
    rw [if_neg (by omega), if_neg (by omega)]
    exact ⟨.arr { data := Jag.zero r fun _ => c }, rfl, trivial, fun _ _ _ _ => rfl⟩
  · unfold Blk.new
    rw [if_neg (by omega), if_neg (by omega)]
    exact ⟨.blk ⟨Jag.zero _ _⟩, rfl, trivial, fun _ _ _ _ => rfl⟩

/-- Writing the diagonal of a factory matrix, entry after entry. -/
theorem Mat.put_diag {n : Nat} {m : Mat α n n} (hm : m.dense)
    (h0 : ∀ i j, i < n → j < n → m.ent i j = Flt.zero) {body : Nat → Mat α n n → Res (Mat α n n)}
    {f : Nat → α} (hb : ∀ i m, i < n → body i m = m.put i i (f i)) :
    ∃ m' : Mat α n n, forUp 0 n body m = .ok m' ∧ m'.dense ∧ Shows m'.at n n (diag f) := by
  have key : ∃ m' : Mat α n n, forUp 0 n body m = .ok m' ∧ m'.dense ∧
      ∀ x y, x < n → y < n → m'.ent x y = if x < n then diag f x y else Flt.zero := by
    refine Wp.exists_ok (wp_forUp (fun i (m : Mat α n n) => m.dense ∧
      ∀ x y, x < n → y < n → m.ent x y = if x < i then diag f x y else Flt.zero)
      (Nat.zero_le _) ⟨hm, fun x y hx hy => ?_⟩ ?_)
    · rw [h0 x y hx hy]; simp
    · rintro i m - hi ⟨h1, h3⟩
      rw [hb i m hi]
      obtain ⟨m', e, h4, h6⟩ := Mat.put_dense h1 h3 (f i) hi hi
      rw [e]
      refine ⟨h4, fun x y hx hy => ?_⟩
      rw [h6 x y hx hy, upd2_eq]
      by_cases hxi : x = i
      · subst hxi
        unfold diag
        by_cases hyx : y = x
        · subst hyx; simp
        · simp [hyx, Ne.symm hyx]
      · rw [if_neg (by omega)]
        by_cases hlt : x < i
        · rw [if_pos hlt, if_pos (by omega)]
        · rw [if_neg hlt, if_neg (by omega)]
  obtain ⟨m', e, h2, h⟩ := key
  exact ⟨m', e, h2, m'.at_shows.congr fun x y hx hy => by rw [h x y hx hy, if_pos hx]⟩

/-! ## From storage-level writes to interface-level writes -/

theorem Arr.lift {r c : Nat} {m : Arr α r c} {op : Mut (Arr α r c)} {m' : Arr α r c}
    {g : Nat → Nat → α} {S : Nat → Nat → Prop} [∀ x y, Decidable (S x y)]
    {A B : Nat → Nat → α} (e : op = .ok m') (w : Wr g S m.data.f m'.data.f) (hA : Shows (Mat.arr m).at r c A)
    (hB : ∀ x y, x < r → y < c → B x y = if S x y then g x y else A x y) :
    ∃ M' : Mat α r c, liftMut Mat.arr op = .ok M' ∧ M'.dense ∧ Shows M'.at r c B := by
  subst e
  refine ⟨.arr m', rfl, trivial, m'.at_shows.congr fun x y hx hy => ?_⟩
  rw [hB x y hx hy]
  split
  · exact (w x y).1 ‹_›
  · rw [(w x y).2 ‹_›]
    exact m.at_shows.unique hA hx hy

theorem Blk.lift {r c : Nat} {m : Blk α r c} {op : Mut (Blk α r c)} {m' : Blk α r c}
    {g : Nat → Nat → α} {S : Nat → Nat → Prop} [∀ x y, Decidable (S x y)]
    {A B : Nat → Nat → α} (e : op = .ok m') (w : Wr g S (entB m.blocks) (entB m'.blocks))
    (hA : Shows (Mat.blk m).at r c A)
    (hB : ∀ x y, x < r → y < c → B x y = if S x y then g x y else A x y) :
    ∃ M' : Mat α r c, liftMut Mat.blk op = .ok M' ∧ M'.dense ∧ Shows M'.at r c B := by
  subst e
  refine ⟨.blk m', rfl, trivial, m'.shows_entB.congr fun x y hx hy => ?_⟩
  rw [hB x y hx hy]
  split
  · exact (w x y).1 ‹_›
  · rw [(w x y).2 ‹_›]
    exact m.shows_entB.unique hA hx hy

end Linear
