import Verif.Lemmas.Geometry
import Verif.Model.Walks
import Verif.Spec

/-!
# Entries of the four storages
-/

set_option linter.unusedSectionVars false

namespace Linear

open Spec

variable {α : Type} [Flt α]

theorem checkRowIndex_ok {n : Nat} {i : Int} (h : 0 ≤ i ∧ i < n) : checkRowIndex n i = .ok () := by
  unfold checkRowIndex; rw [if_neg (by omega)]

theorem checkRowIndex_err {n : Nat} {i : Int} (h : ¬ (0 ≤ i ∧ i < n)) :
    checkRowIndex n i = .error (.err .range) := by
  unfold checkRowIndex; rw [if_pos (by omega)]

theorem checkColumnIndex_ok {n : Nat} {i : Int} (h : 0 ≤ i ∧ i < n) :
    checkColumnIndex n i = .ok () := by
  unfold checkColumnIndex; rw [if_neg (by omega)]

theorem checkColumnIndex_err {n : Nat} {i : Int} (h : ¬ (0 ≤ i ∧ i < n)) :
    checkColumnIndex n i = .error (.err .range) := by
  unfold checkColumnIndex; rw [if_pos (by omega)]

theorem checkMatrixIndex_ok {r c : Nat} {i j : Int} (h : inRange r c i j) :
    checkMatrixIndex r c i j = .ok () := by
  unfold inRange at h
  unfold checkMatrixIndex
  rw [checkRowIndex_ok (by omega), checkColumnIndex_ok (by omega)]
  rfl

theorem checkMatrixIndex_err {r c : Nat} {i j : Int} (h : ¬ inRange r c i j) :
    checkMatrixIndex r c i j = .error (.err .range) := by
  unfold inRange at h
  unfold checkMatrixIndex
  by_cases h1 : 0 ≤ i ∧ i < r
  · rw [checkRowIndex_ok h1, checkColumnIndex_err (by omega)]
    rfl
  · rw [checkRowIndex_err h1]
    rfl

theorem checkSubMatrixIndex_ok {r c : Nat} {sr er sc ec : Int} (h : window r c sr er sc ec) :
    checkSubMatrixIndex r c sr er sc ec = .ok () := by
  unfold window at h
  unfold checkSubMatrixIndex
  rw [checkRowIndex_ok (by omega), checkRowIndex_ok (by omega), checkColumnIndex_ok (by omega),
    checkColumnIndex_ok (by omega), if_neg (by omega), if_neg (by omega)]
  rfl

/-- A window that is not inside the matrix is refused. -/
theorem checkSubMatrixIndex_err {r c : Nat} {sr er sc ec : Int} (h : ¬ window r c sr er sc ec) :
    ∃ s, checkSubMatrixIndex r c sr er sc ec = .error (.err s) := by
  unfold window at h
  unfold checkSubMatrixIndex
  by_cases h1 : 0 ≤ sr ∧ sr < r
  · rw [checkRowIndex_ok h1]
    by_cases h2 : 0 ≤ er ∧ er < r
    · rw [checkRowIndex_ok h2]
      by_cases h3 : er < sr
      · rw [if_pos h3]; exact ⟨_, rfl⟩
      · rw [if_neg h3]
        by_cases h4 : 0 ≤ sc ∧ sc < c
        · rw [checkColumnIndex_ok h4]
          by_cases h5 : 0 ≤ ec ∧ ec < c
          · rw [checkColumnIndex_ok h5, if_pos (by omega)]; exact ⟨_, rfl⟩
          · rw [checkColumnIndex_err h5]; exact ⟨_, rfl⟩
        · rw [checkColumnIndex_err h4]; exact ⟨_, rfl⟩
    · rw [checkRowIndex_err h2]; exact ⟨_, rfl⟩
  · rw [checkRowIndex_err h1]; exact ⟨_, rfl⟩

@[simp] theorem must_ok {β : Type} (b : β) : Res.must (.ok b) = .ok b := rfl
@[simp] theorem must_err {β : Type} (s : Status) :
    (Res.must (.error (.err s)) : Res β) = .error (.pan s) := rfl
@[simp] theorem res_at_ok {σ β : Type} (s : σ) (b : β) : Res.at s (.ok b) = .ok b := rfl
@[simp] theorem res_at_error {σ β : Type} (s : σ) (f : Fault) :
    (Res.at s (.error f) : Except (Fault × σ) β) = .error (f, s) := rfl
@[simp] theorem ok_bind {ε β γ : Type} (b : β) (f : β → Except ε γ) :
    ((Except.ok b : Except ε β) >>= f) = f b := rfl
@[simp] theorem error_bind {ε β γ : Type} (e : ε) (f : β → Except ε γ) :
    ((Except.error e : Except ε β) >>= f) = .error e := rfl
@[simp] theorem throw_eq {ε β : Type} (e : ε) : (throw e : Except ε β) = .error e := rfl
@[simp] theorem pure_eq_ok {ε β : Type} (b : β) : (pure b : Except ε β) = .ok b := rfl

section
variable {r c : Nat}

theorem Arr.colDim_ok (m : Arr α r c) (h : 0 < r) : m.colDim = .ok c := by
  unfold Arr.colDim; rw [if_neg (by omega)]

/-- Entries of a block matrix, by position. -/
def Blk.ent (m : Blk α r c) (i j : Nat) : α := m.blocks.f (blkIdx c i j) (blkOff c i j)

theorem Blk.get_ok (m : Blocks α r c) {i j : Nat} (hi : i < r) (hj : j < c) :
    m.get (blkIdx c i j) (blkOff c i j) = .ok (m.f (blkIdx c i j) (blkOff c i j)) :=
  Jag.get_ok (blkIdx_lt hi hj) (blkOff_lt hi hj)

theorem Blk.set_ok (m : Blocks α r c) {i j : Nat} {v : α} (hi : i < r) (hj : j < c) :
    m.set (blkIdx c i j) (blkOff c i j) v = .ok ⟨upd2 m.f (blkIdx c i j) (blkOff c i j) v⟩ :=
  Jag.set_ok (blkIdx_lt hi hj) (blkOff_lt hi hj)

theorem blk_pos_inj {c i j i' j' : Nat} (hj : j < c) (hj' : j' < c)
    (h : blkIdx c i j = blkIdx c i' j' ∧ blkOff c i j = blkOff c i' j') : i = i' ∧ j = j' := by
  constructor
  · rw [← cellRow_at (i := i) hj, ← cellRow_at (i := i') hj', h.1, h.2]
  · rw [← cellCol_at (i := i) hj, ← cellCol_at (i := i') hj', h.1, h.2]

/-- Writing one stored cell changes exactly one entry. -/
theorem Blk.ent_upd (m : Blocks α r c) {i j : Nat} {v : α} (hj : j < c) {i' j' : Nat}
    (hj' : j' < c) :
    Blk.ent (r := r) (c := c) ⟨⟨upd2 m.f (blkIdx c i j) (blkOff c i j) v⟩⟩ i' j' =
      if i' = i ∧ j' = j then v else Blk.ent (r := r) (c := c) ⟨m⟩ i' j' := by
  unfold Blk.ent
  dsimp only
  rw [upd2_eq]
  by_cases h : i' = i ∧ j' = j
  · obtain ⟨rfl, rfl⟩ := h; simp
  · rw [if_neg h, if_neg]
    intro h'
    exact h (blk_pos_inj hj' hj h')

/-- Entries of a matrix of any storage, by position. -/
def Mat.ent : {r c : Nat} → Mat α r c → Nat → Nat → α
  | _, _, .arr m, i, j => m.data.f i j
  | _, _, .blk m, i, j => m.ent i j
  | _, _, .dia m, i, j => if i = j then m.data.f i else Flt.zero
  | _, _, .ext m, i, j => m.ent i j

theorem Arr.at_shows (m : Arr α r c) : Shows m.at r c m.data.f := by
  refine shows_of_nat (fun i j hi hj => ?_) (fun i j h => ?_)
  · unfold Arr.at
    rw [checkRowIndex_ok (by omega), m.colDim_ok (by omega)]
    simp only [must_ok, ok_bind]
    rw [checkColumnIndex_ok (by omega)]
    simp only [must_ok, ok_bind, Int.toNat_natCast]
    exact Tab.get_ok hi hj
  · unfold inRange at h
    unfold Arr.at
    by_cases h1 : 0 ≤ i ∧ i < r
    · rw [checkRowIndex_ok h1, m.colDim_ok (by omega)]
      simp only [must_ok, ok_bind]
      rw [checkColumnIndex_err (by omega)]
      rfl
    · rw [checkRowIndex_err h1]
      rfl

theorem Blk.at_shows (m : Blk α r c) : Shows m.at r c m.ent := by
  refine shows_of_nat (fun i j hi hj => ?_) (fun i j h => ?_)
  · unfold Blk.at
    rw [checkMatrixIndex_ok (by unfold inRange; omega)]
    simp only [must_ok, ok_bind, Int.toNat_natCast]
    exact Blk.get_ok _ hi hj
  · unfold Blk.at
    rw [checkMatrixIndex_err h]
    rfl

theorem Dia.at_shows {n : Nat} (m : Dia α n) :
    Shows m.at n n (fun i j => if i = j then m.data.f i else Flt.zero) := by
  refine shows_of_nat (fun i j hi hj => ?_) (fun i j h => ?_)
  · unfold Dia.at
    rw [checkMatrixIndex_ok (by unfold inRange; omega)]
    simp only [must_ok, ok_bind, Int.toNat_natCast, Nat.cast_inj]
    split
    · rw [Row.get_ok hi]
    · rfl
  · unfold Dia.at
    rw [checkMatrixIndex_err h]
    rfl

theorem Ext.at_shows (m : Ext α r c) : Shows m.at r c m.ent := by
  refine shows_of_nat (fun i j hi hj => ?_) (fun i j h => ?_)
  · unfold Ext.at
    rw [checkMatrixIndex_ok (by unfold inRange; omega)]
    rfl
  · unfold Ext.at
    rw [checkMatrixIndex_err h]
    rfl

theorem Mat.at_shows : {r c : Nat} → (m : Mat α r c) → Shows m.at r c m.ent
  | _, _, .arr m => m.at_shows
  | _, _, .blk m => m.at_shows
  | _, _, .dia m => m.at_shows
  | _, _, .ext m => m.at_shows

theorem Mat.at_ok (m : Mat α r c) {i j : Nat} (hi : i < r) (hj : j < c) :
    m.at i j = .ok (m.ent i j) := m.at_shows.ok hi hj

theorem Blk.at_ok (m : Blk α r c) {i j : Nat} (hi : i < r) (hj : j < c) :
    m.at i j = .ok (m.ent i j) := m.at_shows.ok hi hj

theorem Arr.at_ok (m : Arr α r c) {i j : Nat} (hi : i < r) (hj : j < c) :
    m.at i j = .ok (m.data.f i j) := m.at_shows.ok hi hj

theorem Dia.at_ok {n : Nat} (m : Dia α n) {i j : Nat} (hi : i < n) (hj : j < n) :
    m.at i j = .ok (if i = j then m.data.f i else Flt.zero) := m.at_shows.ok hi hj

end

end Linear
