import Verif.Base.Outcome

/-!
# Specification vocabulary

Independent of the storages and of the loops of the model: what a caller sees of an `r × c` matrix
whose entries are `A i j`.
-/

namespace Linear.Spec

variable {α : Type}

/-- A row and a column index are inside an `r × c` matrix. -/
def inRange (r c : Nat) (i j : Int) : Prop := 0 ≤ i ∧ i < r ∧ 0 ≤ j ∧ j < c

instance (r c : Nat) (i j : Int) : Decidable (inRange r c i j) := by
  unfold inRange; infer_instance

/-- The answer of `At(i, j)` on an `r × c` matrix with entries `A`: the entry when the indices are
in range, a panic with an out-of-range error otherwise. -/
def at' (r c : Nat) (A : Nat → Nat → α) (i j : Int) : Res α :=
  if inRange r c i j then .ok (A i.toNat j.toNat) else .error (.pan .range)

/-- `get` is the `At` of an `r × c` matrix with entries `A`. -/
def Shows (get : Int → Int → Res α) (r c : Nat) (A : Nat → Nat → α) : Prop :=
  ∀ i j, get i j = at' r c A i j

/-- The window `[sr, er] × [sc, ec]` is a non-empty window of an `r × c` matrix. -/
def window (r c : Nat) (sr er sc ec : Int) : Prop :=
  0 ≤ sr ∧ sr ≤ er ∧ er < r ∧ 0 ≤ sc ∧ sc ≤ ec ∧ ec < c

instance (r c : Nat) (sr er sc ec : Int) : Decidable (window r c sr er sc ec) := by
  unfold window; infer_instance

/-- A list of lists is a rectangle of `r` rows and `c` columns with entries `A`. -/
def Rect (d : List (List α)) (r c : Nat) (A : Nat → Nat → α) : Prop :=
  d.length = r ∧ ∀ i, i < r → ∃ row, d[i]? = some row ∧ row.length = c ∧
    ∀ j, j < c → row[j]? = some (A i j)

/-- A list has exactly the `n` elements `f 0, ..., f (n-1)`. -/
def IsList (l : List α) (n : Nat) (f : Nat → α) : Prop :=
  l.length = n ∧ ∀ i, i < n → l[i]? = some (f i)

theorem at'_ok {r c : Nat} {A : Nat → Nat → α} {i j : Nat} (hi : i < r) (hj : j < c) :
    at' r c A i j = .ok (A i j) := by
  have : inRange r c i j := by unfold inRange; omega
  simp [at', this]

theorem at'_err {r c : Nat} {A : Nat → Nat → α} {i j : Int} (h : ¬ inRange r c i j) :
    at' r c A i j = .error (.pan .range) := by
  simp [at', h]

theorem shows_of_nat {get : Int → Int → Res α} {r c : Nat} {A : Nat → Nat → α}
    (h1 : ∀ i j : Nat, i < r → j < c → get i j = .ok (A i j))
    (h2 : ∀ i j, ¬ inRange r c i j → get i j = .error (.pan .range)) : Shows get r c A := by
  intro i j
  by_cases h : inRange r c i j
  · have h' := h
    unfold inRange at h'
    obtain ⟨i, rfl⟩ := Int.eq_ofNat_of_zero_le h'.1
    obtain ⟨j, rfl⟩ := Int.eq_ofNat_of_zero_le h'.2.2.1
    rw [h1 i j (by omega) (by omega), at'_ok (by omega) (by omega)]
  · rw [h2 i j h, at'_err h]

theorem Shows.congr {get : Int → Int → Res α} {r c : Nat} {A B : Nat → Nat → α}
    (h : Shows get r c A) (hAB : ∀ i j, i < r → j < c → A i j = B i j) : Shows get r c B := by
  intro i j
  rw [h i j]
  unfold at'
  split
  · rename_i h'
    unfold inRange at h'
    rw [hAB _ _ (by omega) (by omega)]
  · rfl

theorem Shows.ok {get : Int → Int → Res α} {r c : Nat} {A : Nat → Nat → α}
    (h : Shows get r c A) {i j : Nat} (hi : i < r) (hj : j < c) : get i j = .ok (A i j) := by
  rw [h, at'_ok hi hj]

end Linear.Spec
