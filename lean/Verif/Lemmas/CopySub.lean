import Verif.Lemmas.MatLemmas

/-!
# Lemmas on copying a submatrix into a caller's slices
-/

set_option linter.unusedSectionVars false

namespace Linear

open Spec

variable {α : Type} [Flt α]

/-- The element `l[i][j]` when it exists. -/
def Spec.cell (l : List (List α)) (i j : Nat) : Option α := l[i]?.bind fun row => row[j]?

/-- `l` has at least `r` rows, the first `r` of them with at least `c` elements. -/
def Spec.room (l : List (List α)) (r c : Nat) : Prop :=
  ∀ i, i < r → ∃ row, l[i]? = some row ∧ c ≤ row.length

/-- `l'` is `l` with the cells of the `r × c` corner replaced by `g`. -/
def Spec.Corner (l l' : List (List α)) (r c : Nat) (g : Nat → Nat → α) : Prop :=
  l'.length = l.length ∧ ∀ i j, cell l' i j = if i < r ∧ j < c then some (g i j) else cell l i j

theorem cell_set {l : List (List α)} {i j : Nat} {row : List α} (h : l[i]? = some row)
    (hj : j < row.length) (v : α) (x y : Nat) :
    cell (l.set i (row.set j v)) x y = if x = i ∧ y = j then some v else cell l x y := by
  unfold cell
  have hi : i < l.length := by
    by_contra hn
    rw [List.getElem?_eq_none (by omega)] at h
    cases h
  by_cases e : x = i
  · subst e
    rw [List.getElem?_set_self hi, h]
    show (row.set j v)[y]? = _
    by_cases e' : y = j
    · subst e'
      rw [List.getElem?_set_self hj, if_pos ⟨rfl, rfl⟩]
    · rw [List.getElem?_set_ne (Ne.symm e'), if_neg (by simp [e'])]
      rfl
  · rw [List.getElem?_set_ne (Ne.symm e), if_neg (by simp [e])]

theorem cell_some {l : List (List α)} {i j : Nat} {v : α} (h : cell l i j = some v) :
    ∃ row, l[i]? = some row ∧ j < row.length := by
  unfold cell at h
  cases e : l[i]? with
  | none => rw [e] at h; cases h
  | some row =>
    rw [e] at h
    refine ⟨row, rfl, ?_⟩
    by_contra hn
    have h : row[j]? = some v := h
    rw [List.getElem?_eq_none (by omega)] at h
    cases h

theorem room_cell {l : List (List α)} {r c i j : Nat} (h : room l r c) (hi : i < r) (hj : j < c) :
    ∃ v, cell l i j = some v := by
  obtain ⟨row, e, hc⟩ := h i hi
  unfold cell
  rw [e]
  exact ⟨row[j], List.getElem?_eq_getElem (by omega)⟩

/-- One row of the copy. -/
theorem copyRow_ok {l : List (List α)} {c i : Nat} (g : Nat → α)
    (h : ∀ j, j < c → ∃ v, cell l i j = some v)
    {body : Nat → List (List α) → Except (Fault × List (List α)) (List (List α))}
    (hb : ∀ j d row, j < c → d[i]? = some row → j < row.length →
      body j d = .ok (d.set i (row.set j (g j)))) :
    ∃ l', forUp 0 c body l = .ok l' ∧ l'.length = l.length ∧
      ∀ x y, cell l' x y = if x = i ∧ y < c then some (g y) else cell l x y := by
  refine Wp.exists_ok (wp_forUp (fun k (l' : List (List α)) => l'.length = l.length ∧
      ∀ x y, cell l' x y = if x = i ∧ y < k then some (g y) else cell l x y) (Nat.zero_le _)
      (And.intro ?_ ?_) ?_)
  · exact rfl
  · intro x y; rw [if_neg (by omega)]
  · rintro j d - hj ⟨h1, h2⟩
    obtain ⟨v, hv⟩ := h j hj
    obtain ⟨row, h3, h4⟩ := cell_some (l := d) (i := i) (j := j) (v := v)
      (by rw [h2, if_neg (by omega), hv])
    rw [hb j d row hj h3 h4]
    refine ⟨by rw [List.length_set]; exact h1, fun x y => ?_⟩
    rw [cell_set h3 h4, h2]
    by_cases e : x = i ∧ y = j
    · rw [if_pos e, if_pos (by omega), e.2]
    · rw [if_neg e]
      refine if_congr ?_ rfl rfl
      omega

theorem Mat.copySubMatrix_ok {r c : Nat} {m : Mat α r c} {A : Nat → Nat → α} (hA : Shows m.at r c A)
    {sr er sc ec : Nat} (hw : window r c sr er sc ec) {dest : List (List α)}
    (hd : room dest (er + 1 - sr) (ec + 1 - sc)) :
    ∃ d', m.copySubMatrix sr er sc ec dest = .ok d' ∧
      Corner dest d' (er + 1 - sr) (ec + 1 - sc) fun i j => A (sr + i) (sc + j) := by
  have hw' := hw
  unfold window at hw'
  unfold Mat.copySubMatrix
  have e1 : ((er : Int) + 1 - sr).toNat = er + 1 - sr := by omega
  have e2 : ((ec : Int) + 1 - sc).toNat = ec + 1 - sc := by omega
  rw [e1, e2]
  generalize hR : er + 1 - sr = R at *
  generalize hC : ec + 1 - sc = C at *
  obtain ⟨row0, h0, h0'⟩ := hd 0 (by omega)
  have hlen : R ≤ dest.length := by
    by_contra hn
    obtain ⟨row, h, _⟩ := hd (R - 1) (by omega)
    rw [List.getElem?_eq_none (by omega)] at h
    cases h
  rw [checkSubMatrixIndex_ok hw, must_ok, res_at_ok, ok_bind, rdL_eq_ok.2 h0, res_at_ok, ok_bind,
    if_neg (by omega)]
  have hl : forUp 1 R (fun i (_ : Unit) => do
      if (← (rdL dest i).at dest).length < C then
        throw (Fault.pan .matDim, dest)) () = (.ok () : Except (Fault × List (List α)) Unit) := by
    obtain ⟨u, e, -⟩ := Wp.exists_ok (wp_forUp (E := fun _ : Fault × List (List α) => False)
      (s := ()) (body := fun i (_ : Unit) => do
        if (← (rdL dest i).at dest).length < C then
          throw (Fault.pan .matDim, dest)) (fun _ _ => True) (show 1 ≤ R by omega) trivial (by
      intro i _ _ h2 _
      obtain ⟨row, h, h'⟩ := hd i h2
      rw [rdL_eq_ok.2 h, res_at_ok, ok_bind, if_neg (by omega)]
      trivial))
    exact e
  refine (congrArg (fun x : Except (Fault × List (List α)) Unit => x >>= fun _ => _) hl :).symm ▸ ?_
  rw [ok_bind]
  refine Wp.exists_ok (wp_forUp (fun k (l' : List (List α)) =>
    Corner dest l' k C fun i j => A (sr + i) (sc + j)) (Nat.zero_le _) ⟨rfl, fun x y => by
      rw [if_neg (by omega)]⟩ ?_)
  rintro i d - hi ⟨h1, h2⟩
  obtain ⟨l', e, h3, h4⟩ := copyRow_ok (l := d) (c := C) (i := i) (fun j => A (sr + i) (sc + j))
    (fun j hj => by
      obtain ⟨v, hv⟩ := room_cell hd hi hj
      exact ⟨v, by rw [h2, if_neg (by omega), hv]⟩)
    (body := fun j (d : List (List α)) => do
      let row ← (rdL d i).at d
      let v ← (m.at (sr + i) (sc + j)).at d
      if j < row.length then return d.set i (row.set j v) else throw (Fault.rt, d)) (by
    intro j d row hj h3 h4
    have := hA.ok (i := sr + i) (j := sc + j) (by omega) (by omega)
    rw [rdL_eq_ok.2 h3, res_at_ok, ok_bind]
    push_cast at this
    rw [this, res_at_ok, ok_bind, if_pos h4]
    rfl)
  rw [e]
  refine ⟨by rw [h3, h1], fun x y => ?_⟩
  rw [h4, h2]
  by_cases e : x = i ∧ y < C
  · rw [if_pos e, if_pos (by omega), e.1]
  · rw [if_neg e]
    refine if_congr ?_ rfl rfl
    omega

end Linear
