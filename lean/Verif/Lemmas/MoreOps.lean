import Verif.Lemmas.ExactSums

/-!
# Construction from slices and equality; remaining row-array lemmas
-/

set_option linter.unusedSectionVars false
set_option linter.unusedSimpArgs false

namespace Linear

open Spec

variable {α : Type} [Flt α]

theorem forUp_err {ε σ : Type} {a b : Nat} {e : ε} {f : Nat → σ → Except ε σ} {s : σ}
    (hf : ∀ i s, a ≤ i → i < b → (∃ s', f i s = .ok s') ∨ f i s = .error e)
    {i : Nat} (h1 : a ≤ i) (h2 : i < b) (h3 : ∀ s, f i s = .error e) :
    forUp a b f s = .error e := by
  obtain ⟨n, hn⟩ : ∃ n, b - a = n := ⟨_, rfl⟩
  induction n generalizing a s with
  | zero => omega
  | succ n ih =>
    rw [forUp_step (by omega)]
    rcases hf a s (le_refl _) (by omega) with ⟨s', h⟩ | h
    · rw [h, ok_bind]
      refine ih (fun i s h1 h2 => hf i s (by omega) h2) ?_ (by omega)
      rcases Nat.lt_or_eq_of_le h1 with h4 | rfl
      · exact h4
      · rw [h3] at h; exact absurd h (by simp)
    · rw [h]; rfl

/-- Data that is no rectangle with at least one row and one column is empty, starts with an empty
row, or has a row of a length other than the first. -/
theorem ragged_cases {d : List (List α)} (hd : ∀ p q B, Rect d p q B → p = 0 ∨ q = 0) :
    d = [] ∨ ∃ row0, d[0]? = some row0 ∧ (row0.length = 0 ∨
      ∃ i, 1 ≤ i ∧ i < d.length ∧ ∃ ri, d[i]? = some ri ∧ ri.length ≠ row0.length) := by
  cases d with
  | nil => exact Or.inl rfl
  | cons a l =>
    refine Or.inr ⟨a, rfl, ?_⟩
    by_contra hc
    rw [not_or] at hc
    obtain ⟨h1, h2⟩ := hc
    have hlen : ∀ i (hi : i < (a :: l).length), ((a :: l)[i]).length = a.length := by
      intro i hi
      rcases Nat.eq_zero_or_pos i with rfl | hpos
      · rfl
      · by_contra hne
        exact h2 ⟨i, hpos, hi, _, List.getElem?_eq_getElem hi, hne⟩
    have := hd (a :: l).length a.length (fun i j => (((a :: l)[i]?.getD [])[j]?).getD Flt.zero)
      ⟨rfl, fun i hi => ⟨(a :: l)[i], List.getElem?_eq_getElem hi, hlen i hi, fun j hj => by
        have hj' : j < ((a :: l)[i]).length := by rw [hlen i hi]; exact hj
        simp only [List.getElem?_eq_getElem hj', List.getElem?_eq_getElem hi, Option.getD_some]⟩⟩
    simp only [List.length_cons] at this
    omega

theorem rect_tab {d : List (List α)} {r c : Nat} {A : Nat → Nat → α} (h : Rect d r c A) {i j : Nat}
    (hi : i < r) (hj : j < c) : (tabOfLists r c d).f i j = A i j := by
  obtain ⟨row, h1, h2, h3⟩ := h.2 i hi
  simp [tabOfLists, h1, h3 j hj]

theorem copyRowL_total {r c : Nat} (t : Tab α r c) {i : Nat} {src : List α} (hi : i < r)
    (h : src.length = c) : ∃ t' : Tab α r c, copyRowL t i c src = .ok t' := by
  obtain ⟨t', e, -⟩ := copyRowL_ok (t := t) (f := fun j => src[j]?.getD Flt.zero) hi
    ⟨h, fun j hj => by
      simp only [List.getElem?_eq_getElem (show j < src.length by omega), Option.getD_some]⟩
  exact ⟨t', e⟩

theorem Arr.copyIn_bad {sub : Option (List (List α))}
    (hd : ∀ d p q B, sub = some d → Rect d p q B → p = 0 ∨ q = 0) :
    ∃ s, Arr.copyIn sub = .error (.pan s) := by
  cases sub with
  | none => exact ⟨_, rfl⟩
  | some d =>
    unfold Arr.copyIn
    rcases ragged_cases (fun p q B h => hd d p q B rfl h) with rfl | ⟨row0, h0, h | ⟨i, h1, h2, ri, h3, h4⟩⟩
    · exact ⟨_, rfl⟩
    · have hl : d.length ≠ 0 := by rintro h; rw [List.length_eq_zero_iff.1 h] at h0; simp at h0
      simp only [hl, if_false, rdL_eq_ok.2 h0, ok_bind, h, if_true]
      exact ⟨_, rfl⟩
    · simp only [show d.length ≠ 0 by omega, if_false, rdL_eq_ok.2 h0, ok_bind]
      split
      · exact ⟨_, rfl⟩
      · rw [forUp_err (e := Fault.pan .dim) (fun i t _ hi => ?_) (Nat.zero_le i) h2 (fun t => ?_)]
        · exact ⟨_, rfl⟩
        · rw [rdL_ok hi, ok_bind]
          by_cases h : d[i].length = row0.length
          · simp only [h, ne_eq, not_true_eq_false, if_false]
            exact Or.inl (copyRowL_total t hi h)
          · simp only [h, ne_eq, not_false_eq_true, if_true]
            exact Or.inr rfl
        · rw [rdL_eq_ok.2 h3, ok_bind]
          simp only [h4, ne_eq, not_false_eq_true, if_true]
          rfl

/-- Construction from rectangular slices, with or without copying. -/
theorem Arr.fromSlices_ok {d : List (List α)} {r c : Nat} {A : Nat → Nat → α} (h : Rect d r c A)
    (hr : 0 < r) (hc : 0 < c) (cp : Bool) (slack : Nat → Nat) :
    ∃ m : Arr α r c, Arr.fromSlices (some d) cp slack = .ok ⟨r, c, m⟩ ∧ Shows m.at r c A := by
  unfold Arr.fromSlices
  cases cp with
  | true =>
    obtain ⟨m, e, h', -⟩ := Arr.copyIn_ok h hr hc
    exact ⟨m, e, m.shows_of h'⟩
  | false =>
    obtain ⟨row0, h01, h02, -⟩ := h.2 0 hr
    have hl := h.1
    subst hl
    simp only [Bool.false_eq_true, if_false, show d.length ≠ 0 by omega, rdL_eq_ok.2 h01, ok_bind]
    rw [if_neg (by omega), forUp_check_ok (fun i _ hi => by
      obtain ⟨ri, h1, h2, -⟩ := h.2 i hi
      simp only [rdL_eq_ok.2 h1, ok_bind, h2, h02, ne_eq, not_true_eq_false, if_false]; rfl)]
    subst h02
    exact ⟨_, rfl, Arr.shows_of _ fun i j hi hj => rect_tab h hi hj⟩

/-- Construction from empty or ragged slices: refused, by a panic when copying and by an error
value otherwise. -/
theorem Arr.fromSlices_bad {sub : Option (List (List α))} (slack : Nat → Nat)
    (hd : ∀ d p q B, sub = some d → Rect d p q B → p = 0 ∨ q = 0) :
    (∃ s, Arr.fromSlices sub true slack = .error (.pan s)) ∧
      ∃ s, Arr.fromSlices sub false slack = .error (.err s) := by
  refine ⟨Arr.copyIn_bad hd, ?_⟩
  unfold Arr.fromSlices
  cases sub with
  | none => exact ⟨_, rfl⟩
  | some d =>
    simp only [Bool.false_eq_true, if_false]
    rcases ragged_cases (fun p q B h => hd d p q B rfl h) with rfl | ⟨row0, h0, h | ⟨i, h1, h2, ri, h3, h4⟩⟩
    · exact ⟨_, rfl⟩
    · have hl : d.length ≠ 0 := by rintro h; rw [List.length_eq_zero_iff.1 h] at h0; simp at h0
      simp only [hl, if_false, rdL_eq_ok.2 h0, ok_bind, h, if_true]
      exact ⟨_, rfl⟩
    · simp only [show d.length ≠ 0 by omega, if_false, rdL_eq_ok.2 h0, ok_bind]
      split
      · exact ⟨_, rfl⟩
      · rw [forUp_check_err (e := Fault.err .dim) (fun i _ hi => ?_) h1 h2 ?_]
        · exact ⟨_, rfl⟩
        · rw [rdL_eq_ok.2 h3, ok_bind]
          simp only [h4, ne_eq, not_false_eq_true, if_true]
          rfl
        · rw [rdL_ok hi, ok_bind]
          split
          · exact Or.inr rfl
          · exact Or.inl rfl

/-- The one-column matrix built from a slice. -/
theorem Arr.fromSlice_ok {v : List α} {n : Nat} {f : Nat → α} (h : IsList v n f) :
    ∃ m : Arr α n 1, Arr.fromSlice (some v) = .ok ⟨n, 1, m⟩ ∧ Shows m.at n 1 fun i _ => f i := by
  obtain ⟨rfl, h⟩ := h
  have h' : IsList v v.length f := ⟨rfl, h⟩
  have key : ∃ t : Tab α v.length 1, forUp 0 v.length (fun row t => do
      Jag.set t row 0 (← rdL v row)) (Jag.zero v.length (fun _ => 1)) = .ok t ∧
      Wr (fun x _ => f x) (fun x y => x < v.length ∧ y = 0)
        (Jag.zero (α := α) v.length (fun _ => 1)).f t.f := by
    refine Wp.exists_ok ?_
    refine (wr_loop' (fun t : Tab α v.length 1 => t.f) (fun x _ => f x) (fun i x y => x = i ∧ y = 0)
      (Nat.zero_le _) ?_).imp ?_
    · intro i t _ hi _
      rw [h'.rdL hi, ok_bind, Tab.set_ok hi (by omega)]
      exact Wr.upd2 rfl
    · intro t' ht'
      refine ht'.congr fun x y => ?_
      constructor
      · rintro ⟨k, -, hk, rfl, hy⟩; exact ⟨hk, hy⟩
      · rintro ⟨hx, hy⟩; exact ⟨x, by omega, hx, rfl, hy⟩
  obtain ⟨t, e, w⟩ := key
  unfold Arr.fromSlice
  dsimp only
  rw [e]
  exact ⟨_, rfl, Arr.shows_of _ fun i j hi hj => (w i j).1 ⟨hi, by omega⟩⟩

theorem Blk.fromSlices_ok {d : List (List α)} {r c : Nat} {A : Nat → Nat → α} (h : Rect d r c A)
    (hr : 0 < r) (hc : 0 < c) :
    ∃ m : Blk α r c, Blk.fromSlices d = .ok ⟨r, c, m⟩ ∧ Shows m.at r c A := by
  obtain ⟨row0, h01, h02, -⟩ := h.2 0 hr
  have hl := h.1
  subst hl
  subst h02
  obtain ⟨b, e, hb⟩ := toBlocksLayout_ok h
  unfold Blk.fromSlices
  simp only [rdL_eq_ok.2 h01, ok_bind, e]
  rw [if_neg (by omega), if_neg (by omega)]
  exact ⟨_, rfl, Blk.shows_of _ hb⟩

/-- Empty or ragged slices are refused by the block constructor: an index panic for no rows, a
dimension panic for ragged rows, an error for rows without columns. -/
theorem Blk.fromSlices_bad {d : List (List α)} (hd : ∀ p q B, Rect d p q B → p = 0 ∨ q = 0) :
    ∃ f, Blk.fromSlices d = .error f ∧ (f = .rt ↔ d = []) := by
  unfold Blk.fromSlices
  by_cases hl : d = []
  · subst hl; exact ⟨.rt, rfl, by simp⟩
  · have hpos : 0 < d.length := List.length_pos_iff.2 hl
    obtain ⟨row0, h0⟩ : ∃ row0, d[0]? = some row0 := ⟨d[0], List.getElem?_eq_getElem hpos⟩
    simp only [rdL_eq_ok.2 h0, ok_bind]
    by_cases hrag : ∃ i, i < d.length ∧ ∃ ri, d[i]? = some ri ∧ ri.length ≠ row0.length
    · obtain ⟨i, h2, ri, h3, h4⟩ := hrag
      unfold toBlocksLayout
      dsimp only
      rw [forUp_check_err (e := Fault.pan .dim) (fun i _ hi => ?_) (Nat.zero_le i) h2 ?_]
      · exact ⟨_, rfl, by simp [hl]⟩
      · rw [rdL_eq_ok.2 h3, ok_bind]
        simp only [h4, ne_eq, not_false_eq_true, if_true]
        rfl
      · rw [rdL_ok hi, ok_bind]
        split
        · exact Or.inr rfl
        · exact Or.inl rfl
    · have hrect : Rect d d.length row0.length
          (fun i j => ((d[i]?.getD [])[j]?).getD Flt.zero) := by
        refine ⟨rfl, fun i hi => ?_⟩
        have hlen : d[i].length = row0.length := by
          by_contra hne
          exact hrag ⟨i, hi, _, List.getElem?_eq_getElem hi, hne⟩
        refine ⟨d[i], List.getElem?_eq_getElem hi, hlen, fun j hj => ?_⟩
        simp only [List.getElem?_eq_getElem (by omega : j < d[i].length),
          List.getElem?_eq_getElem hi, Option.getD_some]
      obtain ⟨b, e, -⟩ := toBlocksLayout_ok hrect
      have := hd _ _ _ hrect
      simp only [e, ok_bind]
      rw [if_neg (by omega), if_pos (by omega)]
      exact ⟨_, rfl, by simp [hl]⟩

/-! ## Equality -/

/-- Two matrices have the same dimensions and entrywise `==` entries. -/
def Spec.entEq (r c p q : Nat) (A B : Nat → Nat → α) : Prop :=
  p = r ∧ q = c ∧ ∀ i j, i < r → j < c → Flt.eq (A i j) (B i j) = true

theorem forUpBrk_all {n : Nat} {body : Nat → Unit → Res (Unit ⊕ Unit)} {P : Nat → Prop}
    (h : ∀ i, i < n → (P i ∧ body i () = .ok (.inl ())) ∨ (¬ P i ∧ body i () = .ok (.inr ()))) :
    ((∀ i, i < n → P i) ∧ forUpBrk 0 n body () = .ok (.inl ())) ∨
      ((¬ ∀ i, i < n → P i) ∧ forUpBrk 0 n body () = .ok (.inr ())) := by
  induction n with
  | zero => exact Or.inl ⟨fun i hi => by omega, forUpBrk_eq_self (le_refl _) _ _⟩
  | succ n ih =>
    rw [forUpBrk_last (Nat.zero_le _)]
    rcases ih fun i hi => h i (by omega) with ⟨h1, h2⟩ | ⟨h1, h2⟩
    · rw [h2, ok_bind]
      dsimp only
      rcases h n (by omega) with ⟨h3, h4⟩ | ⟨h3, h4⟩
      · refine Or.inl ⟨fun i hi => ?_, h4⟩
        rcases Nat.lt_succ_iff_lt_or_eq.1 hi with h | rfl
        · exact h1 i h
        · exact h3
      · exact Or.inr ⟨fun hall => h3 (hall n (by omega)), h4⟩
    · rw [h2]
      exact Or.inr ⟨fun hall => h1 fun i hi => hall i (by omega), rfl⟩

/-- The loop of the three `Equals` methods. -/
theorem equals_loop {r c : Nat} {x y : Int → Int → Res α} {A B : Nat → Nat → α}
    (hx : ∀ i j : Nat, i < r → j < c → x i j = .ok (A i j))
    (hy : ∀ i j : Nat, i < r → j < c → y i j = .ok (B i j)) :
    ∃ b, (do
      let s ← forUpBrk 0 r (fun row (_ : Unit) => do
        let t ← forUpBrk 0 c (fun col (_ : Unit) => do
          let x ← x row col
          let y ← y row col
          return if Flt.eq x y then .inl () else .inr ()) ()
        return t) ()
      return match s with
        | .inl _ => true
        | .inr _ => false : Res Bool) = .ok b ∧
      (b = true ↔ ∀ i j, i < r → j < c → Flt.eq (A i j) (B i j) = true) := by
  have h1 : ∀ row, row < r → _ := fun row hrow =>
    forUpBrk_all (n := c) (P := fun col => Flt.eq (A row col) (B row col) = true)
      (body := fun col (_ : Unit) => do
          let x ← x row col
          let y ← y row col
          return if Flt.eq x y then .inl () else .inr ()) (fun col hcol => by
        rw [hx row col hrow hcol, hy row col hrow hcol, ok_bind, ok_bind]
        by_cases h : Flt.eq (A row col) (B row col) = true
        · rw [if_pos h]; exact Or.inl ⟨h, rfl⟩
        · rw [if_neg h]; exact Or.inr ⟨h, rfl⟩)
  rcases forUpBrk_all (n := r)
    (P := fun row => ∀ col, col < c → Flt.eq (A row col) (B row col) = true)
    (body := fun row (_ : Unit) => do
        let t ← forUpBrk 0 c (fun col (_ : Unit) => do
          let x ← x row col
          let y ← y row col
          return if Flt.eq x y then .inl () else .inr ()) ()
        return t) (fun row hrow => by
      rcases h1 row hrow with ⟨h2, h3⟩ | ⟨h2, h3⟩
      · exact Or.inl ⟨h2, h3⟩
      · exact Or.inr ⟨h2, h3⟩) with ⟨h2, h3⟩ | ⟨h2, h3⟩
  · rw [h3]
    exact ⟨true, rfl, by simpa using fun i j hi hj => h2 i hi j hj⟩
  · rw [h3]
    exact ⟨false, rfl, ⟨fun h => by simp at h, fun h => absurd (fun i hi j hj => h i j hi hj) h2⟩⟩

section
variable {r c p q : Nat}

theorem Arr.equals_iff (a : Arr α r c) (b : Mat α p q) (hr : 0 < r) :
    ∃ t, a.equals b = .ok t ∧ (t = true ↔ entEq r c p q a.data.f b.ent) := by
  unfold Arr.equals entEq
  rw [a.colDim_ok hr, ok_bind]
  by_cases h : p = r ∧ q = c
  · obtain ⟨rfl, rfl⟩ := h
    rw [if_neg (by simp)]
    obtain ⟨t, e, ht⟩ := equals_loop (x := a.at) (y := b.at) (fun i j hi hj => a.at_ok hi hj)
      (fun i j hi hj => b.at_ok hi hj)
    exact ⟨t, e, by simpa using ht⟩
  · rw [if_pos (by omega)]
    exact ⟨false, rfl, by simp; tauto⟩

theorem Blk.equals_iff (a : Blk α r c) (b : Mat α p q) :
    ∃ t, a.equals b = .ok t ∧ (t = true ↔ entEq r c p q a.ent b.ent) := by
  unfold Blk.equals entEq
  by_cases h : p = r ∧ q = c
  · obtain ⟨rfl, rfl⟩ := h
    rw [if_neg (by simp)]
    obtain ⟨t, e, ht⟩ := equals_loop (x := a.at) (y := b.at) (fun i j hi hj => a.at_ok hi hj)
      (fun i j hi hj => b.at_ok hi hj)
    exact ⟨t, e, by simpa using ht⟩
  · rw [if_pos (by omega)]
    exact ⟨false, rfl, by simp; tauto⟩

theorem Dia.equals_iff {n : Nat} (a : Dia α n) (b : Mat α p q) :
    ∃ t, a.equals b = .ok t ∧ (t = true ↔ entEq n n p q (Mat.dia a).ent b.ent) := by
  unfold Dia.equals entEq
  by_cases h : p = n ∧ q = n
  · obtain ⟨rfl, h⟩ := h
    subst h
    rw [if_neg (by simp)]
    obtain ⟨t, e, ht⟩ := equals_loop (x := a.at) (y := b.at) (A := (Mat.dia a).ent)
      (fun i j hi hj => a.at_ok hi hj) (fun i j hi hj => b.at_ok hi hj)
    exact ⟨t, e, by simpa using ht⟩
  · rw [if_pos (by omega)]
    exact ⟨false, rfl, by simp; tauto⟩

/-! ## Refusals of the row-array line operations -/

theorem Arr.rowMatrixAt_err (m : Arr α r c) {i : Int} (hi : ¬ (0 ≤ i ∧ i < r)) :
    m.rowMatrixAt i = .error (.pan .range) := by
  unfold Arr.rowMatrixAt
  simp only [checkRowIndex_err hi, must_err, error_bind]

theorem Arr.columnMatrixAt_err (m : Arr α r c) {j : Int} (hr : 0 < r) (hj : ¬ (0 ≤ j ∧ j < c)) :
    m.columnMatrixAt j = .error (.pan .range) := by
  unfold Arr.columnMatrixAt
  simp only [m.colDim_ok hr, ok_bind, checkColumnIndex_err hj, must_err, error_bind]

theorem Arr.setRowMatrix_range (m : Arr α r c) {i : Int} (b : Mat α p q)
    (hi : ¬ (0 ≤ i ∧ i < r)) : m.setRowMatrix i b = .error (.pan .range, m) := by
  unfold Arr.setRowMatrix
  simp only [checkRowIndex_err hi, must_err, res_at_error, error_bind]

theorem Arr.setRowMatrix_dim (m : Arr α r c) {i : Int} (b : Mat α p q)
    (hi : 0 ≤ i ∧ i < r) (h : ¬ (p = 1 ∧ q = c)) :
    m.setRowMatrix i b = .error (.pan .matDim, m) := by
  unfold Arr.setRowMatrix
  simp only [checkRowIndex_ok hi, must_ok, res_at_ok, ok_bind, m.colDim_ok (by omega)]
  rw [if_pos (by tauto)]
  rfl

theorem Arr.setColumnMatrix_range (m : Arr α r c) {j : Int} (b : Mat α p q) (hr : 0 < r)
    (hj : ¬ (0 ≤ j ∧ j < c)) : m.setColumnMatrix j b = .error (.pan .range, m) := by
  unfold Arr.setColumnMatrix
  simp only [m.colDim_ok hr, res_at_ok, ok_bind, checkColumnIndex_err hj, must_err, res_at_error,
    error_bind]

theorem Arr.setColumnMatrix_dim (m : Arr α r c) {j : Int} (b : Mat α p q) (hr : 0 < r)
    (hj : 0 ≤ j ∧ j < c) (h : ¬ (p = r ∧ q = 1)) :
    m.setColumnMatrix j b = .error (.pan .matDim, m) := by
  unfold Arr.setColumnMatrix
  simp only [m.colDim_ok hr, res_at_ok, ok_bind, checkColumnIndex_ok hj, must_ok]
  rw [if_pos (by tauto)]
  rfl

theorem Arr.setRowVector_range (m : Arr α r c) {i : Int} (v : RVec α)
    (hi : ¬ (0 ≤ i ∧ i < r)) : m.setRowVector i v = .error (.pan .range, m) := by
  unfold Arr.setRowVector
  simp only [checkRowIndex_err hi, must_err, res_at_error, error_bind]

theorem Arr.setRowVector_dim (m : Arr α r c) {i : Int} (v : RVec α)
    (hi : 0 ≤ i ∧ i < r) (h : v.dim ≠ c) : m.setRowVector i v = .error (.pan .matDim, m) := by
  unfold Arr.setRowVector
  simp only [checkRowIndex_ok hi, must_ok, res_at_ok, ok_bind, m.colDim_ok (by omega)]
  rw [if_pos h]
  rfl

theorem Arr.setColumnVector_dim (m : Arr α r c) {j : Int} (v : RVec α) (hr : 0 < r)
    (h : v.dim ≠ r) : m.setColumnVector j v = .error (.pan .matDim, m) := by
  unfold Arr.setColumnVector
  simp only [m.colDim_ok hr, res_at_ok, ok_bind]
  rw [if_pos h]
  rfl

/-- `SetColumnVector` discards the result of its column check, so an out-of-range column is stopped
by the Go runtime, before any write. -/
theorem Arr.setColumnVector_range (m : Arr α r c) {j : Int} (v : RVec α) (hr : 0 < r)
    (h : v.dim = r) (hj : ¬ (0 ≤ j ∧ j < c)) :
    m.setColumnVector j v = .error (.rt, m) := by
  have hv : IsList v.list r (fun i => v.list[i]?.getD Flt.zero) := by
    rw [RVec.dim_eq] at h
    exact ⟨h, fun i hi => by
      simp only [List.getElem?_eq_getElem (show i < v.list.length by omega), Option.getD_some]⟩
  unfold Arr.setColumnVector
  simp only [m.colDim_ok hr, res_at_ok, ok_bind, h, ne_eq, not_true_eq_false, if_false]
  rw [forUp_step hr]
  have := RVec.at_ok hv hr
  rw [this]
  simp only [res_at_ok, ok_bind]
  unfold Arr.rawSet
  by_cases h1 : j < 0
  · simp only [h1, if_true]; rfl
  · simp only [h1, if_false]
    have : Jag.set m.data 0 j.toNat ((fun i => v.list[i]?.getD Flt.zero) 0) = .error .rt := by
      unfold Jag.set; rw [if_neg (by dsimp only; omega)]
    dsimp only at this ⊢
    rw [this]
    rfl

end

end Linear
