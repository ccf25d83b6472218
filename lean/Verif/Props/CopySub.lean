import Verif.Lemmas.CopySub
import Verif.Lemmas.Solve
import Verif.Props.Walks
import Verif.Props.Construct

/-!
# C59: copies of submatrices into a caller's slices, and submatrices by index lists
-/

set_option linter.unusedSectionVars false

namespace Linear

open Spec

variable {α : Type} [Flt α] {r c : Nat}

/-! ## Specification -/

/-- A non-empty list of indices below `n`. -/
def Spec.Picks (l : List Int) (n : Nat) : Prop := l ≠ [] ∧ ∀ x, x ∈ l → 0 ≤ x ∧ x < n

/-- The element `i` of a list of indices. -/
def Spec.pick (l : List Int) (i : Nat) : Nat := (l.getD i 0).toNat

/-! ## `CopySubMatrix` -/

/-- **C59.** With a window inside the matrix and room for it in the destination, exactly the corner of the
destination is overwritten with the entries of the window, and no length changes. -/
theorem C59_copy {m : Mat α r c} {A : Nat → Nat → α} (hA : Shows m.at r c A)
    {sr er sc ec : Int} (hw : window r c sr er sc ec) {dest : List (List α)}
    (hd : room dest (er + 1 - sr).toNat (ec + 1 - sc).toNat) :
    ∃ d', m.copySubMatrix sr er sc ec dest = .ok d' ∧
      Corner dest d' (er + 1 - sr).toNat (ec + 1 - sc).toNat
        fun i j => A (sr.toNat + i) (sc.toNat + j) := by
  have hw' := hw
  unfold window at hw'
  obtain ⟨sr, rfl⟩ := Int.eq_ofNat_of_zero_le hw'.1
  obtain ⟨er, rfl⟩ := Int.eq_ofNat_of_zero_le (show 0 ≤ er by omega)
  obtain ⟨sc, rfl⟩ := Int.eq_ofNat_of_zero_le hw'.2.2.2.1
  obtain ⟨ec, rfl⟩ := Int.eq_ofNat_of_zero_le (show 0 ≤ ec by omega)
  have e1 : ((er : Int) + 1 - sr).toNat = er + 1 - sr := by omega
  have e2 : ((ec : Int) + 1 - sc).toNat = ec + 1 - sc := by omega
  rw [e1, e2] at hd ⊢
  exact Mat.copySubMatrix_ok hA hw hd

/-- **C59.** Every other call is refused before anything is written. -/
theorem C59_copy_refused (m : Mat α r c) {sr er sc ec : Int} {dest : List (List α)}
    (h : ¬ (window r c sr er sc ec ∧ room dest (er + 1 - sr).toNat (ec + 1 - sc).toNat)) :
    ∃ f, m.copySubMatrix sr er sc ec dest = .error (f, dest) := by
  unfold Mat.copySubMatrix
  by_cases hw : window r c sr er sc ec
  swap
  · obtain ⟨s, e⟩ := checkSubMatrixIndex_err hw
    exact ⟨.pan s, by rw [e]; rfl⟩
  rw [checkSubMatrixIndex_ok hw, must_ok, res_at_ok, ok_bind]
  have hr : ¬ room dest (er + 1 - sr).toNat (ec + 1 - sc).toNat := fun hr => h ⟨hw, hr⟩
  unfold window at hw
  have hR : 0 < (er + 1 - sr).toNat := by omega
  generalize (er + 1 - sr).toNat = R at *
  generalize (ec + 1 - sc).toNat = C at *
  cases e0 : dest[0]? with
  | none =>
    have : dest.length ≤ 0 := by simpa using e0
    rw [rdL_rt this]
    exact ⟨.rt, rfl⟩
  | some row0 =>
    rw [rdL_eq_ok.2 e0, res_at_ok, ok_bind]
    by_cases h1 : dest.length < R ∨ row0.length < C
    · rw [if_pos h1]; exact ⟨.pan .matDim, rfl⟩
    · rw [if_neg h1]
      have h2 : ∃ i, 1 ≤ i ∧ i < R ∧ ∃ row, dest[i]? = some row ∧ row.length < C := by
        unfold room at hr
        push Not at hr
        obtain ⟨i, hi, h3⟩ := hr
        have hlt : i < dest.length := by omega
        have h4 := h3 dest[i] (List.getElem?_eq_getElem hlt)
        refine ⟨i, ?_, hi, dest[i], List.getElem?_eq_getElem hlt, h4⟩
        rcases Nat.eq_zero_or_pos i with rfl | hi0
        · rw [List.getElem?_eq_getElem hlt] at e0
          cases e0
          omega
        · omega
      obtain ⟨i, hi1, hi2, row, hrow, hlen⟩ := h2
      have key : ∀ b, i < b → b ≤ R → forUp 1 b (fun i (_ : Unit) => do
          if (← (rdL dest i).at dest).length < C then throw (Fault.pan .matDim, dest)) () =
            (.error (.pan .matDim, dest) : Except (Fault × List (List α)) Unit) := by
        intro b hb hbR
        have hwp : Wp (forUp 1 b (fun i (_ : Unit) => do
          if (← (rdL dest i).at dest).length < C then throw (Fault.pan .matDim, dest)) ())
            (fun _ => False) (fun e : Fault × List (List α) => e = (.pan .matDim, dest)) := by
          refine (wp_forUp (fun k (_ : Unit) => ∀ i, 1 ≤ i → i < k → ∀ row, dest[i]? = some row →
            C ≤ row.length) (by omega) (by intro i; omega) ?_).imp ?_
          · intro k _ hk1 hk2 hI
            have hlt : k < dest.length := by omega
            rw [rdL_ok hlt, res_at_ok, ok_bind]
            by_cases hc : dest[k].length < C
            · rw [if_pos hc]; exact rfl
            · rw [if_neg hc]
              intro x hx1 hx2 row hrow
              by_cases e : x = k
              · subst e
                rw [List.getElem?_eq_getElem hlt] at hrow
                cases hrow; omega
              · exact hI x hx1 (by omega) row hrow
          · intro _ hI
            have := hI i hi1 hb row hrow
            omega
        generalize forUp 1 b _ () = x at hwp
        cases x with
        | ok y => exact hwp.elim
        | error e => exact congrArg _ hwp
      refine ⟨.pan .matDim, ?_⟩
      refine (congrArg (fun x : Except (Fault × List (List α)) Unit => x >>= fun _ => _)
        (key R hi2 le_rfl) :).trans ?_
      rfl

/-! ## `CopySubMatrixFromIndices` -/

theorem forM_ok {ε β : Type} {l : List β} {f : β → Except ε Unit} (h : ∀ x, x ∈ l → f x = .ok ()) :
    l.forM f = .ok () := by
  induction l with
  | nil => rfl
  | cons x l ih =>
    show (f x >>= fun _ => l.forM f) = _
    rw [h x (by simp), ok_bind, ih fun y hy => h y (by simp [hy])]

theorem forM_err {ε β : Type} {l : List β} {f : β → Except ε Unit} {e : ε}
    (hf : ∀ x, f x = .ok () ∨ f x = .error e) (h : ∃ x, x ∈ l ∧ f x ≠ .ok ()) : l.forM f = .error e := by
  induction l with
  | nil => obtain ⟨x, hx, -⟩ := h; cases hx
  | cons y l ih =>
    show (f y >>= fun _ => l.forM f) = _
    rcases hf y with hy | hy
    · rw [hy, ok_bind]
      obtain ⟨x, hx, hx'⟩ := h
      rcases List.mem_cons.1 hx with rfl | hx
      · exact absurd hy hx'
      · exact ih ⟨x, hx, hx'⟩
    · rw [hy]; rfl

theorem checkIndices_ok {rows cols : List Int} (hr : Picks rows r) (hc : Picks cols c) :
    checkSubMatrixIndexFromIndices r c (some rows) (some cols) = .ok () := by
  unfold checkSubMatrixIndexFromIndices
  have h1 : ¬ rows.length = 0 := fun h => hr.1 (List.length_eq_zero_iff.1 h)
  have h2 : ¬ cols.length = 0 := fun h => hc.1 (List.length_eq_zero_iff.1 h)
  simp only [h1, h2, if_false]
  show (rows.forM (checkRowIndex r) >>= fun _ => cols.forM (checkColumnIndex c)) = _
  rw [forM_ok fun x hx => checkRowIndex_ok (hr.2 x hx), ok_bind,
    forM_ok fun x hx => checkColumnIndex_ok (hc.2 x hx)]

theorem checkIndices_err {rows cols : Option (List Int)}
    (h : ¬ ∃ a b, rows = some a ∧ cols = some b ∧ Picks a r ∧ Picks b c) :
    ∃ s, checkSubMatrixIndexFromIndices r c rows cols = .error (.err s) := by
  unfold checkSubMatrixIndexFromIndices
  match rows, cols with
  | none, _ => exact ⟨.inv, by cases cols <;> rfl⟩
  | some a, none => exact ⟨.inv, rfl⟩
  | some a, some b =>
    by_cases h1 : a.length = 0
    · exact ⟨.noDat, by simp only [h1, if_true]; rfl⟩
    by_cases h2 : b.length = 0
    · exact ⟨.noDat, by simp only [h1, h2, if_true, if_false]; rfl⟩
    simp only [h1, h2, if_false]
    refine ⟨.range, ?_⟩
    show (a.forM (checkRowIndex r) >>= fun _ => b.forM (checkColumnIndex c)) = _
    by_cases ha : ∀ x, x ∈ a → 0 ≤ x ∧ x < r
    · rw [forM_ok fun x hx => checkRowIndex_ok (ha x hx), ok_bind]
      refine forM_err (fun x => ?_) ?_
      · by_cases hx : 0 ≤ x ∧ x < c
        · exact .inl (checkColumnIndex_ok hx)
        · exact .inr (checkColumnIndex_err hx)
      · by_contra hn
        push Not at hn
        refine h ⟨a, b, rfl, rfl, ⟨fun e => h1 (by rw [e]; rfl), ha⟩, fun e => h2 (by rw [e]; rfl), ?_⟩
        intro x hx
        by_contra hx'
        have := hn x hx
        rw [checkColumnIndex_err hx'] at this
        cases this
    · have hx : a.forM (checkRowIndex r) = .error (.err .range) := by
        refine forM_err (fun x => ?_) ?_
        · by_cases hx : 0 ≤ x ∧ x < r
          · exact .inl (checkRowIndex_ok hx)
          · exact .inr (checkRowIndex_err hx)
        · push Not at ha
          obtain ⟨x, hx, hx'⟩ := ha
          refine ⟨x, hx, ?_⟩
          rw [checkRowIndex_err (by omega)]
          simp
      rw [hx]
      rfl

theorem picks_get {l : List Int} {n i : Nat} (h : Picks l n) (hi : i < l.length) :
    rdL l i = .ok ((pick l i : Nat) : Int) ∧ pick l i < n := by
  have h1 := h.2 l[i] (List.getElem_mem hi)
  have h2 : pick l i = l[i].toNat := by unfold pick; rw [List.getD_eq_getElem?_getD]; simp [hi]
  rw [rdL_ok hi, h2]
  refine ⟨congrArg _ (by omega), by omega⟩

/-- **C59.** With valid index lists and room in the destination, exactly its corner is overwritten with the
chosen entries. -/
theorem C59_indices {m : Mat α r c} {A : Nat → Nat → α} (hA : Shows m.at r c A) {rows cols : List Int}
    (hr : Picks rows r) (hc : Picks cols c) {dest : List (List α)}
    (hd : room dest rows.length cols.length) :
    ∃ d', m.copySubMatrixFromIndices (some rows) (some cols) dest = .ok d' ∧
      Corner dest d' rows.length cols.length fun i j => A (pick rows i) (pick cols j) := by
  unfold Mat.copySubMatrixFromIndices
  have hR : 0 < rows.length := List.length_pos_of_ne_nil hr.1
  obtain ⟨row0, h0, h0'⟩ := hd 0 hR
  have hlen : rows.length ≤ dest.length := by
    by_contra hn
    obtain ⟨row, h, _⟩ := hd (rows.length - 1) (by omega)
    rw [List.getElem?_eq_none (by omega)] at h
    cases h
  rw [checkIndices_ok hr hc, must_ok, res_at_ok, ok_bind]
  dsimp only [Option.getD_some]
  rw [rdL_eq_ok.2 h0, res_at_ok, ok_bind, if_neg (by omega)]
  refine Wp.exists_ok (wp_forUp (fun k (l' : List (List α)) =>
    Corner dest l' k cols.length fun i j => A (pick rows i) (pick cols j)) (Nat.zero_le _) ⟨rfl, fun x y => by
      rw [if_neg (by omega)]⟩ ?_)
  rintro i d - hi ⟨h1, h2⟩
  have hcell : ∀ j, j < cols.length → ∃ v, cell d i j = some v := fun j hj => by
    obtain ⟨v, hv⟩ := room_cell hd hi hj
    exact ⟨v, by rw [h2, if_neg (by omega), hv]⟩
  obtain ⟨row, hrow, hl⟩ : ∃ row, d[i]? = some row ∧ cols.length ≤ row.length := by
    have hC : 0 < cols.length := List.length_pos_of_ne_nil hc.1
    obtain ⟨v, hv⟩ := hcell (cols.length - 1) (by omega)
    obtain ⟨row, h3, h4⟩ := cell_some hv
    exact ⟨row, h3, by omega⟩
  obtain ⟨l', e, h3, h4⟩ := copyRow_ok (l := d) (c := cols.length) (i := i)
    (fun j => A (pick rows i) (pick cols j)) hcell
    (body := fun j (d : List (List α)) => do
      let row ← (rdL d i).at d
      let v ← (m.at (← (rdL rows i).at d) (← (rdL cols j).at d)).at d
      if j < row.length then return d.set i (row.set j v) else throw (Fault.rt, d)) (by
    intro j d row hj h3 h4
    obtain ⟨g1, g2⟩ := picks_get hr hi
    obtain ⟨g3, g4⟩ := picks_get hc hj
    rw [rdL_eq_ok.2 h3, res_at_ok, ok_bind, g1, res_at_ok, ok_bind, g3, res_at_ok, ok_bind,
      hA.ok g2 g4, res_at_ok, ok_bind, if_pos h4]
    rfl)
  rw [rdL_eq_ok.2 hrow, res_at_ok, ok_bind, if_neg (by omega)]
  show Wp (forUp 0 cols.length _ d) _ _
  rw [e]
  refine ⟨by rw [h3, h1], fun x y => ?_⟩
  rw [h4, h2]
  by_cases e : x = i ∧ y < cols.length
  · rw [if_pos e, if_pos (by omega), e.1]
  · rw [if_neg e]
    refine if_congr ?_ rfl rfl
    omega

/-- **C59.** Index lists that are nil, empty or out of range, too few destination rows, or a first row that
is too short are refused before anything is written. -/
theorem C59_indices_refused (m : Mat α r c) {rows cols : Option (List Int)} {dest : List (List α)}
    (h : ¬ ∃ a b, rows = some a ∧ cols = some b ∧ Picks a r ∧ Picks b c ∧ a.length ≤ dest.length ∧
      ∃ row, dest[0]? = some row ∧ b.length ≤ row.length) :
    ∃ f, m.copySubMatrixFromIndices rows cols dest = .error (f, dest) := by
  unfold Mat.copySubMatrixFromIndices
  by_cases hp : ∃ a b, rows = some a ∧ cols = some b ∧ Picks a r ∧ Picks b c
  swap
  · obtain ⟨s, e⟩ := checkIndices_err hp
    exact ⟨.pan s, by rw [e]; rfl⟩
  obtain ⟨a, b, rfl, rfl, ha, hb⟩ := hp
  rw [checkIndices_ok ha hb, must_ok, res_at_ok, ok_bind]
  dsimp only [Option.getD_some]
  cases e0 : dest[0]? with
  | none =>
    have : dest.length ≤ 0 := by simpa using e0
    rw [rdL_rt this]
    exact ⟨.rt, rfl⟩
  | some row0 =>
    rw [rdL_eq_ok.2 e0, res_at_ok, ok_bind, if_pos]
    · exact ⟨.pan .matDim, rfl⟩
    · by_contra hn
      exact h ⟨a, b, rfl, rfl, ha, hb, by omega, row0, e0, by omega⟩

/-- A destination whose second row is too short. -/
def Spec.shortDest : List (List ℚ) := [[0, 0], [0]]

/-- The identity matrix of order 2, used with `shortDest`. -/
def Spec.copyCase : Mat ℚ 2 2 := .arr ⟨⟨fun i j => if i = j then 1 else 0⟩, fun _ => 0⟩

/-- **C59, refuted for later rows.** When a destination row after the first is too short,
`CopySubMatrixFromIndices` panics after it has overwritten the rows before. -/
theorem C59_indices_false : ∃ (rows cols : List Int) (f : Fault) (d : List (List ℚ)),
    Picks rows 2 ∧ Picks cols 2 ∧
    copyCase.copySubMatrixFromIndices (some rows) (some cols) shortDest = .error (f, d) ∧
    d ≠ shortDest :=
  ⟨[0, 1], [0, 1], .pan .matDim, [[1, 0], [0]], ⟨by decide, by decide⟩, ⟨by decide, by decide⟩,
    by decide +kernel, by decide +kernel⟩

/-! ## `SubMatrix` from index lists -/

theorem foldlM_ok_of {ε σ β : Type} {f : σ → β → Except ε σ} {l : List β}
    (h : ∀ s x, x ∈ l → ∃ s', f s x = .ok s') (s : σ) : ∃ s', l.foldlM f s = .ok s' := by
  induction l generalizing s with
  | nil => exact ⟨s, rfl⟩
  | cons x l ih =>
    obtain ⟨s1, h1⟩ := h s x (by simp)
    rw [List.foldlM_cons, h1, ok_bind]
    exact ih (fun s y hy => h s y (by simp [hy])) s1

theorem foldlM_err_of {ε σ β : Type} {f : σ → β → Except ε σ} {l : List β}
    (h : ∃ x, x ∈ l ∧ ∀ s, ∃ e, f s x = .error e) (s : σ) : ∃ e, l.foldlM f s = .error e := by
  induction l generalizing s with
  | nil => obtain ⟨x, hx, -⟩ := h; cases hx
  | cons y l ih =>
    rw [List.foldlM_cons]
    obtain ⟨x, hx, hx'⟩ := h
    rcases List.mem_cons.1 hx with rfl | hx
    · obtain ⟨e, he⟩ := hx' s
      exact ⟨e, by rw [he]; rfl⟩
    · cases hy : f s y with
      | error e => exact ⟨e, rfl⟩
      | ok s1 => exact ih ⟨x, hx, hx'⟩ s1

/-- The visitor of `SubMatrix`. -/
def subVis (m : Mat α r c) (rows columns : List Int) : VisC α Unit :=
  { start := fun _ _ _ _ _ _ t => .ok t
    visit := fun i j _ t => do
      let v ← m.at (← rdL rows i.toNat) (← rdL columns j.toNat)
      return (t, v)
    fin := fun t => .ok (t, Flt.zero) }

theorem Mat.updIn_row {τ : Type} (m : Mat α r c) (v : VisC α τ) (t : τ) :
    m.updIn .row v t = m.updRow v t := by
  cases m with
  | arr m => simp only [Mat.updIn, Mat.updRow]; cases m.updRow v t <;> rfl
  | blk m => simp only [Mat.updIn, Mat.updRow]; cases m.updRow v t <;> rfl
  | dia m => simp only [Mat.updIn, Mat.updRow]; cases m.updRow v t <;> rfl
  | ext m => rfl

theorem Mat.subMatrixOf_eq (m : Mat α r c) {rows cols : List Int} (hr : 0 < rows.length)
    (hc : 0 < cols.length) :
    ∃ out : Mat α rows.length cols.length, out.dense ∧
      m.subMatrixOf rows cols = match out.updIn .row (subVis m rows cols) () with
        | .ok (_, o) => .ok ⟨_, _, o⟩
        | .error (e, _) => .error e := by
  obtain ⟨out, e, h1, -⟩ := Mat.new_win (α := α) hr hc
  refine ⟨out, h1, ?_⟩
  unfold Mat.subMatrixOf
  refine (congrArg (fun x : Res (Mat α rows.length cols.length) => x.must >>= fun out =>
    match out.updRow (subVis m rows cols) () with
      | .ok (_, o) => (pure ⟨rows.length, cols.length, o⟩ : Res (SMat α))
      | .error (e, _) => throw e) e :).trans ?_
  rw [must_ok, ok_bind]
  rw [Mat.updIn_row]
  cases out.updRow (subVis m rows cols) () <;> rfl

/-- **C59.** `SubMatrix` with valid index lists is the matrix of the chosen entries. -/
theorem C59_subMatrix {m : Mat α r c} {A : Nat → Nat → α} (hA : Shows m.at r c A) {rows cols : List Int}
    (hr : Picks rows r) (hc : Picks cols c) :
    ∃ out : Mat α rows.length cols.length, m.subMatrixOf rows cols = .ok ⟨_, _, out⟩ ∧ out.dense ∧
      Shows out.at rows.length cols.length fun i j => A (pick rows i) (pick cols j) := by
  have hR : 0 < rows.length := List.length_pos_of_ne_nil hr.1
  have hC : 0 < cols.length := List.length_pos_of_ne_nil hc.1
  obtain ⟨out, ho, e⟩ := m.subMatrixOf_eq hR hC
  rw [e]
  obtain ⟨cells, B, h1, hB, h2⟩ := C17_refines ho hR .row
  have h3 := h2 (subVis m rows cols) ()
  have hv : ∀ i j, i < rows.length → j < cols.length → ∀ x t,
      (subVis m rows cols).visit i j x t = .ok (t, A (pick rows i) (pick cols j)) := by
    intro i j hi hj x t
    obtain ⟨g1, g2⟩ := picks_get hr hi
    obtain ⟨g3, g4⟩ := picks_get hc hj
    show (do
      let v ← m.at (← rdL rows (Int.toNat i)) (← rdL cols (Int.toNat j))
      return (t, v)) = _
    rw [Int.toNat_natCast, Int.toNat_natCast, g1, ok_bind, g3, ok_bind, hA.ok g2 g4]
    rfl
  obtain ⟨s', hs⟩ := foldlM_ok_of (ε := Fault × (Nat → Nat → α)) (l := cells)
    (f := fun (s : Unit × (Nat → Nat → α)) p => do
      let y ← ((subVis m rows cols).visit p.1 p.2 (s.2 p.1 p.2) s.1).at s.2
      return (y.1, fun x z => if x = p.1 ∧ z = p.2 then y.2 else s.2 x z)) (by
    intro s p hp
    have := (h1.2.2.2 p.1 p.2).1 hp
    rw [hv p.1 p.2 (by omega) (by omega), res_at_ok, ok_bind]
    exact ⟨_, rfl⟩) ((), B)
  have h4 : updWalk rows.length cols.length 0 (rows.length - 1) 0 (cols.length - 1) cells
      (subVis m rows cols) () B = .ok (((), Flt.zero), s'.2) := by
    unfold updWalk
    rw [show ((subVis m rows cols).start rows.length cols.length 0 (rows.length - 1) 0
      (cols.length - 1) ()) = .ok () from rfl, res_at_ok, ok_bind, hs]
    rfl
  rw [h4] at h3
  cases h5 : out.updIn .row (subVis m rows cols) () with
  | error f => rw [h5] at h3; exact h3.elim
  | ok y =>
    rw [h5] at h3
    obtain ⟨A', hA', h6⟩ := C17_update ho hR hB .row h5
    refine ⟨y.2, rfl, h3.2.1, hA'.congr fun i j hi hj => ?_⟩
    obtain ⟨t1, t2, h7⟩ := h6 i j hi hj
    rw [hv i j hi hj] at h7
    simp only [Except.ok.injEq, Prod.mk.injEq] at h7
    exact h7.2.symm

/-- **C59.** Every other pair of index lists is refused, although the check of the lists is ignored: empty
lists by the constructor, and an index out of range when its entry is read. -/
theorem C59_subMatrix_refused {m : Mat α r c} {A : Nat → Nat → α} (hA : Shows m.at r c A)
    {rows cols : List Int} (h : ¬ (Picks rows r ∧ Picks cols c)) :
    ∃ f, m.subMatrixOf rows cols = .error f := by
  by_cases hR : 0 < rows.length ∧ 0 < cols.length
  swap
  · have e : Mat.new (α := α) rows.length cols.length = .error (.err .notSPos) := by
      have h0 : ¬ (1 ≤ (rows.length : Int) ∧ 1 ≤ (cols.length : Int)) := by omega
      unfold Mat.new
      split
      · rw [(C01_arr (α := α) _ _).2 h0]; rfl
      · rw [(C01_blk (α := α) _ _).2 h0]; rfl
    refine ⟨.pan .notSPos, ?_⟩
    unfold Mat.subMatrixOf
    rw [e]
    rfl
  obtain ⟨hR, hC⟩ := hR
  obtain ⟨out, ho, e⟩ := m.subMatrixOf_eq hR hC
  rw [e]
  obtain ⟨cells, B, h1, hB, h2⟩ := C17_refines ho hR .row
  have h3 := h2 (subVis m rows cols) ()
  have hbad : ∃ i j, i < rows.length ∧ j < cols.length ∧ ∀ x t, ∃ f,
      (subVis m rows cols).visit i j x t = .error f := by
    have hb : ∃ i j, ∃ (hi : i < rows.length) (hj : j < cols.length),
        ¬ ((0 ≤ rows[i] ∧ rows[i] < r) ∧ 0 ≤ cols[j] ∧ cols[j] < c) := by
      by_contra hn
      push Not at hn
      refine h ⟨⟨List.ne_nil_of_length_pos hR, fun x hx => ?_⟩,
        List.ne_nil_of_length_pos hC, fun x hx => ?_⟩
      · obtain ⟨i, hi, rfl⟩ := List.getElem_of_mem hx
        exact (hn i 0 hi hC).1
      · obtain ⟨j, hj, rfl⟩ := List.getElem_of_mem hx
        exact (hn 0 j hR hj).2
    obtain ⟨i, j, hi, hj, hb⟩ := hb
    refine ⟨i, j, hi, hj, fun x t => ?_⟩
    have := hA rows[i] cols[j]
    refine ⟨.pan .range, ?_⟩
    show (do
      let v ← m.at (← rdL rows (Int.toNat i)) (← rdL cols (Int.toNat j))
      return (t, v)) = _
    rw [Int.toNat_natCast, Int.toNat_natCast, rdL_ok hi, ok_bind, rdL_ok hj, ok_bind, this]
    unfold at'
    rw [if_neg (by unfold inRange; omega)]
    rfl
  obtain ⟨i, j, hi, hj, hb⟩ := hbad
  obtain ⟨e', hs⟩ := foldlM_err_of (ε := Fault × (Nat → Nat → α)) (l := cells)
    (f := fun (s : Unit × (Nat → Nat → α)) p => do
      let y ← ((subVis m rows cols).visit p.1 p.2 (s.2 p.1 p.2) s.1).at s.2
      return (y.1, fun x z => if x = p.1 ∧ z = p.2 then y.2 else s.2 x z)) ⟨(i, j),
        (h1.2.2.2 i j).2 (by omega), fun s => by
        obtain ⟨f, hf⟩ := hb (s.2 i j) s.1
        refine ⟨(f, s.2), ?_⟩
        dsimp only
        rw [hf]; rfl⟩ ((), B)
  have h4 : updWalk rows.length cols.length 0 (rows.length - 1) 0 (cols.length - 1) cells
      (subVis m rows cols) () B = .error e' := by
    unfold updWalk
    rw [show ((subVis m rows cols).start rows.length cols.length 0 (rows.length - 1) 0
      (cols.length - 1) ()) = .ok () from rfl, res_at_ok, ok_bind, hs]
    rfl
  rw [h4] at h3
  cases h5 : out.updIn .row (subVis m rows cols) () with
  | error f => exact ⟨f.1, rfl⟩
  | ok y => rw [h5] at h3; exact h3.elim

/-! ## Witnesses -/

/-- Index lists with a repeated and an inverted choice, and a destination with room to spare. -/
example : Picks [1, 0, 1] 2 ∧ Picks [1] 2 ∧ room ([[0, 0], [0], [0, 0], []] : List (List ℚ)) 3 1 ∧
    copyCase.copySubMatrixFromIndices (some [1, 0, 1]) (some [1]) [[0, 0], [0], [0, 0], []] =
      .ok [[1, 0], [0], [1, 0], []] := by
  refine ⟨⟨by decide, by decide⟩, ⟨by decide, by decide⟩, ?_, by decide +kernel⟩
  intro i hi
  match i, hi with
  | 0, _ => exact ⟨_, rfl, by decide⟩
  | 1, _ => exact ⟨_, rfl, by decide⟩
  | 2, _ => exact ⟨_, rfl, by decide⟩

example : window 2 2 1 1 0 1 ∧ copyCase.copySubMatrix 1 1 0 1 [[7, 7, 7]] = .ok [[0, 1, 7]] :=
  ⟨by unfold window; omega, by decide +kernel⟩

end Linear
