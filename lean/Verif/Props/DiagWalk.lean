import Verif.Props.Diagonal
import Verif.Props.Walks

/-!
# C88: walks of diagonal matrices

The bounded walks of the diagonal storage discard the result of their index check, so the statements
below quantify over all bounds, legal or not. The specification works on the diagonal alone and on an
explicit list of cells with `Int` coordinates.
-/

set_option linter.unusedSectionVars false

namespace Linear

open Spec

variable {α : Type} [Flt α] {n : Nat} {τ : Type}

/-- The integers from `a` to `b`. -/
def Spec.span (a b : Int) : List Int := (List.range (b - a + 1).toNat).map fun k : Nat => a + (k : Int)

theorem mem_span {a b x : Int} : x ∈ span a b ↔ a ≤ x ∧ x ≤ b := by
  unfold span
  rw [List.mem_map]
  constructor
  · rintro ⟨k, hk, rfl⟩
    have := List.mem_range.1 hk
    omega
  · intro h
    exact ⟨(x - a).toNat, List.mem_range.2 (by omega), by omega⟩

/-- The cells of the rows `sr … er` and columns `sc … ec`: by columns for the column order, by rows for the two others. -/
def Spec.cellsOf (o : Order) (sr er sc ec : Int) : List (Int × Int) :=
  match o with
  | .col => (span sc ec).flatMap fun j => (span sr er).map fun i => (i, j)
  | _ => (span sr er).flatMap fun i => (span sc ec).map fun j => (i, j)

/-- A cell is visited exactly when it lies in the window. -/
theorem mem_cellsOf {o : Order} {sr er sc ec i j : Int} :
    (i, j) ∈ cellsOf o sr er sc ec ↔ (sr ≤ i ∧ i ≤ er) ∧ (sc ≤ j ∧ j ≤ ec) := by
  cases o <;>
  · simp only [cellsOf, List.mem_flatMap, List.mem_map, Prod.mk.injEq, mem_span]
    constructor
    · rintro ⟨a, ha, b, hb, rfl, rfl⟩
      omega
    · intro h
      first
        | exact ⟨i, h.1, j, h.2, rfl, rfl⟩
        | exact ⟨j, h.2, i, h.1, rfl, rfl⟩

/-- The visits of a reading walk over a list of cells of `diag D`. A cell outside the matrix ends it. -/
def Spec.dread (n : Nat) (D : Nat → α) (v : VisP α τ) : List (Int × Int) → τ → Res τ
  | [], t => .ok t
  | (i, j) :: l, t =>
    if inRange n n i j then
      match v.visit i j (diag D i.toNat j.toNat) t with
      | .ok t => dread n D v l t
      | .error f => .error f
    else .error (.pan .range)

/-- The visits of a changing walk over a list of cells of `diag D`. The new value of a diagonal cell is stored; that of
another cell has to be a zero. -/
def Spec.dchange (n : Nat) (v : VisC α τ) :
    List (Int × Int) → τ → (Nat → α) → Except (Fault × (Nat → α)) (τ × (Nat → α))
  | [], t, D => .ok (t, D)
  | (i, j) :: l, t, D =>
    if inRange n n i j then
      match v.visit i j (diag D i.toNat j.toNat) t with
      | .ok (t, x) =>
        if i = j then dchange n v l t (fun k => if (k : Int) = i then x else D k)
        else if Flt.ulpEq Flt.zero x then dchange n v l t D
        else .error (.pan .big, D)
      | .error f => .error (f, D)
    else .error (.pan .range, D)

/-- Outcome of a changing walk of a diagonal matrix: value and diagonal, or fault and diagonal. -/
def Spec.DiagWalk {β : Type} : Except (Fault × Mat α n n) (β × Mat α n n) →
    Except (Fault × (Nat → α)) (β × (Nat → α)) → Prop
  | .ok (x, m), .ok (y, D) => x = y ∧ Shows m.at n n (diag D)
  | .error (x, m), .error (y, D) => x = y ∧ Shows m.at n n (diag D)
  | _, _ => False

/-- The same for the storage. -/
private def Near {β : Type} : Except (Fault × Dia α n) (β × Dia α n) →
    Except (Fault × (Nat → α)) (β × (Nat → α)) → Prop
  | .ok (x, m), .ok (y, D) => x = y ∧ ∀ k, k < n → m.data.f k = D k
  | .error (x, m), .error (y, D) => x = y ∧ ∀ k, k < n → m.data.f k = D k
  | _, _ => False

private theorem forUp_range {ε σ : Type} (n : Nat) (body : Nat → σ → Except ε σ) (s : σ) :
    forUp 0 n body s = (List.range n).foldlM (fun s i => body i s) s := by
  induction n generalizing s with
  | zero => rfl
  | succ n ih =>
    rw [forUp_last (Nat.zero_le _), ih, List.range_succ, List.foldlM_append]
    simp only [List.foldlM_cons, List.foldlM_nil]
    congr 1
    funext s
    cases body n s <;> rfl

private theorem foldlM_flat {ε σ β γ : Type} (l : List β) (g : β → List γ) (f : σ → γ → Except ε σ) (s : σ) :
    (l.flatMap g).foldlM f s = l.foldlM (fun s x => (g x).foldlM f s) s := by
  induction l generalizing s with
  | nil => rfl
  | cons x l ih =>
    simp only [List.flatMap_cons, List.foldlM_append, List.foldlM_cons]
    congr 1
    funext s
    exact ih s

private theorem forIncl_span {ε σ : Type} (a b : Int) (body : Int → σ → Except ε σ) (s : σ) :
    forIncl a b body s = (span a b).foldlM (fun s i => body i s) s := by
  unfold forIncl span
  rw [forUp_range, foldlM_map']

private theorem forIncl_whole {ε σ : Type} (n : Nat) (body : Int → σ → Except ε σ) (s : σ) :
    forIncl 0 ((n : Int) - 1) body s = forUp 0 n (fun i s => body i s) s := by
  unfold forIncl
  rw [show ((n : Int) - 1 - 0 + 1).toNat = n by omega]
  simp only [Int.zero_add]

private theorem row_cells {ε σ : Type} (sr er sc ec : Int) (body : Int → Int → σ → Except ε σ) (s : σ) :
    (span sr er).foldlM (fun s i => (span sc ec).foldlM (fun s j => body i j s) s) s
      = ((span sr er).flatMap fun i => (span sc ec).map fun j => (i, j)).foldlM (fun s p => body p.1 p.2 s) s := by
  rw [foldlM_flat]
  simp only [foldlM_map']

private theorem col_cells {ε σ : Type} (sr er sc ec : Int) (body : Int → Int → σ → Except ε σ) (s : σ) :
    (span sc ec).foldlM (fun s j => (span sr er).foldlM (fun s i => body i j s) s) s
      = ((span sc ec).flatMap fun j => (span sr er).map fun i => (i, j)).foldlM (fun s p => body p.1 p.2 s) s := by
  rw [foldlM_flat]
  simp only [foldlM_map']

private theorem read_cells (m : Dia α n) {D : Nat → α} (hD : Shows m.at n n (diag D)) (v : VisP α τ)
    (l : List (Int × Int)) (t : τ) :
    l.foldlM (fun t p => (do v.visit p.1 p.2 (← m.at p.1 p.2) t : Res τ)) t = dread n D v l t := by
  induction l generalizing t with
  | nil => rfl
  | cons p l ih =>
    obtain ⟨i, j⟩ := p
    rw [List.foldlM_cons]
    unfold dread
    dsimp only
    rw [hD i j]
    unfold at'
    by_cases h : inRange n n i j
    · rw [if_pos h, if_pos h, ok_bind]
      cases e : v.visit i j (diag D i.toNat j.toNat) t with
      | error f => rfl
      | ok t' => exact ih t'
    · rw [if_neg h, if_neg h]
      rfl

private theorem change_cells (v : VisC α τ) (l : List (Int × Int)) (t : τ) (m : Dia α n) {D : Nat → α}
    (h : ∀ k, k < n → m.data.f k = D k) :
    Near (l.foldlM (fun s p => Dia.visitAt v p.1 p.2 s) (t, m)) (dchange n v l t D) := by
  induction l generalizing t m D with
  | nil => exact ⟨rfl, h⟩
  | cons p l ih =>
    obtain ⟨i, j⟩ := p
    rw [List.foldlM_cons]
    unfold dchange Dia.visitAt
    dsimp only
    rw [m.shows_of h i j]
    unfold at'
    by_cases hr : inRange n n i j
    · rw [if_pos hr, if_pos hr, res_at_ok, ok_bind]
      cases e : v.visit i j (diag D i.toNat j.toNat) t with
      | error f => exact ⟨rfl, h⟩
      | ok y =>
        obtain ⟨t', x⟩ := y
        rw [res_at_ok, ok_bind]
        dsimp only
        unfold inRange at hr
        by_cases hij : i = j
        · subst hij
          rw [if_pos rfl, Dia.setEntry_diag m (by omega), ok_bind]
          exact ih t' _ (diag_shows_upd h x (by omega))
        · rw [if_neg hij]
          by_cases hz : Flt.ulpEq Flt.zero x = true
          · rw [if_pos hz, Dia.setEntry_off m hij hz]
            exact ih t' m h
          · rw [if_neg hz, Dia.setEntry_big m hij (by simpa using hz)]
            exact ⟨rfl, h⟩
    · rw [if_neg hr, if_neg hr]
      exact ⟨rfl, h⟩

/-- A reading walk of `diag D` over the window `sr … er`, `sc … ec`. -/
def Spec.dreadIn (n : Nat) (o : Order) (sr er sc ec : Int) (D : Nat → α) (v : VisP α τ) (t : τ) : Res (τ × α) := do
  let t ← v.start n n sr er sc ec t
  let t ← dread n D v (cellsOf o sr er sc ec) t
  v.fin t

/-- A changing walk of `diag D` over the window `sr … er`, `sc … ec`. -/
def Spec.dchangeIn (n : Nat) (o : Order) (sr er sc ec : Int) (D : Nat → α) (v : VisC α τ) (t : τ) :
    Except (Fault × (Nat → α)) ((τ × α) × (Nat → α)) :=
  match v.start n n sr er sc ec t with
  | .error f => .error (f, D)
  | .ok t =>
    match dchange n v (cellsOf o sr er sc ec) t D with
    | .error f => .error f
    | .ok (t, D) =>
      match v.fin t with
      | .error f => .error (f, D)
      | .ok x => .ok (x, D)

/-- C88, reading walks of a diagonal matrix with any bounds: the cells of the window in order, up to the first that is not
in the matrix. -/
theorem C88_walk (m : Dia α n) {D : Nat → α} (hD : Shows m.at n n (diag D)) (o : Order) (v : VisP α τ) (t : τ) :
    (Mat.dia m).walkIn o v t = dreadIn n o 0 (n - 1) 0 (n - 1) D v t ∧
    ∀ sr er sc ec, (Mat.dia m).walkInB o v t sr er sc ec = dreadIn n o sr er sc ec D v t := by
  have hb : ∀ sr er sc ec, (Mat.dia m).walkInB o v t sr er sc ec = dreadIn n o sr er sc ec D v t := by
    intro sr er sc ec
    unfold dreadIn
    cases o <;>
    · simp only [Mat.walkInB, Dia.walkRowB, Dia.walkColB, forIncl_span, row_cells sr er sc ec, col_cells sr er sc ec,
        read_cells m hD, cellsOf]
  refine ⟨?_, hb⟩
  rw [← hb]
  cases o <;>
  · simp only [Mat.walkIn, Mat.walkInB, Dia.walkRow, Dia.walkCol, Dia.walkRowB, Dia.walkColB, forIncl_whole]

/-- C88, changing walks of a diagonal matrix with any bounds: the cells of the window in order, each new value stored when
the cell is on the diagonal. The walk ends at the first cell that is not in the matrix, or is off the diagonal and gets a
value that is not zero; what was stored before stays. -/
theorem C88_change (m : Dia α n) {D : Nat → α} (hD : Shows m.at n n (diag D)) (o : Order) (v : VisC α τ) (t : τ) :
    DiagWalk ((Mat.dia m).updIn o v t) (dchangeIn n o 0 (n - 1) 0 (n - 1) D v t) ∧
    ∀ sr er sc ec, DiagWalk ((Mat.dia m).updInB o v t sr er sc ec) (dchangeIn n o sr er sc ec D v t) := by
  have key : ∀ sr er sc ec (l : List (Int × Int)), DiagWalk (liftWalk .dia (do
      let t ← (v.start n n sr er sc ec t).at m
      let s ← l.foldlM (fun s p => Dia.visitAt v p.1 p.2 s) (t, m)
      return (← (v.fin s.1).at s.2, s.2)))
      (match v.start n n sr er sc ec t with
        | .error f => .error (f, D)
        | .ok t =>
          match dchange n v l t D with
          | .error f => .error f
          | .ok (t, D) =>
            match v.fin t with
            | .error f => .error (f, D)
            | .ok x => .ok (x, D)) := by
    intro sr er sc ec l
    have hm : ∀ k, k < n → m.data.f k = D k := fun k hk => by
      have := m.shows.unique hD hk hk
      unfold diag at this
      simpa using this
    cases e : v.start n n sr er sc ec t with
    | error f => exact ⟨rfl, m.shows_of hm⟩
    | ok t' =>
      rw [res_at_ok, ok_bind]
      have hc := change_cells v l t' m hm
      generalize l.foldlM (fun s p => Dia.visitAt v p.1 p.2 s) (t', m) = x at hc ⊢
      dsimp only
      generalize dchange n v l t' D = y at hc ⊢
      match x, y, hc with
      | .error (x, m'), .error (y, D'), hc => exact ⟨hc.1, m'.shows_of hc.2⟩
      | .ok (x, m'), .ok (y, D'), hc =>
        obtain ⟨rfl, hc⟩ := hc
        rw [ok_bind]
        dsimp only
        cases e2 : v.fin x with
        | error f => exact ⟨rfl, m'.shows_of hc⟩
        | ok z => exact ⟨rfl, m'.shows_of hc⟩
  have hb : ∀ sr er sc ec, DiagWalk ((Mat.dia m).updInB o v t sr er sc ec) (dchangeIn n o sr er sc ec D v t) := by
    intro sr er sc ec
    unfold dchangeIn
    cases o <;>
    · simp only [Mat.updInB, Dia.updRowB, Dia.updColB, forIncl_span, row_cells sr er sc ec, col_cells sr er sc ec, cellsOf]
      exact key _ _ _ _ _
  refine ⟨?_, hb⟩
  have h := hb 0 (n - 1) 0 (n - 1)
  revert h
  cases o <;>
  · simp only [Mat.updIn, Mat.updInB, Dia.updRow, Dia.updCol, Dia.updRowB, Dia.updColB, forIncl_whole]
    exact id

/-- Adds 1 to the entries on the diagonal and leaves the others. The visitor counts. -/
private def addOne : VisC ℚ Nat where
  start := fun _ _ _ _ _ _ t => .ok t
  visit := fun i j x t => .ok (t + 1, if i = j then x + 1 else x)
  fin := fun t => .ok (t, 0)

/-- Writes 5 everywhere. -/
private def fives : VisC ℚ Nat where
  start := fun _ _ _ _ _ _ t => .ok t
  visit := fun _ _ _ t => .ok (t + 1, 5)
  fin := fun t => .ok (t, 0)

/-- Concrete cases: on `diag(1, 2)` the first visitor gives `diag(2, 3)` after four visits; the second stores a 5 at
`(0, 0)` and stops at `(0, 1)`. With columns up to 2, which the matrix has not, the first visitor stops after `(0, 1)`,
and 2 is stored at `(0, 0)`. -/
example :
    ((dchangeIn 2 .row 0 1 0 1 (fun i => ([1, 2] : List ℚ)[i]?.getD 0) addOne 0).toOption.map
      fun y => (y.1.1, y.2 0, y.2 1)) = some (4, 2, 3) ∧
    (match dchangeIn 2 .row 0 1 0 1 (fun i => ([1, 2] : List ℚ)[i]?.getD 0) fives 0 with
      | .error (f, D) => some (f, D 0, D 1)
      | .ok _ => none) = some (.pan .big, 5, 2) ∧
    (match dchangeIn 2 .row 0 1 0 2 (fun i => ([1, 2] : List ℚ)[i]?.getD 0) addOne 0 with
      | .error (f, D) => some (f, D 0, D 1)
      | .ok _ => none) = some (.pan .range, 2, 2) := by
  decide +kernel

end Linear
