import Verif.Lemmas.WalkLemmas
import Verif.Props.Entry

/-!
# C16, C17: walks

The specification: `Spec.walk` and `Spec.updWalk` run the visitor over an explicit list of cells;
`rowCells` and `colCells` list a window in row-major and column-major order.
-/

set_option linter.unusedSectionVars false

namespace Linear

open Spec

variable {α : Type} [Flt α] {τ : Type} {r c : Nat}

/-- `cells` lists the window once, in the order `o` asks for (any order for `opt`). -/
def Spec.Visits (o : Order) (a b p q : Nat) (cells : List (Nat × Nat)) : Prop :=
  (o = .row → cells = (List.range' a (b - a)).flatMap fun i =>
    (List.range' p (q - p)).map fun j => (i, j)) ∧
  (o = .col → cells = (List.range' p (q - p)).flatMap fun j =>
    (List.range' a (b - a)).map fun i => (i, j)) ∧
  cells.Nodup ∧ ∀ i j, (i, j) ∈ cells ↔ (a ≤ i ∧ i < b) ∧ (p ≤ j ∧ j < q)

theorem visits_row (a b p q : Nat) : Visits .row a b p q (rowCells a b p q) :=
  ⟨(fun _ => rfl), (fun h => by cases h), nodup_rowCells _ _ _ _, fun _ _ => mem_rowCells⟩

theorem visits_col (a b p q : Nat) : Visits .col a b p q (colCells a b p q) :=
  ⟨(fun h => by cases h), fun _ => rfl, nodup_colCells _ _ _ _, fun _ _ => mem_colCells⟩

theorem visits_optRow (a b p q : Nat) : Visits .opt a b p q (rowCells a b p q) :=
  ⟨(fun h => by cases h), (fun h => by cases h), nodup_rowCells _ _ _ _, fun _ _ => mem_rowCells⟩

theorem visits_blk (r c : Nat) : Visits .opt 0 r 0 c (blkCells r c) :=
  ⟨(fun h => by cases h), (fun h => by cases h), nodup_blkCells _ _, fun i j => by
    rw [mem_blkCells]; omega⟩

theorem visits_blkB (a b p q : Nat) : Visits .opt a (1 + b) p (1 + q) (blkCellsB a b p q) :=
  ⟨(fun h => by cases h), (fun h => by cases h), nodup_blkCellsB _ _ _ _, fun i j => by
    rw [mem_blkCellsB]; omega⟩

theorem walk_congr {R C sr er sc ec : Int} {cells : List (Nat × Nat)} {A B : Nat → Nat → α}
    (h : ∀ i j, (i, j) ∈ cells → A i j = B i j) (v : VisP α τ) (t : τ) :
    walk R C sr er sc ec cells A v t = walk R C sr er sc ec cells B v t := by
  unfold walk
  congr 1; funext t
  congr 1
  refine foldlM_congr fun x hx s => ?_
  rw [h x.1 x.2 hx]

/-- C16, whole-matrix walks of every storage of the library: `Start` once with the dimensions and
bounds, then every cell once in the declared order with its value, then `End` once. The outcome
(also when the visitor panics) is that of running the visitor over the list of cells. -/
theorem C16_walk {m : Mat α r c} (hm : m.own) (hr : 0 < r) {A : Nat → Nat → α}
    (hA : Shows m.at r c A) (o : Order) :
    ∃ cells, Visits o 0 r 0 c cells ∧ ∀ {τ : Type} (v : VisP α τ) (t : τ),
      m.walkIn o v t = walk r c 0 (r - 1) 0 (c - 1) cells A v t := by
  have key : ∃ cells, Visits o 0 r 0 c cells ∧ ∀ {τ : Type} (v : VisP α τ) (t : τ),
      m.walkIn o v t = walk r c 0 (r - 1) 0 (c - 1) cells m.ent v t := by
    clear hA A
    revert hm
    cases m with
    | arr m =>
      intro _
      cases o with
      | row => exact ⟨_, visits_row _ _ _ _, m.walkRow_eq hr⟩
      | col => exact ⟨_, visits_col _ _ _ _, m.walkCol_eq hr⟩
      | opt => exact ⟨_, visits_optRow _ _ _ _, m.walkRow_eq hr⟩
    | blk m =>
      intro _
      cases o with
      | row => exact ⟨_, visits_row _ _ _ _, m.walkRow_eq⟩
      | col => exact ⟨_, visits_col _ _ _ _, m.walkCol_eq⟩
      | opt => exact ⟨_, visits_blk _ _, m.walkOpt_eq⟩
    | dia m =>
      intro _
      cases o with
      | row => exact ⟨_, visits_row _ _ _ _, m.walkRow_eq⟩
      | col => exact ⟨_, visits_col _ _ _ _, m.walkCol_eq⟩
      | opt => exact ⟨_, visits_optRow _ _ _ _, m.walkRow_eq⟩
    | ext m => exact fun h => h.elim
  obtain ⟨cells, h1, h2⟩ := key
  refine ⟨cells, h1, fun v t => (h2 v t).trans (walk_congr (fun i j hij => ?_) v t)⟩
  have := (h1.2.2.2 i j).1 hij
  exact m.at_shows.unique hA (by omega) (by omega)

/-- C16, walks bounded to a window. -/
theorem C16_walkBounded {m : Mat α r c} (hm : m.own) {A : Nat → Nat → α}
    (hA : Shows m.at r c A) (o : Order) {sr er sc ec : Int} (h : window r c sr er sc ec) :
    ∃ cells, Visits o sr.toNat (1 + er.toNat) sc.toNat (1 + ec.toNat) cells ∧
      ∀ {τ : Type} (v : VisP α τ) (t : τ),
      m.walkInB o v t sr er sc ec = walk r c sr er sc ec cells A v t := by
  have key : ∃ cells, Visits o sr.toNat (1 + er.toNat) sc.toNat (1 + ec.toNat) cells ∧
      ∀ {τ : Type} (v : VisP α τ) (t : τ),
      m.walkInB o v t sr er sc ec = walk r c sr er sc ec cells m.ent v t := by
    clear hA A
    revert hm
    cases m with
    | arr m =>
      intro _
      cases o with
      | row => exact ⟨_, visits_row _ _ _ _, fun v t => m.walkRowB_eq v t h⟩
      | col => exact ⟨_, visits_col _ _ _ _, fun v t => m.walkColB_eq v t h⟩
      | opt => exact ⟨_, visits_optRow _ _ _ _, fun v t => m.walkRowB_eq v t h⟩
    | blk m =>
      intro _
      cases o with
      | row => exact ⟨_, visits_row _ _ _ _, fun v t => m.walkRowB_eq v t h⟩
      | col => exact ⟨_, visits_col _ _ _ _, fun v t => m.walkColB_eq v t h⟩
      | opt => exact ⟨_, visits_blkB _ _ _ _, fun v t => m.walkOptB_eq v t h⟩
    | dia m =>
      intro _
      cases o with
      | row => exact ⟨_, visits_row _ _ _ _, fun v t => m.walkRowB_eq v t h⟩
      | col => exact ⟨_, visits_col _ _ _ _, fun v t => m.walkColB_eq v t h⟩
      | opt => exact ⟨_, visits_optRow _ _ _ _, fun v t => m.walkRowB_eq v t h⟩
    | ext m => exact fun h => h.elim
  obtain ⟨cells, h1, h2⟩ := key
  refine ⟨cells, h1, fun v t => (h2 v t).trans (walk_congr (fun i j hij => ?_) v t)⟩
  have := (h1.2.2.2 i j).1 hij
  unfold window at h
  exact m.at_shows.unique hA (by omega) (by omega)

/-- C16, C17: a window outside the matrix is refused before the visitor is called (dense
storages; the diagonal storage discards the check, see DESIGN.md). -/
theorem C16_refused {m : Mat α r c} (hm : m.dense) (o : Order) (v : VisP α τ) (w : VisC α τ)
    (t : τ) {sr er sc ec : Int} (h : ¬ window r c sr er sc ec) :
    ∃ s, m.walkInB o v t sr er sc ec = .error (.pan s) ∧
      m.updInB o w t sr er sc ec = .error (.pan s, m) := by
  obtain ⟨s, e⟩ := checkSubMatrixIndex_err h
  revert hm
  cases m with
  | arr m =>
    intro _
    cases o with
    | row => exact ⟨s, by rw [Mat.walkInB, Arr.walkRowB, e]; rfl,
        by rw [Mat.updInB, Arr.updRowB, e]; rfl⟩
    | col => exact ⟨s, by rw [Mat.walkInB, Arr.walkColB, e]; rfl,
        by rw [Mat.updInB, Arr.updColB, e]; rfl⟩
    | opt => exact ⟨s, by rw [Mat.walkInB, Arr.walkRowB, e]; rfl,
        by rw [Mat.updInB, Arr.updRowB, e]; rfl⟩
  | blk m =>
    intro _
    cases o with
    | row => exact ⟨s, by rw [Mat.walkInB, Blk.walkRowB, e]; rfl,
        by rw [Mat.updInB, Blk.updRowB, e]; rfl⟩
    | col => exact ⟨s, by rw [Mat.walkInB, Blk.walkColB, e]; rfl,
        by rw [Mat.updInB, Blk.updColB, e]; rfl⟩
    | opt => exact ⟨s, by rw [Mat.walkInB, Blk.walkOptB, e]; rfl,
        by rw [Mat.updInB, Blk.updOptB, e]; rfl⟩
  | dia m => exact fun h => h.elim
  | ext m => exact fun h => h.elim

/-! ## Updating walks -/

/-- Outcome of an updating walk on a matrix against the specification: same result or same fault,
and the matrix shows the specified entries (also when the visitor panics half way). -/
def Spec.Refines {β : Type} : Except (Fault × Mat α r c) (β × Mat α r c) →
    Except (Fault × (Nat → Nat → α)) (β × (Nat → Nat → α)) → Prop
  | .ok (x, m), .ok (y, A) => x = y ∧ m.dense ∧ Shows m.at r c A
  | .error (x, m), .error (y, A) => x = y ∧ m.dense ∧ Shows m.at r c A
  | _, _ => False

theorem Agree.arr {β : Type} {x : Except (Fault × Arr α r c) (β × Arr α r c)}
    {y : Except (Fault × (Nat → Nat → α)) (β × (Nat → Nat → α))}
    (h : Agree r c (fun m : Arr α r c => m.data.f) x y) : Refines (liftWalk .arr x) y := by
  match x, y, h with
  | .ok (x, m), .ok (y, A), h => exact ⟨h.1, trivial, m.at_shows.congr h.2⟩
  | .error (x, m), .error (y, A), h => exact ⟨h.1, trivial, m.at_shows.congr h.2⟩

theorem Agree.blk {β : Type} {x : Except (Fault × Blk α r c) (β × Blk α r c)}
    {y : Except (Fault × (Nat → Nat → α)) (β × (Nat → Nat → α))}
    (h : Agree r c (fun m : Blk α r c => m.ent) x y) : Refines (liftWalk .blk x) y := by
  match x, y, h with
  | .ok (x, m), .ok (y, A), h => exact ⟨h.1, trivial, m.at_shows.congr h.2⟩
  | .error (x, m), .error (y, A), h => exact ⟨h.1, trivial, m.at_shows.congr h.2⟩

/-- C17, refinement: an updating walk is the run of the visitor over the list of cells, storing each
returned value; also when the visitor panics half way. -/
theorem C17_refines {m : Mat α r c} (hm : m.dense) (hr : 0 < r) (o : Order) :
    ∃ cells A, Visits o 0 r 0 c cells ∧ Shows m.at r c A ∧
      ∀ {τ : Type} (v : VisC α τ) (t : τ),
      Refines (m.updIn o v t) (updWalk r c 0 (r - 1) 0 (c - 1) cells v t A) := by
  revert hm
  cases m with
  | arr m =>
    intro _
    cases o with
    | row => exact ⟨_, _, visits_row _ _ _ _, m.at_shows, fun v t => (m.updRow_agree v t hr).arr⟩
    | col => exact ⟨_, _, visits_col _ _ _ _, m.at_shows, fun v t => (m.updCol_agree v t hr).arr⟩
    | opt => exact ⟨_, _, visits_optRow _ _ _ _, m.at_shows,
        fun v t => (m.updRow_agree v t hr).arr⟩
  | blk m =>
    intro _
    cases o with
    | row => exact ⟨_, _, visits_row _ _ _ _, m.at_shows, fun v t => (m.updRow_agree v t).blk⟩
    | col => exact ⟨_, _, visits_col _ _ _ _, m.at_shows, fun v t => (m.updCol_agree v t).blk⟩
    | opt => exact ⟨_, _, visits_blk _ _, m.at_shows, fun v t => (m.updOpt_agree v t).blk⟩
  | dia m => exact fun h => h.elim
  | ext m => exact fun h => h.elim

/-- C17, refinement of the bounded updating walks. -/
theorem C17_refinesBounded {m : Mat α r c} (hm : m.dense) (o : Order) {sr er sc ec : Int}
    (h : window r c sr er sc ec) :
    ∃ cells A, Visits o sr.toNat (1 + er.toNat) sc.toNat (1 + ec.toNat) cells ∧
      Shows m.at r c A ∧ ∀ {τ : Type} (v : VisC α τ) (t : τ),
      Refines (m.updInB o v t sr er sc ec) (updWalk r c sr er sc ec cells v t A) := by
  revert hm
  cases m with
  | arr m =>
    intro _
    cases o with
    | row => exact ⟨_, _, visits_row _ _ _ _, m.at_shows, fun v t => (m.updRowB_agree v t h).arr⟩
    | col => exact ⟨_, _, visits_col _ _ _ _, m.at_shows, fun v t => (m.updColB_agree v t h).arr⟩
    | opt => exact ⟨_, _, visits_optRow _ _ _ _, m.at_shows,
        fun v t => (m.updRowB_agree v t h).arr⟩
  | blk m =>
    intro _
    cases o with
    | row => exact ⟨_, _, visits_row _ _ _ _, m.at_shows, fun v t => (m.updRowB_agree v t h).blk⟩
    | col => exact ⟨_, _, visits_col _ _ _ _, m.at_shows, fun v t => (m.updColB_agree v t h).blk⟩
    | opt => exact ⟨_, _, visits_blkB _ _ _ _, m.at_shows, fun v t => (m.updOptB_agree v t h).blk⟩
  | dia m => exact fun h => h.elim
  | ext m => exact fun h => h.elim

theorem updWalk_value {R C sr er sc ec : Int} {cells : List (Nat × Nat)} (hc : cells.Nodup)
    {v : VisC α τ} {t : τ} {A : Nat → Nat → α} {x : τ × α} {A' : Nat → Nat → α}
    (h : updWalk R C sr er sc ec cells v t A = .ok (x, A')) :
    (∀ i j, (i, j) ∉ cells → A' i j = A i j) ∧
    (∀ i j, (i, j) ∈ cells → ∃ t₁ t₂, v.visit i j (A i j) t₁ = .ok (t₂, A' i j)) := by
  unfold updWalk at h
  cases e1 : v.start R C sr er sc ec t with
  | error f => rw [e1] at h; cases h
  | ok t0 =>
    rw [e1, res_at_ok, ok_bind] at h
    revert h
    generalize hx : List.foldlM (m := Except (Fault × (Nat → Nat → α))) _ (t0, A) cells = y
    intro h
    cases y with
    | error f => cases h
    | ok s =>
      rw [ok_bind] at h
      cases e2 : v.fin s.1 with
      | error f => rw [e2] at h; cases h
      | ok z =>
        rw [e2] at h
        cases h
        exact updFold_value v hc hx

/-- C17 in plain form: after an updating walk that completes, every cell holds the value the
visitor returned when it was shown the old value of that cell. -/
theorem C17_update {m : Mat α r c} (hm : m.dense) (hr : 0 < r) {A : Nat → Nat → α}
    (hA : Shows m.at r c A) (o : Order) {v : VisC α τ} {t : τ} {x : τ × α} {m' : Mat α r c}
    (h : m.updIn o v t = .ok (x, m')) :
    ∃ A', Shows m'.at r c A' ∧
      ∀ i j, i < r → j < c → ∃ t₁ t₂, v.visit i j (A i j) t₁ = .ok (t₂, A' i j) := by
  obtain ⟨cells, B, h1, hB, h2⟩ := C17_refines hm hr o
  have h3 := h2 v t
  rw [h] at h3
  cases e : updWalk r c 0 (r - 1) 0 (c - 1) cells v t B with
  | error f => rw [e] at h3; exact h3.elim
  | ok y =>
    obtain ⟨y, A'⟩ := y
    rw [e] at h3
    refine ⟨A', h3.2.2, fun i j hi hj => ?_⟩
    have := (updWalk_value h1.2.2.1 e).2 i j ((h1.2.2.2 i j).2 (by omega))
    rwa [hB.unique hA hi hj] at this

/-- C17 in plain form for the bounded walks: inside the window as above, outside unchanged. -/
theorem C17_updateBounded {m : Mat α r c} (hm : m.dense) {A : Nat → Nat → α}
    (hA : Shows m.at r c A) (o : Order) {sr er sc ec : Int} (hw : window r c sr er sc ec)
    {v : VisC α τ} {t : τ} {x : τ × α} {m' : Mat α r c}
    (h : m.updInB o v t sr er sc ec = .ok (x, m')) :
    ∃ A', Shows m'.at r c A' ∧ ∀ i j, i < r → j < c →
      ((sr ≤ i ∧ i ≤ er) ∧ (sc ≤ j ∧ j ≤ ec) →
        ∃ t₁ t₂, v.visit i j (A i j) t₁ = .ok (t₂, A' i j)) ∧
      (¬ ((sr ≤ i ∧ i ≤ er) ∧ (sc ≤ j ∧ j ≤ ec)) → A' i j = A i j) := by
  obtain ⟨cells, B, h1, hB, h2⟩ := C17_refinesBounded hm o hw
  have h3 := h2 v t
  rw [h] at h3
  cases e : updWalk r c sr er sc ec cells v t B with
  | error f => rw [e] at h3; exact h3.elim
  | ok y =>
    obtain ⟨y, A'⟩ := y
    rw [e] at h3
    unfold window at hw
    refine ⟨A', h3.2.2, fun i j hi hj => ⟨fun hin => ?_, fun hin => ?_⟩⟩
    · have := (updWalk_value h1.2.2.1 e).2 i j ((h1.2.2.2 i j).2 (by omega))
      rwa [hB.unique hA hi hj] at this
    · rw [(updWalk_value h1.2.2.1 e).1 i j fun hm => hin (by
        have := (h1.2.2.2 i j).1 hm; omega)]
      exact hB.unique hA hi hj

/-- The visitor of the example: it numbers the cells in the order it meets them. -/
def countVis : VisC ℚ Nat :=
  ⟨fun _ _ _ _ _ _ t => .ok t, fun _ _ _ t => .ok (t + 1, (t : ℚ)), fun t => .ok (t, 0)⟩

set_option maxRecDepth 8000 in
/-- Concrete case: numbering the cells of a 2 × 60 block matrix in row order crosses from one block
to the next inside each row. -/
example : ∃ x m', (Mat.blk ⟨Jag.zero _ _⟩ : Mat ℚ 2 60).updIn .row countVis 0 = .ok (x, m') ∧
    x.1 = 120 ∧ m'.at 1 0 = .ok 60 ∧ m'.at 1 55 = .ok 115 := by
  obtain ⟨cells, A, h1, hA, h2⟩ := C17_refines (m := (Mat.blk ⟨Jag.zero _ _⟩ : Mat ℚ 2 60))
    (Mat.dense_blk _) (by decide) .row
  have h3 := h2 countVis 0
  rw [h1.1 rfl] at h3
  have hu : ∃ B, updWalk 2 60 0 1 0 59 ((List.range' 0 (2 - 0)).flatMap fun i =>
      (List.range' 0 (60 - 0)).map fun j => (i, j)) countVis 0 A = .ok ((120, 0), B) ∧
      B 1 0 = ((60 : Nat) : ℚ) ∧ B 1 55 = ((115 : Nat) : ℚ) := ⟨_, rfl, rfl, rfl⟩
  obtain ⟨B, e, b1, b2⟩ := hu
  erw [e] at h3
  revert h3
  generalize (Mat.blk ⟨Jag.zero _ _⟩ : Mat ℚ 2 60).updIn .row countVis 0 = y
  intro h3
  match y, h3 with
  | .ok (x, m'), h3 =>
    obtain ⟨e1, -, e3⟩ := h3
    refine ⟨x, m', rfl, ?_, ?_, ?_⟩
    · rw [e1]
    · rw [show (60 : ℚ) = ((60 : Nat) : ℚ) by norm_num, ← b1]
      exact e3.ok (i := 1) (j := 0) (by decide) (by decide)
    · rw [show (115 : ℚ) = ((115 : Nat) : ℚ) by norm_num, ← b2]
      exact e3.ok (i := 1) (j := 55) (by decide) (by decide)

end Linear
