import Verif.Lemmas.MatLemmas

/-!
# C05, C07, C08: reading and writing entries of dense matrices

`m.dense` says that `m` uses row-array or block storage. `Shows m.at r c A` says that `A` are the
entries a caller reads, and that every other index pair is refused.
-/

set_option linter.unusedSectionVars false

namespace Linear

open Spec

variable {α : Type} [Flt α] {r c : Nat}

/-! ## C05 Dense get-after-set -/

/-- C05, `SetEntry`. -/
theorem C05_setEntry {m : Mat α r c} (hm : m.dense) {A : Nat → Nat → α} (hA : Shows m.at r c A)
    {i j : Int} (h : inRange r c i j) (v : α) :
    ∃ m', m.setEntry i j v = .ok m' ∧ m'.dense ∧
      Shows m'.at r c fun x y => if (x : Int) = i ∧ (y : Int) = j then v else A x y := by
  unfold inRange at h
  revert hm hA
  cases m with
  | arr m =>
    intro _ hA
    refine Arr.lift (Arr.setEntry_ok m (v := v) h) (Wr.upd2 (g := fun _ _ => v) rfl) hA ?_
    intro x y hx hy
    exact if_congr (by omega) rfl rfl
  | blk m =>
    intro _ hA
    obtain ⟨m', e, h'⟩ := m.setEntry_ok (v := v) h
    refine Blk.lift e (by rw [h']; exact Wr.upd2 (g := fun _ _ => v) rfl) hA ?_
    intro x y hx hy
    exact if_congr (by omega) rfl rfl
  | dia m => exact fun h => h.elim
  | ext m => exact fun h => h.elim

/-- C05, `AddToEntry` stores exactly the machine sum. -/
theorem C05_addToEntry {m : Mat α r c} (hm : m.dense) {A : Nat → Nat → α}
    (hA : Shows m.at r c A) {i j : Int} (h : inRange r c i j) (v : α) :
    ∃ m', m.addToEntry i j v = .ok m' ∧ m'.dense ∧
      Shows m'.at r c fun x y =>
        if (x : Int) = i ∧ (y : Int) = j then Flt.add (A x y) v else A x y := by
  unfold inRange at h
  revert hm hA
  cases m with
  | arr m =>
    intro _ hA
    have h1 := m.at_shows.unique hA (i := i.toNat) (j := j.toNat) (by omega) (by omega)
    refine Arr.lift (Arr.addToEntry_ok m (v := v) h)
      (Wr.upd2 (g := fun x y => Flt.add (A x y) v) (by rw [h1])) hA ?_
    intro x y hx hy
    exact if_congr (by omega) rfl rfl
  | blk m =>
    intro _ hA
    obtain ⟨m', e, h'⟩ := m.addToEntry_ok (v := v) h
    have h1 := m.shows_entB.unique hA (i := i.toNat) (j := j.toNat) (by omega) (by omega)
    refine Blk.lift e (by rw [h']; exact Wr.upd2 (g := fun x y => Flt.add (A x y) v) (by rw [h1]))
      hA ?_
    intro x y hx hy
    exact if_congr (by omega) rfl rfl
  | dia m => exact fun h => h.elim
  | ext m => exact fun h => h.elim

/-- C05, `MultiplyEntry` stores exactly the machine product. -/
theorem C05_multiplyEntry {m : Mat α r c} (hm : m.dense) {A : Nat → Nat → α}
    (hA : Shows m.at r c A) {i j : Int} (h : inRange r c i j) (v : α) :
    ∃ m', m.multiplyEntry i j v = .ok m' ∧ m'.dense ∧
      Shows m'.at r c fun x y =>
        if (x : Int) = i ∧ (y : Int) = j then Flt.mul (A x y) v else A x y := by
  unfold inRange at h
  revert hm hA
  cases m with
  | arr m =>
    intro _ hA
    have h1 := m.at_shows.unique hA (i := i.toNat) (j := j.toNat) (by omega) (by omega)
    refine Arr.lift (Arr.multiplyEntry_ok m (v := v) h)
      (Wr.upd2 (g := fun x y => Flt.mul (A x y) v) (by rw [h1])) hA ?_
    intro x y hx hy
    exact if_congr (by omega) rfl rfl
  | blk m =>
    intro _ hA
    obtain ⟨m', e, h'⟩ := m.multiplyEntry_ok (v := v) h
    have h1 := m.shows_entB.unique hA (i := i.toNat) (j := j.toNat) (by omega) (by omega)
    refine Blk.lift e (by rw [h']; exact Wr.upd2 (g := fun x y => Flt.mul (A x y) v) (by rw [h1]))
      hA ?_
    intro x y hx hy
    exact if_congr (by omega) rfl rfl
  | dia m => exact fun h => h.elim
  | ext m => exact fun h => h.elim

/-! ## C07 Out-of-range access -/

/-- C07: `At` succeeds exactly on the in-range index pairs and otherwise panics with the
out-of-range error (every storage, and foreign implementations by assumption). -/
theorem C07_at (m : Mat α r c) :
    ∃ A : Nat → Nat → α, ∀ i j : Int, m.at i j =
      if 0 ≤ i ∧ i < r ∧ 0 ≤ j ∧ j < c then .ok (A i.toNat j.toNat) else .error (.pan .range) :=
  ⟨m.ent, fun i j => m.at_shows i j⟩

/-- C07: writes outside a dense matrix panic with the out-of-range error and change nothing. -/
theorem C07_write {m : Mat α r c} (hm : m.dense) {i j : Int} (h : ¬ inRange r c i j) (v : α) :
    m.setEntry i j v = .error (.pan .range, m) ∧
    m.addToEntry i j v = .error (.pan .range, m) ∧
    m.multiplyEntry i j v = .error (.pan .range, m) := by
  revert hm
  cases m with
  | arr m =>
    intro _
    simp only [Mat.setEntry, Mat.addToEntry, Mat.multiplyEntry, m.setEntry_err h,
      m.addToEntry_err h, m.multiplyEntry_err h, liftMut, and_self]
  | blk m =>
    intro _
    simp only [Mat.setEntry, Mat.addToEntry, Mat.multiplyEntry, m.setEntry_err h,
      m.addToEntry_err h, m.multiplyEntry_err h, liftMut, and_self]
  | dia m => exact fun h => h.elim
  | ext m => exact fun h => h.elim

/-- C07: writes inside a dense matrix never panic. -/
theorem C07_write_ok {m : Mat α r c} (hm : m.dense) {i j : Int} (h : inRange r c i j) (v : α) :
    (∃ m', m.setEntry i j v = .ok m') ∧ (∃ m', m.addToEntry i j v = .ok m') ∧
    ∃ m', m.multiplyEntry i j v = .ok m' := by
  obtain ⟨m1, h1, -⟩ := C05_setEntry hm m.at_shows h v
  obtain ⟨m2, h2, -⟩ := C05_addToEntry hm m.at_shows h v
  obtain ⟨m3, h3, -⟩ := C05_multiplyEntry hm m.at_shows h v
  exact ⟨⟨m1, h1⟩, ⟨m2, h2⟩, ⟨m3, h3⟩⟩

/-- Concrete cases: a 60 × 3 block matrix of zeros meets the hypotheses; writing (55, 2) is read
back; index (60, 0) and index (0, -1) are out of range. -/
example : let m : Mat ℚ 60 3 := .blk ⟨Jag.zero _ _⟩
    m.dense ∧ (∃ m', m.setEntry 55 2 7 = .ok m' ∧ m'.at 55 2 = .ok 7 ∧ m'.at 3 2 = .ok 0) ∧
    m.setEntry 60 0 1 = .error (.pan .range, m) ∧ m.setEntry 0 (-1) 1 = .error (.pan .range, m) := by
  refine ⟨trivial, ?_, (C07_write (by trivial) (by decide) 1).1,
    (C07_write (by trivial) (by decide) 1).1⟩
  obtain ⟨m', h1, -, h2⟩ := C05_setEntry (m := (.blk ⟨Jag.zero _ _⟩ : Mat ℚ 60 3)) trivial
    (Mat.at_shows _) (i := 55) (j := 2) (by decide) 7
  exact ⟨m', h1, h2.ok (i := 55) (j := 2) (by decide) (by decide),
    h2.ok (i := 3) (j := 2) (by decide) (by decide)⟩

/-! ## C08 Storage refinement over histories -/

/-- A mutating call with its arguments. -/
inductive Call (α : Type)
  | setEntry (i j : Int) (v : α)
  | addToEntry (i j : Int) (v : α)
  | multiplyEntry (i j : Int) (v : α)
  | setSubMatrix (d : Option (List (List α))) (row col : Int)
  | setColumn (j : Int) (l : List α)

/-- The model's effect of a call. -/
def Call.on (m : Mat α r c) : Call α → Mut (Mat α r c)
  | .setEntry i j v => m.setEntry i j v
  | .addToEntry i j v => m.addToEntry i j v
  | .multiplyEntry i j v => m.multiplyEntry i j v
  | .setSubMatrix d i j => m.setSubMatrix d i j
  | .setColumn j l => m.setColumn j l

/-- Run a history: whether each call completed, and the final matrix. A caller that recovers from a
panic goes on with the matrix as the panic left it. -/
def Call.run (m : Mat α r c) : List (Call α) → List Bool × Mat α r c
  | [] => ([], m)
  | k :: ks => match k.on m with
    | .ok m' => (true :: (run m' ks).1, (run m' ks).2)
    | .error (_, m') => (false :: (run m' ks).1, (run m' ks).2)

namespace Spec

/-- The data is a non-empty rectangle with at least one column. -/
def isRect (d : List (List α)) : Bool :=
  match d with
  | [] => false
  | row :: rows => decide (0 < row.length) && rows.all fun x => decide (x.length = row.length)

/-- Abstract effect of a call on an `r × c` array of numbers: the new contents, or refusal. -/
def step (r c : Nat) (A : Nat → Nat → α) : Call α → Option (Nat → Nat → α)
  | .setEntry i j v => if inRange r c i j then
      some fun x y => if (x : Int) = i ∧ (y : Int) = j then v else A x y else none
  | .addToEntry i j v => if inRange r c i j then
      some fun x y => if (x : Int) = i ∧ (y : Int) = j then Flt.add (A x y) v else A x y else none
  | .multiplyEntry i j v => if inRange r c i j then
      some fun x y => if (x : Int) = i ∧ (y : Int) = j then Flt.mul (A x y) v else A x y else none
  | .setSubMatrix none _ _ => none
  | .setSubMatrix (some d) row col =>
    let q := (d.headD []).length
    if isRect d ∧ (0 ≤ row ∧ row + d.length ≤ r) ∧ (0 ≤ col ∧ col + q ≤ c) then
      some fun x y => if (row ≤ x ∧ (x : Int) < row + d.length) ∧ (col ≤ y ∧ (y : Int) < col + q) then
        ((d[x - row.toNat]?.getD [])[y - col.toNat]?).getD Flt.zero else A x y
    else none
  | .setColumn j l => if (0 ≤ j ∧ j < c) ∧ l.length = r then
      some fun x y => if (y : Int) = j then (l[x]?).getD Flt.zero else A x y else none

/-- Abstract run of a history. -/
def run (r c : Nat) (A : Nat → Nat → α) : List (Call α) → List Bool × (Nat → Nat → α)
  | [] => ([], A)
  | k :: ks => match step r c A k with
    | some B => (true :: (run r c B ks).1, (run r c B ks).2)
    | none => (false :: (run r c A ks).1, (run r c A ks).2)

end Spec

theorem isRect_iff {d : List (List α)} : isRect d = true ↔ ∃ q, 0 < d.length ∧ 0 < q ∧
    ∀ x ∈ d, x.length = q := by
  cases d with
  | nil => simp [isRect]
  | cons x d =>
    simp only [isRect, Bool.and_eq_true, decide_eq_true_eq, List.all_eq_true, List.length_cons,
      Nat.zero_lt_succ, true_and, List.mem_cons, forall_eq_or_imp]
    constructor
    · rintro ⟨h1, h2⟩
      exact ⟨x.length, h1, rfl, h2⟩
    · rintro ⟨q, h1, h2, h3⟩
      exact ⟨by omega, fun y hy => by rw [h3 y hy, h2]⟩

theorem rect_of_isRect {d : List (List α)} (h : isRect d = true) :
    Rect d d.length (d.headD []).length
        (fun x y => ((d[x]?.getD [])[y]?).getD Flt.zero) ∧
      0 < d.length ∧ 0 < (d.headD []).length := by
  obtain ⟨q, h1, h2, h3⟩ := isRect_iff.1 h
  have hq : (d.headD []).length = q := by
    cases d with
    | nil => simp at h1
    | cons x d => exact h3 x (by simp)
  refine ⟨⟨rfl, fun i hi => ⟨d[i], by simp [hi], ?_, fun j hj => ?_⟩⟩, h1, by omega⟩
  · rw [hq]; exact h3 _ (by simp)
  · have : j < d[i].length := by rw [h3 _ (by simp)]; omega
    simp [hi, this]

theorem isRect_of_rect {d : List (List α)} {p q : Nat} {B : Nat → Nat → α} (h : Rect d p q B)
    (hp : 0 < p) (hq : 0 < q) : isRect d = true := by
  rw [isRect_iff]
  refine ⟨q, by rw [h.1]; exact hp, hq, fun x hx => ?_⟩
  obtain ⟨i, hi, rfl⟩ := List.getElem_of_mem hx
  obtain ⟨row, e, hl, -⟩ := h.2 i (by rw [← h.1]; exact hi)
  rw [List.getElem?_eq_getElem hi] at e
  rw [Option.some.inj e, hl]

/-- One call: completion exactly when the abstract call is accepted, with the same contents; a
refused call leaves the matrix unchanged. -/
theorem C08_step {m : Mat α r c} (hm : m.dense) (hr : 0 < r) {A : Nat → Nat → α}
    (hA : Shows m.at r c A) (k : Call α) :
    (∀ B, step r c A k = some B → ∃ m', k.on m = .ok m' ∧ m'.dense ∧ Shows m'.at r c B) ∧
      (step r c A k = none → ∃ f, k.on m = .error (f, m)) := by
  cases k with
  | setEntry i j v =>
    unfold step Call.on
    dsimp only
    by_cases h : inRange r c i j
    · rw [if_pos h]
      exact ⟨fun B hB => by obtain rfl := Option.some.inj hB; exact C05_setEntry hm hA h v,
        fun h => by cases h⟩
    · rw [if_neg h]
      exact ⟨fun B hB => (by cases hB), fun _ => ⟨_, (C07_write hm h v).1⟩⟩
  | addToEntry i j v =>
    unfold step Call.on
    dsimp only
    by_cases h : inRange r c i j
    · rw [if_pos h]
      exact ⟨fun B hB => by obtain rfl := Option.some.inj hB; exact C05_addToEntry hm hA h v,
        fun h => by cases h⟩
    · rw [if_neg h]
      exact ⟨fun B hB => (by cases hB), fun _ => ⟨_, (C07_write hm h v).2.1⟩⟩
  | multiplyEntry i j v =>
    unfold step Call.on
    dsimp only
    by_cases h : inRange r c i j
    · rw [if_pos h]
      exact ⟨fun B hB => by obtain rfl := Option.some.inj hB; exact C05_multiplyEntry hm hA h v,
        fun h => by cases h⟩
    · rw [if_neg h]
      exact ⟨fun B hB => (by cases hB), fun _ => ⟨_, (C07_write hm h v).2.2⟩⟩
  | setColumn j l =>
    unfold step Call.on
    dsimp only
    by_cases h : (0 ≤ j ∧ j < c) ∧ l.length = r
    · rw [if_pos h]
      refine ⟨fun B hB => ?_, fun h => by cases h⟩
      obtain rfl := Option.some.inj hB
      have hl : IsList l r fun x => (l[x]?).getD Flt.zero :=
        ⟨h.2, fun i hi => by simp [h.2.symm ▸ hi]⟩
      revert hm hA
      cases m with
      | arr m =>
        intro _ hA
        obtain ⟨m', e, w, -⟩ := m.setColumn_ok hr h.1 hl
        refine Arr.lift e w hA fun x y hx hy => if_congr (by omega) rfl rfl
      | blk m =>
        intro _ hA
        obtain ⟨m', e, w⟩ := m.setColumn_ok h.1 hl
        refine Blk.lift e w hA fun x y hx hy => if_congr (by omega) rfl rfl
      | dia m => exact fun h => h.elim
      | ext m => exact fun h => h.elim
    · rw [if_neg h]
      refine ⟨fun B hB => (by cases hB), fun _ => ?_⟩
      revert hm
      cases m with
      | arr m =>
        intro _
        by_cases h1 : 0 ≤ j ∧ j < c
        · exact ⟨_, by rw [Mat.setColumn, m.setColumn_len hr h1 fun h2 => h ⟨h1, h2⟩]; rfl⟩
        · exact ⟨_, by rw [Mat.setColumn, m.setColumn_range hr h1]; rfl⟩
      | blk m =>
        intro _
        by_cases h1 : 0 ≤ j ∧ j < c
        · exact ⟨_, by rw [Mat.setColumn, m.setColumn_len h1 fun h2 => h ⟨h1, h2⟩]; rfl⟩
        · exact ⟨_, by rw [Mat.setColumn, m.setColumn_range h1]; rfl⟩
      | dia m => exact fun h => h.elim
      | ext m => exact fun h => h.elim
  | setSubMatrix d row col =>
    cases d with
    | none =>
      unfold step Call.on
      dsimp only
      refine ⟨fun B hB => (by cases hB), fun _ => ?_⟩
      revert hm
      cases m with
      | arr m =>
        intro _
        obtain ⟨s, e⟩ := m.setSubMatrix_ragged (sub := none) (row := row) (col := col)
          (fun _ _ _ _ h => by cases h)
        exact ⟨_, by rw [Mat.setSubMatrix, e]; rfl⟩
      | blk m =>
        intro _
        rcases m.setSubMatrix_ragged (sub := none) (row := row) (col := col)
          (fun _ _ _ _ h => by cases h) with e | ⟨s, e⟩
        · exact ⟨_, by rw [Mat.setSubMatrix, e]; rfl⟩
        · exact ⟨_, by rw [Mat.setSubMatrix, e]; rfl⟩
      | dia m => exact fun h => h.elim
      | ext m => exact fun h => h.elim
    | some d =>
      unfold step Call.on
      dsimp only
      by_cases hd : isRect d = true
      · obtain ⟨hR, hp, hq⟩ := rect_of_isRect hd
        generalize (d.headD []).length = q at hR hq ⊢
        by_cases h : (0 ≤ row ∧ row + d.length ≤ r) ∧ (0 ≤ col ∧ col + q ≤ c)
        · rw [if_pos ⟨hd, h⟩]
          refine ⟨fun B hB => ?_, fun h => by cases h⟩
          obtain rfl := Option.some.inj hB
          revert hm hA
          cases m with
          | arr m =>
            intro _ hA
            obtain ⟨m', e, w, -⟩ := m.setSubMatrix_ok hR hp hq h.1 h.2
            refine Arr.lift e w hA fun x y hx hy => if_congr (by omega) rfl rfl
          | blk m =>
            intro _ hA
            obtain ⟨m', e, w⟩ := m.setSubMatrix_ok hR hp hq h.1 h.2
            refine Blk.lift e w hA fun x y hx hy => if_congr (by omega) rfl rfl
          | dia m => exact fun h => h.elim
          | ext m => exact fun h => h.elim
        · rw [if_neg fun h' => h h'.2]
          refine ⟨fun B hB => (by cases hB), fun _ => ?_⟩
          revert hm
          cases m with
          | arr m =>
            intro _
            exact ⟨_, by rw [Mat.setSubMatrix, m.setSubMatrix_range hr hR hp hq h]; rfl⟩
          | blk m =>
            intro _
            have e := m.setSubMatrix_range hR hp hq h
            exact ⟨_, by rw [Mat.setSubMatrix, e]; rfl⟩
          | dia m => exact fun h => h.elim
          | ext m => exact fun h => h.elim
      · rw [if_neg fun h' => hd h'.1]
        refine ⟨fun B hB => (by cases hB), fun _ => ?_⟩
        have hbad : ∀ l p q B, some d = some l → Rect l p q B → p = 0 ∨ q = 0 := by
          rintro l p q B h hR
          obtain rfl := Option.some.inj h
          by_contra hpq
          exact hd (isRect_of_rect hR (by omega) (by omega))
        revert hm
        cases m with
        | arr m =>
          intro _
          obtain ⟨s, e⟩ := m.setSubMatrix_ragged (row := row) (col := col) hbad
          exact ⟨_, by rw [Mat.setSubMatrix, e]; rfl⟩
        | blk m =>
          intro _
          rcases m.setSubMatrix_ragged (row := row) (col := col) hbad with e | ⟨s, e⟩
          · exact ⟨_, by rw [Mat.setSubMatrix, e]; rfl⟩
          · exact ⟨_, by rw [Mat.setSubMatrix, e]; rfl⟩
        | dia m => exact fun h => h.elim
        | ext m => exact fun h => h.elim

/-- C08: whatever the dense storage, a history of calls refines the abstract one: the same calls
complete and the final contents are the abstract ones. -/
theorem C08_refines {m : Mat α r c} (hm : m.dense) (hr : 0 < r) {A : Nat → Nat → α}
    (hA : Shows m.at r c A) (ks : List (Call α)) :
    (Call.run m ks).1 = (Spec.run r c A ks).1 ∧ (Call.run m ks).2.dense ∧
      Shows (Call.run m ks).2.at r c (Spec.run r c A ks).2 := by
  induction ks generalizing m A with
  | nil => exact ⟨rfl, hm, hA⟩
  | cons k ks ih =>
    have h := C08_step hm hr hA k
    unfold Call.run Spec.run
    cases hs : step r c A k with
    | some B =>
      obtain ⟨m', e, h1, h2⟩ := h.1 B hs
      rw [e]
      obtain ⟨h3, h4, h5⟩ := ih h1 h2
      exact ⟨by dsimp only; rw [h3], h4, h5⟩
    | none =>
      obtain ⟨f, e⟩ := h.2 hs
      rw [e]
      obtain ⟨h3, h4, h5⟩ := ih hm hA
      exact ⟨by dsimp only; rw [h3], h4, h5⟩

/-- C08: a row-array matrix and a block matrix with the same contents cannot be told apart by any
history of these calls, at any step (take prefixes of the history). -/
theorem C08_same {a : Arr α r c} {b : Blk α r c} (hr : 0 < r)
    (h : ∀ i j, a.at i j = b.at i j) (ks : List (Call α)) :
    (Call.run (.arr a) ks).1 = (Call.run (.blk b) ks).1 ∧
      ∀ i j, (Call.run (.arr a) ks).2.at i j = (Call.run (.blk b) ks).2.at i j := by
  obtain ⟨h1, -, h2⟩ := C08_refines (m := .arr a) trivial hr (Mat.at_shows _) ks
  obtain ⟨h3, -, h4⟩ := C08_refines (m := .blk b) (A := (Mat.arr a).ent) trivial hr
    (fun i j => by rw [← Mat.at_shows (.arr a) i j]; exact (h i j).symm) ks
  exact ⟨h1.trans h3.symm, fun i j => (h2 i j).trans (h4 i j).symm⟩

/-- C08, the class of the panic: the single calls fail with the same fault in both storages, `SetSubMatrix`
included when its data are nil or rectangular. Missing: empty and ragged data, where the two storages check in
different orders (`C08_class_false`). -/
theorem C08_faults_partial {a : Arr α r c} {b : Blk α r c} (hr : 0 < r) {k : Call α} {f : Fault}
    {m : Mat α r c} (hk : ∀ d i j, k = .setSubMatrix (some d) i j → ∃ p q B, Rect d p q B ∧ 0 < p ∧ 0 < q)
    (e : k.on (.arr a) = .error (f, m)) : k.on (.blk b) = .error (f, .blk b) := by
  cases k with
  | setEntry i j v =>
    by_cases h : inRange r c i j
    · obtain ⟨⟨m', h1⟩, -⟩ := C07_write_ok (m := .arr a) trivial h v
      unfold Call.on at e; dsimp only at e; rw [h1] at e; cases e
    · have h1 := (C07_write (m := .arr a) trivial h v).1
      unfold Call.on at e; dsimp only at e; rw [h1] at e
      cases e
      exact (C07_write (m := .blk b) trivial h v).1
  | addToEntry i j v =>
    by_cases h : inRange r c i j
    · obtain ⟨-, ⟨m', h1⟩, -⟩ := C07_write_ok (m := .arr a) trivial h v
      unfold Call.on at e; dsimp only at e; rw [h1] at e; cases e
    · have h1 := (C07_write (m := .arr a) trivial h v).2.1
      unfold Call.on at e; dsimp only at e; rw [h1] at e
      cases e
      exact (C07_write (m := .blk b) trivial h v).2.1
  | multiplyEntry i j v =>
    by_cases h : inRange r c i j
    · obtain ⟨-, -, ⟨m', h1⟩⟩ := C07_write_ok (m := .arr a) trivial h v
      unfold Call.on at e; dsimp only at e; rw [h1] at e; cases e
    · have h1 := (C07_write (m := .arr a) trivial h v).2.2
      unfold Call.on at e; dsimp only at e; rw [h1] at e
      cases e
      exact (C07_write (m := .blk b) trivial h v).2.2
  | setSubMatrix d i j =>
    unfold Call.on at e ⊢
    dsimp only [Mat.setSubMatrix] at e ⊢
    cases d with
    | none => cases e; rfl
    | some d =>
      obtain ⟨p, q, B, hR, hp, hq⟩ := hk d i j rfl
      by_cases h : (0 ≤ i ∧ i + p ≤ r) ∧ (0 ≤ j ∧ j + q ≤ c)
      · obtain ⟨m', e', -⟩ := a.setSubMatrix_ok hR hp hq h.1 h.2
        rw [e'] at e; cases e
      · rw [a.setSubMatrix_range hr hR hp hq h] at e
        cases e
        rw [b.setSubMatrix_range hR hp hq h]; rfl
  | setColumn j l =>
    unfold Call.on at e ⊢
    dsimp only [Mat.setColumn] at e ⊢
    by_cases h1 : 0 ≤ j ∧ j < c
    · by_cases h2 : l.length = r
      · obtain ⟨m', e', -⟩ := a.setColumn_ok (f := fun x => (l[x]?).getD Flt.zero) hr h1
          ⟨h2, fun i hi => by simp [h2.symm ▸ hi]⟩
        rw [e'] at e; cases e
      · rw [a.setColumn_len hr h1 h2] at e
        cases e
        rw [b.setColumn_len h1 h2]; rfl
    · rw [a.setColumn_range hr h1] at e
      cases e
      rw [b.setColumn_range h1]; rfl

/-- C08, the full claim on the class of the panic is false: without a row, row arrays report missing data and blocks
an index out of range of the runtime; with rows of different lengths reaching outside the matrix, row arrays report
the lengths and blocks the index. -/
theorem C08_class_false (a : Arr α r c) (b : Blk α r c) (x : α) :
    (Call.setSubMatrix (some []) 0 0).on (.arr a) = .error (.pan .noDat, .arr a) ∧
    (Call.setSubMatrix (some []) 0 0).on (.blk b) = .error (.rt, .blk b) ∧
    (Call.setSubMatrix (some [[x], []]) (-1) 0).on (.arr a) = .error (.pan .dim, .arr a) ∧
    (Call.setSubMatrix (some [[x], []]) (-1) 0).on (.blk b) = .error (.pan .range, .blk b) := by
  refine ⟨rfl, rfl, rfl, ?_⟩
  unfold Call.on
  dsimp only [Mat.setSubMatrix]
  unfold Blk.setSubMatrix
  have h1 : rdL [[x], []] 0 = .ok [x] := rfl
  have h2 : checkSubMatrixIndex r c (-1) (-1 + ([[x], []] : List (List α)).length - 1) 0 (0 + ([x] : List α).length - 1) =
      .error (.err .range) := by
    unfold checkSubMatrixIndex
    rw [checkRowIndex_err (by omega)]; rfl
  simp only [h1, res_at_ok, ok_bind, h2]
  rfl

/-- Concrete history on a 2 × 2 matrix in both storages: one accepted write, one refused write, one
window, read back equal. -/
example : ∃ (a : Arr ℚ 2 2) (b : Blk ℚ 2 2), (∀ i j, a.at i j = b.at i j) ∧
    (Call.run (.arr a) [.setEntry 1 0 5, .setEntry 2 0 1,
      .setSubMatrix (some [[1, 2]]) 0 0, .setColumn 1 [8]]).1 = [true, false, true, false] ∧
    (Spec.run 2 2 (fun _ _ => (0 : ℚ)) [.setEntry 1 0 5, .setEntry 2 0 1,
      .setSubMatrix (some [[1, 2]]) 0 0, .setColumn 1 [8]]).2 1 0 = 5 :=
  ⟨{ data := Jag.zero _ _ }, ⟨Jag.zero _ _⟩, fun i j => by
    rw [Arr.at_shows, Blk.at_shows]; rfl, by decide +kernel, by decide +kernel⟩

end Linear
