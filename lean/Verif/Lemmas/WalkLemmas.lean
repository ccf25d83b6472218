import Verif.Model.Walking
import Verif.Lemmas.Loops
import Verif.Lemmas.MatLemmas

/-!
# Walks as folds over explicit cell lists
-/

set_option linter.unusedSectionVars false

namespace Linear

open Spec

variable {α : Type} [Flt α] {τ : Type} {r c : Nat}

/-- A preserving walk over `cells` of a matrix with entries `A`. -/
def Spec.walk (r c : Int) (sr er sc ec : Int) (cells : List (Nat × Nat)) (A : Nat → Nat → α)
    (v : VisP α τ) (t : τ) : Res (τ × α) := do
  let t ← v.start r c sr er sc ec t
  let t ← cells.foldlM (fun t p => v.visit p.1 p.2 (A p.1 p.2) t) t
  v.fin t

/-- An updating walk over `cells`: the visitor state and the entries so far. -/
def Spec.updWalk (r c : Int) (sr er sc ec : Int) (cells : List (Nat × Nat)) (v : VisC α τ) (t : τ)
    (A : Nat → Nat → α) : Except (Fault × (Nat → Nat → α)) ((τ × α) × (Nat → Nat → α)) := do
  let t ← (v.start r c sr er sc ec t).at A
  let s ← cells.foldlM (fun (s : τ × (Nat → Nat → α)) p => do
    let y ← (v.visit p.1 p.2 (s.2 p.1 p.2) s.1).at s.2
    return (y.1, fun x z => if x = p.1 ∧ z = p.2 then y.2 else s.2 x z)) (t, A)
  return (← (v.fin s.1).at s.2, s.2)

theorem foldlM_congr {ε σ β : Type} {l : List β} {f g : σ → β → Except ε σ} {s : σ}
    (h : ∀ x, x ∈ l → ∀ s, f s x = g s x) : l.foldlM f s = l.foldlM g s := by
  induction l generalizing s with
  | nil => rfl
  | cons x l ih =>
    rw [List.foldlM_cons, List.foldlM_cons, h x (by simp)]
    congr 1
    funext s
    exact ih fun y hy => h y (by simp [hy])

theorem forIncl_eq {ε σ : Type} {a b : Int} (ha : 0 ≤ a) (hab : a ≤ b)
    (f : Int → σ → Except ε σ) (s : σ) :
    forIncl a b f s = forUp a.toNat (1 + b.toNat) (fun i s => f i s) s := by
  unfold forIncl forUp
  have e : (1 + b.toNat - a.toNat) = (b - a + 1).toNat := by omega
  rw [e, Nat.sub_zero]
  obtain ⟨k, rfl⟩ := Int.eq_ofNat_of_zero_le ha
  have e2 : List.range' (Int.toNat (k : Int)) (b - k + 1).toNat
      = (List.range' 0 (b - k + 1).toNat).map (fun i => k + i) := by
    rw [List.map_add_range']; simp
  rw [e2, foldlM_map']
  refine foldlM_congr fun x _ s => ?_
  dsimp only
  rw [Int.natCast_add]

/-! ## Preserving walks -/

theorem fold_rowCells {a b p q : Nat} {σ ε : Type} {f g : Nat → Nat → σ → Except ε σ} {s : σ}
    (h : ∀ i j, i < b → j < q → ∀ s, f i j s = g i j s) :
    (rowCells a b p q).foldlM (fun s x => f x.1 x.2 s) s =
      (rowCells a b p q).foldlM (fun s x => g x.1 x.2 s) s := by
  refine foldlM_congr fun x hx s => ?_
  obtain ⟨i, j⟩ := x
  have := mem_rowCells.1 hx
  exact h i j (by omega) (by omega) s

theorem fold_colCells {a b p q : Nat} {σ ε : Type} {f g : Nat → Nat → σ → Except ε σ} {s : σ}
    (h : ∀ i j, i < b → j < q → ∀ s, f i j s = g i j s) :
    (colCells a b p q).foldlM (fun s x => f x.1 x.2 s) s =
      (colCells a b p q).foldlM (fun s x => g x.1 x.2 s) s := by
  refine foldlM_congr fun x hx s => ?_
  obtain ⟨i, j⟩ := x
  have := mem_colCells.1 hx
  exact h i j (by omega) (by omega) s

theorem Arr.walkRow_eq (m : Arr α r c) (hr : 0 < r) (v : VisP α τ) (t : τ) :
    m.walkRow v t = walk r c 0 (r - 1) 0 (c - 1) (rowCells 0 r 0 c) m.data.f v t := by
  unfold Arr.walkRow walk
  rw [Arr.colDim_ok m hr, ok_bind]
  congr 1; funext t
  rw [forUp_rowCells 0 r 0 c (fun i j t => (do v.visit i j (← m.data.get i j) t))]
  congr 1
  exact fold_rowCells (f := fun i j t => (do v.visit i j (← m.data.get i j) t))
    (g := fun i j t => v.visit i j (m.data.f i j) t) fun i j hi hj s => by
      rw [Tab.get_ok hi hj, ok_bind]

theorem Arr.walkCol_eq (m : Arr α r c) (hr : 0 < r) (v : VisP α τ) (t : τ) :
    m.walkCol v t = walk r c 0 (r - 1) 0 (c - 1) (colCells 0 r 0 c) m.data.f v t := by
  unfold Arr.walkCol walk
  rw [Arr.colDim_ok m hr, ok_bind]
  congr 1; funext t
  rw [forUp_colCells 0 r 0 c (fun i j t => (do v.visit i j (← m.data.get i j) t))]
  congr 1
  exact fold_colCells (f := fun i j t => (do v.visit i j (← m.data.get i j) t))
    (g := fun i j t => v.visit i j (m.data.f i j) t) fun i j hi hj s => by
      rw [Tab.get_ok hi hj, ok_bind]

theorem Arr.walkRowB_eq (m : Arr α r c) (v : VisP α τ) (t : τ) {sr er sc ec : Int}
    (h : window r c sr er sc ec) :
    m.walkRowB v t sr er sc ec = walk r c sr er sc ec
      (rowCells sr.toNat (1 + er.toNat) sc.toNat (1 + ec.toNat)) m.data.f v t := by
  have hw := h
  unfold window at hw
  unfold Arr.walkRowB walk
  rw [checkSubMatrixIndex_ok h, must_ok, ok_bind]
  congr 1; funext t
  simp only [forIncl_eq (show 0 ≤ sr by omega) (show sr ≤ er by omega),
    forIncl_eq (show 0 ≤ sc by omega) (show sc ≤ ec by omega)]
  rw [forUp_rowCells _ _ _ _ (fun i j t => (do
    v.visit i j (← m.data.get (i : Int).toNat (j : Int).toNat) t))]
  congr 1
  exact fold_rowCells (f := fun i j t => (do
      v.visit i j (← m.data.get (i : Int).toNat (j : Int).toNat) t))
    (g := fun i j t => v.visit i j (m.data.f i j) t) fun i j hi hj s => by
      rw [Int.toNat_natCast, Int.toNat_natCast, Tab.get_ok (by omega) (by omega), ok_bind]

theorem Arr.walkColB_eq (m : Arr α r c) (v : VisP α τ) (t : τ) {sr er sc ec : Int}
    (h : window r c sr er sc ec) :
    m.walkColB v t sr er sc ec = walk r c sr er sc ec
      (colCells sr.toNat (1 + er.toNat) sc.toNat (1 + ec.toNat)) m.data.f v t := by
  have hw := h
  unfold window at hw
  unfold Arr.walkColB walk
  rw [checkSubMatrixIndex_ok h, must_ok, ok_bind]
  congr 1; funext t
  simp only [forIncl_eq (show 0 ≤ sr by omega) (show sr ≤ er by omega),
    forIncl_eq (show 0 ≤ sc by omega) (show sc ≤ ec by omega)]
  rw [forUp_colCells _ _ _ _ (fun i j t => (do
    v.visit i j (← m.data.get (i : Int).toNat (j : Int).toNat) t))]
  congr 1
  exact fold_colCells (f := fun i j t => (do
      v.visit i j (← m.data.get (i : Int).toNat (j : Int).toNat) t))
    (g := fun i j t => v.visit i j (m.data.f i j) t) fun i j hi hj s => by
      rw [Int.toNat_natCast, Int.toNat_natCast, Tab.get_ok (by omega) (by omega), ok_bind]

theorem Blk.visit_cells (m : Blk α r c) (v : VisP α τ) {l : List (Nat × Nat)}
    (hl : ∀ i j, (i, j) ∈ l → i < r ∧ j < c) (t : τ) :
    l.foldlM (fun s p => m.visitStep v p.1 p.2 (blkIdx c p.1 p.2) (blkOff c p.1 p.2) s) t =
      l.foldlM (fun t p => v.visit p.1 p.2 (m.ent p.1 p.2) t) t := by
  refine foldlM_congr fun x hx s => ?_
  obtain ⟨i, j⟩ := x
  obtain ⟨hi, hj⟩ := hl i j hx
  dsimp only [Blk.visitStep]
  rw [Blk.get_ok _ hi hj, ok_bind]
  rfl

theorem Blk.walkRow_eq (m : Blk α r c) (v : VisP α τ) (t : τ) :
    m.walkRow v t = walk r c 0 (r - 1) 0 (c - 1) (rowCells 0 r 0 c) m.ent v t := by
  unfold Blk.walkRow walk
  congr 1; funext t
  rw [blkLoopRow_eq, m.visit_cells v fun i j h => by have := mem_rowCells.1 h; omega]

theorem Blk.walkOpt_eq (m : Blk α r c) (v : VisP α τ) (t : τ) :
    m.walkOpt v t = walk r c 0 (r - 1) 0 (c - 1) (blkCells r c) m.ent v t := by
  unfold Blk.walkOpt walk
  congr 1; funext t
  rw [blkLoopOpt_eq, m.visit_cells v fun i j h => mem_blkCells.1 h]

theorem Blk.walkCol_eq (m : Blk α r c) (v : VisP α τ) (t : τ) :
    m.walkCol v t = walk r c 0 (r - 1) 0 (c - 1) (colCells 0 r 0 c) m.ent v t := by
  unfold Blk.walkCol walk
  congr 1; funext t
  rw [forUp_colCells 0 r 0 c (fun i j t => (do v.visit i j (← m.at i j) t))]
  congr 1
  exact fold_colCells (f := fun i j t => (do v.visit i j (← m.at i j) t))
    (g := fun i j t => v.visit i j (m.ent i j) t) fun i j hi hj s => by
      rw [m.at_ok hi hj, ok_bind]

theorem Blk.walkRowB_eq (m : Blk α r c) (v : VisP α τ) (t : τ) {sr er sc ec : Int}
    (h : window r c sr er sc ec) :
    m.walkRowB v t sr er sc ec = walk r c sr er sc ec
      (rowCells sr.toNat (1 + er.toNat) sc.toNat (1 + ec.toNat)) m.ent v t := by
  have hw := h
  unfold window at hw
  unfold Blk.walkRowB walk
  rw [checkSubMatrixIndex_ok h, must_ok, ok_bind]
  congr 1; funext t
  rw [blkLoopRowB_eq (by omega) (by omega) (by omega),
    m.visit_cells v fun i j h => by have := mem_rowCells.1 h; omega]

theorem Blk.walkOptB_eq (m : Blk α r c) (v : VisP α τ) (t : τ) {sr er sc ec : Int}
    (h : window r c sr er sc ec) :
    m.walkOptB v t sr er sc ec = walk r c sr er sc ec
      (blkCellsB sr.toNat er.toNat sc.toNat ec.toNat) m.ent v t := by
  have hw := h
  unfold window at hw
  unfold Blk.walkOptB walk
  rw [checkSubMatrixIndex_ok h, must_ok, ok_bind]
  congr 1; funext t
  rw [blkLoopOptB_eq (by omega),
    m.visit_cells v fun i j h => by have := mem_blkCellsB.1 h; omega]

theorem Blk.walkColB_eq (m : Blk α r c) (v : VisP α τ) (t : τ) {sr er sc ec : Int}
    (h : window r c sr er sc ec) :
    m.walkColB v t sr er sc ec = walk r c sr er sc ec
      (colCells sr.toNat (1 + er.toNat) sc.toNat (1 + ec.toNat)) m.ent v t := by
  have hw := h
  unfold window at hw
  unfold Blk.walkColB walk
  rw [checkSubMatrixIndex_ok h, must_ok, ok_bind]
  congr 1; funext t
  simp only [forIncl_eq (show 0 ≤ sr by omega) (show sr ≤ er by omega),
    forIncl_eq (show 0 ≤ sc by omega) (show sc ≤ ec by omega)]
  rw [forUp_colCells _ _ _ _ (fun i j t => (do v.visit i j (← m.at i j) t))]
  congr 1
  exact fold_colCells (f := fun i j t => (do v.visit i j (← m.at i j) t))
    (g := fun i j t => v.visit i j (m.ent i j) t) fun i j hi hj s => by
      rw [m.at_ok (by omega) (by omega), ok_bind]

theorem Dia.walkRow_eq {n : Nat} (m : Dia α n) (v : VisP α τ) (t : τ) :
    m.walkRow v t = walk n n 0 (n - 1) 0 (n - 1) (rowCells 0 n 0 n) (Mat.dia m).ent v t := by
  unfold Dia.walkRow walk
  congr 1; funext t
  rw [forUp_rowCells 0 n 0 n (fun i j t => (do v.visit i j (← m.at i j) t))]
  congr 1
  exact fold_rowCells (f := fun i j t => (do v.visit i j (← m.at i j) t))
    (g := fun i j t => v.visit i j ((Mat.dia m).ent i j) t) fun i j hi hj s => by
      rw [show m.at i j = .ok ((Mat.dia m).ent i j) from (Mat.dia m).at_ok hi hj, ok_bind]

theorem Dia.walkCol_eq {n : Nat} (m : Dia α n) (v : VisP α τ) (t : τ) :
    m.walkCol v t = walk n n 0 (n - 1) 0 (n - 1) (colCells 0 n 0 n) (Mat.dia m).ent v t := by
  unfold Dia.walkCol walk
  congr 1; funext t
  rw [forUp_colCells 0 n 0 n (fun i j t => (do v.visit i j (← m.at i j) t))]
  congr 1
  exact fold_colCells (f := fun i j t => (do v.visit i j (← m.at i j) t))
    (g := fun i j t => v.visit i j ((Mat.dia m).ent i j) t) fun i j hi hj s => by
      rw [show m.at i j = .ok ((Mat.dia m).ent i j) from (Mat.dia m).at_ok hi hj, ok_bind]

theorem Dia.walkRowB_eq {n : Nat} (m : Dia α n) (v : VisP α τ) (t : τ) {sr er sc ec : Int}
    (h : window n n sr er sc ec) :
    m.walkRowB v t sr er sc ec = walk n n sr er sc ec
      (rowCells sr.toNat (1 + er.toNat) sc.toNat (1 + ec.toNat)) (Mat.dia m).ent v t := by
  have hw := h
  unfold window at hw
  unfold Dia.walkRowB walk
  congr 1; funext t
  simp only [forIncl_eq (show 0 ≤ sr by omega) (show sr ≤ er by omega),
    forIncl_eq (show 0 ≤ sc by omega) (show sc ≤ ec by omega)]
  rw [forUp_rowCells _ _ _ _ (fun i j t => (do v.visit i j (← m.at i j) t))]
  congr 1
  exact fold_rowCells (f := fun i j t => (do v.visit i j (← m.at i j) t))
    (g := fun i j t => v.visit i j ((Mat.dia m).ent i j) t) fun i j hi hj s => by
      rw [show m.at i j = .ok ((Mat.dia m).ent i j) from
        (Mat.dia m).at_ok (by omega) (by omega), ok_bind]

theorem Dia.walkColB_eq {n : Nat} (m : Dia α n) (v : VisP α τ) (t : τ) {sr er sc ec : Int}
    (h : window n n sr er sc ec) :
    m.walkColB v t sr er sc ec = walk n n sr er sc ec
      (colCells sr.toNat (1 + er.toNat) sc.toNat (1 + ec.toNat)) (Mat.dia m).ent v t := by
  have hw := h
  unfold window at hw
  unfold Dia.walkColB walk
  congr 1; funext t
  simp only [forIncl_eq (show 0 ≤ sr by omega) (show sr ≤ er by omega),
    forIncl_eq (show 0 ≤ sc by omega) (show sc ≤ ec by omega)]
  rw [forUp_colCells _ _ _ _ (fun i j t => (do v.visit i j (← m.at i j) t))]
  congr 1
  exact fold_colCells (f := fun i j t => (do v.visit i j (← m.at i j) t))
    (g := fun i j t => v.visit i j ((Mat.dia m).ent i j) t) fun i j hi hj s => by
      rw [show m.at i j = .ok ((Mat.dia m).ent i j) from
        (Mat.dia m).at_ok (by omega) (by omega), ok_bind]

/-! ## Updating walks -/

/-- Two outcomes agree: same result or same fault, and the matrix shows the entries. -/
def Agree {β M : Type} (r c : Nat) (π : M → Nat → Nat → α) :
    Except (Fault × M) (β × M) → Except (Fault × (Nat → Nat → α)) (β × (Nat → Nat → α)) → Prop
  | .ok (x, m), .ok (y, A) => x = y ∧ ∀ i j, i < r → j < c → π m i j = A i j
  | .error (x, m), .error (y, A) => x = y ∧ ∀ i j, i < r → j < c → π m i j = A i j
  | _, _ => False

theorem Agree.bind {β γ M : Type} {π : M → Nat → Nat → α} {x : Except (Fault × M) (β × M)}
    {y : Except (Fault × (Nat → Nat → α)) (β × (Nat → Nat → α))}
    {f : β × M → Except (Fault × M) (γ × M)}
    {g : β × (Nat → Nat → α) → Except (Fault × (Nat → Nat → α)) (γ × (Nat → Nat → α))}
    (h : Agree r c π x y)
    (hf : ∀ b m A, (∀ i j, i < r → j < c → π m i j = A i j) → Agree r c π (f (b, m)) (g (b, A))) :
    Agree r c π (x >>= f) (y >>= g) := by
  match x, y, h with
  | .ok (x, m), .ok (y, A), h => obtain ⟨rfl, h⟩ := h; exact hf _ _ _ h
  | .error (x, m), .error (y, A), h => exact h

theorem Agree.fold {M : Type} {π : M → Nat → Nat → α} {l : List (Nat × Nat)}
    {f : τ × M → Nat × Nat → Except (Fault × M) (τ × M)}
    {g : τ × (Nat → Nat → α) → Nat × Nat →
      Except (Fault × (Nat → Nat → α)) (τ × (Nat → Nat → α))}
    (hf : ∀ p, p ∈ l → ∀ t m A, (∀ i j, i < r → j < c → π m i j = A i j) →
      Agree r c π (f (t, m) p) (g (t, A) p)) (t : τ) (m : M) (A : Nat → Nat → α)
    (h : ∀ i j, i < r → j < c → π m i j = A i j) :
    Agree r c π (l.foldlM f (t, m)) (l.foldlM g (t, A)) := by
  induction l generalizing t m A with
  | nil => exact ⟨rfl, h⟩
  | cons p l ih =>
    rw [List.foldlM_cons, List.foldlM_cons]
    exact (hf p (by simp) t m A h).bind fun t m A h =>
      ih (fun q hq => hf q (by simp [hq])) t m A h

/-- The common shape of the updating walks. -/
theorem Agree.walk {M : Type} {π : M → Nat → Nat → α} {m : M} {A : Nat → Nat → α}
    {f : τ × M → Nat × Nat → Except (Fault × M) (τ × M)} {l : List (Nat × Nat)}
    (h : ∀ i j, i < r → j < c → π m i j = A i j) (R C sr er sc ec : Int) (v : VisC α τ) (t : τ)
    (hl : ∀ i j, (i, j) ∈ l → i < r ∧ j < c)
    (hf : ∀ i j t m A, i < r → j < c → (∀ i j, i < r → j < c → π m i j = A i j) →
      Agree r c π (f (t, m) (i, j)) (do
        let y ← (v.visit i j (A i j) t).at A
        return (y.1, fun x z => if x = i ∧ z = j then y.2 else A x z))) :
    Agree r c π (do
        let t ← (v.start R C sr er sc ec t).at m
        let s ← l.foldlM f (t, m)
        return (← (v.fin s.1).at s.2, s.2) : Except (Fault × M) ((τ × α) × M))
      (updWalk R C sr er sc ec l v t A) := by
  unfold updWalk
  cases v.start R C sr er sc ec t with
  | error e => exact ⟨rfl, h⟩
  | ok t =>
    simp only [res_at_ok, ok_bind]
    refine (Agree.fold (fun p hp t m A h => ?_) t m A h).bind fun t m A h => ?_
    · obtain ⟨i, j⟩ := p
      obtain ⟨hi, hj⟩ := hl i j hp
      exact hf i j t m A hi hj h
    · dsimp only
      cases v.fin t with
      | error e => exact ⟨rfl, h⟩
      | ok x => exact ⟨rfl, h⟩

theorem Arr.visitSet_agree (v : VisC α τ) (i j : Nat) (t : τ) (m : Arr α r c) (A : Nat → Nat → α)
    (hi : i < r) (hj : j < c) (h : ∀ i j, i < r → j < c → m.data.f i j = A i j) :
    Agree r c (fun m : Arr α r c => m.data.f) (Arr.visitSet v i j (t, m)) (do
        let y ← (v.visit i j (A i j) t).at A
        return (y.1, fun x z => if x = i ∧ z = j then y.2 else A x z)) := by
  unfold Arr.visitSet
  simp only [Int.toNat_natCast, Tab.get_ok hi hj, res_at_ok, ok_bind, h i j hi hj]
  cases v.visit i j (A i j) t with
  | error e => exact ⟨rfl, h⟩
  | ok y =>
    simp only [res_at_ok, ok_bind, Tab.set_ok hi hj]
    refine ⟨rfl, fun x z hx hz => ?_⟩
    simp only [upd2]
    split
    · rfl
    · exact h x z hx hz

theorem Blk.visitSet_agree (v : VisC α τ) (i j : Nat) (t : τ) (m : Blk α r c) (A : Nat → Nat → α)
    (hi : i < r) (hj : j < c) (h : ∀ i j, i < r → j < c → m.ent i j = A i j) :
    Agree r c (fun m : Blk α r c => m.ent)
      (Blk.visitSet v i j (blkIdx c i j) (blkOff c i j) (t, m)) (do
        let y ← (v.visit i j (A i j) t).at A
        return (y.1, fun x z => if x = i ∧ z = j then y.2 else A x z)) := by
  unfold Blk.visitSet
  simp only [Blk.get_ok m.blocks hi hj, res_at_ok, ok_bind]
  rw [show m.blocks.f (blkIdx c i j) (blkOff c i j) = A i j from h i j hi hj]
  cases v.visit i j (A i j) t with
  | error e => exact ⟨rfl, h⟩
  | ok y =>
    simp only [res_at_ok, ok_bind, Blk.set_ok m.blocks hi hj]
    refine ⟨rfl, fun x z hx hz => ?_⟩
    dsimp only
    rw [Blk.ent_upd m.blocks hj hz]
    split
    · rfl
    · exact h x z hx hz

theorem Blk.visitAt_agree (v : VisC α τ) (i j : Nat) (t : τ) (m : Blk α r c) (A : Nat → Nat → α)
    (hi : i < r) (hj : j < c) (h : ∀ i j, i < r → j < c → m.ent i j = A i j) :
    Agree r c (fun m : Blk α r c => m.ent) (Blk.visitAt v i j (t, m)) (do
        let y ← (v.visit i j (A i j) t).at A
        return (y.1, fun x z => if x = i ∧ z = j then y.2 else A x z)) := by
  unfold Blk.visitAt
  simp only [m.at_ok hi hj, res_at_ok, ok_bind, h i j hi hj]
  cases v.visit i j (A i j) t with
  | error e => exact ⟨rfl, h⟩
  | ok y =>
    simp only [res_at_ok, ok_bind]
    obtain ⟨m', e, hm⟩ := m.setEntry_ok (i := i) (j := j) (v := y.2) (by unfold inRange; omega)
    rw [e]
    refine ⟨rfl, fun x z hx hz => ?_⟩
    dsimp only
    rw [Blk.ent_eq _ hx hz, hm, upd2_eq, ← Blk.ent_eq m hx hz]
    simp only [Int.toNat_natCast]
    split
    · rfl
    · exact h x z hx hz

section
variable (v : VisC α τ) (t : τ)

theorem Arr.updRow_agree (m : Arr α r c) (hr : 0 < r) :
    Agree r c (fun m : Arr α r c => m.data.f) (m.updRow v t)
      (updWalk r c 0 (r - 1) 0 (c - 1) (rowCells 0 r 0 c) v t m.data.f) := by
  unfold Arr.updRow
  rw [Arr.colDim_ok m hr, res_at_ok, ok_bind]
  simp only [forUp_rowCells 0 r 0 c (fun i j (s : τ × Arr α r c) => Arr.visitSet v i j s)]
  exact Agree.walk (fun _ _ _ _ => rfl) _ _ _ _ _ _ v t
    (fun i j h => by have := mem_rowCells.1 h; omega) (Arr.visitSet_agree v)

theorem Arr.updCol_agree (m : Arr α r c) (hr : 0 < r) :
    Agree r c (fun m : Arr α r c => m.data.f) (m.updCol v t)
      (updWalk r c 0 (r - 1) 0 (c - 1) (colCells 0 r 0 c) v t m.data.f) := by
  unfold Arr.updCol
  rw [Arr.colDim_ok m hr, res_at_ok, ok_bind]
  simp only [forUp_colCells 0 r 0 c (fun i j (s : τ × Arr α r c) => Arr.visitSet v i j s)]
  exact Agree.walk (fun _ _ _ _ => rfl) _ _ _ _ _ _ v t
    (fun i j h => by have := mem_colCells.1 h; omega) (Arr.visitSet_agree v)

theorem Blk.updRow_agree (m : Blk α r c) :
    Agree r c (fun m : Blk α r c => m.ent) (m.updRow v t)
      (updWalk r c 0 (r - 1) 0 (c - 1) (rowCells 0 r 0 c) v t m.ent) := by
  unfold Blk.updRow
  simp only [blkLoopRow_eq]
  exact Agree.walk (fun _ _ _ _ => rfl) _ _ _ _ _ _ v t
    (fun i j h => by have := mem_rowCells.1 h; omega) (Blk.visitSet_agree v)

theorem Blk.updOpt_agree (m : Blk α r c) :
    Agree r c (fun m : Blk α r c => m.ent) (m.updOpt v t)
      (updWalk r c 0 (r - 1) 0 (c - 1) (blkCells r c) v t m.ent) := by
  unfold Blk.updOpt
  simp only [blkLoopOpt_eq]
  exact Agree.walk (fun _ _ _ _ => rfl) _ _ _ _ _ _ v t
    (fun i j h => mem_blkCells.1 h) (Blk.visitSet_agree v)

theorem Blk.updCol_agree (m : Blk α r c) :
    Agree r c (fun m : Blk α r c => m.ent) (m.updCol v t)
      (updWalk r c 0 (r - 1) 0 (c - 1) (colCells 0 r 0 c) v t m.ent) := by
  unfold Blk.updCol
  simp only [forUp_colCells 0 r 0 c (fun i j (s : τ × Blk α r c) => Blk.visitAt v i j s)]
  exact Agree.walk (fun _ _ _ _ => rfl) _ _ _ _ _ _ v t
    (fun i j h => by have := mem_colCells.1 h; omega) (Blk.visitAt_agree v)

variable {sr er sc ec : Int}

theorem Arr.updRowB_agree (m : Arr α r c) (h : window r c sr er sc ec) :
    Agree r c (fun m : Arr α r c => m.data.f) (m.updRowB v t sr er sc ec)
      (updWalk r c sr er sc ec (rowCells sr.toNat (1 + er.toNat) sc.toNat (1 + ec.toNat))
        v t m.data.f) := by
  have hw := h
  unfold window at hw
  unfold Arr.updRowB
  rw [checkSubMatrixIndex_ok h, must_ok, res_at_ok, ok_bind]
  simp only [forIncl_eq (show 0 ≤ sr by omega) (show sr ≤ er by omega),
    forIncl_eq (show 0 ≤ sc by omega) (show sc ≤ ec by omega),
    forUp_rowCells _ _ _ _ (fun i j (s : τ × Arr α r c) => Arr.visitSet v i j s)]
  exact Agree.walk (fun _ _ _ _ => rfl) _ _ _ _ _ _ v t
    (fun i j h => by have := mem_rowCells.1 h; omega) (Arr.visitSet_agree v)

theorem Arr.updColB_agree (m : Arr α r c) (h : window r c sr er sc ec) :
    Agree r c (fun m : Arr α r c => m.data.f) (m.updColB v t sr er sc ec)
      (updWalk r c sr er sc ec (colCells sr.toNat (1 + er.toNat) sc.toNat (1 + ec.toNat))
        v t m.data.f) := by
  have hw := h
  unfold window at hw
  unfold Arr.updColB
  rw [checkSubMatrixIndex_ok h, must_ok, res_at_ok, ok_bind]
  simp only [forIncl_eq (show 0 ≤ sr by omega) (show sr ≤ er by omega),
    forIncl_eq (show 0 ≤ sc by omega) (show sc ≤ ec by omega),
    forUp_colCells _ _ _ _ (fun i j (s : τ × Arr α r c) => Arr.visitSet v i j s)]
  exact Agree.walk (fun _ _ _ _ => rfl) _ _ _ _ _ _ v t
    (fun i j h => by have := mem_colCells.1 h; omega) (Arr.visitSet_agree v)

theorem Blk.updRowB_agree (m : Blk α r c) (h : window r c sr er sc ec) :
    Agree r c (fun m : Blk α r c => m.ent) (m.updRowB v t sr er sc ec)
      (updWalk r c sr er sc ec (rowCells sr.toNat (1 + er.toNat) sc.toNat (1 + ec.toNat))
        v t m.ent) := by
  have hw := h
  unfold window at hw
  unfold Blk.updRowB
  rw [checkSubMatrixIndex_ok h, must_ok, res_at_ok, ok_bind]
  simp only [blkLoopRowB_eq (show sr.toNat ≤ er.toNat by omega) (show sc.toNat ≤ ec.toNat by omega)
    (show ec.toNat < c by omega)]
  exact Agree.walk (fun _ _ _ _ => rfl) _ _ _ _ _ _ v t
    (fun i j h => by have := mem_rowCells.1 h; omega) (Blk.visitSet_agree v)

theorem Blk.updOptB_agree (m : Blk α r c) (h : window r c sr er sc ec) :
    Agree r c (fun m : Blk α r c => m.ent) (m.updOptB v t sr er sc ec)
      (updWalk r c sr er sc ec (blkCellsB sr.toNat er.toNat sc.toNat ec.toNat) v t m.ent) := by
  have hw := h
  unfold window at hw
  unfold Blk.updOptB
  rw [checkSubMatrixIndex_ok h, must_ok, res_at_ok, ok_bind]
  simp only [blkLoopOptB_eq (show ec.toNat < c by omega)]
  exact Agree.walk (fun _ _ _ _ => rfl) _ _ _ _ _ _ v t
    (fun i j h => by have := mem_blkCellsB.1 h; omega) (Blk.visitSet_agree v)

theorem Blk.updColB_agree (m : Blk α r c) (h : window r c sr er sc ec) :
    Agree r c (fun m : Blk α r c => m.ent) (m.updColB v t sr er sc ec)
      (updWalk r c sr er sc ec (colCells sr.toNat (1 + er.toNat) sc.toNat (1 + ec.toNat))
        v t m.ent) := by
  have hw := h
  unfold window at hw
  unfold Blk.updColB
  rw [checkSubMatrixIndex_ok h, must_ok, res_at_ok, ok_bind]
  simp only [forIncl_eq (show 0 ≤ sr by omega) (show sr ≤ er by omega),
    forIncl_eq (show 0 ≤ sc by omega) (show sc ≤ ec by omega),
    forUp_colCells _ _ _ _ (fun i j (s : τ × Blk α r c) => Blk.visitAt v i j s)]
  exact Agree.walk (fun _ _ _ _ => rfl) _ _ _ _ _ _ v t
    (fun i j h => by have := mem_colCells.1 h; omega) (Blk.visitAt_agree v)

end

/-! ## What an updating walk leaves in the matrix -/

theorem updFold_value (v : VisC α τ) {l : List (Nat × Nat)} (hl : l.Nodup) {t t' : τ}
    {A A' : Nat → Nat → α}
    (h : l.foldlM (fun (s : τ × (Nat → Nat → α)) p => do
      let y ← (v.visit p.1 p.2 (s.2 p.1 p.2) s.1).at s.2
      return (y.1, fun x z => if x = p.1 ∧ z = p.2 then y.2 else s.2 x z)) (t, A)
      = (.ok (t', A') : Except (Fault × (Nat → Nat → α)) _)) :
    (∀ i j, (i, j) ∉ l → A' i j = A i j) ∧
    (∀ i j, (i, j) ∈ l → ∃ t₁ t₂, v.visit i j (A i j) t₁ = .ok (t₂, A' i j)) := by
  induction l generalizing t A with
  | nil =>
    cases h
    exact ⟨fun _ _ _ => rfl, fun _ _ h => by cases h⟩
  | cons p l ih =>
    obtain ⟨a, b⟩ := p
    obtain ⟨hp, hl⟩ := List.nodup_cons.1 hl
    rw [List.foldlM_cons] at h
    dsimp only at h
    cases e : v.visit a b (A a b) t with
    | error f => rw [e] at h; cases h
    | ok y =>
      rw [e, res_at_ok, ok_bind, pure_eq_ok, ok_bind] at h
      obtain ⟨h1, h2⟩ := ih hl h
      constructor
      · intro i j hij
        rw [h1 i j fun h => hij (by simp [h]), if_neg]
        rintro ⟨rfl, rfl⟩
        exact hij (by simp)
      · intro i j hij
        rcases List.mem_cons.1 hij with hh | hh
        · cases hh
          refine ⟨t, y.1, ?_⟩
          rw [e, h1 _ _ hp]
          simp
        · obtain ⟨t₁, t₂, e'⟩ := h2 i j hh
          refine ⟨t₁, t₂, ?_⟩
          rw [← e', if_neg]
          rintro ⟨rfl, rfl⟩
          exact hp hh

end Linear
