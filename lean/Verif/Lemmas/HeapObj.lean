import Verif.Lemmas.HeapSim
import Verif.Lemmas.ArrLemmas

/-!
# Slices, vectors and row-array matrices as objects of the heap
-/

namespace Linear

open HM Heap

set_option linter.unusedSectionVars false

variable {α : Type} [Flt α]

/-! ## Slices and vectors -/

/-- The slice `v` shows the entries of `xs`. -/
def Heap.IsVec (v : Sl) (h : Heap α) (xs : List α) : Prop :=
  xs.length = v.len ∧ ∀ j, j < v.len → h.cell v.id (v.off + j) = xs[j]?

/-- The cells of a slice. -/
def Sl.cells (v : Sl) (a k : Nat) : Prop := ∃ j, j < v.len ∧ a = v.id ∧ k = v.off + j

theorem Heap.rd_run {v : Sl} {h : Heap α} {xs : List α} (hv : IsVec v h xs) (i : Nat) :
    rd v i h = (rdL xs i, h) := by
  unfold rd rdL
  by_cases hi : i < v.len
  · have h2 : i < xs.length := by rw [hv.1]; exact hi
    rw [if_pos hi, hv.2 i hi, List.getElem?_eq_getElem h2]
  · have h2 : xs.length ≤ i := by rw [hv.1]; omega
    rw [if_neg hi, List.getElem?_eq_none h2]

theorem SimAt.wr {v : Sl} {h : Heap α} {xs : List α} (hv : IsVec v h xs) (i : Nat) (x : α) :
    SimAt (IsVec v) v.cells (wr v i x) h ((wrL xs i x).at xs) := by
  unfold HM.wr wrL
  by_cases hi : i < v.len
  · have h2 : i < xs.length := by rw [hv.1]; exact hi
    rw [if_pos h2]
    refine ⟨⟨h.next, upd2 h.cell v.id (v.off + i) (some x), h.head⟩, ?_, ⟨?_, fun j hj => ?_⟩, ⟨rfl, rfl, fun a k n => ?_,
      fun a k => ?_⟩⟩
    · dsimp only
      rw [if_pos hi, hv.2 i hi, List.getElem?_eq_getElem h2]
    · rw [List.length_set]; exact hv.1
    · dsimp only
      unfold upd2
      rw [List.getElem?_set]
      by_cases e : i = j
      · subst e
        rw [if_pos ⟨rfl, rfl⟩, if_pos rfl, if_pos h2]
      · rw [if_neg (by omega), if_neg e]
        exact hv.2 j hj
    · dsimp only
      unfold upd2
      exact if_neg fun e => n ⟨i, hi, e.1, e.2⟩
    · dsimp only
      unfold upd2
      by_cases e : a = v.id ∧ k = v.off + i
      · rw [if_pos e, e.1, e.2, hv.2 i hi, List.getElem?_eq_getElem h2]
        rfl
      · rw [if_neg e]
  · have h2 : ¬ i < xs.length := by rw [hv.1]; exact hi
    rw [if_neg h2]
    refine ⟨h, ?_, hv, Frame.refl _ _⟩
    dsimp only
    rw [if_neg hi]

/-- Writes through a slice, and the calls that change a vector without reading other storage. -/
inductive VCall (α : Type)
  | raw (i : Nat) (x : α)
  | setEntry (i : Int) (x : α)
  | addToEntry (i : Int) (x : α)
  | set (x : α)
  | map (f : α → Res α)

/-- The call on the heap. -/
def VCall.onHeap (v : Sl) : VCall α → HM α Unit
  | .raw i x => wr v i x
  | .setEntry i x => vSetEntry v i x
  | .addToEntry i x => vAddToEntry v i x
  | .set x => vSet v x
  | .map f => vMap v f

/-- The call on the contents. -/
def VCall.onList (xs : List α) : VCall α → Except (Fault × List α) (List α)
  | .raw i x => (wrL xs i x).at xs
  | .setEntry i x => Vec.setEntry xs i x
  | .addToEntry i x => Vec.addToEntry xs i x
  | .set x => Vec.set xs x
  | .map f => Vec.map xs f

theorem VCall.sim (v : Sl) (k : VCall α) (h : Heap α) (xs : List α) (hv : IsVec v h xs) :
    SimAt (IsVec v) v.cells (k.onHeap v) h (k.onList xs) := by
  cases k with
  | raw i x => exact SimAt.wr hv i x
  | setEntry i x =>
    show SimAt _ _ (vSetEntry v i x) h (Vec.setEntry xs i x)
    unfold vSetEntry Vec.setEntry
    rw [hv.1]
    exact SimAt.lift hv fun _ _ => SimAt.wr hv _ x
  | addToEntry i x =>
    show SimAt _ _ (vAddToEntry v i x) h (Vec.addToEntry xs i x)
    unfold vAddToEntry Vec.addToEntry
    rw [hv.1]
    exact SimAt.lift hv fun _ _ => SimAt.read hv (rd_run hv _) fun _ _ => SimAt.wr hv _ _
  | set x =>
    show SimAt _ _ (vSet v x) h (Vec.set xs x)
    unfold vSet Vec.set
    rw [hv.1]
    exact SimAt.loop hv fun i _ _ h s hs => SimAt.wr hs i x
  | map f =>
    show SimAt _ _ (vMap v f) h (Vec.map xs f)
    unfold vMap Vec.map
    rw [hv.1]
    exact SimAt.loop hv fun i _ _ h s hs => SimAt.read hs (rd_run hs i) fun x _ => SimAt.lift hs fun y _ =>
      SimAt.wr hs i y

/-- A slice or a vector. -/
def Obj.vec (v : Sl) : Obj α where
  σ := List α
  κ := VCall α
  R := IsVec v
  F := v.cells
  hs := VCall.onHeap v
  vs k s := k.onList s
  sim k h s := VCall.sim v k h s
  G _ _ := False
  stable h h' xs _ hc hv := ⟨hv.1, fun j hj => by rw [hc _ _ ⟨j, hj, rfl, rfl⟩]; exact hv.2 j hj⟩
  alive h xs hv := ⟨fun a k ⟨j, hj, ha, hk⟩ => by
    rw [ha, hk, hv.2 j hj, List.getElem?_eq_getElem (by rw [hv.1]; exact hj)]
    exact Option.some_ne_none _, fun _ _ f => f.elim⟩

/-! ## Slices of slices -/

variable {n : Nat} {len : Nat → Nat}

/-- The `[][]float64` with descriptor `m` has the rows `rows`, whose cells are all different, and they show `t`. -/
structure Heap.IsJag (m : Sl) (rows : Nat → Sl) (h : Heap α) (t : Jag α n len) : Prop where
  size : m.len = n
  head : ∀ i, i < n → h.head m.id (m.off + i) = some (rows i)
  width : ∀ i, i < n → (rows i).len = len i
  cell : ∀ i j, i < n → j < len i → h.cell (rows i).id ((rows i).off + j) = some (t.f i j)
  apart : ∀ i j i' j', i < n → j < len i → i' < n → j' < len i' → (rows i).id = (rows i').id →
    (rows i).off + j = (rows i').off + j' → i = i' ∧ j = j'

/-- The cells of a slice of slices. -/
def jagCells (rows : Nat → Sl) (n : Nat) (len : Nat → Nat) (a k : Nat) : Prop :=
  ∃ i j, i < n ∧ j < len i ∧ a = (rows i).id ∧ k = (rows i).off + j

/-- The descriptors of a slice of slices. -/
def jagHeads (m : Sl) (n : Nat) (a k : Nat) : Prop := ∃ i, i < n ∧ a = m.id ∧ k = m.off + i

section
variable {m : Sl} {rows : Nat → Sl} {h : Heap α} {t : Jag α n len}

theorem Heap.rdH_run (H : IsJag m rows h t) (i : Nat) :
    rdH m i h = (if i < n then .ok (rows i) else .error .rt, h) := by
  unfold rdH
  rw [H.size]
  by_cases hi : i < n
  · rw [if_pos hi, if_pos hi, H.head i hi]
  · rw [if_neg hi, if_neg hi]

theorem Heap.get_run (H : IsJag m rows h t) (i j : Nat) : Heap.get m i j h = (t.get i j, h) := by
  unfold Heap.get Jag.get
  by_cases hi : i < n
  · rw [HM.bind_ok (b := rows i) (h' := h) (by rw [rdH_run H, if_pos hi])]
    unfold rd
    rw [H.width i hi]
    by_cases hj : j < len i
    · rw [if_pos hj, if_pos ⟨hi, hj⟩, H.cell i j hi hj]
    · rw [if_neg hj, if_neg fun e => hj e.2]
  · rw [HM.bind_error (e := .rt) (h' := h) (by rw [rdH_run H, if_neg hi]), if_neg fun e => hi e.1]

theorem SimAt.put (H : IsJag m rows h t) (i j : Nat) (v : α) :
    SimAt (IsJag m rows) (jagCells rows n len) (Heap.put m i j v) h ((t.set i j v).at t) := by
  unfold Heap.put Jag.set
  by_cases hi : i < n
  · by_cases hj : j < len i
    · rw [if_pos ⟨hi, hj⟩]
      refine ⟨⟨h.next, upd2 h.cell (rows i).id ((rows i).off + j) (some v), h.head⟩, ?_, ?_, ⟨rfl, rfl,
        fun x k n => ?_, fun x k => ?_⟩⟩
      · rw [HM.bind_ok (b := rows i) (h' := h) (by rw [rdH_run H, if_pos hi])]
        unfold HM.wr
        rw [H.width i hi, if_pos hj, H.cell i j hi hj]
      · refine ⟨H.size, H.head, H.width, fun i' j' hi' hj' => ?_, H.apart⟩
        dsimp only
        unfold upd2
        by_cases e : i' = i ∧ j' = j
        · rw [e.1, e.2, if_pos ⟨rfl, rfl⟩, if_pos ⟨rfl, rfl⟩]
        · rw [if_neg fun e' => e (H.apart i' j' i j hi' hj' hi hj e'.1 e'.2), if_neg e]
          exact H.cell i' j' hi' hj'
      · dsimp only
        unfold upd2
        exact if_neg fun e => n ⟨i, j, hi, hj, e.1, e.2⟩
      · dsimp only
        unfold upd2
        by_cases e : x = (rows i).id ∧ k = (rows i).off + j
        · rw [if_pos e, e.1, e.2, H.cell i j hi hj]
          rfl
        · rw [if_neg e]
    · rw [if_neg fun e => hj e.2]
      refine ⟨h, ?_, H, Frame.refl _ _⟩
      rw [HM.bind_ok (b := rows i) (h' := h) (by rw [rdH_run H, if_pos hi])]
      unfold HM.wr
      rw [H.width i hi, if_neg hj]
  · rw [if_neg fun e => hi e.1]
    refine ⟨h, ?_, H, Frame.refl _ _⟩
    exact HM.bind_error (by rw [rdH_run H, if_neg hi])

theorem IsJag.stable {h' : Heap α} (H : IsJag m rows h t)
    (e : ∀ a k, jagHeads m n a k → h'.head a k = h.head a k)
    (hc : ∀ a k, jagCells rows n len a k → h'.cell a k = h.cell a k) : IsJag m rows h' t :=
  ⟨H.size, fun i hi => by rw [e _ _ ⟨i, hi, rfl, rfl⟩]; exact H.head i hi, H.width,
    fun i j hi hj => by rw [hc _ _ ⟨i, j, hi, hj, rfl, rfl⟩]; exact H.cell i j hi hj, H.apart⟩

theorem IsJag.alive (H : IsJag m rows h t) : (∀ a k, jagCells rows n len a k → h.cell a k ≠ none) ∧
    ∀ a k, jagHeads m n a k → h.head a k ≠ none :=
  ⟨fun a k ⟨i, j, hi, hj, ha, hk⟩ => by
    rw [ha, hk, H.cell i j hi hj]
    exact Option.some_ne_none _, fun a k ⟨i, hi, ha, hk⟩ => by
    rw [ha, hk, H.head i hi]
    exact Option.some_ne_none _⟩

end

theorem HM.assoc {β γ δ : Type} (x : HM α β) (f : β → HM α γ) (g : γ → HM α δ) :
    ((x >>= f) >>= g) = (x >>= fun b => f b >>= g) := by
  funext h
  cases e : (x h).1 with
  | ok b =>
    rw [HM.bind_ok (b := b) (h' := (x h).2) (Prod.ext e rfl)]
    show (match ((x >>= f) h).1 with | .ok b => g b ((x >>= f) h).2 | .error e => (.error e, ((x >>= f) h).2)) = _
    rw [HM.bind_ok (b := b) (h' := (x h).2) (Prod.ext e rfl)]
    rfl
  | error e' =>
    rw [HM.bind_error (e := e') (h' := (x h).2) (Prod.ext e rfl)]
    exact HM.bind_error (HM.bind_error (Prod.ext e rfl))

theorem SimAt.of_run {σ : Type} {R : Heap α → σ → Prop} {F : Nat → Nat → Prop} {x x' : HM α Unit} {h : Heap α}
    {y : Except (Fault × σ) σ} (e : x h = x' h) (hx : SimAt R F x' h y) : SimAt R F x h y := by
  unfold SimAt at hx ⊢
  rw [e]
  exact hx

/-- A loop whose body does not change the heap. -/
theorem HM.for_reads {body : Nat → HM α Unit} {z : Nat → Res Unit} {h : Heap α} {a b : Nat}
    (hb : ∀ i, body i h = (z i, h)) : HM.for' a b body h = (forUp a b (fun i _ => z i) (), h) := by
  induction hn : b - a generalizing a with
  | zero =>
    rw [HM.for_self (by omega), forUp_eq_self (by omega)]
    rfl
  | succ n ih =>
    rw [HM.for_step (by omega), forUp_step (by omega)]
    cases e : z a with
    | error f => rw [HM.bind_error (e := f) (h' := h) (by rw [hb, e]), error_bind]
    | ok u => rw [HM.bind_ok (b := u) (h' := h) (by rw [hb, e]), ok_bind, ih (by omega)]

theorem forUp_at {σ : Type} (s : σ) (z : Nat → Res Unit) (a b : Nat) :
    forUp a b (fun i (_ : Unit) => (z i).at s) () = Res.at s (forUp a b (fun i _ => z i) ()) := by
  induction hn : b - a generalizing a with
  | zero =>
    rw [forUp_eq_self (by omega), forUp_eq_self (by omega)]
    rfl
  | succ n ih =>
    rw [forUp_step (by omega), forUp_step (by omega)]
    cases e : z a with
    | error f => rfl
    | ok u => rw [res_at_ok, ok_bind, ok_bind, ih _ (by omega)]

/-! ## Row-array matrices -/

variable {r c : Nat}

/-- The matrix with descriptor `m`, the rows `rows` and the value `a`. -/
def Heap.IsArr (m : Sl) (rows : Nat → Sl) (h : Heap α) (a : Arr α r c) : Prop :=
  IsJag m rows h a.data ∧ ∀ i, i < r → (rows i).cap = c + a.slack i

/-- The cells of a matrix. -/
def matCells (rows : Nat → Sl) (r c : Nat) : Nat → Nat → Prop := jagCells rows r fun _ => c

section
variable {m : Sl} {rows : Nat → Sl} {h : Heap α} {a : Arr α r c}

theorem Heap.cols_run (H : IsArr m rows h a) : mCols m h = (a.colDim, h) := by
  unfold mCols Arr.colDim
  by_cases hr : r = 0
  · rw [HM.bind_error (e := .rt) (h' := h) (by rw [rdH_run H.1, if_neg (by omega)]), if_pos hr]
  · rw [HM.bind_ok (b := rows 0) (h' := h) (by rw [rdH_run H.1, if_pos (by omega)]), if_neg hr, HM.pure_run,
      H.1.width 0 (by omega)]

theorem SimAt.store (H : IsArr m rows h a) (i j : Nat) (v : α) :
    SimAt (IsArr m rows) (matCells rows r c) (Heap.put m i j v) h
      ((a.data.set i j v).at a >>= fun d => .ok { a with data := d }) := by
  have := SimAt.put H.1 i j v
  cases e : a.data.set i j v with
  | ok d =>
    rw [e] at this
    obtain ⟨h', e1, e2, e3⟩ := this
    exact ⟨h', e1, ⟨e2, H.2⟩, e3⟩
  | error f =>
    rw [e] at this
    obtain ⟨h', e1, e2, e3⟩ := this
    exact ⟨h', e1, ⟨e2, H.2⟩, e3⟩

/-- Writes through the slices of a matrix, and the calls that change a matrix without reading other storage. -/
inductive MCall (α : Type)
  | raw (i j : Nat) (v : α)
  | setEntry (i j : Int) (v : α)
  | addToEntry (i j : Int) (v : α)
  | multiplyEntry (i j : Int) (v : α)
  | setRow (i : Int) (l : List α)
  | setColumn (j : Int) (l : List α)
  | setSubMatrix (d : Option (List (List α))) (row col : Int)

/-- The call on the heap. -/
def MCall.onHeap (m : Sl) : MCall α → HM α Unit
  | .raw i j v => Heap.put m i j v
  | .setEntry i j v => mSetEntry m i j v
  | .addToEntry i j v => mAddToEntry m i j v
  | .multiplyEntry i j v => mMultiplyEntry m i j v
  | .setRow i l => mSetRow m i l
  | .setColumn j l => mSetColumn m j l
  | .setSubMatrix d i j => mSetSubMatrix m d i j

/-- The call on the value. -/
def MCall.onArr (a : Arr α r c) : MCall α → Except (Fault × Arr α r c) (Arr α r c)
  | .raw i j v => (a.data.set i j v).at a >>= fun d => .ok { a with data := d }
  | .setEntry i j v => a.setEntry i j v
  | .addToEntry i j v => a.addToEntry i j v
  | .multiplyEntry i j v => a.multiplyEntry i j v
  | .setRow i l => a.setRow i l
  | .setColumn j l => a.setColumn j l
  | .setSubMatrix d i j => a.setSubMatrix d i j

theorem SimAt.check (H : IsArr m rows h a) (i j : Int) {k : HM α Unit}
    {y : Except (Fault × Arr α r c) (Arr α r c)} (hk : SimAt (IsArr m rows) (matCells rows r c) k h y) :
    SimAt (IsArr m rows) (matCells rows r c) (mCheck m i j >>= fun _ => k) h (do
      (checkRowIndex r i).must.at a
      let nc ← a.colDim.at a
      (checkColumnIndex nc j).must.at a
      y) := by
  unfold mCheck
  rw [HM.assoc, H.1.size]
  refine SimAt.lift H fun _ _ => ?_
  rw [HM.assoc]
  exact SimAt.read H (cols_run H) fun nc _ => SimAt.lift H fun _ _ => hk

theorem SimAt.setEntry (H : IsArr m rows h a) (i j : Int) (v : α) :
    SimAt (IsArr m rows) (matCells rows r c) (mSetEntry m i j v) h (a.setEntry i j v) := by
  unfold mSetEntry Arr.setEntry
  exact SimAt.check H i j (SimAt.store H _ _ _)

theorem SimAt.setRow (H : IsArr m rows h a) (i : Int) (l : List α) :
    SimAt (IsArr m rows) (matCells rows r c) (mSetRow m i l) h (a.setRow i l) := by
  unfold mSetRow Arr.setRow
  rw [H.1.size]
  refine SimAt.lift H fun _ hrow => ?_
  refine SimAt.read H (cols_run H) fun nc hnc => ?_
  by_cases h1 : l.length ≠ nc
  · simp only [if_pos h1]
    exact ⟨h, rfl, H, Frame.refl _ _⟩
  · have hn : nc = c := by
      unfold Arr.colDim at hnc
      split at hnc
      · cases hnc
      · exact (Except.ok.inj hnc).symm
    have hi : i.toNat < r := by
      unfold checkRowIndex at hrow
      split at hrow
      · cases hrow
      · omega
    subst hn
    simp only [if_neg h1]
    show SimAt _ _ (rdH m i.toNat >>= _) h _
    have e1 : rdH m i.toNat h = (.ok (rows i.toNat), h) := by rw [rdH_run H.1, if_pos hi]
    by_cases h2 : i.toNat + nc > nc + a.slack i.toNat
    · rw [if_pos h2]
      refine ⟨h, ?_, H, Frame.refl _ _⟩
      rw [HM.bind_ok e1]
      refine HM.bind_error ?_
      unfold HM.slice
      rw [if_neg (by rw [H.2 _ hi]; omega)]
      rfl
    · rw [if_neg h2]
      have e2 : slice (rows i.toNat) 0 (i.toNat + nc) h =
          (.ok ⟨(rows i.toNat).id, (rows i.toNat).off + 0, i.toNat + nc - 0, (rows i.toNat).cap - 0⟩, h) := by
        unfold HM.slice
        rw [if_pos (by rw [H.2 _ hi]; omega)]
        rfl
      have key := SimAt.loop (R := IsArr m rows) (F := matCells rows r nc) (a := 0) (b := nc)
        (body := fun j => HM.lift (rdL l j) >>= fun v => Heap.put m i.toNat j v)
        (ybody := fun j m => (rdL l j).at m >>= fun v => (m.data.set i.toNat j v).at m >>= fun d =>
          .ok { m with data := d }) H fun j _ _ h s hs => SimAt.lift hs fun v _ => SimAt.store hs _ _ _
      refine SimAt.of_run ?_ key
      rw [HM.bind_ok e1, HM.bind_ok e2]

theorem SimAt.setColumn (H : IsArr m rows h a) (j : Int) (l : List α) :
    SimAt (IsArr m rows) (matCells rows r c) (mSetColumn m j l) h (a.setColumn j l) := by
  unfold mSetColumn Arr.setColumn
  rw [H.1.size]
  refine SimAt.read H (cols_run H) fun nc hnc => ?_
  refine SimAt.lift H fun _ hrow => ?_
  by_cases h1 : l.length ≠ r
  · simp only [if_pos h1]
    exact ⟨h, rfl, H, Frame.refl _ _⟩
  · simp only [if_neg h1]
    exact SimAt.loop H fun i _ _ h s hs => SimAt.lift hs fun v _ => SimAt.store hs _ _ _

theorem SimAt.setSubMatrix (H : IsArr m rows h a) (d : Option (List (List α))) (i j : Int) :
    SimAt (IsArr m rows) (matCells rows r c) (mSetSubMatrix m d i j) h (a.setSubMatrix d i j) := by
  cases d with
  | none => exact ⟨h, rfl, H, Frame.refl _ _⟩
  | some sub =>
    unfold mSetSubMatrix Arr.setSubMatrix
    dsimp only
    by_cases h1 : sub.length = 0
    · simp only [if_pos h1]
      exact ⟨h, rfl, H, Frame.refl _ _⟩
    · simp only [if_neg h1]
      refine SimAt.lift H fun first _ => ?_
      by_cases h2 : first.length = 0
      · simp only [if_pos h2]
        exact ⟨h, rfl, H, Frame.refl _ _⟩
      · simp only [if_neg h2]
        rw [show (forUp 1 sub.length (fun i (_ : Unit) => do
              let x ← (rdL sub i).at a
              if x.length ≠ first.length then throw (Fault.pan .dim, a) else pure ()) () : Except (Fault × Arr α r c) Unit) =
            Res.at a (forUp 1 sub.length (fun i (_ : Unit) => do
              let x ← rdL sub i
              if x.length ≠ first.length then .error (Fault.pan .dim) else .ok ()) ()) from ?_]
        · refine SimAt.read H (HM.for_reads fun i => ?_) fun _ _ => ?_
          · cases e : rdL sub i with
            | error f => rfl
            | ok s =>
              by_cases h3 : s.length ≠ first.length
              · rw [HM.bind_ok (x := HM.lift (.ok s)) (b := s) (h' := h) rfl, ok_bind, if_pos h3, if_pos h3]; rfl
              · rw [HM.bind_ok (x := HM.lift (.ok s)) (b := s) (h' := h) rfl, ok_bind, if_neg h3, if_neg h3]; rfl
          · rw [H.1.size]
            refine SimAt.lift H fun _ _ => SimAt.read H (cols_run H) fun nc _ => SimAt.lift H fun _ _ =>
              SimAt.lift H fun _ _ => SimAt.lift H fun _ _ => ?_
            exact SimAt.loop H fun i' _ _ h s hs => SimAt.loop hs fun j' _ _ h s hs => SimAt.lift hs fun row _ =>
              SimAt.lift hs fun v _ => SimAt.setEntry hs _ _ _
        · rw [← forUp_at]
          refine forUp_congr fun i _ _ _ => ?_
          cases e : rdL sub i with
          | error f => rfl
          | ok s =>
            by_cases h3 : s.length ≠ first.length
            · rw [res_at_ok, ok_bind, ok_bind, if_pos h3, if_pos h3]; rfl
            · rw [res_at_ok, ok_bind, ok_bind, if_neg h3, if_neg h3]; rfl

theorem MCall.sim (m : Sl) (rows : Nat → Sl) (k : MCall α) (h : Heap α) (a : Arr α r c) (H : IsArr m rows h a) :
    SimAt (IsArr m rows) (matCells rows r c) (k.onHeap m) h (k.onArr a) := by
  cases k with
  | raw i j v => exact SimAt.store H i j v
  | setEntry i j v => exact SimAt.setEntry H i j v
  | addToEntry i j v =>
    show SimAt _ _ (mAddToEntry m i j v) h (a.addToEntry i j v)
    unfold mAddToEntry Arr.addToEntry
    exact SimAt.check H i j (SimAt.read H (get_run H.1 _ _) fun x _ => SimAt.store H _ _ _)
  | multiplyEntry i j v =>
    show SimAt _ _ (mMultiplyEntry m i j v) h (a.multiplyEntry i j v)
    unfold mMultiplyEntry Arr.multiplyEntry
    exact SimAt.check H i j (SimAt.read H (get_run H.1 _ _) fun x _ => SimAt.store H _ _ _)
  | setRow i l => exact SimAt.setRow H i l
  | setColumn i l => exact SimAt.setColumn H i l
  | setSubMatrix d i j => exact SimAt.setSubMatrix H d i j

end

/-- A row-array matrix, or the `[][]float64` it stands on. -/
def Obj.arr (m : Sl) (rows : Nat → Sl) (r c : Nat) : Obj α where
  σ := Arr α r c
  κ := MCall α
  R := IsArr m rows
  F := matCells rows r c
  hs := MCall.onHeap m
  vs k s := k.onArr s
  sim k h s := MCall.sim m rows k h s
  G := jagHeads m r
  stable _ _ _ e hc H := ⟨IsJag.stable H.1 e hc, H.2⟩
  alive _ _ H := IsJag.alive H.1

/-! ## Block matrices -/

/-- The block matrix with descriptor `m`, the blocks `rows` and the value `b`. -/
def Heap.IsBlk (m : Sl) (rows : Nat → Sl) (h : Heap α) (b : Blk α r c) : Prop := IsJag m rows h b.blocks

/-- Writes through the blocks, and the calls that change one entry. -/
inductive BCall (α : Type)
  | raw (i j : Nat) (v : α)
  | setEntry (i j : Int) (v : α)
  | addToEntry (i j : Int) (v : α)
  | multiplyEntry (i j : Int) (v : α)

/-- The call on the heap. -/
def BCall.onHeap (r c : Nat) (m : Sl) : BCall α → HM α Unit
  | .raw i j v => Heap.put m i j v
  | .setEntry i j v => bSetEntry r c m i j v
  | .addToEntry i j v => bAddToEntry r c m i j v
  | .multiplyEntry i j v => bMultiplyEntry r c m i j v

/-- The call on the value. -/
def BCall.onBlk (b : Blk α r c) : BCall α → Except (Fault × Blk α r c) (Blk α r c)
  | .raw i j v => (b.blocks.set i j v).at b >>= fun d => .ok ⟨d⟩
  | .setEntry i j v => b.setEntry i j v
  | .addToEntry i j v => b.addToEntry i j v
  | .multiplyEntry i j v => b.multiplyEntry i j v

theorem SimAt.bput {m : Sl} {rows : Nat → Sl} {h : Heap α} {b : Blk α r c} (H : IsBlk m rows h b) (i j : Nat) (v : α) :
    SimAt (IsBlk m rows) (jagCells rows (nBlocks r * nBlocks c) (blkLen r c)) (Heap.put m i j v) h
      ((b.blocks.set i j v).at b >>= fun d => .ok ⟨d⟩) := by
  have := SimAt.put H i j v
  cases e : b.blocks.set i j v with
  | ok d =>
    rw [e] at this
    exact this
  | error f =>
    rw [e] at this
    exact this

theorem BCall.sim (m : Sl) (rows : Nat → Sl) (k : BCall α) (h : Heap α) (b : Blk α r c) (H : IsBlk m rows h b) :
    SimAt (IsBlk m rows) (jagCells rows (nBlocks r * nBlocks c) (blkLen r c)) (k.onHeap r c m) h (k.onBlk b) := by
  cases k with
  | raw i j v => exact SimAt.bput H i j v
  | setEntry i j v =>
    show SimAt _ _ (bSetEntry r c m i j v) h (b.setEntry i j v)
    unfold bSetEntry Blk.setEntry
    exact SimAt.lift H fun _ _ => SimAt.bput H _ _ _
  | addToEntry i j v =>
    show SimAt _ _ (bAddToEntry r c m i j v) h (b.addToEntry i j v)
    unfold bAddToEntry Blk.addToEntry
    exact SimAt.lift H fun _ _ => SimAt.read H (get_run H _ _) fun x _ => SimAt.bput H _ _ _
  | multiplyEntry i j v =>
    show SimAt _ _ (bMultiplyEntry r c m i j v) h (b.multiplyEntry i j v)
    unfold bMultiplyEntry Blk.multiplyEntry
    exact SimAt.lift H fun _ _ => SimAt.read H (get_run H _ _) fun x _ => SimAt.bput H _ _ _

/-- A block matrix, or the `[][]float64` it stands on. -/
def Obj.blk (m : Sl) (rows : Nat → Sl) (r c : Nat) : Obj α where
  σ := Blk α r c
  κ := BCall α
  R := IsBlk m rows
  F := jagCells rows (nBlocks r * nBlocks c) (blkLen r c)
  G := jagHeads m (nBlocks r * nBlocks c)
  hs := BCall.onHeap r c m
  vs k s := k.onBlk s
  sim k h s := BCall.sim m rows k h s
  stable _ _ _ e hc H := IsJag.stable H e hc
  alive _ _ H := IsJag.alive H

/-! ## Diagonal matrices -/

/-- The diagonal matrix with descriptor `v` and the value `d`. -/
def Heap.IsDia (v : Sl) (h : Heap α) (d : Dia α n) : Prop :=
  v.len = n ∧ ∀ j, j < n → h.cell v.id (v.off + j) = some (d.data.f j)

/-- Writes through the slice, and the calls that change one entry. -/
inductive DOp (α : Type)
  | raw (i : Nat) (v : α)
  | setEntry (i j : Int) (v : α)
  | addToEntry (i j : Int) (v : α)
  | multiplyEntry (i j : Int) (v : α)

/-- The call on the heap. -/
def DOp.onHeap (v : Sl) : DOp α → HM α Unit
  | .raw i x => wr v i x
  | .setEntry i j x => dSetEntry v i j x
  | .addToEntry i j x => dAddToEntry v i j x
  | .multiplyEntry i j x => dMultiplyEntry v i j x

/-- The call on the value. -/
def DOp.onDia (d : Dia α n) : DOp α → Except (Fault × Dia α n) (Dia α n)
  | .raw i x => (d.data.set i x).at d >>= fun t => .ok ⟨t⟩
  | .setEntry i j x => d.setEntry i j x
  | .addToEntry i j x => d.addToEntry i j x
  | .multiplyEntry i j x => d.multiplyEntry i j x

section
variable {v : Sl} {h : Heap α} {d : Dia α n}

theorem Heap.drd_run (H : IsDia v h d) (i : Nat) : rd v i h = (d.data.get i, h) := by
  unfold rd Row.get
  rw [H.1]
  by_cases hi : i < n
  · rw [if_pos hi, if_pos hi, H.2 i hi]
  · rw [if_neg hi, if_neg hi]

theorem SimAt.dwr (H : IsDia v h d) (i : Nat) (x : α) :
    SimAt (IsDia v) v.cells (HM.wr v i x) h ((d.data.set i x).at d >>= fun t => .ok ⟨t⟩) := by
  unfold HM.wr Row.set
  by_cases hi : i < n
  · rw [if_pos hi]
    refine ⟨⟨h.next, upd2 h.cell v.id (v.off + i) (some x), h.head⟩, ?_, ⟨H.1, fun j hj => ?_⟩, ⟨rfl, rfl,
      fun a k n => ?_, fun a k => ?_⟩⟩
    · dsimp only
      rw [H.1, if_pos hi, H.2 i hi]
    · dsimp only
      unfold upd2 upd1
      by_cases e : j = i
      · rw [e, if_pos ⟨rfl, rfl⟩, if_pos rfl]
      · rw [if_neg (by omega), if_neg e]
        exact H.2 j hj
    · dsimp only
      unfold upd2
      exact if_neg fun e => n ⟨i, by rw [H.1]; exact hi, e.1, e.2⟩
    · dsimp only
      unfold upd2
      by_cases e : a = v.id ∧ k = v.off + i
      · rw [if_pos e, e.1, e.2, H.2 i hi]
        rfl
      · rw [if_neg e]
  · rw [if_neg hi]
    refine ⟨h, ?_, H, Frame.refl _ _⟩
    dsimp only
    rw [H.1, if_neg hi]

theorem DOp.sim (v : Sl) (k : DOp α) (h : Heap α) (d : Dia α n) (H : IsDia v h d) :
    SimAt (IsDia v) v.cells (k.onHeap v) h (k.onDia d) := by
  have hz : ∀ x : α, SimAt (IsDia v) v.cells (HM.lift (ensureZero x).must) h
      ((ensureZero x).must.at d >>= fun _ => .ok d) := fun x => by
    cases e : (ensureZero x).must with
    | ok u => exact SimAt.done H
    | error f => exact SimAt.fail H
  cases k with
  | raw i x => exact SimAt.dwr H i x
  | setEntry i j x =>
    show SimAt _ _ (dSetEntry v i j x) h (d.setEntry i j x)
    unfold dSetEntry Dia.setEntry
    by_cases e : i = j
    · rw [if_pos e, if_pos e, H.1]
      exact SimAt.lift H fun _ _ => SimAt.dwr H _ _
    · rw [if_neg e, if_neg e]
      exact hz x
  | addToEntry i j x =>
    show SimAt _ _ (dAddToEntry v i j x) h (d.addToEntry i j x)
    unfold dAddToEntry Dia.addToEntry
    by_cases e : i = j
    · rw [if_pos e, if_pos e, H.1]
      exact SimAt.lift H fun _ _ => SimAt.read H (drd_run H _) fun _ _ => SimAt.dwr H _ _
    · rw [if_neg e, if_neg e]
      exact hz x
  | multiplyEntry i j x =>
    show SimAt _ _ (dMultiplyEntry v i j x) h (d.multiplyEntry i j x)
    unfold dMultiplyEntry Dia.multiplyEntry
    by_cases e : i = j
    · rw [if_pos e, if_pos e, H.1]
      exact SimAt.lift H fun _ _ => SimAt.read H (drd_run H _) fun _ _ => SimAt.dwr H _ _
    · rw [if_neg e, if_neg e]
      exact SimAt.done H

end

/-- A diagonal matrix, or the slice it stands on. -/
def Obj.dia (v : Sl) (n : Nat) (_ : v.len = n) : Obj α where
  σ := Dia α n
  κ := DOp α
  R := IsDia v
  F := v.cells
  G _ _ := False
  hs := DOp.onHeap v
  vs k s := k.onDia s
  sim k h s := DOp.sim v k h s
  stable h h' d _ hc H := ⟨H.1, fun j hj => by rw [hc _ _ ⟨j, by rw [H.1]; exact hj, rfl, rfl⟩]; exact H.2 j hj⟩
  alive h d H := ⟨fun a k ⟨j, hj, ha, hk⟩ => by
    rw [ha, hk, H.2 j (by rw [← H.1]; exact hj)]
    exact Option.some_ne_none _, fun _ _ f => f.elim⟩

end Linear
