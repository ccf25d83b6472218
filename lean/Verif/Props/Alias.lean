import Verif.Lemmas.HeapCopy
import Verif.Lemmas.Entries

/-!
# C19, C20, C47: which objects share storage
-/

namespace Linear

open HM Heap Spec

set_option linter.unusedSectionVars false

variable {α : Type} [Flt α] {n r c : Nat}

/-- Calls one after the other. A caller that recovers from a panic goes on with the heap as the panic left it. -/
def Spec.play (ps : List (HM α Unit)) (h : Heap α) : Heap α := ps.foldl (fun h p => (p h).2) h

/-- What calls make of a value when nobody else touches it. -/
def Spec.after {κ σ : Type} (step : σ → κ → Except (Fault × σ) σ) (s : σ) (ks : List κ) : σ :=
  ks.foldl (fun s k => match step s k with
    | .ok s' => s'
    | .error e => e.2) s

/-- Any interleaving `ks` of calls through the handle `x` (left) and the handle `y` (right). -/
def Spec.mixed {A B : Type} (x : A → HM α Unit) (y : B → HM α Unit) (ks : List (A ⊕ B)) : List (HM α Unit) :=
  ks.map (Sum.elim x y)

theorem runBoth_eq (A B : Obj α) (ks : List (A.κ ⊕ B.κ)) (h : Heap α) :
    runBoth A B ks h = play (mixed A.hs B.hs ks) h := by
  induction ks generalizing h with
  | nil => rfl
  | cons k ks ih =>
    cases k with
    | inl k => exact ih _
    | inr k => exact ih _

theorem Obj.run_eq (o : Obj α) (ks : List o.κ) (s : o.σ) :
    (o.run s ks).2 = after (fun s k => o.vs k s) s ks := by
  induction ks generalizing s with
  | nil => rfl
  | cons k ks ih =>
    cases e : o.vs k s with
    | ok s' =>
      rw [Obj.run, e]
      simp only [after, List.foldl_cons, e]
      exact ih s'
    | error p =>
      rw [Obj.run, e]
      simp only [after, List.foldl_cons, e]
      exact ih p.2

theorem Obj.indep' (A B : Obj α) {h h' : Heap α} {a : A.σ} {b : B.σ} (o : h.Ok) (ha : A.R h a) (x : Old h.next h h')
    (hb : B.R h' b) (hB : ∀ i k, B.F i k → h.next ≤ i) (ks : List (A.κ ⊕ B.κ)) :
    A.R (play (mixed A.hs B.hs ks) h') (after (fun s k => A.vs k s) a (lefts ks)) ∧
    B.R (play (mixed A.hs B.hs ks) h') (after (fun s k => B.vs k s) b (rights ks)) := by
  have := Obj.indep A B o ha x hb hB ks
  rw [runBoth_eq, Obj.run_eq, Obj.run_eq] at this
  exact this

/-! ## What the library reads -/

/-- The vector or slice `v` reads as `xs`: through `At`, and through indexing. -/
def Spec.VecReads (v : Sl) (h : Heap α) (xs : List α) : Prop :=
  (∀ i : Int, (vAt v i h).1 = if 0 ≤ i ∧ i < xs.length then .ok (xs.getD i.toNat Flt.zero) else .error (.pan .range)) ∧
  ∀ i : Nat, (rd v i h).1 = if i < xs.length then .ok (xs.getD i Flt.zero) else .error .rt

theorem IsVec.reads {v : Sl} {h : Heap α} {xs : List α} (hv : IsVec v h xs) : VecReads v h xs := by
  have h1 : ∀ i : Nat, rdL xs i = if i < xs.length then .ok (xs.getD i Flt.zero) else .error .rt := fun i => by
    unfold rdL
    by_cases hi : i < xs.length
    · rw [if_pos hi, List.getElem?_eq_getElem hi, List.getD_eq_getElem?_getD, List.getElem?_eq_getElem hi]
      rfl
    · rw [if_neg hi, List.getElem?_eq_none (by omega)]
  refine ⟨fun i => ?_, fun i => by rw [rd_run hv]; exact h1 i⟩
  unfold vAt
  by_cases hi : 0 ≤ i ∧ i < xs.length
  · have hc : (checkIndex v.len i).must = .ok () := by
      unfold checkIndex
      rw [← hv.1, if_neg (by omega)]
      rfl
    rw [if_pos hi, HM.bind_ok (x := HM.lift (checkIndex v.len i).must) (b := ()) (h' := h) (by rw [hc]; rfl), rd_run hv]
    dsimp only
    rw [h1, if_pos (by omega)]
  · have hc : (checkIndex v.len i).must = .error (.pan .range) := by
      unfold checkIndex
      rw [← hv.1, if_pos (by omega)]
      rfl
    rw [if_neg hi, HM.bind_error (x := HM.lift (checkIndex v.len i).must) (e := .pan .range) (h' := h)
      (by rw [hc]; rfl)]

/-- The matrix or slice of slices `m` reads as `A`: through `At`, and through indexing. -/
def Spec.MatReads (m : Sl) (h : Heap α) (r c : Nat) (A : Nat → Nat → α) : Prop :=
  Shows (fun i j => (mAt m i j h).1) r c A ∧
  ∀ i j : Nat, (Heap.get m i j h).1 = if i < r ∧ j < c then .ok (A i j) else .error .rt

theorem mAt_run {m : Sl} {rows : Nat → Sl} {h : Heap α} {a : Arr α r c} (H : IsArr m rows h a) (i j : Int) :
    mAt m i j h = (a.at i j, h) := by
  unfold mAt mCheck Arr.at
  rw [HM.assoc, H.1.size]
  cases e : (checkRowIndex r i).must with
  | error f => exact HM.bind_error rfl
  | ok u =>
    rw [HM.bind_ok (HM.lift_run (.ok u) h), ok_bind, HM.assoc]
    have hcol := cols_run H
    cases e2 : a.colDim with
    | error f => rw [e2] at hcol; rw [HM.bind_error hcol]; rfl
    | ok nc =>
      rw [e2] at hcol
      rw [HM.bind_ok hcol, ok_bind]
      cases e3 : (checkColumnIndex nc j).must with
      | error f => exact HM.bind_error rfl
      | ok u =>
        rw [HM.bind_ok (HM.lift_run (.ok u) h), ok_bind]
        exact get_run H.1 _ _

theorem IsArr.reads {m : Sl} {rows : Nat → Sl} {h : Heap α} {a : Arr α r c} (H : IsArr m rows h a) :
    MatReads m h r c a.data.f := by
  refine ⟨?_, fun i j => by rw [get_run H.1]; rfl⟩
  have : (fun i j => (mAt m i j h).1) = a.at := by
    funext i j
    rw [mAt_run H]
  rw [this]
  exact a.at_shows

/-- The block matrix `m` reads as `A`. -/
def Spec.BlkReads (m : Sl) (h : Heap α) (r c : Nat) (A : Nat → Nat → α) : Prop :=
  Shows (fun i j => (bAt r c m i j h).1) r c A

theorem IsBlk.reads {m : Sl} {rows : Nat → Sl} {h : Heap α} {b : Blk α r c} (H : IsBlk m rows h b) :
    BlkReads m h r c b.ent := by
  have : (fun i j => (bAt r c m i j h).1) = b.at := by
    funext i j
    unfold bAt Blk.at
    cases e : (checkMatrixIndex r c i j).must with
    | error f => rw [HM.bind_error (HM.lift_run (.error f) h)]; rfl
    | ok u =>
      rw [HM.bind_ok (HM.lift_run (.ok u) h), get_run H]
      rfl
  unfold BlkReads
  rw [this]
  exact b.at_shows

/-- The diagonal matrix `v` reads as the matrix with the diagonal `f`. -/
def Spec.DiaReads (v : Sl) (h : Heap α) (n : Nat) (f : Nat → α) : Prop :=
  Shows (fun i j => (dAt v i j h).1) n n fun i j => if i = j then f i else Flt.zero

theorem IsDia.reads {v : Sl} {h : Heap α} {d : Dia α n} (H : IsDia v h d) : DiaReads v h n d.data.f := by
  have : (fun i j => (dAt v i j h).1) = d.at := by
    funext i j
    unfold dAt Dia.at
    rw [H.1]
    cases e : (checkMatrixIndex n n i j).must with
    | error f => rw [HM.bind_error (HM.lift_run (.error f) h)]; rfl
    | ok u =>
      rw [HM.bind_ok (HM.lift_run (.ok u) h), ok_bind]
      by_cases e : i = j
      · rw [if_pos e, if_pos e, drd_run H]
      · rw [if_neg e, if_neg e]
        rfl
  unfold DiaReads
  rw [this]
  exact d.at_shows

/-! ## C19: copies -/

/-- After any interleaving of calls through `v` and `w`, each reads as if the other handle did not exist. -/
def Spec.VecApart (v w : Sl) (h : Heap α) (xs ys : List α) : Prop :=
  ∀ ks : List (VCall α ⊕ VCall α), let h' := play (mixed (VCall.onHeap v) (VCall.onHeap w) ks) h
    VecReads v h' (after VCall.onList xs (lefts ks)) ∧ VecReads w h' (after VCall.onList ys (rights ks))

theorem vecApart {v w : Sl} {h h' : Heap α} {xs ys : List α} (o : h.Ok) (hv : IsVec v h xs) (x : Old h.next h h')
    (hw : IsVec w h' ys) (hB : ∀ i k, w.cells i k → h.next ≤ i) : VecApart v w h' xs ys := fun ks =>
  have := Obj.indep' (Obj.vec v) (Obj.vec w) o hv x hw hB ks
  ⟨IsVec.reads this.1, IsVec.reads this.2⟩

/-- C19, `Copy` of a vector: after any interleaving of writes and calls through the source and the copy, each of them
reads what its own calls made of the original contents. -/
theorem C19_vector_copy {v : Sl} {h : Heap α} {xs : List α} (o : h.Ok) (hv : IsVec v h xs) :
    ∃ w h', vCopy v h = (.ok w, h') ∧ VecReads w h' xs ∧ VecApart v w h' xs xs := by
  obtain ⟨h', e1, e2, e3⟩ := vCopy_run o hv
  exact ⟨_, h', e1, IsVec.reads e3, vecApart o hv e2 e3 fun i k ⟨j, _, ha, _⟩ => le_of_eq ha.symm⟩

/-- C19, `ToArray`. -/
theorem C19_vector_toArray {v : Sl} {h : Heap α} {xs : List α} (o : h.Ok) (hv : IsVec v h xs) :
    ∃ w h', vToArray v h = (.ok w, h') ∧ VecReads w h' xs ∧ VecApart v w h' xs xs := by
  obtain ⟨h', e1, e2, e3⟩ := clone_run o hv
  exact ⟨_, h', e1, IsVec.reads e3, vecApart o hv e2 e3 fun i k ⟨j, _, ha, _⟩ => le_of_eq ha.symm⟩

/-- C19, a vector made from a slice with copying. -/
theorem C19_vector_new {v : Sl} {h : Heap α} {xs : List α} (o : h.Ok) (hv : IsVec v h xs) :
    ∃ w h', vNew v true h = (.ok w, h') ∧ VecReads w h' xs ∧ VecApart v w h' xs xs := by
  obtain ⟨h', e1, e2, e3⟩ := clone_run o hv
  exact ⟨_, h', e1, IsVec.reads e3, vecApart o hv e2 e3 fun i k ⟨j, _, ha, _⟩ => le_of_eq ha.symm⟩

/-- C19, `SubVector`: a copy of the window. -/
theorem C19_vector_sub {v : Sl} {h : Heap α} {xs : List α} (o : h.Ok) (hv : IsVec v h xs) (hcap : v.len ≤ v.cap)
    {i k : Nat} (hk : 0 < k) (hi : i + k ≤ xs.length) :
    ∃ w h', vSub v i k h = (.ok w, h') ∧ VecReads w h' ((xs.drop i).take k) ∧
      VecApart v w h' xs ((xs.drop i).take k) := by
  obtain ⟨h', w, e1, e2, e3, e4⟩ := vSub_run o hv hk hi hcap
  exact ⟨w, h', e1, IsVec.reads e3, vecApart o hv e2 e3 e4⟩

/-- The same for two matrices (or slices of slices). -/
def Spec.MatApart (m m' : Sl) (h : Heap α) (a b : Arr α r c) : Prop :=
  ∀ ks : List (MCall α ⊕ MCall α), let h' := play (mixed (MCall.onHeap m) (MCall.onHeap m') ks) h
    MatReads m h' r c (after MCall.onArr a (lefts ks)).data.f ∧
    MatReads m' h' r c (after MCall.onArr b (rights ks)).data.f

theorem matApart {m m' : Sl} {rows rows' : Nat → Sl} {h h' : Heap α} {a b : Arr α r c} (o : h.Ok)
    (hm : IsArr m rows h a) (x : Old h.next h h') (hm' : IsArr m' rows' h' b)
    (hB : ∀ i k, matCells rows' r c i k → h.next ≤ i) : MatApart m m' h' a b := fun ks =>
  have := Obj.indep' (Obj.arr m rows r c) (Obj.arr m' rows' r c) o hm x hm' hB ks
  ⟨IsArr.reads this.1, IsArr.reads this.2⟩

/-- C19, `Copy` of a row-array matrix. -/
theorem C19_matrix_copy {m : Sl} {rows : Nat → Sl} {h : Heap α} {a : Arr α r c} (o : h.Ok) (hm : IsArr m rows h a)
    (hr : 0 < r) (hc : 0 < c) :
    ∃ m' h', mCopy m h = (.ok m', h') ∧ MatReads m' h' r c a.data.f ∧ MatApart m m' h' a ({ data := a.data } : Arr α r c) := by
  obtain ⟨h', m', rows', e1, e2, e3, e4⟩ := mCopy_run o hm hr hc
  exact ⟨m', h', e1, IsArr.reads (a := ({ data := a.data } : Arr α r c)) e3, matApart o hm e2 e3 e4⟩

/-- C19, `Data` of a row-array matrix. -/
theorem C19_matrix_data {m : Sl} {rows : Nat → Sl} {h : Heap α} {a : Arr α r c} (o : h.Ok) (hm : IsArr m rows h a) :
    ∃ m' h', mData m h = (.ok m', h') ∧ MatReads m' h' r c a.data.f ∧ MatApart m m' h' a ({ data := a.data } : Arr α r c) := by
  obtain ⟨h', m', rows', e1, e2, e3, e4⟩ := mData_run o hm
  exact ⟨m', h', e1, IsArr.reads (a := ({ data := a.data } : Arr α r c)) e3, matApart o hm e2 e3 e4⟩

/-- C19, a row-array matrix made from slices with copying. -/
theorem C19_matrix_new {m : Sl} {rows : Nat → Sl} {h : Heap α} {a : Arr α r c} (o : h.Ok) (hm : IsArr m rows h a)
    (hr : 0 < r) (hc : 0 < c) :
    ∃ m' h', mNew m true h = (.ok m', h') ∧ MatReads m' h' r c a.data.f ∧
      MatApart m m' h' a ({ data := a.data } : Arr α r c) := by
  obtain ⟨h', m', rows', e1, e2, e3, e4⟩ := mCopyIn_run o hm.1 hr hc
  exact ⟨m', h', e1, IsArr.reads (a := ({ data := a.data } : Arr α r c)) e3, matApart o hm e2 e3 e4⟩

/-- A matrix and a vector (or slice). -/
def Spec.MatVecApart (m w : Sl) (h : Heap α) (a : Arr α r c) (xs : List α) : Prop :=
  ∀ ks : List (MCall α ⊕ VCall α), let h' := play (mixed (MCall.onHeap m) (VCall.onHeap w) ks) h
    MatReads m h' r c (after MCall.onArr a (lefts ks)).data.f ∧ VecReads w h' (after VCall.onList xs (rights ks))

/-- C19, `RowAt` (and `RowVectorAt`, which wraps its result). -/
theorem C19_matrix_rowAt {m : Sl} {rows : Nat → Sl} {h : Heap α} {a : Arr α r c} (o : h.Ok) (hm : IsArr m rows h a)
    {i : Nat} (hi : i < r) :
    ∃ w h', mRowAt m i h = (.ok w, h') ∧ VecReads w h' ((List.range c).map (a.data.f i)) ∧
      MatVecApart m w h' a ((List.range c).map (a.data.f i)) := by
  obtain ⟨h', w, e1, e2, e3, e4⟩ := mRowAt_run o hm hi
  exact ⟨w, h', e1, IsVec.reads e3, fun ks =>
    have := Obj.indep' (Obj.arr m rows r c) (Obj.vec w) o hm e2 e3 e4 ks
    ⟨IsArr.reads this.1, IsVec.reads this.2⟩⟩

/-- C19, `ColumnAt` (and `ColumnVectorAt`). -/
theorem C19_matrix_columnAt {m : Sl} {rows : Nat → Sl} {h : Heap α} {a : Arr α r c} (o : h.Ok) (hm : IsArr m rows h a)
    {j : Nat} (hr : 0 < r) (hj : j < c) :
    ∃ w h', mColumnAt m j h = (.ok w, h') ∧ VecReads w h' ((List.range r).map fun i => a.data.f i j) ∧
      MatVecApart m w h' a ((List.range r).map fun i => a.data.f i j) := by
  obtain ⟨h', w, e1, e2, e3, e4⟩ := mColumnAt_run o hm hr hj
  exact ⟨w, h', e1, IsVec.reads e3, fun ks =>
    have := Obj.indep' (Obj.arr m rows r c) (Obj.vec w) o hm e2 e3 e4 ks
    ⟨IsArr.reads this.1, IsVec.reads this.2⟩⟩

/-- C19, `Copy` of a block matrix. -/
theorem C19_block_copy {m : Sl} {rows : Nat → Sl} {h : Heap α} {b : Blk α r c} (o : h.Ok) (hm : IsBlk m rows h b) :
    ∃ m' h', bCopy r c m h = (.ok m', h') ∧ BlkReads m' h' r c b.ent ∧ ∀ ks : List (BCall α ⊕ BCall α),
      let h'' := play (mixed (BCall.onHeap r c m) (BCall.onHeap r c m') ks) h'
      BlkReads m h'' r c (after BCall.onBlk b (lefts ks)).ent ∧
      BlkReads m' h'' r c (after BCall.onBlk b (rights ks)).ent := by
  obtain ⟨h', m', rows', e1, e2, e3, e4⟩ := bCopy_run o hm
  exact ⟨m', h', e1, IsBlk.reads e3, fun ks =>
    have := Obj.indep' (Obj.blk m rows r c) (Obj.blk m' rows' r c) o hm e2 e3 e4 ks
    ⟨IsBlk.reads this.1, IsBlk.reads this.2⟩⟩

/-- C19, `Data` of a block matrix. -/
theorem C19_block_data {m : Sl} {rows : Nat → Sl} {h : Heap α} {b : Blk α r c} (o : h.Ok) (hm : IsBlk m rows h b) :
    ∃ m' h', bData r c m h = (.ok m', h') ∧ MatReads m' h' r c b.ent ∧ ∀ ks : List (BCall α ⊕ MCall α),
      let h'' := play (mixed (BCall.onHeap r c m) (MCall.onHeap m') ks) h'
      BlkReads m h'' r c (after BCall.onBlk b (lefts ks)).ent ∧
      MatReads m' h'' r c (after MCall.onArr ({ data := ⟨b.ent⟩ } : Arr α r c) (rights ks)).data.f := by
  obtain ⟨h', m', rows', e1, e2, e3, e4⟩ := bData_run o hm
  exact ⟨m', h', e1, IsArr.reads e3, fun ks =>
    have := Obj.indep' (Obj.blk m rows r c) (Obj.arr m' rows' r c) o hm e2 e3 e4 ks
    ⟨IsBlk.reads this.1, IsArr.reads this.2⟩⟩

theorem IsDia.toVec {v : Sl} {h : Heap α} {d : Dia α n} (H : IsDia v h d) :
    IsVec v h ((List.range n).map d.data.f) :=
  ⟨by rw [List.length_map, List.length_range, H.1], fun j hj => by
    rw [H.1] at hj
    rw [H.2 j hj, List.getElem?_map, List.getElem?_range hj]
    rfl⟩

theorem IsVec.toDia {v : Sl} {h : Heap α} {f : Nat → α} (H : IsVec v h ((List.range n).map f)) :
    IsDia v h (⟨⟨f⟩⟩ : Dia α n) := by
  have h1 := H.1
  rw [List.length_map, List.length_range] at h1
  refine ⟨h1.symm, fun j hj => ?_⟩
  rw [H.2 j (by omega), List.getElem?_map, List.getElem?_range hj]
  rfl

/-- C19, `Copy` of a diagonal matrix; `NewDiagonalMatrix` with copying does the same with a slice. -/
theorem C19_diagonal_copy {v : Sl} {h : Heap α} {d : Dia α n} (o : h.Ok) (hd : IsDia v h d) :
    dNew v true h = dCopy v h ∧
    ∃ w h', dCopy v h = (.ok w, h') ∧ DiaReads w h' n d.data.f ∧ ∀ ks : List (DOp α ⊕ DOp α),
      let h'' := play (mixed (DOp.onHeap v) (DOp.onHeap w) ks) h'
      DiaReads v h'' n (after DOp.onDia d (lefts ks)).data.f ∧
      DiaReads w h'' n (after DOp.onDia d (rights ks)).data.f := by
  obtain ⟨h', e1, e2, e3⟩ := clone_run o (IsDia.toVec hd)
  refine ⟨rfl, ⟨h.next, 0, v.len, v.len⟩, h', e1, IsDia.reads (IsVec.toDia e3), fun ks => ?_⟩
  have := Obj.indep' (Obj.dia v n hd.1) (Obj.dia ⟨h.next, 0, v.len, v.len⟩ n hd.1) (b := (⟨⟨d.data.f⟩⟩ : Dia α n)) o hd e2
    (IsVec.toDia e3) (fun i k ⟨j, _, ha, _⟩ => le_of_eq ha.symm) ks
  exact ⟨IsDia.reads this.1, IsDia.reads this.2⟩

/-- C19, `Data` of a diagonal matrix. -/
theorem C19_diagonal_data {v : Sl} {h : Heap α} {d : Dia α n} (o : h.Ok) (hd : IsDia v h d) :
    ∃ m' h', dData v h = (.ok m', h') ∧ MatReads m' h' n n (fun i j => if i = j then d.data.f i else Flt.zero) ∧
      ∀ ks : List (DOp α ⊕ MCall α), let h'' := play (mixed (DOp.onHeap v) (MCall.onHeap m') ks) h'
      DiaReads v h'' n (after DOp.onDia d (lefts ks)).data.f ∧
      MatReads m' h'' n n (after MCall.onArr
        ({ data := ⟨fun i j => if i = j then d.data.f i else Flt.zero⟩ } : Arr α n n) (rights ks)).data.f := by
  obtain ⟨h', m', rows', e1, e2, e3, e4⟩ := dData_run o hd
  exact ⟨m', h', e1, IsArr.reads e3, fun ks =>
    have := Obj.indep' (Obj.dia v n hd.1) (Obj.arr m' rows' n n) o hd e2 e3 e4 ks
    ⟨IsDia.reads this.1, IsArr.reads this.2⟩⟩

/-! A heap with the vector `(1, 2, 3)` and a `2 × 2` matrix, whose first row has spare capacity. -/

/-- The arrays: 0 holds the vector, 1 the descriptors of the matrix, 2 its rows. -/
def Spec.demo : Heap ℚ where
  next := 3
  cell a k := if a = 0 ∧ k < 3 then some (k + 1) else if a = 2 ∧ k < 5 then some (10 * k) else none
  head a k := if a = 1 ∧ k = 0 then some ⟨2, 0, 2, 3⟩ else if a = 1 ∧ k = 1 then some ⟨2, 3, 2, 2⟩ else none

theorem demo_ok : demo.Ok := fun a k h => by
  have : 3 ≤ a := h
  constructor
  · show (if a = 0 ∧ k < 3 then _ else _) = _
    rw [if_neg (by omega), if_neg (by omega)]
  · show (if a = 1 ∧ k = 0 then _ else _) = _
    rw [if_neg (by omega), if_neg (by omega)]

example : demo.Ok ∧ IsVec ⟨0, 0, 3, 3⟩ demo [1, 2, 3] ∧ IsVec ⟨0, 1, 2, 2⟩ demo [2, 3] := by
  refine ⟨demo_ok, ⟨rfl, fun j hj => ?_⟩, ⟨rfl, fun j hj => ?_⟩⟩
  · have : j = 0 ∨ j = 1 ∨ j = 2 := by dsimp only at hj; omega
    rcases this with rfl | rfl | rfl <;> decide +kernel
  · have : j = 0 ∨ j = 1 := by dsimp only at hj; omega
    rcases this with rfl | rfl <;> decide +kernel

/-- The matrix of `demo`. -/
def Spec.demoArr : Arr ℚ 2 2 := { data := ⟨fun i j => if i = 0 then 10 * j else 10 * (3 + j)⟩, slack := fun i => if i = 0 then 1 else 0 }

theorem demo_arr : IsArr ⟨1, 0, 2, 2⟩ (fun i => if i = 0 then ⟨2, 0, 2, 3⟩ else ⟨2, 3, 2, 2⟩) demo demoArr := by
  refine ⟨⟨rfl, fun i hi => ?_, fun i hi => ?_, fun i j hi hj => ?_, fun i j i' j' hi hj hi' hj' e1 e2 => ?_⟩,
    fun i hi => ?_⟩
  · have : i = 0 ∨ i = 1 := by omega
    rcases this with rfl | rfl <;> decide +kernel
  · have : i = 0 ∨ i = 1 := by omega
    rcases this with rfl | rfl <;> rfl
  · have : i = 0 ∨ i = 1 := by omega
    have h2 : j = 0 ∨ j = 1 := by omega
    rcases this with rfl | rfl <;> rcases h2 with rfl | rfl <;> decide +kernel
  · have h1 : i = 0 ∨ i = 1 := by omega
    have h2 : i' = 0 ∨ i' = 1 := by omega
    rcases h1 with rfl | rfl <;> rcases h2 with rfl | rfl <;> simp at e2 <;> omega
  · have : i = 0 ∨ i = 1 := by omega
    rcases this with rfl | rfl <;> rfl

/-! ## C20: references -/

theorem Obj.same (A : Obj α) (ks : List (A.κ ⊕ A.κ)) {h : Heap α} {a : A.σ} (ha : A.R h a) :
    A.R (play (mixed A.hs A.hs ks) h) (after (fun s k => A.vs k s) a (ks.map (Sum.elim id id))) := by
  induction ks generalizing h a with
  | nil => exact ha
  | cons k ks ih =>
    have hk : mixed A.hs A.hs (k :: ks) = A.hs (Sum.elim id id k) :: mixed A.hs A.hs ks := by cases k <;> rfl
    rw [hk, List.map_cons]
    have := A.sim (Sum.elim id id k) h a ha
    cases e : A.vs (Sum.elim id id k) a with
    | ok s' =>
      rw [e] at this
      obtain ⟨h', e1, e2, -⟩ := this
      have := ih e2
      simp only [after, play, List.foldl_cons, e, e1] at this ⊢
      exact this
    | error p =>
      rw [e] at this
      obtain ⟨h', e1, e2, -⟩ := this
      have := ih e2
      simp only [after, play, List.foldl_cons, e, e1] at this ⊢
      exact this

/-- C20, a vector made from a slice without copying: calls through the slice (left) and the vector (right), in any
order, act on one value, which both read. -/
theorem C20_vector_new {d : Sl} {h : Heap α} {xs : List α} (hd : IsVec d h xs) :
    ∃ w h', vNew d false h = (.ok w, h') ∧ ∀ ks : List (VCall α ⊕ VCall α),
      let h'' := play (mixed (VCall.onHeap d) (VCall.onHeap w) ks) h'
      VecReads d h'' (after VCall.onList xs (ks.map (Sum.elim id id))) ∧
      VecReads w h'' (after VCall.onList xs (ks.map (Sum.elim id id))) :=
  ⟨d, h, rfl, fun ks => ⟨IsVec.reads ((Obj.vec d).same ks hd), IsVec.reads ((Obj.vec d).same ks hd)⟩⟩

/-- C20, `DataRef` of a vector. -/
theorem C20_vector_dataRef {v : Sl} {h : Heap α} {xs : List α} (hv : IsVec v h xs) :
    ∃ d h', vDataRef v h = (.ok d, h') ∧ ∀ ks : List (VCall α ⊕ VCall α),
      let h'' := play (mixed (VCall.onHeap d) (VCall.onHeap v) ks) h'
      VecReads d h'' (after VCall.onList xs (ks.map (Sum.elim id id))) ∧
      VecReads v h'' (after VCall.onList xs (ks.map (Sum.elim id id))) :=
  ⟨v, h, rfl, fun ks => ⟨IsVec.reads ((Obj.vec v).same ks hv), IsVec.reads ((Obj.vec v).same ks hv)⟩⟩

/-- C20, a row-array matrix made from slices without copying. -/
theorem C20_matrix_new {d : Sl} {rows : Nat → Sl} {h : Heap α} {a : Arr α r c} (hd : IsArr d rows h a) (hr : 0 < r)
    (hc : 0 < c) :
    ∃ m h', mNew d false h = (.ok m, h') ∧ ∀ ks : List (MCall α ⊕ MCall α),
      let h'' := play (mixed (MCall.onHeap d) (MCall.onHeap m) ks) h'
      MatReads d h'' r c (after MCall.onArr a (ks.map (Sum.elim id id))).data.f ∧
      MatReads m h'' r c (after MCall.onArr a (ks.map (Sum.elim id id))).data.f := by
  refine ⟨d, h, ?_, fun ks => ⟨IsArr.reads ((Obj.arr d rows r c).same ks hd),
    IsArr.reads ((Obj.arr d rows r c).same ks hd)⟩⟩
  have e0 : rdH d 0 h = (.ok (rows 0), h) := by rw [rdH_run hd.1, if_pos hr]
  obtain ⟨h', f1, f2⟩ := HM.for_ok (a := 1) (b := r) (h := h) (body := fun i => do
      let s ← rdH d i
      if s.len ≠ c then HM.lift (.error (.err .dim))) (fun _ h' => h' = h) hr rfl (fun i h' _ hi e => by
    subst e
    refine ⟨h', ?_, rfl⟩
    rw [HM.bind_ok (b := rows i) (h' := h') (by rw [rdH_run hd.1, if_pos hi]), if_neg (by
      rw [hd.1.width i hi]; exact fun h => h rfl)]
    rfl)
  subst f2
  unfold mNew
  rw [if_neg (by decide), if_neg (by rw [hd.1.size]; omega)]
  dsimp only
  rw [HM.bind_ok e0, if_neg (by rw [hd.1.width 0 hr]; omega), hd.1.size, hd.1.width 0 hr]
  rw [HM.bind_ok f1]
  rfl

/-- C20, `DataRef` of a row-array matrix. -/
theorem C20_matrix_dataRef {m : Sl} {rows : Nat → Sl} {h : Heap α} {a : Arr α r c} (hm : IsArr m rows h a) :
    ∃ d h', mDataRef m h = (.ok d, h') ∧ ∀ ks : List (MCall α ⊕ MCall α),
      let h'' := play (mixed (MCall.onHeap d) (MCall.onHeap m) ks) h'
      MatReads d h'' r c (after MCall.onArr a (ks.map (Sum.elim id id))).data.f ∧
      MatReads m h'' r c (after MCall.onArr a (ks.map (Sum.elim id id))).data.f :=
  ⟨m, h, rfl, fun ks => ⟨IsArr.reads ((Obj.arr m rows r c).same ks hm), IsArr.reads ((Obj.arr m rows r c).same ks hm)⟩⟩

/-- C20, a diagonal matrix made without copying, and its `DataRef`. -/
theorem C20_diagonal {v : Sl} {h : Heap α} {d : Dia α n} (hd : IsDia v h d) :
    ∃ w x h', dNew v false h = (.ok w, h') ∧ dDataRef w h' = (.ok x, h') ∧ ∀ ks : List (DOp α ⊕ DOp α),
      let h'' := play (mixed (DOp.onHeap x) (DOp.onHeap w) ks) h'
      VecReads x h'' ((List.range n).map (after DOp.onDia d (ks.map (Sum.elim id id))).data.f) ∧
      DiaReads w h'' n (after DOp.onDia d (ks.map (Sum.elim id id))).data.f :=
  ⟨v, v, h, rfl, rfl, fun ks => ⟨IsVec.reads (IsDia.toVec ((Obj.dia v n hd.1).same ks hd)),
    IsDia.reads ((Obj.dia v n hd.1).same ks hd)⟩⟩

/-- C20, a block matrix made from blocks (`NewBlockRealMatrixFromBlockData`): the blocks are shared. -/
theorem C20_block {m : Sl} {rows : Nat → Sl} {h : Heap α} {b : Blk α r c} (hm : IsBlk m rows h b) (hr : 0 < r)
    (hc : 0 < c) :
    ∃ m' h', bNew r c m h = (.ok m', h') ∧ ∀ ks : List (BCall α ⊕ BCall α),
      let h'' := play (mixed (BCall.onHeap r c m) (BCall.onHeap r c m') ks) h'
      BlkReads m h'' r c (after BCall.onBlk b (ks.map (Sum.elim id id))).ent ∧
      BlkReads m' h'' r c (after BCall.onBlk b (ks.map (Sum.elim id id))).ent := by
  refine ⟨m, h, ?_, fun ks => ⟨IsBlk.reads ((Obj.blk m rows r c).same ks hm),
    IsBlk.reads ((Obj.blk m rows r c).same ks hm)⟩⟩
  obtain ⟨h', f1, f2⟩ := HM.for_ok (a := 0) (b := nBlocks r) (h := h)
    (body := fun iBlock => for' 0 (nBlocks c) fun jBlock => do
      let s ← rdH m (iBlock * nBlocks c + jBlock)
      if s.len ≠ blockDim r iBlock * blockDim c jBlock then HM.lift (.error (.err .dim)))
    (fun _ h' => h' = h) (Nat.zero_le _) rfl (fun i h1 _ hi e => by
      subst e
      obtain ⟨h2, g1, g2⟩ := HM.for_ok (a := 0) (b := nBlocks c) (h := h1) (body := fun jBlock => do
          let s ← rdH m (i * nBlocks c + jBlock)
          if s.len ≠ blockDim r i * blockDim c jBlock then HM.lift (.error (.err .dim)))
        (fun _ h' => h' = h1) (Nat.zero_le _) rfl (fun j h2 _ hj e => by
          subst e
          refine ⟨h2, ?_, rfl⟩
          have hij : i * nBlocks c + j < nBlocks r * nBlocks c := pair_lt hi hj
          rw [HM.bind_ok (b := rows (i * nBlocks c + j)) (h' := h2) (by rw [rdH_run hm, if_pos hij]), if_neg (by
            rw [hm.width _ hij, blkLen_pair hj, blockDim_eq_blkExt hi, blockDim_eq_blkExt hj]
            exact fun h => h rfl)]
          rfl)
      exact ⟨h2, g1, g2⟩)
  subst f2
  unfold bNew
  rw [if_neg (by omega)]
  dsimp only
  rw [if_neg (by omega)]
  simp only [Int.toNat_natCast]
  rw [HM.bind_ok f1]
  rfl

/-- Without copying, sharing reaches further than the statement of C20: a caller that passes one slice as two rows gets
a matrix in which writing one entry changes another. -/
theorem C20_sharedRows : ∃ (h : Heap ℚ) (d : Sl) (m : Sl) (h' : Heap ℚ), mNew d false h = (.ok m, h') ∧
    (mAt m 1 0 h').1 = .ok 1 ∧ (mAt m 1 0 (mSetEntry m 0 0 7 h').2).1 = .ok 7 := by
  refine ⟨⟨2, fun a k => if a = 0 ∧ k < 2 then some 1 else none, fun a k => if a = 1 ∧ k < 2 then some ⟨0, 0, 2, 2⟩
    else none⟩, ⟨1, 0, 2, 2⟩, ⟨1, 0, 2, 2⟩, _, rfl, ?_, ?_⟩ <;> decide +kernel

/-! ## C47: assigning a vector to a window of one that shares its storage -/

end Linear
