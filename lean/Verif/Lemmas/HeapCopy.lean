import Verif.Lemmas.HeapObj

/-!
# What the copying functions allocate
-/

namespace Linear

open HM Heap

set_option linter.unusedSectionVars false

variable {α : Type} [Flt α] {n r c : Nat} {len : Nat → Nat}

theorem IsVec.survive {v : Sl} {h h' : Heap α} {xs : List α} (hv : IsVec v h xs) (o : h.Ok) (x : Old h.next h h') :
    IsVec v h' xs := (Obj.vec v).survives hv o x

theorem IsJag.survive {m : Sl} {rows : Nat → Sl} {h h' : Heap α} {t : Jag α n len} (H : IsJag m rows h t) (o : h.Ok)
    (x : Old h.next h h') : IsJag m rows h' t :=
  IsJag.stable H (fun a k hG => x.head a k (by
      by_contra hn
      exact (IsJag.alive H).2 a k hG (o a k (by omega)).2))
    (fun a k hF => x.cell a k (by
      by_contra hn
      exact (IsJag.alive H).1 a k hF (o a k (by omega)).1))

theorem IsVec.alive {v : Sl} {h : Heap α} {xs : List α} (hv : IsVec v h xs) {j : Nat} (hj : j < v.len) :
    (h.cell v.id (v.off + j)).isSome = true := by
  rw [hv.2 j hj, List.getElem?_eq_getElem (by rw [hv.1]; exact hj)]
  rfl

/-- `copy` from a slice with as many entries. -/
theorem HM.copy_run {d s : Sl} {h : Heap α} {xs : List α} (hs : IsVec s h xs) (hl : s.len = d.len)
    (hd : ∀ j, j < d.len → (h.cell d.id (d.off + j)).isSome = true) :
    ∃ h', copy d s h = (.ok (), h') ∧ IsVec d h' xs ∧ Frame d.cells h h' := by
  refine ⟨_, rfl, ⟨by rw [hs.1, hl], fun j hj => ?_⟩, ⟨rfl, rfl, fun a k n => ?_, fun a k => ?_⟩⟩
  · dsimp only
    rw [if_pos ⟨rfl, by omega, by omega⟩, Nat.add_sub_cancel_left]
    exact hs.2 j (by omega)
  · dsimp only
    refine if_neg fun e => n ⟨k - d.off, by omega, e.1, by omega⟩
  · dsimp only
    by_cases e : a = d.id ∧ d.off ≤ k ∧ k < d.off + min d.len s.len
    · rw [if_pos e]
      have h1 := hd (k - d.off) (by omega)
      rw [show d.off + (k - d.off) = k by omega, ← e.1] at h1
      rw [h1]
      exact IsVec.alive hs (by omega)
    · rw [if_neg e]

/-- A slice of a new array. -/
theorem clone_run {s : Sl} {h : Heap α} {xs : List α} (o : h.Ok) (hs : IsVec s h xs) :
    ∃ h', clone s h = (.ok ⟨h.next, 0, s.len, s.len⟩, h') ∧ Old h.next h h' ∧ IsVec ⟨h.next, 0, s.len, s.len⟩ h' xs := by
  obtain ⟨h1, e1, e2, e3, e4, e5⟩ := HM.make_run s.len h o
  obtain ⟨h2, f1, f2, f3⟩ := HM.copy_run (d := ⟨h.next, 0, s.len, s.len⟩) (IsVec.survive hs o e3) rfl fun j hj => by
    dsimp only at hj ⊢
    rw [Nat.zero_add, e5 j hj]
    rfl
  refine ⟨h2, ?_, e3.trans (f3.old e3.ok fun a k ⟨j, _, ha, _⟩ => le_of_eq ha.symm), f2⟩
  unfold clone
  rw [HM.bind_ok e1, HM.bind_ok f1]
  rfl

theorem wr_run {v : Sl} {h : Heap α} {xs : List α} (hv : IsVec v h xs) {i : Nat} (hi : i < v.len) (x : α) :
    ∃ h', wr v i x h = (.ok (), h') ∧ IsVec v h' (xs.set i x) ∧ Frame v.cells h h' := by
  have := SimAt.wr hv i x
  unfold wrL at this
  rw [if_pos (by rw [hv.1]; exact hi)] at this
  exact this

theorem vAt_run {v : Sl} {h : Heap α} {xs : List α} (hv : IsVec v h xs) (i : Nat) (hi : i < xs.length) :
    vAt v i h = (.ok xs[i], h) := by
  unfold vAt
  have hc : (checkIndex v.len (i : Int)).must = .ok () := by
    unfold checkIndex
    rw [← hv.1, if_neg (by omega)]
    rfl
  rw [HM.bind_ok (x := HM.lift (checkIndex v.len (i : Int)).must) (b := ()) (h' := h) (by rw [hc]; rfl)]
  rw [rd_run hv]
  unfold rdL
  rw [Int.toNat_natCast, List.getElem?_eq_getElem hi]

theorem vCopy_run {s : Sl} {h : Heap α} {xs : List α} (o : h.Ok) (hs : IsVec s h xs) :
    ∃ h', vCopy s h = (.ok ⟨h.next, 0, s.len, s.len⟩, h') ∧ Old h.next h h' ∧
      IsVec ⟨h.next, 0, s.len, s.len⟩ h' xs := by
  obtain ⟨h1, e1, e2, e3, e4, e5⟩ := HM.make_run s.len h o
  obtain ⟨h2, f1, f2, f3⟩ := HM.for_ok (a := 0) (b := s.len) (h := h1)
    (body := fun i => vAt s i >>= fun x => wr ⟨h.next, 0, s.len, s.len⟩ i x)
    (fun i h' => Old h.next h h' ∧ ∃ ys : List α, IsVec ⟨h.next, 0, s.len, s.len⟩ h' ys ∧
      ∀ j, j < i → ys[j]? = xs[j]?) (Nat.zero_le _)
    ⟨e3, List.replicate s.len Flt.zero, ⟨List.length_replicate, fun j hj => by
      dsimp only at hj ⊢
      rw [Nat.zero_add, e5 j hj, List.getElem?_replicate, if_pos hj]⟩, fun j hj => absurd hj (by omega)⟩
    (fun i h' _ hi ⟨p, ys, q1, q2⟩ => by
      have hl : i < xs.length := by rw [hs.1]; exact hi
      obtain ⟨h3, g1, g2, g3⟩ := wr_run q1 (i := i) hi xs[i]
      refine ⟨h3, ?_, p.trans (g3.old p.ok fun a k ⟨j, _, ha, _⟩ => le_of_eq ha.symm), _, g2, fun j hj => ?_⟩
      · rw [HM.bind_ok (vAt_run (IsVec.survive hs o p) i hl), g1]
      · have hy : i < ys.length := by rw [q1.1]; exact hi
        rw [List.getElem?_set]
        by_cases e : i = j
        · subst e
          rw [if_pos rfl, if_pos hy, List.getElem?_eq_getElem hl]
        · rw [if_neg e]
          exact q2 j (by omega))
  obtain ⟨ys, q1, q2⟩ := f3
  refine ⟨h2, ?_, f2, ⟨hs.1, fun j hj => (q1.2 j hj).trans (q2 j hj)⟩⟩
  unfold vCopy
  rw [HM.bind_ok e1, HM.bind_ok f1]
  rfl

/-! ## New slices of slices -/

/-- The rows of a new slice of slices whose array has number `b`. -/
def newRows (b : Nat) (len : Nat → Nat) (k : Nat) : Sl := ⟨b + 1 + k, 0, len k, len k⟩

theorem wrH_run {s : Sl} {h : Heap α} {i : Nat} (hi : i < s.len) (v : Sl) (hs : (h.head s.id (s.off + i)).isSome = true) :
    wrH s i v h = (.ok (), ⟨h.next, h.cell, upd2 h.head s.id (s.off + i) (some v)⟩) := by
  unfold wrH
  rw [if_pos hi]
  cases e : h.head s.id (s.off + i) with
  | none => rw [e] at hs; cases hs
  | some x => rfl

theorem newRows_apart {b : Nat} {i j i' j' : Nat} (e : (newRows b len i).id = (newRows b len i').id)
    (e' : (newRows b len i).off + j = (newRows b len i').off + j') : i = i' ∧ j = j' := by
  unfold newRows at e e'
  dsimp only at e e'
  omega

theorem newCells_above {b a k : Nat} (hF : jagCells (newRows b len) n len a k) : b ≤ a := by
  obtain ⟨i, j, -, -, ha, -⟩ := hF
  rw [ha]
  unfold newRows
  dsimp only
  omega

theorem makeJag_run (n : Nat) (len : Nat → Nat) {h : Heap α} (o : h.Ok) :
    ∃ h', makeJag n len h = (.ok ⟨h.next, 0, n, n⟩, h') ∧ h'.next = h.next + 1 + n ∧ Old h.next h h' ∧
      IsJag ⟨h.next, 0, n, n⟩ (newRows h.next len) h' (Jag.zero n len) := by
  obtain ⟨h1, e1, e2, e3, e4, e5⟩ := HM.makeH_run n h o
  obtain ⟨h2, f1, f2, f3, f4, f5⟩ := HM.for_ok (a := 0) (b := n) (h := h1)
    (body := fun i => make (len i) >>= fun d => wrH ⟨h.next, 0, n, n⟩ i d)
    (fun i h' => h'.next = h.next + 1 + i ∧ Old h.next h h' ∧ (∀ k, k < n → (h'.head h.next k).isSome = true ∧
      (k < i → h'.head h.next k = some (newRows h.next len k))) ∧
      ∀ k j, k < i → j < len k → h'.cell (h.next + 1 + k) j = some Flt.zero) (Nat.zero_le _)
    ⟨e2, e3, fun k hk => ⟨by rw [e5 k hk]; rfl, fun hk => absurd hk (by omega)⟩, fun k j hk => absurd hk (by omega)⟩
    (fun i h' _ hi ⟨p1, p2, p3, p4⟩ => by
      obtain ⟨h3, g1, g2, g3, g4, g5⟩ := HM.make_run (len i) h' p2.ok
      refine ⟨_, by rw [HM.bind_ok g1]; exact wrH_run (s := ⟨h.next, 0, n, n⟩) hi _ (by
        dsimp only
        rw [g4, Nat.zero_add]
        exact (p3 i hi).1), ?_, ?_, ?_, ?_⟩
      · dsimp only
        omega
      · refine ⟨by have := p2.next; have := g3.next; dsimp only; omega, fun a k ha => ?_, fun a k ha => ?_,
          fun a k ha => ?_⟩
        · exact (g3.cell a k (by omega)).trans (p2.cell a k ha)
        · dsimp only
          unfold upd2
          rw [if_neg (by omega), g4]
          exact p2.head a k ha
        · dsimp only at ha ⊢
          unfold upd2
          rw [if_neg (by omega)]
          exact g3.ok a k ha
      · intro k hk
        dsimp only
        unfold upd2
        by_cases e : k = i
        · subst e
          rw [if_pos ⟨rfl, (Nat.zero_add _).symm⟩]
          refine ⟨rfl, fun _ => ?_⟩
          rw [p1]
          rfl
        · rw [if_neg (by omega), g4]
          exact ⟨(p3 k hk).1, fun hk' => (p3 k hk).2 (by omega)⟩
      · intro k j hk hj
        dsimp only
        by_cases e : k = i
        · subst e
          rw [← p1]
          exact g5 j hj
        · exact (g3.cell _ j (by omega)).trans (p4 k j (by omega) hj))
  refine ⟨h2, ?_, f2, f3, ⟨rfl, fun i hi => ?_, fun i _ => rfl, fun i j hi hj => ?_, fun i j i' j' _ _ _ _ =>
    newRows_apart⟩⟩
  · unfold makeJag
    rw [HM.bind_ok e1, HM.bind_ok f1]
    rfl
  · dsimp only
    rw [Nat.zero_add]
    exact (f4 i hi).2 hi
  · unfold newRows
    dsimp only
    rw [Nat.zero_add]
    exact f5 i j hi hj

/-- One row of a slice of slices as a slice. -/
theorem IsJag.row {m : Sl} {rows : Nat → Sl} {h : Heap α} {t : Jag α n len} (H : IsJag m rows h t) {i : Nat}
    (hi : i < n) : IsVec (rows i) h ((List.range (len i)).map (t.f i)) := by
  refine ⟨by rw [List.length_map, List.length_range, H.width i hi], fun j hj => ?_⟩
  rw [H.width i hi] at hj
  rw [H.cell i j hi hj, List.getElem?_map, List.getElem?_range hj]
  rfl

/-- Copying a slice over one row. -/
theorem IsJag.copyRow {m s : Sl} {rows : Nat → Sl} {h : Heap α} {t : Jag α n len} (H : IsJag m rows h t) {i : Nat}
    (hi : i < n) {g : Nat → α} (hl : s.len = len i) (hs : ∀ j, j < len i → h.cell s.id (s.off + j) = some (g j)) :
    ∃ h', copy (rows i) s h = (.ok (), h') ∧ IsJag m rows h' (⟨fun a b => if a = i then g b else t.f a b⟩ : Jag α n len) ∧
      Frame (jagCells rows n len) h h' := by
  have hv : IsVec s h ((List.range (len i)).map g) := by
    refine ⟨by rw [List.length_map, List.length_range, hl], fun j hj => ?_⟩
    rw [hl] at hj
    rw [hs j hj, List.getElem?_map, List.getElem?_range hj]
    rfl
  obtain ⟨h', e1, e2, e3⟩ := HM.copy_run (d := rows i) hv (by rw [hl, H.width i hi]) fun j hj =>
    IsVec.alive (IsJag.row H hi) hj
  refine ⟨h', e1, ⟨H.size, fun k hk => by rw [e3.head]; exact H.head k hk, H.width, fun a b ha hb => ?_, H.apart⟩,
    ⟨e3.next, e3.head, fun a k hn => e3.cell a k fun ⟨j, hj, ha, hk⟩ => hn ⟨i, j, hi, by rw [← H.width i hi]; exact hj, ha, hk⟩,
      e3.some⟩⟩
  dsimp only
  by_cases e : a = i
  · subst e
    rw [if_pos rfl, e2.2 b (by rw [H.width a ha]; exact hb), List.getElem?_map, List.getElem?_range hb]
    rfl
  · rw [if_neg e, e3.cell _ _ fun ⟨j, hj, hid, hoff⟩ =>
      e (H.apart a b i j ha hb hi (by rw [← H.width i hi]; exact hj) hid hoff).1]
    exact H.cell a b ha hb

theorem IsJag.congr {m : Sl} {rows : Nat → Sl} {h : Heap α} {t t' : Jag α n len} (H : IsJag m rows h t)
    (e : ∀ i j, i < n → j < len i → t.f i j = t'.f i j) : IsJag m rows h t' :=
  ⟨H.size, H.head, H.width, fun i j hi hj => by rw [← e i j hi hj]; exact H.cell i j hi hj, H.apart⟩

/-- The loop that copies row after row from old to new storage. -/
theorem copyRows_run {m : Sl} {rows : Nat → Sl} {h h1 : Heap α} {t t0 : Jag α n len} (H : IsJag m rows h t) (o : h.Ok)
    (x : Old h.next h h1) (H0 : IsJag ⟨h.next, 0, n, n⟩ (newRows h.next len) h1 t0) {body : Nat → HM α Unit}
    (hb : ∀ i h', i < n → Old h.next h h' → IsJag ⟨h.next, 0, n, n⟩ (newRows h.next len) h' (Jag.mk (n := n) (len := len)
        fun a b => if a < i then t.f a b else t0.f a b) →
      body i h' = copy (newRows h.next len i) (rows i) h') :
    ∃ h', for' 0 n body h1 = (.ok (), h') ∧ Old h.next h h' ∧ IsJag ⟨h.next, 0, n, n⟩ (newRows h.next len) h' t := by
  obtain ⟨h2, f1, f2, f3⟩ := HM.for_ok (a := 0) (b := n) (h := h1) (body := body)
    (fun i h' => Old h.next h h' ∧ IsJag ⟨h.next, 0, n, n⟩ (newRows h.next len) h' (Jag.mk (n := n) (len := len)
        fun a b => if a < i then t.f a b else t0.f a b)) (Nat.zero_le _)
    ⟨x, IsJag.congr H0 fun i j _ _ => by
      dsimp only
      rw [if_neg (by omega)]⟩
    (fun i h' _ hi ⟨p, q⟩ => by
      have Hs := IsJag.survive H o p
      obtain ⟨h3, g1, g2, g3⟩ := IsJag.copyRow q hi (Hs.width i hi) fun j hj => Hs.cell i j hi hj
      refine ⟨h3, by rw [hb i h' hi p q, g1], p.trans (g3.old p.ok fun a k hF => newCells_above hF),
        IsJag.congr g2 fun a b ha hb => ?_⟩
      dsimp only
      by_cases e : a = i
      · rw [if_pos e, if_pos (by omega), e]
      · rw [if_neg e]
        exact if_congr (by omega) rfl rfl)
  refine ⟨h2, f1, f2, IsJag.congr f3 fun a b ha hb => ?_⟩
  dsimp only
  rw [if_pos ha]

/-! ## The copying functions -/

theorem bCopy_run {m : Sl} {rows : Nat → Sl} {h : Heap α} {b : Blk α r c} (o : h.Ok) (H : IsBlk m rows h b) :
    ∃ h' m' rows', bCopy r c m h = (.ok m', h') ∧ Old h.next h h' ∧ IsBlk m' rows' h' b ∧
      ∀ a k, jagCells rows' (nBlocks r * nBlocks c) (blkLen r c) a k → h.next ≤ a := by
  obtain ⟨h1, e1, e2, e3, e4⟩ := makeJag_run (nBlocks r * nBlocks c) (blkLen r c) o
  obtain ⟨h2, f1, f2, f3⟩ := copyRows_run H o e3 e4
    (body := fun i => rdH ⟨h.next, 0, nBlocks r * nBlocks c, nBlocks r * nBlocks c⟩ i >>= fun d => rdH m i >>= fun s =>
      copy d s) fun i h' hi p q => by
      rw [HM.bind_ok (b := newRows h.next (blkLen r c) i) (h' := h') (by rw [rdH_run q, if_pos hi]),
        HM.bind_ok (b := rows i) (h' := h') (by rw [rdH_run (IsJag.survive H o p), if_pos hi])]
  refine ⟨h2, _, _, ?_, f2, f3, fun a k hF => newCells_above hF⟩
  unfold bCopy bLayout
  rw [HM.bind_ok e1, H.size, HM.bind_ok f1]
  rfl

theorem mCopyIn_run {m : Sl} {rows : Nat → Sl} {h : Heap α} {t : Tab α r c} (o : h.Ok) (H : IsJag m rows h t)
    (hr : 0 < r) (hc : 0 < c) :
    ∃ h' m' rows', mCopyIn m h = (.ok m', h') ∧ Old h.next h h' ∧ IsArr m' rows' h' ({ data := t } : Arr α r c) ∧
      ∀ a k, matCells rows' r c a k → h.next ≤ a := by
  obtain ⟨h1, e1, e2, e3, e4⟩ := makeJag_run r (fun _ => c) o
  obtain ⟨h2, f1, f2, f3⟩ := copyRows_run H o e3 e4
    (body := fun i => do
      let s ← rdH m i
      if s.len ≠ c then HM.lift (.error (.pan .dim))
      let d ← rdH ⟨h.next, 0, r, r⟩ i
      copy d s) fun i h' hi p q => by
      have Hs := IsJag.survive H o p
      rw [HM.bind_ok (b := rows i) (h' := h') (by rw [rdH_run Hs, if_pos hi]),
        if_neg (by rw [H.width i hi]; exact fun h => h rfl)]
      dsimp only
      rw [HM.bind_ok (b := newRows h.next (fun _ => c) i) (h' := h') (by rw [rdH_run q, if_pos hi])]
  refine ⟨h2, _, _, ?_, f2, ⟨f3, fun i _ => rfl⟩, fun a k hF => newCells_above hF⟩
  have e0 : rdH m 0 h = (.ok (rows 0), h) := by rw [rdH_run H, if_pos hr]
  unfold mCopyIn
  rw [if_neg (by rw [H.size]; omega)]
  dsimp only
  rw [HM.bind_ok e0, if_neg (by rw [H.width 0 hr]; omega), H.size, H.width 0 hr, HM.bind_ok e1]
  rw [HM.bind_ok f1]
  rfl

theorem mData_run {m : Sl} {rows : Nat → Sl} {h : Heap α} {a : Arr α r c} (o : h.Ok) (H : IsArr m rows h a) :
    ∃ h' m' rows', mData m h = (.ok m', h') ∧ Old h.next h h' ∧ IsArr m' rows' h' ({ data := a.data } : Arr α r c) ∧
      ∀ a k, matCells rows' r c a k → h.next ≤ a := by
  obtain ⟨h1, e1, e2, e3, e4, e5⟩ := HM.makeH_run r h o
  obtain ⟨h2, f1, f2, f3, f4, f5⟩ := HM.for_ok (a := 0) (b := r) (h := h1)
    (body := fun i => do
      let nc ← mCols m
      let d ← make nc
      wrH ⟨h.next, 0, r, r⟩ i d
      let s ← rdH m i
      let d ← slice d 0 s.len
      copy d s)
    (fun i h' => h'.next = h.next + 1 + i ∧ Old h.next h h' ∧ (∀ k, k < r → (h'.head h.next k).isSome = true ∧
      (k < i → h'.head h.next k = some (newRows h.next (fun _ => c) k))) ∧
      ∀ k j, k < i → j < c → h'.cell (h.next + 1 + k) j = some (a.data.f k j)) (Nat.zero_le _)
    ⟨e2, e3, fun k hk => ⟨by rw [e5 k hk]; rfl, fun hk => absurd hk (by omega)⟩, fun k j hk => absurd hk (by omega)⟩
    (fun i h' _ hi ⟨p1, p2, p3, p4⟩ => by
      have Hs : IsArr m rows h' a := ⟨IsJag.survive H.1 o p2, H.2⟩
      have hcol : mCols m h' = (.ok c, h') := by
        rw [cols_run Hs]
        unfold Arr.colDim
        rw [if_neg (by omega)]
      obtain ⟨h3, g1, g2, g3, g4, g5⟩ := HM.make_run c h' p2.ok
      have w1 := wrH_run (s := ⟨h.next, 0, r, r⟩) (h := h3) hi ⟨h'.next, 0, c, c⟩ (by
        dsimp only
        rw [g4, Nat.zero_add]
        exact (p3 i hi).1)
      have o4 : Old h.next h ⟨h3.next, h3.cell, upd2 h3.head h.next (0 + i) (some ⟨h'.next, 0, c, c⟩)⟩ := by
        refine ⟨by have := p2.next; have := g3.next; dsimp only; omega, fun a k ha => ?_, fun a k ha => ?_,
          fun a k ha => ?_⟩
        · exact (g3.cell a k (by omega)).trans (p2.cell a k ha)
        · dsimp only
          unfold upd2
          rw [if_neg (by omega), g4]
          exact p2.head a k ha
        · dsimp only at ha ⊢
          unfold upd2
          rw [if_neg (by omega)]
          exact g3.ok a k ha
      have Hs4 := IsJag.survive H.1 o o4
      have r4 : rdH m i ⟨h3.next, h3.cell, upd2 h3.head h.next (0 + i) (some ⟨h'.next, 0, c, c⟩)⟩ =
          (.ok (rows i), ⟨h3.next, h3.cell, upd2 h3.head h.next (0 + i) (some ⟨h'.next, 0, c, c⟩)⟩) := by
        rw [rdH_run Hs4, if_pos hi]
      have s4 : slice ⟨h'.next, 0, c, c⟩ 0 (rows i).len ⟨h3.next, h3.cell,
          upd2 h3.head h.next (0 + i) (some ⟨h'.next, 0, c, c⟩)⟩ = (.ok ⟨h'.next, 0, c, c⟩, ⟨h3.next, h3.cell,
          upd2 h3.head h.next (0 + i) (some ⟨h'.next, 0, c, c⟩)⟩) := by
        unfold HM.slice
        rw [H.1.width i hi, if_pos ⟨Nat.zero_le _, le_rfl⟩]
        rfl
      obtain ⟨h5, c1, c2, c3⟩ := HM.copy_run (d := ⟨h'.next, 0, c, c⟩) (IsJag.row Hs4 hi) (H.1.width i hi)
        fun j hj => by
          dsimp only at hj ⊢
          rw [Nat.zero_add, g5 j hj]
          rfl
      refine ⟨h5, by rw [HM.bind_ok hcol, HM.bind_ok g1, HM.bind_ok w1, HM.bind_ok r4, HM.bind_ok s4, c1], ?_, ?_, ?_,
        ?_⟩
      · rw [c3.next]
        dsimp only
        omega
      · exact o4.trans (c3.old o4.ok fun a k ⟨j, _, ha, _⟩ => by
          rw [ha]
          dsimp only
          omega)
      · intro k hk
        rw [c3.head]
        dsimp only
        unfold upd2
        by_cases e : k = i
        · subst e
          rw [if_pos ⟨rfl, (Nat.zero_add _).symm⟩]
          refine ⟨rfl, fun _ => ?_⟩
          rw [p1]
          rfl
        · rw [if_neg (by omega), g4]
          exact ⟨(p3 k hk).1, fun hk' => (p3 k hk).2 (by omega)⟩
      · intro k j hk hj
        by_cases e : k = i
        · subst e
          have := c2.2 j hj
          dsimp only at this
          rw [Nat.zero_add, p1] at this
          rw [this, List.getElem?_map, List.getElem?_range hj]
          rfl
        · rw [c3.cell _ _ fun ⟨j', _, ha, _⟩ => by
            dsimp only at ha
            omega]
          exact (g3.cell _ j (by omega)).trans (p4 k j (by omega) hj))
  refine ⟨h2, ⟨h.next, 0, r, r⟩, newRows h.next (fun _ => c), ?_, f3, ⟨⟨rfl, fun i hi => ?_, fun i _ => rfl,
    fun i j hi hj => ?_, fun i j i' j' _ _ _ _ => newRows_apart⟩, fun i _ => rfl⟩, fun a k hF => newCells_above hF⟩
  · unfold mData
    rw [H.1.size, HM.bind_ok e1, HM.bind_ok f1]
    rfl
  · dsimp only
    rw [Nat.zero_add]
    exact (f4 i hi).2 hi
  · unfold newRows
    dsimp only
    rw [Nat.zero_add]
    exact f5 i j hi hj

theorem mCopy_run {m : Sl} {rows : Nat → Sl} {h : Heap α} {a : Arr α r c} (o : h.Ok) (H : IsArr m rows h a)
    (hr : 0 < r) (hc : 0 < c) :
    ∃ h' m' rows', mCopy m h = (.ok m', h') ∧ Old h.next h h' ∧ IsArr m' rows' h' ({ data := a.data } : Arr α r c) ∧
      ∀ a k, matCells rows' r c a k → h.next ≤ a := by
  obtain ⟨h1, m1, rows1, e1, e2, e3, e4⟩ := mData_run o H
  obtain ⟨h2, m2, rows2, f1, f2, f3, f4⟩ := mCopyIn_run e2.ok e3.1 hr hc
  refine ⟨h2, m2, rows2, ?_, ⟨e2.next.trans f2.next, fun a k ha => (f2.cell a k (by have := e2.next; omega)).trans
    (e2.cell a k ha), fun a k ha => (f2.head a k (by have := e2.next; omega)).trans (e2.head a k ha), f2.ok⟩, f3,
    fun a k hF => e2.next.trans (f4 a k hF)⟩
  unfold mCopy
  rw [HM.bind_ok e1, f1]

/-- `copy` from a longer slice. -/
theorem HM.copy_take {d s : Sl} {h : Heap α} {xs : List α} (hs : IsVec s h xs) (hl : d.len ≤ s.len)
    (hd : ∀ j, j < d.len → (h.cell d.id (d.off + j)).isSome = true) :
    ∃ h', copy d s h = (.ok (), h') ∧ IsVec d h' (xs.take d.len) ∧ Frame d.cells h h' := by
  have hs' : IsVec ⟨s.id, s.off, d.len, d.len⟩ h (xs.take d.len) :=
    ⟨by rw [List.length_take, hs.1]; exact min_eq_left hl, fun j hj => by
      dsimp only at hj ⊢
      rw [hs.2 j (by omega), List.getElem?_take, if_pos hj]⟩
  obtain ⟨h', e1, e2⟩ := HM.copy_run (d := d) hs' rfl hd
  refine ⟨h', ?_, e2⟩
  rw [← e1]
  unfold HM.copy
  dsimp only
  rw [min_eq_left hl, min_self]

theorem IsVec.drop {v : Sl} {h : Heap α} {xs : List α} (hv : IsVec v h xs) {i k : Nat} (hi : i ≤ v.len) :
    IsVec ⟨v.id, v.off + i, v.len - i, k⟩ h (xs.drop i) :=
  ⟨by rw [List.length_drop, hv.1], fun j hj => by
    dsimp only at hj ⊢
    rw [Nat.add_assoc, hv.2 _ (by omega), List.getElem?_drop]⟩

theorem vSub_run {v : Sl} {h : Heap α} {xs : List α} (o : h.Ok) (hv : IsVec v h xs) {i n : Nat} (hn : 0 < n)
    (hi : i + n ≤ xs.length) (hcap : v.len ≤ v.cap) :
    ∃ h' w, vSub v i n h = (.ok w, h') ∧ Old h.next h h' ∧ IsVec w h' ((xs.drop i).take n) ∧
      ∀ a k, w.cells a k → h.next ≤ a := by
  obtain ⟨h1, e1, e2, e3, e4, e5⟩ := HM.make_run n h o
  have hlen := hv.1
  have hv1 := IsVec.survive hv o e3
  obtain ⟨h2, f1, f2, f3⟩ := HM.copy_take (d := ⟨h.next, 0, n, n⟩) (IsVec.drop hv1 (i := i) (k := v.cap - i) (by omega))
    (by dsimp only; omega) fun j hj => by
      dsimp only at hj ⊢
      rw [Nat.zero_add, e5 j hj]
      rfl
  have hcell : ∀ a k, (⟨h.next, 0, n, n⟩ : Sl).cells a k → h.next ≤ a := fun a k ⟨j, _, ha, _⟩ => le_of_eq ha.symm
  refine ⟨h2, ⟨h.next, 0, n, n⟩, ?_, e3.trans (f3.old e3.ok hcell), f2, hcell⟩
  have c1 : ∀ j : Int, 0 ≤ j → j < v.len → ∀ h : Heap α, HM.lift (checkIndex v.len j).must h = (.ok (), h) := by
    intro j h0 h1 h
    unfold checkIndex
    rw [if_neg (by omega)]
    rfl
  have s1 : slice v i v.len h1 = (.ok ⟨v.id, v.off + i, v.len - i, v.cap - i⟩, h1) := by
    unfold HM.slice
    rw [if_pos (by omega)]
    rfl
  unfold vSub
  rw [if_neg (by omega)]
  dsimp only
  rw [Int.toNat_natCast, Int.toNat_natCast, HM.bind_ok e1, HM.bind_ok (c1 i (by omega) (by omega) _),
    HM.bind_ok (c1 _ (by omega) (by omega) _), HM.bind_ok s1, HM.bind_ok f1]
  rfl

theorem mRowAt_run {m : Sl} {rows : Nat → Sl} {h : Heap α} {a : Arr α r c} (o : h.Ok) (H : IsArr m rows h a) {i : Nat}
    (hi : i < r) :
    ∃ h' w, mRowAt m i h = (.ok w, h') ∧ Old h.next h h' ∧ IsVec w h' ((List.range c).map (a.data.f i)) ∧
      ∀ a k, w.cells a k → h.next ≤ a := by
  obtain ⟨h1, e1, e2, e3, e4, e5⟩ := HM.make_run c h o
  have H1 := IsJag.survive H.1 o e3
  have hrow : IsVec ⟨(rows i).id, (rows i).off + 0, c - 0, (rows i).cap - 0⟩ h1 ((List.range c).map (a.data.f i)) := by
    have := IsJag.row H1 hi
    refine ⟨by rw [List.length_map, List.length_range]; rfl, fun j hj => this.2 j (by rw [H.1.width i hi]; exact hj)⟩
  obtain ⟨h2, f1, f2, f3⟩ := HM.copy_run (d := ⟨h.next, 0, c, c⟩) hrow rfl fun j hj => by
      dsimp only at hj ⊢
      rw [Nat.zero_add, e5 j hj]
      rfl
  have hcell : ∀ a k, (⟨h.next, 0, c, c⟩ : Sl).cells a k → h.next ≤ a := fun a k ⟨j, _, ha, _⟩ => le_of_eq ha.symm
  refine ⟨h2, ⟨h.next, 0, c, c⟩, ?_, e3.trans (f3.old e3.ok hcell), f2, hcell⟩
  have c1 : HM.lift (checkRowIndex m.len (i : Int)).must h = (.ok (), h) := by
    unfold checkRowIndex
    rw [H.1.size, if_neg (by omega)]
    rfl
  have c2 : mCols m h = (.ok c, h) := by
    rw [cols_run H]
    unfold Arr.colDim
    rw [if_neg (by omega)]
  have s1 : slice (rows i) 0 c h1 = (.ok ⟨(rows i).id, (rows i).off + 0, c - 0, (rows i).cap - 0⟩, h1) := by
    unfold HM.slice
    rw [H.2 i hi, if_pos (by omega)]
    rfl
  unfold mRowAt
  rw [HM.bind_ok c1, HM.bind_ok c2, HM.bind_ok e1, Int.toNat_natCast,
    HM.bind_ok (b := rows i) (h' := h1) (by rw [rdH_run H1, if_pos hi]), HM.bind_ok s1, HM.bind_ok f1]
  rfl

theorem mColumnAt_run {m : Sl} {rows : Nat → Sl} {h : Heap α} {a : Arr α r c} (o : h.Ok) (H : IsArr m rows h a) {j : Nat}
    (hr : 0 < r) (hj : j < c) :
    ∃ h' w, mColumnAt m j h = (.ok w, h') ∧ Old h.next h h' ∧
      IsVec w h' ((List.range r).map fun i => a.data.f i j) ∧ ∀ a k, w.cells a k → h.next ≤ a := by
  obtain ⟨h1, e1, e2, e3, e4, e5⟩ := HM.make_run r h o
  obtain ⟨h2, f1, f2, f3⟩ := HM.for_ok (a := 0) (b := r) (h := h1)
    (body := fun i => Heap.get m i j >>= fun x => wr ⟨h.next, 0, r, r⟩ i x)
    (fun i h' => Old h.next h h' ∧ ∃ ys : List α, IsVec ⟨h.next, 0, r, r⟩ h' ys ∧
      ∀ k, k < i → ys[k]? = some (a.data.f k j)) (Nat.zero_le _)
    ⟨e3, List.replicate r Flt.zero, ⟨List.length_replicate, fun j hj => by
      dsimp only at hj ⊢
      rw [Nat.zero_add, e5 j hj, List.getElem?_replicate, if_pos hj]⟩, fun j hj => absurd hj (by omega)⟩
    (fun i h' _ hi ⟨p, ys, q1, q2⟩ => by
      obtain ⟨h3, g1, g2, g3⟩ := wr_run q1 (i := i) hi (a.data.f i j)
      refine ⟨h3, ?_, p.trans (g3.old p.ok fun a k ⟨j, _, ha, _⟩ => le_of_eq ha.symm), _, g2, fun k hk => ?_⟩
      · rw [HM.bind_ok (b := a.data.f i j) (h' := h') (by
          rw [get_run (IsJag.survive H.1 o p), Jag.get_ok hi hj]), g1]
      · have hy : i < ys.length := by rw [q1.1]; exact hi
        rw [List.getElem?_set]
        by_cases e : i = k
        · subst e
          rw [if_pos rfl, if_pos hy]
        · rw [if_neg e]
          exact q2 k (by omega))
  obtain ⟨ys, q1, q2⟩ := f3
  refine ⟨h2, ⟨h.next, 0, r, r⟩, ?_, f2, ⟨by rw [List.length_map, List.length_range], fun k hk => ?_⟩,
    fun a k ⟨j, _, ha, _⟩ => le_of_eq ha.symm⟩
  · have c2 : mCols m h = (.ok c, h) := by
      rw [cols_run H]
      unfold Arr.colDim
      rw [if_neg (by omega)]
    have c1 : HM.lift (checkColumnIndex c (j : Int)).must h = (.ok (), h) := by
      unfold checkColumnIndex
      rw [if_neg (by omega)]
      rfl
    unfold mColumnAt
    rw [HM.bind_ok c2, HM.bind_ok c1, H.1.size, HM.bind_ok e1, Int.toNat_natCast, HM.bind_ok f1]
    rfl
  · dsimp only at hk ⊢
    rw [q1.2 k hk, q2 k hk, List.getElem?_map, List.getElem?_range hk]
    rfl

theorem put_run {m : Sl} {rows : Nat → Sl} {h : Heap α} {t : Jag α n len} (H : IsJag m rows h t) {i j : Nat}
    (hi : i < n) (hj : j < len i) (v : α) :
    ∃ h', Heap.put m i j v h = (.ok (), h') ∧ IsJag m rows h' (⟨upd2 t.f i j v⟩ : Jag α n len) ∧
      Frame (jagCells rows n len) h h' := by
  have := SimAt.put H i j v
  rw [Jag.set_ok hi hj] at this
  exact this

theorem bData_run {m : Sl} {rows : Nat → Sl} {h : Heap α} {b : Blk α r c} (o : h.Ok) (H : IsBlk m rows h b) :
    ∃ h' m' rows', bData r c m h = (.ok m', h') ∧ Old h.next h h' ∧
      IsArr m' rows' h' ({ data := ⟨b.ent⟩ } : Arr α r c) ∧ ∀ a k, matCells rows' r c a k → h.next ≤ a := by
  obtain ⟨h1, e1, e2, e3, e4⟩ := makeJag_run r (fun _ => c) o
  obtain ⟨h2, f1, f2, f3⟩ := HM.for_ok (a := 0) (b := r) (h := h1)
    (body := fun p => for' 0 c fun q => Heap.get m (blkIdx c p q) (blkOff c p q) >>= fun v =>
      Heap.put ⟨h.next, 0, r, r⟩ p q v)
    (fun i h' => Old h.next h h' ∧ ∃ t : Tab α r c, IsJag ⟨h.next, 0, r, r⟩ (newRows h.next fun _ => c) h' t ∧
      ∀ p q, p < i → q < c → t.f p q = b.ent p q) (Nat.zero_le _)
    ⟨e3, _, e4, fun p q hp => absurd hp (by omega)⟩
    (fun p h' _ hp ⟨p1, t, p2, p3⟩ => by
      obtain ⟨h3, g1, g2, t', g3, g4⟩ := HM.for_ok (a := 0) (b := c) (h := h')
        (body := fun q => Heap.get m (blkIdx c p q) (blkOff c p q) >>= fun v => Heap.put ⟨h.next, 0, r, r⟩ p q v)
        (fun j h' => Old h.next h h' ∧ ∃ t : Tab α r c, IsJag ⟨h.next, 0, r, r⟩ (newRows h.next fun _ => c) h' t ∧
          ∀ p' q, (p' < p ∧ q < c ∨ p' = p ∧ q < j) → t.f p' q = b.ent p' q) (Nat.zero_le _)
        ⟨p1, t, p2, fun p' q hq => p3 p' q (by omega) (by omega)⟩
        (fun q h' _ hq ⟨q1, t, q2, q3⟩ => by
          obtain ⟨h3, g1, g2, g3⟩ := put_run q2 hp hq (b.ent p q)
          refine ⟨h3, ?_, q1.trans (g3.old q1.ok fun a k hF => newCells_above hF), _, g2, fun p' q' hq' => ?_⟩
          · rw [HM.bind_ok (b := b.ent p q) (h' := h') (by
              rw [get_run (IsJag.survive H o q1), Blk.get_ok b.blocks hp hq]; rfl), g1]
          · dsimp only
            unfold upd2
            by_cases e : p' = p ∧ q' = q
            · rw [if_pos e, e.1, e.2]
            · rw [if_neg e]
              exact q3 p' q' (by omega))
      exact ⟨h3, g1, g2, t', g3, fun p' q hp' hq => g4 p' q (by omega)⟩)
  obtain ⟨t, q1, q2⟩ := f3
  refine ⟨h2, _, _, ?_, f2, ⟨IsJag.congr q1 fun i j hi hj => q2 i j hi hj, fun i _ => rfl⟩, fun a k hF => newCells_above hF⟩
  unfold bData
  rw [HM.bind_ok e1, HM.bind_ok f1]
  rfl

theorem dData_run {v : Sl} {h : Heap α} {d : Dia α n} (o : h.Ok) (H : IsDia v h d) :
    ∃ h' m' rows', dData v h = (.ok m', h') ∧ Old h.next h h' ∧
      IsArr m' rows' h' ({ data := ⟨fun i j => if i = j then d.data.f i else Flt.zero⟩ } : Arr α n n) ∧
      ∀ a k, matCells rows' n n a k → h.next ≤ a := by
  have survive : ∀ h', Old h.next h h' → IsDia v h' d := fun h' x => (Obj.dia v n H.1).survives H o x
  obtain ⟨h1, e1, e2, e3, e4⟩ := makeJag_run n (fun _ => n) o
  obtain ⟨h2, f1, f2, f3⟩ := HM.for_ok (a := 0) (b := n) (h := h1)
    (body := fun i => rd v i >>= fun x => Heap.put ⟨h.next, 0, n, n⟩ i i x)
    (fun i h' => Old h.next h h' ∧ IsJag ⟨h.next, 0, n, n⟩ (newRows h.next fun _ => n) h'
      (Jag.mk (n := n) (len := fun _ => n) fun p q => if p = q ∧ p < i then d.data.f p else Flt.zero)) (Nat.zero_le _)
    ⟨e3, IsJag.congr e4 fun i j _ _ => by
      dsimp only
      rw [if_neg (by omega)]
      rfl⟩
    (fun i h' _ hi ⟨q1, q2⟩ => by
      obtain ⟨h3, g1, g2, g3⟩ := put_run q2 hi hi (d.data.f i)
      refine ⟨h3, ?_, q1.trans (g3.old q1.ok fun a k hF => newCells_above hF), IsJag.congr g2 fun p q hp hq => ?_⟩
      · rw [HM.bind_ok (b := d.data.f i) (h' := h') (by
          rw [drd_run (survive h' q1), Row.get_ok hi]), g1]
      · dsimp only
        unfold upd2
        by_cases e : p = i ∧ q = i
        · rw [if_pos e, if_pos (by omega), e.1]
        · rw [if_neg e]
          exact if_congr (by omega) rfl rfl)
  refine ⟨h2, _, _, ?_, f2, ⟨IsJag.congr f3 fun i j hi hj => ?_, fun i _ => rfl⟩, fun a k hF => newCells_above hF⟩
  · unfold dData
    rw [H.1, HM.bind_ok e1, HM.bind_ok f1]
    rfl
  · dsimp only
    exact if_congr (by omega) rfl rfl

end Linear
