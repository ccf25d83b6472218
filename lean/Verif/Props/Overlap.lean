import Verif.Props.Alias

/-!
# C47: assigning a vector to a window of a vector that shares its storage

`SetSubVector` first copies the argument's storage (`copy` treats overlap correctly) and then stores the entries a
second time, one after another, reading the argument again. When the two windows overlap at different offsets, the second
pass reads what the first has stored: the property is false. The theorems give the result for every overlap, and the cases
in which it is the expected one.
-/

set_option linter.unusedSectionVars false

namespace Linear

open HM Heap Spec

variable {α : Type} [Flt α]

theorem lift_ok_run {x : Res Unit} (e : x = .ok ()) (h : Heap α) : HM.lift x h = (.ok (), h) := by rw [e]; rfl

theorem setSubSlice_run {v w : Sl} {h : Heap α} {D : Nat} (hn : 0 < w.len) (hD : D + w.len ≤ v.len)
    (hcap : v.len ≤ v.cap) :
    vSetSubSlice v D w h = (.ok (), ⟨h.next, fun a k =>
      if a = v.id ∧ v.off + D ≤ k ∧ k < v.off + D + w.len then h.cell w.id (w.off + (k - (v.off + D)))
      else h.cell a k, h.head⟩) := by
  have c1 : (checkIndex v.len (D : Int)).must = .ok () := by
    unfold checkIndex; rw [if_neg (by omega)]; rfl
  have c2 : (checkIndex v.len ((D : Int) + w.len - 1)).must = .ok () := by
    unfold checkIndex; rw [if_neg (by omega)]; rfl
  have c3 : (slice v D (D + w.len) : HM α Sl) h = (.ok ⟨v.id, v.off + D, w.len, v.cap - D⟩, h) := by
    unfold slice
    rw [if_pos (by omega), Nat.add_sub_cancel_left]
    rfl
  unfold vSetSubSlice
  rw [HM.bind_ok (lift_ok_run c1 h), HM.bind_ok (lift_ok_run c2 h), Int.toNat_natCast, HM.bind_ok c3]
  unfold HM.copy
  simp only [min_self]

/-- The run of `SetSubVector`: `f` is what the second pass reads. -/
theorem setSub_run {v w : Sl} {h : Heap α} {D : Nat} (hn : 0 < w.len) (hD : D + w.len ≤ v.len)
    (hcap : v.len ≤ v.cap) (hv : ∀ k, k < v.len → (h.cell v.id (v.off + k)).isSome = true) (f : Nat → α)
    (hf : ∀ i, i < w.len → (if w.id = v.id ∧ v.off + D ≤ w.off + i ∧ w.off + i < v.off + D + i then
        some (f (w.off + i - (v.off + D)))
      else if w.id = v.id ∧ v.off + D ≤ w.off + i ∧ w.off + i < v.off + D + w.len then
        h.cell w.id (w.off + (w.off + i - (v.off + D)))
      else h.cell w.id (w.off + i)) = some (f i)) :
    ∃ h', vSetSub v D w h = (.ok (), h') ∧ (∀ i, i < w.len → h'.cell v.id (v.off + D + i) = some (f i)) ∧
      (∀ a k, ¬ (a = v.id ∧ v.off + D ≤ k ∧ k < v.off + D + w.len) → h'.cell a k = h.cell a k) ∧
      h'.head = h.head ∧ h'.next = h.next := by
  have c1 : (checkIndex v.len (D : Int)).must = .ok () := by
    unfold checkIndex; rw [if_neg (by omega)]; rfl
  have c2 : (checkIndex v.len ((D : Int) + w.len - 1)).must = .ok () := by
    unfold checkIndex; rw [if_neg (by omega)]; rfl
  have e1 := setSubSlice_run (h := h) hn hD hcap
  generalize eh : (⟨h.next, fun a k =>
      if a = v.id ∧ v.off + D ≤ k ∧ k < v.off + D + w.len then h.cell w.id (w.off + (k - (v.off + D)))
      else h.cell a k, h.head⟩ : Heap α) = h1 at e1
  have hc1 : ∀ a k, h1.cell a k = if a = v.id ∧ v.off + D ≤ k ∧ k < v.off + D + w.len then
      h.cell w.id (w.off + (k - (v.off + D))) else h.cell a k := fun a k => by rw [← eh]
  obtain ⟨h', e2, e3, e4, e5⟩ := HM.for_ok (a := 0) (b := w.len) (h := h1) (body := fun i => do
      let x ← vAt w i
      wr v (D + i) x)
    (fun i h' => (∀ a k, h'.cell a k = if a = v.id ∧ v.off + D ≤ k ∧ k < v.off + D + i then
      some (f (k - (v.off + D))) else h1.cell a k) ∧ h'.head = h.head ∧ h'.next = h.next) (Nat.zero_le _)
    ⟨fun a k => by rw [if_neg (by omega)], by rw [← eh], by rw [← eh]⟩ (fun i h2 _ hi ⟨i1, i2, i3⟩ => by
      have hr : h2.cell w.id (w.off + i) = some (f i) := by
        rw [i1, ← hf i hi, hc1]
      have ra : vAt w (i : Int) h2 = (.ok (f i), h2) := by
        unfold vAt
        rw [HM.bind_ok (lift_ok_run (by unfold checkIndex; rw [if_neg (by omega)]; rfl) h2), Int.toNat_natCast]
        unfold rd
        rw [if_pos hi, hr]
      have hs : ∃ y, h2.cell v.id (v.off + (D + i)) = some y := by
        rw [i1, if_neg (by omega), hc1, if_pos ⟨rfl, by omega, by omega⟩]
        rw [show v.off + (D + i) - (v.off + D) = i by omega]
        by_cases c : w.id = v.id ∧ v.off + D ≤ w.off + i ∧ w.off + i < v.off + D + w.len
        · have := hv (w.off + i - v.off) (by omega)
          rw [show v.off + (w.off + i - v.off) = w.off + i by omega, ← c.1] at this
          exact Option.isSome_iff_exists.mp this
        · have := hf i hi
          rw [if_neg (by omega), if_neg c] at this
          exact ⟨_, this⟩
      obtain ⟨y, hy⟩ := hs
      refine ⟨{ h2 with cell := upd2 h2.cell v.id (v.off + (D + i)) (some (f i)) }, ?_, ?_⟩
      · rw [HM.bind_ok ra]
        unfold HM.wr
        rw [if_pos (by omega), hy]
      · refine ⟨fun a k => ?_, i2, i3⟩
        dsimp only
        rw [upd2_eq]
        by_cases c : a = v.id ∧ k = v.off + (D + i)
        · rw [if_pos c, if_pos (by omega), show k - (v.off + D) = i by omega]
        · rw [if_neg c, i1]
          by_cases c' : a = v.id ∧ v.off + D ≤ k ∧ k < v.off + D + i
          · rw [if_pos c', if_pos (by omega)]
          · rw [if_neg c', if_neg (by omega)])
  refine ⟨h', ?_, fun i hi => ?_, fun a k hk => ?_, e4, e5⟩
  · unfold vSetSub
    rw [HM.bind_ok (lift_ok_run c1 h), HM.bind_ok (lift_ok_run c2 h), HM.bind_ok e1]
    simp only [Int.toNat_natCast]
    exact e2
  · rw [e3, if_pos ⟨rfl, by omega, by omega⟩, Nat.add_sub_cancel_left]
  · rw [e3, if_neg hk, hc1, if_neg hk]

/-- What `SetSubVector` stores at entry `i` of the window at `D`, when the argument is the window at `S` of the same
array `g`, both of length `n`. -/
def Spec.stored (g : Nat → α) (S D n i : Nat) : α :=
  if D < S then (if i + (S - D) < n then g (S + (i + (S - D))) else g (S + i))
  else if S < D then g (S + i % (D - S)) else g (S + i)

/-- C47, the result for every overlap: vector and argument are windows of one array, with contents `g`. When the argument
starts `s` later, entry `i` receives the value `s` places further on as long as it lies in the argument; when it starts
`t` earlier, the first `t` entries are repeated. -/
theorem C47_exact {v w : Sl} {h : Heap α} {D : Nat} (g : Nat → α) (hn : 0 < w.len) (hD : D + w.len ≤ v.len)
    (hcap : v.len ≤ v.cap) (hid : w.id = v.id) (hv : ∀ k, k < v.len → h.cell v.id (v.off + k) = some (g (v.off + k)))
    (hw : ∀ k, k < w.len → h.cell w.id (w.off + k) = some (g (w.off + k))) :
    ∃ h', vSetSub v D w h = (.ok (), h') ∧
      (∀ i, i < w.len → h'.cell v.id (v.off + D + i) = some (stored g w.off (v.off + D) w.len i)) ∧
      (∀ a k, ¬ (a = v.id ∧ v.off + D ≤ k ∧ k < v.off + D + w.len) → h'.cell a k = h.cell a k) := by
  obtain ⟨h', e1, e2, e3, -⟩ := setSub_run (h := h) hn hD hcap (fun k hk => by rw [hv k hk]; rfl)
    (stored g w.off (v.off + D) w.len) (fun i hi => by
      unfold stored
      by_cases c : v.off + D < w.off
      · rw [if_neg (by omega), if_pos c]
        by_cases c' : i + (w.off - (v.off + D)) < w.len
        · rw [if_pos c', if_pos ⟨hid, by omega, by omega⟩, hw _ (by omega)]
          congr 2
          omega
        · rw [if_neg c', if_neg (by omega), hw _ hi]
      · by_cases c2 : w.off < v.off + D
        · simp only [if_neg c, if_pos c2]
          by_cases c3 : v.off + D ≤ w.off + i
          · rw [if_pos ⟨hid, c3, by omega⟩]
            congr 3
            rw [show w.off + i - (v.off + D) = i - (v.off + D - w.off) by omega]
            exact (Nat.mod_eq_sub_mod (by omega)).symm
          · rw [if_neg (by omega), if_neg (by omega), hw _ hi, Nat.mod_eq_of_lt (by omega)]
        · rw [if_neg (by omega), if_pos ⟨hid, by omega, by omega⟩, if_neg c, if_neg c2, hw _ (by omega)]
          congr 2
          omega)
  exact ⟨h', e1, e2, e3⟩

/-- C47 where it holds: the argument lives in another array, or in the same one without overlapping the window it is
assigned to, or is exactly that window. The window then holds the old contents of the argument. What is missing: the other
overlaps, where the property is false (`C47_false`). -/
theorem C47_setSubVector_partial {v w : Sl} {h : Heap α} {xs ys : List α} {D : Nat} (hv : IsVec v h xs)
    (hw : IsVec w h ys) (hn : 0 < w.len) (hD : D + w.len ≤ v.len) (hcap : v.len ≤ v.cap)
    (ha : w.id ≠ v.id ∨ w.off + w.len ≤ v.off + D ∨ v.off + D + w.len ≤ w.off ∨ w.off = v.off + D) :
    ∃ h', vSetSub v D w h = (.ok (), h') ∧ IsVec v h' (xs.take D ++ ys ++ xs.drop (D + w.len)) ∧
      (∀ a k, ¬ (a = v.id ∧ v.off + D ≤ k ∧ k < v.off + D + w.len) → h'.cell a k = h.cell a k) := by
  have hy : ∀ i, i < w.len → h.cell w.id (w.off + i) = some (ys.getD i Flt.zero) := fun i hi => by
    rw [hw.2 i hi]
    rw [List.getD_eq_getElem?_getD, List.getElem?_eq_getElem (by rw [hw.1]; exact hi)]
    rfl
  obtain ⟨h', e1, e2, e3, -⟩ := setSub_run (h := h) hn hD hcap (fun k hk => by
      rw [hv.2 k hk, List.getElem?_eq_getElem (by rw [hv.1]; exact hk)]; rfl) (fun i => ys.getD i Flt.zero) (fun i hi => by
      rw [if_neg (by omega)]
      by_cases c : w.id = v.id ∧ v.off + D ≤ w.off + i ∧ w.off + i < v.off + D + w.len
      · rw [if_pos c, show w.off + (w.off + i - (v.off + D)) = w.off + i by omega, hy i hi]
      · rw [if_neg c, hy i hi])
  refine ⟨h', e1, ⟨?_, fun k hk => ?_⟩, e3⟩
  · simp only [List.length_append, List.length_take, List.length_drop, hv.1, hw.1]
    omega
  · by_cases c : k < D
    · rw [e3 _ _ (by omega), hv.2 k hk, List.append_assoc, List.getElem?_append_left (by
        rw [List.length_take, hv.1]; omega), List.getElem?_take, if_pos c]
    · by_cases c' : k < D + w.len
      · have := e2 (k - D) (by omega)
        rw [show v.off + D + (k - D) = v.off + k by omega] at this
        rw [this, List.append_assoc, List.getElem?_append_right (by rw [List.length_take, hv.1]; omega),
          List.length_take, hv.1, min_eq_left (by omega), List.getElem?_append_left (by rw [hw.1]; omega),
          ← hw.2 (k - D) (by omega), hy _ (by omega)]
      · rw [e3 _ _ (by omega), hv.2 k hk, List.getElem?_append_right (by
          rw [List.length_append, List.length_take, hv.1, hw.1]; omega), List.length_append, List.length_take, hv.1, hw.1,
          min_eq_left (by omega), List.getElem?_drop]
        congr 1
        omega

/-- C47 for `SetSubVectorWithSlice`: right for every overlap. -/
theorem C47_setSubSlice {v w : Sl} {h : Heap α} {xs ys : List α} {D : Nat} (hv : IsVec v h xs)
    (hw : IsVec w h ys) (hn : 0 < w.len) (hD : D + w.len ≤ v.len) (hcap : v.len ≤ v.cap) :
    ∃ h', vSetSubSlice v D w h = (.ok (), h') ∧ IsVec v h' (xs.take D ++ ys ++ xs.drop (D + w.len)) ∧
      (∀ a k, ¬ (a = v.id ∧ v.off + D ≤ k ∧ k < v.off + D + w.len) → h'.cell a k = h.cell a k) := by
  refine ⟨_, setSubSlice_run (h := h) hn hD hcap, ⟨?_, fun k hk => ?_⟩, fun a k hk => if_neg hk⟩
  · simp only [List.length_append, List.length_take, List.length_drop, hv.1, hw.1]
    omega
  · dsimp only
    by_cases c : k < D
    · rw [if_neg (by omega), hv.2 k hk, List.append_assoc, List.getElem?_append_left (by
        rw [List.length_take, hv.1]; omega), List.getElem?_take, if_pos c]
    · by_cases c' : k < D + w.len
      · rw [if_pos ⟨rfl, by omega, by omega⟩, show w.off + (v.off + k - (v.off + D)) = w.off + (k - D) by omega,
          hw.2 _ (by omega), List.append_assoc, List.getElem?_append_right (by rw [List.length_take, hv.1]; omega),
          List.length_take, hv.1, min_eq_left (by omega), List.getElem?_append_left (by rw [hw.1]; omega)]
      · rw [if_neg (by omega), hv.2 k hk, List.getElem?_append_right (by
          rw [List.length_append, List.length_take, hv.1, hw.1]; omega), List.length_append, List.length_take, hv.1, hw.1,
          min_eq_left (by omega), List.getElem?_drop]
        congr 1
        omega

/-- C47 is false, in both directions: the vector `1 2 3`, assigned its own last two entries at 0, becomes `3 3 3` instead
of `2 3 3`; assigned its first two at 1, it becomes `1 1 1` instead of `1 1 2`. -/
theorem C47_false :
    IsVec ⟨0, 0, 3, 3⟩ demo [1, 2, 3] ∧ IsVec ⟨0, 1, 2, 2⟩ demo [2, 3] ∧ IsVec ⟨0, 0, 2, 3⟩ demo [1, 2] ∧
    (let x := vSetSub ⟨0, 0, 3, 3⟩ 0 ⟨0, 1, 2, 2⟩ demo
     (∃ u, x.1 = .ok u) ∧ IsVec ⟨0, 0, 3, 3⟩ x.2 [3, 3, 3]) ∧
    (let x := vSetSub ⟨0, 0, 3, 3⟩ 1 ⟨0, 0, 2, 3⟩ demo
     (∃ u, x.1 = .ok u) ∧ IsVec ⟨0, 0, 3, 3⟩ x.2 [1, 1, 1]) := by
  have two : ∀ {P : Nat → Prop}, P 0 → P 1 → ∀ j, j < 2 → P j := fun h0 h1 j hj => by
    have : j = 0 ∨ j = 1 := by omega
    rcases this with rfl | rfl <;> assumption
  have three : ∀ {P : Nat → Prop}, P 0 → P 1 → P 2 → ∀ j, j < 3 → P j := fun h0 h1 h2 j hj => by
    have : j = 0 ∨ j = 1 ∨ j = 2 := by omega
    rcases this with rfl | rfl | rfl <;> assumption
  refine ⟨⟨rfl, three ?_ ?_ ?_⟩, ⟨rfl, two ?_ ?_⟩, ⟨rfl, two ?_ ?_⟩, ⟨⟨(), ?_⟩, rfl, three ?_ ?_ ?_⟩,
    ⟨(), ?_⟩, rfl, three ?_ ?_ ?_⟩ <;> decide +kernel

end Linear
