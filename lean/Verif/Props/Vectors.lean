import Verif.Lemmas.VecLemmas
import Verif.Base.Xq
import Verif.Props.Lines
import Mathlib.Algebra.BigOperators.Group.List.Basic
import Mathlib.Algebra.Order.BigOperators.Group.List

/-!
# C21-C26, C46, C56, C57: vectors

`v.list` is the list of entries of a vector argument, of whatever implementation.
-/

set_option linter.unusedSectionVars false

namespace Linear

open Spec

variable {α : Type} [Flt α] {τ : Type}

/-! ## C21 Entrywise arithmetic -/

/-- The common shape of the four binary operations. -/
theorem Vec.zip_ok {op : α → α → α} {f : List α → RVec α → Res (List α)}
    (h1 : ∀ a b, f a (.arr b) = (do
      (checkDims a.length b.length).must
      forUp 0 b.length (fun i out => do wrL out i (op (← rdL a i) (← rdL b i)))
        (← mkL b.length)))
    (h2 : ∀ a b, f a (.ext b) = (do
      (checkDims a.length b.length).must
      forUp 0 a.length (fun i out => do wrL out i (op (← rdL a i) (← (RVec.ext b).at i)))
        (← mkL b.length))) (a : List α) (v : RVec α) :
    (a.length = v.dim → f a v = .ok (List.zipWith op a v.list)) ∧
    (a.length ≠ v.dim → f a v = .error (.pan .dim)) := by
  constructor
  · intro h
    cases v with
    | arr b =>
      have h : a.length = b.length := h
      rw [h1, h, checkDims_ok, must_ok, ok_bind, mkL_ok, ok_bind]
      refine fillLoop (by simp [RVec.list, h]) _ fun i e hi he => ?_
      rw [rdL_nth (show i < a.length by omega), rdL_nth hi, ok_bind, ok_bind,
        wrL_ok (by omega), RVec.list, nth_zipWith op h (by omega)]
    | ext b =>
      have h : a.length = b.length := h
      rw [h2, h, checkDims_ok, must_ok, ok_bind, mkL_ok, ok_bind]
      refine fillLoop (by simp [RVec.list, h]) _ fun i e hi he => ?_
      rw [rdL_nth (show i < a.length by omega), RVec.at_nth _ (show i < (RVec.ext b).dim from hi),
        ok_bind, ok_bind, wrL_ok (by omega), RVec.list, nth_zipWith op h (by omega)]
  · intro h
    cases v with
    | arr b =>
      have h : a.length ≠ b.length := h
      rw [h1, checkDims_err h]; rfl
    | ext b =>
      have h : a.length ≠ b.length := h
      rw [h2, checkDims_err h]; rfl

/-- C21, `Add`, `Subtract`, `EBEMultiply`, `EBEDivide`: one machine operation per entry; operands of
different lengths are refused. The argument may be of any implementation. -/
theorem C21_binary (a : List α) (v : RVec α) :
    (a.length = v.dim →
      Vec.add a v = .ok (List.zipWith Flt.add a v.list) ∧
      Vec.subtract a v = .ok (List.zipWith Flt.sub a v.list) ∧
      Vec.ebeMultiply a v = .ok (List.zipWith Flt.mul a v.list) ∧
      Vec.ebeDivide a v = .ok (List.zipWith Flt.div a v.list)) ∧
    (a.length ≠ v.dim →
      Vec.add a v = .error (.pan .dim) ∧ Vec.subtract a v = .error (.pan .dim) ∧
      Vec.ebeMultiply a v = .error (.pan .dim) ∧ Vec.ebeDivide a v = .error (.pan .dim)) := by
  have h1 := Vec.zip_ok (op := Flt.add) (f := Vec.add) (fun _ _ => rfl) (fun _ _ => rfl) a v
  have h2 := Vec.zip_ok (op := Flt.sub) (f := Vec.subtract) (fun _ _ => rfl) (fun _ _ => rfl) a v
  have h3 := Vec.zip_ok (op := Flt.mul) (f := Vec.ebeMultiply) (fun _ _ => rfl) (fun _ _ => rfl) a v
  have h4 := Vec.zip_ok (op := Flt.div) (f := Vec.ebeDivide) (fun _ _ => rfl) (fun _ _ => rfl) a v
  exact ⟨fun h => ⟨h1.1 h, h2.1 h, h3.1 h, h4.1 h⟩, fun h => ⟨h1.2 h, h2.2 h, h3.2 h, h4.2 h⟩⟩

/-- C21, `MapAdd`, `MapSubtract`, `MapMultiply`, `MapDivide`: one machine operation per entry. -/
theorem C21_map (d : List α) (x : α) :
    Vec.mapAdd d x = .ok (d.map (Flt.add · x)) ∧ Vec.mapSubtract d x = .ok (d.map (Flt.sub · x)) ∧
    Vec.mapMultiply d x = .ok (d.map (Flt.mul · x)) ∧
    Vec.mapDivide d x = .ok (d.map (Flt.div · x)) := by
  refine ⟨mapLoop _ ?_, mapLoop _ ?_, mapLoop _ ?_, mapLoop _ ?_⟩ <;>
  · intro i e hi hl he
    rw [rdL_of hi he, res_at_ok, ok_bind, wrL_ok (by omega), res_at_ok]

/-- C21, `Map`: the caller's function is applied to each entry once; when it panics at an entry, the
entries before it are already replaced and the others are not. -/
theorem C21_mapFun (d : List α) (f : α → Res α) :
    (∀ g, (∀ x ∈ d, f x = .ok (g x)) → Vec.map d f = .ok (d.map g)) ∧
    (∀ g p x q e, d = p ++ x :: q → (∀ y ∈ p, f y = .ok (g y)) → f x = .error e →
      Vec.map d f = .error (e, p.map g ++ x :: q)) := by
  constructor
  · intro g h
    refine mapLoop g fun i e hi hl he => ?_
    have : nth d i ∈ d := by simp [nth, hi]
    rw [rdL_of hi he, res_at_ok, ok_bind, h _ this, res_at_ok, ok_bind, wrL_ok (by omega),
      res_at_ok]
  · rintro g p x q e rfl h hx
    unfold Vec.map
    have key : ∀ k, k ≤ p.length → forUp 0 k (fun i (d : List α) => do
        let x ← (rdL d i).at d
        let y ← (f x).at d
        (wrL d i y).at d) (p ++ x :: q) = .ok ((p.take k).map g ++ p.drop k ++ x :: q) := by
      intro k hk
      induction k with
      | zero => rw [forUp_eq_self le_rfl]; simp
      | succ k ih =>
        rw [forUp_last (Nat.zero_le _), ih (by omega), ok_bind]
        have h1 : rdL ((p.take k).map g ++ p.drop k ++ x :: q) k = .ok p[k] := by
          rw [rdL_eq_ok, List.append_assoc, List.getElem?_append_right (by simp)]
          simp [Nat.min_eq_left (show k ≤ p.length by omega), show k < p.length by omega]
        rw [h1, res_at_ok, ok_bind, h _ (List.getElem_mem _), res_at_ok, ok_bind,
          wrL_ok (by simp; omega), res_at_ok]
        congr 1
        have : k = ((p.take k).map g).length := by simp; omega
        rw [List.append_assoc, List.set_append_right _ _ (by omega)]
        have h0 : k - ((p.take k).map g).length = 0 := by omega
        rw [h0, List.take_succ_eq_append_getElem (show k < p.length by omega), List.map_append,
          List.drop_eq_getElem_cons (show k < p.length by omega), List.cons_append,
          List.set_cons_zero]
        simp only [List.map_cons, List.map_nil, List.append_assoc, List.cons_append, List.nil_append]
    have hl : (p ++ x :: q).length = p.length + (q.length + 1) := by simp
    rw [hl]
    have split : ∀ (body : Nat → List α → Except (Fault × List α) (List α)) s,
        forUp 0 (p.length + (q.length + 1)) body s =
          forUp 0 p.length body s >>= forUp p.length (p.length + (q.length + 1)) body := by
      intro body s
      unfold forUp
      rw [Nat.sub_zero, Nat.sub_zero, Nat.add_sub_cancel_left, ← List.range'_append_1,
        List.foldlM_append, Nat.zero_add]
    rw [split, key _ le_rfl, ok_bind, forUp_step (by omega)]
    have h1 : rdL ((p.take p.length).map g ++ p.drop p.length ++ x :: q) p.length = .ok x := by
      rw [rdL_eq_ok]; simp
    rw [h1, res_at_ok, ok_bind, hx]
    simp

/-- Concrete case: `[1, 2, 3] - [1, 1, 1]`, the argument being a foreign implementation. -/
example : Vec.subtract [(1 : ℚ), 2, 3] (.ext [1, 1, 1]) = .ok [0, 1, 2] :=
  ((C21_binary _ _).1 rfl).2.1.trans (by decide +kernel)

/-- Concrete case of a panicking function: the first entry is already negated. -/
example : Vec.map [(1 : ℚ), 2, 3] (fun x => if x = 2 then .error .user else .ok (-x)) =
    .error (.user, [-1, 2, 3]) :=
  (C21_mapFun _ _).2 (fun x => -x) [1] 2 [3] .user rfl (by decide +kernel) (by decide +kernel)

/-! ## C57 Entries -/

/-- C57: `At` answers the entry or refuses the index; `SetEntry` and `AddToEntry` change exactly the
entry at the index, with one machine operation, or refuse the index and change nothing. -/
theorem C57_entry (d : List α) (i : Int) (v : α) :
    (0 ≤ i ∧ i < d.length → ∃ x, d[i.toNat]? = some x ∧ Vec.at d i = .ok x ∧
      Vec.setEntry d i v = .ok (d.set i.toNat v) ∧
      Vec.addToEntry d i v = .ok (d.set i.toNat (Flt.add x v))) ∧
    (¬ (0 ≤ i ∧ i < d.length) → Vec.at d i = .error (.pan .range) ∧
      Vec.setEntry d i v = .error (.pan .range, d) ∧
      Vec.addToEntry d i v = .error (.pan .range, d)) := by
  constructor
  · intro h
    refine ⟨nth d i.toNat, (isList_nth d).2 _ (by omega), ?_, ?_, ?_⟩
    · unfold Vec.at
      rw [checkIndex_ok h, must_ok, ok_bind, rdL_nth (by omega)]
    · unfold Vec.setEntry
      rw [checkIndex_ok h, must_ok, res_at_ok, ok_bind, wrL_ok (by omega), res_at_ok]
    · unfold Vec.addToEntry
      rw [checkIndex_ok h, must_ok, res_at_ok, ok_bind, rdL_nth (by omega), res_at_ok, ok_bind,
        wrL_ok (by omega), res_at_ok]
  · intro h
    unfold Vec.at Vec.setEntry Vec.addToEntry
    rw [checkIndex_err h]
    exact ⟨rfl, rfl, rfl⟩

/-- C57: `CopyFrom`, `Set` and `Combine` replace every entry; different lengths are refused. -/
theorem C57_whole (d : List α) (v : RVec α) (a b x : α) :
    Vec.set d x = .ok (List.replicate d.length x) ∧
    (d.length = v.dim → Vec.copyFrom d v = .ok v.list ∧
      Vec.combine d a b v =
        .ok (List.zipWith (fun x y => Flt.add (Flt.mul a x) (Flt.mul b y)) d v.list)) ∧
    (d.length ≠ v.dim → Vec.copyFrom d v = .error (.pan .dim, d) ∧
      Vec.combine d a b v = .error (.pan .dim, d)) := by
  refine ⟨?_, fun h => ⟨?_, ?_⟩, fun h => ?_⟩
  · unfold Vec.set
    rw [mapLoop (fun _ => x) fun i e hi hl _ => by rw [wrL_ok (by omega), res_at_ok]]
    congr 1
    simp
  · unfold Vec.copyFrom
    rw [h, checkDims_ok, must_ok, res_at_ok, ok_bind]
    obtain ⟨d', e, h'⟩ := wrLoop (body := fun i (d : List α) => do
      (wrL d i (← (v.at i).at d)).at d) (g := nth v.list) (Nat.zero_le v.dim)
      (h ▸ isList_nth d) (fun i e f _ hi he _ => by
        rw [v.at_nth hi, res_at_ok, ok_bind, wrL_ok (by rw [he.1]; exact hi), res_at_ok])
    rw [e]
    congr 1
    refine h'.eq ⟨v.dim_list, fun i hi => ?_⟩
    dsimp only
    rw [if_pos ⟨Nat.zero_le _, hi⟩, (isList_nth v.list).2 i (by rw [v.dim_list]; exact hi)]
  · unfold Vec.combine
    rw [h, checkDims_ok, must_ok, res_at_ok, ok_bind]
    obtain ⟨d', e, h'⟩ := wrLoop (body := fun i (d : List α) => do
        let x ← (rdL d i).at d
        let z ← (v.at i).at d
        (wrL d i (Flt.add (Flt.mul a x) (Flt.mul b z))).at d)
      (g := fun i => Flt.add (Flt.mul a (nth d i)) (Flt.mul b (nth v.list i))) (Nat.zero_le v.dim)
      (h ▸ isList_nth d) (fun i e f _ hi he hf => by
        rw [he.rdL hi, res_at_ok, ok_bind, v.at_nth hi, res_at_ok, ok_bind,
          wrL_ok (by rw [he.1]; exact hi), res_at_ok, hf i le_rfl])
    rw [e]
    congr 1
    have hl : d.length = v.list.length := by rw [v.dim_list, h]
    refine h'.eq ⟨by simp [hl, v.dim_list], fun i hi => ?_⟩
    dsimp only
    rw [if_pos ⟨Nat.zero_le _, hi⟩, ← nth_zipWith (fun x y => Flt.add (Flt.mul a x) (Flt.mul b y)) hl
      (by omega)]
    exact (isList_nth _).2 i (by simp; rw [v.dim_list]; omega)
  · unfold Vec.copyFrom Vec.combine
    rw [checkDims_err h]
    exact ⟨rfl, rfl⟩

/-- C57, construction: sized vectors are zero, preset vectors are constant, copies have the entries
of the original; nil and negative sizes are refused. -/
theorem C57_construct (n : Nat) (x : α) (v : RVec α) (d : List α) (b : Bool) (k : Int) (hk : k < 0) :
    Vec.newSized (n : Int) = .ok (List.replicate n (Flt.zero : α)) ∧
    Vec.newPreset (n : Int) x = .ok (List.replicate n x) ∧
    Vec.newCopy (some v) = .ok v.list ∧ Vec.fromSlice (some d) b = .ok d ∧
    Vec.newCopy (none : Option (RVec α)) = .error (.err .inv) ∧
    Vec.fromSlice (none : Option (List α)) b = .error (.err .inv) ∧
    (Vec.newSized k : Res (List α)) = .error .rt ∧ Vec.newPreset k x = .error .rt := by
  refine ⟨mkL_ok n, ?_, ?_, rfl, rfl, rfl, ?_, ?_⟩
  · unfold Vec.newPreset
    rw [mkL_ok, ok_bind, Int.toNat_natCast]
    exact fillLoop (by simp) _ fun i e hi he => by
      rw [wrL_ok (by omega)]
      simp [nth, hi]
  · unfold Vec.newCopy
    dsimp only
    rw [mkL_ok, ok_bind]
    exact fillLoop v.dim_list _ fun i e hi he => by
      rw [v.at_nth hi, ok_bind, wrL_ok (by omega)]
  · unfold Vec.newSized mkL
    rw [if_pos hk]
  · unfold Vec.newPreset mkL
    rw [if_pos hk]; rfl

/-- Concrete case: combining `[1, 2]` with a foreign `[3, 4]`. -/
example : Vec.combine [(1 : ℚ), 2] 2 3 (.ext [3, 4]) = .ok [11, 16] :=
  ((C57_whole _ _ _ _ 0).2.1 rfl).2.trans (by decide +kernel)

/-! ## C22 Append and slice laws, C46 concatenation constructor -/

theorem fromTwoArr_ok (u v : List α) : Vec.fromTwoArr (some u) (some v) = .ok (u ++ v) := by
  unfold Vec.fromTwoArr
  dsimp only
  have : ((u.length : Int) + v.length) = ((u.length + v.length : Nat) : Int) := by simp
  rw [this, mkL_ok, ok_bind, copyL_ok (by simp), ok_bind, copyL_ok (by simp)]
  congr 1
  simp

/-- C22, `AppendVector` of an `ArrayRealVector` and `Append` concatenate. -/
theorem C22_append (u v : List α) (x : α) :
    Vec.appendVector u (.arr v) = .ok (u ++ v) ∧ Vec.append u x = .ok (u ++ [x]) := by
  constructor
  · unfold Vec.appendVector
    dsimp only
    rw [fromTwoArr_ok]
    rfl
  · unfold Vec.append
    have : ((u.length : Int) + 1) = ((u.length + 1 : Nat) : Int) := by simp
    rw [this, mkL_ok, ok_bind, copyL_ok (by simp), ok_bind, wrL_ok (by simp), ok_bind]
    show (Except.ok _ : Res (List α)) = _
    congr 1
    simp

/-- C22, `SubVector`: exactly which windows are accepted, and what they give. -/
theorem C22_subVector (d : List α) (index n : Int) :
    (0 ≤ n ∧ (0 ≤ index ∧ index < d.length) ∧ (0 ≤ index + n - 1 ∧ index + n - 1 < d.length) →
      Vec.subVector d index n = .ok ((d.drop index.toNat).take n.toNat)) ∧
    (n < 0 → Vec.subVector d index n = .error (.pan .notPos)) ∧
    (0 ≤ n → ¬ ((0 ≤ index ∧ index < d.length) ∧ (0 ≤ index + n - 1 ∧ index + n - 1 < d.length)) →
      Vec.subVector d index n = .error (.pan .range)) := by
  refine ⟨fun ⟨hn, h1, h2⟩ => ?_, fun hn => ?_, fun hn h => ?_⟩
  · obtain ⟨n, rfl⟩ := Int.eq_ofNat_of_zero_le hn
    obtain ⟨index, rfl⟩ := Int.eq_ofNat_of_zero_le h1.1
    unfold Vec.subVector
    rw [if_neg (by omega)]
    show ((Vec.newSized (n : Int)).must >>= _) = _
    rw [Vec.newSized, mkL_ok, must_ok, ok_bind, checkIndex_ok h1, must_ok, ok_bind,
      checkIndex_ok h2, must_ok, ok_bind]
    have hl : ((d.drop (index : Int).toNat).take (n : Int).toNat).length = n := by
      simp only [Int.toNat_natCast, List.length_take, List.length_drop]
      omega
    rw [copyL_ok (by rw [hl]; simp)]
    congr 1
    rw [hl]
    simp
  · unfold Vec.subVector
    rw [if_pos hn]; rfl
  · obtain ⟨n, rfl⟩ := Int.eq_ofNat_of_zero_le hn
    unfold Vec.subVector
    rw [if_neg (by omega)]
    show ((Vec.newSized (n : Int)).must >>= _) = _
    rw [Vec.newSized, mkL_ok, must_ok, ok_bind]
    by_cases h1 : 0 ≤ index ∧ index < d.length
    · rw [checkIndex_ok h1, must_ok, ok_bind, checkIndex_err (by tauto)]; rfl
    · rw [checkIndex_err h1]; rfl

/-- C22, partial: slicing a concatenation gives back the second part when that is not empty.
Missing: an empty second part, for which `C22_false` shows a panic. -/
theorem C22_roundtrip_partial (u v : List α) (hv : v ≠ []) :
    Vec.appendVector u (.arr v) = .ok (u ++ v) ∧
    Vec.subVector (u ++ v) u.length v.length = .ok v := by
  have hl : 0 < v.length := List.length_pos_iff.2 hv
  refine ⟨(C22_append u v Flt.zero).1, ?_⟩
  rw [(C22_subVector _ _ _).1 ⟨by omega, by simp; omega, by simp; omega⟩]
  simp

/-- C22, refuted for empty slices: the empty tail of a concatenation is refused. -/
theorem C22_false (u : List α) :
    Vec.appendVector u (.arr []) = .ok u ∧
    Vec.subVector u u.length ([] : List α).length = .error (.pan .range) := by
  refine ⟨by simpa using (C22_append u [] Flt.zero).1, ?_⟩
  exact (C22_subVector _ _ _).2.2 (by simp) (by simp)

/-- C22, `SetSubVector` and `SetSubVectorWithSlice` (storage not shared): exactly the window is
written, or the call is refused and nothing is written. -/
theorem C22_setSubVector (d : List α) (index : Int) (v : RVec α) :
    ((0 ≤ index ∧ index < d.length) ∧ (0 ≤ index + v.dim - 1 ∧ index + v.dim - 1 < d.length) →
      Vec.setSubVector d index v =
        .ok (d.take index.toNat ++ v.list ++ d.drop (index.toNat + v.dim)) ∧
      Vec.setSubVectorWithSlice d index v.list =
        .ok (d.take index.toNat ++ v.list ++ d.drop (index.toNat + v.dim))) ∧
    (¬ ((0 ≤ index ∧ index < d.length) ∧ (0 ≤ index + v.dim - 1 ∧ index + v.dim - 1 < d.length)) →
      Vec.setSubVector d index v = .error (.pan .range, d) ∧
      Vec.setSubVectorWithSlice d index v.list = .error (.pan .range, d)) := by
  have hdl := v.dim_list
  constructor
  · rintro ⟨h1, h2⟩
    have hs : Vec.setSubVectorWithSlice d index v.list =
        .ok (d.take index.toNat ++ v.list ++ d.drop (index.toNat + v.dim)) := by
      unfold Vec.setSubVectorWithSlice
      rw [checkIndex_ok h1, must_ok, res_at_ok, ok_bind, hdl, checkIndex_ok h2, must_ok, res_at_ok,
        ok_bind, copyL_ok (by omega), res_at_ok, hdl]
    refine ⟨?_, hs⟩
    obtain ⟨index, rfl⟩ := Int.eq_ofNat_of_zero_le h1.1
    have key : ∀ e : List α, e.length = d.length → e.take index = d.take index →
        e.drop (index + v.dim) = d.drop (index + v.dim) →
        forUp (index : Int).toNat ((index : Int).toNat + v.dim) (fun i d => do
          let x ← (v.at (i - (index : Int))).at d
          (wrL d i x).at d) e =
        .ok (d.take (index : Int).toNat ++ v.list ++ d.drop ((index : Int).toNat + v.dim)) := by
      intro e hl ht hd
      simp only [Int.toNat_natCast]
      obtain ⟨d', e', h'⟩ := wrLoop (body := fun i (d : List α) => do
          let x ← (v.at (i - (index : Int))).at d
          (wrL d i x).at d) (g := fun i => nth v.list (i - index)) (a := index)
          (b := index + v.dim) (Nat.le_add_right _ _) (isList_nth e) (fun i x f h3 h4 hx _ => by
            have : ((i : Int) - index) = ((i - index : Nat) : Int) := by omega
            rw [this, v.at_nth (by omega), res_at_ok, ok_bind, wrL_ok (by rw [hx.1]; omega),
              res_at_ok])
      rw [e']
      congr 1
      refine h'.eq ⟨?_, fun i hi => ?_⟩
      · simp; omega
      · dsimp only
        by_cases hi1 : i < index
        · rw [if_neg (by omega), List.append_assoc, List.getElem?_append_left (by simp; omega),
            ← ht, List.getElem?_take_of_lt hi1, (isList_nth e).2 i hi]
        · by_cases hi2 : i < index + v.dim
          · rw [if_pos (by omega), List.append_assoc, List.getElem?_append_right (by simp; omega),
              List.getElem?_append_left (by simp; omega)]
            have : i - (List.take index d).length = i - index := by simp; omega
            rw [this]
            exact (isList_nth _).2 _ (by omega)
          · rw [if_neg (by omega), List.getElem?_append_right (by simp; omega)]
            have : i - (List.take index d ++ v.list).length = i - (index + v.dim) := by simp; omega
            rw [this, ← hd, List.getElem?_drop]
            have : index + v.dim + (i - (index + v.dim)) = i := by omega
            rw [this]
            exact (isList_nth e).2 i hi
    unfold Vec.setSubVector
    rw [checkIndex_ok h1, must_ok, res_at_ok, ok_bind, checkIndex_ok h2, must_ok, res_at_ok,
      ok_bind]
    cases v with
    | arr b =>
      dsimp only
      have hs' : Vec.setSubVectorWithSlice d (index : Int) b = .ok (d.take (index : Int).toNat ++ b ++
        d.drop ((index : Int).toNat + b.length)) := hs
      rw [hs', ok_bind]
      refine key _ ?_ ?_ ?_
      · simp [RVec.dim] at h2 ⊢; omega
      · simp only [Int.toNat_natCast]
        rw [List.append_assoc, List.take_append_of_le_length (by simp; omega), List.take_take]
        simp
      · simp only [Int.toNat_natCast]
        show List.drop (index + b.length) _ = _
        rw [List.drop_append_of_le_length (by simp; omega)]
        have : List.drop (index + b.length) (List.take index d ++ b) = [] :=
          List.drop_of_length_le (by simp)
        rw [this]; rfl
    | ext b => exact key d rfl rfl rfl
  · intro h
    unfold Vec.setSubVector Vec.setSubVectorWithSlice
    by_cases h1 : 0 ≤ index ∧ index < d.length
    · rw [checkIndex_ok h1, must_ok, res_at_ok, ok_bind, ok_bind, hdl, checkIndex_err (by tauto)]
      exact ⟨rfl, rfl⟩
    · rw [checkIndex_err h1]; exact ⟨rfl, rfl⟩

/-- Concrete case: writing `[8, 9]` at index 1 of `[1, 2, 3, 4]`. -/
example : Vec.setSubVector [(1 : ℚ), 2, 3, 4] 1 (.arr [8, 9]) = .ok [1, 8, 9, 4] :=
  ((C22_setSubVector _ _ _).1 (by decide)).1.trans (by decide +kernel)

/-- C46, partial: exactly what the two-vector constructor returns. Missing: the concatenation, which
is only what it returns when the first vector is empty or the second is; see `C46_false`. -/
theorem C46_partial (u v : RVec α) :
    Vec.fromTwo (some u) (some v) =
      .ok (u.list ++ v.list.drop u.dim ++ List.replicate (min u.dim v.dim) Flt.zero) := by
  unfold Vec.fromTwo
  dsimp only
  have : ((u.dim : Int) + v.dim) = ((u.dim + v.dim : Nat) : Int) := by simp
  rw [this, mkL_ok, ok_bind]
  obtain ⟨d1, e1, h1⟩ := wrLoop (body := fun i (d : List α) => do wrL d i (← u.at i))
    (g := nth u.list) (Nat.zero_le u.dim) (isList_replicate (u.dim + v.dim) (Flt.zero : α))
    (fun i e f _ hi he _ => by rw [u.at_nth hi, ok_bind, wrL_ok (by rw [he.1]; omega)])
  rw [e1, ok_bind]
  have hu := u.dim_list
  have hv := v.dim_list
  by_cases hl : u.dim ≤ v.dim
  · obtain ⟨d2, e2, h2⟩ := wrLoop (body := fun i (d : List α) => do wrL d i (← v.at i))
      (g := nth v.list) hl h1
      (fun i e f _ hi he _ => by rw [v.at_nth hi, ok_bind, wrL_ok (by rw [he.1]; omega)])
    rw [e2]
    congr 1
    refine h2.eq ⟨by simp; omega, fun i hi => ?_⟩
    dsimp only
    by_cases hi1 : i < u.dim
    · rw [if_neg (by omega), if_pos (by omega), List.append_assoc,
        List.getElem?_append_left (by omega)]
      exact (isList_nth _).2 i (by omega)
    · by_cases hi2 : i < v.dim
      · rw [if_pos (by omega), List.append_assoc, List.getElem?_append_right (by omega),
          List.getElem?_append_left (by simp; omega), List.getElem?_drop, hu,
          show u.dim + (i - u.dim) = i by omega]
        exact (isList_nth _).2 i (by omega)
      · rw [if_neg (by omega), if_neg (by omega), List.getElem?_append_right (by simp; omega),
          List.getElem?_replicate, if_pos]
        simp; omega
  · rw [forUp_eq_self (by omega)]
    congr 1
    refine h1.eq ⟨by simp; omega, fun i hi => ?_⟩
    dsimp only
    have hd : v.list.drop u.dim = [] := List.drop_of_length_le (by omega)
    rw [hd, List.append_nil]
    by_cases hi1 : i < u.dim
    · rw [if_pos (by omega), List.getElem?_append_left (by omega)]
      exact (isList_nth _).2 i (by omega)
    · rw [if_neg (by omega), List.getElem?_append_right (by omega), List.getElem?_replicate,
        if_pos (by omega)]

/-- C46, refuted: `[1, 2]` and `[3, 4]` give `[1, 2, 0, 0]`; so does `AppendVector` with a foreign
argument. -/
theorem C46_false :
    (¬ ∀ u v : RVec ℚ, Vec.fromTwo (some u) (some v) = .ok (u.list ++ v.list)) ∧
    Vec.appendVector [(1 : ℚ), 2] (.ext [3, 4]) = .ok [1, 2, 0, 0] := by
  constructor
  · intro h
    have h1 := h (.arr [1, 2]) (.arr [3, 4])
    rw [C46_partial] at h1
    exact absurd h1 (by decide +kernel)
  · unfold Vec.appendVector
    dsimp only
    rw [C46_partial]
    decide +kernel

/-- C46: nil arguments are refused. -/
theorem C46_nil (v : Option (RVec α)) : Vec.fromTwo none v = .error (.err .inv) ∧
    Vec.fromTwo v none = .error (.err .inv) := by
  constructor
  · rfl
  · cases v <;> rfl

end Linear
