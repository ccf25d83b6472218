import Verif.Props.RoundSymm

/-!
# C129: which vectors and matrices have norm zero in rounded arithmetic
-/

set_option linter.unusedSectionVars false

namespace Linear

open Spec Rnd Matrix
open Finset hiding val diag

section

variable {α : Type} [Flt α] [Rnd α]

/-- A maximum of numbers that are not negative is zero only if all of them are. -/
theorem max_zero' : ∀ (l : List α) (s : α), (∀ x ∈ l, fin x ∧ 0 ≤ val x) → fin s → 0 ≤ val s →
    fin (l.foldl Flt.fmax s) ∧ (val (l.foldl Flt.fmax s) = 0 ↔ val s = 0 ∧ ∀ x ∈ l, val x = 0) := by
  intro l
  induction l with
  | nil => exact fun s _ fs _ => ⟨fs, by simp⟩
  | cons a l ih =>
    intro s hl fs h0
    rw [List.foldl_cons]
    obtain ⟨fa, a0⟩ := hl a (by simp)
    obtain ⟨f1, v1⟩ := max_fin fs fa
    obtain ⟨f2, z⟩ := ih (Flt.fmax s a) (fun x hx => hl x (by simp [hx])) f1 (by rw [v1]; exact a0.trans (le_max_right _ _))
    refine ⟨f2, z.trans ?_⟩
    rw [v1]
    refine ⟨fun ⟨c, d⟩ => ?_, fun ⟨c, d⟩ => ⟨by rw [c, d a (by simp), max_self], fun x hx => d x (by simp [hx])⟩⟩
    have c1 := le_max_left (val s) (val a)
    have c2 := le_max_right (val s) (val a)
    refine ⟨by linarith, fun x hx => ?_⟩
    rcases List.mem_cons.1 hx with rfl | hx
    · linarith
    · exact d x hx

/-- **C129, vectors**: a finite L1 norm is zero exactly for zero vectors; so is the LInf norm of finite entries. -/
theorem C129_vector (v : RVec α) :
    (∃ d, vecL1Norm v = .ok d ∧ (fin d → (val d = 0 ↔ ∀ x ∈ v.list, val x = 0))) ∧
    ∃ d, vecLInfNorm v = .ok d ∧ ((∀ x ∈ v.list, fin x) → fin d ∧ (val d = 0 ↔ ∀ x ∈ v.list, val x = 0)) := by
  obtain ⟨-, e2, e3, -⟩ := C24_machine v v
  have key : (∀ x ∈ v.list, fin x) → ((∀ x ∈ v.list.map Flt.abs, val x = 0) ↔ ∀ x ∈ v.list, val x = 0) := by
    intro hf
    rw [List.forall_mem_map]
    refine forall₂_congr fun x hx => ?_
    rw [val_abs (hf x hx), abs_eq_zero]
  refine ⟨⟨_, e2, fun fd => ?_⟩, _, e3, fun hf => ?_⟩
  · obtain ⟨-, f2, -, z⟩ := total_zero _ _ fd (fun x hx fx => by
      obtain ⟨p, hp, rfl⟩ := List.mem_map.1 hx
      rw [val_abs (abs_fin.1 fx)]
      exact abs_nonneg _) fun _ => val_zero.ge
    unfold total
    rw [z, and_iff_right val_zero]
    exact key fun p hp => abs_fin.1 (f2 _ (List.mem_map_of_mem hp))
  · obtain ⟨f, z⟩ := max_zero' (v.list.map Flt.abs) Flt.zero (fun x hx => by
      obtain ⟨p, hp, rfl⟩ := List.mem_map.1 hx
      rw [val_abs (hf p hp)]
      exact ⟨abs_fin.2 (hf p hp), abs_nonneg _⟩) zero_fin val_zero.ge
    rw [z, and_iff_right val_zero]
    exact ⟨f, key hf⟩

/-- What `MatFrobeniusNorm` computes in every arithmetic: the root of the sum of the squares, in the order of the storage. -/
theorem C129_terms {r c : Nat} {m : Mat α r c} (hm : m.own) (hr : 0 < r) {A : Nat → Nat → α} (hA : Shows m.at r c A) :
    ∃ l : List α, m.frobeniusNorm = .ok (Flt.sqrt (Spec.total (l.map fun x => Flt.mul x x))) ∧
      ∀ x, x ∈ l ↔ ∃ i j, i < r ∧ j < c ∧ A i j = x := by
  obtain ⟨cells, hc, h⟩ := C16_walk hm hr hA .opt
  have hfold : ∀ (l : List (Nat × Nat)) (s : α), l.foldlM (fun t p => (frobVis : VisP α α).visit p.1 p.2 (A p.1 p.2) t) s =
      .ok ((l.map fun p => Flt.mul (A p.1 p.2) (A p.1 p.2)).foldl Flt.add s) := by
    intro l
    induction l with
    | nil => intro s; rfl
    | cons p l ih =>
      intro s
      rw [List.foldlM_cons]
      show ((.ok _ : Res α) >>= _) = _
      rw [ok_bind, ih]
      rfl
  refine ⟨cells.map fun p => A p.1 p.2, ?_, fun x => ?_⟩
  · unfold Mat.frobeniusNorm
    rw [Mat.walkOpt_walkIn, h, List.map_map]
    unfold Spec.walk
    show (((.ok _ : Res α) >>= _) >>= _) = _
    rw [ok_bind, hfold, ok_bind]
    rfl
  · rw [List.mem_map]
    constructor
    · rintro ⟨p, hp, rfl⟩
      have := (hc.2.2.2 p.1 p.2).1 hp
      exact ⟨p.1, p.2, by omega, by omega, rfl⟩
    · rintro ⟨i, j, hi, hj, rfl⟩
      exact ⟨(i, j), (hc.2.2.2 i j).2 (by omega), rfl⟩

/-- **C129, matrices**: the LInf norm is zero exactly for zero matrices, when the sums of the columns of magnitudes
are finite. -/
theorem C129_matrix {r c : Nat} {m : Mat α r c} (hm : m.own) (hr : 0 < r) {A : Nat → Nat → α} (hA : Shows m.at r c A)
    (hf : ∀ j, j < c → fin (Spec.total ((List.range r).map fun i => Flt.abs (A i j)))) :
    ∃ d, m.lInfNorm = .ok d ∧ fin d ∧ (val d = 0 ↔ ∀ i j, i < r → j < c → val (A i j) = 0) := by
  have sum : ∀ j, lsum 0 r (fun i => Flt.abs (A i j)) Flt.zero = Spec.total ((List.range r).map fun i => Flt.abs (A i j)) := by
    intro j
    unfold lsum Spec.total
    rw [List.foldl_map, Nat.sub_zero, List.range_eq_range']
  have col : ∀ j, j < c → 0 ≤ val (Spec.total ((List.range r).map fun i => Flt.abs (A i j))) ∧
      (val (Spec.total ((List.range r).map fun i => Flt.abs (A i j))) = 0 ↔ ∀ i, i < r → val (A i j) = 0) := by
    intro j hj
    obtain ⟨-, f2, n, z⟩ := total_zero _ _ (hf j hj) (fun x hx fx => by
      obtain ⟨i, -, rfl⟩ := List.mem_map.1 hx
      rw [val_abs (abs_fin.1 fx)]
      exact abs_nonneg _) fun _ => val_zero.ge
    refine ⟨n, z.trans ?_⟩
    rw [and_iff_right val_zero, List.forall_mem_map]
    refine forall_congr' fun i => ?_
    rw [List.mem_range]
    refine forall_congr' fun hi => ?_
    rw [val_abs (abs_fin.1 (f2 _ (List.mem_map_of_mem (List.mem_range.2 hi)))), abs_eq_zero]
  refine ⟨_, Mat.lInfNorm_eq hm hr hA, ?_⟩
  simp only [sum]
  rw [← List.foldl_map (f := fun j => Spec.total ((List.range r).map fun i => Flt.abs (A i j))) (g := Flt.fmax)]
  obtain ⟨f, z⟩ := max_zero' ((List.range c).map fun j => Spec.total ((List.range r).map fun i => Flt.abs (A i j))) Flt.zero (fun x hx => by
    obtain ⟨j, hj, rfl⟩ := List.mem_map.1 hx
    exact ⟨hf j (List.mem_range.1 hj), (col j (List.mem_range.1 hj)).1⟩) zero_fin val_zero.ge
  refine ⟨f, z.trans ?_⟩
  rw [and_iff_right val_zero, List.forall_mem_map]
  constructor
  · exact fun h i j hi hj => (col j hj).2.1 (h j (List.mem_range.2 hj)) i hi
  · exact fun h j hj => (col j (List.mem_range.1 hj)).2.2 fun i hi => h i j hi (List.mem_range.1 hj)

/-- The root of a sum of squares: zero for zeros, and when it is zero the squares are below the smallest positive number. -/
theorem root_zero (l : List α) : fin (Flt.sqrt (Spec.total (l.map fun x => Flt.mul x x))) →
    ((∀ x ∈ l, val x = 0) → val (Flt.sqrt (Spec.total (l.map fun x => Flt.mul x x))) = 0) ∧
    (val (Flt.sqrt (Spec.total (l.map fun x => Flt.mul x x))) = 0 → ∀ x ∈ l, val x ^ 2 ≤ η α) := by
  intro fd
  obtain ⟨fs, -⟩ := sqrt_fin fd
  obtain ⟨-, f2, n, z⟩ := total_zero _ _ fs (fun x hx fx => by
    obtain ⟨p, hp, rfl⟩ := List.mem_map.1 hx
    exact mul_nn fx (mul_self_nonneg _)) fun _ => val_zero.ge
  obtain ⟨q1, q2⟩ := sqrt_err fd
  have u0 := u_nonneg (α := α)
  unfold Spec.total at *
  generalize (l.map fun x => Flt.mul x x).foldl Flt.add Flt.zero = s at *
  refine ⟨fun hp => ?_, fun d0 p hp => ?_⟩
  · have : val s = 0 := z.2 ⟨val_zero, fun x hx => by
      have fx := f2 x hx
      obtain ⟨p, hp', rfl⟩ := List.mem_map.1 hx
      exact mul_of_zero fx (hp p hp')⟩
    rw [this, Real.sqrt_zero, mul_zero, sub_zero] at q1
    exact abs_nonpos_iff.1 q1
  · rw [d0, abs_zero, mul_zero, zero_sub, abs_neg] at q2
    have s0 : val s = 0 := (Real.sqrt_eq_zero n).1 (abs_nonpos_iff.1 q2)
    have fx := f2 _ (List.mem_map_of_mem (f := fun p : α => Flt.mul p p) hp)
    have x0 := (z.1 s0).2 _ (List.mem_map_of_mem (f := fun p : α => Flt.mul p p) hp)
    have m := (mul_err fx).2
    rw [x0, abs_zero, mul_zero, zero_sub, abs_neg, abs_mul_self, _root_.zero_add] at m
    rw [pow_two]
    exact m

/-- **C129, the part that holds for the L2 and the Frobenius norm**: finite norms of zero vectors and matrices are zero; when the norm is zero, all
squares are below the smallest positive number.  Missing: that all entries are then zero; this is false (`C129_refuted`). -/
theorem C129_partial {r c : Nat} {m : Mat α r c} (hm : m.own) (hr : 0 < r) {A : Nat → Nat → α} (hA : Shows m.at r c A) (v : RVec α) :
    (∃ d, m.frobeniusNorm = .ok d ∧ (fin d → ((∀ i j, i < r → j < c → val (A i j) = 0) → val d = 0) ∧
      (val d = 0 → ∀ i j, i < r → j < c → val (A i j) ^ 2 ≤ η α))) ∧
    ∃ d, vecNorm v = .ok d ∧ (fin d → ((∀ x ∈ v.list, val x = 0) → val d = 0) ∧ (val d = 0 → ∀ x ∈ v.list, val x ^ 2 ≤ η α)) := by
  obtain ⟨l, e, hl⟩ := C129_terms hm hr hA
  refine ⟨⟨_, e, fun fd => ?_⟩, _, (C24_machine v v).1, root_zero v.list⟩
  obtain ⟨h1, h2⟩ := root_zero l fd
  refine ⟨fun h => h1 fun x hx => ?_, fun h i j hi hj => h2 h _ ((hl _).2 ⟨i, j, hi, hj, rfl⟩)⟩
  obtain ⟨i, j, hi, hj, rfl⟩ := (hl x).1 hx
  exact h i j hi hj

end

/-- **C129, the Frobenius norm at the ends of the range**: it is zero when the entries are at most `2⁻⁵⁴⁰` in magnitude, and infinite when one
of the finite entries is at least `2⁵¹³` in magnitude, every storage and dimension. -/
theorem C129_frobenius {r c : Nat} {m : Mat B64 r c} (hm : m.own) (hr : 0 < r) {A : Nat → Nat → B64} (hA : Shows m.at r c A)
    (hf : ∀ i j, i < r → j < c → fin (A i j)) :
    ((∀ i j, i < r → j < c → |val (A i j)| ≤ (1 / 2) ^ 540) → ∃ d, m.frobeniusNorm = .ok d ∧ B64.Is d 0) ∧
    ((∃ i j, i < r ∧ j < c ∧ 2 ^ 513 ≤ |val (A i j)|) → m.frobeniusNorm = .ok (B64.inf false)) := by
  obtain ⟨l, e, hl⟩ := C129_terms hm hr hA
  have fl : ∀ x ∈ l, fin x := by
    intro x hx
    obtain ⟨i, j, hi, hj, rfl⟩ := (hl x).1 hx
    exact hf i j hi hj
  constructor
  · intro hs
    obtain ⟨f1, v1⟩ := total_tiny l Flt.zero zero_fin val_zero fl fun x hx => by
      obtain ⟨i, j, hi, hj, rfl⟩ := (hl x).1 hx
      exact hs i j hi hj
    have f2 := sqrt_ok f1 v1.ge
    have v2 := (sqrt_err f2).1
    rw [v1, Real.sqrt_zero, mul_zero, sub_zero] at v2
    exact ⟨_, e, f2, abs_nonpos_iff.1 v2⟩
  · rintro ⟨i, j, hi, hj, h⟩
    rw [e, total_large l fl ((hl _).2 ⟨i, j, hi, hj, rfl⟩) h]
    rfl

/-- **C129.**  The matrices with the one entry 2⁻⁶⁰⁰ and 2⁶⁰⁰ have the Frobenius norms 0 and infinity, and the LInf norm of the first is 2⁻⁶⁰⁰. -/
theorem C129_refuted : ∃ (a b : Mat B64 1 1) (x y d e : B64), a.at 0 0 = .ok x ∧ B64.Is x (2 ^ (-600 : ℤ)) ∧
    b.at 0 0 = .ok y ∧ B64.Is y (2 ^ (600 : ℤ)) ∧ a.frobeniusNorm = .ok d ∧ B64.Is d 0 ∧ b.frobeniusNorm = .ok (B64.inf false) ∧
    a.lInfNorm = .ok e ∧ B64.Is e (2 ^ (-600 : ℤ)) := by
  have hx := B64.Is.two (-600) (by norm_num) (by norm_num)
  have nx := B64.Num.zpow (-600) (by norm_num) (by norm_num)
  have hy := B64.Is.two 600 (by norm_num) (by norm_num)
  generalize B64.two (-600) (by norm_num) (by norm_num) = x at hx
  generalize B64.two 600 (by norm_num) (by norm_num) = y at hy
  have sh : ∀ z : B64, Shows (Mat.arr (⟨⟨fun _ _ => z⟩, fun _ => 0⟩ : Arr B64 1 1)).at 1 1 fun _ _ => z :=
    fun z => Arr.at_shows (⟨⟨fun _ _ => z⟩, fun _ => 0⟩ : Arr B64 1 1)
  obtain ⟨d, e1, hd⟩ := (C129_frobenius (m := .arr (⟨⟨fun _ _ => x⟩, fun _ => 0⟩ : Arr B64 1 1)) trivial (by norm_num) (sh x) fun _ _ _ _ => hx.1).1
    fun _ _ _ _ => by
      rw [hx.2, abs_of_pos (zpow_pos (by norm_num) _), one_div, inv_pow, ← zpow_natCast, ← _root_.zpow_neg]
      exact zpow_le_zpow_right₀ (by norm_num) (by norm_num)
  have e2 := (C129_frobenius (m := .arr (⟨⟨fun _ _ => y⟩, fun _ => 0⟩ : Arr B64 1 1)) trivial (by norm_num) (sh y) fun _ _ _ _ => hy.1).2
    ⟨0, 0, by norm_num, by norm_num, by
      rw [hy.2, abs_of_pos (zpow_pos (by norm_num) _), ← zpow_natCast]
      exact zpow_le_zpow_right₀ (by norm_num) (by norm_num)⟩
  refine ⟨.arr ⟨⟨fun _ _ => x⟩, fun _ => 0⟩, .arr ⟨⟨fun _ _ => y⟩, fun _ => 0⟩, x, y, d, _, (sh x).ok (i := 0) (j := 0) (by norm_num) (by norm_num), hx, (sh y).ok (i := 0) (j := 0) (by norm_num) (by norm_num), hy,
    e1, hd, e2, Mat.lInfNorm_eq (m := .arr ⟨⟨fun _ _ => x⟩, fun _ => 0⟩) (Mat.own_arr _) (by norm_num) (sh x), ?_⟩
  have z := B64.Is.zero
  have a := z.add (hx.abs (abs_of_pos (zpow_pos (by norm_num) _))) (_root_.zero_add _) nx
  obtain ⟨f, v⟩ := max_fin z.1 a.1
  refine ⟨f, v.trans ?_⟩
  rw [a.2, z.2]
  exact max_eq_right (zpow_pos (by norm_num) _).le

/-- The hypotheses of `C129_matrix` are met by the matrix with the one entry 1, whose norm is not zero. -/
example : ∃ (a : Mat B64 1 1) (d : B64), a.at 0 0 = .ok Flt.one ∧ a.lInfNorm = .ok d ∧ fin d ∧ val d ≠ 0 := by
  have sh := Arr.at_shows (⟨⟨fun _ _ => Flt.one⟩, fun _ => 0⟩ : Arr B64 1 1)
  obtain ⟨d, e, f, z⟩ := C129_matrix (m := .arr (⟨⟨fun _ _ => Flt.one⟩, fun _ => 0⟩ : Arr B64 1 1)) trivial (by norm_num) sh fun _ _ => by
    exact (B64.Is.zero.add (B64.Is.one.abs (t := 1) (by norm_num)) (t := 1) (by norm_num) (B64.dyi 1 (by norm_num))).1
  refine ⟨.arr ⟨⟨fun _ _ => Flt.one⟩, fun _ => 0⟩, d, sh.ok (i := 0) (j := 0) (by norm_num) (by norm_num), e, f, fun h => ?_⟩
  have := z.1 h 0 0 (by norm_num) (by norm_num)
  rw [show val (Flt.one : B64) = 1 from B64.Is.one.2] at this
  norm_num at this

end Linear
