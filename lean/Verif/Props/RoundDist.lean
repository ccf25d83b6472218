import Verif.Props.RoundProj

/-!
# C127: distances in rounded arithmetic

Whether the three distances are symmetric, and zero for equal vectors only.
-/

set_option linter.unusedSectionVars false

namespace Linear

open Spec Rnd Matrix
open Finset hiding val diag

private theorem zipWith_zip {α β γ : Type} (f : α → β → γ) : ∀ (l : List α) (m : List β),
    List.zipWith f l m = (List.zip l m).map fun p => f p.1 p.2
  | [], _ => by simp
  | _ :: _, [] => by simp
  | a :: l, b :: m => by simp [zipWith_zip f l m]

/-- **C127, the operations**: the distances of vectors of one dimension in every arithmetic; other dimensions are refused. -/
theorem C127_terms {α : Type} [Flt α] (v w : RVec α) :
    (v.dim ≠ w.dim → vecDistance v w = .error (.pan .dim) ∧ vecL1Distance v w = .error (.pan .dim) ∧
      vecLInfDistance v w = .error (.pan .dim)) ∧
    (v.dim = w.dim →
      vecDistance v w = .ok (Flt.sqrt (((List.zip v.list w.list).map fun p => Flt.mul (Flt.sub p.1 p.2) (Flt.sub p.1 p.2)).foldl Flt.add Flt.zero)) ∧
      vecL1Distance v w = .ok (((List.zip v.list w.list).map fun p => Flt.abs (Flt.sub p.1 p.2)).foldl Flt.add Flt.zero) ∧
      vecLInfDistance v w = .ok (((List.zip v.list w.list).map fun p => Flt.abs (Flt.sub p.1 p.2)).foldl (fun s x => Flt.fmax x s) Flt.zero)) := by
  constructor
  · intro h
    unfold vecDistance vecL1Distance vecLInfDistance
    rw [checkDims_err h]
    exact ⟨rfl, rfl, rfl⟩
  · intro h
    unfold vecDistance vecL1Distance vecLInfDistance
    rw [h, checkDims_ok, must_ok, ok_bind, ok_bind, ok_bind]
    refine ⟨?_, ?_, ?_⟩
    · rw [iterate_zip v w h Flt.add (fun x y => Flt.mul (Flt.sub x y) (Flt.sub x y)) Flt.zero (fun i x y s h => by rw [h]; rfl), zipWith_zip]
      rfl
    · rw [iterate_zip v w h Flt.add (fun x y => Flt.abs (Flt.sub x y)) Flt.zero (fun i x y s h => by rw [h]; rfl), zipWith_zip]
    · rw [iterate_zip v w h (fun s x => Flt.fmax x s) (fun x y => Flt.abs (Flt.sub x y)) Flt.zero (fun i x y s h => by rw [h]; rfl), zipWith_zip]

/-! ## Symmetry -/

theorem B64.toInt_neg (y : ℝ) : B64.toInt (-y) = -B64.toInt y := by
  have f0 := Int.fract_nonneg y
  have f1 := Int.fract_lt_one y
  have e := Int.self_sub_floor y
  by_cases h : Int.fract y = 1 / 2
  · have h' : Int.fract (-y) = 1 / 2 := by rw [Int.fract_neg (by rw [h]; norm_num), h]; norm_num
    have fl : ⌊-y⌋ = -(⌊y⌋ + 1) := by
      rw [Int.floor_eq_iff]
      push_cast
      constructor <;> linarith
    unfold B64.toInt
    rw [if_pos h, if_pos h', fl]
    by_cases ev : Even ⌊y⌋
    · rw [if_pos ev, if_neg (by rw [even_neg, Int.even_add_one]; exact not_not.2 ev)]
      ring
    · rw [if_neg ev, if_pos (by rw [even_neg, Int.even_add_one]; exact ev)]
  · have h' : Int.fract (-y) ≠ 1 / 2 := by
      by_cases z : Int.fract y = 0
      · rw [Int.fract_neg_eq_zero.2 z]; norm_num
      · rw [Int.fract_neg z]
        intro c
        exact h (by linarith)
    rw [B64.toInt_of h, B64.toInt_of h', round_eq, round_eq]
    rcases lt_or_gt_of_ne h with l | l
    · rw [show ⌊y + 1 / 2⌋ = ⌊y⌋ by rw [Int.floor_eq_iff]; constructor <;> linarith, Int.floor_eq_iff]
      push_cast
      constructor <;> linarith
    · rw [show ⌊y + 1 / 2⌋ = ⌊y⌋ + 1 by rw [Int.floor_eq_iff]; push_cast; constructor <;> linarith, Int.floor_eq_iff]
      push_cast
      constructor <;> linarith

theorem B64.near_neg (x : ℝ) : B64.near (-x) = -B64.near x := by
  have : B64.ulp (-x) = B64.ulp x := by unfold B64.ulp; rw [abs_neg]
  unfold B64.near
  rw [this, neg_div, B64.toInt_neg]
  push_cast
  ring

theorem B64.rnd_neg (x : ℝ) : B64.rnd (-x) = Flt.neg (B64.rnd x) := by
  unfold B64.rnd
  by_cases h : |B64.near x| < 2 ^ 1024
  · rw [dif_pos h, dif_pos (by rw [B64.near_neg, abs_neg]; exact h)]
    show _ = B64.num _ _
    congr 1
    exact B64.near_neg x
  · rw [dif_neg h, dif_neg (by rw [B64.near_neg, abs_neg]; exact h)]
    show _ = B64.inf _
    have x0 : x ≠ 0 := fun c => h (by rw [c, B64.near_zero, abs_zero]; exact pow_pos (by norm_num) _)
    congr 1
    rcases lt_or_gt_of_ne x0 with l | l
    · rw [decide_eq_true l, decide_eq_false (show ¬ -x < 0 by linarith)]; rfl
    · rw [decide_eq_true (show -x < 0 by linarith), decide_eq_false (show ¬ x < 0 by linarith)]; rfl

/-- Differences of doubles, also infinite ones and NaN, are antisymmetric. -/
theorem B64.sub_swap (x y : B64) : Flt.sub y x = Flt.neg (Flt.sub x y) := by
  rcases x with ⟨x, hx⟩ | s | _ <;> rcases y with ⟨y, hy⟩ | t | _
  · show B64.rnd (y - x) = Flt.neg (B64.rnd (x - y))
    rw [← B64.rnd_neg, neg_sub]
  · show B64.inf t = B64.inf (!(!t))
    rw [Bool.not_not]
  · rfl
  · rfl
  · cases s <;> cases t <;> rfl
  · rfl
  · rfl
  · rfl
  · rfl

theorem B64.abs_neg' (x : B64) : Flt.abs (Flt.neg x) = Flt.abs x := by
  rcases x with ⟨x, hx⟩ | s | _
  · show B64.num |-x| _ = B64.num |x| _
    congr 1
    exact abs_neg x
  · rfl
  · rfl

theorem B64.sq_neg (x : B64) : Flt.mul (Flt.neg x) (Flt.neg x) = Flt.mul x x := by
  rcases x with ⟨x, hx⟩ | s | _
  · show B64.rnd (-x * -x) = B64.rnd (x * x)
    rw [neg_mul_neg]
  · cases s <;> rfl
  · rfl

/-- **C127, symmetry**: in binary64 the three distances do not depend on the order of the vectors, whatever the entries are. -/
theorem C127_symmetric (v w : RVec B64) : vecDistance v w = vecDistance w v ∧ vecL1Distance v w = vecL1Distance w v ∧
    vecLInfDistance v w = vecLInfDistance w v := by
  by_cases h : v.dim = w.dim
  · have sw : List.zip w.list v.list = (List.zip v.list w.list).map Prod.swap := (List.zip_swap _ _).symm
    obtain ⟨a1, a2, a3⟩ := (C127_terms v w).2 h
    obtain ⟨b1, b2, b3⟩ := (C127_terms w v).2 h.symm
    have e1 : (fun p : B64 × B64 => Flt.mul (Flt.sub p.1 p.2) (Flt.sub p.1 p.2)) ∘ Prod.swap = fun p => Flt.mul (Flt.sub p.1 p.2) (Flt.sub p.1 p.2) := by
      funext p
      show Flt.mul (Flt.sub p.2 p.1) (Flt.sub p.2 p.1) = _
      rw [B64.sub_swap p.1 p.2, B64.sq_neg]
    have e2 : (fun p : B64 × B64 => Flt.abs (Flt.sub p.1 p.2)) ∘ Prod.swap = fun p => Flt.abs (Flt.sub p.1 p.2) := by
      funext p
      show Flt.abs (Flt.sub p.2 p.1) = _
      rw [B64.sub_swap p.1 p.2, B64.abs_neg']
    rw [sw, List.map_map, e1] at b1
    rw [sw, List.map_map, e2] at b2 b3
    exact ⟨a1.trans b1.symm, a2.trans b2.symm, a3.trans b3.symm⟩
  · obtain ⟨a1, a2, a3⟩ := (C127_terms v w).1 h
    obtain ⟨b1, b2, b3⟩ := (C127_terms w v).1 (Ne.symm h)
    exact ⟨a1.trans b1.symm, a2.trans b2.symm, a3.trans b3.symm⟩

/-! ## Distance zero -/

section

variable {α : Type} [Flt α] [Rnd α]

/-- A computed sum of numbers that are not negative is zero only if all of them are. -/
theorem total_zero : ∀ (l : List α) (s : α), fin (l.foldl Flt.add s) → (∀ x ∈ l, fin x → 0 ≤ val x) → (fin s → 0 ≤ val s) →
    fin s ∧ (∀ x ∈ l, fin x) ∧ 0 ≤ val (l.foldl Flt.add s) ∧ (val (l.foldl Flt.add s) = 0 ↔ val s = 0 ∧ ∀ x ∈ l, val x = 0) := by
  intro l
  induction l with
  | nil => exact fun s fs _ h0 => ⟨fs, by simp, h0 fs, by simp⟩
  | cons a l ih =>
    intro s fs hl h0
    rw [List.foldl_cons] at fs ⊢
    have low : fin (Flt.add s a) → (val s + val a) / 2 ≤ val (Flt.add s a) ∧ 0 ≤ val s ∧ 0 ≤ val a ∧
        |val (Flt.add s a) - (val s + val a)| ≤ u α * (val s + val a) := fun f => by
      obtain ⟨f1, f2⟩ := add_fin f
      have e := (add_err f).1
      have s0 := h0 f1
      have a0 := hl a (by simp) f2
      rw [abs_of_nonneg (add_nonneg s0 a0)] at e
      have := mul_le_mul_of_nonneg_right (u_le (α := α)) (add_nonneg s0 a0)
      exact ⟨by linarith [(abs_le.1 e).1], s0, a0, e⟩
    obtain ⟨f1, f2, n, z⟩ := ih (Flt.add s a) fs (fun x hx => hl x (by simp [hx])) fun f => by
      obtain ⟨h1, h2, h3, -⟩ := low f
      linarith
    obtain ⟨fs', fa⟩ := add_fin f1
    obtain ⟨h1, h2, h3, h4⟩ := low f1
    refine ⟨fs', fun x hx => ?_, n, z.trans ⟨fun ⟨c, d⟩ => ?_, fun ⟨c, d⟩ => ?_⟩⟩
    · rcases List.mem_cons.1 hx with rfl | hx
      · exact fa
      · exact f2 x hx
    · refine ⟨by linarith, fun x hx => ?_⟩
      rcases List.mem_cons.1 hx with rfl | hx
      · linarith
      · exact d x hx
    · refine ⟨?_, fun x hx => d x (by simp [hx])⟩
      rw [c, d a (by simp), _root_.add_zero, mul_zero, sub_zero] at h4
      exact abs_nonpos_iff.1 h4

/-- A maximum of magnitudes is zero only if all of them are. -/
theorem max_zero : ∀ (l : List α) (s : α), (∀ x ∈ l, fin x ∧ 0 ≤ val x) → fin s → 0 ≤ val s →
    fin (l.foldl (fun s x => Flt.fmax x s) s) ∧ (val (l.foldl (fun s x => Flt.fmax x s) s) = 0 ↔ val s = 0 ∧ ∀ x ∈ l, val x = 0) := by
  intro l
  induction l with
  | nil => exact fun s _ fs _ => ⟨fs, by simp⟩
  | cons a l ih =>
    intro s hl fs h0
    rw [List.foldl_cons]
    obtain ⟨fa, a0⟩ := hl a (by simp)
    obtain ⟨f1, v1⟩ := max_fin fa fs
    obtain ⟨f2, z⟩ := ih (Flt.fmax a s) (fun x hx => hl x (by simp [hx])) f1 (by rw [v1]; exact a0.trans (le_max_left _ _))
    refine ⟨f2, z.trans ?_⟩
    rw [v1]
    refine ⟨fun ⟨c, d⟩ => ?_, fun ⟨c, d⟩ => ⟨by rw [c, d a (by simp), max_self], fun x hx => d x (by simp [hx])⟩⟩
    have c1 := le_max_left (val a) (val s)
    have c2 := le_max_right (val a) (val s)
    refine ⟨by linarith, fun x hx => ?_⟩
    rcases List.mem_cons.1 hx with rfl | hx
    · linarith
    · exact d x hx

/-- A rounded difference is zero only for equal numbers. -/
theorem sub_zero_iff {x y : α} (h : fin (Flt.sub x y)) : val (Flt.sub x y) = 0 ↔ val x = val y := by
  obtain ⟨e1, e2⟩ := sub_err h
  constructor
  · intro c
    rw [c, abs_zero, mul_zero] at e2
    linarith [abs_nonpos_iff.1 e2]
  · intro c
    rw [c, sub_self, abs_zero, mul_zero, sub_zero] at e1
    exact abs_nonpos_iff.1 e1

/-- **C127, distance zero**: a finite L1 distance is zero exactly for equal vectors; so is the LInf distance when the differences are finite. -/
theorem C127_zero (v w : RVec α) (h : v.dim = w.dim) :
    (∃ d, vecL1Distance v w = .ok d ∧ (fin d → (val d = 0 ↔ ∀ p ∈ List.zip v.list w.list, val p.1 = val p.2))) ∧
    ∃ d, vecLInfDistance v w = .ok d ∧ ((∀ p ∈ List.zip v.list w.list, fin (Flt.sub p.1 p.2)) → fin d ∧
      (val d = 0 ↔ ∀ p ∈ List.zip v.list w.list, val p.1 = val p.2)) := by
  obtain ⟨-, e2, e3⟩ := (C127_terms v w).2 h
  have key : (∀ p ∈ List.zip v.list w.list, fin (Flt.sub p.1 p.2)) →
      ((∀ x ∈ (List.zip v.list w.list).map fun p => Flt.abs (Flt.sub p.1 p.2), val x = 0) ↔ ∀ p ∈ List.zip v.list w.list, val p.1 = val p.2) := by
    intro hf
    rw [List.forall_mem_map]
    refine forall₂_congr fun p hp => ?_
    rw [val_abs (hf p hp), abs_eq_zero, sub_zero_iff (hf p hp)]
  refine ⟨⟨_, e2, fun fd => ?_⟩, _, e3, fun hf => ?_⟩
  · obtain ⟨-, f2, -, z⟩ := total_zero _ _ fd (fun x hx fx => by
      obtain ⟨p, hp, rfl⟩ := List.mem_map.1 hx
      rw [val_abs (abs_fin.1 fx)]
      exact abs_nonneg _) fun _ => val_zero.ge
    rw [z, and_iff_right val_zero]
    exact key fun p hp => abs_fin.1 (f2 _ (List.mem_map_of_mem hp))
  · obtain ⟨f, z⟩ := max_zero ((List.zip v.list w.list).map fun p => Flt.abs (Flt.sub p.1 p.2)) Flt.zero (fun x hx => by
      obtain ⟨p, hp, rfl⟩ := List.mem_map.1 hx
      rw [val_abs (hf p hp)]
      exact ⟨abs_fin.2 (hf p hp), abs_nonneg _⟩) zero_fin val_zero.ge
    rw [z, and_iff_right val_zero]
    exact ⟨f, key hf⟩

/-- **C127, partial**: a finite L2 distance is zero for equal vectors, and when it is zero the squares of the differences are below the smallest
positive number.  Missing: that the vectors are then equal; this is false (`C127_refuted`). -/
theorem C127_partial (v w : RVec α) (h : v.dim = w.dim) : ∃ d, vecDistance v w = .ok d ∧ (fin d →
    ((∀ p ∈ List.zip v.list w.list, val p.1 = val p.2) → val d = 0) ∧
    (val d = 0 → ∀ p ∈ List.zip v.list w.list, (val p.1 - val p.2) ^ 2 ≤ (1 + u α) ^ 2 * η α)) := by
  obtain ⟨e1, -, -⟩ := (C127_terms v w).2 h
  refine ⟨_, e1, fun fd => ?_⟩
  obtain ⟨fs, -⟩ := sqrt_fin fd
  obtain ⟨-, f2, n, z⟩ := total_zero _ _ fs (fun x hx fx => by
    obtain ⟨p, hp, rfl⟩ := List.mem_map.1 hx
    exact mul_nn fx (mul_self_nonneg _)) fun _ => val_zero.ge
  obtain ⟨q1, q2⟩ := sqrt_err fd
  have u0 := u_nonneg (α := α)
  generalize ((List.zip v.list w.list).map fun p => Flt.mul (Flt.sub p.1 p.2) (Flt.sub p.1 p.2)).foldl Flt.add Flt.zero = s at *
  refine ⟨fun hp => ?_, fun d0 p hp => ?_⟩
  · have : val s = 0 := z.2 ⟨val_zero, fun x hx => by
      have fx := f2 x hx
      obtain ⟨p, hp', rfl⟩ := List.mem_map.1 hx
      exact mul_of_zero fx ((sub_zero_iff (mul_fin fx).1).2 (hp p hp'))⟩
    rw [this, Real.sqrt_zero, mul_zero, sub_zero] at q1
    exact abs_nonpos_iff.1 q1
  · rw [d0, abs_zero, mul_zero, zero_sub, abs_neg] at q2
    have s0 : val s = 0 := (Real.sqrt_eq_zero n).1 (abs_nonpos_iff.1 q2)
    have fx := f2 _ (List.mem_map_of_mem (f := fun p : α × α => Flt.mul (Flt.sub p.1 p.2) (Flt.sub p.1 p.2)) hp)
    have x0 := (z.1 s0).2 _ (List.mem_map_of_mem (f := fun p : α × α => Flt.mul (Flt.sub p.1 p.2) (Flt.sub p.1 p.2)) hp)
    have m := (mul_err fx).2
    rw [x0, abs_zero, mul_zero, zero_sub, abs_neg, abs_mul_self, _root_.zero_add] at m
    have e := (sub_err (mul_fin fx).1).2
    generalize val (Flt.sub p.1 p.2) = t at *
    have a : |val p.1 - val p.2| ≤ (1 + u α) * |t| := by
      have := abs_sub_abs_le_abs_sub (val p.1 - val p.2) t
      rw [abs_sub_comm _ t] at this
      linarith
    calc (val p.1 - val p.2) ^ 2 = |val p.1 - val p.2| ^ 2 := (sq_abs _).symm
      _ ≤ ((1 + u α) * |t|) ^ 2 := pow_le_pow_left₀ (abs_nonneg _) a 2
      _ = (1 + u α) ^ 2 * (t * t) := by rw [mul_pow, sq_abs]; ring
      _ ≤ _ := mul_le_mul_of_nonneg_left m (sq_nonneg _)

end

/-- **C127.**  The L2 distance of (2⁻⁶⁰⁰) and (0) is computed as zero; the other two distances are not zero. -/
theorem C127_refuted : ∃ x o d e f : B64, B64.Is x (2 ^ (-600 : ℤ)) ∧ B64.Is o 0 ∧ vecDistance (.arr [x]) (.arr [o]) = .ok d ∧ B64.Is d 0 ∧
    vecL1Distance (.arr [x]) (.arr [o]) = .ok e ∧ B64.Is e (2 ^ (-600 : ℤ)) ∧ vecLInfDistance (.arr [x]) (.arr [o]) = .ok f ∧
    B64.Is f (2 ^ (-600 : ℤ)) := by
  have hx := B64.Is.two (-600) (by norm_num) (by norm_num)
  have nx := B64.Num.zpow (-600) (by norm_num) (by norm_num)
  generalize B64.two (-600) (by norm_num) (by norm_num) = x at hx
  have ho := B64.Is.zero
  have z := B64.Is.zero
  generalize (Flt.zero : B64) = o at ho
  have d0 : B64.Num 0 := B64.dyi 0 (by norm_num)
  obtain ⟨e1, e2, e3⟩ := (C127_terms (RVec.arr [x]) (.arr [o])).2 rfl
  refine ⟨x, o, _, _, _, hx, ho, e1, ?_, e2, ?_, e3, ?_⟩
  · have m := hx.sub ho (sub_zero _) nx
    have q : B64.Is (Flt.mul (Flt.sub x o) (Flt.sub x o)) 0 := by
      refine mul_tiny m.1 m.1 ?_
      rw [m.2, ← zpow_add₀ (by norm_num), abs_of_pos (zpow_pos (by norm_num) _)]
      show _ < ((1 : ℝ) / 2) ^ 1075
      rw [one_div, inv_pow, ← zpow_natCast, ← _root_.zpow_neg]
      rw [show (4 : ℝ) = 2 ^ (2 : ℤ) by norm_num, ← zpow_add₀ (by norm_num)]
      exact zpow_lt_zpow_right₀ (by norm_num) (by norm_num)
    exact (z.add q (t := 0) (by norm_num) d0).sqrt (t := 0) le_rfl (by norm_num) d0
  · exact z.add ((hx.sub ho (sub_zero _) nx).abs (abs_of_pos (zpow_pos (by norm_num) _))) (_root_.zero_add _) nx
  · have a := (hx.sub ho (sub_zero _) nx).abs (abs_of_pos (zpow_pos (by norm_num) _))
    obtain ⟨f, v⟩ := max_fin a.1 z.1
    refine ⟨f, v.trans ?_⟩
    rw [a.2, z.2]
    exact max_eq_left (zpow_pos (by norm_num) _).le

/-- The hypotheses of `C127_zero` and `C127_partial` are met by the vectors (1, 0) and (1, 1): no distance is zero. -/
example : ∃ d : B64, vecL1Distance (.arr [Flt.one, Flt.zero]) (.arr [Flt.one, Flt.one]) = .ok d ∧ fin d ∧ val d ≠ 0 := by
  obtain ⟨⟨d, e, H⟩, -⟩ := C127_zero (α := B64) (.arr [Flt.one, Flt.zero]) (.arr [Flt.one, Flt.one]) rfl
  have o := B64.Is.one
  have z := B64.Is.zero
  have n0 : B64.Num 0 := B64.dyi 0 (by norm_num)
  have n1 : B64.Num 1 := B64.dyi 1 (by norm_num)
  have fd : fin d := by
    have e' := ((C127_terms (RVec.arr [(Flt.one : B64), Flt.zero]) (.arr [Flt.one, Flt.one])).2 rfl).2.1
    rw [e] at e'
    rw [Except.ok.inj e']
    exact ((z.add ((o.sub o (t := 0) (by norm_num) n0).abs (t := 0) (by norm_num)) (t := 0) (by norm_num) n0).add
      ((z.sub o (t := -1) (by norm_num) (B64.dyi (-1) (by norm_num))).abs (t := 1) (by norm_num)) (t := 1) (by norm_num) n1).1
  refine ⟨d, e, fd, fun c => ?_⟩
  have := (H fd).1 c (Flt.zero, Flt.one) (by simp [RVec.list])
  rw [z.2, o.2] at this
  norm_num at this

end Linear
