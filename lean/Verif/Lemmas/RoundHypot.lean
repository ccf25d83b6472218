import Verif.Lemmas.RoundSvdTurn
import Verif.Lemmas.B64Eval

/-!
# `math.Hypot` in binary64
-/

set_option linter.unusedSectionVars false

namespace Linear

open Spec Rnd

/-- `math.Hypot` of the Go library (the portable version; not in `/repo`): the special cases, then `p √(1 + (q/p)²)` for the larger
absolute value `p` and the smaller `q`. -/
noncomputable def B64.hypot (a b : B64) : B64 :=
  if Flt.isInf a || Flt.isInf b then B64.inf false
  else if Flt.isNaN a || Flt.isNaN b then B64.nan
  else
    let p := if Flt.lt (Flt.abs a) (Flt.abs b) then Flt.abs b else Flt.abs a
    let q := if Flt.lt (Flt.abs a) (Flt.abs b) then Flt.abs a else Flt.abs b
    if Flt.eq p Flt.zero then Flt.zero
    else Flt.mul p (Flt.sqrt (Flt.add Flt.one (Flt.mul (Flt.div q p) (Flt.div q p))))

/-- `hyp` where its result is 0 because both arguments are, or where it is between `lo` and infinity, and NaN elsewhere. -/
noncomputable def B64.guard (lo : ℝ) (hyp : B64 → B64 → B64) (a b : B64) : B64 := by
  classical
  exact if (val a = 0 ∧ val b = 0 ∨ lo ≤ val (hyp a b)) ∧ fin a ∧ fin b ∧ fin (hyp a b) then hyp a b else B64.nan

theorem B64.guard_or (lo : ℝ) (hyp : B64 → B64 → B64) (a b : B64) :
    B64.guard lo hyp a b = hyp a b ∨ B64.guard lo hyp a b = B64.nan := by
  unfold B64.guard
  split_ifs
  · exact Or.inl rfl
  · exact Or.inr rfl

theorem hyp_core {a b q w z r h v ν : ℝ} (hv0 : 0 ≤ v) (hv : v ≤ 1 / 1000) (hν0 : 0 ≤ ν) (hν : ν ≤ v / 1000) (ha : 0 < a) (hb0 : 0 ≤ b)
    (hb : b ≤ a) (hq : |q - b / a| ≤ v * |b / a| + ν) (hw : |w - q * q| ≤ v * |q * q| + ν) (hz : |z - (1 + w)| ≤ v * |1 + w|)
    (hr : |r - √z| ≤ v * √z) (hh : |h - a * r| ≤ v * |a * r| + ν) (hl : ν ≤ v / 1000 * h) :
    |h - √(a ^ 2 + b ^ 2)| ≤ 8 * v * √(a ^ 2 + b ^ 2) := by
  obtain ⟨t, ht⟩ : ∃ t, t = b / a := ⟨_, rfl⟩
  have eb : b = t * a := by rw [ht]; field_simp
  have t0 : 0 ≤ t := by rw [ht]; exact div_nonneg hb0 ha.le
  have t1 : t ≤ 1 := by rw [ht]; exact (div_le_one ha).2 hb
  rw [← ht, abs_of_nonneg t0] at hq
  have eR : √(a ^ 2 + b ^ 2) = a * √(1 + t ^ 2) := by
    rw [show a ^ 2 + b ^ 2 = a ^ 2 * (1 + t ^ 2) by rw [eb]; ring, Real.sqrt_mul (sq_nonneg a), Real.sqrt_sq ha.le]
  rw [eR]
  have hvt : v * t ≤ v := by nlinarith
  have q1 : |q - t| ≤ 1001 / 1000 * v := by linarith
  have q2 := abs_le.1 q1
  have hvv : v * v ≤ 1 / 1000 * v := mul_le_mul_of_nonneg_right hv hv0
  have qt : |q * q - t * t| ≤ 21 / 10 * v := by
    rw [show q * q - t * t = (q - t) * (q + t) by ring, abs_mul]
    have : |q + t| ≤ 2003 / 1000 := by rw [abs_le]; constructor <;> linarith
    calc _ ≤ 1001 / 1000 * v * (2003 / 1000) := mul_le_mul q1 this (abs_nonneg _) (by linarith)
      _ ≤ _ := by linarith
  have tt : t * t ≤ 1 := by nlinarith
  have tt0 : 0 ≤ t * t := mul_self_nonneg t
  have qq0 : 0 ≤ q * q := mul_self_nonneg q
  have qt' := abs_le.1 qt
  rw [abs_of_nonneg qq0] at hw
  have hvq : v * (q * q) ≤ v * (1 + 21 / 10 * v) := mul_le_mul_of_nonneg_left (by linarith) hv0
  have hw' : |w - t * t| ≤ 32 / 10 * v := by
    calc |w - t * t| = |(w - q * q) + (q * q - t * t)| := by congr 1; ring
      _ ≤ _ := abs_add_le _ _
      _ ≤ _ := by linarith only [hw, qt, hvq, hvv, hν, hv0]
  have w2 := abs_le.1 hw'
  have hw1 : |1 + w| ≤ 2 + 32 / 10 * v := by rw [abs_le]; constructor <;> linarith
  obtain ⟨z0, hz0⟩ : ∃ z0, z0 = 1 + t * t := ⟨_, rfl⟩
  have zz : |z - z0| ≤ 53 / 10 * v := by
    calc |z - z0| = |(z - (1 + w)) + (w - t * t)| := by rw [hz0]; congr 1; ring
      _ ≤ _ := abs_add_le _ _
      _ ≤ v * (2 + 32 / 10 * v) + 32 / 10 * v := add_le_add (hz.trans (mul_le_mul_of_nonneg_left hw1 hv0)) hw'
      _ ≤ _ := by linarith only [hvv, hv0]
  have z2 := abs_le.1 zz
  have zp : 99 / 100 ≤ z := by linarith
  have s1 : 9 / 10 ≤ √z := by rw [Real.le_sqrt (by norm_num) (by linarith)]; linarith
  have s0 : 1 ≤ √z0 := by rw [Real.le_sqrt (by norm_num) (by linarith)]; linarith
  have sz : √z * √z = z := Real.mul_self_sqrt (by linarith)
  have sz0 : √z0 * √z0 = z0 := Real.mul_self_sqrt (by linarith)
  have ss : |√z - √z0| ≤ 28 / 10 * v := by
    have e : (√z - √z0) * (√z + √z0) = z - z0 := by linear_combination sz - sz0
    have e1 : |√z - √z0| * (√z + √z0) ≤ 53 / 10 * v := by
      rw [← abs_of_pos (show 0 < √z + √z0 by linarith), ← abs_mul, e]; exact zz
    have e2 := mul_le_mul_of_nonneg_left (show 19 / 10 ≤ √z + √z0 by linarith only [s0, s1]) (abs_nonneg (√z - √z0))
    linarith only [e1, e2, hv0]
  rw [show 1 + t ^ 2 = z0 by rw [hz0]; ring]
  generalize √z0 = R at *
  generalize √z = Z at *
  have hvR : v * 1 ≤ v * R := mul_le_mul_of_nonneg_left s0 hv0
  have ss' := abs_le.1 ss
  have rR : |r - R| ≤ 39 / 10 * v * R := by
    calc |r - R| = |(r - Z) + (Z - R)| := by congr 1; ring
      _ ≤ _ := abs_add_le _ _
      _ ≤ v * (R + 28 / 10 * v) + 28 / 10 * v := add_le_add (hr.trans (mul_le_mul_of_nonneg_left (by linarith) hv0)) ss
      _ ≤ _ := by linarith only [hvv, hvR, hv0]
  have rr := abs_le.1 rR
  have vR : 39 / 10 * v * R ≤ 39 / 10000 * R := mul_le_mul_of_nonneg_right (by linarith) (by linarith)
  have r1 : |r| ≤ 101 / 100 * R := by rw [abs_le]; constructor <;> linarith
  have h1 : |a * r| ≤ 101 / 100 * (a * R) := by
    rw [abs_mul, abs_of_pos ha]
    calc _ ≤ a * (101 / 100 * R) := mul_le_mul_of_nonneg_left r1 ha.le
      _ = _ := by ring
  have h2 : |a * r - a * R| ≤ 39 / 10 * v * (a * R) := by
    rw [← mul_sub, abs_mul, abs_of_pos ha]
    calc _ ≤ a * (39 / 10 * v * R) := mul_le_mul_of_nonneg_left rR ha.le
      _ = _ := by ring
  have aR : 0 < a * R := mul_pos ha (by linarith only [s0])
  generalize a * R = H at *
  have h3 : |h - a * r| ≤ 101 / 100 * (v * H) + ν := by
    have := mul_le_mul_of_nonneg_left h1 hv0
    linarith
  have h4 := abs_le.1 h3
  have h5 := abs_le.1 h2
  have hvH : v * H ≤ 1 / 1000 * H := mul_le_mul_of_nonneg_right hv aR.le
  have h7 : h ≤ 2 * H := by
    rcases le_or_gt h 0 with c | c
    · linarith only [c, aR]
    · have := mul_le_mul_of_nonneg_right (show v / 1000 ≤ 1 / 1000 by linarith only [hv]) c.le
      linarith only [this, hl, h4.2, h5.2, hvH, aR]
  have h8 : ν ≤ 2 / 1000 * (v * H) := by
    have := mul_le_mul_of_nonneg_left h7 (show 0 ≤ v / 1000 by linarith only [hv0])
    linarith only [this, hl]
  calc |h - H| = |(h - a * r) + (a * r - H)| := by congr 1; ring
    _ ≤ _ := abs_add_le _ _
    _ ≤ (101 / 100 * (v * H) + ν) + 39 / 10 * v * H := add_le_add h3 h2
    _ ≤ _ := by linarith only [h8, mul_nonneg hv0 aR.le]

/-- The values of `hypot`: finite arguments, and the formula where they are not both zero. -/
theorem B64.hypot_fin {a b : B64} (h : fin (B64.hypot a b)) : fin a ∧ fin b := by
  unfold B64.hypot at h
  rcases a with a | a | _ <;> rcases b with b | b | _ <;> first | exact ⟨trivial, trivial⟩ | exact h.elim

theorem B64.hypot_eq {a b : B64} (fa : fin a) (fb : fin b) :
    ∃ p q : B64, fin p ∧ fin q ∧ 0 ≤ val q ∧ val q ≤ val p ∧ val p ^ 2 + val q ^ 2 = val a ^ 2 + val b ^ 2 ∧
      (B64.hypot a b = if Flt.eq p Flt.zero then Flt.zero
        else Flt.mul p (Flt.sqrt (Flt.add Flt.one (Flt.mul (Flt.div q p) (Flt.div q p))))) := by
  have e1 : (Flt.isInf a || Flt.isInf b) = false := by rw [isInf_fin fa, isInf_fin fb]; rfl
  have e2 : (Flt.isNaN a || Flt.isNaN b) = false := by rw [isNaN_fin fa, isNaN_fin fb]; rfl
  have fa' := abs_fin.2 fa
  have fb' := abs_fin.2 fb
  unfold B64.hypot
  rw [e1, e2, if_neg Bool.false_ne_true, if_neg Bool.false_ne_true]
  by_cases c : Flt.lt (Flt.abs a) (Flt.abs b) = true
  · have := (lt_iff fa' fb').1 c
    refine ⟨Flt.abs b, Flt.abs a, fb', fa', by rw [val_abs fa]; exact abs_nonneg _, this.le, ?_, ?_⟩
    · rw [val_abs fa, val_abs fb, sq_abs, sq_abs]; ring
    · simp only [if_pos c]
  · have := not_lt.1 fun h => c ((lt_iff fa' fb').2 h)
    refine ⟨Flt.abs a, Flt.abs b, fa', fb', by rw [val_abs fb]; exact abs_nonneg _, this, ?_, ?_⟩
    · rw [val_abs fa, val_abs fb, sq_abs, sq_abs]
    · simp only [if_neg c]

/-- The bound below which `math.Hypot` is not used in the theorems: its result would be near the subnormal numbers. -/
noncomputable def B64.hlo : ℝ := (1 / 2) ^ 1000

/-- **`math.Hypot` in binary64** has a relative error of at most `8 u` where its result is at least `2⁻¹⁰⁰⁰`. -/
theorem B64.hypot_near {a b : B64} (h : fin (B64.hypot a b)) (h1 : (val a = 0 ∧ val b = 0) ∨ B64.hlo ≤ val (B64.hypot a b)) :
    |val (B64.hypot a b) - √(val a ^ 2 + val b ^ 2)| ≤ 8 * u B64 * √(val a ^ 2 + val b ^ 2) := by
  obtain ⟨fa, fb⟩ := B64.hypot_fin h
  obtain ⟨p, q, fp, fq, q0, qp, e, E⟩ := B64.hypot_eq fa fb
  rw [← e]
  by_cases c : Flt.eq p Flt.zero = true
  · rw [if_pos c] at E
    have p0 : val p = 0 := ((eq_iff fp zero_fin).1 c).trans val_zero
    have q0' : val q = 0 := le_antisymm (p0 ▸ qp) q0
    rw [E, val_zero, p0, q0']
    simp
  · have p0 : val p ≠ 0 := fun hp => c ((eq_iff fp zero_fin).2 (hp.trans val_zero.symm))
    have ppos : 0 < val p := lt_of_le_of_ne (q0.trans qp) (Ne.symm p0)
    have hl : B64.hlo ≤ val (B64.hypot a b) := by
      rcases h1 with ⟨ha, hb⟩ | h1
      · exfalso
        rw [ha, hb] at e
        nlinarith [sq_nonneg (val q)]
      · exact h1
    rw [if_neg c] at E
    rw [E] at h hl ⊢
    obtain ⟨-, fs⟩ := mul_fin h
    obtain ⟨fz, -⟩ := sqrt_fin fs
    obtain ⟨-, fw⟩ := add_fin fz
    obtain ⟨fd, -⟩ := mul_fin fw
    have hu : u B64 = (1 / 2) ^ 53 := rfl
    have hη : η B64 = (1 / 2) ^ 1075 := rfl
    have m1 := (add_err fz).1
    rw [val_one] at m1
    have hb : η B64 ≤ u B64 / 1000 * B64.hlo := by
      rw [hu, hη, B64.hlo, show (1075 : ℕ) = 1000 + 75 from rfl, pow_add, mul_comm]
      exact mul_le_mul_of_nonneg_right (by norm_num) (by positivity)
    have hl1 : B64.hlo ≤ 1 := pow_le_one₀ (by norm_num) (by norm_num)
    have hu0 : 0 ≤ u B64 := u_nonneg
    refine hyp_core u_nonneg (by rw [hu]; norm_num) η_nonneg ?_ ppos q0 qp (div_err fd fp).1 (mul_err fw).1 m1 (sqrt_err fs).1
      (mul_err h).1 ?_
    · refine hb.trans ?_
      have := mul_le_mul_of_nonneg_left hl1 (show 0 ≤ u B64 / 1000 by linarith)
      linarith
    · exact hb.trans (mul_le_mul_of_nonneg_left hl (by linarith))

/-- `math.Hypot` guarded meets the assumptions of the theorems. -/
theorem B64.guard_near : Spec.HypNear (2 * u B64) (B64.guard B64.hlo B64.hypot) := by
  have key : ∀ {a b : B64}, fin (B64.guard B64.hlo B64.hypot a b) → fin (B64.hypot a b) ∧
      ((val a = 0 ∧ val b = 0) ∨ B64.hlo ≤ val (B64.hypot a b)) ∧ B64.guard B64.hlo B64.hypot a b = B64.hypot a b := by
    intro a b h
    unfold B64.guard at h ⊢
    split_ifs at h ⊢ with c
    · exact ⟨h, c.1, rfl⟩
    · exact h.elim
  refine ⟨fun h => B64.hypot_fin (key h).1, fun h => ?_, fun h x => ?_⟩
  · obtain ⟨h1, h2, h3⟩ := key h
    rw [h3]
    refine (B64.hypot_near h1 h2).trans (le_of_eq (by ring))
  · rename_i a b
    have : B64.guard B64.hlo B64.hypot a b = B64.nan := by
      unfold B64.guard at h ⊢
      split_ifs at h ⊢ with c
      · exact absurd c.2.2.2 h
      · rfl
    rw [this]
    rcases x with x | x | _ <;> exact fun h => h.elim

end Linear
