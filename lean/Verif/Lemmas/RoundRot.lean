import Verif.Lemmas.RoundFro
import Verif.Lemmas.EigenLemmas

/-!
# A plane rotation of the symmetric eigen decomposition in rounded arithmetic
-/

set_option linter.unusedSectionVars false

namespace Linear

open Spec Rnd

/-- The rounded normalisation of the rotation with the tangent `x`. -/
theorem rot_core {x X Y t s c e u η : ℝ} (hu : 0 ≤ u) (hue : u ≤ e) (he1 : e ≤ 1 / 100) (hη : 0 ≤ η) (hηe : η ≤ u)
    (hx : |x| ≤ 1) (hX : |X - x * x| ≤ u * |x * x| + η) (hY : |Y - (X + 1)| ≤ u * |X + 1|)
    (ht : |t - √Y| ≤ u * √Y) (hs : |s - 1 / t| ≤ u * |1 / t| + η) (hc : |c - x * s| ≤ u * |x * s| + η) :
    1 ≤ √(x * x + 1) ∧ √(x * x + 1) ≤ 3 / 2 ∧ |t - √(x * x + 1)| ≤ 31 / 10 * e * √(x * x + 1) ∧
      |s - 1 / √(x * x + 1)| ≤ 6 * e ∧ |c - x / √(x * x + 1)| ≤ 8 * e := by
  have he0 : 0 ≤ e := hu.trans hue
  have hx2 : x * x ≤ 1 := by nlinarith [abs_mul_abs_self x, abs_nonneg x]
  have hx0 : 0 ≤ x * x := mul_self_nonneg x
  rw [abs_of_nonneg hx0] at hX
  obtain ⟨A, hA⟩ : ∃ A, A = x * x + 1 := ⟨_, rfl⟩
  rw [← hA]
  have hA1 : 1 ≤ A := by linarith
  have hA2 : A ≤ 2 := by linarith
  have hxA : x * x = A - 1 := by linarith
  rw [hxA] at hX
  have g1 : |X + 1 - A| ≤ e * A := by
    rw [show X + 1 - A = X - (A - 1) by ring]
    refine hX.trans ?_
    nlinarith
  have g1' := abs_le.1 g1
  have g2 : |X + 1| ≤ (1 + e) * A := by
    rw [abs_le]; constructor <;> nlinarith
  have g3 : |Y - A| ≤ 201 / 100 * e * A := by
    have h1 : |Y - A| ≤ |Y - (X + 1)| + |X + 1 - A| := by
      calc |Y - A| = |(Y - (X + 1)) + (X + 1 - A)| := by congr 1; ring
        _ ≤ _ := abs_add_le _ _
    have h2 : u * |X + 1| ≤ e * ((1 + e) * A) := mul_le_mul hue g2 (abs_nonneg _) he0
    have h3 : e * e * A ≤ e * (1 / 100) * A := by
      refine mul_le_mul_of_nonneg_right (mul_le_mul_of_nonneg_left he1 he0) (by linarith)
    nlinarith
  have hY0 : 0 ≤ Y := by
    have := (abs_le.1 g3).1
    nlinarith
  obtain ⟨τ, hτ⟩ : ∃ τ, τ = √A := ⟨_, rfl⟩
  rw [← hτ]
  have hτ2 : τ * τ = A := by rw [hτ]; exact Real.mul_self_sqrt (by linarith)
  have hτ0 : 0 ≤ τ := by rw [hτ]; exact Real.sqrt_nonneg _
  have hτ1 : 1 ≤ τ := by nlinarith
  have hτ3 : τ ≤ 3 / 2 := by nlinarith
  have hy2 : √Y * √Y = Y := Real.mul_self_sqrt hY0
  have hy0 : 0 ≤ √Y := Real.sqrt_nonneg _
  generalize √Y = y at *
  have g4 : |y - τ| ≤ 201 / 100 * e * τ := by
    have h1 : |y - τ| * (y + τ) = |Y - A| := by
      rw [← hy2, ← hτ2, show y * y - τ * τ = (y - τ) * (y + τ) by ring, abs_mul,
        abs_of_nonneg (a := y + τ) (by linarith)]
    have h2 : |y - τ| * τ ≤ 201 / 100 * e * τ * τ := by
      have : |y - τ| * τ ≤ |y - τ| * (y + τ) := mul_le_mul_of_nonneg_left (by linarith) (abs_nonneg _)
      rw [h1] at this
      refine this.trans (g3.trans (le_of_eq ?_))
      rw [← hτ2]; ring
    exact le_of_mul_le_mul_right h2 (by linarith)
  have g4' := abs_le.1 g4
  have heτ : e * τ ≤ 1 / 100 * τ := mul_le_mul_of_nonneg_right he1 hτ0
  have heτ0 : 0 ≤ e * τ := mul_nonneg he0 hτ0
  have g5 : |t - τ| ≤ 31 / 10 * e * τ := by
    have h1 : |t - τ| ≤ |t - y| + |y - τ| := by
      calc |t - τ| = |(t - y) + (y - τ)| := by congr 1; ring
        _ ≤ _ := abs_add_le _ _
    have h2 : u * y ≤ e * (103 / 100 * τ) := mul_le_mul hue (by linarith) hy0 he0
    linarith
  have g5' := abs_le.1 g5
  have ht1 : 96 / 100 * τ ≤ t := by linarith
  have ht0 : 0 < t := by linarith
  have hτp : 0 < τ := by linarith
  have hi : 1 / τ ≤ 1 := by rw [div_le_one hτp]; exact hτ1
  have hi0 : 0 < 1 / τ := by positivity
  have hit : 1 / t ≤ 105 / 100 * (1 / τ) := by
    rw [div_le_iff₀ ht0]
    have : 105 / 100 * (1 / τ) * (96 / 100 * τ) = 105 * 96 / 10000 := by field_simp; norm_num
    have h2 : 105 / 100 * (1 / τ) * (96 / 100 * τ) ≤ 105 / 100 * (1 / τ) * t :=
      mul_le_mul_of_nonneg_left ht1 (by positivity)
    linarith
  have hit0 : 0 < 1 / t := by positivity
  have g6 : |1 / t - 1 / τ| ≤ 33 / 10 * e := by
    have h1 : 1 / t - 1 / τ = (τ - t) * (1 / t) * (1 / τ) := by field_simp
    rw [h1, abs_mul, abs_mul, abs_of_pos hit0, abs_of_pos hi0, abs_sub_comm]
    have h2 : |t - τ| * (1 / t) ≤ 31 / 10 * e * τ * (105 / 100 * (1 / τ)) :=
      mul_le_mul g5 hit hit0.le (by positivity)
    have h3 : 31 / 10 * e * τ * (105 / 100 * (1 / τ)) = 31 * 105 / 1000 * e := by field_simp; ring
    rw [h3] at h2
    have h4 : |t - τ| * (1 / t) * (1 / τ) ≤ 31 * 105 / 1000 * e * 1 :=
      mul_le_mul h2 hi hi0.le (by positivity)
    linarith
  have g7 : |s - 1 / τ| ≤ 6 * e := by
    have h1 : |s - 1 / τ| ≤ |s - 1 / t| + |1 / t - 1 / τ| := by
      calc |s - 1 / τ| = |(s - 1 / t) + (1 / t - 1 / τ)| := by congr 1; ring
        _ ≤ _ := abs_add_le _ _
    rw [abs_of_pos hit0] at hs
    have h2 : u * (1 / t) ≤ e * (105 / 100) := mul_le_mul hue (by linarith) hit0.le he0
    linarith
  refine ⟨hτ1, hτ3, g5, g7, ?_⟩
  have g7' := abs_le.1 g7
  have h1 : |c - x / τ| ≤ |c - x * s| + |x| * |s - 1 / τ| := by
    calc |c - x / τ| = |(c - x * s) + x * (s - 1 / τ)| := by congr 1; ring
      _ ≤ _ := (abs_add_le _ _).trans_eq (by rw [abs_mul])
  have h2 : |x| * |s - 1 / τ| ≤ 1 * |s - 1 / τ| := mul_le_mul_of_nonneg_right hx (abs_nonneg _)
  have hs1 : |s| ≤ 106 / 100 := by rw [abs_le]; constructor <;> linarith
  have h3 : |x * s| ≤ 106 / 100 := by
    rw [abs_mul]
    calc |x| * |s| ≤ 1 * (106 / 100) := mul_le_mul hx hs1 (abs_nonneg _) (by norm_num)
      _ = _ := by norm_num
  have h4 : u * |x * s| ≤ e * (106 / 100) := mul_le_mul hue h3 (abs_nonneg _) he0
  have h5 : |s - 1 / τ| ≤ 531 / 100 * e := by
    have h1 : |s - 1 / τ| ≤ |s - 1 / t| + |1 / t - 1 / τ| := by
      calc |s - 1 / τ| = |(s - 1 / t) + (1 / t - 1 / τ)| := by congr 1; ring
        _ ≤ _ := abs_add_le _ _
    rw [abs_of_pos hit0] at hs
    have h2 : u * (1 / t) ≤ e * (105 / 100) := mul_le_mul hue (by linarith) hit0.le he0
    have g8 : |1 / t - 1 / τ| ≤ 3255 / 1000 * e := by
      have h1 : 1 / t - 1 / τ = (τ - t) * (1 / t) * (1 / τ) := by field_simp
      rw [h1, abs_mul, abs_mul, abs_of_pos hit0, abs_of_pos hi0, abs_sub_comm]
      have h2 : |t - τ| * (1 / t) ≤ 31 / 10 * e * τ * (105 / 100 * (1 / τ)) :=
        mul_le_mul g5 hit hit0.le (by positivity)
      have h3 : 31 / 10 * e * τ * (105 / 100 * (1 / τ)) = 31 * 105 / 1000 * e := by field_simp; ring
      rw [h3] at h2
      have h4 : |t - τ| * (1 / t) * (1 / τ) ≤ 31 * 105 / 1000 * e * 1 :=
        mul_le_mul h2 hi hi0.le (by positivity)
      linarith
    linarith
  linarith

/-- The radius against the two numbers it stands for. -/
theorem rot_radius {x p q t r e u η τ : ℝ} (hu : 0 ≤ u) (hue : u ≤ e) (he1 : e ≤ 1 / 100) (hη : 0 ≤ η) (hηe : η ≤ u)
    (hx : |x| ≤ 1) (hτ1 : 1 ≤ τ) (ht : |t - τ| ≤ 31 / 10 * e * τ) (hp : p ≠ 0) (hpq : |q| ≤ |p|)
    (hxq : |x - q / p| ≤ u * |q / p| + η) (hr : |r - p * t| ≤ u * |p * t| + η) :
    |p - 1 / τ * r| ≤ 7 * e * |p| + η ∧ |q - x / τ * r| ≤ 7 * e * |p| + η := by
  have he0 : 0 ≤ e := hu.trans hue
  have hτp : 0 < τ := by linarith
  have hP : 0 ≤ |p| := abs_nonneg p
  have hi : 1 / τ ≤ 1 := by rw [div_le_one hτp]; exact hτ1
  have hi0 : 0 < 1 / τ := by positivity
  have ht' := abs_le.1 ht
  have heτ : e * τ ≤ 1 / 100 * τ := mul_le_mul_of_nonneg_right he1 hτp.le
  have htt : |t| ≤ 104 / 100 * τ := by rw [abs_le]; constructor <;> linarith
  have g1 : |r - p * τ| ≤ |p| * τ * (42 / 10 * e) + η := by
    have h1 : |r - p * τ| ≤ |r - p * t| + |p| * |t - τ| := by
      calc |r - p * τ| = |(r - p * t) + p * (t - τ)| := by congr 1; ring
        _ ≤ _ := (abs_add_le _ _).trans_eq (by rw [abs_mul])
    have h2 : |p| * |t - τ| ≤ |p| * (31 / 10 * e * τ) := mul_le_mul_of_nonneg_left ht hP
    have h3 : u * |p * t| ≤ e * (|p| * (104 / 100 * τ)) := by
      rw [abs_mul]
      exact mul_le_mul hue (mul_le_mul_of_nonneg_left htt hP) (by positivity) he0
    have h4 : 0 ≤ |p| * τ * e := by positivity
    nlinarith
  have g2 : |p - 1 / τ * r| ≤ 42 / 10 * e * |p| + η := by
    have h1 : p - 1 / τ * r = -((r - p * τ) * (1 / τ)) := by field_simp; ring
    rw [h1, abs_neg, abs_mul, abs_of_pos hi0]
    have h2 : |r - p * τ| * (1 / τ) ≤ (|p| * τ * (42 / 10 * e) + η) * (1 / τ) :=
      mul_le_mul_of_nonneg_right g1 hi0.le
    have h3 : (|p| * τ * (42 / 10 * e) + η) * (1 / τ) = |p| * (42 / 10 * e) + η * (1 / τ) := by field_simp
    have h4 : η * (1 / τ) ≤ η * 1 := mul_le_mul_of_nonneg_left hi hη
    linarith
  have hep : 0 ≤ e * |p| := by positivity
  refine ⟨by linarith, ?_⟩
  have h1 : |q - x / τ * r| ≤ |q - x * p| + |x| * |p - 1 / τ * r| := by
    calc |q - x / τ * r| = |(q - x * p) + x * (p - 1 / τ * r)| := by congr 1; ring
      _ ≤ _ := (abs_add_le _ _).trans_eq (by rw [abs_mul])
  have h2 : |x| * |p - 1 / τ * r| ≤ 1 * |p - 1 / τ * r| := mul_le_mul_of_nonneg_right hx (abs_nonneg _)
  have h3 : |q - x * p| ≤ 2 * e * |p| := by
    have e1 : q - x * p = -((x - q / p) * p) := by field_simp; ring
    rw [e1, abs_neg, abs_mul]
    have e2 : |x - q / p| * |p| ≤ (u * |q / p| + η) * |p| := mul_le_mul_of_nonneg_right hxq hP
    have e3 : |q / p| ≤ 1 := by rw [abs_div]; exact div_le_one_of_le₀ hpq hP
    have e4 : u * |q / p| ≤ e * 1 := mul_le_mul hue e3 (abs_nonneg _) he0
    have e5 : (u * |q / p| + η) * |p| ≤ (e * 1 + e) * |p| := mul_le_mul_of_nonneg_right (by linarith) hP
    linarith
  linarith

variable {α : Type} [Flt α] [Rnd α]

theorem Rnd.η_le_u : η α ≤ u α := by
  have h1 : fin (Flt.sqrt (Flt.one : α)) := sqrt_ok one_fin (by rw [val_one]; norm_num)
  have h2 := sqrt_small h1
  have h3 := (sqrt_err h1).1
  rw [val_one, Real.sqrt_one, mul_one] at h3
  have h4 := u_le (α := α)
  have h5 : 1 / 2 ≤ |val (Flt.sqrt (Flt.one : α))| := by
    have := (abs_le.1 h3).1
    exact le_trans (by linarith) (le_abs_self _)
  have h6 := η_nonneg (α := α)
  nlinarith

/-- The computed sine and cosine are near to those of an exact rotation. -/
structure Eig.RotNear (e : ℝ) (s c : ℝ) (g : Eig.Rot α) : Prop where
  one : s * s + c * c = 1
  sfin : fin g.s
  cfin : fin g.c
  sErr : |val g.s - s| ≤ 8 * e
  cErr : |val g.c - c| ≤ 8 * e

theorem Eig.tan_round {x : α} {e : ℝ} (he : u α ≤ e) (he1 : e ≤ 1 / 100) (hx : fin x) (h1 : |val x| ≤ 1)
    (hs : fin (Flt.div Flt.one (Flt.sqrt (Flt.add (Flt.mul x x) Flt.one))))
    (hc : fin (Flt.mul x (Flt.div Flt.one (Flt.sqrt (Flt.add (Flt.mul x x) Flt.one))))) :
    fin (Flt.sqrt (Flt.add (Flt.mul x x) Flt.one)) ∧ ∃ τ : ℝ, τ * τ = val x * val x + 1 ∧ 1 ≤ τ ∧ τ ≤ 3 / 2 ∧
      |val (Flt.sqrt (Flt.add (Flt.mul x x) Flt.one)) - τ| ≤ 31 / 10 * e * τ ∧
      |val (Flt.div Flt.one (Flt.sqrt (Flt.add (Flt.mul x x) Flt.one))) - 1 / τ| ≤ 8 * e ∧
      |val (Flt.mul x (Flt.div Flt.one (Flt.sqrt (Flt.add (Flt.mul x x) Flt.one)))) - val x / τ| ≤ 8 * e := by
  have hb := big_le (α := α)
  have hu := u_nonneg (α := α)
  have hη := η_nonneg (α := α)
  have hηu := η_le_u (α := α)
  have hxx : |val x * val x| ≤ 1 := by
    rw [abs_mul]; exact mul_le_one₀ h1 (abs_nonneg _) h1
  have f1 : fin (Flt.mul x x) := mul_ok hx hx (by linarith)
  have e1 := (mul_err f1).1
  have b1 : |val (Flt.mul x x)| ≤ 2 := by
    have h2 : u α * |val x * val x| ≤ 1 / 100 * 1 := mul_le_mul (he.trans he1) hxx (abs_nonneg _) (by norm_num)
    have h3 := abs_le.1 e1
    have h4 := abs_le.1 hxx
    rw [abs_le]; constructor <;> linarith
  have f2 : fin (Flt.add (Flt.mul x x) Flt.one) := add_ok f1 one_fin (by
    rw [val_one]
    have := abs_add_le (val (Flt.mul x x)) 1
    rw [abs_one] at this
    linarith)
  have e2 := (add_err f2).1
  rw [val_one] at e2
  have n1 : 0 ≤ val (Flt.mul x x) := mul_nn f1 (mul_self_nonneg _)
  have n2 : 0 ≤ val (Flt.add (Flt.mul x x) Flt.one) := by
    rw [abs_of_nonneg (show 0 ≤ val (Flt.mul x x) + 1 by linarith)] at e2
    have := (abs_le.1 e2).1
    nlinarith [u_le (α := α)]
  have f3 : fin (Flt.sqrt (Flt.add (Flt.mul x x) Flt.one)) := sqrt_ok f2 n2
  have e3 := (sqrt_err f3).1
  have e4 := (div_err hs f3).1
  rw [val_one] at e4
  have e5 := (mul_err hc).1
  obtain ⟨r1, r2, r3, r4, r5⟩ := rot_core hu he he1 hη hηu h1 e1 e2 e3 e4 e5
  refine ⟨f3, √(val x * val x + 1), Real.mul_self_sqrt (by linarith [mul_self_nonneg (val x)]), r1, r2, r3, r4.trans ?_, r5⟩
  have := hu.trans he
  linarith

/-- **The rotation.** When the sine and cosine are finite, they are near to those of an exact rotation;
when the two numbers are finite and far from overflow, the radius is finite and the rotation maps it to them. -/
theorem Eig.rot_round {p q : α} {e : ℝ} (he : u α ≤ e) (he1 : e ≤ 1 / 100) (hs : fin (Eig.rot p q).s)
    (hc : fin (Eig.rot p q).c) :
    ∃ s c : ℝ, Eig.RotNear e s c (Eig.rot p q) ∧
      ∀ B : ℝ, fin p → fin q → |val p| ≤ B → |val q| ≤ B → 2 * B ≤ big α →
        fin (Eig.rot p q).r ∧ val (Eig.rot p q).r ≠ 0 ∧ |val p - s * val (Eig.rot p q).r| ≤ 7 * e * B + η α ∧
          |val q - c * val (Eig.rot p q).r| ≤ 7 * e * B + η α := by
  have hu := u_nonneg (α := α)
  have he0 : 0 ≤ e := hu.trans he
  have hη := η_nonneg (α := α)
  have hηu := η_le_u (α := α)
  have key : ∀ {P Q : α} (hx : fin (Flt.div Q P)) (h : fin P → |val Q| ≤ |val P|),
      |val (Flt.div Q P)| ≤ 1 := by
    intro P Q hx h
    by_cases hP : fin P
    · exact div_le_one hx hP (h hP)
    · rw [div_far hx hP, abs_zero]; norm_num
  have rad : ∀ {P Q : α} {τ B : ℝ} (_ : fin (Flt.div Q P)) (_ : |val (Flt.div Q P)| ≤ 1)
      (_ : fin (Flt.sqrt (Flt.add (Flt.mul (Flt.div Q P) (Flt.div Q P)) Flt.one)))
      (_ : 1 ≤ τ) (_ : τ ≤ 3 / 2)
      (_ : |val (Flt.sqrt (Flt.add (Flt.mul (Flt.div Q P) (Flt.div Q P)) Flt.one)) - τ| ≤ 31 / 10 * e * τ)
      (_ : fin P) (_ : |val Q| ≤ |val P|) (_ : |val P| ≤ B) (_ : 2 * B ≤ big α),
      fin (Flt.mul P (Flt.sqrt (Flt.add (Flt.mul (Flt.div Q P) (Flt.div Q P)) Flt.one))) ∧
      val (Flt.mul P (Flt.sqrt (Flt.add (Flt.mul (Flt.div Q P) (Flt.div Q P)) Flt.one))) ≠ 0 ∧
      |val P - 1 / τ * val (Flt.mul P (Flt.sqrt (Flt.add (Flt.mul (Flt.div Q P) (Flt.div Q P)) Flt.one)))| ≤
        7 * e * B + η α ∧
      |val Q - val (Flt.div Q P) / τ *
        val (Flt.mul P (Flt.sqrt (Flt.add (Flt.mul (Flt.div Q P) (Flt.div Q P)) Flt.one)))| ≤ 7 * e * B + η α := by
    intro P Q τ B hx h1 ft t1 t2 t3 hP hPQ hB hbig
    have hne := div_ne hx hP
    generalize hT : Flt.sqrt (Flt.add (Flt.mul (Flt.div Q P) (Flt.div Q P)) Flt.one) = T at *
    have t3' := abs_le.1 t3
    have heτ : e * τ ≤ 1 / 100 * (3 / 2) := mul_le_mul he1 t2 (by linarith) (by norm_num)
    have heτ1 : e * τ ≤ 1 / 100 * τ := mul_le_mul_of_nonneg_right he1 (by linarith)
    have tT : |val T| ≤ 2 := by rw [abs_le]; constructor <;> linarith
    have fr : fin (Flt.mul P T) := mul_ok hP ft (by
      rw [abs_mul]
      calc |val P| * |val T| ≤ B * 2 := mul_le_mul hB tT (abs_nonneg _) ((abs_nonneg _).trans hB)
        _ ≤ _ := by linarith)
    have er := (mul_err fr).1
    obtain ⟨r1, r2⟩ := rot_radius hu he he1 hη hηu h1 t1 t3 hne hPQ (div_err hx hP).1 er
    have hB' : 7 * e * |val P| ≤ 7 * e * B := mul_le_mul_of_nonneg_left hB (by linarith)
    refine ⟨fr, fun h0 => ?_, by linarith, by linarith⟩
    rw [h0, zero_sub, abs_neg, abs_mul] at er
    have hT1 : 96 / 100 ≤ |val T| := le_trans (by linarith) (le_abs_self _)
    have hu2 : u α ≤ 1 / 100 := he.trans he1
    have hPp : 0 < |val P| := abs_pos.2 hne
    have h5 : 96 / 100 * |val P| ≤ |val P| * |val T| := by
      rw [mul_comm]; exact mul_le_mul_of_nonneg_left hT1 hPp.le
    have h6 : u α * (|val P| * |val T|) ≤ 1 / 100 * (|val P| * |val T|) :=
      mul_le_mul_of_nonneg_right hu2 (by positivity)
    rcases fin_tiny hP with h | h
    · exact hne h
    · linarith
  unfold Eig.rot at hs hc ⊢
  split at hs
  · next hle =>
    rw [if_pos hle] at hc ⊢
    unfold Eig.rotP at hs hc ⊢
    dsimp only at hs hc ⊢
    have hx : fin (Flt.div q p) := (mul_fin hc).1
    have hq : fin q := div_fin hx
    have hpq : fin p → |val q| ≤ |val p| := fun hp => by
      rw [le_iff (abs_fin.2 hq) (abs_fin.2 hp), val_abs hq, val_abs hp] at hle
      exact hle
    have h1 := key hx hpq
    obtain ⟨ft, τ, t0, t1, t2, t3, t4, t5⟩ := Eig.tan_round he he1 hx h1 hs hc
    refine ⟨1 / τ, val (Flt.div q p) / τ, ⟨?_, hs, hc, t4, t5⟩, fun B hp hq' bp bq hB => ?_⟩
    · have : τ ≠ 0 := by linarith
      field_simp
      linarith
    · exact rad hx h1 ft t1 t2 t3 hp (hpq hp) bp hB
  · next hle =>
    rw [if_neg hle] at hc ⊢
    unfold Eig.rotQ at hs hc ⊢
    dsimp only at hs hc ⊢
    have hx : fin (Flt.div p q) := (mul_fin hs).1
    have hp : fin p := div_fin hx
    have hpq : fin q → |val p| ≤ |val q| := fun hq => by
      rw [le_iff (abs_fin.2 hq) (abs_fin.2 hp), val_abs hq, val_abs hp] at hle
      exact (not_le.1 hle).le
    have h1 := key hx hpq
    obtain ⟨ft, τ, t0, t1, t2, t3, t4, t5⟩ := Eig.tan_round he he1 hx h1 hc hs
    refine ⟨val (Flt.div p q) / τ, 1 / τ, ⟨?_, hs, hc, t5, t4⟩, fun B hp' hq bp bq hB => ?_⟩
    · have : τ ≠ 0 := by linarith
      field_simp
      linarith
    · obtain ⟨g1, g2, g3, g4⟩ := rad hx h1 ft t1 t2 t3 hq (hpq hq) bq hB
      exact ⟨g1, g2, g4, g3⟩

/-- **The way out of the loop is never taken**: the radius does not compare equal to zero. -/
theorem Eig.rot_ne (hu2 : u α ≤ 1 / 100) (p q : α) : Flt.eq (Eig.rot p q).r Flt.zero = false := by
  have hu := u_nonneg (α := α)
  have hη := η_nonneg (α := α)
  have key : ∀ {P Q : α},
      Flt.eq (Flt.mul P (Flt.sqrt (Flt.add (Flt.mul (Flt.div Q P) (Flt.div Q P)) Flt.one))) Flt.zero = false := by
    intro P Q
    rw [Bool.eq_false_iff]
    intro h
    have fr := eq_fin h zero_fin
    have h0 := (eq_iff fr zero_fin).1 h
    rw [val_zero] at h0
    obtain ⟨fP, ft⟩ := mul_fin fr
    have fy := (sqrt_fin ft).1
    obtain ⟨fm, -⟩ := add_fin fy
    have fx := (mul_fin fm).1
    have hne := div_ne fx fP
    have e2 := (add_err fy).1
    rw [val_one] at e2
    have n1 : 0 ≤ val (Flt.mul (Flt.div Q P) (Flt.div Q P)) := mul_nn fm (mul_self_nonneg _)
    have n2 : 99 / 100 ≤ val (Flt.add (Flt.mul (Flt.div Q P) (Flt.div Q P)) Flt.one) := by
      rw [abs_of_nonneg (a := val (Flt.mul (Flt.div Q P) (Flt.div Q P)) + 1) (by linarith)] at e2
      have := (abs_le.1 e2).1
      nlinarith
    have e3 := (sqrt_err ft).1
    have er := (mul_err fr).1
    generalize Flt.sqrt (Flt.add (Flt.mul (Flt.div Q P) (Flt.div Q P)) Flt.one) = T at *
    have n3 : 99 / 100 ≤ √(val (Flt.add (Flt.mul (Flt.div Q P) (Flt.div Q P)) Flt.one)) := by
      refine Real.le_sqrt_of_sq_le (le_trans ?_ n2)
      norm_num
    generalize √(val (Flt.add (Flt.mul (Flt.div Q P) (Flt.div Q P)) Flt.one)) = y at *
    have n4 : 96 / 100 ≤ val T := by
      have := (abs_le.1 e3).1
      nlinarith
    rw [h0, zero_sub, abs_neg, abs_mul] at er
    have hT1 : 96 / 100 ≤ |val T| := le_trans n4 (le_abs_self _)
    have hPp : 0 < |val P| := abs_pos.2 hne
    have h5 : 96 / 100 * |val P| ≤ |val P| * |val T| := by
      rw [mul_comm]; exact mul_le_mul_of_nonneg_left hT1 hPp.le
    have h6 : u α * (|val P| * |val T|) ≤ 1 / 100 * (|val P| * |val T|) :=
      mul_le_mul_of_nonneg_right hu2 (by positivity)
    rcases fin_tiny fP with h | h
    · exact hne h
    · linarith
  unfold Eig.rot
  split
  · exact key
  · exact key

end Linear
