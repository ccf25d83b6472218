import Verif.Lemmas.UlpBits
import Mathlib.Data.Int.Log
import Mathlib.Algebra.Order.Round
import Mathlib.Tactic.Positivity
import Mathlib.Tactic.Linarith
import Mathlib.Tactic.FieldSimp
import Mathlib.Tactic.Ring

/-!
# Rounded arithmetic

`Rnd` adds to `Flt` the laws of IEEE 754 arithmetic that error analysis uses: some values are finite
and stand for real numbers, and the result of an operation, when it is finite, is close to the exact
result.  For binary64 with rounding to nearest, `u = 2⁻⁵³` and `η = 2⁻¹⁰⁷⁵`; every law below holds
there, including for subnormal results.  Overflow is covered: nothing is said about a result that is
not finite, and a finite sum, difference or product can only come from finite operands.

`B64` is binary64 with rounding to nearest, ties to even, subnormal numbers, overflow, infinities and
NaN, its two zeros identified.  It satisfies the laws, so they are consistent and the theorems that
assume them speak about arithmetic that really rounds.
-/

namespace Linear

/-- The laws of rounded arithmetic. -/
class Rnd (α : Type) [Flt α] where
  /-- neither infinite nor NaN -/
  fin : α → Prop
  /-- the number a finite value stands for -/
  val : α → ℝ
  /-- unit round-off -/
  u : ℝ
  /-- half of the smallest positive number -/
  η : ℝ
  u_nonneg : 0 ≤ u
  u_le : u ≤ 1 / 2
  η_nonneg : 0 ≤ η
  zero_fin : fin Flt.zero
  val_zero : val Flt.zero = 0
  one_fin : fin Flt.one
  val_one : val Flt.one = 1
  two_fin : fin Flt.two
  val_two : val Flt.two = 2
  neg_fin : ∀ {x}, fin (Flt.neg x) ↔ fin x
  val_neg : ∀ {x}, fin x → val (Flt.neg x) = -val x
  abs_fin : ∀ {x}, fin (Flt.abs x) ↔ fin x
  val_abs : ∀ {x}, fin x → val (Flt.abs x) = |val x|
  add_fin : ∀ {x y}, fin (Flt.add x y) → fin x ∧ fin y
  add_err : ∀ {x y}, fin (Flt.add x y) →
    |val (Flt.add x y) - (val x + val y)| ≤ u * |val x + val y| ∧
    |val (Flt.add x y) - (val x + val y)| ≤ u * |val (Flt.add x y)|
  /-- adding a zero changes nothing -/
  zero_add : ∀ {x y}, fin (Flt.add x y) → val x = 0 → val (Flt.add x y) = val y
  add_zero : ∀ {x y}, fin (Flt.add x y) → val y = 0 → val (Flt.add x y) = val x
  sub_fin : ∀ {x y}, fin (Flt.sub x y) → fin x ∧ fin y
  sub_err : ∀ {x y}, fin (Flt.sub x y) →
    |val (Flt.sub x y) - (val x - val y)| ≤ u * |val x - val y| ∧
    |val (Flt.sub x y) - (val x - val y)| ≤ u * |val (Flt.sub x y)|
  mul_fin : ∀ {x y}, fin (Flt.mul x y) → fin x ∧ fin y
  mul_err : ∀ {x y}, fin (Flt.mul x y) →
    |val (Flt.mul x y) - val x * val y| ≤ u * |val x * val y| + η ∧
    |val (Flt.mul x y) - val x * val y| ≤ u * |val (Flt.mul x y)| + η
  div_fin : ∀ {x y}, fin (Flt.div x y) → fin x
  div_ne : ∀ {x y}, fin (Flt.div x y) → fin y → val y ≠ 0
  div_err : ∀ {x y}, fin (Flt.div x y) → fin y →
    |val (Flt.div x y) - val x / val y| ≤ u * |val x / val y| + η ∧
    |val (Flt.div x y) - val x / val y| ≤ u * |val (Flt.div x y)| + η
  /-- rounding does not cross 1 -/
  div_le_one : ∀ {x y}, fin (Flt.div x y) → fin y → |val x| ≤ |val y| → |val (Flt.div x y)| ≤ 1
  sqrt_fin : ∀ {x}, fin (Flt.sqrt x) → fin x ∧ 0 ≤ val x
  sqrt_err : ∀ {x}, fin (Flt.sqrt x) →
    |val (Flt.sqrt x) - Real.sqrt (val x)| ≤ u * Real.sqrt (val x) ∧
    |val (Flt.sqrt x) - Real.sqrt (val x)| ≤ u * |val (Flt.sqrt x)|
  /-- roots are far below the reciprocal of the smallest number -/
  sqrt_small : ∀ {x}, fin (Flt.sqrt x) → η * |val (Flt.sqrt x)| ≤ u / 2
  sqrt_bound : ∀ {x}, fin (Flt.sqrt x) → η * val (Flt.sqrt x) ^ 2 ≤ 1
  mul_neg_one : ∀ {x}, fin (Flt.mul x (Flt.neg Flt.one)) → val (Flt.mul x (Flt.neg Flt.one)) = -val x
  /-- multiplying by 1 changes nothing -/
  one_times : ∀ {x}, fin (Flt.mul Flt.one x) → val (Flt.mul Flt.one x) = val x
  /-- a product with a zero is a zero -/
  mul_of_zero : ∀ {x y}, fin (Flt.mul x y) → val x = 0 → val (Flt.mul x y) = 0
  /-- rounding does not cross 0 -/
  mul_nn : ∀ {x y}, fin (Flt.mul x y) → 0 ≤ val x * val y → 0 ≤ val (Flt.mul x y)
  /-- results up to this magnitude do not overflow -/
  big : ℝ
  big_le : 1000 ≤ big
  /-- the reciprocal of this magnitude is nearly a normal number -/
  big_η : big * η ≤ 4 * u
  add_ok : ∀ {x y}, fin x → fin y → |val x + val y| ≤ big → fin (Flt.add x y)
  sub_ok : ∀ {x y}, fin x → fin y → |val x - val y| ≤ big → fin (Flt.sub x y)
  mul_ok : ∀ {x y}, fin x → fin y → |val x * val y| ≤ big → fin (Flt.mul x y)
  div_ok : ∀ {x y}, fin x → fin y → val y ≠ 0 → |val x / val y| ≤ big → fin (Flt.div x y)
  sqrt_ok : ∀ {x}, fin x → 0 ≤ val x → fin (Flt.sqrt x)
  lt_iff : ∀ {x y}, fin x → fin y → (Flt.lt x y = true ↔ val x < val y)
  le_iff : ∀ {x y}, fin x → fin y → (Flt.le x y = true ↔ val x ≤ val y)
  eq_iff : ∀ {x y}, fin x → fin y → (Flt.eq x y = true ↔ val x = val y)
  isNaN_fin : ∀ {x}, fin x → Flt.isNaN x = false
  isInf_fin : ∀ {x}, fin x → Flt.isInf x = false
  max_fin : ∀ {x y}, fin x → fin y → fin (Flt.fmax x y) ∧ val (Flt.fmax x y) = max (val x) (val y)
  min_fin : ∀ {x y}, fin x → fin y → fin (Flt.fmin x y) ∧ val (Flt.fmin x y) = min (val x) (val y)
  /-- what the code takes for zero is at most the smallest positive number -/
  ulp_zero : ∀ {x}, Flt.ulpEq x Flt.zero = true → fin x ∧ |val x| ≤ 2 * η
  /-- such values are taken for zero, except the negative zero, which no sum with a magnitude is -/
  zero_ulp : ∀ {x y}, fin (Flt.add x (Flt.abs y)) → 0 ≤ val (Flt.add x (Flt.abs y)) →
    val (Flt.add x (Flt.abs y)) = 0 ∨ val (Flt.add x (Flt.abs y)) < 4 * η →
    Flt.ulpEq (Flt.add x (Flt.abs y)) Flt.zero = true
  /-- the reciprocal of the largest number is nearly a normal number -/
  fin_η : ∀ {x}, fin x → η * |val x| ≤ 4 * u
  /-- no number lies between 0 and the smallest positive one -/
  fin_tiny : ∀ {x}, fin x → val x = 0 ∨ 2 * η ≤ |val x|
  /-- a finite quotient by something infinite is a zero -/
  div_far : ∀ {x y}, fin (Flt.div x y) → ¬ fin y → val (Flt.div x y) = 0
  /-- only finite values are equal to a finite one -/
  eq_fin : ∀ {x y}, Flt.eq x y = true → fin y → fin x

theorem Rnd.four_le_big {α : Type} [Flt α] [Rnd α] : (4 : ℝ) ≤ Rnd.big α :=
  le_trans (by norm_num) Rnd.big_le

/-! ## A binary floating-point format -/

/-- The spacing of the numbers near `x`. -/
noncomputable def B64.ulp (x : ℝ) : ℝ := 2 ^ max (-1074) (Int.log 2 |x| - 52)

/-- The nearest integer, the even one of two. -/
noncomputable def B64.toInt (y : ℝ) : ℤ :=
  if Int.fract y = 1 / 2 then (if Even ⌊y⌋ then ⌊y⌋ else ⌊y⌋ + 1) else round y

theorem B64.abs_sub_toInt (y : ℝ) : |y - B64.toInt y| ≤ 1 / 2 := by
  unfold B64.toInt
  have hf := Int.self_sub_floor y
  split_ifs with h1 h2
  · rw [hf, h1]; norm_num
  · push_cast
    rw [show y - ((⌊y⌋ : ℝ) + 1) = (y - ⌊y⌋) - 1 by ring, hf, h1]; norm_num [abs_of_nonpos]
  · exact abs_sub_round y

theorem B64.toInt_int (k : ℤ) : B64.toInt (k : ℝ) = k := by
  unfold B64.toInt
  rw [Int.fract_intCast, if_neg (by norm_num), round_intCast]

theorem B64.toInt_of {y : ℝ} (h : Int.fract y ≠ 1 / 2) : B64.toInt y = round y := if_neg h

/-- Rounding to nearest (ties to even) without a bound on the exponent. -/
noncomputable def B64.near (x : ℝ) : ℝ := B64.toInt (x / B64.ulp x) * B64.ulp x

theorem B64.ulp_pos (x : ℝ) : 0 < B64.ulp x := zpow_pos (by norm_num) _

@[simp] theorem B64.near_zero : B64.near 0 = 0 := by
  have := B64.toInt_int 0
  simp only [Int.cast_zero] at this
  simp [B64.near, this]

theorem B64.near_nonneg {x : ℝ} (h : 0 ≤ x) : 0 ≤ B64.near x := by
  have hp := B64.ulp_pos x
  refine mul_nonneg ?_ hp.le
  have h1 := (abs_le.1 (B64.abs_sub_toInt (x / B64.ulp x))).2
  have h2 : 0 ≤ x / B64.ulp x := div_nonneg h hp.le
  have h3 : (-1 : ℝ) < B64.toInt (x / B64.ulp x) := by linarith
  have h4 : (-1 : ℤ) < B64.toInt (x / B64.ulp x) := by exact_mod_cast h3
  have h5 : (0 : ℤ) ≤ B64.toInt (x / B64.ulp x) := by omega
  exact_mod_cast h5

theorem B64.near_half (x : ℝ) : |B64.near x - x| ≤ B64.ulp x / 2 := by
  have h := B64.abs_sub_toInt (x / B64.ulp x)
  have hp := B64.ulp_pos x
  have : B64.near x - x = -(x / B64.ulp x - B64.toInt (x / B64.ulp x)) * B64.ulp x := by
    unfold B64.near
    field_simp
    ring
  rw [this, abs_mul, abs_neg, abs_of_pos hp]
  nlinarith

/-- A multiple of 2⁻¹⁰⁷⁴. -/
def B64.Grid (x : ℝ) : Prop := ∃ k : ℤ, x = k * 2 ^ (-1074 : ℤ)

theorem B64.Grid.add {x y : ℝ} (hx : B64.Grid x) (hy : B64.Grid y) : B64.Grid (x + y) := by
  obtain ⟨k, rfl⟩ := hx
  obtain ⟨l, rfl⟩ := hy
  exact ⟨k + l, by push_cast; ring⟩

theorem B64.Grid.sub {x y : ℝ} (hx : B64.Grid x) (hy : B64.Grid y) : B64.Grid (x - y) := by
  obtain ⟨k, rfl⟩ := hx
  obtain ⟨l, rfl⟩ := hy
  exact ⟨k - l, by push_cast; ring⟩

/-- Multiples of the smallest number that are small are unchanged. -/
theorem B64.near_sub {x : ℝ} (hx : B64.Grid x)
    (h : Int.log 2 |x| - 52 ≤ -1074) : B64.near x = x := by
  obtain ⟨k, hk⟩ := hx
  have : B64.ulp x = 2 ^ (-1074 : ℤ) := by unfold B64.ulp; rw [max_eq_left h]
  unfold B64.near
  rw [this]
  have h2 : x / 2 ^ (-1074 : ℤ) = k := by rw [hk, mul_div_assoc, div_self (zpow_pos (by norm_num) _).ne', mul_one]
  rw [h2, B64.toInt_int, hk]

/-- The error in the normal range, relative to the argument and to the result. -/
theorem B64.near_norm {x : ℝ} (h : -1074 ≤ Int.log 2 |x| - 52) (hx : x ≠ 0) :
    |B64.near x - x| ≤ (1 / 2) ^ 53 * |x| ∧ |B64.near x - x| ≤ (1 / 2) ^ 53 * |B64.near x| := by
  have hu : B64.ulp x = 2 ^ (Int.log 2 |x| - 52) := by unfold B64.ulp; rw [max_eq_right h]
  have hp := B64.ulp_pos x
  have hh := B64.near_half x
  have hlo : (2 : ℝ) ^ Int.log 2 |x| ≤ |x| := Int.zpow_log_le_self (by norm_num) (abs_pos.2 hx)
  have he : B64.ulp x / 2 = (1 / 2) ^ 53 * 2 ^ Int.log 2 |x| := by
    rw [hu, zpow_sub₀ (by norm_num)]
    norm_num
    ring
  refine ⟨hh.trans (he ▸ by gcongr), hh.trans (he ▸ ?_)⟩
  gcongr
  -- the power of two below `|x|` is on the grid, so rounding does not cross it
  have h52 : (2 : ℝ) ^ Int.log 2 |x| = (2 ^ 52 : ℤ) * B64.ulp x := by
    rw [hu, zpow_sub₀ (by norm_num)]
    push_cast
    field_simp
    norm_num
  have key : ∀ y : ℝ, (2 ^ 52 : ℤ) ≤ |y| → ((2 ^ 52 : ℤ) : ℝ) ≤ |(B64.toInt y : ℝ)| := by
    intro y hy
    have h1 := abs_le.1 (B64.abs_sub_toInt y)
    have hz : ((2 ^ 52 : ℤ)) ≤ |B64.toInt y| := by
      by_contra hc
      rw [not_le] at hc
      have h3 : |B64.toInt y| ≤ 2 ^ 52 - 1 := by omega
      have h4 : |(B64.toInt y : ℝ)| ≤ 2 ^ 52 - 1 := by exact_mod_cast h3
      rcases abs_cases y with ⟨e, _⟩ | ⟨e, _⟩ <;> rw [e] at hy <;> push_cast at hy <;>
        have := abs_le.1 h4 <;> linarith
    exact_mod_cast hz
  unfold B64.near
  rw [h52, abs_mul, abs_of_pos hp]
  refine mul_le_mul_of_nonneg_right (key _ ?_) hp.le
  rw [abs_div, abs_of_pos hp, le_div_iff₀ hp, ← h52]
  exact hlo

/-- The error of any rounding: relative, plus half the smallest number. -/
theorem B64.near_err (x : ℝ) :
    |B64.near x - x| ≤ (1 / 2) ^ 53 * |x| + (1 / 2) ^ 1075 ∧
    |B64.near x - x| ≤ (1 / 2) ^ 53 * |B64.near x| + (1 / 2) ^ 1075 := by
  by_cases e : x = 0
  · subst e
    rw [B64.near_zero, sub_self, abs_zero]
    exact ⟨by positivity, by positivity⟩
  by_cases h : -1074 ≤ Int.log 2 |x| - 52
  · have := B64.near_norm h e
    exact ⟨this.1.trans (by simp), this.2.trans (by simp)⟩
  · have hs : B64.ulp x = 2 ^ (-1074 : ℤ) := by
      unfold B64.ulp
      rw [max_eq_left (by omega)]
    have hh := B64.near_half x
    have : B64.ulp x / 2 = (1 / 2) ^ 1075 := by
      rw [hs, zpow_neg, one_div, inv_pow, show (1074 : ℤ) = ((1074 : ℕ) : ℤ) from rfl, zpow_natCast,
        pow_succ (2 : ℝ) 1074, mul_inv, div_eq_mul_inv]
    rw [this] at hh
    have h53 : (0 : ℝ) ≤ (1 / 2) ^ 53 := by norm_num
    generalize (1 / 2 : ℝ) ^ 1075 = t at hh
    exact ⟨hh.trans (le_add_of_nonneg_left (mul_nonneg h53 (abs_nonneg _))),
      hh.trans (le_add_of_nonneg_left (mul_nonneg h53 (abs_nonneg _)))⟩

/-- Sums of numbers on the grid have no absolute error term. -/
theorem B64.near_add {x : ℝ} (hx : B64.Grid x) :
    |B64.near x - x| ≤ (1 / 2) ^ 53 * |x| ∧ |B64.near x - x| ≤ (1 / 2) ^ 53 * |B64.near x| := by
  by_cases e : x = 0
  · subst e
    rw [B64.near_zero, sub_self, abs_zero]
    exact ⟨by positivity, by positivity⟩
  by_cases h : Int.log 2 |x| - 52 ≤ -1074
  · rw [B64.near_sub hx h, sub_self, abs_zero]
    exact ⟨by positivity, by positivity⟩
  · exact B64.near_norm (by omega) e

/-- The root of a number of the grid is far above the subnormal range. -/
theorem B64.near_sqrt {x : ℝ} (hx : B64.Grid x) (h0 : 0 ≤ x) :
    |B64.near √x - √x| ≤ (1 / 2) ^ 53 * √x ∧ |B64.near √x - √x| ≤ (1 / 2) ^ 53 * |B64.near √x| := by
  by_cases e : x = 0
  · subst e
    rw [Real.sqrt_zero, B64.near_zero, sub_self, abs_zero]
    exact ⟨by positivity, by positivity⟩
  have hp : 0 < √x := Real.sqrt_pos.2 (lt_of_le_of_ne h0 (Ne.symm e))
  have h1 : (2 : ℝ) ^ (-537 : ℤ) ≤ √x := by
    refine Real.le_sqrt_of_sq_le ?_
    obtain ⟨k, hk⟩ := hx
    have hk0 : 0 < k := by
      by_contra hc
      have : (k : ℝ) ≤ 0 := by exact_mod_cast not_lt.1 hc
      have := mul_nonpos_of_nonpos_of_nonneg this (zpow_pos (show (0 : ℝ) < 2 by norm_num) (-1074)).le
      exact e (le_antisymm (hk ▸ this) h0)
    have hk1 : (1 : ℝ) ≤ k := by exact_mod_cast hk0
    rw [hk, ← zpow_natCast, ← zpow_mul]
    norm_num only
    have h2 := zpow_pos (show (0 : ℝ) < 2 by norm_num) (-1074)
    calc (2 : ℝ) ^ (-1074 : ℤ) = 1 * 2 ^ (-1074 : ℤ) := (one_mul _).symm
      _ ≤ _ := mul_le_mul_of_nonneg_right hk1 h2.le
  have h2 : -537 ≤ Int.log 2 |√x| := by
    rw [abs_of_pos hp]
    exact (Int.zpow_le_iff_le_log (by norm_num) hp).1 (by exact_mod_cast h1)
  have := B64.near_norm (x := √x) (by omega) hp.ne'
  rwa [abs_of_pos hp] at this

theorem B64.near_sqrt_small {x : ℝ} (hg : B64.Grid x) (hx : 0 ≤ x) (hb : |x| < 2 ^ 1024) :
    (1 / 2 : ℝ) ^ 1075 * |B64.near √x| ≤ (1 / 2) ^ 53 / 2 := by
  have h1 : √x ≤ 2 ^ 512 := by
    rw [Real.sqrt_le_left (by positivity), ← pow_mul]
    exact (le_abs_self x).trans hb.le
  have h2 := (B64.near_sqrt hg hx).1
  have h3 : |B64.near √x| ≤ 2 ^ 513 := by
    have h4 := abs_sub_abs_le_abs_sub (B64.near √x) √x
    rw [abs_of_nonneg (Real.sqrt_nonneg x)] at h4
    have h5 : (1 / 2 : ℝ) ^ 53 * √x ≤ 1 * √x :=
      mul_le_mul_of_nonneg_right (by norm_num) (Real.sqrt_nonneg x)
    rw [show (2 : ℝ) ^ 513 = 2 ^ 512 * 2 from pow_succ _ _]
    generalize (2 : ℝ) ^ 512 = w at h1 ⊢
    generalize (1 / 2 : ℝ) ^ 53 * √x = v at h2 h5
    linarith
  refine (mul_le_mul_of_nonneg_left h3 (by positivity)).trans ?_
  rw [show (1 / 2 : ℝ) ^ 1075 = (1 / 2) ^ 513 * ((1 / 2) ^ 54 * (1 / 2) ^ 508) by
    rw [← pow_add, ← pow_add], mul_right_comm, ← mul_pow, one_div_mul_cancel (by norm_num), one_pow,
    one_mul, show (1 / 2 : ℝ) ^ 53 / 2 = (1 / 2) ^ 54 * 1 by norm_num]
  exact mul_le_mul_of_nonneg_left (pow_le_one₀ (by norm_num) (by norm_num)) (by positivity)

/-- A number with a significand of 53 bits. -/
def B64.Rep (x : ℝ) : Prop := ∃ m e : ℤ, |m| ≤ 2 ^ 53 ∧ -1074 ≤ e ∧ x = m * 2 ^ e

theorem B64.Rep.grid {x : ℝ} (h : B64.Rep x) : B64.Grid x := by
  obtain ⟨m, e, -, h1, rfl⟩ := h
  refine ⟨m * 2 ^ (e + 1074).toNat, ?_⟩
  push_cast
  rw [mul_assoc]
  congr 1
  rw [← zpow_natCast, ← zpow_add₀ (by norm_num)]
  congr 1
  omega

theorem B64.Rep.int {k : ℤ} (h : |k| ≤ 2 ^ 53) : B64.Rep k := ⟨k, 0, h, by norm_num, by simp⟩

theorem B64.Rep.neg {x : ℝ} (hx : B64.Rep x) : B64.Rep (-x) := by
  obtain ⟨m, e, h1, h2, rfl⟩ := hx
  exact ⟨-m, e, by rwa [abs_neg], h2, by push_cast; ring⟩

theorem B64.Rep.abs {x : ℝ} (hx : B64.Rep x) : B64.Rep |x| := by
  rcases abs_choice x with e | e <;> rw [e]
  · exact hx
  · exact hx.neg

/-- What rounding answers has 53 bits. -/
theorem B64.near_rep (x : ℝ) : B64.Rep (B64.near x) := by
  refine ⟨B64.toInt (x / B64.ulp x), max (-1074) (Int.log 2 |x| - 52), ?_, le_max_left _ _, rfl⟩
  have hp := B64.ulp_pos x
  have hb : |x| < 2 ^ 53 * B64.ulp x := by
    refine (Int.lt_zpow_succ_log_self (show 1 < 2 by norm_num) |x|).trans_le ?_
    rw [show (2 : ℝ) ^ 53 * B64.ulp x = 2 ^ (53 + max (-1074) (Int.log 2 |x| - 52)) by
      unfold B64.ulp; rw [zpow_add₀ (by norm_num)]; norm_num]
    refine zpow_le_zpow_right₀ (by norm_num) ?_
    have := le_max_right (-1074) (Int.log 2 |x| - 52)
    omega
  have h1 : |x / B64.ulp x| < 2 ^ 53 := by
    rwa [abs_div, abs_of_pos hp, div_lt_iff₀ hp]
  by_contra hc
  have h2 : 2 ^ 53 + 1 ≤ |B64.toInt (x / B64.ulp x)| := by omega
  have h3 : (2 ^ 53 + 1 : ℝ) ≤ |(B64.toInt (x / B64.ulp x) : ℝ)| := by exact_mod_cast h2
  have h4 := B64.abs_sub_toInt (x / B64.ulp x)
  have h5 := abs_sub_abs_le_abs_sub (B64.toInt (x / B64.ulp x) : ℝ) (x / B64.ulp x)
  rw [abs_sub_comm] at h5
  linarith

theorem B64.near_int {x : ℝ} (h : ∃ k : ℤ, x = k * B64.ulp x) : B64.near x = x := by
  obtain ⟨k, hk⟩ := h
  unfold B64.near
  rw [show x / B64.ulp x = k by rw [div_eq_iff (B64.ulp_pos x).ne']; exact hk, B64.toInt_int, ← hk]

/-- Numbers of 53 bits are unchanged. -/
theorem B64.near_of_rep {x : ℝ} (h : B64.Rep x) : B64.near x = x := by
  obtain ⟨m, e, h1, h2, rfl⟩ := h
  by_cases hm : m = 0
  · subst hm; simp
  have hm' : (0 : ℝ) < |(m : ℝ)| := abs_pos.2 (by exact_mod_cast hm)
  have hx : (0 : ℝ) < |(m : ℝ) * 2 ^ e| := by
    rw [abs_mul, abs_of_pos (zpow_pos (show (0 : ℝ) < 2 by norm_num) e)]
    exact mul_pos hm' (zpow_pos (by norm_num) e)
  refine B64.near_int ?_
  set L := Int.log 2 |(m : ℝ) * 2 ^ e| with hL
  have hu : B64.ulp ((m : ℝ) * 2 ^ e) = 2 ^ max (-1074) (L - 52) := rfl
  rw [hu]
  by_cases hle : max (-1074) (L - 52) ≤ e
  · refine ⟨m * 2 ^ (e - max (-1074) (L - 52)).toNat, ?_⟩
    push_cast
    rw [mul_assoc]
    congr 1
    rw [← zpow_natCast, ← zpow_add₀ (by norm_num)]
    congr 1
    omega
  · have hL1 : e + 53 ≤ L := by
      have := max_lt_iff.not.1 (show ¬ max (-1074) (L - 52) < e + 1 by omega)
      by_contra hc
      exact this ⟨by omega, by omega⟩
    have h3 := Int.zpow_log_le_self (show 1 < 2 by norm_num) hx
    rw [← hL] at h3
    have h4 : ((2 : ℕ) : ℝ) ^ (e + 53) ≤ ((2 : ℕ) : ℝ) ^ L := zpow_le_zpow_right₀ (by norm_num) hL1
    have hp := zpow_pos (show (0 : ℝ) < 2 by norm_num) e
    rw [abs_mul, abs_of_pos hp] at h3
    have h5 : (2 : ℝ) ^ 53 ≤ |(m : ℝ)| := by
      have : (2 : ℝ) ^ (e + 53) = 2 ^ 53 * 2 ^ e := by
        rw [zpow_add₀ (by norm_num), mul_comm]; norm_num
      have h6 : (2 : ℝ) ^ 53 * 2 ^ e ≤ |(m : ℝ)| * 2 ^ e := by
        rw [← this]
        exact_mod_cast h4.trans h3
      exact le_of_mul_le_mul_right h6 hp
    have h6 : |m| = 2 ^ 53 := le_antisymm h1 (by exact_mod_cast h5)
    have hL2 : L = e + 53 := by
      refine le_antisymm ?_ hL1
      have h7 : |(m : ℝ) * 2 ^ e| = ((2 : ℕ) : ℝ) ^ (e + 53) := by
        have : |(m : ℝ)| = 2 ^ 53 := by exact_mod_cast h6
        rw [abs_mul, abs_of_pos hp, this, Nat.cast_ofNat, zpow_add₀ (by norm_num), mul_comm]
        norm_num
      rw [hL, h7, Int.log_zpow (by norm_num)]
    have hd : ∃ s : ℤ, m = s * 2 ^ 53 := by
      rcases abs_choice m with h | h
      · exact ⟨1, by rw [← h6, h, one_mul]⟩
      · exact ⟨-1, by rw [← h6, h]; ring⟩
    obtain ⟨s, hs⟩ := hd
    refine ⟨s * 2 ^ 52, ?_⟩
    rw [hL2, max_eq_right (by omega), hs, show e + 53 - 52 = e + 1 by ring, zpow_add₀ (by norm_num)]
    push_cast
    ring

/-- Rounding does not cross 1. -/
theorem B64.near_le_one {x : ℝ} (h : |x| ≤ 1) : |B64.near x| ≤ 1 := by
  have hp := B64.ulp_pos x
  have hl : Int.log 2 |x| ≤ 0 := by
    by_cases e : |x| = 0
    · rw [e, Int.log_of_right_le_zero _ le_rfl]
    · have h1 := Int.zpow_log_le_self (show 1 < 2 by norm_num) (lt_of_le_of_ne (abs_nonneg x) (Ne.symm e))
      by_contra hc
      have h2 : ((2 : ℕ) : ℝ) ^ (1 : ℤ) ≤ ((2 : ℕ) : ℝ) ^ Int.log 2 |x| :=
        zpow_le_zpow_right₀ (by norm_num) (by omega)
      norm_num at h2
      norm_num at h1
      linarith
  set t := max (-1074) (Int.log 2 |x| - 52) with ht
  have hN : (1 : ℝ) = ((2 ^ (-t).toNat : ℤ) : ℝ) * B64.ulp x := by
    unfold B64.ulp
    rw [← ht, Int.cast_pow, Int.cast_ofNat, ← zpow_natCast, ← zpow_add₀ (by norm_num)]
    rw [show ((-t).toNat : ℤ) + t = 0 by
      have : t ≤ 0 := max_le (by norm_num) (by omega)
      omega]
    simp
  set N : ℤ := 2 ^ (-t).toNat with hNd
  have h1 : |x / B64.ulp x| ≤ N := by
    rw [abs_div, abs_of_pos hp, div_le_iff₀ hp, ← hN]
    exact h
  have h2 : |B64.toInt (x / B64.ulp x)| ≤ N := by
    by_contra hc
    have h3 : (N : ℝ) + 1 ≤ |(B64.toInt (x / B64.ulp x) : ℝ)| := by
      have : N + 1 ≤ |B64.toInt (x / B64.ulp x)| := by omega
      exact_mod_cast this
    have h4 := B64.abs_sub_toInt (x / B64.ulp x)
    have h5 := abs_sub_abs_le_abs_sub (B64.toInt (x / B64.ulp x) : ℝ) (x / B64.ulp x)
    rw [abs_sub_comm] at h5
    linarith
  unfold B64.near
  rw [abs_mul, abs_of_pos hp]
  calc |(B64.toInt (x / B64.ulp x) : ℝ)| * B64.ulp x ≤ N * B64.ulp x := by
        refine mul_le_mul_of_nonneg_right ?_ hp.le
        exact_mod_cast h2
    _ = 1 := hN.symm

/-- A number of the format. -/
def B64.Num (x : ℝ) : Prop := B64.Rep x ∧ |x| < 2 ^ 1024

theorem B64.Num.int {k : ℤ} (h : |k| ≤ 2 ^ 53) : B64.Num k := by
  refine ⟨B64.Rep.int h, ?_⟩
  have h1 : |(k : ℝ)| ≤ 2 ^ 53 := by exact_mod_cast h
  refine h1.trans_lt ?_
  exact pow_lt_pow_right₀ (by norm_num) (by norm_num)

theorem B64.Num.neg {x : ℝ} (hx : B64.Num x) : B64.Num (-x) := ⟨hx.1.neg, by rw [abs_neg]; exact hx.2⟩

theorem B64.Num.abs {x : ℝ} (hx : B64.Num x) : B64.Num |x| := ⟨hx.1.abs, by rw [abs_abs]; exact hx.2⟩

/-- Numbers, infinities and NaN; a single zero. -/
inductive B64 : Type
  | num (x : ℝ) (h : B64.Num x) : B64
  | inf (neg : Bool) : B64
  | nan : B64

namespace B64

/-- Rounding to nearest, with overflow to an infinity. -/
noncomputable def rnd (x : ℝ) : B64 :=
  if h : |near x| < 2 ^ 1024 then num (near x) ⟨near_rep x, h⟩ else inf (decide (x < 0))

noncomputable def add : B64 → B64 → B64
  | num x _, num y _ => rnd (x + y)
  | num _ _, inf s => inf s
  | inf s, num _ _ => inf s
  | inf s, inf t => if s = t then inf s else nan
  | _, _ => nan

noncomputable def neg : B64 → B64
  | num x h => num (-x) h.neg
  | inf s => inf !s
  | nan => nan

noncomputable def abs : B64 → B64
  | num x h => num |x| h.abs
  | inf _ => inf false
  | nan => nan

noncomputable def sub : B64 → B64 → B64
  | num x _, num y _ => rnd (x - y)
  | x, y => add x (neg y)

noncomputable def mul : B64 → B64 → B64
  | num x _, num y _ => rnd (x * y)
  | num x _, inf s => if x = 0 then nan else inf (s ^^ decide (x < 0))
  | inf s, num x _ => if x = 0 then nan else inf (s ^^ decide (x < 0))
  | inf s, inf t => inf (s ^^ t)
  | _, _ => nan

noncomputable def div : B64 → B64 → B64
  | num x _, num y _ => if y = 0 then (if x = 0 then nan else inf (decide (x < 0))) else rnd (x / y)
  | num _ _, inf _ => num (0 : ℤ) (Num.int (k := 0) (by norm_num))
  | inf s, num x _ => inf (s ^^ decide (x < 0))
  | _, _ => nan

noncomputable def sqrt : B64 → B64
  | num x _ => if x < 0 then nan else rnd √x
  | inf false => inf false
  | _ => nan

/-- `math.Max`. -/
noncomputable def fmax : B64 → B64 → B64
  | num x hx, num y hy => if x < y then num y hy else num x hx
  | inf false, _ => inf false
  | _, inf false => inf false
  | num x h, inf true => num x h
  | inf true, num x h => num x h
  | inf true, inf true => inf true
  | _, _ => nan

/-- `math.Min`. -/
noncomputable def fmin (x y : B64) : B64 := neg (fmax (neg x) (neg y))

noncomputable def lt : B64 → B64 → Bool
  | num x _, num y _ => decide (x < y)
  | num _ _, inf s => !s
  | inf s, num _ _ => s
  | inf s, inf t => s && !t
  | _, _ => false

noncomputable def eq : B64 → B64 → Bool
  | num x _, num y _ => decide (x = y)
  | inf s, inf t => s == t
  | _, _ => false

/-- The exponent and the significand as stored, without the sign. -/
noncomputable def mag (x : ℝ) : ℕ :=
  if |x| < 2 ^ (-1022 : ℤ) then ⌊|x| / 2 ^ (-1074 : ℤ)⌋₊
  else (Int.log 2 |x| + 1022).toNat * 2 ^ 52 + ⌊|x| / 2 ^ (Int.log 2 |x| - 52)⌋₊

/-- `math.Float64bits`; the only zero is the positive one. -/
noncomputable def bits : B64 → BitVec 64
  | num x _ => BitVec.ofNat 64 (mag x + if x < 0 then 2 ^ 63 else 0)
  | inf s => if s then 0xFFF0000000000000#64 else 0x7FF0000000000000#64
  | nan => 0x7FF8000000000001#64

theorem two_zpow_pos {e : ℤ} : (0 : ℝ) < 2 ^ e := zpow_pos (by norm_num) _

theorem mag_le {x : ℝ} (h : Num x) : mag x < 2 ^ 63 - 1 := by
  unfold mag
  split_ifs with h0
  · have h1 : |x| / 2 ^ (-1074 : ℤ) < 2 ^ 52 := by
      rw [div_lt_iff₀ two_zpow_pos]
      refine h0.trans_eq ?_
      rw [show (2 : ℝ) ^ 52 = 2 ^ (52 : ℤ) by norm_num, ← zpow_add₀ (by norm_num)]
      norm_num
    have h2 : ⌊|x| / 2 ^ (-1074 : ℤ)⌋₊ < 2 ^ 52 := by
      rw [Nat.floor_lt (div_nonneg (abs_nonneg _) two_zpow_pos.le)]
      exact_mod_cast h1
    omega
  · have hp : 0 < |x| := lt_of_lt_of_le two_zpow_pos (not_lt.1 h0)
    have h1 : |x| / 2 ^ (Int.log 2 |x| - 52) < 2 ^ 53 := by
      rw [div_lt_iff₀ two_zpow_pos]
      refine (Int.lt_zpow_succ_log_self (show 1 < 2 by norm_num) |x|).trans_eq ?_
      rw [show (2 : ℝ) ^ 53 = 2 ^ (53 : ℤ) by norm_num, Nat.cast_ofNat, ← zpow_add₀ (by norm_num)]
      congr 1
      ring
    have h2 : ⌊|x| / 2 ^ (Int.log 2 |x| - 52)⌋₊ < 2 ^ 53 := by
      rw [Nat.floor_lt (div_nonneg (abs_nonneg _) two_zpow_pos.le)]
      exact_mod_cast h1
    have h3 : Int.log 2 |x| < 1024 := by
      refine (Int.lt_zpow_iff_log_lt (by norm_num) hp).1 ?_
      exact_mod_cast h.2
    omega

theorem bits_le_one {x : ℝ} {h : Num x} : (bits (num x h)).toNat ≤ 1 ↔ 0 ≤ x ∧ x ≤ 2 ^ (-1074 : ℤ) := by
  have hm := mag_le h
  have e1 : (bits (num x h)).toNat = mag x + if x < 0 then 2 ^ 63 else 0 := by
    unfold bits
    rw [BitVec.toNat_ofNat, Nat.mod_eq_of_lt]
    split_ifs <;> omega
  rw [e1]
  by_cases hx : x < 0
  · rw [if_pos hx]
    constructor
    · intro h; omega
    · rintro ⟨h, -⟩; linarith
  · rw [if_neg hx, Nat.add_zero]
    have hx := not_lt.1 hx
    rw [and_iff_right hx]
    have hlt : (2 : ℝ) ^ (-1074 : ℤ) < 2 ^ (-1022 : ℤ) := zpow_lt_zpow_right₀ (by norm_num) (by norm_num)
    unfold mag
    rw [abs_of_nonneg hx]
    split_ifs with h0
    · have hp : (0 : ℝ) < 2 ^ (-1074 : ℤ) := two_zpow_pos
      constructor
      · intro h1
        obtain ⟨k, hk⟩ := h.1.grid
        have h2 : x / 2 ^ (-1074 : ℤ) = k := by rw [hk]; field_simp
        rw [h2, ← Nat.lt_succ_iff, Nat.floor_lt' (by norm_num)] at h1
        have h3 : k < 2 := by exact_mod_cast h1
        have h4 : (k : ℝ) ≤ 1 := by exact_mod_cast (show k ≤ 1 by omega)
        rw [hk]
        nlinarith
      · intro h1
        rw [← Nat.lt_succ_iff, Nat.floor_lt' (by norm_num)]
        have : x / 2 ^ (-1074 : ℤ) ≤ 1 := (div_le_one hp).2 h1
        linarith
    · have hp : 0 < x := lt_of_lt_of_le two_zpow_pos (not_lt.1 h0)
      refine ⟨fun h1 => ?_, fun h1 => absurd (h1.trans_lt hlt) h0⟩
      exfalso
      have h2 : (2 : ℝ) ^ 52 ≤ x / 2 ^ (Int.log 2 x - 52) := by
        rw [le_div_iff₀ two_zpow_pos]
        refine le_trans (le_of_eq ?_) (Int.zpow_log_le_self (show 1 < 2 by norm_num) hp)
        rw [show (2 : ℝ) ^ 52 = 2 ^ (52 : ℤ) by norm_num, Nat.cast_ofNat, ← zpow_add₀ (by norm_num)]
        congr 1
        ring
      have h3 : 2 ^ 52 ≤ ⌊x / 2 ^ (Int.log 2 x - 52)⌋₊ := Nat.le_floor (by exact_mod_cast h2)
      omega

/-- `equals`, `/repo/utils.go:74-76`, on the patterns. -/
noncomputable def ulpEq (x y : B64) : Bool :=
  equalsBits 0x8000000000000000#64 0x8000000000000000#64 (bits x) (bits y)

theorem bits_zero (h : Num ((0 : ℤ) : ℝ)) : bits (num (0 : ℤ) h) = 0#64 := by
  unfold bits mag
  simp

noncomputable instance : Flt B64 where
  zero := num (0 : ℤ) (Num.int (k := 0) (by norm_num))
  one := num (1 : ℤ) (Num.int (k := 1) (by norm_num))
  two := num (2 : ℤ) (Num.int (k := 2) (by norm_num))
  add := add
  sub := sub
  mul := mul
  div := div
  neg := neg
  abs := abs
  sqrt := sqrt
  fmax := fmax
  fmin := fmin
  lt := lt
  le x y := lt x y || eq x y
  eq := eq
  isNaN x := match x with
    | nan => true
    | _ => false
  isInf x := match x with
    | inf _ => true
    | _ => false
  nan := nan
  ulpEq := ulpEq

/-- Neither infinite nor NaN. -/
def Fin : B64 → Prop
  | num _ _ => True
  | _ => False

noncomputable def toReal : B64 → ℝ
  | num x _ => x
  | _ => 0

theorem rnd_fin {x : ℝ} (h : Fin (rnd x)) : toReal (rnd x) = near x := by
  unfold rnd at h ⊢
  split_ifs at h ⊢
  · rfl
  · exact h.elim

theorem rnd_ok {x : ℝ} (h : |x| ≤ 2 ^ 1023) : Fin (rnd x) := by
  have h1 := (near_err x).1
  have h2 : |near x| < 2 ^ 1024 := by
    have h3 : |near x| ≤ |x| + |near x - x| := by
      calc |near x| = |x + (near x - x)| := by congr 1; ring
        _ ≤ _ := abs_add_le _ _
    have h4 : (1 / 2 : ℝ) ^ 53 * |x| ≤ 1 / 2 * |x| :=
      mul_le_mul_of_nonneg_right (by norm_num) (abs_nonneg _)
    have h5 : (1 / 2 : ℝ) ^ 1075 ≤ 1 := pow_le_one₀ (by norm_num) (by norm_num)
    have h6 : (4 : ℝ) ≤ 2 ^ 1023 := by
      rw [show (4 : ℝ) = 2 ^ 2 by norm_num]
      exact pow_le_pow_right₀ (by norm_num) (by norm_num)
    rw [show (2 : ℝ) ^ 1024 = 2 ^ 1023 * 2 from pow_succ _ _]
    generalize (2 : ℝ) ^ 1023 = w at *
    generalize (1 / 2 : ℝ) ^ 1075 = t at *
    generalize (1 / 2 : ℝ) ^ 53 * |x| = v at *
    linarith
  unfold rnd
  rw [dif_pos h2]
  trivial

theorem Num.sqrt_le {x : ℝ} (hx : Num x) (_h0 : 0 ≤ x) : √x ≤ 2 ^ 512 := by
  rw [Real.sqrt_le_left (by positivity), ← pow_mul]
  exact (le_abs_self x).trans hx.2.le

theorem ulpEq_zero (x : B64) :
    Flt.ulpEq x Flt.zero = true ↔ Fin x ∧ 0 ≤ toReal x ∧ toReal x ≤ 2 ^ (-1074 : ℤ) := by
  show ulpEq x (num (0 : ℤ) _) = true ↔ _
  unfold ulpEq
  rw [bits_zero, equalsBits_zero]
  rcases x with ⟨x, hx⟩ | ⟨_ | _⟩ | _
  · rw [bits_le_one]
    exact (and_iff_right trivial).symm
  · exact ⟨fun h => absurd h (by decide), fun h => h.1.elim⟩
  · exact ⟨fun h => absurd h (by decide), fun h => h.1.elim⟩
  · exact ⟨fun h => absurd h (by decide), fun h => h.1.elim⟩

theorem two_η : (2 : ℝ) * (1 / 2) ^ 1075 = 2 ^ (-1074 : ℤ) := by
  rw [zpow_neg, show ((1074 : ℤ)) = ((1074 : ℕ) : ℤ) by norm_num, zpow_natCast, ← inv_pow, pow_succ, one_div]
  ring

noncomputable instance : Rnd B64 where
  fin := Fin
  val := toReal
  u := (1 / 2) ^ 53
  η := (1 / 2) ^ 1075
  u_nonneg := by positivity
  u_le := by norm_num
  η_nonneg := by positivity
  zero_fin := trivial
  val_zero := Int.cast_zero
  one_fin := trivial
  val_one := Int.cast_one
  two_fin := trivial
  val_two := by show ((2 : ℤ) : ℝ) = 2; norm_num
  neg_fin := by rintro ⟨⟩ <;> exact Iff.rfl
  val_neg := by rintro (_ | _ | _) h <;> first | rfl | exact h.elim
  abs_fin := by rintro ⟨⟩ <;> exact Iff.rfl
  val_abs := by rintro (_ | _ | _) h <;> first | rfl | exact h.elim
  add_fin := by
    rintro (_ | _ | _) (_ | _ | _) h <;> first | exact ⟨trivial, trivial⟩ | exact h.elim | skip
    exact (show Fin (if _ then _ else _) from h) |> fun h => by split_ifs at h <;> exact h.elim
  add_err := by
    rintro (⟨x, hx⟩ | _ | _) (⟨y, hy⟩ | _ | _) h <;> first | exact h.elim | skip
    · have := near_add (hx.1.grid.add hy.1.grid)
      rw [← rnd_fin (show Fin (rnd (x + y)) from h)] at this
      exact this
    · exact (show Fin (if _ then _ else _) from h) |> fun h => by split_ifs at h <;> exact h.elim
  zero_add := by
    rintro (⟨x, hx⟩ | _ | _) (⟨y, hy⟩ | _ | _) h h0 <;> first | exact h.elim | skip
    · have h1 : x = 0 := h0
      have h2 := rnd_fin (show Fin (rnd (x + y)) from h)
      rw [h1, _root_.zero_add, near_of_rep hy.1] at h2
      show toReal (rnd (x + y)) = y
      rw [h1, _root_.zero_add, h2]
    · exact (show Fin (if _ then _ else _) from h) |> fun h => by split_ifs at h <;> exact h.elim
  add_zero := by
    rintro (⟨x, hx⟩ | _ | _) (⟨y, hy⟩ | _ | _) h h0 <;> first | exact h.elim | skip
    · have h1 : y = 0 := h0
      have h2 := rnd_fin (show Fin (rnd (x + y)) from h)
      rw [h1, _root_.add_zero, near_of_rep hx.1] at h2
      show toReal (rnd (x + y)) = x
      rw [h1, _root_.add_zero, h2]
    · exact (show Fin (if _ then _ else _) from h) |> fun h => by split_ifs at h <;> exact h.elim
  sub_fin := by
    rintro (_ | _ | _) (_ | _ | _) h <;> first | exact ⟨trivial, trivial⟩ | exact h.elim | skip
    exact (show Fin (if _ then _ else _) from h) |> fun h => by split_ifs at h <;> exact h.elim
  sub_err := by
    rintro (⟨x, hx⟩ | _ | _) (⟨y, hy⟩ | _ | _) h <;> first | exact h.elim | skip
    · have := near_add (hx.1.grid.sub hy.1.grid)
      rw [← rnd_fin (show Fin (rnd (x - y)) from h)] at this
      exact this
    · exact (show Fin (if _ then _ else _) from h) |> fun h => by split_ifs at h <;> exact h.elim
  mul_fin := by
    rintro (_ | _ | _) (_ | _ | _) h <;> first | exact ⟨trivial, trivial⟩ | exact h.elim | skip
    all_goals
      exact (show Fin (if _ then _ else _) from h) |> fun h => by split_ifs at h <;> exact h.elim
  mul_err := by
    rintro (⟨x, hx⟩ | _ | _) (⟨y, hy⟩ | _ | _) h <;> first | exact h.elim | skip
    · have := near_err (x * y)
      rw [← rnd_fin (show Fin (rnd (x * y)) from h)] at this
      exact this
    all_goals
      exact (show Fin (if _ then _ else _) from h) |> fun h => by split_ifs at h <;> exact h.elim
  div_fin := by
    rintro (_ | _ | _) (_ | _ | _) h <;> first | exact trivial | exact h.elim
  div_ne := by
    rintro (_ | _ | _) (⟨y, hy⟩ | _ | _) h hf <;> first | exact h.elim | exact hf.elim | skip
    intro h0
    have h1 : Fin (if y = 0 then _ else _) := h
    rw [if_pos (show y = 0 from h0)] at h1
    split_ifs at h1 <;> exact h1.elim
  div_err := by
    rintro (⟨x, hx⟩ | _ | _) (⟨y, hy⟩ | _ | _) h hf <;> first | exact h.elim | exact hf.elim | skip
    have h1 : Fin (if y = 0 then _ else rnd (x / y)) := h
    show |toReal (if y = 0 then _ else rnd (x / y)) - x / y| ≤ _ ∧ |toReal (if y = 0 then _ else rnd (x / y)) - x / y| ≤ _ * |toReal (if y = 0 then _ else rnd (x / y))| + _
    by_cases h0 : y = 0
    · rw [if_pos h0] at h1
      split_ifs at h1 <;> exact h1.elim
    · rw [if_neg h0] at h1 ⊢
      rw [rnd_fin h1]
      exact near_err (x / y)
  div_le_one := by
    rintro (⟨x, hx⟩ | _ | _) (⟨y, hy⟩ | _ | _) h hf hle <;> first | exact h.elim | exact hf.elim | skip
    have h1 : Fin (if y = 0 then _ else rnd (x / y)) := h
    show |toReal (if y = 0 then _ else rnd (x / y))| ≤ 1
    by_cases h0 : y = 0
    · rw [if_pos h0] at h1
      split_ifs at h1 <;> exact h1.elim
    · rw [if_neg h0] at h1 ⊢
      rw [rnd_fin h1]
      refine near_le_one ?_
      rw [_root_.abs_div]
      exact div_le_one_of_le₀ hle (abs_nonneg _)
  sqrt_fin := by
    rintro (⟨x, hx⟩ | ⟨⟨⟩⟩ | _) h <;> first | exact h.elim | skip
    refine ⟨trivial, ?_⟩
    have h1 : Fin (if x < 0 then nan else rnd √x) := h
    by_cases h0 : x < 0
    · rw [if_pos h0] at h1; exact h1.elim
    · exact not_lt.1 h0
  sqrt_err := by
    rintro (⟨x, hx⟩ | ⟨⟨⟩⟩ | _) h <;> first | exact h.elim | skip
    have h1 : Fin (if x < 0 then nan else rnd √x) := h
    show |toReal (if x < 0 then nan else rnd √x) - √x| ≤ _ * √x ∧ |toReal (if x < 0 then nan else rnd √x) - √x| ≤ _ * |toReal (if x < 0 then nan else rnd √x)|
    by_cases h0 : x < 0
    · rw [if_pos h0] at h1; exact h1.elim
    · rw [if_neg h0] at h1 ⊢
      rw [rnd_fin h1]
      exact near_sqrt hx.1.grid (not_lt.1 h0)
  sqrt_small := by
    rintro (⟨x, hx⟩ | ⟨⟨⟩⟩ | _) h <;> first | exact h.elim | skip
    have h1 : Fin (if x < 0 then nan else rnd √x) := h
    show _ * |toReal (if x < 0 then nan else rnd √x)| ≤ _
    by_cases h0 : x < 0
    · rw [if_pos h0] at h1; exact h1.elim
    · rw [if_neg h0] at h1 ⊢
      rw [rnd_fin h1]
      exact near_sqrt_small hx.1.grid (not_lt.1 h0) hx.2
  sqrt_bound := by
    rintro (⟨x, hx⟩ | ⟨⟨⟩⟩ | _) h <;> first | exact h.elim | skip
    have h1 : Fin (if x < 0 then nan else rnd √x) := h
    show _ * toReal (if x < 0 then nan else rnd √x) ^ 2 ≤ _
    by_cases h0 : x < 0
    · rw [if_pos h0] at h1; exact h1.elim
    · rw [if_neg h0] at h1 ⊢
      rw [rnd_fin h1]
      have h2 := (near_sqrt hx.1.grid (not_lt.1 h0)).1
      have h3 := hx.sqrt_le (not_lt.1 h0)
      have h4 : |near √x| ≤ 2 ^ 513 := by
        have h5 : |near √x| ≤ √x + |near √x - √x| := by
          calc |near √x| = |√x + (near √x - √x)| := by congr 1; ring
            _ ≤ |√x| + |near √x - √x| := abs_add_le _ _
            _ = _ := by rw [abs_of_nonneg (Real.sqrt_nonneg x)]
        have h6 : (1 / 2 : ℝ) ^ 53 * √x ≤ 1 * √x :=
          mul_le_mul_of_nonneg_right (by norm_num) (Real.sqrt_nonneg x)
        rw [show (2 : ℝ) ^ 513 = 2 ^ 512 * 2 from pow_succ _ _]
        generalize (2 : ℝ) ^ 512 = w at *
        generalize (1 / 2 : ℝ) ^ 53 * √x = v at *
        linarith
      rw [← sq_abs]
      calc (1 / 2 : ℝ) ^ 1075 * |near √x| ^ 2 ≤ (1 / 2) ^ 1075 * (2 ^ 513) ^ 2 := by gcongr
        _ = (1 / 2) ^ 49 * ((1 / 2) ^ 1026 * 2 ^ 1026) := by rw [← pow_mul, ← mul_assoc, ← pow_add]
        _ = (1 / 2) ^ 49 := by rw [← mul_pow, one_div_mul_cancel (by norm_num), one_pow, mul_one]
        _ ≤ 1 := pow_le_one₀ (by norm_num) (by norm_num)
  mul_neg_one := by
    rintro (⟨x, hx⟩ | _ | _) h <;> first | exact h.elim | skip
    · have e : x * -((1 : ℤ) : ℝ) = -x := by push_cast; ring
      have h2 := rnd_fin (show Fin (rnd (x * -((1 : ℤ) : ℝ))) from h)
      show toReal (rnd (x * -((1 : ℤ) : ℝ))) = -x
      rw [h2, e, near_of_rep hx.1.neg]
    · exact (show Fin (if _ then _ else _) from h) |> fun h => by split_ifs at h <;> exact h.elim
  one_times := by
    rintro (⟨x, hx⟩ | _ | _) h <;> first | exact h.elim | skip
    · have e : ((1 : ℤ) : ℝ) * x = x := by push_cast; ring
      have h2 := rnd_fin (show Fin (rnd (((1 : ℤ) : ℝ) * x)) from h)
      show toReal (rnd (((1 : ℤ) : ℝ) * x)) = x
      rw [h2, e, near_of_rep hx.1]
    · exact (show Fin (if _ then _ else _) from h) |> fun h => by split_ifs at h <;> exact h.elim
  mul_of_zero := by
    rintro (⟨x, hx⟩ | _ | _) (⟨y, hy⟩ | _ | _) h h0 <;> first | exact h.elim | skip
    · have h1 : x = 0 := h0
      subst h1
      have h2 := rnd_fin (show Fin (rnd (0 * y)) from h)
      show toReal (rnd (0 * y)) = 0
      rw [h2, zero_mul, near_zero]
    · exact (show Fin (if _ then _ else _) from h) |> fun h => by split_ifs at h <;> exact h.elim
    · exact (show Fin (if _ then _ else _) from h) |> fun h => by split_ifs at h <;> exact h.elim
  mul_nn := by
    rintro (⟨x, hx⟩ | _ | _) (⟨y, hy⟩ | _ | _) h h0 <;> first | exact h.elim | skip
    · have h2 := rnd_fin (show Fin (rnd (x * y)) from h)
      show 0 ≤ toReal (rnd (x * y))
      rw [h2]
      exact near_nonneg h0
    · exact (show Fin (if _ then _ else _) from h) |> fun h => by split_ifs at h <;> exact h.elim
    · exact (show Fin (if _ then _ else _) from h) |> fun h => by split_ifs at h <;> exact h.elim
  big := 2 ^ 1023
  big_le := by
    refine le_trans (b := (2 : ℝ) ^ 10) (by norm_num) ?_
    exact pow_le_pow_right₀ (by norm_num) (by norm_num)
  big_η := by
    calc (2 : ℝ) ^ 1023 * (1 / 2) ^ 1075 = (2 ^ 1023 * (1 / 2) ^ 1023) * (1 / 2) ^ 52 := by
          rw [mul_assoc, ← pow_add]
      _ = (1 / 2) ^ 52 := by rw [← mul_pow, mul_one_div_cancel (by norm_num), one_pow, one_mul]
      _ ≤ 4 * (1 / 2) ^ 53 := by norm_num
  add_ok := by
    rintro (⟨x, hx⟩ | _ | _) (⟨y, hy⟩ | _ | _) h1 h2 h <;> first | exact h1.elim | exact h2.elim | exact rnd_ok h
  sub_ok := by
    rintro (⟨x, hx⟩ | _ | _) (⟨y, hy⟩ | _ | _) h1 h2 h <;> first | exact h1.elim | exact h2.elim | exact rnd_ok h
  mul_ok := by
    rintro (⟨x, hx⟩ | _ | _) (⟨y, hy⟩ | _ | _) h1 h2 h <;> first | exact h1.elim | exact h2.elim | exact rnd_ok h
  div_ok := by
    rintro (⟨x, hx⟩ | _ | _) (⟨y, hy⟩ | _ | _) h1 h2 h0 h <;> first | exact h1.elim | exact h2.elim | skip
    show Fin (if y = 0 then _ else rnd (x / y))
    rw [if_neg (show ¬ y = 0 from h0)]
    exact rnd_ok h
  sqrt_ok := by
    rintro (⟨x, hx⟩ | _ | _) h1 h <;> first | exact h1.elim | skip
    show Fin (if x < 0 then nan else rnd √x)
    rw [if_neg (not_lt.2 (show 0 ≤ x from h))]
    refine rnd_ok ?_
    rw [abs_of_nonneg (Real.sqrt_nonneg x)]
    exact (hx.sqrt_le h).trans (pow_le_pow_right₀ (by norm_num) (by norm_num))
  lt_iff := by
    rintro (_ | _ | _) (_ | _ | _) hx hy <;> first | exact hx.elim | exact hy.elim | skip
    exact decide_eq_true_iff
  le_iff := by
    rintro (⟨x, _⟩ | _ | _) (⟨y, _⟩ | _ | _) hx hy <;> first | exact hx.elim | exact hy.elim | skip
    show (decide (x < y) || decide (x = y)) = true ↔ x ≤ y
    simp [le_iff_lt_or_eq]
  eq_iff := by
    rintro (_ | _ | _) (_ | _ | _) hx hy <;> first | exact hx.elim | exact hy.elim | skip
    exact decide_eq_true_iff
  isNaN_fin := by rintro (_ | _ | _) h <;> first | rfl | exact h.elim
  isInf_fin := by rintro (_ | _ | _) h <;> first | rfl | exact h.elim
  max_fin := by
    rintro (⟨x, hx⟩ | _ | _) (⟨y, hy⟩ | _ | _) h1 h2 <;> first | exact h1.elim | exact h2.elim | skip
    show Fin (if x < y then num y hy else num x hx) ∧
      toReal (if x < y then num y hy else num x hx) = max x y
    split_ifs with h
    · exact ⟨trivial, (max_eq_right h.le).symm⟩
    · exact ⟨trivial, (max_eq_left (not_lt.1 h)).symm⟩
  min_fin := by
    rintro (⟨x, hx⟩ | _ | _) (⟨y, hy⟩ | _ | _) h1 h2 <;> first | exact h1.elim | exact h2.elim | skip
    show Fin (neg (if -x < -y then num (-y) hy.neg else num (-x) hx.neg)) ∧
      toReal (neg (if -x < -y then num (-y) hy.neg else num (-x) hx.neg)) = min x y
    split_ifs with h
    · exact ⟨trivial, (neg_neg y).trans (min_eq_right (neg_lt_neg_iff.1 h).le).symm⟩
    · exact ⟨trivial, (neg_neg x).trans (min_eq_left (not_lt.1 fun h' => h (neg_lt_neg h'))).symm⟩
  ulp_zero := by
    intro x h
    obtain ⟨h1, h2, h3⟩ := (ulpEq_zero x).1 h
    refine ⟨h1, ?_⟩
    rw [two_η, abs_of_nonneg h2]
    exact h3
  zero_ulp := by
    intro x y h h0 h1
    refine (ulpEq_zero _).2 ⟨h, h0, ?_⟩
    generalize Flt.add x (Flt.abs y) = z at *
    rcases z with ⟨z, hz⟩ | _ | _
    · show z ≤ 2 ^ (-1074 : ℤ)
      have hp : (0 : ℝ) < 2 ^ (-1074 : ℤ) := two_zpow_pos
      rcases h1 with h1 | h1
      · have h1 : z = 0 := h1
        rw [h1]; exact hp.le
      · have h1 : z < 4 * (1 / 2) ^ 1075 := h1
        obtain ⟨k, hk⟩ := hz.1.grid
        have e : (4 : ℝ) * (1 / 2) ^ 1075 = 2 * 2 ^ (-1074 : ℤ) := by rw [← two_η]; ring
        rw [e, hk] at h1
        have h2 : (k : ℝ) < 2 := lt_of_mul_lt_mul_right h1 hp.le
        have h3 : k < 2 := by exact_mod_cast h2
        have h4 : (k : ℝ) ≤ 1 := by exact_mod_cast (show k ≤ 1 by omega)
        rw [hk]
        nlinarith
    · exact h.elim
    · exact h.elim
  fin_η := by
    rintro (⟨x, hx⟩ | _ | _) h <;> first | exact h.elim | skip
    show (1 / 2 : ℝ) ^ 1075 * |x| ≤ 4 * (1 / 2) ^ 53
    calc (1 / 2 : ℝ) ^ 1075 * |x| ≤ (1 / 2) ^ 1075 * 2 ^ 1024 := by
          refine mul_le_mul_of_nonneg_left hx.2.le (by positivity)
      _ = (1 / 2) ^ 51 * ((1 / 2) ^ 1024 * 2 ^ 1024) := by rw [← mul_assoc, ← pow_add]
      _ = (1 / 2) ^ 51 := by rw [← mul_pow, one_div_mul_cancel (by norm_num), one_pow, mul_one]
      _ ≤ 4 * (1 / 2) ^ 53 := by norm_num
  fin_tiny := by
    rintro (⟨x, hx⟩ | _ | _) h <;> first | exact h.elim | skip
    show x = 0 ∨ 2 * (1 / 2) ^ 1075 ≤ |x|
    have hp : (0 : ℝ) < 2 ^ (-1074 : ℤ) := two_zpow_pos
    obtain ⟨k, hk⟩ := hx.1.grid
    rw [two_η, hk]
    by_cases h0 : k = 0
    · left; rw [h0, Int.cast_zero, zero_mul]
    · right
      have h1 : (1 : ℝ) ≤ |(k : ℝ)| := by exact_mod_cast Int.one_le_abs h0
      rw [abs_mul, abs_of_pos hp]
      nlinarith
  div_far := by
    rintro (⟨x, hx⟩ | _ | _) (⟨y, hy⟩ | _ | _) h hf <;> first | exact h.elim | exact absurd trivial hf | skip
    exact Int.cast_zero
  eq_fin := by
    rintro (_ | _ | _) (_ | _ | _) h hf <;> first | trivial | exact hf.elim | exact absurd h (by decide)

theorem rep60 : Num (1 / 2 ^ 60) := by
  refine ⟨⟨1, -60, by norm_num, by norm_num, by norm_num⟩, ?_⟩
  refine lt_of_le_of_lt (b := 1) ?_ (one_lt_pow₀ (by norm_num) (by norm_num))
  rw [abs_of_pos (by norm_num)]
  norm_num

/-- The format really rounds: 1 + 2⁻⁶⁰ is 1. -/
theorem absorbs : Flt.add (Flt.one : B64) (num (1 / 2 ^ 60) rep60) = Flt.one := by
  show rnd (((1 : ℤ) : ℝ) + 1 / 2 ^ 60) = num (1 : ℤ) (Num.int (k := 1) (by norm_num))
  have hl : Int.log 2 |((1 : ℤ) : ℝ) + 1 / 2 ^ 60| = 0 := by
    rw [abs_of_pos (by norm_num)]
    refine le_antisymm ?_ ?_
    · refine Int.lt_add_one_iff.1 ((Int.lt_zpow_iff_log_lt (by norm_num) (by norm_num)).1 ?_)
      norm_num
    · refine (Int.zpow_le_iff_le_log (by norm_num) (by norm_num)).1 ?_
      norm_num
  have hn : near (((1 : ℤ) : ℝ) + 1 / 2 ^ 60) = (1 : ℤ) := by
    unfold near ulp
    rw [hl]
    have hr : toInt ((((1 : ℤ) : ℝ) + 1 / 2 ^ 60) / 2 ^ max (-1074 : ℤ) (0 - 52)) = 2 ^ 52 := by
      rw [toInt_of, round_eq, Int.floor_eq_iff]
      · norm_num
      · rw [show (((1 : ℤ) : ℝ) + 1 / 2 ^ 60) / 2 ^ max (-1074 : ℤ) (0 - 52) =
          ((2 ^ 52 : ℤ) : ℝ) + 1 / 2 ^ 8 by norm_num, Int.fract_intCast_add, Int.fract_eq_self.2] <;>
        norm_num
    rw [hr]
    norm_num
  unfold rnd
  rw [dif_pos]
  · congr 1
  · rw [hn, Int.cast_one, abs_one]
    exact one_lt_pow₀ (by norm_num) (by norm_num)

/-- An integer of at most 53 bits. -/
noncomputable def int (k : ℤ) (h : |k| ≤ 2 ^ 53 := by norm_num) : B64 := num k (Num.int h)

theorem rnd_rep {x : ℝ} (h : Num x) : rnd x = num x h := by
  unfold rnd
  have e := near_of_rep h.1
  rw [dif_pos (by rw [e]; exact h.2)]
  congr 1

theorem rnd_int {k : ℤ} (h : |k| ≤ 2 ^ 53) : rnd (k : ℝ) = int k h := rnd_rep (Num.int h)

theorem zero_int : (Flt.zero : B64) = int 0 := rfl
theorem one_int : (Flt.one : B64) = int 1 := rfl

theorem add_int {k l : ℤ} (hk : |k| ≤ 2 ^ 53) (hl : |l| ≤ 2 ^ 53) (h : |k + l| ≤ 2 ^ 53) :
    Flt.add (int k hk) (int l hl) = int (k + l) h := by
  show rnd ((k : ℝ) + l) = _
  rw [← Int.cast_add, rnd_int h]

theorem sub_int {k l : ℤ} (hk : |k| ≤ 2 ^ 53) (hl : |l| ≤ 2 ^ 53) (h : |k - l| ≤ 2 ^ 53) :
    Flt.sub (int k hk) (int l hl) = int (k - l) h := by
  show rnd ((k : ℝ) - l) = _
  rw [← Int.cast_sub, rnd_int h]

theorem mul_int {k l : ℤ} (hk : |k| ≤ 2 ^ 53) (hl : |l| ≤ 2 ^ 53) (h : |k * l| ≤ 2 ^ 53) :
    Flt.mul (int k hk) (int l hl) = int (k * l) h := by
  show rnd ((k : ℝ) * l) = _
  rw [← Int.cast_mul, rnd_int h]

theorem div_int {k l m : ℤ} (hk : |k| ≤ 2 ^ 53) (hl : |l| ≤ 2 ^ 53) (h0 : l ≠ 0) (h : |m| ≤ 2 ^ 53)
    (e : k = m * l) : Flt.div (int k hk) (int l hl) = int m h := by
  show (if (l : ℝ) = 0 then _ else rnd ((k : ℝ) / l)) = _
  have h1 : (l : ℝ) ≠ 0 := by exact_mod_cast h0
  rw [if_neg h1, e, Int.cast_mul, mul_div_assoc, div_self h1, mul_one, rnd_int h]

theorem sqrt_int {k m : ℤ} (hk : |k| ≤ 2 ^ 53) (h : |m| ≤ 2 ^ 53) (h0 : 0 ≤ m) (e : k = m * m) :
    Flt.sqrt (int k hk) = int m h := by
  show (if (k : ℝ) < 0 then _ else rnd √(k : ℝ)) = _
  have h1 : (0 : ℝ) ≤ m := by exact_mod_cast h0
  rw [e, Int.cast_mul, if_neg (not_lt.2 (by positivity)), Real.sqrt_mul_self h1, rnd_int h]

theorem abs_int {k : ℤ} (hk : |k| ≤ 2 ^ 53) : Flt.abs (int k hk) = int |k| (by rwa [abs_abs]) := by
  show num |(k : ℝ)| _ = num ((|k| : ℤ) : ℝ) _
  congr 1
  push_cast
  rfl

theorem neg_int {k : ℤ} (hk : |k| ≤ 2 ^ 53) : Flt.neg (int k hk) = int (-k) (by rwa [abs_neg]) := by
  show num (-(k : ℝ)) _ = num ((-k : ℤ) : ℝ) _
  congr 1
  push_cast
  rfl

theorem int_fin {k : ℤ} (hk : |k| ≤ 2 ^ 53) : Rnd.fin (int k hk) := trivial

theorem int_val {k : ℤ} (hk : |k| ≤ 2 ^ 53) : Rnd.val (int k hk) = k := rfl

end B64

end Linear
