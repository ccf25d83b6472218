import Verif.Lemmas.Round

/-!
# One Householder reflection in rounded arithmetic

The first part speaks of real numbers only: `V` is nearly the reflector of `x`, `D` is nearly its
factor, and a vector is nearly transformed.  The reflection itself is the exact one of `V`.
-/

set_option linter.unusedSectionVars false

namespace Linear

open Finset

/-! ## Euclidean norms -/

/-- The Euclidean norm of the entries in `S`. -/
noncomputable def Spec.nrm (S : Finset ℕ) (x : ℕ → ℝ) : ℝ := √(∑ i ∈ S, x i ^ 2)

open Spec

variable {S : Finset ℕ} {x y : ℕ → ℝ}

theorem nrm_nonneg : 0 ≤ nrm S x := Real.sqrt_nonneg _

theorem nrm_sq : nrm S x ^ 2 = ∑ i ∈ S, x i ^ 2 := Real.sq_sqrt (sum_nonneg fun _ _ => sq_nonneg _)

theorem nrm_le {c : ℝ} (hc : 0 ≤ c) (h : ∑ i ∈ S, x i ^ 2 ≤ c ^ 2) : nrm S x ≤ c :=
  (Real.sqrt_le_left hc).2 h

theorem dot_le_nrm : ∑ i ∈ S, |x i| * |y i| ≤ nrm S x * nrm S y := by
  have := Real.sum_mul_le_sqrt_mul_sqrt S (fun i => |x i|) (fun i => |y i|)
  simp only [sq_abs] at this
  exact this

theorem abs_dot_le : |∑ i ∈ S, x i * y i| ≤ nrm S x * nrm S y :=
  (abs_sum_le_sum_abs _ _).trans ((le_of_eq (sum_congr rfl fun _ _ => abs_mul _ _)).trans dot_le_nrm)

theorem nrm_add_le : nrm S (fun i => x i + y i) ≤ nrm S x + nrm S y := by
  refine nrm_le (add_nonneg nrm_nonneg nrm_nonneg) ?_
  have h := (abs_le.1 (abs_dot_le (S := S) (x := x) (y := y))).2
  have e : ∑ i ∈ S, (x i + y i) ^ 2 = ∑ i ∈ S, x i ^ 2 + ∑ i ∈ S, y i ^ 2 + 2 * ∑ i ∈ S, x i * y i := by
    rw [mul_sum, ← sum_add_distrib, ← sum_add_distrib]
    exact sum_congr rfl fun i _ => by ring
  rw [e, add_sq, nrm_sq, nrm_sq]
  linarith

theorem nrm_mul (c : ℝ) : nrm S (fun i => c * x i) = |c| * nrm S x := by
  unfold nrm
  rw [← Real.sqrt_sq_eq_abs, ← Real.sqrt_mul (sq_nonneg c), mul_sum]
  congr 1
  exact sum_congr rfl fun i _ => by ring

theorem nrm_mono (h : ∀ i ∈ S, |x i| ≤ |y i|) : nrm S x ≤ nrm S y :=
  Real.sqrt_le_sqrt (sum_le_sum fun i hi => sq_le_sq.2 (h i hi))

theorem nrm_abs : nrm S (fun i => |x i|) = nrm S x := by
  unfold nrm
  simp only [sq_abs]

theorem nrm_congr (h : ∀ i ∈ S, x i = y i) : nrm S x = nrm S y := by
  unfold nrm
  rw [sum_congr rfl fun i hi => by rw [h i hi]]

theorem nrm_const {c : ℝ} (hc : 0 ≤ c) : nrm S (fun _ => c) = √(S.card) * c := by
  unfold nrm
  rw [sum_const, nsmul_eq_mul, Real.sqrt_mul (Nat.cast_nonneg _), Real.sqrt_sq hc]

theorem nrm_sub_le : nrm S (fun i => x i - y i) ≤ nrm S x + nrm S y := by
  have h := nrm_add_le (S := S) (x := x) (y := fun i => (-1) * y i)
  rw [nrm_mul, abs_neg, abs_one, one_mul] at h
  simpa only [neg_mul, one_mul, ← sub_eq_add_neg] using h

theorem nrm_zero : nrm S (fun _ => 0) = 0 := by
  rw [nrm_const le_rfl, mul_zero]

theorem abs_le_nrm {i : ℕ} (hi : i ∈ S) : |x i| ≤ nrm S x := by
  refine Real.abs_le_sqrt ?_
  exact single_le_sum (f := fun i => x i ^ 2) (fun _ _ => sq_nonneg _) hi

theorem nrm_mono_set {S' : Finset ℕ} (h : S ⊆ S') : nrm S x ≤ nrm S' x :=
  Real.sqrt_le_sqrt (sum_le_sum_of_subset_of_nonneg h fun _ _ _ => sq_nonneg _)

/-! ## A nearly exact reflector -/

/-- `V` and `A` are nearly the reflector and the signed norm of `x`, up to the relative error `κ`. -/
structure HHR (S : Finset ℕ) (k : ℕ) (κ : ℝ) (x V : ℕ → ℝ) (A : ℝ) : Prop where
  mem : k ∈ S
  ne : A ≠ 0
  norm : |A ^ 2 - ∑ i ∈ S, x i ^ 2| ≤ κ * A ^ 2
  sign : x k * A ≤ 0
  head : |V k - (x k - A)| ≤ κ * |x k - A|
  tail : ∀ i ∈ S, i ≠ k → V i = x i
  nonneg : 0 ≤ κ
  small : κ ≤ 1 / 50

namespace HHR

variable {k : ℕ} {κ A D : ℝ} {V : ℕ → ℝ} 

/-- The factor to which `-D` and half the square of the norm of `V` are near. -/
noncomputable def P (k : ℕ) (x : ℕ → ℝ) (A : ℝ) : ℝ := |A| * (|x k| + |A|)

theorem absA (h : HHR S k κ x V A) : 0 < |A| := abs_pos.2 h.ne

theorem sub_abs (h : HHR S k κ x V A) : |x k - A| = |x k| + |A| := by
  have hs := h.sign
  rcases le_total 0 A with ha | ha
  · have hx : x k ≤ 0 := by
      by_contra hx
      have : 0 < x k * A := mul_pos (not_le.1 hx) (lt_of_le_of_ne ha h.ne.symm)
      linarith
    rw [abs_of_nonpos (by linarith), abs_of_nonpos hx, abs_of_nonneg ha]; ring
  · have hx : 0 ≤ x k := by
      by_contra hx
      have : 0 < x k * A := mul_pos_of_neg_of_neg (not_le.1 hx) (lt_of_le_of_ne ha h.ne)
      linarith
    rw [abs_of_nonneg (by linarith), abs_of_nonneg hx, abs_of_nonpos ha]; ring

theorem mul_sub (h : HHR S k κ x V A) : A * (x k - A) = -P k x A := by
  have h1 : x k * A = -(|x k| * |A|) := by rw [← abs_mul, abs_of_nonpos h.sign]; ring
  have h2 : |A| * |A| = A * A := abs_mul_abs_self A
  unfold P
  linear_combination h1 + h2

theorem P_ge (_h : HHR S k κ x V A) : A ^ 2 ≤ P k x A := by
  unfold P
  have := abs_mul_abs_self A
  nlinarith [mul_nonneg (abs_nonneg A) (abs_nonneg (x k))]

theorem P_pos (h : HHR S k κ x V A) : 0 < P k x A :=
  lt_of_lt_of_le (pow_pos (abs_pos.2 h.ne) 2 |>.trans_eq (sq_abs A)) h.P_ge

theorem head_le (h : HHR S k κ x V A) : |x k| ≤ (1 + κ) * |A| := by
  have h1 : x k ^ 2 ≤ ∑ i ∈ S, x i ^ 2 :=
    single_le_sum (f := fun i => x i ^ 2) (fun _ _ => sq_nonneg _) h.mem
  have h2 := (abs_le.1 h.norm).1
  have h3 := h.nonneg
  have h4 : x k ^ 2 ≤ ((1 + κ) * |A|) ^ 2 := by
    rw [mul_pow, sq_abs]
    nlinarith [sq_nonneg A, mul_nonneg h3 (sq_nonneg A)]
  exact abs_le_of_sq_le_sq h4 (by have := abs_nonneg A; positivity)

theorem P_le (h : HHR S k κ x V A) : P k x A ≤ (2 + κ) * A ^ 2 := by
  have := h.head_le
  unfold P
  rw [← abs_mul_abs_self A |>.trans (sq A).symm]
  nlinarith [abs_nonneg A]

/-- The square of the sum of the magnitudes against `P`. -/
theorem head_sq (h : HHR S k κ x V A) : (|x k| + |A|) ^ 2 ≤ (2 + κ) * P k x A := by
  have h1 := h.head_le
  have h2 : 0 ≤ |x k| + |A| := by positivity
  unfold P
  nlinarith

theorem sum_split (h : HHR S k κ x V A) (f : ℕ → ℝ) (g : ℕ → ℝ) (hf : ∀ i ∈ S, i ≠ k → f i = g i) :
    ∑ i ∈ S, f i = ∑ i ∈ S, g i + (f k - g k) := by
  rw [← add_sum_erase S f h.mem, ← add_sum_erase S g h.mem,
    sum_congr rfl fun i hi => hf i (mem_of_mem_erase hi) (ne_of_mem_erase hi)]
  ring

theorem vv (h : HHR S k κ x V A) : |∑ i ∈ S, V i ^ 2 - 2 * P k x A| ≤ 5.1 * κ * P k x A := by
  have e := h.sum_split (fun i => V i ^ 2) (fun i => x i ^ 2) fun i hi hik => by rw [h.tail i hi hik]
  have h1 := h.head
  have hP := h.P_ge
  have hs := h.head_sq
  have hn := h.norm
  have h0 := h.nonneg
  have h5 := h.small
  have hab := h.sub_abs
  have hx2 : (x k - A) ^ 2 = (|x k| + |A|) ^ 2 := by rw [← hab, sq_abs]
  have hPd : 2 * P k x A = (|x k| + |A|) ^ 2 - x k ^ 2 + A ^ 2 := by
    unfold P
    have := abs_mul_abs_self A
    have := abs_mul_abs_self (x k)
    nlinarith
  have hv : |V k ^ 2 - (x k - A) ^ 2| ≤ (2 * κ + κ ^ 2) * (|x k| + |A|) ^ 2 := by
    have : V k ^ 2 - (x k - A) ^ 2 = (V k - (x k - A)) * ((V k - (x k - A)) + 2 * (x k - A)) := by ring
    rw [this, abs_mul]
    have h6 : |(V k - (x k - A)) + 2 * (x k - A)| ≤ κ * |x k - A| + 2 * |x k - A| := by
      refine (abs_add_le _ _).trans (add_le_add h1 ?_)
      rw [abs_mul, abs_two]
    calc _ ≤ (κ * |x k - A|) * (κ * |x k - A| + 2 * |x k - A|) := by gcongr
      _ = _ := by rw [hab]; ring
  have hPp := h.P_pos
  generalize P k x A = p at *
  rw [e]
  have : ∑ i ∈ S, x i ^ 2 + (V k ^ 2 - x k ^ 2) - 2 * p =
      (V k ^ 2 - (x k - A) ^ 2) - (A ^ 2 - ∑ i ∈ S, x i ^ 2) := by rw [hPd, hx2]; ring
  rw [this]
  calc _ ≤ (2 * κ + κ ^ 2) * (|x k| + |A|) ^ 2 + κ * A ^ 2 := (abs_sub _ _).trans (add_le_add hv hn)
    _ ≤ (2 * κ + κ ^ 2) * ((2 + κ) * p) + κ * p := by gcongr
    _ = (5 * κ + (4 * κ + κ ^ 2) * κ) * p := by ring
    _ ≤ _ := by
      refine mul_le_mul_of_nonneg_right ?_ hPp.le
      nlinarith

theorem den (h : HHR S k κ x V A) (hD : |D - A * V k| ≤ κ * |A * V k|) :
    |D + P k x A| ≤ 2.1 * κ * P k x A := by
  have h1 : |A * V k + P k x A| ≤ κ * P k x A := by
    have : A * V k + P k x A = A * (V k - (x k - A)) := by
      have := h.mul_sub
      linear_combination this
    rw [this, abs_mul]
    calc _ ≤ |A| * (κ * |x k - A|) := by gcongr; exact h.head
      _ = _ := by rw [h.sub_abs]; unfold P; ring
  have h0 := h.nonneg
  have h5 := h.small
  have hPp := h.P_pos
  generalize P k x A = p at *
  have h2 : |A * V k| ≤ (1 + κ) * p := by
    have : A * V k = (A * V k + p) - p := by ring
    rw [this]
    refine (abs_sub _ _).trans ?_
    rw [abs_of_pos hPp]
    linarith
  calc |D + p| = |(D - A * V k) + (A * V k + p)| := by congr 1; ring
    _ ≤ κ * ((1 + κ) * p) + κ * p := (abs_add_le _ _).trans (add_le_add (hD.trans (by gcongr)) h1)
    _ = (2 * κ + κ * κ) * p := by ring
    _ ≤ _ := by
      refine mul_le_mul_of_nonneg_right ?_ hPp.le
      nlinarith

theorem nrmV_pos (h : HHR S k κ x V A) : 0 < ∑ i ∈ S, V i ^ 2 := by
  have h1 := (abs_le.1 h.vv).1
  have := h.P_pos
  have := h.small
  nlinarith

theorem nrmV_le (h : HHR S k κ x V A) : nrm S V ≤ 2.1 * |A| := by
  have h0 := h.nonneg
  have h5 := h.small
  refine nrm_le (by have := abs_nonneg A; positivity) ?_
  have h1 := (abs_le.1 h.vv).2
  have h2 := h.P_le
  rw [mul_pow, sq_abs]
  have h3 : (2 + 5.1 * κ) * P k x A ≤ (2 + 5.1 * κ) * ((2 + κ) * A ^ 2) := by gcongr
  have h4 : (2 + 5.1 * κ) * (2 + κ) ≤ 4.3 := by nlinarith
  have h6 := mul_le_mul_of_nonneg_right h4 (sq_nonneg A)
  have h7 := sq_nonneg A
  norm_num at h1 h3 h6 ⊢
  linarith

/-- The reflection of `V` applied to `t`. -/
noncomputable def _root_.Linear.Spec.reflV (S : Finset ℕ) (V t : ℕ → ℝ) (i : ℕ) : ℝ :=
  t i - 2 * (∑ s ∈ S, t s * V s) / (∑ s ∈ S, V s ^ 2) * V i

/-- `x` itself is nearly sent to a multiple of a unit vector. -/
theorem self (h : HHR S k κ x V A) :
    nrm S (fun i => (if i = k then A else 0) - reflV S V x i) ≤ 18 * κ * nrm S x := by
  have h0 := h.nonneg
  have h5 := h.small
  have e := h.sum_split (fun i => x i * V i) (fun i => x i ^ 2) fun i hi hik => by
    rw [h.tail i hi hik, sq]
  have hvv := h.vv
  have hpp := h.P_pos
  have hP := h.P_ge
  have hPx : P k x A = A ^ 2 + |x k| * |A| := by
    unfold P; have := abs_mul_abs_self A; nlinarith
  have hd : |∑ i ∈ S, x i * V i - P k x A| ≤ 2.1 * κ * P k x A := by
    rw [e]
    have hx : x k * (x k - A) = x k ^ 2 + |x k| * |A| := by
      have : x k * A = -(|x k| * |A|) := by rw [← abs_mul, abs_of_nonpos h.sign]; ring
      linear_combination - this
    have h1 : ∑ i ∈ S, x i ^ 2 + (x k * V k - x k ^ 2) - P k x A =
        x k * (V k - (x k - A)) - (A ^ 2 - ∑ i ∈ S, x i ^ 2) := by rw [hPx]; linear_combination hx
    rw [h1]
    calc _ ≤ |x k| * (κ * (|x k| + |A|)) + κ * A ^ 2 := by
          refine (abs_sub _ _).trans (add_le_add ?_ h.norm)
          rw [abs_mul]
          gcongr
          rw [← h.sub_abs]
          exact h.head
      _ ≤ ((1 + κ) * |A|) * (κ * (|x k| + |A|)) + κ * P k x A := by
          gcongr
          exact h.head_le
      _ = (2 * κ + κ * κ) * P k x A := by unfold P; ring
      _ ≤ _ := by
        refine mul_le_mul_of_nonneg_right ?_ hpp.le
        nlinarith
  set W := ∑ i ∈ S, V i ^ 2 with hW
  have hWp : 0 < W := h.nrmV_pos
  have hW2 : (2 - 5.1 * κ) * P k x A ≤ W := by nlinarith [(abs_le.1 hvv).1]
  have hα : |2 * (∑ i ∈ S, x i * V i) / W - 1| ≤ 5.2 * κ := by
    rw [div_sub_one hWp.ne', abs_div, abs_of_pos hWp, div_le_iff₀ hWp]
    have h1 : 2 * (∑ i ∈ S, x i * V i) - W =
        2 * (∑ i ∈ S, x i * V i - P k x A) - (W - 2 * P k x A) := by ring
    rw [h1]
    calc _ ≤ 2 * (2.1 * κ * P k x A) + 5.1 * κ * P k x A := by
          refine (abs_sub _ _).trans (add_le_add ?_ hvv)
          rw [abs_mul, abs_two]
          gcongr
      _ ≤ 5.2 * κ * ((2 - 5.1 * κ) * P k x A) := by
          have : 0 ≤ κ * P k x A := by positivity
          nlinarith [mul_nonneg this (sub_nonneg.2 h5)]
      _ ≤ _ := by gcongr
  have hA2 : |A| ≤ 1.02 * nrm S x := by
    have h1 : A ^ 2 ≤ (1.02 * nrm S x) ^ 2 := by
      rw [mul_pow, nrm_sq]
      have := (abs_le.1 h.norm).2
      have hx0 : 0 ≤ ∑ i ∈ S, x i ^ 2 := sum_nonneg fun _ _ => sq_nonneg _
      nlinarith [sq_nonneg A]
    have h2 := nrm_nonneg (S := S) (x := x)
    exact abs_le_of_sq_le_sq h1 (by positivity)
  have h1 : ∀ i ∈ S, (if i = k then A else 0) - reflV S V x i =
      (2 * (∑ i ∈ S, x i * V i) / W - 1) * V i + (if i = k then (V k - (x k - A)) else 0) := by
    intro i hi
    unfold reflV
    rw [← hW]
    by_cases hik : i = k
    · subst hik
      rw [if_pos rfl, if_pos rfl]; ring
    · rw [if_neg hik, if_neg hik, h.tail i hi hik]; ring
  rw [nrm_congr h1]
  refine nrm_add_le.trans ?_
  rw [nrm_mul]
  have h2 : nrm S (fun i => if i = k then (V k - (x k - A)) else 0) ≤ κ * ((2 + κ) * |A|) := by
    refine nrm_le (by have := abs_nonneg A; positivity) ?_
    have h3 : ∑ i ∈ S, (if i = k then (V k - (x k - A)) else 0) ^ 2 = |V k - (x k - A)| ^ 2 := by
      rw [sum_eq_single k (fun i _ hik => by rw [if_neg hik]; ring) fun hk => absurd h.mem hk, if_pos rfl, sq_abs]
    rw [h3]
    have h4 := h.head
    rw [h.sub_abs] at h4
    have h6 := h.head_le
    have : |V k - (x k - A)| ≤ κ * ((2 + κ) * |A|) := by
      refine h4.trans ?_
      gcongr
      linarith
    gcongr
  have h3 := h.nrmV_le
  have h4 := abs_nonneg A
  calc _ ≤ 5.2 * κ * (2.1 * |A|) + κ * ((2 + κ) * |A|) := by
        refine add_le_add ?_ h2
        exact mul_le_mul hα h3 nrm_nonneg (by positivity)
    _ ≤ 13 * κ * |A| := by
      have := mul_nonneg h0 h4
      nlinarith
    _ ≤ 13 * κ * (1.02 * nrm S x) := by gcongr
    _ ≤ _ := by
      have := mul_nonneg h0 (nrm_nonneg (S := S) (x := x))
      nlinarith

theorem factor (h : HHR S k κ x V A) (hD : |D - A * V k| ≤ κ * |A * V k|) {t : ℕ → ℝ} {c μ : ℝ}
    (hc : |c + ∑ i ∈ S, t i * V i| ≤ κ * (nrm S t * nrm S V) + μ) (hμ : 0 ≤ μ) :
    nrm S V * |c / D - 2 * (∑ s ∈ S, t s * V s) / (∑ s ∈ S, V s ^ 2)| ≤ 12 * κ * nrm S t + 2.2 * (μ / |A|) ∧
    nrm S V * |2 * (∑ s ∈ S, t s * V s) / (∑ s ∈ S, V s ^ 2)| ≤ 2 * nrm S t := by
  have h0 := h.nonneg
  have h5 := h.small
  have hvv := h.vv
  have hpp := h.P_pos
  have hP := h.P_ge
  have hd := h.den hD
  have hN := h.nrmV_le
  have hb := abs_dot_le (S := S) (x := t) (y := V)
  have hWp := h.nrmV_pos
  have hA := h.absA
  have hτ := nrm_nonneg (S := S) (x := t)
  have hNN := nrm_nonneg (S := S) (x := V)
  have hNW := nrm_sq (S := S) (x := V)
  have hA2 : |A| * |A| ≤ P k x A := by rw [abs_mul_abs_self, ← sq]; exact hP
  generalize ∑ s ∈ S, t s * V s = b at *
  generalize ∑ s ∈ S, V s ^ 2 = W at *
  generalize nrm S t = τ at *
  generalize nrm S V = N at *
  generalize P k x A = p at *
  generalize |A| = a at *
  have hDl : 0.958 * p ≤ |D| := by
    have h1 : p - |D| ≤ |D + p| := by
      have := abs_sub_abs_le_abs_sub p (-D)
      rw [abs_of_pos hpp, abs_neg, sub_neg_eq_add, add_comm p D] at this
      exact this
    nlinarith
  have hDp : 0 < |D| := by nlinarith
  have hD0 : D ≠ 0 := abs_pos.1 hDp
  have hW2 : W ≤ 2.102 * p := by
    have := (abs_le.1 hvv).2
    nlinarith
  have hDW : |D + W / 2| ≤ 4.65 * κ * p := by
    calc |D + W / 2| = |(D + p) + (W - 2 * p) / 2| := by congr 1; ring
      _ ≤ 2.1 * κ * p + 5.1 * κ * p / 2 := by
        refine (abs_add_le _ _).trans (add_le_add hd ?_)
        rw [abs_div, abs_two]
        gcongr
      _ = _ := by ring
  constructor
  · have e : c / D - 2 * b / W = (c + b) / D - 2 * b * (D + W / 2) / (D * W) := by
      field_simp
      ring
    rw [e]
    have h1 : N * |(c + b) / D| ≤ 2.2 * κ * τ + 2.2 * (μ / a) := by
      rw [abs_div, ← mul_div_assoc, div_le_iff₀ hDp]
      have h2 : N * |c + b| ≤ κ * τ * W + N * μ := by
        calc _ ≤ N * (κ * (τ * N) + μ) := by gcongr
          _ = _ := by rw [← hNW]; ring
      have h3 : κ * τ * W ≤ 2.2 * κ * τ * |D| := by
        have h4 : W ≤ 2.2 * |D| := by linarith
        have h6 := mul_le_mul_of_nonneg_left h4 (mul_nonneg h0 hτ)
        linarith
      have h7 : N * μ ≤ 2.2 * (μ / a) * |D| := by
        have h8 : μ / a * (a * a) = μ * a := by field_simp
        have h9 : 0 ≤ μ / a := div_nonneg hμ hA.le
        have h10 : μ / a * (0.958 * (a * a)) ≤ μ / a * |D| := by
          refine mul_le_mul_of_nonneg_left (le_trans ?_ hDl) h9
          gcongr
        have h11 : N * μ ≤ 2.1 * a * μ := by gcongr
        nlinarith [mul_nonneg hμ hA.le]
      linarith
    have h2 : N * |2 * b * (D + W / 2) / (D * W)| ≤ 9.8 * κ * τ := by
      rw [abs_div, abs_mul, abs_mul, abs_mul, abs_two, abs_of_pos hWp, ← mul_div_assoc,
        div_le_iff₀ (by positivity)]
      calc N * (2 * |b| * |D + W / 2|) ≤ N * (2 * (τ * N) * (4.65 * κ * p)) := by gcongr
        _ = 9.3 * κ * τ * p * W := by rw [← hNW]; ring
        _ ≤ 9.3 * κ * τ * (|D| / 0.958) * W := by
          gcongr
          rw [le_div_iff₀ (by norm_num)]
          linarith
        _ = 9.3 / 0.958 * (κ * τ * |D| * W) := by ring
        _ ≤ 9.8 * (κ * τ * |D| * W) := by
          have : 0 ≤ κ * τ * |D| * W := by positivity
          nlinarith
        _ = _ := by ring
    have h3 := abs_sub ((c + b) / D) (2 * b * (D + W / 2) / (D * W))
    have h4 := mul_le_mul_of_nonneg_left h3 hNN
    linarith
  · rw [abs_div, abs_mul, abs_two, abs_of_pos hWp, ← mul_div_assoc, div_le_iff₀ hWp]
    calc N * (2 * |b|) ≤ N * (2 * (τ * N)) := by gcongr
      _ = _ := by rw [← hNW]; ring

/-- A vector to which the reflection is applied. -/
theorem apply (h : HHR S k κ x V A) (hD : |D - A * V k| ≤ κ * |A * V k|) {t t' : ℕ → ℝ}
    {c al μ e ν : ℝ} (hc : |c + ∑ i ∈ S, t i * V i| ≤ κ * (nrm S t * nrm S V) + μ)
    (hα : |al - c / D| ≤ κ * |c / D| + e)
    (ht : ∀ i ∈ S, |t' i - (t i - al * V i)| ≤ κ * (|t i| + |al| * |V i|) + ν)
    (hμ : 0 ≤ μ) (he : 0 ≤ e) (hν : 0 ≤ ν) :
    nrm S (fun i => t' i - reflV S V t i) ≤
      18 * κ * nrm S t + (2.3 * (μ / |A|) + 2.2 * (e * |A|) + √(S.card) * ν) := by
  obtain ⟨f1, f2⟩ := h.factor hD hc hμ
  have h0 := h.nonneg
  have h5 := h.small
  have hN := h.nrmV_le
  have hA := h.absA
  have hτ := nrm_nonneg (S := S) (x := t)
  have hNN := nrm_nonneg (S := S) (x := V)
  set z := 2 * (∑ s ∈ S, t s * V s) / (∑ s ∈ S, V s ^ 2) with hz
  have h1 : nrm S V * |c / D| ≤ 2.24 * nrm S t + 2.2 * (μ / |A|) := by
    have h2 : |c / D| ≤ |c / D - z| + |z| := by
      calc |c / D| = |(c / D - z) + z| := by congr 1; ring
        _ ≤ _ := abs_add_le _ _
    have h3 := mul_le_mul_of_nonneg_left h2 hNN
    nlinarith
  have hm : 0 ≤ μ / |A| := div_nonneg hμ hA.le
  have h2 : nrm S V * |al - z| ≤ 14.24 * κ * nrm S t + 1.02 * (2.2 * (μ / |A|)) + 2.1 * (e * |A|) := by
    have h3 : |al - z| ≤ (κ * |c / D| + e) + |c / D - z| := by
      calc |al - z| = |(al - c / D) + (c / D - z)| := by congr 1; ring
        _ ≤ _ := (abs_add_le _ _).trans (add_le_add hα le_rfl)
    have h4 := mul_le_mul_of_nonneg_left h3 hNN
    have h6 := mul_le_mul_of_nonneg_left h1 h0
    have h7 := mul_le_mul_of_nonneg_right hN he
    have h8 : κ * (2.2 * (μ / |A|)) ≤ 1 / 50 * (2.2 * (μ / |A|)) := by gcongr
    nlinarith
  have h3 : nrm S V * |al| ≤ 2.3 * nrm S t + 1.02 * (2.2 * (μ / |A|)) + 2.1 * (e * |A|) := by
    have h4 : |al| ≤ |al - z| + |z| := by
      calc |al| = |(al - z) + z| := by congr 1; ring
        _ ≤ _ := abs_add_le _ _
    have h6 := mul_le_mul_of_nonneg_left h4 hNN
    have h7 : κ * nrm S t ≤ 1 / 50 * nrm S t := by gcongr
    nlinarith
  have h4 : ∀ i ∈ S, t' i - reflV S V t i = (t' i - (t i - al * V i)) + (z - al) * V i := by
    intro i _
    unfold reflV
    rw [← hz]
    ring
  rw [nrm_congr h4]
  refine nrm_add_le.trans ?_
  rw [nrm_mul, abs_sub_comm z al]
  have h6 : nrm S (fun i => t' i - (t i - al * V i)) ≤ κ * (nrm S t + |al| * nrm S V) + √(S.card) * ν := by
    have e1 : nrm S (fun i => t' i - (t i - al * V i)) ≤ nrm S fun i => (κ * (|t i| + |al| * |V i|)) + ν := by
      refine nrm_mono fun i hi => ?_
      rw [abs_of_nonneg (by positivity : 0 ≤ κ * (|t i| + |al| * |V i|) + ν)]
      exact ht i hi
    refine e1.trans (nrm_add_le.trans ?_)
    rw [nrm_mul, abs_of_nonneg h0, nrm_const hν]
    gcongr
    refine nrm_add_le.trans ?_
    rw [nrm_mul, abs_abs, nrm_abs, nrm_abs]
  have h7 : κ * (nrm S V * |al|) ≤ κ * (2.3 * nrm S t) + 1 / 50 * (1.02 * (2.2 * (μ / |A|)) + 2.1 * (e * |A|)) := by
    have h8 := mul_le_mul_of_nonneg_left h3 h0
    have h9 : 0 ≤ 1.02 * (2.2 * (μ / |A|)) + 2.1 * (e * |A|) := by positivity
    have h10 := mul_le_mul_of_nonneg_right h5 h9
    linarith
  have h8 : 0 ≤ κ * nrm S t := by positivity
  have h9 : 0 ≤ e * |A| := by positivity
  nlinarith

end HHR

end Linear
