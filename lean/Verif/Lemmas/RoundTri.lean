import Verif.Lemmas.RoundBi
import Verif.Lemmas.TriLemmas

/-!
# The tridiagonal reduction in rounded arithmetic

The first part speaks of real numbers only: a symmetric table is nearly reflected from both sides by
one update of rank two.
-/

set_option linter.unusedSectionVars false

namespace Linear

open Finset

/-! ## Tables on a square of indices -/

/-- The Frobenius norm of the entries in `S × S`. -/
noncomputable def Spec.nn (S : Finset ℕ) (F : ℕ → ℕ → ℝ) : ℝ := Spec.nrm S fun i => Spec.nrm S (F i)

open Spec

variable {S : Finset ℕ} {F G : ℕ → ℕ → ℝ}

theorem nn_nonneg : 0 ≤ nn S F := nrm_nonneg

theorem nn_add_le : nn S (fun i j => F i j + G i j) ≤ nn S F + nn S G := by
  refine le_trans ?_ (nrm_add_le (S := S) (x := fun i => nrm S (F i)) (y := fun i => nrm S (G i)))
  exact nrm_mono fun i _ => by
    rw [abs_of_nonneg nrm_nonneg, abs_of_nonneg (add_nonneg nrm_nonneg nrm_nonneg)]
    exact nrm_add_le

theorem nn_mono (h : ∀ i ∈ S, ∀ j ∈ S, |F i j| ≤ |G i j|) : nn S F ≤ nn S G :=
  nrm_mono fun i hi => by
    rw [abs_of_nonneg nrm_nonneg, abs_of_nonneg nrm_nonneg]
    exact nrm_mono (h i hi)

theorem nn_mul (c : ℝ) : nn S (fun i j => c * F i j) = |c| * nn S F := by
  unfold nn
  rw [← abs_abs c, ← nrm_mul]
  exact nrm_congr fun i _ => nrm_mul c

theorem nn_abs : nn S (fun i j => |F i j|) = nn S F := nrm_congr fun _ _ => nrm_abs

theorem nn_outer (x y : ℕ → ℝ) : nn S (fun i j => x i * y j) = nrm S x * nrm S y := by
  unfold nn
  rw [nrm_congr (y := fun i => nrm S y * |x i|) fun i _ => (nrm_mul _).trans (mul_comm _ _), nrm_mul,
    nrm_abs, abs_of_nonneg nrm_nonneg, mul_comm]

theorem nn_const {c : ℝ} (hc : 0 ≤ c) : nn S (fun _ _ => c) = S.card * c := by
  unfold nn
  rw [nrm_congr (y := fun _ => √(S.card) * c) fun i _ => nrm_const hc, nrm_const (by positivity), ← mul_assoc,
    Real.mul_self_sqrt (Nat.cast_nonneg _)]

theorem nn_sq : nn S F ^ 2 = ∑ i ∈ S, ∑ j ∈ S, F i j ^ 2 := by
  unfold nn
  rw [nrm_sq]
  exact sum_congr rfl fun i _ => nrm_sq

/-- A table times a vector. -/
theorem nn_mulVec (x : ℕ → ℝ) : nrm S (fun i => ∑ j ∈ S, |F i j| * |x j|) ≤ nn S F * nrm S x := by
  have h : nrm S (fun i => ∑ j ∈ S, |F i j| * |x j|) ≤ nrm S fun i => nrm S x * nrm S (F i) :=
    nrm_mono fun i _ => by
      rw [abs_of_nonneg (sum_nonneg fun _ _ => by positivity),
        abs_of_nonneg (mul_nonneg nrm_nonneg nrm_nonneg), mul_comm]
      exact dot_le_nrm
  rw [nrm_mul, abs_of_nonneg nrm_nonneg, mul_comm] at h
  exact h

/-- What is known of the numbers of one round: `b` is the factor of the exact reflection along `V`,
`B` and `h` nearly `b` and its half, `s` nearly `T V`, `p` nearly `B s`, `g` nearly `h (p · V)`, `z` nearly
`p - g V`, and `T'` nearly `T - (V zᵀ + z Vᵀ)`. -/
structure Rank2 (S : Finset ℕ) (κ μ η ν ν' : ℝ) (T T' : ℕ → ℕ → ℝ) (V s p z : ℕ → ℝ) (b B h g0 g : ℝ) : Prop where
  κ0 : 0 ≤ κ
  κ1 : κ ≤ 1 / 50
  μ0 : 0 ≤ μ
  η0 : 0 ≤ η
  ν0 : 0 ≤ ν
  ν'0 : 0 ≤ ν'
  pos : 0 < nrm S V
  fac : b * nrm S V ^ 2 = 2
  hB : |B - b| ≤ 6 * κ * b
  hh : |h - b / 2| ≤ 8 * κ * (b / 2)
  hs : ∀ i ∈ S, |s i - ∑ j ∈ S, T i j * V j| ≤ κ * ∑ j ∈ S, |T i j| * |V j| + μ
  hp : ∀ i ∈ S, |p i - B * s i| ≤ κ * |B * s i| + η
  hg0 : |g0 - ∑ i ∈ S, p i * V i| ≤ κ * ∑ i ∈ S, |p i| * |V i| + μ
  hg : |g - g0 * h| ≤ κ * |g0 * h| + η
  hz : ∀ i ∈ S, |z i - (p i - g * V i)| ≤ κ * (|p i| + |g| * |V i|) + ν
  hT : ∀ i ∈ S, ∀ j ∈ S, |T' i j - (T i j - (V i * z j + z i * V j))| ≤
    κ * (|T i j| + |V i| * |z j| + |z i| * |V j|) + ν'

namespace Rank2

variable {κ μ η ν ν' b B h g0 g : ℝ} {T T' : ℕ → ℕ → ℝ} {V s p z : ℕ → ℝ}

/-- `T V`. -/
noncomputable def tv (S : Finset ℕ) (T : ℕ → ℕ → ℝ) (V : ℕ → ℝ) (i : ℕ) : ℝ := ∑ j ∈ S, T i j * V j

/-- The part for underflow of the error of `p`. -/
noncomputable def Ω (S : Finset ℕ) (μ η : ℝ) (V : ℕ → ℝ) : ℝ := √(S.card) * (3 * (μ / nrm S V) + η * nrm S V)

theorem b_pos (H : Rank2 S κ μ η ν ν' T T' V s p z b B h g0 g) : 0 < b := by
  have h1 := H.fac
  have h2 := pow_pos H.pos 2
  by_contra hb
  nlinarith

theorem tv_le : nrm S (tv S T V) ≤ nn S T * nrm S V := by
  refine le_trans (nrm_mono fun i hi => ?_) (nn_mulVec (F := T) V)
  rw [abs_of_nonneg (a := ∑ j ∈ S, |T i j| * |V j|) (sum_nonneg fun _ _ => by positivity)]
  exact (abs_sum_le_sum_abs _ _).trans (le_of_eq (sum_congr rfl fun _ _ => abs_mul _ _))

/-- The error of `p`. -/
theorem dp (H : Rank2 S κ μ η ν ν' T T' V s p z b B h g0 g) :
    nrm S V * nrm S (fun i => p i - b * tv S T V i) ≤ 18 * κ * nn S T + Ω S μ η V := by
  have hb := H.b_pos
  have κ0 := H.κ0
  have κ1 := H.κ1
  have μ0 := H.μ0
  have η0 := H.η0
  have h1 : ∀ i ∈ S, |p i - b * tv S T V i| ≤ |9 * κ * b * (∑ j ∈ S, |T i j| * |V j|) + (3 / 2 * b * μ + η)| := by
    intro i hi
    have hq : 0 ≤ ∑ j ∈ S, |T i j| * |V j| := sum_nonneg fun _ _ => by positivity
    have ht : |tv S T V i| ≤ ∑ j ∈ S, |T i j| * |V j| :=
      (abs_sum_le_sum_abs _ _).trans (le_of_eq (sum_congr rfl fun _ _ => abs_mul _ _))
    have a1 := H.hs i hi
    have a2 := H.hp i hi
    have a3 := H.hB
    rw [abs_of_nonneg (a := 9 * κ * b * (∑ j ∈ S, |T i j| * |V j|) + (3 / 2 * b * μ + η)) (by positivity)]
    rw [show ∑ j ∈ S, T i j * V j = tv S T V i from rfl] at a1
    generalize tv S T V i = t at *
    generalize ∑ j ∈ S, |T i j| * |V j| = q at *
    generalize s i = σ at *
    generalize p i = π at *
    have b1 : |σ| ≤ 51 / 50 * q + μ := by
      have := abs_sub_abs_le_abs_sub σ t
      nlinarith
    have b2 : |B| ≤ 28 / 25 * b := by
      have := abs_sub_abs_le_abs_sub B b
      rw [abs_of_pos hb] at this
      nlinarith
    have b3 : |B * σ| ≤ 28 / 25 * b * (51 / 50 * q + μ) := by rw [abs_mul]; gcongr
    have b4 : |(B - b) * σ| ≤ 6 * κ * b * (51 / 50 * q + μ) := by rw [abs_mul]; gcongr
    have b5 : |b * (σ - t)| ≤ b * (κ * q + μ) := by rw [abs_mul, abs_of_pos hb]; gcongr
    have b6 : κ * |B * σ| ≤ κ * (28 / 25 * b * (51 / 50 * q + μ)) := by gcongr
    have b7 : |π - b * t| ≤ |π - B * σ| + |(B - b) * σ| + |b * (σ - t)| := by
      rw [show π - b * t = (π - B * σ) + (B - b) * σ + b * (σ - t) by ring]
      exact (abs_add_le _ _).trans (add_le_add (abs_add_le _ _) le_rfl)
    have b8 : 0 ≤ κ * b * q := by positivity
    have b9 : κ * (b * μ) ≤ 1 / 50 * (b * μ) := by gcongr
    have b10 : 0 ≤ b * μ := by positivity
    linarith
  have h2 := nrm_mono h1
  have h3 := h2.trans nrm_add_le
  rw [nrm_mul, nrm_const (by positivity), abs_of_nonneg (by positivity)] at h3
  have h4 := nn_mulVec (S := S) (F := T) V
  have hw := H.pos
  have hf := H.fac
  have hτ := nn_nonneg (S := S) (F := T)
  generalize nrm S (fun i => p i - b * tv S T V i) = X at *
  generalize nrm S (fun i => ∑ j ∈ S, |T i j| * |V j|) = Y at *
  unfold Ω
  have hn := Real.sqrt_nonneg (S.card : ℝ)
  generalize √(S.card : ℝ) = n at *
  generalize nn S T = τ at *
  generalize nrm S V = w at *
  have h5 : w * X ≤ w * (9 * κ * b * (τ * w) + n * (3 / 2 * b * μ + η)) := by
    refine mul_le_mul_of_nonneg_left (h3.trans ?_) hw.le
    gcongr
  refine h5.trans (le_of_eq ?_)
  have hb2 : b = 2 / w ^ 2 := by rw [eq_div_iff (pow_pos hw 2).ne']; exact hf
  rw [hb2]
  field_simp
  ring

/-- The size of `p`. -/
theorem p_le (H : Rank2 S κ μ η ν ν' T T' V s p z b B h g0 g) :
    nrm S V * nrm S p ≤ 3 * nn S T + Ω S μ η V ∧ nrm S V * nrm S (fun i => b * tv S T V i) ≤ 2 * nn S T := by
  have h1 := H.dp
  have h2 : nrm S V * nrm S (fun i => b * tv S T V i) ≤ 2 * nn S T := by
    rw [nrm_mul, abs_of_pos H.b_pos]
    calc nrm S V * (b * nrm S (tv S T V)) ≤ nrm S V * (b * (nn S T * nrm S V)) := by
          have := H.b_pos
          gcongr
          · exact nrm_nonneg
          · exact tv_le
      _ = b * nrm S V ^ 2 * nn S T := by ring
      _ = _ := by rw [H.fac]
  refine ⟨?_, h2⟩
  have h3 : nrm S p ≤ nrm S (fun i => p i - b * tv S T V i) + nrm S (fun i => b * tv S T V i) := by
    refine le_trans (le_of_eq (nrm_congr fun i _ => ?_)) nrm_add_le
    ring
  have h4 := mul_le_mul_of_nonneg_left h3 H.pos.le
  have h5 : κ * nn S T ≤ 1 / 50 * nn S T := mul_le_mul_of_nonneg_right H.κ1 nn_nonneg
  have h6 := nn_nonneg (S := S) (F := T)
  linarith

/-- The exact `g`. -/
noncomputable def gx (S : Finset ℕ) (T : ℕ → ℕ → ℝ) (V : ℕ → ℝ) (b : ℝ) : ℝ :=
  (∑ i ∈ S, b * tv S T V i * V i) * (b / 2)

/-- The exact `z`. -/
noncomputable def zx (S : Finset ℕ) (T : ℕ → ℕ → ℝ) (V : ℕ → ℝ) (b : ℝ) (i : ℕ) : ℝ :=
  b * tv S T V i - gx S T V b * V i

theorem Ω_nonneg (H : Rank2 S κ μ η ν ν' T T' V s p z b B h g0 g) : 0 ≤ Ω S μ η V := by
  have := H.μ0
  have := H.η0
  have := H.pos
  unfold Ω
  positivity

/-- The part for underflow of the error of `g`. -/
noncomputable def Θ (S : Finset ℕ) (μ η : ℝ) (V : ℕ → ℝ) : ℝ := 3 * Ω S μ η V + 2 * μ + η * nrm S V ^ 2

theorem dg (H : Rank2 S κ μ η ν ν' T T' V s p z b B h g0 g) :
    nrm S V ^ 2 * |g - gx S T V b| ≤ 51 * κ * nn S T + Θ S μ η V ∧
    nrm S V ^ 2 * |gx S T V b| ≤ 2 * nn S T := by
  have h1 := H.dp
  obtain ⟨h2, h3⟩ := H.p_le
  have h4 := H.hg0
  have h5 : ∑ i ∈ S, |p i| * |V i| ≤ nrm S V * nrm S p := dot_le_nrm.trans (le_of_eq (mul_comm _ _))
  have h6 : |∑ i ∈ S, p i * V i - ∑ i ∈ S, b * tv S T V i * V i| ≤
      nrm S V * nrm S (fun i => p i - b * tv S T V i) := by
    rw [← sum_sub_distrib, mul_comm]
    refine le_trans (le_of_eq ?_) abs_dot_le
    congr 1
    exact sum_congr rfl fun i _ => by ring
  have h7 : |∑ i ∈ S, b * tv S T V i * V i| ≤ nrm S V * nrm S (fun i => b * tv S T V i) :=
    abs_dot_le.trans (le_of_eq (mul_comm _ _))
  have h8 := H.hg
  have h9 := H.hh
  have hw := H.pos
  have hf := H.fac
  have hb := H.b_pos
  have κ0 := H.κ0
  have κ1 := H.κ1
  have μ0 := H.μ0
  have η0 := H.η0
  have hΩ := H.Ω_nonneg
  have hτ := nn_nonneg (S := S) (F := T)
  unfold Θ gx
  generalize ∑ i ∈ S, b * tv S T V i * V i = G at *
  generalize ∑ i ∈ S, p i * V i = G1 at *
  generalize ∑ i ∈ S, |p i| * |V i| = G2 at *
  generalize nrm S V * nrm S (fun i => b * tv S T V i) = X1 at *
  generalize nrm S V * nrm S (fun i => p i - b * tv S T V i) = X2 at *
  generalize nrm S V * nrm S p = X3 at *
  generalize Ω S μ η V = ω at *
  generalize nn S T = τ at *
  generalize nrm S V = w at *
  have hG : |G| ≤ 2 * τ := h7.trans h3
  have c0 : κ * G2 ≤ κ * (3 * τ + ω) := mul_le_mul_of_nonneg_left (h5.trans h2) κ0
  have c1 : |g0 - G| ≤ 21 * κ * τ + 2 * ω + μ := by
    have := abs_add_le (g0 - G1) (G1 - G)
    rw [show g0 - G1 + (G1 - G) = g0 - G by ring] at this
    nlinarith
  have c2 : |g0| ≤ 3 * τ + 2 * ω + μ := by
    have := abs_sub_abs_le_abs_sub g0 G
    nlinarith
  have c3 : |h| ≤ 2 * (b / 2) := by
    have := abs_sub_abs_le_abs_sub h (b / 2)
    rw [abs_of_pos (half_pos hb)] at this
    nlinarith
  have hw2 : 0 < w ^ 2 := pow_pos hw 2
  have e1 : w ^ 2 * (b / 2) = 1 := by linarith
  constructor
  · have c4 : |g - G * (b / 2)| ≤ |g - g0 * h| + |g0 * (h - b / 2)| + |(g0 - G) * (b / 2)| := by
      rw [show g - G * (b / 2) = (g - g0 * h) + g0 * (h - b / 2) + (g0 - G) * (b / 2) by ring]
      exact (abs_add_le _ _).trans (add_le_add (abs_add_le _ _) le_rfl)
    rw [abs_mul g0, abs_mul (g0 - G), abs_of_pos (half_pos hb)] at c4
    rw [abs_mul g0 h] at h8
    have c5 : |g0| * |h - b / 2| ≤ (3 * τ + 2 * ω + μ) * (8 * κ * (b / 2)) := by gcongr
    have c6 : κ * (|g0| * |h|) ≤ κ * ((3 * τ + 2 * ω + μ) * (2 * (b / 2))) := by gcongr
    have c7 : |g0 - G| * (b / 2) ≤ (21 * κ * τ + 2 * ω + μ) * (b / 2) := by gcongr
    have c8 : |g - G * (b / 2)| ≤ ((3 * τ + 2 * ω + μ) * (10 * κ) + (21 * κ * τ + 2 * ω + μ)) * (b / 2) + η := by
      linarith
    have c9 := mul_le_mul_of_nonneg_left c8 hw2.le
    have c10 : w ^ 2 * (((3 * τ + 2 * ω + μ) * (10 * κ) + (21 * κ * τ + 2 * ω + μ)) * (b / 2) + η) =
        (3 * τ + 2 * ω + μ) * (10 * κ) + (21 * κ * τ + 2 * ω + μ) + η * w ^ 2 := by
      linear_combination ((3 * τ + 2 * ω + μ) * (10 * κ) + (21 * κ * τ + 2 * ω + μ)) * e1
    rw [c10] at c9
    have c11 : (2 * ω + μ) * (10 * κ) ≤ (2 * ω + μ) * (10 * (1 / 50)) := by gcongr
    linarith
  · rw [abs_mul, abs_of_pos (half_pos hb)]
    calc w ^ 2 * (|G| * (b / 2)) = w ^ 2 * (b / 2) * |G| := by ring
      _ ≤ _ := by rw [e1, one_mul]; exact hG

/-- The part for underflow of the error of `z`. -/
noncomputable def Ψ (S : Finset ℕ) (μ η ν : ℝ) (V : ℕ → ℝ) : ℝ :=
  2 * Ω S μ η V + 2 * Θ S μ η V + √(S.card) * ν * nrm S V

theorem dz (H : Rank2 S κ μ η ν ν' T T' V s p z b B h g0 g) :
    nrm S V * nrm S (fun i => z i - zx S T V b i) ≤ 76 * κ * nn S T + Ψ S μ η ν V ∧
    nrm S V * nrm S (zx S T V b) ≤ 4 * nn S T := by
  have h1 := H.dp
  obtain ⟨h2, h3⟩ := H.p_le
  obtain ⟨h4, h5⟩ := H.dg
  have κ0 := H.κ0
  have κ1 := H.κ1
  have hτ := nn_nonneg (S := S) (F := T)
  have hw := H.pos
  have hΩ := H.Ω_nonneg
  have hΘ : 0 ≤ Θ S μ η V := by
    have := H.μ0
    have := H.η0
    unfold Θ
    positivity
  have z1 : nrm S (fun i => z i - (p i - g * V i)) ≤ κ * (nrm S p + |g| * nrm S V) + √(S.card) * ν := by
    have e1 : nrm S (fun i => z i - (p i - g * V i)) ≤ nrm S fun i => (κ * (|p i| + |g| * |V i|)) + ν := by
      refine nrm_mono fun i hi => ?_
      rw [abs_of_nonneg (a := κ * (|p i| + |g| * |V i|) + ν) (by have := H.ν0; positivity)]
      exact H.hz i hi
    refine e1.trans (nrm_add_le.trans ?_)
    rw [nrm_mul, abs_of_nonneg κ0, nrm_const H.ν0]
    gcongr
    refine nrm_add_le.trans ?_
    rw [nrm_mul, abs_abs, nrm_abs, nrm_abs]
  have z2 : nrm S (fun i => z i - zx S T V b i) ≤ nrm S (fun i => z i - (p i - g * V i)) +
      (nrm S (fun i => p i - b * tv S T V i) + |gx S T V b - g| * nrm S V) := by
    rw [← nrm_mul]
    refine le_trans (le_of_eq (nrm_congr fun i _ => ?_)) (nrm_add_le.trans (add_le_add le_rfl nrm_add_le))
    unfold zx
    ring
  have z3 : nrm S (zx S T V b) ≤ nrm S (fun i => b * tv S T V i) + |gx S T V b| * nrm S V := by
    rw [← nrm_mul]
    exact nrm_sub_le
  have g1 : |g| ≤ |g - gx S T V b| + |gx S T V b| := by
    have := abs_add_le (g - gx S T V b) (gx S T V b)
    rwa [sub_add_cancel] at this
  rw [abs_sub_comm] at z2
  unfold Ψ
  generalize nrm S (fun i => z i - zx S T V b i) = Z at *
  generalize nrm S (fun i => z i - (p i - g * V i)) = Z1 at *
  generalize nrm S (fun i => p i - b * tv S T V i) = Z2 at *
  generalize nrm S (fun i => b * tv S T V i) = Z3 at *
  generalize nrm S (zx S T V b) = Z4 at *
  generalize nrm S p = P at *
  generalize |g - gx S T V b| = D at *
  generalize |gx S T V b| = G at *
  generalize |g| = g' at *
  generalize Ω S μ η V = ω at *
  generalize Θ S μ η V = θ at *
  generalize nn S T = τ at *
  generalize nrm S V = w at *
  generalize √(S.card : ℝ) * ν = r at *
  constructor
  · have a1 : w ^ 2 * g' ≤ 51 * κ * τ + θ + 2 * τ := by
      have := mul_le_mul_of_nonneg_left g1 (pow_pos hw 2).le
      linarith
    have a2 : κ * τ ≤ 1 / 50 * τ := by gcongr
    have a3 : κ * (w * P + w ^ 2 * g') ≤ κ * ((3 * τ + ω) + (4 * τ + θ)) := by
      gcongr
      linarith
    have a4 : κ * ω ≤ 1 / 50 * ω := by gcongr
    have a5 : κ * θ ≤ 1 / 50 * θ := by gcongr
    have a6 := mul_le_mul_of_nonneg_left (z2.trans (add_le_add z1 le_rfl)) hw.le
    have a7 : w * (κ * (P + g' * w) + r + (Z2 + D * w)) = κ * (w * P + w ^ 2 * g') + r * w + w * Z2 + w ^ 2 * D := by
      ring
    rw [a7] at a6
    linarith
  · have a6 := mul_le_mul_of_nonneg_left z3 hw.le
    have a7 : w * (Z3 + G * w) = w * Z3 + w ^ 2 * G := by ring
    rw [a7] at a6
    linarith

/-- The table is nearly reflected from both sides. -/
theorem main (H : Rank2 S κ μ η ν ν' T T' V s p z b B h g0 g) :
    nn S (fun i j => T' i j - (T i j - (V i * zx S T V b j + zx S T V b i * V j))) ≤
      165 * κ * nn S T + (3 * Ψ S μ η ν V + S.card * ν') := by
  obtain ⟨h1, h2⟩ := H.dz
  have κ0 := H.κ0
  have κ1 := H.κ1
  have hτ := nn_nonneg (S := S) (F := T)
  have hw := H.pos
  have hΨ : 0 ≤ Ψ S μ η ν V := by
    have := H.μ0
    have := H.η0
    have := H.ν0
    have := H.Ω_nonneg
    unfold Ψ Θ
    positivity
  have z4 : nrm S z ≤ nrm S (fun i => z i - zx S T V b i) + nrm S (zx S T V b) := by
    refine le_trans (le_of_eq (nrm_congr fun i _ => ?_)) nrm_add_le
    ring
  have t1 : nn S (fun i j => T' i j - (T i j - (V i * z j + z i * V j))) ≤
      κ * (nn S T + nrm S V * nrm S z + nrm S z * nrm S V) + S.card * ν' := by
    have e1 : nn S (fun i j => T' i j - (T i j - (V i * z j + z i * V j))) ≤
        nn S fun i j => κ * ((|T i j| + |V i| * |z j|) + |z i| * |V j|) + ν' :=
      nn_mono fun i hi j hj => by
        rw [abs_of_nonneg (a := κ * ((|T i j| + |V i| * |z j|) + |z i| * |V j|) + ν')
          (by have := H.ν'0; positivity)]
        exact H.hT i hi j hj
    refine e1.trans (nn_add_le.trans ?_)
    rw [nn_mul, abs_of_nonneg κ0, nn_const H.ν'0]
    gcongr
    refine nn_add_le.trans (add_le_add (nn_add_le.trans (add_le_add (le_of_eq nn_abs) ?_)) ?_)
    · rw [nn_outer, nrm_abs, nrm_abs]
    · rw [nn_outer, nrm_abs, nrm_abs]
  have t2 : nn S (fun i j => T' i j - (T i j - (V i * zx S T V b j + zx S T V b i * V j))) ≤
      nn S (fun i j => T' i j - (T i j - (V i * z j + z i * V j))) +
        (nrm S V * nrm S (fun i => z i - zx S T V b i) + nrm S (fun i => z i - zx S T V b i) * nrm S V) := by
    have e1 : nn S (fun i j => T' i j - (T i j - (V i * zx S T V b j + zx S T V b i * V j))) =
        nn S fun i j => (T' i j - (T i j - (V i * z j + z i * V j))) +
          ((-1) * ((V i * (z j - zx S T V b j)) + (z i - zx S T V b i) * V j)) := by
      unfold nn
      exact nrm_congr fun i _ => nrm_congr fun j _ => by ring
    rw [e1, ← nn_outer V (fun i => z i - zx S T V b i), ← nn_outer (fun i => z i - zx S T V b i) V]
    refine nn_add_le.trans (add_le_add le_rfl ?_)
    rw [nn_mul, abs_neg, abs_one, one_mul]
    exact nn_add_le
  generalize nrm S (fun i => z i - zx S T V b i) = Z at *
  generalize nrm S (zx S T V b) = Z4 at *
  generalize nrm S z = Z5 at *
  generalize Ψ S μ η ν V = ψ at *
  generalize nn S T = τ at *
  generalize nrm S V = w at *
  have a1 : w * Z5 ≤ 6 * τ + ψ := by
    have := mul_le_mul_of_nonneg_left z4 hw.le
    have a2 : κ * τ ≤ 1 / 50 * τ := by gcongr
    linarith
  have a2 : κ * (τ + w * Z5 + Z5 * w) ≤ κ * (τ + (6 * τ + ψ) + (6 * τ + ψ)) := by
    rw [mul_comm Z5 w]; gcongr
  have a3 : κ * ψ ≤ 1 / 50 * ψ := by gcongr
  have a4 : Z * w = w * Z := mul_comm _ _
  rw [a4] at t2
  linarith

end Rank2

/-! ## The factor -/

/-- The computed factor against the exact one. -/
theorem HHR.recip {k : ℕ} {κ A D : ℝ} {x V : ℕ → ℝ} (h : HHR S k κ x V A) (hD : |D - A * V k| ≤ κ * |A * V k|) :
    |-1 / D - 2 / ∑ i ∈ S, V i ^ 2| ≤ 5 * κ * (2 / ∑ i ∈ S, V i ^ 2) ∧
    A ^ 2 ≤ ∑ i ∈ S, V i ^ 2 := by
  have h0 := h.nonneg
  have h5 := h.small
  have hvv := h.vv
  have hpp := h.P_pos
  have hP := h.P_ge
  have hd := h.den hD
  have hWp := h.nrmV_pos
  generalize ∑ s ∈ S, V s ^ 2 = W at *
  generalize P k x A = p at *
  generalize A ^ 2 = A2 at *
  have hDl : 479 / 500 * p ≤ |D| := by
    have h1 : p - |D| ≤ |D + p| := by
      have := abs_sub_abs_le_abs_sub p (-D)
      rw [abs_of_pos hpp, abs_neg, sub_neg_eq_add, add_comm p D] at this
      exact this
    nlinarith
  have hDp : 0 < |D| := by nlinarith
  have hD0 : D ≠ 0 := abs_pos.1 hDp
  have hDW : |D + W / 2| ≤ 93 / 20 * κ * p := by
    calc |D + W / 2| = |(D + p) + (W - 2 * p) / 2| := by congr 1; ring
      _ ≤ 2.1 * κ * p + 5.1 * κ * p / 2 := by
        refine (abs_add_le _ _).trans (add_le_add hd ?_)
        rw [abs_div, abs_two]
        gcongr
      _ = _ := by ring
  constructor
  · have e1 : -1 / D - 2 / W = -((D + W / 2) / D) * (2 / W) := by
      field_simp
      ring
    rw [e1, abs_mul, abs_of_pos (a := 2 / W) (by positivity), abs_neg, abs_div]
    refine mul_le_mul_of_nonneg_right ?_ (by positivity)
    rw [div_le_iff₀ hDp]
    have := mul_nonneg h0 hpp.le
    nlinarith
  · have h1 := (abs_le.1 hvv).1
    have h2 : κ * p ≤ 1 / 50 * p := by gcongr
    norm_num at h1
    linarith

/-! ## One round -/

section

open Rnd
open Finset hiding val

variable {α : Type} [Flt α] [Rnd α] {m : Nat}

theorem Tri.zv_sum {k i : Nat} (f : Nat → Nat → α) (v : Nat → α) (hk : k < i) (hi : i < m) :
    SumOf (Flt.add (lsum (k + 1) i (fun j => Flt.mul (f j i) (v j)) Flt.zero)
        (lsum (i + 1) m (fun j => Flt.mul (f i j) (v j)) (Flt.mul (f i i) (v i))))
      (over (Ico (k + 1) m) fun j => Flt.mul (symU f i j) (v j)) := by
  rw [over_Ico, terms_append (show k + 1 ≤ i by omega) (show i ≤ m by omega)]
  refine .add ?_ ?_
  · rw [← terms_congr (g := fun j => Flt.mul (f j i) (v j)) fun j h1 h2 => by
      unfold symU; rw [if_neg (by omega)]]
    exact .left _ _ _
  · rw [← terms_congr (g := fun j => Flt.mul (f i j) (v j)) fun j h1 h2 => by
      unfold symU; rw [if_pos (by omega)], ← sum_terms, sum_eq_sum_Ico_succ_bot hi]
    exact SumOf.lsum (.term _) _ fun _ _ _ => .term _

theorem Tri.Step.refl {N k : Nat} {e : ℝ} {f f' : Nat → Nat → α} {a : α} (h : Tri.Step m k f f' a)
    (hn : NormOf (k + 1) m (f k) a) (hs : Scaled N e a) : Refl (k + 1) m N e (f k) (f' k) a :=
  ⟨hn, hs, h.head, fun hz => by rw [h.same hz], fun i hi => h.row i hi⟩

/-- The error of one entry of the update. -/
theorem rank2_err {t x y x' y' : α} {e : ℝ} (h : fin (Flt.sub t (Flt.add (Flt.mul x y) (Flt.mul x' y'))))
    (he : u α ≤ e) (he1 : e ≤ 1 / 100) :
    |val (Flt.sub t (Flt.add (Flt.mul x y) (Flt.mul x' y'))) - (val t - (val x * val y + val x' * val y'))| ≤
      10 * e * (|val t| + |val x| * |val y| + |val x'| * |val y'|) + 5 * η α := by
  have hu := u_nonneg (α := α)
  have hη := η_nonneg (α := α)
  have he0 := hu.trans he
  obtain ⟨f1, f2⟩ := sub_fin h
  obtain ⟨f3, f4⟩ := add_fin f2
  have h1 := (sub_err h).1
  have h2 := (add_err f2).1
  have h3 := (mul_err f3).1
  have h4 := (mul_err f4).1
  generalize val (Flt.sub t (Flt.add (Flt.mul x y) (Flt.mul x' y'))) = s at *
  generalize val (Flt.add (Flt.mul x y) (Flt.mul x' y')) = q at *
  generalize val (Flt.mul x y) = q1 at *
  generalize val (Flt.mul x' y') = q2 at *
  rw [← abs_mul, ← abs_mul]
  generalize val x * val y = w1 at *
  generalize val x' * val y' = w2 at *
  generalize val t = τ at *
  have hW1 := abs_nonneg w1
  have hW2 := abs_nonneg w2
  have hT := abs_nonneg τ
  have k1 : u α * |w1| ≤ e * |w1| := by gcongr
  have k2 : u α * |w2| ≤ e * |w2| := by gcongr
  have g1 : |q1 + q2| ≤ (1 + e) * (|w1| + |w2|) + 2 * η α := by
    have b1 := abs_add_le (q1 - w1) (q2 - w2)
    have b2 := abs_add_le w1 w2
    have b3 := abs_add_le ((q1 - w1) + (q2 - w2)) (w1 + w2)
    rw [show (q1 - w1) + (q2 - w2) + (w1 + w2) = q1 + q2 by ring] at b3
    linarith
  have g2 : |q - (w1 + w2)| ≤ e * ((1 + e) * (|w1| + |w2|) + 2 * η α) + (e * (|w1| + |w2|) + 2 * η α) := by
    have b1 := abs_add_le (q1 - w1) (q2 - w2)
    have b3 := abs_add_le (q - (q1 + q2)) ((q1 - w1) + (q2 - w2))
    rw [show q - (q1 + q2) + ((q1 - w1) + (q2 - w2)) = q - (w1 + w2) by ring] at b3
    have b4 : u α * |q1 + q2| ≤ e * ((1 + e) * (|w1| + |w2|) + 2 * η α) := by gcongr
    linarith
  have k3 : e * (|w1| + |w2|) ≤ 1 / 100 * (|w1| + |w2|) := by gcongr
  have k4 : e * η α ≤ 1 / 100 * η α := by gcongr
  have k5 : e * (e * (|w1| + |w2|)) ≤ e * (1 / 100 * (|w1| + |w2|)) := by gcongr
  have g2' : |q - (w1 + w2)| ≤ 3 * e * (|w1| + |w2|) + 3 * η α := by
    have : 0 ≤ e * (|w1| + |w2|) := by positivity
    linarith
  have g3 : |τ - q| ≤ |τ| + 2 * (|w1| + |w2|) + 3 * η α := by
    have b1 := abs_sub (τ - (w1 + w2)) (q - (w1 + w2))
    rw [show τ - (w1 + w2) - (q - (w1 + w2)) = τ - q by ring] at b1
    have b2 := abs_sub τ (w1 + w2)
    have b3 := abs_add_le w1 w2
    linarith
  have g4 : u α * |τ - q| ≤ e * (|τ| + 2 * (|w1| + |w2|) + 3 * η α) := by gcongr
  have b1 := abs_sub (s - (τ - q)) (q - (w1 + w2))
  rw [show s - (τ - q) - (q - (w1 + w2)) = s - (τ - (w1 + w2)) by ring] at b1
  have c1 : 0 ≤ e * |τ| := by positivity
  have c2 : 0 ≤ e * |w1| := by positivity
  have c3 : 0 ≤ e * |w2| := by positivity
  linarith

/-- The numbers of one round of the reduction. -/
theorem Tri.rank2 {N k : Nat} {e : ℝ} {f f' : Nat → Nat → α} {a : α} (h : Tri.Step m k f f' a) (hk : k + 1 < m)
    (hN : m ≤ N) (he : u α ≤ e) (hM : (N + 4) * e ≤ 1 / 100) (hn : NormOf (k + 1) m (f k) a) (hs : Scaled N e a)
    (hne : val a ≠ 0) (hf : ∀ i j, k < i → i ≤ j → j < m → fin (f' i j)) :
    HHR (Ico (k + 1) m) (k + 1) (2 * (N + 4) * e) (fun i => val (f k i)) (fun i => val (f' k i)) (val a) ∧
    (∀ i j, k < i → i ≤ j → j < m → fin (f i j)) ∧
    ∃ (s p z : Nat → ℝ) (B h g0 g : ℝ), Rank2 (Ico (k + 1) m) (2 * (N + 4) * e) (2 * (N * η α)) (η α) (2 * η α)
      (5 * η α) (fun i j => val (symU f i j)) (fun i j => val (symU f' i j)) (fun i => val (f' k i)) s p z
      (2 / ∑ i ∈ Ico (k + 1) m, val (f' k i) ^ 2) B h g0 g := by
  have hr := h.refl hn hs
  have hz := hr.ne hne
  obtain ⟨H, hfv, hfD, hD⟩ := hhr_gen hk hN he hM hn hne (hs.low.resolve_left hne) (h.head hz)
    (fun i hi => h.row i hi) hs.high
  have hu := u_nonneg (α := α)
  have hη0 := η_nonneg (α := α)
  have he0 : 0 ≤ e := hu.trans he
  have hN1 : (1 : ℝ) ≤ N := by exact_mod_cast (show 1 ≤ N by omega)
  have he1 : e ≤ 1 / 100 := by nlinarith
  have hκ0 : 0 ≤ 2 * (N + 4) * e := by positivity
  have hκ10 : 10 * e ≤ 2 * (N + 4) * e := by nlinarith
  have hκu : u α ≤ 2 * (N + 4) * e := by linarith
  have hκ3 : 3 * e ≤ 2 * (N + 4) * e := by linarith
  have hκs : 2 * (N + 4) * e ≤ 1 / 50 := by linarith
  have hcard : (Ico (k + 1) m).card = m - (k + 1) := Nat.card_Ico _ _
  have hNM : ((m - (k + 1) : ℕ) : ℝ) ≤ N := by exact_mod_cast (show m - (k + 1) ≤ N by omega)
  obtain ⟨g1, g2⟩ := gam_small (α := α) (N := m - (k + 1)) he hM (by omega)
  have gκ : gam α (m - (k + 1)) ≤ 2 * (N + 4) * e := by
    refine g1.trans ?_
    have : 0 ≤ N * e := by positivity
    norm_num
    linarith
  have gμ : ((m - (k + 1) : ℕ) : ℝ) * (1 + u α) ^ (m - (k + 1)) * η α ≤ 2 * (N * η α) := by
    calc ((m - (k + 1) : ℕ) : ℝ) * (1 + u α) ^ (m - (k + 1)) * η α ≤ N * 1.02 * η α := by gcongr
      _ ≤ _ := by
        have : 0 ≤ N * η α := by positivity
        norm_num
        linarith
  generalize hβ : Flt.div (Flt.neg Flt.one) (Flt.mul a (f' k (k + 1))) = β at *
  have hupd := h.upd hz
  rw [hβ] at hupd
  have ff : ∀ i j, k < i → i ≤ j → j < m → fin (f i j) ∧ fin (Tri.zz m k β f (f' k) i) := by
    intro i j h1 h2 h3
    have := hf i j h1 h2 h3
    rw [hupd i j h1 h2 h3] at this
    exact ⟨(sub_fin this).1, (mul_fin (add_fin (sub_fin this).2).2).1⟩
  have fz : ∀ i, k < i → i < m → fin (Tri.zz m k β f (f' k) i) := fun i h1 h2 => (ff i i h1 le_rfl h2).2
  have fzv : ∀ i, k < i → i < m → fin (Tri.zv m k β f (f' k) i) := fun i h1 h2 => (sub_fin (fz i h1 h2)).1
  have fβ : fin β := (mul_fin (fzv (k + 1) (by omega) hk)).1
  have fg : fin (Flt.mul (lsum (k + 1) m (fun i => Flt.mul (Tri.zv m k β f (f' k) i) (f' k i)) Flt.zero)
      (Flt.div β Flt.two)) := (mul_fin (sub_fin (fz (k + 1) (by omega) hk)).2).1
  obtain ⟨fg0, fh⟩ := mul_fin fg
  have hW := H.nrmV_pos
  have hWA := H.nrmV_le
  have hrec := H.recip hD
  have hηA : η α * val a ^ 2 ≤ e := by
    have h1 := big_η (α := α)
    have h2 := hs.high
    have h3 : 4 * val a ^ 2 * η α ≤ big α * η α := by gcongr
    linarith
  have hwsq : nrm (Ico (k + 1) m) (fun i => val (f' k i)) ^ 2 = ∑ i ∈ Ico (k + 1) m, val (f' k i) ^ 2 := nrm_sq
  have hw2 : ∑ i ∈ Ico (k + 1) m, val (f' k i) ^ 2 ≤ 441 / 100 * val a ^ 2 := by
    rw [← hwsq]
    have h1 := abs_nonneg (val a)
    calc _ ≤ (2.1 * |val a|) ^ 2 := by gcongr; exact nrm_nonneg
      _ = _ := by rw [mul_pow, sq_abs]; norm_num
  have hwp : 0 < nrm (Ico (k + 1) m) (fun i => val (f' k i)) := by
    refine lt_of_le_of_ne nrm_nonneg fun h0 => ?_
    rw [← h0] at hwsq
    have hW' : 0 < ∑ i ∈ Ico (k + 1) m, val (f' k i) ^ 2 := hW
    rw [← hwsq] at hW'
    norm_num at hW'
  have hB : |val β - 2 / ∑ i ∈ Ico (k + 1) m, val (f' k i) ^ 2| ≤
        6 * (2 * (N + 4) * e) * (2 / ∑ i ∈ Ico (k + 1) m, val (f' k i) ^ 2) ∧
      η α ≤ 9 / 4 * e * (2 / ∑ i ∈ Ico (k + 1) m, val (f' k i) ^ 2) := by
    have d1 : |val β - -1 / val (Flt.mul a (f' k (k + 1)))| ≤ u α * |-1 / val (Flt.mul a (f' k (k + 1)))| + η α := by
      have := (div_err (x := Flt.neg Flt.one) (y := Flt.mul a (f' k (k + 1))) (by rw [hβ]; exact fβ) hfD).1
      rwa [hβ, val_neg one_fin, val_one] at this
    have d2 := hrec.1
    have hW' : 0 < ∑ i ∈ Ico (k + 1) m, val (f' k i) ^ 2 := hW
    have hb0 : 0 < 2 / ∑ i ∈ Ico (k + 1) m, val (f' k i) ^ 2 := by positivity
    have hbW : 2 / (∑ i ∈ Ico (k + 1) m, val (f' k i) ^ 2) * ∑ i ∈ Ico (k + 1) m, val (f' k i) ^ 2 = 2 :=
      div_mul_cancel₀ _ hW'.ne'
    generalize 2 / ∑ i ∈ Ico (k + 1) m, val (f' k i) ^ 2 = b at *
    generalize ∑ i ∈ Ico (k + 1) m, val (f' k i) ^ 2 = W at *
    generalize -1 / val (Flt.mul a (f' k (k + 1))) = r at *
    have d3 : η α ≤ 9 / 4 * e * b := by
      have i1 : η α * W ≤ 9 / 2 * e := by
        calc η α * W ≤ η α * (441 / 100 * val a ^ 2) := by gcongr
          _ = 441 / 100 * (η α * val a ^ 2) := by ring
          _ ≤ 441 / 100 * e := by gcongr
          _ ≤ _ := by linarith
      have i2 : η α = η α * W * (b / 2) := by linear_combination - η α / 2 * hbW
      rw [i2]
      calc _ ≤ 9 / 2 * e * (b / 2) := by gcongr
        _ = _ := by ring
    refine ⟨?_, d3⟩
    generalize 2 * ((N : ℝ) + 4) * e = κ at *
    have d4 : |r| ≤ 11 / 10 * b := by
      have i1 := abs_sub_abs_le_abs_sub r b
      rw [abs_of_pos hb0] at i1
      have i2 : κ * b ≤ 1 / 50 * b := by gcongr
      linarith
    have d5 : u α * |r| ≤ e * (11 / 10 * b) := by gcongr
    have d6 := abs_add_le (val β - r) (r - b)
    rw [sub_add_sub_cancel] at d6
    have d7 : 10 * e * b ≤ κ * b := by gcongr
    linarith
  obtain ⟨hB, hηb⟩ := hB
  refine ⟨H, fun i j h1 h2 h3 => (ff i j h1 h2 h3).1, fun i => val (Flt.add
      (lsum (k + 1) i (fun j => Flt.mul (f j i) (f' k j)) Flt.zero)
      (lsum (i + 1) m (fun j => Flt.mul (f i j) (f' k j)) (Flt.mul (f i i) (f' k i)))),
    fun i => val (Tri.zv m k β f (f' k) i), fun i => val (Tri.zz m k β f (f' k) i), val β,
    val (Flt.div β Flt.two), val (lsum (k + 1) m (fun i => Flt.mul (Tri.zv m k β f (f' k) i) (f' k i)) Flt.zero),
    val (Flt.mul (lsum (k + 1) m (fun i => Flt.mul (Tri.zv m k β f (f' k) i) (f' k i)) Flt.zero)
      (Flt.div β Flt.two)), hκ0, hκs, by positivity, hη0, by positivity, by positivity, hwp, ?_, hB, ?_, ?_, ?_, ?_,
    ?_, ?_, ?_⟩
  · rw [hwsq]; exact div_mul_cancel₀ _ hW.ne'
  · have d1 := (div_err fh two_fin).1
    rw [val_two] at d1
    have hb0 : 0 < 2 / ∑ i ∈ Ico (k + 1) m, val (f' k i) ^ 2 := div_pos two_pos hW
    generalize 2 / ∑ i ∈ Ico (k + 1) m, val (f' k i) ^ 2 = b at *
    generalize val (Flt.div β Flt.two) = y at *
    generalize val β = B at *
    generalize 2 * ((N : ℝ) + 4) * e = κ at *
    have d2 : |B| ≤ 28 / 25 * b := by
      have i1 := abs_sub_abs_le_abs_sub B b
      rw [abs_of_pos hb0] at i1
      have i2 : κ * b ≤ 1 / 50 * b := by gcongr
      linarith
    have d3 : |B / 2| ≤ 14 / 25 * b := by rw [abs_div, abs_two]; linarith
    have d4 : u α * |B / 2| ≤ e * (14 / 25 * b) := by gcongr
    have d5 : |B / 2 - b / 2| ≤ 6 * κ * (b / 2) := by
      rw [← sub_div, abs_div, abs_two]; linarith
    have d6 := abs_add_le (y - B / 2) (B / 2 - b / 2)
    rw [sub_add_sub_cancel] at d6
    have d7 : 10 * e * b ≤ κ * b := by gcongr
    linarith
  · intro i hi
    obtain ⟨i1, i2⟩ := mem_Ico.1 hi
    have := ((Tri.zv_sum f (f' k) i1 i2).prods (mul_fin (fzv i i1 i2)).2).2
    rw [hcard] at this
    refine this.trans (add_le_add ?_ gμ)
    exact mul_le_mul_of_nonneg_right gκ (sum_nonneg fun _ _ => by positivity)
  · intro i hi
    obtain ⟨i1, i2⟩ := mem_Ico.1 hi
    exact (mul_err (fzv i i1 i2)).1.trans (by gcongr)
  · have := (SumOf.prods (S := Ico (k + 1) m) (by rw [over_Ico]; exact SumOf.left _ _ _) fg0).2
    rw [hcard] at this
    refine this.trans (add_le_add ?_ gμ)
    exact mul_le_mul_of_nonneg_right gκ (sum_nonneg fun _ _ => by positivity)
  · exact (mul_err fg).1.trans (by gcongr)
  · intro i hi
    obtain ⟨i1, i2⟩ := mem_Ico.1 hi
    exact (sub_mul_err (fz i i1 i2) he he1).trans (by gcongr)
  · have key : ∀ i j, k < i → i ≤ j → j < m → |val (f' i j) - (val (f i j) -
        (val (f' k i) * val (Tri.zz m k β f (f' k) j) + val (Tri.zz m k β f (f' k) i) * val (f' k j)))| ≤
        2 * (N + 4) * e * (|val (f i j)| + |val (f' k i)| * |val (Tri.zz m k β f (f' k) j)| +
          |val (Tri.zz m k β f (f' k) i)| * |val (f' k j)|) + 5 * η α := by
      intro i j h1 h2 h3
      have h4 := hf i j h1 h2 h3
      rw [hupd i j h1 h2 h3] at h4 ⊢
      exact (rank2_err h4 he he1).trans (by gcongr)
    intro i hi j hj
    obtain ⟨i1, i2⟩ := mem_Ico.1 hi
    obtain ⟨j1, j2⟩ := mem_Ico.1 hj
    unfold symU
    by_cases hij : i ≤ j
    · rw [if_pos hij, if_pos hij]
      exact key i j i1 hij j2
    · rw [if_neg hij, if_neg hij]
      have := key j i j1 (by omega) i2
      rw [mul_comm (val (f' k j)), mul_comm _ (val (f' k i)), mul_comm |val (f' k j)|, mul_comm _ |val (f' k i)|] at this
      rw [add_comm (val (f' k i) * _), add_right_comm]
      exact this

/-- The parts for underflow. -/
theorem Tri.under {N n : Nat} {w a x e η ω q c : ℝ} (hN : (1 : ℝ) ≤ N) (hn : (n : ℝ) ≤ N) (he0 : 0 ≤ e)
    (he : e ≤ 1 / 500) (hη : 0 ≤ η) (hη1 : η ≤ 1) (ha : 0 < a) (hηa : η * a ≤ e) (hηa2 : η * a ^ 2 ≤ 1)
    (hlow : 4 * N * η ≤ e * a ^ 2) (hwa : a ≤ w) (hw : w ≤ 21 / 10 * a) (hax : a ≤ 51 / 50 * x)
    (hω0 : 0 ≤ ω) (hω : ω ^ 2 = N * η) (hq0 : 0 ≤ q) (hq : q ^ 2 = N) (hc0 : 0 ≤ c) (hc : c ≤ q) :
    3 * (2 * (c * (3 * (2 * (N * η) / w) + η * w)) + 2 * (3 * (c * (3 * (2 * (N * η) / w) + η * w)) +
      2 * (2 * (N * η)) + η * w ^ 2) + c * (2 * η) * w) + n * (5 * η) ≤ 28 * e * x + 108 * (q * ω) := by
  have hw0 : 0 < w := ha.trans_le hwa
  have hqq : 1 ≤ q := by nlinarith
  have w1 : 40 * ω ≤ a := by
    refine le_of_sq_le_sq ?_ ha.le
    rw [mul_pow, hω]
    have : e * a ^ 2 ≤ 1 / 500 * a ^ 2 := by gcongr
    nlinarith
  have w2 : 2 * (N * η) / w ≤ ω / 20 := by
    rw [div_le_iff₀ hw0, ← hω]
    nlinarith
  have w3 : η * a ≤ ω := by
    refine le_of_sq_le_sq ?_ hω0
    rw [mul_pow, hω]
    have : η * (η * a ^ 2) ≤ η * 1 := by gcongr
    nlinarith
  have w4 : N * η ≤ q * ω := by
    refine le_of_sq_le_sq ?_ (by positivity)
    rw [mul_pow, mul_pow, hω, hq]
    have : η * η ≤ η * 1 := by gcongr
    nlinarith [mul_nonneg (sq_nonneg (N : ℝ)) hη]
  have w5 : η * w ≤ 21 / 10 * ω := by
    calc η * w ≤ η * (21 / 10 * a) := by gcongr
      _ = 21 / 10 * (η * a) := by ring
      _ ≤ _ := by gcongr
  have w6 : η * w ^ 2 ≤ 441 / 100 * (e * (51 / 50 * x)) := by
    calc η * w ^ 2 ≤ η * (21 / 10 * a) ^ 2 := by gcongr
      _ = 441 / 100 * (η * a * a) := by ring
      _ ≤ 441 / 100 * (e * (51 / 50 * x)) := by gcongr
  have w7 : c * (3 * (2 * (N * η) / w) + η * w) ≤ q * (9 / 4 * ω) := by
    have : 0 ≤ 2 * (N * η) / w := by positivity
    gcongr
    linarith
  have w8 : c * (2 * η) * w ≤ q * (21 / 5 * ω) := by
    calc c * (2 * η) * w = c * (2 * (η * w)) := by ring
      _ ≤ q * (2 * (21 / 10 * ω)) := by gcongr
      _ = _ := by ring
  have w9 : n * (5 * η) ≤ 5 * (N * η) := by
    have : (n : ℝ) * η ≤ N * η := by gcongr
    linarith
  have w10 : 0 ≤ q * ω := by positivity
  have w11 : 0 ≤ e * x := by
    have : 0 ≤ x := by linarith
    positivity
  linarith

theorem symU_comm {β : Type} (f : Nat → Nat → β) (i j : Nat) : symU f i j = symU f j i := by
  unfold symU
  rcases lt_trichotomy i j with h | h | h
  · rw [if_pos h.le, if_neg (by omega)]
  · rw [h]
  · rw [if_neg (by omega), if_pos h.le]

/-- The block after one round is nearly the block reflected from both sides. -/
theorem Tri.block {N k : Nat} {e : ℝ} {f f' : Nat → Nat → α} {a : α} (h : Tri.Step m k f f' a) (hk : k + 1 < m)
    (hN : m ≤ N) (he : u α ≤ e) (hM : (N + 4) * e ≤ 1 / 100) (hn : NormOf (k + 1) m (f k) a) (hs : Scaled N e a)
    (hf : ∀ i j, k < i → i ≤ j → j < m → fin (f' i j)) :
    (∀ i j, k < i → i ≤ j → j < m → fin (f i j)) ∧
    nn (Ico (k + 1) m) (fun i j => val (symU f' i j) - (val (symU f i j) +
      rb (k + 1) m (val a) (fun r => val (f' k r)) * (∑ r ∈ Ico (k + 1) m, val (f' k r) * val (symU f r j)) *
        val (f' k i) +
      rb (k + 1) m (val a) (fun r => val (f' k r)) * (∑ r ∈ Ico (k + 1) m, val (f' k r) * val (symU f r i)) *
        val (f' k j) +
      rb (k + 1) m (val a) (fun r => val (f' k r)) * rb (k + 1) m (val a) (fun r => val (f' k r)) *
        (∑ x ∈ Ico (k + 1) m, (∑ r ∈ Ico (k + 1) m, val (f' k r) * val (symU f r x)) * val (f' k x)) *
        val (f' k i) * val (f' k j))) ≤
      330 * (N + 4) * e * nn (Ico (k + 1) m) (fun i j => val (symU f i j)) +
        (28 * e * nrm (Ico (k + 1) m) (fun i => val (f k i)) + 108 * (√N * √(N * η α))) := by
  have hu := u_nonneg (α := α)
  have hη0 := η_nonneg (α := α)
  have he0 : 0 ≤ e := hu.trans he
  by_cases hne : val a = 0
  · have hz := (h.refl hn hs).zero_iff.2 hne
    have hff := h.same hz
    subst hff
    refine ⟨hf, ?_⟩
    have hb0 : rb (k + 1) m (val a) (fun r => val (f' k r)) = 0 := if_pos hne
    rw [hb0]
    have e1 : (fun i j => val (symU f' i j) - (val (symU f' i j) +
        0 * (∑ r ∈ Ico (k + 1) m, val (f' k r) * val (symU f' r j)) * val (f' k i) +
        0 * (∑ r ∈ Ico (k + 1) m, val (f' k r) * val (symU f' r i)) * val (f' k j) + 0 * 0 *
        (∑ x ∈ Ico (k + 1) m, (∑ r ∈ Ico (k + 1) m, val (f' k r) * val (symU f' r x)) * val (f' k x)) *
        val (f' k i) * val (f' k j))) = fun _ _ => 0 := by
      funext i j; ring
    rw [e1, nn_const le_rfl, mul_zero]
    have := nn_nonneg (S := Ico (k + 1) m) (F := fun i j => val (symU f' i j))
    have := nrm_nonneg (S := Ico (k + 1) m) (x := fun i => val (f' k i))
    positivity
  · obtain ⟨H, hff, s, p, z, B, y, g0, g, R⟩ := Tri.rank2 h hk hN he hM hn hs hne hf
    refine ⟨hff, ?_⟩
    have hb0 : rb (k + 1) m (val a) (fun r => val (f' k r)) = -(2 / ∑ r ∈ Ico (k + 1) m, val (f' k r) ^ 2) := by
      unfold rb; rw [if_neg hne, neg_div]
    have hmain := R.main
    have hz := (h.refl hn hs).ne hne
    have hD := (hhr_gen hk hN he hM hn hne (hs.low.resolve_left hne) (h.head hz) (fun i hi => h.row i hi) hs.high).2.2.2
    have hA := (H.recip hD).2
    have hWA := H.nrmV_le
    have hN1 : (1 : ℝ) ≤ N := by exact_mod_cast (show 1 ≤ N by omega)
    have he5 : e ≤ 1 / 500 := by nlinarith
    have hηu : η α ≤ u α := by
      have h1 := big_η (α := α)
      have h2 : 1000 * η α ≤ big α * η α := by gcongr; exact big_le
      linarith
    have hu1 := u_le (α := α)
    have hηA : η α * val a ^ 2 ≤ u α := by
      have h1 := big_η (α := α)
      have h2 := hs.high
      have h3 : 4 * val a ^ 2 * η α ≤ big α * η α := by gcongr
      linarith
    have hηa : η α * |val a| ≤ e := by
      refine le_of_sq_le_sq ?_ he0
      rw [mul_pow, sq_abs]
      have h1 : η α * (η α * val a ^ 2) ≤ u α * u α := by gcongr
      have h2 : u α * u α ≤ e * e := by gcongr
      nlinarith
    have hcard : ((Ico (k + 1) m).card : ℝ) ≤ N := by
      rw [Nat.card_Ico]; exact_mod_cast (show m - (k + 1) ≤ N by omega)
    have hax : |val a| ≤ 51 / 50 * nrm (Ico (k + 1) m) (fun i => val (f k i)) := by
      refine le_of_sq_le_sq ?_ (mul_nonneg (by norm_num) nrm_nonneg)
      rw [mul_pow, nrm_sq, sq_abs]
      have h1 := (abs_le.1 H.norm).2
      have h2 := mul_le_mul_of_nonneg_right H.small (sq_nonneg (val a))
      have h3 : 0 ≤ ∑ i ∈ Ico (k + 1) m, val (f k i) ^ 2 := sum_nonneg fun _ _ => sq_nonneg _
      linarith
    have hwa : |val a| ≤ nrm (Ico (k + 1) m) (fun i => val (f' k i)) := by
      refine le_of_sq_le_sq ?_ nrm_nonneg
      rw [sq_abs, nrm_sq]
      exact hA
    have hund := Tri.under (N := N) (n := (Ico (k + 1) m).card) (w := nrm (Ico (k + 1) m) fun i => val (f' k i))
      (a := |val a|) (x := nrm (Ico (k + 1) m) fun i => val (f k i)) (e := e) (η := η α) (ω := √(N * η α)) (q := √N)
      (c := √((Ico (k + 1) m).card)) hN1 hcard he0 he5 hη0 (by linarith) H.absA hηa
      (by rw [sq_abs]; linarith) (by rw [sq_abs]; exact hs.low.resolve_left hne) hwa
      (hWA.trans (le_of_eq (by norm_num))) hax (Real.sqrt_nonneg _) (Real.sq_sqrt (by positivity))
      (Real.sqrt_nonneg _) (Real.sq_sqrt (by positivity)) (Real.sqrt_nonneg _) (Real.sqrt_le_sqrt hcard)
    unfold Rank2.Ψ Rank2.Θ Rank2.Ω at hmain
    refine le_trans (le_of_eq ?_) (hmain.trans (le_trans (add_le_add (le_of_eq (by ring)) hund) le_rfl))
    rw [hb0]
    generalize 2 / ∑ i ∈ Ico (k + 1) m, val (f' k i) ^ 2 = b
    unfold nn
    refine nrm_congr fun i _ => nrm_congr fun j _ => ?_
    have e1 : ∀ j, ∑ r ∈ Ico (k + 1) m, val (f' k r) * val (symU f r j) =
        Rank2.tv (Ico (k + 1) m) (fun i j => val (symU f i j)) (fun i => val (f' k i)) j := by
      intro j
      unfold Rank2.tv
      refine sum_congr rfl fun r _ => ?_
      rw [symU_comm, mul_comm]
    simp only [e1]
    have e2 : Rank2.gx (Ico (k + 1) m) (fun i j => val (symU f i j)) (fun i => val (f' k i)) b =
        b * b / 2 * ∑ x ∈ Ico (k + 1) m, Rank2.tv (Ico (k + 1) m) (fun i j => val (symU f i j))
          (fun i => val (f' k i)) x * val (f' k x) := by
      unfold Rank2.gx
      rw [sum_mul, mul_sum]
      exact sum_congr rfl fun x _ => by ring
    unfold Rank2.zx
    rw [e2]
    ring

end

end Linear
