import Verif.Lemmas.SvdIter

/-!
# A QR step on two columns ends the iteration for them
-/

set_option linter.unusedSectionVars false

namespace Linear

open Spec Finset Matrix

variable {K : Type} [Field K] [LinearOrder K] [IsStrictOrderedRing K] [Flt K] [Exact K] {m n : Nat}

/-- The square root of the arithmetic is exact. -/
def Spec.Roots (K : Type) [Zero K] [Mul K] [LE K] [Flt K] : Prop :=
  ∀ x : K, 0 ≤ x → 0 ≤ Flt.sqrt x ∧ Flt.sqrt x * Flt.sqrt x = x

/-- The shift is a root of `t² + 2 b t = c`. -/
theorem Svd.shift_root (hr : Spec.Roots K) {b c : K} (hc : 0 ≤ c) :
    Svd.shift b c * Svd.shift b c + 2 * b * Svd.shift b c = c := by
  unfold Svd.shift
  simp only [Exact.eq_eq, Exact.zero_eq, Exact.lt_eq, Exact.div_eq, Exact.add_eq, Exact.neg_eq, Exact.mul_eq]
  have h0 : 0 ≤ b * b + c := by nlinarith [mul_self_nonneg b]
  obtain ⟨h1, h2⟩ := hr _ h0
  generalize Flt.sqrt (b * b + c) = q at *
  by_cases hb0 : b = 0 ∧ c = 0
  · simp [hb0.1, hb0.2]
  · rw [if_pos (by
      rcases not_and_or.1 hb0 with h | h <;> simp [h])]
    by_cases hb : b < 0
    · rw [if_pos (by simp [hb])]
      have hne : b + -q ≠ 0 := ne_of_lt (by linarith)
      have hc' : c = (q - b) * (q + b) := by linarith [h2]
      have : c / (b + -q) = -(q + b) := by
        rw [hc', div_eq_iff hne]; ring
      rw [this, hc']
      ring
    · rw [if_neg (by simp [hb])]
      have hne : b + q ≠ 0 := fun h => by
        have hb' : 0 ≤ b := not_lt.1 hb
        have hbz : b = 0 := by linarith
        have hq : q = 0 := by linarith
        refine hb0 ⟨hbz, ?_⟩
        rw [hbz, hq] at h2
        linarith
      have hc' : c = (q - b) * (q + b) := by linarith [h2]
      have : c / (b + q) = q - b := by
        rw [hc', div_eq_iff hne]; ring
      rw [this, hc']
      ring

/-- For two columns, the first rotation makes the columns orthogonal. -/
theorem Svd.first_pair (hr : Spec.Roots K) {x y z : K} (hz : z ≠ 0) :
    ((Svd.first y x z x z).1 * (Svd.first y x z x z).1 - (Svd.first y x z x z).2 * (Svd.first y x z x z).2) * (x * z) +
      (Svd.first y x z x z).1 * (Svd.first y x z x z).2 * (z * z - x * x + y * y) = 0 := by
  have h : Svd.scale y x z x z ≠ 0 := by
    have : |z| ≤ Svd.scale y x z x z := by
      unfold Svd.scale
      simp only [Exact.max_eq, Exact.abs_eq]
      exact le_max_right _ _
    have h3 : 0 < |z| := abs_pos.2 hz
    exact (lt_of_lt_of_le h3 this).ne'
  unfold Svd.first Svd.start
  generalize Svd.scale y x z x z = q at *
  simp only [Exact.mul_eq, Exact.div_eq, Exact.add_eq, Exact.sub_eq, Exact.two_eq]
  obtain ⟨X, rfl⟩ : ∃ X, x = X * q := ⟨x / q, by field_simp⟩
  obtain ⟨Y, rfl⟩ : ∃ Y, y = Y * q := ⟨y / q, by field_simp⟩
  obtain ⟨Z, rfl⟩ : ∃ Z, z = Z * q := ⟨z / q, by field_simp⟩
  rw [mul_div_cancel_right₀ _ h, mul_div_cancel_right₀ _ h, mul_div_cancel_right₀ _ h]
  have key := Svd.shift_root hr (b := ((X + Y) * (X - Y) + Z * Z) / 2) (c := Y * Z * (Y * Z)) (mul_self_nonneg _)
  generalize Svd.shift (((X + Y) * (X - Y) + Z * Z) / 2) (Y * Z * (Y * Z)) = t at *
  have key' : t * t + ((X + Y) * (X - Y) + Z * Z) * t = Y * Z * (Y * Z) := by
    rw [← key]; ring
  linear_combination (X * Z * q * q) * key'

theorem Svd.qr_pair (hr : Spec.Roots K) {hyp : K → K → K} (hh : Spec.Hypot hyp) {k : Nat} (hk : k + 2 ≤ n) (hm : n ≤ m)
    {x : Svd.St K m n} (h1 : x.s.f k ≠ 0) (h2 : x.e.f k ≠ 0) :
    ∃ x', Svd.qr hyp (k + 2) k x = .ok x' ∧ x'.e.f k = 0 := by
  unfold Svd.qr
  rw [Row.get_ok (by omega), ok_bind, Row.get_ok (by omega), ok_bind, Row.get_ok (by omega), ok_bind,
    Row.get_ok (by omega), ok_bind, Row.get_ok (by omega), ok_bind]
  simp only [show k + 2 - 1 = k + 1 by omega, show k + 2 - 2 = k by omega]
  have hg0 := Svd.first_ne (x.s.f (k + 1)) (x.s.f k) (x.e.f k) h1 h2
  have hp := Svd.first_pair hr (x := x.s.f k) (y := x.s.f (k + 1)) (z := x.e.f k) h2
  generalize Svd.first (x.s.f (k + 1)) (x.s.f k) (x.e.f k) (x.s.f k) (x.e.f k) = fg at *
  obtain ⟨f, g⟩ := fg
  dsimp only at hp hg0 ⊢
  rw [forUp_step (by omega)]
  unfold Svd.chase
  obtain ⟨w1, e1, D1⟩ := Svd.chaseV_ok (m := m) (le_refl k) (show k + 1 < n by omega) (hyp f g) ⟨f, g, x⟩
  obtain ⟨w2, e2, D2⟩ := Svd.chaseU_ok (show k + 1 < n by omega) hm (hyp w1.f w1.g) w1
  dsimp only
  rw [e1, ok_bind, e2, ok_bind, forUp_eq_self (le_refl _), ok_bind, Row.set_ok (by omega), ok_bind]
  refine ⟨_, rfl, ?_⟩
  dsimp only
  rw [upd1_eq, if_pos rfl, D2.f, D1.s, D1.e]
  simp only [upd1_eq, if_true, Exact.add_eq, Exact.mul_eq, Exact.div_eq, Exact.sub_eq]
  obtain ⟨t0, -⟩ := Svd.hyp_unit hh (a := f) (b := g) (.inr hg0)
  have e3 : w1.f = f / hyp f g * x.s.f k + g / hyp f g * x.e.f k := by rw [D1.f]; simp [Exact.add_eq, Exact.mul_eq, Exact.div_eq]
  have e4 : w1.g = g / hyp f g * x.s.f (k + 1) := by rw [D1.g]; simp [Exact.mul_eq, Exact.div_eq]
  have hn0 : w1.f * (f / hyp f g * x.e.f k - g / hyp f g * x.s.f k) + w1.g * (f / hyp f g * x.s.f (k + 1)) = 0 := by
    rw [e3, e4]
    generalize hyp f g = t at *
    have : (f / t * x.s.f k + g / t * x.e.f k) * (f / t * x.e.f k - g / t * x.s.f k) +
        g / t * x.s.f (k + 1) * (f / t * x.s.f (k + 1)) =
        ((f * f - g * g) * (x.s.f k * x.e.f k) +
          f * g * (x.e.f k * x.e.f k - x.s.f k * x.s.f k + x.s.f (k + 1) * x.s.f (k + 1))) / (t * t) := by
      field_simp
      ring
    rw [this, hp, zero_div]
  generalize hyp w1.f w1.g = t2
  have : ∀ a b c d : K, a / t2 * b + c / t2 * d = (a * b + c * d) / t2 := fun a b c d => by ring
  rw [this, hn0, zero_div]

end Linear
