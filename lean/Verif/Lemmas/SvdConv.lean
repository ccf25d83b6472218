import Verif.Lemmas.SvdPair

/-!
# A QR step on three or more columns shrinks the last two products

The rows of the bidiagonal matrix `B` have the products `s (i + 1) * e i` with their neighbours: these are the entries of
`B Bᵀ` next to its diagonal. The shift of the code is the eigenvalue of the last 2 × 2 block of `B Bᵀ` that is closer to its
last entry. A step with this shift multiplies the square of the last product times the one before by at most 13/20.
-/

set_option linter.unusedSectionVars false

namespace Linear

open Spec Finset Matrix

variable {K : Type} [Field K] [LinearOrder K] [IsStrictOrderedRing K] [Flt K] [Exact K] {m n : Nat}

/-- The shift is the root of smaller magnitude: the other one, `-(2 b + shift)`, is not smaller. -/
theorem Svd.shift_small (hr : Spec.Roots K) {b c : K} (hc : 0 ≤ c) :
    |Svd.shift b c| ≤ |2 * b + Svd.shift b c| := by
  unfold Svd.shift
  simp only [Exact.eq_eq, Exact.zero_eq, Exact.lt_eq, Exact.div_eq, Exact.add_eq, Exact.neg_eq, Exact.mul_eq]
  have h0 : 0 ≤ b * b + c := by nlinarith [mul_self_nonneg b]
  obtain ⟨h1, h2⟩ := hr _ h0
  generalize Flt.sqrt (b * b + c) = q at *
  by_cases hb0 : b = 0 ∧ c = 0
  · simp [hb0.1, hb0.2]
  · rw [if_pos (by
      rcases not_and_or.1 hb0 with h | h <;> simp [h])]
    by_cases hb : b < 0
    · rw [if_pos (by simp [hb])]
      have hne : b + -q ≠ 0 := ne_of_lt (by linarith)
      have hc' : c = (q - b) * (q + b) := by linarith [h2]
      have : c / (b + -q) = -(q + b) := by
        rw [hc', div_eq_iff hne]; ring
      rw [this]
      have hqb : 0 ≤ q + b := by
        by_contra h
        nlinarith
      rw [abs_neg, abs_of_nonneg hqb, show 2 * b + -(q + b) = -(q - b) by ring, abs_neg, abs_of_nonneg (by linarith)]
      linarith
    · rw [if_neg (by simp [hb])]
      have hb' : 0 ≤ b := not_lt.1 hb
      have hne : b + q ≠ 0 := fun h => by
        have hbz : b = 0 := by linarith
        have hq : q = 0 := by linarith
        refine hb0 ⟨hbz, ?_⟩
        rw [hbz, hq] at h2
        linarith
      have hc' : c = (q - b) * (q + b) := by linarith [h2]
      have : c / (b + q) = q - b := by
        rw [hc', div_eq_iff hne]; ring
      rw [this]
      have hqb : 0 ≤ q - b := by
        by_contra h
        nlinarith
      rw [abs_of_nonneg hqb, show 2 * b + (q - b) = q + b by ring, abs_of_nonneg (by linarith)]
      linarith

/-- The first pair of the chase, for some `μ` that is an eigenvalue of the last 2 × 2 block of `B Bᵀ`, the one closer to the
last entry. -/
theorem Svd.first_wilk (hr : Spec.Roots K) (s1 s2 e2 : K) {sk ek : K} (h2 : ek ≠ 0) :
    ∃ l μ : K, l ≠ 0 ∧ (Svd.first s1 s2 e2 sk ek).1 = l * (sk * sk - μ) ∧ (Svd.first s1 s2 e2 sk ek).2 = l * (sk * ek) ∧
      (s1 * s1 - μ) * (s2 * s2 + e2 * e2 - μ) = (s1 * e2) * (s1 * e2) ∧
      |s1 * s1 - μ| ≤ |s2 * s2 + e2 * e2 - μ| := by
  have h : Svd.scale s1 s2 e2 sk ek ≠ 0 := by
    have : |ek| ≤ Svd.scale s1 s2 e2 sk ek := by
      unfold Svd.scale
      simp only [Exact.max_eq, Exact.abs_eq]
      exact le_max_right _ _
    have h3 : 0 < |ek| := abs_pos.2 h2
    exact (lt_of_lt_of_le h3 this).ne'
  unfold Svd.first Svd.start
  generalize Svd.scale s1 s2 e2 sk ek = q at *
  simp only [Exact.mul_eq, Exact.div_eq, Exact.add_eq, Exact.sub_eq, Exact.two_eq]
  obtain ⟨Y, rfl⟩ : ∃ Y, s1 = Y * q := ⟨s1 / q, by field_simp⟩
  obtain ⟨X, rfl⟩ : ∃ X, s2 = X * q := ⟨s2 / q, by field_simp⟩
  obtain ⟨Z, rfl⟩ : ∃ Z, e2 = Z * q := ⟨e2 / q, by field_simp⟩
  obtain ⟨V, rfl⟩ : ∃ V, sk = V * q := ⟨sk / q, by field_simp⟩
  obtain ⟨W, rfl⟩ : ∃ W, ek = W * q := ⟨ek / q, by field_simp⟩
  rw [mul_div_cancel_right₀ _ h, mul_div_cancel_right₀ _ h, mul_div_cancel_right₀ _ h, mul_div_cancel_right₀ _ h,
    mul_div_cancel_right₀ _ h]
  have key := Svd.shift_root hr (b := ((X + Y) * (X - Y) + Z * Z) / 2) (c := Y * Z * (Y * Z)) (mul_self_nonneg _)
  have key2 := Svd.shift_small hr (b := ((X + Y) * (X - Y) + Z * Z) / 2) (c := Y * Z * (Y * Z)) (mul_self_nonneg _)
  generalize Svd.shift (((X + Y) * (X - Y) + Z * Z) / 2) (Y * Z * (Y * Z)) = t at *
  refine ⟨1 / (q * q), (Y * q) * (Y * q) - t * (q * q), by positivity, ?_, ?_, ?_, ?_⟩
  · field_simp
    ring
  · field_simp
  · linear_combination (q * q * q * q) * key
  · have e1 : Y * q * (Y * q) - (Y * q * (Y * q) - t * (q * q)) = t * (q * q) := by ring
    have e2 : X * q * (X * q) + Z * q * (Z * q) - (Y * q * (Y * q) - t * (q * q)) =
        (2 * (((X + Y) * (X - Y) + Z * Z) / 2) + t) * (q * q) := by ring
    rw [e1, e2, abs_mul, abs_mul _ (q * q)]
    exact mul_le_mul_of_nonneg_right key2 (abs_nonneg _)

/-- One step of the chase in formulas: `cv`, `sv` turn the columns, `cs`, `sn` the rows. -/
theorem Svd.chase_alg {cv sv a E s μ F G r : K} (h1 : cv * cv + sv * sv = 1) (h2 : a * (cv * E - sv * a) = -(sv * μ))
    (hF : F = cv * a + sv * E) (hG : G = sv * s) (hr : r * r = F * F + G * G) (hr0 : r ≠ 0) :
    (F / r * (cv * E - sv * a) + G / r * (cv * s)) * (-(G / r) * (cv * E - sv * a) + F / r * (cv * s)) =
      G / r * (F / r * (s * s - μ) - G / r * (E * s)) ∧
    (F / r * (cv * E - sv * a) + G / r * (cv * s)) * (-(G / r) * (cv * E - sv * a) + F / r * (cv * s)) * (F / r) =
      G / r * ((-(G / r) * (cv * E - sv * a) + F / r * (cv * s)) * (-(G / r) * (cv * E - sv * a) + F / r * (cv * s)) - μ) := by
  have ha' : -(G / r) * (cv * E - sv * a) + F / r * (cv * s) = s * a / r := by
    rw [hF, hG]
    field_simp
    linear_combination (a * s) * h1
  rw [ha']
  have hf : (F / r * (cv * E - sv * a) + G / r * (cv * s)) * (s * a / r) = G / r * (F / r * (s * s - μ) - G / r * (E * s)) := by
    have e1 : (F * (cv * E - sv * a) + G * (cv * s)) * (s * a) = G * (F * (s * s - μ) - G * (E * s)) := by
      rw [hF, hG]
      linear_combination (s * (cv * a + sv * E)) * h2
    field_simp
    linear_combination e1
  refine ⟨hf, ?_⟩
  rw [hf]
  have e2 : F * (F * (s * s - μ) - G * (E * s)) = s * a * (s * a) - μ * (r * r) := by
    rw [hr, hF, hG]
    linear_combination (s * s * a * a) * h1 + (s * s * sv) * h2
  field_simp
  linear_combination G * e2

/-- The state of the chase before step `j`. -/
structure Svd.CInv (k : Nat) (x : Svd.St K m n) (μ : K) (j : Nat) (w : Svd.Ch K m n) (C S T : K) : Prop where
  E : w.x.e.f j = C * x.e.f j
  g : w.g = S * x.e.f j
  S0 : S ≠ 0
  C1 : C * C ≤ 1
  fa : w.f * w.x.s.f j = S * (C * (x.s.f j * x.s.f j - μ) - T)
  par : w.f * w.x.s.f j * C = S * (w.x.s.f j * w.x.s.f j - μ)
  s : ∀ i, j < i → w.x.s.f i = x.s.f i
  e : ∀ i, j < i → w.x.e.f i = x.e.f i
  unit : k < j → C * C + S * S = 1 ∧ |T| ≤ |S| * |x.s.f j * x.e.f (j - 1)|

theorem Svd.CInv.step {hyp : K → K → K} (hh : Spec.Hypot hyp) {k j : Nat} (hk : k ≤ j) (hj : j + 1 < n) (hm : n ≤ m)
    {x : Svd.St K m n} {μ : K} {w : Svd.Ch K m n} {C S T : K} (hI : Svd.CInv k x μ j w C S T)
    (he : x.e.f j ≠ 0) (hs : x.s.f (j + 1) ≠ 0) :
    ∃ (w' : Svd.Ch K m n) (C' S' T' h r : K), Svd.chase hyp k j w = .ok w' ∧ Svd.CInv k x μ (j + 1) w' C' S' T' ∧
      w'.x.s.f j = r ∧ (k < j → w'.x.e.f (j - 1) = h) ∧ h ≠ 0 ∧ r ≠ 0 ∧
      r * C' * h = S * (C * (x.s.f j * x.s.f j + x.e.f j * x.e.f j - μ) - T) ∧
      r * S' * h = S * (x.s.f (j + 1) * x.e.f j) ∧ T' = S' * (C * (x.s.f (j + 1) * x.e.f j)) ∧ C' * C' + S' * S' = 1 := by
  unfold Svd.chase
  have hg : w.g ≠ 0 := by rw [hI.g]; exact mul_ne_zero hI.S0 he
  obtain ⟨t0, t1, -, -⟩ := Svd.hyp_unit hh (a := w.f) (b := w.g) (.inr hg)
  obtain ⟨w1, e1, D⟩ := Svd.chaseV_ok hk hj (hyp w.f w.g) w
  rw [e1, ok_bind]
  have s1 := D.s; have ee1 := D.e; have f1 := D.f; have g1 := D.g
  generalize hyp w.f w.g = h at *
  simp only [Exact.div_eq, Exact.mul_eq, Exact.add_eq, Exact.sub_eq] at s1 ee1 f1 g1
  have hg1 : w1.g ≠ 0 := by
    rw [g1, hI.s _ (by omega)]
    exact mul_ne_zero (div_ne_zero hg t0) hs
  obtain ⟨r0, u1, -, -⟩ := Svd.hyp_unit hh (a := w1.f) (b := w1.g) (.inr hg1)
  have hrr := (hh w1.f w1.g).2
  obtain ⟨w2, e2, D2⟩ := Svd.chaseU_ok hj hm (hyp w1.f w1.g) w1
  have s2 := D2.s; have ee2 := D2.e; have f2 := D2.f; have g2 := D2.g
  generalize hyp w1.f w1.g = r at *
  simp only [Exact.div_eq, Exact.mul_eq, Exact.add_eq, Exact.neg_eq] at s2 ee2 f2 g2
  have a1 : w1.x.s.f (j + 1) = w.f / h * x.s.f (j + 1) := by rw [s1, upd1_eq, if_pos rfl, hI.s _ (by omega)]
  have b1 : w1.x.e.f j = w.f / h * w.x.e.f j - w.g / h * w.x.s.f j := by rw [ee1, upd1_eq, if_pos rfl]
  have c1 : w1.x.e.f (j + 1) = x.e.f (j + 1) := by
    rw [ee1, upd1_eq, if_neg (by omega)]
    split_ifs
    · rw [upd1_eq, if_neg (by omega), hI.e _ (by omega)]
    · exact hI.e _ (by omega)
  rw [hI.s _ (by omega)] at g1
  have hpar : w.x.s.f j * (w.f / h * w.x.e.f j - w.g / h * w.x.s.f j) = -(w.g / h * μ) := by
    rw [hI.E, hI.g]
    field_simp
    linear_combination hI.par
  obtain ⟨k1, k2⟩ := Svd.chase_alg (s := x.s.f (j + 1)) t1 hpar f1 g1 hrr r0
  have a2 : w2.x.s.f (j + 1) = -(w1.g / r) * (w.f / h * w.x.e.f j - w.g / h * w.x.s.f j) +
      w1.f / r * (w.f / h * x.s.f (j + 1)) := by
    rw [s2, upd1_eq, if_pos rfl, b1, a1]
  have f2' : w2.f = w1.f / r * (w.f / h * w.x.e.f j - w.g / h * w.x.s.f j) + w1.g / r * (w.f / h * x.s.f (j + 1)) := by
    rw [f2, b1, a1]
  rw [← f2', ← a2] at k1 k2
  have hC1 : |C| ≤ 1 := abs_le_one_iff_mul_self_le_one.2 hI.C1
  refine ⟨w2, w1.f / r, w1.g / r, w1.g / r * (C * (x.s.f (j + 1) * x.e.f j)), h, r, e2,
    ⟨?_, ?_, div_ne_zero hg1 r0, ?_, ?_, k2, fun i hi => ?_, fun i hi => ?_, fun _ => ⟨u1, ?_⟩⟩, ?_, fun hkj => ?_, t0, r0,
    ?_, ?_, rfl, u1⟩
  · rw [ee2, upd1_eq, if_pos rfl, c1]
  · rw [g2, c1]
  · nlinarith [mul_self_nonneg (w1.g / r)]
  · rw [k1, hI.E]
    ring
  · rw [s2, upd1_eq, if_neg (by omega), upd1_eq, if_neg (by omega), s1, upd1_eq, if_neg (by omega)]
    exact hI.s i (by omega)
  · rw [ee2, upd1_eq, if_neg (by omega), ee1, upd1_eq, if_neg (by omega)]
    split_ifs
    · rw [upd1_eq, if_neg (by omega), hI.e i (by omega)]
    · exact hI.e i (by omega)
  · rw [abs_mul, abs_mul C, show j + 1 - 1 = j by omega]
    refine mul_le_mul_of_nonneg_left ?_ (abs_nonneg _)
    exact mul_le_of_le_one_left (abs_nonneg _) hC1
  · rw [s2, upd1_eq, if_neg (by omega), upd1_eq, if_pos rfl]
  · rw [ee2, upd1_eq, if_neg (by omega), ee1, upd1_eq, if_neg (by omega), if_pos (by omega), upd1_eq, if_pos rfl]
  · have : r * (w1.f / r) * h = w1.f * h := by field_simp
    rw [this, f1, hI.E, hI.g]
    have := hI.fa
    field_simp
    linear_combination this
  · have : r * (w1.g / r) * h = w1.g * h := by field_simp
    rw [this, g1, hI.g]
    field_simp

/-- The polynomial inequality behind the contraction. -/
theorem Svd.ratio_bound {C S w b : K} (hCS : C * C + S * S = 1) (hw : 0 ≤ w) (hb : 0 ≤ b) :
    S * S * (|C| * (b * b * b) + w * (b * b)) ≤ 13 / 20 * (b * b * b + 3 / 2 * (w * w * b)) := by
  have hc0 := abs_nonneg C
  have hcc : |C| * |C| = C * C := abs_mul_abs_self C
  generalize |C| = c at *
  have hS : S * S = 1 - c * c := by linarith
  have hc1 : c ≤ 1 := by nlinarith [mul_self_nonneg S]
  rw [hS]
  have h1 : (1 - c * c) * c ≤ 386 / 1000 := by
    nlinarith [mul_nonneg (mul_self_nonneg (c - 577 / 1000)) (show 0 ≤ c + 1154 / 1000 by linarith)]
  have h2 : (1 - c * c) * w ≤ w := by nlinarith [mul_nonneg (mul_self_nonneg c) hw]
  have e1 : (1 - c * c) * (c * (b * b * b) + w * (b * b)) = ((1 - c * c) * c) * (b * b * b) + ((1 - c * c) * w) * (b * b) := by
    ring
  rw [e1]
  have hb3 : 0 ≤ b * b * b := by positivity
  have h3 := mul_le_mul_of_nonneg_right h1 hb3
  have h4 := mul_le_mul_of_nonneg_right h2 (mul_self_nonneg b)
  have h5 : 0 ≤ b * (264 / 1000 * (b * b) - w * b + 975 / 1000 * (w * w)) := by
    refine mul_nonneg hb ?_
    nlinarith [mul_self_nonneg (w - 20 / 39 * b), mul_self_nonneg b]
  nlinarith

/-- The contraction: `P` is the new last product, `R` the new one before. -/
theorem Svd.contract {C S T b δ τ w P R bp : K} (hCS : C * C + S * S = 1) (hS : S ≠ 0) (hT : |T| ≤ |S| * bp) (hbp : 0 ≤ bp)
    (hb : b ≠ 0) (hδ : τ * δ = b * b) (hle : |τ| ≤ |δ|) (hw : w = C * δ - T)
    (hP : (w * w + b * b) * P = -(b * T * τ)) (hR : R * R = S * S * (w * w + b * b)) :
    P * P * |R| ≤ 13 / 20 * (b * b * bp) := by
  have hb2 : 0 < b * b := mul_self_pos.2 hb
  have hρ : 0 < w * w + b * b := by nlinarith [mul_self_nonneg w]
  have hS2 : 0 < S * S := mul_self_pos.2 hS
  -- magnitudes
  have hτb : |τ| ≤ |b| := by
    have h1 : |τ| * |δ| = |b| * |b| := by rw [← abs_mul, hδ, abs_mul]
    by_contra h
    have h := not_le.1 h
    have := abs_nonneg b
    nlinarith
  have hB : |R| * |R| = (|S| * |S|) * (w * w + b * b) := by rw [abs_mul_abs_self, abs_mul_abs_self, hR]
  have hSp : 0 < |S| := abs_pos.2 hS
  have hRp : 0 < |R| := by
    refine abs_pos.2 fun h => ?_
    rw [h, mul_zero] at hR
    nlinarith [mul_pos hS2 hρ]
  -- `q = |R| / |S|` is the root of `w² + b²`
  obtain ⟨q, hq⟩ : ∃ q, |R| = |S| * q := ⟨|R| / |S|, by field_simp⟩
  have hq0 : 0 < q := by
    by_contra h
    have := mul_nonpos_of_nonneg_of_nonpos hSp.le (not_lt.1 h)
    linarith
  have hqq : q * q = w * w + b * b := by
    have : (|S| * |S|) * (q * q) = (|S| * |S|) * (w * w + b * b) := by rw [← hB, hq]; ring
    exact mul_left_cancel₀ (by positivity) this
  rw [← hqq] at hP
  -- the cube
  have hcube : |b| * |b| * |b| + 3 / 2 * (|w| * |w| * |b|) ≤ q * q * q := by
    refine le_of_not_gt fun hlt => absurd (mul_self_lt_mul_self (by positivity) hlt) (not_lt.2 ?_)
    have e1 : (q * q * q) * (q * q * q) = (q * q) * (q * q) * (q * q) := by ring
    rw [e1, hqq, ← abs_mul_abs_self w, ← abs_mul_abs_self b]
    have h1 := abs_nonneg w
    have h2 := abs_nonneg b
    nlinarith [mul_nonneg (mul_nonneg (mul_nonneg h1 h1) (mul_nonneg h1 h1)) (mul_nonneg h2 h2),
      mul_nonneg (mul_nonneg (mul_nonneg h1 h1) (mul_nonneg h1 h1)) (mul_nonneg h1 h1)]
  have hrat := Svd.ratio_bound hCS (abs_nonneg w) (abs_nonneg b)
  -- the size of `T`
  have hTw : |T| ≤ |C| * |δ| + |w| := by
    have : T = C * δ - w := by rw [hw]; ring
    rw [this, ← abs_mul]
    exact abs_sub _ _
  have hTτ : |T| * (τ * τ) ≤ |C| * (|b| * |b| * |b|) + |w| * (|b| * |b|) := by
    have h1 : |T| * (τ * τ) ≤ (|C| * |δ| + |w|) * (|τ| * |τ|) := by
      rw [abs_mul_abs_self]
      exact mul_le_mul_of_nonneg_right hTw (mul_self_nonneg _)
    refine h1.trans ?_
    have h2 : |δ| * |τ| = |b| * |b| := by rw [mul_comm, ← abs_mul, hδ, abs_mul]
    have h3 : (|C| * |δ| + |w|) * (|τ| * |τ|) = |C| * (|b| * |b| * |τ|) + |w| * (|τ| * |τ|) := by
      rw [← h2]; ring
    rw [h3]
    have hb0 := abs_nonneg b
    refine add_le_add (mul_le_mul_of_nonneg_left (mul_le_mul_of_nonneg_left hτb (by positivity)) (abs_nonneg _))
      (mul_le_mul_of_nonneg_left (mul_le_mul hτb hτb (abs_nonneg _) hb0) (abs_nonneg _))
  -- everything times `q⁴`
  have hq4 : 0 < q * q * (q * q) := by positivity
  refine le_of_mul_le_mul_left ?_ hq4
  have e2 : q * q * (q * q) * (P * P * |R|) = (q * q * P) * (q * q * P) * |R| := by ring
  rw [e2, hP, hq]
  have e3 : -(b * T * τ) * -(b * T * τ) * (|S| * q) = (b * b * q) * (|S| * (|T| * |T|) * (τ * τ)) := by
    rw [abs_mul_abs_self]; ring
  rw [e3]
  have e4 : q * q * (q * q) * (13 / 20 * (b * b * bp)) = (b * b * q) * (bp * (13 / 20 * (q * q * q))) := by ring
  rw [e4]
  refine mul_le_mul_of_nonneg_left ?_ (by positivity)
  calc |S| * (|T| * |T|) * (τ * τ) = |T| * (|S| * (|T| * (τ * τ))) := by ring
    _ ≤ (|S| * bp) * (|S| * (|T| * (τ * τ))) :=
        mul_le_mul_of_nonneg_right hT (mul_nonneg hSp.le (mul_nonneg (abs_nonneg _) (mul_self_nonneg _)))
    _ = bp * (S * S * (|T| * (τ * τ))) := by rw [← abs_mul_abs_self S]; ring
    _ ≤ bp * (S * S * (|C| * (|b| * |b| * |b|) + |w| * (|b| * |b|))) :=
        mul_le_mul_of_nonneg_left (mul_le_mul_of_nonneg_left hTτ hS2.le) hbp
    _ ≤ bp * (13 / 20 * (|b| * |b| * |b| + 3 / 2 * (|w| * |w| * |b|))) := mul_le_mul_of_nonneg_left hrat hbp
    _ ≤ bp * (13 / 20 * (q * q * q)) :=
        mul_le_mul_of_nonneg_left (mul_le_mul_of_nonneg_left hcube (by norm_num)) hbp

/-- The square of the last product times the one before. -/
def Svd.pot (p : Nat) (s e : Nat → K) : K :=
  (s (p - 1) * e (p - 2)) * (s (p - 1) * e (p - 2)) * |s (p - 2) * e (p - 3)|

/-- A QR step on at least three columns shrinks the last two products. -/
theorem Svd.qr_conv (hr : Spec.Roots K) {hyp : K → K → K} (hh : Spec.Hypot hyp) {p k : Nat} (hk : k + 2 < p) (hp : p ≤ n)
    (hm : n ≤ m) {x : Svd.St K m n}
    (h1 : ∀ i, k ≤ i → i < p → x.s.f i ≠ 0) (h2 : ∀ i, k ≤ i → i < p - 1 → x.e.f i ≠ 0) :
    ∃ x', Svd.qr hyp p k x = .ok x' ∧ Svd.pot p x'.s.f x'.e.f ≤ 13 / 20 * Svd.pot p x.s.f x.e.f := by
  unfold Svd.qr
  rw [Row.get_ok (by omega), ok_bind, Row.get_ok (by omega), ok_bind, Row.get_ok (by omega), ok_bind,
    Row.get_ok (by omega), ok_bind, Row.get_ok (by omega), ok_bind]
  obtain ⟨l, μ, l0, hf, hg, hw1, hw2⟩ := Svd.first_wilk hr (x.s.f (p - 1)) (x.s.f (p - 2)) (x.e.f (p - 2)) (sk := x.s.f k)
    (h2 k le_rfl (by omega))
  generalize Svd.first (x.s.f (p - 1)) (x.s.f (p - 2)) (x.e.f (p - 2)) (x.s.f k) (x.e.f k) = fg at *
  have hsk := h1 k le_rfl (by omega)
  have hstart : Svd.CInv k x μ k (⟨fg.1, fg.2, x⟩ : Svd.Ch K m n) 1 (l * x.s.f k) 0 :=
    ⟨by rw [one_mul], by rw [hg]; ring, mul_ne_zero l0 hsk, by rw [one_mul], by rw [hf]; ring, by rw [hf]; ring,
      fun _ _ => rfl, fun _ _ => rfl, fun h => by omega⟩
  obtain ⟨w, e, C, S, T, hI⟩ := Wp.exists_ok (wp_forUp (ε := Fault) (a := k) (b := p - 2)
    (body := Svd.chase hyp k) (s := (⟨fg.1, fg.2, x⟩ : Svd.Ch K m n)) (E := fun _ => False)
    (fun j (w : Svd.Ch K m n) => ∃ C S T, Svd.CInv k x μ j w C S T) (by omega) ⟨_, _, _, hstart⟩
    (fun j w g1 g2 ⟨C, S, T, hI⟩ => by
      obtain ⟨w', C', S', T', -, -, e, hI', -⟩ := hI.step hh g1 (show j + 1 < n by omega) hm (h2 j g1 (by omega))
        (h1 (j + 1) (by omega) (by omega))
      exact wp_of_eq_ok e ⟨C', S', T', hI'⟩))
  obtain ⟨w', C', S', T', h, r, e', hI', q1, q2, q3, q4, q5, q6, q7, q8⟩ := hI.step hh (show k ≤ p - 2 by omega)
    (show p - 2 + 1 < n by omega) hm (h2 (p - 2) (by omega) (by omega)) (h1 (p - 2 + 1) (by omega) (by omega))
  rw [show p - 2 + 1 = p - 1 by omega] at *
  have hloop : forUp k (p - 1) (Svd.chase hyp k) (⟨fg.1, fg.2, x⟩ : Svd.Ch K m n) = .ok w' := by
    rw [show p - 1 = p - 2 + 1 by omega, forUp_last (by omega), e, ok_bind, e']
  rw [hloop, ok_bind, Row.set_ok (by omega), ok_bind]
  refine ⟨_, rfl, ?_⟩
  dsimp only
  unfold Svd.pot
  rw [upd1_eq, if_pos rfl, upd1_eq, if_neg (by omega), q1, show p - 3 = p - 2 - 1 by omega, q2 (by omega)]
  obtain ⟨u1, u2⟩ := hI.unit (by omega)
  have hb0 : x.s.f (p - 1) * x.e.f (p - 2) ≠ 0 := mul_ne_zero (h1 _ (by omega) (by omega)) (h2 _ (by omega) (by omega))
  have hfa := hI'.fa
  rw [q7] at hfa
  have hS2 : S * S ≠ 0 := mul_ne_zero hI.S0 hI.S0
  generalize x.s.f (p - 1) = s1 at *
  generalize x.e.f (p - 2) = e2 at *
  generalize x.s.f (p - 2) = s2 at *
  generalize x.e.f (p - 2 - 1) = e3 at *
  have hRR : (r * h) * (r * h) = S * S * ((C * (s2 * s2 + e2 * e2 - μ) - T) * (C * (s2 * s2 + e2 * e2 - μ) - T) +
      (s1 * e2) * (s1 * e2)) := by
    have : (r * h) * (r * h) = (r * C' * h) * (r * C' * h) + (r * S' * h) * (r * S' * h) := by
      linear_combination (-(r * h) * (r * h)) * q8
    rw [this, q5, q6]
    ring
  refine Svd.contract u1 hI.S0 u2 (abs_nonneg _) hb0 hw1 hw2 rfl ?_ hRR
  refine mul_left_cancel₀ hS2 ?_
  calc S * S * (((C * (s2 * s2 + e2 * e2 - μ) - T) * (C * (s2 * s2 + e2 * e2 - μ) - T) + (s1 * e2) * (s1 * e2)) *
      (w'.x.s.f (p - 1) * w'.f))
      = ((r * h) * (r * h)) * (w'.f * w'.x.s.f (p - 1)) := by rw [hRR]; ring
    _ = (r * S' * h) * ((r * C' * h) * (s1 * s1 - μ) - (r * S' * h) * (C * (s1 * e2))) := by rw [hfa]; ring
    _ = S * S * -((s1 * e2) * T * (s1 * s1 - μ)) := by
        rw [q5, q6]
        linear_combination (S * S * (s1 * e2) * C) * hw1

end Linear
