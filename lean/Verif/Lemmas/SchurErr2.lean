import Verif.Lemmas.SchurErr

/-!
# The error of the Schur form: one double step
-/

set_option linter.unusedSectionVars false

namespace Linear

open Spec Finset Matrix

section free

variable {α : Type} [Flt α] {n : Nat}

/-- A reflection that takes place, with the entry written to its left. -/
theorem Schur.reflect_val {il im iu k : Nat} (h1 : il ≤ im) (h2 : im ≤ k) (h3 : k < iu) (h4 : iu < n)
    (p q r x : α) (hne : Flt.eq (Schur.sgnNorm p q r) Flt.zero = false) (s : Schur α n) :
    ∃ s' : Schur α n, ∃ f : Nat → Nat → α, Schur.reflect il im iu k p q r (Schur.sgnNorm p q r) x s = .ok s' ∧
      (∀ i j, ¬ (i = k ∧ j + 1 = k) → f i j = s.t.f i j) ∧
      (∀ j, j + 1 = k → f k j = if k ≠ im then Flt.mul (Flt.neg (Schur.sgnNorm p q r)) x
        else if il ≠ im then Flt.neg (s.t.f k j) else s.t.f k j) ∧
      Schur.Same n s'.t.f (Schur.colF (min iu (k + 3) + 1) k (k ≠ iu - 1)
        (Flt.div q (Flt.add p (Schur.sgnNorm p q r))) (Flt.div r (Flt.add p (Schur.sgnNorm p q r)))
        (Flt.div (Flt.add p (Schur.sgnNorm p q r)) (Schur.sgnNorm p q r)) (Flt.div q (Schur.sgnNorm p q r))
        (Flt.div r (Schur.sgnNorm p q r))
        (Schur.rowF k (k ≠ iu - 1) (Flt.div q (Flt.add p (Schur.sgnNorm p q r)))
        (Flt.div r (Flt.add p (Schur.sgnNorm p q r)))
        (Flt.div (Flt.add p (Schur.sgnNorm p q r)) (Schur.sgnNorm p q r)) (Flt.div q (Schur.sgnNorm p q r))
        (Flt.div r (Schur.sgnNorm p q r)) f)) ∧
      Schur.Same n s'.p.f (Schur.colF n k (k ≠ iu - 1) (Flt.div q (Flt.add p (Schur.sgnNorm p q r)))
        (Flt.div r (Flt.add p (Schur.sgnNorm p q r)))
        (Flt.div (Flt.add p (Schur.sgnNorm p q r)) (Schur.sgnNorm p q r)) (Flt.div q (Schur.sgnNorm p q r))
        (Flt.div r (Schur.sgnNorm p q r)) s.p.f) := by
  unfold Schur.reflect
  rw [hne]
  simp only [Bool.not_false, if_true]
  have hl : ∃ t' : Tab α n n, Schur.left il im k (Schur.sgnNorm p q r) x s.t = .ok t' ∧
      (∀ i j, ¬ (i = k ∧ j + 1 = k) → t'.f i j = s.t.f i j) ∧
      (∀ j, j + 1 = k → t'.f k j = if k ≠ im then Flt.mul (Flt.neg (Schur.sgnNorm p q r)) x
        else if il ≠ im then Flt.neg (s.t.f k j) else s.t.f k j) := by
    unfold Schur.left
    by_cases e1 : k = im
    · rw [if_neg (by omega)]
      by_cases e2 : il = im
      · rw [if_neg (by omega)]
        exact ⟨_, rfl, fun _ _ _ => rfl, fun j _ => by rw [if_neg (by omega), if_neg (by omega)]⟩
      · rw [if_pos e2, Tab.get_ok (by omega) (by omega), ok_bind, Tab.set_ok (by omega) (by omega)]
        refine ⟨_, rfl, fun i j h => ?_, fun j hj => ?_⟩
        · dsimp only
          rw [upd2_eq, if_neg (by omega)]
        · obtain rfl : j = k - 1 := by omega
          dsimp only
          rw [upd2_eq, if_pos ⟨rfl, rfl⟩, if_neg (by omega), if_pos e2]
    · rw [if_pos e1, Tab.set_ok (by omega) (by omega)]
      refine ⟨_, rfl, fun i j h => ?_, fun j hj => ?_⟩
      · dsimp only
        rw [upd2_eq, if_neg (by omega)]
      · obtain rfl : j = k - 1 := by omega
        dsimp only
        rw [upd2_eq, if_pos ⟨rfl, rfl⟩, if_pos e1]
  obtain ⟨t', e1, h5, h6⟩ := hl
  rw [e1, ok_bind]
  obtain ⟨s', e2, h7, h8⟩ := Schur.modify_ok (nl := decide (k ≠ iu - 1)) h3 h4
    (fun h => by have := of_decide_eq_true h; omega)
    (Flt.div q (Flt.add p (Schur.sgnNorm p q r))) (Flt.div r (Flt.add p (Schur.sgnNorm p q r)))
    (Flt.div (Flt.add p (Schur.sgnNorm p q r)) (Schur.sgnNorm p q r)) (Flt.div q (Schur.sgnNorm p q r))
    (Flt.div r (Schur.sgnNorm p q r)) (⟨t', s.p⟩ : Schur α n)
  exact ⟨s', t'.f, e2, h5, h6, h7, h8⟩

end free

variable {K : Type} [Field K] [LinearOrder K] [IsStrictOrderedRing K] [Flt K] [Exact K] [ExactSqrt K]
variable {n : Nat}

/-- The entries below the first sub-diagonal that differ from zero before round `k` of a double step. -/
def Schur.Bulge (im iu k i j : Nat) : Prop :=
  im < k ∧ i ≤ iu ∧ (j + 1 = k ∧ (i = k + 1 ∨ i = k + 2) ∨ j = k ∧ i = k + 2)

/-- The entries that the code has not cleared before round `k`. -/
def Schur.Stale (im iu k i j : Nat) : Prop := im ≤ j ∧ j + 1 < k ∧ i ≤ iu ∧ (i = j + 2 ∨ i = j + 3)

/-- The shape of the table before round `k`. -/
structure Schur.Shape (n im iu k : Nat) (W : Nat → Nat → K) : Prop where
  zero : ∀ i j, i < n → j + 1 < i → ¬ Schur.Bulge im iu k i j → W i j = 0
  cut : iu + 1 < n → W (iu + 1) iu = 0

section full
variable {im iu k : Nat} {W : Nat → Nat → K} {q r x : K}

theorem Schur.wv_out (hk : k < iu) (hr : k + 2 ≤ iu ∨ r = 0) {i : Nat} (hi : i < k ∨ k + 2 < i ∨ iu < i) :
    Schur.wv k q r i = 0 := by
  by_cases e : i = k + 2
  · rcases hr with hr | hr
    · omega
    · rw [e, (Schur.wv_at k q r).2.2, hr]
  · exact Schur.wv_off (by omega) (by omega) e

theorem Schur.fullRow_out (hk : k < iu) (hr : k + 2 ≤ iu ∨ r = 0) {i : Nat} (hi : i < k ∨ k + 2 < i ∨ iu < i) (j : Nat) :
    Schur.fullRow k q r x W i j = W i j := by
  unfold Schur.fullRow
  rw [Schur.wv_out hk hr hi]
  ring

theorem Schur.full_left (hk : k < iu) (hr : k + 2 ≤ iu ∨ r = 0) {j : Nat} (hj : j < k) (i : Nat) :
    Schur.full k q r x W i j = W i j - x * Schur.wv k q r i * (W k j + q * W (k + 1) j + r * W (k + 2) j) := by
  unfold Schur.full
  rw [Schur.wv_out hk hr (.inl hj)]
  unfold Schur.fullRow
  ring

theorem Schur.full_far (h : Schur.Shape n im iu k W) (hk : k < iu) (hiu : iu < n) (hr : k + 2 ≤ iu ∨ r = 0) {i : Nat}
    (hi : i < n) (hi' : k + 3 < i ∨ iu < i) (j : Nat) : Schur.full k q r x W i j = W i j := by
  unfold Schur.full
  simp only [Schur.fullRow_out hk hr (show i < k ∨ k + 2 < i ∨ iu < i by omega)]
  have e1 : W i k = 0 := h.zero i k hi (by omega) (fun hb => by have := hb.2; omega)
  have e2 : W i (k + 1) = 0 := by
    by_cases e : k + 2 < i
    · exact h.zero i (k + 1) hi (by omega) (fun hb => by have := hb.2; omega)
    · obtain rfl : iu = k + 1 := by omega
      obtain rfl : i = k + 1 + 1 := by omega
      exact h.cut hi
  have e3 : r * W i (k + 2) = 0 := by
    rcases hr with hr | hr
    · by_cases e : k + 3 < i
      · rw [h.zero i (k + 2) hi (by omega) (fun hb => by have := hb.2; omega), mul_zero]
      · obtain rfl : iu = k + 2 := by omega
        obtain rfl : i = k + 2 + 1 := by omega
        rw [h.cut hi, mul_zero]
    · rw [hr, zero_mul]
  rw [e1, e2, e3]
  ring

/-- The shape after the reflection, right of column `k`. -/
theorem Schur.full_zero (h : Schur.Shape n im iu k W) (him : im ≤ k) (hk : k < iu) (hiu : iu < n)
    (hr : k + 2 ≤ iu ∨ r = 0) {i j : Nat} (hi : i < n) (hj : k ≤ j) (hij : j + 1 < i)
    (hb : ¬ Schur.Bulge im iu (k + 1) i j) : Schur.full k q r x W i j = 0 := by
  have hb' : ¬ (i ≤ iu ∧ i ≤ k + 3 ∧ j ≤ k + 1) := by
    intro hc
    refine hb ⟨by omega, hc.1, ?_⟩
    omega
  by_cases e : k + 3 < i ∨ iu < i
  · rw [Schur.full_far h hk hiu hr hi e]
    refine h.zero i j hi hij fun hb2 => ?_
    have := hb2.2
    omega
  · exact absurd ⟨by omega, by omega, by omega⟩ hb'

/-- The code's tables after the reflection, right of column `k`. -/
theorem Schur.full_right (h : Schur.Shape n im iu k W) (hk : k < iu) (hiu : iu < n) {nl : Bool} {y z : K}
    (hi : Schur.IsRefl nl q r x y z) (hr : k + 2 ≤ iu ∨ r = 0) {f G : Nat → Nat → K}
    (hf : ∀ i j, i < n → j < n → k ≤ j → i ≤ j ∨ i ≤ iu → f i j = W i j)
    (hG : Schur.Same n G (Schur.colF (min iu (k + 3) + 1) k nl q r x y z (Schur.rowF k nl q r x y z f)))
    {i j : Nat} (hin : i < n) (hjn : j < n) (hj : k ≤ j) (hij : i ≤ j ∨ i ≤ iu) :
    G i j = Schur.full k q r x W i j := by
  have hrow : ∀ i j, i < n → j < n → k ≤ j → i ≤ j ∨ i ≤ iu →
      Schur.rowF k nl q r x y z f i j = Schur.fullRow k q r x W i j := by
    intro i j hin hjn hj hij
    rw [Schur.rowF, if_pos hj, Schur.rowV_exact hi, hf i j hin hjn hj hij, hf k j (by omega) hjn hj (by omega),
      hf (k + 1) j (by omega) hjn hj (by omega)]
    have : r * f (k + 2) j = r * W (k + 2) j := by
      rcases hr with hr | hr
      · rw [hf (k + 2) j (by omega) hjn hj (by omega)]
      · rw [hr, zero_mul, zero_mul]
    rw [this]
    rfl
  rw [hG i j hin hjn, Schur.colF]
  by_cases e : i < min iu (k + 3) + 1
  · rw [if_pos e, Schur.colV_exact hi, hrow i j hin hjn hj hij, hrow i k hin (by omega) (le_refl _) (by omega),
      hrow i (k + 1) hin (by omega) (by omega) (by omega)]
    have : r * Schur.rowF k nl q r x y z f i (k + 2) = r * Schur.fullRow k q r x W i (k + 2) := by
      rcases hr with hr | hr
      · rw [hrow i (k + 2) hin (by omega) (by omega) (by omega)]
      · rw [hr, zero_mul, zero_mul]
    rw [this]
    rfl
  · rw [if_neg e, hrow i j hin hjn hj hij, Schur.full_far h hk hiu hr hin (by omega),
      Schur.fullRow_out hk hr (by omega)]

/-- The code's tables after the reflection, left of column `k` and below the active lines. -/
theorem Schur.full_code (hk : k < iu) {nl : Bool} {y z : K} (hi : Schur.IsRefl nl q r x y z)
    (hr : k + 2 ≤ iu ∨ r = 0) {f G : Nat → Nat → K}
    (hG : Schur.Same n G (Schur.colF (min iu (k + 3) + 1) k nl q r x y z (Schur.rowF k nl q r x y z f)))
    {i j : Nat} (hin : i < n) (hjn : j < n) (hj : j < k ∨ iu < i) : G i j = f i j := by
  rw [hG i j hin hjn, Schur.colF]
  by_cases e : j < k
  · have h1 : Schur.rowF k nl q r x y z f i j = f i j := by rw [Schur.rowF, if_neg (by omega)]
    rw [Schur.colV_exact hi, Schur.wv_out hk hr (.inl e), h1]
    split <;> ring
  · rw [if_neg (by omega), Schur.rowF]
    split
    · rw [Schur.rowV_exact hi, Schur.wv_out hk hr (by omega)]
      ring
    · rfl

end full

/-- A reflection sends its own vector to the first axis. -/
theorem Schur.refl_vec {p q r sn : K} (h2 : sn * sn = p * p + q * q + r * r) (hps : p + sn ≠ 0) :
    p + q / (p + sn) * q + r / (p + sn) * r = sn := by
  field_simp
  linear_combination -h2

/-- The signed norm. -/
theorem Schur.sgnNorm_sq (p q r : K) : Schur.sgnNorm p q r * Schur.sgnNorm p q r = p * p + q * q + r * r := by
  have hpos : 0 ≤ p * p + q * q + r * r :=
    add_nonneg (add_nonneg (mul_self_nonneg _) (mul_self_nonneg _)) (mul_self_nonneg _)
  have hsq := ExactSqrt.sqrt_mul_self _ hpos
  unfold Schur.sgnNorm
  split <;> simp [hsq]

/-- The signed norm has the sign of its first argument. -/
theorem Schur.sgnNorm_sign (p q r : K) : 0 ≤ p * Schur.sgnNorm p q r := by
  have hn := ExactSqrt.sqrt_nonneg (p * p + q * q + r * r)
  unfold Schur.sgnNorm
  simp only [Exact.lt_eq, Exact.zero_eq, Exact.neg_eq, Exact.add_eq, Exact.mul_eq, decide_eq_true_eq]
  split
  · rename_i h
    exact mul_nonneg_of_nonpos_of_nonpos h.le (by linarith)
  · rename_i h
    exact mul_nonneg (not_lt.1 h) hn

theorem Schur.sgnNorm_add {p q r : K} (h : Schur.sgnNorm p q r ≠ 0) : p + Schur.sgnNorm p q r ≠ 0 := by
  intro hc
  have h1 := Schur.sgnNorm_sign p q r
  have : p * Schur.sgnNorm p q r = -(Schur.sgnNorm p q r * Schur.sgnNorm p q r) := by
    linear_combination Schur.sgnNorm p q r * hc
  have := mul_self_pos.2 h
  linarith


theorem Schur.sgnNorm_le (p q r : K) : |p| ≤ |Schur.sgnNorm p q r| ∧ |q| ≤ |Schur.sgnNorm p q r| ∧
    |r| ≤ |Schur.sgnNorm p q r| := by
  have h := Schur.sgnNorm_sq p q r
  refine ⟨?_, ?_, ?_⟩ <;> refine sq_le_sq.1 ?_ <;>
    nlinarith [mul_self_nonneg p, mul_self_nonneg q, mul_self_nonneg r]

/-! ## The rounds -/

/-- The tables before round `k` of a double step. -/
structure Schur.Mid (A : Matrix (Fin n) (Fin n) K) (b ex : K) (im iu k : Nat) (T0 W0 : Nat → Nat → K)
    (s : Schur K n) (W : Nat → Nat → K) : Prop where
  rep : Schur.Rep A b s.p.f (Schur.up (iu + 1) ex W)
  shape : Schur.Shape n im iu k W
  same : ∀ i j, i < n → j < n → i ≤ j ∨ i ≤ iu → ¬ Schur.Stale im iu k i j → W i j = s.t.f i j
  tailT : ∀ i j, i < n → j < n → iu < i → s.t.f i j = T0 i j
  tailW : ∀ i j, i < n → j < n → iu < i → W i j = W0 i j

theorem Schur.Mid.mono {A : Matrix (Fin n) (Fin n) K} {b b' ex : K} {im iu k : Nat} {T0 W0 W : Nat → Nat → K}
    {s : Schur K n} (h : Schur.Mid A b ex im iu k T0 W0 s W) (hb : b ≤ b') : Schur.Mid A b' ex im iu k T0 W0 s W :=
  ⟨h.rep.mono hb, h.shape, h.same, h.tailT, h.tailW⟩

variable {A : Matrix (Fin n) (Fin n) K} {b ex : K} {im iu k : Nat} {T0 W0 : Nat → Nat → K} {s : Schur K n}
variable {W : Nat → Nat → K}

/-- A round that is left out. -/
theorem Schur.Mid.skip (h : Schur.Mid A b ex im iu k T0 W0 s W) (hk : im < k) (hiu : k < iu) {d : K}
    (hd : 0 ≤ d) (h1 : |W (k + 1) (k - 1)| ≤ d) (h2 : k + 2 ≤ iu → |W (k + 2) (k - 1)| ≤ d) :
    ∃ W', Schur.Mid A (b + d + d) ex im iu (k + 1) T0 W0 s W' := by
  let W1 : Nat → Nat → K := fun i j => if i = k + 1 ∧ j = k - 1 then 0 else W i j
  let W2 : Nat → Nat → K := fun i j => if i = k + 2 ∧ j = k - 1 ∧ k + 2 ≤ iu then 0 else W1 i j
  have e1 : ∀ i j, W1 i j = if i = k + 1 ∧ j = k - 1 then 0 else W i j := fun _ _ => rfl
  have e2 : ∀ i j, W2 i j = if i = k + 2 ∧ j = k - 1 ∧ k + 2 ≤ iu then 0 else W1 i j := fun _ _ => rfl
  have e3 : ∀ i j, ¬ (j = k - 1 ∧ (i = k + 1 ∨ i = k + 2)) → W2 i j = W i j := by
    intro i j hij
    rw [e2, if_neg (by omega), e1, if_neg (by omega)]
  refine ⟨W2, ⟨?_, ⟨fun i j hi hij hb => ?_, fun hc => ?_⟩, fun i j hi hj hij hs => ?_, h.tailT,
    fun i j hi hj hc => ?_⟩⟩
  · refine (h.rep.entry hd (V' := Schur.up (iu + 1) ex W1) (i := k + 1) (j := k - 1) (fun x y _ _ hxy => ?_) ?_).entry
      hd (i := k + 2) (j := k - 1) (fun x y _ _ hxy => ?_) ?_
    · unfold Schur.up
      rw [e1, if_neg hxy]
    · unfold Schur.up
      rw [e1, if_pos ⟨rfl, rfl⟩, if_neg (by omega)]
      simpa using h1
    · unfold Schur.up
      rw [e2, if_neg (by omega)]
    · unfold Schur.up
      rw [e2]
      by_cases e : k + 2 ≤ iu
      · rw [if_pos ⟨rfl, rfl, e⟩, if_neg (by omega), e1, if_neg (by omega)]
        simpa using h2 e
      · rw [if_neg (by omega), sub_self, abs_zero]
        exact hd
  · by_cases e : j = k - 1 ∧ (i = k + 1 ∨ i = k + 2)
    · rcases e with ⟨ej, ei | ei⟩
      · rw [e2, if_neg (by omega), e1, if_pos ⟨ei, ej⟩]
      · by_cases e : k + 2 ≤ iu
        · rw [e2, if_pos ⟨ei, ej, e⟩]
        · rw [e2, if_neg (by omega), e1, if_neg (by omega)]
          exact h.shape.zero i j hi hij (fun hb => by have := hb.2; omega)
    · rw [e3 i j e]
      refine h.shape.zero i j hi hij (fun hb' => hb ?_)
      have := hb'.2
      exact ⟨by omega, by omega, by omega⟩
  · rw [e3 _ _ (by omega)]
    exact h.shape.cut hc
  · have : ¬ (j = k - 1 ∧ (i = k + 1 ∨ i = k + 2)) := by
      intro hc
      refine hs ⟨by omega, by omega, by omega, by omega⟩
    rw [e3 i j this]
    refine h.same i j hi hj hij fun hs' => hs ?_
    have := hs'.2
    exact ⟨hs'.1, by omega, by omega, by omega⟩
  · by_cases e : j = k - 1 ∧ (i = k + 1 ∨ i = k + 2)
    · rw [e2, if_neg (by omega), e1, if_neg (by omega)]
      exact h.tailW i j hi hj hc
    · rw [e3 i j e]
      exact h.tailW i j hi hj hc

/-- A round with a reflection, after the first. -/
theorem Schur.Mid.refl (h : Schur.Mid A b ex im iu k T0 W0 s W) (hk : im < k) (hiu : k < iu) (hn : iu < n)
    {nl : Bool} {q r x y z c : K} (hi : Schur.IsRefl nl q r x y z) (hnl : nl = true → k + 2 ≤ iu)
    {s' : Schur K n} {f : Nat → Nat → K} (hf : ∀ i j, ¬ (i = k ∧ j + 1 = k) → f i j = s.t.f i j)
    (hfk : f k (k - 1) = c)
    (ht : Schur.Same n s'.t.f (Schur.colF (min iu (k + 3) + 1) k nl q r x y z (Schur.rowF k nl q r x y z f)))
    (hp : Schur.Same n s'.p.f (Schur.colF n k nl q r x y z s.p.f))
    (h0 : Schur.full k q r x W k (k - 1) = c) (h1 : Schur.full k q r x W (k + 1) (k - 1) = 0)
    (h2 : k + 2 ≤ iu → Schur.full k q r x W (k + 2) (k - 1) = 0) :
    Schur.Mid A b ex im iu (k + 1) T0 W0 s' (Schur.full k q r x W) := by
  have hr : k + 2 ≤ iu ∨ r = 0 := by
    cases nl
    · exact .inr (hi.hr rfl)
    · exact .inl (hnl rfl)
  have hleft : ∀ i j, j + 1 < k → Schur.full k q r x W i j = W i j := by
    intro i j hj
    rw [Schur.full_left hiu hr (by omega), h.shape.zero k j (by omega) (by omega) (fun hb => by have := hb.2; omega),
      h.shape.zero (k + 1) j (by omega) (by omega) (fun hb => by have := hb.2; omega)]
    have : r * W (k + 2) j = 0 := by
      rcases hr with hr | hr
      · rw [h.shape.zero (k + 2) j (by omega) (by omega) (fun hb => by have := hb.2; omega), mul_zero]
      · rw [hr, zero_mul]
    rw [this]
    ring
  have hleft' : ∀ i, i < k ∨ k + 2 < i ∨ iu < i → Schur.full k q r x W i (k - 1) = W i (k - 1) := by
    intro i hi
    rw [Schur.full_left hiu hr (by omega), Schur.wv_out hiu hr hi]
    ring
  refine ⟨?_, ⟨fun i j hin hij hb => ?_, fun hc => ?_⟩, fun i j hin hjn hij hs => ?_, fun i j hin hjn hc => ?_,
    fun i j hin hjn hc => ?_⟩
  · exact h.rep.refl hi (by omega) (fun e => by have := hnl e; omega) hp
      (fun i j _ _ => (Schur.full_up hi (by omega) (fun e => by have := hnl e; omega) ex W i j).symm)
  · by_cases e : k ≤ j
    · exact Schur.full_zero h.shape (by omega) hiu hn hr hin e hij hb
    · by_cases e' : j + 1 < k
      · rw [hleft i j e']
        exact h.shape.zero i j hin hij (fun hb => by have := hb.2; omega)
      · obtain rfl : j = k - 1 := by omega
        by_cases e1 : k + 2 < i ∨ iu < i
        · rw [hleft' i (by omega)]
          exact h.shape.zero i _ hin hij (fun hb => by have := hb.2; omega)
        · by_cases e2 : i = k + 1
          · rw [e2]
            exact h1
          · obtain rfl : i = k + 2 := by omega
            exact h2 (by omega)
  · rw [Schur.full_far h.shape hiu hn hr hc (by omega)]
    exact h.shape.cut hc
  · by_cases e : k ≤ j
    · refine (Schur.full_right h.shape hiu hn hi hr (fun i j hi hj hkj hij => ?_) ht hin hjn e hij).symm
      rw [hf i j (by omega)]
      exact (h.same i j hi hj hij (fun hs => by have := hs.2; omega)).symm
    · rw [Schur.full_code hiu hi hr ht hin hjn (by omega)]
      by_cases e' : j + 1 < k
      · rw [hleft i j e', hf i j (by omega)]
        refine h.same i j hin hjn hij (fun hs' => hs ?_)
        have := hs'.2
        exact ⟨hs'.1, by omega, by omega, by omega⟩
      · obtain rfl : j = k - 1 := by omega
        by_cases e1 : i = k
        · rw [e1, h0, hfk]
        · rw [hf i _ (by omega)]
          have : i < k ∨ k + 2 < i ∨ iu < i := by
            by_contra hc
            refine hs ⟨by omega, by omega, by omega, by omega⟩
          rw [hleft' i this]
          exact h.same i _ hin hjn hij (fun hs' => by have := hs'.2; omega)
  · rw [Schur.full_code hiu hi hr ht hin hjn (.inr hc), hf i j (by omega)]
    exact h.tailT i j hin hjn hc
  · rw [Schur.full_far h.shape hiu hn hr hin (.inr hc)]
    exact h.tailW i j hin hjn hc

/-- The first round with a reflection. -/
theorem Schur.Mid.first (h : Schur.Mid A b ex im iu im T0 W0 s W) (hiu : im + 2 ≤ iu) (hn : iu < n)
    {nl : Bool} {q r x y z c d : K} (hi : Schur.IsRefl nl q r x y z) (hd : 0 ≤ d)
    {s' : Schur K n} {f : Nat → Nat → K} (hf : ∀ i j, ¬ (i = im ∧ j + 1 = im) → f i j = s.t.f i j)
    (hfk : 0 < im → f im (im - 1) = c)
    (ht : Schur.Same n s'.t.f (Schur.colF (min iu (im + 3) + 1) im nl q r x y z (Schur.rowF im nl q r x y z f)))
    (hp : Schur.Same n s'.p.f (Schur.colF n im nl q r x y z s.p.f))
    (h0 : 0 < im → |c - (1 - x) * W im (im - 1)| ≤ d) (h1 : 0 < im → |x * q * W im (im - 1)| ≤ d)
    (h2 : 0 < im → |x * r * W im (im - 1)| ≤ d) :
    ∃ W', Schur.Mid A (b + d + d + d) ex im iu (im + 1) T0 W0 s' W' := by
  have hr : im + 2 ≤ iu ∨ r = 0 := .inl hiu
  let F := Schur.full im q r x W
  let W1 : Nat → Nat → K := fun i j => if i = im ∧ j + 1 = im then c else F i j
  let W2 : Nat → Nat → K := fun i j => if i = im + 1 ∧ j + 1 = im then 0 else W1 i j
  let W3 : Nat → Nat → K := fun i j => if i = im + 2 ∧ j + 1 = im then 0 else W2 i j
  have e1 : ∀ i j, W1 i j = if i = im ∧ j + 1 = im then c else F i j := fun _ _ => rfl
  have e2 : ∀ i j, W2 i j = if i = im + 1 ∧ j + 1 = im then 0 else W1 i j := fun _ _ => rfl
  have e3 : ∀ i j, W3 i j = if i = im + 2 ∧ j + 1 = im then 0 else W2 i j := fun _ _ => rfl
  have eF : ∀ i j, ¬ (j + 1 = im ∧ (i = im ∨ i = im + 1 ∨ i = im + 2)) → W3 i j = F i j := by
    intro i j hij
    rw [e3, if_neg (by omega), e2, if_neg (by omega), e1, if_neg (by omega)]
  have hF : ∀ i j, F i j = Schur.full im q r x W i j := fun _ _ => rfl
  have hcol : ∀ i, 0 < im → F i (im - 1) = W i (im - 1) - x * Schur.wv im q r i * W im (im - 1) := by
    intro i h0
    rw [hF, Schur.full_left (by omega) hr (by omega),
      h.shape.zero (im + 1) (im - 1) (by omega) (by omega) (fun hb => by have := hb.1; omega),
      h.shape.zero (im + 2) (im - 1) (by omega) (by omega) (fun hb => by have := hb.1; omega)]
    ring
  obtain ⟨w0, w1, w2⟩ := Schur.wv_at im q r
  have hleft : ∀ i j, j < im → ¬ (j + 1 = im ∧ (i = im ∨ i = im + 1 ∨ i = im + 2)) → F i j = W i j := by
    intro i j hj hij
    by_cases e : j + 1 = im
    · obtain rfl : j = im - 1 := by omega
      rw [hcol i (by omega), Schur.wv_off (by omega) (by omega) (by omega)]
      ring
    · rw [hF, Schur.full_left (by omega) hr (by omega),
        h.shape.zero im j (by omega) (by omega) (fun hb => by have := hb.1; omega),
        h.shape.zero (im + 1) j (by omega) (by omega) (fun hb => by have := hb.1; omega),
        h.shape.zero (im + 2) j (by omega) (by omega) (fun hb => by have := hb.1; omega)]
      ring
  refine ⟨W3, ⟨?_, ⟨fun i j hin hij hb => ?_, fun hc => ?_⟩, fun i j hin hjn hij hs => ?_, fun i j hin hjn hc => ?_,
    fun i j hin hjn hc => ?_⟩⟩
  · have hR : Schur.Rep A b s'.p.f (Schur.up (iu + 1) ex F) :=
      h.rep.refl hi (by omega) (fun _ => by omega) hp
        (fun i j _ _ => (Schur.full_up hi (by omega) (fun _ => by omega) ex W i j).symm)
    by_cases him : 0 < im
    · have z1 := h.shape.zero (im + 1) (im - 1) (by omega) (by omega) (fun hb => by have := hb.1; omega)
      have z2 := h.shape.zero (im + 2) (im - 1) (by omega) (by omega) (fun hb => by have := hb.1; omega)
      refine ((hR.entry hd (V' := Schur.up (iu + 1) ex W1) (i := im) (j := im - 1) (fun x y _ _ hxy => ?_) ?_).entry
        hd (V' := Schur.up (iu + 1) ex W2) (i := im + 1) (j := im - 1) (fun x y _ _ hxy => ?_) ?_).entry
        hd (i := im + 2) (j := im - 1) (fun x y _ _ hxy => ?_) ?_
      · unfold Schur.up
        rw [e1, if_neg (by omega)]
      · unfold Schur.up
        rw [e1, if_pos (by omega), if_neg (by omega), hcol im him, w0]
        convert h0 him using 2
        ring
      · unfold Schur.up
        rw [e2, if_neg (by omega)]
      · unfold Schur.up
        rw [e2, if_pos (by omega), if_neg (by omega), e1, if_neg (by omega), hcol _ him, w1, z1]
        convert h1 him using 2
        ring
      · unfold Schur.up
        rw [e3, if_neg (by omega)]
      · unfold Schur.up
        rw [e3, if_pos (by omega), if_neg (by omega), e2, if_neg (by omega), e1, if_neg (by omega), hcol _ him, w2, z2]
        convert h2 him using 2
        ring
    · have : Schur.Same n (Schur.up (iu + 1) ex W3) (Schur.up (iu + 1) ex F) := by
        intro i j _ _
        unfold Schur.up
        rw [eF i j (by omega)]
      exact (hR.congr (fun _ _ _ _ => rfl) this).mono (by linarith)
  · by_cases e : j + 1 = im ∧ (i = im ∨ i = im + 1 ∨ i = im + 2)
    · by_cases e' : i = im + 2
      · rw [e3, if_pos (by omega)]
      · rw [e3, if_neg (by omega), e2, if_pos (by omega)]
    · rw [eF i j e]
      by_cases e' : im ≤ j
      · exact Schur.full_zero h.shape (le_refl _) (by omega) hn hr hin e' hij hb
      · rw [hleft i j (by omega) e]
        exact h.shape.zero i j hin hij (fun hb => by have := hb.1; omega)
  · rw [eF _ _ (by omega), hF, Schur.full_far h.shape (by omega) hn hr hc (by omega)]
    exact h.shape.cut hc
  · by_cases e : im ≤ j
    · rw [eF i j (by omega)]
      refine (Schur.full_right h.shape (by omega) hn hi hr (fun i j hi hj hkj hij => ?_) ht hin hjn e hij).symm
      rw [hf i j (by omega)]
      exact (h.same i j hi hj hij (fun hs => by have := hs.2; have := hs.1; omega)).symm
    · rw [Schur.full_code (show im < iu by omega) hi hr ht hin hjn (by omega)]
      by_cases d1 : i = im ∧ j + 1 = im
      · rw [e3, if_neg (by omega), e2, if_neg (by omega), e1, if_pos d1]
        obtain rfl : j = im - 1 := by omega
        rw [d1.1]
        exact (hfk (by omega)).symm
      · rw [hf i j d1]
        by_cases e2' : j + 1 = im ∧ (i = im ∨ i = im + 1 ∨ i = im + 2)
        · have hz : s.t.f i j = 0 := by
            rw [← h.same i j hin hjn (by omega) (fun hs' => by have := hs'.1; omega)]
            exact h.shape.zero i j hin (by omega) (fun hb => by have := hb.1; omega)
          rw [hz]
          by_cases e' : i = im + 2
          · rw [e3, if_pos (by omega)]
          · rw [e3, if_neg (by omega), e2, if_pos (by omega)]
        · rw [eF i j e2', hleft i j (by omega) e2']
          exact h.same i j hin hjn hij (fun hs' => by have := hs'.1; omega)
  · rw [Schur.full_code (show im < iu by omega) hi hr ht hin hjn (.inr hc), hf i j (by omega)]
    exact h.tailT i j hin hjn hc
  · rw [eF i j (by omega), hF, Schur.full_far h.shape (by omega) hn hr hin (.inr hc)]
    exact h.tailW i j hin hjn hc


/-- Any round after the first. -/
theorem Schur.Mid.later (h : Schur.Mid A b ex im iu k T0 W0 s W) {eps : K} (he : 0 ≤ eps) {il : Nat} (hil : il ≤ im)
    (hk : im < k) (hiu : k < iu) (hn : iu < n) (v : K × K × K) :
    ∃ s' W', Schur.qrRound eps il im iu v k s = .ok s' ∧
      Schur.Mid A (b + eps + eps) ex im iu (k + 1) T0 W0 s' W' := by
  have hw : ∀ i, i ≤ iu → W i (k - 1) = s.t.f i (k - 1) := fun i hi =>
    h.same i (k - 1) (by omega) (by omega) (.inr hi) (fun hs => by have := hs.2; omega)
  -- the common part, for the value of `r`
  have key : ∀ r0 : K, (k ≠ iu - 1 → r0 = s.t.f (k + 2) (k - 1)) → (k = iu - 1 → r0 = 0) →
      ∃ s' W', (if equalsWithError (Flt.add (Flt.add (Flt.abs (s.t.f k (k - 1))) (Flt.abs (s.t.f (k + 1) (k - 1))))
          (Flt.abs r0)) Flt.zero eps then (return s : Res (Schur K n))
        else Schur.reflect il im iu k
          (Flt.div (s.t.f k (k - 1)) (Flt.add (Flt.add (Flt.abs (s.t.f k (k - 1)))
            (Flt.abs (s.t.f (k + 1) (k - 1)))) (Flt.abs r0)))
          (Flt.div (s.t.f (k + 1) (k - 1)) (Flt.add (Flt.add (Flt.abs (s.t.f k (k - 1)))
            (Flt.abs (s.t.f (k + 1) (k - 1)))) (Flt.abs r0)))
          (Flt.div r0 (Flt.add (Flt.add (Flt.abs (s.t.f k (k - 1)))
            (Flt.abs (s.t.f (k + 1) (k - 1)))) (Flt.abs r0)))
          (Schur.sgnNorm (Flt.div (s.t.f k (k - 1)) (Flt.add (Flt.add (Flt.abs (s.t.f k (k - 1)))
            (Flt.abs (s.t.f (k + 1) (k - 1)))) (Flt.abs r0)))
            (Flt.div (s.t.f (k + 1) (k - 1)) (Flt.add (Flt.add (Flt.abs (s.t.f k (k - 1)))
            (Flt.abs (s.t.f (k + 1) (k - 1)))) (Flt.abs r0)))
            (Flt.div r0 (Flt.add (Flt.add (Flt.abs (s.t.f k (k - 1)))
            (Flt.abs (s.t.f (k + 1) (k - 1)))) (Flt.abs r0))))
          (Flt.add (Flt.add (Flt.abs (s.t.f k (k - 1)))
            (Flt.abs (s.t.f (k + 1) (k - 1)))) (Flt.abs r0)) s) = .ok s' ∧
        Schur.Mid A (b + eps + eps) ex im iu (k + 1) T0 W0 s' W' := by
    intro r0 hr1 hr2
    have a0 := abs_nonneg (s.t.f k (k - 1))
    have a1 := abs_nonneg (s.t.f (k + 1) (k - 1))
    have a2 := abs_nonneg r0
    generalize hX : Flt.add (Flt.add (Flt.abs (s.t.f k (k - 1))) (Flt.abs (s.t.f (k + 1) (k - 1)))) (Flt.abs r0) = X
    simp only [Exact.add_eq, Exact.abs_eq] at hX
    by_cases hsk : equalsWithError X Flt.zero eps = true
    · rw [if_pos hsk]
      have hXe : X ≤ eps := by
        unfold equalsWithError at hsk
        simp only [Exact.ulpEq_eq, Exact.zero_eq, Exact.abs_eq, Exact.sub_eq, Exact.le_eq, zero_sub, abs_neg,
          Bool.or_eq_true, decide_eq_true_eq] at hsk
        rcases hsk with hsk | hsk
        · rw [hsk]
          exact he
        · exact (le_abs_self X).trans hsk
      obtain ⟨W', hW'⟩ := h.skip hk hiu he (by rw [hw _ (by omega)]; linarith)
        (fun hc => by rw [hw _ hc, ← hr1 (by omega)]; linarith)
      exact ⟨s, W', rfl, hW'⟩
    · rw [if_neg hsk]
      have hX0 : X ≠ 0 := by
        intro hX0
        apply hsk
        unfold equalsWithError
        simp [hX0]
      have hXs : Schur.sgnNorm (Flt.div (s.t.f k (k - 1)) X) (Flt.div (s.t.f (k + 1) (k - 1)) X) (Flt.div r0 X) ≠
          0 := by
        intro hc
        obtain ⟨b0, b1, b2⟩ := Schur.sgnNorm_le (Flt.div (s.t.f k (k - 1)) X) (Flt.div (s.t.f (k + 1) (k - 1)) X)
          (Flt.div r0 X)
        rw [hc, abs_zero] at b0 b1 b2
        have c0 := abs_nonpos_iff.1 b0
        have c1 := abs_nonpos_iff.1 b1
        have c2 := abs_nonpos_iff.1 b2
        rw [Exact.div_eq, div_eq_zero_iff] at c0 c1 c2
        have c0 := c0.resolve_right hX0
        have c1 := c1.resolve_right hX0
        have c2 := c2.resolve_right hX0
        rw [c0, c1, c2, abs_zero] at hX
        exact hX0 (by rw [← hX]; ring)
      obtain ⟨s', f, e, hf, hfk, ht, hp⟩ := Schur.reflect_val hil hk.le hiu hn (Flt.div (s.t.f k (k - 1)) X)
        (Flt.div (s.t.f (k + 1) (k - 1)) X) (Flt.div r0 X) X (by simpa using hXs) s
      have hir := Schur.isRefl (p := Flt.div (s.t.f k (k - 1)) X) (q := Flt.div (s.t.f (k + 1) (k - 1)) X)
        (r := Flt.div r0 X) (nl := decide (k ≠ iu - 1)) rfl (by simpa using hXs) (fun hd => by
          have hd := of_decide_eq_false hd
          rw [hr2 (by omega), Exact.div_eq, zero_div])
      have hsq := Schur.sgnNorm_sq (Flt.div (s.t.f k (k - 1)) X) (Flt.div (s.t.f (k + 1) (k - 1)) X) (Flt.div r0 X)
      have hps := Schur.sgnNorm_add hXs
      have hvec := Schur.refl_vec hsq hps
      have hnl : decide (k ≠ iu - 1) = true → k + 2 ≤ iu := fun hd => by
        have hd := of_decide_eq_true hd
        omega
      suffices hM : ∃ W', Schur.Mid A b ex im iu (k + 1) T0 W0 s' W' by
        obtain ⟨W', hM⟩ := hM
        exact ⟨s', W', e, hM.mono (by linarith)⟩
      have hrr : k + 2 ≤ iu ∨ Flt.div (Flt.div r0 X) (Flt.add (Flt.div (s.t.f k (k - 1)) X)
          (Schur.sgnNorm (Flt.div (s.t.f k (k - 1)) X) (Flt.div (s.t.f (k + 1) (k - 1)) X) (Flt.div r0 X))) = 0 := by
        by_cases e : k = iu - 1
        · right
          rw [hr2 e]
          simp
        · left
          omega
      generalize hsn : Schur.sgnNorm (Flt.div (s.t.f k (k - 1)) X) (Flt.div (s.t.f (k + 1) (k - 1)) X)
        (Flt.div r0 X) = sn at *
      simp only [Exact.div_eq, Exact.add_eq] at hir ht hp hvec hps hrr
      have hD : W k (k - 1) + s.t.f (k + 1) (k - 1) / X / (s.t.f k (k - 1) / X + sn) * W (k + 1) (k - 1) +
          r0 / X / (s.t.f k (k - 1) / X + sn) * W (k + 2) (k - 1) = X * sn := by
        have e2 : r0 / X / (s.t.f k (k - 1) / X + sn) * W (k + 2) (k - 1) =
            r0 / X / (s.t.f k (k - 1) / X + sn) * r0 := by
          rcases hrr with hrr | hrr
          · rw [hw _ hrr, ← hr1 (by omega)]
          · rw [hrr, zero_mul, zero_mul]
        rw [e2, hw k (by omega), hw (k + 1) (by omega)]
        have hX' : ∀ d : K, s.t.f k (k - 1) + s.t.f (k + 1) (k - 1) / X / d * s.t.f (k + 1) (k - 1) +
            r0 / X / d * r0 = X * (s.t.f k (k - 1) / X + s.t.f (k + 1) (k - 1) / X / d * (s.t.f (k + 1) (k - 1) / X) +
            r0 / X / d * (r0 / X)) := by
          intro d
          field_simp
        rw [hX', hvec]
      obtain ⟨w0, w1, w2⟩ := Schur.wv_at k (s.t.f (k + 1) (k - 1) / X / (s.t.f k (k - 1) / X + sn))
        (r0 / X / (s.t.f k (k - 1) / X + sn))
      have hz : ∀ a d : K, d ≠ 0 → a - d / sn * (a / X / d) * (X * sn) = 0 := by
        intro a d hd
        field_simp
        ring
      refine ⟨_, h.refl hk hiu hn hir hnl hf (c := Flt.mul (Flt.neg sn) X) ?_ ht hp ?_ ?_ ?_⟩
      · rw [hfk (k - 1) (by omega), if_pos (by omega)]
      · rw [Schur.full_left hiu hrr (by omega), hD, w0, hw k (by omega), Exact.mul_eq, Exact.neg_eq]
        field_simp
        ring
      · rw [Schur.full_left hiu hrr (by omega), hD, w1, hw (k + 1) (by omega)]
        exact hz _ _ hps
      · intro h2
        rw [Schur.full_left hiu hrr (by omega), hD, w2, hw (k + 2) h2, ← hr1 (by omega)]
        exact hz _ _ hps
  unfold Schur.qrRound
  rw [if_pos (by omega), Tab.get_ok (by omega) (by omega), ok_bind, Tab.get_ok (by omega) (by omega), ok_bind]
  by_cases e1 : k = iu - 1
  · rw [if_neg (by omega), pure_eq_ok, ok_bind]
    exact key Flt.zero (fun h => absurd e1 h) (fun _ => Exact.zero_eq)
  · rw [if_pos e1, Tab.get_ok (by omega) (by omega), ok_bind]
    exact key _ (fun _ => rfl) (fun h => absurd h e1)


theorem Schur.sgnNorm_sub (p q r : K) : |p - Schur.sgnNorm p q r| ≤ |q| + |r| := by
  have h1 := Schur.sgnNorm_sq p q r
  have h2 := Schur.sgnNorm_sign p q r
  have h3 := (Schur.sgnNorm_le p q r).1
  generalize Schur.sgnNorm p q r = sn at *
  refine abs_le_of_sq_le_sq ?_ (add_nonneg (abs_nonneg _) (abs_nonneg _))
  have h4 : p * p ≤ p * sn := by
    rw [← abs_of_nonneg h2, abs_mul, ← abs_mul_abs_self p]
    exact mul_le_mul_of_nonneg_left h3 (abs_nonneg _)
  have h5 : (|q| + |r|) ^ 2 = q * q + r * r + 2 * (|q| * |r|) := by
    rw [← abs_mul_abs_self q, ← abs_mul_abs_self r]
    ring
  have h6 := mul_nonneg (abs_nonneg q) (abs_nonneg r)
  rw [h5]
  nlinarith

/-- The first round. -/
theorem Schur.Mid.start (h : Schur.Mid A b ex im iu im T0 W0 s W) {eps d : K} (hd : 0 ≤ d) {il : Nat} (hil : il ≤ im)
    (hiu : im + 2 ≤ iu) (hn : iu < n) (v : K × K × K)
    (h1 : 0 < im → il = im → 2 * |W im (im - 1)| ≤ d)
    (h2 : 0 < im → il ≠ im → |W im (im - 1)| * (|v.2.1| + |v.2.2|) ≤ d * |v.1|) :
    ∃ s' W', Schur.qrRound eps il im iu v im s = .ok s' ∧
      Schur.Mid A (b + d + d + d) ex im iu (im + 1) T0 W0 s' W' := by
  obtain ⟨p, q, r⟩ := v
  dsimp only at h2
  unfold Schur.qrRound
  rw [if_neg (by simp)]
  dsimp only
  by_cases hs : Schur.sgnNorm p q r = 0
  · refine ⟨s, W, ?_, (h.mono (by linarith)).rep, ⟨fun i j hi hij hb => ?_, h.shape.cut⟩, fun i j hi hj hij hs => ?_,
      h.tailT, h.tailW⟩
    · unfold Schur.reflect
      rw [hs]
      simp
    · exact h.shape.zero i j hi hij (fun hb => by have := hb.1; omega)
    · exact h.same i j hi hj hij (fun hb => by have := hb.1; have := hb.2; omega)
  · obtain ⟨s', f, e, hf, hfk, ht, hp⟩ := Schur.reflect_val hil (le_refl im) (show im < iu by omega) hn p q r Flt.zero
      (by simpa using hs) s
    have hir := Schur.isRefl (p := p) (q := q) (r := r) (nl := decide (im ≠ iu - 1)) rfl (by simpa using hs)
      (fun hd => by
        have hd := of_decide_eq_false hd
        omega)
    have hw : 0 < im → W im (im - 1) = s.t.f im (im - 1) := fun h0 =>
      h.same im (im - 1) (by omega) (by omega) (.inr (by omega)) (fun hs => by have := hs.2; omega)
    have hsub := Schur.sgnNorm_sub p q r
    have hps := Schur.sgnNorm_add hs
    obtain ⟨l0, l1, l2⟩ := Schur.sgnNorm_le p q r
    have hpos := abs_pos.2 hs
    generalize Schur.sgnNorm p q r = sn at *
    simp only [Exact.div_eq, Exact.add_eq] at ht hp hir
    obtain ⟨W', hW'⟩ := h.first hiu hn hir hd (c := if il ≠ im then -W im (im - 1) else W im (im - 1)) hf
      (fun h0 => by
        rw [hfk (im - 1) (by omega), if_neg (by simp), ← hw h0]
        simp) ht hp
      (fun h0 => by
        by_cases e : il = im
        · rw [if_neg (by simpa using e)]
          have e1 : W im (im - 1) - (1 - (p + sn) / sn) * W im (im - 1) = (p + sn) * W im (im - 1) / sn := by
            field_simp
            ring
          rw [e1, abs_div, abs_mul, div_le_iff₀ hpos]
          have := h1 h0 e
          have h3 : |p + sn| ≤ 2 * |sn| := (abs_add_le _ _).trans (by linarith)
          have := mul_le_mul_of_nonneg_right h3 (abs_nonneg (W im (im - 1)))
          nlinarith
        · rw [if_pos e]
          have e1 : -W im (im - 1) - (1 - (p + sn) / sn) * W im (im - 1) = (p - sn) * W im (im - 1) / sn := by
            field_simp
            ring
          rw [e1, abs_div, abs_mul, div_le_iff₀ hpos]
          have h3 := h2 h0 e
          have h4 := mul_le_mul_of_nonneg_right hsub (abs_nonneg (W im (im - 1)))
          have h5 := mul_le_mul_of_nonneg_left l0 hd
          linarith)
      (fun h0 => by
        have e1 : (p + sn) / sn * (q / (p + sn)) * W im (im - 1) = q * W im (im - 1) / sn := by
          field_simp
        rw [e1, abs_div, abs_mul, div_le_iff₀ hpos]
        by_cases e : il = im
        · have := h1 h0 e
          have := mul_le_mul_of_nonneg_right l1 (abs_nonneg (W im (im - 1)))
          nlinarith [abs_nonneg (W im (im - 1))]
        · have h3 := h2 h0 e
          have h5 := mul_le_mul_of_nonneg_left l0 hd
          have h6 := mul_nonneg (abs_nonneg r) (abs_nonneg (W im (im - 1)))
          linarith)
      (fun h0 => by
        have e1 : (p + sn) / sn * (r / (p + sn)) * W im (im - 1) = r * W im (im - 1) / sn := by
          field_simp
        rw [e1, abs_div, abs_mul, div_le_iff₀ hpos]
        by_cases e : il = im
        · have := h1 h0 e
          have := mul_le_mul_of_nonneg_right l2 (abs_nonneg (W im (im - 1)))
          nlinarith [abs_nonneg (W im (im - 1))]
        · have h3 := h2 h0 e
          have h5 := mul_le_mul_of_nonneg_left l0 hd
          have h6 := mul_nonneg (abs_nonneg q) (abs_nonneg (W im (im - 1)))
          linarith)
    exact ⟨s', W', e, hW'⟩

/-- The double step. -/
theorem Schur.Mid.step (h : Schur.Mid A b ex im iu im T0 W0 s W) {eps d : K} (he : 0 ≤ eps) (hd : 0 ≤ d) {il : Nat}
    (hil : il ≤ im) (hiu : im + 2 ≤ iu) (hn : iu < n) (v : K × K × K)
    (h1 : 0 < im → il = im → 2 * |W im (im - 1)| ≤ d)
    (h2 : 0 < im → il ≠ im → |W im (im - 1)| * (|v.2.1| + |v.2.2|) ≤ d * |v.1|) :
    ∃ s' W', Schur.qrStep eps il im iu v s = .ok s' ∧
      Schur.Mid A (b + 3 * d + 2 * n * eps) ex im iu im T0 W0 s' W' := by
  obtain ⟨s1, e1, hI⟩ := Wp.exists_ok (wp_forUp (E := fun _ => False) (s := s) (fun k s => ∃ W,
      k = im ∧ Schur.Mid A b ex im iu k T0 W0 s W ∧
        (0 < im → il = im → 2 * |W im (im - 1)| ≤ d) ∧
        (0 < im → il ≠ im → |W im (im - 1)| * (|v.2.1| + |v.2.2|) ≤ d * |v.1|) ∨
      im < k ∧ Schur.Mid A (b + 3 * d + 2 * k * eps) ex im iu k T0 W0 s W) (show im ≤ iu by omega)
    ⟨W, .inl ⟨rfl, h, h1, h2⟩⟩ (body := Schur.qrRound eps il im iu v) (fun k s a c hI => by
      obtain ⟨W, ⟨rfl, hM, h1, h2⟩ | ⟨hk, hM⟩⟩ := hI
      · obtain ⟨s', W', e, hM'⟩ := hM.start (eps := eps) hd hil hiu hn v h1 h2
        rw [e, wp_ok]
        refine ⟨W', .inr ⟨by omega, hM'.mono ?_⟩⟩
        have : 0 ≤ 2 * ((k + 1 : Nat) : K) * eps := by positivity
        linarith
      · obtain ⟨s', W', e, hM'⟩ := hM.later he hil hk c hn v
        rw [e, wp_ok]
        refine ⟨W', .inr ⟨by omega, hM'.mono ?_⟩⟩
        push_cast
        linarith))
  obtain ⟨W1, ⟨hc, -⟩ | ⟨-, hM⟩⟩ := hI
  · omega
  unfold Schur.qrStep
  rw [e1, ok_bind, Schur.clear_ok hn, ok_bind]
  have hz : ∀ i j, i < n → j + 1 < i → W1 i j = 0 := fun i j hi hij =>
    hM.shape.zero i j hi hij (fun hb => by have := hb.2; omega)
  refine ⟨_, W1, rfl, (hM.mono ?_).rep, ⟨fun i j hi hij _ => hz i j hi hij, hM.shape.cut⟩, fun i j hi hj hij _ => ?_,
    fun i j hi hj hc => ?_, hM.tailW⟩
  · have h3 : (iu : K) ≤ n := by exact_mod_cast hn.le
    have := mul_le_mul_of_nonneg_right h3 he
    linarith
  · dsimp only
    by_cases e : im + 2 ≤ i ∧ i ≤ iu ∧ (j + 2 = i ∨ im + 2 < i ∧ j + 3 = i)
    · rw [if_pos e, hz i j hi (by omega), Exact.zero_eq]
    · rw [if_neg e]
      exact hM.same i j hi hj hij (fun hs => by have := hs.1; have := hs.2; omega)
  · dsimp only
    rw [if_neg (by omega)]
    exact hM.tailT i j hi hj hc

end Linear
