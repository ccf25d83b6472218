import Verif.Lemmas.SchurLemmas

/-!
# The Schur form in exact arithmetic: what the reflections and rotations keep
-/

set_option linter.unusedSectionVars false

namespace Linear

open Spec Finset Matrix

variable {K : Type} [Field K] [LinearOrder K] [IsStrictOrderedRing K] [Flt K] [Exact K] [ExactSqrt K]
variable {n : Nat}

/-- The vector of a reflection of the lines `k`, `k + 1`, `k + 2`. -/
def Schur.wv (k : Nat) (q r : K) (i : Nat) : K :=
  if i = k then 1 else if i = k + 1 then q else if i = k + 2 then r else 0

/-- What makes the update a reflection. -/
structure Schur.IsRefl (nl : Bool) (q r x y z : K) : Prop where
  hy : y = x * q
  hz : z = x * r
  two : x * (1 + q * q + r * r) = 2
  hr : nl = false → r = 0

theorem Schur.colV_exact {k : Nat} {nl : Bool} {q r x y z : K} (h : Schur.IsRefl nl q r x y z) (u : Nat → K)
    (i : Nat) : Schur.colV k nl q r x y z u i =
      u i - x * Schur.wv k q r i * (u k + q * u (k + 1) + r * u (k + 2)) := by
  unfold Schur.colV Schur.comb Schur.wv
  rw [h.hy, h.hz]
  cases nl
  · rw [h.hr rfl]
    by_cases e1 : i = k + 1
    · subst e1
      simp
      ring
    · by_cases e2 : i = k
      · subst e2
        simp
        ring
      · simp [e1, e2]
  · by_cases e1 : i = k + 1
    · subst e1
      simp
      ring
    · by_cases e2 : i = k
      · subst e2
        simp
        ring
      · by_cases e3 : i = k + 2
        · subst e3
          simp
          ring
        · simp [e1, e2, e3]

theorem Schur.rowV_exact {k : Nat} {nl : Bool} {q r x y z : K} (h : Schur.IsRefl nl q r x y z) (u : Nat → K)
    (i : Nat) : Schur.rowV k nl q r x y z u i =
      u i - x * Schur.wv k q r i * (u k + q * u (k + 1) + r * u (k + 2)) := by
  unfold Schur.rowV Schur.comb Schur.wv
  rw [h.hy, h.hz]
  cases nl
  · rw [h.hr rfl]
    by_cases e1 : i = k + 1
    · subst e1
      simp
      ring
    · by_cases e2 : i = k
      · subst e2
        simp
        ring
      · simp [e1, e2]
  · by_cases e1 : i = k + 1
    · subst e1
      simp
      ring
    · by_cases e2 : i = k
      · subst e2
        simp
        ring
      · by_cases e3 : i = k + 2
        · subst e3
          simp
          ring
        · simp [e1, e2, e3]

theorem Schur.sum_wv {k : Nat} {q r : K} (hk : k + 1 < n) (hr : k + 2 < n ∨ r = 0) (u : Nat → K) :
    ∑ c ∈ range n, u c * Schur.wv k q r c = u k + q * u (k + 1) + r * u (k + 2) := by
  have : ∀ c, u c * Schur.wv k q r c =
      (if c = k then u k else 0) + (if c = k + 1 then q * u (k + 1) else 0) +
        (if c = k + 2 then r * u (k + 2) else 0) := by
    intro c
    unfold Schur.wv
    by_cases e1 : c = k
    · subst e1; simp
    · by_cases e2 : c = k + 1
      · subst e2; simp [mul_comm]
      · by_cases e3 : c = k + 2
        · subst e3; simp [mul_comm]
        · simp [e1, e2, e3]
  rw [sum_congr rfl fun c _ => this c, sum_add_distrib, sum_add_distrib, sum_ite_eq', sum_ite_eq', sum_ite_eq',
    if_pos (mem_range.2 (by omega)), if_pos (mem_range.2 hk)]
  rcases hr with h | h
  · rw [if_pos (mem_range.2 h)]
  · subst h
    simp

/-- The numbers of a round form a reflection. -/
theorem Schur.isRefl {p q r sn : K} {nl : Bool} (h : sn = Schur.sgnNorm p q r)
    (hne : Flt.eq sn Flt.zero = false) (hr : nl = false → r = 0) :
    Schur.IsRefl nl (Flt.div q (Flt.add p sn)) (Flt.div r (Flt.add p sn)) (Flt.div (Flt.add p sn) sn)
      (Flt.div q sn) (Flt.div r sn) := by
  have hs0 : sn ≠ 0 := by
    simpa using hne
  have hpos : 0 ≤ p * p + q * q + r * r :=
    add_nonneg (add_nonneg (mul_self_nonneg _) (mul_self_nonneg _)) (mul_self_nonneg _)
  have hn := ExactSqrt.sqrt_nonneg (p * p + q * q + r * r)
  have hsq := ExactSqrt.sqrt_mul_self _ hpos
  have h2 : sn * sn = p * p + q * q + r * r := by
    rw [h]
    unfold Schur.sgnNorm
    split <;> simp [hsq]
  have hps : p + sn ≠ 0 := by
    intro hc
    have e : sn = -p := by linear_combination hc
    have hp : p ≠ 0 := fun h0 => hs0 (by rw [e, h0, neg_zero])
    unfold Schur.sgnNorm at h
    by_cases hlt : p < 0
    · rw [if_pos (by simpa using hlt)] at h
      simp at h
      have : sn ≤ 0 := by rw [h]; linarith
      linarith
    · rw [if_neg (by simpa using hlt)] at h
      simp at h
      have : 0 ≤ sn := by rw [h]; exact hn
      have : 0 < p := lt_of_le_of_ne (not_lt.1 hlt) (Ne.symm hp)
      linarith
  simp only [Exact.div_eq, Exact.add_eq]
  refine ⟨?_, ?_, ?_, fun e => by rw [hr e, zero_div]⟩
  · field_simp
  · field_simp
  · field_simp
    linear_combination -h2

/-- A reflection of the columns keeps the products of the rows. -/
theorem Schur.refl_orth {k : Nat} {nl : Bool} {q r x y z : K} (h : Schur.IsRefl nl q r x y z) (hk : k + 1 < n)
    (hnl : nl = true → k + 2 < n) {f g : Nat → Nat → K}
    (hg : Schur.Same n g (Schur.colF n k nl q r x y z f)) :
    mx n n g * (mx n n g)ᵀ = mx n n f * (mx n n f)ᵀ := by
  have hr : k + 2 < n ∨ r = 0 := by
    cases nl
    · exact .inr (h.hr rfl)
    · exact .inl (hnl rfl)
  rw [mx_transpose, mx_transpose, mx_mul, mx_mul]
  refine mx_congr fun i j hi hj => ?_
  have e : ∀ a, a < n → ∀ c, c < n → g a c =
      f a c - x * Schur.wv k q r c * (f a k + q * f a (k + 1) + r * f a (k + 2)) := by
    intro a ha c hc
    rw [hg a c ha hc, Schur.colF, if_pos ha, Schur.colV_exact h]
  rw [sum_congr rfl fun c hc => by rw [e i hi c (mem_range.1 hc), e j hj c (mem_range.1 hc)]]
  have s1 := Schur.sum_wv hk hr (q := q) (f i)
  have s2 := Schur.sum_wv hk hr (q := q) (f j)
  have s3 := Schur.sum_wv hk hr (q := q) (Schur.wv k q r)
  have w0 : Schur.wv k q r k = 1 := by simp [Schur.wv]
  have w1 : Schur.wv k q r (k + 1) = q := by simp [Schur.wv]
  have w2 : Schur.wv k q r (k + 2) = r := by simp [Schur.wv]
  rw [w0, w1, w2] at s3
  generalize hDi : f i k + q * f i (k + 1) + r * f i (k + 2) = Di at *
  generalize hDj : f j k + q * f j (k + 1) + r * f j (k + 2) = Dj at *
  calc ∑ c ∈ range n, (f i c - x * Schur.wv k q r c * Di) * (f j c - x * Schur.wv k q r c * Dj)
      = ∑ c ∈ range n, f i c * f j c - x * Dj * ∑ c ∈ range n, f i c * Schur.wv k q r c
        - x * Di * ∑ c ∈ range n, f j c * Schur.wv k q r c
        + x * x * Di * Dj * ∑ c ∈ range n, Schur.wv k q r c * Schur.wv k q r c := by
        rw [mul_sum, mul_sum, mul_sum, ← sum_sub_distrib, ← sum_sub_distrib, ← sum_add_distrib]
        exact sum_congr rfl fun c _ => by ring
    _ = ∑ c ∈ range n, f i c * f j c := by
        rw [s1, s2, s3]
        linear_combination x * Di * Dj * h.two

/-- A reflection from both sides keeps the sum of the diagonal. -/
theorem Schur.refl_trace {k hi : Nat} {nl : Bool} {q r x y z : K} (h : Schur.IsRefl nl q r x y z) (hk : k + 1 < n)
    (hnl : nl = true → k + 2 < n) (h1 : k + 2 ≤ hi) (h2 : nl = true → k + 3 ≤ hi) {f g : Nat → Nat → K}
    (hg : Schur.Same n g (Schur.colF hi k nl q r x y z (Schur.rowF k nl q r x y z f))) :
    ∑ i ∈ range n, g i i = ∑ i ∈ range n, f i i := by
  have hr : k + 2 < n ∨ r = 0 := by
    cases nl
    · exact .inr (h.hr rfl)
    · exact .inl (hnl rfl)
  have w0 : Schur.wv k q r k = 1 := by simp [Schur.wv]
  have w1 : Schur.wv k q r (k + 1) = q := by simp [Schur.wv]
  have w2 : Schur.wv k q r (k + 2) = r := by simp [Schur.wv]
  -- the row modification
  have eF : ∀ i j, k ≤ j → Schur.rowF k nl q r x y z f i j =
      f i j - x * Schur.wv k q r i * (f k j + q * f (k + 1) j + r * f (k + 2) j) := by
    intro i j hj
    rw [Schur.rowF, if_pos hj, Schur.rowV_exact h]
  have wz : ∀ i, i < k ∨ hi ≤ i → Schur.wv k q r i = 0 := by
    intro i hi'
    unfold Schur.wv
    rw [if_neg (by omega), if_neg (by omega)]
    split
    · rename_i e
      cases hnl' : nl
      · exact h.hr hnl'
      · have := h2 hnl'
        omega
    · rfl
  have key : ∀ i, i < n → g i i = f i i - (x * (f k i + q * f (k + 1) i + r * f (k + 2) i) +
      x * ((f i k - x * Schur.wv k q r i * (f k k + q * f (k + 1) k + r * f (k + 2) k)) +
        q * (f i (k + 1) - x * Schur.wv k q r i * (f k (k + 1) + q * f (k + 1) (k + 1) + r * f (k + 2) (k + 1))) +
        r * (f i (k + 2) - x * Schur.wv k q r i * (f k (k + 2) + q * f (k + 1) (k + 2) + r * f (k + 2) (k + 2)))))
      * Schur.wv k q r i := by
    intro i hi'
    rw [hg i i hi' hi', Schur.colF]
    by_cases e : i < hi
    · rw [if_pos e, Schur.colV_exact h, eF i k (le_refl _), eF i (k + 1) (by omega), eF i (k + 2) (by omega)]
      by_cases e' : k ≤ i
      · rw [eF i i e']
        ring
      · rw [wz i (by omega), Schur.rowF, if_neg e']
        ring
    · rw [if_neg e, wz i (by omega), eF i i (by omega), wz i (by omega)]
      ring
  rw [sum_congr rfl fun i hi' => key i (mem_range.1 hi'), sum_sub_distrib, Schur.sum_wv hk hr, w0, w1, w2]
  linear_combination (x * (f k k + q * f (k + 1) k + r * f (k + 2) k + q * (f k (k + 1) + q * f (k + 1) (k + 1) +
    r * f (k + 2) (k + 1)) + r * (f k (k + 2) + q * f (k + 1) (k + 2) + r * f (k + 2) (k + 2)))) * h.two

theorem Schur.rotV_exact (k : Nat) (p q : K) (u : Nat → K) (i : Nat) : Schur.rotV k p q u i =
    if i = k + 1 then q * u (k + 1) - p * u k else if i = k then q * u k + p * u (k + 1) else u i := by
  unfold Schur.rotV
  simp only [Exact.sub_eq, Exact.mul_eq, Exact.add_eq]

theorem Schur.sum_pair {k : Nat} (hk : k + 1 < n) (a b : Nat → K) (h : ∀ i, i ≠ k → i ≠ k + 1 → a i = b i)
    (h2 : a k + a (k + 1) = b k + b (k + 1)) : ∑ i ∈ range n, a i = ∑ i ∈ range n, b i := by
  have : ∑ i ∈ range n, (a i - b i) = (a k - b k) + (a (k + 1) - b (k + 1)) :=
    Finset.sum_eq_add k (k + 1) (by omega) (fun i _ hi => by rw [h i hi.1 hi.2, sub_self])
      (fun h => absurd (mem_range.2 (by omega)) h) (fun h => absurd (mem_range.2 hk) h)
  rw [sum_sub_distrib] at this
  linear_combination this + h2

theorem Schur.rot_orth {k : Nat} {p q : K} (h : p * p + q * q = 1) (hk : k + 1 < n) {f g : Nat → Nat → K}
    (hg : Schur.Same n g (fun a b => Schur.rotV k p q (f a) b)) :
    mx n n g * (mx n n g)ᵀ = mx n n f * (mx n n f)ᵀ := by
  rw [mx_transpose, mx_transpose, mx_mul, mx_mul]
  refine mx_congr fun i j hi hj => ?_
  rw [sum_congr rfl fun c hc => by rw [hg i c hi (mem_range.1 hc), hg j c hj (mem_range.1 hc)]]
  refine Schur.sum_pair hk _ _ (fun c h1 h2 => ?_) ?_
  · dsimp only
    rw [Schur.rotV_exact, Schur.rotV_exact, if_neg h2, if_neg h1, if_neg h2, if_neg h1]
  · simp only [Schur.rotV_exact]
    simp
    linear_combination (f i k * f j k + f i (k + 1) * f j (k + 1)) * h

theorem Schur.rot_trace {k : Nat} {p q : K} (h : p * p + q * q = 1) (hk : k + 1 < n) {f g : Nat → Nat → K}
    (hg : Schur.Same n g (fun a b => if a < k + 2 then
        Schur.rotV k p q (fun b => if k ≤ b then Schur.rotV k p q (fun i => f i b) a else f a b) b
        else if k ≤ b then Schur.rotV k p q (fun i => f i b) a else f a b)) :
    ∑ i ∈ range n, g i i = ∑ i ∈ range n, f i i := by
  rw [sum_congr rfl fun i hi => hg i i (mem_range.1 hi) (mem_range.1 hi)]
  refine Schur.sum_pair hk _ _ (fun c h1 h2 => ?_) ?_
  · simp only [Schur.rotV_exact]
    simp [h1, h2]
  · simp only [Schur.rotV_exact]
    simp
    linear_combination (f k k + f (k + 1) (k + 1)) * h

/-- The numbers of the rotation. -/
theorem Schur.unit_exact {x : K} (hx : x ≠ 0) (z : K) :
    (Schur.unit x z).1 * (Schur.unit x z).1 + (Schur.unit x z).2 * (Schur.unit x z).2 = 1 := by
  have hs : 0 < |x| + |z| := add_pos_of_pos_of_nonneg (abs_pos.2 hx) (abs_nonneg z)
  unfold Schur.unit
  simp only [Exact.div_eq, Exact.add_eq, Exact.mul_eq, Exact.abs_eq]
  generalize ha : x / (|x| + |z|) = a
  generalize hb : z / (|x| + |z|) = b
  have ha0 : a ≠ 0 := by rw [← ha]; exact div_ne_zero hx hs.ne'
  have hpos : 0 < a * a + b * b := add_pos_of_pos_of_nonneg (mul_self_pos.2 ha0) (mul_self_nonneg b)
  have hsq := ExactSqrt.sqrt_mul_self _ hpos.le
  have hne : Flt.sqrt (a * a + b * b) ≠ 0 := by
    intro h0
    rw [h0, mul_zero] at hsq
    exact hpos.ne hsq
  generalize Flt.sqrt (a * a + b * b) = w at hsq hne
  field_simp
  linear_combination -hsq

/-- The norm is positive if an entry that may differ from zero does. -/
theorem Schur.norm_pos {t : Tab K n n} {x : K} (h : Schur.norm t = .ok x) {i0 j0 : Nat} (hi : i0 < n) (hj : j0 < n)
    (hij : i0 ≤ j0 + 1) (h0 : t.f i0 j0 ≠ 0) : 0 < x := by
  unfold Schur.norm at h
  have hw := wp_forUp (E := fun _ => False) (fun i (s : K) => 0 ≤ s ∧ (i0 < i → 0 < s)) (Nat.zero_le n)
    (body := fun i s => sumUp (i - 1) n (fun j => do return Flt.abs (← t.get i j)) s)
    (s := (Flt.zero : K)) ⟨by simp, fun h => by omega⟩ (fun i s _ hi' hI => by
      rw [sumUp_ok (fun j => Flt.abs (t.f i j)) fun j _ hj => by rw [Tab.get_ok hi' hj]; rfl, wp_ok,
        lsum_exact]
      have hn : 0 ≤ ∑ j ∈ Ico (i - 1) n, Flt.abs (t.f i j) :=
        sum_nonneg fun j _ => by rw [Exact.abs_eq]; exact abs_nonneg _
      refine ⟨add_nonneg hI.1 hn, fun hlt => ?_⟩
      by_cases e : i0 < i
      · exact add_pos_of_pos_of_nonneg (hI.2 e) hn
      · obtain rfl : i0 = i := by omega
        refine add_pos_of_nonneg_of_pos hI.1 (lt_of_lt_of_le ?_ (single_le_sum (f := fun j => Flt.abs (t.f i0 j))
          (fun j _ => by rw [Exact.abs_eq]; exact abs_nonneg _) (mem_Ico.2 ⟨(by omega : i0 - 1 ≤ j0), hj⟩)))
        rw [Exact.abs_eq]
        exact abs_pos.2 h0)
  exact (hw.of_ok h).2 hi

end Linear
