import Verif.Lemmas.SvdLemmas
import Verif.Lemmas.BiLemmas

/-!
# The reduction of the singular value decomposition in exact arithmetic
-/

set_option linter.unusedSectionVars false

namespace Linear

/-- What is asked of `math.Hypot` in exact arithmetic. -/
def Spec.Hypot {K : Type} [Field K] [LinearOrder K] (hyp : K → K → K) : Prop :=
  ∀ a b, 0 ≤ hyp a b ∧ hyp a b * hyp a b = a * a + b * b

open Spec Finset Matrix

variable {K : Type} [Field K] [LinearOrder K] [IsStrictOrderedRing K] [Flt K] [Exact K] {m n : Nat}

theorem Svd.hsum_exact {hyp : K → K → K} (hh : Spec.Hypot hyp) (k : Nat) (x : Nat → K) (d : Nat) :
    0 ≤ Svd.hsum hyp k x d ∧ Svd.hsum hyp k x d * Svd.hsum hyp k x d = ∑ r ∈ Ico k (k + d), x r * x r := by
  induction d with
  | zero => simp [Svd.hsum]
  | succ d ih =>
    rw [Svd.hsum]
    refine ⟨(hh _ _).1, ?_⟩
    rw [(hh _ _).2, ih.2, ← Nat.add_assoc, sum_Ico_succ_top (by omega)]

/-- The signed norm: its square and its sign. -/
theorem Svd.signed_exact {hyp : K → K → K} (hh : Spec.Hypot hyp) {k m : Nat} (hk : k < m) (x : Nat → K) {nu : K}
    (h : nu = Svd.signed (Svd.hsum hyp k x (m - k)) (x k)) :
    nu * nu = ∑ r ∈ Ico k m, x r * x r ∧ (x k < 0 → nu ≤ 0) ∧ (0 ≤ x k → 0 ≤ nu) := by
  obtain ⟨h1, h2⟩ := Svd.hsum_exact hh k x (m - k)
  rw [show k + (m - k) = m by omega] at h2
  unfold Svd.signed at h
  by_cases e : Svd.hsum hyp k x (m - k) = 0
  · rw [if_neg (by simp [e])] at h
    rw [h]
    exact ⟨h2, fun _ => e.le, fun _ => h1⟩
  · rw [if_pos (by simp [e])] at h
    by_cases e' : x k < 0
    · rw [if_pos (by simp [e'])] at h
      rw [h, Exact.neg_eq]
      exact ⟨by rw [neg_mul_neg, h2], fun _ => by linarith, fun h => absurd e' (not_lt.2 h)⟩
    · rw [if_neg (by simp [e'])] at h
      rw [h]
      exact ⟨h2, fun h => absurd h e', fun _ => h1⟩

/-- The scaled vector gives the reflection of `x` onto the first axis. -/
theorem Svd.scaled_exact {k m : Nat} (hk : k < m) {x v : Nat → K} {nu : K}
    (h2 : nu * nu = ∑ r ∈ Ico k m, x r * x r) (hn : x k < 0 → nu ≤ 0) (hp : 0 ≤ x k → 0 ≤ nu) (h0 : nu ≠ 0)
    (hv : ∀ i, k ≤ i → i < m → v i = Svd.scaled k nu x i) :
    v k ≠ 0 ∧ -1 / v k * ∑ r ∈ Ico k m, v r * v r = -2 ∧
    ∀ i, k ≤ i → i < m → x i + -1 / v k * (∑ r ∈ Ico k m, v r * x r) * v i = if i = k then -nu else 0 := by
  have e0 : ¬ Flt.eq nu Flt.zero = true := by simp [h0]
  have hk' : v k = x k / nu + 1 := by
    rw [hv k le_rfl hk, Svd.scaled, if_neg e0, if_pos rfl, Exact.add_eq, Exact.div_eq, Exact.one_eq]
  have ht : ∀ i, k < i → i < m → v i = x i / nu := fun i g1 g2 => by
    rw [hv i (by omega) g2, Svd.scaled, if_neg e0, if_neg (by omega), Exact.div_eq]
  have hq : 0 ≤ x k / nu := by
    rcases lt_or_ge (x k) 0 with h | h
    · exact div_nonneg_of_nonpos h.le (hn h)
    · exact div_nonneg h (hp h)
  have hne : v k ≠ 0 := by rw [hk']; exact ne_of_gt (by linarith)
  rw [sum_eq_sum_Ico_succ_bot hk] at h2
  have s1 : ∑ r ∈ Ico (k + 1) m, v r * x r = (∑ r ∈ Ico (k + 1) m, x r * x r) / nu := by
    rw [div_eq_mul_inv, sum_mul]
    refine sum_congr rfl fun r hr => ?_
    have := mem_Ico.1 hr
    rw [ht r (by omega) (by omega)]; ring
  have s2 : ∑ r ∈ Ico (k + 1) m, v r * v r = (∑ r ∈ Ico (k + 1) m, x r * x r) / (nu * nu) := by
    rw [div_eq_mul_inv, sum_mul]
    refine sum_congr rfl fun r hr => ?_
    have := mem_Ico.1 hr
    rw [ht r (by omega) (by omega), div_mul_div_comm, div_eq_mul_inv]
  generalize ∑ r ∈ Ico (k + 1) m, x r * x r = S at *
  have hd : ∑ r ∈ Ico k m, v r * x r = nu * v k := by
    rw [sum_eq_sum_Ico_succ_bot hk, s1, hk']
    field_simp
    linear_combination - h2
  refine ⟨hne, ?_, fun i g1 g2 => ?_⟩
  · have : ∑ r ∈ Ico k m, v r * v r = 2 * v k := by
      rw [sum_eq_sum_Ico_succ_bot hk, s2, hk']
      field_simp
      linear_combination - h2
    rw [this]
    field_simp
  · rw [hd]
    have : -1 / v k * (nu * v k) = -nu := by field_simp
    rw [this]
    by_cases e : i = k
    · rw [if_pos e, e, hk']
      field_simp
      ring
    · rw [if_neg e, ht i (by omega) g2]
      field_simp
      ring

/-- The factor of a reflection. -/
def Svd.beta (a x : K) : K := if a = 0 then 0 else -1 / x

/-- A reflection of the rows from `i0` on that moves column `k` onto the first axis. -/
theorem Svd.hh_left {i0 k : Nat} {v : Nat → K} {β a : K} {f f' : Nat → Nat → K}
    (g2 : ∀ i j, i0 ≤ i → i < m → k < j → j < n → f' i j = f i j + β * (∑ r ∈ Ico i0 m, v r * f r j) * v i)
    (g3 : ∀ i, i0 ≤ i → i < m → f i k + β * (∑ r ∈ Ico i0 m, v r * f r k) * v i = if i = i0 then a else 0)
    {M M' : Nat → Nat → K}
    (h1 : ∀ i j, i0 ≤ i → i < m → k ≤ j → j < n → M i j = f i j)
    (h2 : ∀ i j, i0 ≤ i → i < m → j < k → M i j = 0)
    (h3 : ∀ i j, i < i0 → j < n → M' i j = M i j)
    (h4 : ∀ i j, i0 ≤ i → i < m → j < n →
      M' i j = if j < k then 0 else if j = k then (if i = i0 then a else 0) else f' i j) :
    hh m i0 v β * mx m n M = mx m n M' := by
  rw [hh_mul]
  refine mx_congr fun i j hi' hj => ?_
  by_cases e : i0 ≤ i
  · rw [h4 i j e hi' hj, tl, if_pos e]
    by_cases e1 : j < k
    · rw [if_pos e1, h2 i j e hi' e1, sum_eq_zero]
      · ring
      · intro r hr
        have := mem_Ico.1 hr
        rw [h2 r j this.1 this.2 e1, mul_zero]
    · have hs : ∑ r ∈ Ico i0 m, v r * M r j = ∑ r ∈ Ico i0 m, v r * f r j :=
        sum_congr rfl fun r hr => by
          have := mem_Ico.1 hr
          rw [h1 r j this.1 this.2 (by omega) hj]
      rw [if_neg e1, hs, h1 i j e hi' (by omega) hj]
      by_cases e2 : j = k
      · subst e2
        rw [if_pos rfl]
        exact g3 i e hi'
      · rw [if_neg e2, g2 i j e hi' (by omega) hj]
  · rw [h3 i j (by omega) hj, tl, if_neg e]
    ring

theorem Svd.sq_zero {k m : Nat} {x : Nat → K} (h : (0 : K) = ∑ r ∈ Ico k m, x r * x r) {i : Nat} (h1 : k ≤ i)
    (h2 : i < m) : x i = 0 := by
  have := (sum_eq_zero_iff_of_nonneg fun r _ => mul_self_nonneg (x r)).1 h.symm i (mem_Ico.2 ⟨h1, h2⟩)
  exact mul_self_eq_zero.1 this

theorem Svd.refl_exact {k0 r : Nat} (v x : Nat → K) (i : Nat) : Svd.refl k0 r v x i =
    x i + -1 / v k0 * (∑ r ∈ Ico k0 r, v r * x r) * v i := by
  unfold Svd.refl
  rw [lsum_exact]
  simp only [Exact.add_eq, Exact.mul_eq, Exact.div_eq, Exact.neg_eq, Exact.zero_eq]
  ring

/-- The pass over column `k` as a reflection. -/
theorem Svd.LPass.exact {hyp : K → K → K} (hh : Spec.Hypot hyp) {k : Nat} (hk : k < m) {nu : K}
    {f f1 : Nat → Nat → K} (hnu : nu = Svd.signed (Svd.hsum hyp k (fun i => f i k) (m - k)) (f k k))
    (h : Svd.LPass m n k nu f f1) :
    (-nu ≠ 0 → f1 k k ≠ 0) ∧
    (Svd.beta (-nu) (f1 k k) = 0 ∨ Svd.beta (-nu) (f1 k k) * ∑ r ∈ Ico k m, f1 r k * f1 r k = -2) ∧
    (∀ i j, k ≤ i → i < m → k < j → j < n →
      f1 i j = f i j + Svd.beta (-nu) (f1 k k) * (∑ r ∈ Ico k m, f1 r k * f r j) * f1 i k) ∧
    ∀ i, k ≤ i → i < m → f i k + Svd.beta (-nu) (f1 k k) * (∑ r ∈ Ico k m, f1 r k * f r k) * f1 i k =
      if i = k then -nu else 0 := by
  obtain ⟨q1, q2, q3⟩ := Svd.signed_exact hh hk (fun i => f i k) hnu
  by_cases e : nu = 0
  · have hb : Svd.beta (-nu) (f1 k k) = 0 := if_pos (by rw [e, neg_zero])
    rw [hb]
    refine ⟨fun h => absurd (by rw [e, neg_zero]) h, .inl rfl, fun i j _ _ g3 _ => ?_, fun i g1 g2 => ?_⟩
    · rw [h.skip (by simp [e]) i j g3]; ring
    · rw [e] at q1
      rw [Svd.sq_zero (x := fun i => f i k) (by rw [← q1]; ring) g1 g2, e]
      simp
  · have e' : -nu ≠ 0 := neg_ne_zero.2 e
    have hb : Svd.beta (-nu) (f1 k k) = -1 / f1 k k := if_neg e'
    obtain ⟨r1, r2, r3⟩ := Svd.scaled_exact hk (v := fun r => f1 r k) q1 q2 q3 e h.col
    rw [hb]
    refine ⟨fun _ => r1, .inr r2, fun i j g1 g2 g3 g4 => ?_, r3⟩
    rw [h.cols (by simp [e]) i j g1 g2 g3 g4, Svd.refl_exact]

/-- The pass over row `k` as a reflection. -/
theorem Svd.RPass.exact {hyp : K → K → K} (hh : Spec.Hypot hyp) {k : Nat} (hk : k + 1 < n) {mu : K} {x e' : Nat → K}
    {f f' : Nat → Nat → K} (hmu : mu = Svd.signed (Svd.hsum hyp (k + 1) x (n - (k + 1))) (x (k + 1)))
    (h : Svd.RPass m n k mu x e' f f') :
    (Svd.beta (-mu) (e' (k + 1)) = 0 ∨
      Svd.beta (-mu) (e' (k + 1)) * ∑ r ∈ Ico (k + 1) n, e' r * e' r = -2) ∧
    (∀ i j, k < i → i < m → k < j → j < n →
      f' i j = f i j + Svd.beta (-mu) (e' (k + 1)) * (∑ r ∈ Ico (k + 1) n, e' r * f i r) * e' j) ∧
    ∀ j, k < j → j < n → x j + Svd.beta (-mu) (e' (k + 1)) * (∑ r ∈ Ico (k + 1) n, e' r * x r) * e' j =
      if j = k + 1 then -mu else 0 := by
  obtain ⟨q1, q2, q3⟩ := Svd.signed_exact hh hk x hmu
  by_cases e : mu = 0
  · have hb : Svd.beta (-mu) (e' (k + 1)) = 0 := if_pos (by rw [e, neg_zero])
    rw [hb]
    refine ⟨.inl rfl, fun i j _ _ _ _ => ?_, fun j g1 g2 => ?_⟩
    · rw [h.skip (by simp [e])]; ring
    · rw [e] at q1
      rw [Svd.sq_zero (x := x) (i := j) (by rw [← q1]; ring) g1 g2, e]
      simp
  · have hb : Svd.beta (-mu) (e' (k + 1)) = -1 / e' (k + 1) := if_neg (neg_ne_zero.2 e)
    obtain ⟨r1, r2, r3⟩ := Svd.scaled_exact hk (v := e') q1 q2 q3 e h.row
    rw [hb]
    refine ⟨.inr r2, fun i j g1 g2 g3 g4 => ?_, r3⟩
    rw [h.rows (by simp [e]) i j g1 g2 g3 g4, Svd.reflR, lsum_exact]
    simp only [Exact.add_eq, Exact.mul_eq, Exact.div_eq, Exact.neg_eq, Exact.zero_eq]
    ring

/-! ## The invariant of the reduction -/

/-- Reflection `j` from the left. -/
def Svd.HL (m : Nat) (u : Nat → Nat → K) (s : Nat → K) (j : Nat) : Matrix (Fin m) (Fin m) K :=
  hh m j (fun r => u r j) (Svd.beta (s j) (u j j))

/-- Reflection `j` from the right. -/
def Svd.HR (n : Nat) (v : Nat → Nat → K) (e : Nat → K) (j : Nat) : Matrix (Fin n) (Fin n) K :=
  hh n (j + 1) (fun r => v r j) (Svd.beta (e j) (v (j + 1) j))

/-- What the variables stand for before round `k`. -/
def Svd.M (nrt k : Nat) (f : Nat → Nat → K) (s e : Nat → K) (i j : Nat) : K :=
  if i < k then
    if j = i then s i else if i < nrt then (if j = i + 1 then e i else 0) else if i < j then f i j else 0
  else if j < k then 0 else f i j

/-- The invariant of the reduction. -/
structure Svd.RInv (m n nrt : Nat) (A : Nat → Nat → K) (k : Nat) (f : Nat → Nat → K) (s e : Nat → K)
    (u v : Nat → Nat → K) : Prop where
  prod : mx m n A = hprod m (Svd.HL m u s) k * mx m n (Svd.M nrt k f s e) *
    (hprod n (Svd.HR n v e) (min k nrt))ᵀ
  left : ∀ j, j < k → Svd.HL m u s j * Svd.HL m u s j = 1
  right : ∀ j, j < min k nrt → Svd.HR n v e j * Svd.HR n v e j = 1
  head : ∀ j, j < k → s j ≠ 0 → u j j ≠ 0
  up : ∀ i j, i < j → u i j = 0

theorem Svd.redStep_split (hyp : K → K → K) (nct nrt k : Nat) (w : Svd.Red K m n) :
    Svd.redStep hyp nct nrt k w =
      (Svd.colPass hyp nct k w >>= Svd.colRest nct k >>= Svd.keepU nct k) >>= Svd.rowPass hyp nrt k := by
  unfold Svd.redStep
  simp only [bind_assoc]

theorem Svd.RInv.step {hyp : K → K → K} (hh' : Spec.Hypot hyp) {nct nrt k : Nat} (h : k < nct) (hnct : nct ≤ n)
    (hm : n ≤ m) (hnrt : nrt + 2 ≤ n ∨ nrt = 0) {A : Nat → Nat → K} {w : Svd.Red K m n}
    (hw : Svd.RInv m n nrt A k w.a.f w.s.f w.e.f w.u.f w.v.f) :
    ∃ w', Svd.redStep hyp nct nrt k w = .ok w' ∧ Svd.RInv m n nrt A (k + 1) w'.a.f w'.s.f w'.e.f w'.u.f w'.v.f := by
  have hk : k < m := by omega
  have hkn : k < n := by omega
  rw [Svd.redStep_split]
  obtain ⟨w1, e1, hL, hs, he1, he2, hu1, hu2, hv⟩ := Svd.left_ok hyp h hk hkn w
  rw [e1, ok_bind]
  generalize hnu : Svd.signed (Svd.hsum hyp k (fun i => w.a.f i k) (m - k)) (w.a.f k k) = nu at *
  obtain ⟨g0, g1, g2, g3⟩ := hL.exact hh' hk hnu.symm
  have hsk : w1.s.f k = -nu := by rw [hs, upd1_eq, if_pos rfl, Exact.neg_eq]
  have hsj : ∀ j, j < k → w1.s.f j = w.s.f j := fun j hj => by rw [hs, upd1_eq, if_neg (by omega)]
  have hukk : w1.u.f k k = w1.a.f k k := hu1 k le_rfl hk
  have eL : ∀ j, j < k → Svd.HL m w1.u.f w1.s.f j = Svd.HL m w.u.f w.s.f j := fun j hj => by
    unfold Svd.HL
    rw [show (fun r => w1.u.f r j) = fun r => w.u.f r j from funext fun r => hu2 r j (by omega),
      hu2 j j (by omega), hsj j hj]
  have eLk : Svd.HL m w1.u.f w1.s.f k = hh m k (fun r => w1.a.f r k) (Svd.beta (-nu) (w1.a.f k k)) := by
    unfold Svd.HL
    rw [hsk, hukk]
    exact hh_congr fun i q1 q2 => hu1 i q1 q2
  have sL : Svd.HL m w1.u.f w1.s.f k * Svd.HL m w1.u.f w1.s.f k = 1 := by
    rw [eLk]; exact hh_sq g1
  have hup : ∀ i j, i < j → w1.u.f i j = 0 := fun i j hij => by
    rw [hu2 i j (by omega), hw.up i j hij]
  have hhd : ∀ j, j < k + 1 → w1.s.f j ≠ 0 → w1.u.f j j ≠ 0 := fun j hj hne => by
    by_cases ej : j = k
    · subst ej
      rw [hukk]
      exact g0 (by rw [← hsk]; exact hne)
    · rw [hu2 j j (by omega)]
      exact hw.head j (by omega) (by rw [← hsj j (by omega)]; exact hne)
  have hM1 : Svd.HL m w1.u.f w1.s.f k * mx m n (Svd.M nrt k w.a.f w.s.f w.e.f) = mx m n (fun i j =>
      if i < k then Svd.M nrt k w.a.f w.s.f w.e.f i j else
        if j < k then 0 else if j = k then (if i = k then -nu else 0) else w1.a.f i j) := by
    rw [eLk]
    refine Svd.hh_left (f := w.a.f) (f' := w1.a.f) (k := k) (a := -nu) g2 g3 ?_ ?_ ?_ ?_
    · intro i j h3 h4 h5 h6
      rw [Svd.M, if_neg (by omega), if_neg (by omega)]
    · intro i j h3 h4 h5
      rw [Svd.M, if_neg (by omega), if_pos h5]
    · intro i j h3 h4
      rw [if_pos h3]
    · intro i j h3 h4 h5
      rw [if_neg (by omega)]
  have hlo : ∀ i j, i < k → w1.a.f i j = w.a.f i j := fun i j hi => hL.other i j (.inl hi)
  by_cases hkr : k < nrt
  · obtain ⟨w2, e2, hR, hek, hej, hv1, hv2, hs2, hu3⟩ := Svd.right_ok hyp hkr (by omega) hk w1
    refine ⟨w2, e2, ?_⟩
    generalize hmu : Svd.signed (Svd.hsum hyp (k + 1) w1.e.f (n - (k + 1))) (w1.e.f (k + 1)) = mu at *
    obtain ⟨q1, q2, q3⟩ := hR.exact hh' (by omega) hmu.symm
    rw [hs2, hu3]
    rw [Exact.neg_eq] at hek
    have hejw : ∀ j, j < k → w2.e.f j = w.e.f j := fun j hj => by rw [hej j hj, he2 j (by omega)]
    have eR : ∀ j, j < k → Svd.HR n w2.v.f w2.e.f j = Svd.HR n w.v.f w.e.f j := fun j hj => by
      unfold Svd.HR
      rw [show (fun r => w2.v.f r j) = fun r => w.v.f r j from funext fun r => by
        rw [hv2 r j (by omega), hv], hv2 (j + 1) j (by omega), hv, hejw j hj]
    have eRk : Svd.HR n w2.v.f w2.e.f k = hh n (k + 1) w2.e.f (Svd.beta (-mu) (w2.e.f (k + 1))) := by
      unfold Svd.HR
      rw [hek, hv1 (k + 1) (by omega) (by omega)]
      exact hh_congr fun i p1 p2 => hv1 i (by omega) p2
    have sR : Svd.HR n w2.v.f w2.e.f k * Svd.HR n w2.v.f w2.e.f k = 1 := by
      rw [eRk]; exact hh_sq q1
    have hx : ∀ j, k < j → j < n → w1.e.f j = w1.a.f k j := he1
    have hsx : ∑ r ∈ Ico (k + 1) n, w2.e.f r * w1.e.f r = ∑ r ∈ Ico (k + 1) n, w2.e.f r * w1.a.f k r :=
      sum_congr rfl fun r hr => by
        have := mem_Ico.1 hr
        rw [hx r (by omega) (by omega)]
    have hM2 : Svd.HL m w1.u.f w1.s.f k * mx m n (Svd.M nrt k w.a.f w.s.f w.e.f) * Svd.HR n w2.v.f w2.e.f k =
        mx m n (Svd.M nrt (k + 1) w2.a.f w1.s.f w2.e.f) := by
      rw [hM1, ← Matrix.transpose_inj, Matrix.transpose_mul, eRk, hh_transpose, mx_transpose, mx_transpose]
      refine Svd.hh_left (m := n) (n := m) (i0 := k + 1) (k := k) (f := fun j i => w1.a.f i j)
        (f' := fun j i => w2.a.f i j) (a := -mu) (fun j i p1 p2 p3 p4 => q2 i j p3 p4 p1 p2)
        (fun j p1 p2 => by rw [← q3 j (by omega) p2, hsx, hx j (by omega) p2]) ?_ ?_ ?_ ?_
      · intro i j h3 h4 h5 h6
        rw [if_neg (by omega), if_neg (by omega), if_neg (by omega)]
      · intro i j h3 h4 h5
        rw [if_pos h5, Svd.M, if_pos h5, if_neg (by omega), if_pos (by omega), if_neg (by omega)]
      · intro i j h3 h4
        have p1 := hsj
        have p2 := hejw
        unfold Svd.M
        split_ifs with c1 c2 c3 c4 c5 c6 c7 <;>
          first
            | rfl
            | (exfalso; omega)
            | rw [p1 _ (by omega)]
            | rw [p2 _ (by omega)]
            | (subst_vars; exact hsk)
      · intro i j h3 h4 h5
        have p1 := hsj
        have p2 := hejw
        unfold Svd.M
        split_ifs <;>
          first
            | rfl
            | (exfalso; omega)
            | (subst_vars; exact hek)
    have hp := hw.prod
    rw [show min k nrt = k by omega] at hp
    refine ⟨?_, ?_, ?_, hhd, hup⟩
    · rw [show min (k + 1) nrt = k + 1 by omega, hprod, hprod, hprod_congr eL, hprod_congr eR, ← hM2,
        Matrix.transpose_mul, show (Svd.HR n w2.v.f w2.e.f k)ᵀ = Svd.HR n w2.v.f w2.e.f k from hh_transpose _ _ _ _,
        hp]
      simp only [Matrix.mul_assoc]
      rw [← Matrix.mul_assoc (Svd.HR n w2.v.f w2.e.f k) (Svd.HR n w2.v.f w2.e.f k), sR, Matrix.one_mul,
        ← Matrix.mul_assoc (Svd.HL m w1.u.f w1.s.f k) (Svd.HL m w1.u.f w1.s.f k), sL, Matrix.one_mul]
    · intro j hj
      by_cases e : j = k
      · rw [e]; exact sL
      · rw [eL j (by omega)]; exact hw.left j (by omega)
    · intro j hj
      by_cases e : j = k
      · rw [e]; exact sR
      · rw [eR j (by omega)]; exact hw.right j (by omega)
  · have e2 : Svd.rowPass hyp nrt k w1 = .ok w1 := by
      unfold Svd.rowPass; rw [if_neg hkr]; rfl
    refine ⟨w1, e2, ?_⟩
    have eR : ∀ j, j < nrt → Svd.HR n w1.v.f w1.e.f j = Svd.HR n w.v.f w.e.f j := fun j hj => by
      unfold Svd.HR
      rw [hv, he2 j (by omega)]
    have hM2 : mx m n (fun i j =>
        if i < k then Svd.M nrt k w.a.f w.s.f w.e.f i j else
          if j < k then 0 else if j = k then (if i = k then -nu else 0) else w1.a.f i j) =
        mx m n (Svd.M nrt (k + 1) w1.a.f w1.s.f w1.e.f) := by
      refine mx_congr fun i j hi hj => ?_
      have p1 := hsj
      have p2 := fun j (hj : j < k) => he2 j (by omega)
      unfold Svd.M
      split_ifs <;>
        first
          | rfl
          | (exfalso; omega)
          | rw [p1 _ (by omega)]
          | rw [p2 _ (by omega)]
          | rw [hlo _ _ (by omega)]
          | (subst_vars; exact hsk.symm)
    have hp := hw.prod
    rw [show min k nrt = nrt by omega] at hp
    refine ⟨?_, ?_, ?_, hhd, hup⟩
    · rw [show min (k + 1) nrt = nrt by omega, hprod, hprod_congr eL, hprod_congr eR, ← hM2, ← hM1, hp]
      simp only [Matrix.mul_assoc]
      rw [← Matrix.mul_assoc (Svd.HL m w1.u.f w1.s.f k) (Svd.HL m w1.u.f w1.s.f k), sL, Matrix.one_mul]
    · intro j hj
      by_cases e : j = k
      · rw [e]; exact sL
      · rw [eL j (by omega)]; exact hw.left j (by omega)
    · intro j hj
      rw [eR j (by omega)]; exact hw.right j (by omega)

/-! ## The generation of the factors -/

/-- Unit vectors before column `k`. -/
def Svd.P (k : Nat) (u : Nat → Nat → K) (i j : Nat) : K := if j < k then (if i = j then 1 else 0) else u i j

theorem Svd.P_lo {k : Nat} {u : Nat → Nat → K} {i j : Nat} (h : j < k) :
    Svd.P k u i j = if i = j then 1 else 0 := if_pos h

theorem Svd.P_hi {k : Nat} {u : Nat → Nat → K} {i j : Nat} (h : ¬ j < k) : Svd.P k u i j = u i j := if_neg h

/-- The first `n` columns of the identity. -/
def Svd.I (m n : Nat) : Matrix (Fin m) (Fin n) K := mx m n fun i j => if i = j then 1 else 0

/-- A sum against a unit vector. -/
theorem Svd.sum_unit {k0 m : Nat} (v : Nat → K) (j : Nat) (hj : j < m) :
    ∑ r ∈ Ico k0 m, v r * (if r = j then (1 : K) else 0) = if k0 ≤ j then v j else 0 := by
  by_cases h : k0 ≤ j
  · rw [if_pos h, sum_eq_single j]
    · rw [if_pos rfl, mul_one]
    · intro r _ hr
      rw [if_neg hr, mul_zero]
    · intro h'
      exact absurd (mem_Ico.2 ⟨h, hj⟩) h'
  · rw [if_neg h]
    refine sum_eq_zero fun r hr => ?_
    have := mem_Ico.1 hr
    rw [if_neg (by omega), mul_zero]

theorem Svd.unit_exact (j i : Nat) : Svd.unit K j i = if i = j then 1 else 0 := by
  unfold Svd.unit
  rw [Exact.one_eq, Exact.zero_eq]

theorem Svd.genU_exact {nct : Nat} (hnct : nct ≤ n) (hm : n ≤ m) (s : Row K n) (u : Tab K m n)
    (hup : ∀ i j, i < j → u.f i j = 0) (hhd : ∀ j, j < nct → s.f j ≠ 0 → u.f j j ≠ 0) :
    ∃ u', Svd.genU nct s u = .ok u' ∧ mx m n u'.f = hprod m (Svd.HL m u.f s.f) nct * Svd.I m n := by
  unfold Svd.genU
  obtain ⟨u1, e1, h1, h2⟩ := Wp.exists_ok (wp_forUp (ε := Fault) (a := nct) (b := n)
    (body := fun j => Svd.unitCol j) (s := u) (E := fun _ => False)
    (fun b (t : Tab K m n) => (∀ i j, i < m → nct ≤ j → j < b → t.f i j = if i = j then 1 else 0) ∧
      ∀ i j, j < nct → t.f i j = u.f i j) hnct ⟨fun i j _ g1 g2 => by omega, fun _ _ _ => rfl⟩
    (fun j t g1 g2 ⟨g3, g4⟩ => by
      obtain ⟨t', e, q1, q2⟩ := Svd.unitCol_ok (show j < m by omega) g2 t
      refine wp_of_eq_ok e ⟨fun i y hi h1 h2 => ?_, fun i y hy => ?_⟩
      · by_cases ey : y = j
        · rw [ey, q1 i hi, Svd.unit_exact]
        · rw [q2 i y ey, g3 i y hi h1 (by omega)]
      · rw [q2 i y (by omega), g4 i y hy]))
  rw [e1, ok_bind]
  obtain ⟨u', e2, h3, -, -⟩ := Wp.exists_ok (wp_forDown (ε := Fault) (a := nct) (b := 0)
    (body := Svd.genUStep s) (s := u1) (E := fun _ => False)
    (fun k (t : Tab K m n) => mx m n (Svd.P k t.f) = hfrom m (Svd.HL m u.f s.f) k nct * Svd.I m n ∧
      (∀ i j, j < k → t.f i j = u.f i j) ∧ ∀ i j, i < k → k ≤ j → j < n → t.f i j = 0) (Nat.zero_le _)
    ⟨by
      rw [hfrom_self, Matrix.one_mul]
      refine mx_congr fun i j hi hj => ?_
      unfold Svd.P
      split_ifs with c1 c2 c2
      · rfl
      · rfl
      · rw [h1 i j hi (by omega) hj, if_pos c2]
      · rw [h1 i j hi (by omega) hj, if_neg c2],
     h2, fun i j g1 g2 g3 => by rw [h1 i j (by omega) g2 g3, if_neg (by omega)]⟩
    (fun k t g1 g2 ⟨g3, g4, g5⟩ => by
      obtain ⟨t', e, q1, q2, q3⟩ := Svd.genUStep_ok (show k < m by omega) (show k < n by omega) s t
        (fun hk => by rw [g4 _ _ (by omega), hup _ _ (by omega), Exact.zero_eq])
      refine wp_of_eq_ok e ⟨?_, fun i j hj => by rw [q3 i j hj, g4 i j (by omega)], fun i j p1 p2 p3 => ?_⟩
      · rw [hfrom_step _ (by omega), Matrix.mul_assoc, ← g3, Svd.HL, hh_mul]
        refine mx_congr fun i j hi hj => ?_
        have hv : ∀ r, u.f r k = t.f r k := fun r => (g4 r k (by omega)).symm
        simp only [hv]
        by_cases c1 : j < k
        · rw [Svd.P_lo c1, Svd.P_lo (show j < k + 1 by omega), sum_congr rfl (g := fun r => t.f r k *
            (if r = j then (1 : K) else 0)) fun r _ => by rw [Svd.P_lo (by omega)],
            Svd.sum_unit _ _ (by omega), if_neg (show ¬ k ≤ j by omega)]
          ring
        · by_cases c2 : j = k
          · subst c2
            rw [Svd.P_hi c1, Svd.P_lo (by omega), sum_congr rfl (g := fun r => t.f r j *
              (if r = j then (1 : K) else 0)) fun r _ => by rw [Svd.P_lo (by omega)],
              Svd.sum_unit _ _ (by omega), if_pos le_rfl]
            by_cases hs : s.f j = 0
            · rw [Svd.beta, if_pos hs, (q2 (by simp [hs])).2 i hi, Svd.unit_exact]
              ring
            · obtain ⟨-, -, r3, r4, r5⟩ := q1 (by simp [hs])
              have hne : t.f j j ≠ 0 := by rw [← hv]; exact hhd j (by omega) hs
              rw [Svd.beta, if_neg hs, show -1 / t.f j j * t.f j j = -1 by field_simp, tl]
              rcases lt_trichotomy i j with c | c | c
              · rw [r5 i c, if_neg (by omega), if_neg (by omega), Exact.zero_eq]; ring
              · subst c
                rw [r4, if_pos rfl, if_pos le_rfl, Exact.add_eq, Exact.one_eq, Exact.neg_eq]; ring
              · rw [r3 i c hi, if_neg (by omega), if_pos (by omega), Exact.neg_eq]; ring
          · rw [Svd.P_hi c1, Svd.P_hi (show ¬ j < k + 1 by omega), sum_congr rfl (g := fun r => t.f r k * t.f r j)
              fun r _ => by rw [Svd.P_hi (by omega)]]
            by_cases hs : s.f k = 0
            · rw [Svd.beta, if_pos hs, (q2 (by simp [hs])).1 i j (by omega)]
              ring
            · obtain ⟨r1, r2, -, -, -⟩ := q1 (by simp [hs])
              rw [Svd.beta, if_neg hs, tl]
              by_cases c : k ≤ i
              · rw [r1 i j c hi (by omega) hj, Svd.refl_exact, if_pos c]
              · rw [r2 i j (by omega) (by omega), if_neg c]; ring
      · by_cases hs : s.f k = 0
        · obtain ⟨r1, r2⟩ := q2 (by simp [hs])
          by_cases c : j = k
          · rw [c, r2 i (by omega), Svd.unit_exact, if_neg (by omega)]
          · rw [r1 i j (by omega), g5 i j (by omega) (by omega) p3]
        · obtain ⟨-, r2, -, -, r5⟩ := q1 (by simp [hs])
          by_cases c : j = k
          · rw [c, r5 i p1, Exact.zero_eq]
          · rw [r2 i j p1 (by omega), g5 i j (by omega) (by omega) p3]))
  refine ⟨u', e2, ?_⟩
  rw [hfrom_zero] at h3
  rw [← h3]
  exact mx_congr fun i j _ _ => by rw [Svd.P_hi (by omega)]

theorem Svd.genV_exact {nrt : Nat} (hr : nrt < n) (e : Row K n) (v : Tab K n n) :
    ∃ v', Svd.genV nrt e v = .ok v' ∧ mx n n v'.f = hprod n (Svd.HR n v.f e.f) nrt := by
  unfold Svd.genV
  obtain ⟨v', e2, h3, -⟩ := Wp.exists_ok (wp_forDown (ε := Fault) (a := n) (b := 0)
    (body := Svd.genVStep nrt e) (s := v) (E := fun _ => False)
    (fun k (t : Tab K n n) => mx n n (Svd.P k t.f) = hfrom n (Svd.HR n v.f e.f) k nrt ∧
      (∀ i j, j < k → t.f i j = v.f i j)) (Nat.zero_le _)
    ⟨by
      rw [hfrom, show nrt - n = 0 by omega, hprod, ← mx_one]
      exact mx_congr fun i j hi hj => by rw [Svd.P, if_pos hj],
     fun _ _ _ => rfl⟩
    (fun k t g1 g2 ⟨g3, g4⟩ => by
      obtain ⟨t', e', q1, q2, q3, q4⟩ := Svd.genVStep_ok g2 hr e t
      refine wp_of_eq_ok e' ⟨?_, fun i j hj => by rw [q4 i j hj, g4 i j (by omega)]⟩
      by_cases hk : k < nrt
      · rw [hfrom_step _ hk, ← g3, Svd.HR, hh_mul]
        refine mx_congr fun i j hi hj => ?_
        have hv : ∀ r, v.f r k = t.f r k := fun r => (g4 r k (by omega)).symm
        simp only [hv]
        by_cases c1 : j < k
        · rw [Svd.P_lo c1, Svd.P_lo (show j < k + 1 by omega), sum_congr rfl (g := fun r => t.f r k *
            (if r = j then (1 : K) else 0)) fun r _ => by rw [Svd.P_lo (by omega)],
            Svd.sum_unit _ _ (by omega), if_neg (show ¬ k + 1 ≤ j by omega)]
          ring
        · by_cases c2 : j = k
          · subst c2
            rw [Svd.P_hi c1, Svd.P_lo (by omega), sum_congr rfl (g := fun r => t.f r j *
              (if r = j then (1 : K) else 0)) fun r _ => by rw [Svd.P_lo (by omega)],
              Svd.sum_unit _ _ (by omega), if_neg (show ¬ j + 1 ≤ j by omega), q3 i hi, Svd.unit_exact]
            ring
          · rw [Svd.P_hi c1, Svd.P_hi (show ¬ j < k + 1 by omega), sum_congr rfl (g := fun r => t.f r k * t.f r j)
              fun r _ => by rw [Svd.P_hi (by omega)]]
            by_cases hs : e.f k = 0
            · rw [Svd.beta, if_pos hs, q2 (by simp [hs]) i j (by omega)]
              ring
            · obtain ⟨r1, r2⟩ := q1 ⟨hk, by simp [hs]⟩
              rw [Svd.beta, if_neg hs, tl]
              by_cases c : k + 1 ≤ i
              · rw [r1 i j c hi (by omega) hj, Svd.refl_exact, if_pos c]
              · rw [r2 i j (by omega) (by omega), if_neg c]; ring
      · have : hfrom n (Svd.HR n v.f e.f) k nrt = hfrom n (Svd.HR n v.f e.f) (k + 1) nrt := by
          rw [hfrom, hfrom, show nrt - k = 0 by omega, show nrt - (k + 1) = 0 by omega]
          rfl
        rw [this, ← g3]
        refine mx_congr fun i j hi hj => ?_
        by_cases c1 : j < k
        · rw [Svd.P_lo c1, Svd.P_lo (show j < k + 1 by omega)]
        · by_cases c2 : j = k
          · rw [Svd.P_hi c1, Svd.P_lo (by omega), c2, q3 i hi, Svd.unit_exact]
          · rw [Svd.P_hi c1, Svd.P_hi (show ¬ j < k + 1 by omega), q2 (by omega) i j (by omega)]))
  refine ⟨v', e2, ?_⟩
  rw [hfrom_zero] at h3
  rw [← h3]
  exact mx_congr fun i j _ _ => by rw [Svd.P_hi (by omega)]

/-- The bidiagonal form with its factors. -/
theorem Svd.reduce_exact {hyp : K → K → K} (hh' : Spec.Hypot hyp) (hn : 0 < n) (hm : n ≤ m) (a : Tab K m n) :
    ∃ x, Svd.reduce hyp a = .ok x ∧
      mx m n a.f = mx m n x.u.f * mx n n (Bi.bEnt x.s.f x.e.f) * (mx n n x.v.f)ᵀ ∧
      (mx m n x.u.f)ᵀ * mx m n x.u.f = 1 ∧ (mx n n x.v.f)ᵀ * mx n n x.v.f = 1 ∧ x.e.f (n - 1) = 0 := by
  unfold Svd.reduce
  rw [show max (min (m - 1) n) (n - 2) = min (m - 1) n by omega]
  generalize hnct : min (m - 1) n = nct
  generalize hnrt : n - 2 = nrt
  obtain ⟨w, e1, hw⟩ := Wp.exists_ok (wp_forUp (ε := Fault) (a := 0) (b := nct)
    (body := Svd.redStep hyp nct nrt) (s := ⟨a, Row.zero n, Row.zero n, Jag.zero m _, Jag.zero n _⟩)
    (E := fun _ => False)
    (fun k (w : Svd.Red K m n) => Svd.RInv m n nrt a.f k w.a.f w.s.f w.e.f w.u.f w.v.f) (Nat.zero_le _)
    (by
      refine ⟨?_, fun j h => by omega, fun j h => by omega, fun j h => by omega, fun i j _ => Exact.zero_eq⟩
      rw [Nat.zero_min, hprod, hprod, Matrix.one_mul, Matrix.transpose_one, Matrix.mul_one]
      exact mx_congr fun i j hi hj => by rw [Svd.M, if_neg (by omega), if_neg (by omega)])
    (fun k w _ g2 hw => by
      obtain ⟨w', e, hw'⟩ := hw.step hh' g2 (by omega) hm (by omega)
      exact wp_of_eq_ok e hw'))
  rw [e1, ok_bind, Svd.lastEntries_ok hn hm, ok_bind]
  dsimp only
  generalize hs : (if nct < n then upd1 w.s.f nct (w.a.f nct nct) else w.s.f) = s
  generalize he : upd1 (if nrt + 1 < n then upd1 w.e.f nrt (w.a.f nrt (n - 1)) else w.e.f) (n - 1) Flt.zero = e
  have hsj : ∀ j, j < nct → s j = w.s.f j := fun j hj => by
    rw [← hs]
    split_ifs
    · rw [upd1_eq, if_neg (by omega)]
    · rfl
  have hsn : nct < n → s nct = w.a.f nct nct := fun h => by rw [← hs, if_pos h, upd1_eq, if_pos rfl]
  have hej : ∀ j, j < nrt → e j = w.e.f j := fun j hj => by
    rw [← he, upd1_eq, if_neg (by omega)]
    split_ifs
    · rw [upd1_eq, if_neg (by omega)]
    · rfl
  have hen : nrt + 1 < n → e nrt = w.a.f nrt (n - 1) := fun h => by
    rw [← he, upd1_eq, if_neg (by omega), if_pos h, upd1_eq, if_pos rfl]
  have hez : e (n - 1) = 0 := by rw [← he, upd1_eq, if_pos rfl, Exact.zero_eq]
  obtain ⟨u, e2, hu⟩ := Svd.genU_exact (show nct ≤ n by omega) hm ⟨s⟩ w.u hw.up
    (fun j hj hne => hw.head j hj (by rw [← hsj j hj]; exact hne))
  rw [e2, ok_bind]
  obtain ⟨v, e3, hv⟩ := Svd.genV_exact (show nrt < n by omega) ⟨e⟩ w.v
  rw [e3, ok_bind]
  dsimp only at hu hv
  have eL : ∀ j, j < nct → Svd.HL m w.u.f s j = Svd.HL m w.u.f w.s.f j := fun j hj => by
    unfold Svd.HL; rw [hsj j hj]
  have eR : ∀ j, j < nrt → Svd.HR n w.v.f e j = Svd.HR n w.v.f w.e.f j := fun j hj => by
    unfold Svd.HR; rw [hej j hj]
  rw [hprod_congr eL] at hu
  rw [hprod_congr eR] at hv
  have hp := hw.prod
  have hr := hw.right
  rw [show min nct nrt = nrt by omega] at hp hr
  have oL := hprod_orth' (m := m) (H := Svd.HL m w.u.f w.s.f) (k := nct) (fun j _ => hh_transpose _ _ _ _) hw.left
  have oR := hprod_orth' (m := n) (H := Svd.HR n w.v.f w.e.f) (k := nrt) (fun j _ => hh_transpose _ _ _ _) hr
  have hB : mx m n (Svd.M nrt nct w.a.f w.s.f w.e.f) = Svd.I m n * mx n n (Bi.bEnt s e) := by
    unfold Svd.I
    rw [mx_mul]
    refine mx_congr fun i j hi hj => ?_
    have hsum : ∑ k ∈ range n, (if i = k then (1 : K) else 0) * Bi.bEnt s e k j =
        if i < n then Bi.bEnt s e i j else 0 := by
      by_cases c : i < n
      · rw [if_pos c, sum_eq_single i]
        · rw [if_pos rfl, one_mul]
        · intro k _ hk
          rw [if_neg (Ne.symm hk), zero_mul]
        · intro h
          exact absurd (mem_range.2 c) h
      · rw [if_neg c]
        refine sum_eq_zero fun k hk => ?_
        have := mem_range.1 hk
        rw [if_neg (by omega), zero_mul]
    rw [hsum]
    unfold Svd.M Bi.bEnt
    rw [Exact.zero_eq]
    split_ifs <;>
      first
        | rfl
        | (exfalso; omega)
        | rw [hsj _ (by omega)]
        | rw [hej _ (by omega)]
        | (obtain rfl : i = nrt := by omega
           obtain rfl : j = n - 1 := by omega
           exact (hen (by omega)).symm)
        | (obtain rfl : i = nct := by omega
           obtain rfl : j = i := by omega
           exact (hsn (by omega)).symm)
  have hII : (Svd.I (K := K) m n)ᵀ * Svd.I (K := K) m n = 1 := by
    unfold Svd.I
    rw [mx_transpose, mx_mul, ← mx_one]
    refine mx_congr fun i j hi hj => ?_
    rw [sum_eq_single i]
    · rw [if_pos rfl, one_mul]
    · intro k _ hk
      rw [if_neg hk, zero_mul]
    · intro h
      exact absurd (mem_range.2 (by omega)) h
  refine ⟨_, rfl, ?_, ?_, ?_, hez⟩
  · dsimp only
    rw [hu, hv, hp, hB, Matrix.mul_assoc, Matrix.mul_assoc, Matrix.mul_assoc, Matrix.mul_assoc]
  · dsimp only
    rw [hu, Matrix.transpose_mul, Matrix.mul_assoc,
      ← Matrix.mul_assoc (hprod m (Svd.HL m w.u.f w.s.f) nct)ᵀ, oL, Matrix.one_mul, hII]
  · dsimp only
    rw [hv, oR]

end Linear
