import Verif.Lemmas.EigenLemmas
import Verif.Lemmas.SchurExact
import Mathlib.Tactic.LinearCombination

/-!
# The symmetric eigen decomposition in exact arithmetic
-/

set_option linter.unusedSectionVars false

namespace Linear

open Spec Finset Matrix

variable {K : Type} [Field K] [LinearOrder K] [IsStrictOrderedRing K] [Flt K] [Exact K] [ExactSqrt K]
variable {n : Nat}

theorem Eig.rz_exact (i : Nat) (s c : K) (u : Nat → K) (y : Nat) : Eig.rz i s c u y =
    if y = i then c * u i - s * u (i + 1) else if y = i + 1 then s * u i + c * u (i + 1) else u y := by
  unfold Eig.rz
  simp only [Exact.sub_eq, Exact.mul_eq, Exact.add_eq]

/-- The rotation as a matrix. -/
def Eig.G (n i : Nat) (s c : K) : Matrix (Fin n) (Fin n) K :=
  mx n n fun a b => Eig.rz i s c (fun k => if a = k then 1 else 0) b

theorem Eig.mul_G {i : Nat} (hi : i + 1 < n) (s c : K) (f : Nat → Nat → K) :
    mx n n f * Eig.G n i s c = mx n n fun a b => Eig.rz i s c (f a) b := by
  unfold Eig.G
  rw [mx_mul]
  refine mx_congr fun a b ha hb => ?_
  simp only [Eig.rz_exact]
  have key : ∀ y, y < n → ∑ k ∈ range n, f a k * (if k = y then 1 else 0) = f a y := by
    intro y hy
    rw [Finset.sum_eq_single y (fun k _ hk => by rw [if_neg hk, mul_zero])
      (fun h => absurd (mem_range.2 hy) h), if_pos rfl, mul_one]
  split
  · rw [sum_congr rfl fun k _ => show f a k * (c * (if k = i then 1 else 0) - s * (if k = i + 1 then 1 else 0)) =
      c * (f a k * (if k = i then 1 else 0)) - s * (f a k * (if k = i + 1 then 1 else 0)) by ring,
      sum_sub_distrib, ← mul_sum, ← mul_sum, key i (by omega), key (i + 1) hi]
  · split
    · rw [sum_congr rfl fun k _ => show f a k * (s * (if k = i then 1 else 0) + c * (if k = i + 1 then 1 else 0)) =
        s * (f a k * (if k = i then 1 else 0)) + c * (f a k * (if k = i + 1 then 1 else 0)) by ring,
        sum_add_distrib, ← mul_sum, ← mul_sum, key i (by omega), key (i + 1) hi]
    · exact key b hb

theorem Eig.G_orth {i : Nat} (hi : i + 1 < n) {s c : K} (h : s * s + c * c = 1) :
    Eig.G n i s c * (Eig.G n i s c)ᵀ = 1 := by
  have h1 := Schur.rot_orth (n := n) (k := i) (p := -s) (q := c) (by linear_combination h) hi
    (f := fun a k => if a = k then 1 else 0) (g := fun a b => Eig.rz i s c (fun k => if a = k then 1 else 0) b)
    (fun a b _ _ => by
      dsimp only
      rw [Eig.rz_exact, Schur.rotV_exact]
      split_ifs <;> first | omega | ring)
  unfold Eig.G
  rw [h1, mx_one, Matrix.transpose_one, Matrix.mul_one]

theorem Eig.G_conj {i : Nat} (hi : i + 1 < n) (s c : K) (f : Nat → Nat → K) :
    (Eig.G n i s c)ᵀ * mx n n f * Eig.G n i s c =
      mx n n fun a b => Eig.rz i s c (fun k => Eig.rz i s c (f k) b) a := by
  rw [Matrix.mul_assoc, Eig.mul_G hi, ← Matrix.transpose_transpose (_ * _), Matrix.transpose_mul,
    Matrix.transpose_transpose, mx_transpose, Eig.mul_G hi, mx_transpose]

/-- A rotation of the vectors together with the conjugated matrix leaves the product as it is. -/
theorem Eig.conj_step {i : Nat} (hi : i + 1 < n) {s c : K} (h : s * s + c * c = 1) {z z' B B' : Nat → Nat → K}
    (hz : ∀ a b, a < n → b < n → z' a b = Eig.rz i s c (z a) b)
    (hB : ∀ a b, a < n → b < n → B' a b = Eig.rz i s c (fun k => Eig.rz i s c (B k) b) a) :
    mx n n z' * mx n n B' * (mx n n z')ᵀ = mx n n z * mx n n B * (mx n n z)ᵀ ∧
      mx n n z' * (mx n n z')ᵀ = mx n n z * (mx n n z)ᵀ := by
  have e1 : mx n n z' = mx n n z * Eig.G n i s c := by
    rw [Eig.mul_G hi]
    exact mx_congr hz
  have e2 : mx n n B' = (Eig.G n i s c)ᵀ * mx n n B * Eig.G n i s c := by
    rw [Eig.G_conj hi]
    exact mx_congr hB
  have hG := Eig.G_orth (n := n) hi h
  rw [e1, e2, Matrix.transpose_mul]
  constructor
  · calc mx n n z * Eig.G n i s c * ((Eig.G n i s c)ᵀ * mx n n B * Eig.G n i s c) *
        ((Eig.G n i s c)ᵀ * (mx n n z)ᵀ) = mx n n z * (Eig.G n i s c * (Eig.G n i s c)ᵀ) * mx n n B *
          (Eig.G n i s c * (Eig.G n i s c)ᵀ) * (mx n n z)ᵀ := by simp only [Matrix.mul_assoc]
      _ = _ := by rw [hG, Matrix.mul_one, Matrix.mul_one]
  · calc mx n n z * Eig.G n i s c * ((Eig.G n i s c)ᵀ * (mx n n z)ᵀ) =
        mx n n z * (Eig.G n i s c * (Eig.G n i s c)ᵀ) * (mx n n z)ᵀ := by simp only [Matrix.mul_assoc]
      _ = _ := by rw [hG, Matrix.mul_one]

/-! ## The matrix in the middle of a sweep -/

/-- The upper half: `x` is the row that carries `u`; above it the bulge `s * e[x-1]`; the entry that joins rows
`m` and `m + 1` is zero, whatever `e[m]` holds. -/
def Eig.bU (m x : Nat) (d e : Nat → K) (q u s c : K) (a b : Nat) : K :=
  if a = b then (if a = x then d x - u else d a)
  else if b = a + 1 then (if a = m then 0 else if a = x then q else if b = x then c * e a else e a)
  else if b = a + 2 ∧ a + 1 = x ∧ x < m then s * e a
  else 0

/-- The symmetric matrix with that upper half. -/
def Eig.bM (m x : Nat) (d e : Nat → K) (q u s c : K) (a b : Nat) : K :=
  if a ≤ b then Eig.bU m x d e q u s c a b else Eig.bU m x d e q u s c b a

theorem Eig.bM_symm (m x : Nat) (d e : Nat → K) (q u s c : K) (a b : Nat) :
    Eig.bM m x d e q u s c a b = Eig.bM m x d e q u s c b a := by
  unfold Eig.bM
  rcases lt_trichotomy a b with h | h | h
  · rw [if_pos (by omega), if_neg (by omega)]
  · subst h; rfl
  · rw [if_neg (by omega), if_pos (by omega)]

theorem Eig.rz_symm (i : Nat) (s c : K) (B : Nat → Nat → K) (hB : ∀ a b, B a b = B b a) (a b : Nat) :
    Eig.rz i s c (fun k => Eig.rz i s c (B k) b) a = Eig.rz i s c (fun k => Eig.rz i s c (B k) a) b := by
  simp only [Eig.rz_exact]
  have h01 := hB (i + 1) i
  split_ifs <;> first
    | (subst_vars; rfl)
    | (subst_vars; rw [h01]; ring)
    | (rw [hB b i, hB b (i + 1)])
    | (rw [hB i b, hB (i + 1) b])
    | (rw [hB a i, hB a (i + 1)])
    | exact hB a b

/-- The next matrix of the sweep is the conjugated one. -/
theorem Eig.bM_step {m i : Nat} (him : i + 1 ≤ m) {d e : Nat → K} {q u s c p r s' c' t : K} (hp : p = s * e i)
    (hsp : s' * r = p) (hcq : c' * r = q) (h1 : s' * s' + c' * c' = 1)
    (ht : t = (d i - (d (i + 1) - u)) * s' + 2 * c' * (c * e i)) (a b : Nat) :
    Eig.bM m i (upd1 d (i + 1) (d (i + 1) - u + s' * t)) (upd1 e (i + 1) r) (c' * t - c * e i) (s' * t) s' c' a b =
      Eig.rz i s' c' (fun k => Eig.rz i s' c' (Eig.bM m (i + 1) d e q u s c k) b) a := by
  wlog hab : a ≤ b generalizing a b with H
  · rw [Eig.bM_symm, H b a (by omega), Eig.rz_symm _ _ _ _ fun a b => Eig.bM_symm _ _ _ _ _ _ _ _ a b]
  have e0 : ∀ y, y ≠ i + 1 → upd1 e (i + 1) r y = e y := fun y hy => by rw [upd1_eq, if_neg hy]
  have d0 : ∀ y, y ≠ i + 1 → upd1 d (i + 1) (d (i + 1) - u + s' * t) y = d y := fun y hy => by
    rw [upd1_eq, if_neg hy]
  have e1 : upd1 e (i + 1) r (i + 1) = r := by rw [upd1_eq, if_pos rfl]
  have d1 : upd1 d (i + 1) (d (i + 1) - u + s' * t) (i + 1) = d (i + 1) - u + s' * t := by rw [upd1_eq, if_pos rfl]
  generalize upd1 e (i + 1) r = e' at *
  generalize upd1 d (i + 1) (d (i + 1) - u + s' * t) = d' at *
  simp only [Eig.rz_exact]
  have L : Eig.bM m i d' e' (c' * t - c * e i) (s' * t) s' c' a b =
    Eig.bU m i d' e' (c' * t - c * e i) (s' * t) s' c' a b := if_pos hab
  rw [L]
  have B1 : Eig.bM m (i + 1) d e q u s c i i = d i := by
    unfold Eig.bM Eig.bU
    rw [if_pos (le_refl _), if_pos rfl, if_neg (by omega)]
  have B2 : Eig.bM m (i + 1) d e q u s c i (i + 1) = c * e i := by
    unfold Eig.bM Eig.bU
    rw [if_pos (by omega), if_neg (by omega), if_pos rfl, if_neg (by omega), if_neg (by omega), if_pos rfl]
  have B3 : Eig.bM m (i + 1) d e q u s c (i + 1) (i + 1) = d (i + 1) - u := by
    unfold Eig.bM Eig.bU
    rw [if_pos (le_refl _), if_pos rfl, if_pos rfl]
  have B2' : Eig.bM m (i + 1) d e q u s c (i + 1) i = c * e i := by rw [Eig.bM_symm, B2]
  have B4 : ∀ a, a < i → Eig.bM m (i + 1) d e q u s c a i = if a + 1 = i then e a else 0 := by
    intro a ha
    unfold Eig.bM Eig.bU
    rw [if_pos (by omega), if_neg (by omega)]
    split_ifs <;> first | omega | rfl
  have B5 : ∀ a, a < i → Eig.bM m (i + 1) d e q u s c a (i + 1) = 0 := by
    intro a ha
    unfold Eig.bM Eig.bU
    rw [if_pos (by omega), if_neg (by omega), if_neg (by omega), if_neg (by omega)]
  have B6 : ∀ b, i + 2 ≤ b → Eig.bM m (i + 1) d e q u s c i b = if b = i + 2 ∧ i + 1 < m then s * e i else 0 := by
    intro b hb
    unfold Eig.bM Eig.bU
    rw [if_pos (by omega), if_neg (by omega), if_neg (by omega)]
    split_ifs <;> first | omega | rfl
  have B7 : ∀ b, i + 2 ≤ b → Eig.bM m (i + 1) d e q u s c (i + 1) b =
      if b = i + 2 ∧ i + 1 < m then q else 0 := by
    intro b hb
    unfold Eig.bM Eig.bU
    rw [if_pos (by omega), if_neg (by omega)]
    split_ifs <;> first | omega | rfl
  subst hp
  by_cases ha : a = i
  · subst ha
    rw [if_pos rfl]
    by_cases hb : b = a
    · subst hb
      rw [if_pos rfl, if_pos rfl, B1, B2, B3, B2']
      unfold Eig.bU
      rw [if_pos rfl, if_pos rfl, d0 b (by omega), ht]
      linear_combination (-(d b)) * h1
    · rw [if_neg hb, if_neg hb]
      by_cases hb1 : b = a + 1
      · subst hb1
        rw [if_pos rfl, if_pos rfl, B1, B2, B3, B2']
        unfold Eig.bU
        rw [if_neg (by omega), if_pos rfl, if_neg (by omega), if_pos rfl, ht]
        linear_combination (c * e a) * h1
      · rw [if_neg hb1, if_neg hb1, B6 b (by omega), B7 b (by omega)]
        unfold Eig.bU
        rw [if_neg (by omega), if_neg (by omega), if_neg (by omega)]
        split
        · rw [← hsp, ← hcq]; ring
        · ring
  · rw [if_neg ha]
    by_cases ha1 : a = i + 1
    · subst ha1
      rw [if_pos rfl, if_neg (by omega)]
      by_cases hb1 : b = i + 1
      · subst hb1
        rw [if_pos rfl, if_neg (by omega), if_pos rfl, B1, B2, B3, B2']
        unfold Eig.bU
        rw [if_pos rfl, if_neg (by omega), d1, ht]
        linear_combination (-(d (i + 1) - u)) * h1
      · rw [if_neg hb1, if_neg (by omega), if_neg hb1, B6 b (by omega), B7 b (by omega)]
        unfold Eig.bU
        rw [if_neg (by omega)]
        by_cases hx : b = i + 2 ∧ i + 1 < m
        · rw [if_pos hx, if_pos hx, if_pos (by omega), if_neg (by omega), if_neg (by omega), if_neg (by omega), e1,
            ← hsp, ← hcq]
          linear_combination (-r) * h1
        · rw [if_neg hx, if_neg hx]
          split_ifs <;> first | omega | ring
    · rw [if_neg ha1]
      by_cases hb : b = i
      · subst hb
        rw [if_pos rfl, B4 a (by omega), B5 a (by omega)]
        unfold Eig.bU
        rw [if_neg ha]
        split_ifs <;> first | omega | (rw [e0 a (by omega)]; ring) | ring
      · rw [if_neg hb]
        by_cases hb1 : b = i + 1
        · subst hb1
          rw [if_pos rfl, B4 a (by omega), B5 a (by omega)]
          unfold Eig.bU
          rw [if_neg ha1, if_neg (by omega)]
          split_ifs <;> first | omega | (rw [e0 a (by omega)]; ring) | ring
        · rw [if_neg hb1]
          unfold Eig.bM Eig.bU
          rw [if_pos hab, e0 a ha1, d0 a ha1]
          split_ifs <;> first | omega | rfl

/-! ## The sweep -/

theorem Eig.root_pos (x : K) : 0 < Flt.sqrt (x * x + 1) ∧ Flt.sqrt (x * x + 1) * Flt.sqrt (x * x + 1) = x * x + 1 := by
  have hpos : (0 : K) < x * x + 1 := add_pos_of_nonneg_of_pos (mul_self_nonneg x) one_pos
  have h1 := ExactSqrt.sqrt_mul_self _ hpos.le
  have h2 := ExactSqrt.sqrt_nonneg (x * x + 1)
  refine ⟨lt_of_le_of_ne h2 fun h => ?_, h1⟩
  rw [← h, mul_zero] at h1
  exact hpos.ne h1

theorem Eig.rot_exact {p : K} (hp : p ≠ 0) (q : K) :
    (Eig.rot p q).s * (Eig.rot p q).r = p ∧ (Eig.rot p q).c * (Eig.rot p q).r = q ∧
      (Eig.rot p q).s * (Eig.rot p q).s + (Eig.rot p q).c * (Eig.rot p q).c = 1 ∧
      (Eig.rot p q).s ≠ 0 ∧ (Eig.rot p q).r ≠ 0 := by
  unfold Eig.rot
  simp only [Exact.le_eq, Exact.abs_eq, Exact.div_eq, decide_eq_true_eq]
  split
  · obtain ⟨h1, h2⟩ := Eig.root_pos (q / p)
    unfold Eig.rotP
    simp only [Exact.mul_eq, Exact.add_eq, Exact.div_eq, Exact.one_eq]
    generalize Flt.sqrt (q / p * (q / p) + 1) = t at h1 h2
    have ht := h1.ne'
    refine ⟨by field_simp, by field_simp, ?_, one_div_ne_zero ht, mul_ne_zero hp ht⟩
    field_simp
    field_simp at h2
    linear_combination -h2
  · next h =>
    have hq : q ≠ 0 := by
      rintro rfl
      rw [abs_zero] at h
      exact h (abs_nonneg p)
    obtain ⟨h1, h2⟩ := Eig.root_pos (p / q)
    unfold Eig.rotQ
    simp only [Exact.mul_eq, Exact.add_eq, Exact.div_eq, Exact.one_eq]
    generalize Flt.sqrt (p / q * (p / q) + 1) = t at h1 h2
    have ht := h1.ne'
    refine ⟨by field_simp, by field_simp, ?_, mul_ne_zero (div_ne_zero hp hq) (one_div_ne_zero ht),
      mul_ne_zero hq ht⟩
    field_simp
    field_simp at h2
    linear_combination -h2

/-- What holds before the round for `i = x - 1`. -/
structure Eig.SInv (j m x : Nat) (S : Matrix (Fin n) (Fin n) K) (w : Eig.Sw K n) : Prop where
  hs : w.s ≠ 0
  hne : ∀ y, j ≤ y → y < x → w.e.f y ≠ 0
  hz : ∀ y, y < j → w.e.f y = 0
  prod : mx n n w.z.f * mx n n (Eig.bM m x w.d.f w.e.f w.q w.u w.s w.c) * (mx n n w.z.f)ᵀ = S
  orth : mx n n w.z.f * (mx n n w.z.f)ᵀ = 1

theorem Eig.sweep_exact {j m : Nat} (hm : m < n) {S : Matrix (Fin n) (Fin n) K} {k : Nat} (hk : j + k ≤ m)
    (w : Eig.Sw K n) (hw : Eig.SInv j m (j + k) S w) :
    ∃ w', Eig.sweep j m k w = .ok (false, w') ∧ Eig.SInv j m j S w' := by
  induction k generalizing w with
  | zero => exact ⟨w, rfl, hw⟩
  | succ k ih =>
    have hp : w.s * w.e.f (j + k) ≠ 0 := mul_ne_zero hw.hs (hw.hne _ (by omega) (by omega))
    obtain ⟨h1, h2, h3, h4, h5⟩ := Eig.rot_exact hp w.q
    unfold Eig.sweep
    rw [Row.get_ok (by omega), ok_bind, Eig.take_ok (by omega), ok_bind, Row.get_ok (by omega), ok_bind]
    rw [Exact.mul_eq, Exact.mul_eq]
    have hr : (Eig.took (j + k) (Eig.rot (w.s * w.e.f (j + k)) w.q) w).e.f (j + k + 1) =
        (Eig.rot (w.s * w.e.f (j + k)) w.q).r := by
      show upd1 _ _ _ _ = _
      rw [upd1_eq, if_pos rfl]
    rw [hr, if_neg (by simp [h5]), Eig.bulge_ok (by omega), ok_bind]
    refine ih (by omega) _ ⟨h4, fun y hy1 hy2 => ?_, fun y hy => ?_, ?_, ?_⟩
    · show upd1 _ _ _ _ ≠ _
      rw [upd1_eq, if_neg (by omega)]
      exact hw.hne y hy1 (by omega)
    · show upd1 _ _ _ _ = _
      rw [upd1_eq, if_neg (by omega)]
      exact hw.hz y hy
    · rw [← hw.prod]
      refine (Eig.conj_step (i := j + k) (by omega) h3 (fun a b ha hb => ?_) (fun a b ha hb => ?_)).1
      · dsimp only
        rw [if_pos ⟨by omega, ha⟩]
        rfl
      · refine Eq.trans ?_ (Eig.bM_step (i := j + k) (show j + k + 1 ≤ m by omega) (q := w.q) rfl h1 h2 h3 rfl a b)
        unfold Eig.tv Eig.took
        simp only [Exact.sub_eq, Exact.mul_eq, Exact.add_eq, Exact.two_eq]
    · rw [← hw.orth]
      refine (Eig.conj_step (i := j + k) (by omega) h3 (B := fun _ _ => 0) (fun a b ha hb => ?_)
        (fun a b ha hb => rfl)).2
      dsimp only
      rw [if_pos ⟨by omega, ha⟩]
      rfl

/-! ## The iteration -/

/-- What holds whenever `j` eigenvalues are found. -/
structure Eig.QInv (j : Nat) (S : Matrix (Fin n) (Fin n) K) (x : Eig.St K n) : Prop where
  hz : ∀ y, y < j → y + 1 < n → x.e.f y = 0
  prod : mx n n x.z.f * mx n n (Tri.tEnt x.d.f x.e.f) * (mx n n x.z.f)ᵀ = S
  orth : mx n n x.z.f * (mx n n x.z.f)ᵀ = 1

theorem Eig.small_exact (d e : Nat → K) (m : Nat) : Eig.small d e m ↔ e m = 0 := by
  unfold Eig.small
  simp

theorem Eig.round_exact {j m : Nat} (hj : j < m) (hm : m < n) {S : Matrix (Fin n) (Fin n) K} {x x' : Eig.St K n}
    (hx : Eig.QInv j S x) (hm0 : m < n - 1 → x.e.f m = 0) (hne : ∀ i, j ≤ i → i < m → x.e.f i ≠ 0)
    (h : Eig.round j m x = .ok x') : Eig.QInv j S x' := by
  unfold Eig.round at h
  rw [Row.get_ok (by omega), ok_bind, Row.get_ok (by omega), ok_bind, Row.get_ok (by omega), ok_bind,
    Row.get_ok (by omega), ok_bind] at h
  generalize Eig.q0 (x.d.f m) (x.d.f j) (x.e.f j) _ = q at h
  generalize Eig.t0 (Flt.div (Flt.sub (x.d.f (j + 1)) (x.d.f j)) (Flt.mul Flt.two (x.e.f j))) = t at h
  obtain ⟨w, e, hw⟩ := Eig.sweep_exact (j := j) hm (S := S) (k := m - j) (by omega)
    (⟨x.z, x.d, x.e, q, Flt.zero, Flt.one, Flt.one, t⟩ : Eig.Sw K n)
    (by
      rw [show j + (m - j) = m by omega]
      refine ⟨by simp, hne, fun y hy => hx.hz y hy (by omega), ?_, hx.orth⟩
      rw [← hx.prod]
      dsimp only
      congr 2
      refine mx_congr fun a b ha hb => ?_
      unfold Eig.bM Eig.bU Tri.tEnt
      simp only [Exact.zero_eq, Exact.one_eq, one_mul, sub_zero]
      have : ∀ y, y = m → y + 1 < n → x.e.f y = 0 := fun y hy h => by subst hy; exact hm0 (by omega)
      split_ifs <;> first
        | rfl
        | omega
        | (subst_vars; rfl)
        | (exact (this _ (by omega) (by omega)).symm))
  rw [e, ok_bind] at h
  dsimp only at h
  unfold Eig.finish at h
  rw [if_neg (by simp), Row.get_ok (by omega), ok_bind, Row.set_ok (by omega), ok_bind, Row.set_ok (by omega), ok_bind,
    Row.set_ok (by omega), ok_bind] at h
  cases h
  refine ⟨fun y hy hy' => ?_, ?_, hw.orth⟩
  · show upd1 _ _ _ _ = _
    rw [upd1_eq, if_neg (by omega)]
    show upd1 _ _ _ _ = _
    rw [upd1_eq, if_neg (by omega)]
    exact hw.hz y hy
  · rw [← hw.prod]
    dsimp only
    congr 2
    refine mx_congr fun a b ha hb => ?_
    have hj0 : ∀ y, y + 1 = j → w.e.f y = 0 := fun y hy => hw.hz y (by omega)
    unfold Eig.bM Eig.bU Tri.tEnt
    simp only [upd1_eq, Exact.zero_eq, Exact.sub_eq]
    split_ifs <;> first
      | rfl
      | omega
      | (subst_vars; done)
      | (rw [hj0 _ (by omega)]; simp)

theorem Eig.iter_exact {S : Matrix (Fin n) (Fin n) K} {x x' : Eig.St K n} (hx : Eig.QInv 0 S x)
    (h : forUp 0 n (fun j (x : Eig.St K n) => Eig.ql j 30 x) x = .ok x') : Eig.QInv n S x' :=
  (Eig.iter_rule (fun j x => Eig.QInv j S x)
    (fun j m x x' hj hm hI h1 h2 e => Eig.round_exact hj hm hI (fun h => (Eig.small_exact _ _ _).1 (h1 h))
      (fun i hi1 hi2 h => h2 i hi1 hi2 ((Eig.small_exact _ _ _).2 h)) e)
    (fun j x hj hI hs => ⟨fun y hy hy' => by
      by_cases h : y = j
      · subst h
        exact (Eig.small_exact _ _ _).1 (hs (by omega))
      · exact hI.hz y (by omega) hy', hI.prod, hI.orth⟩) x hx).of_ok h

/-! ## Sorting and the clean-up -/

/-- A diagonal matrix as a function. -/
def Eig.dg (d : Nat → K) (a b : Nat) : K := if a = b then d a else 0

theorem Eig.sum3 (z d : Nat → Nat → K) (l : Nat → K) : mx n n z * mx n n (Eig.dg l) * (mx n n d)ᵀ =
    mx n n fun a b => ∑ k ∈ range n, z a k * l k * d b k := by
  rw [mx_transpose, mx_mul, mx_mul]
  refine mx_congr fun a b ha hb => sum_congr rfl fun k hk => ?_
  congr 1
  unfold Eig.dg
  rw [Finset.sum_eq_single k (fun y _ hy => by rw [if_neg hy, mul_zero]) (fun h => absurd hk h), if_pos rfl]

theorem Eig.sw_sw (i k y : Nat) : Eig.sw i k (Eig.sw i k y) = y := by
  unfold Eig.sw
  split_ifs <;> omega

theorem Eig.sw_lt {i k y : Nat} (hi : i < n) (hk : k < n) (hy : y < n) : Eig.sw i k y < n := by
  unfold Eig.sw
  split_ifs <;> omega

theorem Eig.sum_sw {i k : Nat} (hi : i < n) (hk : k < n) (f : Nat → K) :
    ∑ y ∈ range n, f (Eig.sw i k y) = ∑ y ∈ range n, f y :=
  Finset.sum_nbij' (Eig.sw i k) (Eig.sw i k) (fun _ hy => mem_range.2 (Eig.sw_lt hi hk (mem_range.1 hy)))
    (fun _ hy => mem_range.2 (Eig.sw_lt hi hk (mem_range.1 hy))) (fun y _ => Eig.sw_sw i k y)
    (fun y _ => Eig.sw_sw i k y) (fun _ _ => rfl)

theorem Eig.largest_max {i : Nat} (hi : i < n) (d : Row K n) {k : Nat} (h : Eig.largest i d = .ok (k, d.f k)) :
    ∀ b, i ≤ b → b < n → d.f b ≤ d.f k := by
  unfold Eig.largest at h
  rw [Row.get_ok hi, ok_bind] at h
  have h1 := (wp_forUp (ε := Fault) (a := i + 1) (b := n)
    (body := fun j (kp : Nat × K) => do
      let x ← d.get j
      return if Flt.lt kp.2 x then (j, x) else kp) (s := (i, d.f i)) (E := fun _ => False)
    (fun b kp => ∀ y, i ≤ y → y < b → d.f y ≤ kp.2) (by omega)
    (fun y h1 h2 => by rw [show y = i by omega])
    (fun j kp h1 h2 hI => by
      rw [Row.get_ok h2, ok_bind]
      refine wp_of_eq_ok rfl fun y hy1 hy2 => ?_
      split
      · next hl =>
        rw [Exact.lt_eq, decide_eq_true_eq] at hl
        by_cases hyj : y = j
        · subst hyj; exact le_refl _
        · exact (hI y hy1 (by omega)).trans hl.le
      · next hl =>
        rw [Exact.lt_eq, decide_eq_true_eq, not_lt] at hl
        by_cases hyj : y = j
        · subst hyj; exact hl
        · exact hI y hy1 (by omega))).of_ok h
  exact h1

theorem Eig.sort_exact {S : Matrix (Fin n) (Fin n) K} {x y : Tab K n n × Row K n}
    (hp : mx n n x.1.f * mx n n (Eig.dg x.2.f) * (mx n n x.1.f)ᵀ = S) (ho : mx n n x.1.f * (mx n n x.1.f)ᵀ = 1)
    (h : forUp 0 n Eig.select x = .ok y) :
    mx n n y.1.f * mx n n (Eig.dg y.2.f) * (mx n n y.1.f)ᵀ = S ∧ mx n n y.1.f * (mx n n y.1.f)ᵀ = 1 ∧
      ∀ a b, a < b → b < n → y.2.f b ≤ y.2.f a := by
  obtain ⟨y', e, h1, h2, h3⟩ := Eig.sort_rule (fun i (y : Tab K n n × Row K n) =>
    mx n n y.1.f * mx n n (Eig.dg y.2.f) * (mx n n y.1.f)ᵀ = S ∧ mx n n y.1.f * (mx n n y.1.f)ᵀ = 1 ∧
      ∀ a b, a < i → a < b → b < n → y.2.f b ≤ y.2.f a) x ⟨hp, ho, fun a b h => by omega⟩
    (fun i x k y hi hI el hik hk hz hd => by
      obtain ⟨h1, h2, h3⟩ := hI
      refine ⟨?_, ?_, fun a b ha hab hb => ?_⟩
      · rw [← h1, Eig.sum3, Eig.sum3]
        refine mx_congr fun a b ha hb => ?_
        rw [← Eig.sum_sw hi hk fun y => x.1.f a y * x.2.f y * x.1.f b y]
        refine sum_congr rfl fun y _ => ?_
        rw [hz a y ha, hz b y hb, hd y]
      · rw [← h2, mx_transpose, mx_transpose, mx_mul, mx_mul]
        refine mx_congr fun a b ha hb => ?_
        rw [← Eig.sum_sw hi hk fun y => x.1.f a y * x.1.f b y]
        refine sum_congr rfl fun y _ => ?_
        rw [hz a y ha, hz b y hb]
      · have hmax := Eig.largest_max hi x.2 el
        rw [hd, hd]
        by_cases hai : a = i
        · subst hai
          have : Eig.sw a k a = k := if_pos rfl
          rw [this]
          refine hmax _ ?_ (Eig.sw_lt hi hk hb)
          unfold Eig.sw
          split_ifs <;> omega
        · have : Eig.sw i k a = a := by
            unfold Eig.sw
            split_ifs <;> omega
          rw [this]
          refine h3 a _ (by omega) ?_ (Eig.sw_lt hi hk hb)
          unfold Eig.sw
          split_ifs <;> omega)
  rw [h] at e
  cases e
  exact ⟨h1, h2, fun a b hab hb => h3 a b (by omega) hab hb⟩

theorem Eig.grow_exact (mx x : K) : Eig.grow mx x = max mx |x| := by
  unfold Eig.grow
  simp only [Exact.lt_eq, Exact.abs_eq, decide_eq_true_eq]
  split
  · next h => exact (max_eq_right h.le).symm
  · next h => exact (max_eq_left (not_lt.1 h)).symm

/-- `v'` is `v`, except that some entries of absolute value at most `thr` became zero. -/
def Eig.Near (thr : K) (n : Nat) (v v' : Nat → K) : Prop :=
  ∀ i, i < n → v' i = v i ∨ (v' i = 0 ∧ |v i| ≤ thr)

theorem Eig.null2_exact {eps : K} (heps : 0 ≤ eps) {s s' : Row K n × Row K n} (h : Eig.null2 eps s = .ok s') :
    ∀ B, 0 ≤ B → (∀ i, i < n → |s.1.f i| ≤ B) → (∀ i, i < n → |s.2.f i| ≤ B) →
      Eig.Near (eps * B) n s.1.f s'.1.f ∧ Eig.Near (eps * B) n s.2.f s'.2.f := by
  intro B hB h1 h2
  obtain ⟨mx, s1, em, e, hc⟩ := Eig.null2_ok eps s
  rw [h] at e
  cases e
  have hm : mx ≤ B := (wp_forUp (ε := Fault) (a := 0) (b := n)
    (body := fun i mx => do return Eig.grow (Eig.grow mx (← s.1.get i)) (← s.2.get i)) (s := (Flt.zero : K))
    (E := fun _ => False) (fun _ mx => mx ≤ B) (by omega) (by simpa using hB) (fun i mx _ hi hI => by
      rw [Row.get_ok (by omega), ok_bind, Row.get_ok (by omega), ok_bind]
      refine wp_of_eq_ok rfl ?_
      rw [Eig.grow_exact, Eig.grow_exact]
      exact max_le (max_le hI (h1 i hi)) (h2 i hi))).of_ok em
  rcases hc with ⟨-, rfl⟩ | ⟨-, h3, h4⟩
  · exact ⟨fun i _ => .inl rfl, fun i _ => .inl rfl⟩
  · have key : ∀ v v' : Nat → K, (∀ i, i < n → v' i = Eig.cutV (Flt.mul eps mx) v i) → Eig.Near (eps * B) n v v' := by
      intro v v' hv i hi
      rw [hv i hi]
      unfold Eig.cutV
      simp only [Exact.le_eq, Exact.abs_eq, Exact.mul_eq, Exact.zero_eq, decide_eq_true_eq]
      split
      · next hx => exact .inr ⟨rfl, hx.trans (mul_le_mul_of_nonneg_left hm heps)⟩
      · exact .inl rfl
    exact ⟨key _ _ h3, key _ _ h4⟩

theorem Eig.null1_exact {eps : K} (heps : 0 ≤ eps) {d d' : Row K n} (h : Eig.null1 eps d = .ok d') :
    (∀ B, 0 ≤ B → (∀ i, i < n → |d.f i| ≤ B) → Eig.Near (eps * B) n d.f d'.f) ∧
      ((∀ a b, a < b → b < n → d.f b ≤ d.f a) → ∀ a b, a < b → b < n → d'.f b ≤ d'.f a) := by
  obtain ⟨mx, d1, em, e, hc⟩ := Eig.null1_ok eps d
  rw [h] at e
  cases e
  have hm0 : 0 ≤ mx := (wp_forUp (ε := Fault) (a := 0) (b := n)
    (body := fun i mx => do return Eig.grow mx (← d.get i)) (s := (Flt.zero : K))
    (E := fun _ => False) (fun _ mx => 0 ≤ mx) (by omega) (by simp) (fun i mx _ hi hI => by
      rw [Row.get_ok (by omega), ok_bind]
      refine wp_of_eq_ok rfl ?_
      rw [Eig.grow_exact]
      exact le_max_of_le_left hI)).of_ok em
  refine ⟨fun B hB h1 => ?_, fun hs => ?_⟩
  · have hm : mx ≤ B := (wp_forUp (ε := Fault) (a := 0) (b := n)
      (body := fun i mx => do return Eig.grow mx (← d.get i)) (s := (Flt.zero : K))
      (E := fun _ => False) (fun _ mx => mx ≤ B) (by omega) (by simpa using hB) (fun i mx _ hi hI => by
        rw [Row.get_ok (by omega), ok_bind]
        refine wp_of_eq_ok rfl ?_
        rw [Eig.grow_exact]
        exact max_le hI (h1 i hi))).of_ok em
    rcases hc with ⟨-, rfl⟩ | ⟨-, h3⟩
    · exact fun i _ => .inl rfl
    · intro i hi
      rw [h3 i hi]
      simp only [Exact.lt_eq, Exact.abs_eq, Exact.mul_eq, Exact.zero_eq, decide_eq_true_eq]
      split
      · next hx => exact .inr ⟨rfl, hx.le.trans (mul_le_mul_of_nonneg_left hm heps)⟩
      · exact .inl rfl
  · rcases hc with ⟨-, rfl⟩ | ⟨-, h3⟩
    · exact hs
    · intro a b hab hb
      have hs' := hs a b hab hb
      have ht : 0 ≤ eps * mx := mul_nonneg heps hm0
      rw [h3 a (by omega), h3 b hb]
      simp only [Exact.lt_eq, Exact.abs_eq, Exact.mul_eq, Exact.zero_eq, decide_eq_true_eq]
      split
      · next h1 =>
        split
        · exact le_refl _
        · next h2 =>
          rw [abs_lt] at h2
          rw [abs_lt] at h1
          by_contra h0
          exact h2 ⟨by linarith, by linarith⟩
      · next h1 =>
        split
        · next h2 =>
          rw [abs_lt] at h1 h2
          by_contra h0
          exact h1 ⟨by linarith, by linarith⟩
        · exact hs'

/-- The symmetric case as a whole: before the clean-up the vectors and eigenvalues `l` reproduce the matrix with
the diagonals `d` and `e`, which are the given ones but for the removal of small entries. -/
theorem Eig.findSym_exact {l : Nat} {eps : K} (heps : 0 ≤ eps) {main : Row K n} {sec : Row K l} {z : Tab K n n}
    (hn : 0 < n) (hl : n - 1 ≤ l) (hz : mx n n z.f * (mx n n z.f)ᵀ = 1) {s : Eig K n}
    (h : Eig.findSym eps main sec z = .ok s) :
    ∃ d e lam : Nat → K, s.sym = true ∧ (∀ i, s.im.f i = 0) ∧
      mx n n (fun a b => s.vec.f b a) * mx n n (Eig.dg lam) * (mx n n (fun a b => s.vec.f b a))ᵀ =
        mx n n z.f * mx n n (Tri.tEnt d e) * (mx n n z.f)ᵀ ∧
      mx n n (fun a b => s.vec.f b a) * (mx n n (fun a b => s.vec.f b a))ᵀ = 1 ∧
      (∀ B, 0 ≤ B → (∀ i, i < n → |main.f i| ≤ B) → (∀ i, i < n - 1 → |sec.f i| ≤ B) →
        Eig.Near (eps * B) n main.f d ∧ Eig.Near (eps * B) (n - 1) sec.f e) ∧
      (∀ B, 0 ≤ B → (∀ i, i < n → |lam i| ≤ B) → Eig.Near (eps * B) n lam s.re.f) ∧
      ∀ a b, a < b → b < n → s.re.f b ≤ s.re.f a := by
  obtain ⟨s0, s1, e0, e1, hc⟩ := Eig.findSym_ok eps main sec z hn hl
  rcases hc with ⟨f, -, ef⟩ | ⟨x, y, d, v, ex, ey, ed, hv, ev⟩
  · rw [h] at ef; cases ef
  rw [h] at ev
  cases ev
  obtain ⟨s0', e0', h1, h2, h3⟩ := Eig.diagonals_ok hn hl main sec
  rw [e0] at e0'
  cases e0'
  have hq := Eig.iter_exact (S := mx n n z.f * mx n n (Tri.tEnt s1.1.f s1.2.f) * (mx n n z.f)ᵀ)
    ⟨fun y hy => by omega, rfl, hz⟩ ex
  have hdg : mx n n (Tri.tEnt x.d.f x.e.f) = mx n n (Eig.dg x.d.f) := by
    refine mx_congr fun a b ha hb => ?_
    unfold Tri.tEnt Eig.dg
    split
    · rfl
    · split
      · exact hq.hz b hb (by omega)
      · split
        · exact hq.hz a ha (by omega)
        · rw [Exact.zero_eq]
  obtain ⟨h4, h5, h6⟩ := Eig.sort_exact (x := (x.z, x.d))
    (S := mx n n z.f * mx n n (Tri.tEnt s1.1.f s1.2.f) * (mx n n z.f)ᵀ)
    (by have := hq.prod; rwa [hdg] at this) hq.orth ey
  obtain ⟨h7, h8⟩ := Eig.null1_exact heps ed
  have hV : mx n n (fun a b => v.f b a) = mx n n y.1.f := mx_congr fun a b ha hb => hv b a hb ha
  refine ⟨s1.1.f, s1.2.f, y.2.f, rfl, fun i => Exact.zero_eq, ?_, ?_, fun B hB hm hs => ?_, h7, h8 h6⟩
  · dsimp only
    rw [hV, h4]
  · dsimp only
    rw [hV, h5]
  · obtain ⟨h9, h10⟩ := Eig.null2_exact heps e1 B hB (fun i hi => by rw [h1 i hi]; exact hm i hi) (fun i hi => by
      by_cases hi' : i < n - 1
      · rw [h2 i hi']; exact hs i hi'
      · rw [show i = n - 1 by omega, h3, Exact.zero_eq, abs_zero]; exact hB)
    refine ⟨fun i hi => ?_, fun i hi => ?_⟩
    · have := h9 i hi
      rwa [h1 i hi] at this
    · have := h10 i (by omega)
      rwa [h2 i hi] at this

end Linear
