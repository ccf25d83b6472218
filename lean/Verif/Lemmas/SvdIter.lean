import Verif.Lemmas.SvdSteps
import Verif.Lemmas.EigenFro

/-!
# The iteration of the singular value decomposition in exact arithmetic
-/

set_option linter.unusedSectionVars false

namespace Linear

open Spec Finset Matrix

variable {K : Type} [Field K] [LinearOrder K] [IsStrictOrderedRing K] [Flt K] [Exact K] {m n : Nat}

/-- Decides the conditions of all `if`s by linear arithmetic. -/
macro "ifs" : tactic => `(tactic| simp (disch := omega) only [if_pos, if_neg, ite_true, ite_false, and_true, true_and])

/-! ## Rotations -/

theorem Svd.rt_exact (a b : Nat) (cs sn : K) (u : Nat → K) (y : Nat) : Svd.rt a b cs sn u y =
    if y = a then cs * u a + sn * u b else if y = b then -sn * u a + cs * u b else u y := by
  unfold Svd.rt
  simp only [Exact.add_eq, Exact.mul_eq, Exact.neg_eq]

/-- The matrix of the rotation. -/
def Svd.R (n a b : Nat) (cs sn : K) : Matrix (Fin n) (Fin n) K :=
  mx n n fun i j => Svd.rt a b cs sn (fun x => if i = x then 1 else 0) j

theorem Svd.sum_two {a b : Nat} (ha : a < n) (hb : b < n) (hab : a ≠ b) (f g : Nat → K)
    (h : ∀ i, i ≠ a → i ≠ b → f i = g i) (h2 : f a + f b = g a + g b) :
    ∑ y ∈ range n, f y = ∑ y ∈ range n, g y := by
  have e : ∀ f : Nat → K, ∑ y ∈ range n, f y = f a + (f b + ∑ y ∈ ((range n).erase a).erase b, f y) := fun f => by
    rw [Finset.add_sum_erase _ _ (mem_erase.2 ⟨hab.symm, mem_range.2 hb⟩), Finset.add_sum_erase _ _ (mem_range.2 ha)]
  rw [e, e, ← add_assoc, ← add_assoc, h2]
  congr 1
  refine sum_congr rfl fun y hy => ?_
  have h1 := mem_erase.1 hy
  exact h y (mem_erase.1 h1.2).1 h1.1

theorem Svd.sum_delta {i : Nat} (hi : i < n) (u : Nat → K) :
    ∑ x ∈ range n, u x * (if x = i then (1 : K) else 0) = u i := by
  rw [sum_eq_single i]
  · rw [if_pos rfl, mul_one]
  · intro b _ hb
    rw [if_neg hb, mul_zero]
  · intro h
    exact absurd (mem_range.2 hi) h

theorem Svd.mul_R {r a b : Nat} (ha : a < n) (hb : b < n) (cs sn : K) {u u' : Nat → Nat → K}
    (h : ∀ i j, i < r → j < n → u' i j = Svd.rt a b cs sn (u i) j) : mx r n u' = mx r n u * Svd.R n a b cs sn := by
  unfold Svd.R
  rw [mx_mul]
  refine mx_congr fun i j hi hj => ?_
  rw [h i j hi hj, Svd.rt_exact]
  simp only [Svd.rt_exact]
  split_ifs with h1 h2
  · rw [sum_congr rfl (g := fun x => cs * (u i x * (if x = a then 1 else 0)) + sn * (u i x * (if x = b then 1 else 0)))
      fun x _ => by ring, sum_add_distrib, ← mul_sum, ← mul_sum, Svd.sum_delta ha, Svd.sum_delta hb]
  · rw [sum_congr rfl (g := fun x => -sn * (u i x * (if x = a then 1 else 0)) + cs * (u i x * (if x = b then 1 else 0)))
      fun x _ => by ring, sum_add_distrib, ← mul_sum, ← mul_sum, Svd.sum_delta ha, Svd.sum_delta hb]
  · rw [Svd.sum_delta hj]

theorem Svd.R_orth {a b : Nat} (ha : a < n) (hb : b < n) (hab : a ≠ b) {cs sn : K} (h : cs * cs + sn * sn = 1) :
    Svd.R n a b cs sn * (Svd.R n a b cs sn)ᵀ = 1 := by
  unfold Svd.R
  rw [mx_transpose, mx_mul, ← mx_one]
  refine mx_congr fun i j hi hj => ?_
  rw [Svd.sum_two ha hb hab _ (fun y => (if i = y then (1 : K) else 0) * (if y = j then 1 else 0))]
  · rw [sum_eq_single i]
    · rw [if_pos rfl, one_mul]
    · intro y _ hy
      rw [if_neg (Ne.symm hy), zero_mul]
    · intro h
      exact absurd (mem_range.2 hi) h
  · intro y h1 h2
    rw [Svd.rt_exact, Svd.rt_exact, if_neg h1, if_neg h2, if_neg h1, if_neg h2]
    simp only [eq_comm]
  · rw [Svd.rt_exact, Svd.rt_exact, Svd.rt_exact, Svd.rt_exact, if_pos rfl, if_pos rfl, if_neg hab.symm, if_pos rfl,
      if_neg hab.symm, if_pos rfl]
    rw [show (if a = j then (1 : K) else 0) = if j = a then 1 else 0 from if_congr eq_comm rfl rfl,
      show (if b = j then (1 : K) else 0) = if j = b then 1 else 0 from if_congr eq_comm rfl rfl]
    linear_combination ((if i = a then (1 : K) else 0) * (if j = a then 1 else 0) +
      (if i = b then 1 else 0) * (if j = b then 1 else 0)) * h

theorem Svd.R_orth' {a b : Nat} (ha : a < n) (hb : b < n) (hab : a ≠ b) {cs sn : K} (h : cs * cs + sn * sn = 1) :
    (Svd.R n a b cs sn)ᵀ * Svd.R n a b cs sn = 1 := mul_eq_one_comm.1 (Svd.R_orth ha hb hab h)

/-- `S = u W vᵀ` with orthonormal columns in `u` and `v`. -/
structure Svd.Rep (S : Matrix (Fin m) (Fin n) K) (u v W : Nat → Nat → K) : Prop where
  prod : mx m n u * mx n n W * (mx n n v)ᵀ = S
  ou : (mx m n u)ᵀ * mx m n u = 1
  ov : (mx n n v)ᵀ * mx n n v = 1

theorem Svd.Rep.congr {S : Matrix (Fin m) (Fin n) K} {u v W W' : Nat → Nat → K} (h : Svd.Rep S u v W)
    (hW : ∀ i j, i < n → j < n → W' i j = W i j) : Svd.Rep S u v W' :=
  ⟨by rw [mx_congr hW]; exact h.prod, h.ou, h.ov⟩

theorem Svd.Rep.turnV {S : Matrix (Fin m) (Fin n) K} {u v v' W W' : Nat → Nat → K} (h : Svd.Rep S u v W)
    {a b : Nat} (ha : a < n) (hb : b < n) (hab : a ≠ b) {cs sn : K} (hc : cs * cs + sn * sn = 1)
    (hv : ∀ i, i < n → v' i = Svd.rt a b cs sn (v i))
    (hW : ∀ i j, i < n → j < n → W' i j = Svd.rt a b cs sn (W i) j) : Svd.Rep S u v' W' := by
  have e1 := Svd.mul_R (r := n) ha hb cs sn (u := v) (u' := v') fun i j hi _ => by rw [hv i hi]
  have e2 := Svd.mul_R (r := n) ha hb cs sn hW
  refine ⟨?_, h.ou, ?_⟩
  · rw [e1, e2, Matrix.transpose_mul, ← h.prod]
    simp only [Matrix.mul_assoc]
    rw [← Matrix.mul_assoc (Svd.R n a b cs sn), Svd.R_orth ha hb hab hc, Matrix.one_mul]
  · rw [e1, Matrix.transpose_mul, Matrix.mul_assoc, ← Matrix.mul_assoc (mx n n v)ᵀ, h.ov, Matrix.one_mul,
      Svd.R_orth' ha hb hab hc]

theorem Svd.Rep.turnU {S : Matrix (Fin m) (Fin n) K} {u u' v W W' : Nat → Nat → K} (h : Svd.Rep S u v W)
    {a b : Nat} (ha : a < n) (hb : b < n) (hab : a ≠ b) {cs sn : K} (hc : cs * cs + sn * sn = 1)
    (hu : ∀ i, i < m → u' i = Svd.rt a b cs sn (u i))
    (hW : ∀ i j, i < n → j < n → W' i j = Svd.rt a b cs sn (fun x => W x j) i) : Svd.Rep S u' v W' := by
  have e1 := Svd.mul_R (r := m) ha hb cs sn (u := u) (u' := u') fun i j hi _ => by rw [hu i hi]
  have e2 := Svd.mul_R (r := n) ha hb cs sn (u := fun j i => W i j) (u' := fun j i => W' i j)
    fun i j hi hj => hW j i hj hi
  have e3 : mx n n W' = (Svd.R n a b cs sn)ᵀ * mx n n W := by
    rw [← Matrix.transpose_inj, Matrix.transpose_mul, Matrix.transpose_transpose]
    exact e2
  refine ⟨?_, ?_, h.ov⟩
  · rw [e1, e3, ← h.prod]
    simp only [Matrix.mul_assoc]
    rw [← Matrix.mul_assoc (Svd.R n a b cs sn), Svd.R_orth ha hb hab hc, Matrix.one_mul]
  · rw [e1, Matrix.transpose_mul, Matrix.mul_assoc, ← Matrix.mul_assoc (mx m n u)ᵀ, h.ou, Matrix.one_mul,
      Svd.R_orth' ha hb hab hc]

/-- The two numbers made from `hyp`. -/
theorem Svd.hyp_unit {hyp : K → K → K} (hh : Spec.Hypot hyp) {a b : K} (h : a ≠ 0 ∨ b ≠ 0) :
    hyp a b ≠ 0 ∧ a / hyp a b * (a / hyp a b) + b / hyp a b * (b / hyp a b) = 1 ∧
      a / hyp a b * a + b / hyp a b * b = hyp a b ∧ -(b / hyp a b) * a + a / hyp a b * b = 0 := by
  have h2 := (hh a b).2
  have hne : hyp a b ≠ 0 := by
    intro h0
    rw [h0, zero_mul] at h2
    have ha : a * a = 0 := le_antisymm (by nlinarith [mul_self_nonneg b]) (mul_self_nonneg a)
    have hb : b * b = 0 := by rw [ha] at h2; linarith
    rcases h with h | h
    · exact h (mul_self_eq_zero.1 ha)
    · exact h (mul_self_eq_zero.1 hb)
  generalize hyp a b = t at *
  refine ⟨hne, ?_, ?_, ?_⟩
  · field_simp
    linear_combination - h2
  · field_simp
    linear_combination - h2
  · field_simp
    ring

theorem Svd.bEnt_exact (s e : Nat → K) (i j : Nat) :
    Bi.bEnt s e i j = if j = i then s i else if j = i + 1 then e i else 0 := by
  unfold Bi.bEnt
  rw [Exact.zero_eq]

/-! ## Case 1 -/

/-- The matrix during case 1: the entry `f` in row `i - 1` and column `p - 1`. -/
def Svd.WD (p k i : Nat) (f : K) (s e : Nat → K) (a b : Nat) : K :=
  if k < i ∧ a + 1 = i ∧ b = p - 1 then f else Bi.bEnt s e a b

set_option maxHeartbeats 1600000 in
/-- A step of case 1 rotates columns `j` and `p - 1`. -/
theorem Svd.WD_step {p k j : Nat} (g1 : k ≤ j) (g2 : j < p - 1) {cs sn t f f' : K} {s e s' e' : Nat → K}
    (t2 : cs * s j + sn * f = t) (t3 : -sn * s j + cs * f = 0)
    (hs : s' = upd1 s j t) (he : e' = if j ≠ k then upd1 e (j - 1) (cs * e (j - 1)) else e)
    (hf : f' = if j ≠ k then -sn * e (j - 1) else f) (h3 : 0 < k → e (k - 1) = 0) (q5 : e (p - 2) = 0) (q6 : s (p - 1) = 0)
    (a b : Nat) :
    Svd.WD p k j f' s' e' a b = Svd.rt j (p - 1) cs sn (Svd.WD p k (j + 1) f s e a) b := by
  rw [Svd.rt_exact]
  unfold Svd.WD
  simp only [Svd.bEnt_exact]
  rw [hs]
  simp only [upd1_eq]
  have hj0 : a = k - 1 → 0 < k → e a = 0 := fun c c' => by rw [c, h3 c']
  by_cases hjk : j = k
  · rw [if_neg (by omega)] at he
    rw [if_neg (by omega)] at hf
    rw [he]
    by_cases caj : a = j
    · by_cases cbj : b = j
      · ifs
        rw [caj, t2]
      · by_cases cbp : b = p - 1
        · by_cases c : b = a + 1
          · ifs
            rw [caj, t3, show j = p - 2 by omega, q5]
          · ifs
            rw [caj, t3]
        · by_cases c : b = a + 1 <;> ifs
    · by_cases caj' : a + 1 = j
      · have := hj0 (by omega) (by omega)
        by_cases cbj : b = j
        · ifs; rw [this]; ring
        · by_cases cbp : b = p - 1
          · ifs; rw [this]; ring
          · ifs
      · by_cases cap : a = p - 1
        · by_cases cbj : b = j
          · ifs; rw [cap, q6]; ring
          · by_cases cbp : b = p - 1
            · ifs; rw [cap, q6]; ring
            · ifs
        · by_cases cap' : a = p - 2
          · by_cases cbj : b = j
            · ifs; rw [cap', q5]; ring
            · by_cases cbp : b = p - 1
              · ifs; rw [cap', q5]; ring
              · ifs
          · by_cases cbj : b = j
            · ifs; ring
            · by_cases cbp : b = p - 1
              · ifs; ring
              · ifs
  · rw [if_pos hjk] at he hf
    rw [he, hf]
    simp only [upd1_eq]
    by_cases caj : a = j
    · by_cases cbj : b = j
      · ifs
        rw [caj, t2]
      · by_cases cbp : b = p - 1
        · by_cases c : b = a + 1
          · ifs
            rw [caj, t3, show j = p - 2 by omega, q5]
          · ifs
            rw [caj, t3]
        · by_cases c : b = a + 1 <;> ifs
    · by_cases caj' : a + 1 = j
      · rw [show j - 1 = a by omega]
        by_cases cbj : b = j
        · ifs; ring
        · by_cases cbp : b = p - 1
          · ifs; ring
          · ifs
      · by_cases cap : a = p - 1
        · by_cases cbj : b = j
          · ifs; rw [cap, q6]; ring
          · by_cases cbp : b = p - 1
            · ifs; rw [cap, q6]; ring
            · ifs
        · by_cases cap' : a = p - 2
          · by_cases cbj : b = j
            · ifs; rw [cap', q5]; ring
            · by_cases cbp : b = p - 1
              · ifs; rw [cap', q5]; ring
              · ifs
          · by_cases cbj : b = j
            · ifs; ring
            · by_cases cbp : b = p - 1
              · ifs; ring
              · ifs

theorem Svd.deflate_exact {hyp : K → K → K} (hh : Spec.Hypot hyp) {p k : Nat} (hk : k < p - 1) (hp : p ≤ n)
    {S : Matrix (Fin m) (Fin n) K} {x : Svd.St K m n} (hx : Svd.Rep S x.u.f x.v.f (Bi.bEnt x.s.f x.e.f))
    (h1 : x.s.f (p - 1) = 0) (h2 : ∀ i, k ≤ i → i < p - 1 → x.e.f i ≠ 0) (h3 : 0 < k → x.e.f (k - 1) = 0) :
    ∃ x', Svd.deflate hyp p k x = .ok x' ∧ Svd.Rep S x'.u.f x'.v.f (Bi.bEnt x'.s.f x'.e.f) ∧
      (∀ i, (i < k ∨ p - 1 ≤ i) → x'.e.f i = x.e.f i) ∧ (∀ i, p ≤ i → x'.s.f i = x.s.f i) ∧
      x'.e.f (p - 2) = 0 := by
  unfold Svd.deflate
  rw [Row.get_ok (by omega), ok_bind, Row.set_ok (by omega), ok_bind]
  obtain ⟨w, e, r1, r2, r3, r4, r5, r6, r7, r8⟩ := Wp.exists_ok (wp_forDown (ε := Fault) (a := p - 1) (b := k)
    (body := Svd.deflateStep hyp p k) (s := (x.e.f (p - 2), ⟨x.s, ⟨upd1 x.e.f (p - 2) Flt.zero⟩, x.u, x.v⟩))
    (E := fun _ => False)
    (fun i (w : K × Svd.St K m n) => Svd.Rep S w.2.u.f w.2.v.f (Svd.WD p k i w.1 w.2.s.f w.2.e.f) ∧
      (k < i → w.1 ≠ 0) ∧ (∀ a, (a < k ∨ p - 1 ≤ a) → w.2.e.f a = x.e.f a) ∧ (∀ a, p ≤ a → w.2.s.f a = x.s.f a) ∧
      w.2.e.f (p - 2) = 0 ∧ w.2.s.f (p - 1) = 0 ∧ (∀ a, a + 1 < i → w.2.e.f a = x.e.f a) ∧ True) (by omega)
    ⟨by
      refine hx.congr fun a b ha hb => ?_
      dsimp only
      unfold Svd.WD
      rw [Svd.bEnt_exact, Svd.bEnt_exact]
      simp only [upd1_eq, Exact.zero_eq]
      by_cases c : a + 1 = p - 1
      · obtain rfl : a = p - 2 := by omega
        split_ifs <;> first | rfl | (exfalso; omega)
      · split_ifs <;> first | rfl | (exfalso; omega),
     fun _ => h2 _ (by omega) (by omega),
     fun a ha => by dsimp only; rw [upd1_eq, if_neg (by omega)], fun a ha => rfl,
     by dsimp only; rw [upd1_eq, if_pos rfl, Exact.zero_eq], h1,
     fun a ha => by dsimp only; rw [upd1_eq, if_neg (by omega)], trivial⟩
    (fun j w g1 g2 ⟨q1, q2, q3, q4, q5, q6, q7, _⟩ => by
      obtain ⟨w', e, D⟩ := Svd.deflateStep_ok hyp (k := k) g2 hp w
      obtain ⟨t0, t1, t2, t3⟩ := Svd.hyp_unit hh (a := w.2.s.f j) (b := w.1) (.inr (q2 (by omega)))
      have hs := D.s
      have he := D.e
      have hf := D.f
      have hu := D.u
      have hv := D.v
      generalize hyp (w.2.s.f j) w.1 = t at *
      simp only [Exact.div_eq, Exact.mul_eq, Exact.neg_eq] at he hf hv
      refine wp_of_eq_ok e ⟨?_, fun hkj => ?_, fun a ha => ?_, fun a ha => ?_, ?_, ?_, fun a ha => ?_, trivial⟩
      · rw [hu]
        refine q1.turnV (show j < n by omega) (show p - 1 < n by omega) (by omega) t1 hv fun a b ha hb => ?_
        exact Svd.WD_step g1 g2 t2 t3 hs he hf (fun c => by rw [q3 _ (by omega), h3 c]) q5 q6 a b
      · rw [hf, if_pos (by omega)]
        refine mul_ne_zero (neg_ne_zero.2 (div_ne_zero (q2 (by omega)) t0)) ?_
        rw [q7 _ (by omega)]
        exact h2 _ (by omega) (by omega)
      · rw [he]
        split_ifs
        · rw [upd1_eq, if_neg (by omega), q3 a ha]
        · exact q3 a ha
      · rw [hs, upd1_eq, if_neg (by omega), q4 a ha]
      · rw [he]
        split_ifs
        · rw [upd1_eq, if_neg (by omega), q5]
        · exact q5
      · rw [hs, upd1_eq, if_neg (by omega), q6]
      · rw [he]
        split_ifs
        · rw [upd1_eq, if_neg (by omega), q7 a (by omega)]
        · exact q7 a (by omega)))
  rw [e, ok_bind]
  refine ⟨_, rfl, r1.congr fun a b _ _ => ?_, r3, r4, r5⟩
  rw [Svd.WD, if_neg (by omega)]

/-! ## Case 2 -/

/-- The matrix during case 2: the entry `f` in row `k - 1` and column `j`. -/
def Svd.WS (p k j : Nat) (f : K) (s e : Nat → K) (a b : Nat) : K :=
  if j < p ∧ a + 1 = k ∧ b = j then f else Bi.bEnt s e a b

set_option maxHeartbeats 1600000 in
/-- A step of case 2 rotates rows `j` and `k - 1`. -/
theorem Svd.WS_step {p k j : Nat} (hk0 : 0 < k) (g1 : k ≤ j) (g2 : j < p) {cs sn t f f' : K} {s e s' e' : Nat → K}
    (t2 : cs * s j + sn * f = t) (t3 : -sn * s j + cs * f = 0)
    (hs : s' = upd1 s j t) (he : e' = upd1 e j (cs * e j)) (hf : f' = -sn * e j)
    (hlast : j = p - 1 → e j = 0) (q6 : e (k - 1) = 0) (q7 : s (k - 1) = 0) (a b : Nat) :
    Svd.WS p k (j + 1) f' s' e' a b = Svd.rt j (k - 1) cs sn (fun x => Svd.WS p k j f s e x b) a := by
  rw [Svd.rt_exact]
  unfold Svd.WS
  simp only [Svd.bEnt_exact]
  rw [hs, hf, he]
  simp only [upd1_eq]
  by_cases caj : a = j
  · by_cases cbj : b = j
    · ifs
      rw [t2]
    · by_cases cbj' : b = j + 1
      · ifs; ring
      · by_cases cbk : b = k - 1
        · ifs; rw [q7]; ring
        · by_cases cbk : b = k
          · ifs; rw [q6]; ring
          · ifs; ring
  · by_cases cak : a = k - 1
    · by_cases cbj : b = j
      · by_cases c : j = k
        · ifs; rw [cak, q6, t3]
        · ifs; rw [t3]
      · by_cases cbj' : b = j + 1
        · by_cases cl : j = p - 1
          · ifs; rw [hlast cl]; ring
          · ifs; ring
        · by_cases cbk : b = k - 1
          · ifs; rw [cak, q7]; ring
          · by_cases cbk : b = k
            · ifs; rw [cak, q6]; ring
            · ifs; ring
    · ifs

theorem Svd.split_exact {hyp : K → K → K} (hh : Spec.Hypot hyp) {p k : Nat} (hk0 : 0 < k) (hk : k < p) (hp : p ≤ n)
    {S : Matrix (Fin m) (Fin n) K} {x : Svd.St K m n} (hx : Svd.Rep S x.u.f x.v.f (Bi.bEnt x.s.f x.e.f))
    (h1 : x.s.f (k - 1) = 0) (h2 : ∀ i, k ≤ i → i < p → x.s.f i ≠ 0) (h3 : x.e.f (p - 1) = 0) :
    ∃ x', Svd.split hyp p k x = .ok x' ∧ Svd.Rep S x'.u.f x'.v.f (Bi.bEnt x'.s.f x'.e.f) ∧
      (∀ i, (i + 1 < k ∨ p - 1 ≤ i) → x'.e.f i = x.e.f i) ∧ (∀ i, p ≤ i → x'.s.f i = x.s.f i) ∧
      x'.e.f (k - 1) = 0 := by
  unfold Svd.split
  rw [Row.get_ok (by omega), ok_bind, Row.set_ok (by omega), ok_bind]
  obtain ⟨w, e, r1, r2, r3, r4, r5, r6, r7, r8⟩ := Wp.exists_ok (wp_forUp (ε := Fault) (a := k) (b := p)
    (body := Svd.splitStep hyp k) (s := (x.e.f (k - 1), ⟨x.s, ⟨upd1 x.e.f (k - 1) Flt.zero⟩, x.u, x.v⟩))
    (E := fun _ => False)
    (fun j (w : K × Svd.St K m n) => Svd.Rep S w.2.u.f w.2.v.f (Svd.WS p k j w.1 w.2.s.f w.2.e.f) ∧
      (∀ a, j ≤ a → w.2.s.f a = x.s.f a) ∧ (∀ a, a + 1 < k → w.2.e.f a = x.e.f a) ∧
      (∀ a, p - 1 ≤ a → w.2.e.f a = x.e.f a) ∧
      (∀ a, p ≤ a → w.2.s.f a = x.s.f a) ∧ w.2.e.f (k - 1) = 0 ∧ w.2.s.f (k - 1) = 0 ∧ True) (by omega)
    ⟨by
      refine hx.congr fun a b ha hb => ?_
      dsimp only
      unfold Svd.WS
      simp only [Svd.bEnt_exact, upd1_eq, Exact.zero_eq]
      by_cases c : a + 1 = k
      · obtain rfl : a = k - 1 := by omega
        split_ifs <;> first | rfl | (exfalso; omega)
      · split_ifs <;> first | rfl | (exfalso; omega),
     fun a ha => rfl, fun a ha => by dsimp only; rw [upd1_eq, if_neg (by omega)],
     fun a ha => by dsimp only; rw [upd1_eq, if_neg (by omega)], fun a ha => rfl,
     by dsimp only; rw [upd1_eq, if_pos rfl, Exact.zero_eq], h1, trivial⟩
    (fun j w g1 g2 ⟨q1, q2, q3, q4, q5, q6, q7, _⟩ => by
      obtain ⟨w', e, D⟩ := Svd.splitStep_ok hyp (k := k) g1 (show j < n by omega) w
      obtain ⟨t0, t1, t2, t3⟩ := Svd.hyp_unit hh (a := w.2.s.f j) (b := w.1)
        (.inl (by rw [q2 j le_rfl]; exact h2 j g1 g2))
      have hs := D.s
      have he := D.e
      have hf := D.f
      have hu := D.u
      have hv := D.v
      generalize hyp (w.2.s.f j) w.1 = t at *
      simp only [Exact.div_eq, Exact.mul_eq, Exact.neg_eq] at he hf hu
      have hlast : j = p - 1 → w.2.e.f j = 0 := fun c => by rw [q4 j (by omega), c, h3]
      refine wp_of_eq_ok e ⟨?_, fun a ha => ?_, fun a ha => ?_, fun a ha => ?_, fun a ha => ?_, ?_, ?_, trivial⟩
      · rw [hv]
        refine q1.turnU (show j < n by omega) (show k - 1 < n by omega) (by omega) t1 hu fun a b ha hb => ?_
        exact Svd.WS_step hk0 g1 g2 t2 t3 hs he hf hlast q6 q7 a b
      · rw [hs, upd1_eq, if_neg (by omega), q2 a (by omega)]
      · rw [he, upd1_eq, if_neg (by omega), q3 a ha]
      · rw [he, upd1_eq]
        split_ifs with c
        · rw [hlast (by omega), show a = p - 1 by omega, h3, mul_zero]
        · exact q4 a ha
      · rw [hs, upd1_eq, if_neg (by omega), q5 a ha]
      · rw [he, upd1_eq, if_neg (by omega), q6]
      · rw [hs, upd1_eq, if_neg (by omega), q7]))
  rw [e, ok_bind]
  refine ⟨_, rfl, r1.congr fun a b _ _ => ?_, fun i hi => hi.elim (r3 i) (r4 i), r5, r6⟩
  rw [Svd.WS, if_neg (by omega)]

/-! ## Case 3 -/

/-- The matrix between the steps of case 3. -/
def Svd.WC (k j : Nat) (f g : K) (s e : Nat → K) (a b : Nat) : K :=
  if k < j ∧ a + 1 = j then (if b = a then s a else if b = a + 1 then f else if b = a + 2 then g else 0)
  else Bi.bEnt s e a b

/-- The matrix after the first half of a step of case 3. -/
def Svd.WM (j : Nat) (f g : K) (s e : Nat → K) (a b : Nat) : K :=
  if a = j then (if b = j then f else if b = j + 1 then e j else 0)
  else if a = j + 1 then
    (if b = j then g else if b = j + 1 then s (j + 1) else if b = j + 2 then e (j + 1) else 0)
  else Bi.bEnt s e a b

set_option maxHeartbeats 1600000 in
/-- The first half of a step of case 3 rotates columns `j` and `j + 1`. -/
theorem Svd.WV_step {k j : Nat} (hk : k ≤ j) {cs sn t f g f' g' : K} {s e s' e' : Nat → K}
    (t2 : j ≠ k → cs * f + sn * g = t) (t3 : j ≠ k → -sn * f + cs * g = 0)
    (hf : f' = cs * s j + sn * e j) (hg' : g' = sn * s (j + 1)) (hs : s' = upd1 s (j + 1) (cs * s (j + 1)))
    (he : e' = upd1 (if j ≠ k then upd1 e (j - 1) t else e) j (cs * e j - sn * s j))
    (h3 : 0 < k → e (k - 1) = 0) (a b : Nat) :
    Svd.WM j f' g' s' e' a b = Svd.rt j (j + 1) cs sn (Svd.WC k j f g s e a) b := by
  rw [Svd.rt_exact]
  unfold Svd.WM Svd.WC
  simp only [Svd.bEnt_exact]
  rw [hs, he, hf, hg']
  simp only [upd1_eq]
  by_cases ca : a = j
  · by_cases cb : b = j
    · ifs; rw [ca]
    · by_cases cb' : b = j + 1
      · ifs; rw [ca]; ring
      · ifs
  · by_cases ca' : a = j + 1
    · by_cases cb : b = j
      · ifs; rw [ca']; ring
      · by_cases cb' : b = j + 1
        · ifs; rw [ca']; ring
        · by_cases cb2 : b = j + 2
          · ifs; rw [ca']
            by_cases c : j ≠ k
            · rw [if_pos c, upd1_eq, if_neg (by omega)]
            · rw [if_neg c]
          · ifs
    · by_cases hjk : j = k
      · rw [if_neg (show ¬ j ≠ k by omega)]
        by_cases ca1 : a + 1 = j
        · have : e a = 0 := by rw [show a = k - 1 by omega, h3 (by omega)]
          by_cases cb : b = j
          · ifs; rw [this]; ring
          · by_cases cb' : b = j + 1
            · ifs; rw [this]; ring
            · ifs
        · by_cases cb : b = j
          · ifs; ring
          · by_cases cb' : b = j + 1
            · ifs; ring
            · ifs
      · rw [if_pos (show j ≠ k by omega)]
        simp only [upd1_eq]
        by_cases ca1 : a + 1 = j
        · by_cases cb : b = j
          · ifs; rw [t2 hjk]
          · by_cases cb' : b = j + 1
            · ifs; rw [t3 hjk]
            · by_cases cb2 : b = a
              · ifs
              · ifs
        · by_cases cb : b = j
          · ifs; ring
          · by_cases cb' : b = j + 1
            · ifs; ring
            · ifs

theorem Svd.chaseV_exact {hyp : K → K → K} (hh : Spec.Hypot hyp) {k j : Nat} (hk : k ≤ j) (hj : j + 1 < n)
    {S : Matrix (Fin m) (Fin n) K} {w : Svd.Ch K m n}
    (hw : Svd.Rep S w.x.u.f w.x.v.f (Svd.WC k j w.f w.g w.x.s.f w.x.e.f)) (hg : w.g ≠ 0)
    (h3 : 0 < k → w.x.e.f (k - 1) = 0) :
    ∃ w', Svd.chaseV k j (hyp w.f w.g) w = .ok w' ∧
      Svd.Rep S w'.x.u.f w'.x.v.f (Svd.WM j w'.f w'.g w'.x.s.f w'.x.e.f) ∧
      w'.g = w.g / hyp w.f w.g * w.x.s.f (j + 1) ∧ hyp w.f w.g ≠ 0 ∧
      (∀ i, i ≠ j + 1 → w'.x.s.f i = w.x.s.f i) ∧ (∀ i, (i < k ∨ j < i) → w'.x.e.f i = w.x.e.f i) := by
  obtain ⟨w', e, D⟩ := Svd.chaseV_ok hk hj (hyp w.f w.g) w
  obtain ⟨t0, t1, t2, t3⟩ := Svd.hyp_unit hh (a := w.f) (b := w.g) (.inr hg)
  have hs := D.s
  have he := D.e
  have hf := D.f
  have hg' := D.g
  have hu := D.u
  have hv := D.v
  rw [e]
  generalize hyp w.f w.g = t at *
  simp only [Exact.div_eq, Exact.mul_eq, Exact.add_eq, Exact.sub_eq] at hs he hf hg' hv
  refine ⟨w', rfl, ?_, hg', t0, fun i hi => by rw [hs, upd1_eq, if_neg hi], fun i hi => ?_⟩
  · rw [hu]
    refine hw.turnV (show j < n by omega) hj (by omega) t1 hv fun a b ha hb => ?_
    exact Svd.WV_step hk (fun _ => t2) (fun _ => t3) hf hg' hs he h3 a b
  · rw [he, upd1_eq, if_neg (by omega)]
    split_ifs
    · rw [upd1_eq, if_neg (by omega)]
    · rfl

set_option maxHeartbeats 1600000 in
/-- The second half of a step of case 3 rotates rows `j` and `j + 1`. -/
theorem Svd.WU_step {k j : Nat} (hk : k ≤ j) {cs sn t f g f' g' : K} {s e s' e' : Nat → K}
    (t2 : cs * f + sn * g = t) (t3 : -sn * f + cs * g = 0)
    (hf : f' = cs * e j + sn * s (j + 1)) (hg' : g' = sn * e (j + 1))
    (hs : s' = upd1 (upd1 s j t) (j + 1) (-sn * e j + cs * s (j + 1))) (he : e' = upd1 e (j + 1) (cs * e (j + 1)))
    (a b : Nat) :
    Svd.WC k (j + 1) f' g' s' e' a b = Svd.rt j (j + 1) cs sn (fun x => Svd.WM j f g s e x b) a := by
  rw [Svd.rt_exact]
  unfold Svd.WM Svd.WC
  simp only [Svd.bEnt_exact]
  rw [hs, he, hf, hg']
  simp only [upd1_eq]
  by_cases ca : a = j
  · by_cases cb : b = j
    · ifs; rw [t2]
    · by_cases cb' : b = j + 1
      · ifs
      · by_cases cb2 : b = j + 2
        · ifs; ring
        · ifs; ring
  · by_cases ca' : a = j + 1
    · by_cases cb : b = j
      · ifs; rw [t3]
      · by_cases cb' : b = j + 1
        · ifs
        · by_cases cb2 : b = j + 2
          · ifs; ring
          · ifs; ring
    · ifs

theorem Svd.chaseU_exact {hyp : K → K → K} (hh : Spec.Hypot hyp) {k j : Nat} (hk : k ≤ j) (hj : j + 1 < n) (hm : n ≤ m)
    {S : Matrix (Fin m) (Fin n) K} {w : Svd.Ch K m n}
    (hw : Svd.Rep S w.x.u.f w.x.v.f (Svd.WM j w.f w.g w.x.s.f w.x.e.f)) (hg : w.g ≠ 0) :
    ∃ w', Svd.chaseU j (hyp w.f w.g) w = .ok w' ∧
      Svd.Rep S w'.x.u.f w'.x.v.f (Svd.WC k (j + 1) w'.f w'.g w'.x.s.f w'.x.e.f) ∧
      w'.g = w.g / hyp w.f w.g * w.x.e.f (j + 1) ∧ hyp w.f w.g ≠ 0 ∧
      w'.x.e.f (j + 1) = w.f / hyp w.f w.g * w.x.e.f (j + 1) ∧
      (∀ i, j + 1 < i → w'.x.s.f i = w.x.s.f i) ∧ (∀ i, i ≠ j + 1 → w'.x.e.f i = w.x.e.f i) := by
  obtain ⟨w', e, D⟩ := Svd.chaseU_ok hj hm (hyp w.f w.g) w
  obtain ⟨t0, t1, t2, t3⟩ := Svd.hyp_unit hh (a := w.f) (b := w.g) (.inr hg)
  have hs := D.s
  have he := D.e
  have hf := D.f
  have hg' := D.g
  have hu := D.u
  have hv := D.v
  rw [e]
  generalize hyp w.f w.g = t at *
  simp only [Exact.div_eq, Exact.mul_eq, Exact.add_eq, Exact.neg_eq] at hs he hf hg' hu
  refine ⟨w', rfl, ?_, hg', t0, by rw [he, upd1_eq, if_pos rfl], fun i hi => ?_, fun i hi => ?_⟩
  · rw [hv]
    refine hw.turnU (show j < n by omega) hj (by omega) t1 hu fun a b ha hb => ?_
    exact Svd.WU_step hk t2 t3 hf hg' hs he a b
  · rw [hs, upd1_eq, if_neg (by omega), upd1_eq, if_neg (by omega)]
  · rw [he, upd1_eq, if_neg hi]

/-- The first pair of the chase has a second entry that is not zero. -/
theorem Svd.first_ne (s1 s2 e2 : K) {sk ek : K} (h1 : sk ≠ 0) (h2 : ek ≠ 0) : (Svd.first s1 s2 e2 sk ek).2 ≠ 0 := by
  have h : Svd.scale s1 s2 e2 sk ek ≠ 0 := by
    have : |ek| ≤ Svd.scale s1 s2 e2 sk ek := by
      unfold Svd.scale
      simp only [Exact.max_eq, Exact.abs_eq]
      exact le_max_right _ _
    have h3 : 0 < |ek| := abs_pos.2 h2
    exact (lt_of_lt_of_le h3 this).ne'
  unfold Svd.first Svd.start
  simp only [Exact.mul_eq, Exact.div_eq]
  exact mul_ne_zero (div_ne_zero h1 h) (div_ne_zero h2 h)

theorem Svd.qr_exact {hyp : K → K → K} (hh : Spec.Hypot hyp) {p k : Nat} (hk : k < p - 1) (hp : p ≤ n) (hm : n ≤ m)
    {S : Matrix (Fin m) (Fin n) K} {x : Svd.St K m n} (hx : Svd.Rep S x.u.f x.v.f (Bi.bEnt x.s.f x.e.f))
    (h1 : ∀ i, k ≤ i → i < p → x.s.f i ≠ 0) (h2 : ∀ i, k ≤ i → i < p - 1 → x.e.f i ≠ 0)
    (h3 : 0 < k → x.e.f (k - 1) = 0) (h4 : x.e.f (p - 1) = 0) :
    ∃ x', Svd.qr hyp p k x = .ok x' ∧ Svd.Rep S x'.u.f x'.v.f (Bi.bEnt x'.s.f x'.e.f) ∧
      (∀ i, (i < k ∨ p - 1 ≤ i) → x'.e.f i = x.e.f i) ∧ (∀ i, p ≤ i → x'.s.f i = x.s.f i) := by
  unfold Svd.qr
  rw [Row.get_ok (by omega), ok_bind, Row.get_ok (by omega), ok_bind, Row.get_ok (by omega), ok_bind,
    Row.get_ok (by omega), ok_bind, Row.get_ok (by omega), ok_bind]
  have hg0 := Svd.first_ne (x.s.f (p - 1)) (x.s.f (p - 2)) (x.e.f (p - 2)) (h1 k le_rfl (by omega)) (h2 k le_rfl hk)
  generalize Svd.first (x.s.f (p - 1)) (x.s.f (p - 2)) (x.e.f (p - 2)) (x.s.f k) (x.e.f k) = fg at *
  obtain ⟨w, e, r1, r2, r3, r4, r5, r6⟩ := Wp.exists_ok (wp_forUp (ε := Fault) (a := k) (b := p - 1)
    (body := Svd.chase hyp k) (s := (⟨fg.1, fg.2, x⟩ : Svd.Ch K m n)) (E := fun _ => False)
    (fun j (w : Svd.Ch K m n) => Svd.Rep S w.x.u.f w.x.v.f (Svd.WC k j w.f w.g w.x.s.f w.x.e.f) ∧
      (j < p - 1 → w.g ≠ 0) ∧ (j = p - 1 → w.g = 0) ∧ (∀ a, j < a → w.x.s.f a = x.s.f a) ∧
      (∀ a, (a < k ∨ j < a ∨ a = p - 1) → w.x.e.f a = x.e.f a) ∧ True) (by omega)
    ⟨by
      refine hx.congr fun a b ha hb => ?_
      dsimp only
      rw [Svd.WC, if_neg (by omega)],
     fun _ => hg0, fun h => by omega, fun a ha => rfl, fun a ha => rfl, trivial⟩
    (fun j w g1 g2 ⟨q1, q2, q3, q4, q5, _⟩ => by
      unfold Svd.chase
      obtain ⟨w1, e1, a1, a2, a3, a4, a5⟩ := Svd.chaseV_exact hh g1 (show j + 1 < n by omega) q1 (q2 g2)
        (fun h => by rw [q5 _ (by omega), h3 h])
      have hg1 : w1.g ≠ 0 := by
        rw [a2]
        refine mul_ne_zero (div_ne_zero (q2 g2) a3) ?_
        rw [q4 _ (by omega)]
        exact h1 _ (by omega) (by omega)
      obtain ⟨w2, e2, b1, b2, b3, b4, b5, b6⟩ := Svd.chaseU_exact hh g1 (show j + 1 < n by omega) hm a1 hg1
      rw [e1, ok_bind]
      have he1 : w1.x.e.f (j + 1) = x.e.f (j + 1) := by rw [a5 _ (by omega), q5 _ (by omega)]
      refine wp_of_eq_ok e2 ⟨b1, fun h => ?_, fun h => ?_, fun a ha => ?_, fun a ha => ?_, trivial⟩
      · rw [b2, he1]
        exact mul_ne_zero (div_ne_zero hg1 b3) (h2 _ (by omega) h)
      · rw [b2, he1, h, h4, mul_zero]
      · rw [b5 a ha, a4 a (by omega), q4 a (by omega)]
      · by_cases c : a = j + 1
        · rw [c, b4, he1]
          have : j + 1 = p - 1 := by omega
          rw [this, h4, mul_zero]
        · rw [b6 a c, a5 a (by omega), q5 a (by omega)]))
  rw [e, ok_bind, Row.set_ok (by omega), ok_bind]
  refine ⟨_, rfl, r1.congr fun a b _ _ => ?_, fun i hi => ?_, fun i hi => ?_⟩
  · unfold Svd.WC
    simp only [Svd.bEnt_exact, upd1_eq]
    rw [r3 rfl]
    by_cases ca : a = p - 2
    · split_ifs <;> first | rfl | (exfalso; omega)
    · split_ifs <;> first | rfl | (exfalso; omega)
  · dsimp only
    rw [upd1_eq, if_neg (by omega)]
    exact r5 i (by omega)
  · exact r4 i (by omega)

end Linear
