import Verif.Lemmas.SvdConv
import Verif.Lemmas.SvdReduce

/-!
# The invariant of the whole iteration of the singular value decomposition
-/

set_option linter.unusedSectionVars false

namespace Linear

open Spec Finset Matrix

variable {K : Type} [Field K] [LinearOrder K] [IsStrictOrderedRing K] [Flt K] [Exact K] {m n : Nat}

/-! ## Frobenius norms -/

theorem fro2_left {r : Nat} (X : Matrix (Fin n) (Fin r) K) {U : Matrix (Fin m) (Fin n) K} (hU : Uᵀ * U = 1) :
    fro2 (U * X) = fro2 X := by
  rw [fro2_trace, fro2_trace, Matrix.transpose_mul, Matrix.trace_mul_comm, Matrix.mul_assoc, ← Matrix.mul_assoc Uᵀ,
    hU, Matrix.one_mul, Matrix.trace_mul_comm]

theorem fro2_right {r : Nat} (X : Matrix (Fin r) (Fin n) K) {V : Matrix (Fin m) (Fin n) K} (hV : Vᵀ * V = 1) :
    fro2 (X * Vᵀ) = fro2 X := by
  rw [fro2_trace, fro2_trace, Matrix.transpose_mul, Matrix.transpose_transpose, Matrix.mul_assoc,
    ← Matrix.mul_assoc Vᵀ, hV, Matrix.one_mul]

theorem fro2_add {r c : Nat} {E X : Matrix (Fin r) (Fin c) K} {a b : K} (ha : 0 ≤ a) (hb : 0 ≤ b)
    (hE : fro2 E ≤ a ^ 2) (hX : fro2 X ≤ b ^ 2) : fro2 (E + X) ≤ (a + b) ^ 2 := by
  have hcs := Finset.sum_mul_sq_le_sq_mul_sq (univ : Finset (Fin r × Fin c)) (fun p => E p.1 p.2) (fun p => X p.1 p.2)
  have e1 : ∀ A : Matrix (Fin r) (Fin c) K, ∑ p : Fin r × Fin c, A p.1 p.2 ^ 2 = fro2 A := fun A =>
    Fintype.sum_prod_type (f := fun p : Fin r × Fin c => A p.1 p.2 ^ 2)
  rw [e1, e1] at hcs
  have e2 : fro2 (E + X) = fro2 E + 2 * (∑ p : Fin r × Fin c, E p.1 p.2 * X p.1 p.2) + fro2 X := by
    rw [← e1, ← e1, ← e1, mul_sum, ← sum_add_distrib, ← sum_add_distrib]
    refine sum_congr rfl fun p _ => ?_
    rw [Matrix.add_apply]
    ring
  generalize ∑ p : Fin r × Fin c, E p.1 p.2 * X p.1 p.2 = q at *
  have h1 : q ^ 2 ≤ (a * b) ^ 2 := by
    rw [mul_pow]
    exact hcs.trans (mul_le_mul hE hX (fro2_nonneg _) (sq_nonneg _))
  have h2 : q ≤ a * b := (le_abs_self q).trans (by
    have := sq_le_sq.1 h1
    rwa [abs_of_nonneg (mul_nonneg ha hb)] at this)
  rw [e2]
  nlinarith

theorem fro2_single {X : Matrix (Fin n) (Fin n) K} {i j : Nat} {d : K}
    (h : ∀ a b : Fin n, ¬ (a.1 = i ∧ b.1 = j) → X a b = 0) (h2 : ∀ a b : Fin n, a.1 = i → b.1 = j → |X a b| ≤ d) :
    fro2 X ≤ d ^ 2 := by
  by_cases hi : i < n
  · by_cases hj : j < n
    · unfold fro2
      rw [sum_eq_single (⟨i, hi⟩ : Fin n), sum_eq_single (⟨j, hj⟩ : Fin n)]
      · rw [← sq_abs]
        exact pow_le_pow_left₀ (abs_nonneg _) (h2 _ _ rfl rfl) 2
      · intro b _ hb
        rw [h _ _ fun c => hb (Fin.ext c.2), zero_pow two_ne_zero]
      · intro c; exact absurd (mem_univ _) c
      · intro a _ ha
        exact sum_eq_zero fun b _ => by rw [h _ _ fun c => ha (Fin.ext c.1), zero_pow two_ne_zero]
      · intro c; exact absurd (mem_univ _) c
    · rw [show fro2 X = 0 from sum_eq_zero fun a _ => sum_eq_zero fun b _ => by
        rw [h a b (by omega), zero_pow two_ne_zero]]
      positivity
  · rw [show fro2 X = 0 from sum_eq_zero fun a _ => sum_eq_zero fun b _ => by
      rw [h a b (by omega), zero_pow two_ne_zero]]
    positivity

theorem Svd.Rep.fro {S : Matrix (Fin m) (Fin n) K} {u v W : Nat → Nat → K} (h : Svd.Rep S u v W) :
    fro2 S = fro2 (mx n n W) := by rw [← h.prod, fro2_right _ h.ov, fro2_left _ h.ou]

/-- Neglecting one entry. -/
theorem Svd.Rep.neglect {S A : Matrix (Fin m) (Fin n) K} {u v W W' : Nat → Nat → K} (h : Svd.Rep S u v W) {i j : Nat}
    {a d : K} (ha : 0 ≤ a) (hd : 0 ≤ d) (hSA : fro2 (S - A) ≤ a ^ 2)
    (h1 : ∀ x y, x < n → y < n → ¬ (x = i ∧ y = j) → W' x y = W x y) (h2 : W' i j = 0) (h3 : |W i j| ≤ d) :
    ∃ S', Svd.Rep S' u v W' ∧ fro2 (S' - A) ≤ (a + d) ^ 2 ∧ fro2 S' ≤ fro2 S := by
  refine ⟨mx m n u * mx n n W' * (mx n n v)ᵀ, ⟨rfl, h.ou, h.ov⟩, ?_, ?_⟩
  · have e : mx m n u * mx n n W' * (mx n n v)ᵀ - A =
        (S - A) + mx m n u * (mx n n W' - mx n n W) * (mx n n v)ᵀ := by
      rw [Matrix.mul_sub, Matrix.sub_mul, h.prod]
      abel
    rw [e]
    refine fro2_add ha hd hSA ?_
    rw [fro2_right _ h.ov, fro2_left _ h.ou]
    refine fro2_single (i := i) (j := j) (fun x y hxy => ?_) (fun x y hx hy => ?_)
    · show W' x y - W x y = 0
      rw [h1 x y x.2 y.2 hxy, sub_self]
    · show |W' x y - W x y| ≤ d
      rw [hx, hy, h2, zero_sub, abs_neg]
      exact h3
  · rw [fro2_right _ h.ov, fro2_left _ h.ou, h.fro]
    refine fro2_mono fun x y => ?_
    show W' x y ^ 2 ≤ W x y ^ 2
    by_cases hxy : x.1 = i ∧ y.1 = j
    · rw [hxy.1, hxy.2, h2, zero_pow two_ne_zero]; exact sq_nonneg _
    · rw [h1 x y x.2 y.2 hxy]

/-! ## Case 4 -/

theorem Svd.sw_sw (i k y : Nat) : Eig.sw i k (Eig.sw i k y) = y := by
  unfold Eig.sw
  split_ifs <;> omega

theorem Svd.sw_lt {i k y : Nat} (hi : i < n) (hk : k < n) (hy : y < n) : Eig.sw i k y < n := by
  unfold Eig.sw
  split_ifs <;> omega

theorem Svd.sum_sw {i k : Nat} (hi : i < n) (hk : k < n) (f : Nat → K) :
    ∑ y ∈ range n, f (Eig.sw i k y) = ∑ y ∈ range n, f y :=
  Finset.sum_nbij' (Eig.sw i k) (Eig.sw i k) (fun _ hy => mem_range.2 (Svd.sw_lt hi hk (mem_range.1 hy)))
    (fun _ hy => mem_range.2 (Svd.sw_lt hi hk (mem_range.1 hy))) (fun y _ => Svd.sw_sw i k y)
    (fun y _ => Svd.sw_sw i k y) (fun _ _ => rfl)

theorem Svd.orth_iff {r : Nat} (u : Nat → Nat → K) : (mx r n u)ᵀ * mx r n u = 1 ↔
    ∀ i j, i < n → j < n → ∑ x ∈ range r, u x i * u x j = if i = j then 1 else 0 := by
  rw [mx_transpose, mx_mul, ← mx_one]
  exact ⟨fun h i j hi hj => mx_inj h hi hj, fun h => mx_congr h⟩

theorem Svd.Rep.neg {S : Matrix (Fin m) (Fin n) K} {u v v' W W' : Nat → Nat → K} (h : Svd.Rep S u v W) {k : Nat}
    (hv : ∀ i j, i < n → j < n → v' i j = if j = k then -v i k else v i j)
    (hW : ∀ i j, i < n → j < n → W' i j = if j = k then -W i k else W i j) : Svd.Rep S u v' W' := by
  refine ⟨?_, h.ou, ?_⟩
  · rw [← h.prod, Matrix.mul_assoc, Matrix.mul_assoc]
    congr 1
    rw [mx_transpose, mx_transpose, mx_mul, mx_mul]
    refine mx_congr fun i j hi hj => sum_congr rfl fun y hy => ?_
    have hy := mem_range.1 hy
    rw [hW i y hi hy, hv j y hj hy]
    split_ifs with c
    · rw [c]; ring
    · rfl
  · have h2 := h.ov
    rw [Svd.orth_iff] at h2 ⊢
    intro i j hi hj
    have := h2 i j hi hj
    rw [sum_congr rfl (g := fun x => (if i = k then -1 else 1) * (if j = k then -1 else 1) * (v x i * v x j))
      fun x hx => by
        rw [hv x i (mem_range.1 hx) hi, hv x j (mem_range.1 hx) hj]
        split_ifs with c c'
        · rw [c, c']; ring
        · rw [c]; ring
        · rename_i c'; rw [c']; ring
        · ring, ← mul_sum, this]
    by_cases c : i = j
    · rw [if_pos c, c]; split_ifs <;> ring
    · rw [if_neg c]; ring

theorem Svd.Rep.swap {S : Matrix (Fin m) (Fin n) K} {u u' v v' W W' : Nat → Nat → K} (h : Svd.Rep S u v W) {k : Nat}
    (hk : k + 1 < n)
    (hu : ∀ i y, i < m → u' i y = u i (Eig.sw k (k + 1) y)) (hv : ∀ i y, i < n → v' i y = v i (Eig.sw k (k + 1) y))
    (hW : ∀ i j, i < n → j < n → W' i j = W (Eig.sw k (k + 1) i) (Eig.sw k (k + 1) j)) : Svd.Rep S u' v' W' := by
  have hk' : k < n := by omega
  have orth : ∀ {r : Nat} {u u' : Nat → Nat → K}, (mx r n u)ᵀ * mx r n u = 1 →
      (∀ i y, i < r → u' i y = u i (Eig.sw k (k + 1) y)) → (mx r n u')ᵀ * mx r n u' = 1 := by
    intro r u u' h hu
    rw [Svd.orth_iff] at h ⊢
    intro i j hi hj
    rw [sum_congr rfl fun x hx => by rw [hu x i (mem_range.1 hx), hu x j (mem_range.1 hx)],
      h _ _ (Svd.sw_lt hk' hk hi) (Svd.sw_lt hk' hk hj)]
    refine if_congr ⟨fun h => ?_, fun h => by rw [h]⟩ rfl rfl
    rw [← Svd.sw_sw k (k + 1) i, h, Svd.sw_sw]
  refine ⟨?_, orth h.ou hu, orth h.ov hv⟩
  rw [← h.prod, mx_transpose, mx_transpose, mx_mul, mx_mul, mx_mul, mx_mul]
  refine mx_congr fun i j hi hj => ?_
  rw [← Svd.sum_sw hk' hk fun y => (∑ x ∈ range n, u i x * W x y) * v j y]
  refine sum_congr rfl fun y hy => ?_
  rw [hv j y hj, ← Svd.sum_sw hk' hk fun x => u i x * W x (Eig.sw k (k + 1) y)]
  congr 1
  refine sum_congr rfl fun x hx => ?_
  rw [hu i x hi, hW x y (mem_range.1 hx) (mem_range.1 hy)]

/-- The exchange of two entries of the diagonal where the entries above it are zero. -/
theorem Svd.bEnt_sw {k q : Nat} (h2 : q ≤ k) (hk : k + 1 < n) {s e : Nat → K} (hz : ∀ i, q ≤ i + 1 → i < n → e i = 0)
    (i j : Nat) (hi : i < n) :
    Bi.bEnt (fun y => s (Eig.sw k (k + 1) y)) e i j = Bi.bEnt s e (Eig.sw k (k + 1) i) (Eig.sw k (k + 1) j) := by
  obtain ⟨s1, hs1⟩ : ∃ s1 : Nat → K, s1 = fun y => s (Eig.sw k (k + 1) y) := ⟨_, rfl⟩
  have sk : s1 k = s (k + 1) := by rw [hs1]; exact congrArg _ (if_pos rfl)
  have sk1 : s1 (k + 1) = s k := by
    rw [hs1]; exact congrArg _ (by unfold Eig.sw; rw [if_neg (by omega), if_pos rfl])
  have so : ∀ i, i ≠ k → i ≠ k + 1 → s1 i = s i := fun i c c' => by
    rw [hs1]; exact congrArg _ (by unfold Eig.sw; rw [if_neg c, if_neg c'])
  rw [← hs1]
  simp only [Svd.bEnt_exact]
  by_cases ci : i = k
  · have w1 : Eig.sw k (k + 1) i = k + 1 := if_pos ci
    rw [w1]
    by_cases cj : j = k
    · have s2 : Eig.sw k (k + 1) j = k + 1 := if_pos cj
      rw [s2, ci, cj]; ifs; exact sk
    · by_cases cj' : j = k + 1
      · have s2 : Eig.sw k (k + 1) j = k := by unfold Eig.sw; rw [if_neg cj, if_pos cj']
        rw [s2, ci, cj']; ifs; exact hz k (by omega) (by omega)
      · have s2 : Eig.sw k (k + 1) j = j := by unfold Eig.sw; rw [if_neg cj, if_neg cj']
        rw [s2, ci]
        by_cases cj2 : j = k + 1 + 1
        · ifs; exact (hz (k + 1) (by omega) (by omega)).symm
        · ifs
  · by_cases ci' : i = k + 1
    · have w1 : Eig.sw k (k + 1) i = k := by unfold Eig.sw; rw [if_neg ci, if_pos ci']
      rw [w1]
      by_cases cj : j = k
      · have s2 : Eig.sw k (k + 1) j = k + 1 := if_pos cj
        rw [s2, ci', cj]; ifs; exact (hz k (by omega) (by omega)).symm
      · by_cases cj' : j = k + 1
        · have s2 : Eig.sw k (k + 1) j = k := by unfold Eig.sw; rw [if_neg cj, if_pos cj']
          rw [s2, ci', cj']; ifs; exact sk1
        · have s2 : Eig.sw k (k + 1) j = j := by unfold Eig.sw; rw [if_neg cj, if_neg cj']
          rw [s2, ci']
          by_cases cj2 : j = k + 1 + 1
          · ifs; exact hz (k + 1) (by omega) (by omega)
          · ifs
    · have w1 : Eig.sw k (k + 1) i = i := by unfold Eig.sw; rw [if_neg ci, if_neg ci']
      rw [w1, so i ci ci']
      by_cases cj : j = k
      · have s2 : Eig.sw k (k + 1) j = k + 1 := if_pos cj
        rw [s2, cj]
        by_cases c : k = i + 1
        · ifs; exact hz i (by omega) (by omega)
        · ifs
      · by_cases cj' : j = k + 1
        · have s2 : Eig.sw k (k + 1) j = k := by unfold Eig.sw; rw [if_neg cj, if_pos cj']
          rw [s2, cj']
          by_cases c : k = i + 1
          · ifs; exact (hz i (by omega) (by omega)).symm
          · ifs
        · have s2 : Eig.sw k (k + 1) j = j := by unfold Eig.sw; rw [if_neg cj, if_neg cj']
          rw [s2]

theorem Svd.order_exact (hm : n ≤ m) {S : Matrix (Fin m) (Fin n) K} {q : Nat} (d : Nat) : ∀ (k : Nat) (x : Svd.St K m n),
    n ≤ k + d + 1 → q ≤ k → k < n → Svd.Rep S x.u.f x.v.f (Bi.bEnt x.s.f x.e.f) →
    (∀ i, q ≤ i + 1 → i < n → x.e.f i = 0) → (∀ i, q ≤ i → i < n → 0 ≤ x.s.f i) →
    (∀ i, q ≤ i → i + 1 < n → i ≠ k → x.s.f (i + 1) ≤ x.s.f i) → (q < k → k + 1 < n → x.s.f (k + 1) ≤ x.s.f (k - 1)) →
    ∃ x', Svd.order d k x = .ok x' ∧ Svd.Rep S x'.u.f x'.v.f (Bi.bEnt x'.s.f x'.e.f) ∧ x'.e = x.e ∧
      (∀ i, q ≤ i → i < n → 0 ≤ x'.s.f i) ∧ (∀ i, q ≤ i → i + 1 < n → x'.s.f (i + 1) ≤ x'.s.f i) := by
  induction d with
  | zero =>
    intro k x h1 h2 h3 h4 h5 h6 h7 h8
    exact ⟨x, rfl, h4, rfl, h6, fun i g1 g2 => h7 i g1 g2 (by omega)⟩
  | succ d ih =>
    intro k x h1 h2 h3 h4 h5 h6 h7 h8
    by_cases hk : k + 1 < n
    · by_cases hc : x.s.f (k + 1) ≤ x.s.f k
      · refine ⟨x, Svd.order_stop x fun _ => by rw [Exact.le_eq]; exact decide_eq_true hc, h4, rfl, h6,
          fun i g1 g2 => ?_⟩
        by_cases c : i = k
        · rw [c]; exact hc
        · exact h7 i g1 g2 c
      · obtain ⟨x1, e1, a1, a2, a3, a4⟩ := Svd.order_step (d := d) hk hm x
          (by rw [Exact.le_eq]; exact decide_eq_false hc)
        have hc := le_of_not_ge hc
        rw [e1]
        have sk : x1.s.f k = x.s.f (k + 1) := by rw [a2]; exact congrArg _ (if_pos rfl)
        have sk1 : x1.s.f (k + 1) = x.s.f k := by
          rw [a2]; exact congrArg _ (by unfold Eig.sw; rw [if_neg (by omega), if_pos rfl])
        have so : ∀ i, i ≠ k → i ≠ k + 1 → x1.s.f i = x.s.f i := fun i c c' => by
          rw [a2]; exact congrArg _ (by unfold Eig.sw; rw [if_neg c, if_neg c'])
        have g4 : Svd.Rep S x1.u.f x1.v.f (Bi.bEnt x1.s.f x1.e.f) := by
          refine h4.swap hk a3 a4 fun i j hi hj => ?_
          rw [a1, a2]
          exact Svd.bEnt_sw h2 hk h5 i j hi
        have g6 : ∀ i, q ≤ i → i < n → 0 ≤ x1.s.f i := by
          intro i g1 g2
          by_cases c : i = k
          · rw [c, sk]; exact h6 _ (by omega) hk
          · by_cases c' : i = k + 1
            · rw [c', sk1]; exact h6 _ h2 h3
            · rw [so i c c']; exact h6 i g1 g2
        have g7 : ∀ i, q ≤ i → i + 1 < n → i ≠ k + 1 → x1.s.f (i + 1) ≤ x1.s.f i := by
          intro i g1 g2 g3
          by_cases c : i = k
          · rw [c, sk, sk1]; exact hc
          · by_cases c' : i + 1 = k
            · rw [c', sk, so i c (by omega), show i = k - 1 by omega]; exact h8 (by omega) hk
            · rw [so i c g3, so (i + 1) c' (by omega)]; exact h7 i g1 g2 c
        have g8 : q < k + 1 → k + 1 + 1 < n → x1.s.f (k + 1 + 1) ≤ x1.s.f (k + 1 - 1) := by
          intro g1 g2
          rw [show k + 1 - 1 = k by omega, sk, so _ (by omega) (by omega)]
          exact h7 (k + 1) (by omega) g2 (by omega)
        obtain ⟨x', e', b1, b2, b3, b4⟩ := ih (k + 1) x1 (by omega) (by omega) hk g4 (fun i g1 g2 => by
          rw [a1]; exact h5 i g1 g2) g6 g7 g8
        exact ⟨x', e', b1, b2.trans a1, b3, b4⟩
    · exact ⟨x, Svd.order_stop x fun h => absurd h hk, h4, rfl, h6, fun i g1 g2 => h7 i g1 g2 (by omega)⟩

theorem Svd.converged_exact (hm : n ≤ m) {S : Matrix (Fin m) (Fin n) K} {k : Nat} (hk : k < n) {x : Svd.St K m n}
    (h1 : Svd.Rep S x.u.f x.v.f (Bi.bEnt x.s.f x.e.f)) (h2 : ∀ i, k ≤ i + 1 → i < n → x.e.f i = 0)
    (h3 : ∀ i, k < i → i < n → 0 ≤ x.s.f i) (h4 : ∀ i, k < i → i + 1 < n → x.s.f (i + 1) ≤ x.s.f i) :
    ∃ x', Svd.converged k x = .ok x' ∧ Svd.Rep S x'.u.f x'.v.f (Bi.bEnt x'.s.f x'.e.f) ∧ x'.e = x.e ∧
      (∀ i, k ≤ i → i < n → 0 ≤ x'.s.f i) ∧ (∀ i, k ≤ i → i + 1 < n → x'.s.f (i + 1) ≤ x'.s.f i) := by
  unfold Svd.converged
  obtain ⟨y, e, a1, a2, a3, a4⟩ := Svd.positive_ok hk x
  rw [e, ok_bind]
  rw [Exact.le_eq, Exact.zero_eq] at a3 a4
  have ey : y.e.f = x.e.f := by rw [a1]
  have key : Svd.Rep S y.u.f y.v.f (Bi.bEnt y.s.f y.e.f) ∧ 0 ≤ y.s.f k ∧ ∀ i, i ≠ k → y.s.f i = x.s.f i := by
    by_cases c : x.s.f k ≤ 0
    · obtain ⟨b1, b2⟩ := a3 (decide_eq_true c)
      have b1' : y.s.f = upd1 x.s.f k (-x.s.f k) := by
        rw [b1, Exact.lt_eq, Exact.neg_eq]
        congr 1
        split_ifs with c'
        · rfl
        · rw [le_antisymm c (not_lt.1 fun h => c' (decide_eq_true h)), neg_zero]
      refine ⟨?_, ?_, fun i hi => by rw [b1', upd1_eq, if_neg hi]⟩
      · rw [a2]
        refine h1.neg (k := k) (fun i j hi _ => by rw [b2 i j hi, Exact.neg_eq]) fun i j hi hj => ?_
        simp only [Svd.bEnt_exact]
        rw [b1', upd1_eq, ey]
        by_cases c1 : j = k
        · by_cases c2 : i = k
          · ifs; rw [c2]
          · by_cases c3 : k = i + 1
            · ifs; rw [h2 i (by omega) hi, neg_zero]
            · ifs; rw [neg_zero]
        · by_cases c2 : i = k
          · ifs
          · ifs
      · rw [b1', upd1_eq, if_pos rfl]; exact neg_nonneg.2 c
    · rw [a4 (decide_eq_false c)]
      exact ⟨h1, (not_le.1 c).le, fun i _ => rfl⟩
  obtain ⟨k1, k2, k3⟩ := key
  obtain ⟨x', e', b1, b2, b3, b4⟩ := Svd.order_exact hm (q := k) n k y (by omega) le_rfl hk k1
    (fun i g1 g2 => by rw [ey]; exact h2 i g1 g2)
    (fun i g1 g2 => by
      by_cases c : i = k
      · rw [c]; exact k2
      · rw [k3 i c]; exact h3 i (by omega) g2)
    (fun i g1 g2 g3 => by rw [k3 i g3, k3 (i + 1) (by omega)]; exact h4 i (by omega) g2) (fun h => by omega)
  exact ⟨x', e', b1, b2.trans a1, b3, b4⟩

/-! ## A round -/

/-- The number of entries above the diagonal that are not zero. -/
def Svd.live (n : Nat) (e : Nat → K) : Nat := ((range (n - 1)).filter fun i => e i ≠ 0).card

theorem Svd.live_le {e e' : Nat → K} (h : ∀ i, i + 1 < n → e i = 0 → e' i = 0) : Svd.live n e' ≤ Svd.live n e :=
  card_le_card fun i hi => by
    rw [mem_filter] at hi ⊢
    exact ⟨hi.1, fun h0 => hi.2 (h i (by have := mem_range.1 hi.1; omega) h0)⟩

theorem Svd.live_lt {e e' : Nat → K} (h : ∀ i, i + 1 < n → e i = 0 → e' i = 0) {j : Nat} (hj : j + 1 < n)
    (h1 : e j ≠ 0) (h2 : e' j = 0) : Svd.live n e' + 1 ≤ Svd.live n e :=
  card_lt_card ⟨fun i hi => by
    rw [mem_filter] at hi ⊢
    exact ⟨hi.1, fun h0 => hi.2 (h i (by have := mem_range.1 hi.1; omega) h0)⟩, fun hs => by
    have := hs (mem_filter.2 ⟨mem_range.2 (show j < n - 1 by omega), h1⟩)
    exact (mem_filter.1 this).2 h2⟩

/-- The representation with its error. -/
def Svd.Near (A : Matrix (Fin m) (Fin n) K) (N δ : K) (x : Svd.St K m n) : Prop :=
  ∃ (S : Matrix (Fin m) (Fin n) K) (c : Nat), Svd.Rep S x.u.f x.v.f (Bi.bEnt x.s.f x.e.f) ∧
    fro2 (S - A) ≤ (c * δ) ^ 2 ∧ c + Svd.live n x.e.f ≤ n - 1 ∧ fro2 S ≤ N ^ 2

/-- The invariant of the iteration. -/
structure Svd.Inv (A : Matrix (Fin m) (Fin n) K) (N δ : K) (p : Nat) (x : Svd.St K m n) : Prop where
  near : Svd.Near A N δ x
  e0 : ∀ i, p ≤ i + 1 → i < n → x.e.f i = 0
  pos : ∀ i, p ≤ i → i < n → 0 ≤ x.s.f i
  dec : ∀ i, p ≤ i → i + 1 < n → x.s.f (i + 1) ≤ x.s.f i

theorem Svd.Rep.bound {S : Matrix (Fin m) (Fin n) K} {u v : Nat → Nat → K} {s e : Nat → K} {N : K} (hN : 0 ≤ N)
    (h : Svd.Rep S u v (Bi.bEnt s e)) (hS : fro2 S ≤ N ^ 2) :
    (∀ i, i < n → |s i| ≤ N) ∧ ∀ i, i + 1 < n → |e i| ≤ N := by
  rw [h.fro] at hS
  have key : ∀ i j, (hi : i < n) → (hj : j < n) → |Bi.bEnt s e i j| ≤ N := fun i j hi hj =>
    abs_le_of_sq_le_sq' ((fro2_entry (mx n n (Bi.bEnt s e)) ⟨i, hi⟩ ⟨j, hj⟩).trans hS) hN |> abs_le.2
  refine ⟨fun i hi => ?_, fun i hi => ?_⟩
  · have := key i i hi hi
    rwa [Svd.bEnt_exact, if_pos rfl] at this
  · have := key i (i + 1) (by omega) hi
    rwa [Svd.bEnt_exact, if_neg (by omega), if_pos rfl] at this

theorem Svd.round_exact {κ : Svd.Lit K} (hh : Spec.Hypot κ.hyp) (ht : 0 ≤ κ.tiny) (hε : 0 ≤ κ.eps) (hm : n ≤ m)
    {A : Matrix (Fin m) (Fin n) K} {N : K} (hN : 0 ≤ N) {p : Nat} (hp0 : 0 < p) (hp : p ≤ n) {x : Svd.St K m n}
    (h : Svd.Inv A N (κ.tiny + κ.eps * (N + N)) p x) :
    ∃ p' x', Svd.round κ p x = .ok (p', x') ∧ p' ≤ p ∧ Svd.Inv A N (κ.tiny + κ.eps * (N + N)) p' x' ∧
      (p' + 1 = p ∨ p' = p ∧ 2 ≤ p ∧ x.e.f (p - 2) ≠ 0 ∧ (Spec.Roots K → p = 2 → x'.e.f 0 = 0)) ∧
      (Spec.Roots K → p' + Svd.live n x'.e.f + 1 ≤ p + Svd.live n x.e.f ∨
        p' = p ∧ 3 ≤ p ∧ Svd.live n x'.e.f ≤ Svd.live n x.e.f ∧ κ.tiny ^ 6 ≤ Svd.pot p x.s.f x.e.f ∧
          Svd.pot p x'.s.f x'.e.f ≤ 13 / 20 * Svd.pot p x.s.f x.e.f) := by
  obtain ⟨⟨S, c, hR, hE, hc, hS⟩, he0, hpos, hdec⟩ := h
  have hδ : 0 ≤ κ.tiny + κ.eps * (N + N) := add_nonneg ht (mul_nonneg hε (by linarith))
  generalize hδe : κ.tiny + κ.eps * (N + N) = δ at *
  have hcδ : ∀ c : Nat, 0 ≤ (c : K) * δ := fun c => mul_nonneg (Nat.cast_nonneg c) hδ
  obtain ⟨bs, be⟩ := hR.bound hN hS
  have thr : ∀ a b : K, |a| ≤ N → |b| ≤ N → κ.tiny + κ.eps * (|a| + |b|) ≤ δ := fun a b ha hb => by
    rw [← hδe]
    have := mul_le_mul_of_nonneg_left (add_le_add ha hb) hε
    linarith
  unfold Svd.round
  obtain ⟨k, e', ee, hk, hlt, hcase⟩ := Svd.findE_ok κ x.s (k := p - 1) (by omega) x.e
  rw [ee, ok_bind]
  -- the state after the search in `e`
  have key : ∃ (S' : Matrix (Fin m) (Fin n) K) (c' : Nat), Svd.Rep S' x.u.f x.v.f (Bi.bEnt x.s.f e'.f) ∧
      fro2 (S' - A) ≤ (c' * δ) ^ 2 ∧ c' + Svd.live n e'.f ≤ n - 1 ∧ fro2 S' ≤ N ^ 2 ∧ (0 < k → e'.f (k - 1) = 0) ∧
      (∀ i, (i ≠ k - 1 ∨ k = 0) → e'.f i = x.e.f i) ∧ Svd.live n e'.f ≤ Svd.live n x.e.f := by
    rcases hcase with ⟨k0, rfl⟩ | ⟨k0, hf, rfl⟩
    · exact ⟨S, c, hR, hE, hc, hS, fun h => by omega, fun i _ => rfl, le_rfl⟩
    · dsimp only
      have ez : upd1 x.e.f (k - 1) Flt.zero (k - 1) = (0 : K) := by rw [upd1_eq, if_pos rfl, Exact.zero_eq]
      by_cases hz : x.e.f (k - 1) = 0
      · have : upd1 x.e.f (k - 1) Flt.zero = x.e.f := funext fun i => by
          rw [upd1_eq, Exact.zero_eq]
          split_ifs with c
          · rw [c, hz]
          · rfl
        rw [this]
        exact ⟨S, c, hR, hE, hc, hS, fun _ => hz, fun i _ => rfl, le_rfl⟩
      · have hle : |x.e.f (k - 1)| ≤ δ := by
          unfold Svd.thrE at hf
          simp only [Exact.lt_eq, Exact.add_eq, Exact.mul_eq, Exact.abs_eq, decide_eq_false_iff_not, not_lt] at hf
          exact hf.trans (thr _ _ (bs _ (by omega)) (bs _ (by omega)))
        obtain ⟨S', r1, r2, r3⟩ := hR.neglect (A := A) (W' := Bi.bEnt x.s.f (upd1 x.e.f (k - 1) Flt.zero)) (i := k - 1)
          (j := k) (hcδ c) hδ hE (fun a b _ _ hab => by
            simp only [Svd.bEnt_exact, upd1_eq]
            split_ifs <;> first | rfl | (exfalso; omega))
          (by
            rw [Svd.bEnt_exact, if_neg (by omega), if_pos (by omega), ez])
          (by
            rw [Svd.bEnt_exact, if_neg (by omega), if_pos (by omega)]; exact hle)
        have hll := Svd.live_lt (n := n) (e := x.e.f) (e' := upd1 x.e.f (k - 1) Flt.zero) (j := k - 1)
            (fun i _ h0 => by
              rw [upd1_eq, Exact.zero_eq]
              split_ifs
              · rfl
              · exact h0) (by omega) hz ez
        refine ⟨S', c + 1, r1, ?_, by omega, r3.trans hS, fun _ => ez, fun i hi => by rw [upd1_eq, if_neg (by omega)],
          by omega⟩
        rw [show ((c + 1 : Nat) : K) * δ = c * δ + δ by push_cast; ring]
        exact r2
  obtain ⟨S1, c1, hR1, hE1, hc1, hS1, hk1, ho1, hl1⟩ := key
  have he1 : ∀ i, p ≤ i + 1 → i < n → e'.f i = 0 := fun i g1 g2 => by
    by_cases c : i = k - 1 ∧ 0 < k
    · rw [c.1]; exact hk1 c.2
    · rw [ho1 i (by omega)]; exact he0 i g1 g2
  dsimp only
  by_cases hkp : k = p - 1
  · rw [if_pos hkp]
    obtain ⟨x', ex, a1, a2, a3, a4⟩ := Svd.converged_exact hm (k := p - 1) (by omega) (x := ⟨x.s, e', x.u, x.v⟩) hR1
      (fun i g1 g2 => by
        by_cases c : p ≤ i + 1
        · exact he1 i c g2
        · have := hk1 (by omega)
          rw [hkp, show p - 1 - 1 = i by omega] at this
          exact this)
      (fun i g1 g2 => hpos i (by omega) g2) (fun i g1 g2 => hdec i (by omega) g2)
    rw [ex, ok_bind]
    refine ⟨p - 1, x', rfl, by omega, ⟨⟨S1, c1, a1, hE1, by rw [a2]; exact hc1, hS1⟩, fun i g1 g2 => ?_, a3, a4⟩,
      .inl (by omega), fun _ => .inl (by rw [a2]; dsimp only; omega)⟩
    rw [a2]
    show e'.f i = 0
    by_cases c : p ≤ i + 1
    · exact he1 i c g2
    · have := hk1 (by omega)
      rwa [hkp, show p - 1 - 1 = i by omega] at this
  · rw [if_neg hkp]
    have hne : ∀ i, k ≤ i → i < p - 1 → e'.f i ≠ 0 := fun i g1 g2 h0 => by
      have := hlt i g1 g2
      rw [← ho1 i (by omega), h0] at this
      unfold Svd.thrE at this
      simp only [Exact.lt_eq, Exact.add_eq, Exact.mul_eq, Exact.abs_eq, decide_eq_true_eq, abs_zero] at this
      exact absurd this (not_lt.2 (add_nonneg ht (mul_nonneg hε (by positivity))))
    have hx2 : 2 ≤ p ∧ x.e.f (p - 2) ≠ 0 :=
      ⟨by omega, by rw [← ho1 (p - 2) (by omega)]; exact hne _ (by omega) (by omega)⟩
    obtain ⟨bs1, be1⟩ := hR1.bound hN hS1
    have be1' : ∀ i, i < n → |e'.f i| ≤ N := fun i hi => by
      by_cases c : i + 1 < n
      · exact be1 i c
      · rw [he1 i (by omega) hi, abs_zero]; exact hN
    obtain ⟨o, s', es, hcase⟩ := Svd.findS_ok κ e' (k := k) (d := p - k) (by omega) x.s
    rw [es, ok_bind]
    have nz : ∀ i, Flt.le (Flt.abs (x.s.f i)) (Svd.thrS κ e'.f k i) = false → x.s.f i ≠ 0 := fun i hf h0 => by
      rw [h0] at hf
      unfold Svd.thrS at hf
      simp only [Exact.le_eq, Exact.add_eq, Exact.mul_eq, Exact.abs_eq, decide_eq_false_iff_not, abs_zero, not_le]
        at hf
      refine absurd hf (not_lt.2 (add_nonneg ht (mul_nonneg hε ?_)))
      split_ifs <;> positivity
    rcases hcase with ⟨rfl, rfl, hall⟩ | ⟨i, rfl, i1, i2, hle, rfl, hall⟩
    · dsimp only
      obtain ⟨x', ex, a1, a2, a3⟩ := Svd.qr_exact hh (k := k) (p := p) (by omega) hp hm
        (x := ⟨x.s, e', x.u, x.v⟩) hR1 (fun i g1 g2 => nz i (hall i g1 (by omega))) hne hk1 (he1 _ (by omega) (by omega))
      rw [ex, ok_bind]
      have hpair : Spec.Roots K → k + 2 = p → x'.e.f (p - 2) = 0 := fun hr h2 => by
        subst h2
        obtain ⟨x'', ex', h0⟩ := Svd.qr_pair hr hh (k := k) (by omega) hm (x := ⟨x.s, e', x.u, x.v⟩)
          (nz k (hall k le_rfl (by omega))) (hne k le_rfl (by omega))
        rw [ex] at ex'
        cases ex'
        exact h0
      have hz : ∀ i, i + 1 < n → e'.f i = 0 → x'.e.f i = 0 := fun i _ h0 => by
        by_cases c : i < k ∨ p - 1 ≤ i
        · rw [a2 i c]; exact h0
        · exact absurd h0 (hne i (by omega) (by omega))
      have hll := Svd.live_le (n := n) hz
      refine ⟨p, x', rfl, le_rfl, ⟨⟨S1, c1, a1, hE1, by omega, hS1⟩, fun i g1 g2 => ?_, fun i g1 g2 => ?_,
        fun i g1 g2 => ?_⟩, .inr ⟨rfl, hx2.1, hx2.2, fun hr h2 => ?_⟩, fun hr => ?_⟩
      · rw [a2 i (by omega)]; exact he1 i g1 g2
      · rw [a3 i g1]; exact hpos i g1 g2
      · rw [a3 i g1, a3 (i + 1) (by omega)]; exact hdec i g1 g2
      · have := hpair hr (by omega)
        rwa [show p - 2 = 0 by omega] at this
      · rcases Nat.lt_or_ge (k + 2) p with h3 | h3
        · obtain ⟨x'', ex', h0⟩ := Svd.qr_conv hr hh h3 hp hm (x := ⟨x.s, e', x.u, x.v⟩)
            (fun i g1 g2 => nz i (hall i g1 (by omega))) hne
          rw [ex] at ex'
          cases ex'
          have ep : Svd.pot p x.s.f e'.f = Svd.pot p x.s.f x.e.f := by
            unfold Svd.pot
            rw [ho1 (p - 2) (by omega), ho1 (p - 3) (by omega)]
          dsimp only at h0
          rw [ep] at h0
          refine .inr ⟨rfl, by omega, hll.trans hl1, ?_, h0⟩
          have big : ∀ i, k ≤ i → i < p → κ.tiny ≤ |x.s.f i| := fun i g1 g2 => by
            have := hall i g1 (by omega)
            unfold Svd.thrS at this
            simp only [Exact.le_eq, Exact.add_eq, Exact.mul_eq, Exact.abs_eq, decide_eq_false_iff_not, not_le] at this
            refine le_trans (le_add_of_nonneg_right (mul_nonneg hε ?_)) this.le
            split_ifs <;> positivity
          have bige : ∀ i, k ≤ i → i < p - 1 → κ.tiny ≤ |x.e.f i| := fun i g1 g2 => by
            have := hlt i g1 g2
            unfold Svd.thrE at this
            simp only [Exact.lt_eq, Exact.add_eq, Exact.mul_eq, Exact.abs_eq, decide_eq_true_eq] at this
            exact le_trans (le_add_of_nonneg_right (mul_nonneg hε (by positivity))) this.le
          unfold Svd.pot
          rw [← abs_mul_abs_self (x.s.f (p - 1) * x.e.f (p - 2)), abs_mul, abs_mul]
          have t2 : ∀ a b : K, κ.tiny ≤ a → κ.tiny ≤ b → κ.tiny * κ.tiny ≤ a * b := fun a b ha hb =>
            mul_le_mul ha hb ht (ht.trans ha)
          have q1 := t2 _ _ (big (p - 1) (by omega) (by omega)) (bige (p - 2) (by omega) (by omega))
          have q2 := t2 _ _ (big (p - 2) (by omega) (by omega)) (bige (p - 3) (by omega) (by omega))
          have tt : 0 ≤ κ.tiny * κ.tiny := mul_self_nonneg _
          calc κ.tiny ^ 6 = (κ.tiny * κ.tiny) * (κ.tiny * κ.tiny) * (κ.tiny * κ.tiny) := by ring
            _ ≤ _ := mul_le_mul (mul_le_mul q1 q1 tt (tt.trans q1)) q2 tt (by positivity)
        · refine .inl ?_
          have := Svd.live_lt (n := n) hz (j := p - 2) (by omega) (hne _ (by omega) (by omega)) (hpair hr (by omega))
          omega
    · dsimp only
      have ez : upd1 x.s.f i Flt.zero i = (0 : K) := by rw [upd1_eq, if_pos rfl, Exact.zero_eq]
      have hle' : |x.s.f i| ≤ δ := by
        unfold Svd.thrS at hle
        simp only [Exact.le_eq, Exact.add_eq, Exact.mul_eq, Exact.abs_eq, decide_eq_true_eq] at hle
        split_ifs at hle
        · exact hle.trans (thr _ _ (be1' _ (by omega)) (be1' _ (by omega)))
        · have := thr (e'.f i) 0 (be1' _ (by omega)) (by rw [abs_zero]; exact hN)
          rw [abs_zero, add_zero] at this
          exact hle.trans this
      obtain ⟨S2, r1, r2, r3⟩ := hR1.neglect (A := A) (W' := Bi.bEnt (upd1 x.s.f i Flt.zero) e'.f) (i := i)
          (j := i) (hcδ c1) hδ hE1 (fun a b _ _ hab => by
            simp only [Svd.bEnt_exact, upd1_eq]
            split_ifs <;> first | rfl | (exfalso; omega))
          (by rw [Svd.bEnt_exact, if_pos rfl, ez])
          (by rw [Svd.bEnt_exact, if_pos rfl]; exact hle')
      have r2' : fro2 (S2 - A) ≤ ((c1 + 1 : Nat) * δ) ^ 2 := by
        rw [show ((c1 + 1 : Nat) : K) * δ = c1 * δ + δ by push_cast; ring]
        exact r2
      have so : ∀ a, p ≤ a → upd1 x.s.f i Flt.zero a = x.s.f a := fun a ha => by rw [upd1_eq, if_neg (by omega)]
      by_cases hip : i = p - 1
      · rw [if_pos hip]
        obtain ⟨x', ex, a1, a2, a3, a4⟩ := Svd.deflate_exact hh (k := k) (p := p) (by omega) hp
          (x := ⟨⟨upd1 x.s.f i Flt.zero⟩, e', x.u, x.v⟩) r1 (by rw [← hip]; exact ez) hne hk1
        rw [ex, ok_bind]
        have hll := Svd.live_lt (n := n) (e := e'.f) (e' := x'.e.f) (j := p - 2) (fun i _ h0 => by
            by_cases c : i < k ∨ p - 1 ≤ i
            · rw [a2 i c]; exact h0
            · exact absurd h0 (hne i (by omega) (by omega))) (by omega) (hne _ (by omega) (by omega)) a4
        refine ⟨p, x', rfl, le_rfl, ⟨⟨S2, c1 + 1, a1, r2', by omega, r3.trans hS1⟩, fun i g1 g2 => ?_,
          fun i g1 g2 => ?_, fun i g1 g2 => ?_⟩, .inr ⟨rfl, hx2.1, hx2.2, fun _ h2 => by subst h2; exact a4⟩,
          fun _ => .inl (by omega)⟩
        · rw [a2 i (by omega)]; exact he1 i g1 g2
        · rw [a3 i g1]; dsimp only; rw [so i g1]; exact hpos i g1 g2
        · rw [a3 i g1, a3 (i + 1) (by omega)]; dsimp only; rw [so i g1, so (i + 1) (by omega)]; exact hdec i g1 g2
      · rw [if_neg hip]
        obtain ⟨x', ex, a1, a2, a3, a4⟩ := Svd.split_exact hh (k := i + 1) (p := p) (by omega) (by omega) hp
          (x := ⟨⟨upd1 x.s.f i Flt.zero⟩, e', x.u, x.v⟩) r1 ez
          (fun j g1 g2 => by
            dsimp only
            rw [upd1_eq, if_neg (by omega)]
            exact nz j (hall j (by omega) (by omega))) (he1 _ (by omega) (by omega))
        rw [ex, ok_bind]
        have hll := Svd.live_lt (n := n) (e := e'.f) (e' := x'.e.f) (j := i) (fun j _ h0 => by
            by_cases c : j + 1 < i + 1 ∨ p - 1 ≤ j
            · rw [a2 j c]; exact h0
            · exact absurd h0 (hne j (by omega) (by omega))) (by omega) (hne _ (by omega) (by omega)) a4
        refine ⟨p, x', rfl, le_rfl, ⟨⟨S2, c1 + 1, a1, r2', by omega, r3.trans hS1⟩, fun i g1 g2 => ?_,
          fun i g1 g2 => ?_, fun i g1 g2 => ?_⟩, .inr ⟨rfl, hx2.1, hx2.2, fun _ h2 => by
            rwa [show i + 1 - 1 = 0 by omega] at a4⟩, fun _ => .inl (by omega)⟩
        · rw [a2 i (by omega)]; exact he1 i g1 g2
        · rw [a3 i g1]; dsimp only; rw [so i g1]; exact hpos i g1 g2
        · rw [a3 i g1, a3 (i + 1) (by omega)]; dsimp only; rw [so i g1, so (i + 1) (by omega)]; exact hdec i g1 g2

theorem Svd.loop_exact {κ : Svd.Lit K} (hh : Spec.Hypot κ.hyp) (ht : 0 ≤ κ.tiny) (hε : 0 ≤ κ.eps) (hm : n ≤ m)
    {A : Matrix (Fin m) (Fin n) K} {N : K} (hN : 0 ≤ N) (fuel : Nat) : ∀ (p : Nat) (x : Svd.St K m n), p ≤ n →
    Svd.Inv A N (κ.tiny + κ.eps * (N + N)) p x →
    ∃ o, Svd.loop κ fuel p x = .ok o ∧ ∀ y, o = some y → Svd.Inv A N (κ.tiny + κ.eps * (N + N)) 0 y := by
  induction fuel with
  | zero =>
    intro p x hp h
    unfold Svd.loop
    split_ifs with c
    · subst c
      exact ⟨_, rfl, fun y hy => by cases hy; exact h⟩
    · exact ⟨_, rfl, fun y hy => by cases hy⟩
  | succ fuel ih =>
    intro p x hp h
    unfold Svd.loop
    split_ifs with c
    · subst c
      exact ⟨_, rfl, fun y hy => by cases hy; exact h⟩
    · obtain ⟨p', x', e, h1, h2, -⟩ := Svd.round_exact hh ht hε hm hN (by omega) hp h
      rw [e, ok_bind]
      exact ih p' x' (by omega) h2

/-- The iteration ends when two columns are left. -/
theorem Svd.loop_ends {κ : Svd.Lit K} (hr : Spec.Roots K) (hh : Spec.Hypot κ.hyp) (ht : 0 ≤ κ.tiny) (hε : 0 ≤ κ.eps)
    (hm : n ≤ m) {A : Matrix (Fin m) (Fin n) K} {N : K} (hN : 0 ≤ N) : ∀ (fuel p : Nat) (x : Svd.St K m n), p ≤ n →
    Svd.Inv A N (κ.tiny + κ.eps * (N + N)) p x → p ≤ 2 → p + 1 ≤ fuel ∨ (p ≤ fuel ∧ (p = 2 → x.e.f 0 = 0)) →
    ∃ y, Svd.loop κ fuel p x = .ok (some y) := by
  intro fuel
  induction fuel with
  | zero =>
    intro p x _ _ _ hf
    have : p = 0 := by omega
    subst this
    exact ⟨x, rfl⟩
  | succ fuel ih =>
    intro p x hp h hp2 hf
    unfold Svd.loop
    split_ifs with c
    · exact ⟨x, rfl⟩
    · obtain ⟨p', x', e, h1, h2, h3, -⟩ := Svd.round_exact hh ht hε hm hN (by omega) hp h
      rw [e, ok_bind]
      refine ih p' x' (by omega) h2 (by omega) ?_
      rcases h3 with h3 | ⟨h3, h4, h5, h6⟩
      · rcases hf with hf | hf
        · exact .inl (by omega)
        · exact .inr ⟨by omega, fun h => by omega⟩
      · have hp' : p = 2 := by omega
        rcases hf with hf | hf
        · exact .inr ⟨by omega, fun _ => h6 hr hp'⟩
        · refine absurd ?_ h5
          rw [hp']
          exact hf.2 hp'

/-- The last two products are bounded by the size of the matrix. -/
theorem Svd.Inv.pot_le {A : Matrix (Fin m) (Fin n) K} {N δ : K} (hN : 0 ≤ N) {p : Nat} (hp : p ≤ n) (h3 : 3 ≤ p)
    {x : Svd.St K m n} (h : Svd.Inv A N δ p x) : Svd.pot p x.s.f x.e.f ≤ N ^ 6 := by
  obtain ⟨⟨S, c, hR, -, -, hS⟩, -⟩ := h
  obtain ⟨bs, be⟩ := hR.bound hN hS
  unfold Svd.pot
  rw [← abs_mul_abs_self (x.s.f (p - 1) * x.e.f (p - 2)), abs_mul, abs_mul]
  have t2 : ∀ a b : K, |a| ≤ N → |b| ≤ N → |a| * |b| ≤ N * N := fun a b ha hb => mul_le_mul ha hb (abs_nonneg _) hN
  have q1 := t2 _ _ (bs (p - 1) (by omega)) (be (p - 2) (by omega))
  have q2 := t2 _ _ (bs (p - 2) (by omega)) (be (p - 3) (by omega))
  calc _ ≤ (N * N) * (N * N) * (N * N) :=
        mul_le_mul (mul_le_mul q1 q1 (by positivity) (by positivity)) q2 (by positivity) (by positivity)
    _ = N ^ 6 := by ring

/-- The iteration ends. Between two rounds that finish a column or clear an entry of `e` there are at most `M` QR steps. -/
theorem Svd.loop_done {κ : Svd.Lit K} (hr : Spec.Roots K) (hh : Spec.Hypot κ.hyp) (ht : 0 < κ.tiny) (hε : 0 ≤ κ.eps)
    (hm : n ≤ m) {A : Matrix (Fin m) (Fin n) K} {N : K} (hN : 0 ≤ N) {M : Nat}
    (hM : (13 / 20) ^ M * N ^ 6 < κ.tiny ^ 6) : ∀ (fuel p L j : Nat) (x : Svd.St K m n), p ≤ n →
    Svd.Inv A N (κ.tiny + κ.eps * (N + N)) p x → p + Svd.live n x.e.f ≤ L → j ≤ M →
    (3 ≤ p → Svd.pot p x.s.f x.e.f ≤ (13 / 20) ^ (M - j) * N ^ 6) → L * (M + 1) + j ≤ fuel + M →
    ∃ y, Svd.loop κ fuel p x = .ok (some y) := by
  intro fuel
  induction fuel with
  | zero =>
    intro p L j x hp h hL hj hpot hf
    have hL0 : L = 0 := by
      by_contra h0
      have : 1 * (M + 1) ≤ L * (M + 1) := Nat.mul_le_mul_right _ (by omega)
      omega
    have : p = 0 := by omega
    subst this
    exact ⟨x, rfl⟩
  | succ fuel ih =>
    intro p L j x hp h hL hj hpot hf
    unfold Svd.loop
    split_ifs with c
    · exact ⟨x, rfl⟩
    · obtain ⟨p', x', e, h1, h2, h3, h4⟩ := Svd.round_exact hh ht.le hε hm hN (by omega) hp h
      rw [e, ok_bind]
      rcases h4 hr with h4 | ⟨h4, h3p, h5, h6, h7⟩
      · obtain ⟨L, rfl⟩ : ∃ L', L = L' + 1 := ⟨L - 1, by omega⟩
        refine ih p' L M x' (by omega) h2 (by omega) le_rfl (fun h3 => ?_) ?_
        · rw [Nat.sub_self, pow_zero, one_mul]
          exact h2.pot_le hN (by omega) h3
        · rw [Nat.succ_mul] at hf
          omega
      · subst h4
        have hj0 : j ≠ 0 := fun hj0 => by
          rw [hj0, Nat.sub_zero] at hpot
          exact absurd (h6.trans (hpot h3p)) (not_le.2 hM)
        refine ih p' L (j - 1) x' hp h2 (by omega) (by omega) (fun _ => h7.trans ?_) (by omega)
        have := hpot h3p
        rw [show M - (j - 1) = (M - j) + 1 by omega, pow_succ]
        linarith [mul_le_mul_of_nonneg_left this (show (0 : K) ≤ 13 / 20 by norm_num)]

theorem Svd.start_inv {κ : Svd.Lit K} (hh : Spec.Hypot κ.hyp) (hn : 0 < n)
    (hm : n ≤ m) {N δ : K} (a : Tab K m n) (hA : fro2 (mx m n a.f) ≤ N ^ 2) :
    ∃ x, Svd.reduce κ.hyp a = .ok x ∧ Svd.Inv (mx m n a.f) N δ n x := by
  obtain ⟨x, e, h1, h2, h3, h4⟩ := Svd.reduce_exact hh hn hm a
  exact ⟨x, e, ⟨mx m n a.f, 0, ⟨h1.symm, h2, h3⟩, by
      rw [sub_self, Nat.cast_zero, zero_mul, zero_pow two_ne_zero]
      exact le_of_eq (sum_eq_zero fun i _ => sum_eq_zero fun j _ => zero_pow two_ne_zero), by
      rw [Nat.zero_add]
      exact (card_filter_le _ _).trans (by rw [card_range]), hA⟩,
     fun i g1 g2 => by rw [show i = n - 1 by omega, h4], fun i g1 g2 => by omega, fun i g1 g2 => by omega⟩

/-- The construction ends for one or two columns. -/
theorem Svd.core_ends {κ : Svd.Lit K} (hr : Spec.Roots K) (hh : Spec.Hypot κ.hyp) (ht : 0 ≤ κ.tiny) (hε : 0 ≤ κ.eps)
    (hn : 0 < n) (hm : n ≤ m) (h2 : n ≤ 2) (a : Tab K m n) {fuel : Nat} (hf : n + 1 ≤ fuel) :
    ∃ y, Svd.core κ fuel a = .ok (some y) := by
  unfold Svd.core
  rw [if_neg (by omega)]
  show ∃ y, (do let x ← Svd.reduce κ.hyp a; Svd.loop κ fuel n x) = .ok (some y)
  have h0 := fro2_nonneg (mx m n a.f)
  obtain ⟨x, e, hI⟩ := Svd.start_inv hh hn hm (N := 1 + fro2 (mx m n a.f))
    (δ := κ.tiny + κ.eps * ((1 + fro2 (mx m n a.f)) + (1 + fro2 (mx m n a.f)))) a (by nlinarith)
  rw [e, ok_bind]
  exact Svd.loop_ends hr hh ht hε hm (by linarith) fuel n x le_rfl hI h2 (.inl hf)

/-- The construction ends for every number of columns. -/
theorem Svd.core_done {κ : Svd.Lit K} (hr : Spec.Roots K) (hh : Spec.Hypot κ.hyp) (ht : 0 < κ.tiny) (hε : 0 ≤ κ.eps)
    (hn : 0 < n) (hm : n ≤ m) {N : K} (hN : 0 ≤ N) (a : Tab K m n) (hA : fro2 (mx m n a.f) ≤ N ^ 2) {M fuel : Nat}
    (hM : (13 / 20) ^ M * N ^ 6 < κ.tiny ^ 6) (hf : 2 * n * (M + 1) ≤ fuel) :
    ∃ y, Svd.core κ fuel a = .ok (some y) := by
  unfold Svd.core
  rw [if_neg (by omega)]
  show ∃ y, (do let x ← Svd.reduce κ.hyp a; Svd.loop κ fuel n x) = .ok (some y)
  obtain ⟨x, e, hI⟩ := Svd.start_inv hh hn hm (N := N) (δ := κ.tiny + κ.eps * (N + N)) a hA
  rw [e, ok_bind]
  have hl : Svd.live n x.e.f ≤ n - 1 := by
    obtain ⟨⟨S, c, -, -, hc, -⟩, -⟩ := hI
    omega
  refine Svd.loop_done hr hh ht hε hm hN hM fuel n (2 * n) M x le_rfl hI (by omega) le_rfl (fun h3 => ?_) (by omega)
  rw [Nat.sub_self, pow_zero, one_mul]
  exact hI.pot_le hN le_rfl h3

/-- The construction for tall data. -/
theorem Svd.core_exact {κ : Svd.Lit K} (hh : Spec.Hypot κ.hyp) (ht : 0 ≤ κ.tiny) (hε : 0 ≤ κ.eps) (hn : 0 < n)
    (hm : n ≤ m) {N : K} (hN : 0 ≤ N) (a : Tab K m n) (hA : fro2 (mx m n a.f) ≤ N ^ 2) (fuel : Nat) :
    ∃ o, Svd.core κ fuel a = .ok o ∧ ∀ y : Svd.St K m n, o = some y →
      ∃ S, Svd.Rep S y.u.f y.v.f (fun i j => if j = i then y.s.f i else 0) ∧
        fro2 (S - mx m n a.f) ≤ ((n - 1 : Nat) * (κ.tiny + κ.eps * (N + N))) ^ 2 ∧ fro2 S ≤ N ^ 2 ∧
        (∀ i, i < n → 0 ≤ y.s.f i) ∧ ∀ i, i + 1 < n → y.s.f (i + 1) ≤ y.s.f i := by
  unfold Svd.core
  rw [if_neg (by omega)]
  show ∃ o, (do let x ← Svd.reduce κ.hyp a; Svd.loop κ fuel n x) = .ok o ∧ _
  obtain ⟨x, e, hI⟩ := Svd.start_inv hh hn hm (N := N) a hA
  rw [e, ok_bind]
  obtain ⟨o, eo, ho⟩ := Svd.loop_exact hh ht hε hm hN fuel n x le_rfl (A := mx m n a.f) hI
  refine ⟨o, eo, fun y hy => ?_⟩
  obtain ⟨⟨S, c, r1, r2, r3, r4⟩, he, hp, hd⟩ := ho y hy
  refine ⟨S, r1.congr fun i j hi hj => ?_, r2.trans (pow_le_pow_left₀ ?_ ?_ 2), r4, fun i hi => hp i (by omega) hi,
    fun i hi => hd i (by omega) hi⟩
  · rw [Svd.bEnt_exact]
    split_ifs
    · rfl
    · rw [he i (by omega) hi]
    · rfl
  · have : 0 ≤ κ.tiny + κ.eps * (N + N) := add_nonneg ht (mul_nonneg hε (by linarith))
    positivity
  · refine mul_le_mul_of_nonneg_right (Nat.cast_le.2 (by omega)) (add_nonneg ht (mul_nonneg hε (by linarith)))

end Linear
