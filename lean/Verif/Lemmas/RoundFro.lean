import Verif.Lemmas.RoundQR

/-!
# The Frobenius norm, and one reflection of a whole matrix
-/

set_option linter.unusedSectionVars false

namespace Linear

open Spec Rnd Matrix
open Finset hiding val diag

variable {m n : Nat}

/-- The Frobenius norm. -/
noncomputable def Spec.fro (M : Matrix (Fin m) (Fin n) ℝ) : ℝ := √(∑ i, ∑ j, M i j ^ 2)

theorem fro_nonneg (M : Matrix (Fin m) (Fin n) ℝ) : 0 ≤ fro M := Real.sqrt_nonneg _

theorem fro_transpose (M : Matrix (Fin m) (Fin n) ℝ) : fro Mᵀ = fro M := by
  unfold fro
  rw [Finset.sum_comm]
  rfl

/-- The norm, from the norms of the columns. -/
theorem fro_cnorm (M : Matrix (Fin m) (Fin n) ℝ) :
    fro M = nrm (range n) fun j => if h : j < n then cnorm M ⟨j, h⟩ else 0 := by
  unfold fro nrm
  rw [Finset.sum_comm, Finset.sum_range]
  congr 1
  refine sum_congr rfl fun j _ => ?_
  dsimp only
  rw [dif_pos j.2, cnorm, Real.sq_sqrt (sum_nonneg fun _ _ => sq_nonneg _)]

theorem nrm_mono_nn {S : Finset ℕ} {f g : ℕ → ℝ} (h : ∀ i ∈ S, 0 ≤ f i ∧ f i ≤ g i) : nrm S f ≤ nrm S g :=
  Real.sqrt_le_sqrt (sum_le_sum fun i hi => pow_le_pow_left₀ (h i hi).1 (h i hi).2 2)

theorem fro_add_le (M N : Matrix (Fin m) (Fin n) ℝ) : fro (M + N) ≤ fro M + fro N := by
  rw [fro_cnorm M, fro_cnorm N, fro_cnorm]
  refine le_trans (nrm_mono_nn fun j hj => ?_) nrm_add_le
  rw [dif_pos (mem_range.1 hj), dif_pos (mem_range.1 hj), dif_pos (mem_range.1 hj)]
  exact ⟨cnorm_nonneg _ _, cnorm_add_le _ _ _⟩

theorem fro_neg (M : Matrix (Fin m) (Fin n) ℝ) : fro (-M) = fro M := by
  unfold fro
  simp

/-- Orthogonal matrices on the left keep the norm. -/
theorem fro_left {Q : Matrix (Fin m) (Fin m) ℝ} (h : Qᵀ * Q = 1) (M : Matrix (Fin m) (Fin n) ℝ) :
    fro (Q * M) = fro M := by
  rw [fro_cnorm, fro_cnorm]
  refine nrm_congr fun j hj => ?_
  rw [dif_pos (mem_range.1 hj), dif_pos (mem_range.1 hj), cnorm_orth h]

/-- Orthogonal matrices on the right keep the norm. -/
theorem fro_right {Q : Matrix (Fin n) (Fin n) ℝ} (h : Q * Qᵀ = 1) (M : Matrix (Fin m) (Fin n) ℝ) :
    fro (M * Q) = fro M := by
  rw [← fro_transpose, Matrix.transpose_mul, fro_left (by rwa [Matrix.transpose_transpose]), fro_transpose]

/-- A bound of every column bounds the norm. -/
theorem fro_of_cols {p : Nat} {E M : Matrix (Fin m) (Fin n) ℝ} {ε ω : ℝ} (hε : 0 ≤ ε) (hω : 0 ≤ ω) (hn : n ≤ p)
    (h : ∀ j, cnorm E j ≤ ε * cnorm M j + ω) : fro E ≤ ε * fro M + √p * ω := by
  rw [fro_cnorm E, fro_cnorm M]
  refine (nrm_mono_nn (g := fun j => ε * (if h : j < n then cnorm M ⟨j, h⟩ else 0) + ω) fun j hj => ?_).trans
    (nrm_add_le.trans (add_le_add ?_ ?_))
  · rw [dif_pos (mem_range.1 hj), dif_pos (mem_range.1 hj)]
    exact ⟨cnorm_nonneg _ _, h _⟩
  · refine nrm_le (mul_nonneg hε nrm_nonneg) (le_of_eq ?_)
    rw [mul_pow, nrm, Real.sq_sqrt (sum_nonneg fun _ _ => sq_nonneg _), mul_sum]
    exact sum_congr rfl fun _ _ => mul_pow _ _ _
  · refine nrm_le (by positivity) ?_
    rw [sum_const, card_range, nsmul_eq_mul, mul_pow, Real.sq_sqrt (Nat.cast_nonneg _)]
    gcongr

theorem cnorm_le_fro (M : Matrix (Fin m) (Fin n) ℝ) (j : Fin n) : cnorm M j ≤ fro M := by
  unfold cnorm fro
  rw [Finset.sum_comm]
  exact Real.sqrt_le_sqrt (single_le_sum (f := fun j => ∑ i, M i j ^ 2)
    (fun _ _ => sum_nonneg fun _ _ => sq_nonneg _) (mem_univ j))

/-- The factor of the exact reflection along a vector. -/
noncomputable def rb (k m : Nat) (a : ℝ) (v : Nat → ℝ) : ℝ :=
  if a = 0 then 0 else -2 / ∑ r ∈ Ico k m, v r ^ 2

section

variable {α : Type} [Flt α] [Rnd α]

/-- The reflector the code leaves in place of the vector `x`. -/
structure Refl (k m N : Nat) (e : ℝ) (x v : Nat → α) (a : α) : Prop where
  norm : NormOf k m x a
  ok : Scaled N e a
  head : Flt.eq a Flt.zero = false → v k = Flt.sub (x k) a
  same : Flt.eq a Flt.zero = true → v k = x k
  rest : ∀ i, i ≠ k → v i = x i

theorem Refl.zero_iff {k m N : Nat} {e : ℝ} {x v : Nat → α} {a : α} (h : Refl k m N e x v a) :
    Flt.eq a Flt.zero = true ↔ val a = 0 := by rw [eq_iff h.ok.fin zero_fin, val_zero]

theorem Refl.ne {k m N : Nat} {e : ℝ} {x v : Nat → α} {a : α} (h : Refl k m N e x v a) (hne : val a ≠ 0) :
    Flt.eq a Flt.zero = false := by
  cases hz : Flt.eq a Flt.zero
  · rfl
  · exact absurd (h.zero_iff.1 hz) hne

theorem Refl.fin {k m N : Nat} {e : ℝ} {x v : Nat → α} {a : α} (h : Refl k m N e x v a) (hk : k < m)
    (hN : m ≤ N) (he : u α ≤ e) (hM : (N + 4) * e ≤ 1 / 100) : ∀ r, k ≤ r → r < m → fin (v r) := by
  intro r h1 h2
  by_cases er : r = k
  · subst er
    by_cases hne : val a = 0
    · rw [h.same (h.zero_iff.2 hne)]; exact h.norm.entries r h1 h2
    · exact (hhr_gen hk hN he hM h.norm hne (h.ok.low.resolve_left hne) (h.head (h.ne hne))
        h.rest h.ok.high).2.1
  · rw [h.rest r er]; exact h.norm.entries r h1 h2

theorem Refl.refl {k m N : Nat} {e : ℝ} {x v : Nat → α} {a : α} (h : Refl k m N e x v a) (hk : k < m)
    (hN : m ≤ N) (he : u α ≤ e) (hM : (N + 4) * e ≤ 1 / 100) :
    rb k m (val a) (fun r => val (v r)) = 0 ∨
      rb k m (val a) (fun r => val (v r)) * ∑ r ∈ Ico k m, val (v r) * val (v r) = -2 := by
  unfold rb
  by_cases hne : val a = 0
  · left; rw [if_pos hne]
  · right
    have hp := (hhr_gen hk hN he hM h.norm hne (h.ok.low.resolve_left hne) (h.head (h.ne hne))
        h.rest h.ok.high).1.nrmV_pos
    rw [if_neg hne]
    have e1 : ∑ r ∈ Ico k m, val (v r) * val (v r) = ∑ r ∈ Ico k m, val (v r) ^ 2 :=
      sum_congr rfl fun r _ => (sq _).symm
    rw [e1]
    exact div_mul_cancel₀ _ hp.ne'

/-- The vector itself is reflected onto the axis, nearly. -/
theorem Refl.own {k m N : Nat} {e : ℝ} {x v : Nat → α} {a : α} (h : Refl k m N e x v a) (hk : k < m)
    (hN : m ≤ N) (he : u α ≤ e) (hM : (N + 4) * e ≤ 1 / 100) :
    nrm (Ico k m) (fun i => (if i = k then val a else 0) - (val (x i) + rb k m (val a) (fun r => val (v r)) *
      (∑ r ∈ Ico k m, val (v r) * val (x r)) * tl k (fun r => val (v r)) i)) ≤
      36 * (N + 4) * e * nrm (Ico k m) (fun i => val (x i)) + 6 * √(N * η α) := by
  have hu := u_nonneg (α := α)
  have hη0 := η_nonneg (α := α)
  have he0 : 0 ≤ e := hu.trans he
  have hn := h.norm.close
  by_cases hne : val a = 0
  · have hb0 : rb k m (val a) (fun r => val (v r)) = 0 := if_pos hne
    rw [hb0]
    obtain ⟨g1, g2⟩ := gam_small (α := α) (M := N) (N := m - k + 2) he hM (by omega)
    have hg0 := gam_nonneg (α := α) (m - k + 2)
    have hm1 : (1 : ℝ) ≤ N := by exact_mod_cast (show 1 ≤ N by omega)
    have hNM : ((m - k : ℕ) : ℝ) ≤ N := by exact_mod_cast (show m - k ≤ N by omega)
    have hT : 0 ≤ ∑ i ∈ Ico k m, val (x i) ^ 2 := sum_nonneg fun _ _ => sq_nonneg _
    have hb : ∑ i ∈ Ico k m, val (x i) ^ 2 ≤ 36 * (N * η α) := by
      have h1 : ((m - k : ℕ) : ℝ) * (1 + u α) ^ (m - k + 2) * η α ≤ N * 1.02 * η α := by gcongr
      have h2 := (abs_le.1 hn).1
      rw [hne] at h2
      have h3 : gam α (m - k + 2) * ∑ i ∈ Ico k m, val (x i) ^ 2 ≤
          0.5 * ∑ i ∈ Ico k m, val (x i) ^ 2 := by
        refine mul_le_mul_of_nonneg_right ?_ hT
        norm_num at g1 ⊢
        nlinarith
      have h4 : 0 ≤ N * η α := by positivity
      norm_num at h1 h2 h3 ⊢
      linarith
    have e1 : nrm (Ico k m) (fun i => (if i = k then val a else 0) -
        (val (x i) + 0 * (∑ r ∈ Ico k m, val (v r) * val (x r)) * tl k (fun r => val (v r)) i)) =
        nrm (Ico k m) fun i => val (x i) := by
      unfold nrm
      congr 1
      refine sum_congr rfl fun i hi => ?_
      dsimp only
      rw [zero_mul, zero_mul, _root_.add_zero]
      have : (if i = k then val a else 0) = 0 := by rw [hne]; split <;> rfl
      rw [this, zero_sub, neg_sq]
    rw [e1]
    have h5 : nrm (Ico k m) (fun i => val (x i)) ≤ 6 * √(N * η α) := by
      refine nrm_le (by positivity) (hb.trans (le_of_eq ?_))
      rw [mul_pow, Real.sq_sqrt (by positivity)]
      norm_num
    have h6 : 0 ≤ 36 * ((N : ℝ) + 4) * e * nrm (Ico k m) (fun i => val (x i)) :=
      mul_nonneg (by positivity) nrm_nonneg
    linarith
  · have hb0 : rb k m (val a) (fun r => val (v r)) = -2 / ∑ r ∈ Ico k m, val (v r) ^ 2 := if_neg hne
    have H := (hhr_gen hk hN he hM h.norm hne (h.ok.low.resolve_left hne) (h.head (h.ne hne))
      h.rest h.ok.high).1.self
    rw [hb0]
    have h6 : 0 ≤ 6 * √(N * η α) := by positivity
    refine le_trans (le_of_eq (nrm_congr fun i hi => ?_)) (H.trans (le_trans (le_of_eq ?_)
      (le_add_of_nonneg_right h6)))
    · rw [← reflV_eq (m := m) (fun i => val (v i)) (fun i => val (x i)) i (mem_Ico.1 hi).1]
    · ring

/-- Another vector is nearly reflected. -/
theorem Refl.app {k m N : Nat} {e : ℝ} {x v t t' : Nat → α} {a : α} (h : Refl k m N e x v a) (hk : k < m)
    (hN : m ≤ N) (he : u α ≤ e) (hM : (N + 4) * e ≤ 1 / 100)
    (hs : Flt.eq a Flt.zero = true → ∀ i, k ≤ i → i < m → t' i = t i)
    (ht : Flt.eq a Flt.zero = false → ∀ i, k ≤ i → i < m →
      t' i = Flt.sub (t i) (Flt.mul (halpha k m a v t) (v i)))
    (hf : ∀ i, k ≤ i → i < m → Rnd.fin (t' i)) :
    nrm (Ico k m) (fun i => val (t' i) - (val (t i) + rb k m (val a) (fun r => val (v r)) *
      (∑ r ∈ Ico k m, val (v r) * val (t r)) * tl k (fun r => val (v r)) i)) ≤
      36 * (N + 4) * e * nrm (Ico k m) (fun i => val (t i)) + 6 * √(N * η α) := by
  have hu := u_nonneg (α := α)
  have hη0 := η_nonneg (α := α)
  have he0 : 0 ≤ e := hu.trans he
  by_cases hne : val a = 0
  · have hb0 : rb k m (val a) (fun r => val (v r)) = 0 := if_pos hne
    have e1 : ∀ i ∈ Ico k m, val (t' i) - (val (t i) + rb k m (val a) (fun r => val (v r)) *
      (∑ r ∈ Ico k m, val (v r) * val (t r)) * tl k (fun r => val (v r)) i) = 0 := by
      intro i hi
      rw [hb0, hs (h.zero_iff.2 hne) i (mem_Ico.1 hi).1 (mem_Ico.1 hi).2]
      ring
    rw [nrm_congr e1, nrm_zero]
    exact add_nonneg (mul_nonneg (by positivity) nrm_nonneg) (by positivity)
  · have hz := h.ne hne
    have hb0 : rb k m (val a) (fun r => val (v r)) = -2 / ∑ r ∈ Ico k m, val (v r) ^ 2 := if_neg hne
    have hal : Rnd.fin (halpha k m a v t) := by
      have := hf k le_rfl hk
      rw [ht hz k le_rfl hk] at this
      exact (mul_fin (sub_fin this).2).1
    have H := apply_cols (t := t) (t' := t') hk hN he hM h.norm hne
      (h.ok.low.resolve_left hne) (h.head hz) h.rest h.ok.high hal (by
        intro i h1 h2
        have h3 := hf i h1 h2
        rw [ht hz i h1 h2] at h3 ⊢
        refine sub_mul_err h3 he ?_
        have : (0 : ℝ) ≤ N := Nat.cast_nonneg _
        nlinarith)
    rw [hb0]
    refine le_trans (le_of_eq (nrm_congr fun i hi => ?_)) H
    rw [← reflV_eq (m := m) (fun i => val (v i)) (fun i => val (t i)) i (mem_Ico.1 hi).1]

end

end Linear
