import Verif.Lemmas.RoundHess

/-!
# The Hessenberg reduction in rounded arithmetic
-/

set_option linter.unusedSectionVars false

namespace Linear

open Spec Rnd Matrix
open Finset hiding val diag

variable {α : Type} [Flt α] [Rnd α] {m : Nat}

theorem Hess.Scl.finV {k N : Nat} {e : ℝ} {x o v : Nat → α} {σ g h : α} (H : Hess.Scl k m N e x o v σ g h) :
    ∀ i, k ≤ i → i < m → fin (v i) := by
  intro i h1 h2
  by_cases hi : i = k
  · subst hi; exact H.finv
  · rw [H.tail i (by omega) h2]; exact H.fino i h1 h2

/-- The size of the signed norm. -/
theorem Hess.Scl.inv_le {k N : Nat} {e : ℝ} {x o v : Nat → α} {σ g h : α} (H : Hess.Scl k m N e x o v σ g h) :
    1 ≤ 27 / 25 * √N * |val g| ∧ |val g| ≤ 21 / 20 := by
  have h1 := H.low
  have h2 := H.high
  have h3 : √(N : ℝ) ^ 2 = N := Real.sq_sqrt (Nat.cast_nonneg N)
  have h4 := Real.sqrt_nonneg (N : ℝ)
  have h5 := abs_nonneg (val g)
  rw [← sq_abs] at h1 h2
  rw [← h3] at h1
  generalize √(N : ℝ) = q at *
  generalize |val g| = a at *
  constructor
  · by_contra hc
    push Not at hc
    have : 27 / 25 * (q * a) * (27 / 25 * (q * a)) < 1 * 1 := by
      refine mul_lt_mul'' (by linarith) (by linarith) (by positivity) (by positivity)
    nlinarith
  · nlinarith

/-- A vector the code reflects is nearly the reflected vector. -/
theorem Hess.Scl.app {k N : Nat} {e : ℝ} {x o v t t' : Nat → α} {σ g h : α} (H : Hess.Scl k m N e x o v σ g h)
    (hk : k < m) (hN : m ≤ N) (he : Rnd.u α ≤ e) (hM : (N + 4) * e ≤ 1 / 100)
    (ht : ∀ i, k ≤ i → i < m → t' i = Flt.sub (t i) (Flt.mul
      (Flt.div (dsum m k (fun x => Flt.mul (v x) (t x)) Flt.zero) h) (v i)))
    (hf : ∀ i, k ≤ i → i < m → fin (t' i)) :
    Spec.nrm (Ico k m) (fun i => val (t' i) - reflV (Ico k m) (fun i => val (v i)) (fun i => val (t i)) i) ≤
      38 * (N + 4) * e * Spec.nrm (Ico k m) (fun i => val (t i)) + 7 * (N * √N * η α) := by
  have hu := u_nonneg (α := α)
  have hη0 := η_nonneg (α := α)
  have he0 : 0 ≤ e := hu.trans he
  have hN1 : (1 : ℝ) ≤ N := by exact_mod_cast (show 1 ≤ N by omega)
  have he1 : e ≤ 1 / 500 := by nlinarith
  have hκ0 : 0 ≤ 2 * (N + 4) * e := by positivity
  have hκ3 : 3 * e ≤ 2 * (N + 4) * e := by nlinarith
  have hmk : ((m - k : ℕ) : ℝ) ≤ N := by exact_mod_cast (show m - k ≤ N by omega)
  have hal : fin (Flt.div (dsum m k (fun x => Flt.mul (v x) (t x)) Flt.zero) h) := by
    have h1 := hf k le_rfl hk
    rw [ht k le_rfl hk] at h1
    exact (mul_fin (sub_fin h1).2).1
  have hS : SumOf (dsum m k (fun x => Flt.mul (v x) (t x)) Flt.zero)
      (over (Ico k m) fun i => Flt.mul (v i) (t i)) := by
    rw [over_Ico]; exact SumOf.down _ _ _
  generalize dsum m k (fun x => Flt.mul (v x) (t x)) Flt.zero = F at *
  have hp := (hS.prods (div_fin hal)).2
  have hd := (div_err hal H.finh).1
  have hh := H.finh
  rw [Nat.card_Ico] at hp
  obtain ⟨g1, g2⟩ := gam_small (α := α) (N := m - k) he hM (by omega)
  have hc : |-val F + ∑ i ∈ Ico k m, val (t i) * val (v i)| ≤
      2 * (N + 4) * e * (Spec.nrm (Ico k m) (fun i => val (t i)) * Spec.nrm (Ico k m) (fun i => val (v i))) +
        51 / 50 * (N * η α) := by
    rw [show -val F + ∑ i ∈ Ico k m, val (t i) * val (v i) = -(val F - ∑ i ∈ Ico k m, val (v i) * val (t i)) by
      rw [sum_congr rfl fun i _ => mul_comm (val (t i)) (val (v i))]; ring, abs_neg]
    refine hp.trans (add_le_add ?_ ?_)
    · have h3 : gam α (m - k) ≤ 2 * (N + 4) * e := by
        refine g1.trans ?_
        have : 0 ≤ N * e := by positivity
        norm_num
        linarith
      rw [sum_congr rfl fun i _ => mul_comm |val (v i)| |val (t i)|]
      exact mul_le_mul h3 dot_le_nrm (sum_nonneg fun _ _ => by positivity) hκ0
    · have h3 : ((m - k : ℕ) : ℝ) * (1 + Rnd.u α) ^ (m - k) * η α ≤ N * 1.02 * η α := by gcongr
      norm_num at h3
      linarith
  have hA := H.hhr.apply H.den hc (al := val (Flt.div F h)) (e := η α) (t' := fun i => val (t' i)) (ν := 2 * η α)
    (by
      rw [neg_div_neg_eq]
      refine hd.trans (add_le_add (mul_le_mul_of_nonneg_right ?_ (abs_nonneg _)) le_rfl)
      linarith)
    (fun i hi => by
      obtain ⟨h3, h4⟩ := mem_Ico.1 hi
      have h5 := hf i h3 h4
      rw [ht i h3 h4] at h5 ⊢
      exact (sub_mul_err h5 he (by linarith)).trans (by gcongr)) (by positivity) hη0 (by positivity)
  refine hA.trans ?_
  obtain ⟨a1, a2⟩ := H.inv_le
  have hgp := H.hhr.absA
  have hcard : √((Ico k m).card : ℝ) ≤ √N := Real.sqrt_le_sqrt (by rw [Nat.card_Ico]; exact hmk)
  have hq1 : 1 ≤ √(N : ℝ) := Real.one_le_sqrt.2 hN1
  have hη1 : η α ≤ N * √N * η α := by
    have : 1 ≤ N * √(N : ℝ) := by nlinarith
    nlinarith
  have hη2 : √N * η α ≤ N * √N * η α := by
    have : √(N : ℝ) ≤ N * √(N : ℝ) := by nlinarith
    gcongr
  have w1 : 51 / 50 * (N * η α) / |val g| ≤ 51 / 50 * (N * η α) * (27 / 25 * √N) := by
    rw [div_le_iff₀ hgp, mul_assoc]
    exact le_mul_of_one_le_right (by positivity) a1
  have w2 : η α * |val g| ≤ η α * (21 / 20) := by gcongr
  have w3 : √((Ico k m).card : ℝ) * (2 * η α) ≤ √N * (2 * η α) := by gcongr
  have hn := nrm_nonneg (S := Ico k m) (x := fun i => val (t i))
  have w4 : 18 * (2 * (N + 4) * e) * Spec.nrm (Ico k m) (fun i => val (t i)) ≤
      38 * (N + 4) * e * Spec.nrm (Ico k m) (fun i => val (t i)) := by
    refine mul_le_mul_of_nonneg_right ?_ hn
    nlinarith
  norm_num at *
  linarith

/-- The reflection is linear and hardly enlarges anything. -/
theorem HHR.refl_le {S : Finset ℕ} {k : ℕ} {κ A : ℝ} {x V : ℕ → ℝ} (H : HHR S k κ x V A) (t : ℕ → ℝ) :
    Spec.nrm S (reflV S V t) ≤ 3 * Spec.nrm S t := by
  have h1 := (H.factor (D := A * V k) (t := t) (c := -∑ i ∈ S, t i * V i) (μ := 0)
    (by rw [sub_self, abs_zero]; exact mul_nonneg H.nonneg (abs_nonneg _))
    (by rw [neg_add_cancel, abs_zero]; exact add_nonneg (mul_nonneg H.nonneg (mul_nonneg nrm_nonneg nrm_nonneg)) le_rfl)
    le_rfl).2
  have h2 := nrm_sub_le (S := S) (x := t) (y := fun i => 2 * (∑ s ∈ S, t s * V s) / (∑ s ∈ S, V s ^ 2) * V i)
  rw [nrm_mul] at h2
  refine le_trans (le_of_eq (nrm_congr fun i _ => rfl)) (h2.trans ?_)
  linarith

omit [Rnd α] [Flt α] in
theorem reflV_sub (S : Finset ℕ) (V s t : ℕ → ℝ) (i : ℕ) :
    reflV S V (fun i => s i - t i) i = reflV S V s i - reflV S V t i := by
  unfold reflV
  simp only [sub_mul, sum_sub_distrib]
  ring

omit [Rnd α] [Flt α] in
theorem reflV_smul (S : Finset ℕ) (V t : ℕ → ℝ) (c : ℝ) (i : ℕ) :
    reflV S V (fun i => c * t i) i = c * reflV S V t i := by
  unfold reflV
  simp only [mul_assoc, ← mul_sum]
  ring

/-- How far the scaled column is from the column. -/
theorem Hess.Scl.delta {k N : Nat} {e : ℝ} {x o v : Nat → α} {σ g h : α} (H : Hess.Scl k m N e x o v σ g h)
    (hk : k < m) (hN : m ≤ N) (he : Rnd.u α ≤ e) (hη : 5 * N ^ 2 * η α ≤ e) :
    Spec.nrm (Ico k m) (fun i => val σ * val (o i) - val (x i)) ≤
      61 / 50 * e * Spec.nrm (Ico k m) (fun i => val (x i)) := by
  have hu := u_nonneg (α := α)
  have hη0 := η_nonneg (α := α)
  have he0 : 0 ≤ e := hu.trans he
  have hN1 : (1 : ℝ) ≤ N := by exact_mod_cast (show 1 ≤ N by omega)
  have hmk : ((m - k : ℕ) : ℝ) ≤ N := by exact_mod_cast (show m - k ≤ N by omega)
  have hσ := H.pos
  have h1 : Spec.nrm (Ico k m) (fun i => val σ * val (o i) - val (x i)) ≤
      Spec.nrm (Ico k m) (fun i => e * |val (x i)| + η α * val σ) := by
    refine nrm_mono fun i hi => ?_
    have h2 := H.near i (mem_Ico.1 hi).1 (mem_Ico.1 hi).2
    rwa [abs_of_nonneg (a := e * |val (x i)| + η α * val σ) (by positivity)]
  have h2 : Spec.nrm (Ico k m) (fun i => e * |val (x i)| + η α * val σ) ≤
      e * Spec.nrm (Ico k m) (fun i => val (x i)) + √N * (η α * val σ) := by
    refine nrm_add_le.trans (add_le_add (le_of_eq ?_) ?_)
    · rw [nrm_mul, abs_of_nonneg he0, nrm_abs]
    · rw [nrm_const (by positivity)]
      refine mul_le_mul_of_nonneg_right (Real.sqrt_le_sqrt ?_) (by positivity)
      rw [Nat.card_Ico]; exact hmk
  have h3 : ∑ i ∈ Ico k m, |val (x i)| ≤ √N * Spec.nrm (Ico k m) (fun i => val (x i)) := by
    have h4 := sum_sq_ge (S := Ico k m) fun i => val (x i)
    rw [Nat.card_Ico] at h4
    unfold Spec.nrm
    rw [← Real.sqrt_mul (Nat.cast_nonneg N)]
    refine Real.le_sqrt_of_sq_le (h4.trans ?_)
    exact mul_le_mul_of_nonneg_right hmk (sum_nonneg fun _ _ => sq_nonneg _)
  have h4 := (abs_le.1 H.sum).2
  have hn := nrm_nonneg (S := Ico k m) (x := fun i => val (x i))
  have hq : √(N : ℝ) * √N = N := Real.mul_self_sqrt (Nat.cast_nonneg N)
  have hq0 := Real.sqrt_nonneg (N : ℝ)
  have h5 : val σ ≤ 101 / 100 * (1 + 1 / 1000) * (√N * Spec.nrm (Ico k m) (fun i => val (x i))) := by
    have : 0 ≤ √N * Spec.nrm (Ico k m) (fun i => val (x i)) := by positivity
    linarith
  have h6 : √N * (η α * val σ) ≤ 101 / 100 * (1 + 1 / 1000) * (N * η α * Spec.nrm (Ico k m) (fun i => val (x i))) := by
    calc √N * (η α * val σ) ≤ √N * (η α * (101 / 100 * (1 + 1 / 1000) *
          (√N * Spec.nrm (Ico k m) (fun i => val (x i))))) := by gcongr
      _ = 101 / 100 * (1 + 1 / 1000) * ((√N * √N) * η α * Spec.nrm (Ico k m) (fun i => val (x i))) := by ring
      _ = _ := by rw [hq]
  have h7 : N * η α ≤ e / 5 := by nlinarith [mul_nonneg (sub_nonneg.2 hN1) (mul_nonneg (Nat.cast_nonneg (α := ℝ) N) hη0)]
  have h8 : N * η α * Spec.nrm (Ico k m) (fun i => val (x i)) ≤ e / 5 * Spec.nrm (Ico k m) (fun i => val (x i)) := by
    gcongr
  have h9 : 0 ≤ e * Spec.nrm (Ico k m) (fun i => val (x i)) := by positivity
  linarith

/-- The column that gives the reflector is nearly sent to a multiple of a unit vector. -/
theorem Hess.Scl.own {k N : Nat} {e : ℝ} {x o v : Nat → α} {σ g h : α} (H : Hess.Scl k m N e x o v σ g h)
    (hk : k < m) (hN : m ≤ N) (he : Rnd.u α ≤ e) (hM : (N + 4) * e ≤ 1 / 100) (hη : 5 * N ^ 2 * η α ≤ e)
    (hf : fin (Flt.mul σ g)) :
    Spec.nrm (Ico k m) (fun i => (if i = k then val (Flt.mul σ g) else 0) -
      reflV (Ico k m) (fun i => val (v i)) (fun i => val (x i)) i) ≤
      38 * (N + 4) * e * Spec.nrm (Ico k m) (fun i => val (x i)) + 7 * (N * √N * η α) := by
  have hu := u_nonneg (α := α)
  have hη0 := η_nonneg (α := α)
  have he0 : 0 ≤ e := hu.trans he
  have hN1 : (1 : ℝ) ≤ N := by exact_mod_cast (show 1 ≤ N by omega)
  have he1 : e ≤ 1 / 500 := by nlinarith
  have hσ := H.pos
  have hd := H.delta hk hN he hη
  have hn := nrm_nonneg (S := Ico k m) (x := fun i => val (x i))
  set X := Spec.nrm (Ico k m) (fun i => val (x i)) with hX
  have e1 : ∀ i, (if i = k then val (Flt.mul σ g) else 0) -
      reflV (Ico k m) (fun i => val (v i)) (fun i => val (x i)) i =
      ((if i = k then val (Flt.mul σ g) - val σ * val g else 0) +
      val σ * ((if i = k then val g else 0) - reflV (Ico k m) (fun i => val (v i)) (fun i => val (o i)) i)) +
      reflV (Ico k m) (fun i => val (v i)) (fun i => val σ * val (o i) - val (x i)) i := by
    intro i
    rw [reflV_sub, reflV_smul]
    split_ifs <;> ring
  have hso : Spec.nrm (Ico k m) (fun i => val σ * val (o i)) ≤ (1 + 61 / 50 * e) * X := by
    have h1 := nrm_add_le (S := Ico k m) (x := fun i => val σ * val (o i) - val (x i)) (y := fun i => val (x i))
    simp only [sub_add_cancel] at h1
    linarith
  rw [nrm_mul, abs_of_pos hσ] at hso
  have hgo : |val g| ≤ 51 / 50 * Spec.nrm (Ico k m) (fun i => val (o i)) := by
    have h1 := (abs_le.1 H.hhr.norm).2
    have h2 := H.hhr.small
    have h3 := nrm_sq (S := Ico k m) (x := fun i => val (o i))
    have h4 := nrm_nonneg (S := Ico k m) (x := fun i => val (o i))
    refine abs_le_of_sq_le_sq ?_ (by positivity)
    rw [mul_pow, h3]
    have h5 : 2 * (N + 4) * e * val g ^ 2 ≤ 1 / 50 * val g ^ 2 := by gcongr
    have h6 : 0 ≤ val g ^ 2 := sq_nonneg _
    linarith
  have hT : Spec.nrm (Ico k m) (fun i => if i = k then val (Flt.mul σ g) - val σ * val g else 0) ≤
      e * (21 / 20 * X) + η α := by
    have h1 : Spec.nrm (Ico k m) (fun i => if i = k then val (Flt.mul σ g) - val σ * val g else 0) =
        |val (Flt.mul σ g) - val σ * val g| := by
      unfold Spec.nrm
      rw [sum_eq_single_of_mem k (mem_Ico.2 ⟨le_rfl, hk⟩) fun i _ hi => by simp [hi]]
      simp only [if_true, Real.sqrt_sq_eq_abs]
    rw [h1]
    refine (mul_err hf).1.trans (add_le_add ?_ le_rfl)
    rw [abs_mul, abs_of_pos hσ]
    refine mul_le_mul he ?_ (by positivity) he0
    have h2 : val σ * |val g| ≤ 51 / 50 * (val σ * Spec.nrm (Ico k m) (fun i => val (o i))) := by
      have := mul_le_mul_of_nonneg_left hgo hσ.le
      linarith
    have h3 : (1 + 61 / 50 * e) * X ≤ (1 + 61 / 50 * (1 / 500)) * X := by gcongr
    linarith
  have hS := H.hhr.self
  have hR := H.hhr.refl_le fun i => val σ * val (o i) - val (x i)
  rw [nrm_congr fun i _ => e1 i]
  refine (nrm_add_le.trans (add_le_add nrm_add_le le_rfl)).trans ?_
  rw [nrm_mul, abs_of_pos hσ]
  have h1 : val σ * Spec.nrm (Ico k m) (fun i => (if i = k then val g else 0) -
      reflV (Ico k m) (fun i => val (v i)) (fun i => val (o i)) i) ≤ 36 * (N + 4) * e * (1004 / 1000 * X) := by
    calc _ ≤ val σ * (18 * (2 * (N + 4) * e) * Spec.nrm (Ico k m) (fun i => val (o i))) := by gcongr
      _ = 36 * (N + 4) * e * (val σ * Spec.nrm (Ico k m) (fun i => val (o i))) := by ring
      _ ≤ 36 * (N + 4) * e * ((1 + 61 / 50 * e) * X) := by gcongr
      _ ≤ _ := by gcongr; linarith
  have hηN : η α ≤ 7 * (N * √N * η α) := by
    have hq1 : 1 ≤ √(N : ℝ) := Real.one_le_sqrt.2 hN1
    have : 1 ≤ N * √(N : ℝ) := by nlinarith
    nlinarith
  have h2 : 5 * (e * X) ≤ (N + 4) * (e * X) := by
    refine mul_le_mul_of_nonneg_right (by linarith) (by positivity)
  have h3 : 0 ≤ e * X := by positivity
  have h4 : 36 * (N + 4) * e * (1004 / 1000 * X) = 36144 / 1000 * ((N + 4) * (e * X)) := by ring
  have h5 : 38 * (N + 4) * e * X = 38 * ((N + 4) * (e * X)) := by ring
  rw [h4] at h1
  rw [h5]
  linarith

/-- A bound for every column bounds the error of a reflection from the left. -/
theorem hh_round {n N k : Nat} {ε ω b : ℝ} {V : Nat → ℝ} {M M' : Nat → Nat → ℝ} (hε : 0 ≤ ε) (hω : 0 ≤ ω) (hn : n ≤ N)
    (h3 : ∀ i j, i < k → j < n → M' i j = M i j)
    (h4 : ∀ j, j < n → Spec.nrm (Ico k m) (fun i => M' i j - (M i j + b * (∑ r ∈ Ico k m, V r * M r j) * tl k V i)) ≤
      ε * Spec.nrm (Ico k m) (fun i => M i j) + ω) :
    fro (mx m n M' - hh m k V b * mx m n M) ≤ ε * fro (mx m n M) + √N * ω := by
  refine fro_of_cols hε hω hn fun j => ?_
  rw [hh_mul]
  have e0 : mx m n M' - (mx m n fun i j => M i j + b * (∑ r ∈ Ico k m, V r * M r j) * tl k V i) =
      mx m n fun i j => M' i j - (M i j + b * (∑ r ∈ Ico k m, V r * M r j) * tl k V i) := rfl
  rw [e0, cnorm_mx, cnorm_mx]
  clear e0
  have hlow : ∀ i, i < k → M' i j - (M i j + b * (∑ r ∈ Ico k m, V r * M r j) * tl k V i) = 0 := by
    intro i hi'
    rw [tl, if_neg (by omega), mul_zero, _root_.add_zero, h3 i j hi' j.2, sub_self]
  have hsub : Ico k m ⊆ range m := fun i hi => mem_range.2 (mem_Ico.1 hi).2
  have hnr : ∀ g : ℕ → ℝ, (∀ i, i < k → g i = 0) → Spec.nrm (range m) g = Spec.nrm (Ico k m) g := by
    intro g hg
    unfold Spec.nrm
    rw [sum_subset hsub fun i h1 h2 => ?_]
    have : i < k := by
      by_contra h3
      exact h2 (mem_Ico.2 ⟨by omega, mem_range.1 h1⟩)
    rw [hg i this, zero_pow (by norm_num)]
  rw [hnr _ hlow]
  refine le_trans ?_ (add_le_add (mul_le_mul_of_nonneg_left (nrm_mono_set hsub) hε) le_rfl)
  exact h4 j j.2

/-- A bound for every row bounds the error of a reflection from the right. -/
theorem hh_round_right {n N k : Nat} {ε ω b : ℝ} {V : Nat → ℝ} {M M' : Nat → Nat → ℝ} (hε : 0 ≤ ε) (hω : 0 ≤ ω)
    (hn : n ≤ N) (h3 : ∀ i j, i < n → j < k → M' i j = M i j)
    (h4 : ∀ i, i < n → Spec.nrm (Ico k m) (fun j => M' i j - (M i j + b * (∑ r ∈ Ico k m, V r * M i r) * tl k V j)) ≤
      ε * Spec.nrm (Ico k m) (fun j => M i j) + ω) :
    fro (mx n m M' - mx n m M * hh m k V b) ≤ ε * fro (mx n m M) + √N * ω := by
  have h := hh_round (m := m) (n := n) (M := fun i j => M j i) (M' := fun i j => M' j i) hε hω hn
    (fun i j h1 h2 => h3 j i h2 h1) h4
  have e1 : mx n m M' - mx n m M * hh m k V b =
      ((mx m n fun i j => M' j i) - hh m k V b * mx m n fun i j => M j i)ᵀ := by
    rw [Matrix.transpose_sub, Matrix.transpose_mul, hh_transpose]
    rfl
  rw [e1, fro_transpose]
  have e2 : fro (mx n m M) = fro (mx m n fun i j => M j i) := (fro_transpose (mx n m M)).symm
  rw [e2]
  exact h

/-- What a finished round `k` has left: the reflector is exact and its data are stored. -/
inductive Hess.Done (m N : Nat) (e : ℝ) (k : Nat) (f : Nat → Nat → α) (o : Nat → α) (V : Nat → ℝ) (b : ℝ) : Prop
  | skip (hb : b = 0) (hf : fin (f k (k - 1))) (hs : |val (f k (k - 1))| ≤ 3 * η α)
  | refl (x oc v : Nat → α) (σ g h : α) (H : Hess.Scl k m N e x oc v σ g h) (hV : V = fun i => val (v i))
      (hb : b = -2 / ∑ r ∈ Ico k m, V r ^ 2) (hf : fin (Flt.mul σ g)) (hh : f k (k - 1) = Flt.mul σ g)
      (ho : o k = Flt.mul σ (v k)) (hx : ∀ i, k < i → i < m → f i (k - 1) = x i)

theorem Hess.Done.refl' {N k : Nat} {e b : ℝ} {f : Nat → Nat → α} {o : Nat → α} {V : Nat → ℝ}
    (h : Hess.Done m N e k f o V b) : b = 0 ∨ b * ∑ r ∈ Ico k m, V r * V r = -2 := by
  cases h with
  | skip hb => exact .inl hb
  | refl x oc v σ g h H hV hb =>
    refine .inr ?_
    have := H.hhr.nrmV_pos
    rw [hb, hV]
    simp only [← sq]
    rw [div_mul_cancel₀ _ this.ne']

theorem Hess.Done.congr {N k : Nat} {e b : ℝ} {f f' : Nat → Nat → α} {o o' : Nat → α} {V : Nat → ℝ}
    (h : Hess.Done m N e k f o V b) (hf : ∀ i, f' i (k - 1) = f i (k - 1)) (ho : o' k = o k) :
    Hess.Done m N e k f' o' V b := by
  cases h with
  | skip hb h1 h2 => exact .skip hb (by rwa [hf]) (by rwa [hf])
  | refl x oc v σ g h H hV hb h1 h2 h3 h4 =>
    exact .refl x oc v σ g h H hV hb h1 (by rwa [hf]) (by rwa [ho]) fun i a b => by rw [hf, h4 i a b]

/-- The exact reflections. -/
noncomputable def Hess.X (m : Nat) (V : Nat → Nat → ℝ) (b : Nat → ℝ) (j : Nat) : Matrix (Fin m) (Fin m) ℝ :=
  hh m (j + 1) (V (j + 1)) (b (j + 1))

/-- What is known of the reduction before round `k`. -/
structure Hess.RInv (m N : Nat) (e : ℝ) (A : Nat → Nat → α) (k : Nat) (f : Nat → Nat → α) (o : Nat → α)
    (V : Nat → Nat → ℝ) (b : Nat → ℝ) : Prop where
  fin : ∀ i j, i < m → j < m → Rnd.fin (A i j)
  done : ∀ j, 1 ≤ j → j < k → Hess.Done m N e j f o (V j) (b j)
  err : fro (mx m m (Hess.M k (vals f)) -
      (hprod m (Hess.X m V b) (k - 1))ᵀ * mx m m (vals A) * hprod m (Hess.X m V b) (k - 1)) ≤
    ((1 + 38 * (N + 4) * e) ^ (2 * (k - 1)) - 1) * fro (mx m m (vals A)) +
      (2 * (k - 1) : ℕ) * (1 + 38 * (N + 4) * e) ^ (2 * (k - 1)) * (√N * (7 * (N * √N * η α)))

/-- The finiteness of the results, at round `k`. -/
def Hess.RFin (m k : Nat) (f : Nat → Nat → α) : Prop :=
  ∀ i j, i < m → j < m → k ≤ j + 1 ∨ i ≤ j + 1 → fin (f i j)

theorem Hess.RInv.orth {N k : Nat} {e : ℝ} {A f : Nat → Nat → α} {o : Nat → α} {V : Nat → Nat → ℝ} {b : Nat → ℝ}
    (h : Hess.RInv m N e A k f o V b) :
    hprod m (Hess.X m V b) (k - 1) * (hprod m (Hess.X m V b) (k - 1))ᵀ = 1 :=
  hprod_orth (fun _ _ => hh_transpose _ _ _ _) fun j hj => hh_sq (h.done (j + 1) (by omega) (by omega)).refl'

/-- One more round. -/
theorem Hess.RInv.next {N k : Nat} {e : ℝ} {A f f' : Nat → Nat → α} {o o' : Nat → α} {V : Nat → Nat → ℝ} {b : Nat → ℝ}
    (hI : Hess.RInv m N e A k f o V b) (hk : 1 ≤ k) (he : Rnd.u α ≤ e) {Vk : Nat → ℝ} {bk : ℝ}
    (hD : Hess.Done m N e k f' o' Vk bk) (hc : ∀ i j, j + 1 < k → f' i j = f i j) (ho : ∀ j, j < k → o' j = o j)
    {M1 : Nat → Nat → ℝ}
    (hl : fro (mx m m M1 - hh m k Vk bk * mx m m (Hess.M k (vals f))) ≤
      38 * (N + 4) * e * fro (mx m m (Hess.M k (vals f))) + √N * (7 * (N * √N * η α)))
    (hr : fro (mx m m (Hess.M (k + 1) (vals f')) - mx m m M1 * hh m k Vk bk) ≤
      38 * (N + 4) * e * fro (mx m m M1) + √N * (7 * (N * √N * η α))) :
    ∃ V b, Hess.RInv m N e A (k + 1) f' o' V b := by
  have hη0 := η_nonneg (α := α)
  have he0 : 0 ≤ e := (u_nonneg (α := α)).trans he
  have hε : 0 ≤ 38 * ((N : ℝ) + 4) * e := by positivity
  have hω : 0 ≤ √N * (7 * (N * √N * η α)) := by positivity
  refine ⟨fun j => if j = k then Vk else V j, fun j => if j = k then bk else b j, hI.fin, fun j h1 h2 => ?_, ?_⟩
  · by_cases hj : j = k
    · subst hj
      rw [if_pos rfl, if_pos rfl]
      exact hD
    · rw [if_neg hj, if_neg hj]
      exact (hI.done j h1 (by omega)).congr (fun i => hc i _ (by omega)) (ho j (by omega))
  · have hO := hI.orth
    have hE := hI.err
    have hX : hprod m (Hess.X m (fun j => if j = k then Vk else V j) fun j => if j = k then bk else b j) (k + 1 - 1) =
        hprod m (Hess.X m V b) (k - 1) * hh m k Vk bk := by
      obtain ⟨k, rfl⟩ := Nat.exists_eq_succ_of_ne_zero (show k ≠ 0 by omega)
      rw [Nat.succ_eq_add_one, Nat.add_sub_cancel, Nat.add_sub_cancel, hprod]
      congr 1
      · refine hprod_congr fun j hj => ?_
        unfold Hess.X
        dsimp only
        rw [if_neg (by omega), if_neg (by omega)]
      · unfold Hess.X
        dsimp only
        rw [if_pos rfl, if_pos rfl]
    have hH : hh m k Vk bk * hh m k Vk bk = 1 := hh_sq hD.refl'
    have hHt := hh_transpose m k Vk bk
    have hO' := mul_eq_one_comm.1 hO
    have s1 := left_step hε hω (P := (hprod m (Hess.X m V b) (k - 1))ᵀ) (by rwa [Matrix.transpose_transpose]) hO
      (by rw [hHt]; exact hH) hE hl
    have s2 := right_step hε hω (P := hh m k Vk bk * (hprod m (Hess.X m V b) (k - 1))ᵀ) (by
      rw [Matrix.transpose_mul, Matrix.transpose_transpose, hHt, Matrix.mul_assoc, ← Matrix.mul_assoc (hh m k Vk bk), hH,
        Matrix.one_mul, hO]) hO (by rw [hHt]; exact hH) s1 hr
    rw [hX, Matrix.transpose_mul, hHt, show 2 * (k + 1 - 1) = 2 * (k - 1) + 1 + 1 by omega]
    exact s2

set_option maxHeartbeats 800000 in
theorem Hess.rinv_step {N k : Nat} {e : ℝ} {A f f' : Nat → Nat → α} {o o' : Nat → α} (hk : 1 ≤ k) (hkm : k < m)
    (hN : m ≤ N) (he : Rnd.u α ≤ e) (hM : (N + 4) * e ≤ 1 / 100) (hη : 5 * N ^ 2 * η α ≤ e)
    (hr : Hess.Step m k f f' o o') (hI : Hess.RFin m k f → ∃ V b, Hess.RInv m N e A k f o V b)
    (hF : Hess.RFin m (k + 1) f') : ∃ V b, Hess.RInv m N e A (k + 1) f' o' V b := by
  have hη0 := η_nonneg (α := α)
  have he0 : 0 ≤ e := (u_nonneg (α := α)).trans he
  have hε : 0 ≤ 38 * ((N : ℝ) + 4) * e := by positivity
  have hω : 0 ≤ 7 * (N * √N * η α) := by positivity
  have hN1 : (1 : ℝ) ≤ N := by exact_mod_cast (show 1 ≤ N by omega)
  have hq1 : 1 ≤ √(N : ℝ) := Real.one_le_sqrt.2 hN1
  cases hr with
  | skip σ hs h0 hf ho =>
    replace hf := hf.symm
    replace ho := ho.symm
    subst hf ho
    obtain ⟨z1, z2⟩ := ulp_zero h0
    obtain ⟨x1, x2⟩ := Hess.scale_round hkm hN he hM hs z1
    obtain ⟨V, b, hI⟩ := hI fun i j h1 h2 h3 => by
      by_cases hj : k + 1 ≤ j + 1 ∨ i ≤ j + 1
      · exact hF i j h1 h2 hj
      · have : j = k - 1 := by omega
        subst this
        exact x1 i (by omega) h1
    have hS : ∑ i ∈ Ico k m, |val (f i (k - 1))| ≤ 3 * η α := by
      have h1 := (abs_le.1 x2).1
      have h2 := (abs_le.1 z2).2
      linarith
    have hxk : |val (f k (k - 1))| ≤ 3 * η α :=
      (single_le_sum (f := fun i => |val (f i (k - 1))|) (fun i _ => abs_nonneg _) (mem_Ico.2 ⟨le_rfl, hkm⟩)).trans hS
    refine hI.next hk he (Vk := fun _ => 0) (bk := 0) (M1 := Hess.M (k + 1) (vals f))
      (.skip rfl (x1 k le_rfl hkm) hxk) (fun _ _ _ => rfl) (fun _ _ => rfl) (hh_round hε hω hN ?_ ?_) ?_
    · intro i j h1 h2
      unfold Hess.M
      by_cases hc : j + 1 < k ∧ j + 1 < i
      · rw [if_pos hc, if_pos (by omega)]
      · rw [if_neg hc, if_neg (by omega)]
    · intro j hj
      refine le_trans ?_ (le_add_of_nonneg_left (mul_nonneg hε nrm_nonneg))
      simp only [zero_mul, _root_.add_zero]
      by_cases hjk : j + 1 = k
      · have e1 : j = k - 1 := by omega
        subst e1
        have h1 : Spec.nrm (Ico k m) (fun i => Hess.M (k + 1) (vals f) i (k - 1) - Hess.M k (vals f) i (k - 1)) ≤
            Spec.nrm (Ico k m) (fun i => val (f i (k - 1))) := by
          refine nrm_mono fun i hi => ?_
          unfold Hess.M vals
          rw [if_neg (show ¬ (k - 1 + 1 < k ∧ k - 1 + 1 < i) by omega)]
          split_ifs
          · rw [zero_sub, abs_neg]
          · rw [sub_self, abs_zero]; exact abs_nonneg _
        refine h1.trans (le_trans ?_ (hS.trans ?_))
        · unfold Spec.nrm
          exact (Real.sqrt_le_left (sum_nonneg fun _ _ => abs_nonneg _)).2 (sq_sum_le _)
        · have : 1 ≤ N * √(N : ℝ) := by nlinarith
          nlinarith
      · rw [nrm_congr (y := fun _ => 0) fun i _ => ?_, nrm_zero]
        · exact hω
        · unfold Hess.M
          by_cases hc : j + 1 < k ∧ j + 1 < i
          · rw [if_pos hc, if_pos (by omega), sub_self]
          · rw [if_neg hc, if_neg (by omega), sub_self]
    · rw [hh_zero, Matrix.mul_one, sub_self]
      have : fro (0 : Matrix (Fin m) (Fin m) ℝ) = 0 := by simp [fro]
      rw [this]
      exact add_nonneg (mul_nonneg hε (fro_nonneg _)) (mul_nonneg (by positivity) hω)
  | refl σ h0 u f1 hs hne hh' hu huk hr hok ho =>
    have hfh : fin (Flt.mul σ (Hess.sign (Flt.div (f k (k - 1)) σ) h0)) := by
      rw [← hr.head]
      exact hF k (k - 1) hkm (by omega) (.inr (by omega))
    obtain ⟨hfs, hfg⟩ := mul_fin hfh
    have H : Hess.Scl k m N e (fun i => f i (k - 1)) (fun i => if i = k then Flt.div (f k (k - 1)) σ else u i) u σ
        (Hess.sign (Flt.div (f k (k - 1)) σ) h0)
        (Flt.sub h0 (Flt.mul (Flt.div (f k (k - 1)) σ) (Hess.sign (Flt.div (f k (k - 1)) σ) h0))) := by
      refine Hess.scl (h0 := h0) hkm hN he hM hη hs hne hfs (fun i h1 h2 => ?_) ?_ ?_ hfg ?_ (fun i hi => ?_) ?_
      · by_cases hi : i = k
        · subst hi; rw [if_pos rfl]
        · rw [if_neg hi, hu i (by omega) h2]
      · rw [hh']
        refine dsum_congr fun i h1 h2 => ?_
        by_cases hi : i = k
        · subst hi; rw [if_pos rfl]
        · rw [if_neg hi, hu i (by omega) h2]
      · rw [if_pos rfl]
      · rw [if_pos rfl]; exact huk
      · rw [if_neg hi]
      · rw [if_pos rfl]
    have hf1 : ∀ i j, i < m → k ≤ j → j < m → fin (f1 i j) := fun i j h1 h2 h3 => by
      have := hF i j h1 h3 (.inl (by omega))
      rw [hr.right i j h1 h2 h3] at this
      exact (sub_fin this).1
    have hff : ∀ i j, i < m → k ≤ j → j < m → fin (f i j) := fun i j h1 h2 h3 => by
      have := hf1 i j h1 h2 h3
      by_cases hi : i < k
      · rwa [hr.left' i j (.inl hi)] at this
      · rw [hr.left i j (by omega) h1 h2 h3] at this
        exact (sub_fin this).1
    have hlow : ∀ i j, j < k → ¬ (i = k ∧ j = k - 1) → f' i j = f i j := fun i j h1 h2 =>
      (hr.right' i j h1 h2).trans (hr.left' i j (.inr h1))
    obtain ⟨V, b, hI⟩ := hI fun i j h1 h2 h3 => by
      by_cases hj : k ≤ j
      · exact hff i j h1 hj h2
      · by_cases hj' : j = k - 1 ∧ k ≤ i
        · rw [hj'.1]; exact H.finx i hj'.2 h1
        · rw [← hlow i j (by omega) (by omega)]
          exact hF i j h1 h2 (.inr (by omega))
    generalize Hess.sign (Flt.div (f k (k - 1)) σ) h0 = g at *
    generalize Flt.sub h0 (Flt.mul (Flt.div (f k (k - 1)) σ) g) = h at *
    refine hI.next hk he (Vk := fun i => val (u i)) (bk := -2 / ∑ r ∈ Ico k m, val (u r) ^ 2)
      (M1 := fun i j => if j + 1 < k then Hess.M k (vals f) i j else
        if j + 1 = k then (if i < k then val (f i j) else if i = k then val (Flt.mul σ g) else 0) else val (f1 i j))
      (.refl _ _ _ σ g h H rfl rfl hfh hr.head hok fun i h1 h2 => hlow i (k - 1) (by omega) (by omega))
      (fun i j h1 => hlow i j (by omega) (by omega)) ho (hh_round hε hω hN ?_ ?_) (hh_round_right hε hω hN ?_ ?_)
    · intro i j h1 h2
      by_cases c1 : j + 1 < k
      · rw [if_pos c1]
      · rw [if_neg c1]
        unfold Hess.M vals
        rw [if_neg (show ¬ (j + 1 < k ∧ j + 1 < i) by omega)]
        by_cases c2 : j + 1 = k
        · rw [if_pos c2, if_pos h1]
        · rw [if_neg c2, hr.left' i j (.inl h1)]
    · intro j hj
      rcases lt_trichotomy (j + 1) k with c | c | c
      · have z : ∀ i ∈ Ico k m, Hess.M k (vals f) i j = 0 := fun i hi => by
          unfold Hess.M
          have := (mem_Ico.1 hi).1
          rw [if_pos (by omega)]
        have zs : ∑ r ∈ Ico k m, val (u r) * Hess.M k (vals f) r j = 0 :=
          sum_eq_zero fun r hr => by rw [z r hr, mul_zero]
        rw [nrm_congr (y := fun _ => 0) fun i hi => by rw [if_pos c, z i hi, zs]; ring, nrm_zero]
        exact add_nonneg (mul_nonneg hε nrm_nonneg) hω
      · have hjk : j = k - 1 := by omega
        subst hjk
        have z : ∀ i ∈ Ico k m, Hess.M k (vals f) i (k - 1) = val (f i (k - 1)) := fun i hi => by
          unfold Hess.M
          rw [if_neg (by omega)]
          rfl
        have zs : ∑ r ∈ Ico k m, val (u r) * Hess.M k (vals f) r (k - 1) =
            ∑ r ∈ Ico k m, val (u r) * val (f r (k - 1)) := sum_congr rfl fun r hr => by rw [z r hr]
        have hO := H.own hkm hN he hM hη hfh
        rw [nrm_congr z]
        refine le_trans (le_of_eq (nrm_congr fun i hi => ?_)) hO
        have hi' := (mem_Ico.1 hi).1
        rw [← reflV_eq (m := m) _ _ i hi', z i hi, zs, if_neg (by omega), if_pos c,
          if_neg (by omega)]
      · have z : ∀ i ∈ Ico k m, Hess.M k (vals f) i j = val (f i j) := fun i hi => by
          unfold Hess.M
          rw [if_neg (by omega)]
          rfl
        have zs : ∑ r ∈ Ico k m, val (u r) * Hess.M k (vals f) r j =
            ∑ r ∈ Ico k m, val (u r) * val (f r j) := sum_congr rfl fun r hr => by rw [z r hr]
        have hO := H.app (t := fun i => f i j) (t' := fun i => f1 i j) hkm hN he hM
          (fun i h1 h2 => hr.left i j h1 h2 (by omega) hj) (fun i h1 h2 => hf1 i j h2 (by omega) hj)
        rw [nrm_congr z]
        refine le_trans (le_of_eq (nrm_congr fun i hi => ?_)) hO
        have hi' := (mem_Ico.1 hi).1
        rw [← reflV_eq (m := m) _ _ i hi', z i hi, zs, if_neg (by omega),
          if_neg (by omega)]
    · intro i j h1 h2
      by_cases c1 : j + 1 < k
      · rw [if_pos c1]
        unfold Hess.M vals
        by_cases c2 : j + 1 < i
        · rw [if_pos (by omega), if_pos (by omega)]
        · rw [if_neg (by omega), if_neg (by omega), hlow i j (by omega) (by omega)]
      · have c2 : j + 1 = k := by omega
        rw [if_neg c1, if_pos c2]
        unfold Hess.M vals
        by_cases c3 : i < k
        · rw [if_pos c3, if_neg (by omega), hlow i j (by omega) (by omega)]
        · rw [if_neg c3]
          by_cases c4 : i = k
          · subst c4
            have : j = i - 1 := by omega
            subst this
            rw [if_pos rfl, if_neg (by omega), hr.head]
          · rw [if_neg c4, if_pos (by omega)]
    · intro i hi
      have hO := H.app (t := fun j => f1 i j) (t' := fun j => f' i j) hkm hN he hM
        (fun j h1 h2 => hr.right i j hi h1 h2) (fun j h1 h2 => hF i j hi h2 (.inl (by omega)))
      have z : ∀ j ∈ Ico k m, (if j + 1 < k then Hess.M k (vals f) i j else
          if j + 1 = k then (if i < k then val (f i j) else if i = k then val (Flt.mul σ g) else 0) else val (f1 i j)) =
          val (f1 i j) := fun j hj => by
        have := (mem_Ico.1 hj).1
        rw [if_neg (by omega), if_neg (by omega)]
      have zs := sum_congr (rfl : Ico k m = Ico k m) fun r hr => congrArg (fun y => val (u r) * y) (z r hr)
      rw [nrm_congr z]
      refine le_trans (le_of_eq (nrm_congr fun j hj => ?_)) hO
      have hj' := (mem_Ico.1 hj).1
      rw [← reflV_eq (m := m) _ _ j hj', z j hj, zs]
      unfold Hess.M vals
      rw [if_neg (by omega)]

theorem Hess.rinv_init {N : Nat} {e : ℝ} {A f : Nat → Nat → α} {o : Nat → α} (h : ∀ i j, i < m → j < m → f i j = A i j)
    (hF : Hess.RFin m 1 f) : Hess.RInv m N e A 1 f o (fun _ _ => 0) fun _ => 0 := by
  refine ⟨fun i j h1 h2 => h i j h1 h2 ▸ hF i j h1 h2 (.inl (by omega)), fun j h1 h2 => by omega, ?_⟩
  have e1 : mx m m (Hess.M 1 (vals f)) = mx m m (vals A) := by
    refine mx_congr fun i j h1 h2 => ?_
    unfold Hess.M vals
    rw [if_neg (by omega), h i j h1 h2]
  rw [Nat.sub_self, hprod, e1, Matrix.transpose_one, Matrix.one_mul, Matrix.mul_one, sub_self]
  have : fro (0 : Matrix (Fin m) (Fin m) ℝ) = 0 := by simp [fro]
  rw [this]
  simp

end Linear
