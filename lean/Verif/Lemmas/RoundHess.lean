import Verif.Lemmas.RoundBiUV
import Verif.Lemmas.HessLemmas
import Mathlib.Algebra.Order.Chebyshev

/-!
# One scaled reflection of the Hessenberg reduction in rounded arithmetic
-/

set_option linter.unusedSectionVars false

namespace Linear

open Spec Rnd Matrix
open Finset hiding val diag

variable {α : Type} [Flt α] [Rnd α] {m : Nat}

omit [Rnd α] in
theorem Spec.SumOf.down (a b : Nat) (g : Nat → α) : SumOf (dsum b a g Flt.zero) (terms a b g) := by
  by_cases h : a ≤ b
  · obtain ⟨d, rfl⟩ := Nat.exists_eq_add_of_le h
    clear h
    induction d generalizing a with
    | zero => rw [Nat.add_zero, dsum_self le_rfl, terms_self le_rfl]; exact .zero
    | succ d ih =>
      have h1 := ih (a + 1)
      rw [show a + 1 + d = a + (d + 1) by omega] at h1
      have h2 : terms a (a + (d + 1)) g = terms (a + 1) (a + (d + 1)) g + {g a} := by
        rw [terms_append (b := a + 1) (by omega) (by omega), terms_succ le_rfl, terms_self le_rfl, _root_.zero_add,
          add_comm]
      rw [dsum_low (by omega), h2]
      exact .add h1 (.term _)
  · rw [dsum_self (by omega), terms_self (by omega)]; exact .zero

theorem sum_div_real (S : Finset ℕ) (x : ℕ → ℝ) (c : ℝ) : (∑ i ∈ S, x i) / c = ∑ i ∈ S, x i / c := by
  simp only [div_eq_mul_inv, sum_mul]

/-- Sums of squares against the sum of the magnitudes. -/
theorem sq_sum_le {S : Finset ℕ} (x : ℕ → ℝ) : ∑ i ∈ S, x i ^ 2 ≤ (∑ i ∈ S, |x i|) ^ 2 := by
  have h := sum_sq_le_sq_sum_of_nonneg (s := S) (f := fun i => |x i|) fun i _ => abs_nonneg _
  simpa only [sq_abs] using h

theorem sum_sq_ge {S : Finset ℕ} (x : ℕ → ℝ) : (∑ i ∈ S, |x i|) ^ 2 ≤ S.card * ∑ i ∈ S, x i ^ 2 := by
  have h := _root_.sq_sum_le_card_mul_sum_sq (s := S) (f := fun i => |x i|)
  simpa only [sq_abs] using h

theorem sqrt_scaled_back {e w s : ℝ} (hw : 0 ≤ w) (hs : 0 ≤ s) (h : |s - √w| ≤ e * s) (he0 : 0 ≤ e) (he1 : e ≤ 1 / 500) :
    |w - s ^ 2| ≤ 201 / 100 * (e * s ^ 2) := by
  have h2 : w = √w ^ 2 := (Real.sq_sqrt hw).symm
  generalize √w = r at *
  rw [h2]
  have h3 : r ^ 2 - s ^ 2 = (r - s) * (r - s) + 2 * s * (r - s) := by ring
  have h4 : |r - s| ≤ e * s := by rw [abs_sub_comm]; exact h
  rw [h3]
  calc _ ≤ |r - s| * |r - s| + 2 * s * |r - s| := by
        refine (abs_add_le _ _).trans (le_of_eq ?_)
        rw [abs_mul, abs_mul (2 * s), abs_of_nonneg (by positivity : 0 ≤ 2 * s)]
    _ ≤ (e * s) * (e * s) + 2 * s * (e * s) := by gcongr
    _ = (2 + e) * (e * s ^ 2) := by ring
    _ ≤ _ := by
      refine mul_le_mul_of_nonneg_right ?_ (by positivity)
      linarith

theorem den_sub {u e P A w h0 q η : ℝ} (he0 : 0 ≤ e) (he1 : e ≤ 1 / 500) (_hu : 0 ≤ u) (hue : u ≤ e) (hP : P = A + w)
    (hw : 0 ≤ w) (hA : 0 ≤ A) (_hη : 0 ≤ η) (hη4 : 4 * η ≤ e * A) (h1 : |h0 - A| ≤ 201 / 100 * (e * A))
    (h2 : |q + w| ≤ u * w + η) : |h0 - q - P| ≤ 23 / 10 * (e * P) ∧ |h0 - q| ≤ 2 * P := by
  have e1 : h0 - q - P = (h0 - A) - (q + w) := by rw [hP]; ring
  have e2 : u * w ≤ e * w := by gcongr
  have e3 : 0 ≤ e * w := by positivity
  have e4 : 0 ≤ e * A := by positivity
  have e5 : |h0 - q - P| ≤ 23 / 10 * (e * P) := by
    rw [e1]
    refine (abs_sub _ _).trans ?_
    rw [hP]
    linarith
  refine ⟨e5, ?_⟩
  have e6 := abs_add_le (h0 - q - P) P
  have hP0 : 0 ≤ P := by rw [hP]; linarith
  rw [sub_add_cancel, abs_of_nonneg hP0] at e6
  have e7 : e * P ≤ 1 / 500 * P := by gcongr
  linarith

theorem den_all {u e P z h W : ℝ} (he0 : 0 ≤ e) (he1 : e ≤ 1 / 500) (_hu : 0 ≤ u) (hue : u ≤ e) (hP : 0 < P)
    (h1 : |z - P| ≤ 23 / 10 * (e * P)) (h2 : |z| ≤ 2 * P) (h3 : |h - z| ≤ u * |z|) (h4 : |W + P| ≤ e * P) :
    |-h - W| ≤ 10 * e * |W| := by
  have e1 : u * |z| ≤ e * (2 * P) := by gcongr
  have e2 : |h - P| ≤ 43 / 10 * (e * P) := by
    have := abs_add_le (h - z) (z - P)
    rw [sub_add_sub_cancel] at this
    linarith
  have e3 : |-h - W| ≤ 53 / 10 * (e * P) := by
    have h3 := abs_add_le (h - P) (W + P)
    rw [show -h - W = -((h - P) + (W + P)) by ring, abs_neg]
    linarith
  have e4 : 99 / 100 * P ≤ |W| := by
    have := abs_sub_abs_le_abs_sub P (-W)
    rw [abs_of_pos hP, abs_neg, sub_neg_eq_add, add_comm P] at this
    have : e * P ≤ 1 / 500 * P := by gcongr
    linarith
  have e5 : e * (99 / 100 * P) ≤ e * |W| := by gcongr
  have : 0 ≤ e * P := by positivity
  linarith

/-- The size of what is to be annihilated. -/
theorem Hess.scale_round {k N : Nat} {x : Nat → α} {σ : α} {e : ℝ} (hk : k < m) (hN : m ≤ N) (he : Rnd.u α ≤ e)
    (hM : (N + 4) * e ≤ 1 / 100) (hs : σ = lsum k m (fun i => Flt.abs (x i)) Flt.zero) (hf : fin σ) :
    (∀ i, k ≤ i → i < m → fin (x i)) ∧
    |val σ - (∑ i ∈ Ico k m, |val (x i)|)| ≤ (51 / 5000) * ∑ i ∈ Ico k m, |val (x i)| := by
  have hS : SumOf σ (over (Ico k m) fun i => Flt.abs (x i)) := by
    rw [hs, over_Ico]; exact SumOf.left _ _ _
  obtain ⟨h1, h2⟩ := hS.err' hf
  have h3 : ∀ i, k ≤ i → i < m → fin (x i) := fun i h4 h5 => abs_fin.1 (h1 i (mem_Ico.2 ⟨h4, h5⟩))
  refine ⟨h3, ?_⟩
  have h4 := h2 (fun i => |val (x i)|) (fun _ => 0) fun i hi => by
    rw [val_abs (h3 i (mem_Ico.1 hi).1 (mem_Ico.1 hi).2), sub_self, abs_zero]
  simp only [abs_abs, sum_const_zero, mul_zero, _root_.add_zero] at h4
  refine h4.trans (mul_le_mul_of_nonneg_right ?_ (sum_nonneg fun _ _ => abs_nonneg _))
  rw [Nat.card_Ico]
  refine (gam_small (M := N) he hM (by omega)).1.trans ?_
  have : 0 ≤ e := (u_nonneg (α := α)).trans he
  norm_num
  nlinarith

/-- The scaled reflector of one round: `x` is the column, `o` the scaled column, `v` the reflector, `σ` the
scale, `g` the signed norm and `h` the divisor. -/
structure Hess.Scl (k m N : Nat) (e : ℝ) (x o v : Nat → α) (σ g h : α) : Prop where
  hhr : HHR (Ico k m) k (2 * (N + 4) * e) (fun i => val (o i)) (fun i => val (v i)) (val g)
  den : |-val h - val g * val (v k)| ≤ 2 * (N + 4) * e * |val g * val (v k)|
  low : (9 / 10) ≤ N * val g ^ 2
  high : val g ^ 2 ≤ (11 / 10)
  finh : fin h
  finv : fin (v k)
  fino : ∀ i, k ≤ i → i < m → fin (o i)
  finx : ∀ i, k ≤ i → i < m → fin (x i)
  fins : fin σ
  pos : 0 < val σ
  four : 4 * η α ≤ val σ
  sum : |val σ - (∑ i ∈ Ico k m, |val (x i)|)| ≤ (51 / 5000) * ∑ i ∈ Ico k m, |val (x i)|
  near : ∀ i, k ≤ i → i < m → |val σ * val (o i) - val (x i)| ≤ e * |val (x i)| + η α * val σ
  tail : ∀ i, k < i → i < m → v i = o i

set_option maxHeartbeats 800000 in
/-- The scaled column and its signed norm. -/
theorem Hess.scl_norm {k N : Nat} {e : ℝ} {x o : Nat → α} {σ g h0 : α} (hk : k < m) (hN : m ≤ N)
    (he : Rnd.u α ≤ e) (hM : (N + 4) * e ≤ 1 / 100) (hη : 5 * N ^ 2 * η α ≤ e)
    (hs : σ = lsum k m (fun i => Flt.abs (x i)) Flt.zero) (hne : Flt.ulpEq σ Flt.zero = false) (hfs : fin σ)
    (ho : ∀ i, k ≤ i → i < m → o i = Flt.div (x i) σ)
    (hh : h0 = dsum m k (fun i => Flt.mul (o i) (o i)) Flt.zero)
    (hg : g = Hess.sign (o k) h0) (hfg : fin g) :
    (NormOf k m o g ∧ 9 / 10 ≤ N * val g ^ 2 ∧ val g ^ 2 ≤ 11 / 10) ∧
    (fin h0 ∧ 0 ≤ val h0 ∧ ∃ s : ℝ, 0 ≤ s ∧ s ^ 2 = val g ^ 2 ∧ |s - √(val h0)| ≤ e * s) ∧
    (∀ i, k ≤ i → i < m → fin (x i)) ∧ (0 < val σ ∧ 4 * η α ≤ val σ) ∧
    |val σ - (∑ i ∈ Ico k m, |val (x i)|)| ≤ (51 / 5000) * ∑ i ∈ Ico k m, |val (x i)| ∧
    ∀ i, k ≤ i → i < m → |val σ * val (o i) - val (x i)| ≤ e * |val (x i)| + η α * val σ := by
  have hu := u_nonneg (α := α)
  have hη0 := η_nonneg (α := α)
  have he0 : 0 ≤ e := hu.trans he
  have hN1 : (1 : ℝ) ≤ N := by exact_mod_cast (show 1 ≤ N by omega)
  have he1 : e ≤ 1 / 500 := by nlinarith
  obtain ⟨hfx, hsum⟩ := Hess.scale_round hk hN he hM hs hfs
  set S := ∑ i ∈ Ico k m, |val (x i)| with hS
  have hS0 : 0 ≤ S := sum_nonneg fun _ _ => abs_nonneg _
  obtain ⟨s1, s2⟩ := abs_le.1 hsum
  have hσ0 : 0 ≤ val σ := by linarith
  -- the scale is not taken for zero
  have hσ4 : 0 < val σ ∧ 4 * η α ≤ val σ := by
    have e1 : σ = Flt.add (lsum k (m - 1) (fun i => Flt.abs (x i)) Flt.zero) (Flt.abs (x (m - 1))) := by
      rw [hs, show m = m - 1 + 1 by omega, lsum_succ (by omega), Nat.add_sub_cancel]
    by_contra hc
    have h1 : val σ = 0 ∨ val σ < 4 * η α := by
      by_contra h2
      push Not at h2
      exact hc ⟨lt_of_le_of_ne hσ0 (Ne.symm h2.1), h2.2⟩
    have h2 : Flt.ulpEq σ Flt.zero = true := by
      rw [e1] at hfs hσ0 h1 ⊢
      exact zero_ulp hfs hσ0 h1
    rw [hne] at h2
    exact absurd h2 (by decide)
  obtain ⟨hσ, hσ4⟩ := hσ4
  -- the norm
  have hSo : SumOf h0 (over (Ico k m) fun i => Flt.mul (o i) (o i)) := by
    rw [hh, over_Ico]; exact SumOf.down _ _ _
  have hsq : fin (Flt.sqrt h0) := by
    rw [hg] at hfg
    unfold Hess.sign at hfg
    split at hfg
    · exact (mul_fin hfg).1
    · exact hfg
  obtain ⟨q1, q2, q3⟩ := sqrt_sq hSo hsq
  obtain ⟨p1, p2⟩ := hSo.prods (sqrt_fin hsq).1
  have qb := sqrt_bound hsq
  have qe := (sqrt_err hsq).1
  obtain ⟨fh0, hh0⟩ := sqrt_fin hsq
  rw [Nat.card_Ico] at q3
  have hfo : ∀ i, k ≤ i → i < m → fin (o i) := fun i h1 h2 => q1 i (mem_Ico.2 ⟨h1, h2⟩)
  have hfk := hfo k le_rfl hk
  have hgv : val g = val (Flt.sqrt h0) ∧ val (o k) ≤ 0 ∨ val g = -val (Flt.sqrt h0) ∧ 0 < val (o k) := by
    rw [hg] at hfg ⊢
    unfold Hess.sign at hfg ⊢
    split_ifs with hc
    · rw [if_pos hc] at hfg
      rw [lt_iff zero_fin hfk, val_zero] at hc
      exact .inr ⟨mul_neg_one hfg, hc⟩
    · rw [lt_iff zero_fin hfk, val_zero, not_lt] at hc
      exact .inl ⟨rfl, hc⟩
  have hg2 : val g ^ 2 = val (Flt.sqrt h0) ^ 2 := by
    rcases hgv with h | h <;> rw [h.1]
    rw [neg_sq]
  have hog : val (o k) * val g ≤ 0 := by
    rcases hgv with ⟨h1, h2⟩ | ⟨h1, h2⟩ <;> rw [h1]
    · exact mul_nonpos_of_nonpos_of_nonneg h2 q2
    · nlinarith
  have hn : NormOf k m o g := ⟨hfg, hfo, hog, by rw [hg2]; exact q3, by rw [hg2]; exact qb⟩
  -- the scaled column
  have hdiv : ∀ i, k ≤ i → i < m → |val (o i) - val (x i) / val σ| ≤ e * (|val (x i)| / val σ) + η α := by
    intro i h1 h2
    have h3 := hfo i h1 h2
    rw [ho i h1 h2] at h3 ⊢
    refine (div_err h3 hfs).1.trans ?_
    rw [_root_.abs_div, abs_of_pos hσ]
    gcongr
  have hNη : N * η α ≤ e / 5 / N := by
    rw [le_div_iff₀ (by linarith)]
    nlinarith
  have hNη1 : N * η α ≤ (1 / 2500) / N := by
    refine hNη.trans ?_
    refine div_le_div_of_nonneg_right ?_ (by linarith)
    norm_num
    linarith
  have hNη2 : N * η α ≤ (1 / 2500) := by
    refine hNη1.trans ?_
    rw [div_le_iff₀ (by linarith)]
    norm_num
    linarith
  have hmk : ((m - k : ℕ) : ℝ) ≤ N := by exact_mod_cast (show m - k ≤ N by omega)
  have hsS : S / val σ ≤ (6315 / 6250) ∧ (4949 / 5000) ≤ S / val σ := by
    constructor
    · rw [div_le_iff₀ hσ]
      linarith
    · rw [le_div_iff₀ hσ]
      linarith
  set So := ∑ i ∈ Ico k m, |val (o i)| with hSo'
  have hsd : |So - S / val σ| ≤ e * (S / val σ) + N * η α := by
    rw [hSo', hS, sum_div_real, ← sum_sub_distrib]
    calc _ ≤ ∑ i ∈ Ico k m, |(|val (o i)| - |val (x i)| / val σ)| := abs_sum_le_sum_abs _ _
      _ ≤ ∑ i ∈ Ico k m, (e * (|val (x i)| / val σ) + η α) := by
        refine sum_le_sum fun i hi => ?_
        refine le_trans ?_ (hdiv i (mem_Ico.1 hi).1 (mem_Ico.1 hi).2)
        have := abs_abs_sub_abs_le (val (o i)) (val (x i) / val σ)
        rwa [_root_.abs_div, abs_of_pos hσ] at this
      _ = e * ∑ i ∈ Ico k m, |val (x i)| / val σ + (m - k : ℕ) * η α := by
        rw [sum_add_distrib, ← mul_sum, sum_const, Nat.card_Ico, nsmul_eq_mul]
      _ ≤ _ := by gcongr
  obtain ⟨d1, d2⟩ := abs_le.1 hsd
  have hSo1 : So ≤ (507 / 500) ∧ (987 / 1000) ≤ So := by
    obtain ⟨a1, a2⟩ := hsS
    have a3 : e * (S / val σ) ≤ 1 / 500 * (6315 / 6250) := by gcongr
    constructor <;> linarith
  have hT1 := sq_sum_le (S := Ico k m) fun i => val (o i)
  have hT2 := sum_sq_ge (S := Ico k m) fun i => val (o i)
  rw [← hSo'] at hT1 hT2
  rw [Nat.card_Ico] at hT2
  have hT0 : 0 ≤ ∑ i ∈ Ico k m, val (o i) ^ 2 := sum_nonneg fun _ _ => sq_nonneg _
  set T := ∑ i ∈ Ico k m, val (o i) ^ 2 with hT
  have hTl : (97 / 100) ≤ N * T := by
    have : (97 / 100) ≤ So ^ 2 := by
      have := hSo1.2
      nlinarith
    have h1 : ((m - k : ℕ) : ℝ) * T ≤ N * T := by gcongr
    linarith
  have hTh : T ≤ (103 / 100) := by
    have := hSo1.1
    have h1 : 0 ≤ So := by have := hSo1.2; linarith
    have : So ^ 2 ≤ (507 / 500) ^ 2 := by gcongr
    linarith
  obtain ⟨g1, g2⟩ := gam_small (α := α) (M := N) (N := m - k + 2) he hM (by omega)
  have hg0 := gam_nonneg (α := α) (m - k + 2)
  have g2' : (1 + Rnd.u α) ^ (m - k + 2) ≤ 51 / 50 := g2.trans (by norm_num)
  have hgs : gam α (m - k + 2) ≤ (51 / 5000) := by nlinarith
  have hclose := hn.close
  rw [← hT] at hclose
  have hc1 : gam α (m - k + 2) * T + (m - k : ℕ) * (1 + Rnd.u α) ^ (m - k + 2) * η α ≤ (51 / 5000) * T + (51 / 50) * (N * η α) := by
    have h1 : ((m - k : ℕ) : ℝ) * (1 + Rnd.u α) ^ (m - k + 2) * η α ≤ N * (51 / 50) * η α := by gcongr
    have h2 : gam α (m - k + 2) * T ≤ (51 / 5000) * T := by gcongr
    linarith
  obtain ⟨c1, c2⟩ := abs_le.1 (hclose.trans hc1)
  have hlow : (9 / 10) ≤ N * val g ^ 2 := by
    have h1 : N * (N * η α) ≤ (1 / 2500) := by
      rw [le_div_iff₀ (by linarith)] at hNη1
      linarith
    have h2 : N * (T - ((51 / 5000) * T + (51 / 50) * (N * η α))) ≤ N * val g ^ 2 := by
      gcongr
      linarith
    nlinarith
  have hhigh : val g ^ 2 ≤ (11 / 10) := by linarith
  have hs1 : |val (Flt.sqrt h0) - √(val h0)| ≤ e * val (Flt.sqrt h0) := by
    have h1 := (sqrt_err hsq).2
    rw [abs_of_nonneg q2] at h1
    exact h1.trans (by gcongr)
  refine ⟨⟨hn, hlow, hhigh⟩, ⟨fh0, hh0, _, q2, hg2.symm, hs1⟩, hfx, ⟨hσ, hσ4⟩, hsum, fun i h1 h2 => ?_⟩
  have h3 := hdiv i h1 h2
  have h4 : val σ * val (o i) - val (x i) = val σ * (val (o i) - val (x i) / val σ) := by field_simp
  rw [h4, abs_mul, abs_of_pos hσ]
  calc _ ≤ val σ * (e * (|val (x i)| / val σ) + η α) := by gcongr
    _ = _ := by field_simp

/-- What the code computes in one round is such a reflector. -/
theorem Hess.scl {k N : Nat} {e : ℝ} {x o v : Nat → α} {σ g h0 h : α} (hk : k < m) (hN : m ≤ N)
    (he : Rnd.u α ≤ e) (hM : (N + 4) * e ≤ 1 / 100) (hη : 5 * N ^ 2 * η α ≤ e)
    (hs : σ = lsum k m (fun i => Flt.abs (x i)) Flt.zero) (hne : Flt.ulpEq σ Flt.zero = false) (hfs : fin σ)
    (ho : ∀ i, k ≤ i → i < m → o i = Flt.div (x i) σ)
    (hh : h0 = dsum m k (fun i => Flt.mul (o i) (o i)) Flt.zero)
    (hg : g = Hess.sign (o k) h0) (hfg : fin g) (hv : v k = Flt.sub (o k) g) (hv' : ∀ i, i ≠ k → v i = o i)
    (hd : h = Flt.sub h0 (Flt.mul (o k) g)) : Hess.Scl k m N e x o v σ g h := by
  obtain ⟨⟨hn, hlow, hhigh⟩, ⟨fh0, hh0, s, hs0, hsg, hs1⟩, hfx, ⟨hσ, hσ4⟩, hsum, hnear⟩ :=
    Hess.scl_norm hk hN he hM hη hs hne hfs ho hh hg hfg
  clear hs hne ho hh hg
  have hu := u_nonneg (α := α)
  have hη0 := η_nonneg (α := α)
  have he0 : 0 ≤ e := hu.trans he
  have hN1 : (1 : ℝ) ≤ N := by exact_mod_cast (show 1 ≤ N by omega)
  have he1 : e ≤ 1 / 500 := by nlinarith
  have hfo := hn.entries
  have hfk := hfo k le_rfl hk
  have hog := hn.sign
  have hgne : val g ≠ 0 := by
    intro h1
    rw [h1] at hlow
    norm_num at hlow
  have hsc : 4 * N * η α ≤ e * val g ^ 2 := by
    have h1 : e * (9 / 10) ≤ e * (N * val g ^ 2) := by gcongr
    have h2 : 4 * (N * (N * η α)) ≤ N * (e * val g ^ 2) := by nlinarith
    have h3 : N * (4 * N * η α) ≤ N * (e * val g ^ 2) := by linarith
    exact le_of_mul_le_mul_left h3 (by linarith)
  have hb4 : 4 * val g ^ 2 ≤ big α := by
    have := big_le (α := α)
    linarith
  obtain ⟨H, hfv, -, -⟩ := hhr_gen hk hN he hM hn hgne hsc hv hv' hb4
  -- the divisor
  have hP := H.P_pos
  have hPg := H.P_ge
  have hPe : HHR.P k (fun i => val (o i)) (val g) = val g ^ 2 + |val (o k)| * |val g| := by
    unfold HHR.P; have := abs_mul_abs_self (val g); linear_combination this
  have hogv : val (o k) * val g = -(|val (o k)| * |val g|) := by rw [← abs_mul, abs_of_nonpos hog]; ring
  have hok : |val (o k)| * |val g| ≤ HHR.P k (fun i => val (o i)) (val g) := by
    rw [hPe]; linarith [sq_nonneg (val g)]
  have hPb := H.P_le
  have hdd := H.den (D := val g * val (v k)) (by rw [sub_self, abs_zero]; exact mul_nonneg H.nonneg (abs_nonneg _))
  have hgvk : |val g * val (v k) + HHR.P k (fun i => val (o i)) (val g)| ≤ e * HHR.P k (fun i => val (o i)) (val g) := by
    have h1 : val g * val (v k) + HHR.P k (fun i => val (o i)) (val g) = val g * (val (v k) - (val (o k) - val g)) := by
      have := H.mul_sub
      linear_combination this
    rw [h1, abs_mul]
    have h2 : |val (v k) - (val (o k) - val g)| ≤ e * |val (o k) - val g| := by
      rw [hv] at hfv ⊢
      exact (sub_err hfv).1.trans (by gcongr)
    calc _ ≤ |val g| * (e * |val (o k) - val g|) := by gcongr
      _ = _ := by rw [H.sub_abs]; unfold HHR.P; ring
  have hsm := H.small
  generalize HHR.P k (fun i => val (o i)) (val g) = P at *
  have hP2 : P ≤ (23 / 10) := by
    have : (2 + 2 * (N + 4) * e) * val g ^ 2 ≤ (2 + 1 / 50) * (11 / 10) := by gcongr
    linarith
  have hfq : fin (Flt.mul (o k) g) := by
    refine mul_ok hfk hfg ?_
    rw [abs_mul]
    have := big_le (α := α)
    linarith
  have hq := (mul_err hfq).1
  rw [abs_mul, hogv, sub_neg_eq_add] at hq
  have hh0g : |val h0 - val g ^ 2| ≤ 201 / 100 * (e * val g ^ 2) := by
    rw [← hsg]
    exact sqrt_scaled_back hh0 hs0 hs1 he0 he1
  have hηg : 4 * η α ≤ e * val g ^ 2 := by nlinarith
  have hw0 : 0 ≤ |val (o k)| * |val g| := by positivity
  obtain ⟨r1, r2⟩ := den_sub he0 he1 hu he hPe hw0 (sq_nonneg _) hη0 hηg hh0g hq
  have hfd : fin h := by
    rw [hd]
    refine sub_ok fh0 hfq ?_
    have h1 := big_le (α := α)
    linarith
  have hden : |-val h - val g * val (v k)| ≤ 2 * (N + 4) * e * |val g * val (v k)| := by
    refine (den_all he0 he1 hu he hP r1 r2 (h := val h) ?_ hgvk).trans ?_
    · rw [hd] at hfd ⊢
      exact (sub_err hfd).1
    · refine mul_le_mul_of_nonneg_right ?_ (abs_nonneg _)
      nlinarith
  exact ⟨H, hden, hlow, hhigh, hfd, hfv, hfo, hfx, hfs, hσ, hσ4, hsum, hnear, fun i h1 _ => hv' i (by omega)⟩

end Linear
