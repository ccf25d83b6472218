import Verif.Lemmas.RoundHH
import Verif.Lemmas.QROut

/-!
# The Householder QR decomposition in rounded arithmetic
-/

set_option linter.unusedSectionVars false

namespace Linear

open Spec Rnd
open Finset hiding val diag

variable {α : Type} [Flt α] [Rnd α]

/-! ## Sums over an interval -/

omit [Rnd α] in
theorem over_Ico (a b : Nat) (g : Nat → α) : over (Ico a b) g = terms a b g := by
  rw [← sum_terms]
  have := Multiset.sum_map_singleton ((Ico a b).1.map g)
  rw [Multiset.map_map] at this
  exact this.symm

/-- The forward error of a running difference. -/
theorem lsub_fwd {a b : Nat} {x y : Nat → α} (hab : a ≤ b)
    (h : fin (lsub a b (fun i => Flt.mul (x i) (y i)) Flt.zero)) :
    (∀ i, a ≤ i → i < b → fin (x i) ∧ fin (y i)) ∧
      |val (lsub a b (fun i => Flt.mul (x i) (y i)) Flt.zero) + ∑ i ∈ Ico a b, val (x i) * val (y i)| ≤
        gam α (b - a + 1) * ∑ i ∈ Ico a b, |val (x i)| * |val (y i)| +
          (b - a : ℕ) * (1 + u α) ^ (b - a) * η α := by
  have hu := u_nonneg (α := α)
  have hη := η_nonneg (α := α)
  induction b, hab using Nat.le_induction with
  | base =>
    rw [lsub_self le_rfl, Ico_self, sum_empty, sum_empty, val_zero]
    exact ⟨fun i _ _ => by omega, by simp⟩
  | succ b hab ih =>
    rw [lsub_succ hab] at h ⊢
    obtain ⟨f1, f2⟩ := sub_fin h
    obtain ⟨i1, i2⟩ := ih f1
    refine ⟨fun i h1 h2 => ?_, ?_⟩
    · by_cases hi : i = b
      · subst hi; exact mul_fin f2
      · exact i1 i h1 (by omega)
    · rw [sum_Ico_succ_top hab, sum_Ico_succ_top hab, show b + 1 - a = (b - a) + 1 by omega]
      have h3 := (sub_err h).1
      have h4 := (mul_err f2).1
      generalize val (Flt.sub (lsub a b (fun i => Flt.mul (x i) (y i)) Flt.zero) (Flt.mul (x b) (y b))) = z at *
      generalize val (lsub a b (fun i => Flt.mul (x i) (y i)) Flt.zero) = c at *
      generalize val (Flt.mul (x b) (y b)) = q at *
      generalize b - a = N at *
      have hT : 0 ≤ ∑ i ∈ Ico a b, |val (x i)| * |val (y i)| := sum_nonneg fun _ _ => by positivity
      have hS : |∑ i ∈ Ico a b, val (x i) * val (y i)| ≤ ∑ i ∈ Ico a b, |val (x i)| * |val (y i)| :=
        (abs_sum_le_sum_abs _ _).trans (le_of_eq (sum_congr rfl fun _ _ => abs_mul _ _))
      rw [abs_mul] at h4
      have hp : |val (x b) * val (y b)| = |val (x b)| * |val (y b)| := abs_mul _ _
      generalize val (x b) * val (y b) = w at *
      have hW : 0 ≤ |val (x b)| * |val (y b)| := by positivity
      generalize |val (x b)| * |val (y b)| = W at *
      generalize ∑ i ∈ Ico a b, val (x i) * val (y i) = S at *
      generalize ∑ i ∈ Ico a b, |val (x i)| * |val (y i)| = T at *
      have hg := gam_nonneg (α := α) N
      have e1 : gam α (N + 1) = gam α N + u α + gam α N * u α := by rw [gam_add, gam_one]
      have e2 : gam α (N + 1 + 1) = gam α (N + 1) + u α + gam α (N + 1) * u α := by rw [gam_add, gam_one]
      have hg1 := gam_nonneg (α := α) (N + 1)
      have a1 : |c - q| ≤ (|c + S| + T) + (W + (u α * W + η α)) := by
        have : c - q = (c + S) - S - (q - w) - w := by ring
        rw [this]
        have b1 := abs_sub (c + S - S - (q - w)) w
        have b2 := abs_sub (c + S - S) (q - w)
        have b3 := abs_sub (c + S) S
        linarith
      have a2 : |z + (S + w)| ≤ u α * |c - q| + |c + S| + (u α * W + η α) := by
        have : z + (S + w) = (z - (c - q)) + (c + S) - (q - w) := by ring
        rw [this]
        have b1 := abs_sub (z - (c - q) + (c + S)) (q - w)
        have b2 := abs_add_le (z - (c - q)) (c + S)
        linarith
      have a3 : u α * |c - q| ≤ u α * ((|c + S| + T) + (W + (u α * W + η α))) := by gcongr
      have a4 : (1 + u α) * |c + S| ≤ (1 + u α) * (gam α (N + 1) * T + N * (1 + u α) ^ N * η α) := by
        gcongr
      have a5 : (1 : ℝ) ≤ (1 + u α) ^ N := one_le_pow₀ (by linarith)
      have a6 : (1 + u α) * η α ≤ (1 + u α) * ((1 + u α) ^ N * η α) := by nlinarith [mul_nonneg hu hη]
      have a7 : (2 * u α + u α * u α) * W ≤ gam α (N + 1 + 1) * W := by
        refine mul_le_mul_of_nonneg_right ?_ hW
        rw [e2, e1]
        nlinarith [mul_nonneg hg hu, mul_nonneg (mul_nonneg hg hu) hu]
      rw [mul_add (gam α (N + 1 + 1)) T W]
      have a8 : (1 + u α) * (gam α (N + 1) * T) + u α * T = gam α (N + 1 + 1) * T := by rw [e2]; ring
      rw [pow_succ]
      push_cast
      nlinarith

/-- The error of one entry of a reflected vector. -/
theorem sub_mul_err {x y z : α} {e : ℝ} (h : fin (Flt.sub x (Flt.mul y z))) (he : u α ≤ e) (he1 : e ≤ 1 / 100) :
    |val (Flt.sub x (Flt.mul y z)) - (val x - val y * val z)| ≤
      3 * e * (|val x| + |val y| * |val z|) + 2 * η α := by
  have hu := u_nonneg (α := α)
  have hη := η_nonneg (α := α)
  obtain ⟨f1, f2⟩ := sub_fin h
  have h1 := (sub_err h).1
  have h2 := (mul_err f2).1
  generalize val (Flt.sub x (Flt.mul y z)) = s at *
  generalize val (Flt.mul y z) = q at *
  have hp : |val y * val z| = |val y| * |val z| := abs_mul _ _
  rw [hp] at h2
  generalize val y * val z = w at *
  have hW : 0 ≤ |val y| * |val z| := by positivity
  generalize |val y| * |val z| = W at *
  have a1 : |val x - q| ≤ |val x| + W + (u α * W + η α) := by
    have b1 := abs_sub (val x - w) (q - w)
    have b2 := abs_sub (val x) w
    rw [show val x - q = (val x - w) - (q - w) by ring]
    linarith
  have a2 : |s - (val x - w)| ≤ u α * |val x - q| + (u α * W + η α) := by
    have b1 := abs_sub (s - (val x - q)) (q - w)
    rw [show s - (val x - w) = (s - (val x - q)) - (q - w) by ring]
    linarith
  have a3 : u α * |val x - q| ≤ e * (|val x| + W + (e * W + η α)) := by
    have he0 := hu.trans he
    gcongr
    exact a1.trans (by gcongr)
  have a4 : u α * W ≤ e * W := by gcongr
  have he0 := hu.trans he
  have hX := abs_nonneg (val x)
  nlinarith [mul_nonneg he0 hX, mul_nonneg he0 hW, mul_nonneg he0 hη, mul_nonneg (mul_nonneg he0 hW) (sub_nonneg.2 he1)]

/-! ## The reflector -/

/-- The signed norm of a column. -/
theorem hnorm_round {k m : Nat} {x : Nat → α} (hk : k < m) (h : fin (hnorm k m x)) :
    (∀ i, k ≤ i → i < m → fin (x i)) ∧ val (x k) * val (hnorm k m x) ≤ 0 ∧
    |val (hnorm k m x) ^ 2 - ∑ i ∈ Ico k m, val (x i) ^ 2| ≤
      gam α (m - k + 2) * ∑ i ∈ Ico k m, val (x i) ^ 2 + (m - k : ℕ) * (1 + u α) ^ (m - k + 2) * η α ∧
    η α * val (hnorm k m x) ^ 2 ≤ 1 := by
  have hs : SumOf (lsum k m (fun r => Flt.mul (x r) (x r)) Flt.zero)
      (over (Ico k m) fun r => Flt.mul (x r) (x r)) := by
    rw [over_Ico]; exact SumOf.left _ _ _
  unfold hnorm at h ⊢
  generalize lsum k m (fun r => Flt.mul (x r) (x r)) Flt.zero = w at *
  have key : fin (Flt.sqrt w) := by
    split at h
    · exact (mul_fin h).1
    · exact h
  obtain ⟨h1, h2, h3⟩ := sqrt_sq hs key
  rw [Nat.card_Ico] at h3
  have hb := sqrt_bound key
  have hf : ∀ i, k ≤ i → i < m → fin (x i) := fun i h4 h5 => h1 i (mem_Ico.2 ⟨h4, h5⟩)
  have hfk := hf k le_rfl hk
  refine ⟨hf, ?_⟩
  split_ifs with hc
  · rw [if_pos hc] at h
    rw [lt_iff zero_fin hfk, val_zero] at hc
    rw [mul_neg_one h, neg_sq]
    exact ⟨by nlinarith, h3, hb⟩
  · rw [lt_iff zero_fin hfk, val_zero, not_lt] at hc
    exact ⟨mul_nonpos_of_nonpos_of_nonneg hc h2, h3, hb⟩

/-- A signed norm of the entries `[k, m)` of a vector, as rounded arithmetic finds it. -/
structure NormOf (k m : Nat) (x : Nat → α) (a : α) : Prop where
  fin : fin a
  entries : ∀ i, k ≤ i → i < m → Rnd.fin (x i)
  sign : val (x k) * val a ≤ 0
  close : |val a ^ 2 - ∑ i ∈ Ico k m, val (x i) ^ 2| ≤
    gam α (m - k + 2) * ∑ i ∈ Ico k m, val (x i) ^ 2 + (m - k : ℕ) * (1 + u α) ^ (m - k + 2) * η α
  bound : η α * val a ^ 2 ≤ 1

theorem hnorm_normOf {k m : Nat} {x : Nat → α} (hk : k < m) (h : fin (hnorm k m x)) :
    NormOf k m x (hnorm k m x) :=
  have ⟨h1, h2, h3, h4⟩ := hnorm_round hk h
  ⟨h, h1, h2, h3, h4⟩

/-- The bound of the relative errors of one reflection. -/
theorem gam_small {M N : Nat} {e : ℝ} (he : u α ≤ e) (hM : (M + 4) * e ≤ 1 / 100) (hN : N ≤ M + 2) :
    gam α N ≤ 1.02 * ((M + 2) * e) ∧ (1 + u α) ^ N ≤ 1.02 := by
  have hu := u_nonneg (α := α)
  have hN' : (N : ℝ) ≤ M + 2 := by exact_mod_cast hN
  have h1 : N * u α ≤ (M + 2) * e := by gcongr
  have h2 : ((M : ℝ) + 2) * e ≤ 1 / 100 := by nlinarith
  have h3 : gam α N ≤ 1.02 * ((M + 2) * e) := by
    refine (gam_le (by linarith)).trans ?_
    rw [div_le_iff₀ (by linarith)]
    have : 0 ≤ N * u α := by positivity
    nlinarith
  refine ⟨h3, ?_⟩
  rw [← one_add_gam]
  norm_num at h3 ⊢
  linarith

/-- The reflector the code computes is nearly the exact one. -/
theorem hhr_gen {k m M : Nat} {x v : Nat → α} {a : α} {e : ℝ} (hk : k < m) (hmM : m ≤ M) (he : u α ≤ e)
    (hM : (M + 4) * e ≤ 1 / 100) (ha : NormOf k m x a) (hne : val a ≠ 0)
    (hη : 4 * M * η α ≤ e * val a ^ 2) (hv : v k = Flt.sub (x k) a)
    (hv' : ∀ i, i ≠ k → v i = x i) (hb : 4 * val a ^ 2 ≤ big α) :
    HHR (Ico k m) k (2 * (M + 4) * e) (fun i => val (x i)) (fun i => val (v i)) (val a) ∧
    fin (v k) ∧ fin (Flt.mul a (v k)) ∧
    |val (Flt.mul a (v k)) - val a * val (v k)| ≤
      2 * (M + 4) * e * |val a * val (v k)| := by
  obtain ⟨ha, hf, hs, hn, -⟩ := ha
  obtain ⟨g1, g2⟩ := gam_small (α := α) (N := m - k + 2) he hM (by omega)
  have hg0 := gam_nonneg (α := α) (m - k + 2)
  have hu := u_nonneg (α := α)
  have hη0 := η_nonneg (α := α)
  have he0 : 0 ≤ e := hu.trans he
  have hM0 : (0 : ℝ) ≤ M := Nat.cast_nonneg M
  have hM1 : (1 : ℝ) ≤ M := by exact_mod_cast (show 1 ≤ M by omega)
  have hNM : ((m - k : ℕ) : ℝ) ≤ M := by exact_mod_cast (show m - k ≤ M by omega)
  have hκ : 2 * (M + 4) * e ≤ 1 / 50 := by linarith
  have hκ0 : 0 ≤ 2 * (M + 4) * e := by positivity
  have hκu : u α ≤ 2 * (M + 4) * e := by nlinarith
  have hT : 0 ≤ ∑ i ∈ Ico k m, val (x i) ^ 2 := sum_nonneg fun _ _ => sq_nonneg _
  have hn' : |val a ^ 2 - ∑ i ∈ Ico k m, val (x i) ^ 2| ≤ 2 * (M + 4) * e * val a ^ 2 := by
    have h1 : ((m - k : ℕ) : ℝ) * (1 + u α) ^ (m - k + 2) * η α ≤ M * 1.02 * η α := by gcongr
    have hA : 0 ≤ val a ^ 2 := sq_nonneg _
    refine hn.trans ?_
    have h2 := (abs_le.1 hn).1
    generalize ∑ i ∈ Ico k m, val (x i) ^ 2 = T at *
    generalize ((m - k : ℕ) : ℝ) * (1 + u α) ^ (m - k + 2) * η α = h at *
    generalize gam α (m - k + 2) = g at *
    generalize val a ^ 2 = B at *
    have h3 : h ≤ 0.26 * (e * B) := by norm_num at h1 ⊢; nlinarith
    have hgs : g ≤ 0.0102 := by norm_num at g1 ⊢; nlinarith
    have he1 : e ≤ 1 / 100 := by nlinarith
    have h4 : T ≤ 1.02 * B := by
      have : g * T ≤ 0.0102 * T := by gcongr
      have : e * B ≤ 1 / 100 * B := by gcongr
      norm_num at *
      linarith
    have h5 : g * T ≤ 1.02 * ((M + 2) * e) * (1.02 * B) := by gcongr
    have h6 : 0 ≤ e * B := mul_nonneg he0 hA
    have h7 : 0 ≤ M * (e * B) := mul_nonneg hM0 h6
    norm_num at h5 h3 ⊢
    linarith
  have hfv : fin (v k) := by
    rw [hv]
    refine sub_ok (hf k le_rfl hk) ha ?_
    have h1 : val (x k) ^ 2 ≤ ∑ i ∈ Ico k m, val (x i) ^ 2 :=
      single_le_sum (f := fun i => val (x i) ^ 2) (fun _ _ => sq_nonneg _) (mem_Ico.2 ⟨le_rfl, hk⟩)
    have h2 := (abs_le.1 hn').1
    have h3 := four_le_big (α := α)
    have hA : 0 ≤ val a ^ 2 := sq_nonneg _
    have h4 : 2 * (M + 4) * e * val a ^ 2 ≤ 1 / 50 * val a ^ 2 := by gcongr
    have h5 : |val (x k) - val a| ^ 2 ≤ big α ^ 2 := by
      rw [sq_abs]
      nlinarith [sq_nonneg (val (x k) + val a)]
    exact le_of_sq_le_sq h5 (by linarith)
  have H : HHR (Ico k m) k (2 * (M + 4) * e) (fun i => val (x i)) (fun i => val (v i)) (val a) := by
    refine ⟨mem_Ico.2 ⟨le_rfl, hk⟩, hne, hn', hs, ?_, fun i _ h => by rw [hv' i h], hκ0, hκ⟩
    rw [hv] at hfv ⊢
    exact (sub_err hfv).1.trans (by gcongr)
  refine ⟨H, hfv, ?_⟩
  have hl := H.P_ge
  have hh := H.P_le
  have hd := H.den (D := val a * val (v k)) (by rw [sub_self, abs_zero]; positivity)
  have hP := H.P_pos
  generalize HHR.P k (fun i => val (x i)) (val a) = P at *
  have hA : 0 ≤ val a ^ 2 := sq_nonneg _
  obtain ⟨d1, d2⟩ := abs_le.1 hd
  have d3 : 2 * (M + 4) * e * P ≤ 1 / 50 * P := by gcongr
  have d4 : val a * val (v k) < 0 := by norm_num at *; linarith
  have d5 : |val a * val (v k)| = -(val a * val (v k)) := abs_of_neg d4
  have d6 : 2 * (M + 4) * e * val a ^ 2 ≤ 1 / 50 * val a ^ 2 := by gcongr
  have d7 : fin (Flt.mul a (v k)) := by
    refine mul_ok ha hfv ?_
    rw [d5]
    norm_num at *
    linarith
  refine ⟨d7, (mul_err d7).1.trans ?_⟩
  have d8 : 0.9 * val a ^ 2 ≤ |val a * val (v k)| := by rw [d5]; norm_num at *; linarith
  generalize |val a * val (v k)| = Z at *
  generalize val a ^ 2 = B at *
  have hZ : 0 ≤ Z := by norm_num at d8; linarith
  have e1 : u α * Z ≤ e * Z := by gcongr
  have e2 : η α ≤ M * η α := by nlinarith
  have e3 : e * (0.9 * B) ≤ e * Z := by gcongr
  have e4 : 0 ≤ e * Z := mul_nonneg he0 hZ
  have e5 : 0 ≤ M * (e * Z) := mul_nonneg hM0 e4
  norm_num at e3
  linarith

/-- The reflector the code computes is nearly the exact one. -/
theorem hhr_round {k m M : Nat} {x v : Nat → α} {e : ℝ} (hk : k < m) (hmM : m ≤ M) (he : u α ≤ e)
    (hM : (M + 4) * e ≤ 1 / 100) (ha : fin (hnorm k m x)) (hne : val (hnorm k m x) ≠ 0)
    (hη : 4 * M * η α ≤ e * val (hnorm k m x) ^ 2) (hv : v k = Flt.sub (x k) (hnorm k m x))
    (hv' : ∀ i, i ≠ k → v i = x i) (hb : 4 * val (hnorm k m x) ^ 2 ≤ big α) :
    HHR (Ico k m) k (2 * (M + 4) * e) (fun i => val (x i)) (fun i => val (v i)) (val (hnorm k m x)) ∧
    fin (v k) ∧ fin (Flt.mul (hnorm k m x) (v k)) ∧
    |val (Flt.mul (hnorm k m x) (v k)) - val (hnorm k m x) * val (v k)| ≤
      2 * (M + 4) * e * |val (hnorm k m x) * val (v k)| :=
  hhr_gen hk hmM he hM (hnorm_normOf hk ha) hne hη hv hv' hb

theorem HHR.head_ne {S : Finset ℕ} {k : ℕ} {κ A : ℝ} {x V : ℕ → ℝ} (H : HHR S k κ x V A) : V k ≠ 0 := by
  intro h0
  have hd := H.den (D := 0) (by rw [h0, mul_zero, sub_zero, abs_zero, mul_zero])
  have hP := H.P_pos
  have h5 := H.small
  rw [_root_.zero_add, abs_of_pos hP] at hd
  nlinarith

set_option maxHeartbeats 1000000 in
/-- A vector the code reflects is nearly the reflected vector. -/
theorem apply_gen {k m M : Nat} {x v : Nat → α} {a : α} {t t' : Nat → ℝ} {e c al : ℝ} (hk : k < m) (hmM : m ≤ M)
    (he : u α ≤ e) (hM : (M + 4) * e ≤ 1 / 100) (ha : NormOf k m x a) (hne : val a ≠ 0)
    (hη : 4 * M * η α ≤ e * val a ^ 2) (hv : v k = Flt.sub (x k) a)
    (hv' : ∀ i, i ≠ k → v i = x i) (hb : 4 * val a ^ 2 ≤ big α)
    (hc : |c + ∑ i ∈ Ico k m, t i * val (v i)| ≤
      gam α (m - k + 1) * ∑ i ∈ Ico k m, |t i| * |val (v i)| + (m - k : ℕ) * (1 + u α) ^ (m - k) * η α)
    (hal : |al - c / val (Flt.mul a (v k))| ≤
      10 * e * |c / val (Flt.mul a (v k))| + η α)
    (ht : ∀ i, k ≤ i → i < m → |t' i - (t i - al * val (v i))| ≤
      3 * e * (|t i| + |al| * |val (v i)|) + 2 * η α) :
    nrm (Ico k m) (fun i => t' i - reflV (Ico k m) (fun i => val (v i)) t i) ≤
      36 * (M + 4) * e * nrm (Ico k m) t + 6 * √(M * η α) := by
  obtain ⟨H, hfv, hfD, hD⟩ := hhr_gen hk hmM he hM ha hne hη hv hv' hb
  have hηA := ha.bound
  have hu := u_nonneg (α := α)
  have hη0 := η_nonneg (α := α)
  have he0 : 0 ≤ e := hu.trans he
  have hM1 : (1 : ℝ) ≤ M := by exact_mod_cast (show 1 ≤ M by omega)
  have he1 : e ≤ 1 / 100 := by nlinarith
  have hκ0 : 0 ≤ 2 * (M + 4) * e := by positivity
  have hκu : 10 * e ≤ 2 * (M + 4) * e := by nlinarith
  have hκ3 : 3 * e ≤ 2 * (M + 4) * e := by nlinarith
  have hNM : ((m - k : ℕ) : ℝ) ≤ M := by exact_mod_cast (show m - k ≤ M by omega)
  have h2 := hc
  obtain ⟨g1, -⟩ := gam_small (α := α) (N := m - k + 1) he hM (by omega)
  obtain ⟨-, g2⟩ := gam_small (α := α) (N := m - k) he hM (by omega)
  replace hc : |c + ∑ i ∈ Ico k m, t i * val (v i)| ≤
      2 * (M + 4) * e * (nrm (Ico k m) t * nrm (Ico k m) (fun i => val (v i))) +
        1.02 * (M * η α) := by
    refine h2.trans (add_le_add ?_ ?_)
    · have h3 : gam α (m - k + 1) ≤ 2 * (M + 4) * e := by
        refine g1.trans ?_
        have : 0 ≤ M * e := by positivity
        norm_num
        linarith
      exact mul_le_mul h3 dot_le_nrm (sum_nonneg fun _ _ => by positivity) hκ0
    · calc ((m - k : ℕ) : ℝ) * (1 + u α) ^ (m - k) * η α ≤ M * 1.02 * η α := by gcongr
        _ = _ := by ring
  have hA := H.apply hD hc
    (al := al) (e := η α)
    (t' := t') (ν := 2 * η α)
    (hal.trans (by gcongr))
    (fun i hi => by
      obtain ⟨h3, h4⟩ := mem_Ico.1 hi
      exact (ht i h3 h4).trans (by gcongr)) (by positivity) hη0 (by positivity)
  refine hA.trans ?_
  have hω : √(M * η α) ^ 2 = M * η α := Real.sq_sqrt (by positivity)
  have hω0 : 0 ≤ √(M * η α) := Real.sqrt_nonneg _
  have hcard : √((Ico k m).card : ℝ) ≤ √M := Real.sqrt_le_sqrt (by rw [Nat.card_Ico]; exact hNM)
  have hsM : √(M : ℝ) ^ 2 = M := Real.sq_sqrt (by positivity)
  have hsM0 : 0 ≤ √(M : ℝ) := Real.sqrt_nonneg _
  have hA2 : |val a| ^ 2 = val a ^ 2 := sq_abs _
  have hAp := H.absA
  generalize √((M : ℝ) * η α) = ω at *
  generalize √(M : ℝ) = q at *
  have hη1 : η α ≤ 1 := by
    by_contra hc
    rw [not_le] at hc
    have i1 : 4 * M * η α * η α ≤ e * val a ^ 2 * η α := by gcongr
    have i2 : e * (η α * val a ^ 2) ≤ e * 1 := by gcongr
    nlinarith
  have w1 : 2 * ω ≤ |val a| := by
    refine le_of_sq_le_sq ?_ hAp.le
    rw [mul_pow, hω, hA2]
    nlinarith [sq_nonneg (val a)]
  have w2 : M * η α / |val a| ≤ ω / 2 := by
    rw [div_le_iff₀ hAp, ← hω]
    nlinarith
  have w3 : η α * |val a| ≤ ω := by
    refine le_of_sq_le_sq ?_ hω0
    rw [mul_pow, hA2, hω]
    nlinarith
  have w4 : q * η α ≤ ω := by
    refine le_of_sq_le_sq ?_ hω0
    rw [mul_pow, hsM, hω]
    nlinarith [mul_nonneg hη0 (sub_nonneg.2 hη1)]
  have w5 : √((Ico k m).card : ℝ) * (2 * η α) ≤ 2 * (q * η α) := by
    calc _ ≤ q * (2 * η α) := by gcongr
      _ = _ := by ring
  have w6 : 1.02 * (M * η α) / |val a| = 1.02 * (M * η α / |val a|) := by ring
  rw [w6]
  have w7 : 18 * (2 * (M + 4) * e) = 36 * (M + 4) * e := by ring
  rw [w7]
  clear hA ht hc h2 hD H
  norm_num at w1 w2 w3 w4 w5 ⊢
  linarith

/-- A vector the code reflects is nearly the reflected vector. -/
theorem apply_real {k m M : Nat} {x v : Nat → α} {t t' : Nat → ℝ} {e c al : ℝ} (hk : k < m) (hmM : m ≤ M)
    (he : u α ≤ e) (hM : (M + 4) * e ≤ 1 / 100) (ha : fin (hnorm k m x)) (hne : val (hnorm k m x) ≠ 0)
    (hη : 4 * M * η α ≤ e * val (hnorm k m x) ^ 2) (hv : v k = Flt.sub (x k) (hnorm k m x))
    (hv' : ∀ i, i ≠ k → v i = x i) (hb : 4 * val (hnorm k m x) ^ 2 ≤ big α)
    (hc : |c + ∑ i ∈ Ico k m, t i * val (v i)| ≤
      gam α (m - k + 1) * ∑ i ∈ Ico k m, |t i| * |val (v i)| + (m - k : ℕ) * (1 + u α) ^ (m - k) * η α)
    (hal : |al - c / val (Flt.mul (hnorm k m x) (v k))| ≤
      10 * e * |c / val (Flt.mul (hnorm k m x) (v k))| + η α)
    (ht : ∀ i, k ≤ i → i < m → |t' i - (t i - al * val (v i))| ≤
      3 * e * (|t i| + |al| * |val (v i)|) + 2 * η α) :
    nrm (Ico k m) (fun i => t' i - reflV (Ico k m) (fun i => val (v i)) t i) ≤
      36 * (M + 4) * e * nrm (Ico k m) t + 6 * √(M * η α) :=
  apply_gen hk hmM he hM (hnorm_normOf hk ha) hne hη hv hv' hb hc hal ht

/-- A column the code reflects is nearly the reflected column. -/
theorem apply_cols {k m M : Nat} {x v t t' : Nat → α} {a : α} {e : ℝ} (hk : k < m) (hmM : m ≤ M)
    (he : u α ≤ e) (hM : (M + 4) * e ≤ 1 / 100) (ha : NormOf k m x a) (hne : val a ≠ 0)
    (hη : 4 * M * η α ≤ e * val a ^ 2) (hv : v k = Flt.sub (x k) a)
    (hv' : ∀ i, i ≠ k → v i = x i) (hb : 4 * val a ^ 2 ≤ big α)
    (hal : fin (halpha k m a v t))
    (ht : ∀ i, k ≤ i → i < m → |val (t' i) - (val (t i) - val (halpha k m a v t) * val (v i))| ≤
      3 * e * (|val (t i)| + |val (halpha k m a v t)| * |val (v i)|) + 2 * η α) :
    nrm (Ico k m) (fun i => val (t' i) - reflV (Ico k m) (fun i => val (v i)) (fun i => val (t i)) i) ≤
      36 * (M + 4) * e * nrm (Ico k m) (fun i => val (t i)) + 6 * √(M * η α) := by
  obtain ⟨-, -, hfD, -⟩ := hhr_gen hk hmM he hM ha hne hη hv hv' hb
  exact apply_gen hk hmM he hM ha hne hη hv hv' hb (lsub_fwd hk.le (div_fin hal)).2
    ((div_err hal hfD).1.trans (by gcongr; linarith [u_nonneg (α := α)])) ht

/-- A column the code reflects is nearly the reflected column. -/
theorem apply_round {k m M : Nat} {x v t t' : Nat → α} {e : ℝ} (hk : k < m) (hmM : m ≤ M)
    (he : u α ≤ e) (hM : (M + 4) * e ≤ 1 / 100) (ha : fin (hnorm k m x)) (hne : val (hnorm k m x) ≠ 0)
    (hη : 4 * M * η α ≤ e * val (hnorm k m x) ^ 2) (hv : v k = Flt.sub (x k) (hnorm k m x))
    (hv' : ∀ i, i ≠ k → v i = x i) (hb : 4 * val (hnorm k m x) ^ 2 ≤ big α)
    (hal : fin (halpha k m (hnorm k m x) v t))
    (ht : ∀ i, k ≤ i → i < m → |val (t' i) - (val (t i) - val (halpha k m (hnorm k m x) v t) * val (v i))| ≤
      3 * e * (|val (t i)| + |val (halpha k m (hnorm k m x) v t)| * |val (v i)|) + 2 * η α) :
    nrm (Ico k m) (fun i => val (t' i) - reflV (Ico k m) (fun i => val (v i)) (fun i => val (t i)) i) ≤
      36 * (M + 4) * e * nrm (Ico k m) (fun i => val (t i)) + 6 * √(M * η α) :=
  apply_cols hk hmM he hM (hnorm_normOf hk ha) hne hη hv hv' hb hal ht

/-! ## Norms of columns -/

section

open Matrix

variable {m n : Nat}

/-- The Euclidean norm of a column. -/
noncomputable def Spec.cnorm (M : Matrix (Fin m) (Fin n) ℝ) (j : Fin n) : ℝ := √(∑ i, M i j ^ 2)

theorem cnorm_mx (X : Nat → Nat → ℝ) (j : Fin n) : cnorm (mx m n X) j = nrm (range m) fun i => X i j := by
  unfold cnorm nrm
  rw [Finset.sum_range]
  rfl

theorem cnorm_eq (M : Matrix (Fin m) (Fin n) ℝ) (j : Fin n) :
    cnorm M j = nrm (range m) fun i => if h : i < m then M ⟨i, h⟩ j else 0 := by
  unfold cnorm nrm
  rw [Finset.sum_range]
  congr 1
  refine sum_congr rfl fun i _ => ?_
  dsimp only
  rw [dif_pos i.2]

theorem cnorm_nonneg (M : Matrix (Fin m) (Fin n) ℝ) (j : Fin n) : 0 ≤ cnorm M j := Real.sqrt_nonneg _

theorem cnorm_add_le (M N : Matrix (Fin m) (Fin n) ℝ) (j : Fin n) :
    cnorm (M + N) j ≤ cnorm M j + cnorm N j := by
  rw [cnorm_eq M, cnorm_eq N, cnorm_eq]
  refine le_trans (le_of_eq (nrm_congr fun i hi => ?_)) nrm_add_le
  rw [dif_pos (mem_range.1 hi), dif_pos (mem_range.1 hi), dif_pos (mem_range.1 hi), Matrix.add_apply]

/-- Orthogonal matrices keep the norms of columns. -/
theorem cnorm_orth {Q : Matrix (Fin m) (Fin m) ℝ} (h : Qᵀ * Q = 1) (M : Matrix (Fin m) (Fin n) ℝ)
    (j : Fin n) : cnorm (Q * M) j = cnorm M j := by
  unfold cnorm
  congr 1
  have e : ∀ N : Matrix (Fin m) (Fin n) ℝ, ∑ i, N i j ^ 2 = (Nᵀ * N) j j := fun N => by
    rw [Matrix.mul_apply]
    exact sum_congr rfl fun i _ => by rw [Matrix.transpose_apply, sq]
  rw [e, e, Matrix.transpose_mul, Matrix.mul_assoc, ← Matrix.mul_assoc Qᵀ, h, Matrix.one_mul]

end

/-! ## The steps of the decomposition -/

section

open Matrix

variable {m n : Nat}

/-- The factor of the exact reflection along a column. -/
noncomputable def QR.hb (m : Nat) (f : Nat → Nat → ℝ) (d : Nat → ℝ) (k : Nat) : ℝ :=
  if d k = 0 then 0 else -2 / ∑ r ∈ Ico k m, f k r ^ 2

/-- The exact reflection along a column. -/
noncomputable def QR.hx (m : Nat) (f : Nat → Nat → ℝ) (d : Nat → ℝ) (k : Nat) : Matrix (Fin m) (Fin m) ℝ :=
  hh m k (f k) (QR.hb m f d k)

/-- A diagonal entry that is 0, or not so small and not so large that its square is lost. -/
structure Spec.Scaled (m : Nat) (e : ℝ) (x : α) : Prop where
  fin : fin x
  low : val x = 0 ∨ 4 * m * η α ≤ e * val x ^ 2
  high : 4 * val x ^ 2 ≤ big α

/-- What is known of the decomposition after `k` steps. -/
structure QR.RInv (m n : Nat) (e : ℝ) (A : Nat → Nat → α) (k : Nat) (f : Nat → Nat → α) (d : Nat → α) :
    Prop where
  fin : ∀ i j, i < m → j < n → fin (A i j)
  vec : ∀ j r, j < k → j ≤ r → r < m → Rnd.fin (f j r)
  refl : ∀ i, i < k → QR.hb m (fun c r => val (f c r)) (fun c => val (d c)) i = 0 ∨
    QR.hb m (fun c r => val (f c r)) (fun c => val (d c)) i *
      ∑ r ∈ Ico i m, val (f i r) * val (f i r) = -2
  src : ∀ i, i < k → val (d i) ≠ 0 → ∃ x : Nat → α, d i = hnorm i m x ∧ f i i = Flt.sub (x i) (d i) ∧
    ∀ r, r ≠ i → f i r = x r
  err : ∀ j : Fin n, cnorm (mx m n (QR.R (fun c r => val (f c r)) (fun c => val (d c)) k) -
      (hprod m (QR.hx m (fun c r => val (f c r)) (fun c => val (d c))) k)ᵀ *
        mx m n fun i j => val (A i j)) j ≤
    ((1 + 36 * (m + 4) * e) ^ k - 1) * cnorm (mx m n fun i j => val (A i j)) j +
      k * (1 + 36 * (m + 4) * e) ^ k * (6 * √(m * η α))

/-- The finiteness of the results, at step `k`. -/
structure QR.RFin (m n : Nat) (e : ℝ) (k : Nat) (f : Nat → Nat → α) (d : Nat → α) : Prop where
  diag : ∀ i, i < k → Scaled m e (d i)
  done : ∀ i j, i < k → i < j → j < n → fin (f j i)
  rest : ∀ j r, k ≤ j → j < n → k ≤ r → r < m → fin (f j r)

theorem QR.RFin.back {e : ℝ} {k : Nat} {f f' : Nat → Nat → α} {d : Nat → α} (hk : k < m)
    (hs : QR.Step k f f' m n (hnorm k m (f k))) (h : QR.RFin m n e (k + 1) f' (upd1 d k (hnorm k m (f k)))) :
    QR.RFin m n e k f d ∧ Scaled m e (hnorm k m (f k)) ∧ (∀ c, k < c → c < n → fin (f' c k)) ∧
      ∀ c r, k < c → c < n → k < r → r < m → fin (f' c r) := by
  have hd : Scaled m e (hnorm k m (f k)) := by
    have := h.diag k (by omega)
    rwa [upd1, if_pos rfl] at this
  have h1 : ∀ c, k < c → c < n → fin (f' c k) := fun c h1 h2 => h.done k c (by omega) h1 h2
  have h2 : ∀ c r, k < c → c < n → k < r → r < m → fin (f' c r) := fun c r h1 h2 h3 h4 =>
    h.rest c r h1 h2 h3 h4
  refine ⟨⟨fun i hi => ?_, fun i j hi hij hj => ?_, fun j r h3 h4 h5 h6 => ?_⟩, hd, h1, h2⟩
  · have := h.diag i (by omega)
    rwa [upd1, if_neg (by omega)] at this
  · rw [← hs.other j i (Or.inr hi)]
    exact h.done i j (by omega) hij hj
  · by_cases ej : j = k
    · subst ej
      exact (hnorm_round hk hd.fin).1 r h5 h6
    · have hf : fin (f' j r) := by
        by_cases er : r = k
        · subst er; exact h1 j (by omega) h4
        · exact h2 j r (by omega) h4 (by omega) h6
      cases hz : Flt.eq (hnorm k m (f k)) Flt.zero
      · rw [hs.cols hz j r (by omega) h4 h5 h6] at hf
        exact (sub_fin hf).1
      · rwa [hs.same hz] at hf

omit [Rnd α] in
/-- The reflection of a vector, through the matrix of the reflection. -/
theorem reflV_eq {k : Nat} (v t : Nat → ℝ) (i : Nat) (hi : k ≤ i) :
    t i + -2 / (∑ r ∈ Ico k m, v r ^ 2) * (∑ r ∈ Ico k m, v r * t r) * tl k v i =
      reflV (Ico k m) v t i := by
  unfold reflV
  rw [tl, if_pos hi, sum_congr rfl fun r _ => mul_comm (v r) (t r)]
  ring

theorem QR.rinv_step {e : ℝ} {A : Nat → Nat → α} {k : Nat} {f f' : Nat → Nat → α} {d : Nat → α}
    (hk : k < m) (hkn : k < n) (he : u α ≤ e) (hM : (m + 4) * e ≤ 1 / 100)
    (hs : QR.Step k f f' m n (hnorm k m (f k)))
    (hI : QR.RFin m n e k f d → QR.RInv m n e A k f d)
    (hF : QR.RFin m n e (k + 1) f' (upd1 d k (hnorm k m (f k)))) :
    QR.RInv m n e A (k + 1) f' (upd1 d k (hnorm k m (f k))) := by
  obtain ⟨hF', hd, hfk, hfr⟩ := hF.back hk hs
  have hI := hI hF'
  obtain ⟨hx, -, hn, -⟩ := hnorm_round hk hd.fin
  have hu := u_nonneg (α := α)
  have hη0 := η_nonneg (α := α)
  have he0 : 0 ≤ e := hu.trans he
  set a := hnorm k m (f k) with ha
  have hoc : ∀ c r, c < k → f' c r = f c r := fun c r h => hs.other c r (Or.inl h)
  have hor : ∀ c r, r < k → f' c r = f c r := fun c r h => hs.other c r (Or.inr h)
  have hdk : upd1 d k a k = a := by rw [upd1, if_pos rfl]
  have hdo : ∀ c, c < k → upd1 d k a c = d c := fun c h => by rw [upd1, if_neg (by omega)]
  have hza : Flt.eq a Flt.zero = true ↔ val a = 0 := by rw [eq_iff hd.fin zero_fin, val_zero]
  -- the new reflector
  have hvf : ∀ r, k ≤ r → r < m → fin (f' k r) := by
    intro r h1 h2
    by_cases er : r = k
    · subst er
      cases hz : Flt.eq a Flt.zero
      · have hne : val a ≠ 0 := fun h => by rw [hza.2 h] at hz; cases hz
        exact (hhr_round hk le_rfl he hM hd.fin hne (hd.low.resolve_left hne) (hs.head hz)
          (fun i hi => hs.row i hi) hd.high).2.1
      · rw [hs.same hz]; exact hx r h1 h2
    · rw [hs.row r er]; exact hx r h1 h2
  have hbo : ∀ i, i < k → QR.hb m (fun c r => val (f' c r)) (fun c => val (upd1 d k a c)) i =
      QR.hb m (fun c r => val (f c r)) (fun c => val (d c)) i := by
    intro i hi
    unfold QR.hb
    simp only [hdo i hi, hoc i _ hi]
  have hHo : hprod m (QR.hx m (fun c r => val (f' c r)) (fun c => val (upd1 d k a c))) k =
      hprod m (QR.hx m (fun c r => val (f c r)) (fun c => val (d c))) k := by
    refine hprod_congr fun i hi => ?_
    unfold QR.hx
    rw [hbo i hi]
    exact hh_congr fun r _ _ => congrArg val (hoc i r hi)
  have hrk : QR.hb m (fun c r => val (f' c r)) (fun c => val (upd1 d k a c)) k = 0 ∨
      QR.hb m (fun c r => val (f' c r)) (fun c => val (upd1 d k a c)) k *
        ∑ r ∈ Ico k m, val (f' k r) * val (f' k r) = -2 := by
    unfold QR.hb
    simp only [hdk]
    by_cases hne : val a = 0
    · left; rw [if_pos hne]
    · right
      have hz : Flt.eq a Flt.zero = false := by
        cases hz : Flt.eq a Flt.zero
        · rfl
        · exact absurd (hza.1 hz) hne
      have hp := (hhr_round hk le_rfl he hM hd.fin hne (hd.low.resolve_left hne) (hs.head hz)
          (fun i hi => hs.row i hi) hd.high).1.nrmV_pos
      rw [if_neg hne]
      have e1 : ∑ r ∈ Ico k m, val (f' k r) * val (f' k r) = ∑ r ∈ Ico k m, val (f' k r) ^ 2 :=
        sum_congr rfl fun r _ => (sq _).symm
      rw [e1]
      exact div_mul_cancel₀ _ hp.ne'
  refine ⟨hI.fin, ?_, ?_, ?_, ?_⟩
  · intro j r h1 h2 h3
    by_cases ej : j = k
    · subst ej; exact hvf r h2 h3
    · rw [hoc j r (by omega)]; exact hI.vec j r (by omega) h2 h3
  · intro i hi
    by_cases ei : i = k
    · subst ei; exact hrk
    · rw [hbo i (by omega)]
      have := hI.refl i (by omega)
      rwa [sum_congr rfl fun r _ => by rw [hoc i r (by omega)]]
  · intro i hi hne
    by_cases ei : i = k
    · subst ei
      rw [hdk] at hne ⊢
      have hz : Flt.eq a Flt.zero = false := by
        cases hz : Flt.eq a Flt.zero
        · rfl
        · exact absurd (hza.1 hz) hne
      exact ⟨f i, rfl, hs.head hz, hs.row⟩
    · rw [hdo i (by omega)] at hne ⊢
      obtain ⟨x, h1, h2, h3⟩ := hI.src i (by omega) hne
      exact ⟨x, h1, by rw [hoc i i (by omega), h2], fun r hr => by rw [hoc i r (by omega), h3 r hr]⟩
  · intro j
    have hkey : cnorm (mx m n (QR.R (fun c r => val (f' c r)) (fun c => val (upd1 d k a c)) (k + 1)) -
        QR.hx m (fun c r => val (f' c r)) (fun c => val (upd1 d k a c)) k *
          mx m n (QR.R (fun c r => val (f c r)) (fun c => val (d c)) k)) j ≤
        36 * (m + 4) * e * cnorm (mx m n (QR.R (fun c r => val (f c r)) (fun c => val (d c)) k)) j +
          6 * √(m * η α) := by
      unfold QR.hx
      rw [hh_mul]
      have e0 : mx m n (QR.R (fun c r => val (f' c r)) (fun c => val (upd1 d k a c)) (k + 1)) -
          (mx m n fun i j => QR.R (fun c r => val (f c r)) (fun c => val (d c)) k i j +
            QR.hb m (fun c r => val (f' c r)) (fun c => val (upd1 d k a c)) k *
              (∑ r ∈ Ico k m, val (f' k r) * QR.R (fun c r => val (f c r)) (fun c => val (d c)) k r j) *
                tl k (fun r => val (f' k r)) i) =
          mx m n fun i j => QR.R (fun c r => val (f' c r)) (fun c => val (upd1 d k a c)) (k + 1) i j -
          (QR.R (fun c r => val (f c r)) (fun c => val (d c)) k i j +
            QR.hb m (fun c r => val (f' c r)) (fun c => val (upd1 d k a c)) k *
              (∑ r ∈ Ico k m, val (f' k r) * QR.R (fun c r => val (f c r)) (fun c => val (d c)) k r j) *
                tl k (fun r => val (f' k r)) i) := rfl
      rw [e0, cnorm_mx, cnorm_mx]
      clear e0
      -- rows before k do not change
      have hlow : ∀ i, i < k → QR.R (fun c r => val (f' c r)) (fun c => val (upd1 d k a c)) (k + 1) i j -
          (QR.R (fun c r => val (f c r)) (fun c => val (d c)) k i j +
            QR.hb m (fun c r => val (f' c r)) (fun c => val (upd1 d k a c)) k *
              (∑ r ∈ Ico k m, val (f' k r) * QR.R (fun c r => val (f c r)) (fun c => val (d c)) k r j) *
                tl k (fun r => val (f' k r)) i) = 0 := by
        intro i hi
        rw [tl, if_neg (by omega), mul_zero, _root_.add_zero, sub_eq_zero]
        unfold QR.R
        dsimp only
        by_cases h1 : (j : ℕ) < k
        · rw [if_pos (show (j : ℕ) < k + 1 by omega), if_pos h1, hoc j i h1, hdo j h1]
        · rw [if_neg h1]
          by_cases h2 : (j : ℕ) < k + 1
          · rw [if_pos h2, if_pos (by omega), hor j i hi]
          · rw [if_neg h2, hor j i hi]
      have hsub : Ico k m ⊆ range m := fun i hi => mem_range.2 (mem_Ico.1 hi).2
      have hnr : ∀ g : ℕ → ℝ, (∀ i, i < k → g i = 0) → nrm (range m) g = nrm (Ico k m) g := by
        intro g hg
        unfold nrm
        rw [sum_subset hsub fun i _ h2 => ?_]
        have : i < k := by
          by_contra h3
          exact h2 (mem_Ico.2 ⟨by omega, by rename_i h1; exact mem_range.1 h1⟩)
        rw [hg i this, zero_pow (by norm_num)]
      rw [hnr _ hlow]
      refine le_trans ?_ (add_le_add (mul_le_mul_of_nonneg_left (nrm_mono_set hsub)
        (show 0 ≤ 36 * ((m : ℝ) + 4) * e by positivity)) le_rfl)
      have hω : 0 ≤ √(m * η α) := Real.sqrt_nonneg _
      rcases lt_trichotomy (j : ℕ) k with hj | hj | hj
      · -- a column already done
        have hz : ∀ r, k ≤ r → QR.R (fun c r => val (f c r)) (fun c => val (d c)) k r j = 0 := by
          intro r hr
          unfold QR.R
          rw [if_pos hj, if_neg (by omega), if_neg (by omega)]
        have hz' : ∀ i ∈ Ico k m, QR.R (fun c r => val (f' c r)) (fun c => val (upd1 d k a c)) (k + 1) i j -
          (QR.R (fun c r => val (f c r)) (fun c => val (d c)) k i j +
            QR.hb m (fun c r => val (f' c r)) (fun c => val (upd1 d k a c)) k *
              (∑ r ∈ Ico k m, val (f' k r) * QR.R (fun c r => val (f c r)) (fun c => val (d c)) k r j) *
                tl k (fun r => val (f' k r)) i) = 0 := by
          intro i hi
          rw [sum_eq_zero fun r hr => by rw [hz r (mem_Ico.1 hr).1, mul_zero], hz i (mem_Ico.1 hi).1]
          unfold QR.R
          rw [if_pos (by omega), if_neg (by have := (mem_Ico.1 hi).1; omega),
            if_neg (by have := (mem_Ico.1 hi).1; omega)]
          ring
        rw [nrm_congr hz', nrm_zero]
        exact add_nonneg (mul_nonneg (by positivity) nrm_nonneg) (by positivity)
      · -- the column of the reflector
        have hR : ∀ r, QR.R (fun c r => val (f c r)) (fun c => val (d c)) k r j = val (f k r) := by
          intro r
          unfold QR.R
          rw [if_neg (by omega), hj]
        have hR' : ∀ i, k ≤ i → QR.R (fun c r => val (f' c r)) (fun c => val (upd1 d k a c)) (k + 1) i j =
            if i = k then val a else 0 := by
          intro i hi
          unfold QR.R
          rw [if_pos (by omega), if_neg (by omega), hj]
          by_cases h1 : i = k
          · rw [if_pos h1, if_pos h1]
            exact congrArg val hdk
          · rw [if_neg h1, if_neg h1]
        simp only [hR]
        by_cases hne : val a = 0
        · have hb0 : QR.hb m (fun c r => val (f' c r)) (fun c => val (upd1 d k a c)) k = 0 := by
            unfold QR.hb
            simp only [hdk]
            rw [if_pos hne]
          rw [hb0]
          obtain ⟨g1, g2⟩ := gam_small (α := α) (M := m) (N := m - k + 2) he hM (by omega)
          have hg0 := gam_nonneg (α := α) (m - k + 2)
          have hm1 : (1 : ℝ) ≤ m := by exact_mod_cast (show 1 ≤ m by omega)
          have hNM : ((m - k : ℕ) : ℝ) ≤ m := by exact_mod_cast (show m - k ≤ m by omega)
          have hT : 0 ≤ ∑ i ∈ Ico k m, val (f k i) ^ 2 := sum_nonneg fun _ _ => sq_nonneg _
          have hb : ∑ i ∈ Ico k m, val (f k i) ^ 2 ≤ 36 * (m * η α) := by
            have h1 : ((m - k : ℕ) : ℝ) * (1 + u α) ^ (m - k + 2) * η α ≤ m * 1.02 * η α := by gcongr
            have h2 := (abs_le.1 hn).1
            rw [hne] at h2
            have h3 : gam α (m - k + 2) * ∑ i ∈ Ico k m, val (f k i) ^ 2 ≤
                0.5 * ∑ i ∈ Ico k m, val (f k i) ^ 2 := by
              refine mul_le_mul_of_nonneg_right ?_ hT
              norm_num at g1 ⊢
              nlinarith
            have h4 : 0 ≤ m * η α := by positivity
            norm_num at h1 h2 h3 ⊢
            linarith
          have e1 : nrm (Ico k m) (fun i => QR.R (fun c r => val (f' c r)) (fun c => val (upd1 d k a c)) (k + 1) i j -
              (val (f k i) + 0 * (∑ r ∈ Ico k m, val (f' k r) * val (f k r)) * tl k (fun r => val (f' k r)) i)) =
              nrm (Ico k m) fun i => val (f k i) := by
            unfold nrm
            congr 1
            refine sum_congr rfl fun i hi => ?_
            dsimp only
            rw [hR' i (mem_Ico.1 hi).1, zero_mul, zero_mul, _root_.add_zero]
            have : (if i = k then val a else 0) = 0 := by rw [hne]; split <;> rfl
            rw [this, zero_sub, neg_sq]
          rw [e1]
          have h5 : nrm (Ico k m) (fun i => val (f k i)) ≤ 6 * √(m * η α) := by
            refine nrm_le (by positivity) (hb.trans (le_of_eq ?_))
            rw [mul_pow, Real.sq_sqrt (by positivity)]
            norm_num
          have h6 : 0 ≤ 36 * ((m : ℝ) + 4) * e * nrm (Ico k m) (fun i => val (f k i)) :=
            mul_nonneg (by positivity) nrm_nonneg
          linarith
        · have hz : Flt.eq a Flt.zero = false := by
            cases hz : Flt.eq a Flt.zero
            · rfl
            · exact absurd (hza.1 hz) hne
          have hb0 : QR.hb m (fun c r => val (f' c r)) (fun c => val (upd1 d k a c)) k =
              -2 / ∑ r ∈ Ico k m, val (f' k r) ^ 2 := by
            unfold QR.hb
            simp only [hdk]
            rw [if_neg hne]
          have H := (hhr_round hk le_rfl he hM hd.fin hne (hd.low.resolve_left hne) (hs.head hz)
            (fun i hi => hs.row i hi) hd.high).1.self
          rw [hb0]
          have h6 : 0 ≤ 6 * √(m * η α) := by positivity
          refine le_trans (le_of_eq (nrm_congr fun i hi => ?_)) (H.trans (le_trans (le_of_eq ?_)
            (le_add_of_nonneg_right h6)))
          · rw [hR' i (mem_Ico.1 hi).1,
              ← reflV_eq (m := m) (fun i => val (f' k i)) (fun i => val (f k i)) i (mem_Ico.1 hi).1]
          · ring
      · -- a column still to be done
        have hR : ∀ r, QR.R (fun c r => val (f c r)) (fun c => val (d c)) k r j = val (f j r) := by
          intro r
          unfold QR.R
          rw [if_neg (by omega)]
        have hR' : ∀ i, QR.R (fun c r => val (f' c r)) (fun c => val (upd1 d k a c)) (k + 1) i j =
            val (f' j i) := by
          intro i
          unfold QR.R
          rw [if_neg (by omega)]
        simp only [hR, hR']
        by_cases hne : val a = 0
        · have hb0 : QR.hb m (fun c r => val (f' c r)) (fun c => val (upd1 d k a c)) k = 0 := by
            unfold QR.hb
            simp only [hdk]
            rw [if_pos hne]
          have e1 : ∀ i ∈ Ico k m, val (f' j i) -
              (val (f j i) + QR.hb m (fun c r => val (f' c r)) (fun c => val (upd1 d k a c)) k *
                (∑ r ∈ Ico k m, val (f' k r) * val (f j r)) * tl k (fun r => val (f' k r)) i) = 0 := by
            intro i _
            rw [hb0, hs.same (hza.2 hne)]
            ring
          rw [nrm_congr e1, nrm_zero]
          exact add_nonneg (mul_nonneg (by positivity) nrm_nonneg) (by positivity)
        · have hz : Flt.eq a Flt.zero = false := by
            cases hz : Flt.eq a Flt.zero
            · rfl
            · exact absurd (hza.1 hz) hne
          have hb0 : QR.hb m (fun c r => val (f' c r)) (fun c => val (upd1 d k a c)) k =
              -2 / ∑ r ∈ Ico k m, val (f' k r) ^ 2 := by
            unfold QR.hb
            simp only [hdk]
            rw [if_neg hne]
          have hft : ∀ r, k ≤ r → r < m → fin (f' j r) := by
            intro r h1 h2
            by_cases er : r = k
            · subst er; exact hfk j hj j.2
            · exact hfr j r hj j.2 (by omega) h2
          have hal : fin (halpha k m a (f' k) (f j)) := by
            have := hft k le_rfl hk
            rw [hs.cols hz j k hj j.2 le_rfl hk] at this
            exact (mul_fin (sub_fin this).2).1
          have H := apply_round (t := f j) (t' := f' j) hk le_rfl he hM hd.fin hne
            (hd.low.resolve_left hne) (hs.head hz) (fun i hi => hs.row i hi) hd.high hal (by
              intro i h1 h2
              have h3 := hft i h1 h2
              rw [hs.cols hz j i hj j.2 h1 h2] at h3 ⊢
              exact sub_mul_err h3 he (by nlinarith))
          rw [hb0]
          refine le_trans (le_of_eq (nrm_congr fun i hi => ?_)) H
          rw [← reflV_eq (m := m) (fun i => val (f' k i)) (fun i => val (f j i)) i (mem_Ico.1 hi).1]
    -- accumulation
    have hHt : (QR.hx m (fun c r => val (f' c r)) (fun c => val (upd1 d k a c)) k)ᵀ =
        QR.hx m (fun c r => val (f' c r)) (fun c => val (upd1 d k a c)) k := hh_transpose _ _ _ _
    have hHs : (QR.hx m (fun c r => val (f' c r)) (fun c => val (upd1 d k a c)) k)ᵀ *
        QR.hx m (fun c r => val (f' c r)) (fun c => val (upd1 d k a c)) k = 1 := by
      rw [hHt]; exact hh_sq hrk
    rw [hprod, Matrix.transpose_mul, hHt, hHo]
    have hIe := hI.err j
    have hPo : ((hprod m (QR.hx m (fun c r => val (f c r)) (fun c => val (d c))) k)ᵀ)ᵀ *
        (hprod m (QR.hx m (fun c r => val (f c r)) (fun c => val (d c))) k)ᵀ = 1 := by
      rw [Matrix.transpose_transpose]
      exact hprod_orth (fun i _ => hh_transpose _ _ _ _) fun i hi => hh_sq (hI.refl i hi)
    generalize QR.hx m (fun c r => val (f' c r)) (fun c => val (upd1 d k a c)) k = H at *
    generalize mx m n (QR.R (fun c r => val (f' c r)) (fun c => val (upd1 d k a c)) (k + 1)) = R' at *
    generalize mx m n (QR.R (fun c r => val (f c r)) (fun c => val (d c)) k) = R at *
    generalize (hprod m (QR.hx m (fun c r => val (f c r)) (fun c => val (d c))) k)ᵀ = P at *
    generalize (mx m n fun i j => val (A i j)) = B at *
    have h1 : R' - H * P * B = (R' - H * R) + H * (R - P * B) := by
      rw [Matrix.mul_sub, Matrix.mul_assoc]
      abel
    have h2 : R = (R - P * B) + P * B := by abel
    have h3 := cnorm_add_le (R - P * B) (P * B) j
    rw [← h2, cnorm_orth hPo] at h3
    have h4 := cnorm_add_le (R' - H * R) (H * (R - P * B)) j
    rw [← h1, cnorm_orth hHs] at h4
    have hε : 0 ≤ 36 * ((m : ℝ) + 4) * e := by positivity
    have hω : 0 ≤ 6 * √(m * η α) := by positivity
    generalize 36 * ((m : ℝ) + 4) * e = ε at *
    generalize 6 * √(m * η α) = ω at *
    have hB := cnorm_nonneg B j
    generalize cnorm B j = b at *
    generalize cnorm (R - P * B) j = q at *
    have h5 : ε * cnorm R j ≤ ε * (q + b) := by gcongr
    have h6 : (1 + ε) * q ≤ (1 + ε) * (((1 + ε) ^ k - 1) * b + k * (1 + ε) ^ k * ω) := by gcongr
    have h7 : ω ≤ (1 + ε) ^ (k + 1) * ω := le_mul_of_one_le_left hω (one_le_pow₀ (by linarith))
    rw [pow_succ] at h7 ⊢
    push_cast
    nlinarith

theorem QR.rinv_init {e : ℝ} {A f : Nat → Nat → α} {d : Nat → α}
    (hf : ∀ i j, i < n → j < m → f i j = A j i) (hF : QR.RFin m n e 0 f d) : QR.RInv m n e A 0 f d := by
  refine ⟨fun i j hi hj => ?_, fun j _ h => by omega, fun i h => by omega, fun i h => by omega, fun j => ?_⟩
  · rw [← hf j i hj hi]; exact hF.rest j i (Nat.zero_le _) hj (Nat.zero_le _) hi
  · have e1 : mx m n (QR.R (fun c r => val (f c r)) (fun c => val (d c)) 0) -
        (hprod m (QR.hx m (fun c r => val (f c r)) (fun c => val (d c))) 0)ᵀ *
        (mx m n fun i j => val (A i j)) = mx m n fun _ _ => 0 := by
      rw [hprod, Matrix.transpose_one, Matrix.one_mul]
      ext i j
      show QR.R (fun c r => val (f c r)) (fun c => val (d c)) 0 i j - val (A i j) = 0
      unfold QR.R
      rw [if_neg (by omega), ← hf j i j.2 i.2, sub_self]
    rw [e1, cnorm_mx, nrm_zero]
    simp

/-- The decomposition: the invariant holds at the end, whatever the outcome. -/
theorem QR.new_round [ZeroLaws α] {a : Mat α m n} (ha : a.own) (hm : 0 < m) (hn : 0 < n)
    {A : Nat → Nat → α} (hA : Shows a.at m n A) :
    ∃ s : QR α m n (min m n), QR.new a = .ok s ∧ ∀ e : ℝ, u α ≤ e → (m + 4) * e ≤ 1 / 100 →
      QR.RFin m n e (min m n) s.qrt.f s.rDiag.f → QR.RInv m n e A (min m n) s.qrt.f s.rDiag.f :=
  QR.new_wp ha hm hn hA (fun k f d => ∀ e : ℝ, u α ≤ e → (m + 4) * e ≤ 1 / 100 →
    QR.RFin m n e k f d → QR.RInv m n e A k f d) (fun _ _ hf _ _ _ hF => QR.rinv_init hf hF)
    fun _ _ _ _ hkm hkn hI hs e he hM hF => QR.rinv_step hkm hkn he hM hs (hI e he hM) hF

end

end Linear
