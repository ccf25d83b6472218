import Verif.Lemmas.RoundQRQ

/-!
# Absence of overflow in the QR decomposition
-/

set_option linter.unusedSectionVars false

namespace Linear

open Spec Rnd Matrix
open Finset hiding val diag

variable {α : Type} [Flt α] [Rnd α] {m n : Nat}

theorem lsub_ok {a b : Nat} {x y : Nat → α} (hab : a ≤ b)
    (hf : ∀ i, a ≤ i → i < b → fin (x i) ∧ fin (y i))
    (hB : (1 + gam α (b - a + 1)) * ∑ i ∈ Ico a b, |val (x i)| * |val (y i)| +
      (b - a : ℕ) * (1 + u α) ^ (b - a) * η α ≤ big α) :
    fin (lsub a b (fun i => Flt.mul (x i) (y i)) Flt.zero) := by
  have hu := u_nonneg (α := α)
  have hη := η_nonneg (α := α)
  induction b, hab using Nat.le_induction with
  | base => rw [lsub_self le_rfl]; exact zero_fin
  | succ b hab ih =>
    obtain ⟨fx, fy⟩ := hf b hab (by omega)
    have hT : 0 ≤ ∑ i ∈ Ico a b, |val (x i)| * |val (y i)| := sum_nonneg fun _ _ => by positivity
    have hS : |∑ i ∈ Ico a b, val (x i) * val (y i)| ≤ ∑ i ∈ Ico a b, |val (x i)| * |val (y i)| :=
      (abs_sum_le_sum_abs _ _).trans (le_of_eq (sum_congr rfl fun _ _ => abs_mul _ _))
    rw [sum_Ico_succ_top hab, show b + 1 - a = (b - a) + 1 by omega] at hB
    have hg := gam_nonneg (α := α) (b - a)
    have hg1 := gam_nonneg (α := α) (b - a + 1)
    have e1 : gam α (b - a + 1) = gam α (b - a) + u α + gam α (b - a) * u α := by rw [gam_add, gam_one]
    have e2 : gam α (b - a + 1 + 1) = gam α (b - a + 1) + u α + gam α (b - a + 1) * u α := by
      rw [gam_add, gam_one]
    have hW : 0 ≤ |val (x b)| * |val (y b)| := by positivity
    have hpw : (1 : ℝ) ≤ (1 + u α) ^ (b - a) := one_le_pow₀ (by linarith)
    have hpw' : (1 + u α) ^ (b - a) ≤ (1 + u α) ^ (b - a + 1) := pow_le_pow_right₀ (by linarith) (by omega)
    have hN : (0 : ℝ) ≤ (b - a : ℕ) := Nat.cast_nonneg _
    have hm1 : ((b - a : ℕ) : ℝ) * (1 + u α) ^ (b - a) * η α + η α ≤
        ((b - a + 1 : ℕ) : ℝ) * (1 + u α) ^ (b - a + 1) * η α := by
      push_cast
      have h1 : ((b - a : ℕ) : ℝ) * (1 + u α) ^ (b - a) * η α ≤ ((b - a : ℕ) : ℝ) * (1 + u α) ^ (b - a + 1) * η α := by
        gcongr
      have h2 : 1 * η α ≤ (1 + u α) ^ (b - a + 1) * η α := by gcongr; linarith
      linarith
    have k1 : (1 + gam α (b - a + 1)) * (∑ i ∈ Ico a b, |val (x i)| * |val (y i)|) + (1 + u α) * (|val (x b)| * |val (y b)|) ≤
        (1 + gam α (b - a + 1 + 1)) * (∑ i ∈ Ico a b, |val (x i)| * |val (y i)| + |val (x b)| * |val (y b)|) := by
      have : u α ≤ gam α (b - a + 1 + 1) := by rw [e2]; nlinarith [mul_nonneg hg1 hu]
      have : gam α (b - a + 1) ≤ gam α (b - a + 1 + 1) := gam_mono (by omega)
      nlinarith
    have k2 : (1 + gam α (b - a + 1)) * (∑ i ∈ Ico a b, |val (x i)| * |val (y i)|) +
        (b - a : ℕ) * (1 + u α) ^ (b - a) * η α + ((1 + u α) * (|val (x b)| * |val (y b)|) + η α) ≤ big α := by
      linarith
    have k3 : 0 ≤ (1 + gam α (b - a + 1)) * (∑ i ∈ Ico a b, |val (x i)| * |val (y i)|) := by positivity
    have k4 : 0 ≤ ((b - a : ℕ) : ℝ) * (1 + u α) ^ (b - a) * η α := by positivity
    have i1 := ih (fun i h1 h2 => hf i h1 (by omega)) (by nlinarith)
    obtain ⟨-, i2⟩ := lsub_fwd hab i1
    rw [lsub_succ hab]
    have f2 : fin (Flt.mul (x b) (y b)) := mul_ok fx fy (by rw [abs_mul]; nlinarith)
    have h4 := (mul_err f2).1
    rw [abs_mul] at h4
    refine sub_ok i1 f2 ?_
    generalize val (lsub a b (fun i => Flt.mul (x i) (y i)) Flt.zero) = c at *
    generalize val (Flt.mul (x b) (y b)) = q at *
    have hp : |val (x b) * val (y b)| = |val (x b)| * |val (y b)| := abs_mul _ _
    have b1 := abs_sub c q
    have b2 := abs_sub (c + ∑ i ∈ Ico a b, val (x i) * val (y i)) (∑ i ∈ Ico a b, val (x i) * val (y i))
    rw [add_sub_cancel_right] at b2
    have b3 := abs_add_le (q - val (x b) * val (y b)) (val (x b) * val (y b))
    rw [sub_add_cancel] at b3
    linarith

/-- The sum of the squares does not overflow. -/
theorem hnorm_ok {k : Nat} {x : Nat → α} (hk : k < m) (hf : ∀ i, k ≤ i → i < m → fin (x i))
    (hB : (1 + gam α (m - k)) * ∑ i ∈ Ico k m, val (x i) ^ 2 + (m - k : ℕ) * (1 + u α) ^ (m - k) * η α ≤ big α) :
    fin (hnorm k m x) := by
  have hu := u_nonneg (α := α)
  have hη := η_nonneg (α := α)
  have key : ∀ b, k ≤ b → b ≤ m → fin (lsum k b (fun r => Flt.mul (x r) (x r)) Flt.zero) := by
    intro b hkb
    induction b, hkb using Nat.le_induction with
    | base => intro _; rw [lsum_self le_rfl]; exact zero_fin
    | succ b hkb ih =>
      intro hbm
      have i1 := ih (by omega)
      have fx := hf b hkb (by omega)
      have hs : SumOf (lsum k b (fun r => Flt.mul (x r) (x r)) Flt.zero)
          (over (Ico k b) fun r => Flt.mul (x r) (x r)) := by
        rw [over_Ico]; exact SumOf.left _ _ _
      obtain ⟨-, i2⟩ := hs.prods i1
      rw [Nat.card_Ico] at i2
      have hT : 0 ≤ ∑ i ∈ Ico k b, val (x i) ^ 2 := sum_nonneg fun _ _ => sq_nonneg _
      have e1 : ∑ r ∈ Ico k b, val (x r) * val (x r) = ∑ i ∈ Ico k b, val (x i) ^ 2 :=
        sum_congr rfl fun _ _ => (sq _).symm
      have e2 : ∑ r ∈ Ico k b, |val (x r)| * |val (x r)| = ∑ i ∈ Ico k b, val (x i) ^ 2 :=
        sum_congr rfl fun _ _ => by rw [abs_mul_abs_self, sq]
      rw [e1, e2] at i2
      have hle : ∑ i ∈ Ico k b, val (x i) ^ 2 + val (x b) ^ 2 ≤ ∑ i ∈ Ico k m, val (x i) ^ 2 := by
        rw [← sum_Ico_succ_top hkb (fun i => val (x i) ^ 2)]
        exact sum_le_sum_of_subset_of_nonneg (Ico_subset_Ico le_rfl hbm) fun _ _ _ => sq_nonneg _
      have hN : (b - k : ℕ) + 1 ≤ m - k := by omega
      have hg : gam α (b - k) ≤ gam α (m - k) := gam_mono (by omega)
      have hg0 := gam_nonneg (α := α) (b - k)
      have hg1 : u α ≤ gam α (m - k) := by
        rw [← gam_one (α := α)]; exact gam_mono (by omega)
      have hm1 : ((b - k : ℕ) : ℝ) * (1 + u α) ^ (b - k) * η α + η α ≤ (m - k : ℕ) * (1 + u α) ^ (m - k) * η α := by
        have h1 : (((b - k : ℕ) : ℝ) + 1) * (1 + u α) ^ (b - k) * η α ≤ (m - k : ℕ) * (1 + u α) ^ (m - k) * η α := by
          gcongr
          · exact_mod_cast hN
          · exact one_le_u (α := α)
          · omega
        have h2 : 1 * η α ≤ (1 + u α) ^ (b - k) * η α := by
          gcongr
          exact one_le_pow₀ (by linarith)
        linarith
      have hx0 := sq_nonneg (val (x b))
      have hg2 : 0 ≤ 1 + gam α (m - k) := by linarith
      have k1 : (1 + gam α (b - k)) * ∑ i ∈ Ico k b, val (x i) ^ 2 + (1 + u α) * val (x b) ^ 2 ≤
          (1 + gam α (m - k)) * ∑ i ∈ Ico k m, val (x i) ^ 2 := by
        calc _ ≤ (1 + gam α (m - k)) * ∑ i ∈ Ico k b, val (x i) ^ 2 + (1 + gam α (m - k)) * val (x b) ^ 2 := by
              gcongr
          _ = (1 + gam α (m - k)) * (∑ i ∈ Ico k b, val (x i) ^ 2 + val (x b) ^ 2) := by ring
          _ ≤ _ := by gcongr
      have k4 : 0 ≤ ((b - k : ℕ) : ℝ) * (1 + u α) ^ (b - k) * η α := by positivity
      have k5 : 0 ≤ (1 + gam α (b - k)) * ∑ i ∈ Ico k b, val (x i) ^ 2 := by positivity
      have e3 : |val (x b) * val (x b)| = val (x b) ^ 2 := by rw [abs_mul, abs_mul_abs_self, sq]
      have f2 : fin (Flt.mul (x b) (x b)) := mul_ok fx fx (by rw [e3]; nlinarith)
      have h4 := (mul_err f2).1
      rw [e3] at h4
      rw [lsum_succ hkb]
      refine add_ok i1 f2 ?_
      generalize val (lsum k b (fun r => Flt.mul (x r) (x r)) Flt.zero) = c at *
      generalize val (Flt.mul (x b) (x b)) = q at *
      have b1 := abs_add_le c q
      have b2 := abs_add_le (c - ∑ i ∈ Ico k b, val (x i) ^ 2) (∑ i ∈ Ico k b, val (x i) ^ 2)
      rw [sub_add_cancel, abs_of_nonneg hT] at b2
      have b3 := abs_add_le (q - val (x b) * val (x b)) (val (x b) * val (x b))
      rw [sub_add_cancel, e3] at b3
      linarith
  have h1 := key m hk.le le_rfl
  have hpos : ∀ b, k ≤ b → b ≤ m → 0 ≤ val (lsum k b (fun r => Flt.mul (x r) (x r)) Flt.zero) := by
    intro b hkb
    induction b, hkb using Nat.le_induction with
    | base => intro _; rw [lsum_self le_rfl, val_zero]
    | succ b hkb ih =>
      intro hbm
      have i1 := ih (by omega)
      have i2 := key (b + 1) (by omega) hbm
      rw [lsum_succ hkb] at i2 ⊢
      have f2 := (add_fin i2).2
      have i3 := mul_nn f2 (mul_self_nonneg _)
      have h4 := (abs_le.1 (add_err i2).1).1
      rw [abs_of_nonneg (by linarith)] at h4
      have := u_le (α := α)
      nlinarith
  have h2 := hpos m hk.le le_rfl
  have h3 := sqrt_ok h1 h2
  unfold hnorm
  split
  · refine mul_ok h3 (neg_fin.2 one_fin) ?_
    rw [val_neg one_fin, val_one, _root_.mul_neg_one, abs_neg]
    have hs : SumOf (lsum k m (fun r => Flt.mul (x r) (x r)) Flt.zero)
        (over (Ico k m) fun r => Flt.mul (x r) (x r)) := by
      rw [over_Ico]; exact SumOf.left _ _ _
    obtain ⟨-, i2⟩ := hs.prods h1
    rw [Nat.card_Ico] at i2
    have e1 : ∑ r ∈ Ico k m, val (x r) * val (x r) = ∑ i ∈ Ico k m, val (x i) ^ 2 :=
      sum_congr rfl fun _ _ => (sq _).symm
    have e2 : ∑ r ∈ Ico k m, |val (x r)| * |val (x r)| = ∑ i ∈ Ico k m, val (x i) ^ 2 :=
      sum_congr rfl fun _ _ => by rw [abs_mul_abs_self, sq]
    rw [e1, e2] at i2
    have i3 := (abs_le.1 i2).2
    have hc : val (lsum k m (fun r => Flt.mul (x r) (x r)) Flt.zero) ≤ big α := by linarith
    have i4 := (sqrt_err h3).1
    have i5 := abs_add_le (val (Flt.sqrt (lsum k m (fun r => Flt.mul (x r) (x r)) Flt.zero)) -
      √(val (lsum k m (fun r => Flt.mul (x r) (x r)) Flt.zero)))
      (√(val (lsum k m (fun r => Flt.mul (x r) (x r)) Flt.zero)))
    rw [sub_add_cancel, abs_of_nonneg (Real.sqrt_nonneg _)] at i5
    have hb := big_le (α := α)
    have i6 : √(val (lsum k m (fun r => Flt.mul (x r) (x r)) Flt.zero)) ≤ big α / 2 := by
      rw [Real.sqrt_le_left (by linarith)]
      nlinarith
    have i7 := Real.sqrt_nonneg (val (lsum k m (fun r => Flt.mul (x r) (x r)) Flt.zero))
    have := u_le (α := α)
    nlinarith
  · exact h3

end Linear
