import Verif.Lemmas.RoundTriRed
import Verif.Lemmas.RoundBiUV

/-!
# The orthogonal factor of the tridiagonal reduction in rounded arithmetic
-/

set_option linter.unusedSectionVars false

namespace Linear

open Spec Rnd Matrix
open Finset hiding val diag

/-- The size of the computed denominator. -/
theorem HHR.den_size {S : Finset ℕ} {k : ℕ} {κ A D : ℝ} {x V : ℕ → ℝ} (h : HHR S k κ x V A)
    (hD : |D - A * V k| ≤ κ * |A * V k|) :
    9 / 10 * A ^ 2 ≤ |D| ∧ |D| ≤ 11 / 5 * A ^ 2 ∧ 22 / 25 * A ^ 2 ≤ |A * V k| := by
  have h0 := h.nonneg
  have h5 := h.small
  have hpp := h.P_pos
  have hP := h.P_ge
  have hd := h.den hD
  have hx := h.head_le
  have hPl : P k x A ≤ 101 / 50 * A ^ 2 := by
    unfold P
    have h1 := abs_mul_abs_self A
    have h2 := abs_nonneg A
    have h3 : |A| * |x k| ≤ |A| * ((1 + 1 / 50) * |A|) := by
      refine mul_le_mul_of_nonneg_left (hx.trans ?_) h2
      gcongr
    nlinarith
  generalize P k x A = p at *
  have h1 : |D + p| ≤ 21 / 500 * p := by
    refine hd.trans ?_
    norm_num at h5 ⊢
    nlinarith
  have h2 := abs_le.1 h1
  have hDn : D < 0 := by linarith
  rw [abs_of_neg hDn]
  refine ⟨by linarith, by linarith, ?_⟩
  have h3 := abs_sub_abs_le_abs_sub D (A * V k)
  rw [abs_of_neg hDn] at h3
  have h4 : κ * |A * V k| ≤ 1 / 50 * |A * V k| := by
    have := abs_nonneg (A * V k)
    norm_num at h5 ⊢
    gcongr
  linarith

/-- The factor of the first row of the block. -/
theorem Tri.row_factor {a v D r e η u : ℝ} (hu : 0 ≤ u) (he : u ≤ e) (he1 : e ≤ 1 / 100) (ha : a ≠ 0) (hv : v ≠ 0)
    (hη : 0 ≤ η) (hη1 : 4 * η ≤ e * a ^ 2) (hav : 22 / 25 * a ^ 2 ≤ |a * v|)
    (hD : |D - a * v| ≤ u * |a * v| + η) (hr : |r - 1 / a| ≤ u * |1 / a| + η) :
    |-r - -v / D| ≤ 10 * e * |-v / D| + η := by
  have he0 := hu.trans he
  have hav0 : 0 < |a * v| := abs_pos.2 (mul_ne_zero ha hv)
  have h1 : |D - a * v| ≤ 2 * e * |a * v| := by nlinarith
  have hD0 : 49 / 50 * |a * v| ≤ |D| := by
    have := abs_sub_abs_le_abs_sub (a * v) D
    rw [abs_sub_comm (a * v) D] at this
    nlinarith
  have hDp : 0 < |D| := by linarith
  have hDn : D ≠ 0 := abs_pos.1 hDp
  have e1 : 1 / a = v / D * (1 + (D - a * v) / (a * v)) := by field_simp; ring
  have h2 : |(D - a * v) / (a * v)| ≤ 2 * e := by
    rw [abs_div, div_le_iff₀ hav0]; exact h1
  generalize (D - a * v) / (a * v) = δ at *
  have e2 : -v / D = -(v / D) := by ring
  rw [e2, abs_neg]
  generalize v / D = z at *
  have h3 : |1 / a - z| ≤ 2 * e * |z| := by
    have : 1 / a - z = z * δ := by rw [e1]; ring
    rw [this, abs_mul, mul_comm]
    gcongr
  have h4 : |1 / a| ≤ 51 / 50 * |z| := by
    have := abs_sub_abs_le_abs_sub (1 / a) z
    have : 2 * e * |z| ≤ 2 * (1 / 100) * |z| := by gcongr
    linarith
  have h5 : |-r - -z| ≤ |r - 1 / a| + |1 / a - z| := by
    have : -r - -z = -((r - 1 / a) + (1 / a - z)) := by ring
    rw [this, abs_neg]
    exact abs_add_le _ _
  have h6 : u * |1 / a| ≤ e * (51 / 50 * |z|) := by gcongr
  have : 0 ≤ e * |z| := mul_nonneg (hu.trans he) (abs_nonneg _)
  linarith

/-- The factor of the other rows. -/
theorem Tri.rest_factor {s i β D e η u : ℝ} (hu : 0 ≤ u) (he : u ≤ e) (he1 : e ≤ 1 / 100) (hD0 : D ≠ 0)
    (hη : 0 ≤ η) (hηD : η * |D| ≤ 3 * e) (hi : |i - 1 / D| ≤ u * |1 / D| + η) (hβ : |β - s * i| ≤ u * |s * i| + η) :
    |-β - -s / D| ≤ 10 * e * |-s / D| + η := by
  have hDp : 0 < |D| := abs_pos.2 hD0
  have he0 := hu.trans he
  have h1 : |i - 1 / D| ≤ 4 * e * |1 / D| := by
    have : η ≤ 3 * e * |1 / D| := by
      rw [abs_div, abs_one, mul_one_div, le_div_iff₀ hDp]
      exact hηD
    have : u * |1 / D| ≤ e * |1 / D| := by gcongr
    linarith
  have h2 : |s * i - s / D| ≤ 4 * e * |s / D| := by
    have e1 : s * i - s / D = s * (i - 1 / D) := by ring
    have e2 : |s / D| = |s| * |1 / D| := by rw [← abs_mul]; congr 1; ring
    rw [e1, abs_mul, e2]
    calc |s| * |i - 1 / D| ≤ |s| * (4 * e * |1 / D|) := by gcongr
      _ = _ := by ring
  have e3 : -s / D = -(s / D) := by ring
  rw [e3, abs_neg]
  generalize s / D = z at *
  generalize s * i = w at *
  have h3 : |w| ≤ 26 / 25 * |z| := by
    have := abs_sub_abs_le_abs_sub w z
    have : 4 * e * |z| ≤ 4 * (1 / 100) * |z| := by gcongr
    linarith
  have h4 : u * |w| ≤ e * (26 / 25 * |z|) := by gcongr
  have h5 : |-β - -z| ≤ |β - w| + |w - z| := by
    have : -β - -z = -((β - w) + (w - z)) := by ring
    rw [this, abs_neg]
    exact abs_add_le _ _
  have : 0 ≤ e * |z| := mul_nonneg he0 (abs_nonneg _)
  linarith

variable {α : Type} [Flt α] [Rnd α] {m : Nat}

/-- One row of the accumulated matrix. -/
theorem Tri.QStep.rows {N k : Nat} {e : ℝ} {d : α} {x v : Nat → α} {q q' : Nat → Nat → α}
    (hs : Tri.QStep m k d v q q') (hr : Refl k m N e x v d) (hk : k < m) (hN : m ≤ N) (he : Rnd.u α ≤ e)
    (hM : (N + 4) * e ≤ 1 / 100) (hq : ∀ i j, i < m → j < m → (i < k + 1 ∨ j < k + 1) → q i j = Flt.zero)
    (hf : ∀ i j, k ≤ i → i < m → k ≤ j → j < m → fin (q' i j)) {j : Nat} (hj : k ≤ j) (hjm : j < m) :
    (∀ i, k ≤ i → i < m → Rnd.fin (upd2 q k k Flt.one j i)) ∧
    Spec.nrm (Ico k m) (fun i => val (q' j i) - (val (upd2 q k k Flt.one j i) +
      rb k m (val d) (fun r => val (v r)) *
      (∑ r ∈ Ico k m, val (v r) * val (upd2 q k k Flt.one j r)) * tl k (fun r => val (v r)) i)) ≤
      36 * (N + 4) * e * Spec.nrm (Ico k m) (fun i => val (upd2 q k k Flt.one j i)) + 6 * √(N * Rnd.η α) := by
  have hu := u_nonneg (α := α)
  have he0 : 0 ≤ e := hu.trans he
  have hη0 := η_nonneg (α := α)
  have hN1 : (1 : ℝ) ≤ N := by exact_mod_cast (show 1 ≤ N by omega)
  have he1 : e ≤ 1 / 100 := by nlinarith
  have hff := hr.fin hk hN he hM k le_rfl hk
  have hzf : Flt.eq (v k) Flt.zero = true ↔ val (v k) = 0 := by rw [eq_iff hff zero_fin, val_zero]
  by_cases hne : val d = 0
  · have hb0 : rb k m (val d) (fun r => val (v r)) = 0 := if_pos hne
    have hz : Flt.eq (v k) Flt.zero = true := by
      cases hz : Flt.eq (v k) Flt.zero
      · exfalso
        have h1 := hf k k le_rfl hk le_rfl hk
        rw [hs.diag hz] at h1
        exact div_ne (mul_fin (add_fin h1).2).1 hr.ok.fin hne
      · rfl
    have e0 := hs.skip hz
    refine ⟨fun i h1 h2 => by rw [← e0]; exact hf j i hj hjm h1 h2, ?_⟩
    rw [hb0, e0]
    have e1 : ∀ i ∈ Ico k m, val (upd2 q k k Flt.one j i) - (val (upd2 q k k Flt.one j i) + 0 *
        (∑ r ∈ Ico k m, val (v r) * val (upd2 q k k Flt.one j r)) * tl k (fun r => val (v r)) i) = 0 :=
      fun i hi => by ring
    rw [nrm_congr e1, nrm_zero]
    exact add_nonneg (mul_nonneg (by positivity) nrm_nonneg) (by positivity)
  · obtain ⟨H, -, hfD, hD⟩ := hhr_gen hk hN he hM hr.norm hne (hr.ok.low.resolve_left hne) (hr.head (hr.ne hne))
      hr.rest hr.ok.high
    have hz : Flt.eq (v k) Flt.zero = false := by
      cases hz : Flt.eq (v k) Flt.zero
      · rfl
      · exact absurd (hzf.1 hz) H.head_ne
    have hb0 : rb k m (val d) (fun r => val (v r)) = -2 / ∑ r ∈ Ico k m, val (v r) ^ 2 := if_neg hne
    rw [hb0]
    obtain ⟨s1, s2, s3⟩ := H.den_size hD
    have hlow := hr.ok.low.resolve_left hne
    have hηd : Rnd.η α * val d ^ 2 ≤ e := by
      have h1 := big_η (α := α)
      have h2 := hr.ok.high
      have h3 : 4 * val d ^ 2 * Rnd.η α ≤ big α * Rnd.η α := by gcongr
      linarith
    have key : (∀ i, k ≤ i → i < m → Rnd.fin (upd2 q k k Flt.one j i)) ∧ ∃ c al : ℝ,
        |c + ∑ i ∈ Ico k m, val (upd2 q k k Flt.one j i) * val (v i)| ≤
          gam α (m - k + 1) * ∑ i ∈ Ico k m, |val (upd2 q k k Flt.one j i)| * |val (v i)| +
            (m - k : ℕ) * (1 + Rnd.u α) ^ (m - k) * Rnd.η α ∧
        |al - c / val (Flt.mul d (v k))| ≤ 10 * e * |c / val (Flt.mul d (v k))| + Rnd.η α ∧
        ∀ i, k ≤ i → i < m → |val (q' j i) - (val (upd2 q k k Flt.one j i) - al * val (v i))| ≤
          3 * e * (|val (upd2 q k k Flt.one j i)| + |al| * |val (v i)|) + 2 * Rnd.η α := by
      by_cases ej : j = k
      · subst ej
        have t0 : upd2 q j j Flt.one j j = Flt.one := by rw [upd2_eq, if_pos ⟨rfl, rfl⟩]
        have t1 : ∀ i, j < i → i < m → upd2 q j j Flt.one j i = Flt.zero := fun i h1 h2 => by
          rw [upd2_eq, if_neg (by omega), hq j i hjm h2 (by omega)]
        have hd0 := hf j j le_rfl hjm le_rfl hjm
        rw [hs.diag hz] at hd0
        have hfr := (mul_fin (add_fin hd0).2).1
        refine ⟨fun i h1 h2 => ?_, -val (v j), -val (Flt.div Flt.one d), ?_, ?_, ?_⟩
        · obtain rfl | h := h1.eq_or_lt
          · rw [t0]; exact one_fin
          · rw [t1 i h h2]; exact zero_fin
        · have e1 : ∑ i ∈ Ico j m, val (upd2 q j j Flt.one j i) * val (v i) = val (v j) := by
            rw [sum_eq_sum_Ico_succ_bot hjm, t0, val_one, one_mul, sum_eq_zero fun i hi => by
              rw [t1 i (mem_Ico.1 hi).1 (mem_Ico.1 hi).2, val_zero, zero_mul], _root_.add_zero]
          rw [e1, neg_add_cancel, abs_zero]
          exact add_nonneg (mul_nonneg (gam_nonneg _) (sum_nonneg fun _ _ => by positivity)) (by positivity)
        · have r1 := (div_err hfr hr.ok.fin).1
          rw [val_one] at r1
          refine Tri.row_factor hu he he1 hne H.head_ne hη0 ?_ s3 (mul_err hfD).1 r1
          have : 4 * 1 * Rnd.η α ≤ 4 * N * Rnd.η α := by gcongr
          linarith
        · intro i h1 h2
          obtain rfl | h := h1.eq_or_lt
          · rw [hs.diag hz, t0]
            exact add_mul_err hd0 he he1
          · have h3 := hf j i le_rfl hjm h1 h2
            rw [hs.row hz i h h2] at h3 ⊢
            have h4 := (mul_err h3).1
            rw [t1 i h h2, val_zero, abs_zero, _root_.zero_add, zero_sub, neg_mul, neg_neg, abs_neg, ← abs_mul]
            refine h4.trans ?_
            have := abs_nonneg (val (Flt.div Flt.one d) * val (v i))
            have : Rnd.u α * |val (Flt.div Flt.one d) * val (v i)| ≤ 3 * e * |val (Flt.div Flt.one d) * val (v i)| := by
              gcongr; linarith
            linarith
      · have t0 : ∀ i, upd2 q k k Flt.one j i = q j i := fun i => by rw [upd2_eq, if_neg (by omega)]
        have t1 : q j k = Flt.zero := hq j k hjm hk (by omega)
        simp only [t0]
        have hc := hf j k hj hjm le_rfl hk
        rw [hs.col hz j (by omega) hjm] at hc
        have hfβ := (mul_fin hc).1
        obtain ⟨hfs, hfi⟩ := mul_fin hfβ
        refine ⟨fun i h1 h2 => ?_, -val (lsum (k + 1) m (fun i => Flt.mul (q j i) (v i)) Flt.zero),
          -val (Flt.mul (lsum (k + 1) m (fun i => Flt.mul (q j i) (v i)) Flt.zero)
            (Flt.div Flt.one (Flt.mul d (v k)))), ?_, ?_, ?_⟩
        · obtain rfl | h := h1.eq_or_lt
          · rw [t1]; exact zero_fin
          · have := hf j i hj hjm h1 h2
            rw [hs.rest hz j i (by omega) hjm h h2] at this
            exact (add_fin this).1
        · have h1 := (SumOf.prods (S := Ico (k + 1) m) (by rw [over_Ico]; exact SumOf.left _ _ _) hfs).2
          rw [Nat.card_Ico] at h1
          rw [sum_eq_sum_Ico_succ_bot hk, sum_eq_sum_Ico_succ_bot hk, t1, val_zero, zero_mul, abs_zero, zero_mul,
            _root_.zero_add, _root_.zero_add, ← abs_neg, neg_add_rev, neg_neg, add_comm, ← sub_eq_add_neg]
          refine h1.trans (add_le_add ?_ ?_)
          · exact mul_le_mul_of_nonneg_right (gam_mono (by omega)) (sum_nonneg fun _ _ => by positivity)
          · have h2 : ((m - (k + 1) : ℕ) : ℝ) ≤ (m - k : ℕ) := by exact_mod_cast (show m - (k + 1) ≤ m - k by omega)
            have h3 : (1 + Rnd.u α) ^ (m - (k + 1)) ≤ (1 + Rnd.u α) ^ (m - k) :=
              pow_le_pow_right₀ (by linarith) (by omega)
            gcongr
        · have r1 := (div_err hfi hfD).1
          rw [val_one] at r1
          refine Tri.rest_factor hu he he1 (div_ne hfi hfD) hη0 ?_ r1 (mul_err hfβ).1
          calc Rnd.η α * |val (Flt.mul d (v k))| ≤ Rnd.η α * (11 / 5 * val d ^ 2) := by gcongr
            _ ≤ 3 * e := by linarith
        · intro i h1 h2
          obtain rfl | h := h1.eq_or_lt
          · rw [hs.col hz j (by omega) hjm, t1, val_zero, abs_zero, _root_.zero_add, zero_sub, neg_mul, neg_neg,
              abs_neg, ← abs_mul]
            refine (mul_err hc).1.trans ?_
            generalize val (Flt.mul (lsum (k + 1) m (fun i => Flt.mul (q j i) (v i)) Flt.zero)
              (Flt.div Flt.one (Flt.mul d (v k)))) * val (v k) = w
            have := abs_nonneg w
            have : Rnd.u α * |w| ≤ 3 * e * |w| := by gcongr; linarith
            linarith
          · have h3 := hf j i hj hjm h1 h2
            rw [hs.rest hz j i (by omega) hjm h h2] at h3 ⊢
            exact add_mul_err h3 he he1
    obtain ⟨hft, c, al, k1, k2, k3⟩ := key
    refine ⟨hft, ?_⟩
    have H2 := apply_gen hk hN he hM hr.norm hne hlow (hr.head (hr.ne hne)) hr.rest hr.ok.high k1 k2 k3
    refine le_trans (le_of_eq (nrm_congr fun i hi => ?_)) H2
    rw [← reflV_eq (m := m) (fun i => val (v i)) (fun i => val (upd2 q k k Flt.one j i)) i (mem_Ico.1 hi).1]

/-- One step of the accumulation. -/
theorem Tri.QStep.round {N k : Nat} {e : ℝ} {d : α} {x v : Nat → α} {q q' : Nat → Nat → α}
    (hs : Tri.QStep m k d v q q') (hr : Refl k m N e x v d) (hk : k < m) (hN : m ≤ N) (he : Rnd.u α ≤ e)
    (hM : (N + 4) * e ≤ 1 / 100) (hq : ∀ i j, i < m → j < m → (i < k + 1 ∨ j < k + 1) → q i j = Flt.zero)
    (hf : ∀ i j, k ≤ i → i < m → k ≤ j → j < m → fin (q' i j)) :
    (∀ i j, k + 1 ≤ i → i < m → k + 1 ≤ j → j < m → fin (q i j)) ∧ ∀ j,
      cnorm (mx m m (pad k (vals fun i j => q' j i)) -
        hh m k (fun r => val (v r)) (rb k m (val d) fun r => val (v r)) *
        mx m m (pad (k + 1) (vals fun i j => q j i))) j ≤
      36 * (N + 4) * e * cnorm (mx m m (pad (k + 1) (vals fun i j => q j i))) j + 6 * √(N * Rnd.η α) := by
  have hu := u_nonneg (α := α)
  have he0 : 0 ≤ e := hu.trans he
  have hrow : ∀ j, k ≤ j → j < m → _ := fun j h1 h2 => hs.rows hr hk hN he hM hq hf h1 h2
  have hpad : ∀ i j, k ≤ i → i < m → k ≤ j → j < m →
      val (upd2 q k k Flt.one j i) = pad (k + 1) (vals fun i j => q j i) i j := by
    intro i j h1 h1' h2 h2'
    rw [upd2_eq]
    by_cases e : j = k ∧ i = k
    · rw [if_pos e, pad_lo (by omega), if_pos (by omega), val_one]
    · rw [if_neg e]
      by_cases e' : i < k + 1 ∨ j < k + 1
      · rw [pad_lo e', hq j i h2' h1' e'.symm, if_neg (by omega), val_zero]
      · rw [pad_hi (by omega) (by omega)]; rfl
  refine ⟨fun a b h1 h2 h3 h4 => ?_, fun j => ?_⟩
  · have := (hrow a (by omega) h2).1 b (by omega) h4
    rwa [upd2_eq, if_neg (by omega)] at this
  rw [hh_mul]
  have e0 : mx m m (pad k (vals fun i j => q' j i)) - (mx m m fun i j => pad (k + 1) (vals fun i j => q j i) i j +
      rb k m (val d) (fun r => val (v r)) * (∑ r ∈ Ico k m, val (v r) * pad (k + 1) (vals fun i j => q j i) r j) *
        tl k (fun r => val (v r)) i) =
      mx m m fun i j => pad k (vals fun i j => q' j i) i j - (pad (k + 1) (vals fun i j => q j i) i j +
      rb k m (val d) (fun r => val (v r)) * (∑ r ∈ Ico k m, val (v r) * pad (k + 1) (vals fun i j => q j i) r j) *
        tl k (fun r => val (v r)) i) := rfl
  rw [e0, cnorm_mx, cnorm_mx]
  clear e0
  have hsub : Ico k m ⊆ range m := fun i hi => mem_range.2 (mem_Ico.1 hi).2
  have hlow : ∀ r, r < k → pad k (vals fun i j => q' j i) r j - (pad (k + 1) (vals fun i j => q j i) r j +
      rb k m (val d) (fun r => val (v r)) * (∑ r ∈ Ico k m, val (v r) * pad (k + 1) (vals fun i j => q j i) r j) *
        tl k (fun r => val (v r)) r) = 0 := by
    intro r hr
    rw [tl, if_neg (by omega), mul_zero, _root_.add_zero, sub_eq_zero, pad_lo (by omega), pad_lo (by omega)]
  have hnr : ∀ g : ℕ → ℝ, (∀ i, i < k → g i = 0) → Spec.nrm (range m) g = Spec.nrm (Ico k m) g := by
    intro g hg
    unfold Spec.nrm
    rw [sum_subset hsub fun i h1 h2 => ?_]
    have : i < k := by
      by_contra h3
      exact h2 (mem_Ico.2 ⟨by omega, mem_range.1 h1⟩)
    rw [hg i this, zero_pow (by norm_num)]
  rw [hnr _ hlow]
  refine le_trans ?_ (add_le_add (mul_le_mul_of_nonneg_left (nrm_mono_set hsub)
    (show 0 ≤ 36 * ((N : ℝ) + 4) * e by positivity)) le_rfl)
  by_cases hj : (j : ℕ) < k
  · have hz : ∀ r ∈ Ico k m, pad k (vals fun i j => q' j i) r j - (pad (k + 1) (vals fun i j => q j i) r j +
        rb k m (val d) (fun r => val (v r)) * (∑ r ∈ Ico k m, val (v r) * pad (k + 1) (vals fun i j => q j i) r j) *
          tl k (fun r => val (v r)) r) = 0 := by
      intro r hr
      have hr' := mem_Ico.1 hr
      have : ∑ x ∈ Ico k m, val (v x) * pad (k + 1) (vals fun i j => q j i) x j = 0 :=
        sum_eq_zero fun x hx => by
          have := mem_Ico.1 hx
          rw [pad_lo (by omega), if_neg (by omega), mul_zero]
      rw [this, pad_lo (by omega), pad_lo (by omega)]
      ring
    rw [nrm_congr hz, nrm_zero]
    exact add_nonneg (mul_nonneg (by positivity) nrm_nonneg) (by positivity)
  · have hr := (hrow j (by omega) j.2).2
    have e1 : Spec.nrm (Ico k m) (fun r => val (upd2 q k k Flt.one j r)) =
        Spec.nrm (Ico k m) fun r => pad (k + 1) (vals fun i j => q j i) r j :=
      nrm_congr fun r hr => hpad r j (mem_Ico.1 hr).1 (mem_Ico.1 hr).2 (by omega) j.2
    rw [e1] at hr
    refine le_trans (le_of_eq (nrm_congr fun r hr => ?_)) hr
    have e2 : ∑ x ∈ Ico k m, val (v x) * val (upd2 q k k Flt.one j x) =
        ∑ x ∈ Ico k m, val (v x) * pad (k + 1) (vals fun i j => q j i) x j :=
      sum_congr rfl fun x hx => by rw [hpad x j (mem_Ico.1 hx).1 (mem_Ico.1 hx).2 (by omega) j.2]
    rw [e2, hpad r j (mem_Ico.1 hr).1 (mem_Ico.1 hr).2 (by omega) j.2, pad_hi (mem_Ico.1 hr).1 (by omega)]
    rfl

/-- The accumulated matrix, transposed, against the product of the exact reflections. -/
theorem Tri.ARnd.step {N : Nat} {e : ℝ} {H : Nat → Matrix (Fin m) (Fin m) ℝ} {k : Nat} {d : α}
    {x v : Nat → α} {q q' : Nat → Nat → α} (hkm : k < m) (ho : 1 ≤ k) (hN : m ≤ N)
    (he : Rnd.u α ≤ e) (hM : (N + 4) * e ≤ 1 / 100) (h : Bi.ARnd m N e H 1 m (k + 1) fun i j => q j i)
    (hs : Tri.QStep m k d v q q') (hr : Refl k m N e x v d)
    (hH : H (k - 1) = hh m k (fun r => val (v r)) (rb k m (val d) fun r => val (v r)))
    (ht : ∀ i, i < m - 1 → (H i)ᵀ = H i) (hsq : ∀ i, i < m - 1 → H i * H i = 1) :
    Bi.ARnd m N e H 1 m k fun i j => q' j i := by
  have hu := u_nonneg (α := α)
  have he0 : 0 ≤ e := hu.trans he
  obtain ⟨hq, hI⟩ := h
  refine ⟨fun i j hi hj hij => (hs.other j i hij.symm).trans (hq i j hi hj (by omega)), fun hf j => ?_⟩
  obtain ⟨h1, h2⟩ := hs.round hr hkm hN he hM (fun i j hi hj hij => hq j i hj hi hij.symm)
    fun i j a b c d => hf j i c d a b
  have h3 := hI (fun i j a b c d => h1 j i c d a b) j
  have h4 := h2 j
  rw [← hH] at h4
  have hHs : (H (k - 1))ᵀ * H (k - 1) = 1 := by rw [ht _ (by omega)]; exact hsq _ (by omega)
  rw [hfrom_step H (show k - 1 < m - 1 by omega)]
  rw [show k + 1 - 1 = k - 1 + 1 by omega] at h3
  have hP1 := cnorm_orth_one (hfrom_orth (H := H) (j := k - 1 + 1) ht hsq) j
  generalize hfrom m H (k - 1 + 1) (m - 1) = P at *
  generalize H (k - 1) = H at *
  generalize mx m m (pad k (vals fun i j => q' j i)) = R' at *
  generalize mx m m (pad (k + 1) (vals fun i j => q j i)) = R at *
  have g1 : R' - H * P = (R' - H * R) + H * (R - P) := by
    rw [Matrix.mul_sub]
    abel
  have g3 := cnorm_add_le (R - P) P j
  rw [sub_add_cancel, hP1] at g3
  have g4 := cnorm_add_le (R' - H * R) (H * (R - P)) j
  rw [← g1, cnorm_orth hHs] at g4
  rw [show m - k = m - (k + 1) + 1 by omega]
  have := err_step (b := 1) (c := m - (k + 1)) (ε := 36 * (N + 4) * e) (ω := 6 * √(N * Rnd.η α)) (by positivity)
    (by positivity) (by rw [mul_one]; exact h3) g3 (g4.trans (by linarith))
  rwa [mul_one] at this

/-- `QT`, transposed, against the product of the exact reflections. -/
theorem Tri.qT_round (hm : 0 < m) (s : Tri α m m) {e : ℝ} (he : Rnd.u α ≤ e) (hM : (m + 4) * e ≤ 1 / 100)
    (hr : ∀ j, j < m - 1 → ∃ x, Refl (j + 1) m m e x (s.hv.f j) (s.sec.f j)) :
    ∃ (M : Mat α m m) (q : Nat → Nat → α), s.qT = .ok ⟨m, m, M⟩ ∧ M.dense ∧ Shows M.at m m q ∧
      ((∀ i j, i < m → j < m → fin (q i j)) → ∀ j,
        cnorm (mx m m (vals fun i j => q j i) - hprod m (Tri.XH m (vals s.hv.f) (vals1 s.sec.f)) (m - 1)) j ≤
          ((1 + 36 * (m + 4) * e) ^ (m - 1) - 1) +
            (m - 1 : ℕ) * (1 + 36 * (m + 4) * e) ^ (m - 1) * (6 * √(m * Rnd.η α))) := by
  obtain ⟨M, q, e1, h1, h2, h3⟩ := Tri.qT_wp hm s
    (fun k q => Bi.ARnd m m e (Tri.XH m (vals s.hv.f) (vals1 s.sec.f)) 1 m k fun i j => q j i)
    (Bi.ARnd.init _ 1 m fun i j hi hj => by rw [Bi.fillEnt, if_neg (by omega)]) (by
      intro k q q' h1 hk hI hs
      obtain ⟨x, hx⟩ := hr (k - 1) (by omega)
      rw [Nat.sub_add_cancel h1] at hx
      refine Tri.ARnd.step hk h1 le_rfl he hM hI hs hx ?_ (fun _ _ => hh_transpose _ _ _ _) fun j hj => ?_
      · unfold Tri.XH vals vals1
        rw [Nat.sub_add_cancel h1]
      · obtain ⟨x, hx⟩ := hr j hj
        exact hh_sq (hx.refl (by omega) le_rfl he hM))
  refine ⟨M, _, e1, h1, h2, fun hf j => ?_⟩
  obtain ⟨hz, hI⟩ := h3
  have h4 := hI (fun i j a b c d => by
    have := hf j i d b
    rwa [upd2_eq, if_neg (by omega)] at this) j
  rw [Nat.sub_self, hfrom_zero] at h4
  have e2 : mx m m (vals fun i j => upd2 q 0 0 Flt.one j i) = mx m m (pad 1 (vals fun i j => q j i)) := by
    refine mx_congr fun i j hi hj => ?_
    show val (upd2 q 0 0 Flt.one j i) = _
    rw [upd2_eq]
    by_cases e : j = 0 ∧ i = 0
    · rw [if_pos e, pad_lo (by omega), if_pos (by omega), val_one]
    · rw [if_neg e]
      by_cases e' : i < 1 ∨ j < 1
      · rw [pad_lo e', show q j i = Flt.zero from hz i j hi hj e', if_neg (by omega), val_zero]
      · rw [pad_hi (by omega) (by omega)]; rfl
  rw [e2]
  exact h4

end Linear
