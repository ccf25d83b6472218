import Verif.Lemmas.RoundQRQ
import Verif.Lemmas.QRSolveBits

/-!
# The solvers of the QR decompositions in rounded arithmetic
-/

set_option linter.unusedSectionVars false

namespace Linear

open Spec Rnd Matrix
open Finset hiding val diag

variable {α : Type} [Flt α] [Rnd α] {m n : Nat}

theorem hnorm_small {k : Nat} {x : Nat → α} (h : fin (hnorm k m x)) :
    η α * |val (hnorm k m x)| ≤ u α / 2 := by
  unfold hnorm at h ⊢
  split_ifs with hc
  · rw [if_pos hc] at h
    rw [mul_neg_one h, abs_neg]
    exact sqrt_small (mul_fin h).1
  · rw [if_neg hc] at h
    exact sqrt_small h

/-- Multiplication by the rounded reciprocal, forward. -/
theorem recip_fwd {c D : α} {e : ℝ} (h : fin (Flt.mul c (Flt.div Flt.one D))) (hD : fin D)
    (hs : η α * |val D| ≤ 3 * u α) (he : u α ≤ e) (he1 : e ≤ 1 / 100) :
    fin c ∧ |val (Flt.mul c (Flt.div Flt.one D)) - val c / val D| ≤ 10 * e * |val c / val D| + η α := by
  obtain ⟨f1, f2⟩ := mul_fin h
  refine ⟨f1, ?_⟩
  have hu := u_nonneg (α := α)
  have hη := η_nonneg (α := α)
  have h1 := (mul_err h).1
  have h2 := (div_err f2 hD).1
  have hne := div_ne f2 hD
  rw [val_one] at h2
  generalize val (Flt.mul c (Flt.div Flt.one D)) = q at *
  generalize val (Flt.div Flt.one D) = w at *
  generalize val c = c at *
  generalize val D = D at *
  have hDp : 0 < |D| := abs_pos.2 hne
  have a1 : |w - 1 / D| ≤ 4 * u α * |1 / D| := by
    refine h2.trans ?_
    have : η α ≤ 3 * u α * |1 / D| := by
      rw [abs_div, abs_one, mul_one_div, le_div_iff₀ hDp]
      exact hs
    linarith
  have a2 : |c * w - c / D| ≤ 4 * u α * |c / D| := by
    calc |c * w - c / D| = |c| * |w - 1 / D| := by rw [← abs_mul]; congr 1; ring
      _ ≤ |c| * (4 * u α * |1 / D|) := by gcongr
      _ = _ := by rw [abs_div, abs_div, abs_one]; ring
  have a3 : |c * w| ≤ (1 + 4 * u α) * |c / D| := by
    have := abs_sub_abs_le_abs_sub (c * w) (c / D)
    linarith
  have a4 : |q - c / D| ≤ |q - c * w| + |c * w - c / D| := abs_sub_le _ _ _
  have a5 : u α * |c * w| ≤ u α * ((1 + 4 * u α) * |c / D|) := by gcongr
  have hX := abs_nonneg (c / D)
  generalize |c / D| = X at *
  have a6 : u α * ((1 + 4 * u α) * X) ≤ 2 * (u α * X) := by nlinarith [mul_nonneg hu hX]
  have a7 : u α * X ≤ e * X := by gcongr
  have a8 : 0 ≤ u α * X := mul_nonneg hu hX
  linarith

/-- One reflection of a right-hand side: when the entry that the step completes is finite, everything
before the step is finite and the step is nearly the exact reflection. -/
theorem QR.vstep_round {e : ℝ} {A : Nat → Nat → α} {p k : Nat} {f : Nat → Nat → α} {d : Nat → α}
    (hk : k < m) (hkp : k < p) (he : u α ≤ e) (hM : (m + 4) * e ≤ 1 / 100)
    (hd : Scaled m e (d k)) (hne : val (d k) ≠ 0) (hI : QR.RInv m n e A p f d) {y y' : Nat → α} {al : α}
    (hs : QR.VStep m k f d y y' al) (hf : fin (y' k)) :
    (∀ j, k ≤ j → j < m → fin (y j)) ∧ ∀ t' : Nat → ℝ,
    (∀ j, k ≤ j → j < m → (fin (y' j) → t' j = val (y' j)) ∧
      (¬ fin (y' j) → t' j = val (y j) + val al * val (f k j))) →
    nrm (Ico k m) (fun i => t' i - (val (y i) + QR.hb m (fun c r => val (f c r)) (fun c => val (d c)) k *
      (∑ r ∈ Ico k m, val (f k r) * val (y r)) * tl k (fun r => val (f k r)) i)) ≤
      36 * (m + 4) * e * nrm (Ico k m) (fun i => val (y i)) + 6 * √(m * η α) := by
  have hu := u_nonneg (α := α)
  have he0 : 0 ≤ e := hu.trans he
  have hη0 := η_nonneg (α := α)
  have he1 : e ≤ 1 / 100 := by nlinarith [show (0 : ℝ) ≤ m from Nat.cast_nonneg m]
  obtain ⟨x, hx1, hx2, hx3⟩ := hI.src k hkp hne
  have hdf := hd.fin
  have hdl := hd.low.resolve_left hne
  have hdh := hd.high
  rw [hx1] at hx2 hdf hdl hdh
  have hne' := hne
  rw [hx1] at hne'
  obtain ⟨H, -, hfD, hD⟩ := hhr_round (v := f k) hk le_rfl he hM hdf hne' hdl hx2 hx3 hdh
  have hal : fin al := by
    rw [hs.row k le_rfl hk] at hf
    exact (mul_fin (add_fin hf).2).1
  -- the factor
  have key : (∀ j, k ≤ j → j < m → fin (y j)) ∧ ∃ c : ℝ,
      |c + ∑ i ∈ Ico k m, val (y i) * val (f k i)| ≤
        gam α (m - k + 1) * ∑ i ∈ Ico k m, |val (y i)| * |val (f k i)| +
          (m - k : ℕ) * (1 + u α) ^ (m - k) * η α ∧
      |-val al - c / val (Flt.mul (hnorm k m x) (f k k))| ≤
        10 * e * |c / val (Flt.mul (hnorm k m x) (f k k))| + η α := by
    have hsum : ∀ g h : Nat → α, fin (lsum k m (fun r => Flt.mul (g r) (h r)) Flt.zero) →
        (∀ j, k ≤ j → j < m → fin (g j) ∧ fin (h j)) ∧
        |-val (lsum k m (fun r => Flt.mul (g r) (h r)) Flt.zero) + ∑ i ∈ Ico k m, val (g i) * val (h i)| ≤
          gam α (m - k + 1) * ∑ i ∈ Ico k m, |val (g i)| * |val (h i)| +
            (m - k : ℕ) * (1 + u α) ^ (m - k) * η α := by
      intro g h hf
      have h0 : SumOf (lsum k m (fun r => Flt.mul (g r) (h r)) Flt.zero)
          (over (Ico k m) fun r => Flt.mul (g r) (h r)) := by
        rw [over_Ico]; exact SumOf.left _ _ _
      obtain ⟨h1, h2⟩ := h0.prods hf
      refine ⟨fun j h3 h4 => h1 j (mem_Ico.2 ⟨h3, h4⟩), ?_⟩
      rw [Nat.card_Ico] at h2
      rw [neg_add_eq_sub, abs_sub_comm]
      refine h2.trans (add_le_add (mul_le_mul_of_nonneg_right (gam_mono (by omega)) ?_) le_rfl)
      exact sum_nonneg fun _ _ => by positivity
    rcases hs.fac with h1 | h1
    · rw [h1] at hal ⊢
      obtain ⟨h2, h3⟩ := hsum _ _ (div_fin hal)
      refine ⟨fun j h4 h5 => (h2 j h4 h5).1, _, h3, ?_⟩
      rw [hx1] at hal ⊢
      have h4 := (div_err hal hfD).1
      rw [neg_div, abs_neg, ← neg_sub', abs_neg]
      exact h4.trans (by gcongr; linarith)
    · have hηD : η α * |val (Flt.mul (hnorm k m x) (f k k))| ≤ 3 * u α := by
        have b1 : |val (f k k)| ≤ 2.1 * |val (hnorm k m x)| := by
          refine le_trans ?_ H.nrmV_le
          unfold nrm
          refine Real.abs_le_sqrt ?_
          exact single_le_sum (f := fun i => val (f k i) ^ 2) (fun _ _ => sq_nonneg _)
            (mem_Ico.2 ⟨le_rfl, hk⟩)
        have b2 : |val (hnorm k m x) * val (f k k)| ≤ 2.1 * val (hnorm k m x) ^ 2 := by
          rw [abs_mul, ← sq_abs]
          nlinarith [abs_nonneg (val (hnorm k m x))]
        have b3 : |val (Flt.mul (hnorm k m x) (f k k))| ≤ 51 / 50 * |val (hnorm k m x) * val (f k k)| := by
          have := abs_sub_abs_le_abs_sub (val (Flt.mul (hnorm k m x) (f k k))) (val (hnorm k m x) * val (f k k))
          have b4 : 2 * (m + 4) * e * |val (hnorm k m x) * val (f k k)| ≤
              1 / 50 * |val (hnorm k m x) * val (f k k)| := by
            refine mul_le_mul_of_nonneg_right ?_ (abs_nonneg _)
            linarith
          linarith
        have b5 := big_η (α := α)
        have b6 : |val (Flt.mul (hnorm k m x) (f k k))| ≤ 3 / 4 * big α := by
          rw [show (2.1 : ℝ) = 21 / 10 by norm_num] at b2
          have := big_le (α := α)
          linarith
        calc η α * |val (Flt.mul (hnorm k m x) (f k k))| ≤ η α * (3 / 4 * big α) := by gcongr
          _ ≤ _ := by linarith
      rw [h1] at hal ⊢
      rw [hx1] at hal ⊢
      obtain ⟨h2, h3⟩ := recip_fwd hal hfD hηD he he1
      obtain ⟨h4, h5⟩ := hsum _ _ h2
      refine ⟨fun j h6 h7 => (h4 j h6 h7).2, -val (lsum k m (fun r => Flt.mul (f k r) (y r)) Flt.zero), ?_, ?_⟩
      · have e1 : ∑ i ∈ Ico k m, val (y i) * val (f k i) = ∑ i ∈ Ico k m, val (f k i) * val (y i) :=
          sum_congr rfl fun i _ => mul_comm _ _
        have e2 : ∑ i ∈ Ico k m, |val (y i)| * |val (f k i)| = ∑ i ∈ Ico k m, |val (f k i)| * |val (y i)| :=
          sum_congr rfl fun i _ => mul_comm _ _
        rw [e1, e2]
        exact h5
      · rw [neg_div, abs_neg, ← neg_sub', abs_neg]
        exact h3
  obtain ⟨hy, c, hc1, hc2⟩ := key
  refine ⟨hy, fun t' ht' => ?_⟩
  have hb0 : QR.hb m (fun c r => val (f c r)) (fun c => val (d c)) k =
      -2 / ∑ r ∈ Ico k m, val (f k r) ^ 2 := by
    unfold QR.hb
    rw [if_neg hne]
  rw [hb0]
  have H2 := apply_real (t := fun i => val (y i)) (t' := t') hk le_rfl he hM hdf hne' hdl hx2 hx3 hdh hc1 hc2 (by
    intro i h1 h2
    by_cases h3 : fin (y' i)
    · rw [(ht' i h1 h2).1 h3]
      rw [hs.row i h1 h2] at h3 ⊢
      exact add_mul_err h3 he he1
    · rw [(ht' i h1 h2).2 h3, neg_mul, sub_neg_eq_add, sub_self, abs_zero]
      positivity)
  refine le_trans (le_of_eq (nrm_congr fun i hi => ?_)) H2
  rw [← reflV_eq (m := m) (fun i => val (f k i)) (fun i => val (y i)) i (mem_Ico.1 hi).1]

/-- The error of the right-hand side after `k` reflections. -/
def QR.VErr (m : Nat) (e : ℝ) (f : Nat → Nat → α) (d b : Nat → α) (k : Nat) (z : Nat → ℝ) : Prop :=
  cnorm (mx m 1 (fun i _ => z i) - (hprod m (QR.hx m (fun c r => val (f c r)) (fun c => val (d c))) k)ᵀ *
    mx m 1 fun i _ => val (b i)) 0 ≤
    ((1 + 36 * (m + 4) * e) ^ k - 1) * cnorm (mx m 1 fun i _ => val (b i)) 0 +
      k * (1 + 36 * (m + 4) * e) ^ k * (6 * √(m * η α))

theorem QR.verr_step {e : ℝ} {A : Nat → Nat → α} {p k : Nat} {f : Nat → Nat → α} {d : Nat → α}
    (hk : k < m) (hkp : k < p) (he : u α ≤ e) (hM : (m + 4) * e ≤ 1 / 100)
    (hd : Scaled m e (d k)) (hne : val (d k) ≠ 0) (hI : QR.RInv m n e A p f d) {y y' b : Nat → α} {al : α}
    (hs : QR.VStep m k f d y y' al) (hf : fin (y' k)) (hy : QR.VErr m e f d b k fun i => val (y i))
    {t' : Nat → ℝ} (hlo : ∀ j, j < k → t' j = val (y j))
    (ht : ∀ j, k ≤ j → j < m → (fin (y' j) → t' j = val (y' j)) ∧
      (¬ fin (y' j) → t' j = val (y j) + val al * val (f k j))) :
    QR.VErr m e f d b (k + 1) t' := by
  have hu := u_nonneg (α := α)
  have he0 : 0 ≤ e := hu.trans he
  have hη0 := η_nonneg (α := α)
  have hS := (QR.vstep_round hk hkp he hM hd hne hI hs hf).2 t' ht
  unfold QR.VErr at hy ⊢
  have hkey : cnorm (mx m 1 (fun i _ => t' i) -
      QR.hx m (fun c r => val (f c r)) (fun c => val (d c)) k * mx m 1 fun i _ => val (y i)) 0 ≤
      36 * (m + 4) * e * cnorm (mx m 1 fun i _ => val (y i)) 0 + 6 * √(m * η α) := by
    unfold QR.hx
    rw [hh_mul]
    have e0 : (mx m 1 (fun i _ => t' i) - mx m 1 fun r c => val (y r) +
        QR.hb m (fun c r => val (f c r)) (fun c => val (d c)) k *
          (∑ x ∈ Ico k m, val (f k x) * val (y x)) * tl k (fun r => val (f k r)) r) =
        mx m 1 fun r _ => t' r - (val (y r) + QR.hb m (fun c r => val (f c r)) (fun c => val (d c)) k *
          (∑ x ∈ Ico k m, val (f k x) * val (y x)) * tl k (fun r => val (f k r)) r) := rfl
    rw [e0, cnorm_mx, cnorm_mx]
    clear e0
    have hsub : Ico k m ⊆ range m := fun i hi => mem_range.2 (mem_Ico.1 hi).2
    have hnr : ∀ g : ℕ → ℝ, (∀ i, i < k → g i = 0) → nrm (range m) g = nrm (Ico k m) g := by
      intro g hg
      unfold nrm
      rw [sum_subset hsub fun i _ h2 => ?_]
      have : i < k := by
        by_contra h3
        exact h2 (mem_Ico.2 ⟨by omega, by rename_i h1; exact mem_range.1 h1⟩)
      rw [hg i this, zero_pow (by norm_num)]
    rw [hnr _ fun r hr => by
      rw [tl, if_neg (by omega), mul_zero, _root_.add_zero, hlo r hr, sub_self]]
    exact hS.trans (add_le_add (mul_le_mul_of_nonneg_left (nrm_mono_set hsub)
      (show 0 ≤ 36 * ((m : ℝ) + 4) * e by positivity)) le_rfl)
  have hHt : (QR.hx m (fun c r => val (f c r)) (fun c => val (d c)) k)ᵀ =
      QR.hx m (fun c r => val (f c r)) (fun c => val (d c)) k := hh_transpose _ _ _ _
  have hHs : (QR.hx m (fun c r => val (f c r)) (fun c => val (d c)) k)ᵀ *
      QR.hx m (fun c r => val (f c r)) (fun c => val (d c)) k = 1 := by
    rw [hHt]; exact hh_sq (hI.refl k hkp)
  rw [hprod, Matrix.transpose_mul, hHt]
  have hPo : ((hprod m (QR.hx m (fun c r => val (f c r)) (fun c => val (d c))) k)ᵀ)ᵀ *
      (hprod m (QR.hx m (fun c r => val (f c r)) (fun c => val (d c))) k)ᵀ = 1 := by
    rw [Matrix.transpose_transpose]
    exact hprod_orth (fun i _ => hh_transpose _ _ _ _) fun i hi => hh_sq (hI.refl i (by omega))
  clear hS
  generalize QR.hx m (fun c r => val (f c r)) (fun c => val (d c)) k = H at *
  generalize (mx m 1 fun i _ => t' i) = R' at *
  generalize (mx m 1 fun i _ => val (y i)) = R at *
  generalize (hprod m (QR.hx m (fun c r => val (f c r)) (fun c => val (d c))) k)ᵀ = P at *
  generalize (mx m 1 fun i _ => val (b i)) = B at *
  have h1 : R' - H * P * B = (R' - H * R) + H * (R - P * B) := by
    rw [Matrix.mul_sub, Matrix.mul_assoc]
    abel
  have h2 : R = (R - P * B) + P * B := by abel
  have h3 := cnorm_add_le (R - P * B) (P * B) 0
  rw [← h2, cnorm_orth hPo] at h3
  have h4 := cnorm_add_le (R' - H * R) (H * (R - P * B)) 0
  rw [← h1, cnorm_orth hHs] at h4
  have hε : 0 ≤ 36 * ((m : ℝ) + 4) * e := by positivity
  have hω : 0 ≤ 6 * √(m * η α) := by positivity
  generalize 36 * ((m : ℝ) + 4) * e = ε at *
  generalize 6 * √(m * η α) = ω at *
  have hB := cnorm_nonneg B 0
  generalize cnorm B 0 = b at *
  generalize cnorm (R - P * B) 0 = q at *
  have h5 : ε * cnorm R 0 ≤ ε * (q + b) := by gcongr
  have h6 : (1 + ε) * q ≤ (1 + ε) * (((1 + ε) ^ k - 1) * b + k * (1 + ε) ^ k * ω) := by gcongr
  have h7 : ω ≤ (1 + ε) ^ (k + 1) * ω := le_mul_of_one_le_left hω (one_le_pow₀ (by linarith))
  rw [pow_succ] at h7 ⊢
  push_cast
  nlinarith

/-- The transformed right-hand side, when all of it is finite. -/
theorem QR.Refl.round {e : ℝ} {A : Nat → Nat → α} {p : Nat} {f : Nat → Nat → α} {d : Nat → α}
    (hpm : p ≤ m) (he : u α ≤ e) (hM : (m + 4) * e ≤ 1 / 100)
    (hd : ∀ i, i < p → Scaled m e (d i) ∧ val (d i) ≠ 0) (hI : QR.RInv m n e A p f d) {b : Nat → α}
    {k : Nat} {y : Nat → α} (h : QR.Refl m f d b k y) (hk : k ≤ p) (hf : ∀ i, i < m → fin (y i)) :
    (∀ i, i < m → fin (b i)) ∧ QR.VErr m e f d b k fun i => val (y i) := by
  induction h with
  | zero h =>
    refine ⟨fun i hi => h i hi ▸ hf i hi, ?_⟩
    unfold QR.VErr
    rw [hprod, Matrix.transpose_one, Matrix.one_mul, mx_congr fun i j hi _ => congrArg val (h i hi), sub_self,
      cnorm_eq]
    simp [nrm]
  | @step k y y' al h hs ih =>
    obtain ⟨a1, -⟩ := QR.vstep_round (by omega) (by omega : k < p) he hM (hd k (by omega)).1 (hd k (by omega)).2
      hI hs (hf k (by omega))
    have hfy : ∀ i, i < m → fin (y i) := by
      intro i hi
      by_cases e : i < k
      · rw [← hs.low i e]; exact hf i hi
      · exact a1 i (by omega) hi
    obtain ⟨b1, b2⟩ := ih (by omega) hfy
    refine ⟨b1, QR.verr_step (by omega) (by omega : k < p) he hM (hd k (by omega)).1 (hd k (by omega)).2
      hI hs (hf k (by omega)) b2 (fun j hj => by rw [hs.low j hj]) fun j h1 h2 => ⟨fun _ => rfl, fun h3 => ?_⟩⟩
    exact absurd (hf j h2) h3

/-- The transformed right-hand side, when its first entries are finite: nearly the exact transform,
with entries that overflowed in the last step replaced by what they should be. -/
theorem QR.Refl.round_top {e : ℝ} {A : Nat → Nat → α} {p : Nat} {f : Nat → Nat → α} {d : Nat → α}
    (hp : 0 < p) (hpm : p ≤ m) (he : u α ≤ e) (hM : (m + 4) * e ≤ 1 / 100)
    (hd : ∀ i, i < p → Scaled m e (d i) ∧ val (d i) ≠ 0) (hI : QR.RInv m n e A p f d) {b y : Nat → α}
    (h : QR.Refl m f d b p y) (hf : ∀ i, i < p → fin (y i)) :
    (∀ i, i < m → fin (b i)) ∧ ∃ z : Nat → ℝ, (∀ i, i < p → z i = val (y i)) ∧ QR.VErr m e f d b p z := by
  classical
  cases h with
  | zero h => omega
  | @step k y' y al h hs =>
    obtain ⟨a1, -⟩ := QR.vstep_round (by omega) (by omega : k < k + 1) he hM (hd k (by omega)).1
      (hd k (by omega)).2 hI hs (hf k (by omega))
    have hfy : ∀ i, i < m → fin (y' i) := by
      intro i hi
      by_cases e : i < k
      · rw [← hs.low i e]; exact hf i (by omega)
      · exact a1 i (by omega) hi
    obtain ⟨b1, b2⟩ := h.round hpm he hM hd hI (by omega) hfy
    refine ⟨b1, fun j => if fin (y j) then val (y j) else val (y' j) + val al * val (f k j), fun i hi => ?_, ?_⟩
    · exact if_pos (hf i hi)
    · refine QR.verr_step (by omega) (by omega : k < k + 1) he hM (hd k (by omega)).1 (hd k (by omega)).2
        hI hs (hf k (by omega)) b2 (fun j hj => ?_) fun j h1 h2 => ⟨fun h3 => if_pos h3, fun h3 => if_neg h3⟩
      rw [if_pos (hf j (by omega)), hs.low j hj]

/-! ## Back substitution -/

/-- The diagonal and the part above it. -/
def QR.Ut (f : Nat → Nat → α) (d : Nat → α) (i j : Nat) : ℝ := if i = j then val (d j) else val (f j i)

/-- Subtraction of products, then multiplication by the rounded reciprocal. -/
theorem rsub_prods_recip {a b : Nat} {x y : Nat → α} {s d : α} (hd : fin d) (hs : η α * |val d| ≤ u α / 2)
    (h : fin (Flt.mul (rsub a b (fun i => Flt.mul (x i) (y i)) s) (Flt.div Flt.one d))) :
    fin s ∧ (∀ i, a ≤ i → i < b → fin (x i) ∧ fin (y i)) ∧ val d ≠ 0 ∧
      |val (Flt.mul (rsub a b (fun i => Flt.mul (x i) (y i)) s) (Flt.div Flt.one d)) * val d +
          ∑ i ∈ Ico a b, val (x i) * val (y i) - val s| ≤
        gam α (b - a + 3) * (|val (Flt.mul (rsub a b (fun i => Flt.mul (x i) (y i)) s) (Flt.div Flt.one d))| *
          |val d| + ∑ i ∈ Ico a b, |val (x i)| * |val (y i)|) +
          (1 + u α) ^ (b - a + 2) * ((b - a : ℕ) + |val d|) * η α := by
  obtain ⟨h1, h2⟩ := recip_mul h hd hs
  obtain ⟨-, h0⟩ := mul_fin h
  have hne := div_ne h0 hd
  obtain ⟨h3, h4, h5⟩ := sub_prods (List.range' a (b - a)).reverse x y s h1
  refine ⟨h3, fun i hi hi' => h4 i (List.mem_reverse.2 (List.mem_range'_1.2 ⟨hi, by omega⟩)), hne, ?_⟩
  have e : Ico a (a + (b - a)) = Ico a b := by
    by_cases hab : a ≤ b
    · rw [show a + (b - a) = b by omega]
    · rw [Ico_eq_empty (by omega), Ico_eq_empty (by omega)]
  rw [List.length_reverse, List.length_range', List.map_reverse, List.sum_reverse, List.map_reverse,
    List.sum_reverse, sum_range'_map, sum_range'_map, e] at h5
  have hT : 0 ≤ ∑ i ∈ Ico a b, |val (x i)| * |val (y i)| := sum_nonneg fun _ _ => by positivity
  change |val (rsub a b (fun i => Flt.mul (x i) (y i)) s) + _ - val s| ≤ gam α (b - a) *
    |val (rsub a b (fun i => Flt.mul (x i) (y i)) s)| + _ + _ at h5
  generalize rsub a b (fun i => Flt.mul (x i) (y i)) s = w at *
  generalize ∑ i ∈ Ico a b, |val (x i)| * |val (y i)| = T at *
  generalize ∑ i ∈ Ico a b, val (x i) * val (y i) = S at *
  generalize val (Flt.mul w (Flt.div Flt.one d)) = q at *
  generalize b - a = l at *
  have hu := u_nonneg (α := α)
  have hη := η_nonneg (α := α)
  have hD := abs_nonneg (val d)
  have hQ : 0 ≤ |q| * |val d| := by positivity
  have a1 : |val w| ≤ (1 + gam α 3) * (|q| * |val d|) + (1 + u α) ^ 2 * |val d| * η α := by
    have := abs_sub_abs_le_abs_sub (val w) (q * val d)
    rw [abs_sub_comm, abs_mul] at this
    linarith
  have a2 : |q * val d + S - val s| ≤ |q * val d - val w| + |val w + S - val s| := by
    rw [show q * val d + S - val s = (q * val d - val w) + (val w + S - val s) by ring]
    exact abs_add_le _ _
  have hg := gam_nonneg (α := α) l
  have hg3 := gam_nonneg (α := α) 3
  have a3 : gam α l * |val w| ≤ gam α l * ((1 + gam α 3) * (|q| * |val d|) + (1 + u α) ^ 2 * |val d| * η α) := by
    gcongr
  have a4 : gam α (l + 1) * T ≤ gam α (l + 3) * T := mul_le_mul_of_nonneg_right (gam_mono (by omega)) hT
  have a5 : gam α (l + 3) = gam α l + gam α 3 + gam α l * gam α 3 := gam_add l 3
  have a6 : (1 + u α) ^ (l + 2) = (1 + gam α l) * (1 + u α) ^ 2 := by rw [one_add_gam, pow_add]
  have a7 : (l : ℝ) * (1 + u α) ^ l * η α ≤ (l : ℝ) * (1 + u α) ^ (l + 2) * η α := by
    have : (1 + u α) ^ l ≤ (1 + u α) ^ (l + 2) := pow_le_pow_right₀ one_le_u (by omega)
    gcongr
  calc |q * val d + S - val s| ≤ (gam α 3 * (|q| * |val d|) + (1 + u α) ^ 2 * |val d| * η α) +
        (gam α l * ((1 + gam α 3) * (|q| * |val d|) + (1 + u α) ^ 2 * |val d| * η α) + gam α (l + 3) * T +
          (l : ℝ) * (1 + u α) ^ (l + 2) * η α) := by linarith
    _ = _ := by rw [a6, a5]; ring

theorem QR.Back.round {e : ℝ} {A : Nat → Nat → α} {p : Nat} {f : Nat → Nat → α} {d : Nat → α}
    (hd : ∀ i, i < p → Scaled m e (d i)) (hI : QR.RInv m n e A p f d) {y x : Nat → α}
    (h : QR.Back p f d y x) (hx : ∀ i, i < p → fin (x i)) :
    ∀ i, i < p → fin (y i) ∧ val (d i) ≠ 0 ∧
      |∑ j ∈ Ico i p, QR.Ut f d i j * val (x j) - val (y i)| ≤
        gam α (p + 2) * (∑ j ∈ Ico i p, |QR.Ut f d i j| * |val (x j)|) +
          (1 + u α) ^ (p + 1) * (p + |val (d i)|) * η α := by
  intro i hi
  have hu := u_nonneg (α := α)
  have hη := η_nonneg (α := α)
  have hsum : ∀ G : ℝ → ℝ → ℝ, ∑ j ∈ Ico i p, G (QR.Ut f d i j) (val (x j)) =
      G (val (d i)) (val (x i)) + ∑ j ∈ Ico (i + 1) p, G (val (f j i)) (val (x j)) := by
    intro G
    rw [sum_eq_sum_Ico_succ_bot hi]
    congr 1
    · unfold QR.Ut; rw [if_pos rfl]
    · refine sum_congr rfl fun j hj => ?_
      have := mem_Ico.1 hj
      unfold QR.Ut; rw [if_neg (by omega)]
  have e1 := hsum fun a b => a * b
  have e2 := hsum fun a b => |a| * |b|
  have e3 : ∑ j ∈ Ico (i + 1) p, val (f j i) * val (x j) = ∑ j ∈ Ico (i + 1) p, val (x j) * val (f j i) :=
    sum_congr rfl fun _ _ => mul_comm _ _
  have e4 : ∑ j ∈ Ico (i + 1) p, |val (f j i)| * |val (x j)| = ∑ j ∈ Ico (i + 1) p, |val (x j)| * |val (f j i)| :=
    sum_congr rfl fun _ _ => mul_comm _ _
  rw [e1, e2, e3, e4, mul_comm (val (d i)), mul_comm |val (d i)|]
  have hT : 0 ≤ |val (x i)| * |val (d i)| + ∑ j ∈ Ico (i + 1) p, |val (x j)| * |val (f j i)| :=
    add_nonneg (by positivity) (sum_nonneg fun _ _ => by positivity)
  have hD := abs_nonneg (val (d i))
  have hfin : ∀ {k l : Nat} {S T : ℝ}, k ≤ p + 2 → l ≤ p + 1 → S ≤ gam α k *
      (|val (x i)| * |val (d i)| + ∑ j ∈ Ico (i + 1) p, |val (x j)| * |val (f j i)|) +
      (1 + u α) ^ l * ((p - (i + 1) : ℕ) + |val (d i)|) * η α →
      S ≤ gam α (p + 2) *
      (|val (x i)| * |val (d i)| + ∑ j ∈ Ico (i + 1) p, |val (x j)| * |val (f j i)|) +
      (1 + u α) ^ (p + 1) * (p + |val (d i)|) * η α := by
    intro k l S _ hk hl hS
    refine hS.trans (add_le_add (mul_le_mul_of_nonneg_right (gam_mono hk) hT) ?_)
    have h1 : (1 + u α) ^ l ≤ (1 + u α) ^ (p + 1) := pow_le_pow_right₀ one_le_u hl
    have h2 : ((p - (i + 1) : ℕ) : ℝ) ≤ p := by exact_mod_cast Nat.sub_le _ _
    gcongr
  have hxi := hx i hi
  rcases h i hi with h1 | h1
  · rw [h1] at hxi
    obtain ⟨a1, -, a3, a4⟩ := rsub_prods_div (hd i hi).fin hxi
    rw [← h1] at a4
    exact ⟨a1, a3, hfin (T := 0) (by omega) (by omega) a4⟩
  · rw [h1] at hxi
    have hne := div_ne (mul_fin hxi).2 (hd i hi).fin
    obtain ⟨x0, hx1, -⟩ := hI.src i hi hne
    have hsm : η α * |val (d i)| ≤ u α / 2 := by
      have := (hd i hi).fin
      rw [hx1] at this ⊢
      exact hnorm_small this
    obtain ⟨a1, -, a3, a4⟩ := rsub_prods_recip (hd i hi).fin hsm hxi
    rw [← h1] at a4
    exact ⟨a1, a3, hfin (T := 0) (by omega) (by omega) a4⟩

/-- A small residual of one row is a small change of the row and of the right-hand side. -/
theorem row_change {ι : Type} (S : Finset ι) (r x : ι → ℝ) {ρ γ θ : ℝ} (hγ : 0 ≤ γ) (hθ : 0 ≤ θ)
    (h : |ρ| ≤ γ * ∑ j ∈ S, |r j| * |x j| + θ) :
    ∃ (δ : ι → ℝ) (ε : ℝ), (∀ j, |δ j| ≤ γ * |r j|) ∧ |ε| ≤ θ ∧ ∑ j ∈ S, δ j * x j + ε = ρ := by
  have hT : 0 ≤ ∑ j ∈ S, |r j| * |x j| := sum_nonneg fun _ _ => by positivity
  set T := ∑ j ∈ S, |r j| * |x j| with hTd
  by_cases h0 : γ * T + θ = 0
  · rw [h0] at h
    have : ρ = 0 := abs_nonpos_iff.1 h
    exact ⟨fun _ => 0, 0, fun j => by rw [abs_zero]; positivity, by rw [abs_zero]; exact hθ, by simp [this]⟩
  · have hp : 0 < γ * T + θ := lt_of_le_of_ne (by positivity) (Ne.symm h0)
    set t := ρ / (γ * T + θ) with ht
    have ht1 : |t| ≤ 1 := by
      rw [ht, abs_div, abs_of_pos hp, div_le_one hp]
      exact h
    obtain ⟨sg, hs, hs'⟩ : ∃ sg : ℝ → ℝ, (∀ v, |sg v| ≤ 1) ∧ ∀ v, sg v * v = |v| := by
      refine ⟨fun v => if 0 ≤ v then 1 else -1, fun v => ?_, fun v => ?_⟩
      · dsimp only; split_ifs <;> simp
      · dsimp only
        split_ifs with h
        · rw [one_mul, abs_of_nonneg h]
        · rw [neg_one_mul, abs_of_neg (not_le.1 h)]
    refine ⟨fun j => t * γ * |r j| * sg (x j), t * θ, fun j => ?_, ?_, ?_⟩
    · rw [abs_mul, abs_mul, abs_mul, abs_abs, abs_of_nonneg hγ]
      calc |t| * γ * |r j| * |sg (x j)| ≤ 1 * γ * |r j| * 1 := by
            gcongr
            exact hs _
        _ = _ := by ring
    · rw [abs_mul, abs_of_nonneg hθ]
      calc |t| * θ ≤ 1 * θ := by gcongr
        _ = θ := one_mul _
    · have : ∑ j ∈ S, t * γ * |r j| * sg (x j) * x j = t * γ * T := by
        rw [hTd, mul_sum]
        refine sum_congr rfl fun j _ => ?_
        rw [mul_assoc _ _ (x j), hs']
        ring
      rw [this, ht]
      field_simp

end Linear
