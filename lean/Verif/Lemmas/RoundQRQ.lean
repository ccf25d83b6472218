import Verif.Lemmas.RoundQR

/-!
# The orthogonal factor of the QR decomposition in rounded arithmetic
-/

set_option linter.unusedSectionVars false

namespace Linear

open Spec Rnd Matrix
open Finset hiding val diag

variable {α : Type} [Flt α] [Rnd α] {m n : Nat}

theorem add_mul_err {x y z : α} {e : ℝ} (h : fin (Flt.add x (Flt.mul y z))) (he : u α ≤ e) (he1 : e ≤ 1 / 100) :
    |val (Flt.add x (Flt.mul y z)) - (val x - -val y * val z)| ≤
      3 * e * (|val x| + |-val y| * |val z|) + 2 * η α := by
  have hu := u_nonneg (α := α)
  have hη := η_nonneg (α := α)
  obtain ⟨f1, f2⟩ := add_fin h
  have h1 := (add_err h).1
  have h2 := (mul_err f2).1
  generalize val (Flt.add x (Flt.mul y z)) = s at *
  generalize val (Flt.mul y z) = q at *
  have hp : |val y * val z| = |val y| * |val z| := abs_mul _ _
  rw [hp] at h2
  rw [abs_neg, neg_mul, sub_neg_eq_add]
  generalize val y * val z = w at *
  have hW : 0 ≤ |val y| * |val z| := by positivity
  generalize |val y| * |val z| = W at *
  have a1 : |val x + q| ≤ |val x| + W + (u α * W + η α) := by
    have b1 := abs_add_le (val x + w) (q - w)
    have b2 := abs_add_le (val x) w
    rw [show val x + q = (val x + w) + (q - w) by ring]
    linarith
  have a2 : |s - (val x + w)| ≤ u α * |val x + q| + (u α * W + η α) := by
    have b1 := abs_add_le (s - (val x + q)) (q - w)
    rw [show s - (val x + w) = (s - (val x + q)) + (q - w) by ring]
    linarith
  have he0 := hu.trans he
  have a3 : u α * |val x + q| ≤ e * (|val x| + W + (e * W + η α)) := by
    gcongr
    exact a1.trans (by gcongr)
  have a4 : u α * W ≤ e * W := by gcongr
  have hX := abs_nonneg (val x)
  nlinarith [mul_nonneg he0 hX, mul_nonneg he0 hW, mul_nonneg he0 hη, mul_nonneg (mul_nonneg he0 hW) (sub_nonneg.2 he1)]

/-- One step of the accumulation, on one row. -/
theorem QR.qrow_step {e : ℝ} {A : Nat → Nat → α} {p k : Nat} {f : Nat → Nat → α} {d : Nat → α}
    (hk : k < m) (hkp : k < p) (he : u α ≤ e) (hM : (m + 4) * e ≤ 1 / 100)
    (hd : Scaled m e (d k)) (hI : QR.RInv m n e A p f d) {t t' : Nat → α}
    (hskip : Flt.eq (f k k) Flt.zero = true → t' = t)
    (hrow : Flt.eq (f k k) Flt.zero = false → ∀ j, k ≤ j → j < m → t' j = Flt.add (t j)
      (Flt.mul (Flt.neg (Flt.div (lsub k m (fun r => Flt.mul (t r) (f k r)) Flt.zero)
        (Flt.mul (d k) (f k k)))) (f k j)))
    (hf : ∀ j, k ≤ j → j < m → fin (t' j)) :
    (∀ j, k ≤ j → j < m → fin (t j)) ∧
    nrm (Ico k m) (fun i => val (t' i) - (val (t i) + QR.hb m (fun c r => val (f c r)) (fun c => val (d c)) k *
      (∑ r ∈ Ico k m, val (f k r) * val (t r)) * tl k (fun r => val (f k r)) i)) ≤
      36 * (m + 4) * e * nrm (Ico k m) (fun i => val (t i)) + 6 * √(m * η α) := by
  have hu := u_nonneg (α := α)
  have he0 : 0 ≤ e := hu.trans he
  have hη0 := η_nonneg (α := α)
  have he1 : e ≤ 1 / 100 := by nlinarith [show (0 : ℝ) ≤ m from Nat.cast_nonneg m]
  have hff := hI.vec k k hkp le_rfl hk
  have hzf : Flt.eq (f k k) Flt.zero = true ↔ val (f k k) = 0 := by rw [eq_iff hff zero_fin, val_zero]
  by_cases hne : val (d k) = 0
  · have hb0 : QR.hb m (fun c r => val (f c r)) (fun c => val (d c)) k = 0 := by
      unfold QR.hb
      rw [if_pos hne]
    have hz : Flt.eq (f k k) Flt.zero = true := by
      cases hz : Flt.eq (f k k) Flt.zero
      · exfalso
        have h1 := hf k le_rfl hk
        rw [hrow hz k le_rfl hk] at h1
        have h2 := neg_fin.1 (mul_fin (add_fin h1).2).1
        have h3 : fin (Flt.mul (d k) (f k k)) :=
          mul_ok hd.fin hff (by rw [hne, zero_mul, abs_zero]; linarith [four_le_big (α := α)])
        exact div_ne h2 h3 (mul_of_zero h3 hne)
      · rfl
    rw [hskip hz] at hf ⊢
    refine ⟨hf, ?_⟩
    rw [hb0]
    have e1 : ∀ i ∈ Ico k m, val (t i) - (val (t i) + 0 * (∑ r ∈ Ico k m, val (f k r) * val (t r)) *
        tl k (fun r => val (f k r)) i) = 0 := fun i _ => by ring
    rw [nrm_congr e1, nrm_zero]
    exact add_nonneg (mul_nonneg (by positivity) nrm_nonneg) (by positivity)
  · obtain ⟨x, hx1, hx2, hx3⟩ := hI.src k hkp hne
    have hdf := hd.fin
    have hdl := hd.low.resolve_left hne
    have hdh := hd.high
    rw [hx1] at hx2 hdf hdl hdh
    have hne' := hne
    rw [hx1] at hne'
    obtain ⟨H, -, hfD, -⟩ := hhr_round (v := f k) hk le_rfl he hM hdf hne' hdl hx2 hx3 hdh
    have hz : Flt.eq (f k k) Flt.zero = false := by
      cases hz : Flt.eq (f k k) Flt.zero
      · rfl
      · exact absurd (hzf.1 hz) H.head_ne
    have hft : ∀ j, k ≤ j → j < m → fin (t j) := by
      intro j h1 h2
      have := hf j h1 h2
      rw [hrow hz j h1 h2] at this
      exact (add_fin this).1
    refine ⟨hft, ?_⟩
    have hb0 : QR.hb m (fun c r => val (f c r)) (fun c => val (d c)) k =
        -2 / ∑ r ∈ Ico k m, val (f k r) ^ 2 := by
      unfold QR.hb
      rw [if_neg hne]
    rw [hb0]
    have hal : fin (Flt.div (lsub k m (fun r => Flt.mul (t r) (f k r)) Flt.zero) (Flt.mul (d k) (f k k))) := by
      have h1 := hf k le_rfl hk
      rw [hrow hz k le_rfl hk] at h1
      exact neg_fin.1 (mul_fin (add_fin h1).2).1
    have hal' := hal
    rw [hx1] at hal'
    have H2 := apply_round (t := t) (t' := t') hk le_rfl he hM hdf hne' hdl hx2 hx3 hdh hal' (by
      intro i h1 h2
      have h3 := hf i h1 h2
      rw [hrow hz i h1 h2] at h3 ⊢
      have h4 := add_mul_err h3 he he1
      rw [val_neg hal, neg_neg] at h4
      rw [hx1] at h4 ⊢
      exact h4)
    refine le_trans (le_of_eq (nrm_congr fun i hi => ?_)) H2
    rw [← reflV_eq (m := m) (fun i => val (f k i)) (fun i => val (t i)) i (mem_Ico.1 hi).1]

/-- Norm of the columns of an orthogonal matrix. -/
theorem cnorm_one (j : Fin m) : cnorm (1 : Matrix (Fin m) (Fin m) ℝ) j = 1 := by
  unfold cnorm
  have : ∑ i, (1 : Matrix (Fin m) (Fin m) ℝ) i j ^ 2 = 1 := by
    rw [Finset.sum_eq_single j]
    · simp
    · intro i _ h; simp [Matrix.one_apply_ne h]
    · simp
  rw [this, Real.sqrt_one]

theorem cnorm_orth_one {Q : Matrix (Fin m) (Fin m) ℝ} (h : Qᵀ * Q = 1) (j : Fin m) : cnorm Q j = 1 := by
  have := cnorm_orth h 1 j
  rwa [Matrix.mul_one, cnorm_one] at this

theorem hfrom_orth {H : Nat → Matrix (Fin m) (Fin m) ℝ} {j k : Nat}
    (ht : ∀ i, i < k → (H i)ᵀ = H i) (hs : ∀ i, i < k → H i * H i = 1) :
    (hfrom m H j k)ᵀ * hfrom m H j k = 1 :=
  hprod_orth' (fun i hi => ht _ (by omega)) fun i hi => hs _ (by omega)

/-- The rows of the accumulated matrix are nearly those of the transpose of the product of the exact
reflections. -/
theorem QR.qT_round (hm : 0 < m) (hn : 0 < n) (s : QR α m n (min m n)) :
    ∃ (M : Mat α m m) (q : Nat → Nat → α), s.qT = .ok ⟨m, m, M⟩ ∧ M.dense ∧ Shows M.at m m q ∧
      ∀ (e : ℝ) (A : Nat → Nat → α), u α ≤ e → (m + 4) * e ≤ 1 / 100 →
      (∀ i, i < min m n → Scaled m e (s.rDiag.f i)) → QR.RInv m n e A (min m n) s.qrt.f s.rDiag.f →
      (∀ i j, i < m → j < m → fin (q i j)) → ∀ i : Fin m,
        cnorm (mx m m (fun r c => val (q c r)) -
          hprod m (QR.hx m (fun c r => val (s.qrt.f c r)) (fun c => val (s.rDiag.f c))) (min m n)) i ≤
        ((1 + 36 * (m + 4) * e) ^ min m n - 1) +
          (min m n : ℕ) * (1 + 36 * (m + 4) * e) ^ min m n * (6 * √(m * η α)) := by
  obtain ⟨M, q, e1, h1, h2, -, h3⟩ := QR.qT_wp hm hn s (fun k q =>
    (∀ i j, (i < k ∨ j < k) → q i j = Flt.zero) ∧
    ∀ (e : ℝ) (A : Nat → Nat → α), u α ≤ e → (m + 4) * e ≤ 1 / 100 →
      (∀ i, i < min m n → Scaled m e (s.rDiag.f i)) → QR.RInv m n e A (min m n) s.qrt.f s.rDiag.f →
      (∀ i j, k ≤ i → i < m → k ≤ j → j < m → fin (q i j)) → ∀ i : Fin m,
        cnorm (mx m m (fun r c => pad k (fun i j => val (q i j)) c r) -
          hfrom m (QR.hx m (fun c r => val (s.qrt.f c r)) (fun c => val (s.rDiag.f c))) k (min m n)) i ≤
        ((1 + 36 * (m + 4) * e) ^ (min m n - k) - 1) +
          (min m n - k : ℕ) * (1 + 36 * (m + 4) * e) ^ (min m n - k) * (6 * √(m * η α))) (by
      intro q hq
      refine ⟨fun i j hij => ?_, fun e A he hM hd hI hf i => ?_⟩
      · rw [hq, if_neg (by omega)]
      · have e1 : (mx m m fun r c => pad (min m n) (fun i j => val (q i j)) c r) - hfrom m (QR.hx m
            (fun c r => val (s.qrt.f c r)) (fun c => val (s.rDiag.f c))) (min m n) (min m n) =
            mx m m fun _ _ => 0 := by
          rw [hfrom_self, ← mx_one]
          ext a b
          show pad (min m n) (fun i j => val (q i j)) b a - (if (a : ℕ) = b then (1 : ℝ) else 0) = 0
          rw [sub_eq_zero]
          have ha := a.2
          by_cases e : (b : ℕ) < min m n ∨ (a : ℕ) < min m n
          · rw [pad_lo e]
            exact if_congr eq_comm rfl rfl
          · rw [pad_hi (by omega) (by omega), hq]
            by_cases e' : (a : ℕ) = b
            · rw [if_pos (by omega), if_pos e', val_one]
            · rw [if_neg (by omega), if_neg e', val_zero]
        rw [e1, cnorm_mx, nrm_zero]
        simp) (by
      rintro k q q' hkm hkn ⟨hq, hI'⟩ hs
      refine ⟨fun i j hij => by rw [hs.other i j hij, hq i j (by omega)], fun e A he hM hd hI hf i => ?_⟩
      have hu := u_nonneg (α := α)
      have he0 : 0 ≤ e := hu.trans he
      have hη0 := η_nonneg (α := α)
      have hkp : k < min m n := by omega
      -- the rows
      have hrow : ∀ i, k ≤ i → i < m → _ := fun i h1 h2 => QR.qrow_step (t := upd2 q k k Flt.one i)
        (t' := q' i) hkm hkp he hM (hd k hkp) hI (fun hz => by rw [hs.skip hz])
        (fun hz j h3 h4 => hs.rows hz i j h1 h2 h3 h4) (fun j h3 h4 => hf i j h1 h2 h3 h4)
      have hpad : ∀ i j, k ≤ i → k ≤ j → val (upd2 q k k Flt.one i j) = pad (k + 1) (fun i j => val (q i j)) i j := by
        intro i j h1 h2
        rw [upd2_eq]
        by_cases e : i = k ∧ j = k
        · rw [if_pos e, pad_lo (by omega), if_pos (by omega), val_one]
        · rw [if_neg e]
          by_cases e' : i < k + 1 ∨ j < k + 1
          · rw [pad_lo e', hq i j e', if_neg (by omega), val_zero]
          · rw [pad_hi (by omega) (by omega)]
      have hIe := hI' e A he hM hd hI (fun a b h1 h2 h3 h4 => by
        have := (hrow a (by omega) h2).1 b (by omega) h4
        rwa [upd2_eq, if_neg (by omega)] at this) i
      have hkey : cnorm (mx m m (fun r c => pad k (fun i j => val (q' i j)) c r) -
          QR.hx m (fun c r => val (s.qrt.f c r)) (fun c => val (s.rDiag.f c)) k *
            mx m m (fun r c => pad (k + 1) (fun i j => val (q i j)) c r)) i ≤
          36 * (m + 4) * e * cnorm (mx m m (fun r c => pad (k + 1) (fun i j => val (q i j)) c r)) i +
            6 * √(m * η α) := by
        unfold QR.hx
        rw [hh_mul]
        have e0 : mx m m (fun r c => pad k (fun i j => val (q' i j)) c r) -
            (mx m m fun r c => pad (k + 1) (fun i j => val (q i j)) c r +
              QR.hb m (fun c r => val (s.qrt.f c r)) (fun c => val (s.rDiag.f c)) k *
                (∑ x ∈ Ico k m, val (s.qrt.f k x) * pad (k + 1) (fun i j => val (q i j)) c x) *
                  tl k (fun r => val (s.qrt.f k r)) r) =
            mx m m fun r c => pad k (fun i j => val (q' i j)) c r -
              (pad (k + 1) (fun i j => val (q i j)) c r +
              QR.hb m (fun c r => val (s.qrt.f c r)) (fun c => val (s.rDiag.f c)) k *
                (∑ x ∈ Ico k m, val (s.qrt.f k x) * pad (k + 1) (fun i j => val (q i j)) c x) *
                  tl k (fun r => val (s.qrt.f k r)) r) := rfl
        rw [e0, cnorm_mx, cnorm_mx]
        clear e0
        have hsub : Ico k m ⊆ range m := fun i hi => mem_range.2 (mem_Ico.1 hi).2
        have hlow : ∀ r, r < k → pad k (fun i j => val (q' i j)) i r -
              (pad (k + 1) (fun i j => val (q i j)) i r +
              QR.hb m (fun c r => val (s.qrt.f c r)) (fun c => val (s.rDiag.f c)) k *
                (∑ x ∈ Ico k m, val (s.qrt.f k x) * pad (k + 1) (fun i j => val (q i j)) i x) *
                  tl k (fun r => val (s.qrt.f k r)) r) = 0 := by
          intro r hr
          rw [tl, if_neg (by omega), mul_zero, _root_.add_zero, sub_eq_zero, pad_lo (by omega), pad_lo (by omega)]
        have hnr : ∀ g : ℕ → ℝ, (∀ i, i < k → g i = 0) → nrm (range m) g = nrm (Ico k m) g := by
          intro g hg
          unfold nrm
          rw [sum_subset hsub fun i _ h2 => ?_]
          have : i < k := by
            by_contra h3
            exact h2 (mem_Ico.2 ⟨by omega, by rename_i h1; exact mem_range.1 h1⟩)
          rw [hg i this, zero_pow (by norm_num)]
        rw [hnr _ hlow]
        refine le_trans ?_ (add_le_add (mul_le_mul_of_nonneg_left (nrm_mono_set hsub)
          (show 0 ≤ 36 * ((m : ℝ) + 4) * e by positivity)) le_rfl)
        by_cases hi : (i : ℕ) < k
        · have hz : ∀ r ∈ Ico k m, pad k (fun i j => val (q' i j)) i r -
              (pad (k + 1) (fun i j => val (q i j)) i r +
              QR.hb m (fun c r => val (s.qrt.f c r)) (fun c => val (s.rDiag.f c)) k *
                (∑ x ∈ Ico k m, val (s.qrt.f k x) * pad (k + 1) (fun i j => val (q i j)) i x) *
                  tl k (fun r => val (s.qrt.f k r)) r) = 0 := by
            intro r hr
            have hr' := mem_Ico.1 hr
            have : ∑ x ∈ Ico k m, val (s.qrt.f k x) * pad (k + 1) (fun i j => val (q i j)) i x = 0 :=
              sum_eq_zero fun x hx => by
                have := mem_Ico.1 hx
                rw [pad_lo (by omega), if_neg (by omega), mul_zero]
            rw [this, pad_lo (by omega), pad_lo (by omega)]
            ring
          rw [nrm_congr hz, nrm_zero]
          exact add_nonneg (mul_nonneg (by positivity) nrm_nonneg) (by positivity)
        · have hr := (hrow i (by omega) i.2).2
          have e1 : nrm (Ico k m) (fun r => val (upd2 q k k Flt.one i r)) =
              nrm (Ico k m) fun r => pad (k + 1) (fun i j => val (q i j)) i r :=
            nrm_congr fun r hr => hpad i r (by omega) (mem_Ico.1 hr).1
          rw [e1] at hr
          refine le_trans (le_of_eq (nrm_congr fun r hr => ?_)) hr
          have e2 : ∑ x ∈ Ico k m, val (s.qrt.f k x) * val (upd2 q k k Flt.one i x) =
              ∑ x ∈ Ico k m, val (s.qrt.f k x) * pad (k + 1) (fun i j => val (q i j)) i x :=
            sum_congr rfl fun x hx => by rw [hpad i x (by omega) (mem_Ico.1 hx).1]
          rw [e2, hpad i r (by omega) (mem_Ico.1 hr).1, pad_hi (by omega) (mem_Ico.1 hr).1]
      have hHt : (QR.hx m (fun c r => val (s.qrt.f c r)) (fun c => val (s.rDiag.f c)) k)ᵀ =
          QR.hx m (fun c r => val (s.qrt.f c r)) (fun c => val (s.rDiag.f c)) k := hh_transpose _ _ _ _
      have hHs : (QR.hx m (fun c r => val (s.qrt.f c r)) (fun c => val (s.rDiag.f c)) k)ᵀ *
          QR.hx m (fun c r => val (s.qrt.f c r)) (fun c => val (s.rDiag.f c)) k = 1 := by
        rw [hHt]; exact hh_sq (hI.refl k hkp)
      rw [hfrom_step _ hkp]
      have hPo : (hfrom m (QR.hx m (fun c r => val (s.qrt.f c r)) (fun c => val (s.rDiag.f c))) (k + 1)
          (min m n))ᵀ * hfrom m (QR.hx m (fun c r => val (s.qrt.f c r)) (fun c => val (s.rDiag.f c))) (k + 1)
          (min m n) = 1 := hfrom_orth (fun i _ => hh_transpose _ _ _ _) fun i hi => hh_sq (hI.refl i hi)
      have hP1 := cnorm_orth_one hPo i
      generalize QR.hx m (fun c r => val (s.qrt.f c r)) (fun c => val (s.rDiag.f c)) k = H at *
      generalize hfrom m (QR.hx m (fun c r => val (s.qrt.f c r)) (fun c => val (s.rDiag.f c))) (k + 1)
          (min m n) = P at *
      generalize (mx m m fun r c => pad k (fun i j => val (q' i j)) c r) = R' at *
      generalize (mx m m fun r c => pad (k + 1) (fun i j => val (q i j)) c r) = R at *
      have h1 : R' - H * P = (R' - H * R) + H * (R - P) := by
        rw [Matrix.mul_sub]
        abel
      have h3 := cnorm_add_le (R - P) P i
      rw [sub_add_cancel, hP1] at h3
      have h4 := cnorm_add_le (R' - H * R) (H * (R - P)) i
      rw [← h1, cnorm_orth hHs] at h4
      have hε : 0 ≤ 36 * ((m : ℝ) + 4) * e := by positivity
      have hω : 0 ≤ 6 * √(m * η α) := by positivity
      generalize 36 * ((m : ℝ) + 4) * e = ε at *
      generalize 6 * √(m * η α) = ω at *
      generalize cnorm (R - P) i = b at *
      rw [show min m n - k = (min m n - (k + 1)) + 1 by omega]
      generalize min m n - (k + 1) = l at *
      have h5 : ε * cnorm R i ≤ ε * (b + 1) := by gcongr
      have h6 : (1 + ε) * b ≤ (1 + ε) * ((1 + ε) ^ l - 1 + l * (1 + ε) ^ l * ω) := by gcongr
      have h7 : ω ≤ (1 + ε) ^ (l + 1) * ω := le_mul_of_one_le_left hω (one_le_pow₀ (by linarith))
      rw [pow_succ] at h7 ⊢
      push_cast
      nlinarith)
  refine ⟨M, q, e1, h1, h2, fun e A he hM hd hI hf i => ?_⟩
  have := h3 e A he hM hd hI (fun i j _ hi _ hj => hf i j hi hj) i
  rw [Nat.sub_zero, hfrom_zero] at this
  have e2 : (mx m m fun r c => pad 0 (fun i j => val (q i j)) c r) = mx m m fun r c => val (q c r) :=
    mx_congr fun r c _ _ => pad_hi (Nat.zero_le _) (Nat.zero_le _)
  rwa [e2] at this

end Linear
