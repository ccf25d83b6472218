import Verif.Lemmas.RoundBi
import Verif.Lemmas.RoundQRQ

/-!
# The orthogonal factors of the bidiagonal reduction in rounded arithmetic
-/

set_option linter.unusedSectionVars false

namespace Linear

open Spec Rnd Matrix
open Finset hiding val diag

variable {α : Type} [Flt α] [Rnd α] {m n : Nat}

/-- Accumulation of a reflection, on one column. -/
theorem Refl.acc {k m N : Nat} {e : ℝ} {x v t t' : Nat → α} {a : α} (h : Refl k m N e x v a) (hk : k < m)
    (hN : m ≤ N) (he : u α ≤ e) (hM : (N + 4) * e ≤ 1 / 100)
    (hskip : Flt.eq (v k) Flt.zero = true → ∀ j, k ≤ j → j < m → t' j = t j)
    (hrow : Flt.eq (v k) Flt.zero = false → ∀ j, k ≤ j → j < m → t' j = Flt.add (t j)
      (Flt.mul (Flt.neg (Flt.div (lsub k m (fun r => Flt.mul (t r) (v r)) Flt.zero)
        (Flt.mul a (v k)))) (v j)))
    (hf : ∀ j, k ≤ j → j < m → Rnd.fin (t' j)) :
    (∀ j, k ≤ j → j < m → Rnd.fin (t j)) ∧
    nrm (Ico k m) (fun i => val (t' i) - (val (t i) + rb k m (val a) (fun r => val (v r)) *
      (∑ r ∈ Ico k m, val (v r) * val (t r)) * tl k (fun r => val (v r)) i)) ≤
      36 * (N + 4) * e * nrm (Ico k m) (fun i => val (t i)) + 6 * √(N * η α) := by
  have hu := u_nonneg (α := α)
  have he0 : 0 ≤ e := hu.trans he
  have hη0 := η_nonneg (α := α)
  have he1 : e ≤ 1 / 100 := by nlinarith [show (0 : ℝ) ≤ N from Nat.cast_nonneg N]
  have hff := h.fin hk hN he hM k le_rfl hk
  have hzf : Flt.eq (v k) Flt.zero = true ↔ val (v k) = 0 := by rw [eq_iff hff zero_fin, val_zero]
  by_cases hne : val a = 0
  · have hb0 : rb k m (val a) (fun r => val (v r)) = 0 := if_pos hne
    have hz : Flt.eq (v k) Flt.zero = true := by
      cases hz : Flt.eq (v k) Flt.zero
      · exfalso
        have h1 := hf k le_rfl hk
        rw [hrow hz k le_rfl hk] at h1
        have h2 := neg_fin.1 (mul_fin (add_fin h1).2).1
        have h3 : Rnd.fin (Flt.mul a (v k)) :=
          mul_ok h.ok.fin hff (by rw [hne, zero_mul, abs_zero]; linarith [four_le_big (α := α)])
        exact div_ne h2 h3 (mul_of_zero h3 hne)
      · rfl
    refine ⟨fun j h1 h2 => hskip hz j h1 h2 ▸ hf j h1 h2, ?_⟩
    rw [hb0]
    have e1 : ∀ i ∈ Ico k m, val (t' i) - (val (t i) + 0 * (∑ r ∈ Ico k m, val (v r) * val (t r)) *
        tl k (fun r => val (v r)) i) = 0 := fun i hi => by
      rw [hskip hz i (mem_Ico.1 hi).1 (mem_Ico.1 hi).2]; ring
    rw [nrm_congr e1, nrm_zero]
    exact add_nonneg (mul_nonneg (by positivity) nrm_nonneg) (by positivity)
  · obtain ⟨H, -, hfD, -⟩ := hhr_gen hk hN he hM h.norm hne (h.ok.low.resolve_left hne) (h.head (h.ne hne))
      h.rest h.ok.high
    have hz : Flt.eq (v k) Flt.zero = false := by
      cases hz : Flt.eq (v k) Flt.zero
      · rfl
      · exact absurd (hzf.1 hz) H.head_ne
    have hft : ∀ j, k ≤ j → j < m → Rnd.fin (t j) := by
      intro j h1 h2
      have := hf j h1 h2
      rw [hrow hz j h1 h2] at this
      exact (add_fin this).1
    refine ⟨hft, ?_⟩
    have hb0 : rb k m (val a) (fun r => val (v r)) = -2 / ∑ r ∈ Ico k m, val (v r) ^ 2 := if_neg hne
    rw [hb0]
    have hal : Rnd.fin (Flt.div (lsub k m (fun r => Flt.mul (t r) (v r)) Flt.zero) (Flt.mul a (v k))) := by
      have h1 := hf k le_rfl hk
      rw [hrow hz k le_rfl hk] at h1
      exact neg_fin.1 (mul_fin (add_fin h1).2).1
    have H2 := apply_cols (t := t) (t' := t') hk hN he hM h.norm hne (h.ok.low.resolve_left hne)
      (h.head (h.ne hne)) h.rest h.ok.high hal (by
      intro i h1 h2
      have h3 := hf i h1 h2
      rw [hrow hz i h1 h2] at h3 ⊢
      have h4 := add_mul_err h3 he he1
      rw [val_neg hal, neg_neg] at h4
      exact h4)
    refine le_trans (le_of_eq (nrm_congr fun i hi => ?_)) H2
    rw [← reflV_eq (m := m) (fun i => val (v i)) (fun i => val (t i)) i (mem_Ico.1 hi).1]

/-- One step of the accumulation. -/
theorem Bi.AStep.round {N k : Nat} {e : ℝ} {d : α} {x v : Nat → α} {q q' : Nat → Nat → α} (hs : Bi.AStep m k d v q q')
    (hr : Refl k m N e x v d) (hk : k < m) (hN : m ≤ N) (he : Rnd.u α ≤ e) (hM : (N + 4) * e ≤ 1 / 100)
    (hq : ∀ i j, i < m → j < m → (i < k + 1 ∨ j < k + 1) → q i j = Flt.zero)
    (hf : ∀ i j, k ≤ i → i < m → k ≤ j → j < m → fin (q' i j)) :
    (∀ i j, k + 1 ≤ i → i < m → k + 1 ≤ j → j < m → fin (q i j)) ∧ ∀ j,
      cnorm (mx m m (pad k (vals q')) - hh m k (fun r => val (v r)) (rb k m (val d) fun r => val (v r)) *
        mx m m (pad (k + 1) (vals q))) j ≤
      36 * (N + 4) * e * cnorm (mx m m (pad (k + 1) (vals q))) j + 6 * √(N * Rnd.η α) := by
  have hu := u_nonneg (α := α)
  have he0 : 0 ≤ e := hu.trans he
  have hcol : ∀ j, k ≤ j → j < m → _ := fun j h1 h2 => hr.acc (t := fun i => upd2 q k k Flt.one i j)
    (t' := fun i => q' i j) hk hN he hM (fun hz i _ _ => by rw [hs.skip hz])
    (fun hz i h3 h4 => hs.cols hz i j h3 h4 h1 h2) (fun i h3 h4 => hf i j h3 h4 h1 h2)
  have hpad : ∀ i j, k ≤ i → i < m → k ≤ j → j < m →
      val (upd2 q k k Flt.one i j) = pad (k + 1) (vals q) i j := by
    intro i j h1 h1' h2 h2'
    rw [upd2_eq]
    by_cases e : i = k ∧ j = k
    · rw [if_pos e, pad_lo (by omega), if_pos (by omega), val_one]
    · rw [if_neg e]
      by_cases e' : i < k + 1 ∨ j < k + 1
      · rw [pad_lo e', hq i j h1' h2' e', if_neg (by omega), val_zero]
      · rw [pad_hi (by omega) (by omega)]; rfl
  refine ⟨fun a b h1 h2 h3 h4 => ?_, fun j => ?_⟩
  · have := (hcol b (by omega) h4).1 a (by omega) h2
    rwa [upd2_eq, if_neg (by omega)] at this
  rw [hh_mul]
  have e0 : mx m m (pad k (vals q')) - (mx m m fun i j => pad (k + 1) (vals q) i j +
      rb k m (val d) (fun r => val (v r)) * (∑ r ∈ Ico k m, val (v r) * pad (k + 1) (vals q) r j) *
        tl k (fun r => val (v r)) i) =
      mx m m fun i j => pad k (vals q') i j - (pad (k + 1) (vals q) i j +
      rb k m (val d) (fun r => val (v r)) * (∑ r ∈ Ico k m, val (v r) * pad (k + 1) (vals q) r j) *
        tl k (fun r => val (v r)) i) := rfl
  rw [e0, cnorm_mx, cnorm_mx]
  clear e0
  have hsub : Ico k m ⊆ range m := fun i hi => mem_range.2 (mem_Ico.1 hi).2
  have hlow : ∀ r, r < k → pad k (vals q') r j - (pad (k + 1) (vals q) r j +
      rb k m (val d) (fun r => val (v r)) * (∑ r ∈ Ico k m, val (v r) * pad (k + 1) (vals q) r j) *
        tl k (fun r => val (v r)) r) = 0 := by
    intro r hr
    rw [tl, if_neg (by omega), mul_zero, _root_.add_zero, sub_eq_zero, pad_lo (by omega), pad_lo (by omega)]
  have hnr : ∀ g : ℕ → ℝ, (∀ i, i < k → g i = 0) → Spec.nrm (range m) g = Spec.nrm (Ico k m) g := by
    intro g hg
    unfold Spec.nrm
    rw [sum_subset hsub fun i h1 h2 => ?_]
    have : i < k := by
      by_contra h3
      exact h2 (mem_Ico.2 ⟨by omega, mem_range.1 h1⟩)
    rw [hg i this, zero_pow (by norm_num)]
  rw [hnr _ hlow]
  refine le_trans ?_ (add_le_add (mul_le_mul_of_nonneg_left (nrm_mono_set hsub)
    (show 0 ≤ 36 * ((N : ℝ) + 4) * e by positivity)) le_rfl)
  by_cases hj : (j : ℕ) < k
  · have hz : ∀ r ∈ Ico k m, pad k (vals q') r j - (pad (k + 1) (vals q) r j +
        rb k m (val d) (fun r => val (v r)) * (∑ r ∈ Ico k m, val (v r) * pad (k + 1) (vals q) r j) *
          tl k (fun r => val (v r)) r) = 0 := by
      intro r hr
      have hr' := mem_Ico.1 hr
      have : ∑ x ∈ Ico k m, val (v x) * pad (k + 1) (vals q) x j = 0 :=
        sum_eq_zero fun x hx => by
          have := mem_Ico.1 hx
          rw [pad_lo (by omega), if_neg (by omega), mul_zero]
      rw [this, pad_lo (by omega), pad_lo (by omega)]
      ring
    rw [nrm_congr hz, nrm_zero]
    exact add_nonneg (mul_nonneg (by positivity) nrm_nonneg) (by positivity)
  · have hr := (hcol j (by omega) j.2).2
    have e1 : Spec.nrm (Ico k m) (fun r => val (upd2 q k k Flt.one r j)) =
        Spec.nrm (Ico k m) fun r => pad (k + 1) (vals q) r j :=
      nrm_congr fun r hr => hpad r j (mem_Ico.1 hr).1 (mem_Ico.1 hr).2 (by omega) j.2
    rw [e1] at hr
    refine le_trans (le_of_eq (nrm_congr fun r hr => ?_)) hr
    have e2 : ∑ x ∈ Ico k m, val (v x) * val (upd2 q k k Flt.one x j) =
        ∑ x ∈ Ico k m, val (v x) * pad (k + 1) (vals q) x j :=
      sum_congr rfl fun x hx => by rw [hpad x j (mem_Ico.1 hx).1 (mem_Ico.1 hx).2 (by omega) j.2]
    rw [e2, hpad r j (mem_Ico.1 hr).1 (mem_Ico.1 hr).2 (by omega) j.2, pad_hi (mem_Ico.1 hr).1 (by omega)]
    rfl

/-- The invariant of the accumulation. -/
def Bi.ARnd (m N : Nat) (e : ℝ) (H : Nat → Matrix (Fin m) (Fin m) ℝ) (off p k : Nat) (q : Nat → Nat → α) :
    Prop :=
  (∀ i j, i < m → j < m → (i < k ∨ j < k) → q i j = Flt.zero) ∧
    ((∀ i j, k ≤ i → i < m → k ≤ j → j < m → fin (q i j)) → ∀ j,
      cnorm (mx m m (pad k (vals q)) - hfrom m H (k - off) (p - off)) j ≤
        ((1 + 36 * (N + 4) * e) ^ (p - k) - 1) + (p - k : ℕ) * (1 + 36 * (N + 4) * e) ^ (p - k) * (6 * √(N * Rnd.η α)))

theorem Bi.ARnd.init {N : Nat} {e : ℝ} (H : Nat → Matrix (Fin m) (Fin m) ℝ) (off p : Nat) {q : Nat → Nat → α}
    (h : ∀ i j, i < m → j < m → q i j = Bi.fillEnt p i j) : Bi.ARnd m N e H off p p q := by
  refine ⟨fun i j hi hj hij => ?_, fun _ j => ?_⟩
  · rw [h i j hi hj, Bi.fillEnt, if_neg (by omega)]
  · have e1 : mx m m (pad p (vals q)) - hfrom m H (p - off) (p - off) = mx m m fun _ _ => 0 := by
      rw [hfrom_self, ← mx_one]
      ext a b
      show pad p (vals q) a b - (if (a : ℕ) = b then (1 : ℝ) else 0) = 0
      rw [sub_eq_zero]
      by_cases e : (a : ℕ) < p ∨ (b : ℕ) < p
      · rw [pad_lo e]
      · rw [pad_hi (by omega) (by omega), vals, h a b a.2 b.2, Bi.fillEnt]
        by_cases e' : (a : ℕ) = b
        · rw [if_pos (by omega), if_pos e', val_one]
        · rw [if_neg (by omega), if_neg e', val_zero]
    rw [e1, cnorm_mx, nrm_zero]
    simp

theorem Bi.ARnd.step {N : Nat} {e : ℝ} {H : Nat → Matrix (Fin m) (Fin m) ℝ} {off p k : Nat} {d : α}
    {x v : Nat → α} {q q' : Nat → Nat → α} (hk : k < p) (hkm : k < m) (ho : off ≤ k) (hN : m ≤ N)
    (he : Rnd.u α ≤ e) (hM : (N + 4) * e ≤ 1 / 100) (h : Bi.ARnd m N e H off p (k + 1) q)
    (hs : Bi.AStep m k d v q q') (hr : Refl k m N e x v d)
    (hH : H (k - off) = hh m k (fun r => val (v r)) (rb k m (val d) fun r => val (v r)))
    (ht : ∀ i, i < p - off → (H i)ᵀ = H i) (hsq : ∀ i, i < p - off → H i * H i = 1) :
    Bi.ARnd m N e H off p k q' := by
  have hu := u_nonneg (α := α)
  have he0 : 0 ≤ e := hu.trans he
  obtain ⟨hq, hI⟩ := h
  refine ⟨fun i j hi hj hij => by rw [hs.other i j hij, hq i j hi hj (by omega)], fun hf j => ?_⟩
  obtain ⟨h1, h2⟩ := hs.round hr hkm hN he hM hq hf
  have h3 := hI h1 j
  have h4 := h2 j
  rw [← hH] at h4
  have hHs : (H (k - off))ᵀ * H (k - off) = 1 := by rw [ht _ (by omega)]; exact hsq _ (by omega)
  rw [hfrom_step H (show k - off < p - off by omega)]
  rw [show k + 1 - off = k - off + 1 by omega] at h3
  have hP1 := cnorm_orth_one (hfrom_orth (H := H) (j := k - off + 1) ht hsq) j
  generalize hfrom m H (k - off + 1) (p - off) = P at *
  generalize H (k - off) = H at *
  generalize mx m m (pad k (vals q')) = R' at *
  generalize mx m m (pad (k + 1) (vals q)) = R at *
  have g1 : R' - H * P = (R' - H * R) + H * (R - P) := by
    rw [Matrix.mul_sub]
    abel
  have g3 := cnorm_add_le (R - P) P j
  rw [sub_add_cancel, hP1] at g3
  have g4 := cnorm_add_le (R' - H * R) (H * (R - P)) j
  rw [← g1, cnorm_orth hHs] at g4
  rw [show p - k = p - (k + 1) + 1 by omega]
  have := err_step (b := 1) (c := p - (k + 1)) (ε := 36 * (N + 4) * e) (ω := 6 * √(N * Rnd.η α)) (by positivity)
    (by positivity) (by rw [mul_one]; exact h3) g3 (g4.trans (by linarith))
  rwa [mul_one] at this

end Linear
