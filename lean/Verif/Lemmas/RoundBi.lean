import Verif.Lemmas.RoundFro
import Verif.Lemmas.BiLemmas

/-!
# The bidiagonal reduction in rounded arithmetic
-/

set_option linter.unusedSectionVars false

namespace Linear

open Spec Rnd Matrix
open Finset hiding val diag

variable {α : Type} [Flt α] [Rnd α] {m n : Nat}

/-- The signed norm of the reduction. -/
theorem Bi.nrm_normOf {k m : Nat} {x : Nat → α} (hk : k < m) (h : fin (Bi.nrm k m x)) :
    NormOf k m x (Bi.nrm k m x) := by
  have hs : SumOf (lsum k m (fun r => Flt.mul (x r) (x r)) Flt.zero)
      (over (Ico k m) fun r => Flt.mul (x r) (x r)) := by
    rw [over_Ico]; exact SumOf.left _ _ _
  have h' := h
  unfold Bi.nrm Bi.sign at h' ⊢
  generalize lsum k m (fun r => Flt.mul (x r) (x r)) Flt.zero = w at *
  have key : fin (Flt.sqrt w) := by
    split at h'
    · exact neg_fin.1 h'
    · exact h'
  obtain ⟨h1, h2, h3⟩ := sqrt_sq hs key
  rw [Nat.card_Ico] at h3
  have hb := sqrt_bound key
  have hf : ∀ i, k ≤ i → i < m → fin (x i) := fun i h4 h5 => h1 i (mem_Ico.2 ⟨h4, h5⟩)
  have hfk := hf k le_rfl hk
  refine ⟨h', hf, ?_, ?_, ?_⟩ <;> split_ifs with hc
  · rw [lt_iff zero_fin hfk, val_zero] at hc
    rw [val_neg key]
    nlinarith
  · rw [lt_iff zero_fin hfk, val_zero, not_lt] at hc
    exact mul_nonpos_of_nonpos_of_nonneg hc h2
  · rw [val_neg key, neg_sq]; exact h3
  · exact h3
  · rw [val_neg key, neg_sq]; exact hb
  · exact hb

theorem Bi.Pass.refl {N i0 k : Nat} {e : ℝ} {f f' : Nat → Nat → α} {a : α} (h : Bi.Pass m n i0 k f f' a)
    (hn : NormOf i0 m (fun i => f i k) a) (hs : Scaled N e a) :
    Refl i0 m N e (fun i => f i k) (fun i => f' i k) a :=
  ⟨hn, hs, h.head, fun hz => by rw [h.same hz], h.col⟩

/-- One pass is nearly the exact reflection of the whole matrix. -/
theorem Bi.Pass.round {N i0 k : Nat} {e : ℝ} {f f' : Nat → Nat → α} {a : α} (h : Bi.Pass m n i0 k f f' a)
    (hi : i0 < m) (hN : m ≤ N) (hnN : n ≤ N) (he : Rnd.u α ≤ e) (hM : (N + 4) * e ≤ 1 / 100)
    (hn : NormOf i0 m (fun i => f i k) a) (hs : Scaled N e a)
    (hf : ∀ i j, i0 ≤ i → i < m → k < j → j < n → fin (f' i j)) {M M' : Nat → Nat → ℝ}
    (h1 : ∀ i j, i0 ≤ i → i < m → k ≤ j → j < n → M i j = val (f i j))
    (h2 : ∀ i j, i0 ≤ i → i < m → j < k → M i j = 0)
    (h3 : ∀ i j, i < i0 → j < n → M' i j = M i j)
    (h4 : ∀ i j, i0 ≤ i → i < m → j < n →
      M' i j = if j < k then 0 else if j = k then (if i = i0 then val a else 0) else val (f' i j)) :
    fro (mx m n M' - hh m i0 (fun r => val (f' r k)) (rb i0 m (val a) fun r => val (f' r k)) * mx m n M) ≤
      36 * (N + 4) * e * fro (mx m n M) + √N * (6 * √(N * η α)) := by
  have hu := u_nonneg (α := α)
  have he0 : 0 ≤ e := hu.trans he
  have hε : 0 ≤ 36 * ((N : ℝ) + 4) * e := by positivity
  have hω : 0 ≤ 6 * √(N * η α) := by positivity
  have hr := h.refl hn hs
  refine fro_of_cols hε hω hnN fun j => ?_
  rw [hh_mul]
  have e0 : mx m n M' - (mx m n fun i j => M i j + rb i0 m (val a) (fun r => val (f' r k)) *
      (∑ r ∈ Ico i0 m, val (f' r k) * M r j) * tl i0 (fun r => val (f' r k)) i) =
      mx m n fun i j => M' i j - (M i j + rb i0 m (val a) (fun r => val (f' r k)) *
      (∑ r ∈ Ico i0 m, val (f' r k) * M r j) * tl i0 (fun r => val (f' r k)) i) := rfl
  rw [e0, cnorm_mx, cnorm_mx]
  clear e0
  have hlow : ∀ i, i < i0 → M' i j - (M i j + rb i0 m (val a) (fun r => val (f' r k)) *
      (∑ r ∈ Ico i0 m, val (f' r k) * M r j) * tl i0 (fun r => val (f' r k)) i) = 0 := by
    intro i hi'
    rw [tl, if_neg (by omega), mul_zero, _root_.add_zero, h3 i j hi' j.2, sub_self]
  have hsub : Ico i0 m ⊆ range m := fun i hi => mem_range.2 (mem_Ico.1 hi).2
  have hnr : ∀ g : ℕ → ℝ, (∀ i, i < i0 → g i = 0) → Spec.nrm (range m) g = Spec.nrm (Ico i0 m) g := by
    intro g hg
    unfold Spec.nrm
    rw [sum_subset hsub fun i h1 h2 => ?_]
    have : i < i0 := by
      by_contra h3
      exact h2 (mem_Ico.2 ⟨by omega, mem_range.1 h1⟩)
    rw [hg i this, zero_pow (by norm_num)]
  rw [hnr _ hlow]
  refine le_trans ?_ (add_le_add (mul_le_mul_of_nonneg_left (nrm_mono_set hsub) hε) le_rfl)
  rcases lt_trichotomy (j : ℕ) k with hj | hj | hj
  · have hz' : ∀ i ∈ Ico i0 m, M' i j - (M i j + rb i0 m (val a) (fun r => val (f' r k)) *
      (∑ r ∈ Ico i0 m, val (f' r k) * M r j) * tl i0 (fun r => val (f' r k)) i) = 0 := by
      intro i hi'
      obtain ⟨b1, b2⟩ := mem_Ico.1 hi'
      rw [sum_eq_zero fun r hr => by rw [h2 r j (mem_Ico.1 hr).1 (mem_Ico.1 hr).2 hj, mul_zero],
        h2 i j b1 b2 hj, h4 i j b1 b2 j.2, if_pos hj]
      ring
    rw [nrm_congr hz', nrm_zero]
    exact add_nonneg (mul_nonneg (by positivity) nrm_nonneg) (by positivity)
  · have hR : ∀ r ∈ Ico i0 m, M r j = val (f r k) := fun r hr => by
      rw [h1 r j (mem_Ico.1 hr).1 (mem_Ico.1 hr).2 (by omega) j.2, hj]
    have H := hr.own hi hN he hM
    rw [nrm_congr hR]
    refine le_trans (le_of_eq (nrm_congr fun i hi' => ?_)) H
    rw [hR i hi', sum_congr rfl fun r hr => by rw [hR r hr], h4 i j (mem_Ico.1 hi').1 (mem_Ico.1 hi').2 j.2,
      if_neg (by omega), if_pos hj]
  · have hR : ∀ r ∈ Ico i0 m, M r j = val (f r j) := fun r hr => by
      rw [h1 r j (mem_Ico.1 hr).1 (mem_Ico.1 hr).2 (by omega) j.2]
    have H := hr.app (t := fun r => f r j) (t' := fun r => f' r j) hi hN he hM
      (fun hz i _ _ => by rw [h.same hz]) (fun hz i b1 b2 => h.cols hz i j b1 b2 hj j.2)
      (fun i b1 b2 => hf i j b1 b2 hj j.2)
    rw [nrm_congr hR]
    refine le_trans (le_of_eq (nrm_congr fun i hi' => ?_)) H
    rw [hR i hi', sum_congr rfl fun r hr => by rw [hR r hr], h4 i j (mem_Ico.1 hi').1 (mem_Ico.1 hi').2 j.2,
      if_neg (by omega), if_neg (by omega)]

/-- A pass that leaves finite entries began with finite entries. -/
theorem Bi.Pass.back {i0 k : Nat} {f f' : Nat → Nat → α} {a : α} (h : Bi.Pass m n i0 k f f' a)
    (hn : NormOf i0 m (fun i => f i k) a) (hf : ∀ i j, i0 ≤ i → i < m → k < j → j < n → fin (f' i j)) :
    ∀ i j, i0 ≤ i → i < m → k ≤ j → j < n → fin (f i j) := by
  intro i j h1 h2 h3 h4
  by_cases ej : j = k
  · subst ej; exact hn.entries i h1 h2
  · have := hf i j h1 h2 (by omega) h4
    cases hz : Flt.eq a Flt.zero
    · rw [h.cols hz i j h1 h2 (by omega) h4] at this
      exact (sub_fin this).1
    · rwa [h.same hz] at this

/-- Exact reflection `j` from the left. -/
noncomputable def Bi.XL (m : Nat) (f : Nat → Nat → ℝ) (d : Nat → ℝ) (j : Nat) : Matrix (Fin m) (Fin m) ℝ :=
  hh m j (fun r => f r j) (rb j m (d j) fun r => f r j)

/-- Exact reflection `j` from the right. -/
noncomputable def Bi.XR (n : Nat) (f : Nat → Nat → ℝ) (e : Nat → ℝ) (j : Nat) : Matrix (Fin n) (Fin n) ℝ :=
  hh n (j + 1) (f j) (rb (j + 1) n (e j) (f j))

/-- The values of a table. -/
noncomputable def vals (f : Nat → Nat → α) : Nat → Nat → ℝ := fun i j => val (f i j)

/-- The values of a list. -/
noncomputable def vals1 (d : Nat → α) : Nat → ℝ := fun i => val (d i)

/-- What is known of the reduction before round `k`. -/
structure Bi.RInv (m n N : Nat) (ε : ℝ) (A : Nat → Nat → α) (k : Nat) (f : Nat → Nat → α) (d e : Nat → α) :
    Prop where
  fin : ∀ i j, i < m → j < n → fin (A i j)
  left : ∀ j, j < k → ∃ x, Refl j m N ε x (fun r => f r j) (d j)
  right : ∀ j, j < min k (n - 1) → ∃ x, Refl (j + 1) n N ε x (f j) (e j)
  err : fro (mx m n (Bi.M k (vals f) (vals1 d) (vals1 e)) -
      (hprod m (Bi.XL m (vals f) (vals1 d)) k)ᵀ * mx m n (vals A) *
        hprod n (Bi.XR n (vals f) (vals1 e)) (min k (n - 1))) ≤
    ((1 + 36 * (N + 4) * ε) ^ (k + min k (n - 1)) - 1) * fro (mx m n (vals A)) +
      (k + min k (n - 1) : ℕ) * (1 + 36 * (N + 4) * ε) ^ (k + min k (n - 1)) * (√N * (6 * √(N * η α)))

/-- The finiteness of the results, at round `k`. -/
structure Bi.RFin (m n N : Nat) (ε : ℝ) (k : Nat) (f : Nat → Nat → α) (d e : Nat → α) : Prop where
  diag : ∀ i, i < k → Scaled N ε (d i)
  sec : ∀ i, i < min k (n - 1) → Scaled N ε (e i)
  rest : ∀ i j, k ≤ i → i < m → k ≤ j → j < n → fin (f i j)

/-- The error after one more reflection. -/
theorem err_step {c : Nat} {ε ω b q r x : ℝ} (hε : 0 ≤ ε) (hω : 0 ≤ ω) 
    (hq : q ≤ ((1 + ε) ^ c - 1) * b + c * (1 + ε) ^ c * ω) (hr : r ≤ q + b) (hx : x ≤ (ε * r + ω) + q) :
    x ≤ ((1 + ε) ^ (c + 1) - 1) * b + (c + 1 : ℕ) * (1 + ε) ^ (c + 1) * ω := by
  have h5 : ε * r ≤ ε * (q + b) := by gcongr
  have h6 : (1 + ε) * q ≤ (1 + ε) * (((1 + ε) ^ c - 1) * b + c * (1 + ε) ^ c * ω) := by gcongr
  have h7 : ω ≤ (1 + ε) ^ (c + 1) * ω := le_mul_of_one_le_left hω (one_le_pow₀ (by linarith))
  rw [pow_succ] at h7 ⊢
  push_cast
  nlinarith

/-- One more reflection from the left. -/
theorem left_step {c : Nat} {ε ω : ℝ} {P H : Matrix (Fin m) (Fin m) ℝ} {Q : Matrix (Fin n) (Fin n) ℝ}
    {A M M' : Matrix (Fin m) (Fin n) ℝ} (hε : 0 ≤ ε) (hω : 0 ≤ ω) (hP : Pᵀ * P = 1) (hQ : Q * Qᵀ = 1)
    (hH : Hᵀ * H = 1) (h : fro (M - P * A * Q) ≤ ((1 + ε) ^ c - 1) * fro A + c * (1 + ε) ^ c * ω)
    (h' : fro (M' - H * M) ≤ ε * fro M + ω) :
    fro (M' - H * P * A * Q) ≤ ((1 + ε) ^ (c + 1) - 1) * fro A + (c + 1 : ℕ) * (1 + ε) ^ (c + 1) * ω := by
  have h1 : M' - H * P * A * Q = (M' - H * M) + H * (M - P * A * Q) := by
    rw [Matrix.mul_sub]
    simp only [Matrix.mul_assoc]
    abel
  have h2 : M = (M - P * A * Q) + P * A * Q := by abel
  have h3 := fro_add_le (M - P * A * Q) (P * A * Q)
  rw [← h2, fro_right hQ, fro_left hP] at h3
  have h4 := fro_add_le (M' - H * M) (H * (M - P * A * Q))
  rw [← h1, fro_left hH] at h4
  exact err_step hε hω h h3 (h4.trans (by linarith))

/-- One more reflection from the right. -/
theorem right_step {c : Nat} {ε ω : ℝ} {P : Matrix (Fin m) (Fin m) ℝ} {Q H : Matrix (Fin n) (Fin n) ℝ}
    {A M M' : Matrix (Fin m) (Fin n) ℝ} (hε : 0 ≤ ε) (hω : 0 ≤ ω) (hP : Pᵀ * P = 1) (hQ : Q * Qᵀ = 1)
    (hH : H * Hᵀ = 1) (h : fro (M - P * A * Q) ≤ ((1 + ε) ^ c - 1) * fro A + c * (1 + ε) ^ c * ω)
    (h' : fro (M' - M * H) ≤ ε * fro M + ω) :
    fro (M' - P * A * (Q * H)) ≤ ((1 + ε) ^ (c + 1) - 1) * fro A + (c + 1 : ℕ) * (1 + ε) ^ (c + 1) * ω := by
  have h1 : M' - P * A * (Q * H) = (M' - M * H) + (M - P * A * Q) * H := by
    rw [Matrix.sub_mul]
    simp only [Matrix.mul_assoc]
    abel
  have h2 : M = (M - P * A * Q) + P * A * Q := by abel
  have h3 := fro_add_le (M - P * A * Q) (P * A * Q)
  rw [← h2, fro_right hQ, fro_left hP] at h3
  have h4 := fro_add_le (M' - M * H) ((M - P * A * Q) * H)
  rw [← h1, fro_right hH] at h4
  exact err_step hε hω h h3 (h4.trans (by linarith))

theorem Refl.mono {k m N : Nat} {e : ℝ} {x v v' : Nat → α} {a a' : α} (h : Refl k m N e x v a) (hv : v' = v)
    (ha : a' = a) : Refl k m N e x v' a' := by rw [hv, ha]; exact h

theorem Bi.RInv.orthL {N k : Nat} {ε : ℝ} {A f : Nat → Nat → α} {d e : Nat → α} (h : Bi.RInv m n N ε A k f d e)
    (hkn : k ≤ m) (hN : m ≤ N) (he : Rnd.u α ≤ ε) (hM : (N + 4) * ε ≤ 1 / 100) :
    hprod m (Bi.XL m (vals f) (vals1 d)) k * (hprod m (Bi.XL m (vals f) (vals1 d)) k)ᵀ = 1 :=
  hprod_orth (fun _ _ => hh_transpose _ _ _ _) fun j hj => by
    obtain ⟨x, hx⟩ := h.left j hj
    exact hh_sq (hx.refl (by omega) hN he hM)

theorem Bi.RInv.orthR {N k : Nat} {ε : ℝ} {A f : Nat → Nat → α} {d e : Nat → α} (h : Bi.RInv m n N ε A k f d e)
    (hN : n ≤ N) (he : Rnd.u α ≤ ε) (hM : (N + 4) * ε ≤ 1 / 100) :
    hprod n (Bi.XR n (vals f) (vals1 e)) (min k (n - 1)) *
      (hprod n (Bi.XR n (vals f) (vals1 e)) (min k (n - 1)))ᵀ = 1 :=
  hprod_orth (fun _ _ => hh_transpose _ _ _ _) fun j hj => by
    obtain ⟨x, hx⟩ := h.right j hj
    exact hh_sq (hx.refl (by omega) hN he hM)

set_option maxHeartbeats 1600000 in
theorem Bi.rinv_step {N k : Nat} {ε : ℝ} {A f f' : Nat → Nat → α} {d d' e e' : Nat → α} (hk : k < n)
    (hnm : n ≤ m) (hN : m ≤ N) (he : Rnd.u α ≤ ε) (hM : (N + 4) * ε ≤ 1 / 100)
    (hr : Bi.Round m n k f f' d d' e e') (hI : Bi.RFin m n N ε k f d e → Bi.RInv m n N ε A k f d e)
    (hF : Bi.RFin m n N ε (k + 1) f' d' e') : Bi.RInv m n N ε A (k + 1) f' d' e' := by
  have hkm : k < m := by omega
  have hu := u_nonneg (α := α)
  have he0 : 0 ≤ ε := hu.trans he
  have hε : 0 ≤ 36 * ((N : ℝ) + 4) * ε := by positivity
  have hω : 0 ≤ √N * (6 * √(N * Rnd.η α)) := by positivity
  cases hr with
  | @mid hk' f1 h1 h2 hd he' =>
    have hdk : d' k = Bi.nrm k m fun i => f i k := by rw [hd, upd1_eq, if_pos rfl]
    have hek : e' k = Bi.nrm (k + 1) n (f1 k) := by rw [he', upd1_eq, if_pos rfl]
    have hdo : ∀ j, j < k → d' j = d j := fun j hj => by rw [hd, upd1_eq, if_neg (by omega)]
    have heo : ∀ j, j < k → e' j = e j := fun j hj => by rw [he', upd1_eq, if_neg (by omega)]
    have hcol : ∀ i j, j < k + 1 → f' i j = f1 i j := fun i j hj => h2.other j i (.inl hj)
    have hrow : ∀ i j, i < k → f' i j = f i j := fun i j hi =>
      (h2.other j i (.inr hi)).trans (h1.other i j (.inl hi))
    have hcolf : ∀ i j, j < k → f' i j = f i j := fun i j hj =>
      (hcol i j (by omega)).trans (h1.other i j (.inr hj))
    have hsd : Scaled N ε (Bi.nrm k m fun i => f i k) := hdk ▸ hF.diag k (by omega)
    have hse : Scaled N ε (Bi.nrm (k + 1) n (f1 k)) := hek ▸ hF.sec k (by omega)
    have hn1 := Bi.nrm_normOf hkm hsd.fin
    have hn2 := Bi.nrm_normOf hk' hse.fin
    have hf2 : ∀ i j, k + 1 ≤ i → i < n → k < j → j < m → Rnd.fin (f' j i) := fun i j b1 b2 b3 b4 =>
      hF.rest j i (by omega) b4 b1 b2
    have hb2 := h2.back hn2 hf2
    have hf1 : ∀ i j, k ≤ i → i < m → k < j → j < n → Rnd.fin (f1 i j) := fun i j b1 b2 b3 b4 =>
      hb2 j i b3 b4 b1 b2
    have hb1 := h1.back hn1 hf1
    have hI := hI ⟨fun i hi => hdo i hi ▸ hF.diag i (by omega), fun i hi => heo i (by omega) ▸
      hF.sec i (by omega), hb1⟩
    have eL : ∀ j, j < k → Bi.XL m (vals f') (vals1 d') j = Bi.XL m (vals f) (vals1 d) j := fun j hj => by
      unfold Bi.XL vals vals1
      simp only [hcolf _ j hj, hdo j hj]
    have eR : ∀ j, j < k → Bi.XR n (vals f') (vals1 e') j = Bi.XR n (vals f) (vals1 e) j := fun j hj => by
      unfold Bi.XR vals vals1
      simp only [hrow j _ hj, heo j hj]
    have eLk : Bi.XL m (vals f') (vals1 d') k = hh m k (fun r => val (f1 r k))
        (rb k m (val (Bi.nrm k m fun i => f i k)) fun r => val (f1 r k)) := by
      unfold Bi.XL vals vals1
      simp only [hcol _ k (by omega), hdk]
    have eRk : Bi.XR n (vals f') (vals1 e') k = hh n (k + 1) (fun r => val (f' k r))
        (rb (k + 1) n (val (Bi.nrm (k + 1) n (f1 k))) fun r => val (f' k r)) := by
      unfold Bi.XR vals vals1
      simp only [hek]
    have r1 := h1.refl hn1 hsd
    have r2 := h2.refl hn2 hse
    have sL : Bi.XL m (vals f') (vals1 d') k * Bi.XL m (vals f') (vals1 d') k = 1 := by
      rw [eLk]; exact hh_sq (r1.refl hkm hN he hM)
    have sR : Bi.XR n (vals f') (vals1 e') k * Bi.XR n (vals f') (vals1 e') k = 1 := by
      rw [eRk]; exact hh_sq (r2.refl hk' (by omega) he hM)
    have tL : (Bi.XL m (vals f') (vals1 d') k)ᵀ = Bi.XL m (vals f') (vals1 d') k := hh_transpose _ _ _ _
    have tR : (Bi.XR n (vals f') (vals1 e') k)ᵀ = Bi.XR n (vals f') (vals1 e') k := hh_transpose _ _ _ _
    refine ⟨hI.fin, fun j hj => ?_, fun j hj => ?_, ?_⟩
    · by_cases ej : j = k
      · subst ej
        exact ⟨_, r1.mono (funext fun r => hcol r j (by omega)) hdk⟩
      · obtain ⟨x, hx⟩ := hI.left j (by omega)
        exact ⟨x, hx.mono (funext fun r => hcolf r j (by omega)) (hdo j (by omega))⟩
    · by_cases ej : j = k
      · subst ej
        exact ⟨_, r2.mono rfl hek⟩
      · obtain ⟨x, hx⟩ := hI.right j (by omega)
        exact ⟨x, hx.mono (funext fun r => hrow j r (by omega)) (heo j (by omega))⟩
    · have hM1 := h1.round hkm hN (by omega) he hM hn1 hsd hf1
        (M := Bi.M k (vals f) (vals1 d) (vals1 e)) (M' := fun i j =>
          if i < k then Bi.M k (vals f) (vals1 d) (vals1 e) i j else
            if j < k then 0 else if j = k then (if i = k then val (d' k) else 0) else val (f1 i j))
        (by intro i j h3 h4 h5 h6
            rw [Bi.M, if_neg (by omega), if_neg (by omega)]; rfl)
        (by intro i j h3 h4 h5
            rw [Bi.M, if_neg (by omega), if_pos h5])
        (by intro i j h3 h4
            rw [if_pos h3])
        (by intro i j h3 h4 h5
            rw [if_neg (by omega), hdk])
      have hM2 := h2.round hk' (by omega) hN he hM hn2 hse hf2
        (M := fun j i => if i < k then Bi.M k (vals f) (vals1 d) (vals1 e) i j else
            if j < k then 0 else if j = k then (if i = k then val (d' k) else 0) else val (f1 i j))
        (M' := fun j i => Bi.M (k + 1) (vals f') (vals1 d') (vals1 e') i j)
        (by intro i j h3 h4 h5 h6
            rw [if_neg (by omega), if_neg (by omega), if_neg (by omega)])
        (by intro i j h3 h4 h5
            rw [if_pos h5, Bi.M, if_pos h5, Bi.bEnt, if_neg (by omega), if_neg (by omega), Exact.zero_eq])
        (by intro i j h3 h4
            unfold Bi.M Bi.bEnt vals vals1
            rw [hd, he']
            simp only [upd1_eq]
            split_ifs <;> first | rfl | (exfalso; omega) | exact Exact.zero_eq | skip)
        (by intro i j h3 h4 h5
            unfold Bi.M Bi.bEnt vals vals1
            rw [← hek]
            split_ifs <;> first | rfl | (exfalso; omega) | exact Exact.zero_eq | (subst_vars; rfl))
      have g := left_step hε hω (P := (hprod m (Bi.XL m (vals f) (vals1 d)) k)ᵀ)
        (by rw [Matrix.transpose_transpose]; exact hI.orthL hkm.le hN he hM)
        (hI.orthR (by omega) he hM) (by rw [tL]; exact sL) hI.err (eLk ▸ hM1)
      rw [← eRk] at hM2
      rw [← fro_transpose, Matrix.transpose_sub, Matrix.transpose_mul, tR, mx_transpose, mx_transpose,
        ← fro_transpose (mx n m _), mx_transpose] at hM2
      have g2 := right_step hε hω (by
          rw [Matrix.transpose_mul, Matrix.transpose_transpose, tL, Matrix.mul_assoc,
            ← Matrix.mul_assoc (Bi.XL m (vals f') (vals1 d') k), sL, Matrix.one_mul]
          exact hI.orthL hkm.le hN he hM)
        (hI.orthR (by omega) he hM) (by rw [tR]; exact sR) g hM2
      rw [show min (k + 1) (n - 1) = min k (n - 1) + 1 by omega, hprod, hprod, hprod_congr eL,
        hprod_congr fun j hj => eR j (by omega), Matrix.transpose_mul, tL,
        show k + 1 + (min k (n - 1) + 1) = k + min k (n - 1) + 1 + 1 by omega]
      rw [show min k (n - 1) = k by omega] at g2 ⊢
      exact g2
  | last hk' h1 hd he' =>
    have hdk : d' k = Bi.nrm k m fun i => f i k := by rw [hd, upd1_eq, if_pos rfl]
    have hdo : ∀ j, j < k → d' j = d j := fun j hj => by rw [hd, upd1_eq, if_neg (by omega)]
    have hrow : ∀ i j, i < k → f' i j = f i j := fun i j hi => h1.other i j (.inl hi)
    have hcolf : ∀ i j, j < k → f' i j = f i j := fun i j hj => h1.other i j (.inr hj)
    have hsd : Scaled N ε (Bi.nrm k m fun i => f i k) := hdk ▸ hF.diag k (by omega)
    have hn1 := Bi.nrm_normOf hkm hsd.fin
    have hf1 : ∀ i j, k ≤ i → i < m → k < j → j < n → Rnd.fin (f' i j) := fun i j b1 b2 b3 b4 => by omega
    have hb1 := h1.back hn1 hf1
    have hI := hI ⟨fun i hi => hdo i hi ▸ hF.diag i (by omega), fun i hi => by
      rw [← he']; exact hF.sec i (by omega), hb1⟩
    have eL : ∀ j, j < k → Bi.XL m (vals f') (vals1 d') j = Bi.XL m (vals f) (vals1 d) j := fun j hj => by
      unfold Bi.XL vals vals1
      simp only [hcolf _ j hj, hdo j hj]
    have eR : ∀ j, j < k → Bi.XR n (vals f') (vals1 e') j = Bi.XR n (vals f) (vals1 e) j := fun j hj => by
      unfold Bi.XR vals vals1
      simp only [hrow j _ hj, he']
    have eLk : Bi.XL m (vals f') (vals1 d') k = hh m k (fun r => val (f' r k))
        (rb k m (val (Bi.nrm k m fun i => f i k)) fun r => val (f' r k)) := by
      unfold Bi.XL vals vals1
      simp only [hdk]
    have r1 := h1.refl hn1 hsd
    have sL : Bi.XL m (vals f') (vals1 d') k * Bi.XL m (vals f') (vals1 d') k = 1 := by
      rw [eLk]; exact hh_sq (r1.refl hkm hN he hM)
    have tL : (Bi.XL m (vals f') (vals1 d') k)ᵀ = Bi.XL m (vals f') (vals1 d') k := hh_transpose _ _ _ _
    refine ⟨hI.fin, fun j hj => ?_, fun j hj => ?_, ?_⟩
    · by_cases ej : j = k
      · subst ej
        exact ⟨_, r1.mono rfl hdk⟩
      · obtain ⟨x, hx⟩ := hI.left j (by omega)
        exact ⟨x, hx.mono (funext fun r => hcolf r j (by omega)) (hdo j (by omega))⟩
    · obtain ⟨x, hx⟩ := hI.right j (by omega)
      exact ⟨x, hx.mono (funext fun r => hrow j r (by omega)) (by rw [he'])⟩
    · have hM1 := h1.round hkm hN (by omega) he hM hn1 hsd hf1
        (M := Bi.M k (vals f) (vals1 d) (vals1 e)) (M' := Bi.M (k + 1) (vals f') (vals1 d') (vals1 e'))
        (by intro i j h3 h4 h5 h6
            rw [Bi.M, if_neg (by omega), if_neg (by omega)]; rfl)
        (by intro i j h3 h4 h5
            rw [Bi.M, if_neg (by omega), if_pos h5])
        (by intro i j h3 h4
            rw [Bi.M, Bi.M, if_pos h3, if_pos (by omega), Bi.bEnt, Bi.bEnt, vals1, vals1, vals1, vals1, hdo i h3, he'])
        (by intro i j h3 h4 h5
            unfold Bi.M Bi.bEnt vals vals1
            rw [← hdk]
            split_ifs <;> first | rfl | (exfalso; omega) | exact Exact.zero_eq | (subst_vars; rfl))
      have g := left_step hε hω (P := (hprod m (Bi.XL m (vals f) (vals1 d)) k)ᵀ)
        (by rw [Matrix.transpose_transpose]; exact hI.orthL hkm.le hN he hM)
        (hI.orthR (by omega) he hM) (by rw [tL]; exact sL) hI.err (eLk ▸ hM1)
      rw [show min (k + 1) (n - 1) = min k (n - 1) by omega, hprod, hprod_congr eL,
        hprod_congr fun j hj => eR j (by omega), Matrix.transpose_mul, tL,
        show k + 1 + min k (n - 1) = k + min k (n - 1) + 1 by omega]
      exact g

theorem Bi.rinv_init {N : Nat} {ε : ℝ} {A f : Nat → Nat → α} {d e : Nat → α}
    (hf : ∀ i j, i < m → j < n → f i j = A i j) (hF : Bi.RFin m n N ε 0 f d e) :
    Bi.RInv m n N ε A 0 f d e := by
  refine ⟨fun i j hi hj => ?_, fun j h => by omega, fun j h => by omega, ?_⟩
  · rw [← hf i j hi hj]; exact hF.rest i j (Nat.zero_le _) hi (Nat.zero_le _) hj
  · have e1 : mx m n (Bi.M 0 (vals f) (vals1 d) (vals1 e)) = mx m n (vals A) :=
      mx_congr fun i j hi hj => by
        rw [Bi.M, if_neg (by omega), if_neg (by omega), vals, vals, hf i j hi hj]
    rw [e1, show min 0 (n - 1) = 0 by omega, hprod, hprod, Matrix.transpose_one, Matrix.one_mul, Matrix.mul_one,
      sub_self]
    simp [fro]

/-- The reduction: the invariant holds at the end, whatever the outcome. -/
theorem Bi.new_round [ZeroLaws α] {a : Mat α m n} (ha : a.own) (hm : 0 < m) (hn : 0 < n)
    {A : Nat → Nat → α} (hA : Shows a.at m n A) :
    ∃ s : Bi α m n, Bi.new a = .ok s ∧
      (n ≤ m → ∀ ε : ℝ, Rnd.u α ≤ ε → (m + 4) * ε ≤ 1 / 100 →
        Bi.RFin m n m ε n s.hv.f s.main.f s.sec.f → Bi.RInv m n m ε A n s.hv.f s.main.f s.sec.f) ∧
      (m < n → ∀ ε : ℝ, Rnd.u α ≤ ε → (n + 4) * ε ≤ 1 / 100 →
        Bi.RFin n m n ε m (fun i j => s.hv.f j i) s.main.f s.sec.f →
          Bi.RInv n m n ε (fun i j => A j i) m (fun i j => s.hv.f j i) s.main.f s.sec.f) :=
  Bi.new_wp ha hm hn hA
    (fun k f d e => ∀ ε : ℝ, Rnd.u α ≤ ε → (m + 4) * ε ≤ 1 / 100 →
      Bi.RFin m n m ε k f d e → Bi.RInv m n m ε A k f d e)
    (fun k f d e => ∀ ε : ℝ, Rnd.u α ≤ ε → (n + 4) * ε ≤ 1 / 100 →
      Bi.RFin n m n ε k f d e → Bi.RInv n m n ε (fun i j => A j i) k f d e)
    (fun _ _ _ hf _ _ _ hF => Bi.rinv_init hf hF)
    (fun _ _ _ _ _ _ _ hk hnm h hr ε h1 h2 hF => Bi.rinv_step hk hnm le_rfl h1 h2 hr (h ε h1 h2) hF)
    (fun _ _ _ hf _ _ _ hF => Bi.rinv_init hf hF)
    (fun _ _ _ _ _ _ _ hk hnm h hr ε h1 h2 hF => Bi.rinv_step hk hnm le_rfl h1 h2 hr (h ε h1 h2) hF)

end Linear
