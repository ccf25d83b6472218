import Verif.Lemmas.RoundTri

/-!
# The rounds of the tridiagonal reduction in rounded arithmetic
-/

set_option linter.unusedSectionVars false

namespace Linear

open Spec Rnd Matrix
open Finset hiding val diag

theorem fro_nn {m : Nat} (F : Nat → Nat → ℝ) : fro (mx m m F) = nn (range m) F := by
  rw [← Real.sqrt_sq (nn_nonneg (S := range m) (F := F)), nn_sq, Finset.sum_range]
  unfold fro
  congr 1
  refine sum_congr rfl fun i _ => ?_
  rw [Finset.sum_range]
  rfl

theorem nn_le_fro {m k : Nat} (F : Nat → Nat → ℝ) : nn (Ico k m) F ≤ fro (mx m m F) := by
  rw [fro_nn]
  have hs : Ico k m ⊆ range m := fun i hi => mem_range.2 (mem_Ico.1 hi).2
  refine le_trans (nrm_mono fun i _ => ?_) (nrm_mono_set hs)
  rw [abs_of_nonneg nrm_nonneg, abs_of_nonneg nrm_nonneg]
  exact nrm_mono_set hs

theorem nrm_le_fro {m k l : Nat} (F : Nat → Nat → ℝ) (hl : l < m) : nrm (Ico k m) (F l) ≤ fro (mx m m F) := by
  rw [fro_nn]
  have hs : Ico k m ⊆ range m := fun i hi => mem_range.2 (mem_Ico.1 hi).2
  refine (nrm_mono_set hs).trans (le_trans (le_abs_self _) ?_)
  exact abs_le_nrm (x := fun i => nrm (range m) (F i)) (mem_range.2 hl)

/-- A symmetric matrix with one row and column, and a block. -/
theorem fro_bordered {m k : Nat} {E : Nat → Nat → ℝ} (hk : k < m) (h0 : ∀ i j, i < k → j < m → E i j = 0)
    (hs : ∀ i j, E i j = E j i) (hkk : E k k = 0) :
    fro (mx m m E) ≤ nn (Ico (k + 1) m) E + 2 * nrm (Ico (k + 1) m) (E k) := by
  have hsp : ∀ g : ℕ → ℝ, (∀ i, i < k → g i = 0) → ∑ i ∈ range m, g i = g k + ∑ i ∈ Ico (k + 1) m, g i := by
    intro g hg
    rw [range_eq_Ico, ← sum_Ico_consecutive g (Nat.zero_le k) hk.le, sum_eq_sum_Ico_succ_bot hk,
      sum_eq_zero fun i hi => hg i (mem_Ico.1 hi).2, _root_.zero_add]
  have hn := nn_nonneg (S := Ico (k + 1) m) (F := E)
  have hr := nrm_nonneg (S := Ico (k + 1) m) (x := E k)
  rw [fro_nn]
  refine le_of_sq_le_sq ?_ (by positivity)
  have hrow : ∀ i, i < m → ∑ j ∈ range m, E i j ^ 2 = E i k ^ 2 + ∑ j ∈ Ico (k + 1) m, E i j ^ 2 := fun i hi =>
    hsp (fun j => E i j ^ 2) fun j hj => by rw [hs, h0 j i hj hi, zero_pow (by norm_num)]
  rw [nn_sq, hsp (fun i => ∑ j ∈ range m, E i j ^ 2) fun i hi => sum_eq_zero fun j hj => by
    rw [h0 i j hi (mem_range.1 hj), zero_pow (by norm_num)]]
  rw [hrow k hk, hkk, sum_congr rfl fun i hi => hrow i (mem_Ico.1 hi).2, sum_add_distrib, ← nn_sq, ← nrm_sq]
  have e1 : ∑ i ∈ Ico (k + 1) m, E i k ^ 2 = nrm (Ico (k + 1) m) (E k) ^ 2 := by
    rw [nrm_sq]
    exact sum_congr rfl fun i _ => by rw [hs]
  rw [e1]
  nlinarith [mul_nonneg hn hr]

variable {α : Type} [Flt α] [Rnd α] {m : Nat}

theorem vals_symU (f : Nat → Nat → α) (i j : Nat) : val (symU f i j) = symU (vals f) i j := by
  unfold symU vals
  split <;> rfl

/-- Exact reflection `j`. -/
noncomputable def Tri.XH (m : Nat) (f : Nat → Nat → ℝ) (e : Nat → ℝ) (j : Nat) : Matrix (Fin m) (Fin m) ℝ :=
  hh m (j + 1) (f j) (rb (j + 1) m (e j) (f j))

/-- One round is nearly the exact reflection of the whole matrix from both sides. -/
theorem Tri.Step.round {N k : Nat} {ε : ℝ} {f f' : Nat → Nat → α} {d d' e e' : Nat → α} {a : α}
    (h : Tri.Step m k f f' a) (hk : k + 1 < m) (hN : m ≤ N) (he : Rnd.u α ≤ ε) (hM : (N + 4) * ε ≤ 1 / 100)
    (hn : NormOf (k + 1) m (f k) a) (hs : Scaled N ε a) (hf : ∀ i j, k < i → i ≤ j → j < m → fin (f' i j))
    (hd : d' = upd1 d k (f k k)) (hee : e' = upd1 e k a) :
    fro (mx m m (Tri.M (vals f') (vals1 d') (vals1 e') (k + 1)) - Tri.XH m (vals f') (vals1 e') k *
        mx m m (Tri.M (vals f) (vals1 d) (vals1 e) k) * Tri.XH m (vals f') (vals1 e') k) ≤
      410 * (N + 4) * ε * fro (mx m m (Tri.M (vals f) (vals1 d) (vals1 e) k)) + √N * (120 * √(N * η α)) := by
  have hu := u_nonneg (α := α)
  have he0 : 0 ≤ ε := hu.trans he
  have hd0 : ∀ j, j ≠ k → d' j = d j := fun j hj => by rw [hd, upd1_eq, if_neg hj]
  have hdk : d' k = f k k := by rw [hd, upd1_eq, if_pos rfl]
  have he0' : ∀ j, j ≠ k → e' j = e j := fun j hj => by rw [hee, upd1_eq, if_neg hj]
  have hek : e' k = a := by rw [hee, upd1_eq, if_pos rfl]
  have hblk := (Tri.block h hk hN he hM hn hs hf).2
  have hown := (h.refl hn hs).own hk hN he hM
  generalize hM0 : Tri.M (vals f) (vals1 d) (vals1 e) k = M
  have hMs : ∀ i j, M i j = M j i := fun i j => by rw [← hM0]; exact symU_comm _ i j
  have hMu : ∀ i j, i ≤ j → M i j =
      if i < k then (if i = j then vals1 d i else if j = i + 1 then vals1 e i else 0) else vals f i j := by
    intro i j hij
    rw [← hM0]; exact if_pos hij
  have hMb : ∀ i j, k ≤ i → k ≤ j → M i j = symU (vals f) i j := by
    intro i j hi hj
    rw [← hM0]
    unfold Tri.M symU
    dsimp only
    split_ifs <;> first | rfl | (exfalso; omega)
  have hMl : ∀ i r, i < k → k < r → M r i = 0 := by
    intro i r hi hr
    rw [hMs, hMu i r (by omega), if_pos hi, if_neg (by omega), if_neg (by omega)]
  rw [Tri.XH, hh_conj _ _ _ _ hMs]
  have ev : vals f' k = fun r => val (f' k r) := rfl
  have eb : rb (k + 1) m (vals1 e' k) (vals f' k) = rb (k + 1) m (val a) fun r => val (f' k r) := by
    rw [vals1, hek]; rfl
  rw [eb, ev]
  generalize hβ : rb (k + 1) m (val a) (fun r => val (f' k r)) = β at *
  have hg0 : ∀ i, i < k → ∑ r ∈ Ico (k + 1) m, val (f' k r) * M r i = 0 := by
    intro i hi
    refine sum_eq_zero fun r hr => ?_
    rw [hMl i r hi (by have := mem_Ico.1 hr; omega), mul_zero]
  have hgk : ∑ r ∈ Ico (k + 1) m, val (f' k r) * M r k = ∑ r ∈ Ico (k + 1) m, val (f' k r) * val (f k r) := by
    refine sum_congr rfl fun r hr => ?_
    have := mem_Ico.1 hr
    rw [hMs, hMu k r (by omega), if_neg (by omega), vals]
  have hg : ∀ i, k < i → ∑ r ∈ Ico (k + 1) m, val (f' k r) * M r i =
      ∑ r ∈ Ico (k + 1) m, val (f' k r) * val (symU f r i) := by
    intro i hi
    refine sum_congr rfl fun r hr => ?_
    have := mem_Ico.1 hr
    rw [hMb r i (by omega) (by omega), vals_symU]
  have hgg : ∑ x ∈ Ico (k + 1) m, (∑ r ∈ Ico (k + 1) m, val (f' k r) * M r x) * val (f' k x) =
      ∑ x ∈ Ico (k + 1) m, (∑ r ∈ Ico (k + 1) m, val (f' k r) * val (symU f r x)) * val (f' k x) := by
    refine sum_congr rfl fun x hx => ?_
    rw [hg x (by have := mem_Ico.1 hx; omega)]
  rw [hgg]
  generalize hG : ∑ x ∈ Ico (k + 1) m, (∑ r ∈ Ico (k + 1) m, val (f' k r) * val (symU f r x)) * val (f' k x) = G at *
  generalize hM1 : Tri.M (vals f') (vals1 d') (vals1 e') (k + 1) = M'
  have hMs' : ∀ i j, M' i j = M' j i := fun i j => by rw [← hM1]; exact symU_comm _ i j
  have hMu' : ∀ i j, i ≤ j → M' i j =
      if i < k + 1 then (if i = j then vals1 d' i else if j = i + 1 then vals1 e' i else 0) else vals f' i j := by
    intro i j hij
    rw [← hM1]; exact if_pos hij
  generalize hE : (fun i j => M' i j - (M i j + β * (∑ r ∈ Ico (k + 1) m, val (f' k r) * M r j) *
      tl (k + 1) (fun r => val (f' k r)) i + β * (∑ r ∈ Ico (k + 1) m, val (f' k r) * M r i) *
      tl (k + 1) (fun r => val (f' k r)) j + β * β * G * tl (k + 1) (fun r => val (f' k r)) i *
      tl (k + 1) (fun r => val (f' k r)) j)) = E
  have hE' : ∀ i j, E i j = M' i j - (M i j + β * (∑ r ∈ Ico (k + 1) m, val (f' k r) * M r j) *
      tl (k + 1) (fun r => val (f' k r)) i + β * (∑ r ∈ Ico (k + 1) m, val (f' k r) * M r i) *
      tl (k + 1) (fun r => val (f' k r)) j + β * β * G * tl (k + 1) (fun r => val (f' k r)) i *
      tl (k + 1) (fun r => val (f' k r)) j) := fun i j => by rw [← hE]
  have eE : mx m m M' - (mx m m fun i j => M i j + β * (∑ r ∈ Ico (k + 1) m, val (f' k r) * M r j) *
      tl (k + 1) (fun r => val (f' k r)) i + β * (∑ r ∈ Ico (k + 1) m, val (f' k r) * M r i) *
      tl (k + 1) (fun r => val (f' k r)) j + β * β * G * tl (k + 1) (fun r => val (f' k r)) i *
      tl (k + 1) (fun r => val (f' k r)) j) = mx m m E := by rw [← hE]; rfl
  rw [eE]
  clear eE hE
  have htl : ∀ i, i < k + 1 → tl (k + 1) (fun r => val (f' k r)) i = 0 := fun i hi => if_neg (by omega)
  have hth : ∀ i, k < i → tl (k + 1) (fun r => val (f' k r)) i = val (f' k i) := fun i hi => if_pos hi
  have hEs : ∀ i j, E i j = E j i := by
    intro i j
    rw [hE', hE', hMs i j, hMs' i j]
    ring
  have hE0 : ∀ i j, i < k → j < m → E i j = 0 := by
    intro i j hi hj
    have key : M' i j = M i j := by
      by_cases hij : i ≤ j
      · rw [hMu' i j hij, hMu i j hij, if_pos (show i < k + 1 by omega), if_pos hi]
        simp only [vals1, hd0 i (show i ≠ k by omega), he0' i (show i ≠ k by omega)]
      · rw [hMs', hMs i j, hMu' j i (by omega), hMu j i (by omega), if_pos (show j < k + 1 by omega),
          if_pos (show j < k by omega)]
        simp only [vals1, hd0 j (show j ≠ k by omega), he0' j (show j ≠ k by omega)]
    rw [hE', key, hg0 i hi, htl i (by omega)]
    ring
  have hEk : ∀ j, k < j → j < m → E k j = (if j = k + 1 then val a else 0) - (val (f k j) + β *
      (∑ r ∈ Ico (k + 1) m, val (f' k r) * val (f k r)) * tl (k + 1) (fun r => val (f' k r)) j) := by
    intro j hj hjm
    have k1 : M' k j = if j = k + 1 then val a else 0 := by
      rw [hMu' k j hj.le, if_pos (by omega), if_neg (by omega)]
      simp only [vals1, hek]
    rw [hE', k1, hMu k j hj.le, if_neg (show ¬ k < k by omega), hgk, htl k (by omega), vals]
    ring
  have hEkk : E k k = 0 := by
    have k1 : M' k k = val (f k k) := by
      rw [hMu' k k le_rfl, if_pos (by omega), if_pos rfl, vals1, hdk]
    rw [hE', k1, hMu k k le_rfl, if_neg (show ¬ k < k by omega), htl k (by omega), vals]
    ring
  have hEb : ∀ i j, k < i → k < j → E i j = val (symU f' i j) - (val (symU f i j) +
      β * (∑ r ∈ Ico (k + 1) m, val (f' k r) * val (symU f r j)) * val (f' k i) +
      β * (∑ r ∈ Ico (k + 1) m, val (f' k r) * val (symU f r i)) * val (f' k j) +
      β * β * G * val (f' k i) * val (f' k j)) := by
    intro i j hi hj
    have key : M' i j = val (symU f' i j) := by
      rw [vals_symU, ← hM1]
      unfold Tri.M symU
      dsimp only
      split_ifs <;> first | rfl | (exfalso; omega)
    rw [hE', key, hMb i j hi.le hj.le, ← vals_symU, hg i hi, hg j hj, hth i hi, hth j hj]
  refine (fro_bordered (show k < m by omega) hE0 hEs hEkk).trans ?_
  have n1 : nn (Ico (k + 1) m) E = nn (Ico (k + 1) m) fun i j => val (symU f' i j) - (val (symU f i j) +
      β * (∑ r ∈ Ico (k + 1) m, val (f' k r) * val (symU f r j)) * val (f' k i) +
      β * (∑ r ∈ Ico (k + 1) m, val (f' k r) * val (symU f r i)) * val (f' k j) +
      β * β * G * val (f' k i) * val (f' k j)) := by
    unfold nn
    exact nrm_congr fun i hi => nrm_congr fun j hj => hEb i j (mem_Ico.1 hi).1 (mem_Ico.1 hj).1
  have n2 : nrm (Ico (k + 1) m) (E k) = nrm (Ico (k + 1) m) fun i => (if i = k + 1 then val a else 0) -
      (val (f k i) + β * (∑ r ∈ Ico (k + 1) m, val (f' k r) * val (f k r)) *
        tl (k + 1) (fun r => val (f' k r)) i) :=
    nrm_congr fun i hi => hEk i (mem_Ico.1 hi).1 (mem_Ico.1 hi).2
  rw [n1, n2]
  have n3 : nn (Ico (k + 1) m) (fun i j => val (symU f i j)) ≤ fro (mx m m M) := by
    refine le_trans (le_of_eq ?_) (nn_le_fro (k := k + 1) M)
    unfold nn
    exact nrm_congr fun i hi => nrm_congr fun j hj => by
      rw [hMb i j (by have := mem_Ico.1 hi; omega) (by have := mem_Ico.1 hj; omega), ← vals_symU]
  have n4 : nrm (Ico (k + 1) m) (fun i => val (f k i)) ≤ fro (mx m m M) := by
    refine le_trans (le_of_eq ?_) (nrm_le_fro (k := k + 1) (l := k) M (by omega))
    refine nrm_congr fun i hi => ?_
    rw [hMu k i (by have := mem_Ico.1 hi; omega), if_neg (by omega), vals]
  have hN1 : (1 : ℝ) ≤ N := by exact_mod_cast (show 1 ≤ N by omega)
  have hq : 1 ≤ √(N : ℝ) := Real.one_le_sqrt.2 hN1
  have hω : 0 ≤ √(N * η α) := Real.sqrt_nonneg _
  have hF := fro_nonneg (mx m m M)
  generalize fro (mx m m M) = F at *
  generalize nn (Ico (k + 1) m) (fun i j => val (symU f i j)) = τ at *
  generalize nrm (Ico (k + 1) m) (fun i => val (f k i)) = x at *
  generalize √(N * η α) = ω at *
  generalize √(N : ℝ) = q at *
  have p1 : 330 * (N + 4) * ε * τ ≤ 330 * (N + 4) * ε * F := by gcongr
  have p2 : 36 * (N + 4) * ε * x ≤ 36 * (N + 4) * ε * F := by gcongr
  have p3 : 28 * ε * x ≤ 28 * ε * F := by gcongr
  have p4 : ω ≤ q * ω := le_mul_of_one_le_left hω hq
  have p5 : 0 ≤ ε * F := by positivity
  have p6 : ε * F ≤ N * (ε * F) := le_mul_of_one_le_left p5 hN1
  linarith

/-- What is known of the reduction before round `k`. -/
structure Tri.RInv (m N : Nat) (ε : ℝ) (A : Nat → Nat → α) (k : Nat) (f : Nat → Nat → α) (d e : Nat → α) : Prop where
  fin : ∀ i j, i ≤ j → j < m → fin (A i j)
  refl : ∀ j, j < k → ∃ x, Refl (j + 1) m N ε x (f j) (e j)
  err : fro (mx m m (Tri.M (vals f) (vals1 d) (vals1 e) k) -
      (hprod m (Tri.XH m (vals f) (vals1 e)) k)ᵀ * mx m m (symU (vals A)) *
        hprod m (Tri.XH m (vals f) (vals1 e)) k) ≤
    ((1 + 410 * (N + 4) * ε) ^ k - 1) * fro (mx m m (symU (vals A))) +
      (k : ℕ) * (1 + 410 * (N + 4) * ε) ^ k * (√N * (120 * √(N * η α)))

/-- The finiteness of the results, at round `k`. -/
structure Tri.RFin (m N : Nat) (ε : ℝ) (k : Nat) (f : Nat → Nat → α) (d e : Nat → α) : Prop where
  diag : ∀ i, i < k → fin (d i)
  sec : ∀ i, i < k → Scaled N ε (e i)
  rest : ∀ i j, k ≤ i → i ≤ j → j < m → fin (f i j)

theorem Tri.RInv.orth {N k : Nat} {ε : ℝ} {A f : Nat → Nat → α} {d e : Nat → α} (h : Tri.RInv m N ε A k f d e)
    (hk : k < m) (hN : m ≤ N) (he : Rnd.u α ≤ ε) (hM : (N + 4) * ε ≤ 1 / 100) :
    hprod m (Tri.XH m (vals f) (vals1 e)) k * (hprod m (Tri.XH m (vals f) (vals1 e)) k)ᵀ = 1 :=
  hprod_orth (fun _ _ => hh_transpose _ _ _ _) fun j hj => by
    obtain ⟨x, hx⟩ := h.refl j hj
    exact hh_sq (hx.refl (by omega) hN he hM)

/-- One more reflection from both sides. -/
theorem conj_step {c : Nat} {ε ω : ℝ} {P H A M M' : Matrix (Fin m) (Fin m) ℝ} (hε : 0 ≤ ε) (hω : 0 ≤ ω)
    (hP : P * Pᵀ = 1) (hH : H * H = 1) (hHt : Hᵀ = H)
    (h : fro (M - Pᵀ * A * P) ≤ ((1 + ε) ^ c - 1) * fro A + c * (1 + ε) ^ c * ω)
    (h' : fro (M' - H * M * H) ≤ ε * fro M + ω) :
    fro (M' - (P * H)ᵀ * A * (P * H)) ≤ ((1 + ε) ^ (c + 1) - 1) * fro A + (c + 1 : ℕ) * (1 + ε) ^ (c + 1) * ω := by
  have h1 : M' - (P * H)ᵀ * A * (P * H) = (M' - H * M * H) + H * (M - Pᵀ * A * P) * H := by
    rw [Matrix.transpose_mul, hHt, Matrix.mul_sub, Matrix.sub_mul]
    simp only [Matrix.mul_assoc]
    abel
  have h2 : M = (M - Pᵀ * A * P) + Pᵀ * A * P := by abel
  have h3 := fro_add_le (M - Pᵀ * A * P) (Pᵀ * A * P)
  rw [← h2, fro_right hP, fro_left (by rw [Matrix.transpose_transpose]; exact hP)] at h3
  have h4 := fro_add_le (M' - H * M * H) (H * (M - Pᵀ * A * P) * H)
  rw [← h1, fro_right (by rw [hHt]; exact hH), fro_left (by rw [hHt]; exact hH)] at h4
  exact err_step hε hω h h3 (h4.trans (by linarith))

theorem Tri.Trace.round {N k : Nat} {ε : ℝ} {A f : Nat → Nat → α} {d e : Nat → α} (h : Tri.Trace m A k f d e)
    (hN : m ≤ N) (he : Rnd.u α ≤ ε) (hM : (N + 4) * ε ≤ 1 / 100) (hF : Tri.RFin m N ε k f d e) :
    Tri.RInv m N ε A k f d e := by
  have he0 : 0 ≤ ε := (u_nonneg (α := α)).trans he
  have hε : 0 ≤ 410 * ((N : ℝ) + 4) * ε := by positivity
  have hω : 0 ≤ √N * (120 * √(N * Rnd.η α)) := by positivity
  induction h with
  | @init f hf =>
    refine ⟨fun i j hi hj => ?_, fun j hj => by omega, ?_⟩
    · rw [← hf i j (by omega) hj]; exact hF.rest i j (Nat.zero_le _) hi hj
    · have e1 : mx m m (Tri.M (vals f) (vals1 fun _ => (Flt.zero : α)) (vals1 fun _ => (Flt.zero : α)) 0) =
          mx m m (symU (vals A)) := symU_ext fun i j hi hj => by
        rw [if_neg (by omega), vals, vals, hf i j (by omega) hj]
      rw [e1, hprod, Matrix.transpose_one, Matrix.one_mul, Matrix.mul_one, sub_self]
      simp [fro]
  | @step k f f' d e h hk hs ih =>
    generalize hd' : upd1 d k (f k k) = d' at *
    generalize he' : upd1 e k (hnorm (k + 1) m (f k)) = e' at *
    have hdo : ∀ j, j < k → d' j = d j := fun j hj => by rw [← hd', upd1_eq, if_neg (by omega)]
    have hdk : d' k = f k k := by rw [← hd', upd1_eq, if_pos rfl]
    have heo : ∀ j, j < k → e' j = e j := fun j hj => by rw [← he', upd1_eq, if_neg (by omega)]
    have hek : e' k = hnorm (k + 1) m (f k) := by rw [← he', upd1_eq, if_pos rfl]
    have hrow : ∀ j, j < k → f' j = f j := fun j hj => funext fun r => hs.other j r (.inl hj)
    have hsc : Scaled N ε (hnorm (k + 1) m (f k)) := hek ▸ hF.sec k (by omega)
    have hn := hnorm_normOf hk hsc.fin
    have hf' : ∀ i j, k < i → i ≤ j → j < m → Rnd.fin (f' i j) := fun i j h1 h2 h3 => hF.rest i j h1 h2 h3
    have hb := (Tri.block hs hk hN he hM hn hsc hf').1
    have hI := ih ⟨fun i hi => hdo i hi ▸ hF.diag i (by omega), fun i hi => heo i hi ▸ hF.sec i (by omega),
      fun i j h1 h2 h3 => by
        by_cases ei : i = k
        · subst ei
          by_cases ej : j = i
          · subst ej; rw [← hdk]; exact hF.diag j (by omega)
          · exact hn.entries j (by omega) h3
        · exact hb i j (by omega) h2 h3⟩
    have eX : ∀ j, j < k → Tri.XH m (vals f') (vals1 e') j = Tri.XH m (vals f) (vals1 e) j := fun j hj => by
      unfold Tri.XH vals vals1
      simp only [hrow j hj, heo j hj]
    have r1 := hs.refl hn hsc
    have eXk : Tri.XH m (vals f') (vals1 e') k = hh m (k + 1) (fun r => val (f' k r))
        (rb (k + 1) m (val (hnorm (k + 1) m (f k))) fun r => val (f' k r)) := by
      unfold Tri.XH vals vals1
      simp only [hek]
    refine ⟨hI.fin, fun j hj => ?_, ?_⟩
    · by_cases ej : j = k
      · subst ej
        exact ⟨_, r1.mono rfl hek⟩
      · obtain ⟨x, hx⟩ := hI.refl j (by omega)
        exact ⟨x, hx.mono (hrow j (by omega)) (heo j (by omega))⟩
    · have hR := hs.round hk hN he hM hn hsc hf' hd'.symm he'.symm
      rw [hprod, hprod_congr eX]
      exact conj_step hε hω (hI.orth (by omega) hN he hM)
        (by rw [eXk]; exact hh_sq (r1.refl hk hN he hM)) (hh_transpose _ _ _ _) hI.err hR

end Linear
