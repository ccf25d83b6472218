import Verif.Lemmas.RoundSvdTurn
import Verif.Lemmas.SvdReduce
import Verif.Lemmas.RoundBiUV

/-!
# The reflections of the singular value decomposition in rounded arithmetic
-/

set_option linter.unusedSectionVars false

namespace Linear

open Spec Rnd Matrix
open Finset hiding val diag

variable {α : Type} [Flt α] [Rnd α] {m n : Nat}

/-- The vector `V` is near to `v`, which gives the exact reflection `x ↦ x - (v · x) / (v k) v` of the entries from `k` on. -/
structure Svd.Vec (k m : Nat) (δ : ℝ) (v V : Nat → ℝ) : Prop where
  one : 1 ≤ v k
  sq : ∑ i ∈ Ico k m, v i * v i = 2 * v k
  near : nrm (Ico k m) (fun i => V i - v i) ≤ δ

theorem Svd.Vec.orth {k m : Nat} {δ : ℝ} {v V : Nat → ℝ} (h : Svd.Vec k m δ v V) :
    -1 / v k * ∑ i ∈ Ico k m, v i * v i = -2 := by
  have := h.one
  rw [h.sq]
  have : v k ≠ 0 := by linarith
  field_simp

theorem Svd.Vec.bounds {k m : Nat} {δ : ℝ} {v V : Nat → ℝ} (hk : k < m) (h : Svd.Vec k m δ v V) :
    v k ≤ 2 ∧ nrm (Ico k m) v ≤ 2 ∧ nrm (Ico k m) V ≤ 2 + δ ∧ |V k - v k| ≤ δ := by
  have h1 := h.one
  have h2 : v k * v k ≤ 2 * v k := by
    rw [← h.sq]
    exact single_le_sum (f := fun i => v i * v i) (fun _ _ => mul_self_nonneg _) (mem_Ico.2 ⟨le_rfl, hk⟩)
  have h3 : v k ≤ 2 := by nlinarith
  have h4 : nrm (Ico k m) v ≤ 2 := nrm_le (by norm_num) (by
    have : ∑ i ∈ Ico k m, v i ^ 2 = ∑ i ∈ Ico k m, v i * v i := sum_congr rfl fun _ _ => pow_two _
    rw [this, h.sq]; linarith)
  refine ⟨h3, h4, ?_, (abs_le_nrm (x := fun i => V i - v i) (mem_Ico.2 ⟨le_rfl, hk⟩)).trans h.near⟩
  have : nrm (Ico k m) V = nrm (Ico k m) fun i => v i + (V i - v i) := nrm_congr fun i _ => by ring
  rw [this]
  exact nrm_add_le.trans (add_le_add h4 h.near)

/-- A vector reflected along `V` is near to the exact reflection along `v`. -/
theorem Svd.Vec.apply {k m : Nat} {δ g ω a b T : ℝ} {v V z z' : Nat → ℝ} (hk : k < m) (h : Svd.Vec k m δ v V)
    (hδ : δ ≤ 1 / 50) (hg0 : 0 ≤ g) (hg : g ≤ 1 / 10) (hω : 0 ≤ ω) (ha : 0 ≤ a) (hb : 0 ≤ b)
    (hT : |T - ∑ i ∈ Ico k m, V i * z i| ≤ g * nrm (Ico k m) z + ω)
    (hz : ∀ i, k ≤ i → i < m → |z' i - (z i - T / V k * V i)| ≤ a * (|z i| + |T / V k * V i|) + b) :
    nrm (Ico k m) (fun i => z' i - (z i + -1 / v k * (∑ r ∈ Ico k m, v r * z r) * v i)) ≤
      (21 / 10 * g + 9 * δ + 6 * a) * nrm (Ico k m) z + (21 / 10 + 5 * a) * ω + √m * b ∧
    |T| ≤ 22 / 10 * nrm (Ico k m) z + ω := by
  obtain ⟨b1, b2, b3, b4⟩ := h.bounds hk
  have h1 := h.one
  have hδ0 : 0 ≤ δ := (abs_nonneg _).trans b4
  have hN := nrm_nonneg (S := Ico k m) (x := z)
  have hNV := nrm_nonneg (S := Ico k m) (x := V)
  have hb4 := abs_le.1 b4
  have V1 : 98 / 100 ≤ V k := by linarith
  have V0 : 0 < V k := by linarith
  have v0 : 0 < v k := by linarith
  have d1 : |∑ i ∈ Ico k m, v i * z i| ≤ 2 * nrm (Ico k m) z := abs_dot_le.trans (mul_le_mul_of_nonneg_right b2 hN)
  have d2 : |∑ i ∈ Ico k m, V i * z i| ≤ (2 + δ) * nrm (Ico k m) z :=
    abs_dot_le.trans (mul_le_mul_of_nonneg_right b3 hN)
  have d3 : |∑ i ∈ Ico k m, V i * z i - ∑ i ∈ Ico k m, v i * z i| ≤ δ * nrm (Ico k m) z := by
    rw [← sum_sub_distrib]
    have : ∑ i ∈ Ico k m, (V i * z i - v i * z i) = ∑ i ∈ Ico k m, (V i - v i) * z i := sum_congr rfl fun _ _ => by ring
    rw [this]
    exact (abs_dot_le (x := fun i => V i - v i)).trans (mul_le_mul_of_nonneg_right h.near hN)
  set D := ∑ i ∈ Ico k m, v i * z i with hD
  set D' := ∑ i ∈ Ico k m, V i * z i with hD'
  set N := nrm (Ico k m) z with hNN
  have gN : g * N ≤ 1 / 10 * N := mul_le_mul_of_nonneg_right hg hN
  have δN : δ * N ≤ 1 / 50 * N := mul_le_mul_of_nonneg_right hδ hN
  have T1 : |T| ≤ 22 / 10 * N + ω := by
    have := abs_add_le (T - D') D'
    rw [sub_add_cancel] at this
    linarith
  have r1 : |T / V k| ≤ 226 / 100 * N + 103 / 100 * ω := by
    rw [abs_div, abs_of_pos V0, div_le_iff₀ V0]
    have : (226 / 100 * N + 103 / 100 * ω) * (98 / 100) ≤ (226 / 100 * N + 103 / 100 * ω) * V k :=
      mul_le_mul_of_nonneg_left V1 (by positivity)
    linarith
  have c1 : |D / v k| ≤ 2 * N := by
    rw [abs_div, abs_of_pos v0, div_le_iff₀ v0]
    nlinarith
  have c2 : |D / v k - T / V k| ≤ (103 / 100 * g + 32 / 10 * δ) * N + 103 / 100 * ω := by
    have e : D / v k - T / V k = ((D - T) + D / v k * (V k - v k)) / V k := by field_simp; ring
    rw [e, abs_div, abs_of_pos V0, div_le_iff₀ V0]
    have q1 : |D - T| ≤ g * N + ω + δ * N := by
      have : D - T = -((T - D') + (D' - D)) := by ring
      rw [this, abs_neg]
      exact (abs_add_le _ _).trans (by linarith)
    have q2 : |D / v k * (V k - v k)| ≤ 2 * N * δ := by
      rw [abs_mul]; exact mul_le_mul c1 b4 (abs_nonneg _) (by positivity)
    refine (abs_add_le _ _).trans ?_
    have q3 : ((103 / 100 * g + 32 / 10 * δ) * N + 103 / 100 * ω) * (98 / 100) ≤
      ((103 / 100 * g + 32 / 10 * δ) * N + 103 / 100 * ω) * V k := mul_le_mul_of_nonneg_left V1 (by positivity)
    have q4 : 0 ≤ g * N := by positivity
    have q5 : 0 ≤ δ * N := by positivity
    linarith
  refine ⟨?_, T1⟩
  have e1 : nrm (Ico k m) (fun i => z' i - (z i + -1 / v k * D * v i)) =
      nrm (Ico k m) (fun i => (z' i - (z i - T / V k * V i)) + ((-(D / v k)) * (V i - v i) + (D / v k - T / V k) * V i)) :=
    nrm_congr fun i _ => by ring
  rw [e1]
  refine nrm_add_le.trans ?_
  have p1 : nrm (Ico k m) (fun i => z' i - (z i - T / V k * V i)) ≤
      a * N + a * ((226 / 100 * N + 103 / 100 * ω) * (202 / 100)) + √m * b := by
    refine (nrm_mono (y := fun i => (a * |z i| + a * |T / V k * V i|) + b) fun i hi => ?_).trans ?_
    · obtain ⟨i1, i2⟩ := mem_Ico.1 hi
      refine (hz i i1 i2).trans ((le_of_eq ?_).trans (le_abs_self _))
      ring
    · refine nrm_add_le.trans (add_le_add (nrm_add_le.trans (add_le_add ?_ ?_)) ?_)
      · rw [nrm_mul, nrm_abs, abs_of_nonneg ha]
      · rw [nrm_mul, nrm_abs (x := fun i => T / V k * V i), nrm_mul, abs_of_nonneg ha]
        refine mul_le_mul_of_nonneg_left (mul_le_mul r1 (b3.trans (by linarith)) hNV (by positivity)) ha
      · rw [nrm_const hb]
        refine mul_le_mul_of_nonneg_right (Real.sqrt_le_sqrt ?_) hb
        rw [Nat.card_Ico]
        exact_mod_cast Nat.sub_le _ _
  have p2 : nrm (Ico k m) (fun i => (-(D / v k)) * (V i - v i) + (D / v k - T / V k) * V i) ≤
      2 * N * δ + ((103 / 100 * g + 32 / 10 * δ) * N + 103 / 100 * ω) * (202 / 100) := by
    refine nrm_add_le.trans (add_le_add ?_ ?_)
    · rw [nrm_mul, abs_neg]
      exact mul_le_mul c1 h.near nrm_nonneg (by positivity)
    · rw [nrm_mul]
      exact mul_le_mul c2 (b3.trans (by linarith)) hNV (by positivity)
  have q4 : 0 ≤ g * N := by positivity
  have q5 : 0 ≤ δ * N := by positivity
  have q6 : 0 ≤ a * N := by positivity
  have q7 : 0 ≤ a * ω := by positivity
  linarith

/-! ## The norm of a column -/

theorem Svd.sqrt_lip {h N x : ℝ} (h0 : 0 ≤ h) (hN : 0 ≤ N) : |√(h ^ 2 + x ^ 2) - √(N ^ 2 + x ^ 2)| ≤ |h - N| := by
  have p1 := Real.sq_sqrt (show 0 ≤ h ^ 2 + x ^ 2 by positivity)
  have p2 := Real.sq_sqrt (show 0 ≤ N ^ 2 + x ^ 2 by positivity)
  have p3 : h ≤ √(h ^ 2 + x ^ 2) := Real.le_sqrt_of_sq_le (by nlinarith [sq_nonneg x])
  have p4 : N ≤ √(N ^ 2 + x ^ 2) := Real.le_sqrt_of_sq_le (by nlinarith [sq_nonneg x])
  set A := √(h ^ 2 + x ^ 2)
  set B := √(N ^ 2 + x ^ 2)
  have e : (A - B) * (A + B) = (h - N) * (h + N) := by linear_combination p1 - p2
  have e' : |A - B| * (A + B) = |h - N| * (h + N) := by
    rw [← abs_of_nonneg (show 0 ≤ A + B by linarith), ← abs_mul, e, abs_mul, abs_of_nonneg (show 0 ≤ h + N by linarith)]
  by_cases c : A + B = 0
  · have : A = 0 := by linarith
    have : B = 0 := by linarith
    rw [show A - B = 0 by linarith, abs_zero]; exact abs_nonneg _
  · have c' : 0 < A + B := lt_of_le_of_ne (by linarith) (Ne.symm c)
    refine le_of_mul_le_mul_right ?_ c'
    rw [e']
    exact mul_le_mul_of_nonneg_left (by linarith) (abs_nonneg _)

/-- The computed norm has a small relative error. -/
theorem Svd.hsum_round {hyp : α → α → α} {ε : ℝ} (he : 0 ≤ ε) (he1 : ε ≤ 1 / 100) (H : HypNear ε hyp) (k : Nat)
    (x : Nat → α) (d : Nat) (hf : fin (Svd.hsum hyp k x d)) :
    (∀ i, k ≤ i → i < k + d → fin (x i)) ∧ 0 ≤ val (Svd.hsum hyp k x d) ∧
    |val (Svd.hsum hyp k x d) - nrm (Ico k (k + d)) fun i => val (x i)| ≤
      ((1 + 4 * ε) ^ d - 1) * nrm (Ico k (k + d)) fun i => val (x i) := by
  induction d with
  | zero =>
    rw [Svd.hsum, val_zero]
    have : nrm (Ico k (k + 0)) (fun i => val (x i)) = 0 := by simp [nrm]
    rw [this]
    exact ⟨fun i h1 h2 => by omega, le_rfl, by norm_num⟩
  | succ d ih =>
    rw [Svd.hsum] at hf ⊢
    obtain ⟨f1, f2⟩ := H.args hf
    obtain ⟨q1, q2, q3⟩ := ih f1
    have hn := H.near hf
    set h := val (Svd.hsum hyp k x d)
    set y := val (x (k + d))
    have hN0 : 0 ≤ nrm (Ico k (k + d)) fun i => val (x i) := nrm_nonneg
    have eN : nrm (Ico k (k + (d + 1))) (fun i => val (x i)) = √((nrm (Ico k (k + d)) fun i => val (x i)) ^ 2 + y ^ 2) := by
      rw [nrm_sq, nrm, ← Nat.add_assoc, sum_Ico_succ_top (by omega)]
    rw [eN]
    set N := nrm (Ico k (k + d)) fun i => val (x i)
    have hL := Svd.sqrt_lip (x := y) q2 hN0
    set A := √(h ^ 2 + y ^ 2)
    have hB : N ≤ √(N ^ 2 + y ^ 2) := Real.le_sqrt_of_sq_le (by nlinarith [sq_nonneg y])
    set B := √(N ^ 2 + y ^ 2)
    have hA0 : 0 ≤ A := Real.sqrt_nonneg _
    have hp : 0 ≤ (1 + 4 * ε) ^ d - 1 := sub_nonneg.2 (one_le_pow₀ (by linarith))
    have a1 := abs_le.1 hn
    refine ⟨fun i h1 h2 => ?_, ?_, ?_⟩
    · by_cases c : i = k + d
      · rw [c]; exact f2
      · exact q1 i h1 (by omega)
    · nlinarith
    · have t1 : |A - B| ≤ ((1 + 4 * ε) ^ d - 1) * B := hL.trans (q3.trans (mul_le_mul_of_nonneg_left hB hp))
      have t2 := abs_le.1 t1
      have t3 : 4 * ε * A ≤ 4 * ε * (B + ((1 + 4 * ε) ^ d - 1) * B) :=
        mul_le_mul_of_nonneg_left (by linarith) (by positivity)
      have t4 := abs_add_le (val (hyp (Svd.hsum hyp k x d) (x (k + d))) - A) (A - B)
      rw [sub_add_sub_cancel] at t4
      refine t4.trans ((add_le_add (hn.trans t3) t1).trans (le_of_eq ?_))
      rw [pow_succ]; ring

/-! ## The vector of a reflection -/

theorem Svd.pow_small {a : ℝ} (ha : 0 ≤ a) {d : Nat} {t : ℝ} (ht : d * a ≤ t) (h : t ≤ 1 / 20) :
    (1 + a) ^ d - 1 ≤ 106 / 100 * t := by
  have h1 : ∀ d : Nat, (1 + a) ^ d * (1 - d * a) ≤ 1 := by
    intro d
    induction d with
    | zero => simp
    | succ d ih =>
      refine le_trans ?_ ih
      rw [pow_succ, mul_assoc]
      refine mul_le_mul_of_nonneg_left ?_ (by positivity)
      have : 0 ≤ (d : ℝ) * a * a := by positivity
      push_cast
      nlinarith [mul_self_nonneg a]
  have h2 := h1 d
  have h3 : 0 ≤ (d : ℝ) * a := by positivity
  have h4 : (1 : ℝ) ≤ (1 + a) ^ d := one_le_pow₀ (by linarith)
  nlinarith

theorem η_le_u : 250 * η α ≤ u α := by
  have h1 := big_η (α := α)
  have h2 : 1000 * η α ≤ big α * η α := mul_le_mul_of_nonneg_right big_le η_nonneg
  linarith

/-- The vector `V` and the number `a` the code stores stand for a reflection along `v`, with factor `β`, of the entries from `k` on. -/
structure Svd.HNear (k m N : Nat) (ε : ℝ) (v : Nat → ℝ) (β : ℝ) (V : Nat → α) (a : α) : Prop where
  fa : fin a
  no : val a = 0 → β = 0
  ent : val a ≠ 0 → ∀ i, k ≤ i → i < m → fin (V i)
  vec : val a ≠ 0 → Svd.Vec k m (5 * (N + 1) * ε) v fun i => val (V i)
  yes : val a ≠ 0 → β = -1 / v k

theorem Svd.HNear.orth {k m N : Nat} {ε β : ℝ} {v : Nat → ℝ} {V : Nat → α} {a : α} (h : Svd.HNear k m N ε v β V a) :
    β = 0 ∨ β * ∑ i ∈ Ico k m, v i * v i = -2 := by
  by_cases c : val a = 0
  · exact .inl (h.no c)
  · right; rw [h.yes c]; exact (h.vec c).orth

theorem Svd.signed_fin {h x : α} : fin (Svd.signed h x) → fin h := by
  unfold Svd.signed
  split_ifs
  · exact neg_fin.1
  · exact id
  · exact id

theorem Svd.signed_round {h x : α} (hf : fin (Svd.signed h x)) (hx : fin x) :
    (val (Svd.signed h x) = 0 → val h = 0) ∧ (val (Svd.signed h x) ≠ 0 →
      ∃ σ : ℝ, (σ = 1 ∧ 0 ≤ val x ∨ σ = -1 ∧ val x < 0) ∧ val (Svd.signed h x) = σ * val h) := by
  have hh := Svd.signed_fin hf
  unfold Svd.signed
  by_cases e : val h = 0
  · have : Flt.eq h Flt.zero = true := (eq_iff hh zero_fin).2 (by rw [e, val_zero])
    rw [if_neg (by simp [this])]
    exact ⟨fun h => h, fun h => absurd e h⟩
  · have : ¬ Flt.eq h Flt.zero = true := fun q => e (by rw [(eq_iff hh zero_fin).1 q, val_zero])
    rw [if_pos (by simp [this])]
    by_cases c : Flt.lt x Flt.zero = true
    · rw [if_pos c, val_neg hh]
      have := (lt_iff hx zero_fin).1 c
      rw [val_zero] at this
      exact ⟨fun h => by linarith, fun _ => ⟨-1, .inr ⟨rfl, this⟩, by ring⟩⟩
    · rw [if_neg c]
      have : 0 ≤ val x := by
        rw [← not_lt]; intro q; exact c ((lt_iff hx zero_fin).2 (by rw [val_zero]; exact q))
      exact ⟨fun h => h, fun _ => ⟨1, .inl ⟨rfl, this⟩, by ring⟩⟩

/-- One rounded entry of the scaled vector. -/
theorem Svd.entry_core {w x h N θ q σ v η' : ℝ} (hN : 0 < N) (hσ : σ * σ = 1) (hθ : |h - N| ≤ θ * N) (hθ1 : θ ≤ 17 / 1000)
    (hv : 0 ≤ v) (hv1 : v ≤ 1 / 100) (hw : w = x / (σ * N)) (hq : |q - x / (σ * h)| ≤ v * |x / (σ * h)| + η') :
    |q - w| ≤ (102 / 100 * θ + 102 / 100 * v) * |w| + η' := by
  have a1 := abs_le.1 hθ
  have θ0 : 0 ≤ θ := by
    by_contra c
    have : θ * N < 0 := mul_neg_of_neg_of_pos (not_le.1 c) hN
    linarith [abs_nonneg (h - N)]
  have hθN : θ * N ≤ 17 / 1000 * N := mul_le_mul_of_nonneg_right hθ1 hN.le
  have h0 : 983 / 1000 * N ≤ h := by linarith
  have hp : 0 < h := by linarith
  have hσ0 : σ ≠ 0 := fun c => by rw [c] at hσ; norm_num at hσ
  have e : x / (σ * h) = w * (N / h) := by rw [hw]; field_simp
  have r1 : |N / h - 1| ≤ 102 / 100 * θ := by
    rw [show N / h - 1 = -(h - N) / h by field_simp; ring, abs_div, abs_of_pos hp, abs_neg, div_le_iff₀ hp]
    have : 102 / 100 * θ * (983 / 1000 * N) ≤ 102 / 100 * θ * h := mul_le_mul_of_nonneg_left h0 (by positivity)
    nlinarith [mul_nonneg θ0 hN.le]
  have r2 : |N / h| ≤ 102 / 100 := by
    have := abs_add_le (N / h - 1) 1
    rw [sub_add_cancel, abs_one] at this
    linarith
  rw [e] at hq
  have t := abs_add_le (q - w * (N / h)) (w * (N / h - 1))
  rw [show q - w * (N / h) + w * (N / h - 1) = q - w by ring, abs_mul w] at t
  rw [abs_mul w] at hq
  have p1 : |w| * |N / h - 1| ≤ |w| * (102 / 100 * θ) := mul_le_mul_of_nonneg_left r1 (abs_nonneg _)
  have p2 : v * (|w| * |N / h|) ≤ v * (|w| * (102 / 100)) :=
    mul_le_mul_of_nonneg_left (mul_le_mul_of_nonneg_left r2 (abs_nonneg _)) hv
  linarith

set_option maxHeartbeats 1000000 in
/-- The stored vector and signed norm stand for a reflection that moves `x` onto the first axis. -/
theorem Svd.HNear.make {hyp : α → α → α} {ε : ℝ} {k m N : Nat} (hk : k < m) (hmN : m ≤ N) (he : Rnd.u α ≤ ε)
    (hM : (N + 4) * ε ≤ 1 / 250) (H : HypNear ε hyp) {x V : Nat → α} {nu : α}
    (hnu : nu = Svd.signed (Svd.hsum hyp k x (m - k)) (x k)) (fnu : fin nu)
    (hV : ∀ i, k ≤ i → i < m → V i = Svd.scaled k nu x i)
    (fV : val nu ≠ 0 → ∀ i, k ≤ i → i < m → fin (V i)) :
    (∀ i, k ≤ i → i < m → fin (x i)) ∧ ∃ v β, Svd.HNear k m N ε v β V (Flt.neg nu) ∧
      nrm (Ico k m) (fun i => (if i = k then val (Flt.neg nu) else 0) -
        (val (x i) + β * (∑ r ∈ Ico k m, v r * val (x r)) * v i)) ≤ 5 * (N + 1) * ε * nrm (Ico k m) fun i => val (x i) := by
  have hu := u_nonneg (α := α)
  have hη := η_nonneg (α := α)
  have he0 : 0 ≤ ε := hu.trans he
  have hN0 : (0 : ℝ) ≤ N := by positivity
  have hNε : 0 ≤ (N : ℝ) * ε := by positivity
  have he1 : ε ≤ 1 / 1000 := by nlinarith
  have hNε1 : (N : ℝ) * ε ≤ 1 / 250 := by linarith
  have fh : fin (Svd.hsum hyp k x (m - k)) := by rw [hnu] at fnu; exact Svd.signed_fin fnu
  obtain ⟨h1, h2, h3⟩ := Svd.hsum_round he0 (by linarith) H k x (m - k) fh
  rw [show k + (m - k) = m by omega] at h1 h3
  refine ⟨h1, ?_⟩
  have hmk : ((m - k : ℕ) : ℝ) ≤ N := by exact_mod_cast (show m - k ≤ N by omega)
  have hθ := Svd.pow_small (a := 4 * ε) (d := m - k) (t := 4 * (N * ε)) (by positivity) (by
    have := mul_le_mul_of_nonneg_right hmk he0
    linarith) (by linarith)
  have hX0 : 0 ≤ nrm (Ico k m) fun i => val (x i) := nrm_nonneg
  replace h3 : |val (Svd.hsum hyp k x (m - k)) - nrm (Ico k m) fun i => val (x i)| ≤
      424 / 100 * (N * ε) * nrm (Ico k m) fun i => val (x i) := by
    refine h3.trans (mul_le_mul_of_nonneg_right (hθ.trans (by linarith)) hX0)
  obtain ⟨s1, s2⟩ := Svd.signed_round (hnu ▸ fnu) (h1 k le_rfl hk)
  rw [← hnu] at s1 s2
  generalize val (Svd.hsum hyp k x (m - k)) = h at *
  set X := nrm (Ico k m) fun i => val (x i) with hX
  have fa : fin (Flt.neg nu) := neg_fin.2 fnu
  have va : val (Flt.neg nu) = -val nu := val_neg fnu
  by_cases c : val nu = 0
  · have z0 : X = 0 := by
      rw [s1 c, zero_sub, abs_neg, abs_of_nonneg hX0] at h3
      nlinarith
    refine ⟨fun _ => 0, 0, ⟨fa, fun _ => rfl, fun q => absurd (by rw [va, c, neg_zero]) q,
      fun q => absurd (by rw [va, c, neg_zero]) q, fun q => absurd (by rw [va, c, neg_zero]) q⟩, ?_⟩
    rw [z0, mul_zero]
    refine le_of_eq ((nrm_congr (y := fun _ => 0) fun i hi => ?_).trans nrm_zero)
    have := abs_le_nrm (x := fun i => val (x i)) hi
    rw [← hX, z0] at this
    rw [abs_eq_zero.1 (le_antisymm this (abs_nonneg _)), va, c]
    simp
  · obtain ⟨σ, hσ, eν⟩ := s2 c
    have σ2 : σ * σ = 1 := by rcases hσ with ⟨q, -⟩ | ⟨q, -⟩ <;> rw [q] <;> norm_num
    have hσ0 : σ ≠ 0 := fun q => by rw [q] at σ2; norm_num at σ2
    have hX1 : 0 < X := by
      rcases hX0.lt_or_eq with q | q
      · exact q
      · rw [← q, mul_zero, sub_zero] at h3
        have : h = 0 := abs_eq_zero.1 (le_antisymm h3 (abs_nonneg _))
        rw [eν, this, mul_zero] at c
        exact absurd rfl c
    set w : Nat → ℝ := fun i => val (x i) / (σ * X) with hw
    set v : Nat → ℝ := fun i => if i = k then w k + 1 else w i with hv
    have wk : 0 ≤ w k := by
      rcases hσ with ⟨q, q'⟩ | ⟨q, q'⟩
      · rw [hw, q]; dsimp only; rw [one_mul]; exact div_nonneg q' hX0
      · rw [hw, q]; dsimp only; exact div_nonneg_of_nonpos q'.le (by linarith)
    have X2 : σ * X * (σ * X) = ∑ r ∈ Ico k m, val (x r) * val (x r) := by
      have : X ^ 2 = ∑ r ∈ Ico k m, val (x r) ^ 2 := nrm_sq
      rw [show σ * X * (σ * X) = σ * σ * X ^ 2 by ring, σ2, one_mul, this]
      exact sum_congr rfl fun _ _ => pow_two _
    obtain ⟨r1, r2, r3⟩ := Svd.scaled_exact (K := ℝ) hk (x := fun i => val (x i)) (v := v) (nu := σ * X) X2
      (fun q => by
        rcases hσ with ⟨q1, q'⟩ | ⟨q1, q'⟩
        · exact absurd q (not_lt.2 q')
        · rw [q1]; linarith)
      (fun q => by
        rcases hσ with ⟨q1, q'⟩ | ⟨q1, q'⟩
        · rw [q1]; linarith
        · exact absurd q' (not_lt.2 q)) (mul_ne_zero hσ0 hX1.ne')
      (fun i _ _ => by
        have e0 : ¬ Flt.eq (σ * X) (Flt.zero : ℝ) = true := by simp [hσ0, hX1.ne']
        rw [Svd.scaled, if_neg e0, hv, Exact.add_eq, Exact.div_eq, Exact.one_eq, Exact.div_eq])
    have vk : v k = w k + 1 := if_pos rfl
    have vk1 : 1 ≤ v k := by linarith
    have fνne : ¬ Flt.eq nu Flt.zero = true := fun q => c (by rw [(eq_iff fnu zero_fin).1 q, val_zero])
    have nw : nrm (Ico k m) w = 1 := by
      have : nrm (Ico k m) w = nrm (Ico k m) fun i => (σ * X)⁻¹ * val (x i) := nrm_congr fun i _ => by
        rw [hw]; dsimp only; rw [div_eq_inv_mul]
      rw [this, nrm_mul, ← hX, abs_inv, abs_mul, abs_of_pos hX1]
      have : |σ| = 1 := by rcases hσ with ⟨q, -⟩ | ⟨q, -⟩ <;> rw [q] <;> norm_num
      rw [this, one_mul, inv_mul_cancel₀ hX1.ne']
    have hηu := η_le_u (α := α)
    have ent : ∀ i, fin (Flt.div (x i) nu) →
        |val (Flt.div (x i) nu) - w i| ≤ (102 / 100 * (424 / 100 * (N * ε)) + 102 / 100 * ε) * |w i| + η α := fun i hf => by
      refine Svd.entry_core hX1 σ2 h3 (by linarith) he0 (by linarith) rfl ?_
      rw [← eν]
      refine (div_err hf fnu).1.trans ?_
      exact add_le_add_left (mul_le_mul_of_nonneg_right he (abs_nonneg _)) _
    have fV' := fV c
    have dist : ∀ i, k ≤ i → i < m → |val (V i) - v i| ≤
        (102 / 100 * (424 / 100 * (N * ε)) + 102 / 100 * ε) * |w i| + (η α + if i = k then 21 / 10 * ε else 0) := by
      intro i i1 i2
      have fi := fV' i i1 i2
      rw [hV i i1 i2, Svd.scaled, if_neg fνne] at fi ⊢
      by_cases ci : i = k
      · subst ci
        rw [if_pos rfl] at fi ⊢
        rw [if_pos rfl, vk]
        have f2 := (add_fin fi).1
        have e1 := ent i f2
        have e2 := (add_err fi).1
        rw [val_one] at e2
        have w1 : |w i| ≤ 1 := by rw [← nw]; exact abs_le_nrm (mem_Ico.2 ⟨i1, i2⟩)
        set y := val (Flt.div (x i) nu)
        have y1 : |y + 1| ≤ 21 / 10 := by
          have t1 := abs_add_le (y - w i) (w i + 1)
          rw [show y - w i + (w i + 1) = y + 1 by ring] at t1
          have t2 := abs_add_le (w i) 1
          rw [abs_one] at t2
          have t3 : (102 / 100 * (424 / 100 * (N * ε)) + 102 / 100 * ε) * |w i| ≤
            (102 / 100 * (424 / 100 * (N * ε)) + 102 / 100 * ε) * 1 := mul_le_mul_of_nonneg_left w1 (by positivity)
          linarith
        have t4 := abs_add_le (val (Flt.add (Flt.div (x i) nu) Flt.one) - (y + 1)) (y - w i)
        rw [show val (Flt.add (Flt.div (x i) nu) Flt.one) - (y + 1) + (y - w i) =
          val (Flt.add (Flt.div (x i) nu) Flt.one) - (w i + 1) by ring] at t4
        have t5 : Rnd.u α * |y + 1| ≤ ε * (21 / 10) := mul_le_mul he y1 (abs_nonneg _) he0
        linarith
      · rw [if_neg ci] at fi ⊢
        rw [if_neg ci, _root_.add_zero, show v i = w i from if_neg ci]
        exact ent i fi
    have vec : Svd.Vec k m (5 * (N + 1) * ε) v fun i => val (V i) := by
      refine ⟨vk1, ?_, ?_⟩
      · have : -1 / v k * ∑ r ∈ Ico k m, v r * v r = -2 := r2
        rw [div_mul_eq_mul_div, div_eq_iff r1] at this
        linarith
      · refine (nrm_mono (y := fun i => (102 / 100 * (424 / 100 * (N * ε)) + 102 / 100 * ε) * |w i| +
          (η α + if i = k then 21 / 10 * ε else 0)) fun i hi => ?_).trans ?_
        · exact (dist i (mem_Ico.1 hi).1 (mem_Ico.1 hi).2).trans (le_abs_self _)
        · have q1 : nrm (Ico k m) (fun _ => η α) ≤ N * η α := by
            rw [nrm_const hη]
            refine mul_le_mul_of_nonneg_right ?_ hη
            rw [Nat.card_Ico]
            refine Real.sqrt_le_iff.2 ⟨hN0, ?_⟩
            have : (1 : ℝ) ≤ N := by exact_mod_cast (show 1 ≤ N by omega)
            nlinarith
          have q2 : nrm (Ico k m) (fun i => if i = k then 21 / 10 * ε else 0) ≤ 21 / 10 * ε := by
            refine nrm_le (by positivity) (le_of_eq ?_)
            rw [sum_eq_single k (fun b _ hb => by rw [if_neg hb]; norm_num)
              (fun q => absurd (mem_Ico.2 ⟨le_rfl, hk⟩) q), if_pos rfl]
          have q3 := nrm_add_le (S := Ico k m) (x := fun i => (102 / 100 * (424 / 100 * (N * ε)) + 102 / 100 * ε) * |w i|)
            (y := fun i => η α + if i = k then 21 / 10 * ε else 0)
          have q4 := nrm_add_le (S := Ico k m) (x := fun _ => η α) (y := fun i => if i = k then 21 / 10 * ε else 0)
          rw [nrm_mul, nrm_abs, nw, abs_of_nonneg (by positivity)] at q3
          have q5 : N * η α ≤ N * (ε / 250) := mul_le_mul_of_nonneg_left (by linarith) hN0
          linarith
    refine ⟨v, -1 / v k, ⟨fa, fun q => absurd (by rw [va] at q; linarith) c, fun _ => fV', fun _ => vec, fun _ => rfl⟩, ?_⟩
    have E : nrm (Ico k m) (fun i => (if i = k then val (Flt.neg nu) else 0) -
        (val (x i) + -1 / v k * (∑ r ∈ Ico k m, v r * val (x r)) * v i)) =
        nrm (Ico k m) fun i => if i = k then -(σ * (h - X)) else 0 := nrm_congr fun i hi => by
      rw [r3 i (mem_Ico.1 hi).1 (mem_Ico.1 hi).2]
      split_ifs
      · rw [va, eν]; ring
      · ring
    rw [E]
    refine nrm_le (by positivity) ?_
    rw [sum_eq_single k (fun b _ hb => by rw [if_neg hb]; norm_num)
      (fun q => absurd (mem_Ico.2 ⟨le_rfl, hk⟩) q), if_pos rfl,
      show (-(σ * (h - X))) ^ 2 = σ * σ * (h - X) ^ 2 by ring, σ2, one_mul, ← sq_abs]
    refine pow_le_pow_left₀ (abs_nonneg _) (h3.trans ?_) 2
    refine mul_le_mul_of_nonneg_right ?_ hX0
    linarith

/-! ## Applying a reflection -/

/-- The error of the inner product of a reflection. -/
theorem Svd.dot_round {k m N : Nat} {ε : ℝ} (hk : k < m) (hmN : m ≤ N) (he : Rnd.u α ≤ ε)
    (hM : (N + 4) * ε ≤ 1 / 250) {V z : Nat → α} (hV : nrm (Ico k m) (fun i => val (V i)) ≤ 202 / 100)
    (hf : fin (lsum k m (fun r => Flt.mul (V r) (z r)) Flt.zero)) :
    (∀ i, k ≤ i → i < m → fin (z i)) ∧
    |val (lsum k m (fun r => Flt.mul (V r) (z r)) Flt.zero) - ∑ i ∈ Ico k m, val (V i) * val (z i)| ≤
      21 / 10 * ((N + 2) * ε) * nrm (Ico k m) (fun i => val (z i)) + 102 / 100 * (N * η α) := by
  have hS : SumOf (lsum k m (fun r => Flt.mul (V r) (z r)) Flt.zero) (over (Ico k m) fun i => Flt.mul (V i) (z i)) := by
    rw [over_Ico]; exact SumOf.left _ _ _
  obtain ⟨h1, h2⟩ := hS.prods hf
  rw [Nat.card_Ico] at h2
  refine ⟨fun i i1 i2 => (h1 i (mem_Ico.2 ⟨i1, i2⟩)).2, h2.trans (add_le_add ?_ ?_)⟩
  · obtain ⟨g1, -⟩ := gam_small (α := α) (M := N) (N := m - k) he (by linarith) (by omega)
    have hg := gam_nonneg (α := α) (m - k)
    have e0 : 0 ≤ ε := (u_nonneg (α := α)).trans he
    have q0 : 0 ≤ (N + 2) * ε := by positivity
    have n0 := nrm_nonneg (S := Ico k m) (x := fun i => val (z i))
    have n1 := nrm_nonneg (S := Ico k m) (x := fun i => val (V i))
    calc _ ≤ (102 / 100 * ((N + 2) * ε)) * (202 / 100 * nrm (Ico k m) fun i => val (z i)) := by
          refine mul_le_mul (g1.trans (by norm_num)) (dot_le_nrm.trans (mul_le_mul_of_nonneg_right hV n0))
            (sum_nonneg fun _ _ => by positivity) (by positivity)
      _ ≤ _ := by
          have := mul_nonneg q0 n0
          linarith
  · obtain ⟨-, g2⟩ := gam_small (α := α) (M := N) (N := m - k) he (by linarith) (by omega)
    have hη := η_nonneg (α := α)
    have hmk : ((m - k : ℕ) : ℝ) ≤ N := by exact_mod_cast (show m - k ≤ N by omega)
    have : ((m - k : ℕ) : ℝ) * (1 + Rnd.u α) ^ (m - k) ≤ N * (102 / 100) := by
      refine mul_le_mul hmk (g2.trans (by norm_num)) (pow_nonneg (by linarith [u_nonneg (α := α)]) _) (by positivity)
    calc _ ≤ N * (102 / 100) * η α := mul_le_mul_of_nonneg_right this hη
      _ = _ := by ring

/-- `z + fl (fl (x / h) * y)` in rounded arithmetic. -/
theorem Svd.upd_core {ε : ℝ} (he : Rnd.u α ≤ ε) (he1 : ε ≤ 1 / 100) {z x h y : α} (fh : fin h)
    (hf : fin (Flt.add z (Flt.mul (Flt.div (Flt.neg x) h) y))) :
    fin z ∧ fin x ∧ fin y ∧ |val (Flt.add z (Flt.mul (Flt.div (Flt.neg x) h) y)) - (val z - val x / val h * val y)| ≤
      4 * ε * (|val z| + |val x / val h * val y|) + 11 / 10 * η α * (1 + |val y|) := by
  obtain ⟨f1, f2⟩ := add_fin hf
  obtain ⟨f3, f4⟩ := mul_fin f2
  have f5 := neg_fin.1 (div_fin f3)
  refine ⟨f1, f5, f4, ?_⟩
  have e1 := (add_err hf).1
  have e2 := (mul_err f2).1
  have e3 := (div_err f3 fh).1
  rw [val_neg f5] at e3
  have hu := u_nonneg (α := α)
  have hη := η_nonneg (α := α)
  have e0 : 0 ≤ ε := hu.trans he
  generalize val (Flt.add z (Flt.mul (Flt.div (Flt.neg x) h) y)) = z' at *
  generalize val (Flt.mul (Flt.div (Flt.neg x) h) y) = p at *
  generalize val (Flt.div (Flt.neg x) h) = c at *
  rw [neg_div, abs_neg] at e3
  generalize val x / val h = r at *
  generalize val y = y at *
  generalize val z = z at *
  have a3 : |c - -r| ≤ ε * |r| + η α := e3.trans (add_le_add_left (mul_le_mul_of_nonneg_right he (abs_nonneg _)) _)
  have a2 : |p - c * y| ≤ ε * |c * y| + η α := e2.trans (add_le_add_left (mul_le_mul_of_nonneg_right he (abs_nonneg _)) _)
  have a1 : |z' - (z + p)| ≤ ε * |z + p| := e1.trans (mul_le_mul_of_nonneg_right he (abs_nonneg _))
  have b1 : |c * y - -(r * y)| ≤ ε * |r * y| + η α * |y| := by
    rw [show c * y - -(r * y) = (c - -r) * y by ring, abs_mul, abs_mul]
    refine (mul_le_mul_of_nonneg_right a3 (abs_nonneg _)).trans (le_of_eq (by ring))
  have b2 : |c * y| ≤ (1 + ε) * |r * y| + η α * |y| := by
    have := abs_add_le (c * y - -(r * y)) (-(r * y))
    rw [sub_add_cancel, abs_neg] at this
    linarith
  have b3 : |p - -(r * y)| ≤ ε * ((1 + ε) * |r * y| + η α * |y|) + η α + (ε * |r * y| + η α * |y|) := by
    have := abs_add_le (p - c * y) (c * y - -(r * y))
    rw [sub_add_sub_cancel] at this
    have q := mul_le_mul_of_nonneg_left b2 e0
    linarith
  have q1 := abs_nonneg (r * y)
  have q2 : 0 ≤ η α * |y| := by positivity
  have m1 : ε * (ε * |r * y|) ≤ 1 / 100 * (ε * |r * y|) := mul_le_mul_of_nonneg_right he1 (by positivity)
  have m2 : ε * (η α * |y|) ≤ 1 / 100 * (η α * |y|) := mul_le_mul_of_nonneg_right he1 q2
  have q4 : 0 ≤ ε * |r * y| := by positivity
  have b4 : |p - -(r * y)| ≤ 21 / 10 * (ε * |r * y|) + 102 / 100 * (η α * |y|) + η α := by linarith
  have b5 : |z + p| ≤ |z| + |r * y| + |p - -(r * y)| := by
    have t := abs_add_le (z + -(r * y)) (p - -(r * y))
    have t' := abs_add_le z (-(r * y))
    rw [abs_neg] at t'
    rw [show z + -(r * y) + (p - -(r * y)) = z + p by ring] at t
    linarith
  have t := abs_add_le (z' - (z + p)) (p - -(r * y))
  rw [show z' - (z + p) + (p - -(r * y)) = z' - (z - r * y) by ring] at t
  have m3 : ε * |z + p| ≤ ε * (|z| + |r * y| + |p - -(r * y)|) := mul_le_mul_of_nonneg_left b5 e0
  have m4 : ε * |p - -(r * y)| ≤ 1 / 100 * |p - -(r * y)| := mul_le_mul_of_nonneg_right he1 (abs_nonneg _)
  have q3 : 0 ≤ ε * |z| := by positivity
  have q5 := abs_nonneg (p - -(r * y))
  linarith

/-- The bound of one reflection. -/
theorem Svd.HNear.apply {k m N : Nat} {ε β : ℝ} (hk : k < m) (hmN : m ≤ N) (he : Rnd.u α ≤ ε)
    (hM : (N + 4) * ε ≤ 1 / 250) {v : Nat → ℝ} {V : Nat → α} {a : α} (h : Svd.HNear k m N ε v β V a) (ha : val a ≠ 0)
    {z z' : Nat → α} (hT : fin (lsum k m (fun r => Flt.mul (V r) (z r)) Flt.zero))
    (hz : ∀ i, k ≤ i → i < m → |val (z' i) - (val (z i) -
      val (lsum k m (fun r => Flt.mul (V r) (z r)) Flt.zero) / val (V k) * val (V i))| ≤ 4 * ε * (|val (z i)| +
      |val (lsum k m (fun r => Flt.mul (V r) (z r)) Flt.zero) / val (V k) * val (V i)|) +
      11 / 10 * η α * (21 / 10 + 1 + |val (lsum k m (fun r => Flt.mul (V r) (z r)) Flt.zero)|)) :
    nrm (Ico k m) (fun i => val (z' i) - (val (z i) + β * (∑ r ∈ Ico k m, v r * val (z r)) * v i)) ≤
      50 * (N + 2) * ε * nrm (Ico k m) (fun i => val (z i)) + 7 * (N * η α) := by
  have hu := u_nonneg (α := α)
  have hη := η_nonneg (α := α)
  have hηu := η_le_u (α := α)
  have e0 : 0 ≤ ε := hu.trans he
  have N1 : (1 : ℝ) ≤ N := by exact_mod_cast (show 1 ≤ N by omega)
  have Nε : 0 ≤ (N : ℝ) * ε := by positivity
  have e1 : ε ≤ 1 / 1000 := by nlinarith
  have W := h.vec ha
  have hδ : 5 * (N + 1) * ε ≤ 1 / 50 := by linarith
  have bV := (W.bounds hk).2.2.1
  obtain ⟨-, d2⟩ := Svd.dot_round hk hmN he hM (V := V) (z := z) (by linarith) hT
  have hω : 0 ≤ 102 / 100 * ((N : ℝ) * η α) := by positivity
  have hg0 : 0 ≤ 21 / 10 * ((N + 2) * ε) := by positivity
  obtain ⟨-, bT⟩ := W.apply hk (z' := fun i => val (z i) - val (lsum k m (fun r => Flt.mul (V r) (z r)) Flt.zero) / val (V k) * val (V i))
    hδ hg0 (by linarith) hω le_rfl le_rfl d2 (fun i _ _ => by simp) (a := 0) (b := 0)
  have Nη : (N : ℝ) * η α ≤ N * ε / 250 := by
    have : (N : ℝ) * (250 * η α) ≤ N * ε := mul_le_mul_of_nonneg_left (by linarith) (by positivity)
    linarith
  obtain ⟨Q, -⟩ := W.apply hk hδ hg0 (by linarith) hω (a := 4 * ε) (b := 11 / 10 * η α * (21 / 10 + 1 +
    |val (lsum k m (fun r => Flt.mul (V r) (z r)) Flt.zero)|)) (by positivity) (by positivity) d2 hz
  rw [h.yes ha]
  refine Q.trans ?_
  set T := |val (lsum k m (fun r => Flt.mul (V r) (z r)) Flt.zero)|
  have n0 := nrm_nonneg (S := Ico k m) (x := fun i => val (z i))
  set Z := nrm (Ico k m) fun i => val (z i)
  have sm : √(m : ℝ) ≤ N := Real.sqrt_le_iff.2 ⟨by positivity, by
    have : (m : ℝ) ≤ N := by exact_mod_cast hmN
    nlinarith⟩
  have r1 : √(m : ℝ) * (11 / 10 * η α * (21 / 10 + 1 + T)) ≤ N * (11 / 10 * η α * (21 / 10 + 1 + T)) :=
    mul_le_mul_of_nonneg_right sm (by positivity)
  have r2 : N * (11 / 10 * η α * (21 / 10 + 1 + T)) ≤
      11 / 10 * (N * η α) * (21 / 10 + 1 + (22 / 10 * Z + 102 / 100 * (N * η α))) := by
    have : 11 / 10 * (N * η α) * (21 / 10 + 1 + T) ≤ 11 / 10 * (N * η α) * (21 / 10 + 1 + (22 / 10 * Z + 102 / 100 * (N * η α))) :=
      mul_le_mul_of_nonneg_left (by linarith) (by positivity)
    linarith
  have r3 : N * η α * Z ≤ N * ε / 250 * Z := mul_le_mul_of_nonneg_right Nη n0
  have r4 : N * η α * (N * η α) ≤ 1 / 100 * (N * η α) := mul_le_mul_of_nonneg_right (by linarith) (by positivity)
  have r5 : ε * (N * η α) ≤ 1 / 1000 * (N * η α) := mul_le_mul_of_nonneg_right e1 (by positivity)
  have r6 : 0 ≤ N * ε * Z := by positivity
  have r7 : 0 ≤ ε * Z := by positivity
  have r8 : 0 ≤ (N : ℝ) * η α := by positivity
  linarith

/-- A column the code reflects. -/
theorem Svd.HNear.refl {k m N : Nat} {ε β : ℝ} (hk : k < m) (hmN : m ≤ N) (he : Rnd.u α ≤ ε)
    (hM : (N + 4) * ε ≤ 1 / 250) {v : Nat → ℝ} {V : Nat → α} {a : α} (h : Svd.HNear k m N ε v β V a) (ha : val a ≠ 0)
    {z z' : Nat → α} (hz : ∀ i, k ≤ i → i < m → z' i = Svd.refl k m V z i) (hf : ∀ i, k ≤ i → i < m → fin (z' i)) :
    nrm (Ico k m) (fun i => val (z' i) - (val (z i) + β * (∑ r ∈ Ico k m, v r * val (z r)) * v i)) ≤
      50 * (N + 2) * ε * nrm (Ico k m) (fun i => val (z i)) + 7 * (N * η α) := by
  have hη := η_nonneg (α := α)
  have e0 : 0 ≤ ε := (u_nonneg (α := α)).trans he
  have e1 : ε ≤ 1 / 100 := by nlinarith [(by positivity : (0 : ℝ) ≤ N * ε)]
  have hV := h.ent ha
  have U := fun i (i1 : k ≤ i) (i2 : i < m) => Svd.upd_core he e1 (hV k le_rfl hk) (by
    have := hf i i1 i2
    rw [hz i i1 i2] at this
    exact this)
  refine h.apply hk hmN he hM ha (U k le_rfl hk).2.1 fun i i1 i2 => ?_
  rw [hz i i1 i2]
  refine (U i i1 i2).2.2.2.trans ?_
  have W := h.vec ha
  have bV := (W.bounds hk).2.2.1
  have : |val (V i)| ≤ 21 / 10 := (abs_le_nrm (x := fun i => val (V i)) (mem_Ico.2 ⟨i1, i2⟩)).trans (by
    have : 0 ≤ (N : ℝ) * ε := by positivity
    linarith)
  refine add_le_add_right (mul_le_mul_of_nonneg_left ?_ (by positivity)) _
  linarith [abs_nonneg (val (lsum k m (fun r => Flt.mul (V r) (z r)) Flt.zero))]

/-- A row the code reflects. -/
theorem Svd.HNear.reflR {k m N : Nat} {ε β : ℝ} (hk : k + 1 < m) (hmN : m ≤ N) (he : Rnd.u α ≤ ε)
    (hM : (N + 4) * ε ≤ 1 / 250) {v : Nat → ℝ} {V : Nat → α} {a : α} (h : Svd.HNear (k + 1) m N ε v β V a) (ha : val a ≠ 0)
    {z z' : Nat → α} (hz : ∀ i, k + 1 ≤ i → i < m → z' i = Svd.reflR k m V z i)
    (hf : ∀ i, k + 1 ≤ i → i < m → fin (z' i)) :
    nrm (Ico (k + 1) m) (fun i => val (z' i) - (val (z i) + β * (∑ r ∈ Ico (k + 1) m, v r * val (z r)) * v i)) ≤
      50 * (N + 2) * ε * nrm (Ico (k + 1) m) (fun i => val (z i)) + 7 * (N * η α) := by
  have hη := η_nonneg (α := α)
  have e0 : 0 ≤ ε := (u_nonneg (α := α)).trans he
  have e1 : ε ≤ 1 / 100 := by nlinarith [(by positivity : (0 : ℝ) ≤ N * ε)]
  have hV := h.ent ha
  have U := fun i (i1 : k + 1 ≤ i) (i2 : i < m) => Svd.upd_core he e1 (hV (k + 1) le_rfl hk) (by
    have := hf i i1 i2
    rw [hz i i1 i2] at this
    exact this)
  refine h.apply hk hmN he hM ha (U (k + 1) le_rfl hk).2.2.1 fun i i1 i2 => ?_
  rw [hz i i1 i2]
  have q := (U i i1 i2).2.2.2
  rw [show val (V i) / val (V (k + 1)) * val (lsum (k + 1) m (fun r => Flt.mul (V r) (z r)) Flt.zero) =
    val (lsum (k + 1) m (fun r => Flt.mul (V r) (z r)) Flt.zero) / val (V (k + 1)) * val (V i) by ring] at q
  refine q.trans ?_
  refine add_le_add_right (mul_le_mul_of_nonneg_left ?_ (by positivity)) _
  linarith [abs_nonneg (val (lsum (k + 1) m (fun r => Flt.mul (V r) (z r)) Flt.zero))]

end Linear
