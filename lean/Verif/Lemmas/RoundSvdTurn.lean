import Verif.Lemmas.RoundEig
import Verif.Lemmas.SvdIter

/-!
# The rotations of the singular value decomposition in rounded arithmetic
-/

set_option linter.unusedSectionVars false

namespace Linear

open Spec Rnd Matrix
open Finset hiding val diag

variable {α : Type} [Flt α] [Rnd α] {m n : Nat}

/-- What is asked of `math.Hypot` in rounded arithmetic: a finite result has a small relative error, and any other
makes the quotients by it infinite or NaN. -/
structure Spec.HypNear (ε : ℝ) (hyp : α → α → α) : Prop where
  args : ∀ {a b}, fin (hyp a b) → fin a ∧ fin b
  near : ∀ {a b}, fin (hyp a b) →
    |val (hyp a b) - √(val a ^ 2 + val b ^ 2)| ≤ 4 * ε * √(val a ^ 2 + val b ^ 2)
  trap : ∀ {a b}, ¬ fin (hyp a b) → ∀ x : α, ¬ fin (Flt.div x (hyp a b))

/-- The rounded numbers `cs` and `sn` are near to the unit vector `c`, `s`. -/
structure Svd.Pair (ε c s : ℝ) (cs sn : α) : Prop where
  one : c * c + s * s = 1
  fc : fin cs
  fs : fin sn
  ec : |val cs - c| ≤ 8 * ε
  es : |val sn - s| ≤ 8 * ε

theorem Svd.Pair.bounds {ε c s : ℝ} {cs sn : α} (h : Svd.Pair ε c s cs sn) : |c| ≤ 1 ∧ |s| ≤ 1 :=
  ⟨abs_le_of_sq_le_sq' (by nlinarith [mul_self_nonneg s, h.one]) one_pos.le |> abs_le.2,
    abs_le_of_sq_le_sq' (by nlinarith [mul_self_nonneg c, h.one]) one_pos.le |> abs_le.2⟩

theorem quot_core {a r t q ε v ν : ℝ} (hν : 0 ≤ ν) (hν1 : ν ≤ ε) (hv1 : v ≤ ε) (he1 : ε ≤ 1 / 100)
    (hr : 0 < r) (ha : |a| ≤ r) (ht : |t - r| ≤ 4 * ε * r) (hq : |q - a / t| ≤ v * |a / t| + ν) :
    |q - a / r| ≤ 8 * ε := by
  have he0 : 0 ≤ ε := hν.trans hν1
  have h1 := abs_le.1 ht
  have her : ε * r ≤ 1 / 100 * r := mul_le_mul_of_nonneg_right he1 hr.le
  have t1 : 96 / 100 * r ≤ t := by linarith
  have t0 : 0 < t := by linarith
  have h2 : |a / t| ≤ 105 / 100 := by
    rw [abs_div, abs_of_pos t0, div_le_iff₀ t0]; linarith
  have h3 : |a / t - a / r| ≤ 42 / 10 * ε := by
    have : a / t - a / r = a / t * ((r - t) / r) := by field_simp
    rw [this, abs_mul]
    have h4 : |(r - t) / r| ≤ 4 * ε := by
      rw [abs_div, abs_of_pos hr, div_le_iff₀ hr, abs_sub_comm]; exact ht
    calc _ ≤ 105 / 100 * (4 * ε) := mul_le_mul h2 h4 (abs_nonneg _) (by norm_num)
      _ = _ := by ring
  have h5 : v * |a / t| ≤ ε * (105 / 100) := mul_le_mul hv1 h2 (abs_nonneg _) he0
  calc |q - a / r| = |(q - a / t) + (a / t - a / r)| := by congr 1; ring
    _ ≤ _ := abs_add_le _ _
    _ ≤ 8 * ε := by linarith

/-- **The two numbers made from `hyp`.** -/
theorem Spec.HypNear.pair {ε : ℝ} {hyp : α → α → α} (hh : Spec.HypNear ε hyp) (he : u α ≤ ε) (he1 : ε ≤ 1 / 100) {a b : α}
    (fc : fin (Flt.div a (hyp a b))) (fs : fin (Flt.div b (hyp a b))) :
    ∃ c s r : ℝ, Svd.Pair ε c s (Flt.div a (hyp a b)) (Flt.div b (hyp a b)) ∧ fin a ∧ fin b ∧ fin (hyp a b) ∧
      r = √(val a ^ 2 + val b ^ 2) ∧ |val (hyp a b) - r| ≤ 4 * ε * r ∧
      c * val a + s * val b = r ∧ -s * val a + c * val b = 0 := by
  have ft : fin (hyp a b) := by
    by_contra h
    exact hh.trap h _ fc
  obtain ⟨fa, fb⟩ := hh.args ft
  have hn := hh.near ft
  have t0 := div_ne fc ft
  obtain ⟨r, hr⟩ : ∃ r, r = √(val a ^ 2 + val b ^ 2) := ⟨_, rfl⟩
  rw [← hr] at hn
  have hr2 : r * r = val a ^ 2 + val b ^ 2 := by rw [hr, Real.mul_self_sqrt (by positivity)]
  have hr0 : 0 ≤ r := by rw [hr]; exact Real.sqrt_nonneg _
  have rpos : 0 < r := by
    rcases hr0.lt_or_eq with h | h
    · exact h
    · rw [← h, mul_zero, sub_zero] at hn
      exact absurd (abs_nonpos_iff.1 hn) t0
  have ha : |val a| ≤ r := abs_le_of_sq_le_sq (by nlinarith [sq_nonneg (val b)]) hr0
  have hb : |val b| ≤ r := abs_le_of_sq_le_sq (by nlinarith [sq_nonneg (val a)]) hr0
  have hη := (η_le_u (α := α)).trans he
  have hu0 := u_nonneg (α := α)
  have hη0 := η_nonneg (α := α)
  refine ⟨val a / r, val b / r, r, ⟨?_, fc, fs, quot_core hη0 hη he he1 rpos ha hn (div_err fc ft).1,
    quot_core hη0 hη he he1 rpos hb hn (div_err fs ft).1⟩, fa, fb, ft, rfl.trans hr, hn, ?_, ?_⟩
  · field_simp
    linarith
  · field_simp
    linarith
  · field_simp
    ring

/-! ## The vectors -/

/-- All entries are finite. -/
def Svd.tfin {r c : Nat} (t : Tab α r c) : Prop := ∀ a b, a < r → b < c → fin (t.f a b)

theorem Svd.rt_fin {a b : Nat} (ha : a < n) {cs sn : α} {v : Nat → α}
    (h : ∀ y, y < n → fin (Svd.rt a b cs sn v y)) : fin cs ∧ fin sn ∧ ∀ y, y < n → fin (v y) := by
  have h1 := h a ha
  unfold Svd.rt at h1
  rw [if_pos rfl] at h1
  obtain ⟨m1, m2⟩ := add_fin h1
  refine ⟨(mul_fin m1).1, (mul_fin m2).1, fun y hy => ?_⟩
  by_cases hb0 : y = a
  · rw [hb0]; exact (mul_fin m1).2
  · by_cases hb1 : y = b
    · rw [hb1]; exact (mul_fin m2).2
    · have h2 := h y hy
      unfold Svd.rt at h2
      rwa [if_neg hb0, if_neg hb1] at h2

/-- **One rotation of the vectors.** -/
theorem Svd.turn_near {q a b : Nat} (ha : a < n) (hb : b < n) (hab : a ≠ b) {ε s c : ℝ} {cs sn : α} (he : Rnd.u α ≤ ε)
    (he1 : ε ≤ 1 / 100) (hN : Svd.Pair ε c s cs sn) {z : Nat → Nat → α}
    (hf : ∀ i y, i < q → y < n → fin (Svd.rt a b cs sn (z i) y)) :
    fro (mx q n (fun i y => val (Svd.rt a b cs sn (z i) y)) - mx q n (fun i y => val (z i y)) * Svd.R n a b c s) ≤
      22 * ε * fro (mx q n fun i y => val (z i y)) + √q * (5 * η α) := by
  have hu0 := u_nonneg (α := α)
  have he0 : 0 ≤ ε := hu0.trans he
  have hη := η_nonneg (α := α)
  obtain ⟨c1, s1⟩ := hN.bounds
  rw [← Svd.mul_R ha hb c s (u := fun i y => val (z i y)) (u' := fun i y => Svd.rt a b c s (fun y => val (z i y)) y)
    (fun _ _ _ _ => rfl), ← fro_transpose, ← fro_transpose (mx q n fun i y => val (z i y))]
  refine fro_of_cols (by linarith) (by linarith) le_rfl fun i => ?_
  obtain ⟨x, hx⟩ : ∃ x, x = val (z i a) := ⟨_, rfl⟩
  obtain ⟨y, hy⟩ : ∃ y, y = val (z i b) := ⟨_, rfl⟩
  have hN0 := cnorm_nonneg (mx q n fun i y => val (z i y))ᵀ i
  have hne : (⟨a, ha⟩ : Fin n) ≠ ⟨b, hb⟩ := fun h => hab (by simpa using h)
  have hxy : x ^ 2 + y ^ 2 ≤ cnorm (mx q n fun i y => val (z i y))ᵀ i ^ 2 := by
    unfold cnorm
    rw [Real.sq_sqrt (sum_nonneg fun _ _ => sq_nonneg _)]
    have := sum_le_sum_of_subset_of_nonneg (f := fun b : Fin n => (mx q n fun i y => val (z i y))ᵀ b i ^ 2)
      (subset_univ {(⟨a, ha⟩ : Fin n), ⟨b, hb⟩}) (fun _ _ _ => sq_nonneg _)
    rw [sum_pair hne] at this
    rw [hx, hy]
    exact this
  generalize cnorm (mx q n fun i y => val (z i y))ᵀ i = N at *
  obtain ⟨E, hE⟩ : ∃ E : ℝ, E = 11 * ε * (|x| + |y|) + 3 * η α := ⟨_, rfl⟩
  have hE0 : 0 ≤ E := by rw [hE]; positivity
  have hent : ∀ w : Fin n, ((mx q n (fun i y => val (Svd.rt a b cs sn (z i) y)) -
      mx q n fun i y => Svd.rt a b c s (fun y => val (z i y)) y)ᵀ w i) ^ 2 ≤
      if w.1 = a ∨ w.1 = b then E ^ 2 else 0 := by
    intro w
    show (val (Svd.rt a b cs sn (z i) w) - Svd.rt a b c s (fun y => val (z i y)) w) ^ 2 ≤ _
    have hfa := hf i w i.2 w.2
    rw [Svd.rt_exact a b c s]
    unfold Svd.rt at hfa ⊢
    by_cases h1 : w.1 = a
    · rw [if_pos h1] at hfa
      rw [if_pos h1, if_pos h1, if_pos (Or.inl h1), ← sq_abs]
      refine pow_le_pow_left₀ (abs_nonneg _) ?_ 2
      obtain ⟨m1, m2⟩ := add_fin hfa
      have e1 := (mul_err m1).1
      have e2 := (mul_err m2).1
      have e3 := (add_err hfa).1
      rw [← hx] at e1 ⊢
      rw [← hy] at e2 ⊢
      rw [hE]
      exact rz_core hu0 he he1 hη hN.es hN.ec s1 c1 e1 e2 e3
    · rw [if_neg h1] at hfa
      rw [if_neg h1, if_neg h1]
      by_cases h2 : w.1 = b
      · rw [if_pos h2] at hfa
        rw [if_pos h2, if_pos h2, if_pos (Or.inr h2), ← sq_abs]
        refine pow_le_pow_left₀ (abs_nonneg _) ?_ 2
        obtain ⟨m1, m2⟩ := add_fin hfa
        have e1 := (mul_err m1).1
        have e2 := (mul_err m2).1
        have e3 := (add_err hfa).1
        rw [val_neg hN.fs] at e1
        rw [← hx] at e1 ⊢
        rw [← hy] at e2 ⊢
        rw [hE]
        exact rz_core (s := c) (c := -s) hu0 he he1 hη hN.ec
          (by rw [show -val sn - -s = -(val sn - s) by ring, abs_neg]; exact hN.es) c1 (by rw [abs_neg]; exact s1) e1 e2 e3
      · rw [if_neg h2, if_neg h2, if_neg (by tauto), sub_self]; simp
  unfold cnorm
  refine Real.sqrt_le_iff.2 ⟨by positivity, ?_⟩
  have hsum : ∑ w : Fin n, (if w.1 = a ∨ w.1 = b then E ^ 2 else 0) ≤ 2 * E ^ 2 := by
    rw [sum_eq_add (⟨a, ha⟩ : Fin n) ⟨b, hb⟩ hne (fun w _ hw => by
      rw [if_neg]
      rintro (h | h)
      · exact hw.1 (Fin.ext h)
      · exact hw.2 (Fin.ext h)) (fun h => absurd (mem_univ _) h) (fun h => absurd (mem_univ _) h)]
    simp
    linarith
  refine (sum_le_sum fun w _ => hent w).trans (hsum.trans ?_)
  obtain ⟨σ, hσ⟩ : ∃ σ, σ = |x| + |y| := ⟨_, rfl⟩
  have hσ0 : 0 ≤ σ := by rw [hσ]; positivity
  have hσ2 : σ ^ 2 ≤ 2 * N ^ 2 := by
    rw [hσ]
    nlinarith [sq_nonneg (|x| - |y|), sq_abs x, sq_abs y]
  have hσ1 : σ ≤ 3 / 2 * N := by nlinarith
  rw [hE, ← hσ]
  have p1 : ε ^ 2 * σ ^ 2 ≤ ε ^ 2 * (2 * N ^ 2) := mul_le_mul_of_nonneg_left hσ2 (sq_nonneg _)
  have p2 : ε * η α * σ ≤ ε * η α * (3 / 2 * N) := mul_le_mul_of_nonneg_left hσ1 (by positivity)
  have p3 : 0 ≤ ε * η α * N := by positivity
  nlinarith [sq_nonneg (η α)]

/-! ## Few entries -/

theorem sum_few (l : List (Nat × Nat)) {t : ℝ} (ht : 0 ≤ t) :
    ∑ a : Fin m, ∑ b : Fin n, (if (a.1, b.1) ∈ l then t else 0) ≤ l.length * t := by
  induction l with
  | nil => simp
  | cons x l ih =>
    have h1 : ∑ a : Fin m, ∑ b : Fin n, (if (a.1, b.1) ∈ x :: l then t else 0) ≤
        ∑ a : Fin m, ∑ b : Fin n, (if (a.1, b.1) = x then t else 0) +
          ∑ a : Fin m, ∑ b : Fin n, (if (a.1, b.1) ∈ l then t else 0) := by
      rw [← sum_add_distrib]
      refine sum_le_sum fun a _ => ?_
      rw [← sum_add_distrib]
      refine sum_le_sum fun b _ => ?_
      by_cases c1 : (a.1, b.1) = x
      · rw [if_pos (by rw [c1]; exact List.mem_cons_self), if_pos c1]
        have : 0 ≤ if (a.1, b.1) ∈ l then t else 0 := by split <;> [exact ht; exact le_rfl]
        linarith
      · rw [if_neg c1]
        by_cases c2 : (a.1, b.1) ∈ l
        · rw [if_pos (List.mem_cons_of_mem _ c2), if_pos c2]; linarith
        · rw [if_neg (by simp [c1, c2]), if_neg c2]; linarith
    have h2 : ∑ a : Fin m, ∑ b : Fin n, (if (a.1, b.1) = x then t else 0) ≤ t := by
      by_cases hx : x.1 < m ∧ x.2 < n
      · rw [sum_eq_single ⟨x.1, hx.1⟩, sum_eq_single ⟨x.2, hx.2⟩, if_pos rfl]
        · intro b _ hb
          rw [if_neg]
          intro h
          exact hb (Fin.ext (congrArg Prod.snd h))
        · exact fun h => absurd (mem_univ _) h
        · intro a _ ha
          refine sum_eq_zero fun b _ => if_neg ?_
          intro h
          exact ha (Fin.ext (congrArg Prod.fst h))
        · exact fun h => absurd (mem_univ _) h
      · rw [sum_eq_zero fun a _ => sum_eq_zero fun b _ => if_neg ?_]
        · exact ht
        · intro h
          exact hx (by rw [← h]; exact ⟨a.2, b.2⟩)
    rw [List.length_cons]
    push_cast
    linarith

/-- A matrix with few entries. -/
theorem fro_few {M : Matrix (Fin m) (Fin n) ℝ} (l : List (Nat × Nat)) {δ q : ℝ} (hδ : 0 ≤ δ) (hq : 0 ≤ q)
    (hl : (l.length : ℝ) ≤ q ^ 2) (h : ∀ a b : Fin _, (a.1, b.1) ∈ l → |M a b| ≤ δ)
    (h0 : ∀ a b : Fin _, (a.1, b.1) ∉ l → M a b = 0) : fro M ≤ q * δ := by
  unfold fro
  refine Real.sqrt_le_iff.2 ⟨by positivity, ?_⟩
  refine (sum_le_sum fun a _ => sum_le_sum fun b _ => ?_).trans ((sum_few l (sq_nonneg δ)).trans ?_)
  · split
    · next c => rw [← sq_abs]; exact pow_le_pow_left₀ (abs_nonneg _) (h a b c) 2
    · next c => rw [h0 a b c]; simp
  · rw [mul_pow]
    exact mul_le_mul_of_nonneg_right hl (sq_nonneg _)

/-! ## Accumulation -/

/-- `U` is near to `U₀ P`, `V` to `V₀ Q` and `B₀` to `P W Qᵀ` with orthogonal `P` and `Q`, after `k` rotations. -/
def Svd.RNear (α : Type) [Flt α] [Rnd α] (ε ω : ℝ) (U₀ : Matrix (Fin m) (Fin n) ℝ) (V₀ B₀ : Matrix (Fin n) (Fin n) ℝ) (k : Nat)
    (U : Matrix (Fin m) (Fin n) ℝ) (V W : Matrix (Fin n) (Fin n) ℝ) : Prop :=
  ∃ P Q : Matrix (Fin n) (Fin n) ℝ, Pᵀ * P = 1 ∧ Qᵀ * Q = 1 ∧
    fro (U - U₀ * P) ≤ rotErr (22 * ε) (√m * (5 * η α)) 0 (fro U₀) k ∧
    fro (V - V₀ * Q) ≤ rotErr (22 * ε) (√n * (5 * η α)) 0 (fro V₀) k ∧
    fro (B₀ - P * W * Qᵀ) ≤ rotErr (75 * ε) (75 * ω) 0 (fro B₀) k

variable {ε ω : ℝ} {U₀ U U' : Matrix (Fin m) (Fin n) ℝ} {V₀ B₀ V V' W W' : Matrix (Fin n) (Fin n) ℝ} {k l N : Nat}

theorem Svd.RNear.mono (he0 : 0 ≤ ε) (hω : 0 ≤ ω) (hkl : k ≤ l) (h : Svd.RNear α ε ω U₀ V₀ B₀ k U V W) :
    Svd.RNear α ε ω U₀ V₀ B₀ l U V W := by
  have hη := η_nonneg (α := α)
  obtain ⟨P, Q, h1, h2, h3, h4, h5⟩ := h
  exact ⟨P, Q, h1, h2, h3.trans (rotErr_mono (by linarith) (by positivity) le_rfl (fro_nonneg _) hkl),
    h4.trans (rotErr_mono (by linarith) (by positivity) le_rfl (fro_nonneg _) hkl),
    h5.trans (rotErr_mono (by linarith) (by linarith) le_rfl (fro_nonneg _) hkl)⟩

theorem Svd.RNear.size (h : Svd.RNear α ε ω U₀ V₀ B₀ k U V W) :
    fro W ≤ rotErr (75 * ε) (75 * ω) 0 (fro B₀) k + fro B₀ := by
  obtain ⟨P, Q, h1, h2, -, -, h5⟩ := h
  have e1 : fro W = fro (P * W * Qᵀ) := by
    rw [fro_right (by rw [Matrix.transpose_transpose]; exact h2), fro_left h1]
  rw [e1, show P * W * Qᵀ = -(B₀ - P * W * Qᵀ) + B₀ by abel]
  refine (fro_add_le _ _).trans ?_
  rw [fro_neg]
  linarith

/-- The norms stay far from overflow for `N` steps. -/
def Svd.Room (α : Type) [Flt α] [Rnd α] (ε ω : ℝ) (B₀ : Matrix (Fin n) (Fin n) ℝ) (N : Nat) : Prop :=
  16 * (rotErr (75 * ε) (75 * ω) 0 (fro B₀) N + fro B₀) ≤ Rnd.big α

theorem Svd.RNear.room (he0 : 0 ≤ ε) (hω : 0 ≤ ω) (hR : Svd.Room α ε ω B₀ N) (hk : k ≤ N)
    (h : Svd.RNear α ε ω U₀ V₀ B₀ k U V W) : 16 * fro W ≤ Rnd.big α := by
  have h1 := h.size
  have h2 := rotErr_mono (ε := 75 * ε) (ω := 75 * ω) (E := 0) (b := fro B₀) (by linarith) (by linarith) le_rfl
    (fro_nonneg _) hk
  unfold Svd.Room at hR
  linarith

theorem fro_zero' : fro (0 : Matrix (Fin m) (Fin n) ℝ) = 0 := by unfold fro; simp

theorem Svd.RNear.turn (he0 : 0 ≤ ε) (hω : 0 ≤ ω) {G H : Matrix (Fin n) (Fin n) ℝ}
    (h : Svd.RNear α ε ω U₀ V₀ B₀ k U V W) (hG : G * Gᵀ = 1) (hH : H * Hᵀ = 1)
    (hU : fro (U' - U * G) ≤ 22 * ε * fro U + √m * (5 * η α))
    (hV : fro (V' - V * H) ≤ 22 * ε * fro V + √n * (5 * η α))
    (hW : fro (W' - Gᵀ * W * H) ≤ 75 * (ε * fro W + ω)) : Svd.RNear α ε ω U₀ V₀ B₀ (k + 1) U' V' W' := by
  have hη := η_nonneg (α := α)
  have hs := h.size
  obtain ⟨P, Q, h1, h2, h3, h4, h5⟩ := h
  have h1' : P * Pᵀ = 1 := mul_eq_one_comm.1 h1
  have h2' : Q * Qᵀ = 1 := mul_eq_one_comm.1 h2
  have hG' : Gᵀ * G = 1 := mul_eq_one_comm.1 hG
  have hH' : Hᵀ * H = 1 := mul_eq_one_comm.1 hH
  refine ⟨P * G, Q * H, ?_, ?_, ?_, ?_, ?_⟩
  · rw [Matrix.transpose_mul, Matrix.mul_assoc, ← Matrix.mul_assoc Pᵀ, h1, Matrix.one_mul, hG']
  · rw [Matrix.transpose_mul, Matrix.mul_assoc, ← Matrix.mul_assoc Qᵀ, h2, Matrix.one_mul, hH']
  · have hn : fro U ≤ rotErr (22 * ε) (√m * (5 * η α)) 0 (fro U₀) k + fro U₀ := by
      rw [show U = (U - U₀ * P) + U₀ * P by abel]
      refine (fro_add_le _ _).trans ?_
      rw [fro_right h1']
      linarith
    refine rotErr_step (by linarith) (by positivity) le_rfl hn ?_
    rw [show U' - U₀ * (P * G) = (U - U₀ * P) * G + (U' - U * G) by
      rw [Matrix.sub_mul, Matrix.mul_assoc]; abel]
    refine (fro_add_le _ _).trans ?_
    rw [fro_right hG]
    linarith
  · have hn : fro V ≤ rotErr (22 * ε) (√n * (5 * η α)) 0 (fro V₀) k + fro V₀ := by
      rw [show V = (V - V₀ * Q) + V₀ * Q by abel]
      refine (fro_add_le _ _).trans ?_
      rw [fro_right h2']
      linarith
    refine rotErr_step (by linarith) (by positivity) le_rfl hn ?_
    rw [show V' - V₀ * (Q * H) = (V - V₀ * Q) * H + (V' - V * H) by
      rw [Matrix.sub_mul, Matrix.mul_assoc]; abel]
    refine (fro_add_le _ _).trans ?_
    rw [fro_right hH]
    linarith
  · refine rotErr_step (by linarith) (by linarith) le_rfl hs ?_
    have e1 : B₀ - P * G * W' * (Q * H)ᵀ = (B₀ - P * W * Qᵀ) + -(P * (G * (W' - Gᵀ * W * H) * Hᵀ) * Qᵀ) := by
      have e2 : G * (W' - Gᵀ * W * H) * Hᵀ = G * W' * Hᵀ - W := by
        rw [Matrix.mul_sub, Matrix.sub_mul]
        congr 1
        calc G * (Gᵀ * W * H) * Hᵀ = (G * Gᵀ) * W * (H * Hᵀ) := by simp only [Matrix.mul_assoc]
          _ = W := by rw [hG, hH, Matrix.one_mul, Matrix.mul_one]
      rw [e2, Matrix.transpose_mul, Matrix.mul_sub, Matrix.sub_mul]
      simp only [Matrix.mul_assoc]
      abel
    rw [e1]
    refine (fro_add_le _ _).trans ?_
    rw [fro_neg, fro_right (by rw [Matrix.transpose_transpose]; exact h2), fro_left h1,
      fro_right (by rw [Matrix.transpose_transpose]; exact hH'), fro_left hG']
    linarith

theorem Svd.RNear.turnV (he0 : 0 ≤ ε) (hω : 0 ≤ ω) {H : Matrix (Fin n) (Fin n) ℝ}
    (h : Svd.RNear α ε ω U₀ V₀ B₀ k U V W) (hH : H * Hᵀ = 1)
    (hV : fro (V' - V * H) ≤ 22 * ε * fro V + √n * (5 * η α))
    (hW : fro (W' - W * H) ≤ 75 * (ε * fro W + ω)) : Svd.RNear α ε ω U₀ V₀ B₀ (k + 1) U V' W' := by
  have hη := η_nonneg (α := α)
  refine h.turn he0 hω (G := 1) (by simp) hH ?_ hV (by rw [Matrix.transpose_one, Matrix.one_mul]; exact hW)
  rw [Matrix.mul_one, sub_self, fro_zero']
  have := fro_nonneg U
  positivity

theorem Svd.RNear.turnU (he0 : 0 ≤ ε) (hω : 0 ≤ ω) {G : Matrix (Fin n) (Fin n) ℝ}
    (h : Svd.RNear α ε ω U₀ V₀ B₀ k U V W) (hG : G * Gᵀ = 1)
    (hU : fro (U' - U * G) ≤ 22 * ε * fro U + √m * (5 * η α))
    (hW : fro (W' - Gᵀ * W) ≤ 75 * (ε * fro W + ω)) : Svd.RNear α ε ω U₀ V₀ B₀ (k + 1) U' V W' := by
  have hη := η_nonneg (α := α)
  refine h.turn he0 hω (H := 1) hG (by simp) hU ?_ (by rw [Matrix.mul_one]; exact hW)
  rw [Matrix.mul_one, sub_self, fro_zero']
  have := fro_nonneg V
  positivity

/-- A step without a rotation. -/
theorem Svd.RNear.still (he0 : 0 ≤ ε) (hω : 0 ≤ ω) (h : Svd.RNear α ε ω U₀ V₀ B₀ k U V W)
    (hW : fro (W' - W) ≤ 75 * (ε * fro W + ω)) : Svd.RNear α ε ω U₀ V₀ B₀ (k + 1) U V W' := by
  have hη := η_nonneg (α := α)
  refine h.turnV he0 hω (H := 1) (by simp) ?_ (by rw [Matrix.mul_one]; exact hW)
  rw [Matrix.mul_one, sub_self, fro_zero']
  have := fro_nonneg V
  positivity

end Linear
