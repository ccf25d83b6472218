import Verif.Lemmas.RoundHessRed
import Verif.Lemmas.RoundQRQ

/-!
# The orthogonal factor of the Hessenberg reduction in rounded arithmetic
-/

set_option linter.unusedSectionVars false

namespace Linear

open Spec Rnd Matrix
open Finset hiding val diag

variable {α : Type} [Flt α] [Rnd α] {m : Nat}

omit [Rnd α] [Flt α] in
/-- Reflections along nearby vectors are near. -/
theorem reflV_near {S : Finset ℕ} {V W t : ℕ → ℝ} {δ : ℝ} (hV : 0 < ∑ s ∈ S, V s ^ 2)
    (hd : Spec.nrm S (fun i => W i - V i) ≤ δ * Spec.nrm S V) (hδ0 : 0 ≤ δ) (hδ : δ ≤ 1 / 100) :
    Spec.nrm S (fun i => reflV S W t i - reflV S V t i) ≤ 81 / 10 * δ * Spec.nrm S t := by
  have ea := nrm_sq (S := S) (x := V)
  have eb := nrm_sq (S := S) (x := W)
  have a0 := nrm_nonneg (S := S) (x := V)
  have b0 := nrm_nonneg (S := S) (x := W)
  have T0 := nrm_nonneg (S := S) (x := t)
  have d0 := nrm_nonneg (S := S) (x := fun i => W i - V i)
  have hb1 : Spec.nrm S V ≤ Spec.nrm S W + Spec.nrm S (fun i => W i - V i) := by
    have := nrm_sub_le (S := S) (x := W) (y := fun i => W i - V i)
    simpa using this
  have k1 := abs_dot_le (S := S) (x := t) (y := V)
  have k2 := abs_dot_le (S := S) (x := t) (y := fun i => W i - V i)
  have k3 := abs_dot_le (S := S) (x := fun i => W i - V i) (y := V)
  have e2 : ∑ s ∈ S, t s * (W s - V s) = ∑ s ∈ S, t s * W s - ∑ s ∈ S, t s * V s := by
    rw [← sum_sub_distrib]; exact sum_congr rfl fun i _ => by ring
  have e3 : ∑ s ∈ S, W s ^ 2 - ∑ s ∈ S, V s ^ 2 =
      2 * ∑ s ∈ S, (W s - V s) * V s + Spec.nrm S (fun i => W i - V i) ^ 2 := by
    rw [nrm_sq, mul_sum, ← sum_sub_distrib, ← sum_add_distrib]
    exact sum_congr rfl fun i _ => by ring
  rw [e2] at k2
  have e1 : ∀ i ∈ S, reflV S W t i - reflV S V t i =
      (2 * (∑ s ∈ S, t s * V s) / (∑ s ∈ S, V s ^ 2) - 2 * (∑ s ∈ S, t s * W s) / (∑ s ∈ S, W s ^ 2)) * W i +
        -(2 * (∑ s ∈ S, t s * V s) / (∑ s ∈ S, V s ^ 2)) * (W i - V i) := by
    intro i _
    unfold reflV
    ring
  rw [nrm_congr e1]
  refine nrm_add_le.trans ?_
  rw [nrm_mul, nrm_mul]
  rw [← ea] at hV e3 ⊢
  rw [← eb] at e3 ⊢
  clear e1 ea eb e2
  generalize Spec.nrm S (fun i => W i - V i) = d at *
  generalize Spec.nrm S V = a at *
  generalize Spec.nrm S W = b at *
  generalize Spec.nrm S t = T at *
  generalize ∑ s ∈ S, t s * V s = p at *
  generalize ∑ s ∈ S, t s * W s = q at *
  generalize ∑ s ∈ S, (W s - V s) * V s = r at *
  have ha : 0 < a := by
    rcases a0.lt_or_eq with h | h
    · exact h
    · rw [← h] at hV; norm_num at hV
  have hb2 : 99 / 100 * a ≤ b := by
    have : δ * a ≤ 1 / 100 * a := by gcongr
    linarith
  have hb : 0 < b := lt_of_lt_of_le (by positivity) hb2
  have hr : |b ^ 2 - a ^ 2| ≤ 201 / 100 * δ * a ^ 2 := by
    rw [e3]
    refine (abs_add_le _ _).trans ?_
    rw [abs_mul, abs_two, abs_of_nonneg (sq_nonneg d)]
    have h1 : d * a ≤ δ * a * a := by gcongr
    have h2 : d ^ 2 ≤ (δ * a) ^ 2 := by gcongr
    have h3 : (δ * a) ^ 2 ≤ 1 / 100 * δ * a ^ 2 := by
      rw [mul_pow]
      have : δ ^ 2 ≤ 1 / 100 * δ := by nlinarith
      gcongr
    linarith [h1.trans_eq (by ring : δ * a * a = δ * a ^ 2)]
  have hc : |2 * p / a ^ 2 - 2 * q / b ^ 2| * b ≤ 61 / 10 * δ * T := by
    have i1 : 2 * p / a ^ 2 - 2 * q / b ^ 2 = 2 * (p * (b ^ 2 - a ^ 2) - (q - p) * a ^ 2) / (a ^ 2 * b ^ 2) := by
      field_simp
      ring
    have i2 : |p * (b ^ 2 - a ^ 2) - (q - p) * a ^ 2| ≤ 301 / 100 * δ * T * a ^ 3 := by
      refine (abs_sub _ _).trans ?_
      rw [abs_mul, abs_mul, abs_of_nonneg (sq_nonneg a)]
      have j1 : |p| * |b ^ 2 - a ^ 2| ≤ T * a * (201 / 100 * δ * a ^ 2) := by gcongr
      have j2 : |q - p| * a ^ 2 ≤ T * (δ * a) * a ^ 2 := by
        refine mul_le_mul_of_nonneg_right (k2.trans ?_) (sq_nonneg a)
        gcongr
      linarith
    rw [i1, abs_div, abs_mul, abs_two, abs_of_pos (by positivity : 0 < a ^ 2 * b ^ 2), div_mul_eq_mul_div,
      div_le_iff₀ (by positivity)]
    have i3 : 2 * |p * (b ^ 2 - a ^ 2) - (q - p) * a ^ 2| * b ≤ 2 * (301 / 100 * δ * T * a ^ 3) * b := by gcongr
    refine i3.trans ?_
    have i4 : 602 / 100 * a ≤ 61 / 10 * b := by linarith
    have i5 := mul_le_mul_of_nonneg_left i4 (show 0 ≤ δ * T * a ^ 2 * b by positivity)
    linarith [i5.trans_eq (by ring : δ * T * a ^ 2 * b * (61 / 10 * b) = 61 / 10 * δ * T * (a ^ 2 * b ^ 2))]
  have hc2 : |-(2 * p / a ^ 2)| * d ≤ 2 * δ * T := by
    rw [abs_neg, abs_div, abs_mul, abs_two, abs_of_pos (by positivity : 0 < a ^ 2), div_mul_eq_mul_div,
      div_le_iff₀ (by positivity)]
    calc 2 * |p| * d ≤ 2 * (T * a) * (δ * a) := by gcongr
      _ = _ := by ring
  linarith

omit [Rnd α] [Flt α] in
/-- The stored head and signed norm against the scaled ones. -/
theorem Hess.stored_scalar {s g o v w G e κ η u : ℝ} (hs : 0 < s) (hu : u ≤ e) (he0 : 0 ≤ e)
    (he : e ≤ 1 / 1000) (hκ : κ ≤ 1 / 100) (hG : η ≤ e * |G|) (hG0 : G ≠ 0)
    (hG1 : |G - s * g| ≤ u * |G| + η) (hw : |w - s * v| ≤ u * |s * v| + η)
    (hv : |v - (o - g)| ≤ κ * |o - g|) (hog : |o - g| = |o| + |g|) (hsg : o * g ≤ 0) :
    s * o * G ≤ 0 ∧ |s * g| ≤ 1002 / 1000 * |G| ∧ |G ^ 2 - (s * g) ^ 2| ≤ 401 / 100 * e * G ^ 2 ∧
      |w - s * v| ≤ 21 / 10 * e * |s * v| ∧ |s * g| ≤ 102 / 100 * |s * v| ∧
      |w - (s * o - G)| ≤ (102 / 100 * κ + 42 / 10 * e) * |s * o - G| := by
  have hGp : 0 < |G| := abs_pos.2 hG0
  have uG : u * |G| ≤ e * |G| := by gcongr
  have a1 : |G - s * g| ≤ 2 * e * |G| := by linarith
  have eG : 2 * e * |G| ≤ 1 / 500 * |G| := by
    have : e * |G| ≤ 1 / 1000 * |G| := by gcongr
    linarith
  have a2 : |s * g| ≤ (1 + 2 * e) * |G| := by
    have := abs_sub_abs_le_abs_sub (s * g) G
    rw [abs_sub_comm] at this
    linarith
  have a3 : |G| ≤ 1003 / 1000 * |s * g| := by
    have := abs_sub_abs_le_abs_sub G (s * g)
    linarith
  have hGg : 0 < G * (s * g) := by
    have h1 : G * (s * g) = G ^ 2 - G * (G - s * g) := by ring
    have h2 : |G * (G - s * g)| ≤ 1 / 500 * G ^ 2 := by
      rw [abs_mul, ← sq_abs G]
      nlinarith [mul_le_mul_of_nonneg_left (a1.trans eG) hGp.le]
    have h3 := (abs_le.1 h2).2
    have h4 : 0 < G ^ 2 := by positivity
    rw [h1]
    linarith
  have hg0 : g ≠ 0 := by
    rintro rfl
    simp at hGg
  have c1 : s * o * G ≤ 0 := by
    have h1 : s * o * G * g ^ 2 = (o * g) * (G * (s * g)) := by ring
    have h2 : s * o * G * g ^ 2 ≤ 0 := by rw [h1]; exact mul_nonpos_of_nonpos_of_nonneg hsg hGg.le
    by_contra hc
    push Not at hc
    have := mul_pos hc (show 0 < g ^ 2 by positivity)
    linarith
  have c3 : |G ^ 2 - (s * g) ^ 2| ≤ 401 / 100 * e * G ^ 2 := by
    have h1 : G ^ 2 - (s * g) ^ 2 = (G - s * g) * (G + s * g) := by ring
    have h2 : |G + s * g| ≤ (2 + 2 * e) * |G| := by
      have := abs_add_le G (s * g)
      linarith
    rw [h1, abs_mul, ← sq_abs G]
    calc |G - s * g| * |G + s * g| ≤ 2 * e * |G| * ((2 + 2 * e) * |G|) := by gcongr
      _ = e * (4 + 4 * e) * |G| ^ 2 := by ring
      _ ≤ e * (401 / 100) * |G| ^ 2 := by gcongr; linarith
      _ = _ := by ring
  have hsabs : ∀ z : ℝ, |s * z| = s * |z| := fun z => by rw [abs_mul, abs_of_pos hs]
  have b1 : |s * v| ≥ 99 / 100 * (s * (|o| + |g|)) := by
    have h1 := abs_sub_abs_le_abs_sub (o - g) v
    rw [abs_sub_comm (o - g) v, hog] at h1
    rw [hog] at hv
    have h2 : κ * (|o| + |g|) ≤ 1 / 100 * (|o| + |g|) := by gcongr
    rw [hsabs]
    have h3 : 99 / 100 * (|o| + |g|) ≤ |v| := by linarith
    nlinarith
  have b2 : |s * v| ≤ 101 / 100 * (s * (|o| + |g|)) := by
    have h1 := abs_sub_abs_le_abs_sub v (o - g)
    rw [hog] at h1 hv
    have h2 : κ * (|o| + |g|) ≤ 1 / 100 * (|o| + |g|) := by gcongr
    rw [hsabs]
    have h3 : |v| ≤ 101 / 100 * (|o| + |g|) := by linarith
    nlinarith
  have so0 : 0 ≤ s * |o| := by positivity
  have c5 : |s * g| ≤ 102 / 100 * |s * v| := by
    rw [hsabs g] at *
    linarith
  have c4 : |w - s * v| ≤ 21 / 10 * e * |s * v| := by
    have h1 : |G| ≤ 11 / 10 * |s * v| := by linarith
    have h2 : e * |G| ≤ e * (11 / 10 * |s * v|) := by gcongr
    have h3 : u * |s * v| ≤ e * |s * v| := by gcongr
    linarith
  refine ⟨c1, a2.trans ?_, c3, c4, c5, ?_⟩
  · refine mul_le_mul_of_nonneg_right ?_ hGp.le
    linarith
  · have d1 : |s * o - G| = |s * o| + |G| := by
      rcases le_total 0 G with hc | hc
      · have hso : s * o ≤ 0 := by
          by_contra h
          push Not at h
          have := mul_pos h (lt_of_le_of_ne hc hG0.symm)
          linarith
        rw [abs_of_nonpos (by linarith), abs_of_nonpos hso, abs_of_nonneg hc]; ring
      · have hso : 0 ≤ s * o := by
          by_contra h
          push Not at h
          have := mul_pos_of_neg_of_neg h (lt_of_le_of_ne hc hG0)
          linarith
        rw [abs_of_nonneg (by linarith), abs_of_nonneg hso, abs_of_nonpos hc]; ring
    have d2 : |s * v - (s * o - s * g)| ≤ κ * (s * (|o| + |g|)) := by
      rw [show s * v - (s * o - s * g) = s * (v - (o - g)) by ring, hsabs]
      rw [hog] at hv
      nlinarith
    have d3 : w - (s * o - G) = (w - s * v) + (s * v - (s * o - s * g)) + (G - s * g) := by ring
    have d4 := abs_add_le ((w - s * v) + (s * v - (s * o - s * g))) (G - s * g)
    have d5 := abs_add_le (w - s * v) (s * v - (s * o - s * g))
    rw [← d3] at d4
    rw [d1, hsabs o]
    rw [hsabs g] at a2
    have hκ0 : 0 ≤ κ := by
      have h1 := (abs_nonneg _).trans hv
      rw [hog] at h1
      have h2 : 0 < |o| + |g| := by positivity
      exact nonneg_of_mul_nonneg_left h1 h2
    have d6 : s * (|o| + |g|) ≤ 1002 / 1000 * (s * |o| + |G|) := by
      have : (1 + 2 * e) * |G| ≤ (1 + 2 * (1 / 1000)) * |G| := by gcongr
      linarith
    have d7 : κ * (s * (|o| + |g|)) ≤ κ * (1002 / 1000 * (s * |o| + |G|)) := by gcongr
    have d8 : 21 / 10 * e * |s * v| ≤ 21 / 10 * e * (101 / 100 * (1002 / 1000 * (s * |o| + |G|))) := by
      gcongr
      linarith
    have d9 : 2 * e * |G| ≤ 2 * e * (s * |o| + |G|) := by gcongr; linarith
    have d10 : 0 ≤ e * (s * |o| + |G|) := by positivity
    have d11 : 0 ≤ κ * (s * |o| + |G|) := by positivity
    linarith

/-- The stored vector of a column. -/
noncomputable def Hess.stV (k : Nat) (x : Nat → α) (w : α) (i : Nat) : ℝ := if i = k then val w else val (x i)

/-- The column to which the stored vector belongs. -/
noncomputable def Hess.stX (k : Nat) (x o : Nat → α) (σ : α) (i : Nat) : ℝ :=
  if i = k then val σ * val (o k) else val (x i)

set_option maxHeartbeats 800000 in
/-- The stored reflector is nearly that of the column, and near to the one that was applied. -/
theorem Hess.Scl.stored {k N : Nat} {e : ℝ} {x o v : Nat → α} {σ g h : α} (H : Hess.Scl k m N e x o v σ g h)
    (hk : k < m) (hN : m ≤ N) (he : Rnd.u α ≤ e) (hM : (N + 4) * e ≤ 1 / 200) (hη : 5 * N ^ 2 * η α ≤ e)
    (hfg : fin (Flt.mul σ g)) (hfv : fin (Flt.mul σ (v k))) (hG : N * η α ≤ e * |val (Flt.mul σ g)|)
    (hG0 : val (Flt.mul σ g) ≠ 0) :
    HHR (Ico k m) k (7 / 2 * (N + 4) * e) (Hess.stX k x o σ) (Hess.stV k x (Flt.mul σ (v k))) (val (Flt.mul σ g)) ∧
    Spec.nrm (Ico k m) (fun i => Hess.stV k x (Flt.mul σ (v k)) i - val σ * val (v i)) ≤
      7 / 2 * e * Spec.nrm (Ico k m) (fun i => val σ * val (v i)) := by
  have hu := u_nonneg (α := α)
  have hη0 := η_nonneg (α := α)
  have he0 : 0 ≤ e := hu.trans he
  have hN1 : (1 : ℝ) ≤ N := by exact_mod_cast (show 1 ≤ N by omega)
  have he1 : e ≤ 1 / 1000 := by nlinarith
  have hκ : 2 * ((N : ℝ) + 4) * e ≤ 1 / 100 := by linarith
  have h5e : 5 * e ≤ (N + 4) * e := by gcongr; linarith
  have hkS : k ∈ Ico k m := mem_Ico.2 ⟨le_rfl, hk⟩
  have hσ := H.pos
  have hGη : η α ≤ e * |val (Flt.mul σ g)| := le_trans (le_mul_of_one_le_left hη0 hN1) hG
  obtain ⟨c1, c2, c3, c4, c5, c6⟩ := Hess.stored_scalar hσ he he0 he1 hκ hGη hG0 (mul_err hfg).2 (mul_err hfv).1
    H.hhr.head H.hhr.sub_abs H.hhr.sign
  have hd := H.delta hk hN he hη
  have hO : Spec.nrm (Ico k m) (fun i => val σ * val (o i)) = val σ * Spec.nrm (Ico k m) (fun i => val (o i)) := by
    rw [nrm_mul, abs_of_pos hσ]
  have hO0 := nrm_nonneg (S := Ico k m) (x := fun i => val σ * val (o i))
  have hD : Spec.nrm (Ico k m) (fun i => val σ * val (o i) - val (x i)) ≤
      123 / 100 * e * Spec.nrm (Ico k m) (fun i => val σ * val (o i)) := by
    have h1 := nrm_sub_le (S := Ico k m) (x := fun i => val σ * val (o i))
      (y := fun i => val σ * val (o i) - val (x i))
    simp only [sub_sub_cancel] at h1
    have hx0 := nrm_nonneg (S := Ico k m) (x := fun i => val (x i))
    generalize Spec.nrm (Ico k m) (fun i => val σ * val (o i) - val (x i)) = D at *
    generalize Spec.nrm (Ico k m) (fun i => val (x i)) = X at *
    generalize Spec.nrm (Ico k m) (fun i => val σ * val (o i)) = O at *
    have h2 : e * X ≤ 1 / 1000 * X := by gcongr
    have h3 : X ≤ 10013 / 10000 * O := by linarith
    have h4 : 61 / 50 * e * X ≤ 61 / 50 * e * (10013 / 10000 * O) := by gcongr
    have h5 : 0 ≤ e * O := by positivity
    linarith
  have hOg : Spec.nrm (Ico k m) (fun i => val σ * val (o i)) ^ 2 = val σ ^ 2 * ∑ i ∈ Ico k m, val (o i) ^ 2 := by
    rw [hO, mul_pow, nrm_sq]
  have hn := H.hhr.norm
  have hno : |(val σ * val g) ^ 2 - Spec.nrm (Ico k m) (fun i => val σ * val (o i)) ^ 2| ≤
      2 * (N + 4) * e * (val σ * val g) ^ 2 := by
    rw [hOg, show (val σ * val g) ^ 2 - val σ ^ 2 * ∑ i ∈ Ico k m, val (o i) ^ 2 =
      val σ ^ 2 * (val g ^ 2 - ∑ i ∈ Ico k m, val (o i) ^ 2) by ring, abs_mul, abs_of_nonneg (sq_nonneg (val σ))]
    have := mul_le_mul_of_nonneg_left hn (sq_nonneg (val σ))
    linarith
  have hO2 : Spec.nrm (Ico k m) (fun i => val σ * val (o i)) ≤ 101 / 100 * |val σ * val g| := by
    refine abs_le_of_sq_le_sq' ?_ (by positivity) |>.2
    rw [mul_pow, sq_abs]
    have h1 := (abs_le.1 hno).1
    have h2 : 2 * (N + 4) * e * (val σ * val g) ^ 2 ≤ 1 / 100 * (val σ * val g) ^ 2 := by gcongr
    have h3 := sq_nonneg (val σ * val g)
    linarith
  have hX' : Spec.nrm (Ico k m) (fun i => Hess.stX k x o σ i - val σ * val (o i)) ≤
      Spec.nrm (Ico k m) (fun i => val σ * val (o i) - val (x i)) := by
    refine nrm_mono fun i _ => ?_
    unfold Hess.stX
    by_cases hi : i = k
    · rw [if_pos hi, hi, sub_self, abs_zero]; exact abs_nonneg _
    · rw [if_neg hi, abs_sub_comm]
  refine ⟨⟨hkS, hG0, ?_, ?_, ?_, fun i _ hi => ?_, by positivity, by linarith⟩, ?_⟩
  · have h1 : Spec.nrm (Ico k m) (Hess.stX k x o σ) ≤ Spec.nrm (Ico k m) (fun i => val σ * val (o i)) +
        Spec.nrm (Ico k m) (fun i => Hess.stX k x o σ i - val σ * val (o i)) := by
      have := nrm_add_le (S := Ico k m) (x := fun i => val σ * val (o i))
        (y := fun i => Hess.stX k x o σ i - val σ * val (o i))
      simpa only [add_sub_cancel] using this
    have h2 : Spec.nrm (Ico k m) (fun i => val σ * val (o i)) ≤ Spec.nrm (Ico k m) (Hess.stX k x o σ) +
        Spec.nrm (Ico k m) (fun i => Hess.stX k x o σ i - val σ * val (o i)) := by
      have := nrm_sub_le (S := Ico k m) (x := Hess.stX k x o σ)
        (y := fun i => Hess.stX k x o σ i - val σ * val (o i))
      simpa only [sub_sub_cancel] using this
    have h3 := hX'.trans hD
    rw [← nrm_sq]
    have hX0 := nrm_nonneg (S := Ico k m) (x := Hess.stX k x o σ)
    have hsq : (val σ * val g) ^ 2 ≤ 101 / 100 * val (Flt.mul σ g) ^ 2 := by
      rw [← sq_abs, ← sq_abs (val (Flt.mul σ g))]
      have := pow_le_pow_left₀ (abs_nonneg _) c2 2
      rw [mul_pow] at this
      have h6 : 0 ≤ |val (Flt.mul σ g)| ^ 2 := by positivity
      linarith
    generalize Spec.nrm (Ico k m) (Hess.stX k x o σ) = X at *
    generalize Spec.nrm (Ico k m) (fun i => Hess.stX k x o σ i - val σ * val (o i)) = D at *
    generalize Spec.nrm (Ico k m) (fun i => val σ * val (o i)) = O at *
    have h4 : |O ^ 2 - X ^ 2| ≤ 25 / 10 * e * O ^ 2 := by
      have i1 : |O - X| ≤ 123 / 100 * e * O := abs_le.2 ⟨by linarith, by linarith⟩
      have i2 : |O + X| ≤ 2002 / 1000 * O := by
        rw [abs_of_nonneg (by linarith)]
        have : e * O ≤ 1 / 1000 * O := by gcongr
        linarith
      rw [show O ^ 2 - X ^ 2 = (O - X) * (O + X) by ring, abs_mul]
      calc |O - X| * |O + X| ≤ 123 / 100 * e * O * (2002 / 1000 * O) := by gcongr
        _ = 246246 / 100000 * (e * O ^ 2) := by ring
        _ ≤ _ := by
          have : 0 ≤ e * O ^ 2 := by positivity
          linarith
    have h5 : O ^ 2 ≤ 1031 / 1000 * val (Flt.mul σ g) ^ 2 := by
      have := pow_le_pow_left₀ hO0 hO2 2
      rw [mul_pow, sq_abs] at this
      have h6 : 0 ≤ val (Flt.mul σ g) ^ 2 := by positivity
      linarith
    generalize val (Flt.mul σ g) = G at *
    have h7 : 25 / 10 * e * O ^ 2 ≤ 25 / 10 * e * (1031 / 1000 * G ^ 2) := by gcongr
    have h8 : 2 * (N + 4) * e * (val σ * val g) ^ 2 ≤ 2 * (N + 4) * e * (101 / 100 * G ^ 2) := by gcongr
    have h9 : G ^ 2 - X ^ 2 = (G ^ 2 - (val σ * val g) ^ 2) + (((val σ * val g) ^ 2 - O ^ 2) + (O ^ 2 - X ^ 2)) := by ring
    rw [h9]
    refine (abs_add_le _ _).trans ((add_le_add le_rfl (abs_add_le _ _)).trans ?_)
    have h10 : 5 * e * G ^ 2 ≤ (N + 4) * e * G ^ 2 := by gcongr
    have h11 : 0 ≤ (N + 4) * e * G ^ 2 := by positivity
    have h12 : 0 ≤ e * G ^ 2 := by positivity
    linarith
  · unfold Hess.stX
    rw [if_pos rfl]
    exact c1
  · unfold Hess.stX Hess.stV
    rw [if_pos rfl, if_pos rfl]
    refine c6.trans (mul_le_mul_of_nonneg_right ?_ (abs_nonneg _))
    linarith
  · unfold Hess.stX Hess.stV
    rw [if_neg hi, if_neg hi]
  · have e1 : ∀ i ∈ Ico k m, Hess.stV k x (Flt.mul σ (v k)) i - val σ * val (v i) =
        (if i = k then val (Flt.mul σ (v k)) - val σ * val (v k) else 0) +
          (if i = k then 0 else val (x i) - val σ * val (o i)) := by
      intro i hi
      unfold Hess.stV
      by_cases hik : i = k
      · rw [if_pos hik, if_pos hik, if_pos hik, hik, _root_.add_zero]
      · obtain ⟨q1, q2⟩ := mem_Ico.1 hi
        rw [if_neg hik, if_neg hik, if_neg hik, _root_.zero_add, H.tail i (by omega) q2]
    rw [nrm_congr e1]
    refine nrm_add_le.trans ?_
    have h1 : Spec.nrm (Ico k m) (fun i => if i = k then val (Flt.mul σ (v k)) - val σ * val (v k) else 0) =
        |val (Flt.mul σ (v k)) - val σ * val (v k)| := by
      unfold Spec.nrm
      rw [sum_eq_single_of_mem k hkS fun i _ hi => by simp [hi]]
      simp only [if_true, Real.sqrt_sq_eq_abs]
    have h2 : Spec.nrm (Ico k m) (fun i => if i = k then 0 else val (x i) - val σ * val (o i)) ≤
        Spec.nrm (Ico k m) (fun i => val σ * val (o i) - val (x i)) := by
      refine nrm_mono fun i _ => ?_
      by_cases hi : i = k
      · rw [if_pos hi, abs_zero]; exact abs_nonneg _
      · rw [if_neg hi, abs_sub_comm]
    have h3 : |val σ * val (v k)| ≤ Spec.nrm (Ico k m) (fun i => val σ * val (v i)) :=
      abs_le_nrm (x := fun i => val σ * val (v i)) hkS
    have h4 := h2.trans hD
    rw [h1]
    generalize Spec.nrm (Ico k m) (fun i => val σ * val (v i)) = V at *
    generalize Spec.nrm (Ico k m) (fun i => val σ * val (o i)) = O at *
    have h5 : 123 / 100 * e * O ≤ 123 / 100 * e * (104 / 100 * V) := by gcongr; linarith
    have h6 : 21 / 10 * e * |val σ * val (v k)| ≤ 21 / 10 * e * V := by gcongr
    have h7 : 0 ≤ e * V := mul_nonneg he0 ((abs_nonneg _).trans h3)
    linarith

omit [Rnd α] [Flt α] in
theorem reflV_scale (S : Finset ℕ) (V t : ℕ → ℝ) {c : ℝ} (hc : c ≠ 0) (i : ℕ) :
    reflV S (fun i => c * V i) t i = reflV S V t i := by
  unfold reflV
  have e1 : ∑ s ∈ S, t s * (c * V s) = c * ∑ s ∈ S, t s * V s := by
    rw [mul_sum]; exact sum_congr rfl fun _ _ => by ring
  have e2 : ∑ s ∈ S, (c * V s) ^ 2 = c ^ 2 * ∑ s ∈ S, V s ^ 2 := by
    rw [mul_sum]; exact sum_congr rfl fun _ _ => by ring
  rw [e1, e2]
  by_cases h0 : ∑ s ∈ S, V s ^ 2 = 0
  · rw [h0]; simp
  · field_simp

/-- The two divisions of the accumulation. -/
theorem div_div_err {F w G : α} {e : ℝ} (h : fin (Flt.div (Flt.div F w) G)) (hw : fin w) (hG : fin G)
    (he : Rnd.u α ≤ e) (he1 : e ≤ 1 / 1000) :
    |val (Flt.div (Flt.div F w) G) - val F / (val w * val G)| ≤
      21 / 10 * e * |val F / (val w * val G)| + (101 / 100 * η α / |val G| + η α) := by
  have hu := u_nonneg (α := α)
  have hη0 := η_nonneg (α := α)
  have he0 : 0 ≤ e := hu.trans he
  have f1 := div_fin h
  have w0 := div_ne f1 hw
  have G0 := div_ne h hG
  have h1 := (div_err f1 hw).1
  have h2 := (div_err h hG).1
  have hGp : 0 < |val G| := abs_pos.2 G0
  generalize val (Flt.div (Flt.div F w) G) = q2 at *
  generalize val (Flt.div F w) = q1 at *
  have e1 : val F / (val w * val G) = val F / val w / val G := by rw [div_div]
  rw [e1]
  generalize val F / val w = z at *
  have a1 : |q1 / val G - z / val G| ≤ e * |z / val G| + η α / |val G| := by
    rw [← sub_div, abs_div, abs_div, ← mul_div_assoc, ← add_div]
    refine div_le_div_of_nonneg_right (h1.trans ?_) hGp.le
    gcongr
  have a2 : |q1 / val G| ≤ (1 + e) * |z / val G| + η α / |val G| := by
    have := abs_sub_abs_le_abs_sub (q1 / val G) (z / val G)
    linarith
  have a3 : Rnd.u α * |q1 / val G| ≤ e * ((1 + e) * |z / val G| + η α / |val G|) := by gcongr
  have a4 := abs_add_le (q2 - q1 / val G) (q1 / val G - z / val G)
  rw [sub_add_sub_cancel] at a4
  have z0 := abs_nonneg (z / val G)
  have d0 : 0 ≤ η α / |val G| := by positivity
  rw [mul_div_assoc]
  generalize |z / val G| = Z at *
  generalize η α / |val G| = D at *
  have a5 : e * (e * Z) ≤ 1 / 1000 * (e * Z) := by gcongr
  have a6 : e * D ≤ 1 / 1000 * D := by gcongr
  have a7 : 0 ≤ e * Z := by positivity
  linarith

set_option maxHeartbeats 800000 in
/-- The accumulation of a reflection, on one column. -/
theorem Hess.Scl.acc {k N : Nat} {e : ℝ} {x o v w t t' : Nat → α} {σ g h : α} (H : Hess.Scl k m N e x o v σ g h)
    (hk : k < m) (hN : m ≤ N) (he : Rnd.u α ≤ e) (hM : (N + 4) * e ≤ 1 / 200) (hη : 5 * N ^ 2 * η α ≤ e)
    (hfg : fin (Flt.mul σ g)) (hG : N * η α ≤ e * |val (Flt.mul σ g)|) (hG0 : val (Flt.mul σ g) ≠ 0)
    (hwk : w k = Flt.mul σ (v k)) (hwx : ∀ i, k < i → i < m → w i = x i)
    (ht : ∀ i, k ≤ i → i < m → t' i = Flt.add (t i) (Flt.mul (Flt.div (Flt.div
      (lsum k m (fun r => Flt.mul (w r) (t r)) Flt.zero) (w k)) (Flt.mul σ g)) (w i)))
    (hf : ∀ i, k ≤ i → i < m → fin (t' i)) :
    (∀ i, k ≤ i → i < m → fin (t i)) ∧
    Spec.nrm (Ico k m) (fun i => val (t' i) - reflV (Ico k m) (fun i => val (v i)) (fun i => val (t i)) i) ≤
      70 * (N + 4) * e * Spec.nrm (Ico k m) (fun i => val (t i)) + 13 * e := by
  have hu := u_nonneg (α := α)
  have hη0 := η_nonneg (α := α)
  have he0 : 0 ≤ e := hu.trans he
  have hN1 : (1 : ℝ) ≤ N := by exact_mod_cast (show 1 ≤ N by omega)
  have he1 : e ≤ 1 / 1000 := by nlinarith
  have hmk : ((m - k : ℕ) : ℝ) ≤ N := by exact_mod_cast (show m - k ≤ N by omega)
  have hM' : (N + 4) * e ≤ 1 / 100 := by linarith
  have hkS : k ∈ Ico k m := mem_Ico.2 ⟨le_rfl, hk⟩
  have hft : ∀ i, k ≤ i → i < m → fin (t i) := fun i h1 h2 => by
    have := hf i h1 h2
    rw [ht i h1 h2] at this
    exact (add_fin this).1
  refine ⟨hft, ?_⟩
  have hS : SumOf (lsum k m (fun r => Flt.mul (w r) (t r)) Flt.zero)
      (over (Ico k m) fun i => Flt.mul (w i) (t i)) := by
    rw [over_Ico]; exact SumOf.left _ _ _
  have hal : fin (Flt.div (Flt.div (lsum k m (fun r => Flt.mul (w r) (t r)) Flt.zero) (w k)) (Flt.mul σ g)) := by
    have h1 := hf k le_rfl hk
    rw [ht k le_rfl hk] at h1
    exact (mul_fin (add_fin h1).2).1
  generalize lsum k m (fun r => Flt.mul (w r) (t r)) Flt.zero = F at *
  have hfF := div_fin (div_fin hal)
  obtain ⟨hfw, hp⟩ := hS.prods hfF
  have hfwk : fin (w k) := (hfw k hkS).1
  have hfv : fin (Flt.mul σ (v k)) := hwk ▸ hfwk
  obtain ⟨HR, hnear⟩ := H.stored hk hN he hM hη hfg hfv hG hG0
  have hw : ∀ i ∈ Ico k m, val (w i) = Hess.stV k x (Flt.mul σ (v k)) i := fun i hi => by
    unfold Hess.stV
    obtain ⟨q1, q2⟩ := mem_Ico.1 hi
    by_cases hik : i = k
    · rw [if_pos hik, hik, hwk]
    · rw [if_neg hik, hwx i (by omega) q2]
  rw [Nat.card_Ico] at hp
  obtain ⟨g1, g2⟩ := gam_small (α := α) (N := m - k) he hM' (by omega)
  have hdd := div_div_err hal hfwk hfg he he1
  set W := Hess.stV k x (Flt.mul σ (v k)) with hW
  have hκ2 : 2 * (N + 4) * e ≤ 7 / 2 * (N + 4) * e := by
    have : 0 ≤ (N + 4) * e := by positivity
    linarith
  have hc : |-val F + ∑ i ∈ Ico k m, val (t i) * W i| ≤
      7 / 2 * (N + 4) * e * (Spec.nrm (Ico k m) (fun i => val (t i)) * Spec.nrm (Ico k m) W) +
        51 / 50 * (N * η α) := by
    have es : ∑ i ∈ Ico k m, val (t i) * W i = ∑ i ∈ Ico k m, val (w i) * val (t i) :=
      sum_congr rfl fun i hi => by rw [hw i hi]; ring
    rw [es, show -val F + ∑ i ∈ Ico k m, val (w i) * val (t i) = -(val F - ∑ i ∈ Ico k m, val (w i) * val (t i)) by
      ring, abs_neg]
    refine hp.trans (add_le_add ?_ ?_)
    · have h3 : gam α (m - k) ≤ 7 / 2 * (N + 4) * e := by
        refine (g1.trans ?_).trans hκ2
        have : 0 ≤ N * e := by positivity
        norm_num
        linarith
      have es2 : ∑ i ∈ Ico k m, |val (w i)| * |val (t i)| = ∑ i ∈ Ico k m, |val (t i)| * |W i| :=
        sum_congr rfl fun i hi => by rw [hw i hi]; ring
      rw [es2]
      exact mul_le_mul h3 dot_le_nrm (sum_nonneg fun _ _ => by positivity) (by positivity)
    · have h3 : ((m - k : ℕ) : ℝ) * (1 + Rnd.u α) ^ (m - k) * η α ≤ N * 1.02 * η α := by gcongr
      norm_num at h3
      linarith
  have hWk : W k = val (w k) := (hw k hkS).symm
  have hGp : 0 < |val (Flt.mul σ g)| := abs_pos.2 hG0
  have h5e : 5 * e ≤ (N + 4) * e := by gcongr; linarith
  have hA := HR.apply (D := val (Flt.mul σ g) * W k)
    (by rw [sub_self, abs_zero]; exact mul_nonneg HR.nonneg (abs_nonneg _)) hc
    (al := -val (Flt.div (Flt.div F (w k)) (Flt.mul σ g)))
    (e := 101 / 100 * η α / |val (Flt.mul σ g)| + η α) (t' := fun i => val (t' i)) (ν := 2 * η α)
    (by
      rw [neg_div, ← neg_sub', abs_neg, abs_neg, hWk, mul_comm (val (Flt.mul σ g)) (val (w k))]
      refine hdd.trans (add_le_add (mul_le_mul_of_nonneg_right ?_ (abs_nonneg _)) le_rfl)
      linarith)
    (fun i hi => by
      obtain ⟨h3, h4⟩ := mem_Ico.1 hi
      have h5 := hf i h3 h4
      rw [ht i h3 h4] at h5 ⊢
      rw [← hw i hi]
      refine (add_mul_err h5 he (by linarith)).trans (add_le_add (mul_le_mul_of_nonneg_right ?_ (by positivity)) le_rfl)
      linarith) (by positivity) (by positivity) (by positivity)
  have hB := reflV_near (S := Ico k m) (V := fun i => val σ * val (v i)) (W := W) (t := fun i => val (t i))
    (δ := 7 / 2 * e) (by
      have e2 : ∑ s ∈ Ico k m, (val σ * val (v s)) ^ 2 = val σ ^ 2 * ∑ s ∈ Ico k m, val (v s) ^ 2 := by
        rw [mul_sum]; exact sum_congr rfl fun _ _ => by ring
      rw [e2]
      exact mul_pos (pow_pos H.pos 2) H.hhr.nrmV_pos) hnear (by positivity) (by linarith)
  have e3 : ∀ i ∈ Ico k m, val (t' i) - reflV (Ico k m) (fun i => val (v i)) (fun i => val (t i)) i =
      (val (t' i) - reflV (Ico k m) W (fun i => val (t i)) i) + (reflV (Ico k m) W (fun i => val (t i)) i -
        reflV (Ico k m) (fun i => val σ * val (v i)) (fun i => val (t i)) i) := fun i _ => by
    rw [reflV_scale _ _ _ H.pos.ne']; ring
  rw [nrm_congr e3]
  refine nrm_add_le.trans ((add_le_add hA hB).trans ?_)
  have hcard : √((Ico k m).card : ℝ) ≤ √N := Real.sqrt_le_sqrt (by rw [Nat.card_Ico]; exact hmk)
  have hq1 : √(N : ℝ) ≤ N := by
    rw [Real.sqrt_le_left (by positivity)]; nlinarith
  have hNη : N * η α ≤ e / 5 := by nlinarith [mul_nonneg (sub_nonneg.2 hN1) (mul_nonneg (Nat.cast_nonneg (α := ℝ) N) hη0)]
  have hη1 : η α ≤ N * η α := le_mul_of_one_le_left hη0 hN1
  have w1 : 51 / 50 * (N * η α) / |val (Flt.mul σ g)| ≤ 51 / 50 * e := by
    rw [div_le_iff₀ hGp]
    linarith
  have w2 : (101 / 100 * η α / |val (Flt.mul σ g)| + η α) * |val (Flt.mul σ g)| ≤ 101 / 100 * η α + 4 * e := by
    rw [add_mul, div_mul_cancel₀ _ hGp.ne']
    have := fin_η hfg
    linarith
  have w3 : √((Ico k m).card : ℝ) * (2 * η α) ≤ 2 * (N * η α) := by
    calc _ ≤ (N : ℝ) * (2 * η α) := mul_le_mul_of_nonneg_right (hcard.trans hq1) (by positivity)
      _ = _ := by ring
  have hn := nrm_nonneg (S := Ico k m) (x := fun i => val (t i))
  generalize Spec.nrm (Ico k m) (fun i => val (t i)) = T at *
  have w4 : 5 * (e * T) ≤ (N + 4) * e * T := by
    have := mul_le_mul_of_nonneg_right h5e hn
    linarith
  have w5 : 0 ≤ (N + 4) * e * T := by positivity
  clear hA hB hc hdd hp e3
  norm_num at w1 w2 w3 ⊢
  linarith

/-- The stored signed norm of a reflected column is not zero. -/
theorem Hess.Scl.ne {k N : Nat} {e : ℝ} {x o v : Nat → α} {σ g h : α} (H : Hess.Scl k m N e x o v σ g h)
    (hk : k < m) (hN : m ≤ N) (he : Rnd.u α ≤ e) (hM : (N + 4) * e ≤ 1 / 200) (hη : 5 * N ^ 2 * η α ≤ e)
    (hfg : fin (Flt.mul σ g)) : val (Flt.mul σ g) ≠ 0 := by
  intro h0
  have hu := u_nonneg (α := α)
  have hη0 := η_nonneg (α := α)
  have he0 : 0 ≤ e := hu.trans he
  have hN1 : (1 : ℝ) ≤ N := by exact_mod_cast (show 1 ≤ N by omega)
  have he1 : e ≤ 1 / 1000 := by nlinarith
  have hκ : 2 * ((N : ℝ) + 4) * e ≤ 1 / 100 := by linarith
  have hσ := H.pos
  have h1 := (mul_err hfg).2
  rw [h0, abs_zero, mul_zero, zero_sub, abs_neg, _root_.zero_add, abs_mul, abs_of_pos hσ] at h1
  have hg := H.hhr.absA
  have hp : 0 < val σ * |val g| := mul_pos hσ hg
  have hηp : 0 < η α := lt_of_lt_of_le hp h1
  obtain ⟨i, hi, hxi⟩ : ∃ i ∈ Ico k m, val (x i) ≠ 0 := by
    by_contra hc
    push Not at hc
    have h2 : ∑ i ∈ Ico k m, |val (x i)| = 0 := sum_eq_zero fun i hi => by rw [hc i hi, abs_zero]
    have h3 := H.sum
    rw [h2, mul_zero, sub_zero] at h3
    have := abs_nonpos_iff.1 h3
    linarith
  have hxt := (fin_tiny (H.finx i (mem_Ico.1 hi).1 (mem_Ico.1 hi).2)).resolve_left hxi
  have hX : |val (x i)| ≤ Spec.nrm (Ico k m) (fun i => val (x i)) := abs_le_nrm (x := fun i => val (x i)) hi
  have hd := H.delta hk hN he hη
  have hO : Spec.nrm (Ico k m) (fun i => val σ * val (o i)) = val σ * Spec.nrm (Ico k m) (fun i => val (o i)) := by
    rw [nrm_mul, abs_of_pos hσ]
  have hOg : Spec.nrm (Ico k m) (fun i => val (o i)) ≤ 101 / 100 * |val g| := by
    refine abs_le_of_sq_le_sq' ?_ (by positivity) |>.2
    rw [mul_pow, sq_abs, nrm_sq]
    have h2 := (abs_le.1 H.hhr.norm).1
    have h3 : 2 * (N + 4) * e * val g ^ 2 ≤ 1 / 100 * val g ^ 2 := by gcongr
    have h4 := sq_nonneg (val g)
    linarith
  have h2 := nrm_sub_le (S := Ico k m) (x := fun i => val σ * val (o i))
    (y := fun i => val σ * val (o i) - val (x i))
  simp only [sub_sub_cancel] at h2
  rw [hO] at h2
  have h3 := mul_le_mul_of_nonneg_left hOg hσ.le
  have hX0 := nrm_nonneg (S := Ico k m) (x := fun i => val (x i))
  have h4 : e * Spec.nrm (Ico k m) (fun i => val (x i)) ≤ 1 / 1000 * Spec.nrm (Ico k m) (fun i => val (x i)) := by gcongr
  linarith

/-- A bound for a column bounds the error of a reflection on that column. -/
theorem hh_round_col {n k : Nat} {ε ω b : ℝ} {V : Nat → ℝ} {M M' : Nat → Nat → ℝ} (hε : 0 ≤ ε) (j : Fin n)
    (h3 : ∀ i, i < k → M' i j = M i j)
    (h4 : Spec.nrm (Ico k m) (fun i => M' i j - (M i j + b * (∑ r ∈ Ico k m, V r * M r j) * tl k V i)) ≤
      ε * Spec.nrm (Ico k m) (fun i => M i j) + ω) :
    cnorm (mx m n M' - hh m k V b * mx m n M) j ≤ ε * cnorm (mx m n M) j + ω := by
  rw [hh_mul]
  have e0 : mx m n M' - (mx m n fun i j => M i j + b * (∑ r ∈ Ico k m, V r * M r j) * tl k V i) =
      mx m n fun i j => M' i j - (M i j + b * (∑ r ∈ Ico k m, V r * M r j) * tl k V i) := rfl
  rw [e0, cnorm_mx, cnorm_mx]
  clear e0
  have hlow : ∀ i, i < k → M' i j - (M i j + b * (∑ r ∈ Ico k m, V r * M r j) * tl k V i) = 0 := by
    intro i hi'
    rw [tl, if_neg (by omega), mul_zero, _root_.add_zero, h3 i hi', sub_self]
  have hsub : Ico k m ⊆ range m := fun i hi => mem_range.2 (mem_Ico.1 hi).2
  have hnr : ∀ g : ℕ → ℝ, (∀ i, i < k → g i = 0) → Spec.nrm (range m) g = Spec.nrm (Ico k m) g := by
    intro g hg
    unfold Spec.nrm
    rw [sum_subset hsub fun i h1 h2 => ?_]
    have : i < k := by
      by_contra h3
      exact h2 (mem_Ico.2 ⟨by omega, mem_range.1 h1⟩)
    rw [hg i this, zero_pow (by norm_num)]
  rw [hnr _ hlow]
  exact h4.trans (add_le_add (mul_le_mul_of_nonneg_left (nrm_mono_set hsub) hε) le_rfl)

/-- One round of the accumulation. -/
theorem Hess.PStep.round {N k : Nat} {e b : ℝ} {f p p' : Nat → Nat → α} {o o' oo : Nat → α} {V : Nat → ℝ}
    (hS : Hess.PStep m k f o o' p p') (hD : Hess.Done m N e k f oo V b) (hok : o k = oo k)
    (hk : k < m) (hN : m ≤ N) (he : Rnd.u α ≤ e) (hM : (N + 4) * e ≤ 1 / 200) (hη : 5 * N ^ 2 * η α ≤ e)
    (hsub : val (f k (k - 1)) = 0 ∨ N * η α ≤ e * |val (f k (k - 1))|)
    (hf : ∀ i j, k ≤ i → i < m → k ≤ j → j < m → fin (p' i j)) :
    (∀ i j, k ≤ i → i < m → k ≤ j → j < m → fin (p i j)) ∧
    ∀ j, k ≤ j → j < m → Spec.nrm (Ico k m) (fun i => val (p' i j) - (val (p i j) +
      b * (∑ r ∈ Ico k m, V r * val (p r j)) * tl k V i)) ≤
      70 * (N + 4) * e * Spec.nrm (Ico k m) (fun i => val (p i j)) + 13 * e := by
  have hu := u_nonneg (α := α)
  have hη0 := η_nonneg (α := α)
  have he0 : 0 ≤ e := hu.trans he
  have hN1 : (1 : ℝ) ≤ N := by exact_mod_cast (show 1 ≤ N by omega)
  have he1 : e ≤ 1 / 1000 := by nlinarith
  cases hD with
  | skip hb hfk hs =>
    have hv : val (f k (k - 1)) = 0 := by
      rcases hsub with h | h
      · exact h
      · have h1 : e * |val (f k (k - 1))| ≤ 1 / 1000 * (3 * η α) := by gcongr
        have h2 : η α ≤ N * η α := le_mul_of_one_le_left hη0 hN1
        have h3 : η α = 0 := by linarith
        rw [h3, mul_zero] at hs
        exact abs_nonpos_iff.1 hs
    have hp := hS.skip (by rw [eq_iff hfk zero_fin, hv, val_zero])
    rw [hp] at hf ⊢
    refine ⟨hf, fun j _ _ => ?_⟩
    rw [nrm_congr (y := fun _ => 0) fun i _ => by rw [hb]; ring, nrm_zero]
    exact add_nonneg (mul_nonneg (by positivity) nrm_nonneg) (by positivity)
  | refl x oc v σ g h H hV hb hfg hh ho hx =>
    have hG0 := H.ne hk hN he hM hη hfg
    rw [hh] at hsub
    have hne : Flt.eq (f k (k - 1)) Flt.zero = false := by
      rw [Bool.eq_false_iff, Ne, hh, eq_iff hfg zero_fin, val_zero]
      exact hG0
    have hcol : ∀ j, k ≤ j → j < m → _ := fun j h1 h2 => H.acc (w := o') (t := fun i => p i j) (t' := fun i => p' i j)
      hk hN he hM hη hfg (hsub.resolve_left hG0) hG0 (by rw [hS.ort k le_rfl, hok, ho])
      (fun i h3 h4 => by rw [hS.ortf hne i h3 h4, hx i h3 h4])
      (fun i h3 h4 => by rw [hS.cols hne i j h3 h4 h1 h2, hh]) (fun i h3 h4 => hf i j h3 h4 h1 h2)
    refine ⟨fun i j h1 h2 h3 h4 => (hcol j h3 h4).1 i h1 h2, fun j h1 h2 => ?_⟩
    refine le_trans (le_of_eq (nrm_congr fun i hi => ?_)) (hcol j h1 h2).2
    rw [← reflV_eq (m := m) (fun i => val (v i)) (fun i => val (p i j)) i (mem_Ico.1 hi).1, hb, hV]

/-- The invariant of the accumulation. -/
structure Hess.PInv (m N : Nat) (e : ℝ) (V : Nat → Nat → ℝ) (b : Nat → ℝ) (oo : Nat → α) (k : Nat) (o : Nat → α)
    (p : Nat → Nat → α) : Prop where
  ort : ∀ i, i < k → o i = oo i
  low : ∀ i j, i < m → j < m → (i < k ∨ j < k) → p i j = if i = j then Flt.one else Flt.zero
  err : (∀ i j, k ≤ i → i < m → k ≤ j → j < m → fin (p i j)) → ∀ j,
    cnorm (mx m m (vals p) - hfrom m (Hess.X m V b) (k - 1) (m - 2)) j ≤
      ((1 + 70 * (N + 4) * e) ^ (m - 1 - k) - 1) + (m - 1 - k : ℕ) * (1 + 70 * (N + 4) * e) ^ (m - 1 - k) * (13 * e)

theorem Hess.PInv.init {N : Nat} {e : ℝ} (V : Nat → Nat → ℝ) (b : Nat → ℝ) {o : Nat → α} {p : Nat → Nat → α}
    (h : ∀ i j, i < m → j < m → p i j = if i = j then Flt.one else Flt.zero) :
    Hess.PInv m N e V b o (m - 1) o p := by
  refine ⟨fun _ _ => rfl, fun i j hi hj _ => h i j hi hj, fun _ j => ?_⟩
  have e1 : mx m m (vals p) - hfrom m (Hess.X m V b) (m - 1 - 1) (m - 2) = mx m m fun _ _ => 0 := by
    rw [show m - 1 - 1 = m - 2 by omega, hfrom_self, ← mx_one]
    ext i j
    show vals p i j - (if (i : ℕ) = j then (1 : ℝ) else 0) = 0
    rw [vals, h i j i.2 j.2]
    by_cases hij : (i : ℕ) = j
    · rw [if_pos hij, if_pos hij, val_one, sub_self]
    · rw [if_neg hij, if_neg hij, val_zero, sub_self]
  rw [e1, cnorm_mx, nrm_zero]
  simp

theorem Hess.PInv.step {N k : Nat} {e : ℝ} {V : Nat → Nat → ℝ} {b : Nat → ℝ} {f p p' : Nat → Nat → α}
    {oo o o' : Nat → α} (hk : 1 ≤ k) (hkm : k + 1 < m) (hN : m ≤ N) (he : Rnd.u α ≤ e) (hM : (N + 4) * e ≤ 1 / 200)
    (hη : 5 * N ^ 2 * η α ≤ e) (h : Hess.PInv m N e V b oo (k + 1) o p) (hS : Hess.PStep m k f o o' p p')
    (hD : ∀ j, 1 ≤ j → j + 1 < m → Hess.Done m N e j f oo (V j) (b j))
    (hsub : val (f k (k - 1)) = 0 ∨ N * η α ≤ e * |val (f k (k - 1))|) :
    Hess.PInv m N e V b oo k o' p' := by
  have hu := u_nonneg (α := α)
  have he0 : 0 ≤ e := hu.trans he
  have hlow : ∀ i j, i < m → j < m → (i < k ∨ j < k) → p' i j = if i = j then Flt.one else Flt.zero :=
    fun i j hi hj hij => by rw [hS.other i j hij, h.low i j hi hj (by omega)]
  refine ⟨fun i hi => by rw [hS.ort i hi.le, h.ort i (by omega)], hlow, fun hf j => ?_⟩
  obtain ⟨h1, h2⟩ := hS.round (hD k hk hkm) (h.ort k (by omega)) (by omega) hN he hM hη hsub hf
  have h3 := h.err (fun i j a1 a2 a3 a4 => h1 i j (by omega) a2 (by omega) a4) j
  have h4 : cnorm (mx m m (vals p') - hh m k (V k) (b k) * mx m m (vals p)) j ≤
      70 * (N + 4) * e * cnorm (mx m m (vals p)) j + 13 * e := by
    refine hh_round_col (by positivity) j (fun i hi => ?_) ?_
    · unfold vals
      rw [hS.other i j (.inl hi)]
    · by_cases hj : (j : ℕ) < k
      · have z : ∀ i ∈ Ico k m, vals p i j = 0 := fun i hi => by
          obtain ⟨q1, q2⟩ := mem_Ico.1 hi
          rw [vals, h.low i j q2 j.2 (by omega), if_neg (by omega), val_zero]
        have zs : ∑ r ∈ Ico k m, V k r * vals p r j = 0 := sum_eq_zero fun r hr => by rw [z r hr, mul_zero]
        have z' : ∀ i ∈ Ico k m, vals p' i j = 0 := fun i hi => by
          obtain ⟨q1, q2⟩ := mem_Ico.1 hi
          rw [vals, hlow i j q2 j.2 (by omega), if_neg (by omega), val_zero]
        rw [nrm_congr (y := fun _ => 0) fun i hi => by rw [z i hi, z' i hi, zs]; ring, nrm_zero]
        exact add_nonneg (mul_nonneg (by positivity) nrm_nonneg) (by positivity)
      · exact h2 j (by omega) j.2
  have ht : ∀ i, i < m - 2 → (Hess.X m V b i)ᵀ = Hess.X m V b i := fun i _ => hh_transpose _ _ _ _
  have hsq : ∀ i, i < m - 2 → Hess.X m V b i * Hess.X m V b i = 1 := fun i hi =>
    hh_sq (hD (i + 1) (by omega) (by omega)).refl'
  have hX : Hess.X m V b (k - 1) = hh m k (V k) (b k) := by
    unfold Hess.X
    rw [show k - 1 + 1 = k by omega]
  rw [← hX] at h4
  have hHs : (Hess.X m V b (k - 1))ᵀ * Hess.X m V b (k - 1) = 1 := by rw [ht _ (by omega)]; exact hsq _ (by omega)
  rw [hfrom_step (Hess.X m V b) (show k - 1 < m - 2 by omega)]
  rw [show k + 1 - 1 = k - 1 + 1 by omega] at h3
  have hP1 := cnorm_orth_one (hfrom_orth (H := Hess.X m V b) (j := k - 1 + 1) ht hsq) j
  generalize hfrom m (Hess.X m V b) (k - 1 + 1) (m - 2) = P at *
  generalize Hess.X m V b (k - 1) = H at *
  generalize mx m m (vals p') = R' at *
  generalize mx m m (vals p) = R at *
  have g1 : R' - H * P = (R' - H * R) + H * (R - P) := by
    rw [Matrix.mul_sub]
    abel
  have g3 := cnorm_add_le (R - P) P j
  rw [sub_add_cancel, hP1] at g3
  have g4 := cnorm_add_le (R' - H * R) (H * (R - P)) j
  rw [← g1, cnorm_orth hHs] at g4
  rw [show m - 1 - k = m - 1 - (k + 1) + 1 by omega]
  have := err_step (b := 1) (c := m - 1 - (k + 1)) (ε := 70 * (N + 4) * e) (ω := 13 * e) (by positivity)
    (by positivity) (by rw [mul_one]; exact h3) g3 (g4.trans (by linarith))
  rwa [mul_one] at this

end Linear
