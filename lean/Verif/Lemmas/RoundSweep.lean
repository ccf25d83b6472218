import Verif.Lemmas.RoundRot
import Verif.Lemmas.EigenExact

/-!
# The sweeps of the symmetric eigen decomposition in rounded arithmetic
-/

set_option linter.unusedSectionVars false

namespace Linear

open Spec Rnd Matrix
open Finset hiding val diag

variable {n : Nat}

/-! ## The matrix that a state in the middle of a sweep stands for -/

/-- The symmetric matrix with diagonal `D`, the entries `C` beside it, and `P` at `(x - 1, x + 1)`. -/
def Eig.W (D C : Nat → ℝ) (x : Nat) (P : ℝ) (a b : Nat) : ℝ :=
  if a = b then D a else if b = a + 1 then C a else if a = b + 1 then C b
  else if (b = a + 2 ∧ a + 1 = x) ∨ (a = b + 2 ∧ b + 1 = x) then P else 0

theorem Eig.W_symm (D C : Nat → ℝ) (x : Nat) (P : ℝ) (a b : Nat) : Eig.W D C x P a b = Eig.W D C x P b a := by
  unfold Eig.W
  split_ifs <;> first | omega | rfl | (subst_vars; rfl)

/-- The exact rotation: it moves the entry `P` up by one. -/
theorem Eig.W_step {i : Nat} {D C D' C' : Nat → ℝ} {P P' s c r t : ℝ} (h1 : s * s + c * c = 1) (hP : P = s * r)
    (hC : C (i + 1) = c * r) (ht : t = (D i - D (i + 1)) * s + 2 * c * C i) (d0 : D' i = D i - s * t)
    (d1 : D' (i + 1) = D (i + 1) + s * t) (dd : ∀ a, a ≠ i → a ≠ i + 1 → D' a = D a) (c0 : C' i = c * t - C i)
    (c1 : C' (i + 1) = r) (c2 : ∀ a, a + 1 = i → C' a = c * C a)
    (cc : ∀ a, a ≠ i → a ≠ i + 1 → a + 1 ≠ i → C' a = C a) (hP' : ∀ a, a + 1 = i → P' = s * C a) (a b : Nat) :
    Eig.W D' C' i P' a b = Eig.rz i s c (fun k => Eig.rz i s c (Eig.W D C (i + 1) P k) b) a := by
  wlog hab : a ≤ b generalizing a b with H
  · rw [Eig.W_symm, H b a (by omega), Eig.rz_symm _ _ _ _ fun a b => Eig.W_symm _ _ _ _ a b]
  simp only [Eig.rz_exact]
  have B1 : Eig.W D C (i + 1) P i i = D i := if_pos rfl
  have B3 : Eig.W D C (i + 1) P (i + 1) (i + 1) = D (i + 1) := if_pos rfl
  have B2 : Eig.W D C (i + 1) P i (i + 1) = C i := by
    unfold Eig.W; rw [if_neg (by omega), if_pos rfl]
  have B2' : Eig.W D C (i + 1) P (i + 1) i = C i := by rw [Eig.W_symm, B2]
  have B4 : ∀ a, a < i → Eig.W D C (i + 1) P a i = if a + 1 = i then C a else 0 := by
    intro a ha
    unfold Eig.W
    split_ifs <;> first | omega | rfl
  have B5 : ∀ a, a < i → Eig.W D C (i + 1) P a (i + 1) = 0 := by
    intro a ha
    unfold Eig.W
    split_ifs <;> first | omega | rfl
  have B6 : ∀ b, i + 2 ≤ b → Eig.W D C (i + 1) P i b = if b = i + 2 then s * r else 0 := by
    intro b hb
    unfold Eig.W
    split_ifs <;> first | omega | rfl | exact hP
  have B7 : ∀ b, i + 2 ≤ b → Eig.W D C (i + 1) P (i + 1) b = if b = i + 2 then c * r else 0 := by
    intro b hb
    unfold Eig.W
    split_ifs <;> first | omega | rfl | exact hC
  by_cases ha : a = i
  · subst ha
    rw [if_pos rfl]
    by_cases hb : b = a
    · subst hb
      rw [if_pos rfl, if_pos rfl, B1, B2, B3, B2']
      unfold Eig.W
      rw [if_pos rfl, d0, ht]
      linear_combination (-(D b)) * h1
    · rw [if_neg hb, if_neg hb]
      by_cases hb1 : b = a + 1
      · subst hb1
        rw [if_pos rfl, if_pos rfl, B1, B2, B3, B2']
        unfold Eig.W
        rw [if_neg (by omega), if_pos rfl, c0, ht]
        linear_combination (C a) * h1
      · rw [if_neg hb1, if_neg hb1, B6 b (by omega), B7 b (by omega)]
        unfold Eig.W
        rw [if_neg (by omega), if_neg (by omega), if_neg (by omega), if_neg (by omega)]
        split <;> ring
  · rw [if_neg ha]
    by_cases ha1 : a = i + 1
    · subst ha1
      rw [if_pos rfl, if_neg (by omega)]
      by_cases hb1 : b = i + 1
      · subst hb1
        rw [if_pos rfl, if_neg (by omega), if_pos rfl, B1, B2, B3, B2']
        unfold Eig.W
        rw [if_pos rfl, d1, ht]
        linear_combination (-(D (i + 1))) * h1
      · rw [if_neg hb1, if_neg (by omega), if_neg hb1, B6 b (by omega), B7 b (by omega)]
        unfold Eig.W
        rw [if_neg (by omega)]
        by_cases hx : b = i + 2
        · rw [if_pos hx, if_pos hx, if_pos (by omega), c1]
          linear_combination (-r) * h1
        · rw [if_neg hx, if_neg hx]
          split_ifs <;> first | omega | ring
    · rw [if_neg ha1]
      by_cases hb : b = i
      · subst hb
        rw [if_pos rfl, B4 a (by omega), B5 a (by omega)]
        unfold Eig.W
        rw [if_neg ha]
        split_ifs <;> first | omega | (rw [c2 a (by omega)]; ring) | ring
      · rw [if_neg hb]
        by_cases hb1 : b = i + 1
        · subst hb1
          rw [if_pos rfl, B4 a (by omega), B5 a (by omega)]
          unfold Eig.W
          rw [if_neg ha1]
          split_ifs <;> first | omega | (rw [hP' a (by omega)]; ring) | ring
        · rw [if_neg hb1]
          unfold Eig.W
          split_ifs <;> first | omega | exact dd a ha ha1 | exact cc a ha ha1 (by omega) | rfl

/-! ## Norms -/

theorem fro_entry (M : Matrix (Fin n) (Fin n) ℝ) (i j : Fin n) : |M i j| ≤ fro M := by
  refine (abs_le_of_sq_le_sq ?_ (fro_nonneg M))
  have h : fro M ^ 2 = ∑ i, ∑ j, M i j ^ 2 := Real.sq_sqrt (sum_nonneg fun _ _ => sum_nonneg fun _ _ => sq_nonneg _)
  rw [h]
  exact (single_le_sum (f := fun j => M i j ^ 2) (fun _ _ => sq_nonneg _) (mem_univ j)).trans
    (single_le_sum (f := fun i => ∑ j, M i j ^ 2) (fun _ _ => sum_nonneg fun _ _ => sq_nonneg _) (mem_univ i))

theorem sum_three (k : Nat) {t : ℝ} (ht : 0 ≤ t) :
    ∑ j : Fin n, (if k ≤ j.1 ∧ j.1 < k + 3 then t else 0) ≤ 3 * t := by
  have h1 : ∑ j : Fin n, (if k ≤ j.1 ∧ j.1 < k + 3 then t else 0) ≤
      ∑ j : Fin n, ((if j.1 = k then t else 0) + (if j.1 = k + 1 then t else 0) +
        (if j.1 = k + 2 then t else 0)) := by
    refine sum_le_sum fun j _ => ?_
    split_ifs <;> first | omega | linarith
  refine h1.trans ?_
  rw [sum_add_distrib, sum_add_distrib]
  have key : ∀ x, ∑ j : Fin n, (if j.1 = x then t else 0) ≤ t := by
    intro x
    by_cases hx : x < n
    · rw [sum_eq_single ⟨x, hx⟩ (fun b _ hb => if_neg fun hb' => hb (Fin.ext hb'))
        (fun h => absurd (mem_univ _) h), if_pos rfl]
    · rw [sum_eq_zero fun b _ => if_neg fun hb => hx (by have := b.2; omega)]
      exact ht
  linarith [key k, key (k + 1), key (k + 2)]

/-- A matrix with at most nine entries. -/
theorem fro_block {M : Matrix (Fin n) (Fin n) ℝ} (k : Nat) {δ : ℝ} (hδ : 0 ≤ δ) (h : ∀ a b, |M a b| ≤ δ)
    (h0 : ∀ a b : Fin n, ¬ ((k ≤ a.1 ∧ a.1 < k + 3) ∧ k ≤ b.1 ∧ b.1 < k + 3) → M a b = 0) : fro M ≤ 3 * δ := by
  unfold fro
  refine Real.sqrt_le_iff.2 ⟨by linarith, ?_⟩
  have h1 : ∀ a : Fin n, ∑ b, M a b ^ 2 ≤ if k ≤ a.1 ∧ a.1 < k + 3 then 3 * δ ^ 2 else 0 := by
    intro a
    split
    · next ha =>
      refine (sum_le_sum fun b _ => ?_).trans (sum_three k (sq_nonneg δ))
      split
      · rw [← sq_abs]; exact pow_le_pow_left₀ (abs_nonneg _) (h a b) 2
      · next hb => rw [h0 a b (fun h => hb h.2)]; simp
    · next ha =>
      rw [sum_eq_zero fun b _ => by rw [h0 a b (fun h => ha h.1)]; simp]
  refine (sum_le_sum fun a _ => h1 a).trans ((sum_three k (by positivity)).trans (le_of_eq ?_))
  ring

/-- The bound of an error that is `E` at first and grows by `ε` of a norm `b` and by `ω` in each of `k` steps. -/
noncomputable def Spec.rotErr (ε ω E b : ℝ) (k : Nat) : ℝ := (1 + ε) ^ k * (E + b + k * ω) - b

theorem rotErr_zero (ε ω E b : ℝ) : rotErr ε ω E b 0 = E := by
  unfold rotErr
  simp

theorem rotErr_step {ε ω E b X Y N : ℝ} {k : Nat} (hε : 0 ≤ ε) (hω : 0 ≤ ω) (h : X ≤ rotErr ε ω E b k) (hN : N ≤ X + b)
    (hY : Y ≤ X + (ε * N + ω)) : Y ≤ rotErr ε ω E b (k + 1) := by
  unfold rotErr at *
  have h1 : 1 ≤ (1 + ε) ^ (k + 1) := one_le_pow₀ (by linarith)
  have h2 : (1 + ε) * (X + b) ≤ (1 + ε) * ((1 + ε) ^ k * (E + b + k * ω)) :=
    mul_le_mul_of_nonneg_left (by linarith) (by linarith)
  have h3 : ω ≤ (1 + ε) ^ (k + 1) * ω := by nlinarith
  have h4 : ε * N ≤ ε * (X + b) := mul_le_mul_of_nonneg_left hN hε
  rw [pow_succ] at h3 ⊢
  push_cast
  nlinarith

theorem rotErr_mono {ε ω E b : ℝ} (hε : 0 ≤ ε) (hω : 0 ≤ ω) (hE : 0 ≤ E) (hb : 0 ≤ b) {k l : Nat} (h : k ≤ l) :
    rotErr ε ω E b k ≤ rotErr ε ω E b l := by
  unfold rotErr
  have h1 : (1 + ε) ^ k ≤ (1 + ε) ^ l := pow_le_pow_right₀ (by linarith) h
  have h2 : (k : ℝ) * ω ≤ l * ω := mul_le_mul_of_nonneg_right (by exact_mod_cast h) hω
  have h3 : 0 ≤ (k : ℝ) * ω := by positivity
  have h4 : (1 + ε) ^ k * (E + b + k * ω) ≤ (1 + ε) ^ l * (E + b + l * ω) :=
    mul_le_mul h1 (by linarith) (by linarith) (by positivity)
  linarith

theorem rotErr_nonneg {ε ω E b : ℝ} (hε : 0 ≤ ε) (hω : 0 ≤ ω) (hE : 0 ≤ E) (hb : 0 ≤ b) (k : Nat) :
    0 ≤ rotErr ε ω E b k := by
  refine le_trans ?_ (rotErr_mono hε hω hE hb (Nat.zero_le k))
  rw [rotErr_zero]; exact hE

end Linear
