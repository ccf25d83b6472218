import Verif.Model.Cholesky
import Verif.Lemmas.LULemmas

/-!
# Lemmas on the Cholesky decomposition
-/

set_option linter.unusedSectionVars false

namespace Linear

open Spec Finset

variable {α : Type} [Flt α] {n : Nat}

/-- The symmetry test of one pair. -/
def Chol.Asym (rel a b : α) : Prop :=
  Flt.lt (Flt.mul rel (Flt.fmax (Flt.abs a) (Flt.abs b))) (Flt.abs (Flt.sub a b)) = true

theorem Chol.check_wp (rel : α) (t : Tab α n n) :
    Wp (Chol.check rel t) (fun t' => (∀ i j, i < j → j < n → ¬ Asym rel (t.f i j) (t.f j i)) ∧
      (∀ i j, i ≤ j → t'.f i j = t.f i j) ∧ ∀ i j, i < n → j < i → t'.f i j = Flt.zero)
      (fun e => e = .err .symm ∧ ∃ i j, i < j ∧ j < n ∧ Asym rel (t.f i j) (t.f j i)) := by
  unfold Chol.check
  refine (wp_forUp (fun k (t' : Tab α n n) =>
    (∀ i j, i < j → j < n → i < k → ¬ Asym rel (t.f i j) (t.f j i)) ∧
    ∀ i j, t'.f i j = if j < i ∧ j < k ∧ i < n then Flt.zero else t.f i j) (Nat.zero_le _)
    ⟨by omega, fun i j => by rw [if_neg (by omega)]⟩ ?_).imp ?_
  · rintro i t₁ - hi ⟨h1, h2⟩
    refine (wp_forUp (fun k (t' : Tab α n n) =>
      (∀ j, i < j → j < k → ¬ Asym rel (t.f i j) (t.f j i)) ∧
      ∀ x y, t'.f x y = if y = i ∧ i < x ∧ x < k then Flt.zero else t₁.f x y) (by omega)
      ⟨by omega, fun i j => by rw [if_neg (by omega)]⟩ ?_).imp ?_
    · rintro j t₂ h3 hj ⟨h4, h5⟩
      rw [wp_bind, wp_tget hi hj, wp_bind, wp_tget hj hi]
      have e1 : t₂.f i j = t.f i j := by
        rw [h5, if_neg (by omega), h2, if_neg (by omega)]
      have e2 : t₂.f j i = t.f j i := by
        rw [h5, if_neg (by omega), h2, if_neg (by omega)]
      rw [e1, e2]
      by_cases hl : Asym rel (t.f i j) (t.f j i)
      · rw [if_pos (show _ = true from hl)]
        exact ⟨rfl, i, j, h3, hj, hl⟩
      · rw [if_neg (show ¬ _ = true from hl)]
        show Wp (t₂.set j i _) _ _
        rw [wp_tset hj hi]
        constructor
        · intro j' h6 h7
          by_cases e : j' = j
          · rw [e]; exact hl
          · exact h4 j' h6 (by omega)
        · intro x y
          dsimp only
          rw [upd2_eq]
          by_cases e : x = j ∧ y = i
          · rw [if_pos e, if_pos (by omega)]
          · rw [if_neg e, h5]
            by_cases e' : y = i ∧ i < x ∧ x < j
            · rw [if_pos e', if_pos (by omega)]
            · rw [if_neg e', if_neg (by omega)]
    · rintro t₂ ⟨h3, h4⟩
      constructor
      · intro x j h5 h6 h7
        by_cases e : x = i
        · subst e; exact h3 j h5 h6
        · exact h1 x j h5 h6 (by omega)
      · intro x y
        rw [h4, h2]
        by_cases e : y = i ∧ i < x ∧ x < n
        · rw [if_pos e, if_pos (by omega)]
        · rw [if_neg e]
          by_cases e' : y < x ∧ y < i ∧ x < n
          · rw [if_pos e', if_pos (by omega)]
          · rw [if_neg e', if_neg (by omega)]
  · rintro t' ⟨h1, h2⟩
    refine ⟨fun i j h3 h4 => h1 i j h3 h4 (by omega), fun i j h => ?_, fun i j h3 h4 => ?_⟩
    · rw [h2, if_neg (by omega)]
    · rw [h2, if_pos (by omega)]

theorem Chol.step_wp (pos : α) {i : Nat} (hi : i < n) (t : Tab α n n) :
    Wp (Chol.step pos i t) (fun t' => ¬ Flt.le (t.f i i) pos = true ∧
      t'.f i i = Flt.sqrt (t.f i i) ∧
      (∀ q, i < q → q < n → t'.f i q = Flt.mul (t.f i q) (Flt.div Flt.one (Flt.sqrt (t.f i i)))) ∧
      (∀ q p, i < q → q ≤ p → p < n →
        t'.f q p = Flt.sub (t.f q p) (Flt.mul (t'.f i q) (t'.f i p))) ∧
      ∀ x y, (x < i ∨ y < x) → t'.f x y = t.f x y)
      (fun e => e = .err .small ∧ Flt.le (t.f i i) pos = true) := by
  unfold Chol.step
  rw [wp_bind, wp_tget hi hi]
  by_cases hl : Flt.le (t.f i i) pos = true
  · rw [if_pos hl]
    exact ⟨rfl, hl⟩
  rw [if_neg hl]
  show Wp (t.get i i >>= _) _ _
  rw [wp_bind, wp_tget hi hi, wp_bind, wp_tset hi hi, wp_bind, wp_tget hi hi]
  dsimp only
  rw [upd2_eq, if_pos ⟨rfl, rfl⟩]
  generalize hinv : Flt.div Flt.one (Flt.sqrt (t.f i i)) = inv
  refine (wp_forDown (fun k (t' : Tab α n n) => t'.f i i = Flt.sqrt (t.f i i) ∧
      (∀ q, k ≤ q → q < n → t'.f i q = Flt.mul (t.f i q) inv) ∧
      (∀ q, i < q → q < k → t'.f i q = t.f i q) ∧
      (∀ q p, k ≤ q → q ≤ p → p < n →
        t'.f q p = Flt.sub (t.f q p) (Flt.mul (t'.f i q) (t'.f i p))) ∧
      (∀ x y, i < x → x < k → t'.f x y = t.f x y) ∧
      ∀ x y, (x < i ∨ y < x) → t'.f x y = t.f x y) (by omega) ?_ ?_).imp ?_
  · refine ⟨by simp [upd2_eq], fun q h1 h2 => by omega, fun q h1 h2 => ?_, fun q p _ _ _ => by omega,
      fun x y h1 h2 => ?_, fun x y h => ?_⟩
    · dsimp only; rw [upd2_eq, if_neg (by omega)]
    · dsimp only; rw [upd2_eq, if_neg (by omega)]
    · dsimp only; rw [upd2_eq, if_neg (by omega)]
  · rintro q t₁ hq hqn ⟨h1, h2, h3, h4, h5, h6⟩
    rw [wp_bind, wp_tget hi hqn, wp_bind, wp_tset hi hqn]
    obtain ⟨t₂, e, h7, h8⟩ := Tab.rowLoop (ε := Fault) (r := n) (c := n) (a := q) (b := n) (i := q)
      (t := (⟨upd2 t₁.f i q (Flt.mul (t₁.f i q) inv)⟩ : Tab α n n))
      (fun p v => Flt.sub v (Flt.mul (Flt.mul (t₁.f i q) inv)
        (upd2 t₁.f i q (Flt.mul (t₁.f i q) inv) i p)))
      (body := fun p (t : Tab α n n) => do
        t.set q p (Flt.sub (← t.get q p) (Flt.mul (← t.get i q) (← t.get i p)))) (by
      intro p t' h9 h10 h11
      rw [Tab.get_ok hqn h10, ok_bind, Tab.get_ok hi hqn, ok_bind, Tab.get_ok hi h10, ok_bind,
        Tab.set_ok hqn h10, h11 q p (by omega), h11 i q (by omega), h11 i p (by omega)]
      dsimp only
      rw [upd2_eq t₁.f i q _ i q, if_pos ⟨rfl, rfl⟩])
    rw [e]
    dsimp only at h7 h8
    have g1 : ∀ y, t₂.f i y = upd2 t₁.f i q (Flt.mul (t₁.f i q) inv) i y :=
      fun y => h8 i y (by omega)
    have g2 : ∀ x y, x ≠ i → x ≠ q → t₂.f x y = t₁.f x y := by
      intro x y e1 e2
      rw [h8 x y (by omega), upd2_eq, if_neg (by omega)]
    refine ⟨?_, ?_, ?_, ?_, ?_, ?_⟩
    · rw [g1, upd2_eq, if_neg (by omega), h1]
    · intro q' h9 h10
      rw [g1, upd2_eq]
      by_cases e : q' = q
      · rw [if_pos ⟨rfl, e⟩, h3 q hq (by omega), e]
      · rw [if_neg (by simp [e]), h2 q' (by omega) h10]
    · intro q' h9 h10
      rw [g1, upd2_eq, if_neg (by omega), h3 q' h9 (by omega)]
    · intro q' p h9 h10 h11
      by_cases e : q' = q
      · subst e
        rw [h7 p h10 h11, g1, g1, upd2_eq t₁.f i q' _ i q', if_pos ⟨rfl, rfl⟩,
          upd2_eq t₁.f i q' _ q' p, if_neg (by omega), h5 q' p hq (by omega)]
      · rw [g2 q' p (by omega) e, h4 q' p (by omega) h10 h11, g1, g1, upd2_eq, if_neg (by omega),
          upd2_eq, if_neg (by omega)]
    · intro x y h9 h10
      rw [g2 x y (by omega) (by omega), h5 x y h9 (by omega)]
    · intro x y h9
      rw [h8 x y (by omega), upd2_eq, if_neg (by omega)]
      exact h6 x y h9
  · rintro t' ⟨h1, h2, h3, h4, h5, h6⟩
    exact ⟨hl, h1, fun q h7 h8 => h2 q h7 h8, fun q p h7 h8 h9 => h4 q p h7 h8 h9, h6⟩

section exact

variable {K : Type} [Field K] [LinearOrder K] [IsStrictOrderedRing K] [Flt K] [Exact K] [ExactSqrt K]

/-- Rows before `k` are done; the rest is the Schur complement. -/
structure Chol.Inv (n : Nat) (S : Nat → Nat → K) (k : Nat) (f : Nat → Nat → K) : Prop where
  prod : ∀ i j, i ≤ j → j < n →
    S i j = ∑ x ∈ range k, f x i * f x j + if i < k then 0 else f i j
  low : ∀ i j, i < n → j < i → f i j = 0
  pos : ∀ i, i < k → 0 < f i i

theorem Chol.Inv.step {S f f' : Nat → Nat → K} {k : Nat} (h : Chol.Inv n S k f) (hk : k < n)
    (hp : 0 < f k k) (h1 : f' k k = Flt.sqrt (f k k))
    (h2 : ∀ q, k < q → q < n → f' k q = f k q * (1 / Flt.sqrt (f k k)))
    (h3 : ∀ q p, k < q → q ≤ p → p < n → f' q p = f q p - f' k q * f' k p)
    (h4 : ∀ x y, (x < k ∨ y < x) → f' x y = f x y) : Chol.Inv n S (k + 1) f' := by
  have hs := ExactSqrt.sqrt_mul_self (f k k) hp.le
  have hs0 : 0 < Flt.sqrt (f k k) := by
    rcases (ExactSqrt.sqrt_nonneg (f k k)).lt_or_eq with h | h
    · exact h
    · rw [← h] at hs; simp at hs; exact absurd hs hp.ne
  have hlow : ∀ i j, i < n → j < i → f' i j = 0 := by
    intro i j hi hj
    rw [h4 i j (.inr hj)]; exact h.low i j hi hj
  have hkq : ∀ q, k ≤ q → q < n → f' k k * f' k q = f k q := by
    intro q hq hqn
    by_cases e : q = k
    · subst e; rw [h1, hs]
    · rw [h1, h2 q (by omega) hqn]
      field_simp
  constructor
  · intro i j hij hj
    have hsum : ∑ x ∈ range k, f' x i * f' x j = ∑ x ∈ range k, f x i * f x j := by
      refine sum_congr rfl fun x hx => ?_
      rw [h4 x i (.inl (mem_range.1 hx)), h4 x j (.inl (mem_range.1 hx))]
    rw [sum_range_succ, hsum, h.prod i j hij hj]
    rcases lt_trichotomy i k with e | e | e
    · rw [if_pos e, if_pos (by omega), hlow k i hk e]
      ring
    · subst e
      rw [if_neg (by omega), if_pos (by omega), hkq j hij hj]
      ring
    · rw [if_neg (by omega), if_neg (by omega), h3 i j e hij hj]
      ring
  · exact hlow
  · intro i hi
    by_cases e : i = k
    · subst e; rw [h1]; exact hs0
    · rw [h4 i i (by omega)]; exact h.pos i (by omega)

end exact

end Linear
