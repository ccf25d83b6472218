import Verif.Lemmas.BlkOps5
import Mathlib.Algebra.BigOperators.Intervals

/-!
# The sums of the code in exact arithmetic
-/

set_option linter.unusedSectionVars false

namespace Linear

open Spec

variable {K : Type} [Field K] [LinearOrder K] [Flt K] [Exact K]

theorem lsum_exact (a b : Nat) (g : Nat → K) (s : K) :
    lsum a b g s = s + ∑ i ∈ Finset.Ico a b, g i := by
  by_cases h : a ≤ b
  · induction b, h using Nat.le_induction with
    | base => simp [lsum_self]
    | succ b h ih =>
      rw [lsum_succ h, ih, Finset.sum_Ico_succ_top h, Exact.add_eq, add_assoc]
  · rw [lsum_self (by omega), Finset.Ico_eq_empty (by omega), Finset.sum_empty, add_zero]

theorem lsum_exact0 (n : Nat) (g : Nat → K) :
    lsum 0 n g Flt.zero = ∑ i ∈ Finset.range n, g i := by
  rw [lsum_exact, Exact.zero_eq, zero_add, Finset.range_eq_Ico]

theorem usum_exact (n : Nat) (P : Nat → K) : usum n P = ∑ i ∈ Finset.range n, P i := by
  unfold usum
  rw [lsum_exact, lsum_exact0]
  have : ∀ m, ∑ g ∈ Finset.range m, Flt.add (Flt.add (Flt.add (P (4 * g)) (P (4 * g + 1)))
      (P (4 * g + 2))) (P (4 * g + 3)) = ∑ i ∈ Finset.range (4 * m), P i := by
    intro m
    induction m with
    | zero => simp
    | succ m ih =>
      rw [Finset.sum_range_succ, ih, show 4 * (m + 1) = 4 * m + 1 + 1 + 1 + 1 by ring,
        Finset.sum_range_succ, Finset.sum_range_succ, Finset.sum_range_succ,
        Finset.sum_range_succ]
      simp only [Exact.add_eq]
      ring
  rw [this, Finset.range_eq_Ico, Finset.range_eq_Ico,
    Finset.sum_Ico_consecutive _ (Nat.zero_le _) (by omega)]

/-- Summing block by block is summing. -/
theorem sum_blocks (c : Nat) (f : Nat → K) :
    ∑ kb ∈ Finset.range (nBlocks c), ∑ t ∈ Finset.range (blkExt c kb), f (kb * 52 + t) =
      ∑ i ∈ Finset.range c, f i := by
  have : ∀ k, ∑ kb ∈ Finset.range k, ∑ t ∈ Finset.range (blkExt c kb), f (kb * 52 + t) =
      ∑ i ∈ Finset.range (min (k * 52) c), f i := by
    intro k
    induction k with
    | zero => simp
    | succ k ih =>
      rw [Finset.sum_range_succ, ih, Finset.range_eq_Ico, Finset.range_eq_Ico,
        Finset.sum_Ico_add f 0 (blkExt c k) (k * 52)]
      by_cases h : k * 52 ≤ c
      · rw [Nat.min_eq_left h, zero_add, Finset.sum_Ico_consecutive _ (Nat.zero_le _) (by omega),
          Finset.range_eq_Ico]
        congr 2
        unfold blkExt; omega
      · rw [Nat.min_eq_right (by omega), Nat.min_eq_right (by omega)]
        have : blkExt c k = 0 := by unfold blkExt; omega
        simp [this]
  rw [this, Nat.min_eq_right]
  unfold nBlocks
  omega

theorem bdot_exact (c : Nat) (x y : Nat → K) :
    bdot c x y = ∑ k ∈ Finset.range c, x k * y k := by
  unfold bdot
  rw [lsum_exact0]
  simp only [usum_exact, Exact.mul_eq]
  exact sum_blocks c fun k => x k * y k

theorem gdot_exact (c : Nat) (x y : Nat → K) :
    gdot c x y = ∑ k ∈ Finset.range c, x k * y k := by
  unfold gdot
  rw [lsum_exact0]
  simp only [lsum_exact0, Exact.mul_eq]
  exact sum_blocks c fun k => x k * y k

theorem ldot_exact (n : Nat) (x y : Nat → K) :
    ldot n x y = ∑ k ∈ Finset.range n, x k * y k := by
  unfold ldot
  simp only [lsum_exact0, Exact.mul_eq]

end Linear
