import Verif.Model.Ulp
import Mathlib.Tactic.Positivity
import Mathlib.Tactic.Linarith

/-!
# The comparison of bit patterns with zero
-/

namespace Linear

theorem roundU64_small {n : Nat} (h : n < 2 ^ 53) : roundU64 n = n := by
  unfold roundU64; rw [if_pos h]

theorem roundU64_big {n : Nat} (h : 2 ^ 53 ≤ n) : 2 ^ 52 ≤ roundU64 n := by
  unfold roundU64
  rw [if_neg (by omega)]
  dsimp only
  have hl : 53 ≤ Nat.log2 n := (Nat.le_log2 (by omega)).2 h
  have h2 : 2 ^ Nat.log2 n ≤ n := Nat.log2_self_le (by omega)
  generalize Nat.log2 n = l at *
  obtain ⟨e, rfl⟩ : ∃ e, l = e + 52 := ⟨l - 52, by omega⟩
  rw [Nat.add_sub_cancel]
  have hq : 2 ^ 52 ≤ n / 2 ^ e := by
    rw [Nat.le_div_iff_mul_le (by positivity), ← pow_add, Nat.add_comm]
    exact h2
  have hp : 1 ≤ 2 ^ e := Nat.one_le_two_pow
  split
  · exact hq.trans (Nat.le_mul_of_pos_right _ hp)
  · exact (hq.trans (Nat.le_succ _)).trans (Nat.le_mul_of_pos_right _ hp)

/-- A pattern is within one unit of the zero exactly when it is the zero or the smallest positive one. -/
theorem equalsBits_zero {x : BitVec 64} :
    equalsBits 0x8000000000000000#64 0x8000000000000000#64 x 0#64 = true ↔ x.toNat ≤ 1 := by
  constructor
  · intro h
    unfold equalsBits equalsULP at h
    dsimp only at h
    rw [Bool.and_eq_true, Bool.and_eq_true] at h
    obtain ⟨⟨h, -⟩, -⟩ := h
    split at h
    · rw [decide_eq_true_eq, BitVec.le_def, BitVec.sub_zero] at h
      by_contra hc
      have h1 : 2 ≤ roundU64 x.toNat := by
        by_cases h53 : x.toNat < 2 ^ 53
        · rw [roundU64_small h53]; omega
        · have := roundU64_big (not_lt.1 h53); omega
      unfold toU64 at h
      split at h
      · rename_i h2
        rw [BitVec.toNat_ofNat, Nat.mod_eq_of_lt h2] at h
        have : (1#64).toNat = 1 := rfl
        omega
      · revert h; decide
    · have h0 : ¬ x < 0#64 := by rw [BitVec.lt_def]; exact Nat.not_lt_zero _
      simp only [if_neg h0] at h
      split at h
      · exact absurd h (by decide)
      · rename_i h2
        rw [BitVec.lt_def, BitVec.sub_zero] at h2
        have : (1#64).toNat = 1 := rfl
        omega
  · intro h
    rcases (by omega : x.toNat = 0 ∨ x.toNat = 1) with h1 | h1
    · have : x = 0#64 := BitVec.eq_of_toNat_eq h1
      subst this; decide
    · have : x = 1#64 := BitVec.eq_of_toNat_eq h1
      subst this; decide

end Linear
