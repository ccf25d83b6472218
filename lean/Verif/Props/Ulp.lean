import Verif.Lemmas.UlpBits
import Verif.Lemmas.DiaLemmas

/-!
# C44, C45: the comparison within one unit in the last place, and what it does to diagonal scaling
-/

set_option linter.unusedSectionVars false

namespace Linear

open Spec

/-- Position of a bit pattern on the line of machine numbers; both zeros are at 0. -/
def Spec.place (x : BitVec 64) : Int :=
  if x.toNat < 2 ^ 63 then x.toNat else -(x.toNat - 2 ^ 63 : Int)

/-- The pattern is a NaN. -/
def Spec.isNaN (x : BitVec 64) : Prop := 0x7FF0000000000000 < x.toNat % 2 ^ 63

/-- The same or adjacent machine numbers. -/
def Spec.adjacent (x y : BitVec 64) : Prop :=
  ¬ isNaN x ∧ ¬ isNaN y ∧ |place x - place y| ≤ 1

/-- The conversion to `float64` reaches `2^64` exactly from `2^64 - 1024` on. -/
theorem roundU64_top {n : Nat} (h : n < 2 ^ 64) : 2 ^ 64 ≤ roundU64 n ↔ 2 ^ 64 - 1024 ≤ n := by
  by_cases h53 : n < 2 ^ 53
  · rw [roundU64_small h53]; omega
  unfold roundU64
  rw [if_neg h53]
  dsimp only
  have h1 : Nat.log2 n < 64 := (Nat.log2_lt (by omega)).2 h
  have h2 : n < 2 ^ (Nat.log2 n + 1) := Nat.lt_log2_self
  have h3 : 53 ≤ Nat.log2 n := (Nat.le_log2 (by omega)).2 (by omega)
  by_cases h63 : Nat.log2 n = 63
  · rw [h63]
    norm_num only
    split <;> omega
  · generalize Nat.log2 n = l at *
    obtain ⟨e, rfl⟩ : ∃ e, l = e + 52 := ⟨l - 52, by omega⟩
    rw [Nat.add_sub_cancel]
    have hn : n < 2 ^ 63 := h2.trans_le (Nat.pow_le_pow_right (by decide) (by omega))
    have hq : n / 2 ^ e + 1 ≤ 2 ^ 53 := by
      have : n / 2 ^ e < 2 ^ 53 := by
        rw [Nat.div_lt_iff_lt_mul (by positivity), ← pow_add]
        refine h2.trans_le (Nat.pow_le_pow_right (by decide) (by omega))
      omega
    have hb : ∀ q, q ≤ n / 2 ^ e + 1 → q * 2 ^ e ≤ 2 ^ 63 := fun q hqq => by
      calc q * 2 ^ e ≤ 2 ^ 53 * 2 ^ e := Nat.mul_le_mul_right _ (hqq.trans hq)
        _ = 2 ^ (53 + e) := (pow_add _ _ _).symm
        _ ≤ 2 ^ 63 := Nat.pow_le_pow_right (by decide) (by omega)
    refine ⟨fun h => ?_, fun h => by omega⟩
    exfalso
    revert h
    split
    · have := hb _ (Nat.le_succ (n / 2 ^ e)); omega
    · have := hb _ le_rfl; omega

/-- The two patterns agree on bit 31, where the code takes the sign to be. -/
def Spec.bit31 (x y : BitVec 64) : Prop := x.toNat / 2 ^ 31 % 2 = y.toNat / 2 ^ 31 % 2

theorem mask31 (x y : BitVec 64) : (x ^^^ y) &&& 0x80000000#64 = 0#64 ↔ bit31 x y := by
  have e : 0x80000000#64 = BitVec.twoPow 64 31 := by decide
  unfold bit31
  have hx : x.toNat.testBit 31 = decide (x.toNat / 2 ^ 31 % 2 = 1) := by
    rw [Nat.testBit_eq_decide_div_mod_eq]
  have hy : y.toNat.testBit 31 = decide (y.toNat / 2 ^ 31 % 2 = 1) := by
    rw [Nat.testBit_eq_decide_div_mod_eq]
  rw [e, BitVec.and_twoPow]
  have hb : (x ^^^ y).getLsbD 31 = xor (x.toNat.testBit 31) (y.toNat.testBit 31) := by
    rw [BitVec.getLsbD_xor]; rfl
  rw [hb, hx, hy]
  have h1 : x.toNat / 2 ^ 31 % 2 < 2 := Nat.mod_lt _ (by decide)
  have h2 : y.toNat / 2 ^ 31 % 2 < 2 := Nat.mod_lt _ (by decide)
  generalize x.toNat / 2 ^ 31 % 2 = a at *
  generalize y.toNat / 2 ^ 31 % 2 = b at *
  have h3 : ¬ BitVec.twoPow 64 31 = 0#64 := by decide
  rcases (by omega : a = 0 ∨ a = 1) with rfl | rfl <;>
    rcases (by omega : b = 0 ∨ b = 1) with rfl | rfl <;> simp [h3]

/-- C44, partial: exactly what `equals` computes, for every pair of patterns and every way the
platform may convert an overflowing float. It is true when neither is a NaN, bit 31 agrees, and the
patterns are equal, or `x` is the pattern after `y`, or (on a platform that converts overflow to 0
or 1) `x` lies at most 1024 patterns before `y`. Missing: the stated equivalence with "same or
adjacent machine numbers", refuted by `C44_false`. -/
theorem C44_partial (conv negZero x y : BitVec 64) :
    equalsBits conv negZero x y = true ↔ ¬ isNaN x ∧ ¬ isNaN y ∧ bit31 x y ∧
      (x = y ∨ x = y + 1#64 ∨ conv.toNat ≤ 1 ∧ 2 ^ 64 - 1024 ≤ (x - y).toNat) := by
  unfold equalsBits equalsULP isNaNBits Spec.isNaN
  dsimp only
  simp only [Bool.and_eq_true, Bool.not_eq_true', decide_eq_false_iff_not, gt_iff_lt]
  by_cases hb : bit31 x y
  · rw [if_pos ((mask31 x y).2 hb), decide_eq_true_eq]
    have key : toU64 conv (roundU64 (x - y).toNat) ≤ 1#64 ↔
        (x = y ∨ x = y + 1#64 ∨ conv.toNat ≤ 1 ∧ 2 ^ 64 - 1024 ≤ (x - y).toNat) := by
      have hlt : (x - y).toNat < 2 ^ 64 := (x - y).isLt
      have hx := x.isLt
      have hy := y.isLt
      rw [BitVec.le_def]
      have hs : (x - y).toNat = 0 ↔ x = y := by
        rw [BitVec.toNat_sub, ← BitVec.toNat_inj]; omega
      have hs1 : (x - y).toNat = 1 ↔ x = y + 1#64 := by
        rw [BitVec.toNat_sub, ← BitVec.toNat_inj, BitVec.toNat_add]
        simp only [BitVec.toNat_ofNat]
        omega
      rw [← hs, ← hs1]
      generalize (x - y).toNat = n at *
      unfold toU64
      by_cases ht : roundU64 n < 2 ^ 64
      · rw [if_pos ht, BitVec.toNat_ofNat, Nat.mod_eq_of_lt ht]
        have := (roundU64_top hlt).not.1 (by omega)
        by_cases h53 : n < 2 ^ 53
        · rw [roundU64_small h53]
          simp only [BitVec.toNat_ofNat]
          omega
        · have := roundU64_big (n := n) (by omega)
          simp only [BitVec.toNat_ofNat]
          omega
      · rw [if_neg ht]
        have := (roundU64_top hlt).1 (by omega)
        simp only [BitVec.toNat_ofNat]
        omega
    rw [key]
    tauto
  · rw [if_neg (fun h => hb ((mask31 x y).1 h))]
    have : ∀ d : BitVec 64 × BitVec 64, 2 ≤ d.1.toNat →
        ¬ (if 1#64 < d.1 then false else decide (d.2 ≤ 1#64 - d.1)) = true := by
      intro d hd
      rw [if_pos]
      · simp
      · rw [BitVec.lt_def]
        exact hd
    have hd : 2 ≤ (if x < y then (y - 0#64, x - negZero) else (x - 0#64, y - negZero)).1.toNat := by
      unfold bit31 at hb
      simp only [BitVec.sub_zero]
      split
      · rename_i h
        rw [BitVec.lt_def] at h
        show 2 ≤ y.toNat
        omega
      · rename_i h
        rw [BitVec.lt_def] at h
        show 2 ≤ x.toNat
        omega
    have := this _ hd
    tauto

/-- C44, sound half: on a platform whose overflowing conversion gives at least 2 (the known ones
give `2^63` or `2^64 - 1`), numbers found equal are the same or adjacent. -/
theorem C44_sound_partial {conv : BitVec 64} (hconv : 2 ≤ conv.toNat) (negZero x y : BitVec 64)
    (h : equalsBits conv negZero x y = true) : adjacent x y := by
  obtain ⟨h1, h2, -, h⟩ := (C44_partial _ _ _ _).1 h
  refine ⟨h1, h2, ?_⟩
  unfold Spec.isNaN at h1 h2
  rcases h with rfl | rfl | h
  · simp
  · have hy := y.isLt
    rw [BitVec.toNat_add, BitVec.toNat_ofNat] at h1
    unfold place
    rw [BitVec.toNat_add, BitVec.toNat_ofNat]
    rw [abs_le]
    split <;> split <;> constructor <;> omega
  · omega

/-- C44, refuted on every platform, in each of its parts: two adjacent numbers that compare unequal
one way round but equal the other way on platforms that saturate, and the two zeros. -/
theorem C44_false (conv negZero : BitVec 64) :
    (¬ ∀ x y, equalsBits conv negZero x y = true ↔ adjacent x y) ∧
    (2 ≤ conv.toNat → ¬ ∀ x y, equalsBits conv negZero x y = equalsBits conv negZero y x) ∧
    equalsBits conv negZero 0#64 0x8000000000000000#64 = false := by
  have hz : equalsBits conv negZero 0#64 0x8000000000000000#64 = false := by
    rw [Bool.eq_false_iff]
    intro h
    obtain ⟨-, -, -, h⟩ := (C44_partial _ _ _ _).1 h
    revert h
    simp only [show ((0#64 : BitVec 64) - 0x8000000000000000#64).toNat = 2 ^ 63 by decide,
      show ((0#64 : BitVec 64) = 0x8000000000000000#64) ↔ False by decide,
      show ((0#64 : BitVec 64) = 0x8000000000000000#64 + 1#64) ↔ False by decide]
    rintro (h | h | h)
    · exact h
    · exact h
    · omega
  refine ⟨fun h => ?_, fun hc h => ?_, hz⟩
  · have := (h 0#64 0x8000000000000000#64).2 (by unfold adjacent Spec.isNaN place; decide)
    rw [hz] at this
    cases this
  · have h1 : equalsBits conv negZero 0x3FF0000000000001#64 0x3FF0000000000000#64 = true := by
      rw [C44_partial]
      refine ⟨by unfold Spec.isNaN; decide, by unfold Spec.isNaN; decide,
        by unfold bit31; decide, .inr (.inl (by decide))⟩
    rw [h] at h1
    obtain ⟨-, -, -, h1⟩ := (C44_partial _ _ _ _).1 h1
    rcases h1 with h1 | h1 | h1
    · exact absurd h1 (by decide)
    · exact absurd h1 (by decide)
    · omega

/-- C44: every number that is not a NaN equals itself, and a NaN equals nothing. -/
theorem C44_reflexive (conv negZero x : BitVec 64) :
    (equalsBits conv negZero x x = true ↔ ¬ isNaN x) ∧
    ∀ y, isNaN x → equalsBits conv negZero x y = false ∧ equalsBits conv negZero y x = false := by
  refine ⟨?_, fun y hx => ⟨?_, ?_⟩⟩
  · rw [C44_partial]
    exact ⟨fun h => h.1, fun h => ⟨h, h, rfl, .inl rfl⟩⟩
  · rw [Bool.eq_false_iff, Ne, C44_partial]; tauto
  · rw [Bool.eq_false_iff, Ne, C44_partial]; tauto

/-- Concrete case of the sound half: 1 and the number after it. -/
example : equalsBits 0x8000000000000000#64 0x8000000000000000#64 0x3FF0000000000001#64
    0x3FF0000000000000#64 = true := by
  rw [C44_partial]
  exact ⟨by unfold Spec.isNaN; decide, by unfold Spec.isNaN; decide, by unfold bit31; decide,
    .inr (.inl (by decide))⟩

/-! ## C45 Diagonal scaling -/

variable {α : Type} [Flt α] [Ieee α] {n : Nat}

/-- The scalar is a finite number. -/
def Spec.finite (d : α) : Prop := (Ieee.bits d).toNat % 2 ^ 63 < 0x7FF0000000000000

/-- The sign bit of the scalar is set. -/
def Spec.minus (d : α) : Prop := 2 ^ 63 ≤ (Ieee.bits d).toNat

theorem ulp_zero_mul {d : α} (hd : finite d) :
    Flt.ulpEq (Flt.zero : α) (Flt.mul Flt.zero d) = true ↔ ¬ minus d := by
  rw [Ieee.ulpEq_bits, Ieee.zero_bits, Ieee.mul_zero_bits d hd]
  unfold minus
  by_cases h : 2 ^ 63 ≤ (Ieee.bits d).toNat
  · rw [if_pos h, (C44_false _ _).2.2]
    exact ⟨fun h => (by cases h), fun h' => absurd h h'⟩
  · rw [if_neg h]
    simp only [h, not_false_iff, iff_true]
    exact (C44_reflexive _ _ _).1.2 (by unfold Spec.isNaN; decide)

/-- C45, partial: on IEEE doubles `ScalarMultiply` by a finite scalar whose sign bit is clear
returns the diagonal matrix of the scaled entries. Missing: scalars with the sign bit set, for which
`C45_false` shows a panic. -/
theorem C45_partial (m : Dia α n) (hn : 0 < n) {d : α} (hd : finite d) (hs : n = 1 ∨ ¬ minus d)
    {A : Nat → Nat → α} (hA : Shows m.at n n A) :
    ∃ m' : Dia α n, m.scalarMultiply d = .ok m' ∧
      Shows m'.at n n fun i j => if i = j then Flt.mul (A i i) d else Flt.zero := by
  obtain ⟨m', e, h⟩ := m.scalarMultiply_ok hn (hs.imp id fun hs => (ulp_zero_mul hd).2 hs)
  refine ⟨m', e, h.congr fun i j hi hj => ?_⟩
  unfold diag
  have : m.data.f i = A i i := by
    rw [← (Dia.shows m).unique hA hi hi]
    simp [diag]
  dsimp only; rw [this]

/-- C45, refuted: on IEEE doubles `ScalarMultiply` by any finite scalar with the sign bit set (every
negative number, and -0) panics on every diagonal matrix of dimension 2 or more. -/
theorem C45_false (m : Dia α n) (hn : 2 ≤ n) {d : α} (hd : finite d) (hs : minus d) :
    m.scalarMultiply d = .error (.pan .big) :=
  m.scalarMultiply_big hn fun h => (ulp_zero_mul hd).1 h hs

/-- Bit patterns with just enough arithmetic to be scalars in the sense of `Ieee`: products are
zero with the right sign. -/
structure Pattern where
  w : BitVec 64

instance : Flt Pattern where
  zero := ⟨0#64⟩
  one := ⟨0x3FF0000000000000#64⟩
  two := ⟨0x4000000000000000#64⟩
  add x _ := x
  sub x _ := x
  mul x y := ⟨if x.w.msb = y.w.msb then 0#64 else 0x8000000000000000#64⟩
  div x _ := x
  neg x := x
  abs x := x
  sqrt x := x
  fmax x _ := x
  fmin x _ := x
  lt _ _ := false
  le _ _ := false
  eq _ _ := false
  isNaN x := isNaNBits x.w
  isInf _ := false
  nan := ⟨0x7FF8000000000000#64⟩
  ulpEq x y := equalsBits 0x8000000000000000#64 0x8000000000000000#64 x.w y.w

instance : Ieee Pattern where
  bits x := x.w
  conv := 0x8000000000000000#64
  negZero := 0x8000000000000000#64
  zero_bits := rfl
  ulpEq_bits _ _ := rfl
  mul_zero_bits d _ := by
    show (if (0#64).msb = d.w.msb then 0#64 else 0x8000000000000000#64) = _
    rw [BitVec.msb_eq_decide d.w]
    have : (0#64).msb = false := rfl
    rw [this]
    by_cases h : 2 ^ 63 ≤ d.w.toNat
    · rw [if_pos h, if_neg]; simpa using h
    · rw [if_neg h, if_pos]; simpa using h

/-- Concrete cases: scaling a 2 × 2 diagonal matrix by 2 and by -2. -/
example : (∃ m' : Dia Pattern 2, (⟨⟨fun _ => Flt.one⟩⟩ : Dia Pattern 2).scalarMultiply Flt.two =
      .ok m') ∧
    (⟨⟨fun _ => Flt.one⟩⟩ : Dia Pattern 2).scalarMultiply ⟨0xC000000000000000#64⟩ =
      .error (.pan .big) := by
  refine ⟨?_, C45_false _ (by decide) (by unfold finite; decide) (by unfold minus; decide)⟩
  obtain ⟨m', e, -⟩ := C45_partial (⟨⟨fun _ => Flt.one⟩⟩ : Dia Pattern 2) (by decide)
    (d := Flt.two) (by unfold finite; decide) (.inr (by unfold minus; decide)) (Dia.at_shows _)
  exact ⟨m', e⟩

end Linear
