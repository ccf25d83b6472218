import Verif.Base.Flt
import Mathlib.Data.Nat.Log

/-!
# The comparison of `/repo/utils.go` on bit patterns

A `float64` is its 64-bit pattern, as given by `math.Float64bits`.
-/

namespace Linear

/-- `float64(n)` for a `uint64`, as the integer it represents: round to nearest, ties to even, on a
53-bit significand. Go's conversion, used at `/repo/utils.go:90`. -/
def roundU64 (n : Nat) : Nat :=
  if n < 2 ^ 53 then n
  else
    let e := Nat.log2 n - 52
    let q := n / 2 ^ e
    let rest := n % 2 ^ e
    let half := 2 ^ (e - 1)
    (if rest < half ∨ rest = half ∧ q % 2 = 0 then q else q + 1) * 2 ^ e

/-- `uint64(x)` of a non-negative integral float: itself when it fits. The Go specification leaves
the result open when it does not (`x = 2^64`); that result is the parameter `conv`. (/repo/utils.go:90) -/
def toU64 (conv : BitVec 64) (x : Nat) : BitVec 64 :=
  if x < 2 ^ 64 then BitVec.ofNat 64 x else conv

/-- `math.IsNaN` on the bit pattern: exponent all ones, fraction not zero. (/repo/utils.go:110) -/
def isNaNBits (x : BitVec 64) : Bool := x.toNat % 2 ^ 63 > 0x7FF0000000000000

/-- `equalsWithULP`, `/repo/utils.go:82-112`, on the patterns of its arguments. `sgn_mask_float` is
`0x80000000` (`/repo/utils.go:25`) and subtraction of `uint64` wraps. `negZero` is
`negative_zero_float64_bits` (`/repo/utils.go:32`), a parameter because nothing below depends on it. -/
def equalsULP (conv negZero x y : BitVec 64) (maxUlps : BitVec 64) : Bool :=
  let isEqual :=
    if (x ^^^ y) &&& 0x80000000#64 = 0#64 then
      decide (toU64 conv (roundU64 (x - y).toNat) ≤ maxUlps)
    else
      let deltas := if x < y then (y - 0#64, x - negZero) else (x - 0#64, y - negZero)
      if maxUlps < deltas.1 then false else decide (deltas.2 ≤ maxUlps - deltas.1)
  isEqual && !isNaNBits x && !isNaNBits y

/-- `equals`, `/repo/utils.go:74-76`. -/
def equalsBits (conv negZero x y : BitVec 64) : Bool := equalsULP conv negZero x y 1#64

/-- Scalars that are IEEE doubles as far as `ulpEq` and products with zero are concerned: `bits` is
`math.Float64bits`, `ulpEq` is the comparison above, and `0.0 * d` for finite `d` is the zero with
the sign of `d`. (/repo/utils.go:82-112) -/
class Ieee (α : Type) [Flt α] where
  bits : α → BitVec 64
  conv : BitVec 64
  negZero : BitVec 64
  zero_bits : bits Flt.zero = 0#64
  ulpEq_bits : ∀ x y : α, Flt.ulpEq x y = equalsBits conv negZero (bits x) (bits y)
  mul_zero_bits : ∀ d : α, (bits d).toNat % 2 ^ 63 < 0x7FF0000000000000 →
    bits (Flt.mul Flt.zero d) = if 2 ^ 63 ≤ (bits d).toNat then 0x8000000000000000#64 else 0#64

end Linear
