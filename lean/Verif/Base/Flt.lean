import Mathlib.Algebra.Order.Field.Basic
import Mathlib.Algebra.Order.Ring.Rat
import Mathlib.Analysis.Real.Sqrt

/-!
# Scalars

`Flt` lists the `float64` operations used by the library and assumes no law about them, so a
theorem that quantifies over all `Flt` types holds for IEEE binary64 arithmetic.  `Exact` and
`ExactSqrt` say that the operations are those of an ordered field.
-/

namespace Linear

/-- The machine operations on `float64` used in `/repo` (Go operators and `math` functions). No law
is assumed. `lt`, `le`, `eq` are the Go comparison operators (all false on NaN). `ulpEq` is
`equals(x, y)` of `/repo/utils.go:41-43`, `fmax` is `math.Max`. -/
class Flt (α : Type) where
  zero : α
  one : α
  two : α
  add : α → α → α
  sub : α → α → α
  mul : α → α → α
  div : α → α → α
  neg : α → α
  abs : α → α
  sqrt : α → α
  fmax : α → α → α
  fmin : α → α → α
  lt : α → α → Bool
  le : α → α → Bool
  eq : α → α → Bool
  isNaN : α → Bool
  isInf : α → Bool
  nan : α
  ulpEq : α → α → Bool

namespace Flt
scoped infixl:65 " +. " => Flt.add
scoped infixl:65 " -. " => Flt.sub
scoped infixl:70 " *. " => Flt.mul
scoped infixl:70 " /. " => Flt.div
end Flt

/-- The operations of `α` are those of a linearly ordered field (no rounding, no NaN). -/
class Exact (K : Type) [Field K] [LinearOrder K] [Flt K] : Prop where
  zero_eq : (Flt.zero : K) = 0
  one_eq : (Flt.one : K) = 1
  two_eq : (Flt.two : K) = 2
  add_eq : ∀ x y : K, Flt.add x y = x + y
  sub_eq : ∀ x y : K, Flt.sub x y = x - y
  mul_eq : ∀ x y : K, Flt.mul x y = x * y
  div_eq : ∀ x y : K, Flt.div x y = x / y
  neg_eq : ∀ x : K, Flt.neg x = -x
  abs_eq : ∀ x : K, Flt.abs x = |x|
  max_eq : ∀ x y : K, Flt.fmax x y = max x y
  min_eq : ∀ x y : K, Flt.fmin x y = min x y
  lt_eq : ∀ x y : K, Flt.lt x y = decide (x < y)
  le_eq : ∀ x y : K, Flt.le x y = decide (x ≤ y)
  eq_eq : ∀ x y : K, Flt.eq x y = decide (x = y)
  isNaN_eq : ∀ x : K, Flt.isNaN x = false
  isInf_eq : ∀ x : K, Flt.isInf x = false
  ulpEq_eq : ∀ x y : K, Flt.ulpEq x y = decide (x = y)

/-- `sqrt` is the square root of non-negative numbers. -/
class ExactSqrt (K : Type) [Field K] [LinearOrder K] [Flt K] : Prop where
  sqrt_nonneg : ∀ x : K, 0 ≤ Flt.sqrt x
  sqrt_mul_self : ∀ x : K, 0 ≤ x → Flt.sqrt x * Flt.sqrt x = x

attribute [simp] Exact.zero_eq Exact.one_eq Exact.two_eq Exact.add_eq Exact.sub_eq Exact.mul_eq
  Exact.div_eq Exact.neg_eq Exact.abs_eq Exact.max_eq Exact.min_eq Exact.lt_eq Exact.le_eq
  Exact.eq_eq Exact.isNaN_eq Exact.isInf_eq Exact.ulpEq_eq

/-- Real numbers as scalars. -/
noncomputable instance : Flt ℝ where
  zero := 0
  one := 1
  two := 2
  add := (· + ·)
  sub := (· - ·)
  mul := (· * ·)
  div := (· / ·)
  neg := (- ·)
  abs := fun x => |x|
  sqrt := Real.sqrt
  fmax := max
  fmin := min
  lt x y := decide (x < y)
  le x y := decide (x ≤ y)
  eq x y := decide (x = y)
  isNaN _ := false
  isInf _ := false
  nan := 0
  ulpEq x y := decide (x = y)

instance : Exact ℝ where
  zero_eq := rfl
  one_eq := rfl
  two_eq := rfl
  add_eq _ _ := rfl
  sub_eq _ _ := rfl
  mul_eq _ _ := rfl
  div_eq _ _ := rfl
  neg_eq _ := rfl
  abs_eq _ := rfl
  max_eq _ _ := rfl
  min_eq _ _ := rfl
  lt_eq _ _ := rfl
  le_eq _ _ := rfl
  eq_eq _ _ := rfl
  isNaN_eq _ := rfl
  isInf_eq _ := rfl
  ulpEq_eq _ _ := rfl

instance : ExactSqrt ℝ where
  sqrt_nonneg := Real.sqrt_nonneg
  sqrt_mul_self _ h := Real.mul_self_sqrt h

/-- Rational numbers as scalars, for computable witnesses. `sqrt` is not exact here. -/
instance : Flt ℚ where
  zero := 0
  one := 1
  two := 2
  add := (· + ·)
  sub := (· - ·)
  mul := (· * ·)
  div := (· / ·)
  neg := (- ·)
  abs := fun x => |x|
  sqrt := fun x => (Nat.sqrt x.num.toNat : ℚ) / (Nat.sqrt x.den : ℚ)
  fmax := max
  fmin := min
  lt x y := decide (x < y)
  le x y := decide (x ≤ y)
  eq x y := decide (x = y)
  isNaN _ := false
  isInf _ := false
  nan := 0
  ulpEq x y := decide (x = y)

instance : Exact ℚ where
  zero_eq := rfl
  one_eq := rfl
  two_eq := rfl
  add_eq _ _ := rfl
  sub_eq _ _ := rfl
  mul_eq _ _ := rfl
  div_eq _ _ := rfl
  neg_eq _ := rfl
  abs_eq _ := rfl
  max_eq _ _ := rfl
  min_eq _ _ := rfl
  lt_eq _ _ := rfl
  le_eq _ _ := rfl
  eq_eq _ _ := rfl
  isNaN_eq _ := rfl
  isInf_eq _ := rfl
  ulpEq_eq _ _ := rfl

end Linear
