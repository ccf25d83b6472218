import Verif.Base.Flt
import Mathlib.Tactic.Linarith

/-!
# Scalars with NaN and infinities, for witnesses

Rational numbers with two infinities and a NaN. Comparisons and special values follow IEEE 754;
there is no rounding and no signed zero.
-/

namespace Linear

/-- A rational number, an infinity or a NaN. -/
inductive Xq
  | nan | ninf | fin (q : ℚ) | pinf
  deriving DecidableEq

namespace Xq

def neg : Xq → Xq
  | nan => nan | ninf => pinf | fin q => fin (-q) | pinf => ninf

def add : Xq → Xq → Xq
  | nan, _ => nan | _, nan => nan
  | fin a, fin b => fin (a + b)
  | pinf, ninf => nan | ninf, pinf => nan
  | pinf, _ => pinf | _, pinf => pinf
  | ninf, _ => ninf | _, ninf => ninf

/-- `-1`, `0`, `1` by sign. -/
def sgn : Xq → Int
  | nan => 0 | ninf => -1 | pinf => 1
  | fin q => if q < 0 then -1 else if q = 0 then 0 else 1

def ofSgn (s : Int) : Xq := if s < 0 then ninf else if s = 0 then nan else pinf

def mul : Xq → Xq → Xq
  | nan, _ => nan | _, nan => nan
  | fin a, fin b => fin (a * b)
  | x, y => ofSgn (x.sgn * y.sgn)

def div : Xq → Xq → Xq
  | nan, _ => nan | _, nan => nan
  | fin a, fin b => if b = 0 then ofSgn (sgn (fin a)) else fin (a / b)
  | fin _, _ => fin 0
  | x, fin b => ofSgn (x.sgn * if b < 0 then -1 else 1)
  | _, _ => nan

def le : Xq → Xq → Bool
  | nan, _ => false | _, nan => false
  | ninf, _ => true | _, pinf => true
  | fin a, fin b => decide (a ≤ b)
  | pinf, _ => false | _, ninf => false

instance : Flt Xq where
  zero := fin 0
  one := fin 1
  two := fin 2
  add := add
  sub x y := add x (neg y)
  mul := mul
  div := div
  neg := neg
  abs x := match x with | ninf => pinf | fin q => fin |q| | x => x
  sqrt x := x
  fmax x y := if x = nan ∨ y = nan then nan else if le x y then y else x
  fmin x y := if x = nan ∨ y = nan then nan else if le x y then x else y
  lt x y := le x y && !le y x
  le := le
  eq x y := decide (x = y) && !decide (x = nan)
  isNaN x := decide (x = nan)
  isInf x := decide (x = ninf) || decide (x = pinf)
  nan := nan
  ulpEq x y := decide (x = y) && !decide (x = nan)

end Xq

end Linear
