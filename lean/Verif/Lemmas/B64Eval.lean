import Verif.Props.RoundBi

/-!
# Evaluation of binary64 expressions whose results are exact
-/

namespace Linear

open Rnd

/-- The double is the number `r`. -/
def B64.Is (x : B64) (r : ℝ) : Prop := fin x ∧ val x = r

namespace B64

theorem Num.dy {r : ℝ} (k : ℤ) (e : ℕ) (hk : |k| ≤ 2 ^ 53) (he : e ≤ 100) (h : r = k / 2 ^ e) : Num r := by
  subst h
  refine ⟨⟨k, -(e : ℤ), hk, by omega, by rw [zpow_neg, zpow_natCast]; rfl⟩, ?_⟩
  have h1 : |(k : ℝ)| ≤ 2 ^ 53 := by exact_mod_cast hk
  have h2 : (1 : ℝ) ≤ 2 ^ e := one_le_pow₀ (by norm_num)
  rw [abs_div, abs_of_pos (show (0 : ℝ) < 2 ^ e by positivity)]
  refine lt_of_le_of_lt (div_le_self (abs_nonneg _) h2) (h1.trans_lt ?_)
  exact pow_lt_pow_right₀ (by norm_num) (by norm_num)

theorem Is.int {k : ℤ} (hk : |k| ≤ 2 ^ 53) : Is (B64.int k hk) k := ⟨trivial, rfl⟩

theorem Is.zero : Is Flt.zero 0 := ⟨zero_fin, val_zero⟩

theorem Is.one : Is Flt.one 1 := ⟨one_fin, val_one⟩

theorem Is.rnd {r : ℝ} (h : Num r) : Is (rnd r) r := by rw [rnd_rep h]; exact ⟨trivial, rfl⟩

theorem Is.add {x y : B64} {r s t : ℝ} (hx : Is x r) (hy : Is y s) (e : r + s = t) (h : Num t) :
    Is (Flt.add x y) t := by
  obtain ⟨f1, rfl⟩ := hx
  obtain ⟨f2, rfl⟩ := hy
  rcases x with x | _ | _ <;> [skip; exact f1.elim; exact f1.elim]
  rcases y with y | _ | _ <;> [skip; exact f2.elim; exact f2.elim]
  subst e
  exact Is.rnd h

theorem Is.sub {x y : B64} {r s t : ℝ} (hx : Is x r) (hy : Is y s) (e : r - s = t) (h : Num t) :
    Is (Flt.sub x y) t := by
  obtain ⟨f1, rfl⟩ := hx
  obtain ⟨f2, rfl⟩ := hy
  rcases x with x | _ | _ <;> [skip; exact f1.elim; exact f1.elim]
  rcases y with y | _ | _ <;> [skip; exact f2.elim; exact f2.elim]
  subst e
  exact Is.rnd h

theorem Is.mul {x y : B64} {r s t : ℝ} (hx : Is x r) (hy : Is y s) (e : r * s = t) (h : Num t) :
    Is (Flt.mul x y) t := by
  obtain ⟨f1, rfl⟩ := hx
  obtain ⟨f2, rfl⟩ := hy
  rcases x with x | _ | _ <;> [skip; exact f1.elim; exact f1.elim]
  rcases y with y | _ | _ <;> [skip; exact f2.elim; exact f2.elim]
  subst e
  exact Is.rnd h

theorem Is.div {x y : B64} {r s t : ℝ} (hx : Is x r) (hy : Is y s) (h0 : s ≠ 0) (e : r / s = t) (h : Num t) :
    Is (Flt.div x y) t := by
  obtain ⟨f1, rfl⟩ := hx
  obtain ⟨f2, rfl⟩ := hy
  rcases x with x | _ | _ <;> [skip; exact f1.elim; exact f1.elim]
  rcases y with y | _ | _ <;> [skip; exact f2.elim; exact f2.elim]
  subst e
  show Is (if y = 0 then _ else B64.rnd (x / y)) _
  rw [if_neg (show ¬ y = 0 from h0)]
  exact Is.rnd h

theorem Is.neg {x : B64} {r t : ℝ} (hx : Is x r) (e : -r = t) : Is (Flt.neg x) t :=
  ⟨neg_fin.2 hx.1, by rw [val_neg hx.1, hx.2, e]⟩

theorem Is.sqrt {x : B64} {r t : ℝ} (hx : Is x r) (h0 : 0 ≤ t) (e : r = t * t) (h : Num t) :
    Is (Flt.sqrt x) t := by
  obtain ⟨f1, rfl⟩ := hx
  rcases x with x | _ | _ <;> [skip; exact f1.elim; exact f1.elim]
  change x = t * t at e
  subst e
  show Is (if t * t < 0 then _ else B64.rnd √(t * t)) _
  rw [if_neg (not_lt.2 (mul_self_nonneg t)), Real.sqrt_mul_self h0]
  exact Is.rnd h

theorem Is.ne {x : B64} {r : ℝ} (hx : Is x r) (h : r ≠ 0) : Flt.eq x Flt.zero = false := by
  rw [Bool.eq_false_iff, Ne, eq_iff hx.1 zero_fin, hx.2, val_zero]
  exact h

end B64

end Linear
