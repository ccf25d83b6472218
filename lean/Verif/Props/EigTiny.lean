import Verif.Props.RoundEigDet
import Verif.Props.SvdTiny

/-!
# C122: regularity by eigenvalues and the squares of the eigenvalues

`IsNonSingular` of the eigen decomposition compares the magnitudes of the eigenvalues, which `eigenvalueNormAt` takes as the square root of
the sum of two squares.  The squares of small eigenvalues are zero.
-/

set_option linter.unusedSectionVars false

namespace Linear

open Spec Rnd Matrix
open Finset hiding val diag

/-- Products below the smallest positive number are zero. -/
theorem mul_tiny {α : Type} [Flt α] [Rnd α] {x y : α} (fx : fin x) (fy : fin y) (h : 4 * |val x * val y| < η α) :
    fin (Flt.mul x y) ∧ val (Flt.mul x y) = 0 := by
  have hb := big_le (α := α)
  have hbη := big_η (α := α)
  have hu := u_le (α := α)
  have u0 := u_nonneg (α := α)
  have a0 := abs_nonneg (val x * val y)
  have fm : fin (Flt.mul x y) := mul_ok fx fy (by nlinarith)
  refine ⟨fm, (fin_tiny fm).resolve_right fun h' => ?_⟩
  have e := (mul_err fm).1
  have t := abs_sub_abs_le_abs_sub (val (Flt.mul x y)) (val x * val y)
  nlinarith

/-- **C122, small eigenvalues**: when all eigenvalues of a decomposition are real and so small that their squares are zero, below `2⁻⁵⁴⁰` in
binary64, `IsNonSingular` says no, whatever they are. -/
theorem C122_small {n : Nat} {eps : B64} {s : Eig B64 n} (him : ∀ i, i < n → s.im.f i = Flt.zero) (hre : ∀ i, i < n → fin (s.re.f i))
    (hs : ∀ i, i < n → |val (s.re.f i)| ≤ (1 / 2) ^ 540) : s.isNonSingular eps = .ok false := by
  have norm : ∀ i, i < n → ∃ x, s.normAt i = .ok x ∧ fin x ∧ val x = 0 := fun i hi => by
    have h0 : fin (s.im.f i) ∧ val (s.im.f i) = 0 := by rw [him i hi]; exact ⟨zero_fin, val_zero⟩
    have hη : (0 : ℝ) < (1 / 2) ^ 1075 := pow_pos (by norm_num) _
    obtain ⟨f1, v1⟩ := mul_tiny (hre i hi) (hre i hi) (by
      rw [abs_mul]
      have h := mul_le_mul (hs i hi) (hs i hi) (abs_nonneg _) (pow_pos (by norm_num) _).le
      rw [← pow_add] at h
      show _ < ((1 : ℝ) / 2) ^ 1075
      have e : ((1 : ℝ) / 2) ^ (540 + 540) = (1 / 2) ^ 5 * (1 / 2) ^ 1075 := by rw [← pow_add]
      rw [e] at h
      generalize ((1 : ℝ) / 2) ^ 1075 = w at *
      generalize |val (s.re.f i)| * |val (s.re.f i)| = v at *
      norm_num at h
      linarith)
    obtain ⟨f2, v2⟩ := mul_tiny h0.1 h0.1 (by rw [h0.2, mul_zero, abs_zero, mul_zero]; exact hη)
    have f3 : fin (Flt.add (Flt.mul (s.re.f i) (s.re.f i)) (Flt.mul (s.im.f i) (s.im.f i))) :=
      add_ok f1 f2 (by rw [v1, v2]; have := big_le (α := B64); norm_num; linarith)
    have v3 := Rnd.add_zero f3 v2
    rw [v1] at v3
    have f4 := sqrt_ok f3 v3.ge
    have v4 := (sqrt_err f4).1
    rw [v3, Real.sqrt_zero, mul_zero, sub_zero] at v4
    refine ⟨_, ?_, f4, abs_nonpos_iff.1 v4⟩
    unfold Eig.normAt
    rw [Row.get_ok hi, ok_bind, Row.get_ok hi, ok_bind]
    rfl
  unfold Eig.isNonSingular
  obtain ⟨B, e, fB, hB⟩ := Wp.exists_ok (wp_forUp (ε := Fault) (a := 0) (b := n)
    (body := fun i x => do return Flt.fmax x (← s.normAt i)) (s := (Flt.zero : B64)) (E := fun _ => False)
    (fun _ x => fin x ∧ val x = 0) (by omega) ⟨zero_fin, val_zero⟩ (fun i x _ hi ⟨h1, h2⟩ => by
      obtain ⟨y, ey, fy, vy⟩ := norm i hi
      rw [ey, ok_bind]
      obtain ⟨g1, g2⟩ := max_fin h1 fy
      exact wp_of_eq_ok rfl ⟨g1, by rw [g2, h2, vy, max_self]⟩))
  rw [e, ok_bind, if_pos ((eq_iff fB zero_fin).2 (by rw [hB, val_zero]))]
  rfl

/-- The decomposition of one number, in any arithmetic. -/
theorem Eig.ofTri_one {α : Type} [Flt α] {eps x : α} (h1 : Flt.lt Flt.zero (Flt.abs x) = true) (h2 : Flt.eq (Flt.abs x) Flt.zero = false)
    (h3 : Flt.le (Flt.abs x) (Flt.mul eps (Flt.abs x)) = false) (h4 : Flt.lt (Flt.abs x) (Flt.mul eps (Flt.abs x)) = false)
    (h5 : Flt.lt (Flt.abs x) (Flt.abs Flt.zero) = false) (h6 : Flt.le (Flt.abs Flt.zero) (Flt.mul eps (Flt.abs x)) = true)
    {main : Row α 1} (hm : main.f 0 = x) (sec : Row α 0) :
    ∃ g, Eig.ofTri eps main sec = .ok g ∧ g.re.f 0 = x ∧ g.im.f 0 = Flt.zero := by
  unfold Eig.ofTri Eig.findSym Eig.diagonals Eig.null2 Eig.null1
  simp [Eig.cutLe, Eig.cutLt, Eig.grow, Eig.ql, Eig.find, Eig.select, Eig.largest, forUp, List.range'_succ, List.range', Jag.get, Jag.set,
    Row.get, Row.set, hm, h1, h2, h3, h4, h5, h6, Row.zero, ok_bind, pure_eq_ok, upd2_eq]
  rw [Tab.build_ok (fun _ _ => Flt.one) (fun i j hi hj => by
    obtain rfl : i = 0 := by omega
    obtain rfl : j = 0 := by omega
    simp), ok_bind]
  exact ⟨_, rfl, by simp, rfl⟩

/-- **C122.**  The matrix with the only entry `2⁻⁶⁰⁰` is regular, and its decomposition has the right eigenvalue, but `IsNonSingular` says no
and `SolveVector` panics, for every tolerance. -/
theorem C122_refuted : ∃ (eps : B64) (main : Row B64 1) (sec : Row B64 0) (g : Eig B64 1), fin eps ∧ val eps = (1 / 2) ^ 53 ∧
    B64.Is (main.f 0) (2 ^ (-600 : ℤ)) ∧ Eig.ofTri eps main sec = .ok g ∧ B64.Is (g.re.f 0) (2 ^ (-600 : ℤ)) ∧ g.im.f 0 = Flt.zero ∧
    ∀ epsEd, g.isNonSingular epsEd = .ok false ∧ ∀ b : RVec B64, b.dim = 1 → g.solveVector epsEd b = .error (.pan .sing) := by
  have hx := B64.Is.two (-600) (by norm_num) (by norm_num)
  have he := B64.Is.two (-53) (by norm_num) (by norm_num)
  generalize B64.two (-600) (by norm_num) (by norm_num) = x at hx
  generalize B64.two (-53) (by norm_num) (by norm_num) = eps at he
  have t0 : (0 : ℝ) < 2 ^ (-600 : ℤ) := zpow_pos (by norm_num) _
  have s0 : (0 : ℝ) < 2 ^ (-653 : ℤ) := zpow_pos (by norm_num) _
  have ts : (2 : ℝ) ^ (-653 : ℤ) < 2 ^ (-600 : ℤ) := zpow_lt_zpow_right₀ (by norm_num) (by norm_num)
  have hm := B64.Num.zpow (-653) (by norm_num) (by norm_num)
  have em : (2 : ℝ) ^ (-53 : ℤ) * 2 ^ (-600 : ℤ) = 2 ^ (-653 : ℤ) := by rw [← zpow_add₀ (by norm_num)]; norm_num
  have hsmall : (2 : ℝ) ^ (-600 : ℤ) ≤ (1 / 2) ^ 540 := by
    rw [one_div, inv_pow, ← zpow_natCast, ← _root_.zpow_neg]
    exact zpow_le_zpow_right₀ (by norm_num) (by norm_num)
  have e53 : (2 : ℝ) ^ (-53 : ℤ) = (1 / 2) ^ 53 := by
    rw [one_div, inv_pow, ← zpow_natCast, ← _root_.zpow_neg]; rfl
  have hv := he.2
  rw [e53] at hv
  have ax := hx.abs (abs_of_pos t0)
  have mx := he.mul ax em hm
  have az : B64.Is (Flt.abs (Flt.zero : B64)) 0 := B64.Is.zero.abs (by norm_num)
  generalize (2 : ℝ) ^ (-653 : ℤ) = S at *
  generalize (2 : ℝ) ^ (-600 : ℤ) = T at *
  obtain ⟨g, e, g1, g2⟩ := Eig.ofTri_one (eps := eps) (x := x) ((lt_iff zero_fin ax.1).2 (by rw [val_zero, ax.2]; exact t0))
    (ax.ne t0.ne') (by rw [Bool.eq_false_iff, Ne, le_iff ax.1 mx.1, ax.2, mx.2]; exact not_le.2 ts)
    (by rw [Bool.eq_false_iff, Ne, lt_iff ax.1 mx.1, ax.2, mx.2]; exact not_lt.2 ts.le)
    (by rw [Bool.eq_false_iff, Ne, lt_iff ax.1 az.1, ax.2, az.2]; exact not_lt.2 t0.le)
    ((le_iff az.1 mx.1).2 (by rw [az.2, mx.2]; exact s0.le)) (main := ⟨fun _ => x⟩) rfl ⟨fun _ => Flt.zero⟩
  have key : ∀ epsEd, g.isNonSingular epsEd = .ok false := fun epsEd => by
    refine C122_small (fun i hi => ?_) (fun i hi => ?_) (fun i hi => ?_)
    · obtain rfl : i = 0 := by omega
      exact g2
    · obtain rfl : i = 0 := by omega
      rw [g1]; exact hx.1
    · obtain rfl : i = 0 := by omega
      rw [g1, hx.2, abs_of_pos t0]; exact hsmall
  refine ⟨eps, _, _, g, he.1, hv, hx, e, by rw [g1]; exact hx, g2, fun epsEd => ⟨key epsEd, fun b hb => ?_⟩⟩
  unfold Eig.solveVector
  rw [if_neg (by simpa using hb)]
  simp only [pure_eq_ok, ok_bind, key]
  rfl

/-- **C122, partial**: where no square of an eigenvalue overflows and the eigenvalues exceed `5 √η` by enough, `IsNonSingular` says yes when
every eigenvalue exceeds `1.05 eps` times every other one.  Missing: smaller and larger eigenvalues; there it is
false (`C122_refuted`, `C122_small`, and `C122_refuted_large`, `C122_large` in `EigHuge.lean`). -/
theorem C122_partial {α : Type} [Flt α] [Rnd α] {n : Nat} (hn : 0 < n) (hu : u α ≤ 1 / 1000) {eps : α} (fe : fin eps)
    (he : 100 * η α ≤ val eps) (he1 : val eps ≤ 1) {s : Eig α n} (him : ∀ i, i < n → s.im.f i = Flt.zero)
    (hre : ∀ i, i < n → fin (s.re.f i)) (hb : ∀ i, i < n → 2 * val (s.re.f i) ^ 2 + 1 ≤ big α)
    (h : ∀ i k, i < n → k < n → 105 / 100 * val eps * |val (s.re.f k)| + 5 * √(η α) < |val (s.re.f i)|) :
    s.isNonSingular eps = .ok true := by
  obtain ⟨b, e, -, h2⟩ := C121_values hn hu fe he he1 him hre hb
  cases b
  · obtain ⟨i, k, hi, hk, h'⟩ := h2 rfl
    exact absurd h' (not_le.2 (h i k hi hk))
  · exact e

/-- Concrete case: the eigenvalues 1 and 2 in binary64 with `eps = 2⁻⁵³`. -/
example : ∃ (eps : B64) (s : Eig B64 2), fin eps ∧ 100 * η B64 ≤ val eps ∧ val eps ≤ 1 ∧ val (s.re.f 0) = 2 ∧ val (s.re.f 1) = 1 ∧
    (∀ i, i < 2 → s.im.f i = Flt.zero) ∧ (∀ i, i < 2 → fin (s.re.f i)) ∧ (∀ i, i < 2 → 2 * val (s.re.f i) ^ 2 + 1 ≤ big B64) ∧
    ∀ i k, i < 2 → k < 2 → 105 / 100 * val eps * |val (s.re.f k)| + 5 * √(η B64) < |val (s.re.f i)| := by
  have he : B64.Num (1 / 2 ^ 53) := B64.Num.dy 1 53 (by norm_num) (by norm_num) (by norm_num)
  have hb := big_le (α := B64)
  have hη : η B64 ≤ (1 / 2) ^ 100 := by
    show ((1 : ℝ) / 2) ^ 1075 ≤ _
    exact pow_le_pow_of_le_one (by norm_num) (by norm_num) (by norm_num)
  have hs : √(η B64) ≤ 1 / 100 := Real.sqrt_le_iff.2 ⟨by norm_num, hη.trans (by norm_num)⟩
  have hval : ∀ i, i < 2 → fin (if i = 0 then (Flt.two : B64) else Flt.one) ∧ 1 ≤ val (if i = 0 then (Flt.two : B64) else Flt.one) ∧
      val (if i = 0 then (Flt.two : B64) else Flt.one) ≤ 2 := fun i _ => by
    split
    · exact ⟨two_fin, by rw [val_two]; norm_num, by rw [val_two]⟩
    · exact ⟨one_fin, by rw [val_one], by rw [val_one]; norm_num⟩
  have e : val (B64.num _ he) = 1 / 2 ^ 53 := rfl
  refine ⟨B64.num _ he, ⟨⟨fun i => if i = 0 then Flt.two else Flt.one⟩, Row.zero 2, Jag.zero 2 _, true⟩, trivial, ?_, ?_, val_two, val_one,
    fun _ _ => rfl, fun i hi => (hval i hi).1, fun i hi => ?_, fun i k hi hk => ?_⟩
  · rw [e]
    have : (100 : ℝ) * (1 / 2) ^ 100 ≤ 1 / 2 ^ 53 := by norm_num
    linarith
  · rw [e]; norm_num
  · obtain ⟨-, h1, h2⟩ := hval i hi
    dsimp only
    nlinarith
  · obtain ⟨-, h1, h2⟩ := hval i hi
    obtain ⟨-, h3, h4⟩ := hval k hk
    dsimp only
    rw [e, abs_of_nonneg (by linarith), abs_of_nonneg (by linarith)]
    have : (105 : ℝ) / 100 * (1 / 2 ^ 53) ≤ 1 / 100 := by norm_num
    nlinarith

end Linear
