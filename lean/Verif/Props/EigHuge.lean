import Verif.Props.EigTiny

/-!
# C122: regularity by eigenvalues and the squares of large eigenvalues

The squares of eigenvalues from `2⁵¹³` on overflow; the largest magnitude is then infinite, and the quotients of all finite magnitudes by it
are zero.
-/

set_option linter.unusedSectionVars false

namespace Linear

open Spec Rnd Matrix
open Finset hiding val diag

/-- Products from `2¹⁰²⁵` on overflow. -/
theorem B64.mul_over {x y : B64} (fx : fin x) (fy : fin y) (h : 2 ^ 1025 ≤ val x * val y) : Flt.mul x y = B64.inf false := by
  rcases x with ⟨a, ha⟩ | _ | _ <;> [skip; exact fx.elim; exact fx.elim]
  rcases y with ⟨b, hb⟩ | _ | _ <;> [skip; exact fy.elim; exact fy.elim]
  show B64.rnd (a * b) = _
  replace h : (2 : ℝ) ^ 1025 ≤ a * b := h
  have p : (0 : ℝ) < 2 ^ 1024 := pow_pos (by norm_num) _
  have q : (2 : ℝ) ^ 1025 = 2 * 2 ^ 1024 := by rw [← pow_succ']
  have z : ((1 : ℝ) / 2) ^ 1075 ≤ 1 := pow_le_one₀ (by norm_num) (by norm_num)
  have o : (4 : ℝ) ≤ 2 ^ 1024 := (by norm_num : (4 : ℝ) ≤ 2 ^ 2).trans (pow_le_pow_right₀ (by norm_num) (by norm_num))
  have e := (B64.near_err (a * b)).1
  rw [q] at h
  clear q
  generalize ((1 : ℝ) / 2) ^ 1075 = w at *
  unfold B64.rnd
  have n : ¬ |B64.near (a * b)| < 2 ^ 1024 := by
    generalize (2 : ℝ) ^ 1024 = Q at *
    have ab : |a * b| = a * b := abs_of_pos (by linarith)
    rw [ab] at e
    have t := (abs_le.1 e).1
    have t2 := le_abs_self (B64.near (a * b))
    norm_num at t
    intro h'
    linarith
  rw [dif_neg n]
  have : ¬ a * b < 0 := by
    generalize (2 : ℝ) ^ 1024 = Q at *
    intro h'
    linarith
  rw [decide_eq_false this]

/-- **C122, large eigenvalues**: when all eigenvalues of a decomposition are real, one is at least `2⁵¹³` and another one at most `2⁵¹⁰`
in magnitude, `IsNonSingular` says no, whatever they are. -/
theorem C122_large {n : Nat} {eps : B64} {s : Eig B64 n} (him : ∀ i, i < n → s.im.f i = Flt.zero) (hre : ∀ i, i < n → fin (s.re.f i))
    {i k : Nat} (hi : i < n) (hk : k < n) (hs : |val (s.re.f i)| ≤ 2 ^ 510) (hl : 2 ^ 513 ≤ |val (s.re.f k)|) :
    s.isNonSingular eps = .ok false := by
  let N : Nat → B64 := fun i => Flt.sqrt (Flt.add (Flt.mul (s.re.f i) (s.re.f i)) (Flt.mul (s.im.f i) (s.im.f i)))
  have hN : ∀ i, i < n → s.normAt i = .ok (N i) := fun i hi => by
    unfold Eig.normAt
    rw [Row.get_ok hi, ok_bind, Row.get_ok hi, ok_bind]
    rfl
  have hz : ∀ i, i < n → fin (s.im.f i) ∧ val (s.im.f i) = 0 := fun i hi => by rw [him i hi]; exact ⟨zero_fin, val_zero⟩
  have inf : N k = B64.inf false := by
    have o : Flt.mul (s.re.f k) (s.re.f k) = B64.inf false := B64.mul_over (hre k hk) (hre k hk) (by
      have h := mul_le_mul hl hl (pow_nonneg (by norm_num) _) (abs_nonneg _)
      rw [← abs_mul, abs_mul_self, ← pow_add] at h
      exact (pow_le_pow_right₀ (by norm_num) (by norm_num)).trans h)
    show Flt.sqrt (Flt.add (Flt.mul (s.re.f k) (s.re.f k)) (Flt.mul (s.im.f k) (s.im.f k))) = _
    obtain ⟨f0, v0⟩ := hz k hk
    have fm : fin (Flt.mul (s.im.f k) (s.im.f k)) := mul_ok f0 f0 (by
      rw [v0, mul_zero, abs_zero]
      have := big_le (α := B64)
      linarith)
    rw [o]
    generalize Flt.mul (s.im.f k) (s.im.f k) = m at fm
    rcases m with ⟨b, hb⟩ | _ | _ <;> [rfl; exact fm.elim; exact fm.elim]
  obtain ⟨fN, -⟩ := norm_near (α := B64) (by
      show ((1 : ℝ) / 2) ^ 53 ≤ 1 / 1000
      norm_num) (hre i hi) (hz i hi).1 (hz i hi).2 (by
    show _ ≤ (2 : ℝ) ^ 1023
    have h := mul_le_mul hs hs (abs_nonneg _) (pow_nonneg (by norm_num) _)
    rw [← abs_mul, abs_mul_self, ← pow_add, ← sq] at h
    have q : (2 : ℝ) ^ 1023 = 8 * 2 ^ (510 + 510) := by
      rw [show (8 : ℝ) = 2 ^ 3 by norm_num, ← pow_add]
    have o : (1 : ℝ) ≤ 2 ^ (510 + 510) := one_le_pow₀ (by norm_num)
    rw [q]
    clear q hs hl
    generalize (2 : ℝ) ^ (510 + 510) = Q at *
    linarith)
  have fN : fin (N i) := fN
  unfold Eig.isNonSingular
  obtain ⟨B, e, hB⟩ := Wp.exists_ok (wp_forUp (ε := Fault) (a := 0) (b := n)
    (body := fun i x => do return Flt.fmax x (← s.normAt i)) (s := (Flt.zero : B64)) (E := fun _ => False)
    (fun b x => k < b → x = B64.inf false) (by omega) (fun h => by omega) (fun j x _ hj h => by
      rw [hN j hj, ok_bind]
      refine wp_of_eq_ok rfl fun hb => ?_
      by_cases c : k = j
      · subst c
        rw [inf]
        rcases x with _ | (_ | _) | _ <;> rfl
      · rw [h (by omega)]
        rfl))
  obtain rfl := hB hk
  rw [e, ok_bind, if_neg (by intro h; exact Bool.noConfusion (show false = true from h))]
  have z : equalsWithError (Flt.div (N i) (B64.inf false)) Flt.zero eps = true := by
    unfold equalsWithError
    rw [Bool.or_eq_true]
    refine .inl ((B64.ulpEq_zero _).2 ?_)
    generalize N i = x at fN
    rcases x with ⟨b, hb⟩ | _ | _ <;> [skip; exact fN.elim; exact fN.elim]
    refine ⟨trivial, ?_⟩
    show (0 : ℝ) ≤ ((0 : ℤ) : ℝ) ∧ ((0 : ℤ) : ℝ) ≤ _
    exact ⟨by norm_num, by rw [Int.cast_zero]; exact zpow_nonneg (by norm_num) _⟩
  rcases forUpBrk_all (n := n) (P := fun i => equalsWithError (Flt.div (N i) (B64.inf false)) Flt.zero eps = false)
    (body := fun i (_ : Unit) => do
      let x ← s.normAt i
      return if equalsWithError (Flt.div x (B64.inf false)) Flt.zero eps then .inr () else .inl ()) (fun i hi => by
        rw [hN i hi, ok_bind]
        cases equalsWithError (Flt.div (N i) (B64.inf false)) Flt.zero eps
        · exact .inl ⟨rfl, rfl⟩
        · exact .inr ⟨by simp, rfl⟩) with ⟨g1, g2⟩ | ⟨g1, g2⟩
  · rw [g1 i hi] at z
    cases z
  · rw [g2, ok_bind]
    rfl

/-- The decomposition of a diagonal matrix with two entries in order, in any arithmetic. -/
theorem Eig.ofTri_two {α : Type} [Flt α] {eps x y : α} (a1 : Flt.lt Flt.zero (Flt.abs x) = true) (a2 : Flt.lt (Flt.abs x) (Flt.abs y) = false)
    (a3 : Flt.lt (Flt.abs x) (Flt.abs Flt.zero) = false)
    (h2 : Flt.eq (Flt.abs x) Flt.zero = false)
    (h3 : Flt.le (Flt.abs x) (Flt.mul eps (Flt.abs x)) = false) (h4 : Flt.le (Flt.abs y) (Flt.mul eps (Flt.abs x)) = false)
    (h5 : Flt.lt (Flt.abs x) (Flt.mul eps (Flt.abs x)) = false) (h6 : Flt.lt (Flt.abs y) (Flt.mul eps (Flt.abs x)) = false)
    (h7 : Flt.le (Flt.abs Flt.zero) (Flt.mul eps (Flt.abs x)) = true) (h8 : Flt.lt x y = false)
    (h9 : Flt.eq (Flt.add (Flt.abs Flt.zero) (Flt.add (Flt.abs x) (Flt.abs y))) (Flt.add (Flt.abs x) (Flt.abs y)) = true)
    {main : Row α 2} (m0 : main.f 0 = x) (m1 : main.f 1 = y) {sec : Row α 1} (hs : sec.f 0 = Flt.zero) :
    ∃ g, Eig.ofTri eps main sec = .ok g ∧ g.re.f 0 = x ∧ g.re.f 1 = y ∧ g.im.f 0 = Flt.zero ∧ g.im.f 1 = Flt.zero := by
  unfold Eig.ofTri Eig.findSym Eig.diagonals Eig.null2 Eig.null1
  simp [Eig.cutLe, Eig.cutLt, Eig.grow, Eig.ql, Eig.find, Eig.select, Eig.largest, forUp, List.range'_succ, List.range', Jag.get, Jag.set,
    Row.get, Row.set, m0, m1, hs, a1, a2, a3, h2, h3, h4, h5, h6, h7, h8, h9, Row.zero, ok_bind, pure_eq_ok, upd1_eq, upd2_eq]
  rw [Tab.build_ok (fun i j => if j = 1 ∧ i = 1 then Flt.one else if j = 0 ∧ i = 0 then Flt.one else (Jag.zero 2 fun _ => 2).f j i)
    (fun i j hi hj => by rw [if_pos (by omega)]), ok_bind]
  exact ⟨_, rfl, by simp [upd1_eq], by simp, rfl, rfl⟩

/-- **C122, a large regular matrix.**  The diagonal matrix with the entries `2⁵¹³` and `2⁵¹⁰` is regular, its condition number is 8, and its
decomposition has the right eigenvalues, but `IsNonSingular` says no and `SolveVector` panics, for every tolerance. -/
theorem C122_refuted_large : ∃ (eps : B64) (main : Row B64 2) (sec : Row B64 1) (g : Eig B64 2), fin eps ∧ val eps = (1 / 2) ^ 53 ∧
    B64.Is (main.f 0) (2 ^ (513 : ℤ)) ∧ B64.Is (main.f 1) (2 ^ (510 : ℤ)) ∧ sec.f 0 = Flt.zero ∧ Eig.ofTri eps main sec = .ok g ∧
    B64.Is (g.re.f 0) (2 ^ (513 : ℤ)) ∧ B64.Is (g.re.f 1) (2 ^ (510 : ℤ)) ∧ (∀ i, i < 2 → g.im.f i = Flt.zero) ∧
    ∀ epsEd, g.isNonSingular epsEd = .ok false ∧ ∀ b : RVec B64, b.dim = 2 → g.solveVector epsEd b = .error (.pan .sing) := by
  have hx := B64.Is.two 513 (by norm_num) (by norm_num)
  have hy := B64.Is.two 510 (by norm_num) (by norm_num)
  have he := B64.Is.two (-53) (by norm_num) (by norm_num)
  generalize B64.two 513 (by norm_num) (by norm_num) = x at hx
  generalize B64.two 510 (by norm_num) (by norm_num) = y at hy
  generalize B64.two (-53) (by norm_num) (by norm_num) = eps at he
  have x0 : (0 : ℝ) < 2 ^ (513 : ℤ) := zpow_pos (by norm_num) _
  have y0 : (0 : ℝ) < 2 ^ (510 : ℤ) := zpow_pos (by norm_num) _
  have s0 : (0 : ℝ) < 2 ^ (460 : ℤ) := zpow_pos (by norm_num) _
  have yx : (2 : ℝ) ^ (510 : ℤ) < 2 ^ (513 : ℤ) := zpow_lt_zpow_right₀ (by norm_num) (by norm_num)
  have sy : (2 : ℝ) ^ (460 : ℤ) < 2 ^ (510 : ℤ) := zpow_lt_zpow_right₀ (by norm_num) (by norm_num)
  have xb : (2 : ℝ) ^ (513 : ℤ) + 2 ^ (510 : ℤ) ≤ big B64 := by
    have h : (2 : ℝ) ^ (514 : ℤ) = 2 * 2 ^ (513 : ℤ) := by rw [← zpow_one_add₀ (by norm_num)]; rfl
    have h2 : (2 : ℝ) ^ (514 : ℤ) ≤ big B64 := by
      show _ ≤ (2 : ℝ) ^ 1023
      rw [← zpow_natCast]
      exact zpow_le_zpow_right₀ (by norm_num) (by norm_num)
    rw [h, two_mul] at h2
    exact (add_le_add_right yx.le _).trans h2
  have hm := B64.Num.zpow 460 (by norm_num) (by norm_num)
  have em : (2 : ℝ) ^ (-53 : ℤ) * 2 ^ (513 : ℤ) = 2 ^ (460 : ℤ) := by rw [← zpow_add₀ (by norm_num)]; norm_num
  have hlx : (2 : ℝ) ^ 513 = 2 ^ (513 : ℤ) := by rw [← zpow_natCast]; rfl
  have hly : (2 : ℝ) ^ 510 = 2 ^ (510 : ℤ) := by rw [← zpow_natCast]; rfl
  have e53 : (2 : ℝ) ^ (-53 : ℤ) = (1 / 2) ^ 53 := by
    rw [one_div, inv_pow, ← zpow_natCast, ← _root_.zpow_neg]; rfl
  have hv := he.2
  rw [e53] at hv
  have ax := hx.abs (abs_of_pos x0)
  have ay := hy.abs (abs_of_pos y0)
  have mx := he.mul ax em hm
  have az : B64.Is (Flt.abs (Flt.zero : B64)) 0 := B64.Is.zero.abs (by norm_num)
  generalize (2 : ℝ) ^ (460 : ℤ) = S at *
  generalize (2 : ℝ) ^ (513 : ℤ) = X at *
  generalize (2 : ℝ) ^ (510 : ℤ) = Y at *
  have fs : fin (Flt.add (Flt.abs x) (Flt.abs y)) := add_ok ax.1 ay.1 (by
    rw [ax.2, ay.2, abs_of_pos (add_pos x0 y0)]
    exact xb)
  have nlt : ∀ {a b : B64} {r t : ℝ}, B64.Is a r → B64.Is b t → t ≤ r → Flt.lt a b = false := fun ha hb h => by
    rw [Bool.eq_false_iff, Ne, lt_iff ha.1 hb.1, ha.2, hb.2]; exact not_lt.2 h
  have nle : ∀ {a b : B64} {r t : ℝ}, B64.Is a r → B64.Is b t → t < r → Flt.le a b = false := fun ha hb h => by
    rw [Bool.eq_false_iff, Ne, le_iff ha.1 hb.1, ha.2, hb.2]; exact not_le.2 h
  have h9 : Flt.eq (Flt.add (Flt.abs Flt.zero) (Flt.add (Flt.abs x) (Flt.abs y))) (Flt.add (Flt.abs x) (Flt.abs y)) = true := by
    have f : fin (Flt.add (Flt.abs (Flt.zero : B64)) (Flt.add (Flt.abs x) (Flt.abs y))) := by
      generalize Flt.add (Flt.abs x) (Flt.abs y) = w at fs
      rcases w with ⟨b, hb⟩ | _ | _ <;> [skip; exact fs.elim; exact fs.elim]
      exact (az.add (y := B64.num b hb) ⟨trivial, rfl⟩ (_root_.zero_add _) hb).1
    exact (eq_iff f fs).2 (Rnd.zero_add f az.2)
  obtain ⟨g, e, g1, g2, g3, g4⟩ := Eig.ofTri_two (eps := eps) (x := x) (y := y) ((lt_iff zero_fin ax.1).2 (by rw [val_zero, ax.2]; exact x0))
    (nlt ax ay yx.le) (nlt ax az x0.le) (ax.ne x0.ne') (nle ax mx (sy.trans yx)) (nle ay mx sy) (nlt ax mx (sy.trans yx).le)
    (nlt ay mx sy.le) ((le_iff az.1 mx.1).2 (by rw [az.2, mx.2]; exact s0.le)) (nlt hx hy yx.le) h9
    (main := ⟨fun i => if i = 0 then x else y⟩) rfl rfl (sec := ⟨fun _ => Flt.zero⟩) rfl
  have g5 : ∀ i, i < 2 → g.im.f i = Flt.zero := fun i hi => by
    obtain rfl | rfl : i = 0 ∨ i = 1 := by omega
    exacts [g3, g4]
  have key : ∀ epsEd, g.isNonSingular epsEd = .ok false := fun epsEd =>
    C122_large g5 (fun i hi => by
      obtain rfl | rfl : i = 0 ∨ i = 1 := by omega
      · rw [g1]; exact hx.1
      · rw [g2]; exact hy.1) (i := 1) (k := 0) (by norm_num) (by norm_num) (by rw [g2, hy.2, abs_of_pos y0, hly])
      (by rw [g1, hx.2, abs_of_pos x0, hlx])
  refine ⟨eps, _, _, g, he.1, hv, hx, hy, rfl, e, by rw [g1]; exact hx, by rw [g2]; exact hy, g5, fun epsEd => ⟨key epsEd, fun b hb => ?_⟩⟩
  unfold Eig.solveVector
  rw [if_neg (by simpa using hb)]
  simp only [pure_eq_ok, ok_bind, key]
  rfl

end Linear
