import Verif.Props.RoundDist

/-!
# C128: the test for symmetry in rounded arithmetic

`NewEigenDecomposition` chooses its method by `isSymmetric`.
-/

set_option linter.unusedSectionVars false

namespace Linear

open Spec Rnd Matrix
open Finset hiding val diag

/-- **C128, the operations**: in every arithmetic the answer is yes exactly for square matrices in which no difference of mirrored entries is
found greater than the tolerance times the larger magnitude. -/
theorem C128_terms {α : Type} [Flt α] {r c : Nat} (hr : 0 < r) {a : Mat α r c} {A : Nat → Nat → α} (hA : Shows a.at r c A) (tol : α) :
    ∃ b, isSymmetric a tol = .ok b ∧ (b = true ↔ r = c ∧ ∀ i j, i < j → j < r →
      Flt.lt (Flt.mul (Flt.fmax (Flt.abs (A i j)) (Flt.abs (A j i))) tol) (Flt.abs (Flt.sub (A i j) (A j i))) = false) := by
  obtain ⟨Q, hQ⟩ : ∃ Q : Nat → Nat → Bool, Q = fun i j =>
    Flt.lt (Flt.mul (Flt.fmax (Flt.abs (A i j)) (Flt.abs (A j i))) tol) (Flt.abs (Flt.sub (A i j) (A j i))) := ⟨_, rfl⟩
  have hQ' : ∀ i j, Flt.lt (Flt.mul (Flt.fmax (Flt.abs (A i j)) (Flt.abs (A j i))) tol) (Flt.abs (Flt.sub (A i j) (A j i))) = Q i j :=
    fun i j => by rw [hQ]
  simp only [hQ']
  unfold isSymmetric
  rw [Mat.colDim_ok hr, ok_bind]
  by_cases hrc : r = c
  · subst hrc
    rw [if_neg (by simp)]
    have hin : ∀ i, i < r → ∃ t, forUpBrk (i + 1) r (fun j (_ : Unit) => (do
          let x ← a.at i j
          let y ← a.at j i
          return if Flt.lt (Flt.mul (Flt.fmax (Flt.abs x) (Flt.abs y)) tol) (Flt.abs (Flt.sub x y)) then .inr ()
            else .inl () : Res (Unit ⊕ Unit))) () = .ok t ∧
        Sum.elim (fun _ : Unit => ∀ j, i < j → j < r → Q i j = false) (fun _ : Unit => ∃ j, i < j ∧ j < r ∧ Q i j = true) t := by
      intro i hi
      refine Wp.exists_ok ((wp_forUpBrk (ε := Fault) (E := fun _ => False) (fun b (_ : Unit) => ∀ j, i < j → j < b → Q i j = false)
        (fun _ : Unit => ∃ j, i < j ∧ j < r ∧ Q i j = true) (by omega) (fun j h1 h2 => by omega) (fun j u h1 hj hI => ?_)))
      rw [hA.ok hi hj, ok_bind, hA.ok hj hi, ok_bind]
      refine wp_of_eq_ok rfl ?_
      rw [hQ']
      split
      · next h => exact ⟨j, by omega, hj, h⟩
      · next h =>
        intro y h2 h3
        by_cases hyj : y = j
        · subst hyj; exact Bool.eq_false_iff.2 h
        · exact hI y h2 (by omega)
    obtain ⟨t, e, ht⟩ := Wp.exists_ok (wp_forUpBrk (ε := Fault) (a := 0) (b := r) (s := ())
      (body := fun i (_ : Unit) => (do
        let t ← forUpBrk (i + 1) r (fun j (_ : Unit) => do
          let x ← a.at i j
          let y ← a.at j i
          return if Flt.lt (Flt.mul (Flt.fmax (Flt.abs x) (Flt.abs y)) tol) (Flt.abs (Flt.sub x y)) then .inr ()
            else .inl ()) ()
        return t : Res (Unit ⊕ Unit))) (E := fun _ => False)
      (fun b (_ : Unit) => ∀ i j, i < b → i < j → j < r → Q i j = false)
      (fun _ : Unit => ∃ i j, i < j ∧ j < r ∧ Q i j = true) (by omega)
      (fun i j h => by omega) (fun i u _ hi hI => by
        obtain ⟨t, e, ht⟩ := hin i hi
        rw [e]
        refine wp_of_eq_ok rfl ?_
        rcases t with t | t
        · intro x y hx hxy hy
          by_cases hxi : x = i
          · subst hxi; exact ht y hxy hy
          · exact hI x y (by omega) hxy hy
        · obtain ⟨j, h⟩ := ht
          exact ⟨i, j, h⟩))
    show ∃ b, (forUpBrk 0 r _ _ >>= _) = _ ∧ _
    rw [e, ok_bind]
    rcases t with t | t
    · exact ⟨true, rfl, fun _ => ⟨rfl, fun i j hij hj => ht i j (by omega) hij hj⟩, fun _ => rfl⟩
    · obtain ⟨i, j, h1, h2, h3⟩ := ht
      exact ⟨false, rfl, by simp, fun ⟨_, h⟩ => by rw [h i j h1 h2] at h3; cases h3⟩
  · rw [if_pos hrc]
    exact ⟨false, rfl, by simp, fun h => absurd h.1 hrc⟩

theorem B64.lt_nan (x : B64) : Flt.lt x B64.nan = false := by rcases x with _ | _ | _ <;> rfl

theorem B64.lt_up_zero {x y : B64} (hx : x.Up) (hy : B64.Is y 0) : Flt.lt x y = false := by
  obtain ⟨fy, vy⟩ := hy
  rcases hx with ⟨fx, vx⟩ | rfl
  · rw [Bool.eq_false_iff, Ne, lt_iff fx fy, vy]
    exact not_lt.2 vx
  · rcases y with _ | _ | _ <;> [rfl; exact fy.elim; exact fy.elim]

/-- **C128, symmetric matrices**: with a tolerance that is not negative, a square matrix of doubles whose mirrored entries are the same, also
infinite ones and NaN, is always found symmetric. -/
theorem C128_symmetric {n : Nat} (hn : 0 < n) {a : Mat B64 n n} {A : Nat → Nat → B64} (hA : Shows a.at n n A)
    (hS : ∀ i j, i < n → j < n → A i j = A j i) {tol : B64} (ft : fin tol) (t0 : 0 ≤ val tol) : isSymmetric a tol = .ok true := by
  obtain ⟨b, e, hb⟩ := C128_terms hn hA tol
  rw [e, hb.2 ⟨rfl, fun i j hij hj => ?_⟩]
  rw [← hS i j (by omega) hj]
  generalize A i j = x
  rcases x with ⟨x, hx⟩ | s | _
  · have fx : fin (B64.num x hx) := trivial
    refine B64.lt_up_zero ?_ ?_
    · obtain ⟨f1, v1⟩ := max_fin (abs_fin.2 fx) (abs_fin.2 fx)
      rw [max_self, val_abs fx] at v1
      generalize Flt.fmax (Flt.abs (B64.num x hx)) (Flt.abs (B64.num x hx)) = m at f1 v1
      rcases m with ⟨m, hm⟩ | _ | _ <;> [skip; exact f1.elim; exact f1.elim]
      rcases tol with ⟨t, ht⟩ | _ | _ <;> [skip; exact ft.elim; exact ft.elim]
      refine B64.rnd_up (mul_nonneg ?_ t0)
      have v1 : m = |x| := v1
      rw [v1]
      exact abs_nonneg _
    · have d : B64.Is (Flt.sub (B64.num x hx) (B64.num x hx)) 0 :=
        B64.Is.sub ⟨fx, rfl⟩ ⟨fx, rfl⟩ (sub_self _) (B64.dyi 0 (by norm_num))
      exact d.abs abs_zero
  · have : Flt.abs (Flt.sub (B64.inf s) (B64.inf s)) = B64.nan := by cases s <;> rfl
    rw [this]
    exact B64.lt_nan _
  · exact B64.lt_nan _

/-- **C128, partial**: for finite entries with finite differences a yes means that each pair of mirrored entries differs by little more than the
tolerance times the larger magnitude, and a no that a pair differs by little less than this or more.  Missing: entries that are infinite or NaN;
there it is false (`C128_refuted`). -/
theorem C128_partial {α : Type} [Flt α] [Rnd α] {n : Nat} (hn : 0 < n) {a : Mat α n n} {A : Nat → Nat → α} (hA : Shows a.at n n A) {tol : α}
    (hf : ∀ i j, i < j → j < n → fin (Flt.sub (A i j) (A j i)) ∧ fin (Flt.mul (Flt.fmax (Flt.abs (A i j)) (Flt.abs (A j i))) tol))
    (t0 : 0 ≤ val tol) :
    ∃ b, isSymmetric a tol = .ok b ∧
      (b = true → ∀ i j, i < j → j < n → |val (A i j) - val (A j i)| ≤
        (1 + u α) * ((1 + u α) * (max |val (A i j)| |val (A j i)| * val tol) + η α)) ∧
      (b = false → ∃ i j, i < j ∧ j < n ∧
        (1 - u α) * (max |val (A i j)| |val (A j i)| * val tol) - η α ≤ (1 + u α) * |val (A i j) - val (A j i)|) := by
  obtain ⟨b, e, hb⟩ := C128_terms hn hA tol
  have u0 := u_nonneg (α := α)
  have key : ∀ i j, i < j → j < n → ∃ m d : ℝ, (Flt.lt (Flt.mul (Flt.fmax (Flt.abs (A i j)) (Flt.abs (A j i))) tol)
      (Flt.abs (Flt.sub (A i j) (A j i))) = true ↔ m < d) ∧
      |m - max |val (A i j)| |val (A j i)| * val tol| ≤ u α * (max |val (A i j)| |val (A j i)| * val tol) + η α ∧
      d ≤ (1 + u α) * |val (A i j) - val (A j i)| ∧ |val (A i j) - val (A j i)| ≤ (1 + u α) * d := by
    intro i j hij hj
    obtain ⟨f1, f2⟩ := hf i j hij hj
    obtain ⟨fx, fy⟩ := sub_fin f1
    obtain ⟨-, v3⟩ := max_fin (abs_fin.2 fx) (abs_fin.2 fy)
    rw [val_abs fx, val_abs fy] at v3
    have m := (mul_err f2).1
    rw [v3, abs_of_nonneg (mul_nonneg (le_max_of_le_left (abs_nonneg (val (A i j)))) t0)] at m
    obtain ⟨s1, s2⟩ := sub_err f1
    refine ⟨_, |val (Flt.sub (A i j) (A j i))|, ?_, m, ?_, ?_⟩
    · rw [lt_iff f2 (abs_fin.2 f1), val_abs f1]
    · have := abs_sub_abs_le_abs_sub (val (Flt.sub (A i j) (A j i))) (val (A i j) - val (A j i))
      linarith
    · have := abs_sub_abs_le_abs_sub (val (A i j) - val (A j i)) (val (Flt.sub (A i j) (A j i)))
      rw [abs_sub_comm _ (val (Flt.sub _ _))] at this
      linarith
  refine ⟨b, e, fun hbt i j hij hj => ?_, fun hbf => ?_⟩
  · obtain ⟨m, d, h1, h2, -, h4⟩ := key i j hij hj
    have h := (hb.1 hbt).2 i j hij hj
    rw [Bool.eq_false_iff, Ne, h1, not_lt] at h
    have := mul_le_mul_of_nonneg_left (h.trans (show m ≤ (1 + u α) * (max |val (A i j)| |val (A j i)| * val tol) + η α by
      linarith [(abs_le.1 h2).2])) (show 0 ≤ 1 + u α by linarith)
    linarith
  · have nb : ¬ ∀ i j, i < j → j < n → Flt.lt (Flt.mul (Flt.fmax (Flt.abs (A i j)) (Flt.abs (A j i))) tol)
        (Flt.abs (Flt.sub (A i j) (A j i))) = false := fun h => by
      rw [hb.2 ⟨rfl, h⟩] at hbf
      cases hbf
    push Not at nb
    obtain ⟨i, j, hij, hj, h⟩ := nb
    obtain ⟨m, d, h1, h2, h3, -⟩ := key i j hij hj
    rw [Ne, Bool.not_eq_false, h1] at h
    exact ⟨i, j, hij, hj, by linarith [(abs_le.1 h2).1]⟩

/-- **C128, entries that are not finite**: with a positive tolerance the comparison of mirrored entries never finds a difference when one of them
is infinite or NaN, whatever the other is; a square matrix that has such an entry in each mirrored pair is found symmetric. -/
theorem C128_blind {n : Nat} (hn : 0 < n) {a : Mat B64 n n} {A : Nat → Nat → B64} (hA : Shows a.at n n A) {tol : B64} (ft : fin tol)
    (t0 : 0 < val tol) (h : ∀ i j, i < j → j < n → ¬ fin (A i j) ∨ ¬ fin (A j i)) : isSymmetric a tol = .ok true := by
  obtain ⟨b, e, hb⟩ := C128_terms hn hA tol
  rw [e, hb.2 ⟨rfl, fun i j hij hj => ?_⟩]
  have h := h i j hij hj
  generalize A i j = x at h
  generalize A j i = y at h
  rcases tol with ⟨t, ht⟩ | _ | _ <;> [skip; exact ft.elim; exact ft.elim]
  have t0 : 0 < t := t0
  have m : Flt.mul (B64.inf false) (B64.num t ht) = B64.inf false := by
    show (if t = 0 then _ else B64.inf (false ^^ decide (t < 0))) = _
    rw [if_neg t0.ne', decide_eq_false (not_lt.2 t0.le)]
    rfl
  have lt : ∀ z, Flt.lt (B64.inf false) (Flt.abs z) = false := fun z => by
    rcases z with _ | s | _ <;> [rfl; rfl; rfl]
  rcases x with ⟨x, hx⟩ | s | _
  · rcases y with ⟨y, hy⟩ | s | _
    · exact (h.elim (fun h => h trivial) fun h => h trivial).elim
    · have : Flt.fmax (Flt.abs (B64.num x hx)) (Flt.abs (B64.inf s)) = B64.inf false := rfl
      rw [this, m]
      exact lt _
    · exact B64.lt_nan _
  · have : Flt.fmax (Flt.abs (B64.inf s)) (Flt.abs y) = B64.inf false := by cases y <;> rfl
    rw [this, m]
    exact lt _
  · have : Flt.abs (Flt.sub B64.nan y) = B64.nan := by cases y <;> rfl
    rw [this]
    exact B64.lt_nan _

private theorem two_shows (f : Nat → Nat → B64) : ∃ a : Mat B64 2 2, Shows a.at 2 2 f :=
  ⟨.arr ⟨⟨f⟩, fun _ => 0⟩, Arr.at_shows (⟨⟨f⟩, fun _ => 0⟩ : Arr B64 2 2)⟩

/-- **C128.**  With the tolerance 2⁻⁴⁰ the matrix with the rows (0, ∞) and (1, 0), and that with the rows (0, NaN) and (1, 0), are found
symmetric. -/
theorem C128_refuted : ∃ tol o : B64, B64.Is tol (2 ^ (-40 : ℤ)) ∧ B64.Is o 1 ∧ ∀ x, x = B64.inf false ∨ x = B64.nan →
    ∃ a : Mat B64 2 2, a.at 0 1 = .ok x ∧ a.at 1 0 = .ok o ∧ isSymmetric a tol = .ok true := by
  refine ⟨_, Flt.one, B64.Is.two (-40) (by norm_num) (by norm_num), B64.Is.one, fun x hx => ?_⟩
  obtain ⟨a, sh⟩ := two_shows fun i j => if i = 0 then (if j = 0 then Flt.zero else x) else (if j = 0 then Flt.one else Flt.zero)
  refine ⟨a, sh.ok (i := 0) (j := 1) (by norm_num) (by norm_num), sh.ok (i := 1) (j := 0) (by norm_num) (by norm_num),
    C128_blind (by norm_num) sh trivial (show (0 : ℝ) < 2 ^ (-40 : ℤ) from zpow_pos (by norm_num) _) fun i j hij hj => ?_⟩
  obtain ⟨rfl, rfl⟩ : i = 0 ∧ j = 1 := by omega
  refine .inl ?_
  rcases hx with rfl | rfl
  · exact fun h => h
  · exact fun h => h

/-- The hypotheses of `C128_partial` are met by the matrix with the rows (0, 2) and (1, 0) and the tolerance 2⁻⁴⁰, which is not symmetric. -/
example : ∃ tol x o : B64, B64.Is tol (2 ^ (-40 : ℤ)) ∧ B64.Is x 2 ∧ B64.Is o 1 ∧
    ∃ a : Mat B64 2 2, a.at 0 1 = .ok x ∧ a.at 1 0 = .ok o ∧ isSymmetric a tol = .ok false := by
  have ht := B64.Is.two (-40) (by norm_num) (by norm_num)
  generalize B64.two (-40) (by norm_num) (by norm_num) = tol at ht
  have hx : B64.Is (Flt.two : B64) 2 := ⟨two_fin, val_two⟩
  have ho := B64.Is.one
  have hz := B64.Is.zero
  generalize (Flt.two : B64) = x at hx
  generalize (Flt.one : B64) = o at ho
  generalize (Flt.zero : B64) = z at hz
  obtain ⟨a, sh⟩ := two_shows fun i j => if i = 0 then (if j = 0 then z else x) else (if j = 0 then o else z)
  refine ⟨tol, x, o, ht, hx, ho, a, sh.ok (i := 0) (j := 1) (by norm_num) (by norm_num),
    sh.ok (i := 1) (j := 0) (by norm_num) (by norm_num), ?_⟩
  have ax := hx.abs (t := 2) (by norm_num)
  have ao := ho.abs (t := 1) (by norm_num)
  have t1 : (2 : ℝ) ^ (-40 : ℤ) ≤ 1 / 8 := by
    rw [show (1 : ℝ) / 8 = 2 ^ (-3 : ℤ) by norm_num]
    exact zpow_le_zpow_right₀ (by norm_num) (by norm_num)
  have t0 : (0 : ℝ) < 2 ^ (-40 : ℤ) := zpow_pos (by norm_num) _
  obtain ⟨f3, v3⟩ := max_fin ax.1 ao.1
  rw [ax.2, ao.2, max_eq_left (by norm_num)] at v3
  obtain ⟨b, e, h1, -⟩ := C128_partial (α := B64) (by norm_num) sh (tol := tol) (fun i j hij hj => by
    obtain ⟨rfl, rfl⟩ : i = 0 ∧ j = 1 := by omega
    refine ⟨(hx.sub ho (t := 1) (by norm_num) (B64.dyi 1 (by norm_num))).1, mul_ok f3 ht.1 ?_⟩
    show |val (Flt.fmax (Flt.abs x) (Flt.abs o)) * val tol| ≤ _
    rw [v3, ht.2, abs_of_pos (by linarith)]
    exact le_trans (by norm_num) (big_le (α := B64))) (by rw [ht.2]; exact t0.le)
  rw [e]
  cases b
  · rfl
  · exfalso
    have h : |val x - val o| ≤ (1 + u B64) * ((1 + u B64) * (max |val x| |val o| * val tol) + η B64) := h1 rfl 0 1 (by norm_num) (by norm_num)
    rw [hx.2, ho.2, ht.2] at h
    have hu : u B64 ≤ 1 / 2 := u_le
    have hη : η B64 ≤ 1 / 8 := by
      show ((1 : ℝ) / 2) ^ 1075 ≤ 1 / 8
      rw [show (1 : ℝ) / 8 = (1 / 2) ^ 3 by norm_num]
      exact pow_le_pow_of_le_one (by norm_num) (by norm_num) (by norm_num)
    have u0 := u_nonneg (α := B64)
    have η0 := η_nonneg (α := B64)
    generalize u B64 = u at *
    generalize η B64 = w at *
    clear h1 e
    generalize (2 : ℝ) ^ (-40 : ℤ) = t at *
    rw [show |(2 : ℝ) - 1| = 1 by norm_num, show max |(2 : ℝ)| |1| = 2 by norm_num] at h
    have a1 : (1 + u) * (2 * t) ≤ 3 / 2 * (1 / 4) := mul_le_mul (by linarith) (by linarith) (by linarith) (by norm_num)
    have a2 : (1 + u) * ((1 + u) * (2 * t) + w) ≤ 3 / 2 * (1 / 2) := mul_le_mul (by linarith) (by linarith)
      (add_nonneg (mul_nonneg (by linarith) (by linarith)) η0) (by norm_num)
    norm_num at a2
    linarith

end Linear
