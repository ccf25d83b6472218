import Verif.Props.RoundEigSolve
import Verif.Props.RoundDet
import Verif.Props.RoundPinv

/-!
# C121: determinant and regularity by eigenvalues in rounded arithmetic

For a symmetric matrix, `Determinant` of the eigen decomposition is the determinant of a matrix near to the given one, up to the rounding
of the product, and the answer of `IsNonSingular` is right for a matrix near to the given one.  `IsEv S l`: `l` are the eigenvalues of the
symmetric matrix `S` (`Lemmas/Weyl.lean`); `lost` bounds what underflow in a product can amount to (C98).
-/

set_option linter.unusedSectionVars false

namespace Linear

open Spec Rnd Matrix
open Finset hiding val diag

variable {α : Type} [Flt α] {n : Nat}

/-- **C121, the terms of the determinant**: in every arithmetic, `Determinant` ends and is the product of the real parts from the first to
the last, starting at one. -/
theorem C121_determinant_terms (s : Eig α n) : s.det = .ok (lprod Flt.one s.re.f n) := by
  unfold Eig.det
  obtain ⟨x, e, h⟩ := Wp.exists_ok (wp_forUp (ε := Fault) (a := 0) (b := n)
    (body := fun i x => do return Flt.mul x (← s.re.get i)) (s := (Flt.one : α)) (E := fun _ => False)
    (fun b x => x = lprod Flt.one s.re.f b) (by omega) rfl (fun i x _ hi hI => by
      rw [Row.get_ok hi, ok_bind]
      exact wp_of_eq_ok rfl (by rw [hI]; rfl)))
  rw [e, h]

variable [Rnd α]

/-- A matrix with known eigenvalues has their product as determinant. -/
theorem Spec.IsEv.det {S : Matrix (Fin n) (Fin n) ℝ} {l : Nat → ℝ} (h : IsEv S l) : S.det = ∏ i ∈ range n, l i := by
  obtain ⟨O, oO, e⟩ := h.diag
  rw [e, Matrix.det_mul, Matrix.det_mul, Matrix.det_diagonal, mul_right_comm, ← Matrix.det_mul, mul_eq_one_comm.1 oO, Matrix.det_one,
    one_mul]
  exact Fin.prod_univ_eq_prod_range l n

theorem Spec.IsEv.symm {S : Matrix (Fin n) (Fin n) ℝ} {l : Nat → ℝ} (h : IsEv S l) : Sᵀ = S := by
  obtain ⟨O, oO, e⟩ := h.diag
  rw [e, Matrix.transpose_mul, Matrix.transpose_mul, Matrix.transpose_transpose, Matrix.diagonal_transpose, Matrix.mul_assoc]

/-- **C121, determinant.** `A'` has the computed eigenvalues; the value of `Determinant`, when finite, is the determinant of `A'` up to
the rounding of `n` products. -/
theorem C121_determinant {s : Eig α n} {A' : Matrix (Fin n) (Fin n) ℝ} (hA : IsEv A' fun i => val (s.re.f i)) {d : α} (hd : s.det = .ok d)
    (fd : fin d) : |val d - A'.det| ≤ ((1 + u α) ^ n - 1) * |A'.det| + (1 + u α) ^ n * (lost n (fun i => |val (s.re.f i)|) * η α) := by
  rw [C121_determinant_terms] at hd
  obtain rfl := Except.ok.inj hd
  have h := lprod_err (s := (Flt.one : α)) (g := s.re.f) (by rw [val_one]; norm_num) n fd
  rw [val_one, one_mul] at h
  rw [hA.det, Finset.abs_prod]
  rw [Finset.abs_prod] at h
  linarith

/-! ## Regularity -/

/-- The magnitude of an eigenvalue with imaginary part zero. -/
theorem norm_near (hu : u α ≤ 1 / 1000) {x z : α} (fx : fin x) (fz : fin z) (hz : val z = 0) (hx : 2 * val x ^ 2 + 1 ≤ big α) :
    fin (Flt.sqrt (Flt.add (Flt.mul x x) (Flt.mul z z))) ∧ 0 ≤ val (Flt.sqrt (Flt.add (Flt.mul x x) (Flt.mul z z))) ∧
    (val (Flt.sqrt (Flt.add (Flt.mul x x) (Flt.mul z z))) ≠ 0 → val x ≠ 0) ∧
    |val (Flt.sqrt (Flt.add (Flt.mul x x) (Flt.mul z z))) - (|val x|)| ≤ 3 / 1000 * |val x| + 2 * √(η α) := by
  have u0 := u_nonneg (α := α)
  have η0 := η_nonneg (α := α)
  have hB := big_le (α := α)
  have hBη := big_η (α := α)
  have hη : η α ≤ 1 / 100 := by nlinarith
  have x2 := sq_nonneg (val x)
  have fm : fin (Flt.mul x x) := mul_ok fx fx (by rw [← pow_two, abs_of_nonneg x2]; linarith)
  have fm' : fin (Flt.mul z z) := mul_ok fz fz (by rw [hz]; norm_num; linarith)
  have zm : val (Flt.mul z z) = 0 := mul_of_zero fm' hz
  have em := (mul_err fm).1
  have m0 := mul_nn fm (mul_self_nonneg _)
  rw [← pow_two, abs_of_nonneg x2] at em
  obtain ⟨m1, m2⟩ := abs_le.1 em
  have fa : fin (Flt.add (Flt.mul x x) (Flt.mul z z)) := add_ok fm fm' (by
    rw [zm, _root_.add_zero, abs_of_nonneg m0]
    nlinarith)
  have ea := Rnd.add_zero fa zm
  have fs := sqrt_ok fa (by rw [ea]; exact m0)
  have es := (sqrt_err fs).1
  rw [ea] at es
  set m := val (Flt.mul x x)
  set N := val (Flt.sqrt (Flt.add (Flt.mul x x) (Flt.mul z z)))
  have ux : u α * val x ^ 2 ≤ 1 / 1000 * val x ^ 2 := mul_le_mul_of_nonneg_right hu x2
  have a0 := abs_nonneg (val x)
  have sη := Real.sqrt_nonneg (η α)
  have qη := Real.sq_sqrt η0
  have sm := Real.sqrt_nonneg m
  have qm := Real.sq_sqrt m0
  have ax : |val x| ^ 2 = val x ^ 2 := sq_abs _
  have k1 : √m ≤ 1001 / 1000 * |val x| + √(η α) := by
    refine Real.sqrt_le_iff.2 ⟨by positivity, ?_⟩
    nlinarith [mul_nonneg a0 sη]
  have k2 : 999 / 1000 * |val x| ≤ √m + √(η α) := by
    refine abs_le_of_sq_le_sq' ?_ (by positivity) |>.2
    nlinarith [mul_nonneg sm sη]
  obtain ⟨e1, e2⟩ := abs_le.1 es
  have us : u α * √m ≤ 1 / 1000 * √m := mul_le_mul_of_nonneg_right hu sm
  refine ⟨fs, by linarith, fun hN hx0 => hN ?_, abs_le.2 ⟨by linarith, by linarith⟩⟩
  have hm : m = 0 := mul_of_zero fm hx0
  rw [hm, Real.sqrt_zero] at es
  rw [mul_zero, sub_zero] at es
  exact abs_nonpos_iff.1 es

/-- The test of `IsNonSingular` on one magnitude. -/
theorem small_test (hu : u α ≤ 1 / 1000) {N B eps : α} (fN : fin N) (fB : fin B) (fe : fin eps) (h0 : 0 ≤ val N) (hNB : val N ≤ val B)
    (hB : 0 < val B) (he : 100 * η α ≤ val eps) :
    (equalsWithError (Flt.div N B) Flt.zero eps = true → val N ≤ 102 / 100 * val eps * val B) ∧
    (equalsWithError (Flt.div N B) Flt.zero eps = false → 98 / 100 * val eps * val B < val N) := by
  have u0 := u_nonneg (α := α)
  have η0 := η_nonneg (α := α)
  have hb := big_le (α := α)
  have q0 : 0 ≤ val N / val B := div_nonneg h0 hB.le
  have q1 : val N / val B ≤ 1 := (div_le_one hB).2 hNB
  have fq : fin (Flt.div N B) := div_ok fN fB hB.ne' (by rw [abs_of_nonneg q0]; linarith)
  have eq := (div_err fq fB).1
  have lq := div_le_one fq fB (by rw [abs_of_nonneg h0, abs_of_pos hB]; exact hNB)
  rw [abs_of_nonneg q0] at eq
  have fs : fin (Flt.sub Flt.zero (Flt.div N B)) := sub_ok zero_fin fq (by rw [val_zero, zero_sub, abs_neg]; linarith)
  have es := (sub_err fs).1
  rw [val_zero, zero_sub, abs_neg] at es
  have fa : fin (Flt.abs (Flt.sub Flt.zero (Flt.div N B))) := abs_fin.2 fs
  have va := val_abs fs
  have hle := le_iff fa fe
  rw [va] at hle
  have hz := ulp_zero (x := Flt.div N B)
  have eN : val N = val N / val B * val B := (div_mul_cancel₀ _ hB.ne').symm
  set q := val (Flt.div N B)
  set d := val (Flt.sub Flt.zero (Flt.div N B))
  have uq : u α * (val N / val B) ≤ 1 / 1000 * (val N / val B) := mul_le_mul_of_nonneg_right hu q0
  have ud : u α * |q| ≤ 1 / 1000 * |q| := mul_le_mul_of_nonneg_right hu (abs_nonneg q)
  obtain ⟨e1, e2⟩ := abs_le.1 eq
  have t1 : |d| ≤ |q| + 1 / 1000 * |q| := by
    have := abs_sub_abs_le_abs_sub d (-q)
    rw [abs_neg] at this
    linarith
  have t2 : |q| ≤ |d| + 1 / 1000 * |q| := by
    have := abs_sub_abs_le_abs_sub (-q) d
    rw [abs_neg, abs_sub_comm] at this
    linarith
  have t3 : q ≤ |q| := le_abs_self q
  have t4 : |q| ≤ 1001 / 1000 * (val N / val B) + η α := abs_le.2 ⟨by linarith, by linarith⟩
  rw [eN]
  generalize val N / val B = p at *
  refine ⟨fun h => mul_le_mul_of_nonneg_right ?_ hB.le, fun h => mul_lt_mul_of_pos_right ?_ hB⟩
  · unfold equalsWithError at h
    rw [Bool.or_eq_true] at h
    rcases h with h | h
    · have := (hz h).2
      linarith
    · have := hle.1 h
      linarith
  · unfold equalsWithError at h
    rw [Bool.or_eq_false_iff] at h
    have h1 : ¬ |d| ≤ val eps := fun h' => by rw [hle.2 h'] at h; exact absurd h.2 (by simp)
    push Not at h1
    linarith

/-- **C121, regularity by the computed eigenvalues.** For real eigenvalues whose squares do not overflow `IsNonSingular` ends.  If it says
yes, no eigenvalue is zero and none is much below `eps` times another one; if it says no, some eigenvalue is not much above `eps` times
another one. -/
theorem C121_values (hn : 0 < n) (hu : u α ≤ 1 / 1000) {eps : α} (fe : fin eps) (he : 100 * η α ≤ val eps) (he1 : val eps ≤ 1) {s : Eig α n}
    (him : ∀ i, i < n → s.im.f i = Flt.zero) (hre : ∀ i, i < n → fin (s.re.f i))
    (hb : ∀ i, i < n → 2 * val (s.re.f i) ^ 2 + 1 ≤ big α) :
    ∃ b, s.isNonSingular eps = .ok b ∧
      (b = true → ∀ i, i < n → val (s.re.f i) ≠ 0 ∧ ∀ k, k < n →
        95 / 100 * val eps * |val (s.re.f k)| ≤ |val (s.re.f i)| + 5 * √(η α)) ∧
      (b = false → ∃ i k, i < n ∧ k < n ∧ |val (s.re.f i)| ≤ 105 / 100 * val eps * |val (s.re.f k)| + 5 * √(η α)) := by
  have sη := Real.sqrt_nonneg (η α)
  have η0 := η_nonneg (α := α)
  have e0 : 0 ≤ val eps := by linarith
  let N : Nat → α := fun i => Flt.sqrt (Flt.add (Flt.mul (s.re.f i) (s.re.f i)) (Flt.mul (s.im.f i) (s.im.f i)))
  have hN : ∀ i, i < n → s.normAt i = .ok (N i) := fun i hi => by
    unfold Eig.normAt
    rw [Row.get_ok hi, ok_bind, Row.get_ok hi, ok_bind]
    rfl
  have hz : ∀ i, i < n → fin (s.im.f i) ∧ val (s.im.f i) = 0 := fun i hi => by rw [him i hi]; exact ⟨zero_fin, val_zero⟩
  have near := fun i hi => norm_near hu (hre i hi) (hz i hi).1 (hz i hi).2 (hb i hi)
  have near : ∀ i, i < n → fin (N i) ∧ 0 ≤ val (N i) ∧ (val (N i) ≠ 0 → val (s.re.f i) ≠ 0) ∧
    |val (N i) - (|val (s.re.f i)|)| ≤ 3 / 1000 * |val (s.re.f i)| + 2 * √(η α) := near
  unfold Eig.isNonSingular
  obtain ⟨B, e, fB, h1, h2⟩ := Wp.exists_ok (wp_forUp (ε := Fault) (a := 0) (b := n)
    (body := fun i x => do return Flt.fmax x (← s.normAt i)) (s := (Flt.zero : α)) (E := fun _ => False)
    (fun b x => fin x ∧ (∀ k, k < b → val (N k) ≤ val x) ∧ (val x = 0 ∨ ∃ k, k < b ∧ val x = val (N k))) (by omega)
    ⟨zero_fin, fun k hk => by omega, .inl val_zero⟩ (fun i x _ hi ⟨hI0, hI1, hI2⟩ => by
      rw [hN i hi, ok_bind]
      obtain ⟨f1, f2⟩ := max_fin hI0 (near i hi).1
      refine wp_of_eq_ok rfl ⟨f1, fun k hk => ?_, ?_⟩
      · rw [f2]
        by_cases hki : k = i
        · subst hki; exact le_max_right _ _
        · exact (hI1 k (by omega)).trans (le_max_left _ _)
      · rw [f2]
        rcases max_choice (val x) (val (N i)) with h | h
        · rw [h]
          rcases hI2 with h' | ⟨k, hk, h'⟩
          · exact .inl h'
          · exact .inr ⟨k, by omega, h'⟩
        · rw [h]; exact .inr ⟨i, by omega, rfl⟩))
  rw [e, ok_bind]
  by_cases hB : val B = 0
  · rw [if_pos ((eq_iff fB zero_fin).2 (by rw [hB, val_zero]))]
    refine ⟨false, rfl, by simp, fun _ => ⟨0, 0, hn, hn, ?_⟩⟩
    obtain ⟨-, p0, -, p⟩ := near 0 hn
    have := h1 0 hn
    rw [hB] at this
    have p1 := (abs_le.1 p).1
    have := mul_nonneg e0 (abs_nonneg (val (s.re.f 0)))
    linarith
  · rw [if_neg (fun h => hB (by rw [(eq_iff fB zero_fin).1 h, val_zero]))]
    obtain ⟨k₀, hk₀, hB₀⟩ : ∃ k, k < n ∧ val B = val (N k) := h2.resolve_left hB
    have hB0 : 0 < val B := lt_of_le_of_ne (by rw [hB₀]; exact (near k₀ hk₀).2.1) (Ne.symm hB)
    have test : ∀ i, i < n → _ := fun i hi => small_test hu (near i hi).1 fB fe (near i hi).2.1 (h1 i hi) hB0 he
    rcases forUpBrk_all (n := n) (P := fun i => equalsWithError (Flt.div (N i) B) Flt.zero eps = false) (body := fun i (_ : Unit) => do
      let x ← s.normAt i
      return if equalsWithError (Flt.div x B) Flt.zero eps then .inr () else .inl ()) (fun i hi => by
        rw [hN i hi, ok_bind]
        cases equalsWithError (Flt.div (N i) B) Flt.zero eps
        · exact .inl ⟨rfl, rfl⟩
        · exact .inr ⟨by simp, rfl⟩) with ⟨g1, g2⟩ | ⟨g1, g2⟩
    · rw [g2, ok_bind]
      refine ⟨true, rfl, fun _ i hi => ?_, by simp⟩
      have t := (test i hi).2 (g1 i hi)
      have t0 : 0 ≤ 98 / 100 * val eps * val B := by positivity
      refine ⟨(near i hi).2.2.1 (by linarith), fun k hk => ?_⟩
      have p := (abs_le.1 (near i hi).2.2.2).2
      have q := (abs_le.1 (near k hk).2.2.2).1
      have r := h1 k hk
      have r' : 98 / 100 * val eps * (997 / 1000 * |val (s.re.f k)| - 2 * √(η α)) ≤ 98 / 100 * val eps * val B :=
        mul_le_mul_of_nonneg_left (by linarith) (by positivity)
      have m1 := mul_nonneg e0 (abs_nonneg (val (s.re.f k)))
      have m2 : val eps * √(η α) ≤ √(η α) := mul_le_of_le_one_left sη he1
      have m3 := abs_nonneg (val (s.re.f i))
      nlinarith
    · rw [g2, ok_bind]
      refine ⟨false, rfl, by simp, fun _ => ?_⟩
      push Not at g1
      obtain ⟨i, hi, g⟩ := g1
      have t := (test i hi).1 (by simpa using g)
      refine ⟨i, k₀, hi, hk₀, ?_⟩
      have p := (abs_le.1 (near i hi).2.2.2).1
      have q := (abs_le.1 (near k₀ hk₀).2.2.2).2
      rw [← hB₀] at q
      have r' : 102 / 100 * val eps * val B ≤ 102 / 100 * val eps * (1003 / 1000 * |val (s.re.f k₀)| + 2 * √(η α)) :=
        mul_le_mul_of_nonneg_left (by linarith) (by positivity)
      have m1 := mul_nonneg e0 (abs_nonneg (val (s.re.f k₀)))
      have m2 : val eps * √(η α) ≤ √(η α) := mul_le_of_le_one_left sη he1
      have m3 := abs_nonneg (val (s.re.f i))
      nlinarith

/-- Setting one eigenvalue to zero gives a singular symmetric matrix at a distance of its magnitude. -/
theorem near_singular {O : Matrix (Fin n) (Fin n) ℝ} (oO : Oᵀ * O = 1) (l : Fin n → ℝ) (i : Fin n) :
    ∃ A' : Matrix (Fin n) (Fin n) ℝ, A'ᵀ = A' ∧ A'.det = 0 ∧ fro (O * Matrix.diagonal l * Oᵀ - A') = |l i| := by
  refine ⟨O * Matrix.diagonal (fun k => if k = i then 0 else l k) * Oᵀ, ?_, ?_, ?_⟩
  · rw [Matrix.transpose_mul, Matrix.transpose_mul, Matrix.transpose_transpose, Matrix.diagonal_transpose, Matrix.mul_assoc]
  · rw [Matrix.det_mul, Matrix.det_mul, Matrix.det_diagonal,
      show (∏ k, if k = i then (0 : ℝ) else l k) = 0 from Finset.prod_eq_zero (Finset.mem_univ i) (if_pos rfl), mul_zero, zero_mul]
  · have e : O * Matrix.diagonal l * Oᵀ - O * Matrix.diagonal (fun k => if k = i then 0 else l k) * Oᵀ =
        O * Matrix.diagonal (fun k => if k = i then l k else 0) * Oᵀ := by
      rw [← Matrix.sub_mul, ← Matrix.mul_sub, Matrix.diagonal_sub]
      congr 3
      funext k
      split <;> simp
    rw [e, fro_right (by rwa [Matrix.transpose_transpose]), fro_left oO]
    unfold fro
    rw [← Real.sqrt_sq_eq_abs]
    congr 1
    rw [Finset.sum_eq_single i (fun a _ ha => Finset.sum_eq_zero fun b _ => ?_) (by simp),
      Finset.sum_eq_single i (fun b _ hb => ?_) (by simp), Matrix.diagonal_apply_eq, if_pos rfl]
    · rw [Matrix.diagonal_apply_ne _ (Ne.symm hb)]; norm_num
    · rw [Matrix.diagonal_apply, if_neg ha]
      split <;> norm_num

/-- **C121, regularity.** `O D Oᵀ`, with the computed eigenvalues in `D`, is at most `E` away from `A`.  If `IsNonSingular` says yes, a
matrix at most `E` away from `A` is regular, with its eigenvalues within a factor of about `eps`; if it says no, a matrix at most
`E + 1.05 eps (|A| + E)` away from `A`, and what underflow adds, is singular. -/
theorem C121_regular (hn : 0 < n) (hu : u α ≤ 1 / 1000) {eps : α} (fe : fin eps) (he : 100 * η α ≤ val eps) (he1 : val eps ≤ 1) {s : Eig α n}
    (him : ∀ i, i < n → s.im.f i = Flt.zero) (hre : ∀ i, i < n → fin (s.re.f i))
    (hsort : ∀ i j, i < j → j < n → val (s.re.f j) ≤ val (s.re.f i)) {A O : Matrix (Fin n) (Fin n) ℝ} {E : ℝ} (oO : Oᵀ * O = 1)
    (hE : fro (A - O * Matrix.diagonal (fun i : Fin n => val (s.re.f i)) * Oᵀ) ≤ E) (hb : 2 * (fro A + E) ^ 2 + 1 ≤ big α) :
    ∃ b, s.isNonSingular eps = .ok b ∧
      (b = true → ∃ A' l, IsEv A' l ∧ fro (A - A') ≤ E ∧ A'.det ≠ 0 ∧
        ∀ i k, i < n → k < n → 95 / 100 * val eps * |l k| ≤ |l i| + 5 * √(η α)) ∧
      (b = false → ∃ A' : Matrix (Fin n) (Fin n) ℝ, A'ᵀ = A' ∧ A'.det = 0 ∧
        fro (A - A') ≤ E + 105 / 100 * val eps * (fro A + E) + 5 * √(η α)) := by
  have η0 := η_nonneg (α := α)
  have hD : fro (Matrix.diagonal fun i : Fin n => val (s.re.f i)) ≤ fro A + E := by
    have h1 := fro_add_le A (-(A - O * Matrix.diagonal (fun i : Fin n => val (s.re.f i)) * Oᵀ))
    rw [fro_neg, show A + (-(A - O * Matrix.diagonal (fun i : Fin n => val (s.re.f i)) * Oᵀ)) =
      O * Matrix.diagonal (fun i : Fin n => val (s.re.f i)) * Oᵀ by abel,
      fro_right (by rwa [Matrix.transpose_transpose]), fro_left oO] at h1
    linarith
  have hl : ∀ i, i < n → |val (s.re.f i)| ≤ fro A + E := fun i hi => by
    have := abs_le_fro (Matrix.diagonal fun i : Fin n => val (s.re.f i)) ⟨i, hi⟩ ⟨i, hi⟩
    rw [Matrix.diagonal_apply_eq] at this
    exact this.trans hD
  have hEv : IsEv (O * Matrix.diagonal (fun i : Fin n => val (s.re.f i)) * Oᵀ) fun i => val (s.re.f i) :=
    ⟨fun i j hij hj => (Nat.eq_or_lt_of_le hij).elim (fun e => by rw [e]) fun h => hsort i j h hj, O, oO, rfl⟩
  obtain ⟨b, e, h1, h2⟩ := C121_values hn hu fe he he1 him hre (fun i hi => by
    have h := hl i hi
    have := pow_le_pow_left₀ (abs_nonneg _) h 2
    rw [sq_abs] at this
    linarith)
  refine ⟨b, e, fun hb => ⟨_, _, hEv, hE, ?_, fun i k hi hk => (h1 hb i hi).2 k hk⟩, fun hb => ?_⟩
  · rw [hEv.det]
    exact Finset.prod_ne_zero_iff.2 fun i hi => (h1 hb i (mem_range.1 hi)).1
  · obtain ⟨i, k, hi, hk, h⟩ := h2 hb
    obtain ⟨A', a1, a2, a3⟩ := near_singular oO (fun i : Fin n => val (s.re.f i)) ⟨i, hi⟩
    refine ⟨A', a1, a2, ?_⟩
    have t := fro_add_le (A - O * Matrix.diagonal (fun i : Fin n => val (s.re.f i)) * Oᵀ)
      (O * Matrix.diagonal (fun i : Fin n => val (s.re.f i)) * Oᵀ - A')
    rw [sub_add_sub_cancel, a3] at t
    have h' : 105 / 100 * val eps * |val (s.re.f k)| ≤ 105 / 100 * val eps * (fro A + E) :=
      mul_le_mul_of_nonneg_left (hl k hk) (by linarith)
    dsimp only at t
    linarith

private theorem square_room {w P : ℝ} (hP : 1 ≤ P) (h0 : 0 ≤ w) (h : w ≤ 2 * P) : 2 * w ^ 2 + 1 ≤ 2 ^ 23 * P ^ 2 := by
  have h2 : 1 ≤ P ^ 2 := one_le_pow₀ hP
  have h3 := pow_le_pow_left₀ h0 h 2
  rw [mul_pow] at h3
  norm_num at h3 ⊢
  linarith

/-- **C121, binary64**: the decomposition of a symmetric matrix with up to 65536 rows and a norm of at most `2⁵⁰⁰`; `epsEd` is between
`2⁻¹⁰⁰⁰` and one, like the `1e-12` of the code. -/
theorem C121_binary64 {n : Nat} {eps epsEd : B64} (fe : fin eps) (hε : val eps = (1 / 2) ^ 53) {a : Mat B64 n n} (ha : a.own)
    (hn : 0 < n) (hn' : n ≤ 2 ^ 16) {A : Nat → Nat → B64} (hA : Shows a.at n n A)
    (hS : ∀ i j, i < n → j < n → A i j = A j i) {s : Tri B64 n n} (hs : Tri.new a = .ok s)
    {mt : Mat B64 n n} {T : Nat → Nat → B64} (et : s.t = .ok ⟨n, n, mt⟩) (hT : Shows mt.at n n T)
    (hfin : ∀ i j, i < n → j < n → fin (T i j))
    (hlow : ∀ i, i + 1 < n → val (T i (i + 1)) = 0 ∨ n * (1 / 2) ^ 1020 ≤ val (T i (i + 1)) ^ 2)
    (hhigh : ∀ i, i + 1 < n → |val (T i (i + 1))| ≤ 2 ^ 510) (hN : fro (mx n n fun i j => val (A i j)) ≤ 2 ^ 500)
    (fd : fin epsEd) (hd : (1 / 2) ^ 1000 ≤ val epsEd) (hd1 : val epsEd ≤ 1)
    {g : Eig B64 n} (hg : Eig.newSym eps a = .ok g) (hv : ∀ i j, i < n → j < n → fin (g.vec.f i j)) {E : ℝ}
    (hE : E = 45000 * n ^ 2 * (1 / 2) ^ 53 * fro (mx n n fun i j => val (A i j)) + 400 * n ^ 2 * √((1 / 2) ^ 1075)) :
    (∃ d, g.det = .ok d ∧ (fin d → ∃ A' l, IsEv A' l ∧ fro ((mx n n fun i j => val (A i j)) - A') ≤ E ∧
      |val d - A'.det| ≤ ((1 + (1 / 2) ^ 53) ^ n - 1) * |A'.det| +
        (1 + (1 / 2) ^ 53) ^ n * (lost n (fun i => |l i|) * (1 / 2) ^ 1075))) ∧
    ∃ b, g.isNonSingular epsEd = .ok b ∧
      (b = true → ∃ A' l, IsEv A' l ∧ fro ((mx n n fun i j => val (A i j)) - A') ≤ E ∧ A'.det ≠ 0 ∧
        ∀ i k, i < n → k < n → 95 / 100 * val epsEd * |l k| ≤ |l i| + 5 * √((1 / 2) ^ 1075)) ∧
      (b = false → ∃ A' : Matrix (Fin n) (Fin n) ℝ, A'ᵀ = A' ∧ A'.det = 0 ∧
        fro ((mx n n fun i j => val (A i j)) - A') ≤
          E + 105 / 100 * val epsEd * (fro (mx n n fun i j => val (A i j)) + E) + 5 * √((1 / 2) ^ 1075)) := by
  have hN' : fro (mx n n fun i j => val (A i j)) ≤ 2 ^ 1000 := hN.trans (pow_le_pow_right₀ (by norm_num) (by norm_num))
  obtain ⟨r1, r2, ⟨O, oO, -, o3⟩, -⟩ := C109_binary64 fe hε ha hn hn' hA hS hs et hT hfin hlow hhigh hN' hg hv
  rw [← hE] at o3
  have hEv : IsEv (O * Matrix.diagonal (fun i : Fin n => val (g.re.f i)) * Oᵀ) fun i => val (g.re.f i) :=
    ⟨fun i j hij hj => (Nat.eq_or_lt_of_le hij).elim (fun e => by rw [e]) fun h => r2 i j h hj, O, oO, rfl⟩
  refine ⟨⟨_, C121_determinant_terms g, fun f => ⟨_, _, hEv, o3, C121_determinant hEv (C121_determinant_terms g) f⟩⟩, ?_⟩
  have him : ∀ i, i < n → g.im.f i = Flt.zero := fun i _ => by rw [newSym_im hg]; rfl
  refine C121_regular (α := B64) hn (show ((1 : ℝ) / 2) ^ 53 ≤ 1 / 1000 by norm_num) fd ?_ hd1 him r1 r2 oO o3 ?_
  · show 100 * ((1 : ℝ) / 2) ^ 1075 ≤ _
    refine le_trans ?_ hd
    rw [show (1075 : ℕ) = 75 + 1000 from rfl, pow_add, ← mul_assoc]
    exact mul_le_of_le_one_left (by positivity) (by norm_num)
  · show _ ≤ (2 : ℝ) ^ 1023
    have b0 := fro_nonneg (mx n n fun i j => val (A i j))
    have hn2 : (n : ℝ) ^ 2 ≤ 2 ^ 32 := by
      calc (n : ℝ) ^ 2 ≤ (2 ^ 16) ^ 2 := pow_le_pow_left₀ (by positivity) (by exact_mod_cast hn') 2
        _ = _ := by norm_num
    have sq : √(((1 : ℝ) / 2) ^ 1075) ≤ (1 / 2) ^ 60 := by
      refine Real.sqrt_le_iff.2 ⟨by positivity, ?_⟩
      rw [← pow_mul]
      exact pow_le_pow_of_le_one (by norm_num) (by norm_num) (by norm_num)
    have s0 := Real.sqrt_nonneg (((1 : ℝ) / 2) ^ 1075)
    have hP : (1 : ℝ) ≤ 2 ^ 500 := one_le_pow₀ (by norm_num)
    have hE1 : E ≤ 45000 * 2 ^ 32 * (1 / 2) ^ 53 * 2 ^ 500 + 400 * 2 ^ 32 * (1 / 2) ^ 60 := by
      rw [hE]
      generalize √(((1 : ℝ) / 2) ^ 1075) = w at *
      generalize fro (mx n n fun i j => val (A i j)) = f at *
      gcongr
    have hE0 : 0 ≤ E := by rw [hE]; positivity
    have hle : fro (mx n n fun i j => val (A i j)) + E ≤ 2 * 2 ^ 500 := by
      have k : (400 : ℝ) * 2 ^ 32 * (1 / 2) ^ 60 ≤ 1 / 2 := by norm_num
      have k' : (45000 : ℝ) * 2 ^ 32 * (1 / 2) ^ 53 ≤ 1 / 2 := by norm_num
      generalize (400 : ℝ) * 2 ^ 32 * (1 / 2) ^ 60 = x at *
      generalize (45000 : ℝ) * 2 ^ 32 * (1 / 2) ^ 53 = y at *
      generalize (2 : ℝ) ^ 500 = P at *
      nlinarith
    have e2 : (2 : ℝ) ^ 1023 = 2 ^ 23 * (2 ^ 500) ^ 2 := by rw [← pow_mul, ← pow_add]
    rw [e2]
    exact square_room hP (add_nonneg b0 hE0) hle

/-- Concrete case: the decomposition of the matrix with the rows `(1, -2⁻³⁰)` and `(-2⁻³⁰, 2)` meets the hypotheses of the theorem for
binary64 and with them those of the general ones; `IsNonSingular` says yes, and the determinant is finite. -/
example : ∃ (eps : B64) (a : Mat B64 2 2) (g : Eig B64 2) (d : B64), Shows a.at 2 2 Eig.caseA ∧ Eig.newSym eps a = .ok g ∧
    g.det = .ok d ∧ fin d ∧ g.isNonSingular eps = .ok true ∧
    ∃ A' l, IsEv A' l ∧ A'.det ≠ 0 ∧ fro ((mx 2 2 fun i j => val (Eig.caseA i j)) - A') ≤
      45000 * (2 : Nat) ^ 2 * (1 / 2) ^ 53 * fro (mx 2 2 fun i j => val (Eig.caseA i j)) + 400 * (2 : Nat) ^ 2 * √((1 / 2) ^ 1075) := by
  obtain ⟨eps, a, s, mt, T, g, h1, h2, h3, h4, h5, h6, h7, h8, h9, h10, h11, h12, h13, h14, h15⟩ := Eig.case_new
  have hns := two_nonsing ⟨h1, h2⟩ (newSym_im h13) h15
  have hd : fin (lprod Flt.one g.re.f 2) := by
    have key : ∀ i, i < 2 → fin (g.re.f i) ∧ |val (g.re.f i)| ≤ 2 := fun i hi => by
      rcases h15 i hi with h | h
      · exact ⟨h.1, by rw [h.2]; norm_num⟩
      · exact ⟨h.1, by rw [h.2]; norm_num⟩
    have b := big_le (α := B64)
    have f1 : fin (Flt.mul Flt.one (g.re.f 0)) := mul_ok one_fin (key 0 (by norm_num)).1 (by
      rw [val_one, one_mul]; exact (key 0 (by norm_num)).2.trans (by linarith))
    refine mul_ok f1 (key 1 (by norm_num)).1 ?_
    have e1 : val (lprod Flt.one g.re.f 1) = val (g.re.f 0) := one_times f1
    rw [e1, abs_mul]
    have := mul_le_mul (key 0 (by norm_num)).2 (key 1 (by norm_num)).2 (abs_nonneg _) (by norm_num)
    linarith
  have hN : fro (mx 2 2 fun i j => val (Eig.caseA i j)) ≤ 2 ^ 500 := by
    have k1 : fro (mx 2 2 fun i j => val (Eig.caseA i j)) ≤ 2 ^ 2 := by
      have c00 : val (Eig.caseA 0 0) = 1 := val_one
      have c11 : val (Eig.caseA 1 1) = 2 := val_two
      have c01 : val (Eig.caseA 0 1) = -1 / 2 ^ 30 := rfl
      have c10 : val (Eig.caseA 1 0) = -1 / 2 ^ 30 := rfl
      unfold fro
      refine Real.sqrt_le_iff.2 ⟨by norm_num, ?_⟩
      norm_num [Fin.sum_univ_two, mx, c00, c11, c01, c10]
    exact k1.trans (pow_le_pow_right₀ (by norm_num) (by norm_num))
  obtain ⟨-, b, hb, hb1, -⟩ := C121_binary64 (epsEd := eps) h1 h2 h3 (by norm_num) (by norm_num) h4 h5 h6 h7 h8 h9 h10 h11 hN h1
    (by rw [h2]; exact pow_le_pow_of_le_one (by norm_num) (by norm_num) (by norm_num)) (by rw [h2]; norm_num) h13 h14 rfl
  rw [hns] at hb
  obtain ⟨A', l, k1, k2, k3, -⟩ := hb1 (Except.ok.inj hb).symm
  exact ⟨eps, a, g, _, h4, h13, C121_determinant_terms g, hd, hns, A', l, k1, k3, k2⟩

end Linear
