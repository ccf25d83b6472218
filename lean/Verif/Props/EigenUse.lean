import Verif.Props.Eigen

/-!
# C53, C64 - C67: what the eigen decomposition is used for
-/

set_option linter.unusedSectionVars false

namespace Linear

open Spec Finset Matrix

section exact

variable {K : Type} [Field K] [LinearOrder K] [IsStrictOrderedRing K] [Flt K] [Exact K] [ExactSqrt K] {n : Nat}

theorem Spec.Spectral.orth' {V : Nat → Nat → K} {l : Nat → K} {M : Matrix (Fin n) (Fin n) K} (h : Spectral V l M) :
    mx n n V * (mx n n V)ᵀ = 1 := mul_eq_one_comm.1 h.1

/-- Each column is an eigenvector. -/
theorem Spec.Spectral.pair {V : Nat → Nat → K} {l : Nat → K} {M : Matrix (Fin n) (Fin n) K} (h : Spectral V l M)
    {k : Nat} (hk : k < n) :
    M.mulVec (fun i : Fin n => V i k) = l k • fun i : Fin n => V i k := by
  have hMV : M * mx n n V = mx n n V * Matrix.diagonal (fun i : Fin n => l i) := by
    rw [← h.2, Matrix.mul_assoc, h.1, Matrix.mul_one]
  funext i
  have := congrFun (congrFun hMV i) ⟨k, hk⟩
  rw [Matrix.mul_diagonal, Matrix.mul_apply] at this
  rw [Pi.smul_apply, smul_eq_mul, mul_comm]
  exact this

theorem Spec.Spectral.det {V : Nat → Nat → K} {l : Nat → K} {M : Matrix (Fin n) (Fin n) K} (h : Spectral V l M) :
    M.det = ∏ i ∈ range n, l i := by
  have h1 : (mx n n V).det * (mx n n V)ᵀ.det = 1 := by rw [← Matrix.det_mul, h.orth', Matrix.det_one]
  rw [← h.2, Matrix.det_mul, Matrix.det_mul, Matrix.det_diagonal, ← Fin.prod_univ_eq_prod_range]
  linear_combination (∏ i : Fin n, l i) * h1

theorem Spec.Spectral.symm {V : Nat → Nat → K} {l : Nat → K} {M : Matrix (Fin n) (Fin n) K} (h : Spectral V l M) :
    Mᵀ = M := by
  rw [← h.2, Matrix.transpose_mul, Matrix.transpose_mul, Matrix.transpose_transpose, Matrix.diagonal_transpose,
    Matrix.mul_assoc]

/-- Two matrices with the same vectors multiply by multiplying the values. -/
theorem Spec.Spectral.mul {V : Nat → Nat → K} {l l' : Nat → K} {M M' : Matrix (Fin n) (Fin n) K}
    (h : Spectral V l M) (h' : Spectral V l' M') : Spectral V (fun i => l i * l' i) (M * M') := by
  refine ⟨h.1, ?_⟩
  rw [← h.2, ← h'.2]
  have : Matrix.diagonal (fun i : Fin n => l i * l' i) =
      Matrix.diagonal (fun i : Fin n => l i) * Matrix.diagonal (fun i : Fin n => l' i) := by
    rw [Matrix.diagonal_mul_diagonal]
  rw [this]
  simp only [Matrix.mul_assoc]
  rw [← Matrix.mul_assoc (mx n n V)ᵀ, h.1, Matrix.one_mul]

theorem Spec.Spectral.one {V : Nat → Nat → K} (h : (mx n n V)ᵀ * mx n n V = 1) {l : Nat → K}
    (hl : ∀ i, i < n → l i = 1) : Spectral V l (1 : Matrix (Fin n) (Fin n) K) := by
  refine ⟨h, ?_⟩
  rw [show (fun i : Fin n => l i) = fun _ => 1 from funext fun i => hl i i.2, Matrix.diagonal_one, Matrix.mul_one,
    mul_eq_one_comm.1 h]

theorem Spec.Spectral.congr {V : Nat → Nat → K} {l l' : Nat → K} {M : Matrix (Fin n) (Fin n) K}
    (h : Spectral V l M) (hl : ∀ i, i < n → l' i = l i) : Spectral V l' M := by
  refine ⟨h.1, ?_⟩
  rw [← h.2, show (fun i : Fin n => l' i) = fun i : Fin n => l i from funext fun i => hl i i.2]

theorem Spec.Spectral.unique {V : Nat → Nat → K} {l : Nat → K} {M M' : Matrix (Fin n) (Fin n) K}
    (h : Spectral V l M) (h' : Spectral V l M') : M = M' := by
  rw [← h.2, h'.2]

/-- The matrix with the given vectors and values. -/
theorem Spec.Spectral.mk {V : Nat → Nat → K} (h : (mx n n V)ᵀ * mx n n V = 1) (l : Nat → K) :
    Spectral V l (mx n n fun a b => ∑ k ∈ range n, V a k * l k * V b k) := by
  refine ⟨h, ?_⟩
  rw [← mx_dg, Eig.sum3]

theorem Spec.Spectral.inv {V : Nat → Nat → K} {l : Nat → K} {M : Matrix (Fin n) (Fin n) K} (h : Spectral V l M)
    (hl : ∀ i, i < n → l i ≠ 0) :
    M * (mx n n fun a b => ∑ k ∈ range n, V a k * (l k)⁻¹ * V b k) = 1 :=
  (h.mul (Spectral.mk h.1 fun k => (l k)⁻¹)).unique
    (Spectral.one h.1 fun i hi => mul_inv_cancel₀ (hl i hi))

/-! ## C53: the determinant -/

/-- **C53.** For a decomposition with orthonormal vectors, `Determinant` is the determinant of the matrix that the
vectors and eigenvalues make up. -/
theorem C53_product {s : Eig K n} {M : Matrix (Fin n) (Fin n) K}
    (h : Spectral (fun i k => s.vec.f k i) s.re.f M) : s.det = .ok M.det := by
  rw [h.det]
  unfold Eig.det
  obtain ⟨x, e, hx⟩ := Wp.exists_ok (wp_forUp (ε := Fault) (a := 0) (b := n)
    (body := fun i x => do return Flt.mul x (← s.re.get i)) (s := (Flt.one : K)) (E := fun _ => False)
    (fun b x => x = ∏ i ∈ range b, s.re.f i) (by omega) (by simp) (fun i x _ hi hI => by
      rw [Row.get_ok hi, ok_bind]
      refine wp_of_eq_ok rfl ?_
      rw [prod_range_succ, hI, Exact.mul_eq]))
  rw [e, hx]

/-- **C53.** For every symmetric matrix that is decomposed without removals, `Determinant` is its determinant. -/
theorem C53_symmetric_partial {a : Mat K n n} (ha : a.own) (hn : 0 < n) {A : Nat → Nat → K} (hA : Shows a.at n n A)
    (hS : ∀ i j, i < n → j < n → A i j = A j i) {s : Eig K n} (h : Eig.newSym 0 a = .ok s) :
    s.det = .ok (mx n n A).det := by
  have := C53_product (C41_exact ha hn hA h)
  rw [this]
  congr 2
  refine mx_congr fun i j hi hj => ?_
  unfold symU
  split
  · rfl
  · exact hS j i hj hi

/-! ## C64: the diagonal matrix -/

theorem compareTo_zero (epsEd : K) : compareTo (0 : K) 0 epsEd = 0 := by
  unfold compareTo equalsWithError
  simp

/-- **C64.** Of a symmetric decomposition, `V * D * VT` is the matrix that the vectors and eigenvalues make up, all
three read from the matrices handed out. -/
theorem C64_product (epsEd : K) {s : Eig K n} (hn : 0 < n) (him : ∀ i, i < n → s.im.f i = 0)
    {M : Matrix (Fin n) (Fin n) K} (h : Spectral (fun i k => s.vec.f k i) s.re.f M) :
    ∃ (mv md mvt : Mat K n n) (V D VT : Nat → Nat → K), s.v = .ok ⟨n, n, mv⟩ ∧ s.dMat epsEd = .ok ⟨n, n, md⟩ ∧
      s.vT = .ok ⟨n, n, mvt⟩ ∧ Shows mv.at n n V ∧ Shows md.at n n D ∧ Shows mvt.at n n VT ∧
      (∀ i j, VT i j = V j i) ∧ (∀ i j, i < n → j < n → D i j = if i = j then s.re.f i else 0) ∧
      mx n n V * mx n n VT = 1 ∧ mx n n V * mx n n D * mx n n VT = M := by
  obtain ⟨mv, mvt, e1, e2, -, -, h3, h4⟩ := C64_vectors s hn
  obtain ⟨md, e3, -, h5⟩ := C64_diagonal epsEd s hn
    (fun i hi hc => by rw [him i hi, Exact.zero_eq, compareTo_zero] at hc; omega)
    (fun i hi hc => by rw [him i hi, Exact.zero_eq, compareTo_zero] at hc; omega)
  have hD : ∀ i j, i < n → j < n →
      (if j = i + 1 ∧ compareTo (s.im.f i) Flt.zero epsEd > 0 then s.im.f i
      else if j + 1 = i ∧ compareTo (s.im.f i) Flt.zero epsEd < 0 then s.im.f i
      else if i = j then s.re.f i else Flt.zero) = if i = j then s.re.f i else 0 := by
    intro i j hi hj
    simp [him i hi, compareTo_zero]
  refine ⟨mv, md, mvt, _, _, _, e1, e3, e2, h3, h5, h4, fun i j => rfl, hD, h.orth', ?_⟩
  rw [← h.2, mx_congr hD, ← mx_dg]
  rfl

/-! ## C65: the solver -/

theorem Eig.normAt_exact {s : Eig K n} (him : ∀ i, i < n → s.im.f i = 0) {i : Nat} (hi : i < n) :
    s.normAt i = .ok |s.re.f i| := by
  unfold Eig.normAt
  rw [Row.get_ok hi, ok_bind, Row.get_ok hi, ok_bind, pure_eq_ok]
  congr 1
  rw [him i hi, Exact.add_eq, Exact.mul_eq, Exact.mul_eq, mul_zero, add_zero]
  have h1 := ExactSqrt.sqrt_mul_self (s.re.f i * s.re.f i) (mul_self_nonneg _)
  have h2 := ExactSqrt.sqrt_nonneg (s.re.f i * s.re.f i)
  rw [← abs_of_nonneg h2]
  exact abs_eq_abs.2 (mul_self_eq_mul_self_iff.1 h1)

/-- **C65.** `IsNonSingular` of a decomposition with real eigenvalues never panics. It says yes exactly when the
eigenvalues are not all zero and each exceeds `epsEd` times every other one in absolute value. -/
theorem C65_isNonSingular {epsEd : K} (heps : 0 ≤ epsEd) {s : Eig K n} (him : ∀ i, i < n → s.im.f i = 0) :
    ∃ b, s.isNonSingular epsEd = .ok b ∧ (b = true ↔ (∃ k, k < n ∧ s.re.f k ≠ 0) ∧
      ∀ i k, i < n → k < n → epsEd * |s.re.f k| < |s.re.f i|) := by
  unfold Eig.isNonSingular
  obtain ⟨big, e, h1, h2⟩ := Wp.exists_ok (wp_forUp (ε := Fault) (a := 0) (b := n)
    (body := fun i x => do return Flt.fmax x (← s.normAt i)) (s := (Flt.zero : K)) (E := fun _ => False)
    (fun b x => (∀ k, k < b → |s.re.f k| ≤ x) ∧ (x = 0 ∨ ∃ k, k < b ∧ x = |s.re.f k|)) (by omega)
    ⟨fun k hk => by omega, .inl (by simp)⟩ (fun i x _ hi ⟨hI1, hI2⟩ => by
      rw [Eig.normAt_exact him hi, ok_bind]
      refine wp_of_eq_ok rfl ⟨fun k hk => ?_, ?_⟩
      · rw [Exact.max_eq]
        by_cases hki : k = i
        · subst hki; exact le_max_right _ _
        · exact (hI1 k (by omega)).trans (le_max_left _ _)
      · rw [Exact.max_eq]
        rcases max_choice x |s.re.f i| with h | h
        · rw [h]
          rcases hI2 with h' | ⟨k, hk, h'⟩
          · exact .inl h'
          · exact .inr ⟨k, by omega, h'⟩
        · rw [h]; exact .inr ⟨i, by omega, rfl⟩))
  rw [e, ok_bind]
  by_cases hbig : big = 0
  · rw [if_pos (by simp [hbig])]
    refine ⟨false, rfl, by simp, fun ⟨⟨k, hk, hne⟩, _⟩ => ?_⟩
    have := h1 k hk
    rw [hbig] at this
    exact absurd (abs_eq_zero.1 (le_antisymm this (abs_nonneg _))) hne
  · rw [if_neg (by simp [hbig])]
    have hbig0 : 0 < big := by
      rcases h2 with h | ⟨k, -, h⟩
      · exact absurd h hbig
      · rw [h]; exact lt_of_le_of_ne (abs_nonneg _) (by rw [← h]; exact Ne.symm hbig)
    have htest : ∀ i, i < n → (equalsWithError (Flt.div |s.re.f i| big) Flt.zero epsEd = true ↔
        |s.re.f i| ≤ epsEd * big) := by
      intro i hi
      unfold equalsWithError
      simp only [Exact.div_eq, Exact.zero_eq, Exact.ulpEq_eq, Exact.le_eq, Exact.abs_eq, Exact.sub_eq, zero_sub,
        abs_neg, abs_div, abs_abs, abs_of_pos hbig0, Bool.or_eq_true, decide_eq_true_eq, div_le_iff₀ hbig0]
      refine ⟨fun h => h.elim (fun h => ?_) id, .inr⟩
      rw [div_eq_zero_iff, or_iff_left hbig] at h
      rw [h]
      exact mul_nonneg heps hbig0.le
    obtain ⟨r, er, hr⟩ := Wp.exists_ok (wp_forUpBrk (ε := Fault) (a := 0) (b := n)
      (body := fun i (_ : Unit) => do
        let x ← s.normAt i
        return if equalsWithError (Flt.div x big) Flt.zero epsEd then .inr () else .inl ()) (s := ())
      (E := fun _ => False) (fun b _ => ∀ i, i < b → ¬ |s.re.f i| ≤ epsEd * big)
      (fun _ : Unit => ∃ i, i < n ∧ |s.re.f i| ≤ epsEd * big) (by omega) (fun i hi => by omega)
      (fun i u _ hi hI => by
        rw [Eig.normAt_exact him hi, ok_bind]
        refine wp_of_eq_ok rfl ?_
        split
        · next h => exact ⟨i, hi, (htest i hi).1 h⟩
        · next h =>
          intro k hk
          by_cases hki : k = i
          · subst hki; exact fun h' => h ((htest k hi).2 h')
          · exact hI k (by omega)))
    rw [er, ok_bind]
    rcases r with r | r
    · refine ⟨true, rfl, fun _ => ?_, fun _ => rfl⟩
      refine ⟨?_, fun i k hi hk => ?_⟩
      · rcases h2 with h | ⟨k, hk, h⟩
        · exact absurd h hbig
        · exact ⟨k, hk, fun h0 => hbig (by rw [h, h0, abs_zero])⟩
      · exact (mul_le_mul_of_nonneg_left (h1 k hk) heps).trans_lt (not_le.1 (hr i hi))
    · obtain ⟨i, hi, hle⟩ := hr
      refine ⟨false, rfl, by simp, fun ⟨_, hall⟩ => ?_⟩
      rcases h2 with h | ⟨k, hk, h⟩
      · exact absurd h hbig
      · have := hall i k hi hk
        rw [← h] at this
        exact absurd hle (not_le.2 this)

theorem Eig.nonzero {epsEd : K} (heps : 0 ≤ epsEd) {s : Eig K n} (him : ∀ i, i < n → s.im.f i = 0)
    (hs : s.isNonSingular epsEd = .ok true) : ∀ i, i < n → s.re.f i ≠ 0 := by
  obtain ⟨b, e, h⟩ := C65_isNonSingular heps him
  rw [hs] at e
  cases e
  intro i hi h0
  have := (h.1 rfl).2 i i hi hi
  rw [h0, abs_zero, mul_zero] at this
  exact lt_irrefl _ this

/-- The entry `(a, b)` of the inverse, as computed. -/
theorem Eig.inv_sum {s : Eig K n} (a b : Nat) :
    ∑ k ∈ range n, s.vec.f k a * s.vec.f k b / s.re.f k =
      ∑ k ∈ range n, s.vec.f k a * (s.re.f k)⁻¹ * s.vec.f k b :=
  sum_congr rfl fun k _ => by rw [div_eq_mul_inv]; ring

/-- **C65, `Inverse`.** If `IsNonSingular` says yes, the result is the inverse of the matrix that the vectors and
eigenvalues make up. Otherwise it is refused as singular. -/
theorem C65_inverse {epsEd : K} (heps : 0 ≤ epsEd) {s : Eig K n} (hn : 0 < n)
    (him : ∀ i, i < n → s.im.f i = 0) {M : Matrix (Fin n) (Fin n) K}
    (h : Spectral (fun i k => s.vec.f k i) s.re.f M) :
    (s.isNonSingular epsEd = .ok true → ∃ (mi : Mat K n n) (X : Nat → Nat → K),
      s.inverse epsEd = .ok ⟨n, n, mi⟩ ∧ mi.own ∧ Shows mi.at n n X ∧ M * mx n n X = 1 ∧ mx n n X * M = 1) ∧
    (s.isNonSingular epsEd = .ok false → s.inverse epsEd = .error (.pan .sing)) := by
  refine ⟨fun hs => ?_, fun hs => ?_⟩
  · have hne := Eig.nonzero heps him hs
    have hb := Tab.build_ok (ε := Fault) (r := n) (c := n) (rt := .rt) (cell := fun i j => sumUp 0 n (fun k => do
        return Flt.div (Flt.mul (← s.vec.get k i) (← s.vec.get k j)) (← s.re.get k)) Flt.zero)
      (fun i j => ∑ k ∈ range n, s.vec.f k i * s.vec.f k j / s.re.f k) (fun i j hi hj => by
        rw [sumUp_ok (fun k => s.vec.f k i * s.vec.f k j / s.re.f k) fun k _ hk => by
          rw [Tab.get_ok hk hi, ok_bind, Tab.get_ok hk hj, ok_bind, Row.get_ok hk, ok_bind, Exact.div_eq,
            Exact.mul_eq]
          rfl, lsum_exact0])
    obtain ⟨M2, e2, h2, h3⟩ := SMat.fromSlices_dense (Jag.toLists_rect (⟨fun i j => if i < n ∧ j < n then
      ∑ k ∈ range n, s.vec.f k i * s.vec.f k j / s.re.f k else Flt.zero⟩ : Tab K n n)) hn hn false
    have hI : M * mx n n (fun i j => ∑ k ∈ range n, s.vec.f k i * s.vec.f k j / s.re.f k) = 1 := by
      rw [← h.inv hne]
      congr 1
      exact mx_congr fun a b _ _ => Eig.inv_sum a b
    refine ⟨M2, _, ?_, Mat.dense_own h2, h3.congr fun i j hi hj => if_pos ⟨hi, hj⟩, hI, mul_eq_one_comm.1 hI⟩
    unfold Eig.inverse
    rw [hs, ok_bind]
    simp only [Bool.not_true, Bool.false_eq_true, if_false]
    rw [hb, ok_bind, e2, must_ok]
  · unfold Eig.inverse
    rw [hs, ok_bind]
    rfl

/-- **C65, `SolveVector`.** If `IsNonSingular` says yes, the result is the only solution of `M x = b`. -/
theorem C65_vector {epsEd : K} (heps : 0 ≤ epsEd) {s : Eig K n}
    (him : ∀ i, i < n → s.im.f i = 0) {M : Matrix (Fin n) (Fin n) K}
    (h : Spectral (fun i k => s.vec.f k i) s.re.f M) (hs : s.isNonSingular epsEd = .ok true) {b : RVec K}
    (hb : b.dim = n) :
    ∃ x, s.solveVector epsEd b = .ok x ∧ x.length = n ∧
      ∀ y : Fin n → K, M.mulVec y = vc n b.list ↔ y = vc n x := by
  have hne := Eig.nonzero heps him hs
  obtain ⟨bp, e, hbp⟩ := Wp.exists_ok (wp_forUp (ε := Fault) (a := 0) (b := n)
    (body := fun i (bp : Row K n) => do
      let v ← vecDotProduct (.arr (s.vector' i)) b
      let re ← s.re.get i
      forUp 0 n (fun j (bp : Row K n) => do
        bp.set j (Flt.add (← bp.get j) (Flt.mul (Flt.div v re) (← s.vec.get i j)))) bp) (s := Row.zero n)
    (E := fun _ => False)
    (fun i (bp : Row K n) => ∀ j, j < n → bp.f j = ∑ k ∈ range i,
      (∑ y ∈ range n, s.vec.f k y * nth b.list y) / s.re.f k * s.vec.f k j) (by omega)
    (fun j _ => by simp [Row.zero]) (fun i bp _ hi hI => by
      have ev : vecDotProduct (.arr (s.vector' i)) b = .ok (∑ y ∈ range n, s.vec.f i y * nth b.list y) := by
        unfold vecDotProduct
        have hl : (RVec.arr (s.vector' i)).dim = n := (s.vector'_isList i).1
        unfold checkDims
        rw [hl, hb, if_neg (by simp)]
        show sumUp 0 n _ _ = _
        rw [sumUp_ok (fun y => s.vec.f i y * nth b.list y) fun y _ hy => by
          rw [RVec.at_ok (v := .arr (s.vector' i)) (s.vector'_isList i) hy, ok_bind, b.at_nth (by omega), ok_bind,
            Exact.mul_eq]
          rfl, lsum_exact0]
      rw [ev, ok_bind, Row.get_ok hi, ok_bind]
      obtain ⟨bp', e, h1, -⟩ := Row.loop (ε := Fault) (a := 0) (b := n)
        (fun j x => x + (∑ y ∈ range n, s.vec.f i y * nth b.list y) / s.re.f i * s.vec.f i j) (t := bp)
        (body := fun j (bp : Row K n) => do
          bp.set j (Flt.add (← bp.get j) (Flt.mul (Flt.div (∑ y ∈ range n, s.vec.f i y * nth b.list y) (s.re.f i))
            (← s.vec.get i j)))) (fun j t' _ hj hk => by
          rw [Row.get_ok hj, ok_bind, Tab.get_ok hi hj, ok_bind, Row.set_ok hj, hk j (by omega), Exact.add_eq,
            Exact.mul_eq, Exact.div_eq])
      rw [e]
      refine wp_of_eq_ok rfl fun j hj => ?_
      rw [h1 j (by omega) hj, hI j hj, sum_range_succ]))
  have hsol : vc n bp.toList = (mx n n fun a b => ∑ k ∈ range n, s.vec.f k a * (s.re.f k)⁻¹ * s.vec.f k b).mulVec
      (vc n b.list) := by
    funext i
    show nth bp.toList i = ∑ y : Fin n, _ * nth b.list y
    have h1 : nth bp.toList i = bp.f i := by
      have := Row.toList_getElem? bp i.2
      unfold nth
      rw [List.getD_eq_getElem?_getD, this]
      rfl
    rw [h1, hbp i i.2]
    have h2 : ∑ y : Fin n, (mx n n fun a b => ∑ k ∈ range n, s.vec.f k a * (s.re.f k)⁻¹ * s.vec.f k b) i y *
        nth b.list y = ∑ y ∈ range n, (∑ k ∈ range n, s.vec.f k i * (s.re.f k)⁻¹ * s.vec.f k y) * nth b.list y :=
      Fin.sum_univ_eq_sum_range
        (fun y => (∑ k ∈ range n, s.vec.f k i * (s.re.f k)⁻¹ * s.vec.f k y) * nth b.list y) n
    rw [h2]
    simp only [sum_mul, div_eq_mul_inv]
    rw [sum_comm]
    exact sum_congr rfl fun y _ => sum_congr rfl fun k _ => by ring
  have hinv := h.inv hne
  have hinv' := mul_eq_one_comm.1 hinv
  refine ⟨bp.toList, ?_, Row.toList_length _, fun y => ⟨fun hy => ?_, fun hy => ?_⟩⟩
  · unfold Eig.solveVector
    rw [if_neg (by omega)]
    show (s.isNonSingular epsEd >>= _) = _
    rw [hs, ok_bind]
    simp only [Bool.not_true, Bool.false_eq_true, if_false]
    show (forUp 0 n _ _ >>= _) = _
    rw [e]
    rfl
  · rw [hsol, ← hy, Matrix.mulVec_mulVec, hinv', Matrix.one_mulVec]
  · rw [hy, hsol, Matrix.mulVec_mulVec, hinv, Matrix.one_mulVec]

theorem Eig.solveCol_exact {q : Nat} {s : Eig K n} {b : Mat K n q} {B : Nat → Nat → K} (hB : Shows b.at n q B)
    {k : Nat} (hk : k < q) (bp : Tab K n q) :
    ∃ bp' : Tab K n q, s.solveCol b k bp = .ok bp' ∧ (∀ x y, x < n → y ≠ k → bp'.f x y = bp.f x y) ∧
      ∀ x, x < n → bp'.f x k =
        ∑ i ∈ range n, (∑ j ∈ range n, s.vec.f i j * B j k) / s.re.f i * s.vec.f i x := by
  unfold Eig.solveCol
  obtain ⟨w, e, h1, h2, h3⟩ := Wp.exists_ok (wp_forUp (ε := Fault) (a := 0) (b := n)
    (body := fun i (w : Row K n × Tab K n q) => do
      let tmp ← w.1.set i (← b.at i k)
      let bp ← w.2.set i k Flt.zero
      return (tmp, bp)) (s := (Row.zero n, bp)) (E := fun _ => False)
    (fun i w => (∀ x, x < i → w.1.f x = B x k) ∧ (∀ x, x < i → w.2.f x k = 0) ∧
      ∀ x y, y ≠ k → w.2.f x y = bp.f x y) (by omega)
    ⟨fun x h => by omega, fun x h => by omega, fun _ _ _ => rfl⟩ (fun i w _ hi ⟨h1, h2, h3⟩ => by
      rw [hB.ok hi hk, ok_bind, Row.set_ok hi, ok_bind, Tab.set_ok hi hk, ok_bind]
      refine wp_of_eq_ok rfl ⟨fun x hx => ?_, fun x hx => ?_, fun x y hy => ?_⟩
      · simp only [upd1_eq]
        by_cases hxi : x = i
        · rw [if_pos hxi, hxi]
        · rw [if_neg hxi]; exact h1 x (by omega)
      · simp only [upd2_eq, Exact.zero_eq]
        by_cases hxi : x = i
        · rw [if_pos ⟨hxi, trivial⟩]
        · rw [if_neg (by omega)]; exact h2 x (by omega)
      · simp only [upd2_eq]
        rw [if_neg (by omega)]
        exact h3 x y hy))
  rw [e, ok_bind]
  obtain ⟨bp', e', h4, h5⟩ := Wp.exists_ok (wp_forUp (ε := Fault) (a := 0) (b := n)
    (body := fun i (bp : Tab K n q) => do
      let ss ← sumUp 0 n (fun j => do return Flt.mul (← s.vec.get i j) (← w.1.get j)) Flt.zero
      let re ← s.re.get i
      forUp 0 n (fun j (bp : Tab K n q) => do
        bp.set j k (Flt.add (← bp.get j k) (Flt.mul (Flt.div ss re) (← s.vec.get i j)))) bp) (s := w.2)
    (E := fun _ => False)
    (fun i bp' => (∀ x y, y ≠ k → bp'.f x y = bp.f x y) ∧ ∀ x, x < n → bp'.f x k =
        ∑ i ∈ range i, (∑ j ∈ range n, s.vec.f i j * B j k) / s.re.f i * s.vec.f i x) (by omega)
    ⟨h3, fun x hx => by rw [h2 x hx, range_zero, sum_empty]⟩ (fun i bp' _ hi ⟨h4, h5⟩ => by
      rw [sumUp_ok (fun j => s.vec.f i j * B j k) fun j _ hj => by
        rw [Tab.get_ok hi hj, ok_bind, Row.get_ok hj, ok_bind, h1 j hj, Exact.mul_eq]
        rfl, lsum_exact0, ok_bind, Row.get_ok hi, ok_bind]
      obtain ⟨t', e, k1, k2⟩ := Tab.colLoop (ε := Fault) (a := 0) (b := n) (j := k)
        (fun j x => x + (∑ y ∈ range n, s.vec.f i y * B y k) / s.re.f i * s.vec.f i j) (t := bp')
        (body := fun j (bp : Tab K n q) => do
          bp.set j k (Flt.add (← bp.get j k) (Flt.mul (Flt.div (∑ y ∈ range n, s.vec.f i y * B y k) (s.re.f i))
            (← s.vec.get i j)))) (fun j t' _ hj hkeep => by
          rw [Tab.get_ok hj hk, ok_bind, Tab.get_ok hi hj, ok_bind, Tab.set_ok hj hk, hkeep j k (by omega),
            Exact.add_eq, Exact.mul_eq, Exact.div_eq])
      rw [e]
      refine wp_of_eq_ok rfl ⟨fun x y hy => ?_, fun x hx => ?_⟩
      · rw [k2 x y (by omega), h4 x y hy]
      · rw [k1 x (by omega) hx, h5 x hx, sum_range_succ]))
  exact ⟨bp', e', fun x y _ hy => h4 x y hy, h5⟩

/-- **C65, `SolveMatrix`.** If `IsNonSingular` says yes, the result is the only solution of `M X = B`. -/
theorem C65_matrix {epsEd : K} (heps : 0 ≤ epsEd) {s : Eig K n} (hn : 0 < n)
    (him : ∀ i, i < n → s.im.f i = 0) {M : Matrix (Fin n) (Fin n) K}
    (h : Spectral (fun i k => s.vec.f k i) s.re.f M) (hs : s.isNonSingular epsEd = .ok true) {q : Nat} (hq : 0 < q)
    {b : Mat K n q} {B : Nat → Nat → K} (hB : Shows b.at n q B) :
    ∃ (x : Mat K n q) (X : Nat → Nat → K), s.solveMatrix epsEd b = .ok ⟨n, q, x⟩ ∧ x.own ∧ Shows x.at n q X ∧
      ∀ Y : Matrix (Fin n) (Fin q) K, M * Y = mx n q B ↔ Y = mx n q X := by
  have hne := Eig.nonzero heps him hs
  obtain ⟨bp, e, hbp⟩ := Wp.exists_ok (wp_forUp (ε := Fault) (a := 0) (b := q) (body := s.solveCol b)
    (s := (Jag.zero n _ : Tab K n q)) (E := fun _ => False)
    (fun k (bp : Tab K n q) => ∀ x y, x < n → y < k → bp.f x y =
      ∑ i ∈ range n, (∑ j ∈ range n, s.vec.f i j * B j y) / s.re.f i * s.vec.f i x) (by omega)
    (fun x y _ h => by omega) (fun k bp _ hk hI => by
      obtain ⟨bp', e, h1, h2⟩ := Eig.solveCol_exact (s := s) hB hk bp
      refine wp_of_eq_ok e fun x y hx hy => ?_
      by_cases hyk : y = k
      · subst hyk; exact h2 x hx
      · rw [h1 x y hx hyk, hI x y hx (by omega)]))
  obtain ⟨m, em, hm, -⟩ := Arr.copyIn_ok (Jag.toLists_rect bp) hn hq
  have hsol : mx n q bp.f = (mx n n fun a b => ∑ k ∈ range n, s.vec.f k a * (s.re.f k)⁻¹ * s.vec.f k b) *
      mx n q B := by
    rw [mx_mul]
    refine mx_congr fun a y ha hy => ?_
    rw [hbp a y ha hy]
    simp only [sum_mul, div_eq_mul_inv]
    rw [sum_comm]
    exact sum_congr rfl fun y _ => sum_congr rfl fun k _ => by ring
  have hinv := h.inv hne
  have hinv' := mul_eq_one_comm.1 hinv
  refine ⟨.arr m, bp.f, ?_, trivial, (Mat.at_shows (.arr m)).congr fun i j hi hj => ?_,
    fun Y => ⟨fun hY => ?_, fun hY => ?_⟩⟩
  · unfold Eig.solveMatrix
    rw [if_neg (by omega)]
    show (s.isNonSingular epsEd >>= _) = _
    rw [hs, ok_bind]
    simp only [Bool.not_true, Bool.false_eq_true, if_false]
    show (b.colDim >>= _) = _
    rw [Mat.colDim_ok hn, ok_bind, e, ok_bind, em]
    rfl
  · rw [← hm i j hi hj]
    rfl
  · rw [hsol, ← hY, ← Matrix.mul_assoc, hinv', Matrix.one_mul]
  · rw [hY, hsol, ← Matrix.mul_assoc, hinv, Matrix.one_mul]

/-- **C65.** Right-hand sides of the wrong size are refused first, and then singular decompositions. -/
theorem C65_refused (epsEd : K) (s : Eig K n) :
    (∀ b : RVec K, b.dim ≠ n → s.solveVector epsEd b = .error (.pan .dim)) ∧
    (∀ (p q : Nat) (b : Mat K p q), p ≠ n → s.solveMatrix epsEd b = .error (.pan .dim)) ∧
    (s.isNonSingular epsEd = .ok false →
      (∀ b : RVec K, b.dim = n → s.solveVector epsEd b = .error (.pan .sing)) ∧
      ∀ (q : Nat) (b : Mat K n q), s.solveMatrix epsEd b = .error (.pan .sing)) := by
  refine ⟨fun b hb => ?_, fun p q b hp => ?_, fun hs => ⟨fun b hb => ?_, fun q b => ?_⟩⟩
  · unfold Eig.solveVector
    rw [if_pos hb]
    rfl
  · unfold Eig.solveMatrix
    rw [if_pos hp]
    rfl
  · unfold Eig.solveVector
    rw [if_neg (by omega)]
    show (s.isNonSingular epsEd >>= _) = _
    rw [hs]
    rfl
  · unfold Eig.solveMatrix
    rw [if_neg (by omega)]
    show (s.isNonSingular epsEd >>= _) = _
    rw [hs]
    rfl

/-! ## C66: the square root -/

/-- **C66, `SquareRoot`.** When all eigenvalues are positive, the result `R` is symmetric, has the square roots of
the eigenvalues as its eigenvalues, and `R * R = M`. -/
theorem C66_squareRoot {s : Eig K n} (hn : 0 < n) (hsym : s.sym = true) {M : Matrix (Fin n) (Fin n) K}
    (h : Spectral (fun i k => s.vec.f k i) s.re.f M) (hpos : ∀ i, i < n → 0 < s.re.f i) :
    ∃ (mr : Mat K n n) (R : Nat → Nat → K) (l : Nat → K), s.squareRoot = .ok ⟨n, n, mr⟩ ∧ mr.own ∧
      Shows mr.at n n R ∧ mx n n R * mx n n R = M ∧ (mx n n R)ᵀ = mx n n R ∧
      Spectral (fun i k => s.vec.f k i) l (mx n n R) ∧ ∀ i, i < n → 0 < l i := by
  obtain ⟨w, e, hw, -⟩ := Row.loop (ε := Fault) (a := 0) (b := n) (fun i _ => Flt.sqrt (s.re.f i)) (t := Row.zero n)
    (body := fun i (v : Row K n) => do
      let x ← s.re.get i
      if Flt.le x Flt.zero then throw (.pan .unsup)
      v.set i (Flt.sqrt x)) (fun i t' _ hi _ => by
      rw [Row.get_ok hi, ok_bind, if_neg (by simp [hpos i hi])]
      show t'.set i _ = _
      rw [Row.set_ok hi])
  obtain ⟨md, ed, hd⟩ := (C02_dia (v := w.toList) (Row.toList_isList w)).1
  obtain ⟨mv, mvt, e1, e2, h1, h2, h3, h4⟩ := C64_vectors s hn
  obtain ⟨m1, e3, h5, h6⟩ := C10_product h1 hn hn hn h3 (b := .dia md) hd
  obtain ⟨m2, e4, h7, h8⟩ := C10_product h5 hn hn hn h6 h4
  have hV : Spectral (fun i k => s.vec.f k i) w.f (mx n n fun i j => ∑ k ∈ range n,
      (∑ y ∈ range n, s.vec.f y i * Spec.diag w.f y k) * s.vec.f k j) := by
    refine ⟨h.1, ?_⟩
    rw [← mx_dg, mx_transpose, mx_mul, mx_mul]
    refine mx_congr fun a b ha hb => sum_congr rfl fun k hk => ?_
    congr 1
    refine sum_congr rfl fun y hy => ?_
    unfold Spec.diag Eig.dg
    rw [Exact.zero_eq]
  have hw2 : ∀ i, i < n → w.f i * w.f i = s.re.f i := fun i hi => by
    rw [hw i (by omega) hi]; exact ExactSqrt.sqrt_mul_self _ (hpos i hi).le
  refine ⟨m2, _, w.f, ?_, h7, h8, ?_, hV.symm, hV, fun i hi => ?_⟩
  · unfold Eig.squareRoot SMat.diagonal Eig.roots SMat.multiply
    simp only [hsym, Bool.not_true, Bool.false_eq_true, if_false]
    show (forUp 0 n _ _ >>= _) = _
    rw [e, ok_bind, ed]
    show (s.v >>= _) = _
    rw [e1, ok_bind, e2, ok_bind]
    show (mv.multiply (.dia md) >>= _) = _
    rw [e3, ok_bind]
    exact e4
  · exact ((hV.mul hV).congr fun i hi => (hw2 i hi).symm).unique h
  · refine lt_of_le_of_ne ?_ fun h0 => ?_
    · rw [hw i (by omega) hi]; exact ExactSqrt.sqrt_nonneg _
    · have := hw2 i hi
      rw [← h0, mul_zero] at this
      exact (hpos i hi).ne this

/-- **C66.** It is refused when the matrix was not symmetric, and when an eigenvalue is not positive. -/
theorem C66_refused (s : Eig K n) :
    (s.sym = false → s.squareRoot = .error (.pan .unsup)) ∧
    (∀ i, i < n → s.re.f i ≤ 0 → s.squareRoot = .error (.pan .unsup)) := by
  have h1 : s.sym = false → s.squareRoot = .error (.pan .unsup) := by
    intro h
    unfold Eig.squareRoot
    simp only [h, Bool.not_false, if_true]
    rfl
  refine ⟨h1, fun i hi hle => ?_⟩
  by_cases hs : s.sym = false
  · exact h1 hs
  · rw [Bool.not_eq_false] at hs
    unfold Eig.squareRoot
    simp only [hs, Bool.not_true, Bool.false_eq_true, if_false]
    show (s.roots >>= _) = _
    have : Wp s.roots (fun _ => ∀ i, i < n → ¬ s.re.f i ≤ 0) (fun f => f = .pan .unsup) := by
      unfold Eig.roots
      refine wp_forUp (ε := Fault) (fun b _ => ∀ i, i < b → ¬ s.re.f i ≤ 0) (by omega) (fun i h => by omega) ?_
      intro k v _ hk hI
      rw [Row.get_ok hk, ok_bind]
      by_cases hc : s.re.f k ≤ 0
      · rw [if_pos (by simp [hc])]
        exact (wp_error _).2 rfl
      · rw [if_neg (by simpa using hc)]
        show Wp (v.set k _) _ _
        rw [Row.set_ok hk]
        refine wp_of_eq_ok rfl fun y hy => ?_
        by_cases hyk : y = k
        · rw [hyk]; exact hc
        · exact hI y (by omega)
    rcases e : s.roots with f | v
    · rw [this.of_error e]; rfl
    · exact absurd hle (this.of_ok e i hi)

/-! ## C64: which branch the constructor takes -/

/-- **C64.** A square matrix is taken as symmetric exactly when each pair of mirrored entries differs by at most
the tolerance times the larger absolute value; a matrix that is not square never is. -/
theorem C64_branch {r c : Nat} (hr : 0 < r) {a : Mat K r c} {A : Nat → Nat → K} (hA : Shows a.at r c A) (tol : K) :
    ∃ b, isSymmetric a tol = .ok b ∧ (b = true ↔ r = c ∧ ∀ i j, i < j → j < r →
      |A i j - A j i| ≤ max |A i j| |A j i| * tol) := by
  unfold isSymmetric
  rw [Mat.colDim_ok hr, ok_bind]
  by_cases hrc : r = c
  · subst hrc
    rw [if_neg (by simp)]
    have hin : ∀ i, i < r → ∃ t, forUpBrk (i + 1) r (fun j (_ : Unit) => (do
          let x ← a.at i j
          let y ← a.at j i
          return if Flt.lt (Flt.mul (Flt.fmax (Flt.abs x) (Flt.abs y)) tol) (Flt.abs (Flt.sub x y)) then .inr ()
            else .inl () : Res (Unit ⊕ Unit))) () = .ok t ∧
        Sum.elim (fun _ : Unit => ∀ j, i < j → j < r → |A i j - A j i| ≤ max |A i j| |A j i| * tol)
          (fun _ : Unit => ∃ j, i < j ∧ j < r ∧ ¬ |A i j - A j i| ≤ max |A i j| |A j i| * tol) t := by
      intro i hi
      refine Wp.exists_ok ((wp_forUpBrk (ε := Fault) (E := fun _ => False)
        (fun b (_ : Unit) => ∀ j, i < j → j < b → |A i j - A j i| ≤ max |A i j| |A j i| * tol)
        (fun _ : Unit => ∃ j, i < j ∧ j < r ∧ ¬ |A i j - A j i| ≤ max |A i j| |A j i| * tol) (by omega)
        (fun j h1 h2 => by omega) (fun j u h1 hj hI => ?_)))
      rw [hA.ok hi hj, ok_bind, hA.ok hj hi, ok_bind]
      refine wp_of_eq_ok rfl ?_
      simp only [Exact.lt_eq, Exact.mul_eq, Exact.max_eq, Exact.abs_eq, Exact.sub_eq, decide_eq_true_eq]
      split
      · next h => exact ⟨j, by omega, hj, not_le.2 h⟩
      · next h =>
        intro y h2 h3
        by_cases hyj : y = j
        · subst hyj; exact not_lt.1 h
        · exact hI y h2 (by omega)
    obtain ⟨t, e, ht⟩ := Wp.exists_ok (wp_forUpBrk (ε := Fault) (a := 0) (b := r) (s := ())
      (body := fun i (_ : Unit) => (do
        let t ← forUpBrk (i + 1) r (fun j (_ : Unit) => do
          let x ← a.at i j
          let y ← a.at j i
          return if Flt.lt (Flt.mul (Flt.fmax (Flt.abs x) (Flt.abs y)) tol) (Flt.abs (Flt.sub x y)) then .inr ()
            else .inl ()) ()
        return t : Res (Unit ⊕ Unit))) (E := fun _ => False)
      (fun b (_ : Unit) => ∀ i j, i < b → i < j → j < r → |A i j - A j i| ≤ max |A i j| |A j i| * tol)
      (fun _ : Unit => ∃ i j, i < j ∧ j < r ∧ ¬ |A i j - A j i| ≤ max |A i j| |A j i| * tol) (by omega)
      (fun i j h => by omega) (fun i u _ hi hI => by
        obtain ⟨t, e, ht⟩ := hin i hi
        rw [e]
        refine wp_of_eq_ok rfl ?_
        rcases t with t | t
        · intro x y hx hxy hy
          by_cases hxi : x = i
          · subst hxi; exact ht y hxy hy
          · exact hI x y (by omega) hxy hy
        · obtain ⟨j, h⟩ := ht
          exact ⟨i, j, h⟩))
    show ∃ b, (forUpBrk 0 r _ _ >>= _) = _ ∧ _
    rw [e, ok_bind]
    rcases t with t | t
    · exact ⟨true, rfl, fun _ => ⟨rfl, fun i j hij hj => ht i j (by omega) hij hj⟩, fun _ => rfl⟩
    · obtain ⟨i, j, h1, h2, h3⟩ := ht
      exact ⟨false, rfl, by simp, fun ⟨_, h⟩ => absurd (h i j h1 h2) h3⟩
  · rw [if_pos hrc]
    exact ⟨false, rfl, by simp, fun h => absurd h.1 hrc⟩

/-- **C41 for the public constructor.** Every symmetric matrix goes to the symmetric branch, whatever the
tolerance and the literals of the other branch. If the iteration succeeds, the eigenvalues are real and sorted, and
`V * D * VT` differs from the matrix by at most `sqrt (8 n) * eps` times its norm. -/
theorem C41_symmetric (σ : Schur.Lit K) (κ : Eig.Lit K) (heps : 0 ≤ κ.eps) {symTol : K} (htol : 0 ≤ symTol)
    (fuel : Nat) {a : Mat K n n} (ha : a.own) (hn : 0 < n) {A : Nat → Nat → K} (hA : Shows a.at n n A)
    (hS : ∀ i j, i < n → j < n → A i j = A j i) :
    (∃ s, Eig.new σ κ symTol fuel a = .ok (some s) ∧ s.sym = true ∧ (∀ i, i < n → s.im.f i = 0) ∧
      (∀ i j, i < j → j < n → s.re.f j ≤ s.re.f i) ∧
      ∃ M : Matrix (Fin n) (Fin n) K, Spectral (fun i k => s.vec.f k i) s.re.f M ∧
        fro2 (M - mx n n A) ≤ 8 * n * κ.eps ^ 2 * fro2 (mx n n A)) ∨
    Eig.new σ κ symTol fuel a = .error (.err .maxIter) := by
  obtain ⟨b, e, hb⟩ := C64_branch hn hA symTol
  have hbt : b = true := hb.2 ⟨rfl, fun i j hij hj => by
    rw [hS i j (by omega) hj, sub_self, abs_zero]
    exact mul_nonneg (le_max_of_le_left (abs_nonneg _)) htol⟩
  have hSU : mx n n (symU A) = mx n n A := by
    refine mx_congr fun i j hi hj => ?_
    unfold symU
    split
    · rfl
    · exact hS j i hj hi
  unfold Eig.new
  rw [e, ok_bind, hbt, if_pos rfl]
  rcases C42_constructor κ.eps ha hn with ⟨s, es⟩ | es
  · left
    rw [es]
    have := C41_decomposition heps ha hn hA es
    rw [hSU] at this
    exact ⟨s, rfl, this⟩
  · right
    rw [es]
    rfl

end exact

/-! ## Concrete cases, and where the code and the documentation disagree -/

/-- A symmetric matrix that is not diagonal. -/
def Spec.eigReal : Mat ℝ 2 2 := .arr ⟨⟨fun i j => if i = j then 2 else 1⟩, fun _ => 0⟩

/-- A concrete matrix meets the hypotheses of C41, C53, C64, C65 and C66: it is decomposed, nothing is removed, and
the determinant is 3. -/
example : ∃ s : Eig ℝ 2, Eig.newSym 0 eigReal = .ok s ∧ s.det = .ok 3 ∧ s.isNonSingular 0 = .ok true := by
  have ho : eigReal.own := trivial
  obtain ⟨s, e⟩ := C42_two (0 : ℝ) ho
  have hd : (mx 2 2 eigReal.ent).det = 3 := by
    rw [Matrix.det_fin_two]
    simp [mx, Mat.ent, eigReal]
    norm_num
  have h1 := C53_symmetric_partial ho (by omega) eigReal.at_shows (fun i j _ _ => by
    simp only [Mat.ent, eigReal, eq_comm]) e
  refine ⟨s, e, by rw [h1, hd], ?_⟩
  obtain ⟨-, him, -, -⟩ := C41_decomposition (le_refl 0) ho (by omega) eigReal.at_shows e
  obtain ⟨b, eb, hb⟩ := C65_isNonSingular (le_refl (0 : ℝ)) him
  have hsp := C41_exact ho (by omega) eigReal.at_shows e
  have hdet := C53_product hsp
  rw [h1, hd] at hdet
  have hprod : (3 : ℝ) = s.re.f 0 * s.re.f 1 := by
    have := Except.ok.inj hdet
    rw [this, hsp.det]
    simp [prod_range_succ]
  have hne : ∀ i, i < 2 → s.re.f i ≠ 0 := by
    intro i hi h0
    rcases (by omega : i = 0 ∨ i = 1) with rfl | rfl <;> (rw [h0] at hprod; norm_num at hprod)
  rw [eb, hb.2 ⟨⟨0, by omega, hne 0 (by omega)⟩, fun i k hi _ => by
    rw [zero_mul]; exact abs_pos.2 (hne i hi)⟩]

/-- Literals for the rational examples; division of complex numbers is the usual one. -/
def Spec.eigLit : Eig.Lit ℚ := ⟨1 / 1000, 1 / 1000, 1 / 2, fun a b =>
  ((a.1 * b.1 + a.2 * b.2) / (b.1 * b.1 + b.2 * b.2), (a.2 * b.1 - a.1 * b.2) / (b.1 * b.1 + b.2 * b.2))⟩

/-- A rotation by a right angle: eigenvalues `i` and `-i`, determinant 1. -/
def Spec.eigTurn : Mat ℚ 2 2 := .arr ⟨⟨fun i j => if i = j then 0 else if i < j then -1 else 1⟩, fun _ => 0⟩

/-- An upper triangular matrix with eigenvalues 2 and 1. -/
def Spec.eigTriang : Mat ℚ 2 2 :=
  .arr ⟨⟨fun i j => if i = j then (if i = 0 then 2 else 1) else if i < j then 1 else 0⟩, fun _ => 0⟩

/-- **C53, code and documentation disagree.** `Determinant` multiplies the real parts of the eigenvalues: for a
rotation by a right angle it returns 0, and the determinant is 1. So C53 holds for symmetric matrices only. -/
theorem C53_general_false : ∃ s, Eig.new schurLit eigLit (1 / 1000) 202 eigTurn = .ok (some s) ∧ s.det = .ok 0 ∧
    (mx 2 2 eigTurn.ent).det = 1 := by
  have h : (Eig.new schurLit eigLit (1 / 1000) 202 eigTurn).toOption.map (·.map (fun s => s.det.toOption)) =
      some (some (some 0)) := by decide +kernel
  have hd : (mx 2 2 eigTurn.ent).det = 1 := by
    rw [Matrix.det_fin_two]
    simp [mx, Mat.ent, eigTurn]
  cases e : Eig.new schurLit eigLit (1 / 1000) 202 eigTurn with
  | error x => rw [e] at h; cases h
  | ok o =>
    cases o with
    | none => rw [e] at h; cases h
    | some s =>
      rw [e] at h
      have h' : s.det.toOption = some 0 := Option.some.inj (Option.some.inj h)
      refine ⟨s, rfl, ?_, hd⟩
      cases e' : s.det with
      | error x => rw [e'] at h'; cases h'
      | ok x => rw [e'] at h'; exact congrArg _ (Option.some.inj h')

/-- **C65, code and documentation disagree.** The solver accepts every matrix with real eigenvalues, but its formula
needs orthonormal vectors. For `[[2, 1], [0, 1]]` and the right-hand side `(1, 1)` it returns `(1/2, 0)`, and the
solution is `(0, 1)`. So C65 holds for symmetric matrices only. -/
theorem C65_general_false : ∃ s, Eig.new schurLit eigLit (1 / 1000) 202 eigTriang = .ok (some s) ∧
    s.solver (1 / 1000) = .ok () ∧ s.solveVector (1 / 1000) (.arr [1, 1]) = .ok [1 / 2, 0] ∧
    (mx 2 2 eigTriang.ent).mulVec ![1 / 2, 0] ≠ ![1, 1] := by
  have h : (Eig.new schurLit eigLit (1 / 1000) 202 eigTriang).toOption.map
      (·.map (fun s => ((s.solver (1 / 1000)).toOption, (s.solveVector (1 / 1000) (.arr [1, 1])).toOption))) =
      some (some (some (), some [1 / 2, 0])) := by decide +kernel
  have hd : (mx 2 2 eigTriang.ent).mulVec ![1 / 2, 0] ≠ ![1, 1] := by
    intro h
    have := congrFun h 1
    simp [Matrix.mulVec, dotProduct, Fin.sum_univ_two, mx, Mat.ent, eigTriang] at this
  cases e : Eig.new schurLit eigLit (1 / 1000) 202 eigTriang with
  | error x => rw [e] at h; cases h
  | ok o =>
    cases o with
    | none => rw [e] at h; cases h
    | some s =>
      rw [e] at h
      have h' : ((s.solver (1 / 1000)).toOption, (s.solveVector (1 / 1000) (.arr [1, 1])).toOption) =
        (some (), some [1 / 2, 0]) := Option.some.inj (Option.some.inj h)
      obtain ⟨h1, h2⟩ := Prod.mk.inj h'
      refine ⟨s, rfl, ?_, ?_, hd⟩
      · cases e' : s.solver (1 / 1000) with
        | error x => rw [e'] at h1; cases h1
        | ok x => rfl
      · cases e' : s.solveVector (1 / 1000) (.arr [1, 1]) with
        | error x => rw [e'] at h2; cases h2
        | ok x => rw [e'] at h2; exact congrArg _ (Option.some.inj h2)

end Linear
