import Verif.Props.RoundSvdRed
import Verif.Props.RoundEig
import Mathlib.Analysis.Matrix.Spectrum
import Mathlib.Analysis.Matrix.PosDef

/-!
# Weyl's inequalities for eigenvalues and singular values of real matrices
-/

set_option linter.unusedSectionVars false

namespace Linear

open Spec Matrix
open Finset hiding val diag

variable {m n : Nat}

/-- `l` are the eigenvalues of the symmetric matrix `S`, with multiplicities and from the largest to the smallest. -/
structure Spec.IsEv (S : Matrix (Fin n) (Fin n) ℝ) (l : Nat → ℝ) : Prop where
  sorted : ∀ i j, i ≤ j → j < n → l j ≤ l i
  diag : ∃ O : Matrix (Fin n) (Fin n) ℝ, Oᵀ * O = 1 ∧ S = O * Matrix.diagonal (fun i : Fin n => l i) * Oᵀ

/-- `σ` are the singular values of `A`, with multiplicities and from the largest to the smallest: the square roots of the eigenvalues of
`Aᵀ A`. -/
structure Spec.IsSv (A : Matrix (Fin m) (Fin n) ℝ) (σ : Nat → ℝ) : Prop where
  pos : ∀ i, i < n → 0 ≤ σ i
  sorted : ∀ i j, i ≤ j → j < n → σ j ≤ σ i
  gram : IsEv (Aᵀ * A) fun i => σ i ^ 2

theorem fro_sq (M : Matrix (Fin m) (Fin n) ℝ) : fro M ^ 2 = ∑ i, ∑ j, M i j ^ 2 :=
  Real.sq_sqrt (Finset.sum_nonneg fun _ _ => Finset.sum_nonneg fun _ _ => sq_nonneg _)

theorem fro_pos_of_ne {M : Matrix (Fin m) (Fin n) ℝ} (h : M ≠ 0) : 0 < fro M := by
  rcases (fro_nonneg M).lt_or_eq with h1 | h1
  · exact h1
  · refine absurd ?_ h
    ext i j
    have h2 := fro_sq M
    rw [← h1] at h2
    have h3 : ∑ i, ∑ j, M i j ^ 2 = 0 := by rw [← h2]; norm_num
    have h4 := (Finset.sum_eq_zero_iff_of_nonneg fun _ _ => Finset.sum_nonneg fun _ _ => sq_nonneg _).1 h3 i (Finset.mem_univ _)
    have h5 := (Finset.sum_eq_zero_iff_of_nonneg fun _ _ => sq_nonneg _).1 h4 j (Finset.mem_univ _)
    simpa using h5

theorem fro_vec_sq (x : Matrix (Fin n) (Fin 1) ℝ) : fro x ^ 2 = ∑ i, x i 0 ^ 2 := by
  rw [fro_sq]
  exact Finset.sum_congr rfl fun i _ => by rw [Fin.sum_univ_one]

/-- The quadratic form of a diagonalised matrix. -/
theorem quad_diag {S O : Matrix (Fin n) (Fin n) ℝ} {l : Fin n → ℝ} (hS : S = O * Matrix.diagonal l * Oᵀ)
    (x : Matrix (Fin n) (Fin 1) ℝ) : (xᵀ * S * x) 0 0 = ∑ i, l i * (Oᵀ * x) i 0 ^ 2 := by
  have e : xᵀ * S * x = (Oᵀ * x)ᵀ * (Matrix.diagonal l * (Oᵀ * x)) := by
    rw [hS, Matrix.transpose_mul, Matrix.transpose_transpose]
    simp only [Matrix.mul_assoc]
  rw [e, Matrix.mul_apply]
  refine Finset.sum_congr rfl fun i _ => ?_
  rw [Matrix.diagonal_mul, Matrix.transpose_apply]
  ring

/-- The first `i + 1` columns of one orthogonal matrix and the last `n - i` of another one have a common direction. -/
theorem common_dir {O P : Matrix (Fin n) (Fin n) ℝ} (hO : Oᵀ * O = 1) {i : Nat} (hi : i < n) :
    ∃ x : Matrix (Fin n) (Fin 1) ℝ, x ≠ 0 ∧ (∀ j : Fin n, i < j.1 → (Oᵀ * x) j 0 = 0) ∧ ∀ j : Fin n, j.1 < i → (Pᵀ * x) j 0 = 0 := by
  let f : (Fin (i + 1) → ℝ) →ₗ[ℝ] (Fin i → ℝ) :=
    Matrix.mulVecLin (Matrix.of fun (k : Fin i) (j : Fin (i + 1)) => (Pᵀ * O) ⟨k, by omega⟩ ⟨j, by omega⟩)
  have hk : LinearMap.ker f ≠ ⊥ := LinearMap.ker_ne_bot_of_finrank_lt (by simp)
  obtain ⟨y, hy, y0⟩ := (Submodule.ne_bot_iff _).1 hk
  have hy' : f y = 0 := hy
  let z : Matrix (Fin n) (Fin 1) ℝ := Matrix.of fun j _ => if h : j.1 < i + 1 then y ⟨j, h⟩ else 0
  have hz : Oᵀ * (O * z) = z := by rw [← Matrix.mul_assoc, hO, Matrix.one_mul]
  refine ⟨O * z, fun h => y0 ?_, fun j hj => ?_, fun j hj => ?_⟩
  · rw [h, Matrix.mul_zero] at hz
    funext k
    have := congrFun (congrFun hz ⟨k, by omega⟩) 0
    simp only [z, Matrix.of_apply, Matrix.zero_apply] at this
    rw [dif_pos k.2] at this
    exact this.symm
  · rw [hz]
    simp only [z, Matrix.of_apply]
    rw [dif_neg (by omega)]
  · have h1 := congrFun hy' ⟨j, hj⟩
    simp only [f, Matrix.mulVecLin_apply, Matrix.mulVec, dotProduct, Matrix.of_apply, Pi.zero_apply] at h1
    rw [← Matrix.mul_assoc, Matrix.mul_apply, ← h1]
    have h2 : ∀ k : Fin n, (Pᵀ * O) j k * z k 0 = if h : k.1 < i + 1 then (Pᵀ * O) j k * y ⟨k, h⟩ else 0 := fun k => by
      simp only [z, Matrix.of_apply]
      split
      · rfl
      · rw [mul_zero]
    rw [Finset.sum_congr rfl fun k _ => h2 k]
    let emb : Fin (i + 1) ↪ Fin n := Fin.castLEEmb (by omega : i + 1 ≤ n)
    rw [← Finset.sum_subset (Finset.subset_univ (Finset.univ.map emb)), Finset.sum_map]
    · refine Finset.sum_congr rfl fun k _ => ?_
      show dite _ _ _ = _
      rw [dif_pos (show (emb k).1 < i + 1 from k.2)]
      rfl
    · intro k _ hk
      rw [dif_neg]
      intro h
      exact hk (Finset.mem_map.2 ⟨⟨k, h⟩, Finset.mem_univ _, rfl⟩)

theorem fro_orth_tr {O : Matrix (Fin n) (Fin n) ℝ} (hO : Oᵀ * O = 1) (x : Matrix (Fin n) (Fin 1) ℝ) : fro (Oᵀ * x) = fro x :=
  fro_left (by rw [Matrix.transpose_transpose]; exact mul_eq_one_comm.1 hO) x

/-- The direction in which the first eigenvalues of `S` meet the last ones of `T`. -/
theorem weyl_dir {S T : Matrix (Fin n) (Fin n) ℝ} {l k : Nat → ℝ} (hS : IsEv S l) (hT : IsEv T k) {i : Nat} (hi : i < n) :
    ∃ x : Matrix (Fin n) (Fin 1) ℝ, 0 < fro x ∧ l i * fro x ^ 2 ≤ (xᵀ * S * x) 0 0 ∧ (xᵀ * T * x) 0 0 ≤ k i * fro x ^ 2 := by
  obtain ⟨s1, O, oO, eS⟩ := hS
  obtain ⟨s2, P, oP, eT⟩ := hT
  obtain ⟨x, x0, h1, h2⟩ := common_dir (P := P) oO hi
  refine ⟨x, fro_pos_of_ne x0, ?_, ?_⟩
  · rw [← fro_orth_tr oO x, quad_diag eS, fro_vec_sq, Finset.mul_sum]
    refine Finset.sum_le_sum fun j _ => ?_
    rcases le_or_gt j.1 i with h | h
    · exact mul_le_mul_of_nonneg_right (s1 j i h hi) (sq_nonneg _)
    · rw [h1 j h]; simp
  · rw [← fro_orth_tr oP x, quad_diag eT, fro_vec_sq, Finset.mul_sum]
    refine Finset.sum_le_sum fun j _ => ?_
    rcases le_or_gt i j.1 with h | h
    · exact mul_le_mul_of_nonneg_right (s2 i j h j.2) (sq_nonneg _)
    · rw [h2 j h]; simp

theorem fro_mul_le' {p : Nat} (M : Matrix (Fin m) (Fin p) ℝ) (N : Matrix (Fin p) (Fin n) ℝ) : fro (M * N) ≤ fro M * fro N :=
  fro_mul_le M N

theorem one_entry (M : Matrix (Fin 1) (Fin 1) ℝ) : |M 0 0| = fro M := by
  unfold fro
  rw [Fin.sum_univ_one, Fin.sum_univ_one, Real.sqrt_sq_eq_abs]

theorem weyl_ev_half {S T : Matrix (Fin n) (Fin n) ℝ} {l k : Nat → ℝ} (hS : IsEv S l) (hT : IsEv T k) {i : Nat} (hi : i < n) :
    l i ≤ k i + fro (S - T) := by
  obtain ⟨x, x0, h1, h2⟩ := weyl_dir hS hT hi
  have e : (xᵀ * S * x) 0 0 = (xᵀ * T * x) 0 0 + (xᵀ * (S - T) * x) 0 0 := by
    rw [Matrix.mul_sub, Matrix.sub_mul, Matrix.sub_apply]; ring
  have h3 : (xᵀ * (S - T) * x) 0 0 ≤ fro (S - T) * fro x ^ 2 := by
    refine (le_abs_self _).trans ?_
    rw [one_entry]
    refine (fro_mul_le' _ _).trans ((mul_le_mul_of_nonneg_right (fro_mul_le' _ _) (fro_nonneg x)).trans_eq ?_)
    rw [fro_transpose]; ring
  have h4 : l i * fro x ^ 2 ≤ (k i + fro (S - T)) * fro x ^ 2 := by linarith
  exact le_of_mul_le_mul_right h4 (by positivity)

theorem fro_sub_comm (M N : Matrix (Fin m) (Fin n) ℝ) : fro (M - N) = fro (N - M) := by
  rw [← fro_neg, neg_sub]

/-- **Weyl**: the eigenvalues of two symmetric matrices differ by no more than the matrices. -/
theorem weyl_ev {S T : Matrix (Fin n) (Fin n) ℝ} {l k : Nat → ℝ} (hS : IsEv S l) (hT : IsEv T k) {i : Nat} (hi : i < n) :
    |l i - k i| ≤ fro (S - T) := by
  have h1 := weyl_ev_half hS hT hi
  have h2 := weyl_ev_half hT hS hi
  rw [fro_sub_comm] at h2
  rw [abs_le]
  constructor <;> linarith

theorem gram_quad (A : Matrix (Fin m) (Fin n) ℝ) (x : Matrix (Fin n) (Fin 1) ℝ) : (xᵀ * (Aᵀ * A) * x) 0 0 = fro (A * x) ^ 2 := by
  have e : xᵀ * (Aᵀ * A) * x = (A * x)ᵀ * (A * x) := by
    rw [Matrix.transpose_mul]; simp only [Matrix.mul_assoc]
  rw [e, fro_vec_sq, Matrix.mul_apply]
  exact Finset.sum_congr rfl fun i _ => by rw [Matrix.transpose_apply, pow_two]

theorem weyl_sv_half {A B : Matrix (Fin m) (Fin n) ℝ} {s t : Nat → ℝ} (hA : IsSv A s) (hB : IsSv B t) {i : Nat} (hi : i < n) :
    s i ≤ t i + fro (A - B) := by
  obtain ⟨x, x0, h1, h2⟩ := weyl_dir hA.gram hB.gram hi
  rw [gram_quad, ← mul_pow] at h1 h2
  have h1' := (sq_le_sq₀ (mul_nonneg (hA.pos i hi) x0.le) (fro_nonneg _)).1 h1
  have h2' := (sq_le_sq₀ (fro_nonneg _) (mul_nonneg (hB.pos i hi) x0.le)).1 h2
  have h3 : fro (A * x) ≤ fro (B * x) + fro (A - B) * fro x := by
    have e : A * x = B * x + (A - B) * x := by rw [Matrix.sub_mul]; abel
    rw [e]
    exact (fro_add_le _ _).trans (add_le_add le_rfl (fro_mul_le' _ _))
  have h4 : s i * fro x ≤ (t i + fro (A - B)) * fro x := by linarith
  exact le_of_mul_le_mul_right h4 x0

/-- **Weyl**: the singular values of two matrices differ by no more than the matrices. -/
theorem weyl_sv {A B : Matrix (Fin m) (Fin n) ℝ} {s t : Nat → ℝ} (hA : IsSv A s) (hB : IsSv B t) {i : Nat} (hi : i < n) :
    |s i - t i| ≤ fro (A - B) := by
  have h1 := weyl_sv_half hA hB hi
  have h2 := weyl_sv_half hB hA hi
  rw [fro_sub_comm] at h2
  rw [abs_le]
  constructor <;> linarith

/-- Factors with orthonormal columns give the singular values. -/
theorem isSv_of_factors {U : Matrix (Fin m) (Fin n) ℝ} {V : Matrix (Fin n) (Fin n) ℝ} {σ : Nat → ℝ} (hU : Uᵀ * U = 1)
    (hV : Vᵀ * V = 1) (h0 : ∀ i, i < n → 0 ≤ σ i) (h1 : ∀ i j, i ≤ j → j < n → σ j ≤ σ i) :
    IsSv (U * Matrix.diagonal (fun i : Fin n => σ i) * Vᵀ) σ := by
  refine ⟨h0, h1, fun i j hij hj => pow_le_pow_left₀ (h0 j hj) (h1 i j hij hj) 2, V, hV, ?_⟩
  rw [Matrix.transpose_mul, Matrix.transpose_mul, Matrix.transpose_transpose, Matrix.diagonal_transpose]
  have e : V * (Matrix.diagonal (fun i : Fin n => σ i) * Uᵀ) * (U * Matrix.diagonal (fun i : Fin n => σ i) * Vᵀ) =
      V * (Matrix.diagonal (fun i : Fin n => σ i) * (Uᵀ * U) * Matrix.diagonal (fun i : Fin n => σ i)) * Vᵀ := by
    simp only [Matrix.mul_assoc]
  rw [e, hU, Matrix.mul_one, Matrix.diagonal_mul_diagonal]
  simp only [pow_two]

/-- Every symmetric matrix has eigenvalues in this sense. -/
theorem exists_isEv {S : Matrix (Fin n) (Fin n) ℝ} (hS : Sᵀ = S) : ∃ l, IsEv S l := by
  have hH : S.IsHermitian := by
    show Sᴴ = S
    rw [Matrix.conjTranspose_eq_transpose_of_trivial]; exact hS
  let f : Fin n → ℝ := hH.eigenvalues
  -- sort the eigenvalues
  let p : Equiv.Perm (Fin n) := Tuple.sort fun i => - f i
  have mono := Tuple.monotone_sort fun i => - f i
  let O : Matrix (Fin n) (Fin n) ℝ := hH.eigenvectorUnitary
  have hO : Oᵀ * O = 1 := by
    have := Unitary.coe_star_mul_self hH.eigenvectorUnitary
    rwa [Matrix.star_eq_conjTranspose, Matrix.conjTranspose_eq_transpose_of_trivial] at this
  have hd : S = O * Matrix.diagonal f * Oᵀ := by
    have := hH.spectral_theorem
    rw [Unitary.conjStarAlgAut_apply, Matrix.star_eq_conjTranspose, Matrix.conjTranspose_eq_transpose_of_trivial] at this
    exact this
  refine ⟨fun i => if h : i < n then f (p ⟨i, h⟩) else 0, fun i j hij hj => ?_, O.submatrix id p, ?_, ?_⟩
  · rw [dif_pos hj, dif_pos (hij.trans_lt hj)]
    have := mono (show (⟨i, hij.trans_lt hj⟩ : Fin n) ≤ ⟨j, hj⟩ from hij)
    simp only [Function.comp] at this
    linarith
  · have := Matrix.submatrix_mul_equiv Oᵀ O p (Equiv.refl _) p
    rw [Equiv.coe_refl] at this
    rw [Matrix.transpose_submatrix, this, hO]
    exact Matrix.submatrix_one_equiv p
  · conv_lhs => rw [hd]
    have e : (Matrix.diagonal fun i : Fin n => if h : i.1 < n then f (p ⟨i, h⟩) else 0) = (Matrix.diagonal f).submatrix p p := by
      rw [Matrix.submatrix_diagonal_equiv]
      congr 1
      funext i
      simp
    rw [e, Matrix.transpose_submatrix, Matrix.submatrix_mul_equiv O _ id p p, Matrix.submatrix_mul_equiv _ Oᵀ id p id]
    simp

/-- Every matrix has singular values in this sense. -/
theorem exists_isSv (A : Matrix (Fin m) (Fin n) ℝ) : ∃ σ, IsSv A σ := by
  obtain ⟨l, hl⟩ := exists_isEv (S := Aᵀ * A) (by rw [Matrix.transpose_mul, Matrix.transpose_transpose])
  have pos : ∀ i, i < n → 0 ≤ l i := fun i hi => by
    obtain ⟨x, x0, -, h2⟩ := weyl_dir hl hl hi
    rw [gram_quad] at h2
    by_contra h
    have := mul_neg_of_neg_of_pos (not_le.1 h) (pow_pos x0 2)
    linarith [sq_nonneg (fro (A * x))]
  refine ⟨fun i => √(l i), fun i _ => Real.sqrt_nonneg _, fun i j hij hj => Real.sqrt_le_sqrt (hl.sorted i j hij hj), ?_⟩
  have e : ∀ i, i < n → √(l i) ^ 2 = l i := fun i hi => Real.sq_sqrt (pos i hi)
  refine ⟨fun i j hij hj => ?_, ?_⟩
  · rw [e j hj, e i (hij.trans_lt hj)]; exact hl.sorted i j hij hj
  · obtain ⟨O, h1, h2⟩ := hl.diag
    refine ⟨O, h1, ?_⟩
    rw [show (fun i : Fin n => √(l i) ^ 2) = fun i : Fin n => l i from funext fun i => e i i.2]
    exact h2

/-- The first singular value is the largest stretching of a vector and the last one the smallest. -/
theorem Spec.IsSv.stretch {A : Matrix (Fin m) (Fin n) ℝ} {σ : Nat → ℝ} (h : IsSv A σ) (hn : 0 < n) :
    (∀ x : Matrix (Fin n) (Fin 1) ℝ, fro (A * x) ≤ σ 0 * fro x) ∧
    (∃ x : Matrix (Fin n) (Fin 1) ℝ, x ≠ 0 ∧ σ 0 * fro x ≤ fro (A * x)) ∧
    ∀ x : Matrix (Fin n) (Fin 1) ℝ, σ (n - 1) * fro x ≤ fro (A * x) := by
  obtain ⟨h0, h1, -, O, oO, e⟩ := id h
  refine ⟨fun x => ?_, ?_, fun x => ?_⟩
  · refine (sq_le_sq₀ (fro_nonneg _) (mul_nonneg (h0 0 hn) (fro_nonneg x))).1 ?_
    rw [← gram_quad, quad_diag e, mul_pow, ← fro_orth_tr oO x, fro_vec_sq, Finset.mul_sum]
    exact Finset.sum_le_sum fun j _ =>
      mul_le_mul_of_nonneg_right (pow_le_pow_left₀ (h0 j j.2) (h1 0 j (Nat.zero_le _) j.2) 2) (sq_nonneg _)
  · obtain ⟨x, x0, g1, -⟩ := weyl_dir h.gram h.gram hn
    refine ⟨x, fun hx => ?_, ?_⟩
    · rw [hx, fro_zero'] at x0; exact lt_irrefl _ x0
    · rw [gram_quad, ← mul_pow] at g1
      exact (sq_le_sq₀ (mul_nonneg (h0 0 hn) x0.le) (fro_nonneg _)).1 g1
  · refine (sq_le_sq₀ (mul_nonneg (h0 _ (by omega)) (fro_nonneg x)) (fro_nonneg _)).1 ?_
    rw [← gram_quad, quad_diag e, mul_pow, ← fro_orth_tr oO x, fro_vec_sq, Finset.mul_sum]
    exact Finset.sum_le_sum fun j _ =>
      mul_le_mul_of_nonneg_right (pow_le_pow_left₀ (h0 _ (by omega)) (h1 j (n - 1) (by omega) (by omega)) 2) (sq_nonneg _)

/-- Adjacent order gives the order. -/
theorem sorted_of_adj {σ : Nat → ℝ} (h : ∀ i, i + 1 < n → σ (i + 1) ≤ σ i) : ∀ i j, i ≤ j → j < n → σ j ≤ σ i := by
  intro i j hij
  induction j, hij using Nat.le_induction with
  | base => intro _; exact le_rfl
  | succ j _ ih => intro hj; exact (h j hj).trans (ih (by omega))

end Linear
