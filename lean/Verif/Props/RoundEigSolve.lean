import Verif.Props.RoundRoot

/-!
# C113: the solver of the symmetric eigen decomposition in rounded arithmetic
-/

set_option linter.unusedSectionVars false

namespace Linear

open Spec Finset Matrix Rnd

/-! ## Law-free: what is computed -/

section free

variable {α : Type} [Flt α] {n : Nat}

/-- The expansion of `b` by the vectors `V i`, divided by the numbers `d i`: `∑ i, (V i · b / d i) V i`, each sum from the left. -/
def Spec.expand (n : Nat) (V : Nat → Nat → α) (d b : Nat → α) (j : Nat) : α :=
  lsum 0 n (fun i => Flt.mul (Flt.div (lsum 0 n (fun k => Flt.mul (V i k) (b k)) Flt.zero) (d i)) (V i j)) Flt.zero

/-- **C113, law-free.** What `SolveVector` returns. -/
theorem C113_vector_terms {epsEd : α} {s : Eig α n} (hs : s.isNonSingular epsEd = .ok true) {b : RVec α} (hb : b.dim = n) :
    ∃ x, s.solveVector epsEd b = .ok x ∧ IsList x n (expand n s.vec.f s.re.f (nth b.list)) := by
  obtain ⟨bp, e, hbp⟩ := Wp.exists_ok (wp_forUp (ε := Fault) (a := 0) (b := n)
    (body := fun i (bp : Row α n) => do
      let v ← vecDotProduct (.arr (s.vector' i)) b
      let re ← s.re.get i
      forUp 0 n (fun j (bp : Row α n) => do
        bp.set j (Flt.add (← bp.get j) (Flt.mul (Flt.div v re) (← s.vec.get i j)))) bp) (s := Row.zero n)
    (E := fun _ => False)
    (fun i (bp : Row α n) => ∀ j, j < n → bp.f j = lsum 0 i (fun i => Flt.mul (Flt.div
      (lsum 0 n (fun k => Flt.mul (s.vec.f i k) (nth b.list k)) Flt.zero) (s.re.f i)) (s.vec.f i j)) Flt.zero) (by omega)
    (fun j _ => rfl) (fun i bp _ hi hI => by
      have ev : vecDotProduct (.arr (s.vector' i)) b = .ok (lsum 0 n (fun k => Flt.mul (s.vec.f i k) (nth b.list k)) Flt.zero) := by
        unfold vecDotProduct
        have hl : (RVec.arr (s.vector' i)).dim = n := (s.vector'_isList i).1
        unfold checkDims
        rw [hl, hb, if_neg (by simp)]
        show sumUp 0 n _ _ = _
        rw [sumUp_ok (fun y => Flt.mul (s.vec.f i y) (nth b.list y)) fun y _ hy => by
          rw [RVec.at_ok (v := .arr (s.vector' i)) (s.vector'_isList i) hy, ok_bind, b.at_nth (by omega), ok_bind]
          rfl]
      rw [ev, ok_bind, Row.get_ok hi, ok_bind]
      obtain ⟨bp', e, h1, -⟩ := Row.loop (ε := Fault) (a := 0) (b := n)
        (fun j x => Flt.add x (Flt.mul (Flt.div (lsum 0 n (fun k => Flt.mul (s.vec.f i k) (nth b.list k)) Flt.zero) (s.re.f i))
          (s.vec.f i j))) (t := bp)
        (body := fun j (bp : Row α n) => do
          bp.set j (Flt.add (← bp.get j) (Flt.mul (Flt.div (lsum 0 n (fun k => Flt.mul (s.vec.f i k) (nth b.list k)) Flt.zero)
            (s.re.f i)) (← s.vec.get i j)))) (fun j t' _ hj hk => by
          rw [Row.get_ok hj, ok_bind, Tab.get_ok hi hj, ok_bind, Row.set_ok hj, hk j (by omega)])
      rw [e]
      refine wp_of_eq_ok rfl fun j hj => ?_
      rw [h1 j (by omega) hj, hI j hj, lsum_succ (Nat.zero_le _)]))
  refine ⟨bp.toList, ?_, ?_⟩
  · unfold Eig.solveVector
    rw [if_neg (by omega)]
    show (s.isNonSingular epsEd >>= _) = _
    rw [hs, ok_bind]
    simp only [Bool.not_true, Bool.false_eq_true, if_false]
    show (forUp 0 n _ _ >>= _) = _
    rw [e]
    rfl
  · have h := Row.toList_isList bp
    refine ⟨h.1, fun i hi => ?_⟩
    rw [h.2 i hi, hbp i hi]
    rfl

private theorem solveCol_terms {q : Nat} {s : Eig α n} {b : Mat α n q} {B : Nat → Nat → α} (hB : Shows b.at n q B)
    {k : Nat} (hk : k < q) (bp : Tab α n q) :
    ∃ bp' : Tab α n q, s.solveCol b k bp = .ok bp' ∧ (∀ x y, x < n → y ≠ k → bp'.f x y = bp.f x y) ∧
      ∀ x, x < n → bp'.f x k = expand n s.vec.f s.re.f (fun i => B i k) x := by
  unfold Eig.solveCol
  obtain ⟨w, e, h1, h2, h3⟩ := Wp.exists_ok (wp_forUp (ε := Fault) (a := 0) (b := n)
    (body := fun i (w : Row α n × Tab α n q) => do
      let tmp ← w.1.set i (← b.at i k)
      let bp ← w.2.set i k Flt.zero
      return (tmp, bp)) (s := (Row.zero n, bp)) (E := fun _ => False)
    (fun i w => (∀ x, x < i → w.1.f x = B x k) ∧ (∀ x, x < i → w.2.f x k = Flt.zero) ∧
      ∀ x y, y ≠ k → w.2.f x y = bp.f x y) (by omega)
    ⟨fun x h => by omega, fun x h => by omega, fun _ _ _ => rfl⟩ (fun i w _ hi ⟨h1, h2, h3⟩ => by
      rw [hB.ok hi hk, ok_bind, Row.set_ok hi, ok_bind, Tab.set_ok hi hk, ok_bind]
      refine wp_of_eq_ok rfl ⟨fun x hx => ?_, fun x hx => ?_, fun x y hy => ?_⟩
      · simp only [upd1_eq]
        by_cases hxi : x = i
        · rw [if_pos hxi, hxi]
        · rw [if_neg hxi]; exact h1 x (by omega)
      · simp only [upd2_eq]
        by_cases hxi : x = i
        · rw [if_pos ⟨hxi, trivial⟩]
        · rw [if_neg (by omega)]; exact h2 x (by omega)
      · simp only [upd2_eq]
        rw [if_neg (by omega)]
        exact h3 x y hy))
  rw [e, ok_bind]
  obtain ⟨bp', e', h4, h5⟩ := Wp.exists_ok (wp_forUp (ε := Fault) (a := 0) (b := n)
    (body := fun i (bp : Tab α n q) => do
      let ss ← sumUp 0 n (fun j => do return Flt.mul (← s.vec.get i j) (← w.1.get j)) Flt.zero
      let re ← s.re.get i
      forUp 0 n (fun j (bp : Tab α n q) => do
        bp.set j k (Flt.add (← bp.get j k) (Flt.mul (Flt.div ss re) (← s.vec.get i j)))) bp) (s := w.2)
    (E := fun _ => False)
    (fun i bp' => (∀ x y, y ≠ k → bp'.f x y = bp.f x y) ∧ ∀ x, x < n → bp'.f x k = lsum 0 i (fun i => Flt.mul (Flt.div
      (lsum 0 n (fun j => Flt.mul (s.vec.f i j) (B j k)) Flt.zero) (s.re.f i)) (s.vec.f i x)) Flt.zero) (by omega)
    ⟨h3, fun x hx => by rw [h2 x hx]; rfl⟩ (fun i bp' _ hi ⟨h4, h5⟩ => by
      rw [sumUp_ok (fun j => Flt.mul (s.vec.f i j) (B j k)) fun j _ hj => by
        rw [Tab.get_ok hi hj, ok_bind, Row.get_ok hj, ok_bind, h1 j hj]
        rfl, ok_bind, Row.get_ok hi, ok_bind]
      obtain ⟨t', e, k1, k2⟩ := Tab.colLoop (ε := Fault) (a := 0) (b := n) (j := k)
        (fun j x => Flt.add x (Flt.mul (Flt.div (lsum 0 n (fun y => Flt.mul (s.vec.f i y) (B y k)) Flt.zero) (s.re.f i))
          (s.vec.f i j))) (t := bp')
        (body := fun j (bp : Tab α n q) => do
          bp.set j k (Flt.add (← bp.get j k) (Flt.mul (Flt.div (lsum 0 n (fun y => Flt.mul (s.vec.f i y) (B y k)) Flt.zero)
            (s.re.f i)) (← s.vec.get i j)))) (fun j t' _ hj hkeep => by
          rw [Tab.get_ok hj hk, ok_bind, Tab.get_ok hi hj, ok_bind, Tab.set_ok hj hk, hkeep j k (by omega)])
      rw [e]
      refine wp_of_eq_ok rfl ⟨fun x y hy => ?_, fun x hx => ?_⟩
      · rw [k2 x y (by omega), h4 x y hy]
      · rw [k1 x (by omega) hx, h5 x hx, lsum_succ (Nat.zero_le _)]))
  exact ⟨bp', e', fun x y _ hy => h4 x y hy, h5⟩

/-- **C113, law-free.** What `SolveMatrix` returns: column by column what `SolveVector` does. -/
theorem C113_matrix_terms {epsEd : α} {s : Eig α n} (hs : s.isNonSingular epsEd = .ok true) (hn : 0 < n) {q : Nat} (hq : 0 < q)
    {b : Mat α n q} {B : Nat → Nat → α} (hB : Shows b.at n q B) :
    ∃ x : Mat α n q, s.solveMatrix epsEd b = .ok ⟨n, q, x⟩ ∧ x.own ∧
      Shows x.at n q fun i j => expand n s.vec.f s.re.f (fun k => B k j) i := by
  obtain ⟨bp, e, hbp⟩ := Wp.exists_ok (wp_forUp (ε := Fault) (a := 0) (b := q) (body := s.solveCol b)
    (s := (Jag.zero n _ : Tab α n q)) (E := fun _ => False)
    (fun k (bp : Tab α n q) => ∀ x y, x < n → y < k → bp.f x y = expand n s.vec.f s.re.f (fun i => B i y) x) (by omega)
    (fun x y _ h => by omega) (fun k bp _ hk hI => by
      obtain ⟨bp', e, h1, h2⟩ := solveCol_terms (s := s) hB hk bp
      refine wp_of_eq_ok e fun x y hx hy => ?_
      by_cases hyk : y = k
      · subst hyk; exact h2 x hx
      · rw [h1 x y hx hyk, hI x y hx (by omega)]))
  obtain ⟨m, em, hm, -⟩ := Arr.copyIn_ok (Jag.toLists_rect bp) hn hq
  refine ⟨.arr m, ?_, trivial, (Mat.at_shows (.arr m)).congr fun i j hi hj => ?_⟩
  · unfold Eig.solveMatrix
    rw [if_neg (by omega)]
    show (s.isNonSingular epsEd >>= _) = _
    rw [hs, ok_bind]
    simp only [Bool.not_true, Bool.false_eq_true, if_false]
    show (b.colDim >>= _) = _
    rw [Mat.colDim_ok hn, ok_bind, e, ok_bind, em]
    rfl
  · rw [← hbp i j hi hj, ← hm i j hi hj]
    rfl

end free

section round

variable {α : Type} [Flt α] [Rnd α] {n : Nat}

/-- What the underflow of one sum of `n` products contributes to a matrix of `n` rows and `q` columns. -/
noncomputable def Spec.sumTiny (α : Type) [Flt α] [Rnd α] (n q : Nat) : ℝ := √(n * q) * (n * (1 + u α) ^ n * η α)

/-- The bound of C113 for the residual of `A X = B`: `δ` is the distance of the vectors to an orthogonal matrix `O`, `e` that of `A` to
`O D Oᵀ`, `d` the norm of `D`, `x` and `b` those of `X` and `B`. -/
noncomputable def Spec.solveErr (α : Type) [Flt α] [Rnd α] (n q : Nat) (δ e d x b : ℝ) : ℝ :=
  (e * (1 + δ) + d * δ + (d + e) * (gam α n * (√n + δ))) * ((x + sumTiny α n q) / (1 - δ - gam α n * (√n + δ))) +
    (δ + gam α n * (√n + δ) + u α * (1 + δ + gam α n * (√n + δ))) * b +
    ((d + e + 1 + u α) * sumTiny α n q + √q * η α * d)

private theorem fro_err {m q : Nat} {E P : Matrix (Fin m) (Fin q) ℝ} {g t : ℝ} (hg : 0 ≤ g) (ht : 0 ≤ t)
    (h : ∀ i j, |E i j| ≤ g * P i j + t) : fro E ≤ g * fro P + √(m * q) * t := by
  have h1 : fro E ≤ fro (g • P + Matrix.of fun _ _ => t) := by
    unfold fro
    refine Real.sqrt_le_sqrt (sum_le_sum fun i _ => sum_le_sum fun j _ => ?_)
    rw [← sq_abs]
    exact pow_le_pow_left₀ (abs_nonneg _) (h i j) 2
  have h2 : fro (g • P) = g * fro P := by
    unfold fro
    simp only [Matrix.smul_apply, smul_eq_mul, mul_pow, ← mul_sum]
    rw [Real.sqrt_mul (sq_nonneg g), Real.sqrt_sq hg]
  have h3 : fro (Matrix.of fun _ _ => t : Matrix (Fin m) (Fin q) ℝ) = √(m * q) * t := by
    unfold fro
    simp only [Matrix.of_apply, sum_const, card_univ, Fintype.card_fin, nsmul_eq_mul]
    rw [← mul_assoc, Real.sqrt_mul (by positivity), Real.sqrt_sq ht]
  exact h1.trans ((fro_add_le _ _).trans_eq (by rw [h2, h3]))

private theorem near_mul {m q : Nat} {V O : Matrix (Fin m) (Fin m) ℝ} {X : Matrix (Fin m) (Fin q) ℝ} {δ : ℝ} (hO : Oᵀ * O = 1)
    (hV : fro (V - O) ≤ δ) : fro (V * X) ≤ (1 + δ) * fro X := by
  have e : V * X = O * X + (V - O) * X := by rw [Matrix.sub_mul]; abel
  rw [e]
  have h1 := fro_add_le (O * X) ((V - O) * X)
  have h2 := fro_mul_le (V - O) X
  have h3 := mul_le_mul_of_nonneg_right hV (fro_nonneg X)
  rw [fro_left hO] at h1
  linarith

private theorem abs_fro {m q : Nat} (M : Matrix (Fin m) (Fin q) ℝ) : fro (Matrix.of fun i j => |M i j|) = fro M := by
  unfold fro
  simp

/-- The residual in exact terms. -/
private theorem residual {q : Nat} {V O A D : Matrix (Fin n) (Fin n) ℝ} {X B C W : Matrix (Fin n) (Fin q) ℝ} {δ e d g t t' v : ℝ}
    (hO : Oᵀ * O = 1) (hV : fro (V - O) ≤ δ) (hA : fro (A - O * D * Oᵀ) ≤ e) (hD : fro D ≤ d) (hg : 0 ≤ g) (hv : 0 ≤ v)
    (hX : fro (X - V * C) ≤ g * fro C + t) (hW : fro (W - Vᵀ * B) ≤ g * fro B + t) (hC : fro (D * C - W) ≤ v * fro W + t')
    (hs : δ + g < 1) :
    fro (A * X - B) ≤ (e * (1 + δ) + d * δ + (d + e) * g) * ((fro X + t) / (1 - δ - g)) + (δ + g + v * (1 + δ + g)) * fro B +
      ((d + e + 1 + v) * t + t') := by
  have hδ0 : 0 ≤ δ := (fro_nonneg _).trans hV
  have hd0 : 0 ≤ d := (fro_nonneg _).trans hD
  have he0 : 0 ≤ e := (fro_nonneg _).trans hA
  have hO' : O * Oᵀ = 1 := mul_eq_one_comm.1 hO
  have hOt : Oᵀᵀ * Oᵀ = 1 := by rw [Matrix.transpose_transpose]; exact hO'
  have hVt : fro (Vᵀ - Oᵀ) ≤ δ := by rw [← Matrix.transpose_sub, fro_transpose]; exact hV
  have hAs : fro A ≤ d + e := by
    have h1 := fro_add_le (A - O * D * Oᵀ) (O * D * Oᵀ)
    rw [sub_add_cancel, fro_right (by rwa [Matrix.transpose_transpose]), fro_left hO] at h1
    linarith
  have hCx : fro C ≤ (fro X + t) / (1 - δ - g) := by
    rw [le_div_iff₀ (by linarith)]
    have e1 : O * C = X + (-(X - V * C) + -((V - O) * C)) := by rw [Matrix.sub_mul]; abel
    have h1 := fro_add_le X (-(X - V * C) + -((V - O) * C))
    have h2 := fro_add_le (-(X - V * C)) (-((V - O) * C))
    rw [fro_neg, fro_neg] at h2
    have h3 := (fro_mul_le (V - O) C).trans (mul_le_mul_of_nonneg_right hV (fro_nonneg C))
    rw [← e1, fro_left hO] at h1
    nlinarith
  have hWs : fro W ≤ (1 + δ + g) * fro B + t := by
    have h1 := fro_add_le (W - Vᵀ * B) (Vᵀ * B)
    rw [sub_add_cancel] at h1
    have h2 := near_mul (X := B) hOt hVt
    nlinarith
  have split : A * X - B = A * (X - V * C) + ((A - O * D * Oᵀ) * (V * C) + (O * (D * (Oᵀ * ((V - O) * C))) +
      (O * (D * C - W) + (O * (W - Vᵀ * B) + O * ((Vᵀ - Oᵀ) * B))))) := by
    have h1 : O * D * Oᵀ * (O * C) = O * (D * C) := by
      calc O * D * Oᵀ * (O * C) = O * D * (Oᵀ * O) * C := by simp only [Matrix.mul_assoc]
        _ = _ := by rw [hO, Matrix.mul_one, Matrix.mul_assoc]
    have h2 : O * (Oᵀ * B) = B := by rw [← Matrix.mul_assoc, hO', Matrix.one_mul]
    have h3 : O * (D * (Oᵀ * ((V - O) * C))) = O * D * Oᵀ * (V * C) - O * D * Oᵀ * (O * C) := by
      simp only [Matrix.sub_mul, Matrix.mul_sub, Matrix.mul_assoc]
    rw [h3, h1]
    simp only [Matrix.sub_mul, Matrix.mul_sub, h2]
    abel
  rw [split]
  have a1 := fro_add_le (A * (X - V * C)) ((A - O * D * Oᵀ) * (V * C) + (O * (D * (Oᵀ * ((V - O) * C))) +
      (O * (D * C - W) + (O * (W - Vᵀ * B) + O * ((Vᵀ - Oᵀ) * B)))))
  have a2 := fro_add_le ((A - O * D * Oᵀ) * (V * C)) (O * (D * (Oᵀ * ((V - O) * C))) +
      (O * (D * C - W) + (O * (W - Vᵀ * B) + O * ((Vᵀ - Oᵀ) * B))))
  have a3 := fro_add_le (O * (D * (Oᵀ * ((V - O) * C)))) (O * (D * C - W) + (O * (W - Vᵀ * B) + O * ((Vᵀ - Oᵀ) * B)))
  have a4 := fro_add_le (O * (D * C - W)) (O * (W - Vᵀ * B) + O * ((Vᵀ - Oᵀ) * B))
  have a5 := fro_add_le (O * (W - Vᵀ * B)) (O * ((Vᵀ - Oᵀ) * B))
  have b1 : fro (A * (X - V * C)) ≤ (d + e) * (g * fro C + t) :=
    (fro_mul_le _ _).trans (mul_le_mul hAs hX (fro_nonneg _) (by linarith))
  have b2 : fro ((A - O * D * Oᵀ) * (V * C)) ≤ e * ((1 + δ) * fro C) :=
    (fro_mul_le _ _).trans (mul_le_mul hA (near_mul hO hV) (fro_nonneg _) he0)
  have b3 : fro (O * (D * (Oᵀ * ((V - O) * C)))) ≤ d * (δ * fro C) := by
    rw [fro_left hO]
    refine (fro_mul_le _ _).trans (mul_le_mul hD ?_ (fro_nonneg _) hd0)
    rw [fro_left hOt]
    exact (fro_mul_le _ _).trans (mul_le_mul_of_nonneg_right hV (fro_nonneg C))
  have b4 : fro (O * (D * C - W)) ≤ v * ((1 + δ + g) * fro B + t) + t' := by
    rw [fro_left hO]
    exact hC.trans (by nlinarith)
  have b5 : fro (O * (W - Vᵀ * B)) ≤ g * fro B + t := by rw [fro_left hO]; exact hW
  have b6 : fro (O * ((Vᵀ - Oᵀ) * B)) ≤ δ * fro B := by
    rw [fro_left hO]
    exact (fro_mul_le _ _).trans (mul_le_mul_of_nonneg_right hVt (fro_nonneg B))
  have hc : (e * (1 + δ) + d * δ + (d + e) * g) * fro C ≤
      (e * (1 + δ) + d * δ + (d + e) * g) * ((fro X + t) / (1 - δ - g)) := mul_le_mul_of_nonneg_left hCx (by positivity)
  nlinarith

/-- The error of the expansion, one sum after the other. -/
private theorem expand_err {V : Nat → Nat → α} {d b : Nat → α} {j : Nat} (hx : fin (expand n V d b j)) (hd : ∀ i, i < n → fin (d i)) :
    ∃ w : Nat → α, (∀ i, w i = lsum 0 n (fun k => Flt.mul (V i k) (b k)) Flt.zero) ∧
      |val (expand n V d b j) - ∑ i ∈ range n, val (V i j) * val (Flt.div (w i) (d i))| ≤
        gam α n * ∑ i ∈ range n, |val (V i j)| * |val (Flt.div (w i) (d i))| + n * (1 + u α) ^ n * η α ∧
      ∀ i, i < n → (∀ k, k < n → fin (b k)) ∧
        |val (w i) - ∑ k ∈ range n, val (V i k) * val (b k)| ≤ gam α n * ∑ k ∈ range n, |val (V i k)| * |val (b k)| + n * (1 + u α) ^ n * η α ∧
        |val (d i) * val (Flt.div (w i) (d i)) - val (w i)| ≤ u α * |val (w i)| + η α * |val (d i)| := by
  have h1 := SumOf.left (α := α) 0 n fun i => Flt.mul (Flt.div (lsum 0 n (fun k => Flt.mul (V i k) (b k)) Flt.zero) (d i)) (V i j)
  rw [← over_range] at h1
  obtain ⟨h2, h3⟩ := h1.prods hx
  rw [card_range] at h3
  refine ⟨fun i => lsum 0 n (fun k => Flt.mul (V i k) (b k)) Flt.zero, fun i => rfl, ?_, fun i hi => ?_⟩
  · simp only [mul_comm (val (V _ _)), mul_comm |val (V _ _)|]
    exact h3
  · have hf := (h2 i (mem_range.2 hi)).1
    have h4 := SumOf.left (α := α) 0 n fun k => Flt.mul (V i k) (b k)
    rw [← over_range] at h4
    obtain ⟨h5, h6⟩ := h4.prods (div_fin hf)
    rw [card_range] at h6
    refine ⟨fun k hk => (h5 k (mem_range.2 hk)).2, h6, ?_⟩
    have h7 := (div_err hf (hd i hi)).1
    have h8 := div_ne hf (hd i hi)
    set c := val (Flt.div (lsum 0 n (fun k => Flt.mul (V i k) (b k)) Flt.zero) (d i))
    set w := val (lsum 0 n (fun k => Flt.mul (V i k) (b k)) Flt.zero)
    have e1 : val (d i) * c - w = val (d i) * (c - w / val (d i)) := by field_simp
    have e2 : |val (d i)| * |w / val (d i)| = |w| := by rw [abs_div]; field_simp [abs_ne_zero.2 h8]
    rw [e1, abs_mul]
    refine (mul_le_mul_of_nonneg_left h7 (abs_nonneg _)).trans (le_of_eq ?_)
    rw [mul_add, mul_left_comm, e2]
    ring

private theorem fro_smul {m q : Nat} {c : ℝ} (hc : 0 ≤ c) (M : Matrix (Fin m) (Fin q) ℝ) : fro (c • M) = c * fro M := by
  unfold fro
  simp only [Matrix.smul_apply, smul_eq_mul, mul_pow, ← mul_sum]
  rw [Real.sqrt_mul (sq_nonneg c), Real.sqrt_sq hc]

/-- A matrix all of whose columns are the diagonal of `D`. -/
private theorem fro_spread {q : Nat} (d : Fin n → ℝ) :
    fro (Matrix.of fun i _ => |d i| : Matrix (Fin n) (Fin q) ℝ) = √q * fro (Matrix.diagonal d) := by
  unfold fro
  rw [← Real.sqrt_mul (by positivity)]
  congr 1
  simp [Matrix.diagonal_apply, ite_pow, mul_sum]

private theorem fro_le' {m q : Nat} {M N : Matrix (Fin m) (Fin q) ℝ} (h : ∀ i j, |M i j| ≤ N i j) : fro M ≤ fro N := by
  unfold fro
  refine Real.sqrt_le_sqrt (sum_le_sum fun i _ => sum_le_sum fun j _ => ?_)
  rw [← sq_abs]
  exact pow_le_pow_left₀ (abs_nonneg _) (h i j) 2

/-- **C113.** The residual of the system solved by expansion in the vectors. -/
theorem Spec.expand_residual {q : Nat} {V : Nat → Nat → α} {d : Nat → α} {B X : Nat → Nat → α}
    (hX : ∀ i j, i < n → j < q → X i j = expand n V d (fun k => B k j) i) (hf : ∀ i j, i < n → j < q → fin (X i j))
    (hd : ∀ i, i < n → fin (d i)) {O A : Matrix (Fin n) (Fin n) ℝ} (hO : Oᵀ * O = 1) {δ e N : ℝ}
    (hδ : fro ((mx n n fun i j => val (V j i)) - O) ≤ δ)
    (hN : fro (Matrix.diagonal fun i : Fin n => val (d i)) ≤ N)
    (hA : fro (A - O * Matrix.diagonal (fun i : Fin n => val (d i)) * Oᵀ) ≤ e) (hs : δ + gam α n * (√n + δ) < 1) :
    fro (A * (mx n q fun i j => val (X i j)) - mx n q fun i j => val (B i j)) ≤
      solveErr α n q δ e N (fro (mx n q fun i j => val (X i j))) (fro (mx n q fun i j => val (B i j))) := by
  have hu := u_nonneg (α := α)
  have hη := η_nonneg (α := α)
  have hgm := gam_nonneg (α := α) n
  have hδ0 : 0 ≤ δ := (fro_nonneg _).trans hδ
  have hN0 : 0 ≤ N := (fro_nonneg _).trans hN
  have ht : 0 ≤ n * (1 + u α) ^ n * η α := by positivity
  obtain ⟨w, hw⟩ : ∃ w : Nat → Nat → α, w = fun i j => lsum 0 n (fun k => Flt.mul (V i k) (B k j)) Flt.zero := ⟨_, rfl⟩
  have key : ∀ i j, i < n → j < q →
      |val (X i j) - ∑ k ∈ range n, val (V k i) * val (Flt.div (w k j) (d k))| ≤
        gam α n * ∑ k ∈ range n, |val (V k i)| * |val (Flt.div (w k j) (d k))| + n * (1 + u α) ^ n * η α ∧
      |val (w i j) - ∑ k ∈ range n, val (V i k) * val (B k j)| ≤
        gam α n * ∑ k ∈ range n, |val (V i k)| * |val (B k j)| + n * (1 + u α) ^ n * η α ∧
      |val (d i) * val (Flt.div (w i j) (d i)) - val (w i j)| ≤ u α * |val (w i j)| + η α * |val (d i)| := fun i j hi hj => by
    have h := hf i j hi hj
    rw [hX i j hi hj] at h ⊢
    obtain ⟨w', e1, h1, h2⟩ := expand_err h hd
    have e2 : w' = fun i => w i j := by funext i; rw [e1, hw]
    subst e2
    exact ⟨h1, (h2 i hi).2⟩
  set Vm := mx n n fun i j => val (V j i) with hVm
  set Cm := mx n q fun i j => val (Flt.div (w i j) (d i)) with hCm
  set Wm := mx n q fun i j => val (w i j) with hWm
  set Bm := mx n q fun i j => val (B i j) with hBm
  set Xm := mx n q fun i j => val (X i j) with hXm
  set D : Matrix (Fin n) (Fin n) ℝ := Matrix.diagonal fun i : Fin n => val (d i) with hDm
  have hVs : fro Vm ≤ √n + δ := by
    have := fro_add_le (Vm - O) O
    rw [sub_add_cancel] at this
    linarith [fro_orth hO]
  have h1 : fro (Xm - Vm * Cm) ≤ gam α n * (√n + δ) * fro Cm + sumTiny α n q := by
    have := fro_err (E := Xm - Vm * Cm) (P := (Matrix.of fun i j => |Vm i j|) * Matrix.of fun i j => |Cm i j|) hgm ht (fun i j => by
      have := (key i j i.2 j.2).1
      simp only [← Fin.sum_univ_eq_sum_range (fun k => val (V k i) * val (Flt.div (w k j) (d k))),
        ← Fin.sum_univ_eq_sum_range (fun k => |val (V k i)| * |val (Flt.div (w k j) (d k))|)] at this
      exact this)
    refine this.trans (add_le_add ?_ le_rfl)
    rw [mul_assoc]
    refine mul_le_mul_of_nonneg_left ((fro_mul_le _ _).trans ?_) hgm
    rw [abs_fro, abs_fro]
    exact mul_le_mul_of_nonneg_right hVs (fro_nonneg _)
  have h2 : fro (Wm - Vmᵀ * Bm) ≤ gam α n * (√n + δ) * fro Bm + sumTiny α n q := by
    have := fro_err (E := Wm - Vmᵀ * Bm) (P := (Matrix.of fun i j => |Vmᵀ i j|) * Matrix.of fun i j => |Bm i j|) hgm ht (fun i j => by
      have := (key i j i.2 j.2).2.1
      simp only [← Fin.sum_univ_eq_sum_range (fun k => val (V i k) * val (B k j)),
        ← Fin.sum_univ_eq_sum_range (fun k => |val (V i k)| * |val (B k j)|)] at this
      exact this)
    refine this.trans (add_le_add ?_ le_rfl)
    rw [mul_assoc]
    refine mul_le_mul_of_nonneg_left ((fro_mul_le _ _).trans ?_) hgm
    rw [abs_fro, abs_fro, fro_transpose]
    exact mul_le_mul_of_nonneg_right hVs (fro_nonneg _)
  have h3 : fro (D * Cm - Wm) ≤ u α * fro Wm + √q * η α * N := by
    have g1 : fro (D * Cm - Wm) ≤ fro (u α • (Matrix.of fun i j => |Wm i j|) + η α • (Matrix.of fun (i : Fin n) _ => |val (d i)|)) :=
      fro_le' fun i j => by
        have := (key i j i.2 j.2).2.2
        rw [Matrix.sub_apply, hDm, Matrix.diagonal_mul]
        exact this
    refine g1.trans ((fro_add_le _ _).trans ?_)
    rw [fro_smul hu, fro_smul hη, abs_fro, fro_spread]
    have : √q * fro D ≤ √q * N := mul_le_mul_of_nonneg_left hN (by positivity)
    nlinarith
  exact residual hO hδ hA hN (by positivity) hu h1 h2 h3 hs

private theorem ok_inv {β γ : Type} {x : Res β} {f : β → Res γ} {c : γ} (h : (x >>= f) = .ok c) : ∃ b, x = .ok b ∧ f b = .ok c := by
  cases x with
  | ok b => exact ⟨b, rfl, h⟩
  | error e => cases h

private theorem solved_matrix {p q : Nat} {epsEd : α} {s : Eig α n} {b : Mat α p q} {y : SMat α}
    (h : s.solveMatrix epsEd b = .ok y) : p = n ∧ s.isNonSingular epsEd = .ok true := by
  unfold Eig.solveMatrix at h
  by_cases hp : p = n
  · rw [if_neg (by simpa using hp)] at h
    obtain ⟨c, e, h⟩ := ok_inv h
    cases c with
    | true => exact ⟨hp, e⟩
    | false => cases h
  · rw [if_pos hp] at h
    cases h

private theorem solved_vector {epsEd : α} {s : Eig α n} {b : RVec α} {y : List α}
    (h : s.solveVector epsEd b = .ok y) : b.dim = n ∧ s.isNonSingular epsEd = .ok true := by
  unfold Eig.solveVector at h
  by_cases hp : b.dim = n
  · rw [if_neg (by simpa using hp)] at h
    obtain ⟨c, e, h⟩ := ok_inv h
    cases c with
    | true => exact ⟨hp, e⟩
    | false => cases h
  · rw [if_pos hp] at h
    cases h

private theorem solved_inverse {epsEd : α} {s : Eig α n} {y : SMat α}
    (h : s.inverse epsEd = .ok y) : s.isNonSingular epsEd = .ok true := by
  unfold Eig.inverse at h
  obtain ⟨c, e, h⟩ := ok_inv h
  cases c with
  | true => exact e
  | false => cases h

/-- **C113, `SolveMatrix`.** If the vectors `V` of the decomposition differ from an exactly orthogonal matrix `O` by at most `δ`, `A` differs
from `O D Oᵀ` by at most `e`, and the result `X` is finite, then the right-hand side `B` is finite and `A X` differs from it by at most
`solveErr`, for every number of columns. -/
theorem C113_matrix {epsEd : α} {s : Eig α n} (hn : 0 < n) (hre : ∀ i, i < n → fin (s.re.f i))
    {O A : Matrix (Fin n) (Fin n) ℝ} (hO : Oᵀ * O = 1) {δ e N : ℝ} (hδ : fro ((mx n n fun i j => val (s.vec.f j i)) - O) ≤ δ)
    (hN : fro (Matrix.diagonal fun i : Fin n => val (s.re.f i)) ≤ N)
    (hA : fro (A - O * Matrix.diagonal (fun i : Fin n => val (s.re.f i)) * Oᵀ) ≤ e) (hg : δ + gam α n * (√n + δ) < 1)
    {q : Nat} (hq : 0 < q) {b x : Mat α n q} {B X : Nat → Nat → α} (hB : Shows b.at n q B)
    (ex : s.solveMatrix epsEd b = .ok ⟨n, q, x⟩) (hX : Shows x.at n q X) (hf : ∀ i j, i < n → j < q → fin (X i j)) :
    (∀ i j, i < n → j < q → fin (B i j)) ∧
    fro (A * (mx n q fun i j => val (X i j)) - mx n q fun i j => val (B i j)) ≤
      solveErr α n q δ e N (fro (mx n q fun i j => val (X i j))) (fro (mx n q fun i j => val (B i j))) := by
  obtain ⟨x', e1, -, h1⟩ := C113_matrix_terms (solved_matrix ex).2 hn hq hB
  rw [ex] at e1
  cases e1
  have hXe : ∀ i j, i < n → j < q → X i j = expand n s.vec.f s.re.f (fun k => B k j) i := fun i j hi hj => hX.unique h1 hi hj
  refine ⟨fun i j hi hj => ?_, expand_residual hXe hf hre hO hδ hN hA hg⟩
  have h := hf i j hi hj
  rw [hXe i j hi hj] at h
  obtain ⟨w, -, -, h2⟩ := expand_err h hre
  exact (h2 i hi).1 i hi

/-- **C113, `SolveVector`.** The same for one right-hand side, in the Euclidean norm. -/
theorem C113_vector {epsEd : α} {s : Eig α n} (hn : 0 < n) (hre : ∀ i, i < n → fin (s.re.f i))
    {O A : Matrix (Fin n) (Fin n) ℝ} (hO : Oᵀ * O = 1) {δ e N : ℝ} (hδ : fro ((mx n n fun i j => val (s.vec.f j i)) - O) ≤ δ)
    (hN : fro (Matrix.diagonal fun i : Fin n => val (s.re.f i)) ≤ N)
    (hA : fro (A - O * Matrix.diagonal (fun i : Fin n => val (s.re.f i)) * Oᵀ) ≤ e) (hg : δ + gam α n * (√n + δ) < 1)
    {b : RVec α} {x : List α} (ex : s.solveVector epsEd b = .ok x) (hf : ∀ y ∈ x, fin y) :
    b.dim = n ∧ x.length = n ∧ (∀ y ∈ b.list, fin y) ∧
    √(∑ i : Fin n, ((A *ᵥ fun j : Fin n => val (nth x j)) i - val (nth b.list i)) ^ 2) ≤
      solveErr α n 1 δ e N (√(∑ i : Fin n, val (nth x i) ^ 2)) (√(∑ i : Fin n, val (nth b.list i) ^ 2)) := by
  obtain ⟨hb, hns⟩ := solved_vector ex
  obtain ⟨x', e1, h1⟩ := C113_vector_terms hns hb
  rw [ex] at e1
  cases e1
  have hXe : ∀ i, i < n → nth x i = expand n s.vec.f s.re.f (nth b.list) i := fun i hi => by
    unfold nth
    rw [List.getD_eq_getElem?_getD, h1.2 i hi]
    rfl
  have hff : ∀ i, i < n → fin (nth x i) := fun i hi => by
    refine hf _ ?_
    unfold nth
    rw [List.getD_eq_getElem _ _ (by rw [h1.1]; exact hi)]
    exact List.getElem_mem _
  refine ⟨hb, h1.1, fun y hy => ?_, ?_⟩
  · obtain ⟨i, hi, rfl⟩ := List.getElem_of_mem hy
    have h := hff 0 hn
    rw [hXe 0 hn] at h
    obtain ⟨w, -, -, h2⟩ := expand_err h hre
    have := (h2 0 hn).1 i (by rw [← hb, ← RVec.dim_list]; exact hi)
    unfold nth at this
    rwa [List.getD_eq_getElem _ _ hi] at this
  · have := expand_residual (q := 1) (B := fun i _ => nth b.list i) (X := fun i _ => nth x i) (fun i j hi _ => hXe i hi)
      (fun i j hi _ => hff i hi) hre hO hδ hN hA hg
    unfold fro at this
    simp only [Fin.sum_univ_one] at this
    exact this

/-! ### The inverse -/

/-- The bound of C113 for the inverse: `μ` is the least magnitude of an eigenvalue. -/
noncomputable def Spec.inverseErr (α : Type) [Flt α] [Rnd α] (n : Nat) (δ e d μ : ℝ) : ℝ :=
  (e * (1 + δ) ^ 2 + d * δ * (1 + δ)) / μ + δ +
    (d + e) * (gam α (n + 1) / μ * (√n + δ) ^ 2 + n * (n * (1 + u α) ^ n * (1 / μ + 1) * η α))

/-- **C113, law-free.** What `Inverse` returns. -/
theorem C113_inverse_terms {epsEd : α} {s : Eig α n} (hs : s.isNonSingular epsEd = .ok true) (hn : 0 < n) :
    ∃ x : Mat α n n, s.inverse epsEd = .ok ⟨n, n, x⟩ ∧ x.own ∧ Shows x.at n n fun i j =>
      lsum 0 n (fun k => Flt.div (Flt.mul (s.vec.f k i) (s.vec.f k j)) (s.re.f k)) Flt.zero := by
  have hb := Tab.build_ok (ε := Fault) (r := n) (c := n) (rt := .rt) (cell := fun i j => sumUp 0 n (fun k => do
      return Flt.div (Flt.mul (← s.vec.get k i) (← s.vec.get k j)) (← s.re.get k)) Flt.zero)
    (fun i j => lsum 0 n (fun k => Flt.div (Flt.mul (s.vec.f k i) (s.vec.f k j)) (s.re.f k)) Flt.zero) (fun i j hi hj => by
      rw [sumUp_ok (fun k => Flt.div (Flt.mul (s.vec.f k i) (s.vec.f k j)) (s.re.f k)) fun k _ hk => by
        rw [Tab.get_ok hk hi, ok_bind, Tab.get_ok hk hj, ok_bind, Row.get_ok hk, ok_bind]
        rfl])
  obtain ⟨M2, e2, h2, h3⟩ := SMat.fromSlices_dense (Jag.toLists_rect (⟨fun i j => if i < n ∧ j < n then
    lsum 0 n (fun k => Flt.div (Flt.mul (s.vec.f k i) (s.vec.f k j)) (s.re.f k)) Flt.zero else Flt.zero⟩ : Tab α n n)) hn hn false
  refine ⟨M2, ?_, Mat.dense_own h2, h3.congr fun i j hi hj => if_pos ⟨hi, hj⟩⟩
  unfold Eig.inverse
  rw [hs, ok_bind]
  simp only [Bool.not_true, Bool.false_eq_true, if_false]
  rw [hb, ok_bind, e2, must_ok]

private theorem near_mulr {q : Nat} {V O : Matrix (Fin n) (Fin n) ℝ} {X : Matrix (Fin q) (Fin n) ℝ} {δ : ℝ} (hO : Oᵀ * O = 1)
    (hV : fro (V - O) ≤ δ) : fro (X * V) ≤ (1 + δ) * fro X := by
  have hO' : O * Oᵀ = 1 := mul_eq_one_comm.1 hO
  rw [← fro_transpose, Matrix.transpose_mul, ← fro_transpose X]
  exact near_mul (O := Oᵀ) (by rw [Matrix.transpose_transpose]; exact hO') (by rw [← Matrix.transpose_sub, fro_transpose]; exact hV)

private theorem fro_mul_diag {q : Nat} {X : Matrix (Fin q) (Fin n) ℝ} {l : Fin n → ℝ} {c : ℝ} (hc : 0 ≤ c) (hl : ∀ i, |l i| ≤ c) :
    fro (X * Matrix.diagonal l) ≤ c * fro X := by
  rw [← fro_smul hc, ← abs_fro (c • X)]
  refine fro_le' fun i j => ?_
  rw [Matrix.mul_diagonal, abs_mul]
  simp only [Matrix.of_apply, Matrix.smul_apply, smul_eq_mul, abs_mul, abs_of_nonneg hc]
  rw [mul_comm]
  exact mul_le_mul_of_nonneg_right (hl j) (abs_nonneg _)

private theorem residual_inverse {V O A X : Matrix (Fin n) (Fin n) ℝ} {l : Fin n → ℝ} {δ e d μ t : ℝ} (hμ : 0 < μ)
    (hO : Oᵀ * O = 1) (hV : fro (V - O) ≤ δ) (hA : fro (A - O * Matrix.diagonal l * Oᵀ) ≤ e) (hD : fro (Matrix.diagonal l) ≤ d)
    (hl : ∀ i, μ ≤ |l i|) (hX : fro (X - V * Matrix.diagonal (fun i => (l i)⁻¹) * Vᵀ) ≤ t) :
    fro (A * X - 1) ≤ (e * (1 + δ) ^ 2 + d * δ * (1 + δ)) / μ + δ + (d + e) * t := by
  have hδ0 : 0 ≤ δ := (fro_nonneg _).trans hV
  have hd0 : 0 ≤ d := (fro_nonneg _).trans hD
  have he0 : 0 ≤ e := (fro_nonneg _).trans hA
  have hO' : O * Oᵀ = 1 := mul_eq_one_comm.1 hO
  have hOt : Oᵀᵀ * Oᵀ = 1 := by rw [Matrix.transpose_transpose]; exact hO'
  have hVt : fro (Vᵀ - Oᵀ) ≤ δ := by rw [← Matrix.transpose_sub, fro_transpose]; exact hV
  set D := Matrix.diagonal l
  set L := Matrix.diagonal fun i => (l i)⁻¹ with hL
  have hLb : ∀ i, |(l i)⁻¹| ≤ 1 / μ := fun i => by
    rw [abs_inv, one_div]
    exact inv_anti₀ hμ (hl i)
  have hDL : D * L = 1 := by
    rw [hL, Matrix.diagonal_mul_diagonal, ← Matrix.diagonal_one]
    congr 1
    funext i
    exact mul_inv_cancel₀ (abs_pos.1 (hμ.trans_le (hl i)))
  have hAs : fro A ≤ d + e := by
    have h1 := fro_add_le (A - O * D * Oᵀ) (O * D * Oᵀ)
    rw [sub_add_cancel, fro_right (by rwa [Matrix.transpose_transpose]), fro_left hO] at h1
    linarith
  have split : A * X - 1 = A * (X - V * L * Vᵀ) + ((A - O * D * Oᵀ) * V * L * Vᵀ + (O * (D * (Oᵀ * (V - O))) * L * Vᵀ + O * (Vᵀ - Oᵀ))) := by
    have h1 : O * (D * (Oᵀ * (V - O))) * L * Vᵀ = O * D * Oᵀ * V * L * Vᵀ - O * Vᵀ := by
      have h2 : O * (D * (Oᵀ * O)) * L = O := by rw [hO, Matrix.mul_one, Matrix.mul_assoc, hDL, Matrix.mul_one]
      rw [Matrix.mul_sub, Matrix.mul_sub, Matrix.mul_sub, Matrix.sub_mul, Matrix.sub_mul, h2]
      simp only [Matrix.mul_assoc]
    rw [h1, Matrix.mul_sub O, hO']
    simp only [Matrix.sub_mul, Matrix.mul_sub, ← Matrix.mul_assoc]
    abel
  rw [split]
  have a1 := fro_add_le (A * (X - V * L * Vᵀ)) ((A - O * D * Oᵀ) * V * L * Vᵀ + (O * (D * (Oᵀ * (V - O))) * L * Vᵀ + O * (Vᵀ - Oᵀ)))
  have a2 := fro_add_le ((A - O * D * Oᵀ) * V * L * Vᵀ) (O * (D * (Oᵀ * (V - O))) * L * Vᵀ + O * (Vᵀ - Oᵀ))
  have a3 := fro_add_le (O * (D * (Oᵀ * (V - O))) * L * Vᵀ) (O * (Vᵀ - Oᵀ))
  have b1 : fro (A * (X - V * L * Vᵀ)) ≤ (d + e) * t := (fro_mul_le _ _).trans (mul_le_mul hAs hX (fro_nonneg _) (by linarith))
  have hμ0 : 0 ≤ 1 / μ := by positivity
  have b2 : fro ((A - O * D * Oᵀ) * V * L * Vᵀ) ≤ (1 + δ) * (1 / μ * ((1 + δ) * e)) := by
    refine (near_mulr hOt hVt).trans (mul_le_mul_of_nonneg_left ?_ (by linarith))
    refine (fro_mul_diag hμ0 hLb).trans (mul_le_mul_of_nonneg_left ?_ hμ0)
    exact (near_mulr hO hV).trans (mul_le_mul_of_nonneg_left hA (by linarith))
  have b3 : fro (O * (D * (Oᵀ * (V - O))) * L * Vᵀ) ≤ (1 + δ) * (1 / μ * (d * δ)) := by
    refine (near_mulr hOt hVt).trans (mul_le_mul_of_nonneg_left ?_ (by linarith))
    refine (fro_mul_diag hμ0 hLb).trans (mul_le_mul_of_nonneg_left ?_ hμ0)
    rw [fro_left hO]
    refine (fro_mul_le _ _).trans (mul_le_mul hD ?_ (fro_nonneg _) hd0)
    rw [fro_left hOt]
    exact hV
  have b4 : fro (O * (Vᵀ - Oᵀ)) ≤ δ := by rw [fro_left hO]; exact hVt
  have e1 : (e * (1 + δ) ^ 2 + d * δ * (1 + δ)) / μ = (1 + δ) * (1 / μ * ((1 + δ) * e)) + (1 + δ) * (1 / μ * (d * δ)) := by
    field_simp
  rw [e1]
  linarith

/-- **C113, `Inverse`.** Under the same hypotheses, if the computed inverse `X` is finite and all eigenvalues have magnitude at least `μ`,
then `A X` differs from the identity by at most `inverseErr`. -/
theorem C113_inverse {epsEd : α} {s : Eig α n} (hn : 0 < n) (hre : ∀ i, i < n → fin (s.re.f i))
    {O A : Matrix (Fin n) (Fin n) ℝ} (hO : Oᵀ * O = 1) {δ e N μ : ℝ} (hδ : fro ((mx n n fun i j => val (s.vec.f j i)) - O) ≤ δ)
    (hN : fro (Matrix.diagonal fun i : Fin n => val (s.re.f i)) ≤ N)
    (hA : fro (A - O * Matrix.diagonal (fun i : Fin n => val (s.re.f i)) * Oᵀ) ≤ e) (hμ : 0 < μ)
    (hl : ∀ i, i < n → μ ≤ |val (s.re.f i)|) {x : Mat α n n} {X : Nat → Nat → α}
    (ex : s.inverse epsEd = .ok ⟨n, n, x⟩) (hX : Shows x.at n n X) (hf : ∀ i j, i < n → j < n → fin (X i j)) :
    fro (A * (mx n n fun i j => val (X i j)) - 1) ≤ inverseErr α n δ e N μ := by
  obtain ⟨x', e1, -, h1⟩ := C113_inverse_terms (solved_inverse ex) hn
  rw [ex] at e1
  cases e1
  have hu := u_nonneg (α := α)
  have hη := η_nonneg (α := α)
  have hgm := gam_nonneg (α := α) (n + 1)
  have hδ0 : 0 ≤ δ := (fro_nonneg _).trans hδ
  set V := mx n n fun i j => val (s.vec.f j i) with hV
  have hVs : fro V ≤ √n + δ := by
    have := fro_add_le (V - O) O
    rw [sub_add_cancel] at this
    linarith [fro_orth hO]
  have hμ0 : 0 ≤ 1 / μ := by positivity
  refine residual_inverse hμ hO hδ hA hN (fun i => hl i i.2) ?_
  have ht : 0 ≤ n * (1 + u α) ^ n * (1 / μ + 1) * η α := by positivity
  have key : ∀ i j : Fin n, |((mx n n fun i j => val (X i j)) - V * Matrix.diagonal (fun i : Fin n => (val (s.re.f i))⁻¹) * Vᵀ) i j| ≤
      gam α (n + 1) / μ * ((Matrix.of fun i j => |V i j|) * (Matrix.of fun i j => |V i j|)ᵀ) i j +
        n * (1 + u α) ^ n * (1 / μ + 1) * η α := fun i j => by
    have hx := hf i j i.2 j.2
    rw [hX.unique h1 i.2 j.2] at hx
    have h4 := SumOf.left (α := α) 0 n fun k => Flt.div (Flt.mul (s.vec.f k i) (s.vec.f k j)) (s.re.f k)
    rw [← over_range] at h4
    obtain ⟨h5, h6⟩ := h4.err' hx
    have h7 := h6 (fun k => val (s.vec.f k i) * val (s.vec.f k j) / val (s.re.f k))
      (fun k => ((1 + u α) ^ 2 - 1) * |val (s.vec.f k i) * val (s.vec.f k j) / val (s.re.f k)| + (1 + u α) * η α * (1 / μ) + η α)
      (fun k hk => by
        have hk' := mem_range.1 hk
        have f1 := h5 k hk
        have f2 := mul_err (div_fin f1)
        have f3 := (div_err f1 (hre k hk')).1
        have f4 := div_ne f1 (hre k hk')
        set a := val (s.vec.f k i) * val (s.vec.f k j)
        set p := val (Flt.mul (s.vec.f k i) (s.vec.f k j))
        set l := val (s.re.f k)
        have g1 : |p / l - a / l| ≤ u α * |a / l| + η α * (1 / μ) := by
          rw [← sub_div, abs_div, abs_div]
          have g2 : 1 / |l| ≤ 1 / μ := one_div_le_one_div_of_le hμ (hl k hk')
          calc |p - a| / |l| ≤ (u α * |a| + η α) / |l| := div_le_div_of_nonneg_right f2.1 (abs_nonneg _)
            _ = u α * (|a| / |l|) + η α * (1 / |l|) := by ring
            _ ≤ _ := by gcongr
        have g3 : |p / l| ≤ |a / l| + (u α * |a / l| + η α * (1 / μ)) := by
          have := abs_sub_abs_le_abs_sub (p / l) (a / l)
          linarith
        have g4 := abs_sub_le (val (Flt.div (Flt.mul (s.vec.f k i) (s.vec.f k j)) (s.re.f k))) (p / l) (a / l)
        have g5 := mul_le_mul_of_nonneg_left g3 hu
        nlinarith)
    rw [card_range] at h7
    have e2 : (V * Matrix.diagonal (fun i : Fin n => (val (s.re.f i))⁻¹) * Vᵀ) i j =
        ∑ k ∈ range n, val (s.vec.f k i) * val (s.vec.f k j) / val (s.re.f k) := by
      rw [Matrix.mul_apply, ← Fin.sum_univ_eq_sum_range fun k => val (s.vec.f k i) * val (s.vec.f k j) / val (s.re.f k)]
      refine sum_congr rfl fun k _ => ?_
      rw [Matrix.mul_diagonal, hV]
      show val (s.vec.f k i) * (val (s.re.f k))⁻¹ * val (s.vec.f k j) = _
      ring
    rw [Matrix.sub_apply, e2]
    show |val (X i j) - _| ≤ _
    rw [hX.unique h1 i.2 j.2]
    refine h7.trans ?_
    have e3 : ((Matrix.of fun i j => |V i j|) * (Matrix.of fun i j => |V i j|)ᵀ) i j =
        ∑ k ∈ range n, |val (s.vec.f k i)| * |val (s.vec.f k j)| := by
      rw [Matrix.mul_apply, ← Fin.sum_univ_eq_sum_range fun k => |val (s.vec.f k i)| * |val (s.vec.f k j)|]
      rfl
    have h8 : ∑ k ∈ range n, |val (s.vec.f k i) * val (s.vec.f k j) / val (s.re.f k)| ≤
        1 / μ * ∑ k ∈ range n, |val (s.vec.f k i)| * |val (s.vec.f k j)| := by
      rw [mul_sum]
      refine sum_le_sum fun k hk => ?_
      rw [abs_div, abs_mul, div_eq_mul_one_div, mul_comm]
      exact mul_le_mul_of_nonneg_right (one_div_le_one_div_of_le hμ (hl k (mem_range.1 hk))) (by positivity)
    obtain ⟨m, rfl⟩ : ∃ m, n = m + 1 := ⟨n - 1, by omega⟩
    rw [e3]
    simp only [sum_add_distrib, ← mul_sum, sum_const, card_range, nsmul_eq_mul, Nat.add_sub_cancel] at h8 ⊢
    set T := ∑ k ∈ range (m + 1), |val (s.vec.f k i) * val (s.vec.f k j) / val (s.re.f k)|
    set P := ∑ k ∈ range (m + 1), |val (s.vec.f k i)| * |val (s.vec.f k j)|
    have h9 : gam α (m + 1 + 1) * T ≤ gam α (m + 1 + 1) / μ * P := by
      rw [div_eq_mul_one_div, mul_assoc]
      exact mul_le_mul_of_nonneg_left h8 hgm
    have h10 : gam α m + (1 + u α) ^ m * ((1 + u α) ^ 2 - 1) = gam α (m + 1 + 1) := by unfold gam; ring
    have h11 : (1 + u α) ^ m * (((m + 1 : ℕ) : ℝ) * ((1 + u α) * η α * (1 / μ)) + ((m + 1 : ℕ) : ℝ) * η α) ≤
        ((m + 1 : ℕ) : ℝ) * (1 + u α) ^ (m + 1) * (1 / μ + 1) * η α := by
      have h12 : 0 ≤ (1 + u α) ^ m * ((m + 1 : ℕ) : ℝ) * η α * u α := by positivity
      have : ((m + 1 : ℕ) : ℝ) * (1 + u α) ^ (m + 1) * (1 / μ + 1) * η α =
          (1 + u α) ^ m * (((m + 1 : ℕ) : ℝ) * ((1 + u α) * η α * (1 / μ)) + ((m + 1 : ℕ) : ℝ) * η α) +
            (1 + u α) ^ m * ((m + 1 : ℕ) : ℝ) * η α * u α := by ring
      linarith
    refine le_trans (le_of_eq ?_) (add_le_add h9 h11)
    rw [← h10]
    ring
  have h2 := fro_err (by positivity) ht key
  refine h2.trans ?_
  rw [Real.sqrt_mul_self (by positivity)]
  refine add_le_add (mul_le_mul_of_nonneg_left ?_ (by positivity)) le_rfl
  refine (fro_mul_le _ _).trans ?_
  rw [fro_transpose, abs_fro, pow_two]
  exact mul_le_mul hVs hVs (fro_nonneg _) ((fro_nonneg _).trans hVs)

end round

/-! ## binary64 -/

/-- The numbers of the bounds for binary64, without the underflow terms. -/
private theorem solve_num {r n v X f e w g δ G : ℝ} (hr : 1 ≤ r) (hn : n = r ^ 2) (hv : 0 ≤ v) (hX : X = n ^ 2 * r * v)
    (hX1 : X ≤ 1 / 2 ^ 23) (hf : 0 ≤ f) (hw : 0 ≤ w) (he : e = 45000 * n ^ 2 * v * f + 400 * n ^ 2 * w) (hg0 : 0 ≤ g)
    (hg : g ≤ 2 * (n * v)) (hδ : δ = 3000 * X) (hG : G = g * (r + δ)) :
    0 ≤ G ∧ δ + G ≤ 1 / 2000 ∧ e * (1 + δ) + (f + e) * δ + (f + e + e) * G ≤ 48100 * X * f + 401 * n ^ 2 * w ∧
      (e * (1 + δ) + (f + e) * δ + (f + e + e) * G) / (1 - δ - G) ≤ 48500 * X * f + 410 * n ^ 2 * w ∧
      δ + G + v * (1 + δ + G) ≤ 3010 * X := by
  have hX0 : 0 ≤ X := by rw [hX, hn]; positivity
  have hn0 : 1 ≤ n := by rw [hn]; nlinarith
  have hX2 : X ≤ 1 / 8000000 := by norm_num at hX1; linarith
  have hδ0 : 0 ≤ δ := by rw [hδ]; positivity
  have hn2v : n ^ 2 * v ≤ X := by
    rw [hX]
    have : 0 ≤ n ^ 2 * v := by positivity
    nlinarith
  have hvX : v ≤ X := by
    have : v ≤ n ^ 2 * v := by
      have : 1 ≤ n ^ 2 := by nlinarith
      nlinarith
    linarith
  have hgr : g * r ≤ 2 * X := by
    have h3 : n * v * r ≤ X := by
      rw [hX]
      have : 0 ≤ n * r * v := by positivity
      nlinarith
    nlinarith
  have hG0 : 0 ≤ G := by rw [hG]; positivity
  have hδ1 : δ ≤ 1 := by rw [hδ]; linarith
  have hG4 : G ≤ 4 * X := by
    rw [hG]
    calc g * (r + δ) ≤ g * (2 * r) := mul_le_mul_of_nonneg_left (by linarith) hg0
      _ ≤ _ := by linarith
  have hs : δ + G ≤ 3004 * X := by rw [hδ]; linarith
  have hs1 : δ + G ≤ 1 / 2000 := by linarith
  have he0 : 0 ≤ e := by rw [he]; positivity
  have hc : e * (1 + δ) + (f + e) * δ + (f + e + e) * G ≤ 48100 * X * f + 401 * n ^ 2 * w := by
    have h1 : e * (1 + δ) + (f + e) * δ + (f + e + e) * G = e * (1 + 2 * (δ + G)) + f * (δ + G) := by ring
    have h2 : e * (1 + 2 * (δ + G)) ≤ e * (1001 / 1000) := mul_le_mul_of_nonneg_left (by linarith) he0
    have h3 : f * (δ + G) ≤ f * (3004 * X) := mul_le_mul_of_nonneg_left hs hf
    have h4 : n ^ 2 * v * f ≤ X * f := mul_le_mul_of_nonneg_right hn2v hf
    have h5 : 0 ≤ n ^ 2 * w := by positivity
    have h6 : 0 ≤ X * f := by positivity
    rw [h1]
    have h7 : e = 45000 * (n ^ 2 * v * f) + 400 * (n ^ 2 * w) := by rw [he]; ring
    rw [h7] at h2
    rw [h7]
    linarith
  refine ⟨hG0, hs1, hc, ?_, ?_⟩
  · rw [div_le_iff₀ (by linarith)]
    refine hc.trans ?_
    have h5 : 0 ≤ n ^ 2 * w := by positivity
    have h6 : 0 ≤ X * f := by positivity
    have h7 : (48500 * X * f + 410 * n ^ 2 * w) * (1999 / 2000) ≤ (48500 * X * f + 410 * n ^ 2 * w) * (1 - δ - G) :=
      mul_le_mul_of_nonneg_left (by linarith) (by nlinarith)
    refine le_trans ?_ h7
    nlinarith
  · have : v * (1 + δ + G) ≤ X * (1 + 1 / 2000) := mul_le_mul hvX (by linarith) (by positivity) hX0
    linarith

/-- The bound of C113 for binary64. -/
private theorem solve64 {n q : Nat} (hn : 0 < n) (hn' : n ≤ 2 ^ 12) {f e X w x b : ℝ} (hf : 0 ≤ f) (hx : 0 ≤ x) (hb : 0 ≤ b)
    (hw : 0 ≤ w) (hw1 : w ≤ (1 / 2) ^ 60) (hX : X = (n : ℝ) ^ 2 * √n * (1 / 2) ^ 53) (he : e = 45000 * n ^ 2 * (1 / 2) ^ 53 * f + 400 * n ^ 2 * w) :
    3000 * X + gam B64 n * (√n + 3000 * X) < 1 ∧
    solveErr B64 n q (3000 * X) e (f + e) x b ≤
      48500 * (n ^ 2 * √n) * (1 / 2) ^ 53 * f * x + 410 * n ^ 2 * w * x + 3010 * (n ^ 2 * √n) * (1 / 2) ^ 53 * b +
        9 * (n * √n) * √q * (f + 1) * η B64 := by
  obtain ⟨r, hr⟩ : ∃ r, r = √(n : ℝ) := ⟨_, rfl⟩
  have hn1 : (1 : ℝ) ≤ n := by exact_mod_cast hn
  have hn2 : (n : ℝ) ≤ 2 ^ 12 := by exact_mod_cast hn'
  have hr1 : 1 ≤ r := by rw [hr]; exact Real.one_le_sqrt.2 hn1
  have hr2 : (n : ℝ) = r ^ 2 := by rw [hr, Real.sq_sqrt (by linarith)]
  have hr3 : r ≤ 2 ^ 6 := by
    rw [hr]
    exact Real.sqrt_le_iff.2 ⟨by positivity, by rw [← pow_mul]; exact hn2⟩
  have hu0 : u B64 = (1 / 2) ^ 53 := rfl
  have hη := η_nonneg (α := B64)
  obtain ⟨v, hvv⟩ : ∃ v : ℝ, v = (1 / 2) ^ 53 := ⟨_, rfl⟩
  have hv0 : 0 ≤ v := by rw [hvv]; positivity
  rw [← hr] at hX ⊢
  have hX1 : X ≤ 1 / 2 ^ 23 := by
    rw [hX]
    calc (n : ℝ) ^ 2 * r * (1 / 2) ^ 53 ≤ (2 ^ 12) ^ 2 * 2 ^ 6 * (1 / 2) ^ 53 := by gcongr
      _ ≤ 1 / 2 ^ 23 := by norm_num
  have hX0 : 0 ≤ X := by rw [hX]; positivity
  have hnv : (n : ℝ) * v ≤ 1 / 2 ^ 41 := by
    rw [hvv]
    calc (n : ℝ) * (1 / 2) ^ 53 ≤ 2 ^ 12 * (1 / 2) ^ 53 := by gcongr
      _ ≤ 1 / 2 ^ 41 := by norm_num
  have hn2w : (n : ℝ) ^ 2 * w ≤ 1 / 1000000 := by
    calc (n : ℝ) ^ 2 * w ≤ (2 ^ 12) ^ 2 * (1 / 2) ^ 60 := by gcongr
      _ ≤ 1 / 1000000 := by norm_num
  rw [← hvv] at hX he hu0 ⊢
  have hg : gam B64 n ≤ 2 * (n * v) := by
    have := pow_le_lin (x := v) (p := n) hv0 (by norm_num at hnv; linarith)
    unfold gam
    rw [hu0]
    linarith
  obtain ⟨k0, k1, k2, k3, k4⟩ := solve_num hr1 hr2 hv0 hX hX1 hf hw he (gam_nonneg n) hg rfl rfl
  have h1 : (1 + u B64) ^ n ≤ 2 := by
    unfold gam at hg
    norm_num at hnv
    linarith
  have hp0 : 0 ≤ (1 + u B64) ^ n := by rw [hu0]; positivity
  have hτ : sumTiny B64 n q = r * √q * (n * (1 + u B64) ^ n * η B64) := by
    unfold sumTiny
    rw [Real.sqrt_mul (by linarith), ← hr]
  refine ⟨by linarith, ?_⟩
  unfold solveErr
  rw [hτ, ← hr, hu0]
  rw [hu0] at h1 hp0
  have he1 : e ≤ f + 1 := by
    have h2 : 45000 * ((n : ℝ) ^ 2 * v) ≤ 1 := by
      have : (n : ℝ) ^ 2 * v ≤ X := by
        rw [hX]
        have : 0 ≤ (n : ℝ) ^ 2 * v := by positivity
        nlinarith
      norm_num at hX1
      linarith
    have h3 := mul_le_mul_of_nonneg_right h2 hf
    rw [he]
    calc 45000 * (n : ℝ) ^ 2 * v * f + 400 * n ^ 2 * w = 45000 * ((n : ℝ) ^ 2 * v) * f + 400 * (n ^ 2 * w) := by ring
      _ ≤ _ := by linarith only [h3, hn2w]
  have he0 : 0 ≤ e := by rw [he]; positivity
  have hs0 : 0 ≤ √(q : ℝ) := Real.sqrt_nonneg _
  generalize √(q : ℝ) = s at *
  generalize η B64 = η at *
  generalize (1 + v) ^ n = p at *
  generalize hGG : gam B64 n * (r + 3000 * X) = G at *
  clear hτ hw1 hn' hn2 hr hu0 hvv
  have ht0 : 0 ≤ r * s * (n * p * η) := by positivity
  have ht : r * s * (n * p * η) ≤ 2 * (n * r * s * η) := by
    calc r * s * (n * p * η) = n * r * s * η * p := by ring
      _ ≤ n * r * s * η * 2 := by gcongr
      _ = _ := by ring
  have hsη : s * η ≤ n * r * s * η := by
    have : 1 ≤ (n : ℝ) * r := by nlinarith
    calc s * η = 1 * (s * η) := by ring
      _ ≤ n * r * (s * η) := mul_le_mul_of_nonneg_right this (by positivity)
      _ = _ := by ring
  have hC : (e * (1 + 3000 * X) + (f + e) * (3000 * X) + (f + e + e) * G) * ((x + r * s * (n * p * η)) / (1 - 3000 * X - G)) ≤
      (48500 * X * f + 410 * n ^ 2 * w) * (x + r * s * (n * p * η)) := by
    have := mul_le_mul_of_nonneg_right k3 (by positivity : 0 ≤ x + r * s * (n * p * η))
    refine le_trans (le_of_eq ?_) this
    ring
  have hB : (3000 * X + G + v * (1 + 3000 * X + G)) * b ≤ 3010 * X * b := mul_le_mul_of_nonneg_right k4 hb
  have hX2 : 48500 * X ≤ 1 / 100 := by norm_num at hX1; linarith
  have hv1 : v ≤ 1 / 1000 := by
    have : v ≤ n * v := by nlinarith
    norm_num at hnv
    linarith
  have hT : (48500 * X * f + 410 * n ^ 2 * w + (f + e + e + 1 + v)) * (r * s * (n * p * η)) ≤
      (305 / 100 * (f + 1)) * (2 * (n * r * s * η)) := by
    refine mul_le_mul ?_ ht ht0 (by positivity)
    have := mul_le_mul_of_nonneg_right hX2 hf
    have h5 : 410 * (n : ℝ) ^ 2 * w = 410 * (n ^ 2 * w) := by ring
    linarith
  have hD : s * η * (f + e) ≤ n * r * s * η * (2 * f + 1) := mul_le_mul hsη (by linarith) (by linarith) (by positivity)
  have hM : 0 ≤ n * r * s * η := by positivity
  have hMf : 0 ≤ n * r * s * η * f := by positivity
  have r1 : 48500 * ((n : ℝ) ^ 2 * r) * v * f * x = 48500 * X * f * x := by rw [hX]; ring
  have r2 : 3010 * ((n : ℝ) ^ 2 * r) * v * b = 3010 * X * b := by rw [hX]; ring
  rw [r1, r2]
  have r3 : (48500 * X * f + 410 * n ^ 2 * w) * (x + r * s * (n * p * η)) + (f + e + e + 1 + v) * (r * s * (n * p * η)) =
      48500 * X * f * x + 410 * n ^ 2 * w * x + (48500 * X * f + 410 * n ^ 2 * w + (f + e + e + 1 + v)) * (r * s * (n * p * η)) := by ring
  have r4 : 9 * (n * r) * s * (f + 1) * η = 9 * (n * r * s * η * f) + 9 * (n * r * s * η) := by ring
  rw [r4]
  have r5 : (305 / 100 * (f + 1)) * (2 * (n * r * s * η)) = 61 / 10 * (n * r * s * η * f) + 61 / 10 * (n * r * s * η) := by ring
  have r6 : n * r * s * η * (2 * f + 1) = 2 * (n * r * s * η * f) + n * r * s * η := by ring
  linarith only [hC, hB, hT, hD, hM, hMf, r3, r5, r6]

/-- The numbers of the inverse for binary64. -/
private theorem inverse_num {r n v X f e w g δ : ℝ} (hr : 1 ≤ r) (hn : n = r ^ 2) (hv : 0 ≤ v) (hX : X = n ^ 2 * r * v)
    (hX1 : X ≤ 1 / 2 ^ 23) (hf : 0 ≤ f) (hw : 0 ≤ w) (he : e = 45000 * n ^ 2 * v * f + 400 * n ^ 2 * w)
    (hg : g ≤ 4 * (n * v)) (hδ : δ = 3000 * X) :
    e * (1 + δ) ^ 2 + (f + e) * δ * (1 + δ) + (f + e + e) * (g * (r + δ) ^ 2) ≤ 48500 * X * f + 410 * n ^ 2 * w := by
  have hX0 : 0 ≤ X := by rw [hX, hn]; positivity
  have hn0 : 1 ≤ n := by rw [hn]; nlinarith
  have hX2 : X ≤ 1 / 8000000 := by norm_num at hX1; linarith
  have hδ0 : 0 ≤ δ := by rw [hδ]; positivity
  have hδ2 : δ ≤ 1 / 2000 := by rw [hδ]; linarith
  have hn2v : n ^ 2 * v ≤ X := by
    rw [hX]
    have : 0 ≤ n ^ 2 * v := by positivity
    nlinarith
  have he0 : 0 ≤ e := by rw [he]; positivity
  have hrd : (r + δ) ^ 2 ≤ 2 * n := by
    rw [hn]
    have : r + δ ≤ r * (2001 / 2000) := by linarith
    calc (r + δ) ^ 2 ≤ (r * (2001 / 2000)) ^ 2 := pow_le_pow_left₀ (by linarith) this 2
      _ ≤ 2 * r ^ 2 := by nlinarith [sq_nonneg r]
  have hG : g * (r + δ) ^ 2 ≤ 8 * X := by
    calc g * (r + δ) ^ 2 ≤ 4 * (n * v) * (2 * n) := mul_le_mul hg hrd (by positivity) (by positivity)
      _ = 8 * (n ^ 2 * v) := by ring
      _ ≤ _ := by linarith
  have h1 : e * (1 + δ) ^ 2 ≤ e * (1002 / 1000) := mul_le_mul_of_nonneg_left (by nlinarith) he0
  have h2 : (f + e) * δ * (1 + δ) ≤ (f + e) * (3002 * X) := by
    rw [mul_assoc]
    refine mul_le_mul_of_nonneg_left ?_ (by linarith)
    rw [hδ]
    nlinarith
  have h3 : (f + e + e) * (g * (r + δ) ^ 2) ≤ (f + e + e) * (8 * X) := mul_le_mul_of_nonneg_left hG (by linarith)
  have h4 : n ^ 2 * v * f ≤ X * f := mul_le_mul_of_nonneg_right hn2v hf
  have h5 : 0 ≤ n ^ 2 * w := by positivity
  have h6 : 0 ≤ X * f := by positivity
  have h7 : e = 45000 * (n ^ 2 * v * f) + 400 * (n ^ 2 * w) := by rw [he]; ring
  have h8 : X * e ≤ 1 / 8000000 * e := mul_le_mul_of_nonneg_right hX2 he0
  have h9 : (f + e) * (3002 * X) + (f + e + e) * (8 * X) = 3010 * (X * f) + 3018 * (X * e) := by ring
  have h10 : 48500 * X * f + 410 * n ^ 2 * w = 48500 * (X * f) + 410 * (n ^ 2 * w) := by ring
  rw [h10]
  linarith

/-- The bound of C113 for the inverse in binary64. -/
private theorem inverse64 {n : Nat} (hn : 0 < n) (hn' : n ≤ 2 ^ 12) {f e X w μ : ℝ} (hf : 0 ≤ f) (hμ : 0 < μ)
    (hw : 0 ≤ w) (hw1 : w ≤ (1 / 2) ^ 60) (hX : X = (n : ℝ) ^ 2 * √n * (1 / 2) ^ 53) (he : e = 45000 * n ^ 2 * (1 / 2) ^ 53 * f + 400 * n ^ 2 * w) :
    inverseErr B64 n (3000 * X) e (f + e) μ ≤
      (48500 * (n ^ 2 * √n) * (1 / 2) ^ 53 * f + 410 * n ^ 2 * w) / μ + 3000 * (n ^ 2 * √n) * (1 / 2) ^ 53 +
        3 * n ^ 2 * (f + 1) * (1 / μ + 1) * η B64 := by
  obtain ⟨r, hr⟩ : ∃ r, r = √(n : ℝ) := ⟨_, rfl⟩
  have hn1 : (1 : ℝ) ≤ n := by exact_mod_cast hn
  have hn2 : (n : ℝ) ≤ 2 ^ 12 := by exact_mod_cast hn'
  have hr1 : 1 ≤ r := by rw [hr]; exact Real.one_le_sqrt.2 hn1
  have hr2 : (n : ℝ) = r ^ 2 := by rw [hr, Real.sq_sqrt (by linarith)]
  have hr3 : r ≤ 2 ^ 6 := by
    rw [hr]
    exact Real.sqrt_le_iff.2 ⟨by positivity, by rw [← pow_mul]; exact hn2⟩
  have hu0 : u B64 = (1 / 2) ^ 53 := rfl
  have hη := η_nonneg (α := B64)
  obtain ⟨v, hvv⟩ : ∃ v : ℝ, v = (1 / 2) ^ 53 := ⟨_, rfl⟩
  have hv0 : 0 ≤ v := by rw [hvv]; positivity
  rw [← hr] at hX ⊢
  have hX1 : X ≤ 1 / 2 ^ 23 := by
    rw [hX]
    calc (n : ℝ) ^ 2 * r * (1 / 2) ^ 53 ≤ (2 ^ 12) ^ 2 * 2 ^ 6 * (1 / 2) ^ 53 := by gcongr
      _ ≤ 1 / 2 ^ 23 := by norm_num
  have hnv : (n : ℝ) * v ≤ 1 / 2 ^ 41 := by
    rw [hvv]
    calc (n : ℝ) * (1 / 2) ^ 53 ≤ 2 ^ 12 * (1 / 2) ^ 53 := by gcongr
      _ ≤ 1 / 2 ^ 41 := by norm_num
  have hn2v : (n : ℝ) ^ 2 * v ≤ 1 / 2 ^ 29 := by
    rw [hvv]
    calc (n : ℝ) ^ 2 * (1 / 2) ^ 53 ≤ (2 ^ 12) ^ 2 * (1 / 2) ^ 53 := by gcongr
      _ ≤ 1 / 2 ^ 29 := by norm_num
  have hn2w : (n : ℝ) ^ 2 * w ≤ 1 / 1000000 := by
    calc (n : ℝ) ^ 2 * w ≤ (2 ^ 12) ^ 2 * (1 / 2) ^ 60 := by gcongr
      _ ≤ 1 / 1000000 := by norm_num
  have hv1 : v ≤ n * v := by nlinarith
  rw [← hvv] at hX he hu0 ⊢
  have hg : gam B64 (n + 1) ≤ 4 * (n * v) := by
    have := pow_le_lin (x := v) (p := n + 1) hv0 (by push_cast; norm_num at hnv; linarith)
    unfold gam
    rw [hu0]
    push_cast at this ⊢
    linarith
  have hp : (1 + u B64) ^ n ≤ 2 := by
    have := pow_le_lin (x := v) (p := n) hv0 (by norm_num at hnv; linarith)
    rw [hu0]
    norm_num at hnv
    linarith
  have key := inverse_num hr1 hr2 hv0 hX hX1 hf hw he hg rfl
  have hp0 : 0 ≤ (1 + u B64) ^ n := by
    rw [hu0]
    positivity
  unfold inverseErr
  rw [← hr]
  generalize gam B64 (n + 1) = G at *
  generalize (1 + u B64) ^ n = p at *
  generalize η B64 = η at *
  have hμ0 : 0 ≤ 1 / μ := by positivity
  have he2 : f + e + e ≤ 3 / 2 * (f + 1) := by
    have h1 : 45000 * ((n : ℝ) ^ 2 * v) ≤ 1 / 1000 := by norm_num at hn2v; linarith
    have h2 := mul_le_mul_of_nonneg_right h1 hf
    have h3 : e = 45000 * ((n : ℝ) ^ 2 * v) * f + 400 * (n ^ 2 * w) := by rw [he]; ring
    linarith
  have hT : (f + e + e) * (n * (n * p * (1 / μ + 1) * η)) ≤ 3 * n ^ 2 * (f + 1) * (1 / μ + 1) * η := by
    have h1 : (f + e + e) * p ≤ 3 / 2 * (f + 1) * 2 := mul_le_mul he2 hp hp0 (by linarith)
    calc (f + e + e) * (n * (n * p * (1 / μ + 1) * η)) = (f + e + e) * p * (n ^ 2 * (1 / μ + 1) * η) := by ring
      _ ≤ 3 / 2 * (f + 1) * 2 * (n ^ 2 * (1 / μ + 1) * η) := mul_le_mul_of_nonneg_right h1 (by positivity)
      _ = _ := by ring
  have hK := div_le_div_of_nonneg_right key hμ.le
  have r1 : 48500 * ((n : ℝ) ^ 2 * r) * v * f = 48500 * X * f := by rw [hX]; ring
  have r2 : 3000 * ((n : ℝ) ^ 2 * r) * v = 3000 * X := by rw [hX]; ring
  rw [r1, r2]
  have r3 : (e * (1 + 3000 * X) ^ 2 + (f + e) * (3000 * X) * (1 + 3000 * X)) / μ + 3000 * X +
      (f + e + e) * (G / μ * (r + 3000 * X) ^ 2 + n * (n * p * (1 / μ + 1) * η)) =
      (e * (1 + 3000 * X) ^ 2 + (f + e) * (3000 * X) * (1 + 3000 * X) + (f + e + e) * (G * (r + 3000 * X) ^ 2)) / μ + 3000 * X +
        (f + e + e) * (n * (n * p * (1 / μ + 1) * η)) := by ring
  rw [r3]
  linarith only [hK, hT]

/-- What C109 gives for the decomposition of a symmetric binary64 matrix, in the form that C113 takes. -/
theorem frame64 {n : Nat} {g : Eig B64 n} {A : Matrix (Fin n) (Fin n) ℝ} {e : ℝ} {O : Matrix (Fin n) (Fin n) ℝ} (o1 : Oᵀ * O = 1)
    (o3 : fro (A - O * Matrix.diagonal (fun i : Fin n => val (g.re.f i)) * Oᵀ) ≤ e) :
    fro (Matrix.diagonal fun i : Fin n => val (g.re.f i)) ≤ fro A + e := by
  have h1 := fro_add_le A (-(A - O * Matrix.diagonal (fun i : Fin n => val (g.re.f i)) * Oᵀ))
  rw [fro_neg, show A + (-(A - O * Matrix.diagonal (fun i : Fin n => val (g.re.f i)) * Oᵀ)) =
    O * Matrix.diagonal (fun i : Fin n => val (g.re.f i)) * Oᵀ by abel,
    fro_right (by rwa [Matrix.transpose_transpose]), fro_left o1] at h1
  linarith

private theorem sqrt_tiny : √(((1 : ℝ) / 2) ^ 1075) ≤ (1 / 2) ^ 60 := by
  refine Real.sqrt_le_iff.2 ⟨by positivity, ?_⟩
  rw [← pow_mul]
  exact pow_le_pow_of_le_one (by norm_num) (by norm_num) (by norm_num)

section binary64

variable {n : Nat} {eps : B64} (fe : fin eps) (hε : val eps = (1 / 2) ^ 53) {a : Mat B64 n n} (ha : a.own)
    (hn : 0 < n) (hn' : n ≤ 2 ^ 12) {A : Nat → Nat → B64} (hA : Shows a.at n n A)
    (hS : ∀ i j, i < n → j < n → A i j = A j i) {s : Tri B64 n n} (hs : Tri.new a = .ok s)
    {mt : Mat B64 n n} {T : Nat → Nat → B64} (et : s.t = .ok ⟨n, n, mt⟩) (hT : Shows mt.at n n T)
    (hfin : ∀ i j, i < n → j < n → fin (T i j))
    (hlow : ∀ i, i + 1 < n → val (T i (i + 1)) = 0 ∨ n * (1 / 2) ^ 1020 ≤ val (T i (i + 1)) ^ 2)
    (hhigh : ∀ i, i + 1 < n → |val (T i (i + 1))| ≤ 2 ^ 510) (hN : fro (mx n n fun i j => val (A i j)) ≤ 2 ^ 1000)
    {g : Eig B64 n} (hg : Eig.newSym eps a = .ok g) (hv : ∀ i j, i < n → j < n → fin (g.vec.f i j))

include fe hε ha hn hn' hA hS hs et hT hfin hlow hhigh hN hg hv

/-- **C113** for binary64 and `SolveMatrix`: the decomposition of a symmetric matrix of at most 4096 rows, under the hypotheses of
`C109_binary64`. -/
theorem C113_matrix_binary64 {epsEd : B64} {q : Nat} (hq : 0 < q) {b x : Mat B64 n q} {B X : Nat → Nat → B64} (hB : Shows b.at n q B)
    (ex : g.solveMatrix epsEd b = .ok ⟨n, q, x⟩) (hX : Shows x.at n q X) (hf : ∀ i j, i < n → j < q → fin (X i j)) :
    (∀ i j, i < n → j < q → fin (B i j)) ∧
    fro ((mx n n fun i j => val (A i j)) * (mx n q fun i j => val (X i j)) - mx n q fun i j => val (B i j)) ≤
      48500 * (n ^ 2 * √n) * (1 / 2) ^ 53 * fro (mx n n fun i j => val (A i j)) * fro (mx n q fun i j => val (X i j)) +
        410 * n ^ 2 * √((1 / 2) ^ 1075) * fro (mx n q fun i j => val (X i j)) +
        3010 * (n ^ 2 * √n) * (1 / 2) ^ 53 * fro (mx n q fun i j => val (B i j)) +
        9 * (n * √n) * √q * (fro (mx n n fun i j => val (A i j)) + 1) * (1 / 2) ^ 1075 := by
  obtain ⟨r1, -, ⟨O, o1, o2, o3⟩, -⟩ := C109_binary64 fe hε ha hn (hn'.trans (by norm_num)) hA hS hs et hT hfin hlow hhigh hN hg hv
  obtain ⟨k1, k2⟩ := solve64 (q := q) hn hn' (fro_nonneg (mx n n fun i j => val (A i j)))
    (fro_nonneg (mx n q fun i j => val (X i j))) (fro_nonneg (mx n q fun i j => val (B i j))) (Real.sqrt_nonneg _) sqrt_tiny rfl rfl
  rw [mul_assoc 3000] at o2
  obtain ⟨h1, h2⟩ := C113_matrix hn r1 o1 o2 (frame64 o1 o3) o3 k1 hq hB ex hX hf
  exact ⟨h1, h2.trans k2⟩

/-- **C113** for binary64 and `SolveVector`. -/
theorem C113_vector_binary64 {epsEd : B64} {b : RVec B64} {x : List B64} (ex : g.solveVector epsEd b = .ok x) (hf : ∀ y ∈ x, fin y) :
    b.dim = n ∧ x.length = n ∧ (∀ y ∈ b.list, fin y) ∧
    √(∑ i : Fin n, (((mx n n fun i j => val (A i j)) *ᵥ fun j : Fin n => val (nth x j)) i - val (nth b.list i)) ^ 2) ≤
      48500 * (n ^ 2 * √n) * (1 / 2) ^ 53 * fro (mx n n fun i j => val (A i j)) * √(∑ i : Fin n, val (nth x i) ^ 2) +
        410 * n ^ 2 * √((1 / 2) ^ 1075) * √(∑ i : Fin n, val (nth x i) ^ 2) +
        3010 * (n ^ 2 * √n) * (1 / 2) ^ 53 * √(∑ i : Fin n, val (nth b.list i) ^ 2) +
        9 * (n * √n) * (fro (mx n n fun i j => val (A i j)) + 1) * (1 / 2) ^ 1075 := by
  obtain ⟨r1, -, ⟨O, o1, o2, o3⟩, -⟩ := C109_binary64 fe hε ha hn (hn'.trans (by norm_num)) hA hS hs et hT hfin hlow hhigh hN hg hv
  obtain ⟨k1, k2⟩ := solve64 (q := 1) hn hn' (fro_nonneg (mx n n fun i j => val (A i j)))
    (Real.sqrt_nonneg (∑ i : Fin n, val (nth x i) ^ 2)) (Real.sqrt_nonneg (∑ i : Fin n, val (nth b.list i) ^ 2))
    (Real.sqrt_nonneg _) sqrt_tiny rfl rfl
  rw [mul_assoc 3000] at o2
  obtain ⟨h0, h0', h1, h2⟩ := C113_vector hn r1 o1 o2 (frame64 o1 o3) o3 k1 ex hf
  refine ⟨h0, h0', h1, (h2.trans k2).trans (le_of_eq ?_)⟩
  rw [Nat.cast_one, Real.sqrt_one, mul_one]
  rfl

/-- **C113** for binary64 and `Inverse`. -/
theorem C113_inverse_binary64 {epsEd : B64} {μ : ℝ} (hμ : 0 < μ) (hl : ∀ i, i < n → μ ≤ |val (g.re.f i)|) {x : Mat B64 n n}
    {X : Nat → Nat → B64} (ex : g.inverse epsEd = .ok ⟨n, n, x⟩) (hX : Shows x.at n n X) (hf : ∀ i j, i < n → j < n → fin (X i j)) :
    fro ((mx n n fun i j => val (A i j)) * (mx n n fun i j => val (X i j)) - 1) ≤
      (48500 * (n ^ 2 * √n) * (1 / 2) ^ 53 * fro (mx n n fun i j => val (A i j)) + 410 * n ^ 2 * √((1 / 2) ^ 1075)) / μ +
        3000 * (n ^ 2 * √n) * (1 / 2) ^ 53 + 3 * n ^ 2 * (fro (mx n n fun i j => val (A i j)) + 1) * (1 / μ + 1) * (1 / 2) ^ 1075 := by
  obtain ⟨r1, -, ⟨O, o1, o2, o3⟩, -⟩ := C109_binary64 fe hε ha hn (hn'.trans (by norm_num)) hA hS hs et hT hfin hlow hhigh hN hg hv
  rw [mul_assoc 3000] at o2
  exact (C113_inverse hn r1 o1 o2 (frame64 o1 o3) o3 hμ hl ex hX hf).trans
    (inverse64 hn hn' (fro_nonneg (mx n n fun i j => val (A i j))) hμ (Real.sqrt_nonneg _) sqrt_tiny rfl rfl)

end binary64

/-! ### A concrete case -/

/-- Finite and of magnitude at most `c`. -/
private def Bd (x : B64) (c : ℝ) : Prop := fin x ∧ |val x| ≤ c

private theorem u_small : u B64 ≤ 1 / 2 := by
  show ((1 : ℝ) / 2) ^ 53 ≤ _
  norm_num

private theorem η_small : η B64 ≤ 1 := pow_le_one₀ (by norm_num) (by norm_num)

private theorem big_large : (10 : ℝ) ^ 9 ≤ big B64 :=
  le_trans (by norm_num : (10 : ℝ) ^ 9 ≤ 2 ^ 30) (pow_le_pow_right₀ (by norm_num) (by norm_num))

private theorem grown {x : B64} {z c : ℝ} (hz : |z| ≤ c) (h : |val x - z| ≤ u B64 * |z| + η B64) : |val x| ≤ 2 * c + 1 := by
  have h1 : u B64 * |z| ≤ 1 / 2 * |z| := mul_le_mul_of_nonneg_right u_small (abs_nonneg _)
  have h2 := abs_sub_abs_le_abs_sub (val x) z
  linarith [η_small, abs_nonneg z]

private theorem Bd.mul {x y : B64} {c d : ℝ} (hx : Bd x c) (hy : Bd y d) (h : c * d ≤ 10 ^ 9) : Bd (Flt.mul x y) (2 * (c * d) + 1) := by
  have h1 : |val x * val y| ≤ c * d := by
    rw [abs_mul]
    exact mul_le_mul hx.2 hy.2 (abs_nonneg _) ((abs_nonneg _).trans hx.2)
  have hf := mul_ok hx.1 hy.1 (h1.trans (h.trans big_large))
  exact ⟨hf, grown h1 (mul_err hf).1⟩

private theorem Bd.add {x y : B64} {c d : ℝ} (hx : Bd x c) (hy : Bd y d) (h : c + d ≤ 10 ^ 9) : Bd (Flt.add x y) (2 * (c + d) + 1) := by
  have h1 : |val x + val y| ≤ c + d := (abs_add_le _ _).trans (add_le_add hx.2 hy.2)
  have hf := add_ok hx.1 hy.1 (h1.trans (h.trans big_large))
  exact ⟨hf, grown h1 ((add_err hf).1.trans (by linarith [η_nonneg (α := B64)]))⟩

private theorem Bd.div {x y : B64} {c : ℝ} (hx : Bd x c) (hy : B64.Is y 1 ∨ B64.Is y 2) (h : c ≤ 10 ^ 9) : Bd (Flt.div x y) (2 * c + 1) := by
  have hy1 : fin y := by rcases hy with p | p <;> exact p.1
  have hy2 : 1 ≤ val y := by rcases hy with p | p <;> rw [p.2]; norm_num
  have h1 : |val x / val y| ≤ c := by
    rw [abs_div, abs_of_pos (by linarith : 0 < val y)]
    exact (div_le_self (abs_nonneg _) hy2).trans hx.2
  have hf := div_ok hx.1 hy1 (by linarith) (h1.trans (h.trans big_large))
  exact ⟨hf, grown h1 (div_err hf hy1).1⟩

private theorem Bd.mono {x : B64} {c d : ℝ} (hx : Bd x c) (h : c ≤ d) : Bd x d := ⟨hx.1, hx.2.trans h⟩

private theorem Bd.zero : Bd Flt.zero 0 := ⟨zero_fin, by rw [val_zero, abs_zero]⟩

private theorem expand_two {V : Nat → Nat → B64} {d b : Nat → B64} (hV : ∀ i j, i < 2 → j < 2 → Bd (V i j) 2)
    (hd : ∀ i, i < 2 → B64.Is (d i) 1 ∨ B64.Is (d i) 2) (hb : ∀ i, i < 2 → Bd (b i) 2) {j : Nat} (hj : j < 2) :
    fin (expand 2 V d b j) := by
  have h1 : ∀ i, i < 2 → Bd (lsum 0 2 (fun k => Flt.mul (V i k) (b k)) Flt.zero) 61 := fun i hi => by
    have p0 := (hV i 0 hi (by omega)).mul (hb 0 (by omega)) (by norm_num)
    have p1 := (hV i 1 hi (by omega)).mul (hb 1 (by omega)) (by norm_num)
    rw [lsum_succ (by omega), lsum_succ (by omega), lsum_self le_rfl]
    exact ((Bd.zero.add p0 (by norm_num)).add p1 (by norm_num)).mono (by norm_num)
  have h2 : ∀ i, i < 2 → Bd (Flt.mul (Flt.div (lsum 0 2 (fun k => Flt.mul (V i k) (b k)) Flt.zero) (d i)) (V i j)) 493 := fun i hi =>
    (((h1 i hi).div (hd i hi) (by norm_num)).mul (hV i j hi hj) (by norm_num)).mono (by norm_num)
  unfold expand
  rw [lsum_succ (by omega), lsum_succ (by omega), lsum_self le_rfl]
  exact ((Bd.zero.add (h2 0 (by omega)) (by norm_num)).add (h2 1 (by omega)) (by norm_num)).1

theorem newSym_im {α : Type} [Flt α] {n c : Nat} {eps : α} {a : Mat α n c} {g : Eig α n} (h : Eig.newSym eps a = .ok g) :
    g.im = Row.zero n := by
  unfold Eig.newSym at h
  obtain ⟨t, -, h⟩ := ok_inv h
  obtain ⟨z, -, h⟩ := ok_inv h
  obtain ⟨y, -, h⟩ := ok_inv h
  unfold Eig.findSym at h
  obtain ⟨_, -, h⟩ := ok_inv h
  obtain ⟨_, -, h⟩ := ok_inv h
  obtain ⟨_, -, h⟩ := ok_inv h
  obtain ⟨_, -, h⟩ := ok_inv h
  obtain ⟨_, -, h⟩ := ok_inv h
  obtain ⟨_, -, h⟩ := ok_inv h
  cases h
  rfl

theorem two_nonsing {eps : B64} (heps : B64.Is eps ((1 / 2) ^ 53)) {g : Eig B64 2} (him : g.im = Row.zero 2)
    (hd : ∀ i, i < 2 → B64.Is (g.re.f i) 1 ∨ B64.Is (g.re.f i) 2) : g.isNonSingular eps = .ok true := by
  have h1 : ∀ i, i < 2 → ∃ x, g.normAt i = .ok x ∧ (B64.Is x 1 ∨ B64.Is x 2) := fun i hi => by
    refine ⟨_, by unfold Eig.normAt; rw [Row.get_ok hi, ok_bind, Row.get_ok hi, ok_bind]; rfl, ?_⟩
    have hz : B64.Is (g.im.f i) 0 := by rw [him]; exact B64.Is.zero
    have hz2 := hz.mul hz (t := 0) (by norm_num) (B64.dyi 0 (by norm_num))
    rcases hd i hi with p | p
    · exact .inl (((p.mul p (t := 1) (by norm_num) (B64.dyi 1 (by norm_num))).add hz2 (t := 1) (by norm_num)
        (B64.dyi 1 (by norm_num))).sqrt (by norm_num) (by norm_num) (B64.dyi 1 (by norm_num)))
    · exact .inr (((p.mul p (t := 4) (by norm_num) (B64.dyi 4 (by norm_num))).add hz2 (t := 4) (by norm_num)
        (B64.dyi 4 (by norm_num))).sqrt (by norm_num) (by norm_num) (B64.dyi 2 (by norm_num)))
  obtain ⟨x, ex, hx⟩ := h1 0 (by omega)
  obtain ⟨y, ey, hy⟩ := h1 1 (by omega)
  have hxf : fin x ∧ 1 ≤ val x ∧ val x ≤ 2 := by rcases hx with p | p <;> rw [p.2] <;> exact ⟨p.1, by norm_num, by norm_num⟩
  have hyf : fin y ∧ 1 ≤ val y ∧ val y ≤ 2 := by rcases hy with p | p <;> rw [p.2] <;> exact ⟨p.1, by norm_num, by norm_num⟩
  have m1 := max_fin (x := Flt.zero) (y := x) zero_fin hxf.1
  have m2 := max_fin (x := Flt.fmax Flt.zero x) (y := y) m1.1 hyf.1
  have hb : fin (Flt.fmax (Flt.fmax Flt.zero x) y) ∧ 1 ≤ val (Flt.fmax (Flt.fmax Flt.zero x) y) ∧
      val (Flt.fmax (Flt.fmax Flt.zero x) y) ≤ 2 := by
    refine ⟨m2.1, ?_, ?_⟩
    · rw [m2.2]; exact le_max_of_le_right hyf.2.1
    · rw [m2.2, m1.2, val_zero]; exact max_le (max_le (by norm_num) hxf.2.2) hyf.2.2
  generalize hB : Flt.fmax (Flt.fmax Flt.zero x) y = B at *
  have key : ∀ z : B64, fin z ∧ 1 ≤ val z ∧ val z ≤ 2 → equalsWithError (Flt.div z B) Flt.zero eps = false := fun z hz => by
    have q1 : 1 / 2 ≤ val z / val B := by rw [div_le_div_iff₀ (by norm_num) (by linarith)]; linarith
    have q2 : val z / val B ≤ 2 := by rw [div_le_iff₀ (by linarith)]; linarith
    have hq : fin (Flt.div z B) := div_ok hz.1 hb.1 (by linarith) (by rw [abs_of_pos (by linarith)]; exact q2.trans ((by norm_num : (2 : ℝ) ≤ 10 ^ 9).trans big_large))
    have hq2 : 1 / 8 ≤ val (Flt.div z B) := by
      have := (abs_le.1 (div_err hq hb.1).1).1
      rw [abs_of_pos (by linarith : 0 < val z / val B)] at this
      have hu : u B64 * (val z / val B) ≤ 1 / 8 * (val z / val B) := mul_le_mul_of_nonneg_right (by
        show ((1 : ℝ) / 2) ^ 53 ≤ _
        norm_num) (by linarith)
      have hη : η B64 ≤ 1 / 8 := (pow_le_pow_of_le_one (by norm_num) (by norm_num) (by norm_num : 3 ≤ 1075)).trans (by norm_num)
      linarith
    have hs : fin (Flt.sub Flt.zero (Flt.div z B)) := sub_ok zero_fin hq (by
      have := (div_err hq hb.1).1
      have := grown (c := 2) (by rw [abs_of_pos (by linarith)]; exact q2) this
      rw [val_zero, zero_sub, abs_neg]
      exact this.trans ((by norm_num : (2 : ℝ) * 2 + 1 ≤ 10 ^ 9).trans big_large))
    have hs2 : 1 / 16 ≤ |val (Flt.sub Flt.zero (Flt.div z B))| := by
      have h := (sub_err hs).1
      rw [val_zero, zero_sub, abs_neg, abs_of_pos (by linarith : 0 < val (Flt.div z B))] at h
      have hu : u B64 * val (Flt.div z B) ≤ 1 / 2 * val (Flt.div z B) := mul_le_mul_of_nonneg_right u_small (by linarith)
      have := (abs_le.1 h).2
      have := neg_abs_le (val (Flt.sub Flt.zero (Flt.div z B)))
      linarith
    unfold equalsWithError
    rw [Bool.or_eq_false_iff]
    constructor
    · by_contra h
      rw [Bool.not_eq_false] at h
      have := (ulp_zero h).2
      rw [abs_of_pos (by linarith)] at this
      have hη : η B64 ≤ 1 / 32 := (pow_le_pow_of_le_one (by norm_num) (by norm_num) (by norm_num : 5 ≤ 1075)).trans (by norm_num)
      linarith
    · by_contra h
      rw [Bool.not_eq_false, le_iff (abs_fin.2 hs) heps.1, val_abs hs, heps.2] at h
      have : ((1 : ℝ) / 2) ^ 53 < 1 / 16 := by norm_num
      linarith
  unfold Eig.isNonSingular
  rw [forUp_step (by omega), ex, ok_bind, pure_eq_ok, ok_bind, forUp_step (by omega), ey, ok_bind, pure_eq_ok, ok_bind, forUp_eq_self (by omega),
    ok_bind, hB, if_neg (by rw [eq_iff hb.1 zero_fin, val_zero]; linarith)]
  rcases forUpBrk_all (n := 2) (P := fun _ => True) (body := fun i (_ : Unit) => do
      let x ← g.normAt i
      return if equalsWithError (Flt.div x B) Flt.zero eps then .inr () else .inl ()) (fun i hi => by
        refine .inl ⟨trivial, ?_⟩
        obtain rfl | rfl : i = 0 ∨ i = 1 := by omega
        · rw [ex, ok_bind, key x hxf]; rfl
        · rw [ey, ok_bind, key y hyf]; rfl) with ⟨-, h⟩ | ⟨h, -⟩
  · rw [h]; rfl
  · exact absurd (fun _ _ => trivial) h

/-- Concrete case: the decomposition of the matrix with the rows `(1, -2⁻³⁰)` and `(-2⁻³⁰, 2)` meets all hypotheses of the three theorems
for binary64, and with them those of the general ones: the right-hand side `(1, 2)`, the matrix itself as right-hand side, and the inverse
with `μ = 1`. -/
example : ∃ (eps : B64) (a : Mat B64 2 2) (s : Tri B64 2 2) (mt : Mat B64 2 2) (T : Nat → Nat → B64) (g : Eig B64 2) (x : List B64)
    (y z : Mat B64 2 2) (Y Z : Nat → Nat → B64), fin eps ∧ val eps = (1 / 2) ^ 53 ∧ a.own ∧ Shows a.at 2 2 Eig.caseA ∧
    (∀ i j, i < 2 → j < 2 → Eig.caseA i j = Eig.caseA j i) ∧ Tri.new a = .ok s ∧ s.t = .ok ⟨2, 2, mt⟩ ∧ Shows mt.at 2 2 T ∧
    (∀ i j, i < 2 → j < 2 → fin (T i j)) ∧
    (∀ i, i + 1 < 2 → val (T i (i + 1)) = 0 ∨ (2 : ℕ) * (1 / 2) ^ 1020 ≤ val (T i (i + 1)) ^ 2) ∧
    (∀ i, i + 1 < 2 → |val (T i (i + 1))| ≤ 2 ^ 510) ∧ fro (mx 2 2 fun i j => val (Eig.caseA i j)) ≤ 2 ^ 1000 ∧
    Eig.newSym eps a = .ok g ∧ (∀ i j, i < 2 → j < 2 → fin (g.vec.f i j)) ∧
    g.solveVector eps (.arr [Flt.one, Flt.two]) = .ok x ∧ (∀ y ∈ x, fin y) ∧
    g.solveMatrix eps a = .ok ⟨2, 2, y⟩ ∧ Shows y.at 2 2 Y ∧ (∀ i j, i < 2 → j < 2 → fin (Y i j)) ∧
    g.inverse eps = .ok ⟨2, 2, z⟩ ∧ Shows z.at 2 2 Z ∧ (∀ i j, i < 2 → j < 2 → fin (Z i j)) ∧ ∀ i, i < 2 → 1 ≤ |val (g.re.f i)| := by
  obtain ⟨eps, a, s, mt, T, g, h1, h2, h3, h4, h5, h6, h7, h8, h9, h10, h11, h12, h13, h14, h15⟩ := Eig.case_new
  have hns := two_nonsing ⟨h1, h2⟩ (newSym_im h13) h15
  obtain ⟨-, -, -, ho⟩ := C109_binary64 h1 h2 h3 (by norm_num) (by norm_num) h4 h5 h6 h7 h8 h9 h10 h11 h12 h13 h14
  have hV : ∀ i j, i < 2 → j < 2 → Bd (g.vec.f i j) 2 := fun i j hi hj => by
    refine ⟨h14 i j hi hj, ?_⟩
    have h := (abs_le.1 (ho ⟨i, hi⟩ ⟨i, hi⟩)).2
    rw [if_pos rfl, sum_range_succ, sum_range_one] at h
    have hr : √((2 : ℕ) : ℝ) ≤ 2 := Real.sqrt_le_iff.2 ⟨by norm_num, by norm_num⟩
    have hq : 7200 * ((((2 : ℕ) : ℝ)) ^ 2 * √((2 : ℕ) : ℝ)) * (1 / 2) ^ 53 ≤ 1 := by
      calc 7200 * ((((2 : ℕ) : ℝ)) ^ 2 * √((2 : ℕ) : ℝ)) * (1 / 2) ^ 53 ≤ 7200 * ((((2 : ℕ) : ℝ)) ^ 2 * 2) * (1 / 2) ^ 53 := by gcongr
        _ ≤ 1 := by norm_num
    refine abs_le_of_sq_le_sq ?_ (by norm_num)
    dsimp only at h
    obtain rfl | rfl : j = 0 ∨ j = 1 := by omega
    · nlinarith [mul_self_nonneg (val (g.vec.f i 1))]
    · nlinarith [mul_self_nonneg (val (g.vec.f i 0))]
  obtain ⟨x, ex, hx⟩ := C113_vector_terms hns (b := .arr [Flt.one, Flt.two]) rfl
  obtain ⟨y, ey, -, hy⟩ := C113_matrix_terms hns (by norm_num) (by norm_num) h4
  obtain ⟨z, ez, -, hz⟩ := C113_inverse_terms hns (by norm_num)
  refine ⟨eps, a, s, mt, T, g, x, y, z, _, _, h1, h2, h3, h4, h5, h6, h7, h8, h9, h10, h11, h12, h13, h14, ex, fun v hv => ?_, ey, hy,
    fun i j hi hj => ?_, ez, hz, fun i j hi hj => ?_, fun i hi => ?_⟩
  · obtain ⟨i, hi, rfl⟩ := List.getElem_of_mem hv
    have := hx.2 i (by rw [← hx.1]; exact hi)
    rw [List.getElem?_eq_getElem hi] at this
    rw [Option.some.inj this]
    refine expand_two hV h15 (fun k hk => ?_) (by rw [← hx.1]; exact hi)
    obtain rfl | rfl : k = 0 ∨ k = 1 := by omega
    · exact ⟨one_fin, by show |val (Flt.one : B64)| ≤ 2; rw [val_one]; norm_num⟩
    · exact ⟨two_fin, by show |val (Flt.two : B64)| ≤ 2; rw [val_two]; norm_num⟩
  · refine expand_two hV h15 (fun k hk => ?_) hi
    unfold Eig.caseA
    split_ifs
    · exact ⟨one_fin, by rw [val_one]; norm_num⟩
    · exact ⟨two_fin, by rw [val_two]; norm_num⟩
    · refine ⟨trivial, ?_⟩
      show |(-1 : ℝ) / 2 ^ 30| ≤ 2
      rw [abs_div]
      norm_num
  · have h2 : ∀ k, k < 2 → Bd (Flt.div (Flt.mul (g.vec.f k i) (g.vec.f k j)) (g.re.f k)) 19 := fun k hk =>
      (((hV k i hk hi).mul (hV k j hk hj) (by norm_num)).div (h15 k hk) (by norm_num)).mono (by norm_num)
    rw [lsum_succ (by omega), lsum_succ (by omega), lsum_self le_rfl]
    exact ((Bd.zero.add (h2 0 (by omega)) (by norm_num)).add (h2 1 (by omega)) (by norm_num)).1
  · rcases h15 i hi with p | p <;> rw [p.2] <;> norm_num

end Linear
