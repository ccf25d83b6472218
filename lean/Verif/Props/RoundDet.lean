import Verif.Props.RoundLU
import Verif.Props.RoundChol
import Verif.Props.LU

/-!
# C98: determinants in rounded arithmetic

The determinants that the LU and the Cholesky decomposition report are products of computed diagonal
entries.  The theorems say that they are the determinants of matrices near the given one, up to the
rounding of the product.  `u`, `η` and `gam` are as in C82.
-/

set_option linter.unusedSectionVars false

namespace Linear

open Spec Rnd
open Finset hiding val diag
open scoped Matrix

variable {α : Type} [Flt α] {n : Nat}

/-! ## Specification -/

/-- The products of the first `k` numbers, taken from the left, starting at `s`. -/
def Spec.lprod (s : α) (g : Nat → α) : Nat → α
  | 0 => s
  | k + 1 => Flt.mul (lprod s g k) (g k)

/-- What underflow in a product of `n` numbers of magnitudes `t` can amount to: what is lost after the factor
`j` is multiplied with the factors that follow. -/
noncomputable def Spec.lost (n : Nat) (t : Nat → ℝ) : ℝ := ∑ j ∈ range n, ∏ i ∈ Ico (j + 1) n, t i

theorem lost_succ (n : Nat) (t : Nat → ℝ) : lost (n + 1) t = lost n t * t n + 1 := by
  unfold lost
  rw [sum_range_succ, Ico_self, prod_empty, sum_mul]
  congr 1
  refine sum_congr rfl fun j hj => ?_
  rw [prod_Ico_succ_top (by have := mem_range.1 hj; omega)]

theorem lost_nonneg {n : Nat} {t : Nat → ℝ} (h : ∀ i, i < n → 0 ≤ t i) : 0 ≤ lost n t :=
  sum_nonneg fun j _ => prod_nonneg fun i hi => h i (mem_Ico.1 hi).2

theorem lost_congr {n : Nat} {t t' : Nat → ℝ} (h : ∀ i, i < n → t i = t' i) : lost n t = lost n t' :=
  sum_congr rfl fun _ _ => prod_congr rfl fun i hi => h i (mem_Ico.1 hi).2

section round

variable [Rnd α]

/-- All factors of a finite product are finite. -/
theorem lprod_fin {s : α} {g : Nat → α} : ∀ k, fin (lprod s g k) → fin s ∧ ∀ i, i < k → fin (g i)
  | 0, h => ⟨h, fun i hi => by omega⟩
  | k + 1, h => by
    obtain ⟨h1, h2⟩ := mul_fin h
    obtain ⟨h3, h4⟩ := lprod_fin k h1
    refine ⟨h3, fun i hi => ?_⟩
    rcases Nat.lt_succ_iff_lt_or_eq.1 hi with h | rfl
    · exact h4 i h
    · exact h2

/-- One factor more: the error of a product stays below what a majorant gains. -/
theorem prod_step {p s : α} (h : fin (Flt.mul p s)) {P M t e : ℝ} (hp : |val p - P| ≤ M - |P|)
    (he : 0 ≤ e) (hs : |val s - t| ≤ e) :
    |val (Flt.mul p s) - P * t| ≤ ((1 + u α) * (M * (|t| + e)) + η α) - |P * t| := by
  have h1 := (mul_err h).1
  have hu := u_nonneg (α := α)
  have hM : |val p| ≤ M := by
    have := abs_add_le (val p - P) P
    rw [sub_add_cancel] at this
    linarith
  have hst : |val s| ≤ |t| + e := by
    have := abs_add_le (val s - t) t
    rw [sub_add_cancel] at this
    linarith
  have h2 : |val p * val s| ≤ M * (|t| + e) := by
    rw [abs_mul (val p)]
    exact mul_le_mul hM hst (abs_nonneg _) ((abs_nonneg _).trans hM)
  have h3 : |val p * val s - P * t| ≤ M * e + (M - |P|) * |t| := by
    have e1 : val p * val s - P * t = val p * (val s - t) + (val p - P) * t := by ring
    rw [e1]
    refine (abs_add_le _ _).trans ?_
    rw [abs_mul (val p), abs_mul (val p - P)]
    exact add_le_add (mul_le_mul hM hs (abs_nonneg _) ((abs_nonneg _).trans hM))
      (mul_le_mul_of_nonneg_right hp (abs_nonneg _))
  have h4 : |val (Flt.mul p s) - P * t| ≤ |val (Flt.mul p s) - val p * val s| + |val p * val s - P * t| := by
    have e1 : val (Flt.mul p s) - P * t =
        (val (Flt.mul p s) - val p * val s) + (val p * val s - P * t) := by ring
    rw [e1]
    exact abs_add_le _ _
  rw [abs_mul P t]
  have h5 : u α * |val p * val s| ≤ u α * (M * (|t| + e)) := mul_le_mul_of_nonneg_left h2 hu
  nlinarith

/-- The error of a product of finite numbers. -/
theorem lprod_err {s : α} {g : Nat → α} (hs : |val s| = 1) : ∀ k, fin (lprod s g k) →
    |val (lprod s g k) - val s * ∏ i ∈ range k, val (g i)| ≤
      (1 + u α) ^ k * ((∏ i ∈ range k, |val (g i)|) + lost k (fun i => |val (g i)|) * η α) -
        |val s * ∏ i ∈ range k, val (g i)|
  | 0, h => by simp [lprod, lost, hs]
  | k + 1, h => by
    have h1 := prod_step h (lprod_err hs k (mul_fin h).1) le_rfl
      (show |val (g k) - val (g k)| ≤ 0 by simp)
    rw [prod_range_succ, prod_range_succ, lost_succ, ← mul_assoc]
    refine h1.trans (sub_le_sub_right ?_ _)
    have hη := η_nonneg (α := α)
    have h2 : (1 : ℝ) ≤ (1 + u α) ^ (k + 1) := one_le_pow₀ (one_le_u (α := α))
    rw [pow_succ] at h2 ⊢
    have h3 : η α ≤ (1 + u α) ^ k * (1 + u α) * η α := by
      have := mul_le_mul_of_nonneg_right h2 hη
      linarith
    linarith

end round

/-! ## LU -/

theorem LU.determinant_bits {d : LU α n n} (hs : d.singular = false) :
    d.determinant = .ok (lprod (if d.even then Flt.one else Flt.neg Flt.one) (fun i => d.lu.f i i) n) := by
  unfold LU.determinant
  simp only [hs, Bool.false_eq_true, if_false]
  obtain ⟨x, e, hx⟩ := Wp.exists_ok (wp_forUp (E := fun _ : Fault => False)
    (s := if d.even then Flt.one else Flt.neg Flt.one)
    (body := fun i (det : α) => do return Flt.mul det (← d.lu.get i i))
    (fun k det => det = lprod (if d.even then Flt.one else Flt.neg Flt.one) (fun i => d.lu.f i i) k)
    (Nat.zero_le n) rfl (by
      rintro i x _ hi rfl
      rw [Tab.get_ok hi hi]
      rfl))
  rw [e, hx]

/-- **C98.** In any arithmetic, the determinant of a matrix that is not reported singular is the product of the
diagonal of `U` from the left, starting at the sign of the permutation; otherwise it is zero. -/
theorem C98_lu_product {thr ninf : α} {m : Mat α n n} (hm : m.own) (hn : 0 < n) {A : Nat → Nat → α}
    (hA : Shows m.at n n A) {d : LU α n n} (hd : LU.new thr ninf m = .ok d) :
    (d.singular = true → d.determinant = .ok Flt.zero) ∧
    ∀ {r : Mat α n n} {U : Nat → Nat → α}, d.u = .ok (some r) → Shows r.at n n U →
      ∃ σ : Equiv.Perm (Fin n), PivotIs d.pivots σ ∧
        d.determinant = .ok (lprod (if Equiv.Perm.sign σ = 1 then Flt.one else Flt.neg Flt.one)
          (fun i => U i i) n) := by
  refine ⟨fun hs => by simp [LU.determinant, hs, pure_eq_ok], fun {r U} eu hU => ?_⟩
  obtain ⟨d', e, h⟩ := LU.new_bits (thr := thr) (ninf := ninf) hm hn hA
  obtain rfl : d' = d := by rw [hd] at e; exact (Except.ok.inj e).symm
  have hs : d'.singular = false := by
    cases hs : d'.singular with
    | false => rfl
    | true =>
      unfold LU.u at eu
      simp [hs, pure_eq_ok] at eu
  obtain ⟨-, ⟨σ, hσ⟩, hI⟩ := h.resolve_right (by simp [hs])
  refine ⟨σ, LU.pivots_is hσ.1, ?_⟩
  rw [LU.determinant_bits hs]
  have e1 : (if d'.even then (Flt.one : α) else Flt.neg Flt.one) =
      if Equiv.Perm.sign σ = 1 then Flt.one else Flt.neg Flt.one := by
    rw [hσ.2]
    cases d'.even <;> simp
  rw [e1]
  congr 1
  have : ∀ k, k ≤ n → lprod (if Equiv.Perm.sign σ = 1 then (Flt.one : α) else Flt.neg Flt.one)
      (fun i => d'.lu.f i i) k = lprod (if Equiv.Perm.sign σ = 1 then Flt.one else Flt.neg Flt.one)
      (fun i => U i i) k := by
    intro k
    induction k with
    | zero => intro _; rfl
    | succ k ih =>
      intro hk
      show Flt.mul _ (d'.lu.f k k) = Flt.mul _ (U k k)
      rw [ih (by omega), LU.uf_shows hn hs eu hU (i := k) (j := k) (by omega) (by omega)]
      simp [LU.uf]
  exact this n le_rfl

section round

variable [Rnd α]

/-- **C98.** When the factors and the determinant are finite, the determinant is that of a matrix near the
given one — nearer than the bound of C82 — up to a relative error of `gam n` and a term for underflow. -/
theorem C98_lu {thr ninf : α} (hinf : ∀ x, fin x → Flt.lt ninf (Flt.abs x) = true)
    {m : Mat α n n} (hm : m.own) (hn : 0 < n) {A : Nat → Nat → α} (hA : Shows m.at n n A)
    {d : LU α n n} (hd : LU.new thr ninf m = .ok d)
    {l r : Mat α n n} {L U : Nat → Nat → α} (el : d.l = .ok (some l)) (eu : d.u = .ok (some r))
    (hL : Shows l.at n n L) (hU : Shows r.at n n U)
    (hfin : ∀ i j, i < n → j < n → fin (L i j) ∧ fin (U i j)) :
    ∃ x, d.determinant = .ok x ∧ (fin x →
      ∃ (σ : Equiv.Perm (Fin n)) (E : Matrix (Fin n) (Fin n) ℝ), PivotIs d.pivots σ ∧
        (∀ i j : Fin n, |E (σ i) j| ≤ gam α n * ∑ k ∈ range n, |val (L i k)| * |val (U k j)| +
          (1 + u α) ^ n * (n + |val (U j j)|) * η α) ∧
        |val x - (mx n n (fun i j => val (A i j)) + E).det| ≤
          gam α n * |(mx n n (fun i j => val (A i j)) + E).det| +
          (1 + u α) ^ n * lost n (fun i => |val (U i i)|) * η α) := by
  have hs : d.singular = false := by
    cases hs : d.singular with
    | false => rfl
    | true =>
      unfold LU.u at eu
      simp [hs, pure_eq_ok] at eu
  obtain ⟨-, h1⟩ := C98_lu_product hm hn hA hd
  obtain ⟨σ, hσ, ex⟩ := h1 eu hU
  obtain ⟨τ, hτ, -, -, hb⟩ := C82_backward hinf hm hn hA hd hs el eu hL hU hfin
  obtain rfl := LU.pivots_unique hτ hσ
  obtain ⟨l', u', -, L', U', -, -, el', eu', -, hL', hU', -, -, -, hlow, hup, -⟩ :=
    C82_recurrence hm hn hA hd hs
  rw [el] at el'; cases Except.ok.inj el'
  rw [eu] at eu'; cases Except.ok.inj eu'
  have eL : ∀ i j, i < n → j < n → L i j = L' i j := fun i j hi hj => hL.unique hL' hi hj
  have eU : ∀ i j, i < n → j < n → U i j = U' i j := fun i j hi hj => hU.unique hU' hi hj
  refine ⟨_, ex, fun hx => ?_⟩
  let LR : Matrix (Fin n) (Fin n) ℝ := mx n n fun i j => val (L i j)
  let UR : Matrix (Fin n) (Fin n) ℝ := mx n n fun i j => val (U i j)
  have hprod : ∀ i j : Fin n, (LR * UR) i j = ∑ k ∈ range n, val (L i k) * val (U k j) := fun i j => by
    rw [Matrix.mul_apply, ← Fin.sum_univ_eq_sum_range (fun k => val (L i k) * val (U k j))]
    rfl
  let E : Matrix (Fin n) (Fin n) ℝ :=
    (LR * UR).submatrix τ.symm id - mx n n (fun i j => val (A i j))
  have hAE : mx n n (fun i j => val (A i j)) + E = (LR * UR).submatrix τ.symm id := add_sub_cancel _ _
  have hdet : (mx n n (fun i j => val (A i j)) + E).det =
      ((Equiv.Perm.sign τ : ℤ) : ℝ) * ∏ i ∈ range n, val (U i i) := by
    rw [hAE, Matrix.det_permute, Matrix.det_mul, Equiv.Perm.sign_symm,
      det_lower (L := fun i j => val (L i j)) (fun i j hi hj hij => by
        rw [eL i j hi hj, hlow.2 i j hi hj hij, val_zero]),
      det_upper (U := fun i j => val (U i j)) (fun i j hi hj hij => by
        show val (U i j) = 0
        rw [eU i j hi hj, hup i j hi hj hij, val_zero]),
      prod_congr rfl (g := fun _ => (1 : ℝ)) (fun i hi => by
        rw [eL i i (mem_range.1 hi) (mem_range.1 hi), hlow.1 i (mem_range.1 hi), val_one]), prod_const_one,
      one_mul]
  refine ⟨τ, E, hσ, fun i j => ?_, ?_⟩
  · have e1 : E (τ i) j = ∑ k ∈ range n, val (L i k) * val (U k j) - val (A (τ i) j) := by
      show (LR * UR) (τ.symm (τ i)) j - _ = _
      rw [Equiv.symm_apply_apply, hprod]
      rfl
    rw [e1]
    exact hb i j
  · have hsg : val (if Equiv.Perm.sign τ = 1 then (Flt.one : α) else Flt.neg Flt.one) =
        ((Equiv.Perm.sign τ : ℤ) : ℝ) := by
      rcases Int.units_eq_one_or (Equiv.Perm.sign τ) with e | e <;> rw [e]
      · rw [if_pos rfl, val_one]; simp
      · rw [if_neg (by decide), val_neg one_fin, val_one]; simp
    have habs : |val (if Equiv.Perm.sign τ = 1 then (Flt.one : α) else Flt.neg Flt.one)| = 1 := by
      rw [hsg]
      rcases Int.units_eq_one_or (Equiv.Perm.sign τ) with e | e <;> rw [e] <;> simp
    have h2 := lprod_err habs n hx
    rw [hsg, ← hdet] at h2
    refine h2.trans (le_of_eq ?_)
    have e2 : |(mx n n (fun i j => val (A i j)) + E).det| = ∏ i ∈ range n, |val (U i i)| := by
      rw [hdet, abs_mul, ← hsg, habs, one_mul, abs_prod]
    rw [e2]
    unfold gam
    ring

end round

/-! ## Cholesky -/

/-- **C98.** In any arithmetic, the determinant of the Cholesky decomposition is the product from the left of
the squares of the diagonal of `LT`. -/
theorem C98_chol_product (d : Chol α n n) (hn : 0 < n) {lt : Mat α n n} {R : Nat → Nat → α}
    (el : d.getLT = .ok ⟨n, n, lt⟩) (hR : Shows lt.at n n R) :
    d.determinant = .ok (lprod Flt.one (fun i => Flt.mul (R i i) (R i i)) n) := by
  unfold Chol.determinant
  obtain ⟨x, e, hx⟩ := Wp.exists_ok (wp_forUp (E := fun _ : Fault => False) (s := (Flt.one : α))
    (body := fun i (det : α) => do
      let lTii ← d.lT.get i i
      return Flt.mul det (Flt.mul lTii lTii))
    (fun k det => det = lprod Flt.one (fun i => Flt.mul (R i i) (R i i)) k)
    (Nat.zero_le n) rfl (by
      rintro i x _ hi rfl
      rw [Jag.get_ok hi hi, ← Chol.lt_shows hn el hR hi hi]
      rfl))
  rw [e, hx]

section round

variable [Rnd α]

/-- The error of a product of rounded squares. -/
theorem lprod_sq {R : Nat → α} : ∀ k, fin (lprod Flt.one (fun i => Flt.mul (R i) (R i)) k) →
    0 ≤ val (lprod Flt.one (fun i => Flt.mul (R i) (R i)) k) ∧
    |val (lprod Flt.one (fun i => Flt.mul (R i) (R i)) k) - ∏ i ∈ range k, val (R i) ^ 2| ≤
      (1 + u α) ^ (2 * k) * ((∏ i ∈ range k, (val (R i) ^ 2 + η α)) +
        lost k (fun i => val (R i) ^ 2 + η α) * η α) - |∏ i ∈ range k, val (R i) ^ 2|
  | 0, h => by simp [lprod, lost, val_one]
  | k + 1, h => by
    have hη := η_nonneg (α := α)
    have hu := u_nonneg (α := α)
    obtain ⟨f1, f2⟩ := mul_fin h
    obtain ⟨h0, h1⟩ := lprod_sq k f1
    have hs : 0 ≤ val (Flt.mul (R k) (R k)) := mul_nn f2 (mul_self_nonneg _)
    refine ⟨mul_nn h (mul_nonneg h0 hs), ?_⟩
    have h2 := (mul_err f2).1
    rw [← sq, abs_of_nonneg (sq_nonneg (val (R k)))] at h2
    have h3 := prod_step h h1 (by positivity) h2
    rw [abs_of_nonneg (sq_nonneg (val (R k)))] at h3
    rw [prod_range_succ, prod_range_succ, lost_succ]
    refine h3.trans (sub_le_sub_right ?_ _)
    have hP : 0 ≤ (∏ i ∈ range k, (val (R i) ^ 2 + η α)) + lost k (fun i => val (R i) ^ 2 + η α) * η α :=
      add_nonneg (prod_nonneg fun i _ => by positivity)
        (mul_nonneg (lost_nonneg fun i _ => by positivity) hη)
    have e1 : (1 + u α) ^ (2 * (k + 1)) = (1 + u α) ^ (2 * k) * (1 + u α) ^ 2 := by
      rw [← pow_add]; rfl
    have h4 : val (R k) ^ 2 + (u α * val (R k) ^ 2 + η α) ≤ (1 + u α) * (val (R k) ^ 2 + η α) := by
      nlinarith
    have h5 : (1 : ℝ) ≤ (1 + u α) ^ (2 * k) * (1 + u α) ^ 2 := by
      rw [← e1]; exact one_le_pow₀ (one_le_u (α := α))
    rw [e1]
    generalize (∏ i ∈ range k, (val (R i) ^ 2 + η α)) = P at *
    generalize lost k (fun i => val (R i) ^ 2 + η α) = W at *
    have h6 : (1 + u α) ^ (2 * k) * (P + W * η α) * (val (R k) ^ 2 + (u α * val (R k) ^ 2 + η α)) ≤
        (1 + u α) ^ (2 * k) * (P + W * η α) * ((1 + u α) * (val (R k) ^ 2 + η α)) :=
      mul_le_mul_of_nonneg_left h4 (mul_nonneg (by positivity) hP)
    have h7 := mul_le_mul_of_nonneg_left h6 (by positivity : 0 ≤ 1 + u α)
    have h8 := mul_le_mul_of_nonneg_right h5 hη
    calc _ ≤ (1 + u α) * ((1 + u α) ^ (2 * k) * (P + W * η α) * ((1 + u α) * (val (R k) ^ 2 + η α))) +
          (1 + u α) ^ (2 * k) * (1 + u α) ^ 2 * η α := by linarith
      _ = _ := by ring

/-- **C98.** When the factor and the determinant are finite, the determinant is not negative, and it is that
of a symmetric matrix near the given one — nearer than the bound of C84 — up to the rounding of `2 n`
multiplications. -/
theorem C98_chol {rel pos : α} {m : Mat α n n} (hm : m.own) (hn : 0 < n) {A : Nat → Nat → α}
    (hA : Shows m.at n n A) {d : Chol α n n} (hd : Chol.new rel pos m = .ok d)
    {lt : Mat α n n} {R : Nat → Nat → α} (el : d.getLT = .ok ⟨n, n, lt⟩) (hR : Shows lt.at n n R)
    (hfin : ∀ i j, i < n → j < n → fin (R i j)) :
    ∃ x, d.determinant = .ok x ∧ (fin x → 0 ≤ val x ∧
      ∃ E : Matrix (Fin n) (Fin n) ℝ, E.IsSymm ∧
        (∀ i j : Fin n, i ≤ j → |E i j| ≤ gam α (n + 1) * ∑ k ∈ range n, |val (R k i)| * |val (R k j)| +
          (1 + u α) ^ n * (n + |val (R i i)|) * η α) ∧
        |val x - (mx n n (symU fun i j => val (A i j)) + E).det| ≤
          (1 + u α) ^ (2 * n) * ((∏ i ∈ range n, (val (R i i) ^ 2 + η α)) +
            lost n (fun i => val (R i i) ^ 2 + η α) * η α) -
          (mx n n (symU fun i j => val (A i j)) + E).det ∧
        (mx n n (symU fun i j => val (A i j)) + E).det = ∏ i ∈ range n, val (R i i) ^ 2) := by
  refine ⟨_, C98_chol_product d hn el hR, fun hx => ?_⟩
  obtain ⟨h0, h1⟩ := lprod_sq n hx
  obtain ⟨hb, -⟩ := C84_backward hm hn hA hd el hR hfin
  have hlow : ∀ i j, i < n → j < n → j < i → val (R i j) = 0 := by
    obtain ⟨hI, -⟩ := (Chol.new_bits (rel := rel) (pos := pos) hm hn hA).of_ok hd
    intro i j hi hj hji
    rw [Chol.lt_shows hn el hR hi hj, hI.spec.low i j hi hj hji, val_zero]
  let RR : Matrix (Fin n) (Fin n) ℝ := mx n n fun i j => val (R i j)
  let S : Matrix (Fin n) (Fin n) ℝ := mx n n (symU fun i j => val (A i j))
  have hprod : ∀ i j : Fin n, (RRᵀ * RR) i j = ∑ k ∈ range n, val (R k i) * val (R k j) := fun i j => by
    rw [Matrix.mul_apply, ← Fin.sum_univ_eq_sum_range (fun k => val (R k i) * val (R k j))]
    rfl
  have hAE : S + (RRᵀ * RR - S) = RRᵀ * RR := add_sub_cancel _ _
  have hdet : (S + (RRᵀ * RR - S)).det = ∏ i ∈ range n, val (R i i) ^ 2 := by
    rw [hAE, Matrix.det_mul, Matrix.det_transpose, det_upper (U := fun i j => val (R i j)) hlow,
      ← prod_mul_distrib]
    exact prod_congr rfl fun i _ => (sq _).symm
  have hnn : 0 ≤ ∏ i ∈ range n, val (R i i) ^ 2 := prod_nonneg fun i _ => sq_nonneg _
  have hsym : S.IsSymm := by
    ext i j
    show symU (fun i j => val (A i j)) j i = symU (fun i j => val (A i j)) i j
    unfold symU
    by_cases h1 : (i : Nat) ≤ j <;> by_cases h2 : (j : Nat) ≤ i
    · rw [show (i : Nat) = j by omega]
    · rw [if_pos h1, if_neg h2]
    · rw [if_neg h1, if_pos h2]
    · omega
  refine ⟨h0, RRᵀ * RR - S, ?_, fun i j hij => ?_, ?_, hdet⟩
  · refine Matrix.IsSymm.sub ?_ hsym
    show (RRᵀ * RR)ᵀ = RRᵀ * RR
    rw [Matrix.transpose_mul, Matrix.transpose_transpose]
  · have e1 : (RRᵀ * RR - S) i j = ∑ k ∈ range n, val (R k i) * val (R k j) - val (A i j) := by
      rw [Matrix.sub_apply, hprod]
      congr 1
      exact if_pos hij
    rw [e1]
    exact (hb i j hij j.2).2
  · show |_ - (S + (RRᵀ * RR - S)).det| ≤ _ - (S + (RRᵀ * RR - S)).det
    rw [hdet]
    rw [abs_of_nonneg hnn] at h1
    exact h1

end round

/-! ## Cases in binary64 -/

/-- The diagonals of the factor of the matrix 2 1 / 2 4. -/
theorem LU.case_diag (f : Nat → Nat → B64) (p : Nat → Nat) (h : LU.RInv 2 LU.caseA p 2 f) :
    f 0 0 = B64.int 2 ∧ ∃ (k : ℤ) (hk : |k| ≤ 2 ^ 53), |k| ≤ 3 ∧ f 1 1 = B64.int k hk := by
  have h00 := h.up 0 0 (by omega) (by omega) (by omega) le_rfl
  have h01 := h.up 0 1 (by omega) (by omega) (by omega) (by omega)
  have h10 := h.lo 1 0 (by omega) (by omega) (by omega) (by omega)
  have h11 := h.up 1 1 (by omega) (by omega) (by omega) le_rfl
  rw [lsub_self le_rfl] at h00 h01 h10
  rw [lsub_succ le_rfl, lsub_self le_rfl] at h11
  have e0 : ∀ i, LU.caseA i 0 = B64.int 2 := fun i => rfl
  rw [e0] at h00 h10
  rw [h00, B64.div_int (m := 1) _ _ (by norm_num) (by norm_num) (by norm_num)] at h10
  rw [h10] at h11
  have e1 : ∀ i, LU.caseA i 1 = B64.int 1 ∨ LU.caseA i 1 = B64.int 4 := fun i => by
    unfold LU.caseA
    by_cases e : i = 0 <;> simp [e]
  refine ⟨h00, ?_⟩
  rw [h11, h01]
  rcases e1 (p 0) with e | e <;> rcases e1 (p 1) with e' | e' <;>
    (rw [e, e', B64.mul_int _ _ (by norm_num), B64.sub_int _ _ (by norm_num)]
     exact ⟨_, by norm_num, by norm_num, rfl⟩)

/-- The matrix 2 1 / 2 4 of binary64 numbers, which meets the hypotheses of C82, has a finite determinant. -/
example : ∃ (m : Mat B64 2 2) (d : LU B64 2 2) (x : B64), m.own ∧ Shows m.at 2 2 LU.caseA ∧
    LU.new (Flt.zero : B64) (B64.inf true) m = .ok d ∧ d.singular = false ∧ d.determinant = .ok x ∧ fin x := by
  let m : Mat B64 2 2 := .arr ⟨⟨LU.caseA⟩, fun _ => 0⟩
  have hA : Shows m.at 2 2 LU.caseA := (Mat.at_shows m).congr fun i j hi hj => rfl
  have hthr : ∀ x : B64, Flt.lt (Flt.abs x) Flt.zero = false := by
    rintro (⟨x, hx⟩ | _ | _)
    · show decide (|x| < ((0 : ℤ) : ℝ)) = false
      simp
    · rfl
    · rfl
  obtain ⟨d, e, hs⟩ := LU.new_regular (ninf := B64.inf true) hthr (m := m) trivial (by omega) hA
  obtain ⟨d', e', h⟩ := LU.new_bits (thr := (Flt.zero : B64)) (ninf := B64.inf true) (m := m) trivial (by omega) hA
  obtain rfl : d' = d := by rw [e] at e'; exact (Except.ok.inj e').symm
  obtain ⟨-, -, hI⟩ := h.resolve_right (by simp [hs])
  obtain ⟨h1, k, hk, hk3, h2⟩ := LU.case_diag _ _ hI
  obtain ⟨s, hs1, hs2, hs3⟩ : ∃ (s : ℤ) (hs : |s| ≤ 2 ^ 53), |s| = 1 ∧
      (if d'.even then (Flt.one : B64) else Flt.neg Flt.one) = B64.int s hs := by
    cases d'.even
    · exact ⟨-1, by norm_num, by norm_num, B64.neg_int (k := 1) (by norm_num)⟩
    · exact ⟨1, by norm_num, by norm_num, rfl⟩
  have h3 : |s * 2| ≤ 2 ^ 53 := by rw [abs_mul, hs2]; norm_num
  have h4 : |s * 2 * k| ≤ 2 ^ 53 := by
    rw [abs_mul, abs_mul, hs2]
    norm_num
    linarith
  refine ⟨m, d', _, trivial, hA, e, hs, LU.determinant_bits hs, ?_⟩
  show fin (Flt.mul (Flt.mul (if d'.even then (Flt.one : B64) else Flt.neg Flt.one) (d'.lu.f 0 0)) (d'.lu.f 1 1))
  rw [hs3, h1, h2, B64.mul_int hs1 _ h3, B64.mul_int h3 hk h4]
  exact B64.int_fin _

/-- The factor of the matrix of the case of C84, with the diagonal 1 1, has the determinant 1. -/
example : fin (lprod (Flt.one : B64) (fun i => Flt.mul (Chol.caseR i i) (Chol.caseR i i)) 2) := by
  have h : ∀ i, Flt.mul (Chol.caseR i i) (Chol.caseR i i) = B64.int 1 := fun i => by
    have : Chol.caseR i i = B64.int 1 := by
      unfold Chol.caseR
      rw [if_neg (lt_irrefl i)]
    rw [this, B64.mul_int _ _ (by norm_num)]
    rfl
  show fin (Flt.mul (Flt.mul (Flt.one : B64) (Flt.mul _ _)) (Flt.mul _ _))
  rw [h, h, B64.one_int, B64.mul_int _ _ (by norm_num), B64.mul_int _ _ (by norm_num)]
  exact B64.int_fin _

end Linear
