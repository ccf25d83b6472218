import Verif.Lemmas.RoundBiUV
import Verif.Props.Bi
import Verif.Props.RoundQR

/-!
# C101, C102: the bidiagonal reduction in rounded arithmetic

`fro M` is the Frobenius norm and `cnorm M j` the Euclidean norm of column `j`.  The theorems hold for
every arithmetic that satisfies `Rnd`, in particular for `B64`.
-/

set_option linter.unusedSectionVars false

namespace Linear

open Spec Rnd Matrix
open Finset hiding val diag

/-! ## Specification -/

/-- The error of `p` reflections of length at most `N` on a matrix of norm `x` with at most `N` rows and
columns: a relative part of about `36 p (N + 4) e` and a part for underflow. -/
noncomputable def Spec.froErr (α : Type) [Flt α] [Rnd α] (N p : Nat) (e x : ℝ) : ℝ :=
  ((1 + 36 * (N + 4) * e) ^ p - 1) * x + p * (1 + 36 * (N + 4) * e) ^ p * (6 * N * √(η α))

section round

variable {α : Type} [Flt α] [Rnd α] {m n : Nat}

theorem sqrt_twice (N : Nat) : √(N : ℝ) * (6 * √(N * η α)) = 6 * N * √(η α) := by
  rw [Real.sqrt_mul (Nat.cast_nonneg N)]
  have := Real.mul_self_sqrt (Nat.cast_nonneg (α := ℝ) N)
  linear_combination 6 * √(η α) * this

/-- The error in terms without powers. -/
theorem froErr_le {N p : Nat} {e x : ℝ} (he : 0 ≤ e) (hx : 0 ≤ x) (h : p * (36 * (N + 4) * e) ≤ 1) :
    froErr α N p e x ≤ 72 * p * (N + 4) * e * x + 18 * p * N * √(η α) := by
  have h1 := pow_le_lin (p := p) (x := 36 * (N + 4) * e) (by positivity) h
  have h2 := Real.sqrt_nonneg (η α)
  have hp : (0 : ℝ) ≤ p := Nat.cast_nonneg _
  unfold froErr
  have h3 : (1 + 36 * (N + 4) * e) ^ p - 1 ≤ 72 * p * (N + 4) * e := by nlinarith
  have h4 : (1 + 36 * (N + 4) * e) ^ p ≤ 3 := by nlinarith
  have h5 := mul_le_mul_of_nonneg_right h3 hx
  have h6 : p * (1 + 36 * (N + 4) * e) ^ p * (6 * N * √(η α)) ≤ p * 3 * (6 * N * √(η α)) := by gcongr
  linarith

theorem hhErr_mono {N p p' : Nat} {e : ℝ} (he : 0 ≤ e) (h : p ≤ p') : hhErr α N p e 1 ≤ hhErr α N p' e 1 := by
  unfold hhErr
  have h1 : (1 + 36 * ((N : ℝ) + 4) * e) ^ p ≤ (1 + 36 * (N + 4) * e) ^ p' :=
    pow_le_pow_right₀ (by nlinarith [mul_nonneg (Nat.cast_nonneg (α := ℝ) N) he]) h
  have h2 := Real.sqrt_nonneg ((N : ℝ) * η α)
  have h3 : (p : ℝ) ≤ p' := by exact_mod_cast h
  gcongr

theorem hhErr_nonneg {N p : Nat} {e : ℝ} (he : 0 ≤ e) : 0 ≤ hhErr α N p e 1 := by
  have := hhErr_mono (α := α) (N := N) he (Nat.zero_le p)
  simpa [hhErr] using this

theorem fro_swap {U : Matrix (Fin m) (Fin m) ℝ} {V : Matrix (Fin n) (Fin n) ℝ} (hU : Uᵀ * U = 1) (hU' : U * Uᵀ = 1)
    (hV : V * Vᵀ = 1) (A B : Matrix (Fin m) (Fin n) ℝ) :
    fro (A - U * B * Vᵀ) = fro (B - Uᵀ * A * V) := by
  have e : A - U * B * Vᵀ = -(U * (B - Uᵀ * A * V)) * Vᵀ := by
    rw [Matrix.mul_sub, neg_sub, Matrix.sub_mul]
    have : U * (Uᵀ * A * V) * Vᵀ = A := by
      simp only [Matrix.mul_assoc]
      rw [hV, Matrix.mul_one, ← Matrix.mul_assoc, hU', Matrix.one_mul]
    rw [this]
  rw [e, Matrix.neg_mul, fro_neg, fro_right (by rw [Matrix.transpose_transpose, mul_eq_one_comm]; exact hV), fro_left hU]

/-- The product of matrices. -/
theorem fro_mul_le {p : Nat} (M : Matrix (Fin m) (Fin p) ℝ) (N : Matrix (Fin p) (Fin n) ℝ) :
    fro (M * N) ≤ fro M * fro N := by
  have key : ∑ i, ∑ j, (M * N) i j ^ 2 ≤ (∑ i, ∑ j, M i j ^ 2) * ∑ i, ∑ j, N i j ^ 2 := ?_
  · exact (Real.sqrt_le_sqrt key).trans_eq
      (Real.sqrt_mul (sum_nonneg fun _ _ => sum_nonneg fun _ _ => sq_nonneg _) _)
  rw [Finset.sum_mul]
  refine sum_le_sum fun i _ => ?_
  rw [Finset.sum_comm (f := fun i j => N i j ^ 2), Finset.mul_sum]
  refine sum_le_sum fun j _ => ?_
  rw [Matrix.mul_apply]
  exact sum_mul_sq_le_sq_mul_sq _ _ _

/-- The finished reduction, by its private parts. -/
theorem Bi.round_tall [ZeroLaws α] (hnm : n ≤ m) {a : Mat α m n} (ha : a.own) (hm : 0 < m) (hn : 0 < n)
    {A : Nat → Nat → α} (hA : Shows a.at m n A) {s : Bi α m n} (hs : Bi.new a = .ok s) {e : ℝ}
    (he : Rnd.u α ≤ e) (hM : (m + 4) * e ≤ 1 / 100) (hd : ∀ i, i < n → Scaled m e (s.main.f i))
    (hsec : ∀ i, i + 1 < n → Scaled m e (s.sec.f i)) :
    ∃ (mu : Mat α m m) (mv : Mat α n n) (U V : Nat → Nat → α) (U₀ : Matrix (Fin m) (Fin m) ℝ)
      (V₀ : Matrix (Fin n) (Fin n) ℝ), s.u = .ok ⟨m, m, mu⟩ ∧ s.v = .ok ⟨n, n, mv⟩ ∧ Shows mu.at m m U ∧
      Shows mv.at n n V ∧ U₀ᵀ * U₀ = 1 ∧ V₀ᵀ * V₀ = 1 ∧ (∀ i j, i < m → j < n → fin (A i j)) ∧
      fro (mx m n (vals A) - U₀ * mx m n (vals (Bi.bEnt s.main.f s.sec.f)) * V₀ᵀ) ≤
        froErr α m (2 * n - 1) e (fro (mx m n (vals A))) ∧
      ((∀ i j, i < m → j < m → fin (U i j)) → ∀ j, cnorm (mx m m (vals U) - U₀) j ≤ hhErr α m n e 1) ∧
      ((∀ i j, i < n → j < n → fin (V i j)) → ∀ j, cnorm (mx n n (vals V) - V₀) j ≤ hhErr α m (n - 1) e 1) := by
  obtain ⟨s', e1, hI, -⟩ := Bi.new_round ha hm hn hA
  rw [hs] at e1
  cases Except.ok.inj e1
  have hmin : min m n = n := min_eq_right hnm
  have hF : Bi.RFin m n m e n s.hv.f s.main.f s.sec.f :=
    ⟨hd, fun i hi => hsec i (by omega), fun i j _ _ _ _ => by omega⟩
  have h := hI hnm e he hM hF
  have o1 := h.orthL hnm le_rfl he hM
  have o2 := h.orthR hnm he hM
  rw [show min n (n - 1) = n - 1 by omega] at o2
  have hsL : ∀ j, j < n → Bi.XL m (vals s.hv.f) (vals1 s.main.f) j * Bi.XL m (vals s.hv.f) (vals1 s.main.f) j = 1 :=
    fun j hj => by
      obtain ⟨x, hx⟩ := h.left j hj
      exact hh_sq (hx.refl (by omega) le_rfl he hM)
  have hsR : ∀ j, j < n - 1 → Bi.XR n (vals s.hv.f) (vals1 s.sec.f) j * Bi.XR n (vals s.hv.f) (vals1 s.sec.f) j = 1 :=
    fun j hj => by
      obtain ⟨x, hx⟩ := h.right j (by omega)
      exact hh_sq (hx.refl (by omega) hnm he hM)
  obtain ⟨mu, U, eu, -, hU, hu⟩ := Bi.u_wp hm s
    (Bi.ARnd m m e (Bi.XL m (vals s.hv.f) (vals1 s.main.f)) 0 (min m n)) (fun q h => Bi.ARnd.init _ _ _ h)
    (fun _ k q q' hk h1 h2 => by
      obtain ⟨x, hx⟩ := h.left k hk
      exact h1.step (by omega) (by omega) (Nat.zero_le _) le_rfl he hM h2 hx rfl
        (fun i _ => hh_transpose _ _ _ _) fun i hi => hsL i (by omega))
    (fun h => by omega)
  obtain ⟨mv, V, ev, -, hV, hv⟩ := Bi.v_wp hm hn s
    (Bi.ARnd n m e (Bi.XR n (vals s.hv.f) (vals1 s.sec.f)) 1 (min m n)) (fun q h => Bi.ARnd.init _ _ _ h)
    (fun h => by omega)
    (fun _ k q q' hk0 hk h1 h2 => by
      obtain ⟨x, hx⟩ := h.right (k - 1) (by omega)
      rw [show k - 1 + 1 = k by omega] at hx
      exact h1.step (by omega) hk hk0 hnm he hM h2 hx (by
        unfold Bi.XR
        rw [show k - 1 + 1 = k by omega]; rfl)
        (fun i _ => hh_transpose _ _ _ _) fun i hi => hsR i (by omega))
  rw [if_pos hnm] at hU hu hV hv
  refine ⟨mu, mv, _, _, _, _, eu, ev, hU, hV, mul_eq_one_comm.1 o1, mul_eq_one_comm.1 o2, h.fin, ?_, fun hf j => ?_,
    fun hf j => ?_⟩
  · rw [fro_swap (mul_eq_one_comm.1 o1) o1 o2]
    have e2 := h.err
    rw [show min n (n - 1) = n - 1 by omega, show n + (n - 1) = 2 * n - 1 by omega, sqrt_twice] at e2
    refine le_trans (le_of_eq ?_) e2
    congr 2
    refine mx_congr fun i j hi hj => ?_
    unfold Bi.M Bi.bEnt vals vals1
    dsimp only
    split_ifs <;> first | rfl | exact val_zero | (exfalso; omega) | (rw [val_zero]; exact Exact.zero_eq)
  · have := hu.2 (fun i j _ hi _ hj => hf i j hi hj) j
    generalize Bi.XL m (vals s.hv.f) (vals1 s.main.f) = H at this ⊢
    rw [hmin, Nat.sub_zero, Nat.sub_zero, hfrom_zero, show mx m m (pad 0 (vals U)) = mx m m (vals U) by rw [pad_zero]] at this
    unfold hhErr
    rwa [mul_one]
  · have hz := hv.1
    have := hv.2 (fun i j h1 hi h2 hj => by
      have := hf i j hi hj
      rwa [upd2_eq, if_neg (by omega)] at this) j
    generalize Bi.XR n (vals s.hv.f) (vals1 s.sec.f) = H at this ⊢
    rw [hmin, Nat.sub_self, hfrom_zero] at this
    have e2 : mx n n (pad 1 (vals V)) = mx n n (vals (upd2 V 0 0 Flt.one)) := by
      refine mx_congr fun i j hi hj => ?_
      rw [vals, upd2_eq]
      by_cases e : i < 1 ∨ j < 1
      · rw [pad_lo e]
        by_cases e' : i = j
        · rw [if_pos e', if_pos (by omega), val_one]
        · rw [if_neg e', if_neg (by omega), hz i j hi hj e, val_zero]
      · rw [pad_hi (by omega) (by omega), if_neg (by omega)]; rfl
    rw [e2] at this
    unfold hhErr
    rwa [mul_one]

/-- The finished reduction of a matrix with more columns than rows. -/
theorem Bi.round_wide [ZeroLaws α] (hnm : m < n) {a : Mat α m n} (ha : a.own) (hm : 0 < m) (hn : 0 < n)
    {A : Nat → Nat → α} (hA : Shows a.at m n A) {s : Bi α m n} (hs : Bi.new a = .ok s) {e : ℝ}
    (he : Rnd.u α ≤ e) (hM : (n + 4) * e ≤ 1 / 100) (hd : ∀ i, i < m → Scaled n e (s.main.f i))
    (hsec : ∀ i, i + 1 < m → Scaled n e (s.sec.f i)) :
    ∃ (mu : Mat α m m) (mv : Mat α n n) (U V : Nat → Nat → α) (U₀ : Matrix (Fin m) (Fin m) ℝ)
      (V₀ : Matrix (Fin n) (Fin n) ℝ), s.u = .ok ⟨m, m, mu⟩ ∧ s.v = .ok ⟨n, n, mv⟩ ∧ Shows mu.at m m U ∧
      Shows mv.at n n V ∧ U₀ᵀ * U₀ = 1 ∧ V₀ᵀ * V₀ = 1 ∧ (∀ i j, i < m → j < n → fin (A i j)) ∧
      fro (mx m n (vals A) - U₀ * mx m n (vals fun i j => Bi.bEnt s.main.f s.sec.f j i) * V₀ᵀ) ≤
        froErr α n (2 * m - 1) e (fro (mx m n (vals A))) ∧
      ((∀ i j, i < m → j < m → fin (U i j)) → ∀ j, cnorm (mx m m (vals U) - U₀) j ≤ hhErr α n (m - 1) e 1) ∧
      ((∀ i j, i < n → j < n → fin (V i j)) → ∀ j, cnorm (mx n n (vals V) - V₀) j ≤ hhErr α n m e 1) := by
  obtain ⟨s', e1, -, hI⟩ := Bi.new_round ha hm hn hA
  rw [hs] at e1
  cases Except.ok.inj e1
  have hmin : min m n = m := min_eq_left hnm.le
  have hF : Bi.RFin n m n e m (fun i j => s.hv.f j i) s.main.f s.sec.f :=
    ⟨hd, fun i hi => hsec i (by omega), fun i j _ _ _ _ => by omega⟩
  have h := hI hnm e he hM hF
  have o1 := h.orthL hnm.le le_rfl he hM
  have o2 := h.orthR hnm.le he hM
  rw [show min m (m - 1) = m - 1 by omega] at o2
  have hsL : ∀ j, j < m → Bi.XL n (vals fun i j => s.hv.f j i) (vals1 s.main.f) j *
      Bi.XL n (vals fun i j => s.hv.f j i) (vals1 s.main.f) j = 1 :=
    fun j hj => by
      obtain ⟨x, hx⟩ := h.left j hj
      exact hh_sq (hx.refl (by omega) le_rfl he hM)
  have hsR : ∀ j, j < m - 1 → Bi.XR m (vals fun i j => s.hv.f j i) (vals1 s.sec.f) j *
      Bi.XR m (vals fun i j => s.hv.f j i) (vals1 s.sec.f) j = 1 :=
    fun j hj => by
      obtain ⟨x, hx⟩ := h.right j (by omega)
      exact hh_sq (hx.refl (by omega) hnm.le he hM)
  obtain ⟨mv, V, ev, -, hV, hv⟩ := Bi.v_wp hm hn s
    (Bi.ARnd n n e (Bi.XL n (vals fun i j => s.hv.f j i) (vals1 s.main.f)) 0 (min m n))
    (fun q h => Bi.ARnd.init _ _ _ h)
    (fun _ k q q' hk h1 h2 => by
      obtain ⟨x, hx⟩ := h.left k hk
      exact h1.step (by omega) (by omega) (Nat.zero_le _) le_rfl he hM h2 hx rfl
        (fun i _ => hh_transpose _ _ _ _) fun i hi => hsL i (by omega))
    (fun h => by omega)
  obtain ⟨mu, U, eu, -, hU, hu⟩ := Bi.u_wp hm s
    (Bi.ARnd m n e (Bi.XR m (vals fun i j => s.hv.f j i) (vals1 s.sec.f)) 1 (min m n))
    (fun q h => Bi.ARnd.init _ _ _ h)
    (fun h => by omega)
    (fun _ k q q' hk0 hk h1 h2 => by
      obtain ⟨x, hx⟩ := h.right (k - 1) (by omega)
      rw [show k - 1 + 1 = k by omega] at hx
      exact h1.step (by omega) hk hk0 hnm.le he hM h2 hx (by
        unfold Bi.XR
        rw [show k - 1 + 1 = k by omega]; rfl)
        (fun i _ => hh_transpose _ _ _ _) fun i hi => hsR i (by omega))
  rw [if_neg (by omega)] at hU hu hV hv
  refine ⟨mu, mv, _, _, _, _, eu, ev, hU, hV, mul_eq_one_comm.1 o2, mul_eq_one_comm.1 o1,
    fun i j hi hj => h.fin j i hj hi, ?_, fun hf j => ?_, fun hf j => ?_⟩
  · have e2 := h.err
    rw [show min m (m - 1) = m - 1 by omega, show m + (m - 1) = 2 * m - 1 by omega, sqrt_twice] at e2
    have e3 : mx n m (vals fun i j => A j i) = (mx m n (vals A))ᵀ := rfl
    rw [e3, fro_transpose] at e2
    rw [fro_swap (mul_eq_one_comm.1 o2) o2 o1]
    refine le_trans (le_of_eq ?_) e2
    rw [← fro_transpose, Matrix.transpose_sub, Matrix.transpose_mul, Matrix.transpose_mul,
      Matrix.transpose_transpose, ← Matrix.mul_assoc]
    congr 2
    ext i j
    show vals (fun i j => Bi.bEnt s.main.f s.sec.f j i) j i = _
    unfold mx Bi.M Bi.bEnt vals vals1
    dsimp only
    split_ifs <;> first | rfl | exact val_zero | (exfalso; omega) | (rw [val_zero]; exact Exact.zero_eq)
  · have hz := hu.1
    have := hu.2 (fun i j h1 hi h2 hj => by
      have := hf i j hi hj
      rwa [upd2_eq, if_neg (by omega)] at this) j
    generalize Bi.XR m (vals fun i j => s.hv.f j i) (vals1 s.sec.f) = H at this ⊢
    rw [hmin, Nat.sub_self, hfrom_zero] at this
    have e2 : mx m m (pad 1 (vals U)) = mx m m (vals (upd2 U 0 0 Flt.one)) := by
      refine mx_congr fun i j hi hj => ?_
      rw [vals, upd2_eq]
      by_cases e : i < 1 ∨ j < 1
      · rw [pad_lo e]
        by_cases e' : i = j
        · rw [if_pos e', if_pos (by omega), val_one]
        · rw [if_neg e', if_neg (by omega), hz i j hi hj e, val_zero]
      · rw [pad_hi (by omega) (by omega), if_neg (by omega)]; rfl
    rw [e2] at this
    unfold hhErr
    rwa [mul_one]
  · have := hv.2 (fun i j _ hi _ hj => hf i j hi hj) j
    generalize Bi.XL n (vals fun i j => s.hv.f j i) (vals1 s.main.f) = H at this ⊢
    rw [hmin, Nat.sub_zero, Nat.sub_zero, hfrom_zero, show mx n n (pad 0 (vals V)) = mx n n (vals V) by rw [pad_zero]] at this
    unfold hhErr
    rwa [mul_one]

/-- The entries of a bidiagonal matrix above (`up`) or below the diagonal. -/
def Spec.sideEnt (up : Bool) (B : Nat → Nat → α) (i : Nat) : α := if up then B i (i + 1) else B (i + 1) i

/-- What is known of a finished reduction. -/
theorem Bi.round_all [ZeroLaws α] {a : Mat α m n} (ha : a.own) (hm : 0 < m) (hn : 0 < n)
    {A : Nat → Nat → α} (hA : Shows a.at m n A) {s : Bi α m n} (hs : Bi.new a = .ok s)
    {mb : Mat α m n} {B : Nat → Nat → α} (eb : s.b = .ok ⟨m, n, mb⟩) (hB : Shows mb.at m n B) {e : ℝ}
    (he : Rnd.u α ≤ e) (hM : ((max m n : ℕ) + 4) * e ≤ 1 / 100)
    (hd : ∀ i, i < min m n → Scaled (max m n) e (B i i))
    (hsec : ∀ i, i + 1 < min m n → Scaled (max m n) e (sideEnt (decide (n ≤ m)) B i)) :
    ∃ (mu : Mat α m m) (mv : Mat α n n) (U V : Nat → Nat → α) (U₀ : Matrix (Fin m) (Fin m) ℝ)
      (V₀ : Matrix (Fin n) (Fin n) ℝ), s.u = .ok ⟨m, m, mu⟩ ∧ s.v = .ok ⟨n, n, mv⟩ ∧ Shows mu.at m m U ∧
      Shows mv.at n n V ∧ U₀ᵀ * U₀ = 1 ∧ V₀ᵀ * V₀ = 1 ∧ (∀ i j, i < m → j < n → fin (A i j)) ∧
      fro (mx m n (vals A) - U₀ * mx m n (vals B) * V₀ᵀ) ≤
        froErr α (max m n) (2 * min m n - 1) e (fro (mx m n (vals A))) ∧
      ((∀ i j, i < m → j < m → fin (U i j)) → ∀ j, cnorm (mx m m (vals U) - U₀) j ≤
        hhErr α (max m n) (min m n) e 1) ∧
      ((∀ i j, i < n → j < n → fin (V i j)) → ∀ j, cnorm (mx n n (vals V) - V₀) j ≤
        hhErr α (max m n) (min m n) e 1) := by
  have he0 : 0 ≤ e := (u_nonneg (α := α)).trans he
  obtain ⟨mb', eb', -, hB'⟩ := Bi.b_ok hm hn s
  rw [eb] at eb'
  cases Except.ok.inj eb'
  have hBB : ∀ i j, i < m → j < n → B i j = _ := fun i j hi hj => hB.unique hB' hi hj
  by_cases hnm : n ≤ m
  · have hmax : max m n = m := max_eq_left hnm
    have hmin : min m n = n := min_eq_right hnm
    have hBe : ∀ i j, i < m → j < n → B i j = Bi.bEnt s.main.f s.sec.f i j := fun i j hi hj => by
      rw [hBB i j hi hj, if_pos hnm]
    obtain ⟨mu, mv, U, V, U₀, V₀, h1, h2, h3, h4, h5, h6, h7, h8, h9, h10⟩ :=
      Bi.round_tall hnm ha hm hn hA hs he (by rwa [hmax] at hM) (fun i hi => by
        have := hd i (by omega)
        rw [hBe i i (by omega) hi, hmax] at this
        unfold Bi.bEnt at this
        rwa [if_pos rfl] at this) (fun i hi => by
        have := hsec i (by omega)
        unfold sideEnt at this
        rw [if_pos (by simpa using hnm), hBe i (i + 1) (by omega) hi, hmax] at this
        unfold Bi.bEnt at this
        rwa [if_neg (by omega), if_pos rfl] at this)
    have eB : mx m n (vals B) = mx m n (vals (Bi.bEnt s.main.f s.sec.f)) :=
      mx_congr fun i j hi hj => congrArg val (hBe i j hi hj)
    refine ⟨mu, mv, U, V, U₀, V₀, h1, h2, h3, h4, h5, h6, h7, ?_, fun hf j => ?_, fun hf j => ?_⟩
    · rw [← eB] at h8
      rw [hmax, hmin]; exact h8
    · rw [hmax, hmin]; exact h9 hf j
    · rw [hmax, hmin]; exact (h10 hf j).trans (hhErr_mono he0 (by omega))
  · have hlt : m < n := by omega
    have hmax : max m n = n := max_eq_right hlt.le
    have hmin : min m n = m := min_eq_left hlt.le
    have hBe : ∀ i j, i < m → j < n → B i j = Bi.bEnt s.main.f s.sec.f j i := fun i j hi hj => by
      rw [hBB i j hi hj, if_neg hnm]
    obtain ⟨mu, mv, U, V, U₀, V₀, h1, h2, h3, h4, h5, h6, h7, h8, h9, h10⟩ :=
      Bi.round_wide hlt ha hm hn hA hs he (by rwa [hmax] at hM) (fun i hi => by
        have := hd i (by omega)
        rw [hBe i i (by omega) (by omega), hmax] at this
        unfold Bi.bEnt at this
        rwa [if_pos rfl] at this) (fun i hi => by
        have := hsec i (by omega)
        unfold sideEnt at this
        rw [if_neg (by simpa using hnm), hBe (i + 1) i (by omega) (by omega), hmax] at this
        unfold Bi.bEnt at this
        rwa [if_neg (by omega), if_pos rfl] at this)
    have eB : mx m n (vals B) = mx m n (vals fun i j => Bi.bEnt s.main.f s.sec.f j i) :=
      mx_congr fun i j hi hj => congrArg val (hBe i j hi hj)
    refine ⟨mu, mv, U, V, U₀, V₀, h1, h2, h3, h4, h5, h6, h7, ?_, fun hf j => ?_, fun hf j => ?_⟩
    · rw [← eB] at h8
      rw [hmax, hmin]; exact h8
    · rw [hmax, hmin]; exact (h9 hf j).trans (hhErr_mono he0 (by omega))
    · rw [hmax, hmin]; exact h10 hf j

variable [ZeroLaws α]

/-! ## C101 -/

/-- **C101.** When the entries on the two diagonals of `B` are finite, and are 0 or not so small or large
that their squares are lost, then the matrix is finite, `B` is zero off these diagonals, and there are
exactly orthogonal matrices `U` and `V` such that `U B Vᵀ` differs from the matrix by at most `froErr` of
its Frobenius norm. -/
theorem C101_backward {a : Mat α m n} (ha : a.own) (hm : 0 < m) (hn : 0 < n)
    {A : Nat → Nat → α} (hA : Shows a.at m n A) {s : Bi α m n} (hs : Bi.new a = .ok s)
    {mb : Mat α m n} {B : Nat → Nat → α} (eb : s.b = .ok ⟨m, n, mb⟩) (hB : Shows mb.at m n B) {e : ℝ}
    (he : u α ≤ e) (hM : ((max m n : ℕ) + 4) * e ≤ 1 / 100)
    (hd : ∀ i, i < min m n → Scaled (max m n) e (B i i))
    (hsec : ∀ i, i + 1 < min m n → Scaled (max m n) e (sideEnt (decide (n ≤ m)) B i)) :
    (∀ i j, i < m → j < n → fin (A i j)) ∧
    (∀ i j, i < m → j < n → i ≠ j → (n ≤ m → j ≠ i + 1) → (m < n → i ≠ j + 1) → B i j = Flt.zero) ∧
    ∃ (U : Matrix (Fin m) (Fin m) ℝ) (V : Matrix (Fin n) (Fin n) ℝ), Uᵀ * U = 1 ∧ U * Uᵀ = 1 ∧ Vᵀ * V = 1 ∧
      V * Vᵀ = 1 ∧
      fro ((mx m n fun i j => val (A i j)) - U * (mx m n fun i j => val (B i j)) * Vᵀ) ≤
        froErr α (max m n) (2 * min m n - 1) e (fro (mx m n fun i j => val (A i j))) := by
  obtain ⟨-, -, -, -, U, V, -, -, -, -, h1, h2, h3, h4, -⟩ := Bi.round_all ha hm hn hA hs eb hB he hM hd hsec
  refine ⟨h3, fun i j hi hj b1 b2 b3 => ?_, U, V, h1, mul_eq_one_comm.1 h1, h2, mul_eq_one_comm.1 h2, h4⟩
  obtain ⟨mb', eb', -, hB'⟩ := Bi.b_ok hm hn s
  rw [eb] at eb'
  cases Except.ok.inj eb'
  rw [hB.unique hB' hi hj]
  unfold Bi.bEnt
  by_cases hnm : n ≤ m
  · rw [if_pos hnm, if_neg (by omega), if_neg (b2 hnm)]
  · rw [if_neg hnm, if_neg (by omega), if_neg (b3 (by omega))]

/-- **C101.** The same bound without powers. -/
theorem C101_linear {a : Mat α m n} (ha : a.own) (hm : 0 < m) (hn : 0 < n)
    {A : Nat → Nat → α} (hA : Shows a.at m n A) {s : Bi α m n} (hs : Bi.new a = .ok s)
    {mb : Mat α m n} {B : Nat → Nat → α} (eb : s.b = .ok ⟨m, n, mb⟩) (hB : Shows mb.at m n B) {e : ℝ}
    (he : u α ≤ e) (hM : ((max m n : ℕ) + 4) * e ≤ 1 / 100)
    (hp : (2 * min m n - 1 : ℕ) * (36 * ((max m n : ℕ) + 4) * e) ≤ 1)
    (hd : ∀ i, i < min m n → Scaled (max m n) e (B i i))
    (hsec : ∀ i, i + 1 < min m n → Scaled (max m n) e (sideEnt (decide (n ≤ m)) B i)) :
    ∃ (U : Matrix (Fin m) (Fin m) ℝ) (V : Matrix (Fin n) (Fin n) ℝ), Uᵀ * U = 1 ∧ U * Uᵀ = 1 ∧ Vᵀ * V = 1 ∧
      V * Vᵀ = 1 ∧
      fro ((mx m n fun i j => val (A i j)) - U * (mx m n fun i j => val (B i j)) * Vᵀ) ≤
        72 * (2 * min m n - 1 : ℕ) * ((max m n : ℕ) + 4) * e * fro (mx m n fun i j => val (A i j)) +
          18 * (2 * min m n - 1 : ℕ) * (max m n : ℕ) * √(η α) := by
  obtain ⟨-, -, U, V, h1, h2, h3, h4, h5⟩ := C101_backward ha hm hn hA hs eb hB he hM hd hsec
  exact ⟨U, V, h1, h2, h3, h4, h5.trans (froErr_le ((u_nonneg (α := α)).trans he) (fro_nonneg _) hp)⟩

/-! ## C102 -/

/-- **C102.** When the orthogonal factors are finite as well, each of their columns differs from that of an
exactly orthogonal matrix, those of C101, by at most `hhErr` of 1. -/
theorem C102_near {a : Mat α m n} (ha : a.own) (hm : 0 < m) (hn : 0 < n)
    {A : Nat → Nat → α} (hA : Shows a.at m n A) {s : Bi α m n} (hs : Bi.new a = .ok s)
    {mb : Mat α m n} {B : Nat → Nat → α} (eb : s.b = .ok ⟨m, n, mb⟩) (hB : Shows mb.at m n B)
    {mu : Mat α m m} {U : Nat → Nat → α} (eu : s.u = .ok ⟨m, m, mu⟩) (hU : Shows mu.at m m U)
    {mv : Mat α n n} {V : Nat → Nat → α} (ev : s.v = .ok ⟨n, n, mv⟩) (hV : Shows mv.at n n V) {e : ℝ}
    (he : u α ≤ e) (hM : ((max m n : ℕ) + 4) * e ≤ 1 / 100)
    (hd : ∀ i, i < min m n → Scaled (max m n) e (B i i))
    (hsec : ∀ i, i + 1 < min m n → Scaled (max m n) e (sideEnt (decide (n ≤ m)) B i))
    (hUf : ∀ i j, i < m → j < m → fin (U i j)) (hVf : ∀ i j, i < n → j < n → fin (V i j)) :
    ∃ (U₀ : Matrix (Fin m) (Fin m) ℝ) (V₀ : Matrix (Fin n) (Fin n) ℝ), U₀ᵀ * U₀ = 1 ∧ V₀ᵀ * V₀ = 1 ∧
      fro ((mx m n fun i j => val (A i j)) - U₀ * (mx m n fun i j => val (B i j)) * V₀ᵀ) ≤
        froErr α (max m n) (2 * min m n - 1) e (fro (mx m n fun i j => val (A i j))) ∧
      (∀ j, cnorm ((mx m m fun i j => val (U i j)) - U₀) j ≤ hhErr α (max m n) (min m n) e 1) ∧
      ∀ j, cnorm ((mx n n fun i j => val (V i j)) - V₀) j ≤ hhErr α (max m n) (min m n) e 1 := by
  obtain ⟨mu', mv', U', V', U₀, V₀, g1, g2, g3, g4, h1, h2, h3, h4, h5, h6⟩ :=
    Bi.round_all ha hm hn hA hs eb hB he hM hd hsec
  rw [eu] at g1
  cases Except.ok.inj g1
  rw [ev] at g2
  cases Except.ok.inj g2
  have e1 : ∀ i j, i < m → j < m → U' i j = U i j := fun i j hi hj => g3.unique hU hi hj
  have e2 : ∀ i j, i < n → j < n → V' i j = V i j := fun i j hi hj => g4.unique hV hi hj
  have e3 : mx m m (vals U') = mx m m fun i j => val (U i j) :=
    mx_congr fun i j hi hj => congrArg val (e1 i j hi hj)
  have e4 : mx n n (vals V') = mx n n fun i j => val (V i j) :=
    mx_congr fun i j hi hj => congrArg val (e2 i j hi hj)
  rw [e3] at h5
  rw [e4] at h6
  exact ⟨U₀, V₀, h1, h2, h4, h5 fun i j hi hj => by rw [e1 i j hi hj]; exact hUf i j hi hj,
    h6 fun i j hi hj => by rw [e2 i j hi hj]; exact hVf i j hi hj⟩

/-- The columns of a matrix near to an orthogonal one are nearly orthonormal. -/
theorem near_orth {Q : Nat → Nat → ℝ} {O : Matrix (Fin m) (Fin m) ℝ} {δ : ℝ} (h1 : Oᵀ * O = 1)
    (h4 : ∀ j, cnorm (mx m m Q - O) j ≤ δ) (i j : Fin m) :
    |∑ k ∈ range m, Q k i * Q k j - if i = j then 1 else 0| ≤ 2 * δ + δ ^ 2 :=
  (near_factors (n := 0) (A := mx m 0 fun _ _ => 0) (R := fun _ _ => 0) (ε := fun _ => 0) h1
    (fun j => j.elim0) h4).1 i j

theorem fro_near {Q O : Matrix (Fin m) (Fin m) ℝ} {δ : ℝ} {p : Nat} (hp : m ≤ p) (hδ : 0 ≤ δ)
    (h : ∀ j, cnorm (Q - O) j ≤ δ) : fro (Q - O) ≤ √p * δ := by
  have := fro_of_cols (E := Q - O) (M := Q - O) (ε := 0) le_rfl hδ hp fun j => by
    rw [zero_mul, _root_.zero_add]; exact h j
  rwa [zero_mul, _root_.zero_add] at this

/-- **C102.** The columns of the computed orthogonal factors are nearly orthonormal, and the product
`U B Vᵀ` of the computed factors is near to the matrix. -/
theorem C102_factors {a : Mat α m n} (ha : a.own) (hm : 0 < m) (hn : 0 < n)
    {A : Nat → Nat → α} (hA : Shows a.at m n A) {s : Bi α m n} (hs : Bi.new a = .ok s)
    {mb : Mat α m n} {B : Nat → Nat → α} (eb : s.b = .ok ⟨m, n, mb⟩) (hB : Shows mb.at m n B)
    {mu : Mat α m m} {U : Nat → Nat → α} (eu : s.u = .ok ⟨m, m, mu⟩) (hU : Shows mu.at m m U)
    {mv : Mat α n n} {V : Nat → Nat → α} (ev : s.v = .ok ⟨n, n, mv⟩) (hV : Shows mv.at n n V) {e δ : ℝ}
    (he : u α ≤ e) (hM : ((max m n : ℕ) + 4) * e ≤ 1 / 100)
    (hd : ∀ i, i < min m n → Scaled (max m n) e (B i i))
    (hsec : ∀ i, i + 1 < min m n → Scaled (max m n) e (sideEnt (decide (n ≤ m)) B i))
    (hUf : ∀ i j, i < m → j < m → fin (U i j)) (hVf : ∀ i j, i < n → j < n → fin (V i j))
    (hδ : δ = hhErr α (max m n) (min m n) e 1) :
    (∀ i j : Fin m, |∑ k ∈ range m, val (U k i) * val (U k j) - if i = j then 1 else 0| ≤ 2 * δ + δ ^ 2) ∧
    (∀ i j : Fin n, |∑ k ∈ range n, val (V k i) * val (V k j) - if i = j then 1 else 0| ≤ 2 * δ + δ ^ 2) ∧
    fro ((mx m n fun i j => val (A i j)) - (mx m m fun i j => val (U i j)) * (mx m n fun i j => val (B i j)) *
        (mx n n fun i j => val (V i j))ᵀ) ≤
      froErr α (max m n) (2 * min m n - 1) e (fro (mx m n fun i j => val (A i j))) +
        (2 * √(max m n : ℕ) * δ + (max m n : ℕ) * δ ^ 2) * fro (mx m n fun i j => val (B i j)) := by
  obtain ⟨U₀, V₀, h1, h2, h3, h4, h5⟩ := C102_near ha hm hn hA hs eb hB eu hU ev hV he hM hd hsec hUf hVf
  rw [← hδ] at h4 h5
  have hδ0 : 0 ≤ δ := hδ ▸ hhErr_nonneg ((u_nonneg (α := α)).trans he)
  refine ⟨near_orth h1 h4, near_orth h2 h5, ?_⟩
  have n1 := fro_near (le_max_left m n) hδ0 h4
  have n2 := fro_near (le_max_right m n) hδ0 h5
  have hN : √((max m n : ℕ) : ℝ) ^ 2 = (max m n : ℕ) := Real.sq_sqrt (Nat.cast_nonneg _)
  have hN0 := Real.sqrt_nonneg ((max m n : ℕ) : ℝ)
  generalize √((max m n : ℕ) : ℝ) = N at *
  generalize froErr α (max m n) (2 * min m n - 1) e (fro (mx m n fun i j => val (A i j))) = E at *
  generalize (mx m n fun i j => val (A i j)) = A at *
  generalize (mx m n fun i j => val (B i j)) = B at *
  generalize (mx m m fun i j => val (U i j)) = U at *
  generalize (mx n n fun i j => val (V i j)) = V at *
  obtain ⟨X, hX⟩ : ∃ X, X = U - U₀ := ⟨_, rfl⟩
  obtain ⟨Y, hY⟩ : ∃ Y, Y = V - V₀ := ⟨_, rfl⟩
  rw [← hX] at n1
  rw [← hY] at n2
  have eX : U = U₀ + X := by rw [hX]; abel
  have eY : V = V₀ + Y := by rw [hY]; abel
  have e1 : A - U * B * Vᵀ = (A - U₀ * B * V₀ᵀ) + -(X * B * V₀ᵀ + (X * B * Yᵀ + U₀ * (B * Yᵀ))) := by
    rw [eX, eY, Matrix.transpose_add]
    simp only [Matrix.add_mul, Matrix.mul_add, Matrix.mul_assoc]
    abel
  have o2 : V₀ᵀ * (V₀ᵀ)ᵀ = 1 := by rw [Matrix.transpose_transpose]; exact h2
  have b1 := fro_add_le (A - U₀ * B * V₀ᵀ) (-(X * B * V₀ᵀ + (X * B * Yᵀ + U₀ * (B * Yᵀ))))
  rw [← e1, fro_neg] at b1
  have b2 := fro_add_le (X * B * V₀ᵀ) (X * B * Yᵀ + U₀ * (B * Yᵀ))
  have b3 := fro_add_le (X * B * Yᵀ) (U₀ * (B * Yᵀ))
  rw [fro_right o2] at b2
  rw [fro_left h1] at b3
  have b4 := fro_mul_le X B
  have b5 := fro_mul_le (X * B) Yᵀ
  have b6 := fro_mul_le B Yᵀ
  rw [fro_transpose] at b5 b6
  have hB0 := fro_nonneg B
  have hX0 := fro_nonneg X
  have hY0 := fro_nonneg Y
  have hXB := fro_nonneg (X * B)
  have c1 : fro X * fro B ≤ N * δ * fro B := by gcongr
  have c2 : fro (X * B) * fro Y ≤ N * δ * fro B * (N * δ) := by
    refine mul_le_mul (b4.trans c1) n2 hY0 (by positivity)
  have c3 : fro B * fro Y ≤ fro B * (N * δ) := by gcongr
  have c4 : N * δ * fro B * (N * δ) = (max m n : ℕ) * δ ^ 2 * fro B := by rw [← hN]; ring
  linarith

/-- **C102**, why finite orthogonal factors have to be assumed: if the square of the entry of a 1 × 1
matrix underflows to 0, the bidiagonal factor is 0 and `U` is not finite. -/
theorem C102_underflow {a : Mat α 1 1} (ha : a.own) {x : α} (hA : Shows a.at 1 1 fun _ _ => x)
    (hx : fin x) (h0 : val x ≠ 0) (hxf : fin (Flt.mul x x)) (hxx : val (Flt.mul x x) = 0) :
    ∃ (s : Bi α 1 1) (mb mu : Mat α 1 1) (B U : Nat → Nat → α), Bi.new a = .ok s ∧
      s.b = .ok ⟨1, 1, mb⟩ ∧ s.u = .ok ⟨1, 1, mu⟩ ∧ Shows mb.at 1 1 B ∧ Shows mu.at 1 1 U ∧
      fin (B 0 0) ∧ val (B 0 0) = 0 ∧ ¬ fin (U 0 0) := by
  have hn : ∀ f : Nat → α, f 0 = x → fin (Bi.nrm 0 1 f) ∧ val (Bi.nrm 0 1 f) = 0 := by
    intro f hf
    have e1 : lsum 0 1 (fun r => Flt.mul (f r) (f r)) Flt.zero = Flt.add Flt.zero (Flt.mul x x) := by
      rw [lsum_succ (Nat.zero_le _), lsum_self le_rfl, hf]
    have f1 : fin (Flt.add Flt.zero (Flt.mul x x)) := add_ok zero_fin hxf (by
      rw [val_zero, hxx, _root_.add_zero, abs_zero]; linarith [big_le (α := α)])
    have v1 : val (Flt.add Flt.zero (Flt.mul x x)) = 0 := by rw [Rnd.zero_add f1 val_zero, hxx]
    have f2 : fin (Flt.sqrt (Flt.add Flt.zero (Flt.mul x x))) := sqrt_ok f1 v1.ge
    have v2 : val (Flt.sqrt (Flt.add Flt.zero (Flt.mul x x))) = 0 := by
      have := (sqrt_err f2).1
      rw [v1, Real.sqrt_zero, mul_zero, sub_zero] at this
      exact abs_nonpos_iff.1 this
    unfold Bi.nrm Bi.sign
    rw [e1]
    split
    · exact ⟨neg_fin.2 f2, by rw [val_neg f2, v2, neg_zero]⟩
    · exact ⟨f2, v2⟩
  obtain ⟨s, e1, h1, -⟩ := Bi.new_wp ha one_pos one_pos hA
    (fun k f d _ => f 0 0 = x ∧ (k = 1 → fin (d 0) ∧ val (d 0) = 0)) (fun _ _ _ _ => True)
    (fun f d _ h => ⟨h 0 0 one_pos one_pos, by omega⟩) (by
      intro k f f' d d' e e' hk _ hI hS
      obtain rfl : k = 0 := by omega
      obtain ⟨g1, g2⟩ := hn (fun i => f i 0) hI.1
      have hz : Flt.eq (Bi.nrm 0 1 fun i => f i 0) Flt.zero = true := by
        rw [eq_iff g1 zero_fin, g2, val_zero]
      cases hS with
      | mid h => omega
      | last _ h1 hd _ =>
        rw [h1.same hz, hd]
        exact ⟨hI.1, fun _ => by rw [upd1, if_pos rfl]; exact ⟨g1, g2⟩⟩)
    (fun _ _ _ _ => trivial) (fun _ _ _ _ _ _ _ _ _ _ _ => trivial)
  obtain ⟨h2, h3⟩ := h1 le_rfl
  obtain ⟨h3, h4⟩ := h3 rfl
  obtain ⟨mb, eb, -, hb⟩ := Bi.b_ok one_pos one_pos s
  obtain ⟨mu, q, eu, -, hu, hq⟩ := Bi.u_wp one_pos s (fun k q => k = 0 → ¬ fin (q 0 0))
    (fun q _ h => absurd h (by decide)) (by
      intro _ k q q' hk _ hS _
      obtain rfl : k = 0 := by omega
      have hne : Flt.eq (s.hv.f 0 0) Flt.zero = false := by
        rw [h2, Bool.eq_false_iff, Ne, eq_iff hx zero_fin, val_zero]
        exact h0
      rw [hS.cols hne 0 0 le_rfl one_pos le_rfl one_pos]
      intro hf
      have f1 := neg_fin.1 (mul_fin (add_fin hf).2).1
      rw [h2] at f1
      have f2 : fin (Flt.mul (s.main.f 0) x) := mul_ok h3 hx (by
        rw [h4, zero_mul, abs_zero]; linarith [big_le (α := α)])
      exact div_ne f1 f2 (mul_of_zero f2 h4)) (fun h => by omega)
  rw [if_pos le_rfl] at hu hq
  exact ⟨s, mb, mu, _, _, e1, eb, eu, hb, hu, h3, h4, hq rfl⟩

end round

/-! ## binary64 -/

theorem B64.scaled {N : Nat} {x : B64} (hf : fin x) (hlow : val x = 0 ∨ N * (1 / 2) ^ 1020 ≤ val x ^ 2)
    (hhigh : |val x| ≤ 2 ^ 510) : Scaled N ((1 / 2) ^ 53) x := by
  refine ⟨hf, hlow.imp id fun h => ?_, ?_⟩
  · rw [show η B64 = (1 / 2) ^ 1075 from rfl,
      show ((1 : ℝ) / 2) ^ 1075 = (1 / 2) ^ 1020 * (1 / 2) ^ 55 by rw [← pow_add]]
    have : 4 * (N : ℝ) * ((1 / 2) ^ 1020 * (1 / 2) ^ 55) = (1 / 2) ^ 53 * (N * (1 / 2) ^ 1020) := by
      generalize ((1 : ℝ) / 2) ^ 1020 = z
      norm_num
      ring
    rw [this]
    exact mul_le_mul_of_nonneg_left h (by positivity)
  · show 4 * val x ^ 2 ≤ 2 ^ 1023
    have h3 := pow_le_pow_left₀ (abs_nonneg _) hhigh 2
    rw [sq_abs, ← pow_mul] at h3
    have h4 : (2 : ℝ) ^ (510 * 2) * 4 ≤ 2 ^ 1023 := by
      rw [show (4 : ℝ) = 2 ^ 2 by norm_num, ← pow_add]
      exact pow_le_pow_right₀ (by norm_num) (by norm_num)
    linarith

/-- **C101** for binary64. -/
theorem C101_binary64 {m n : Nat} {a : Mat B64 m n} (ha : a.own) (hm : 0 < m) (hn : 0 < n)
    {A : Nat → Nat → B64} (hA : Shows a.at m n A) {s : Bi B64 m n} (hs : Bi.new a = .ok s)
    {mb : Mat B64 m n} {B : Nat → Nat → B64} (eb : s.b = .ok ⟨m, n, mb⟩) (hB : Shows mb.at m n B)
    (hp : (2 * min m n - 1) * (max m n + 4) ≤ 2 ^ 46)
    (hfin : ∀ i j, i < m → j < n → fin (B i j))
    (hlow : ∀ i j, i < m → j < n → val (B i j) = 0 ∨ (max m n : ℕ) * (1 / 2) ^ 1020 ≤ val (B i j) ^ 2)
    (hhigh : ∀ i j, i < m → j < n → |val (B i j)| ≤ 2 ^ 510) :
    ∃ (U : Matrix (Fin m) (Fin m) ℝ) (V : Matrix (Fin n) (Fin n) ℝ), Uᵀ * U = 1 ∧ U * Uᵀ = 1 ∧ Vᵀ * V = 1 ∧
      V * Vᵀ = 1 ∧
      fro ((mx m n fun i j => val (A i j)) - U * (mx m n fun i j => val (B i j)) * Vᵀ) ≤
        9 * (2 * min m n - 1 : ℕ) * ((max m n : ℕ) + 4) * (1 / 2) ^ 50 * fro (mx m n fun i j => val (A i j)) +
          18 * (2 * min m n - 1 : ℕ) * (max m n : ℕ) * √((1 / 2) ^ 1075) := by
  have hp' : ((2 * min m n - 1 : ℕ) : ℝ) * ((max m n : ℕ) + 4) ≤ 2 ^ 46 := by exact_mod_cast hp
  have h1 : (1 : ℝ) ≤ (2 * min m n - 1 : ℕ) := by exact_mod_cast (show 1 ≤ 2 * min m n - 1 by omega)
  have h2 : (((max m n : ℕ) : ℝ) + 4) ≤ 2 ^ 46 := le_trans (le_mul_of_one_le_left (by positivity) h1) hp'
  obtain ⟨U, V, q1, q2, q3, q4, q5⟩ := C101_linear ha hm hn hA hs eb hB (e := (1 / 2) ^ 53) le_rfl
    (by norm_num at h2 ⊢; linarith) (by
      generalize ((2 * min m n - 1 : ℕ) : ℝ) = p at *
      generalize ((max m n : ℕ) : ℝ) = N at *
      rw [show p * (36 * (N + 4) * (1 / 2) ^ 53) = p * (N + 4) * (36 * (1 / 2) ^ 53) by ring]
      norm_num at hp' ⊢; linarith)
    (fun i hi => B64.scaled (hfin i i (by omega) (by omega)) (hlow i i (by omega) (by omega))
      (hhigh i i (by omega) (by omega)))
    (fun i hi => by
      unfold sideEnt
      split
      · exact B64.scaled (hfin i (i + 1) (by omega) (by omega)) (hlow i (i + 1) (by omega) (by omega))
          (hhigh i (i + 1) (by omega) (by omega))
      · exact B64.scaled (hfin (i + 1) i (by omega) (by omega)) (hlow (i + 1) i (by omega) (by omega))
          (hhigh (i + 1) i (by omega) (by omega)))
  refine ⟨U, V, q1, q2, q3, q4, q5.trans (le_of_eq ?_)⟩
  rw [show η B64 = (1 / 2) ^ 1075 from rfl, show ((1 : ℝ) / 2) ^ 53 = (1 / 2) ^ 50 / 8 by norm_num]
  ring

/-- Concrete case for C102: the 1 × 1 binary64 matrix `2⁻⁶⁰⁰`. -/
theorem C102_tiny : ∃ (a : Mat B64 1 1) (s : Bi B64 1 1) (mb mu : Mat B64 1 1) (B U : Nat → Nat → B64),
    a.own ∧ Shows a.at 1 1 (fun _ _ => B64.num _ B64.num600) ∧ Bi.new a = .ok s ∧
      s.b = .ok ⟨1, 1, mb⟩ ∧ s.u = .ok ⟨1, 1, mu⟩ ∧ Shows mb.at 1 1 B ∧ Shows mu.at 1 1 U ∧
      fin (B 0 0) ∧ val (B 0 0) = 0 ∧ ¬ fin (U 0 0) := by
  let a : Mat B64 1 1 := .arr ⟨⟨fun _ _ => B64.num _ B64.num600⟩, fun _ => 0⟩
  have hA : Shows a.at 1 1 (fun _ _ => B64.num _ B64.num600) := (Mat.at_shows a).congr fun i j hi hj => rfl
  have hpos : (0 : ℝ) < 2 ^ (-600 : ℤ) := zpow_pos (by norm_num) _
  have hsq : |(2 : ℝ) ^ (-600 : ℤ) * 2 ^ (-600 : ℤ)| < 2 ^ (-1075 : ℤ) := by
    rw [abs_of_pos (by positivity), ← zpow_add₀ (by norm_num)]
    exact zpow_lt_zpow_right₀ (by norm_num) (by norm_num)
  have hxf : fin (Flt.mul (B64.num _ B64.num600) (B64.num _ B64.num600)) := by
    refine mul_ok trivial trivial (hsq.le.trans ?_)
    exact (zpow_lt_one_of_neg₀ (by norm_num) (by norm_num)).le.trans (le_trans (by norm_num) (big_le (α := B64)))
  obtain ⟨s, mb, mu, B, U, h⟩ := C102_underflow (a := a) trivial hA (x := B64.num _ B64.num600) trivial hpos.ne' hxf
    ((B64.rnd_fin hxf).trans (B64.near_tiny hsq))
  exact ⟨a, s, mb, mu, B, U, trivial, hA, h⟩

/-! ## A concrete case -/

/-- The 2 × 2 matrix with rows (0, 1) and (1, 1). -/
noncomputable def Bi.caseA (i j : Nat) : B64 :=
  if i = 0 then (if j = 0 then B64.int 0 else B64.int 1) else B64.int 1

theorem B64.int_ne (k : ℤ) (hk : |k| ≤ 2 ^ 53) (h : k ≠ 0) : Flt.eq (B64.int k hk) (Flt.zero : B64) = false := by
  rw [Bool.eq_false_iff, Ne, eq_iff (B64.int_fin _) zero_fin, B64.int_val, val_zero]
  exact_mod_cast h

theorem B64.one_entry {l k : ℤ} {x : Nat → B64} (hk : |k| ≤ 2 ^ 53) (hx : x 1 = B64.int k hk) (hl : |l| ≤ 2 ^ 53)
    (h : k = 1 ∧ l = -1 ∨ k = -1 ∧ l = 1) : Bi.nrm 1 2 x = B64.int l hl := by
  unfold Bi.nrm Bi.sign
  have e1 : lsum 1 2 (fun r => Flt.mul (x r) (x r)) Flt.zero = Flt.add Flt.zero (Flt.mul (x 1) (x 1)) :=
    (lsum_succ (a := 1) (b := 1) le_rfl _ _).trans (by rw [lsum_self le_rfl])
  rw [e1]
  obtain ⟨rfl, rfl⟩ | ⟨rfl, rfl⟩ := h
  · rw [if_pos (by
      rw [hx, lt_iff zero_fin (B64.int_fin _), val_zero, B64.int_val]; norm_num), hx, B64.zero_int,
      B64.mul_int _ _ (by norm_num), B64.add_int _ _ (by norm_num),
      B64.sqrt_int (m := 1) _ (by norm_num) (by norm_num) (by norm_num), B64.neg_int]
  · rw [if_neg (by
      rw [hx, lt_iff zero_fin (B64.int_fin _), val_zero, B64.int_val]; norm_num), hx, B64.zero_int,
      B64.mul_int _ _ (by norm_num), B64.add_int _ _ (by norm_num),
      B64.sqrt_int (m := 1) _ (by norm_num) (by norm_num) (by norm_num)]

/-- The reduction of the matrix of the concrete case. -/
theorem Bi.case_new {a : Mat B64 2 2} (ha : a.own) (hA : Shows a.at 2 2 Bi.caseA) :
    ∃ s : Bi B64 2 2, Bi.new a = .ok s ∧ s.main.f 0 = B64.int 1 ∧ s.main.f 1 = B64.int 1 ∧
      s.sec.f 0 = B64.int (-1) ∧ s.hv.f 0 0 = B64.int (-1) ∧ s.hv.f 1 0 = B64.int 1 ∧ s.hv.f 0 1 = B64.int 2 ∧
      s.hv.f 1 1 = B64.int (-2) := by
  obtain ⟨s, e, h1, -⟩ := Bi.new_wp ha two_pos two_pos hA (fun k f d c =>
    (k = 0 → ∀ i j, i < 2 → j < 2 → f i j = Bi.caseA i j) ∧
    (k = 1 → d 0 = B64.int 1 ∧ c 0 = B64.int (-1) ∧ f 0 0 = B64.int (-1) ∧ f 1 0 = B64.int 1 ∧
      f 0 1 = B64.int 2 ∧ f 1 1 = B64.int (-1)) ∧
    (k = 2 → d 0 = B64.int 1 ∧ d 1 = B64.int 1 ∧ c 0 = B64.int (-1) ∧ f 0 0 = B64.int (-1) ∧ f 1 0 = B64.int 1 ∧
      f 0 1 = B64.int 2 ∧ f 1 1 = B64.int (-2))) (fun _ _ _ _ => True)
    (fun f d c h => ⟨fun _ => h, by omega, by omega⟩) (by
      intro k f f' d d' c c' hk _ hI hS
      obtain rfl | rfl : k = 0 ∨ k = 1 := by omega
      · have h := hI.1 rfl
        have h00 : f 0 0 = B64.int 0 := h 0 0 (by omega) (by omega)
        have h10 : f 1 0 = B64.int 1 := h 1 0 (by omega) (by omega)
        have h01 : f 0 1 = B64.int 1 := h 0 1 (by omega) (by omega)
        have h11 : f 1 1 = B64.int 1 := h 1 1 (by omega) (by omega)
        cases hS with
        | last h => omega
        | @mid _ f1 h1 h2 hd hc =>
          have n0 : (Bi.nrm 0 2 fun i => f i 0) = B64.int 1 := by
            have hl : ¬ Flt.lt Flt.zero (f 0 0) = true := by
              rw [h00, B64.zero_int, lt_iff (B64.int_fin _) (B64.int_fin _)]
              exact lt_irrefl _
            refine (if_neg hl).trans ?_
            rw [lsum_succ (by omega), lsum_succ (by omega), lsum_self le_rfl]
            dsimp only
            rw [h00, h10, B64.zero_int,
              B64.mul_int _ _ (by norm_num), B64.mul_int _ _ (by norm_num), B64.add_int _ _ (by norm_num),
              B64.add_int _ _ (by norm_num), B64.sqrt_int (m := 1) _ (by norm_num) (by norm_num) (by norm_num)]
          rw [n0] at h1 hd
          have ne := B64.int_ne 1 (by norm_num) (by norm_num)
          have g00 : f1 0 0 = B64.int (-1) := by
            rw [h1.head ne, h00, B64.sub_int _ _ (by norm_num)]; rfl
          have g10 : f1 1 0 = B64.int 1 := by rw [h1.col 1 (by omega), h10]
          have ha : halpha 0 2 (B64.int 1) (fun r => f1 r 0) (fun r => f r 1) = B64.int 0 := by
            unfold halpha
            rw [lsub_succ (by omega), lsub_succ (by omega), lsub_self le_rfl]
            dsimp only
            rw [g00, g10, h01, h11, B64.zero_int,
              B64.mul_int _ _ (by norm_num), B64.mul_int _ _ (by norm_num),
              B64.sub_int _ _ (by norm_num), B64.sub_int _ _ (by norm_num),
              B64.div_int (m := 0) _ _ (by norm_num) (by norm_num) (by norm_num)]
          have g01 : f1 0 1 = B64.int 1 := by
            rw [h1.cols ne 0 1 (by omega) (by omega) (by omega) (by omega), ha, g00, h01,
              B64.mul_int _ _ (by norm_num), B64.sub_int _ _ (by norm_num)]; rfl
          have g11 : f1 1 1 = B64.int 1 := by
            rw [h1.cols ne 1 1 (by omega) (by omega) (by omega) (by omega), ha, g10, h11,
              B64.mul_int _ _ (by norm_num), B64.sub_int _ _ (by norm_num)]; rfl
          have n1 : Bi.nrm 1 2 (f1 0) = B64.int (-1) :=
            B64.one_entry (by norm_num) g01 (by norm_num) (Or.inl ⟨rfl, rfl⟩)
          rw [show 0 + 1 = 1 from rfl, n1] at h2 hc
          have ne' := B64.int_ne (-1) (by norm_num) (by norm_num)
          have k01 : f' 0 1 = B64.int 2 := by
            have := h2.head ne'
            rw [this, g01, B64.sub_int _ _ (by norm_num)]; rfl
          have hb : halpha 1 2 (B64.int (-1)) (fun r => f' 0 r) (fun r => f1 1 r) = B64.int 1 := by
            unfold halpha
            have l1 : ∀ g : Nat → B64, lsub 1 2 g Flt.zero = Flt.sub Flt.zero (g 1) := fun g =>
              (lsub_succ (a := 1) (b := 1) le_rfl _ _).trans (by rw [lsub_self le_rfl])
            rw [l1]
            dsimp only
            rw [k01, g11, B64.zero_int, B64.mul_int _ _ (by norm_num), B64.mul_int _ _ (by norm_num),
              B64.sub_int _ _ (by norm_num), B64.div_int (m := 1) _ _ (by norm_num) (by norm_num) (by norm_num)]
          have k11 : f' 1 1 = B64.int (-1) := by
            have := h2.cols ne' 1 1 (by omega) (by omega) (by omega) (by omega)
            rw [this, hb, k01, g11, B64.mul_int _ _ (by norm_num), B64.sub_int _ _ (by norm_num)]; rfl
          refine ⟨by omega, fun _ => ⟨?_, ?_, ?_, ?_, k01, k11⟩, by omega⟩
          · rw [hd, upd1, if_pos rfl]
          · rw [hc, upd1, if_pos rfl]
          · have := h2.other 0 0 (by omega)
            rw [this, g00]
          · have := h2.other 0 1 (by omega)
            rw [this, g10]
      · obtain ⟨g1, g2, g3, g4, g5, g6⟩ := hI.2.1 rfl
        cases hS with
        | mid h => omega
        | last _ h1 hd hc =>
          have n1 : (Bi.nrm 1 2 fun i => f i 1) = B64.int 1 :=
            B64.one_entry (by norm_num) g6 (by norm_num) (Or.inr ⟨rfl, rfl⟩)
          rw [n1] at h1 hd
          refine ⟨by omega, by omega, fun _ => ⟨?_, ?_, ?_, ?_, ?_, ?_, ?_⟩⟩
          · rw [hd, upd1, if_neg (by omega), g1]
          · rw [hd, upd1, if_pos rfl]
          · rw [hc, g2]
          · rw [h1.other 0 0 (by omega), g3]
          · rw [h1.other 1 0 (by omega), g4]
          · rw [h1.other 0 1 (by omega), g5]
          · rw [h1.head (B64.int_ne 1 (by norm_num) (by norm_num)), g6, B64.sub_int _ _ (by norm_num)]; rfl)
    (fun _ _ _ _ => trivial) (fun _ _ _ _ _ _ _ _ _ _ _ => trivial)
  exact ⟨s, e, (h1 le_rfl).2.2 rfl⟩

theorem B64.lsub12 (g : Nat → B64) : lsub 1 2 g Flt.zero = Flt.sub Flt.zero (g 1) :=
  (lsub_succ (a := 1) (b := 1) le_rfl _ _).trans (by rw [lsub_self le_rfl])

theorem Bi.case_u (s : Bi B64 2 2) (h0 : s.main.f 0 = B64.int 1) (h1 : s.main.f 1 = B64.int 1)
    (h2 : s.hv.f 0 0 = B64.int (-1)) (h3 : s.hv.f 1 0 = B64.int 1) (h4 : s.hv.f 1 1 = B64.int (-2)) :
    ∃ (M : Mat B64 2 2) (q : Nat → Nat → B64), s.u = .ok ⟨2, 2, M⟩ ∧ Shows M.at 2 2 q ∧
      q 0 0 = B64.int 0 ∧ q 0 1 = B64.int (-1) ∧ q 1 0 = B64.int 1 ∧ q 1 1 = B64.int 0 := by
  obtain ⟨M, q, e, -, hs, h⟩ := Bi.u_wp two_pos s (fun k q =>
    (k = 2 → ∀ i j, i < 2 → j < 2 → q i j = B64.int 0) ∧
    (k = 1 → q 0 1 = B64.int 0 ∧ q 1 0 = B64.int 0 ∧ q 1 1 = B64.int (-1)) ∧
    (k = 0 → q 0 0 = B64.int 0 ∧ q 0 1 = B64.int (-1) ∧ q 1 0 = B64.int 1 ∧ q 1 1 = B64.int 0))
    (fun q h => ⟨fun _ i j hi hj => by
        rw [h i j hi hj, Bi.fillEnt, if_neg (by simp; omega)]; rfl,
      fun h => absurd h (by decide), fun h => absurd h (by decide)⟩) (by
      intro _ k q q' hk hI hS
      obtain rfl | rfl : k = 0 ∨ k = 1 := by omega
      · obtain ⟨g1, g2, g3⟩ := hI.2.1 rfl
        refine ⟨by omega, by omega, fun _ => ?_⟩
        have hr := hS.cols (by rw [h2]; exact B64.int_ne _ _ (by norm_num))
        have u00 : upd2 q 0 0 Flt.one 0 0 = B64.int 1 := by simp [upd2]; rfl
        have u01 : upd2 q 0 0 Flt.one 0 1 = B64.int 0 := by simp [upd2, g1]
        have u10 : upd2 q 0 0 Flt.one 1 0 = B64.int 0 := by simp [upd2, g2]
        have u11 : upd2 q 0 0 Flt.one 1 1 = B64.int (-1) := by simp [upd2, g3]
        have a0 : Flt.neg (Flt.div (lsub 0 2 (fun r => Flt.mul (upd2 q 0 0 Flt.one r 0) (s.hv.f r 0)) Flt.zero)
            (Flt.mul (s.main.f 0) (s.hv.f 0 0))) = B64.int 1 := by
          rw [lsub_succ (by omega), lsub_succ (by omega), lsub_self le_rfl, u00, u10, h0, h2, h3, B64.zero_int,
            B64.mul_int _ _ (by norm_num), B64.mul_int _ _ (by norm_num),
            B64.sub_int _ _ (by norm_num), B64.sub_int _ _ (by norm_num),
            B64.div_int (m := -1) _ _ (by norm_num) (by norm_num) (by norm_num), B64.neg_int]
          rfl
        have a1 : Flt.neg (Flt.div (lsub 0 2 (fun r => Flt.mul (upd2 q 0 0 Flt.one r 1) (s.hv.f r 0)) Flt.zero)
            (Flt.mul (s.main.f 0) (s.hv.f 0 0))) = B64.int 1 := by
          rw [lsub_succ (by omega), lsub_succ (by omega), lsub_self le_rfl, u01, u11, h0, h2, h3, B64.zero_int,
            B64.mul_int _ _ (by norm_num), B64.mul_int _ _ (by norm_num), B64.mul_int _ _ (by norm_num),
            B64.sub_int _ _ (by norm_num), B64.sub_int _ _ (by norm_num),
            B64.div_int (m := -1) _ _ (by norm_num) (by norm_num) (by norm_num), B64.neg_int]
          rfl
        refine ⟨?_, ?_, ?_, ?_⟩
        · rw [hr 0 0 (by omega) (by omega) (by omega) (by omega), a0, u00, h2, B64.mul_int _ _ (by norm_num),
            B64.add_int _ _ (by norm_num)]
          rfl
        · rw [hr 0 1 (by omega) (by omega) (by omega) (by omega), a1, u01, h2, B64.mul_int _ _ (by norm_num),
            B64.add_int _ _ (by norm_num)]
          rfl
        · rw [hr 1 0 (by omega) (by omega) (by omega) (by omega), a0, u10, h3, B64.mul_int _ _ (by norm_num),
            B64.add_int _ _ (by norm_num)]
          rfl
        · rw [hr 1 1 (by omega) (by omega) (by omega) (by omega), a1, u11, h3, B64.mul_int _ _ (by norm_num),
            B64.add_int _ _ (by norm_num)]
          rfl
      · have g := hI.1 rfl
        refine ⟨by omega, fun _ => ⟨?_, ?_, ?_⟩, by omega⟩
        · rw [hS.other 0 1 (by omega), g _ _ (by omega) (by omega)]
        · rw [hS.other 1 0 (by omega), g _ _ (by omega) (by omega)]
        · have u11 : upd2 q 1 1 Flt.one 1 1 = B64.int 1 := by simp [upd2]; rfl
          rw [hS.cols (by rw [h4]; exact B64.int_ne _ _ (by norm_num)) 1 1 le_rfl (by omega) le_rfl (by omega),
            B64.lsub12, u11, h1, h4, B64.zero_int, B64.mul_int _ _ (by norm_num),
            B64.sub_int _ _ (by norm_num), B64.div_int (m := -1) _ _ (by norm_num) (by norm_num) (by norm_num),
            B64.neg_int, B64.mul_int _ _ (by norm_num), B64.add_int _ _ (by norm_num)]
          rfl)
    (fun h => by omega)
  rw [if_pos le_rfl] at hs h
  exact ⟨M, q, e, hs, h.2.2 rfl⟩

theorem Bi.case_v (s : Bi B64 2 2) (h0 : s.sec.f 0 = B64.int (-1)) (h1 : s.hv.f 0 1 = B64.int 2) :
    ∃ (M : Mat B64 2 2) (q : Nat → Nat → B64), s.v = .ok ⟨2, 2, M⟩ ∧ Shows M.at 2 2 q ∧
      q 0 0 = B64.int 1 ∧ q 0 1 = B64.int 0 ∧ q 1 0 = B64.int 0 ∧ q 1 1 = B64.int (-1) := by
  obtain ⟨M, q, e, -, hs, h⟩ := Bi.v_wp two_pos two_pos s (fun k q =>
    (k = 2 → ∀ i j, i < 2 → j < 2 → q i j = B64.int 0) ∧
    (k = 1 → q 0 1 = B64.int 0 ∧ q 1 0 = B64.int 0 ∧ q 1 1 = B64.int (-1)))
    (fun q h => ⟨fun _ i j hi hj => by
        rw [h i j hi hj, Bi.fillEnt, if_neg (by simp; omega)]; rfl,
      fun h => absurd h (by decide)⟩) (fun h => by omega) (by
      intro _ k q q' hk0 hk hI hS
      obtain rfl : k = 1 := by omega
      have g := hI.1 rfl
      refine ⟨by omega, fun _ => ⟨?_, ?_, ?_⟩⟩
      · rw [hS.other 0 1 (by omega), g _ _ (by omega) (by omega)]
      · rw [hS.other 1 0 (by omega), g _ _ (by omega) (by omega)]
      · have u11 : upd2 q 1 1 Flt.one 1 1 = B64.int 1 := by simp [upd2]; rfl
        rw [hS.cols (by rw [h1]; exact B64.int_ne _ _ (by norm_num)) 1 1 le_rfl (by omega) le_rfl (by omega),
          B64.lsub12, u11, h0, h1, B64.zero_int, B64.mul_int _ _ (by norm_num), B64.mul_int _ _ (by norm_num),
          B64.sub_int _ _ (by norm_num), B64.div_int (m := 1) _ _ (by norm_num) (by norm_num) (by norm_num),
          B64.neg_int, B64.mul_int _ _ (by norm_num), B64.add_int _ _ (by norm_num)]
        rfl)
  rw [if_pos le_rfl] at hs h
  obtain ⟨g1, g2, g3⟩ := h.2 rfl
  refine ⟨M, _, e, hs, ?_, ?_, ?_, ?_⟩
  · simp [upd2]; rfl
  · simp [upd2, g1]
  · simp [upd2, g2]
  · simp [upd2, g3]

/-- Concrete case for C101, C102: the hypotheses hold for the binary64 matrix with rows (0, 1) and (1, 1),
whose factors are `U` with rows (0, -1) and (1, 0), `B` with rows (1, -1) and (0, 1), `V` = diag (1, -1). -/
example : ∃ (a : Mat B64 2 2) (s : Bi B64 2 2) (mb mu mv : Mat B64 2 2) (B U V : Nat → Nat → B64),
    a.own ∧ Shows a.at 2 2 Bi.caseA ∧ Bi.new a = .ok s ∧ s.b = .ok ⟨2, 2, mb⟩ ∧ s.u = .ok ⟨2, 2, mu⟩ ∧
    s.v = .ok ⟨2, 2, mv⟩ ∧ Shows mb.at 2 2 B ∧ Shows mu.at 2 2 U ∧ Shows mv.at 2 2 V ∧
    (∀ i, i < min 2 2 → Scaled (max 2 2) ((1 / 2) ^ 53) (B i i)) ∧
    (∀ i, i + 1 < min 2 2 → Scaled (max 2 2) ((1 / 2) ^ 53) (sideEnt (decide (2 ≤ 2)) B i)) ∧
    (∀ i j, i < 2 → j < 2 → fin (U i j)) ∧ (∀ i j, i < 2 → j < 2 → fin (V i j)) ∧
    val (B 0 1) = -1 ∧ val (U 0 1) = -1 ∧ val (V 1 1) = -1 := by
  let a : Mat B64 2 2 := .arr ⟨⟨Bi.caseA⟩, fun _ => 0⟩
  have hA : Shows a.at 2 2 Bi.caseA := (Mat.at_shows a).congr fun i j hi hj => rfl
  obtain ⟨s, e, d0, d1, c0, h1, h2, h3, h4⟩ := Bi.case_new (a := a) trivial hA
  obtain ⟨mb, eb, -, hb⟩ := Bi.b_ok two_pos two_pos s
  obtain ⟨mu, U, eu, hu, u1, u2, u3, u4⟩ := Bi.case_u s d0 d1 h1 h2 h4
  obtain ⟨mv, V, ev, hv, v1, v2, v3, v4⟩ := Bi.case_v s c0 h3
  have hS : ∀ k : ℤ, ∀ hk : |k| ≤ 2 ^ 53, k = 1 ∨ k = -1 → Scaled 2 ((1 / 2) ^ 53) (B64.int k hk) := by
    intro k hk h
    have hsq : ((k : ℝ)) ^ 2 = 1 := by obtain rfl | rfl := h <;> norm_num
    have hab : |(k : ℝ)| = 1 := by obtain rfl | rfl := h <;> norm_num
    refine B64.scaled (B64.int_fin _) (Or.inr ?_) ?_
    · rw [B64.int_val, hsq]
      have : ((1 : ℝ) / 2) ^ 1020 ≤ (1 / 2) ^ 1 := pow_le_pow_of_le_one (by norm_num) (by norm_num) (by norm_num)
      generalize ((1 : ℝ) / 2) ^ 1020 = z at *
      push_cast
      linarith
    · rw [B64.int_val, hab]
      exact one_le_pow₀ (by norm_num)
  refine ⟨a, s, mb, mu, mv, _, _, _, trivial, hA, e, eb, eu, ev, hb, hu, hv, ?_, ?_, ?_, ?_, ?_, ?_, ?_⟩
  · intro i hi
    rw [if_pos le_rfl]
    obtain rfl | rfl : i = 0 ∨ i = 1 := by
      have : min 2 2 = 2 := rfl
      omega
    · show Scaled 2 _ (s.main.f 0)
      rw [d0]; exact hS _ _ (Or.inl rfl)
    · show Scaled 2 _ (s.main.f 1)
      rw [d1]; exact hS _ _ (Or.inl rfl)
  · intro i hi
    obtain rfl : i = 0 := by
      have : min 2 2 = 2 := rfl
      omega
    show Scaled 2 _ (s.sec.f 0)
    rw [c0]; exact hS _ _ (Or.inr rfl)
  · intro i j hi hj
    obtain rfl | rfl : i = 0 ∨ i = 1 := by omega
    all_goals obtain rfl | rfl : j = 0 ∨ j = 1 := by omega
    · rw [u1]; exact B64.int_fin _
    · rw [u2]; exact B64.int_fin _
    · rw [u3]; exact B64.int_fin _
    · rw [u4]; exact B64.int_fin _
  · intro i j hi hj
    obtain rfl | rfl : i = 0 ∨ i = 1 := by omega
    all_goals obtain rfl | rfl : j = 0 ∨ j = 1 := by omega
    · rw [v1]; exact B64.int_fin _
    · rw [v2]; exact B64.int_fin _
    · rw [v3]; exact B64.int_fin _
    · rw [v4]; exact B64.int_fin _
  · show val (s.sec.f 0) = -1
    rw [c0, B64.int_val]; norm_num
  · rw [u2, B64.int_val]; norm_num
  · rw [v4, B64.int_val]; norm_num

end Linear
