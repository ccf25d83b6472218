import Verif.Lemmas.RoundRRQR
import Verif.Props.QR

/-!
# C89, C90, C91: the QR decompositions in rounded arithmetic

`u` is the unit round-off and `η` half of the smallest positive number.  `cnorm M j` is the Euclidean
norm of column `j`.  The theorems hold for every arithmetic that satisfies `Rnd`, in particular for
`B64`.
-/

set_option linter.unusedSectionVars false

namespace Linear

open Spec Rnd Matrix
open Finset hiding val diag

instance : ZeroLaws B64 where
  add_zz := by rw [B64.zero_int, B64.add_int _ _ (by norm_num)]; rfl
  sub_zz := by rw [B64.zero_int, B64.sub_int _ _ (by norm_num)]; rfl
  mul_zz := by rw [B64.zero_int, B64.mul_int _ _ (by norm_num)]; rfl
  ulp_zz := (B64.ulpEq_zero _).2 ⟨trivial, (val_zero (α := B64)).ge,
    (val_zero (α := B64)).le.trans (zpow_pos two_pos _).le⟩

/-! ## Specification -/

/-- The error of `p` reflections of length `m` on a column of norm `x`: a relative part of about
`36 p (m + 4) e` and a part for underflow. -/
noncomputable def Spec.hhErr (α : Type) [Flt α] [Rnd α] (m p : Nat) (e x : ℝ) : ℝ :=
  ((1 + 36 * (m + 4) * e) ^ p - 1) * x + p * (1 + 36 * (m + 4) * e) ^ p * (6 * √(m * η α))

section round

variable {α : Type} [Flt α] [Rnd α] {m n : Nat}

theorem pow_le_lin {x : ℝ} {p : Nat} (hx : 0 ≤ x) (h : p * x ≤ 1) : (1 + x) ^ p ≤ 1 + 2 * (p * x) := by
  have key : ∀ k : Nat, k ≤ p → (1 + x) ^ k ≤ 1 + k * x + (k * x) ^ 2 := by
    intro k
    induction k with
    | zero => intro _; simp
    | succ k ih =>
      intro hk
      have i1 := ih (by omega)
      have hkx : k * x ≤ 1 := le_trans (by gcongr; omega) h
      have hk0 : (0 : ℝ) ≤ k := Nat.cast_nonneg _
      rw [pow_succ]
      refine (mul_le_mul_of_nonneg_right i1 (by linarith)).trans ?_
      push_cast
      nlinarith [mul_nonneg hk0 hx, mul_nonneg (mul_nonneg hk0 hx) hx, mul_le_mul_of_nonneg_right hkx (mul_nonneg (mul_nonneg hk0 hx) hx), mul_nonneg hx hx]
  have h1 := key p le_rfl
  have hp : 0 ≤ p * x := by positivity
  nlinarith

/-- The error in terms without powers. -/
theorem hhErr_le {p : Nat} {e x : ℝ} (he : 0 ≤ e) (hx : 0 ≤ x) (h : p * (36 * (m + 4) * e) ≤ 1) :
    hhErr α m p e x ≤ 72 * p * (m + 4) * e * x + 18 * p * √(m * η α) := by
  have h1 := pow_le_lin (p := p) (x := 36 * (m + 4) * e) (by positivity) h
  have h2 := Real.sqrt_nonneg (m * η α)
  have hp : (0 : ℝ) ≤ p := Nat.cast_nonneg _
  unfold hhErr
  have h3 : (1 + 36 * (m + 4) * e) ^ p - 1 ≤ 72 * p * (m + 4) * e := by nlinarith
  have h4 : (1 + 36 * (m + 4) * e) ^ p ≤ 3 := by nlinarith
  have h5 := mul_le_mul_of_nonneg_right h3 hx
  have h6 : p * (1 + 36 * (m + 4) * e) ^ p * (6 * √(m * η α)) ≤ p * 3 * (6 * √(m * η α)) := by gcongr
  linarith

theorem nrm_sum_le {ι : Type} (S : Finset ℕ) (T : Finset ι) (f : ι → ℕ → ℝ) :
    nrm S (fun i => ∑ k ∈ T, f k i) ≤ ∑ k ∈ T, nrm S (f k) := by
  classical
  induction T using Finset.induction_on with
  | empty => simp only [sum_empty]; rw [nrm_zero]
  | insert a T h ih =>
    rw [sum_insert h]
    refine le_trans (le_of_eq (nrm_congr fun i _ => ?_)) (nrm_add_le.trans (add_le_add le_rfl ih))
    rw [sum_insert h]

theorem cnorm_mul_le {p : Nat} (E : Matrix (Fin m) (Fin p) ℝ) (R : Matrix (Fin p) (Fin n) ℝ) (j : Fin n) :
    cnorm (E * R) j ≤ ∑ k, cnorm E k * |R k j| := by
  rw [cnorm_eq]
  refine le_trans (le_of_eq (nrm_congr (y := fun i => ∑ k : Fin p,
    R k j * if h : i < m then E ⟨i, h⟩ k else 0) fun i hi => ?_)) ((nrm_sum_le _ _ _).trans (le_of_eq ?_))
  · rw [dif_pos (mem_range.1 hi), Matrix.mul_apply]
    refine sum_congr rfl fun k _ => ?_
    rw [dif_pos (mem_range.1 hi), mul_comm]
  · refine sum_congr rfl fun k _ => ?_
    rw [nrm_mul, cnorm_eq, mul_comm]

theorem cnorm_dot (M N : Matrix (Fin m) (Fin n) ℝ) (i j : Fin n) : |∑ k, M k i * N k j| ≤ cnorm M i * cnorm N j := by
  rw [cnorm_eq M, cnorm_eq N]
  refine le_trans (le_of_eq ?_) abs_dot_le
  rw [Finset.sum_range]
  congr 1
  refine sum_congr rfl fun k _ => ?_
  rw [dif_pos k.2, dif_pos k.2]

theorem cnorm_neg (M : Matrix (Fin m) (Fin n) ℝ) (j : Fin n) : cnorm (-M) j = cnorm M j := by
  unfold cnorm
  simp only [Matrix.neg_apply, neg_sq]

theorem cnorm_swap {Q : Matrix (Fin m) (Fin m) ℝ} (h1 : Qᵀ * Q = 1) (h2 : Q * Qᵀ = 1)
    (A R : Matrix (Fin m) (Fin n) ℝ) (j : Fin n) : cnorm (A - Q * R) j = cnorm (R - Qᵀ * A) j := by
  rw [← cnorm_orth h1 (R - Qᵀ * A) j, Matrix.mul_sub, ← Matrix.mul_assoc, h2, Matrix.one_mul, ← cnorm_neg, neg_sub]

/-- The finite triangular factor is what the analysis of the decomposition needs. -/
theorem QR.rfin_of {e : ℝ} {f : Nat → Nat → α} {d : Nat → α}
    (hfin : ∀ i j, i < m → j < n → fin (QR.rEnt f d i j))
    (hd : ∀ i, i < min m n → Scaled m e (QR.rEnt f d i i)) : QR.RFin m n e (min m n) f d := by
  refine ⟨fun i hi => ?_, fun i j hi hij hj => ?_, fun j r h1 h2 h3 h4 => ?_⟩
  · have := hd i hi
    unfold QR.rEnt at this
    rwa [if_neg (lt_irrefl _), if_pos rfl] at this
  · have := hfin i j (by omega) hj
    unfold QR.rEnt at this
    rwa [if_pos hij] at this
  · omega

theorem QR.rEnt_val {f : Nat → Nat → α} {d : Nat → α} :
    (mx m n fun i j => val (QR.rEnt f d i j)) =
      mx m n (QR.R (fun c r => val (f c r)) (fun c => val (d c)) (min m n)) := by
  ext i j
  show val (QR.rEnt f d i j) = QR.R (fun c r => val (f c r)) (fun c => val (d c)) (min m n) i j
  unfold QR.rEnt QR.R
  have hi := i.2
  have hj := j.2
  split_ifs <;> first | rfl | exact val_zero | omega

/-- The factors of a finished decomposition. -/
theorem QR.factors_round (hm : 0 < m) (hn : 0 < n) (s : QR α m n (min m n)) {B : Nat → Nat → α} {e : ℝ}
    (he : u α ≤ e) (hM : (m + 4) * e ≤ 1 / 100) {R : Nat → Nat → α}
    (hR : ∀ i j, i < m → j < n → R i j = QR.rEnt s.qrt.f s.rDiag.f i j)
    (h2 : QR.RFin m n e (min m n) s.qrt.f s.rDiag.f) (h3 : QR.RInv m n e B (min m n) s.qrt.f s.rDiag.f) :
    ∃ (mq mt : Mat α m m) (Q : Nat → Nat → α) (O : Matrix (Fin m) (Fin m) ℝ),
      s.q = .ok ⟨m, m, mq⟩ ∧ s.qT = .ok ⟨m, m, mt⟩ ∧
      Shows mq.at m m Q ∧ Shows mt.at m m (fun i j => Q j i) ∧ Oᵀ * O = 1 ∧ O * Oᵀ = 1 ∧
      (∀ j, cnorm ((mx m n fun i j => val (B i j)) - O * mx m n fun i j => val (R i j)) j ≤
        hhErr α m (min m n) e (cnorm (mx m n fun i j => val (B i j)) j)) ∧
      ((∀ i j, i < m → j < m → fin (Q i j)) →
        ∀ j, cnorm ((mx m m fun i j => val (Q i j)) - O) j ≤ hhErr α m (min m n) e 1) := by
  obtain ⟨mt, q, et, hdt, hst, hq⟩ := QR.qT_round hm hn s
  obtain ⟨mq, eq, hdq, hsq⟩ := C12_transpose hdt hm hst
  have ht : ∀ i, i < min m n → (QR.hx m (fun c r => val (s.qrt.f c r)) (fun c => val (s.rDiag.f c)) i)ᵀ =
      QR.hx m (fun c r => val (s.qrt.f c r)) (fun c => val (s.rDiag.f c)) i := fun i _ => hh_transpose _ _ _ _
  have hh : ∀ i, i < min m n → QR.hx m (fun c r => val (s.qrt.f c r)) (fun c => val (s.rDiag.f c)) i *
      QR.hx m (fun c r => val (s.qrt.f c r)) (fun c => val (s.rDiag.f c)) i = 1 := fun i hi => hh_sq (h3.refl i hi)
  refine ⟨mq, mt, fun i j => q j i, _, ?_, et, hsq, hst, hprod_orth' ht hh, hprod_orth ht hh, fun j => ?_,
    fun hf j => ?_⟩
  · unfold QR.q
    rw [et, ok_bind]
    dsimp only
    rw [eq]
    rfl
  · have e1 : (mx m n fun i j => val (R i j)) = mx m n fun i j => val (QR.rEnt s.qrt.f s.rDiag.f i j) := by
      ext i j
      exact congrArg val (hR i j i.2 j.2)
    rw [e1, QR.rEnt_val, cnorm_swap (hprod_orth' ht hh) (hprod_orth ht hh)]
    exact h3.err j
  · have := hq e B he hM h2.diag h3 (fun i j hi hj => hf j i hj hi) j
    unfold hhErr
    rwa [mul_one]

/-- Nearly orthonormal columns and the product, from a near orthogonal matrix. -/
theorem near_factors {A : Matrix (Fin m) (Fin n) ℝ} {R : Nat → Nat → ℝ} {Q : Nat → Nat → ℝ}
    {O : Matrix (Fin m) (Fin m) ℝ} {δ : ℝ} {ε : Fin n → ℝ} (h1 : Oᵀ * O = 1)
    (h3 : ∀ j, cnorm (A - O * mx m n R) j ≤ ε j) (h4 : ∀ j, cnorm (mx m m Q - O) j ≤ δ) :
    (∀ i j : Fin m, |∑ k ∈ range m, Q k i * Q k j - if i = j then 1 else 0| ≤ 2 * δ + δ ^ 2) ∧
    ∀ j : Fin n, cnorm (A - mx m m Q * mx m n R) j ≤ ε j + δ * ∑ k ∈ range m, |R k j| := by
  obtain ⟨E, hE⟩ : ∃ E, E = mx m m Q - O := ⟨_, rfl⟩
  have hQE : mx m m Q = O + E := by rw [hE]; abel
  rw [← hE] at h4
  have hO : ∀ j, cnorm O j = 1 := cnorm_orth_one h1
  refine ⟨fun i j => ?_, fun j => ?_⟩
  · have e3 : ∑ k ∈ range m, Q k i * Q k j = ∑ k, (O + E) k i * (O + E) k j := by
      rw [Finset.sum_range, ← hQE]
      rfl
    have e4 : ∑ k, O k i * O k j = if i = j then (1 : ℝ) else 0 := by
      have := congrFun (congrFun h1 i) j
      rw [Matrix.mul_apply, Matrix.one_apply] at this
      exact this
    have e5 : ∑ k, (O + E) k i * (O + E) k j - (if i = j then (1 : ℝ) else 0) =
        ∑ k, O k i * E k j + ∑ k, E k i * O k j + ∑ k, E k i * E k j := by
      rw [← e4, ← sum_sub_distrib, ← sum_add_distrib, ← sum_add_distrib]
      refine sum_congr rfl fun k _ => ?_
      rw [Matrix.add_apply, Matrix.add_apply]
      ring
    rw [e3, e5]
    have b1 := cnorm_dot O E i j
    have b2 := cnorm_dot E O i j
    have b3 := cnorm_dot E E i j
    rw [hO] at b1 b2
    have b4 := cnorm_nonneg E i
    have b5 := cnorm_nonneg E j
    have b6 := h4 i
    have b7 := h4 j
    have b8 := abs_add_le (∑ k, O k i * E k j + ∑ k, E k i * O k j) (∑ k, E k i * E k j)
    have b9 := abs_add_le (∑ k, O k i * E k j) (∑ k, E k i * O k j)
    have b10 : cnorm E i * cnorm E j ≤ δ * δ := mul_le_mul b6 b7 b5 (b4.trans b6)
    rw [sq]
    linarith
  · have e3 : A - mx m m Q * mx m n R = (A - O * mx m n R) + -(E * mx m n R) := by
      rw [hQE, Matrix.add_mul]; abel
    rw [e3]
    refine (cnorm_add_le _ _ _).trans (add_le_add (h3 j) ?_)
    rw [cnorm_neg]
    refine (cnorm_mul_le _ _ _).trans ?_
    rw [Finset.mul_sum, Finset.sum_range]
    exact sum_le_sum fun k _ => mul_le_mul_of_nonneg_right (h4 k) (abs_nonneg _)

variable [ZeroLaws α]

/-- What is known of a finished decomposition. -/
theorem QR.round_all {a : Mat α m n} (ha : a.own) (hm : 0 < m) (hn : 0 < n) {A : Nat → Nat → α}
    (hA : Shows a.at m n A) {s : QR α m n (min m n)} (hs : QR.new a = .ok s)
    {mr : Mat α m n} {R : Nat → Nat → α} (er : s.r = .ok ⟨m, n, mr⟩) (hR : Shows mr.at m n R)
    {e : ℝ} (he : u α ≤ e) (hM : (m + 4) * e ≤ 1 / 100)
    (hfin : ∀ i j, i < m → j < n → fin (R i j)) (hd : ∀ i, i < min m n → Scaled m e (R i i)) :
    (∀ i j, i < m → j < n → R i j = QR.rEnt s.qrt.f s.rDiag.f i j) ∧
    QR.RFin m n e (min m n) s.qrt.f s.rDiag.f ∧ QR.RInv m n e A (min m n) s.qrt.f s.rDiag.f := by
  obtain ⟨s', e1, h1⟩ := QR.new_round ha hm hn hA
  rw [hs] at e1
  cases Except.ok.inj e1
  obtain ⟨mr', e2, -, h2⟩ := QR.r_ok hm hn s
  rw [er] at e2
  cases Except.ok.inj e2
  have h3 : ∀ i j, i < m → j < n → R i j = QR.rEnt s.qrt.f s.rDiag.f i j := fun i j hi hj =>
    hR.unique h2 hi hj
  have h4 : QR.RFin m n e (min m n) s.qrt.f s.rDiag.f := by
    refine QR.rfin_of (fun i j hi hj => ?_) fun i hi => ?_
    · rw [← h3 i j hi hj]; exact hfin i j hi hj
    · rw [← h3 i i (by omega) (by omega)]; exact hd i hi
  exact ⟨h3, h4, h1 e he hM h4⟩

/-! ## C89 -/

/-- **C89.** When the triangular factor is finite and its diagonal entries are 0 or not so small or
large that their squares are lost, there is an exactly orthogonal matrix `Q` such that each column of
`Q R` differs from that of the matrix by at most `hhErr` of its norm; the matrix is finite and `R` is
zero below its diagonal. -/
theorem C89_backward {a : Mat α m n} (ha : a.own) (hm : 0 < m) (hn : 0 < n) {A : Nat → Nat → α}
    (hA : Shows a.at m n A) {s : QR α m n (min m n)} (hs : QR.new a = .ok s)
    {mr : Mat α m n} {R : Nat → Nat → α} (er : s.r = .ok ⟨m, n, mr⟩) (hR : Shows mr.at m n R)
    {e : ℝ} (he : u α ≤ e) (hM : (m + 4) * e ≤ 1 / 100)
    (hfin : ∀ i j, i < m → j < n → fin (R i j)) (hd : ∀ i, i < min m n → Scaled m e (R i i)) :
    (∀ i j, i < m → j < n → fin (A i j)) ∧ (∀ i j, i < m → j < n → j < i → R i j = Flt.zero) ∧
    ∃ Q : Matrix (Fin m) (Fin m) ℝ, Qᵀ * Q = 1 ∧ Q * Qᵀ = 1 ∧ ∀ j,
      cnorm ((mx m n fun i j => val (A i j)) - Q * mx m n fun i j => val (R i j)) j ≤
        hhErr α m (min m n) e (cnorm (mx m n fun i j => val (A i j)) j) := by
  obtain ⟨h1, h2, h3⟩ := QR.round_all ha hm hn hA hs er hR he hM hfin hd
  obtain ⟨-, -, -, O, -, -, -, -, o1, o2, o3, -⟩ := QR.factors_round hm hn s he hM h1 h2 h3
  refine ⟨h3.fin, fun i j hi hj hij => ?_, O, o1, o2, o3⟩
  rw [h1 i j hi hj]
  unfold QR.rEnt
  rw [if_neg (by omega), if_neg (by omega)]

/-- **C89.** The same bound without powers. -/
theorem C89_linear {a : Mat α m n} (ha : a.own) (hm : 0 < m) (hn : 0 < n) {A : Nat → Nat → α}
    (hA : Shows a.at m n A) {s : QR α m n (min m n)} (hs : QR.new a = .ok s)
    {mr : Mat α m n} {R : Nat → Nat → α} (er : s.r = .ok ⟨m, n, mr⟩) (hR : Shows mr.at m n R)
    {e : ℝ} (he : u α ≤ e) (hM : (m + 4) * e ≤ 1 / 100) (hp : (min m n : ℕ) * (36 * (m + 4) * e) ≤ 1)
    (hfin : ∀ i j, i < m → j < n → fin (R i j)) (hd : ∀ i, i < min m n → Scaled m e (R i i)) :
    ∃ Q : Matrix (Fin m) (Fin m) ℝ, Qᵀ * Q = 1 ∧ Q * Qᵀ = 1 ∧ ∀ j,
      cnorm ((mx m n fun i j => val (A i j)) - Q * mx m n fun i j => val (R i j)) j ≤
        72 * (min m n : ℕ) * (m + 4) * e * cnorm (mx m n fun i j => val (A i j)) j +
          18 * (min m n : ℕ) * √(m * η α) := by
  obtain ⟨-, -, Q, h1, h2, h3⟩ := C89_backward ha hm hn hA hs er hR he hM hfin hd
  exact ⟨Q, h1, h2, fun j => (h3 j).trans (hhErr_le ((u_nonneg (α := α)).trans he) (cnorm_nonneg _ _) hp)⟩

/-! ## C90 -/

/-- **C90.** When the orthogonal factor is finite as well, each of its columns differs from that of an
exactly orthogonal matrix, the one of C89, by at most `hhErr` of 1.  `Q` is the transpose of `QT`. -/
theorem C90_near {a : Mat α m n} (ha : a.own) (hm : 0 < m) (hn : 0 < n) {A : Nat → Nat → α}
    (hA : Shows a.at m n A) {s : QR α m n (min m n)} (hs : QR.new a = .ok s)
    {mr : Mat α m n} {R : Nat → Nat → α} (er : s.r = .ok ⟨m, n, mr⟩) (hR : Shows mr.at m n R)
    {e : ℝ} (he : u α ≤ e) (hM : (m + 4) * e ≤ 1 / 100)
    (hfin : ∀ i j, i < m → j < n → fin (R i j)) (hd : ∀ i, i < min m n → Scaled m e (R i i)) :
    ∃ (mq mt : Mat α m m) (Q : Nat → Nat → α), s.q = .ok ⟨m, m, mq⟩ ∧ s.qT = .ok ⟨m, m, mt⟩ ∧
      Shows mq.at m m Q ∧ Shows mt.at m m (fun i j => Q j i) ∧
      ((∀ i j, i < m → j < m → fin (Q i j)) →
        ∃ O : Matrix (Fin m) (Fin m) ℝ, Oᵀ * O = 1 ∧ O * Oᵀ = 1 ∧
          (∀ j, cnorm ((mx m n fun i j => val (A i j)) - O * mx m n fun i j => val (R i j)) j ≤
            hhErr α m (min m n) e (cnorm (mx m n fun i j => val (A i j)) j)) ∧
          ∀ j, cnorm ((mx m m fun i j => val (Q i j)) - O) j ≤ hhErr α m (min m n) e 1) := by
  obtain ⟨h1, h2, h3⟩ := QR.round_all ha hm hn hA hs er hR he hM hfin hd
  obtain ⟨mq, mt, Q, O, g1, g2, g3, g4, o1, o2, o3, o4⟩ := QR.factors_round hm hn s he hM h1 h2 h3
  exact ⟨mq, mt, Q, g1, g2, g3, g4, fun hf => ⟨O, o1, o2, o3, o4 hf⟩⟩

/-- **C90.** The columns of the computed orthogonal factor are nearly orthonormal, and `Q R` is near to
the matrix. -/
theorem C90_factors {a : Mat α m n} (ha : a.own) (hm : 0 < m) (hn : 0 < n) {A : Nat → Nat → α}
    (hA : Shows a.at m n A) {s : QR α m n (min m n)} (hs : QR.new a = .ok s)
    {mr : Mat α m n} {R : Nat → Nat → α} (er : s.r = .ok ⟨m, n, mr⟩) (hR : Shows mr.at m n R)
    {mq : Mat α m m} {Q : Nat → Nat → α} (eq : s.q = .ok ⟨m, m, mq⟩) (hQ : Shows mq.at m m Q)
    {e : ℝ} (he : u α ≤ e) (hM : (m + 4) * e ≤ 1 / 100)
    (hfin : ∀ i j, i < m → j < n → fin (R i j)) (hd : ∀ i, i < min m n → Scaled m e (R i i))
    (hqf : ∀ i j, i < m → j < m → fin (Q i j)) :
    (∀ i j : Fin m, |∑ k ∈ range m, val (Q k i) * val (Q k j) - if i = j then 1 else 0| ≤
      2 * hhErr α m (min m n) e 1 + hhErr α m (min m n) e 1 ^ 2) ∧
    ∀ j : Fin n, cnorm ((mx m n fun i j => val (A i j)) -
        (mx m m fun i j => val (Q i j)) * mx m n fun i j => val (R i j)) j ≤
      hhErr α m (min m n) e (cnorm (mx m n fun i j => val (A i j)) j) +
        hhErr α m (min m n) e 1 * ∑ k ∈ range m, |val (R k j)| := by
  obtain ⟨mq', -, Q', e1, -, hQ', -, h⟩ := C90_near ha hm hn hA hs er hR he hM hfin hd
  rw [eq] at e1
  cases Except.ok.inj e1
  have hqq : ∀ i j, i < m → j < m → Q' i j = Q i j := fun i j hi hj => hQ'.unique hQ hi hj
  obtain ⟨O, h1, h2, h3, h4⟩ := h fun i j hi hj => by rw [hqq i j hi hj]; exact hqf i j hi hj
  have e2 : (mx m m fun i j => val (Q' i j)) = mx m m fun i j => val (Q i j) := by
    ext i j
    exact congrArg val (hqq i j i.2 j.2)
  rw [e2] at h4
  exact near_factors (Q := fun i j => val (Q i j)) (R := fun i j => val (R i j)) h1 h3 h4

/-- **C90**, why a finite orthogonal factor has to be assumed: if the square of the entry of a 1 × 1
matrix underflows to 0, the triangular factor is 0, the orthogonal factor is not finite. -/
theorem C90_underflow {a : Mat α 1 1} (ha : a.own) {x : α} (hA : Shows a.at 1 1 fun _ _ => x)
    (hx : fin x) (h0 : val x ≠ 0) (hxf : fin (Flt.mul x x)) (hxx : val (Flt.mul x x) = 0) :
    ∃ (s : QR α 1 1 (min 1 1)) (mr mq : Mat α 1 1) (R Q : Nat → Nat → α), QR.new a = .ok s ∧
      s.r = .ok ⟨1, 1, mr⟩ ∧ s.q = .ok ⟨1, 1, mq⟩ ∧ Shows mr.at 1 1 R ∧ Shows mq.at 1 1 Q ∧
      fin (R 0 0) ∧ val (R 0 0) = 0 ∧ ¬ fin (Q 0 0) := by
  have hn : ∀ f : Nat → α, f 0 = x → fin (hnorm 0 1 f) ∧ val (hnorm 0 1 f) = 0 := by
    intro f hf
    have e1 : lsum 0 1 (fun r => Flt.mul (f r) (f r)) Flt.zero = Flt.add Flt.zero (Flt.mul x x) := by
      rw [lsum_succ (Nat.zero_le _), lsum_self le_rfl, hf]
    have f1 : fin (Flt.add Flt.zero (Flt.mul x x)) := add_ok zero_fin hxf (by
      rw [val_zero, hxx, _root_.add_zero, abs_zero]; linarith [big_le (α := α)])
    have v1 : val (Flt.add Flt.zero (Flt.mul x x)) = 0 := by rw [Rnd.zero_add f1 val_zero, hxx]
    have f2 : fin (Flt.sqrt (Flt.add Flt.zero (Flt.mul x x))) := sqrt_ok f1 v1.ge
    have v2 : val (Flt.sqrt (Flt.add Flt.zero (Flt.mul x x))) = 0 := by
      have := (sqrt_err f2).1
      rw [v1, Real.sqrt_zero, mul_zero, sub_zero] at this
      exact abs_nonpos_iff.1 this
    unfold hnorm
    rw [e1]
    split
    · have f3 : fin (Flt.mul (Flt.sqrt (Flt.add Flt.zero (Flt.mul x x))) (Flt.neg Flt.one)) :=
        mul_ok f2 (neg_fin.2 one_fin) (by rw [v2, zero_mul, abs_zero]; linarith [big_le (α := α)])
      exact ⟨f3, mul_of_zero f3 v2⟩
    · exact ⟨f2, v2⟩
  obtain ⟨s, e1, h1⟩ := QR.new_wp ha one_pos one_pos hA (fun k f d => f 0 0 = x ∧ (k = 1 → fin (d 0) ∧ val (d 0) = 0))
    (fun f d h => ⟨h 0 0 one_pos one_pos, by omega⟩) (by
      intro k f f' d hk _ hI hS
      obtain rfl : k = 0 := by omega
      obtain ⟨g1, g2⟩ := hn (f 0) hI.1
      have : Flt.eq (hnorm 0 1 (f 0)) Flt.zero = true := by
        rw [eq_iff g1 zero_fin, g2, val_zero]
      rw [hS.same this]
      exact ⟨hI.1, fun _ => by rw [upd1, if_pos rfl]; exact ⟨g1, g2⟩⟩)
  obtain ⟨h2, h3⟩ := h1
  obtain ⟨h3, h4⟩ := h3 (by decide)
  obtain ⟨mr, er, hdr, hr⟩ := QR.r_ok one_pos one_pos s
  obtain ⟨mt, q, et, hdt, hst, hq⟩ := QR.qT_wp one_pos one_pos s (fun k q => k = 0 → ¬ fin (q 0 0))
    (fun q _ h => absurd h (by decide)) (by
      intro k q q' hk _ _ hS _
      obtain rfl : k = 0 := by omega
      have hne : Flt.eq (s.qrt.f 0 0) Flt.zero = false := by
        rw [h2, Bool.eq_false_iff, Ne, eq_iff hx zero_fin, val_zero]
        exact h0
      rw [hS.rows hne 0 0 le_rfl one_pos le_rfl one_pos]
      intro hf
      have f1 := neg_fin.1 (mul_fin (add_fin hf).2).1
      rw [h2] at f1
      have f2 : fin (Flt.mul (s.rDiag.f 0) x) := mul_ok h3 hx (by
        rw [h4, zero_mul, abs_zero]; linarith [big_le (α := α)])
      exact div_ne f1 f2 (mul_of_zero f2 h4))
  obtain ⟨mq, eq, hdq, hsq⟩ := C12_transpose hdt one_pos hst
  refine ⟨s, mr, mq, _, _, e1, er, ?_, hr, hsq, ?_, ?_, hq rfl⟩
  · unfold QR.q
    rw [et, ok_bind]
    dsimp only
    rw [eq]
    rfl
  · exact h3
  · exact h4

/-! ## C91 -/

/-- **C91.** The rank-revealing decomposition: under the hypotheses of C89 on `R`, the matrix is
finite and, with the permutation `σ` that `P` shows, each column of `A P - Q R` is bounded like in
C89 for an exactly orthogonal `Q`; when the computed `Q` is finite it is near to that one, its columns
are nearly orthonormal, and `A P` is near to the product of the computed factors. -/
theorem C91_factors {a : Mat α m n} (ha : a.own) (hm : 0 < m) (hn : 0 < n) {A : Nat → Nat → α}
    (hA : Shows a.at m n A) {s : RRQR α m n (min m n)} (hs : RRQR.new a = .ok s)
    {mr : Mat α m n} {R : Nat → Nat → α} (er : s.qr.r = .ok ⟨m, n, mr⟩) (hR : Shows mr.at m n R)
    {e : ℝ} (he : u α ≤ e) (hM : (m + 4) * e ≤ 1 / 100)
    (hfin : ∀ i j, i < m → j < n → fin (R i j)) (hd : ∀ i, i < min m n → Scaled m e (R i i)) :
    (∀ i j, i < m → j < n → fin (A i j)) ∧ (∀ i j, i < m → j < n → j < i → R i j = Flt.zero) ∧
    ∃ (mp : Mat α n n) (mq mt : Mat α m m) (P Q : Nat → Nat → α) (σ : Equiv.Perm (Fin n))
      (O : Matrix (Fin m) (Fin m) ℝ),
      s.pMat = .ok mp ∧ s.qr.q = .ok ⟨m, m, mq⟩ ∧ s.qr.qT = .ok ⟨m, m, mt⟩ ∧
      Shows mp.at n n P ∧ Shows mq.at m m Q ∧ Shows mt.at m m (fun i j => Q j i) ∧
      (∀ i j : Fin n, P i j = if σ j = i then Flt.one else Flt.zero) ∧ Oᵀ * O = 1 ∧ O * Oᵀ = 1 ∧
      (∀ j, cnorm ((mx m n fun i j => val (A i j)).submatrix id σ - O * mx m n fun i j => val (R i j)) j ≤
        hhErr α m (min m n) e (cnorm (mx m n fun i j => val (A i j)) (σ j))) ∧
      ((∀ i j, i < m → j < m → fin (Q i j)) →
        (∀ j, cnorm ((mx m m fun i j => val (Q i j)) - O) j ≤ hhErr α m (min m n) e 1) ∧
        (∀ i j : Fin m, |∑ k ∈ range m, val (Q k i) * val (Q k j) - if i = j then 1 else 0| ≤
          2 * hhErr α m (min m n) e 1 + hhErr α m (min m n) e 1 ^ 2) ∧
        ∀ j, cnorm ((mx m n fun i j => val (A i j)).submatrix id σ -
            (mx m m fun i j => val (Q i j)) * mx m n fun i j => val (R i j)) j ≤
          hhErr α m (min m n) e (cnorm (mx m n fun i j => val (A i j)) (σ j)) +
            hhErr α m (min m n) e 1 * ∑ k ∈ range m, |val (R k j)|) := by
  obtain ⟨s', e1, h1, σ, hσ⟩ := RRQR.new_round ha hm hn hA
  rw [hs] at e1
  cases Except.ok.inj e1
  obtain ⟨mr', e2, -, h2⟩ := QR.r_ok hm hn s.qr
  rw [er] at e2
  cases Except.ok.inj e2
  have h3 : ∀ i j, i < m → j < n → R i j = QR.rEnt s.qr.qrt.f s.qr.rDiag.f i j := fun i j hi hj =>
    hR.unique h2 hi hj
  have h4 : QR.RFin m n e (min m n) s.qr.qrt.f s.qr.rDiag.f := by
    refine QR.rfin_of (fun i j hi hj => ?_) fun i hi => ?_
    · rw [← h3 i j hi hj]; exact hfin i j hi hj
    · rw [← h3 i i (by omega) (by omega)]; exact hd i hi
  have h5 := h1 e he hM h4
  obtain ⟨mq, mt, Q, O, g1, g2, g3, g4, o1, o2, o3, o4⟩ := QR.factors_round hm hn s.qr he hM h3 h4 h5
  obtain ⟨mp, ep, -, hp⟩ := RRQR.pMat_ok (s := s) hn hσ
  have e3 : (mx m n fun i j => val (A i (s.p.f j))) = (mx m n fun i j => val (A i j)).submatrix id σ := by
    ext i j
    show val (A i (s.p.f j)) = val (A i (σ j))
    rw [hσ]
  rw [e3] at o3
  have e4 : ∀ j, cnorm ((mx m n fun i j => val (A i j)).submatrix id σ) j =
      cnorm (mx m n fun i j => val (A i j)) (σ j) := fun j => rfl
  simp only [e4] at o3
  refine ⟨fun i j hi hj => ?_, fun i j hi hj hij => ?_, mp, mq, mt, _, Q, σ, O, ep, g1, g2, hp, g3, g4,
    fun i j => ?_, o1, o2, o3, fun hf => ?_⟩
  · have := h5.fin i (σ.symm ⟨j, hj⟩) hi (σ.symm ⟨j, hj⟩).2
    rwa [hσ, Equiv.apply_symm_apply] at this
  · rw [h3 i j hi hj]
    unfold QR.rEnt
    rw [if_neg (by omega), if_neg (by omega)]
  · rw [hσ j]
    exact if_congr Fin.val_inj rfl rfl
  · obtain ⟨n1, n2⟩ := near_factors (Q := fun i j => val (Q i j)) (R := fun i j => val (R i j)) o1 o3 (o4 hf)
    exact ⟨o4 hf, n1, n2⟩

end round

/-! ## Binary64 -/

/-- The bounds of C89 in binary64 with numbers: for fewer than `2⁴⁶ / (p (m + 4))` reflections, the
relative error of a column is at most `9 p (m + 4) 2⁻⁵⁰`. -/
theorem C89_binary64 {m n : Nat} {a : Mat B64 m n} (ha : a.own) (hm : 0 < m) (hn : 0 < n)
    {A : Nat → Nat → B64} (hA : Shows a.at m n A) {s : QR B64 m n (min m n)} (hs : QR.new a = .ok s)
    {mr : Mat B64 m n} {R : Nat → Nat → B64} (er : s.r = .ok ⟨m, n, mr⟩) (hR : Shows mr.at m n R)
    (hp : (min m n) * (m + 4) ≤ 2 ^ 46)
    (hfin : ∀ i j, i < m → j < n → fin (R i j))
    (hlow : ∀ i, i < min m n → val (R i i) = 0 ∨ m * (1 / 2) ^ 1020 ≤ val (R i i) ^ 2)
    (hhigh : ∀ i, i < min m n → |val (R i i)| ≤ 2 ^ 510) :
    ∃ Q : Matrix (Fin m) (Fin m) ℝ, Qᵀ * Q = 1 ∧ Q * Qᵀ = 1 ∧ ∀ j,
      cnorm ((mx m n fun i j => val (A i j)) - Q * mx m n fun i j => val (R i j)) j ≤
        9 * (min m n : ℕ) * (m + 4) * (1 / 2) ^ 50 * cnorm (mx m n fun i j => val (A i j)) j +
          18 * (min m n : ℕ) * √(m * (1 / 2) ^ 1075) := by
  have hp' : ((min m n : ℕ) : ℝ) * (m + 4) ≤ 2 ^ 46 := by exact_mod_cast hp
  have h1 : (1 : ℝ) ≤ (min m n : ℕ) := by exact_mod_cast (show 1 ≤ min m n by omega)
  have h2 : ((m : ℝ) + 4) ≤ 2 ^ 46 := le_trans (le_mul_of_one_le_left (by positivity) h1) hp'
  have hsc : ∀ i, i < min m n → Scaled m ((1 / 2) ^ 53) (R i i) := by
    intro i hi
    refine ⟨hfin i i (by omega) (by omega), ?_, ?_⟩
    · refine (hlow i hi).imp id fun h => ?_
      rw [show η B64 = (1 / 2) ^ 1075 from rfl,
        show ((1 : ℝ) / 2) ^ 1075 = (1 / 2) ^ 1020 * (1 / 2) ^ 55 by rw [← pow_add]]
      have : 4 * (m : ℝ) * ((1 / 2) ^ 1020 * (1 / 2) ^ 55) = (1 / 2) ^ 53 * (m * (1 / 2) ^ 1020) := by
        generalize ((1 : ℝ) / 2) ^ 1020 = z
        norm_num
        ring
      rw [this]
      exact mul_le_mul_of_nonneg_left h (by positivity)
    · show 4 * val (R i i) ^ 2 ≤ 2 ^ 1023
      have h3 := pow_le_pow_left₀ (abs_nonneg _) (hhigh i hi) 2
      rw [sq_abs, ← pow_mul] at h3
      have h4 : (2 : ℝ) ^ (510 * 2) * 4 ≤ 2 ^ 1023 := by
        rw [show (4 : ℝ) = 2 ^ 2 by norm_num, ← pow_add]
        exact pow_le_pow_right₀ (by norm_num) (by norm_num)
      linarith
  obtain ⟨Q, q1, q2, q3⟩ := C89_linear ha hm hn hA hs er hR (e := (1 / 2) ^ 53) le_rfl
    (by norm_num at h2 ⊢; linarith) (by norm_num at hp' ⊢; linarith) hfin hsc
  refine ⟨Q, q1, q2, fun j => (q3 j).trans (le_of_eq ?_)⟩
  rw [show η B64 = (1 / 2) ^ 1075 from rfl, show ((1 : ℝ) / 2) ^ 53 = (1 / 2) ^ 50 / 8 by norm_num]
  ring

theorem B64.near_tiny {x : ℝ} (h : |x| < 2 ^ (-1075 : ℤ)) : B64.near x = 0 := by
  have hp := B64.ulp_pos x
  have hu : (2 : ℝ) ^ (-1074 : ℤ) ≤ B64.ulp x := zpow_le_zpow_right₀ (by norm_num) (le_max_left _ _)
  have e : (2 : ℝ) ^ (-1074 : ℤ) = 2 * 2 ^ (-1075 : ℤ) := by
    rw [show (-1074 : ℤ) = 1 + -1075 by norm_num, zpow_add₀ (by norm_num), zpow_one]
  have h1 := abs_le.1 (B64.abs_sub_toInt (x / B64.ulp x))
  have h2 : |x / B64.ulp x| < 1 / 2 := by
    rw [abs_div, abs_of_pos hp, div_lt_iff₀ hp]
    linarith
  have h2 := abs_lt.1 h2
  have h3 : (-1 : ℝ) < B64.toInt (x / B64.ulp x) := by linarith
  have h4 : (B64.toInt (x / B64.ulp x) : ℝ) < 1 := by linarith
  have h3 : (-1 : ℤ) < B64.toInt (x / B64.ulp x) := by exact_mod_cast h3
  have h4 : B64.toInt (x / B64.ulp x) < (1 : ℤ) := by exact_mod_cast h4
  have h5 : B64.toInt (x / B64.ulp x) = 0 := by omega
  unfold B64.near
  rw [h5, Int.cast_zero, zero_mul]

theorem B64.num600 : B64.Num (2 ^ (-600 : ℤ)) := by
  refine ⟨⟨1, -600, by norm_num, by norm_num, by simp⟩, ?_⟩
  rw [abs_of_pos (zpow_pos (by norm_num) _)]
  refine lt_of_lt_of_le (zpow_lt_one_of_neg₀ (by norm_num) (by norm_num)) (one_le_pow₀ (by norm_num))

/-- Concrete case for C90: the 1 × 1 binary64 matrix `2⁻⁶⁰⁰`. -/
theorem C90_tiny : ∃ (a : Mat B64 1 1) (s : QR B64 1 1 (min 1 1)) (mr mq : Mat B64 1 1) (R Q : Nat → Nat → B64),
    a.own ∧ Shows a.at 1 1 (fun _ _ => B64.num _ B64.num600) ∧ QR.new a = .ok s ∧
      s.r = .ok ⟨1, 1, mr⟩ ∧ s.q = .ok ⟨1, 1, mq⟩ ∧ Shows mr.at 1 1 R ∧ Shows mq.at 1 1 Q ∧
      fin (R 0 0) ∧ val (R 0 0) = 0 ∧ ¬ fin (Q 0 0) := by
  let a : Mat B64 1 1 := .arr ⟨⟨fun _ _ => B64.num _ B64.num600⟩, fun _ => 0⟩
  have hA : Shows a.at 1 1 (fun _ _ => B64.num _ B64.num600) := (Mat.at_shows a).congr fun i j hi hj => rfl
  have hpos : (0 : ℝ) < 2 ^ (-600 : ℤ) := zpow_pos (by norm_num) _
  have hsq : |(2 : ℝ) ^ (-600 : ℤ) * 2 ^ (-600 : ℤ)| < 2 ^ (-1075 : ℤ) := by
    rw [abs_of_pos (by positivity), ← zpow_add₀ (by norm_num)]
    exact zpow_lt_zpow_right₀ (by norm_num) (by norm_num)
  have hxf : fin (Flt.mul (B64.num _ B64.num600) (B64.num _ B64.num600)) := by
    refine mul_ok trivial trivial (hsq.le.trans ?_)
    exact (zpow_lt_one_of_neg₀ (by norm_num) (by norm_num)).le.trans (le_trans (by norm_num) (big_le (α := B64)))
  obtain ⟨s, mr, mq, R, Q, h⟩ := C90_underflow (a := a) trivial hA (x := B64.num _ B64.num600) trivial hpos.ne' hxf
    ((B64.rnd_fin hxf).trans (B64.near_tiny hsq))
  exact ⟨a, s, mr, mq, R, Q, trivial, hA, h⟩

/-! ## A concrete case -/

/-- The 2 × 2 matrix with rows (0, -1) and (1, 3). -/
noncomputable def QR.caseA (i j : Nat) : B64 :=
  if i = 0 then (if j = 0 then B64.int 0 else B64.int (-1)) else if j = 0 then B64.int 1 else B64.int 3

theorem QR.case_step0 (f f' : Nat → Nat → B64) (h : ∀ i j, i < 2 → j < 2 → f i j = QR.caseA j i)
    (hS : QR.Step 0 f f' 2 2 (hnorm 0 2 (f 0))) : hnorm 0 2 (f 0) = B64.int 1 ∧ f' 0 0 = B64.int (-1) ∧
    f' 0 1 = B64.int 1 ∧ f' 1 0 = B64.int 3 ∧ f' 1 1 = B64.int (-1) := by
  have h00 : f 0 0 = B64.int 0 := h 0 0 (by omega) (by omega)
  have h01 : f 0 1 = B64.int 1 := h 0 1 (by omega) (by omega)
  have h10 : f 1 0 = B64.int (-1) := h 1 0 (by omega) (by omega)
  have h11 : f 1 1 = B64.int 3 := h 1 1 (by omega) (by omega)
  have hd : hnorm 0 2 (f 0) = B64.int 1 := by
    unfold hnorm
    rw [lsum_succ (by omega), lsum_succ (by omega), lsum_self le_rfl, h00, h01, if_neg, B64.zero_int,
      B64.mul_int _ _ (by norm_num), B64.mul_int _ _ (by norm_num), B64.add_int _ _ (by norm_num),
      B64.add_int _ _ (by norm_num), B64.sqrt_int (m := 1) _ (by norm_num) (by norm_num) (by norm_num)]
    rw [B64.zero_int, lt_iff (B64.int_fin _) (B64.int_fin _)]
    exact lt_irrefl _
  have hne : Flt.eq (hnorm 0 2 (f 0)) Flt.zero = false := by
    rw [hd, Bool.eq_false_iff, Ne, eq_iff (B64.int_fin _) zero_fin, B64.int_val, val_zero]
    norm_num
  have k00 : f' 0 0 = B64.int (-1) := by
    rw [hS.head hne, hd, h00, B64.sub_int _ _ (by norm_num)]; rfl
  have k01 : f' 0 1 = B64.int 1 := by rw [hS.row 1 (by omega), h01]
  have ha : halpha 0 2 (hnorm 0 2 (f 0)) (f' 0) (f 1) = B64.int 4 := by
    unfold halpha
    rw [lsub_succ (by omega), lsub_succ (by omega), lsub_self le_rfl, k00, k01, h10, h11, hd, B64.zero_int,
      B64.mul_int _ _ (by norm_num), B64.mul_int _ _ (by norm_num), B64.mul_int _ _ (by norm_num),
      B64.sub_int _ _ (by norm_num), B64.sub_int _ _ (by norm_num),
      B64.div_int (m := 4) _ _ (by norm_num) (by norm_num) (by norm_num)]
  refine ⟨hd, k00, k01, ?_, ?_⟩
  · rw [hS.cols hne 1 0 (by omega) (by omega) (by omega) (by omega), ha, k00, h10,
      B64.mul_int _ _ (by norm_num), B64.sub_int _ _ (by norm_num)]
    rfl
  · rw [hS.cols hne 1 1 (by omega) (by omega) (by omega) (by omega), ha, k01, h11,
      B64.mul_int _ _ (by norm_num), B64.sub_int _ _ (by norm_num)]
    rfl

theorem QR.case_step1 (f f' : Nat → Nat → B64) (h : f 1 1 = B64.int (-1))
    (hS : QR.Step 1 f f' 2 2 (hnorm 1 2 (f 1))) : hnorm 1 2 (f 1) = B64.int 1 ∧ f' 1 1 = B64.int (-2) := by
  have hd : hnorm 1 2 (f 1) = B64.int 1 := by
    unfold hnorm
    rw [lsum_succ (by omega), lsum_self le_rfl, h, if_neg, B64.zero_int,
      B64.mul_int _ _ (by norm_num), B64.add_int _ _ (by norm_num),
      B64.sqrt_int (m := 1) _ (by norm_num) (by norm_num) (by norm_num)]
    rw [B64.zero_int, lt_iff (B64.int_fin _) (B64.int_fin _), B64.int_val, B64.int_val]
    norm_num
  have hne : Flt.eq (hnorm 1 2 (f 1)) Flt.zero = false := by
    rw [hd, Bool.eq_false_iff, Ne, eq_iff (B64.int_fin _) zero_fin, B64.int_val, val_zero]
    norm_num
  refine ⟨hd, ?_⟩
  rw [hS.head hne, hd, h, B64.sub_int _ _ (by norm_num)]
  rfl

/-- The decomposition of the matrix of the concrete case. -/
theorem QR.case_new {a : Mat B64 2 2} (ha : a.own) (hA : Shows a.at 2 2 QR.caseA) :
    ∃ s : QR B64 2 2 (min 2 2), QR.new a = .ok s ∧ s.rDiag.f 0 = B64.int 1 ∧ s.rDiag.f 1 = B64.int 1 ∧
      s.qrt.f 0 0 = B64.int (-1) ∧ s.qrt.f 0 1 = B64.int 1 ∧ s.qrt.f 1 0 = B64.int 3 ∧
      s.qrt.f 1 1 = B64.int (-2) := by
  obtain ⟨s, e, h0, h1, h2⟩ := QR.new_wp ha two_pos two_pos hA (fun k f d =>
    (k = 0 → ∀ i j, i < 2 → j < 2 → f i j = QR.caseA j i) ∧
    (k = 1 → d 0 = B64.int 1 ∧ f 0 0 = B64.int (-1) ∧ f 0 1 = B64.int 1 ∧ f 1 0 = B64.int 3 ∧
      f 1 1 = B64.int (-1)) ∧
    (k = 2 → d 0 = B64.int 1 ∧ d 1 = B64.int 1 ∧ f 0 0 = B64.int (-1) ∧ f 0 1 = B64.int 1 ∧
      f 1 0 = B64.int 3 ∧ f 1 1 = B64.int (-2)))
    (fun f d h => ⟨fun _ => h, by omega, by omega⟩) (by
      intro k f f' d hk _ hI hS
      obtain rfl | rfl : k = 0 ∨ k = 1 := by omega
      · obtain ⟨g1, g2, g3, g4, g5⟩ := QR.case_step0 f f' (hI.1 rfl) hS
        refine ⟨by omega, fun _ => ⟨?_, g2, g3, g4, g5⟩, by omega⟩
        rw [upd1, if_pos rfl, g1]
      · obtain ⟨g1, g2, g3, g4, g5⟩ := hI.2.1 rfl
        obtain ⟨k1, k2⟩ := QR.case_step1 f f' g5 hS
        refine ⟨by omega, by omega, fun _ => ⟨?_, ?_, ?_, ?_, ?_, k2⟩⟩
        · rw [upd1, if_neg (by omega), g1]
        · rw [upd1, if_pos rfl, k1]
        · rw [hS.other 0 0 (by omega), g2]
        · rw [hS.other 0 1 (by omega), g3]
        · rw [hS.other 1 0 (by omega), g4])
  exact ⟨s, e, h2 (by decide)⟩

theorem QR.case_qT (s : QR B64 2 2 (min 2 2)) (h0 : s.rDiag.f 0 = B64.int 1) (h1 : s.rDiag.f 1 = B64.int 1)
    (h2 : s.qrt.f 0 0 = B64.int (-1)) (h3 : s.qrt.f 0 1 = B64.int 1) (h4 : s.qrt.f 1 1 = B64.int (-2)) :
    ∃ (M : Mat B64 2 2) (q : Nat → Nat → B64), s.qT = .ok ⟨2, 2, M⟩ ∧ M.dense ∧ Shows M.at 2 2 q ∧
      q 0 0 = B64.int 0 ∧ q 0 1 = B64.int 1 ∧ q 1 0 = B64.int (-1) ∧ q 1 1 = B64.int 0 := by
  have eq1 : ∀ k : ℤ, ∀ hk : |k| ≤ 2 ^ 53, k ≠ 0 → Flt.eq (B64.int k hk) (Flt.zero : B64) = false := by
    intro k hk h
    rw [Bool.eq_false_iff, Ne, eq_iff (B64.int_fin _) zero_fin, B64.int_val, val_zero]
    exact_mod_cast h
  obtain ⟨M, q, e, hd, hs, -, -, h⟩ := QR.qT_wp two_pos two_pos s (fun k q =>
    (k = 2 → ∀ i j, q i j = B64.int 0) ∧
    (k = 1 → q 0 1 = B64.int 0 ∧ q 1 0 = B64.int 0 ∧ q 1 1 = B64.int (-1)) ∧
    (k = 0 → q 0 0 = B64.int 0 ∧ q 0 1 = B64.int 1 ∧ q 1 0 = B64.int (-1) ∧ q 1 1 = B64.int 0))
    (fun q h => ⟨fun _ i j => by rw [h i j, if_neg (by simp; omega)]; rfl,
      fun h => absurd h (by decide), fun h => absurd h (by decide)⟩) (by
      intro k q q' hk _ hI hS
      obtain rfl | rfl : k = 0 ∨ k = 1 := by omega
      · obtain ⟨g1, g2, g3⟩ := hI.2.1 rfl
        refine ⟨by omega, by omega, fun _ => ?_⟩
        have hr := hS.rows (by rw [h2]; exact eq1 _ _ (by norm_num))
        have u00 : upd2 q 0 0 Flt.one 0 0 = B64.int 1 := by simp [upd2]; rfl
        have u01 : upd2 q 0 0 Flt.one 0 1 = B64.int 0 := by simp [upd2, g1]
        have u10 : upd2 q 0 0 Flt.one 1 0 = B64.int 0 := by simp [upd2, g2]
        have u11 : upd2 q 0 0 Flt.one 1 1 = B64.int (-1) := by simp [upd2, g3]
        have a0 : Flt.neg (Flt.div (lsub 0 2 (fun r => Flt.mul (upd2 q 0 0 Flt.one 0 r) (s.qrt.f 0 r)) Flt.zero)
            (Flt.mul (s.rDiag.f 0) (s.qrt.f 0 0))) = B64.int 1 := by
          rw [lsub_succ (by omega), lsub_succ (by omega), lsub_self le_rfl, u00, u01, h0, h2, h3, B64.zero_int,
            B64.mul_int _ _ (by norm_num), B64.mul_int _ _ (by norm_num),
            B64.sub_int _ _ (by norm_num), B64.sub_int _ _ (by norm_num),
            B64.div_int (m := -1) _ _ (by norm_num) (by norm_num) (by norm_num), B64.neg_int]
          rfl
        have a1 : Flt.neg (Flt.div (lsub 0 2 (fun r => Flt.mul (upd2 q 0 0 Flt.one 1 r) (s.qrt.f 0 r)) Flt.zero)
            (Flt.mul (s.rDiag.f 0) (s.qrt.f 0 0))) = B64.int 1 := by
          rw [lsub_succ (by omega), lsub_succ (by omega), lsub_self le_rfl, u10, u11, h0, h2, h3, B64.zero_int,
            B64.mul_int _ _ (by norm_num), B64.mul_int _ _ (by norm_num), B64.mul_int _ _ (by norm_num),
            B64.sub_int _ _ (by norm_num), B64.sub_int _ _ (by norm_num),
            B64.div_int (m := -1) _ _ (by norm_num) (by norm_num) (by norm_num), B64.neg_int]
          rfl
        refine ⟨?_, ?_, ?_, ?_⟩
        · rw [hr 0 0 (by omega) (by omega) (by omega) (by omega), a0, u00, h2, B64.mul_int _ _ (by norm_num),
            B64.add_int _ _ (by norm_num)]
          rfl
        · rw [hr 0 1 (by omega) (by omega) (by omega) (by omega), a0, u01, h3, B64.mul_int _ _ (by norm_num),
            B64.add_int _ _ (by norm_num)]
          rfl
        · rw [hr 1 0 (by omega) (by omega) (by omega) (by omega), a1, u10, h2, B64.mul_int _ _ (by norm_num),
            B64.add_int _ _ (by norm_num)]
          rfl
        · rw [hr 1 1 (by omega) (by omega) (by omega) (by omega), a1, u11, h3, B64.mul_int _ _ (by norm_num),
            B64.add_int _ _ (by norm_num)]
          rfl
      · have g := hI.1 rfl
        refine ⟨by omega, fun _ => ⟨?_, ?_, ?_⟩, by omega⟩
        · rw [hS.other 0 1 (by omega), g]
        · rw [hS.other 1 0 (by omega), g]
        · have u11 : upd2 q 1 1 Flt.one 1 1 = B64.int 1 := by simp [upd2]; rfl
          have l1 : ∀ g : Nat → B64, lsub 1 2 g Flt.zero = Flt.sub Flt.zero (g 1) := fun g =>
            (lsub_succ (a := 1) (b := 1) le_rfl _ _).trans (by rw [lsub_self le_rfl])
          rw [hS.rows (by rw [h4]; exact eq1 _ _ (by norm_num)) 1 1 le_rfl (by omega) le_rfl (by omega),
            l1, u11, h1, h4, B64.zero_int, B64.mul_int _ _ (by norm_num),
            B64.sub_int _ _ (by norm_num), B64.div_int (m := -1) _ _ (by norm_num) (by norm_num) (by norm_num),
            B64.neg_int, B64.mul_int _ _ (by norm_num), B64.add_int _ _ (by norm_num)]
          rfl)
  exact ⟨M, q, e, hd, hs, h rfl⟩

/-- Concrete case for C89, C90: the hypotheses hold for the binary64 matrix with rows (0, -1) and
(1, 3), whose factors are `Q` with rows (0, -1) and (1, 0) and `R` with rows (1, 3) and (0, 1). -/
example : ∃ (a : Mat B64 2 2) (s : QR B64 2 2 (min 2 2)) (mr mq : Mat B64 2 2) (R Q : Nat → Nat → B64),
    a.own ∧ Shows a.at 2 2 QR.caseA ∧ QR.new a = .ok s ∧ s.r = .ok ⟨2, 2, mr⟩ ∧ s.q = .ok ⟨2, 2, mq⟩ ∧
    Shows mr.at 2 2 R ∧ Shows mq.at 2 2 Q ∧ (∀ i j, i < 2 → j < 2 → fin (R i j)) ∧
    (∀ i j, i < 2 → j < 2 → fin (Q i j)) ∧ (∀ i, i < min 2 2 → Scaled 2 ((1 / 2) ^ 53) (R i i)) ∧
    val (Q 0 1) = -1 ∧ val (R 0 1) = 3 := by
  let a : Mat B64 2 2 := .arr ⟨⟨QR.caseA⟩, fun _ => 0⟩
  have hA : Shows a.at 2 2 QR.caseA := (Mat.at_shows a).congr fun i j hi hj => rfl
  obtain ⟨s, e, d0, d1, h1, h2, h3, h4⟩ := QR.case_new (a := a) trivial hA
  obtain ⟨mr, er, -, hr⟩ := QR.r_ok two_pos two_pos s
  obtain ⟨mt, q, et, hdt, hst, q1, q2, q3, q4⟩ := QR.case_qT s d0 d1 h1 h2 h4
  obtain ⟨mq, eq, -, hsq⟩ := C12_transpose hdt two_pos hst
  have r0 : QR.rEnt s.qrt.f s.rDiag.f 0 0 = B64.int 1 := d0
  have r1 : QR.rEnt s.qrt.f s.rDiag.f 1 1 = B64.int 1 := d1
  have r2 : QR.rEnt s.qrt.f s.rDiag.f 0 1 = B64.int 3 := h3
  have r3 : QR.rEnt s.qrt.f s.rDiag.f 1 0 = B64.int 0 := rfl
  refine ⟨a, s, mr, mq, _, _, trivial, hA, e, er, ?_, hr, hsq, ?_, ?_, ?_, ?_, ?_⟩
  · unfold QR.q
    rw [et, ok_bind]
    dsimp only
    rw [eq]
    rfl
  · intro i j hi hj
    obtain rfl | rfl : i = 0 ∨ i = 1 := by omega
    all_goals obtain rfl | rfl : j = 0 ∨ j = 1 := by omega
    · rw [r0]; exact B64.int_fin _
    · rw [r2]; exact B64.int_fin _
    · rw [r3]; exact B64.int_fin _
    · rw [r1]; exact B64.int_fin _
  · intro i j hi hj
    obtain rfl | rfl : i = 0 ∨ i = 1 := by omega
    all_goals obtain rfl | rfl : j = 0 ∨ j = 1 := by omega
    · rw [q1]; exact B64.int_fin _
    · rw [q3]; exact B64.int_fin _
    · rw [q2]; exact B64.int_fin _
    · rw [q4]; exact B64.int_fin _
  · have hS : Scaled 2 ((1 / 2) ^ 53) (B64.int 1) := by
      refine ⟨B64.int_fin _, Or.inr ?_, ?_⟩
      · rw [B64.int_val, show η B64 = (1 / 2) ^ 1075 from rfl, Int.cast_one, one_pow, mul_one]
        have : ((1 : ℝ) / 2) ^ 1075 ≤ (1 / 2) ^ 56 := pow_le_pow_of_le_one (by norm_num) (by norm_num) (by norm_num)
        generalize ((1 : ℝ) / 2) ^ 1075 = z at *
        rw [show ((1 : ℝ) / 2) ^ 53 = 8 * (1 / 2) ^ 56 by norm_num]
        push_cast
        linarith
      · rw [B64.int_val]
        have := big_le (α := B64)
        norm_num
        linarith
    intro i hi
    obtain rfl | rfl : i = 0 ∨ i = 1 := by
      have : min 2 2 = 2 := rfl
      omega
    · rw [r0]; exact hS
    · rw [r1]; exact hS
  · show val (q 1 0) = -1
    rw [q3, B64.int_val]; norm_num
  · rw [r2, B64.int_val]; norm_num

/-- The 2 × 2 matrix with rows (0, 0) and (1, 1). -/
noncomputable def RRQR.caseA (i _j : Nat) : B64 := if i = 0 then B64.int 0 else B64.int 1

/-- Concrete case for C91: the hypotheses hold for a binary64 matrix of rank one. -/
example : ∃ (a : Mat B64 2 2) (s : RRQR B64 2 2 (min 2 2)) (mr : Mat B64 2 2) (R : Nat → Nat → B64),
    a.own ∧ Shows a.at 2 2 RRQR.caseA ∧ RRQR.new a = .ok s ∧ s.qr.r = .ok ⟨2, 2, mr⟩ ∧ Shows mr.at 2 2 R ∧
    (∀ i j, i < 2 → j < 2 → fin (R i j)) ∧ (∀ i, i < min 2 2 → Scaled 2 ((1 / 2) ^ 53) (R i i)) ∧
    val (R 0 0) = 1 ∧ val (R 0 1) = 1 ∧ val (R 1 1) = 0 := by
  let a : Mat B64 2 2 := .arr ⟨⟨RRQR.caseA⟩, fun _ => 0⟩
  have hA : Shows a.at 2 2 RRQR.caseA := (Mat.at_shows a).congr fun i j hi hj => rfl
  have step0 : ∀ f f' : Nat → Nat → B64, (∀ c, c < 2 → f c 0 = B64.int 0 ∧ f c 1 = B64.int 1) →
      QR.Step 0 f f' 2 2 (hnorm 0 2 (f 0)) → hnorm 0 2 (f 0) = B64.int 1 ∧ f' 1 0 = B64.int 1 ∧
        f' 1 1 = B64.int 0 := by
    intro f f' h hS
    obtain ⟨h00, h01⟩ := h 0 (by omega)
    obtain ⟨h10, h11⟩ := h 1 (by omega)
    have hd : hnorm 0 2 (f 0) = B64.int 1 := by
      unfold hnorm
      rw [lsum_succ (by omega), lsum_succ (by omega), lsum_self le_rfl, h00, h01, if_neg, B64.zero_int,
        B64.mul_int _ _ (by norm_num), B64.mul_int _ _ (by norm_num), B64.add_int _ _ (by norm_num),
        B64.add_int _ _ (by norm_num), B64.sqrt_int (m := 1) _ (by norm_num) (by norm_num) (by norm_num)]
      rw [B64.zero_int, lt_iff (B64.int_fin _) (B64.int_fin _)]
      exact lt_irrefl _
    have hne : Flt.eq (hnorm 0 2 (f 0)) Flt.zero = false := by
      rw [hd, Bool.eq_false_iff, Ne, eq_iff (B64.int_fin _) zero_fin, B64.int_val, val_zero]
      norm_num
    have k00 : f' 0 0 = B64.int (-1) := by
      rw [hS.head hne, hd, h00, B64.sub_int _ _ (by norm_num)]; rfl
    have k01 : f' 0 1 = B64.int 1 := by rw [hS.row 1 (by omega), h01]
    have ha : halpha 0 2 (hnorm 0 2 (f 0)) (f' 0) (f 1) = B64.int 1 := by
      unfold halpha
      rw [lsub_succ (by omega), lsub_succ (by omega), lsub_self le_rfl, k00, k01, h10, h11, hd, B64.zero_int,
        B64.mul_int _ _ (by norm_num), B64.mul_int _ _ (by norm_num), B64.mul_int _ _ (by norm_num),
        B64.sub_int _ _ (by norm_num), B64.sub_int _ _ (by norm_num),
        B64.div_int (m := 1) _ _ (by norm_num) (by norm_num) (by norm_num)]
    refine ⟨hd, ?_, ?_⟩
    · rw [hS.cols hne 1 0 (by omega) (by omega) (by omega) (by omega), ha, k00, h10,
        B64.mul_int _ _ (by norm_num), B64.sub_int _ _ (by norm_num)]
      rfl
    · rw [hS.cols hne 1 1 (by omega) (by omega) (by omega) (by omega), ha, k01, h11,
        B64.mul_int _ _ (by norm_num), B64.sub_int _ _ (by norm_num)]
      rfl
  have hn1 : ∀ x : Nat → B64, x 1 = B64.int 0 → hnorm 1 2 x = B64.int 0 := by
    intro x h
    unfold hnorm
    rw [lsum_succ (by omega), lsum_self le_rfl, h, if_neg, B64.zero_int,
      B64.mul_int _ _ (by norm_num), B64.add_int _ _ (by norm_num),
      B64.sqrt_int (m := 0) _ (by norm_num) (by norm_num) (by norm_num)]
    rw [B64.zero_int, lt_iff (B64.int_fin _) (B64.int_fin _)]
    exact lt_irrefl _
  obtain ⟨s, e, ⟨h0, h1, h2⟩, -⟩ := RRQR.new_wp (a := a) trivial two_pos two_pos hA (fun k f d _ =>
    (k = 0 → ∀ c, c < 2 → f c 0 = B64.int 0 ∧ f c 1 = B64.int 1) ∧
    (k = 1 → d 0 = B64.int 1 ∧ f 1 0 = B64.int 1 ∧ f 1 1 = B64.int 0) ∧
    (k = 2 → d 0 = B64.int 1 ∧ d 1 = B64.int 0 ∧ f 1 0 = B64.int 1))
    (fun f d p h _ => ⟨fun _ c hc => ⟨h c 0 hc (by omega), h c 1 hc (by omega)⟩, by omega, by omega⟩) (by
      intro k f f' d p p' q v hk _ hkq hq _ hI _ _ hS
      obtain rfl | rfl : k = 0 ∨ k = 1 := by omega
      · have hq' : hnorm 0 2 (f q) = hnorm 0 2 ((fun c => f (sw 0 q c)) 0) := by dsimp only; rw [sw_left]
        rw [hq'] at hS ⊢
        obtain ⟨g1, g2, g3⟩ := step0 _ f' (fun c hc => hI.1 rfl _ (sw_lt (by omega) hq hc)) hS
        refine ⟨by omega, fun _ => ⟨?_, g2, g3⟩, by omega⟩
        rw [upd1, if_pos rfl, g1]
      · obtain ⟨g1, g2, g3⟩ := hI.2.1 rfl
        obtain rfl : q = 1 := by omega
        refine ⟨by omega, by omega, fun _ => ⟨?_, ?_, ?_⟩⟩
        · rw [upd1, if_neg (by omega), g1]
        · rw [upd1, if_pos rfl, hn1 _ g3]
        · rw [hS.other 1 0 (by omega), sw_left, g2])
  obtain ⟨d0, d1, h3⟩ := h2 (by decide)
  obtain ⟨mr, er, -, hr⟩ := QR.r_ok two_pos two_pos s.qr
  have r0 : QR.rEnt s.qr.qrt.f s.qr.rDiag.f 0 0 = B64.int 1 := d0
  have r1 : QR.rEnt s.qr.qrt.f s.qr.rDiag.f 1 1 = B64.int 0 := d1
  have r2 : QR.rEnt s.qr.qrt.f s.qr.rDiag.f 0 1 = B64.int 1 := h3
  have r3 : QR.rEnt s.qr.qrt.f s.qr.rDiag.f 1 0 = B64.int 0 := rfl
  refine ⟨a, s, mr, _, trivial, hA, e, er, hr, ?_, ?_, ?_, ?_, ?_⟩
  · intro i j hi hj
    obtain rfl | rfl : i = 0 ∨ i = 1 := by omega
    all_goals obtain rfl | rfl : j = 0 ∨ j = 1 := by omega
    · rw [r0]; exact B64.int_fin _
    · rw [r2]; exact B64.int_fin _
    · rw [r3]; exact B64.int_fin _
    · rw [r1]; exact B64.int_fin _
  · have hb := big_le (α := B64)
    intro i hi
    obtain rfl | rfl : i = 0 ∨ i = 1 := by
      have : min 2 2 = 2 := rfl
      omega
    · rw [r0]
      refine ⟨B64.int_fin _, Or.inr ?_, ?_⟩
      · rw [B64.int_val, show η B64 = (1 / 2) ^ 1075 from rfl, Int.cast_one, one_pow, mul_one]
        have : ((1 : ℝ) / 2) ^ 1075 ≤ (1 / 2) ^ 56 := pow_le_pow_of_le_one (by norm_num) (by norm_num) (by norm_num)
        generalize ((1 : ℝ) / 2) ^ 1075 = z at *
        rw [show ((1 : ℝ) / 2) ^ 53 = 8 * (1 / 2) ^ 56 by norm_num]
        push_cast
        linarith
      · rw [B64.int_val]
        norm_num
        linarith
    · rw [r1]
      refine ⟨B64.int_fin _, Or.inl ?_, ?_⟩
      · rw [B64.int_val]; norm_num
      · rw [B64.int_val]
        norm_num
        linarith
  · rw [r0, B64.int_val]; norm_num
  · rw [r2, B64.int_val]; norm_num
  · rw [r1, B64.int_val]; norm_num

end Linear
