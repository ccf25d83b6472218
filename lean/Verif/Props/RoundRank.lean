import Verif.Props.Weyl

/-!
# C118: rank and regularity in rounded arithmetic

`IsSv A τ`: `τ` are the singular values of the real matrix `A` (`Lemmas/Weyl.lean`).  `Matrix.rank` and `Matrix.det` are those of Mathlib.
-/

set_option linter.unusedSectionVars false

namespace Linear

open Spec Rnd Matrix
open Finset hiding val diag

/-- The rank of a matrix is the number of its singular values that are not zero. -/
theorem Spec.IsSv.rank {m n : Nat} {A : Matrix (Fin m) (Fin n) ℝ} {τ : Nat → ℝ} (h : IsSv A τ) :
    A.rank = ((range n).filter fun i => 0 < τ i).card := by
  obtain ⟨h0, -, -, O, oO, e⟩ := h
  have hu : IsUnit O.det := (Matrix.isUnit_iff_isUnit_det O).1 ⟨⟨O, Oᵀ, mul_eq_one_comm.1 oO, oO⟩, rfl⟩
  rw [← Matrix.rank_transpose_mul_self, e, Matrix.rank_mul_eq_left_of_isUnit_det _ _ (by rwa [Matrix.det_transpose]),
    Matrix.rank_mul_eq_right_of_isUnit_det _ _ hu, Matrix.rank_diagonal, Fintype.card_subtype, Finset.card_filter, Finset.card_filter,
    ← Fin.sum_univ_eq_sum_range (fun i => if 0 < τ i then 1 else 0)]
  refine Finset.sum_congr rfl fun i _ => ?_
  have := h0 i i.2
  by_cases c : 0 < τ i
  · rw [if_pos c, if_pos (pow_ne_zero 2 c.ne')]
  · have z : τ i = 0 := by linarith
    rw [if_neg c, if_neg (by rw [z]; norm_num)]

section round

variable {α : Type} [Flt α] {r c p : Nat}

/-- `Rank` counts the singular values above the tolerance, in any arithmetic. -/
theorem Svd.rank_filter {s : Svd α} {U V : Nat → Nat → α} {σ : Nat → α} (h : HoldsSvd s r c p U V σ) :
    s.rank = ((range p).filter fun i => Flt.lt s.tol (σ i) = true).card := by
  unfold Svd.rank
  have e : s.sv = (List.range p).map σ := by
    refine List.ext_getElem? fun i => ?_
    by_cases hi : i < p
    · rw [h.vals.2 i hi]; simp [hi]
    · rw [List.getElem?_eq_none (by rw [h.vals.1]; omega), List.getElem?_eq_none (by simp; omega)]
  rw [e, List.filter_map, List.length_map]
  have : ((fun x => Flt.lt s.tol x) ∘ σ) = fun i => decide (Flt.lt s.tol (σ i) = true) := by
    funext i
    simp
  rw [this]
  rfl

variable [Rnd α]

theorem Svd.rank_near {m : Nat} {s : Svd α} {U V : Nat → Nat → α} {σ : Nat → α} (h : HoldsSvd s r c p U V σ) (ft : fin s.tol)
    (fs : ∀ i, i < p → fin (σ i)) {M : Matrix (Fin m) (Fin p) ℝ} {E : ℝ} (hE : E ≤ val s.tol)
    (near : ∀ τ, IsSv M τ → ∀ i, i < p → |val (σ i) - τ i| ≤ E) :
    s.rank ≤ M.rank ∧ ((∀ τ, IsSv M τ → ∀ i, i < p → τ i = 0 ∨ val s.tol + E < τ i) → s.rank = M.rank) := by
  obtain ⟨τ, hτ⟩ := exists_isSv M
  rw [Svd.rank_filter h, hτ.rank]
  have up : ∀ i, i ∈ (range p).filter (fun i => Flt.lt s.tol (σ i) = true) → i ∈ (range p).filter fun i => 0 < τ i := fun i hi => by
    rw [Finset.mem_filter, Finset.mem_range] at hi ⊢
    have h1 := (lt_iff ft (fs i hi.1)).1 hi.2
    have h2 := abs_le.1 (near τ hτ i hi.1)
    exact ⟨hi.1, by linarith⟩
  refine ⟨Finset.card_le_card up, fun gap => ?_⟩
  congr 1
  refine Finset.Subset.antisymm up fun i hi => ?_
  rw [Finset.mem_filter, Finset.mem_range] at hi ⊢
  refine ⟨hi.1, (lt_iff ft (fs i hi.1)).2 ?_⟩
  have h2 := abs_le.1 (near τ hτ i hi.1)
  rcases gap τ hτ i hi.1 with g | g
  · exact absurd g hi.2.ne'
  · linarith

/-- **C118, a matrix with at least as many rows as columns.**  When the tolerance is at least the error bound, `Rank` is not above the
rank of the matrix, and equal to it when no true singular value lies between 0 and the tolerance plus the bound.  `IsNonSingular` then
says yes only for a regular matrix, and says yes when all true singular values are larger than that. -/
theorem C118_tall {κ : Svd.Lit α} {ε ω : ℝ} (he : u α ≤ ε) (hM : (r + 4) * ε ≤ 1 / 250) (hω : η α ≤ ω) (hω1 : ω ≤ 1 / 100)
    (hyp : HypNear ε κ.hyp) (f1 : fin κ.eps) (b1 : |val κ.eps| ≤ ε) (f2 : fin κ.tiny) (b2 : |val κ.tiny| ≤ ω) (hc : 0 < c)
    (hrc : c ≤ r) (fuel : Nat) {a : Mat α r c} (ha : a.own) {A : Nat → Nat → α} (hA : Shows a.at r c A)
    (F : RedFin κ.hyp r c A) {b N E : ℝ} (hb : b = fro (mx r c fun i j => val (A i j))) (hN : N = b + redErr r c ε (η α) b)
    (room : 16 * (rotErr (75 * ε) (75 * ω) 0 N (fuel * (2 * c + 2)) + N) ≤ big α)
    (hE : E = svdErr r c (fuel * (2 * c + 2)) ε ω (η α) b) {s : Svd α} (hs : Svd.new κ fuel a = .ok (some s)) :
    ∃ U V σ, HoldsSvd s r c c U V σ ∧
      ((∀ i j, i < r → j < c → fin (U i j)) → (∀ i j, i < c → j < c → fin (V i j)) → fin s.tol → E ≤ val s.tol →
        s.rank ≤ (mx r c fun i j => val (A i j)).rank ∧
        ((∀ τ, IsSv (mx r c fun i j => val (A i j)) τ → ∀ i, i < c → τ i = 0 ∨ val s.tol + E < τ i) →
          s.rank = (mx r c fun i j => val (A i j)).rank) ∧
        (s.isNonSingular = true → r = c ∧ (mx r c fun i j => val (A i j)).rank = r) ∧
        (r = c → (∀ τ, IsSv (mx r c fun i j => val (A i j)) τ → ∀ i, i < c → val s.tol + E < τ i) → s.isNonSingular = true)) := by
  obtain ⟨U, V, σ, hold, H⟩ := C117_tall he hM hω hω1 hyp f1 b1 f2 b2 hc hrc fuel ha hA F hb hN room hE hs
  refine ⟨U, V, σ, hold, fun g1 g2 ft hEt => ?_⟩
  obtain ⟨fs, near, -⟩ := H g1 g2
  obtain ⟨h1, h2⟩ := Svd.rank_near hold ft fs hEt near
  refine ⟨h1, h2, fun h3 => ?_, fun e h3 => ?_⟩
  · unfold Svd.isNonSingular at h3
    rw [beq_iff_eq, hold.big] at h3
    have h4 := (mx r c fun i j => val (A i j)).rank_le_width
    have h5 := (mx r c fun i j => val (A i j)).rank_le_height
    constructor <;> omega
  · subst e
    unfold Svd.isNonSingular
    rw [beq_iff_eq, hold.big, max_self, Svd.rank_filter hold]
    rw [Finset.filter_true_of_mem, Finset.card_range]
    intro i hi
    rw [Finset.mem_range] at hi
    obtain ⟨τ, hτ⟩ := exists_isSv (mx r r fun i j => val (A i j))
    refine (lt_iff ft (fs i hi)).2 ?_
    have := abs_le.1 (near τ hτ i hi)
    have := h3 τ hτ i hi
    linarith

/-- **C118, a matrix with more columns than rows**: the same for `Rank`; `IsNonSingular` says no. -/
theorem C118_wide {κ : Svd.Lit α} {ε ω : ℝ} (he : u α ≤ ε) (hM : (c + 4) * ε ≤ 1 / 250) (hω : η α ≤ ω) (hω1 : ω ≤ 1 / 100)
    (hyp : HypNear ε κ.hyp) (f1 : fin κ.eps) (b1 : |val κ.eps| ≤ ε) (f2 : fin κ.tiny) (b2 : |val κ.tiny| ≤ ω) (hr : 0 < r)
    (hrc : r < c) (fuel : Nat) {a : Mat α r c} (ha : a.own) {A : Nat → Nat → α} (hA : Shows a.at r c A)
    (F : RedFin κ.hyp c r fun i j => A j i) {b N E : ℝ} (hb : b = fro (mx r c fun i j => val (A i j)))
    (hN : N = b + redErr c r ε (η α) b)
    (room : 16 * (rotErr (75 * ε) (75 * ω) 0 N (fuel * (2 * r + 2)) + N) ≤ big α)
    (hE : E = svdErr c r (fuel * (2 * r + 2)) ε ω (η α) b) {s : Svd α} (hs : Svd.new κ fuel a = .ok (some s)) :
    ∃ U V σ, HoldsSvd s r c r U V σ ∧
      ((∀ i j, i < r → j < r → fin (U i j)) → (∀ i j, i < c → j < r → fin (V i j)) → fin s.tol → E ≤ val s.tol →
        s.rank ≤ (mx r c fun i j => val (A i j)).rank ∧
        ((∀ τ, IsSv (mx r c fun i j => val (A i j))ᵀ τ → ∀ i, i < r → τ i = 0 ∨ val s.tol + E < τ i) →
          s.rank = (mx r c fun i j => val (A i j)).rank) ∧
        s.isNonSingular = false) := by
  obtain ⟨U, V, σ, hold, H⟩ := C117_wide he hM hω hω1 hyp f1 b1 f2 b2 hr hrc fuel ha hA F hb hN room hE hs
  refine ⟨U, V, σ, hold, fun g1 g2 ft hEt => ?_⟩
  obtain ⟨fs, near, -⟩ := H g1 g2
  obtain ⟨h1, h2⟩ := Svd.rank_near hold ft fs hEt near
  rw [Matrix.rank_transpose] at h1 h2
  refine ⟨h1, h2, ?_⟩
  unfold Svd.isNonSingular
  rw [beq_eq_false_iff_ne, hold.big]
  have h5 := (mx r c fun i j => val (A i j)).rank_le_height
  omega

end round

/-! ## Binary64 -/

/-- The error of `k` rotations is nearly linear. -/
theorem rotErr_linear {ε ω b : ℝ} {k : Nat} (h0 : 0 ≤ ε) (hk : k * ε ≤ 1) (w0 : 0 ≤ ω) (hb : 0 ≤ b) :
    rotErr ε ω 0 b k ≤ 2 * (k * ε) * b + 3 * (k * ω) := by
  have x0 : 0 ≤ k * ε := by positivity
  have h1 : (1 + ε) ^ k ≤ Real.exp (k * ε) := by
    rw [Real.exp_nat_mul]
    exact pow_le_pow_left₀ (by linarith) (by linarith [Real.add_one_le_exp ε]) k
  have h2 := Real.abs_exp_sub_one_sub_id_le (x := k * ε) (by rw [abs_of_nonneg x0]; exact hk)
  have h3 := (abs_le.1 h2).2
  have h4 : (k * ε) ^ 2 ≤ k * ε := by nlinarith
  have h5 : (1 + ε) ^ k ≤ 1 + 2 * (k * ε) := by linarith
  have kw : 0 ≤ k * ω := by positivity
  unfold rotErr
  have h6 := mul_le_mul_of_nonneg_right h5 (show 0 ≤ 0 + b + k * ω by linarith)
  nlinarith [mul_nonneg x0 kw]

/-- A linear bound for `svdErr`. -/
theorem svdErr_linear {m n K : Nat} {ε ω η b : ℝ} (h0 : 0 ≤ ε) (w0 : 0 ≤ ω) (e0 : 0 ≤ η) (hb : 0 ≤ b) (h1 : 200 * n * (m + 2) * ε ≤ 1)
    (h2 : 75 * K * ε ≤ 1) :
    svdErr m n K ε ω η b ≤ (200 * n * (m + 2) + 300 * K) * ε * b + (126 * n * m * √m * η + 225 * K * ω) := by
  have m0 : (0 : ℝ) ≤ m := Nat.cast_nonneg m
  have n0 : (0 : ℝ) ≤ n := Nat.cast_nonneg n
  have K0 : (0 : ℝ) ≤ K := Nat.cast_nonneg K
  have s0 : 0 ≤ √(m : ℝ) := Real.sqrt_nonneg _
  have r1 : redErr m n ε η b ≤ 200 * n * (m + 2) * ε * b + 42 * n * m * √m * η := by
    unfold redErr
    have := rotErr_linear (ε := 50 * (m + 2) * ε) (ω := √m * (7 * (m * η))) (b := b) (k := 2 * n) (by positivity)
      (by push_cast; linarith) (by positivity) hb
    push_cast at this
    linarith
  have t0 : 0 ≤ n * m * √m * η := by positivity
  have r0 : 0 ≤ redErr m n ε η b := rotErr_nonneg (by positivity) (by positivity) le_rfl hb _
  have r2 : redErr m n ε η b ≤ b + 42 * n * m * √m * η := by
    have := mul_le_mul_of_nonneg_right h1 hb
    linarith
  have r3 := rotErr_linear (ε := 75 * ε) (ω := 75 * ω) (b := b + redErr m n ε η b) (k := K) (by positivity) (by linarith) (by positivity)
    (by linarith)
  have k0 : 0 ≤ K * ε := by positivity
  have r4 : 150 * (K * ε) * (b + redErr m n ε η b) ≤ 300 * (K * ε) * b + 84 * (n * m * √m * η) := by
    have h3 := mul_le_mul_of_nonneg_left r2 (show 0 ≤ 150 * (K * ε) by positivity)
    have h4 := mul_le_mul_of_nonneg_right (show 150 * (K * ε) ≤ 2 by linarith) (show 0 ≤ 42 * (n * m * √m * η) by positivity)
    linarith
  unfold svdErr
  linarith

/-- The tolerance is finite and not below the constant of the code when nothing overflows. -/
theorem svd_tol_ok {κ : Svd.Lit B64} (L : B64.SvdLit κ) {k : Nat} {x t : B64} (fx : fin x) (bx : |val x| ≤ 2 ^ 950)
    (fc : fin (κ.conv k)) (bc : |val (κ.conv k)| ≤ 2 ^ 60) (ff : fin κ.floor)
    (e : t = Flt.fmax (Flt.mul (Flt.mul (κ.conv k) x) κ.eps) κ.floor) : fin t ∧ val κ.floor ≤ val t := by
  have hbig : big B64 = 2 ^ 1023 := rfl
  have hu : u B64 = (1 / 2) ^ 53 := rfl
  have hη : η B64 = (1 / 2) ^ 1075 := rfl
  have p1 : |val (κ.conv k) * val x| ≤ 2 ^ 1010 := by
    rw [abs_mul]
    exact (mul_le_mul bc bx (abs_nonneg _) (by positivity)).trans_eq (by rw [← pow_add])
  have q1 : (2 : ℝ) ^ 1010 ≤ 2 ^ 1023 := pow_le_pow_right₀ (by norm_num) (by norm_num)
  have g1 : fin (Flt.mul (κ.conv k) x) := mul_ok fc fx (by rw [hbig]; exact p1.trans q1)
  have m1 := (mul_err g1).1
  have g2 : |val (Flt.mul (κ.conv k) x)| ≤ 2 ^ 1012 := by
    have h1 := abs_le.1 m1
    have h2 : u B64 * |val (κ.conv k) * val x| ≤ |val (κ.conv k) * val x| :=
      mul_le_of_le_one_left (abs_nonneg _) (by rw [hu]; norm_num)
    have h3 : η B64 ≤ 1 := by rw [hη]; exact pow_le_one₀ (by norm_num) (by norm_num)
    have h4 : (1 : ℝ) ≤ 2 ^ 1010 := one_le_pow₀ (by norm_num)
    have h5 := abs_le.1 p1
    have h6 : (2 : ℝ) ^ 1012 = 4 * 2 ^ 1010 := by rw [show (1012 : ℕ) = 2 + 1010 from rfl, pow_add]; norm_num only
    rw [h6]
    have h7 : |val (Flt.mul (κ.conv k) x)| ≤ 2 * |val (κ.conv k) * val x| + 1 := by
      clear hbig hu hη bx bc e q1 h4 h5 h6
      have h8 := le_abs_self (val (κ.conv k) * val x)
      have h9 := neg_abs_le (val (κ.conv k) * val x)
      rw [abs_le]
      constructor <;> linarith
    clear hbig hu hη bx bc e q1 h1 m1 h5 h6
    generalize (2 : ℝ) ^ 1010 = q at *
    linarith
  have g3 : fin (Flt.mul (Flt.mul (κ.conv k) x) κ.eps) := by
    refine mul_ok g1 L.eps_fin ?_
    rw [abs_mul, L.eps, hbig]
    have h1 : |((1 : ℝ) / 2) ^ 52| ≤ 1 := by norm_num
    have h2 : (2 : ℝ) ^ 1012 ≤ 2 ^ 1023 := pow_le_pow_right₀ (by norm_num) (by norm_num)
    exact (mul_le_of_le_one_right (abs_nonneg _) h1).trans (g2.trans h2)
  obtain ⟨h1, h2⟩ := max_fin g3 ff
  rw [e]
  exact ⟨h1, by rw [h2]; exact le_max_right _ _⟩

/-- The largest singular value is not larger than the Frobenius norm. -/
theorem Spec.IsSv.le_fro {m n : Nat} {A : Matrix (Fin m) (Fin n) ℝ} {τ : Nat → ℝ} (h : IsSv A τ) (hn : 0 < n) : τ 0 ≤ fro A := by
  obtain ⟨-, ⟨x, x0, hx⟩, -⟩ := h.stretch hn
  exact le_of_mul_le_mul_right (hx.trans (fro_mul_le A x)) (fro_pos_of_ne x0)

/-- What the binary64 theorems below need of the sizes: at most `2⁵²/200` entries, at most `2⁵²/75` rotations, and a norm of at most
`2⁹⁰⁰`.  The rest follows. -/
theorem svd_room {r c K : Nat} {b : ℝ} (hb : 0 ≤ b) (hb' : b ≤ 2 ^ 900) (h1 : 200 * c * (r + 2) * (1 / 2) ^ 52 ≤ (1 : ℝ))
    (h2 : 75 * K * (1 / 2) ^ 52 ≤ (1 : ℝ)) (hc : 0 < c) :
    16 * (rotErr (75 * (1 / 2) ^ 52) (75 * (1 / 2) ^ 966) 0 (b + redErr r c ((1 / 2) ^ 52) ((1 / 2) ^ 1075) b) K +
      (b + redErr r c ((1 / 2) ^ 52) ((1 / 2) ^ 1075) b)) ≤ 2 ^ 1023 ∧
    126 * c * r * √r * (1 / 2) ^ 1075 + 225 * K * (1 / 2) ^ 966 ≤ (1 : ℝ) := by
  have c1 : (1 : ℝ) ≤ c := by exact_mod_cast hc
  have r0 : (0 : ℝ) ≤ r := Nat.cast_nonneg r
  have K0 : (0 : ℝ) ≤ K := Nat.cast_nonneg K
  have hr : (c : ℝ) * (r + 2) ≤ 2 ^ 45 := by
    have : (c : ℝ) * (r + 2) * (200 * (1 / 2) ^ 52) ≤ 1 := by linarith
    by_contra h
    have h3 := mul_lt_mul_of_pos_right (not_le.1 h) (show (0 : ℝ) < 200 * (1 / 2) ^ 52 by positivity)
    norm_num at h3 this
    linarith
  have hr1 : (r : ℝ) + 2 ≤ c * (r + 2) := le_mul_of_one_le_left (by linarith) c1
  have hr2 : (r : ℝ) ≤ 2 ^ 45 := by linarith
  have hK : (K : ℝ) ≤ 2 ^ 46 := by
    by_contra h
    have h3 := mul_lt_mul_of_pos_right (not_le.1 h) (show (0 : ℝ) < 75 * (1 / 2) ^ 52 by positivity)
    norm_num at h3 h2
    linarith
  have hs : √(r : ℝ) ≤ 2 ^ 45 := by
    refine Real.sqrt_le_iff.2 ⟨by norm_num, hr2.trans ?_⟩
    norm_num
  have s0 : 0 ≤ √(r : ℝ) := Real.sqrt_nonneg _
  have t1 : (c : ℝ) * r * √r * (1 / 2) ^ 1075 ≤ (1 / 2) ^ 985 := by
    have h3 : (c : ℝ) * r ≤ 2 ^ 45 := by linarith
    have h4 := mul_le_mul h3 hs s0 (by positivity)
    have h5 := mul_le_mul_of_nonneg_right h4 (show (0 : ℝ) ≤ (1 / 2) ^ 1075 by positivity)
    refine h5.trans_eq ?_
    rw [show ((1 : ℝ) / 2) ^ 1075 = (1 / 2) ^ 90 * (1 / 2) ^ 985 by rw [← pow_add], ← mul_assoc]
    norm_num
  have p1 : ((1 : ℝ) / 2) ^ 985 ≤ (1 / 2) ^ 20 := pow_le_pow_of_le_one (by norm_num) (by norm_num) (by norm_num)
  have p2 : ((1 : ℝ) / 2) ^ 966 ≤ (1 / 2) ^ 60 := pow_le_pow_of_le_one (by norm_num) (by norm_num) (by norm_num)
  have p3 : (0 : ℝ) ≤ (1 / 2) ^ 966 := by positivity
  have t2 : (K : ℝ) * (1 / 2) ^ 966 ≤ (1 / 2) ^ 14 := by
    have := mul_le_mul hK p2 p3 (by norm_num)
    refine this.trans_eq ?_
    norm_num
  have E := svdErr_linear (m := r) (n := c) (K := K) (ε := (1 / 2) ^ 52) (ω := (1 / 2) ^ 966) (η := (1 / 2) ^ 1075) (b := b) (by positivity)
    p3 (by positivity) hb h1 h2
  have E0 : rotErr (75 * (1 / 2) ^ 52) (75 * (1 / 2) ^ 966) 0 (b + redErr r c ((1 / 2) ^ 52) ((1 / 2) ^ 1075) b) K +
      (b + redErr r c ((1 / 2) ^ 52) ((1 / 2) ^ 1075) b) = svdErr r c K ((1 / 2) ^ 52) ((1 / 2) ^ 966) ((1 / 2) ^ 1075) b + b := by
    unfold svdErr; ring
  have small : 126 * c * r * √r * (1 / 2) ^ 1075 + 225 * K * (1 / 2) ^ 966 ≤ (1 : ℝ) := by
    generalize ((1 : ℝ) / 2) ^ 1075 = x at *
    generalize ((1 : ℝ) / 2) ^ 985 = y at *
    generalize ((1 : ℝ) / 2) ^ 966 = z at *
    norm_num at p1 t2 ⊢
    linarith
  refine ⟨?_, small⟩
  · rw [E0]
    have h3 : (200 * c * (r + 2) + 300 * K) * (1 / 2) ^ 52 * b ≤ 5 * b := by
      refine mul_le_mul_of_nonneg_right ?_ hb
      linarith
    have q1 : (1 : ℝ) ≤ 2 ^ 900 := one_le_pow₀ (by norm_num)
    have q2 : (2 : ℝ) ^ 1023 = 2 ^ 123 * 2 ^ 900 := by rw [← pow_add]
    have q3 : (2 : ℝ) ^ 123 * 2 ^ 900 ≥ 128 * 2 ^ 900 := mul_le_mul_of_nonneg_right (by norm_num) (by positivity)
    rw [q2]
    generalize svdErr r c K ((1 / 2) ^ 52) ((1 / 2) ^ 966) ((1 / 2) ^ 1075) b = e at *
    generalize 126 * (c : ℝ) * r * √r * (1 / 2) ^ 1075 + 225 * K * (1 / 2) ^ 966 = w at *
    generalize (200 * (c : ℝ) * (r + 2) + 300 * K) * (1 / 2) ^ 52 * b = v at *
    generalize (2 : ℝ) ^ 900 = q at *
    generalize (2 : ℝ) ^ 123 * q = q' at *
    clear E0 t1 t2 p1 p2 p3 h1 h2
    linarith

/-- **C117, binary64, explicit bound**: `K` is the number of rotations allowed for, `fuel (2 c + 2)`. -/
theorem C117_binary64_explicit {r c K : Nat} {κ : Svd.Lit B64} (L : B64.SvdLit κ)
    (hyp : κ.hyp = B64.guard ((1 / 2) ^ 1000) B64.hypot) (hc : 0 < c) (hrc : c ≤ r) (hr : r ≤ 2 ^ 40) (fuel : Nat)
    {a : Mat B64 r c} (ha : a.own) {A : Nat → Nat → B64} (hA : Shows a.at r c A) (F : RedFin κ.hyp r c A) {b : ℝ}
    (hb : b = fro (mx r c fun i j => val (A i j))) (hb' : b ≤ 2 ^ 900) (hK : K = fuel * (2 * c + 2))
    (h1 : 200 * c * (r + 2) * (1 / 2) ^ 52 ≤ (1 : ℝ)) (h2 : 75 * K * (1 / 2) ^ 52 ≤ (1 : ℝ)) {s : Svd B64}
    (hs : Svd.new κ fuel a = .ok (some s)) :
    ∃ U V σ, HoldsSvd s r c c U V σ ∧
      ((∀ i j, i < r → j < c → fin (U i j)) → (∀ i j, i < c → j < c → fin (V i j)) → (∀ i, i < c → fin (σ i)) ∧
        ∀ τ, IsSv (mx r c fun i j => val (A i j)) τ → ∀ i, i < c → |val (σ i) - τ i| ≤
          (200 * c * (r + 2) + 300 * K) * (1 / 2) ^ 52 * b + (126 * c * r * √r * (1 / 2) ^ 1075 + 225 * K * (1 / 2) ^ 966)) := by
  have b0 : 0 ≤ b := by rw [hb]; exact fro_nonneg _
  obtain ⟨room, -⟩ := svd_room b0 hb' h1 h2 hc
  have E := svdErr_linear (m := r) (n := c) (K := K) (ε := (1 / 2) ^ 52) (ω := (1 / 2) ^ 966) (η := (1 / 2) ^ 1075) (b := b) (by positivity)
    (by positivity) (by positivity) b0 h1 h2
  rw [hK] at room
  rcases C116_binary64 L hyp hc hrc hr fuel ha hA F (by rw [← hb]) room with h | ⟨s', U, V, σ, e, hold, H⟩
  · rw [hs] at h; cases h
  · rw [hs] at e
    obtain rfl : s = s' := by injection e with e; injection e
    refine ⟨U, V, σ, hold, fun g1 g2 => ?_⟩
    obtain ⟨fs, near⟩ := H g1 g2
    refine ⟨fs, fun τ hτ i hi => ?_⟩
    rw [← hK, ] at near
    refine ((near.weyl le_rfl).1 τ hτ i hi).trans ?_
    rw [← hb]
    exact E

/-- **C118, the tolerance**: in binary64 it is finite and not below the constant of the code. -/
theorem C118_tolerance {r c K : Nat} {κ : Svd.Lit B64} (L : B64.SvdLit κ)
    (hyp : κ.hyp = B64.guard ((1 / 2) ^ 1000) B64.hypot) (ff : fin κ.floor) (fc : fin (κ.conv r)) (hconv : val (κ.conv r) = r)
    (hc : 0 < c) (hrc : c ≤ r) (hr : r ≤ 2 ^ 40) (fuel : Nat)
    {a : Mat B64 r c} (ha : a.own) {A : Nat → Nat → B64} (hA : Shows a.at r c A) (F : RedFin κ.hyp r c A) {b E : ℝ}
    (hb : b = fro (mx r c fun i j => val (A i j))) (hb' : b ≤ 2 ^ 900) (hK : K = fuel * (2 * c + 2))
    (h1 : 200 * c * (r + 2) * (1 / 2) ^ 52 ≤ (1 : ℝ)) (h2 : 75 * K * (1 / 2) ^ 52 ≤ (1 : ℝ))
    (hE : E = (200 * c * (r + 2) + 300 * K) * (1 / 2) ^ 52 * b + (126 * c * r * √r * (1 / 2) ^ 1075 + 225 * K * (1 / 2) ^ 966))
    {s : Svd B64} (hs : Svd.new κ fuel a = .ok (some s)) :
    ∃ U V σ, HoldsSvd s r c c U V σ ∧
      ((∀ i j, i < r → j < c → fin (U i j)) → (∀ i j, i < c → j < c → fin (V i j)) → (∀ i, i < c → fin (σ i)) ∧
        (∀ τ, IsSv (mx r c fun i j => val (A i j)) τ → ∀ i, i < c → |val (σ i) - τ i| ≤ E) ∧ fin s.tol ∧ val κ.floor ≤ val s.tol) := by
  obtain ⟨U, V, σ, hold, H⟩ := C117_binary64_explicit L hyp hc hrc hr fuel ha hA F hb hb' hK h1 h2 hs
  refine ⟨U, V, σ, hold, fun g1 g2 => ?_⟩
  obtain ⟨fs, near⟩ := H g1 g2
  rw [← hE] at near
  have b0 : 0 ≤ b := by rw [hb]; exact fro_nonneg _
  obtain ⟨-, small⟩ := svd_room b0 hb' h1 h2 hc
  have bσ : |val (σ 0)| ≤ 2 ^ 950 := by
    obtain ⟨τ, hτ⟩ := exists_isSv (mx r c fun i j => val (A i j))
    have n1 := abs_le.1 (near τ hτ 0 hc)
    have n2 := hτ.le_fro hc
    have n3 := hτ.pos 0 hc
    rw [← hb] at n2
    have h3 : (200 * c * (r + 2) + 300 * K) * (1 / 2) ^ 52 * b ≤ 5 * b := by
      refine mul_le_mul_of_nonneg_right ?_ b0
      linarith
    have q1 : (1 : ℝ) ≤ 2 ^ 900 := one_le_pow₀ (by norm_num)
    have q2 : (2 : ℝ) ^ 950 = 2 ^ 50 * 2 ^ 900 := by rw [← pow_add]
    have q3 : (2 : ℝ) ^ 50 * 2 ^ 900 ≥ 128 * 2 ^ 900 := mul_le_mul_of_nonneg_right (by norm_num) (by positivity)
    rw [q2]
    generalize 126 * (c : ℝ) * r * √r * (1 / 2) ^ 1075 + 225 * K * (1 / 2) ^ 966 = w at *
    generalize (200 * (c : ℝ) * (r + 2) + 300 * K) * (1 / 2) ^ 52 * b = v at *
    generalize (2 : ℝ) ^ 900 = q at *
    generalize (2 : ℝ) ^ 50 * q = q' at *
    clear h1 h2
    rw [abs_le]
    constructor <;> linarith
  have htol : s.tol = Flt.fmax (Flt.mul (Flt.mul (κ.conv r) (σ 0)) κ.eps) κ.floor := by
    rcases C67_safe κ fuel ha (by omega) hc with h | ⟨s', U', V', σ', e, hold', ht⟩
    · rw [hs] at h; cases h
    · rw [hs] at e
      obtain rfl : s = s' := by injection e with e; injection e
      have e0 : σ' 0 = σ 0 := by
        have k1 := hold.vals.2 0 hc
        rw [hold'.vals.2 0 (by omega)] at k1
        exact Option.some.inj k1
      rw [ht, e0, max_eq_left hrc]
  have bc : |val (κ.conv r)| ≤ 2 ^ 60 := by
    rw [hconv, abs_of_nonneg (Nat.cast_nonneg r)]
    have : (r : ℝ) ≤ 2 ^ 40 := by exact_mod_cast hr
    exact this.trans (by norm_num)
  exact ⟨fs, near, svd_tol_ok L (fs 0 hc) bσ fc bc ff htol⟩

/-- **C118, binary64.**  When the error bound is not above the constant in the tolerance of the code (`math.Sqrt(doubleeps)`, the field
`floor`), `Rank` is at most the rank of the matrix and `IsNonSingular` says yes only for regular matrices; when moreover no true
singular value lies between 0 and the tolerance plus the bound, `Rank` is the rank. -/
theorem C118_binary64 {r c K : Nat} {κ : Svd.Lit B64} (L : B64.SvdLit κ)
    (hyp : κ.hyp = B64.guard ((1 / 2) ^ 1000) B64.hypot) (ff : fin κ.floor) (fc : fin (κ.conv r)) (hconv : val (κ.conv r) = r)
    (hc : 0 < c) (hrc : c ≤ r) (hr : r ≤ 2 ^ 40) (fuel : Nat)
    {a : Mat B64 r c} (ha : a.own) {A : Nat → Nat → B64} (hA : Shows a.at r c A) (F : RedFin κ.hyp r c A) {b E : ℝ}
    (hb : b = fro (mx r c fun i j => val (A i j))) (hb' : b ≤ 2 ^ 900) (hK : K = fuel * (2 * c + 2))
    (h1 : 200 * c * (r + 2) * (1 / 2) ^ 52 ≤ (1 : ℝ)) (h2 : 75 * K * (1 / 2) ^ 52 ≤ (1 : ℝ))
    (hE : E = (200 * c * (r + 2) + 300 * K) * (1 / 2) ^ 52 * b + (126 * c * r * √r * (1 / 2) ^ 1075 + 225 * K * (1 / 2) ^ 966))
    (hEf : E ≤ val κ.floor) {s : Svd B64} (hs : Svd.new κ fuel a = .ok (some s)) :
    ∃ U V σ, HoldsSvd s r c c U V σ ∧
      ((∀ i j, i < r → j < c → fin (U i j)) → (∀ i j, i < c → j < c → fin (V i j)) →
        s.rank ≤ (mx r c fun i j => val (A i j)).rank ∧ (s.isNonSingular = true → r = c ∧ (mx r c fun i j => val (A i j)).rank = r) ∧
        fin s.tol ∧ ((∀ τ, IsSv (mx r c fun i j => val (A i j)) τ → ∀ i, i < c → τ i = 0 ∨ val s.tol + E < τ i) →
          s.rank = (mx r c fun i j => val (A i j)).rank)) := by
  obtain ⟨U, V, σ, hold, H⟩ := C118_tolerance L hyp ff fc hconv hc hrc hr fuel ha hA F hb hb' hK h1 h2 hE hs
  refine ⟨U, V, σ, hold, fun g1 g2 => ?_⟩
  obtain ⟨fs, near, ft, hle⟩ := H g1 g2
  obtain ⟨k1, k2⟩ := Svd.rank_near hold ft fs (hEf.trans hle) near
  refine ⟨k1, fun h3 => ?_, ft, k2⟩
  unfold Svd.isNonSingular at h3
  rw [beq_iff_eq, hold.big] at h3
  have h4 := (mx r c fun i j => val (A i j)).rank_le_width
  have h5 := (mx r c fun i j => val (A i j)).rank_le_height
  constructor <;> omega

/-! ## A case -/

/-- The hypotheses of `C118_binary64` are met by the matrix ((0, 4), (0, 0)), with the constant of the code,
`math.Sqrt(doubleeps)` where `doubleeps = 2⁻⁵³` (eigen_decomposition.go:25). -/
example : ∃ (κ : Svd.Lit B64) (a : Mat B64 2 2) (A : Nat → Nat → B64) (s : Svd B64),
    κ.floor = Flt.sqrt (B64.two (-53) (by norm_num) (by norm_num)) ∧ val (κ.conv 2) = 2 ∧ val (A 0 1) = 4 ∧ Shows a.at 2 2 A ∧ Svd.new κ 3 a = .ok (some s) ∧
    s.rank ≤ (mx 2 2 fun i j => val (A i j)).rank ∧ fin s.tol := by
  obtain ⟨κ, a, A, s, U, V, σ, N, hf, hcv, nA, L, hyp, own, sh, k, F, hN, room, hs, hold, g1, g2, s0, s1⟩ :=
    Svd.case_new (Flt.sqrt (B64.two (-53) (by norm_num) (by norm_num))) fun _ => B64.int 2 (by norm_num)
  have i2 : B64.Is (B64.int 2 (by norm_num)) 2 := by simpa using B64.Is.int (k := 2) (by norm_num)
  have f53 := B64.Is.two (-53) (by norm_num) (by norm_num)
  have ff : fin (Flt.sqrt (B64.two (-53) (by norm_num) (by norm_num))) := sqrt_ok f53.1 (by rw [f53.2]; positivity)
  have hf26 : (1 / 2 : ℝ) ^ 30 ≤ val (Flt.sqrt (B64.two (-53) (by norm_num) (by norm_num))) := by
    have h1 := (abs_le.1 (sqrt_err ff).1).1
    have h2 : (1 / 2 : ℝ) ^ 27 ≤ √(val (B64.two (-53) (by norm_num) (by norm_num))) := by
      refine Real.le_sqrt_of_sq_le ?_
      rw [f53.2]
      norm_num
    have h3 : Rnd.u B64 * √(val (B64.two (-53) (by norm_num) (by norm_num))) ≤ 1 / 2 * √(val (B64.two (-53) (by norm_num) (by norm_num))) :=
      mul_le_mul_of_nonneg_right (by rw [show Rnd.u B64 = (1 / 2) ^ 53 from rfl]; norm_num) (Real.sqrt_nonneg _)
    norm_num at h2 ⊢
    linarith
  have hb0 : 0 ≤ fro (mx 2 2 fun i j => val (A i j)) := fro_nonneg _
  have hsm : ((1 : ℝ) / 2) ^ 1075 ≤ (1 / 2) ^ 60 := pow_le_pow_of_le_one (by norm_num) (by norm_num) (by norm_num)
  have hsm' : ((1 : ℝ) / 2) ^ 966 ≤ (1 / 2) ^ 60 := pow_le_pow_of_le_one (by norm_num) (by norm_num) (by norm_num)
  have hq : √((2 : Nat) : ℝ) ≤ 2 := Real.sqrt_le_iff.2 ⟨by norm_num, by norm_num⟩
  obtain ⟨U', V', σ', hold', H⟩ := C118_binary64 (r := 2) (c := 2) (K := 18) L hyp (by rw [hf]; exact ff) (by rw [hcv]; exact i2.1)
    (by rw [hcv]; exact i2.2.trans (by norm_num)) (by norm_num) le_rfl (by norm_num) 3 own sh F rfl
    (nA.trans ((by norm_num : (4 : ℝ) ≤ 2 ^ 2).trans (pow_le_pow_right₀ (by norm_num) (by norm_num)))) (by norm_num) (by norm_num) (by norm_num) rfl
    (by
      rw [hf]
      refine le_trans ?_ hf26
      have h1 : √((2 : Nat) : ℝ) * (1 / 2) ^ 1075 ≤ 2 * (1 / 2) ^ 60 := mul_le_mul hq hsm (by positivity) (by norm_num)
      rw [mul_assoc (126 * ((2 : Nat) : ℝ) * (2 : Nat))]
      generalize √((2 : Nat) : ℝ) * (1 / 2) ^ 1075 = w at h1 ⊢
      generalize ((1 : ℝ) / 2) ^ 966 = w' at hsm' ⊢
      generalize fro (mx 2 2 fun i j => val (A i j)) = b at nA hb0 ⊢
      norm_num at h1 hsm' ⊢
      linarith) hs
  have eU : ∀ i j, i < 2 → j < 2 → U' i j = U i j := fun i j hi hj => by
    obtain ⟨x, ex, -, h1⟩ := hold.left
    obtain ⟨y, ey, -, h2⟩ := hold'.left
    rw [ex] at ey
    cases ey
    exact h2.unique h1 hi hj
  have eV : ∀ i j, i < 2 → j < 2 → V' i j = V i j := fun i j hi hj => by
    obtain ⟨x, ex, -, h1⟩ := hold.right
    obtain ⟨y, ey, -, h2⟩ := hold'.right
    rw [ex] at ey
    cases ey
    exact h2.unique h1 hi hj
  obtain ⟨q1, -, q2, -⟩ := H (fun i j hi hj => by rw [eU i j hi hj]; exact g1 i j hi hj)
    fun i j hi hj => by rw [eV i j hi hj]; exact g2 i j hi hj
  exact ⟨κ, a, A, s, hf, by rw [hcv]; exact i2.2, k, sh, hs, q1, q2⟩

end Linear
