import Verif.Lemmas.RoundTurn
import Verif.Lemmas.RoundQRQ

/-!
# The iteration of the symmetric eigen decomposition in rounded arithmetic
-/

set_option linter.unusedSectionVars false

namespace Linear

open Spec Rnd Matrix
open Finset hiding val diag

variable {α : Type} [Flt α] [Rnd α] {n : Nat}

/-! ## The vectors -/

theorem Eig.rz_fin {i : Nat} (hi : i + 1 < n) {s c : α} {v : Nat → α} (h : ∀ b, b < n → fin (Eig.rz i s c v b)) :
    fin s ∧ fin c ∧ ∀ b, b < n → fin (v b) := by
  have h1 := h i (by omega)
  unfold Eig.rz at h1
  rw [if_pos rfl] at h1
  obtain ⟨m1, m2⟩ := sub_fin h1
  refine ⟨(mul_fin m2).1, (mul_fin m1).1, fun b hb => ?_⟩
  by_cases hb0 : b = i
  · rw [hb0]; exact (mul_fin m1).2
  · by_cases hb1 : b = i + 1
    · rw [hb1]; exact (mul_fin m2).2
    · have h2 := h b hb
      unfold Eig.rz at h2
      rwa [if_neg hb0, if_neg hb1] at h2

/-- One new entry of a vector. -/
theorem rz_core {x y p q w ε s c g h u η : ℝ} (hu0 : 0 ≤ u) (hu : u ≤ ε) (he1 : ε ≤ 1 / 100) (hη : 0 ≤ η) (hs : |g - s| ≤ 8 * ε)
    (hc : |h - c| ≤ 8 * ε) (s1 : |s| ≤ 1) (c1 : |c| ≤ 1) (hp : |p - h * x| ≤ u * |h * x| + η)
    (hq : |q - g * y| ≤ u * |g * y| + η) (hw : |w - (p + q)| ≤ u * |p + q|) :
    |w - (c * x + s * y)| ≤ 11 * ε * (|x| + |y|) + 3 * η := by
  have he0 : 0 ≤ ε := hu0.trans hu
  have ax := abs_nonneg x
  have ay := abs_nonneg y
  have key : ∀ {k l z v : ℝ}, |l - k| ≤ 8 * ε → |k| ≤ 1 → |v - l * z| ≤ u * |l * z| + η →
      |v - k * z| ≤ 91 / 10 * ε * |z| + η ∧ |v| ≤ 11 / 10 * |z| + η := by
    intro k l z v h1 h2 h3
    have hl : |l| ≤ 108 / 100 := by
      calc |l| = |k + (l - k)| := by congr 1; ring
        _ ≤ |k| + |l - k| := abs_add_le _ _
        _ ≤ 108 / 100 := by linarith
    have az := abs_nonneg z
    have h4 : |l * z| ≤ 108 / 100 * |z| := by rw [abs_mul]; exact mul_le_mul_of_nonneg_right hl az
    have h5 : u * |l * z| ≤ ε * (108 / 100 * |z|) := mul_le_mul hu h4 (abs_nonneg _) he0
    have h6 : |l * z - k * z| ≤ 8 * ε * |z| := by
      rw [← sub_mul, abs_mul]; exact mul_le_mul_of_nonneg_right h1 az
    have h7 : 0 ≤ ε * |z| := mul_nonneg he0 az
    have h9 : ε * |z| ≤ 1 / 100 * |z| := mul_le_mul_of_nonneg_right he1 az
    constructor
    · have h8 : |v - k * z| ≤ |v - l * z| + |l * z - k * z| := by
        calc _ = |(v - l * z) + (l * z - k * z)| := by congr 1; ring
          _ ≤ _ := abs_add_le _ _
      linarith
    · have h8 : |v| ≤ |v - l * z| + |l * z| := by
        calc _ = |(v - l * z) + l * z| := by congr 1; ring
          _ ≤ _ := abs_add_le _ _
      linarith
  obtain ⟨k1, k2⟩ := key hc c1 hp
  obtain ⟨k3, k4⟩ := key hs s1 hq
  have h1 : |p + q| ≤ 11 / 10 * (|x| + |y|) + 2 * η := (abs_add_le _ _).trans (by linarith)
  have h2 : u * |p + q| ≤ ε * (11 / 10 * (|x| + |y|) + 2 * η) := mul_le_mul hu h1 (abs_nonneg _) he0
  have h3 : |w - (c * x + s * y)| ≤ |w - (p + q)| + (|p - c * x| + |q - s * y|) := by
    calc _ = |(w - (p + q)) + ((p - c * x) + (q - s * y))| := by congr 1; ring
      _ ≤ _ := (abs_add_le _ _).trans (add_le_add_right (abs_add_le _ _) _)
  have h4 : ε * η ≤ 1 / 100 * η := mul_le_mul_of_nonneg_right he1 hη
  have h5 : 0 ≤ ε * (|x| + |y|) := by positivity
  nlinarith

theorem Eig.RotNear.bounds {ε s c : ℝ} {g : Eig.Rot α} (h : Eig.RotNear ε s c g) : |s| ≤ 1 ∧ |c| ≤ 1 :=
  ⟨abs_le_of_sq_le_sq' (by nlinarith [mul_self_nonneg c, h.one]) one_pos.le |> abs_le.2,
    abs_le_of_sq_le_sq' (by nlinarith [mul_self_nonneg s, h.one]) one_pos.le |> abs_le.2⟩

/-- **One rotation of the vectors.** -/
theorem Eig.turn_vectors {i : Nat} (hi : i + 1 < n) {ε s c : ℝ} {g : Eig.Rot α} (he : u α ≤ ε) (he1 : ε ≤ 1 / 100)
    (hN : Eig.RotNear ε s c g) {z : Nat → Nat → α}
    (hf : ∀ a b, a < n → b < n → fin (Eig.rz i g.s g.c (z a) b)) :
    fro (mx n n (fun a b => val (Eig.rz i g.s g.c (z a) b)) - mx n n (fun a b => val (z a b)) * Eig.G n i s c) ≤
      22 * ε * fro (mx n n fun a b => val (z a b)) + √n * (5 * η α) := by
  have hu0 := u_nonneg (α := α)
  have he0 : 0 ≤ ε := hu0.trans he
  have hη := η_nonneg (α := α)
  obtain ⟨s1, c1⟩ := hN.bounds
  rw [Eig.mul_G hi, ← fro_transpose, ← fro_transpose (mx n n fun a b => val (z a b))]
  refine fro_of_cols (by linarith) (by linarith) le_rfl fun a => ?_
  obtain ⟨x, hx⟩ : ∃ x, x = val (z a i) := ⟨_, rfl⟩
  obtain ⟨y, hy⟩ : ∃ y, y = val (z a (i + 1)) := ⟨_, rfl⟩
  have hN0 := cnorm_nonneg (mx n n fun a b => val (z a b))ᵀ a
  have hxy : x ^ 2 + y ^ 2 ≤ cnorm (mx n n fun a b => val (z a b))ᵀ a ^ 2 := by
    unfold cnorm
    rw [Real.sq_sqrt (sum_nonneg fun _ _ => sq_nonneg _)]
    have hne : (⟨i, by omega⟩ : Fin n) ≠ ⟨i + 1, hi⟩ := fun h => by simp at h
    have := sum_le_sum_of_subset_of_nonneg (f := fun b : Fin n => (mx n n fun a b => val (z a b))ᵀ b a ^ 2)
      (subset_univ {(⟨i, by omega⟩ : Fin n), ⟨i + 1, hi⟩}) (fun _ _ _ => sq_nonneg _)
    rw [sum_pair hne] at this
    rw [hx, hy]
    exact this
  generalize cnorm (mx n n fun a b => val (z a b))ᵀ a = N at *
  obtain ⟨E, hE⟩ : ∃ E : ℝ, E = 11 * ε * (|x| + |y|) + 3 * η α := ⟨_, rfl⟩
  have hE0 : 0 ≤ E := by rw [hE]; positivity
  have hent : ∀ b : Fin n, ((mx n n (fun a b => val (Eig.rz i g.s g.c (z a) b)) -
      mx n n fun a b => Eig.rz i s c (fun b => val (z a b)) b)ᵀ b a) ^ 2 ≤
      if b.1 = i ∨ b.1 = i + 1 then E ^ 2 else 0 := by
    intro b
    show (val (Eig.rz i g.s g.c (z a) b) - Eig.rz i s c (fun b => val (z a b)) b) ^ 2 ≤ _
    have hfa := hf a b a.2 b.2
    rw [Eig.rz_exact i s c]
    unfold Eig.rz at hfa ⊢
    by_cases h1 : b.1 = i
    · rw [if_pos h1] at hfa
      rw [if_pos h1, if_pos h1, if_pos (Or.inl h1), ← sq_abs]
      refine pow_le_pow_left₀ (abs_nonneg _) ?_ 2
      obtain ⟨m1, m2⟩ := sub_fin hfa
      have e1 := (mul_err m1).1
      have e2 := (mul_err m2).1
      have e3 := (sub_err hfa).1
      rw [← hx] at e1 ⊢
      rw [← hy] at e2 ⊢
      have := rz_core (x := x) (y := y) (p := val (Flt.mul g.c (z a i))) (q := -val (Flt.mul g.s (z a (i + 1))))
        (g := -val g.s) (s := -s) (h := val g.c) (c := c) (w := val (Flt.sub (Flt.mul g.c (z a i)) (Flt.mul g.s (z a (i + 1)))))
        hu0 he he1 hη (by rw [show -val g.s - -s = -(val g.s - s) by ring, abs_neg]; exact hN.sErr) hN.cErr
        (by rw [abs_neg]; exact s1) c1 e1
        (by rw [show -val (Flt.mul g.s (z a (i + 1))) - -val g.s * y = -(val (Flt.mul g.s (z a (i + 1))) - val g.s * y)
              by ring, abs_neg, show -val g.s * y = -(val g.s * y) by ring, abs_neg]; exact e2)
        (by rw [← sub_eq_add_neg]; exact e3)
      rw [hE]
      refine le_trans (le_of_eq ?_) this
      congr 1; ring
    · rw [if_neg h1] at hfa
      rw [if_neg h1, if_neg h1]
      by_cases h2 : b.1 = i + 1
      · rw [if_pos h2] at hfa
        rw [if_pos h2, if_pos h2, if_pos (Or.inr h2), ← sq_abs]
        refine pow_le_pow_left₀ (abs_nonneg _) ?_ 2
        obtain ⟨m1, m2⟩ := add_fin hfa
        have e1 := (mul_err m1).1
        have e2 := (mul_err m2).1
        have e3 := (add_err hfa).1
        rw [← hx] at e1 ⊢
        rw [← hy] at e2 ⊢
        have := rz_core (x := x) (y := y) (p := val (Flt.mul g.s (z a i))) (q := val (Flt.mul g.c (z a (i + 1))))
          hu0 he he1 hη hN.cErr hN.sErr c1 s1 e1 e2 e3
        rw [hE]
        exact this
      · rw [if_neg h2, if_neg h2, if_neg (by omega), sub_self]; simp
  unfold cnorm
  refine Real.sqrt_le_iff.2 ⟨by positivity, ?_⟩
  have hsum : ∑ b : Fin n, (if b.1 = i ∨ b.1 = i + 1 then E ^ 2 else 0) ≤ 2 * E ^ 2 := by
    have hne : (⟨i, by omega⟩ : Fin n) ≠ ⟨i + 1, hi⟩ := fun h => by simp at h
    rw [sum_eq_add (⟨i, by omega⟩ : Fin n) ⟨i + 1, hi⟩ hne (fun b _ hb => by
      rw [if_neg]
      rintro (h | h)
      · exact hb.1 (Fin.ext h)
      · exact hb.2 (Fin.ext h)) (fun h => absurd (mem_univ _) h) (fun h => absurd (mem_univ _) h)]
    simp
    linarith
  refine (sum_le_sum fun b _ => hent b).trans (hsum.trans ?_)
  obtain ⟨σ, hσ⟩ : ∃ σ, σ = |x| + |y| := ⟨_, rfl⟩
  have hσ0 : 0 ≤ σ := by rw [hσ]; positivity
  have hσ2 : σ ^ 2 ≤ 2 * N ^ 2 := by
    rw [hσ]
    nlinarith [sq_nonneg (|x| - |y|), sq_abs x, sq_abs y]
  have hσ1 : σ ≤ 3 / 2 * N := by nlinarith
  rw [hE, ← hσ]
  have p1 : ε ^ 2 * σ ^ 2 ≤ ε ^ 2 * (2 * N ^ 2) := mul_le_mul_of_nonneg_left hσ2 (sq_nonneg _)
  have p2 : ε * η α * σ ≤ ε * η α * (3 / 2 * N) := mul_le_mul_of_nonneg_left hσ1 (by positivity)
  have p3 : 0 ≤ ε * η α * N := by positivity
  nlinarith [sq_nonneg (η α)]

/-! ## Accumulation -/

theorem fro_orth {O : Matrix (Fin n) (Fin n) ℝ} (h : Oᵀ * O = 1) : fro O ≤ √n := by
  have := fro_of_cols (E := O) (M := O) (ε := 0) (ω := 1) (p := n) le_rfl one_pos.le le_rfl
    (fun j => by rw [cnorm_orth_one h]; linarith)
  linarith

/-- `Z` is near to an orthogonal matrix `O`, and `S` to `O M Oᵀ`, after `k` rotations. -/
def Eig.Simil (α : Type) [Flt α] [Rnd α] (ε E : ℝ) (S : Matrix (Fin n) (Fin n) ℝ) (k : Nat)
    (Z M : Matrix (Fin n) (Fin n) ℝ) : Prop :=
  ∃ O : Matrix (Fin n) (Fin n) ℝ, Oᵀ * O = 1 ∧ fro (Z - O) ≤ rotErr (22 * ε) (√n * (5 * η α)) E √n k ∧
    fro (S - O * M * Oᵀ) ≤ rotErr (350 * ε) (350 * η α) 0 (fro S) k

theorem Eig.Simil.mono {ε E : ℝ} (he0 : 0 ≤ ε) (hE : 0 ≤ E) {S Z M : Matrix (Fin n) (Fin n) ℝ} {k l : Nat} (hkl : k ≤ l)
    (h : Eig.Simil α ε E S k Z M) : Eig.Simil α ε E S l Z M := by
  have hη := η_nonneg (α := α)
  obtain ⟨O, h1, h2, h3⟩ := h
  exact ⟨O, h1, h2.trans (rotErr_mono (by linarith) (by positivity) hE (Real.sqrt_nonneg _) hkl),
    h3.trans (rotErr_mono (by linarith) (by linarith) le_rfl (fro_nonneg _) hkl)⟩

theorem Eig.Simil.size {ε E : ℝ} {S Z M : Matrix (Fin n) (Fin n) ℝ} {k : Nat}
    (h : Eig.Simil α ε E S k Z M) : fro M ≤ rotErr (350 * ε) (350 * η α) 0 (fro S) k + fro S := by
  obtain ⟨O, h1, -, h3⟩ := h
  have h1' : O * Oᵀ = 1 := mul_eq_one_comm.1 h1
  have e1 : fro M = fro (O * M * Oᵀ) := by
    rw [fro_right (by rw [Matrix.transpose_transpose]; exact h1), fro_left h1]
  rw [e1, show O * M * Oᵀ = -(S - O * M * Oᵀ) + S by abel]
  refine (fro_add_le _ _).trans ?_
  rw [fro_neg]
  linarith

theorem Eig.Simil.step {ε E : ℝ} (he0 : 0 ≤ ε) {S Z M Z' M' G : Matrix (Fin n) (Fin n) ℝ} {k : Nat}
    (h : Eig.Simil α ε E S k Z M) (hG : G * Gᵀ = 1)
    (hZ : fro (Z' - Z * G) ≤ 22 * ε * fro Z + √n * (5 * η α))
    (hM : fro (M' - Gᵀ * M * G) ≤ 350 * (ε * fro M + η α)) : Eig.Simil α ε E S (k + 1) Z' M' := by
  have hη := η_nonneg (α := α)
  have hs := h.size
  obtain ⟨O, h1, h2, h3⟩ := h
  have h1' : O * Oᵀ = 1 := mul_eq_one_comm.1 h1
  have hG' : Gᵀ * G = 1 := mul_eq_one_comm.1 hG
  refine ⟨O * G, ?_, ?_, ?_⟩
  · rw [Matrix.transpose_mul, Matrix.mul_assoc, ← Matrix.mul_assoc Oᵀ, h1, Matrix.one_mul, hG']
  · have hZn : fro Z ≤ rotErr (22 * ε) (√n * (5 * η α)) E √n k + √n := by
      rw [show Z = (Z - O) + O by abel]
      exact (fro_add_le _ _).trans (add_le_add h2 (fro_orth h1))
    refine rotErr_step (by linarith) (by positivity) le_rfl hZn ?_
    rw [show Z' - O * G = (Z - O) * G + (Z' - Z * G) by rw [Matrix.sub_mul]; abel]
    refine (fro_add_le _ _).trans ?_
    rw [fro_right hG]
    linarith
  · refine rotErr_step (by linarith) (by linarith) le_rfl hs ?_
    have e1 : S - O * G * M' * (O * G)ᵀ = (S - O * M * Oᵀ) + -(O * (G * (M' - Gᵀ * M * G) * Gᵀ) * Oᵀ) := by
      have e2 : G * (M' - Gᵀ * M * G) * Gᵀ = G * M' * Gᵀ - M := by
        rw [Matrix.mul_sub, Matrix.sub_mul]
        congr 1
        calc G * (Gᵀ * M * G) * Gᵀ = (G * Gᵀ) * M * (G * Gᵀ) := by simp only [Matrix.mul_assoc]
          _ = M := by rw [hG, Matrix.one_mul, Matrix.mul_one]
      rw [e2, Matrix.transpose_mul, Matrix.mul_sub, Matrix.sub_mul]
      simp only [Matrix.mul_assoc]
      abel
    rw [e1]
    refine (fro_add_le _ _).trans ?_
    rw [fro_neg, fro_right (by rw [Matrix.transpose_transpose]; exact h1), fro_left h1,
      fro_right (by rw [Matrix.transpose_transpose]; exact hG'), fro_left hG']
    linarith

/-- A step without a rotation. -/
theorem Eig.Simil.still {ε E : ℝ} (he0 : 0 ≤ ε) {S Z M M' : Matrix (Fin n) (Fin n) ℝ} {k : Nat}
    (h : Eig.Simil α ε E S k Z M) (hM : fro (M' - M) ≤ 350 * (ε * fro M + η α)) : Eig.Simil α ε E S (k + 1) Z M' := by
  have hη := η_nonneg (α := α)
  refine h.step he0 (G := 1) (by simp) ?_ ?_
  · rw [Matrix.mul_one, sub_self]
    have : fro (0 : Matrix (Fin n) (Fin n) ℝ) = 0 := by unfold fro; simp
    rw [this]
    have := fro_nonneg Z
    positivity
  · rw [Matrix.transpose_one, Matrix.one_mul, Matrix.mul_one]; exact hM

/-! ## The sweep -/

/-- All entries are finite. -/
def Eig.zfin (z : Tab α n n) : Prop := ∀ a b, a < n → b < n → fin (z.f a b)

/-- The vectors as a matrix. -/
noncomputable def Eig.zM (z : Tab α n n) : Matrix (Fin n) (Fin n) ℝ := mx n n fun a b => val (z.f a b)

/-- The tridiagonal matrix of a state, without the entries that were taken for zero. -/
noncomputable def Eig.tM (j : Nat) (d e : Nat → α) : Nat → Nat → ℝ :=
  Eig.W (fun a => val (d a)) (fun a => if a < j then 0 else val (e a)) 0 0

/-- The norms stay far from overflow for `N` steps. -/
def Eig.Room (α : Type) [Flt α] [Rnd α] (ε : ℝ) (S : Matrix (Fin n) (Fin n) ℝ) (N : Nat) : Prop :=
  16 * (rotErr (350 * ε) (350 * η α) 0 (fro S) N + fro S) ≤ big α

theorem Eig.Simil.room {ε E : ℝ} (he0 : 0 ≤ ε) {S Z M : Matrix (Fin n) (Fin n) ℝ} {k N : Nat} (hR : Eig.Room α ε S N)
    (hk : k ≤ N) (h : Eig.Simil α ε E S k Z M) : 16 * fro M ≤ big α := by
  have hη := η_nonneg (α := α)
  have h1 := h.size
  have h2 := rotErr_mono (ε := 350 * ε) (ω := 350 * η α) (E := 0) (b := fro S) (by linarith) (by linarith) le_rfl
    (fro_nonneg _) hk
  unfold Eig.Room at hR
  linarith

variable {ε E : ℝ} {S : Matrix (Fin n) (Fin n) ℝ} {N : Nat}

theorem Eig.sweep_round (he : u α ≤ ε) (he1 : ε ≤ 1 / 100) (hR : Eig.Room α ε S N) {j m : Nat} (hm : m < n) {k : Nat}
    (hk : j + k ≤ m) (w : Eig.Sw α n) {bw : Bool × Eig.Sw α n} (h : Eig.sweep j m k w = .ok bw) (hz : Eig.zfin bw.2.z) :
    bw.1 = false ∧ Eig.zfin w.z ∧ ∀ K, K + k ≤ N → Eig.FinW n m (j + k) w.d.f w.e.f w.q w.u w.s w.c →
      Eig.Simil α ε E S K (Eig.zM w.z) (mx n n (Eig.wM j m (j + k) w.d.f w.e.f w.q w.u w.s w.c)) →
      Eig.FinW n m j bw.2.d.f bw.2.e.f bw.2.q bw.2.u bw.2.s bw.2.c ∧
      Eig.Simil α ε E S (K + k) (Eig.zM bw.2.z)
        (mx n n (Eig.wM j m j bw.2.d.f bw.2.e.f bw.2.q bw.2.u bw.2.s bw.2.c)) := by
  have he0 : 0 ≤ ε := (u_nonneg (α := α)).trans he
  induction k generalizing w with
  | zero =>
    unfold Eig.sweep at h
    cases Except.ok.inj h
    exact ⟨rfl, hz, fun K _ h1 h2 => ⟨h1, h2⟩⟩
  | succ k ih =>
    unfold Eig.sweep at h
    rw [Row.get_ok (by omega), ok_bind, Eig.take_ok (by omega), ok_bind, Row.get_ok (by omega), ok_bind] at h
    have hr : (Eig.took (j + k) (Eig.rot (Flt.mul w.s (w.e.f (j + k))) w.q) w).e.f (j + k + 1) =
        (Eig.rot (Flt.mul w.s (w.e.f (j + k))) w.q).r := by
      show upd1 _ _ _ _ = _
      rw [upd1_eq, if_pos rfl]
    rw [hr, Eig.rot_ne (he.trans he1), if_neg (by simp), Eig.bulge_ok (by omega), ok_bind] at h
    obtain ⟨g1, g2, g3⟩ := ih (by omega) _ h
    have hn : 0 < n := by omega
    have hrz : ∀ a b, a < n → b < n → fin (Eig.rz (j + k) (Eig.rot (Flt.mul w.s (w.e.f (j + k))) w.q).s
        (Eig.rot (Flt.mul w.s (w.e.f (j + k))) w.q).c (w.z.f a) b) := by
      intro a b ha hb
      have := g2 a b ha hb
      dsimp only at this
      rw [if_pos ⟨by omega, ha⟩] at this
      exact this
    have hsc := Eig.rz_fin (by omega) (fun b hb => hrz 0 b hn hb)
    refine ⟨g1, fun a b ha hb => (Eig.rz_fin (by omega) (fun b hb => hrz a b ha hb)).2.2 b hb, fun K hK hF hA => ?_⟩
    have hroom := hA.room he0 hR (by omega)
    obtain ⟨s', c', hN, hF', hM⟩ := Eig.turn_matrix (j := j) (i := j + k) (by omega) (by omega) hm he he1 hF hroom rfl
      hsc.1 hsc.2.1 rfl
    have hZ := Eig.turn_vectors (by omega) he he1 hN hrz
    have hA' := hA.step he0 (Eig.G_orth (n := n) (i := j + k) (by omega) hN.one) hZ hM
    obtain ⟨r1, r2⟩ := g3 (K + 1) (by omega) hF' (by
      refine cast ?_ hA'
      congr 1
      refine mx_congr fun a b ha hb => ?_
      dsimp only
      rw [if_pos ⟨by omega, ha⟩]
      rfl)
    refine ⟨r1, ?_⟩
    rw [show K + (k + 1) = K + 1 + k by omega]
    exact r2

/-! ## The iteration -/

/-- Both diagonals are finite. -/
structure Eig.FinS (x : Eig.St α n) : Prop where
  d : ∀ a, a < n → fin (x.d.f a)
  e : ∀ a, a < n → fin (x.e.f a)

theorem Eig.W_zero (D C : Nat → ℝ) (x y : Nat) : Eig.W D C x 0 = Eig.W D C y 0 := by
  funext a b
  unfold Eig.W
  split_ifs <;> rfl

/-- What the test takes for zero is small against the matrix. -/
theorem Eig.small_round (he : u α ≤ ε) (he1 : ε ≤ 1 / 100) {d e : Nat → α} {m : Nat} {β : ℝ} (h : Eig.small d e m)
    (f0 : fin (d m)) (f1 : fin (d (m + 1))) (fe : fin (e m)) (b0 : |val (d m)| ≤ β) (b1 : |val (d (m + 1))| ≤ β)
    (hβ : 16 * β ≤ big α) : |val (e m)| ≤ 3 * ε * β := by
  have hu0 := u_nonneg (α := α)
  have he0 : 0 ≤ ε := hu0.trans he
  have hβ0 : 0 ≤ β := (abs_nonneg _).trans b0
  unfold Eig.small at h
  have fd : fin (Flt.add (Flt.abs (d m)) (Flt.abs (d (m + 1)))) := by
    refine add_ok (abs_fin.2 f0) (abs_fin.2 f1) ?_
    rw [val_abs f0, val_abs f1, abs_of_nonneg (by positivity)]
    linarith
  have fa := eq_fin h fd
  have hv := (eq_iff fa fd).1 h
  have h1 := (add_err fa).2
  have h2 := (add_err fd).1
  rw [hv, val_abs fe] at h1
  rw [val_abs f0, val_abs f1, abs_of_nonneg (a := |val (d m)| + |val (d (m + 1))|) (by positivity)] at h2
  generalize val (Flt.add (Flt.abs (d m)) (Flt.abs (d (m + 1)))) = D at *
  have h3 : |D - (|val (e m)| + D)| = |val (e m)| := by
    rw [show D - (|val (e m)| + D) = -|val (e m)| by ring, abs_neg, abs_abs]
  rw [h3] at h1
  have h4 : u α * (|val (d m)| + |val (d (m + 1))|) ≤ 1 / 100 * (β + β) :=
    mul_le_mul (he.trans he1) (by linarith) (by positivity) (by norm_num)
  have h5 : |D| ≤ 3 * β := by
    have := abs_le.1 h2
    rw [abs_le]
    have a0 := abs_nonneg (val (d m))
    have a1 := abs_nonneg (val (d (m + 1)))
    constructor <;> linarith
  calc |val (e m)| ≤ u α * |D| := h1
    _ ≤ ε * (3 * β) := mul_le_mul he h5 (abs_nonneg _) he0
    _ = _ := by ring

theorem Eig.tM_d {j : Nat} {d e : Nat → α} {a : Nat} (ha : a < n) : |val (d a)| ≤ fro (mx n n (Eig.tM j d e)) := by
  have h := W_entry (n := n) (D := fun a => val (d a)) (C := fun a => if a < j then 0 else val (e a)) (x := 0) (P := 0)
    (a := a) (b := a) ha ha
  rw [show Eig.W (fun a => val (d a)) (fun a => if a < j then 0 else val (e a)) 0 0 a a = val (d a) from if_pos rfl] at h
  exact h

theorem Eig.round_round (he : u α ≤ ε) (he1 : ε ≤ 1 / 100) (hR : Eig.Room α ε S N) {j m : Nat} (hj : j < m) (hm : m < n)
    (x x' : Eig.St α n) (hsm : m < n - 1 → Eig.small x.d.f x.e.f m) (h : Eig.round j m x = .ok x')
    (hz : Eig.zfin x'.z) :
    Eig.zfin x.z ∧ ∀ K, K + (n + 1) ≤ N → Eig.FinS x → Eig.Simil α ε E S K (Eig.zM x.z) (mx n n (Eig.tM j x.d.f x.e.f)) →
      0 ≤ E → Eig.FinS x' ∧ Eig.Simil α ε E S (K + (n + 1)) (Eig.zM x'.z) (mx n n (Eig.tM j x'.d.f x'.e.f)) := by
  have hu0 := u_nonneg (α := α)
  have he0 : 0 ≤ ε := hu0.trans he
  have hη := η_nonneg (α := α)
  unfold Eig.round at h
  rw [Row.get_ok (by omega), ok_bind, Row.get_ok (by omega), ok_bind, Row.get_ok (by omega), ok_bind,
    Row.get_ok (by omega), ok_bind] at h
  obtain ⟨bw, eb⟩ := Eig.sweep_ok hm (show j + (m - j) ≤ m by omega) (⟨x.z, x.d, x.e,
    Eig.q0 (x.d.f m) (x.d.f j) (x.e.f j) (Flt.div (Flt.sub (x.d.f (j + 1)) (x.d.f j)) (Flt.mul Flt.two (x.e.f j))),
    Flt.zero, Flt.one, Flt.one,
    Eig.t0 (Flt.div (Flt.sub (x.d.f (j + 1)) (x.d.f j)) (Flt.mul Flt.two (x.e.f j)))⟩ : Eig.Sw α n)
  rw [eb, ok_bind] at h
  have hzw : bw.2.z = x'.z := by
    unfold Eig.finish at h
    split at h
    · rw [← Except.ok.inj h]
    · rw [Row.get_ok (by omega), ok_bind, Row.set_ok (by omega), ok_bind, Row.set_ok (by omega), ok_bind,
        Row.set_ok (by omega), ok_bind] at h
      rw [← Except.ok.inj h]
  obtain ⟨s1, s2, s3⟩ := Eig.sweep_round (E := E) (j := j) (m := m) (k := m - j) he he1 hR hm (by omega) _ eb
    (by rw [hzw]; exact hz)
  refine ⟨s2, fun K hK hF hA hE => ?_⟩
  have hroom := hA.room he0 hR (by omega)
  rw [show j + (m - j) = m by omega] at s3
  -- the start
  have hA1 : Eig.Simil α ε E S (K + 1) (Eig.zM x.z) (mx n n (Eig.wM j m m x.d.f x.e.f
      (Eig.q0 (x.d.f m) (x.d.f j) (x.e.f j) (Flt.div (Flt.sub (x.d.f (j + 1)) (x.d.f j)) (Flt.mul Flt.two (x.e.f j))))
      Flt.zero Flt.one Flt.one)) := by
    refine hA.still he0 ?_
    obtain ⟨β, hβ⟩ : ∃ β, β = fro (mx n n (Eig.tM j x.d.f x.e.f)) := ⟨_, rfl⟩
    have bd : ∀ a, a < n → |val (x.d.f a)| ≤ β := fun a ha => by rw [hβ]; exact Eig.tM_d ha
    rw [← hβ] at hroom ⊢
    have hβ0 : 0 ≤ β := by rw [hβ]; exact fro_nonneg _
    have hεβ : 0 ≤ ε * β := mul_nonneg he0 hβ0
    have hem : m < n - 1 → |val (x.e.f m)| ≤ 3 * ε * β := fun hmn =>
      Eig.small_round he he1 (hsm hmn) (hF.d m hm) (hF.d (m + 1) (by omega)) (hF.e m hm) (bd m hm) (bd (m + 1) (by omega))
        hroom
    have hP : Eig.wP j m m x.e.f (Flt.one : α) = 0 := if_neg (by omega)
    unfold Eig.wM Eig.tM
    rw [hP, Eig.W_zero _ _ m 0]
    obtain ⟨C2, hC2⟩ : ∃ C2 : Nat → ℝ, C2 = fun a => if a < j ∨ (a = m ∧ m = n - 1) then 0 else val (x.e.f a) := ⟨_, rfl⟩
    have e1 : mx n n (Eig.W (fun a => val (x.d.f a)) (fun a => if a < j then 0 else val (x.e.f a)) 0 0) =
        mx n n (Eig.W (fun a => val (x.d.f a)) C2 0 0) := by
      refine mx_congr fun a b ha hb => ?_
      have hc : ∀ a, a + 1 < n → (if a < j then 0 else val (x.e.f a)) = C2 a := by
        intro a ha
        rw [hC2]
        dsimp only
        by_cases h1 : a < j
        · rw [if_pos h1, if_pos (.inl h1)]
        · rw [if_neg h1, if_neg (by omega)]
      unfold Eig.W
      split
      · rfl
      · split
        · exact hc _ (by omega)
        · split
          · exact hc _ (by omega)
          · rfl
    rw [e1]
    refine (Eig.W_block (k := m) (δ := 3 * ε * β) (by linarith) (fun a => ?_) (fun a _ => ?_) (fun a => ?_) (fun a ha => ?_)
      (fun a h0 => absurd h0 (by omega)) (fun a h0 => absurd h0 (by omega))).trans (by nlinarith)
    · unfold Eig.wD
      rw [val_zero, sub_zero, ite_self, sub_self, abs_zero]; linarith
    · unfold Eig.wD
      rw [val_zero, sub_zero, ite_self]
    · rw [hC2]
      unfold Eig.wC
      dsimp only
      by_cases h1 : a < j
      · rw [if_pos h1, if_pos (.inl h1), sub_self, abs_zero]; linarith
      · rw [if_neg h1]
        by_cases h2 : a = m
        · rw [if_pos h2]
          by_cases h3 : m = n - 1
          · rw [if_pos (.inr ⟨h2, h3⟩), sub_self, abs_zero]; linarith
          · rw [if_neg (by omega), h2, zero_sub, abs_neg]
            exact hem (by omega)
        · rw [if_neg h2, if_neg h2, val_one, one_mul, ite_self, if_neg (show ¬ (a < j ∨ (a = m ∧ m = n - 1)) by omega), sub_self,
            abs_zero]
          linarith
    · rw [hC2]
      unfold Eig.wC
      dsimp only
      by_cases h1 : a < j
      · rw [if_pos h1, if_pos (.inl h1)]
      · rw [if_neg h1, if_neg (show ¬ a = m by omega), if_neg (show ¬ a = m by omega), val_one, one_mul, ite_self,
          if_neg (show ¬ (a < j ∨ (a = m ∧ m = n - 1)) by omega)]
  obtain ⟨hF2, hA2⟩ := s3 (K + 1) (by omega) ⟨hF.d, fun a ha _ => hF.e a ha, fun h => absurd h (lt_irrefl _), zero_fin,
    one_fin, one_fin⟩ hA1
  -- the end
  rw [s1] at h
  unfold Eig.finish at h
  rw [Bool.and_false, if_neg (by simp), Row.get_ok (by omega), ok_bind, Row.set_ok (by omega), ok_bind,
    Row.set_ok (by omega), ok_bind, Row.set_ok (by omega), ok_bind] at h
  have hx := Except.ok.inj h
  obtain ⟨w, hw⟩ : ∃ w, w = bw.2 := ⟨_, rfl⟩
  rw [← hw] at hF2 hA2 hx
  have hd' : x'.d.f = upd1 w.d.f j (Flt.sub (w.d.f j) w.u) := by rw [← hx]
  have he' : x'.e.f = upd1 (upd1 w.e.f j w.q) m Flt.zero := by rw [← hx]
  have hz' : x'.z = w.z := by rw [← hx]
  have hroom2 := hA2.room he0 hR (by omega)
  obtain ⟨β, hβ⟩ : ∃ β, β = fro (mx n n (Eig.wM j m j w.d.f w.e.f w.q w.u w.s w.c)) := ⟨_, rfl⟩
  have hβ0 : 0 ≤ β := by rw [hβ]; exact fro_nonneg _
  have hεβ : 0 ≤ ε * β := mul_nonneg he0 hβ0
  have bj : |val (w.d.f j) - val w.u| ≤ β := by
    have h := W_entry (n := n) (D := Eig.wD j w.d.f w.u) (C := Eig.wC j m j w.e.f w.q w.c) (x := j)
      (P := Eig.wP j m j w.e.f w.s) (a := j) (b := j) (by omega) (by omega)
    rw [show Eig.W (Eig.wD j w.d.f w.u) (Eig.wC j m j w.e.f w.q w.c) j (Eig.wP j m j w.e.f w.s) j j =
      Eig.wD j w.d.f w.u j from if_pos rfl, show Eig.wD j w.d.f w.u j = val (w.d.f j) - val w.u from if_pos rfl] at h
    rw [hβ]
    exact h
  have hb0 := big_le (α := α)
  have fj : fin (Flt.sub (w.d.f j) w.u) := sub_ok (hF2.d j (by omega)) hF2.u (by
    rw [← hβ] at hroom2; linarith)
  refine ⟨⟨fun a ha => ?_, fun a ha => ?_⟩, ?_⟩
  · rw [hd', upd1_eq]; split
    · exact fj
    · exact hF2.d a ha
  · rw [he', upd1_eq]; split
    · exact zero_fin
    · next h1 =>
      rw [upd1_eq]; split
      · exact hF2.q hj
      · exact hF2.e a ha h1
  refine Eig.Simil.mono he0 hE (show K + 1 + (m - j) + 1 ≤ K + (n + 1) by omega) ?_
  rw [hz']
  refine hA2.still he0 ?_
  rw [← hβ]
  have hP : Eig.wP j m j w.e.f w.s = 0 := if_neg (by omega)
  unfold Eig.wM Eig.tM
  rw [hP, Eig.W_zero _ _ j 0, hd', he']
  refine (Eig.W_block (k := j) (δ := ε * β) (by linarith) (fun a => ?_) (fun a ha => ?_) (fun a => ?_) (fun a ha => ?_)
      (fun a h0 => absurd h0 (by omega)) (fun a h0 => absurd h0 (by omega))).trans (by nlinarith)
  · unfold Eig.wD
    by_cases h1 : a = j
    · rw [if_pos h1, h1, upd1_eq, if_pos rfl]
      exact (sub_err fj).1.trans (mul_le_mul he bj (abs_nonneg _) he0)
    · rw [if_neg h1, upd1_eq, if_neg h1, sub_self, abs_zero]; linarith
  · unfold Eig.wD
    rw [if_neg (by omega), upd1_eq, if_neg (by omega)]
  all_goals
    have hCC : (if a < j then (0 : ℝ) else val (upd1 (upd1 w.e.f j w.q) m Flt.zero a)) =
        Eig.wC j m j w.e.f w.q w.c a := by
      unfold Eig.wC
      by_cases h1 : a < j
      · rw [if_pos h1, if_pos h1]
      · rw [if_neg h1, if_neg h1, upd1_eq]
        by_cases h2 : a = m
        · rw [if_pos h2, if_pos h2, val_zero]
        · rw [if_neg h2, if_neg h2, upd1_eq]
          by_cases h3 : a = j
          · rw [if_pos h3, if_pos h3]
          · rw [if_neg h3, if_neg h3, if_neg (by omega)]
    rw [hCC]
  rw [sub_self, abs_zero]; linarith

end Linear
