import Verif.Lemmas.EigenExact

/-!
# The symmetric eigenproblem: size of the error, and matrices of size two
-/

set_option linter.unusedSectionVars false

namespace Linear

open Spec Finset Matrix

/-- The square of the Frobenius norm. -/
def Spec.fro2 {K : Type} [Field K] {r c : Nat} (A : Matrix (Fin r) (Fin c) K) : K := ∑ i, ∑ j, A i j ^ 2

section exact

variable {K : Type} [Field K] [LinearOrder K] [IsStrictOrderedRing K] {n : Nat}

theorem fro2_trace {r c : Nat} (A : Matrix (Fin r) (Fin c) K) : fro2 A = (A * Aᵀ).trace := by
  unfold fro2 Matrix.trace
  refine Finset.sum_congr rfl fun i _ => ?_
  rw [Matrix.diag_apply, Matrix.mul_apply]
  exact Finset.sum_congr rfl fun j _ => by rw [Matrix.transpose_apply, sq]

theorem fro2_mul_right (A : Matrix (Fin n) (Fin n) K) {Q : Matrix (Fin n) (Fin n) K} (hQ : Q * Qᵀ = 1) :
    fro2 (A * Q) = fro2 A := by
  rw [fro2_trace, fro2_trace, Matrix.transpose_mul, Matrix.mul_assoc, ← Matrix.mul_assoc Q, hQ, Matrix.one_mul]

theorem fro2_conj (A : Matrix (Fin n) (Fin n) K) {Q : Matrix (Fin n) (Fin n) K} (hQ : Q * Qᵀ = 1) :
    fro2 (Q * A * Qᵀ) = fro2 A := by
  have hQ' : Qᵀ * Q = 1 := mul_eq_one_comm.1 hQ
  rw [fro2_mul_right _ (by rw [Matrix.transpose_transpose]; exact hQ'), fro2_trace, fro2_trace,
    Matrix.transpose_mul, Matrix.mul_assoc, ← Matrix.mul_assoc A, Matrix.trace_mul_comm, Matrix.mul_assoc, hQ',
    Matrix.mul_one]

theorem fro2_nonneg {r c : Nat} (A : Matrix (Fin r) (Fin c) K) : 0 ≤ fro2 A :=
  Finset.sum_nonneg fun _ _ => Finset.sum_nonneg fun _ _ => sq_nonneg _

theorem fro2_entry {r c : Nat} (A : Matrix (Fin r) (Fin c) K) (i : Fin r) (j : Fin c) : A i j ^ 2 ≤ fro2 A :=
  (Finset.single_le_sum (f := fun j => A i j ^ 2) (fun _ _ => sq_nonneg _) (mem_univ j)).trans
    (Finset.single_le_sum (f := fun i => ∑ j, A i j ^ 2) (fun _ _ => Finset.sum_nonneg fun _ _ => sq_nonneg _)
      (mem_univ i))

theorem fro2_col (A : Matrix (Fin n) (Fin n) K) (k : Fin n) : ∑ i, A i k ^ 2 ≤ fro2 A :=
  Finset.sum_le_sum fun i _ => Finset.single_le_sum (f := fun j => A i j ^ 2) (fun _ _ => sq_nonneg _) (mem_univ k)

theorem fro2_add_le (A B : Matrix (Fin n) (Fin n) K) : fro2 (A + B) ≤ 2 * fro2 A + 2 * fro2 B := by
  unfold fro2
  rw [Finset.mul_sum, Finset.mul_sum, ← Finset.sum_add_distrib]
  refine Finset.sum_le_sum fun i _ => ?_
  rw [Finset.mul_sum, Finset.mul_sum, ← Finset.sum_add_distrib]
  refine Finset.sum_le_sum fun j _ => ?_
  rw [Matrix.add_apply]
  nlinarith [sq_nonneg (A i j - B i j)]

theorem fro2_mono {r c : Nat} {A B : Matrix (Fin r) (Fin c) K} (h : ∀ i j, A i j ^ 2 ≤ B i j ^ 2) : fro2 A ≤ fro2 B :=
  Finset.sum_le_sum fun i _ => Finset.sum_le_sum fun j _ => h i j

theorem fro2_zero_iff {r c : Nat} (A : Matrix (Fin r) (Fin c) K) : fro2 A ≤ 0 → A = 0 := by
  intro h
  ext i j
  have := (fro2_entry A i j).trans h
  exact pow_eq_zero_iff (two_ne_zero) |>.1 (le_antisymm this (sq_nonneg _))

theorem fro2_band {A : Matrix (Fin n) (Fin n) K} {t : K} (ht : 0 ≤ t)
    (h : ∀ i j : Fin n, A i j ^ 2 ≤ if i.1 = j.1 ∨ i.1 = j.1 + 1 ∨ j.1 = i.1 + 1 then t else 0) :
    fro2 A ≤ 3 * n * t := by
  have hrow : ∀ i : Fin n, ∑ j, A i j ^ 2 ≤ 3 * t := by
    intro i
    have h1 : ∑ j, A i j ^ 2 ≤ ∑ j : Fin n, ((if j.1 = i.1 then t else 0) + (if j.1 + 1 = i.1 then t else 0) +
        (if j.1 = i.1 + 1 then t else 0)) := by
      refine Finset.sum_le_sum fun j _ => (h i j).trans ?_
      split_ifs <;> first | omega | linarith
    refine h1.trans ?_
    rw [Finset.sum_add_distrib, Finset.sum_add_distrib]
    have key : ∀ P : Nat → Prop, ∀ _ : DecidablePred P, (∀ x y, P x → P y → x = y) →
        ∑ j : Fin n, (if P j.1 then t else 0) ≤ t := by
      intro P _ hP
      by_cases hex : ∃ j : Fin n, P j.1
      · obtain ⟨j, hj⟩ := hex
        rw [Finset.sum_eq_single j (fun b _ hb => if_neg fun hb' => hb (Fin.ext (hP _ _ hb' hj)))
          (fun h => absurd (mem_univ _) h), if_pos hj]
      · rw [Finset.sum_eq_zero fun b _ => if_neg fun hb => hex ⟨b, hb⟩]
        exact ht
    have k1 := key (fun x => x = i.1) inferInstance (fun x y => by omega)
    have k2 := key (fun x => x + 1 = i.1) inferInstance (fun x y => by omega)
    have k3 := key (fun x => x = i.1 + 1) inferInstance (fun x y => by omega)
    linarith
  calc fro2 A ≤ ∑ _i : Fin n, 3 * t := Finset.sum_le_sum fun i _ => hrow i
    _ = 3 * n * t := by rw [Finset.sum_const, Finset.card_univ, Fintype.card_fin, nsmul_eq_mul]; ring

theorem fro2_diag {A : Matrix (Fin n) (Fin n) K} {t : K}
    (h : ∀ i j : Fin n, A i j ^ 2 ≤ if i.1 = j.1 then t else 0) : fro2 A ≤ n * t := by
  have hrow : ∀ i : Fin n, ∑ j, A i j ^ 2 ≤ t := by
    intro i
    refine (Finset.sum_le_sum fun j _ => h i j).trans ?_
    rw [Finset.sum_eq_single i (fun b _ hb => if_neg fun h => hb (Fin.ext h).symm)
      (fun h => absurd (mem_univ _) h), if_pos rfl]
  calc fro2 A ≤ ∑ _i : Fin n, t := Finset.sum_le_sum fun i _ => hrow i
    _ = n * t := by rw [Finset.sum_const, Finset.card_univ, Fintype.card_fin, nsmul_eq_mul]

variable [Flt K] [Exact K] [ExactSqrt K]

theorem Eig.Near.diff {thr : K} {v v' : Nat → K} (h : Eig.Near thr n v v') {i : Nat} (hi : i < n) :
    (v' i - v i) ^ 2 ≤ thr ^ 2 := by
  rcases h i hi with h | ⟨h, h'⟩
  · rw [h, sub_self, zero_pow two_ne_zero]; exact sq_nonneg _
  · rw [h, zero_sub, neg_sq, ← sq_abs]
    exact pow_le_pow_left₀ (abs_nonneg _) h' 2

theorem Eig.Near.sq_le {thr : K} {v v' : Nat → K} (h : Eig.Near thr n v v') {i : Nat} (hi : i < n) :
    v' i ^ 2 ≤ v i ^ 2 := by
  rcases h i hi with h | ⟨h, -⟩
  · rw [h]
  · rw [h, zero_pow two_ne_zero]; exact sq_nonneg _

/-- The error of the symmetric case. -/
theorem Eig.findSym_error {l : Nat} {eps : K} (heps : 0 ≤ eps) {main : Row K n} {sec : Row K l} {z : Tab K n n}
    (hn : 0 < n) (hl : n - 1 ≤ l) (hz : mx n n z.f * (mx n n z.f)ᵀ = 1) {s : Eig K n}
    (h : Eig.findSym eps main sec z = .ok s) {S : Matrix (Fin n) (Fin n) K}
    (hS : mx n n z.f * mx n n (Tri.tEnt main.f sec.f) * (mx n n z.f)ᵀ = S) :
    s.sym = true ∧ (∀ i, s.im.f i = 0) ∧
      mx n n (fun a b => s.vec.f b a) * (mx n n (fun a b => s.vec.f b a))ᵀ = 1 ∧
      (∀ a b, a < b → b < n → s.re.f b ≤ s.re.f a) ∧
      fro2 (mx n n (fun a b => s.vec.f b a) * mx n n (Eig.dg s.re.f) * (mx n n (fun a b => s.vec.f b a))ᵀ - S) ≤
        8 * n * eps ^ 2 * fro2 S := by
  obtain ⟨d, e, lam, h1, h2, h3, h4, h5, h6, h7⟩ := Eig.findSym_exact heps hn hl hz h
  refine ⟨h1, h2, h4, h7, ?_⟩
  obtain ⟨B, hB0, hB⟩ : ∃ B : K, 0 ≤ B ∧ B ^ 2 = fro2 S :=
    ⟨Flt.sqrt (fro2 S), ExactSqrt.sqrt_nonneg _, by rw [sq]; exact ExactSqrt.sqrt_mul_self _ (fro2_nonneg S)⟩
  have hST : fro2 (mx n n (Tri.tEnt main.f sec.f)) = fro2 S := by rw [← hS, fro2_conj _ hz]
  have hm : ∀ i, i < n → |main.f i| ≤ B := by
    intro i hi
    refine abs_le_of_sq_le_sq ?_ hB0
    rw [hB, ← hST]
    have := fro2_entry (mx n n (Tri.tEnt main.f sec.f)) ⟨i, hi⟩ ⟨i, hi⟩
    simpa [mx, Tri.tEnt] using this
  have hs : ∀ i, i < n - 1 → |sec.f i| ≤ B := by
    intro i hi
    refine abs_le_of_sq_le_sq ?_ hB0
    rw [hB, ← hST]
    have := fro2_entry (mx n n (Tri.tEnt main.f sec.f)) ⟨i, by omega⟩ ⟨i + 1, by omega⟩
    simpa [mx, Tri.tEnt, show ¬ i = i + 1 + 1 by omega] using this
  obtain ⟨h8, h9⟩ := h5 B hB0 hm hs
  have ht : 0 ≤ eps * B := mul_nonneg heps hB0
  have ht2 : (eps * B) ^ 2 = eps ^ 2 * fro2 S := by rw [mul_pow, hB]
  -- the tridiagonal part
  have hT : fro2 (mx n n (Tri.tEnt d e) - mx n n (Tri.tEnt main.f sec.f)) ≤ 3 * n * (eps * B) ^ 2 := by
    refine fro2_band (sq_nonneg _) fun i j => ?_
    show (Tri.tEnt d e i j - Tri.tEnt main.f sec.f i j) ^ 2 ≤ _
    unfold Tri.tEnt
    have hi := i.2
    have hj := j.2
    by_cases c1 : i.1 = j.1
    · rw [if_pos c1, if_pos c1, if_pos (.inl c1)]
      exact h8.diff hi
    · rw [if_neg c1, if_neg c1]
      by_cases c2 : i.1 = j.1 + 1
      · rw [if_pos c2, if_pos c2, if_pos (.inr (.inl c2))]
        exact h9.diff (by omega)
      · rw [if_neg c2, if_neg c2]
        by_cases c3 : j.1 = i.1 + 1
        · rw [if_pos c3, if_pos c3, if_pos (.inr (.inr c3))]
          exact h9.diff (by omega)
        · rw [if_neg c3, if_neg c3, if_neg (by omega), sub_self, zero_pow two_ne_zero]
  have hle : fro2 (mx n n (Tri.tEnt d e)) ≤ fro2 S := by
    rw [← hST]
    refine fro2_mono fun i j => ?_
    show Tri.tEnt d e i j ^ 2 ≤ Tri.tEnt main.f sec.f i j ^ 2
    unfold Tri.tEnt
    have hi := i.2
    have hj := j.2
    by_cases c1 : i.1 = j.1
    · rw [if_pos c1, if_pos c1]
      exact h8.sq_le hi
    · rw [if_neg c1, if_neg c1]
      by_cases c2 : i.1 = j.1 + 1
      · rw [if_pos c2, if_pos c2]
        exact h9.sq_le (by omega)
      · rw [if_neg c2, if_neg c2]
        by_cases c3 : j.1 = i.1 + 1
        · rw [if_pos c3, if_pos c3]
          exact h9.sq_le (by omega)
        · rw [if_neg c3, if_neg c3]
  have hlam : fro2 (mx n n (Eig.dg lam)) ≤ fro2 S := by
    rw [← fro2_conj (mx n n (Eig.dg lam)) h4, h3, fro2_conj _ hz]
    exact hle
  have hl1 : ∀ i, i < n → |lam i| ≤ B := by
    intro i hi
    refine abs_le_of_sq_le_sq ?_ hB0
    rw [hB]
    refine le_trans ?_ hlam
    have := fro2_entry (mx n n (Eig.dg lam)) ⟨i, hi⟩ ⟨i, hi⟩
    simpa [mx, Eig.dg] using this
  have h10 := h6 B hB0 hl1
  have hD : fro2 (mx n n (Eig.dg s.re.f) - mx n n (Eig.dg lam)) ≤ n * (eps * B) ^ 2 := by
    refine fro2_diag fun i j => ?_
    show (Eig.dg s.re.f i j - Eig.dg lam i j) ^ 2 ≤ _
    unfold Eig.dg
    by_cases c1 : i.1 = j.1
    · rw [if_pos c1, if_pos c1, if_pos c1]
      exact h10.diff i.2
    · rw [if_neg c1, if_neg c1, if_neg c1, sub_self, zero_pow two_ne_zero]
  have hE : mx n n (fun a b => s.vec.f b a) * mx n n (Eig.dg s.re.f) * (mx n n (fun a b => s.vec.f b a))ᵀ - S =
      mx n n (fun a b => s.vec.f b a) * (mx n n (Eig.dg s.re.f) - mx n n (Eig.dg lam)) *
        (mx n n (fun a b => s.vec.f b a))ᵀ +
      mx n n z.f * (mx n n (Tri.tEnt d e) - mx n n (Tri.tEnt main.f sec.f)) * (mx n n z.f)ᵀ := by
    rw [Matrix.mul_sub, Matrix.sub_mul, Matrix.mul_sub, Matrix.sub_mul, h3, hS]
    abel
  rw [hE]
  refine (fro2_add_le _ _).trans ?_
  rw [fro2_conj _ h4, fro2_conj _ hz]
  calc _ ≤ 2 * (n * (eps * B) ^ 2) + 2 * (3 * n * (eps * B) ^ 2) := by linarith
    _ = 8 * n * eps ^ 2 * fro2 S := by rw [ht2]; ring

/-! ## Convergence for diagonal matrices and for matrices of size two -/

theorem Eig.ql_done {j : Nat} (hj : j < n) (k : Nat) (x : Eig.St K n) (h : j < n - 1 → x.e.f j = 0) :
    Eig.ql j k x = .ok x := by
  obtain ⟨m, e, h1, h2, h3, h4⟩ := Eig.find_ok x.d x.e (show j + (n - 1 - j) < n by omega)
  have hm : m = j := by
    by_contra hne
    have hlt : j < n - 1 := by omega
    exact h4 j (le_refl _) (by omega) ((Eig.small_exact _ _ _).2 (h hlt))
  subst hm
  cases k <;> (unfold Eig.ql; rw [e, ok_bind, if_pos rfl]; rfl)

theorem Eig.iter_done (x : Eig.St K n) (h : ∀ j, j < n - 1 → x.e.f j = 0) :
    forUp 0 n (fun j (x : Eig.St K n) => Eig.ql j 30 x) x = (.ok x : Res _) := by
  obtain ⟨x', e, h'⟩ := Wp.exists_ok (wp_forUp (ε := Fault) (a := 0) (b := n)
    (body := fun j (x : Eig.St K n) => Eig.ql j 30 x) (s := x) (E := fun _ => False) (fun _ x' => x' = x)
    (by omega) rfl (fun j x' _ h2 h3 => by
      subst h3
      exact wp_of_eq_ok (Eig.ql_done h2 30 x' (h j)) rfl))
  rw [e, h']

theorem Eig.t0_exact (q : K) : 0 < Eig.t0 q ∧ Eig.t0 q * Eig.t0 q = 1 + q * q := by
  unfold Eig.t0
  simp only [Exact.add_eq, Exact.one_eq, Exact.mul_eq]
  have h : 0 < 1 + q * q := by nlinarith [mul_self_nonneg q]
  have h2 := ExactSqrt.sqrt_mul_self (1 + q * q) h.le
  refine ⟨lt_of_le_of_ne (ExactSqrt.sqrt_nonneg _) fun h0 => ?_, h2⟩
  rw [← h0, mul_zero] at h2
  exact h.ne h2

/-- The first `q` is `e` times the root of `k * k - 2 * q * k - 1`. -/
theorem Eig.q0_exact {d0 d1 e : K} (he : e ≠ 0) :
    ∃ k : K, k ≠ 0 ∧ Eig.q0 d1 d0 e ((d1 - d0) / (2 * e)) = e * k ∧ k * k * e = (d1 - d0) * k + e := by
  obtain ⟨h1, h2⟩ := Eig.t0_exact ((d1 - d0) / (2 * e))
  unfold Eig.q0
  simp only [Exact.lt_eq, Exact.zero_eq, Exact.add_eq, Exact.sub_eq, Exact.div_eq, decide_eq_true_eq]
  generalize Eig.t0 ((d1 - d0) / (2 * e)) = t at *
  have key : ∀ k : K, k * k = 2 * ((d1 - d0) / (2 * e)) * k + 1 → k ≠ 0 ∧ d1 - d0 + e / k = e * k ∧
      k * k * e = (d1 - d0) * k + e := by
    intro k hk
    have hk0 : k ≠ 0 := by
      rintro rfl
      simp at hk
    have hk' : k * k * e = (d1 - d0) * k + e := by
      rw [hk]
      field_simp
    refine ⟨hk0, ?_, hk'⟩
    field_simp
    linear_combination -hk'
  split
  · exact ⟨_, key _ (by linear_combination h2)⟩
  · exact ⟨_, key _ (by linear_combination h2)⟩

/-- For a matrix of size two, one sweep ends the iteration. -/
theorem Eig.iter_two (x : Eig.St K 2) :
    ∃ x', forUp 0 2 (fun j (x : Eig.St K 2) => Eig.ql j 30 x) x = (.ok x' : Res _) := by
  by_cases he : x.e.f 0 = 0
  · exact ⟨x, Eig.iter_done x fun j hj => by rw [show j = 0 by omega]; exact he⟩
  · have hf : Eig.find x.d x.e 1 0 = .ok 1 := by
      obtain ⟨m, e, h1, h2, h3, h4⟩ := Eig.find_ok x.d x.e (show 0 + 1 < 2 by omega)
      rw [e]
      by_cases hm : m < 1
      · have := (Eig.small_exact _ _ _).1 (h3 (by omega))
        rw [show m = 0 by omega] at this
        exact absurd this he
      · rw [show m = 1 by omega]
    obtain ⟨k, hk0, hq, hk⟩ := Eig.q0_exact (d0 := x.d.f 0) (d1 := x.d.f 1) he
    have hr : ∃ x1, Eig.round 0 1 x = .ok x1 ∧ x1.e.f 0 = 0 := by
      unfold Eig.round
      rw [Row.get_ok (by omega), ok_bind, Row.get_ok (by omega), ok_bind, Row.get_ok (by omega), ok_bind, ok_bind]
      simp only [Nat.zero_add, Exact.sub_eq, Exact.div_eq, Exact.mul_eq, Exact.two_eq, hq, Exact.one_eq]
      show ∃ x1, (do
        let bw ← Eig.sweep 0 1 (0 + 1) _
        _ : Res _) = _ ∧ _
      unfold Eig.sweep
      rw [Row.get_ok (by decide), ok_bind, Eig.take_ok (by decide), ok_bind, Row.get_ok (by decide), ok_bind]
      simp only [Exact.mul_eq, one_mul, Nat.zero_add]
      obtain ⟨g1, g2, g3, g4, g5⟩ := Eig.rot_exact he (x.e.f 0 * k)
      have hc : (Eig.rot (x.e.f 0) (x.e.f 0 * k)).c = (Eig.rot (x.e.f 0) (x.e.f 0 * k)).s * k := by
        have : (Eig.rot (x.e.f 0) (x.e.f 0 * k)).c * (Eig.rot (x.e.f 0) (x.e.f 0 * k)).r =
            (Eig.rot (x.e.f 0) (x.e.f 0 * k)).s * k * (Eig.rot (x.e.f 0) (x.e.f 0 * k)).r := by
          rw [g2]; linear_combination -k * g1
        exact mul_right_cancel₀ g5 this
      generalize Eig.rot (x.e.f 0) (x.e.f 0 * k) = g at *
      rw [if_neg (by simp [Eig.took, Exact.eq_eq, Exact.zero_eq, g5]), Eig.bulge_ok (by omega), ok_bind]
      unfold Eig.sweep Eig.finish
      rw [pure_eq_ok, ok_bind]
      simp only [Bool.and_false, Bool.false_eq_true, if_false]
      rw [Row.get_ok (by omega), ok_bind, Row.set_ok (by omega), ok_bind, Row.set_ok (by omega), ok_bind,
        Row.set_ok (by omega), ok_bind]
      refine ⟨_, rfl, ?_⟩
      simp only [upd1_eq, Eig.took, Eig.tv, Exact.sub_eq, Exact.mul_eq, Exact.add_eq, Exact.zero_eq, Exact.two_eq]
      rw [if_neg (by omega), if_pos trivial, sub_zero, Nat.zero_add, hc]
      rw [hc] at g3
      linear_combination x.e.f 0 * g3 + g.s * g.s * hk
    obtain ⟨x1, e1, h1⟩ := hr
    refine ⟨x1, ?_⟩
    rw [forUp_step (by omega)]
    have e2 : Eig.ql 0 30 x = .ok x1 := by
      unfold Eig.ql
      rw [show 2 - 1 - 0 = 1 from rfl, hf, ok_bind, if_neg (by omega), e1, ok_bind,
        Eig.ql_done (by omega) 29 x1 fun _ => h1]
    rw [e2, ok_bind, forUp_step (by omega), Eig.ql_done (by omega) 30 x1 (fun h => by omega), ok_bind,
      forUp_eq_self (by omega)]

theorem Eig.findSym_of_iter {l : Nat} (eps : K) (main : Row K n) (sec : Row K l) (z : Tab K n n) (hn : 0 < n)
    (hl : n - 1 ≤ l) (h : ∀ x : Eig.St K n, (∀ j, j < n - 1 → sec.f j = 0 → x.e.f j = 0) →
      ∃ x', forUp 0 n (fun j (x : Eig.St K n) => Eig.ql j 30 x) x = (.ok x' : Res _)) :
    ∃ s, Eig.findSym eps main sec z = .ok s := by
  obtain ⟨s0, s1, e0, e1, hc⟩ := Eig.findSym_ok eps main sec z hn hl
  rcases hc with ⟨f, ef, -⟩ | ⟨x, y, d, v, -, -, -, -, ev⟩
  · obtain ⟨x', ex⟩ := h ⟨z, s1.1, s1.2⟩ fun j hj hs => by
      obtain ⟨s0', e0', h1, h2, h3⟩ := Eig.diagonals_ok hn hl main sec
      rw [e0] at e0'
      cases e0'
      obtain ⟨mx, s', -, e1', h4⟩ := Eig.null2_ok eps s0
      rw [e1] at e1'
      cases e1'
      have h5 : s0.2.f j = 0 := by rw [h2 j hj, hs]
      rcases h4 with ⟨-, rfl⟩ | ⟨-, -, h6⟩
      · exact h5
      · show s1.2.f j = 0
        rw [h6 j (by omega)]
        unfold Eig.cutV
        rw [Exact.zero_eq]
        split
        · rfl
        · exact h5
    rw [ef] at ex
    cases ex
  · exact ⟨_, ev⟩

end exact

end Linear
