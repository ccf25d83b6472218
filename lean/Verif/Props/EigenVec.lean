import Verif.Lemmas.EigVec
import Verif.Props.SchurErr

/-!
# Eigenvectors of general matrices

Property C86, `/repo/eigen_decomposition.go:526-694`. Exact real arithmetic with square roots; the literals are those
of the Schur transformation and of the eigenvalue code.
-/

set_option linter.unusedSectionVars false

namespace Linear
open Spec Matrix
open Finset hiding diag

namespace Spec

/-- `cdiv` divides complex numbers, given by their two parts. -/
def DividesC (cdiv : ℝ × ℝ → ℝ × ℝ → ℝ × ℝ) : Prop :=
  ∀ x y : ℝ × ℝ, (y.1 : ℂ) + y.2 * Complex.I ≠ 0 →
    ((cdiv x y).1 : ℂ) + (cdiv x y).2 * Complex.I = (x.1 + x.2 * Complex.I) / (y.1 + y.2 * Complex.I)

end Spec

variable {n : Nat}

private theorem exactDiv {cdiv : ℝ × ℝ → ℝ × ℝ → ℝ × ℝ} (h : DividesC cdiv) : Eig.ExactDiv cdiv := by
  intro x y hy
  rw [h x y hy, div_mul_cancel₀ _ hy]

/-- The tables that the search for vectors starts from. -/
private theorem newGen_find (σ : Schur.Lit ℝ) (κ : Eig.Lit ℝ) {a : Mat ℝ n n} (hn : 0 < n) {fuel : Nat}
    {s : Schur ℝ n} {e : Eig ℝ n} (hs : Schur.new σ fuel a = .ok (some s)) (h : Eig.newGen σ κ fuel a = .ok (some e)) :
    ∃ T P : Tab ℝ n n, (∀ i j, i < n → j < n → T.f i j = s.t.f i j) ∧ (∀ i j, i < n → j < n → P.f i j = s.p.f i j) ∧
      Eig.findGen κ e.re e.im T P = .ok e := by
  obtain ⟨M, e1, h1, h2⟩ := SMat.fromSlices_dense (Jag.toLists_rect s.p) hn hn false
  obtain ⟨N, e2, h3, h4⟩ := SMat.fromSlices_dense (Jag.toLists_rect s.t) hn hn false
  obtain ⟨tt, et, ht⟩ := Mat.dataCopy_ok (Mat.dense_own h3) hn h4
  obtain ⟨tp, ep, hp⟩ := Mat.dataCopy_ok (Mat.dense_own h1) hn h2
  refine ⟨⟨tt.f⟩, ⟨tp.f⟩, ht, hp, ?_⟩
  unfold Eig.newGen at h
  rw [hs, ok_bind] at h
  dsimp only at h
  unfold Schur.tMat Schur.pMat at h
  rw [e1, e2] at h
  simp only [must_ok, ok_bind] at h
  unfold Schur.tab at h
  dsimp only at h
  rw [if_pos ⟨rfl, rfl⟩, if_pos ⟨rfl, rfl⟩, et, ep] at h
  simp only [ok_bind, pure_eq_ok] at h
  cases hv : Eig.values κ.epsEd κ.half (⟨tt.f⟩ : Tab ℝ n n) n 0 (Row.zero n, Row.zero n) with
  | error f => rw [hv] at h; cases h
  | ok v =>
    rw [hv, ok_bind] at h
    cases hf : Eig.findGen κ v.1 v.2 (⟨tt.f⟩ : Tab ℝ n n) ⟨tp.f⟩ with
    | error f => rw [hf] at h; cases h
    | ok e' =>
      rw [hf, ok_bind] at h
      cases h
      have hre : e.re = v.1 ∧ e.im = v.2 := by
        have hf' := hf
        unfold Eig.findGen at hf'
        cases hN : Schur.norm (⟨tt.f⟩ : Tab ℝ n n) with
        | error f => rw [hN] at hf'; cases hf'
        | ok norm =>
          rw [hN, ok_bind] at hf'
          split_ifs at hf'
          · cases hf'
          · revert hf'
            cases forDown n 0 (Eig.vector κ norm v.1 v.2) ⟨⟨tt.f⟩, Flt.zero, Flt.zero, Flt.zero, 0⟩ with
            | error f => intro h; cases h
            | ok b =>
              rw [ok_bind]
              cases Eig.back b.t (⟨tp.f⟩ : Tab ℝ n n) with
              | error f => intro h; cases h
              | ok p =>
                rw [ok_bind]
                cases Tab.build n n (fun i j => p.get j i) Fault.rt with
                | error f => intro h; cases h
                | ok v' => intro h; cases h; exact ⟨rfl, rfl⟩
      rw [hre.1, hre.2]
      exact hf

/-- Equations for the leading rows, as an equation for a vector with zeros below. -/
private theorem sol_vec {F : Type} [Field F] {V : Nat → Nat → F} {lam : F} {d c : Nat → F} {idx : Nat} (hx : idx < n)
    (h : Eig.Sol V lam d c 0 idx) (hd : ∀ k, idx < k → d k = 0) (hl : ∀ k j, idx < k → j ≤ idx → V k j = 0) :
    (mx n n V + Matrix.diagonal fun k : Fin n => d k).mulVec (fun j : Fin n => if (j : Nat) ≤ idx then c j else 0) =
      lam • fun j : Fin n => if (j : Nat) ≤ idx then c j else 0 := by
  have hsum : ∀ k, ∑ j : Fin n, V k j * (if (j : Nat) ≤ idx then c j else 0) = ∑ j ∈ range (idx + 1), V k j * c j := by
    intro k
    rw [Fin.sum_univ_eq_sum_range (fun j => V k j * if j ≤ idx then c j else 0) n,
      ← sum_subset (range_subset_range.2 (show idx + 1 ≤ n by omega)) fun j _ hj => by
        rw [if_neg (by simp only [mem_range] at hj; omega), mul_zero]]
    exact sum_congr rfl fun j hj => by rw [if_pos (by simp only [mem_range] at hj; omega)]
  funext k
  rw [Matrix.add_mulVec, Pi.add_apply, Matrix.mulVec_diagonal, Pi.smul_apply, smul_eq_mul]
  show ∑ j : Fin n, V k j * (if (j : Nat) ≤ idx then c j else 0) + _ = _
  rw [hsum]
  by_cases hk : (k : Nat) ≤ idx
  · rw [if_pos hk]
    have := h k (Nat.zero_le _) hk
    rwa [← range_eq_Ico] at this
  · rw [if_neg hk, mul_zero, mul_zero, add_zero]
    exact sum_eq_zero fun j hj => by rw [hl k j (by omega) (by simp only [mem_range] at hj; omega), zero_mul]

/-- A conjugate of a matrix has the image of an eigenvector as eigenvector. -/
private theorem conj_vec {F : Type} [Field F] {P Pi M : Matrix (Fin n) (Fin n) F} (hP : Pi * P = 1) {c : Fin n → F}
    {lam : F} (h : M.mulVec c = lam • c) : (P * M * Pi).mulVec (P.mulVec c) = lam • P.mulVec c := by
  rw [Matrix.mulVec_mulVec, Matrix.mul_assoc, hP, Matrix.mul_one, ← Matrix.mulVec_mulVec, h, Matrix.mulVec_smul]

private theorem image_ne {F : Type} [Field F] {P Pi : Matrix (Fin n) (Fin n) F} (hP : Pi * P = 1) {c : Fin n → F}
    (h : c ≠ 0) : P.mulVec c ≠ 0 := by
  intro h0
  apply h
  have := congrArg Pi.mulVec h0
  rwa [Matrix.mulVec_mulVec, hP, Matrix.one_mulVec, Matrix.mulVec_zero] at this

private theorem norm_nonneg' {t : Tab ℝ n n} {x : ℝ} (h : Schur.norm t = .ok x) : 0 ≤ x := by
  unfold Schur.norm at h
  have hw := wp_forUp (E := fun _ => False) (fun _ (s : ℝ) => 0 ≤ s) (Nat.zero_le n)
    (body := fun i s => sumUp (i - 1) n (fun j => do return Flt.abs (← t.get i j)) s)
    (s := (Flt.zero : ℝ)) (by simp) (fun i s _ hi' hI => by
      rw [sumUp_ok (fun j => Flt.abs (t.f i j)) fun j _ hj => by rw [Tab.get_ok hi' hj]; rfl, wp_ok,
        lsum_exact]
      exact add_nonneg hI (sum_nonneg fun j _ => by rw [Exact.abs_eq]; exact abs_nonneg _))
  exact hw.of_ok h

/-- The imaginary parts of a result, by the positions of the pairs. -/
private theorem reads_signs {tol : ℝ} {T : Nat → Nat → ℝ} {re im : Nat → ℝ} {pr : Nat → Prop}
    (h : ReadsOff tol n T re im pr)
    (hd : ∀ k, pr k → ((T k k - T (k + 1) (k + 1)) / 2) ^ 2 + T (k + 1) k * T k (k + 1) < 0) {k : Nat} (hk : k < n) :
    (pr k ∧ 0 < im k) ∨ (∃ l, pr l ∧ k = l + 1 ∧ im k < 0 ∧ 0 < im l) ∨ (Eig.Single pr k ∧ im k = 0) := by
  have hpos : ∀ l, pr l → 0 < im l := fun l hl => by
    rw [(h.pair l hl).2.2.2.2.1]
    exact Real.sqrt_pos.2 (abs_pos.2 (hd l hl).ne)
  by_cases hp : pr k
  · exact .inl ⟨hp, hpos k hp⟩
  · by_cases hl : ∃ l, pr l ∧ k = l + 1
    · obtain ⟨l, hl, rfl⟩ := hl
      refine .inr (.inl ⟨l, hl, rfl, ?_, hpos l hl⟩)
      rw [(h.pair l hl).2.2.2.2.2.2]
      linarith [hpos l hl]
    · have hs : ∀ l, pr l → k ≠ l + 1 := fun l h1 h2 => hl ⟨l, h1, h2⟩
      exact .inr (.inr ⟨⟨hp, hs⟩, (h.single k hk hp hs).2.1⟩)

set_option maxHeartbeats 1600000 in
/-- **C86.** The vectors of a result are eigenvectors of a matrix near `A`. For a matrix that is not zero, of Frobenius
norm at most `N`, when entries that the Schur form takes for zero are within the tolerance `epsEd` and no imaginary
part of the result lies between zero and `epsEd`, there is one matrix `E` of Frobenius norm at most
`schurErr + n · epsEd` such that:
- imaginary parts come in pairs, the positive one first;
- the column of a real eigenvalue is not zero and is an eigenvector of `A + E + F` with exactly this eigenvalue, where
  `F` is zero if no real eigenvalue before it is the same, and of norm at most `n · eps · n · (N + schurErr + n · epsEd)`
  otherwise;
- the two columns of a pair, unless the same pair has occurred before, are the real and the imaginary part of an
  eigenvector of `A + E` with the eigenvalue of the positive imaginary part. -/
theorem C86_vectors (σ : Schur.Lit ℝ) (hσ : 0 < σ.eps) (κ : Eig.Lit ℝ) (hκ : 0 ≤ κ.epsEd) (hh : κ.half = 1 / 2)
    (hk : 0 < κ.eps) (hdiv : DividesC κ.cdiv)
    {a : Mat ℝ n n} (ha : a.own) (hn : 0 < n) {A : Nat → Nat → ℝ} (hA : Shows a.at n n A) (hA0 : mx n n A ≠ 0)
    {N : ℝ} (hN : 0 ≤ N) (hAN : fro2 (mx n n A) ≤ N ^ 2) (hd : schurDrop n σ.eps N ≤ κ.epsEd)
    {fuel : Nat} {e : Eig ℝ n} (h : Eig.newGen σ κ fuel a = .ok (some e))
    (hgap : ∀ i, i < n → 0 < e.im.f i → κ.epsEd < e.im.f i) :
    ∃ (mv : Mat ℝ n n) (V : Nat → Nat → ℝ) (E : Matrix (Fin n) (Fin n) ℝ),
      e.v = .ok ⟨n, n, mv⟩ ∧ Shows mv.at n n V ∧ fro2 E ≤ (schurErr n σ.eps N + n * κ.epsEd) ^ 2 ∧
      (∀ k, k < n → e.im.f k < 0 → 1 ≤ k ∧ 0 < e.im.f (k - 1)) ∧
      (∀ k, k < n → e.im.f k = 0 → (fun i : Fin n => V i k) ≠ 0 ∧
        ∃ F : Matrix (Fin n) (Fin n) ℝ,
          fro2 F ≤ (n * (κ.eps * (n * (N + schurErr n σ.eps N + n * κ.epsEd)))) ^ 2 ∧
          ((∀ l, l < k → e.im.f l = 0 → e.re.f l ≠ e.re.f k) → F = 0) ∧
          (mx n n A + E + F).mulVec (fun i : Fin n => V i k) = e.re.f k • fun i : Fin n => V i k) ∧
      (∀ k, k < n → 0 < e.im.f k →
        k + 1 < n ∧ e.re.f (k + 1) = e.re.f k ∧ e.im.f (k + 1) = -e.im.f k ∧
        ((∀ l, l < k → ¬ (e.re.f l = e.re.f k ∧ e.im.f l = e.im.f k)) →
          (fun i : Fin n => (V i k : ℂ) + V i (k + 1) * Complex.I) ≠ 0 ∧
          ((mx n n A + E).map Complex.ofReal).mulVec (fun i : Fin n => (V i k : ℂ) + V i (k + 1) * Complex.I) =
            ((e.re.f k : ℂ) + e.im.f k * Complex.I) • fun i : Fin n => (V i k : ℂ) + V i (k + 1) * Complex.I)) := by
  classical
  obtain ⟨s, pr, hs, hr, hdisc, hsize, hR⟩ := Eig.newGen_rep σ hσ κ hκ hh ha hn hA hA0 hN hAN hd h
  obtain ⟨T, P, hT, hP, hfind⟩ := newGen_find σ κ hn hs h
  obtain ⟨mv, mvt, e1, -, -, -, h3, -⟩ := C64_vectors e hn
  have hsgn := fun {k : Nat} (hk : k < n) => reads_signs hr hdisc hk
  have hform : Eig.Form κ.epsEd n T.f e.re.f e.im.f pr := by
    refine ⟨fun k hp => ?_, fun k hk hp hl => ?_⟩
    · obtain ⟨g1, g2, g3, g4, g5, g6, g7⟩ := hr.pair k hp
      have h0 : 0 < e.im.f k := by
        rcases hsgn (show k < n by omega) with ⟨-, h0⟩ | ⟨l, hl, rfl, -⟩ | ⟨h0, -⟩
        · exact h0
        · exact absurd hp (hr.pair l hl).2.1
        · exact absurd hp h0.1
      have him : e.im.f k ^ 2 = -(((s.t.f k k - s.t.f (k + 1) (k + 1)) / 2) ^ 2 + s.t.f (k + 1) k * s.t.f k (k + 1)) := by
        rw [g5, Real.sq_sqrt (abs_nonneg _), abs_of_neg (hdisc k hp)]
      refine ⟨g1, g2, hgap k (by omega) h0, g6, g7, ?_, ?_⟩
      · rw [hT _ _ (by omega) (by omega), hT _ _ g1 g1, g4]
        ring
      · rw [hT _ _ (by omega) (by omega), hT _ _ g1 g1, hT _ _ (by omega) g1, hT _ _ g1 (by omega), him, g4]
        ring
    · obtain ⟨g1, g2, -⟩ := hr.single k hk hp hl
      exact ⟨by rw [hT _ _ hk hk, g1], g2⟩
  obtain ⟨norm, c, hnorm, hall, hvec⟩ := Eig.findGen_ok hκ hk.ne' hform (exactDiv hdiv) hfind
  have hPP : mx n n s.p.f * (mx n n s.p.f)ᵀ = 1 := hR.orth
  have hPP' : (mx n n s.p.f)ᵀ * mx n n s.p.f = 1 := mul_eq_one_comm.1 hPP
  have hquasi : mx n n (Eig.quasi pr s.t.f) = mx n n (Eig.quasi pr T.f) :=
    mx_congr fun i j hi hj => by unfold Eig.quasi; rw [hT i j hi hj]
  have hmx : mx n n P.f = mx n n s.p.f := mx_congr fun i j hi hj => hP i j hi hj
  -- the size of the perturbation
  have hB : 0 ≤ N + schurErr n σ.eps N + n * κ.epsEd :=
    add_nonneg (add_nonneg hN (schurErr_nonneg (n := n) hσ.le hN)) (mul_nonneg (Nat.cast_nonneg n) hκ)
  have hnle : norm ≤ n * (N + schurErr n σ.eps N + n * κ.epsEd) := by
    refine Schur.norm_le hnorm hB ?_
    rwa [mx_congr (B := s.t.f) fun i j hi hj => hT i j hi hj]
  have hn0 : 0 ≤ norm := norm_nonneg' hnorm
  refine ⟨mv, _, mx n n s.p.f * mx n n (Eig.quasi pr s.t.f) * (mx n n s.p.f)ᵀ - mx n n A, e1, h3, hR.near,
    fun k hk hlt => ?_, fun k hkn h0 => ?_, fun k hkn h0 => ?_⟩
  · rcases hsgn hk with ⟨-, h0⟩ | ⟨l, hl, rfl, -, h0⟩ | ⟨-, h0⟩
    · linarith
    · exact ⟨by omega, by rwa [Nat.add_sub_cancel]⟩
    · linarith
  · have hs1 : Eig.Single pr k := by
      rcases hsgn hkn with ⟨-, h1⟩ | ⟨l, hl, rfl, h1, -⟩ | ⟨h1, -⟩
      · linarith
      · linarith
      · exact h1
    obtain ⟨hnz, d, hd1, hsol⟩ := hall.real k (Nat.zero_le _) hkn hs1
    have hre : e.re.f k = T.f k k := (hform.single k hkn hs1.1 hs1.2).1
    have hd2 : ∀ j, k < j → d j = 0 := fun j hj => by
      rcases hd1 j with h1 | ⟨-, h1, -⟩
      · exact h1
      · omega
    have hv := sol_vec hkn hsol hd2 fun i j hi hj => Eig.quasi_zero (by omega) fun hc => by
      have : j = k := by omega
      exact hs1.1 (this ▸ hc.2)
    set ct : Fin n → ℝ := fun j => if (j : Nat) ≤ k then c j k else 0 with hct
    have hcv : (fun i : Fin n => e.vec.f k i) = (mx n n s.p.f).mulVec ct := by
      funext i
      rw [hvec k i hkn i.2, ← hmx]
      show _ = ∑ j : Fin n, P.f i j * (if (j : Nat) ≤ k then c j k else 0)
      rw [Fin.sum_univ_eq_sum_range (fun j => P.f i j * if j ≤ k then c j k else 0) n,
        ← sum_subset (range_subset_range.2 (show k + 1 ≤ n by omega)) fun j _ hj => by
          rw [if_neg (by simp only [mem_range] at hj; omega), mul_zero]]
      exact sum_congr rfl fun j hj => by rw [if_pos (by simp only [mem_range] at hj; omega)]
    refine ⟨?_, mx n n s.p.f * (Matrix.diagonal fun j : Fin n => d j) * (mx n n s.p.f)ᵀ, ?_, fun hne => ?_, ?_⟩
    · rw [hcv]
      refine image_ne hPP' fun hc => hnz ?_
      have := congrFun hc ⟨k, hkn⟩
      rw [hct, Pi.zero_apply] at this
      dsimp only at this
      rwa [if_pos (le_refl k)] at this
    · rw [fro2_conj _ hPP]
      have hen : 0 ≤ κ.eps * norm := mul_nonneg hk.le hn0
      have h1 : fro2 (Matrix.diagonal fun j : Fin n => d j) ≤ n * (κ.eps * norm) ^ 2 := by
        refine fro2_diag fun i j => ?_
        by_cases hij : i = j
        · subst hij
          rw [if_pos rfl, Matrix.diagonal_apply_eq]
          rcases hd1 i with h1 | ⟨h1, -⟩ <;> rw [h1]
          nlinarith [sq_nonneg (κ.eps * norm)]
        · rw [if_neg fun h => hij (Fin.ext h), Matrix.diagonal_apply_ne _ hij]
          norm_num
      refine h1.trans ?_
      have hn1 : (1 : ℝ) ≤ n := by exact_mod_cast hn
      have h2 : κ.eps * norm ≤ κ.eps * (n * (N + schurErr n σ.eps N + n * κ.epsEd)) :=
        mul_le_mul_of_nonneg_left hnle hk.le
      have h3 := pow_le_pow_left₀ hen h2 2
      rw [mul_pow (n : ℝ)]
      exact mul_le_mul (by nlinarith) h3 (sq_nonneg _) (sq_nonneg _)
    · have : (fun j : Fin n => d j) = 0 := by
        funext j
        rcases hd1 j with h1 | ⟨-, h1, h2, h4⟩
        · exact h1
        · obtain ⟨g1, g2⟩ := hform.single j j.2 h4.1 h4.2
          exact (hne j h1 g2 (by rw [g1, hre, h2])).elim
      rw [this]
      simp
    · rw [hcv, hre, add_sub_cancel, ← Matrix.add_mul, ← Matrix.mul_add, hquasi]
      exact conj_vec hPP' hv
  · have hp : pr k := by
      rcases hsgn hkn with ⟨h1, -⟩ | ⟨l, hl, rfl, h1, -⟩ | ⟨-, h1⟩
      · exact h1
      · linarith
      · linarith
    obtain ⟨g1, g2, g3, g4, g5, -⟩ := hform.pair k hp
    refine ⟨g1, g4, g5, fun hne => ?_⟩
    obtain ⟨hz, hnz, hsol⟩ := hall.cplx k (Nat.zero_le _) hp fun l _ hl => hne l hl
    have hv := sol_vec g1 hsol (fun _ _ => rfl) fun i j hi hj => Eig.quasi_zero (by omega) fun hc => by
      have : j = k + 1 := by omega
      exact g2 (this ▸ hc.2)
    set ct : Fin n → ℂ := fun j => if (j : Nat) ≤ k + 1 then Eig.cx c (k + 1) j else 0 with hct
    have hcv : (fun i : Fin n => (e.vec.f k i : ℂ) + e.vec.f (k + 1) i * Complex.I) =
        ((mx n n s.p.f).map Complex.ofReal).mulVec ct := by
      funext i
      rw [hvec k i hkn i.2, hvec (k + 1) i g1 i.2, ← hmx]
      show _ = ∑ j : Fin n, (P.f i j : ℂ) * (if (j : Nat) ≤ k + 1 then Eig.cx c (k + 1) j else 0)
      rw [Fin.sum_univ_eq_sum_range (fun j => (P.f i j : ℂ) * if j ≤ k + 1 then Eig.cx c (k + 1) j else 0) n,
        ← sum_subset (range_subset_range.2 (show k + 1 + 1 ≤ n by omega)) fun j _ hj => by
          rw [if_neg (by simp only [mem_range] at hj; omega), mul_zero]]
      have e2 : ∑ j ∈ range (k + 1), P.f i j * c j k = ∑ j ∈ range (k + 1 + 1), P.f i j * c j k := by
        rw [sum_range_succ _ (k + 1), show c (k + 1) k = 0 from hz, mul_zero, add_zero]
      rw [e2]
      push_cast
      rw [sum_mul, ← sum_add_distrib]
      refine sum_congr rfl fun j hj => ?_
      rw [if_pos (by simp only [mem_range] at hj; omega)]
      unfold Eig.cx
      rw [Nat.add_sub_cancel]
      ring
    have e1 : ∀ B : Matrix (Fin n) (Fin n) ℝ, B.map Complex.ofReal = B.map Complex.ofRealHom := fun _ => rfl
    have hPc : ((mx n n s.p.f)ᵀ.map Complex.ofReal) * (mx n n s.p.f).map Complex.ofReal = 1 := by
      rw [e1, e1, ← Matrix.map_mul, hPP', Matrix.map_one _ (map_zero _) (map_one _)]
    rw [hcv]
    refine ⟨image_ne hPc fun hc => hnz ?_, ?_⟩
    · have := congrFun hc ⟨k + 1, g1⟩
      rw [hct, Pi.zero_apply] at this
      dsimp only at this
      rw [if_pos (le_refl (k + 1))] at this
      have h2 := congrArg Complex.im this
      unfold Eig.cx at h2
      simpa using h2
    · rw [add_sub_cancel, hquasi, e1, Matrix.map_mul, Matrix.map_mul, ← e1, ← e1, ← e1]
      refine conj_vec hPc ?_
      have e3 : (mx n n (Eig.quasi pr T.f)).map Complex.ofReal = mx n n (Eig.quasi pr (Eig.cT T.f)) := by
        ext i j
        show ((Eig.quasi pr T.f i j : ℝ) : ℂ) = Eig.quasi pr (Eig.cT T.f) i j
        unfold Eig.quasi Eig.cT
        split_ifs <;> simp
      have e4 : (Matrix.diagonal fun _ : Fin n => (0 : ℂ)) = 0 := Matrix.diagonal_zero
      change (_ + Matrix.diagonal fun _ : Fin n => (0 : ℂ)).mulVec _ = _ at hv
      rw [e4, add_zero] at hv
      rw [e3, hv]
      congr 1
      push_cast
      ring

/-- **C86.** When no eigenvalue occurs twice, `(A + E) V = V D` with the matrices `V` and `D` of the result. -/
theorem C86_product (σ : Schur.Lit ℝ) (hσ : 0 < σ.eps) (κ : Eig.Lit ℝ) (hκ : 0 ≤ κ.epsEd) (hh : κ.half = 1 / 2)
    (hk : 0 < κ.eps) (hdiv : DividesC κ.cdiv)
    {a : Mat ℝ n n} (ha : a.own) (hn : 0 < n) {A : Nat → Nat → ℝ} (hA : Shows a.at n n A) (hA0 : mx n n A ≠ 0)
    {N : ℝ} (hN : 0 ≤ N) (hAN : fro2 (mx n n A) ≤ N ^ 2) (hd : schurDrop n σ.eps N ≤ κ.epsEd)
    {fuel : Nat} {e : Eig ℝ n} (h : Eig.newGen σ κ fuel a = .ok (some e))
    (hgap : ∀ i, i < n → 0 < e.im.f i → κ.epsEd < e.im.f i)
    (hne : ∀ i j, i < n → j < n → e.re.f i = e.re.f j → e.im.f i = e.im.f j → i = j) :
    ∃ (mv md : Mat ℝ n n) (V D : Nat → Nat → ℝ) (E : Matrix (Fin n) (Fin n) ℝ),
      e.v = .ok ⟨n, n, mv⟩ ∧ Shows mv.at n n V ∧ e.dMat κ.epsEd = .ok ⟨n, n, md⟩ ∧ Shows md.at n n D ∧
      fro2 E ≤ (schurErr n σ.eps N + n * κ.epsEd) ^ 2 ∧ (∀ k, k < n → (fun i : Fin n => V i k) ≠ 0) ∧
      (mx n n A + E) * mx n n V = mx n n V * mx n n D := by
  obtain ⟨mv, V, E, h1, h2, h3, h4, h5, h6⟩ := C86_vectors σ hσ κ hκ hh hk hdiv ha hn hA hA0 hN hAN hd h hgap
  obtain ⟨md, h7, -, h8⟩ := C64_general σ κ hκ hh ha hn h
  -- the columns of a pair, in real numbers
  have hpair : ∀ k, k < n → 0 < e.im.f k → k + 1 < n ∧ e.im.f (k + 1) = -e.im.f k ∧ e.re.f (k + 1) = e.re.f k ∧
      (fun i : Fin n => V i k) ≠ 0 ∧ (fun i : Fin n => V i (k + 1)) ≠ 0 ∧
      (∀ i : Fin n, ((mx n n A + E) *ᵥ fun i : Fin n => V i k) i = e.re.f k * V i k - e.im.f k * V i (k + 1)) ∧
      (∀ i : Fin n, ((mx n n A + E) *ᵥ fun i : Fin n => V i (k + 1)) i =
        e.im.f k * V i k + e.re.f k * V i (k + 1)) := by
    intro k hk h0
    obtain ⟨g1, g2, g3, g4⟩ := h6 k hk h0
    obtain ⟨g5, g6⟩ := g4 fun l hl hc => by
      have := hne l k (by omega) hk hc.1 hc.2
      omega
    have hmv : ∀ i : Fin n, (((mx n n A + E).map Complex.ofReal) *ᵥ
        fun i : Fin n => (V i k : ℂ) + V i (k + 1) * Complex.I) i =
        (((mx n n A + E) *ᵥ fun i : Fin n => V i k) i : ℝ) +
          (((mx n n A + E) *ᵥ fun i : Fin n => V i (k + 1)) i : ℝ) * Complex.I := by
      intro i
      show ∑ j : Fin n, (((mx n n A + E) i j : ℝ) : ℂ) * ((V j k : ℂ) + V j (k + 1) * Complex.I) =
        ((∑ j : Fin n, (mx n n A + E) i j * V j k : ℝ) : ℂ) +
          ((∑ j : Fin n, (mx n n A + E) i j * V j (k + 1) : ℝ) : ℂ) * Complex.I
      push_cast
      rw [sum_mul, ← sum_add_distrib]
      exact sum_congr rfl fun j _ => by ring
    have hri : ∀ i : Fin n,
        ((mx n n A + E) *ᵥ fun i : Fin n => V i k) i = e.re.f k * V i k - e.im.f k * V i (k + 1) ∧
        ((mx n n A + E) *ᵥ fun i : Fin n => V i (k + 1)) i = e.im.f k * V i k + e.re.f k * V i (k + 1) := by
      intro i
      have h := congrFun g6 i
      rw [hmv i] at h
      generalize ((mx n n A + E) *ᵥ fun i : Fin n => V i k) i = x at h ⊢
      generalize ((mx n n A + E) *ᵥ fun i : Fin n => V i (k + 1)) i = y at h ⊢
      have h1 := congrArg Complex.re h
      have h2 := congrArg Complex.im h
      simp [smul_eq_mul] at h1 h2
      exact ⟨by linarith, by linarith⟩
    refine ⟨g1, g3, g2, fun hc => g5 ?_, fun hc => g5 ?_, fun i => (hri i).1, fun i => (hri i).2⟩
    · funext i
      have h := (hri i).1
      have hi : V i k = 0 := congrFun hc i
      rw [hc, Matrix.mulVec_zero, Pi.zero_apply, hi] at h
      have : V i (k + 1) = 0 := by
        have h' : e.im.f k * V i (k + 1) = 0 := by linarith
        exact (mul_eq_zero.1 h').resolve_left h0.ne'
      rw [hi, this]
      simp
    · funext i
      have h := (hri i).2
      have hi : V i (k + 1) = 0 := congrFun hc i
      rw [hc, Matrix.mulVec_zero, Pi.zero_apply, hi] at h
      have : V i k = 0 := by
        have h' : e.im.f k * V i k = 0 := by linarith
        exact (mul_eq_zero.1 h').resolve_left h0.ne'
      rw [hi, this]
      simp
  have hcol : ∀ k, k < n → e.im.f k = 0 ∨ 0 < e.im.f k ∨ ∃ l, k = l + 1 ∧ 0 < e.im.f l := by
    intro k hk
    rcases lt_trichotomy (e.im.f k) 0 with h | h | h
    · obtain ⟨g1, g2⟩ := h4 k hk h
      exact .inr (.inr ⟨k - 1, by omega, g2⟩)
    · exact .inl h
    · exact .inr (.inl h)
  refine ⟨mv, md, V, _, E, h1, h2, h7, h8, h3, fun k hk => ?_, ?_⟩
  · rcases hcol k hk with h0 | h0 | ⟨l, rfl, h0⟩
    · exact (h5 k hk h0).1
    · exact (hpair k hk h0).2.2.2.1
    · exact (hpair l (by omega) h0).2.2.2.2.1
  · ext i k
    show ((mx n n A + E) *ᵥ fun i : Fin n => V i k) i = ∑ j : Fin n, V i j *
      (if (j : Nat) = k then e.re.f j else if (k : Nat) = j + 1 ∧ κ.epsEd < e.im.f j then e.im.f j
        else if (k : Nat) + 1 = j ∧ e.im.f j < -κ.epsEd then e.im.f j else 0)
    have hk := k.2
    rcases hcol k hk with h0 | h0 | ⟨l, hl, h0⟩
    · obtain ⟨-, F, -, hF, h9⟩ := h5 k hk h0
      rw [hF fun l hl h0' hc => absurd (hne l k (by omega) hk hc (by rw [h0, h0'])) (by omega), add_zero] at h9
      rw [h9, sum_eq_single k]
      · rw [if_pos rfl, Pi.smul_apply, smul_eq_mul, mul_comm]
      · intro j _ hj
        rw [if_neg fun hc => hj (Fin.ext hc), if_neg, if_neg, mul_zero]
        · rintro ⟨g1, g2⟩
          obtain ⟨g3, g4⟩ := h4 j j.2 (by linarith)
          rw [show (j : Nat) - 1 = k by omega] at g4
          linarith
        · rintro ⟨g1, g2⟩
          obtain ⟨g3, g4, -⟩ := hpair j j.2 (by linarith)
          rw [← g1, h0] at g4
          linarith
      · simp
    · obtain ⟨g1, g2, g3, -, -, g4, -⟩ := hpair k hk h0
      have hki : (⟨k + 1, g1⟩ : Fin n) ≠ k := fun h => by simpa using congrArg Fin.val h
      rw [g4 i, sum_eq_add (⟨k, hk⟩ : Fin n) (⟨k + 1, g1⟩ : Fin n) (fun h => hki h.symm)]
      · rw [if_pos rfl, if_neg (by simp), if_neg (by simp; omega), if_pos ⟨rfl, by rw [g2]; linarith [hgap k hk h0]⟩, g2]
        ring
      · rintro j - ⟨hj1, hj2⟩
        have hj1' : (j : Nat) ≠ k := fun h => hj1 (Fin.ext h)
        have hj2' : (j : Nat) ≠ k + 1 := fun h => hj2 (Fin.ext h)
        rw [if_neg hj1', if_neg, if_neg, mul_zero]
        · rintro ⟨g5, -⟩
          omega
        · rintro ⟨g5, g6⟩
          obtain ⟨-, g7, -⟩ := hpair j j.2 (by linarith)
          rw [← g5] at g7
          linarith
      · simp
      · simp
    · obtain ⟨g1, g2, g3, -, -, -, g4⟩ := hpair l (by omega) h0
      have hlk : (⟨l, by omega⟩ : Fin n) ≠ k := fun h => by
        have := congrArg Fin.val h
        dsimp only at this
        omega
      have hV : (fun i : Fin n => V i k) = fun i : Fin n => V i (l + 1) := by rw [hl]
      rw [hV, g4 i, sum_eq_add (⟨l, by omega⟩ : Fin n) k hlk]
      · rw [if_neg (by dsimp only; omega), if_pos ⟨hl, hgap l (by omega) h0⟩, if_pos rfl]
        dsimp only
        rw [hl, g3]
        ring
      · rintro j - ⟨hj1, hj2⟩
        have hj1' : (j : Nat) ≠ l := fun h => hj1 (Fin.ext h)
        have hj2' : (j : Nat) ≠ k := fun h => hj2 (Fin.ext h)
        rw [if_neg hj2', if_neg, if_neg, mul_zero]
        · rintro ⟨g5, g6⟩
          obtain ⟨g7, g8⟩ := h4 j j.2 (by linarith)
          rw [show (j : Nat) - 1 = l + 1 by omega, g2] at g8
          linarith
        · rintro ⟨g5, g6⟩
          omega
      · simp
      · simp

/-- **C87, the part that holds.** The residual of a real eigenvalue and its column is small against the column: with the
hypotheses of `C86_vectors`, `|A v - λ v| ≤ (schurErr + n · epsEd + n · eps · n · (N + schurErr + n · epsEd)) |v|`. Missing:
results with a positive imaginary part of at most `epsEd`, for which the claim is false (`C87_residual_false`). -/
theorem C87_residual_partial (σ : Schur.Lit ℝ) (hσ : 0 < σ.eps) (κ : Eig.Lit ℝ) (hκ : 0 ≤ κ.epsEd)
    (hh : κ.half = 1 / 2) (hk : 0 < κ.eps) (hdiv : DividesC κ.cdiv)
    {a : Mat ℝ n n} (ha : a.own) (hn : 0 < n) {A : Nat → Nat → ℝ} (hA : Shows a.at n n A) (hA0 : mx n n A ≠ 0)
    {N : ℝ} (hN : 0 ≤ N) (hAN : fro2 (mx n n A) ≤ N ^ 2) (hd : schurDrop n σ.eps N ≤ κ.epsEd)
    {fuel : Nat} {e : Eig ℝ n} (h : Eig.newGen σ κ fuel a = .ok (some e))
    (hgap : ∀ i, i < n → 0 < e.im.f i → κ.epsEd < e.im.f i) :
    ∃ (mv : Mat ℝ n n) (V : Nat → Nat → ℝ), e.v = .ok ⟨n, n, mv⟩ ∧ Shows mv.at n n V ∧
      ∀ k, k < n → e.im.f k = 0 → 0 < ∑ i ∈ range n, V i k ^ 2 ∧
        ∑ i ∈ range n, (∑ j ∈ range n, A i j * V j k - e.re.f k * V i k) ^ 2 ≤
          (schurErr n σ.eps N + n * κ.epsEd +
            n * (κ.eps * (n * (N + schurErr n σ.eps N + n * κ.epsEd)))) ^ 2 * ∑ i ∈ range n, V i k ^ 2 := by
  obtain ⟨mv, V, E, h1, h2, h3, -, h5, -⟩ := C86_vectors σ hσ κ hκ hh hk hdiv ha hn hA hA0 hN hAN hd h hgap
  refine ⟨mv, V, h1, h2, fun k hkn h0 => ?_⟩
  obtain ⟨g1, F, g2, -, g4⟩ := h5 k hkn h0
  have hB1 : 0 ≤ schurErr n σ.eps N + n * κ.epsEd :=
    add_nonneg (schurErr_nonneg (n := n) hσ.le hN) (mul_nonneg (Nat.cast_nonneg n) hκ)
  have hB2 : 0 ≤ n * (κ.eps * (n * (N + schurErr n σ.eps N + n * κ.epsEd))) := by
    rw [add_assoc]
    exact mul_nonneg (Nat.cast_nonneg n) (mul_nonneg hk.le (mul_nonneg (Nat.cast_nonneg n) (add_nonneg hN hB1)))
  constructor
  · rw [← Fin.sum_univ_eq_sum_range (fun i => V i k ^ 2)]
    obtain ⟨i, hi⟩ := Function.ne_iff.1 g1
    exact sum_pos' (fun _ _ => sq_nonneg _) ⟨i, mem_univ i, by
      have : V i k ≠ 0 := hi
      positivity⟩
  · rw [← Fin.sum_univ_eq_sum_range (fun i => V i k ^ 2),
      ← Fin.sum_univ_eq_sum_range (fun i => (∑ j ∈ range n, A i j * V j k - e.re.f k * V i k) ^ 2)]
    have hres : ∀ i : Fin n, ∑ j ∈ range n, A i j * V j k - e.re.f k * V i k =
        -∑ j : Fin n, (E + F) i j * V j k := by
      intro i
      have h := congrFun g4 i
      rw [add_assoc, Matrix.add_mulVec, Pi.add_apply, Pi.smul_apply, smul_eq_mul] at h
      rw [← Fin.sum_univ_eq_sum_range (fun j => A i j * V j k)]
      change ∑ j : Fin n, A i j * V j k + ∑ j : Fin n, (E + F) i j * V j k = _ at h
      linarith
    calc ∑ i : Fin n, (∑ j ∈ range n, A i j * V j k - e.re.f k * V i k) ^ 2
        = ∑ i : Fin n, (∑ j : Fin n, (E + F) i j * V j k) ^ 2 :=
          sum_congr rfl fun i _ => by rw [hres i, neg_sq]
      _ ≤ ∑ i : Fin n, (∑ j : Fin n, (E + F) i j ^ 2) * ∑ j : Fin n, V j k ^ 2 :=
          sum_le_sum fun i _ => sum_mul_sq_le_sq_mul_sq _ _ _
      _ = fro2 (E + F) * ∑ j : Fin n, V j k ^ 2 := by rw [← sum_mul]; rfl
      _ ≤ _ := mul_le_mul_of_nonneg_right (fro2_add hB1 hB2 h3 g2) (sum_nonneg fun _ _ => sq_nonneg _)

/-- The eigenvalues of this matrix are `1 ± 1e-13 i` and 2. -/
def Spec.eigTiny : Mat ℚ 3 3 :=
  .arr ⟨⟨fun i j => if i = 0 ∧ j = 1 then -1 / 10 ^ 15 else if i = 1 ∧ j = 0 then 1 / 10 ^ 11
    else if i = 1 ∧ j = 2 then 1 else if i = j then (if i = 2 then 2 else 1) else 0⟩, fun _ => 0⟩

/-- **C87, code and documentation disagree.** Pairs are found by the size of the entry below the diagonal, but in the
search for real vectors by the size of the imaginary part. With the literals of the code the matrix
`[[1, -1e-15, 0], [1e-11, 1, 1], [0, 0, 2]]` gets the eigenvalue 2 with the column `(0, 0, -1)`: the residual is as large
as the column. -/
theorem C87_residual_false : ∃ s, Eig.new codeLit codeEigLit (90 / 2 ^ 53) 303 eigTiny = .ok (some s) ∧
    s.re.toList = [1, 1, 2] ∧ s.im.toList = [1 / 10 ^ 13, -1 / 10 ^ 13, 0] ∧ s.vector' 2 = [0, 0, -1] ∧
    ∑ i ∈ range 3, (∑ j ∈ range 3, eigTiny.ent i j * s.vec.f 2 j - s.re.f 2 * s.vec.f 2 i) ^ 2 =
      ∑ i ∈ range 3, s.vec.f 2 i ^ 2 := by
  have h : (Eig.new codeLit codeEigLit (90 / 2 ^ 53) 303 eigTiny).toOption.map (·.map (fun s =>
      (s.re.toList, s.im.toList, s.vector' 2))) =
      some (some ([1, 1, 2], [1 / 10 ^ 13, -1 / 10 ^ 13, 0], [0, 0, -1])) := by decide +kernel
  cases e : Eig.new codeLit codeEigLit (90 / 2 ^ 53) 303 eigTiny with
  | error x => rw [e] at h; cases h
  | ok o =>
    cases o with
    | none => rw [e] at h; cases h
    | some s =>
      rw [e] at h
      have h' : (s.re.toList, s.im.toList, s.vector' 2) =
        ([1, 1, 2], [1 / 10 ^ 13, -1 / 10 ^ 13, 0], [0, 0, -1]) := Option.some.inj (Option.some.inj h)
      obtain ⟨h1, h2⟩ := Prod.mk.inj h'
      obtain ⟨h2, h3⟩ := Prod.mk.inj h2
      refine ⟨s, rfl, h1, h2, h3, ?_⟩
      have h4 : s.re.f 2 = 2 := by
        have := congrArg (·[2]?) h1
        simpa [Row.toList] using this
      have h5 : s.vec.f 2 0 = 0 ∧ s.vec.f 2 1 = 0 ∧ s.vec.f 2 2 = -1 := by
        simpa [Eig.vector', List.range_succ] using h3
      obtain ⟨g1, g2, g3⟩ := h5
      simp only [sum_range_succ, sum_range_zero, h4, g1, g2, g3, Mat.ent, eigTiny]
      norm_num

/-! ## A case that meets the hypotheses -/

set_option maxHeartbeats 1600000 in
open Polynomial in
/-- With the tolerances of the code and a matrix with two complex eigenvalues. -/
example (σ : Schur.Lit ℝ) (hσ : σ.eps = 1 / 2 ^ 53) (κ : Eig.Lit ℝ) (hκ : κ.epsEd = 1 / 10 ^ 12)
    (hh : κ.half = 1 / 2) (hk : κ.eps = 1 / 2 ^ 53)
    (hdiv : κ.cdiv = fun x y => ((x.1 * y.1 + x.2 * y.2) / (y.1 * y.1 + y.2 * y.2),
      (x.2 * y.1 - x.1 * y.2) / (y.1 * y.1 + y.2 * y.2))) :
    ∃ (e : Eig ℝ 2) (mv md : Mat ℝ 2 2) (V D : Nat → Nat → ℝ) (E : Matrix (Fin 2) (Fin 2) ℝ),
      Eig.newGen σ κ 202 eigSpin = .ok (some e) ∧ 2 < |e.im.f 0| ∧
      e.v = .ok ⟨2, 2, mv⟩ ∧ Shows mv.at 2 2 V ∧ e.dMat κ.epsEd = .ok ⟨2, 2, md⟩ ∧ Shows md.at 2 2 D ∧
      fro2 E ≤ (1 / 10 ^ 10) ^ 2 ∧ (mx 2 2 eigSpin.ent + E) * mx 2 2 V = mx 2 2 V * mx 2 2 D := by
  have hA := Mat.at_shows eigSpin
  have ht : (mx 2 2 eigSpin.ent).trace = 2 := by
    rw [Matrix.trace_fin_two]
    simp only [mx, Mat.ent, eigSpin]
    norm_num
  have hσ0 : 0 < σ.eps := by rw [hσ]; norm_num
  have hκ0 : 0 ≤ κ.epsEd := by rw [hκ]; norm_num
  have hA0 : mx 2 2 eigSpin.ent ≠ 0 := fun h => by
    rw [h, Matrix.trace_zero] at ht
    norm_num at ht
  have hA4 : fro2 (mx 2 2 eigSpin.ent) ≤ 4 ^ 2 := by
    simp [fro2, mx, Mat.ent, eigSpin, Fin.sum_univ_two]
    norm_num
  have hdrop : schurDrop 2 σ.eps 4 ≤ κ.epsEd := by
    rw [hσ, hκ]
    unfold schurDrop schurErr
    norm_num
  have hsmall : (schurErr 2 σ.eps 4 + (2 : Nat) * κ.epsEd) ^ 2 ≤ (1 / 10 ^ 10) ^ 2 := by
    rw [hσ, hκ]
    unfold schurErr
    norm_num
  obtain ⟨e, he⟩ := C76_small σ hσ0 κ hκ0 (show eigSpin.own from trivial) (by omega) (by omega) hA
    (by rw [ht, hκ]; norm_num) (show 2 ≤ 202 by omega)
  -- the imaginary parts, by way of the characteristic polynomial
  have him : e.im.f 1 = -e.im.f 0 ∧ 4 < e.im.f 0 ^ 2 := by
    obtain ⟨E, h1, h2⟩ := C79_spectrum σ hσ0 κ hκ0 hh (show eigSpin.own from trivial) (by omega) hA hA0
      (by norm_num) hA4 hdrop he
    obtain ⟨s, pr, -, hr⟩ := C76_reads σ κ hκ0 hh (show eigSpin.own from trivial) (by omega) he
    have hEs : ∀ i j, |E i j| ≤ 1 / 10 ^ 10 := fun i j =>
      abs_le_of_sq_le_sq ((fro2_entry E i j).trans (h1.trans hsmall)) (by norm_num)
    have hc : ∀ z : ℂ, z ^ 2 - ((2 + E 0 0 + E 1 1 : ℝ) : ℂ) * z +
        (((1 + E 0 0) * (1 + E 1 1) - (-2 + E 0 1) * (3 + E 1 0) : ℝ) : ℂ) =
        (z - ((e.re.f 0 : ℂ) + e.im.f 0 * Complex.I)) * (z - ((e.re.f 1 : ℂ) + e.im.f 1 * Complex.I)) := by
      intro z
      have := congrArg (Polynomial.eval z) h2
      rw [Matrix.charpoly_fin_two, Fin.prod_univ_two, Matrix.trace_fin_two, Matrix.det_fin_two] at this
      simp [mx, Mat.ent, eigSpin] at this
      push_cast
      rw [← this]
      ring
    have c0 := hc 0
    have c1 := hc 1
    have r0 := congrArg Complex.re c0
    have r1 := congrArg Complex.re c1
    have i1 := congrArg Complex.im c1
    have i0 := congrArg Complex.im c0
    simp at r0 r1 i0 i1
    have b00 := abs_le.1 (hEs 0 0)
    have b01 := abs_le.1 (hEs 0 1)
    have b10 := abs_le.1 (hEs 1 0)
    have b11 := abs_le.1 (hEs 1 1)
    generalize E 0 0 = x at *
    generalize E 0 1 = y at *
    generalize E 1 0 = z at *
    generalize E 1 1 = w at *
    have hdet : 11 / 2 ≤ (1 + x) * (1 + w) - (-2 + y) * (3 + z) := by
      nlinarith [mul_nonneg (show 0 ≤ x + 1 / 10 ^ 10 by linarith) (show 0 ≤ w + 1 / 10 ^ 10 by linarith),
        mul_nonneg (show 0 ≤ 1 / 10 ^ 10 - y by linarith) (show 0 ≤ z + 1 / 10 ^ 10 by linarith)]
    have htr : |2 + x + w| ≤ 9 / 4 := by
      rw [abs_le]
      constructor <;> linarith
    have htr2 : (2 + x + w) ^ 2 ≤ (9 / 4) ^ 2 := sq_le_sq' (abs_le.1 htr).1 (abs_le.1 htr).2
    by_cases hp : pr 0
    · obtain ⟨-, -, -, -, -, g1, g2⟩ := hr.pair 0 hp
      rw [Nat.zero_add] at g1 g2
      refine ⟨g2, ?_⟩
      rw [g1, g2] at r0 r1
      have h3 : 2 + x + w = 2 * e.re.f 0 := by linarith
      rw [h3] at htr2
      nlinarith
    · exfalso
      have hp1 : ¬ pr 1 := fun h => by
        have := (hr.pair 1 h).1
        omega
      have g0 := (hr.single 0 (by omega) hp fun l _ => by omega).2.1
      have g1 := (hr.single 1 (by omega) hp1 fun l hl hc => by
        obtain rfl : l = 0 := by omega
        exact hp hl).2.1
      rw [g0, g1] at r0 r1
      have h3 : 2 + x + w = e.re.f 0 + e.re.f 1 := by linarith
      rw [h3] at htr2
      nlinarith [sq_nonneg (e.re.f 0 - e.re.f 1)]
  have hbig : ∀ i, i < 2 → 0 < e.im.f i → κ.epsEd < e.im.f i := by
    intro i hi h0
    rw [hκ]
    have h4 : 4 < e.im.f i ^ 2 := by
      rcases (by omega : i = 0 ∨ i = 1) with rfl | rfl
      · exact him.2
      · rw [him.1, neg_sq]
        exact him.2
    nlinarith
  obtain ⟨mv, md, V, D, E, h1, h2, h3, h4, h5, -, h7⟩ := C86_product σ hσ0 κ hκ0 hh (by rw [hk]; norm_num)
    (by
      intro x y hy
      rw [hdiv]
      have hyc : ((y.1 * y.1 + y.2 * y.2 : ℝ) : ℂ) = (y.1 + y.2 * Complex.I) * (y.1 - y.2 * Complex.I) := by
        push_cast
        linear_combination (y.2 : ℂ) * y.2 * Complex.I_mul_I
      have hne : ((y.1 * y.1 + y.2 * y.2 : ℝ) : ℂ) ≠ 0 := by
        have : y.1 * y.1 + y.2 * y.2 ≠ 0 := fun h => hy (by
          have h1 : y.1 = 0 := by nlinarith [mul_self_nonneg y.1, mul_self_nonneg y.2]
          have h2 : y.2 = 0 := by nlinarith [mul_self_nonneg y.1, mul_self_nonneg y.2]
          rw [h1, h2]
          simp)
        exact_mod_cast this
      rw [eq_div_iff hy]
      dsimp only
      rw [Complex.ofReal_div, Complex.ofReal_div]
      generalize ((y.1 * y.1 + y.2 * y.2 : ℝ) : ℂ) = q at *
      field_simp
      push_cast
      rw [hyc]
      linear_combination ((y.1 : ℂ) * x.2 * y.2 + (x.2 : ℂ) * y.2 ^ 2 * Complex.I) * Complex.I_mul_I)
    (show eigSpin.own from trivial) (by omega) hA hA0 (by norm_num) hA4 hdrop he hbig
    (by
      intro i j hi hj _ h
      by_contra hc
      have h0 : e.im.f 0 = 0 := by
        rcases (by omega : i = 0 ∧ j = 1 ∨ i = 1 ∧ j = 0) with ⟨rfl, rfl⟩ | ⟨rfl, rfl⟩ <;> linarith [him.1]
      have := him.2
      rw [h0] at this
      norm_num at this)
  exact ⟨e, mv, md, V, D, E, he, lt_of_pow_lt_pow_left₀ 2 (abs_nonneg _) (by
    rw [sq_abs]
    linarith [him.2]), h1, h2, h3, h4, h5.trans hsmall, h7⟩

end Linear
