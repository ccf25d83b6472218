import Verif.Lemmas.SchurErr3
import Verif.Lemmas.EigVec
import Verif.Props.EigenGen

/-!
# C78, C79: how far the Schur form and the eigenvalues are from the matrix
-/

set_option linter.unusedSectionVars false

namespace Linear

open Spec Finset Matrix

namespace Spec

variable {K : Type} [Field K] [LinearOrder K]

/-- A real Schur form: zero below the first sub-diagonal, 1 × 1 and 2 × 2 blocks on the diagonal, and every 2 × 2 block
has a negative discriminant (its two eigenvalues are complex and conjugate). -/
structure RealSchur (n : Nat) (V : Nat → Nat → K) : Prop where
  low : ∀ i j, i < n → j + 1 < i → V i j = 0
  block : ∀ k, k + 1 < n → V (k + 1) k ≠ 0 →
    ((V k k - V (k + 1) (k + 1)) / 2) ^ 2 + V (k + 1) k * V k (k + 1) < 0
  apart : ∀ k, k + 2 < n → V (k + 1) k ≠ 0 → V (k + 2) (k + 1) = 0

/-- The bound on the backward error of an `n × n` Schur form, for a matrix of Frobenius norm at most `N` and the
relative tolerance `eps`. -/
def schurErr (n : Nat) (eps N : K) : K := (N + 1) * ((1 + (8 * n + 24) * eps) ^ (101 * n) - 1)

/-- The bound on an entry that the code takes for zero. -/
def schurDrop (n : Nat) (eps N : K) : K := eps * ((n + 4) * (N + schurErr n eps N))

end Spec

section exact

variable {K : Type} [Field K] [LinearOrder K] [IsStrictOrderedRing K] [Flt K] [Exact K] [ExactSqrt K] {n : Nat}

private theorem err_eq (eps N : K) : Schur.err n (101 * n) eps N = schurErr n eps N := by
  unfold Schur.err schurErr
  ring

theorem Spec.schurErr_nonneg {eps N : K} (he : 0 ≤ eps) (hN : 0 ≤ N) : 0 ≤ schurErr n eps N := by
  rw [← err_eq]
  have := Schur.err_mono (n := n) he hN (Nat.zero_le (101 * n))
  rwa [show Schur.err n 0 eps N = 0 by unfold Schur.err; ring] at this

theorem Spec.schurDrop_nonneg {eps N : K} (he : 0 ≤ eps) (hN : 0 ≤ N) : 0 ≤ schurDrop n eps N := by
  have := schurErr_nonneg (n := n) he hN
  unfold schurDrop
  positivity

private theorem new_rep (κ : Schur.Lit K) (hκ : 0 < κ.eps) {a : Mat K n n} (ha : a.own) (hn : 0 < n)
    {A : Nat → Nat → K} (hA : Shows a.at n n A) (hA0 : mx n n A ≠ 0) {N : K} (hN : 0 ≤ N)
    (hAN : fro2 (mx n n A) ≤ N ^ 2) {fuel : Nat} {s : Schur K n} (h : Schur.new κ fuel a = .ok (some s)) :
    ∃ W br, Schur.Rep (mx n n A) (schurErr n κ.eps N) s.p.f W ∧
      Schur.Virt n 0 (schurDrop n κ.eps N) s.t.f W br := by
  obtain ⟨s0, norm, s1, mp, e0, en, h1, ep, hP1, h2⟩ := Schur.new_ok κ ha hn
  obtain ⟨s0', e0', mp', mpt', mh', P, H, ep', -, eh', -, -, -, hP, -, hH, hprod, hPo, hPo', hUH⟩ :=
    C39_factors ha hn hA
  rw [e0] at e0'
  cases e0'
  rw [ep] at ep'
  cases ep'
  obtain ⟨mh, eh, -, hh⟩ := Hess.h_ok hn s0
  rw [eh] at eh'
  cases eh'
  have hPP : mx n n s1.p.f = mx n n P := mx_congr fun i j hi hj => hP1.unique hP hi hj
  have hHH : mx n n s1.t.f = mx n n H := mx_congr fun i j hi hj => by
    rw [h1 i j hi hj]
    exact hh.unique hH hi hj
  have hnorm : 0 < norm := by
    by_contra hneg
    refine hA0 ?_
    have hz : mx n n H = 0 := by
      rw [← hHH]
      ext i j
      show s1.t.f i j = 0
      by_contra hc
      by_cases hij : (i : Nat) ≤ j + 1
      · exact hneg (Schur.norm_pos en i.2 j.2 hij hc)
      · exact hc (by rw [h1 i j i.2 j.2, Hess.hEnt, if_neg hij, Exact.zero_eq])
    rw [← hprod, hz, Matrix.mul_zero, Matrix.zero_mul]
  have hfro : fro2 (mx n n s1.t.f) ≤ N ^ 2 := by
    rw [hHH, ← fro2_conj (mx n n H) hPo, hprod]
    exact hAN
  rw [h2] at h
  have := Schur.loop_rep κ hκ hN hAN hnorm (Schur.norm_le en hN hfro)
    (s := s1) ⟨by rw [hPP]; exact hPo, by rw [hPP, hHH, hprod, sub_self]; simp [fro2], le_refl _⟩
    (fun i j hi hj => by rw [h1 i j hi (by omega), Hess.hEnt, if_neg (by omega), Exact.zero_eq]) h
  rw [err_eq] at this
  exact this

/-- **C78.** The Schur form is exact for a matrix near `A`. For a matrix that is not zero, of Frobenius norm at most `N`:
the `P` of a result is orthogonal; the `T` of a result, with some entries just below its diagonal of size at most
`schurDrop` set to zero, is a real Schur form `V`; and `P V Pᵀ` differs from `A` by at most `schurErr` in Frobenius norm. -/
theorem C78_backward (κ : Schur.Lit K) (hκ : 0 < κ.eps) {a : Mat K n n} (ha : a.own) (hn : 0 < n)
    {A : Nat → Nat → K} (hA : Shows a.at n n A) (hA0 : mx n n A ≠ 0) {N : K} (hN : 0 ≤ N)
    (hAN : fro2 (mx n n A) ≤ N ^ 2) {fuel : Nat} {s : Schur K n} (h : Schur.new κ fuel a = .ok (some s)) :
    ∃ (mp mt : Mat K n n) (P T V : Nat → Nat → K),
      s.pMat = .ok ⟨n, n, mp⟩ ∧ s.tMat = .ok ⟨n, n, mt⟩ ∧ Shows mp.at n n P ∧ Shows mt.at n n T ∧
      mx n n P * (mx n n P)ᵀ = 1 ∧ RealSchur n V ∧
      (∀ i j, i < n → j < n →
        V i j = T i j ∨ (i = j + 1 ∧ V i j = 0 ∧ |T i j| ≤ schurDrop n κ.eps N)) ∧
      fro2 (mx n n P * mx n n V * (mx n n P)ᵀ - mx n n A) ≤ schurErr n κ.eps N ^ 2 := by
  obtain ⟨W, br, hR, hV⟩ := new_rep κ hκ ha hn hA hA0 hN hAN h
  obtain ⟨mp, ep, -, hp⟩ := SMat.fromSlices_dense (Jag.toLists_rect s.p) hn hn false
  obtain ⟨mt, et, -, ht⟩ := SMat.fromSlices_dense (Jag.toLists_rect s.t) hn hn false
  obtain ⟨mt', et', h0⟩ := C63_shape κ ha hn h
  have et2 : s.tMat = .ok ⟨n, n, mt⟩ := by unfold Schur.tMat; rw [et]; rfl
  rw [et2] at et'
  cases et'
  have hlow : ∀ i j, i < n → j + 1 < i → s.t.f i j = 0 := by
    intro i j hi hj
    have h1 := h0 i j hi hj
    rw [ht.ok hi (by omega), Exact.zero_eq] at h1
    exact Except.ok.inj h1
  have hbr : ∀ k, k + 1 < n → W (k + 1) k ≠ 0 → br k := by
    intro k hk hw
    by_contra hb
    exact hw (hV.drop k hk (Nat.zero_le _) hb).1
  refine ⟨mp, mt, s.p.f, s.t.f, W, by unfold Schur.pMat; rw [ep]; rfl, et2, hp, ht, hR.orth,
    ⟨hV.low, fun k hk hw => ?_, fun k hk hw => ?_⟩, fun i j hi hj => ?_, hR.near⟩
  · obtain ⟨-, -, -, g4, g5⟩ := hV.block k (hbr k hk hw)
    rw [g4, hV.same k k (by omega) (by omega) (by omega), hV.same (k + 1) (k + 1) (by omega) (by omega) (by omega),
      hV.same k (k + 1) (by omega) (by omega) (by omega)]
    exact g5
  · obtain ⟨-, -, g3, -⟩ := hV.block k (hbr k (by omega) hw)
    exact (hV.drop (k + 1) hk (Nat.zero_le _) g3).1
  · by_cases hij : i ≤ j
    · exact .inl (hV.same i j hi hj (.inl hij))
    · by_cases hij' : i = j + 1
      · subst hij'
        by_cases hb : br j
        · exact .inl (hV.block j hb).2.2.2.1
        · obtain ⟨g1, g2⟩ := hV.drop j hi (Nat.zero_le _) hb
          exact .inr ⟨rfl, g1, g2⟩
      · exact .inl (by rw [hV.low i j hi (by omega), hlow i j hi (by omega)])

/-- Setting entries just below the diagonal to zero. -/
theorem fro2_below {T V : Nat → Nat → K} {d : K} (hd : 0 ≤ d)
    (h : ∀ i j, i < n → j < n → V i j = T i j ∨ (i = j + 1 ∧ V i j = 0 ∧ |T i j| ≤ d)) :
    fro2 (mx n n T - mx n n V) ≤ (n * d) ^ 2 := by
  have h1 : fro2 (mx n n T - mx n n V) ≤ n * d ^ 2 := by
    have hrow : ∀ i : Fin n, ∑ j : Fin n, ((mx n n T - mx n n V) i j) ^ 2 ≤ d ^ 2 := by
      intro i
      have hz : ∀ j : Fin n, ((mx n n T - mx n n V) i j) ^ 2 ≤ if j.1 + 1 = i.1 then d ^ 2 else 0 := by
        intro j
        show (T i j - V i j) ^ 2 ≤ _
        rcases h i j i.2 j.2 with e | ⟨e1, e2, e3⟩
        · rw [e, sub_self]
          split
          · simpa using sq_nonneg d
          · simp
        · rw [if_pos e1.symm, e2, sub_zero]
          exact sq_le_sq.2 (by rwa [abs_of_nonneg hd])
      refine (Finset.sum_le_sum fun j _ => hz j).trans ?_
      by_cases hi : 0 < i.1
      · rw [Finset.sum_eq_single (⟨i.1 - 1, by omega⟩ : Fin n)
          (fun b _ hb => if_neg fun e => hb (Fin.ext (by show b.1 = i.1 - 1; omega)))
          (fun hb => absurd (mem_univ _) hb)]
        split
        · exact le_refl _
        · positivity
      · rw [Finset.sum_eq_zero fun j _ => if_neg (by omega)]
        positivity
    refine (Finset.sum_le_sum fun i _ => hrow i).trans (le_of_eq ?_)
    rw [sum_const, card_univ, Fintype.card_fin, nsmul_eq_mul]
  refine h1.trans ?_
  rw [mul_pow]
  refine mul_le_mul_of_nonneg_right ?_ (sq_nonneg d)
  rcases Nat.eq_zero_or_pos n with rfl | hp
  · simp
  · have : (1 : K) ≤ n := by exact_mod_cast hp
    nlinarith

/-- **C78, the factors as they are.** `P T Pᵀ`, with the `T` the code returns, differs from `A` by at most
`schurErr + n · schurDrop` in Frobenius norm. -/
theorem C78_factor (κ : Schur.Lit K) (hκ : 0 < κ.eps) {a : Mat K n n} (ha : a.own) (hn : 0 < n)
    {A : Nat → Nat → K} (hA : Shows a.at n n A) (hA0 : mx n n A ≠ 0) {N : K} (hN : 0 ≤ N)
    (hAN : fro2 (mx n n A) ≤ N ^ 2) {fuel : Nat} {s : Schur K n} (h : Schur.new κ fuel a = .ok (some s)) :
    ∃ (mp mt : Mat K n n) (P T : Nat → Nat → K),
      s.pMat = .ok ⟨n, n, mp⟩ ∧ s.tMat = .ok ⟨n, n, mt⟩ ∧ Shows mp.at n n P ∧ Shows mt.at n n T ∧
      mx n n P * (mx n n P)ᵀ = 1 ∧
      fro2 (mx n n P * mx n n T * (mx n n P)ᵀ - mx n n A) ≤
        (schurErr n κ.eps N + n * schurDrop n κ.eps N) ^ 2 := by
  obtain ⟨mp, mt, P, T, V, h1, h2, h3, h4, h5, -, h7, h8⟩ := C78_backward κ hκ ha hn hA hA0 hN hAN h
  refine ⟨mp, mt, P, T, h1, h2, h3, h4, h5, ?_⟩
  have hd := schurDrop_nonneg (n := n) hκ.le hN
  have := fro2_below hd h7
  rw [← fro2_conj _ h5] at this
  have h9 := fro2_add (schurErr_nonneg (n := n) hκ.le hN) (mul_nonneg (Nat.cast_nonneg n) hd) h8 this
  rwa [Matrix.mul_sub, Matrix.sub_mul, add_comm, sub_add_sub_cancel] at h9

end exact

section eigen

variable {n : Nat}

open Classical in
/-- The table behind a result: the Schur form, with the entries below the diagonal that belong to no pair set to zero,
is similar to a matrix near `A`. -/
theorem Eig.newGen_rep (σ : Schur.Lit ℝ) (hσ : 0 < σ.eps) (κ : Eig.Lit ℝ) (hκ : 0 ≤ κ.epsEd) (hh : κ.half = 1 / 2)
    {a : Mat ℝ n n} (ha : a.own) (hn : 0 < n) {A : Nat → Nat → ℝ} (hA : Shows a.at n n A) (hA0 : mx n n A ≠ 0)
    {N : ℝ} (hN : 0 ≤ N) (hAN : fro2 (mx n n A) ≤ N ^ 2) (hd : schurDrop n σ.eps N ≤ κ.epsEd)
    {fuel : Nat} {e : Eig ℝ n} (h : Eig.newGen σ κ fuel a = .ok (some e)) :
    ∃ (s : Schur ℝ n) (pr : Nat → Prop), Schur.new σ fuel a = .ok (some s) ∧
      ReadsOff κ.epsEd n s.t.f e.re.f e.im.f pr ∧
      (∀ k, pr k → ((s.t.f k k - s.t.f (k + 1) (k + 1)) / 2) ^ 2 + s.t.f (k + 1) k * s.t.f k (k + 1) < 0) ∧
      fro2 (mx n n s.t.f) ≤ (N + schurErr n σ.eps N + n * κ.epsEd) ^ 2 ∧
      Schur.Rep (mx n n A) (schurErr n σ.eps N + n * κ.epsEd) s.p.f (Eig.quasi pr s.t.f) := by
  obtain ⟨s, pr, hs, hr⟩ := C76_reads σ κ hκ hh ha hn h
  obtain ⟨W, br, hR, hV⟩ := new_rep σ hσ ha hn hA hA0 hN hAN hs
  -- a pair is a block that was not neglected
  have hpb : ∀ k, pr k → br k := by
    intro k hk
    obtain ⟨g1, -, g3, -⟩ := hr.pair k hk
    by_contra hb
    exact absurd ((hV.drop k g1 (Nat.zero_le _) hb).2.trans hd) (not_le.2 g3)
  have hE : 0 ≤ n * κ.epsEd := mul_nonneg (Nat.cast_nonneg n) hκ
  -- the difference of `W` and the table of the pairs
  have hWV : ∀ i j, i < n → j < n → Eig.quasi pr s.t.f i j = W i j ∨
      (i = j + 1 ∧ Eig.quasi pr s.t.f i j = 0 ∧ |W i j| ≤ κ.epsEd) := by
    intro i j hi hj
    rcases Nat.lt_or_ge j i with hij | hij
    · by_cases h1 : i = j + 1
      · subst h1
        by_cases hp : pr j
        · exact .inl (by rw [Eig.quasi_pair hp, (hV.block j (hpb j hp)).2.2.2.1])
        · refine .inr ⟨rfl, Eig.quasi_zero (by omega) fun hc => hp hc.2, ?_⟩
          by_cases hb : br j
          · rw [(hV.block j hb).2.2.2.1]
            refine (hr.single j hj hp fun l hl e => ?_).2.2 hi
            subst e
            exact (hV.block l (hpb l hl)).2.2.1 hb
          · rw [(hV.drop j hi (Nat.zero_le _) hb).1, abs_zero]
            exact hκ
      · exact .inl (by rw [Eig.quasi_zero hij fun hc => h1 hc.1, hV.low i j hi (by omega)])
    · exact .inl (by rw [Eig.quasi_up hij, hV.same i j hi hj (.inl hij)])
  -- the difference of `T` and `W`
  have hTW : fro2 (mx n n s.t.f) ≤ (N + schurErr n σ.eps N + n * κ.epsEd) ^ 2 := by
    obtain ⟨mt, et, -, ht⟩ := SMat.fromSlices_dense (Jag.toLists_rect s.t) hn hn false
    obtain ⟨mt', et', h0⟩ := C63_shape σ ha hn hs
    have et2 : s.tMat = .ok ⟨n, n, mt⟩ := by unfold Schur.tMat; rw [et]; rfl
    rw [et2] at et'
    cases et'
    have hlow : ∀ i j, i < n → j + 1 < i → s.t.f i j = 0 := by
      intro i j hi hj
      have h1 := h0 i j hi hj
      rw [ht.ok hi (by omega), Exact.zero_eq] at h1
      exact Except.ok.inj h1
    have h1 : fro2 (mx n n s.t.f - mx n n W) ≤ (n * κ.epsEd) ^ 2 := by
      refine fro2_below hκ fun i j hi hj => ?_
      rcases Nat.lt_or_ge j i with hij | hij
      · by_cases h1 : i = j + 1
        · subst h1
          by_cases hb : br j
          · exact .inl (hV.block j hb).2.2.2.1
          · obtain ⟨g1, g2⟩ := hV.drop j hi (Nat.zero_le _) hb
            exact .inr ⟨rfl, g1, g2.trans hd⟩
        · exact .inl (by rw [hV.low i j hi (by omega), hlow i j hi (by omega)])
      · exact .inl (hV.same i j hi hj (.inl hij))
    have h2 := fro2_add (add_nonneg hN (schurErr_nonneg (n := n) hσ.le hN)) hE (hR.size hN hAN) h1
    rwa [add_sub_cancel] at h2
  refine ⟨s, pr, hs, hr, fun k hk => (hV.block k (hpb k hk)).2.2.2.2, hTW, hR.add hE ?_⟩
  have h1 := fro2_below hκ hWV
  refine le_trans (le_of_eq ?_) h1
  rw [← neg_sub (mx n n W)]
  unfold fro2
  simp only [Matrix.neg_apply, neg_sq]

open Polynomial in
/-- **C79.** The eigenvalues of a result are those of a matrix near `A`. For a matrix that is not zero, of Frobenius
norm at most `N`, when entries that the Schur form takes for zero are within the pairing tolerance `epsEd`: the
numbers `re i + im i · I` of the result are, with multiplicities, all the complex eigenvalues of `A + E` for a real
matrix `E` of Frobenius norm at most `schurErr + n · epsEd`. -/
theorem C79_spectrum (σ : Schur.Lit ℝ) (hσ : 0 < σ.eps) (κ : Eig.Lit ℝ) (hκ : 0 ≤ κ.epsEd) (hh : κ.half = 1 / 2)
    {a : Mat ℝ n n} (ha : a.own) (hn : 0 < n) {A : Nat → Nat → ℝ} (hA : Shows a.at n n A) (hA0 : mx n n A ≠ 0)
    {N : ℝ} (hN : 0 ≤ N) (hAN : fro2 (mx n n A) ≤ N ^ 2) (hd : schurDrop n σ.eps N ≤ κ.epsEd)
    {fuel : Nat} {e : Eig ℝ n} (h : Eig.newGen σ κ fuel a = .ok (some e)) :
    ∃ E : Matrix (Fin n) (Fin n) ℝ, fro2 E ≤ (schurErr n σ.eps N + n * κ.epsEd) ^ 2 ∧
      ((mx n n A + E).map Complex.ofReal).charpoly =
        ∏ i : Fin n, (X - C ((e.re.f i : ℂ) + e.im.f i * Complex.I)) := by
  classical
  obtain ⟨s, pr, hs, hr, hdisc, -, hR⟩ := Eig.newGen_rep σ hσ κ hκ hh ha hn hA hA0 hN hAN hd h
  have hread : ReadsOff κ.epsEd n (Eig.quasi pr s.t.f) e.re.f e.im.f pr := by
    refine ⟨fun k hk => ?_, fun k hk hp hl => ?_⟩
    · rw [Eig.quasi_pair hk, Eig.quasi_up (le_refl _), Eig.quasi_up (le_refl _), Eig.quasi_up (Nat.le_succ k)]
      exact hr.pair k hk
    · obtain ⟨g1, g2, -⟩ := hr.single k hk hp hl
      refine ⟨by rw [g1, Eig.quasi_up (le_refl _)], g2, fun hk' => ?_⟩
      rw [Eig.quasi_zero (Nat.lt_succ_self k) fun hc => hp hc.2, abs_zero]
      exact hκ
  have hsp := C76_spectrum hread
    (fun i j hi hj => Eig.quasi_zero (by omega) (by omega))
    (fun k hk hp => Eig.quasi_zero (Nat.lt_succ_self k) fun hc => hp hc.2)
    (fun k hk => by
      rw [Eig.quasi_pair hk, Eig.quasi_up (le_refl _), Eig.quasi_up (le_refl _), Eig.quasi_up (Nat.le_succ k)]
      exact (hdisc k hk).le)
  refine ⟨mx n n s.p.f * mx n n (Eig.quasi pr s.t.f) * (mx n n s.p.f)ᵀ - mx n n A, hR.near, ?_⟩
  rw [add_sub_cancel, ← hsp]
  have e1 : ∀ B : Matrix (Fin n) (Fin n) ℝ, B.map Complex.ofReal = B.map Complex.ofRealHom := fun _ => rfl
  have hP : mx n n s.p.f * (mx n n s.p.f)ᵀ = 1 := hR.orth
  rw [e1, e1, Matrix.charpoly_map, Matrix.charpoly_map]
  congr 1
  have hP' := mul_eq_one_comm.1 hP
  rw [Matrix.charpoly_mul_comm, ← Matrix.mul_assoc, hP', Matrix.one_mul]

private theorem hessNorm_real (T : Nat → Nat → ℝ) :
    hessNorm n T = ∑ i ∈ range n, ∑ j ∈ Ico (i - 1) n, |T i j| := by
  unfold hessNorm
  have key : ∀ m, (List.range m).foldl (fun s i => lsum (i - 1) n (fun j => Flt.abs (T i j)) s) Flt.zero =
      ∑ i ∈ range m, ∑ j ∈ Ico (i - 1) n, |T i j| := by
    intro m
    induction m with
    | zero => simp
    | succ m ih =>
      rw [List.range_succ, List.foldl_append, ih, sum_range_succ]
      show lsum _ _ _ _ = _
      rw [lsum_exact]
      simp
  exact key n

private theorem fro2_le_norm {T : Nat → Nat → ℝ} (h : ∀ i j, i < n → j + 1 < i → T i j = 0) :
    fro2 (mx n n T) ≤ hessNorm n T ^ 2 := by
  have hrow : ∀ i, i < n → ∑ j : Fin n, |T i j| = ∑ j ∈ Ico (i - 1) n, |T i j| := by
    intro i hi
    rw [Fin.sum_univ_eq_sum_range (fun j => |T i j|) n, range_eq_Ico,
      ← sum_Ico_consecutive _ (Nat.zero_le (i - 1)) (by omega),
      sum_eq_zero fun j hj => ?_, zero_add]
    rw [h i j hi (by have := (mem_Ico.1 hj).2; omega), abs_zero]
  have e : hessNorm n T = ∑ i : Fin n, ∑ j : Fin n, |T i j| := by
    rw [hessNorm_real, ← Fin.sum_univ_eq_sum_range (fun i => ∑ j ∈ Ico (i - 1) n, |T i j|) n]
    exact sum_congr rfl fun i _ => (hrow i i.2).symm
  rw [e]
  have e2 : fro2 (mx n n T) = ∑ i : Fin n, ∑ j : Fin n, |T i j| ^ 2 :=
    sum_congr rfl fun i _ => sum_congr rfl fun j _ => (sq_abs _).symm
  rw [e2]
  have h1 : ∀ i : Fin n, ∑ j : Fin n, |T i j| ^ 2 ≤ (∑ j : Fin n, |T i j|) ^ 2 := fun i =>
    sum_sq_le_sq_sum_of_nonneg fun j _ => abs_nonneg _
  refine (sum_le_sum fun i _ => h1 i).trans ?_
  exact sum_sq_le_sq_sum_of_nonneg fun i _ => sum_nonneg fun j _ => abs_nonneg _

/-- **C76.** When the Schur iteration ends, the general decomposition has a result for every matrix whose Frobenius norm
exceeds the tolerance of the eigenvalues by the backward error of the Schur form: the error for a form of norm zero
means that the matrix itself is tiny. -/
theorem C76_result (σ : Schur.Lit ℝ) (hσ : 0 < σ.eps) (κ : Eig.Lit ℝ) (hκ : 0 ≤ κ.epsEd)
    {a : Mat ℝ n n} (ha : a.own) (hn : 0 < n) {A : Nat → Nat → ℝ} (hA : Shows a.at n n A)
    {N : ℝ} (hN : 0 ≤ N) (hAN : fro2 (mx n n A) ≤ N ^ 2)
    (hbig : (κ.epsEd + (schurErr n σ.eps N + n * schurDrop n σ.eps N)) ^ 2 < fro2 (mx n n A))
    {fuel : Nat} {s : Schur ℝ n} (h : Schur.new σ fuel a = .ok (some s)) :
    ∃ e, Eig.newGen σ κ fuel a = .ok (some e) ∧ e.sym = false := by
  have hA0 : mx n n A ≠ 0 := by
    intro h0
    rw [h0] at hbig
    have : fro2 (0 : Matrix (Fin n) (Fin n) ℝ) = 0 := by simp [fro2]
    rw [this] at hbig
    exact absurd hbig (not_lt.2 (sq_nonneg _))
  refine (C76_arith σ κ real_sqrt_nonneg (by simp) ha hn h).2 (Bool.eq_false_iff.2 fun hc => ?_)
  obtain ⟨mp, mt, P, T, -, h2, -, h4, h5, h6⟩ := C78_factor σ hσ ha hn hA hA0 hN hAN h
  obtain ⟨mt', et', h0⟩ := C63_shape σ ha hn h
  obtain ⟨mt2, et2, -, ht⟩ := SMat.fromSlices_dense (Jag.toLists_rect s.t) hn hn false
  have et3 : s.tMat = .ok ⟨n, n, mt2⟩ := by unfold Schur.tMat; rw [et2]; rfl
  rw [et3] at h2 et'
  cases h2
  cases et'
  have hlow : ∀ i j, i < n → j + 1 < i → s.t.f i j = 0 := by
    intro i j hi hj
    have h1 := h0 i j hi hj
    rw [ht.ok hi (by omega), Exact.zero_eq] at h1
    exact Except.ok.inj h1
  have hTs : mx n n T = mx n n s.t.f := by
    ext i j
    exact h4.unique ht i.2 j.2
  have hn0 : 0 ≤ hessNorm n s.t.f := by
    rw [hessNorm_real]
    exact sum_nonneg fun i _ => sum_nonneg fun j _ => abs_nonneg _
  have hsm : hessNorm n s.t.f ≤ κ.epsEd := by
    unfold equalsWithError at hc
    simp only [Exact.ulpEq_eq, Exact.le_eq, Exact.abs_eq, Exact.sub_eq, Exact.zero_eq, zero_sub, abs_neg,
      Bool.or_eq_true, decide_eq_true_eq] at hc
    rcases hc with hc | hc
    · rw [hc]; exact hκ
    · exact (le_abs_self _).trans hc
  have g1 : fro2 (mx n n P * mx n n T * (mx n n P)ᵀ) ≤ κ.epsEd ^ 2 := by
    rw [fro2_conj _ h5, hTs]
    exact (fro2_le_norm hlow).trans (pow_le_pow_left₀ hn0 hsm 2)
  have hE : 0 ≤ schurErr n σ.eps N + n * schurDrop n σ.eps N :=
    add_nonneg (schurErr_nonneg hσ.le hN) (mul_nonneg (Nat.cast_nonneg n) (schurDrop_nonneg hσ.le hN))
  have g2 : fro2 (mx n n A - mx n n P * mx n n T * (mx n n P)ᵀ) ≤
      (schurErr n σ.eps N + n * schurDrop n σ.eps N) ^ 2 := by
    refine le_trans (le_of_eq ?_) h6
    rw [← neg_sub]
    unfold fro2
    simp only [Matrix.neg_apply, neg_sq]
  have g3 := fro2_add hκ hE g1 g2
  rw [add_sub_cancel] at g3
  exact absurd hbig (not_lt.2 g3)

end eigen

/-! ## Cases that meet the hypotheses -/

example (κ : Schur.Lit ℝ) (hκ : 0 < κ.eps) : ∃ (s : Schur ℝ 2) (mp mt : Mat ℝ 2 2) (P T V : Nat → Nat → ℝ),
    Schur.new κ 202 schurReal = .ok (some s) ∧ s.pMat = .ok ⟨2, 2, mp⟩ ∧ s.tMat = .ok ⟨2, 2, mt⟩ ∧
    Shows mp.at 2 2 P ∧ Shows mt.at 2 2 T ∧ mx 2 2 P * (mx 2 2 P)ᵀ = 1 ∧ RealSchur 2 V ∧
    fro2 (mx 2 2 P * mx 2 2 V * (mx 2 2 P)ᵀ - mx 2 2 schurReal.ent) ≤ schurErr 2 κ.eps 6 ^ 2 := by
  obtain ⟨s, e⟩ := C40_small κ (a := schurReal) (show schurReal.own from trivial)
    (by omega) (by omega) (show 2 ≤ 202 by omega)
  obtain ⟨mp, mt, P, T, V, h1, h2, h3, h4, h5, h6, -, h8⟩ := C78_backward κ hκ
    (a := schurReal) (show schurReal.own from trivial) (by omega)
    schurReal.at_shows (fun h => by
      have := congrFun (congrFun h 0) 0
      simp [mx, Mat.ent, schurReal] at this) (N := 6) (by norm_num) (by
      simp [fro2, mx, Mat.ent, schurReal, Fin.sum_univ_two]
      norm_num) e
  exact ⟨s, mp, mt, P, T, V, e, h1, h2, h3, h4, h5, h6, h8⟩

open Polynomial in
/-- With the tolerances of the code and a matrix with two complex eigenvalues. -/
example (σ : Schur.Lit ℝ) (hσ : σ.eps = 1 / 2 ^ 53) (κ : Eig.Lit ℝ) (hκ : κ.epsEd = 1 / 10 ^ 12)
    (hh : κ.half = 1 / 2) : ∃ (e : Eig ℝ 2) (E : Matrix (Fin 2) (Fin 2) ℝ),
      Eig.newGen σ κ 202 eigSpin = .ok (some e) ∧ fro2 E ≤ (1 / 10 ^ 10) ^ 2 ∧
      ((mx 2 2 eigSpin.ent + E).map Complex.ofReal).charpoly =
        ∏ i : Fin 2, (X - C ((e.re.f i : ℂ) + e.im.f i * Complex.I)) := by
  have hA := Mat.at_shows eigSpin
  have ht : (mx 2 2 eigSpin.ent).trace = 2 := by
    rw [Matrix.trace_fin_two]
    simp only [mx, Mat.ent, eigSpin]
    norm_num
  have hσ0 : 0 < σ.eps := by rw [hσ]; norm_num
  have hκ0 : 0 ≤ κ.epsEd := by rw [hκ]; norm_num
  obtain ⟨e, he⟩ := C76_small σ hσ0 κ hκ0 (show eigSpin.own from trivial) (by omega) (by omega) hA
    (by rw [ht, hκ]; norm_num) (show 2 ≤ 202 by omega)
  obtain ⟨E, h1, h2⟩ := C79_spectrum σ hσ0 κ hκ0 hh (show eigSpin.own from trivial) (by omega) hA
    (fun h => by
      rw [h, Matrix.trace_zero] at ht
      norm_num at ht) (N := 4) (by norm_num) (by
      simp [fro2, mx, Mat.ent, eigSpin, Fin.sum_univ_two]
      norm_num) (by
      rw [hσ, hκ]
      unfold schurDrop schurErr
      norm_num) he
  refine ⟨e, E, he, h1.trans ?_, h2⟩
  rw [hσ, hκ]
  unfold schurErr
  norm_num

/-- With the tolerances of the code, a matrix with two complex eigenvalues meets the hypotheses of `C76_result`. -/
example (σ : Schur.Lit ℝ) (hσ : σ.eps = 1 / 2 ^ 53) (κ : Eig.Lit ℝ) (hκ : κ.epsEd = 1 / 10 ^ 12) :
    ∃ e, Eig.newGen σ κ 202 eigSpin = .ok (some e) ∧ e.sym = false := by
  have hσ0 : 0 < σ.eps := by rw [hσ]; norm_num
  obtain ⟨s, e⟩ := C40_small σ (a := eigSpin) (show eigSpin.own from trivial)
    (by omega) (by omega) (show 2 ≤ 202 by omega)
  have hf : 1 ≤ fro2 (mx 2 2 eigSpin.ent) ∧ fro2 (mx 2 2 eigSpin.ent) ≤ 4 ^ 2 := by
    simp [fro2, mx, Mat.ent, eigSpin, Fin.sum_univ_two]
    norm_num
  refine C76_result σ hσ0 κ (by rw [hκ]; norm_num) (show eigSpin.own from trivial) (by omega) (Mat.at_shows eigSpin)
    (N := 4) (by norm_num) hf.2 (lt_of_lt_of_le ?_ hf.1) e
  rw [hσ, hκ]
  unfold schurDrop schurErr
  norm_num

end Linear
