import Verif.Lemmas.EigenGen
import Verif.Props.EigenUse
import Mathlib.LinearAlgebra.Matrix.Charpoly.Coeff
import Mathlib.Analysis.Complex.Basic

/-!
# C76, C77: the eigenvalues of a matrix that is not symmetric
-/

set_option linter.unusedSectionVars false

namespace Linear

open Spec Finset

namespace Spec

/-- Eigenvalues `re k + i im k` read from an `n × n` table `T` in quasi-triangular form. `pr` marks the first index of
each 2 × 2 block. A block starts only where the entry below the diagonal exceeds `tol`; it gives two conjugate
numbers whose real part is the mean of its diagonal and whose imaginary part is the root of (the size of) its
discriminant. Every other index gives a real number, the diagonal entry. -/
structure ReadsOff (tol : ℝ) (n : Nat) (T : Nat → Nat → ℝ) (re im : Nat → ℝ) (pr : Nat → Prop) : Prop where
  pair : ∀ k, pr k → k + 1 < n ∧ ¬ pr (k + 1) ∧ tol < |T (k + 1) k| ∧
    re k = (T k k + T (k + 1) (k + 1)) / 2 ∧
    im k = Real.sqrt |((T k k - T (k + 1) (k + 1)) / 2) ^ 2 + T (k + 1) k * T k (k + 1)| ∧
    re (k + 1) = re k ∧ im (k + 1) = -im k
  single : ∀ k, k < n → ¬ pr k → (∀ l, pr l → k ≠ l + 1) → re k = T k k ∧ im k = 0 ∧
    (k + 1 < n → |T (k + 1) k| ≤ tol)

end Spec

section any
variable {α : Type} [Flt α] {n : Nat}

/-- The parts of the construction, in any arithmetic. -/
private theorem newGen_parts [ZeroLaws α] (σ : Schur.Lit α) (κ : Eig.Lit α)
    (hs : ∀ x : α, Flt.lt (Flt.sqrt (Flt.abs x)) Flt.zero = false)
    (h0 : Flt.lt (Flt.zero : α) Flt.zero = false) {a : Mat α n n} (_ha : a.own) (hn : 0 < n) {fuel : Nat} {s : Schur α n}
    (h : Schur.new σ fuel a = .ok (some s)) :
    ∃ (T : Tab α n n) (re im : Row α n) (pr : Nat → Prop), (∀ i j, i < n → j < n → T.f i j = s.t.f i j) ∧
      Eig.Read κ.epsEd κ.half T.f n 0 re.f im.f pr ∧
      ((equalsWithError (hessNorm n T.f) Flt.zero κ.epsEd = false ∧
          ∃ v, Eig.newGen σ κ fuel a = .ok (some ⟨re, im, v, false⟩)) ∨
        (equalsWithError (hessNorm n T.f) Flt.zero κ.epsEd = true ∧
          Eig.newGen σ κ fuel a = .error (.err .arith))) := by
  obtain ⟨M, e1, h1, h2⟩ := SMat.fromSlices_dense (Jag.toLists_rect s.p) hn hn false
  obtain ⟨N, e2, h3, h4⟩ := SMat.fromSlices_dense (Jag.toLists_rect s.t) hn hn false
  obtain ⟨tt, et, ht⟩ := Mat.dataCopy_ok (Mat.dense_own h3) hn h4
  obtain ⟨tp, ep, -⟩ := Mat.dataCopy_ok (Mat.dense_own h1) hn h2
  obtain ⟨v, ev, -, pr, hr⟩ := Eig.values_ok κ.epsEd κ.half (⟨tt.f⟩ : Tab α n n) n 0 (Row.zero n, Row.zero n)
    (by omega) (fun _ _ _ => rfl)
  refine ⟨⟨tt.f⟩, v.1, v.2, pr, ht, hr, ?_⟩
  have him : Flt.lt (v.2.f 0) Flt.zero = false := by
    by_cases hp : pr 0
    · rw [(hr.pair 0 hp).2.2.2.2.2.1]
      exact hs _
    · rw [(hr.single 0 (le_refl _) hn hp (fun l _ => by omega)).2.1]
      exact h0
  have key : Eig.newGen σ κ fuel a = do
      return some (← Eig.findGen κ v.1 v.2 (⟨tt.f⟩ : Tab α n n) ⟨tp.f⟩) := by
    unfold Eig.newGen
    rw [h, ok_bind]
    dsimp only
    unfold Schur.tMat Schur.pMat
    rw [e1, e2]
    simp only [must_ok, ok_bind]
    unfold Schur.tab
    dsimp only
    rw [if_pos ⟨rfl, rfl⟩, if_pos ⟨rfl, rfl⟩, et, ep]
    simp only [ok_bind, pure_eq_ok]
    rw [ev]
    rfl
  rw [key]
  rcases Eig.findGen_fine κ v.1 v.2 (⟨tt.f⟩ : Tab α n n) ⟨tp.f⟩ him with ⟨h1, x, e⟩ | ⟨h1, e⟩
  · rw [e]
    exact .inl ⟨h1, x, rfl⟩
  · rw [e]
    exact .inr ⟨h1, rfl⟩

/-- **C76.** In any arithmetic in which a square root is never below zero, and for all values of the literals, the
decomposition of a square matrix by way of its Schur form ends, without any index out of range, in one of three
ways: a result, the error for a form of norm zero, or the panic on too many iterations. -/
theorem C76_ends [ZeroLaws α] (σ : Schur.Lit α) (κ : Eig.Lit α)
    (hs : ∀ x : α, Flt.lt (Flt.sqrt (Flt.abs x)) Flt.zero = false)
    (h0 : Flt.lt (Flt.zero : α) Flt.zero = false) {a : Mat α n n} (ha : a.own) (hn : 0 < n) {fuel : Nat}
    (hf : 101 * n ≤ fuel) :
    (∃ e, Eig.newGen σ κ fuel a = .ok (some e) ∧ e.sym = false) ∨
      Eig.newGen σ κ fuel a = .error (.err .arith) ∨ Eig.newGen σ κ fuel a = .error (.pan .maxIter) := by
  rcases C40_ends σ ha hn with ⟨s, h, -⟩ | h
  · obtain ⟨T, re, im, pr, -, -, h1⟩ := newGen_parts σ κ hs h0 ha hn (h fuel hf)
    rcases h1 with ⟨-, v, e⟩ | ⟨-, e⟩
    · exact .inl ⟨_, e, rfl⟩
    · exact .inr (.inl e)
  · right; right
    unfold Eig.newGen
    rw [h fuel hf]
    rfl

/-- **C76.** The error for a form of norm zero is the outcome exactly when the sum of the absolute values of the Schur form
that the same call has computed counts as zero; otherwise there is a result. -/
theorem C76_arith [ZeroLaws α] (σ : Schur.Lit α) (κ : Eig.Lit α)
    (hs : ∀ x : α, Flt.lt (Flt.sqrt (Flt.abs x)) Flt.zero = false)
    (h0 : Flt.lt (Flt.zero : α) Flt.zero = false) {a : Mat α n n} (ha : a.own) (hn : 0 < n) {fuel : Nat} {s : Schur α n}
    (h : Schur.new σ fuel a = .ok (some s)) :
    (equalsWithError (hessNorm n s.t.f) Flt.zero κ.epsEd = true → Eig.newGen σ κ fuel a = .error (.err .arith)) ∧
    (equalsWithError (hessNorm n s.t.f) Flt.zero κ.epsEd = false →
      ∃ e, Eig.newGen σ κ fuel a = .ok (some e) ∧ e.sym = false) := by
  obtain ⟨T, re, im, pr, hT, -, h1⟩ := newGen_parts σ κ hs h0 ha hn h
  rw [hessNorm_congr hT] at h1
  rcases h1 with ⟨h1, v, e⟩ | ⟨h1, e⟩
  · exact ⟨fun h2 => (by rw [h1] at h2; cases h2), fun _ => ⟨_, e, rfl⟩⟩
  · exact ⟨fun _ => e, fun h2 => (by rw [h1] at h2; cases h2)⟩

/-- **C76.** A matrix that is not square is refused. -/
theorem C76_square {c : Nat} (σ : Schur.Lit α) (κ : Eig.Lit α) (fuel : Nat) (a : Mat α n c) (hn : 0 < n)
    (h : n ≠ c) : Eig.newGen σ κ fuel a = .error (.err .sqMat) := by
  unfold Eig.newGen
  rw [C40_square σ fuel a hn h]
  rfl

end any

variable {n : Nat}

theorem real_sqrt_nonneg (x : ℝ) : Flt.lt (Flt.sqrt (Flt.abs x)) Flt.zero = false := by
  rw [Exact.lt_eq, Exact.zero_eq]
  simp [ExactSqrt.sqrt_nonneg]

/-- **C76.** The eigenvalues of a result are read off the Schur form that the same call has computed. -/
theorem C76_reads (σ : Schur.Lit ℝ) (κ : Eig.Lit ℝ) (hκ : 0 ≤ κ.epsEd) (hh : κ.half = 1 / 2) {a : Mat ℝ n n}
    (ha : a.own) (hn : 0 < n) {fuel : Nat} {e : Eig ℝ n} (h : Eig.newGen σ κ fuel a = .ok (some e)) :
    ∃ (s : Schur ℝ n) (pr : Nat → Prop), Schur.new σ fuel a = .ok (some s) ∧
      ReadsOff κ.epsEd n s.t.f e.re.f e.im.f pr := by
  cases hs : Schur.new σ fuel a with
  | error f =>
    unfold Eig.newGen at h
    rw [hs] at h
    cases h
  | ok o =>
    cases o with
    | none =>
      unfold Eig.newGen at h
      rw [hs] at h
      cases h
    | some s =>
      obtain ⟨T, re, im, pr, hT, hr, h1⟩ := newGen_parts σ κ real_sqrt_nonneg (by simp) ha hn hs
      rcases h1 with ⟨-, v, e1⟩ | ⟨-, e1⟩
      · rw [e1] at h
        cases h
        have heq : ∀ x : ℝ, equalsWithError x Flt.zero κ.epsEd = true ↔ |x| ≤ κ.epsEd := by
          intro x
          unfold equalsWithError
          simp only [Exact.ulpEq_eq, Exact.le_eq, Exact.abs_eq, Exact.sub_eq, Exact.zero_eq, zero_sub, abs_neg,
            Bool.or_eq_true, decide_eq_true_eq]
          constructor
          · rintro (rfl | h)
            · rw [abs_zero]; exact hκ
            · exact h
          · exact .inr
        refine ⟨s, pr, rfl, ⟨fun k hk => ?_, fun k hk hp hl => ?_⟩⟩
        · obtain ⟨-, g1, g2, g3, g4, g5, g6, g7⟩ := hr.pair k hk
          rw [hT _ _ (by omega) (by omega), hT _ _ (by omega) (by omega), hT _ _ (by omega) (by omega),
            hT _ _ (by omega) (by omega)] at g4 g5
          rw [hT _ _ (by omega) (by omega)] at g3
          refine ⟨g1, g2, ?_, ?_, ?_, g6, by rw [g7, Exact.neg_eq]⟩
          · by_contra hc
            rw [(heq _).2 (not_lt.1 hc)] at g3
            cases g3
          · rw [g4]
            simp only [Eig.pair, Exact.add_eq, Exact.mul_eq, Exact.sub_eq, hh]
            ring
          · rw [g5]
            simp only [Eig.pair, Exact.add_eq, Exact.mul_eq, Exact.sub_eq, Exact.abs_eq, hh]
            show Real.sqrt _ = Real.sqrt _
            congr 2
            ring
        · obtain ⟨g1, g2, g3⟩ := hr.single k (Nat.zero_le _) hk hp hl
          rw [hT _ _ hk hk] at g1
          refine ⟨g1, by rw [g2, Exact.zero_eq], fun hk' => ?_⟩
          have := g3 hk'
          rw [hT _ _ hk' hk] at this
          exact (heq _).1 this
      · rw [e1] at h
        cases h

private theorem reads_sum {tol : ℝ} {T : Nat → Nat → ℝ} {re im : Nat → ℝ} {pr : Nat → Prop}
    (h : ReadsOff tol n T re im pr) (k : Nat) (hk : k ≤ n) (hb : ∀ l, pr l → k ≠ l + 1) :
    ∑ i ∈ range k, re i = ∑ i ∈ range k, T i i ∧ ∑ i ∈ range k, im i = 0 := by
  induction k using Nat.strong_induction_on with
  | _ k ih =>
    rcases k with _ | k
    · simp
    by_cases hs : ∃ l, pr l ∧ k = l + 1
    · obtain ⟨l, hl, rfl⟩ := hs
      obtain ⟨g1, g2, -, g4, -, g6, g7⟩ := h.pair l hl
      obtain ⟨i1, i2⟩ := ih l (by omega) (by omega) (fun m hm e => (h.pair m hm).2.1 (e ▸ hl))
      rw [sum_range_succ, sum_range_succ, i1, sum_range_succ (fun i => T i i), sum_range_succ (fun i => T i i),
        sum_range_succ im, sum_range_succ im, i2, g6, g7, g4]
      constructor <;> ring
    · have hp : ¬ pr k := fun h => hb k h rfl
      have hl : ∀ l, pr l → k ≠ l + 1 := fun l h1 h2 => hs ⟨l, h1, h2⟩
      obtain ⟨i1, i2⟩ := ih k (by omega) (by omega) hl
      obtain ⟨g1, g2, -⟩ := h.single k (by omega) hp hl
      rw [sum_range_succ, sum_range_succ, i1, g1, sum_range_succ, i2, g2]
      simp

/-- **C76.** The eigenvalues of a result add up to the trace of the matrix: the real parts to the trace, the imaginary
parts to zero. -/
theorem C76_trace (σ : Schur.Lit ℝ) (hσ : 0 < σ.eps) (κ : Eig.Lit ℝ) (hκ : 0 ≤ κ.epsEd) (hh : κ.half = 1 / 2)
    {a : Mat ℝ n n} (ha : a.own) (hn : 0 < n) {A : Nat → Nat → ℝ} (hA : Shows a.at n n A) (hA0 : mx n n A ≠ 0)
    {fuel : Nat} {e : Eig ℝ n} (h : Eig.newGen σ κ fuel a = .ok (some e)) :
    ∑ i ∈ range n, e.re.f i = (mx n n A).trace ∧ ∑ i ∈ range n, e.im.f i = 0 := by
  obtain ⟨s, pr, hs, hr⟩ := C76_reads σ κ hκ hh ha hn h
  obtain ⟨mp, mpt, mt, P, T, -, -, e3, -, -, hT, -, -, htr⟩ := C62_orthogonal σ hσ ha hn hA hA0 hs
  obtain ⟨N, e2, -, h4⟩ := SMat.fromSlices_dense (Jag.toLists_rect s.t) hn hn false
  unfold Schur.tMat at e3
  rw [e2] at e3
  cases e3
  obtain ⟨h1, h2⟩ := reads_sum hr n (le_refl _) (fun l hl => by have := (hr.pair l hl).1; omega)
  refine ⟨?_, h2⟩
  rw [h1, ← htr, Matrix.trace, ← Fin.sum_univ_eq_sum_range (fun i => s.t.f i i) n]
  exact Finset.sum_congr rfl fun i _ => h4.unique hT i.2 i.2

private theorem norm_trace (t : Tab ℝ n n) {x : ℝ} (h : Schur.norm t = .ok x) : |∑ i ∈ range n, t.f i i| ≤ x := by
  unfold Schur.norm at h
  refine Wp.of_ok (wp_forUp (E := fun _ => False) (fun k y => |∑ i ∈ range k, t.f i i| ≤ y) (Nat.zero_le n)
    (by simp) (body := fun i s => sumUp (i - 1) n (fun j => do return Flt.abs (← t.get i j)) s)
    (fun i s _ hi hI => ?_)) h
  rw [sumUp_ok (fun j => Flt.abs (t.f i j)) fun j _ hj => by rw [Tab.get_ok hi hj]; rfl]
  show _ ≤ lsum _ _ _ _
  rw [lsum_exact, sum_range_succ]
  refine (abs_add_le _ _).trans (add_le_add hI ?_)
  exact single_le_sum (f := fun j => Flt.abs (t.f i j)) (fun j _ => by simp)
    (mem_Ico.2 ⟨by omega, hi⟩)

/-- **C76.** With one or two rows, and a trace above the tolerance, there is always a result. -/
theorem C76_small (σ : Schur.Lit ℝ) (hσ : 0 < σ.eps) (κ : Eig.Lit ℝ) (hκ : 0 ≤ κ.epsEd)
    {a : Mat ℝ n n} (ha : a.own) (hn : 0 < n) (h2 : n ≤ 2) {A : Nat → Nat → ℝ} (hA : Shows a.at n n A)
    (htr : κ.epsEd < |(mx n n A).trace|) {fuel : Nat} (hf : n ≤ fuel) :
    ∃ e, Eig.newGen σ κ fuel a = .ok (some e) := by
  have hA0 : mx n n A ≠ 0 := by
    intro h
    rw [h, Matrix.trace_zero, abs_zero] at htr
    exact absurd hκ (not_le.2 htr)
  obtain ⟨s, hs⟩ := C40_small σ ha hn h2 hf
  obtain ⟨T, re, im, pr, hT, -, h1⟩ := newGen_parts σ κ real_sqrt_nonneg (by simp) ha hn hs
  rcases h1 with ⟨-, v, e⟩ | ⟨e2, -⟩
  · exact ⟨_, e⟩
  · exfalso
    obtain ⟨mp, mpt, mt, P, T', -, -, e3, -, -, hT', -, -, ht⟩ := C62_orthogonal σ hσ ha hn hA hA0 hs
    obtain ⟨N, e4, -, h4⟩ := SMat.fromSlices_dense (Jag.toLists_rect s.t) hn hn false
    unfold Schur.tMat at e3
    rw [e4] at e3
    cases e3
    have h5 := norm_trace T (Schur.norm_bits T)
    have h6 : ∑ i ∈ range n, T.f i i = (mx n n A).trace := by
      rw [← ht, Matrix.trace, ← Fin.sum_univ_eq_sum_range (fun i => T.f i i) n]
      exact Finset.sum_congr rfl fun i _ => (hT _ _ i.2 i.2).trans (h4.unique hT' i.2 i.2)
    rw [h6] at h5
    unfold equalsWithError at e2
    simp only [Exact.ulpEq_eq, Exact.le_eq, Exact.abs_eq, Exact.sub_eq, Exact.zero_eq, zero_sub, abs_neg,
      Bool.or_eq_true, decide_eq_true_eq] at e2
    rcases e2 with e2 | e2
    · rw [e2] at h5
      linarith
    · have := le_abs_self (hessNorm n T.f)
      linarith

open Polynomial in
/-- **C76.** Where the table is quasi-triangular with the blocks that were read, and the discriminant of each block is
not positive, the numbers read off are, with multiplicity, all the complex eigenvalues of the table. -/
theorem C76_spectrum {tol : ℝ} {T : Nat → Nat → ℝ} {re im : Nat → ℝ} {pr : Nat → Prop}
    (h : ReadsOff tol n T re im pr) (hT : ∀ i j, i < n → j + 1 < i → T i j = 0)
    (hz : ∀ k, k + 1 < n → ¬ pr k → T (k + 1) k = 0)
    (hd : ∀ k, pr k → ((T k k - T (k + 1) (k + 1)) / 2) ^ 2 + T (k + 1) k * T k (k + 1) ≤ 0) :
    ((mx n n T).map Complex.ofReal).charpoly =
      ∏ i : Fin n, (X - C ((re i : ℂ) + im i * Complex.I)) := by
  classical
  let b : Fin n → Nat := fun i => if ∃ l, pr l ∧ (i : Nat) = l + 1 then (i : Nat) - 1 else i
  have hb1 : ∀ i : Fin n, (b i = i ∧ ¬ ∃ l, pr l ∧ (i : Nat) = l + 1) ∨ (b i + 1 = i ∧ pr (b i)) := by
    intro i
    by_cases hi : ∃ l, pr l ∧ (i : Nat) = l + 1
    · right
      obtain ⟨l, hl, e⟩ := hi
      have : b i = l := by
        show (if _ then _ else _) = _
        rw [if_pos ⟨l, hl, e⟩]
        omega
      rw [this]
      exact ⟨e.symm, hl⟩
    · left
      refine ⟨?_, hi⟩
      show (if _ then _ else _) = _
      rw [if_neg hi]
  have htri : ((mx n n T).map Complex.ofReal).BlockTriangular b := by
    intro i j hij
    show ((T i j : ℝ) : ℂ) = 0
    rw [Complex.ofReal_eq_zero]
    by_cases h1 : (j : Nat) + 1 < i
    · exact hT i j i.2 h1
    · rcases hb1 i with ⟨e1, n1⟩ | ⟨e1, p1⟩ <;> rcases hb1 j with ⟨e2, n2⟩ | ⟨e2, p2⟩
      · have e : (i : Nat) = j + 1 := by omega
        rw [e]
        exact hz j (by omega) fun hp => n1 ⟨j, hp, e⟩
      · have e : (i : Nat) = j + 1 ∨ (i : Nat) = j := by omega
        rcases e with e | e
        · rw [e]
          refine hz j (by omega) fun hp => ?_
          rw [← e2] at hp
          exact (h.pair _ p2).2.1 hp
        · exact (n1 ⟨b j, p2, by omega⟩).elim
      · omega
      · have e : (i : Nat) = j + 1 := by omega
        have e' : b i = (j : Nat) := by omega
        rw [e', ← e2] at p1
        exact ((h.pair _ p2).2.1 p1).elim
  rw [htri.charpoly]
  rw [← Finset.prod_fiberwise_of_maps_to (t := image b univ) (g := b) (fun i hi => mem_image_of_mem b hi)]
  refine Finset.prod_congr rfl fun a ha => ?_
  obtain ⟨i0, -, hi0⟩ := mem_image.1 ha
  have han : a < n := by
    have := i0.2
    rcases hb1 i0 with ⟨e, -⟩ | ⟨e, -⟩ <;> omega
  -- the start of a block is its own block
  have hba : b ⟨a, han⟩ = a := by
    rcases hb1 ⟨a, han⟩ with ⟨e, -⟩ | ⟨e, p⟩
    · exact e
    · dsimp only at e
      exfalso
      rcases hb1 i0 with ⟨e', n'⟩ | ⟨e', p'⟩
      · exact n' ⟨b ⟨a, han⟩, p, by omega⟩
      · rw [hi0, ← e] at p'
        exact (h.pair _ p).2.1 p'
  by_cases hp : pr a
  · obtain ⟨g1, g2, -, g4, g5, g6, g7⟩ := h.pair a hp
    have hba' : b ⟨a + 1, g1⟩ = a := by
      rcases hb1 ⟨a + 1, g1⟩ with ⟨e, n'⟩ | ⟨e, p⟩
      · exact (n' ⟨a, hp, rfl⟩).elim
      · dsimp only at e
        omega
    have hmem : ∀ i : Fin n, b i = a → i = ⟨a, han⟩ ∨ i = ⟨a + 1, g1⟩ := by
      intro i hi
      rcases hb1 i with ⟨e, -⟩ | ⟨e, -⟩
      · exact .inl (Fin.ext (by show (i : Nat) = a; omega))
      · exact .inr (Fin.ext (by show (i : Nat) = a + 1; omega))
    have hne : (⟨a, han⟩ : Fin n) ≠ ⟨a + 1, g1⟩ := fun h => by
      have := congrArg Fin.val h
      dsimp only at this
      omega
    have hfil : univ.filter (fun i => b i = a) = {⟨a, han⟩, ⟨a + 1, g1⟩} := by
      ext i
      simp only [mem_filter, mem_univ, true_and, mem_insert, mem_singleton]
      exact ⟨hmem i, by rintro (rfl | rfl) <;> assumption⟩
    rw [hfil, prod_pair hne]
    let eq : {i // b i = a} ≃ Fin 2 :=
      { toFun := fun i => if i.1 = ⟨a, han⟩ then 0 else 1
        invFun := fun k => if k = 0 then ⟨⟨a, han⟩, hba⟩ else ⟨⟨a + 1, g1⟩, hba'⟩
        left_inv := by
          rintro ⟨i, hi⟩
          rcases hmem i hi with rfl | rfl
          · simp
          · simp [hne.symm]
        right_inv := by
          intro k
          fin_cases k
          · simp
          · simp [hne.symm] }
    rw [← Matrix.charpoly_reindex eq, Matrix.charpoly_fin_two]
    have t00 : (Matrix.reindex eq eq (Matrix.toSquareBlock ((mx n n T).map Complex.ofReal) b a)) 0 0 = T a a := rfl
    have t01 : (Matrix.reindex eq eq (Matrix.toSquareBlock ((mx n n T).map Complex.ofReal) b a)) 0 1 = T a (a + 1) :=
      rfl
    have t10 : (Matrix.reindex eq eq (Matrix.toSquareBlock ((mx n n T).map Complex.ofReal) b a)) 1 0 = T (a + 1) a :=
      rfl
    have t11 : (Matrix.reindex eq eq (Matrix.toSquareBlock ((mx n n T).map Complex.ofReal) b a)) 1 1 =
      T (a + 1) (a + 1) := rfl
    rw [Matrix.trace_fin_two, Matrix.det_fin_two, t00, t01, t10, t11]
    dsimp only
    rw [g6, g7]
    have hsum : ((T a a : ℝ) : ℂ) + T (a + 1) (a + 1) = 2 * re a := by
      rw [g4]
      push_cast
      ring
    have him : im a ^ 2 = -(((T a a - T (a + 1) (a + 1)) / 2) ^ 2 + T (a + 1) a * T a (a + 1)) := by
      rw [g5, Real.sq_sqrt (abs_nonneg _), abs_of_nonpos (hd a hp)]
    have hprod : ((T a a : ℝ) : ℂ) * T (a + 1) (a + 1) - T a (a + 1) * T (a + 1) a = re a ^ 2 + im a ^ 2 := by
      have : (T a a * T (a + 1) (a + 1) - T a (a + 1) * T (a + 1) a : ℝ) = re a ^ 2 + im a ^ 2 := by
        rw [him, g4]
        ring
      exact_mod_cast congrArg Complex.ofReal this
    rw [hsum, hprod]
    have hI : (im a : ℂ) ^ 2 = -((im a : ℂ) * Complex.I) ^ 2 := by
      rw [mul_pow, Complex.I_sq]
      ring
    rw [hI]
    simp only [map_mul, map_add, map_neg, map_pow, Complex.ofReal_neg, neg_mul]
    rw [show (C (2 : ℂ)) = 2 from rfl]
    ring
  · have hmem : ∀ i : Fin n, b i = a → i = ⟨a, han⟩ := by
      intro i hi
      rcases hb1 i with ⟨e, -⟩ | ⟨e, p⟩
      · exact Fin.ext (by show (i : Nat) = a; omega)
      · rw [hi] at p
        exact (hp p).elim
    have hfil : univ.filter (fun i => b i = a) = {⟨a, han⟩} := by
      ext i
      simp only [mem_filter, mem_univ, true_and, mem_singleton]
      exact ⟨hmem i, by rintro rfl; exact hba⟩
    rw [hfil, prod_singleton]
    have hl : ∀ l, pr l → a ≠ l + 1 := by
      intro l hl e
      rcases hb1 ⟨a, han⟩ with ⟨-, n'⟩ | ⟨-, p⟩
      · exact n' ⟨l, hl, e⟩
      · rw [hba] at p
        exact hp p
    obtain ⟨g1, g2, -⟩ := h.single a han hp hl
    let uq : Unique {i // b i = a} := ⟨⟨⟨⟨a, han⟩, hba⟩⟩, fun ⟨i, hi⟩ => Subtype.ext (hmem i hi)⟩
    unfold Matrix.charpoly
    rw [Matrix.det_unique]
    rw [Matrix.charmatrix_apply_eq]
    dsimp only
    rw [g1, g2]
    simp only [Complex.ofReal_zero, zero_mul, add_zero]
    rfl

/-- The position of imaginary parts: a positive one is not the last, a negative one not the first. -/
private theorem reads_position {tol : ℝ} {T : Nat → Nat → ℝ} {re im : Nat → ℝ} {pr : Nat → Prop}
    (h : ReadsOff tol n T re im pr) {k : Nat} (hk : k < n) :
    (0 < im k → k + 1 < n) ∧ (im k < 0 → 1 ≤ k) := by
  by_cases hp : pr k
  · obtain ⟨g1, -, -, -, g5, -, -⟩ := h.pair k hp
    refine ⟨fun _ => g1, fun hlt => ?_⟩
    rw [g5] at hlt
    exact absurd (Real.sqrt_nonneg _) (not_le.2 hlt)
  · by_cases hl : ∃ l, pr l ∧ k = l + 1
    · obtain ⟨l, hl, rfl⟩ := hl
      obtain ⟨g1, -, -, -, g5, -, g7⟩ := h.pair l hl
      refine ⟨fun hlt => ?_, fun _ => by omega⟩
      rw [g7, g5] at hlt
      have := Real.sqrt_nonneg |((T l l - T (l + 1) (l + 1)) / 2) ^ 2 + T (l + 1) l * T l (l + 1)|
      linarith
    · have := (h.single k hk hp fun l h1 h2 => hl ⟨l, h1, h2⟩).2.1
      rw [this]
      exact ⟨fun h => absurd h (lt_irrefl _), fun h => absurd h (lt_irrefl _)⟩

private theorem compare_zero {x tol : ℝ} (ht : 0 ≤ tol) :
    (compareTo x Flt.zero tol > 0 ↔ tol < x) ∧ (compareTo x Flt.zero tol < 0 ↔ x < -tol) := by
  unfold compareTo equalsWithError
  simp only [Exact.ulpEq_eq, Exact.le_eq, Exact.lt_eq, Exact.abs_eq, Exact.sub_eq, Exact.zero_eq, zero_sub, abs_neg,
    Bool.or_eq_true, decide_eq_true_eq]
  by_cases h1 : x = 0 ∨ |x| ≤ tol
  · rw [if_pos h1]
    have : |x| ≤ tol := by
      rcases h1 with rfl | h1
      · simpa using ht
      · exact h1
    obtain ⟨g1, g2⟩ := abs_le.1 this
    constructor
    · exact ⟨fun h => absurd h (lt_irrefl _), fun h => by linarith⟩
    · exact ⟨fun h => absurd h (lt_irrefl _), fun h => by linarith⟩
  · rw [if_neg h1]
    have hx : tol < |x| := not_le.1 fun h => h1 (.inr h)
    by_cases h2 : x < 0
    · rw [if_pos h2]
      rw [abs_of_neg h2] at hx
      exact ⟨⟨fun h => by norm_num at h, fun h => by linarith⟩, ⟨fun _ => by linarith, fun _ => by norm_num⟩⟩
    · rw [if_neg h2]
      rw [abs_of_nonneg (not_lt.1 h2)] at hx
      exact ⟨⟨fun _ => hx, fun _ => by norm_num⟩, ⟨fun h => by norm_num at h, fun h => by linarith⟩⟩

/-- **C64, general matrices.** `D` of a result: real parts on the diagonal, and for each pair the imaginary parts
beside it. -/
theorem C64_general (σ : Schur.Lit ℝ) (κ : Eig.Lit ℝ) (hκ : 0 ≤ κ.epsEd) (hh : κ.half = 1 / 2) {a : Mat ℝ n n}
    (ha : a.own) (hn : 0 < n) {fuel : Nat} {e : Eig ℝ n} (h : Eig.newGen σ κ fuel a = .ok (some e)) :
    ∃ md : Mat ℝ n n, e.dMat κ.epsEd = .ok ⟨n, n, md⟩ ∧ md.own ∧ Shows md.at n n (fun i j =>
      if i = j then e.re.f i else if j = i + 1 ∧ κ.epsEd < e.im.f i then e.im.f i
      else if j + 1 = i ∧ e.im.f i < -κ.epsEd then e.im.f i else 0) := by
  obtain ⟨s, pr, -, hr⟩ := C76_reads σ κ hκ hh ha hn h
  obtain ⟨md, e1, h1, h2⟩ := C64_diagonal κ.epsEd e hn
    (fun i hi hc => (reads_position hr hi).1 (lt_of_le_of_lt hκ ((compare_zero hκ).1.1 hc)))
    (fun i hi hc => (reads_position hr hi).2 (lt_of_lt_of_le ((compare_zero hκ).2.1 hc) (by linarith)))
  refine ⟨md, e1, h1, h2.congr fun i j hi hj => ?_⟩
  simp only [(compare_zero hκ).1, (compare_zero hκ).2]
  by_cases hij : i = j
  · subst hij
    simp
  · simp [hij]

/-- **C77, the part that holds.** A result of the symmetric branch has no complex eigenvalues, and neither has one whose
Schur form has no entry below the diagonal above the tolerance. Missing: other matrices with real eigenvalues, for
which the claim is false (`C77_pairs_false`). -/
theorem C77_pairs_partial (κ : Eig.Lit ℝ) (hκ : 0 ≤ κ.epsEd) {a : Mat ℝ n n} :
    (∀ e : Eig ℝ n, Eig.newSym κ.eps a = .ok e → e.hasComplex κ.epsEd = false) ∧
    (∀ (σ : Schur.Lit ℝ) (fuel : Nat) (e : Eig ℝ n) (s : Schur ℝ n), a.own → 0 < n → κ.half = 1 / 2 →
      Eig.newGen σ κ fuel a = .ok (some e) → Schur.new σ fuel a = .ok (some s) →
      (∀ k, k + 1 < n → |s.t.f (k + 1) k| ≤ κ.epsEd) → e.hasComplex κ.epsEd = false) := by
  have key : ∀ e : Eig ℝ n, (∀ i, i < n → e.im.f i = 0) → e.hasComplex κ.epsEd = false := by
    intro e he
    unfold Eig.hasComplex
    rw [List.any_eq_false]
    intro i hi
    rw [he i (List.mem_range.1 hi)]
    simp [equalsWithError]
  refine ⟨fun e he => key e fun i _ => ?_, fun σ fuel e s ha hn hh he hs hT => key e fun i hi => ?_⟩
  · unfold Eig.newSym Eig.findSym at he
    simp only [bind, Except.bind, pure, Except.pure] at he
    repeat' split at he
    all_goals first | cases he; exact Exact.zero_eq | cases he
  · obtain ⟨s', pr, hs', hr⟩ := C76_reads σ κ hκ hh ha hn he
    rw [hs] at hs'
    cases hs'
    have hp : ∀ k, ¬ pr k := fun k hk => by
      obtain ⟨g1, -, g3, -⟩ := hr.pair k hk
      exact absurd (hT k g1) (not_le.2 g3)
    exact (hr.single i hi (hp i) fun l hl => (hp l hl).elim).2.1

/-! ## Cases that meet the hypotheses -/

/-- A real matrix with two complex eigenvalues, and any literals of the right kind. -/
def Spec.eigSpin : Mat ℝ 2 2 := .arr ⟨⟨fun i j => if i = j then 1 else if i < j then -2 else 3⟩, fun _ => 0⟩

example (σ : Schur.Lit ℝ) (hσ : 0 < σ.eps) (κ : Eig.Lit ℝ) (hκ : κ.epsEd = 1 / 10 ^ 12) (hh : κ.half = 1 / 2) :
    ∃ e, Eig.newGen σ κ 202 eigSpin = .ok (some e) ∧ ∑ i ∈ range 2, e.re.f i = 2 ∧ ∑ i ∈ range 2, e.im.f i = 0 := by
  have hA := Mat.at_shows eigSpin
  have ht : (mx 2 2 eigSpin.ent).trace = 2 := by
    rw [Matrix.trace_fin_two]
    simp only [mx, Mat.ent, eigSpin]
    norm_num
  obtain ⟨e, he⟩ := C76_small σ hσ κ (by rw [hκ]; norm_num) (show eigSpin.own from trivial) (by omega) (by omega) hA
    (by rw [ht, hκ]; norm_num) (show 2 ≤ 202 by omega)
  have h0 : mx 2 2 eigSpin.ent ≠ 0 := by
    intro h
    rw [h, Matrix.trace_zero] at ht
    norm_num at ht
  obtain ⟨h1, h2⟩ := C76_trace σ hσ κ (by rw [hκ]; norm_num) hh (show eigSpin.own from trivial) (by omega) hA h0 he
  exact ⟨e, he, by rw [h1, ht], h2⟩

/-- A table with the block `[[0, -1], [1, 0]]` and the single entry 5: the numbers `i`, `-i` and 5. -/
example : ReadsOff (1 / 2) 3 (fun i j => if i = 2 ∧ j = 2 then 5 else if i = 0 ∧ j = 1 then -1
      else if i = 1 ∧ j = 0 then 1 else 0)
    (fun k => if k = 2 then 5 else 0) (fun k => if k = 0 then 1 else if k = 1 then -1 else 0) (fun k => k = 0) := by
  refine ⟨?_, ?_⟩
  · rintro k rfl
    norm_num
  · intro k hk h0 h1
    have := h1 0 rfl
    have : k = 2 := by omega
    subst this
    norm_num

/-! ## C77: the tolerance for pairs -/

/-- The literals of the code. -/
def Spec.codeLit : Schur.Lit ℚ := ⟨1 / 2 ^ 53, 3 / 4, -7 / 16, 241 / 250⟩

/-- The literals of the code, with exact division. -/
def Spec.codeEigLit : Eig.Lit ℚ := ⟨1 / 2 ^ 53, 1 / 10 ^ 12, 1 / 2, fun a b =>
  ((a.1 * b.1 + a.2 * b.2) / (b.1 * b.1 + b.2 * b.2), (a.2 * b.1 - a.1 * b.2) / (b.1 * b.1 + b.2 * b.2))⟩

/-- Two real eigenvalues, close to 2000000 and 1000000. -/
def Spec.eigWide : Mat ℚ 2 2 :=
  .arr ⟨⟨fun i j => if i = j then (if i = 0 then 2000000 else 1000000) else if i < j then 1 else 1 / 10 ^ 11⟩,
    fun _ => 0⟩

/-- **C77, code and documentation disagree.** The Schur iteration neglects entries relative to the size of the matrix, but
the eigenvalues are then paired by an absolute tolerance. With the literals of the code the matrix
`[[2000000, 1], [1e-11, 1000000]]`, whose characteristic polynomial has a positive discriminant, gets two complex
eigenvalues `1500000 ± 500000 i`. -/
theorem C77_pairs_false : ∃ s, Eig.new codeLit codeEigLit (40 / 2 ^ 53) 202 eigWide = .ok (some s) ∧
    s.re.toList = [1500000, 1500000] ∧ 499999 < s.im.f 0 ∧ s.hasComplex codeEigLit.epsEd = true ∧
    0 < (mx 2 2 eigWide.ent).trace ^ 2 - 4 * (mx 2 2 eigWide.ent).det := by
  have h : (Eig.new codeLit codeEigLit (40 / 2 ^ 53) 202 eigWide).toOption.map (·.map (fun s =>
      (s.re.toList, decide (499999 < s.im.f 0), s.hasComplex codeEigLit.epsEd))) =
      some (some ([1500000, 1500000], true, true)) := by decide +kernel
  have hd : 0 < (mx 2 2 eigWide.ent).trace ^ 2 - 4 * (mx 2 2 eigWide.ent).det := by
    rw [Matrix.trace_fin_two, Matrix.det_fin_two]
    simp only [mx, Mat.ent, eigWide]
    norm_num
  cases e : Eig.new codeLit codeEigLit (40 / 2 ^ 53) 202 eigWide with
  | error x => rw [e] at h; cases h
  | ok o =>
    cases o with
    | none => rw [e] at h; cases h
    | some s =>
      rw [e] at h
      have h' : (s.re.toList, decide (499999 < s.im.f 0), s.hasComplex codeEigLit.epsEd) =
        ([1500000, 1500000], true, true) := Option.some.inj (Option.some.inj h)
      obtain ⟨h1, h2⟩ := Prod.mk.inj h'
      obtain ⟨h2, h3⟩ := Prod.mk.inj h2
      exact ⟨s, rfl, h1, of_decide_eq_true h2, h3, hd⟩

/-- An upper triangular matrix of small entries. -/
def Spec.eigSmall : Mat ℚ 2 2 :=
  .arr ⟨⟨fun i j => if i = j then (if i = 0 then 2 / 10 ^ 13 else 1 / 10 ^ 13) else if i < j then 1 / 10 ^ 13 else 0⟩,
    fun _ => 0⟩

/-- **C76, a matrix that is not zero is refused.** The norm of the form is compared with an absolute tolerance: with the
literals of the code the matrix `[[2e-13, 1e-13], [0, 1e-13]]`, with eigenvalues `2e-13` and `1e-13`, gets the error for
a form of norm zero. -/
theorem C76_small_refused : Eig.newGen codeLit codeEigLit 202 eigSmall = .error (.err .arith) ∧
    (mx 2 2 eigSmall.ent).det ≠ 0 := by
  constructor
  · have h : (match Eig.newGen codeLit codeEigLit 202 eigSmall with
        | .error (.err .arith) => true
        | _ => false) = true := by decide +kernel
    cases e : Eig.newGen codeLit codeEigLit 202 eigSmall with
    | ok o => rw [e] at h; cases h
    | error f =>
      rw [e] at h
      split at h
      · rename_i heq
        exact heq
      · cases h
  · rw [Matrix.det_fin_two]
    simp only [mx, Mat.ent, eigSmall]
    norm_num

end Linear
