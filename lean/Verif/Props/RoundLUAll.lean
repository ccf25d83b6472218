import Verif.Lemmas.RoundLUAll
import Verif.Props.RoundLU

/-!
# C99: the LU decomposition in rounded arithmetic, for every matrix of moderate size

C82 speaks of finite factors.  Here nothing is assumed of the outcome: when the entries of the matrix leave
room for their growth, about `2ⁿ`, the factors are finite; and a matrix that is reported singular is near
a singular one.  `u`, `η` and `gam` are as in C82, `big` is a magnitude up to which nothing overflows,
`growth = (1 + u)(2 + u)`.
-/

set_option linter.unusedSectionVars false

namespace Linear

open Spec Rnd
open Finset hiding val diag

variable {α : Type} [Flt α] [Rnd α] {n : Nat}

/-- **C99.** For a matrix with entries of magnitude at most `M`, with `growthⁿ (M + η) ≤ big`, and a positive
threshold: the decomposition ends, and either it is not singular, `L` and `U` are finite, `L` has magnitudes
at most 1, row `i` of `U` has magnitudes at most `growthⁱ (M + η)`, and `L U` is near `P A` — or it is reported
singular, and there is a singular matrix that differs from `A` by at most the same error, and by the threshold
in addition in one column. -/
theorem C99_total {thr ninf : α} (hinf : ∀ x, fin x → Flt.lt ninf (Flt.abs x) = true)
    (ht : fin thr) (ht0 : 0 < val thr) {m : Mat α n n} (hm : m.own) (hn : 0 < n) {A : Nat → Nat → α}
    (hA : Shows m.at n n A) {M : ℝ} (hM : ∀ i j, i < n → j < n → fin (A i j) ∧ |val (A i j)| ≤ M)
    (hb : growth α ^ n * (M + η α) ≤ big α) :
    ∃ d, LU.new thr ninf m = .ok d ∧
      ((d.singular = false ∧ ∃ (l r : Mat α n n) (L U : Nat → Nat → α) (σ : Equiv.Perm (Fin n)),
          d.l = .ok (some l) ∧ d.u = .ok (some r) ∧ Shows l.at n n L ∧ Shows r.at n n U ∧ PivotIs d.pivots σ ∧
          (∀ i j, i < n → j < n → fin (L i j) ∧ |val (L i j)| ≤ 1) ∧
          (∀ i j, i < n → j < n → fin (U i j) ∧ |val (U i j)| ≤ growth α ^ i * (M + η α)) ∧
          (∀ i, i < n → val thr ≤ |val (U i i)|) ∧
          ∀ i j : Fin n, |∑ k ∈ range n, val (L i k) * val (U k j) - val (A (σ i) j)| ≤
            luRound α n (M + η α)) ∨
       (d.singular = true ∧ ∃ (k : Fin n) (B : Matrix (Fin n) (Fin n) ℝ), B.det = 0 ∧
          ∀ i j : Fin n, |B i j - val (A i j)| ≤ luRound α n (M + η α) + if j = k then val thr else 0)) := by
  have hM0 : 0 ≤ M := (abs_nonneg _).trans (hM 0 0 hn hn).2
  have hη := η_nonneg (α := α)
  have hT : 0 ≤ M + η α := by linarith
  obtain ⟨d, e, h⟩ := LU.new_fine hinf ht ht0 hm hn hA hM hb
  refine ⟨d, e, ?_⟩
  rcases h with h | h
  · obtain ⟨hs, ⟨σ, hσ⟩, hI, hF, hD⟩ := h
    obtain ⟨l, el, hl⟩ := LU.l_ok hn hs
    obtain ⟨r, er, hr⟩ := LU.u_ok hn hs
    have eL : ∀ i j, i < n → j < n → _ = LU.lf d.lu.f i j := fun i j => LU.lf_shows hn hs el hl
    have eU : ∀ i j, i < n → j < n → _ = LU.uf d.lu.f i j := fun i j => LU.uf_shows hn hs er hr
    have fL : ∀ i j, i < n → j < n → fin (LU.lf d.lu.f i j) ∧ |val (LU.lf d.lu.f i j)| ≤ 1 := by
      intro i j hi hj
      unfold LU.lf
      split
      · exact ⟨(hF i j hi hj hj).1, (hF i j hi hj hj).2.2 (by assumption)⟩
      · split
        · exact ⟨one_fin, by rw [val_one, abs_one]⟩
        · exact ⟨zero_fin, by rw [val_zero, abs_zero]; exact zero_le_one⟩
    have fU : ∀ i j, i < n → j < n → fin (LU.uf d.lu.f i j) ∧
        |val (LU.uf d.lu.f i j)| ≤ growth α ^ i * (M + η α) := by
      intro i j hi hj
      unfold LU.uf
      split
      · refine ⟨(hF i j hi hj hj).1, ?_⟩
        have := (hF i j hi hj hj).2.1 (by assumption)
        linarith
      · refine ⟨zero_fin, ?_⟩
        rw [val_zero, abs_zero]
        exact mul_nonneg (pow_nonneg (by linarith [two_le_growth (α := α)]) _) hT
    refine .inl ⟨hs, l, r, LU.lf d.lu.f, LU.uf d.lu.f, σ, el, er, hl.congr eL, hr.congr eU,
      LU.pivots_is hσ.1, fL, fU, fun i hi => ?_, fun i j => ?_⟩
    · unfold LU.uf
      rw [if_pos le_rfl]
      exact hD i hi hi
    · obtain ⟨τ, hτ, -, -, h1⟩ := C82_backward hinf hm hn hA e hs el er (hl.congr eL) (hr.congr eU)
        fun i j hi hj => ⟨(fL i j hi hj).1, (fU i j hi hj).1⟩
      obtain rfl := LU.pivots_unique hτ (LU.pivots_is hσ.1)
      refine (h1 i j).trans ?_
      have hu := u_nonneg (α := α)
      have hS : ∑ k ∈ range n, |val (LU.lf d.lu.f i k)| * |val (LU.uf d.lu.f k j)| ≤
          growth α ^ n * (M + η α) := by
        have h2 := sum_growth (α := α) hT (m := n) (x := fun k => val (LU.lf d.lu.f i k))
          (y := fun k => val (LU.uf d.lu.f k j)) (fun k hk => (fL i k i.2 hk).2) fun k hk => (fU k j hk j.2).2
        rw [← range_eq_Ico] at h2
        exact h2.trans (mul_le_mul_of_nonneg_right (growth_sum n) hT)
      have hU : |val (LU.uf d.lu.f j j)| ≤ growth α ^ n * (M + η α) :=
        (fU j j j.2 j.2).2.trans (mul_le_mul_of_nonneg_right (growth_pow j.2.le) hT)
      have hg := gam_nonneg (α := α) n
      unfold luRound
      gcongr
  · exact .inr ⟨h.1, h.near hT ht0⟩

/-- **C99.** A matrix such that no matrix within the error and the threshold is singular is not reported
singular. -/
theorem C99_regular {thr ninf : α} (hinf : ∀ x, fin x → Flt.lt ninf (Flt.abs x) = true)
    (ht : fin thr) (ht0 : 0 < val thr) {m : Mat α n n} (hm : m.own) (hn : 0 < n) {A : Nat → Nat → α}
    (hA : Shows m.at n n A) {M : ℝ} (hM : ∀ i j, i < n → j < n → fin (A i j) ∧ |val (A i j)| ≤ M)
    (hb : growth α ^ n * (M + η α) ≤ big α)
    (hreg : ∀ B : Matrix (Fin n) (Fin n) ℝ,
      (∀ i j, |B i j - val (A i j)| ≤ luRound α n (M + η α) + val thr) → B.det ≠ 0) :
    ∃ d, LU.new thr ninf m = .ok d ∧ d.isNonSingular = true := by
  obtain ⟨d, e, h⟩ := C99_total hinf ht ht0 hm hn hA hM hb
  refine ⟨d, e, ?_⟩
  rcases h with ⟨h, -⟩ | ⟨-, k, B, hB, h⟩
  · simp [LU.isNonSingular, h]
  · refine absurd hB (hreg B fun i j => (h i j).trans ?_)
    split
    · exact le_rfl
    · linarith

/-! ## A case in binary64 -/

theorem Rnd.η_small : η α ≤ 1 / 100 := by
  have h1 := big_η (α := α)
  have h2 := big_le (α := α)
  have h3 := u_le (α := α)
  have h4 := η_nonneg (α := α)
  nlinarith [mul_le_mul_of_nonneg_right h2 h4]

theorem growth_le : growth α ≤ 4 := by
  unfold growth
  nlinarith [u_nonneg (α := α), u_le (α := α)]

/-- The matrix 2 1 / 2 4 of binary64 numbers with the threshold 1 meets the hypotheses of C99. -/
example : ∃ m : Mat B64 2 2, m.own ∧ Shows m.at 2 2 LU.caseA ∧
    (∀ x : B64, fin x → Flt.lt (B64.inf true) (Flt.abs x) = true) ∧
    fin (Flt.one : B64) ∧ 0 < val (Flt.one : B64) ∧
    (∀ i j, i < 2 → j < 2 → fin (LU.caseA i j) ∧ |val (LU.caseA i j)| ≤ 4) ∧
    growth B64 ^ 2 * (4 + η B64) ≤ big B64 := by
  refine ⟨.arr ⟨⟨LU.caseA⟩, fun _ => 0⟩, trivial, (Mat.at_shows _).congr fun i j hi hj => rfl, ?_, one_fin,
    by rw [val_one]; norm_num, fun i j hi hj => ?_, ?_⟩
  · rintro (_ | _ | _) h
    · rfl
    · exact h.elim
    · exact h.elim
  · unfold LU.caseA
    split
    · exact ⟨B64.int_fin _, by rw [B64.int_val]; norm_num⟩
    · split
      · exact ⟨B64.int_fin _, by rw [B64.int_val]; norm_num⟩
      · exact ⟨B64.int_fin _, by rw [B64.int_val]; norm_num⟩
  · have h1 := growth_le (α := B64)
    have h2 := two_le_growth (α := B64)
    have h3 := Rnd.η_small (α := B64)
    have h4 := η_nonneg (α := B64)
    have h5 := big_le (α := B64)
    have h6 : growth B64 ^ 2 ≤ 16 := by nlinarith
    nlinarith

end Linear
