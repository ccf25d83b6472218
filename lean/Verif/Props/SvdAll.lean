import Verif.Props.SvdUse

/-!
# C100: solving by the singular value decomposition, from the matrix to the solution
-/

set_option linter.unusedSectionVars false

namespace Linear

open Spec Finset Matrix

section exact

variable {K : Type} [Field K] [LinearOrder K] [IsStrictOrderedRing K] [Flt K] [Exact K] {r c p : Nat}

/-- A singular value, or 0 when it is not above the tolerance. -/
def Spec.cut (tol x : K) : K := if tol < x then x else 0

private theorem recip_cut {tol : K} (ht : 0 ≤ tol) (x : K) : recip tol (cut tol x) = recip tol x := by
  unfold cut recip
  by_cases h : tol < x
  · simp only [if_pos h]
  · simp only [if_neg h, if_neg (not_lt.2 ht)]

private theorem fro2_usv {U V : Nat → Nat → K} (hU : (mx r p U)ᵀ * mx r p U = 1) (hV : (mx c p V)ᵀ * mx c p V = 1)
    (σ : Nat → K) : fro2 (usv r c p U V σ) = ∑ i : Fin p, σ i ^ 2 := by
  unfold usv
  rw [fro2_right _ hV, fro2_left _ hU]
  unfold fro2
  refine sum_congr rfl fun i _ => ?_
  rw [sum_eq_single i]
  · rw [Matrix.diagonal_apply_eq]
  · intro j _ hj
    rw [Matrix.diagonal_apply_ne' _ hj, zero_pow two_ne_zero]
  · exact fun h => absurd (mem_univ _) h

private theorem usv_sub (U V : Nat → Nat → K) (σ τ : Nat → K) :
    usv r c p U V σ - usv r c p U V τ = usv r c p U V fun i => σ i - τ i := by
  ext i j
  rw [Matrix.sub_apply, usv_apply, usv_apply, usv_apply, ← sum_sub_distrib]
  exact sum_congr rfl fun k _ => by ring

/-- What the decomposition stands for when the singular values within the tolerance are dropped: a matrix whose rank is
`Rank`, whose Moore-Penrose inverse the solver applies, and whose distance from `U Σ Vᵀ` is at most `p tol`. -/
theorem Svd.cut_use {s : Svd K} {U V : Nat → Nat → K} {σ : Nat → K} (h : SortedSvd s r c p U V σ) (ht : 0 ≤ s.tol)
    (hr : 0 < r) (hc : 0 < c) (hp : 0 < p) :
    fro2 (usv r c p U V (fun i => cut s.tol (σ i)) - usv r c p U V σ) ≤ (p * s.tol) ^ 2 ∧
    s.rank = (usv r c p U V fun i => cut s.tol (σ i)).rank ∧
    ∃ (m : Mat K c r) (B : Nat → Nat → K), s.pinv = .ok ⟨c, r, m⟩ ∧ m.own ∧ Shows m.at c r B ∧
      Penrose (usv r c p U V fun i => cut s.tol (σ i)) (mx c r B) := by
  refine ⟨?_, ?_, ?_⟩
  · rw [usv_sub, fro2_usv h.left h.right]
    have hb : ∀ i : Fin p, (cut s.tol (σ i) - σ i) ^ 2 ≤ s.tol ^ 2 := by
      intro i
      have h0 := h.pos i i.2
      unfold cut
      split_ifs with hx
      · rw [sub_self, zero_pow two_ne_zero]
        positivity
      · rw [zero_sub, neg_sq]
        exact pow_le_pow_left₀ h0 (not_lt.1 hx) 2
    refine (sum_le_sum fun i _ => hb i).trans ?_
    rw [sum_const, card_univ, Fintype.card_fin, nsmul_eq_mul, mul_pow]
    refine mul_le_mul_of_nonneg_right ?_ (sq_nonneg _)
    have : (1 : K) ≤ p := by exact_mod_cast hp
    nlinarith
  · have hl : ∀ {q : Nat} (X : Matrix (Fin p) (Fin q) K) {t : Nat} {W : Matrix (Fin t) (Fin p) K}, Wᵀ * W = 1 →
        (W * X).rank = X.rank := fun X t W hW => by
      refine le_antisymm (Matrix.rank_mul_le_right _ _) ?_
      have := Matrix.rank_mul_le_right Wᵀ (W * X)
      rwa [← Matrix.mul_assoc, hW, Matrix.one_mul] at this
    rw [Svd.rank_count h.holds]
    unfold usv
    rw [Matrix.mul_assoc, hl _ h.left, ← Matrix.rank_transpose, Matrix.transpose_mul, Matrix.transpose_transpose,
      hl _ h.right, Matrix.rank_transpose, Matrix.rank_diagonal, Fintype.card_subtype, Finset.card_filter,
      Finset.card_filter, ← Fin.sum_univ_eq_sum_range (fun i => if s.tol < σ i then 1 else 0)]
    refine sum_congr rfl fun i _ => ?_
    unfold cut
    by_cases hx : s.tol < σ i
    · simp only [if_pos hx]
      rw [if_pos (lt_of_le_of_lt ht hx).ne']
    · simp only [if_neg hx]
      simp
  · obtain ⟨m, e, h1, h2⟩ := Svd.pinv_exact h.holds hr hc hp
    refine ⟨m, _, e, h1, h2, ?_⟩
    have : mx c r (fun i j => ∑ k ∈ range p, V i k * (U j k * recip s.tol (σ k))) =
        usv c r p V U fun i => recip s.tol (cut s.tol (σ i)) := by
      ext i j
      rw [usv_apply]
      exact sum_congr rfl fun k _ => by rw [recip_cut ht]; ring
    rw [this]
    refine penrose_usv h.left h.right ht fun i _ hi => ?_
    unfold cut at hi ⊢
    split_ifs at hi ⊢ with hx
    · exact absurd hx (not_lt.2 hi)
    · rfl

/-- **C100.** For every non-empty matrix the construction returns, and one matrix `A'` near `A` explains all that follows:
`Rank` is the rank of `A'`, the pseudo-inverse is the Moore-Penrose inverse of `A'`, and the solution for every right-hand
side is the solution of least squares with the smallest norm for `A'`. The distance of `A'` from `A` in Frobenius norm is at
most `(p - 1) (tiny + 2 eps N)`, for the entries that the iteration neglects, and `p tol` for the singular values that are
dropped; and the tolerance is at most the larger of its floor and `max r c` times `eps` times the size of the matrix. -/
theorem C100_solve [ExactSqrt K] [Archimedean K] {κ : Svd.Lit K} (hh : Spec.Hypot κ.hyp) (ht : 0 < κ.tiny)
    (hε : 0 ≤ κ.eps) (hfl : 0 ≤ κ.floor) (hcv : ∀ n, κ.conv n = n) {a : Mat K r c} (ha : a.own) (hr : 0 < r) (hc : 0 < c)
    {A : Nat → Nat → K} (hA : Shows a.at r c A) {N : K} (hN : 0 ≤ N) (hAN : fro2 (mx r c A) ≤ N ^ 2) :
    ∃ f, ∀ fuel, f ≤ fuel → ∃ (s : Svd K) (A' : Matrix (Fin r) (Fin c) K), Svd.new κ fuel a = .ok (some s) ∧
      fro2 (A' - mx r c A) ≤ (((min r c : Nat) : K) * s.tol + (min r c - 1 : Nat) * (κ.tiny + 2 * κ.eps * N)) ^ 2 ∧
      0 ≤ s.tol ∧
      s.tol ≤ max ((max r c : Nat) * (N + (min r c - 1 : Nat) * (κ.tiny + 2 * κ.eps * N)) * κ.eps) κ.floor ∧
      s.rank = A'.rank ∧
      (∃ (m : Mat K c r) (B : Nat → Nat → K), s.pinv = .ok ⟨c, r, m⟩ ∧ m.own ∧ Shows m.at c r B ∧
        Penrose A' (mx c r B)) ∧
      ∀ b : List K, b.length = r → ∃ x, s.solveVector (.arr b) = .ok x ∧ x.length = c ∧
        MinNorm A' (vc c x) (vc r b) := by
  obtain ⟨f, hf⟩ := C69_ends hh ht hε ha hr hc
  refine ⟨f, fun fuel hfu => ?_⟩
  obtain ⟨s, es⟩ := hf fuel hfu
  obtain ⟨U, V, σ, h1, h2, h3, h4, h5, h6⟩ := C68_factors hh ht.le hε fuel ha hr hc hA hN hAN es
  have hs : SortedSvd s r c (min r c) U V σ := ⟨h1, h2, h3, h5, h6⟩
  have hp : 0 < min r c := lt_min hr hc
  have hδ : 0 ≤ ((min r c - 1 : Nat) : K) * (κ.tiny + 2 * κ.eps * N) := by
    have := ht.le
    positivity
  -- the tolerance
  have htol : s.tol = max (((max r c : Nat) : K) * σ 0 * κ.eps) κ.floor := by
    rcases C67_safe κ fuel ha hr hc with e | ⟨s', U', V', σ', e, g1, g2⟩
    · rw [e] at es; cases es
    · rw [e] at es
      cases es
      have e0 : σ' 0 = σ 0 := by
        have k1 := g1.vals.2 0 hp
        have k2 := h1.vals.2 0 hp
        rw [k1] at k2
        exact Option.some.inj k2
      rw [g2, Exact.max_eq, Exact.mul_eq, Exact.mul_eq, hcv, e0]
  have ht0 : 0 ≤ s.tol := by rw [htol]; exact hfl.trans (le_max_right _ _)
  have hσ0 : σ 0 ≤ N + (min r c - 1 : Nat) * (κ.tiny + 2 * κ.eps * N) := by
    have k1 := fro2_add hN hδ hAN h4
    rw [add_sub_cancel, fro2_usv h2 h3] at k1
    have k2 : σ 0 ^ 2 ≤ ∑ i : Fin (min r c), σ i ^ 2 :=
      single_le_sum (f := fun i : Fin (min r c) => σ i ^ 2) (fun _ _ => sq_nonneg _) (mem_univ ⟨0, hp⟩)
    exact abs_le_of_sq_le_sq' (k2.trans k1) (add_nonneg hN hδ) |>.2
  obtain ⟨g1, g2, m, B, g3, g4, g5, g6⟩ := Svd.cut_use hs ht0 hr hc hp
  refine ⟨s, _, es, ?_, ht0, ?_, g2, ⟨m, B, g3, g4, g5, g6⟩, fun b hb => ?_⟩
  · have := fro2_add (mul_nonneg (Nat.cast_nonneg _) ht0) hδ g1 h4
    rwa [sub_add_sub_cancel] at this
  · rw [htol]
    refine max_le_max (mul_le_mul_of_nonneg_right (mul_le_mul_of_nonneg_left hσ0 (Nat.cast_nonneg _)) hε) le_rfl
  · unfold Svd.solveVector
    rw [g3, ok_bind]
    dsimp only
    rw [(C48_array g4 b).1]
    obtain ⟨l, el, hl⟩ := C11_operate g4 hc g5 (hb ▸ isList_nth b)
    refine ⟨l, el, hl.1, ?_⟩
    have : vc c l = (mx c r B).mulVec (vc r b) := by
      funext i
      show nth l i = _
      unfold nth
      rw [List.getD_eq_getElem?_getD, hl.2 i i.2, Option.getD_some]
      exact (Fin.sum_univ_eq_sum_range (fun j => B i j * nth b j) r).symm
    rw [this]
    exact g6.minNorm _

end exact

/-! ## A case that meets the hypotheses -/

example : ∃ f, ∀ fuel, f ≤ fuel → ∃ (s : Svd ℝ) (A' : Matrix (Fin 3) (Fin 2) ℝ),
    Svd.new svdReal fuel svdTall = .ok (some s) ∧ s.rank = A'.rank ∧
    ∀ b : List ℝ, b.length = 3 → ∃ x, s.solveVector (.arr b) = .ok x ∧ MinNorm A' (vc 2 x) (vc 3 b) := by
  obtain ⟨f, hf⟩ := C100_solve svdReal_hypot (by show (0 : ℝ) < 1 / 2 ^ 966; positivity)
    (by show (0 : ℝ) ≤ 1 / 2 ^ 52; positivity) (Real.sqrt_nonneg _) (fun _ => rfl) (a := svdTall) (show svdTall.own from trivial)
    (by omega) (by omega) svdTall.at_shows (N := 8) (by norm_num)
    (by
      simp [fro2, mx, Fin.sum_univ_succ, Mat.ent, svdTall]
      norm_num)
  refine ⟨f, fun fuel h => ?_⟩
  obtain ⟨s, A', e, -, -, -, g, -, h1⟩ := hf fuel h
  refine ⟨s, A', e, g, fun b hb => ?_⟩
  obtain ⟨x, e1, -, e2⟩ := h1 b hb
  exact ⟨x, e1, e2⟩

end Linear
