import Verif.Props.Svd
import Verif.Props.QR
import Verif.Props.Walks
import Mathlib.LinearAlgebra.Matrix.Rank

/-!
# C55, C70, C71, C72: what the singular value decomposition is used for
-/

set_option linter.unusedSectionVars false

namespace Linear

open Spec Finset Matrix

/-! ## The four Penrose equations -/

/-- `B` is the Moore-Penrose inverse of `A`. -/
structure Spec.Penrose {K : Type} [Field K] {r c : Nat} (A : Matrix (Fin r) (Fin c) K)
    (B : Matrix (Fin c) (Fin r) K) : Prop where
  aba : A * B * A = A
  bab : B * A * B = B
  ab : (A * B)ᵀ = A * B
  ba : (B * A)ᵀ = B * A

section exact

variable {K : Type} [Field K] [LinearOrder K] [IsStrictOrderedRing K] [Flt K] [Exact K] {r c p : Nat}

/-- The factor of a singular value in the pseudo-inverse. -/
def Spec.recip (tol s : K) : K := if tol < s then 1 / s else 0

theorem Svd.factor_exact (x : Svd K) (s : K) : x.factor s = recip x.tol s := by
  unfold Svd.factor recip
  rw [Exact.lt_eq, Exact.div_eq, Exact.one_eq, Exact.zero_eq]
  by_cases h : x.tol < s
  · rw [if_pos h, if_pos (by simp [h])]
  · rw [if_neg h, if_neg (by simp [h])]

theorem Spec.HoldsSvd.uT {α : Type} [Flt α] {s : Svd α} {U V : Nat → Nat → α} {σ : Nat → α}
    (h : HoldsSvd s r c p U V σ) (hr : 0 < r) :
    ∃ m : Mat α p r, s.uT = .ok ⟨p, r, m⟩ ∧ m.dense ∧ Shows m.at p r fun i j => U j i := by
  obtain ⟨sv, big, u, v, tol⟩ := s
  obtain ⟨-, ⟨mu, e, h1, h2⟩, -, -⟩ := h
  dsimp only at e
  subst e
  obtain ⟨m, e, h3, h4⟩ := C12_transpose h1 hr h2
  unfold Svd.uT
  dsimp only
  rw [e, ok_bind]
  exact ⟨m, rfl, h3, h4⟩

theorem Spec.HoldsSvd.vT {α : Type} [Flt α] {s : Svd α} {U V : Nat → Nat → α} {σ : Nat → α}
    (h : HoldsSvd s r c p U V σ) (hc : 0 < c) :
    ∃ m : Mat α p c, s.vT = .ok ⟨p, c, m⟩ ∧ m.dense ∧ Shows m.at p c fun i j => V j i := by
  obtain ⟨sv, big, u, v, tol⟩ := s
  obtain ⟨-, -, ⟨mv, e, h1, h2⟩, -⟩ := h
  dsimp only at e
  subst e
  obtain ⟨m, e, h3, h4⟩ := C12_transpose h1 hc h2
  unfold Svd.vT
  dsimp only
  rw [e, ok_bind]
  exact ⟨m, rfl, h3, h4⟩

/-- The pseudo-inverse as the code computes it. -/
theorem Svd.pinv_exact {s : Svd K} {U V : Nat → Nat → K} {σ : Nat → K} (h : HoldsSvd s r c p U V σ) (hr : 0 < r)
    (hc : 0 < c) (hp : 0 < p) :
    ∃ m : Mat K c r, s.pinv = .ok ⟨c, r, m⟩ ∧ m.own ∧ Shows m.at c r fun i j =>
      ∑ k ∈ range p, V i k * (U j k * recip s.tol (σ k)) := by
  obtain ⟨ut, e1, h1, h2⟩ := h.uT hr
  have hv := h.vals
  obtain ⟨mv, ev, v1, v2⟩ := h.right
  obtain ⟨d, e2, h3⟩ := Mat.dataCopy_ok (Mat.dense_own h1) hr h2
  obtain ⟨d', e3, h4, -⟩ := Tab.rowsLoop (ε := Fault) (a := 0) (b := p) (p := 0) (q := r)
    (fun i _ x => x * recip s.tol (σ i)) (t := d)
    (body := fun i (d : Tab K p r) => do
      let sv ← rdL s.sv i
      forUp 0 r (fun j (d : Tab K p r) => do
        d.set i j (Flt.mul (← d.get i j) (s.factor sv))) d)
    (fun i t' _ hi ht => by
      rw [rdL_eq_ok.2 (hv.2 i hi), ok_bind]
      obtain ⟨t'', e, q1, q2⟩ := Tab.rowLoop (ε := Fault) (a := 0) (b := r) (i := i)
        (fun _ x => x * recip s.tol (σ i)) (t := t')
        (body := fun j (d : Tab K p r) => do d.set i j (Flt.mul (← d.get i j) (s.factor (σ i))))
        (fun j t1 g1 g2 g3 => by
          rw [Tab.get_ok hi g2, ok_bind, Tab.set_ok hi g2, Svd.factor_exact, Exact.mul_eq, g3 _ _ (by omega)])
      exact ⟨t'', e, fun j g1 g2 => by rw [q1 j g1 g2, ht _ _ (by omega)], fun x y g => q2 x y (by omega)⟩)
  obtain ⟨mt, e4, h5, -⟩ := Arr.copyIn_ok (Jag.toLists_rect d') hp hr
  obtain ⟨m, e5, h6, h7⟩ := C10_product (Mat.dense_own v1) hc hp hr v2 (Mat.at_shows (.arr mt))
  unfold Svd.pinv
  rw [e1, ok_bind]
  dsimp only
  rw [e2, ok_bind, hv.1, e3, ok_bind, e4, must_ok, ok_bind]
  obtain ⟨sv, big, u, v, tol⟩ := s
  dsimp only at ev
  subst ev
  refine ⟨m, e5, h6, h7.congr fun i j hi hj => sum_congr rfl fun k hk => ?_⟩
  have hk := mem_range.1 hk
  congr 1
  show mt.data.f k j = _
  rw [h5 k j hk hj, h4 k j (Nat.zero_le _) hk (Nat.zero_le _) hj, h3 k j hk hj]

theorem usv_apply (U V : Nat → Nat → K) (σ : Nat → K) (i : Fin r) (j : Fin c) :
    usv r c p U V σ i j = ∑ k ∈ range p, U i k * σ k * V j k := by
  unfold usv
  rw [Matrix.mul_apply, ← Fin.sum_univ_eq_sum_range (fun k => U i k * σ k * V j k)]
  refine sum_congr rfl fun k _ => ?_
  rw [Matrix.mul_diagonal, Matrix.transpose_apply]
  rfl

theorem usv_transpose (U V : Nat → Nat → K) (σ : Nat → K) : (usv r c p U V σ)ᵀ = usv c r p V U σ := by
  unfold usv
  rw [Matrix.transpose_mul, Matrix.transpose_mul, Matrix.transpose_transpose, Matrix.diagonal_transpose,
    ← Matrix.mul_assoc]

theorem usv_congr {U V : Nat → Nat → K} {σ τ : Nat → K} (h : ∀ i, i < p → σ i = τ i) :
    usv r c p U V σ = usv r c p U V τ := by
  unfold usv
  rw [show (fun i : Fin p => σ i) = fun i : Fin p => τ i from funext fun i => h i i.2]

theorem usv_mul {q : Nat} {U V W : Nat → Nat → K} (σ τ : Nat → K) (h : (mx c p V)ᵀ * mx c p V = 1) :
    usv r c p U V σ * usv c q p V W τ = usv r q p U W fun i => σ i * τ i := by
  unfold usv
  have : mx r p U * Matrix.diagonal (fun i : Fin p => σ i) * (mx c p V)ᵀ *
      (mx c p V * Matrix.diagonal (fun i : Fin p => τ i) * (mx q p W)ᵀ) =
      mx r p U * Matrix.diagonal (fun i : Fin p => σ i) * ((mx c p V)ᵀ * mx c p V) *
        Matrix.diagonal (fun i : Fin p => τ i) * (mx q p W)ᵀ := by
    simp only [Matrix.mul_assoc]
  rw [this, h, Matrix.mul_one, Matrix.mul_assoc (mx r p U), Matrix.diagonal_mul_diagonal]

/-- The pseudo-inverse of the specification. -/
theorem penrose_usv {U V : Nat → Nat → K} {σ : Nat → K} {tol : K} (hU : (mx r p U)ᵀ * mx r p U = 1)
    (hV : (mx c p V)ᵀ * mx c p V = 1) (ht : 0 ≤ tol) (hgap : ∀ i, i < p → σ i ≤ tol → σ i = 0) :
    Penrose (usv r c p U V σ) (usv c r p V U fun i => recip tol (σ i)) := by
  have h1 : ∀ i, i < p → σ i * recip tol (σ i) * σ i = σ i := fun i hi => by
    unfold recip
    split_ifs with h
    · have : σ i ≠ 0 := (lt_of_le_of_lt ht h).ne'
      field_simp
    · rw [hgap i hi (not_lt.1 h), mul_zero]
  have h2 : ∀ i, i < p → recip tol (σ i) * σ i * recip tol (σ i) = recip tol (σ i) := fun i hi => by
    unfold recip
    split_ifs with h
    · have : σ i ≠ 0 := (lt_of_le_of_lt ht h).ne'
      field_simp
    · rw [mul_zero]
  refine ⟨?_, ?_, ?_, ?_⟩
  · rw [usv_mul _ _ hV, usv_mul _ _ hU]
    exact usv_congr h1
  · rw [usv_mul _ _ hU, usv_mul _ _ hV]
    exact usv_congr h2
  · rw [usv_mul _ _ hV, usv_transpose]
  · rw [usv_mul _ _ hU, usv_transpose]

/-- The hypotheses of C55: the decomposition holds `A` with orthonormal singular vectors, the tolerance is not negative,
and no singular value is positive and at or below the tolerance. -/
structure Spec.GoodSvd (s : Svd K) (r c p : Nat) (U V : Nat → Nat → K) (σ : Nat → K) : Prop where
  holds : HoldsSvd s r c p U V σ
  left : (mx r p U)ᵀ * mx r p U = 1
  right : (mx c p V)ᵀ * mx c p V = 1
  tol : 0 ≤ s.tol
  gap : ∀ i, i < p → σ i ≤ s.tol → σ i = 0

/-- C55: the matrix that the solver applies, and that `Inverse` returns, is the Moore-Penrose inverse of the matrix. -/
theorem C55_penrose {s : Svd K} {U V : Nat → Nat → K} {σ : Nat → K} (h : GoodSvd s r c p U V σ) (hr : 0 < r)
    (hc : 0 < c) (hp : 0 < p) {A : Nat → Nat → K} (hA : usv r c p U V σ = mx r c A) :
    ∃ (m : Mat K c r) (B : Nat → Nat → K), s.pinv = .ok ⟨c, r, m⟩ ∧ m.own ∧ Shows m.at c r B ∧
      Penrose (mx r c A) (mx c r B) := by
  obtain ⟨m, e, h1, h2⟩ := Svd.pinv_exact h.holds hr hc hp
  refine ⟨m, _, e, h1, h2, ?_⟩
  have : mx c r (fun i j => ∑ k ∈ range p, V i k * (U j k * recip s.tol (σ k))) =
      usv c r p V U fun i => recip s.tol (σ i) := by
    ext i j
    rw [usv_apply]
    exact sum_congr rfl fun k _ => by ring
  rw [this, ← hA]
  exact penrose_usv h.left h.right h.tol h.gap

/-! ## The solutions -/

/-- `x` has the smallest sum of squares of the residuals and, among all vectors with that sum, it alone has the
smallest Euclidean norm. -/
def Spec.MinNorm (M : Matrix (Fin r) (Fin c) K) (x : Fin c → K) (b : Fin r → K) : Prop :=
  ∀ z, resid M x b ≤ resid M z b ∧
    (resid M z b = resid M x b → x ⬝ᵥ x ≤ z ⬝ᵥ z ∧ (z ⬝ᵥ z = x ⬝ᵥ x → z = x))

theorem resid_dot (M : Matrix (Fin r) (Fin c) K) (x : Fin c → K) (b : Fin r → K) :
    resid M x b = (M.mulVec x - b) ⬝ᵥ (M.mulVec x - b) := by
  unfold resid dotProduct
  refine sum_congr rfl fun i _ => ?_
  rw [Pi.sub_apply, ← sq]
  rfl

theorem dot_nonneg (x : Fin c → K) : 0 ≤ x ⬝ᵥ x := sum_nonneg fun i _ => mul_self_nonneg (x i)

theorem dot_zero {x : Fin c → K} (h : x ⬝ᵥ x = 0) : x = 0 := by
  funext i
  have := (sum_eq_zero_iff_of_nonneg fun i _ => mul_self_nonneg (x i)).1 h i (mem_univ i)
  exact mul_self_eq_zero.1 this

theorem Spec.Penrose.minNorm {A : Matrix (Fin r) (Fin c) K} {B : Matrix (Fin c) (Fin r) K} (h : Penrose A B)
    (b : Fin r → K) : MinNorm A (B.mulVec b) b := by
  intro z
  set x := B.mulVec b with hx
  have n1 : Aᵀ.mulVec (A.mulVec x - b) = 0 := by
    have e : Aᵀ * (A * B) = Aᵀ := by
      rw [← h.ab, ← Matrix.transpose_mul, h.aba]
    rw [Matrix.mulVec_sub, hx, Matrix.mulVec_mulVec, Matrix.mulVec_mulVec, Matrix.mul_assoc, e, sub_self]
  have key : resid A z b = resid A x b + A.mulVec (z - x) ⬝ᵥ A.mulVec (z - x) := by
    rw [resid_dot, resid_dot]
    have e : A.mulVec z - b = (A.mulVec x - b) + A.mulVec (z - x) := by
      rw [Matrix.mulVec_sub]; abel
    have e2 : (A.mulVec x - b) ⬝ᵥ A.mulVec (z - x) = 0 := by
      rw [Matrix.dotProduct_mulVec, ← Matrix.mulVec_transpose, n1, zero_dotProduct]
    rw [e, add_dotProduct, dotProduct_add, dotProduct_add, e2, dotProduct_comm (A.mulVec (z - x)), e2]
    ring
  have hn := dot_nonneg (A.mulVec (z - x))
  refine ⟨by linarith, fun he => ?_⟩
  have h0 : A.mulVec (z - x) = 0 := dot_zero (by linarith)
  have hxx : x = (B * A).mulVec x := by
    rw [hx, Matrix.mulVec_mulVec, h.bab]
  have e3 : x ⬝ᵥ (z - x) = 0 := by
    have : x ⬝ᵥ (z - x) = (B * A).mulVec x ⬝ᵥ (z - x) := by rw [← hxx]
    rw [this, ← h.ba, Matrix.mulVec_transpose, ← Matrix.dotProduct_mulVec, ← Matrix.mulVec_mulVec, h0,
      Matrix.mulVec_zero, dotProduct_zero]
  have e4 : z ⬝ᵥ z = x ⬝ᵥ x + (z - x) ⬝ᵥ (z - x) := by
    have : z = x + (z - x) := by abel
    conv_lhs => rw [this]
    rw [add_dotProduct, dotProduct_add, dotProduct_add, e3, dotProduct_comm (z - x), e3]
    ring
  have hn2 := dot_nonneg (z - x)
  refine ⟨by linarith, fun he2 => ?_⟩
  exact sub_eq_zero.1 (dot_zero (by linarith))

/-- C55: solving for a vector of the package gives the least squares solution with the smallest norm, and a vector of
the wrong length is refused. -/
theorem C55_vector {s : Svd K} {U V : Nat → Nat → K} {σ : Nat → K} (h : GoodSvd s r c p U V σ) (hr : 0 < r)
    (hc : 0 < c) (hp : 0 < p) {A : Nat → Nat → K} (hA : usv r c p U V σ = mx r c A) (b : List K) :
    (b.length = r → ∃ x, s.solveVector (.arr b) = .ok x ∧ x.length = c ∧
      MinNorm (mx r c A) (vc c x) (vc r b)) ∧
    (b.length ≠ r → s.solveVector (.arr b) = .error (.pan .dim)) := by
  obtain ⟨m, B, e, h1, h2, h3⟩ := C55_penrose h hr hc hp hA
  unfold Svd.solveVector
  rw [e, ok_bind]
  dsimp only
  rw [(C48_array h1 b).1]
  refine ⟨fun hb => ?_, fun hb => (C11_refused h1 hc b).1 hb⟩
  obtain ⟨l, el, hl⟩ := C11_operate h1 hc h2 (hb ▸ isList_nth b)
  refine ⟨l, el, hl.1, ?_⟩
  have : vc c l = (mx c r B).mulVec (vc r b) := by
    funext i
    show nth l i = _
    unfold nth
    rw [List.getD_eq_getElem?_getD, hl.2 i i.2, Option.getD_some]
    exact (Fin.sum_univ_eq_sum_range (fun j => B i j * nth b j) r).symm
  rw [this]
  exact h3.minNorm _

/-- C55: solving for a matrix solves for each of its columns. -/
theorem C55_matrix {s : Svd K} {U V : Nat → Nat → K} {σ : Nat → K} (h : GoodSvd s r c p U V σ) (hr : 0 < r)
    (hc : 0 < c) (hp : 0 < p) {A : Nat → Nat → K} (hA : usv r c p U V σ = mx r c A) {q : Nat} (hq : 0 < q)
    {b : Mat K r q} {Y : Nat → Nat → K} (hY : Shows b.at r q Y) :
    ∃ (x : Mat K c q) (X : Nat → Nat → K), s.solveMatrix ⟨r, q, b⟩ = .ok ⟨c, q, x⟩ ∧ x.own ∧ Shows x.at c q X ∧
      ∀ j : Fin q, MinNorm (mx r c A) (fun i => X i j) (fun i => Y i j) := by
  obtain ⟨m, B, e, h1, h2, h3⟩ := C55_penrose h hr hc hp hA
  unfold Svd.solveMatrix
  rw [e, ok_bind]
  obtain ⟨x, ex, x1, x2⟩ := C10_product h1 hc hr hq h2 hY
  refine ⟨x, _, ex, x1, x2, fun j => ?_⟩
  have : (fun i : Fin c => ∑ k ∈ range r, B i k * Y k j) = (mx c r B).mulVec fun i : Fin r => Y i j := by
    funext i
    rw [Matrix.mulVec, dotProduct, ← Fin.sum_univ_eq_sum_range (fun k => B i k * Y k j)]
    rfl
  rw [this]
  exact h3.minNorm _

/-! ## Rank and singularity -/

theorem Svd.rank_count {s : Svd K} {U V : Nat → Nat → K} {σ : Nat → K} (h : HoldsSvd s r c p U V σ) :
    s.rank = ((range p).filter fun i => s.tol < σ i).card := by
  unfold Svd.rank
  have e : s.sv = (List.range p).map σ := by
    refine List.ext_getElem? fun i => ?_
    by_cases hi : i < p
    · rw [h.vals.2 i hi]; simp [hi]
    · rw [List.getElem?_eq_none (by rw [h.vals.1]; omega), List.getElem?_eq_none (by simp; omega)]
  rw [e, List.filter_map, List.length_map]
  have : ((fun x => Flt.lt s.tol x) ∘ σ) = fun i => decide (s.tol < σ i) := by
    funext i
    simp
  rw [this]
  rfl

/-- C70: the rank is the number of singular values above the tolerance; it is the rank of the matrix when no singular
value is positive and at or below the tolerance. -/
theorem C70_rank {s : Svd K} {U V : Nat → Nat → K} {σ : Nat → K} (h : GoodSvd s r c p U V σ)
    {A : Nat → Nat → K} (hA : usv r c p U V σ = mx r c A) : s.rank = (mx r c A).rank := by
  have hl : ∀ {q : Nat} (X : Matrix (Fin p) (Fin q) K) {t : Nat} {W : Matrix (Fin t) (Fin p) K}, Wᵀ * W = 1 →
      (W * X).rank = X.rank := fun X t W hW => by
    refine le_antisymm (Matrix.rank_mul_le_right _ _) ?_
    have := Matrix.rank_mul_le_right Wᵀ (W * X)
    rwa [← Matrix.mul_assoc, hW, Matrix.one_mul] at this
  rw [Svd.rank_count h.holds, ← hA]
  unfold usv
  rw [Matrix.mul_assoc, hl _ h.left, ← Matrix.rank_transpose, Matrix.transpose_mul, Matrix.transpose_transpose,
    hl _ h.right, Matrix.rank_transpose, Matrix.rank_diagonal, Fintype.card_subtype, Finset.card_filter,
    Finset.card_filter, ← Fin.sum_univ_eq_sum_range (fun i => if s.tol < σ i then 1 else 0)]
  refine sum_congr rfl fun i _ => ?_
  by_cases c : s.tol < σ i
  · rw [if_pos c, if_pos (lt_of_le_of_lt h.tol c).ne']
  · rw [if_neg c, if_neg (not_not.2 (h.gap i i.2 (not_lt.1 c)))]

/-- C70: `IsNonSingular` holds exactly for the square matrices all of whose singular values exceed the tolerance. -/
theorem C70_isNonSingular {s : Svd K} {U V : Nat → Nat → K} {σ : Nat → K}
    (h : HoldsSvd s r c (min r c) U V σ) : s.isNonSingular = true ↔ r = c ∧ ∀ i, i < r → s.tol < σ i := by
  unfold Svd.isNonSingular
  rw [beq_iff_eq, Svd.rank_count h, h.big]
  have hle := card_filter_le (range (min r c)) fun i => s.tol < σ i
  rw [card_range] at hle
  constructor
  · intro e
    have hrc : r = c := by
      rcases Nat.lt_trichotomy r c with g | g | g <;> omega
    subst hrc
    refine ⟨rfl, fun i hi => ?_⟩
    rw [min_self, max_self] at e
    have := (card_filter_eq_iff (s := range r) (p := fun i => s.tol < σ i)).1 (by rw [e, card_range])
    exact this i (mem_range.2 hi)
  · rintro ⟨rfl, hi⟩
    rw [min_self, max_self, filter_true_of_mem (fun i g => hi i (mem_range.1 g)), card_range]

/-- C70: when `IsNonSingular` holds, the pseudo-inverse is the inverse, on both sides. -/
theorem C70_inverse {s : Svd K} {U V : Nat → Nat → K} {σ : Nat → K} (h : GoodSvd s r r r U V σ) (hr : 0 < r)
    {A : Nat → Nat → K} (hA : usv r r r U V σ = mx r r A) (hs : s.isNonSingular = true) :
    ∃ (m : Mat K r r) (B : Nat → Nat → K), s.pinv = .ok ⟨r, r, m⟩ ∧ Shows m.at r r B ∧
      mx r r A * mx r r B = 1 ∧ mx r r B * mx r r A = 1 := by
  obtain ⟨m, B, e, h1, h2, h3⟩ := C55_penrose h hr hr hr hA
  have hk := (C70_isNonSingular (r := r) (c := r) (by rw [min_self]; exact h.holds)).1 hs
  have hU : mx r r U * (mx r r U)ᵀ = 1 := mul_eq_one_comm.1 h.left
  have hinv : mx r r A * (usv r r r V U fun i => 1 / σ i) = 1 := by
    rw [← hA, usv_mul _ _ h.right, usv_congr (τ := fun _ => 1) fun i hi => ?_]
    · unfold usv
      rw [Matrix.diagonal_one, Matrix.mul_one, hU]
    · have : σ i ≠ 0 := (lt_of_le_of_lt h.tol (hk.2 i hi)).ne'
      field_simp
  have hB : mx r r B * mx r r A = 1 := by
    have := congrArg (fun X => (usv r r r V U fun i => 1 / σ i) * X) h3.aba
    rw [← Matrix.mul_assoc, ← Matrix.mul_assoc, mul_eq_one_comm.1 hinv, Matrix.one_mul] at this
    exact this
  exact ⟨m, B, e, h2, mul_eq_one_comm.1 hB, hB⟩

/-! ## Norm and condition number -/

theorem usv_sq {U V : Nat → Nat → K} {σ : Nat → K} (hU : (mx r p U)ᵀ * mx r p U = 1) (x : Fin c → K) :
    (usv r c p U V σ).mulVec x ⬝ᵥ (usv r c p U V σ).mulVec x =
      ∑ i : Fin p, (σ i) ^ 2 * ((mx c p V)ᵀ.mulVec x i) ^ 2 := by
  have e : (usv r c p U V σ).mulVec x =
      (mx r p U).mulVec ((Matrix.diagonal fun i : Fin p => σ i).mulVec ((mx c p V)ᵀ.mulVec x)) := by
    unfold usv
    rw [Matrix.mulVec_mulVec, Matrix.mulVec_mulVec, Matrix.mul_assoc]
  rw [e, Matrix.dotProduct_mulVec, Matrix.vecMul_mulVec, hU, Matrix.vecMul_one]
  unfold dotProduct
  refine sum_congr rfl fun i _ => ?_
  rw [Matrix.mulVec_diagonal]
  ring

/-- The coordinates along orthonormal vectors are not longer than the vector. -/
theorem bessel {V : Matrix (Fin c) (Fin p) K} (hV : Vᵀ * V = 1) (x : Fin c → K) :
    Vᵀ.mulVec x ⬝ᵥ Vᵀ.mulVec x ≤ x ⬝ᵥ x := by
  have h := dot_nonneg (x - V.mulVec (Vᵀ.mulVec x))
  have e1 : x ⬝ᵥ V.mulVec (Vᵀ.mulVec x) = Vᵀ.mulVec x ⬝ᵥ Vᵀ.mulVec x := by
    rw [Matrix.dotProduct_mulVec, ← Matrix.mulVec_transpose]
  have e2 : V.mulVec (Vᵀ.mulVec x) ⬝ᵥ V.mulVec (Vᵀ.mulVec x) = Vᵀ.mulVec x ⬝ᵥ Vᵀ.mulVec x := by
    rw [Matrix.dotProduct_mulVec, Matrix.vecMul_mulVec, hV, Matrix.vecMul_one]
  rw [sub_dotProduct, dotProduct_sub, dotProduct_sub, dotProduct_comm (V.mulVec _) x, e1, e2] at h
  linarith

/-- The decomposition holds sorted non-negative singular values and orthonormal singular vectors, as C68 shows. -/
structure Spec.SortedSvd (s : Svd K) (r c p : Nat) (U V : Nat → Nat → K) (σ : Nat → K) : Prop where
  holds : HoldsSvd s r c p U V σ
  left : (mx r p U)ᵀ * mx r p U = 1
  right : (mx c p V)ᵀ * mx c p V = 1
  pos : ∀ i, i < p → 0 ≤ σ i
  dec : ∀ i, i + 1 < p → σ (i + 1) ≤ σ i

theorem Spec.SortedSvd.anti {s : Svd K} {U V : Nat → Nat → K} {σ : Nat → K} (h : SortedSvd s r c p U V σ) :
    ∀ {i j : Nat}, i ≤ j → j < p → σ j ≤ σ i := by
  intro i j hij
  induction hij with
  | refl => exact fun _ => le_rfl
  | step _ ih => exact fun hj => (h.dec _ hj).trans (ih (by omega))

/-- C71: `Norm` is the largest factor by which the matrix stretches a vector, and some vector is stretched by it. -/
theorem C71_norm {s : Svd K} {U V : Nat → Nat → K} {σ : Nat → K} (h : SortedSvd s r c p U V σ) (hp : 0 < p)
    {A : Nat → Nat → K} (hA : usv r c p U V σ = mx r c A) :
    ∃ N, s.norm2 = .ok N ∧ 0 ≤ N ∧
      (∀ x, (mx r c A).mulVec x ⬝ᵥ (mx r c A).mulVec x ≤ N ^ 2 * (x ⬝ᵥ x)) ∧
      ∃ x, x ⬝ᵥ x = 1 ∧ (mx r c A).mulVec x ⬝ᵥ (mx r c A).mulVec x = N ^ 2 := by
  refine ⟨σ 0, rdL_eq_ok.2 (h.holds.vals.2 0 hp), h.pos 0 hp, fun x => ?_, fun i => V i 0, ?_, ?_⟩
  · rw [← hA, usv_sq h.left]
    refine le_trans ?_ (mul_le_mul_of_nonneg_left (bessel h.right x) (sq_nonneg _))
    rw [dotProduct, mul_sum]
    refine sum_le_sum fun i _ => ?_
    rw [← sq]
    exact mul_le_mul_of_nonneg_right (pow_le_pow_left₀ (h.pos i i.2) (h.anti (Nat.zero_le _) i.2) 2) (sq_nonneg _)
  · have := congrFun (congrFun h.right ⟨0, hp⟩) ⟨0, hp⟩
    rwa [Matrix.one_apply_eq] at this
  · rw [← hA, usv_sq h.left]
    have : ∀ i : Fin p, (mx c p V)ᵀ.mulVec (fun i : Fin c => V i 0) i = if i.1 = 0 then 1 else 0 := fun i => by
      have := congrFun (congrFun h.right i) ⟨0, hp⟩
      rw [Matrix.one_apply] at this
      simp only [Fin.ext_iff] at this
      exact this
    simp only [this]
    rw [sum_eq_single (⟨0, hp⟩ : Fin p)]
    · simp
    · intro i _ hi
      rw [if_neg fun h => hi (Fin.ext h)]
      simp
    · exact fun h => absurd (mem_univ _) h

/-- C71: the condition number and its inverse are the quotients of the largest and the smallest singular value; for a
matrix with at least as many rows as columns, the smallest singular value is the smallest factor by which the matrix
stretches a vector. -/
theorem C71_cond {s : Svd K} {U V : Nat → Nat → K} {σ : Nat → K} (h : SortedSvd s r c p U V σ) (hp : 0 < p)
    {A : Nat → Nat → K} (hA : usv r c p U V σ = mx r c A) :
    ∃ N M, s.norm2 = .ok N ∧ s.cond = .ok (N / M) ∧ s.invCond = .ok (M / N) ∧ 0 ≤ M ∧ M ≤ N ∧
      (p = c → (∀ x, M ^ 2 * (x ⬝ᵥ x) ≤ (mx r c A).mulVec x ⬝ᵥ (mx r c A).mulVec x) ∧
        ∃ x, x ⬝ᵥ x = 1 ∧ (mx r c A).mulVec x ⬝ᵥ (mx r c A).mulVec x = M ^ 2) := by
  have e0 : rdL s.sv 0 = .ok (σ 0) := rdL_eq_ok.2 (h.holds.vals.2 0 hp)
  have e1 : rdL s.sv (s.sv.length - 1) = .ok (σ (p - 1)) := by
    rw [h.holds.vals.1]
    exact rdL_eq_ok.2 (h.holds.vals.2 (p - 1) (by omega))
  refine ⟨σ 0, σ (p - 1), e0, ?_, ?_, h.pos _ (by omega), h.anti (Nat.zero_le _) (by omega), fun hpc => ⟨fun x => ?_,
    fun i => V i (p - 1), ?_, ?_⟩⟩
  · unfold Svd.cond
    rw [e0, ok_bind, e1, ok_bind, Exact.div_eq]; rfl
  · unfold Svd.invCond
    rw [e1, ok_bind, e0, ok_bind, Exact.div_eq]; rfl
  · subst hpc
    rw [← hA, usv_sq h.left]
    have hx : x ⬝ᵥ x = (mx p p V)ᵀ.mulVec x ⬝ᵥ (mx p p V)ᵀ.mulVec x := by
      rw [Matrix.dotProduct_mulVec, Matrix.vecMul_mulVec, Matrix.transpose_transpose, mul_eq_one_comm.1 h.right,
        Matrix.vecMul_one]
    rw [hx, dotProduct, mul_sum]
    refine sum_le_sum fun i _ => ?_
    rw [← sq]
    exact mul_le_mul_of_nonneg_right (pow_le_pow_left₀ (h.pos (p - 1) (by omega))
      (h.anti (i := i) (j := p - 1) (by omega) (by omega)) 2) (sq_nonneg _)
  · have := congrFun (congrFun h.right ⟨p - 1, by omega⟩) ⟨p - 1, by omega⟩
    rwa [Matrix.one_apply_eq] at this
  · rw [← hA, usv_sq h.left]
    have : ∀ i : Fin p, (mx c p V)ᵀ.mulVec (fun i : Fin c => V i (p - 1)) i = if i.1 = p - 1 then 1 else 0 :=
      fun i => by
      have := congrFun (congrFun h.right i) ⟨p - 1, by omega⟩
      rw [Matrix.one_apply] at this
      simp only [Fin.ext_iff] at this
      exact this
    simp only [this]
    rw [sum_eq_single (⟨p - 1, by omega⟩ : Fin p)]
    · simp
    · intro i _ hi
      rw [if_neg fun h => hi (Fin.ext h)]
      simp
    · exact fun h => absurd (mem_univ _) h

/-! ## Covariance -/

theorem Svd.cutoff_spec (minSv : K) : ∀ (l : List K), Svd.cutoff minSv l ≤ l.length ∧
    (∀ k x, k < Svd.cutoff minSv l → l[k]? = some x → minSv ≤ x) ∧
    (∀ x, l[Svd.cutoff minSv l]? = some x → x < minSv)
  | [] => ⟨le_rfl, fun k x h => by simp [Svd.cutoff] at h, fun x h => by simp [Svd.cutoff] at h⟩
  | y :: l => by
    obtain ⟨h1, h2, h3⟩ := Svd.cutoff_spec minSv l
    unfold Svd.cutoff
    rw [Exact.le_eq]
    by_cases c : minSv ≤ y
    · rw [if_pos (by simp [c])]
      refine ⟨by simpa using h1, fun k x hk hx => ?_, fun x hx => h3 x (by simpa using hx)⟩
      cases k with
      | zero =>
        simp at hx
        rw [← hx]; exact c
      | succ k => exact h2 k x (by omega) (by simpa using hx)
    · rw [if_neg (by simp [c])]
      refine ⟨by simp, fun k x hk => by omega, fun x hx => ?_⟩
      simp at hx
      rw [← hx]; exact not_le.1 c

theorem Svd.cov_fold {s : Svd K} {σ : Nat → K} (hv : IsList s.sv p σ) {d : Nat} (hd : d ≤ p) (A : Nat → Nat → K) :
    ∀ (cells : List (Nat × Nat)) (t : Tab K d s.sv.length), (∀ i j, (i, j) ∈ cells → i < d ∧ j < p) →
    ∃ t' : Tab K d s.sv.length, cells.foldlM (fun t q => (s.visitor d).visit q.1 q.2 (A q.1 q.2) t) t = .ok t' ∧
      ∀ i j, t'.f i j = if (i, j) ∈ cells then A i j / σ i else t.f i j
  | [], t, _ => ⟨t, rfl, fun i j => by simp⟩
  | (a, b) :: cells, t, hc => by
    obtain ⟨ha, hb⟩ := hc a b (by simp)
    rw [List.foldlM_cons]
    have e : (s.visitor d).visit a b (A a b) t = .ok ⟨upd2 t.f a b (A a b / σ a)⟩ := by
      show (do
        let x ← rdL s.sv (a : Int).toNat
        t.set (a : Int).toNat (b : Int).toNat (Flt.div (A a b) x)) = _
      rw [Int.toNat_natCast, Int.toNat_natCast, rdL_eq_ok.2 (hv.2 a (by omega)), ok_bind,
        Tab.set_ok ha (by rw [hv.1]; exact hb), Exact.div_eq]
    rw [e, ok_bind]
    obtain ⟨t', e', h'⟩ := Svd.cov_fold hv hd A cells ⟨upd2 t.f a b (A a b / σ a)⟩ fun i j h => hc i j (by simp [h])
    refine ⟨t', e', fun i j => ?_⟩
    rw [h' i j]
    dsimp only
    rw [upd2_eq]
    by_cases c : (i, j) ∈ cells
    · rw [if_pos c, if_pos (by simp [c])]
    · rw [if_neg c]
      by_cases c2 : i = a ∧ j = b
      · rw [if_pos c2, c2.1, c2.2, if_pos (by simp)]
      · rw [if_neg c2, if_neg (by simp [c]; intro h1 h2; exact c2 ⟨h1, h2⟩)]

/-- C72: `Covariance` considers the singular values down to the given bound. Its entries are those of `V J Vᵀ`, for
the rows and columns below the number `p` of singular values, where `J` has the inverse squares of these values. If
even the largest singular value is below the bound it panics. -/
theorem C72_covariance {s : Svd K} {U V : Nat → Nat → K} {σ : Nat → K} (h : SortedSvd s r c p U V σ) (hc : 0 < c)
    (hp : 0 < p) (hpc : p ≤ c) (minSv : K) :
    (minSv ≤ σ 0 → ∃ m : Mat K p p, s.covariance minSv = .ok ⟨p, p, m⟩ ∧ m.own ∧ Shows m.at p p fun i j =>
      ∑ k ∈ range p, V i k * (if minSv ≤ σ k then 1 / σ k ^ 2 else 0) * V j k) ∧
    (σ 0 < minSv → s.covariance minSv = .error (.pan .big)) := by
  have hv := h.holds.vals
  obtain ⟨d1, d2, d3⟩ := Svd.cutoff_spec minSv s.sv
  unfold Svd.covariance
  refine ⟨fun hm => ?_, fun hm => ?_⟩
  · have hd0 : Svd.cutoff minSv s.sv ≠ 0 := fun h0 => by
      have := d3 (σ 0) (by rw [h0]; exact hv.2 0 hp)
      exact absurd hm (not_le.2 this)
    rw [if_neg hd0]
    obtain ⟨vt, e1, h1, h2⟩ := h.holds.vT hc
    show ∃ m : Mat K p p, (do
      let vt ← s.vT
      let t ← vt.m.walkInB .opt (s.visitor (Svd.cutoff minSv s.sv)) (Jag.zero _ _) 0
        (Svd.cutoff minSv s.sv - 1) 0 (s.sv.length - 1)
      let jv ← (Arr.copyIn (some t.1.toLists)).must
      let jt ← jv.toSMat.m.transpose
      jt.multiply jv.toSMat.m) = .ok ⟨p, p, m⟩ ∧ _
    rw [e1, ok_bind]
    dsimp only
    rw [hv.1] at d1
    generalize hd : Svd.cutoff minSv s.sv = d at *
    obtain ⟨cells, hcells, hw⟩ := C16_walkBounded (Mat.dense_own h1) h2 .opt (sr := 0) (er := d - 1) (sc := 0)
      (ec := p - 1) (by unfold window; omega)
    have hmem : ∀ i j, (i, j) ∈ cells ↔ i < d ∧ j < p := fun i j => by
      rw [hcells.2.2.2 i j]; omega
    obtain ⟨t, e2, h3⟩ := Svd.cov_fold hv d1 (fun i j => V j i) cells (Jag.zero _ _) fun i j g => (hmem i j).1 g
    rw [show ((s.sv.length : Nat) : Int) - 1 = (p : Int) - 1 by rw [hv.1], hw]
    unfold walk
    have e3 : (s.visitor d).start p c 0 (d - 1) 0 (p - 1) (Jag.zero _ _) = .ok (Jag.zero _ _) := rfl
    rw [e3, ok_bind, e2, ok_bind]
    have e4 : (s.visitor d).fin t = .ok (t, Flt.zero) := rfl
    rw [e4, ok_bind]
    have ht : Rect t.toLists d p t.f := by
      have := Jag.toLists_rect t
      generalize t.toLists = l at *
      generalize t.f = g at *
      rwa [hv.1] at this
    obtain ⟨mt, e5, h5, -⟩ := Arr.copyIn_ok ht (by omega) hp
    rw [e5, must_ok, ok_bind]
    obtain ⟨tm, e6, h6, h7⟩ := C12_transpose (a := .arr mt) trivial (by omega) (Mat.at_shows (.arr mt))
    obtain ⟨m, e7, h8, h9⟩ := C10_product (Mat.dense_own h6) hp (by omega) hp h7 (Mat.at_shows (.arr mt))
    show ∃ m_1 : Mat K p p, (do
      let jt ← (Mat.arr mt).transpose
      jt.multiply (.arr mt)) = .ok ⟨p, p, m_1⟩ ∧ _
    rw [e6, ok_bind, e7]
    refine ⟨m, rfl, h8, h9.congr fun i j hi hj => ?_⟩
    have ent : ∀ k i, k < d → i < p → mt.data.f k i = V i k / σ k := fun k i hk hi => by
      rw [h5 k i hk hi, h3 k i, if_pos ((hmem k i).2 ⟨hk, hi⟩)]
    have hbig : ∀ k, k < p → (k < d ↔ minSv ≤ σ k) := fun k hk => by
      refine ⟨fun g => d2 k (σ k) g (hv.2 k hk), fun g => ?_⟩
      by_contra hkd
      have hdp : d < p := by omega
      have h10 := d3 (σ d) (hv.2 d hdp)
      have h11 := h.anti (i := d) (j := k) (by omega) hk
      linarith
    have : ∑ k ∈ range d, V i k * (1 / σ k ^ 2) * V j k =
        ∑ k ∈ range p, V i k * (if minSv ≤ σ k then 1 / σ k ^ 2 else 0) * V j k := by
      rw [← sum_subset (range_subset_range.2 d1) fun k g1 g2 => ?_]
      · refine sum_congr rfl fun k hk => ?_
        have hk := mem_range.1 hk
        rw [if_pos ((hbig k (by omega)).1 hk)]
      · have g1 := mem_range.1 g1
        have g2 : ¬ k < d := fun g => g2 (mem_range.2 g)
        rw [if_neg fun g => g2 ((hbig k g1).2 g)]
        ring
    rw [← this]
    refine sum_congr rfl fun k hk => ?_
    have hk := mem_range.1 hk
    show mt.data.f k i * mt.data.f k j = _
    rw [ent k i hk hi, ent k j hk hj]
    ring
  · have hd0 : Svd.cutoff minSv s.sv = 0 := by
      by_contra h0
      exact absurd (d2 0 (σ 0) (by omega) (hv.2 0 hp)) (not_le.2 hm)
    rw [if_pos hd0, rdL_eq_ok.2 (hv.2 0 hp)]
    rfl

/-- C72: for a matrix with at least as many rows as columns, and a bound that no singular value is below, the
covariance is the inverse of `Aᵀ A`. -/
theorem C72_normal {s : Svd K} {U V : Nat → Nat → K} {σ : Nat → K} (h : SortedSvd s r c c U V σ) (hc : 0 < c)
    {A : Nat → Nat → K} (hA : usv r c c U V σ = mx r c A) {minSv : K} (hm : 0 < minSv)
    (hs : ∀ k, k < c → minSv ≤ σ k) :
    ∃ (m : Mat K c c) (C : Nat → Nat → K), s.covariance minSv = .ok ⟨c, c, m⟩ ∧ Shows m.at c c C ∧
      mx c c C * ((mx r c A)ᵀ * mx r c A) = 1 := by
  obtain ⟨m, e, -, h1⟩ := (C72_covariance h hc hc le_rfl minSv).1 (hs 0 hc)
  refine ⟨m, _, e, h1, ?_⟩
  have e1 : mx c c (fun i j => ∑ k ∈ range c, V i k * (if minSv ≤ σ k then 1 / σ k ^ 2 else 0) * V j k) =
      usv c c c V V fun k => if minSv ≤ σ k then 1 / σ k ^ 2 else 0 := by
    ext i j
    rw [usv_apply]
    rfl
  rw [e1, ← hA, usv_transpose, usv_mul _ _ h.left, usv_mul _ _ h.right,
    usv_congr (τ := fun _ => 1) fun i hi => by
      have : σ i ≠ 0 := (lt_of_lt_of_le hm (hs i hi)).ne'
      rw [if_pos (hs i hi)]
      field_simp]
  unfold usv
  rw [Matrix.diagonal_one, Matrix.mul_one, mul_eq_one_comm.1 h.right]

/-- **C72, code and documentation disagree.** The documentation promises a matrix with as many rows as `A` has columns;
for every matrix with fewer rows than columns the result has fewer. -/
theorem C72_wide_false {s : Svd K} {U V : Nat → Nat → K} {σ : Nat → K} (h : SortedSvd s r c r U V σ) (hr : 0 < r)
    (hrc : r < c) {m : SMat K} {minSv : K} (hm : s.covariance minSv = .ok m) : m.r < c := by
  rcases le_or_gt minSv (σ 0) with hs | hs
  · obtain ⟨m', e, -⟩ := (C72_covariance h (by omega) hr hrc.le minSv).1 hs
    rw [e] at hm
    cases hm
    exact hrc
  · rw [(C72_covariance h (by omega) hr hrc.le minSv).2 hs] at hm
    cases hm

end exact

/-! ## The other accessors -/

/-- C73: `UT` and `VT` are the transposes of `U` and `V`, and `S` is the diagonal matrix of the singular values; for
every arithmetic. -/
theorem C73_accessors {α : Type} [Flt α] {r c p : Nat} {s : Svd α} {U V : Nat → Nat → α} {σ : Nat → α}
    (h : HoldsSvd s r c p U V σ) (hr : 0 < r) (hc : 0 < c) :
    (∃ m : Mat α p r, s.uT = .ok ⟨p, r, m⟩ ∧ Shows m.at p r fun i j => U j i) ∧
    (∃ m : Mat α p c, s.vT = .ok ⟨p, c, m⟩ ∧ Shows m.at p c fun i j => V j i) ∧
    ∃ m : Mat α p p, s.sMat = .ok ⟨p, p, m⟩ ∧ Shows m.at p p (diag σ) := by
  obtain ⟨m1, e1, -, h1⟩ := h.uT hr
  obtain ⟨m2, e2, -, h2⟩ := h.vT hc
  obtain ⟨m3, e3, h3⟩ := (C02_dia h.vals).1
  refine ⟨⟨m1, e1, h1⟩, ⟨m2, e2, h2⟩, .dia m3, ?_, h3⟩
  unfold Svd.sMat SMat.diagonal
  rw [e3]
  rfl

/-! ## Concrete cases -/

/-- The rows of a matrix. -/
def Spec.rows {α : Type} [Flt α] (x : Res (SMat α)) : Option (List (List α)) :=
  x.toOption.bind fun m => m.m.dataCopy.toOption.map (·.toLists)

set_option synthInstance.maxSize 2000 in
/-- The results for the matrix with rows (3, -8) and (4, 6). -/
example : (Svd.new svdLit 3 svdCase).toOption.map (·.map fun s =>
    (rows s.pinv, s.rank, s.norm2.toOption, s.cond.toOption, s.isNonSingular, rows (s.covariance 1))) =
    some (some (some [[3 / 25, 4 / 25], [-2 / 25, 3 / 50]], 2, some 10, some 2, true,
      some [[1 / 25, 0], [0, 1 / 100]])) := by decide +kernel

set_option synthInstance.maxSize 2000 in
/-- A wide matrix of rank one: the pseudo-inverse is the transpose divided by 25, the matrix is not invertible, and the
covariance has one row, although the matrix has two columns. -/
example : (Svd.new svdLit 3 (.arr ⟨⟨fun _ j => if j = 0 then 3 else 4⟩, fun _ => 0⟩ : Mat ℚ 1 2)).toOption.map
    (·.map fun s => (rows s.pinv, s.rank, s.isNonSingular, rows (s.covariance 1))) =
    some (some (some [[3 / 25], [4 / 25]], 1, false, some [[9 / 625]])) := by decide +kernel

set_option synthInstance.maxSize 2000 in
/-- **C70, code and documentation disagree.** The documentation gives `max(m, n) ulp(s₁)` as the tolerance, which
scales with the matrix. The code never goes below the root of 2⁻⁵³: the matrix with the entry 2⁻³⁰ has rank 0, and its
pseudo-inverse is zero. -/
theorem C70_floor_false : (Svd.new svdLit 3 (.arr ⟨⟨fun _ _ => 1 / 2 ^ 30⟩, fun _ => 0⟩ : Mat ℚ 1 1)).toOption.map
    (·.map fun s => (s.sv, s.rank, s.isNonSingular, rows s.pinv)) =
    some (some ([1 / 2 ^ 30], 0, false, some [[0]])) := by decide +kernel

/-- The hypotheses of C55, C70 and C71 are met: the decomposition of a matrix over the real numbers. -/
example : ∃ s U V σ, Svd.new svdReal 3 svdTall = .ok (some s) ∧ SortedSvd s 3 2 2 U V σ := by
  have ht : (0 : ℝ) ≤ svdReal.tiny := by show (0 : ℝ) ≤ 1 / 2 ^ 966; positivity
  have hε : (0 : ℝ) ≤ svdReal.eps := by show (0 : ℝ) ≤ 1 / 2 ^ 52; positivity
  obtain ⟨s, e⟩ := C69_small svdReal_hypot ht hε (a := svdTall) (show svdTall.own from trivial) (by omega)
    (by omega) (.inr le_rfl) (fuel := 3) le_rfl
  obtain ⟨U, V, σ, h1, h2, h3, h4, h5, h6⟩ := C68_factors svdReal_hypot ht hε 3 (a := svdTall)
    (show svdTall.own from trivial) (by omega) (by omega) svdTall.at_shows (N := 8) (by norm_num)
    (by
      simp [fro2, mx, Fin.sum_univ_succ, Mat.ent, svdTall]
      norm_num) e
  exact ⟨s, U, V, σ, e, h1, h2, h3, h5, h6⟩

/-- The singular vectors of the matrix with rows (3, -8) and (4, 6). -/
def Spec.svdU (i j : Nat) : ℚ := if i = 0 then (if j = 0 then -4 / 5 else -3 / 5) else if j = 0 then 3 / 5 else -4 / 5

/-- The same on the right. -/
def Spec.svdV (i j : Nat) : ℚ := if i = 0 then (if j = 0 then 0 else -1) else if j = 0 then 1 else 0

/-- The hypotheses of C55, C70 and C71 are met by the decomposition of this matrix. -/
example : ∃ s : Svd ℚ, GoodSvd s 2 2 2 svdU svdV (fun i => if i = 0 then 10 else 5) ∧
    SortedSvd s 2 2 2 svdU svdV (fun i => if i = 0 then 10 else 5) ∧
    usv 2 2 2 svdU svdV (fun i => if i = 0 then 10 else 5) = mx 2 2 svdCase.ent := by
  have hU : (mx 2 2 svdU)ᵀ * mx 2 2 svdU = 1 := by
    ext i j
    fin_cases i <;> fin_cases j <;> simp [Matrix.mul_apply, Fin.sum_univ_two, mx, svdU] <;> norm_num
  have hV : (mx 2 2 svdV)ᵀ * mx 2 2 svdV = 1 := by
    ext i j
    fin_cases i <;> fin_cases j <;> simp [Matrix.mul_apply, Fin.sum_univ_two, mx, svdV]
  have hl : IsList ([10, 5] : List ℚ) 2 (fun i => if i = 0 then 10 else 5) :=
    ⟨rfl, fun i hi => by
      rcases (by omega : i = 0 ∨ i = 1) with rfl | rfl <;> rfl⟩
  have hs : HoldsSvd (⟨[10, 5], 2, ⟨2, 2, .arr ⟨⟨svdU⟩, fun _ => 0⟩⟩, ⟨2, 2, .arr ⟨⟨svdV⟩, fun _ => 0⟩⟩, 1 / 1000⟩ : Svd ℚ)
      2 2 2 svdU svdV (fun i => if i = 0 then 10 else 5) :=
    ⟨hl, ⟨_, rfl, trivial, Mat.at_shows _⟩, ⟨_, rfl, trivial, Mat.at_shows _⟩, rfl⟩
  refine ⟨_, ⟨hs, hU, hV, by norm_num, fun i hi h => ?_⟩, ⟨hs, hU, hV, fun i hi => ?_, fun i hi => ?_⟩, ?_⟩
  · dsimp only at h
    split_ifs at h <;> norm_num at h
  · split_ifs <;> norm_num
  · have : i = 0 := by omega
    subst this
    norm_num
  · ext i j
    rw [usv_apply, sum_range_succ, sum_range_one]
    fin_cases i <;> fin_cases j <;> simp [mx, svdU, svdV, Mat.ent, svdCase] <;> norm_num

end Linear
