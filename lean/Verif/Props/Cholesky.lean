import Verif.Lemmas.CholLemmas
import Verif.Props.LU
import Mathlib.LinearAlgebra.Matrix.Symmetric
import Mathlib.LinearAlgebra.Matrix.DotProduct
import Mathlib.Tactic.FinCases
import Mathlib.Tactic.Push

/-!
# C30, C31, C32: the Cholesky decomposition

`rel` is the relative symmetry threshold and `pos` the absolute positivity threshold.
-/

set_option linter.unusedSectionVars false

namespace Linear

open Spec Finset Matrix

variable {α : Type} [Flt α] {n : Nat}

/-! ## Specification -/

/-- The symmetric matrix with the upper triangle of `A`. -/
def Spec.symU {K : Type} (A : Nat → Nat → K) (i j : Nat) : K := if i ≤ j then A i j else A j i

section exact

variable {K : Type} [Field K] [LinearOrder K] [IsStrictOrderedRing K] [Flt K] [Exact K]

/-- Symmetric and `xᵀ M x > 0` for every non-zero `x`. -/
def Spec.PosDef (M : Matrix (Fin n) (Fin n) K) : Prop :=
  M.IsSymm ∧ ∀ x : Fin n → K, x ≠ 0 → 0 < x ⬝ᵥ M *ᵥ x

theorem symU_symm (A : Nat → Nat → K) (i j : Nat) : symU A i j = symU A j i := by
  unfold symU
  by_cases h : i ≤ j
  · by_cases h' : j ≤ i
    · obtain rfl : i = j := by omega
      rfl
    · rw [if_pos h, if_neg h']
  · rw [if_neg h, if_pos (by omega)]

/-- The Schur complement as a full symmetric matrix, zero in the rows and columns already done. -/
def Chol.rest (f : Nat → Nat → K) (k i j : Nat) : K := if i < k ∨ j < k then 0 else symU f i j

theorem Chol.Inv.full {S f : Nat → Nat → K} {k : Nat} (h : Chol.Inv n S k f) {i j : Nat}
    (hi : i < n) (hj : j < n) :
    symU S i j = ∑ x ∈ range k, f x i * f x j + Chol.rest f k i j := by
  unfold symU Chol.rest symU
  by_cases e : i ≤ j
  · rw [if_pos e, h.prod i j e hj]
    by_cases e' : i < k
    · rw [if_pos e', if_pos (.inl e')]
    · rw [if_neg e', if_neg (by omega), if_pos e]
  · rw [if_neg e, h.prod j i (by omega) hi]
    congr 1
    · exact sum_congr rfl fun x _ => mul_comm _ _
    · by_cases e' : j < k
      · rw [if_pos e', if_pos (.inr e')]
      · rw [if_neg e', if_neg (by omega), if_neg e]

theorem Chol.Inv.matrix {S f : Nat → Nat → K} {k : Nat} (h : Chol.Inv n S k f) :
    mx n n (symU S) = (mx k n f)ᵀ * mx k n f + mx n n (Chol.rest f k) := by
  ext i j
  rw [Matrix.add_apply, Matrix.mul_apply]
  show symU S i j = _
  rw [h.full i.2 j.2, Finset.sum_range]
  rfl

theorem Chol.Inv.quad {S f : Nat → Nat → K} {k : Nat} (h : Chol.Inv n S k f) (v : Fin n → K) :
    v ⬝ᵥ mx n n (symU S) *ᵥ v = mx k n f *ᵥ v ⬝ᵥ mx k n f *ᵥ v +
      v ⬝ᵥ mx n n (Chol.rest f k) *ᵥ v := by
  rw [h.matrix, add_mulVec, dotProduct_add, ← mulVec_mulVec, dotProduct_mulVec v (mx k n f)ᵀ,
    vecMul_transpose]

/-- The pivot is the value of the quadratic form at a vector that ends with a 1 in place `k`. -/
theorem Chol.Inv.witness {S f : Nat → Nat → K} {k : Nat} (h : Chol.Inv n S k f) (hk : k < n) :
    ∃ y : Fin n → K, y ⟨k, hk⟩ = 1 ∧ (∀ j : Fin n, k < j → y j = 0) ∧
      y ⬝ᵥ mx n n (symU S) *ᵥ y = f k k := by
  obtain ⟨w, hw⟩ := Bwd.exists (n := k) (U := f) (b := fun i => - f i k)
    (fun i hi => (h.pos i hi).ne') 0 (Nat.zero_le _)
  let v : Nat → K := fun i => if i < k then w i else if i = k then 1 else 0
  have hv0 : ∀ i, k < i → v i = 0 := fun i hi => by
    show (if i < k then _ else if i = k then _ else _) = _
    rw [if_neg (by omega), if_neg (by omega)]
  have hvk : v k = 1 := by simp [v]
  have h1 : (mx k n f) *ᵥ (fun i : Fin n => v i) = 0 := by
    ext x
    rw [Matrix.mulVec, dotProduct]
    show ∑ i : Fin n, f x i * v i = 0
    rw [← Finset.sum_range (fun i => f x i * v i)]
    rw [← sum_subset (range_subset_range.2 (show k + 1 ≤ n by omega)), sum_range_succ, hvk, mul_one]
    · have h2 := hw.done x.2
      have h3 : ∑ i ∈ range k, f x i * v i = ∑ i ∈ Ico (x : Nat) k, f x i * w i := by
        rw [← sum_subset (show Ico (x : Nat) k ⊆ range k from fun a ha =>
          mem_range.2 (mem_Ico.1 ha).2)]
        · refine sum_congr rfl fun i hi => ?_
          have := (mem_Ico.1 hi).2
          simp [v, this]
        · intro i hi hi'
          have hix : i < x := by
            by_contra hc
            exact hi' (mem_Ico.2 ⟨by omega, mem_range.1 hi⟩)
          rw [h.low x i (by have := x.2; omega) hix, zero_mul]
      rw [h3, h2]
      ring
    · intro i hi hi'
      have : ¬ i < k + 1 := fun h => hi' (mem_range.2 h)
      rw [hv0 i (by omega), mul_zero]
  have h2 : (fun i : Fin n => v i) ⬝ᵥ mx n n (Chol.rest f k) *ᵥ (fun i : Fin n => v i) = f k k := by
    have hin : ∀ i : Fin n, (mx n n (Chol.rest f k) *ᵥ (fun i : Fin n => v i)) i =
        Chol.rest f k i k := by
      intro i
      rw [Matrix.mulVec, dotProduct, Finset.sum_eq_single ⟨k, hk⟩]
      · show Chol.rest f k i k * v k = _
        rw [hvk, mul_one]
      · intro j _ hj
        show Chol.rest f k i j * v j = 0
        rcases lt_trichotomy (j : Nat) k with e | e | e
        · unfold Chol.rest
          rw [if_pos (.inr e), zero_mul]
        · exact absurd (Fin.ext e) hj
        · rw [hv0 j e, mul_zero]
      · simp
    rw [dotProduct, Finset.sum_eq_single ⟨k, hk⟩]
    · rw [hin]
      show v k * Chol.rest f k k k = _
      rw [hvk, one_mul]
      unfold Chol.rest symU
      rw [if_neg (by omega), if_pos le_rfl]
    · intro i _ hi
      rw [hin]
      show v i * Chol.rest f k i k = 0
      rcases lt_trichotomy (i : Nat) k with e | e | e
      · unfold Chol.rest
        rw [if_pos (.inl e), mul_zero]
      · exact absurd (Fin.ext e) hi
      · rw [hv0 i e, zero_mul]
    · simp
  refine ⟨fun i => v i, hvk, fun j hj => hv0 j hj, ?_⟩
  rw [h.quad, h1, h2, dotProduct_zero, zero_add]

/-- A non-positive pivot shows that the matrix is not positive definite. -/
theorem Chol.Inv.not_posDef {S f : Nat → Nat → K} {k : Nat} (h : Chol.Inv n S k f) (hk : k < n)
    (hp : f k k ≤ 0) : ¬ PosDef (mx n n (symU S)) := by
  rintro ⟨-, hpd⟩
  obtain ⟨y, hy, -, hq⟩ := h.witness hk
  have h3 := hpd y (fun h0 => by rw [h0] at hy; exact zero_ne_one hy)
  rw [hq] at h3
  exact absurd h3 (not_lt.2 hp)

theorem Chol.Inv.done_matrix {S f : Nat → Nat → K} (h : Chol.Inv n S n f) :
    mx n n (symU S) = (mx n n f)ᵀ * mx n n f := by
  have h0 : mx n n (Chol.rest f n) = 0 := by
    ext i j
    show Chol.rest f n i j = 0
    unfold Chol.rest
    rw [if_pos (.inl i.2)]
  rw [h.matrix, h0, add_zero]

theorem Chol.Inv.det {S f : Nat → Nat → K} (h : Chol.Inv n S n f) :
    (mx n n (symU S)).det = ∏ i ∈ range n, f i i * f i i := by
  rw [h.done_matrix, det_mul, det_transpose, det_upper fun i j hi _ hij => h.low i j hi hij,
    ← prod_mul_distrib]

theorem Chol.Inv.posDef {S f : Nat → Nat → K} (h : Chol.Inv n S n f) :
    PosDef (mx n n (symU S)) := by
  refine ⟨by ext i j; exact symU_symm S j i, fun x hx => ?_⟩
  have hu : IsUnit (mx n n f) := by
    rw [Matrix.isUnit_iff_isUnit_det, det_upper fun i j hi _ hij => h.low i j hi hij]
    exact (Finset.prod_ne_zero_iff.2 fun i hi => (h.pos i (mem_range.1 hi)).ne').isUnit
  have h1 : mx n n f *ᵥ x ≠ 0 := by
    intro h0
    exact hx (Matrix.mulVec_injective_of_isUnit hu (h0.trans (mulVec_zero _).symm))
  rw [h.done_matrix, ← mulVec_mulVec, dotProduct_mulVec, vecMul_transpose]
  obtain ⟨i, hi⟩ : ∃ i, (mx n n f *ᵥ x) i ≠ 0 := by
    by_contra hc
    exact h1 (funext fun i => by by_contra hi; exact hc ⟨i, hi⟩)
  rw [dotProduct]
  exact Finset.sum_pos' (fun i _ => mul_self_nonneg _) ⟨i, mem_univ _, mul_self_pos.2 hi⟩

variable [ExactSqrt K]

/-- All outcomes of the constructor. -/
theorem Chol.new_full {rel pos : K} (hpos : 0 ≤ pos) {m : Mat K n n} (hm : m.own) (hn : 0 < n)
    {A : Nat → Nat → K} (hA : Shows m.at n n A) :
    Wp (Chol.new rel pos m)
      (fun d => (Chol.Inv n A n d.lT.f ∧ ∀ i, i < n → pos < d.lT.f i i * d.lT.f i i) ∧
        ∀ i j, i < j → j < n → |A i j - A j i| ≤ rel * max |A i j| |A j i|)
      (fun e => (e = .err .symm ∧
          ∃ i j, i < j ∧ j < n ∧ rel * max |A i j| |A j i| < |A i j - A j i|) ∨
        (e = .err .small ∧ (∃ k f, k < n ∧ Chol.Inv n A k f ∧ f k k ≤ pos) ∧
          ∀ i j, i < j → j < n → |A i j - A j i| ≤ rel * max |A i j| |A j i|)) := by
  unfold Chol.new
  have hsq : m.isSquare = .ok true := by
    unfold Mat.isSquare
    rw [Mat.colDim_ok hn]
    simp [ok_bind, pure_eq_ok]
  obtain ⟨t, et, ht⟩ := Mat.dataCopy_ok hm hn hA
  rw [hsq, ok_bind]
  simp only [Bool.not_true, Bool.false_eq_true, if_false]
  rw [et, ok_bind, wp_bind]
  have hasym : ∀ i j, i < j → j < n →
      (Asym rel (t.f i j) (t.f j i) ↔ rel * max |A i j| |A j i| < |A i j - A j i|) := by
    intro i j h1 h2
    rw [ht i j (by omega) h2, ht j i h2 (by omega)]
    unfold Asym
    simp
  refine (Chol.check_wp rel t).mono ?_ ?_
  · rintro t₁ ⟨h1, h2, h3⟩
    rw [wp_bind]
    have hsym : ∀ i j, i < j → j < n → |A i j - A j i| ≤ rel * max |A i j| |A j i| :=
      fun i j h5 h6 => not_lt.1 fun hc => h1 i j h5 h6 ((hasym i j h5 h6).2 hc)
    refine (wp_forUp (fun k (t' : Tab K n n) => Chol.Inv n A k t'.f ∧
      ∀ i, i < k → pos < t'.f i i * t'.f i i) (Nat.zero_le n) ?_ ?_).imp ?_
    · refine ⟨?_, fun i hi => by omega⟩
      constructor
      · intro i j hij hj
        rw [if_neg (by omega), h2 i j hij, ht i j (by omega) hj]
        simp
      · intro i j hi hj
        rw [h3 i j hi hj, Exact.zero_eq]
      · intro i hi; omega
    · rintro k t₂ _ hk ⟨hI, hpv⟩
      refine (Chol.step_wp pos hk t₂).mono ?_ ?_
      · rintro t₃ ⟨g1, g2, g3, g4, g5⟩
        have hp : 0 < t₂.f k k := lt_of_le_of_lt hpos (by simpa using g1)
        refine ⟨hI.step hk hp g2 (fun q h5 h6 => ?_) (fun q p h5 h6 h7 => ?_) g5, fun i hi => ?_⟩
        · rw [g3 q h5 h6]; simp
        · rw [g4 q p h5 h6 h7]; simp
        · by_cases e : i = k
          · rw [e, g2, ExactSqrt.sqrt_mul_self _ hp.le]
            simpa using g1
          · rw [g5 i i (by omega)]
            exact hpv i (by omega)
      · rintro e ⟨rfl, g⟩
        exact .inr ⟨rfl, ⟨k, t₂.f, hk, hI, by simpa using g⟩, hsym⟩
    · intro t' hI
      exact ⟨hI, hsym⟩
  · rintro e ⟨rfl, i, j, h1, h2, h3⟩
    exact .inl ⟨rfl, i, j, h1, h2, (hasym i j h1 h2).1 h3⟩

theorem Chol.new_wp {rel pos : K} (hpos : 0 ≤ pos) {m : Mat K n n} (hm : m.own) (hn : 0 < n)
    {A : Nat → Nat → K} (hA : Shows m.at n n A) :
    Wp (Chol.new rel pos m)
      (fun d => Chol.Inv n A n d.lT.f ∧
        ∀ i j, i < j → j < n → |A i j - A j i| ≤ rel * max |A i j| |A j i|)
      (fun e => (e = .err .symm ∧
          ∃ i j, i < j ∧ j < n ∧ rel * max |A i j| |A j i| < |A i j - A j i|) ∨
        (e = .err .small ∧ (∃ k f, k < n ∧ Chol.Inv n A k f ∧ f k k ≤ pos) ∧
          ∀ i j, i < j → j < n → |A i j - A j i| ≤ rel * max |A i j| |A j i|)) :=
  (Chol.new_full hpos hm hn hA).mono (fun _ h => ⟨h.1.1, h.2⟩) fun _ h => h

theorem symU_eq {A : Nat → Nat → K}
    (h : ∀ i j, i < j → j < n → |A i j - A j i| ≤ 0 * max |A i j| |A j i|) :
    mx n n (symU A) = mx n n A := by
  ext i j
  show symU A i j = A i j
  unfold symU
  by_cases e : (i : Nat) ≤ j
  · rw [if_pos e]
  · rw [if_neg e]
    have h1 := h j i (by omega) i.2
    rw [zero_mul] at h1
    exact sub_eq_zero.1 (abs_nonpos_iff.1 h1)

theorem symU_of_symm {A : Nat → Nat → K} (h : (mx n n A).IsSymm) : mx n n (symU A) = mx n n A := by
  ext i j
  show symU A i j = A i j
  unfold symU
  by_cases e : (i : Nat) ≤ j
  · rw [if_pos e]
  · rw [if_neg e]
    exact h.apply i j

/-! ## C30 -/

/-- **C30.** When the decomposition succeeds, `L` is lower triangular with a positive diagonal, `LT`
is its transpose and `L LT` is the symmetric matrix with the upper triangle of `A`; this is `A` itself
when the symmetry threshold is 0. -/
theorem C30_factors {rel pos : K} (hpos : 0 ≤ pos) {m : Mat K n n} (hm : m.own) (hn : 0 < n)
    {A : Nat → Nat → K} (hA : Shows m.at n n A) {d : Chol K n n} (hd : Chol.new rel pos m = .ok d) :
    ∃ (l lt : Mat K n n) (L : Nat → Nat → K),
      d.getL = .ok ⟨n, n, l⟩ ∧ d.getLT = .ok ⟨n, n, lt⟩ ∧
      Shows l.at n n L ∧ Shows lt.at n n (fun i j => L j i) ∧
      (∀ i j, i < n → j < n → i < j → L i j = 0) ∧ (∀ i, i < n → 0 < L i i) ∧
      mx n n L * (mx n n L)ᵀ = mx n n (symU A) ∧
      (rel = 0 → mx n n L * (mx n n L)ᵀ = mx n n A) := by
  have h := (Chol.new_wp (rel := rel) hpos hm hn hA).of_ok hd
  obtain ⟨hI, hsym⟩ := h
  obtain ⟨lt, e1, h1, h2⟩ := SMat.fromSlices_dense (Jag.toLists_rect d.lT) hn hn false
  obtain ⟨l, e2, h3, h4⟩ := C12_transpose h1 hn h2
  have hlt : d.getLT = .ok ⟨n, n, lt⟩ := by unfold Chol.getLT; rw [e1, must_ok]
  have hprod : mx n n (fun i j => d.lT.f j i) * (mx n n (fun i j => d.lT.f j i))ᵀ
      = mx n n (symU A) := by
    rw [hI.done_matrix]
    rfl
  refine ⟨l, lt, fun i j => d.lT.f j i, ?_, hlt, h4, h2, fun i j hi hj hij => hI.low j i hj hij,
    fun i hi => hI.pos i hi, hprod, fun hr => ?_⟩
  · unfold Chol.getL
    rw [hlt, ok_bind]
    dsimp only
    rw [e2]
    rfl
  · rw [hprod]
    subst hr
    exact symU_eq hsym

/-! ## C31 -/

/-- **C31.** With zero thresholds the decomposition succeeds exactly on symmetric positive definite
matrices, and answers one of the two documented errors on all others. -/
theorem C31_iff {m : Mat K n n} (hm : m.own) (hn : 0 < n) {A : Nat → Nat → K}
    (hA : Shows m.at n n A) :
    ((∃ d, Chol.new 0 0 m = .ok d) ↔ PosDef (mx n n A)) ∧
    (¬ (mx n n A).IsSymm → Chol.new 0 0 m = .error (.err .symm)) ∧
    ((mx n n A).IsSymm → ¬ PosDef (mx n n A) → Chol.new 0 0 m = .error (.err .small)) := by
  have h := Chol.new_wp (rel := (0 : K)) le_rfl hm hn hA
  cases hd : Chol.new 0 0 m with
  | ok d =>
    obtain ⟨hI, hsym⟩ := h.of_ok hd
    have hpd := hI.posDef
    rw [symU_eq hsym] at hpd
    exact ⟨⟨fun _ => hpd, fun _ => ⟨d, rfl⟩⟩, fun h => absurd hpd.1 h, fun _ h => absurd hpd h⟩
  | error e =>
    rcases h.of_error hd with ⟨rfl, i, j, h1, h2, h3⟩ | ⟨rfl, ⟨k, f, hk, hI, hf⟩, hsym⟩
    · have hns : ¬ (mx n n A).IsSymm := by
        intro hs
        have h4 : A i j = A j i := (hs.apply ⟨i, by omega⟩ ⟨j, h2⟩).symm
        rw [h4] at h3
        simp at h3
      exact ⟨⟨fun ⟨_, h⟩ => by simp at h, fun h => absurd h.1 hns⟩, fun _ => rfl,
        fun h => absurd h hns⟩
    · have hnp := hI.not_posDef hk hf
      refine ⟨⟨fun ⟨_, h⟩ => by simp at h, fun h => ?_⟩, fun hs => ?_, fun _ _ => rfl⟩
      · rw [symU_of_symm h.1] at hnp
        exact absurd h hnp
      · refine absurd ?_ hs
        rw [← symU_eq hsym]
        ext i j
        exact symU_symm A j i

/-- **C31.** With any non-negative positivity threshold, success shows that the symmetric matrix with
the upper triangle of `A` is positive definite, and failure is one of the two documented errors. -/
theorem C31_errors {rel pos : K} (hpos : 0 ≤ pos) {m : Mat K n n} (hm : m.own) (hn : 0 < n)
    {A : Nat → Nat → K} (hA : Shows m.at n n A) :
    (∃ d, Chol.new rel pos m = .ok d ∧ PosDef (mx n n (symU A))) ∨
      (Chol.new rel pos m = .error (.err .symm) ∧ ∃ i j, i < n ∧ j < n ∧
        rel * max |A i j| |A j i| < |A i j - A j i|) ∨
      Chol.new rel pos m = .error (.err .small) := by
  have h := Chol.new_wp (rel := rel) hpos hm hn hA
  cases hd : Chol.new rel pos m with
  | ok d => exact .inl ⟨d, rfl, (h.of_ok hd).1.posDef⟩
  | error e =>
    rcases h.of_error hd with ⟨rfl, i, j, h1, h2, h3⟩ | ⟨rfl, -⟩
    · exact .inr (.inl ⟨rfl, i, j, by omega, h2, h3⟩)
    · exact .inr (.inr rfl)

/-- **C31.** With any thresholds, the second not negative: the decomposition succeeds exactly when each two
opposite entries differ by no more than `rel` times the larger magnitude and the quadratic form of the upper
triangle exceeds `pos` at every vector whose last element that is not zero is a 1. The error tells which of the
two conditions is not met, symmetry first. -/
theorem C31_thresholds {rel pos : K} (hpos : 0 ≤ pos) {m : Mat K n n} (hm : m.own) (hn : 0 < n)
    {A : Nat → Nat → K} (hA : Shows m.at n n A) :
    let Sym := ∀ i j, i < j → j < n → |A i j - A j i| ≤ rel * max |A i j| |A j i|
    let Pos := ∀ (k : Fin n) (y : Fin n → K), y k = 1 → (∀ j, k < j → y j = 0) →
      pos < y ⬝ᵥ mx n n (symU A) *ᵥ y
    ((∃ d, Chol.new rel pos m = .ok d) ↔ Sym ∧ Pos) ∧
    (¬Sym → Chol.new rel pos m = .error (.err .symm)) ∧
    (Sym → ¬Pos → Chol.new rel pos m = .error (.err .small)) := by
  intro Sym Pos
  have h := Chol.new_full (rel := rel) hpos hm hn hA
  cases hd : Chol.new rel pos m with
  | ok d =>
    obtain ⟨⟨hI, hpv⟩, hsym⟩ := h.of_ok hd
    have hp : Pos := by
      intro k y hy1 hy0
      rw [hI.done_matrix, ← mulVec_mulVec, dotProduct_mulVec, vecMul_transpose]
      have hk : (mx n n d.lT.f *ᵥ y) k = d.lT.f k k := by
        rw [Matrix.mulVec, dotProduct, Finset.sum_eq_single k]
        · rw [hy1, mul_one]; rfl
        · intro j _ hj
          rcases lt_or_gt_of_ne hj with e | e
          · show d.lT.f k j * y j = 0
            rw [hI.low k j k.2 e, zero_mul]
          · rw [hy0 j e, mul_zero]
        · simp
      refine lt_of_lt_of_le (hpv k k.2) ?_
      rw [← hk]
      exact Finset.single_le_sum (f := fun i => (mx n n d.lT.f *ᵥ y) i * (mx n n d.lT.f *ᵥ y) i)
        (fun i _ => mul_self_nonneg _) (mem_univ k)
    exact ⟨⟨fun _ => ⟨hsym, hp⟩, fun _ => ⟨d, rfl⟩⟩, fun h => absurd hsym h, fun _ h => absurd hp h⟩
  | error e =>
    rcases h.of_error hd with ⟨rfl, i, j, h1, h2, h3⟩ | ⟨rfl, ⟨k, f, hk, hI, hf⟩, hsym⟩
    · have hns : ¬Sym := fun hs => absurd (hs i j h1 h2) (not_le.2 h3)
      exact ⟨⟨fun ⟨_, h⟩ => by simp at h, fun h => absurd h.1 hns⟩, fun _ => rfl, fun h => absurd h hns⟩
    · have hnp : ¬Pos := by
        intro hp
        obtain ⟨y, h1, h2, h3⟩ := hI.witness hk
        have := hp ⟨k, hk⟩ y h1 fun j hj => h2 j hj
        rw [h3] at this
        exact absurd hf (not_le.2 this)
      exact ⟨⟨fun ⟨_, h⟩ => by simp at h, fun h => absurd h.2 hnp⟩, fun h => absurd hsym h, fun _ _ => rfl⟩

/-- **C31.** `IsNonSingular` of a decomposition is true, and rightly so. -/
theorem C31_isNonSingular {rel pos : K} (hpos : 0 ≤ pos) {m : Mat K n n} (hm : m.own) (hn : 0 < n)
    {A : Nat → Nat → K} (hA : Shows m.at n n A) {d : Chol K n n} (hd : Chol.new rel pos m = .ok d) :
    d.isNonSingular = true ∧ (mx n n (symU A)).det ≠ 0 := by
  obtain ⟨hI, -⟩ := (Chol.new_wp (rel := rel) hpos hm hn hA).of_ok hd
  refine ⟨rfl, ?_⟩
  rw [hI.det]
  exact Finset.prod_ne_zero_iff.2 fun i hi => (mul_pos (hI.pos i (mem_range.1 hi)) (hI.pos i (mem_range.1 hi))).ne'

/-! ## C32 -/

/-- **C32.** The determinant. -/
theorem C32_determinant {rel pos : K} (hpos : 0 ≤ pos) {m : Mat K n n} (hm : m.own) (hn : 0 < n)
    {A : Nat → Nat → K} (hA : Shows m.at n n A) {d : Chol K n n} (hd : Chol.new rel pos m = .ok d) :
    d.determinant = .ok (mx n n (symU A)).det ∧
      (rel = 0 → d.determinant = .ok (mx n n A).det) := by
  obtain ⟨hI, hsym⟩ := (Chol.new_wp (rel := rel) hpos hm hn hA).of_ok hd
  have h1 : d.determinant = .ok (mx n n (symU A)).det := by
    rw [hI.det]
    unfold Chol.determinant
    obtain ⟨x, e, hx⟩ := Wp.exists_ok (wp_forUp (E := fun _ : Fault => False) (s := Flt.one)
      (body := fun i (det : K) => do
        let lTii ← d.lT.get i i
        return Flt.mul det (Flt.mul lTii lTii))
      (fun k det => det = ∏ i ∈ range k, d.lT.f i i * d.lT.f i i)
      (Nat.zero_le n) (by simp) (by
        rintro i x _ hi rfl
        rw [Tab.get_ok hi hi]
        show _ = _
        rw [prod_range_succ, Exact.mul_eq, Exact.mul_eq]))
    rw [e, hx]
  refine ⟨h1, fun hr => ?_⟩
  subst hr
  rw [h1, symU_eq hsym]

/-- Both substitutions together solve the system. -/
theorem Chol.Inv.solve {S f : Nat → Nat → K} (h : Chol.Inv n S n f) {b y x : Nat → K}
    (hy : Fwd n (fun i j => f j i) (fun i => f i i) b n y) (hx : Bwd n f y 0 x) :
    mx n n (symU S) *ᵥ (fun i : Fin n => x i) = fun i : Fin n => b i := by
  have h1 : mx n n f *ᵥ (fun i : Fin n => x i) = fun i : Fin n => y i := by
    ext i
    rw [Matrix.mulVec, dotProduct]
    show ∑ j : Fin n, f i j * x j = y i
    rw [← Finset.sum_range (fun j => f i j * x j), ← hx.done i.2,
      ← sum_subset (show Ico (i : Nat) n ⊆ range n from fun a ha => mem_range.2 (mem_Ico.1 ha).2)]
    intro j hj hj'
    have hji : j < i := by
      by_contra hc
      exact hj' (mem_Ico.2 ⟨by omega, mem_range.1 hj⟩)
    rw [h.low i j i.2 hji, zero_mul]
  rw [h.done_matrix, ← mulVec_mulVec, h1]
  ext i
  rw [Matrix.mulVec, dotProduct]
  show ∑ j : Fin n, f j i * y j = b i
  rw [← Finset.sum_range (fun j => f j i * y j), ← hy.done i.2, add_comm, mul_comm,
    ← sum_subset (range_subset_range.2 (show (i : Nat) + 1 ≤ n by have := i.2; omega)),
    sum_range_succ]
  · rw [mul_comm (y i)]
  · intro j hj hj'
    have : ¬ j < i + 1 := fun h => hj' (mem_range.2 h)
    rw [h.low j i (mem_range.1 hj) (by omega), zero_mul]

theorem Chol.Inv.isUnit {S f : Nat → Nat → K} (h : Chol.Inv n S n f) :
    IsUnit (mx n n (symU S)) := by
  rw [Matrix.isUnit_iff_isUnit_det, h.det]
  exact (Finset.prod_ne_zero_iff.2 fun i hi =>
    mul_ne_zero (h.pos i (mem_range.1 hi)).ne' (h.pos i (mem_range.1 hi)).ne').isUnit

theorem RVec.toRow_f (b : RVec K) (n : Nat) : (b.toRow n).f = nth b.list := by
  cases b <;> rfl

/-- **C32.** `SolveVector` returns the only solution of the system whose matrix has the upper triangle
of `A`; with symmetry threshold 0 this is `A x = b`. -/
theorem C32_vector {rel pos : K} (hpos : 0 ≤ pos) {m : Mat K n n} (hm : m.own) (hn : 0 < n)
    {A : Nat → Nat → K} (hA : Shows m.at n n A) {d : Chol K n n} (hd : Chol.new rel pos m = .ok d)
    {b : RVec K} (hb : b.dim = n) :
    ∃ x, d.solveVector b = .ok x ∧ x.length = n ∧
      (∀ y : Fin n → K, mx n n (symU A) *ᵥ y = vc n b.list ↔ y = vc n x) ∧
      (rel = 0 → ∀ y : Fin n → K, mx n n A *ᵥ y = vc n b.list ↔ y = vc n x) := by
  obtain ⟨hI, hsym⟩ := (Chol.new_wp (rel := rel) hpos hm hn hA).of_ok hd
  suffices h : ∃ x, d.solveVector b = .ok x ∧ x.length = n ∧
      mx n n (symU A) *ᵥ vc n x = vc n b.list by
    obtain ⟨x, ex, hl, hx⟩ := h
    have key : ∀ y : Fin n → K, mx n n (symU A) *ᵥ y = vc n b.list ↔ y = vc n x := fun y =>
      ⟨fun hy => Matrix.mulVec_injective_of_isUnit hI.isUnit (hy.trans hx.symm),
        fun hy => by rw [hy, hx]⟩
    refine ⟨x, ex, hl, key, fun hr => ?_⟩
    subst hr
    rw [← symU_eq hsym]
    exact key
  unfold Chol.solveVector
  rw [if_neg (by simpa using hb)]
  have hd0 : ∀ k, k < n → d.lT.f k k ≠ 0 := fun k hk => (hI.pos k hk).ne'
  obtain ⟨y, ey, hy⟩ := Row.fwdLoop (ε := Fault) (n := n) (L := fun i j => d.lT.f j i)
    (d := fun i => d.lT.f i i) hd0 (t := b.toRow n) (body := fun j (x : Row K n) => do
      let x ← x.set j (Flt.div (← x.get j) (← d.lT.get j j))
      let xJ ← x.get j
      forUp (j + 1) n (fun i (x : Row K n) => do
        x.set i (Flt.sub (← x.get i) (Flt.mul xJ (← d.lT.get j i)))) x) (by
    intro k y hk
    rw [Row.get_ok hk, ok_bind, Tab.get_ok hk hk, ok_bind, Row.set_ok hk, ok_bind, Row.get_ok hk,
      ok_bind]
    obtain ⟨y', e, h1, h2⟩ := Row.loop (ε := Fault) (a := k + 1) (b := n)
      (t := (⟨upd1 y.f k (Flt.div (y.f k) (d.lT.f k k))⟩ : Row K n))
      (fun i v => v - y.f k / d.lT.f k k * d.lT.f k i)
      (body := fun i (x : Row K n) => do
        x.set i (Flt.sub (← x.get i)
          (Flt.mul (upd1 y.f k (Flt.div (y.f k) (d.lT.f k k)) k) (← d.lT.get k i)))) (by
      intro i t h1 h2 h3
      rw [Row.get_ok (by omega), ok_bind, Tab.get_ok hk (by omega), ok_bind, Row.set_ok (by omega),
        h3 i (by omega), upd1_eq, if_pos rfl]
      simp)
    have hk' : y'.f k = y.f k / d.lT.f k k := by
      rw [h2 k (by omega)]
      simp
    refine ⟨y', e, fun i h3 => ?_, hk', fun i h3 h4 => ?_⟩
    · rw [h2 i (by omega)]
      simp only [upd1_eq]
      rw [if_neg (by omega)]
    · rw [h1 i (by omega) h4, hk', mul_comm]
      simp only [upd1_eq]
      rw [if_neg (by omega)])
  obtain ⟨x, ex, hx⟩ := Row.bwdLoop (ε := Fault) (n := n) (U := d.lT.f) hd0 (t := y)
    (body := fun j (x : Row K n) => do
      let x ← x.set j (Flt.div (← x.get j) (← d.lT.get j j))
      let xJ ← x.get j
      forUp 0 j (fun i (x : Row K n) => do
        x.set i (Flt.sub (← x.get i) (Flt.mul xJ (← d.lT.get i j)))) x) (by
    intro k y hk
    rw [Row.get_ok hk, ok_bind, Tab.get_ok hk hk, ok_bind, Row.set_ok hk, ok_bind, Row.get_ok hk,
      ok_bind]
    obtain ⟨y', e, h1, h2⟩ := Row.loop (ε := Fault) (a := 0) (b := k)
      (t := (⟨upd1 y.f k (Flt.div (y.f k) (d.lT.f k k))⟩ : Row K n))
      (fun i v => v - y.f k / d.lT.f k k * d.lT.f i k)
      (body := fun i (x : Row K n) => do
        x.set i (Flt.sub (← x.get i)
          (Flt.mul (upd1 y.f k (Flt.div (y.f k) (d.lT.f k k)) k) (← d.lT.get i k)))) (by
      intro i t h1 h2 h3
      rw [Row.get_ok (by omega), ok_bind, Tab.get_ok (by omega) hk, ok_bind, Row.set_ok (by omega),
        h3 i (by omega), upd1_eq, if_pos rfl]
      simp)
    have hk' : y'.f k = y.f k / d.lT.f k k := by
      rw [h2 k (by omega)]
      simp
    refine ⟨y', e, fun i h3 h4 => ?_, hk', fun i h3 => ?_⟩
    · rw [h2 i (by omega)]
      simp only [upd1_eq]
      rw [if_neg (by omega)]
    · rw [h1 i (by omega) h3, hk', mul_comm]
      simp only [upd1_eq]
      rw [if_neg (by omega)])
  dsimp only
  rw [ey, ok_bind, ex, ok_bind]
  refine ⟨_, rfl, by simp, ?_⟩
  have h1 := hI.solve hy hx
  rw [RVec.toRow_f] at h1
  have h2 : vc n x.toList = fun i : Fin n => x.f i := by
    funext i
    have h2 := (Row.toList_isList x).2 i i.2
    show nth x.toList i = _
    simp only [nth]
    rw [List.getD_eq_getElem?_getD, h2]
    rfl
  rw [h2, h1]
  rfl

/-- **C32.** `SolveMatrix` returns the only solution of the system whose matrix has the upper triangle
of `A`; with symmetry threshold 0 this is `A X = B`. -/
theorem C32_matrix {rel pos : K} (hpos : 0 ≤ pos) {m : Mat K n n} (hm : m.own) (hn : 0 < n)
    {A : Nat → Nat → K} (hA : Shows m.at n n A) {d : Chol K n n} (hd : Chol.new rel pos m = .ok d)
    {q : Nat} (hq : 0 < q) {b : Mat K n q} (hbo : b.own) {B : Nat → Nat → K} (hB : Shows b.at n q B) :
    ∃ (x : Mat K n q) (X : Nat → Nat → K), d.solveMatrix b = .ok ⟨n, q, x⟩ ∧ x.own ∧
      Shows x.at n q X ∧
      (∀ Y : Matrix (Fin n) (Fin q) K, mx n n (symU A) * Y = mx n q B ↔ Y = mx n q X) ∧
      (rel = 0 → ∀ Y : Matrix (Fin n) (Fin q) K, mx n n A * Y = mx n q B ↔ Y = mx n q X) := by
  obtain ⟨hI, hsym⟩ := (Chol.new_wp (rel := rel) hpos hm hn hA).of_ok hd
  suffices h : ∃ (x : Mat K n q) (X : Nat → Nat → K), d.solveMatrix b = .ok ⟨n, q, x⟩ ∧ x.own ∧
      Shows x.at n q X ∧ mx n n (symU A) * mx n q X = mx n q B by
    obtain ⟨x, X, ex, ho, hX, hx⟩ := h
    have key : ∀ Y : Matrix (Fin n) (Fin q) K, mx n n (symU A) * Y = mx n q B ↔ Y = mx n q X :=
      fun Y => ⟨fun hY => by
        have h2 := congrArg ((mx n n (symU A))⁻¹ * ·) (hY.trans hx.symm)
        have hdet := (Matrix.isUnit_iff_isUnit_det _).1 hI.isUnit
        simpa only [Matrix.nonsing_inv_mul_cancel_left _ _ hdet] using h2,
        fun hY => by rw [hY, hx]⟩
    refine ⟨x, X, ex, ho, hX, key, fun hr => ?_⟩
    subst hr
    rw [← symU_eq hsym]
    exact key
  unfold Chol.solveMatrix
  rw [if_neg (by simp)]
  obtain ⟨t, et, ht⟩ := Mat.dataCopy_ok hbo hq hB
  dsimp only
  rw [Mat.colDim_ok hn, ok_bind, et, ok_bind]
  have hd0 : ∀ k, k < n → d.lT.f k k ≠ 0 := fun k hk => (hI.pos k hk).ne'
  have scale : ∀ (k : Nat) (v : K) (y : Tab K n q), k < n →
      ∃ y' : Tab K n q, forUp 0 q (fun j (x : Tab K n q) => do
        x.set k j (Flt.div (← x.get k j) v)) y = .ok y' ∧
        (∀ j, 0 ≤ j → j < q → y'.f k j = y.f k j / v) ∧
        ∀ i j, ¬ (i = k ∧ 0 ≤ j ∧ j < q) → y'.f i j = y.f i j := by
    intro k v y hk
    refine Tab.rowLoop (fun _ w => w / v) ?_
    intro j t' _ hj h4
    rw [Tab.get_ok hk hj, ok_bind, Tab.set_ok hk hj, h4 k j (by omega)]
    simp
  have inner : ∀ (g : Nat → K) (get : Nat → Res K) (k a b : Nat) (y : Tab K n q), k < n → b ≤ n →
      ¬ (a ≤ k ∧ k < b) → (∀ i, i < n → get i = .ok (g i)) →
      ∃ y' : Tab K n q, forUp a b (fun i (x : Tab K n q) => do
        let l ← get i
        forUp 0 q (fun j (x : Tab K n q) => do
          x.set i j (Flt.sub (← x.get i j) (Flt.mul (← x.get k j) l))) x) y
            = .ok y' ∧
        (∀ i j, a ≤ i → i < b → 0 ≤ j → j < q → y'.f i j = y.f i j - y.f k j * g i) ∧
        ∀ i j, ¬ (a ≤ i ∧ i < b ∧ 0 ≤ j ∧ j < q) → y'.f i j = y.f i j := by
    intro g get k a b y hk hb hak hget
    refine Tab.rowsLoop (fun i j v => v - y.f k j * g i) ?_
    intro i t h1 h2 h3
    rw [hget i (by omega), ok_bind]
    obtain ⟨t', e, h4, h5⟩ := Tab.rowLoop (ε := Fault) (r := n) (c := q) (a := 0) (b := q) (i := i)
      (t := t) (fun j v => v - y.f k j * g i)
      (body := fun j (x : Tab K n q) => do
          x.set i j (Flt.sub (← x.get i j) (Flt.mul (← x.get k j) (g i)))) (by
      intro j t' _ hj h4
      rw [Tab.get_ok (by omega) hj, ok_bind, Tab.get_ok hk hj, ok_bind, Tab.set_ok (by omega) hj,
        h4 i j (by omega), h4 k j (by omega), h3 k j (by omega)]
      simp)
    refine ⟨t', e, fun j h6 h7 => ?_, h5⟩
    rw [h4 j h6 h7, h3 i j (by omega)]
  obtain ⟨y, ey, hy⟩ := Tab.fwdLoop (ε := Fault) (n := n) (q := q) (L := fun i j => d.lT.f j i)
    (d := fun i => d.lT.f i i) hd0 (t := t) (body := fun j (x : Tab K n q) => do
    let lJJ ← d.lT.get j j
    let x ← forUp 0 q (fun k (x : Tab K n q) => do
      x.set j k (Flt.div (← x.get j k) lJJ)) x
    forUp (j + 1) n (fun i (x : Tab K n q) => do
      let lJI ← d.lT.get j i
      forUp 0 q (fun k (x : Tab K n q) => do
        x.set i k (Flt.sub (← x.get i k) (Flt.mul (← x.get j k) lJI))) x) x) (by
    intro k y hk
    rw [Tab.get_ok hk hk, ok_bind]
    obtain ⟨y', e, h1, h2⟩ := scale k (d.lT.f k k) y hk
    obtain ⟨y'', e', h3, h4⟩ := inner (fun i => d.lT.f k i) (fun i => d.lT.get k i) k (k + 1) n y' hk
      le_rfl (by omega) fun i hi => Tab.get_ok hk hi
    refine ⟨y'', by rw [e, ok_bind, e'], fun j hj => ⟨fun i h5 => ?_, ?_, fun i h5 h6 => ?_⟩⟩
    · rw [h4 i j (by omega), h2 i j (by omega)]
    · rw [h4 k j (by omega), h1 j (by omega) hj]
    · rw [h3 i j (by omega) h6 (by omega) hj, h2 i j (by omega), h4 k j (by omega), mul_comm])
  obtain ⟨x, ex, hx⟩ := Tab.bwdLoop (ε := Fault) (n := n) (q := q) (U := d.lT.f) hd0 (t := y)
    (body := fun j (x : Tab K n q) => do
    let lJJ ← d.lT.get j j
    let x ← forUp 0 q (fun k (x : Tab K n q) => do
      x.set j k (Flt.div (← x.get j k) lJJ)) x
    forUp 0 j (fun i (x : Tab K n q) => do
      let lIJ ← d.lT.get i j
      forUp 0 q (fun k (x : Tab K n q) => do
        x.set i k (Flt.sub (← x.get i k) (Flt.mul (← x.get j k) lIJ))) x) x) (by
    intro k y hk
    rw [Tab.get_ok hk hk, ok_bind]
    obtain ⟨y', e, h1, h2⟩ := scale k (d.lT.f k k) y hk
    obtain ⟨y'', e', h3, h4⟩ := inner (fun i => d.lT.f i k) (fun i => d.lT.get i k) k 0 k y' hk
      hk.le (by omega) fun i hi => Tab.get_ok hi hk
    refine ⟨y'', by rw [e, ok_bind, e'], fun j hj => ⟨fun i h5 h6 => ?_, ?_, fun i h5 => ?_⟩⟩
    · rw [h4 i j (by omega), h2 i j (by omega)]
    · rw [h4 k j (by omega), h1 j (by omega) hj]
    · rw [h3 i j (by omega) h5 (by omega) hj, h2 i j (by omega), h4 k j (by omega), mul_comm])
  rw [ey, ok_bind, ex, ok_bind]
  obtain ⟨m', em, hm', -⟩ := Arr.copyIn_ok (Jag.toLists_rect x) hn hq
  refine ⟨.arr m', x.f, by rw [em]; rfl, trivial, ?_, ?_⟩
  · exact (Mat.at_shows (.arr m')).congr fun i j hi hj => (hm' i j hi hj)
  · ext i j
    have h1 := congrFun (hI.solve (hy j j.2) (hx j j.2)) i
    rw [ht i j i.2 j.2] at h1
    exact h1

/-- **C32.** `Inverse` returns the inverse matrix. -/
theorem C32_inverse {rel pos : K} (hpos : 0 ≤ pos) {m : Mat K n n} (hm : m.own) (hn : 0 < n)
    {A : Nat → Nat → K} (hA : Shows m.at n n A) {d : Chol K n n} (hd : Chol.new rel pos m = .ok d) :
    ∃ (x : Mat K n n) (X : Nat → Nat → K), d.inverse = .ok ⟨n, n, x⟩ ∧ x.own ∧ Shows x.at n n X ∧
      mx n n (symU A) * mx n n X = 1 ∧ (rel = 0 → mx n n A * mx n n X = 1) := by
  obtain ⟨i, ei, hid, hi⟩ := (C03_identity (α := K) (n : Int)).1 (by omega)
  obtain ⟨x, X, ex, hl, hX, h, h'⟩ := C32_matrix hpos hm hn hA hd hn (b := i) (Mat.dense_own hid) hi
  have h1 : mx n n (fun i j => if i = j then Flt.one else Flt.zero) = (1 : Matrix (Fin n) (Fin n) K) := by
    ext i j
    simp [mx, Matrix.one_apply, Fin.ext_iff]
  refine ⟨x, X, ?_, hl, hX, ((h _).2 rfl).trans h1, fun hr => ((h' hr _).2 rfl).trans h1⟩
  unfold Chol.inverse
  refine (congrArg (fun x : Res (Mat K n n) => x.must >>= fun m => d.solveMatrix m) ei :).trans ?_
  rw [must_ok, ok_bind, ex]

end exact

/-- **C32.** Right-hand sides of the wrong height are refused; in any arithmetic. -/
theorem C32_refuse (d : Chol α n n) :
    (∀ b : RVec α, b.dim ≠ n → d.solveVector b = .error (.pan .dim)) ∧
    ∀ (p q : Nat) (b : Mat α p q), p ≠ n → d.solveMatrix b = .error (.pan .dim) := by
  refine ⟨fun b hb => ?_, fun p q b hb => ?_⟩
  · unfold Chol.solveVector
    rw [if_pos hb]
    rfl
  · unfold Chol.solveMatrix
    rw [if_pos hb]
    rfl

/-- **C31.** A matrix that is not square is refused with an error. -/
theorem C31_square {r c : Nat} {rel pos : α} {m : Mat α r c} (hr : 0 < r) (h : r ≠ c) :
    Chol.new rel pos m = .error (.err .sqMat) := by
  unfold Chol.new Mat.isSquare
  rw [Mat.colDim_ok hr]
  simp [ok_bind, pure_eq_ok, Ne.symm h]

/-- **C58.** In any arithmetic the constructor ends in a decomposition or in one of its two errors. -/
theorem C58_cholesky {rel pos : α} {m : Mat α n n} (hm : m.own) (hn : 0 < n) :
    (∃ d, Chol.new rel pos m = .ok d) ∨ Chol.new rel pos m = .error (.err .symm) ∨
      Chol.new rel pos m = .error (.err .small) := by
  have h : Wp (Chol.new rel pos m) (fun _ => True) fun e => e = .err .symm ∨ e = .err .small := by
    unfold Chol.new
    have hsq : m.isSquare = .ok true := by
      unfold Mat.isSquare
      rw [Mat.colDim_ok hn]
      simp [ok_bind, pure_eq_ok]
    obtain ⟨t, et, ht⟩ := Mat.dataCopy_ok hm hn m.at_shows
    rw [hsq, ok_bind]
    simp only [Bool.not_true, Bool.false_eq_true, if_false]
    rw [et, ok_bind, wp_bind]
    refine (Chol.check_wp rel t).mono ?_ fun e he => .inl he.1
    rintro t₁ -
    rw [wp_bind]
    refine (wp_forUp (fun _ _ => True) (Nat.zero_le n) trivial ?_).imp fun _ _ => trivial
    intro k t₂ _ hk _
    exact (Chol.step_wp pos hk t₂).mono (fun _ _ => trivial) fun e he => .inr he.1
  cases hd : Chol.new rel pos m with
  | ok d => exact .inl ⟨d, rfl⟩
  | error e =>
    rcases h.of_error hd with rfl | rfl
    · exact .inr (.inl rfl)
    · exact .inr (.inr rfl)

/-! ## Concrete cases -/

/-- A matrix that is not symmetric: the symmetry check refuses it. -/
example : (Chol.new (0 : ℚ) 0 luCase).toOption.isNone = true := by decide +kernel

/-- The hypotheses hold over the reals for the 2 by 2 matrix `((2, 1), (1, 2))`. -/
example : ∃ d, Chol.new (0 : ℝ) 0
    (.arr ⟨⟨fun i j => if i = j then 2 else 1⟩, fun _ => 0⟩ : Mat ℝ 2 2) = .ok d := by
  refine ((C31_iff (n := 2) (m := .arr ⟨⟨fun i j => if i = j then 2 else 1⟩, fun _ => 0⟩)
    (Mat.own_arr _) (by omega) (Mat.at_shows _)).1).2 ⟨?_, fun x hx => ?_⟩
  · ext i j
    fin_cases i <;> fin_cases j <;> simp [mx, Mat.ent]
  · have h : x 0 ≠ 0 ∨ x 1 ≠ 0 := by
      by_contra hc
      push Not at hc
      exact hx (funext fun i => by fin_cases i <;> simp [hc])
    simp only [dotProduct, mulVec, Fin.sum_univ_two, mx, Mat.ent]
    norm_num
    rcases h with h | h
    · nlinarith [mul_self_pos.2 h, sq_nonneg (x 0 + 2 * x 1), sq_nonneg (x 0 + x 1), sq_nonneg (x 1)]
    · nlinarith [mul_self_pos.2 h, sq_nonneg (x 0 + x 1), sq_nonneg (x 0)]

end Linear
