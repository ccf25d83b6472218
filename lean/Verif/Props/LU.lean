import Verif.Lemmas.LULemmas
import Verif.Props.Derived
import Verif.Props.Vectors
import Mathlib.LinearAlgebra.Matrix.Determinant.Basic
import Mathlib.LinearAlgebra.Matrix.Block
import Mathlib.LinearAlgebra.Matrix.NonsingularInverse
import Mathlib.LinearAlgebra.Matrix.ToLinearEquiv

/-!
# C27, C28, C29: the LU decomposition

`thr` is the singularity threshold and `ninf` the starting value of the pivot search
(`math.Inf(-1)` in the code; any negative number has the same effect in exact arithmetic).
-/

set_option linter.unusedSectionVars false

namespace Linear

open Spec Finset

variable {α : Type} [Flt α] {n : Nat}

/-! ## Specification -/

/-- Ones on the diagonal, zeros above. -/
def Spec.UnitLower {K : Type} [Field K] (n : Nat) (L : Nat → Nat → K) : Prop :=
  (∀ i, i < n → L i i = 1) ∧ ∀ i j, i < n → j < n → i < j → L i j = 0

/-- Zeros below the diagonal. -/
def Spec.Upper {K : Type} [Field K] (r c : Nat) (U : Nat → Nat → K) : Prop :=
  ∀ i j, i < r → j < c → j < i → U i j = 0

/-- A matrix with a single 1 in each row and each column, zeros elsewhere. -/
def Spec.IsPerm {K : Type} [Field K] (n : Nat) (P : Nat → Nat → K) : Prop :=
  ∃ σ : Equiv.Perm (Fin n), ∀ i j : Fin n, P i j = if σ i = j then 1 else 0

section exact

variable {K : Type} [Field K] [LinearOrder K] [IsStrictOrderedRing K] [Flt K] [Exact K]

/-! ## Field lemmas -/

theorem det_upper {n : Nat} {U : Nat → Nat → K} (h : Upper n n U) :
    (mx n n U).det = ∏ i ∈ range n, U i i := by
  rw [Matrix.det_of_isUpperTriangular (M := mx n n U)
    (fun (i j : Fin n) hij => h i j i.2 j.2 (by simpa using hij)), Finset.prod_range]
  rfl

theorem det_lower {n : Nat} {L : Nat → Nat → K} (h : ∀ i j, i < n → j < n → i < j → L i j = 0) :
    (mx n n L).det = ∏ i ∈ range n, L i i := by
  rw [Matrix.det_of_isLowerTriangular (mx n n L)
    (fun (i j : Fin n) hij => h i j i.2 j.2 (by simpa using hij)), Finset.prod_range]
  rfl

theorem LU.prod_factors {f : Nat → Nat → K} {i j k : Nat} (hj : j < k) :
    ∑ x ∈ range (min i j), f i x * f x j + (if i ≤ j then f i j else f i j * f j j) = ∑ x ∈ range k,
      (if x < i then f i x else if i = x then 1 else 0) * (if x ≤ j then f x j else 0) := by
  by_cases e : i ≤ j
  · rw [if_pos e, min_eq_left e]
    rw [← sum_subset (range_subset_range.2 (show i + 1 ≤ k by omega)), sum_range_succ]
    · rw [if_neg (by omega), if_pos rfl, if_pos e, one_mul]
      congr 1
      refine sum_congr rfl fun x hx => ?_
      have := mem_range.1 hx
      rw [if_pos this, if_pos (by omega)]
    · intro x _ hx
      have : ¬ x < i + 1 := fun h => hx (mem_range.2 h)
      rw [if_neg (by omega), if_neg (by omega), zero_mul]
  · rw [if_neg e, min_eq_right (by omega)]
    rw [← sum_subset (range_subset_range.2 (show j + 1 ≤ k by omega)), sum_range_succ]
    · rw [if_pos (by omega), if_pos le_rfl]
      congr 1
      refine sum_congr rfl fun x hx => ?_
      have := mem_range.1 hx
      rw [if_pos (by omega), if_pos (by omega)]
    · intro x _ hx
      have : ¬ x < j + 1 := fun h => hx (mem_range.2 h)
      rw [if_neg (show ¬ x ≤ j by omega), mul_zero]

theorem LU.Inv.mul {A f : Nat → Nat → K} {p : Nat → Nat} (h : LU.Inv n A p n f) {i j : Nat}
    (hi : i < n) (hj : j < n) : A (p i) j = ∑ k ∈ range n,
      (if k < i then f i k else if i = k then 1 else 0) * (if k ≤ j then f k j else 0) := by
  rw [h.prod i j hi hj hj, LU.prod_factors hj]

/-- A column without candidates of magnitude `thr`: without the remainders the matrix is singular. -/
theorem LU.Mid.near {A f : Nat → Nat → K} {p : Nat → Nat} {k : Nat} {thr : K} (hk : k < n) (ht : 0 < thr)
    (h : LU.Mid n A p k f) (hf : ∀ i, k ≤ i → i < n → |f i k| < thr) {σ : Equiv.Perm (Fin n)}
    (hp : ∀ i : Fin n, p i = σ i) :
    ∃ B : Matrix (Fin n) (Fin n) K, B.det = 0 ∧ (∀ i j : Fin n, (j : Nat) ≠ k → B i j = A i j) ∧
      ∀ i : Fin n, |B i ⟨k, hk⟩ - A i k| < thr := by
  let rem : Fin n → K := fun i => if k ≤ (i : Nat) then f i k else 0
  let B : Matrix (Fin n) (Fin n) K := fun i j => A i j - if (j : Nat) = k then rem (σ.symm i) else 0
  have hrem : ∀ i, |rem i| < thr := by
    intro i
    dsimp only [rem]
    split
    · exact hf i (by assumption) i.2
    · simpa using ht
  refine ⟨B, ?_, fun i j hj => ?_, fun i => ?_⟩
  · -- the columns up to `k` are combinations of `k` vectors
    let W : Matrix (Fin n) (Fin n) K := fun x j =>
      if (j : Nat) ≤ k then if (x : Nat) < k ∧ (x : Nat) ≤ j then f x j else 0 else if x = j then 1 else 0
    have hW : W.det = 0 := by
      refine Matrix.det_eq_zero_of_row_eq_zero ⟨k, hk⟩ fun j => ?_
      dsimp only [W]
      split
      · rw [if_neg (by simp)]
      · rw [if_neg (fun e => by have := congrArg Fin.val e; dsimp only at this; omega)]
    obtain ⟨v, hv, hv0⟩ := Matrix.exists_mulVec_eq_zero_iff.2 hW
    have htail : ∀ j : Fin n, k < (j : Nat) → v j = 0 := by
      intro j hj
      have := congrFun hv0 j
      rw [Matrix.mulVec, dotProduct, Finset.sum_eq_single j] at this
      · simpa [W, show ¬ (j : Nat) ≤ k by omega] using this
      · intro b _ hb
        dsimp only [W]
        split
        · rw [if_neg (by omega), zero_mul]
        · rw [if_neg (Ne.symm hb), zero_mul]
      · simp
    refine Matrix.exists_mulVec_eq_zero_iff.1 ⟨v, hv, ?_⟩
    funext i
    obtain ⟨i, rfl⟩ := σ.surjective i
    have hcol : ∀ j : Fin n, (j : Nat) ≤ k → B (σ i) j = ∑ x ∈ range k,
        (if x < i then f i x else if (i : Nat) = x then 1 else 0) * (if x ≤ j then f x j else 0) := by
      intro j hj
      dsimp only [B]
      rw [σ.symm_apply_apply]
      by_cases e : (j : Nat) = k
      · rw [if_pos e, ← hp, e, h.col i i.2]
        dsimp only [rem]
        by_cases e2 : k ≤ (i : Nat)
        · rw [if_pos e2, min_eq_right e2, add_sub_cancel_right]
          refine sum_congr rfl fun x hx => ?_
          have := mem_range.1 hx
          rw [if_pos (by omega), if_pos (by omega)]
        · rw [if_neg e2, sub_zero, min_eq_left (by omega)]
          rw [← sum_subset (range_subset_range.2 (show (i : Nat) + 1 ≤ k by omega)), sum_range_succ]
          · rw [if_neg (by omega), if_pos rfl, if_pos (by omega), one_mul]
            congr 1
            refine sum_congr rfl fun x hx => ?_
            have := mem_range.1 hx
            rw [if_pos this, if_pos (by omega)]
          · intro x _ hx
            have : ¬ x < (i : Nat) + 1 := fun h => hx (mem_range.2 h)
            rw [if_neg (by omega), if_neg (by omega), zero_mul]
      · rw [if_neg e, sub_zero, ← hp, h.prod i j i.2 j.2 (by omega),
          LU.prod_factors (show (j : Nat) < k by omega)]
    have hrow : ∀ x, x < k → ∑ j : Fin n, (if x ≤ j then f x j else 0) * v j = 0 := by
      intro x hx
      have := congrFun hv0 ⟨x, by omega⟩
      rw [Matrix.mulVec, dotProduct, Pi.zero_apply] at this
      refine (sum_congr rfl fun j _ => ?_).trans this
      by_cases e : (j : Nat) ≤ k
      · dsimp only [W]
        rw [if_pos e]
        congr 1
        by_cases e2 : x ≤ j
        · rw [if_pos e2, if_pos ⟨hx, e2⟩]
        · rw [if_neg e2]
          exact (if_neg (show ¬(x < k ∧ x ≤ j) from fun h => e2 h.2)).symm
      · rw [htail j (by omega), mul_zero, mul_zero]
    rw [Matrix.mulVec, dotProduct, Pi.zero_apply]
    have : ∀ j : Fin n, B (σ i) j * v j = ∑ x ∈ range k,
        (if x < i then f i x else if (i : Nat) = x then 1 else 0) * ((if x ≤ j then f x j else 0) * v j) := by
      intro j
      by_cases e : (j : Nat) ≤ k
      · rw [hcol j e, Finset.sum_mul]
        exact sum_congr rfl fun x _ => mul_assoc _ _ _
      · rw [htail j (by omega), mul_zero]
        exact (sum_eq_zero fun x _ => by rw [mul_zero, mul_zero]).symm
    rw [sum_congr rfl fun j _ => this j, sum_comm]
    refine sum_eq_zero fun x hx => ?_
    rw [← Finset.mul_sum, hrow x (mem_range.1 hx), mul_zero]
  · dsimp only [B]
    rw [if_neg hj, sub_zero]
  · dsimp only [B]
    rw [if_pos rfl, sub_sub_cancel_left, abs_neg]
    exact hrem _

/-- The product of the two factors, as matrices. -/
theorem LU.Inv.matrix {A f : Nat → Nat → K} {p : Nat → Nat} (h : LU.Inv n A p n f)
    {σ : Equiv.Perm (Fin n)} (hp : ∀ i : Fin n, p i = σ i) :
    (mx n n A).submatrix σ id = mx n n (fun i k => if k < i then f i k else if i = k then 1 else 0) *
      mx n n (fun k j => if k ≤ j then f k j else 0) := by
  ext i j
  rw [Matrix.mul_apply, Matrix.submatrix_apply]
  show A (σ i) j = _
  rw [← hp, h.mul i.2 j.2, Finset.sum_range]
  rfl

theorem LU.Inv.det {A f : Nat → Nat → K} {p : Nat → Nat} (h : LU.Inv n A p n f)
    {σ : Equiv.Perm (Fin n)} (hp : ∀ i : Fin n, p i = σ i) :
    (mx n n A).det = ((Equiv.Perm.sign σ : ℤ) : K) * ∏ i ∈ range n, f i i := by
  have h1 := congrArg Matrix.det (h.matrix hp)
  rw [Matrix.det_mul, Matrix.det_permute, 
    det_lower (L := fun i k => if k < i then f i k else if i = k then 1 else 0) (fun i j _ _ hij => by
      rw [if_neg (by omega), if_neg (by omega)]),
    det_upper (U := fun k j => if k ≤ j then f k j else 0) (fun i j _ _ hij => by
      dsimp only; rw [if_neg (by omega)])] at h1
  have h2 : ∏ i ∈ range n, (if i < i then f i i else if i = i then 1 else 0) = (1 : K) :=
    Finset.prod_eq_one fun i _ => by simp
  have h3 : ∏ i ∈ range n, (if i ≤ i then f i i else 0) = ∏ i ∈ range n, f i i :=
    Finset.prod_congr rfl fun i _ => by simp
  rw [h2, h3, one_mul] at h1
  rw [← h1, ← mul_assoc, ← Int.cast_mul]
  have : ((Equiv.Perm.sign σ : ℤ)) * (Equiv.Perm.sign σ : ℤ) = 1 := by
    rw [← Units.val_mul, Int.units_mul_self]; rfl
  rw [this, Int.cast_one, one_mul]

theorem LU.Inv.det_ne {A f : Nat → Nat → K} {p : Nat → Nat} (h : LU.Inv n A p n f)
    {σ : Equiv.Perm (Fin n)} (hp : ∀ i : Fin n, p i = σ i) : (mx n n A).det ≠ 0 := by
  rw [h.det hp]
  refine mul_ne_zero ?_ (Finset.prod_ne_zero_iff.2 fun i hi =>
    h.diag i (mem_range.1 hi) (mem_range.1 hi))
  rcases Int.units_eq_one_or (Equiv.Perm.sign σ) with e | e <;> rw [e] <;> simp

/-- Both substitutions together solve the permuted system. -/
theorem LU.Inv.solve {A f : Nat → Nat → K} {p : Nat → Nat} (h : LU.Inv n A p n f) {b y x : Nat → K}
    (hy : Fwd n f (fun _ => 1) b n y) (hx : Bwd n f y 0 x) {i : Nat} (hi : i < n) :
    ∑ j ∈ range n, A (p i) j * x j = b i := by
  have h1 : ∀ k, k < n → ∑ j ∈ range n, (if k ≤ j then f k j else 0) * x j = y k := by
    intro k hk
    rw [← hx.done hk, ← sum_subset (show Ico k n ⊆ range n from fun a ha =>
      mem_range.2 (mem_Ico.1 ha).2)]
    · refine sum_congr rfl fun j hj => ?_
      rw [if_pos (mem_Ico.1 hj).1]
    · intro j hj hj'
      rw [if_neg (fun h => hj' (mem_Ico.2 ⟨h, mem_range.1 hj⟩)), zero_mul]
  have h2 : ∑ k ∈ range n, (if k < i then f i k else if i = k then 1 else 0) * y k = b i := by
    rw [← hy.done hi, one_mul, add_comm, ← sum_subset (range_subset_range.2 (show i + 1 ≤ n by omega)),
      sum_range_succ]
    · rw [if_neg (by omega), if_pos rfl, one_mul]
      congr 1
      refine sum_congr rfl fun x hx => ?_
      rw [if_pos (mem_range.1 hx)]
    · intro x _ hx
      have : ¬ x < i + 1 := fun h => hx (mem_range.2 h)
      rw [if_neg (by omega), if_neg (by omega), zero_mul]
  rw [← h2]
  have h3 : ∀ k ∈ range n, (if k < i then f i k else if i = k then 1 else 0) * y k =
      ∑ j ∈ range n, (if k < i then f i k else if i = k then 1 else 0) *
        ((if k ≤ j then f k j else 0) * x j) := by
    intro k hk
    rw [← h1 k (mem_range.1 hk), Finset.mul_sum]
  rw [sum_congr rfl h3, sum_comm]
  refine sum_congr rfl fun j hj => ?_
  rw [h.mul hi (mem_range.1 hj), Finset.sum_mul]
  exact sum_congr rfl fun k _ => by ring

theorem LU.new_exact {thr ninf : K} (ht : 0 < thr) (hninf : ninf < 0) {m : Mat K n n} (hm : m.own)
    (hn : 0 < n) {A : Nat → Nat → K} (hA : Shows m.at n n A) :
    ∃ d, LU.new thr ninf m = .ok d ∧ (LU.At A n d ∨ LU.Stop A thr d) := by
  refine LU.new_wp hm hn hA (LU.At A) (LU.Stop A thr) ?_
    fun k s hk h => LU.step_exact hninf ht hk h
  intro s h1 h2 h3 h4
  refine ⟨h1, ⟨1, h2⟩, ?_⟩
  constructor
  · intro i j _ _ h; omega
  · intro i j hi hj _
    rw [h3 i hi]; exact h4 i j hi hj
  · intro j _ h; omega
  · intro i j _ h; omega

/-! ## The three matrices -/

end exact

theorem LU.l_ok {d : LU α n n} (hn : 0 < n) (hs : d.singular = false) :
    ∃ m : Mat α n n, d.l = .ok (some m) ∧ Shows m.at n n fun i j =>
      if j < i then d.lu.f i j else if i = j then Flt.one else Flt.zero := by
  unfold LU.l
  simp only [hs, Bool.false_eq_true, if_false]
  obtain ⟨m, e, h1, h2⟩ := Mat.new_win (α := α) (r := n) (c := n) hn hn
  obtain ⟨m', e', h3, h4⟩ := Mat.putLoop (Nat.zero_le n)
    (fun i j => if j < i then d.lu.f i j else Flt.one)
    (fun i x y => x = i ∧ y ≤ i) h1 (body := fun i (m : Mat α n n) => do
      let m ← forUp 0 i (fun j (m : Mat α n n) => do m.put i j (← d.lu.get i j)) m
      m.put i i Flt.one) (by
    intro i m _ hi hm
    obtain ⟨m', e, h3, h4⟩ := Mat.putLoop (Nat.zero_le i)
      (fun i j => if j < i then d.lu.f i j else Flt.one)
      (fun j x y => x = i ∧ y = j) hm
      (body := fun j (m : Mat α n n) => do m.put i j (← d.lu.get i j)) (by
      intro j m _ hj hm
      obtain ⟨m', e, h3, h4⟩ := Mat.put_ok hm hi (show j < n by omega) (d.lu.f i j)
      refine ⟨m', by rw [Tab.get_ok hi (by omega), ok_bind, e], h3, ?_⟩
      rw [h4]
      exact Wr.upd2 (by rw [if_pos hj]))
    obtain ⟨m'', e2, h5, h6⟩ := Mat.put_ok h3 hi hi Flt.one
    refine ⟨m'', by rw [e, ok_bind, e2], h5, ?_⟩
    rw [h6]
    refine (h4.trans (Wr.upd2 (by rw [if_neg (by omega)]))).congr fun x y => ?_
    constructor
    · rintro (⟨j, _, h, rfl, rfl⟩ | ⟨rfl, rfl⟩) <;> exact ⟨rfl, by omega⟩
    · rintro ⟨rfl, h⟩
      by_cases e : y = x
      · exact .inr ⟨rfl, e⟩
      · exact .inl ⟨y, by omega, by omega, rfl, rfl⟩)
  refine ⟨m', ?_, m'.win_shows.congr fun i j hi hj => ?_⟩
  · rw [e, must_ok, ok_bind, e']; rfl
  · by_cases e : j ≤ i
    · rw [(h4 i j).1 ⟨i, by omega, hi, rfl, e⟩]
      dsimp only
      by_cases e2 : j < i
      · rw [if_pos e2, if_pos e2]
      · rw [if_neg e2, if_neg e2, if_pos (by omega)]
    · rw [(h4 i j).2 (by rintro ⟨i', _, _, rfl, h⟩; exact e h), h2, if_neg (by omega),
        if_neg (by omega)]

theorem LU.u_ok {d : LU α n n} (hn : 0 < n) (hs : d.singular = false) :
    ∃ m : Mat α n n, d.u = .ok (some m) ∧ Shows m.at n n fun i j =>
      if i ≤ j then d.lu.f i j else Flt.zero := by
  unfold LU.u
  simp only [hs, Bool.false_eq_true, if_false]
  obtain ⟨m, e, h1, h2⟩ := Mat.new_win (α := α) (r := n) (c := n) hn hn
  obtain ⟨m', e', h3, h4⟩ := Mat.putLoop (Nat.zero_le n) d.lu.f
    (fun i x y => x = i ∧ i ≤ y ∧ y < n) h1 (body := fun i (m : Mat α n n) =>
      forUp i n (fun j (m : Mat α n n) => do m.put i j (← d.lu.get i j)) m) (by
    intro i m _ hi hm
    obtain ⟨m', e, h3, h4⟩ := Mat.putLoop hi.le d.lu.f
      (fun j x y => x = i ∧ y = j) hm
      (body := fun j (m : Mat α n n) => do m.put i j (← d.lu.get i j)) (by
      intro j m _ hj hm
      obtain ⟨m', e, h3, h4⟩ := Mat.put_ok hm hi hj (d.lu.f i j)
      refine ⟨m', by rw [Tab.get_ok hi (by omega), ok_bind, e], h3, ?_⟩
      rw [h4]
      exact Wr.upd2 rfl)
    refine ⟨m', e, h3, h4.congr fun x y => ?_⟩
    constructor
    · rintro ⟨j, h5, h6, rfl, rfl⟩; exact ⟨rfl, h5, h6⟩
    · rintro ⟨rfl, h5, h6⟩; exact ⟨y, h5, h6, rfl, rfl⟩)
  refine ⟨m', ?_, m'.win_shows.congr fun i j hi hj => ?_⟩
  · rw [e, must_ok, ok_bind, e']; rfl
  · by_cases e : i ≤ j
    · rw [(h4 i j).1 ⟨i, by omega, hi, rfl, e, hj⟩, if_pos e]
    · rw [(h4 i j).2 (by rintro ⟨i', _, _, rfl, h⟩; exact e h.1), h2, if_neg e]

theorem LU.p_ok {d : LU α n n} (hn : 0 < n) (hs : d.singular = false) {σ : Equiv.Perm (Fin n)}
    (hp : ∀ i : Fin n, d.pivot.f i = σ i) :
    ∃ m : Mat α n n, d.p = .ok (some m) ∧ Shows m.at n n fun i j =>
      if d.pivot.f i = j then Flt.one else Flt.zero := by
  unfold LU.p
  simp only [hs, Bool.false_eq_true, if_false]
  obtain ⟨m, e, h1, h2⟩ := Mat.new_win (α := α) (r := n) (c := n) hn hn
  obtain ⟨m', e', h3, h4⟩ := Mat.putLoop (Nat.zero_le n) (fun _ _ => Flt.one)
    (fun i x y => x = i ∧ y = d.pivot.f i) h1 (body := fun i (m : Mat α n n) => do
      m.put i (← d.pivot.get i) Flt.one) (by
    intro i m _ hi hm
    have hpi : d.pivot.f i < n := by rw [hp ⟨i, hi⟩]; exact (σ ⟨i, hi⟩).2
    obtain ⟨m', e, h3, h4⟩ := Mat.put_ok hm hi hpi Flt.one
    refine ⟨m', by rw [Row.get_ok hi, ok_bind, e], h3, ?_⟩
    rw [h4]
    exact Wr.upd2 rfl)
  refine ⟨m', ?_, m'.win_shows.congr fun i j hi hj => ?_⟩
  · rw [e, must_ok, ok_bind, e']; rfl
  · by_cases e : d.pivot.f i = j
    · rw [(h4 i j).1 ⟨i, by omega, hi, rfl, e.symm⟩, if_pos e]
    · rw [(h4 i j).2 (by rintro ⟨i', _, _, rfl, h⟩; exact e h.symm), h2, if_neg e]

/-! ## The solver -/

section exact

variable {K : Type} [Field K] [LinearOrder K] [IsStrictOrderedRing K] [Flt K] [Exact K]

theorem perm_sum {A : Nat → Nat → K} {p : Nat → Nat} {σ : Equiv.Perm (Fin n)}
    (hp : ∀ i : Fin n, p i = σ i) {b x : Nat → K}
    (h : ∀ i, i < n → ∑ j ∈ range n, A (p i) j * x j = b (p i)) {i : Nat} (hi : i < n) :
    ∑ j ∈ range n, A i j * x j = b i := by
  have h1 := h (σ.symm ⟨i, hi⟩) (σ.symm ⟨i, hi⟩).2
  rw [hp, Equiv.apply_symm_apply] at h1
  exact h1

theorem LU.solveVector_ok {A : Nat → Nat → K} {d : LU K n n} (hd : LU.At A n d) {b : RVec K}
    (hb : b.dim = n) : ∃ x, d.solveVector b = .ok x ∧ x.length = n ∧
      ∀ i, i < n → ∑ j ∈ range n, A i j * nth x j = nth b.list i := by
  obtain ⟨hs, ⟨σ, hσ⟩, hI⟩ := hd
  unfold LU.solveVector
  rw [if_neg (by simpa using hb)]
  simp only [hs, Bool.false_eq_true, if_false]
  obtain ⟨b0, e0, h0, -⟩ := Row.loop (ε := Fault) (a := 0) (b := n) (t := Row.zero n)
    (fun i _ => nth b.list (d.pivot.f i))
    (body := fun row (bp : Row K n) => do bp.set row (← b.at (← d.pivot.get row))) (by
      intro i t _ hi _
      have hpi : d.pivot.f i < n := by rw [hσ.1 ⟨i, hi⟩]; exact (σ ⟨i, hi⟩).2
      rw [Row.get_ok hi, ok_bind, RVec.at_nth _ (by omega), ok_bind, Row.set_ok hi])
  obtain ⟨y, ey, hy⟩ := Row.fwdLoop (ε := Fault) (n := n) (L := d.lu.f) (d := fun _ => 1)
    (by simp) (t := b0) (body := fun col (bp : Row K n) => do
      let bpCol ← bp.get col
      forUp (col + 1) n (fun i (bp : Row K n) => do
        bp.set i (Flt.sub (← bp.get i) (Flt.mul bpCol (← d.lu.get i col)))) bp) (by
    intro k y hk
    rw [Row.get_ok hk, ok_bind]
    obtain ⟨y', e, h1, h2⟩ := Row.loop (ε := Fault) (a := k + 1) (b := n) (t := y)
      (fun i v => v - y.f k * d.lu.f i k)
      (body := fun i (bp : Row K n) => do
        bp.set i (Flt.sub (← bp.get i) (Flt.mul (y.f k) (← d.lu.get i k)))) (by
      intro i t h1 h2 h3
      rw [Row.get_ok h2, ok_bind, Tab.get_ok h2 hk, ok_bind, Row.set_ok h2, h3 i (by omega)]
      simp)
    refine ⟨y', e, fun i hi => h2 i (by omega), by rw [h2 k (by omega), div_one], fun i h3 h4 => ?_⟩
    rw [h1 i h3 h4, h2 k (by omega), mul_comm])
  obtain ⟨x, ex, hx⟩ := Row.bwdLoop (ε := Fault) (n := n) (U := d.lu.f)
    (fun k hk => hI.diag k hk hk) (t := y) (body := fun col (bp : Row K n) => do
      let bp ← bp.set col (Flt.div (← bp.get col) (← d.lu.get col col))
      let bpCol ← bp.get col
      forUp 0 col (fun i (bp : Row K n) => do
        bp.set i (Flt.sub (← bp.get i) (Flt.mul bpCol (← d.lu.get i col)))) bp) (by
    intro k y hk
    rw [Row.get_ok hk, ok_bind, Tab.get_ok hk hk, ok_bind, Row.set_ok hk, ok_bind, Row.get_ok hk,
      ok_bind]
    obtain ⟨y', e, h1, h2⟩ := Row.loop (ε := Fault) (a := 0) (b := k)
      (t := (⟨upd1 y.f k (Flt.div (y.f k) (d.lu.f k k))⟩ : Row K n))
      (fun i v => v - y.f k / d.lu.f k k * d.lu.f i k)
      (body := fun i (bp : Row K n) => do
        bp.set i (Flt.sub (← bp.get i)
          (Flt.mul (upd1 y.f k (Flt.div (y.f k) (d.lu.f k k)) k) (← d.lu.get i k)))) (by
      intro i t h1 h2 h3
      rw [Row.get_ok (by omega), ok_bind, Tab.get_ok (by omega) hk, ok_bind, Row.set_ok (by omega),
        h3 i (by omega), upd1_eq, if_pos rfl]
      simp)
    have hk' : y'.f k = y.f k / d.lu.f k k := by
      rw [h2 k (by omega)]
      simp
    refine ⟨y', e, fun i h3 h4 => ?_, hk', fun i h3 => ?_⟩
    · rw [h2 i (by omega)]
      simp only [upd1_eq]
      rw [if_neg (by omega)]
    · rw [h1 i (by omega) h3, hk', mul_comm]
      simp only [upd1_eq]
      rw [if_neg (by omega)])
  rw [e0, ok_bind, ey, ok_bind, ex, ok_bind]
  refine ⟨_, rfl, by simp, fun i hi => perm_sum hσ.1 (x := nth x.toList) (b := nth b.list) ?_ hi⟩
  intro i hi
  have h1 := hI.solve hy hx hi
  rw [h0 i (by omega) hi] at h1
  rw [← h1]
  refine sum_congr rfl fun j hj => ?_
  have h2 := (Row.toList_isList x).2 j (mem_range.1 hj)
  simp [nth, h2]

theorem LU.solveMatrix_ok {A : Nat → Nat → K} {d : LU K n n} (hd : LU.At A n d) {q : Nat}
    (hn : 0 < n) (hq : 0 < q) {b : Mat K n q} {B : Nat → Nat → K} (hB : Shows b.at n q B) :
    ∃ (x : Mat K n q) (X : Nat → Nat → K), d.solveMatrix b = .ok ⟨n, q, x⟩ ∧ x.own ∧
      Shows x.at n q X ∧
      ∀ i j, i < n → j < q → ∑ k ∈ range n, A i k * X k j = B i j := by
  obtain ⟨hs, ⟨σ, hσ⟩, hI⟩ := hd
  unfold LU.solveMatrix
  rw [if_neg (by simp)]
  simp only [hs, Bool.false_eq_true, if_false]
  rw [Mat.colDim_ok hn, ok_bind]
  obtain ⟨b0, e0, h0, -⟩ := Tab.rowsLoop (ε := Fault) (a := 0) (b := n) (p := 0) (q := q)
    (t := (Jag.zero n _ : Tab K n q)) (fun i j _ => B (d.pivot.f i) j)
    (body := fun row (bp : Tab K n q) => do
      let pRow ← d.pivot.get row
      forUp 0 q (fun col bp => do bp.set row col (← b.at pRow col)) bp) (by
    intro i t _ hi _
    have hpi : d.pivot.f i < n := by rw [hσ.1 ⟨i, hi⟩]; exact (σ ⟨i, hi⟩).2
    rw [Row.get_ok hi, ok_bind]
    exact Tab.rowLoop (fun j _ => B (d.pivot.f i) j) (by
      intro j t _ hj _
      rw [hB.ok hpi hj, ok_bind, Tab.set_ok hi hj]))
  have inner : ∀ (k a b : Nat) (y : Tab K n q), k < n → b ≤ n → ¬ (a ≤ k ∧ k < b) →
      ∃ y' : Tab K n q, forUp a b (fun i (bp : Tab K n q) => do
        let luICol ← d.lu.get i k
        forUp 0 q (fun j bp => do
          bp.set i j (Flt.sub (← bp.get i j) (Flt.mul (← bp.get k j) luICol))) bp) y
            = .ok y' ∧
        (∀ i j, a ≤ i → i < b → 0 ≤ j → j < q → y'.f i j = y.f i j - y.f k j * d.lu.f i k) ∧
        ∀ i j, ¬ (a ≤ i ∧ i < b ∧ 0 ≤ j ∧ j < q) → y'.f i j = y.f i j := by
    intro k a b y hk hb hak
    refine Tab.rowsLoop (fun i j v => v - y.f k j * d.lu.f i k) ?_
    intro i t h1 h2 h3
    rw [Tab.get_ok (by omega) hk, ok_bind]
    obtain ⟨t', e, h4, h5⟩ := Tab.rowLoop (ε := Fault) (r := n) (c := q) (a := 0) (b := q) (i := i)
      (t := t) (fun j v => v - y.f k j * d.lu.f i k)
      (body := fun j bp => do
          bp.set i j (Flt.sub (← bp.get i j) (Flt.mul (← bp.get k j) (d.lu.f i k)))) (by
      intro j t' _ hj h4
      rw [Tab.get_ok (by omega) hj, ok_bind, Tab.get_ok hk hj, ok_bind, Tab.set_ok (by omega) hj,
        h4 i j (by omega), h4 k j (by omega), h3 k j (by omega)]
      simp)
    refine ⟨t', e, fun j h6 h7 => ?_, h5⟩
    rw [h4 j h6 h7, h3 i j (by omega)]
  obtain ⟨y, ey, hy⟩ := Tab.fwdLoop (ε := Fault) (n := n) (q := q) (L := d.lu.f) (d := fun _ => 1)
    (by simp) (t := b0) (body := fun col (bp : Tab K n q) =>
      forUp (col + 1) n (fun i bp => do
        let luICol ← d.lu.get i col
        forUp 0 q (fun j bp => do
          bp.set i j (Flt.sub (← bp.get i j) (Flt.mul (← bp.get col j) luICol))) bp) bp) (by
    intro k y hk
    obtain ⟨y', e, h1, h2⟩ := inner k (k + 1) n y hk le_rfl (by omega)
    refine ⟨y', e, fun j hj => ⟨fun i hi => h2 i j (by omega), by rw [h2 k j (by omega), div_one],
      fun i h3 h4 => ?_⟩⟩
    rw [h1 i j h3 h4 (by omega) hj, h2 k j (by omega), mul_comm])
  obtain ⟨x, ex, hx⟩ := Tab.bwdLoop (ε := Fault) (n := n) (q := q) (U := d.lu.f)
    (fun k hk => hI.diag k hk hk) (t := y) (body := fun col (bp : Tab K n q) => do
      let luDiag ← d.lu.get col col
      let bp ← forUp 0 q (fun j bp => do bp.set col j (Flt.div (← bp.get col j) luDiag)) bp
      forUp 0 col (fun i bp => do
        let luICol ← d.lu.get i col
        forUp 0 q (fun j bp => do
          bp.set i j (Flt.sub (← bp.get i j) (Flt.mul (← bp.get col j) luICol))) bp) bp) (by
    intro k y hk
    rw [Tab.get_ok hk hk, ok_bind]
    obtain ⟨y', e, h1, h2⟩ := Tab.rowLoop (ε := Fault) (r := n) (c := q) (a := 0) (b := q) (i := k)
      (t := y) (fun j v => v / d.lu.f k k)
      (body := fun j bp => do bp.set k j (Flt.div (← bp.get k j) (d.lu.f k k))) (by
      intro j t' _ hj h4
      rw [Tab.get_ok hk hj, ok_bind, Tab.set_ok hk hj, h4 k j (by omega)]
      simp)
    obtain ⟨y'', e', h3, h4⟩ := inner k 0 k y' hk hk.le (by omega)
    refine ⟨y'', by rw [e, ok_bind, e'], fun j hj => ⟨fun i h5 h6 => ?_, ?_, fun i h5 => ?_⟩⟩
    · rw [h4 i j (by omega), h2 i j (by omega)]
    · rw [h4 k j (by omega), h1 j (by omega) hj]
    · rw [h3 i j (by omega) h5 (by omega) hj, h2 i j (by omega), h4 k j (by omega), mul_comm])
  rw [e0, ok_bind, ey, ok_bind, ex, ok_bind]
  obtain ⟨m, em, hm, -⟩ := Arr.copyIn_ok (Jag.toLists_rect x) hn hq
  refine ⟨.arr m, x.f, by rw [em]; rfl, trivial, ?_, ?_⟩
  · exact (Mat.at_shows (.arr m)).congr fun i j hi hj => (hm i j hi hj)
  · intro i j hi hj
    refine perm_sum (b := fun i => B i j) (x := fun k => x.f k j) hσ.1 ?_ hi
    intro i hi
    rw [hI.solve (hy j hj) (hx j hj) hi]
    exact h0 i j (by omega) hi (by omega) hj

/-! ## C27 -/

/-- **C27.** The decomposition of any square matrix of the package succeeds. When it does not report
the matrix singular, `L` is unit lower triangular with entries of magnitude at most 1, `U` is upper
triangular with a non-zero diagonal, `P` is a permutation matrix and `P A = L U`. When it does, the
three are nil. A singular matrix is always reported singular, and a matrix that is reported singular
differs from a singular one in a single column, there by less than the threshold in each place. -/
theorem C27_factors {thr ninf : K} (ht : 0 < thr) (hninf : ninf < 0) {m : Mat K n n} (hm : m.own)
    (hn : 0 < n) {A : Nat → Nat → K} (hA : Shows m.at n n A) :
    ∃ d, LU.new thr ninf m = .ok d ∧
      (d.singular = false → ∃ (l u p : Mat K n n) (L U P : Nat → Nat → K),
        d.l = .ok (some l) ∧ d.u = .ok (some u) ∧ d.p = .ok (some p) ∧
        Shows l.at n n L ∧ Shows u.at n n U ∧ Shows p.at n n P ∧
        UnitLower n L ∧ (∀ i j, i < n → j < n → |L i j| ≤ 1) ∧
        Upper n n U ∧ (∀ i, i < n → U i i ≠ 0) ∧ IsPerm n P ∧
        mx n n P * mx n n A = mx n n L * mx n n U) ∧
      (d.singular = true → d.l = .ok none ∧ d.u = .ok none ∧ d.p = .ok none) ∧
      ((mx n n A).det = 0 → d.singular = true) ∧
      (d.singular = true → ∃ (B : Matrix (Fin n) (Fin n) K) (k : Fin n), B.det = 0 ∧
        (∀ i j, j ≠ k → B i j = mx n n A i j) ∧ ∀ i, |B i k - mx n n A i k| < thr) := by
  obtain ⟨d, e, h⟩ := LU.new_exact ht hninf hm hn hA
  refine ⟨d, e, ?_, ?_, ?_, ?_⟩
  · intro hs
    obtain ⟨-, ⟨σ, hσ⟩, hI⟩ := h.resolve_right fun h => absurd h.1 (by simp [hs])
    obtain ⟨l, el, hl⟩ := LU.l_ok hn hs
    obtain ⟨u, eu, hu⟩ := LU.u_ok hn hs
    obtain ⟨p, ep, hp⟩ := LU.p_ok hn hs hσ.1
    simp only [Exact.zero_eq, Exact.one_eq] at hl hu hp
    refine ⟨l, u, p, _, _, _, el, eu, ep, hl, hu, hp, ⟨fun i _ => by simp, fun i j _ _ h => ?_⟩,
      fun i j hi hj => ?_, fun i j _ _ h => ?_, fun i hi => ?_, ⟨σ, fun i j => ?_⟩, ?_⟩
    · dsimp only
      rw [if_neg (by omega), if_neg (by omega)]
    · split
      · exact hI.small i j hi hj (by assumption)
      · split <;> simp
    · dsimp only
      rw [if_neg (by omega)]
    · rw [if_pos le_rfl]
      exact hI.diag i hi hi
    · dsimp only
      rw [hσ.1]
      simp [Fin.ext_iff]
    · rw [← hI.matrix hσ.1]
      ext i j
      rw [Matrix.mul_apply, Matrix.submatrix_apply]
      rw [Finset.sum_eq_single (σ i)]
      · simp [mx, hσ.1]
      · intro k _ hk
        have : ¬ (σ i : Nat) = k := fun h => hk (Fin.ext h.symm)
        simp [mx, hσ.1, this]
      · simp
  · intro hs
    simp [LU.l, LU.u, LU.p, hs, pure_eq_ok]
  · intro hdet
    rcases h with h | h
    · obtain ⟨-, ⟨σ, hσ⟩, hI⟩ := h
      exact absurd hdet (hI.det_ne hσ.1)
    · exact h.1
  · intro hs
    obtain ⟨-, ⟨σ, hσ⟩, k, f, hk, hmid, hf⟩ := h.resolve_left fun h => absurd hs (by simp [h.1])
    obtain ⟨B, hB, h1, h2⟩ := hmid.near hk ht hf hσ.1
    exact ⟨B, ⟨k, hk⟩, hB, fun i j hj => h1 i j fun e => hj (Fin.ext e), h2⟩

/-- **C27.** A matrix that is not square is refused with an error. -/
theorem C27_square {r c : Nat} {thr ninf : α} {m : Mat α r c} (hr : 0 < r) (h : r ≠ c) :
    LU.new thr ninf m = .error (.err .sqMat) := by
  unfold LU.new Mat.isSquare
  rw [Mat.colDim_ok hr]
  simp [ok_bind, pure_eq_ok, Ne.symm h]

/-! ## C28 -/

/-- **C28.** The determinant is the determinant of the matrix when it is not reported singular, and 0
otherwise; in particular it is right for every singular matrix. -/
theorem C28_determinant {thr ninf : K} (ht : 0 < thr) (hninf : ninf < 0) {m : Mat K n n} (hm : m.own)
    (hn : 0 < n) {A : Nat → Nat → K} (hA : Shows m.at n n A) {d : LU K n n}
    (hd : LU.new thr ninf m = .ok d) :
    (d.singular = false → d.determinant = .ok (mx n n A).det) ∧
    (d.singular = true → d.determinant = .ok 0) ∧
    ((mx n n A).det = 0 → d.determinant = .ok (mx n n A).det) := by
  have hsing : d.singular = true → d.determinant = .ok 0 := by
    intro hs
    simp [LU.determinant, hs, pure_eq_ok]
  obtain ⟨d', e, h1, h2, h3, -⟩ := C27_factors ht hninf hm hn hA
  obtain rfl : d' = d := by rw [hd] at e; exact (Except.ok.inj e).symm
  refine ⟨fun hs => ?_, hsing, fun h => by rw [h]; exact hsing (h3 h)⟩
  obtain ⟨d'', e', h⟩ := LU.new_exact ht hninf hm hn hA
  obtain rfl : d'' = d' := by rw [e] at e'; exact (Except.ok.inj e').symm
  obtain ⟨-, ⟨σ, hσ⟩, hI⟩ := h.resolve_right fun h => absurd h.1 (by simp [hs])
  rw [hI.det hσ.1, hσ.2]
  unfold LU.determinant
  simp only [hs, Bool.false_eq_true, if_false]
  obtain ⟨x, e, hx⟩ := Wp.exists_ok (wp_forUp (E := fun _ : Fault => False)
    (s := if d''.even then Flt.one else Flt.neg Flt.one)
    (body := fun i (det : K) => do return Flt.mul det (← d''.lu.get i i))
    (fun k det => det = (if d''.even then 1 else -1) * ∏ i ∈ range k, d''.lu.f i i)
    (Nat.zero_le n) (by simp) (by
      rintro i x _ hi rfl
      rw [Tab.get_ok hi hi]
      show _ = _
      rw [prod_range_succ, Exact.mul_eq, mul_assoc]))
  rw [e, hx]
  cases d''.even <;> simp

/-- **C28.** `IsNonSingular` is true only for matrices with a determinant that is not 0, and false only for
matrices that are within the threshold of a singular one, for which the solver refuses. -/
theorem C28_isNonSingular {thr ninf : K} (ht : 0 < thr) (hninf : ninf < 0) {m : Mat K n n} (hm : m.own)
    (hn : 0 < n) {A : Nat → Nat → K} (hA : Shows m.at n n A) {d : LU K n n}
    (hd : LU.new thr ninf m = .ok d) :
    (d.isNonSingular = true → (mx n n A).det ≠ 0) ∧
    (d.isNonSingular = false →
      (∃ (B : Matrix (Fin n) (Fin n) K) (k : Fin n), B.det = 0 ∧
        (∀ i j, j ≠ k → B i j = mx n n A i j) ∧ ∀ i, |B i k - mx n n A i k| < thr) ∧
      ∀ b : RVec K, b.dim = n → d.solveVector b = .error (.pan .sing)) := by
  obtain ⟨d', e, -, -, h3, h4⟩ := C27_factors ht hninf hm hn hA
  obtain rfl : d' = d := by rw [hd] at e; exact (Except.ok.inj e).symm
  unfold LU.isNonSingular
  refine ⟨fun h h0 => ?_, fun h => ?_⟩
  · rw [h3 h0] at h; cases h
  · have hs : d'.singular = true := by simpa using h
    refine ⟨h4 hs, fun b hb => ?_⟩
    unfold LU.solveVector
    rw [if_neg (by simpa using hb), if_pos hs]
    rfl

/-! ## C29 -/

/-- The vector with elements `x`. -/
def Spec.vc (n : Nat) (x : List K) : Fin n → K := fun i => nth x i

/-- **C29.** When the matrix is not reported singular, `SolveVector` returns the only solution of
`A x = b`. -/
theorem C29_vector {thr ninf : K} (ht : 0 < thr) (hninf : ninf < 0) {m : Mat K n n} (hm : m.own)
    (hn : 0 < n) {A : Nat → Nat → K} (hA : Shows m.at n n A) {d : LU K n n}
    (hd : LU.new thr ninf m = .ok d) (hs : d.singular = false) {b : RVec K} (hb : b.dim = n) :
    ∃ x, d.solveVector b = .ok x ∧ x.length = n ∧
      ∀ y : Fin n → K, (mx n n A).mulVec y = vc n b.list ↔ y = vc n x := by
  obtain ⟨d', e', h⟩ := LU.new_exact ht hninf hm hn hA
  obtain rfl : d' = d := by rw [hd] at e'; exact (Except.ok.inj e').symm
  have h := h.resolve_right fun h => absurd h.1 (by simp [hs])
  obtain ⟨x, ex, hl, hx⟩ := LU.solveVector_ok h hb
  have hsol : (mx n n A).mulVec (vc n x) = vc n b.list := by
    ext i
    rw [Matrix.mulVec, dotProduct]
    show _ = nth b.list i
    rw [← hx i i.2, Finset.sum_range]
    rfl
  refine ⟨x, ex, hl, fun y => ⟨fun hy => ?_, fun hy => by rw [hy, hsol]⟩⟩
  obtain ⟨-, ⟨σ, hσ⟩, hI⟩ := h
  have hu : IsUnit (mx n n A) :=
    (Matrix.isUnit_iff_isUnit_det _).2 (hI.det_ne hσ.1).isUnit
  exact Matrix.mulVec_injective_of_isUnit hu (hy.trans hsol.symm)

/-- **C29.** When the matrix is not reported singular, `SolveMatrix` returns the only solution of
`A X = B`. -/
theorem C29_matrix {thr ninf : K} (ht : 0 < thr) (hninf : ninf < 0) {m : Mat K n n} (hm : m.own)
    (hn : 0 < n) {A : Nat → Nat → K} (hA : Shows m.at n n A) {d : LU K n n}
    (hd : LU.new thr ninf m = .ok d) (hs : d.singular = false) {q : Nat} (hq : 0 < q)
    {b : Mat K n q} {B : Nat → Nat → K} (hB : Shows b.at n q B) :
    ∃ (x : Mat K n q) (X : Nat → Nat → K), d.solveMatrix b = .ok ⟨n, q, x⟩ ∧ x.own ∧
      Shows x.at n q X ∧
      ∀ Y : Matrix (Fin n) (Fin q) K, mx n n A * Y = mx n q B ↔ Y = mx n q X := by
  obtain ⟨d', e', h⟩ := LU.new_exact ht hninf hm hn hA
  obtain rfl : d' = d := by rw [hd] at e'; exact (Except.ok.inj e').symm
  have h := h.resolve_right fun h => absurd h.1 (by simp [hs])
  obtain ⟨x, X, ex, hl, hX, hx⟩ := LU.solveMatrix_ok h hn hq hB
  have hsol : mx n n A * mx n q X = mx n q B := by
    ext i j
    rw [Matrix.mul_apply]
    show _ = B i j
    rw [← hx i j i.2 j.2, Finset.sum_range]
    rfl
  refine ⟨x, X, ex, hl, hX, fun Y => ⟨fun hY => ?_, fun hY => by rw [hY, hsol]⟩⟩
  obtain ⟨-, ⟨σ, hσ⟩, hI⟩ := h
  have hu : IsUnit (mx n n A) :=
    (Matrix.isUnit_iff_isUnit_det _).2 (hI.det_ne hσ.1).isUnit
  have h2 := congrArg ((mx n n A)⁻¹ * ·) (hY.trans hsol.symm)
  have hdet := (Matrix.isUnit_iff_isUnit_det _).1 hu
  simpa only [Matrix.nonsing_inv_mul_cancel_left _ _ hdet] using h2

/-- **C29.** `Inverse` returns the inverse matrix. -/
theorem C29_inverse {thr ninf : K} (ht : 0 < thr) (hninf : ninf < 0) {m : Mat K n n} (hm : m.own)
    (hn : 0 < n) {A : Nat → Nat → K} (hA : Shows m.at n n A) {d : LU K n n}
    (hd : LU.new thr ninf m = .ok d) (hs : d.singular = false) :
    ∃ (x : Mat K n n) (X : Nat → Nat → K), d.inverse = .ok ⟨n, n, x⟩ ∧ x.own ∧ Shows x.at n n X ∧
      mx n n A * mx n n X = 1 ∧ mx n n X * mx n n A = 1 := by
  obtain ⟨i, ei, -, hi⟩ := (C03_identity (α := K) (n : Int)).1 (by omega)
  obtain ⟨x, X, ex, hl, hX, h⟩ := C29_matrix ht hninf hm hn hA hd hs hn (b := i) hi
  have h1 : mx n n A * mx n n X = 1 := by
    rw [(h _).2 rfl]
    ext i j
    simp [mx, Matrix.one_apply, Fin.ext_iff]
  refine ⟨x, X, ?_, hl, hX, h1, mul_eq_one_comm.1 h1⟩
  unfold LU.inverse
  refine (congrArg (fun x : Res (Mat K n n) => x.must >>= fun m => d.solveMatrix m) ei :).trans ?_
  rw [must_ok, ok_bind, ex]

end exact

/-- **C29.** Right-hand sides of the wrong height, and all of them when the matrix was reported
singular, are refused; in any arithmetic. -/
theorem C29_refuse (d : LU α n n) :
    (∀ b : RVec α, b.dim ≠ n → d.solveVector b = .error (.pan .dim)) ∧
    (∀ (p q : Nat) (b : Mat α p q), p ≠ n → d.solveMatrix b = .error (.pan .dim)) ∧
    (d.singular = true →
      (∀ b : RVec α, b.dim = n → d.solveVector b = .error (.pan .sing)) ∧
      (∀ (q : Nat) (b : Mat α n q), d.solveMatrix b = .error (.pan .sing)) ∧
      (0 < n → d.inverse = .error (.pan .sing))) := by
  have hm : d.singular = true →
      ∀ (q : Nat) (b : Mat α n q), d.solveMatrix b = .error (.pan .sing) := by
    intro hs q b
    unfold LU.solveMatrix
    rw [if_neg (by simp), if_pos hs]
    rfl
  refine ⟨fun b hb => ?_, fun p q b hb => ?_, fun hs => ⟨fun b hb => ?_, hm hs, fun hn => ?_⟩⟩
  · unfold LU.solveVector
    rw [if_pos hb]
    rfl
  · unfold LU.solveMatrix
    rw [if_pos hb]
    rfl
  · unfold LU.solveVector
    rw [if_neg (by simpa using hb), if_pos hs]
    rfl
  · obtain ⟨i, ei, -, -⟩ := (C03_identity (α := α) (n : Int)).1 (by omega)
    unfold LU.inverse
    refine (congrArg (fun x : Res (Mat α n n) => x.must >>= fun m => d.solveMatrix m) ei :).trans ?_
    rw [must_ok, ok_bind, hm hs]

/-- **C58.** In any arithmetic, with any values including NaN, the decomposition of a square matrix
ends without an index fault, and `Pivot` is a permutation of the row indices. -/
theorem C58_lu {thr ninf : α} {m : Mat α n n} (hm : m.own) (hn : 0 < n) :
    ∃ d, LU.new thr ninf m = .ok d ∧ d.pivots.Perm (List.range n) := by
  obtain ⟨d, e, h⟩ := LU.new_wp (thr := thr) (ninf := ninf) hm hn m.at_shows
    (fun _ s => s.singular = false ∧ ∃ σ, s.Piv σ) (fun s => s.singular = true ∧ ∃ σ, s.Piv σ)
    (fun s h1 h2 _ _ => ⟨h1, 1, h2⟩) (fun k s hk h => LU.step_safe hk h)
  obtain ⟨σ, hσ⟩ : ∃ σ, d.Piv σ := by rcases h with h | h <;> exact h.2
  refine ⟨d, e, ?_⟩
  have h1 : d.pivots = (List.finRange n).map fun i => (σ i : Nat) := by
    unfold LU.pivots Row.toList
    rw [← List.map_coe_finRange_eq_range, List.map_map]
    exact List.map_congr_left fun i _ => hσ.1 i
  have h2 : (List.finRange n).map (fun i => (σ i : Nat)) = ((List.finRange n).map σ).map Fin.val := by
    rw [List.map_map]; rfl
  rw [h1, h2, ← List.map_coe_finRange_eq_range]
  exact (Equiv.Perm.map_finRange_perm σ).map _

/-! ## Concrete cases -/

/-- A matrix whose decomposition exchanges rows. -/
def Spec.luCase : Mat ℚ 3 3 :=
  .arr ⟨⟨fun i j => if i = 0 ∧ j = 0 then 0 else if i = 2 ∧ j = 1 then 7 else (i : ℚ) + 2 * j⟩, fun _ => 0⟩

example : (LU.new (1/1000) (-1) luCase).toOption.map (fun d => (d.singular, d.even, d.pivots)) =
    some (false, true, [2, 0, 1]) := by decide +kernel

example : (LU.new (1/1000) (-1) luCase >>= fun d => d.solveVector (.arr [1, 2, 3])).toOption =
    some [3/4, 0, 1/4] := by decide +kernel

/-- A singular matrix. -/
def Spec.luSing : Mat ℚ 2 2 := .arr ⟨⟨fun i j => ((i : ℚ) + 1) * (j + 1)⟩, fun _ => 0⟩

example : (LU.new (1/1000) (-1) luSing).toOption.map (fun d => d.singular) = some true := by
  decide +kernel

example : luCase.own ∧ (0 : ℚ) < 1/1000 ∧ (-1 : ℚ) < 0 := ⟨trivial, by norm_num, by norm_num⟩

end Linear
