import Verif.Props.Arith
import Verif.Props.Construct
import Verif.Props.Walks
import Mathlib.LinearAlgebra.Matrix.Defs
import Mathlib.Data.Matrix.Mul
import Mathlib.Data.Nat.Size
import Mathlib.Data.Nat.Bitwise
import Mathlib.Order.Bounds.Basic

/-!
# C18, C49, C51: operations built on the interface
-/

set_option linter.unusedSectionVars false

namespace Linear

open Spec

variable {α : Type} [Flt α] {r c : Nat}

/-- The Mathlib matrix with entries `A`. -/
def Spec.mx {K : Type} (r c : Nat) (A : Nat → Nat → K) : Matrix (Fin r) (Fin c) K :=
  fun i j => A i j

/-! ## C18 Power -/

theorem Mat.copy_own {m : Mat α r c} (hm : m.own) (hr : 0 < r) (hc : 0 < c) {A : Nat → Nat → α}
    (hA : Shows m.at r c A) :
    ∃ m' : Mat α r c, m.copy = .ok ⟨r, c, m'⟩ ∧ m'.own ∧ Shows m'.at r c A := by
  revert hm hA
  cases m with
  | arr m =>
    intro _ hA
    obtain ⟨m', e, h⟩ := m.copy_ok hr hc
    refine ⟨.arr m', by rw [Mat.copy, e]; rfl, trivial, (Mat.at_shows _).congr fun i j hi hj => ?_⟩
    show m'.data.f i j = _
    rw [h i j hi hj, Arr.data_of hA hi hj]
  | blk m =>
    intro _ hA
    obtain ⟨m', e, h⟩ := m.copy_ok
    refine ⟨.blk m', by rw [Mat.copy, e]; rfl, Mat.own_blk _, h.congr fun i j hi hj => ?_⟩
    rw [Blk.entB_of hA hi hj]
  | dia m =>
    intro _ hA
    obtain ⟨m', e, h⟩ := m.copy_ok
    exact ⟨.dia m', by rw [Mat.copy, e]; rfl, trivial,
      h.congr fun i j hi hj => (Dia.shows m).unique hA hi hj⟩
  | ext m => exact fun h => h.elim

theorem sum_testBit (n k : Nat) :
    (((List.range k).filter n.testBit).map (2 ^ ·)).sum = n % 2 ^ k := by
  induction k with
  | zero => simp [Nat.mod_one]
  | succ k ih =>
    rw [List.range_succ, List.filter_append, List.map_append, List.sum_append, ih,
      Nat.mod_pow_succ, ← Nat.toNat_testBit]
    by_cases h : n.testBit k = true
    · simp [h]
    · simp [h]

theorem onePositions_sum (n : Nat) : ((onePositions n).map (2 ^ ·)).sum = n := by
  unfold onePositions
  rw [List.filter_reverse, List.map_reverse, List.sum_reverse, sum_testBit,
    Nat.mod_eq_of_lt (Nat.lt_size_self n)]

theorem onePositions_head {n : Nat} (hn : n ≠ 0) :
    ∃ k l, onePositions n = k :: l ∧ ∀ i ∈ k :: l, i ≤ k := by
  have hs : (onePositions n).Pairwise (· > ·) := by
    unfold onePositions
    refine List.Pairwise.filter _ ?_
    rw [List.pairwise_reverse]
    exact List.pairwise_lt_range
  cases h : onePositions n with
  | nil =>
    have := onePositions_sum n
    rw [h] at this
    exact absurd this.symm hn
  | cons k l =>
    rw [h, List.pairwise_cons] at hs
    refine ⟨k, l, rfl, fun i hi => ?_⟩
    rcases List.mem_cons.1 hi with rfl | hi
    · exact le_rfl
    · exact (hs.1 i hi).le

section
variable {K : Type} [Field K] [LinearOrder K] [Flt K] [Exact K]

/-- `s` is a matrix of the library whose entries are those of `M ^ k`. -/
def IsPow {n : Nat} (M : Matrix (Fin n) (Fin n) K) (s : SMat K) (k : Nat) : Prop :=
  ∃ m : Mat K n n, s = ⟨n, n, m⟩ ∧ m.own ∧ ∃ A, Shows m.at n n A ∧ mx n n A = M ^ k

theorem IsPow.mul {n : Nat} (hn : 0 < n) {M : Matrix (Fin n) (Fin n) K} {s t : SMat K} {j k : Nat}
    (hs : IsPow M s j) (ht : IsPow M t k) : ∃ u, s.multiply t = .ok u ∧ IsPow M u (j + k) := by
  obtain ⟨a, rfl, ha, A, hA, eA⟩ := hs
  obtain ⟨b, rfl, hb, B, hB, eB⟩ := ht
  obtain ⟨m, e, hm, h⟩ := C10_product ha hn hn hn hA hB
  refine ⟨_, e, m, rfl, hm, _, h, ?_⟩
  rw [pow_add, ← eA, ← eB]
  funext i j
  show ∑ k ∈ Finset.range n, A i k * B k j = _
  rw [Matrix.mul_apply, ← Fin.sum_univ_eq_sum_range fun k => A i k * B k j]
  rfl

/-- C18, `Power`: for every square matrix of the library and every exponent `p ≥ 0` the entries of
the result are those of the `p`-th power, in exact arithmetic. -/
theorem C18_power {n : Nat} {m : Mat K n n} (hm : m.own) (hn : 0 < n) {A : Nat → Nat → K}
    (hA : Shows m.at n n A) (p : Nat) :
    ∃ (m' : Mat K n n) (P : Nat → Nat → K), m.power p = .ok ⟨n, n, m'⟩ ∧ Shows m'.at n n P ∧
      mx n n P = mx n n A ^ p := by
  have hsq : m.isSquare = .ok true := by
    have : m.colDim = .ok n := by
      revert hm
      cases m with
      | arr m => exact fun _ => Arr.colDim_ok m hn
      | blk m => exact fun _ => rfl
      | dia m => exact fun _ => rfl
      | ext m => exact fun h => h.elim
    unfold Mat.isSquare
    rw [this, ok_bind]
    simp
  obtain ⟨m₁, e₁, h₁, hA₁⟩ := Mat.copy_own hm hn hn hA
  suffices h : ∃ s, m.power p = .ok s ∧ IsPow (mx n n A) s p by
    obtain ⟨s, e, m', rfl, -, P, hP, eP⟩ := h
    exact ⟨m', P, e, hP, eP⟩
  have one : IsPow (mx n n A) ⟨n, n, m₁⟩ 1 := ⟨m₁, rfl, h₁, A, hA₁, (pow_one _).symm⟩
  unfold Mat.power
  rw [if_neg (by omega)]
  simp only [hsq, ok_bind, Bool.not_true, Bool.false_eq_true, if_false, e₁]
  by_cases h0 : p = 0
  · subst h0
    obtain ⟨m', e, hd, h⟩ := (C03_identity (α := K) (n : Int)).1 (by omega)
    refine ⟨⟨n, n, m'⟩, ?_, m', rfl, ?_, _, h, ?_⟩
    · rw [if_pos (by simp), e]; rfl
    · revert hd
      cases m' with
      | arr m => exact fun _ => trivial
      | blk m => exact fun _ => trivial
      | dia m => exact fun h => h.elim
      | ext m => exact fun h => h.elim
    · rw [pow_zero]
      funext i j
      simp only [mx, Matrix.one_apply, Fin.ext_iff, Exact.one_eq, Exact.zero_eq]
  rw [if_neg (by omega)]
  by_cases h1 : p = 1
  · subst h1
    rw [if_pos (by simp)]
    exact ⟨_, rfl, one⟩
  rw [if_neg (by omega)]
  obtain ⟨q, rfl⟩ : ∃ q, p = q + 1 := ⟨p - 1, by omega⟩
  have eq : (((q + 1 : Nat) : Int) - 1).toNat = q := by omega
  rw [eq]
  obtain ⟨k, l, ek, hk⟩ := onePositions_head (n := q) (by omega)
  have er : (rdL (onePositions q) 0 : Res Nat) = .ok k := by rw [ek]; rfl
  rw [er, ok_bind]
  have hres : ∃ res, forUp 1 (k + 1) (fun i (res : List (SMat K)) => do
      let x ← rdS res (i - 1)
      return res ++ [← x.multiply x]) [⟨n, n, m₁⟩] = .ok res ∧ (res.length = k + 1 ∧
        ∀ i < k + 1, ∃ s, rdS res i = .ok s ∧ IsPow (mx n n A) s (2 ^ i)) := by
    refine Wp.exists_ok (wp_forUp (fun i (res : List (SMat K)) => res.length = i ∧
        ∀ j < i, ∃ s, rdS res j = .ok s ∧ IsPow (mx n n A) s (2 ^ j)) (by omega) ⟨rfl, ?_⟩ ?_)
    · intro j hj
      obtain rfl : j = 0 := by omega
      exact ⟨_, rfl, one⟩
    · rintro i res h1 h2 ⟨hl, h⟩
      obtain ⟨s, es, hs⟩ := h (i - 1) (by omega)
      obtain ⟨u, eu, hu⟩ := hs.mul hn hs
      rw [es, ok_bind, eu, ok_bind]
      refine ⟨by simp [hl], fun j hj => ?_⟩
      by_cases hji : j = i
      · subst hji
        refine ⟨u, ?_, ?_⟩
        · unfold rdS rdL
          simp [hl]
        · have : 2 ^ (j - 1) + 2 ^ (j - 1) = 2 ^ j := by
            rw [← Nat.two_mul, ← pow_succ']
            congr 1; omega
          rwa [this] at hu
      · obtain ⟨t, et, ht⟩ := h j (by omega)
        refine ⟨t, ?_, ht⟩
        rw [← et]
        unfold rdS rdL
        rw [List.getElem?_append_left (by omega)]
  obtain ⟨res, e, hl, hres⟩ := hres
  rw [e, ok_bind]
  rw [← ek] at hk
  have fold : ∀ (l : List Nat), (∀ i ∈ l, i ≤ k) → ∀ s j, IsPow (mx n n A) s j →
      ∃ u, l.foldlM (fun (result : SMat K) i => do result.multiply (← rdS res i)) s = .ok u ∧
        IsPow (mx n n A) u (j + (l.map (2 ^ ·)).sum) := by
    intro l
    induction l with
    | nil => exact fun _ s j h => ⟨s, rfl, h⟩
    | cons i l ih =>
      intro hl s j h
      obtain ⟨t, et, ht⟩ := hres i (by have := hl i (by simp); omega)
      obtain ⟨u, eu, hu⟩ := h.mul hn ht
      obtain ⟨w, ew, hw⟩ := ih (fun i hi => hl i (by simp [hi])) u _ hu
      refine ⟨w, ?_, ?_⟩
      · rw [List.foldlM_cons, et, ok_bind, eu, ok_bind, ew]
      · rw [List.map_cons, List.sum_cons, ← add_assoc]
        exact hw
  obtain ⟨u, eu, hu⟩ := fold _ hk _ _ one
  refine ⟨u, eu, ?_⟩
  rw [onePositions_sum, add_comm] at hu
  exact hu

end

/-- C18: negative exponents and non-square matrices are refused, whatever the storage. -/
theorem C18_refused {m : Mat α r c} (hr : 0 < r) (p : Int) (h : p < 0 ∨ r ≠ c) :
    m.power p = .error (.pan .notPos) ∧ p < 0 ∨ m.power p = .error (.pan .sqMat) ∧ 0 ≤ p := by
  unfold Mat.power
  by_cases hp : p < 0
  · exact .inl ⟨by rw [if_pos hp]; rfl, hp⟩
  · refine .inr ⟨?_, by omega⟩
    have : m.colDim = .ok c := by
      cases m with
      | arr m => exact Arr.colDim_ok m hr
      | blk m => rfl
      | dia m => rfl
      | ext m => rfl
    have hsq : m.isSquare = .ok false := by
      unfold Mat.isSquare
      rw [this, ok_bind]
      have : (c == r) = false := by simp; omega
      rw [this]; rfl
    rw [if_neg hp]
    simp only [hsq, ok_bind, Bool.not_false, if_true]
    rfl

/-- Concrete case: the fifth power of a 1 × 1 block matrix over the rationals. -/
example : ∃ m' : Mat ℚ 1 1, (Mat.blk ⟨⟨fun _ _ => 3⟩⟩ : Mat ℚ 1 1).power 5 = .ok ⟨1, 1, m'⟩ ∧
    m'.at 0 0 = .ok 243 := by
  obtain ⟨m', P, e, h, hP⟩ := C18_power (m := (Mat.blk ⟨⟨fun _ _ => 3⟩⟩ : Mat ℚ 1 1))
    (Mat.own_blk _) (by decide) (Mat.at_shows _) 5
  refine ⟨m', e, (h.ok (i := 0) (j := 0) (by decide) (by decide)).trans ?_⟩
  have : P 0 0 = mx 1 1 P 0 0 := rfl
  rw [this, hP]
  decide +kernel

/-! ## C51 Outer product -/

/-- C51, `OuterProduct`, law-free: the entry at `(i, j)` is `u(i) * v(j)`. -/
theorem C51_outer {u v : RVec α} (hu : 0 < u.dim) (hv : 0 < v.dim) {f g : Nat → α}
    (hf : ∀ i : Nat, i < u.dim → u.at i = .ok (f i)) (hg : ∀ j : Nat, j < v.dim → v.at j = .ok (g j)) :
    ∃ m : Mat α u.dim v.dim, outerProduct u v = .ok ⟨u.dim, v.dim, m⟩ ∧
      Shows m.at u.dim v.dim fun i j => Flt.mul (f i) (g j) := by
  obtain ⟨m, e, hd, h0⟩ := Mat.new_ok (α := α) hu hv
  suffices h : ∃ m' : Mat α u.dim v.dim, forUp 0 u.dim (fun i out => forUp 0 v.dim (fun j out => do
      Mat.put out i j (Flt.mul (← u.at i) (← v.at j))) out) m = .ok m' ∧ m'.dense ∧
      ∀ x y, x < u.dim → y < v.dim → m'.ent x y = if x < u.dim then Flt.mul (f x) (g y)
        else Flt.zero by
    obtain ⟨m', e', -, h⟩ := h
    refine ⟨m', ?_, m'.at_shows.congr fun i j hi hj => by rw [h i j hi hj, if_pos hi]⟩
    unfold outerProduct
    have : (Mat.new (u.dim : Int) (v.dim : Int)).must = .ok m := by rw [e]; rfl
    show ((Mat.new (u.dim : Int) (v.dim : Int)).must >>= _) = _
    rw [this, ok_bind]
    refine (congrArg (fun x : Res (Mat α u.dim v.dim) =>
      x >>= fun out => (.ok ⟨u.dim, v.dim, out⟩ : Res (SMat α))) e' :)
  refine Wp.exists_ok (wp_forUp (fun i (m : Mat α u.dim v.dim) => m.dense ∧
    ∀ x y, x < u.dim → y < v.dim → m.ent x y = if x < i then Flt.mul (f x) (g y) else Flt.zero)
    (Nat.zero_le _) ⟨hd, fun x y hx hy => by rw [h0 x y hx hy]; simp⟩ ?_)
  rintro i m - hi ⟨h1, h2⟩
  refine (wp_forUp (fun j (m : Mat α u.dim v.dim) => m.dense ∧ ∀ x y, x < u.dim → y < v.dim →
    m.ent x y = if x < i ∨ x = i ∧ y < j then Flt.mul (f x) (g y) else Flt.zero)
    (Nat.zero_le _) ⟨h1, fun x y hx hy => by rw [h2 x y hx hy]; simp⟩ ?_).imp ?_
  · rintro j m - hj ⟨h1, h2⟩
    rw [hf i hi, hg j hj, ok_bind, ok_bind]
    obtain ⟨m', e, h4, h6⟩ := Mat.put_dense h1 h2 (Flt.mul (f i) (g j)) hi hj
    rw [e]
    refine ⟨h4, fun x y hx hy => ?_⟩
    rw [h6 x y hx hy, upd2_eq]
    by_cases hxy : x = i ∧ y = j
    · obtain ⟨rfl, rfl⟩ := hxy
      simp
    · rw [if_neg (by tauto)]
      exact if_congr (by omega) rfl rfl
  · rintro m ⟨h1, h2⟩
    exact ⟨h1, fun x y hx hy => by rw [h2 x y hx hy]; exact if_congr (by omega) rfl rfl⟩

/-- C51: an empty vector has no outer product. -/
theorem C51_outer_refused {u v : RVec α} (h : u.dim = 0 ∨ v.dim = 0) :
    outerProduct u v = .error (.pan .notSPos) := by
  have := (C03_new (α := α) u.dim v.dim).2 (by omega)
  unfold outerProduct
  show ((Mat.new (u.dim : Int) (v.dim : Int)).must >>= _) = _
  rw [this]; rfl

/-- Concrete case: `[1, 2] ⊗ [3, 4, 5]`. -/
example : ∃ m : Mat ℚ 2 3, outerProduct (.arr [1, 2]) (.ext [3, 4, 5] : RVec ℚ) = .ok ⟨2, 3, m⟩ ∧
    m.at 1 2 = .ok 10 := by
  obtain ⟨m, e, h⟩ := C51_outer (u := .arr [1, 2]) (v := .ext [3, 4, 5]) (f := fun i => (i : ℚ) + 1)
    (g := fun i => (i : ℚ) + 3) (by decide) (by decide) (by decide +kernel) (by decide +kernel)
  exact ⟨m, e, (h.ok (i := 1) (j := 2) (by decide) (by decide)).trans (by decide +kernel)⟩

/-! ## C49 Norms -/

theorem Mat.walkCol_walkIn {τ : Type} (m : Mat α r c) (v : VisP α τ) (t : τ) :
    m.walkCol v t = m.walkIn .col v t := by cases m <;> rfl

theorem Mat.walkOpt_walkIn {τ : Type} (m : Mat α r c) (v : VisP α τ) (t : τ) :
    m.walkOpt v t = m.walkIn .opt v t := by cases m <;> rfl

/-- What the column-order norm visitor computes, law-free: the running maximum of the column sums
of absolute values. -/
theorem Mat.lInfNorm_eq {m : Mat α r c} (hm : m.own) (hr : 0 < r) {A : Nat → Nat → α}
    (hA : Shows m.at r c A) : m.lInfNorm = .ok ((List.range c).foldl (fun x j =>
      Flt.fmax x (lsum 0 r (fun i => Flt.abs (A i j)) Flt.zero)) Flt.zero) := by
  obtain ⟨cells, hc, h⟩ := C16_walk hm hr hA .col
  have hc := hc.2.1 rfl
  unfold Mat.lInfNorm
  rw [Mat.walkCol_walkIn, h, hc]
  unfold Spec.walk
  show (do let t ← _; return (Prod.snd t)) = _
  have hfold : ∃ t, forUp 0 c (fun j t => forUp 0 r (fun i t =>
      (normVis : VisP α _).visit i j (A i j) t) t) ((r : Int) - 1, (Flt.zero : α), (Flt.zero : α)) = .ok t ∧
      t = ((r : Int) - 1, Flt.zero, (List.range c).foldl (fun x j =>
        Flt.fmax x (lsum 0 r (fun i => Flt.abs (A i j)) Flt.zero)) Flt.zero) := by
    refine Wp.exists_ok (wp_forUp (fun j t => t = ((r : Int) - 1, Flt.zero,
      (List.range j).foldl (fun x j =>
        Flt.fmax x (lsum 0 r (fun i => Flt.abs (A i j)) Flt.zero)) Flt.zero))
      (Nat.zero_le _) rfl ?_)
    rintro j t - hj rfl
    refine (wp_forUp (fun i t => t = ((r : Int) - 1,
      if i = r then Flt.zero else lsum 0 i (fun i => Flt.abs (A i j)) Flt.zero,
      (List.range (if i = r then j + 1 else j)).foldl (fun x j =>
        Flt.fmax x (lsum 0 r (fun i => Flt.abs (A i j)) Flt.zero)) Flt.zero))
      (Nat.zero_le _) ?_ ?_).imp ?_
    · rw [if_neg (by omega), if_neg (by omega), lsum_self (by omega)]
    · rintro i t - hi rfl
      rw [if_neg (by omega), if_neg (by omega)]
      unfold normVis
      dsimp only
      by_cases h : i + 1 = r
      · rw [if_pos (by omega), if_pos h, if_pos h]
        subst h
        simp only [Wp]
        rw [List.range_succ, List.foldl_append]
        simp only [List.foldl_cons, List.foldl_nil, lsum_succ (Nat.zero_le i)]
      · rw [if_neg (by omega), if_neg h, if_neg h]
        simp only [Wp]
        rw [lsum_succ (by omega)]
    · rintro t rfl
      rw [if_pos rfl, if_pos rfl]
  obtain ⟨t, e, rfl⟩ := hfold
  rw [forUp_colCells 0 r 0 c (fun i j t => (normVis : VisP α _).visit i j (A i j) t)] at e
  show ((List.foldlM (fun t p => (normVis : VisP α _).visit p.1 p.2 (A p.1 p.2) t)
    ((r : Int) - 1, Flt.zero, Flt.zero) (colCells 0 r 0 c) >>= _) >>= _) = _
  rw [e]
  rfl

section
variable {K : Type} [Field K] [LinearOrder K] [IsStrictOrderedRing K] [Flt K] [Exact K]

/-- C49, `MatLInfNorm`, partial: in exact arithmetic the result is the greatest *column* sum of
absolute values. Missing: the documentation promises the greatest *row* sum, which is refuted by
`C49_lInf_false`. -/
theorem C49_lInf_partial {m : Mat K r c} (hm : m.own) (hr : 0 < r) (hc : 0 < c)
    {A : Nat → Nat → K} (hA : Shows m.at r c A) :
    ∃ x, m.lInfNorm = .ok x ∧
      IsGreatest {y | ∃ j < c, y = ∑ i ∈ Finset.range r, |A i j|} x := by
  refine ⟨_, Mat.lInfNorm_eq hm hr hA, ?_⟩
  simp only [lsum_exact0, Exact.max_eq, Exact.abs_eq]
  rw [Exact.zero_eq]
  have h : ∀ c, (∀ j < c, ∑ i ∈ Finset.range r, |A i j| ≤ (List.range c).foldl (fun x j =>
        max x (∑ i ∈ Finset.range r, |A i j|)) 0) ∧ (c = 0 ∧ (List.range c).foldl (fun x j =>
        max x (∑ i ∈ Finset.range r, |A i j|)) 0 = 0 ∨ ∃ j < c, (List.range c).foldl (fun x j =>
        max x (∑ i ∈ Finset.range r, |A i j|)) 0 = ∑ i ∈ Finset.range r, |A i j|) := by
    intro c
    induction c with
    | zero => exact ⟨fun j hj => by omega, .inl ⟨rfl, rfl⟩⟩
    | succ c ih =>
      rw [List.range_succ, List.foldl_append]
      simp only [List.foldl_cons, List.foldl_nil]
      refine ⟨fun j hj => ?_, .inr ?_⟩
      · by_cases h : j = c
        · subst h; exact le_max_right _ _
        · exact (ih.1 j (by omega)).trans (le_max_left _ _)
      · rcases ih.2 with ⟨-, h⟩ | ⟨j, hj, h⟩
        · refine ⟨c, by omega, ?_⟩
          rw [h]
          exact max_eq_right (Finset.sum_nonneg fun _ _ => abs_nonneg _)
        · rcases max_choice ((List.range c).foldl (fun x j =>
            max x (∑ i ∈ Finset.range r, |A i j|)) 0) (∑ i ∈ Finset.range r, |A i c|) with h' | h'
          · exact ⟨j, by omega, by rw [h', h]⟩
          · exact ⟨c, by omega, h'⟩
  obtain ⟨h1, h2⟩ := h c
  refine ⟨?_, ?_⟩
  · rcases h2 with ⟨h, -⟩ | ⟨j, hj, h⟩
    · omega
    · exact ⟨j, hj, h⟩
  · rintro y ⟨j, hj, rfl⟩
    exact h1 j hj

/-- C49, `MatFrobeniusNorm`: in exact arithmetic the non-negative number whose square is the sum of
the squares of all entries, whatever the storage and its walking order. -/
theorem C49_frobenius [ExactSqrt K] {m : Mat K r c} (hm : m.own) (hr : 0 < r)
    {A : Nat → Nat → K} (hA : Shows m.at r c A) :
    ∃ x, m.frobeniusNorm = .ok x ∧ 0 ≤ x ∧
      x * x = ∑ i ∈ Finset.range r, ∑ j ∈ Finset.range c, A i j * A i j := by
  obtain ⟨cells, hc, h⟩ := C16_walk hm hr hA .opt
  have hfold : ∀ (l : List (Nat × Nat)) (s : K), l.foldlM (fun t p =>
      (frobVis : VisP K K).visit p.1 p.2 (A p.1 p.2) t) s =
        .ok (s + (l.map fun p => A p.1 p.2 * A p.1 p.2).sum) := by
    intro l
    induction l with
    | nil => intro s; simp
    | cons p l ih =>
      intro s
      rw [List.foldlM_cons]
      show ((.ok _ : Res K) >>= _) = _
      rw [ok_bind, ih]
      simp [add_assoc]
  have hsum : (cells.map fun p => A p.1 p.2 * A p.1 p.2).sum =
      ∑ i ∈ Finset.range r, ∑ j ∈ Finset.range c, A i j * A i j := by
    rw [← List.sum_toFinset _ hc.2.2.1, ← Finset.sum_product' (s := Finset.range r)
      (t := Finset.range c) (f := fun i j => A i j * A i j)]
    refine Finset.sum_congr ?_ fun _ _ => rfl
    ext ⟨i, j⟩
    rw [List.mem_toFinset, hc.2.2.2]
    simp
  refine ⟨Flt.sqrt (∑ i ∈ Finset.range r, ∑ j ∈ Finset.range c, A i j * A i j), ?_,
    ExactSqrt.sqrt_nonneg _, ExactSqrt.sqrt_mul_self _ (Finset.sum_nonneg fun _ _ =>
      Finset.sum_nonneg fun _ _ => mul_self_nonneg _)⟩
  unfold Mat.frobeniusNorm
  rw [Mat.walkOpt_walkIn, h]
  unfold Spec.walk
  show (((.ok _ : Res K) >>= _) >>= _) = _
  rw [ok_bind, hfold, hsum, ok_bind]
  simp [frobVis]

end

/-- C49, refuted: `MatLInfNorm` of `[[1, 1]]` is 1 although the only row sum is 2. -/
theorem C49_lInf_false : ¬ ∀ (r c : Nat) (m : Mat ℚ r c) (A : Nat → Nat → ℚ), m.own → 0 < r →
    0 < c → Shows m.at r c A → ∃ x, m.lInfNorm = .ok x ∧
      IsGreatest {y | ∃ i < r, y = ∑ j ∈ Finset.range c, |A i j|} x := by
  intro h
  obtain ⟨x, e, ⟨i, hi, hx⟩, -⟩ := h 1 2 (.arr { data := ⟨fun _ _ => 1⟩ }) (fun _ _ => 1) trivial
    (by decide) (by decide) ((Mat.at_shows _).congr fun _ _ _ _ => rfl)
  rw [Mat.lInfNorm_eq (m := (.arr { data := ⟨fun _ _ => 1⟩ } : Mat ℚ 1 2))
    (A := fun _ _ => 1) trivial (by decide)
    ((Mat.at_shows _).congr fun _ _ _ _ => rfl)] at e
  have e' : (1 : ℚ) = x := by
    have := Except.ok.inj e
    rw [← this]
    decide +kernel
  rw [← e'] at hx
  norm_num at hx

/-- Concrete case of the partial statement: the norm of `[[1, -2], [3, 4]]` in block storage is 6. -/
example : ∃ x, (Mat.blk ⟨⟨fun _ k => if k = 1 then -2 else k + 1⟩⟩ : Mat ℚ 2 2).lInfNorm = .ok x ∧
    IsGreatest {y | ∃ j < 2, y = ∑ i ∈ Finset.range 2, |(Mat.blk ⟨⟨fun _ k =>
      if k = 1 then -2 else k + 1⟩⟩ : Mat ℚ 2 2).ent i j|} x :=
  C49_lInf_partial (m := (Mat.blk ⟨⟨fun _ k => if k = 1 then -2 else k + 1⟩⟩ : Mat ℚ 2 2))
    (Mat.own_blk _) (by decide) (by decide) (Mat.at_shows _)

/-- Concrete case of the Frobenius norm: `[[3, 4]]` has norm 5. -/
example : ∃ x, (Mat.arr { data := ⟨fun _ j => if j = 0 then 3 else 4⟩ } : Mat ℝ 1 2).frobeniusNorm
    = .ok x ∧ 0 ≤ x ∧ x * x = 25 := by
  obtain ⟨x, e, h0, h⟩ := C49_frobenius (m := (Mat.arr { data :=
    ⟨fun _ j => if j = 0 then 3 else 4⟩ } : Mat ℝ 1 2)) trivial (by decide) (Mat.at_shows _)
  refine ⟨x, e, h0, h.trans ?_⟩
  simp [Finset.sum_range_succ, Mat.ent]
  norm_num

end Linear
