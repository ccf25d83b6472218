import Verif.Lemmas.LULemmas
import Verif.Props.LU

/-!
# Householder reflections

`hh k v β` is `1 + β w wᵀ` where `w` is `v` with its first `k` entries replaced by zero.
-/

set_option linter.unusedSectionVars false

namespace Linear

open Spec Finset Matrix

variable {K : Type} [Field K] [LinearOrder K] [IsStrictOrderedRing K]

/-- `v` with zeros before `k`. -/
def tl (k : Nat) (v : Nat → K) (i : Nat) : K := if k ≤ i then v i else 0

/-- Entries of the reflection. -/
def hhf (k : Nat) (v : Nat → K) (β : K) (i j : Nat) : K :=
  (if i = j then 1 else 0) + β * tl k v i * tl k v j

/-- The reflection as a matrix. -/
def hh (m k : Nat) (v : Nat → K) (β : K) : Matrix (Fin m) (Fin m) K := mx m m (hhf k v β)

theorem mx_congr {r c : Nat} {A B : Nat → Nat → K} (h : ∀ i j, i < r → j < c → A i j = B i j) :
    mx r c A = mx r c B := by
  ext i j
  exact h i j i.2 j.2

theorem mx_inj {r c : Nat} {A B : Nat → Nat → K} (h : mx r c A = mx r c B) {i j : Nat} (hi : i < r)
    (hj : j < c) : A i j = B i j := congrFun (congrFun h ⟨i, hi⟩) ⟨j, hj⟩

theorem mx_mul (r n c : Nat) (A B : Nat → Nat → K) :
    mx r n A * mx n c B = mx r c (fun i j => ∑ k ∈ range n, A i k * B k j) := by
  ext i j
  rw [Matrix.mul_apply]
  show _ = ∑ k ∈ range n, A i k * B k j
  rw [Finset.sum_range]
  rfl

theorem mx_one (n : Nat) : mx n n (fun i j => if i = j then (1 : K) else 0) = 1 := by
  ext i j
  show (if (i : Nat) = j then (1 : K) else 0) = _
  rw [Matrix.one_apply]
  simp [Fin.ext_iff]

theorem mx_transpose (r c : Nat) (A : Nat → Nat → K) : (mx r c A)ᵀ = mx c r fun i j => A j i := rfl

theorem sum_tl {m k : Nat} (v : Nat → K) (g : Nat → K) :
    ∑ r ∈ range m, tl k v r * g r = ∑ r ∈ Ico k m, v r * g r := by
  rw [← sum_subset (show Ico k m ⊆ range m from fun a ha => mem_range.2 (mem_Ico.1 ha).2)]
  · refine sum_congr rfl fun r hr => ?_
    rw [tl, if_pos (mem_Ico.1 hr).1]
  · intro r hr hr'
    rw [tl, if_neg fun h => hr' (mem_Ico.2 ⟨h, mem_range.1 hr⟩), zero_mul]

theorem hh_mul (m c k : Nat) (v : Nat → K) (β : K) (A : Nat → Nat → K) :
    hh m k v β * mx m c A =
      mx m c fun i j => A i j + β * (∑ r ∈ Ico k m, v r * A r j) * tl k v i := by
  rw [hh, mx_mul]
  refine mx_congr fun i j hi _ => ?_
  rw [← sum_tl]
  simp only [hhf, add_mul, sum_add_distrib, ite_mul, one_mul, zero_mul, sum_ite_eq, mem_range, hi,
    if_true]
  rw [mul_sum, sum_mul]
  congr 1
  exact sum_congr rfl fun r _ => by ring

theorem hhf_symm (k : Nat) (v : Nat → K) (β : K) (i j : Nat) : hhf k v β i j = hhf k v β j i := by
  unfold hhf
  rw [mul_assoc, mul_assoc, mul_comm (tl k v i)]
  congr 1
  exact if_congr eq_comm rfl rfl

theorem hh_transpose (m k : Nat) (v : Nat → K) (β : K) : (hh m k v β)ᵀ = hh m k v β := by
  rw [hh, mx_transpose]
  exact mx_congr fun i j _ _ => hhf_symm k v β j i

theorem mul_hh (m r k : Nat) (v : Nat → K) (β : K) (A : Nat → Nat → K) :
    mx r m A * hh m k v β =
      mx r m fun i j => A i j + β * (∑ x ∈ Ico k m, A i x * v x) * tl k v j := by
  have h := congrArg Matrix.transpose (hh_mul m r k v β fun i j => A j i)
  rw [Matrix.transpose_mul, hh_transpose] at h
  refine h.trans ?_
  rw [mx_transpose]
  refine mx_congr fun i j _ _ => ?_
  rw [sum_congr rfl fun x _ => mul_comm (v x) (A i x)]

/-- The reflection is an involution when `β |w|² = -2`, or when it is the identity. -/
theorem hh_sq {m k : Nat} {v : Nat → K} {β : K}
    (h : β = 0 ∨ β * ∑ r ∈ Ico k m, v r * v r = -2) : hh m k v β * hh m k v β = 1 := by
  have e : ∑ r ∈ Ico k m, v r * tl k v r = ∑ r ∈ Ico k m, v r * v r :=
    sum_congr rfl fun r hr => by rw [tl, if_pos (mem_Ico.1 hr).1]
  rw [show hh m k v β * hh m k v β = hh m k v β * mx m m (hhf k v β) from rfl, hh_mul, ← mx_one]
  refine mx_congr fun i j _ hj => ?_
  have : ∑ r ∈ Ico k m, v r * hhf k v β r j =
      tl k v j + β * tl k v j * ∑ r ∈ Ico k m, v r * v r := by
    rw [← e, mul_sum]
    simp only [hhf, mul_add, sum_add_distrib, mul_ite, mul_one, mul_zero, sum_ite_eq', mem_Ico, hj,
      and_true]
    congr 1
    exact sum_congr rfl fun r _ => by ring
  rw [this, hhf]
  rcases h with rfl | h
  · ring
  · linear_combination β * tl k v j * tl k v i * h

theorem hh_zero (m k : Nat) (v : Nat → K) : hh m k v 0 = 1 := by
  rw [← mx_one]
  exact mx_congr fun i j _ _ => by simp [hhf]

theorem hh_congr {m k : Nat} {v v' : Nat → K} {β : K} (h : ∀ i, k ≤ i → i < m → v i = v' i) :
    hh m k v β = hh m k v' β := by
  refine mx_congr fun i j hi hj => ?_
  have : ∀ i, i < m → tl k v i = tl k v' i := fun i hi => by
    unfold tl
    split
    · exact h i ‹_› hi
    · rfl
  rw [hhf, hhf, this i hi, this j hj]

/-! ## Making a reflection from a vector -/

/-- `a` and `v` are the signed norm and the reflector of `x` from entry `k` on. -/
structure HV (m k : Nat) (x v : Nat → K) (a : K) : Prop where
  sq : a * a = ∑ r ∈ Ico k m, x r * x r
  sign : if 0 < x k then a ≤ 0 else 0 ≤ a
  ne : a ≠ 0
  head : v k = x k - a
  tail : ∀ r, k < r → r < m → v r = x r

variable {m k : Nat} {x v : Nat → K} {a : K}

theorem HV.head_ne (h : HV m k x v a) : v k ≠ 0 := by
  have h1 := h.sign
  have h2 := h.ne
  rw [h.head]
  split at h1
  · have := lt_of_le_of_ne h1 h2
    exact ne_of_gt (by linarith)
  · have := lt_of_le_of_ne h1 (Ne.symm h2)
    exact ne_of_lt (by linarith)

theorem HV.den_ne (h : HV m k x v a) : a * v k ≠ 0 := mul_ne_zero h.ne h.head_ne

theorem HV.tail_sum (h : HV m k x v a) (g : Nat → K) :
    ∑ r ∈ Ico (k + 1) m, v r * g r = ∑ r ∈ Ico (k + 1) m, x r * g r :=
  sum_congr rfl fun r hr => by
    have := mem_Ico.1 hr
    rw [h.tail r (by omega) (by omega)]

theorem HV.dot (h : HV m k x v a) (hk : k < m) : ∑ r ∈ Ico k m, v r * x r = -(a * v k) := by
  have h1 := h.sq
  rw [sum_eq_sum_Ico_succ_bot hk] at h1 ⊢
  rw [h.tail_sum, h.head]
  linear_combination - h1

theorem HV.norm (h : HV m k x v a) (hk : k < m) : ∑ r ∈ Ico k m, v r * v r = -(2 * (a * v k)) := by
  have h1 := h.sq
  rw [sum_eq_sum_Ico_succ_bot hk] at h1 ⊢
  rw [h.tail_sum, sum_congr rfl fun r hr => ?_, h.head]
  rotate_left
  · exact fun r => x r * x r
  · have := mem_Ico.1 hr
    rw [h.tail r (by omega) (by omega)]
  linear_combination - h1

theorem HV.beta (h : HV m k x v a) (hk : k < m) :
    1 / (a * v k) * ∑ r ∈ Ico k m, v r * v r = -2 := by
  have h1 := h.ne
  have h2 := h.head_ne
  rw [h.norm hk]
  field_simp

/-- The reflection sends `x` to `a` times the `k`-th unit vector (below entry `k`). -/
theorem HV.apply (h : HV m k x v a) (hk : k < m) {i : Nat} (hi : i < m) :
    x i + 1 / (a * v k) * (∑ r ∈ Ico k m, v r * x r) * tl k v i =
      if i < k then x i else if i = k then a else 0 := by
  have h0 := h.den_ne
  have h1 := h.ne
  have h2 := h.head_ne
  rw [h.dot hk]
  have e : 1 / (a * v k) * -(a * v k) = -1 := by field_simp
  rw [e]
  unfold tl
  by_cases h3 : i < k
  · rw [if_pos h3, if_neg (by omega)]; ring
  · rw [if_neg h3, if_pos (by omega)]
    by_cases h4 : i = k
    · rw [if_pos h4, h4, h.head]; ring
    · rw [if_neg h4, h.tail i (by omega) hi]; ring

/-- A reflection keeps the scalar products of the parts from `k` on. -/
theorem hh_dot {β : K} (h : β = 0 ∨ β * ∑ r ∈ Ico k m, v r * v r = -2) (y z : Nat → K) :
    ∑ r ∈ Ico k m, (y r + β * (∑ s ∈ Ico k m, v s * y s) * v r) *
      (z r + β * (∑ s ∈ Ico k m, v s * z s) * v r) = ∑ r ∈ Ico k m, y r * z r := by
  generalize hP : ∑ s ∈ Ico k m, v s * y s = P
  generalize hQ : ∑ s ∈ Ico k m, v s * z s = Q
  have : ∀ r, (y r + β * P * v r) * (z r + β * Q * v r) =
      y r * z r + β * Q * (v r * y r) + β * P * (v r * z r) + β * P * (β * Q) * (v r * v r) :=
    fun r => by ring
  simp only [this, sum_add_distrib, ← mul_sum, hP, hQ]
  rcases h with rfl | h
  · ring
  · linear_combination β * P * Q * h

/-! ## Products of reflections -/

/-- `H 0 * H 1 * … * H (k-1)`. -/
def hprod (m : Nat) (H : Nat → Matrix (Fin m) (Fin m) K) : Nat → Matrix (Fin m) (Fin m) K
  | 0 => 1
  | k + 1 => hprod m H k * H k

theorem hprod_congr {m : Nat} {H H' : Nat → Matrix (Fin m) (Fin m) K} {k : Nat}
    (h : ∀ j, j < k → H j = H' j) : hprod m H k = hprod m H' k := by
  induction k with
  | zero => rfl
  | succ k ih => rw [hprod, hprod, ih fun j hj => h j (by omega), h k (by omega)]

/-- The product is orthogonal. -/
theorem hprod_orth {m : Nat} {H : Nat → Matrix (Fin m) (Fin m) K} {k : Nat}
    (ht : ∀ j, j < k → (H j)ᵀ = H j) (hs : ∀ j, j < k → H j * H j = 1) :
    hprod m H k * (hprod m H k)ᵀ = 1 := by
  induction k with
  | zero => simp [hprod]
  | succ k ih =>
    rw [hprod, Matrix.transpose_mul, ht k (by omega), Matrix.mul_assoc, ← Matrix.mul_assoc (H k),
      hs k (by omega), Matrix.one_mul]
    exact ih (fun j hj => ht j (by omega)) fun j hj => hs j (by omega)

theorem hprod_orth' {m : Nat} {H : Nat → Matrix (Fin m) (Fin m) K} {k : Nat}
    (ht : ∀ j, j < k → (H j)ᵀ = H j) (hs : ∀ j, j < k → H j * H j = 1) :
    (hprod m H k)ᵀ * hprod m H k = 1 := by
  rw [mul_eq_one_comm]
  exact hprod_orth ht hs

/-- `H j * H (j+1) * … * H (k-1)`, from the right: what the accumulation loops compute. -/
def hfrom (m : Nat) (H : Nat → Matrix (Fin m) (Fin m) K) (j k : Nat) : Matrix (Fin m) (Fin m) K :=
  hprod m (fun i => H (j + i)) (k - j)

theorem hprod_cons {m : Nat} (H : Nat → Matrix (Fin m) (Fin m) K) (k : Nat) :
    hprod m H (k + 1) = H 0 * hprod m (fun i => H (i + 1)) k := by
  induction k with
  | zero => simp [hprod]
  | succ k ih => rw [hprod, ih, hprod, Matrix.mul_assoc]

theorem hfrom_self {m : Nat} (H : Nat → Matrix (Fin m) (Fin m) K) (k : Nat) : hfrom m H k k = 1 := by
  rw [hfrom, Nat.sub_self]; rfl

theorem hfrom_step {m : Nat} (H : Nat → Matrix (Fin m) (Fin m) K) {j k : Nat} (h : j < k) :
    hfrom m H j k = H j * hfrom m H (j + 1) k := by
  rw [hfrom, show k - j = (k - (j + 1)) + 1 by omega, hprod_cons, hfrom]
  congr 1
  exact hprod_congr fun i _ => by rw [show j + (i + 1) = j + 1 + i by omega]

theorem hfrom_zero {m : Nat} (H : Nat → Matrix (Fin m) (Fin m) K) (k : Nat) :
    hfrom m H 0 k = hprod m H k := by
  rw [hfrom]
  exact hprod_congr fun i _ => by rw [Nat.zero_add]

/-! ## Accumulating a product from its last factor -/

/-- `q` from row and column `k` on, the identity before. -/
def pad (k : Nat) (q : Nat → Nat → K) (i j : Nat) : K :=
  if i < k ∨ j < k then (if i = j then 1 else 0) else q i j

theorem pad_lo {k : Nat} {q : Nat → Nat → K} {i j : Nat} (h : i < k ∨ j < k) :
    pad k q i j = if i = j then 1 else 0 := if_pos h

theorem pad_hi {k : Nat} {q : Nat → Nat → K} {i j : Nat} (h1 : k ≤ i) (h2 : k ≤ j) :
    pad k q i j = q i j := if_neg (by omega)

/-- One more reflection on the right. -/
theorem pad_mul {m k : Nat} {β : K} {v : Nat → K} {q q' : Nat → Nat → K}
    (h : ∀ i j, k ≤ i → i < m → k ≤ j → j < m → q' i j =
      pad (k + 1) q i j + β * (∑ x ∈ Ico k m, pad (k + 1) q i x * v x) * v j) :
    mx m m (pad k q') = mx m m (pad (k + 1) q) * hh m k v β := by
  rw [mul_hh]
  refine mx_congr fun i j hi hj => ?_
  by_cases e : i < k ∨ j < k
  · rw [pad_lo e, pad_lo (by omega)]
    rcases e with e | e
    · have : ∑ x ∈ Ico k m, pad (k + 1) q i x * v x = 0 := by
        refine sum_eq_zero fun x hx => ?_
        have := mem_Ico.1 hx
        rw [pad_lo (by omega), if_neg (by omega), zero_mul]
      rw [this]; ring
    · rw [tl, if_neg (not_le.2 e)]; ring
  · rw [pad_hi (by omega) (by omega), h i j (by omega) hi (by omega) hj, tl, if_pos (by omega)]

/-- One more reflection on the left. -/
theorem mul_pad {m k : Nat} {β : K} {v : Nat → K} {q q' : Nat → Nat → K}
    (h : ∀ i j, k ≤ i → i < m → k ≤ j → j < m → q' i j =
      pad (k + 1) q i j + β * (∑ x ∈ Ico k m, v x * pad (k + 1) q x j) * v i) :
    mx m m (pad k q') = hh m k v β * mx m m (pad (k + 1) q) := by
  rw [hh_mul]
  refine mx_congr fun i j hi hj => ?_
  by_cases e : i < k ∨ j < k
  · rw [pad_lo e, pad_lo (by omega)]
    rcases e with e | e
    · rw [tl, if_neg (not_le.2 e)]; ring
    · have : ∑ x ∈ Ico k m, v x * pad (k + 1) q x j = 0 := by
        refine sum_eq_zero fun x hx => ?_
        have := mem_Ico.1 hx
        rw [pad_lo (by omega), if_neg (by omega), mul_zero]
      rw [this]; ring
  · rw [pad_hi (by omega) (by omega), h i j (by omega) hi (by omega) hj, tl, if_pos (by omega)]

theorem pad_zero {m : Nat} (q : Nat → Nat → K) : mx m m (pad 0 q) = mx m m q :=
  mx_congr fun i j _ _ => by rw [pad, if_neg (by omega)]

end Linear
