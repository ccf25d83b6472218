import Verif.Base.Rnd
import Verif.Lemmas.BlkOps5
import Verif.Lemmas.Solve
import Mathlib.Algebra.BigOperators.Group.Multiset.Basic
import Mathlib.Algebra.Order.BigOperators.Group.Finset
import Mathlib.Algebra.Order.BigOperators.Ring.Finset

/-!
# Sums in rounded arithmetic

`Spec.SumOf x s`: `x` is the sum of the numbers `s`, added in some order with some bracketing.  Zeros
may be added as well, as the loops start from 0.
-/

set_option linter.unusedSectionVars false

namespace Linear

open Spec
open Finset hiding val

variable {α : Type} [Flt α]

/-- `x` is obtained from the terms `s` by additions, in some order and bracketing, and zeros. -/
inductive Spec.SumOf : α → Multiset α → Prop
  | zero : SumOf Flt.zero 0
  | term (x : α) : SumOf x {x}
  | add {x y : α} {s t : Multiset α} : SumOf x s → SumOf y t → SumOf (Flt.add x y) (s + t)

/-- The family of terms `g a, …, g (b-1)`. -/
def Spec.terms (a b : Nat) (g : Nat → α) : Multiset α := (Multiset.range (b - a)).map fun i => g (a + i)

theorem Spec.terms_self {a b : Nat} (h : b ≤ a) (g : Nat → α) : terms a b g = 0 := by
  unfold terms; rw [Nat.sub_eq_zero_of_le h]; rfl

theorem Spec.terms_succ {a b : Nat} (h : a ≤ b) (g : Nat → α) :
    terms a (b + 1) g = terms a b g + {g b} := by
  unfold terms
  rw [show b + 1 - a = (b - a) + 1 by omega, Multiset.range_succ, Multiset.map_cons,
    show a + (b - a) = b by omega, add_comm, Multiset.singleton_add]

theorem Spec.terms_append {a b c : Nat} (h : a ≤ b) (h' : b ≤ c) (g : Nat → α) :
    terms a c g = terms a b g + terms b c g := by
  induction c, h' using Nat.le_induction with
  | base => rw [terms_self le_rfl, add_zero]
  | succ c h' ih => rw [terms_succ (h.trans h'), terms_succ h', ih, add_assoc]

theorem Spec.terms_congr {a b : Nat} {g g' : Nat → α} (h : ∀ i, a ≤ i → i < b → g i = g' i) :
    terms a b g = terms a b g' := by
  unfold terms
  refine Multiset.map_congr rfl fun i hi => h _ (by omega) ?_
  have := Multiset.mem_range.1 hi
  omega

theorem Spec.terms_shift (d n : Nat) (g : Nat → α) :
    terms 0 n (fun t => g (d + t)) = terms d (d + n) g := by
  unfold terms
  rw [show n - 0 = n from rfl, show d + n - d = n by omega]
  exact Multiset.map_congr rfl fun i _ => by rw [Nat.zero_add]

theorem Spec.card_terms (a b : Nat) (g : Nat → α) : (terms a b g).card = b - a := by
  simp [terms]

theorem Spec.mem_terms {a b : Nat} {g : Nat → α} {x : α} :
    x ∈ terms a b g ↔ ∃ i, a ≤ i ∧ i < b ∧ g i = x := by
  unfold terms
  rw [Multiset.mem_map]
  constructor
  · rintro ⟨i, hi, rfl⟩
    have := Multiset.mem_range.1 hi
    exact ⟨a + i, by omega, by omega, rfl⟩
  · rintro ⟨i, h1, h2, rfl⟩
    exact ⟨i - a, Multiset.mem_range.2 (by omega), by rw [show a + (i - a) = i by omega]⟩

theorem Spec.SumOf.lsum {a b : Nat} {g : Nat → α} {s : α} {S : Multiset α} (hs : SumOf s S)
    (T : Nat → Multiset α) (h : ∀ i, a ≤ i → i < b → SumOf (g i) (T i)) :
    SumOf (lsum a b g s) (S + ∑ i ∈ Ico a b, T i) := by
  by_cases hab : a ≤ b
  · induction b, hab using Nat.le_induction with
    | base => rw [lsum_self le_rfl, Ico_self, sum_empty, add_zero]; exact hs
    | succ b hab ih =>
      rw [lsum_succ hab, sum_Ico_succ_top hab, ← add_assoc]
      exact (ih fun i h1 h2 => h i h1 (by omega)).add (h b hab (by omega))
  · rw [lsum_self (by omega), Ico_eq_empty (by omega), sum_empty, add_zero]; exact hs

theorem Spec.sum_terms {a b : Nat} (g : Nat → α) :
    ∑ i ∈ Ico a b, ({g i} : Multiset α) = terms a b g := by
  by_cases hab : a ≤ b
  · induction b, hab using Nat.le_induction with
    | base => rw [Ico_self, sum_empty, terms_self le_rfl]
    | succ b hab ih => rw [sum_Ico_succ_top hab, ih, terms_succ hab]
  · rw [Ico_eq_empty (by omega), sum_empty, terms_self (by omega)]

/-- The left-to-right sum from 0. -/
theorem Spec.SumOf.left (a b : Nat) (g : Nat → α) : SumOf (Linear.lsum a b g Flt.zero) (terms a b g) := by
  have := Spec.SumOf.lsum (α := α) .zero (fun i => {g i}) (g := g) (a := a) (b := b)
    fun i _ _ => .term _
  rwa [zero_add, sum_terms] at this

/-- The sum of the unrolled loops. -/
theorem Spec.SumOf.usum (n : Nat) (P : Nat → α) : SumOf (usum n P) (terms 0 n P) := by
  unfold Spec.usum
  have h1 := Spec.SumOf.lsum (α := α) .zero (fun g => terms (4 * g) (4 * g + 4) P) (a := 0)
    (b := n / 4) (g := fun g => Flt.add (Flt.add (Flt.add (P (4 * g)) (P (4 * g + 1)))
      (P (4 * g + 2))) (P (4 * g + 3))) (by
    intro i _ _
    rw [show terms (4 * i) (4 * i + 4) P = {P (4 * i)} + {P (4 * i + 1)} + {P (4 * i + 2)} +
      {P (4 * i + 3)} by
      rw [terms_succ (by omega), terms_succ (by omega), terms_succ (by omega), terms_succ (by omega),
        terms_self le_rfl, zero_add]]
    exact (((SumOf.term _).add (.term _)).add (.term _)).add (.term _))
  have h2 : ∀ m, ∑ g ∈ Ico 0 m, terms (4 * g) (4 * g + 4) P = terms 0 (4 * m) P := by
    intro m
    induction m with
    | zero => simp [terms_self]
    | succ m ih =>
      rw [sum_Ico_succ_top (Nat.zero_le _), ih, show 4 * (m + 1) = 4 * m + 4 by ring,
        ← terms_append (by omega) (by omega)]
  rw [zero_add, h2] at h1
  have h3 := h1.lsum (fun i => {P i}) (g := P) (a := 4 * (n / 4)) (b := n) fun i _ _ => .term _
  rwa [sum_terms, ← terms_append (by omega) (by omega)] at h3

theorem Spec.sum_blocks (c : Nat) (g : Nat → α) :
    ∑ kb ∈ Ico 0 (nBlocks c), terms 0 (blkExt c kb) (fun t => g (kb * 52 + t)) = terms 0 c g := by
  have h : ∀ m, m ≤ nBlocks c →
      ∑ kb ∈ Ico 0 m, terms 0 (blkExt c kb) (fun t => g (kb * 52 + t)) = terms 0 (min (m * 52) c) g := by
    intro m
    induction m with
    | zero => intro _; simp [terms_self]
    | succ m ih =>
      intro hm
      have h1 := mul_lt_of_lt_nBlocks (show m < nBlocks c by omega)
      rw [sum_Ico_succ_top (Nat.zero_le _), ih (by omega), terms_shift,
        min_eq_left (show m * 52 ≤ c by omega), ← terms_append (by omega) (by omega)]
      congr 1
      rw [blkExt_eq]
      omega
  rw [h _ le_rfl]
  congr 1
  have := nBlocks_eq c
  omega

/-- The block by block sum of products. -/
theorem Spec.SumOf.bdot (c : Nat) (x y : Nat → α) :
    SumOf (bdot c x y) (terms 0 c fun k => Flt.mul (x k) (y k)) := by
  unfold Spec.bdot
  have := Spec.SumOf.lsum (α := α) .zero (fun kb => terms 0 (blkExt c kb)
    (fun t => Flt.mul (x (kb * 52 + t)) (y (kb * 52 + t)))) (a := 0) (b := nBlocks c)
    fun kb _ _ => .usum _ fun t => Flt.mul (x (kb * 52 + t)) (y (kb * 52 + t))
  rwa [zero_add, sum_blocks c fun k => Flt.mul (x k) (y k)] at this

theorem Spec.SumOf.gdot (c : Nat) (x y : Nat → α) :
    SumOf (gdot c x y) (terms 0 c fun k => Flt.mul (x k) (y k)) := by
  unfold Spec.gdot
  have := Spec.SumOf.lsum (α := α) .zero (fun kb => terms 0 (blkExt c kb)
    (fun t => Flt.mul (x (kb * 52 + t)) (y (kb * 52 + t)))) (a := 0) (b := nBlocks c)
    fun kb _ _ => .left 0 _ fun t => Flt.mul (x (kb * 52 + t)) (y (kb * 52 + t))
  rwa [zero_add, sum_blocks c fun k => Flt.mul (x k) (y k)] at this

/-! ## Errors -/

section round

variable [Rnd α]

open Rnd

/-- The growth `(1 + u)ᵏ - 1` of `k` relative errors. -/
noncomputable def Spec.gam (α : Type) [Flt α] [Rnd α] (k : Nat) : ℝ := (1 + u α) ^ k - 1

theorem one_le_u : 1 ≤ 1 + u α := by linarith [u_nonneg (α := α)]

theorem gam_nonneg (k : Nat) : 0 ≤ gam α k := by
  unfold gam; linarith [one_le_pow₀ (one_le_u (α := α)) (n := k)]

theorem gam_zero : gam α 0 = 0 := by simp [gam]

theorem gam_one : gam α 1 = u α := by simp [gam]

theorem gam_mono {k l : Nat} (h : k ≤ l) : gam α k ≤ gam α l := by
  unfold gam; linarith [pow_le_pow_right₀ (one_le_u (α := α)) h]

theorem gam_add (k l : Nat) : gam α (k + l) = gam α k + gam α l + gam α k * gam α l := by
  unfold gam; rw [pow_add]; ring

theorem one_add_gam (k : Nat) : 1 + gam α k = (1 + u α) ^ k := by unfold gam; ring

/-- The bound is what it is called for small `k u`. -/
theorem gam_le {k : Nat} (h : k * u α < 1) : gam α k ≤ k * u α / (1 - k * u α) := by
  have hu := u_nonneg (α := α)
  induction k with
  | zero => simp [gam_zero]
  | succ k ih =>
    push_cast at h ⊢
    have h1 : k * u α < 1 := by nlinarith
    have h2 := ih h1
    rw [gam_add, gam_one]
    have hd : 0 < 1 - k * u α := by linarith
    have hd' : 0 < 1 - (k + 1) * u α := by linarith
    have hk : (0 : ℝ) ≤ k := Nat.cast_nonneg k
    rw [le_div_iff₀ hd'] 
    rw [le_div_iff₀ hd] at h2
    have hg := gam_nonneg (α := α) k
    nlinarith [mul_nonneg hg hu, mul_nonneg (mul_nonneg hg hu) hu, mul_nonneg (mul_nonneg hk hu) hu, mul_nonneg hk (mul_nonneg hg (mul_nonneg hu hu))]

/-- The sum of the values. -/
noncomputable def Spec.vsum (s : Multiset α) : ℝ := (s.map val).sum

/-- The sum of the absolute values. -/
noncomputable def Spec.asum (s : Multiset α) : ℝ := (s.map fun x => |val x|).sum

theorem asum_nonneg (s : Multiset α) : 0 ≤ asum s := by
  unfold asum
  refine Multiset.sum_nonneg fun x hx => ?_
  obtain ⟨y, -, rfl⟩ := Multiset.mem_map.1 hx
  exact abs_nonneg _

theorem vsum_le (s : Multiset α) : |vsum s| ≤ asum s := by
  induction s using Multiset.induction_on with
  | empty => simp [vsum, asum]
  | cons a s ih =>
    simp only [vsum, asum, Multiset.map_cons, Multiset.sum_cons] at ih ⊢
    exact (abs_add_le _ _).trans (add_le_add le_rfl ih)

theorem add_step {x y : α} (h : fin (Flt.add x y)) {X Y : ℝ} :
    |val (Flt.add x y) - (X + Y)| ≤ (1 + u α) * (|val x - X| + |val y - Y|) + u α * |X + Y| := by
  have h1 := (add_err h).1
  have h2 : |val x + val y| ≤ |X + Y| + (|val x - X| + |val y - Y|) := by
    calc |val x + val y| = |(X + Y) + ((val x - X) + (val y - Y))| := by congr 1; ring
      _ ≤ _ := (abs_add_le _ _).trans (add_le_add le_rfl (abs_add_le _ _))
  calc |val (Flt.add x y) - (X + Y)|
      = |(val (Flt.add x y) - (val x + val y)) + ((val x - X) + (val y - Y))| := by congr 1; ring
    _ ≤ u α * |val x + val y| + (|val x - X| + |val y - Y|) :=
      (abs_add_le _ _).trans (add_le_add h1 (abs_add_le _ _))
    _ ≤ u α * (|X + Y| + (|val x - X| + |val y - Y|)) + (|val x - X| + |val y - Y|) := by
      gcongr; exact u_nonneg
    _ = _ := by ring

/-- A finite sum has finite terms, and is close to the exact sum. -/
theorem Spec.SumOf.err {x : α} {s : Multiset α} (h : SumOf x s) (hx : fin x) :
    (∀ t ∈ s, fin t) ∧ |val x - vsum s| ≤ gam α (s.card - 1) * asum s := by
  induction h with
  | zero => exact ⟨by simp, by simp [vsum, asum, val_zero]⟩
  | term x => exact ⟨by simpa using hx, by simp [vsum, asum, gam_zero]⟩
  | @add x y s t hs ht ih1 ih2 =>
    obtain ⟨f1, f2⟩ := add_fin hx
    obtain ⟨a1, b1⟩ := ih1 f1
    obtain ⟨a2, b2⟩ := ih2 f2
    refine ⟨fun z hz => (Multiset.mem_add.1 hz).elim (a1 z) (a2 z), ?_⟩
    have e1 : vsum (s + t) = vsum s + vsum t := by simp [vsum]
    have e2 : asum (s + t) = asum s + asum t := by simp [asum]
    by_cases c1 : s = 0
    · subst c1
      have : val x = 0 := by simpa [vsum, asum] using b1
      rw [Rnd.zero_add hx this, _root_.zero_add]
      exact b2
    by_cases c2 : t = 0
    · subst c2
      have : val y = 0 := by simpa [vsum, asum] using b2
      rw [Rnd.add_zero hx this, _root_.add_zero]
      exact b1
    have p1 : 0 < s.card := Multiset.card_pos.2 c1
    have p2 : 0 < t.card := Multiset.card_pos.2 c2
    have hu := u_nonneg (α := α)
    have m1 := asum_nonneg s
    have m2 := asum_nonneg t
    rw [e1, e2, Multiset.card_add]
    set k := s.card + t.card - 2 with hk
    have k1 : gam α (s.card - 1) ≤ gam α k := gam_mono (by omega)
    have k2 : gam α (t.card - 1) ≤ gam α k := gam_mono (by omega)
    rw [show s.card + t.card - 1 = 1 + k by omega, gam_add, gam_one]
    refine (add_step hx).trans ?_
    have h3 : |vsum s + vsum t| ≤ asum s + asum t :=
      (abs_add_le _ _).trans (add_le_add (vsum_le s) (vsum_le t))
    have hb : |val x - vsum s| + |val y - vsum t| ≤ gam α k * (asum s + asum t) := by
      rw [mul_add]
      exact add_le_add (b1.trans (mul_le_mul_of_nonneg_right k1 m1))
        (b2.trans (mul_le_mul_of_nonneg_right k2 m2))
    calc _ ≤ (1 + u α) * (gam α k * (asum s + asum t)) + u α * (asum s + asum t) := by gcongr
      _ = _ := by ring

/-! ## Sums of products -/

/-- The family of terms with indices in a finite set. -/
def Spec.over {ι : Type} (S : Finset ι) (g : ι → α) : Multiset α := S.1.map g

omit [Rnd α] in
theorem over_range (n : Nat) (g : Nat → α) : over (range n) g = terms 0 n g := by
  unfold over terms
  exact Multiset.map_congr rfl fun i _ => by rw [Nat.zero_add]

/-- Sums of terms that are themselves approximations. -/
theorem Spec.SumOf.err' {ι : Type} {S : Finset ι} {g : ι → α} {x : α} (h : SumOf x (over S g))
    (hx : fin x) :
    (∀ k ∈ S, fin (g k)) ∧ ∀ t d : ι → ℝ, (∀ k ∈ S, |val (g k) - t k| ≤ d k) →
      |val x - ∑ k ∈ S, t k| ≤ gam α (S.card - 1) * ∑ k ∈ S, |t k| +
        (1 + u α) ^ (S.card - 1) * ∑ k ∈ S, d k := by
  obtain ⟨h1, h2⟩ := h.err hx
  refine ⟨fun k hk => h1 _ (Multiset.mem_map_of_mem g hk), fun t d hd => ?_⟩
  have e3 : vsum (over S g) = ∑ k ∈ S, val (g k) := by
    unfold vsum over; rw [Multiset.map_map]; rfl
  have e4 : asum (over S g) = ∑ k ∈ S, |val (g k)| := by
    unfold asum over; rw [Multiset.map_map]; rfl
  rw [e3, e4, show (over S g).card = S.card by simp [over]] at h2
  have e1 : |∑ k ∈ S, val (g k) - ∑ k ∈ S, t k| ≤ ∑ k ∈ S, d k := by
    rw [← sum_sub_distrib]
    exact (abs_sum_le_sum_abs _ _).trans (sum_le_sum fun k hk => hd k hk)
  have e2 : ∑ k ∈ S, |val (g k)| ≤ ∑ k ∈ S, |t k| + ∑ k ∈ S, d k := by
    rw [← sum_add_distrib]
    refine sum_le_sum fun k hk => ?_
    have := hd k hk
    have h3 := abs_sub_abs_le_abs_sub (val (g k)) (t k)
    linarith
  have hg := gam_nonneg (α := α) (S.card - 1)
  rw [← one_add_gam]
  calc |val x - ∑ k ∈ S, t k|
      = |(val x - ∑ k ∈ S, val (g k)) + (∑ k ∈ S, val (g k) - ∑ k ∈ S, t k)| := by
        congr 1; ring
    _ ≤ gam α (S.card - 1) * ∑ k ∈ S, |val (g k)| + ∑ k ∈ S, d k :=
      (abs_add_le _ _).trans (add_le_add h2 e1)
    _ ≤ gam α (S.card - 1) * (∑ k ∈ S, |t k| + ∑ k ∈ S, d k) + ∑ k ∈ S, d k := by gcongr
    _ = _ := by ring

/-- The error of a sum of products, whatever the order of the additions. -/
theorem Spec.SumOf.prods {ι : Type} {S : Finset ι} {a b : ι → α} {x : α}
    (h : SumOf x (over S fun k => Flt.mul (a k) (b k))) (hx : fin x) :
    (∀ k ∈ S, fin (a k) ∧ fin (b k)) ∧
    |val x - ∑ k ∈ S, val (a k) * val (b k)| ≤
      gam α S.card * ∑ k ∈ S, |val (a k)| * |val (b k)| + S.card * (1 + u α) ^ S.card * η α := by
  obtain ⟨h1, h2⟩ := h.err' hx
  refine ⟨fun k hk => mul_fin (h1 k hk), ?_⟩
  have h3 := h2 (fun k => val (a k) * val (b k)) (fun k => u α * |val (a k) * val (b k)| + η α)
    fun k hk => (mul_err (h1 k hk)).1
  refine h3.trans ?_
  simp only [abs_mul]
  rw [sum_add_distrib, ← mul_sum, sum_const, nsmul_eq_mul]
  set T := ∑ k ∈ S, |val (a k)| * |val (b k)| with hT
  have hT0 : 0 ≤ T := sum_nonneg fun k _ => by positivity
  have hu := u_nonneg (α := α)
  have hη := η_nonneg (α := α)
  by_cases he : S.card = 0
  · rw [Finset.card_eq_zero.1 he] at hT
    simp [hT, he, gam_zero]
  · obtain ⟨n, hn⟩ := Nat.exists_eq_succ_of_ne_zero he
    rw [hn, Nat.succ_eq_add_one, Nat.add_sub_cancel, gam_add, gam_one]
    have hp : (1 + u α) ^ n ≤ (1 + u α) ^ (n + 1) := pow_le_pow_right₀ one_le_u (by omega)
    have hc : (0 : ℝ) ≤ ((n + 1 : ℕ) : ℝ) * η α := by positivity
    calc gam α n * T + (1 + u α) ^ n * (u α * T + ((n + 1 : ℕ) : ℝ) * η α)
        = (gam α n + u α + gam α n * u α) * T + (1 + u α) ^ n * (((n + 1 : ℕ) : ℝ) * η α) := by
          rw [← one_add_gam]; ring
      _ ≤ (gam α n + u α + gam α n * u α) * T + (1 + u α) ^ (n + 1) * (((n + 1 : ℕ) : ℝ) * η α) := by
          gcongr
      _ = _ := by ring

/-- The error of an inner product, whatever the order of the additions. -/
theorem Spec.SumOf.dot {n : Nat} {a b : Nat → α} {x : α}
    (h : SumOf x (terms 0 n fun k => Flt.mul (a k) (b k))) (hx : fin x) :
    (∀ k, k < n → fin (a k) ∧ fin (b k)) ∧
    |val x - ∑ k ∈ range n, val (a k) * val (b k)| ≤
      gam α n * ∑ k ∈ range n, |val (a k)| * |val (b k)| + n * (1 + u α) ^ n * η α := by
  rw [← over_range] at h
  obtain ⟨h1, h2⟩ := h.prods hx
  rw [card_range] at h2
  exact ⟨fun k hk => h1 k (mem_range.2 hk), h2⟩

/-- The root of an approximation, compared by squares. -/
theorem sqrt_step {x : α} (hx : fin (Flt.sqrt x)) {T E : ℝ} (k : Nat)
    (h : |val x - T| ≤ gam α k * T + E) :
    0 ≤ val (Flt.sqrt x) ∧ |val (Flt.sqrt x) ^ 2 - T| ≤ gam α (k + 2) * T + (1 + u α) ^ 2 * E := by
  obtain ⟨f, h0⟩ := sqrt_fin hx
  have h3 := (sqrt_err hx).1
  have hq := Real.sq_sqrt h0
  have hr := Real.sqrt_nonneg (val x)
  generalize √(val x) = w at *
  have hu := u_nonneg (α := α)
  have hu2 := u_le (α := α)
  refine ⟨by nlinarith [(abs_le.1 h3).1], ?_⟩
  have h4 : |val (Flt.sqrt x) ^ 2 - val x| ≤ gam α 2 * val x := by
    have h5 : |val (Flt.sqrt x) + w| ≤ (2 + u α) * w := by
      have : val (Flt.sqrt x) + w = (val (Flt.sqrt x) - w) + 2 * w := by ring
      rw [this]
      refine (abs_add_le _ _).trans ?_
      rw [abs_of_nonneg (show 0 ≤ 2 * w by positivity)]
      linarith
    rw [← hq, show val (Flt.sqrt x) ^ 2 - w ^ 2 = (val (Flt.sqrt x) - w) * (val (Flt.sqrt x) + w) by ring,
      abs_mul]
    calc _ ≤ (u α * w) * ((2 + u α) * w) := by gcongr
      _ = _ := by unfold gam; ring
  have h6 : val x ≤ T + (gam α k * T + E) := by
    linarith [(abs_le.1 h).2]
  have hg2 := gam_nonneg (α := α) 2
  calc |val (Flt.sqrt x) ^ 2 - T| = |(val (Flt.sqrt x) ^ 2 - val x) + (val x - T)| := by congr 1; ring
    _ ≤ gam α 2 * (T + (gam α k * T + E)) + (gam α k * T + E) :=
      (abs_add_le _ _).trans (add_le_add (h4.trans (by gcongr)) h)
    _ = _ := by rw [gam_add, ← one_add_gam (α := α) 2]; ring

/-- The error of the root of a sum of squares, on the squares. -/
theorem sqrt_sq {ι : Type} {S : Finset ι} {a : ι → α} {x : α}
    (h : SumOf x (over S fun k => Flt.mul (a k) (a k))) (hx : fin (Flt.sqrt x)) :
    (∀ k ∈ S, fin (a k)) ∧ 0 ≤ val (Flt.sqrt x) ∧
    |val (Flt.sqrt x) ^ 2 - ∑ k ∈ S, val (a k) ^ 2| ≤
      gam α (S.card + 2) * ∑ k ∈ S, val (a k) ^ 2 + S.card * (1 + u α) ^ (S.card + 2) * η α := by
  obtain ⟨h1, h2⟩ := h.prods (sqrt_fin hx).1
  have e1 : ∑ k ∈ S, val (a k) * val (a k) = ∑ k ∈ S, val (a k) ^ 2 :=
    sum_congr rfl fun k _ => (sq _).symm
  have e2 : ∑ k ∈ S, |val (a k)| * |val (a k)| = ∑ k ∈ S, val (a k) ^ 2 :=
    sum_congr rfl fun k _ => by rw [abs_mul_abs_self, sq]
  rw [e1, e2] at h2
  obtain ⟨h3, h4⟩ := sqrt_step hx _ h2
  refine ⟨fun k hk => (h1 k hk).1, h3, h4.trans (le_of_eq ?_)⟩
  rw [pow_add]
  ring

/-! ## Repeated subtraction -/

theorem abs_sum_list (l : List Nat) (t : Nat → ℝ) : |(l.map t).sum| ≤ (l.map fun i => |t i|).sum := by
  induction l with
  | nil => simp
  | cons a l ih => simpa using (abs_add_le _ _).trans (add_le_add le_rfl ih)

/-- Repeated subtraction of approximations `g i` of `t i`: what has been subtracted and what is left
make up the start. -/
theorem sub_list (l : List Nat) (g : Nat → α) (s : α) 
    (h : fin (l.foldl (fun s i => Flt.sub s (g i)) s)) :
    fin s ∧ (∀ i ∈ l, fin (g i)) ∧ ∀ t d : Nat → ℝ, (∀ i ∈ l, |val (g i) - t i| ≤ d i) →
      |val (l.foldl (fun s i => Flt.sub s (g i)) s) + (l.map t).sum - val s| ≤
        gam α l.length * (|val (l.foldl (fun s i => Flt.sub s (g i)) s)| + (l.map fun i => |t i|).sum) +
        (1 + u α) ^ l.length * (l.map d).sum := by
  induction l generalizing s with
  | nil => exact ⟨h, by simp, fun t d _ => by simp [gam_zero]⟩
  | cons i l ih =>
    rw [List.foldl_cons] at h ⊢
    obtain ⟨h1, h2, h3⟩ := ih _ h
    obtain ⟨f1, f2⟩ := sub_fin h1
    refine ⟨f1, by simpa using ⟨f2, h2⟩, fun t d hd => ?_⟩
    have h4 := h3 t d fun j hj => hd j (by simp [hj])
    have h5 := hd i (by simp)
    have h6 := (sub_err h1).2
    generalize l.foldl (fun s i => Flt.sub s (g i)) (Flt.sub s (g i)) = z at *
    have hu := u_nonneg (α := α)
    have hT : 0 ≤ (l.map fun i => |t i|).sum := List.sum_nonneg (by simp)
    have hD : 0 ≤ (l.map d).sum := by
      refine List.sum_nonneg fun x hx => ?_
      obtain ⟨j, hj, rfl⟩ := List.mem_map.1 hx
      exact (abs_nonneg _).trans (hd j (by simp [hj]))
    have hsum := abs_sum_list l t
    simp only [List.map_cons, List.sum_cons, List.length_cons]
    generalize (l.map t).sum = S at *
    generalize (l.map fun i => |t i|).sum = T at *
    generalize (l.map d).sum = D at *
    rw [gam_add, gam_one, pow_succ]
    have hg := gam_nonneg (α := α) l.length
    have hp : 1 ≤ (1 + u α) ^ l.length := one_le_pow₀ one_le_u
    have h7 : |val (Flt.sub s (g i))| ≤ |val z| + T + (gam α l.length * (|val z| + T) + (1 + u α) ^ l.length * D) := by
      calc |val (Flt.sub s (g i))| = |(val z + S) - (val z + S - val (Flt.sub s (g i)))| := by
            congr 1; ring
        _ ≤ |val z + S| + |val z + S - val (Flt.sub s (g i))| := abs_sub _ _
        _ ≤ _ := add_le_add ((abs_add_le _ _).trans (add_le_add le_rfl hsum)) h4
    have hd0 : 0 ≤ d i := (abs_nonneg _).trans h5
    calc |val z + (t i + S) - val s|
        = |(val z + S - val (Flt.sub s (g i))) + ((val (Flt.sub s (g i)) - (val s - val (g i))) +
            (t i - val (g i)))| := by congr 1; ring
      _ ≤ (gam α l.length * (|val z| + T) + (1 + u α) ^ l.length * D) +
          (u α * |val (Flt.sub s (g i))| + d i) := by
        refine (abs_add_le _ _).trans (add_le_add h4 ((abs_add_le _ _).trans (add_le_add h6 ?_)))
        rwa [abs_sub_comm]
      _ ≤ (gam α l.length * (|val z| + T) + (1 + u α) ^ l.length * D) +
          (u α * (|val z| + T + (gam α l.length * (|val z| + T) + (1 + u α) ^ l.length * D)) + d i) := by
        gcongr
      _ = (gam α l.length + u α + gam α l.length * u α) * (|val z| + T) +
          ((1 + u α) ^ l.length * (1 + u α) * D + d i) := by ring
      _ ≤ (gam α l.length + u α + gam α l.length * u α) * (|val z| + (|t i| + T)) +
          ((1 + u α) ^ l.length * (1 + u α) * D + (1 + u α) ^ l.length * (1 + u α) * d i) := by
        have hq : 1 ≤ (1 + u α) ^ l.length * (1 + u α) := by nlinarith
        gcongr
        · exact le_add_of_nonneg_left (abs_nonneg _)
        · nlinarith
      _ = _ := by ring

theorem sum_range'_map (a n : Nat) (t : Nat → ℝ) :
    ((List.range' a n).map t).sum = ∑ i ∈ Ico a (a + n), t i := by
  induction n with
  | zero => simp
  | succ n ih =>
    rw [List.range'_1_concat, List.map_append, List.sum_append, ih, ← Nat.add_assoc,
      sum_Ico_succ_top (by omega)]
    simp

/-- The quotient times the divisor is close to the dividend. -/
theorem div_back {x y : α} (h : fin (Flt.div x y)) (hy : fin y) :
    fin x ∧ val y ≠ 0 ∧
    |val (Flt.div x y) * val y - val x| ≤ u α * (|val (Flt.div x y)| * |val y|) + η α * |val y| := by
  refine ⟨div_fin h, div_ne h hy, ?_⟩
  have h1 := (div_err h hy).2
  have h2 := div_ne h hy
  have : val (Flt.div x y) * val y - val x = (val (Flt.div x y) - val x / val y) * val y := by
    field_simp
  rw [this, abs_mul]
  calc _ ≤ (u α * |val (Flt.div x y)| + η α) * |val y| := by gcongr
    _ = _ := by ring

/-- Repeated subtraction of products, in any order of the indices. -/
theorem sub_prods (l : List Nat) (x y : Nat → α) (s : α)
    (h : fin (l.foldl (fun s i => Flt.sub s (Flt.mul (x i) (y i))) s)) :
    fin s ∧ (∀ i ∈ l, fin (x i) ∧ fin (y i)) ∧
      |val (l.foldl (fun s i => Flt.sub s (Flt.mul (x i) (y i))) s) +
          (l.map fun i => val (x i) * val (y i)).sum - val s| ≤
        gam α l.length * |val (l.foldl (fun s i => Flt.sub s (Flt.mul (x i) (y i))) s)| +
          gam α (l.length + 1) * (l.map fun i => |val (x i)| * |val (y i)|).sum +
          l.length * (1 + u α) ^ l.length * η α := by
  obtain ⟨h1, h2, h3⟩ := sub_list l (fun i => Flt.mul (x i) (y i)) s h
  refine ⟨h1, fun i hi => mul_fin (h2 i hi), ?_⟩
  have h4 := h3 (fun i => val (x i) * val (y i)) (fun i => u α * |val (x i) * val (y i)| + η α)
    fun i hi => (mul_err (h2 i hi)).1
  simp only [abs_mul] at h4
  refine h4.trans ?_
  have e : (l.map fun i => u α * (|val (x i)| * |val (y i)|) + η α).sum =
      u α * (l.map fun i => |val (x i)| * |val (y i)|).sum + l.length * η α := by
    clear h h1 h2 h3 h4
    induction l with
    | nil => simp
    | cons a l ih =>
      simp only [List.map_cons, List.sum_cons, ih, List.length_cons]
      push_cast
      ring
  rw [e, gam_add, gam_one]
  have hu := u_nonneg (α := α)
  have hg := gam_nonneg (α := α) l.length
  have hT : 0 ≤ (l.map fun i => |val (x i)| * |val (y i)|).sum := by
    refine List.sum_nonneg fun x hx => ?_
    obtain ⟨j, hj, rfl⟩ := List.mem_map.1 hx
    positivity
  have hZ : 0 ≤ |val (l.foldl (fun s i => Flt.sub s (Flt.mul (x i) (y i))) s)| := abs_nonneg _
  generalize |val (l.foldl (fun s i => Flt.sub s (Flt.mul (x i) (y i))) s)| = Z at hZ ⊢
  generalize (l.map fun i => |val (x i)| * |val (y i)|).sum = T at hT ⊢
  rw [← one_add_gam]
  exact le_of_eq (by ring)

/-- The same, divided in the end. -/
theorem sub_prods_div (l : List Nat) (x y : Nat → α) (s d : α) (hd : fin d)
    (h : fin (Flt.div (l.foldl (fun s i => Flt.sub s (Flt.mul (x i) (y i))) s) d)) :
    fin s ∧ (∀ i ∈ l, fin (x i) ∧ fin (y i)) ∧ val d ≠ 0 ∧
      |val (Flt.div (l.foldl (fun s i => Flt.sub s (Flt.mul (x i) (y i))) s) d) * val d +
          (l.map fun i => val (x i) * val (y i)).sum - val s| ≤
        gam α (l.length + 1) * (|val (Flt.div (l.foldl (fun s i => Flt.sub s (Flt.mul (x i) (y i))) s) d)| *
          |val d| + (l.map fun i => |val (x i)| * |val (y i)|).sum) +
          (1 + u α) ^ l.length * (l.length + |val d|) * η α := by
  obtain ⟨f1, f2, h3⟩ := div_back h hd
  obtain ⟨h1, h2, h4⟩ := sub_prods l x y s f1
  refine ⟨h1, h2, f2, ?_⟩
  generalize l.foldl (fun s i => Flt.sub s (Flt.mul (x i) (y i))) s = z at *
  have hu := u_nonneg (α := α)
  have hη := η_nonneg (α := α)
  have hg := gam_nonneg (α := α) l.length
  have h5 : |val z| ≤ |val (Flt.div z d)| * |val d| + (u α * (|val (Flt.div z d)| * |val d|) + η α * |val d|) := by
    calc |val z| = |val (Flt.div z d) * val d - (val (Flt.div z d) * val d - val z)| := by congr 1; ring
      _ ≤ |val (Flt.div z d) * val d| + |val (Flt.div z d) * val d - val z| := abs_sub _ _
      _ ≤ _ := by rw [abs_mul]; gcongr
  generalize (l.map fun i => |val (x i)| * |val (y i)|).sum = T at *
  generalize (l.map fun i => val (x i) * val (y i)).sum = S at *
  calc |val (Flt.div z d) * val d + S - val s| =
        |(val (Flt.div z d) * val d - val z) + (val z + S - val s)| := by congr 1; ring
    _ ≤ (u α * (|val (Flt.div z d)| * |val d|) + η α * |val d|) +
        (gam α l.length * (|val (Flt.div z d)| * |val d| + (u α * (|val (Flt.div z d)| * |val d|) + η α * |val d|)) +
          gam α (l.length + 1) * T + l.length * (1 + u α) ^ l.length * η α) := by
      refine (abs_add_le _ _).trans (add_le_add h3 (h4.trans ?_))
      gcongr
    _ = _ := by rw [gam_add, gam_one, ← one_add_gam]; ring

/-- The sums of the triangular decompositions. -/
theorem lsub_prods {a b : Nat} {x y : Nat → α} {s : α}
    (h : fin (lsub a b (fun i => Flt.mul (x i) (y i)) s)) :
    fin s ∧ (∀ i, a ≤ i → i < b → fin (x i) ∧ fin (y i)) ∧
      |val (lsub a b (fun i => Flt.mul (x i) (y i)) s) + ∑ i ∈ Ico a b, val (x i) * val (y i) - val s| ≤
        gam α (b - a) * |val (lsub a b (fun i => Flt.mul (x i) (y i)) s)| +
          gam α (b - a + 1) * ∑ i ∈ Ico a b, |val (x i)| * |val (y i)| +
          (b - a : ℕ) * (1 + u α) ^ (b - a) * η α := by
  by_cases hab : a ≤ b
  · obtain ⟨h1, h2, h3⟩ := sub_prods (List.range' a (b - a)) x y s h
    refine ⟨h1, fun i hi hi' => h2 i (List.mem_range'_1.2 ⟨hi, by omega⟩), ?_⟩
    rw [List.length_range', sum_range'_map, sum_range'_map, show a + (b - a) = b by omega] at h3
    exact h3
  · rw [lsub_self (by omega)] at h ⊢
    refine ⟨h, fun i h1 h2 => by omega, ?_⟩
    rw [Ico_eq_empty (by omega), show b - a = 0 by omega]
    simp [mul_nonneg (gam_nonneg _) (abs_nonneg _)]

theorem lsub_prods_div {a b : Nat} {x y : Nat → α} {s d : α} (hd : fin d)
    (h : fin (Flt.div (lsub a b (fun i => Flt.mul (x i) (y i)) s) d)) :
    fin s ∧ (∀ i, a ≤ i → i < b → fin (x i) ∧ fin (y i)) ∧ val d ≠ 0 ∧
      |val (Flt.div (lsub a b (fun i => Flt.mul (x i) (y i)) s) d) * val d +
          ∑ i ∈ Ico a b, val (x i) * val (y i) - val s| ≤
        gam α (b - a + 1) * (|val (Flt.div (lsub a b (fun i => Flt.mul (x i) (y i)) s) d)| * |val d| +
          ∑ i ∈ Ico a b, |val (x i)| * |val (y i)|) +
          (1 + u α) ^ (b - a) * ((b - a : ℕ) + |val d|) * η α := by
  obtain ⟨h1, h2, h4, h3⟩ := sub_prods_div (List.range' a (b - a)) x y s d hd h
  refine ⟨h1, fun i hi hi' => h2 i (List.mem_range'_1.2 ⟨hi, by omega⟩), h4, ?_⟩
  have e : Ico a (a + (b - a)) = Ico a b := by
    by_cases hab : a ≤ b
    · rw [show a + (b - a) = b by omega]
    · rw [Ico_eq_empty (by omega), Ico_eq_empty (by omega)]
  rw [List.length_range', sum_range'_map, sum_range'_map, e] at h3
  exact h3

/-- Subtraction of the terms from the last to the first. -/
def rsub (a b : Nat) (g : Nat → α) (s : α) : α :=
  (List.range' a (b - a)).reverse.foldl (fun s i => Flt.sub s (g i)) s

omit [Rnd α] in
theorem rsub_self {a b : Nat} (h : b ≤ a) (g : Nat → α) (s : α) : rsub a b g s = s := by
  unfold rsub; rw [Nat.sub_eq_zero_of_le h]; rfl

omit [Rnd α] in
theorem rsub_step {a b : Nat} (h : a < b) (g : Nat → α) (s : α) :
    rsub a b g s = Flt.sub (rsub (a + 1) b g s) (g a) := by
  unfold rsub
  rw [show b - a = (b - (a + 1)) + 1 by omega, List.range'_succ, List.reverse_cons, List.foldl_append]
  rfl

omit [Rnd α] in
theorem rsub_congr {a b : Nat} {g g' : Nat → α} {s : α} (h : ∀ i, a ≤ i → i < b → g i = g' i) :
    rsub a b g s = rsub a b g' s := by
  unfold rsub
  refine List.foldl_ext _ _ _ fun s i hi => ?_
  have := List.mem_range'_1.1 (List.mem_reverse.1 hi)
  rw [h i this.1 (by omega)]

theorem rsub_prods_div {a b : Nat} {x y : Nat → α} {s d : α} (hd : fin d)
    (h : fin (Flt.div (rsub a b (fun i => Flt.mul (x i) (y i)) s) d)) :
    fin s ∧ (∀ i, a ≤ i → i < b → fin (x i) ∧ fin (y i)) ∧ val d ≠ 0 ∧
      |val (Flt.div (rsub a b (fun i => Flt.mul (x i) (y i)) s) d) * val d +
          ∑ i ∈ Ico a b, val (x i) * val (y i) - val s| ≤
        gam α (b - a + 1) * (|val (Flt.div (rsub a b (fun i => Flt.mul (x i) (y i)) s) d)| * |val d| +
          ∑ i ∈ Ico a b, |val (x i)| * |val (y i)|) +
          (1 + u α) ^ (b - a) * ((b - a : ℕ) + |val d|) * η α := by
  obtain ⟨h1, h2, h4, h3⟩ := sub_prods_div (List.range' a (b - a)).reverse x y s d hd h
  refine ⟨h1, fun i hi hi' => h2 i (List.mem_reverse.2 (List.mem_range'_1.2 ⟨hi, by omega⟩)), h4, ?_⟩
  have e : Ico a (a + (b - a)) = Ico a b := by
    by_cases hab : a ≤ b
    · rw [show a + (b - a) = b by omega]
    · rw [Ico_eq_empty (by omega), Ico_eq_empty (by omega)]
  rw [List.length_reverse, List.length_range', List.map_reverse, List.sum_reverse, List.map_reverse,
    List.sum_reverse, sum_range'_map, sum_range'_map, e] at h3
  exact h3

/-! ## Substitution, in any arithmetic -/

omit [Rnd α] in
/-- Forward substitution by columns; `V` shows the vectors of the state, one or several. -/
theorem fwdBits {ε σ ι : Type} {n : Nat} (V : ι → σ → Nat → α) (g : Nat → α → α) (T : Nat → Nat → α → α)
    {body : Nat → σ → Except ε σ}
    (hb : ∀ k s, k < n → ∃ s', body k s = .ok s' ∧ ∀ j, (∀ i, i < k → V j s' i = V j s i) ∧
      V j s' k = g k (V j s k) ∧ ∀ i, k < i → i < n → V j s' i = Flt.sub (V j s i) (T i k (V j s' k)))
    (s : σ) : ∃ s', forUp 0 n body s = .ok s' ∧ ∀ j i, i < n →
      V j s' i = g i (lsub 0 i (fun x => T i x (V j s' x)) (V j s i)) := by
  obtain ⟨s', e, h1, -⟩ := Wp.exists_ok (wp_forUp (E := fun _ : ε => False) (s := s) (body := body)
    (fun k s' => (∀ j i, i < k → V j s' i = g i (lsub 0 i (fun x => T i x (V j s' x)) (V j s i))) ∧
      ∀ j i, k ≤ i → i < n → V j s' i = lsub 0 k (fun x => T i x (V j s' x)) (V j s i))
    (Nat.zero_le n) ⟨by omega, fun j i _ _ => (lsub_self le_rfl _ _).symm⟩ (by
      rintro k s1 - hk ⟨h1, h2⟩
      obtain ⟨s2, e, h⟩ := hb k s1 hk
      rw [e]
      refine ⟨fun j i hi => ?_, fun j i hi hin => ?_⟩
      · obtain ⟨a1, a2, a3⟩ := h j
        have ec : ∀ i, i ≤ k → lsub 0 i (fun x => T i x (V j s2 x)) (V j s i) =
            lsub 0 i (fun x => T i x (V j s1 x)) (V j s i) := fun i hi =>
          lsub_congr fun x _ hx => by rw [a1 x (by omega)]
        rw [ec i (by omega)]
        by_cases e : i = k
        · subst e
          rw [a2, h2 j i le_rfl hk]
        · rw [a1 i (by omega), h1 j i (by omega)]
      · obtain ⟨a1, a2, a3⟩ := h j
        have ec : lsub 0 k (fun x => T i x (V j s2 x)) (V j s i) =
            lsub 0 k (fun x => T i x (V j s1 x)) (V j s i) :=
          lsub_congr fun x _ hx => by rw [a1 x (by omega)]
        rw [a3 i (by omega) hin, lsub_succ (Nat.zero_le k), ec, h2 j i (by omega) hin]))
  exact ⟨s', e, h1⟩

omit [Rnd α] in
/-- Backward substitution by columns. -/
theorem bwdBits {ε σ ι : Type} {n : Nat} (V : ι → σ → Nat → α) (g : Nat → α → α) (T : Nat → Nat → α → α)
    {body : Nat → σ → Except ε σ}
    (hb : ∀ k s, k < n → ∃ s', body k s = .ok s' ∧ ∀ j, (∀ i, k < i → i < n → V j s' i = V j s i) ∧
      V j s' k = g k (V j s k) ∧ ∀ i, i < k → V j s' i = Flt.sub (V j s i) (T i k (V j s' k)))
    (s : σ) : ∃ s', forDown n 0 body s = .ok s' ∧ ∀ j i, i < n →
      V j s' i = g i (rsub (i + 1) n (fun x => T i x (V j s' x)) (V j s i)) := by
  obtain ⟨s', e, h1, -⟩ := Wp.exists_ok (wp_forDown (E := fun _ : ε => False) (s := s) (body := body)
    (fun k s' => (∀ j i, k ≤ i → i < n → V j s' i = g i (rsub (i + 1) n (fun x => T i x (V j s' x)) (V j s i))) ∧
      ∀ j i, i < k → V j s' i = rsub k n (fun x => T i x (V j s' x)) (V j s i))
    (Nat.zero_le n) ⟨fun j i h1 h2 => by omega, fun j i _ => (rsub_self le_rfl _ _).symm⟩ (by
      rintro k s1 - hk ⟨h1, h2⟩
      obtain ⟨s2, e, h⟩ := hb k s1 hk
      rw [e]
      refine ⟨fun j i hi hin => ?_, fun j i hi => ?_⟩
      · obtain ⟨a1, a2, a3⟩ := h j
        have ec : rsub (i + 1) n (fun x => T i x (V j s2 x)) (V j s i) =
            rsub (i + 1) n (fun x => T i x (V j s1 x)) (V j s i) :=
          rsub_congr fun x _ hx => by rw [a1 x (by omega) hx]
        rw [ec]
        by_cases e : i = k
        · subst e
          rw [a2, h2 j i (by omega)]
        · rw [a1 i (by omega) hin, h1 j i (by omega) hin]
      · obtain ⟨a1, a2, a3⟩ := h j
        have ec : rsub (k + 1) n (fun x => T i x (V j s2 x)) (V j s i) =
            rsub (k + 1) n (fun x => T i x (V j s1 x)) (V j s i) :=
          rsub_congr fun x _ hx => by rw [a1 x (by omega) hx]
        rw [a3 i hi, rsub_step hk, ec, h2 j i (by omega)]))
  exact ⟨s', e, fun j i hi => h1 j i (Nat.zero_le _) hi⟩

end round

end Linear
