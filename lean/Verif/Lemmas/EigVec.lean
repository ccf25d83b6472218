import Verif.Lemmas.EigenGen
import Verif.Lemmas.ExactSums
import Mathlib.Analysis.Complex.Basic
import Mathlib.Algebra.BigOperators.Field

/-!
# The back substitution for eigenvectors, in exact arithmetic
-/

set_option linter.unusedSectionVars false

namespace Linear

open Spec Finset

/-- The entries of `T` on and above the diagonal, and those below it that belong to a pair. -/
def Eig.quasi {F : Type} [Zero F] (pr : Nat → Prop) [DecidablePred pr] (T : Nat → Nat → F) (i j : Nat) : F :=
  if i ≤ j ∨ (i = j + 1 ∧ pr j) then T i j else 0

section sol
variable {F : Type} [Field F]

/-- The rows `l` to `idx` of `(V + diag d) c = lam c`, where `c` is zero outside of them. -/
def Eig.Sol (V : Nat → Nat → F) (lam : F) (d c : Nat → F) (l idx : Nat) : Prop :=
  ∀ k, l ≤ k → k ≤ idx → ∑ j ∈ Ico l (idx + 1), V k j * c j + d k * c k = lam * c k

variable {V : Nat → Nat → F} {lam : F} {d c : Nat → F} {l idx : Nat}

theorem Eig.Sol.congr {d' c' : Nat → F} (h : Eig.Sol V lam d c l idx) (hd : ∀ k, l ≤ k → k ≤ idx → d' k = d k)
    (hc : ∀ k, l ≤ k → k ≤ idx → c' k = c k) : Eig.Sol V lam d' c' l idx := by
  intro k h1 h2
  have e : ∑ j ∈ Ico l (idx + 1), V k j * c' j = ∑ j ∈ Ico l (idx + 1), V k j * c j :=
    sum_congr rfl fun j hj => by
      have := mem_Ico.1 hj
      rw [hc j this.1 (by omega)]
  rw [e, hc k h1 h2, hd k h1 h2]
  exact h k h1 h2

theorem Eig.Sol.scale {c' : Nat → F} (h : Eig.Sol V lam d c l idx) (s : F)
    (hc : ∀ k, l ≤ k → k ≤ idx → c' k = c k / s) : Eig.Sol V lam d c' l idx := by
  intro k h1 h2
  have e : ∑ j ∈ Ico l (idx + 1), V k j * c' j = (∑ j ∈ Ico l (idx + 1), V k j * c j) / s := by
    rw [sum_div]
    exact sum_congr rfl fun j hj => by
      have := mem_Ico.1 hj
      rw [hc j this.1 (by omega), mul_div_assoc]
  rw [e, hc k h1 h2, ← mul_div_assoc, ← mul_div_assoc, ← add_div, h k h1 h2]

/-- One more row. -/
theorem Eig.Sol.one {i : Nat} (h : Eig.Sol V lam d c (i + 1) idx) (hi : i < idx)
    (hz : ∀ k, i + 1 ≤ k → k ≤ idx → V k i = 0)
    (he : V i i * c i + ∑ j ∈ Ico (i + 1) (idx + 1), V i j * c j + d i * c i = lam * c i) :
    Eig.Sol V lam d c i idx := by
  intro k h1 h2
  rw [sum_eq_sum_Ico_succ_bot (by omega)]
  rcases Nat.lt_or_ge i k with hk | hk
  · rw [hz k hk h2, zero_mul, zero_add]
    exact h k hk h2
  · obtain rfl : k = i := by omega
    exact he

/-- Two more rows. -/
theorem Eig.Sol.two {i : Nat} (h : Eig.Sol V lam d c (i + 2) idx) (hi : i + 1 < idx)
    (hz : ∀ k, i + 2 ≤ k → k ≤ idx → V k i = 0 ∧ V k (i + 1) = 0)
    (h1 : V i i * c i + V i (i + 1) * c (i + 1) + ∑ j ∈ Ico (i + 2) (idx + 1), V i j * c j + d i * c i = lam * c i)
    (h2 : V (i + 1) i * c i + V (i + 1) (i + 1) * c (i + 1) + ∑ j ∈ Ico (i + 2) (idx + 1), V (i + 1) j * c j +
      d (i + 1) * c (i + 1) = lam * c (i + 1)) : Eig.Sol V lam d c i idx := by
  intro k h3 h4
  rw [sum_eq_sum_Ico_succ_bot (by omega), sum_eq_sum_Ico_succ_bot (by omega)]
  by_cases hk : i + 2 ≤ k
  · rw [(hz k hk h4).1, (hz k hk h4).2, zero_mul, zero_mul, zero_add, zero_add]
    exact h k hk h4
  · have : k = i ∨ k = i + 1 := by omega
    rcases this with rfl | rfl
    · rw [← add_assoc]; exact h1
    · rw [← add_assoc]; exact h2

end sol

variable {n : Nat}

/-- The blocks of a table `T` and the numbers read off it: `pr` marks the first index of a 2 × 2 block with eigenvalues
`re ± i im`, where `im` is above the tolerance. -/
structure Eig.Form (tol : ℝ) (n : Nat) (T : Nat → Nat → ℝ) (re im : Nat → ℝ) (pr : Nat → Prop) : Prop where
  pair : ∀ k, pr k → k + 1 < n ∧ ¬ pr (k + 1) ∧ tol < im k ∧ re (k + 1) = re k ∧ im (k + 1) = -im k ∧
    T k k + T (k + 1) (k + 1) = 2 * re k ∧
    T k k * T (k + 1) (k + 1) - T k (k + 1) * T (k + 1) k = re k ^ 2 + im k ^ 2
  single : ∀ k, k < n → ¬ pr k → (∀ l, pr l → k ≠ l + 1) → re k = T k k ∧ im k = 0

theorem Eig.compare_neg {x tol : ℝ} (ht : 0 ≤ tol) : compareTo x Flt.zero tol < 0 ↔ x < -tol := by
  unfold compareTo equalsWithError
  simp only [Exact.ulpEq_eq, Exact.le_eq, Exact.lt_eq, Exact.abs_eq, Exact.sub_eq, Exact.zero_eq, zero_sub, abs_neg,
    Bool.or_eq_true, decide_eq_true_eq]
  by_cases h1 : x = 0 ∨ |x| ≤ tol
  · rw [if_pos h1]
    have : |x| ≤ tol := by
      rcases h1 with rfl | h1
      · simpa using ht
      · exact h1
    obtain ⟨g1, g2⟩ := abs_le.1 this
    exact ⟨fun h => absurd h (lt_irrefl _), fun h => by linarith⟩
  · rw [if_neg h1]
    have hx : tol < |x| := not_le.1 fun h => h1 (.inr h)
    by_cases h2 : x < 0
    · rw [if_pos h2]
      rw [abs_of_neg h2] at hx
      exact ⟨fun _ => by linarith, fun _ => by norm_num⟩
    · rw [if_neg h2]
      rw [abs_of_nonneg (not_lt.1 h2)] at hx
      exact ⟨fun h => by norm_num at h, fun h => by linarith⟩

/-- Overflow control: the entries `i` to `idx` of the column are divided by one number that is not zero. -/
theorem Eig.guard1_ok (eps : ℝ) {i idx : Nat} (hi : i ≤ idx) (hx : idx < n) (t : Tab ℝ n n) :
    ∃ (t' : Tab ℝ n n) (s : ℝ), Eig.guard1 eps i idx t = .ok t' ∧ s ≠ 0 ∧
      (∀ a, i ≤ a → a ≤ idx → t'.f a idx = t.f a idx / s) ∧
      ∀ a j, ¬ (j = idx ∧ i ≤ a ∧ a ≤ idx) → t'.f a j = t.f a j := by
  unfold Eig.guard1
  rw [Tab.get_ok (by omega) hx, ok_bind]
  by_cases h : Flt.lt Flt.one (Flt.mul (Flt.mul eps (Flt.abs (t.f i idx))) (Flt.abs (t.f i idx))) = true
  · rw [if_pos h]
    obtain ⟨t', e, h1, h2⟩ := Tab.colLoop (a := i) (b := idx + 1) (j := idx) (ε := Fault)
      (fun _ x => Flt.div x (Flt.abs (t.f i idx))) (t := t)
      (body := fun j (t' : Tab ℝ n n) => do
        t'.set j idx (Flt.div (← t'.get j idx) (Flt.abs (t.f i idx)))) (fun a t' ha hb ht => by
        rw [Tab.get_ok (by omega) hx, ok_bind, Tab.set_ok (by omega) hx, ht a idx (by omega)])
    refine ⟨t', |t.f i idx|, e, ?_, fun a h3 h4 => ?_, fun a j hj => h2 a j (by omega)⟩
    · intro h0
      rw [Exact.abs_eq, h0] at h
      simp at h
      linarith
    · rw [h1 a h3 (by omega), Exact.div_eq, Exact.abs_eq]
  · rw [if_neg h]
    exact ⟨t, 1, rfl, one_ne_zero, fun a _ _ => by rw [div_one], fun _ _ _ => rfl⟩

theorem Eig.guard2_ok (eps : ℝ) {i idx : Nat} (h0 : 0 < idx) (hi : i ≤ idx) (hx : idx < n) (t : Tab ℝ n n) :
    ∃ (t' : Tab ℝ n n) (s : ℝ), Eig.guard2 eps i idx t = .ok t' ∧ s ≠ 0 ∧
      (∀ a, i ≤ a → a ≤ idx → t'.f a (idx - 1) = t.f a (idx - 1) / s ∧ t'.f a idx = t.f a idx / s) ∧
      ∀ a j, ¬ ((j = idx - 1 ∨ j = idx) ∧ i ≤ a ∧ a ≤ idx) → t'.f a j = t.f a j := by
  unfold Eig.guard2
  rw [Tab.get_ok (by omega) (by omega), ok_bind, Tab.get_ok (by omega) hx, ok_bind]
  generalize hs : Flt.fmax (Flt.abs (t.f i (idx - 1))) (Flt.abs (t.f i idx)) = s
  by_cases h : Flt.lt Flt.one (Flt.mul (Flt.mul eps s) s) = true
  · rw [if_pos h]
    have := Wp.exists_ok (wp_forUp (E := fun _ : Fault => False) (fun k (t' : Tab ℝ n n) =>
      (∀ a, i ≤ a → a < k → t'.f a (idx - 1) = t.f a (idx - 1) / s ∧ t'.f a idx = t.f a idx / s) ∧
      ∀ a j, ¬ ((j = idx - 1 ∨ j = idx) ∧ i ≤ a ∧ a < k) → t'.f a j = t.f a j) (show i ≤ idx + 1 by omega)
      (s := t) ⟨fun a _ _ => by omega, fun _ _ _ => rfl⟩
      (body := fun j (t : Tab ℝ n n) => do
        let t ← t.set j (idx - 1) (Flt.div (← t.get j (idx - 1)) s)
        t.set j idx (Flt.div (← t.get j idx) s)) (fun k t' h1 h2 hI => by
        rw [Tab.get_ok (by omega) (by omega), ok_bind, Tab.set_ok (by omega) (by omega), ok_bind,
          Tab.get_ok (by omega) hx, ok_bind, Tab.set_ok (by omega) hx, wp_ok]
        dsimp only
        refine ⟨fun a ha hb => ?_, fun a j hj => ?_⟩
        · simp only [upd2_eq, Exact.div_eq]
          by_cases hk : a = k
          · subst hk
            rw [if_neg (by omega), if_pos (by simp), if_pos (by simp), if_neg (by omega),
              hI.2 a (idx - 1) (by omega), hI.2 a idx (by omega)]
            exact ⟨rfl, rfl⟩
          · rw [if_neg (by omega), if_neg (by omega), if_neg (by omega), if_neg (by omega)]
            exact hI.1 a ha (by omega)
        · simp only [upd2_eq]
          rw [if_neg (by omega), if_neg (by omega)]
          exact hI.2 a j (by omega)))
    obtain ⟨t', e, h1, h2⟩ := this
    refine ⟨t', s, e, ?_, fun a h3 h4 => h1 a h3 (by omega), fun a j hj => h2 a j (by omega)⟩
    rintro rfl
    simp at h
    linarith
  · rw [if_neg h]
    exact ⟨t, 1, rfl, one_ne_zero, fun a _ _ => by rw [div_one, div_one]; exact ⟨rfl, rfl⟩, fun _ _ _ => rfl⟩

/-! ## A real vector -/

section real
variable {tol eps norm : ℝ} {T t0 : Nat → Nat → ℝ} {re im : Row ℝ n} {pr : Nat → Prop} [DecidablePred pr]

/-- The index belongs to no pair. -/
def Eig.Single (pr : Nat → Prop) (k : Nat) : Prop := ¬ pr k ∧ ∀ l, pr l → k ≠ l + 1

/-- The state before row `i - 1` of the real vector `idx`. -/
structure Eig.RealInv (n : Nat) (eps norm : ℝ) (T t0 : Nat → Nat → ℝ) (pr : Nat → Prop) [DecidablePred pr] (idx : Nat)
    (i : Nat) (b : Eig.Bk ℝ n) : Prop where
  frame : ∀ a j, a < n → j < idx → b.t.f a j = T a j
  top : ∀ a, a < b.l → b.t.f a idx = T a idx
  other : ∀ a j, a < n → idx < j → b.t.f a j = t0 a j
  le : b.l ≤ idx
  start : ∀ k, pr k → b.l ≠ k + 1
  state : b.l = i ∨ (b.l = i + 1 ∧ (∃ k, pr k ∧ i = k + 1) ∧ b.z = T i i - T idx idx ∧
    b.s = ∑ j ∈ Ico (i + 1) (idx + 1), T i j * b.t.f j idx)
  nz : b.t.f idx idx ≠ 0
  sol : ∃ d : Nat → ℝ, (∀ k, d k = 0 ∨ (d k = eps * norm ∧ k < idx ∧ T k k = T idx idx ∧ Eig.Single pr k)) ∧
    Eig.Sol (Eig.quasi pr T) (T idx idx) d (fun a => b.t.f a idx) b.l idx

theorem Eig.quasi_up {F : Type} [Zero F] {T : Nat → Nat → F} {i j : Nat} (h : i ≤ j) : Eig.quasi pr T i j = T i j :=
  if_pos (.inl h)

theorem Eig.quasi_pair {F : Type} [Zero F] {T : Nat → Nat → F} {j : Nat} (h : pr j) :
    Eig.quasi pr T (j + 1) j = T (j + 1) j := if_pos (.inr ⟨rfl, h⟩)

theorem Eig.quasi_zero {F : Type} [Zero F] {T : Nat → Nat → F} {i j : Nat} (h : j < i) (h' : ¬ (i = j + 1 ∧ pr j)) :
    Eig.quasi pr T i j = 0 := by
  unfold Eig.quasi
  exact if_neg (by rintro (h1 | h1); exacts [absurd h (by omega), h' h1])

theorem Eig.realStep_ok {κ : Eig.Lit ℝ} (hκ : 0 ≤ κ.epsEd) (hf : Eig.Form κ.epsEd n T re.f im.f pr)
    (hen : κ.eps * norm ≠ 0) {idx i : Nat} (hx : idx < n) (hi : i < idx) {b : Eig.Bk ℝ n}
    (h : Eig.RealInv n κ.eps norm T t0 pr idx (i + 1) b) :
    Wp (Eig.realStep κ norm re im idx (T idx idx) i b) (Eig.RealInv n κ.eps norm T t0 pr idx i) fun _ => False := by
  obtain ⟨d, hd, hsol⟩ := h.sol
  have hle := h.le
  have hl : i + 1 ≤ b.l := by
    rcases h.state with e | ⟨e, -⟩ <;> omega
  unfold Eig.realStep
  rw [Tab.get_ok (by omega) (by omega), ok_bind,
    sumUp_ok (fun j => Flt.mul (T i j) (b.t.f j idx)) (fun j h1 h2 => by
      rw [Tab.get_ok (by omega) (by omega), ok_bind, Tab.get_ok (by omega) hx, ok_bind]
      by_cases hj : j = idx
      · subst hj
        rw [h.top i (by omega)]; rfl
      · rw [h.frame i j (by omega) (by omega)]; rfl), ok_bind, lsum_exact, h.frame i i (by omega) hi]
  simp only [Exact.mul_eq, Exact.zero_eq, zero_add, Exact.sub_eq]
  unfold Eig.realCase
  rw [Row.get_ok (by omega), ok_bind]
  by_cases hneg : ∃ k, pr k ∧ i = k + 1
  · -- the second row of a pair
    obtain ⟨k, hk, rfl⟩ := hneg
    obtain ⟨g1, g2, g3, g4, g5, -⟩ := hf.pair k hk
    rw [if_pos ((Eig.compare_neg hκ).2 (by rw [g5]; linarith))]
    have hl' : b.l = k + 1 + 1 := by
      rcases h.state with e | ⟨e, ⟨k', hk', e'⟩, -⟩
      · exact e
      · obtain rfl : k' = k + 1 := by omega
        exact (g2 hk').elim
    refine ⟨h.frame, h.top, h.other, h.le, h.start, .inr ⟨hl', ⟨k, hk, rfl⟩, rfl, ?_⟩, h.nz, d, hd, hsol⟩
    dsimp only
    rw [hl']
  · have him : 0 ≤ im.f i := by
      by_cases hp : pr i
      · have := (hf.pair i hp).2.2.1
        linarith
      · rw [(hf.single i (by omega) hp fun l h1 h2 => hneg ⟨l, h1, h2⟩).2]
    rw [if_neg fun hc => by have := (Eig.compare_neg hκ).1 hc; linarith]
    by_cases hp : pr i
    · -- a pair
      obtain ⟨g1, g2, g3, g4, g5, g6, g7⟩ := hf.pair i hp
      have hst : b.l = i + 1 + 1 ∧ b.z = T (i + 1) (i + 1) - T idx idx ∧
          b.s = ∑ j ∈ Ico (i + 2) (idx + 1), T (i + 1) j * b.t.f j idx := by
        rcases h.state with e | ⟨e, -, e1, e2⟩
        · exact (h.start i hp e).elim
        · exact ⟨e, e1, e2⟩
      obtain ⟨hl1, hz, hs⟩ := hst
      have hi2 : i + 1 < idx := by omega
      rw [hl1]
      generalize hr : ∑ j ∈ Ico (i + 1 + 1) (idx + 1), T i j * b.t.f j idx = r
      have hq : 0 < (re.f i - T idx idx) * (re.f i - T idx idx) + im.f i * im.f i := by
        have : 0 < im.f i := lt_of_le_of_lt hκ g3
        nlinarith [mul_self_nonneg (re.f i - T idx idx)]
      have hset : ∃ t' : Tab ℝ n n, Eig.realSet κ norm re im idx i (T idx idx) (T i i - T idx idx) r b = .ok t' ∧
          (T i i - T idx idx) * t'.f i idx + T i (i + 1) * t'.f (i + 1) idx + r = 0 ∧
          T (i + 1) i * t'.f i idx + (T (i + 1) (i + 1) - T idx idx) * t'.f (i + 1) idx + b.s = 0 ∧
          ∀ a j, ¬ ((a = i ∨ a = i + 1) ∧ j = idx) → t'.f a j = b.t.f a j := by
        unfold Eig.realSet
        rw [Row.get_ok (by omega), ok_bind, if_neg (by
          simp only [Exact.ulpEq_eq, Exact.zero_eq, decide_eq_true_eq]
          linarith), Tab.get_ok (by omega) (by omega), ok_bind, Tab.get_ok (by omega) (by omega), ok_bind,
          Row.get_ok (by omega), ok_bind, Tab.set_ok (by omega) hx, ok_bind, Tab.get_ok (by omega) hx, ok_bind,
          h.frame _ _ (by omega) (by omega), h.frame _ _ (by omega) (by omega)]
        simp only [upd2_eq, and_self, if_true]
        simp only [Exact.mul_eq, Exact.sub_eq, Exact.div_eq, Exact.add_eq, Exact.abs_eq, Exact.lt_eq, Exact.neg_eq,
          decide_eq_true_eq]
        rw [hz]
        generalize hc : (T i (i + 1) * b.s - (T (i + 1) (i + 1) - T idx idx) * r) /
          ((re.f i - T idx idx) * (re.f i - T idx idx) + im.f i * im.f i) = c
        have hdet : (re.f i - T idx idx) * (re.f i - T idx idx) + im.f i * im.f i =
            (T i i - T idx idx) * (T (i + 1) (i + 1) - T idx idx) - T i (i + 1) * T (i + 1) i := by
          linear_combination (T idx idx) * g6 - g7
        rw [hdet] at hc hq
        have hc' := (div_eq_iff hq.ne').1 hc
        have key : ∀ v : ℝ, (∀ a j, ¬ ((a = i ∨ a = i + 1) ∧ j = idx) →
            (upd2 (upd2 b.t.f i idx c) (i + 1) idx v) a j = b.t.f a j) ∧
            (upd2 (upd2 b.t.f i idx c) (i + 1) idx v) i idx = c ∧
            (upd2 (upd2 b.t.f i idx c) (i + 1) idx v) (i + 1) idx = v := by
          intro v
          refine ⟨fun a j hj => ?_, ?_, ?_⟩
          · rw [upd2_eq, if_neg (by omega), upd2_eq, if_neg (by omega)]
          · rw [upd2_eq, if_neg (by omega), upd2_eq, if_pos ⟨rfl, rfl⟩]
          · rw [upd2_eq, if_pos ⟨rfl, rfl⟩]
        by_cases hlt : |T (i + 1) (i + 1) - T idx idx| < |T i (i + 1)|
        · rw [if_pos hlt, Tab.set_ok (by omega) hx]
          have hx0 : T i (i + 1) ≠ 0 := by
            intro h0
            rw [h0, abs_zero] at hlt
            exact absurd (abs_nonneg _) (not_le.2 hlt)
          obtain ⟨k1, k2, k3⟩ := key ((-r - (T i i - T idx idx) * c) / T i (i + 1))
          refine ⟨_, rfl, ?_, ?_, k1⟩
          · dsimp only
            rw [k2, k3]
            field_simp
            ring
          · dsimp only
            rw [k2, k3]
            field_simp
            linear_combination hc'
        · rw [if_neg hlt, Tab.set_ok (by omega) hx]
          have hz0 : T (i + 1) (i + 1) - T idx idx ≠ 0 := by
            intro h0
            rw [h0, abs_zero] at hlt
            have hx0 : T i (i + 1) = 0 := abs_eq_zero.1 (le_antisymm (not_lt.1 hlt) (abs_nonneg _))
            rw [h0, hx0] at hq
            simp at hq
          obtain ⟨k1, k2, k3⟩ := key ((-b.s - T (i + 1) i * c) / (T (i + 1) (i + 1) - T idx idx))
          refine ⟨_, rfl, ?_, ?_, k1⟩
          · dsimp only
            rw [k2, k3]
            field_simp
            linear_combination -hc'
          · dsimp only
            rw [k2, k3]
            field_simp
            ring
      obtain ⟨t', e, e1, e2, hfr⟩ := hset
      rw [e, ok_bind]
      obtain ⟨t'', s, e', hs0, hsc, hfr'⟩ := Eig.guard1_ok κ.eps (show i ≤ idx by omega) hx t'
      rw [e', ok_bind]
      have hsol' : Eig.Sol (Eig.quasi pr T) (T idx idx) (fun k => if k = i ∨ k = i + 1 then 0 else d k)
          (fun a => t'.f a idx) i idx := by
        rw [hl1] at hsol
        have hb : ∀ k, i + 1 + 1 ≤ k → t'.f k idx = b.t.f k idx := fun k hk => hfr k idx (by omega)
        refine Eig.Sol.two (hsol.congr (fun k hk _ => if_neg (by omega)) fun k hk _ => hb k hk) hi2
          (fun k hk _ => ⟨Eig.quasi_zero (by omega) (by omega), Eig.quasi_zero (by omega) (fun hc => g2 hc.2)⟩) ?_ ?_
        · have es : ∑ j ∈ Ico (i + 2) (idx + 1), Eig.quasi pr T i j * t'.f j idx = r := by
            rw [← hr]
            exact sum_congr rfl fun j hj => by
              have := mem_Ico.1 hj
              rw [Eig.quasi_up (by omega), hb j this.1]
          rw [es, Eig.quasi_up (le_refl _), Eig.quasi_up (by omega), if_pos (.inl rfl)]
          linear_combination e1
        · have es : ∑ j ∈ Ico (i + 2) (idx + 1), Eig.quasi pr T (i + 1) j * t'.f j idx = b.s := by
            rw [hs]
            exact sum_congr rfl fun j hj => by
              have := mem_Ico.1 hj
              rw [Eig.quasi_up (by omega), hb j this.1]
          rw [es, Eig.quasi_up (le_refl _), Eig.quasi_pair hp, if_pos (.inr rfl)]
          linear_combination e2
      refine ⟨fun a j ha hj => ?_, fun a ha => ?_, fun a j ha hj => ?_, by dsimp only; omega, fun k hk hc => ?_,
        .inl rfl, ?_, _, fun k => ?_, hsol'.scale s fun k h1 h2 => hsc k h1 h2⟩
      · dsimp only
        rw [hfr' a j (by omega), hfr a j (by omega)]
        exact h.frame a j ha hj
      · dsimp only at ha ⊢
        rw [hfr' a idx (by omega), hfr a idx (by omega)]
        exact h.top a (by omega)
      · dsimp only
        rw [hfr' a j (by omega), hfr a j (by omega)]
        exact h.other a j ha hj
      · exact hneg ⟨k, hk, hc⟩
      · dsimp only
        rw [hsc idx (by omega) (le_refl _), hfr idx idx (by omega)]
        exact div_ne_zero h.nz hs0
      · by_cases hk : k = i ∨ k = i + 1
        · rw [if_pos hk]; exact .inl rfl
        · rw [if_neg hk]; exact hd k
    · -- a single row
      have hsg : Eig.Single pr i := ⟨hp, fun l h1 h2 => hneg ⟨l, h1, h2⟩⟩
      obtain ⟨g1, g2⟩ := hf.single i (by omega) hsg.1 hsg.2
      have hl1 : b.l = i + 1 := by
        rcases h.state with e | ⟨e, ⟨k, hk, e'⟩, -⟩
        · exact e
        · obtain rfl : k = i := by omega
          exact (hp hk).elim
      rw [hl1]
      generalize hr : ∑ j ∈ Ico (i + 1) (idx + 1), T i j * b.t.f j idx = r
      have hset : ∃ (t' : Tab ℝ n n) (di : ℝ),
          Eig.realSet κ norm re im idx i (T idx idx) (T i i - T idx idx) r b = .ok t' ∧
          (di = 0 ∨ (di = κ.eps * norm ∧ T i i = T idx idx)) ∧
          (T i i - T idx idx) * t'.f i idx + r + di * t'.f i idx = 0 ∧
          ∀ a j, ¬ (a = i ∧ j = idx) → t'.f a j = b.t.f a j := by
        unfold Eig.realSet
        rw [Row.get_ok (by omega), ok_bind, if_pos (by
          simp only [Exact.ulpEq_eq, Exact.zero_eq, decide_eq_true_eq]
          exact g2)]
        simp only [Exact.eq_eq, Exact.zero_eq, Exact.div_eq, Exact.neg_eq, Exact.mul_eq, Bool.not_eq_true',
          decide_eq_false_iff_not]
        by_cases hw : T i i - T idx idx = 0
        · rw [if_neg (by simpa using hw), Tab.set_ok (by omega) hx]
          refine ⟨_, κ.eps * norm, rfl, .inr ⟨rfl, by linarith⟩, ?_, fun a j hj => ?_⟩
          · dsimp only
            rw [upd2_eq, if_pos ⟨rfl, rfl⟩, hw, mul_div_cancel₀ _ hen]
            ring
          · dsimp only
            rw [upd2_eq, if_neg hj]
        · rw [if_pos hw, Tab.set_ok (by omega) hx]
          refine ⟨_, 0, rfl, .inl rfl, ?_, fun a j hj => ?_⟩
          · dsimp only
            rw [upd2_eq, if_pos ⟨rfl, rfl⟩]
            field_simp
            ring
          · dsimp only
            rw [upd2_eq, if_neg hj]
      obtain ⟨t', di, e, hdi, e1, hfr⟩ := hset
      rw [e, ok_bind]
      obtain ⟨t'', s, e', hs0, hsc, hfr'⟩ := Eig.guard1_ok κ.eps (show i ≤ idx by omega) hx t'
      rw [e', ok_bind]
      have hsol' : Eig.Sol (Eig.quasi pr T) (T idx idx) (fun k => if k = i then di else d k)
          (fun a => t'.f a idx) i idx := by
        rw [hl1] at hsol
        have hb : ∀ k, i + 1 ≤ k → t'.f k idx = b.t.f k idx := fun k hk => hfr k idx (by omega)
        refine Eig.Sol.one (hsol.congr (fun k hk _ => if_neg (by omega)) fun k hk _ => hb k hk) hi
          (fun k hk _ => Eig.quasi_zero (by omega) (fun hc => hp hc.2)) ?_
        have es : ∑ j ∈ Ico (i + 1) (idx + 1), Eig.quasi pr T i j * t'.f j idx = r := by
          rw [← hr]
          exact sum_congr rfl fun j hj => by
            have := mem_Ico.1 hj
            rw [Eig.quasi_up (by omega), hb j this.1]
        rw [es, Eig.quasi_up (le_refl _), if_pos rfl]
        linear_combination e1
      refine ⟨fun a j ha hj => ?_, fun a ha => ?_, fun a j ha hj => ?_, by dsimp only; omega, fun k hk hc => ?_,
        .inl rfl, ?_, _, fun k => ?_, hsol'.scale s fun k h1 h2 => hsc k h1 h2⟩
      · dsimp only
        rw [hfr' a j (by omega), hfr a j (by omega)]
        exact h.frame a j ha hj
      · dsimp only at ha ⊢
        rw [hfr' a idx (by omega), hfr a idx (by omega)]
        exact h.top a (by omega)
      · dsimp only
        rw [hfr' a j (by omega), hfr a j (by omega)]
        exact h.other a j ha hj
      · exact hneg ⟨k, hk, hc⟩
      · dsimp only
        rw [hsc idx (by omega) (le_refl _), hfr idx idx (by omega)]
        exact div_ne_zero h.nz hs0
      · by_cases hk : k = i
        · rw [if_pos hk]
          subst hk
          rcases hdi with h0 | ⟨h0, h1⟩
          · exact .inl h0
          · exact .inr ⟨h0, hi, h1, hsg⟩
        · rw [if_neg hk]; exact hd k

/-- The column of a real eigenvalue, when it is done. -/
structure Eig.RealOut (eps norm : ℝ) (T : Nat → Nat → ℝ) (pr : Nat → Prop) [DecidablePred pr] (idx : Nat)
    (t : Nat → Nat → ℝ) : Prop where
  nz : t idx idx ≠ 0
  sol : ∃ d : Nat → ℝ, (∀ k, d k = 0 ∨ (d k = eps * norm ∧ k < idx ∧ T k k = T idx idx ∧ Eig.Single pr k)) ∧
    Eig.Sol (Eig.quasi pr T) (T idx idx) d (fun a => t a idx) 0 idx

theorem Eig.realVec_ok {κ : Eig.Lit ℝ} (hκ : 0 ≤ κ.epsEd) (hf : Eig.Form κ.epsEd n T re.f im.f pr)
    (hen : κ.eps * norm ≠ 0) {idx : Nat} (hx : idx < n) (hs : Eig.Single pr idx) {b : Eig.Bk ℝ n}
    (hb : ∀ a j, a < n → j ≤ idx → b.t.f a j = T a j) :
    Wp (Eig.realVec κ norm re im idx (re.f idx) b) (fun b' => Eig.RealOut κ.eps norm T pr idx b'.t.f ∧
      ∀ a j, a < n → j ≠ idx → b'.t.f a j = b.t.f a j) fun _ => False := by
  rw [(hf.single idx hx hs.1 hs.2).1]
  unfold Eig.realVec
  rw [Tab.set_ok hx hx, ok_bind]
  refine (wp_forDown (Eig.RealInv n κ.eps norm T b.t.f pr idx) (Nat.zero_le _) ?_ fun i s _ hi h =>
    Eig.realStep_ok hκ hf hen hx hi h).imp fun b' h => ⟨⟨h.nz, ?_⟩, fun a j ha hj => ?_⟩
  · refine ⟨fun a j ha hj => ?_, fun a ha => ?_, fun a j ha hj => ?_, le_refl _, hs.2, .inl rfl, ?_, fun _ => 0,
      fun _ => .inl rfl, fun k h1 h2 => ?_⟩
    · dsimp only
      rw [upd2_eq, if_neg (by omega)]
      exact hb a j ha (by omega)
    · dsimp only at ha ⊢
      rw [upd2_eq, if_neg (by omega)]
      exact hb a idx (by omega) (le_refl _)
    · dsimp only
      rw [upd2_eq, if_neg (by omega)]
    · dsimp only
      rw [upd2_eq, if_pos ⟨rfl, rfl⟩, Exact.one_eq]
      exact one_ne_zero
    · dsimp only at h1
      obtain rfl : k = idx := by omega
      simp [Eig.quasi_up (pr := pr) (T := T) (le_refl k)]
  · obtain ⟨d, h1, h2⟩ := h.sol
    have hl : b'.l = 0 := by
      rcases h.state with e | ⟨-, ⟨k, -, e⟩, -⟩
      · exact e
      · omega
    rw [hl] at h2
    exact ⟨d, h1, h2⟩
  · rcases Nat.lt_or_ge idx j with h1 | h1
    · exact h.other a j ha h1
    · rw [h.frame a j ha (by omega), hb a j ha h1]

end real

/-! ## A complex vector -/

section cplx
variable {tol eps norm : ℝ} {T t0 : Nat → Nat → ℝ} {re im : Row ℝ n} {pr : Nat → Prop} [DecidablePred pr]

/-- Row `a` of two columns as a complex number. -/
noncomputable def Eig.cx (t : Nat → Nat → ℝ) (idx a : Nat) : ℂ := t a (idx - 1) + t a idx * Complex.I

/-- Exact complex division. -/
def Eig.ExactDiv (cdiv : ℝ × ℝ → ℝ × ℝ → ℝ × ℝ) : Prop :=
  ∀ x y : ℝ × ℝ, (y.1 : ℂ) + y.2 * Complex.I ≠ 0 →
    (((cdiv x y).1 : ℂ) + (cdiv x y).2 * Complex.I) * (y.1 + y.2 * Complex.I) = x.1 + x.2 * Complex.I

/-- `T` with complex entries. -/
noncomputable def Eig.cT (T : Nat → Nat → ℝ) (i j : Nat) : ℂ := T i j

theorem Eig.cx_ne {x y : ℝ} (h : y ≠ 0) : (x : ℂ) + y * Complex.I ≠ 0 := by
  intro h0
  have := congrArg Complex.im h0
  simp at this
  exact h this

/-- The state before row `i - 1` of the complex vector of the pair `idx - 1`, `idx`. -/
structure Eig.CplxInv (n : Nat) (T t0 : Nat → Nat → ℝ) (pr : Nat → Prop) [DecidablePred pr] (p q : ℝ) (idx : Nat)
    (i : Nat) (b : Eig.Bk ℝ n) : Prop where
  frame : ∀ a j, a < n → j + 1 < idx → b.t.f a j = T a j
  top : ∀ a, a < b.l → b.t.f a (idx - 1) = T a (idx - 1) ∧ b.t.f a idx = T a idx
  other : ∀ a j, a < n → idx < j → b.t.f a j = t0 a j
  le : b.l < idx
  start : ∀ k, pr k → b.l ≠ k + 1
  state : b.l = i ∨ (b.l = i + 1 ∧ (∃ k, pr k ∧ i = k + 1) ∧ b.z = T i i - p ∧
    (b.r : ℂ) + b.s * Complex.I = ∑ j ∈ Ico (i + 1) (idx + 1), Eig.cT T i j * Eig.cx b.t.f idx j)
  zero : b.t.f idx (idx - 1) = 0
  nz : b.t.f idx idx ≠ 0
  sol : Eig.Sol (Eig.quasi pr (Eig.cT T)) (p - q * Complex.I) (fun _ => 0) (Eig.cx b.t.f idx) b.l idx

theorem Eig.put2_ok {i idx : Nat} (hi : i < n) (h0 : 0 < idx) (hx : idx < n) (c : ℝ × ℝ) (t : Tab ℝ n n) :
    ∃ t' : Tab ℝ n n, Eig.put2 i idx c t = .ok t' ∧ Eig.cx t'.f idx i = c.1 + c.2 * Complex.I ∧
      t'.f i (idx - 1) = c.1 ∧ t'.f i idx = c.2 ∧
      ∀ a j, ¬ (a = i ∧ (j = idx - 1 ∨ j = idx)) → t'.f a j = t.f a j := by
  unfold Eig.put2
  rw [Tab.set_ok hi (by omega), ok_bind, Tab.set_ok hi hx]
  have e1 : upd2 (upd2 t.f i (idx - 1) c.1) i idx c.2 i (idx - 1) = c.1 := by
    rw [upd2_eq, if_neg (by omega), upd2_eq, if_pos ⟨rfl, rfl⟩]
  have e2 : upd2 (upd2 t.f i (idx - 1) c.1) i idx c.2 i idx = c.2 := by
    rw [upd2_eq, if_pos ⟨rfl, rfl⟩]
  refine ⟨_, rfl, ?_, e1, e2, fun a j hj => ?_⟩
  · unfold Eig.cx
    dsimp only
    rw [e1, e2]
  · dsimp only
    rw [upd2_eq, if_neg (by omega), upd2_eq, if_neg (by omega)]

theorem Eig.cx_congr {t t' : Nat → Nat → ℝ} {idx a : Nat} (h1 : t' a (idx - 1) = t a (idx - 1))
    (h2 : t' a idx = t a idx) : Eig.cx t' idx a = Eig.cx t idx a := by
  unfold Eig.cx
  rw [h1, h2]

theorem Eig.cplxStep_ok {κ : Eig.Lit ℝ} (hκ : 0 ≤ κ.epsEd) (hf : Eig.Form κ.epsEd n T re.f im.f pr)
    (hdiv : Eig.ExactDiv κ.cdiv) {p q : ℝ} (hq : q < 0) {idx i : Nat} (hx : idx < n) (hi : i + 1 < idx)
    (hpq : ∀ l, pr l → l + 1 < idx → ¬ (re.f l = p ∧ im.f l = -q)) {b : Eig.Bk ℝ n}
    (h : Eig.CplxInv n T t0 pr p q idx (i + 1) b) :
    Wp (Eig.cplxStep κ norm re im idx p q i b) (Eig.CplxInv n T t0 pr p q idx i) fun _ => False := by
  have hsol := h.sol
  have hle := h.le
  have hl : i + 1 ≤ b.l := by
    rcases h.state with e | ⟨e, -⟩ <;> omega
  have hrow : ∀ j, b.l ≤ j → j < idx + 1 → b.t.f i j = T i j := by
    intro j h1 h2
    by_cases hj : j = idx
    · subst hj
      exact (h.top i (by omega)).2
    · by_cases hj' : j = idx - 1
      · subst hj'
        exact (h.top i (by omega)).1
      · exact h.frame i j (by omega) (by omega)
  unfold Eig.cplxStep
  rw [sumUp_ok (fun j => Flt.mul (T i j) (b.t.f j (idx - 1))) (fun j h1 h2 => by
      rw [Tab.get_ok (by omega) (by omega), ok_bind, Tab.get_ok (by omega) (by omega), ok_bind, hrow j h1 h2]
      rfl), ok_bind,
    sumUp_ok (fun j => Flt.mul (T i j) (b.t.f j idx)) (fun j h1 h2 => by
      rw [Tab.get_ok (by omega) (by omega), ok_bind, Tab.get_ok (by omega) hx, ok_bind, hrow j h1 h2]
      rfl), ok_bind, Tab.get_ok (by omega) (by omega), ok_bind, lsum_exact, lsum_exact, h.frame i i (by omega) hi]
  simp only [Exact.mul_eq, Exact.zero_eq, zero_add, Exact.sub_eq]
  generalize hra : ∑ j ∈ Ico b.l (idx + 1), T i j * b.t.f j (idx - 1) = ra
  generalize hsa : ∑ j ∈ Ico b.l (idx + 1), T i j * b.t.f j idx = sa
  have hrs : (ra : ℂ) + sa * Complex.I = ∑ j ∈ Ico b.l (idx + 1), Eig.cT T i j * Eig.cx b.t.f idx j := by
    rw [← hra, ← hsa]
    push_cast
    rw [sum_mul, ← sum_add_distrib]
    exact sum_congr rfl fun j _ => by
      unfold Eig.cT Eig.cx
      ring
  unfold Eig.cplxCase
  rw [Row.get_ok (by omega), ok_bind]
  by_cases hneg : ∃ k, pr k ∧ i = k + 1
  · -- the second row of a pair
    obtain ⟨k, hk, rfl⟩ := hneg
    obtain ⟨g1, g2, g3, g4, g5, -⟩ := hf.pair k hk
    rw [if_pos ((Eig.compare_neg hκ).2 (by rw [g5]; linarith))]
    have hl' : b.l = k + 1 + 1 := by
      rcases h.state with e | ⟨e, ⟨k', hk', e'⟩, -⟩
      · exact e
      · obtain rfl : k' = k + 1 := by omega
        exact (g2 hk').elim
    refine ⟨h.frame, h.top, h.other, h.le, h.start, .inr ⟨hl', ⟨k, hk, rfl⟩, rfl, ?_⟩, h.zero, h.nz, hsol⟩
    dsimp only
    rw [hrs, hl']
  · have him : 0 ≤ im.f i := by
      by_cases hp : pr i
      · have := (hf.pair i hp).2.2.1
        linarith
      · rw [(hf.single i (by omega) hp fun l h1 h2 => hneg ⟨l, h1, h2⟩).2]
    rw [if_neg fun hc => by have := (Eig.compare_neg hκ).1 hc; linarith]
    -- what is left to do once the rows are set
    have fin : ∀ t' : Tab ℝ n n,
        (∀ a j, ¬ (i ≤ a ∧ a < b.l ∧ (j = idx - 1 ∨ j = idx)) → t'.f a j = b.t.f a j) →
        Eig.Sol (Eig.quasi pr (Eig.cT T)) (p - q * Complex.I) (fun _ => 0) (Eig.cx t'.f idx) i idx →
        Wp (Eig.guard2 κ.eps i idx t' >>= fun t => (pure ⟨t, b.r, b.s, b.z, i⟩ : Res (Eig.Bk ℝ n)))
          (Eig.CplxInv n T t0 pr p q idx i) fun _ => False := by
      intro t' hfr hs'
      obtain ⟨t'', s, e', hs0, hsc, hfr'⟩ := Eig.guard2_ok κ.eps (show 0 < idx by omega) (show i ≤ idx by omega) hx t'
      rw [e', ok_bind]
      refine ⟨fun a j ha hj => ?_, fun a ha => ?_, fun a j ha hj => ?_, by dsimp only; omega, fun k hk hc => ?_,
        .inl rfl, ?_, ?_, hs'.scale (s : ℂ) fun k h1 h2 => ?_⟩
      · dsimp only
        rw [hfr' a j (by omega), hfr a j (by omega)]
        exact h.frame a j ha hj
      · dsimp only at ha ⊢
        rw [hfr' a idx (by omega), hfr a idx (by omega), hfr' a (idx - 1) (by omega), hfr a (idx - 1) (by omega)]
        exact h.top a (by omega)
      · dsimp only
        rw [hfr' a j (by omega), hfr a j (by omega)]
        exact h.other a j ha hj
      · exact hneg ⟨k, hk, hc⟩
      · dsimp only
        rw [(hsc idx (by omega) (le_refl _)).1, hfr idx (idx - 1) (by omega), h.zero, zero_div]
      · dsimp only
        rw [(hsc idx (by omega) (le_refl _)).2, hfr idx idx (by omega)]
        exact div_ne_zero h.nz hs0
      · unfold Eig.cx
        dsimp only
        rw [(hsc k h1 h2).1, (hsc k h1 h2).2]
        push_cast
        ring
    by_cases hp : pr i
    · -- a pair
      obtain ⟨g1, g2, g3, g4, g5, g6, g7⟩ := hf.pair i hp
      have hst : b.l = i + 1 + 1 ∧ b.z = T (i + 1) (i + 1) - p ∧
          (b.r : ℂ) + b.s * Complex.I = ∑ j ∈ Ico (i + 2) (idx + 1), Eig.cT T (i + 1) j * Eig.cx b.t.f idx j := by
        rcases h.state with e | ⟨e, -, e1, e2⟩
        · exact (h.start i hp e).elim
        · exact ⟨e, e1, e2⟩
      obtain ⟨hl1, hz, hs⟩ := hst
      rw [hl1] at hrs
      have hi2 : i + 2 < idx := by omega
      have himi : 0 < im.f i := lt_of_le_of_lt hκ g3
      -- the determinant
      have hvr : ¬ ((re.f i - p) * (re.f i - p) + im.f i * im.f i - q * q = 0 ∧ (re.f i - p) * 2 * q = 0) := by
        rintro ⟨h1, h2⟩
        have h3 : re.f i - p = 0 := by
          rcases mul_eq_zero.1 h2 with h3 | h3
          · linarith
          · exact absurd h3 hq.ne
        refine hpq i hp (by omega) ⟨by linarith, ?_⟩
        rw [h3] at h1
        have h4 : (im.f i + q) * (im.f i - q) = 0 := by linear_combination h1
        rcases mul_eq_zero.1 h4 with h5 | h5 <;> linarith
      have hset : ∃ t' : Tab ℝ n n, Eig.cplxSet κ norm re im idx i p q (T i i - p) ra sa b = .ok t' ∧
          ((T i i - p : ℝ) + q * Complex.I) * Eig.cx t'.f idx i + T i (i + 1) * Eig.cx t'.f idx (i + 1) +
            (ra + sa * Complex.I) = 0 ∧
          T (i + 1) i * Eig.cx t'.f idx i + ((T (i + 1) (i + 1) - p : ℝ) + q * Complex.I) * Eig.cx t'.f idx (i + 1) +
            (b.r + b.s * Complex.I) = 0 ∧
          ∀ a j, ¬ (i ≤ a ∧ a < b.l ∧ (j = idx - 1 ∨ j = idx)) → t'.f a j = b.t.f a j := by
        unfold Eig.cplxSet
        rw [Row.get_ok (by omega), ok_bind, if_neg (by
          simp only [Exact.ulpEq_eq, Exact.zero_eq, decide_eq_true_eq]
          linarith), Tab.get_ok (by omega) (by omega), ok_bind, Tab.get_ok (by omega) (by omega), ok_bind,
          Row.get_ok (by omega), ok_bind, h.frame _ _ (by omega) (by omega), h.frame _ _ (by omega) (by omega)]
        have evr : Eig.vr κ.eps norm (T i i - p) q (T i (i + 1)) (T (i + 1) i) b.z (re.f i) (im.f i) p =
            (re.f i - p) * (re.f i - p) + im.f i * im.f i - q * q := by
          unfold Eig.vr
          rw [if_neg (by
            simp only [Exact.ulpEq_eq, Exact.zero_eq, Exact.add_eq, Exact.mul_eq, Exact.sub_eq, Exact.two_eq,
              Bool.and_eq_true, decide_eq_true_eq]
            exact hvr)]
          simp only [Exact.add_eq, Exact.mul_eq, Exact.sub_eq]
        rw [evr]
        simp only [Exact.mul_eq, Exact.sub_eq, Exact.add_eq, Exact.two_eq, hz]
        obtain ⟨t1, e1, c1, c2, c3, c4⟩ := Eig.put2_ok (i := i) (by omega) (show 0 < idx by omega) hx
          (κ.cdiv (T i (i + 1) * b.r - (T (i + 1) (i + 1) - p) * ra + q * sa,
            T i (i + 1) * b.s - (T (i + 1) (i + 1) - p) * sa - q * ra)
            ((re.f i - p) * (re.f i - p) + im.f i * im.f i - q * q, (re.f i - p) * 2 * q)) b.t
        rw [e1, ok_bind, Tab.get_ok (by omega) (by omega), ok_bind, Tab.get_ok (by omega) hx, ok_bind]
        have hd0 : (((re.f i - p) * (re.f i - p) + im.f i * im.f i - q * q : ℝ) : ℂ) +
            ((re.f i - p) * 2 * q : ℝ) * Complex.I ≠ 0 := by
          intro h0
          have h1 := congrArg Complex.re h0
          have h2 := congrArg Complex.im h0
          rw [Complex.add_re, Complex.re_ofReal_mul, Complex.ofReal_re, Complex.I_re, mul_zero, add_zero,
            Complex.zero_re] at h1
          rw [Complex.add_im, Complex.im_ofReal_mul, Complex.ofReal_im, Complex.I_im, mul_one, zero_add,
            Complex.zero_im] at h2
          exact hvr ⟨h1, h2⟩
        have hcd := hdiv (T i (i + 1) * b.r - (T (i + 1) (i + 1) - p) * ra + q * sa,
            T i (i + 1) * b.s - (T (i + 1) (i + 1) - p) * sa - q * ra)
            ((re.f i - p) * (re.f i - p) + im.f i * im.f i - q * q, (re.f i - p) * 2 * q) hd0
        rw [← c1] at hcd
        generalize hC : Eig.cx t1.f idx i = C at hcd
        have g6' : (T i i : ℂ) + T (i + 1) (i + 1) = 2 * re.f i := by exact_mod_cast congrArg Complex.ofReal g6
        have g7' : (T i i : ℂ) * T (i + 1) (i + 1) - T i (i + 1) * T (i + 1) i = re.f i ^ 2 + im.f i ^ 2 := by
          exact_mod_cast congrArg Complex.ofReal g7
        have hI : Complex.I * Complex.I = -1 := Complex.I_mul_I
        -- the equation for the first of the two numbers
        have hC' : C * (((T i i - p : ℝ) + q * Complex.I) * ((T (i + 1) (i + 1) - p : ℝ) + q * Complex.I) -
              T i (i + 1) * T (i + 1) i) =
            T i (i + 1) * (b.r + b.s * Complex.I) -
              ((T (i + 1) (i + 1) - p : ℝ) + q * Complex.I) * (ra + sa * Complex.I) := by
          push_cast at hcd ⊢
          linear_combination hcd + C * (g7' + (q * Complex.I - p) * g6') + (C * q ^ 2 + q * sa) * hI
        by_cases hlt : Flt.lt (Flt.abs (T (i + 1) (i + 1) - p) + Flt.abs q) (Flt.abs (T i (i + 1))) = true
        · have hx0 : T i (i + 1) ≠ 0 := by
            intro h0
            simp only [Exact.lt_eq, Exact.add_eq, Exact.abs_eq, decide_eq_true_eq, h0, abs_zero] at hlt
            linarith [abs_nonneg (T (i + 1) (i + 1) - p), abs_nonneg q]
          have hx0' : (T i (i + 1) : ℂ) ≠ 0 := Complex.ofReal_ne_zero.2 hx0
          rw [if_pos hlt]
          obtain ⟨t2, e2, d1, d2, d3, d4⟩ := Eig.put2_ok (i := i + 1) (by omega) (show 0 < idx by omega) hx
            (Flt.div (Flt.neg ra - (T i i - p) * t1.f i (idx - 1) + q * t1.f i idx) (T i (i + 1)),
             Flt.div (Flt.neg sa - (T i i - p) * t1.f i idx - q * t1.f i (idx - 1)) (T i (i + 1))) t1
          have f1 : Eig.cx t2.f idx i = C := by
            rw [← hC]
            exact Eig.cx_congr (d4 _ _ (by omega)) (d4 _ _ (by omega))
          have f2 : T i (i + 1) * Eig.cx t2.f idx (i + 1) =
              -(ra + sa * Complex.I) - ((T i i - p : ℝ) + q * Complex.I) * C := by
            rw [d1, ← hC]
            unfold Eig.cx
            simp only [Exact.div_eq, Exact.neg_eq]
            push_cast
            field_simp
            linear_combination (q * t1.f i idx : ℂ) * hI
          refine ⟨t2, e2, ?_, ?_, fun a j hj => ?_⟩
          · rw [f1]
            linear_combination f2
          · have : (T i (i + 1) : ℂ) * (T (i + 1) i * Eig.cx t2.f idx i + ((T (i + 1) (i + 1) - p : ℝ) + q * Complex.I) *
                Eig.cx t2.f idx (i + 1) + (b.r + b.s * Complex.I)) = 0 := by
              rw [f1]
              linear_combination ((T (i + 1) (i + 1) - p : ℝ) + q * Complex.I) * f2 - hC'
            exact (mul_eq_zero.1 this).resolve_left hx0'
          · rw [d4 a j (by omega), c4 a j (by omega)]
        · rw [if_neg hlt]
          have hzq := Eig.cx_ne (x := T (i + 1) (i + 1) - p) hq.ne
          obtain ⟨t2, e2, d1, d2, d3, d4⟩ := Eig.put2_ok (i := i + 1) (by omega) (show 0 < idx by omega) hx
            (κ.cdiv (Flt.neg b.r - T (i + 1) i * t1.f i (idx - 1), Flt.neg b.s - T (i + 1) i * t1.f i idx)
              (T (i + 1) (i + 1) - p, q)) t1
          have f1 : Eig.cx t2.f idx i = C := by
            rw [← hC]
            exact Eig.cx_congr (d4 _ _ (by omega)) (d4 _ _ (by omega))
          have f2 : ((T (i + 1) (i + 1) - p : ℝ) + q * Complex.I) * Eig.cx t2.f idx (i + 1) =
              -(b.r + b.s * Complex.I) - T (i + 1) i * C := by
            have := hdiv (Flt.neg b.r - T (i + 1) i * t1.f i (idx - 1), Flt.neg b.s - T (i + 1) i * t1.f i idx)
              (T (i + 1) (i + 1) - p, q) hzq
            rw [← d1] at this
            rw [mul_comm, this, ← hC]
            unfold Eig.cx
            simp only [Exact.neg_eq]
            push_cast
            ring
          refine ⟨t2, e2, ?_, ?_, fun a j hj => ?_⟩
          · have : ((T (i + 1) (i + 1) - p : ℝ) + q * Complex.I) * (((T i i - p : ℝ) + q * Complex.I) *
                Eig.cx t2.f idx i + T i (i + 1) * Eig.cx t2.f idx (i + 1) + (ra + sa * Complex.I)) = 0 := by
              rw [f1]
              linear_combination (T i (i + 1) : ℂ) * f2 + hC'
            exact (mul_eq_zero.1 this).resolve_left hzq
          · rw [f1]
            linear_combination f2
          · rw [d4 a j (by omega), c4 a j (by omega)]
      obtain ⟨t', e, e1, e2, hfr⟩ := hset
      rw [e, ok_bind]
      refine fin t' hfr ?_
      rw [hl1] at hsol
      have hb : ∀ k, i + 1 + 1 ≤ k → Eig.cx t'.f idx k = Eig.cx b.t.f idx k := fun k hk =>
        Eig.cx_congr (hfr _ _ (by omega)) (hfr _ _ (by omega))
      refine Eig.Sol.two (hsol.congr (fun k hk _ => rfl) fun k hk _ => hb k hk) (by omega)
        (fun k hk _ => ⟨Eig.quasi_zero (by omega) (by omega), Eig.quasi_zero (by omega) (fun hc => g2 hc.2)⟩) ?_ ?_
      · have es : ∑ j ∈ Ico (i + 2) (idx + 1), Eig.quasi pr (Eig.cT T) i j * Eig.cx t'.f idx j =
            ra + sa * Complex.I := by
          rw [hrs]
          exact sum_congr rfl fun j hj => by
            have := mem_Ico.1 hj
            rw [Eig.quasi_up (by omega), hb j this.1]
        rw [es, Eig.quasi_up (le_refl _), Eig.quasi_up (by omega)]
        unfold Eig.cT
        push_cast at e1
        linear_combination e1
      · have es : ∑ j ∈ Ico (i + 2) (idx + 1), Eig.quasi pr (Eig.cT T) (i + 1) j * Eig.cx t'.f idx j =
            b.r + b.s * Complex.I := by
          rw [hs]
          exact sum_congr rfl fun j hj => by
            have := mem_Ico.1 hj
            rw [Eig.quasi_up (by omega), hb j this.1]
        rw [es, Eig.quasi_up (le_refl _), Eig.quasi_pair hp]
        unfold Eig.cT
        push_cast at e2
        linear_combination e2
    · -- a single row
      have hsg : Eig.Single pr i := ⟨hp, fun l h1 h2 => hneg ⟨l, h1, h2⟩⟩
      obtain ⟨g1, g2⟩ := hf.single i (by omega) hsg.1 hsg.2
      have hl1 : b.l = i + 1 := by
        rcases h.state with e | ⟨e, ⟨k, hk, e'⟩, -⟩
        · exact e
        · obtain rfl : k = i := by omega
          exact (hp hk).elim
      rw [hl1] at hrs
      have hset : ∃ t' : Tab ℝ n n, Eig.cplxSet κ norm re im idx i p q (T i i - p) ra sa b = .ok t' ∧
          ((T i i - p : ℝ) + q * Complex.I) * Eig.cx t'.f idx i + (ra + sa * Complex.I) = 0 ∧
          ∀ a j, ¬ (i ≤ a ∧ a < b.l ∧ (j = idx - 1 ∨ j = idx)) → t'.f a j = b.t.f a j := by
        unfold Eig.cplxSet
        rw [Row.get_ok (by omega), ok_bind, if_pos (by
          simp only [Exact.ulpEq_eq, Exact.zero_eq, decide_eq_true_eq]
          exact g2)]
        obtain ⟨t1, e1, c1, c2, c3, c4⟩ := Eig.put2_ok (i := i) (by omega) (show 0 < idx by omega) hx
          (κ.cdiv (Flt.neg ra, Flt.neg sa) (T i i - p, q)) b.t
        have := hdiv (Flt.neg ra, Flt.neg sa) (T i i - p, q) (Eig.cx_ne hq.ne)
        rw [← c1] at this
        refine ⟨t1, e1, ?_, fun a j hj => c4 a j (by omega)⟩
        simp only [Exact.neg_eq] at this
        push_cast at this ⊢
        linear_combination this
      obtain ⟨t', e, e1, hfr⟩ := hset
      rw [e, ok_bind]
      refine fin t' hfr ?_
      rw [hl1] at hsol
      have hb : ∀ k, i + 1 ≤ k → Eig.cx t'.f idx k = Eig.cx b.t.f idx k := fun k hk =>
        Eig.cx_congr (hfr _ _ (by omega)) (hfr _ _ (by omega))
      refine Eig.Sol.one (hsol.congr (fun k hk _ => rfl) fun k hk _ => hb k hk) (by omega)
        (fun k hk _ => Eig.quasi_zero (by omega) (fun hc => hp hc.2)) ?_
      have es : ∑ j ∈ Ico (i + 1) (idx + 1), Eig.quasi pr (Eig.cT T) i j * Eig.cx t'.f idx j =
          ra + sa * Complex.I := by
        rw [hrs]
        exact sum_congr rfl fun j hj => by
          have := mem_Ico.1 hj
          rw [Eig.quasi_up (by omega), hb j this.1]
      rw [es, Eig.quasi_up (le_refl _)]
      unfold Eig.cT
      push_cast at e1
      linear_combination e1

/-- The columns of a pair, when they are done. -/
structure Eig.CplxOut (T : Nat → Nat → ℝ) (pr : Nat → Prop) [DecidablePred pr] (p q : ℝ) (idx : Nat)
    (t : Nat → Nat → ℝ) : Prop where
  zero : t idx (idx - 1) = 0
  nz : t idx idx ≠ 0
  sol : Eig.Sol (Eig.quasi pr (Eig.cT T)) (p - q * Complex.I) (fun _ => 0) (Eig.cx t idx) 0 idx

/-- The last two components. -/
theorem Eig.cplxTop_ok {κ : Eig.Lit ℝ} (hκ : 0 ≤ κ.epsEd) (hf : Eig.Form κ.epsEd n T re.f im.f pr)
    (hdiv : Eig.ExactDiv κ.cdiv) {m : Nat} (hp : pr m) {t : Tab ℝ n n}
    (hb : ∀ a j, a < n → j ≤ m + 1 → t.f a j = T a j) (r s z : ℝ) :
    Wp (Eig.cplxTop κ (m + 1) (re.f (m + 1)) (im.f (m + 1)) t) (fun t' =>
      Eig.CplxInv n T t.f pr (re.f (m + 1)) (im.f (m + 1)) (m + 1) m ⟨t', r, s, z, m⟩) fun _ => False := by
  obtain ⟨g1, g2, g3, g4, g5, g6, g7⟩ := hf.pair m hp
  have hq : im.f (m + 1) < 0 := by rw [g5]; linarith
  rw [g4]
  generalize hqe : im.f (m + 1) = q at hq
  generalize hpe : re.f m = p at g6 g7
  have g7' : (T m m : ℂ) * T (m + 1) (m + 1) - T m (m + 1) * T (m + 1) m = p ^ 2 + q ^ 2 := by
    have : T m m * T (m + 1) (m + 1) - T m (m + 1) * T (m + 1) m = p ^ 2 + q ^ 2 := by
      rw [g7, ← hqe, g5]
      ring
    exact_mod_cast congrArg Complex.ofReal this
  have g6' : (T m m : ℂ) + T (m + 1) (m + 1) = 2 * p := by exact_mod_cast congrArg Complex.ofReal g6
  have hI : Complex.I * Complex.I = -1 := Complex.I_mul_I
  -- what is left to do once the first of the two components is set
  have fin : ∀ t1 : Tab ℝ n n, (∀ a j, ¬ (a = m ∧ (j = m ∨ j = m + 1)) → t1.f a j = t.f a j) →
      ((T m m - p : ℝ) + q * Complex.I) * Eig.cx t1.f (m + 1) m + T m (m + 1) * Complex.I = 0 →
      T (m + 1) m * Eig.cx t1.f (m + 1) m + ((T (m + 1) (m + 1) - p : ℝ) + q * Complex.I) * Complex.I = 0 →
      Wp (t1.set (m + 1) (m + 1 - 1) Flt.zero >>= fun t2 => t2.set (m + 1) (m + 1) Flt.one) (fun t' =>
        Eig.CplxInv n T t.f pr p q (m + 1) m ⟨t', r, s, z, m⟩) fun _ => False := by
    intro t1 hfr h1 h2
    rw [Tab.set_ok g1 (by omega), ok_bind, Tab.set_ok g1 g1, wp_ok]
    have e1 : Eig.cx (upd2 (upd2 t1.f (m + 1) (m + 1 - 1) Flt.zero) (m + 1) (m + 1) Flt.one) (m + 1) (m + 1) =
        Complex.I := by
      unfold Eig.cx
      rw [upd2_eq, if_neg (by omega), upd2_eq, if_pos ⟨rfl, rfl⟩, upd2_eq, if_pos ⟨rfl, rfl⟩, Exact.zero_eq,
        Exact.one_eq]
      simp
    have e2 : Eig.cx (upd2 (upd2 t1.f (m + 1) (m + 1 - 1) Flt.zero) (m + 1) (m + 1) Flt.one) (m + 1) m =
        Eig.cx t1.f (m + 1) m := by
      refine Eig.cx_congr ?_ ?_
      · rw [upd2_eq, if_neg (by omega), upd2_eq, if_neg (by omega)]
      · rw [upd2_eq, if_neg (by omega), upd2_eq, if_neg (by omega)]
    refine ⟨fun a j ha hj => ?_, fun a ha => ?_, fun a j ha hj => ?_, by dsimp only; omega, fun k hk hc => ?_,
      .inl rfl, ?_, ?_, fun k h3 h4 => ?_⟩
    · dsimp only
      rw [upd2_eq, if_neg (by omega), upd2_eq, if_neg (by omega), hfr a j (by omega)]
      exact hb a j ha (by omega)
    · dsimp only at ha ⊢
      constructor
      · rw [upd2_eq, if_neg (by omega), upd2_eq, if_neg (by omega), hfr a _ (by omega)]
        exact hb a _ (by omega) (by omega)
      · rw [upd2_eq, if_neg (by omega), upd2_eq, if_neg (by omega), hfr a _ (by omega)]
        exact hb a _ (by omega) (by omega)
    · dsimp only
      rw [upd2_eq, if_neg (by omega), upd2_eq, if_neg (by omega), hfr a _ (by omega)]
    · dsimp only at hc
      rw [hc] at hp
      exact (hf.pair k hk).2.1 hp
    · dsimp only
      rw [upd2_eq, if_neg (by omega), upd2_eq, if_pos ⟨rfl, rfl⟩, Exact.zero_eq]
    · dsimp only
      rw [upd2_eq, if_pos ⟨rfl, rfl⟩, Exact.one_eq]
      exact one_ne_zero
    · dsimp only at h3 ⊢
      rw [sum_eq_sum_Ico_succ_bot (by omega), sum_eq_sum_Ico_succ_bot (by omega), Ico_self, sum_empty, add_zero,
        zero_mul, add_zero, e1, e2]
      have : k = m ∨ k = m + 1 := by omega
      push_cast at h1 h2
      rcases this with rfl | rfl
      · rw [Eig.quasi_up (le_refl _), Eig.quasi_up (by omega), e2]
        unfold Eig.cT
        linear_combination h1
      · rw [Eig.quasi_up (le_refl _), Eig.quasi_pair hp, e1]
        unfold Eig.cT
        linear_combination h2
  unfold Eig.cplxTop
  rw [if_neg (by omega), Tab.get_ok g1 (by omega), ok_bind, Tab.get_ok (by omega) g1, ok_bind,
    hb _ _ g1 (by omega), hb _ _ (by omega) (by omega)]
  dsimp only
  rw [Nat.add_sub_cancel]
  by_cases hlt : Flt.lt (Flt.abs (T m (m + 1))) (Flt.abs (T (m + 1) m)) = true
  · rw [if_pos hlt, Tab.set_ok (by omega) (by omega), ok_bind, Tab.get_ok g1 g1, ok_bind, Tab.set_ok (by omega) g1,
      ok_bind]
    have hx0 : T (m + 1) m ≠ 0 := by
      intro h0
      simp only [Exact.lt_eq, Exact.abs_eq, decide_eq_true_eq, h0, abs_zero] at hlt
      exact absurd (abs_nonneg _) (not_le.2 hlt)
    have hx0' : (T (m + 1) m : ℂ) ≠ 0 := Complex.ofReal_ne_zero.2 hx0
    have hc : T (m + 1) m * Eig.cx (upd2 (upd2 t.f m m (Flt.div q (T (m + 1) m))) m (m + 1)
        (Flt.div (Flt.neg (Flt.sub (upd2 t.f m m (Flt.div q (T (m + 1) m)) (m + 1) (m + 1)) p)) (T (m + 1) m)))
        (m + 1) m = q - (T (m + 1) (m + 1) - p) * Complex.I := by
      unfold Eig.cx
      rw [Nat.add_sub_cancel, upd2_eq, if_neg (by omega), upd2_eq, if_pos ⟨rfl, rfl⟩, upd2_eq, if_pos ⟨rfl, rfl⟩,
        upd2_eq, if_neg (by omega), hb _ _ g1 (le_refl _)]
      simp only [Exact.div_eq, Exact.neg_eq, Exact.sub_eq]
      push_cast
      field_simp
      ring
    refine fin _ (fun a j hj => ?_) ?_ ?_
    · dsimp only
      rw [upd2_eq, if_neg (by omega), upd2_eq, if_neg (by omega)]
    · dsimp only
      generalize Eig.cx _ (m + 1) m = C at hc
      refine (mul_eq_zero.1 (?_ : (T (m + 1) m : ℂ) * _ = 0)).resolve_left hx0'
      push_cast
      linear_combination ((T m m - p) + q * Complex.I) * hc - Complex.I * g7' + (p - q * Complex.I) * Complex.I * g6' +
        (q * (T m m - p)) * hI
    · dsimp only
      generalize Eig.cx _ (m + 1) m = C at hc
      push_cast
      linear_combination hc + q * hI
  · rw [if_neg hlt, Tab.get_ok (by omega) (by omega), ok_bind, hb _ _ (by omega) (by omega)]
    obtain ⟨t1, e1, c1, c2, c3, c4⟩ := Eig.put2_ok (i := m) (by omega) (show 0 < m + 1 by omega) g1
      (κ.cdiv (Flt.zero, Flt.neg (T m (m + 1))) (Flt.sub (T m m) p, q)) t
    rw [e1, ok_bind]
    have hd0 := Eig.cx_ne (x := T m m - p) hq.ne
    have hc := hdiv (Flt.zero, Flt.neg (T m (m + 1))) (Flt.sub (T m m) p, q) (by
      simp only [Exact.sub_eq]
      exact hd0)
    rw [← c1] at hc
    simp only [Exact.sub_eq, Exact.neg_eq, Exact.zero_eq] at hc
    have h1 : ((T m m - p : ℝ) + q * Complex.I) * Eig.cx t1.f (m + 1) m + T m (m + 1) * Complex.I = 0 := by
      push_cast at hc ⊢
      linear_combination hc
    refine fin t1 (fun a j hj => c4 a j (by omega)) h1 ?_
    refine (mul_eq_zero.1 (?_ : ((T m m - p : ℝ) + q * Complex.I) * _ = 0)).resolve_left hd0
    push_cast at h1 ⊢
    linear_combination (T (m + 1) m : ℂ) * h1 + Complex.I * (g7' - (p - q * Complex.I) * g6') + q ^ 2 * Complex.I * hI

theorem Eig.cplxVec_ok {κ : Eig.Lit ℝ} (hκ : 0 ≤ κ.epsEd) (hf : Eig.Form κ.epsEd n T re.f im.f pr)
    (hdiv : Eig.ExactDiv κ.cdiv) {m : Nat} (hp : pr m)
    (hpq : ∀ l, pr l → l < m → ¬ (re.f l = re.f m ∧ im.f l = im.f m)) {b : Eig.Bk ℝ n}
    (hb : ∀ a j, a < n → j ≤ m + 1 → b.t.f a j = T a j) :
    Wp (Eig.cplxVec κ norm re im (m + 1) (re.f (m + 1)) (im.f (m + 1)) b) (fun b' =>
      Eig.CplxOut T pr (re.f m) (-im.f m) (m + 1) b'.t.f ∧
      ∀ a j, a < n → j ≠ m → j ≠ m + 1 → b'.t.f a j = b.t.f a j) fun _ => False := by
  obtain ⟨g1, g2, g3, g4, g5, -⟩ := hf.pair m hp
  unfold Eig.cplxVec
  rw [wp_bind]
  refine (Eig.cplxTop_ok hκ hf hdiv hp hb b.r b.s b.z).imp fun t' h => ?_
  rw [g4, g5] at h ⊢
  refine (wp_forDown (Eig.CplxInv n T b.t.f pr (re.f m) (-im.f m) (m + 1)) (Nat.zero_le _) h fun i s _ hi hI =>
    Eig.cplxStep_ok hκ hf hdiv (by linarith) g1 (by omega) (fun l h1 h2 h3 => hpq l h1 (by omega)
      ⟨h3.1, by rw [h3.2, neg_neg]⟩) hI).imp fun b' h => ⟨⟨h.zero, h.nz, ?_⟩, fun a j ha h1 h2 => ?_⟩
  · have hl : b'.l = 0 := by
      rcases h.state with e | ⟨-, ⟨k, -, e⟩, -⟩
      · exact e
      · omega
    have h2 := h.sol
    rw [hl] at h2
    exact h2
  · rcases Nat.lt_or_ge (m + 1) j with h3 | h3
    · exact h.other a j ha h3
    · rw [h.frame a j ha (by omega), hb a j ha h3]

/-- The table differs only in the two columns of the pair. -/
def Eig.Off (idx : Nat) (t t' : Nat → Nat → ℝ) : Prop := ∀ a j, j ≠ idx - 1 → j ≠ idx → t' a j = t a j

theorem Eig.Off.trans {idx : Nat} {t t' t'' : Nat → Nat → ℝ} (h : Eig.Off idx t t') (h' : Eig.Off idx t' t'') :
    Eig.Off idx t t'' := fun a j h1 h2 => (h' a j h1 h2).trans (h a j h1 h2)

theorem Eig.put2_off {i idx : Nat} (hi : i < n) (h0 : 0 < idx) (hx : idx < n) (c : ℝ × ℝ) (t : Tab ℝ n n) :
    Wp (Eig.put2 i idx c t) (fun t' => Eig.Off idx t.f t'.f) fun _ => False := by
  obtain ⟨t', e, -, -, -, h⟩ := Eig.put2_ok hi h0 hx c t
  rw [e, wp_ok]
  exact fun a j h1 h2 => h a j (by omega)

theorem Eig.cplxSet_off {κ : Eig.Lit ℝ} {idx i : Nat} {p q w ra sa : ℝ} {b : Eig.Bk ℝ n} (hi : i < idx) (hx : idx < n) :
    Wp (Eig.cplxSet κ norm re im idx i p q w ra sa b) (fun t' => Eig.Off idx b.t.f t'.f) fun _ => False := by
  unfold Eig.cplxSet
  rw [Row.get_ok (by omega), ok_bind]
  split_ifs
  · exact Eig.put2_off (by omega) (by omega) hx _ _
  · rw [Tab.get_ok (by omega) (by omega), ok_bind, Tab.get_ok (by omega) (by omega), ok_bind,
      Row.get_ok (by omega), ok_bind, wp_bind]
    refine (Eig.put2_off (by omega) (by omega) hx _ _).imp fun t1 h1 => ?_
    rw [Tab.get_ok (by omega) (by omega), ok_bind, Tab.get_ok (by omega) hx, ok_bind]
    split_ifs
    · exact (Eig.put2_off (by omega) (by omega) hx _ _).imp fun t2 h2 => h1.trans h2
    · exact (Eig.put2_off (by omega) (by omega) hx _ _).imp fun t2 h2 => h1.trans h2

theorem Eig.cplxStep_off {κ : Eig.Lit ℝ} {idx i : Nat} {p q : ℝ} {b : Eig.Bk ℝ n} (hi : i < idx) (hx : idx < n) :
    Wp (Eig.cplxStep κ norm re im idx p q i b) (fun b' => Eig.Off idx b.t.f b'.t.f) fun _ => False := by
  unfold Eig.cplxStep
  rw [sumUp_ok (fun j => Flt.mul (b.t.f i j) (b.t.f j (idx - 1))) (fun j h1 h2 => by
      rw [Tab.get_ok (by omega) (by omega), ok_bind, Tab.get_ok (by omega) (by omega), ok_bind]
      rfl), ok_bind,
    sumUp_ok (fun j => Flt.mul (b.t.f i j) (b.t.f j idx)) (fun j h1 h2 => by
      rw [Tab.get_ok (by omega) (by omega), ok_bind, Tab.get_ok (by omega) hx, ok_bind]
      rfl), ok_bind, Tab.get_ok (by omega) (by omega), ok_bind]
  unfold Eig.cplxCase
  rw [Row.get_ok (by omega), ok_bind]
  split_ifs
  · exact fun _ _ _ _ => rfl
  · rw [wp_bind]
    refine (Eig.cplxSet_off hi hx).imp fun t1 h1 => ?_
    obtain ⟨t2, s, e, -, -, h2⟩ := Eig.guard2_ok κ.eps (show 0 < idx by omega) (show i ≤ idx by omega) hx t1
    rw [e, ok_bind]
    exact h1.trans fun a j h3 h4 => h2 a j (by omega)

theorem Eig.cplxVec_off {κ : Eig.Lit ℝ} {idx : Nat} {p q : ℝ} {b : Eig.Bk ℝ n} (h0 : 0 < idx) (hx : idx < n) :
    Wp (Eig.cplxVec κ norm re im idx p q b) (fun b' => Eig.Off idx b.t.f b'.t.f) fun _ => False := by
  unfold Eig.cplxVec
  rw [wp_bind]
  have htop : Wp (Eig.cplxTop κ idx p q b.t) (fun t' => Eig.Off idx b.t.f t'.f) fun _ => False := by
    have hset : ∀ {a j : Nat} (_ : a < n) (_ : j < n) (_ : j = idx - 1 ∨ j = idx) (v : ℝ) (t : Tab ℝ n n),
        ∃ t' : Tab ℝ n n, t.set a j v = .ok t' ∧ Eig.Off idx t.f t'.f := by
      intro a j ha hj hj' v t
      refine ⟨_, Tab.set_ok ha hj, fun a' j' h1 h2 => ?_⟩
      dsimp only
      rw [upd2_eq, if_neg (by omega)]
    have hend : ∀ t : Tab ℝ n n, Eig.Off idx b.t.f t.f →
        Wp (t.set idx (idx - 1) Flt.zero >>= fun t => t.set idx idx Flt.one)
          (fun t' => Eig.Off idx b.t.f t'.f) fun _ => False := by
      intro t ht
      obtain ⟨t1, e1, h1⟩ := hset hx (show idx - 1 < n by omega) (.inl rfl) Flt.zero t
      obtain ⟨t2, e2, h2⟩ := hset hx hx (.inr rfl) Flt.one t1
      rw [e1, ok_bind, e2, wp_ok]
      exact (ht.trans h1).trans h2
    unfold Eig.cplxTop
    rw [if_neg (by omega), Tab.get_ok hx (by omega), ok_bind, Tab.get_ok (by omega) hx, ok_bind]
    dsimp only
    split_ifs
    · obtain ⟨t1, e1, h1⟩ := hset (show idx - 1 < n by omega) (show idx - 1 < n by omega) (.inl rfl)
        (Flt.div q (b.t.f idx (idx - 1))) b.t
      rw [e1, ok_bind, Tab.get_ok hx hx, ok_bind]
      obtain ⟨t2, e2, h2⟩ := hset (show idx - 1 < n by omega) hx (.inr rfl)
        (Flt.div (Flt.neg (Flt.sub (t1.f idx idx) p)) (b.t.f idx (idx - 1))) t1
      rw [e2, ok_bind]
      exact hend t2 (h1.trans h2)
    · rw [Tab.get_ok (by omega) (by omega), ok_bind, wp_bind]
      exact (Eig.put2_off (by omega) h0 hx _ _).imp fun t1 h1 => hend t1 h1
  refine htop.imp fun t' ht => ?_
  refine wp_forDown (fun _ (b' : Eig.Bk ℝ n) => Eig.Off idx b.t.f b'.t.f) (Nat.zero_le _)
    (s := ⟨t', b.r, b.s, b.z, idx - 1⟩) ht fun i s _ hi h =>
    (Eig.cplxStep_off (by omega) hx).imp fun b' h' => h.trans h'

/-! ## All vectors -/

/-- The pair with first index `m` has other eigenvalues than the pairs before it. -/
def Eig.Distinct (pr : Nat → Prop) (re im : Nat → ℝ) (m : Nat) : Prop :=
  ∀ l, pr l → l < m → ¬ (re l = re m ∧ im l = im m)

/-- The columns from `m` on are done. -/
structure Eig.AllInv (n : Nat) (eps norm : ℝ) (T : Nat → Nat → ℝ) (re im : Nat → ℝ) (pr : Nat → Prop) [DecidablePred pr]
    (m : Nat) (t : Nat → Nat → ℝ) : Prop where
  frame : ∀ a j, a < n → j < m → ¬ (pr j ∧ m = j + 1) → t a j = T a j
  real : ∀ k, m ≤ k → k < n → Eig.Single pr k → Eig.RealOut eps norm T pr k t
  cplx : ∀ k, m ≤ k + 1 → pr k → Eig.Distinct pr re im k → Eig.CplxOut T pr (re k) (-im k) (k + 1) t

theorem Eig.Sol.outer {F : Type} [Field F] {V : Nat → Nat → F} {lam : F} {d c c' : Nat → F} {idx : Nat}
    (h : Eig.Sol V lam d c 0 idx) (hc : ∀ a, a ≤ idx → c' a = c a) : Eig.Sol V lam d c' 0 idx :=
  h.congr (fun _ _ _ => rfl) fun k _ hk => hc k hk

theorem Eig.vector_ok {κ : Eig.Lit ℝ} (hκ : 0 ≤ κ.epsEd) (hf : Eig.Form κ.epsEd n T re.f im.f pr)
    (hdiv : Eig.ExactDiv κ.cdiv) (hen : κ.eps * norm ≠ 0) {m : Nat} (hm : m < n) {b : Eig.Bk ℝ n}
    (h : Eig.AllInv n κ.eps norm T re.f im.f pr (m + 1) b.t.f) :
    Wp (Eig.vector κ norm re im m b) (fun b' => Eig.AllInv n κ.eps norm T re.f im.f pr m b'.t.f) fun _ => False := by
  unfold Eig.vector
  rw [Row.get_ok hm, ok_bind, Row.get_ok hm, ok_bind]
  -- columns that are done stay as they are
  have keepR : ∀ {k : Nat} {t' : Tab ℝ n n}, m < k → k < n → (∀ a j, a < n → m < j → t'.f a j = b.t.f a j) →
      Eig.RealOut κ.eps norm T pr k b.t.f → Eig.RealOut κ.eps norm T pr k t'.f := by
    rintro k t' h1 h2 h3 ⟨h4, d, h5, h6⟩
    exact ⟨by rw [h3 k k h2 h1]; exact h4, d, h5, h6.outer fun a ha => h3 a k (by omega) h1⟩
  have keepC : ∀ {k : Nat} {t' : Tab ℝ n n}, m < k → pr k → (∀ a j, a < n → m < j → t'.f a j = b.t.f a j) →
      Eig.CplxOut T pr (re.f k) (-im.f k) (k + 1) b.t.f → Eig.CplxOut T pr (re.f k) (-im.f k) (k + 1) t'.f := by
    rintro k t' h1 h2 h3 ⟨h4, h5, h6⟩
    have hk := (hf.pair k h2).1
    refine ⟨?_, ?_, h6.outer fun a ha => Eig.cx_congr (h3 a _ (by omega) (by omega)) (h3 a _ (by omega) (by omega))⟩
    · rw [h3 (k + 1) _ hk (by omega)]; exact h4
    · rw [h3 (k + 1) _ hk (by omega)]; exact h5
  by_cases hp : pr m
  · -- the first of a pair: nothing to do
    have hq := (hf.pair m hp).2.2.1
    rw [if_neg (by
      simp only [Exact.ulpEq_eq, Exact.zero_eq, decide_eq_true_eq]
      linarith), if_neg (by
      simp only [Exact.lt_eq, Exact.zero_eq, decide_eq_true_eq]
      linarith)]
    refine ⟨fun a j ha hj hj' => h.frame a j ha (by omega) fun hc => ?_, fun k h1 h2 h3 => h.real k ?_ h2 h3,
      fun k h1 h2 h3 => h.cplx k ?_ h2 h3⟩
    · omega
    · rcases Nat.lt_or_ge m k with h4 | h4
      · exact h4
      · obtain rfl : k = m := by omega
        exact (h3.1 hp).elim
    · rcases Nat.lt_or_ge m (k + 1) with h4 | h4
      · exact h4
      · obtain rfl : k + 1 = m := by omega
        exact ((hf.pair k h2).2.1 hp).elim
  · have hbm : ∀ a j, a < n → j ≤ m → b.t.f a j = T a j := fun a j ha hj =>
      h.frame a j ha (by omega) fun hc => by
        obtain rfl : j = m := by omega
        exact hp hc.1
    by_cases hs : ∃ l, pr l ∧ m = l + 1
    · obtain ⟨l, hl, rfl⟩ := hs
      obtain ⟨g1, g2, g3, g4, g5, -⟩ := hf.pair l hl
      rw [if_neg (by
        simp only [Exact.ulpEq_eq, Exact.zero_eq, decide_eq_true_eq]
        linarith), if_pos (by
        simp only [Exact.lt_eq, Exact.zero_eq, decide_eq_true_eq]
        linarith)]
      have fin : ∀ b' : Eig.Bk ℝ n, (∀ a j, a < n → j ≠ l → j ≠ l + 1 → b'.t.f a j = b.t.f a j) →
          (Eig.Distinct pr re.f im.f l → Eig.CplxOut T pr (re.f l) (-im.f l) (l + 1) b'.t.f) →
          Eig.AllInv n κ.eps norm T re.f im.f pr (l + 1) b'.t.f := by
        intro b' h1 h2
        refine ⟨fun a j ha hj hj' => ?_, fun k h3 h4 h5 => ?_, fun k h3 h4 h5 => ?_⟩
        · have : j ≠ l := fun e => hj' ⟨e ▸ hl, by omega⟩
          rw [h1 a j ha this (by omega), hbm a j ha (by omega)]
        · have : k ≠ l + 1 := h5.2 l hl
          exact keepR (by omega) h4 (fun a j ha hj => h1 a j ha (by omega) (by omega)) (h.real k (by omega) h4 h5)
        · by_cases hk : k = l
          · subst hk
            exact h2 h5
          · have : k ≠ l + 1 := fun e => hp (e ▸ h4)
            exact keepC (by omega) h4 (fun a j ha hj => h1 a j ha (by omega) (by omega)) (h.cplx k (by omega) h4 h5)
      by_cases hd : Eig.Distinct pr re.f im.f l
      · exact (Eig.cplxVec_ok hκ hf hdiv hl hd hbm).imp fun b' h' => fin b' h'.2 fun _ => h'.1
      · exact (Eig.cplxVec_off (by omega) hm).imp fun b' h' => fin b' (fun a j _ h1 h2 => h' a j h1 h2) fun h =>
          (hd h).elim
    · have hsg : Eig.Single pr m := ⟨hp, fun l h1 h2 => hs ⟨l, h1, h2⟩⟩
      rw [if_pos (by
        simp only [Exact.ulpEq_eq, Exact.zero_eq, decide_eq_true_eq]
        exact (hf.single m hm hsg.1 hsg.2).2)]
      refine (Eig.realVec_ok hκ hf hen hm hsg hbm).imp fun b' h' => ?_
      refine ⟨fun a j ha hj hj' => ?_, fun k h3 h4 h5 => ?_, fun k h3 h4 h5 => ?_⟩
      · rw [h'.2 a j ha (by omega), hbm a j ha (by omega)]
      · rcases Nat.lt_or_ge m k with h6 | h6
        · exact keepR h6 h4 (fun a j ha hj => h'.2 a j ha (by omega)) (h.real k h6 h4 h5)
        · obtain rfl : k = m := by omega
          exact h'.1
      · have h6 : k ≠ m := fun e => hp (e ▸ h4)
        have h7 : m ≠ k + 1 := hsg.2 k h4
        exact keepC (by omega) h4 (fun a j ha hj => h'.2 a j ha (by omega)) (h.cplx k (by omega) h4 h5)

/-- The product with `P`. -/
theorem Eig.back_ok (t p : Tab ℝ n n) : ∃ z : Tab ℝ n n, Eig.back t p = .ok z ∧
    ∀ i j, i < n → j < n → z.f i j = ∑ k ∈ range (j + 1), p.f i k * t.f k j := by
  unfold Eig.back
  refine Wp.exists_ok ((wp_forDown (E := fun _ => False) (fun m (z : Tab ℝ n n) =>
    ∀ i j, i < n → j < n → z.f i j = if m ≤ j then ∑ k ∈ range (j + 1), p.f i k * t.f k j else p.f i j)
    (Nat.zero_le n) (fun i j hi hj => by rw [if_neg (by omega)]) fun m z _ hm hI => ?_).imp fun z h i j hi hj => by
      rw [h i j hi hj, if_pos (Nat.zero_le _)])
  obtain ⟨z', e, h1, h2⟩ := Tab.colLoop (a := 0) (b := n) (j := m) (ε := Fault)
    (fun i _ => ∑ k ∈ range (m + 1), p.f i k * t.f k m) (t := z)
    (body := fun i (p : Tab ℝ n n) => do
      let z ← sumUp 0 (min m (n - 1) + 1) (fun k => do return Flt.mul (← p.get i k) (← t.get k m)) Flt.zero
      p.set i m z) (fun i z' _ hi hz => by
      have hmin : min m (n - 1) = m := by omega
      rw [hmin, sumUp_ok (fun k => Flt.mul (p.f i k) (t.f k m)) (fun k _ hk => by
        rw [Tab.get_ok hi (by omega), ok_bind, Tab.get_ok (by omega) hm, ok_bind, hz i k (by omega),
          hI i k hi (by omega), if_neg (by omega)]
        rfl), ok_bind, Tab.set_ok hi hm, lsum_exact0]
      simp only [Exact.mul_eq])
  rw [e, wp_ok]
  intro i j hi hj
  by_cases hjm : j = m
  · subst hjm
    rw [h1 i (Nat.zero_le _) hi, if_pos (le_refl _)]
  · rw [h2 i j (by omega), hI i j hi hj]
    by_cases h : m ≤ j
    · rw [if_pos h, if_pos (by omega)]
    · rw [if_neg h, if_neg (by omega)]

/-- The vectors of `findEigenVectorsFromSchur`: the table of the triangular vectors, multiplied by `P`. -/
theorem Eig.findGen_ok {κ : Eig.Lit ℝ} (hκ : 0 ≤ κ.epsEd) (hk : κ.eps ≠ 0) {t p : Tab ℝ n n}
    (hf : Eig.Form κ.epsEd n t.f re.f im.f pr) (hdiv : Eig.ExactDiv κ.cdiv) {e : Eig ℝ n}
    (h : Eig.findGen κ re im t p = .ok e) :
    ∃ (norm : ℝ) (c : Nat → Nat → ℝ), Schur.norm t = .ok norm ∧
      Eig.AllInv n κ.eps norm t.f re.f im.f pr 0 c ∧
      ∀ k i, k < n → i < n → e.vec.f k i = ∑ j ∈ range (k + 1), p.f i j * c j k := by
  unfold Eig.findGen at h
  obtain ⟨norm, en⟩ := Schur.norm_ok t
  rw [en, ok_bind] at h
  by_cases h0 : equalsWithError norm Flt.zero κ.epsEd = true
  · rw [if_pos h0] at h
    cases h
  · rw [if_neg h0] at h
    have hn0 : norm ≠ 0 := by
      rintro rfl
      apply h0
      simp [equalsWithError]
    obtain ⟨b, eb, hb⟩ := Wp.exists_ok (wp_forDown (E := fun _ => False)
      (fun m (b : Eig.Bk ℝ n) => Eig.AllInv n κ.eps norm t.f re.f im.f pr m b.t.f) (Nat.zero_le n)
      (body := Eig.vector κ norm re im) (s := ⟨t, Flt.zero, Flt.zero, Flt.zero, 0⟩)
      ⟨fun _ _ _ _ _ => rfl, fun k h1 h2 => by omega, fun k h1 h2 => by
        have := (hf.pair k h2).1
        omega⟩ fun m b _ hm hI => Eig.vector_ok hκ hf hdiv (mul_ne_zero hk hn0) hm hI)
    obtain ⟨z, ez, hz⟩ := Eig.back_ok b.t p
    obtain ⟨v, ev, hv⟩ := Tab.build_ex (r := n) (c := n) (fun i j => z.f j i) (rt := Fault.rt)
      (cell := fun i j => z.get j i) fun i j hi hj => Tab.get_ok hj hi
    rw [eb, ok_bind, ez, ok_bind, ev, ok_bind] at h
    cases h
    exact ⟨norm, b.t.f, en, hb, fun k i h1 h2 => (hv k i h1 h2).trans (hz i k h2 h1)⟩

end cplx

end Linear
