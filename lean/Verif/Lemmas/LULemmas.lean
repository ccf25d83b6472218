import Verif.Lemmas.Solve
import Verif.Props.Arith
import Mathlib.GroupTheory.Perm.Sign
import Mathlib.Tactic.Linarith

/-!
# Lemmas on the LU decomposition
-/

set_option linter.unusedSectionVars false

namespace Linear

open Spec Finset

variable {α : Type} [Flt α] {n : Nat}

theorem LU.upper_ok {col : Nat} (hc : col < n) (t : Tab α n n) :
    ∃ t' : Tab α n n, LU.upper col t = .ok t' ∧
      (∀ x y, ¬ (y = col ∧ x < col) → t'.f x y = t.f x y) ∧
      ∀ x, x < col → t'.f x col =
        lsub 0 x (fun i => Flt.mul (t'.f x i) (t'.f i col)) (t.f x col) := by
  unfold LU.upper
  refine Wp.exists_ok (wp_forUp (fun k (t' : Tab α n n) =>
    (∀ x y, ¬ (y = col ∧ x < k) → t'.f x y = t.f x y) ∧
      ∀ x, x < k → t'.f x col =
        lsub 0 x (fun i => Flt.mul (t'.f x i) (t'.f i col)) (t.f x col)) (Nat.zero_le _)
    ⟨fun _ _ _ => rfl, by omega⟩ ?_)
  rintro row t' - hr ⟨h1, h2⟩
  rw [wp_bind, wp_tget (by omega) hc, wp_bind, subUp_ok (fun i => Flt.mul (t'.f row i) (t'.f i col))
    (fun i _ hi => by rw [Tab.get_ok (by omega) (by omega), Tab.get_ok (by omega) hc]; rfl)]
  show Wp (t'.set row col _) _ _
  rw [wp_tset (by omega) hc]
  constructor
  · intro x y hxy
    simp only [upd2_eq]
    rw [if_neg (by rintro ⟨rfl, rfl⟩; exact hxy ⟨rfl, by omega⟩)]
    exact h1 x y (by omega)
  · intro x hx
    have hne : ∀ a b, a ≠ row ∨ b ≠ col →
        upd2 t'.f row col (lsub 0 row (fun i => Flt.mul (t'.f row i) (t'.f i col)) (t'.f row col)) a b
          = t'.f a b := fun a b h => by rw [upd2_eq, if_neg (by rintro ⟨rfl, rfl⟩; simp at h)]
    dsimp only
    have hr' : lsub 0 x (fun i => Flt.mul (t'.f x i) (t'.f i col)) (t.f x col) = _ :=
      lsub_congr fun i _ (hi : i < x) =>
        congrArg₂ Flt.mul (hne x i (by omega)).symm (hne i col (by omega)).symm
    rw [← hr']
    by_cases e : x = row
    · subst e
      rw [upd2_eq, if_pos ⟨rfl, rfl⟩, h1 x col (by omega)]
    · rw [hne x col (by omega)]
      exact h2 x (by omega)

/-- The lower part of a column; `J` is an invariant of the pivot choice. -/
theorem LU.lower_ok (J : Nat → Nat × α → Prop) {ninf : α} {col : Nat} (hc : col < n) (t : Tab α n n)
    (h0 : J col (col, ninf))
    (hs : ∀ row p, col ≤ row → row < n → J row p →
      let v := lsub 0 col (fun i => Flt.mul (t.f row i) (t.f i col)) (t.f row col)
      J (row + 1) (if Flt.lt p.2 (Flt.abs v) then (row, Flt.abs v) else p)) :
    ∃ t' p, LU.lower ninf col t = .ok (t', p) ∧ J n p ∧
      (∀ x y, ¬ (y = col ∧ col ≤ x ∧ x < n) → t'.f x y = t.f x y) ∧
      ∀ x, col ≤ x → x < n → t'.f x col =
        lsub 0 col (fun i => Flt.mul (t.f x i) (t.f i col)) (t.f x col) := by
  unfold LU.lower
  suffices h : ∃ s : Tab α n n × Nat × α, _ = Except.ok s ∧ _ from
    let ⟨s, e, h⟩ := h; ⟨s.1, s.2, e, h⟩
  refine Wp.exists_ok (wp_forUp (fun k (s : Tab α n n × Nat × α) => J k s.2 ∧
      (∀ x y, ¬ (y = col ∧ col ≤ x ∧ x < k) → s.1.f x y = t.f x y) ∧
      ∀ x, col ≤ x → x < k → s.1.f x col =
        lsub 0 col (fun i => Flt.mul (t.f x i) (t.f i col)) (t.f x col)) hc.le
    ⟨h0, fun _ _ _ => rfl, by omega⟩ ?_)
  rintro row ⟨t', p⟩ h1 h2 ⟨h3, h4, h5⟩
  dsimp only at h3 h4 h5 ⊢
  have hget : ∀ i, i < col → Flt.mul (t'.f row i) (t'.f i col) = Flt.mul (t.f row i) (t.f i col) :=
    fun i hi => by rw [h4 row i (by omega), h4 i col (by omega)]
  rw [wp_bind, wp_tget h2 hc, wp_bind,
    subUp_ok (fun i => Flt.mul (t'.f row i) (t'.f i col))
    (fun i _ hi => by rw [Tab.get_ok h2 (by omega), Tab.get_ok (by omega) hc]; rfl)]
  show Wp (t'.set row col _ >>= _) _ _
  rw [wp_bind, wp_tset h2 hc, lsub_congr fun i _ hi => hget i hi, h4 row col (by omega)]
  have h6 := hs row p h1 h2 h3
  dsimp only at h6
  show Wp (Except.ok _) _ _
  have key : (∀ x y, ¬ (y = col ∧ col ≤ x ∧ x < row + 1) →
      upd2 t'.f row col (lsub 0 col (fun i => Flt.mul (t.f row i) (t.f i col)) (t.f row col)) x y
        = t.f x y) ∧
      ∀ x, col ≤ x → x < row + 1 →
      upd2 t'.f row col (lsub 0 col (fun i => Flt.mul (t.f row i) (t.f i col)) (t.f row col)) x col
        = lsub 0 col (fun i => Flt.mul (t.f x i) (t.f i col)) (t.f x col) := by
    constructor
    · intro x y hxy
      rw [upd2_eq, if_neg (by rintro ⟨rfl, rfl⟩; exact hxy ⟨rfl, h1, by omega⟩)]
      exact h4 x y (by omega)
    · intro x hx hx'
      rw [upd2_eq]
      by_cases e : x = row
      · rw [if_pos ⟨e, rfl⟩, e]
      · rw [if_neg (by simp [e])]
        exact h5 x hx (by omega)
  by_cases hl : Flt.lt p.2 (Flt.abs
      (lsub 0 col (fun i => Flt.mul (t.f row i) (t.f i col)) (t.f row col))) = true
  · rw [if_pos hl] at h6 ⊢
    exact ⟨h6, key⟩
  · rw [if_neg hl] at h6 ⊢
    exact ⟨h6, key⟩

theorem LU.swapRows_ok {max col : Nat} (hm : max < n) (hc : col < n) (t : Tab α n n) :
    ∃ t' : Tab α n n, LU.swapRows max col t = .ok t' ∧
      ∀ x y, y < n → t'.f x y = t.f (Equiv.swap max col x) y := by
  unfold LU.swapRows
  refine Wp.exists_ok ((wp_forUp (fun k (t' : Tab α n n) =>
    (∀ x y, y < k → t'.f x y = t.f (Equiv.swap max col x) y) ∧ ∀ x y, k ≤ y → t'.f x y = t.f x y)
    (Nat.zero_le _) ⟨by omega, fun _ _ _ => rfl⟩ ?_).imp fun _ h => h.1)
  rintro i t' - hi ⟨h1, h2⟩
  rw [wp_bind, wp_tget hm hi, wp_bind, wp_tget hc hi, wp_bind, wp_tset hm hi, wp_tset hc hi]
  dsimp only
  constructor
  · intro x y hy
    rw [upd2_eq, upd2_eq, Equiv.swap_apply_def]
    by_cases e : y = i
    · subst e
      simp only [and_true]
      by_cases e1 : x = col
      · rw [if_pos e1, h2 _ _ le_rfl, e1]
        by_cases e2 : col = max
        · rw [if_pos e2, e2]
        · rw [if_neg e2, if_pos rfl]
      · rw [if_neg e1, if_neg e1]
        by_cases e2 : x = max
        · rw [if_pos e2, if_pos e2, h2 _ _ le_rfl]
        · rw [if_neg e2, if_neg e2, h2 _ _ le_rfl]
    · rw [if_neg (by simp [e]), if_neg (by simp [e]), ← Equiv.swap_apply_def]
      exact h1 x y (by omega)
  · intro x y hy
    rw [upd2_eq, upd2_eq, if_neg (by omega), if_neg (by omega)]
    exact h2 x y (by omega)

theorem LU.doPivot_ok {max col : Nat} (hm : max < n) (hc : col < n) (s : LU α n n) :
    ∃ s' : LU α n n, LU.doPivot max col s = .ok s' ∧
      (∀ x y, y < n → s'.lu.f x y = s.lu.f (Equiv.swap max col x) y) ∧
      (∀ x, s'.pivot.f x = s.pivot.f (Equiv.swap max col x)) ∧
      s'.even = (if max = col then s.even else !s.even) ∧ s'.singular = s.singular := by
  unfold LU.doPivot
  by_cases e : max = col
  · subst e
    rw [if_neg (by simp)]
    exact ⟨s, rfl, by simp, by simp, by simp, rfl⟩
  · rw [if_pos e]
    obtain ⟨t', et, ht⟩ := LU.swapRows_ok hm hc s.lu
    rw [et, ok_bind, Row.get_ok hm, ok_bind, Row.get_ok hc, ok_bind, Row.set_ok hm, ok_bind,
      Row.set_ok hc, ok_bind]
    refine ⟨_, rfl, ht, fun x => ?_, by rw [if_neg e], rfl⟩
    dsimp only
    rw [upd1_eq, upd1_eq, Equiv.swap_apply_def]
    by_cases e1 : x = col
    · rw [if_pos e1, if_neg (by omega), if_pos e1]
    · rw [if_neg e1, if_neg e1]
      by_cases e2 : x = max
      · rw [if_pos e2, if_pos e2]
      · rw [if_neg e2, if_neg e2]

theorem LU.divide_ok {col : Nat} (hc : col < n) (t : Tab α n n) :
    ∃ t' : Tab α n n, LU.divide col t = .ok t' ∧
      (∀ x, col < x → x < n → t'.f x col = Flt.div (t.f x col) (t.f col col)) ∧
      ∀ x y, ¬ (y = col ∧ col < x ∧ x < n) → t'.f x y = t.f x y := by
  unfold LU.divide
  rw [Tab.get_ok hc hc, ok_bind]
  obtain ⟨t', e, h1, h2⟩ := Tab.colLoop (ε := Fault) (a := col + 1) (b := n) (j := col)
    (fun _ v => Flt.div v (t.f col col)) (t := t)
    (body := fun row t' => do t'.set row col (Flt.div (← t'.get row col) (t.f col col)))
    (by
      intro i t' h1 h2 h3
      rw [Tab.get_ok h2 hc, ok_bind, Tab.set_ok h2 hc, h3 i col (by omega)])
  exact ⟨t', e, h1, h2⟩

/-- The pivot of a state: a permutation whose sign is `even`. -/
def LU.Piv (s : LU α n n) (σ : Equiv.Perm (Fin n)) : Prop :=
  (∀ i : Fin n, s.pivot.f i = σ i) ∧ Equiv.Perm.sign σ = if s.even then 1 else -1

theorem swap_val {n a b : Nat} (ha : a < n) (hb : b < n) (i : Fin n) :
    ((Equiv.swap (⟨a, ha⟩ : Fin n) ⟨b, hb⟩ i : Fin n) : Nat) = Equiv.swap a b i := by
  rw [Equiv.swap_apply_def, Equiv.swap_apply_def]
  simp only [Fin.ext_iff]
  split
  · rfl
  · split <;> rfl

theorem LU.Piv.swap {s s' : LU α n n} {σ : Equiv.Perm (Fin n)} (h : s.Piv σ) {max col : Nat}
    (hm : max < n) (hc : col < n) (h1 : ∀ x, s'.pivot.f x = s.pivot.f (Equiv.swap max col x))
    (h2 : s'.even = (if max = col then s.even else !s.even)) :
    s'.Piv (σ * Equiv.swap ⟨max, hm⟩ ⟨col, hc⟩) := by
  constructor
  · intro i
    rw [h1, ← swap_val hm hc, h.1]
    rfl
  · rw [Equiv.Perm.sign_mul, h.2, h2]
    by_cases e : max = col
    · subst e
      simp
    · rw [Equiv.Perm.sign_swap (by simpa [Fin.ext_iff] using e), if_neg e]
      cases s.even <;> simp

theorem LU.pivot_init : ∃ p : Row Nat n,
    (forUp 0 n (fun row (p : Row Nat n) => p.set row row) (⟨fun _ => 0⟩ : Row Nat n) : Res (Row Nat n))
      = .ok p ∧ ∀ i, i < n → p.f i = i := by
  refine Wp.exists_ok ((wp_forUp (fun k (p : Row Nat n) => ∀ i, i < k → p.f i = i)
    (Nat.zero_le _) (by omega) ?_))
  intro i p _ hi h
  rw [Row.set_ok hi]
  intro x hx
  dsimp only
  rw [upd1_eq]
  by_cases e : x = i
  · rw [if_pos e, e]
  · rw [if_neg e]; exact h x (by omega)

/-! ## Field invariants -/

section exact

variable {K : Type} [Field K] [LinearOrder K] [IsStrictOrderedRing K] [Flt K] [Exact K]

/-- Columns before `k` are decomposed; the others hold the permuted matrix. -/
structure LU.Inv (n : Nat) (A : Nat → Nat → K) (p : Nat → Nat) (k : Nat) (f : Nat → Nat → K) :
    Prop where
  prod : ∀ i j, i < n → j < n → j < k → A (p i) j =
    ∑ x ∈ range (min i j), f i x * f x j + if i ≤ j then f i j else f i j * f j j
  rest : ∀ i j, i < n → j < n → k ≤ j → f i j = A (p i) j
  diag : ∀ j, j < n → j < k → f j j ≠ 0
  small : ∀ i j, i < n → j < k → j < i → |f i j| ≤ 1

/-- After the sums of column `k`, before its division. -/
structure LU.Mid (n : Nat) (A : Nat → Nat → K) (p : Nat → Nat) (k : Nat) (f : Nat → Nat → K) :
    Prop where
  prod : ∀ i j, i < n → j < n → j < k → A (p i) j =
    ∑ x ∈ range (min i j), f i x * f x j + if i ≤ j then f i j else f i j * f j j
  col : ∀ i, i < n → A (p i) k = ∑ x ∈ range (min i k), f i x * f x k + f i k
  rest : ∀ i j, i < n → j < n → k < j → f i j = A (p i) j
  diag : ∀ j, j < n → j < k → f j j ≠ 0
  small : ∀ i j, i < n → j < k → j < i → |f i j| ≤ 1

theorem LU.Mid.swap {A f f' : Nat → Nat → K} {p p' : Nat → Nat} {k q : Nat}
    (h : LU.Mid n A p k f) (hk : k < n) (hq : k ≤ q) (hqn : q < n)
    (hf : ∀ x y, y < n → f' x y = f (Equiv.swap q k x) y)
    (hp : ∀ x, p' x = p (Equiv.swap q k x)) : LU.Mid n A p' k f' := by
  have lo : ∀ x, x < k → Equiv.swap q k x = x := fun x hx =>
    Equiv.swap_apply_of_ne_of_ne (by omega) (by omega)
  have hi : ∀ x, k ≤ x → x < n → k ≤ Equiv.swap q k x ∧ Equiv.swap q k x < n := by
    intro x h1 h2
    rw [Equiv.swap_apply_def]
    split
    · omega
    · split <;> omega
  have hn : ∀ x, x < n → Equiv.swap q k x < n := by
    intro x hx
    by_cases e : x < k
    · rw [lo x e]; exact hx
    · exact (hi x (by omega) hx).2
  have hmin : ∀ i j, i < n → j ≤ k → min (Equiv.swap q k i) j = min i j := by
    intro i j h1 h2
    by_cases e : i < k
    · rw [lo i e]
    · have := hi i (by omega) h1
      omega
  constructor
  · intro i j h1 h2 h3
    rw [hp, h.prod _ j (hn i h1) h2 h3, hmin i j h1 h3.le, hf i j h2, hf j j h2, lo j h3]
    congr 1
    · refine sum_congr rfl fun x hx => ?_
      have := mem_range.1 hx
      rw [hf i x (by omega), hf x j h2, lo x (by omega)]
    · by_cases e : i < k
      · rw [lo i e]
      · have := hi i (by omega) h1
        rw [if_neg (by omega), if_neg (by omega)]
  · intro i h1
    rw [hp, h.col _ (hn i h1), hmin i k h1 le_rfl, hf i k hk]
    congr 1
    refine sum_congr rfl fun x hx => ?_
    have := mem_range.1 hx
    rw [hf i x (by omega), hf x k hk, lo x (by omega)]
  · intro i j h1 h2 h3
    rw [hp, hf i j h2]
    exact h.rest _ j (hn i h1) h2 h3
  · intro j h1 h2
    rw [hf j j h1, lo j h2]
    exact h.diag j h1 h2
  · intro i j h1 h2 h3
    rw [hf i j (by omega)]
    refine h.small _ j (hn i h1) h2 ?_
    by_cases e : i < k
    · rw [lo i e]; exact h3
    · have := hi i (by omega) h1
      omega

theorem LU.Mid.divide {A f f' : Nat → Nat → K} {p : Nat → Nat} {k : Nat} (h : LU.Mid n A p k f)
    (hk : k < n) (hd : f k k ≠ 0) (hm : ∀ i, k ≤ i → i < n → |f i k| ≤ |f k k|)
    (h1 : ∀ x, k < x → x < n → f' x k = f x k / f k k)
    (h2 : ∀ x y, ¬ (y = k ∧ k < x ∧ x < n) → f' x y = f x y) : LU.Inv n A p (k + 1) f' := by
  constructor
  · intro i j hi hj hjk
    have hsum : ∑ x ∈ range (min i j), f' i x * f' x j = ∑ x ∈ range (min i j), f i x * f x j := by
      refine sum_congr rfl fun x hx => ?_
      have := mem_range.1 hx
      rw [h2 i x (by omega), h2 x j (by omega)]
    rw [hsum]
    by_cases e : j = k
    · subst e
      rw [h.col i hi]
      congr 1
      by_cases e2 : i ≤ j
      · rw [if_pos e2, h2 i j (by omega)]
      · rw [if_neg e2, h1 i (by omega) hi, h2 j j (by omega), div_mul_cancel₀ _ hd]
    · rw [h.prod i j hi hj (by omega), h2 i j (by omega), h2 j j (by omega)]
  · intro i j hi hj hjk
    rw [h2 i j (by omega)]
    exact h.rest i j hi hj (by omega)
  · intro j hj hjk
    rw [h2 j j (by omega)]
    by_cases e : j = k
    · subst e; exact hd
    · exact h.diag j hj (by omega)
  · intro i j hi hjk hij
    by_cases e : j = k
    · subst e
      rw [h1 i hij hi, abs_div, div_le_one (abs_pos.2 hd)]
      exact hm i hij.le hi
    · rw [h2 i j (by omega)]
      exact h.small i j hi (by omega) hij

theorem LU.Inv.mid {A f f' f'' : Nat → Nat → K} {p : Nat → Nat} {k : Nat} (h : LU.Inv n A p k f)
    (hk : k < n) (u1 : ∀ x y, ¬ (y = k ∧ x < k) → f' x y = f x y)
    (u2 : ∀ x, x < k → f' x k = lsub 0 x (fun i => Flt.mul (f' x i) (f' i k)) (f x k))
    (l1 : ∀ x y, ¬ (y = k ∧ k ≤ x ∧ x < n) → f'' x y = f' x y)
    (l2 : ∀ x, k ≤ x → x < n → f'' x k = lsub 0 k (fun i => Flt.mul (f' x i) (f' i k)) (f' x k)) :
    LU.Mid n A p k f'' := by
  have hne : ∀ x y, y ≠ k → f'' x y = f x y := fun x y hy => by
    rw [l1 x y (by omega), u1 x y (by omega)]
  constructor
  · intro i j hi hj hjk
    rw [h.prod i j hi hj hjk, hne i j (by omega), hne j j (by omega)]
    congr 1
    refine sum_congr rfl fun x hx => ?_
    have := mem_range.1 hx
    rw [hne i x (by omega), hne x j (by omega)]
  · intro i hi
    have hs : ∑ x ∈ range (min i k), f'' i x * f'' x k = ∑ x ∈ range (min i k), f' i x * f' x k := by
      refine sum_congr rfl fun x hx => ?_
      have := mem_range.1 hx
      rw [l1 i x (by omega), l1 x k (by omega)]
    rw [hs, ← h.rest i k hi hk le_rfl]
    by_cases e : i < k
    · rw [l1 i k (by omega), u2 i e, lsub_exact, min_eq_left e.le]
      simp
    · rw [l2 i (by omega) hi, lsub_exact, min_eq_right (by omega), u1 i k (by omega)]
      simp
  · intro i j hi hj hjk
    rw [hne i j (by omega)]
    exact h.rest i j hi hj hjk.le
  · intro j hj hjk
    rw [hne j j (by omega)]
    exact h.diag j hj hjk
  · intro i j hi hjk hij
    rw [hne i j (by omega)]
    exact h.small i j hi hjk hij

/-- The chosen pivot row holds the largest magnitude of the column. -/
def LU.Best (v : Nat → K) (ninf : K) (col k : Nat) (p : Nat × K) : Prop :=
  (k = col ∧ p = (col, ninf)) ∨
    (col ≤ p.1 ∧ p.1 < k ∧ p.2 = |v p.1| ∧ ∀ i, col ≤ i → i < k → |v i| ≤ |v p.1|)

theorem LU.Best.step {v : Nat → K} {ninf : K} (hn : ninf < 0) {col k : Nat} {p : Nat × K}
    (hk : col ≤ k) (h : LU.Best v ninf col k p) :
    LU.Best v ninf col (k + 1) (if Flt.lt p.2 (Flt.abs (v k)) then (k, Flt.abs (v k)) else p) := by
  rw [Exact.lt_eq, Exact.abs_eq]
  rcases h with ⟨rfl, rfl⟩ | ⟨h1, h2, h3, h4⟩
  · rw [if_pos (by simpa using lt_of_lt_of_le hn (abs_nonneg _))]
    refine .inr ⟨le_rfl, by simp, rfl, fun i h1 h2 => ?_⟩
    rw [show i = k by omega]
  · by_cases hl : p.2 < |v k|
    · rw [if_pos (by simpa using hl)]
      refine .inr ⟨hk, by simp, rfl, fun i h5 h6 => ?_⟩
      by_cases e : i = k
      · rw [e]
      · rw [h3] at hl
        exact (h4 i h5 (by omega)).trans hl.le
    · rw [if_neg (by simpa using hl)]
      refine .inr ⟨h1, by omega, h3, fun i h5 h6 => ?_⟩
      by_cases e : i = k
      · rw [e, ← h3]; exact not_lt.1 hl
      · exact h4 i h5 (by omega)

/-- The state of the decomposition before column `k`. -/
def LU.At (A : Nat → Nat → K) (k : Nat) (s : LU K n n) : Prop :=
  s.singular = false ∧ (∃ σ, s.Piv σ) ∧ LU.Inv n A s.pivot.f k s.lu.f

/-- The state in which the decomposition is given up: some column has no candidate of magnitude `thr`. -/
def LU.Stop (A : Nat → Nat → K) (thr : K) (s : LU K n n) : Prop :=
  s.singular = true ∧ (∃ σ, s.Piv σ) ∧ ∃ k f, k < n ∧ LU.Mid n A s.pivot.f k f ∧
    ∀ i, k ≤ i → i < n → |f i k| < thr

theorem LU.step_exact {A : Nat → Nat → K} {k : Nat} {s : LU K n n} {thr ninf : K} (hn : ninf < 0)
    (ht : 0 < thr) (hk : k < n) (h : LU.At A k s) :
    Wp (LU.step thr ninf k s) (Sum.elim (LU.At A (k + 1)) (LU.Stop A thr))
      (fun _ => False) := by
  obtain ⟨hs, ⟨σ, hσ⟩, hI⟩ := h
  unfold LU.step
  obtain ⟨t, et, u1, u2⟩ := LU.upper_ok hk s.lu
  obtain ⟨t', p, el, hJ, l1, l2⟩ := LU.lower_ok
    (LU.Best (fun row => lsub 0 k (fun i => Flt.mul (t.f row i) (t.f i k)) (t.f row k)) ninf k)
    (ninf := ninf) hk t (.inl ⟨rfl, rfl⟩) (fun row p h1 h2 h3 => LU.Best.step hn h1 h3)
  obtain ⟨b1, b2, -, b4⟩ := hJ.resolve_left (by omega)
  rw [et, ok_bind, el, ok_bind]
  dsimp only
  rw [wp_bind, wp_tget b2 hk]
  by_cases hlt : Flt.lt (Flt.abs (t'.f p.1 k)) thr = true
  · rw [if_pos hlt]
    refine (⟨rfl, ⟨σ, hσ⟩, k, _, hk, hI.mid hk u1 u2 l1 l2, fun i h1 h2 => ?_⟩ :
      LU.Stop A thr { s with lu := t', singular := true })
    have hlt' : |t'.f p.1 k| < thr := by simpa using hlt
    rw [l2 i h1 h2]
    rw [l2 _ b1 b2] at hlt'
    exact lt_of_le_of_lt (b4 i h1 h2) hlt'
  rw [if_neg hlt]
  have hbig : thr ≤ |t'.f p.1 k| := by simpa using hlt
  obtain ⟨s', es, p1, p2, p3, p4⟩ := LU.doPivot_ok b2 hk { s with lu := t' }
  obtain ⟨t'', ed, d1, d2⟩ := LU.divide_ok hk s'.lu
  rw [es, ok_bind, ed]
  have hkk : s'.lu.f k k = t'.f p.1 k := by rw [p1 k k hk]; simp
  have hmid := (hI.mid hk u1 u2 l1 l2).swap (f' := s'.lu.f) (p' := s'.pivot.f) hk b1 b2 p1 p2
  refine ⟨p4.trans hs, ⟨_, hσ.swap (s' := { s' with lu := t'' }) b2 hk p2 p3⟩,
    hmid.divide hk ?_ ?_ (fun x h1 h2 => by rw [d1 x h1 h2, Exact.div_eq]) d2⟩
  · rw [hkk]
    exact abs_pos.1 (lt_of_lt_of_le ht hbig)
  · intro i h1 h2
    rw [hkk, p1 i k hk]
    have hi : k ≤ Equiv.swap p.1 k i ∧ Equiv.swap p.1 k i < n := by
      rw [Equiv.swap_apply_def]
      split
      · omega
      · split <;> omega
    rw [l2 _ hi.1 hi.2, l2 _ b1 b2]
    exact b4 _ hi.1 hi.2

end exact

/-- Law-free: one column never faults, whatever the arithmetic. -/
theorem LU.step_safe {k : Nat} {s : LU α n n} {thr ninf : α} (hk : k < n)
    (hs : s.singular = false ∧ ∃ σ, s.Piv σ) :
    Wp (LU.step thr ninf k s) (Sum.elim (fun s => s.singular = false ∧ ∃ σ, s.Piv σ)
      fun s => s.singular = true ∧ ∃ σ, s.Piv σ) (fun _ => False) := by
  obtain ⟨hs, σ, hσ⟩ := hs
  unfold LU.step
  obtain ⟨t, et, -, -⟩ := LU.upper_ok hk s.lu
  obtain ⟨t', p, el, b2, -, -⟩ := LU.lower_ok (fun _ p => p.1 < n)
    (ninf := ninf) hk t hk (fun row p h1 h2 h3 => by
      dsimp only
      split
      · exact h2
      · exact h3)
  rw [et, ok_bind, el, ok_bind]
  dsimp only
  rw [wp_bind, wp_tget b2 hk]
  by_cases hlt : Flt.lt (Flt.abs (t'.f p.1 k)) thr = true
  · rw [if_pos hlt]
    exact ⟨rfl, σ, hσ⟩
  rw [if_neg hlt]
  obtain ⟨s', es, p1, p2, p3, p4⟩ := LU.doPivot_ok b2 hk { s with lu := t' }
  obtain ⟨t'', ed, d1, d2⟩ := LU.divide_ok hk s'.lu
  rw [es, ok_bind, ed]
  exact ⟨p4.trans hs, _, hσ.swap (s' := { s' with lu := t'' }) b2 hk p2 p3⟩

theorem Mat.colDim_ok {r c : Nat} {m : Mat α r c} (hr : 0 < r) : m.colDim = .ok c := by
  cases m with
  | arr m => exact Arr.colDim_ok m hr
  | _ => rfl

/-- The copy of the data of one of the package's matrices. -/
theorem Mat.dataCopy_ok {r c : Nat} {m : Mat α r c} (hm : m.own) (hc : 0 < c) {A : Nat → Nat → α}
    (hA : Shows m.at r c A) :
    ∃ t, m.dataCopy = .ok t ∧ ∀ i j, i < r → j < c → t.f i j = A i j := by
  revert hm hA
  cases m with
  | arr m =>
    intro _ hA
    obtain ⟨t, e, h⟩ := m.dataCopy_ok
    exact ⟨t, e, fun i j hi hj => by rw [h i j hi hj, Arr.data_of hA hi hj]⟩
  | blk m =>
    intro _ hA
    obtain ⟨t, e, h⟩ := m.dataCopy_ok hc
    exact ⟨t, e, fun i j hi hj => by rw [h i j hi hj, Blk.entB_of hA hi hj]⟩
  | dia m =>
    intro _ hA
    obtain ⟨t, e, h⟩ := m.dataCopy_ok
    exact ⟨t, e, fun i j hi hj => by rw [h i j hi hj, (Dia.shows m).unique hA hi hj]⟩
  | ext m => exact fun h => h.elim

/-- The loop over the columns, with an invariant `I` of a column and a claim `R` on an early end. -/
theorem LU.new_wp {thr ninf : α} {m : Mat α n n} (hm : m.own) (hn : 0 < n) {A : Nat → Nat → α}
    (hA : Shows m.at n n A) (I : Nat → LU α n n → Prop) (R : LU α n n → Prop)
    (h0 : ∀ s : LU α n n, s.singular = false → s.Piv 1 → (∀ i, i < n → s.pivot.f i = i) →
      (∀ i j, i < n → j < n → s.lu.f i j = A i j) → I 0 s)
    (hs : ∀ k s, k < n → I k s → Wp (LU.step thr ninf k s) (Sum.elim (I (k + 1)) R) (fun _ => False)) :
    ∃ d, LU.new thr ninf m = .ok d ∧ (I n d ∨ R d) := by
  unfold LU.new
  have hsq : m.isSquare = .ok true := by
    unfold Mat.isSquare
    rw [Mat.colDim_ok hn]
    simp [ok_bind, pure_eq_ok]
  obtain ⟨t, et, ht⟩ := Mat.dataCopy_ok hm hn hA
  obtain ⟨p, ep, hp⟩ := LU.pivot_init (n := n)
  rw [hsq, ok_bind]
  simp only [Bool.not_true, Bool.false_eq_true, if_false]
  rw [et, ok_bind, ep, ok_bind]
  refine Wp.exists_ok ?_
  rw [wp_bind]
  refine (wp_forUpBrk I R (Nat.zero_le _) (h0 _ rfl ⟨fun i => by simp [hp i i.2], by simp⟩ hp ht)
    fun k s _ h2 h3 => hs k s h2 h3).imp ?_
  rintro (s | s) h
  · exact .inl h
  · exact .inr h

end Linear
