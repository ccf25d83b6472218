import Verif.Model.LU
import Verif.Lemmas.MatLemmas
import Verif.Lemmas.ExactSums
import Verif.Lemmas.VecLemmas
import Mathlib.Algebra.BigOperators.Intervals
import Mathlib.Tactic.Ring
import Mathlib.Tactic.FieldSimp
import Mathlib.Tactic.LinearCombination

/-!
# Triangular substitution, and other loops shared by the decompositions
-/

set_option linter.unusedSectionVars false

namespace Linear

open Spec Finset

variable {α : Type} [Flt α]
variable {K : Type} [Field K] [LinearOrder K] [Flt K] [Exact K]

/-- `s - g a - g (a+1) - … - g (b-1)`, from left to right. -/
def lsub (a b : Nat) (g : Nat → α) (s : α) : α :=
  (List.range' a (b - a)).foldl (fun s i => Flt.sub s (g i)) s

theorem lsub_self {a b : Nat} (h : b ≤ a) (g : Nat → α) (s : α) : lsub a b g s = s := by
  unfold lsub; rw [Nat.sub_eq_zero_of_le h]; rfl

theorem lsub_succ {a b : Nat} (h : a ≤ b) (g : Nat → α) (s : α) :
    lsub a (b + 1) g s = Flt.sub (lsub a b g s) (g b) := by
  unfold lsub
  rw [show b + 1 - a = (b - a) + 1 by omega, List.range'_concat, List.foldl_append]
  simp [show a + (b - a) = b by omega]

theorem lsub_congr {a b : Nat} {g g' : Nat → α} {s : α} (h : ∀ i, a ≤ i → i < b → g i = g' i) :
    lsub a b g s = lsub a b g' s := by
  by_cases hab : a ≤ b
  · induction b, hab using Nat.le_induction with
    | base => rw [lsub_self le_rfl, lsub_self le_rfl]
    | succ b hab ih =>
      rw [lsub_succ hab, lsub_succ hab, ih fun i h1 h2 => h i h1 (by omega), h b hab (by omega)]
  · rw [lsub_self (by omega), lsub_self (by omega)]

theorem subUp_ok {ε : Type} {a b : Nat} {term : Nat → Except ε α} {s : α} (g : Nat → α)
    (h : ∀ i, a ≤ i → i < b → term i = .ok (g i)) :
    subUp a b term s = .ok (lsub a b g s) := by
  by_cases hab : a ≤ b
  · unfold subUp
    obtain ⟨x, e, hx⟩ := Wp.exists_ok (wp_forUp (E := fun _ : ε => False) (s := s)
      (body := fun i s => do return Flt.sub s (← term i))
      (fun k x => x = lsub a k g s) hab (lsub_self le_rfl _ _).symm (by
        rintro i x h1 h2 rfl
        rw [h i h1 h2]
        show _ = _
        rw [lsub_succ h1]))
    rw [e, hx]
  · unfold subUp
    rw [forUp_eq_self (by omega), lsub_self (by omega)]

theorem lsub_exact (a b : Nat) (g : Nat → K) (s : K) :
    lsub a b g s = s - ∑ i ∈ Finset.Ico a b, g i := by
  by_cases hab : a ≤ b
  · induction b, hab using Nat.le_induction with
    | base => simp [lsub_self]
    | succ b hab ih =>
      rw [lsub_succ hab, ih, Exact.sub_eq, Finset.sum_Ico_succ_top hab]
      ring
  · rw [lsub_self (by omega), Finset.Ico_eq_empty (by omega)]
    simp

/-- State of forward substitution before column `k`: rows before `k` are solved, the others have the
solved columns subtracted. -/
def Fwd (n : Nat) (L : Nat → Nat → K) (d b : Nat → K) (k : Nat) (y : Nat → K) : Prop :=
  ∀ i, i < n → (i < k → d i * y i + ∑ j ∈ range i, L i j * y j = b i) ∧
    (k ≤ i → y i = b i - ∑ j ∈ range k, L i j * y j)

theorem Fwd.init {n : Nat} {L : Nat → Nat → K} {d b y : Nat → K} (h : ∀ i, i < n → y i = b i) :
    Fwd n L d b 0 y := fun i hi => ⟨by omega, fun _ => by simp [h i hi]⟩

theorem Fwd.step {n k : Nat} {L : Nat → Nat → K} {d b y y' : Nat → K} (h : Fwd n L d b k y)
    (hk : k < n) (hd : d k ≠ 0) (h0 : ∀ i, i < k → y' i = y i) (h1 : y' k = y k / d k)
    (h2 : ∀ i, k < i → i < n → y' i = y i - L i k * y' k) : Fwd n L d b (k + 1) y' := by
  have hs : ∀ i m, m ≤ k → ∑ j ∈ range m, L i j * y' j = ∑ j ∈ range m, L i j * y j := by
    intro i m hm
    refine sum_congr rfl fun j hj => ?_
    rw [h0 j (by have := mem_range.1 hj; omega)]
  intro i hi
  refine ⟨fun hik => ?_, fun hik => ?_⟩
  · by_cases e : i = k
    · subst e
      rw [hs _ _ le_rfl, h1, mul_div_cancel₀ _ hd, (h i hi).2 le_rfl]
      ring
    · rw [hs _ _ (by omega), h0 i (by omega)]
      exact (h i hi).1 (by omega)
  · rw [sum_range_succ, hs _ _ le_rfl, h2 i (by omega) hi, (h i hi).2 (by omega)]
    ring

theorem Fwd.done {n : Nat} {L : Nat → Nat → K} {d b y : Nat → K} (h : Fwd n L d b n y) {i : Nat}
    (hi : i < n) : d i * y i + ∑ j ∈ range i, L i j * y j = b i := (h i hi).1 hi

/-- State of backward substitution when the columns from `k` on are done. -/
def Bwd (n : Nat) (U : Nat → Nat → K) (b : Nat → K) (k : Nat) (x : Nat → K) : Prop :=
  ∀ i, i < n → (k ≤ i → ∑ j ∈ Ico i n, U i j * x j = b i) ∧
    (i < k → x i = b i - ∑ j ∈ Ico k n, U i j * x j)

theorem Bwd.init {n : Nat} {U : Nat → Nat → K} {b x : Nat → K} (h : ∀ i, i < n → x i = b i) :
    Bwd n U b n x := fun i hi => ⟨by omega, fun _ => by simp [h i hi]⟩

theorem Bwd.step {n k : Nat} {U : Nat → Nat → K} {b x x' : Nat → K} (h : Bwd n U b (k + 1) x)
    (hk : k < n) (hd : U k k ≠ 0) (h0 : ∀ i, k < i → i < n → x' i = x i) (h1 : x' k = x k / U k k)
    (h2 : ∀ i, i < k → x' i = x i - U i k * x' k) : Bwd n U b k x' := by
  have hs : ∀ i m, k < m → ∑ j ∈ Ico m n, U i j * x' j = ∑ j ∈ Ico m n, U i j * x j := by
    intro i m hm
    refine sum_congr rfl fun j hj => ?_
    have := mem_Ico.1 hj
    rw [h0 j (by omega) (by omega)]
  intro i hi
  refine ⟨fun hik => ?_, fun hik => ?_⟩
  · by_cases e : i = k
    · subst e
      rw [sum_eq_sum_Ico_succ_bot hi, hs _ _ (by omega), h1, mul_div_cancel₀ _ hd,
        (h i hi).2 (by omega)]
      ring
    · rw [hs _ _ (by omega)]
      exact (h i hi).1 (by omega)
  · rw [sum_eq_sum_Ico_succ_bot hk, hs _ _ (by omega), h2 i hik, (h i hi).2 (by omega)]
    ring

theorem Bwd.done {n : Nat} {U : Nat → Nat → K} {b x : Nat → K} (h : Bwd n U b 0 x) {i : Nat}
    (hi : i < n) : ∑ j ∈ Ico i n, U i j * x j = b i := (h i hi).1 (Nat.zero_le _)

/-- Back substitution always ends: an upper triangular system with non-zero diagonal has a solution. -/
theorem Bwd.exists {n : Nat} {U : Nat → Nat → K} {b : Nat → K} (hd : ∀ k, k < n → U k k ≠ 0) (k : Nat)
    (hk : k ≤ n) : ∃ x, Bwd n U b k x := by
  induction hk using Nat.decreasingInduction with
  | self => exact ⟨b, Bwd.init fun _ _ => rfl⟩
  | of_succ k hk ih =>
    obtain ⟨x, hx⟩ := ih
    refine ⟨fun i => if i < k then x i - U i k * (x k / U k k) else
      if i = k then x k / U k k else x i, hx.step hk (hd k hk) ?_ ?_ ?_⟩
    · intro i h1 _
      rw [if_neg (by omega), if_neg (by omega)]
    · simp
    · intro i hi
      simp [hi]

/-! ## Loops over rows and tables -/

/-- `for i := a; i < b; i++ { x[i] = g i x[i] }` where `g` may read entries outside `[a, i)`. -/
theorem Row.loop {ε : Type} {n a b : Nat} (g : Nat → α → α) {t : Row α n}
    {body : Nat → Row α n → Except ε (Row α n)}
    (h : ∀ i (t' : Row α n), a ≤ i → i < b → (∀ k, ¬ (a ≤ k ∧ k < i) → t'.f k = t.f k) →
      body i t' = .ok ⟨upd1 t'.f i (g i (t.f i))⟩) :
    ∃ t' : Row α n, forUp a b body t = .ok t' ∧ (∀ i, a ≤ i → i < b → t'.f i = g i (t.f i)) ∧
      ∀ i, ¬ (a ≤ i ∧ i < b) → t'.f i = t.f i := by
  by_cases hab : a ≤ b
  · refine Wp.exists_ok ((wr_loop' (fun (t : Row α n) x _ => t.f x) (fun x _ => g x (t.f x))
      (fun i x _ => x = i) hab ?_).imp ?_)
    · intro i t' h1 h2 hw
      rw [h i t' h1 h2 fun k hk => (hw k 0).2 (by rintro ⟨i', h3, h4, rfl⟩; exact hk ⟨h3, h4⟩)]
      exact Wr.upd1 fun _ => rfl
    · intro t' hw
      refine ⟨fun i h1 h2 => (hw i 0).1 ⟨i, h1, h2, rfl⟩, fun i hi => (hw i 0).2 ?_⟩
      rintro ⟨i', h3, h4, rfl⟩; exact hi ⟨h3, h4⟩
  · rw [forUp_eq_self (by omega)]
    exact ⟨t, rfl, by omega, fun _ _ => rfl⟩

/-- `for j := a; j < b; j++ { x[i][j] = g j x[i][j] }`. -/
theorem Tab.rowLoop {ε : Type} {r c a b i : Nat} (g : Nat → α → α) {t : Tab α r c}
    {body : Nat → Tab α r c → Except ε (Tab α r c)}
    (h : ∀ j (t' : Tab α r c), a ≤ j → j < b →
      (∀ x y, ¬ (x = i ∧ a ≤ y ∧ y < j) → t'.f x y = t.f x y) →
      body j t' = .ok ⟨upd2 t'.f i j (g j (t.f i j))⟩) :
    ∃ t' : Tab α r c, forUp a b body t = .ok t' ∧
      (∀ j, a ≤ j → j < b → t'.f i j = g j (t.f i j)) ∧
      ∀ x y, ¬ (x = i ∧ a ≤ y ∧ y < b) → t'.f x y = t.f x y := by
  by_cases hab : a ≤ b
  · refine Wp.exists_ok ((wr_loop' (fun (t : Tab α r c) => t.f) (fun x y => g y (t.f x y))
      (fun j x y => x = i ∧ y = j) hab ?_).imp ?_)
    · intro j t' h1 h2 hw
      rw [h j t' h1 h2 fun x y hxy => (hw x y).2
        (by rintro ⟨j', h3, h4, rfl, rfl⟩; exact hxy ⟨rfl, h3, h4⟩)]
      exact Wr.upd2 rfl
    · intro t' hw
      refine ⟨fun j h1 h2 => (hw i j).1 ⟨j, h1, h2, rfl, rfl⟩, fun x y hxy => (hw x y).2 ?_⟩
      rintro ⟨j', h3, h4, rfl, rfl⟩; exact hxy ⟨rfl, h3, h4⟩
  · rw [forUp_eq_self (by omega)]
    exact ⟨t, rfl, by omega, fun _ _ _ => rfl⟩

/-- `for i := a; i < b; i++ { x[i][j] = g i x[i][j] }`. -/
theorem Tab.colLoop {ε : Type} {r c a b j : Nat} (g : Nat → α → α) {t : Tab α r c}
    {body : Nat → Tab α r c → Except ε (Tab α r c)}
    (h : ∀ i (t' : Tab α r c), a ≤ i → i < b →
      (∀ x y, ¬ (y = j ∧ a ≤ x ∧ x < i) → t'.f x y = t.f x y) →
      body i t' = .ok ⟨upd2 t'.f i j (g i (t.f i j))⟩) :
    ∃ t' : Tab α r c, forUp a b body t = .ok t' ∧
      (∀ i, a ≤ i → i < b → t'.f i j = g i (t.f i j)) ∧
      ∀ x y, ¬ (y = j ∧ a ≤ x ∧ x < b) → t'.f x y = t.f x y := by
  by_cases hab : a ≤ b
  · refine Wp.exists_ok ((wr_loop' (fun (t : Tab α r c) => t.f) (fun x y => g x (t.f x y))
      (fun i x y => x = i ∧ y = j) hab ?_).imp ?_)
    · intro i t' h1 h2 hw
      rw [h i t' h1 h2 fun x y hxy => (hw x y).2
        (by rintro ⟨j', h3, h4, rfl, rfl⟩; exact hxy ⟨rfl, h3, h4⟩)]
      exact Wr.upd2 rfl
    · intro t' hw
      refine ⟨fun i h1 h2 => (hw i j).1 ⟨i, h1, h2, rfl, rfl⟩, fun x y hxy => (hw x y).2 ?_⟩
      rintro ⟨j', h3, h4, rfl, rfl⟩; exact hxy ⟨rfl, h3, h4⟩
  · rw [forUp_eq_self (by omega)]
    exact ⟨t, rfl, by omega, fun _ _ _ => rfl⟩

/-- A loop over rows `[a, b)`, each iteration rewriting columns `[p, q)` of its own row. -/
theorem Tab.rowsLoop {ε : Type} {r c a b p q : Nat} (g : Nat → Nat → α → α) {t : Tab α r c}
    {body : Nat → Tab α r c → Except ε (Tab α r c)}
    (h : ∀ i (t' : Tab α r c), a ≤ i → i < b →
      (∀ x y, ¬ (a ≤ x ∧ x < i ∧ p ≤ y ∧ y < q) → t'.f x y = t.f x y) →
      ∃ t'' : Tab α r c, body i t' = .ok t'' ∧
        (∀ j, p ≤ j → j < q → t''.f i j = g i j (t.f i j)) ∧
        ∀ x y, ¬ (x = i ∧ p ≤ y ∧ y < q) → t''.f x y = t'.f x y) :
    ∃ t' : Tab α r c, forUp a b body t = .ok t' ∧
      (∀ i j, a ≤ i → i < b → p ≤ j → j < q → t'.f i j = g i j (t.f i j)) ∧
      ∀ x y, ¬ (a ≤ x ∧ x < b ∧ p ≤ y ∧ y < q) → t'.f x y = t.f x y := by
  by_cases hab : a ≤ b
  · refine Wp.exists_ok ((wr_loop' (fun (t : Tab α r c) => t.f) (fun x y => g x y (t.f x y))
      (fun i x y => x = i ∧ p ≤ y ∧ y < q) hab ?_).imp ?_)
    · intro i t' h1 h2 hw
      obtain ⟨t'', e, h3, h4⟩ := h i t' h1 h2 fun x y hxy => (hw x y).2
        (by rintro ⟨j', h3, h4, rfl, h5, h6⟩; exact hxy ⟨h3, h4, h5, h6⟩)
      rw [e]
      intro x y
      exact ⟨by rintro ⟨rfl, h5, h6⟩; exact h3 y h5 h6, fun hn => h4 x y hn⟩
    · intro t' hw
      refine ⟨fun i j h1 h2 h3 h4 => (hw i j).1 ⟨i, h1, h2, rfl, h3, h4⟩, fun x y hxy => (hw x y).2 ?_⟩
      rintro ⟨j', h3, h4, rfl, h5, h6⟩; exact hxy ⟨h3, h4, h5, h6⟩
  · rw [forUp_eq_self (by omega)]
    exact ⟨t, rfl, by omega, fun _ _ _ => rfl⟩

/-! ## Substitution loops -/

theorem Row.fwdLoop {ε : Type} {n : Nat} {L : Nat → Nat → K} {d : Nat → K}
    (hd : ∀ k, k < n → d k ≠ 0) {t : Row K n} {body : Nat → Row K n → Except ε (Row K n)}
    (h : ∀ k (y : Row K n), k < n → ∃ y' : Row K n, body k y = .ok y' ∧
      (∀ i, i < k → y'.f i = y.f i) ∧ y'.f k = y.f k / d k ∧
      ∀ i, k < i → i < n → y'.f i = y.f i - L i k * y'.f k) :
    ∃ y : Row K n, forUp 0 n body t = .ok y ∧ Fwd n L d t.f n y.f := by
  refine Wp.exists_ok (wp_forUp (fun k (y : Row K n) => Fwd n L d t.f k y.f) (Nat.zero_le _)
    (Fwd.init fun _ _ => rfl) ?_)
  intro k y _ hk hy
  obtain ⟨y', e, h1, h2, h3⟩ := h k y hk
  rw [e]
  exact hy.step hk (hd k hk) h1 h2 h3

theorem Row.bwdLoop {ε : Type} {n : Nat} {U : Nat → Nat → K} (hd : ∀ k, k < n → U k k ≠ 0)
    {t : Row K n} {body : Nat → Row K n → Except ε (Row K n)}
    (h : ∀ k (y : Row K n), k < n → ∃ y' : Row K n, body k y = .ok y' ∧
      (∀ i, k < i → i < n → y'.f i = y.f i) ∧ y'.f k = y.f k / U k k ∧
      ∀ i, i < k → y'.f i = y.f i - U i k * y'.f k) :
    ∃ y : Row K n, forDown n 0 body t = .ok y ∧ Bwd n U t.f 0 y.f := by
  refine Wp.exists_ok (wp_forDown (fun k (y : Row K n) => Bwd n U t.f k y.f) (Nat.zero_le _)
    (Bwd.init fun _ _ => rfl) ?_)
  intro k y _ hk hy
  obtain ⟨y', e, h1, h2, h3⟩ := h k y hk
  rw [e]
  exact hy.step hk (hd k hk) h1 h2 h3

theorem Tab.fwdLoop {ε : Type} {n q : Nat} {L : Nat → Nat → K} {d : Nat → K}
    (hd : ∀ k, k < n → d k ≠ 0) {t : Tab K n q} {body : Nat → Tab K n q → Except ε (Tab K n q)}
    (h : ∀ k (y : Tab K n q), k < n → ∃ y' : Tab K n q, body k y = .ok y' ∧ ∀ j, j < q →
      (∀ i, i < k → y'.f i j = y.f i j) ∧ y'.f k j = y.f k j / d k ∧
      ∀ i, k < i → i < n → y'.f i j = y.f i j - L i k * y'.f k j) :
    ∃ y : Tab K n q, forUp 0 n body t = .ok y ∧
      ∀ j, j < q → Fwd n L d (fun i => t.f i j) n fun i => y.f i j := by
  refine Wp.exists_ok (wp_forUp (fun k (y : Tab K n q) =>
    ∀ j, j < q → Fwd n L d (fun i => t.f i j) k fun i => y.f i j) (Nat.zero_le _)
    (fun _ _ => Fwd.init fun _ _ => rfl) ?_)
  intro k y _ hk hy
  obtain ⟨y', e, h'⟩ := h k y hk
  rw [e]
  intro j hj
  obtain ⟨h1, h2, h3⟩ := h' j hj
  exact (hy j hj).step hk (hd k hk) h1 h2 h3

theorem Tab.bwdLoop {ε : Type} {n q : Nat} {U : Nat → Nat → K} (hd : ∀ k, k < n → U k k ≠ 0)
    {t : Tab K n q} {body : Nat → Tab K n q → Except ε (Tab K n q)}
    (h : ∀ k (y : Tab K n q), k < n → ∃ y' : Tab K n q, body k y = .ok y' ∧ ∀ j, j < q →
      (∀ i, k < i → i < n → y'.f i j = y.f i j) ∧ y'.f k j = y.f k j / U k k ∧
      ∀ i, i < k → y'.f i j = y.f i j - U i k * y'.f k j) :
    ∃ y : Tab K n q, forDown n 0 body t = .ok y ∧
      ∀ j, j < q → Bwd n U (fun i => t.f i j) 0 fun i => y.f i j := by
  refine Wp.exists_ok (wp_forDown (fun k (y : Tab K n q) =>
    ∀ j, j < q → Bwd n U (fun i => t.f i j) k fun i => y.f i j) (Nat.zero_le _)
    (fun _ _ => Bwd.init fun _ _ => rfl) ?_)
  intro k y _ hk hy
  obtain ⟨y', e, h'⟩ := h k y hk
  rw [e]
  intro j hj
  obtain ⟨h1, h2, h3⟩ := h' j hj
  exact (hy j hj).step hk (hd k hk) h1 h2 h3

/-! ## Filling a fresh matrix with `SetEntry` -/

/-- The entries of a matrix inside its bounds, zero outside. -/
def Mat.win {r c : Nat} (m : Mat α r c) (x y : Nat) : α := if x < r ∧ y < c then m.ent x y else Flt.zero

theorem Mat.put_ok {r c : Nat} {m : Mat α r c} (hm : m.dense) {i j : Nat} (hi : i < r) (hj : j < c)
    (v : α) : ∃ m' : Mat α r c, m.put i j v = .ok m' ∧ m'.dense ∧ m'.win = upd2 m.win i j v := by
  obtain ⟨m', e, h1, h2⟩ := Mat.setEntry_dense hm (i := i) (j := j) v
    (by unfold Spec.inRange; omega)
  refine ⟨m', ?_, h1, ?_⟩
  · unfold Mat.put; rw [e]
  · funext x y
    unfold Mat.win
    rw [upd2_eq]
    by_cases hxy : x < r ∧ y < c
    · rw [if_pos hxy, h2 x y hxy.1 hxy.2, upd2_eq, if_pos hxy]; simp
    · rw [if_neg hxy, if_neg hxy, if_neg (by rintro ⟨rfl, rfl⟩; exact hxy ⟨hi, hj⟩)]

theorem Mat.win_shows {r c : Nat} (m : Mat α r c) : Shows m.at r c m.win :=
  m.at_shows.congr fun i j hi hj => by unfold Mat.win; rw [if_pos ⟨hi, hj⟩]

/-- A loop of writes into a matrix, each iteration `i` writing `g` on the cells of `S i`. -/
theorem Mat.putLoop {r c a b : Nat} (hab : a ≤ b) (g : Nat → Nat → α) (S : Nat → Nat → Nat → Prop)
    {m : Mat α r c} (hm : m.dense) {body : Nat → Mat α r c → Res (Mat α r c)}
    (h : ∀ i (m' : Mat α r c), a ≤ i → i < b → m'.dense → ∃ m'' : Mat α r c, body i m' = .ok m'' ∧
      m''.dense ∧ Wr g (S i) m'.win m''.win) :
    ∃ m' : Mat α r c, forUp a b body m = .ok m' ∧ m'.dense ∧
      Wr g (fun x y => ∃ i, a ≤ i ∧ i < b ∧ S i x y) m.win m'.win := by
  refine Wp.exists_ok ((wr_loop (fun m : Mat α r c => m.win) g S (fun _ m => m.dense) hab hm ?_).imp
    fun s h => h)
  intro i m' h1 h2 h3 _
  obtain ⟨m'', e, h4, h5⟩ := h i m' h1 h2 h3
  rw [e]
  exact ⟨h4, h5⟩

/-- A fresh matrix from the factory, as the decompositions use it. -/
theorem Mat.new_win {r c : Nat} (hr : 0 < r) (hc : 0 < c) :
    ∃ m : Mat α r c, (Mat.new (r : Int) (c : Int) : Res (Mat α r c)) = .ok m ∧ m.dense ∧
      m.win = fun _ _ => Flt.zero := by
  obtain ⟨m, e, h1, h3⟩ := Mat.new_ok (α := α) (r := r) (c := c) (by omega) (by omega)
  refine ⟨m, e, h1, ?_⟩
  funext x y
  unfold Mat.win
  split
  · rename_i h
    exact h3 x y h.1 h.2
  · rfl

theorem SMat.fromSlices_dense {d : List (List α)} {r c : Nat} {A : Nat → Nat → α} (h : Rect d r c A)
    (hr : 0 < r) (hc : 0 < c) (firstNil : Bool) :
    ∃ m : Mat α r c, SMat.fromSlices (some d) firstNil = .ok ⟨r, c, m⟩ ∧ m.dense ∧
      Shows m.at r c A := by
  obtain ⟨row0, e0, l0, -⟩ := h.2 0 hr
  unfold SMat.fromSlices
  dsimp only
  rw [rdL_eq_ok.2 e0, ok_bind, if_neg (by omega)]
  by_cases hs : d.length * row0.length ≤ 4096
  · rw [if_pos hs]
    obtain ⟨m, h1, h2⟩ := Arr.fromSlices_ok h hr hc true fun _ => 0
    rw [h1]
    exact ⟨.arr m, rfl, trivial, h2⟩
  · rw [if_neg hs]
    obtain ⟨m, h1, h2⟩ := Blk.fromSlices_ok h hr hc
    rw [h1]
    exact ⟨.blk m, rfl, trivial, h2⟩

end Linear
