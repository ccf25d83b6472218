import Verif.Lemmas.Round
import Verif.Props.LU

/-!
# The LU decomposition in any arithmetic, and its rounding errors
-/

set_option linter.unusedSectionVars false

namespace Linear

open Spec Rnd
open Finset hiding val diag

variable {α : Type} [Flt α] {n : Nat}

/-- Columns before `k` hold the two factors, operation by operation; the others hold the permuted
matrix. -/
structure LU.RInv (n : Nat) (A : Nat → Nat → α) (p : Nat → Nat) (k : Nat) (f : Nat → Nat → α) :
    Prop where
  up : ∀ i j, i < n → j < n → j < k → i ≤ j →
    f i j = lsub 0 i (fun x => Flt.mul (f i x) (f x j)) (A (p i) j)
  lo : ∀ i j, i < n → j < n → j < k → j < i →
    f i j = Flt.div (lsub 0 j (fun x => Flt.mul (f i x) (f x j)) (A (p i) j)) (f j j)
  rest : ∀ i j, i < n → j < n → k ≤ j → f i j = A (p i) j

/-- After the sums of column `k`, before its division. -/
structure LU.RMid (n : Nat) (A : Nat → Nat → α) (p : Nat → Nat) (k : Nat) (f : Nat → Nat → α) :
    Prop where
  up : ∀ i j, i < n → j < n → j < k → i ≤ j →
    f i j = lsub 0 i (fun x => Flt.mul (f i x) (f x j)) (A (p i) j)
  lo : ∀ i j, i < n → j < n → j < k → j < i →
    f i j = Flt.div (lsub 0 j (fun x => Flt.mul (f i x) (f x j)) (A (p i) j)) (f j j)
  col : ∀ i, i < n → f i k = lsub 0 (min i k) (fun x => Flt.mul (f i x) (f x k)) (A (p i) k)
  rest : ∀ i j, i < n → j < n → k < j → f i j = A (p i) j

theorem LU.RMid.swap {A f f' : Nat → Nat → α} {p p' : Nat → Nat} {k q : Nat}
    (h : LU.RMid n A p k f) (hk : k < n) (hq : k ≤ q) (hqn : q < n)
    (hf : ∀ x y, y < n → f' x y = f (Equiv.swap q k x) y)
    (hp : ∀ x, p' x = p (Equiv.swap q k x)) : LU.RMid n A p' k f' := by
  have lo : ∀ x, x < k → Equiv.swap q k x = x := fun x hx =>
    Equiv.swap_apply_of_ne_of_ne (by omega) (by omega)
  have hi : ∀ x, k ≤ x → x < n → k ≤ Equiv.swap q k x ∧ Equiv.swap q k x < n := by
    intro x h1 h2
    rw [Equiv.swap_apply_def]
    split
    · omega
    · split <;> omega
  have hn : ∀ x, x < n → Equiv.swap q k x < n := by
    intro x hx
    by_cases e : x < k
    · rw [lo x e]; exact hx
    · exact (hi x (by omega) hx).2
  have hmin : ∀ i, i < n → min (Equiv.swap q k i) k = min i k := by
    intro i h1
    by_cases e : i < k
    · rw [lo i e]
    · have := hi i (by omega) h1
      omega
  have hs : ∀ i j m, m ≤ k → j < n → lsub 0 m (fun x => Flt.mul (f' i x) (f' x j)) (A (p' i) j) =
      lsub 0 m (fun x => Flt.mul (f (Equiv.swap q k i) x) (f x j)) (A (p (Equiv.swap q k i)) j) := by
    intro i j m hm hj
    rw [hp]
    exact lsub_congr fun x _ hx => by rw [hf i x (by omega), hf x j hj, lo x (by omega)]
  constructor
  · intro i j h1 h2 h3 h4
    rw [hs i j i (by omega) h2, hf i j h2, lo i (by omega)]
    exact h.up i j h1 h2 h3 h4
  · intro i j h1 h2 h3 h4
    have h5 : j < Equiv.swap q k i := by
      by_cases e : i < k
      · rw [lo i e]; exact h4
      · have := hi i (by omega) h1
        omega
    rw [hs i j j (by omega) h2, hf i j h2, hf j j h2, lo j h3]
    exact h.lo _ j (hn i h1) h2 h3 h5
  · intro i h1
    rw [hs i k _ (by omega) hk, hf i k hk, ← hmin i h1]
    exact h.col _ (hn i h1)
  · intro i j h1 h2 h3
    rw [hp, hf i j h2]
    exact h.rest _ j (hn i h1) h2 h3

theorem LU.RMid.divide {A f f' : Nat → Nat → α} {p : Nat → Nat} {k : Nat} (h : LU.RMid n A p k f)
    (hk : k < n) (h1 : ∀ x, k < x → x < n → f' x k = Flt.div (f x k) (f k k))
    (h2 : ∀ x y, ¬ (y = k ∧ k < x ∧ x < n) → f' x y = f x y) : LU.RInv n A p (k + 1) f' := by
  have hs : ∀ i j m, m ≤ k → m ≤ j → lsub 0 m (fun x => Flt.mul (f' i x) (f' x j)) (A (p i) j) =
      lsub 0 m (fun x => Flt.mul (f i x) (f x j)) (A (p i) j) := by
    intro i j m hm hj
    exact lsub_congr fun x _ hx => by rw [h2 i x (by omega), h2 x j (by omega)]
  constructor
  · intro i j hi hj hjk hij
    rw [hs i j i (by omega) hij, h2 i j (by omega)]
    by_cases e : j = k
    · subst e
      have := h.col i hi
      rwa [min_eq_left hij] at this
    · exact h.up i j hi hj (by omega) hij
  · intro i j hi hj hjk hij
    rw [hs i j j (by omega) le_rfl, h2 j j (by omega)]
    by_cases e : j = k
    · subst e
      have := h.col i hi
      rw [min_eq_right hij.le] at this
      rw [h1 i hij hi, this]
    · rw [h2 i j (by omega)]
      exact h.lo i j hi hj (by omega) hij
  · intro i j hi hj hjk
    rw [h2 i j (by omega)]
    exact h.rest i j hi hj (by omega)

theorem LU.RInv.mid {A f f' f'' : Nat → Nat → α} {p : Nat → Nat} {k : Nat} (h : LU.RInv n A p k f)
    (hk : k < n) (u1 : ∀ x y, ¬ (y = k ∧ x < k) → f' x y = f x y)
    (u2 : ∀ x, x < k → f' x k = lsub 0 x (fun i => Flt.mul (f' x i) (f' i k)) (f x k))
    (l1 : ∀ x y, ¬ (y = k ∧ k ≤ x ∧ x < n) → f'' x y = f' x y)
    (l2 : ∀ x, k ≤ x → x < n → f'' x k = lsub 0 k (fun i => Flt.mul (f' x i) (f' i k)) (f' x k)) :
    LU.RMid n A p k f'' := by
  have hne : ∀ x y, y ≠ k → f'' x y = f x y := fun x y hy => by
    rw [l1 x y (by omega), u1 x y (by omega)]
  have hs : ∀ i j m, m ≤ k → m ≤ j → j ≠ k →
      lsub 0 m (fun x => Flt.mul (f'' i x) (f'' x j)) (A (p i) j) =
      lsub 0 m (fun x => Flt.mul (f i x) (f x j)) (A (p i) j) := by
    intro i j m hm hj hjk
    exact lsub_congr fun x _ hx => by rw [hne i x (by omega), hne x j hjk]
  constructor
  · intro i j hi hj hjk hij
    rw [hs i j i (by omega) hij (by omega), hne i j (by omega)]
    exact h.up i j hi hj hjk hij
  · intro i j hi hj hjk hij
    rw [hs i j j (by omega) le_rfl (by omega), hne i j (by omega), hne j j (by omega)]
    exact h.lo i j hi hj hjk hij
  · intro i hi
    have hs : lsub 0 (min i k) (fun x => Flt.mul (f'' i x) (f'' x k)) (A (p i) k) =
        lsub 0 (min i k) (fun x => Flt.mul (f' i x) (f' x k)) (A (p i) k) :=
      lsub_congr fun x _ hx => by rw [l1 i x (by omega), l1 x k (by omega)]
    rw [hs, ← h.rest i k hi hk le_rfl]
    by_cases e : i < k
    · rw [l1 i k (by omega), u2 i e, min_eq_left e.le]
    · rw [l2 i (by omega) hi, min_eq_right (by omega), u1 i k (by omega)]
  · intro i j hi hj hjk
    rw [hne i j (by omega)]
    exact h.rest i j hi hj hjk.le

/-- The state of the decomposition before column `k`, in any arithmetic. -/
def LU.BAt (A : Nat → Nat → α) (k : Nat) (s : LU α n n) : Prop :=
  s.singular = false ∧ (∃ σ, s.Piv σ) ∧ LU.RInv n A s.pivot.f k s.lu.f

theorem LU.step_bits {A : Nat → Nat → α} {k : Nat} {s : LU α n n} {thr ninf : α} (hk : k < n)
    (h : LU.BAt A k s) :
    Wp (LU.step thr ninf k s) (Sum.elim (LU.BAt A (k + 1)) fun s => s.singular = true)
      (fun _ => False) := by
  obtain ⟨hs, ⟨σ, hσ⟩, hI⟩ := h
  unfold LU.step
  obtain ⟨t, et, u1, u2⟩ := LU.upper_ok hk s.lu
  obtain ⟨t', p, el, ⟨b1, b2⟩, l1, l2⟩ := LU.lower_ok (fun _ p => k ≤ p.1 ∧ p.1 < n)
    (ninf := ninf) hk t ⟨le_rfl, hk⟩ (fun row p h1 h2 h3 => by
      dsimp only
      split
      · exact ⟨h1, h2⟩
      · exact h3)
  rw [et, ok_bind, el, ok_bind]
  dsimp only
  rw [wp_bind, wp_tget b2 hk]
  by_cases hlt : Flt.lt (Flt.abs (t'.f p.1 k)) thr = true
  · rw [if_pos hlt]
    exact (rfl : true = true)
  rw [if_neg hlt]
  obtain ⟨s', es, p1, p2, p3, p4⟩ := LU.doPivot_ok b2 hk { s with lu := t' }
  obtain ⟨t'', ed, d1, d2⟩ := LU.divide_ok hk s'.lu
  rw [es, ok_bind, ed]
  have hmid := (hI.mid hk u1 u2 l1 l2).swap (f' := s'.lu.f) (p' := s'.pivot.f) hk b1 b2 p1 p2
  exact ⟨p4.trans hs, ⟨_, hσ.swap (s' := { s' with lu := t'' }) b2 hk p2 p3⟩, hmid.divide hk d1 d2⟩

theorem LU.new_bits {thr ninf : α} {m : Mat α n n} (hm : m.own) (hn : 0 < n) {A : Nat → Nat → α}
    (hA : Shows m.at n n A) :
    ∃ d, LU.new thr ninf m = .ok d ∧ (LU.BAt A n d ∨ d.singular = true) := by
  refine LU.new_wp hm hn hA (LU.BAt A) (fun s => s.singular = true) ?_
    fun k s hk h => LU.step_bits hk h
  intro s h1 h2 h3 h4
  refine ⟨h1, ⟨1, h2⟩, ⟨fun i j _ _ h => by omega, fun i j _ _ h => by omega, fun i j hi hj _ => ?_⟩⟩
  rw [h3 i hi]; exact h4 i j hi hj

/-- The two substitutions of `SolveVector` and of each column of `SolveMatrix`. -/
structure LU.Subst (n : Nat) (f : Nat → Nat → α) (b y x : Nat → α) : Prop where
  fwd : ∀ i, i < n → y i = lsub 0 i (fun k => Flt.mul (y k) (f i k)) (b i)
  bwd : ∀ i, i < n → x i = Flt.div (rsub (i + 1) n (fun k => Flt.mul (x k) (f i k)) (y i)) (f i i)

theorem LU.solveVector_bits {d : LU α n n} (hs : d.singular = false) {σ : Equiv.Perm (Fin n)}
    (hσ : ∀ i : Fin n, d.pivot.f i = σ i) {b : RVec α} (hb : b.dim = n) :
    ∃ x y, d.solveVector b = .ok x ∧ x.length = n ∧
      LU.Subst n d.lu.f (fun i => nth b.list (d.pivot.f i)) y (nth x) := by
  unfold LU.solveVector
  rw [if_neg (by simpa using hb)]
  simp only [hs, Bool.false_eq_true, if_false]
  obtain ⟨b0, e0, h0, -⟩ := Row.loop (ε := Fault) (a := 0) (b := n) (t := Row.zero n)
    (fun i _ => nth b.list (d.pivot.f i))
    (body := fun row (bp : Row α n) => do bp.set row (← b.at (← d.pivot.get row))) (by
      intro i t _ hi _
      have hpi : d.pivot.f i < n := by rw [hσ ⟨i, hi⟩]; exact (σ ⟨i, hi⟩).2
      rw [Row.get_ok hi, ok_bind, RVec.at_nth _ (by omega), ok_bind, Row.set_ok hi])
  obtain ⟨y, ey, hy⟩ := fwdBits (ε := Fault) (n := n) (ι := Unit) (fun _ (s : Row α n) => s.f) (fun _ v => v)
    (fun i k v => Flt.mul v (d.lu.f i k)) (s := b0) (body := fun col (bp : Row α n) => do
      let bpCol ← bp.get col
      forUp (col + 1) n (fun i (bp : Row α n) => do
        bp.set i (Flt.sub (← bp.get i) (Flt.mul bpCol (← d.lu.get i col)))) bp) (by
    intro k y hk
    rw [Row.get_ok hk, ok_bind]
    obtain ⟨y', e, h1, h2⟩ := Row.loop (ε := Fault) (a := k + 1) (b := n) (t := y)
      (fun i v => Flt.sub v (Flt.mul (y.f k) (d.lu.f i k)))
      (body := fun i (bp : Row α n) => do
        bp.set i (Flt.sub (← bp.get i) (Flt.mul (y.f k) (← d.lu.get i k)))) (by
      intro i t h1 h2 h3
      rw [Row.get_ok h2, ok_bind, Tab.get_ok h2 hk, ok_bind, Row.set_ok h2, h3 i (by omega)])
    refine ⟨y', e, fun _ => ⟨fun i hi => h2 i (by omega), h2 k (by omega), fun i h3 h4 => ?_⟩⟩
    rw [h1 i h3 h4, h2 k (by omega)])
  obtain ⟨x, ex, hx⟩ := bwdBits (ε := Fault) (n := n) (ι := Unit) (fun _ (s : Row α n) => s.f)
    (fun k v => Flt.div v (d.lu.f k k))
    (fun i k v => Flt.mul v (d.lu.f i k)) (s := y) (body := fun col (bp : Row α n) => do
      let bp ← bp.set col (Flt.div (← bp.get col) (← d.lu.get col col))
      let bpCol ← bp.get col
      forUp 0 col (fun i (bp : Row α n) => do
        bp.set i (Flt.sub (← bp.get i) (Flt.mul bpCol (← d.lu.get i col)))) bp) (by
    intro k y hk
    rw [Row.get_ok hk, ok_bind, Tab.get_ok hk hk, ok_bind, Row.set_ok hk, ok_bind, Row.get_ok hk,
      ok_bind]
    obtain ⟨y', e, h1, h2⟩ := Row.loop (ε := Fault) (a := 0) (b := k)
      (t := (⟨upd1 y.f k (Flt.div (y.f k) (d.lu.f k k))⟩ : Row α n))
      (fun i v => Flt.sub v (Flt.mul (Flt.div (y.f k) (d.lu.f k k)) (d.lu.f i k)))
      (body := fun i (bp : Row α n) => do
        bp.set i (Flt.sub (← bp.get i)
          (Flt.mul (upd1 y.f k (Flt.div (y.f k) (d.lu.f k k)) k) (← d.lu.get i k)))) (by
      intro i t h1 h2 h3
      rw [Row.get_ok (by omega), ok_bind, Tab.get_ok (by omega) hk, ok_bind, Row.set_ok (by omega),
        h3 i (by omega), upd1_eq, if_pos rfl])
    have hk' : y'.f k = Flt.div (y.f k) (d.lu.f k k) := by
      rw [h2 k (by omega)]
      simp
    refine ⟨y', e, fun _ => ⟨fun i h3 h4 => ?_, hk', fun i h3 => ?_⟩⟩
    · rw [h2 i (by omega)]
      simp only [upd1_eq]
      rw [if_neg (by omega)]
    · rw [h1 i (by omega) h3, hk']
      simp only [upd1_eq]
      rw [if_neg (by omega)])
  rw [e0, ok_bind, ey, ok_bind, ex, ok_bind]
  have hxx : ∀ j, j < n → nth x.toList j = x.f j := fun j hj => by
    have h2 := (Row.toList_isList x).2 j hj
    simp [nth, h2]
  refine ⟨_, y.f, rfl, by simp, fun i hi => ?_, fun i hi => ?_⟩
  · rw [← h0 i (by omega) hi]
    exact hy () i hi
  · rw [hxx i hi, hx () i hi]
    congr 1
    exact rsub_congr fun k _ hk => by rw [hxx k hk]

theorem LU.solveMatrix_bits {d : LU α n n} (hs : d.singular = false) {σ : Equiv.Perm (Fin n)}
    (hσ : ∀ i : Fin n, d.pivot.f i = σ i) {q : Nat}
    (hn : 0 < n) (hq : 0 < q) {b : Mat α n q} {B : Nat → Nat → α} (hB : Shows b.at n q B) :
    ∃ (x : Mat α n q) (X Y : Nat → Nat → α), d.solveMatrix b = .ok ⟨n, q, x⟩ ∧ x.own ∧
      Shows x.at n q X ∧ ∀ j, j < q →
        LU.Subst n d.lu.f (fun i => B (d.pivot.f i) j) (fun i => Y i j) (fun i => X i j) := by
  unfold LU.solveMatrix
  rw [if_neg (by simp)]
  simp only [hs, Bool.false_eq_true, if_false]
  rw [Mat.colDim_ok hn, ok_bind]
  obtain ⟨b0, e0, h0, -⟩ := Tab.rowsLoop (ε := Fault) (a := 0) (b := n) (p := 0) (q := q)
    (t := (Jag.zero n _ : Tab α n q)) (fun i j _ => B (d.pivot.f i) j)
    (body := fun row (bp : Tab α n q) => do
      let pRow ← d.pivot.get row
      forUp 0 q (fun col bp => do bp.set row col (← b.at pRow col)) bp) (by
    intro i t _ hi _
    have hpi : d.pivot.f i < n := by rw [hσ ⟨i, hi⟩]; exact (σ ⟨i, hi⟩).2
    rw [Row.get_ok hi, ok_bind]
    exact Tab.rowLoop (fun j _ => B (d.pivot.f i) j) (by
      intro j t _ hj _
      rw [hB.ok hpi hj, ok_bind, Tab.set_ok hi hj]))
  have inner : ∀ (k a b : Nat) (y : Tab α n q), k < n → b ≤ n → ¬ (a ≤ k ∧ k < b) →
      ∃ y' : Tab α n q, forUp a b (fun i (bp : Tab α n q) => do
        let luICol ← d.lu.get i k
        forUp 0 q (fun j bp => do
          bp.set i j (Flt.sub (← bp.get i j) (Flt.mul (← bp.get k j) luICol))) bp) y
            = .ok y' ∧
        (∀ i j, a ≤ i → i < b → 0 ≤ j → j < q →
          y'.f i j = Flt.sub (y.f i j) (Flt.mul (y.f k j) (d.lu.f i k))) ∧
        ∀ i j, ¬ (a ≤ i ∧ i < b ∧ 0 ≤ j ∧ j < q) → y'.f i j = y.f i j := by
    intro k a b y hk hb hak
    refine Tab.rowsLoop (fun i j v => Flt.sub v (Flt.mul (y.f k j) (d.lu.f i k))) ?_
    intro i t h1 h2 h3
    rw [Tab.get_ok (by omega) hk, ok_bind]
    obtain ⟨t', e, h4, h5⟩ := Tab.rowLoop (ε := Fault) (r := n) (c := q) (a := 0) (b := q) (i := i)
      (t := t) (fun j v => Flt.sub v (Flt.mul (y.f k j) (d.lu.f i k)))
      (body := fun j bp => do
          bp.set i j (Flt.sub (← bp.get i j) (Flt.mul (← bp.get k j) (d.lu.f i k)))) (by
      intro j t' _ hj h4
      rw [Tab.get_ok (by omega) hj, ok_bind, Tab.get_ok hk hj, ok_bind, Tab.set_ok (by omega) hj,
        h4 i j (by omega), h4 k j (by omega), h3 k j (by omega)])
    refine ⟨t', e, fun j h6 h7 => ?_, h5⟩
    rw [h4 j h6 h7, h3 i j (by omega)]
  obtain ⟨y, ey, hy⟩ := fwdBits (ε := Fault) (n := n) (ι := Fin q) (fun j (s : Tab α n q) i => s.f i j)
    (fun _ v => v) (fun i k v => Flt.mul v (d.lu.f i k)) (s := b0) (body := fun col (bp : Tab α n q) =>
      forUp (col + 1) n (fun i bp => do
        let luICol ← d.lu.get i col
        forUp 0 q (fun j bp => do
          bp.set i j (Flt.sub (← bp.get i j) (Flt.mul (← bp.get col j) luICol))) bp) bp) (by
    intro k y hk
    obtain ⟨y', e, h1, h2⟩ := inner k (k + 1) n y hk le_rfl (by omega)
    refine ⟨y', e, fun j => ⟨fun i hi => h2 i j (by omega), h2 k j (by omega),
      fun i h3 h4 => ?_⟩⟩
    rw [h1 i j h3 h4 (by omega) j.2, h2 k j (by omega)])
  obtain ⟨x, ex, hx⟩ := bwdBits (ε := Fault) (n := n) (ι := Fin q) (fun j (s : Tab α n q) i => s.f i j)
    (fun k v => Flt.div v (d.lu.f k k))
    (fun i k v => Flt.mul v (d.lu.f i k)) (s := y) (body := fun col (bp : Tab α n q) => do
      let luDiag ← d.lu.get col col
      let bp ← forUp 0 q (fun j bp => do bp.set col j (Flt.div (← bp.get col j) luDiag)) bp
      forUp 0 col (fun i bp => do
        let luICol ← d.lu.get i col
        forUp 0 q (fun j bp => do
          bp.set i j (Flt.sub (← bp.get i j) (Flt.mul (← bp.get col j) luICol))) bp) bp) (by
    intro k y hk
    rw [Tab.get_ok hk hk, ok_bind]
    obtain ⟨y', e, h1, h2⟩ := Tab.rowLoop (ε := Fault) (r := n) (c := q) (a := 0) (b := q) (i := k)
      (t := y) (fun j v => Flt.div v (d.lu.f k k))
      (body := fun j bp => do bp.set k j (Flt.div (← bp.get k j) (d.lu.f k k))) (by
      intro j t' _ hj h4
      rw [Tab.get_ok hk hj, ok_bind, Tab.set_ok hk hj, h4 k j (by omega)])
    obtain ⟨y'', e', h3, h4⟩ := inner k 0 k y' hk hk.le (by omega)
    refine ⟨y'', by rw [e, ok_bind, e'], fun j => ⟨fun i h5 h6 => ?_, ?_, fun i h5 => ?_⟩⟩
    · rw [h4 i j (by omega), h2 i j (by omega)]
    · rw [h4 k j (by omega), h1 j (by omega) j.2]
    · rw [h3 i j (by omega) h5 (by omega) j.2, h2 i j (by omega), h4 k j (by omega)])
  rw [e0, ok_bind, ey, ok_bind, ex, ok_bind]
  obtain ⟨m, em, hm, -⟩ := Arr.copyIn_ok (Jag.toLists_rect x) hn hq
  refine ⟨.arr m, x.f, y.f, by rw [em]; rfl, trivial, ?_, fun j hj => ⟨fun i hi => ?_, fun i hi => ?_⟩⟩
  · exact (Mat.at_shows (.arr m)).congr fun i j hi hj => (hm i j hi hj)
  · rw [← h0 i j (by omega) hi (by omega) hj]
    exact hy ⟨j, hj⟩ i hi
  · exact hx ⟨j, hj⟩ i hi

section round

variable [Rnd α]

/-- Under the diagonal no entry exceeds 1, in the columns that are finite. -/
def LU.Small (n k : Nat) (f : Nat → Nat → α) : Prop :=
  ∀ j, j < k → (∀ i, j ≤ i → i < n → fin (f i j)) → ∀ i, j < i → i < n → |val (f i j)| ≤ 1

/-- The chosen pivot row holds the largest magnitude of the column, if the column is finite. -/
def LU.RBest (v : Nat → α) (ninf : α) (n col k : Nat) (p : Nat × α) : Prop :=
  col ≤ p.1 ∧ p.1 < n ∧ ((∀ i, col ≤ i → i < n → fin (v i)) → (k = col ∧ p = (col, ninf)) ∨
    (p.2 = Flt.abs (v p.1) ∧ ∀ i, col ≤ i → i < k → |val (v i)| ≤ |val (v p.1)|))

theorem LU.RBest.step {v : Nat → α} {ninf : α} (hn : ∀ x, fin x → Flt.lt ninf (Flt.abs x) = true)
    {n col k : Nat} {p : Nat × α} (hk : col ≤ k) (hkn : k < n) (h : LU.RBest v ninf n col k p) :
    LU.RBest v ninf n col (k + 1) (if Flt.lt p.2 (Flt.abs (v k)) then (k, Flt.abs (v k)) else p) := by
  obtain ⟨h1, h2, h3⟩ := h
  refine ⟨by split <;> simp_all, by split <;> simp_all, fun hf => .inr ?_⟩
  rcases h3 hf with ⟨rfl, rfl⟩ | ⟨h3, h4⟩
  · rw [if_pos (hn _ (hf k le_rfl hkn))]
    refine ⟨rfl, fun i h1 h2 => ?_⟩
    rw [show i = k by omega]
  · have f1 := hf p.1 h1 h2
    have f2 := hf k hk hkn
    by_cases hl : Flt.lt p.2 (Flt.abs (v k)) = true
    · rw [if_pos hl]
      refine ⟨rfl, fun i h5 h6 => ?_⟩
      rw [h3, lt_iff (abs_fin.2 f1) (abs_fin.2 f2), val_abs f1, val_abs f2] at hl
      by_cases e : i = k
      · rw [e]
      · exact (h4 i h5 (by omega)).trans hl.le
    · rw [if_neg hl]
      rw [h3, lt_iff (abs_fin.2 f1) (abs_fin.2 f2), val_abs f1, val_abs f2] at hl
      refine ⟨h3, fun i h5 h6 => ?_⟩
      by_cases e : i = k
      · rw [e]; exact not_lt.1 hl
      · exact h4 i h5 (by omega)

/-- The state of the decomposition before column `k`. -/
def LU.RAt (A : Nat → Nat → α) (k : Nat) (s : LU α n n) : Prop :=
  s.singular = false ∧ (∃ σ, s.Piv σ) ∧ LU.RInv n A s.pivot.f k s.lu.f ∧ LU.Small n k s.lu.f

theorem LU.step_round {A : Nat → Nat → α} {k : Nat} {s : LU α n n} {thr ninf : α}
    (hn : ∀ x, fin x → Flt.lt ninf (Flt.abs x) = true) (hk : k < n) (h : LU.RAt A k s) :
    Wp (LU.step thr ninf k s) (Sum.elim (LU.RAt A (k + 1)) fun s => s.singular = true)
      (fun _ => False) := by
  obtain ⟨hs, ⟨σ, hσ⟩, hI, hS⟩ := h
  unfold LU.step
  obtain ⟨t, et, u1, u2⟩ := LU.upper_ok hk s.lu
  obtain ⟨t', p, el, hJ, l1, l2⟩ := LU.lower_ok
    (LU.RBest (fun row => lsub 0 k (fun i => Flt.mul (t.f row i) (t.f i k)) (t.f row k)) ninf n k)
    (ninf := ninf) hk t ⟨le_rfl, hk, fun _ => .inl ⟨rfl, rfl⟩⟩
    (fun row p h1 h2 h3 => LU.RBest.step hn h1 h2 h3)
  obtain ⟨b1, b2, b3⟩ := hJ
  beta_reduce at b3
  rw [et, ok_bind, el, ok_bind]
  dsimp only
  rw [wp_bind, wp_tget b2 hk]
  by_cases hlt : Flt.lt (Flt.abs (t'.f p.1 k)) thr = true
  · rw [if_pos hlt]
    exact (rfl : true = true)
  rw [if_neg hlt]
  obtain ⟨s', es, p1, p2, p3, p4⟩ := LU.doPivot_ok b2 hk { s with lu := t' }
  obtain ⟨t'', ed, d1, d2⟩ := LU.divide_ok hk s'.lu
  rw [es, ok_bind, ed]
  have hkk : s'.lu.f k k = t'.f p.1 k := by rw [p1 k k hk]; simp
  have hmid := (hI.mid hk u1 u2 l1 l2).swap (f' := s'.lu.f) (p' := s'.pivot.f) hk b1 b2 p1 p2
  have hi : ∀ j i, j ≤ k → j ≤ i → i < n →
      j ≤ Equiv.swap p.1 k i ∧ Equiv.swap p.1 k i < n ∧ (j < k → j < i → j < Equiv.swap p.1 k i) := by
    intro j i hj h1 h2
    rw [Equiv.swap_apply_def]
    split
    · omega
    · split <;> omega
  have hlo : ∀ x y, y < k → t'.f x y = s.lu.f x y := fun x y hy => by
    rw [l1 x y (by omega), u1 x y (by omega)]
  refine ⟨p4.trans hs, ⟨_, hσ.swap (s' := { s' with lu := t'' }) b2 hk p2 p3⟩,
    hmid.divide hk d1 d2, fun j hj hf i hij hin => ?_⟩
  dsimp only at hf ⊢
  by_cases e : j = k
  · subst e
    have f0 : fin (s'.lu.f j j) := by
      rw [← d2 j j (by omega)]
      exact hf j le_rfl hk
    have f1 : ∀ x, j ≤ x → x < n → fin (s'.lu.f x j) := by
      intro x h1 h2
      by_cases e : x = j
      · rw [e]; exact f0
      · have := hf x h1 h2
        rw [d1 x (by omega) h2] at this
        exact div_fin this
    have f2 : ∀ x, j ≤ x → x < n → fin (t'.f x j) := by
      intro x h1 h2
      obtain ⟨a1, a2, -⟩ := hi j x le_rfl h1 h2
      have := f1 _ a1 a2
      rwa [p1 _ j hk, Equiv.swap_apply_self] at this
    have b4 := b3 fun x h1 h2 => by
      rw [← l2 x h1 h2]; exact f2 x h1 h2
    replace b4 := (b4.resolve_left (by omega)).2
    have h5 : |val (s'.lu.f i j)| ≤ |val (s'.lu.f j j)| := by
      obtain ⟨a1, a2, -⟩ := hi j i le_rfl hij.le hin
      have := b4 _ a1 a2
      rw [← l2 _ a1 a2, ← l2 _ b1 b2] at this
      rwa [hkk, p1 i j hk]
    have := hf i hij.le hin
    rw [d1 i hij hin] at this ⊢
    exact div_le_one this f0 h5
  · have e2 : ∀ x, t''.f x j = s.lu.f (Equiv.swap p.1 k x) j := fun x => by
      rw [d2 x j (by omega), p1 x j (by omega), hlo _ j (by omega)]
    rw [e2 i]
    obtain ⟨a1, a2, a3⟩ := hi j i (by omega) hij.le hin
    refine hS j (by omega) (fun x h1 h2 => ?_) _ (a3 (by omega) hij) a2
    obtain ⟨c1, c2, -⟩ := hi j x (by omega) h1 h2
    have := hf _ c1 c2
    rwa [e2, Equiv.swap_apply_self] at this

theorem LU.new_round {thr ninf : α} (hinf : ∀ x, fin x → Flt.lt ninf (Flt.abs x) = true)
    {m : Mat α n n} (hm : m.own) (hn : 0 < n) {A : Nat → Nat → α} (hA : Shows m.at n n A) :
    ∃ d, LU.new thr ninf m = .ok d ∧ (LU.RAt A n d ∨ d.singular = true) := by
  refine LU.new_wp hm hn hA (LU.RAt A) (fun s => s.singular = true) ?_
    fun k s hk h => LU.step_round hinf hk h
  intro s h1 h2 h3 h4
  refine ⟨h1, ⟨1, h2⟩, ⟨fun i j _ _ h => by omega, fun i j _ _ h => by omega, fun i j hi hj _ => ?_⟩,
    fun j h => by omega⟩
  rw [h3 i hi]; exact h4 i j hi hj

/-! ## The error of the factors -/

/-- The lower factor. -/
def LU.lf (f : Nat → Nat → α) (i j : Nat) : α :=
  if j < i then f i j else if i = j then Flt.one else Flt.zero

/-- The upper factor. -/
def LU.uf (f : Nat → Nat → α) (i j : Nat) : α := if i ≤ j then f i j else Flt.zero

/-- A sum of products of the two factors has `min i j + 1` terms. -/
theorem LU.sum_factors (F G : Nat → Nat → ℝ) (hF : ∀ i j, i < j → F i j = 0) (hG : ∀ i j, j < i → G i j = 0)
    {i j : Nat} (hi : i < n) (hj : j < n) :
    ∑ k ∈ range n, F i k * G k j = F i (min i j) * G (min i j) j + ∑ k ∈ Ico 0 (min i j), F i k * G k j := by
  rw [← range_eq_Ico, ← sum_subset (range_subset_range.2 (show min i j + 1 ≤ n by omega)),
    sum_range_succ, add_comm]
  intro x _ hx
  have : ¬ x < min i j + 1 := fun h => hx (mem_range.2 h)
  by_cases e : i < x
  · rw [hF i x e, zero_mul]
  · rw [hG x j (by omega), mul_zero]

theorem LU.lf_zero (f : Nat → Nat → α) {i j : Nat} (h : i < j) : val (LU.lf f i j) = 0 := by
  unfold LU.lf
  rw [if_neg (by omega), if_neg (by omega), val_zero]

theorem LU.uf_zero (f : Nat → Nat → α) {i j : Nat} (h : j < i) : val (LU.uf f i j) = 0 := by
  unfold LU.uf
  rw [if_neg (by omega), val_zero]

/-- The bound on one entry of `P A - L U`. -/
theorem LU.RInv.err {A f : Nat → Nat → α} {p : Nat → Nat} (h : LU.RInv n A p n f)
    (hf : ∀ i j, i < n → j < n → fin (f i j)) {i j : Nat} (hi : i < n) (hj : j < n) :
    fin (A (p i) j) ∧
    |∑ k ∈ range n, val (LU.lf f i k) * val (LU.uf f k j) - val (A (p i) j)| ≤
      gam α n * ∑ k ∈ range n, |val (LU.lf f i k)| * |val (LU.uf f k j)| +
      (1 + Rnd.u α) ^ n * (n + |val (LU.uf f j j)|) * η α := by
  rw [LU.sum_factors (fun i j => val (LU.lf f i j)) (fun i j => val (LU.uf f i j))
    (fun i j => LU.lf_zero f) (fun i j => LU.uf_zero f) hi hj,
    LU.sum_factors (fun i j => |val (LU.lf f i j)|) (fun i j => |val (LU.uf f i j)|)
    (fun i j h => by rw [LU.lf_zero f h, abs_zero]) (fun i j h => by rw [LU.uf_zero f h, abs_zero]) hi hj]
  have hu := u_nonneg (α := α)
  have hη := η_nonneg (α := α)
  have hp : ∀ k, k ≤ n → (1 + Rnd.u α) ^ k ≤ (1 + Rnd.u α) ^ n := fun k hk => pow_le_pow_right₀ one_le_u hk
  by_cases e : i ≤ j
  · have hz : f i j = lsub 0 i (fun x => Flt.mul (LU.lf f i x) (LU.uf f x j)) (A (p i) j) := by
      rw [h.up i j hi hj hj e]
      refine lsub_congr fun x _ hx => ?_
      unfold LU.lf LU.uf
      rw [if_pos hx, if_pos (by omega)]
    have hfi := hf i j hi hj
    rw [hz] at hfi
    obtain ⟨h1, -, h2⟩ := lsub_prods hfi
    rw [← hz] at h2
    refine ⟨h1, ?_⟩
    have e1 : LU.lf f i i = Flt.one := by unfold LU.lf; simp
    have e2 : LU.uf f i j = f i j := by unfold LU.uf; rw [if_pos e]
    rw [min_eq_left e, e1, e2, val_one, one_mul, abs_one, one_mul]
    refine h2.trans ?_
    rw [Nat.sub_zero, mul_add]
    have g1 : gam α i ≤ gam α n := gam_mono hi.le
    have g2 : gam α (i + 1) ≤ gam α n := gam_mono hi
    have hS : 0 ≤ ∑ k ∈ Ico 0 i, |val (LU.lf f i k)| * |val (LU.uf f k j)| :=
      sum_nonneg fun k _ => by positivity
    have hin : (i : ℝ) ≤ n := by exact_mod_cast hi.le
    have h4 : (i : ℝ) * (1 + Rnd.u α) ^ i ≤ (1 + Rnd.u α) ^ n * (n + |val (LU.uf f j j)|) := by
      rw [mul_comm]
      exact mul_le_mul (hp i hi.le) (by linarith [abs_nonneg (val (LU.uf f j j))]) (by positivity)
        (by positivity)
    gcongr
  · have e : j < i := by omega
    have hz : f i j = Flt.div (lsub 0 j (fun x => Flt.mul (LU.lf f i x) (LU.uf f x j)) (A (p i) j)) (f j j) := by
      rw [h.lo i j hi hj hj e]
      congr 1
      refine lsub_congr fun x _ hx => ?_
      unfold LU.lf LU.uf
      rw [if_pos (by omega), if_pos (by omega)]
    have hfi := hf i j hi hj
    rw [hz] at hfi
    obtain ⟨h1, -, -, h2⟩ := lsub_prods_div (hf j j hj hj) hfi
    rw [← hz] at h2
    refine ⟨h1, ?_⟩
    have e1 : LU.lf f i j = f i j := by unfold LU.lf; rw [if_pos e]
    have e2 : LU.uf f j j = f j j := by unfold LU.uf; rw [if_pos le_rfl]
    rw [min_eq_right e.le, e1, e2]
    refine h2.trans ?_
    rw [Nat.sub_zero]
    have g2 : gam α (j + 1) ≤ gam α n := gam_mono hj
    have hS : 0 ≤ ∑ k ∈ Ico 0 j, |val (LU.lf f i k)| * |val (LU.uf f k j)| :=
      sum_nonneg fun k _ => by positivity
    have hin : (j : ℝ) ≤ n := by exact_mod_cast hj.le
    have h4 := hp j hj.le
    gcongr

/-! ## The error of the solution -/

/-- A finite solution comes from finite factors. -/
theorem LU.Subst.fins {f : Nat → Nat → α} {b y x : Nat → α} (h : LU.Subst n f b y x)
    (hf : ∀ i, i < n → fin (f i i)) (hx : ∀ i, i < n → fin (x i)) :
    ∀ i j, i < n → j < n → fin (f i j) := by
  intro i j hi hj
  have h0 := hx i hi
  rw [h.bwd i hi] at h0
  obtain ⟨h1, h2, -⟩ := rsub_prods_div (hf i hi) h0
  rw [h.fwd i hi] at h1
  obtain ⟨-, h3, -⟩ := lsub_prods h1
  rcases lt_trichotomy i j with e | rfl | e
  · exact (h2 j e hj).2
  · exact hf i hi
  · exact (h3 j (Nat.zero_le _) e).2

theorem LU.Subst.err {f : Nat → Nat → α} {b y x : Nat → α} (h : LU.Subst n f b y x)
    (hf : ∀ i j, i < n → j < n → fin (f i j)) (hx : ∀ i, i < n → fin (x i)) :
    (∀ i, i < n → fin (b i) ∧ val (f i i) ≠ 0 ∧
      |∑ k ∈ range n, val (LU.lf f i k) * val (y k) - val (b i)| ≤
        gam α n * ∑ k ∈ range n, |val (LU.lf f i k)| * |val (y k)| + (1 + Rnd.u α) ^ n * n * η α) ∧
    ∀ i, i < n → |∑ k ∈ range n, val (LU.uf f i k) * val (x k) - val (y i)| ≤
      gam α n * ∑ k ∈ range n, |val (LU.uf f i k)| * |val (x k)| +
        (1 + Rnd.u α) ^ n * (n + |val (LU.uf f i i)|) * η α := by
  have hu := u_nonneg (α := α)
  have hη := η_nonneg (α := α)
  have hp : ∀ k, k ≤ n → (1 + Rnd.u α) ^ k ≤ (1 + Rnd.u α) ^ n := fun k hk => pow_le_pow_right₀ one_le_u hk
  have hb : ∀ i, i < n → fin (y i) ∧ val (f i i) ≠ 0 ∧ |∑ k ∈ range n, val (LU.uf f i k) * val (x k) - val (y i)| ≤
      gam α n * ∑ k ∈ range n, |val (LU.uf f i k)| * |val (x k)| +
        (1 + Rnd.u α) ^ n * (n + |val (LU.uf f i i)|) * η α := by
    intro i hi
    have h0 := hx i hi
    have e0 := h.bwd i hi
    rw [e0] at h0
    obtain ⟨h1, -, h2, h3⟩ := rsub_prods_div (hf i i hi hi) h0
    rw [← e0] at h3
    refine ⟨h1, h2, ?_⟩
    have hs : ∀ (F : α → ℝ), F Flt.zero = 0 →
        ∑ k ∈ range n, F (LU.uf f i k) * F (x k) = F (x i) * F (f i i) +
          ∑ k ∈ Ico (i + 1) n, F (x k) * F (f i k) := by
      intro F hF
      rw [← sum_subset (show Ico i n ⊆ range n from fun a ha => mem_range.2 (mem_Ico.1 ha).2),
        sum_eq_sum_Ico_succ_bot hi]
      · congr 1
        · unfold LU.uf; rw [if_pos le_rfl, mul_comm]
        · refine sum_congr rfl fun k hk => ?_
          unfold LU.uf
          rw [if_pos (by have := mem_Ico.1 hk; omega), mul_comm]
      · intro k hk hk'
        unfold LU.uf
        rw [if_neg (fun h => hk' (mem_Ico.2 ⟨h, mem_range.1 hk⟩)), hF, zero_mul]
    rw [hs val val_zero, hs (fun x => |val x|) (by rw [val_zero, abs_zero])]
    refine h3.trans ?_
    have e2 : LU.uf f i i = f i i := by unfold LU.uf; rw [if_pos le_rfl]
    rw [e2]
    have g2 : gam α (n - (i + 1) + 1) ≤ gam α n := gam_mono (by omega)
    have hS : 0 ≤ ∑ k ∈ Ico (i + 1) n, |val (x k)| * |val (f i k)| :=
      sum_nonneg fun k _ => by positivity
    have hin : ((n - (i + 1) : ℕ) : ℝ) ≤ n := by exact_mod_cast (by omega)
    have h4 := hp (n - (i + 1)) (by omega)
    gcongr
  refine ⟨fun i hi => ?_, fun i hi => (hb i hi).2.2⟩
  have h0 := (hb i hi).1
  have e0 := h.fwd i hi
  rw [e0] at h0
  obtain ⟨h1, -, h3⟩ := lsub_prods h0
  rw [← e0] at h3
  refine ⟨h1, (hb i hi).2.1, ?_⟩
  have hs : ∀ (F : α → ℝ), F Flt.zero = 0 → F Flt.one = 1 →
      ∑ k ∈ range n, F (LU.lf f i k) * F (y k) = F (y i) + ∑ k ∈ Ico 0 i, F (y k) * F (f i k) := by
    intro F hF hF1
    rw [← range_eq_Ico, ← sum_subset (range_subset_range.2 (show i + 1 ≤ n by omega)),
      sum_range_succ, add_comm]
    · congr 1
      · unfold LU.lf; rw [if_neg (by omega), if_pos rfl, hF1, one_mul]
      · refine sum_congr rfl fun k hk => ?_
        unfold LU.lf
        rw [if_pos (mem_range.1 hk), mul_comm]
    · intro k hk hk'
      unfold LU.lf
      have : ¬ k < i + 1 := fun h => hk' (mem_range.2 h)
      rw [if_neg (by omega), if_neg (by omega), hF, zero_mul]
  rw [hs val val_zero val_one, hs (fun x => |val x|) (by rw [val_zero, abs_zero]) (by rw [val_one, abs_one])]
  refine h3.trans ?_
  rw [Nat.sub_zero, mul_add]
  have g1 : gam α i ≤ gam α n := gam_mono hi.le
  have g2 : gam α (i + 1) ≤ gam α n := gam_mono hi
  have hS : 0 ≤ ∑ k ∈ Ico 0 i, |val (y k)| * |val (f i k)| :=
    sum_nonneg fun k _ => by positivity
  have hin : (i : ℝ) ≤ n := by exact_mod_cast hi.le
  have h4 : (i : ℝ) * (1 + Rnd.u α) ^ i ≤ (1 + Rnd.u α) ^ n * n := by
    rw [mul_comm]
    exact mul_le_mul (hp i hi.le) hin (by positivity) (by positivity)
  gcongr

/-- Three matrices and three vectors of real numbers: errors of a product and of two triangular
systems make up a residual. -/
theorem residual {n : Nat} {A L U : Nat → Nat → ℝ} {e' : Nat → Nat → ℝ}
    {b x y e δ : Nat → ℝ} {γ γ' : ℝ} (hγ : 0 ≤ γ) (hγ' : 0 ≤ γ')
    (h1 : ∀ i j, i < n → j < n → |∑ k ∈ range n, L i k * U k j - A i j| ≤
      γ' * ∑ k ∈ range n, |L i k| * |U k j| + e' i j)
    (h2 : ∀ i, i < n → |∑ k ∈ range n, L i k * y k - b i| ≤ γ * ∑ k ∈ range n, |L i k| * |y k| + δ i)
    (h3 : ∀ i, i < n → |∑ k ∈ range n, U i k * x k - y i| ≤
      γ * ∑ k ∈ range n, |U i k| * |x k| + e i) {i : Nat} (hi : i < n) :
    |∑ j ∈ range n, A i j * x j - b i| ≤
      ((1 + γ') * (1 + γ) ^ 2 - 1) * ∑ j ∈ range n, (∑ k ∈ range n, |L i k| * |U k j|) * |x j| +
      (∑ j ∈ range n, e' i j * |x j| + (1 + γ) * ∑ k ∈ range n, |L i k| * e k + δ i) := by
  have hW : ∑ j ∈ range n, (∑ k ∈ range n, |L i k| * |U k j|) * |x j| =
      ∑ k ∈ range n, |L i k| * ∑ j ∈ range n, |U k j| * |x j| := by
    simp only [sum_mul, mul_sum]
    rw [sum_comm]
    exact sum_congr rfl fun k _ => sum_congr rfl fun j _ => by ring
  have hW' : ∑ j ∈ range n, (∑ k ∈ range n, L i k * U k j) * x j =
      ∑ k ∈ range n, L i k * ∑ j ∈ range n, U k j * x j := by
    simp only [sum_mul, mul_sum]
    rw [sum_comm]
    exact sum_congr rfl fun k _ => sum_congr rfl fun j _ => by ring
  have e0 : ∑ j ∈ range n, A i j * x j - b i =
      (-∑ j ∈ range n, (∑ k ∈ range n, L i k * U k j - A i j) * x j) +
      (∑ k ∈ range n, L i k * (∑ j ∈ range n, U k j * x j - y k)) +
      (∑ k ∈ range n, L i k * y k - b i) := by
    simp only [sub_mul, mul_sub, sum_sub_distrib]
    rw [hW']
    ring
  have b1 : |∑ j ∈ range n, (∑ k ∈ range n, L i k * U k j - A i j) * x j| ≤
      γ' * ∑ j ∈ range n, (∑ k ∈ range n, |L i k| * |U k j|) * |x j| + ∑ j ∈ range n, e' i j * |x j| := by
    rw [mul_sum, ← sum_add_distrib]
    refine (abs_sum_le_sum_abs _ _).trans (sum_le_sum fun j hj => ?_)
    rw [abs_mul]
    calc _ ≤ (γ' * ∑ k ∈ range n, |L i k| * |U k j| + e' i j) * |x j| :=
          mul_le_mul_of_nonneg_right (h1 i j hi (mem_range.1 hj)) (abs_nonneg _)
      _ = _ := by ring
  have b2 : |∑ k ∈ range n, L i k * (∑ j ∈ range n, U k j * x j - y k)| ≤
      γ * ∑ k ∈ range n, |L i k| * ∑ j ∈ range n, |U k j| * |x j| + ∑ k ∈ range n, |L i k| * e k := by
    rw [mul_sum, ← sum_add_distrib]
    refine (abs_sum_le_sum_abs _ _).trans (sum_le_sum fun k hk => ?_)
    rw [abs_mul]
    calc _ ≤ |L i k| * (γ * ∑ j ∈ range n, |U k j| * |x j| + e k) :=
          mul_le_mul_of_nonneg_left (h3 k (mem_range.1 hk)) (abs_nonneg _)
      _ = _ := by ring
  have b3 : ∑ k ∈ range n, |L i k| * |y k| ≤
      (1 + γ) * ∑ k ∈ range n, |L i k| * ∑ j ∈ range n, |U k j| * |x j| + ∑ k ∈ range n, |L i k| * e k := by
    rw [mul_sum, ← sum_add_distrib]
    refine sum_le_sum fun k hk => ?_
    have c1 := h3 k (mem_range.1 hk)
    have c2 : |∑ j ∈ range n, U k j * x j| ≤ ∑ j ∈ range n, |U k j| * |x j| :=
      (abs_sum_le_sum_abs _ _).trans (le_of_eq (sum_congr rfl fun j _ => abs_mul _ _))
    have c3 : |y k| ≤ (1 + γ) * ∑ j ∈ range n, |U k j| * |x j| + e k := by
      have := abs_sub_abs_le_abs_sub (y k) (∑ j ∈ range n, U k j * x j)
      rw [abs_sub_comm] at this
      linarith
    calc _ ≤ |L i k| * ((1 + γ) * ∑ j ∈ range n, |U k j| * |x j| + e k) :=
          mul_le_mul_of_nonneg_left c3 (abs_nonneg _)
      _ = _ := by ring
  have b4 := h2 i hi
  rw [hW] at b1 ⊢
  have hT : 0 ≤ ∑ k ∈ range n, |L i k| * ∑ j ∈ range n, |U k j| * |x j| :=
    sum_nonneg fun k _ => mul_nonneg (abs_nonneg _) (sum_nonneg fun j _ => by positivity)
  rw [e0]
  generalize ∑ k ∈ range n, |L i k| * ∑ j ∈ range n, |U k j| * |x j| = T at *
  generalize ∑ k ∈ range n, |L i k| * e k = E at *
  generalize ∑ j ∈ range n, e' i j * |x j| = F at *
  calc _ ≤ (γ' * T + F) + (γ * T + E) + (γ * ((1 + γ) * T + E) + δ i) := by
        refine (abs_add_le _ _).trans (add_le_add ((abs_add_le _ _).trans (add_le_add ?_ b2)) (b4.trans ?_))
        · rwa [abs_neg]
        · gcongr
    _ = (γ' + 2 * γ + γ ^ 2) * T + (F + (1 + γ) * E + δ i) := by ring
    _ ≤ _ := by
      have : γ' + 2 * γ + γ ^ 2 ≤ (1 + γ') * (1 + γ) ^ 2 - 1 := by
        nlinarith [mul_nonneg hγ' hγ, mul_nonneg hγ' (pow_nonneg hγ 2)]
      gcongr

/-- The residual of a computed solution. -/
theorem LU.Subst.residual {A f : Nat → Nat → α} {p : Nat → Nat} {b y x : Nat → α}
    (hI : LU.RInv n A p n f) (h : LU.Subst n f b y x)
    (hf : ∀ i j, i < n → j < n → fin (f i j)) (hx : ∀ i, i < n → fin (x i)) {i : Nat} (hi : i < n) :
    |∑ j ∈ range n, val (A (p i) j) * val (x j) - val (b i)| ≤
      gam α (3 * n) * ∑ j ∈ range n, (∑ k ∈ range n, |val (LU.lf f i k)| * |val (LU.uf f k j)|) * |val (x j)| +
      (1 + Rnd.u α) ^ n * (∑ j ∈ range n, (n + |val (LU.uf f j j)|) * |val (x j)| +
        (1 + Rnd.u α) ^ n * ∑ k ∈ range n, |val (LU.lf f i k)| * (n + |val (LU.uf f k k)|) + n) * η α := by
  obtain ⟨h1, h2⟩ := h.err hf hx
  have h3 := Linear.residual (gam_nonneg (α := α) n) (gam_nonneg (α := α) n) (A := fun i j => val (A (p i) j))
    (L := fun i j => val (LU.lf f i j)) (U := fun i j => val (LU.uf f i j))
    (b := fun i => val (b i)) (x := fun i => val (x i)) (y := fun i => val (y i))
    (e := fun j => (1 + Rnd.u α) ^ n * (n + |val (LU.uf f j j)|) * η α)
    (e' := fun _ j => (1 + Rnd.u α) ^ n * (n + |val (LU.uf f j j)|) * η α) (δ := fun _ => (1 + Rnd.u α) ^ n * n * η α)
    (fun i j hi hj => (hI.err hf hi hj).2) (fun i hi => (h1 i hi).2.2) h2 hi
  refine h3.trans (le_of_eq ?_)
  have eg : (1 + gam α n) * (1 + gam α n) ^ 2 - 1 = gam α (3 * n) := by
    rw [one_add_gam, ← pow_mul, ← pow_add, show n + n * 2 = 3 * n by ring]
    rfl
  rw [eg, one_add_gam]
  congr 1
  have e1 : ∑ j ∈ range n, (1 + Rnd.u α) ^ n * (n + |val (LU.uf f j j)|) * η α * |val (x j)| =
      (1 + Rnd.u α) ^ n * η α * ∑ j ∈ range n, (n + |val (LU.uf f j j)|) * |val (x j)| := by
    rw [mul_sum]
    exact sum_congr rfl fun j _ => by ring
  have e2 : ∑ k ∈ range n, |val (LU.lf f i k)| * ((1 + Rnd.u α) ^ n * (n + |val (LU.uf f k k)|) * η α) =
      (1 + Rnd.u α) ^ n * η α * ∑ k ∈ range n, |val (LU.lf f i k)| * (n + |val (LU.uf f k k)|) := by
    rw [mul_sum]
    exact sum_congr rfl fun j _ => by ring
  rw [e1, e2]
  ring

end round

end Linear
