import Verif.Lemmas.RoundLU
import Verif.Props.Cholesky

/-!
# The Cholesky decomposition in any arithmetic, and its rounding errors
-/

set_option linter.unusedSectionVars false

namespace Linear

open Spec Rnd
open Finset hiding val diag

variable {α : Type} [Flt α] {n : Nat}

/-- What is left of the entry `i j` after `k` rows. -/
def Chol.left (A f : Nat → Nat → α) (k i j : Nat) : α :=
  lsub 0 k (fun x => Flt.mul (f x i) (f x j)) (A i j)

/-- Rows before `k` are done, operation by operation. -/
structure Chol.RInv (n : Nat) (pos : α) (A : Nat → Nat → α) (k : Nat) (f : Nat → Nat → α) : Prop where
  test : ∀ i, i < k → ¬ Flt.le (Chol.left A f i i i) pos = true
  dg : ∀ i, i < k → f i i = Flt.sqrt (Chol.left A f i i i)
  up : ∀ i j, i < k → i < j → j < n → f i j = Flt.mul (Chol.left A f i i j) (Flt.div Flt.one (f i i))
  rest : ∀ i j, k ≤ i → i ≤ j → j < n → f i j = Chol.left A f k i j
  low : ∀ i j, i < n → j < i → f i j = Flt.zero

theorem Chol.RInv.step {pos : α} {A f f' : Nat → Nat → α} {k : Nat} (h : Chol.RInv n pos A k f) (hk : k < n)
    (h0 : ¬ Flt.le (f k k) pos = true) (h1 : f' k k = Flt.sqrt (f k k))
    (h2 : ∀ q, k < q → q < n → f' k q = Flt.mul (f k q) (Flt.div Flt.one (Flt.sqrt (f k k))))
    (h3 : ∀ q p, k < q → q ≤ p → p < n → f' q p = Flt.sub (f q p) (Flt.mul (f' k q) (f' k p)))
    (h4 : ∀ x y, (x < k ∨ y < x) → f' x y = f x y) : Chol.RInv n pos A (k + 1) f' := by
  have hl : ∀ m i j, m ≤ k → Chol.left A f' m i j = Chol.left A f m i j := fun m i j hm =>
    lsub_congr fun x _ hx => by rw [h4 x i (.inl (by omega)), h4 x j (.inl (by omega))]
  constructor
  · intro i hi
    rw [hl i i i (by omega)]
    by_cases e : i = k
    · subst e; rw [← h.rest i i le_rfl le_rfl hk]; exact h0
    · exact h.test i (by omega)
  · intro i hi
    rw [hl i i i (by omega)]
    by_cases e : i = k
    · subst e; rw [h1, h.rest i i le_rfl le_rfl hk]
    · rw [h4 i i (.inl (by omega)), h.dg i (by omega)]
  · intro i j hi hij hj
    rw [hl i i j (by omega)]
    by_cases e : i = k
    · subst e; rw [h2 j hij hj, h1, ← h.rest i j le_rfl hij.le hj]
    · rw [h4 i j (.inl (by omega)), h4 i i (.inl (by omega)), h.up i j (by omega) hij hj]
  · intro i j hi hij hj
    rw [h3 i j (by omega) hij hj, h.rest i j (by omega) hij hj]
    unfold Chol.left
    rw [lsub_succ (Nat.zero_le k)]
    congr 1
    exact (hl k i j le_rfl).symm
  · intro i j hi hj
    rw [h4 i j (.inr hj)]
    exact h.low i j hi hj

/-- All outcomes of the constructor, in any arithmetic. -/
theorem Chol.new_bits {rel pos : α} {m : Mat α n n} (hm : m.own) (hn : 0 < n)
    {A : Nat → Nat → α} (hA : Shows m.at n n A) :
    Wp (Chol.new rel pos m)
      (fun d => Chol.RInv n pos A n d.lT.f ∧ ∀ i j, i < j → j < n → ¬ Asym rel (A i j) (A j i))
      (fun e => (e = .err .symm ∧ ∃ i j, i < j ∧ j < n ∧ Asym rel (A i j) (A j i)) ∨
        (e = .err .small ∧ (∃ k f, k < n ∧ Chol.RInv n pos A k f ∧ Flt.le (f k k) pos = true) ∧
          ∀ i j, i < j → j < n → ¬ Asym rel (A i j) (A j i))) := by
  unfold Chol.new
  have hsq : m.isSquare = .ok true := by
    unfold Mat.isSquare
    rw [Mat.colDim_ok hn]
    simp [ok_bind, pure_eq_ok]
  obtain ⟨t, et, ht⟩ := Mat.dataCopy_ok hm hn hA
  rw [hsq, ok_bind]
  simp only [Bool.not_true, Bool.false_eq_true, if_false]
  rw [et, ok_bind, wp_bind]
  have hasym : ∀ i j, i < j → j < n →
      (Asym rel (t.f i j) (t.f j i) ↔ Asym rel (A i j) (A j i)) := by
    intro i j h1 h2
    rw [ht i j (by omega) h2, ht j i h2 (by omega)]
  refine (Chol.check_wp rel t).mono ?_ ?_
  · rintro t₁ ⟨h1, h2, h3⟩
    rw [wp_bind]
    have hsym : ∀ i j, i < j → j < n → ¬ Asym rel (A i j) (A j i) :=
      fun i j h5 h6 hc => h1 i j h5 h6 ((hasym i j h5 h6).2 hc)
    refine (wp_forUp (fun k (t' : Tab α n n) => Chol.RInv n pos A k t'.f) (Nat.zero_le n) ?_ ?_).imp ?_
    · constructor
      · intro i hi; omega
      · intro i hi; omega
      · intro i j hi; omega
      · intro i j _ hij hj
        unfold Chol.left
        rw [lsub_self le_rfl, h2 i j hij, ht i j (by omega) hj]
      · intro i j hi hj
        exact h3 i j hi hj
    · intro k t₂ _ hk hI
      refine (Chol.step_wp pos hk t₂).mono ?_ ?_
      · rintro t₃ ⟨g1, g2, g3, g4, g5⟩
        exact hI.step hk g1 g2 g3 g4 g5
      · rintro e ⟨rfl, g⟩
        exact .inr ⟨rfl, ⟨k, t₂.f, hk, hI, g⟩, hsym⟩
    · intro t' hI
      exact ⟨hI, hsym⟩
  · rintro e ⟨rfl, i, j, h1, h2, h3⟩
    exact .inl ⟨rfl, i, j, h1, h2, (hasym i j h1 h2).1 h3⟩

/-! ## The solver in any arithmetic -/

/-- The two substitutions with the upper factor `f`. -/
structure Chol.Subst (n : Nat) (f : Nat → Nat → α) (b y x : Nat → α) : Prop where
  fwd : ∀ i, i < n → y i = Flt.div (lsub 0 i (fun k => Flt.mul (y k) (f k i)) (b i)) (f i i)
  bwd : ∀ i, i < n → x i = Flt.div (rsub (i + 1) n (fun k => Flt.mul (x k) (f i k)) (y i)) (f i i)

theorem RVec.toRow_nth (b : RVec α) (n : Nat) : (b.toRow n).f = nth b.list := by
  cases b <;> rfl

theorem Chol.solveVector_bits {d : Chol α n n} {b : RVec α} (hb : b.dim = n) :
    ∃ x y, d.solveVector b = .ok x ∧ x.length = n ∧
      Chol.Subst n d.lT.f (nth b.list) y (nth x) := by
  unfold Chol.solveVector
  rw [if_neg (by simpa using hb)]
  dsimp only
  obtain ⟨y, ey, hy⟩ := fwdBits (ε := Fault) (n := n) (ι := Unit) (fun _ (s : Row α n) => s.f)
    (fun k v => Flt.div v (d.lT.f k k))
    (fun i k v => Flt.mul v (d.lT.f k i)) (s := b.toRow n) (body := fun j (x : Row α n) => do
      let x ← x.set j (Flt.div (← x.get j) (← d.lT.get j j))
      let xJ ← x.get j
      forUp (j + 1) n (fun i (x : Row α n) => do
        x.set i (Flt.sub (← x.get i) (Flt.mul xJ (← d.lT.get j i)))) x) (by
    intro k y hk
    rw [Row.get_ok hk, ok_bind, Tab.get_ok hk hk, ok_bind, Row.set_ok hk, ok_bind, Row.get_ok hk,
      ok_bind]
    obtain ⟨y', e, h1, h2⟩ := Row.loop (ε := Fault) (a := k + 1) (b := n)
      (t := (⟨upd1 y.f k (Flt.div (y.f k) (d.lT.f k k))⟩ : Row α n))
      (fun i v => Flt.sub v (Flt.mul (Flt.div (y.f k) (d.lT.f k k)) (d.lT.f k i)))
      (body := fun i (bp : Row α n) => do
        bp.set i (Flt.sub (← bp.get i)
          (Flt.mul (upd1 y.f k (Flt.div (y.f k) (d.lT.f k k)) k) (← d.lT.get k i)))) (by
      intro i t h1 h2 h3
      rw [Row.get_ok (by omega), ok_bind, Tab.get_ok hk (by omega), ok_bind, Row.set_ok (by omega),
        h3 i (by omega), upd1_eq, if_pos rfl])
    have hk' : y'.f k = Flt.div (y.f k) (d.lT.f k k) := by
      rw [h2 k (by omega)]
      simp
    refine ⟨y', e, fun _ => ⟨fun i h3 => ?_, hk', fun i h3 h4 => ?_⟩⟩
    · rw [h2 i (by omega)]
      simp only [upd1_eq]
      rw [if_neg (by omega)]
    · rw [h1 i (by omega) h4, hk']
      simp only [upd1_eq]
      rw [if_neg (by omega)])
  obtain ⟨x, ex, hx⟩ := bwdBits (ε := Fault) (n := n) (ι := Unit) (fun _ (s : Row α n) => s.f)
    (fun k v => Flt.div v (d.lT.f k k))
    (fun i k v => Flt.mul v (d.lT.f i k)) (s := y) (body := fun j (x : Row α n) => do
      let x ← x.set j (Flt.div (← x.get j) (← d.lT.get j j))
      let xJ ← x.get j
      forUp 0 j (fun i (x : Row α n) => do
        x.set i (Flt.sub (← x.get i) (Flt.mul xJ (← d.lT.get i j)))) x) (by
    intro k y hk
    rw [Row.get_ok hk, ok_bind, Tab.get_ok hk hk, ok_bind, Row.set_ok hk, ok_bind, Row.get_ok hk,
      ok_bind]
    obtain ⟨y', e, h1, h2⟩ := Row.loop (ε := Fault) (a := 0) (b := k)
      (t := (⟨upd1 y.f k (Flt.div (y.f k) (d.lT.f k k))⟩ : Row α n))
      (fun i v => Flt.sub v (Flt.mul (Flt.div (y.f k) (d.lT.f k k)) (d.lT.f i k)))
      (body := fun i (bp : Row α n) => do
        bp.set i (Flt.sub (← bp.get i)
          (Flt.mul (upd1 y.f k (Flt.div (y.f k) (d.lT.f k k)) k) (← d.lT.get i k)))) (by
      intro i t h1 h2 h3
      rw [Row.get_ok (by omega), ok_bind, Tab.get_ok (by omega) hk, ok_bind, Row.set_ok (by omega),
        h3 i (by omega), upd1_eq, if_pos rfl])
    have hk' : y'.f k = Flt.div (y.f k) (d.lT.f k k) := by
      rw [h2 k (by omega)]
      simp
    refine ⟨y', e, fun _ => ⟨fun i h3 h4 => ?_, hk', fun i h3 => ?_⟩⟩
    · rw [h2 i (by omega)]
      simp only [upd1_eq]
      rw [if_neg (by omega)]
    · rw [h1 i (by omega) h3, hk']
      simp only [upd1_eq]
      rw [if_neg (by omega)])
  rw [ey, ok_bind, ex, ok_bind]
  have hxx : ∀ j, j < n → nth x.toList j = x.f j := fun j hj => by
    have h2 := (Row.toList_isList x).2 j hj
    simp [nth, h2]
  refine ⟨_, y.f, rfl, by simp, fun i hi => ?_, fun i hi => ?_⟩
  · rw [← RVec.toRow_nth b n]
    exact hy () i hi
  · rw [hxx i hi, hx () i hi]
    congr 1
    exact rsub_congr fun k _ hk => by rw [hxx k hk]

theorem Chol.solveMatrix_bits {d : Chol α n n} {q : Nat}
    (hn : 0 < n) (hq : 0 < q) {b : Mat α n q} (hbo : b.own) {B : Nat → Nat → α} (hB : Shows b.at n q B) :
    ∃ (x : Mat α n q) (X Y : Nat → Nat → α), d.solveMatrix b = .ok ⟨n, q, x⟩ ∧ x.own ∧
      Shows x.at n q X ∧ ∀ j, j < q →
        Chol.Subst n d.lT.f (fun i => B i j) (fun i => Y i j) (fun i => X i j) := by
  unfold Chol.solveMatrix
  rw [if_neg (by simp)]
  obtain ⟨b0, e0, h0⟩ := Mat.dataCopy_ok hbo hq hB
  rw [Mat.colDim_ok hn, ok_bind, e0, ok_bind]
  have inner : ∀ (k a b : Nat) (T : Nat → α) (g : Nat → Res α) (y : Tab α n q),
      (∀ i, a ≤ i → i < b → g i = .ok (T i)) → k < n → b ≤ n → ¬ (a ≤ k ∧ k < b) →
      ∃ y' : Tab α n q, forUp a b (fun i (bp : Tab α n q) => do
        let luICol ← g i
        forUp 0 q (fun j bp => do
          bp.set i j (Flt.sub (← bp.get i j) (Flt.mul (← bp.get k j) luICol))) bp) y
            = .ok y' ∧
        (∀ i j, a ≤ i → i < b → 0 ≤ j → j < q →
          y'.f i j = Flt.sub (y.f i j) (Flt.mul (y.f k j) (T i))) ∧
        ∀ i j, ¬ (a ≤ i ∧ i < b ∧ 0 ≤ j ∧ j < q) → y'.f i j = y.f i j := by
    intro k a b T g y hg hk hb hak
    refine Tab.rowsLoop (fun i j v => Flt.sub v (Flt.mul (y.f k j) (T i))) ?_
    intro i t h1 h2 h3
    rw [hg i h1 h2, ok_bind]
    obtain ⟨t', e, h4, h5⟩ := Tab.rowLoop (ε := Fault) (r := n) (c := q) (a := 0) (b := q) (i := i)
      (t := t) (fun j v => Flt.sub v (Flt.mul (y.f k j) (T i)))
      (body := fun j bp => do
          bp.set i j (Flt.sub (← bp.get i j) (Flt.mul (← bp.get k j) (T i)))) (by
      intro j t' _ hj h4
      rw [Tab.get_ok (by omega) hj, ok_bind, Tab.get_ok hk hj, ok_bind, Tab.set_ok (by omega) hj,
        h4 i j (by omega), h4 k j (by omega), h3 k j (by omega)])
    refine ⟨t', e, fun j h6 h7 => ?_, h5⟩
    rw [h4 j h6 h7, h3 i j (by omega)]
  have scale : ∀ (k : Nat) (y : Tab α n q), k < n → ∃ y' : Tab α n q,
      forUp 0 q (fun j (x : Tab α n q) => do x.set k j (Flt.div (← x.get k j) (d.lT.f k k))) y = .ok y' ∧
      (∀ j, 0 ≤ j → j < q → y'.f k j = Flt.div (y.f k j) (d.lT.f k k)) ∧
      ∀ i j, ¬ (i = k ∧ 0 ≤ j ∧ j < q) → y'.f i j = y.f i j := by
    intro k y hk
    exact Tab.rowLoop (ε := Fault) (r := n) (c := q) (a := 0) (b := q) (i := k)
      (t := y) (fun j v => Flt.div v (d.lT.f k k))
      (body := fun j bp => do bp.set k j (Flt.div (← bp.get k j) (d.lT.f k k))) (by
      intro j t' _ hj h4
      rw [Tab.get_ok hk hj, ok_bind, Tab.set_ok hk hj, h4 k j (by omega)])
  obtain ⟨y, ey, hy⟩ := fwdBits (ε := Fault) (n := n) (ι := Fin q) (fun j (s : Tab α n q) i => s.f i j)
    (fun k v => Flt.div v (d.lT.f k k))
    (fun i k v => Flt.mul v (d.lT.f k i)) (s := b0) (body := fun j (x : Tab α n q) => do
    let lJJ ← d.lT.get j j
    let x ← forUp 0 q (fun k (x : Tab α n q) => do
      x.set j k (Flt.div (← x.get j k) lJJ)) x
    forUp (j + 1) n (fun i (x : Tab α n q) => do
      let lJI ← d.lT.get j i
      forUp 0 q (fun k (x : Tab α n q) => do
        x.set i k (Flt.sub (← x.get i k) (Flt.mul (← x.get j k) lJI))) x) x) (by
    intro k y hk
    rw [Tab.get_ok hk hk, ok_bind]
    obtain ⟨y', e, h1, h2⟩ := scale k y hk
    obtain ⟨y'', e', h3, h4⟩ := inner k (k + 1) n (fun i => d.lT.f k i) (fun i => d.lT.get k i) y'
      (fun i _ hi => Tab.get_ok hk hi) hk le_rfl (by omega)
    refine ⟨y'', by rw [e, ok_bind, e'], fun j => ⟨fun i h5 => ?_, ?_, fun i h5 h6 => ?_⟩⟩
    · rw [h4 i j (by omega), h2 i j (by omega)]
    · rw [h4 k j (by omega), h1 j (by omega) j.2]
    · rw [h3 i j (by omega) h6 (by omega) j.2, h2 i j (by omega), h4 k j (by omega)])
  obtain ⟨x, ex, hx⟩ := bwdBits (ε := Fault) (n := n) (ι := Fin q) (fun j (s : Tab α n q) i => s.f i j)
    (fun k v => Flt.div v (d.lT.f k k))
    (fun i k v => Flt.mul v (d.lT.f i k)) (s := y) (body := fun j (x : Tab α n q) => do
    let lJJ ← d.lT.get j j
    let x ← forUp 0 q (fun k (x : Tab α n q) => do
      x.set j k (Flt.div (← x.get j k) lJJ)) x
    forUp 0 j (fun i (x : Tab α n q) => do
      let lIJ ← d.lT.get i j
      forUp 0 q (fun k (x : Tab α n q) => do
        x.set i k (Flt.sub (← x.get i k) (Flt.mul (← x.get j k) lIJ))) x) x) (by
    intro k y hk
    rw [Tab.get_ok hk hk, ok_bind]
    obtain ⟨y', e, h1, h2⟩ := scale k y hk
    obtain ⟨y'', e', h3, h4⟩ := inner k 0 k (fun i => d.lT.f i k) (fun i => d.lT.get i k) y'
      (fun i _ hi => Tab.get_ok (by omega) hk) hk hk.le (by omega)
    refine ⟨y'', by rw [e, ok_bind, e'], fun j => ⟨fun i h5 h6 => ?_, ?_, fun i h5 => ?_⟩⟩
    · rw [h4 i j (by omega), h2 i j (by omega)]
    · rw [h4 k j (by omega), h1 j (by omega) j.2]
    · rw [h3 i j (by omega) h5 (by omega) j.2, h2 i j (by omega), h4 k j (by omega)])
  rw [ey, ok_bind, ex, ok_bind]
  obtain ⟨m, em, hm, -⟩ := Arr.copyIn_ok (Jag.toLists_rect x) hn hq
  refine ⟨.arr m, x.f, y.f, by rw [em]; rfl, trivial, ?_, fun j hj => ⟨fun i hi => ?_, fun i hi => ?_⟩⟩
  · exact (Mat.at_shows (.arr m)).congr fun i j hi hj => (hm i j hi hj)
  · rw [← h0 i j hi hj]
    exact hy ⟨j, hj⟩ i hi
  · exact hx ⟨j, hj⟩ i hi

section round

variable [Rnd α]

/-- The square of a root. -/
theorem sqrt_back {x : α} (h : fin (Flt.sqrt x)) :
    fin x ∧ 0 ≤ val (Flt.sqrt x) ∧ (0 < val x → 0 < val (Flt.sqrt x)) ∧
    |val (Flt.sqrt x) * val (Flt.sqrt x) - val x| ≤ gam α 2 * (|val (Flt.sqrt x)| * |val (Flt.sqrt x)|) := by
  obtain ⟨f1, f2⟩ := sqrt_fin h
  obtain ⟨h1, h2⟩ := sqrt_err h
  have hu := u_nonneg (α := α)
  have hu' := u_le (α := α)
  have hs := Real.sqrt_nonneg (val x)
  have hm := Real.mul_self_sqrt f2
  have hp : 0 < val x → 0 < √(val x) := Real.sqrt_pos.2
  have hz : val x = 0 → √(val x) = 0 := fun h => by rw [h, Real.sqrt_zero]
  generalize √(val x) = s at *
  generalize val (Flt.sqrt x) = d at *
  have hd : 0 ≤ d := by
    have := (abs_le.1 h1).1
    nlinarith
  refine ⟨f1, hd, fun h0 => ?_, ?_⟩
  · have := (abs_le.1 h1).1
    have := hp h0
    nlinarith
  · rw [← hm, show d * d - s * s = (d - s) * (d + s) by ring, abs_mul, abs_of_nonneg hd] at *
    have h3 : s ≤ d + u α * d := by
      have := (abs_le.1 h2).1
      linarith
    rw [abs_of_nonneg (add_nonneg hd hs)]
    calc |d - s| * (d + s) ≤ (u α * d) * (d + (d + u α * d)) :=
          mul_le_mul h2 (by linarith) (by positivity) (by positivity)
      _ = _ := by unfold gam; ring

/-- Multiplication by the rounded reciprocal of a number. -/
theorem recip_mul {v x : α} (h : fin (Flt.mul v (Flt.div Flt.one x))) (hx : fin x)
    (h3 : η α * |val x| ≤ u α / 2) :
    fin v ∧ |val (Flt.mul v (Flt.div Flt.one x)) * val x - val v| ≤
      gam α 3 * (|val (Flt.mul v (Flt.div Flt.one x))| * |val x|) +
      (1 + u α) ^ 2 * |val x| * η α := by
  obtain ⟨f1, f2⟩ := mul_fin h
  refine ⟨f1, ?_⟩
  have h1 := (mul_err h).2
  have h2 := (div_back f2 hx).2.2
  rw [val_one] at h2
  have hu := u_nonneg (α := α)
  have hu' := u_le (α := α)
  have hη := η_nonneg (α := α)
  generalize val (Flt.mul v (Flt.div Flt.one x)) = q at *
  generalize val (Flt.div Flt.one x) = w at *
  generalize val x = d at *
  generalize val v = z at *
  have a1 : |z * w| ≤ (1 + u α) * |q| + η α := by
    have := abs_sub_abs_le_abs_sub (z * w) q
    rw [abs_sub_comm] at this
    linarith
  have a2 : |z| ≤ |q| * |d| + |q * d - z| := by
    have := abs_sub_abs_le_abs_sub z (q * d)
    rw [abs_sub_comm, abs_mul] at this
    linarith
  have a3 : |q * d - z| ≤ (u α * |q| + η α) * |d| + (u α * (((1 + u α) * |q| + η α) * |d|) +
      u α / 2 * (|q| * |d| + |q * d - z|)) := by
    calc |q * d - z| = |(q - z * w) * d + z * (w * d - 1)| := by congr 1; ring
      _ ≤ |q - z * w| * |d| + |z| * |w * d - 1| := by
        refine (abs_add_le _ _).trans ?_
        rw [abs_mul, abs_mul]
      _ ≤ (u α * |q| + η α) * |d| + |z| * (u α * (|w| * |d|) + η α * |d|) := by gcongr
      _ = (u α * |q| + η α) * |d| + (u α * (|z * w| * |d|) + (η α * |d|) * |z|) := by
        rw [abs_mul]; ring
      _ ≤ _ := by gcongr
  generalize |q * d - z| = e at *
  have hq := abs_nonneg q
  have hd := abs_nonneg d
  have a4 : (1 - u α / 2) * e ≤ (5 / 2 * u α + u α ^ 2) * (|q| * |d|) + (1 + u α) * (η α * |d|) := by
    linarith
  have hT : 0 ≤ |q| * |d| := mul_nonneg hq hd
  have hD : 0 ≤ η α * |d| := mul_nonneg hη hd
  have he : 0 ≤ e ∨ e < 0 := le_or_gt 0 e
  have hg : 0 ≤ gam α 3 := gam_nonneg 3
  rcases he with he | he
  · have a5 : e ≤ (1 + u α) * ((1 - u α / 2) * e) := by
      nlinarith [mul_nonneg hu he]
    calc e ≤ (1 + u α) * ((5 / 2 * u α + u α ^ 2) * (|q| * |d|) + (1 + u α) * (η α * |d|)) :=
          a5.trans (mul_le_mul_of_nonneg_left a4 (by linarith))
      _ = ((1 + u α) * (5 / 2 * u α + u α ^ 2)) * (|q| * |d|) + (1 + u α) ^ 2 * |d| * η α := by ring
      _ ≤ _ := by
        have : (1 + u α) * (5 / 2 * u α + u α ^ 2) ≤ gam α 3 := by
          unfold gam
          nlinarith
        gcongr
  · have : 0 ≤ gam α 3 * (|q| * |d|) + (1 + u α) ^ 2 * |d| * η α := by positivity
    linarith

/-- Multiplication by the rounded reciprocal of a root. -/
theorem recip_back {v x : α} (h : fin (Flt.mul v (Flt.div Flt.one (Flt.sqrt x)))) (hx : fin (Flt.sqrt x)) :
    fin v ∧ |val (Flt.mul v (Flt.div Flt.one (Flt.sqrt x))) * val (Flt.sqrt x) - val v| ≤
      gam α 3 * (|val (Flt.mul v (Flt.div Flt.one (Flt.sqrt x)))| * |val (Flt.sqrt x)|) +
      (1 + u α) ^ 2 * |val (Flt.sqrt x)| * η α :=
  recip_mul h hx (sqrt_small hx)

/-- A sum of products of two columns of the upper factor has `i + 1` terms. -/
theorem Chol.sum_rows (F : Nat → Nat → ℝ) (hF : ∀ i j, i < n → j < i → F i j = 0)
    {i j : Nat} (hi : i < n) :
    ∑ k ∈ range n, F k i * F k j = F i i * F i j + ∑ k ∈ Ico 0 i, F k i * F k j := by
  rw [← range_eq_Ico, ← sum_subset (range_subset_range.2 (show i + 1 ≤ n by omega)),
    sum_range_succ, add_comm]
  intro x hx hx'
  have : ¬ x < i + 1 := fun h => hx' (mem_range.2 h)
  rw [hF x i (mem_range.1 hx) (by omega), zero_mul]

theorem Chol.RInv.err {pos : α} {A f : Nat → Nat → α} (h : Chol.RInv n pos A n f)
    (hf : ∀ i j, i < n → j < n → fin (f i j)) {i j : Nat} (hij : i ≤ j) (hj : j < n) :
    fin (A i j) ∧
    |∑ k ∈ range n, val (f k i) * val (f k j) - val (A i j)| ≤
      gam α (n + 1) * ∑ k ∈ range n, |val (f k i)| * |val (f k j)| +
      (1 + u α) ^ n * (n + |val (f i i)|) * η α := by
  have hi : i < n := by omega
  have hz : ∀ i j, i < n → j < i → val (f i j) = 0 := fun i j hi hj => by
    rw [h.low i j hi hj, val_zero]
  rw [Chol.sum_rows (fun i j => val (f i j)) hz hi,
    Chol.sum_rows (fun i j => |val (f i j)|) (fun i j hi hj => by rw [hz i j hi hj, abs_zero]) hi]
  have hu := u_nonneg (α := α)
  have hη := η_nonneg (α := α)
  have hp : ∀ k, k ≤ n → (1 + u α) ^ k ≤ (1 + u α) ^ n := fun k hk => pow_le_pow_right₀ one_le_u hk
  have hin : (i : ℝ) ≤ n := by exact_mod_cast hi.le
  have hS : 0 ≤ ∑ k ∈ Ico 0 i, |val (f k i)| * |val (f k j)| := sum_nonneg fun k _ => by positivity
  have hg := gam_nonneg (α := α) i
  have g1 : gam α (i + 1) ≤ gam α (n + 1) := gam_mono (by omega)
  have hd0 := abs_nonneg (val (f i i))
  rcases Nat.eq_or_lt_of_le hij with e | e
  · subst e
    have hq := hf i i hi hi
    have e1 := h.dg i hi
    rw [e1] at hq
    obtain ⟨b1, b2, -, b3⟩ := sqrt_back hq
    obtain ⟨c1, -, c3⟩ := lsub_prods (show fin (lsub 0 i (fun x => Flt.mul (f x i) (f x i)) (A i i)) from b1)
    rw [show lsub 0 i (fun x => Flt.mul (f x i) (f x i)) (A i i) = Chol.left A f i i i from rfl,
      Nat.sub_zero] at c3
    rw [← e1] at b3
    refine ⟨c1, ?_⟩
    generalize val (Chol.left A f i i i) = z at *
    generalize val (f i i) = d at *
    generalize val (A i i) = a at *
    generalize ∑ k ∈ Ico 0 i, |val (f k i)| * |val (f k i)| = T at *
    generalize ∑ k ∈ Ico 0 i, val (f k i) * val (f k i) = S at *
    have h5 : |z| ≤ (1 + gam α 2) * (|d| * |d|) := by
      have := abs_sub_abs_le_abs_sub z (d * d)
      rw [abs_sub_comm, abs_mul] at this
      linarith
    have g2 : gam α (i + 2) ≤ gam α (n + 1) := gam_mono (by omega)
    calc |d * d + S - a| = |(d * d - z) + (z + S - a)| := by congr 1; ring
      _ ≤ gam α 2 * (|d| * |d|) + (gam α i * ((1 + gam α 2) * (|d| * |d|)) + gam α (i + 1) * T +
          i * (1 + u α) ^ i * η α) := by
        refine (abs_add_le _ _).trans (add_le_add b3 (c3.trans ?_))
        gcongr
      _ = gam α (i + 2) * (|d| * |d|) + gam α (i + 1) * T + (1 + u α) ^ i * i * η α := by
        rw [gam_add i 2]; ring
      _ ≤ gam α (n + 1) * (|d| * |d|) + gam α (n + 1) * T + (1 + u α) ^ n * (n + |d|) * η α := by
        have := hp i hi.le
        have : (i : ℝ) ≤ n + |d| := by linarith
        gcongr
      _ = _ := by ring
  · have hq := hf i j hi hj
    have e1 := h.dg i hi
    have e2 := h.up i j hi e hj
    rw [e2, e1] at hq
    have hd := hf i i hi hi
    rw [e1] at hd
    obtain ⟨b1, b3⟩ := recip_back hq hd
    obtain ⟨c1, -, c3⟩ := lsub_prods (show fin (lsub 0 i (fun x => Flt.mul (f x i) (f x j)) (A i j)) from b1)
    rw [show lsub 0 i (fun x => Flt.mul (f x i) (f x j)) (A i j) = Chol.left A f i i j from rfl,
      Nat.sub_zero] at c3
    rw [← e1, ← e2] at b3
    refine ⟨c1, ?_⟩
    generalize val (Chol.left A f i i j) = z at *
    generalize val (f i i) = d at *
    generalize val (f i j) = q at *
    generalize val (A i j) = a at *
    generalize ∑ k ∈ Ico 0 i, |val (f k i)| * |val (f k j)| = T at *
    generalize ∑ k ∈ Ico 0 i, val (f k i) * val (f k j) = S at *
    have h5 : |z| ≤ (1 + gam α 3) * (|q| * |d|) + (1 + u α) ^ 2 * |d| * η α := by
      have := abs_sub_abs_le_abs_sub z (q * d)
      rw [abs_sub_comm, abs_mul] at this
      linarith
    have g2 : gam α (i + 3) ≤ gam α (n + 1) := gam_mono (by omega)
    calc |d * q + S - a| = |(q * d - z) + (z + S - a)| := by congr 1; ring
      _ ≤ (gam α 3 * (|q| * |d|) + (1 + u α) ^ 2 * |d| * η α) +
          (gam α i * ((1 + gam α 3) * (|q| * |d|) + (1 + u α) ^ 2 * |d| * η α) + gam α (i + 1) * T +
          i * (1 + u α) ^ i * η α) := by
        refine (abs_add_le _ _).trans (add_le_add b3 (c3.trans ?_))
        gcongr
      _ = gam α (i + 3) * (|d| * |q|) + gam α (i + 1) * T +
          ((1 + u α) ^ i * i + (1 + u α) ^ (i + 2) * |d|) * η α := by
        rw [gam_add i 3, pow_add, ← one_add_gam i]; ring
      _ ≤ gam α (n + 1) * (|d| * |q|) + gam α (n + 1) * T +
          ((1 + u α) ^ n * n + (1 + u α) ^ n * |d|) * η α := by
        have h6 := hp i hi.le
        have h7 := hp (i + 2) (by omega)
        gcongr
      _ = _ := by ring

/-- A finite solution comes from a finite factor. -/
theorem Chol.Subst.fins {f : Nat → Nat → α} {b y x : Nat → α} (h : Chol.Subst n f b y x)
    (hf : ∀ i, i < n → fin (f i i)) (hx : ∀ i, i < n → fin (x i)) :
    ∀ i j, i ≤ j → j < n → fin (f i j) := by
  intro i j hij hj
  have hi : i < n := by omega
  have h0 := hx i hi
  rw [h.bwd i hi] at h0
  obtain ⟨-, h2, -⟩ := rsub_prods_div (hf i hi) h0
  rcases Nat.eq_or_lt_of_le hij with rfl | e
  · exact hf i hi
  · exact (h2 j e hj).2

theorem Chol.Subst.err {f : Nat → Nat → α} {b y x : Nat → α} (h : Chol.Subst n f b y x)
    (hlow : ∀ i j, i < n → j < i → f i j = Flt.zero)
    (hf : ∀ i, i < n → fin (f i i)) (hx : ∀ i, i < n → fin (x i)) :
    (∀ i, i < n → fin (b i) ∧ val (f i i) ≠ 0 ∧
      |∑ k ∈ range n, val (f k i) * val (y k) - val (b i)| ≤
        gam α n * ∑ k ∈ range n, |val (f k i)| * |val (y k)| + (1 + u α) ^ n * (n + |val (f i i)|) * η α) ∧
    ∀ i, i < n → |∑ k ∈ range n, val (f i k) * val (x k) - val (y i)| ≤
      gam α n * ∑ k ∈ range n, |val (f i k)| * |val (x k)| +
        (1 + u α) ^ n * (n + |val (f i i)|) * η α := by
  have hu := u_nonneg (α := α)
  have hη := η_nonneg (α := α)
  have hp : ∀ k, k ≤ n → (1 + u α) ^ k ≤ (1 + u α) ^ n := fun k hk => pow_le_pow_right₀ one_le_u hk
  have hb : ∀ i, i < n → fin (y i) ∧ |∑ k ∈ range n, val (f i k) * val (x k) - val (y i)| ≤
      gam α n * ∑ k ∈ range n, |val (f i k)| * |val (x k)| +
        (1 + u α) ^ n * (n + |val (f i i)|) * η α := by
    intro i hi
    have h0 := hx i hi
    have e0 := h.bwd i hi
    rw [e0] at h0
    obtain ⟨h1, -, h2, h3⟩ := rsub_prods_div (hf i hi) h0
    rw [← e0] at h3
    refine ⟨h1, ?_⟩
    have hs : ∀ (F : α → ℝ), F Flt.zero = 0 →
        ∑ k ∈ range n, F (f i k) * F (x k) = F (x i) * F (f i i) +
          ∑ k ∈ Ico (i + 1) n, F (x k) * F (f i k) := by
      intro F hF
      rw [← sum_subset (show Ico i n ⊆ range n from fun a ha => mem_range.2 (mem_Ico.1 ha).2),
        sum_eq_sum_Ico_succ_bot hi]
      · congr 1
        · rw [mul_comm]
        · exact sum_congr rfl fun k hk => mul_comm _ _
      · intro k hk hk'
        have hki : k < i := by
          by_contra hc
          exact hk' (mem_Ico.2 ⟨by omega, mem_range.1 hk⟩)
        rw [hlow i k hi hki, hF, zero_mul]
    rw [hs val val_zero, hs (fun x => |val x|) (by rw [val_zero, abs_zero])]
    refine h3.trans ?_
    have g2 : gam α (n - (i + 1) + 1) ≤ gam α n := gam_mono (by omega)
    have hS : 0 ≤ ∑ k ∈ Ico (i + 1) n, |val (x k)| * |val (f i k)| :=
      sum_nonneg fun k _ => by positivity
    have hin : ((n - (i + 1) : ℕ) : ℝ) ≤ n := by exact_mod_cast (by omega)
    have h4 := hp (n - (i + 1)) (by omega)
    gcongr
  refine ⟨fun i hi => ?_, fun i hi => (hb i hi).2⟩
  have h0 := (hb i hi).1
  have e0 := h.fwd i hi
  rw [e0] at h0
  obtain ⟨h1, -, h2, h3⟩ := lsub_prods_div (hf i hi) h0
  rw [← e0, Nat.sub_zero] at h3
  refine ⟨h1, h2, ?_⟩
  have hs : ∀ (F : α → ℝ), F Flt.zero = 0 →
      ∑ k ∈ range n, F (f k i) * F (y k) = F (y i) * F (f i i) + ∑ k ∈ Ico 0 i, F (y k) * F (f k i) := by
    intro F hF
    rw [← range_eq_Ico, ← sum_subset (range_subset_range.2 (show i + 1 ≤ n by omega)),
      sum_range_succ, add_comm]
    · congr 1
      · rw [mul_comm]
      · exact sum_congr rfl fun k hk => mul_comm _ _
    · intro k hk hk'
      have : ¬ k < i + 1 := fun h => hk' (mem_range.2 h)
      rw [hlow k i (mem_range.1 hk) (by omega), hF, zero_mul]
  rw [hs val val_zero, hs (fun x => |val x|) (by rw [val_zero, abs_zero])]
  refine h3.trans ?_
  have g2 : gam α (i + 1) ≤ gam α n := gam_mono hi
  have hS : 0 ≤ ∑ k ∈ Ico 0 i, |val (y k)| * |val (f k i)| := sum_nonneg fun k _ => by positivity
  have hin : (i : ℝ) ≤ n := by exact_mod_cast hi.le
  have h4 := hp i hi.le
  gcongr

/-- The residual of a computed solution. -/
theorem Chol.Subst.residual {pos : α} {A f : Nat → Nat → α} {b y x : Nat → α}
    (hI : Chol.RInv n pos A n f) (h : Chol.Subst n f b y x)
    (hf : ∀ i, i < n → fin (f i i)) (hx : ∀ i, i < n → fin (x i)) {i : Nat} (hi : i < n) :
    |∑ j ∈ range n, val (symU A i j) * val (x j) - val (b i)| ≤
      gam α (3 * n + 1) * ∑ j ∈ range n, (∑ k ∈ range n, |val (f k i)| * |val (f k j)|) * |val (x j)| +
      (1 + u α) ^ n * (∑ j ∈ range n, (n + |val (f (min i j) (min i j))|) * |val (x j)| +
        (1 + u α) ^ n * ∑ k ∈ range n, |val (f k i)| * (n + |val (f k k)|) + (n + |val (f i i)|)) * η α := by
  obtain ⟨h1, h2⟩ := h.err hI.low hf hx
  have hfin : ∀ i j, i < n → j < n → fin (f i j) := fun i j hi hj => by
    by_cases e : i ≤ j
    · exact h.fins hf hx i j e hj
    · rw [hI.low i j hi (by omega)]; exact zero_fin
  have h3 := Linear.residual (gam_nonneg (α := α) n) (gam_nonneg (α := α) (n + 1))
    (A := fun i j => val (symU A i j))
    (L := fun i j => val (f j i)) (U := fun i j => val (f i j))
    (b := fun i => val (b i)) (x := fun i => val (x i)) (y := fun i => val (y i))
    (e := fun j => (1 + u α) ^ n * (n + |val (f j j)|) * η α)
    (e' := fun i j => (1 + u α) ^ n * (n + |val (f (min i j) (min i j))|) * η α)
    (δ := fun i => (1 + u α) ^ n * (n + |val (f i i)|) * η α)
    (fun i j hi hj => by
      unfold symU
      by_cases e : i ≤ j
      · rw [if_pos e, min_eq_left e]
        exact (hI.err hfin e hj).2
      · rw [if_neg e, min_eq_right (by omega)]
        have h4 := (hI.err hfin (show j ≤ i by omega) hi).2
        have e1 : ∑ k ∈ range n, val (f k i) * val (f k j) = ∑ k ∈ range n, val (f k j) * val (f k i) :=
          sum_congr rfl fun k _ => mul_comm _ _
        have e2 : ∑ k ∈ range n, |val (f k i)| * |val (f k j)| =
            ∑ k ∈ range n, |val (f k j)| * |val (f k i)| :=
          sum_congr rfl fun k _ => mul_comm _ _
        rw [e1, e2]
        exact h4) (fun i hi => (h1 i hi).2.2) h2 hi
  refine h3.trans (le_of_eq ?_)
  have eg : (1 + gam α (n + 1)) * (1 + gam α n) ^ 2 - 1 = gam α (3 * n + 1) := by
    rw [one_add_gam, one_add_gam, ← pow_mul, ← pow_add, show n + 1 + n * 2 = 3 * n + 1 by ring]
    rfl
  rw [eg, one_add_gam]
  congr 1
  have e1 : ∑ j ∈ range n, (1 + u α) ^ n * (n + |val (f (min i j) (min i j))|) * η α * |val (x j)| =
      (1 + u α) ^ n * η α * ∑ j ∈ range n, (n + |val (f (min i j) (min i j))|) * |val (x j)| := by
    rw [mul_sum]
    exact sum_congr rfl fun j _ => by ring
  have e2 : ∑ k ∈ range n, |val (f k i)| * ((1 + u α) ^ n * (n + |val (f k k)|) * η α) =
      (1 + u α) ^ n * η α * ∑ k ∈ range n, |val (f k i)| * (n + |val (f k k)|) := by
    rw [mul_sum]
    exact sum_congr rfl fun j _ => by ring
  rw [e1, e2]
  ring

end round

end Linear
