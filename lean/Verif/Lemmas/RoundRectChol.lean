import Verif.Lemmas.RoundChol
import Verif.Props.RectCholesky

/-!
# The rectangular Cholesky decomposition in rounded arithmetic: the operations and their errors
-/

set_option linter.unusedSectionVars false

namespace Linear

open Spec Rnd
open Finset hiding val diag

variable {α : Type} [Flt α] [Rnd α] {n : Nat}

/-- The first `k` columns of the decomposition of `A`, operation by operation. `p` is the order in which the rows are
taken, `b i t` the entry of the root in row `p i` and column `t`, and `C t` what is left of the matrix after `t`
columns. -/
structure Spec.RectRec (n k : Nat) (small : α) (A : Nat → Nat → α) (p : Nat → Nat) (b : Nat → Nat → α)
    (C : Nat → Nat → Nat → α) : Prop where
  lt : ∀ i, i < n → p i < n
  inj : ∀ i j, i < n → j < n → p i = p j → i = j
  start : ∀ i j, i < n → j < n → C 0 i j = A i j
  best : ∀ t, t < k → (∀ i, t ≤ i → i < n → fin (C t (p i) (p i))) →
    ∀ i, t ≤ i → i < n → val (C t (p i) (p i)) ≤ val (C t (p t) (p t))
  test : ∀ t, t < k → ¬ Flt.le (C t (p t) (p t)) small = true
  diag : ∀ t, t < k → b t t = Flt.sqrt (C t (p t) (p t))
  col : ∀ t i, t < k → t < i → i < n →
    b i t = Flt.mul (Flt.div Flt.one (Flt.sqrt (C t (p t) (p t)))) (C t (p i) (p t))
  up : ∀ t i, t < k → i < t → b i t = Flt.zero
  next : ∀ t i, t < k → t < i → i < n → C (t + 1) (p i) (p i) = Flt.sub (C t (p i) (p i))
    (Flt.mul (Flt.mul (C t (p i) (p t)) (C t (p i) (p t))) (Flt.div Flt.one (C t (p t) (p t))))
  off : ∀ t i j, t < k → t < i → i < n → t < j → j < n → i ≠ j →
    C (t + 1) (p i) (p j) = Flt.sub (C t (p i) (p j)) (Flt.mul (b i t) (b j t)) ∨
    C (t + 1) (p i) (p j) = Flt.sub (C t (p i) (p j)) (Flt.mul (b j t) (b i t))

/-- The invariant of the loop. -/
structure RChol.Tr (n : Nat) (small : α) (A : Nat → Nat → α) (k : Nat) (s : RChol α n n)
    (C : Nat → Nat → Nat → α) : Prop where
  ops : RectRec n k small A s.index.f s.b.f C
  cur : C k = s.c.f
  sym : ∀ i j, k ≤ i → i < n → k ≤ j → j < n → s.F i j = s.F j i
  zero : ∀ i t, k ≤ t → s.b.f i t = Flt.zero

theorem RChol.Tr.ix {small : α} {A : Nat → Nat → α} {k : Nat} {s : RChol α n n} {C : Nat → Nat → Nat → α}
    (h : RChol.Tr n small A k s C) : RChol.Ix n s.index.f := ⟨h.ops.lt, h.ops.inj⟩

theorem RChol.Tr.swap {small : α} {A : Nat → Nat → α} {k q : Nat} {s s' : RChol α n n} {C : Nat → Nat → Nat → α}
    (h : RChol.Tr n small A k s C) (hk : k < n) (hq : k ≤ q) (hqn : q < n) (h1 : s'.c = s.c)
    (h2 : ∀ x, s'.index.f x = s.index.f (Equiv.swap k q x))
    (h3 : ∀ x, s'.b.f x = s.b.f (Equiv.swap k q x)) : RChol.Tr n small A k s' C := by
  have lo : ∀ x, x < k → Equiv.swap k q x = x := fun x hx =>
    Equiv.swap_apply_of_ne_of_ne (by omega) (by omega)
  have hi : ∀ x, k ≤ x → k ≤ Equiv.swap k q x := by
    intro x h1
    rw [Equiv.swap_apply_def]
    split
    · omega
    · split <;> omega
  have hn : ∀ x, x < n → Equiv.swap k q x < n := by
    intro x hx
    rw [Equiv.swap_apply_def]
    split
    · omega
    · split <;> omega
  have hgt : ∀ t x, t < k → t < x → t < Equiv.swap k q x := by
    intro t x ht hx
    by_cases e : x < k
    · rw [lo x e]; exact hx
    · have := hi x (by omega)
      omega
  have hge : ∀ t x, t < k → t ≤ x → t ≤ Equiv.swap k q x := by
    intro t x ht hx
    by_cases e : x < k
    · rw [lo x e]; exact hx
    · have := hi x (by omega)
      omega
  have hF : ∀ x y, s'.F x y = s.F (Equiv.swap k q x) (Equiv.swap k q y) := by
    intro x y
    unfold RChol.F
    rw [h1, h2, h2]
  have hix := h.ix.swap hk hqn h2
  refine ⟨⟨hix.lt, hix.inj, h.ops.start, ?_, ?_, ?_, ?_, ?_, ?_, ?_⟩, by rw [h1]; exact h.cur, ?_, ?_⟩
  · intro t ht hf i h4 h5
    rw [h2, h2, lo t ht]
    refine h.ops.best t ht (fun j h6 h7 => ?_) _ (hge t i ht h4) (hn i h5)
    have := hf (Equiv.swap k q j) (hge t j ht h6) (hn j h7)
    rwa [h2, Equiv.swap_apply_self] at this
  · intro t ht
    rw [h2, lo t ht]
    exact h.ops.test t ht
  · intro t ht
    rw [h2, h3, lo t ht]
    exact h.ops.diag t ht
  · intro t i ht h4 h5
    rw [h2, h2, h3, lo t ht]
    exact h.ops.col t _ ht (hgt t i ht h4) (hn i h5)
  · intro t i ht h4
    rw [h3, lo i (by omega)]
    exact h.ops.up t i ht h4
  · intro t i ht h4 h5
    rw [h2, h2, lo t ht]
    exact h.ops.next t _ ht (hgt t i ht h4) (hn i h5)
  · intro t i j ht h4 h5 h6 h7 h8
    rw [h2, h2, h3, h3]
    exact h.ops.off t _ _ ht (hgt t i ht h4) (hn i h5) (hgt t j ht h6) (hn j h7)
      fun e => h8 ((Equiv.swap k q).injective e)
  · intro i j h4 h5 h6 h7
    rw [hF, hF]
    exact h.sym _ _ (hi i h4) (hn i h5) (hi j h6) (hn j h7)
  · intro i t ht
    rw [h3]
    exact h.zero _ t ht

theorem RChol.Tr.transform {small : α} {A : Nat → Nat → α} {k : Nat} {s s' : RChol α n n}
    {C : Nat → Nat → Nat → α} (h : RChol.Tr n small A k s C) (hk : k < n)
    (hb : (∀ i, k ≤ i → i < n → fin (s.F i i)) → ∀ i, k ≤ i → i < n → val (s.F i i) ≤ val (s.F k k))
    (hd : ¬ Flt.le (s.F k k) small = true) (h1 : s'.index = s.index)
    (h2 : ∀ x y, s'.b.f x y = if y = k ∧ k ≤ x ∧ x < n then
        (if x = k then Flt.sqrt (s.F k k) else RChol.e s.F k x) else s.b.f x y)
    (h3 : ∀ x y, k < x → x < n → k < y → y < n → s'.F x y = RChol.N s.F k x y) :
    RChol.Tr n small A (k + 1) s' fun t => if t = k + 1 then s'.c.f else C t := by
  have hCk : ∀ x y, C k (s.index.f x) (s.index.f y) = s.F x y := fun x y => by
    rw [h.cur]; rfl
  have hC : ∀ t, t ≤ k → (if t = k + 1 then s'.c.f else C t) = C t := fun t ht => if_neg (by omega)
  have hN : ∀ x y, (if k + 1 = k + 1 then s'.c.f else C (k + 1)) (s'.index.f x) (s'.index.f y) = s'.F x y :=
    fun x y => by rw [if_pos rfl]; rfl
  have hold : ∀ x t, t < k → s'.b.f x t = s.b.f x t := by
    intro x t ht
    rw [h2, if_neg (by omega)]
  have hkk : s'.b.f k k = Flt.sqrt (s.F k k) := by
    rw [h2, if_pos (by omega), if_pos rfl]
  have he : ∀ x, k < x → x < n → s'.b.f x k = RChol.e s.F k x := by
    intro x h4 h5
    rw [h2, if_pos (by omega), if_neg (by omega)]
  refine ⟨⟨?_, ?_, ?_, ?_, ?_, ?_, ?_, ?_, ?_, ?_⟩, if_pos rfl, ?_, ?_⟩
  · rw [h1]; exact h.ops.lt
  · rw [h1]; exact h.ops.inj
  · rw [hC 0 (Nat.zero_le _)]; exact h.ops.start
  · intro t ht
    rw [hC t (by omega), h1]
    by_cases e : t = k
    · subst e
      simp only [hCk]
      exact hb
    · exact h.ops.best t (by omega)
  · intro t ht
    rw [hC t (by omega), h1]
    by_cases e : t = k
    · subst e
      rw [hCk]
      exact hd
    · exact h.ops.test t (by omega)
  · intro t ht
    rw [hC t (by omega), h1]
    by_cases e : t = k
    · subst e
      rw [hCk, hkk]
    · rw [hold t t (by omega)]
      exact h.ops.diag t (by omega)
  · intro t i ht h4 h5
    rw [hC t (by omega), h1]
    by_cases e : t = k
    · subst e
      rw [hCk, hCk, he i h4 h5]
      rfl
    · rw [hold i t (by omega)]
      exact h.ops.col t i (by omega) h4 h5
  · intro t i ht h4
    by_cases e : t = k
    · subst e
      rw [h2, if_neg (by omega)]
      exact h.zero i t le_rfl
    · rw [hold i t (by omega)]
      exact h.ops.up t i (by omega) h4
  · intro t i ht h4 h5
    by_cases e : t = k
    · subst e
      rw [hN, hC t le_rfl, h1, hCk, hCk, hCk, h3 i i h4 h5 h4 h5]
      unfold RChol.N
      rw [if_pos rfl]
    · rw [hC (t + 1) (by omega), hC t (by omega), h1]
      exact h.ops.next t i (by omega) h4 h5
  · intro t i j ht h4 h5 h6 h7 h8
    by_cases e : t = k
    · subst e
      rw [hN, hC t le_rfl, h1, hCk, h3 i j h4 h5 h6 h7, he i h4 h5, he j h6 h7]
      unfold RChol.N
      rw [if_neg h8]
      by_cases e2 : j < i
      · rw [if_pos e2]; exact .inl rfl
      · rw [if_neg e2, h.sym j i h6.le h7 h4.le h5]; exact .inr rfl
    · rw [hC (t + 1) (by omega), hC t (by omega), h1, hold i t (by omega), hold j t (by omega)]
      exact h.ops.off t i j (by omega) h4 h5 h6 h7 h8
  · intro i j h4 h5 h6 h7
    rw [h3 i j (by omega) h5 (by omega) h7, h3 j i (by omega) h7 (by omega) h5]
    unfold RChol.N
    by_cases e : i = j
    · subst e; rfl
    · rw [if_neg e, if_neg (Ne.symm e)]
      by_cases e2 : j < i
      · rw [if_pos e2, if_neg (by omega)]
      · rw [if_neg e2, if_pos (by omega)]
  · intro i t hit
    rw [h2, if_neg (by omega)]
    exact h.zero i t (by omega)

/-- The maximal diagonal element, when all are finite. -/
theorem RChol.best_max {k : Nat} (hk : k < n) (s : RChol α n n) (hp : RChol.Ix n s.index.f) :
    ∃ q, s.best k = .ok q ∧ k ≤ q ∧ q < n ∧
      ((∀ i, k ≤ i → i < n → fin (s.F i i)) → ∀ i, k ≤ i → i < n → val (s.F i i) ≤ val (s.F q q)) := by
  by_cases hf : ∀ i, k ≤ i → i < n → fin (s.F i i)
  · obtain ⟨q, h1, h2, h3, h4⟩ := s.best_ok
      (fun m q => (k ≤ q ∧ q < n) ∧ ∀ i, k ≤ i → i < m → val (s.F i i) ≤ val (s.F q q)) hk hp
      ⟨⟨le_rfl, hk⟩, fun i h1 h2 => by rw [show i = k by omega]⟩ (by
        rintro i q h1 h2 ⟨⟨h3, h3'⟩, h4⟩
        have e : Flt.lt (s.c.f (s.index.f q) (s.index.f q)) (s.c.f (s.index.f i) (s.index.f i)) = true ↔
          val (s.F q q) < val (s.F i i) := lt_iff (hf q h3 h3') (hf i h1.le h2)
        by_cases hl : val (s.F q q) < val (s.F i i)
        · rw [if_pos (e.2 hl)]
          refine ⟨⟨h1.le, h2⟩, fun j h5 h6 => ?_⟩
          by_cases e : j = i
          · rw [e]
          · exact (h4 j h5 (by omega)).trans hl.le
        · rw [if_neg fun h => hl (e.1 h)]
          refine ⟨⟨h3, h3'⟩, fun j h5 h6 => ?_⟩
          by_cases e : j = i
          · rw [e]; exact not_lt.1 hl
          · exact h4 j h5 (by omega))
    exact ⟨q, h1, h2, h3, fun _ => h4.2⟩
  · obtain ⟨q, h1, h2, h3, -⟩ := s.best_ok (fun _ _ => True) hk hp trivial fun _ _ _ _ _ => trivial
    exact ⟨q, h1, h2, h3, fun h => absurd h hf⟩

/-- How the loop ends before the last row: the pivot is at most the threshold, and no element of what is left of the
diagonal is below its negative. -/
structure Spec.RectEnd (n k : Nat) (small : α) (p : Nat → Nat) (C : Nat → Nat → Nat → α) : Prop where
  best : (∀ i, k ≤ i → i < n → fin (C k (p i) (p i))) →
    ∀ i, k ≤ i → i < n → val (C k (p i) (p i)) ≤ val (C k (p k) (p k))
  le : Flt.le (C k (p k) (p k)) small = true
  ge : ∀ i, k ≤ i → i < n → ¬ Flt.lt (C k (p i) (p i)) (Flt.neg small) = true

theorem RChol.step_rec {small : α} {A : Nat → Nat → α} {k : Nat} (hk : k < n) {s : RChol α n n}
    {C : Nat → Nat → Nat → α} (h : RChol.Tr n small A k s C) :
    Wp (RChol.step small k s) (Sum.elim (fun s' => ∃ C, RChol.Tr n small A (k + 1) s' C)
      (fun x => ∃ C, RChol.Tr n small A x.1 x.2 C ∧ 0 < x.1 ∧ x.1 < n ∧ RectEnd n x.1 small x.2.index.f C))
      (fun e => e = .err .small ∧ ∃ s' C, RChol.Tr n small A k s' C ∧
        Flt.le (s'.F k k) small = true ∧ (k = 0 ∨ ∃ i, k ≤ i ∧ i < n ∧ Flt.lt (s'.F i i) (Flt.neg small) = true)) := by
  unfold RChol.step
  obtain ⟨q, eq, hq1, hq2, hq3⟩ := RChol.best_max hk s h.ix
  rw [eq, ok_bind]
  obtain ⟨s₁, es, h3, h4, h5⟩ := s.swap_ok hk hq2
  have hI := h.swap hk hq1 hq2 h3 h4 h5
  have hpk := hI.ix.lt k hk
  have hsw : ∀ i, k ≤ i → i < n → k ≤ Equiv.swap k q i ∧ Equiv.swap k q i < n := by
    intro i h6 h7
    rw [Equiv.swap_apply_def]
    split
    · omega
    · split <;> omega
  have hF : ∀ x y, s₁.F x y = s.F (Equiv.swap k q x) (Equiv.swap k q y) := by
    intro x y
    unfold RChol.F
    rw [h3, h4, h4]
  have hmax : (∀ i, k ≤ i → i < n → fin (s₁.F i i)) →
      ∀ i, k ≤ i → i < n → val (s₁.F i i) ≤ val (s₁.F k k) := by
    intro hf i h6 h7
    rw [hF, hF, Equiv.swap_apply_left]
    refine hq3 (fun j h8 h9 => ?_) _ (hsw i h6 h7).1 (hsw i h6 h7).2
    have := hf (Equiv.swap k q j) (hsw j h8 h9).1 (hsw j h8 h9).2
    rwa [hF, Equiv.swap_apply_self] at this
  rw [es, ok_bind, Row.get_ok hk, ok_bind, Tab.get_ok hpk hpk, ok_bind]
  show Wp (if Flt.le (s₁.F k k) small = true then _ else _) _ _
  by_cases hl : Flt.le (s₁.F k k) small = true
  · rw [if_pos hl]
    by_cases h0 : k = 0
    · rw [if_pos h0]
      exact ⟨rfl, s₁, C, hI, hl, .inl h0⟩
    · rw [if_neg h0]
      show Wp (s₁.rest small k >>= _) _ _
      rw [wp_bind]
      refine (s₁.rest_wp small hk hI.ix).mono (fun _ h6 => ⟨C, hI, by omega, hk, ?_⟩) ?_
      · have e : ∀ x y, C k (s₁.index.f x) (s₁.index.f y) = s₁.F x y := fun x y => by
          rw [hI.cur]; rfl
        refine ⟨?_, ?_, fun i h7 h8 => ?_⟩
        · simp only [e]; exact hmax
        · rw [e]; exact hl
        · rw [e]; exact h6 i h7 h8
      · rintro e ⟨rfl, i, h7, h8, h9⟩
        exact ⟨rfl, s₁, C, hI, hl, .inr ⟨i, h7, h8, h9⟩⟩
  · rw [if_neg hl]
    obtain ⟨s₂, e₂, h6, h7, h8⟩ := s₁.transform_ok hk hI.ix
    rw [e₂, ok_bind]
    exact ⟨_, hI.transform hk hmax hl h6 h7 h8⟩

theorem Spec.RectRec.congr {k : Nat} {small : α} {A : Nat → Nat → α} {p : Nat → Nat} {b b' : Nat → Nat → α}
    {C : Nat → Nat → Nat → α} (h : RectRec n k small A p b C) (hk : k ≤ n)
    (e : ∀ i t, i < n → t < k → b' i t = b i t) : RectRec n k small A p b' C := by
  refine ⟨h.lt, h.inj, h.start, h.best, h.test, ?_, ?_, ?_, h.next, ?_⟩
  · intro t ht
    rw [e t t (by omega) ht]
    exact h.diag t ht
  · intro t i ht h1 h2
    rw [e i t h2 ht]
    exact h.col t i ht h1 h2
  · intro t i ht h1
    rw [e i t (by omega) ht]
    exact h.up t i ht h1
  · intro t i j ht h1 h2 h3 h4 h5
    rw [e i t h2 ht, e j t h4 ht]
    exact h.off t i j ht h1 h2 h3 h4 h5

theorem RectChol.new_rec {small : α} {m : Mat α n n} (hm : m.own) (hn : 0 < n)
    {A : Nat → Nat → α} (hA : Shows m.at n n A) (hsym : ∀ i j, i < n → j < n → A i j = A j i) :
    Wp (RectChol.new small m) (fun d => ∃ (B : Nat → Nat → α) (p : Nat → Nat) (C : Nat → Nat → Nat → α),
        0 < d.rank ∧ d.rank ≤ n ∧ d.root.own ∧ Shows d.root.at n d.rank B ∧
        RectRec n d.rank small A p (fun i t => B (p i) t) C ∧
        (d.rank < n → RectEnd n d.rank small p C))
      (fun e => e = .err .small ∧ ∃ (k : Nat) (p : Nat → Nat) (b : Nat → Nat → α) (C : Nat → Nat → Nat → α),
        k < n ∧ RectRec n k small A p b C ∧ Flt.le (C k (p k) (p k)) small = true ∧
        (k = 0 ∨ ∃ i, k ≤ i ∧ i < n ∧ Flt.lt (C k (p i) (p i)) (Flt.neg small) = true)) := by
  have h : Wp (RChol.loop small m) (fun x => ∃ C, RChol.Tr n small A x.1 x.2 C ∧ 0 < x.1 ∧ x.1 ≤ n ∧
        (x.1 < n → RectEnd n x.1 small x.2.index.f C))
      (fun e => e = .err .small ∧ ∃ (k : Nat) (p : Nat → Nat) (b : Nat → Nat → α) (C : Nat → Nat → Nat → α),
        k < n ∧ RectRec n k small A p b C ∧ Flt.le (C k (p k) (p k)) small = true ∧
        (k = 0 ∨ ∃ i, k ≤ i ∧ i < n ∧ Flt.lt (C k (p i) (p i)) (Flt.neg small) = true)) := by
    refine (RChol.loop_wp (I := fun k s => ∃ C, RChol.Tr n small A k s C)
      (R := fun x => ∃ C, RChol.Tr n small A x.1 x.2 C ∧ 0 < x.1 ∧ x.1 < n ∧
        RectEnd n x.1 small x.2.index.f C) hm hn hA ?_ ?_).imp ?_
    · intro s hi hc hb
      refine ⟨fun _ => s.c.f, ⟨⟨fun i h => by rw [hi i h]; exact h, fun i j h1 h2 h3 => by rwa [hi i h1, hi j h2] at h3,
        hc, by omega, by omega, by omega, by omega, by omega, by omega, by omega⟩, rfl, ?_, fun i t _ => hb i t⟩⟩
      intro i j _ h1 _ h2
      unfold RChol.F
      rw [hi i h1, hi j h2, hc i j h1 h2, hc j i h2 h1]
      exact hsym i j h1 h2
    · rintro k s hk ⟨C, h⟩
      refine (RChol.step_rec hk h).mono (fun x hx => ?_) ?_
      · rcases x with x | x <;> exact hx
      · rintro e ⟨rfl, s', C, h1, h2, h3⟩
        have e : ∀ x y, C k (s'.index.f x) (s'.index.f y) = s'.F x y := fun x y => by
          rw [h1.cur]; rfl
        refine ⟨rfl, k, s'.index.f, s'.b.f, C, hk, h1.ops, ?_, ?_⟩
        · rw [e]; exact h2
        · simp only [e]; exact h3
    · rintro x (⟨h1, C, h2⟩ | ⟨C, h1, h2, h3, h4⟩)
      · rw [h1]
        exact ⟨C, h2, hn, le_rfl, fun h => absurd h (lt_irrefl _)⟩
      · exact ⟨C, h1, h2, h3.le, fun _ => h4⟩
  unfold RectChol.new
  rw [wp_bind]
  refine h.imp ?_
  rintro ⟨k, s⟩ ⟨C, h1, h2, h3, h4⟩
  obtain ⟨m', B, e, h7, h5, h6⟩ := RChol.root_ok hn h2 h3 s h1.ix
  dsimp only
  rw [e]
  exact ⟨B, s.index.f, C, h2, h3, h7, h5, h1.ops.congr h3 h6, h4⟩

/-! ## Errors -/

/-- Multiplication by the rounded reciprocal of a root, from the left. -/
theorem recip_left {v x : α} (h : fin (Flt.mul (Flt.div Flt.one (Flt.sqrt x)) v)) (hx : fin (Flt.sqrt x)) :
    fin v ∧ |val (Flt.mul (Flt.div Flt.one (Flt.sqrt x)) v) * val (Flt.sqrt x) - val v| ≤
      gam α 3 * (|val (Flt.mul (Flt.div Flt.one (Flt.sqrt x)) v)| * |val (Flt.sqrt x)|) +
      (1 + u α) ^ 2 * |val (Flt.sqrt x)| * η α := by
  obtain ⟨f2, f1⟩ := mul_fin h
  refine ⟨f1, ?_⟩
  have h3 := sqrt_small hx
  have h1 := (mul_err h).2
  have h2 := (div_back f2 hx).2.2
  rw [val_one] at h2
  have hu := u_nonneg (α := α)
  have hu' := u_le (α := α)
  have hη := η_nonneg (α := α)
  generalize val (Flt.mul (Flt.div Flt.one (Flt.sqrt x)) v) = q at *
  generalize val (Flt.div Flt.one (Flt.sqrt x)) = w at *
  generalize val (Flt.sqrt x) = d at *
  generalize val v = z at *
  rw [mul_comm w z] at h1
  have a1 : |z * w| ≤ (1 + u α) * |q| + η α := by
    have := abs_sub_abs_le_abs_sub (z * w) q
    rw [abs_sub_comm] at this
    linarith
  have a2 : |z| ≤ |q| * |d| + |q * d - z| := by
    have := abs_sub_abs_le_abs_sub z (q * d)
    rw [abs_sub_comm, abs_mul] at this
    linarith
  have a3 : |q * d - z| ≤ (u α * |q| + η α) * |d| + (u α * (((1 + u α) * |q| + η α) * |d|) +
      u α / 2 * (|q| * |d| + |q * d - z|)) := by
    calc |q * d - z| = |(q - z * w) * d + z * (w * d - 1)| := by congr 1; ring
      _ ≤ |q - z * w| * |d| + |z| * |w * d - 1| := by
        refine (abs_add_le _ _).trans ?_
        rw [abs_mul, abs_mul]
      _ ≤ (u α * |q| + η α) * |d| + |z| * (u α * (|w| * |d|) + η α * |d|) := by gcongr
      _ = (u α * |q| + η α) * |d| + (u α * (|z * w| * |d|) + (η α * |d|) * |z|) := by
        rw [abs_mul]; ring
      _ ≤ _ := by gcongr
  have he : 0 ≤ |q * d - z| := abs_nonneg _
  generalize |q * d - z| = e at *
  have hq := abs_nonneg q
  have hd := abs_nonneg d
  have a4 : (1 - u α / 2) * e ≤ (5 / 2 * u α + u α ^ 2) * (|q| * |d|) + (1 + u α) * (η α * |d|) := by
    linarith
  have hT : 0 ≤ |q| * |d| := mul_nonneg hq hd
  have hD : 0 ≤ η α * |d| := mul_nonneg hη hd
  have hg : 0 ≤ gam α 3 := gam_nonneg 3
  have a5 : e ≤ (1 + u α) * ((1 - u α / 2) * e) := by
    nlinarith [mul_nonneg hu he]
  calc e ≤ (1 + u α) * ((5 / 2 * u α + u α ^ 2) * (|q| * |d|) + (1 + u α) * (η α * |d|)) :=
        a5.trans (mul_le_mul_of_nonneg_left a4 (by linarith))
    _ = ((1 + u α) * (5 / 2 * u α + u α ^ 2)) * (|q| * |d|) + (1 + u α) ^ 2 * |d| * η α := by ring
    _ ≤ _ := by
      have : (1 + u α) * (5 / 2 * u α + u α ^ 2) ≤ gam α 3 := by
        unfold gam
        nlinarith
      gcongr

/-- The upper half of `sq_pair`. -/
private theorem sq_up {U h z v s d w e y q : ℝ} (hU : 1 ≤ U) (hh : 0 ≤ h) (hh1 : h ≤ 1) (hz : 0 ≤ z) (hs : 0 < s)
    (hv : 0 < v) (hw : 0 < w) (he : 0 ≤ e) (r2 : s ^ 2 ≤ U ^ 2 * d)
    (r3 : 1 ≤ U ^ 2 * (v * s)) (r5 : w * d ≤ U ^ 5) (r8 : z * v ≤ U * e + h)
    (r9 : y ≤ U * z ^ 2 + h) (r11 : q ≤ U * (y * w) + h) :
    q ≤ U ^ 15 * e ^ 2 + U ^ 24 * ((3 + 2 * e + 1 / s ^ 2) * h) := by
  have hU0 : 0 < U := by linarith
  have hs2 : 0 < s ^ 2 := by positivity
  -- `w ≤ U ^ 7 / s ^ 2`
  have w1 : w * s ^ 2 ≤ U ^ 7 := by
    calc w * s ^ 2 ≤ w * (U ^ 2 * d) := by gcongr
      _ = U ^ 2 * (w * d) := by ring
      _ ≤ U ^ 2 * U ^ 5 := by gcongr
      _ = U ^ 7 := by ring
  have w2 : w ≤ U ^ 7 * (1 / s ^ 2) := by
    rw [mul_one_div, le_div_iff₀ hs2]; exact w1
  have w3 : z ^ 2 * w ≤ U ^ 11 * (z * v) ^ 2 := by
    have k1 : (1 : ℝ) ≤ (U ^ 2 * (v * s)) ^ 2 := one_le_pow₀ r3
    calc z ^ 2 * w ≤ z ^ 2 * w * (U ^ 2 * (v * s)) ^ 2 := le_mul_of_one_le_right (by positivity) k1
      _ = U ^ 4 * (z * v) ^ 2 * (w * s ^ 2) := by ring
      _ ≤ U ^ 4 * (z * v) ^ 2 * U ^ 7 := by gcongr
      _ = _ := by ring
  have w4 : (z * v) ^ 2 ≤ (U * e + h) ^ 2 := by gcongr
  have hi : 0 ≤ 1 / s ^ 2 := by positivity
  generalize 1 / s ^ 2 = I at *
  have p : ∀ k, k ≤ 24 → U ^ k ≤ U ^ 24 := fun k hk => pow_le_pow_right₀ hU hk
  calc q ≤ U * ((U * z ^ 2 + h) * w) + h := r11.trans (by gcongr)
    _ = U ^ 2 * (z ^ 2 * w) + U * w * h + h := by ring
    _ ≤ U ^ 2 * (U ^ 11 * (U * e + h) ^ 2) + U * (U ^ 7 * I) * h + h := by
      have := w3.trans (mul_le_mul_of_nonneg_left w4 (by positivity : 0 ≤ U ^ 11))
      gcongr
    _ = U ^ 15 * e ^ 2 + (U ^ 14 * (2 * e) * h + U ^ 13 * (h * h) + U ^ 8 * I * h + U ^ 0 * h) := by ring
    _ ≤ U ^ 15 * e ^ 2 + (U ^ 24 * (2 * e) * h + U ^ 24 * (1 * h) + U ^ 24 * I * h + U ^ 24 * h) := by
      have := p 14 (by norm_num)
      have := p 13 (by norm_num)
      have := p 8 (by norm_num)
      have := p 0 (by norm_num)
      gcongr
    _ ≤ _ := by
      have : 0 ≤ U ^ 24 * h := by positivity
      nlinarith

/-- The lower half of `sq_pair`. -/
private theorem sq_down {U h z v s d w e y q : ℝ} (hU : 1 ≤ U) (hh : 0 ≤ h) (hh1 : 3 * h ≤ 2) (hz : 0 ≤ z)
    (hs : 0 < s) (hd : 0 < d) (hv : 0 < v) (hw : 0 < w) (he : 0 ≤ e) (r1 : d ≤ U ^ 2 * s ^ 2)
    (r2 : s ^ 2 ≤ U ^ 2 * d) (r4 : v * s ≤ U ^ 2) (r5 : w * d ≤ U ^ 5) (r6 : 1 ≤ U ^ 9 * (w * d))
    (r7 : e ≤ U * (z * v) + h) (r8 : z * v ≤ U * e + h) (r10 : z ^ 2 ≤ U * y + h) (r12 : y * w ≤ U * q + h) :
    e ^ 2 ≤ U ^ 19 * q + U ^ 24 * ((3 + 2 * e + 1 / s ^ 2) * h) := by
  have hU0 : 0 < U := by linarith
  have hs2 : 0 < s ^ 2 := by positivity
  have w1 : w * s ^ 2 ≤ U ^ 7 := by
    calc w * s ^ 2 ≤ w * (U ^ 2 * d) := by gcongr
      _ = U ^ 2 * (w * d) := by ring
      _ ≤ U ^ 2 * U ^ 5 := by gcongr
      _ = U ^ 7 := by ring
  have w2 : w ≤ U ^ 7 * (1 / s ^ 2) := by
    rw [mul_one_div, le_div_iff₀ hs2]; exact w1
  have w3 : (z * v) ^ 2 ≤ U ^ 15 * (w * z ^ 2) := by
    have k1 : d * (z * v) ^ 2 ≤ d * (U ^ 15 * (w * z ^ 2)) := by
      calc d * (z * v) ^ 2 ≤ U ^ 2 * s ^ 2 * (z * v) ^ 2 := by gcongr
        _ = U ^ 2 * z ^ 2 * (v * s) ^ 2 := by ring
        _ ≤ U ^ 2 * z ^ 2 * (U ^ 2) ^ 2 := by gcongr
        _ = U ^ 6 * z ^ 2 * 1 := by ring
        _ ≤ U ^ 6 * z ^ 2 * (U ^ 9 * (w * d)) := by gcongr
        _ = _ := by ring
    exact le_of_mul_le_mul_left k1 hd
  have w4 : w * z ^ 2 ≤ U * (U * q + h) + w * h := by
    calc w * z ^ 2 ≤ w * (U * y + h) := by gcongr
      _ = U * (y * w) + w * h := by ring
      _ ≤ _ := by gcongr
  have hi : 0 ≤ 1 / s ^ 2 := by positivity
  generalize 1 / s ^ 2 = I at *
  have p : ∀ k, k ≤ 24 → U ^ k ≤ U ^ 24 := fun k hk => pow_le_pow_right₀ hU hk
  have hzv : 0 ≤ z * v := by positivity
  calc e ^ 2 ≤ (U * (z * v) + h) ^ 2 := by gcongr
    _ = U ^ 2 * (z * v) ^ 2 + 2 * U * (z * v) * h + h * h := by ring
    _ ≤ U ^ 2 * (U ^ 15 * (U * (U * q + h) + U ^ 7 * I * h)) + 2 * U * (U * e + h) * h + h * h := by
      have h1 : w * z ^ 2 ≤ U * (U * q + h) + U ^ 7 * I * h := w4.trans (by gcongr)
      have h2 := w3.trans (mul_le_mul_of_nonneg_left h1 (by positivity : 0 ≤ U ^ 15))
      gcongr
    _ = U ^ 19 * q + (U ^ 18 * h + U ^ 24 * I * h + U ^ 2 * (2 * e) * h + (2 * U + 1) * (h * h)) := by ring
    _ ≤ U ^ 19 * q + (U ^ 24 * h + U ^ 24 * I * h + U ^ 24 * (2 * e) * h + U ^ 24 * 2 * h) := by
      have h18 := p 18 (by norm_num)
      have h2 := p 2 (by norm_num)
      have h1 := p 1 (by norm_num)
      have h3 : (2 * U + 1) * (h * h) ≤ U ^ 24 * 2 * h := by
        calc (2 * U + 1) * (h * h) ≤ (3 * U) * (h * h) := by gcongr; linarith
          _ = U * (3 * h) * h := by ring
          _ ≤ U ^ 24 * 2 * h := by
            rw [pow_one] at h1
            gcongr
      gcongr
    _ = _ := by ring

/-- The rounded reciprocal of a number that is not too large. -/
private theorem recip_rel {u h s v c : ℝ} (K L : ℕ) (hu : 0 ≤ u) (hu8 : u ≤ 1 / 8) (hs : 0 < s) (hc : 0 ≤ c) (hc4 : c ≤ 4)
    (hh : h * s ≤ c * u) (h1 : |v - 1 / s| ≤ u * |1 / s| + h) (h2 : |v - 1 / s| ≤ u * |v| + h)
    (hK : 1 + c ≤ K) (hL : 2 * c ≤ L) :
    0 < v ∧ v * s ≤ (1 + u) ^ K ∧ 1 ≤ (1 + u) ^ (L + 1) * (v * s) := by
  have hI : 0 < 1 / s := by positivity
  have hh' : h ≤ c * u * (1 / s) := by rw [mul_one_div, le_div_iff₀ hs]; exact hh
  have hsI : 1 / s * s = 1 := by field_simp
  rw [abs_of_pos hI] at h1
  generalize 1 / s = I at *
  have huI : u * I ≤ 1 / 8 * I := by gcongr
  have hcuI : c * u * I ≤ 4 * (1 / 8 * I) := by
    calc c * u * I = c * (u * I) := by ring
      _ ≤ _ := by gcongr
  have hv : 0 < v := by linarith only [(abs_le.1 h1).1, hh', huI, hcuI, hI]
  rw [abs_of_pos hv] at h2
  have hbk : ∀ k : ℕ, 1 + k * u ≤ (1 + u) ^ k := fun k => by
    have := one_add_mul_le_pow (show -2 ≤ u by linarith) k
    linarith
  have a1 : v ≤ (1 + (1 + c) * u) * I := by linarith only [(abs_le.1 h1).2, hh']
  have a2 : (1 - c * u) * I ≤ (1 + u) * v := by linarith only [(abs_le.1 h2).1, hh']
  refine ⟨hv, ?_, ?_⟩
  · calc v * s ≤ (1 + (1 + c) * u) * I * s := by gcongr
      _ = 1 + (1 + c) * u := by rw [mul_assoc, hsI, mul_one]
      _ ≤ 1 + K * u := by gcongr
      _ ≤ _ := hbk K
  · have hcu : 0 ≤ c * u := mul_nonneg hc hu
    have hcu2 : c * u ≤ 1 / 2 := by
      calc c * u ≤ 4 * (1 / 8) := mul_le_mul hc4 hu8 hu (by norm_num)
        _ = _ := by norm_num
    have h4 : (1 : ℝ) ≤ (1 + 2 * c * u) * (1 - c * u) := by nlinarith only [hcu, hcu2]
    calc (1 : ℝ) ≤ (1 + 2 * c * u) * (1 - c * u) := h4
      _ = (1 + 2 * c * u) * ((1 - c * u) * I) * s := by rw [mul_assoc (1 + 2 * c * u), mul_assoc (1 - c * u), hsI, mul_one]
      _ ≤ (1 + 2 * c * u) * ((1 + u) * v) * s := by gcongr
      _ = ((1 + 2 * c * u) * (1 + u)) * (v * s) := by ring
      _ ≤ (1 + u) ^ (L + 1) * (v * s) := by
        refine mul_le_mul_of_nonneg_right ?_ (by positivity)
        rw [pow_succ]
        refine mul_le_mul_of_nonneg_right (le_trans ?_ (hbk L)) (by linarith)
        gcongr

/-- What is subtracted from the diagonal, against the square of the entry of the root. -/
theorem sq_pair {x d : α} (hu8 : u α ≤ 1 / 8) (h1 : fin (Flt.sqrt d)) (hd : 0 < val d)
    (h2 : fin (Flt.mul (Flt.div Flt.one (Flt.sqrt d)) x))
    (h3 : fin (Flt.mul (Flt.mul x x) (Flt.div Flt.one d))) :
    |val (Flt.mul (Flt.mul x x) (Flt.div Flt.one d)) -
        val (Flt.mul (Flt.div Flt.one (Flt.sqrt d)) x) * val (Flt.mul (Flt.div Flt.one (Flt.sqrt d)) x)| ≤
      gam α 19 * (val (Flt.mul (Flt.div Flt.one (Flt.sqrt d)) x) * val (Flt.mul (Flt.div Flt.one (Flt.sqrt d)) x)) +
      (1 + u α) ^ 24 * ((3 + 2 * |val (Flt.mul (Flt.div Flt.one (Flt.sqrt d)) x)| + 1 / val (Flt.sqrt d) ^ 2) * η α) := by
  obtain ⟨f3, f4⟩ := mul_fin h3
  obtain ⟨f1, f2⟩ := mul_fin h2
  obtain ⟨fd, -, hs0, hs1⟩ := sqrt_back h1
  have hs := hs0 hd
  have hs2 := (sqrt_err h1).1
  have ev := div_err f1 h1
  have ew := div_err f4 fd
  have ee := mul_err h2
  have ey := mul_err f3
  have eq := mul_err h3
  rw [val_one] at ev ew
  have hη1 := fin_η (one_fin (α := α))
  rw [val_one, abs_one, mul_one] at hη1
  have hηs := sqrt_small h1
  have hηd := fin_η fd
  have hu := u_nonneg (α := α)
  have hη := η_nonneg (α := α)
  have hyn : 0 ≤ val (Flt.mul x x) := mul_nn f3 (mul_self_nonneg _)
  rw [abs_of_pos hs] at hηs
  rw [abs_of_pos hd] at hηd
  have hsq : √(val d) * √(val d) = val d := Real.mul_self_sqrt hd.le
  have hsr := Real.sqrt_nonneg (val d)
  have hqn : 0 ≤ val (Flt.div Flt.one d) → 0 ≤ val (Flt.mul (Flt.mul x x) (Flt.div Flt.one d)) := fun h =>
    mul_nn h3 (mul_nonneg hyn h)
  clear f1 f2 f3 f4 h1 h2 h3 fd hs0
  rw [← sq, ← sq_abs (val x)] at ey
  have ez : ∀ v, |v * val x| = |v| * |val x| := fun v => abs_mul _ _
  generalize hez : val (Flt.mul (Flt.div Flt.one (Flt.sqrt d)) x) = e at *
  generalize val (Flt.mul (Flt.mul x x) (Flt.div Flt.one d)) = q at *
  generalize val (Flt.mul x x) = y at *
  generalize val (Flt.div Flt.one d) = w at *
  generalize val (Flt.div Flt.one (Flt.sqrt d)) = v at *
  generalize val (Flt.sqrt d) = s at *
  generalize √(val d) = r at *
  generalize val d = d at *
  generalize η α = h at *
  have hU : 1 ≤ 1 + u α := by linarith
  obtain ⟨hv, r4, r3⟩ := recip_rel (c := 1 / 2) 2 1 hu hu8 hs (by norm_num) (by norm_num) (by linarith only [hηs])
    ev.1 ev.2 (by norm_num) (by norm_num)
  obtain ⟨hw, r5, r6⟩ := recip_rel (c := 4) 5 8 hu hu8 hd (by norm_num) (by norm_num) hηd
    ew.1 ew.2 (by norm_num) (by norm_num)
  have hq := hqn hw.le
  rw [ez, abs_of_pos hv] at ee
  rw [abs_of_nonneg (mul_nonneg hyn hw.le), abs_of_nonneg hq] at eq
  rw [abs_of_nonneg (by positivity : 0 ≤ |val x| ^ 2), abs_of_nonneg hyn] at ey
  -- the relations
  have r2 : s ^ 2 ≤ (1 + u α) ^ 2 * d := by
    have : s ≤ (1 + u α) * r := by have := (abs_le.1 hs2).2; linarith
    calc s ^ 2 ≤ ((1 + u α) * r) ^ 2 := by gcongr
      _ = (1 + u α) ^ 2 * (r * r) := by ring
      _ = _ := by rw [hsq]
  have r1 : d ≤ (1 + u α) ^ 2 * s ^ 2 := by
    have := (abs_le.1 hs1).1
    rw [abs_of_pos hs] at this
    unfold gam at this
    linarith only [this]
  have hz := abs_nonneg (val x)
  have hea : |e| ≤ |e - v * val x| + v * |val x| := by
    have := abs_add_le (e - v * val x) (v * val x)
    rw [sub_add_cancel, ez, abs_of_pos hv] at this
    exact this
  have heb : v * |val x| ≤ |e - v * val x| + |e| := by
    have := abs_add_le (v * val x - e) e
    rw [sub_add_cancel, ez, abs_of_pos hv, abs_sub_comm] at this
    exact this
  have r7 : |e| ≤ (1 + u α) * (|val x| * v) + h := by linarith [ee.1]
  have r8 : |val x| * v ≤ (1 + u α) * |e| + h := by linarith [ee.2]
  have r9 : y ≤ (1 + u α) * |val x| ^ 2 + h := by linarith [(abs_le.1 ey.1).2]
  have r10 : |val x| ^ 2 ≤ (1 + u α) * y + h := by linarith [(abs_le.1 ey.2).1]
  have r11 : q ≤ (1 + u α) * (y * w) + h := by linarith [(abs_le.1 eq.1).2]
  have r12 : y * w ≤ (1 + u α) * q + h := by linarith [(abs_le.1 eq.2).1]
  have up := sq_up hU hη (by linarith) hz hs hv hw (abs_nonneg e) r2 r3 r5 r8 r9 r11
  have down := sq_down hU hη (by linarith) hz hs hd hv hw (abs_nonneg e) r1 r2 r4 r5 r6 r7 r8 r10 r12
  have hE : 0 ≤ (1 + u α) ^ 24 * ((3 + 2 * |e| + 1 / s ^ 2) * h) := by positivity
  rw [sq_abs] at up down
  rw [show e * e = e ^ 2 by ring]
  generalize (1 + u α) ^ 24 * ((3 + 2 * |e| + 1 / s ^ 2) * h) = E at *
  have he2 : 0 ≤ e ^ 2 := sq_nonneg e
  rw [abs_le]
  constructor
  · have hg := gam_nonneg (α := α) 19
    rw [← one_add_gam] at down
    rcases le_total q (e ^ 2) with c | c
    · have := mul_le_mul_of_nonneg_left c hg
      linarith
    · have := mul_nonneg hg he2
      linarith
  · have : (1 + u α) ^ 15 ≤ 1 + gam α 19 := by
      rw [one_add_gam]; exact pow_le_pow_right₀ hU (by norm_num)
    have := mul_le_mul_of_nonneg_right this he2
    linarith only [this, up]

variable {k : Nat} {small : α} {A : Nat → Nat → α} {p : Nat → Nat} {b : Nat → Nat → α} {C : Nat → Nat → Nat → α}

/-- The pivots are positive. -/
theorem Spec.RectRec.pos (h : RectRec n k small A p b C) (hs : fin small) (hs0 : 0 ≤ val small) {t : Nat} (ht : t < k)
    (hf : fin (b t t)) : fin (C t (p t) (p t)) ∧ val small < val (C t (p t) (p t)) ∧ 0 < val (b t t) := by
  have e := h.diag t ht
  rw [e] at hf ⊢
  obtain ⟨f1, -, f3, -⟩ := sqrt_back hf
  have h2 := h.test t ht
  rw [le_iff f1 hs, not_le] at h2
  exact ⟨f1, h2, f3 (hs0.trans_lt h2)⟩

/-- What is left of an entry outside of the diagonal. -/
theorem Spec.RectRec.left (h : RectRec n k small A p b C) {i j : Nat} (hi : i < n) (hj : j < n) (hij : i ≠ j) :
    ∃ x y : Nat → α, (∀ t, x t = b i t ∧ y t = b j t ∨ x t = b j t ∧ y t = b i t) ∧
      ∀ m, m ≤ k → m ≤ i → m ≤ j → C m (p i) (p j) = lsub 0 m (fun t => Flt.mul (x t) (y t)) (A (p i) (p j)) := by
  classical
  let c : Nat → Prop := fun t => C (t + 1) (p i) (p j) = Flt.sub (C t (p i) (p j)) (Flt.mul (b i t) (b j t))
  refine ⟨fun t => if c t then b i t else b j t, fun t => if c t then b j t else b i t, fun t => ?_, fun m => ?_⟩
  · by_cases e : c t
    · simp [e]
    · simp [e]
  · induction m with
    | zero =>
      intro _ _ _
      rw [lsub_self le_rfl]
      exact h.start _ _ (h.lt i hi) (h.lt j hj)
    | succ m ih =>
      intro h1 h2 h3
      rw [lsub_succ (Nat.zero_le m), ← ih (by omega) (by omega) (by omega)]
      show _ = Flt.sub _ (Flt.mul (if c m then b i m else b j m) (if c m then b j m else b i m))
      by_cases e : c m
      · rw [if_pos e, if_pos e]; exact e
      · rw [if_neg e, if_neg e]
        exact (h.off m i j (by omega) (by omega) hi (by omega) hj hij).resolve_left e

/-- The terms of a product of two rows end at the pivot of the first. -/
theorem Spec.RectRec.sum_rows (F G : Nat → ℝ) {i k : Nat} (hi : i < k) (hF : ∀ t, i < t → t < k → F t = 0) :
    ∑ t ∈ range k, F t * G t = F i * G i + ∑ t ∈ Ico 0 i, F t * G t := by
  rw [← range_eq_Ico, ← sum_subset (range_subset_range.2 (show i + 1 ≤ k by omega)), sum_range_succ, add_comm]
  intro x hx hx'
  have : ¬ x < i + 1 := fun h => hx' (mem_range.2 h)
  rw [hF x (by omega) (mem_range.1 hx), zero_mul]

theorem Spec.RectRec.row_zero (h : RectRec n k small A p b C) {i t : Nat} (ht : t < k) (hi : i < t) : val (b i t) = 0 := by
  rw [h.up t i ht hi, val_zero]

/-- An entry of the row of a pivot and of a later row. -/
theorem Spec.RectRec.err_off (h : RectRec n k small A p b C) (hf : ∀ i t, i < n → t < k → fin (b i t)) {i j : Nat}
    (hi : i < k) (hij : i < j) (hj : j < n) :
    fin (A (p j) (p i)) ∧
    |∑ t ∈ range k, val (b i t) * val (b j t) - val (A (p j) (p i))| ≤
      gam α (n + 1) * ∑ t ∈ range k, |val (b i t)| * |val (b j t)| +
      (1 + u α) ^ n * (n + |val (b i i)|) * η α := by
  have hin : i < n := by omega
  have e1 := h.diag i hi
  have e2 := h.col i j hi hij hj
  have hq := hf j i hj hi
  have hd := hf i i hin hi
  rw [e2] at hq
  rw [e1] at hd
  obtain ⟨b1, b3⟩ := recip_left hq hd
  rw [← e2, ← e1] at b3
  obtain ⟨x, y, hxy, hl⟩ := h.left hj hin (show j ≠ i by omega)
  have el := hl i (by omega) (by omega) le_rfl
  rw [el] at b1
  obtain ⟨c1, -, c3⟩ := lsub_prods b1
  rw [← el, Nat.sub_zero] at c3
  refine ⟨c1, ?_⟩
  have hx1 : ∀ t, val (x t) * val (y t) = val (b i t) * val (b j t) := fun t => by
    rcases hxy t with ⟨h1, h2⟩ | ⟨h1, h2⟩ <;> rw [h1, h2]
    exact mul_comm _ _
  have hx2 : ∀ t, |val (x t)| * |val (y t)| = |val (b i t)| * |val (b j t)| := fun t => by
    rw [← abs_mul, ← abs_mul, hx1]
  simp only [hx1, hx2] at c3
  rw [Spec.RectRec.sum_rows (fun t => val (b i t)) (fun t => val (b j t)) hi fun t h1 h2 => h.row_zero h2 h1,
    Spec.RectRec.sum_rows (fun t => |val (b i t)|) (fun t => |val (b j t)|) hi fun t h1 h2 => by
      rw [h.row_zero h2 h1, abs_zero]]
  have hu := u_nonneg (α := α)
  have hη := η_nonneg (α := α)
  have hp : ∀ k, k ≤ n → (1 + u α) ^ k ≤ (1 + u α) ^ n := fun k hk => pow_le_pow_right₀ one_le_u hk
  have hin' : (i : ℝ) ≤ n := by exact_mod_cast hin.le
  have hS : 0 ≤ ∑ t ∈ Ico 0 i, |val (b i t)| * |val (b j t)| := sum_nonneg fun k _ => by positivity
  have hg := gam_nonneg (α := α) i
  have g1 : gam α (i + 1) ≤ gam α (n + 1) := gam_mono (by omega)
  have g2 : gam α (i + 3) ≤ gam α (n + 1) := gam_mono (by omega)
  have hd0 := abs_nonneg (val (b i i))
  generalize val (C i (p j) (p i)) = z at *
  generalize val (b i i) = d at *
  generalize val (b j i) = q at *
  generalize val (A (p j) (p i)) = a at *
  generalize ∑ t ∈ Ico 0 i, |val (b i t)| * |val (b j t)| = T at *
  generalize ∑ t ∈ Ico 0 i, val (b i t) * val (b j t) = S at *
  have h5 : |z| ≤ (1 + gam α 3) * (|q| * |d|) + (1 + u α) ^ 2 * |d| * η α := by
    have := abs_sub_abs_le_abs_sub z (q * d)
    rw [abs_sub_comm, abs_mul] at this
    linarith
  calc |d * q + S - a| = |(q * d - z) + (z + S - a)| := by congr 1; ring
    _ ≤ (gam α 3 * (|q| * |d|) + (1 + u α) ^ 2 * |d| * η α) +
        (gam α i * ((1 + gam α 3) * (|q| * |d|) + (1 + u α) ^ 2 * |d| * η α) + gam α (i + 1) * T +
        i * (1 + u α) ^ i * η α) := by
      refine (abs_add_le _ _).trans (add_le_add b3 (c3.trans ?_))
      gcongr
    _ = gam α (i + 3) * (|q| * |d|) + gam α (i + 1) * T + ((1 + u α) ^ (i + 2) * |d| + (1 + u α) ^ i * i) * η α := by
      rw [gam_add i 3, pow_add, ← one_add_gam i]; ring
    _ ≤ gam α (n + 1) * (|q| * |d|) + gam α (n + 1) * T + ((1 + u α) ^ n * |d| + (1 + u α) ^ n * n) * η α := by
      have := hp i (by omega)
      have : (1 + u α) ^ (i + 2) ≤ (1 + u α) ^ n := hp _ (by omega)
      gcongr
    _ = _ := by ring

/-- The underflow of the diagonal elements. -/
noncomputable def Spec.rectTiny (k : Nat) (b : Nat → Nat → α) (i : Nat) : ℝ :=
  ∑ t ∈ range k, (3 + 2 * |val (b i t)| + 1 / val (b t t) ^ 2)

theorem rectTiny_nonneg (k : Nat) (b : Nat → Nat → α) (i : Nat) : 0 ≤ rectTiny k b i :=
  sum_nonneg fun t _ => by positivity

theorem rectTiny_mono {k k' : Nat} (h : k ≤ k') (b : Nat → Nat → α) (i : Nat) : rectTiny k b i ≤ rectTiny k' b i :=
  sum_le_sum_of_subset_of_nonneg (range_subset_range.2 h) fun t _ _ => by positivity

/-- What is left of a diagonal element. -/
theorem Spec.RectRec.err_left (h : RectRec n k small A p b C) (hu8 : u α ≤ 1 / 8) (hkn : k ≤ n)
    (hf : ∀ i t, i < n → t < k → fin (b i t)) (hs : fin small) (hs0 : 0 ≤ val small) {i m : Nat} (hi : i < n)
    (hm : m ≤ k) (hmi : m ≤ i) (hc : fin (C m (p i) (p i))) :
    fin (A (p i) (p i)) ∧
    |val (C m (p i) (p i)) + ∑ t ∈ range m, val (b i t) * val (b i t) - val (A (p i) (p i))| ≤
      gam α m * |val (C m (p i) (p i))| + gam α (m + 19) * ∑ t ∈ range m, val (b i t) * val (b i t) +
      (1 + u α) ^ (m + 24) * (rectTiny m b i * η α) := by
  let g : Nat → α := fun t => Flt.mul (Flt.mul (C t (p i) (p t)) (C t (p i) (p t))) (Flt.div Flt.one (C t (p t) (p t)))
  have el : ∀ m, m ≤ k → m ≤ i → C m (p i) (p i) = lsub 0 m g (A (p i) (p i)) := by
    intro m
    induction m with
    | zero =>
      intro _ _
      rw [lsub_self le_rfl]
      exact h.start _ _ (h.lt i hi) (h.lt i hi)
    | succ m ih =>
      intro h1 h2
      rw [lsub_succ (Nat.zero_le m), ← ih (by omega) (by omega)]
      exact h.next m i (by omega) (by omega) hi
  have e := el m hm hmi
  rw [e] at hc ⊢
  unfold lsub at hc ⊢
  rw [Nat.sub_zero] at hc ⊢
  obtain ⟨c1, c2, c3⟩ := sub_list _ g _ hc
  refine ⟨c1, ?_⟩
  have h4 := c3 (fun t => val (b i t) * val (b i t)) (fun t => gam α 19 * (val (b i t) * val (b i t)) +
    (1 + u α) ^ 24 * ((3 + 2 * |val (b i t)| + 1 / val (b t t) ^ 2) * η α)) (by
      intro t ht
      have htm : t < m := by have := List.mem_range'_1.1 ht; omega
      have htk : t < k := by omega
      obtain ⟨p1, p2, p3⟩ := h.pos hs hs0 htk (hf t t (by omega) htk)
      have e1 := h.diag t htk
      have e2 := h.col t i htk (by omega) hi
      have f1 := hf t t (by omega) htk
      have f2 := hf i t hi htk
      rw [e1] at f1
      rw [e2] at f2
      have := sq_pair hu8 f1 (hs0.trans_lt p2) f2 (c2 t ht)
      rw [← e2, ← e1] at this
      exact this)
  rw [List.length_range', sum_range'_map, sum_range'_map, sum_range'_map, Nat.zero_add, ← range_eq_Ico] at h4
  refine h4.trans (le_of_eq ?_)
  have e3 : ∑ t ∈ range m, |val (b i t) * val (b i t)| = ∑ t ∈ range m, val (b i t) * val (b i t) :=
    sum_congr rfl fun t _ => abs_mul_self _
  rw [e3, sum_add_distrib, ← mul_sum, ← mul_sum, ← sum_mul, gam_add m 19, pow_add, ← one_add_gam m]
  unfold rectTiny
  ring

/-- The diagonal element of a pivot. -/
theorem Spec.RectRec.err_diag (h : RectRec n k small A p b C) (hu8 : u α ≤ 1 / 8) (hkn : k ≤ n)
    (hf : ∀ i t, i < n → t < k → fin (b i t)) (hs : fin small) (hs0 : 0 ≤ val small) {i : Nat} (hi : i < k) :
    fin (A (p i) (p i)) ∧
    |∑ t ∈ range k, val (b i t) * val (b i t) - val (A (p i) (p i))| ≤
      gam α (n + 19) * ∑ t ∈ range k, val (b i t) * val (b i t) +
      (1 + u α) ^ (n + 24) * (rectTiny k b i * η α) := by
  have hin : i < n := by omega
  have e1 := h.diag i hi
  have hd := hf i i hin hi
  rw [e1] at hd
  obtain ⟨b1, b2, -, b3⟩ := sqrt_back hd
  obtain ⟨c1, c3⟩ := h.err_left hu8 hkn hf hs hs0 hin hi.le le_rfl b1
  rw [← e1] at b3 b2
  refine ⟨c1, ?_⟩
  have hT := rectTiny_mono hi.le b i
  have hT0 := rectTiny_nonneg i b i
  rw [Spec.RectRec.sum_rows (fun t => val (b i t)) (fun t => val (b i t)) hi fun t h1 h2 => h.row_zero h2 h1,
    ← range_eq_Ico]
  have hu := u_nonneg (α := α)
  have hη := η_nonneg (α := α)
  have hS : 0 ≤ ∑ t ∈ range i, val (b i t) * val (b i t) := sum_nonneg fun k _ => mul_self_nonneg _
  have hg := gam_nonneg (α := α) i
  have g1 : gam α (i + 19) ≤ gam α (n + 19) := gam_mono (by omega)
  have g2 : gam α (i + 2) ≤ gam α (n + 19) := gam_mono (by omega)
  have hp : (1 + u α) ^ (i + 24) ≤ (1 + u α) ^ (n + 24) := pow_le_pow_right₀ one_le_u (by omega)
  rw [abs_of_nonneg b2] at b3
  generalize val (C i (p i) (p i)) = z at *
  generalize val (b i i) = d at *
  generalize val (A (p i) (p i)) = a at *
  generalize ∑ t ∈ range i, val (b i t) * val (b i t) = S at *
  have h5 : |z| ≤ (1 + gam α 2) * (d * d) := by
    have := abs_sub_abs_le_abs_sub z (d * d)
    rw [abs_sub_comm, abs_mul_self] at this
    linarith
  have hdd := mul_self_nonneg d
  calc |d * d + S - a| = |(d * d - z) + (z + S - a)| := by congr 1; ring
    _ ≤ gam α 2 * (d * d) + (gam α i * ((1 + gam α 2) * (d * d)) + gam α (i + 19) * S +
        (1 + u α) ^ (i + 24) * (rectTiny i b i * η α)) := by
      refine (abs_add_le _ _).trans (add_le_add b3 (c3.trans ?_))
      gcongr
    _ = gam α (i + 2) * (d * d) + gam α (i + 19) * S + (1 + u α) ^ (i + 24) * (rectTiny i b i * η α) := by
      rw [gam_add i 2]; ring
    _ ≤ gam α (n + 19) * (d * d) + gam α (n + 19) * S + (1 + u α) ^ (n + 24) * (rectTiny k b i * η α) := by
      gcongr
    _ = _ := by ring

/-- The diagonal element of a row left over. -/
theorem Spec.RectRec.err_rest (h : RectRec n k small A p b C) (hu8 : u α ≤ 1 / 8) (hkn : k ≤ n)
    (hf : ∀ i t, i < n → t < k → fin (b i t)) (hs : fin small) (hs0 : 0 ≤ val small) (he : RectEnd n k small p C)
    (hc : ∀ i, k ≤ i → i < n → fin (C k (p i) (p i))) {i : Nat} (hk : k ≤ i) (hi : i < n) :
    fin (A (p i) (p i)) ∧
    |∑ t ∈ range k, val (b i t) * val (b i t) - val (A (p i) (p i))| ≤
      (1 + u α) ^ n * val small + gam α (n + 19) * ∑ t ∈ range k, val (b i t) * val (b i t) +
      (1 + u α) ^ (n + 24) * (rectTiny k b i * η α) := by
  obtain ⟨c1, c3⟩ := h.err_left hu8 hkn hf hs hs0 hi le_rfl hk (hc i hk hi)
  refine ⟨c1, ?_⟩
  have hle := he.le
  rw [le_iff (hc k le_rfl (by omega)) hs] at hle
  have hle' := (he.best hc i hk hi).trans hle
  have hge := he.ge i hk hi
  rw [lt_iff (hc i hk hi) (neg_fin.2 hs), val_neg hs, not_lt] at hge
  have hz := abs_le.2 ⟨hge, hle'⟩
  have hT0 := rectTiny_nonneg k b i
  have hu := u_nonneg (α := α)
  have hη := η_nonneg (α := α)
  have hS : 0 ≤ ∑ t ∈ range k, val (b i t) * val (b i t) := sum_nonneg fun k _ => mul_self_nonneg _
  have hg := gam_nonneg (α := α) k
  have g1 : gam α (k + 19) ≤ gam α (n + 19) := gam_mono (by omega)
  have hp : (1 + u α) ^ (k + 24) ≤ (1 + u α) ^ (n + 24) := pow_le_pow_right₀ one_le_u (by omega)
  have hp' : (1 + u α) ^ k ≤ (1 + u α) ^ n := pow_le_pow_right₀ one_le_u (by omega)
  generalize val (C k (p i) (p i)) = z at *
  generalize val (A (p i) (p i)) = a at *
  generalize ∑ t ∈ range k, val (b i t) * val (b i t) = S at *
  calc |S - a| = |(z + S - a) - z| := by congr 1; ring
    _ ≤ |z + S - a| + |z| := abs_sub _ _
    _ ≤ (gam α k * |z| + gam α (k + 19) * S + (1 + u α) ^ (k + 24) * (rectTiny k b i * η α)) + |z| := by gcongr
    _ = (1 + u α) ^ k * |z| + gam α (k + 19) * S + (1 + u α) ^ (k + 24) * (rectTiny k b i * η α) := by
      rw [← one_add_gam k]; ring
    _ ≤ _ := by gcongr

end Linear
