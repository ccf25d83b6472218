import Verif.Model.Svd
import Verif.Lemmas.EigenLemmas

/-!
# Lemmas on the singular value decomposition, any arithmetic: the reduction
-/

set_option linter.unusedSectionVars false

namespace Linear

open Spec

variable {α : Type} [Flt α] {m n : Nat}

/-- The norm of `x k, …, x (k + d - 1)`. -/
def Svd.hsum (hyp : α → α → α) (k : Nat) (x : Nat → α) : Nat → α
  | 0 => Flt.zero
  | d + 1 => hyp (Svd.hsum hyp k x d) (x (k + d))

theorem Svd.norm_ok (hyp : α → α → α) {k m : Nat} (hk : k ≤ m) {rx : Nat → Res α} (x : Nat → α)
    (h : ∀ i, k ≤ i → i < m → rx i = .ok (x i)) : Svd.norm hyp k m rx = .ok (Svd.hsum hyp k x (m - k)) := by
  unfold Svd.norm
  induction m, hk using Nat.le_induction with
  | base => rw [forUp_eq_self (le_refl _), Nat.sub_self]; rfl
  | succ b hab ih =>
    rw [forUp_last hab, ih fun i h1 h2 => h i h1 (by omega), ok_bind, h b hab (by omega), ok_bind,
      show b + 1 - k = b - k + 1 by omega, Svd.hsum, show k + (b - k) = b by omega]
    rfl

/-- What scaling the column `x` from entry `k` on gives. -/
def Svd.scaled (k : Nat) (nu : α) (x : Nat → α) (i : Nat) : α :=
  if Flt.eq nu Flt.zero then x i
  else if i = k then Flt.add (Flt.div (x k) nu) Flt.one else Flt.div (x i) nu

theorem Svd.colScale_ok {k : Nat} (hk : k < m) (hkn : k < n) (nu : α) (a : Tab α m n) :
    ∃ a' : Tab α m n, Svd.colScale k nu a = .ok a' ∧
      (∀ i, k ≤ i → i < m → a'.f i k = Svd.scaled k nu (fun r => a.f r k) i) ∧
      ∀ x y, ¬ (y = k ∧ k ≤ x ∧ x < m) → a'.f x y = a.f x y := by
  unfold Svd.colScale
  by_cases h : Flt.eq nu Flt.zero = true
  · rw [if_neg (by simp [h])]
    exact ⟨a, rfl, fun i _ _ => by rw [Svd.scaled, if_pos h], fun _ _ _ => rfl⟩
  · rw [if_pos (by simp [h])]
    obtain ⟨a1, e, h1, h2⟩ := Tab.colLoop (ε := Fault) (r := m) (c := n) (a := k) (b := m) (j := k) (t := a)
      (body := fun i (a : Tab α m n) => do a.set i k (Flt.div (← a.get i k) nu))
      (fun i v => Flt.div v nu) (fun i t' g1 g2 g3 => by
        rw [Tab.get_ok g2 hkn, ok_bind, Tab.set_ok g2 hkn, g3 i k (by omega)])
    rw [e, ok_bind, Tab.get_ok hk hkn, ok_bind, Tab.set_ok hk hkn]
    refine ⟨_, rfl, fun i g1 g2 => ?_, fun x y hxy => ?_⟩
    · dsimp only
      rw [upd2_eq, Svd.scaled, if_neg h]
      by_cases e' : i = k
      · rw [if_pos ⟨e', rfl⟩, if_pos e', h1 k le_rfl hk]
      · rw [if_neg fun h => e' h.1, if_neg e', h1 i g1 g2]
    · dsimp only
      rw [upd2_eq, if_neg (by omega), h2 x y hxy]

/-- The reflection of `x` along `v`. -/
def Svd.refl (k0 r : Nat) (v x : Nat → α) (i : Nat) : α :=
  Flt.add (x i) (Flt.mul (Flt.div (Flt.neg (lsum k0 r (fun r => Flt.mul (v r) (x r)) Flt.zero)) (v k0)) (v i))

theorem Svd.reflect_ok {r k0 k j : Nat} (h0 : k0 < r) (hk : k < n) (hj : j < n) (_hkj : k ≠ j) (a : Tab α r n) :
    ∃ a' : Tab α r n, Svd.reflect k0 k j a = .ok a' ∧
      (∀ i, k0 ≤ i → i < r → a'.f i j = Svd.refl k0 r (fun r => a.f r k) (fun r => a.f r j) i) ∧
      ∀ x y, ¬ (y = j ∧ k0 ≤ x ∧ x < r) → a'.f x y = a.f x y := by
  unfold Svd.reflect
  rw [sumUp_ok (fun i => Flt.mul (a.f i k) (a.f i j)) fun i h1 h2 => by
    rw [Tab.get_ok h2 hk, ok_bind, Tab.get_ok h2 hj]; rfl, ok_bind, Tab.get_ok h0 hk, ok_bind]
  refine Tab.colLoop (fun i v => Flt.add v (Flt.mul (Flt.div (Flt.neg (lsum k0 r (fun i => Flt.mul (a.f i k) (a.f i j))
    Flt.zero)) (a.f k0 k)) (a.f i k))) (fun i t' h1 h2 h3 => ?_)
  rw [Tab.get_ok h2 hj, ok_bind, Tab.get_ok h2 hk, ok_bind, Tab.set_ok h2 hj, h3 i j (by omega), h3 i k (by omega)]

/-- All columns after `k` are reflected. -/
theorem Svd.reflects_ok {r k0 k : Nat} (h0 : k0 < r) (hk : k < n) (a : Tab α r n) :
    ∃ a' : Tab α r n, forUp (k + 1) n (Svd.reflect k0 k) a = .ok a' ∧
      (∀ i j, k0 ≤ i → i < r → k < j → j < n →
        a'.f i j = Svd.refl k0 r (fun r => a.f r k) (fun r => a.f r j) i) ∧
      ∀ x y, ¬ (k < y ∧ y < n ∧ k0 ≤ x ∧ x < r) → a'.f x y = a.f x y := by
  obtain ⟨a', e, h1, h2⟩ := Tab.colsLoop (ε := Fault) (r := r) (c := n) (a := k + 1) (b := n) (p := k0) (q := r)
    (t := a) (body := Svd.reflect k0 k)
    (fun i j _ => Svd.refl k0 r (fun r => a.f r k) (fun r => a.f r j) i) (fun j t' g1 g2 g3 => by
      obtain ⟨t'', e, g4, g5⟩ := Svd.reflect_ok h0 hk g2 (show k ≠ j by omega) t'
      refine ⟨t'', e, fun i h1 h2 => ?_, g5⟩
      rw [g4 i h1 h2, show (fun r => t'.f r k) = fun r => a.f r k from funext fun x => g3 x k (by omega),
        show (fun r => t'.f r j) = fun r => a.f r j from funext fun x => g3 x j (by omega)])
  exact ⟨a', e, fun i j g1 g2 g3 g4 => h1 i j (by omega) g4 g1 g2, fun x y hxy => h2 x y (by omega)⟩

/-! ## One round of the reduction -/

/-- The table and `e` after the transformation of column `k`, whose signed norm is `nu`. -/
structure Svd.LPass (m n k : Nat) (nu : α) (f f1 : Nat → Nat → α) : Prop where
  col : ∀ i, k ≤ i → i < m → f1 i k = Svd.scaled k nu (fun r => f r k) i
  cols : Flt.eq (Flt.neg nu) Flt.zero = false → ∀ i j, k ≤ i → i < m → k < j → j < n →
    f1 i j = Svd.refl k m (fun r => f1 r k) (fun r => f r j) i
  skip : Flt.eq (Flt.neg nu) Flt.zero = true → ∀ i j, k < j → f1 i j = f i j
  other : ∀ i j, (i < k ∨ j < k) → f1 i j = f i j

theorem Svd.left_ok (hyp : α → α → α) {nct k : Nat} (h : k < nct) (hk : k < m) (hkn : k < n) (w : Svd.Red α m n) :
    ∃ w', (Svd.colPass hyp nct k w >>= Svd.colRest nct k >>= Svd.keepU nct k) = .ok w' ∧
      Svd.LPass m n k (Svd.signed (Svd.hsum hyp k (fun i => w.a.f i k) (m - k)) (w.a.f k k)) w.a.f w'.a.f ∧
      w'.s.f = upd1 w.s.f k (Flt.neg (Svd.signed (Svd.hsum hyp k (fun i => w.a.f i k) (m - k)) (w.a.f k k))) ∧
      (∀ j, k < j → j < n → w'.e.f j = w'.a.f k j) ∧ (∀ j, j ≤ k → w'.e.f j = w.e.f j) ∧
      (∀ i, k ≤ i → i < m → w'.u.f i k = w'.a.f i k) ∧
      (∀ i j, ¬ (j = k ∧ k ≤ i ∧ i < m) → w'.u.f i j = w.u.f i j) ∧ w'.v = w.v := by
  unfold Svd.colPass
  rw [if_pos h, Svd.norm_ok hyp (by omega) (fun i => w.a.f i k) fun i _ h2 => Tab.get_ok h2 hkn, ok_bind,
    Tab.get_ok hk hkn, ok_bind]
  generalize Svd.signed (Svd.hsum hyp k (fun i => w.a.f i k) (m - k)) (w.a.f k k) = nu
  obtain ⟨a1, e1, h1, h2⟩ := Svd.colScale_ok hk hkn nu w.a
  rw [e1, ok_bind, Row.set_ok hkn, ok_bind]
  show ∃ w', (Svd.colRest nct k _ >>= Svd.keepU nct k) = .ok w' ∧ _
  unfold Svd.colRest
  obtain ⟨ae, e2, h3, h4, h5, h6, h7⟩ := Wp.exists_ok (wp_forUp (ε := Fault) (a := k + 1) (b := n)
    (body := fun j (ae : Tab α m n × Row α n) => do
      let sk ← (⟨upd1 w.s.f k (Flt.neg nu)⟩ : Row α n).get k
      let a ← if k < nct ∧ !Flt.eq sk Flt.zero then Svd.reflect k k j ae.1 else pure ae.1
      let e ← ae.2.set j (← a.get k j)
      return (a, e)) (s := (a1, w.e)) (E := fun _ => False)
    (fun b (ae : Tab α m n × Row α n) =>
      (Flt.eq (Flt.neg nu) Flt.zero = false → ∀ i j, k ≤ i → i < m → k < j → j < b →
        ae.1.f i j = Svd.refl k m (fun r => a1.f r k) (fun r => a1.f r j) i) ∧
      (Flt.eq (Flt.neg nu) Flt.zero = true → ae.1.f = a1.f) ∧
      (∀ x y, ¬ (k < y ∧ y < b ∧ k ≤ x ∧ x < m) → ae.1.f x y = a1.f x y) ∧
      (∀ j, k < j → j < b → ae.2.f j = ae.1.f k j) ∧ ∀ j, ¬ (k < j ∧ j < b) → ae.2.f j = w.e.f j)
    (by omega) ⟨fun _ i j _ _ h1 h2 => by omega, fun _ => rfl, fun _ _ _ => rfl, fun j h1 h2 => by omega,
      fun _ _ => rfl⟩
    (fun j ae g1 g2 ⟨g3, g4, g5, g6, g7⟩ => by
      rw [Row.get_ok hkn, ok_bind]
      by_cases hz : Flt.eq (Flt.neg nu) Flt.zero = true
      · rw [if_neg (by simp [hz]), pure_eq_ok, ok_bind]
        dsimp only
        rw [Tab.get_ok hk g2, ok_bind, Row.set_ok g2, ok_bind]
        refine wp_of_eq_ok rfl ⟨fun hf => by simp [hz] at hf, g4, fun x y hxy => g5 x y (by omega),
          fun y h1 h2 => ?_, fun y hy => ?_⟩
        · dsimp only
          rw [upd1_eq]
          by_cases ey : y = j
          · rw [if_pos ey, ey]
          · rw [if_neg ey, g6 y h1 (by omega)]
        · dsimp only
          rw [upd1_eq, if_neg (by omega), g7 y (by omega)]
      · rw [if_pos (by simp [h, hz])]
        obtain ⟨a2, e, q1, q2⟩ := Svd.reflect_ok hk hkn g2 (show k ≠ j by omega) ae.1
        rw [e, ok_bind]
        dsimp only
        rw [Tab.get_ok hk g2, ok_bind, Row.set_ok g2, ok_bind]
        have ek : (fun r => ae.1.f r k) = fun r => a1.f r k := funext fun x => g5 x k (by omega)
        have ej : (fun r => ae.1.f r j) = fun r => a1.f r j := funext fun x => g5 x j (by omega)
        refine wp_of_eq_ok rfl ⟨fun hf x y h1 h2 h3 h4 => ?_, fun hf => absurd hf hz, fun x y hxy => ?_,
          fun y h1 h2 => ?_, fun y hy => ?_⟩
        · dsimp only
          by_cases ey : y = j
          · subst ey
            rw [q1 x h1 h2, ek, ej]
          · rw [q2 x y (by omega), g3 hf x y h1 h2 h3 (by omega)]
        · dsimp only
          rw [q2 x y (by omega), g5 x y (by omega)]
        · dsimp only
          rw [upd1_eq]
          by_cases ey : y = j
          · rw [if_pos ey, ey]
          · rw [if_neg ey, g6 y h1 (by omega), q2 k y (by omega)]
        · dsimp only
          rw [upd1_eq, if_neg (by omega), g7 y (by omega)]))
  rw [e2, ok_bind]
  show ∃ w', Svd.keepU nct k _ = .ok w' ∧ _
  unfold Svd.keepU
  rw [if_pos h]
  dsimp only
  obtain ⟨u, e3, q1, q2⟩ := Tab.colLoop (ε := Fault) (r := m) (c := n) (a := k) (b := m) (j := k) (t := w.u)
    (body := fun i (u : Tab α m n) => do u.set i k (← ae.1.get i k))
    (fun i _ => ae.1.f i k) (fun i t' g1 g2 g3 => by
      rw [Tab.get_ok g2 hkn, ok_bind, Tab.set_ok g2 hkn])
  rw [e3, ok_bind]
  refine ⟨_, rfl, ⟨fun i g1 g2 => ?_, fun hz i j g1 g2 g3 g4 => ?_, fun hz i j g3 => ?_, fun i j g1 => ?_⟩, rfl,
    fun j g1 g2 => h6 j g1 g2, fun j g1 => h7 j (by omega), fun i g1 g2 => q1 i g1 g2, q2, rfl⟩
  · dsimp only
    rw [h5 i k (by omega), h1 i g1 g2]
  · dsimp only
    rw [h3 hz i j g1 g2 g3 g4]
    rw [show (fun r => ae.1.f r k) = fun r => a1.f r k from funext fun x => h5 x k (by omega),
      show (fun r => a1.f r j) = fun r => w.a.f r j from funext fun x => h2 x j (by omega)]
  · dsimp only
    rw [h4 hz, h2 i j (by omega)]
  · dsimp only
    rw [h5 i j (by omega), h2 i j (by omega)]

/-- Row `k` after its scaling. -/
theorem Svd.rowScale_ok {k : Nat} (hk : k + 1 < n) (nu : α) (e : Row α n) :
    ∃ e' : Row α n, Svd.rowScale k nu e = .ok e' ∧
      (∀ i, k < i → i < n → e'.f i = Svd.scaled (k + 1) nu e.f i) ∧ ∀ x, ¬ (k < x ∧ x < n) → e'.f x = e.f x := by
  unfold Svd.rowScale
  by_cases h : Flt.eq nu Flt.zero = true
  · rw [if_neg (by simp [h])]
    exact ⟨e, rfl, fun i _ _ => by rw [Svd.scaled, if_pos h], fun _ _ => rfl⟩
  · rw [if_pos (by simp [h])]
    obtain ⟨e1, q, h1, h2⟩ := Row.loop (ε := Fault) (n := n) (a := k + 1) (b := n) (t := e)
      (body := fun i (e : Row α n) => do e.set i (Flt.div (← e.get i) nu))
      (fun i v => Flt.div v nu) (fun i t' g1 g2 g3 => by
        rw [Row.get_ok g2, ok_bind, Row.set_ok g2, g3 i (by omega)])
    rw [q, ok_bind, Row.get_ok hk, ok_bind, Row.set_ok hk]
    refine ⟨_, rfl, fun i g1 g2 => ?_, fun x hx => ?_⟩
    · dsimp only
      rw [upd1_eq, Svd.scaled, if_neg h]
      by_cases e' : i = k + 1
      · rw [if_pos e', if_pos e', h1 (k + 1) le_rfl hk]
      · rw [if_neg e', if_neg e', h1 i (by omega) g2]
    · dsimp only
      rw [upd1_eq, if_neg (by omega), h2 x (by omega)]

/-- What the transformation of row `k` makes of row `x`. -/
def Svd.reflR (k n : Nat) (e x : Nat → α) (j : Nat) : α :=
  Flt.add (x j) (Flt.mul (Flt.div (Flt.neg (e j)) (e (k + 1)))
    (lsum (k + 1) n (fun y => Flt.mul (e y) (x y)) Flt.zero))

theorem Svd.rowApply_ok {k : Nat} (hk : k + 1 < n) (hm : k < m) (e : Row α n) (a : Tab α m n) :
    ∃ a' : Tab α m n, Svd.rowApply k e a = .ok a' ∧
      (Flt.eq (e.f k) Flt.zero = false → ∀ i j, k < i → i < m → k < j → j < n →
        a'.f i j = Svd.reflR k n e.f (a.f i) j) ∧
      (Flt.eq (e.f k) Flt.zero = true → a' = a) ∧
      ∀ x y, ¬ (k < x ∧ x < m ∧ k < y ∧ y < n) → a'.f x y = a.f x y := by
  unfold Svd.rowApply
  rw [Row.get_ok (by omega), ok_bind]
  by_cases h : Flt.eq (e.f k) Flt.zero = true
  · rw [if_neg (by simp [h])]
    exact ⟨a, rfl, fun hf => by simp [h] at hf, fun _ => rfl, fun _ _ _ => rfl⟩
  by_cases hkm : k + 1 < m
  · rw [if_pos (by simp [h, hkm])]
    obtain ⟨work, e1, h1⟩ := Wp.exists_ok (wp_forUp (ε := Fault) (a := k + 1) (b := n)
      (body := fun j (work : Row α m) =>
        forUp (k + 1) m (fun i (work : Row α m) => do
          work.set i (Flt.add (← work.get i) (Flt.mul (← e.get j) (← a.get i j)))) work)
      (s := Row.zero m) (E := fun _ => False)
      (fun b (work : Row α m) => ∀ i, k < i → i < m →
        work.f i = lsum (k + 1) b (fun y => Flt.mul (e.f y) (a.f i y)) Flt.zero)
      (by omega) (fun i _ _ => by rw [lsum_self le_rfl]; rfl)
      (fun j work g1 g2 g3 => by
        obtain ⟨t', e', q1, q2⟩ := Row.loop (ε := Fault) (n := m) (a := k + 1) (b := m) (t := work)
          (body := fun i (work : Row α m) => do
            work.set i (Flt.add (← work.get i) (Flt.mul (← e.get j) (← a.get i j))))
          (fun i v => Flt.add v (Flt.mul (e.f j) (a.f i j))) (fun i t' g1' g2' g3' => by
            rw [Row.get_ok g2', ok_bind, Row.get_ok g2, ok_bind, Tab.get_ok g2' g2, ok_bind, Row.set_ok g2',
              g3' i (by omega)])
        refine wp_of_eq_ok e' fun i h1 h2 => ?_
        rw [q1 i (by omega) h2, g3 i h1 h2, lsum_succ (by omega)]))
    rw [e1, ok_bind]
    obtain ⟨a', e2, h2, h3⟩ := Tab.colsLoop (ε := Fault) (r := m) (c := n) (a := k + 1) (b := n) (p := k + 1) (q := m)
      (t := a) (body := fun j (a : Tab α m n) => do
        let ej ← e.get j
        let h ← e.get (k + 1)
        forUp (k + 1) m (fun i (a : Tab α m n) => do
          a.set i j (Flt.add (← a.get i j) (Flt.mul (Flt.div (Flt.neg ej) h) (← work.get i)))) a)
      (fun i j v => Flt.add v (Flt.mul (Flt.div (Flt.neg (e.f j)) (e.f (k + 1))) (work.f i)))
      (fun j t' g1 g2 g3 => by
        rw [Row.get_ok g2, ok_bind, Row.get_ok hk, ok_bind]
        obtain ⟨t'', e', q1, q2⟩ := Tab.colLoop (ε := Fault) (r := m) (c := n) (a := k + 1) (b := m) (j := j) (t := t')
          (body := fun i (a : Tab α m n) => do
            a.set i j (Flt.add (← a.get i j) (Flt.mul (Flt.div (Flt.neg (e.f j)) (e.f (k + 1))) (← work.get i))))
          (fun i v => Flt.add v (Flt.mul (Flt.div (Flt.neg (e.f j)) (e.f (k + 1))) (work.f i)))
          (fun i t' g1' g2' g3' => by
            rw [Tab.get_ok g2' g2, ok_bind, Row.get_ok g2', ok_bind, Tab.set_ok g2' g2, g3' i j (by omega)])
        refine ⟨t'', e', fun i g4 g5 => ?_, q2⟩
        rw [q1 i g4 g5, g3 i j (by omega)])
    refine ⟨a', e2, fun _ i j g1 g2 g3 g4 => ?_, fun hf => absurd hf h, fun x y hxy => h3 x y (by omega)⟩
    rw [h2 i j (by omega) g4 (by omega) g2, Svd.reflR, h1 i g1 g2]
  · rw [if_neg (by omega)]
    exact ⟨a, rfl, fun _ i j g1 g2 => by omega, fun _ => rfl, fun _ _ _ => rfl⟩

/-- The transformation of row `k`. -/
structure Svd.RPass (m n k : Nat) (mu : α) (x : Nat → α) (e' : Nat → α) (f f' : Nat → Nat → α) : Prop where
  row : ∀ j, k < j → j < n → e' j = Svd.scaled (k + 1) mu x j
  rows : Flt.eq (Flt.neg mu) Flt.zero = false → ∀ i j, k < i → i < m → k < j → j < n →
    f' i j = Svd.reflR k n e' (f i) j
  skip : Flt.eq (Flt.neg mu) Flt.zero = true → f' = f
  other : ∀ i j, (i ≤ k ∨ j ≤ k) → f' i j = f i j

theorem Svd.right_ok (hyp : α → α → α) {nrt k : Nat} (h : k < nrt) (hk : k + 1 < n) (hm : k < m)
    (w : Svd.Red α m n) :
    ∃ w', Svd.rowPass hyp nrt k w = .ok w' ∧
      Svd.RPass m n k (Svd.signed (Svd.hsum hyp (k + 1) w.e.f (n - (k + 1))) (w.e.f (k + 1))) w.e.f w'.e.f
        w.a.f w'.a.f ∧
      w'.e.f k = Flt.neg (Svd.signed (Svd.hsum hyp (k + 1) w.e.f (n - (k + 1))) (w.e.f (k + 1))) ∧
      (∀ j, j < k → w'.e.f j = w.e.f j) ∧
      (∀ i, k < i → i < n → w'.v.f i k = w'.e.f i) ∧
      (∀ i j, ¬ (j = k ∧ k < i ∧ i < n) → w'.v.f i j = w.v.f i j) ∧ w'.s = w.s ∧ w'.u = w.u := by
  unfold Svd.rowPass
  rw [if_pos h, Svd.norm_ok hyp (by omega) w.e.f fun i _ h2 => Row.get_ok h2, ok_bind, Row.get_ok hk, ok_bind]
  generalize Svd.signed (Svd.hsum hyp (k + 1) w.e.f (n - (k + 1))) (w.e.f (k + 1)) = mu
  obtain ⟨e1, q1, h1, h2⟩ := Svd.rowScale_ok hk mu w.e
  rw [q1, ok_bind, Row.set_ok (by omega), ok_bind]
  obtain ⟨a', q2, h3, h4, h5⟩ := Svd.rowApply_ok hk hm ⟨upd1 e1.f k (Flt.neg mu)⟩ w.a
  have hek : upd1 e1.f k (Flt.neg mu) k = Flt.neg mu := by rw [upd1_eq, if_pos rfl]
  dsimp only at h3 h4
  rw [hek] at h3 h4
  rw [q2, ok_bind]
  obtain ⟨v, q3, h6, h7⟩ := Tab.colLoop (ε := Fault) (r := n) (c := n) (a := k + 1) (b := n) (j := k) (t := w.v)
    (body := fun i (v : Tab α n n) => do v.set i k (← (⟨upd1 e1.f k (Flt.neg mu)⟩ : Row α n).get i))
    (fun i _ => upd1 e1.f k (Flt.neg mu) i) (fun i t' g1 g2 g3 => by
      rw [Row.get_ok g2, ok_bind, Tab.set_ok g2 (by omega)])
  rw [q3, ok_bind]
  refine ⟨_, rfl, ⟨fun j g1 g2 => ?_, h3, fun hz => by rw [h4 hz], fun i j g1 => h5 i j (by omega)⟩, hek,
    fun j g => ?_, fun i g1 g2 => h6 i (by omega) g2, fun i j g => h7 i j (by omega), rfl, rfl⟩
  · dsimp only
    rw [upd1_eq, if_neg (by omega), h1 j g1 g2]
  · dsimp only
    rw [upd1_eq, if_neg (by omega), h2 j (by omega)]

/-! ## The last entries and the generation of the factors -/

theorem Svd.lastEntries_ok {nct nrt : Nat} (hn : 0 < n) (hm : n ≤ m) (w : Svd.Red α m n) :
    Svd.lastEntries nct nrt w = .ok (⟨if nct < n then upd1 w.s.f nct (w.a.f nct nct) else w.s.f⟩,
      ⟨upd1 (if nrt + 1 < n then upd1 w.e.f nrt (w.a.f nrt (n - 1)) else w.e.f) (n - 1) Flt.zero⟩) := by
  unfold Svd.lastEntries
  by_cases h1 : nct < n
  · rw [if_pos h1, if_pos h1, Tab.get_ok (show nct < m by omega) h1, ok_bind, Row.set_ok h1, ok_bind]
    dsimp only
    by_cases h2 : nrt + 1 < n
    · rw [if_pos h2, if_pos h2, Tab.get_ok (show nrt < m by omega) (show n - 1 < n by omega), ok_bind,
        Row.set_ok (show nrt < n by omega), ok_bind, Row.set_ok (show n - 1 < n by omega), ok_bind]
      rfl
    · rw [if_neg h2, if_neg h2, pure_eq_ok, ok_bind, Row.set_ok (show n - 1 < n by omega), ok_bind]
      rfl
  · rw [if_neg h1, if_neg h1, pure_eq_ok, ok_bind]
    dsimp only
    by_cases h2 : nrt + 1 < n
    · rw [if_pos h2, if_pos h2, Tab.get_ok (show nrt < m by omega) (show n - 1 < n by omega), ok_bind,
        Row.set_ok (show nrt < n by omega), ok_bind, Row.set_ok (show n - 1 < n by omega), ok_bind]
      rfl
    · rw [if_neg h2, if_neg h2, pure_eq_ok, ok_bind, Row.set_ok (show n - 1 < n by omega), ok_bind]
      rfl

/-- A unit vector. -/
def Svd.unit (α : Type) [Flt α] (j i : Nat) : α := if i = j then Flt.one else Flt.zero

theorem Svd.unitCol_ok {r j : Nat} (hr : j < r) (hj : j < n) (u : Tab α r n) :
    ∃ u' : Tab α r n, Svd.unitCol j u = .ok u' ∧ (∀ i, i < r → u'.f i j = Svd.unit α j i) ∧
      ∀ x y, y ≠ j → u'.f x y = u.f x y := by
  unfold Svd.unitCol
  obtain ⟨u', e, h1, h2⟩ := Tab.colLoop (ε := Fault) (r := r) (c := n) (a := 0) (b := r) (j := j) (t := u)
    (body := fun i (u : Tab α r n) => u.set i j Flt.zero) (fun _ _ => Flt.zero)
    (fun i t' g1 g2 g3 => by rw [Tab.set_ok g2 hj])
  rw [e, ok_bind, Tab.set_ok hr hj]
  refine ⟨_, rfl, fun i hi => ?_, fun x y hy => ?_⟩
  · dsimp only
    rw [upd2_eq, Svd.unit]
    by_cases e' : i = j
    · rw [if_pos ⟨e', rfl⟩, if_pos e']
    · rw [if_neg fun h => e' h.1, if_neg e', h1 i (by omega) hi]
  · dsimp only
    rw [upd2_eq, if_neg fun h => hy h.2, h2 x y fun h => hy h.1]

theorem Svd.genUStep_ok {k : Nat} (hk : k < m) (hkn : k < n) (s : Row α n) (u : Tab α m n)
    (hz : 0 < k → u.f (k - 1) k = Flt.zero) :
    ∃ u' : Tab α m n, Svd.genUStep s k u = .ok u' ∧
      (Flt.eq (s.f k) Flt.zero = false →
        (∀ i j, k ≤ i → i < m → k < j → j < n → u'.f i j = Svd.refl k m (fun r => u.f r k) (fun r => u.f r j) i) ∧
        (∀ i j, i < k → k < j → u'.f i j = u.f i j) ∧
        (∀ i, k < i → i < m → u'.f i k = Flt.neg (u.f i k)) ∧
        u'.f k k = Flt.add Flt.one (Flt.neg (u.f k k)) ∧ ∀ i, i < k → u'.f i k = Flt.zero) ∧
      (Flt.eq (s.f k) Flt.zero = true →
        (∀ i j, k < j → u'.f i j = u.f i j) ∧ ∀ i, i < m → u'.f i k = Svd.unit α k i) ∧
      ∀ i j, j < k → u'.f i j = u.f i j := by
  unfold Svd.genUStep
  rw [Row.get_ok hkn, ok_bind]
  by_cases h : Flt.eq (s.f k) Flt.zero = true
  · rw [if_neg (by simp [h])]
    obtain ⟨u', e, h1, h2⟩ := Svd.unitCol_ok hk hkn u
    exact ⟨u', e, fun hf => by simp [h] at hf, fun _ => ⟨fun i j g => h2 i j (by omega), h1⟩,
      fun i j g => h2 i j (by omega)⟩
  · rw [if_pos (by simp [h])]
    obtain ⟨u1, e1, h1, h2⟩ := Svd.reflects_ok hk hkn u
    rw [e1, ok_bind]
    obtain ⟨u2, e2, h3, h4⟩ := Tab.colLoop (ε := Fault) (r := m) (c := n) (a := k) (b := m) (j := k) (t := u1)
      (body := fun i (u : Tab α m n) => do u.set i k (Flt.neg (← u.get i k))) (fun _ v => Flt.neg v)
      (fun i t' g1 g2 g3 => by rw [Tab.get_ok g2 hkn, ok_bind, Tab.set_ok g2 hkn, g3 i k (by omega)])
    rw [e2, ok_bind, Tab.get_ok hk hkn, ok_bind, Tab.set_ok hk hkn, ok_bind]
    obtain ⟨u3, e3, h5, h6⟩ := Tab.colLoop (ε := Fault) (r := m) (c := n) (a := 0) (b := k - 1) (j := k)
      (t := ⟨upd2 u2.f k k (Flt.add Flt.one (u2.f k k))⟩)
      (body := fun i (u : Tab α m n) => u.set i k Flt.zero) (fun _ _ => Flt.zero)
      (fun i t' g1 g2 g3 => by rw [Tab.set_ok (show i < m by omega) hkn])
    have hb : ∀ x y, ¬ (y = k ∧ x < k - 1) → u3.f x y = if x = k ∧ y = k then Flt.add Flt.one (u2.f k k)
        else u2.f x y := fun x y hxy => by rw [h6 x y (by omega)]; dsimp only; rw [upd2_eq]
    refine ⟨u3, e3, fun _ => ⟨fun i j g1 g2 g3 g4 => ?_, fun i j g1 g2 => ?_, fun i g1 g2 => ?_, ?_, fun i g1 => ?_⟩,
      fun hf => absurd hf h, fun i j g => ?_⟩
    · rw [hb i j (by omega), if_neg (by omega), h4 i j (by omega), h1 i j g1 g2 g3 g4]
    · rw [hb i j (by omega), if_neg (by omega), h4 i j (by omega), h2 i j (by omega)]
    · rw [hb i k (by omega), if_neg (by omega), h3 i (by omega) g2, h2 i k (by omega)]
    · rw [hb k k (by omega), if_pos ⟨rfl, rfl⟩, h3 k le_rfl hk, h2 k k (by omega)]
    · by_cases e' : i < k - 1
      · rw [h5 i (by omega) e']
      · rw [hb i k (by omega), if_neg (by omega), h4 i k (by omega), h2 i k (by omega),
          show i = k - 1 by omega, hz (by omega)]
    · rw [hb i j (by omega), if_neg (by omega), h4 i j (by omega), h2 i j (by omega)]

theorem Svd.genVStep_ok {nrt k : Nat} (hkn : k < n) (hr : nrt < n) (e : Row α n) (v : Tab α n n) :
    ∃ v' : Tab α n n, Svd.genVStep nrt e k v = .ok v' ∧
      (k < nrt ∧ Flt.eq (e.f k) Flt.zero = false →
        (∀ i j, k < i → i < n → k < j → j < n →
          v'.f i j = Svd.refl (k + 1) n (fun r => v.f r k) (fun r => v.f r j) i) ∧
        ∀ i j, i ≤ k → k < j → v'.f i j = v.f i j) ∧
      (¬ (k < nrt ∧ Flt.eq (e.f k) Flt.zero = false) → ∀ i j, k < j → v'.f i j = v.f i j) ∧
      (∀ i, i < n → v'.f i k = Svd.unit α k i) ∧ ∀ i j, j < k → v'.f i j = v.f i j := by
  unfold Svd.genVStep
  rw [Row.get_ok hkn, ok_bind]
  by_cases h : k < nrt ∧ Flt.eq (e.f k) Flt.zero = false
  · rw [if_pos (by simp [h])]
    obtain ⟨v1, e1, h1, h2⟩ := Svd.reflects_ok (show k + 1 < n by omega) hkn v
    rw [e1, ok_bind]
    obtain ⟨v', e, h3, h4⟩ := Svd.unitCol_ok hkn hkn v1
    refine ⟨v', e, fun _ => ⟨fun i j g1 g2 g3 g4 => ?_, fun i j g1 g2 => ?_⟩, fun hf => absurd h hf, h3,
      fun i j g => ?_⟩
    · rw [h4 i j (by omega), h1 i j (by omega) g2 g3 g4]
    · rw [h4 i j (by omega), h2 i j (by omega)]
    · rw [h4 i j (by omega), h2 i j (by omega)]
  · rw [if_neg (by simpa using h), pure_eq_ok, ok_bind]
    obtain ⟨v', e, h3, h4⟩ := Svd.unitCol_ok hkn hkn v
    exact ⟨v', e, fun hf => absurd hf h, fun _ i j g => h4 i j (by omega), h3, fun i j g => h4 i j (by omega)⟩

end Linear
