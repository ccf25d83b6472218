import Verif.Model.Tri
import Verif.Lemmas.QROut
import Verif.Props.Cholesky

/-!
# Lemmas on the tridiagonal reduction
-/

set_option linter.unusedSectionVars false

namespace Linear

open Spec Finset Matrix

section free

variable {α : Type} [Flt α] {m : Nat}

theorem Mat.isSquare_ok (hm : 0 < m) (a : Mat α m m) : a.isSquare = .ok true := by
  unfold Mat.isSquare
  rw [Mat.colDim_ok hm]
  show Except.ok (m == m) = _
  rw [beq_self_eq_true]

theorem Tri.norm_ok {k : Nat} (hk : k + 1 < m) (t : Tab α m m) :
    Tri.norm k t = .ok (hnorm (k + 1) m (t.f k)) := by
  unfold Tri.norm hnorm
  rw [sumUp_ok (fun r => Flt.mul (t.f k r) (t.f k r)) fun i h1 h2 => by
    rw [Tab.get_ok (by omega) h2]; rfl, ok_bind, Tab.get_ok (by omega) hk, ok_bind]
  split <;> rfl

/-- `beta A v`, where only the upper triangle of `A` is read. -/
def Tri.zv (m k : Nat) (β : α) (f : Nat → Nat → α) (v : Nat → α) (i : Nat) : α :=
  Flt.mul β (Flt.add (lsum (k + 1) i (fun j => Flt.mul (f j i) (v j)) Flt.zero)
    (lsum (i + 1) m (fun j => Flt.mul (f i j) (v j)) (Flt.mul (f i i) (v i))))

/-- The vector `z` of the rank-two update. -/
def Tri.zz (m k : Nat) (β : α) (f : Nat → Nat → α) (v : Nat → α) (i : Nat) : α :=
  Flt.sub (Tri.zv m k β f v i) (Flt.mul (Flt.mul
    (lsum (k + 1) m (fun i => Flt.mul (Tri.zv m k β f v i) (v i)) Flt.zero) (Flt.div β Flt.two)) (v i))

theorem Tri.zRow_ok {k i : Nat} (hk : k + 1 < m) (him : i < m) (β : α) (t : Tab α m m)
    (z : Row α m) : ∃ z' : Row α m, Tri.zRow k β t i z = .ok z' ∧
      z'.f i = Flt.mul β (Flt.add (z.f i)
        (lsum (i + 1) m (fun j => Flt.mul (t.f i j) (t.f k j)) (Flt.mul (t.f i i) (t.f k i)))) ∧
      (∀ x, i < x → x < m → z'.f x = Flt.add (z.f x) (Flt.mul (t.f i x) (t.f k i))) ∧
      ∀ x, x < i → z'.f x = z.f x := by
  unfold Tri.zRow
  rw [Tab.get_ok (by omega) him, ok_bind, Tab.get_ok him him, ok_bind]
  obtain ⟨s, e, h1, h2, h3⟩ := Wp.exists_ok (wp_forUp (E := fun _ : Fault => False) (a := i + 1) (b := m)
    (s := (Flt.mul (t.f i i) (t.f k i), z))
    (body := fun j (s : α × Row α m) => do
      let hIJ ← t.get i j
      let hKJ ← t.get k j
      let z ← s.2.set j (Flt.add (← s.2.get j) (Flt.mul hIJ (t.f k i)))
      return (Flt.add s.1 (Flt.mul hIJ hKJ), z))
    (fun j s => s.1 = lsum (i + 1) j (fun j => Flt.mul (t.f i j) (t.f k j)) (Flt.mul (t.f i i) (t.f k i)) ∧
      (∀ x, i < x → x < j → s.2.f x = Flt.add (z.f x) (Flt.mul (t.f i x) (t.f k i))) ∧
      ∀ x, (x ≤ i ∨ j ≤ x) → s.2.f x = z.f x) (by omega)
    (And.intro (by rw [lsum_self le_rfl]) (And.intro (by intro x _ _; omega) (by intro x _; rfl))) (by
    rintro j ⟨zI, z1⟩ h1 h2 ⟨h3, h4, h5⟩
    dsimp only at h3 h4 h5 ⊢
    rw [Tab.get_ok him h2, ok_bind, Tab.get_ok (by omega) h2, ok_bind, Row.get_ok h2, ok_bind,
      Row.set_ok h2, ok_bind]
    refine ⟨?_, fun x h6 h7 => ?_, fun x h6 => ?_⟩
    · dsimp only
      rw [lsum_succ h1, h3]
    · dsimp only
      rw [upd1_eq]
      by_cases e : x = j
      · rw [if_pos e, e, h5 j (by omega)]
      · rw [if_neg e, h4 x h6 (by omega)]
    · dsimp only
      rw [upd1_eq, if_neg (by omega), h5 x (by omega)]))
  rw [e, ok_bind, Row.get_ok him, ok_bind, Row.set_ok him]
  refine ⟨_, rfl, ?_, fun x h4 h5 => ?_, fun x h4 => ?_⟩
  · dsimp only
    rw [upd1_eq, if_pos rfl, h1, h3 i (by omega)]
  · dsimp only
    rw [upd1_eq, if_neg (by omega), h2 x h4 h5]
  · dsimp only
    rw [upd1_eq, if_neg (by omega), h3 x (by omega)]

theorem Tri.z_ok {k : Nat} (hk : k + 1 < m) (β : α) (t : Tab α m m) (z : Row α m) :
    ∃ z' : Row α m, Tri.z k β t z = .ok z' ∧
      ∀ i, k < i → i < m → z'.f i = Tri.zz m k β t.f (t.f k) i := by
  unfold Tri.z
  obtain ⟨z0, e0, h0, -⟩ := Row.loop (ε := Fault) (n := m) (a := k + 1) (b := m) (t := z)
    (fun _ _ => Flt.zero) (body := fun i (z : Row α m) => z.set i Flt.zero) (by
    intro i t' h1 h2 _
    rw [Row.set_ok h2])
  rw [e0, ok_bind]
  obtain ⟨z1, e1, h1, -⟩ := Wp.exists_ok (wp_forUp (E := fun _ : Fault => False) (a := k + 1) (b := m)
    (s := z0) (body := Tri.zRow k β t)
    (fun i z => (∀ x, k < x → x < i → z.f x = Tri.zv m k β t.f (t.f k) x) ∧
      ∀ x, i ≤ x → x < m → z.f x = lsum (k + 1) i (fun j => Flt.mul (t.f j x) (t.f k j)) Flt.zero) (by omega)
    (And.intro (by intro x _ _; omega) (by intro x h1 h2; rw [lsum_self le_rfl, h0 x h1 h2])) (by
    rintro i z h1 h2 ⟨h3, h4⟩
    obtain ⟨z', e, h5, h6, h7⟩ := Tri.zRow_ok hk h2 β t z
    rw [e]
    refine ⟨fun x h8 h9 => ?_, fun x h8 h9 => ?_⟩
    · by_cases e : x = i
      · subst e
        rw [h5, h4 x le_rfl h2]
        rfl
      · rw [h7 x (by omega), h3 x h8 (by omega)]
    · rw [h6 x (by omega) h9, h4 x (by omega) h9, lsum_succ h1]))
  rw [e1, ok_bind, sumUp_ok (fun i => Flt.mul (Tri.zv m k β t.f (t.f k) i) (t.f k i)) fun i h2 h3 => by
    rw [Row.get_ok h3, ok_bind, Tab.get_ok (by omega) h3, h1 i h2 h3]; rfl, ok_bind]
  obtain ⟨z2, e2, h2, -⟩ := Row.loop (ε := Fault) (n := m) (a := k + 1) (b := m) (t := z1)
    (fun i x => Flt.sub x (Flt.mul (Flt.mul
      (lsum (k + 1) m (fun i => Flt.mul (Tri.zv m k β t.f (t.f k) i) (t.f k i)) Flt.zero)
      (Flt.div β Flt.two)) (t.f k i)))
    (body := fun i (z : Row α m) => do
      z.set i (Flt.sub (← z.get i) (Flt.mul (Flt.mul
        (lsum (k + 1) m (fun i => Flt.mul (Tri.zv m k β t.f (t.f k) i) (t.f k i)) Flt.zero)
        (Flt.div β Flt.two)) (← t.get k i)))) (by
    intro i t' h2 h3 h4
    rw [Row.get_ok h3, ok_bind, Tab.get_ok (by omega) h3, ok_bind, Row.set_ok h3, h4 i (by omega)])
  refine ⟨z2, e2, fun i h3 h4 => ?_⟩
  rw [h2 i h3 h4, h1 i h3 h4]
  rfl

theorem Tri.update_ok {k : Nat} (hk : k + 1 < m) (z : Row α m) (t : Tab α m m) :
    ∃ t' : Tab α m m, Tri.update k z t = .ok t' ∧
      (∀ i j, k < i → i ≤ j → j < m → t'.f i j = Flt.sub (t.f i j)
        (Flt.add (Flt.mul (t.f k i) (z.f j)) (Flt.mul (z.f i) (t.f k j)))) ∧
      ∀ i j, (i ≤ k ∨ j < i) → t'.f i j = t.f i j := by
  unfold Tri.update
  obtain ⟨t', e, h1, h2⟩ := Wp.exists_ok (wp_forUp (E := fun _ : Fault => False) (a := k + 1) (b := m)
    (s := t) (body := fun i (t : Tab α m m) =>
      forUp i m (fun j (t : Tab α m m) => do
        t.set i j (Flt.sub (← t.get i j) (Flt.add (Flt.mul (← t.get k i) (← z.get j))
          (Flt.mul (← z.get i) (← t.get k j))))) t)
    (fun p (t' : Tab α m m) => (∀ i j, k < i → i < p → i ≤ j → j < m → t'.f i j = Flt.sub (t.f i j)
        (Flt.add (Flt.mul (t.f k i) (z.f j)) (Flt.mul (z.f i) (t.f k j)))) ∧
      ∀ i j, (i ≤ k ∨ j < i ∨ p ≤ i) → t'.f i j = t.f i j) (by omega)
    (And.intro (by intro i j _ _; omega) (by intro i j _; rfl)) (by
    rintro p t1 h1 h2 ⟨h3, h4⟩
    obtain ⟨t2, e, h5, h6⟩ := Tab.rowLoop (ε := Fault) (r := m) (c := m) (a := p) (b := m) (i := p)
      (t := t1) (fun j x => Flt.sub x (Flt.add (Flt.mul (t.f k p) (z.f j)) (Flt.mul (z.f p) (t.f k j))))
      (body := fun j (t : Tab α m m) => do
        t.set p j (Flt.sub (← t.get p j) (Flt.add (Flt.mul (← t.get k p) (← z.get j))
          (Flt.mul (← z.get p) (← t.get k j))))) (by
      intro j t' h5 h6 h7
      rw [Tab.get_ok h2 h6, ok_bind, Tab.get_ok (by omega) h2, ok_bind, Row.get_ok h6, ok_bind,
        Row.get_ok h2, ok_bind, Tab.get_ok (by omega) h6, ok_bind, Tab.set_ok h2 h6,
        h7 p j (by omega), h7 k p (by omega), h7 k j (by omega), h4 k p (by omega), h4 k j (by omega)])
    rw [e]
    refine ⟨fun i j h7 h8 h9 h10 => ?_, fun i j h7 => ?_⟩
    · by_cases e : i = p
      · subst e
        rw [h5 j h9 h10, h4 i j (by omega)]
      · rw [h6 i j (by omega), h3 i j h7 (by omega) h9 h10]
    · rw [h6 i j (by omega), h4 i j (by omega)]))
  rw [e]
  exact ⟨t', rfl, fun i j h3 h4 h5 => h1 i j h3 (by omega) h4 h5, fun i j h3 => h2 i j (by omega)⟩

/-- What one round of the reduction does to the table. -/
structure Tri.Step (m k : Nat) (f f' : Nat → Nat → α) (a : α) : Prop where
  same : Flt.eq a Flt.zero = true → f' = f
  head : Flt.eq a Flt.zero = false → f' k (k + 1) = Flt.sub (f k (k + 1)) a
  row : ∀ j, j ≠ k + 1 → f' k j = f k j
  upd : Flt.eq a Flt.zero = false → ∀ i j, k < i → i ≤ j → j < m → f' i j = Flt.sub (f i j)
    (Flt.add
      (Flt.mul (f' k i) (Tri.zz m k (Flt.div (Flt.neg Flt.one) (Flt.mul a (f' k (k + 1)))) f (f' k) j))
      (Flt.mul (Tri.zz m k (Flt.div (Flt.neg Flt.one) (Flt.mul a (f' k (k + 1)))) f (f' k) i) (f' k j)))
  other : ∀ i j, (i < k ∨ k < i ∧ j < i) → f' i j = f i j

theorem Tri.zz_congr {k : Nat} {β : α} {f f' : Nat → Nat → α} {v : Nat → α}
    (h : ∀ i j, k < i → i ≤ j → j < m → f i j = f' i j) {i : Nat} (hi : k < i) (him : i < m) :
    Tri.zz m k β f v i = Tri.zz m k β f' v i := by
  have h1 : ∀ i, k < i → i < m → Tri.zv m k β f v i = Tri.zv m k β f' v i := by
    intro i h1 h2
    unfold Tri.zv
    rw [lsum_congr (g' := fun j => Flt.mul (f' j i) (v j)) fun j h3 h4 => by
      rw [h j i h3 (by omega) h2], lsum_congr (a := i + 1) (g' := fun j => Flt.mul (f' i j) (v j)) fun j h3 h4 => by
      rw [h i j h1 (by omega) h4], h i i h1 le_rfl h2]
  unfold Tri.zz
  rw [h1 i hi him, lsum_congr fun j h3 h4 => by rw [h1 j h3 h4]]

theorem Tri.step_ok {k : Nat} (hk : k + 1 < m) (s : Tri α m m × Row α m) :
    ∃ s' : Tri α m m × Row α m, Tri.step k s = .ok s' ∧
      s'.1.main.f = upd1 s.1.main.f k (s.1.hv.f k k) ∧
      s'.1.sec.f = upd1 s.1.sec.f k (hnorm (k + 1) m (s.1.hv.f k)) ∧
      Tri.Step m k s.1.hv.f s'.1.hv.f (hnorm (k + 1) m (s.1.hv.f k)) := by
  unfold Tri.step
  rw [Tab.get_ok (by omega) (by omega), ok_bind, Row.set_ok (by omega), ok_bind, Tri.norm_ok hk, ok_bind,
    Row.set_ok (by omega), ok_bind]
  generalize hnorm (k + 1) m (s.1.hv.f k) = a
  by_cases ha : Flt.eq a Flt.zero = true
  · rw [if_neg (by simp [ha])]
    exact ⟨_, rfl, rfl, rfl, fun _ => rfl, fun h => by simp [ha] at h, fun _ _ => rfl,
      fun h => by simp [ha] at h, fun _ _ _ => rfl⟩
  · rw [if_pos (by simp [ha]), Tab.get_ok (by omega) hk, ok_bind, Tab.set_ok (by omega) hk, ok_bind,
      Tab.get_ok (by omega) hk, ok_bind]
    obtain ⟨z, e, h1⟩ := Tri.z_ok hk (Flt.div (Flt.neg Flt.one) (Flt.mul a
      ((⟨upd2 s.1.hv.f k (k + 1) (Flt.sub (s.1.hv.f k (k + 1)) a)⟩ : Tab α m m).f k (k + 1))))
      (⟨upd2 s.1.hv.f k (k + 1) (Flt.sub (s.1.hv.f k (k + 1)) a)⟩ : Tab α m m) s.2
    rw [e, ok_bind]
    obtain ⟨t', e', h2, h3⟩ := Tri.update_ok hk z
      (⟨upd2 s.1.hv.f k (k + 1) (Flt.sub (s.1.hv.f k (k + 1)) a)⟩ : Tab α m m)
    rw [e', ok_bind]
    dsimp only at h1 h2 h3
    have e1 : t'.f k = upd2 s.1.hv.f k (k + 1) (Flt.sub (s.1.hv.f k (k + 1)) a) k :=
        funext fun y => h3 k y (by omega)
    have e2 : ∀ i j, k < i → i ≤ j → j < m →
        upd2 s.1.hv.f k (k + 1) (Flt.sub (s.1.hv.f k (k + 1)) a) i j = s.1.hv.f i j := by
      intro i j h4 _ _
      rw [upd2_eq, if_neg (by omega)]
    refine ⟨_, rfl, rfl, rfl, fun h => absurd h ha, fun _ => ?_, fun r hr => ?_, fun _ i j h4 h5 h6 => ?_,
      fun i j h4 => ?_⟩
    · dsimp only
      rw [e1, upd2_eq, if_pos ⟨rfl, rfl⟩]
    · dsimp only
      rw [e1, upd2_eq, if_neg (by omega)]
    · dsimp only
      rw [h2 i j h4 h5 h6, e2 i j h4 h5 h6, h1 i h4 (by omega), h1 j (by omega) h6, e1,
        Tri.zz_congr e2 h4 (by omega), Tri.zz_congr e2 (show k < j by omega) h6]
    · dsimp only
      rw [h3 i j (by omega), upd2_eq, if_neg (by omega)]

/-- The states of the reduction: table, main and secondary diagonal after `k` rounds. -/
inductive Tri.Trace (m : Nat) (A : Nat → Nat → α) : Nat → (Nat → Nat → α) → (Nat → α) → (Nat → α) → Prop
  | init {f : Nat → Nat → α} (h : ∀ i j, i < m → j < m → f i j = A i j) :
      Trace m A 0 f (fun _ => Flt.zero) (fun _ => Flt.zero)
  | step {k : Nat} {f f' : Nat → Nat → α} {d e : Nat → α} (h : Trace m A k f d e) (hk : k + 1 < m)
      (hs : Tri.Step m k f f' (hnorm (k + 1) m (f k))) :
      Trace m A (k + 1) f' (upd1 d k (f k k)) (upd1 e k (hnorm (k + 1) m (f k)))

theorem Tri.new_ok [ZeroLaws α] {a : Mat α m m} (ha : a.own) (hm : 0 < m) {A : Nat → Nat → α}
    (hA : Shows a.at m m A) :
    ∃ (s : Tri α m m) (d : Nat → α), Tri.new a = .ok s ∧
      Tri.Trace m A (m - 1) s.hv.f d s.sec.f ∧ s.main.f = upd1 d (m - 1) (s.hv.f (m - 1) (m - 1)) := by
  obtain ⟨t, e2, h1⟩ := Mat.dataCopy_ok ha hm hA
  unfold Tri.new
  rw [Mat.isSquare_ok hm, ok_bind]
  show ∃ s d, (a.dataCopy >>= _ : Res (Tri α m m)) = .ok s ∧ _
  rw [e2, ok_bind, if_neg (by omega)]
  show ∃ s d, (forUp 0 (m - 1) Tri.step (⟨t, Row.zero m, Row.zero (m - 1)⟩, Row.zero m) >>= _ :
    Res (Tri α m m)) = .ok s ∧ _
  obtain ⟨s, e, hI⟩ := Wp.exists_ok (wp_forUp (E := fun _ : Fault => False) (a := 0) (b := m - 1)
    (s := ((⟨t, Row.zero m, Row.zero (m - 1)⟩, Row.zero m) : Tri α m m × Row α m)) (body := Tri.step)
    (fun k s => Tri.Trace m A k s.1.hv.f s.1.main.f s.1.sec.f) (Nat.zero_le _) (Tri.Trace.init h1) (by
    intro k s _ hk hI
    obtain ⟨s', e, hd, he, hf⟩ := Tri.step_ok (show k + 1 < m by omega) s
    rw [e]
    show Tri.Trace m A (k + 1) s'.1.hv.f s'.1.main.f s'.1.sec.f
    rw [hd, he]
    exact .step hI (by omega) hf))
  rw [e, ok_bind, Tab.get_ok (by omega) (by omega), ok_bind, Row.set_ok (by omega), ok_bind]
  exact ⟨_, _, rfl, hI, rfl⟩

/-- Two reductions of matrices with the same upper triangle agree. -/
theorem Tri.Trace.agree {A B : Nat → Nat → α} (h : ∀ i j, i ≤ j → j < m → A i j = B i j) {k : Nat}
    {f g' : Nat → Nat → α} {d d' e e' : Nat → α} (h1 : Tri.Trace m A k f d e) (h2 : Tri.Trace m B k g' d' e') :
    d = d' ∧ e = e' ∧ ∀ i j, i ≤ j → j < m → f i j = g' i j := by
  induction h1 generalizing g' d' e' with
  | init h1 =>
    cases h2 with
    | init h2 =>
      exact ⟨rfl, rfl, fun i j hi hj => by rw [h1 i j (by omega) hj, h2 i j (by omega) hj, h i j hi hj]⟩
  | @step k f f' d e h1 hk hs ih =>
    cases h2 with
    | @step _ g _ d' e' h2 _ hs' =>
      obtain ⟨rfl, rfl, hf⟩ := ih h2
      have ea : hnorm (k + 1) m (f k) = hnorm (k + 1) m (g k) := by
        unfold hnorm
        rw [lsum_congr (g' := fun r => Flt.mul (g k r) (g k r)) fun r h3 h4 => by
          rw [hf k r (by omega) h4], hf k (k + 1) (by omega) hk]
      rw [ea, hf k k le_rfl (by omega)]
      refine ⟨rfl, rfl, fun i j hi hj => ?_⟩
      rw [ea] at hs
      generalize hnorm (k + 1) m (g k) = a at hs hs'
      by_cases ha : Flt.eq a Flt.zero = true
      · rw [hs.same ha, hs'.same ha, hf i j hi hj]
      · rw [Bool.not_eq_true] at ha
        have hrow : ∀ j, k ≤ j → j < m → f' k j = g' k j := by
          intro j h3 h4
          by_cases e : j = k + 1
          · rw [e, hs.head ha, hs'.head ha, hf k (k + 1) (by omega) hk]
          · rw [hs.row j e, hs'.row j e, hf k j h3 h4]
        by_cases h3 : i < k
        · rw [hs.other i j (.inl h3), hs'.other i j (.inl h3), hf i j hi hj]
        · by_cases h4 : i = k
          · rw [h4, hrow j (by omega) hj]
          · have hz : ∀ i, k < i → i < m → ∀ β, Tri.zz m k β f (f' k) i = Tri.zz m k β g (g' k) i := by
              intro i h5 h6 β
              rw [Tri.zz_congr (f' := g) (fun i j _ h8 h9 => hf i j h8 h9) h5 h6]
              have hzv : ∀ i, k < i → i < m → Tri.zv m k β g (f' k) i = Tri.zv m k β g (g' k) i := by
                intro i h5 h6
                unfold Tri.zv
                rw [lsum_congr (g' := fun j => Flt.mul (g j i) (g' k j)) fun j h3 h4 => by
                  rw [hrow j (by omega) (by omega)],
                  lsum_congr (a := i + 1) (g' := fun j => Flt.mul (g i j) (g' k j)) fun j h3 h4 => by
                  rw [hrow j (by omega) (by omega)], hrow i (by omega) h6]
              unfold Tri.zz
              rw [hzv i h5 h6, hrow i (by omega) h6,
                lsum_congr fun j h3 h4 => by rw [hzv j h3 h4, hrow j (by omega) h4]]
            rw [hs.upd ha i j (by omega) hi hj, hs'.upd ha i j (by omega) hi hj, hf i j hi hj,
              hrow (k + 1) (by omega) hk, hz i (by omega) (by omega), hz j (by omega) hj,
              hrow i (by omega) (by omega), hrow j (by omega) hj]

/-- One step of the accumulation of `QT`. -/
structure Tri.QStep (m k : Nat) (d : α) (v : Nat → α) (q q' : Nat → Nat → α) : Prop where
  skip : Flt.eq (v k) Flt.zero = true → q' = upd2 q k k Flt.one
  diag : Flt.eq (v k) Flt.zero = false → q' k k = Flt.add Flt.one (Flt.mul (Flt.div Flt.one d) (v k))
  row : Flt.eq (v k) Flt.zero = false → ∀ i, k < i → i < m → q' k i = Flt.mul (Flt.div Flt.one d) (v i)
  col : Flt.eq (v k) Flt.zero = false → ∀ j, k < j → j < m → q' j k =
    Flt.mul (Flt.mul (lsum (k + 1) m (fun i => Flt.mul (q j i) (v i)) Flt.zero)
      (Flt.div Flt.one (Flt.mul d (v k)))) (v k)
  rest : Flt.eq (v k) Flt.zero = false → ∀ j i, k < j → j < m → k < i → i < m → q' j i =
    Flt.add (q j i) (Flt.mul (Flt.mul (lsum (k + 1) m (fun i => Flt.mul (q j i) (v i)) Flt.zero)
      (Flt.div Flt.one (Flt.mul d (v k)))) (v i))
  other : ∀ i j, (i < k ∨ j < k) → q' i j = q i j

theorem Tri.qtRow_ok {k j : Nat} (h1 : 1 ≤ k) (hk : k < j) (hj : j < m) (s : Tri α m m) (inv : α)
    (q : Tab α m m) : ∃ q' : Tab α m m, s.qtRow k inv j q = .ok q' ∧
      q'.f j k = Flt.mul (Flt.mul (lsum (k + 1) m (fun i => Flt.mul (q.f j i) (s.hv.f (k - 1) i)) Flt.zero)
        inv) (s.hv.f (k - 1) k) ∧
      (∀ i, k < i → i < m → q'.f j i = Flt.add (q.f j i) (Flt.mul (Flt.mul
        (lsum (k + 1) m (fun i => Flt.mul (q.f j i) (s.hv.f (k - 1) i)) Flt.zero) inv)
        (s.hv.f (k - 1) i))) ∧
      ∀ x y, ¬ (x = j ∧ k ≤ y ∧ y < m) → q'.f x y = q.f x y := by
  unfold Tri.qtRow
  rw [sumUp_ok (fun i => Flt.mul (q.f j i) (s.hv.f (k - 1) i)) fun i h2 h3 => by
    rw [Tab.get_ok hj h3, ok_bind, Tab.get_ok (by omega) h3]; rfl, ok_bind, Tab.get_ok (by omega) (by omega),
    ok_bind, Tab.set_ok hj (by omega), ok_bind]
  generalize Flt.mul (lsum (k + 1) m (fun i => Flt.mul (q.f j i) (s.hv.f (k - 1) i)) Flt.zero) inv = b
  obtain ⟨t', e, h2, h3⟩ := Tab.rowLoop (ε := Fault) (r := m) (c := m) (a := k + 1) (b := m) (i := j)
    (t := (⟨upd2 q.f j k (Flt.mul b (s.hv.f (k - 1) k))⟩ : Tab α m m))
    (fun i x => Flt.add x (Flt.mul b (s.hv.f (k - 1) i)))
    (body := fun i (q : Tab α m m) => do
      q.set j i (Flt.add (← q.get j i) (Flt.mul b (← s.hv.get (k - 1) i)))) (by
    intro i t' h2 h3 h4
    rw [Tab.get_ok hj h3, ok_bind, Tab.get_ok (by omega) h3, ok_bind, Tab.set_ok hj h3, h4 j i (by omega)])
  rw [e]
  dsimp only at h2 h3
  refine ⟨t', rfl, ?_, fun i h4 h5 => ?_, fun x y h4 => ?_⟩
  · rw [h3 j k (by omega), upd2_eq, if_pos ⟨rfl, rfl⟩]
  · rw [h2 i (by omega) h5, upd2_eq, if_neg (by omega)]
  · rw [h3 x y (by omega), upd2_eq, if_neg (by omega)]

theorem Tri.qtStep_ok {k : Nat} (h1 : 1 ≤ k) (hk : k < m) (s : Tri α m m) (q : Tab α m m) :
    ∃ q' : Tab α m m, s.qtStep k q = .ok q' ∧
      Tri.QStep m k (s.sec.f (k - 1)) (s.hv.f (k - 1)) q.f q'.f := by
  unfold Tri.qtStep
  rw [Tab.set_ok hk hk, ok_bind, Tab.get_ok (by omega) hk, ok_bind]
  by_cases ha : Flt.eq (s.hv.f (k - 1) k) Flt.zero = true
  · rw [if_neg (by simp [ha])]
    refine ⟨_, rfl, fun _ => rfl, fun h => by simp [ha] at h, fun h => by simp [ha] at h,
      fun h => by simp [ha] at h, fun h => by simp [ha] at h, fun i j h => ?_⟩
    dsimp only
    rw [upd2_eq, if_neg (by omega)]
  · rw [if_pos (by simp [ha]), Row.get_ok (by omega), ok_bind, Tab.set_ok hk hk, ok_bind]
    obtain ⟨t1, e1, h2, h3⟩ := Tab.rowLoop (ε := Fault) (r := m) (c := m) (a := k + 1) (b := m) (i := k)
      (t := (⟨upd2 (upd2 q.f k k Flt.one) k k (Flt.add Flt.one (Flt.mul (Flt.div Flt.one (s.sec.f (k - 1)))
        (s.hv.f (k - 1) k)))⟩ : Tab α m m))
      (fun i _ => Flt.mul (Flt.div Flt.one (s.sec.f (k - 1))) (s.hv.f (k - 1) i))
      (body := fun i (q : Tab α m m) => do
        q.set k i (Flt.mul (Flt.div Flt.one (s.sec.f (k - 1))) (← s.hv.get (k - 1) i))) (by
      intro i t' h2 h3 h4
      rw [Tab.get_ok (by omega) h3, ok_bind, Tab.set_ok hk h3])
    rw [e1, ok_bind]
    dsimp only at h2 h3
    have h3' : ∀ x y, x ≠ k → t1.f x y = q.f x y := by
      intro x y h4
      rw [h3 x y (by omega), upd2_eq, if_neg (by omega), upd2_eq, if_neg (by omega)]
    obtain ⟨t2, e2, h4, h5⟩ := Tab.rowsLoop (ε := Fault) (r := m) (c := m) (a := k + 1) (b := m) (p := k)
      (q := m) (t := t1) (body := s.qtRow k (Flt.div Flt.one (Flt.mul (s.sec.f (k - 1)) (s.hv.f (k - 1) k))))
      (fun j i x => if i = k then
          Flt.mul (Flt.mul (lsum (k + 1) m (fun i => Flt.mul (q.f j i) (s.hv.f (k - 1) i)) Flt.zero)
            (Flt.div Flt.one (Flt.mul (s.sec.f (k - 1)) (s.hv.f (k - 1) k)))) (s.hv.f (k - 1) k)
        else Flt.add x (Flt.mul (Flt.mul
          (lsum (k + 1) m (fun i => Flt.mul (q.f j i) (s.hv.f (k - 1) i)) Flt.zero)
          (Flt.div Flt.one (Flt.mul (s.sec.f (k - 1)) (s.hv.f (k - 1) k)))) (s.hv.f (k - 1) i))) (by
      intro j t' h4 h5 h6
      obtain ⟨t'', e, h7, h8, h9⟩ := Tri.qtRow_ok h1 (show k < j by omega) h5 s
        (Flt.div Flt.one (Flt.mul (s.sec.f (k - 1)) (s.hv.f (k - 1) k))) t'
      have e' : ∀ y, t'.f j y = q.f j y := fun y => by rw [h6 j y (by omega), h3' j y (by omega)]
      simp only [e'] at h7 h8
      refine ⟨t'', e, fun i h10 h11 => ?_, h9⟩
      by_cases e : i = k
      · rw [if_pos e, e, h7]
      · rw [if_neg e, h8 i (by omega) h11, h3' j i (by omega)])
    refine ⟨t2, e2, fun h => absurd h ha, fun _ => ?_, fun _ i h6 h7 => ?_, fun _ j h6 h7 => ?_,
      fun _ j i h6 h7 h8 h9 => ?_, fun i j h6 => ?_⟩
    · rw [h5 k k (by omega), h3 k k (by omega), upd2_eq, if_pos ⟨rfl, rfl⟩]
    · rw [h5 k i (by omega), h2 i (by omega) h7]
    · rw [h4 j k (by omega) h7 le_rfl hk, if_pos rfl]
    · rw [h4 j i (by omega) h7 (by omega) h9, if_neg (by omega), h3' j i (by omega)]
    · rw [h5 i j (by omega), h3 i j (by omega), upd2_eq, if_neg (by omega), upd2_eq, if_neg (by omega)]

theorem Tri.qT_wp (hm : 0 < m) (s : Tri α m m) (I : Nat → (Nat → Nat → α) → Prop)
    (h0 : I m fun _ _ => Flt.zero)
    (hs : ∀ k q q', 1 ≤ k → k < m → I (k + 1) q →
      Tri.QStep m k (s.sec.f (k - 1)) (s.hv.f (k - 1)) q q' → I k q') :
    ∃ (M : Mat α m m) (q : Nat → Nat → α), s.qT = .ok ⟨m, m, M⟩ ∧ M.dense ∧
      Shows M.at m m (upd2 q 0 0 Flt.one) ∧ I 1 q := by
  unfold Tri.qT
  obtain ⟨q, e, h2⟩ := Wp.exists_ok (wp_forDown (E := fun _ : Fault => False) (b := 1) (a := m)
    (s := (Jag.zero m _ : Tab α m m)) (body := s.qtStep) (fun k (t : Tab α m m) => I k t.f) hm h0 (by
      intro k t h1 h2 h3
      obtain ⟨q', e, h4⟩ := Tri.qtStep_ok h1 h2 s t
      rw [e]
      exact hs k _ _ h1 h2 h3 h4))
  rw [e, ok_bind, Tab.set_ok hm hm, ok_bind]
  obtain ⟨M, e2, h3, h4⟩ := SMat.fromSlices_dense
    (Jag.toLists_rect (⟨upd2 q.f 0 0 Flt.one⟩ : Tab α m m)) hm hm false
  exact ⟨M, q.f, by rw [e2]; rfl, h3, h4, h2⟩

/-- The tridiagonal matrix, law-free. -/
def Tri.tEnt (d e : Nat → α) (i j : Nat) : α :=
  if i = j then d i else if i = j + 1 then e j else if j = i + 1 then e i else Flt.zero

theorem Tri.t_ok (hm : 0 < m) (s : Tri α m m) :
    ∃ M : Mat α m m, s.t = .ok ⟨m, m, M⟩ ∧ M.dense ∧ Shows M.at m m (Tri.tEnt s.main.f s.sec.f) := by
  unfold Tri.t
  obtain ⟨ta, e, h1⟩ := Wp.exists_ok (wp_forUp (E := fun _ : Fault => False) (a := 0) (b := m)
    (s := (Jag.zero m _ : Tab α m m)) (body := fun i (ta : Tab α m m) => do
      let ta ← ta.set i i (← s.main.get i)
      let ta ← if i > 0 then ta.set i (i - 1) (← s.sec.get (i - 1)) else pure ta
      if i < m - 1 then ta.set i (i + 1) (← s.sec.get i) else pure ta)
    (fun k (t : Tab α m m) => ∀ i j, i < m → j < m →
      t.f i j = if i < k then Tri.tEnt s.main.f s.sec.f i j else Flt.zero) (Nat.zero_le _)
    (by intro i j _ _; rw [if_neg (by omega)]; rfl) (by
    intro k t h1 h2 h3
    rw [Row.get_ok h2, ok_bind, Tab.set_ok h2 h2, ok_bind]
    by_cases e1 : k > 0
    · rw [if_pos e1, Row.get_ok (by omega), ok_bind, Tab.set_ok h2 (by omega), ok_bind]
      show Wp (if k < m - 1 then _ else _) _ _
      by_cases e2 : k < m - 1
      · rw [if_pos e2, Row.get_ok (by omega), ok_bind, Tab.set_ok h2 (by omega)]
        intro i j hi hj
        dsimp only
        rw [upd2_eq, upd2_eq, upd2_eq, h3 i j hi hj]
        unfold Tri.tEnt
        split_ifs <;> first | rfl | (exfalso; omega) | (congr 1; omega)
      · rw [if_neg e2]
        intro i j hi hj
        dsimp only
        rw [upd2_eq, upd2_eq, h3 i j hi hj]
        unfold Tri.tEnt
        split_ifs <;> first | rfl | (exfalso; omega) | (congr 1; omega)
    · rw [if_neg e1]
      show Wp (if k < m - 1 then _ else _) _ _
      by_cases e2 : k < m - 1
      · rw [if_pos e2, Row.get_ok (by omega), ok_bind, Tab.set_ok h2 (by omega)]
        intro i j hi hj
        dsimp only
        rw [upd2_eq, upd2_eq, h3 i j hi hj]
        unfold Tri.tEnt
        split_ifs <;> first | rfl | (exfalso; omega) | (congr 1; omega)
      · rw [if_neg e2]
        intro i j hi hj
        dsimp only
        rw [upd2_eq, h3 i j hi hj]
        unfold Tri.tEnt
        split_ifs <;> first | rfl | (exfalso; omega) | (congr 1; omega)))
  rw [e, ok_bind]
  obtain ⟨M, e2, h2, h3⟩ := SMat.fromSlices_dense (Jag.toLists_rect ta) hm hm false
  exact ⟨M, by rw [e2]; rfl, h2, h3.congr fun i j hi hj => by rw [h1 i j hi hj, if_pos hi]⟩

end free

section exact

variable {K : Type} [Field K] [LinearOrder K] [IsStrictOrderedRing K] [Flt K] [Exact K] [ExactSqrt K]
variable {m : Nat}

/-- A symmetric matrix reflected from both sides. -/
theorem hh_conj (m k : Nat) (v : Nat → K) (β : K) {S : Nat → Nat → K} (hS : ∀ i j, S i j = S j i) :
    hh m k v β * mx m m S * hh m k v β = mx m m fun i j => S i j +
      β * (∑ r ∈ Ico k m, v r * S r j) * tl k v i + β * (∑ r ∈ Ico k m, v r * S r i) * tl k v j +
      β * β * (∑ x ∈ Ico k m, (∑ r ∈ Ico k m, v r * S r x) * v x) * tl k v i * tl k v j := by
  rw [hh_mul, mul_hh]
  refine mx_congr fun i j hi hj => ?_
  have h1 : ∑ x ∈ Ico k m, (S i x + β * (∑ r ∈ Ico k m, v r * S r x) * tl k v i) * v x =
      ∑ r ∈ Ico k m, v r * S r i +
        β * tl k v i * ∑ x ∈ Ico k m, (∑ r ∈ Ico k m, v r * S r x) * v x := by
    rw [mul_sum, ← sum_add_distrib]
    refine sum_congr rfl fun x _ => ?_
    rw [hS i x]
    ring
  rw [h1]
  ring

theorem Tri.zv_exact {k : Nat} (β : K) (f : Nat → Nat → K) (v : Nat → K) {i : Nat} (hk : k < i) (hi : i < m) :
    Tri.zv m k β f v i = β * ∑ r ∈ Ico (k + 1) m, v r * symU f r i := by
  unfold Tri.zv
  rw [lsum_exact, lsum_exact, ← sum_Ico_consecutive _ (show k + 1 ≤ i by omega) (show i ≤ m by omega),
    sum_eq_sum_Ico_succ_bot hi]
  simp only [Exact.mul_eq, Exact.add_eq, Exact.zero_eq, zero_add]
  have h1 : ∑ r ∈ Ico (k + 1) i, v r * symU f r i = ∑ r ∈ Ico (k + 1) i, f r i * v r :=
    sum_congr rfl fun r hr => by
      have := mem_Ico.1 hr
      unfold symU
      rw [if_pos (by omega), mul_comm]
  have h2 : ∑ r ∈ Ico (i + 1) m, v r * symU f r i = ∑ r ∈ Ico (i + 1) m, f i r * v r :=
    sum_congr rfl fun r hr => by
      have := mem_Ico.1 hr
      unfold symU
      rw [if_neg (by omega), mul_comm]
  rw [h1, h2, show symU f i i = f i i from if_pos le_rfl]
  ring

theorem Tri.zz_exact {k : Nat} (β : K) (f : Nat → Nat → K) (v : Nat → K) {i : Nat} (hk : k < i) (hi : i < m) :
    Tri.zz m k β f v i = β * (∑ r ∈ Ico (k + 1) m, v r * symU f r i) -
      β * β / 2 * (∑ x ∈ Ico (k + 1) m, (∑ r ∈ Ico (k + 1) m, v r * symU f r x) * v x) * v i := by
  unfold Tri.zz
  rw [Tri.zv_exact β f v hk hi, lsum_exact]
  have h1 : ∑ i ∈ Ico (k + 1) m, Flt.mul (Tri.zv m k β f v i) (v i) =
      β * ∑ x ∈ Ico (k + 1) m, (∑ r ∈ Ico (k + 1) m, v r * symU f r x) * v x := by
    rw [mul_sum]
    refine sum_congr rfl fun x hx => ?_
    have := mem_Ico.1 hx
    rw [Tri.zv_exact β f v (by omega) (by omega), Exact.mul_eq]
    ring
  rw [h1]
  simp only [Exact.mul_eq, Exact.sub_eq, Exact.div_eq, Exact.zero_eq, Exact.two_eq]
  ring

/-- The factor of reflection `j`. -/
def Tri.beta (f : Nat → Nat → K) (e : Nat → K) (j : Nat) : K :=
  if f j (j + 1) = 0 then 0 else 1 / (e j * f j (j + 1))

/-- Reflection `j`. -/
def Tri.H (m : Nat) (f : Nat → Nat → K) (e : Nat → K) (j : Nat) : Matrix (Fin m) (Fin m) K :=
  hh m (j + 1) (f j) (Tri.beta f e j)

/-- The symmetric matrix after `k` rounds. -/
def Tri.M (f : Nat → Nat → K) (d e : Nat → K) (k : Nat) : Nat → Nat → K :=
  symU fun i j => if i < k then (if i = j then d i else if j = i + 1 then e i else 0) else f i j

/-- The state after `k` rounds of the reduction of `A`. -/
structure Tri.Inv (m : Nat) (A : Nat → Nat → K) (k : Nat) (f : Nat → Nat → K) (d e : Nat → K) : Prop where
  prod : mx m m (symU A) = hprod m (Tri.H m f e) k * mx m m (Tri.M f d e k) * (hprod m (Tri.H m f e) k)ᵀ
  refl : ∀ j, j < k → Tri.beta f e j = 0 ∨
    Tri.beta f e j * ∑ r ∈ Ico (j + 1) m, f j r * f j r = -2

theorem symU_ext {A B : Nat → Nat → K} (h : ∀ i j, i ≤ j → j < m → A i j = B i j) :
    mx m m (symU A) = mx m m (symU B) := by
  refine mx_congr fun i j hi hj => ?_
  unfold symU
  split
  · exact h i j ‹_› hj
  · exact h j i (by omega) hi

theorem Tri.Inv.step {k : Nat} {A f f' : Nat → Nat → K} {d e : Nat → K} (hI : Tri.Inv m A k f d e)
    (hk : k + 1 < m) (hs : Tri.Step m k f f' (hnorm (k + 1) m (f k))) :
    Tri.Inv m A (k + 1) f' (upd1 d k (f k k)) (upd1 e k (hnorm (k + 1) m (f k))) := by
  generalize hd' : upd1 d k (f k k) = d'
  generalize he' : upd1 e k (hnorm (k + 1) m (f k)) = e'
  have hd0 : ∀ j, j ≠ k → d' j = d j := fun j hj => by rw [← hd', upd1_eq, if_neg hj]
  have hdk : d' k = f k k := by rw [← hd', upd1_eq, if_pos rfl]
  have he0 : ∀ j, j ≠ k → e' j = e j := fun j hj => by rw [← he', upd1_eq, if_neg hj]
  have hek : e' k = hnorm (k + 1) m (f k) := by rw [← he', upd1_eq, if_pos rfl]
  have hf : ∀ j, j < k → f' j = f j := fun j hj => funext fun r => hs.other j r (.inl hj)
  have hb : ∀ j, j < k → Tri.beta f' e' j = Tri.beta f e j := fun j hj => by
    unfold Tri.beta; rw [hf j hj, he0 j (by omega)]
  have hH : ∀ j, j < k → Tri.H m f' e' j = Tri.H m f e j := fun j hj => by
    unfold Tri.H; rw [hf j hj, hb j hj]
  have key : (Tri.beta f' e' k = 0 ∨ Tri.beta f' e' k * ∑ r ∈ Ico (k + 1) m, f' k r * f' k r = -2) ∧
      Tri.H m f' e' k * mx m m (Tri.M f d e k) * Tri.H m f' e' k = mx m m (Tri.M f' d' e' (k + 1)) := by
    by_cases ha : hnorm (k + 1) m (f k) = 0
    · have h1 := hs.same (by simp [ha])
      subst h1
      have h3 := hnorm_zero ha le_rfl hk
      have hb0 : Tri.beta f' e' k = 0 := by unfold Tri.beta; rw [if_pos h3]
      refine ⟨.inl hb0, ?_⟩
      rw [Tri.H, hb0, hh_zero, Matrix.one_mul, Matrix.mul_one]
      refine symU_ext fun i j hi hj => ?_
      by_cases e1 : i < k
      · rw [if_pos e1, if_pos (show i < k + 1 by omega), hd0 i (by omega), he0 i (by omega)]
      · rw [if_neg e1]
        by_cases e2 : i = k
        · subst e2
          rw [if_pos (by omega), hdk, hek, ha]
          by_cases e3 : i = j
          · rw [if_pos e3, e3]
          · rw [if_neg e3, hnorm_zero ha (by omega) hj]
            split <;> rfl
        · rw [if_neg (by omega)]
    · have ha' : Flt.eq (hnorm (k + 1) m (f k)) Flt.zero = false := by simp [ha]
      have h1 : HV m (k + 1) (f k) (f' k) (hnorm (k + 1) m (f k)) :=
        ⟨hnorm_sq _ _ _, hnorm_sign _ _ _, ha, by rw [hs.head ha', Exact.sub_eq],
          fun r h1 _ => hs.row r (by omega)⟩
      have h3 := h1.head_ne
      have hb0 : Tri.beta f' e' k = 1 / (hnorm (k + 1) m (f k) * f' k (k + 1)) := by
        unfold Tri.beta; rw [if_neg h3, hek]
      refine ⟨.inr (by rw [hb0]; exact h1.beta hk), ?_⟩
      rw [Tri.H, hb0, hh_conj _ _ _ _ (fun i j => show Tri.M f d e k i j = _ from symU_symm _ i j)]
      have hg0 : ∀ i, i < k → ∑ r ∈ Ico (k + 1) m, f' k r * Tri.M f d e k r i = 0 := by
        intro i hi
        refine sum_eq_zero fun r hr => ?_
        have := mem_Ico.1 hr
        unfold Tri.M symU
        dsimp only
        rw [if_neg (by omega), if_pos hi, if_neg (by omega), if_neg (by omega), mul_zero]
      have hgk : ∑ r ∈ Ico (k + 1) m, f' k r * Tri.M f d e k r k = ∑ r ∈ Ico (k + 1) m, f' k r * f k r := by
        refine sum_congr rfl fun r hr => ?_
        have := mem_Ico.1 hr
        unfold Tri.M symU
        dsimp only
        rw [if_neg (by omega), if_neg (by omega)]
      have hg : ∀ i, k < i → ∑ r ∈ Ico (k + 1) m, f' k r * Tri.M f d e k r i =
          ∑ r ∈ Ico (k + 1) m, f' k r * symU f r i := by
        intro i hi
        refine sum_congr rfl fun r hr => ?_
        have := mem_Ico.1 hr
        unfold Tri.M symU
        dsimp only
        rw [if_neg (show ¬ r < k by omega), if_neg (show ¬ i < k by omega)]
      have hgg : ∑ x ∈ Ico (k + 1) m, (∑ r ∈ Ico (k + 1) m, f' k r * Tri.M f d e k r x) * f' k x =
          ∑ x ∈ Ico (k + 1) m, (∑ r ∈ Ico (k + 1) m, f' k r * symU f r x) * f' k x := by
        refine sum_congr rfl fun x hx => ?_
        rw [hg x (by have := mem_Ico.1 hx; omega)]
      have hM : ∀ i j, i ≤ j → Tri.M f d e k i j =
          if i < k then (if i = j then d i else if j = i + 1 then e i else 0) else f i j :=
        fun i j h => if_pos h
      have upper : ∀ i j, i ≤ j → j < m → Tri.M f d e k i j +
          1 / (hnorm (k + 1) m (f k) * f' k (k + 1)) *
            (∑ r ∈ Ico (k + 1) m, f' k r * Tri.M f d e k r j) * tl (k + 1) (f' k) i +
          1 / (hnorm (k + 1) m (f k) * f' k (k + 1)) *
            (∑ r ∈ Ico (k + 1) m, f' k r * Tri.M f d e k r i) * tl (k + 1) (f' k) j +
          1 / (hnorm (k + 1) m (f k) * f' k (k + 1)) * (1 / (hnorm (k + 1) m (f k) * f' k (k + 1))) *
            (∑ x ∈ Ico (k + 1) m, (∑ r ∈ Ico (k + 1) m, f' k r * Tri.M f d e k r x) * f' k x) *
            tl (k + 1) (f' k) i * tl (k + 1) (f' k) j =
          if i < k + 1 then (if i = j then d' i else if j = i + 1 then e' i else 0) else f' i j := by
        intro i j hi hj
        rw [hM i j hi]
        by_cases e1 : i < k
        · rw [hg0 i e1, if_pos e1, if_pos (show i < k + 1 by omega), hd0 i (by omega), he0 i (by omega), tl,
            if_neg (show ¬ k + 1 ≤ i by omega)]
          ring
        · rw [if_neg e1]
          by_cases e2 : i = k
          · subst e2
            rw [hgk, if_pos (show i < i + 1 by omega), show tl (i + 1) (f' i) i = 0 from if_neg (by omega)]
            have := h1.apply hk hj
            rw [show ∀ a b c d : K, a + b * 0 + c + d * 0 * tl (i + 1) (f' i) j = a + c by intros; ring, this,
              hdk, hek]
            by_cases e3 : i = j
            · rw [if_pos (by omega), if_pos e3, e3]
            · rw [if_neg (by omega), if_neg e3]
          · rw [if_neg (by omega), hs.upd ha' i j (by omega) hi hj, hgg, hg i (by omega), hg j (by omega),
              tl, tl, if_pos (show k + 1 ≤ i by omega), if_pos (show k + 1 ≤ j by omega),
              Tri.zz_exact _ _ _ (by omega) hj, Tri.zz_exact _ _ _ (by omega) (by omega)]
            generalize ∑ r ∈ Ico (k + 1) m, f' k r * symU f r i = gi
            generalize ∑ r ∈ Ico (k + 1) m, f' k r * symU f r j = gj
            generalize ∑ x ∈ Ico (k + 1) m, (∑ r ∈ Ico (k + 1) m, f' k r * symU f r x) * f' k x = G
            simp only [Exact.sub_eq, Exact.add_eq, Exact.mul_eq, Exact.div_eq, Exact.neg_eq, Exact.one_eq]
            rw [neg_div]
            generalize 1 / (hnorm (k + 1) m (f k) * f' k (k + 1)) = β
            ring
      refine mx_congr fun i j hi hj => ?_
      by_cases e1 : i ≤ j
      · rw [upper i j e1 hj]
        exact (if_pos e1).symm
      · have := upper j i (by omega) hi
        rw [show Tri.M f' d' e' (k + 1) i j = _ from if_neg e1, ← this,
          show Tri.M f d e k i j = Tri.M f d e k j i from symU_symm _ i j]
        ring
  obtain ⟨k1, k2⟩ := key
  have hsq : Tri.H m f' e' k * Tri.H m f' e' k = 1 := hh_sq k1
  refine ⟨?_, fun j hj => ?_⟩
  · rw [hprod, hprod_congr hH, ← k2, Matrix.transpose_mul, Tri.H, hh_transpose, ← Tri.H, hI.prod]
    generalize hprod m (Tri.H m f e) k = P
    generalize mx m m (Tri.M f d e k) = M
    generalize Tri.H m f' e' k = H at hsq
    calc P * M * Pᵀ = P * (H * H) * M * (H * H) * Pᵀ := by rw [hsq]; simp
      _ = P * H * (H * M * H) * (H * Pᵀ) := by simp only [Matrix.mul_assoc]
  · by_cases e : j = k
    · subst e; exact k1
    · rw [hb j (by omega), hf j (by omega)]; exact hI.refl j (by omega)

theorem Tri.Inv.init {A f : Nat → Nat → K} (d e : Nat → K) (h : ∀ i j, i < m → j < m → f i j = A i j) :
    Tri.Inv m A 0 f d e := by
  refine ⟨?_, by omega⟩
  rw [hprod, Matrix.one_mul, Matrix.transpose_one, Matrix.mul_one]
  refine symU_ext fun i j hi hj => ?_
  rw [if_neg (by omega), h i j (by omega) hj]

theorem Tri.Trace.inv {A f : Nat → Nat → K} {d e : Nat → K} {k : Nat} (h : Tri.Trace m A k f d e) :
    Tri.Inv m A k f d e := by
  induction h with
  | init h => exact Tri.Inv.init _ _ h
  | step _ hk hs ih => exact ih.step hk hs

theorem Tri.Inv.orth {k : Nat} {A f : Nat → Nat → K} {d e : Nat → K} (h : Tri.Inv m A k f d e) :
    hprod m (Tri.H m f e) k * (hprod m (Tri.H m f e) k)ᵀ = 1 :=
  hprod_orth (fun _ _ => hh_transpose _ _ _ _) fun j hj => hh_sq (h.refl j hj)

/-- One step of the accumulation adds one reflection. -/
theorem Tri.QStep.exact {k : Nat} {d : K} {v : Nat → K} {q q' : Nat → Nat → K}
    (h : Tri.QStep m k d v q q') (hk : k < m) (hq : ∀ i j, (i < k + 1 ∨ j < k + 1) → q i j = 0) :
    (∀ i j, (i < k ∨ j < k) → q' i j = 0) ∧
    mx m m (pad k q') = mx m m (pad (k + 1) q) *
      hh m k v (if v k = 0 then 0 else 1 / (d * v k)) := by
  refine ⟨fun i j hij => by rw [h.other i j hij, hq i j (by omega)], pad_mul ?_⟩
  intro i j h1 h2 h3 h4
  by_cases e : v k = 0
  · rw [if_pos e, h.skip (by simp [e]), upd2_eq]
    by_cases e' : i = k ∧ j = k
    · rw [if_pos e', pad_lo (by omega), if_pos (by omega), Exact.one_eq]; ring
    · rw [if_neg e']
      by_cases e' : i < k + 1 ∨ j < k + 1
      · rw [pad_lo e', hq i j e', if_neg (by omega)]; ring
      · rw [pad_hi (by omega) (by omega)]; ring
  · have e0 : Flt.eq (v k) Flt.zero = false := by simp [e]
    rw [if_neg e]
    by_cases hi : i = k
    · subst hi
      have : ∑ x ∈ Ico i m, pad (i + 1) q i x * v x = v i := by
        rw [sum_eq_single i]
        · rw [pad_lo (by omega), if_pos rfl, one_mul]
        · intro x _ hx
          rw [pad_lo (by omega), if_neg (by omega), zero_mul]
        · intro hx
          exact absurd (mem_Ico.2 ⟨le_rfl, hk⟩) hx
      rw [this, show 1 / (d * v i) * v i = 1 / d by
        rw [mul_comm d, ← div_div, div_mul_eq_mul_div, div_mul_cancel₀ _ e], pad_lo (by omega)]
      by_cases hj : j = i
      · subst hj
        rw [if_pos rfl, h.diag e0]
        simp only [Exact.add_eq, Exact.mul_eq, Exact.div_eq, Exact.one_eq]
      · rw [if_neg (Ne.symm hj), h.row e0 j (by omega) h4]
        simp only [Exact.mul_eq, Exact.div_eq, Exact.one_eq, zero_add]
    · have : ∑ x ∈ Ico k m, pad (k + 1) q i x * v x = ∑ x ∈ Ico (k + 1) m, q i x * v x := by
        rw [sum_eq_sum_Ico_succ_bot hk, pad_lo (by omega), if_neg hi, zero_mul, zero_add]
        refine sum_congr rfl fun x hx => ?_
        rw [pad_hi (by omega) (mem_Ico.1 hx).1]
      rw [this]
      by_cases hj : j = k
      · subst hj
        rw [h.col e0 i (by omega) h2, pad_lo (by omega), if_neg hi, lsum_exact]
        simp only [Exact.mul_eq, Exact.div_eq, Exact.one_eq, Exact.zero_eq]
        ring
      · rw [h.rest e0 i j (by omega) h2 (by omega) h4, pad_hi (by omega) (by omega), lsum_exact]
        simp only [Exact.add_eq, Exact.mul_eq, Exact.div_eq, Exact.one_eq, Exact.zero_eq]
        ring

/-- `QT` is the transpose of the product of the reflections. -/
theorem Tri.qT_exact (hm : 0 < m) (s : Tri K m m) :
    ∃ (M : Mat K m m) (q : Nat → Nat → K), s.qT = .ok ⟨m, m, M⟩ ∧ M.dense ∧ Shows M.at m m q ∧
      mx m m q = (hprod m (Tri.H m s.hv.f s.sec.f) (m - 1))ᵀ := by
  obtain ⟨M, q, e, h1, h2, h4, h3⟩ := Tri.qT_wp hm s (fun k q =>
    (∀ i j, (i < k ∨ j < k) → q i j = 0) ∧
    mx m m (pad k q) = (hfrom m (Tri.H m s.hv.f s.sec.f) (k - 1) (m - 1))ᵀ) (by
      refine ⟨fun i j _ => Exact.zero_eq, ?_⟩
      rw [hfrom_self, Matrix.transpose_one, ← mx_one]
      exact mx_congr fun i j hi hj => pad_lo (.inl hi)) (by
      rintro k q q' hk hkm ⟨hI, hI'⟩ hs
      obtain ⟨h1, h2⟩ := hs.exact hkm hI
      refine ⟨h1, ?_⟩
      rw [h2, hI', Nat.add_sub_cancel, hfrom_step _ (show k - 1 < m - 1 by omega), Matrix.transpose_mul,
        Nat.sub_add_cancel hk]
      congr 1
      rw [Tri.H, hh_transpose, Tri.beta, Nat.sub_add_cancel hk])
  refine ⟨M, _, e, h1, h2, ?_⟩
  rw [hfrom_zero] at h3
  rw [← h3]
  refine mx_congr fun i j hi hj => ?_
  rw [upd2_eq]
  by_cases e : i = 0 ∧ j = 0
  · rw [if_pos e, pad_lo (by omega), if_pos (by omega), Exact.one_eq]
  · rw [if_neg e]
    by_cases e' : i < 1 ∨ j < 1
    · rw [pad_lo e', h4 i j e', if_neg (by omega)]
    · rw [pad_hi (by omega) (by omega)]

end exact

end Linear
