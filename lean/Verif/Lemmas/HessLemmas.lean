import Verif.Model.Hess
import Verif.Lemmas.BiLemmas

/-!
# Lemmas on the Hessenberg reduction
-/

set_option linter.unusedSectionVars false

namespace Linear

open Spec Finset Matrix

section free

variable {α : Type} [Flt α] {m : Nat}

/-- The sum from term `b - 1` down to term `a`. -/
def dsum (b a : Nat) (g : Nat → α) (s : α) : α :=
  (List.range' a (b - a)).reverse.foldl (fun s i => Flt.add s (g i)) s

theorem dsum_self {a b : Nat} (h : b ≤ a) (g : Nat → α) (s : α) : dsum b a g s = s := by
  unfold dsum; rw [Nat.sub_eq_zero_of_le h]; rfl

theorem dsum_low {a b : Nat} (h : a < b) (g : Nat → α) (s : α) :
    dsum b a g s = Flt.add (dsum b (a + 1) g s) (g a) := by
  unfold dsum
  rw [show b - a = (b - (a + 1)) + 1 by omega, List.range'_succ, List.reverse_cons, List.foldl_append]
  rfl

theorem sumDown_ok {ε : Type} {a b : Nat} {term : Nat → Except ε α} {s : α} (g : Nat → α)
    (h : ∀ i, a ≤ i → i < b → term i = .ok (g i)) :
    sumDown b a term s = .ok (dsum b a g s) := by
  by_cases hab : a ≤ b
  · unfold sumDown
    obtain ⟨x, e, hx⟩ := Wp.exists_ok (wp_forDown (E := fun _ : ε => False) (s := s)
      (body := fun i s => do return Flt.add s (← term i))
      (fun k x => x = dsum b k g s) hab (dsum_self le_rfl _ _).symm (by
        rintro i x h1 h2 rfl
        rw [h i h1 h2]
        show _ = _
        rw [dsum_low h2]))
    rw [e, hx]
  · unfold sumDown
    rw [forDown_eq_self (by omega), dsum_self (by omega)]

theorem dsum_congr {a b : Nat} {g g' : Nat → α} {s : α} (h : ∀ i, a ≤ i → i < b → g i = g' i) :
    dsum b a g s = dsum b a g' s := by
  have h1 := sumDown_ok (ε := Unit) (a := a) (b := b) (term := fun i => .ok (g i)) (s := s) g
    fun _ _ _ => rfl
  have h2 := sumDown_ok (ε := Unit) (a := a) (b := b) (term := fun i => .ok (g i)) (s := s) g'
    fun i hi hi' => by rw [h i hi hi']
  rw [h1] at h2
  exact Except.ok.inj h2

theorem Hess.column_ok {k : Nat} (hk : 1 ≤ k) (hkm : k < m) (scale : α) (t : Tab α m m) (ort : Row α m) :
    ∃ o : Row α m, Hess.column k scale t ort =
      .ok (dsum m k (fun i => Flt.mul (Flt.div (t.f i (k - 1)) scale) (Flt.div (t.f i (k - 1)) scale))
        Flt.zero, o) ∧ (∀ i, k ≤ i → i < m → o.f i = Flt.div (t.f i (k - 1)) scale) ∧
      ∀ i, i < k → o.f i = ort.f i := by
  unfold Hess.column
  obtain ⟨x, e, h1, h2, h3⟩ := Wp.exists_ok (wp_forDown (E := fun _ : Fault => False) (a := m) (b := k)
    (s := (Flt.zero, ort)) (body := fun i (s : α × Row α m) => do
      let ort ← s.2.set i (Flt.div (← t.get i (k - 1)) scale)
      return (Flt.add s.1 (Flt.mul (← ort.get i) (← ort.get i)), ort))
    (fun j (s : α × Row α m) =>
      s.1 = dsum m j (fun i => Flt.mul (Flt.div (t.f i (k - 1)) scale) (Flt.div (t.f i (k - 1)) scale))
        Flt.zero ∧ (∀ i, j ≤ i → i < m → s.2.f i = Flt.div (t.f i (k - 1)) scale) ∧
      ∀ i, i < j → s.2.f i = ort.f i) (by omega)
    (And.intro (dsum_self le_rfl _ _).symm ⟨fun i _ _ => by omega, fun _ _ => rfl⟩) (by
      rintro i s h1 h2 ⟨h3, h4, h5⟩
      rw [Tab.get_ok h2 (by omega), ok_bind, Row.set_ok h2, ok_bind, Row.get_ok h2, ok_bind]
      refine ⟨?_, fun x hx hx' => ?_, fun x hx => ?_⟩
      · dsimp only
        rw [upd1_eq, if_pos rfl, dsum_low h2, h3]
      · dsimp only
        rw [upd1_eq]
        by_cases e : x = i
        · rw [if_pos e, e]
        · rw [if_neg e, h4 x (by omega) hx']
      · dsimp only
        rw [upd1_eq, if_neg (by omega), h5 x (by omega)]))
  refine ⟨x.2, ?_, h2, h3⟩
  rw [e, ← h1]

theorem Hess.leftCol_ok {k j : Nat} (hj : j < m) (h : α) (o : Row α m) (t : Tab α m m) :
    ∃ t' : Tab α m m, Hess.leftCol k h o j t = .ok t' ∧
      (∀ i, k ≤ i → i < m → t'.f i j = Flt.sub (t.f i j) (Flt.mul
        (Flt.div (dsum m k (fun x => Flt.mul (o.f x) (t.f x j)) Flt.zero) h) (o.f i))) ∧
      ∀ x y, ¬ (y = j ∧ k ≤ x ∧ x < m) → t'.f x y = t.f x y := by
  unfold Hess.leftCol
  rw [sumDown_ok (fun x => Flt.mul (o.f x) (t.f x j)) fun i h1 h2 => by
    rw [Row.get_ok h2, ok_bind, Tab.get_ok h2 hj]; rfl, ok_bind]
  refine Tab.colLoop (fun i v => Flt.sub v (Flt.mul
        (Flt.div (dsum m k (fun x => Flt.mul (o.f x) (t.f x j)) Flt.zero) h) (o.f i))) (fun i t' h1 h2 h3 => ?_)
  rw [Tab.get_ok h2 hj, ok_bind, Row.get_ok h2, ok_bind, Tab.set_ok h2 hj, h3 i j (by omega)]

theorem Hess.rightRow_ok {k i : Nat} (hi : i < m) (h : α) (o : Row α m) (t : Tab α m m) :
    ∃ t' : Tab α m m, Hess.rightRow k h o i t = .ok t' ∧
      (∀ j, k ≤ j → j < m → t'.f i j = Flt.sub (t.f i j) (Flt.mul
        (Flt.div (dsum m k (fun x => Flt.mul (o.f x) (t.f i x)) Flt.zero) h) (o.f j))) ∧
      ∀ x y, ¬ (x = i ∧ k ≤ y ∧ y < m) → t'.f x y = t.f x y := by
  unfold Hess.rightRow
  rw [sumDown_ok (fun x => Flt.mul (o.f x) (t.f i x)) fun j h1 h2 => by
    rw [Row.get_ok h2, ok_bind, Tab.get_ok hi h2]; rfl, ok_bind]
  refine Tab.rowLoop (fun j v => Flt.sub v (Flt.mul
        (Flt.div (dsum m k (fun x => Flt.mul (o.f x) (t.f i x)) Flt.zero) h) (o.f j))) (fun j t' h1 h2 h3 => ?_)
  rw [Tab.get_ok hi h2, ok_bind, Row.get_ok h2, ok_bind, Tab.set_ok hi h2, h3 i j (by omega)]

/-- What the two-sided reflection does to the table. -/
structure Hess.Refl (m k : Nat) (scale g h : α) (o : Nat → α) (f f1 f' : Nat → Nat → α) : Prop where
  left : ∀ i j, k ≤ i → i < m → k ≤ j → j < m → f1 i j = Flt.sub (f i j) (Flt.mul
    (Flt.div (dsum m k (fun x => Flt.mul (o x) (f x j)) Flt.zero) h) (o i))
  left' : ∀ i j, (i < k ∨ j < k) → f1 i j = f i j
  right : ∀ i j, i < m → k ≤ j → j < m → f' i j = Flt.sub (f1 i j) (Flt.mul
    (Flt.div (dsum m k (fun x => Flt.mul (o x) (f1 i x)) Flt.zero) h) (o j))
  head : f' k (k - 1) = Flt.mul scale g
  right' : ∀ i j, j < k → ¬ (i = k ∧ j = k - 1) → f' i j = f1 i j

theorem Hess.reflect_ok {k : Nat} (hk : 1 ≤ k) (hkm : k < m) (scale g h : α) (o : Row α m) (t : Tab α m m) :
    ∃ (s : Hess α m m) (f1 : Nat → Nat → α), Hess.reflect k scale g h o t = .ok s ∧
      s.ort.f = upd1 o.f k (Flt.mul scale (o.f k)) ∧
      Hess.Refl m k scale g h o.f t.f f1 s.hv.f := by
  unfold Hess.reflect
  obtain ⟨t1, e1, h1, h2⟩ := Tab.colsLoop (ε := Fault) (r := m) (c := m) (a := k) (b := m) (p := k)
    (q := m) (t := t) (body := Hess.leftCol k h o)
    (fun i j v => Flt.sub v (Flt.mul
        (Flt.div (dsum m k (fun x => Flt.mul (o.f x) (t.f x j)) Flt.zero) h) (o.f i))) (by
    intro j t' h1 h2 h3
    obtain ⟨t'', e, h4, h5⟩ := Hess.leftCol_ok (k := k) h2 h o t'
    refine ⟨t'', e, fun i h6 h7 => ?_, h5⟩
    rw [h4 i h6 h7, h3 i j (by omega)]
    simp only [fun x => h3 x j (by omega)])
  rw [e1, ok_bind]
  obtain ⟨t2, e2, h3, h4⟩ := Tab.rowsLoop (ε := Fault) (r := m) (c := m) (a := 0) (b := m) (p := k)
    (q := m) (t := t1) (body := Hess.rightRow k h o)
    (fun i j v => Flt.sub v (Flt.mul
        (Flt.div (dsum m k (fun x => Flt.mul (o.f x) (t1.f i x)) Flt.zero) h) (o.f j))) (by
    intro i t' h1 h2 h3
    obtain ⟨t'', e, h4, h5⟩ := Hess.rightRow_ok (k := k) h2 h o t'
    refine ⟨t'', e, fun j h6 h7 => ?_, h5⟩
    rw [h4 j h6 h7, h3 i j (by omega)]
    simp only [fun x => h3 i x (by omega)])
  rw [e2, ok_bind, Row.get_ok hkm, ok_bind, Row.set_ok hkm, ok_bind, Tab.set_ok hkm (by omega), ok_bind]
  refine ⟨_, t1.f, rfl, rfl, fun i j h5 h6 h7 h8 => h1 i j h7 h8 h5 h6, fun i j h5 => h2 i j (by omega),
    fun i j h5 h6 h7 => ?_, ?_, fun i j h5 h6 => ?_⟩
  · dsimp only
    rw [upd2_eq, if_neg (by omega), h3 i j (by omega) h5 h6 h7]
  · dsimp only
    rw [upd2_eq, if_pos ⟨rfl, rfl⟩]
  · dsimp only
    rw [upd2_eq, if_neg h6, h4 i j (by omega)]

/-- One round. -/
inductive Hess.Step (m k : Nat) (f f' : Nat → Nat → α) (o o' : Nat → α) : Prop
  | skip (scale : α) (hs : scale = lsum k m (fun i => Flt.abs (f i (k - 1))) Flt.zero)
      (h0 : Flt.ulpEq scale Flt.zero = true) (hf : f' = f) (ho : o' = o)
  | refl (scale h0 : α) (u : Nat → α) (f1 : Nat → Nat → α)
      (hs : scale = lsum k m (fun i => Flt.abs (f i (k - 1))) Flt.zero)
      (hne : Flt.ulpEq scale Flt.zero = false)
      (hh : h0 = dsum m k (fun i => Flt.mul (Flt.div (f i (k - 1)) scale) (Flt.div (f i (k - 1)) scale))
        Flt.zero)
      (hu : ∀ i, k < i → i < m → u i = Flt.div (f i (k - 1)) scale)
      (huk : u k = Flt.sub (Flt.div (f k (k - 1)) scale)
        (Hess.sign (Flt.div (f k (k - 1)) scale) h0))
      (hr : Hess.Refl m k scale (Hess.sign (Flt.div (f k (k - 1)) scale) h0)
        (Flt.sub h0 (Flt.mul (Flt.div (f k (k - 1)) scale)
          (Hess.sign (Flt.div (f k (k - 1)) scale) h0))) u f f1 f')
      (hok : o' k = Flt.mul scale (u k)) (ho : ∀ i, i < k → o' i = o i)

theorem Hess.step_ok {k : Nat} (hk : 1 ≤ k) (hkm : k < m) (s : Hess α m m) :
    ∃ s', Hess.step k s = .ok s' ∧ Hess.Step m k s.hv.f s'.hv.f s.ort.f s'.ort.f := by
  unfold Hess.step
  rw [sumUp_ok (fun i => Flt.abs (s.hv.f i (k - 1))) fun i h1 h2 => by
    rw [Tab.get_ok h2 (by omega)]; rfl, ok_bind]
  by_cases h0 : Flt.ulpEq (lsum k m (fun i => Flt.abs (s.hv.f i (k - 1))) Flt.zero) Flt.zero = true
  · rw [if_neg (by simp [h0])]
    exact ⟨s, rfl, .skip _ rfl h0 rfl rfl⟩
  · rw [if_pos (by simp [h0])]
    obtain ⟨o, e, h1, h2⟩ := Hess.column_ok hk hkm
      (lsum k m (fun i => Flt.abs (s.hv.f i (k - 1))) Flt.zero) s.hv s.ort
    rw [e, ok_bind]
    dsimp only
    rw [Row.get_ok hkm, ok_bind, h1 k le_rfl hkm]
    unfold Hess.apply
    rw [Row.get_ok hkm, ok_bind, Row.set_ok hkm, ok_bind, h1 k le_rfl hkm]
    obtain ⟨s', f1, e', h3, h4⟩ := Hess.reflect_ok hk hkm
      (lsum k m (fun i => Flt.abs (s.hv.f i (k - 1))) Flt.zero) _ _ _ s.hv
    refine ⟨s', e', .refl _ _ _ f1 rfl (by simpa using h0) rfl ?_ ?_ h4 ?_ ?_⟩
    · intro i hi hi'
      dsimp only
      rw [upd1_eq, if_neg (by omega), h1 i (by omega) hi']
    · dsimp only
      rw [upd1_eq, if_pos rfl]
    · rw [h3, upd1_eq, if_pos rfl]
    · intro i hi
      rw [h3]
      dsimp only
      rw [upd1_eq, if_neg (by omega), upd1_eq, if_neg (by omega), h2 i hi]

theorem Hess.new_wp' [ZeroLaws α] {a : Mat α m m} (ha : a.own) (hm : 0 < m)
    {A : Nat → Nat → α} (hA : Shows a.at m m A) (I : Nat → (Nat → Nat → α) → (Nat → α) → Prop)
    (h0 : ∀ f o, (∀ i j, i < m → j < m → f i j = A i j) → (∀ i, o i = Flt.zero) → I 1 f o)
    (hs : ∀ k f f' o o', 1 ≤ k → k + 1 < m → I k f o → Hess.Step m k f f' o o' → I (k + 1) f' o') :
    ∃ s, Hess.new a = .ok s ∧ I (max 1 (m - 1)) s.hv.f s.ort.f := by
  obtain ⟨t, e2, h1⟩ := Mat.dataCopy_ok ha hm hA
  unfold Hess.new
  rw [Mat.isSquare_ok hm, ok_bind, if_neg (by simp)]
  show ∃ s, (a.dataCopy >>= _ : Res (Hess α m m)) = _ ∧ _
  rw [e2, ok_bind]
  by_cases h2 : 1 ≤ m - 1
  · rw [show max 1 (m - 1) = m - 1 by omega]
    refine Wp.exists_ok (wp_forUp (E := fun _ : Fault => False)
      (fun k (s : Hess α m m) => I k s.hv.f s.ort.f) h2 (h0 _ _ h1 fun _ => rfl) ?_)
    intro k s hk hk' h
    obtain ⟨s', e, hr⟩ := Hess.step_ok hk (show k < m by omega) s
    rw [e]
    exact hs _ _ _ _ _ hk (by omega) h hr
  · rw [show max 1 (m - 1) = 1 by omega, forUp_eq_self (by omega)]
    exact ⟨_, rfl, h0 _ _ h1 fun _ => rfl⟩

theorem Hess.new_wp [ZeroLaws α] {a : Mat α m m} (ha : a.own) (hm : 0 < m)
    {A : Nat → Nat → α} (hA : Shows a.at m m A) (I : Nat → (Nat → Nat → α) → (Nat → α) → Prop)
    (h0 : ∀ f o, (∀ i j, i < m → j < m → f i j = A i j) → I 1 f o)
    (hs : ∀ k f f' o o', 1 ≤ k → k + 1 < m → I k f o → Hess.Step m k f f' o o' → I (k + 1) f' o') :
    ∃ s, Hess.new a = .ok s ∧ I (max 1 (m - 1)) s.hv.f s.ort.f :=
  Hess.new_wp' ha hm hA I (fun f o h _ => h0 f o h) hs

/-! ## `P` -/

/-- One round of the accumulation of `P`. -/
structure Hess.PStep (m k : Nat) (f : Nat → Nat → α) (o o' : Nat → α) (p p' : Nat → Nat → α) : Prop where
  skip : Flt.eq (f k (k - 1)) Flt.zero = true → p' = p
  ort : ∀ i, i ≤ k → o' i = o i
  ortf : Flt.eq (f k (k - 1)) Flt.zero = false → ∀ i, k < i → i < m → o' i = f i (k - 1)
  cols : Flt.eq (f k (k - 1)) Flt.zero = false → ∀ i j, k ≤ i → i < m → k ≤ j → j < m → p' i j =
    Flt.add (p i j) (Flt.mul (Flt.div (Flt.div
      (lsum k m (fun x => Flt.mul (o' x) (p x j)) Flt.zero) (o' k)) (f k (k - 1))) (o' i))
  other : ∀ i j, (i < k ∨ j < k) → p' i j = p i j

theorem Hess.pStep_ok {k : Nat} (hk : 1 ≤ k) (hkm : k < m) (s : Hess α m m) (x : Row α m × Tab α m m) :
    ∃ x', s.pStep k x = .ok x' ∧ Hess.PStep m k s.hv.f x.1.f x'.1.f x.2.f x'.2.f := by
  unfold Hess.pStep
  rw [Tab.get_ok hkm (by omega), ok_bind]
  by_cases h0 : Flt.eq (s.hv.f k (k - 1)) Flt.zero = true
  · rw [if_neg (by simp [h0])]
    exact ⟨x, rfl, fun _ => rfl, fun _ _ => rfl, fun h => by simp [h0] at h, fun h => by simp [h0] at h,
      fun _ _ _ => rfl⟩
  · rw [if_pos (by simp [h0])]
    obtain ⟨o, e, h1, h2⟩ := Row.loop (ε := Fault) (n := m) (a := k + 1) (b := m) (t := x.1)
      (fun i _ => s.hv.f i (k - 1))
      (body := fun i (o : Row α m) => do o.set i (← s.hv.get i (k - 1))) (by
      intro i t' h1 h2 _
      rw [Tab.get_ok h2 (by omega), ok_bind, Row.set_ok h2])
    rw [e, ok_bind]
    obtain ⟨t2, e2, h3, h4⟩ := Tab.colsLoop (ε := Fault) (r := m) (c := m) (a := k) (b := m) (p := k)
      (q := m) (t := x.2) (body := s.pCol k o)
      (fun i j v => Flt.add v (Flt.mul (Flt.div (Flt.div
        (lsum k m (fun y => Flt.mul (o.f y) (x.2.f y j)) Flt.zero) (o.f k)) (s.hv.f k (k - 1))) (o.f i))) (by
      intro j t' h1 h2 h3
      unfold Hess.pCol
      rw [sumUp_ok (fun y => Flt.mul (o.f y) (x.2.f y j)) fun i h4 h5 => by
        rw [Row.get_ok h5, ok_bind, Tab.get_ok h5 h2, h3 i j (by omega)]; rfl, ok_bind, Row.get_ok hkm,
        ok_bind, Tab.get_ok hkm (by omega), ok_bind]
      obtain ⟨t'', e, h4, h5⟩ := Tab.colLoop (ε := Fault) (r := m) (c := m) (a := k) (b := m) (j := j)
        (t := t') (fun i v => Flt.add v (Flt.mul (Flt.div (Flt.div
          (lsum k m (fun y => Flt.mul (o.f y) (x.2.f y j)) Flt.zero) (o.f k)) (s.hv.f k (k - 1))) (o.f i)))
        (body := fun i (p : Tab α m m) => do
          p.set i j (Flt.add (← p.get i j) (Flt.mul (Flt.div (Flt.div
            (lsum k m (fun y => Flt.mul (o.f y) (x.2.f y j)) Flt.zero) (o.f k)) (s.hv.f k (k - 1)))
            (← o.get i)))) (by
        intro i t'' h4 h5 h6
        rw [Tab.get_ok h5 h2, ok_bind, Row.get_ok h5, ok_bind, Tab.set_ok h5 h2, h6 i j (by omega)])
      refine ⟨t'', e, fun i h6 h7 => ?_, h5⟩
      rw [h4 i h6 h7, h3 i j (by omega)])
    rw [e2]
    exact ⟨(o, t2), rfl, fun h => absurd h h0, fun i hi => h2 i (by omega),
      fun _ i h5 h6 => h1 i (by omega) h6,
      fun _ i j h5 h6 h7 h8 => h3 i j h7 h8 h5 h6, fun i j h5 => h4 i j (by omega)⟩

theorem Hess.p_wp (hm : 0 < m) (s : Hess α m m) (I : Nat → (Nat → α) → (Nat → Nat → α) → Prop)
    (h0 : ∀ p, (∀ i j, i < m → j < m → p i j = if i = j then Flt.one else Flt.zero) →
      I (m - 1) s.ort.f p)
    (hs : ∀ k o o' p p', 1 ≤ k → k + 1 < m → I (k + 1) o p → Hess.PStep m k s.hv.f o o' p p' → I k o' p') :
    ∃ (M : Mat α m m) (o : Nat → α) (p : Nat → Nat → α), s.p = .ok ⟨m, m, M⟩ ∧ M.dense ∧
      Shows M.at m m p ∧ I (min 1 (m - 1)) o p := by
  unfold Hess.p
  obtain ⟨p, e, h1, h2⟩ := Tab.rowsLoop (ε := Fault) (r := m) (c := m) (a := 0) (b := m) (p := 0)
    (q := m) (t := (Jag.zero m _ : Tab α m m)) (fun i j _ => if i = j then Flt.one else Flt.zero)
    (body := fun i (p : Tab α m m) =>
      forUp 0 m (fun j (p : Tab α m m) => if i = j then p.set i j Flt.one else pure p) p) (by
    intro i t' h1 h2 h3
    obtain ⟨t'', e, h4⟩ := Wp.exists_ok (wp_forUp (E := fun _ : Fault => False) (a := 0) (b := m) (s := t')
      (body := fun j (p : Tab α m m) => if i = j then p.set i j Flt.one else pure p)
      (fun k (t : Tab α m m) => (∀ j, t.f i j = if j < k ∧ i = j then Flt.one else t'.f i j) ∧
        ∀ x y, x ≠ i → t.f x y = t'.f x y) (Nat.zero_le _)
      (And.intro (fun j => by rw [if_neg (by omega)]) fun _ _ _ => rfl) (by
      rintro j t _ hj ⟨h4, h5⟩
      by_cases e : i = j
      · rw [if_pos e, Tab.set_ok h2 hj]
        refine ⟨fun y => ?_, fun x y hx => ?_⟩
        · dsimp only
          rw [upd2_eq, h4 y]
          split_ifs <;> first | rfl | (exfalso; omega)
        · dsimp only
          rw [upd2_eq, if_neg (by omega), h5 x y hx]
      · rw [if_neg e]
        refine ⟨fun y => ?_, h5⟩
        rw [h4 y]
        exact if_congr (by omega) rfl rfl))
    refine ⟨t'', e, fun j h6 h7 => ?_, fun x y hxy => ?_⟩
    · rw [h4.1 j]
      by_cases e : i = j
      · rw [if_pos ⟨h7, e⟩, if_pos e]
      · rw [if_neg (by omega), if_neg e, h3 i j (by omega)]
        rfl
    · by_cases e : x = i
      · subst e
        rw [h4.1 y]
        exact if_neg (by omega)
      · exact h4.2 x y e)
  rw [e, ok_bind]
  by_cases hm1 : 1 ≤ m - 1
  · obtain ⟨x, e2, h3⟩ := Wp.exists_ok (wp_forDown (E := fun _ : Fault => False) (a := m - 1) (b := 1)
      (s := (s.ort, p)) (body := s.pStep) (fun k (x : Row α m × Tab α m m) => I k x.1.f x.2.f) hm1
      (h0 _ fun i j hi hj => h1 i j (by omega) hi (by omega) hj) (by
      intro k x hk hk' h
      obtain ⟨x', e, hp⟩ := Hess.pStep_ok hk (show k < m by omega) s x
      rw [e]
      exact hs _ _ _ _ _ hk (by omega) h hp))
    rw [e2, ok_bind]
    obtain ⟨M, e3, h4, h5⟩ := SMat.fromSlices_dense (Jag.toLists_rect x.2) hm hm false
    refine ⟨M, x.1.f, x.2.f, by rw [e3]; rfl, h4, h5, ?_⟩
    rw [show min 1 (m - 1) = 1 by omega]
    exact h3
  · rw [forDown_eq_self (by omega), ok_bind]
    obtain ⟨M, e3, h4, h5⟩ := SMat.fromSlices_dense (Jag.toLists_rect p) hm hm false
    refine ⟨M, s.ort.f, p.f, by rw [e3]; rfl, h4, h5, ?_⟩
    rw [show min 1 (m - 1) = m - 1 by omega]
    exact h0 _ fun i j hi hj => h1 i j (by omega) hi (by omega) hj

/-! ## `H` -/

/-- The Hessenberg matrix, law-free. -/
def Hess.hEnt (f : Nat → Nat → α) (i j : Nat) : α := if i ≤ j + 1 then f i j else Flt.zero

theorem Hess.h_ok (hm : 0 < m) (s : Hess α m m) :
    ∃ M : Mat α m m, s.h = .ok ⟨m, m, M⟩ ∧ M.dense ∧ Shows M.at m m (Hess.hEnt s.hv.f) := by
  unfold Hess.h
  obtain ⟨ta, e, h1, h2⟩ := Tab.rowsLoop (ε := Fault) (r := m) (c := m) (a := 0) (b := m) (p := 0)
    (q := m) (t := (Jag.zero m _ : Tab α m m)) (fun i j _ => Hess.hEnt s.hv.f i j)
    (body := s.hRow) (by
    intro i t' h1 h2 h3
    have key : ∀ t0 : Tab α m m, (∀ j, t0.f i j = if i = j + 1 then s.hv.f i j else t'.f i j) →
        (∀ x y, x ≠ i → t0.f x y = t'.f x y) →
        ∃ t'' : Tab α m m, (forUp i m (fun j (h : Tab α m m) => do h.set i j (← s.hv.get i j)) t0 :
            Res (Tab α m m)) = .ok t'' ∧
          (∀ j, 0 ≤ j → j < m → t''.f i j = Hess.hEnt s.hv.f i j) ∧
          ∀ x y, ¬ (x = i ∧ 0 ≤ y ∧ y < m) → t''.f x y = t'.f x y := by
      intro t0 g1 g2
      obtain ⟨t'', e, h4, h5⟩ := Tab.rowLoop (ε := Fault) (r := m) (c := m) (a := i) (b := m) (i := i)
        (t := t0) (fun j _ => s.hv.f i j)
        (body := fun j (h : Tab α m m) => do h.set i j (← s.hv.get i j)) (by
        intro j t' h3 h4 _
        rw [Tab.get_ok h2 h4, ok_bind, Tab.set_ok h2 h4])
      refine ⟨t'', e, fun j h6 h7 => ?_, fun x y hxy => ?_⟩
      · unfold Hess.hEnt
        by_cases e : i ≤ j
        · rw [h4 j e h7, if_pos (by omega)]
        · rw [h5 i j (by omega), g1 j]
          by_cases e' : i = j + 1
          · rw [if_pos e', if_pos (by omega)]
          · rw [if_neg e', if_neg (by omega), h3 i j (by omega)]
            rfl
      · by_cases e : x = i
        · rw [h5 x y (by omega), e, g1 y, if_neg (by omega)]
        · rw [h5 x y (by omega), g2 x y e]
    unfold Hess.hRow
    by_cases hi : i > 0
    · rw [if_pos hi, Tab.get_ok h2 (by omega), ok_bind, Tab.set_ok h2 (by omega), ok_bind]
      refine key _ (fun j => ?_) fun x y hx => ?_
      · dsimp only
        rw [upd2_eq]
        by_cases e : i = j + 1
        · rw [if_pos (by omega), if_pos e, show i - 1 = j by omega]
        · rw [if_neg (by omega), if_neg e]
      · dsimp only
        rw [upd2_eq, if_neg (by omega)]
    · rw [if_neg hi]
      exact key t' (fun j => by rw [if_neg (by omega)]) fun _ _ _ => rfl)
  rw [e, ok_bind]
  obtain ⟨M, e2, h3, h4⟩ := SMat.fromSlices_dense (Jag.toLists_rect ta) hm hm false
  exact ⟨M, by rw [e2]; rfl, h3, h4.congr fun i j hi hj => h1 i j (by omega) hi (by omega) hj⟩

end free

section exact

variable {K : Type} [Field K] [LinearOrder K] [IsStrictOrderedRing K] [Flt K] [Exact K] [ExactSqrt K]
variable {m : Nat}

theorem dsum_exact (b a : Nat) (g : Nat → K) (s : K) : dsum b a g s = s + ∑ i ∈ Ico a b, g i := by
  by_cases h : a ≤ b
  · obtain ⟨d, rfl⟩ := Nat.exists_eq_add_of_le h
    clear h
    induction d generalizing a with
    | zero => rw [Nat.add_zero, dsum_self le_rfl, Ico_self, sum_empty, add_zero]
    | succ d ih =>
      rw [dsum_low (by omega), show a + (d + 1) = a + 1 + d by omega, ih, Exact.add_eq,
        sum_eq_sum_Ico_succ_bot (show a < a + 1 + d by omega)]
      ring
  · rw [dsum_self (by omega), Ico_eq_empty (by omega), sum_empty, add_zero]

/-- The stored vector of round `k`. -/
def Hess.vec (f : Nat → Nat → K) (o : Nat → K) (k i : Nat) : K := if i = k then o k else f i (k - 1)

/-- The reflection of round `k`. -/
def Hess.R (m : Nat) (f : Nat → Nat → K) (o : Nat → K) (k : Nat) : Matrix (Fin m) (Fin m) K :=
  hh m k (Hess.vec f o k) (Bi.beta (o k) (f k (k - 1)))

/-- What the table stands for before round `k`. -/
def Hess.M (k : Nat) (f : Nat → Nat → K) (i j : Nat) : K := if j + 1 < k ∧ j + 1 < i then 0 else f i j

theorem Hess.sign_sq (x0 h : K) (hh : 0 ≤ h) : Hess.sign x0 h * Hess.sign x0 h = h := by
  have := ExactSqrt.sqrt_mul_self h hh
  unfold Hess.sign
  simp only [Exact.mul_eq, Exact.neg_eq, Exact.one_eq]
  split_ifs
  · linear_combination this
  · exact this

theorem Hess.sign_sign (x0 h : K) : if 0 < x0 then Hess.sign x0 h ≤ 0 else 0 ≤ Hess.sign x0 h := by
  have := ExactSqrt.sqrt_nonneg h
  unfold Hess.sign
  simp only [Exact.mul_eq, Exact.neg_eq, Exact.one_eq, Exact.lt_eq, Exact.zero_eq, decide_eq_true_eq]
  split_ifs
  · linarith
  · exact this

theorem Hess.Step.exact {k : Nat} {f f' : Nat → Nat → K} {o o' : Nat → K} (hk : 1 ≤ k) (hkm : k < m)
    (h : Hess.Step m k f f' o o') :
    (∀ i j, j + 1 < k → f' i j = f i j) ∧ (∀ i, i < k → o' i = o i) ∧
    Hess.R m f' o' k * Hess.R m f' o' k = 1 ∧
    Hess.R m f' o' k * mx m m (Hess.M k f) * Hess.R m f' o' k = mx m m (Hess.M (k + 1) f') := by
  cases h with
  | skip scale hs h0 hf ho =>
    have hz : ∀ i, k ≤ i → i < m → f i (k - 1) = 0 := by
      have h1 : scale = 0 := by simpa using h0
      rw [hs, lsum_exact, Exact.zero_eq, zero_add,
        sum_eq_zero_iff_of_nonneg fun i _ => by rw [Exact.abs_eq]; exact abs_nonneg _] at h1
      intro i h2 h3
      have := h1 i (mem_Ico.2 ⟨h2, h3⟩)
      rwa [Exact.abs_eq, abs_eq_zero] at this
    subst hf
    subst ho
    have hR : Hess.R m f' o' k = 1 := by
      unfold Hess.R
      rw [Bi.beta, if_pos (hz k le_rfl hkm), hh_zero]
    refine ⟨fun _ _ _ => rfl, fun _ _ => rfl, by rw [hR, Matrix.one_mul], ?_⟩
    rw [hR, Matrix.one_mul, Matrix.mul_one]
    refine mx_congr fun i j hi hj => ?_
    unfold Hess.M
    by_cases e : j + 1 = k ∧ k < i
    · rw [if_neg (by omega), if_pos (by omega), show j = k - 1 by omega, hz i (by omega) hi]
    · exact if_congr (by omega) rfl rfl
  | refl scale h0 u f1 hs hne hh hu huk hr hok ho =>
    have hs0 : scale ≠ 0 := by simpa using hne
    have hspos : 0 < scale := by
      refine lt_of_le_of_ne ?_ (Ne.symm hs0)
      rw [hs, lsum_exact, Exact.zero_eq, zero_add]
      exact sum_nonneg fun i _ => by rw [Exact.abs_eq]; exact abs_nonneg _
    simp only [Exact.div_eq, Exact.sub_eq, Exact.mul_eq] at hh hu huk hr hok
    generalize hg : Hess.sign (f k (k - 1) / scale) h0 = g at *
    rw [dsum_exact, Exact.zero_eq, zero_add] at hh
    have hh0 : 0 ≤ h0 := by
      rw [hh]; exact sum_nonneg fun i _ => mul_self_nonneg _
    have hgg : g * g = h0 := by rw [← hg]; exact Hess.sign_sq _ _ hh0
    have hgs := Hess.sign_sign (f k (k - 1) / scale) h0
    rw [hg] at hgs
    have hsq : (scale * g) * (scale * g) = ∑ i ∈ Ico k m, f i (k - 1) * f i (k - 1) := by
      rw [show (scale * g) * (scale * g) = scale * scale * (g * g) by ring, hgg, hh, mul_sum]
      refine sum_congr rfl fun i _ => ?_
      field_simp
    have hgne : g ≠ 0 := by
      rintro rfl
      rw [mul_zero, mul_zero] at hsq
      have hz := (sum_eq_zero_iff_of_nonneg fun i _ => mul_self_nonneg _).1 hsq.symm
      refine hs0 ?_
      rw [hs, lsum_exact, Exact.zero_eq, zero_add]
      refine sum_eq_zero fun i hi => ?_
      rw [mul_self_eq_zero.1 (hz i hi), Exact.abs_eq, abs_zero]
    have hcol : ∀ i, i ≠ k → f' i (k - 1) = f i (k - 1) := fun i hi => by
      rw [hr.right' i (k - 1) (by omega) (by omega), hr.left' i (k - 1) (by omega)]
    have hhead : f' k (k - 1) = scale * g := by rw [hr.head, Exact.mul_eq]
    have hv : HV m k (fun i => f i (k - 1)) (Hess.vec f' o' k) (scale * g) := by
      refine ⟨hsq, ?_, mul_ne_zero hs0 hgne, ?_, fun i h1 h2 => ?_⟩
      · by_cases e : 0 < f k (k - 1)
        · rw [if_pos (div_pos e hspos)] at hgs
          rw [if_pos e]
          exact mul_nonpos_of_nonneg_of_nonpos hspos.le hgs
        · rw [if_neg fun h => e ((div_pos_iff_of_pos_right hspos).1 h)] at hgs
          rw [if_neg e]
          exact mul_nonneg hspos.le hgs
      · rw [Hess.vec, if_pos rfl, hok, huk]
        field_simp
      · rw [Hess.vec, if_neg (by omega), hcol i (by omega)]
    have hvu : ∀ i, k ≤ i → i < m → Hess.vec f' o' k i = scale * u i := fun i h1 h2 => by
      by_cases e : i = k
      · rw [Hess.vec, if_pos e, hok, e]
      · rw [Hess.vec, if_neg e, hcol i e, hu i (by omega) h2]
        field_simp
    have hb : Bi.beta (o' k) (f' k (k - 1)) = 1 / (scale * g * Hess.vec f' o' k k) := by
      rw [Bi.beta, hhead, if_neg hv.ne, Hess.vec, if_pos rfl, mul_comm (o' k)]
    have hune : u k ≠ 0 := fun e => hv.head_ne (by rw [hvu k le_rfl hkm, e, mul_zero])
    have hden : h0 - f k (k - 1) / scale * g = -(g * u k) := by
      rw [huk, ← hgg]; ring
    rw [hden] at hr
    have hR : Hess.R m f' o' k = Linear.hh m k (Hess.vec f' o' k) (1 / (scale * g * Hess.vec f' o' k k)) := by
      unfold Hess.R
      rw [hb]
    have hcoef : ∀ S T : K, S / -(g * u k) * T =
        -(1 / (scale * g * Hess.vec f' o' k k) * (scale * S) * (scale * T)) := fun S T => by
      rw [hvu k le_rfl hkm]
      field_simp
    refine ⟨fun i j hj => ?_, ho, ?_, ?_⟩
    · rw [hr.right' i j (by omega) (by omega), hr.left' i j (by omega)]
    · rw [hR]
      exact hh_sq (.inr (hv.beta hkm))
    · have h1 : Hess.R m f' o' k * mx m m (Hess.M k f) = mx m m (fun i j =>
          if k ≤ j then f1 i j else if j + 1 = k ∧ k ≤ i then (if i = k then scale * g else 0)
          else Hess.M k f i j) := by
        rw [hR, hh_mul]
        refine mx_congr fun i j hi hj => ?_
        by_cases e : k ≤ j
        · have hM : ∀ i, Hess.M k f i j = f i j := fun i => if_neg (by omega)
          simp only [hM, if_pos e]
          by_cases e2 : k ≤ i
          · rw [hr.left i j e2 hi e hj, dsum_exact]
            simp only [Exact.sub_eq, Exact.mul_eq, Exact.div_eq, Exact.zero_eq, zero_add]
            rw [hcoef, tl, if_pos e2, ← hvu i e2 hi,
              show scale * ∑ x ∈ Ico k m, u x * f x j = ∑ x ∈ Ico k m, Hess.vec f' o' k x * f x j from
                (mul_sum _ _ _).trans (sum_congr rfl fun x hx => by
                  rw [hvu x (mem_Ico.1 hx).1 (mem_Ico.1 hx).2]; ring)]
            ring
          · rw [hr.left' i j (by omega), tl, if_neg e2]
            ring
        · rw [if_neg e]
          by_cases e1 : j + 1 = k
          · have hM : ∀ i, Hess.M k f i j = f i (k - 1) := fun i => by
              rw [Hess.M, if_neg (by omega), show j = k - 1 by omega]
            simp only [hM]
            have := hv.apply hkm hi
            rw [this]
            split_ifs <;> first | rfl | (exfalso; omega)
          · rw [if_neg (by omega), sum_eq_zero]
            · ring
            · intro x hx
              have := mem_Ico.1 hx
              rw [Hess.M, if_pos (by omega), mul_zero]
      rw [h1, hR, mul_hh]
      refine mx_congr fun i j hi hj => ?_
      by_cases e : k ≤ j
      · have e' : ¬ (j + 1 < k + 1 ∧ j + 1 < i) := by omega
        rw [if_pos e, Hess.M, if_neg e', hr.right i j hi e hj, dsum_exact]
        simp only [Exact.sub_eq, Exact.mul_eq, Exact.div_eq, Exact.zero_eq, zero_add]
        rw [hcoef, tl, if_pos e, ← hvu j e hj,
          show scale * ∑ x ∈ Ico k m, u x * f1 i x = ∑ x ∈ Ico k m, (if k ≤ x then f1 i x else
            if x + 1 = k ∧ k ≤ i then (if i = k then scale * g else 0) else Hess.M k f i x) *
              Hess.vec f' o' k x from
            (mul_sum _ _ _).trans (sum_congr rfl fun x hx => by
              rw [hvu x (mem_Ico.1 hx).1 (mem_Ico.1 hx).2, if_pos (mem_Ico.1 hx).1]; ring)]
        ring
      · rw [if_neg e, tl, if_neg e, mul_zero, add_zero]
        by_cases e1 : j + 1 = k ∧ k ≤ i
        · rw [if_pos e1]
          by_cases e2 : i = k
          · rw [if_pos e2, Hess.M, if_neg (by omega), e2, show j = k - 1 by omega, hhead]
          · rw [if_neg e2, Hess.M, if_pos (by omega)]
        · rw [if_neg e1]
          unfold Hess.M
          rw [hr.right' i j (by omega) (by omega), hr.left' i j (by omega)]
          exact if_congr (by omega) rfl rfl

/-- The invariant of the reduction. -/
structure Hess.Inv (m : Nat) (A : Nat → Nat → K) (k : Nat) (f : Nat → Nat → K) (o : Nat → K) : Prop where
  prod : mx m m A = hprod m (fun j => Hess.R m f o (j + 1)) (k - 1) * mx m m (Hess.M k f) *
    (hprod m (fun j => Hess.R m f o (j + 1)) (k - 1))ᵀ
  sq : ∀ j, j + 1 < k → Hess.R m f o (j + 1) * Hess.R m f o (j + 1) = 1

theorem Hess.Inv.init {A f : Nat → Nat → K} (o : Nat → K) (h : ∀ i j, i < m → j < m → f i j = A i j) :
    Hess.Inv m A 1 f o := by
  refine ⟨?_, fun j h => by omega⟩
  rw [Nat.sub_self, hprod, Matrix.one_mul, Matrix.transpose_one, Matrix.mul_one]
  refine mx_congr fun i j hi hj => ?_
  rw [Hess.M, if_neg (by omega), h i j hi hj]

theorem Hess.Inv.step {A f f' : Nat → Nat → K} {o o' : Nat → K} {k : Nat} (hk : 1 ≤ k) (hkm : k < m)
    (h : Hess.Inv m A k f o) (hs : Hess.Step m k f f' o o') : Hess.Inv m A (k + 1) f' o' := by
  obtain ⟨h1, h2, h3, h4⟩ := hs.exact hk hkm
  have eR : ∀ j, j < k - 1 → Hess.R m f' o' (j + 1) = Hess.R m f o (j + 1) := fun j hj => by
    have hv : Hess.vec f' o' (j + 1) = Hess.vec f o (j + 1) := funext fun i => by
      unfold Hess.vec
      rw [h2 (j + 1) (by omega), h1 i (j + 1 - 1) (by omega)]
    unfold Hess.R
    rw [hv, h2 (j + 1) (by omega), h1 (j + 1) (j + 1 - 1) (by omega)]
  have hT : (Hess.R m f' o' k)ᵀ = Hess.R m f' o' k := hh_transpose _ _ _ _
  refine ⟨?_, fun j hj => ?_⟩
  · rw [show k + 1 - 1 = k - 1 + 1 by omega, hprod, hprod_congr eR, show k - 1 + 1 = k by omega, ← h4,
      Matrix.transpose_mul, hT, h.prod]
    simp only [Matrix.mul_assoc]
    rw [← Matrix.mul_assoc (Hess.R m f' o' k) (Hess.R m f' o' k)
        (hprod m (fun j => Hess.R m f o (j + 1)) (k - 1))ᵀ, h3, Matrix.one_mul,
      ← Matrix.mul_assoc (Hess.R m f' o' k) (Hess.R m f' o' k), h3, Matrix.one_mul]
  · by_cases e : j + 1 = k
    · rw [e]; exact h3
    · rw [eR j (by omega)]
      exact h.sq j (by omega)

theorem Hess.Inv.orth {A f : Nat → Nat → K} {o : Nat → K} {k : Nat} (h : Hess.Inv m A k f o) :
    hprod m (fun j => Hess.R m f o (j + 1)) (k - 1) *
      (hprod m (fun j => Hess.R m f o (j + 1)) (k - 1))ᵀ = 1 :=
  hprod_orth (fun _ _ => hh_transpose _ _ _ _) fun j hj => h.sq j (by omega)

theorem Hess.PStep.exact {k : Nat} {f p p' : Nat → Nat → K} {o o' s : Nat → K}
    (h : Hess.PStep m k f o o' p p') (ho : ∀ i, i < k + 1 → o i = s i)
    (hp : ∀ i j, i < m → j < m → (i < k + 1 ∨ j < k + 1) → p i j = if i = j then 1 else 0) :
    (∀ i, i < k → o' i = s i) ∧
    (∀ i j, i < m → j < m → (i < k ∨ j < k) → p' i j = if i = j then 1 else 0) ∧
    mx m m p' = Hess.R m f s k * mx m m p := by
  refine ⟨fun i hi => by rw [h.ort i (by omega), ho i (by omega)],
    fun i j hi hj hij => by rw [h.other i j hij, hp i j hi hj (by omega)], ?_⟩
  unfold Hess.R
  rw [hh_mul]
  refine mx_congr fun i j hi hj => ?_
  by_cases e0 : f k (k - 1) = 0
  · rw [h.skip (by simp [e0]), Bi.beta, if_pos e0]
    ring
  · have e1 : Flt.eq (f k (k - 1)) Flt.zero = false := by simp [e0]
    have hov : ∀ x, k ≤ x → x < m → o' x = Hess.vec f s k x := fun x h1 h2 => by
      unfold Hess.vec
      by_cases e : x = k
      · rw [if_pos e, e, h.ort k le_rfl, ho k (by omega)]
      · rw [if_neg e, h.ortf e1 x (by omega) h2]
    by_cases e2 : i < k ∨ j < k
    · rw [h.other i j e2]
      rcases e2 with e2 | e2
      · rw [tl, if_neg (by omega)]; ring
      · rw [sum_eq_zero]
        · ring
        · intro x hx
          have := mem_Ico.1 hx
          rw [hp x j this.2 hj (by omega), if_neg (by omega), mul_zero]
    · rw [h.cols e1 i j (by omega) hi (by omega) hj, lsum_exact, Bi.beta, if_neg e0, tl, if_pos (by omega)]
      have : ∑ x ∈ Ico k m, Flt.mul (o' x) (p x j) = ∑ x ∈ Ico k m, Hess.vec f s k x * p x j :=
        sum_congr rfl fun x hx => by
          rw [hov x (mem_Ico.1 hx).1 (mem_Ico.1 hx).2, Exact.mul_eq]
      rw [this, hov i (by omega) hi, h.ort k le_rfl, ho k (by omega)]
      simp only [Exact.add_eq, Exact.mul_eq, Exact.div_eq, Exact.zero_eq, zero_add]
      rw [div_div]
      ring

theorem Hess.p_exact (hm : 0 < m) (s : Hess K m m) :
    ∃ (M : Mat K m m) (p : Nat → Nat → K), s.p = .ok ⟨m, m, M⟩ ∧ M.dense ∧ Shows M.at m m p ∧
      mx m m p = hprod m (fun j => Hess.R m s.hv.f s.ort.f (j + 1)) (m - 2) := by
  obtain ⟨M, o, p, e, h1, h2, -, -, h3⟩ := Hess.p_wp hm s (fun k o p =>
    (∀ i, i < k → o i = s.ort.f i) ∧
    (∀ i j, i < m → j < m → (i < k ∨ j < k) → p i j = if i = j then 1 else 0) ∧
    mx m m p = hfrom m (fun j => Hess.R m s.hv.f s.ort.f (j + 1)) (k - 1) (m - 2)) (by
      intro p hp
      simp only [Exact.one_eq, Exact.zero_eq] at hp
      refine ⟨fun _ _ => rfl, fun i j hi hj _ => hp i j hi hj, ?_⟩
      rw [show m - 1 - 1 = m - 2 by omega, hfrom_self, ← mx_one]
      exact mx_congr hp) (by
      rintro k o o' p p' hk hkm ⟨g1, g2, g3⟩ hs
      obtain ⟨g4, g5, g6⟩ := hs.exact g1 g2
      refine ⟨g4, g5, ?_⟩
      rw [g6, g3, hfrom_step _ (show k - 1 < m - 2 by omega), show k - 1 + 1 = k by omega,
        show k + 1 - 1 = k by omega])
  refine ⟨M, p, e, h1, h2, ?_⟩
  rw [h3, ← hfrom_zero]
  congr 1
  omega

end exact

end Linear
