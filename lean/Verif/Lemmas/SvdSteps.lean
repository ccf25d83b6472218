import Verif.Lemmas.SvdReduce

/-!
# The steps of the iteration of the singular value decomposition, any arithmetic
-/

set_option linter.unusedSectionVars false

namespace Linear

open Spec

variable {α : Type} [Flt α] {m n : Nat}

/-- A row of a table after the rotation of columns `a` and `b`. -/
def Svd.rt (a b : Nat) (cs sn : α) (u : Nat → α) (y : Nat) : α :=
  if y = a then Flt.add (Flt.mul cs (u a)) (Flt.mul sn (u b))
  else if y = b then Flt.add (Flt.mul (Flt.neg sn) (u a)) (Flt.mul cs (u b)) else u y

theorem Svd.turn_ok {r a b : Nat} (ha : a < n) (hb : b < n) (cs sn : α) (t : Tab α r n) :
    ∃ t' : Tab α r n, Svd.turn a b cs sn t = .ok t' ∧ ∀ i, i < r → t'.f i = Svd.rt a b cs sn (t.f i) := by
  unfold Svd.turn
  rw [Tab.eachRow (Svd.rt a b cs sn) t fun i t' _ hi => by
    rw [Tab.get_ok hi ha, ok_bind, Tab.get_ok hi hb, ok_bind, Tab.set_ok hi hb, ok_bind, Tab.set_ok hi ha]
    refine Tab.okExt fun x y => ?_
    simp only [upd2_eq]
    unfold Svd.rt
    by_cases h1 : x = i
    · subst h1
      by_cases h2 : y = a
      · rw [if_pos ⟨rfl, h2⟩, if_pos rfl, if_pos h2]
      · rw [if_neg fun h => h2 h.2, if_pos rfl, if_neg h2]
        by_cases h3 : y = b
        · rw [if_pos ⟨rfl, h3⟩, if_pos h3]
        · rw [if_neg fun h => h3 h.2, if_neg h3]
    · rw [if_neg fun h => h1 h.1, if_neg h1, if_neg fun h => h1 h.1]]
  exact ⟨_, rfl, fun i hi => funext fun y => if_pos ⟨Nat.zero_le _, hi⟩⟩

/-! ## The two searches -/

/-- The threshold for `e`. -/
def Svd.thrE (κ : Svd.Lit α) (s : Nat → α) (k : Nat) : α :=
  Flt.add κ.tiny (Flt.mul κ.eps (Flt.add (Flt.abs (s k)) (Flt.abs (s (k + 1)))))

theorem Svd.findE_ok (κ : Svd.Lit α) (s : Row α n) {k : Nat} (hk : k < n ∨ k = 0) (e : Row α n) :
    ∃ k' e', Svd.findE κ s k e = .ok (k', e') ∧ k' ≤ k ∧
      (∀ i, k' ≤ i → i < k → Flt.lt (Svd.thrE κ s.f i) (Flt.abs (e.f i)) = true) ∧
      ((k' = 0 ∧ e' = e) ∨ (0 < k' ∧ Flt.lt (Svd.thrE κ s.f (k' - 1)) (Flt.abs (e.f (k' - 1))) = false ∧
        e' = ⟨upd1 e.f (k' - 1) Flt.zero⟩)) := by
  induction k with
  | zero => exact ⟨0, e, rfl, le_rfl, fun i h1 h2 => by omega, .inl ⟨rfl, rfl⟩⟩
  | succ k ih =>
    rw [Svd.findE, Row.get_ok (by omega), ok_bind, Row.get_ok (by omega), ok_bind, Row.get_ok (by omega), ok_bind]
    by_cases h : Flt.lt (Svd.thrE κ s.f k) (Flt.abs (e.f k)) = true
    · rw [if_neg (by
        show ¬ (!Flt.lt (Svd.thrE κ s.f k) (Flt.abs (e.f k))) = true
        simp [h])]
      obtain ⟨k', e', q, h1, h2, h3⟩ := ih (by omega)
      refine ⟨k', e', q, by omega, fun i g1 g2 => ?_, h3⟩
      by_cases c : i = k
      · rw [c]; exact h
      · exact h2 i g1 (by omega)
    · rw [if_pos (by
        show (!Flt.lt (Svd.thrE κ s.f k) (Flt.abs (e.f k))) = true
        simp [h]), Row.set_ok (by omega), ok_bind]
      exact ⟨k + 1, _, rfl, le_rfl, fun i g1 g2 => by omega, .inr ⟨by omega, by simpa using h, rfl⟩⟩

/-- The threshold for `s`. -/
def Svd.thrS (κ : Svd.Lit α) (e : Nat → α) (k i : Nat) : α :=
  Flt.add κ.tiny (Flt.mul κ.eps (if i ≠ k then Flt.add (Flt.abs (e i)) (Flt.abs (e (i - 1))) else Flt.abs (e i)))

theorem Svd.around_ok {k i : Nat} (hi : i < n) (e : Row α n) : Svd.around k i e =
    .ok (if i ≠ k then Flt.add (Flt.abs (e.f i)) (Flt.abs (e.f (i - 1))) else Flt.abs (e.f i)) := by
  unfold Svd.around
  rw [Row.get_ok hi, ok_bind]
  split
  · rw [Row.get_ok (by omega), ok_bind]; rfl
  · rfl

theorem Svd.findS_ok (κ : Svd.Lit α) (e : Row α n) {k d : Nat} (hd : k + d ≤ n) (s : Row α n) :
    ∃ o s', Svd.findS κ e k d s = .ok (o, s') ∧
      ((o = none ∧ s' = s ∧ ∀ i, k ≤ i → i < k + d → Flt.le (Flt.abs (s.f i)) (Svd.thrS κ e.f k i) = false) ∨
       ∃ i, o = some i ∧ k ≤ i ∧ i < k + d ∧ Flt.le (Flt.abs (s.f i)) (Svd.thrS κ e.f k i) = true ∧
        s' = ⟨upd1 s.f i Flt.zero⟩ ∧
        ∀ i', i < i' → i' < k + d → Flt.le (Flt.abs (s.f i')) (Svd.thrS κ e.f k i') = false) := by
  induction d with
  | zero => exact ⟨none, s, rfl, .inl ⟨rfl, rfl, fun i h1 h2 => by omega⟩⟩
  | succ d ih =>
    rw [Svd.findS, Svd.around_ok (by omega), ok_bind, Row.get_ok (by omega), ok_bind]
    by_cases h : Flt.le (Flt.abs (s.f (k + d))) (Svd.thrS κ e.f k (k + d)) = true
    · have h' := h
      unfold Svd.thrS at h'
      rw [if_pos h', Row.set_ok (by omega), ok_bind]
      exact ⟨_, _, rfl, .inr ⟨k + d, rfl, by omega, by omega, h, rfl, fun i' h1 h2 => by omega⟩⟩
    · have h' := h
      unfold Svd.thrS at h'
      rw [if_neg h']
      obtain ⟨o, s', q, h1⟩ := ih (by omega)
      refine ⟨o, s', q, ?_⟩
      rcases h1 with ⟨h1, h2, h3⟩ | ⟨i, h1, h2, h3, h4, h5, h6⟩
      · refine .inl ⟨h1, h2, fun i g1 g2 => ?_⟩
        by_cases c : i = k + d
        · rw [c]; simpa using h
        · exact h3 i g1 (by omega)
      · refine .inr ⟨i, h1, h2, by omega, h4, h5, fun i' g1 g2 => ?_⟩
        by_cases c : i' = k + d
        · rw [c]; simpa using h
        · exact h6 i' g1 (by omega)

/-! ## Cases 1 and 2 -/

/-- What a step of case 1 does. -/
structure Svd.DStep (p k j : Nat) (t : α) (w w' : α × Svd.St α m n) : Prop where
  s : w'.2.s.f = upd1 w.2.s.f j t
  e : w'.2.e.f = if j ≠ k then upd1 w.2.e.f (j - 1) (Flt.mul (Flt.div (w.2.s.f j) t) (w.2.e.f (j - 1))) else w.2.e.f
  f : w'.1 = if j ≠ k then Flt.mul (Flt.neg (Flt.div w.1 t)) (w.2.e.f (j - 1)) else w.1
  u : w'.2.u = w.2.u
  v : ∀ i, i < n → w'.2.v.f i = Svd.rt j (p - 1) (Flt.div (w.2.s.f j) t) (Flt.div w.1 t) (w.2.v.f i)

theorem Svd.deflateStep_ok (hyp : α → α → α) {p k j : Nat} (hj : j < p - 1) (hp : p ≤ n) (w : α × Svd.St α m n) :
    ∃ w', Svd.deflateStep hyp p k j w = .ok w' ∧ Svd.DStep p k j (hyp (w.2.s.f j) w.1) w w' := by
  unfold Svd.deflateStep Svd.deflateT
  rw [Row.get_ok (by omega), ok_bind, ok_bind, Row.set_ok (by omega), ok_bind]
  generalize hyp (w.2.s.f j) w.1 = t
  obtain ⟨v, e, hv⟩ := Svd.turn_ok (show j < n by omega) (show p - 1 < n by omega) (Flt.div (w.2.s.f j) t)
    (Flt.div w.1 t) w.2.v
  by_cases h : j ≠ k
  · rw [if_pos h, Row.get_ok (by omega), ok_bind, Row.set_ok (by omega), ok_bind, pure_eq_ok, ok_bind]
    dsimp only
    rw [e, ok_bind]
    exact ⟨_, rfl, rfl, (if_pos h).symm, (if_pos h).symm, rfl, hv⟩
  · rw [if_neg h, pure_eq_ok, ok_bind]
    dsimp only
    rw [e, ok_bind]
    exact ⟨_, rfl, rfl, (if_neg h).symm, (if_neg h).symm, rfl, hv⟩

/-- What a step of case 2 does. -/
structure Svd.PStep (k j : Nat) (t : α) (w w' : α × Svd.St α m n) : Prop where
  s : w'.2.s.f = upd1 w.2.s.f j t
  e : w'.2.e.f = upd1 w.2.e.f j (Flt.mul (Flt.div (w.2.s.f j) t) (w.2.e.f j))
  f : w'.1 = Flt.mul (Flt.neg (Flt.div w.1 t)) (w.2.e.f j)
  v : w'.2.v = w.2.v
  u : ∀ i, i < m → w'.2.u.f i = Svd.rt j (k - 1) (Flt.div (w.2.s.f j) t) (Flt.div w.1 t) (w.2.u.f i)

theorem Svd.splitStep_ok (hyp : α → α → α) {k j : Nat} (hk : k ≤ j) (hj : j < n) (w : α × Svd.St α m n) :
    ∃ w', Svd.splitStep hyp k j w = .ok w' ∧ Svd.PStep k j (hyp (w.2.s.f j) w.1) w w' := by
  unfold Svd.splitStep Svd.splitT
  rw [Row.get_ok hj, ok_bind, ok_bind, Row.set_ok hj, ok_bind, Row.get_ok hj, ok_bind, Row.set_ok hj, ok_bind]
  generalize hyp (w.2.s.f j) w.1 = t
  obtain ⟨u, e, hu⟩ := Svd.turn_ok hj (show k - 1 < n by omega) (Flt.div (w.2.s.f j) t)
    (Flt.div w.1 t) w.2.u
  rw [e, ok_bind]
  exact ⟨_, rfl, rfl, rfl, rfl, rfl, hu⟩

/-! ## Case 3 -/

/-- What the first half of a step of case 3 does. -/
structure Svd.VStep (k j : Nat) (t : α) (w w' : Svd.Ch α m n) : Prop where
  f : w'.f = Flt.add (Flt.mul (Flt.div w.f t) (w.x.s.f j)) (Flt.mul (Flt.div w.g t) (w.x.e.f j))
  g : w'.g = Flt.mul (Flt.div w.g t) (w.x.s.f (j + 1))
  s : w'.x.s.f = upd1 w.x.s.f (j + 1) (Flt.mul (Flt.div w.f t) (w.x.s.f (j + 1)))
  e : w'.x.e.f = upd1 (if j ≠ k then upd1 w.x.e.f (j - 1) t else w.x.e.f) j
    (Flt.sub (Flt.mul (Flt.div w.f t) (w.x.e.f j)) (Flt.mul (Flt.div w.g t) (w.x.s.f j)))
  u : w'.x.u = w.x.u
  v : ∀ i, i < n → w'.x.v.f i = Svd.rt j (j + 1) (Flt.div w.f t) (Flt.div w.g t) (w.x.v.f i)

theorem Svd.chaseV_ok {k j : Nat} (hk : k ≤ j) (hj : j + 1 < n) (t : α) (w : Svd.Ch α m n) :
    ∃ w', Svd.chaseV k j t w = .ok w' ∧ Svd.VStep k j t w w' := by
  unfold Svd.chaseV
  obtain ⟨v, e, hv⟩ := Svd.turn_ok (show j < n by omega) hj (Flt.div w.f t) (Flt.div w.g t) w.x.v
  by_cases h : j ≠ k
  · rw [if_pos h, Row.set_ok (show j - 1 < n by omega), ok_bind]
    dsimp only
    rw [Row.get_ok (show j < n by omega), ok_bind, Row.get_ok (show j < n by omega), ok_bind,
      Row.set_ok (show j < n by omega), ok_bind, Row.get_ok hj, ok_bind, Row.set_ok hj, ok_bind, e, ok_bind]
    have : upd1 w.x.e.f (j - 1) t j = w.x.e.f j := by rw [upd1_eq, if_neg (by omega)]
    refine ⟨_, rfl, ?_, rfl, rfl, ?_, rfl, hv⟩
    · dsimp only; rw [this]
    · dsimp only; rw [this, if_pos h]
  · rw [if_neg h, pure_eq_ok, ok_bind]
    dsimp only
    rw [Row.get_ok (show j < n by omega), ok_bind, Row.get_ok (show j < n by omega), ok_bind,
      Row.set_ok (show j < n by omega), ok_bind, Row.get_ok hj, ok_bind, Row.set_ok hj, ok_bind, e, ok_bind]
    exact ⟨_, rfl, rfl, rfl, rfl, by rw [if_neg h], rfl, hv⟩

/-- What the second half of a step of case 3 does. -/
structure Svd.UStep (j : Nat) (t : α) (w w' : Svd.Ch α m n) : Prop where
  f : w'.f = Flt.add (Flt.mul (Flt.div w.f t) (w.x.e.f j)) (Flt.mul (Flt.div w.g t) (w.x.s.f (j + 1)))
  g : w'.g = Flt.mul (Flt.div w.g t) (w.x.e.f (j + 1))
  s : w'.x.s.f = upd1 (upd1 w.x.s.f j t) (j + 1)
    (Flt.add (Flt.mul (Flt.neg (Flt.div w.g t)) (w.x.e.f j)) (Flt.mul (Flt.div w.f t) (w.x.s.f (j + 1))))
  e : w'.x.e.f = upd1 w.x.e.f (j + 1) (Flt.mul (Flt.div w.f t) (w.x.e.f (j + 1)))
  v : w'.x.v = w.x.v
  u : ∀ i, i < m → w'.x.u.f i = Svd.rt j (j + 1) (Flt.div w.f t) (Flt.div w.g t) (w.x.u.f i)

theorem Svd.chaseU_ok {j : Nat} (hj : j + 1 < n) (hm : n ≤ m) (t : α) (w : Svd.Ch α m n) :
    ∃ w', Svd.chaseU j t w = .ok w' ∧ Svd.UStep j t w w' := by
  unfold Svd.chaseU
  obtain ⟨u, e, hu⟩ := Svd.turn_ok (show j < n by omega) hj (Flt.div w.f t) (Flt.div w.g t) w.x.u
  rw [Row.set_ok (show j < n by omega), ok_bind, Row.get_ok (show j < n by omega), ok_bind, Row.get_ok hj, ok_bind,
    Row.set_ok hj, ok_bind, Row.get_ok hj, ok_bind, Row.set_ok hj, ok_bind, if_pos (by omega), e, ok_bind]
  have : upd1 w.x.s.f j t (j + 1) = w.x.s.f (j + 1) := by rw [upd1_eq, if_neg (by omega)]
  refine ⟨_, rfl, ?_, rfl, ?_, rfl, rfl, hu⟩
  · dsimp only; rw [this]
  · dsimp only; rw [this]

/-! ## Case 4 -/

theorem Svd.positive_ok {k : Nat} (hk : k < n) (x : Svd.St α m n) :
    ∃ x', Svd.positive k x = .ok x' ∧ x'.e = x.e ∧ x'.u = x.u ∧
      (Flt.le (x.s.f k) Flt.zero = true →
        x'.s.f = upd1 x.s.f k (if Flt.lt (x.s.f k) Flt.zero then Flt.neg (x.s.f k) else Flt.zero) ∧
        ∀ i j, i < n → x'.v.f i j = if j = k then Flt.neg (x.v.f i k) else x.v.f i j) ∧
      (Flt.le (x.s.f k) Flt.zero = false → x' = x) := by
  unfold Svd.positive
  rw [Row.get_ok hk, ok_bind]
  by_cases h : Flt.le (x.s.f k) Flt.zero = true
  · rw [if_pos h, Row.set_ok hk, ok_bind]
    obtain ⟨v, e, h1, h2⟩ := Tab.colLoop (ε := Fault) (r := n) (c := n) (a := 0) (b := n) (j := k) (t := x.v)
      (body := fun i (v : Tab α n n) => do v.set i k (Flt.neg (← v.get i k))) (fun _ y => Flt.neg y)
      (fun i t' g1 g2 g3 => by rw [Tab.get_ok g2 hk, ok_bind, Tab.set_ok g2 hk, g3 i k (by omega)])
    rw [e, ok_bind]
    refine ⟨_, rfl, rfl, rfl, fun _ => ⟨rfl, fun i j hi => ?_⟩, fun hf => by simp [h] at hf⟩
    dsimp only
    by_cases c : j = k
    · rw [if_pos c, c, h1 i (Nat.zero_le _) hi]
    · rw [if_neg c, h2 i j fun h => c h.1]
  · rw [if_neg h]
    exact ⟨x, rfl, rfl, rfl, fun hf => absurd hf h, fun _ => rfl⟩

theorem Svd.swapCols_ok {r k : Nat} (hk : k + 1 < n) (t : Tab α r n) :
    ∃ t' : Tab α r n, Svd.swapCols k t = .ok t' ∧ ∀ i y, i < r → t'.f i y = t.f i (Eig.sw k (k + 1) y) := by
  unfold Svd.swapCols
  rw [Tab.eachRow (fun u y => u (Eig.sw k (k + 1) y)) t fun i t' _ hi => by
    rw [Tab.get_ok hi hk, ok_bind, Tab.get_ok hi (by omega), ok_bind, Tab.set_ok hi hk, ok_bind,
      Tab.set_ok hi (by omega)]
    refine Tab.okExt fun x y => ?_
    simp only [upd2_eq]
    unfold Eig.sw
    by_cases h1 : x = i
    · subst h1
      by_cases h2 : y = k
      · rw [if_pos ⟨rfl, h2⟩, if_pos rfl, if_pos h2]
      · rw [if_neg fun h => h2 h.2, if_pos rfl, if_neg h2]
        by_cases h3 : y = k + 1
        · rw [if_pos ⟨rfl, h3⟩, if_pos h3]
        · rw [if_neg fun h => h3 h.2, if_neg h3]
    · rw [if_neg fun h => h1 h.1, if_neg h1, if_neg fun h => h1 h.1]]
  exact ⟨_, rfl, fun i y hi => if_pos ⟨Nat.zero_le _, hi⟩⟩

/-- One exchange. -/
theorem Svd.order_step {k d : Nat} (hk : k + 1 < n) (hm : n ≤ m) (x : Svd.St α m n)
    (h : Flt.le (x.s.f (k + 1)) (x.s.f k) = false) :
    ∃ x' : Svd.St α m n, Svd.order (d + 1) k x = Svd.order d (k + 1) x' ∧ x'.e = x.e ∧
      x'.s.f = (fun y => x.s.f (Eig.sw k (k + 1) y)) ∧
      (∀ i y, i < m → x'.u.f i y = x.u.f i (Eig.sw k (k + 1) y)) ∧
      ∀ i y, i < n → x'.v.f i y = x.v.f i (Eig.sw k (k + 1) y) := by
  rw [Svd.order, if_pos (by omega), Row.get_ok (by omega), ok_bind, Row.get_ok hk, ok_bind, if_neg (by simp [h]),
    Row.set_ok (by omega), ok_bind, Row.set_ok hk, ok_bind, if_pos (by omega)]
  obtain ⟨v, ev, hv⟩ := Svd.swapCols_ok hk x.v
  obtain ⟨u, eu, hu⟩ := Svd.swapCols_ok hk x.u
  rw [ev, ok_bind]
  dsimp only
  rw [if_pos (by omega), eu, ok_bind]
  refine ⟨_, rfl, rfl, funext fun y => ?_, hu, hv⟩
  dsimp only
  simp only [upd1_eq]
  unfold Eig.sw
  split_ifs <;> first | rfl | (exfalso; omega)

theorem Svd.order_stop {k d : Nat} (x : Svd.St α m n)
    (h : k + 1 < n → Flt.le (x.s.f (k + 1)) (x.s.f k) = true) : Svd.order d k x = .ok x := by
  cases d with
  | zero => rfl
  | succ d =>
    rw [Svd.order]
    by_cases hk : k + 1 < n
    · rw [if_pos (by omega), Row.get_ok (by omega), ok_bind, Row.get_ok hk, ok_bind, if_pos (h hk)]
      rfl
    · rw [if_neg (by omega)]
      rfl

end Linear
