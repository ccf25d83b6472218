import Verif.Model.Schur
import Verif.Lemmas.HessLemmas

/-!
# Lemmas on the Schur form, any arithmetic
-/

set_option linter.unusedSectionVars false

namespace Linear

open Spec

variable {α : Type} [Flt α] {n : Nat}

theorem Tab.okExt {ε : Type} {r c : Nat} {t : Tab α r c} {g : Nat → Nat → α} (h : ∀ x y, t.f x y = g x y) :
    (.ok t : Except ε (Tab α r c)) = .ok ⟨g⟩ := by
  cases t
  congr 2
  funext x y
  exact h x y

/-! ## Loops that treat each column, or each row, by itself -/

theorem Tab.eachCol {ε : Type} {r c a b : Nat} (F : (Nat → α) → Nat → α)
    {body : Nat → Tab α r c → Except ε (Tab α r c)} (t : Tab α r c)
    (h : ∀ j (t' : Tab α r c), a ≤ j → j < b →
      body j t' = .ok ⟨fun x y => if y = j then F (fun i => t'.f i j) x else t'.f x y⟩) :
    forUp a b body t = .ok ⟨fun x y => if a ≤ y ∧ y < b then F (fun i => t.f i y) x else t.f x y⟩ := by
  by_cases hab : a ≤ b
  · induction b, hab using Nat.le_induction with
    | base =>
      rw [forUp_eq_self (le_refl _)]
      refine Tab.okExt fun x y => ?_
      rw [if_neg (by omega)]
    | succ b hab ih =>
      rw [forUp_last hab, ih fun j t' h1 h2 => h j t' h1 (by omega), ok_bind, h b _ hab (by omega)]
      refine Tab.okExt fun x y => ?_
      dsimp only
      by_cases e : y = b
      · subst e
        rw [if_pos rfl, if_pos (by omega)]
        congr 1
        funext i
        rw [if_neg (by omega)]
      · rw [if_neg e]
        by_cases e' : a ≤ y ∧ y < b
        · rw [if_pos e', if_pos (by omega)]
        · rw [if_neg e', if_neg (by omega)]
  · rw [forUp_eq_self (by omega)]
    refine Tab.okExt fun x y => ?_
    rw [if_neg (by omega)]

theorem Tab.eachRow {ε : Type} {r c a b : Nat} (F : (Nat → α) → Nat → α)
    {body : Nat → Tab α r c → Except ε (Tab α r c)} (t : Tab α r c)
    (h : ∀ i (t' : Tab α r c), a ≤ i → i < b →
      body i t' = .ok ⟨fun x y => if x = i then F (t'.f i) y else t'.f x y⟩) :
    forUp a b body t = .ok ⟨fun x y => if a ≤ x ∧ x < b then F (t.f x) y else t.f x y⟩ := by
  by_cases hab : a ≤ b
  · induction b, hab using Nat.le_induction with
    | base =>
      rw [forUp_eq_self (le_refl _)]
      refine Tab.okExt fun x y => ?_
      rw [if_neg (by omega)]
    | succ b hab ih =>
      rw [forUp_last hab, ih fun j t' h1 h2 => h j t' h1 (by omega), ok_bind, h b _ hab (by omega)]
      refine Tab.okExt fun x y => ?_
      dsimp only
      by_cases e : x = b
      · subst e
        rw [if_pos rfl, if_pos (by omega)]
        congr 1
        funext i
        rw [if_neg (by omega)]
      · rw [if_neg e]
        by_cases e' : a ≤ x ∧ x < b
        · rw [if_pos e', if_pos (by omega)]
        · rw [if_neg e', if_neg (by omega)]
  · rw [forUp_eq_self (by omega)]
    refine Tab.okExt fun x y => ?_
    rw [if_neg (by omega)]

/-! ## The parts of one round -/

/-- The reflection of one column by the row modification. -/
def Schur.rowV (k : Nat) (nl : Bool) (q r x y z : α) (u : Nat → α) (i : Nat) : α :=
  if i = k + 1 then
    Flt.sub (u (k + 1)) (Flt.mul (Schur.comb nl (u k) (Flt.mul q (u (k + 1))) (Flt.mul r (u (k + 2)))) y)
  else if i = k then
    Flt.sub (u k) (Flt.mul (Schur.comb nl (u k) (Flt.mul q (u (k + 1))) (Flt.mul r (u (k + 2)))) x)
  else if nl ∧ i = k + 2 then
    Flt.sub (u (k + 2)) (Flt.mul (Schur.comb nl (u k) (Flt.mul q (u (k + 1))) (Flt.mul r (u (k + 2)))) z)
  else u i

/-- The reflection of one row by the column modification. -/
def Schur.colV (k : Nat) (nl : Bool) (q r x y z : α) (u : Nat → α) (i : Nat) : α :=
  if i = k + 1 then
    Flt.sub (u (k + 1)) (Flt.mul (Schur.comb nl (Flt.mul x (u k)) (Flt.mul y (u (k + 1)))
      (Flt.mul z (u (k + 2)))) q)
  else if i = k then
    Flt.sub (u k) (Schur.comb nl (Flt.mul x (u k)) (Flt.mul y (u (k + 1))) (Flt.mul z (u (k + 2))))
  else if nl ∧ i = k + 2 then
    Flt.sub (u (k + 2)) (Flt.mul (Schur.comb nl (Flt.mul x (u k)) (Flt.mul y (u (k + 1)))
      (Flt.mul z (u (k + 2)))) r)
  else u i

/-- The rotation of one row or column. -/
def Schur.rotV (k : Nat) (p q : α) (u : Nat → α) (i : Nat) : α :=
  if i = k + 1 then Flt.sub (Flt.mul q (u (k + 1))) (Flt.mul p (u k))
  else if i = k then Flt.add (Flt.mul q (u k)) (Flt.mul p (u (k + 1)))
  else u i

theorem Schur.rowBody_ok {k : Nat} {nl : Bool} (hk : k + 1 < n) (hnl : nl = true → k + 2 < n)
    (q r x y z : α) {j : Nat} (hj : j < n) (t : Tab α n n) :
    Schur.rowBody k nl q r x y z j t =
      .ok ⟨fun a b => if b = j then Schur.rowV k nl q r x y z (fun i => t.f i j) a else t.f a b⟩ := by
  unfold Schur.rowBody
  rw [Tab.get_ok (by omega) hj, ok_bind, Tab.get_ok hk hj, ok_bind]
  cases nl
  · rw [if_neg (by decide), pure_eq_ok, ok_bind]
    dsimp only
    rw [if_neg (by decide), pure_eq_ok, ok_bind,
      Tab.set_ok (by omega) hj, ok_bind, Tab.set_ok hk hj]
    refine Tab.okExt fun a b => ?_
    simp only [upd2_eq, Schur.rowV, Schur.comb, Bool.false_eq_true, if_false, false_and]
    by_cases e : b = j
    · subst e
      by_cases e1 : a = k + 1
      · simp [e1]
      · by_cases e2 : a = k
        · simp [e2]
        · simp [e1, e2]
    · simp [e]
  · have h2 := hnl rfl
    rw [if_pos rfl, Tab.get_ok h2 hj, ok_bind]
    dsimp only
    rw [if_pos rfl, Tab.set_ok h2 hj, ok_bind,
      Tab.set_ok (by omega) hj, ok_bind, Tab.set_ok hk hj]
    refine Tab.okExt fun a b => ?_
    simp only [upd2_eq, Schur.rowV, Schur.comb, if_true, true_and]
    by_cases e : b = j
    · subst e
      by_cases e1 : a = k + 1
      · simp [e1]
      · by_cases e2 : a = k
        · simp [e2]
        · by_cases e3 : a = k + 2 <;> simp [e1, e2, e3]
    · simp [e]

theorem Schur.colBody_ok {k : Nat} {nl : Bool} (hk : k + 1 < n) (hnl : nl = true → k + 2 < n)
    (q r x y z : α) {i : Nat} (hi : i < n) (t : Tab α n n) :
    Schur.colBody k nl q r x y z i t =
      .ok ⟨fun a b => if a = i then Schur.colV k nl q r x y z (t.f i) b else t.f a b⟩ := by
  unfold Schur.colBody
  rw [Tab.get_ok hi (by omega), ok_bind, Tab.get_ok hi hk, ok_bind]
  cases nl
  · rw [if_neg (by decide), pure_eq_ok, ok_bind]
    dsimp only
    rw [if_neg (by decide), pure_eq_ok, ok_bind,
      Tab.set_ok hi (by omega), ok_bind, Tab.set_ok hi hk]
    refine Tab.okExt fun a b => ?_
    simp only [upd2_eq, Schur.colV, Schur.comb, Bool.false_eq_true, if_false, false_and]
    by_cases e : a = i
    · subst e
      by_cases e1 : b = k + 1
      · simp [e1]
      · by_cases e2 : b = k
        · simp [e2]
        · simp [e1, e2]
    · simp [e]
  · have h2 := hnl rfl
    rw [if_pos rfl, Tab.get_ok hi h2, ok_bind]
    dsimp only
    rw [if_pos rfl, Tab.set_ok hi h2, ok_bind,
      Tab.set_ok hi (by omega), ok_bind, Tab.set_ok hi hk]
    refine Tab.okExt fun a b => ?_
    simp only [upd2_eq, Schur.colV, Schur.comb, if_true, true_and]
    by_cases e : a = i
    · subst e
      by_cases e1 : b = k + 1
      · simp [e1]
      · by_cases e2 : b = k
        · simp [e2]
        · by_cases e3 : b = k + 2 <;> simp [e1, e2, e3]
    · simp [e]

theorem Schur.rotRow_ok {k : Nat} (hk : k + 1 < n) (p q : α) {j : Nat} (hj : j < n) (t : Tab α n n) :
    Schur.rotRow k p q j t =
      .ok ⟨fun a b => if b = j then Schur.rotV k p q (fun i => t.f i j) a else t.f a b⟩ := by
  unfold Schur.rotRow
  rw [Tab.get_ok (by omega) hj, ok_bind, Tab.get_ok hk hj, ok_bind, Tab.set_ok (by omega) hj, ok_bind,
    Tab.set_ok hk hj]
  refine Tab.okExt fun a b => ?_
  simp only [upd2_eq, Schur.rotV]
  by_cases e : b = j
  · subst e
    by_cases e1 : a = k + 1
    · simp [e1]
    · by_cases e2 : a = k
      · simp [e2]
      · simp [e1, e2]
  · simp [e]

theorem Schur.rotCol_ok {k : Nat} (hk : k + 1 < n) (p q : α) {i : Nat} (hi : i < n) (t : Tab α n n) :
    Schur.rotCol k p q i t =
      .ok ⟨fun a b => if a = i then Schur.rotV k p q (t.f i) b else t.f a b⟩ := by
  unfold Schur.rotCol
  rw [Tab.get_ok hi (by omega), ok_bind, Tab.get_ok hi hk, ok_bind, Tab.set_ok hi (by omega), ok_bind,
    Tab.set_ok hi hk]
  refine Tab.okExt fun a b => ?_
  simp only [upd2_eq, Schur.rotV]
  by_cases e : a = i
  · subst e
    by_cases e1 : b = k + 1
    · simp [e1]
    · by_cases e2 : b = k
      · simp [e2]
      · simp [e1, e2]
  · simp [e]

/-- The reflection of all columns from `k` on. -/
def Schur.rowF (k : Nat) (nl : Bool) (q r x y z : α) (f : Nat → Nat → α) (a b : Nat) : α :=
  if k ≤ b then Schur.rowV k nl q r x y z (fun i => f i b) a else f a b

/-- The reflection of the rows before `h`. -/
def Schur.colF (h k : Nat) (nl : Bool) (q r x y z : α) (f : Nat → Nat → α) (a b : Nat) : α :=
  if a < h then Schur.colV k nl q r x y z (f a) b else f a b

/-- Equal entries inside the bounds. -/
def Schur.Same (n : Nat) (f g : Nat → Nat → α) : Prop := ∀ i j, i < n → j < n → f i j = g i j

theorem Schur.modify_ok {iu k : Nat} {nl : Bool} (hk : k < iu) (hiu : iu < n) (hnl : nl = true → k + 2 ≤ iu)
    (q r x y z : α) (s : Schur α n) :
    ∃ s', Schur.modify iu k nl q r x y z s = .ok s' ∧
      Schur.Same n s'.t.f (Schur.colF (min iu (k + 3) + 1) k nl q r x y z (Schur.rowF k nl q r x y z s.t.f)) ∧
      Schur.Same n s'.p.f (Schur.colF n k nl q r x y z s.p.f) := by
  have h2 : nl = true → k + 2 < n := fun h => by have := hnl h; omega
  unfold Schur.modify
  rw [Tab.eachCol (Schur.rowV k nl q r x y z) s.t fun j t' _ hj =>
      Schur.rowBody_ok (by omega) h2 q r x y z hj t', ok_bind,
    Tab.eachRow (Schur.colV k nl q r x y z) _ fun i t' _ hi =>
      Schur.colBody_ok (by omega) h2 q r x y z (by omega) t', ok_bind,
    Tab.eachRow (Schur.colV k nl q r x y z) s.p fun i t' _ hi =>
      Schur.colBody_ok (by omega) h2 q r x y z hi t', ok_bind]
  refine ⟨_, rfl, fun i j hi hj => ?_, fun i j hi hj => ?_⟩
  · have key : ∀ b, b < n → (if k ≤ b ∧ b < n then Schur.rowV k nl q r x y z (fun i => s.t.f i b) i else s.t.f i b) =
        Schur.rowF k nl q r x y z s.t.f i b := by
      intro b hb
      unfold Schur.rowF
      by_cases e : k ≤ b
      · rw [if_pos e, if_pos ⟨e, hb⟩]
      · rw [if_neg e, if_neg (by omega)]
    unfold Schur.colF
    dsimp only
    by_cases e : i < min iu (k + 3) + 1
    · rw [if_pos e, if_pos (by omega)]
      unfold Schur.colV Schur.comb
      dsimp only
      rw [key k (by omega), key (k + 1) (by omega), key j hj]
      cases nl
      · simp only [Bool.false_eq_true, if_false, false_and]
      · rw [key (k + 2) (h2 rfl)]
    · rw [if_neg e, if_neg (by omega), key j hj]
  · unfold Schur.colF
    dsimp only
    rw [if_pos hi, if_pos (by omega)]

theorem Schur.rotate_ok {k : Nat} (hk : k + 1 < n) (p q : α) (s : Schur α n) :
    ∃ s', Schur.rotate k p q s = .ok s' ∧
      Schur.Same n s'.t.f (fun a b => if a < k + 2 then
        Schur.rotV k p q (fun b => if k ≤ b then Schur.rotV k p q (fun i => s.t.f i b) a else s.t.f a b) b
        else if k ≤ b then Schur.rotV k p q (fun i => s.t.f i b) a else s.t.f a b) ∧
      Schur.Same n s'.p.f (fun a b => Schur.rotV k p q (s.p.f a) b) := by
  unfold Schur.rotate
  rw [Tab.eachCol (Schur.rotV k p q) s.t fun j t' _ hj => Schur.rotRow_ok (by omega) p q hj t', ok_bind,
    Tab.eachRow (Schur.rotV k p q) _ fun i t' _ hi => Schur.rotCol_ok (by omega) p q (by omega) t', ok_bind,
    Tab.eachRow (Schur.rotV k p q) s.p fun i t' _ hi => Schur.rotCol_ok (by omega) p q hi t', ok_bind]
  refine ⟨_, rfl, fun i j hi hj => ?_, fun i j hi hj => ?_⟩
  · have key : ∀ b, b < n → (if k ≤ b ∧ b < n then Schur.rotV k p q (fun i => s.t.f i b) i else s.t.f i b) =
        if k ≤ b then Schur.rotV k p q (fun i => s.t.f i b) i else s.t.f i b := by
      intro b hb
      by_cases e : k ≤ b
      · rw [if_pos e, if_pos ⟨e, hb⟩]
      · rw [if_neg e, if_neg (by omega)]
    dsimp only
    by_cases e : i < k + 2
    · rw [if_pos e, if_pos (by omega)]
      rw [Schur.rotV.eq_def k p q (fun b => if k ≤ b ∧ b < n then _ else _),
        Schur.rotV.eq_def k p q (fun b => if k ≤ b then _ else _)]
      try dsimp only
      rw [key k (by omega), key (k + 1) (by omega), key j hj]
    · rw [if_neg e, if_neg (by omega), key j hj]
  · dsimp only
    rw [if_pos (by omega)]

/-! ## The steps of the loop -/

theorem Schur.find_ok (eps norm : α) (t : Tab α n n) {l : Nat} (hl : l < n) :
    ∃ il, Schur.find eps norm t l = .ok il ∧ il ≤ l ∧
      (0 < il → Flt.lt (Flt.abs (t.f il (il - 1)))
        (Flt.mul eps (Schur.scale norm (t.f (il - 1) (il - 1)) (t.f il il))) = true) ∧
      ∀ i, il < i → i ≤ l → Flt.lt (Flt.abs (t.f i (i - 1)))
        (Flt.mul eps (Schur.scale norm (t.f (i - 1) (i - 1)) (t.f i i))) = false := by
  induction l with
  | zero => exact ⟨0, rfl, le_refl _, fun h => absurd h (by omega), fun i h1 h2 => by omega⟩
  | succ l ih =>
    rw [Schur.find, Tab.get_ok (by omega) (by omega), ok_bind, Tab.get_ok hl hl, ok_bind,
      Tab.get_ok hl (by omega), ok_bind]
    by_cases e : Flt.lt (Flt.abs (t.f (l + 1) l))
        (Flt.mul eps (Schur.scale norm (t.f l l) (t.f (l + 1) (l + 1)))) = true
    · rw [if_pos e]
      exact ⟨l + 1, rfl, le_refl _, fun _ => e, fun i h1 h2 => by omega⟩
    · rw [if_neg e]
      obtain ⟨il, e1, h1, h2, h3⟩ := ih (by omega)
      refine ⟨il, e1, by omega, h2, fun i h4 h5 => ?_⟩
      by_cases e' : i = l + 1
      · subst e'
        exact Bool.eq_false_iff.2 e
      · exact h3 i h4 (by omega)

theorem Schur.lower_ok {idx : Nat} (h : idx < n) (x : α) (t : Tab α n n) :
    Schur.lower idx x t = .ok ⟨fun i j => if i = j ∧ i ≤ idx then Flt.sub (t.f i j) x else t.f i j⟩ := by
  unfold Schur.lower
  generalize hb : idx + 1 = b
  have hbn : b ≤ n := by omega
  have : forUp 0 b (fun i (t : Tab α n n) => do t.set i i (Flt.sub (← t.get i i) x)) t =
      (.ok ⟨fun i j => if i = j ∧ i < b then Flt.sub (t.f i j) x else t.f i j⟩ : Res (Tab α n n)) := by
    clear hb
    induction b with
    | zero =>
      rw [forUp_eq_self (le_refl _)]
      refine Tab.okExt fun i j => ?_
      try dsimp only
      rw [if_neg (by omega)]
    | succ b ih =>
      rw [forUp_last (by omega), ih (by omega), ok_bind, Tab.get_ok (by omega) (by omega), ok_bind,
        Tab.set_ok (by omega) (by omega)]
      refine Tab.okExt fun i j => ?_
      try dsimp only
      rw [upd2_eq]
      by_cases e : i = b ∧ j = b
      · obtain ⟨rfl, rfl⟩ := e
        rw [if_pos ⟨rfl, rfl⟩, if_neg (by omega), if_pos (by omega)]
      · rw [if_neg e]
        by_cases e' : i = j ∧ i < b
        · rw [if_pos e', if_pos (by omega)]
        · rw [if_neg e', if_neg (by omega)]
  rw [this]
  refine Tab.okExt fun i j => ?_
  try dsimp only
  by_cases e : i = j ∧ i < b
  · rw [if_pos e, if_pos (by omega)]
  · rw [if_neg e, if_neg (by omega)]

/-- The shift takes an amount from the diagonal up to `idx` and remembers it, or changes nothing. -/
theorem Schur.computeShift_ok (κ : Schur.Lit α) {l idx : Nat} (it : Nat) (h : idx < n) (h2 : 2 ≤ idx)
    (t : Tab α n n) (ex : α) :
    ∃ th, Schur.computeShift κ l idx it t ex = .ok th ∧
      ((th.1 = t ∧ th.2.ex = ex) ∨ ∃ d, th.2.ex = Flt.add ex d ∧
        th.1 = ⟨fun i j => if i = j ∧ i ≤ idx then Flt.sub (t.f i j) d else t.f i j⟩) := by
  have h0 : ∃ s : Schur.Shift α, Schur.shift0 l idx t ex = .ok s ∧ s.ex = ex := by
    unfold Schur.shift0
    rw [Tab.get_ok h h, ok_bind]
    by_cases e : l < idx
    · rw [if_pos e, Tab.get_ok (by omega) (by omega), ok_bind, Tab.get_ok (by omega) (by omega), ok_bind,
        Tab.get_ok (by omega) (by omega), ok_bind]
      exact ⟨_, rfl, rfl⟩
    · rw [if_neg e]
      exact ⟨_, rfl, rfl⟩
  obtain ⟨s, e0, hs⟩ := h0
  unfold Schur.computeShift
  rw [e0, ok_bind]
  by_cases e1 : it = 10
  · rw [if_pos e1]
    unfold Schur.shift10
    rw [Schur.lower_ok h, ok_bind, Tab.get_ok (by omega) (by omega), ok_bind,
      Tab.get_ok (by omega) (by omega), ok_bind]
    exact ⟨_, rfl, .inr ⟨s.x, by rw [← hs], rfl⟩⟩
  · rw [if_neg e1]
    by_cases e2 : it = 30
    · rw [if_pos e2]
      unfold Schur.shift30
      by_cases e3 : Flt.lt Flt.zero (Schur.disc s) = true
      · rw [if_pos e3, Schur.lower_ok h, ok_bind]
        exact ⟨_, rfl, .inr ⟨Schur.amount s, by rw [← hs], rfl⟩⟩
      · rw [if_neg e3]
        exact ⟨_, rfl, .inl ⟨rfl, hs⟩⟩
    · rw [if_neg e2]
      exact ⟨_, rfl, .inl ⟨rfl, hs⟩⟩

theorem Schur.hVec_ok {im : Nat} (h : im + 2 < n) (t : Tab α n n) (s : Schur.Shift α) :
    ∃ v, Schur.hVec t s im = .ok v := by
  unfold Schur.hVec
  rw [Tab.get_ok (by omega) (by omega), ok_bind, Tab.get_ok (by omega) (by omega), ok_bind,
    Tab.get_ok (by omega) (by omega), ok_bind, Tab.get_ok (by omega) (by omega), ok_bind,
    Tab.get_ok (by omega) (by omega), ok_bind]
  exact ⟨_, rfl⟩

theorem Schur.initQR_ok (eps : α) (t : Tab α n n) (s : Schur.Shift α) (il d : Nat) (h : il + d + 2 < n) :
    ∃ v, Schur.initQR eps t s il d = .ok v ∧ il ≤ v.1 ∧ v.1 ≤ il + d := by
  induction d with
  | zero =>
    obtain ⟨v, e⟩ := Schur.hVec_ok (by omega) t s (im := il)
    rw [Schur.initQR, e, ok_bind]
    exact ⟨_, rfl, le_refl _, le_refl _⟩
  | succ d ih =>
    obtain ⟨v, e⟩ := Schur.hVec_ok (by omega) t s (im := il + (d + 1))
    rw [Schur.initQR, e, ok_bind]
    unfold Schur.twoSmall
    rw [Tab.get_ok (by omega) (by omega), ok_bind, Tab.get_ok (by omega) (by omega), ok_bind,
      Tab.get_ok (by omega) (by omega), ok_bind, Tab.get_ok (by omega) (by omega), ok_bind, pure_eq_ok, ok_bind]
    split
    · exact ⟨_, rfl, by show il ≤ il + (d + 1); omega, le_refl _⟩
    · obtain ⟨v, e, h1, h2⟩ := ih (by omega)
      exact ⟨v, e, h1, by omega⟩

/-- What one round of the double step does: nothing, or the entry left of the block is written and the block is
reflected from both sides. -/
structure Schur.Refl (n im iu k : Nat) (s s' : Schur α n) (p q r sn : α) (f : Nat → Nat → α) : Prop where
  hsn : sn = Schur.sgnNorm p q r
  ne : Flt.eq sn Flt.zero = false
  last : k = iu - 1 → k ≠ im → ∃ x, r = Flt.div Flt.zero x
  left : ∀ i j, ¬ (i = k ∧ j + 1 = k) → f i j = s.t.f i j
  ht : Schur.Same n s'.t.f (Schur.colF (min iu (k + 3) + 1) k (k ≠ iu - 1) (Flt.div q (Flt.add p sn))
    (Flt.div r (Flt.add p sn)) (Flt.div (Flt.add p sn) sn) (Flt.div q sn) (Flt.div r sn)
    (Schur.rowF k (k ≠ iu - 1) (Flt.div q (Flt.add p sn))
    (Flt.div r (Flt.add p sn)) (Flt.div (Flt.add p sn) sn) (Flt.div q sn) (Flt.div r sn) f))
  hp : Schur.Same n s'.p.f (Schur.colF n k (k ≠ iu - 1) (Flt.div q (Flt.add p sn))
    (Flt.div r (Flt.add p sn)) (Flt.div (Flt.add p sn) sn) (Flt.div q sn) (Flt.div r sn) s.p.f)

theorem Schur.reflect_ok {il im iu k : Nat} (h1 : il ≤ im) (h2 : im ≤ k) (h3 : k < iu) (h4 : iu < n)
    (p q r x : α) (hr : k = iu - 1 → k ≠ im → ∃ x, r = Flt.div Flt.zero x) (s : Schur α n) :
    ∃ s', Schur.reflect il im iu k p q r (Schur.sgnNorm p q r) x s = .ok s' ∧
      (s' = s ∨ ∃ p q r sn f, Schur.Refl n im iu k s s' p q r sn f) := by
  unfold Schur.reflect
  by_cases e : Flt.eq (Schur.sgnNorm p q r) Flt.zero = true
  · rw [e]
    exact ⟨s, rfl, .inl rfl⟩
  · rw [Bool.eq_false_iff.2 e]
    simp only [Bool.not_false, if_true]
    have hl : ∃ t' : Tab α n n, Schur.left il im k (Schur.sgnNorm p q r) x s.t = .ok t' ∧
        ∀ i j, ¬ (i = k ∧ j + 1 = k) → t'.f i j = s.t.f i j := by
      unfold Schur.left
      by_cases e1 : k = im
      · rw [if_neg (by omega)]
        by_cases e2 : il = im
        · rw [if_neg (by omega)]
          exact ⟨_, rfl, fun _ _ _ => rfl⟩
        · rw [if_pos e2, Tab.get_ok (by omega) (by omega), ok_bind, Tab.set_ok (by omega) (by omega)]
          refine ⟨_, rfl, fun i j h => ?_⟩
          dsimp only
          rw [upd2_eq, if_neg (by omega)]
      · rw [if_pos e1, Tab.set_ok (by omega) (by omega)]
        refine ⟨_, rfl, fun i j h => ?_⟩
        dsimp only
        rw [upd2_eq, if_neg (by omega)]
    obtain ⟨t', e1, h5⟩ := hl
    rw [e1, ok_bind]
    obtain ⟨s', e2, h6, h7⟩ := Schur.modify_ok (nl := decide (k ≠ iu - 1)) h3 h4
      (fun h => by have := of_decide_eq_true h; omega)
      (Flt.div q (Flt.add p (Schur.sgnNorm p q r))) (Flt.div r (Flt.add p (Schur.sgnNorm p q r)))
      (Flt.div (Flt.add p (Schur.sgnNorm p q r)) (Schur.sgnNorm p q r)) (Flt.div q (Schur.sgnNorm p q r))
      (Flt.div r (Schur.sgnNorm p q r)) (⟨t', s.p⟩ : Schur α n)
    exact ⟨s', e2, .inr ⟨p, q, r, _, t'.f, rfl, Bool.eq_false_iff.2 e, hr, h5, h6, h7⟩⟩

theorem Schur.qrRound_ok (eps : α) {il im iu k : Nat} (h1 : il ≤ im) (h2 : im ≤ k) (h3 : k < iu) (h4 : iu < n)
    (v : α × α × α) (s : Schur α n) :
    ∃ s', Schur.qrRound eps il im iu v k s = .ok s' ∧
      (s' = s ∨ ∃ p q r sn f, Schur.Refl n im iu k s s' p q r sn f) := by
  unfold Schur.qrRound
  by_cases e : k = im
  · rw [if_neg (by omega)]
    exact Schur.reflect_ok h1 h2 h3 h4 _ _ _ _ (fun _ h => absurd e h) s
  · rw [if_pos e, Tab.get_ok (by omega) (by omega), ok_bind, Tab.get_ok (by omega) (by omega), ok_bind]
    by_cases e1 : k = iu - 1
    · rw [if_neg (by omega), pure_eq_ok, ok_bind]
      dsimp only
      split
      · exact ⟨s, rfl, .inl rfl⟩
      · exact Schur.reflect_ok h1 h2 h3 h4 _ _ _ _ (fun _ _ => ⟨_, rfl⟩) s
    · rw [if_pos e1, Tab.get_ok (by omega) (by omega), ok_bind]
      dsimp only
      split
      · exact ⟨s, rfl, .inl rfl⟩
      · exact Schur.reflect_ok h1 h2 h3 h4 _ _ _ _ (fun h _ => absurd h e1) s

theorem Schur.clear_ok {im iu : Nat} (h : iu < n) (t : Tab α n n) :
    Schur.clear im iu t = .ok ⟨fun i j => if im + 2 ≤ i ∧ i ≤ iu ∧ (j + 2 = i ∨ im + 2 < i ∧ j + 3 = i)
      then Flt.zero else t.f i j⟩ := by
  unfold Schur.clear
  have key : ∀ b, b ≤ n → forUp (im + 2) b (fun i (t : Tab α n n) => do
      let t ← t.set i (i - 2) Flt.zero
      if i > im + 2 then t.set i (i - 3) Flt.zero else pure t) t =
      (.ok ⟨fun i j => if im + 2 ≤ i ∧ i < b ∧ (j + 2 = i ∨ im + 2 < i ∧ j + 3 = i)
        then Flt.zero else t.f i j⟩ : Res (Tab α n n)) := by
    intro b hb
    induction b with
    | zero =>
      rw [forUp_eq_self (by omega)]
      refine Tab.okExt fun i j => ?_
      try dsimp only
      rw [if_neg (by omega)]
    | succ b ih =>
      by_cases e : im + 2 ≤ b
      · rw [forUp_last e, ih (by omega), ok_bind, Tab.set_ok (by omega) (by omega), ok_bind]
        by_cases e1 : b > im + 2
        · rw [if_pos e1, Tab.set_ok (by omega) (by omega)]
          refine Tab.okExt fun i j => ?_
          try dsimp only
          rw [upd2_eq]
          by_cases g : i = b ∧ j = b - 3
          · rw [if_pos g, if_pos (by omega)]
          · rw [if_neg g]
            rw [upd2_eq]
            by_cases g : i = b ∧ j = b - 2
            · rw [if_pos g, if_pos (by omega)]
            · rw [if_neg g]
              congr 1
              apply propext
              omega
        · rw [if_neg e1, pure_eq_ok]
          refine Tab.okExt fun i j => ?_
          try dsimp only
          rw [upd2_eq]
          by_cases g : i = b ∧ j = b - 2
          · rw [if_pos g, if_pos (by omega)]
          · rw [if_neg g]
            congr 1
            apply propext
            omega
      · rw [forUp_eq_self (by omega)]
        refine Tab.okExt fun i j => ?_
        try dsimp only
        rw [if_neg (by omega)]
  rw [key _ (by omega)]
  refine Tab.okExt fun i j => ?_
  try dsimp only
  congr 1
  apply propext
  omega

/-- Rule for the double step: an invariant of the rounds. -/
theorem Schur.qrStep_ok (eps : α) {il im iu : Nat} (h1 : il ≤ im) (h2 : im + 2 ≤ iu) (h4 : iu < n)
    (v : α × α × α) (s : Schur α n) (I : Nat → Schur α n → Prop) (h0 : I im s)
    (hs : ∀ k s s' p q r sn f, im ≤ k → k < iu → I k s → Schur.Refl n im iu k s s' p q r sn f → I (k + 1) s')
    (hc : ∀ k s, im ≤ k → k < iu → I k s → I (k + 1) s) :
    ∃ s' s'', Schur.qrStep eps il im iu v s = .ok s'' ∧ I iu s' ∧ s''.p = s'.p ∧
      s''.t.f = fun i j => if im + 2 ≤ i ∧ i ≤ iu ∧ (j + 2 = i ∨ im + 2 < i ∧ j + 3 = i)
      then Flt.zero else s'.t.f i j := by
  unfold Schur.qrStep
  obtain ⟨s', e, hI⟩ := Wp.exists_ok (wp_forUp (E := fun _ => False) I (show im ≤ iu by omega) h0
    (body := Schur.qrRound eps il im iu v) (fun k s a b hI => by
      obtain ⟨s', e, h⟩ := Schur.qrRound_ok eps h1 a b h4 v s
      rw [e, wp_ok]
      rcases h with rfl | ⟨p, q, r, sn, f, h⟩
      · exact hc k _ a b hI
      · exact hs k _ _ p q r sn f a b hI h))
  rw [e, ok_bind, Schur.clear_ok h4, ok_bind]
  exact ⟨s', _, rfl, hI, rfl, rfl⟩

/-- Two roots: both diagonal entries get the shift, and the block is rotated if the roots are real. -/
theorem Schur.pair_ok {k : Nat} (hk : k + 1 < n) (ex : α) (s : Schur α n) :
    ∃ s' : Schur α n, ∃ g : Nat → Nat → α, Schur.pair k ex s = .ok s' ∧
      g = (fun i j => if i = j ∧ (i = k ∨ i = k + 1) then Flt.add (s.t.f i j) ex else s.t.f i j) ∧
      ((s'.t.f = g ∧ s'.p = s.p) ∨ ∃ z,
        Schur.Same n s'.t.f (fun a b => if a < k + 2 then
          Schur.rotV k (Schur.unit (s.t.f (k + 1) k) z).1 (Schur.unit (s.t.f (k + 1) k) z).2
            (fun b => if k ≤ b then
              Schur.rotV k (Schur.unit (s.t.f (k + 1) k) z).1 (Schur.unit (s.t.f (k + 1) k) z).2
                (fun i => g i b) a else g a b) b
          else if k ≤ b then
            Schur.rotV k (Schur.unit (s.t.f (k + 1) k) z).1 (Schur.unit (s.t.f (k + 1) k) z).2 (fun i => g i b) a
          else g a b) ∧
        Schur.Same n s'.p.f (fun a b =>
          Schur.rotV k (Schur.unit (s.t.f (k + 1) k) z).1 (Schur.unit (s.t.f (k + 1) k) z).2 (s.p.f a) b)) := by
  unfold Schur.pair
  rw [Tab.get_ok (by omega) (by omega), ok_bind, Tab.get_ok (by omega) (by omega), ok_bind,
    Tab.get_ok (by omega) (by omega), ok_bind, Tab.get_ok (by omega) (by omega), ok_bind,
    Tab.set_ok hk hk, ok_bind, Tab.get_ok (by omega) (by omega), ok_bind, Tab.set_ok (by omega) (by omega), ok_bind]
  dsimp only
  have hg : upd2 (upd2 s.t.f (k + 1) (k + 1) (Flt.add (s.t.f (k + 1) (k + 1)) ex)) k k
      (Flt.add (upd2 s.t.f (k + 1) (k + 1) (Flt.add (s.t.f (k + 1) (k + 1)) ex) k k) ex) =
      fun i j => if i = j ∧ (i = k ∨ i = k + 1) then Flt.add (s.t.f i j) ex else s.t.f i j := by
    funext i j
    simp only [upd2_eq]
    by_cases e : i = k ∧ j = k
    · rw [if_pos e, if_neg (by omega), if_pos (by omega), e.1, e.2]
    · rw [if_neg e]
      by_cases e' : i = k + 1 ∧ j = k + 1
      · rw [if_pos e', if_pos (by omega), e'.1, e'.2]
      · rw [if_neg e', if_neg (by omega)]
  rw [hg]
  unfold Schur.pairRot
  split
  · rw [Tab.get_ok (by omega) (by omega), ok_bind]
    dsimp only
    rw [if_neg (by omega)]
    obtain ⟨s', e, h1, h2⟩ := Schur.rotate_ok hk (Schur.unit (s.t.f (k + 1) k) (Schur.root
        (Flt.div (Flt.sub (s.t.f k k) (s.t.f (k + 1) (k + 1))) Flt.two)
        (Flt.add (Flt.mul (Flt.div (Flt.sub (s.t.f k k) (s.t.f (k + 1) (k + 1))) Flt.two)
          (Flt.div (Flt.sub (s.t.f k k) (s.t.f (k + 1) (k + 1))) Flt.two))
          (Flt.mul (s.t.f (k + 1) k) (s.t.f k (k + 1)))))).1
        (Schur.unit (s.t.f (k + 1) k) (Schur.root
        (Flt.div (Flt.sub (s.t.f k k) (s.t.f (k + 1) (k + 1))) Flt.two)
        (Flt.add (Flt.mul (Flt.div (Flt.sub (s.t.f k k) (s.t.f (k + 1) (k + 1))) Flt.two)
          (Flt.div (Flt.sub (s.t.f k k) (s.t.f (k + 1) (k + 1))) Flt.two))
          (Flt.mul (s.t.f (k + 1) k) (s.t.f k (k + 1)))))).2 (⟨⟨fun i j =>
            if i = j ∧ (i = k ∨ i = k + 1) then Flt.add (s.t.f i j) ex else s.t.f i j⟩, s.p⟩ : Schur α n)
    exact ⟨s', _, e, rfl, .inr ⟨_, h1, h2⟩⟩
  · exact ⟨_, _, rfl, rfl, .inl ⟨rfl, rfl⟩⟩

/-! ## The loop -/

/-- Rule for the loop: `J` is kept by each of its three branches. With `101` units of fuel for each eigenvalue
still to be found the loop ends, with a result for which `J` holds or with the panic after 100 iterations. -/
theorem Schur.loop_ok (κ : Schur.Lit α) (norm : α) (J : Nat → α → Schur α n → Prop)
    (h1 : ∀ iu ex (s s' : Schur α n), iu < n → J (iu + 1) ex s → Schur.single iu ex s = .ok s' → J iu ex s')
    (h2 : ∀ k ex (s s' : Schur α n), k + 1 < n → J (k + 2) ex s →
      Flt.lt (Flt.abs (s.t.f (k + 1) k))
        (Flt.mul κ.eps (Schur.scale norm (s.t.f k k) (s.t.f (k + 1) (k + 1)))) = false →
      Schur.pair k ex s = .ok s' → J k ex s')
    (h3 : ∀ il im iu ex v t ex' (s s' : Schur α n), il ≤ im → im + 2 ≤ iu → iu < n → J (iu + 1) ex s →
      ((t = s.t ∧ ex' = ex) ∨ ∃ d, ex' = Flt.add ex d ∧
        t = ⟨fun i j => if i = j ∧ i ≤ iu then Flt.sub (s.t.f i j) d else s.t.f i j⟩) →
      Schur.qrStep κ.eps il im iu v ⟨t, s.p⟩ = .ok s' → J (iu + 1) ex' s')
    (fuel u it : Nat) (ex : α) (s : Schur α n) (hu : u ≤ n) (hit : it ≤ 100) (hf : 101 * u ≤ fuel + it)
    (hJ : J u ex s) :
    (∃ s' ex', Schur.loop κ norm fuel u it ex s = .ok (some s') ∧ J 0 ex' s') ∨
      Schur.loop κ norm fuel u it ex s = .error (.pan .maxIter) := by
  induction fuel generalizing u it ex s with
  | zero =>
    obtain rfl : u = 0 := by omega
    exact .inl ⟨s, ex, by rw [Schur.loop]; rfl, hJ⟩
  | succ fuel ih =>
    rcases u with _ | iu
    · exact .inl ⟨s, ex, by rw [Schur.loop]; rfl, hJ⟩
    rw [Schur.loop]
    obtain ⟨il, e, hil, -, hns⟩ := Schur.find_ok κ.eps norm s.t (show iu < n by omega)
    rw [e, ok_bind]
    by_cases e1 : il = iu
    · rw [if_pos e1]
      have hs : ∃ s', Schur.single iu ex s = .ok s' := by
        unfold Schur.single
        rw [Tab.get_ok (by omega) (by omega), ok_bind, Tab.set_ok (by omega) (by omega), ok_bind]
        exact ⟨_, rfl⟩
      obtain ⟨s', e2⟩ := hs
      rw [e2, ok_bind]
      exact ih iu 0 ex s' (by omega) (by omega) (by omega) (h1 iu ex s s' (by omega) hJ e2)
    · rw [if_neg e1]
      by_cases e3 : il + 1 = iu
      · rw [if_pos e3]
        obtain ⟨s', -, e2, -⟩ := Schur.pair_ok (show iu - 1 + 1 < n by omega) ex s
        rw [e2, ok_bind]
        have hk := hns iu (by omega) (le_refl _)
        have h := h2 (iu - 1) ex s s' (by omega) (by rw [show iu - 1 + 2 = iu + 1 by omega]; exact hJ)
          (by rw [show iu - 1 + 1 = iu by omega]; exact hk) e2
        exact ih (iu - 1) 0 ex s' (by omega) (by omega) (by omega) h
      · rw [if_neg e3]
        obtain ⟨th, e4, hth⟩ := Schur.computeShift_ok κ (l := il) it (show iu < n by omega) (by omega) s.t ex
        rw [e4, ok_bind]
        by_cases e5 : it + 1 > 100
        · rw [if_pos e5]
          exact .inr rfl
        · rw [if_neg e5]
          obtain ⟨v, e6, h4, h5⟩ := Schur.initQR_ok κ.eps th.1 th.2 il (iu - 2 - il) (by omega)
          rw [e6, ok_bind]
          obtain ⟨-, s', e7, -⟩ := Schur.qrStep_ok κ.eps h4 (show v.1 + 2 ≤ iu by omega) (show iu < n by omega)
            v.2 (⟨th.1, s.p⟩ : Schur α n) (fun _ _ => True) trivial (fun _ _ _ _ _ _ _ _ _ _ _ _ => trivial)
            (fun _ _ _ _ _ => trivial)
          rw [e7, ok_bind]
          exact ih (iu + 1) (it + 1) th.2.ex s' hu (by omega) (by omega)
            (h3 il v.1 iu ex v.2 th.1 th.2.ex s s' h4 (by omega) (by omega) hJ hth e7)

/-- More fuel does not change a result. -/
theorem Schur.loop_more (κ : Schur.Lit α) (norm : α) (fuel u it : Nat) (ex : α) (s : Schur α n)
    (h : Schur.loop κ norm fuel u it ex s ≠ .ok none) :
    Schur.loop κ norm (fuel + 1) u it ex s = Schur.loop κ norm fuel u it ex s := by
  induction fuel generalizing u it ex s with
  | zero =>
    rcases u with _ | iu
    · rw [Schur.loop, Schur.loop]
    · rw [Schur.loop] at h
      exact absurd rfl h
  | succ fuel ih =>
    rcases u with _ | iu
    · rw [Schur.loop, Schur.loop]
    rw [Schur.loop, Schur.loop.eq_def κ norm (fuel + 1)]
    rw [Schur.loop] at h
    dsimp only
    revert h
    cases Schur.find κ.eps norm s.t iu with
    | error e => intro _; rfl
    | ok il =>
      simp only [ok_bind]
      by_cases e1 : il = iu
      · rw [if_pos e1, if_pos e1]
        cases Schur.single iu ex s with
        | error e => intro _; rfl
        | ok s' => simp only [ok_bind]; intro h; exact ih _ _ _ _ h
      · rw [if_neg e1, if_neg e1]
        by_cases e2 : il + 1 = iu
        · rw [if_pos e2, if_pos e2]
          cases Schur.pair (iu - 1) ex s with
          | error e => intro _; rfl
          | ok s' => simp only [ok_bind]; intro h; exact ih _ _ _ _ h
        · rw [if_neg e2, if_neg e2]
          cases Schur.computeShift κ il iu it s.t ex with
          | error e => intro _; rfl
          | ok th =>
            simp only [ok_bind]
            by_cases e3 : it + 1 > 100
            · rw [if_pos e3, if_pos e3]
              intro _; rfl
            · rw [if_neg e3, if_neg e3]
              cases Schur.initQR κ.eps th.1 th.2 il (iu - 2 - il) with
              | error e => intro _; rfl
              | ok v =>
                simp only [ok_bind]
                cases Schur.qrStep κ.eps il v.1 iu v.2 ⟨th.1, s.p⟩ with
                | error e => intro _; rfl
                | ok s' => simp only [ok_bind]; intro h; exact ih _ _ _ _ h

theorem Schur.loop_fuel (κ : Schur.Lit α) (norm : α) {fuel fuel' u it : Nat} {ex : α} {s : Schur α n}
    (hff : fuel ≤ fuel') (h : Schur.loop κ norm fuel u it ex s ≠ .ok none) :
    Schur.loop κ norm fuel' u it ex s = Schur.loop κ norm fuel u it ex s := by
  induction fuel', hff using Nat.le_induction with
  | base => rfl
  | succ f _ ih => rw [Schur.loop_more κ norm f u it ex s (by rw [ih]; exact h), ih]

theorem Schur.norm_ok (t : Tab α n n) : ∃ x, Schur.norm t = .ok x := by
  unfold Schur.norm
  obtain ⟨x, e, -⟩ := Wp.exists_ok (wp_forUp (E := fun _ => False) (fun _ _ => True) (Nat.zero_le n) trivial
    (body := fun i s => sumUp (i - 1) n (fun j => do return Flt.abs (← t.get i j)) s)
    (s := (Flt.zero : α)) (fun i s _ hi _ => by
      rw [sumUp_ok (fun j => Flt.abs (t.f i j)) fun j _ hj => by rw [Tab.get_ok hi hj]; rfl]
      trivial))
  exact ⟨x, e⟩

/-- The entries of the transformation start from the Hessenberg form. -/
theorem Schur.new_ok [ZeroLaws α] (κ : Schur.Lit α) {a : Mat α n n} (ha : a.own) (hn : 0 < n) :
    ∃ (s0 : Hess α n n) (norm : α) (s : Schur α n) (mp : Mat α n n), Hess.new a = .ok s0 ∧
      Schur.norm s.t = .ok norm ∧
      Schur.Same n s.t.f (Hess.hEnt s0.hv.f) ∧
      s0.p = .ok ⟨n, n, mp⟩ ∧ Shows mp.at n n s.p.f ∧
      ∀ fuel, Schur.new κ fuel a = Schur.loop κ norm fuel n 0 Flt.zero s := by
  obtain ⟨s0, e, -⟩ := Hess.new_wp ha hn a.at_shows (fun _ _ _ => True) (fun _ _ _ => trivial)
    (fun _ _ _ _ _ _ _ _ _ => trivial)
  obtain ⟨mh, eh, hd, hh⟩ := Hess.h_ok hn s0
  obtain ⟨mp, -, P, ep, hdp, hP, -⟩ := Hess.p_wp hn s0 (fun _ _ _ => True) (fun _ _ => trivial)
    (fun _ _ _ _ _ _ _ _ _ => trivial)
  obtain ⟨th, e1, h1⟩ := Mat.dataCopy_ok (Mat.dense_own hd) hn hh
  obtain ⟨tp, e2, h2⟩ := Mat.dataCopy_ok (Mat.dense_own hdp) hn hP
  obtain ⟨norm, e3⟩ := Schur.norm_ok (⟨th.f⟩ : Tab α n n)
  refine ⟨s0, norm, ⟨⟨th.f⟩, ⟨tp.f⟩⟩, mp, e, e3, h1, ep, ?_, fun fuel => ?_⟩
  · exact hP.congr fun i j hi hj => (h2 i j hi hj).symm
  · unfold Schur.new
    rw [Mat.isSquare_ok hn a, ok_bind]
    simp only [Bool.not_true, Bool.false_eq_true, if_false]
    have k1 : Schur.tab n (⟨n, n, mh⟩ : SMat α) = .ok ⟨th.f⟩ := by
      unfold Schur.tab
      rw [if_pos ⟨rfl, rfl⟩, e1, ok_bind]
      rfl
    have k2 : Schur.tab n (⟨n, n, mp⟩ : SMat α) = .ok ⟨tp.f⟩ := by
      unfold Schur.tab
      rw [if_pos ⟨rfl, rfl⟩, e2, ok_bind]
      rfl
    rw [e, ok_bind, eh, ok_bind, k1, ok_bind, ep, ok_bind, k2, ok_bind, e3, ok_bind]

end Linear
