import Verif.Model.Heap
import Verif.Lemmas.Loops

/-!
# Simulation of the value models by the heap
-/

namespace Linear

variable {α β σ : Type}

theorem HM.bind_ok {x : HM α β} {γ : Type} {f : β → HM α γ} {h h' : Heap α} {b : β} (e : x h = (.ok b, h')) :
    (x >>= f) h = f b h' := by
  show (match (x h).1 with | .ok b => f b (x h).2 | .error e => (.error e, (x h).2)) = _
  rw [e]

theorem HM.bind_error {x : HM α β} {γ : Type} {f : β → HM α γ} {h h' : Heap α} {e : Fault}
    (hx : x h = (.error e, h')) : (x >>= f) h = (.error e, h') := by
  show (match (x h).1 with | .ok b => f b (x h).2 | .error e => (.error e, (x h).2)) = _
  rw [hx]

theorem HM.pure_run (b : β) (h : Heap α) : (pure b : HM α β) h = (.ok b, h) := rfl

theorem HM.lift_run (x : Res β) (h : Heap α) : HM.lift (α := α) x h = (x, h) := rfl

/-- A descriptor of an array that does not exist yet is nowhere in the heap. -/
def Heap.Ok (h : Heap α) : Prop := ∀ a k, h.next ≤ a → h.cell a k = none ∧ h.head a k = none

/-- Only the contents of the cells in `F` may differ. -/
structure Frame (F : Nat → Nat → Prop) (h h' : Heap α) : Prop where
  next : h'.next = h.next
  head : h'.head = h.head
  cell : ∀ a k, ¬ F a k → h'.cell a k = h.cell a k
  some : ∀ a k, (h'.cell a k).isSome = (h.cell a k).isSome

theorem Frame.refl (F : Nat → Nat → Prop) (h : Heap α) : Frame F h h := ⟨rfl, rfl, fun _ _ _ => rfl, fun _ _ => rfl⟩

theorem Frame.trans {F : Nat → Nat → Prop} {h h' h'' : Heap α} (a : Frame F h h') (b : Frame F h' h'') :
    Frame F h h'' :=
  ⟨b.next.trans a.next, b.head.trans a.head, fun i k n => (b.cell i k n).trans (a.cell i k n),
    fun i k => (b.some i k).trans (a.some i k)⟩

theorem Frame.ok {F : Nat → Nat → Prop} {h h' : Heap α} (f : Frame F h h') (o : h.Ok) : h'.Ok := fun a k n => by
  have := o a k (by rw [← f.next]; exact n)
  refine ⟨?_, by rw [f.head]; exact this.2⟩
  have e := f.some a k
  rw [this.1] at e
  simpa using e

/-- The heap computation `x`, started at `h`, ends as the value computation with outcome `y`. -/
def SimAt (R : Heap α → σ → Prop) (F : Nat → Nat → Prop) (x : HM α Unit) (h : Heap α)
    (y : Except (Fault × σ) σ) : Prop :=
  match y with
  | .ok s => ∃ h', x h = (.ok (), h') ∧ R h' s ∧ Frame F h h'
  | .error e => ∃ h', x h = (.error e.1, h') ∧ R h' e.2 ∧ Frame F h h'

variable {R : Heap α → σ → Prop} {F : Nat → Nat → Prop} {h : Heap α} {s : σ}

theorem SimAt.read {x : HM α β} {z : Res β} {k : β → HM α Unit} {y : β → Except (Fault × σ) σ} (hR : R h s)
    (hx : x h = (z, h)) (hk : ∀ b, z = .ok b → SimAt R F (k b) h (y b)) :
    SimAt R F (x >>= k) h (z.at s >>= y) := by
  cases z with
  | error e =>
    show SimAt R F (x >>= k) h (.error (e, s))
    exact ⟨h, HM.bind_error hx, hR, Frame.refl _ _⟩
  | ok b =>
    have := hk b rfl
    show SimAt R F (x >>= k) h (y b)
    unfold SimAt at this ⊢
    rw [HM.bind_ok hx]
    exact this

theorem SimAt.lift {z : Res β} {k : β → HM α Unit} {y : β → Except (Fault × σ) σ} (hR : R h s)
    (hk : ∀ b, z = .ok b → SimAt R F (k b) h (y b)) : SimAt R F (HM.lift z >>= k) h (z.at s >>= y) :=
  SimAt.read hR rfl hk

theorem SimAt.fail {e : Fault} (hR : R h s) : SimAt R F (HM.lift (.error e)) h (.error (e, s)) :=
  ⟨h, rfl, hR, Frame.refl _ _⟩

theorem SimAt.done (hR : R h s) : SimAt R F (pure ()) h (.ok s) := ⟨h, rfl, hR, Frame.refl _ _⟩

theorem SimAt.seq {x x' : HM α Unit} {y : Except (Fault × σ) σ} {y' : σ → Except (Fault × σ) σ}
    (hx : SimAt R F x h y) (hx' : ∀ h' s', R h' s' → SimAt R F x' h' (y' s')) :
    SimAt R F (x >>= fun _ => x') h (y >>= y') := by
  cases y with
  | error e =>
    obtain ⟨h', e1, e2, e3⟩ := hx
    exact ⟨h', HM.bind_error e1, e2, e3⟩
  | ok s1 =>
    obtain ⟨h1, e1, e2, e3⟩ := hx
    have := hx' h1 s1 e2
    show SimAt R F _ h (y' s1)
    unfold SimAt at this ⊢
    cases hy : y' s1 with
    | ok s2 =>
      rw [hy] at this
      obtain ⟨h2, f1, f2, f3⟩ := this
      exact ⟨h2, by rw [HM.bind_ok e1, f1], f2, e3.trans f3⟩
    | error e =>
      rw [hy] at this
      obtain ⟨h2, f1, f2, f3⟩ := this
      exact ⟨h2, by rw [HM.bind_ok e1, f1], f2, e3.trans f3⟩

theorem HM.for_self {a b : Nat} (hab : b ≤ a) (body : Nat → HM α Unit) : HM.for' a b body = pure () := by
  unfold HM.for'
  rw [Nat.sub_eq_zero_of_le hab]
  rfl

theorem HM.for_step {a b : Nat} (hab : a < b) (body : Nat → HM α Unit) :
    HM.for' a b body = (body a >>= fun _ => HM.for' (a + 1) b body) := by
  have : b - a = (b - (a + 1)) + 1 := by omega
  unfold HM.for'
  rw [this, List.range'_succ]
  rfl

theorem SimAt.loop {body : Nat → HM α Unit} {ybody : Nat → σ → Except (Fault × σ) σ} {a b : Nat} (hR : R h s)
    (hb : ∀ i, a ≤ i → i < b → ∀ h s, R h s → SimAt R F (body i) h (ybody i s)) :
    SimAt R F (HM.for' a b body) h (forUp a b ybody s) := by
  induction hn : b - a generalizing a h s with
  | zero =>
    rw [HM.for_self (by omega), forUp_eq_self (by omega)]
    exact SimAt.done hR
  | succ n ih =>
    rw [HM.for_step (by omega), forUp_step (by omega)]
    exact SimAt.seq (hb a le_rfl (by omega) h s hR) fun h' s' hR' =>
      ih hR' (fun i h1 h2 => hb i (by omega) h2) (by omega)

/-- An object: how the heap represents its value, its own cells of numbers `F` and of descriptors `G`, and its calls at
both levels. -/
structure Obj (α : Type) where
  σ : Type
  κ : Type
  R : Heap α → σ → Prop
  F : Nat → Nat → Prop
  G : Nat → Nat → Prop
  hs : κ → HM α Unit
  vs : κ → σ → Except (Fault × σ) σ
  sim : ∀ k h s, R h s → SimAt R F (hs k) h (vs k s)
  stable : ∀ h h' s, (∀ a k, G a k → h'.head a k = h.head a k) → (∀ a k, F a k → h'.cell a k = h.cell a k) →
    R h s → R h' s
  alive : ∀ h s, R h s → (∀ a k, F a k → h.cell a k ≠ none) ∧ ∀ a k, G a k → h.head a k ≠ none

/-- A history of the values of one object: whether each call completed, and the last value. A caller that recovers
from a panic goes on with the object as the panic left it. -/
def Obj.run (o : Obj α) (s : o.σ) : List o.κ → List Bool × o.σ
  | [] => ([], s)
  | k :: ks => match o.vs k s with
    | .ok s' => (true :: (o.run s' ks).1, (o.run s' ks).2)
    | .error (_, s') => (false :: (o.run s' ks).1, (o.run s' ks).2)

/-- A history of calls to two objects on the heap. -/
def runBoth (A B : Obj α) : List (A.κ ⊕ B.κ) → Heap α → Heap α
  | [], h => h
  | .inl k :: ks, h => runBoth A B ks (A.hs k h).2
  | .inr k :: ks, h => runBoth A B ks (B.hs k h).2

/-- The calls of one side. -/
def lefts {A B : Type} : List (A ⊕ B) → List A
  | [] => []
  | .inl a :: l => a :: lefts l
  | .inr _ :: l => lefts l

/-- The calls of the other side. -/
def rights {A B : Type} : List (A ⊕ B) → List B
  | [] => []
  | .inl _ :: l => rights l
  | .inr b :: l => b :: rights l

theorem Obj.step (o : Obj α) {k : o.κ} {h : Heap α} {s : o.σ} (hR : o.R h s) (ks : List o.κ) :
    ∃ s', o.R (o.hs k h).2 s' ∧ Frame o.F h (o.hs k h).2 ∧ (o.run s (k :: ks)).2 = (o.run s' ks).2 := by
  have := o.sim k h s hR
  cases e : o.vs k s with
  | ok s' =>
    rw [e] at this
    obtain ⟨h', e1, e2, e3⟩ := this
    rw [e1]
    exact ⟨s', e2, e3, by rw [Obj.run, e]⟩
  | error p =>
    rw [e] at this
    obtain ⟨h', e1, e2, e3⟩ := this
    rw [e1]
    exact ⟨p.2, e2, e3, by rw [Obj.run, e]⟩

/-- Objects without common cells do not influence each other. -/
theorem runBoth_indep {A B : Obj α} (hd : ∀ a k, A.F a k → ¬ B.F a k) (ks : List (A.κ ⊕ B.κ)) {h : Heap α}
    {a : A.σ} {b : B.σ} (ha : A.R h a) (hb : B.R h b) :
    A.R (runBoth A B ks h) (A.run a (lefts ks)).2 ∧ B.R (runBoth A B ks h) (B.run b (rights ks)).2 := by
  induction ks generalizing h a b with
  | nil => exact ⟨ha, hb⟩
  | cons k ks ih =>
    cases k with
    | inl k =>
      obtain ⟨a', r1, r2, r3⟩ := A.step (k := k) ha (lefts ks)
      show A.R (runBoth A B ks (A.hs k h).2) (A.run a (k :: lefts ks)).2 ∧ _
      rw [r3]
      exact ih r1 (B.stable _ _ _ (fun x y _ => by rw [r2.head]) (fun x y hF => r2.cell x y fun hA => hd x y hA hF) hb)
    | inr k =>
      obtain ⟨b', r1, r2, r3⟩ := B.step (k := k) hb (rights ks)
      show _ ∧ B.R (runBoth A B ks (B.hs k h).2) (B.run b (k :: rights ks)).2
      rw [r3]
      exact ih (A.stable _ _ _ (fun x y _ => by rw [r2.head]) (fun x y hF => r2.cell x y (hd x y hF)) ha) r1

/-- From `h` to `h'` arrays were only added: the arrays before number `b` are as they were. -/
structure Old (b : Nat) (h h' : Heap α) : Prop where
  next : h.next ≤ h'.next
  cell : ∀ a k, a < b → h'.cell a k = h.cell a k
  head : ∀ a k, a < b → h'.head a k = h.head a k
  ok : h'.Ok

theorem Old.refl {b : Nat} {h : Heap α} (o : h.Ok) : Old b h h := ⟨le_rfl, fun _ _ _ => rfl, fun _ _ _ => rfl, o⟩

theorem Old.trans {b : Nat} {h h' h'' : Heap α} (x : Old b h h') (y : Old b h' h'') : Old b h h'' :=
  ⟨x.next.trans y.next, fun a k n => (y.cell a k n).trans (x.cell a k n), fun a k n => (y.head a k n).trans (x.head a k n),
    y.ok⟩

theorem Frame.old {b : Nat} {F : Nat → Nat → Prop} {h h' : Heap α} (f : Frame F h h') (o : h.Ok)
    (hF : ∀ a k, F a k → b ≤ a) : Old b h h' :=
  ⟨le_of_eq f.next.symm, fun a k n => f.cell a k fun hf => absurd (hF a k hf) (by omega), fun a k _ => by rw [f.head],
    f.ok o⟩

theorem Obj.below (A : Obj α) {h : Heap α} {s : A.σ} (hR : A.R h s) (o : h.Ok) :
    (∀ a k, A.F a k → a < h.next) ∧ ∀ a k, A.G a k → a < h.next :=
  ⟨fun a k hF => by
    by_contra n
    exact (A.alive h s hR).1 a k hF (o a k (by omega)).1,
   fun a k hG => by
    by_contra n
    exact (A.alive h s hR).2 a k hG (o a k (by omega)).2⟩

theorem Obj.survives (A : Obj α) {h h' : Heap α} {s : A.σ} (hR : A.R h s) (o : h.Ok) (x : Old h.next h h') : A.R h' s :=
  A.stable h h' s (fun a k hG => x.head a k ((A.below hR o).2 a k hG))
    (fun a k hF => x.cell a k ((A.below hR o).1 a k hF)) hR

/-- An object made of new arrays is independent of every object that existed before. -/
theorem Obj.indep (A B : Obj α) {h h' : Heap α} {a : A.σ} {b : B.σ} (o : h.Ok) (ha : A.R h a) (x : Old h.next h h')
    (hb : B.R h' b) (hB : ∀ i k, B.F i k → h.next ≤ i) (ks : List (A.κ ⊕ B.κ)) :
    A.R (runBoth A B ks h') (A.run a (lefts ks)).2 ∧ B.R (runBoth A B ks h') (B.run b (rights ks)).2 :=
  runBoth_indep (fun i k hA hB' => absurd (hB i k hB') (by have := (A.below ha o).1 i k hA; omega)) ks
    (A.survives ha o x) hb

theorem HM.for_ok {body : Nat → HM α Unit} {a b : Nat} {h : Heap α} (I : Nat → Heap α → Prop) (hab : a ≤ b) (h0 : I a h)
    (hs : ∀ i h, a ≤ i → i < b → I i h → ∃ h', body i h = (.ok (), h') ∧ I (i + 1) h') :
    ∃ h', HM.for' a b body h = (.ok (), h') ∧ I b h' := by
  induction hn : b - a generalizing a h with
  | zero =>
    have : a = b := by omega
    subst this
    exact ⟨h, by rw [HM.for_self le_rfl]; rfl, h0⟩
  | succ n ih =>
    obtain ⟨h1, e1, i1⟩ := hs a h le_rfl (by omega) h0
    obtain ⟨h2, e2, i2⟩ := ih (by omega) i1 (fun i h p q => hs i h (by omega) q) (by omega)
    exact ⟨h2, by rw [HM.for_step (by omega), HM.bind_ok e1, e2], i2⟩

theorem HM.make_run [Flt α] (n : Nat) (h : Heap α) (o : h.Ok) :
    ∃ h', HM.make n h = (.ok ⟨h.next, 0, n, n⟩, h') ∧ h'.next = h.next + 1 ∧ Old h.next h h' ∧ h'.head = h.head ∧
      (∀ k, k < n → h'.cell h.next k = some Flt.zero) := by
  refine ⟨_, rfl, rfl, ⟨Nat.le_succ _, fun a k n => if_neg (by omega), fun _ _ _ => rfl, fun a k hn => ?_⟩, rfl,
    fun k hk => ?_⟩
  · dsimp only at hn ⊢
    rw [if_neg (by omega)]
    exact o a k (by omega)
  · dsimp only
    rw [if_pos rfl, if_pos hk]

theorem HM.makeH_run (n : Nat) (h : Heap α) (o : h.Ok) :
    ∃ h', HM.makeH n h = (.ok ⟨h.next, 0, n, n⟩, h') ∧ h'.next = h.next + 1 ∧ Old h.next h h' ∧ h'.cell = h.cell ∧
      (∀ k, k < n → h'.head h.next k = some ⟨0, 0, 0, 0⟩) := by
  refine ⟨_, rfl, rfl, ⟨Nat.le_succ _, fun _ _ _ => rfl, fun a k n => if_neg (by omega), fun a k hn => ?_⟩, rfl,
    fun k hk => ?_⟩
  · dsimp only at hn ⊢
    rw [if_neg (by omega)]
    exact o a k (by omega)
  · dsimp only
    rw [if_pos rfl, if_pos hk]

end Linear
