import Verif.Model.Cache

/-!
# Cached factors: steps that answer what a computation on its own answers
-/

namespace Linear

variable {α : Type} [Flt α]

/-- The step `x` keeps the invariant `I`, and, if `c` holds, it answers `b`: the same value or the same failure. -/
structure Does {β σ : Type} (x : Res (β × σ)) (b : Res β) (I : σ → Prop) (c : Prop) : Prop where
  inv : ∀ v s, x = .ok (v, s) → I s
  ans : c → x.map Prod.fst = b

theorem Does.pure {β σ : Type} {v : β} {s : σ} {I : σ → Prop} {c : Prop} (h : I s) : Does (.ok (v, s)) (.ok v) I c :=
  ⟨fun w t hw => by cases hw; exact h, fun _ => rfl⟩

theorem Does.hit {β σ : Type} {v : β} {b : Res β} {s : σ} {I : σ → Prop} {c : Prop} (h : I s) (hb : c → b = .ok v) :
    Does (.ok (v, s)) b I c :=
  ⟨fun w t hw => by cases hw; exact h, fun hc => (hb hc).symm⟩

theorem Does.bind {β γ σ τ : Type} {x : Res (β × σ)} {b : Res β} {I : σ → Prop} {J : τ → Prop} {c c' : Prop}
    {f : β × σ → Res (γ × τ)} {g : β → Res γ} (h : Does x b I c) (hc : c' → c)
    (hf : ∀ v s, I s → (c → b = .ok v) → Does (f (v, s)) (g v) J c') : Does (x >>= f) (b >>= g) J c' := by
  obtain ⟨h1, h2⟩ := h
  cases x with
  | error e =>
    refine ⟨fun v s hv => (by cases hv), fun hc' => ?_⟩
    have := h2 (hc hc')
    rw [← this]
    rfl
  | ok y =>
    have hb : c → b = .ok y.1 := fun hc => (h2 hc).symm
    obtain ⟨g1, g2⟩ := hf y.1 y.2 (h1 _ _ rfl) hb
    refine ⟨g1, fun hc' => ?_⟩
    rw [hb (hc hc')]
    exact g2 hc'

/-- A computation that does not touch the object. -/
theorem Does.lift {β γ τ : Type} {b : Res β} {J : τ → Prop} {c : Prop} {f : β → Res (γ × τ)} {g : β → Res γ}
    (hf : ∀ v, b = .ok v → Does (f v) (g v) J c) : Does (b >>= f) (b >>= g) J c := by
  cases b with
  | error e => exact ⟨fun v s hv => (by cases hv), fun _ => rfl⟩
  | ok v => exact hf v rfl

/-- As `lift`, with nothing left to compute on the other side. -/
theorem Does.keep {β τ : Type} {b : Res β} {J : τ → Prop} {c : Prop} {f : β → Res (β × τ)}
    (hf : ∀ v, b = .ok v → Does (f v) (.ok v) J c) : Does (b >>= f) b J c := by
  cases b with
  | error e => exact ⟨fun v s hv => (by cases hv), fun _ => rfl⟩
  | ok v => exact hf v rfl

/-- A computation on private data that agree if `c` holds. -/
theorem Does.like {β γ τ : Type} {b b' : Res β} {J : τ → Prop} {c : Prop} {s : τ} {g : β → γ} (hs : J s) (hb : c → b' = b) :
    Does (b' >>= fun y => .ok (g y, s)) (b >>= fun y => .ok (g y)) J c := by
  refine ⟨fun v t hv => ?_, fun hc => ?_⟩
  · cases b' with
    | error e => cases hv
    | ok y =>
      cases hv
      exact hs
  · rw [hb hc]
    cases b <;> rfl

theorem Does.fail {γ τ : Type} {J : τ → Prop} {c : Prop} {e : Fault} : Does (.error e : Res (γ × τ)) (.error e) J c :=
  ⟨fun v s hv => (by cases hv), fun _ => rfl⟩

/-- A slot is empty or holds the result of `b`. -/
def Slot {β : Type} (o : Option β) (b : Res β) : Prop := ∀ x, o = some x → b = .ok x

theorem Slot.none {β : Type} (b : Res β) : Slot (none : Option β) b := by
  intro x h
  cases h

theorem Slot.some {β : Type} {b : Res β} {x : β} (h : b = .ok x) : Slot (some x) b := by
  intro y hy
  cases hy
  exact h

/-- Looking into a slot, and building the factor from private data if it is empty. -/
theorem Does.cached {β τ : Type} {o : Option β} {b b' : Res β} {J : τ → Prop} {c : Prop} {f : β → Res (β × τ)}
    (ho : c → Slot o b) (hb : c → b' = b)
    (hf : ∀ v, (c → b = .ok v) → Does (f v) (.ok v) J c) : Does (cached o b' >>= f) b J c := by
  have key : c → Linear.cached o b' = b := by
    intro hc
    cases o with
    | none => exact hb hc
    | some x => exact (ho hc x rfl).symm
  cases e : Linear.cached o b' with
  | error g =>
    refine ⟨fun v s hv => (by cases hv), fun hc => ?_⟩
    rw [← key hc, e]
    rfl
  | ok v =>
    have hv : c → b = .ok v := fun hc => (key hc).symm.trans e
    obtain ⟨h1, h2⟩ := hf v hv
    exact ⟨h1, fun hc => (h2 hc).trans (hv hc).symm⟩

/-- Calls that answer `val` and keep the invariant `I` answer `val` in every sequence. -/
theorem runCalls_eq {A β σ : Type} {call : A → σ → Res (β × σ)} {val : A → Res β} {I : σ → Prop}
    (h : ∀ a s, I s → Does (call a s) (val a) I True) :
    ∀ (cs : List A) (s : σ), I s → (runCalls call cs s).map Prod.fst = cs.mapM val
  | [], s, _ => rfl
  | a :: as, s, hs => by
    obtain ⟨h1, h2⟩ := h a s hs
    have h2 := h2 trivial
    cases hx : call a s with
    | error e =>
      rw [hx] at h2
      rw [List.mapM_cons, ← h2, runCalls, hx]
      rfl
    | ok y =>
      have ih := runCalls_eq h as y.2 (h1 y.1 y.2 hx)
      rw [hx] at h2
      rw [List.mapM_cons, ← h2, ← ih, runCalls, hx]
      show Except.map Prod.fst (runCalls call as y.2 >>= _) = _
      cases runCalls call as y.2 <;> rfl

/-- The accessors through which a client has written. -/
def Wrote {A : Type} (as : List (Act A α)) (a : A) : Prop := ∃ x, Act.write a x ∈ as

/-- An invariant that survives the calls and the writes holds at the end of every sequence of actions. -/
theorem runActs_inv {A β σ : Type} {call : A → σ → Res (β × σ)} {write : A → SMat α → σ → σ} {I : σ → Prop}
    (hc : ∀ a s v t, I s → call a s = .ok (v, t) → I t) :
    ∀ (as : List (Act A α)) (s s' : σ), (∀ a x s, Act.write a x ∈ as → I s → I (write a x s)) → I s →
      runActs call write as s = .ok s' → I s'
  | [], s, s', _, hs, e => by
    cases e
    exact hs
  | .call a :: as, s, s', hw, hs, e => by
    rw [runActs] at e
    cases h : call a s with
    | error f =>
      rw [h] at e
      cases e
    | ok x =>
      rw [h] at e
      exact runActs_inv hc as x.2 s' (fun b x s hb => hw b x s (List.mem_cons_of_mem _ hb)) (hc a s x.1 x.2 hs h) e
  | .write a x :: as, s, s', hw, hs, e =>
    runActs_inv hc as _ s' (fun b x s hb => hw b x s (List.mem_cons_of_mem _ hb)) (hw a x s List.mem_cons_self hs) e

/-- What C96 and C97 have in common.  `I w` is the invariant when the matrices in `w` have been overwritten, `clean w a` says that the
answer to `a` does not use them. -/
theorem acts_answer {A β σ : Type} {call : A → σ → Res (β × σ)} {write : A → SMat α → σ → σ} {val : A → Res β}
    {I : (A → Prop) → σ → Prop} {clean : (A → Prop) → A → Prop}
    (h : ∀ w a s, I w s → Does (call a s) (val a) (I w) (clean w a))
    (hw : ∀ w a x s, w a → I w s → I w (write a x s)) {as : List (Act A α)} {s s' : σ} (hs : I (Wrote as) s)
    (e : runActs call write as s = .ok s') :
    I (Wrote as) s' ∧ ∀ a, clean (Wrote as) a → (call a s').map Prod.fst = val a := by
  have key : I (Wrote as) s' := runActs_inv (fun a s v t hI ht => (h _ a s hI).inv v t ht) as s s'
    (fun a x s hm hI => hw _ a x s ⟨x, hm⟩ hI) hs e
  exact ⟨key, fun a ha => (h _ a s' key).ans ha⟩

end Linear
