import Mathlib.Tactic.Common
import Mathlib.Algebra.Order.Group.Nat

/-!
# Outcomes, loops and a small weakest-precondition calculus

Go functions of the library end in one of four ways: they return normally, they
return an `error`, they `panic` with a library error, or the Go runtime panics.
-/

namespace Linear

/-- Status codes of `/repo/error.go:12-35` (constants `FAILURE`..`EILLSTATE`), without the two
sanity values. Messages are modelled in `Model/Errors`. -/
inductive Status
  | range | maxIter | sing | unsup | arith | inv | noDat | matDim | multiDim | symm | sqMat
  | dim | notSPos | notPos | small | big | illN | illArg | illState
  deriving DecidableEq, Repr

/-- How a call fails. `err`: an `error` value is returned. `pan`: the code calls `panic` with a
library error. `rt`: the Go runtime panics (index or slice bounds out of range, nil dereference).
`user`: code supplied by the caller (a visitor or a foreign implementation) panics. -/
inductive Fault
  | err (s : Status)
  | pan (s : Status)
  | rt
  | user
  deriving DecidableEq, Repr

/-- Outcome of a call that has no observable effect when it fails. -/
abbrev Res (β : Type) := Except Fault β

/-- Outcome of a mutating call on an object with state `σ`: the new state, or the fault together
with the state reached when the call failed (visible to a caller that recovers). -/
notation "Mut " σ:max => Except (Fault × σ) σ

/-- Run a `Res` computation inside a mutator whose current state is `s`. -/
def Res.at {σ β : Type} (s : σ) : Res β → Except (Fault × σ) β
  | .ok b => .ok b
  | .error f => .error (f, s)

/-- `if err := f(); err != nil { panic(err) }`: a returned error becomes a panic. -/
def Res.must {β : Type} : Res β → Res β
  | .error (.err s) => .error (.pan s)
  | r => r

/-- `for i := a; i < b; i++ { body }` with loop-carried state `s`. -/
def forUp {ε σ : Type} (a b : Nat) (body : Nat → σ → Except ε σ) (s : σ) : Except ε σ :=
  (List.range' a (b - a)).foldlM (fun s i => body i s) s

/-- `for i := a - 1; i >= b; i-- { body }` with loop-carried state `s`. -/
def forDown {ε σ : Type} (a b : Nat) (body : Nat → σ → Except ε σ) (s : σ) : Except ε σ :=
  (List.range' b (a - b)).reverse.foldlM (fun s i => body i s) s

/-- `for k := 0; k < fuel; k++` with exits: the body answers `.inl s` to continue and `.inr r` to
leave the loop with `r` (a Go `break` or `return`). -/
def forUpBrk {ε σ ρ : Type} (a b : Nat) (body : Nat → σ → Except ε (σ ⊕ ρ)) (s : σ) :
    Except ε (σ ⊕ ρ) :=
  (List.range' a (b - a)).foldlM
    (fun s i => match s with
      | .inl s => body i s
      | .inr r => .ok (.inr r)) (.inl s)

/-- Weakest precondition: `Q` holds of the result, or `E` holds of the fault. -/
def Wp {ε β : Type} (x : Except ε β) (Q : β → Prop) (E : ε → Prop) : Prop :=
  match x with
  | .ok b => Q b
  | .error e => E e

section Wp
variable {ε β γ σ ρ : Type} {Q : β → Prop} {E : ε → Prop}

@[simp] theorem wp_ok (b : β) : Wp (.ok b : Except ε β) Q E ↔ Q b := Iff.rfl
@[simp] theorem wp_error (e : ε) : Wp (.error e : Except ε β) Q E ↔ E e := Iff.rfl
@[simp] theorem wp_pure (b : β) : Wp (pure b : Except ε β) Q E ↔ Q b := Iff.rfl
@[simp] theorem wp_throw (e : ε) : Wp (throw e : Except ε β) Q E ↔ E e := Iff.rfl

@[simp] theorem wp_bind (x : Except ε γ) (f : γ → Except ε β) :
    Wp (x >>= f) Q E ↔ Wp x (fun c => Wp (f c) Q E) E := by
  cases x <;> rfl

@[simp] theorem wp_map (x : Except ε γ) (f : γ → β) :
    Wp (f <$> x) Q E ↔ Wp x (fun c => Q (f c)) E := by
  cases x <;> rfl

theorem wp_ite (c : Prop) [Decidable c] (x y : Except ε β) :
    Wp (if c then x else y) Q E ↔ (c → Wp x Q E) ∧ (¬ c → Wp y Q E) := by
  by_cases h : c <;> simp [h]

theorem Wp.mono {x : Except ε β} {Q' : β → Prop} {E' : ε → Prop} (h : Wp x Q E)
    (hQ : ∀ b, Q b → Q' b) (hE : ∀ e, E e → E' e) : Wp x Q' E' := by
  cases x with
  | ok b => exact hQ b h
  | error e => exact hE e h

theorem Wp.imp {x : Except ε β} {Q' : β → Prop} (h : Wp x Q E)
    (hQ : ∀ b, Q b → Q' b) : Wp x Q' E := h.mono hQ fun _ h => h

theorem Wp.and {x : Except ε β} {Q' : β → Prop} {E' : ε → Prop} (h : Wp x Q E)
    (h' : Wp x Q' E') : Wp x (fun b => Q b ∧ Q' b) (fun e => E e ∧ E' e) := by
  cases x <;> exact ⟨h, h'⟩

theorem Wp.exists_ok {x : Except ε β} (h : Wp x Q (fun _ => False)) : ∃ b, x = .ok b ∧ Q b := by
  cases x with
  | ok b => exact ⟨b, rfl, h⟩
  | error e => exact h.elim

theorem Wp.exists_error {x : Except ε β} (h : Wp x (fun _ => False) E) :
    ∃ e, x = .error e ∧ E e := by
  cases x with
  | ok b => exact h.elim
  | error e => exact ⟨e, rfl, h⟩

theorem wp_of_eq_ok {x : Except ε β} {b : β} (h : x = .ok b) (hQ : Q b) : Wp x Q E := by
  subst h; exact hQ

theorem Wp.of_ok {x : Except ε β} {b : β} (h : Wp x Q E) (hx : x = .ok b) : Q b := by
  subst hx; exact h

theorem Wp.of_error {x : Except ε β} {e : ε} (h : Wp x Q E) (hx : x = .error e) : E e := by
  subst hx; exact h

theorem wp_iff_exists_ok {x : Except ε β} : Wp x Q (fun _ => False) ↔ ∃ b, x = .ok b ∧ Q b :=
  ⟨Wp.exists_ok, fun ⟨_, h, hQ⟩ => wp_of_eq_ok h hQ⟩

@[simp] theorem wp_at {Q : β → Prop} {E : Fault × σ → Prop} (s : σ) (x : Res β) :
    Wp (x.at s) Q E ↔ Wp x Q (fun f => E (f, s)) := by
  cases x <;> rfl

@[simp] theorem wp_must_ok {Q : β → Prop} {E : Fault → Prop} (b : β) :
    Wp (Res.must (.ok b)) Q E ↔ Q b := Iff.rfl

theorem forUp_eq_self {a b : Nat} (h : b ≤ a) (body : Nat → σ → Except ε σ) (s : σ) :
    forUp a b body s = .ok s := by
  simp [forUp, Nat.sub_eq_zero_of_le h]; rfl

theorem forUp_step {a b : Nat} (h : a < b) (body : Nat → σ → Except ε σ) (s : σ) :
    forUp a b body s = body a s >>= forUp (a + 1) b body := by
  have : b - a = (b - (a + 1)) + 1 := by omega
  rw [forUp, this, List.range'_succ]
  rfl

theorem forUp_last {a b : Nat} (h : a ≤ b) (body : Nat → σ → Except ε σ) (s : σ) :
    forUp a (b + 1) body s = forUp a b body s >>= body b := by
  have h1 : b + 1 - a = (b - a) + 1 := by omega
  rw [forUp, h1, List.range'_1_concat, List.foldlM_append]
  have : a + (b - a) = b := by omega
  simp [forUp, this]

/-- Loop rule for ascending loops: total correctness with an index-dependent invariant. -/
theorem wp_forUp {E : ε → Prop} (I : Nat → σ → Prop) {a b : Nat} (hab : a ≤ b)
    {body : Nat → σ → Except ε σ} {s : σ} (h0 : I a s)
    (hs : ∀ i s, a ≤ i → i < b → I i s → Wp (body i s) (I (i + 1)) E) :
    Wp (forUp a b body s) (I b) E := by
  induction b, hab using Nat.le_induction with
  | base => rw [forUp_eq_self (le_refl _)]; exact h0
  | succ b hab ih =>
    rw [forUp_last hab, wp_bind]
    exact (ih fun i s h1 h2 => hs i s h1 (by omega)).imp fun s h => hs b s hab (by omega) h

theorem forDown_eq_self {a b : Nat} (h : a ≤ b) (body : Nat → σ → Except ε σ) (s : σ) :
    forDown a b body s = .ok s := by
  simp [forDown, Nat.sub_eq_zero_of_le h]; rfl

theorem forDown_step {a b : Nat} (h : b ≤ a) (body : Nat → σ → Except ε σ) (s : σ) :
    forDown (a + 1) b body s = body a s >>= forDown a b body := by
  have h1 : a + 1 - b = (a - b) + 1 := by omega
  rw [forDown, h1, List.range'_1_concat]
  have : b + (a - b) = a := by omega
  simp [this]
  rfl

/-- Loop rule for descending loops (`for i := a-1; i >= b; i--`): the invariant `I i` holds when
all indices `>= i` have been processed. -/
theorem wp_forDown {E : ε → Prop} (I : Nat → σ → Prop) {a b : Nat} (hab : b ≤ a)
    {body : Nat → σ → Except ε σ} {s : σ} (h0 : I a s)
    (hs : ∀ i s, b ≤ i → i < a → I (i + 1) s → Wp (body i s) (I i) E) :
    Wp (forDown a b body s) (I b) E := by
  induction a, hab using Nat.le_induction generalizing s with
  | base => rw [forDown_eq_self (le_refl _)]; exact h0
  | succ a hab ih =>
    rw [forDown_step hab, wp_bind]
    exact (hs a s hab (by omega) h0).imp fun s h => ih h fun i s h1 h2 => hs i s h1 (by omega)

theorem forUpBrk_eq_self {a b : Nat} (h : b ≤ a) (body : Nat → σ → Except ε (σ ⊕ ρ)) (s : σ) :
    forUpBrk a b body s = .ok (.inl s) := by
  simp [forUpBrk, Nat.sub_eq_zero_of_le h]; rfl

theorem forUpBrk_last {a b : Nat} (h : a ≤ b) (body : Nat → σ → Except ε (σ ⊕ ρ)) (s : σ) :
    forUpBrk a (b + 1) body s = (forUpBrk a b body s >>= fun s => match s with
      | .inl s => body b s
      | .inr r => .ok (.inr r)) := by
  have h1 : b + 1 - a = (b - a) + 1 := by omega
  rw [forUpBrk, h1, List.range'_1_concat, List.foldlM_append]
  have : a + (b - a) = b := by omega
  simp [forUpBrk, this]

/-- Loop rule for ascending loops with exits. -/
theorem wp_forUpBrk {E : ε → Prop} (I : Nat → σ → Prop) (R : ρ → Prop) {a b : Nat} (hab : a ≤ b)
    {body : Nat → σ → Except ε (σ ⊕ ρ)} {s : σ} (h0 : I a s)
    (hs : ∀ i s, a ≤ i → i < b → I i s → Wp (body i s) (Sum.elim (I (i + 1)) R) E) :
    Wp (forUpBrk a b body s) (Sum.elim (I b) R) E := by
  induction b, hab using Nat.le_induction with
  | base => rw [forUpBrk_eq_self (le_refl _)]; exact h0
  | succ b hab ih =>
    rw [forUpBrk_last hab, wp_bind]
    refine (ih fun i s h1 h2 => hs i s h1 (by omega)).imp ?_
    rintro (s | r) h
    · exact hs b s hab (by omega) h
    · exact h

end Wp

end Linear
