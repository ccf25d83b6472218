import Verif.Model.HeapLU
import Verif.Lemmas.HeapCopy
import Verif.Lemmas.MatLemmas

/-!
# Heap computations that work in place on one table
-/

set_option linter.unusedSectionVars false

namespace Linear

open HM Heap

variable {α S S' T : Type}

/-- The heap computation `x`, started at `h`, ends as the value computation with outcome `y`: `p` is the part of the
value that is on the heap, `q` the part that is returned. -/
def RunAt (R : Heap α → T → Prop) (F : Nat → Nat → Prop) (p : S → T) {β : Type} (q : S → β) (x : HM α β) (h : Heap α)
    (y : Res S) : Prop :=
  match y with
  | .ok s => ∃ h', x h = (.ok (q s), h') ∧ R h' (p s) ∧ Frame F h h'
  | .error e => ∃ h', x h = (.error e, h') ∧ Frame F h h'

variable {R : Heap α → T → Prop} {F : Nat → Nat → Prop} {h : Heap α} {β γ : Type}

theorem RunAt.bind {p : S → T} {q : S → β} {p' : S' → T} {q' : S' → γ} {x : HM α β} {y : Res S} {k : β → HM α γ}
    {z : S → Res S'} (hx : RunAt R F p q x h y)
    (hk : ∀ s h', R h' (p s) → RunAt R F p' q' (k (q s)) h' (z s)) : RunAt R F p' q' (x >>= k) h (y >>= z) := by
  cases y with
  | error e =>
    obtain ⟨h', e1, e2⟩ := hx
    exact ⟨h', HM.bind_error e1, e2⟩
  | ok s =>
    obtain ⟨h', e1, e2, e3⟩ := hx
    have := hk s h' e2
    show RunAt R F p' q' _ h (z s)
    unfold RunAt at this ⊢
    rw [HM.bind_ok e1]
    cases hz : z s with
    | ok s' =>
      rw [hz] at this
      obtain ⟨h2, f1, f2, f3⟩ := this
      exact ⟨h2, f1, f2, e3.trans f3⟩
    | error e =>
      rw [hz] at this
      obtain ⟨h2, f1, f2⟩ := this
      exact ⟨h2, f1, e3.trans f2⟩

/-- A step that does not change the heap. -/
theorem RunAt.read {p : S → T} {q : S → γ} {x : HM α β} {y : Res β} {k : β → HM α γ} {z : β → Res S}
    (hx : x h = (y, h)) (hk : ∀ b, y = .ok b → RunAt R F p q (k b) h (z b)) : RunAt R F p q (x >>= k) h (y >>= z) := by
  cases y with
  | error e => exact ⟨h, HM.bind_error hx, Frame.refl _ _⟩
  | ok b =>
    have := hk b rfl
    show RunAt R F p q _ h (z b)
    unfold RunAt at this ⊢
    rw [HM.bind_ok hx]
    exact this

theorem RunAt.ret {p : S → T} {q : S → β} {s : S} {b : β} (hb : b = q s) (hR : R h (p s)) :
    RunAt R F p q (pure b) h (.ok s) := ⟨h, by rw [hb]; rfl, hR, Frame.refl _ _⟩

theorem forS_self {σ : Type} {a b : Nat} (hab : b ≤ a) (body : Nat → σ → HM α σ) (s : σ) : forS a b body s = pure s := by
  unfold forS
  rw [Nat.sub_eq_zero_of_le hab]
  rfl

theorem forS_step {σ : Type} {a b : Nat} (hab : a < b) (body : Nat → σ → HM α σ) (s : σ) :
    forS a b body s = (body a s >>= fun s => forS (a + 1) b body s) := by
  have : b - a = (b - (a + 1)) + 1 := by omega
  unfold forS
  rw [this, List.range'_succ]
  rfl

theorem RunAt.forS {p : S → T} {q : S → β} {body : Nat → β → HM α β} {z : Nat → S → Res S} {a b : Nat} {s : S}
    (hR : R h (p s)) (hb : ∀ i s h, a ≤ i → i < b → R h (p s) → RunAt R F p q (body i (q s)) h (z i s)) :
    RunAt R F p q (forS a b body (q s)) h (forUp a b z s) := by
  induction hn : b - a generalizing a h s with
  | zero =>
    rw [forS_self (by omega), forUp_eq_self (by omega)]
    exact RunAt.ret rfl hR
  | succ n ih =>
    rw [forS_step (by omega), forUp_step (by omega)]
    exact RunAt.bind (hb a s h le_rfl (by omega) hR) fun s' h' hR' =>
      ih hR' (fun i s h h1 h2 => hb i s h (by omega) h2) (by omega)

theorem RunAt.for' {p : S → T} {body : Nat → HM α Unit} {z : Nat → S → Res S} {a b : Nat} {s : S}
    (hR : R h (p s)) (hb : ∀ i s h, a ≤ i → i < b → R h (p s) → RunAt R F p (fun _ => ()) (body i) h (z i s)) :
    RunAt R F p (fun _ => ()) (for' a b body) h (forUp a b z s) := by
  induction hn : b - a generalizing a h s with
  | zero =>
    rw [HM.for_self (by omega), forUp_eq_self (by omega)]
    exact RunAt.ret rfl hR
  | succ n ih =>
    rw [HM.for_step (by omega), forUp_step (by omega)]
    exact RunAt.bind (hb a s h le_rfl (by omega) hR) fun s' h' hR' =>
      ih hR' (fun i s h h1 h2 => hb i s h (by omega) h2) (by omega)

theorem forBrk_self {σ ρ : Type} {a b : Nat} (hab : b ≤ a) (body : Nat → σ → HM α (σ ⊕ ρ)) (s : σ) :
    forBrk a b body s = pure (.inl s) := by
  unfold forBrk
  rw [Nat.sub_eq_zero_of_le hab]
  rfl

theorem foldlM_last {σ : Type} (f : σ → Nat → HM α σ) (l : List Nat) (b : Nat) (s : σ) (h : Heap α) :
    (l ++ [b]).foldlM f s h = (l.foldlM f s >>= fun s => f s b) h := by
  induction l generalizing s h with
  | nil =>
    show (f s b >>= fun s => pure s) h = (pure s >>= fun s => f s b) h
    rw [HM.bind_ok (HM.pure_run s h)]
    rcases e : f s b h with ⟨x | x, h'⟩
    · rw [HM.bind_error e]
    · rw [HM.bind_ok e]
      rfl
  | cons i l ih =>
    rw [List.cons_append, List.foldlM_cons, List.foldlM_cons]
    rcases e : f s i h with ⟨x | x, h'⟩
    · rw [HM.bind_error e, HM.bind_error (HM.bind_error e)]
    · rw [HM.bind_ok e, ih]
      rcases e' : l.foldlM f x h' with ⟨y | y, h''⟩
      · rw [HM.bind_error e', HM.bind_error (by rw [HM.bind_ok e, e'])]
      · rw [HM.bind_ok e', HM.bind_ok (b := y) (h' := h'') (by rw [HM.bind_ok e, e'])]

theorem forBrk_last {σ ρ : Type} {a b : Nat} (hab : a ≤ b) (body : Nat → σ → HM α (σ ⊕ ρ)) (s : σ) (h : Heap α) :
    forBrk a (b + 1) body s h = (forBrk a b body s >>= Sum.elim (body b) fun r => pure (.inr r)) h := by
  have h1 : b + 1 - a = (b - a) + 1 := by omega
  have : a + (b - a) = b := by omega
  unfold forBrk
  rw [h1, List.range'_1_concat, this, foldlM_last]
  refine congrArg (fun k : σ ⊕ ρ → HM α (σ ⊕ ρ) => (_ >>= k) h) (funext fun s => ?_)
  cases s <;> rfl

theorem RunAt.forBrk {p : S → T} {q : S → β} {p' : S' → T} {q' : S' → γ} {body : Nat → β → HM α (β ⊕ γ)}
    {z : Nat → S → Res (S ⊕ S')} {a b : Nat} (hab : a ≤ b) {s : S} (hR : R h (p s))
    (hb : ∀ i s h, a ≤ i → i < b → R h (p s) →
      RunAt R F (Sum.elim p p') (Sum.map q q') (body i (q s)) h (z i s)) :
    RunAt R F (Sum.elim p p') (Sum.map q q') (forBrk a b body (q s)) h (forUpBrk a b z s) := by
  induction b, hab using Nat.le_induction with
  | base =>
    rw [forBrk_self le_rfl, forUpBrk_eq_self le_rfl]
    exact RunAt.ret rfl hR
  | succ b hab ih =>
    have e := RunAt.bind (k := Sum.elim (body b) fun r => pure (.inr r))
      (z := Sum.elim (z b) fun r => .ok (.inr r)) (p' := Sum.elim p p') (q' := Sum.map q q')
      (ih fun i s h h1 h2 => hb i s h h1 (by omega)) (fun s h' hR' => by
        cases s with
        | inl s => exact hb b s h' hab (by omega) hR'
        | inr s => exact RunAt.ret rfl hR')
    have hz : forUpBrk a (b + 1) z s = (forUpBrk a b z s >>= Sum.elim (z b) fun r => .ok (.inr r)) := by
      rw [forUpBrk_last hab]
      refine congrArg (fun k : S ⊕ S' → Res (S ⊕ S') => _ >>= k) (funext fun s => ?_)
      cases s <;> rfl
    rw [hz]
    unfold RunAt at e ⊢
    rw [forBrk_last hab]
    exact e

variable [Flt α] {r c : Nat}

/-- Storing an entry of the table. -/
theorem RunAt.put {m : Sl} {rows : Nat → Sl} {t : Tab α r c} (H : IsJag m rows h t) (i j : Nat) (v : α) :
    RunAt (IsJag m rows) (matCells rows r c) id (fun _ => ()) (Heap.put m i j v) h (t.set i j v) := by
  have := SimAt.put H i j v
  cases e : t.set i j v with
  | ok t' =>
    rw [e] at this
    obtain ⟨h', e1, e2, e3⟩ := this
    exact ⟨h', e1, e2, e3⟩
  | error f =>
    rw [e] at this
    obtain ⟨h', e1, e2, e3⟩ := this
    exact ⟨h', e1, e3⟩

/-- A computation that only reads: its outcome is that of the value computation. -/
theorem forS_reads {σ : Type} {body : Nat → σ → HM α σ} {z : Nat → σ → Res σ} {a b : Nat} {s : σ} {h : Heap α}
    (hb : ∀ i s, a ≤ i → i < b → body i s h = (z i s, h)) : forS a b body s h = (forUp a b z s, h) := by
  induction hn : b - a generalizing a s with
  | zero => rw [forS_self (by omega), forUp_eq_self (by omega)]; rfl
  | succ n ih =>
    rw [forS_step (by omega), forUp_step (by omega)]
    have e := hb a s le_rfl (by omega)
    cases hz : z a s with
    | error f =>
      rw [hz] at e
      rw [HM.bind_error e]
      rfl
    | ok s' =>
      rw [hz] at e
      rw [HM.bind_ok e]
      exact ih (fun i s h1 h2 => hb i s (by omega) h2) (by omega)

section
variable {m : Sl} {rows : Nat → Sl} {t : Tab α r c}

theorem luSum_run (H : IsJag m rows h t) (row col n : Nat) :
    luSum m row col n h = ((do
      let s0 ← t.get row col
      subUp 0 n (fun i => do return Flt.mul (← t.get row i) (← t.get i col)) s0), h) := by
  unfold luSum
  have e := get_run H row col
  cases hx : t.get row col with
  | error f =>
    rw [hx] at e
    rw [HM.bind_error e]
    rfl
  | ok s0 =>
    rw [hx] at e
    rw [HM.bind_ok e]
    show _ = (subUp 0 n _ s0, h)
    unfold subUp
    refine forS_reads fun i s _ _ => ?_
    dsimp only
    have e1 := get_run H row i
    have e2 := get_run H i col
    cases h1 : t.get row i with
    | error f =>
      rw [h1] at e1
      rw [HM.bind_error e1]
      rfl
    | ok x =>
      rw [h1] at e1
      rw [HM.bind_ok e1]
      cases h2 : t.get i col with
      | error f =>
        rw [h2] at e2
        rw [HM.bind_error e2]
        rfl
      | ok y =>
        rw [h2] at e2
        rw [HM.bind_ok e2]
        rfl

theorem luUpper_run (H : IsJag m rows h t) (col : Nat) :
    RunAt (IsJag m rows) (matCells rows r c) id (fun _ => ()) (luUpper m col) h (LU.upper col t) := by
  unfold luUpper LU.upper
  refine RunAt.for' (p := id) H fun i t h _ _ H => ?_
  have := RunAt.read (R := IsJag m rows) (F := matCells rows r c) (p := id) (q := fun _ => ())
    (z := fun sum => t.set i col sum) (luSum_run H i col i) fun sum _ => RunAt.put H i col sum
  simpa [bind_assoc] using this

theorem luLower_run (ninf : α) (H : IsJag m rows h t) (col : Nat) :
    RunAt (IsJag m rows) (matCells rows r c) Prod.fst Prod.snd (luLower ninf m c col) h (LU.lower ninf col t) := by
  unfold luLower LU.lower
  refine RunAt.forS (p := Prod.fst) (q := Prod.snd) (s := (t, col, ninf)) H fun i s h _ _ H => ?_
  have := RunAt.read (R := IsJag m rows) (F := matCells rows r c) (p := Prod.fst) (q := Prod.snd)
    (z := fun sum => s.1.set i col sum >>= fun t => .ok (if Flt.lt s.2.2 (Flt.abs sum) then (t, i, Flt.abs sum) else (t, s.2)))
    (k := fun sum => do
      put m i col sum
      pure (if Flt.lt s.2.2 (Flt.abs sum) then (i, Flt.abs sum) else s.2))
    (luSum_run H i col col) fun sum _ => RunAt.bind (RunAt.put H i col sum) fun t' h' H' =>
      RunAt.ret (by split <;> rfl) (by split <;> exact H')
  simpa [bind_assoc] using this

theorem luSwap_run (H : IsJag m rows h t) (max col : Nat) :
    RunAt (IsJag m rows) (matCells rows r c) id (fun _ => ()) (luSwap m c max col) h (LU.swapRows max col t) := by
  unfold luSwap LU.swapRows
  refine RunAt.for' (p := id) H fun i t h _ _ H => ?_
  refine RunAt.read (get_run H max i) fun tmp _ => ?_
  refine RunAt.read (get_run H col i) fun x _ => ?_
  exact RunAt.bind (RunAt.put H max i x) fun t' h' H' => RunAt.put H' col i tmp

theorem luDivide_run (H : IsJag m rows h t) (col : Nat) :
    RunAt (IsJag m rows) (matCells rows r c) id (fun _ => ()) (luDivide m c col) h (LU.divide col t) := by
  unfold luDivide LU.divide
  refine RunAt.read (get_run H col col) fun d _ => ?_
  refine RunAt.for' (p := id) H fun i t h _ _ H => ?_
  exact RunAt.read (get_run H i col) fun x _ => RunAt.put H i col _

/-- The part of the decomposition that is not on the heap. -/
def LU.rest (s : LU α r c) : LuRest c := ⟨s.pivot, s.even, s.singular⟩

theorem luPivot_run (s : LU α r c) (H : IsJag m rows h s.lu) (max col : Nat) :
    RunAt (IsJag m rows) (matCells rows r c) LU.lu LU.rest (luPivot m max col s.rest) h (LU.doPivot max col s) := by
  unfold luPivot LU.doPivot
  by_cases e : max ≠ col
  · rw [if_pos e, if_pos e]
    refine RunAt.bind (luSwap_run H max col) fun t h' H' => ?_
    refine RunAt.read rfl fun temp _ => ?_
    refine RunAt.read rfl fun x _ => ?_
    refine RunAt.read rfl fun p1 _ => ?_
    refine RunAt.read rfl fun p2 _ => ?_
    exact RunAt.ret rfl H'
  · rw [if_neg e, if_neg e]
    exact RunAt.ret rfl H

theorem luStep_run (thr ninf : α) (s : LU α r c) (H : IsJag m rows h s.lu) (col : Nat) :
    RunAt (IsJag m rows) (matCells rows r c) (Sum.elim LU.lu LU.lu) (Sum.map LU.rest LU.rest)
      (luStep thr ninf m col s.rest) h (LU.step thr ninf col s) := by
  unfold luStep LU.step
  refine RunAt.bind (luUpper_run H col) fun t h H => ?_
  refine RunAt.bind (luLower_run ninf H col) fun x h H => ?_
  refine RunAt.read (get_run H x.2.1 col) fun big _ => ?_
  by_cases e : Flt.lt (Flt.abs big) thr = true
  · rw [if_pos e, if_pos e]
    exact RunAt.ret rfl H
  · rw [if_neg e, if_neg e]
    refine RunAt.bind (luPivot_run { s with lu := x.1 } H x.2.1 col) fun s h H => ?_
    exact RunAt.bind (luDivide_run H col) fun t h H => RunAt.ret rfl H

/-- `LU.new` after the copy. -/
theorem luWork_run (thr ninf : α) (H : IsJag m rows h t) :
    RunAt (IsJag m rows) (matCells rows r c) LU.lu LU.rest (luWork thr ninf m c) h (do
      let pivot ← forUp 0 c (fun row (p : Row Nat c) => p.set row row) ⟨fun _ => 0⟩
      match ← forUpBrk 0 c (LU.step thr ninf) ⟨t, pivot, true, false⟩ with
      | .inl s => return s
      | .inr s => return s) := by
  unfold luWork
  refine RunAt.read rfl fun p _ => ?_
  refine RunAt.bind (RunAt.forBrk (p := LU.lu) (q := LU.rest) (p' := LU.lu) (q' := LU.rest) (s := (⟨t, p, true, false⟩ : LU α r c)) (Nat.zero_le _) H
    fun i s h _ _ H => luStep_run thr ninf s H i) fun s h H => ?_
  cases s with
  | inl s => exact RunAt.ret rfl H
  | inr s => exact RunAt.ret rfl H

end

end Linear
