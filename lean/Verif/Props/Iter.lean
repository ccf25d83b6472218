import Verif.Model.Iter
import Verif.Spec
import Verif.Props.Vectors

/-!
# C74: vector iterators
-/

set_option linter.unusedSectionVars false

namespace Linear

open Spec

namespace Spec

variable {α : Type}

/-- How many calls of a sequence are `Next`. -/
def nexts (cs : List (IterCall α)) : Nat :=
  cs.countP fun c => match c with | .next => true | _ => false

/-- The contents of the vector after a sequence of calls: only its mutators count. -/
def contents (d : List α) : List (IterCall α) → List α
  | [] => d
  | .write f :: cs =>
    contents (match f d with | .ok d' => d' | .error (_, d') => d') cs
  | _ :: cs => contents d cs

/-- A mutator keeps the number of entries, also when it fails halfway. Every mutator of
`ArrayRealVector` does (`C74_writes`). -/
def KeepsLength (f : List α → Mut (List α)) : Prop :=
  ∀ d, match f d with
    | .ok d' => d'.length = d.length
    | .error (_, d') => d'.length = d.length

/-- All mutators of a sequence keep the number of entries. -/
def Sized (cs : List (IterCall α)) : Prop := ∀ f, IterCall.write f ∈ cs → KeepsLength f

end Spec

variable {α : Type} [Flt α]

private theorem after_state (cs : List (IterCall α)) : ∀ (s : Iter α), Sized cs →
    s.idx ≤ s.vec.length →
    (s.after cs).vec = contents s.vec cs ∧ (s.after cs).vec.length = s.vec.length ∧
    (s.after cs).idx = min (s.idx + nexts cs) s.vec.length := by
  induction cs with
  | nil =>
    intro s _ h
    exact ⟨rfl, rfl, by simp [Iter.after, nexts]; omega⟩
  | cons c cs ih =>
    intro s hz h
    have hz' : Sized cs := fun f hf => hz f (List.mem_cons_of_mem _ hf)
    cases c with
    | hasNext =>
      obtain ⟨h1, h2, h3⟩ := ih s hz' h
      refine ⟨h1, h2, ?_⟩
      rw [show nexts (.hasNext :: cs) = nexts cs from by simp [nexts]]
      exact h3
    | next =>
      have hn : nexts (.next :: cs) = nexts cs + 1 := by simp [nexts]
      by_cases hi : s.idx ≥ s.vec.length
      · obtain ⟨h1, h2, h3⟩ := ih s hz' h
        have e : s.after (.next :: cs) = s.after cs := by
          show Iter.after (Iter.next s).2 cs = _
          rw [Iter.next, if_pos hi]
        rw [e, hn]
        exact ⟨h1, h2, by rw [h3]; omega⟩
      · have e : s.after (.next :: cs) = Iter.after ⟨s.vec, s.idx + 1⟩ cs := by
          show Iter.after (Iter.next s).2 cs = _
          rw [Iter.next, if_neg hi, Vec.at, checkIndex, if_neg (by omega)]
          simp [Res.must, rdL, show s.idx < s.vec.length by omega, bind, Except.bind]
        obtain ⟨h1, h2, h3⟩ := ih ⟨s.vec, s.idx + 1⟩ hz' (by dsimp only; omega)
        rw [e, hn]
        exact ⟨h1, h2, by rw [h3]; dsimp only; omega⟩
    | write f =>
      have hk := hz f (List.mem_cons_self ..) s.vec
      have hn : nexts (.write f :: cs) = nexts cs := by simp [nexts]
      cases hf : f s.vec with
      | ok d =>
        rw [hf] at hk
        obtain ⟨h1, h2, h3⟩ := ih ⟨d, s.idx⟩ hz' (by dsimp only at hk ⊢; omega)
        have e : s.after (.write f :: cs) = Iter.after ⟨d, s.idx⟩ cs := by
          show Iter.after (IterCall.run s (.write f)).2 cs = _
          simp only [IterCall.run, hf]
        rw [e, hn]
        refine ⟨by rw [h1]; simp only [contents, hf], h2.trans hk, ?_⟩
        rw [h3]
        dsimp only at hk ⊢
        rw [hk]
      | error p =>
        obtain ⟨p, d⟩ := p
        rw [hf] at hk
        obtain ⟨h1, h2, h3⟩ := ih ⟨d, s.idx⟩ hz' (by dsimp only at hk ⊢; omega)
        have e : s.after (.write f :: cs) = Iter.after ⟨d, s.idx⟩ cs := by
          show Iter.after (IterCall.run s (.write f)).2 cs = _
          simp only [IterCall.run, hf]
        rw [e, hn]
        refine ⟨by rw [h1]; simp only [contents, hf], h2.trans hk, ?_⟩
        rw [h3]
        dsimp only at hk ⊢
        rw [hk]

/-- C74: after any sequence of `HasNext`, `Next` and writes to the vector, in which `Next` was called
`k` times, the following `Next` gives index `k` with the entry the vector holds now, as long as
`k` is below the dimension, and otherwise refuses and changes nothing; and `HasNext` tells which of
the two will happen. -/
theorem C74_iterator (d : List α) (cs : List (IterCall α)) (hz : Sized cs) :
    let s := (Iter.new d).after cs
    s.vec = contents d cs ∧ (contents d cs).length = d.length ∧
    (∀ h : nexts cs < (contents d cs).length, s.hasNext = true ∧
      s.next.1 = .entry (nexts cs) (contents d cs)[nexts cs] ∧ s.next.2.vec = contents d cs) ∧
    (d.length ≤ nexts cs → s.hasNext = false ∧ s.next = (.noEntry, s)) := by
  obtain ⟨h1, h2, h3⟩ := after_state cs (Iter.new d) hz (Nat.zero_le _)
  have hl : (contents d cs).length = d.length := by
    have := h2
    rw [h1] at this
    exact this
  dsimp only
  generalize hs : (Iter.new d).after cs = s at *
  rw [show (Iter.new d).idx = 0 from rfl, show (Iter.new d).vec = d from rfl, Nat.zero_add] at h3
  have h1' : s.vec = contents d cs := h1
  refine ⟨h1, hl, fun h => ?_, fun h => ?_⟩
  · have hi : s.idx = nexts cs := by omega
    have hlt : s.idx < s.vec.length := by rw [hi, h1']; exact h
    have hat : Vec.at s.vec s.idx = .ok (s.vec[s.idx]) := by
      rw [Vec.at, checkIndex, if_neg (by omega)]
      simp [Res.must, rdL, hlt, bind, Except.bind]
    refine ⟨by simp [Iter.hasNext, hlt], ?_, ?_⟩
    · rw [Iter.next, if_neg (by omega), hat]
      simp only [hi, h1']
    · rw [Iter.next, if_neg (by omega), hat]
      exact h1'
  · have hge : s.idx ≥ s.vec.length := by rw [h1', hl]; omega
    exact ⟨by simp [Iter.hasNext]; omega, by rw [Iter.next, if_pos hge]⟩

/-- C74: draining an iterator with `n` calls of `Next` visits every index once, in increasing order,
with the entries of the vector. -/
theorem C74_drain (d : List α) (k : Nat) (hk : k < d.length) :
    ((Iter.new d).after (List.replicate k .next)).next.1 = .entry k d[k] := by
  have hn : nexts (List.replicate k (.next : IterCall α)) = k := by
    unfold nexts
    rw [List.countP_replicate, if_pos rfl]
  have hc : contents d (List.replicate k (.next : IterCall α)) = d := by
    clear hk hn
    induction k with
    | zero => rfl
    | succ k ih => rw [List.replicate_succ]; exact ih
  have hz : Sized (List.replicate k (.next : IterCall α)) := fun f hf => by
    have := List.eq_of_mem_replicate hf
    cases this
  obtain ⟨-, -, h, -⟩ := C74_iterator d (List.replicate k .next) hz
  simp only [hn, hc] at h
  exact (h hk).2.1

/-- Every exit of a computation that carries a vector leaves `n` entries. -/
private def Len {β : Type} (n : Nat) (x : Except (Fault × List α) β) (Q : β → Prop) : Prop :=
  Wp x Q fun e => e.2.length = n

private theorem len_at {β : Type} {n : Nat} {d : List α} (x : Res β) (h : d.length = n) :
    Len n (x.at d) fun _ => True := by
  cases x with
  | ok b => trivial
  | error e => exact h

private theorem len_wr {n : Nat} {d : List α} (i : Nat) (v : α) (h : d.length = n) :
    Len n ((wrL d i v).at d) fun d' => d'.length = n := by
  unfold wrL
  split_ifs
  · exact (List.length_set ..).trans h
  · exact h

private theorem len_bind {β γ : Type} {n : Nat} {x : Except (Fault × List α) β}
    {f : β → Except (Fault × List α) γ} {P : β → Prop} {Q : γ → Prop} (hx : Len n x P)
    (hf : ∀ b, P b → Len n (f b) Q) : Len n (x >>= f) Q :=
  (wp_bind _ _).2 (Wp.imp hx hf)

private theorem len_for {n : Nat} {a b : Nat} {body : Nat → List α → Mut (List α)} {d : List α}
    (h : d.length = n)
    (hs : ∀ i d, d.length = n → Len n (body i d) fun d' => d'.length = n) :
    Len n (forUp a b body d) fun d' => d'.length = n := by
  rcases Nat.lt_or_ge b a with hab | hab
  · rw [forUp_eq_self (by omega)]
    exact h
  · exact wp_forUp (fun _ d => d.length = n) hab h fun i d _ _ => hs i d

private theorem len_keeps {f : List α → Mut (List α)}
    (h : ∀ d, Len d.length (f d) fun d' => d'.length = d.length) : KeepsLength f := by
  intro d
  have := h d
  cases hf : f d with
  | ok d' => rw [hf] at this; exact this
  | error e => rw [hf] at this; exact this

private theorem len_map (f : List α → Nat → α → α) (d : List α) : Len d.length
    (forUp 0 d.length (fun i d => do
      let y ← (rdL d i).at d
      (wrL d i (f d i y)).at d) d) fun d' => d'.length = d.length :=
  len_for rfl fun i d hd => len_bind (len_at _ hd) fun _ _ => len_wr _ _ hd

private theorem len_slice (d : List α) (i : Int) (l : List α) : Len d.length
    (Vec.setSubVectorWithSlice d i l) fun d' => d'.length = d.length := by
  unfold Vec.setSubVectorWithSlice
  refine len_bind (len_at _ rfl) fun _ _ => len_bind (len_at _ rfl) fun _ _ => ?_
  unfold copyL
  split_ifs with h
  · show List.length _ = _
    simp only [List.length_append, List.length_take, List.length_drop]
    omega
  · exact rfl

/-- C74: every mutator of a vector keeps the number of entries, whether it succeeds or refuses or
stops halfway because a function of the caller panics. -/
theorem C74_writes (i : Int) (a b v : α) (u : RVec α) (l : List α) (g : α → Res α) :
    KeepsLength (fun d => Vec.setEntry d i v) ∧ KeepsLength (fun d => Vec.addToEntry d i v) ∧
    KeepsLength (fun d => Vec.copyFrom d u) ∧ KeepsLength (fun d => Vec.set d v) ∧
    KeepsLength (fun d => Vec.map d g) ∧ KeepsLength (fun d => Vec.mapAdd d v) ∧
    KeepsLength (fun d => Vec.mapSubtract d v) ∧ KeepsLength (fun d => Vec.mapMultiply d v) ∧
    KeepsLength (fun d => Vec.mapDivide d v) ∧ KeepsLength (fun d => Vec.combine d a b u) ∧
    KeepsLength (fun d => Vec.setSubVectorWithSlice d i l) ∧
    KeepsLength (fun d => Vec.setSubVector d i u) ∧ KeepsLength (fun d : List α => Vec.unitize d) ∧
    KeepsLength (fun d => projection u d) := by
  refine ⟨len_keeps fun d => ?_, len_keeps fun d => ?_, len_keeps fun d => ?_,
    len_keeps fun d => ?_, len_keeps fun d => ?_, len_keeps fun d => ?_, len_keeps fun d => ?_,
    len_keeps fun d => ?_, len_keeps fun d => ?_, len_keeps fun d => ?_, len_keeps fun d => ?_,
    len_keeps fun d => ?_, len_keeps fun d => ?_, len_keeps fun d => ?_⟩
  · exact len_bind (len_at _ rfl) fun _ _ => len_wr _ _ rfl
  · exact len_bind (len_at _ rfl) fun _ _ => len_bind (len_at _ rfl) fun _ _ => len_wr _ _ rfl
  · exact len_bind (len_at _ rfl) fun _ _ => len_for rfl fun i d hd =>
      len_bind (len_at _ hd) fun _ _ => len_wr _ _ hd
  · exact len_for rfl fun _ _ hd => len_wr _ _ hd
  · exact len_for rfl fun i d hd => len_bind (len_at _ hd) fun _ _ =>
      len_bind (len_at _ hd) fun _ _ => len_wr _ _ hd
  · exact len_map (fun _ _ y => Flt.add y v) d
  · exact len_map (fun _ _ y => Flt.sub y v) d
  · exact len_map (fun _ _ y => Flt.mul y v) d
  · exact len_map (fun _ _ y => Flt.div y v) d
  · exact len_bind (len_at _ rfl) fun _ _ => len_for rfl fun i d hd =>
      len_bind (len_at _ hd) fun _ _ => len_bind (len_at _ hd) fun _ _ => len_wr _ _ hd
  · exact len_slice d i l
  · refine len_bind (len_at _ rfl) fun _ _ => len_bind (len_at _ rfl) fun _ _ => ?_
    cases u with
    | arr b =>
      exact len_bind (len_slice d i b) fun d' hd' => len_for hd' fun _ d hd =>
        len_bind (len_at _ hd) fun _ _ => len_wr _ _ hd
    | ext b =>
      exact len_bind (x := (pure d : Mut (List α))) (P := fun d' => d'.length = d.length)
        (show d.length = d.length from rfl) fun d' hd' => len_for hd' fun _ d hd =>
        len_bind (len_at _ hd) fun _ _ => len_wr _ _ hd
  · refine len_bind (len_at _ rfl) fun x _ => ?_
    by_cases hx : Flt.eq x Flt.zero
    · rw [if_pos hx]
      exact rfl
    · rw [if_neg hx]
      exact len_map (fun _ _ y => Flt.div y x) d
  · refine len_bind (len_at _ rfl) fun x _ => ?_
    by_cases hx : Flt.eq x Flt.zero
    · rw [if_pos hx]
      exact rfl
    · rw [if_neg hx]
      exact len_bind (len_at _ rfl) fun y _ => len_bind (len_at _ rfl) fun z _ =>
        len_map (fun _ _ w => Flt.mul w (Flt.div y z)) d

/-- A case of `C74_iterator`: over `[1, 2]`, one `Next`, then entry 1 is overwritten with 7; the
next `Next` gives `(1, 7)`, and the one after refuses. -/
example :
    Sized [IterCall.next, .write fun d => Vec.setEntry d 1 (7 : ℚ)] ∧
    nexts [IterCall.next, .write fun d => Vec.setEntry d 1 (7 : ℚ)] = 1 ∧
    contents [1, 2] [IterCall.next, .write fun d => Vec.setEntry d 1 (7 : ℚ)] = [1, 7] := by
  refine ⟨?_, by simp [nexts], by decide +kernel⟩
  intro f hf
  simp only [List.mem_cons, reduceCtorEq, List.not_mem_nil, or_false, false_or,
    IterCall.write.injEq] at hf
  rw [hf]
  exact (C74_writes 1 7 7 7 (.arr []) [] .ok).1

end Linear
