import Verif.Model.Vector
import Verif.Lemmas.ExactSums

/-!
# Loops over lists
-/

set_option linter.unusedSectionVars false

namespace Linear

open Spec

variable {α : Type} [Flt α] {τ : Type}

/-- The `i`-th element. -/
def nth (l : List α) (i : Nat) : α := l.getD i Flt.zero

theorem isList_nth (l : List α) : IsList l l.length (nth l) :=
  ⟨rfl, fun i hi => by simp [nth, hi]⟩

theorem wrL_ok {β : Type} {l : List β} {i : Nat} {v : β} (h : i < l.length) :
    wrL l i v = .ok (l.set i v) := by simp [wrL, h]

theorem Spec.IsList.set {l : List α} {n : Nat} {f : Nat → α} (h : IsList l n f) (i : Nat) (v : α) :
    IsList (l.set i v) n (upd1 f i v) := by
  refine ⟨by simp [h.1], fun k hk => ?_⟩
  by_cases hki : k = i
  · subst hki
    simp [h.1, hk]
  · rw [List.getElem?_set_ne (Ne.symm hki), h.2 k hk, upd1_of_ne hki]

theorem mkL_ok (n : Nat) : (mkL (n : Int) : Res (List α)) = .ok (List.replicate n Flt.zero) := by
  unfold mkL
  rw [if_neg (by omega), Int.toNat_natCast]

theorem isList_replicate (n : Nat) (x : α) : IsList (List.replicate n x) n fun _ => x :=
  ⟨by simp, fun i hi => by simp [hi]⟩

/-- A loop that writes `g i` at `i`. -/
theorem wrLoop {ε : Type} {body : Nat → List α → Except ε (List α)} {a b n : Nat} {f g : Nat → α}
    {d : List α} (hab : a ≤ b) (hd : IsList d n f)
    (h : ∀ i d f', a ≤ i → i < b → IsList d n f' → (∀ k, i ≤ k → f' k = f k) →
      body i d = .ok (d.set i (g i))) :
    ∃ d', forUp a b body d = .ok d' ∧ IsList d' n fun i => if a ≤ i ∧ i < b then g i else f i := by
  refine Wp.exists_ok (wp_forUp (fun k d => IsList d n fun i => if a ≤ i ∧ i < k then g i else f i)
    hab (hd.congr fun i _ => by rw [if_neg (by omega)]) ?_)
  intro i d h1 h2 hd
  rw [h i d _ h1 h2 hd fun k hk => by rw [if_neg (by omega)]]
  refine (hd.set i (g i)).congr fun k hk => ?_
  rw [upd1_eq]
  by_cases hki : k = i
  · subst hki; rw [if_pos rfl, if_pos (by omega)]
  · rw [if_neg hki]
    exact if_congr (by omega) rfl rfl

/-- A loop over a whole list that replaces each element. -/
theorem mapLoop {ε : Type} {body : Nat → List α → Except ε (List α)} {d : List α} (h : α → α)
    (hb : ∀ i (e : List α), i < d.length → e.length = d.length → e[i]? = d[i]? →
      body i e = .ok (e.set i (h (nth d i)))) :
    forUp 0 d.length body d = .ok (d.map h) := by
  obtain ⟨d', e, h'⟩ := wrLoop (body := body) (g := fun i => h (nth d i)) (Nat.zero_le d.length)
    (isList_nth d) (fun i e f' _ hi he hf => hb i e hi he.1 (by
      rw [he.2 i hi, hf i le_rfl, (isList_nth d).2 i hi]))
  rw [e]
  congr 1
  refine h'.eq ⟨by simp, fun i hi => ?_⟩
  dsimp only
  rw [if_pos ⟨Nat.zero_le _, hi⟩]
  simp [nth, hi]

/-- A loop that fills a fresh slice. -/
theorem fillLoop {ε : Type} {body : Nat → List α → Except ε (List α)} {n : Nat} {l : List α}
    (hl : l.length = n) (x : α)
    (hb : ∀ i (e : List α), i < n → e.length = n → body i e = .ok (e.set i (nth l i))) :
    forUp 0 n body (List.replicate n x) = .ok l := by
  obtain ⟨d', e, h'⟩ := wrLoop (body := body) (g := nth l) (Nat.zero_le n)
    (isList_replicate n x) (fun i e f' _ hi he _ => hb i e hi he.1)
  rw [e]
  congr 1
  refine h'.eq ⟨hl, fun i hi => ?_⟩
  dsimp only
  rw [if_pos ⟨Nat.zero_le _, hi⟩, (isList_nth l).2 i (by omega)]

theorem rdL_nth {l : List α} {i : Nat} (h : i < l.length) : rdL l i = .ok (nth l i) :=
  (isList_nth l).rdL h

theorem rdL_of {l d : List α} {i : Nat} (h : i < d.length) (e : l[i]? = d[i]?) :
    rdL l i = .ok (nth d i) := rdL_eq_ok.2 (by rw [e, (isList_nth d).2 i h])

theorem RVec.at_nth (v : RVec α) {i : Nat} (h : i < v.dim) : v.at i = .ok (nth v.list i) :=
  RVec.at_ok (isList_nth v.list) (by cases v <;> exact h)

theorem RVec.dim_list (v : RVec α) : v.list.length = v.dim := by cases v <;> rfl

theorem RVec.at_out (v : RVec α) {i : Int} (h : ¬ (0 ≤ i ∧ i < v.dim)) :
    v.at i = .error (.pan .range) := by
  unfold RVec.at
  have : ∀ l : List α, l.length = v.dim →
      (if i < 0 ∨ i ≥ l.length then .error (.pan .range) else Linear.rdL l i.toNat : Res α) =
        .error (.pan .range) := by
    intro l hl
    rw [if_pos]
    rw [hl]
    omega
  cases v <;> exact this _ rfl

theorem nth_zipWith (op : α → α → α) {a b : List α} (h : a.length = b.length) {i : Nat}
    (hi : i < a.length) : nth (List.zipWith op a b) i = op (nth a i) (nth b i) := by
  unfold nth
  simp [List.getD_eq_getElem?_getD, hi, h ▸ hi]

theorem checkDims_ok (n : Nat) : checkDims n n = .ok () := by simp [checkDims]

theorem checkDims_err {n k : Nat} (h : n ≠ k) : checkDims n k = .error (.err .dim) := by
  simp [checkDims, h]

theorem checkIndex_ok {n : Nat} {i : Int} (h : 0 ≤ i ∧ i < n) : checkIndex n i = .ok () := by
  unfold checkIndex; rw [if_neg (by omega)]

theorem checkIndex_err {n : Nat} {i : Int} (h : ¬ (0 ≤ i ∧ i < n)) :
    checkIndex n i = .error (.err .range) := by
  unfold checkIndex; rw [if_pos (by omega)]

theorem copyL_ok {d s : List α} {a : Nat} (h : a + s.length ≤ d.length) :
    copyL d a s = .ok (d.take a ++ s ++ d.drop (a + s.length)) := by
  unfold copyL; rw [if_pos h]

/-- Iterating is looping over the indices. -/
theorem RVec.iterate_eq {σ : Type} (v : RVec α) (body : Nat → α → σ → Res σ) (k : Nat) (s : σ) :
    v.iterate body k s = forUp k v.dim (fun i s => body i (nth v.list i) s) s := by
  unfold RVec.iterate
  by_cases h : k < v.dim
  · rw [if_pos h, v.at_nth h, forUp_step h, ok_bind]
    congr 1
    funext s
    exact v.iterate_eq body (k + 1) s
  · rw [if_neg h, forUp_eq_self (by omega)]
termination_by v.dim - k

/-- A loop without failures is a fold. -/
theorem forUp_pure {ε σ : Type} {n : Nat} {body : Nat → σ → Except ε σ} {f : σ → Nat → σ} (s : σ)
    (h : ∀ i s, i < n → body i s = .ok (f s i)) :
    forUp 0 n body s = .ok ((List.range n).foldl f s) := by
  induction n with
  | zero => rw [forUp_eq_self le_rfl]; rfl
  | succ n ih =>
    rw [forUp_last (Nat.zero_le _), ih fun i s hi => h i s (by omega), ok_bind, h n _ (by omega),
      List.range_succ, List.foldl_append]
    rfl

theorem foldl_range_nth {σ : Type} (l : List α) (f : σ → α → σ) (s : σ) :
    (List.range l.length).foldl (fun s i => f s (nth l i)) s = l.foldl f s := by
  induction l using List.reverseRecOn with
  | nil => rfl
  | append_singleton l x ih =>
    rw [List.length_append, List.length_singleton, List.range_succ, List.foldl_append,
      List.foldl_append]
    simp only [List.foldl_cons, List.foldl_nil]
    have h1 : nth (l ++ [x]) l.length = x := by simp [nth]
    rw [h1, ← ih]
    congr 1
    have : ∀ k, k ≤ l.length → (List.range k).foldl (fun s i => f s (nth (l ++ [x]) i)) s =
        (List.range k).foldl (fun s i => f s (nth l i)) s := by
      intro k hk
      induction k with
      | zero => rfl
      | succ k ih' =>
        rw [List.range_succ, List.foldl_append, List.foldl_append, ih' (by omega)]
        simp only [List.foldl_cons, List.foldl_nil]
        congr 1
        simp [nth, List.getD_eq_getElem?_getD, List.getElem?_append_left (show k < l.length by omega)]
    exact this _ le_rfl

theorem RVec.iterate_fold {σ : Type} (v : RVec α) {body : Nat → α → σ → Res σ} {f : σ → α → σ}
    (s : σ) (h : ∀ i x s, i < v.dim → x = nth v.list i → body i x s = .ok (f s x)) :
    v.iterate body 0 s = .ok (v.list.foldl f s) := by
  rw [v.iterate_eq, forUp_pure (f := fun s i => f s (nth v.list i)) s
    (fun i s hi => h i _ s hi rfl), ← v.dim_list, foldl_range_nth]

/-- A search loop finds the first index satisfying `p`. -/
theorem searchLoop {ε ρ : Type} {n : Nat} {body : Nat → Unit → Except ε (Unit ⊕ ρ)} {p : Nat → Bool}
    {r : ρ} (h : ∀ i u, i < n → body i u = .ok (if p i then .inr r else .inl u)) :
    forUpBrk 0 n body () = .ok (if ∃ i < n, p i = true then .inr r else .inl ()) := by
  induction n with
  | zero => rw [forUpBrk_eq_self le_rfl, if_neg (by simp)]
  | succ n ih =>
    rw [forUpBrk_last (Nat.zero_le _), ih fun i u hi => h i u (by omega), ok_bind]
    by_cases h1 : ∃ i < n, p i = true
    · obtain ⟨i, hi, hp⟩ := h1
      rw [if_pos ⟨i, hi, hp⟩, if_pos ⟨i, by omega, hp⟩]
    · rw [if_neg h1]
      dsimp only
      rw [h n _ (by omega)]
      by_cases h2 : p n = true
      · rw [if_pos h2, if_pos ⟨n, by omega, h2⟩]
      · rw [if_neg h2, if_neg]
        rintro ⟨i, hi, hp⟩
        rcases (by omega : i < n ∨ i = n) with h | rfl
        · exact h1 ⟨i, h, hp⟩
        · exact h2 hp

end Linear
