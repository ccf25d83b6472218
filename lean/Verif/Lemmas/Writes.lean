import Verif.Base.Tab

/-!
# Loops that write table cells

`Wr g S f f'`: contents `f'` come from `f` by writing, at every position in `S`, the value that `g`
prescribes for that position, and nothing else.
-/

namespace Linear

variable {α ε σ : Type}

/-- `f'` is `g` on the positions in `S` and `f` elsewhere. -/
def Wr (g : Nat → Nat → α) (S : Nat → Nat → Prop) (f f' : Nat → Nat → α) : Prop :=
  ∀ x y, (S x y → f' x y = g x y) ∧ (¬ S x y → f' x y = f x y)

theorem Wr.rfl' {g : Nat → Nat → α} {f : Nat → Nat → α} : Wr g (fun _ _ => False) f f :=
  fun _ _ => ⟨False.elim, fun _ => rfl⟩

theorem Wr.congr {g : Nat → Nat → α} {S S' : Nat → Nat → Prop} {f f' : Nat → Nat → α}
    (h : Wr g S f f') (hS : ∀ x y, S x y ↔ S' x y) : Wr g S' f f' := by
  intro x y
  rw [← hS]
  exact h x y

theorem Wr.trans {g : Nat → Nat → α} {S S' : Nat → Nat → Prop} {f f' f'' : Nat → Nat → α}
    (h : Wr g S f f') (h' : Wr g S' f' f'') : Wr g (fun x y => S x y ∨ S' x y) f f'' := by
  intro x y
  have h1 := h x y
  have h2 := h' x y
  constructor
  · intro hs
    by_cases hs' : S' x y
    · exact h2.1 hs'
    · rw [h2.2 hs']
      exact h1.1 (hs.resolve_right hs')
  · intro hs
    rw [not_or] at hs
    rw [h2.2 hs.2, h1.2 hs.1]

theorem Wr.upd2 {g : Nat → Nat → α} {f : Nat → Nat → α} {i j : Nat} {v : α} (h : v = g i j) :
    Wr g (fun x y => x = i ∧ y = j) f (upd2 f i j v) := by
  intro x y
  rw [upd2_eq]
  constructor
  · rintro ⟨rfl, rfl⟩; simp [h]
  · intro hn; simp [hn]

theorem Wr.upd1 {g : Nat → Nat → α} {f : Nat → α} {i : Nat} {v : α} (h : ∀ y, v = g i y) :
    Wr g (fun x _ => x = i) (fun x _ => f x) (fun x _ => upd1 f i v x) := by
  intro x y
  dsimp only
  rw [upd1_eq]
  constructor
  · rintro rfl; simp [← h y]
  · intro hn; simp [hn]

/-- Loop rule: every iteration writes its own set of positions. `K` carries loop counters. -/
theorem wr_loop {E : ε → Prop} (π : σ → Nat → Nat → α) (g : Nat → Nat → α)
    (S : Nat → Nat → Nat → Prop) (K : Nat → σ → Prop) {a b : Nat} (hab : a ≤ b)
    {body : Nat → σ → Except ε σ} {s : σ} (hK : K a s)
    (hs : ∀ i s', a ≤ i → i < b → K i s' →
      Wr g (fun x y => ∃ i', a ≤ i' ∧ i' < i ∧ S i' x y) (π s) (π s') →
      Wp (body i s') (fun s'' => K (i + 1) s'' ∧ Wr g (S i) (π s') (π s'')) E) :
    Wp (forUp a b body s)
      (fun s' => K b s' ∧ Wr g (fun x y => ∃ i, a ≤ i ∧ i < b ∧ S i x y) (π s) (π s')) E := by
  refine wp_forUp (fun i s' => K i s' ∧
    Wr g (fun x y => ∃ i', a ≤ i' ∧ i' < i ∧ S i' x y) (π s) (π s')) hab ⟨hK, ?_⟩ ?_
  · refine Wr.rfl'.congr fun x y => ?_
    simp only [false_iff, not_exists]
    omega
  · rintro i s' h1 h2 ⟨h3, h4⟩
    refine (hs i s' h1 h2 h3 h4).imp ?_
    rintro s'' ⟨h5, h6⟩
    refine ⟨h5, (h4.trans h6).congr fun x y => ?_⟩
    constructor
    · rintro (⟨i', h7, h8, h9⟩ | h)
      · exact ⟨i', h7, by omega, h9⟩
      · exact ⟨i, h1, by omega, h⟩
    · rintro ⟨i', h7, h8, h9⟩
      rcases Nat.lt_succ_iff_lt_or_eq.1 h8 with h | rfl
      · exact Or.inl ⟨i', h7, h, h9⟩
      · exact Or.inr h9

/-- `wr_loop` when the state has no counter. -/
theorem wr_loop' {E : ε → Prop} (π : σ → Nat → Nat → α) (g : Nat → Nat → α)
    (S : Nat → Nat → Nat → Prop) {a b : Nat} (hab : a ≤ b)
    {body : Nat → σ → Except ε σ} {s : σ}
    (hs : ∀ i s', a ≤ i → i < b →
      Wr g (fun x y => ∃ i', a ≤ i' ∧ i' < i ∧ S i' x y) (π s) (π s') →
      Wp (body i s') (fun s'' => Wr g (S i) (π s') (π s'')) E) :
    Wp (forUp a b body s)
      (fun s' => Wr g (fun x y => ∃ i, a ≤ i ∧ i < b ∧ S i x y) (π s) (π s')) E :=
  (wr_loop π g S (fun _ _ => True) hab trivial fun i s' h1 h2 _ h4 =>
    (hs i s' h1 h2 h4).imp fun _ h => ⟨trivial, h⟩).imp fun _ h => h.2

/-- `wr_loop` over a list of work items. -/
theorem wr_list {β : Type} {E : ε → Prop} (π : σ → Nat → Nat → α) (g : Nat → Nat → α)
    (S : β → Nat → Nat → Prop) (K : σ → Prop) (l : List β)
    {body : σ → β → Except ε σ} {s : σ} (hK : K s)
    (hs : ∀ done b rest s', l = done ++ b :: rest → K s' →
      Wr g (fun x y => ∃ b' ∈ done, S b' x y) (π s) (π s') →
      Wp (body s' b) (fun s'' => K s'' ∧ Wr g (S b) (π s') (π s'')) E) :
    Wp (l.foldlM body s) (fun s' => K s' ∧ Wr g (fun x y => ∃ b ∈ l, S b x y) (π s) (π s')) E := by
  have key : ∀ rest done s', l = done ++ rest → K s' →
      Wr g (fun x y => ∃ b' ∈ done, S b' x y) (π s) (π s') →
      Wp (rest.foldlM body s') (fun s' => K s' ∧
        Wr g (fun x y => ∃ b ∈ l, S b x y) (π s) (π s')) E := by
    intro rest
    induction rest with
    | nil =>
      intro done s' hl hK' hw
      rw [List.append_nil] at hl
      subst hl
      exact ⟨hK', hw⟩
    | cons b rest ih =>
      intro done s' hl hK' hw
      rw [List.foldlM_cons, wp_bind]
      refine (hs done b rest s' hl hK' hw).imp ?_
      rintro s'' ⟨h1, h2⟩
      refine ih (done ++ [b]) s'' (by simp [hl]) h1 ((hw.trans h2).congr fun x y => ?_)
      simp only [List.mem_append, List.mem_singleton]
      constructor
      · rintro (⟨b', h3, h4⟩ | h)
        · exact ⟨b', Or.inl h3, h4⟩
        · exact ⟨b, Or.inr rfl, h⟩
      · rintro ⟨b', h3 | rfl, h4⟩
        · exact Or.inl ⟨b', h3, h4⟩
        · exact Or.inr h4
  exact key l [] s rfl hK (Wr.rfl'.congr fun x y => by simp)

end Linear
