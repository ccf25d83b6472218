import Verif.Model.Eigen
import Verif.Lemmas.SchurLemmas

/-!
# The general eigen decomposition in any arithmetic: reading the eigenvalues, and index safety
-/

set_option linter.unusedSectionVars false

namespace Linear

open Spec

variable {α : Type} [Flt α] {n : Nat}

/-- What the loop of `transformToSchur` has stored for the indices from `i` on; `pr` marks the first
index of each pair. -/
structure Eig.Read (epsEd half : α) (T : Nat → Nat → α) (n i : Nat) (re im : Nat → α)
    (pr : Nat → Prop) : Prop where
  pair : ∀ k, pr k → i ≤ k ∧ k + 1 < n ∧ ¬ pr (k + 1) ∧
    equalsWithError (T (k + 1) k) Flt.zero epsEd = false ∧
    re k = (Eig.pair half (T k k) (T k (k + 1)) (T (k + 1) k) (T (k + 1) (k + 1))).1 ∧
    im k = (Eig.pair half (T k k) (T k (k + 1)) (T (k + 1) k) (T (k + 1) (k + 1))).2 ∧
    re (k + 1) = re k ∧ im (k + 1) = Flt.neg (im k)
  single : ∀ k, i ≤ k → k < n → ¬ pr k → (∀ l, pr l → k ≠ l + 1) → re k = T k k ∧ im k = Flt.zero ∧
    (k + 1 < n → equalsWithError (T (k + 1) k) Flt.zero epsEd = true)

theorem Eig.values_ok (epsEd half : α) (t : Tab α n n) : ∀ (f i : Nat) (v : Row α n × Row α n),
    n ≤ i + f → (∀ k, i ≤ k → k < n → v.2.f k = Flt.zero) →
    ∃ v', Eig.values epsEd half t f i v = .ok v' ∧
      (∀ k, k < i → v'.1.f k = v.1.f k ∧ v'.2.f k = v.2.f k) ∧
      ∃ pr, Eig.Read epsEd half t.f n i v'.1.f v'.2.f pr
  | 0, i, v, hf, _ => ⟨v, rfl, fun _ _ => ⟨rfl, rfl⟩, fun _ => False,
      ⟨fun _ h => h.elim, fun k h1 h2 => by omega⟩⟩
  | f + 1, i, v, hf, hz => by
    unfold Eig.values
    by_cases hi : i ≥ n
    · rw [if_pos hi]
      exact ⟨v, rfl, fun _ _ => ⟨rfl, rfl⟩, fun _ => False,
        ⟨fun _ h => h.elim, fun k h1 h2 => by omega⟩⟩
    rw [if_neg hi]
    have hr : ∃ b, Eig.isReal epsEd t i = .ok b ∧ (b = true → i + 1 < n →
        equalsWithError (t.f (i + 1) i) Flt.zero epsEd = true) ∧ (b = false → i + 1 < n ∧
        equalsWithError (t.f (i + 1) i) Flt.zero epsEd = false) := by
      unfold Eig.isReal
      by_cases h : i = n - 1
      · rw [if_pos h]
        exact ⟨true, rfl, fun _ h => by omega, fun h => by cases h⟩
      · rw [if_neg h, Tab.get_ok (by omega) (by omega), ok_bind]
        exact ⟨_, rfl, fun h _ => h, fun h' => ⟨by omega, h'⟩⟩
    obtain ⟨b, eb, h1, h2⟩ := hr
    rw [eb]
    simp only [ok_bind]
    cases b with
    | true =>
      rw [if_pos rfl, Tab.get_ok (by omega) (by omega)]
      simp only [ok_bind]
      rw [Row.set_ok (by omega)]
      simp only [ok_bind]
      obtain ⟨v', e, h3, pr, h4⟩ := Eig.values_ok epsEd half t f (i + 1)
        (⟨upd1 v.1.f i (t.f i i)⟩, v.2) (by omega) (fun k hk hk' => hz k (by omega) hk')
      dsimp only at h3
      refine ⟨v', e, fun k hk => ?_, pr, ⟨fun k hk => ?_, fun k hk hk' hp hl => ?_⟩⟩
      · obtain ⟨g1, g2⟩ := h3 k (by omega)
        refine ⟨g1.trans ?_, g2⟩
        rw [upd1_eq, if_neg (by omega)]
      · obtain ⟨g1, g2⟩ := h4.pair k hk
        exact ⟨by omega, g2⟩
      · rcases Nat.lt_or_ge i k with h | h
        · exact h4.single k h hk' hp hl
        · obtain rfl : k = i := by omega
          obtain ⟨g1, g2⟩ := h3 k (by omega)
          refine ⟨g1.trans ?_, g2.trans (hz k (le_refl _) hk'), h1 rfl⟩
          rw [upd1_eq, if_pos rfl]
    | false =>
      obtain ⟨hi1, hne⟩ := h2 rfl
      rw [if_neg (by simp)]
      rw [Tab.get_ok (by omega) (by omega), Tab.get_ok (by omega) (by omega),
        Tab.get_ok (by omega) (by omega), Tab.get_ok (by omega) (by omega)]
      simp only [ok_bind]
      generalize hp : Eig.pair half (t.f i i) (t.f i (i + 1)) (t.f (i + 1) i)
        (t.f (i + 1) (i + 1)) = p
      rw [Row.set_ok (by omega)]
      simp only [ok_bind]
      rw [Row.set_ok (by omega)]
      simp only [ok_bind]
      rw [Row.set_ok (by omega)]
      simp only [ok_bind]
      rw [Row.set_ok (by omega)]
      simp only [ok_bind]
      obtain ⟨v', e, h3, pr, h4⟩ := Eig.values_ok epsEd half t f (i + 2)
        (⟨upd1 (upd1 v.1.f i p.1) (i + 1) p.1⟩, ⟨upd1 (upd1 v.2.f i p.2) (i + 1) (Flt.neg p.2)⟩)
        (by omega) (fun k hk hk' => by
          dsimp only
          rw [upd1_eq, if_neg (by omega), upd1_eq, if_neg (by omega)]
          exact hz k (by omega) hk')
      dsimp only at h3
      have q1 : v'.1.f i = p.1 := by
        rw [(h3 i (by omega)).1, upd1_eq, if_neg (by omega), upd1_eq, if_pos rfl]
      have q2 : v'.1.f (i + 1) = p.1 := by
        rw [(h3 (i + 1) (by omega)).1, upd1_eq, if_pos rfl]
      have q3 : v'.2.f i = p.2 := by
        rw [(h3 i (by omega)).2, upd1_eq, if_neg (by omega), upd1_eq, if_pos rfl]
      have q4 : v'.2.f (i + 1) = Flt.neg p.2 := by
        rw [(h3 (i + 1) (by omega)).2, upd1_eq, if_pos rfl]
      refine ⟨v', e, fun k hk => ?_, fun k => k = i ∨ pr k, ⟨fun k hk => ?_, fun k hk hk' hn' hl => ?_⟩⟩
      · obtain ⟨g1, g2⟩ := h3 k (by omega)
        refine ⟨g1.trans ?_, g2.trans ?_⟩
        · rw [upd1_eq, if_neg (by omega), upd1_eq, if_neg (by omega)]
        · rw [upd1_eq, if_neg (by omega), upd1_eq, if_neg (by omega)]
      · rcases hk with rfl | hk
        · refine ⟨le_refl _, hi1, fun h => ?_, hne, by rw [q1, hp], by rw [q3, hp], by rw [q1, q2],
            by rw [q3, q4]⟩
          rcases h with h | h
          · omega
          · have := (h4.pair _ h).1
            omega
        · obtain ⟨g1, g2, g3, g4⟩ := h4.pair k hk
          refine ⟨by omega, g2, fun h => ?_, g4⟩
          rcases h with h | h
          · omega
          · exact g3 h
      · have hki : k ≠ i := fun h => hn' (.inl h)
        have hki' : k ≠ i + 1 := fun h => hl i (.inl rfl) h
        exact h4.single k (by omega) hk' (fun h => hn' (.inr h)) fun l h => hl l (.inr h)

/-! ## Index safety of the back substitution -/

/-- The computation has a result. -/
def Fine {β : Type} (x : Res β) : Prop := Wp x (fun _ => True) fun _ => False

theorem Fine.bind {β γ : Type} {x : Res β} {f : β → Res γ} (hx : Fine x) (hf : ∀ b, Fine (f b)) :
    Fine (x >>= f) := (wp_bind _ _).2 (hx.imp fun b _ => hf b)

theorem Fine.ok {β : Type} (b : β) : Fine (.ok b : Res β) := trivial

theorem Fine.pure {β : Type} (b : β) : Fine (Pure.pure b : Res β) := trivial

theorem Fine.ite {β : Type} {c : Prop} [Decidable c] {x y : Res β} (hx : Fine x) (hy : Fine y) :
    Fine (if c then x else y) := by split_ifs <;> assumption

theorem Fine.forUp {σ : Type} {a b : Nat} {body : Nat → σ → Res σ} {s : σ}
    (h : ∀ i s, a ≤ i → i < b → Fine (body i s)) : Fine (Linear.forUp a b body s) := by
  by_cases hab : a ≤ b
  · exact wp_forUp (fun _ _ => True) hab trivial fun i s h1 h2 _ => h i s h1 h2
  · rw [forUp_eq_self (by omega)]
    trivial

theorem Fine.forDown {σ : Type} {a b : Nat} {body : Nat → σ → Res σ} {s : σ}
    (h : ∀ i s, b ≤ i → i < a → Fine (body i s)) : Fine (Linear.forDown a b body s) := by
  by_cases hab : b ≤ a
  · exact wp_forDown (fun _ _ => True) hab trivial fun i s h1 h2 _ => h i s h1 h2
  · rw [forDown_eq_self (by omega)]
    trivial

theorem Fine.get {r c : Nat} {t : Tab α r c} {i j : Nat} (hi : i < r) (hj : j < c) : Fine (t.get i j) := by
  rw [Tab.get_ok hi hj]
  trivial

theorem Fine.set {r c : Nat} {t : Tab α r c} {i j : Nat} {v : α} (hi : i < r) (hj : j < c) :
    Fine (t.set i j v) := by
  rw [Tab.set_ok hi hj]
  trivial

theorem Fine.rget {r : Nat} {t : Row α r} {i : Nat} (hi : i < r) : Fine (t.get i) := by
  rw [Row.get_ok hi]
  trivial

theorem Fine.sumUp {a b : Nat} {term : Nat → Res α} {s : α} (h : ∀ i, a ≤ i → i < b → Fine (term i)) :
    Fine (Linear.sumUp a b term s) := by
  unfold Linear.sumUp
  exact Fine.forUp fun i s h1 h2 => (h i h1 h2).bind fun _ => trivial

theorem Eig.put2_fine {i idx : Nat} {c : α × α} {t : Tab α n n} (hi : i < n) (hx : idx < n) :
    Fine (Eig.put2 i idx c t) :=
  (Fine.set hi (by omega)).bind fun _ => Fine.set hi hx

theorem Eig.guard1_fine {eps : α} {i idx : Nat} {t : Tab α n n} (hi : i < n) (hx : idx < n) :
    Fine (Eig.guard1 eps i idx t) :=
  (Fine.get hi hx).bind fun _ => Fine.ite (Fine.forUp fun j t _ hj =>
    (Fine.get (by omega) hx).bind fun _ => Fine.set (by omega) hx) trivial

theorem Eig.guard2_fine {eps : α} {i idx : Nat} {t : Tab α n n} (hi : i < n) (hx : idx < n) :
    Fine (Eig.guard2 eps i idx t) :=
  (Fine.get hi (by omega)).bind fun _ => (Fine.get hi hx).bind fun _ => Fine.ite
    (Fine.forUp fun j t _ hj => (Fine.get (by omega) (by omega)).bind fun _ =>
      (Fine.set (by omega) (by omega)).bind fun _ => (Fine.get (by omega) hx).bind fun _ =>
      Fine.set (by omega) hx) trivial

theorem Eig.realSet_fine {κ : Eig.Lit α} {norm : α} {re im : Row α n} {idx i : Nat} {p w r : α}
    {b : Eig.Bk α n} (hi : i < idx) (hx : idx < n) :
    Fine (Eig.realSet κ norm re im idx i p w r b) :=
  (Fine.rget (by omega)).bind fun _ => Fine.ite
    (Fine.ite (Fine.set (by omega) hx) (Fine.set (by omega) hx))
    ((Fine.get (by omega) (by omega)).bind fun _ => (Fine.get (by omega) (by omega)).bind fun _ =>
      (Fine.rget (by omega)).bind fun _ => (Fine.set (by omega) hx).bind fun _ =>
      (Fine.get (by omega) hx).bind fun _ =>
      Fine.ite (Fine.set (by omega) hx) (Fine.set (by omega) hx))

theorem Eig.realStep_fine {κ : Eig.Lit α} {norm : α} {re im : Row α n} {idx i : Nat} {p : α}
    {b : Eig.Bk α n} (hi : i < idx) (hx : idx < n) :
    Fine (Eig.realStep κ norm re im idx p i b) :=
  (Fine.get (by omega) (by omega)).bind fun _ => (Fine.sumUp fun j _ hj =>
    (Fine.get (by omega) (by omega)).bind fun _ => (Fine.get (by omega) hx).bind fun _ => Fine.pure _).bind
    fun _ => (Fine.rget (by omega)).bind fun _ => Fine.ite trivial
      ((Eig.realSet_fine hi hx).bind fun _ => (Eig.guard1_fine (by omega) hx).bind fun _ => trivial)

theorem Eig.realVec_fine {κ : Eig.Lit α} {norm : α} {re im : Row α n} {idx : Nat} {p : α}
    {b : Eig.Bk α n} (hx : idx < n) : Fine (Eig.realVec κ norm re im idx p b) :=
  (Fine.set hx hx).bind fun _ => Fine.forDown fun _ _ _ hi => Eig.realStep_fine hi hx

theorem Eig.cplxSet_fine {κ : Eig.Lit α} {norm : α} {re im : Row α n} {idx i : Nat} {p q w ra sa : α}
    {b : Eig.Bk α n} (hi : i < idx) (hx : idx < n) :
    Fine (Eig.cplxSet κ norm re im idx i p q w ra sa b) :=
  (Fine.rget (by omega)).bind fun _ => Fine.ite (Eig.put2_fine (by omega) hx)
    ((Fine.get (by omega) (by omega)).bind fun _ => (Fine.get (by omega) (by omega)).bind fun _ =>
      (Fine.rget (by omega)).bind fun _ => (Eig.put2_fine (by omega) hx).bind fun _ =>
      (Fine.get (by omega) (by omega)).bind fun _ => (Fine.get (by omega) hx).bind fun _ =>
      Fine.ite (Eig.put2_fine (by omega) hx) (Eig.put2_fine (by omega) hx))

theorem Eig.cplxStep_fine {κ : Eig.Lit α} {norm : α} {re im : Row α n} {idx i : Nat} {p q : α}
    {b : Eig.Bk α n} (hi : i < idx) (hx : idx < n) :
    Fine (Eig.cplxStep κ norm re im idx p q i b) :=
  (Fine.sumUp fun j _ hj => (Fine.get (by omega) (by omega)).bind fun _ =>
    (Fine.get (by omega) (by omega)).bind fun _ => Fine.pure _).bind fun _ =>
  (Fine.sumUp fun j _ hj => (Fine.get (by omega) (by omega)).bind fun _ =>
    (Fine.get (by omega) hx).bind fun _ => Fine.pure _).bind fun _ =>
  (Fine.get (by omega) (by omega)).bind fun _ => (Fine.rget (by omega)).bind fun _ => Fine.ite trivial
    ((Eig.cplxSet_fine hi hx).bind fun _ => (Eig.guard2_fine (by omega) hx).bind fun _ => trivial)

theorem Eig.cplxTop_fine {κ : Eig.Lit α} {idx : Nat} {p q : α} {t : Tab α n n} (h0 : 0 < idx)
    (hx : idx < n) : Fine (Eig.cplxTop κ idx p q t) := by
  unfold Eig.cplxTop
  rw [if_neg (by omega)]
  refine (Fine.get (by omega) (by omega)).bind fun _ => (Fine.get (by omega) (by omega)).bind fun _ => ?_
  dsimp only
  split_ifs
  · exact (Fine.set (by omega) (by omega)).bind fun _ => (Fine.get (by omega) (by omega)).bind fun _ =>
      (Fine.set (by omega) (by omega)).bind fun _ => (Fine.set (by omega) (by omega)).bind fun _ =>
      Fine.set (by omega) (by omega)
  · exact (Fine.get (by omega) (by omega)).bind fun _ => (Eig.put2_fine (by omega) hx).bind fun _ =>
      (Fine.set (by omega) (by omega)).bind fun _ => Fine.set (by omega) (by omega)

theorem Eig.cplxVec_fine {κ : Eig.Lit α} {norm : α} {re im : Row α n} {idx : Nat} {p q : α}
    {b : Eig.Bk α n} (h0 : 0 < idx) (hx : idx < n) : Fine (Eig.cplxVec κ norm re im idx p q b) :=
  (Eig.cplxTop_fine h0 hx).bind fun _ => Fine.forDown fun _ _ _ hi => Eig.cplxStep_fine (by omega) hx

theorem Eig.vector_fine {κ : Eig.Lit α} {norm : α} {re im : Row α n} {idx : Nat}
    {b : Eig.Bk α n} (hx : idx < n) (h0 : Flt.lt (im.f 0) Flt.zero = false) :
    Fine (Eig.vector κ norm re im idx b) := by
  unfold Eig.vector
  rw [Row.get_ok hx, ok_bind, Row.get_ok hx, ok_bind]
  refine Fine.ite (Eig.realVec_fine hx) ?_
  by_cases hl : Flt.lt (im.f idx) Flt.zero = true
  · rw [if_pos hl]
    refine Eig.cplxVec_fine (Nat.pos_of_ne_zero fun h => ?_) hx
    subst h
    rw [h0] at hl
    cases hl
  · rw [if_neg hl]
    trivial

/-- The sum of the absolute values of the entries on and above the first subdiagonal, row by row, from the left. -/
def Spec.hessNorm (n : Nat) (T : Nat → Nat → α) : α :=
  (List.range n).foldl (fun s i => lsum (i - 1) n (fun j => Flt.abs (T i j)) s) Flt.zero

theorem Schur.norm_bits (t : Tab α n n) : Schur.norm t = .ok (Spec.hessNorm n t.f) := by
  unfold Schur.norm
  obtain ⟨x, e, h⟩ := Wp.exists_ok (wp_forUp (E := fun _ => False)
    (fun k s => s = (List.range k).foldl (fun s i => lsum (i - 1) n (fun j => Flt.abs (t.f i j)) s) Flt.zero)
    (Nat.zero_le n) rfl
    (body := fun i s => sumUp (i - 1) n (fun j => do return Flt.abs (← t.get i j)) s)
    (s := (Flt.zero : α)) (fun i s _ hi hs => by
      rw [sumUp_ok (fun j => Flt.abs (t.f i j)) fun j _ hj => by rw [Tab.get_ok hi hj]; rfl]
      show _ = _
      rw [List.range_succ, List.foldl_append, ← hs]
      rfl))
  rw [e, h]
  rfl

theorem Spec.hessNorm_congr {S T : Nat → Nat → α} (h : ∀ i j, i < n → j < n → S i j = T i j) :
    Spec.hessNorm n S = Spec.hessNorm n T := by
  have key : ∀ (l : List Nat), (∀ i ∈ l, i < n) → ∀ s : α,
      l.foldl (fun s i => lsum (i - 1) n (fun j => Flt.abs (S i j)) s) s =
      l.foldl (fun s i => lsum (i - 1) n (fun j => Flt.abs (T i j)) s) s := by
    intro l
    induction l with
    | nil => intro _ _; rfl
    | cons x l ih =>
      intro hl s
      rw [List.foldl_cons, List.foldl_cons, ih (fun i hi => hl i (List.mem_cons_of_mem _ hi))]
      rw [lsum_congr fun j _ hj => by rw [h x j (hl x List.mem_cons_self) hj]]
  exact key _ (fun i hi => List.mem_range.1 hi) _

/-- The eigenvectors are found without an index fault, unless the norm counts as zero. -/
theorem Eig.findGen_fine (κ : Eig.Lit α) (re im : Row α n) (t p : Tab α n n)
    (h0 : Flt.lt (im.f 0) Flt.zero = false) :
    (equalsWithError (Spec.hessNorm n t.f) Flt.zero κ.epsEd = false ∧
        ∃ v, Eig.findGen κ re im t p = .ok ⟨re, im, v, false⟩) ∨
      (equalsWithError (Spec.hessNorm n t.f) Flt.zero κ.epsEd = true ∧
        Eig.findGen κ re im t p = .error (.err .arith)) := by
  unfold Eig.findGen
  rw [Schur.norm_bits t, ok_bind]
  generalize Spec.hessNorm n t.f = norm
  by_cases hn : equalsWithError norm Flt.zero κ.epsEd = true
  · rw [if_pos hn]
    exact .inr ⟨hn, rfl⟩
  · rw [if_neg hn]
    refine .inl ⟨Bool.eq_false_iff.2 hn, ?_⟩
    obtain ⟨b, eb, -⟩ := Wp.exists_ok (Fine.forDown (a := n) (b := 0)
      (body := Eig.vector κ norm re im) (s := ⟨t, Flt.zero, Flt.zero, Flt.zero, 0⟩) fun i s _ hi =>
      Eig.vector_fine hi h0)
    rw [eb, ok_bind]
    obtain ⟨p', ep, -⟩ := Wp.exists_ok (show Fine (Eig.back b.t p) from
      Fine.forDown fun j p _ hj => Fine.forUp fun i p _ hi =>
        (Fine.sumUp fun k _ hk => (Fine.get hi (by omega)).bind fun _ =>
          (Fine.get (by omega) hj).bind fun _ => Fine.pure _).bind fun _ => Fine.set hi hj)
    rw [ep, ok_bind]
    obtain ⟨v, ev, -⟩ := Tab.build_ex (r := n) (c := n) (fun i j => p'.f j i) (rt := Fault.rt)
      (cell := fun i j => p'.get j i) fun i j hi hj => Tab.get_ok hj hi
    rw [ev]
    exact ⟨v, rfl⟩

end Linear
