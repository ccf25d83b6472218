import Verif.Model.Bi
import Verif.Lemmas.TriLemmas

/-!
# Lemmas on the bidiagonal reduction
-/

set_option linter.unusedSectionVars false

namespace Linear

open Spec Finset Matrix

section free

variable {α : Type} [Flt α] {m n : Nat}

/-- A loop over columns `[a, b)`, each iteration rewriting rows `[p, q)` of its own column. -/
theorem Tab.colsLoop {ε : Type} {r c a b p q : Nat} (g : Nat → Nat → α → α) {t : Tab α r c}
    {body : Nat → Tab α r c → Except ε (Tab α r c)}
    (h : ∀ j (t' : Tab α r c), a ≤ j → j < b →
      (∀ x y, ¬ (a ≤ y ∧ y < j ∧ p ≤ x ∧ x < q) → t'.f x y = t.f x y) →
      ∃ t'' : Tab α r c, body j t' = .ok t'' ∧
        (∀ i, p ≤ i → i < q → t''.f i j = g i j (t.f i j)) ∧
        ∀ x y, ¬ (y = j ∧ p ≤ x ∧ x < q) → t''.f x y = t'.f x y) :
    ∃ t' : Tab α r c, forUp a b body t = .ok t' ∧
      (∀ i j, a ≤ j → j < b → p ≤ i → i < q → t'.f i j = g i j (t.f i j)) ∧
      ∀ x y, ¬ (a ≤ y ∧ y < b ∧ p ≤ x ∧ x < q) → t'.f x y = t.f x y := by
  by_cases hab : a ≤ b
  · refine Wp.exists_ok ((wr_loop' (fun (t : Tab α r c) => t.f) (fun x y => g x y (t.f x y))
      (fun j x y => y = j ∧ p ≤ x ∧ x < q) hab ?_).imp ?_)
    · intro i t' h1 h2 hw
      obtain ⟨t'', e, h3, h4⟩ := h i t' h1 h2 fun x y hxy => (hw x y).2
        (by rintro ⟨j', h3, h4, rfl, h5, h6⟩; exact hxy ⟨h3, h4, h5, h6⟩)
      rw [e]
      intro x y
      exact ⟨by rintro ⟨rfl, h5, h6⟩; exact h3 x h5 h6, fun hn => h4 x y hn⟩
    · intro t' hw
      refine ⟨fun i j h1 h2 h3 h4 => (hw i j).1 ⟨j, h1, h2, rfl, h3, h4⟩, fun x y hxy => (hw x y).2 ?_⟩
      rintro ⟨j', h3, h4, rfl, h5, h6⟩; exact hxy ⟨h3, h4, h5, h6⟩
  · rw [forUp_eq_self (by omega)]
    exact ⟨t, rfl, fun _ _ _ _ => by omega, fun _ _ _ => rfl⟩

/-- The signed norm of `x` from entry `k` on. -/
def Bi.nrm (k m : Nat) (x : Nat → α) : α :=
  Bi.sign (x k) (lsum k m (fun r => Flt.mul (x r) (x r)) Flt.zero)

/-- What zeroing out column `k` from row `i0` on does. -/
structure Bi.Pass (m n i0 k : Nat) (f f' : Nat → Nat → α) (a : α) : Prop where
  same : Flt.eq a Flt.zero = true → f' = f
  head : Flt.eq a Flt.zero = false → f' i0 k = Flt.sub (f i0 k) a
  col : ∀ i, i ≠ i0 → f' i k = f i k
  cols : Flt.eq a Flt.zero = false → ∀ i j, i0 ≤ i → i < m → k < j → j < n → f' i j = Flt.sub (f i j)
    (Flt.mul (halpha i0 m a (fun r => f' r k) (fun r => f r j)) (f' i k))
  other : ∀ i j, (i < i0 ∨ j < k) → f' i j = f i j

theorem Bi.colApply_ok {i0 k j : Nat} (hk : k < j) (hj : j < n) (hi : i0 < m) (a : α) (t : Tab α m n) :
    ∃ t' : Tab α m n, Bi.colApply i0 k a j t = .ok t' ∧
      (∀ i, i0 ≤ i → i < m → t'.f i j = Flt.sub (t.f i j)
        (Flt.mul (halpha i0 m a (fun r => t.f r k) (fun r => t.f r j)) (t.f i k))) ∧
      ∀ x y, ¬ (y = j ∧ i0 ≤ x ∧ x < m) → t'.f x y = t.f x y := by
  unfold Bi.colApply
  rw [subUp_ok (fun r => Flt.mul (t.f r j) (t.f r k)) fun i h1 h2 => by
    rw [Tab.get_ok h2 hj, ok_bind, Tab.get_ok h2 (by omega)]; rfl, ok_bind, Tab.get_ok hi (by omega),
    ok_bind]
  refine Tab.colLoop (fun i v => Flt.sub v
    (Flt.mul (halpha i0 m a (fun r => t.f r k) (fun r => t.f r j)) (t.f i k))) (fun i t' h1 h2 h3 => ?_)
  rw [Tab.get_ok h2 hj, ok_bind, Tab.get_ok h2 (by omega), ok_bind, Tab.set_ok h2 hj,
    h3 i j (by omega), h3 i k (by omega)]
  rfl

theorem Bi.colPass_ok {i0 k : Nat} (hi : i0 < m) (hk : k < n) (t : Tab α m n) :
    ∃ t' : Tab α m n, Bi.colPass i0 k t = .ok (Bi.nrm i0 m fun i => t.f i k, t') ∧
      Bi.Pass m n i0 k t.f t'.f (Bi.nrm i0 m fun i => t.f i k) := by
  unfold Bi.colPass
  rw [sumUp_ok (fun r => Flt.mul (t.f r k) (t.f r k)) fun i h1 h2 => by
    rw [Tab.get_ok h2 hk]; rfl, ok_bind, Tab.get_ok hi hk, ok_bind]
  show ∃ t' : Tab α m n, Bi.colRefl i0 k (Bi.nrm i0 m fun i => t.f i k) t = _ ∧ _
  generalize Bi.nrm i0 m (fun i => t.f i k) = a
  unfold Bi.colRefl
  by_cases ha : Flt.eq a Flt.zero = true
  · rw [if_neg (by simp [ha])]
    exact ⟨_, rfl, fun _ => rfl, fun h => by simp [ha] at h, fun _ _ => rfl,
      fun h => by simp [ha] at h, fun _ _ _ => rfl⟩
  · rw [if_pos (by simp [ha]), Tab.get_ok hi hk, ok_bind, Tab.set_ok hi hk, ok_bind]
    have e0 : (fun r => upd2 t.f i0 k (Flt.sub (t.f i0 k) a) r k) =
        fun r => if r = i0 then Flt.sub (t.f i0 k) a else t.f r k := by
      funext r
      rw [upd2_eq]
      exact if_congr (by simp) rfl rfl
    obtain ⟨t', e, h1, h2⟩ := Tab.colsLoop (ε := Fault) (r := m) (c := n) (a := k + 1) (b := n) (p := i0)
      (q := m) (t := (⟨upd2 t.f i0 k (Flt.sub (t.f i0 k) a)⟩ : Tab α m n))
      (body := Bi.colApply i0 k a)
      (fun i j v => Flt.sub v (Flt.mul (halpha i0 m a (fun r => upd2 t.f i0 k (Flt.sub (t.f i0 k) a) r k)
        (fun r => t.f r j)) (upd2 t.f i0 k (Flt.sub (t.f i0 k) a) i k))) (by
      intro j t' h1 h2 h3
      obtain ⟨t'', e, h4, h5⟩ := Bi.colApply_ok (show k < j by omega) h2 hi a t'
      refine ⟨t'', e, fun i h6 h7 => ?_, h5⟩
      have e1 : (fun r => t'.f r k) = fun r => upd2 t.f i0 k (Flt.sub (t.f i0 k) a) r k :=
        funext fun y => h3 y k (by omega)
      have e2 : (fun r => t'.f r j) = fun r => t.f r j := funext fun y => by
        rw [h3 y j (by omega)]; dsimp only; rw [upd2_eq, if_neg (by omega)]
      rw [h4 i h6 h7, e1, e2, h3 i j (by omega), h3 i k (by omega)])
    rw [e]
    dsimp only at h1 h2
    have e1 : (fun r => t'.f r k) = fun r => upd2 t.f i0 k (Flt.sub (t.f i0 k) a) r k :=
      funext fun y => h2 y k (by omega)
    refine ⟨_, rfl, fun h => absurd h ha, fun _ => ?_, fun i hi' => ?_, fun _ i j h3 h4 h5 h6 => ?_,
      fun i j h3 => ?_⟩
    · rw [h2 i0 k (by omega), upd2_eq, if_pos ⟨rfl, rfl⟩]
    · rw [h2 i k (by omega), upd2_eq, if_neg (by omega)]
    · rw [h1 i j (by omega) h6 h3 h4, e1, upd2_eq _ _ _ _ i j, if_neg (by omega), h2 i k (by omega)]
    · rw [h2 i j (by omega), upd2_eq, if_neg (by omega)]

theorem Bi.rowApply_ok {k j0 i : Nat} (hk : k < i) (hi : i < m) (hj : j0 < n) (a : α) (t : Tab α m n) :
    ∃ t' : Tab α m n, Bi.rowApply k j0 a i t = .ok t' ∧
      (∀ j, j0 ≤ j → j < n → t'.f i j = Flt.sub (t.f i j)
        (Flt.mul (halpha j0 n a (t.f k) (t.f i)) (t.f k j))) ∧
      ∀ x y, ¬ (x = i ∧ j0 ≤ y ∧ y < n) → t'.f x y = t.f x y := by
  unfold Bi.rowApply
  rw [subUp_ok (fun r => Flt.mul (t.f i r) (t.f k r)) fun j h1 h2 => by
    rw [Tab.get_ok hi h2, ok_bind, Tab.get_ok (by omega) h2]; rfl, ok_bind, Tab.get_ok (by omega) hj,
    ok_bind]
  refine Tab.rowLoop (fun j v => Flt.sub v
    (Flt.mul (halpha j0 n a (t.f k) (t.f i)) (t.f k j))) (fun j t' h1 h2 h3 => ?_)
  rw [Tab.get_ok hi h2, ok_bind, Tab.get_ok (by omega) h2, ok_bind, Tab.set_ok hi h2,
    h3 i j (by omega), h3 k j (by omega)]
  rfl

theorem Bi.rowPass_ok {k j0 : Nat} (hk : k < m) (hj : j0 < n) (t : Tab α m n) :
    ∃ t' : Tab α m n, Bi.rowPass k j0 t = .ok (Bi.nrm j0 n (t.f k), t') ∧
      Bi.Pass n m j0 k (fun i j => t.f j i) (fun i j => t'.f j i) (Bi.nrm j0 n (t.f k)) := by
  unfold Bi.rowPass
  rw [sumUp_ok (fun r => Flt.mul (t.f k r) (t.f k r)) fun i h1 h2 => by
    rw [Tab.get_ok hk h2]; rfl, ok_bind, Tab.get_ok hk hj, ok_bind]
  show ∃ t' : Tab α m n, Bi.rowRefl k j0 (Bi.nrm j0 n (t.f k)) t = _ ∧ _
  generalize Bi.nrm j0 n (t.f k) = a
  unfold Bi.rowRefl
  by_cases ha : Flt.eq a Flt.zero = true
  · rw [if_neg (by simp [ha])]
    exact ⟨_, rfl, fun _ => rfl, fun h => by simp [ha] at h, fun _ _ => rfl,
      fun h => by simp [ha] at h, fun _ _ _ => rfl⟩
  · rw [if_pos (by simp [ha]), Tab.get_ok hk hj, ok_bind, Tab.set_ok hk hj, ok_bind]
    obtain ⟨t', e, h1, h2⟩ := Tab.rowsLoop (ε := Fault) (r := m) (c := n) (a := k + 1) (b := m) (p := j0)
      (q := n) (t := (⟨upd2 t.f k j0 (Flt.sub (t.f k j0) a)⟩ : Tab α m n))
      (body := Bi.rowApply k j0 a)
      (fun i j v => Flt.sub v (Flt.mul (halpha j0 n a (upd2 t.f k j0 (Flt.sub (t.f k j0) a) k)
        (t.f i)) (upd2 t.f k j0 (Flt.sub (t.f k j0) a) k j))) (by
      intro i t' h1 h2 h3
      obtain ⟨t'', e, h4, h5⟩ := Bi.rowApply_ok (show k < i by omega) h2 hj a t'
      refine ⟨t'', e, fun j h6 h7 => ?_, h5⟩
      have e1 : t'.f k = upd2 t.f k j0 (Flt.sub (t.f k j0) a) k :=
        funext fun y => h3 k y (by omega)
      have e2 : t'.f i = t.f i := funext fun y => by
        rw [h3 i y (by omega)]; dsimp only; rw [upd2_eq, if_neg (by omega)]
      rw [h4 j h6 h7, e1, e2]
      dsimp only
      rw [upd2_eq _ _ _ _ i, if_neg (by omega)])
    rw [e]
    dsimp only at h1 h2
    have e1 : t'.f k = upd2 t.f k j0 (Flt.sub (t.f k j0) a) k := funext fun y => h2 k y (by omega)
    refine ⟨_, rfl, fun h => absurd h ha, fun _ => ?_, fun i hi' => ?_, fun _ i j h3 h4 h5 h6 => ?_,
      fun i j h3 => ?_⟩
    · rw [e1, upd2_eq, if_pos ⟨rfl, rfl⟩]
    · rw [e1, upd2_eq, if_neg (by omega)]
    · rw [h1 j i (by omega) h6 h3 h4, e1, upd2_eq _ _ _ _ j i, if_neg (by omega)]
    · rw [h2 j i (by omega), upd2_eq, if_neg (by omega)]

/-- One round of the reduction to upper bidiagonal form. The reduction to lower bidiagonal form does the
same to the transposed table. -/
inductive Bi.Round (m n k : Nat) (f f' : Nat → Nat → α) (d d' e e' : Nat → α) : Prop
  | mid (hk : k + 1 < n) {f1 : Nat → Nat → α}
      (h1 : Bi.Pass m n k k f f1 (Bi.nrm k m fun i => f i k))
      (h2 : Bi.Pass n m (k + 1) k (fun i j => f1 j i) (fun i j => f' j i) (Bi.nrm (k + 1) n (f1 k)))
      (hd : d' = upd1 d k (Bi.nrm k m fun i => f i k)) (he : e' = upd1 e k (Bi.nrm (k + 1) n (f1 k)))
  | last (hk : k + 1 = n) (h1 : Bi.Pass m n k k f f' (Bi.nrm k m fun i => f i k))
      (hd : d' = upd1 d k (Bi.nrm k m fun i => f i k)) (he : e' = e)

theorem Bi.upStep_ok {k : Nat} (hk : k < n) (hnm : n ≤ m) (s : Bi α m n) :
    ∃ s', Bi.upStep k s = .ok s' ∧
      Bi.Round m n k s.hv.f s'.hv.f s.main.f s'.main.f s.sec.f s'.sec.f := by
  unfold Bi.upStep
  obtain ⟨t1, e1, h1⟩ := Bi.colPass_ok (show k < m by omega) hk s.hv
  rw [e1, ok_bind, Row.set_ok (by omega), ok_bind]
  by_cases hk' : k + 1 < n
  · obtain ⟨t2, e2, h2⟩ := Bi.rowPass_ok (show k < m by omega) hk' t1
    rw [if_pos hk', e2, ok_bind, Row.set_ok (by omega), ok_bind]
    exact ⟨_, rfl, .mid hk' h1 h2 rfl rfl⟩
  · rw [if_neg hk']
    exact ⟨_, rfl, .last (by omega) h1 rfl rfl⟩

theorem Bi.lowStep_ok {k : Nat} (hk : k < m) (hnm : m < n) (s : Bi α m n) :
    ∃ s', Bi.lowStep k s = .ok s' ∧ Bi.Round n m k (fun i j => s.hv.f j i) (fun i j => s'.hv.f j i)
      s.main.f s'.main.f s.sec.f s'.sec.f := by
  unfold Bi.lowStep
  obtain ⟨t1, e1, h1⟩ := Bi.rowPass_ok hk (show k < n by omega) s.hv
  rw [e1, ok_bind, Row.set_ok (by omega), ok_bind]
  by_cases hk' : k + 1 < m
  · obtain ⟨t2, e2, h2⟩ := Bi.colPass_ok hk' (show k < n by omega) t1
    rw [if_pos hk', e2, ok_bind, Row.set_ok (by omega), ok_bind]
    exact ⟨_, rfl, .mid hk' h1 h2 rfl rfl⟩
  · rw [if_neg hk']
    exact ⟨_, rfl, .last (by omega) h1 rfl rfl⟩

theorem Bi.new_wp [ZeroLaws α] {a : Mat α m n} (ha : a.own) (hm : 0 < m) (hn : 0 < n)
    {A : Nat → Nat → α} (hA : Shows a.at m n A)
    (I J : Nat → (Nat → Nat → α) → (Nat → α) → (Nat → α) → Prop)
    (hI0 : ∀ f d e, (∀ i j, i < m → j < n → f i j = A i j) → I 0 f d e)
    (hI : ∀ k f f' d d' e e', k < n → n ≤ m → I k f d e → Bi.Round m n k f f' d d' e e' → I (k + 1) f' d' e')
    (hJ0 : ∀ f d e, (∀ i j, i < n → j < m → f i j = A j i) → J 0 f d e)
    (hJ : ∀ k f f' d d' e e', k < m → m ≤ n → J k f d e → Bi.Round n m k f f' d d' e e' → J (k + 1) f' d' e') :
    ∃ s, Bi.new a = .ok s ∧ (n ≤ m → I n s.hv.f s.main.f s.sec.f) ∧
      (m < n → J m (fun i j => s.hv.f j i) s.main.f s.sec.f) := by
  obtain ⟨t, e2, h1⟩ := Mat.dataCopy_ok ha hn hA
  unfold Bi.new
  rw [Mat.colDim_ok hm, ok_bind, e2, ok_bind, if_neg (by omega)]
  by_cases hnm : n ≤ m
  · show ∃ s, (if n ≤ m then _ else _ : Res (Bi α m n)) = _ ∧ _
    rw [if_pos hnm]
    obtain ⟨s, e, h⟩ := Wp.exists_ok (wp_forUp (E := fun _ : Fault => False) (a := 0) (b := n)
      (s := (⟨t, Row.zero _, Row.zero _⟩ : Bi α m n)) (body := Bi.upStep)
      (fun k s => I k s.hv.f s.main.f s.sec.f) (Nat.zero_le _) (hI0 _ _ _ h1) (by
      intro k s _ hk h
      obtain ⟨s', e, hr⟩ := Bi.upStep_ok hk hnm s
      rw [e]
      exact hI _ _ _ _ _ _ _ hk hnm h hr))
    exact ⟨s, e, fun _ => h, fun h => by omega⟩
  · show ∃ s, (if n ≤ m then _ else _ : Res (Bi α m n)) = _ ∧ _
    rw [if_neg hnm]
    obtain ⟨s, e, h⟩ := Wp.exists_ok (wp_forUp (E := fun _ : Fault => False) (a := 0) (b := m)
      (s := (⟨t, Row.zero _, Row.zero _⟩ : Bi α m n)) (body := Bi.lowStep)
      (fun k s => J k (fun i j => s.hv.f j i) s.main.f s.sec.f) (Nat.zero_le _)
      (hJ0 _ _ _ fun i j hi hj => h1 j i hj hi) (by
      intro k s _ hk h
      obtain ⟨s', e, hr⟩ := Bi.lowStep_ok hk (by omega) s
      rw [e]
      exact hJ _ _ _ _ _ _ _ hk (by omega) h hr))
    exact ⟨s, e, fun h => absurd h hnm, fun _ => h⟩

/-- One step of the accumulation of `U` or `V`. -/
structure Bi.AStep (N k : Nat) (d : α) (v : Nat → α) (q q' : Nat → Nat → α) : Prop where
  skip : Flt.eq (v k) Flt.zero = true → q' = upd2 q k k Flt.one
  cols : Flt.eq (v k) Flt.zero = false → ∀ i j, k ≤ i → i < N → k ≤ j → j < N → q' i j =
    Flt.add (upd2 q k k Flt.one i j)
      (Flt.mul (Flt.neg (Flt.div (lsub k N (fun r => Flt.mul (upd2 q k k Flt.one r j) (v r)) Flt.zero)
        (Flt.mul d (v k)))) (v i))
  other : ∀ i j, (i < k ∨ j < k) → q' i j = q i j

theorem Bi.accStep_ok {N k : Nat} (hk : k < N) {rv : Nat → Res α} {rd : Res α} {v : Nat → α} {d : α}
    (hv : ∀ i, k ≤ i → i < N → rv i = .ok (v i)) (hd : rd = .ok d) (q : Tab α N N) :
    ∃ q' : Tab α N N, Bi.accStep k rv rd q = .ok q' ∧ Bi.AStep N k d v q.f q'.f := by
  unfold Bi.accStep
  rw [Tab.set_ok hk hk, ok_bind, hv k le_rfl hk, ok_bind]
  by_cases ha : Flt.eq (v k) Flt.zero = true
  · rw [if_neg (by simp [ha])]
    refine ⟨_, rfl, fun _ => rfl, fun h => by simp [ha] at h, fun i j h => ?_⟩
    dsimp only
    rw [upd2_eq, if_neg (by omega)]
  · rw [if_pos (by simp [ha])]
    obtain ⟨t', e, h1, h2⟩ := Tab.colsLoop (ε := Fault) (r := N) (c := N) (a := k) (b := N) (p := k)
      (q := N) (t := (⟨upd2 q.f k k Flt.one⟩ : Tab α N N)) (body := Bi.accCol k rv rd)
      (fun i j x => Flt.add x
        (Flt.mul (Flt.neg (Flt.div (lsub k N (fun r => Flt.mul (upd2 q.f k k Flt.one r j) (v r))
          Flt.zero) (Flt.mul d (v k)))) (v i))) (by
      intro j t' h1 h2 h3
      unfold Bi.accCol
      rw [subUp_ok (fun r => Flt.mul (upd2 q.f k k Flt.one r j) (v r)) fun r h4 h5 => by
        rw [Tab.get_ok h5 h2, ok_bind, hv r h4 h5, h3 r j (by omega)]; rfl, ok_bind,
        hd, ok_bind, hv k le_rfl hk, ok_bind]
      obtain ⟨t'', e, h4, h5⟩ := Tab.colLoop (ε := Fault) (r := N) (c := N) (a := k) (b := N) (j := j)
        (t := t') (fun i x => Flt.add x
          (Flt.mul (Flt.neg (Flt.div (lsub k N (fun r => Flt.mul (upd2 q.f k k Flt.one r j) (v r))
            Flt.zero) (Flt.mul d (v k)))) (v i)))
        (body := fun i (q_1 : Tab α N N) => do
          q_1.set i j (Flt.add (← q_1.get i j) (Flt.mul (Flt.neg (Flt.div
            (lsub k N (fun r => Flt.mul (upd2 q.f k k Flt.one r j) (v r)) Flt.zero)
            (Flt.mul d (v k)))) (← rv i)))) (by
        intro i t'' h4 h5 h6
        rw [Tab.get_ok h5 h2, ok_bind, hv i h4 h5, ok_bind, Tab.set_ok h5 h2,
          h6 i j (by omega)])
      refine ⟨t'', e, fun i h6 h7 => ?_, h5⟩
      rw [h4 i h6 h7, h3 i j (by omega)])
    rw [e]
    dsimp only at h1 h2
    refine ⟨t', rfl, fun h => absurd h ha, fun _ i j h3 h4 h5 h6 => h1 i j h5 h6 h3 h4,
      fun i j h => ?_⟩
    rw [h2 i j (by omega), upd2_eq, if_neg (by omega)]

/-- The identity from row `p` on, zero before. -/
def Bi.fillEnt (p i j : Nat) : α := if i = j ∧ p ≤ i then Flt.one else Flt.zero

theorem Bi.fill_ok {N p : Nat} (hp : p ≤ N) :
    ∃ q : Tab α N N, forDown N p (fun k (q : Tab α N N) => q.set k k Flt.one) (Jag.zero N _) =
      (.ok q : Res (Tab α N N)) ∧ ∀ i j, i < N → j < N → q.f i j = Bi.fillEnt p i j := by
  refine Wp.exists_ok ((wp_forDown (E := fun _ : Fault => False) (b := p) (a := N)
    (s := (Jag.zero N _ : Tab α N N)) (body := fun k (q : Tab α N N) => q.set k k Flt.one)
    (fun k (t : Tab α N N) => ∀ i j, i < N → j < N → t.f i j = Bi.fillEnt k i j) hp (by
      intro i j hi _
      unfold Bi.fillEnt
      rw [if_neg (by omega)]; rfl) (by
      intro k t h1 h2 h3
      rw [wp_tset h2 h2]
      intro i j hi hj
      dsimp only
      rw [upd2_eq, h3 i j hi hj]
      unfold Bi.fillEnt
      by_cases e : i = k ∧ j = k
      · rw [if_pos e, if_pos (by omega)]
      · rw [if_neg e]
        refine if_congr ?_ rfl rfl
        omega)))

/-- Accumulation from the last reflection down to reflection `off`. -/
theorem Bi.acc_wp {N p off : Nat} (ho : off ≤ p) {v : Nat → Nat → α} {d : Nat → α}
    {body : Nat → Tab α N N → Res (Tab α N N)}
    (hb : ∀ k (q : Tab α N N), off ≤ k → k < p → ∃ q' : Tab α N N, body k q = .ok q' ∧
      Bi.AStep N k (d (k - off)) (v (k - off)) q.f q'.f)
    (I : Nat → (Nat → Nat → α) → Prop) (q : Tab α N N) (h0 : I p q.f)
    (hs : ∀ k q q', off ≤ k → k < p → I (k + 1) q → Bi.AStep N k (d (k - off)) (v (k - off)) q q' → I k q') :
    ∃ q' : Tab α N N, forDown p off body q = .ok q' ∧ I off q'.f := by
  refine Wp.exists_ok (wp_forDown (E := fun _ : Fault => False)
    (fun k (t : Tab α N N) => I k t.f) ho h0 ?_)
  intro k t h1 h2 h3
  obtain ⟨q', e, h4⟩ := hb k t h1 h2
  rw [e]
  exact hs k _ _ h1 h2 h3 h4

/-- The bidiagonal matrix, law-free. -/
def Bi.bEnt (d e : Nat → α) (i j : Nat) : α :=
  if j = i then d i else if j = i + 1 then e i else Flt.zero

theorem Bi.b_ok (hm : 0 < m) (hn : 0 < n) (s : Bi α m n) :
    ∃ M : Mat α m n, s.b = .ok ⟨m, n, M⟩ ∧ M.dense ∧ Shows M.at m n (fun i j =>
      if n ≤ m then Bi.bEnt s.main.f s.sec.f i j else Bi.bEnt s.main.f s.sec.f j i) := by
  unfold Bi.b
  obtain ⟨ta, e, h1⟩ := Wp.exists_ok (wp_forUp (E := fun _ : Fault => False) (a := 0) (b := min m n)
    (s := (Jag.zero m _ : Tab α m n)) (body := s.bRow)
    (fun k (t : Tab α m n) => ∀ i j, i < m → j < n →
      t.f i j = if i < k then
        (if n ≤ m then Bi.bEnt s.main.f s.sec.f i j else Bi.bEnt s.main.f s.sec.f j i) else Flt.zero)
    (Nat.zero_le _)
    (by intro i j _ _; rw [if_neg (by omega)]; rfl) (by
    intro k t h1 h2 h3
    unfold Bi.bRow
    rw [Row.get_ok h2, ok_bind, Tab.set_ok (by omega) (by omega), ok_bind]
    by_cases e0 : m < n
    · rw [if_pos e0]
      by_cases e1 : k > 0
      · rw [if_pos e1, Row.get_ok (by omega), ok_bind, Tab.set_ok (by omega) (by omega)]
        intro i j hi hj
        dsimp only
        rw [upd2_eq, upd2_eq, h3 i j hi hj]
        unfold Bi.bEnt
        split_ifs <;> first | rfl | (exfalso; omega) | (congr 1; omega)
      · rw [if_neg e1]
        intro i j hi hj
        dsimp only
        rw [upd2_eq, h3 i j hi hj]
        unfold Bi.bEnt
        split_ifs <;> first | rfl | (exfalso; omega) | (congr 1; omega)
    · rw [if_neg e0]
      by_cases e1 : k < min m n - 1
      · rw [if_pos e1, Row.get_ok (by omega), ok_bind, Tab.set_ok (by omega) (by omega)]
        intro i j hi hj
        dsimp only
        rw [upd2_eq, upd2_eq, h3 i j hi hj]
        unfold Bi.bEnt
        split_ifs <;> first | rfl | (exfalso; omega) | (congr 1; omega)
      · rw [if_neg e1]
        intro i j hi hj
        dsimp only
        rw [upd2_eq, h3 i j hi hj]
        unfold Bi.bEnt
        split_ifs <;> first | rfl | (exfalso; omega) | (congr 1; omega)))
  rw [e, ok_bind]
  obtain ⟨M, e2, h2, h3⟩ := SMat.fromSlices_dense (Jag.toLists_rect ta) hm hn false
  refine ⟨M, by rw [e2]; rfl, h2, h3.congr fun i j hi hj => ?_⟩
  rw [h1 i j hi hj]
  unfold Bi.bEnt
  split_ifs <;> first | rfl | (exfalso; omega)

/-- `U`, with any invariant of the accumulation. -/
theorem Bi.u_wp (hm : 0 < m) (s : Bi α m n) (I : Nat → (Nat → Nat → α) → Prop)
    (h0 : ∀ q, (∀ i j, i < m → j < m → q i j = Bi.fillEnt (min m n) i j) → I (min m n) q)
    (hs : n ≤ m → ∀ k q q', k < n → I (k + 1) q →
      Bi.AStep m k (s.main.f k) (fun i => s.hv.f i k) q q' → I k q')
    (hs' : m < n → ∀ k q q', 1 ≤ k → k < m → I (k + 1) q →
      Bi.AStep m k (s.sec.f (k - 1)) (fun i => s.hv.f i (k - 1)) q q' → I k q') :
    ∃ (M : Mat α m m) (q : Nat → Nat → α), s.u = .ok ⟨m, m, M⟩ ∧ M.dense ∧
      Shows M.at m m (if n ≤ m then q else upd2 q 0 0 Flt.one) ∧ I (if n ≤ m then 0 else 1) q := by
  unfold Bi.u
  obtain ⟨q0, e0, hq0⟩ := Bi.fill_ok (α := α) (N := m) (p := min m n) (by omega)
  rw [e0, ok_bind]
  unfold Bi.uAcc
  by_cases hnm : n ≤ m
  · rw [if_pos hnm]
    obtain ⟨q, e, h⟩ := Bi.acc_wp (off := 0) (p := min m n) (Nat.zero_le _)
      (v := fun k i => s.hv.f i k) (d := s.main.f)
      (body := fun k => Bi.accStep k (fun i => s.hv.get i k) (s.main.get k))
      (fun k q _ hk => Bi.accStep_ok (by omega) (fun i _ hi => Tab.get_ok hi (by omega))
        (Row.get_ok hk) q) I q0 (h0 _ hq0) (fun k q q' _ hk h1 h2 => hs hnm k q q' (by omega) h1 h2)
    obtain ⟨M, e2, h3, h4⟩ := SMat.fromSlices_dense (Jag.toLists_rect q) hm hm false
    refine ⟨M, q.f, ?_, h3, ?_, ?_⟩
    · rw [e, ok_bind, e2]; rfl
    · rw [if_pos hnm]; exact h4
    · rw [if_pos hnm]; exact h
  · rw [if_neg hnm]
    obtain ⟨q, e, h⟩ := Bi.acc_wp (off := 1) (p := min m n) (by omega)
      (v := fun k i => s.hv.f i k) (d := s.sec.f)
      (body := fun k => Bi.accStep k (fun i => s.hv.get i (k - 1)) (s.sec.get (k - 1)))
      (fun k q _ hk => Bi.accStep_ok (by omega) (fun i _ hi => Tab.get_ok hi (by omega))
        (Row.get_ok (by omega)) q) I q0 (h0 _ hq0)
      (fun k q q' h0 hk h1 h2 => hs' (by omega) k q q' h0 (by omega) h1 h2)
    obtain ⟨M, e2, h3, h4⟩ := SMat.fromSlices_dense
      (Jag.toLists_rect (⟨upd2 q.f 0 0 Flt.one⟩ : Tab α m m)) hm hm false
    refine ⟨M, q.f, ?_, h3, ?_, ?_⟩
    · rw [e, ok_bind, Tab.set_ok hm hm, ok_bind, e2]; rfl
    · rw [if_neg hnm]; exact h4
    · rw [if_neg hnm]; exact h

/-- `V`, with any invariant of the accumulation. -/
theorem Bi.v_wp (hm : 0 < m) (hn : 0 < n) (s : Bi α m n) (I : Nat → (Nat → Nat → α) → Prop)
    (h0 : ∀ q, (∀ i j, i < n → j < n → q i j = Bi.fillEnt (min m n) i j) → I (min m n) q)
    (hs : m < n → ∀ k q q', k < m → I (k + 1) q →
      Bi.AStep n k (s.main.f k) (s.hv.f k) q q' → I k q')
    (hs' : n ≤ m → ∀ k q q', 1 ≤ k → k < n → I (k + 1) q →
      Bi.AStep n k (s.sec.f (k - 1)) (s.hv.f (k - 1)) q q' → I k q') :
    ∃ (M : Mat α n n) (q : Nat → Nat → α), s.v = .ok ⟨n, n, M⟩ ∧ M.dense ∧
      Shows M.at n n (if n ≤ m then upd2 q 0 0 Flt.one else q) ∧ I (if n ≤ m then 1 else 0) q := by
  unfold Bi.v
  obtain ⟨q0, e0, hq0⟩ := Bi.fill_ok (α := α) (N := n) (p := min m n) (by omega)
  rw [e0, ok_bind]
  unfold Bi.vAcc
  by_cases hnm : n ≤ m
  · rw [if_pos hnm]
    obtain ⟨q, e, h⟩ := Bi.acc_wp (off := 1) (p := min m n) (by omega)
      (v := s.hv.f) (d := s.sec.f)
      (body := fun k => Bi.accStep k (fun i => s.hv.get (k - 1) i) (s.sec.get (k - 1)))
      (fun k q _ hk => Bi.accStep_ok (by omega) (fun i _ hi => Tab.get_ok (by omega) hi)
        (Row.get_ok (by omega)) q) I q0 (h0 _ hq0)
      (fun k q q' h0 hk h1 h2 => hs' hnm k q q' h0 (by omega) h1 h2)
    obtain ⟨M, e2, h3, h4⟩ := SMat.fromSlices_dense
      (Jag.toLists_rect (⟨upd2 q.f 0 0 Flt.one⟩ : Tab α n n)) hn hn false
    refine ⟨M, q.f, ?_, h3, ?_, ?_⟩
    · rw [e, ok_bind, Tab.set_ok hn hn, ok_bind, e2]; rfl
    · rw [if_pos hnm]; exact h4
    · rw [if_pos hnm]; exact h
  · rw [if_neg hnm]
    obtain ⟨q, e, h⟩ := Bi.acc_wp (off := 0) (p := min m n) (Nat.zero_le _)
      (v := s.hv.f) (d := s.main.f)
      (body := fun k => Bi.accStep k (fun i => s.hv.get k i) (s.main.get k))
      (fun k q _ hk => Bi.accStep_ok (by omega) (fun i _ hi => Tab.get_ok (by omega) hi)
        (Row.get_ok hk) q) I q0 (h0 _ hq0)
      (fun k q q' _ hk h1 h2 => hs (by omega) k q q' (by omega) h1 h2)
    obtain ⟨M, e2, h3, h4⟩ := SMat.fromSlices_dense (Jag.toLists_rect q) hn hn false
    refine ⟨M, q.f, ?_, h3, ?_, ?_⟩
    · rw [e, ok_bind, e2]; rfl
    · rw [if_neg hnm]; exact h4
    · rw [if_neg hnm]; exact h

end free

section exact

variable {K : Type} [Field K] [LinearOrder K] [IsStrictOrderedRing K] [Flt K] [Exact K] [ExactSqrt K]
variable {m n : Nat}

theorem Bi.nrm_eq (k m : Nat) (x : Nat → K) : Bi.nrm k m x = hnorm k m x := by
  unfold Bi.nrm Bi.sign hnorm
  refine if_congr Iff.rfl ?_ rfl
  simp only [Exact.neg_eq, Exact.mul_eq, Exact.one_eq]
  ring

/-- The factor of a reflection. -/
def Bi.beta (d x : K) : K := if x = 0 then 0 else 1 / (d * x)

theorem Bi.Pass.exact {i0 k : Nat} {f f' : Nat → Nat → K} {a : K}
    (ha : a = Bi.nrm i0 m fun i => f i k) (h : Bi.Pass m n i0 k f f' a) (hi : i0 < m) :
    (Bi.beta a (f' i0 k) = 0 ∨
      Bi.beta a (f' i0 k) * ∑ r ∈ Ico i0 m, f' r k * f' r k = -2) ∧
    (∀ i j, i < m → k < j → j < n → f' i j = f i j +
      Bi.beta a (f' i0 k) * (∑ r ∈ Ico i0 m, f' r k * f r j) * tl i0 (fun r => f' r k) i) ∧
    ∀ i, i0 ≤ i → i < m → f i k +
      Bi.beta a (f' i0 k) * (∑ r ∈ Ico i0 m, f' r k * f r k) * tl i0 (fun r => f' r k) i =
        if i = i0 then a else 0 := by
  by_cases h0 : a = 0
  · have e := h.same (by simp [h0])
    have hz : ∀ r, i0 ≤ r → r < m → f r k = 0 := fun r h1 h2 =>
      hnorm_zero (x := fun i => f i k) ((Bi.nrm_eq _ _ _).symm.trans (ha.symm.trans h0)) h1 h2
    have hb : Bi.beta a (f' i0 k) = 0 := by
      rw [e]; exact if_pos (hz i0 le_rfl hi)
    rw [hb]
    refine ⟨.inl rfl, fun i j _ _ _ => by rw [e]; ring, fun i h1 h2 => ?_⟩
    rw [hz i h1 h2, h0]
    simp
  · have e0 : Flt.eq a Flt.zero = false := by simp [h0]
    have hv : HV m i0 (fun i => f i k) (fun i => f' i k) a := by
      refine ⟨?_, ?_, h0, ?_, fun r h1 _ => h.col r (by omega)⟩
      · rw [ha, Bi.nrm_eq]; exact hnorm_sq i0 m _
      · rw [ha, Bi.nrm_eq]; exact hnorm_sign i0 m fun i => f i k
      · show f' i0 k = _
        rw [h.head e0, Exact.sub_eq]
    have hb : Bi.beta a (f' i0 k) = 1 / (a * f' i0 k) := if_neg hv.head_ne
    rw [hb]
    refine ⟨.inr (hv.beta hi), fun i j h1 h2 h3 => ?_, fun i h1 h2 => ?_⟩
    · by_cases h4 : i0 ≤ i
      · rw [h.cols e0 i j h4 h1 h2 h3, halpha_exact, tl, if_pos h4, Exact.sub_eq, Exact.mul_eq]
        ring
      · rw [h.other i j (by omega), tl, if_neg h4]
        ring
    · have := hv.apply hi h2
      rw [this, if_neg (by omega)]

theorem Bi.Pass.left {i0 k : Nat} {f f' : Nat → Nat → K} {a : K}
    (ha : a = Bi.nrm i0 m fun i => f i k) (h : Bi.Pass m n i0 k f f' a) (hi : i0 < m)
    {M M' : Nat → Nat → K}
    (h1 : ∀ i j, i0 ≤ i → i < m → k ≤ j → j < n → M i j = f i j)
    (h2 : ∀ i j, i0 ≤ i → i < m → j < k → M i j = 0)
    (h3 : ∀ i j, i < i0 → j < n → M' i j = M i j)
    (h4 : ∀ i j, i0 ≤ i → i < m → j < n →
      M' i j = if j < k then 0 else if j = k then (if i = i0 then a else 0) else f' i j) :
    hh m i0 (fun r => f' r k) (Bi.beta a (f' i0 k)) * mx m n M = mx m n M' := by
  obtain ⟨-, g2, g3⟩ := h.exact ha hi
  rw [hh_mul]
  refine mx_congr fun i j hi' hj => ?_
  by_cases e : i0 ≤ i
  · rw [h4 i j e hi' hj]
    by_cases e1 : j < k
    · rw [if_pos e1, h2 i j e hi' e1, sum_eq_zero]
      · ring
      · intro r hr
        have := mem_Ico.1 hr
        rw [h2 r j this.1 this.2 e1, mul_zero]
    · have hs : ∑ r ∈ Ico i0 m, f' r k * M r j = ∑ r ∈ Ico i0 m, f' r k * f r j :=
        sum_congr rfl fun r hr => by
          have := mem_Ico.1 hr
          rw [h1 r j this.1 this.2 (by omega) hj]
      rw [if_neg e1, hs, h1 i j e hi' (by omega) hj]
      by_cases e2 : j = k
      · subst e2
        rw [if_pos rfl]
        exact g3 i e hi'
      · rw [if_neg e2, g2 i j hi' (by omega) hj]
  · rw [h3 i j (by omega) hj, tl, if_neg e]
    ring

/-- Reflection `j` from the left. -/
def Bi.HL (m : Nat) (f : Nat → Nat → K) (d : Nat → K) (j : Nat) : Matrix (Fin m) (Fin m) K :=
  hh m j (fun r => f r j) (Bi.beta (d j) (f j j))

/-- Reflection `j` from the right. -/
def Bi.HR (n : Nat) (f : Nat → Nat → K) (e : Nat → K) (j : Nat) : Matrix (Fin n) (Fin n) K :=
  hh n (j + 1) (f j) (Bi.beta (e j) (f j (j + 1)))

/-- What the table and the diagonals stand for before round `k`. -/
def Bi.M (k : Nat) (f : Nat → Nat → K) (d e : Nat → K) (i j : Nat) : K :=
  if i < k then Bi.bEnt d e i j else if j < k then 0 else f i j

/-- The invariant of the reduction. -/
structure Bi.Inv (m n : Nat) (A : Nat → Nat → K) (k : Nat) (f : Nat → Nat → K) (d e : Nat → K) : Prop where
  prod : mx m n A = hprod m (Bi.HL m f d) k * mx m n (Bi.M k f d e) *
    (hprod n (Bi.HR n f e) (min k (n - 1)))ᵀ
  left : ∀ j, j < k → Bi.HL m f d j * Bi.HL m f d j = 1
  right : ∀ j, j < min k (n - 1) → Bi.HR n f e j * Bi.HR n f e j = 1

theorem Bi.Inv.init {A f : Nat → Nat → K} (d e : Nat → K) (h : ∀ i j, i < m → j < n → f i j = A i j) :
    Bi.Inv m n A 0 f d e := by
  refine ⟨?_, fun j h => by omega, fun j h => by omega⟩
  rw [Nat.zero_min]
  rw [hprod, hprod, Matrix.one_mul, Matrix.transpose_one, Matrix.mul_one]
  refine mx_congr fun i j hi hj => ?_
  rw [Bi.M, if_neg (by omega), if_neg (by omega), h i j hi hj]

theorem Bi.Inv.step {A f f' : Nat → Nat → K} {d d' e e' : Nat → K} {k : Nat} (hk : k < n) (hnm : n ≤ m)
    (h : Bi.Inv m n A k f d e) (hr : Bi.Round m n k f f' d d' e e') : Bi.Inv m n A (k + 1) f' d' e' := by
  have hkm : k < m := by omega
  cases hr with
  | @mid hk' f1 h1 h2 hd he =>
    have hdk : d' k = Bi.nrm k m fun i => f i k := by rw [hd, upd1_eq, if_pos rfl]
    have hek : e' k = Bi.nrm (k + 1) n (f1 k) := by rw [he, upd1_eq, if_pos rfl]
    have hcol : ∀ i j, j < k + 1 → f' i j = f1 i j := fun i j hj => h2.other j i (.inl hj)
    have hrow : ∀ i j, i < k → f' i j = f i j := fun i j hi =>
      (h2.other j i (.inr hi)).trans (h1.other i j (.inl hi))
    have hcolf : ∀ i j, j < k → f' i j = f i j := fun i j hj =>
      (hcol i j (by omega)).trans (h1.other i j (.inr hj))
    have eL : ∀ j, j < k → Bi.HL m f' d' j = Bi.HL m f d j := fun j hj => by
      unfold Bi.HL
      rw [show (fun r => f' r j) = fun r => f r j from funext fun r => hcolf r j hj, hcolf j j hj, hd,
        upd1_eq, if_neg (by omega)]
    have eR : ∀ j, j < k → Bi.HR n f' e' j = Bi.HR n f e j := fun j hj => by
      unfold Bi.HR
      rw [show f' j = f j from funext fun r => hrow j r hj, he, upd1_eq, if_neg (by omega)]
    have eLk : Bi.HL m f' d' k = hh m k (fun r => f1 r k) (Bi.beta (Bi.nrm k m fun i => f i k) (f1 k k)) := by
      unfold Bi.HL
      rw [show (fun r => f' r k) = fun r => f1 r k from funext fun r => hcol r k (by omega),
        hcol k k (by omega), hdk]
    have eRk : Bi.HR n f' e' k = hh n (k + 1) (f' k) (Bi.beta (Bi.nrm (k + 1) n (f1 k)) (f' k (k + 1))) := by
      unfold Bi.HR
      rw [hek]
    have sL : Bi.HL m f' d' k * Bi.HL m f' d' k = 1 := by
      rw [eLk]; exact hh_sq (h1.exact rfl hkm).1
    have sR : Bi.HR n f' e' k * Bi.HR n f' e' k = 1 := by
      rw [eRk]; exact hh_sq (h2.exact rfl hk').1
    have hM1 : Bi.HL m f' d' k * mx m n (Bi.M k f d e) = mx m n (fun i j =>
        if i < k then Bi.M k f d e i j else
          if j < k then 0 else if j = k then (if i = k then d' k else 0) else f1 i j) := by
      rw [eLk]
      refine h1.left rfl hkm ?_ ?_ ?_ ?_
      · intro i j h3 h4 h5 h6
        rw [Bi.M, if_neg (by omega), if_neg (by omega)]
      · intro i j h3 h4 h5
        rw [Bi.M, if_neg (by omega), if_pos h5]
      · intro i j h3 h4
        rw [if_pos h3]
      · intro i j h3 h4 h5
        rw [if_neg (by omega), hdk]
    have hM2 : Bi.HL m f' d' k * mx m n (Bi.M k f d e) * Bi.HR n f' e' k =
        mx m n (Bi.M (k + 1) f' d' e') := by
      rw [hM1, ← Matrix.transpose_inj, Matrix.transpose_mul, eRk, hh_transpose, mx_transpose, mx_transpose]
      refine h2.left rfl hk' ?_ ?_ ?_ ?_
      · intro i j h3 h4 h5 h6
        rw [if_neg (by omega), if_neg (by omega), if_neg (by omega)]
      · intro i j h3 h4 h5
        rw [if_pos h5, Bi.M, if_pos h5, Bi.bEnt, if_neg (by omega), if_neg (by omega), Exact.zero_eq]
      · intro i j h3 h4
        unfold Bi.M Bi.bEnt
        rw [hd, he]
        simp only [upd1_eq]
        split_ifs <;> first | rfl | (exfalso; omega) | exact Exact.zero_eq
      · intro i j h3 h4 h5
        unfold Bi.M Bi.bEnt
        rw [← hek]
        split_ifs <;> first | rfl | (exfalso; omega) | exact Exact.zero_eq | (subst_vars; rfl)
    refine ⟨?_, ?_, ?_⟩
    · rw [show min (k + 1) (n - 1) = k + 1 by omega, hprod, hprod, hprod_congr eL, hprod_congr eR, ← hM2,
        Matrix.transpose_mul, show (Bi.HR n f' e' k)ᵀ = Bi.HR n f' e' k from hh_transpose _ _ _ _]
      have hp := h.prod
      rw [show min k (n - 1) = k by omega] at hp
      rw [hp]
      simp only [Matrix.mul_assoc]
      rw [← Matrix.mul_assoc (Bi.HR n f' e' k) (Bi.HR n f' e' k), sR, Matrix.one_mul,
        ← Matrix.mul_assoc (Bi.HL m f' d' k) (Bi.HL m f' d' k), sL, Matrix.one_mul]
    · intro j hj
      by_cases e : j = k
      · rw [e]; exact sL
      · rw [eL j (by omega)]; exact h.left j (by omega)
    · intro j hj
      by_cases e : j = k
      · rw [e]; exact sR
      · rw [eR j (by omega)]; exact h.right j (by omega)
  | last hk' h1 hd he => 
    have hdk : d' k = Bi.nrm k m fun i => f i k := by rw [hd, upd1_eq, if_pos rfl]
    have hrow : ∀ i j, i < k → f' i j = f i j := fun i j hi => h1.other i j (.inl hi)
    have hcolf : ∀ i j, j < k → f' i j = f i j := fun i j hj => h1.other i j (.inr hj)
    have eL : ∀ j, j < k → Bi.HL m f' d' j = Bi.HL m f d j := fun j hj => by
      unfold Bi.HL
      rw [show (fun r => f' r j) = fun r => f r j from funext fun r => hcolf r j hj, hcolf j j hj, hd,
        upd1_eq, if_neg (by omega)]
    have eR : ∀ j, j < k → Bi.HR n f' e' j = Bi.HR n f e j := fun j hj => by
      unfold Bi.HR
      rw [show f' j = f j from funext fun r => hrow j r hj, he]
    have eLk : Bi.HL m f' d' k = hh m k (fun r => f' r k) (Bi.beta (Bi.nrm k m fun i => f i k) (f' k k)) := by
      unfold Bi.HL
      rw [hdk]
    have sL : Bi.HL m f' d' k * Bi.HL m f' d' k = 1 := by
      rw [eLk]; exact hh_sq (h1.exact rfl hkm).1
    have hM2 : Bi.HL m f' d' k * mx m n (Bi.M k f d e) = mx m n (Bi.M (k + 1) f' d' e') := by
      rw [eLk]
      refine h1.left rfl hkm ?_ ?_ ?_ ?_
      · intro i j h3 h4 h5 h6
        rw [Bi.M, if_neg (by omega), if_neg (by omega)]
      · intro i j h3 h4 h5
        rw [Bi.M, if_neg (by omega), if_pos h5]
      · intro i j h3 h4
        rw [Bi.M, Bi.M, if_pos h3, if_pos (by omega), Bi.bEnt, Bi.bEnt, hd, he, upd1_eq, if_neg (show i ≠ k by omega)]
      · intro i j h3 h4 h5
        unfold Bi.M Bi.bEnt
        rw [← hdk]
        split_ifs <;> first | rfl | (exfalso; omega) | exact Exact.zero_eq | (subst_vars; rfl)
    refine ⟨?_, ?_, ?_⟩
    · have hp := h.prod
      rw [show min k (n - 1) = k by omega] at hp
      rw [show min (k + 1) (n - 1) = k by omega, hprod, hprod_congr eL, hprod_congr eR, ← hM2, hp]
      simp only [Matrix.mul_assoc]
      rw [← Matrix.mul_assoc (Bi.HL m f' d' k) (Bi.HL m f' d' k), sL, Matrix.one_mul]
    · intro j hj
      by_cases e : j = k
      · rw [e]; exact sL
      · rw [eL j (by omega)]; exact h.left j (by omega)
    · intro j hj
      rw [eR j (by omega)]; exact h.right j (by omega)

theorem Bi.AStep.exact {N k : Nat} {d : K} {v : Nat → K} {q q' : Nat → Nat → K}
    (h : Bi.AStep N k d v q q') (hq : ∀ i j, i < N → j < N → (i < k + 1 ∨ j < k + 1) → q i j = 0) :
    (∀ i j, i < N → j < N → (i < k ∨ j < k) → q' i j = 0) ∧
    mx N N (pad k q') = hh N k v (Bi.beta d (v k)) * mx N N (pad (k + 1) q) := by
  have e1 : ∀ i j, k ≤ i → i < N → k ≤ j → j < N → upd2 q k k Flt.one i j = pad (k + 1) q i j := by
    intro i j h1 h2 h3 h4
    rw [upd2_eq]
    by_cases e' : i = k ∧ j = k
    · rw [if_pos e', pad_lo (by omega), if_pos (by omega), Exact.one_eq]
    · rw [if_neg e']
      by_cases e' : i < k + 1 ∨ j < k + 1
      · rw [pad_lo e', hq i j h2 h4 e', if_neg (by omega)]
      · rw [pad_hi (by omega) (by omega)]
  refine ⟨fun i j hi hj hij => by rw [h.other i j hij, hq i j hi hj (by omega)], mul_pad ?_⟩
  intro i j h1 h2 h3 h4
  by_cases e : v k = 0
  · rw [Bi.beta, if_pos e, h.skip (by simp [e]), e1 i j h1 h2 h3 h4]
    ring
  · rw [h.cols (by simp [e]) i j h1 h2 h3 h4, e1 i j h1 h2 h3 h4, lsub_exact, Bi.beta, if_neg e]
    have : ∑ r ∈ Ico k N, Flt.mul (upd2 q k k Flt.one r j) (v r) =
        ∑ x ∈ Ico k N, v x * pad (k + 1) q x j := sum_congr rfl fun r hr => by
      have := mem_Ico.1 hr
      rw [e1 r j this.1 this.2 h3 h4, Exact.mul_eq, mul_comm]
    rw [this]
    simp only [Exact.add_eq, Exact.mul_eq, Exact.div_eq, Exact.neg_eq, Exact.zero_eq]
    ring

/-- The invariant of the accumulation. -/
def Bi.AInv (N : Nat) (H : Nat → Matrix (Fin N) (Fin N) K) (off p k : Nat) (q : Nat → Nat → K) : Prop :=
  (∀ i j, i < N → j < N → (i < k ∨ j < k) → q i j = 0) ∧
    mx N N (pad k q) = hfrom N H (k - off) (p - off)

theorem Bi.AInv.init {N : Nat} (H : Nat → Matrix (Fin N) (Fin N) K) (off p : Nat) {q : Nat → Nat → K}
    (h : ∀ i j, i < N → j < N → q i j = Bi.fillEnt p i j) : Bi.AInv N H off p p q := by
  refine ⟨fun i j hi hj hij => ?_, ?_⟩
  · rw [h i j hi hj, Bi.fillEnt, if_neg (by omega), Exact.zero_eq]
  · rw [hfrom_self, ← mx_one]
    refine mx_congr fun i j hi hj => ?_
    unfold pad
    by_cases e : i < p ∨ j < p
    · rw [if_pos e]
    · rw [if_neg e, h i j hi hj, Bi.fillEnt, Exact.one_eq, Exact.zero_eq]
      exact if_congr (by omega) rfl rfl

theorem Bi.AInv.step {N : Nat} {H : Nat → Matrix (Fin N) (Fin N) K} {off p k : Nat} {d : K} {v : Nat → K}
    {q q' : Nat → Nat → K} (hk : k < p) (ho : off ≤ k) (h : Bi.AInv N H off p (k + 1) q)
    (hs : Bi.AStep N k d v q q') (hH : H (k - off) = hh N k v (Bi.beta d (v k))) :
    Bi.AInv N H off p k q' := by
  obtain ⟨h1, h2⟩ := hs.exact h.1
  refine ⟨h1, ?_⟩
  rw [h2, h.2, hfrom_step H (show k - off < p - off by omega), hH, show k + 1 - off = k - off + 1 by omega]

theorem Bi.AInv.done0 {N : Nat} {H : Nat → Matrix (Fin N) (Fin N) K} {p : Nat} {q : Nat → Nat → K}
    (h : Bi.AInv N H 0 p 0 q) : mx N N q = hprod N H p := by
  rw [← pad_zero, h.2]
  exact hfrom_zero H p

theorem Bi.AInv.done1 {N : Nat} {H : Nat → Matrix (Fin N) (Fin N) K} {p : Nat} {q : Nat → Nat → K}
    (h : Bi.AInv N H 1 p 1 q) : mx N N (upd2 q 0 0 Flt.one) = hprod N H (p - 1) := by
  rw [← hfrom_zero H, ← h.2]
  refine mx_congr fun i j hi hj => ?_
  rw [upd2_eq]
  by_cases e : i < 1 ∨ j < 1
  · rw [pad_lo e, h.1 i j hi hj e, Exact.one_eq]
    exact if_congr (by omega) rfl rfl
  · rw [pad_hi (by omega) (by omega), if_neg (by omega)]

end exact

end Linear
