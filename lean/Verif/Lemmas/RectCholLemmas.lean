import Verif.Model.RectCholesky
import Verif.Lemmas.CholLemmas

/-!
# Lemmas on the rectangular Cholesky decomposition
-/

set_option linter.unusedSectionVars false

namespace Linear

open Spec Finset

variable {α : Type} [Flt α] {n : Nat}

/-- The index vector is a permutation of `[0, n)`. -/
structure RChol.Ix (n : Nat) (p : Nat → Nat) : Prop where
  lt : ∀ i, i < n → p i < n
  inj : ∀ i j, i < n → j < n → p i = p j → i = j

theorem RChol.best_ok (J : Nat → Nat → Prop) {k : Nat} (hk : k < n) (s : RChol α n n)
    (hp : Ix n s.index.f) (h0 : J (k + 1) k)
    (hs : ∀ i q, k < i → i < n → J i q → J (i + 1)
      (if Flt.lt (s.c.f (s.index.f q) (s.index.f q)) (s.c.f (s.index.f i) (s.index.f i)) then i
        else q)) :
    ∃ q, s.best k = .ok q ∧ k ≤ q ∧ q < n ∧ J n q := by
  unfold RChol.best
  refine Wp.exists_ok ((wp_forUp (fun i q => (k ≤ q ∧ q < n) ∧ J i q) (by omega)
    ⟨⟨le_rfl, hk⟩, h0⟩ ?_).imp fun q h => ⟨h.1.1, h.1.2, h.2⟩)
  rintro i q h1 h2 ⟨⟨h3, h4⟩, h5⟩
  have hi := hp.lt i h2
  have hq := hp.lt q h4
  rw [wp_bind, Row.get_ok h2]
  show Wp (s.index.get q >>= _) _ _
  rw [wp_bind, Row.get_ok h4]
  show Wp (s.c.get _ _ >>= _) _ _
  rw [wp_bind, wp_tget hq hq, wp_bind, wp_tget hi hi]
  refine ⟨?_, hs i q h1 h2 h5⟩
  split <;> omega

theorem RChol.swap_ok {k q : Nat} (hk : k < n) (hq : q < n) (s : RChol α n n) :
    ∃ s' : RChol α n n, s.swap k q = .ok s' ∧ s'.c = s.c ∧
      (∀ x, s'.index.f x = s.index.f (Equiv.swap k q x)) ∧
      ∀ x, s'.b.f x = s.b.f (Equiv.swap k q x) := by
  unfold RChol.swap
  by_cases e : q = k
  · subst e
    rw [if_neg (by simp)]
    exact ⟨s, rfl, rfl, by simp, by simp⟩
  · rw [if_pos e, Row.get_ok hk, ok_bind, Row.get_ok hq, ok_bind, Row.set_ok hk, ok_bind,
      Row.set_ok hq, ok_bind]
    refine ⟨_, rfl, rfl, fun x => ?_, fun x => ?_⟩
    · dsimp only
      rw [upd1_eq, upd1_eq, Equiv.swap_apply_def]
      by_cases e1 : x = q
      · rw [if_pos e1, if_neg (by omega), if_pos e1]
      · rw [if_neg e1, if_neg e1]
        by_cases e2 : x = k
        · rw [if_pos e2, if_pos e2]
        · rw [if_neg e2, if_neg e2]
    · dsimp only
      rw [Equiv.swap_apply_def]

theorem RChol.Ix.swap {p p' : Nat → Nat} (h : RChol.Ix n p) {k q : Nat} (hk : k < n) (hq : q < n)
    (h1 : ∀ x, p' x = p (Equiv.swap k q x)) : RChol.Ix n p' := by
  have hlt : ∀ i, i < n → Equiv.swap k q i < n := by
    intro i hi
    rw [Equiv.swap_apply_def]
    split
    · omega
    · split <;> omega
  constructor
  · intro i hi
    rw [h1]
    exact h.lt _ (hlt i hi)
  · intro i j hi hj e
    rw [h1, h1] at e
    exact (Equiv.swap k q).injective (h.inj _ _ (hlt i hi) (hlt j hj) e)

theorem RChol.rest_wp (small : α) {k : Nat} (hk : k < n) (s : RChol α n n) (hp : Ix n s.index.f) :
    Wp (s.rest small k) (fun _ => ∀ i, k ≤ i → i < n →
        ¬ Flt.lt (s.c.f (s.index.f i) (s.index.f i)) (Flt.neg small) = true)
      (fun e => e = .err .small ∧ ∃ i, k ≤ i ∧ i < n ∧
        Flt.lt (s.c.f (s.index.f i) (s.index.f i)) (Flt.neg small) = true) := by
  unfold RChol.rest
  refine wp_forUp (fun i (_ : Unit) => ∀ j, k ≤ j → j < i →
    ¬ Flt.lt (s.c.f (s.index.f j) (s.index.f j)) (Flt.neg small) = true) hk.le (by omega) ?_
  intro i _ h1 h2 h3
  have hi := hp.lt i h2
  rw [wp_bind, Row.get_ok h2]
  show Wp (s.c.get _ _ >>= _) _ _
  rw [wp_bind, wp_tget hi hi]
  by_cases hl : Flt.lt (s.c.f (s.index.f i) (s.index.f i)) (Flt.neg small) = true
  · rw [if_pos hl]
    exact ⟨rfl, i, h1, h2, hl⟩
  · rw [if_neg hl]
    intro j h4 h5
    by_cases e : j = i
    · rw [e]; exact hl
    · exact h3 j h4 (by omega)

/-- The table seen through the index vector. -/
def RChol.F (s : RChol α n n) (x y : Nat) : α := s.c.f (s.index.f x) (s.index.f y)

/-- Column `k` of the root below the diagonal. -/
def RChol.e (F : Nat → Nat → α) (k x : Nat) : α :=
  Flt.mul (Flt.div Flt.one (Flt.sqrt (F k k))) (F x k)

/-- The updated table. -/
def RChol.N (F : Nat → Nat → α) (k x y : Nat) : α :=
  if x = y then Flt.sub (F x x) (Flt.mul (Flt.mul (F x k) (F x k)) (Flt.div Flt.one (F k k)))
  else if y < x then Flt.sub (F x y) (Flt.mul (e F k x) (e F k y))
  else Flt.sub (F y x) (Flt.mul (e F k y) (e F k x))

theorem RChol.F_set {s : RChol α n n} (hp : Ix n s.index.f) {i j x y : Nat} (hi : i < n) (hj : j < n)
    (hx : x < n) (hy : y < n) (v : α) (f : Nat → Nat → α) :
    upd2 f (s.index.f i) (s.index.f j) v (s.index.f x) (s.index.f y) =
      if x = i ∧ y = j then v else f (s.index.f x) (s.index.f y) := by
  rw [upd2_eq]
  by_cases h : x = i ∧ y = j
  · rw [if_pos h, if_pos (by rw [h.1, h.2]; exact ⟨rfl, rfl⟩)]
  · rw [if_neg h, if_neg]
    rintro ⟨h1, h2⟩
    exact h ⟨hp.inj _ _ hx hi h1, hp.inj _ _ hy hj h2⟩

set_option maxHeartbeats 1600000 in
theorem RChol.transform_ok {k : Nat} (hk : k < n) (s : RChol α n n) (hp : Ix n s.index.f) :
    ∃ s' : RChol α n n, s.transform k = .ok s' ∧ s'.index = s.index ∧
      (∀ x y, s'.b.f x y = if y = k ∧ k ≤ x ∧ x < n then
        (if x = k then Flt.sqrt (s.F k k) else e s.F k x) else s.b.f x y) ∧
      ∀ x y, k < x → x < n → k < y → y < n → s'.F x y = N s.F k x y := by
  unfold RChol.transform
  have hpk := hp.lt k hk
  rw [Row.get_ok hk, ok_bind, Tab.get_ok hpk hpk, ok_bind]
  dsimp only
  rw [Tab.set_ok hk hk, ok_bind]
  refine Wp.exists_ok ((wp_forUp (fun i (s' : RChol α n n) => s'.index = s.index ∧
      (∀ x y, s'.b.f x y = if y = k ∧ k ≤ x ∧ x < i then
        (if x = k then Flt.sqrt (s.F k k) else e s.F k x) else s.b.f x y) ∧
      ∀ x y, k ≤ x → x < n → k ≤ y → y < n → s'.F x y =
        if k < x ∧ x < i ∧ k < y ∧ y < i then N s.F k x y else s.F x y)
      (show k + 1 ≤ n by omega) (And.intro ?_ (And.intro ?_ ?_)) ?_).imp ?_)
  · exact rfl
  · intro x y
    dsimp only
    rw [upd2_eq]
    by_cases h : x = k ∧ y = k
    · rw [if_pos h, if_pos (by omega), if_pos h.1]
      rfl
    · rw [if_neg h, if_neg (by omega)]
  · intro x y _ _ _ _
    rw [if_neg (by omega)]
    rfl
  · rintro i s₁ h1 h2 ⟨hix, hb, hc⟩
    have hpi := hp.lt i h2
    have hF : ∀ x y, s₁.c.f (s.index.f x) (s.index.f y) = s₁.F x y := by
      intro x y; unfold RChol.F; rw [hix]
    rw [hix, wp_bind, Row.get_ok h2]
    show Wp (s₁.c.get _ _ >>= _) _ _
    rw [wp_bind, wp_tget hpi hpk, wp_bind, wp_tset h2 hk, wp_bind, wp_tget hpi hpk, wp_bind,
      wp_tget hpi hpi, wp_bind, wp_tset hpi hpi]
    rw [hF, hF]
    have e1 : s₁.F i k = s.F i k := by rw [hc i k (by omega) h2 le_rfl hk, if_neg (by omega)]
    have e2 : s₁.F i i = s.F i i := by rw [hc i i (by omega) h2 (by omega) h2, if_neg (by omega)]
    rw [e1, e2]
    refine (wp_forUp (fun j (s' : RChol α n n) => s'.index = s.index ∧
      (∀ x y, s'.b.f x y = if y = k ∧ k ≤ x ∧ x < i + 1 then
        (if x = k then Flt.sqrt (s.F k k) else e s.F k x) else s.b.f x y) ∧
      ∀ x y, k ≤ x → x < n → k ≤ y → y < n → s'.F x y =
        if k < x ∧ k < y ∧ ((x < i ∧ y < i) ∨ (x = i ∧ y < j) ∨ (y = i ∧ x < j) ∨ (x = i ∧ y = i))
        then N s.F k x y else s.F x y) (by omega) (And.intro ?_ (And.intro ?_ ?_)) ?_).imp ?_
    · exact rfl
    · intro x y
      dsimp only
      rw [upd2_eq]
      by_cases h : x = i ∧ y = k
      · rw [if_pos h, if_pos (by omega), if_neg (by omega), h.1]
        rfl
      · rw [if_neg h, hb]
        refine if_congr ?_ rfl rfl
        omega
    · intro x y hx hx' hy hy'
      show upd2 s₁.c.f _ _ _ (s.index.f x) (s.index.f y) = _
      rw [F_set hp h2 h2 hx' hy', hF]
      by_cases h : x = i ∧ y = i
      · rw [if_pos h, if_pos (by omega)]
        unfold N
        rw [if_pos (by omega), h.1]
        rfl
      · rw [if_neg h, hc x y hx hx' hy hy']
        by_cases h' : k < x ∧ x < i ∧ k < y ∧ y < i
        · rw [if_pos h', if_pos (by omega)]
        · rw [if_neg h', if_neg (by omega)]
    · rintro j s₂ h3 h4 ⟨hix₂, hb₂, hc₂⟩
      have hpj := hp.lt j (by omega)
      have hF₂ : ∀ x y, s₂.c.f (s.index.f x) (s.index.f y) = s₂.F x y := by
        intro x y; unfold RChol.F; rw [hix₂]
      rw [hix₂, wp_bind, Row.get_ok (by omega)]
      show Wp (s₂.c.get _ _ >>= _) _ _
      rw [wp_bind, wp_tget hpi hpj, wp_bind, wp_tget (by omega) hk, wp_bind, wp_tset hpi hpj, wp_bind,
        wp_tset hpj hpi]
      rw [hF₂, hb₂ j k, if_pos (by omega), if_neg (by omega),
        hc₂ i j (by omega) h2 (by omega) (by omega), if_neg (by omega)]
      refine ⟨rfl, hb₂, ?_⟩
      intro x y hx hx' hy hy'
      show upd2 (upd2 s₂.c.f _ _ _) _ _ _ (s.index.f x) (s.index.f y) = _
      rw [F_set hp (by omega) h2 hx' hy', F_set hp h2 (by omega) hx' hy', hF₂]
      by_cases h : x = j ∧ y = i
      · rw [if_pos h, if_pos (by omega)]
        unfold N
        rw [if_neg (by omega), if_neg (by omega), h.1, h.2]
        rfl
      · rw [if_neg h]
        by_cases h' : x = i ∧ y = j
        · rw [if_pos h', if_pos (by omega)]
          unfold N
          rw [if_neg (by omega), if_pos (by omega), h'.1, h'.2]
          rfl
        · rw [if_neg h', hc₂ x y hx hx' hy hy']
          have : (k < x ∧ k < y ∧
              ((x < i ∧ y < i) ∨ (x = i ∧ y < j) ∨ (y = i ∧ x < j) ∨ (x = i ∧ y = i))) ↔
            (k < x ∧ k < y ∧
              ((x < i ∧ y < i) ∨ (x = i ∧ y < j + 1) ∨ (y = i ∧ x < j + 1) ∨ (x = i ∧ y = i))) := by
            omega
          rw [if_congr this rfl rfl]
    · rintro s₂ ⟨hix₂, hb₂, hc₂⟩
      refine ⟨hix₂, hb₂, fun x y hx hx' hy hy' => ?_⟩
      rw [hc₂ x y hx hx' hy hy']
      refine if_congr ?_ rfl rfl
      omega
  · rintro s' ⟨hix, hb, hc⟩
    refine ⟨hix, hb, fun x y h1 h2 h3 h4 => ?_⟩
    rw [hc x y h1.le h2 h3.le h4, if_pos ⟨h1, h2, h3, h4⟩]

theorem RChol.step_safe (small : α) {k : Nat} (hk : k < n) (s : RChol α n n) (hp : Ix n s.index.f) :
    Wp (RChol.step small k s) (Sum.elim (fun s' => Ix n s'.index.f)
      (fun x => Ix n x.2.index.f ∧ 0 < x.1 ∧ x.1 < n)) (fun e => e = .err .small) := by
  unfold RChol.step
  obtain ⟨q, eq, h1, h2, -⟩ := s.best_ok (fun _ _ => True) hk hp trivial fun _ _ _ _ _ => trivial
  rw [eq, ok_bind]
  obtain ⟨s₁, es, h3, h4, h5⟩ := s.swap_ok hk h2
  have hp₁ := hp.swap hk h2 h4
  have hpk := hp₁.lt k hk
  rw [es, ok_bind, Row.get_ok hk, ok_bind, Tab.get_ok hpk hpk, ok_bind]
  by_cases hl : Flt.le (s₁.c.f (s₁.index.f k) (s₁.index.f k)) small = true
  · rw [if_pos hl]
    by_cases h0 : k = 0
    · rw [if_pos h0]
      rfl
    · rw [if_neg h0]
      show Wp (s₁.rest small k >>= _) _ _
      rw [wp_bind]
      exact (s₁.rest_wp small hk hp₁).mono (fun _ _ => ⟨hp₁, by omega, hk⟩) fun e he => he.1
  · rw [if_neg hl]
    obtain ⟨s₂, e₂, h6, -⟩ := s₁.transform_ok hk hp₁
    rw [e₂, ok_bind]
    show Ix n s₂.index.f
    rw [h6]
    exact hp₁

section exact

variable {K : Type} [Field K] [LinearOrder K] [IsStrictOrderedRing K] [Flt K] [Exact K] [ExactSqrt K]

/-- `k` columns of the root are done; the rest is the Schur complement. -/
structure RChol.Inv (n : Nat) (A : Nat → Nat → K) (k : Nat) (s : RChol K n n) : Prop where
  ix : Ix n s.index.f
  prod : ∀ i j, i < n → j < n → A (s.index.f i) (s.index.f j) =
    ∑ t ∈ range k, s.b.f i t * s.b.f j t + if i < k ∨ j < k then 0 else s.F i j
  low : ∀ i t, i < t → s.b.f i t = 0
  zero : ∀ i t, k ≤ t → s.b.f i t = 0
  pos : ∀ t, t < k → 0 < s.b.f t t
  symm : ∀ i j, k ≤ i → i < n → k ≤ j → j < n → s.F i j = s.F j i

theorem RChol.Inv.swap {A : Nat → Nat → K} {k q : Nat} {s s' : RChol K n n} (h : Inv n A k s)
    (hk : k < n) (hq : k ≤ q) (hqn : q < n) (h1 : s'.c = s.c)
    (h2 : ∀ x, s'.index.f x = s.index.f (Equiv.swap k q x))
    (h3 : ∀ x, s'.b.f x = s.b.f (Equiv.swap k q x)) : Inv n A k s' := by
  have lo : ∀ x, x < k → Equiv.swap k q x = x := fun x hx =>
    Equiv.swap_apply_of_ne_of_ne (by omega) (by omega)
  have hi : ∀ x, k ≤ x → k ≤ Equiv.swap k q x := by
    intro x h1
    rw [Equiv.swap_apply_def]
    split
    · omega
    · split <;> omega
  have hn : ∀ x, x < n → Equiv.swap k q x < n := by
    intro x hx
    rw [Equiv.swap_apply_def]
    split
    · omega
    · split <;> omega
  have hiff : ∀ x, Equiv.swap k q x < k ↔ x < k := by
    intro x
    by_cases e : x < k
    · rw [lo x e]
    · have := hi x (by omega)
      omega
  have hF : ∀ x y, s'.F x y = s.F (Equiv.swap k q x) (Equiv.swap k q y) := by
    intro x y
    unfold RChol.F
    rw [h1, h2, h2]
  constructor
  · exact h.ix.swap hk hqn h2
  · intro i j hi' hj'
    rw [h2, h2, h.prod _ _ (hn i hi') (hn j hj'), h3, h3, hF]
    simp only [hiff]
  · intro i t hit
    rw [h3]
    by_cases e : t < k
    · rw [lo i (by omega)]
      exact h.low i t hit
    · exact h.zero _ t (by omega)
  · intro i t ht
    rw [h3]
    exact h.zero _ t ht
  · intro t ht
    rw [h3, lo t ht]
    exact h.pos t ht
  · intro i j h4 h5 h6 h7
    rw [hF, hF]
    exact h.symm _ _ (hi i h4) (hn i h5) (hi j h6) (hn j h7)

theorem RChol.Inv.transform {A : Nat → Nat → K} {k : Nat} {s s' : RChol K n n} (h : Inv n A k s)
    (hk : k < n) (hd : 0 < s.F k k) (h1 : s'.index = s.index)
    (h2 : ∀ x y, s'.b.f x y = if y = k ∧ k ≤ x ∧ x < n then
        (if x = k then Flt.sqrt (s.F k k) else e s.F k x) else s.b.f x y)
    (h3 : ∀ x y, k < x → x < n → k < y → y < n → s'.F x y = N s.F k x y) : Inv n A (k + 1) s' := by
  have hs := ExactSqrt.sqrt_mul_self (s.F k k) hd.le
  have hs0 : 0 < Flt.sqrt (s.F k k) := by
    rcases (ExactSqrt.sqrt_nonneg (s.F k k)).lt_or_eq with h | h
    · exact h
    · rw [← h] at hs; simp at hs; exact absurd hs hd.ne
  have hold : ∀ x t, t < k → s'.b.f x t = s.b.f x t := by
    intro x t ht
    rw [h2, if_neg (by omega)]
  have hkk : s'.b.f k k = Flt.sqrt (s.F k k) := by
    rw [h2, if_pos (by omega), if_pos rfl]
  have he : ∀ x, k < x → x < n → s'.b.f x k = e s.F k x := by
    intro x h4 h5
    rw [h2, if_pos (by omega), if_neg (by omega)]
  have hee : ∀ x y, e s.F k x * e s.F k y = s.F x k * s.F y k / s.F k k := by
    intro x y
    unfold e
    rw [Exact.mul_eq, Exact.mul_eq, Exact.div_eq, Exact.one_eq]
    have : s.F x k * s.F y k / s.F k k =
      s.F x k * s.F y k / (Flt.sqrt (s.F k k) * Flt.sqrt (s.F k k)) := by rw [hs]
    rw [this]
    field_simp
  have hke : ∀ x, Flt.sqrt (s.F k k) * e s.F k x = s.F x k := by
    intro x
    unfold e
    rw [Exact.mul_eq, Exact.div_eq, Exact.one_eq]
    field_simp
  have hN : ∀ x y, k < x → x < n → k < y → y < n → N s.F k x y =
      s.F x y - s.F x k * s.F y k / s.F k k := by
    intro x y h4 h5 h6 h7
    unfold N
    by_cases e1 : x = y
    · subst e1
      rw [if_pos rfl]
      simp only [Exact.mul_eq, Exact.sub_eq, Exact.div_eq, Exact.one_eq]
      ring
    · rw [if_neg e1]
      by_cases e2 : y < x
      · rw [if_pos e2, Exact.sub_eq, Exact.mul_eq, hee]
      · rw [if_neg e2, Exact.sub_eq, Exact.mul_eq, hee, h.symm y x h6.le h7 h4.le h5]
        ring
  constructor
  · rw [h1]; exact h.ix
  · intro i j hi hj
    rw [h1, h.prod i j hi hj, sum_range_succ]
    have hsum : ∑ t ∈ range k, s'.b.f i t * s'.b.f j t = ∑ t ∈ range k, s.b.f i t * s.b.f j t :=
      sum_congr rfl fun t ht => by rw [hold _ _ (mem_range.1 ht), hold _ _ (mem_range.1 ht)]
    rw [hsum]
    have hz : ∀ x, x < k → s'.b.f x k = 0 := by
      intro x hx
      rw [h2, if_neg (by omega)]
      exact h.low x k hx
    by_cases e1 : i < k
    · rw [if_pos (.inl e1), if_pos (by omega), hz i e1]
      ring
    by_cases e2 : j < k
    · rw [if_pos (.inr e2), if_pos (by omega), hz j e2]
      ring
    rw [if_neg (by omega)]
    by_cases e3 : i = k
    · subst e3
      rw [if_pos (by omega)]
      by_cases e4 : j = i
      · subst e4
        rw [hkk, hs]
        ring
      · rw [hkk, he j (by omega) hj, hke, h.symm i j le_rfl hi (by omega) hj]
        ring
    · by_cases e4 : j = k
      · subst e4
        rw [if_pos (by omega), hkk, he i (by omega) hi, mul_comm (e _ _ _), hke]
        ring
      · rw [if_neg (by omega), he i (by omega) hi, he j (by omega) hj, hee,
          h3 i j (by omega) hi (by omega) hj, hN i j (by omega) hi (by omega) hj]
        ring
  · intro i t hit
    rw [h2, if_neg (by omega)]
    exact h.low i t hit
  · intro i t hit
    rw [h2, if_neg (by omega)]
    exact h.zero i t (by omega)
  · intro t ht
    by_cases e : t = k
    · rw [e, hkk]; exact hs0
    · rw [hold t t (by omega)]
      exact h.pos t (by omega)
  · intro i j h4 h5 h6 h7
    rw [h3 i j (by omega) h5 (by omega) h7, h3 j i (by omega) h7 (by omega) h5,
      hN i j (by omega) h5 (by omega) h7, hN j i (by omega) h7 (by omega) h5,
      h.symm i j (by omega) h5 (by omega) h7]
    ring

theorem RChol.step_wp {small : K} (hsm : 0 ≤ small) {A : Nat → Nat → K} {k : Nat} (hk : k < n)
    {s : RChol K n n} (h : Inv n A k s) :
    Wp (RChol.step small k s) (Sum.elim (fun s' => Inv n A (k + 1) s' ∧ (k = 0 → ∃ x, x < n ∧ small < A x x))
      (fun x => (Inv n A x.1 x.2 ∧ 0 < x.1 ∧ x.1 < n ∧
        ∀ i, x.1 ≤ i → i < n → -small ≤ x.2.F i i ∧ x.2.F i i ≤ small) ∧ x.1 = k))
      (fun e => e = .err .small ∧ ∃ s', Inv n A k s' ∧
        ((k = 0 ∧ ∀ i, i < n → s'.F i i ≤ small) ∨ ∃ i, k ≤ i ∧ i < n ∧ s'.F i i < -small)) := by
  unfold RChol.step
  obtain ⟨q, eq, hq1, hq2, hq3⟩ := s.best_ok (fun m q => ∀ i, k ≤ i → i < m → s.F i i ≤ s.F q q) hk
    h.ix (fun i h1 h2 => by rw [show i = k by omega]) (by
      intro i q h1 h2 h3 j h4 h5
      show s.F j j ≤ _
      rw [Exact.lt_eq]
      by_cases hl : s.F q q < s.F i i
      · rw [if_pos (by exact decide_eq_true hl)]
        by_cases e : j = i
        · rw [e]
        · exact (h3 j h4 (by omega)).trans hl.le
      · rw [if_neg (by rw [decide_eq_true_iff]; exact hl)]
        by_cases e : j = i
        · rw [e]; exact not_lt.1 hl
        · exact h3 j h4 (by omega))
  rw [eq, ok_bind]
  obtain ⟨s₁, es, h3, h4, h5⟩ := s.swap_ok hk hq2
  have hI := h.swap hk hq1 hq2 h3 h4 h5
  have hpk := hI.ix.lt k hk
  have hmax : ∀ i, k ≤ i → i < n → s₁.F i i ≤ s₁.F k k := by
    intro i h6 h7
    unfold RChol.F
    rw [h3, h4, h4, Equiv.swap_apply_left]
    refine hq3 _ ?_ ?_ <;>
    · rw [Equiv.swap_apply_def]
      split
      · omega
      · split <;> omega
  rw [es, ok_bind, Row.get_ok hk, ok_bind, Tab.get_ok hpk hpk, ok_bind]
  show Wp (if Flt.le (s₁.F k k) small = true then _ else _) _ _
  rw [Exact.le_eq]
  by_cases hl : s₁.F k k ≤ small
  · rw [if_pos (by simpa using hl)]
    by_cases h0 : k = 0
    · rw [if_pos h0]
      subst h0
      exact ⟨rfl, s₁, hI, .inl ⟨rfl, fun i hi => (hmax i (by omega) hi).trans hl⟩⟩
    · rw [if_neg h0]
      show Wp (s₁.rest small k >>= _) _ _
      rw [wp_bind]
      refine (s₁.rest_wp small hk hI.ix).mono (fun _ h6 => ⟨⟨hI, by omega, hk, fun i h7 h8 => ⟨?_, ?_⟩⟩, rfl⟩)
        ?_
      · have := h6 i h7 h8
        simpa [RChol.F] using this
      · exact (hmax i h7 h8).trans hl
      · rintro e ⟨rfl, i, h7, h8, h9⟩
        exact ⟨rfl, s₁, hI, .inr ⟨i, h7, h8, by simpa [RChol.F] using h9⟩⟩
  · rw [if_neg (by simpa using hl)]
    obtain ⟨s₂, e₂, h6, h7, h8⟩ := s₁.transform_ok hk hI.ix
    rw [e₂, ok_bind]
    refine ⟨hI.transform hk (lt_of_le_of_lt hsm (not_le.1 hl)) h6 h7 h8, fun h0 => ⟨_, hpk, ?_⟩⟩
    subst h0
    rw [hI.prod 0 0 hk hk, if_neg (by omega), sum_range_zero, zero_add]
    exact not_le.1 hl

end exact

end Linear
