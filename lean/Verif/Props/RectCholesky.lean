import Verif.Lemmas.RectCholLemmas
import Verif.Props.Cholesky
import Mathlib.LinearAlgebra.Matrix.Rank

/-!
# C36: the rectangular Cholesky decomposition
-/

set_option linter.unusedSectionVars false

namespace Linear

open Spec Finset Matrix

variable {α : Type} [Flt α] {n : Nat}

/-- The matrix `B` that the root shows: row `index[i]` is row `i` of `b`. -/
theorem RChol.root_ok {k : Nat} (hn : 0 < n) (hk : 0 < k) (hkn : k ≤ n) (s : RChol α n n)
    (hp : RChol.Ix n s.index.f) :
    ∃ (m : Mat α n k) (B : Nat → Nat → α), s.root k = .ok ⟨k, m⟩ ∧ m.own ∧ Shows m.at n k B ∧
      ∀ i j, i < n → j < k → B (s.index.f i) j = s.b.f i j := by
  obtain ⟨m0, e0, hd0, -⟩ := Mat.new_win (α := α) hn hk
  unfold RChol.root
  have key : ∃ m : Mat α n k, forUp 0 n (fun i (m : Mat α n k) =>
      forUp 0 k (fun j (m : Mat α n k) => do m.put (← s.index.get i) j (← s.b.get i j)) m) m0 = .ok m ∧
      (m.dense ∧ ∀ i j, i < n → j < k → m.win (s.index.f i) j = s.b.f i j) := by
    refine Wp.exists_ok (wp_forUp (fun a (m : Mat α n k) => m.dense ∧
      ∀ i j, i < a → j < k → m.win (s.index.f i) j = s.b.f i j) (Nat.zero_le _) ⟨hd0, by omega⟩ ?_)
    rintro i m - hi ⟨h1, h2⟩
    have hpi := hp.lt i hi
    refine (wp_forUp (fun a (m : Mat α n k) => m.dense ∧
      (∀ x j, x < i → j < k → m.win (s.index.f x) j = s.b.f x j) ∧
      ∀ j, j < a → m.win (s.index.f i) j = s.b.f i j) (Nat.zero_le _) ⟨h1, h2, by omega⟩ ?_).imp ?_
    · rintro j m' - hj ⟨h3, h4, h5⟩
      rw [wp_bind, Row.get_ok hi]
      show Wp (s.b.get i j >>= _) _ _
      rw [wp_bind, wp_tget hi (by omega)]
      obtain ⟨m'', e, h6, h7⟩ := Mat.put_ok h3 hpi hj (s.b.f i j)
      rw [e]
      refine ⟨h6, fun x y hx hy => ?_, fun y hy => ?_⟩
      · rw [h7, upd2_eq, if_neg, h4 x y hx hy]
        rintro ⟨h8, -⟩
        have := hp.inj x i (by omega) hi h8
        omega
      · rw [h7, upd2_eq]
        by_cases e : y = j
        · rw [if_pos ⟨rfl, e⟩, e]
        · rw [if_neg (by simp [e]), h5 y (by omega)]
    · rintro m' ⟨h3, h4, h5⟩
      refine ⟨h3, fun x y hx hy => ?_⟩
      by_cases e : x = i
      · subst e; exact h5 y hy
      · exact h4 x y (by omega) hy
  obtain ⟨m, e, h1, h2⟩ := key
  refine ⟨m, m.win, ?_, Mat.dense_own h1, m.win_shows, h2⟩
  refine (congrArg (fun x : Res (Mat α n k) => x >>= fun m => forUp 0 n (fun i (m : Mat α n k) =>
      forUp 0 k (fun j (m : Mat α n k) => do m.put (← s.index.get i) j (← s.b.get i j)) m) m >>=
      fun m => (pure ⟨k, m⟩ : Res (RectChol α n))) e0 :).trans ?_
  show (forUp 0 n _ m0 >>= _) = _
  rw [e]
  rfl

/-- The loop, with invariants of the two ways to end it. -/
theorem RChol.loop_wp {I : Nat → RChol α n n → Prop} {R : Nat × RChol α n n → Prop} {E : Fault → Prop}
    {small : α} {m : Mat α n n} (hm : m.own) (hn : 0 < n) {A : Nat → Nat → α} (hA : Shows m.at n n A)
    (h0 : ∀ s : RChol α n n, (∀ i, i < n → s.index.f i = i) →
      (∀ i j, i < n → j < n → s.c.f i j = A i j) → (∀ i j, s.b.f i j = Flt.zero) → I 0 s)
    (hs : ∀ k s, k < n → I k s → Wp (RChol.step small k s) (Sum.elim (I (k + 1)) R) E) :
    Wp (RChol.loop small m) (fun x => (x.1 = n ∧ I n x.2) ∨ R x) E := by
  unfold RChol.loop
  obtain ⟨t, et, ht⟩ := Mat.dataCopy_ok hm hn hA
  obtain ⟨p, ep, hp⟩ := LU.pivot_init (n := n)
  rw [et, ok_bind, ep, ok_bind, if_neg (by omega)]
  show Wp (forUpBrk 0 n _ _ >>= _) _ _
  rw [wp_bind]
  refine (wp_forUpBrk I R (Nat.zero_le n) (h0 _ hp ht fun _ _ => rfl)
    fun k s _ hk h => hs k s hk h).imp ?_
  rintro (s | x) h
  · exact .inl ⟨rfl, h⟩
  · exact .inr h

/-- In any arithmetic the constructor ends in a root of at least one and at most `n` columns, or in its
error; no index fault. -/
theorem C36_safe {small : α} {m : Mat α n n} (hm : m.own) (hn : 0 < n) :
    (∃ d : RectChol α n, RectChol.new small m = .ok d ∧ 0 < d.rank ∧ d.rank ≤ n) ∨
      RectChol.new small m = .error (.err .small) := by
  have h : Wp (RChol.loop small m) (fun x => RChol.Ix n x.2.index.f ∧ 0 < x.1 ∧ x.1 ≤ n)
      (fun e => e = .err .small) := by
    refine (RChol.loop_wp (I := fun _ s => RChol.Ix n s.index.f)
      (R := fun x => RChol.Ix n x.2.index.f ∧ 0 < x.1 ∧ x.1 < n) hm hn m.at_shows ?_ ?_).imp ?_
    · intro s hi _ _
      exact ⟨fun i h => by rw [hi i h]; exact h, fun i j h1 h2 h3 => by rwa [hi i h1, hi j h2] at h3⟩
    · intro k s hk h
      exact RChol.step_safe small hk s h
    · rintro x (⟨h1, h2⟩ | ⟨h1, h2, h3⟩)
      · exact ⟨h2, by omega, by omega⟩
      · exact ⟨h1, h2, h3.le⟩
  unfold RectChol.new
  cases hl : RChol.loop small m with
  | error e =>
    rw [h.of_error hl]
    exact .inr rfl
  | ok x =>
    obtain ⟨h1, h2, h3⟩ := h.of_ok hl
    obtain ⟨m', B, e, -⟩ := RChol.root_ok hn h2 h3 x.2 h1
    rw [ok_bind, e]
    exact .inl ⟨_, rfl, h2, h3⟩

section exact

variable {K : Type} [Field K] [LinearOrder K] [IsStrictOrderedRing K] [Flt K] [Exact K] [ExactSqrt K]

/-- Symmetric and `xᵀ M x ≥ 0` for every `x`. -/
def Spec.PosSemi (M : Matrix (Fin n) (Fin n) K) : Prop :=
  M.IsSymm ∧ ∀ x : Fin n → K, 0 ≤ x ⬝ᵥ M *ᵥ x

/-- The index vector as a permutation. -/
theorem RChol.Ix.perm {p : Nat → Nat} (h : RChol.Ix n p) :
    ∃ σ : Equiv.Perm (Fin n), ∀ i : Fin n, ((σ i : Fin n) : Nat) = p i := by
  have hinj : Function.Injective (fun i : Fin n => (⟨p i, h.lt i i.2⟩ : Fin n)) := fun i j hij =>
    Fin.ext (h.inj i j i.2 j.2 (congrArg Fin.val hij))
  exact ⟨Equiv.ofBijective _ ⟨hinj, Finite.injective_iff_surjective.1 hinj⟩, fun i => rfl⟩

theorem RChol.Ix.surj {p : Nat → Nat} (h : RChol.Ix n p) {x : Nat} (hx : x < n) :
    ∃ i, i < n ∧ p i = x := by
  obtain ⟨σ, hσ⟩ := h.perm
  exact ⟨σ.symm ⟨x, hx⟩, (σ.symm ⟨x, hx⟩).2, by rw [← hσ]; simp⟩

/-- The Schur complement of a positive semidefinite matrix is positive semidefinite. -/
theorem RChol.Inv.psd {A : Nat → Nat → K} {k : Nat} {s : RChol K n n} (h : RChol.Inv n A k s)
    (hkn : k ≤ n) (hA : PosSemi (mx n n A)) {w : Nat → K} (hw : ∀ i, i < k → w i = 0) :
    0 ≤ ∑ i ∈ range n, ∑ j ∈ range n, w i * s.F i j * w j := by
  obtain ⟨y, hy⟩ := Bwd.exists (n := k) (U := fun t i => s.b.f i t)
    (b := fun t => - ∑ i ∈ Ico k n, s.b.f i t * w i) (fun t ht => (h.pos t ht).ne') 0 (Nat.zero_le _)
  let v : Nat → K := fun i => if i < k then y i else w i
  have hv1 : ∀ i, i < k → v i = y i := fun i hi => if_pos hi
  have hv2 : ∀ i, k ≤ i → v i = w i := fun i hi => if_neg (by omega)
  have hb : ∀ t, t < k → ∑ i ∈ range n, s.b.f i t * v i = 0 := by
    intro t ht
    rw [range_eq_Ico, ← sum_Ico_consecutive _ (Nat.zero_le k) hkn,
      ← sum_Ico_consecutive _ (Nat.zero_le t) ht.le]
    have e1 : ∑ i ∈ Ico 0 t, s.b.f i t * v i = 0 :=
      sum_eq_zero fun i hi => by rw [h.low i t (mem_Ico.1 hi).2, zero_mul]
    have e2 : ∑ i ∈ Ico t k, s.b.f i t * v i = ∑ i ∈ Ico t k, s.b.f i t * y i :=
      sum_congr rfl fun i hi => by rw [hv1 i (mem_Ico.1 hi).2]
    have e3 : ∑ i ∈ Ico k n, s.b.f i t * v i = ∑ i ∈ Ico k n, s.b.f i t * w i :=
      sum_congr rfl fun i hi => by rw [hv2 i (mem_Ico.1 hi).1]
    rw [e1, e2, e3, hy.done ht]
    ring
  obtain ⟨σ, hσ⟩ := h.ix.perm
  have h1 := hA.2 fun x => v (σ.symm x)
  have h2 : (fun x => v (σ.symm x)) ⬝ᵥ mx n n A *ᵥ (fun x : Fin n => v (σ.symm x)) =
      ∑ i ∈ range n, ∑ j ∈ range n, v i * A (s.index.f i) (s.index.f j) * v j := by
    rw [dotProduct, ← Equiv.sum_comp σ, Finset.sum_range]
    refine sum_congr rfl fun i _ => ?_
    rw [Matrix.mulVec, dotProduct, ← Equiv.sum_comp σ, Finset.sum_range, mul_sum]
    refine sum_congr rfl fun j _ => ?_
    simp only [Equiv.symm_apply_apply, mx, hσ]
    ring
  rw [h2] at h1
  have h3 : ∑ i ∈ range n, ∑ j ∈ range n, v i * A (s.index.f i) (s.index.f j) * v j =
      ∑ t ∈ range k, (∑ i ∈ range n, s.b.f i t * v i) * (∑ j ∈ range n, s.b.f j t * v j) +
      ∑ i ∈ range n, ∑ j ∈ range n, w i * s.F i j * w j := by
    have e1 : ∀ t, (∑ i ∈ range n, s.b.f i t * v i) * (∑ j ∈ range n, s.b.f j t * v j) =
        ∑ i ∈ range n, ∑ j ∈ range n, s.b.f i t * v i * (s.b.f j t * v j) := fun t =>
      sum_mul_sum _ _ _ _
    simp only [e1]
    rw [sum_comm (s := range k), ← sum_add_distrib]
    refine sum_congr rfl fun i hi => ?_
    rw [sum_comm (s := range k), ← sum_add_distrib]
    refine sum_congr rfl fun j hj => ?_
    rw [h.prod i j (mem_range.1 hi) (mem_range.1 hj)]
    have e2 : ∑ t ∈ range k, s.b.f i t * v i * (s.b.f j t * v j) =
        v i * (∑ t ∈ range k, s.b.f i t * s.b.f j t) * v j := by
      rw [mul_sum, sum_mul]
      exact sum_congr rfl fun t _ => by ring
    rw [e2]
    by_cases e3 : i < k
    · rw [if_pos (.inl e3), hw i e3]; ring
    by_cases e4 : j < k
    · rw [if_pos (.inr e4), hw j e4]; ring
    rw [if_neg (by omega), hv2 i (by omega), hv2 j (by omega)]
    ring
  rw [h3, sum_eq_zero fun t ht => by rw [hb t (mem_range.1 ht), zero_mul], zero_add] at h1
  exact h1

/-- Two-coordinate form of `RChol.Inv.psd`. -/
theorem RChol.Inv.psd2 {A : Nat → Nat → K} {k : Nat} {s : RChol K n n} (h : RChol.Inv n A k s)
    (hA : PosSemi (mx n n A)) {i j : Nat} (hi : k ≤ i) (hin : i < n) (hj : k ≤ j) (hjn : j < n)
    (hij : i ≠ j) (a b : K) : 0 ≤ a * a * s.F i i + 2 * a * b * s.F i j + b * b * s.F j j := by
  have h1 := h.psd (by omega) hA (w := fun x => if x = i then a else if x = j then b else 0) (by
    intro x hx
    rw [if_neg (by omega), if_neg (by omega)])
  have hsum : ∀ g : Nat → K, ∑ x ∈ range n, (if x = i then a else if x = j then b else 0) * g x =
      a * g i + b * g j := by
    intro g
    have e : ∀ x, (if x = i then a else if x = j then b else 0) * g x =
        (if x = i then a * g x else 0) + if x = j then b * g x else 0 := by
      intro x
      by_cases e1 : x = i
      · rw [if_pos e1, if_pos e1, if_neg (by omega), add_zero]
      · rw [if_neg e1, if_neg e1, zero_add]
        split <;> simp
    simp only [e]
    rw [sum_add_distrib, sum_ite_eq' , sum_ite_eq', if_pos (mem_range.2 hin), if_pos (mem_range.2 hjn)]
  simp only [mul_assoc] at h1
  simp only [← mul_sum] at h1
  have e2 : ∀ x, ∑ y ∈ range n, s.F x y * (if y = i then a else if y = j then b else 0) =
      a * s.F x i + b * s.F x j := by
    intro x
    rw [← hsum]
    exact sum_congr rfl fun y _ => mul_comm _ _
  simp only [e2] at h1
  rw [hsum] at h1
  rw [h.symm j i hj hjn hi hin] at h1
  calc (0 : K) ≤ _ := h1
    _ = _ := by ring

theorem RChol.Inv.psd1 {A : Nat → Nat → K} {k : Nat} {s : RChol K n n} (h : RChol.Inv n A k s)
    (hA : PosSemi (mx n n A)) {i : Nat} (hi : k ≤ i) (hin : i < n) : 0 ≤ s.F i i := by
  have h1 := h.psd (by omega) hA (w := fun x => if x = i then 1 else 0) (by
    intro x hx
    rw [if_neg (by omega)])
  simpa [hin] using h1

/-- The matrix shown by the root has independent columns. -/
theorem RChol.Inv.rank {A B : Nat → Nat → K} {k : Nat} {s : RChol K n n} (h : RChol.Inv n A k s)
    (hkn : k ≤ n) (hB : ∀ i j, i < n → j < k → B (s.index.f i) j = s.b.f i j) :
    (mx n k B).rank = k := by
  unfold Matrix.rank
  rw [LinearMap.finrank_range_of_inj, Module.finrank_fin_fun]
  rw [← LinearMap.ker_eq_bot, LinearMap.ker_eq_bot']
  intro x hx
  have hrow : ∀ i, i < n → ∑ t : Fin k, s.b.f i t * x t = 0 := by
    intro i hi
    have h1 := congrFun hx ⟨s.index.f i, h.ix.lt i hi⟩
    rw [Matrix.mulVecLin_apply, Matrix.mulVec, dotProduct] at h1
    rw [← show _ = (0 : K) from h1]
    refine sum_congr rfl fun t _ => ?_
    rw [← hB i t hi t.2]
    rfl
  have hz : ∀ m, ∀ t : Fin k, (t : Nat) = m → x t = 0 := by
    intro m
    induction m using Nat.strong_induction_on with
    | _ m ih =>
      intro t ht
      have h1 := hrow t (by have := t.2; omega)
      rw [sum_eq_single t] at h1
      · exact (mul_eq_zero.1 h1).resolve_left (h.pos t t.2).ne'
      · intro u _ hu
        by_cases e : (u : Nat) < t
        · rw [ih u (by omega) u rfl, mul_zero]
        · have : (u : Nat) ≠ t := fun h => hu (Fin.ext h)
          rw [h.low t u (by omega), zero_mul]
      · simp
  exact funext fun t => hz t t rfl

/-- What a successful run shows: `B` reproduces `A` except on the rows and columns left over, whose
remaining diagonal is within the threshold. -/
theorem RectChol.new_wp {small : K} (hsm : 0 ≤ small) {m : Mat K n n} (hm : m.own) (hn : 0 < n)
    {A : Nat → Nat → K} (hA : Shows m.at n n A) (hsym : (mx n n A).IsSymm) :
    Wp (RectChol.new small m) (fun d => ∃ (s : RChol K n n) (B : Nat → Nat → K),
        0 < d.rank ∧ d.rank ≤ n ∧ RChol.Inv n A d.rank s ∧ Shows d.root.at n d.rank B ∧
        (∀ i j, i < n → j < d.rank → B (s.index.f i) j = s.b.f i j) ∧
        (∀ i, d.rank ≤ i → i < n → -small ≤ s.F i i ∧ s.F i i ≤ small) ∧ ∃ x, x < n ∧ small < A x x)
      (fun e => e = .err .small ∧ ∃ k s, k < n ∧ RChol.Inv n A k s ∧
        ((k = 0 ∧ ∀ i, i < n → s.F i i ≤ small) ∨ ∃ i, k ≤ i ∧ i < n ∧ s.F i i < -small)) := by
  have h : Wp (RChol.loop small m) (fun x => RChol.Inv n A x.1 x.2 ∧ 0 < x.1 ∧ x.1 ≤ n ∧
        (∀ i, x.1 ≤ i → i < n → -small ≤ x.2.F i i ∧ x.2.F i i ≤ small) ∧ ∃ x, x < n ∧ small < A x x)
      (fun e => e = .err .small ∧ ∃ k s, k < n ∧ RChol.Inv n A k s ∧
        ((k = 0 ∧ ∀ i, i < n → s.F i i ≤ small) ∨ ∃ i, k ≤ i ∧ i < n ∧ s.F i i < -small)) := by
    refine (RChol.loop_wp (I := fun k s => RChol.Inv n A k s ∧ (0 < k → ∃ x, x < n ∧ small < A x x))
      (R := fun x => (RChol.Inv n A x.1 x.2 ∧ 0 < x.1 ∧ x.1 < n ∧
        ∀ i, x.1 ≤ i → i < n → -small ≤ x.2.F i i ∧ x.2.F i i ≤ small) ∧ ∃ x, x < n ∧ small < A x x) hm hn hA ?_ ?_).imp ?_
    · intro s hi hc hb
      have hix : RChol.Ix n s.index.f :=
        ⟨fun i h => by rw [hi i h]; exact h, fun i j h1 h2 h3 => by rwa [hi i h1, hi j h2] at h3⟩
      have hF : ∀ i j, i < n → j < n → s.F i j = A i j := by
        intro i j h1 h2
        unfold RChol.F
        rw [hi i h1, hi j h2, hc i j h1 h2]
      refine ⟨⟨hix, fun i j h1 h2 => ?_, fun i t _ => ?_, fun i t _ => ?_, by omega,
        fun i j _ h1 _ h2 => ?_⟩, fun h => absurd h (lt_irrefl _)⟩
      · rw [hi i h1, hi j h2, if_neg (by omega), hF i j h1 h2]
        simp
      · rw [hb]; simp
      · rw [hb]; simp
      · rw [hF i j h1 h2, hF j i h2 h1]
        exact hsym.apply ⟨j, h2⟩ ⟨i, h1⟩
    · rintro k s hk ⟨h, hx⟩
      refine (RChol.step_wp hsm hk h).mono ?_ ?_
      · rintro (s' | x) h1
        · refine ⟨h1.1, fun _ => ?_⟩
          by_cases h0 : k = 0
          · exact h1.2 h0
          · exact hx (by omega)
        · refine ⟨h1.1, hx ?_⟩
          rw [← h1.2]
          exact h1.1.2.1
      rintro e ⟨rfl, s', h1, h2⟩
      exact ⟨rfl, k, s', hk, h1, h2⟩
    · rintro x (⟨h1, h2, hx⟩ | ⟨⟨h1, h2, h3, h4⟩, hx⟩)
      · rw [h1]
        exact ⟨h2, hn, le_rfl, by omega, hx hn⟩
      · exact ⟨h1, h2, h3.le, h4, hx⟩
  unfold RectChol.new
  rw [wp_bind]
  refine h.imp ?_
  rintro ⟨k, s⟩ ⟨h1, h2, h3, h4⟩
  obtain ⟨m', B, e, -, h5, h6⟩ := RChol.root_ok hn h2 h3 s h1.ix
  dsimp only
  rw [e]
  exact ⟨s, B, h2, h3, h1, h5, h6, h4⟩

theorem RChol.Inv.gram {A B : Nat → Nat → K} {k : Nat} {s : RChol K n n} (h : RChol.Inv n A k s)
    (hB : ∀ i j, i < n → j < k → B (s.index.f i) j = s.b.f i j) {x y : Nat} (hx : x < n) (hy : y < n) :
    ∃ i j, i < n ∧ j < n ∧ s.index.f i = x ∧ s.index.f j = y ∧
      A x y - ∑ t ∈ range k, B x t * B y t = if i < k ∨ j < k then 0 else s.F i j := by
  obtain ⟨i, hi, rfl⟩ := h.ix.surj hx
  obtain ⟨j, hj, rfl⟩ := h.ix.surj hy
  refine ⟨i, j, hi, hj, rfl, rfl, ?_⟩
  have e : ∑ t ∈ range k, B (s.index.f i) t * B (s.index.f j) t = ∑ t ∈ range k, s.b.f i t * s.b.f j t :=
    sum_congr rfl fun t ht => by rw [hB i t hi (mem_range.1 ht), hB j t hj (mem_range.1 ht)]
  rw [h.prod i j hi hj, e]
  ring

theorem mx_gram {k : Nat} (B : Nat → Nat → K) (i j : Fin n) :
    (mx n k B * (mx n k B)ᵀ) i j = ∑ t ∈ range k, B i t * B j t := by
  rw [Matrix.mul_apply, Finset.sum_range]
  rfl

/-- **C36, partial.** On every non-zero positive semidefinite matrix the decomposition with threshold 0
succeeds, `B Bᵀ = A`, and the number of columns of `B` is `Rank`, which is the rank of `A`.

Missing from C36 because the code does not do it (`C36_false`): success on the zero matrix, and
`B Bᵀ = A` on symmetric matrices which are not positive semidefinite. -/
theorem C36_posSemi_partial {m : Mat K n n} (hm : m.own) (hn : 0 < n) {A : Nat → Nat → K}
    (hA : Shows m.at n n A) (hpsd : PosSemi (mx n n A)) (h0 : mx n n A ≠ 0) :
    ∃ (d : RectChol K n) (B : Nat → Nat → K), RectChol.newDefault m = .ok d ∧
      Shows d.root.at n d.rank B ∧ mx n d.rank B * (mx n d.rank B)ᵀ = mx n n A ∧
      d.rank = (mx n n A).rank := by
  rw [RectChol.newDefault, Exact.zero_eq]
  have h := RectChol.new_wp (small := 0) le_rfl hm hn hA hpsd.1
  have zero_of_diag : ∀ {k : Nat} {s : RChol K n n}, RChol.Inv n A k s →
      (∀ i, k ≤ i → i < n → s.F i i = 0) → ∀ i j, k ≤ i → i < n → k ≤ j → j < n → s.F i j = 0 := by
    intro k s hI hd i j h1 h2 h3 h4
    by_cases e : i = j
    · rw [← e]; exact hd i h1 h2
    · have g1 := hI.psd2 hpsd h1 h2 h3 h4 e 1 1
      have g2 := hI.psd2 hpsd h1 h2 h3 h4 e 1 (-1)
      rw [hd i h1 h2, hd j h3 h4] at g1 g2
      linarith
  cases hd : RectChol.new 0 m with
  | ok d =>
    obtain ⟨s, B, h1, h2, h3, h4, h5, h6, -⟩ := h.of_ok hd
    have hprod : mx n d.rank B * (mx n d.rank B)ᵀ = mx n n A := by
      ext x y
      rw [mx_gram]
      obtain ⟨i, j, hi, hj, -, -, e⟩ := h3.gram h5 x.2 y.2
      have hz : (if i < d.rank ∨ j < d.rank then 0 else s.F i j) = 0 := by
        split
        · rfl
        · refine zero_of_diag h3 (fun i h7 h8 => ?_) i j (by omega) hi (by omega) hj
          have := h6 i h7 h8
          exact le_antisymm this.2 (by simpa using this.1)
      rw [hz] at e
      exact (sub_eq_zero.1 e).symm
    refine ⟨d, B, rfl, h4, hprod, ?_⟩
    rw [← hprod, Matrix.rank_self_mul_transpose, h3.rank h2 h5]
  | error e =>
    exfalso
    obtain ⟨-, k, s, h1, h2, h3⟩ := h.of_error hd
    rcases h3 with ⟨rfl, h3⟩ | ⟨i, h4, h5, h6⟩
    · refine h0 ?_
      ext x y
      obtain ⟨i, hi, hix⟩ := h2.ix.surj x.2
      obtain ⟨j, hj, hjy⟩ := h2.ix.surj y.2
      have e := h2.prod i j hi hj
      rw [hix, hjy, if_neg (by omega), zero_of_diag h2 (fun i h7 h8 =>
        le_antisymm (h3 i h8) (h2.psd1 hpsd h7 h8)) i j (by omega) hi (by omega) hj] at e
      show A x y = 0
      simpa using e
    · rw [neg_zero] at h6
      exact absurd (h2.psd1 hpsd h4 h5) (not_le.2 h6)

/-- **C36, partial.** On every symmetric matrix and non-negative threshold, success gives a root with
`Rank` independent columns which reproduces the diagonal of `A` within the threshold, and all of `A`
when `Rank` is the order; failure is the documented error. -/
theorem C36_symmetric_partial {small : K} (hsm : 0 ≤ small) {m : Mat K n n} (hm : m.own) (hn : 0 < n)
    {A : Nat → Nat → K} (hA : Shows m.at n n A) (hsym : (mx n n A).IsSymm) :
    (∃ (d : RectChol K n) (B : Nat → Nat → K), RectChol.new small m = .ok d ∧
      Shows d.root.at n d.rank B ∧ (mx n d.rank B).rank = d.rank ∧ 0 < d.rank ∧ d.rank ≤ n ∧
      (∀ x : Fin n, |(mx n n A - mx n d.rank B * (mx n d.rank B)ᵀ) x x| ≤ small) ∧
      (d.rank = n → mx n d.rank B * (mx n d.rank B)ᵀ = mx n n A)) ∨
    RectChol.new small m = .error (.err .small) := by
  have h := RectChol.new_wp hsm hm hn hA hsym
  cases hd : RectChol.new small m with
  | ok d =>
    obtain ⟨s, B, h1, h2, h3, h4, h5, h6, -⟩ := h.of_ok hd
    refine .inl ⟨d, B, rfl, h4, h3.rank h2 h5, h1, h2, fun x => ?_, fun hr => ?_⟩
    · rw [Matrix.sub_apply, mx_gram]
      obtain ⟨i, j, hi, hj, e1, e2, e⟩ := h3.gram h5 x.2 x.2
      obtain rfl := h3.ix.inj i j hi hj (e1.trans e2.symm)
      rw [show mx n n A x x = A x x from rfl, e]
      split
      · simpa using hsm
      · have := h6 i (by omega) hi
        exact abs_le.2 this
    · ext x y
      rw [mx_gram]
      obtain ⟨i, j, hi, hj, -, -, e⟩ := h3.gram h5 x.2 y.2
      rw [if_pos (.inl (by omega))] at e
      exact (sub_eq_zero.1 e).symm
  | error e =>
    obtain ⟨rfl, -⟩ := h.of_error hd
    exact .inr rfl

/-- **C36, partial.** On a positive semidefinite matrix and for every threshold that is not negative the decomposition
succeeds exactly when a diagonal entry exceeds the threshold. The columns of the root are then independent, and
`A - B Bᵀ` is again positive semidefinite with no entry above the threshold. -/
theorem C36_threshold_partial {small : K} (hsm : 0 ≤ small) {m : Mat K n n} (hm : m.own) (hn : 0 < n)
    {A : Nat → Nat → K} (hA : Shows m.at n n A) (hpsd : PosSemi (mx n n A)) :
    ((∃ x : Fin n, small < A x x) → ∃ (d : RectChol K n) (B : Nat → Nat → K), RectChol.new small m = .ok d ∧
      Shows d.root.at n d.rank B ∧ (mx n d.rank B).rank = d.rank ∧ 0 < d.rank ∧ d.rank ≤ n ∧
      PosSemi (mx n n A - mx n d.rank B * (mx n d.rank B)ᵀ) ∧
      ∀ x y : Fin n, |(mx n n A - mx n d.rank B * (mx n d.rank B)ᵀ) x y| ≤ small) ∧
    ((∀ x : Fin n, A x x ≤ small) → RectChol.new small m = .error (.err .small)) := by
  have h := RectChol.new_wp hsm hm hn hA hpsd.1
  cases hd : RectChol.new small m with
  | ok d =>
    obtain ⟨s, B, h1, h2, h3, h4, h5, h6, x, hx, hxs⟩ := h.of_ok hd
    refine ⟨fun _ => ⟨d, B, rfl, h4, h3.rank h2 h5, h1, h2, ⟨?_, fun w => ?_⟩, fun x y => ?_⟩, fun hall =>
      absurd hxs (not_lt.2 (hall ⟨x, hx⟩))⟩
    · refine hpsd.1.sub ?_
      rw [Matrix.IsSymm, Matrix.transpose_mul, Matrix.transpose_transpose]
    · obtain ⟨σ, hσ⟩ := h3.ix.perm
      have hp := h3.psd h2 hpsd (w := fun i => if hi : i < n then (if i < d.rank then 0 else w (σ ⟨i, hi⟩)) else 0)
        (fun i hi => by rw [dif_pos (by omega), if_pos hi])
      refine le_trans hp (le_of_eq ?_)
      rw [dotProduct, ← Equiv.sum_comp σ, Finset.sum_range]
      refine sum_congr rfl fun i _ => ?_
      rw [Matrix.mulVec, dotProduct, ← Equiv.sum_comp σ, Finset.sum_range, mul_sum]
      refine sum_congr rfl fun j _ => ?_
      rw [Matrix.sub_apply, mx_gram]
      obtain ⟨i', j', hi', hj', e1, e2, e⟩ := h3.gram h5 (σ i).2 (σ j).2
      rw [hσ] at e1 e2
      obtain rfl := h3.ix.inj _ _ hi' i.2 e1
      obtain rfl := h3.ix.inj _ _ hj' j.2 e2
      show _ = w (σ i) * ((A (σ i) (σ j) - _) * _)
      rw [e]
      simp only [Fin.is_lt, dif_pos]
      by_cases c1 : i.1 < d.rank
      · simp [c1]
      · by_cases c2 : j.1 < d.rank
        · simp [c2]
        · simp only [c1, c2, if_false, or_self]
          ring
    · rw [Matrix.sub_apply, mx_gram]
      obtain ⟨i, j, hi, hj, -, -, e⟩ := h3.gram h5 x.2 y.2
      show |A x y - _| ≤ _
      rw [e]
      split
      · rw [abs_zero]; exact hsm
      · rename_i hc
        push Not at hc
        by_cases eij : i = j
        · subst eij
          exact abs_le.2 (h6 i hc.1 hi)
        · have g1 := h3.psd2 hpsd hc.1 hi hc.2 hj eij 1 1
          have g2 := h3.psd2 hpsd hc.1 hi hc.2 hj eij 1 (-1)
          have g3 := (h6 i hc.1 hi).2
          have g4 := (h6 j hc.2 hj).2
          exact abs_le.2 ⟨by linarith, by linarith⟩
  | error e =>
    obtain ⟨rfl, k, s, h1, h2, h3⟩ := h.of_error hd
    refine ⟨?_, fun _ => rfl⟩
    rintro ⟨x, hx⟩
    exfalso
    rcases h3 with ⟨rfl, h3⟩ | ⟨i, h4, h5, h6⟩
    · obtain ⟨i, hi, hix⟩ := h2.ix.surj x.2
      have e := h2.prod i i hi hi
      rw [hix, if_neg (by omega), sum_range_zero, zero_add] at e
      rw [e] at hx
      exact absurd hx (not_lt.2 (h3 i hi))
    · exact absurd (h2.psd1 hpsd h4 h5) (not_le.2 (h6.trans_le (neg_nonpos.2 hsm)))

/-- The zero matrix, which is positive semidefinite, is refused. -/
theorem C36_false_zero {m : Mat K n n} (hm : m.own) (hn : 0 < n)
    (hA : Shows m.at n n fun _ _ => 0) :
    PosSemi (mx n n (fun _ _ => (0 : K))) ∧ RectChol.new 0 m = .error (.err .small) := by
  have hz : mx n n (fun _ _ => (0 : K)) = 0 := rfl
  have hp : PosSemi (mx n n (fun _ _ => (0 : K))) := by
    rw [hz]
    exact ⟨Matrix.isSymm_zero, fun x => by simp⟩
  refine ⟨hp, ?_⟩
  rcases C36_symmetric_partial (small := 0) le_rfl hm hn hA hp.1 with
    ⟨d, B, -, -, h1, h2, h3, h4, -⟩ | h
  · exfalso
    have : ∀ x : Fin n, ∀ t : Fin d.rank, B x t = 0 := by
      intro x t
      have h5 := h4 x
      rw [hz, Matrix.sub_apply, mx_gram, Matrix.zero_apply, zero_sub, abs_neg] at h5
      have h6 := abs_nonpos_iff.1 h5
      have h7 := (sum_eq_zero_iff_of_nonneg fun t _ => mul_self_nonneg _).1 h6 t (mem_range.2 t.2)
      exact mul_self_eq_zero.1 h7
    have hB : mx n d.rank B = 0 := by
      ext x t
      exact this x t
    rw [hB, Matrix.rank_zero] at h1
    omega
  · exact h

end exact

/-! ## Concrete cases -/

/-- The symmetric matrix `((1,0,0),(0,0,1),(0,1,0))`, which is not positive semidefinite. -/
def rcIndef : Mat ℚ 3 3 := .arr ⟨⟨fun i j => if i + j = 0 ∨ i + j = 3 then 1 else 0⟩, fun _ => 0⟩

/-- The entry `(x, y)` of `B Bᵀ` for the root computed from a matrix. -/
def rcGram {n : Nat} (m : Mat ℚ n n) (x y : Nat) : Option ℚ :=
  (RectChol.new (0 : ℚ) m).toOption.map fun d =>
    ((List.range d.rank).map fun t => d.root.ent x t * d.root.ent y t).sum

/-- **C36 fails.** On this symmetric matrix the decomposition with threshold 0 succeeds but `B Bᵀ` is
not the matrix: entry (1, 2) is 0 and not 1. The only square root taken is that of 1. -/
theorem C36_false_indefinite :
    Shows rcIndef.at 3 3 rcIndef.ent ∧ (mx 3 3 rcIndef.ent).IsSymm ∧
      rcGram rcIndef 1 2 = some 0 ∧ rcIndef.ent 1 2 = 1 :=
  ⟨rcIndef.at_shows, by decide +kernel, by decide +kernel, by decide +kernel⟩

/-- Rank 1 of order 2: `((1, 2), (2, 4))`. -/
def rcSemi : Mat ℚ 2 2 := .arr ⟨⟨fun i j => (i + 1) * (j + 1)⟩, fun _ => 0⟩

example : (RectChol.new (0 : ℚ) rcSemi).toOption.map (·.rank) = some 1 ∧ rcGram rcSemi 0 1 = some 2 ∧
    rcGram rcSemi 1 1 = some 4 := by decide +kernel

/-- It meets the hypotheses over the reals. -/
example : PosSemi (mx 2 2 fun i j => ((i + 1) * (j + 1) : ℝ)) ∧
    mx 2 2 (fun i j => ((i + 1) * (j + 1) : ℝ)) ≠ 0 := by
  refine ⟨⟨?_, fun x => ?_⟩, fun h => ?_⟩
  · ext i j
    fin_cases i <;> fin_cases j <;> simp [mx]
  · simp only [dotProduct, mulVec, Fin.sum_univ_two, mx]
    norm_num
    nlinarith [sq_nonneg (x 0 + 2 * x 1)]
  · have := congrFun (congrFun h 0) 0
    simp [mx] at this

/-- With the threshold 3 only one of its diagonal entries is large enough, with the threshold 4 none. -/
example : (∃ x : Fin 2, (3 : ℝ) < (x + 1) * (x + 1)) ∧ ∀ x : Fin 2, ((x : ℝ) + 1) * (x + 1) ≤ 4 :=
  ⟨⟨1, by norm_num⟩, fun x => by fin_cases x <;> norm_num⟩

end Linear
