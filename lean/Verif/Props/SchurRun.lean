import Verif.Props.Schur

/-!
# C40: when the Schur transformation gives up, and matrices for which it never does
-/

set_option linter.unusedSectionVars false

namespace Linear

open Spec Finset Matrix

/-! ## Specification -/

section spec

variable {α : Type} [Flt α] {n : Nat}

/-- The entry `(i, i - 1)` is negligible: it is less than `eps` times the sum of the magnitudes of its two
neighbours on the diagonal, or times `norm` when that sum is zero. -/
def Spec.Negligible (eps norm : α) (T : Nat → Nat → α) (i : Nat) : Prop :=
  Flt.lt (Flt.abs (T i (i - 1))) (Flt.mul eps
    (if Flt.eq (Flt.add (Flt.abs (T (i - 1) (i - 1))) (Flt.abs (T i i))) Flt.zero then norm
      else Flt.add (Flt.abs (T (i - 1) (i - 1))) (Flt.abs (T i i)))) = true

/-- Row `i` has an entry left of the diagonal that is not negligible. -/
def Spec.Tied (eps norm : α) (T : Nat → Nat → α) (i : Nat) : Prop := 0 < i ∧ ¬ Negligible eps norm T i

/-- `Tries κ norm iu k x y`: `k` double steps on the rows up to `iu` lead from `x` (the accumulated shift and the
tables) to `y`, the `j`-th with the shift for that count, and before each of them the last two rows are tied. -/
inductive Spec.Tries (κ : Schur.Lit α) (norm : α) (iu : Nat) : Nat → α × Schur α n → α × Schur α n → Prop
  | none (x : α × Schur α n) : Tries κ norm iu 0 x x
  | more {k il : Nat} {x y : α × Schur α n} {th v s} (h : Tries κ norm iu k x y)
      (h1 : Tied κ.eps norm y.2.t.f iu) (h2 : Tied κ.eps norm y.2.t.f (iu - 1))
      (h3 : Schur.find κ.eps norm y.2.t iu = .ok il)
      (h4 : Schur.computeShift κ il iu k y.2.t y.1 = .ok th)
      (h5 : Schur.initQR κ.eps th.1 th.2 il (iu - 2 - il) = .ok v)
      (h6 : Schur.qrStep κ.eps il v.1 iu v.2 ⟨th.1, y.2.p⟩ = .ok s) : Tries κ norm iu (k + 1) x (th.2.ex, s)

/-- `Phases κ norm u x u' x'`: with `u` rows open in `x`, rows are closed one or two at a time, each time after at most
100 double steps, until `u'` rows are open in `x'`. One row is closed when it is not tied, two when the last is tied
and the one before it is not. -/
inductive Spec.Phases (κ : Schur.Lit α) (norm : α) : Nat → α × Schur α n → Nat → α × Schur α n → Prop
  | stop (u : Nat) (x : α × Schur α n) : Phases κ norm u x u x
  | one {iu k u' : Nat} {x y x' : α × Schur α n} {s} (hk : k ≤ 100) (h : Tries κ norm iu k x y)
      (h1 : ¬ Tied κ.eps norm y.2.t.f iu) (h2 : Schur.single iu y.1 y.2 = .ok s)
      (h3 : Phases κ norm iu (y.1, s) u' x') : Phases κ norm (iu + 1) x u' x'
  | two {i k u' : Nat} {x y x' : α × Schur α n} {s} (hk : k ≤ 100) (h : Tries κ norm (i + 1) k x y)
      (h1 : Tied κ.eps norm y.2.t.f (i + 1)) (h1' : ¬ Tied κ.eps norm y.2.t.f i)
      (h2 : Schur.pair i y.1 y.2 = .ok s)
      (h3 : Phases κ norm i (y.1, s) u' x') : Phases κ norm (i + 2) x u' x'

end spec

/-! ## Any arithmetic -/

section free

variable {α : Type} [Flt α] {n : Nat}

/-- What the search answers, in terms of the last two rows. -/
theorem Schur.find_tied (eps norm : α) (t : Tab α n n) {l : Nat} (hl : l < n) :
    ∃ il, Schur.find eps norm t l = .ok il ∧ il ≤ l ∧ (il = l ↔ ¬ Tied eps norm t.f l) ∧
      (il ≠ l → (il + 1 = l ↔ ¬ Tied eps norm t.f (l - 1))) := by
  obtain ⟨il, e, h1, h2, h3⟩ := Schur.find_ok eps norm t hl
  have hn : ∀ i, il < i → i ≤ l → Tied eps norm t.f i := fun i h4 h5 =>
    ⟨by omega, fun h => by
      have := h3 i h4 h5
      unfold Negligible at h
      unfold Schur.scale at this
      rw [h] at this
      cases this⟩
  have hy : ¬ Tied eps norm t.f il := fun ⟨h4, h5⟩ => h5 (h2 h4)
  refine ⟨il, e, h1, ⟨fun h => h ▸ hy, fun h => ?_⟩, fun hne => ⟨fun h => ?_, fun h => ?_⟩⟩
  · by_contra hc
    exact h (hn l (by omega) (le_refl _))
  · rw [show l - 1 = il by omega]
    exact hy
  · by_contra hc
    exact h (hn (l - 1) (by omega) (by omega))

/-- The loop, as phases. -/
theorem Schur.loop_phases (κ : Schur.Lit α) (norm : α) (fuel u it : Nat) (x0 : α × Schur α n) (ex : α)
    (s : Schur α n) (hu : u ≤ n) (hit : it ≤ 100) (hf : 101 * u ≤ fuel + it)
    (hT : ∀ iu, u = iu + 1 → Tries κ norm iu it x0 (ex, s)) (hT' : u = 0 → x0 = (ex, s)) :
    (∃ s' ex', Schur.loop κ norm fuel u it ex s = .ok (some s') ∧ Phases κ norm u x0 0 (ex', s')) ∨
    (Schur.loop κ norm fuel u it ex s = .error (.pan .maxIter) ∧
      ∃ iu x y, 2 ≤ iu ∧ iu < n ∧ Phases κ norm u x0 (iu + 1) x ∧ Tries κ norm iu 100 x y ∧
        Tied κ.eps norm y.2.t.f iu ∧ Tied κ.eps norm y.2.t.f (iu - 1)) := by
  induction fuel generalizing u it ex s x0 with
  | zero =>
    obtain rfl : u = 0 := by omega
    rw [hT' rfl]
    exact .inl ⟨s, ex, by rw [Schur.loop]; rfl, .stop _ _⟩
  | succ fuel ih =>
    rcases u with _ | iu
    · rw [hT' rfl]
      exact .inl ⟨s, ex, by rw [Schur.loop]; rfl, .stop _ _⟩
    have hT := hT iu rfl
    rw [Schur.loop]
    obtain ⟨il, e, hil, hl1, hl2⟩ := Schur.find_tied κ.eps norm s.t (show iu < n by omega)
    rw [e, ok_bind]
    by_cases e1 : il = iu
    · rw [if_pos e1]
      have hs : ∃ s', Schur.single iu ex s = .ok s' := by
        unfold Schur.single
        rw [Tab.get_ok (by omega) (by omega), ok_bind, Tab.set_ok (by omega) (by omega), ok_bind]
        exact ⟨_, rfl⟩
      obtain ⟨s', e2⟩ := hs
      rw [e2, ok_bind]
      rcases ih iu 0 (ex, s') ex s' (by omega) (by omega) (by omega) (fun _ _ => .none _) (fun _ => rfl) with
        ⟨s'', ex', e3, h⟩ | ⟨e3, ju, x, y, j1, j2, j3, j4⟩
      · exact .inl ⟨s'', ex', e3, .one hit hT (hl1.1 e1) e2 h⟩
      · exact .inr ⟨e3, ju, x, y, j1, j2, .one hit hT (hl1.1 e1) e2 j3, j4⟩
    · rw [if_neg e1]
      have ht1 : Tied κ.eps norm s.t.f iu := by
        by_contra hc
        exact e1 (hl1.2 hc)
      by_cases e3 : il + 1 = iu
      · rw [if_pos e3]
        obtain ⟨i, rfl⟩ : ∃ i, iu = i + 1 := ⟨il, e3.symm⟩
        obtain ⟨s', -, e2, -⟩ := Schur.pair_ok (show i + 1 < n by omega) ex s
        rw [show i + 1 - 1 = i by omega] at *
        rw [e2, ok_bind]
        rcases ih i 0 (ex, s') ex s' (by omega) (by omega) (by omega) (fun _ _ => .none _) (fun _ => rfl) with
          ⟨s'', ex', e4, h⟩ | ⟨e4, ju, x, y, j1, j2, j3, j4⟩
        · exact .inl ⟨s'', ex', e4, .two hit hT ht1 ((hl2 e1).1 e3) e2 h⟩
        · exact .inr ⟨e4, ju, x, y, j1, j2, .two hit hT ht1 ((hl2 e1).1 e3) e2 j3, j4⟩
      · rw [if_neg e3]
        have ht2 : Tied κ.eps norm s.t.f (iu - 1) := by
          by_contra hc
          exact e3 ((hl2 e1).2 hc)
        obtain ⟨th, e4, -⟩ := Schur.computeShift_ok κ (l := il) it (show iu < n by omega) (by omega) s.t ex
        rw [e4, ok_bind]
        by_cases e5 : it + 1 > 100
        · rw [if_pos e5]
          obtain rfl : it = 100 := by omega
          exact .inr ⟨rfl, iu, x0, (ex, s), by omega, by omega, .stop _ _, hT, ht1, ht2⟩
        · rw [if_neg e5]
          obtain ⟨v, e6, v1, v2⟩ := Schur.initQR_ok κ.eps th.1 th.2 il (iu - 2 - il) (by omega)
          rw [e6, ok_bind]
          obtain ⟨-, s', e7, -⟩ := Schur.qrStep_ok κ.eps v1 (show v.1 + 2 ≤ iu by omega) (show iu < n by omega)
            v.2 (⟨th.1, s.p⟩ : Schur α n) (fun _ _ => True) trivial (fun _ _ _ _ _ _ _ _ _ _ _ _ => trivial)
            (fun _ _ _ _ _ => trivial)
          rw [e7, ok_bind]
          refine ih (iu + 1) (it + 1) x0 th.2.ex s' (by omega) (by omega) (by omega) (fun ju hju => ?_) (by omega)
          obtain rfl : ju = iu := by omega
          exact .more hT ht1 ht2 e e4 e6 e7

/-- **C40.** In any arithmetic the transformation of a matrix with Hessenberg form `T₀` closes its rows one or two at a
time, each time after at most 100 double steps and only when the entry left of the diagonal that separates them is
negligible, and it steps only when neither of the last two rows can be closed. There is a result exactly when all rows are
closed in this way; the panic on too many iterations comes only when 100 double steps on some rows have left both
of the last two tied. -/
theorem C40_hundred [ZeroLaws α] (κ : Schur.Lit α) {a : Mat α n n} (ha : a.own) (hn : 0 < n) :
    ∃ (h0 : Hess α n n) (mh : Mat α n n) (norm : α) (s0 : Schur α n), Hess.new a = .ok h0 ∧
      h0.h = .ok ⟨n, n, mh⟩ ∧ Shows mh.at n n s0.t.f ∧
      ((∃ s ex, (∀ fuel, 101 * n ≤ fuel → Schur.new κ fuel a = .ok (some s)) ∧
        Phases κ norm n (Flt.zero, s0) 0 (ex, s)) ∨
      ((∀ fuel, 101 * n ≤ fuel → Schur.new κ fuel a = .error (.pan .maxIter)) ∧
        ∃ iu x y, 2 ≤ iu ∧ iu < n ∧ Phases κ norm n (Flt.zero, s0) (iu + 1) x ∧ Tries κ norm iu 100 x y ∧
          Tied κ.eps norm y.2.t.f iu ∧ Tied κ.eps norm y.2.t.f (iu - 1))) := by
  obtain ⟨h0, norm, s, mp, eh0, -, hS, -, -, h⟩ := Schur.new_ok κ ha hn
  obtain ⟨mh, eh, -, hh⟩ := Hess.h_ok hn h0
  refine ⟨h0, mh, norm, s, eh0, eh, hh.congr fun i j hi hj => (hS i j hi hj).symm, ?_⟩
  rcases Schur.loop_phases κ norm (101 * n) n 0 (Flt.zero, s) Flt.zero s (le_refl _) (by omega) (by omega)
    (fun _ _ => .none _) (fun _ => rfl) with ⟨s', ex', e, hp⟩ | ⟨e, hp⟩
  · exact .inl ⟨s', ex', fun fuel hf => by rw [h, Schur.loop_fuel κ norm hf (by rw [e]; simp), e], hp⟩
  · exact .inr ⟨fun fuel hf => by rw [h, Schur.loop_fuel κ norm hf (by rw [e]; simp), e], hp⟩

end free

/-! ## Exact arithmetic -/

section exact

variable {K : Type} [Field K] [LinearOrder K] [IsStrictOrderedRing K] [Flt K] [Exact K] [ExactSqrt K]
variable {n : Nat}

/-- **C40.** In exact arithmetic, with a positive tolerance, an upper triangular matrix that is not zero is its own
Schur form: there is a result, after no step at all, with `T = A` and `P = 1`. -/
theorem C40_triangular (κ : Schur.Lit K) (hκ : 0 < κ.eps) {a : Mat K n n} (ha : a.own) (hn : 0 < n)
    {A : Nat → Nat → K} (hA : Shows a.at n n A) (hA0 : mx n n A ≠ 0)
    (htri : ∀ i j, i < n → j < i → A i j = 0) {fuel : Nat} (hf : n ≤ fuel) :
    ∃ s, Schur.new κ fuel a = .ok (some s) ∧ ∃ mp mt : Mat K n n,
      s.pMat = .ok ⟨n, n, mp⟩ ∧ s.tMat = .ok ⟨n, n, mt⟩ ∧
      Shows mp.at n n (fun i j => if i = j then 1 else 0) ∧ Shows mt.at n n A := by
  obtain ⟨h0, norm, s, mp, eh0, en, hS, ep, hP, h⟩ := Schur.new_ok κ ha hn
  -- the Hessenberg reduction does nothing
  obtain ⟨h0', eh0', hI, -⟩ := Hess.new_wp ha hn hA
    (fun _ f _ => (∀ i j, i < n → j < n → f i j = A i j) ∧ True)
    (fun f _ hf => ⟨hf, trivial⟩) (fun k f f' o o' hk hkn hI hs => by
      refine ⟨?_, trivial⟩
      cases hs with
      | skip scale hs h0 hf ho => rw [hf]; exact hI.1
      | refl scale h0 u f1 hs hne hh hu huk hr hok ho =>
        exfalso
        rw [Exact.ulpEq_eq, decide_eq_false_iff_not] at hne
        refine hne ?_
        rw [hs, lsum_exact, Exact.zero_eq, zero_add]
        refine sum_eq_zero fun i hi => ?_
        have hi := mem_Ico.1 hi
        rw [hI.1 i (k - 1) hi.2 (by omega), htri i (k - 1) hi.2 (by omega), Exact.abs_eq, abs_zero])
  rw [eh0] at eh0'
  cases eh0'
  have hT : ∀ i j, i < n → j < n → s.t.f i j = A i j := by
    intro i j hi hj
    rw [hS i j hi hj, Hess.hEnt]
    split
    · exact hI i j hi hj
    · rw [htri i j hi (by omega), Exact.zero_eq]
  have hPid : ∀ i j, i < n → j < n → s.p.f i j = if i = j then 1 else 0 := by
    obtain ⟨M, o, p, e, -, h2, h3⟩ := Hess.p_wp hn h0
      (fun _ _ p => ∀ i j, i < n → j < n → p i j = if i = j then 1 else 0)
      (fun p hp => by simpa only [Exact.one_eq, Exact.zero_eq] using hp)
      (fun k o o' p p' hk hkn hp hs => by
        rw [hs.skip (by
          rw [Exact.eq_eq, decide_eq_true_eq, hI k (k - 1) (by omega) (by omega), htri k (k - 1) (by omega) (by omega),
            Exact.zero_eq])]
        exact hp)
    rw [ep] at e
    cases e
    intro i j hi hj
    rw [hP.unique h2 hi hj]
    exact h3 i j hi hj
  have hnorm : 0 < norm := by
    by_contra hneg
    refine hA0 ?_
    ext i j
    show A i j = 0
    by_contra hc
    have hij : (i : Nat) ≤ j + 1 := by
      by_contra hij
      exact hc (htri i j i.2 (by omega))
    exact hneg (Schur.norm_pos en i.2 j.2 hij (by rw [hT i j i.2 j.2]; exact hc))
  have key : ∀ (fuel u : Nat) (s : Schur K n), (∀ i j, i < n → j < n → s.t.f i j = A i j) → u ≤ n → u ≤ fuel →
      ∃ s' : Schur K n, Schur.loop κ norm fuel u 0 Flt.zero s = .ok (some s') ∧ s'.p = s.p ∧
        ∀ i j, i < n → j < n → s'.t.f i j = A i j := by
    intro fuel
    induction fuel with
    | zero =>
      intro u s hs _ h
      obtain rfl : u = 0 := by omega
      exact ⟨s, by rw [Schur.loop]; rfl, rfl, hs⟩
    | succ fuel ih =>
      intro u s hs h1 h2
      rcases u with _ | iu
      · exact ⟨s, by rw [Schur.loop]; rfl, rfl, hs⟩
      rw [Schur.loop]
      obtain ⟨il, e, hil, hl1, -⟩ := Schur.find_tied κ.eps norm s.t (show iu < n by omega)
      have he : il = iu := by
        refine hl1.2 fun ⟨h3, h4⟩ => h4 ?_
        unfold Negligible
        rw [hs iu (iu - 1) (by omega) (by omega), htri iu (iu - 1) (by omega) (by omega)]
        simp only [Exact.lt_eq, Exact.abs_eq, abs_zero, Exact.mul_eq, Exact.eq_eq, Exact.add_eq, Exact.zero_eq,
          decide_eq_true_eq]
        refine mul_pos hκ ?_
        split
        · exact hnorm
        · rename_i hne
          exact lt_of_le_of_ne (add_nonneg (abs_nonneg _) (abs_nonneg _)) (Ne.symm hne)
      rw [e, ok_bind, if_pos he]
      unfold Schur.single
      rw [Tab.get_ok (by omega) (by omega), ok_bind, Tab.set_ok (by omega) (by omega), ok_bind, pure_eq_ok, ok_bind]
      obtain ⟨s', e1, e2, e3⟩ := ih iu ⟨⟨upd2 s.t.f iu iu (Flt.add (s.t.f iu iu) Flt.zero)⟩, s.p⟩ (fun i j hi hj => by
        dsimp only
        rw [upd2_eq]
        split
        · rename_i hij
          rw [Exact.add_eq, Exact.zero_eq, add_zero, hij.1, hij.2]
          exact hs _ _ (by omega) (by omega)
        · exact hs i j hi hj) (by omega) (by omega)
      exact ⟨s', e1, e2, e3⟩
  obtain ⟨s', e1, e2, e3⟩ := key fuel n s hT (le_refl _) hf
  refine ⟨s', by rw [h, e1], ?_⟩
  obtain ⟨M, eM, -, hM⟩ := SMat.fromSlices_dense (Jag.toLists_rect s'.p) hn hn false
  obtain ⟨N, eN, -, hN⟩ := SMat.fromSlices_dense (Jag.toLists_rect s'.t) hn hn false
  refine ⟨M, N, by unfold Schur.pMat; rw [eM]; rfl, by unfold Schur.tMat; rw [eN]; rfl,
    hM.congr fun i j hi hj => ?_, hN.congr e3⟩
  rw [e2]
  exact hPid i j hi hj

/-- The hypotheses of `C40_triangular` are met by the matrix with ones on and above the diagonal, of every size. -/
example {n : Nat} (hn : 0 < n) : ∃ (a : Mat ℝ n n) (A : Nat → Nat → ℝ), a.own ∧ Shows a.at n n A ∧ mx n n A ≠ 0 ∧
    ∀ i j, i < n → j < i → A i j = 0 := by
  refine ⟨.arr ⟨⟨fun i j => if j < i then 0 else 1⟩, fun _ => 0⟩, fun i j => if j < i then 0 else 1, trivial, ?_, ?_,
    fun i j _ h => if_pos h⟩
  · exact (Mat.at_shows _).congr fun i j _ _ => rfl
  · intro h
    have := congrFun (congrFun h ⟨0, hn⟩) ⟨0, hn⟩
    simp [mx] at this

end exact

end Linear
