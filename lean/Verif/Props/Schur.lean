import Verif.Lemmas.SchurExact
import Verif.Props.Hess
import Verif.Base.Xq

/-!
# C40, C62, C63: the Schur form
-/

set_option linter.unusedSectionVars false

namespace Linear

open Spec Finset Matrix

/-! ## Any arithmetic -/

section free

variable {α : Type} [Flt α] {n : Nat}

/-- **C40.** In any arithmetic and for all values of the literals the transformation of a square matrix ends: there
is one outcome, a result or the panic on too many iterations, that is reached with `101 * n` rounds of the loop
(at most 100 shifts and one deflation for each of the `n` eigenvalues) and does not change if more are allowed.
No index is ever out of range, and the accessors of a result succeed. -/
theorem C40_ends [ZeroLaws α] (κ : Schur.Lit α) {a : Mat α n n} (ha : a.own) (hn : 0 < n) :
    (∃ s, (∀ fuel, 101 * n ≤ fuel → Schur.new κ fuel a = .ok (some s)) ∧
      ∃ mp mpt mt : Mat α n n, s.pMat = .ok ⟨n, n, mp⟩ ∧ s.ptMat = .ok ⟨n, n, mpt⟩ ∧ s.tMat = .ok ⟨n, n, mt⟩ ∧
        Shows mp.at n n s.p.f ∧ Shows mpt.at n n (fun i j => s.p.f j i) ∧ Shows mt.at n n s.t.f) ∨
      ∀ fuel, 101 * n ≤ fuel → Schur.new κ fuel a = .error (.pan .maxIter) := by
  obtain ⟨s0, norm, s, mp, -, -, -, -, -, h⟩ := Schur.new_ok κ ha hn
  have hl := Schur.loop_ok κ norm (fun _ _ _ => True) (fun _ _ _ _ _ _ _ => trivial)
    (fun _ _ _ _ _ _ _ _ => trivial) (fun _ _ _ _ _ _ _ _ _ _ _ _ _ _ _ => trivial)
    (101 * n) n 0 Flt.zero s (le_refl _) (by omega) (by omega) trivial
  rcases hl with ⟨s', -, e, -⟩ | e
  · left
    refine ⟨s', fun fuel hf => by rw [h, Schur.loop_fuel κ norm hf (by rw [e]; simp), e], ?_⟩
    obtain ⟨M, e1, h1, h2⟩ := SMat.fromSlices_dense (Jag.toLists_rect s'.p) hn hn false
    obtain ⟨N, e2, -, h4⟩ := SMat.fromSlices_dense (Jag.toLists_rect s'.t) hn hn false
    obtain ⟨mpt, ept, -, hPT⟩ := C12_transpose h1 hn h2
    have ep : s'.pMat = .ok ⟨n, n, M⟩ := by unfold Schur.pMat; rw [e1]; rfl
    refine ⟨M, mpt, N, ep, ?_, by unfold Schur.tMat; rw [e2]; rfl, h2, hPT, h4⟩
    unfold Schur.ptMat
    rw [ep, ok_bind]
    dsimp only
    rw [ept]
    rfl
  · right
    intro fuel hf
    rw [h, Schur.loop_fuel κ norm hf (by rw [e]; simp), e]

/-- **C40.** A matrix that is not square is refused. -/
theorem C40_square {c : Nat} (κ : Schur.Lit α) (fuel : Nat) (a : Mat α n c) (hn : 0 < n) (h : n ≠ c) :
    Schur.new κ fuel a = .error (.err .sqMat) := by
  unfold Schur.new Mat.isSquare
  rw [Mat.colDim_ok hn]
  simp [ok_bind, pure_eq_ok, Ne.symm h]

/-- **C40.** Up to two rows no shift is needed, so that there is always a result. -/
theorem C40_small [ZeroLaws α] (κ : Schur.Lit α) {a : Mat α n n} (ha : a.own) (hn : 0 < n) (h2 : n ≤ 2)
    {fuel : Nat} (hf : n ≤ fuel) : ∃ s, Schur.new κ fuel a = .ok (some s) := by
  obtain ⟨s0, norm, s, mp, -, -, -, -, -, h⟩ := Schur.new_ok κ ha hn
  rw [h]
  have key : ∀ (fuel u it : Nat) (ex : α) (s : Schur α n), u ≤ 2 → u ≤ n → u ≤ fuel →
      ∃ s', Schur.loop κ norm fuel u it ex s = .ok (some s') := by
    intro fuel
    induction fuel with
    | zero =>
      intro u it ex s _ _ h
      obtain rfl : u = 0 := by omega
      exact ⟨s, by rw [Schur.loop]; rfl⟩
    | succ fuel ih =>
      intro u it ex s h1 h2 h3
      rcases u with _ | iu
      · exact ⟨s, by rw [Schur.loop]; rfl⟩
      rw [Schur.loop]
      obtain ⟨il, e, hil, -, -⟩ := Schur.find_ok κ.eps norm s.t (show iu < n by omega)
      rw [e, ok_bind]
      by_cases e1 : il = iu
      · rw [if_pos e1]
        unfold Schur.single
        rw [Tab.get_ok (by omega) (by omega), ok_bind, Tab.set_ok (by omega) (by omega), ok_bind]
        exact ih iu 0 ex _ (by omega) (by omega) (by omega)
      · rw [if_neg e1, if_pos (by omega)]
        obtain ⟨s', -, e2, -⟩ := Schur.pair_ok (show iu - 1 + 1 < n by omega) ex s
        rw [e2, ok_bind]
        exact ih (iu - 1) 0 ex s' (by omega) (by omega) (by omega)
  exact key fuel n 0 Flt.zero s h2 (le_refl _) hf

/-- **C63.** In any arithmetic the entries of `T` below the diagonal next to the main one are exactly zero. -/
theorem C63_shape [ZeroLaws α] (κ : Schur.Lit α) {a : Mat α n n} (ha : a.own) (hn : 0 < n) {fuel : Nat}
    {s : Schur α n} (h : Schur.new κ fuel a = .ok (some s)) :
    ∃ mt : Mat α n n, s.tMat = .ok ⟨n, n, mt⟩ ∧
      ∀ i j : Nat, i < n → j + 1 < i → mt.at i j = .ok Flt.zero := by
  obtain ⟨s0, norm, s1, mp, -, -, h1, -, -, h2⟩ := Schur.new_ok κ ha hn
  have hl := Schur.loop_ok κ norm (fun _ _ s => ∀ i j, i < n → j + 1 < i → s.t.f i j = Flt.zero)
    (fun iu ex s s' hiu hI e i j hi hj => by
      unfold Schur.single at e
      rw [Tab.get_ok (by omega) (by omega), ok_bind, Tab.set_ok (by omega) (by omega), ok_bind] at e
      cases e
      dsimp only
      rw [upd2_eq, if_neg (by omega)]
      exact hI i j hi hj)
    (fun k ex s s' hk hI _ e i j hi hj => by
      obtain ⟨s'', g, e', hg, h⟩ := Schur.pair_ok hk ex s
      rw [e] at e'
      cases e'
      have hg' : g i j = Flt.zero := by
        rw [hg]
        dsimp only
        rw [if_neg (by omega)]
        exact hI i j hi hj
      rcases h with ⟨h, -⟩ | ⟨z, h, -⟩
      · rw [h, hg']
      · rw [h i j hi (by omega)]
        dsimp only
        by_cases e1 : i < k + 2
        · rw [if_pos e1, Schur.rotV, if_neg (by omega), if_neg (by omega), if_neg (by omega), hg']
        · rw [if_neg e1]
          split
          · rw [Schur.rotV, if_neg (by omega), if_neg (by omega), hg']
          · exact hg')
    (fun il im iu ex v t ex' s s' h1 h2 h3 hI hsh e i j hi hj => by
      have ht : ∀ i j, i < n → j + 1 < i → t.f i j = Flt.zero := by
        intro i j hi hj
        rcases hsh with ⟨rfl, -⟩ | ⟨d, -, rfl⟩
        · exact hI i j hi hj
        · dsimp only
          rw [if_neg (by omega)]
          exact hI i j hi hj
      obtain ⟨s1, s2, e', hI', -, hc⟩ := Schur.qrStep_ok κ.eps h1 h2 h3 v (⟨t, s.p⟩ : Schur α n)
        (fun _ s => ∀ i j, i < n → j + 1 < i →
          ¬ (im + 2 ≤ i ∧ i ≤ iu ∧ (j + 2 = i ∨ im + 2 < i ∧ j + 3 = i)) → s.t.f i j = Flt.zero)
        (fun i j hi hj _ => ht i j hi hj)
        (fun k s s' p q r sn f hk hk' hI hR i j hi hj hne => by
          have hf : f i j = Flt.zero := by
            rw [hR.left i j (by omega)]
            exact hI i j hi hj hne
          rw [hR.ht i j hi (by omega), Schur.colF]
          have hrow : Schur.rowF k (decide (k ≠ iu - 1)) (Flt.div q (Flt.add p sn)) (Flt.div r (Flt.add p sn))
              (Flt.div (Flt.add p sn) sn) (Flt.div q sn) (Flt.div r sn) f i j = Flt.zero := by
            rw [Schur.rowF]
            by_cases e1 : k ≤ j
            · rw [if_pos e1, Schur.rowV, if_neg (by omega), if_neg (by omega)]
              by_cases e2 : k ≠ iu - 1 ∧ i = k + 2
              · omega
              · rw [if_neg (by simpa using e2)]
                exact hf
            · rw [if_neg e1]
              exact hf
          by_cases e1 : i < min iu (k + 3) + 1
          · rw [if_pos e1, Schur.colV, if_neg (by omega), if_neg (by omega)]
            by_cases e2 : k ≠ iu - 1 ∧ j = k + 2
            · omega
            · rw [if_neg (by simpa using e2)]
              exact hrow
          · rw [if_neg e1]
            exact hrow)
        (fun _ _ _ _ h => h)
      rw [e] at e'
      cases e'
      rw [hc]
      dsimp only
      split
      · rfl
      · rename_i hne
        exact hI' i j hi hj hne)
    (max fuel (101 * n)) n 0 Flt.zero s1 (le_refl _) (by omega) (by omega)
    (fun i j hi hj => by rw [h1 i j hi (by omega), Hess.hEnt, if_neg (by omega)])
  rw [h2] at h
  rw [Schur.loop_fuel κ norm (le_max_left fuel (101 * n)) (by rw [h]; simp), h] at hl
  rcases hl with ⟨s', -, e, hI⟩ | e
  · cases e
    obtain ⟨N, e2, -, h4⟩ := SMat.fromSlices_dense (Jag.toLists_rect s.t) hn hn false
    refine ⟨N, by unfold Schur.tMat; rw [e2]; rfl, fun i j hi hj => ?_⟩
    rw [h4.ok hi (show j < n by omega), hI i j hi hj]
  · cases e

end free

/-! ## Exact arithmetic -/

section exact

variable {K : Type} [Field K] [LinearOrder K] [IsStrictOrderedRing K] [Flt K] [Exact K] [ExactSqrt K]
variable {n : Nat}

/-- **C62.** In exact arithmetic, with a positive tolerance, the vectors `P` of a matrix that is not zero are
orthonormal, and the sum of the diagonal of `T` is that of `A`. -/
theorem C62_orthogonal (κ : Schur.Lit K) (hκ : 0 < κ.eps) {a : Mat K n n} (ha : a.own) (hn : 0 < n)
    {A : Nat → Nat → K} (hA : Shows a.at n n A) (hA0 : mx n n A ≠ 0) {fuel : Nat} {s : Schur K n}
    (h : Schur.new κ fuel a = .ok (some s)) :
    ∃ (mp mpt mt : Mat K n n) (P T : Nat → Nat → K),
      s.pMat = .ok ⟨n, n, mp⟩ ∧ s.ptMat = .ok ⟨n, n, mpt⟩ ∧ s.tMat = .ok ⟨n, n, mt⟩ ∧
      Shows mp.at n n P ∧ Shows mpt.at n n (fun i j => P j i) ∧ Shows mt.at n n T ∧
      mx n n P * (mx n n P)ᵀ = 1 ∧ (mx n n P)ᵀ * mx n n P = 1 ∧
      (mx n n T).trace = (mx n n A).trace := by
  have htr : ∀ f : Nat → Nat → K, (mx n n f).trace = ∑ i ∈ range n, f i i := by
    intro f
    rw [Matrix.trace, ← Fin.sum_univ_eq_sum_range (fun i => f i i) n]
    rfl
  obtain ⟨s0, norm, s1, mp, e0, en, h1, ep, hP1, h2⟩ := Schur.new_ok κ ha hn
  obtain ⟨s0', e0', mp', mpt', mh', P, H, ep', -, eh', -, -, -, hP, -, hH, hprod, hPo, hPo', hUH⟩ :=
    C39_factors ha hn hA
  rw [e0] at e0'
  cases e0'
  rw [ep] at ep'
  cases ep'
  obtain ⟨mh, eh, -, hh⟩ := Hess.h_ok hn s0
  rw [eh] at eh'
  cases eh'
  have hPP : mx n n s1.p.f = mx n n P := mx_congr fun i j hi hj => hP1.unique hP hi hj
  have hHH : mx n n s1.t.f = mx n n H := mx_congr fun i j hi hj => by
    rw [h1 i j hi hj]
    exact hh.unique hH hi hj
  have hnorm : 0 < norm := by
    by_contra hneg
    refine hA0 ?_
    have hz : mx n n H = 0 := by
      rw [← hHH]
      ext i j
      show s1.t.f i j = 0
      by_contra hc
      by_cases hij : (i : Nat) ≤ j + 1
      · exact hneg (Schur.norm_pos en i.2 j.2 hij hc)
      · exact hc (by rw [h1 i j i.2 j.2, Hess.hEnt, if_neg hij, Exact.zero_eq])
    rw [← hprod, hz, Matrix.mul_zero, Matrix.zero_mul]
  have hl := Schur.loop_ok κ norm (fun u ex (s : Schur K n) => mx n n s.p.f * (mx n n s.p.f)ᵀ = 1 ∧
      ∑ i ∈ range n, s.t.f i i + u * ex = (mx n n A).trace)
    (fun iu ex s s' hiu hI e => by
      unfold Schur.single at e
      rw [Tab.get_ok (by omega) (by omega), ok_bind, Tab.set_ok (by omega) (by omega), ok_bind] at e
      cases e
      refine ⟨hI.1, ?_⟩
      rw [← hI.2]
      have : ∑ i ∈ range n, upd2 s.t.f iu iu (Flt.add (s.t.f iu iu) ex) i i =
          ∑ i ∈ range n, (s.t.f i i + if i = iu then ex else 0) := by
        refine sum_congr rfl fun i _ => ?_
        rw [upd2_eq]
        by_cases e : i = iu
        · rw [if_pos ⟨e, e⟩, if_pos e, Exact.add_eq, e]
        · rw [if_neg (by omega), if_neg e, add_zero]
      dsimp only
      rw [this, sum_add_distrib, sum_ite_eq', if_pos (mem_range.2 hiu)]
      push_cast
      ring)
    (fun k ex s s' hk hI hlt e => by
      obtain ⟨s'', g, e', hg, h⟩ := Schur.pair_ok hk ex s
      rw [e] at e'
      cases e'
      have hx : s.t.f (k + 1) k ≠ 0 := by
        intro hx
        rw [hx] at hlt
        simp only [Exact.lt_eq, Exact.abs_eq, abs_zero, Exact.mul_eq, decide_eq_false_iff_not] at hlt
        refine hlt (mul_pos hκ ?_)
        unfold Schur.scale
        simp only [Exact.eq_eq, Exact.abs_eq, Exact.add_eq, Exact.zero_eq, decide_eq_true_eq]
        split
        · exact hnorm
        · rename_i hne
          exact lt_of_le_of_ne (add_nonneg (abs_nonneg _) (abs_nonneg _)) (Ne.symm hne)
      have hgs : ∑ i ∈ range n, g i i = ∑ i ∈ range n, s.t.f i i + 2 * ex := by
        have : ∑ i ∈ range n, g i i = ∑ i ∈ range n,
            ((s.t.f i i + if i = k then ex else 0) + if i = k + 1 then ex else 0) := by
          refine sum_congr rfl fun i _ => ?_
          rw [hg]
          dsimp only
          by_cases e : i = k
          · rw [if_pos ⟨rfl, .inl e⟩, if_pos e, if_neg (by omega), Exact.add_eq, add_zero]
          · by_cases e' : i = k + 1
            · rw [if_pos ⟨rfl, .inr e'⟩, if_neg e, if_pos e', Exact.add_eq, add_zero]
            · rw [if_neg (by omega), if_neg e, if_neg e', add_zero, add_zero]
        rw [this, sum_add_distrib, sum_add_distrib, sum_ite_eq', sum_ite_eq',
          if_pos (mem_range.2 (by omega)), if_pos (mem_range.2 hk)]
        ring
      have hIt := hI.2
      push_cast at hIt
      rcases h with ⟨h, hp⟩ | ⟨z, h, hp⟩
      · refine ⟨by rw [hp]; exact hI.1, ?_⟩
        rw [h, hgs, ← hIt]
        ring
      · refine ⟨(Schur.rot_orth (Schur.unit_exact hx z) hk hp).trans hI.1, ?_⟩
        rw [Schur.rot_trace (Schur.unit_exact hx z) hk h, hgs, ← hIt]
        ring)
    (fun il im iu ex v t ex' s s' h1 h2 h3 hI hsh e => by
      obtain ⟨s1, s2, e', hI', hp, hc⟩ := Schur.qrStep_ok κ.eps h1 h2 h3 v (⟨t, s.p⟩ : Schur K n)
        (fun _ s => mx n n s.p.f * (mx n n s.p.f)ᵀ = 1 ∧
          ∑ i ∈ range n, s.t.f i i = ∑ i ∈ range n, t.f i i)
        ⟨hI.1, rfl⟩
        (fun k s s' p q r sn f hk hk' hI hR => by
          have hiz : Schur.IsRefl (decide (k ≠ iu - 1)) (Flt.div q (Flt.add p sn)) (Flt.div r (Flt.add p sn))
              (Flt.div (Flt.add p sn) sn) (Flt.div q sn) (Flt.div r sn) :=
            Schur.isRefl hR.hsn hR.ne fun hd => by
              have hd := of_decide_eq_false hd
              obtain ⟨x, hx⟩ := hR.last (by omega) (by omega)
              rw [hx, Exact.div_eq, Exact.zero_eq, zero_div]
          have hnl : decide (k ≠ iu - 1) = true → k + 2 ≤ iu := fun hd => by
            have hd := of_decide_eq_true hd
            omega
          refine ⟨(Schur.refl_orth hiz (by omega) (fun hd => by have := hnl hd; omega) hR.hp).trans hI.1, ?_⟩
          rw [Schur.refl_trace hiz (by omega) (fun hd => by have := hnl hd; omega) (by omega)
            (fun hd => by have := hnl hd; omega) hR.ht, ← hI.2]
          exact sum_congr rfl fun i _ => hR.left i i (by omega))
        (fun _ _ _ _ h => h)
      rw [e] at e'
      cases e'
      refine ⟨by rw [hp]; exact hI'.1, ?_⟩
      rw [hc]
      have : ∑ i ∈ range n, (if im + 2 ≤ i ∧ i ≤ iu ∧ (i + 2 = i ∨ im + 2 < i ∧ i + 3 = i) then Flt.zero
          else s1.t.f i i) = ∑ i ∈ range n, s1.t.f i i :=
        sum_congr rfl fun i _ => if_neg (by omega)
      rw [this, hI'.2, ← hI.2]
      rcases hsh with ⟨rfl, rfl⟩ | ⟨d, rfl, rfl⟩
      · rfl
      · have hd : ∑ i ∈ range n, (if i = i ∧ i ≤ iu then Flt.sub (s.t.f i i) d else s.t.f i i) =
            ∑ i ∈ range n, s.t.f i i - (iu + 1) * d := by
          have : ∑ i ∈ range n, (if i = i ∧ i ≤ iu then Flt.sub (s.t.f i i) d else s.t.f i i) =
              ∑ i ∈ range n, (s.t.f i i - if i < iu + 1 then d else 0) := by
            refine sum_congr rfl fun i _ => ?_
            by_cases e : i ≤ iu
            · rw [if_pos ⟨rfl, e⟩, if_pos (by omega), Exact.sub_eq]
            · rw [if_neg (by omega), if_neg (by omega), sub_zero]
          rw [this, sum_sub_distrib, ← sum_filter]
          have hf : (range n).filter (fun i => i < iu + 1) = range (iu + 1) := by
            ext i
            simp only [mem_filter, mem_range]
            omega
          rw [hf, sum_const, card_range, nsmul_eq_mul]
          push_cast
          ring
        dsimp only
        rw [hd, Exact.add_eq]
        push_cast
        ring)
    (max fuel (101 * n)) n 0 Flt.zero s1 (le_refl _) (by omega) (by omega)
    ⟨by rw [hPP]; exact hPo, by
      rw [← htr, hHH, ← hprod, Matrix.trace_mul_comm, ← Matrix.mul_assoc, hPo', Matrix.one_mul, Exact.zero_eq,
        mul_zero, add_zero]⟩
  rw [h2] at h
  rw [Schur.loop_fuel κ norm (le_max_left fuel (101 * n)) (by rw [h]; simp), h] at hl
  rcases hl with ⟨s', ex', e, hI⟩ | e
  · cases e
    obtain ⟨M, e1, h1, h2⟩ := SMat.fromSlices_dense (Jag.toLists_rect s.p) hn hn false
    obtain ⟨N, e2, -, h4⟩ := SMat.fromSlices_dense (Jag.toLists_rect s.t) hn hn false
    obtain ⟨mpt, ept, -, hPT⟩ := C12_transpose h1 hn h2
    have ep : s.pMat = .ok ⟨n, n, M⟩ := by unfold Schur.pMat; rw [e1]; rfl
    refine ⟨M, mpt, N, s.p.f, s.t.f, ep, ?_, by unfold Schur.tMat; rw [e2]; rfl, h2, hPT, h4, hI.1,
      mul_eq_one_comm.1 hI.1, ?_⟩
    · unfold Schur.ptMat
      rw [ep, ok_bind]
      dsimp only
      rw [ept]
      rfl
    · rw [htr, ← hI.2]
      push_cast
      ring
  · cases e

end exact

/-! ## Concrete cases -/

/-- Rational literals with a coarse tolerance. -/
def Spec.schurLit : Schur.Lit ℚ := ⟨1 / 1000, 3 / 4, -7 / 16, 241 / 250⟩

/-- The run takes several double steps (with the approximate square root of the rational instance) and has a
result. -/
example : hessCase.own ∧ ((Schur.new schurLit 303 hessCase).toOption.bind id).isSome = true :=
  ⟨trivial, by decide +kernel⟩

/-- A triangular matrix is its own Schur form. -/
example : (Schur.new schurLit 303 (.arr ⟨⟨fun i j => if i ≤ j then i + j + 1 else 0⟩, fun _ => 0⟩ : Mat ℚ 3 3)
    ).toOption.map (·.map fun s => s.t.toLists) = some (some [[1, 2, 3], [0, 3, 4], [0, 0, 5]]) := by
  decide +kernel

/-- A real 2 × 2 matrix that is not triangular meets the hypotheses of `C62_orthogonal`. -/
def Spec.schurReal : Mat ℝ 2 2 := .arr ⟨⟨fun i j => i + 2 * j + 1⟩, fun _ => 0⟩

example (κ : Schur.Lit ℝ) (hκ : 0 < κ.eps) : ∃ (s : Schur ℝ 2) (mp mt : Mat ℝ 2 2) (P T : Nat → Nat → ℝ),
    Schur.new κ 202 schurReal = .ok (some s) ∧
    s.pMat = .ok ⟨2, 2, mp⟩ ∧ s.tMat = .ok ⟨2, 2, mt⟩ ∧ Shows mp.at 2 2 P ∧ Shows mt.at 2 2 T ∧
    mx 2 2 P * (mx 2 2 P)ᵀ = 1 ∧ (mx 2 2 T).trace = 5 := by
  obtain ⟨s, e⟩ := C40_small κ (a := schurReal) (show schurReal.own from trivial)
    (by omega) (by omega) (show 2 ≤ 202 by omega)
  obtain ⟨mp, mpt, mt, P, T, h1, h2, h3, h4, h5, h6, h7, h8, h9⟩ := C62_orthogonal κ hκ
    (a := schurReal) (show schurReal.own from trivial) (by omega)
    schurReal.at_shows (fun h => by
      have := congrFun (congrFun h 0) 0
      simp [mx, Mat.ent, schurReal] at this) e
  refine ⟨s, mp, mt, P, T, e, h1, h3, h4, h6, h7, ?_⟩
  rw [h9]
  simp [mx, Matrix.trace, Fin.sum_univ_two, Mat.ent, schurReal]
  norm_num

/-- The same literals with NaN. -/
def Spec.schurLitX : Schur.Lit Xq := ⟨.fin (1 / 1000), .fin (3 / 4), .fin (-7 / 16), .fin (241 / 250)⟩

/-- **C62, code and claim disagree.** For the zero matrix with two rows the code divides zero by zero, and `P` is
NaN: the hypothesis that `A` is not zero is needed. -/
theorem C62_zero_false : ∃ s, Schur.new schurLitX 202 (.arr ⟨⟨fun _ _ => .fin 0⟩, fun _ => 0⟩ : Mat Xq 2 2) =
    .ok (some s) ∧ s.p.toLists = [[.nan, .nan], [.nan, .nan]] := by
  have h : (Schur.new schurLitX 202 (.arr ⟨⟨fun _ _ => .fin 0⟩, fun _ => 0⟩ : Mat Xq 2 2)).toOption.map
      (·.map (fun s => s.p.toLists)) = some (some [[.nan, .nan], [.nan, .nan]]) := by decide +kernel
  cases e : Schur.new schurLitX 202 (.arr ⟨⟨fun _ _ => .fin 0⟩, fun _ => 0⟩ : Mat Xq 2 2) with
  | error x => rw [e] at h; cases h
  | ok o =>
    cases o with
    | none => rw [e] at h; cases h
    | some s =>
      rw [e] at h
      exact ⟨s, rfl, Option.some.inj (Option.some.inj h)⟩

/-- **C40.** The panic does occur: the zero matrix with three rows has no Schur form in this code. -/
theorem C40_zero_panics : Schur.new schurLitX 303 (.arr ⟨⟨fun _ _ => .fin 0⟩, fun _ => 0⟩ : Mat Xq 3 3) =
    .error (.pan .maxIter) := by
  have h : (match Schur.new schurLitX 303 (.arr ⟨⟨fun _ _ => .fin 0⟩, fun _ => 0⟩ : Mat Xq 3 3) with
      | .error (.pan .maxIter) => true
      | _ => false) = true := by decide +kernel
  split at h
  · assumption
  · cases h

end Linear
