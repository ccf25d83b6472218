import Verif.Props.Solver
import Verif.Props.EigenGen

/-!
# C110: the constructors with default thresholds, and when a solver is refused
-/

set_option linter.unusedSectionVars false

namespace Linear

open Spec Finset Matrix

/-! ## The pivots of an accepted matrix -/

section free

variable {α : Type} [Flt α] {n : Nat}

private theorem LU.step_big {k : Nat} {s : LU α n n} {thr ninf : α} (hk : k < n)
    (hs : s.singular = false ∧ ∀ i, i < k → Flt.lt (Flt.abs (s.lu.f i i)) thr = false) :
    Wp (LU.step thr ninf k s)
      (Sum.elim (fun s => s.singular = false ∧ ∀ i, i < k + 1 → Flt.lt (Flt.abs (s.lu.f i i)) thr = false)
        fun s => s.singular = true) (fun _ => False) := by
  obtain ⟨hs, hb⟩ := hs
  unfold LU.step
  obtain ⟨t, et, u1, -⟩ := LU.upper_ok hk s.lu
  obtain ⟨t', p, el, b2, l1, -⟩ := LU.lower_ok (fun _ p => k ≤ p.1 ∧ p.1 < n)
    (ninf := ninf) hk t ⟨le_rfl, hk⟩ (fun row p h1 h2 h3 => by
      dsimp only
      split
      · exact ⟨h1, h2⟩
      · exact h3)
  obtain ⟨b1, b2⟩ := b2
  rw [et, ok_bind, el, ok_bind]
  dsimp only
  rw [wp_bind, wp_tget b2 hk]
  by_cases hlt : Flt.lt (Flt.abs (t'.f p.1 k)) thr = true
  · rw [if_pos hlt]
    exact (rfl : true = true)
  rw [if_neg hlt]
  obtain ⟨s', es, p1, -, -, p4⟩ := LU.doPivot_ok b2 hk { s with lu := t' }
  obtain ⟨t'', ed, -, d2⟩ := LU.divide_ok hk s'.lu
  rw [es, ok_bind, ed]
  refine ⟨p4.trans hs, fun i hi => ?_⟩
  show Flt.lt (Flt.abs (t''.f i i)) thr = false
  rw [d2 i i (by omega), p1 i i (by omega)]
  by_cases e : i = k
  · subst e
    rw [Equiv.swap_apply_right]
    simpa using hlt
  · rw [Equiv.swap_apply_of_ne_of_ne (by omega) e, l1 i i (by omega), u1 i i (by omega)]
    exact hb i (by omega)

/-- **C27.** Whatever the arithmetic, no element of the diagonal of `U` is below the threshold. -/
theorem C27_pivots {thr ninf : α} {m : Mat α n n} (hm : m.own) (hn : 0 < n) {d : LU α n n} (hd : LU.new thr ninf m = .ok d)
    (hs : d.singular = false) :
    ∃ (u : Mat α n n) (U : Nat → Nat → α), d.u = .ok (some u) ∧ Shows u.at n n U ∧
      ∀ i, i < n → Flt.lt (Flt.abs (U i i)) thr = false := by
  obtain ⟨d', e, h⟩ := LU.new_wp (thr := thr) (ninf := ninf) hm hn m.at_shows
    (fun k s => s.singular = false ∧ ∀ i, i < k → Flt.lt (Flt.abs (s.lu.f i i)) thr = false) (fun s => s.singular = true)
    (fun s h _ _ _ => ⟨h, by omega⟩) (fun k s hk h => LU.step_big hk h)
  obtain rfl : d' = d := by rw [hd] at e; exact (Except.ok.inj e).symm
  obtain ⟨-, h⟩ := h.resolve_right (by simp [hs])
  obtain ⟨u, eu, hu⟩ := LU.u_ok hn hs
  refine ⟨u, _, eu, hu, fun i hi => ?_⟩
  rw [if_pos le_rfl]
  exact h i hi

end free

/-! ## C110 -/

section exact

variable {K : Type} [Field K] [LinearOrder K] [IsStrictOrderedRing K] [Flt K] [Exact K] [ExactSqrt K] {n : Nat}

private theorem res_iff {b : Bool} {P : Prop} {x : Res Bool} (e : x = .ok b) (h : b = true ↔ P) :
    (x = .ok true ↔ P) ∧ (x = .ok false ↔ ¬ P) := by
  subst e
  cases b <;> simp_all

/-- **C110.** The QR solver made without a threshold exists for every square matrix and reports exactly the invertible ones as
not singular. -/
theorem C110_qr (κ : Solver.Lit K) (fuel : Nat) (hn : 0 < n) {a : Mat K n n} (ha : a.own) {A : Nat → Nat → K}
    (hA : Shows a.at n n A) :
    ∃ s, Solver.make κ fuel Solver.qrDefault a = .ok (some s) ∧ (s.isNonSingular = .ok true ↔ (mx n n A).det ≠ 0) ∧
      (s.isNonSingular = .ok false ↔ (mx n n A).det = 0) := by
  obtain ⟨d, e, -⟩ := QR.new_exact ha hn hn hA
  obtain ⟨b, -, -, eb, -, -, -, h⟩ := C34_isNonSingular ha hn hn hA e (Flt.zero : K)
  have h := h Exact.zero_eq
  rw [indep_iff, Nat.min_self, Matrix.mulVec_injective_iff_isUnit, Matrix.isUnit_iff_isUnit_det, isUnit_iff_ne_zero] at h
  refine ⟨.qr Flt.zero d, ?_, ?_⟩
  · simp only [Solver.make, Solver.qrDefault, e, ok_bind]
    rfl
  · obtain ⟨h1, h2⟩ := res_iff eb h
    exact ⟨h1, h2.trans not_not⟩

/-- **C110.** The same for the rank-revealing QR solver. -/
theorem C110_rrqr (κ : Solver.Lit K) (fuel : Nat) (hn : 0 < n) {a : Mat K n n} (ha : a.own) {A : Nat → Nat → K}
    (hA : Shows a.at n n A) :
    ∃ s, Solver.make κ fuel Solver.rrqrDefault a = .ok (some s) ∧ (s.isNonSingular = .ok true ↔ (mx n n A).det ≠ 0) ∧
      (s.isNonSingular = .ok false ↔ (mx n n A).det = 0) := by
  obtain ⟨d, e, -⟩ := RRQR.new_exact ha hn hn hA
  obtain ⟨b, -, -, eb, -, -, -, h⟩ := C60_isNonSingular ha hn hn hA e (Flt.zero : K)
  have h := h Exact.zero_eq
  have hr : (mx n n A).rank = min n n ↔ (mx n n A).det ≠ 0 := by
    rw [Nat.min_self, ← isUnit_iff_ne_zero, ← Matrix.isUnit_iff_isUnit_det]
    refine ⟨fun h => ?_, fun h => by rw [Matrix.rank_of_isUnit _ h, Fintype.card_fin]⟩
    rw [← Matrix.mulVec_surjective_iff_isUnit]
    have : LinearMap.range (mx n n A).mulVecLin = ⊤ := Submodule.eq_top_of_finrank_eq (by
      rw [Module.finrank_fin_fun]
      exact h)
    exact LinearMap.range_eq_top.1 this
  rw [hr] at h
  refine ⟨.rrqr Flt.zero d, ?_, ?_⟩
  · simp only [Solver.make, Solver.rrqrDefault, e, ok_bind]
    rfl
  · obtain ⟨h1, h2⟩ := res_iff eb h
    exact ⟨h1, h2.trans not_not⟩

/-- **C110.** The LU solver with the default threshold reports no singular matrix as regular, and a matrix that it reports as
singular becomes so when one column is changed by less than the threshold. -/
theorem C110_lu {κ : Solver.Lit K} (h0 : 0 < κ.luSmall) (hi : κ.ninf < 0) (fuel : Nat) (hn : 0 < n) {a : Mat K n n} (ha : a.own)
    {A : Nat → Nat → K} (hA : Shows a.at n n A) :
    ∃ s, Solver.make κ fuel κ.luDefault a = .ok (some s) ∧ (s.isNonSingular = .ok true → (mx n n A).det ≠ 0) ∧
      (s.isNonSingular = .ok false → ∃ (B : Matrix (Fin n) (Fin n) K) (k : Fin n), B.det = 0 ∧
        (∀ i j, j ≠ k → B i j = mx n n A i j) ∧ ∀ i, |B i k - mx n n A i k| < κ.luSmall) := by
  obtain ⟨d, e, -⟩ := C27_factors h0 hi ha hn hA
  obtain ⟨h1, h2⟩ := C28_isNonSingular h0 hi ha hn hA e
  refine ⟨.lu d, ?_, fun h => h1 (Except.ok.inj h), fun h => (h2 (Except.ok.inj h)).1⟩
  simp only [Solver.make, Solver.Lit.luDefault, e, ok_bind]
  rfl

/-- **C110.** The converse is false for LU: the regular matrix of size one with half the threshold as its element is reported
as singular. -/
theorem C110_lu_small {κ : Solver.Lit K} (h0 : 0 < κ.luSmall) (hi : κ.ninf < 0) (fuel : Nat) :
    ∃ (a : Mat K 1 1) (s : Solver K 1 1), a.own ∧ (mx 1 1 a.ent).det = κ.luSmall / 2 ∧
      Solver.make κ fuel κ.luDefault a = .ok (some s) ∧ s.isNonSingular = .ok false := by
  obtain ⟨a, ha, hA⟩ : ∃ a : Mat K 1 1, a.own ∧ a.ent = fun _ _ => κ.luSmall / 2 :=
    ⟨.arr ⟨⟨fun _ _ => κ.luSmall / 2⟩, fun _ => 0⟩, Mat.own_arr _, rfl⟩
  have hsh : Shows a.at 1 1 a.ent := a.at_shows
  obtain ⟨d, e, h1, -⟩ := C27_factors h0 hi ha (by omega) hsh
  refine ⟨a, .lu d, ha, by simp [mx, hA], ?_, ?_⟩
  · simp only [Solver.make, Solver.Lit.luDefault, e, ok_bind]
    rfl
  · show Except.ok (!d.singular) = _
    by_contra hne
    have hs : d.singular = false := by
      cases h : d.singular <;> simp_all
    obtain ⟨u, U, eu, hU, hp⟩ := C27_pivots ha (by omega) e hs
    obtain ⟨l, u', p, L, U', P, -, eu', -, -, hU', -, hL, -, -, -, ⟨σ, hP⟩, hm⟩ := h1 hs
    obtain rfl : u = u' := by rw [eu] at eu'; exact Option.some.inj (Except.ok.inj eu')
    have hp := hp 0 (by omega)
    rw [hU.unique hU' (by omega) (by omega)] at hp
    have hm := congrFun (congrFun hm 0) 0
    have hP := hP 0 0
    have hσ : σ 0 = 0 := Subsingleton.elim _ _
    simp only [mx, Matrix.mul_apply, Fin.sum_univ_one, hA] at hm
    rw [hP, hσ, if_pos rfl, one_mul] at hm
    have h11 := hL.1 0 (by omega)
    simp only [Fin.val_zero, h11, one_mul] at hm
    rw [← hm] at hp
    simp only [Exact.lt_eq, Exact.abs_eq, decide_eq_false_iff_not, not_lt] at hp
    rw [abs_of_pos (by linarith)] at hp
    linarith

/-- **C110.** The Cholesky solver with the default thresholds exists exactly when the matrix is symmetric up to the first one and
all pivots exceed the second; otherwise the error says which. It always reports a regular matrix. -/
theorem C110_chol {κ : Solver.Lit K} (h0 : 0 ≤ κ.cholPos) (fuel : Nat) (hn : 0 < n) {a : Mat K n n} (ha : a.own)
    {A : Nat → Nat → K} (hA : Shows a.at n n A) :
    let Sym := ∀ i j, i < j → j < n → |A i j - A j i| ≤ κ.cholSym * max |A i j| |A j i|
    let Pos := ∀ (k : Fin n) (y : Fin n → K), y k = 1 → (∀ j, k < j → y j = 0) → κ.cholPos < y ⬝ᵥ mx n n (symU A) *ᵥ y
    (Sym ∧ Pos → ∃ s, Solver.make κ fuel κ.cholDefault a = .ok (some s) ∧ s.isNonSingular = .ok true) ∧
    (¬ Sym → Solver.make κ fuel κ.cholDefault a = .error (.err .symm)) ∧
    (Sym → ¬ Pos → Solver.make κ fuel κ.cholDefault a = .error (.err .small)) := by
  intro Sym Pos
  obtain ⟨h1, h2, h3⟩ := C31_thresholds (rel := κ.cholSym) h0 ha hn hA
  refine ⟨fun h => ?_, fun h => ?_, fun h h' => ?_⟩
  · obtain ⟨d, e⟩ := h1.2 h
    refine ⟨.chol d, ?_, rfl⟩
    simp only [Solver.make, Solver.Lit.cholDefault, e, ok_bind]
    rfl
  · simp only [Solver.make, Solver.Lit.cholDefault, h2 h]
    rfl
  · simp only [Solver.make, Solver.Lit.cholDefault, h3 h h']
    rfl

omit [ExactSqrt K] in
/-- **C110.** The eigen decomposition makes a solver exactly when no eigenvalue has an imaginary part above the tolerance, and
panics otherwise. -/
theorem C110_eigen {κ : Solver.Lit K} (h0 : 0 ≤ κ.eig.epsEd) (fuel : Nat) {a : Mat K n n} {e : Eig K n}
    (hn : 0 < n) (he : Eig.new κ.schur κ.eig (κ.symTol n n) fuel a = .ok (some e)) :
    ((∀ i, i < n → |e.im.f i| ≤ κ.eig.epsEd) → Solver.make κ fuel .eig a = .ok (some (.eig κ.eig.epsEd e))) ∧
    (∀ i, i < n → κ.eig.epsEd < |e.im.f i| → Solver.make κ fuel .eig a = .error (.pan .unsup)) := by
  have hc : e.hasComplex κ.eig.epsEd = true ↔ ∃ i, i < n ∧ κ.eig.epsEd < |e.im.f i| := by
    simp only [Eig.hasComplex, List.any_eq_true, List.mem_range, equalsWithError, Bool.not_eq_true', Bool.or_eq_false_iff]
    refine exists_congr fun i => and_congr_right fun _ => ?_
    simp only [Exact.ulpEq_eq, Exact.le_eq, Exact.abs_eq, Exact.sub_eq, Exact.zero_eq, decide_eq_false_iff_not, not_le, zero_sub,
      abs_neg]
    refine ⟨fun h => h.2, fun h => ⟨fun h' => ?_, h⟩⟩
    rw [h', abs_zero] at h
    exact absurd h (not_lt.2 h0)
  have hm : Solver.make κ fuel .eig a =
      (do e.solver κ.eig.epsEd; return some (.eig κ.eig.epsEd e) : Res (Option (Solver K n n))) := by
    unfold Solver.make
    dsimp only
    rw [Mat.colDim_ok hn, ok_bind, he]
    rfl
  rw [hm]
  unfold Eig.solver
  refine ⟨fun h => ?_, fun i hi h => ?_⟩
  · rw [if_neg (fun h' => by obtain ⟨i, hi, h''⟩ := hc.1 h'; exact absurd (h i hi) (not_le.2 h''))]
    rfl
  · rw [if_pos (hc.2 ⟨i, hi, h⟩)]
    rfl

end exact

/-! ## Concrete cases -/

private theorem case_det : (mx 2 2 (solverCase (2 : ℝ)).ent).det = 3 := by
  rw [Matrix.det_fin_two]
  simp only [mx, Mat.ent, solverCase, Exact.one_eq]
  norm_num

/-- The matrix with rows `2 1` and `1 2`: QR, rank-revealing QR, LU and Cholesky with the defaults of the code are made, and the
first two report it as regular. -/
example : ∃ q r l, Solver.make solverReal 0 Solver.qrDefault (solverCase 2) = .ok (some q) ∧ q.isNonSingular = .ok true ∧
    Solver.make solverReal 0 Solver.rrqrDefault (solverCase 2) = .ok (some r) ∧ r.isNonSingular = .ok true ∧
    Solver.make solverReal 0 solverReal.luDefault (solverCase 2) = .ok (some l) := by
  have ho : (solverCase (2 : ℝ)).own := trivial
  have hd : (mx 2 2 (solverCase (2 : ℝ)).ent).det ≠ 0 := by rw [case_det]; norm_num
  obtain ⟨q, h1, h2, -⟩ := C110_qr solverReal 0 (by omega) ho (solverCase (2 : ℝ)).at_shows
  obtain ⟨r, h3, h4, -⟩ := C110_rrqr solverReal 0 (by omega) ho (solverCase (2 : ℝ)).at_shows
  obtain ⟨l, h5, -⟩ := C110_lu (κ := solverReal) (by norm_num [solverReal]) solverReal_ok.ninf 0 (by omega) ho
    (solverCase (2 : ℝ)).at_shows
  exact ⟨q, r, l, h1, h2.2 hd, h3, h4.2 hd, h5⟩

/-- A matrix that is not symmetric is refused by the default Cholesky decomposition. -/
example : Solver.make solverReal 0 solverReal.cholDefault (.arr ⟨⟨fun i _ => if i = 0 then 2 else 1⟩, fun _ => 0⟩ : Mat ℝ 2 2) =
    .error (.err .symm) := by
  refine (C110_chol (κ := solverReal) (by norm_num [solverReal]) 0 (by omega) (Mat.own_arr _) (Mat.at_shows _)).2.1 fun h => ?_
  have := h 0 1 (by omega) (by omega)
  norm_num [solverReal, Mat.ent] at this

/-- A pair of complex numbers, with the literals of the code: no solver. -/
example (κ : Solver.Lit ℚ) (h1 : κ.schur = codeLit) (h2 : κ.eig = codeEigLit) (h3 : κ.symTol 2 2 = 40 / 2 ^ 53) :
    Solver.make κ 202 .eig eigWide = .error (.pan .unsup) := by
  obtain ⟨s, e, -, h, -⟩ := C77_pairs_false
  refine (C110_eigen (by rw [h2]; norm_num [codeEigLit]) 202 (by omega) (by rw [h1, h2, h3]; exact e)).2 0 (by omega) ?_
  rw [h2, abs_of_pos (by linarith)]
  exact lt_trans (by norm_num [codeEigLit]) h

end Linear
