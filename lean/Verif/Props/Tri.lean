import Verif.Lemmas.TriLemmas

/-!
# C37: the tridiagonal reduction
-/

set_option linter.unusedSectionVars false

namespace Linear

open Spec Finset Matrix

/-! ## Specification -/

/-- Zero off the main diagonal and its two neighbours. -/
def Spec.Tridiag {K : Type} [Zero K] (m : Nat) (T : Nat → Nat → K) : Prop :=
  ∀ i j, i < m → j < m → (i + 1 < j ∨ j + 1 < i) → T i j = 0

section exact

variable {K : Type} [Field K] [LinearOrder K] [IsStrictOrderedRing K] [Flt K] [Exact K] [ExactSqrt K]
variable {m : Nat}

/-- **C37.** Every square matrix is reduced. With `S` the symmetric matrix that has the upper triangle of
the argument, `Q * T * QT = S`, where `Q` is orthogonal, `QT` its transpose and `T` symmetric and
tridiagonal. The main and secondary diagonals handed out by reference are those of `T`. -/
theorem C37_factors {a : Mat K m m} (ha : a.own) (hm : 0 < m) {A : Nat → Nat → K} (hA : Shows a.at m m A) :
    ∃ s, Tri.new a = .ok s ∧ ∃ (mq mqt mt : Mat K m m) (Q T : Nat → Nat → K),
      s.q = .ok ⟨m, m, mq⟩ ∧ s.qT = .ok ⟨m, m, mqt⟩ ∧ s.t = .ok ⟨m, m, mt⟩ ∧
      mq.own ∧ mqt.own ∧ mt.own ∧
      Shows mq.at m m Q ∧ Shows mqt.at m m (fun i j => Q j i) ∧ Shows mt.at m m T ∧
      mx m m Q * mx m m T * (mx m m Q)ᵀ = mx m m (symU A) ∧
      mx m m Q * (mx m m Q)ᵀ = 1 ∧ (mx m m Q)ᵀ * mx m m Q = 1 ∧
      (∀ i j, T i j = T j i) ∧ Tridiag m T ∧
      (∀ i, i < m → s.main.f i = T i i) ∧ ∀ i, i + 1 < m → s.sec.f i = T i (i + 1) := by
  obtain ⟨s, d, e, htr, hmain⟩ := Tri.new_ok ha hm hA
  obtain ⟨mqt, q, eqt, hdt, hqt, hq⟩ := Tri.qT_exact hm s
  obtain ⟨mt, et, hmt, hT⟩ := Tri.t_ok hm s
  obtain ⟨mq, eq, hdq, hsq⟩ := C12_transpose hdt hm hqt
  have hI := htr.inv
  have hQ : mx m m (fun i j => q j i) = hprod m (Tri.H m s.hv.f s.sec.f) (m - 1) := by
    have : mx m m (fun i j => q j i) = (mx m m q)ᵀ := rfl
    rw [this, hq, Matrix.transpose_transpose]
  refine ⟨s, e, mq, mqt, mt, fun i j => q j i, Tri.tEnt s.main.f s.sec.f, ?_, eqt, et,
    Mat.dense_own hdq, Mat.dense_own hdt, Mat.dense_own hmt, hsq, hqt, hT, ?_, ?_, ?_, ?_, ?_, ?_, ?_⟩
  · unfold Tri.q
    rw [eqt, ok_bind]
    dsimp only
    rw [eq]
    rfl
  · rw [hQ, hI.prod]
    congr 2
    refine mx_congr fun i j hi hj => ?_
    unfold Tri.tEnt Tri.M symU
    dsimp only
    rw [hmain]
    simp only [upd1_eq, Exact.zero_eq]
    split_ifs <;> first | rfl | omega | (subst_vars; rfl)
  · rw [hQ]; exact hI.orth
  · rw [hQ]; exact mul_eq_one_comm.1 hI.orth
  · intro i j
    unfold Tri.tEnt
    split_ifs <;> first | rfl | omega | (subst_vars; rfl)
  · intro i j _ _ h
    unfold Tri.tEnt
    rw [if_neg (by omega), if_neg (by omega), if_neg (by omega), Exact.zero_eq]
  · intro i _
    unfold Tri.tEnt
    rw [if_pos rfl]
  · intro i _
    unfold Tri.tEnt
    rw [if_neg (by omega), if_neg (by omega), if_pos rfl]

/-- **C37.** For a symmetric matrix the product is the matrix itself. -/
theorem C37_symmetric {a : Mat K m m} (ha : a.own) (hm : 0 < m) {A : Nat → Nat → K} (hA : Shows a.at m m A)
    (hS : ∀ i j, i < m → j < m → A i j = A j i) {s : Tri K m m} (hs : Tri.new a = .ok s) :
    ∃ (mq mqt mt : Mat K m m) (Q T : Nat → Nat → K),
      s.q = .ok ⟨m, m, mq⟩ ∧ s.qT = .ok ⟨m, m, mqt⟩ ∧ s.t = .ok ⟨m, m, mt⟩ ∧
      Shows mq.at m m Q ∧ Shows mqt.at m m (fun i j => Q j i) ∧ Shows mt.at m m T ∧
      mx m m Q * mx m m T * (mx m m Q)ᵀ = mx m m A ∧
      mx m m Q * (mx m m Q)ᵀ = 1 ∧ (∀ i j, T i j = T j i) ∧ Tridiag m T := by
  obtain ⟨s', e, mq, mqt, mt, Q, T, h1, h2, h3, -, -, -, h4, h5, h6, h7, h8, -, h9, h10, -⟩ :=
    C37_factors ha hm hA
  obtain rfl : s' = s := by rw [hs] at e; exact (Except.ok.inj e).symm
  refine ⟨mq, mqt, mt, Q, T, h1, h2, h3, h4, h5, h6, ?_, h8, h9, h10⟩
  rw [h7]
  refine mx_congr fun i j hi hj => ?_
  unfold symU
  split
  · rfl
  · exact hS j i hj hi

end exact

section free

variable {α : Type} [Flt α] {m : Nat}

theorem Tri.qT_congr {s s' : Tri α m m} (hm : 0 < m)
    (h : ∀ i j, i ≤ j → j < m → s.hv.f i j = s'.hv.f i j) (he : s.sec.f = s'.sec.f) : s.qT = s'.qT := by
  have key : ∀ k q, 1 ≤ k → k < m → s.qtStep k q = s'.qtStep k q := by
    intro k q h1 h2
    have hrow : ∀ inv j (q : Tab α m m), k < j → j < m → s.qtRow k inv j q = s'.qtRow k inv j q := by
      intro inv j q h3 h4
      unfold Tri.qtRow
      rw [sumUp_ok (fun i => Flt.mul (q.f j i) (s'.hv.f (k - 1) i)) fun i h5 h6 => by
          rw [Tab.get_ok h4 h6, ok_bind, Tab.get_ok (by omega) h6, h _ i (by omega) h6]; rfl,
        sumUp_ok (fun i => Flt.mul (q.f j i) (s'.hv.f (k - 1) i)) fun i h5 h6 => by
          rw [Tab.get_ok h4 h6, ok_bind, Tab.get_ok (by omega) h6]; rfl,
        ok_bind, ok_bind, Tab.get_ok (by omega) h2, Tab.get_ok (by omega) h2, h _ k (by omega) h2]
      refine congrArg (fun f => _ >>= f) (funext fun x => congrArg (fun f => _ >>= f) (funext fun y => ?_))
      refine forUp_congr fun i h5 h6 q => ?_
      rw [Tab.get_ok h4 h6, Tab.get_ok (by omega) h6, Tab.get_ok (by omega) h6, h _ i (by omega) h6]
    unfold Tri.qtStep
    rw [Tab.get_ok (by omega) h2, Tab.get_ok (by omega) h2, h _ k (by omega) h2, Row.get_ok (by omega),
      Row.get_ok (by omega), he]
    simp only [ok_bind]
    refine congrArg (fun f => _ >>= f) (funext fun x => ?_)
    split
    · refine congrArg (fun f => _ >>= f) (funext fun x => ?_)
      have e1 : ∀ x : Tab α m m, forUp (k + 1) m (fun i (q : Tab α m m) => do
            q.set k i (Flt.mul (Flt.div Flt.one (s'.sec.f (k - 1))) (← s.hv.get (k - 1) i))) x =
          forUp (k + 1) m (fun i (q : Tab α m m) => do
            q.set k i (Flt.mul (Flt.div Flt.one (s'.sec.f (k - 1))) (← s'.hv.get (k - 1) i))) x := by
        intro x
        refine forUp_congr fun i h5 h6 q => ?_
        rw [Tab.get_ok (by omega) h6, Tab.get_ok (by omega) h6, h _ i (by omega) h6]
      rw [e1]
      refine congrArg (fun f => _ >>= f) (funext fun x => ?_)
      exact forUp_congr fun j h5 h6 q => hrow _ j q (by omega) h6
    · rfl
  unfold Tri.qT
  have e2 : ∀ a q, a ≤ m → forDown a 1 s.qtStep q = forDown a 1 s'.qtStep q := by
    intro a
    induction a with
    | zero => intro q _; rw [forDown_eq_self (by omega), forDown_eq_self (by omega)]
    | succ a ih =>
      intro q ha
      by_cases h1 : 1 ≤ a
      · rw [forDown_step h1, forDown_step h1, key a q h1 (by omega)]
        exact congrArg (fun f => _ >>= f) (funext fun x => ih x (by omega))
      · rw [forDown_eq_self (by omega), forDown_eq_self (by omega)]
  rw [e2 m _ le_rfl]

/-- **C37.** Only the upper triangle is read: in any arithmetic, bit for bit, two matrices of any storage
kinds that agree on and above the diagonal give the same `T`, `QT` and `Q`. -/
theorem C37_upper [ZeroLaws α] {a b : Mat α m m} (ha : a.own) (hb : b.own) (hm : 0 < m)
    {A B : Nat → Nat → α} (hA : Shows a.at m m A) (hB : Shows b.at m m B)
    (h : ∀ i j, i ≤ j → j < m → A i j = B i j) {s s' : Tri α m m} (hs : Tri.new a = .ok s)
    (hs' : Tri.new b = .ok s') : s.t = s'.t ∧ s.qT = s'.qT ∧ s.q = s'.q := by
  obtain ⟨s1, d, e, h1, h2⟩ := Tri.new_ok ha hm hA
  obtain rfl : s1 = s := by rw [hs] at e; exact (Except.ok.inj e).symm
  obtain ⟨s2, d', e', h1', h2'⟩ := Tri.new_ok hb hm hB
  obtain rfl : s2 = s' := by rw [hs'] at e'; exact (Except.ok.inj e').symm
  obtain ⟨rfl, he, hf⟩ := h1.agree h h1'
  have hq : s1.qT = s2.qT := Tri.qT_congr hm hf he
  refine ⟨?_, hq, by unfold Tri.q; rw [hq]⟩
  rw [hf _ _ le_rfl (by omega), ← h2'] at h2
  have e1 : s1.main = s2.main := by
    cases hx : s1.main; cases hy : s2.main; rw [hx, hy] at h2; cases h2; rfl
  have e2 : s1.sec = s2.sec := by
    cases hx : s1.sec; cases hy : s2.sec; rw [hx, hy] at he; cases he; rfl
  unfold Tri.t
  rw [e1, e2]

/-- **C37.** A matrix that is not square is refused with an error. -/
theorem C37_square {r c : Nat} {a : Mat α r c} (hr : 0 < r) (h : r ≠ c) :
    Tri.new a = .error (.err .sqMat) := by
  unfold Tri.new Mat.isSquare
  rw [Mat.colDim_ok hr]
  simp [ok_bind, pure_eq_ok, Ne.symm h]

/-- **C58.** In any arithmetic the reduction of a square matrix with at least one row ends without an index
fault, and so do `T`, `QT` and `Q`. -/
theorem C58_tri [ZeroLaws α] {a : Mat α m m} (ha : a.own) (hm : 0 < m) :
    ∃ s, Tri.new a = .ok s ∧ (∃ x : Mat α m m, s.t = .ok ⟨m, m, x⟩) ∧
      (∃ x : Mat α m m, s.qT = .ok ⟨m, m, x⟩) ∧ ∃ x : Mat α m m, s.q = .ok ⟨m, m, x⟩ := by
  obtain ⟨s, d, e, -⟩ := Tri.new_ok ha hm a.at_shows
  obtain ⟨x, ex, -⟩ := Tri.t_ok hm s
  obtain ⟨y, q, ey, hy, hq, -⟩ := Tri.qT_wp hm s (fun _ _ => True) trivial (fun _ _ _ _ _ _ _ => trivial)
  obtain ⟨z, ez, -⟩ := C12_transpose hy hm hq
  refine ⟨s, e, ⟨x, ex⟩, ⟨y, ey⟩, ⟨z, ?_⟩⟩
  unfold Tri.q
  rw [ey, ok_bind]
  dsimp only
  rw [ez]
  rfl

end free

/-! ## Concrete cases -/

/-- A symmetric 3 × 3 matrix with rational norms. -/
def Spec.triCase : Mat ℚ 3 3 :=
  .arr ⟨⟨fun i j => if i = j then i + 1 else if i + j = 1 then 3 else if i + j = 2 then 4 else 5⟩,
    fun _ => 0⟩

example : triCase.own ∧ (Tri.new triCase).toOption.map (fun d => (d.main.toList, d.sec.toList)) =
    some ([1, 186/25, -61/25], [-5, -23/25]) :=
  ⟨trivial, by decide +kernel⟩

end Linear
