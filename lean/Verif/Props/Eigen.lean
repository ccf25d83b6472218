import Verif.Lemmas.EigenFro
import Verif.Props.Tri
import Verif.Props.Schur

/-!
# C41, C42, C53, C64 - C67: the eigen decomposition
-/

set_option linter.unusedSectionVars false

namespace Linear

open Spec Finset Matrix

/-! ## C42: the iteration of the symmetric case ends -/

section free

variable {α : Type} [Flt α] {n : Nat}

/-- Entry `j` of the secondary diagonal is negligible: adding it does not change the sum of its neighbours on
the main diagonal. The last row has no such entry. -/
def Spec.Settled (j : Nat) (x : Eig.St α n) : Prop :=
  j + 1 < n → Flt.eq (Flt.add (Flt.abs (x.e.f j)) (Flt.add (Flt.abs (x.d.f j)) (Flt.abs (x.d.f (j + 1)))))
    (Flt.add (Flt.abs (x.d.f j)) (Flt.abs (x.d.f (j + 1)))) = true

/-- `k` sweeps for eigenvalue `j` lead from one state to another. Each starts from an entry `j` that is not
negligible, and each works on rows `j` to `m`, where `m` is the first row from `j` on with a negligible entry. -/
inductive Spec.Sweeps (j : Nat) : Nat → Eig.St α n → Eig.St α n → Prop
  | none (x : Eig.St α n) : Sweeps j 0 x x
  | more {k m : Nat} {x x' x'' : Eig.St α n} (h1 : j < m) (h2 : m < n) (h3 : ∀ i, j ≤ i → i < m → ¬ Settled i x)
      (h4 : Settled m x) (h5 : Eig.round j m x = .ok x') (h6 : Sweeps j k x' x'') : Sweeps j (k + 1) x x''

theorem Spec.settled_iff {m : Nat} (hm : m < n) (x : Eig.St α n) :
    Settled m x ↔ (m < n - 1 → Eig.small x.d.f x.e.f m) :=
  ⟨fun h h' => h (by omega), fun h h' => h (by omega)⟩

theorem Eig.find_settled {j : Nat} (hj : j < n) (x : Eig.St α n) :
    ∃ m, Eig.find x.d x.e (n - 1 - j) j = .ok m ∧ j ≤ m ∧ m < n ∧ Settled m x ∧
      ∀ i, j ≤ i → i < m → ¬ Settled i x := by
  obtain ⟨m, e, h1, h2, h3, h4⟩ := Eig.find_ok x.d x.e (show j + (n - 1 - j) < n by omega)
  refine ⟨m, e, h1, by omega, (settled_iff (by omega) x).2 fun h => h3 (by omega), fun i hi hm h => ?_⟩
  exact h4 i hi hm ((settled_iff (by omega) x).1 h (by omega))

theorem Eig.ql_count {j : Nat} (hj : j < n) (k : Nat) (x : Eig.St α n) :
    Wp (Eig.ql j k x) (fun x' => ∃ k', k' ≤ k ∧ Sweeps j k' x x' ∧ Settled j x')
      (fun f => f = .err .maxIter ∧ ∃ x', Sweeps j k x x' ∧ ¬ Settled j x') := by
  induction k generalizing x with
  | zero =>
    unfold Eig.ql
    obtain ⟨m, e, h1, h2, h3, h4⟩ := Eig.find_settled hj x
    rw [e, ok_bind]
    by_cases hm : m = j
    · subst hm
      rw [if_pos rfl]
      exact wp_of_eq_ok rfl ⟨0, le_refl _, .none x, h3⟩
    · rw [if_neg hm]
      exact (wp_error _).2 ⟨rfl, x, .none x, h4 j (le_refl _) (by omega)⟩
  | succ k ih =>
    unfold Eig.ql
    obtain ⟨m, e, h1, h2, h3, h4⟩ := Eig.find_settled hj x
    rw [e, ok_bind]
    by_cases hm : m = j
    · subst hm
      rw [if_pos rfl]
      exact wp_of_eq_ok rfl ⟨0, by omega, .none x, h3⟩
    · rw [if_neg hm]
      obtain ⟨x', e'⟩ := Eig.round_ok (j := j) (show j < m by omega) h2 x
      rw [e', ok_bind]
      refine (ih x').mono ?_ ?_
      · rintro y ⟨k', hk, hs, hy⟩
        exact ⟨k' + 1, by omega, .more (by omega) h2 h4 h3 e' hs, hy⟩
      · rintro f ⟨hf, y, hs, hy⟩
        exact ⟨hf, y, .more (by omega) h2 h4 h3 e' hs, hy⟩

theorem Eig.iter_count (x : Eig.St α n) :
    Wp (forUp 0 n (fun j (x : Eig.St α n) => Eig.ql j 30 x) x)
      (fun x' => ∃ y : Nat → Eig.St α n, y 0 = x ∧ y n = x' ∧
        ∀ j, j < n → ∃ k, k ≤ 30 ∧ Sweeps j k (y j) (y (j + 1)) ∧ Settled j (y (j + 1)))
      (fun f => f = .err .maxIter ∧ ∃ (y : Nat → Eig.St α n) (J : Nat) (x' : Eig.St α n), y 0 = x ∧ J < n ∧
        (∀ j, j < J → ∃ k, k ≤ 30 ∧ Sweeps j k (y j) (y (j + 1)) ∧ Settled j (y (j + 1))) ∧
        Sweeps J 30 (y J) x' ∧ ¬ Settled J x') := by
  refine wp_forUp (ε := Fault) (fun J x' => ∃ y : Nat → Eig.St α n, y 0 = x ∧ y J = x' ∧
    ∀ j, j < J → ∃ k, k ≤ 30 ∧ Sweeps j k (y j) (y (j + 1)) ∧ Settled j (y (j + 1))) (by omega)
    ⟨fun _ => x, rfl, rfl, fun j h => by omega⟩ ?_
  rintro J x' - hJ ⟨y, h1, rfl, h3⟩
  refine (Eig.ql_count hJ 30 (y J)).mono ?_ ?_
  · rintro z ⟨k, hk, hs, hz⟩
    refine ⟨fun i => if i ≤ J then y i else z, by rw [← h1]; exact if_pos (by omega), if_neg (by omega),
      fun j hj => ?_⟩
    dsimp only
    by_cases hjJ : j < J
    · rw [if_pos (by omega), if_pos (by omega)]
      exact h3 j hjJ
    · obtain rfl : j = J := by omega
      rw [if_pos (by omega), if_neg (by omega)]
      exact ⟨k, hk, hs, hz⟩
  · rintro f ⟨hf, z, hs, hz⟩
    exact ⟨hf, y, J, z, h1, hJ, h3, hs, hz⟩

/-- **C42.** In any arithmetic (NaN and infinities included) the symmetric case ends for all diagonals and all
starting vectors. Either there is a result, or the error is the one for too many iterations. It is never an
index fault. -/
theorem C42_ends {l : Nat} (eps : α) (main : Row α n) (sec : Row α l) (z : Tab α n n) (hn : 0 < n)
    (hl : n - 1 ≤ l) :
    (∃ s, Eig.findSym eps main sec z = .ok s) ∨ Eig.findSym eps main sec z = .error (.err .maxIter) := by
  obtain ⟨s0, s1, e0, e1, hc⟩ := Eig.findSym_ok eps main sec z hn hl
  rcases hc with ⟨f, ef, ef'⟩ | ⟨x, y, d, v, -, -, -, -, ev⟩
  · right
    rw [ef', ((Eig.iter_count (⟨z, s1.1, s1.2⟩ : Eig.St α n)).of_error ef).1]
  · exact .inl ⟨_, ev⟩

/-- **C42.** The result is reached with at most thirty sweeps for each eigenvalue, each sweep being needed. The
error comes when thirty sweeps for one eigenvalue were not enough. -/
theorem C42_thirty {l : Nat} (eps : α) (main : Row α n) (sec : Row α l) (z : Tab α n n) (hn : 0 < n)
    (hl : n - 1 ≤ l) : ∃ y : Nat → Eig.St α n, (y 0).z = z ∧
      ((∃ s, Eig.findSym eps main sec z = .ok s) →
        ∀ j, j < n → ∃ k, k ≤ 30 ∧ Sweeps j k (y j) (y (j + 1)) ∧ Settled j (y (j + 1))) ∧
      (∀ f, Eig.findSym eps main sec z = .error f → ∃ J x', J < n ∧
        (∀ j, j < J → ∃ k, k ≤ 30 ∧ Sweeps j k (y j) (y (j + 1)) ∧ Settled j (y (j + 1))) ∧
        Sweeps J 30 (y J) x' ∧ ¬ Settled J x') := by
  obtain ⟨s0, s1, e0, e1, hc⟩ := Eig.findSym_ok eps main sec z hn hl
  rcases hc with ⟨f, ef, ef'⟩ | ⟨x, y, d, v, ex, -, -, -, ev⟩
  · obtain ⟨-, y, J, x', h1, h2, h3, h4, h5⟩ := (Eig.iter_count (⟨z, s1.1, s1.2⟩ : Eig.St α n)).of_error ef
    refine ⟨y, by rw [h1], fun ⟨s, hs⟩ => ?_, fun _ _ => ⟨J, x', h2, h3, h4, h5⟩⟩
    rw [ef'] at hs
    cases hs
  · obtain ⟨y, h1, -, h3⟩ := (Eig.iter_count (⟨z, s1.1, s1.2⟩ : Eig.St α n)).of_ok ex
    refine ⟨y, by rw [h1], fun _ => h3, fun f hf => ?_⟩
    rw [ev] at hf
    cases hf

/-! ## The parts of the constructor -/

theorem Tri.q_ok [ZeroLaws α] (hn : 0 < n) (s : Tri α n n) :
    ∃ (M : Mat α n n), s.q = .ok ⟨n, n, M⟩ ∧ M.dense := by
  obtain ⟨mqt, q, eqt, hdt, hqt, -⟩ := Tri.qT_wp hn s (fun _ _ => True) trivial
    (fun _ _ _ _ _ _ _ => trivial)
  obtain ⟨mq, eq, hdq, hsq⟩ := C12_transpose hdt hn hqt
  refine ⟨mq, ?_, hdq⟩
  unfold Tri.q
  rw [eqt, ok_bind]
  dsimp only
  rw [eq]
  rfl

theorem Schur.tab_ok {m : Mat α n n} (hm : m.own) (hn : 0 < n) {A : Nat → Nat → α} (hA : Shows m.at n n A) :
    ∃ t : Tab α n n, Schur.tab n ⟨n, n, m⟩ = .ok t ∧ ∀ i j, i < n → j < n → t.f i j = A i j := by
  obtain ⟨t, e, h⟩ := Mat.dataCopy_ok hm hn hA
  refine ⟨⟨t.f⟩, ?_, h⟩
  unfold Schur.tab
  rw [if_pos ⟨rfl, rfl⟩, e, ok_bind]
  rfl

theorem Eig.newSym_eq [ZeroLaws α] (eps : α) {a : Mat α n n} (ha : a.own) (hn : 0 < n) :
    ∃ (t : Tri α n n) (M : Mat α n n) (z : Tab α n n), Tri.new a = .ok t ∧ t.q = .ok ⟨n, n, M⟩ ∧ M.own ∧
      Schur.tab n ⟨n, n, M⟩ = .ok z ∧ Eig.newSym eps a = Eig.findSym eps t.main t.sec z := by
  obtain ⟨t, d, et, -, -⟩ := Tri.new_ok ha hn a.at_shows
  obtain ⟨M, eq, hM⟩ := Tri.q_ok hn t
  obtain ⟨z, ez, -⟩ := Schur.tab_ok (Mat.dense_own hM) hn M.at_shows
  refine ⟨t, M, z, et, eq, Mat.dense_own hM, ez, ?_⟩
  unfold Eig.newSym
  rw [et, ok_bind, eq, ok_bind, ez, ok_bind]

/-- **C42.** The same for the constructor from a square matrix taken as symmetric: a result, or the error for too
many iterations. -/
theorem C42_constructor [ZeroLaws α] (eps : α) {a : Mat α n n} (ha : a.own) (hn : 0 < n) :
    (∃ s, Eig.newSym eps a = .ok s) ∨ Eig.newSym eps a = .error (.err .maxIter) := by
  obtain ⟨t, M, z, -, -, -, -, e⟩ := Eig.newSym_eq eps ha hn
  rw [e]
  exact C42_ends eps t.main t.sec z hn (by omega)

/-- The constructor from two diagonals starts with the identity matrix. -/
theorem Eig.ofTri_eq {l : Nat} (eps : α) (main : Row α n) (sec : Row α l) :
    ∃ z : Tab α n n, (∀ i j, i < n → j < n → z.f i j = if i = j then Flt.one else Flt.zero) ∧
      Eig.ofTri eps main sec = Eig.findSym eps main sec z := by
  obtain ⟨z, e, h⟩ := Wp.exists_ok (wp_forUp (ε := Fault) (a := 0) (b := n)
    (body := fun i (z : Tab α n n) => z.set i i Flt.one) (s := (Jag.zero n _ : Tab α n n)) (E := fun _ => False)
    (fun k z => ∀ i j, z.f i j = if i < k ∧ i = j then Flt.one else Flt.zero) (by omega)
    (fun i j => by rw [if_neg (by omega)]; rfl) (fun k z _ hk hI => by
      rw [Tab.set_ok hk hk]
      refine wp_of_eq_ok rfl fun i j => ?_
      dsimp only
      rw [upd2_eq, hI]
      by_cases h1 : i = k ∧ j = k
      · rw [if_pos h1, if_pos (by omega)]
      · rw [if_neg h1]
        by_cases h2 : i < k ∧ i = j
        · rw [if_pos h2, if_pos (by omega)]
        · rw [if_neg h2, if_neg (by omega)]))
  refine ⟨z, fun i j hi hj => ?_, ?_⟩
  · rw [h]
    simp only [hi, true_and]
  · unfold Eig.ofTri
    rw [e, ok_bind]

/-- **C42.** The same for the constructor from two diagonals. -/
theorem C42_tridiagonal {l : Nat} (eps : α) (main : Row α n) (sec : Row α l) (hn : 0 < n) (hl : n - 1 ≤ l) :
    (∃ s, Eig.ofTri eps main sec = .ok s) ∨ Eig.ofTri eps main sec = .error (.err .maxIter) := by
  obtain ⟨z, -, e⟩ := Eig.ofTri_eq eps main sec
  rw [e]
  exact C42_ends eps main sec z hn hl

/-! ## The matrices handed out -/

theorem Eig.vector'_isList (s : Eig α n) (k : Nat) : IsList (s.vector' k) n (s.vec.f k) := by
  refine ⟨by simp [Eig.vector'], fun i hi => ?_⟩
  simp [Eig.vector', hi]

/-- **C64.** `V` has the eigenvectors as its columns and `VT` as its rows, in any arithmetic. -/
theorem C64_vectors [ZeroLaws α] (s : Eig α n) (hn : 0 < n) :
    ∃ mv mvt : Mat α n n, s.v = .ok ⟨n, n, mv⟩ ∧ s.vT = .ok ⟨n, n, mvt⟩ ∧ mv.own ∧ mvt.own ∧
      Shows mv.at n n (fun i k => s.vec.f k i) ∧ Shows mvt.at n n (fun k i => s.vec.f k i) := by
  obtain ⟨m, e, h1, -⟩ := Mat.new_ok (α := α) (r := n) (c := n) hn hn
  have hv : ∃ mv : Mat α n n, s.v = .ok ⟨n, n, mv⟩ ∧ mv.own ∧ Shows mv.at n n (fun i k => s.vec.f k i) := by
    obtain ⟨m', e', h2, A, h3, h4⟩ := Wp.exists_ok (wp_forUp (ε := Fault) (a := 0) (b := n)
      (body := fun k (m : Mat α n n) => Mat.orFault (m.setColumnVector k (.arr (s.vector' k)))) (s := m)
      (E := fun _ => False) (fun b m => m.dense ∧ ∃ A, Shows m.at n n A ∧ ∀ i k, i < n → k < b → A i k = s.vec.f k i)
      (by omega) ⟨h1, m.ent, m.at_shows, fun i k _ h => by omega⟩ (fun k m _ hk ⟨hm, A, hA, hI⟩ => by
        obtain ⟨m', e, h1, h2⟩ := C15_setColumnVector_partial hm hn hA (j := (k : Int)) ⟨by omega, by omega⟩
          (v := .arr (s.vector' k)) (.inr ⟨_, rfl⟩) (s.vector'_isList k)
        rw [e]
        refine wp_of_eq_ok rfl ⟨h1, _, h2, fun i y hi hy => ?_⟩
        by_cases hyk : y = k
        · subst hyk; rw [if_pos rfl]
        · rw [if_neg (by omega), hI i y hi (by omega)]))
    refine ⟨m', ?_, Mat.dense_own h2, h3.congr fun i k hi hk => h4 i k hi hk⟩
    unfold Eig.v
    erw [e, must_ok, ok_bind, e']
    rfl
  have hvt : ∃ mv : Mat α n n, s.vT = .ok ⟨n, n, mv⟩ ∧ mv.own ∧ Shows mv.at n n (fun k i => s.vec.f k i) := by
    obtain ⟨m', e', h2, A, h3, h4⟩ := Wp.exists_ok (wp_forUp (ε := Fault) (a := 0) (b := n)
      (body := fun k (m : Mat α n n) => Mat.orFault (m.setRowVector k (.arr (s.vector' k)))) (s := m)
      (E := fun _ => False) (fun b m => m.dense ∧ ∃ A, Shows m.at n n A ∧ ∀ k i, k < b → i < n → A k i = s.vec.f k i)
      (by omega) ⟨h1, m.ent, m.at_shows, fun k i h _ => by omega⟩ (fun k m _ hk ⟨hm, A, hA, hI⟩ => by
        obtain ⟨m', e, h1, h2⟩ := C15_setRowVector_partial hm hA (i := (k : Int)) ⟨by omega, by omega⟩
          (v := .arr (s.vector' k)) (.inr ⟨_, rfl⟩) (s.vector'_isList k)
        rw [e]
        refine wp_of_eq_ok rfl ⟨h1, _, h2, fun y i hy hi => ?_⟩
        by_cases hyk : y = k
        · subst hyk; rw [if_pos rfl]
        · rw [if_neg (by omega), hI y i (by omega) hi]))
    refine ⟨m', ?_, Mat.dense_own h2, h3.congr fun i k hi hk => h4 i k hi hk⟩
    unfold Eig.vT
    erw [e, must_ok, ok_bind, e']
    rfl
  obtain ⟨mv, e1, h2, h3⟩ := hv
  obtain ⟨mvt, e4, h5, h6⟩ := hvt
  exact ⟨mv, mvt, e1, e4, h2, h5, h3, h6⟩

/-- **C64.** `D` has the real parts on the diagonal. Each positive imaginary part stands to the right of its
diagonal entry and each negative one to the left; every other entry is zero. In any arithmetic. The two hypotheses
say that positive parts do not come last and negative ones do not come first, as for conjugate pairs. -/
theorem C64_diagonal (epsEd : α) (s : Eig α n) (hn : 0 < n)
    (h1 : ∀ i, i < n → compareTo (s.im.f i) Flt.zero epsEd > 0 → i + 1 < n)
    (h2 : ∀ i, i < n → compareTo (s.im.f i) Flt.zero epsEd < 0 → 1 ≤ i) :
    ∃ md : Mat α n n, s.dMat epsEd = .ok ⟨n, n, md⟩ ∧ md.own ∧ Shows md.at n n (fun i j =>
      if j = i + 1 ∧ compareTo (s.im.f i) Flt.zero epsEd > 0 then s.im.f i
      else if j + 1 = i ∧ compareTo (s.im.f i) Flt.zero epsEd < 0 then s.im.f i
      else if i = j then s.re.f i else Flt.zero) := by
  obtain ⟨m, e, hm, hA⟩ := C03_withDiagonal (d := s.re.toList) (n := n) (f := s.re.f) (Row.toList_isList _) hn
  obtain ⟨m', e', h3, A, h4, h5⟩ := Wp.exists_ok (wp_forUp (ε := Fault) (a := 0) (b := n)
    (body := fun i (m : Mat α n n) => do
      let x ← s.im.get i
      if compareTo x Flt.zero epsEd > 0 then m.put i (i + 1) x
      else if compareTo x Flt.zero epsEd < 0 then m.put i ((i : Int) - 1) x
      else pure m) (s := m) (E := fun _ => False)
    (fun b m => m.dense ∧ ∃ A, Shows m.at n n A ∧ ∀ i j, i < n → j < n → A i j =
      if j = i + 1 ∧ compareTo (s.im.f i) Flt.zero epsEd > 0 ∧ i < b then s.im.f i
      else if j + 1 = i ∧ compareTo (s.im.f i) Flt.zero epsEd < 0 ∧ i < b then s.im.f i
      else if i = j then s.re.f i else Flt.zero)
    (by omega) ⟨hm, _, hA, fun i j _ _ => by
      rw [if_neg (by omega), if_neg (by omega)]; rfl⟩ (fun i m _ hi ⟨hm, A, hA, hI⟩ => by
      rw [Row.get_ok hi, ok_bind]
      by_cases c1 : compareTo (s.im.f i) Flt.zero epsEd > 0
      · rw [if_pos c1]
        have hi1 := h1 i hi c1
        obtain ⟨m', e, k1, k2⟩ := Mat.put_dense hm (A := A)
          (fun x y hx hy => m.at_shows.unique hA hx hy) (i := i) (j := i + 1) (s.im.f i) hi hi1
        rw [show ((i : Int) + 1) = ((i + 1 : Nat) : Int) by omega, e]
        refine wp_of_eq_ok rfl ⟨k1, _, m'.at_shows, fun x y hx hy => ?_⟩
        rw [k2 x y hx hy, upd2_eq, hI x y hx hy]
        by_cases hxi : x = i
        · subst hxi
          by_cases hy' : y = x + 1
          · rw [if_pos ⟨rfl, hy'⟩, if_pos ⟨hy', c1, by omega⟩]
          · split_ifs <;> first | rfl | (exfalso; omega)
        · rw [if_neg (by omega)]
          simp only [show (x < i + 1) = (x < i) from propext (by omega)]
      · rw [if_neg c1]
        by_cases c2 : compareTo (s.im.f i) Flt.zero epsEd < 0
        · rw [if_pos c2]
          have hi1 := h2 i hi c2
          obtain ⟨m', e, k1, k2⟩ := Mat.put_dense hm (A := A)
            (fun x y hx hy => m.at_shows.unique hA hx hy) (i := i) (j := i - 1) (s.im.f i) hi (by omega)
          rw [show ((i : Int) - 1) = ((i - 1 : Nat) : Int) by omega, e]
          refine wp_of_eq_ok rfl ⟨k1, _, m'.at_shows, fun x y hx hy => ?_⟩
          rw [k2 x y hx hy, upd2_eq, hI x y hx hy]
          by_cases hxi : x = i
          · subst hxi
            by_cases hy' : y + 1 = x
            · rw [if_pos ⟨rfl, by omega⟩, if_neg (by omega), if_pos ⟨hy', c2, by omega⟩]
            · split_ifs <;> first | rfl | (exfalso; omega)
          · rw [if_neg (by omega)]
            simp only [show (x < i + 1) = (x < i) from propext (by omega)]
        · rw [if_neg c2]
          refine wp_of_eq_ok rfl ⟨hm, _, hA, fun x y hx hy => ?_⟩
          rw [hI x y hx hy]
          by_cases hxi : x = i
          · subst hxi
            split_ifs <;> first | rfl | (exfalso; omega)
          · simp only [show (x < i + 1) = (x < i) from propext (by omega)]))
  refine ⟨m', ?_, Mat.dense_own h3, h4.congr fun i j hi hj => ?_⟩
  · unfold Eig.dMat
    rw [e, must_ok, ok_bind]
    erw [e']
    rfl
  · rw [h5 i j hi hj]
    simp only [hi, and_true]

end free

/-! ## The symmetric case in exact arithmetic -/

section exact

variable {K : Type} [Field K] [LinearOrder K] [IsStrictOrderedRing K] [Flt K] [Exact K] [ExactSqrt K] {n : Nat}

/-- The columns of `V` are orthonormal, and with the values `l` they make up the matrix `M`, so that column `k`
is an eigenvector of `M` for `l k`. -/
def Spec.Spectral (V : Nat → Nat → K) (l : Nat → K) (M : Matrix (Fin n) (Fin n) K) : Prop :=
  (mx n n V)ᵀ * mx n n V = 1 ∧ mx n n V * Matrix.diagonal (fun i : Fin n => l i) * (mx n n V)ᵀ = M

theorem mx_dg (l : Nat → K) : mx n n (Eig.dg l) = Matrix.diagonal (fun i : Fin n => l i) := by
  ext i j
  show Eig.dg l i j = _
  unfold Eig.dg
  rw [Matrix.diagonal_apply]
  simp only [Fin.ext_iff]

/-- **C41.** Decomposition of a square matrix as symmetric. With `S` the symmetric matrix that has the upper
triangle of the argument:
* all imaginary parts are zero and the eigenvalues do not increase;
* the vectors and eigenvalues are exactly those of a matrix `M`;
* `M` differs from `S` by at most `sqrt (8 n) * eps` times the norm of `S` (Frobenius norm). The difference comes
  only from the two removals of small numbers, before and after the iteration. -/
theorem C41_decomposition {eps : K} (heps : 0 ≤ eps) {a : Mat K n n} (ha : a.own) (hn : 0 < n)
    {A : Nat → Nat → K} (hA : Shows a.at n n A) {s : Eig K n} (h : Eig.newSym eps a = .ok s) :
    s.sym = true ∧ (∀ i, i < n → s.im.f i = 0) ∧ (∀ i j, i < j → j < n → s.re.f j ≤ s.re.f i) ∧
      ∃ M : Matrix (Fin n) (Fin n) K, Spectral (fun i k => s.vec.f k i) s.re.f M ∧
        fro2 (M - mx n n (symU A)) ≤ 8 * n * eps ^ 2 * fro2 (mx n n (symU A)) := by
  obtain ⟨t, et, mq, mqt, mt, Q, T, eq, -, -, hdq, -, -, hQ, -, -, hp, ho, -, hT, hTd, hmain, hsec⟩ :=
    C37_factors ha hn hA
  obtain ⟨z, ez, hz⟩ := Schur.tab_ok hdq hn hQ
  unfold Eig.newSym at h
  rw [et, ok_bind, eq, ok_bind, ez, ok_bind] at h
  have hzQ : mx n n z.f = mx n n Q := mx_congr hz
  have hTT : mx n n (Tri.tEnt t.main.f t.sec.f) = mx n n T := by
    refine mx_congr fun i j hi hj => ?_
    unfold Tri.tEnt
    by_cases c1 : i = j
    · subst c1; rw [if_pos rfl, hmain i hi]
    · rw [if_neg c1]
      by_cases c2 : i = j + 1
      · subst c2; rw [if_pos rfl, hsec j hi, hT]
      · rw [if_neg c2]
        by_cases c3 : j = i + 1
        · subst c3; rw [if_pos rfl, hsec i hj]
        · rw [if_neg c3, Exact.zero_eq, hTd i j hi hj (by omega)]
  obtain ⟨h1, h2, h3, h4, h5⟩ := Eig.findSym_error heps hn (by omega) (by rw [hzQ, ho]) h
    (S := mx n n (symU A)) (by rw [hzQ, hTT, hp])
  refine ⟨h1, fun i _ => h2 i, h4, _, ⟨mul_eq_one_comm.1 h3, rfl⟩, ?_⟩
  rw [← mx_dg]
  exact h5

/-- **C41, pairing.** Each eigenvector has length one and belongs to its eigenvalue: `S v` and `l v` differ by at
most `sqrt (8 n) * eps` times the norm of `S`. -/
theorem C41_pairs {eps : K} (heps : 0 ≤ eps) {a : Mat K n n} (ha : a.own) (hn : 0 < n)
    {A : Nat → Nat → K} (hA : Shows a.at n n A) {s : Eig K n} (h : Eig.newSym eps a = .ok s)
    {k : Nat} (hk : k < n) :
    (∑ i ∈ range n, s.vec.f k i ^ 2 = 1) ∧
      ∑ i ∈ range n, (∑ j ∈ range n, symU A i j * s.vec.f k j - s.re.f k * s.vec.f k i) ^ 2 ≤
        8 * n * eps ^ 2 * fro2 (mx n n (symU A)) := by
  obtain ⟨-, -, -, M, ⟨ho, hM⟩, hE⟩ := C41_decomposition heps ha hn hA h
  refine ⟨?_, ?_⟩
  · have := congrFun (congrFun ho ⟨k, hk⟩) ⟨k, hk⟩
    rw [Matrix.mul_apply, Matrix.one_apply_eq] at this
    rw [← this, ← Fin.sum_univ_eq_sum_range fun i => s.vec.f k i ^ 2]
    exact Finset.sum_congr rfl fun i _ => sq _
  · refine le_trans ?_ hE
    have hMV : M * mx n n (fun i k => s.vec.f k i) =
        mx n n (fun i k => s.vec.f k i) * Matrix.diagonal (fun i : Fin n => s.re.f i) := by
      rw [← hM, Matrix.mul_assoc, ho, Matrix.mul_one]
    rw [← fro2_mul_right (M - mx n n (symU A)) (Q := mx n n (fun i k => s.vec.f k i)) (mul_eq_one_comm.1 ho)]
    refine le_trans (le_of_eq ?_) (fro2_col _ ⟨k, hk⟩)
    rw [← Fin.sum_univ_eq_sum_range
      fun i => (∑ j ∈ range n, symU A i j * s.vec.f k j - s.re.f k * s.vec.f k i) ^ 2]
    refine Finset.sum_congr rfl fun i _ => ?_
    rw [Matrix.sub_mul, hMV, Matrix.sub_apply, Matrix.mul_diagonal, Matrix.mul_apply]
    have : ∑ j : Fin n, mx n n (symU A) i j * mx n n (fun i k => s.vec.f k i) j ⟨k, hk⟩ =
        ∑ j ∈ range n, symU A i j * s.vec.f k j := by
      rw [← Fin.sum_univ_eq_sum_range fun j => symU A i j * s.vec.f k j]
      rfl
    rw [this]
    show _ = (s.vec.f k i * s.re.f k - _) ^ 2
    ring

/-- **C41, exact case.** When nothing is removed (tolerance zero) the symmetric matrix itself is reproduced. -/
theorem C41_exact {a : Mat K n n} (ha : a.own) (hn : 0 < n)
    {A : Nat → Nat → K} (hA : Shows a.at n n A) {s : Eig K n} (h : Eig.newSym 0 a = .ok s) :
    Spectral (fun i k => s.vec.f k i) s.re.f (mx n n (symU A)) := by
  obtain ⟨-, -, -, M, hM, hE⟩ := C41_decomposition (le_refl 0) ha hn hA h
  have : M - mx n n (symU A) = 0 := fro2_zero_iff _ (hE.trans (by simp))
  rwa [sub_eq_zero.1 this] at hM

/-- **C41.** Decomposition of the symmetric tridiagonal matrix `T` with given diagonals: sorted real eigenvalues, and the
vectors and eigenvalues are exactly those of a matrix that differs from `T` by at most `sqrt (8 n) * eps` times its norm. -/
theorem C41_tridiagonal {l : Nat} {eps : K} (heps : 0 ≤ eps) {main : Row K n} {sec : Row K l} (hn : 0 < n) (hl : n - 1 ≤ l)
    {T : Nat → Nat → K} (h1 : ∀ i, i < n → T i i = main.f i)
    (h2 : ∀ i, i + 1 < n → T i (i + 1) = sec.f i ∧ T (i + 1) i = sec.f i)
    (h3 : ∀ i j, i < n → j < n → i + 1 < j ∨ j + 1 < i → T i j = 0) {s : Eig K n} (h : Eig.ofTri eps main sec = .ok s) :
    s.sym = true ∧ (∀ i, i < n → s.im.f i = 0) ∧ (∀ i j, i < j → j < n → s.re.f j ≤ s.re.f i) ∧
      ∃ M : Matrix (Fin n) (Fin n) K, Spectral (fun i k => s.vec.f k i) s.re.f M ∧
        fro2 (M - mx n n T) ≤ 8 * n * eps ^ 2 * fro2 (mx n n T) := by
  obtain ⟨z, hz, e⟩ := Eig.ofTri_eq eps main sec
  rw [e] at h
  have hz1 : mx n n z.f = 1 := by
    ext i j
    show z.f i j = _
    rw [hz i j i.2 j.2, Matrix.one_apply, Exact.one_eq, Exact.zero_eq]
    simp only [Fin.ext_iff]
  have hTT : mx n n (Tri.tEnt main.f sec.f) = mx n n T := by
    refine mx_congr fun i j hi hj => ?_
    unfold Tri.tEnt
    by_cases c1 : i = j
    · subst c1; rw [if_pos rfl, h1 i hi]
    · rw [if_neg c1]
      by_cases c2 : i = j + 1
      · subst c2; rw [if_pos rfl, (h2 j hi).2]
      · rw [if_neg c2]
        by_cases c3 : j = i + 1
        · subst c3; rw [if_pos rfl, (h2 i hj).1]
        · rw [if_neg c3, Exact.zero_eq, h3 i j hi hj (by omega)]
  obtain ⟨g1, g2, g3, g4, g5⟩ := Eig.findSym_error heps hn hl (by rw [hz1]; simp) h (S := mx n n T)
    (by rw [hz1, hTT]; simp)
  refine ⟨g1, fun i _ => g2 i, g4, _, ⟨mul_eq_one_comm.1 g3, rfl⟩, ?_⟩
  rw [← mx_dg]
  exact g5

/-- **C42, diagonal case.** In exact arithmetic the constructor from two diagonals succeeds for every size when the
secondary diagonal is zero. -/
theorem C42_diagonal {l : Nat} (eps : K) (main : Row K n) (sec : Row K l) (hn : 0 < n) (hl : n - 1 ≤ l)
    (h0 : ∀ i, i + 1 < n → sec.f i = 0) : ∃ s, Eig.ofTri eps main sec = .ok s := by
  obtain ⟨z, -, e⟩ := Eig.ofTri_eq eps main sec
  rw [e]
  obtain ⟨s0, s1, e0, e1, hc⟩ := Eig.findSym_ok eps main sec z hn hl
  obtain ⟨s0', e0', d1, d2, d3⟩ := Eig.diagonals_ok hn hl main sec
  rw [e0] at e0'
  cases Except.ok.inj e0'
  have hs0 : ∀ i, i < n → s0.2.f i = 0 := fun i hi => by
    by_cases h1 : i < n - 1
    · rw [d2 i h1, h0 i (by omega)]
    · rw [show i = n - 1 by omega, d3, Exact.zero_eq]
  have hs1 : ∀ i, i < n → s1.2.f i = 0 := by
    obtain ⟨mx', s1', -, e1', hs⟩ := Eig.null2_ok eps s0
    rw [e1] at e1'
    cases Except.ok.inj e1'
    rcases hs with ⟨-, rfl⟩ | ⟨-, -, g2⟩
    · exact hs0
    · intro i hi
      rw [g2 i hi]
      unfold Eig.cutV
      split
      · exact Exact.zero_eq
      · exact hs0 i hi
  rcases hc with ⟨f, hf, -⟩ | ⟨x, y, d, v, -, -, -, -, hg⟩
  · rw [Eig.iter_done ⟨z, s1.1, s1.2⟩ fun j hj => hs1 j (by omega)] at hf
    cases hf
  · exact ⟨_, hg⟩

/-- **C41 and C42, size two.** In exact arithmetic every matrix of size two is decomposed. -/
theorem C42_two (eps : K) {a : Mat K 2 2} (ha : a.own) : ∃ s, Eig.newSym eps a = .ok s := by
  have : ZeroLaws K := inferInstance
  obtain ⟨t, M, z, -, -, -, -, e⟩ := Eig.newSym_eq eps ha (by omega)
  rw [e]
  exact Eig.findSym_of_iter eps t.main t.sec z (by omega) (by omega) fun x _ => Eig.iter_two x

end exact

/-- Concrete case for C41 and C42: the diagonals (2, 2) and (1) have a decomposition. -/
example : ∃ s : Eig ℝ 2, Eig.ofTri 0 (⟨fun _ => 2⟩ : Row ℝ 2) (⟨fun _ => 1⟩ : Row ℝ 1) = .ok s := by
  obtain ⟨z, -, e⟩ := Eig.ofTri_eq (n := 2) (0 : ℝ) (⟨fun _ => 2⟩ : Row ℝ 2) (⟨fun _ => 1⟩ : Row ℝ 1)
  rw [e]
  exact Eig.findSym_of_iter _ _ _ z (by omega) (by omega) fun x _ => Eig.iter_two x

end Linear
