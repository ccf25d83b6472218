import Verif.Lemmas.RoundLU

/-!
# C82, C83: the LU decomposition and its solver in rounded arithmetic

`u` is the unit round-off, `η` half of the smallest positive number and
`gam n = (1 + u)ⁿ - 1`, about `n u`.  Nothing is assumed about overflow except that the results the
theorem speaks of are finite.  `ninf` is `math.Inf(-1)`; all that is used of it is that it is below
every finite magnitude.
-/

set_option linter.unusedSectionVars false

namespace Linear

open Spec Rnd
open Finset hiding val diag

variable {α : Type} [Flt α] {n : Nat}

/-! ## Specification -/

/-- Ones on the diagonal, zeros above (floating-point numbers). -/
def Spec.UnitLowerF (n : Nat) (L : Nat → Nat → α) : Prop :=
  (∀ i, i < n → L i i = Flt.one) ∧ ∀ i j, i < n → j < n → i < j → L i j = Flt.zero

/-- Zeros below the diagonal. -/
def Spec.UpperF (n : Nat) (U : Nat → Nat → α) : Prop :=
  ∀ i j, i < n → j < n → j < i → U i j = Flt.zero

/-- The pivot array is the permutation `σ`. -/
def Spec.PivotIs (l : List Nat) (σ : Equiv.Perm (Fin n)) : Prop :=
  l.length = n ∧ ∀ i : Fin n, l[(i : Nat)]? = some (σ i : Nat)

theorem LU.pivots_is {d : LU α n n} {σ : Equiv.Perm (Fin n)} (h : ∀ i : Fin n, d.pivot.f i = σ i) :
    PivotIs d.pivots σ := by
  refine ⟨(Row.toList_isList d.pivot).1, fun i => ?_⟩
  rw [← h i]
  exact (Row.toList_isList d.pivot).2 i i.2

theorem LU.pivots_unique {l : List Nat} {σ τ : Equiv.Perm (Fin n)} (h : PivotIs l σ)
    (h' : PivotIs l τ) : σ = τ := by
  ext i
  have := (h.2 i).symm.trans (h'.2 i)
  simpa using this

theorem LU.lf_shows {d : LU α n n} (hn : 0 < n) (hs : d.singular = false) {l : Mat α n n}
    {L : Nat → Nat → α} (el : d.l = .ok (some l)) (hl : Shows l.at n n L) {i j : Nat} (hi : i < n)
    (hj : j < n) : L i j = LU.lf d.lu.f i j := by
  obtain ⟨l', el', hl'⟩ := LU.l_ok hn hs
  rw [el] at el'
  cases Except.ok.inj el'
  exact hl.unique hl' hi hj

theorem LU.uf_shows {d : LU α n n} (hn : 0 < n) (hs : d.singular = false) {m : Mat α n n}
    {U : Nat → Nat → α} (eu : d.u = .ok (some m)) (hU : Shows m.at n n U) {i j : Nat} (hi : i < n)
    (hj : j < n) : U i j = LU.uf d.lu.f i j := by
  obtain ⟨l', el', hl'⟩ := LU.u_ok hn hs
  rw [eu] at el'
  cases Except.ok.inj el'
  exact hU.unique hl' hi hj

/-! ## C82 -/

/-- **C82.** In any arithmetic, the factors of a matrix that is not reported singular are those of
Doolittle's recurrence for the permuted matrix, operation by operation: each entry of `U` and of `L`
is the entry of `P A` from which the products of earlier entries are subtracted from left to right,
in `L` divided by the diagonal entry of `U`. -/
theorem C82_recurrence {thr ninf : α} {m : Mat α n n} (hm : m.own) (hn : 0 < n) {A : Nat → Nat → α}
    (hA : Shows m.at n n A) {d : LU α n n} (hd : LU.new thr ninf m = .ok d) (hs : d.singular = false) :
    ∃ (l u p : Mat α n n) (L U P : Nat → Nat → α) (σ : Equiv.Perm (Fin n)),
      d.l = .ok (some l) ∧ d.u = .ok (some u) ∧ d.p = .ok (some p) ∧
      Shows l.at n n L ∧ Shows u.at n n U ∧ Shows p.at n n P ∧ PivotIs d.pivots σ ∧
      (∀ i j : Fin n, P i j = if σ i = j then Flt.one else Flt.zero) ∧
      UnitLowerF n L ∧ UpperF n U ∧
      (∀ i j : Fin n, i ≤ j →
        U i j = lsub 0 i (fun k => Flt.mul (L i k) (U k j)) (A (σ i) j)) ∧
      ∀ i j : Fin n, j < i →
        L i j = Flt.div (lsub 0 j (fun k => Flt.mul (L i k) (U k j)) (A (σ i) j)) (U j j) := by
  obtain ⟨d', e, h⟩ := LU.new_bits (thr := thr) (ninf := ninf) hm hn hA
  obtain rfl : d' = d := by rw [hd] at e; exact (Except.ok.inj e).symm
  obtain ⟨-, ⟨σ, hσ⟩, hI⟩ := h.resolve_right (by simp [hs])
  obtain ⟨l, el, hl⟩ := LU.l_ok hn hs
  obtain ⟨u, eu, hu⟩ := LU.u_ok hn hs
  obtain ⟨p, ep, hp⟩ := LU.p_ok hn hs hσ.1
  refine ⟨l, u, p, LU.lf d'.lu.f, LU.uf d'.lu.f, _, σ, el, eu, ep, hl, hu, hp, LU.pivots_is hσ.1, ?_, ?_,
    ?_, ?_, ?_⟩
  · intro i j
    rw [hσ.1]
    simp [Fin.ext_iff]
  · refine ⟨fun i _ => by simp [LU.lf], fun i j _ _ h => ?_⟩
    unfold LU.lf
    rw [if_neg (by omega), if_neg (by omega)]
  · intro i j _ _ h
    unfold LU.uf
    rw [if_neg (by omega)]
  · intro i j hij
    have hij' : (i : Nat) ≤ j := hij
    rw [← hσ.1, show LU.uf d'.lu.f i j = d'.lu.f i j from if_pos hij', hI.up i j i.2 j.2 j.2 hij]
    refine lsub_congr fun x _ hx => ?_
    unfold LU.lf LU.uf
    rw [if_pos hx, if_pos (by omega)]
  · intro i j hij
    have hij' : (j : Nat) < i := hij
    rw [← hσ.1, show LU.lf d'.lu.f i j = d'.lu.f i j from if_pos hij', hI.lo i j i.2 j.2 j.2 hij,
      show LU.uf d'.lu.f j j = d'.lu.f j j from if_pos le_rfl]
    congr 1
    refine lsub_congr fun x _ hx => ?_
    unfold LU.lf LU.uf
    rw [if_pos (by omega), if_pos (by omega)]

section round

variable [Rnd α]

/-- **C82.** When the factors are finite, the matrix is finite, the entries of `L` have magnitude at
most 1, and `L U` differs from `P A` by at most `gam n · |L||U|` in each entry, plus a term for
underflow. -/
theorem C82_backward {thr ninf : α} (hinf : ∀ x, fin x → Flt.lt ninf (Flt.abs x) = true)
    {m : Mat α n n} (hm : m.own) (hn : 0 < n) {A : Nat → Nat → α} (hA : Shows m.at n n A)
    {d : LU α n n} (hd : LU.new thr ninf m = .ok d) (hs : d.singular = false)
    {l r : Mat α n n} {L U : Nat → Nat → α} (el : d.l = .ok (some l)) (eu : d.u = .ok (some r))
    (hL : Shows l.at n n L) (hU : Shows r.at n n U)
    (hfin : ∀ i j, i < n → j < n → fin (L i j) ∧ fin (U i j)) :
    ∃ σ : Equiv.Perm (Fin n), PivotIs d.pivots σ ∧ (∀ i j, i < n → j < n → fin (A i j)) ∧
      (∀ i j, i < n → j < n → |val (L i j)| ≤ 1) ∧
      ∀ i j : Fin n, |∑ k ∈ range n, val (L i k) * val (U k j) - val (A (σ i) j)| ≤
        gam α n * ∑ k ∈ range n, |val (L i k)| * |val (U k j)| +
        (1 + u α) ^ n * (n + |val (U j j)|) * η α := by
  obtain ⟨d', e, h⟩ := LU.new_round (thr := thr) hinf hm hn hA
  obtain rfl : d' = d := by rw [hd] at e; exact (Except.ok.inj e).symm
  obtain ⟨-, ⟨σ, hσ⟩, hI, hS⟩ := h.resolve_right (by simp [hs])
  have eL : ∀ i j, i < n → j < n → L i j = LU.lf d'.lu.f i j := fun i j => LU.lf_shows hn hs el hL
  have eU : ∀ i j, i < n → j < n → U i j = LU.uf d'.lu.f i j := fun i j => LU.uf_shows hn hs eu hU
  have hf : ∀ i j, i < n → j < n → fin (d'.lu.f i j) := by
    intro i j hi hj
    obtain ⟨h1, h2⟩ := hfin i j hi hj
    rw [eL i j hi hj] at h1
    rw [eU i j hi hj] at h2
    unfold LU.lf at h1
    unfold LU.uf at h2
    by_cases e : i ≤ j
    · rwa [if_pos e] at h2
    · rwa [if_pos (by omega)] at h1
  refine ⟨σ, LU.pivots_is hσ.1, fun i j hi hj => ?_, fun i j hi hj => ?_, fun i j => ?_⟩
  · have h1 := (hI.err hf (σ.symm ⟨i, hi⟩).2 hj).1
    rw [hσ.1, Equiv.apply_symm_apply] at h1
    exact h1
  · rw [eL i j hi hj]
    unfold LU.lf
    split
    · rename_i h
      exact hS j hj (fun x _ hx => hf x j hx hj) i h hi
    · split
      · rw [val_one, abs_one]
      · rw [val_zero, abs_zero]; exact zero_le_one
  · have h1 := (hI.err hf i.2 j.2).2
    rw [hσ.1, ← eU j j j.2 j.2] at h1
    have e1 : ∑ k ∈ range n, val (L i k) * val (U k j) =
        ∑ k ∈ range n, val (LU.lf d'.lu.f i k) * val (LU.uf d'.lu.f k j) :=
      sum_congr rfl fun k hk => by rw [eL i k i.2 (mem_range.1 hk), eU k j (mem_range.1 hk) j.2]
    have e2 : ∑ k ∈ range n, |val (L i k)| * |val (U k j)| =
        ∑ k ∈ range n, |val (LU.lf d'.lu.f i k)| * |val (LU.uf d'.lu.f k j)| :=
      sum_congr rfl fun k hk => by rw [eL i k i.2 (mem_range.1 hk), eU k j (mem_range.1 hk) j.2]
    rw [e1, e2]
    exact h1

/-! ## C83 -/

/-- The bound on the residual in row `i`. -/
noncomputable def Spec.luBound (n : Nat) (L U : Nat → Nat → α) (x : Nat → α) (i : Nat) : ℝ :=
  gam α (3 * n) * ∑ j ∈ range n, (∑ k ∈ range n, |val (L i k)| * |val (U k j)|) * |val (x j)| +
  (1 + u α) ^ n * (∑ j ∈ range n, (n + |val (U j j)|) * |val (x j)| +
    (1 + u α) ^ n * ∑ k ∈ range n, |val (L i k)| * (n + |val (U k k)|) + n) * η α

theorem luBound_congr {L U L' U' : Nat → Nat → α} {x : Nat → α} {i : Nat} (hi : i < n)
    (hL : ∀ i j, i < n → j < n → L i j = L' i j) (hU : ∀ i j, i < n → j < n → U i j = U' i j) :
    luBound n L U x i = luBound n L' U' x i := by
  unfold luBound
  have e1 : ∑ j ∈ range n, (∑ k ∈ range n, |val (L i k)| * |val (U k j)|) * |val (x j)| =
      ∑ j ∈ range n, (∑ k ∈ range n, |val (L' i k)| * |val (U' k j)|) * |val (x j)| :=
    sum_congr rfl fun j hj => by
      congr 1
      exact sum_congr rfl fun k hk => by
        rw [hL i k hi (mem_range.1 hk), hU k j (mem_range.1 hk) (mem_range.1 hj)]
  have e2 : ∑ j ∈ range n, ((n : ℝ) + |val (U j j)|) * |val (x j)| =
      ∑ j ∈ range n, ((n : ℝ) + |val (U' j j)|) * |val (x j)| :=
    sum_congr rfl fun j hj => by rw [hU j j (mem_range.1 hj) (mem_range.1 hj)]
  have e3 : ∑ k ∈ range n, |val (L i k)| * ((n : ℝ) + |val (U k k)|) =
      ∑ k ∈ range n, |val (L' i k)| * ((n : ℝ) + |val (U' k k)|) :=
    sum_congr rfl fun k hk => by
      rw [hL i k hi (mem_range.1 hk), hU k k (mem_range.1 hk) (mem_range.1 hk)]
  rw [e1, e2, e3]

/-- The two theorems below from the substitutions. -/
theorem LU.solved {m : Mat α n n} {thr ninf : α} (hm : m.own) (hn : 0 < n) {A : Nat → Nat → α}
    (hA : Shows m.at n n A) {d : LU α n n} (hd : LU.new thr ninf m = .ok d) (hs : d.singular = false)
    {l r : Mat α n n} {L U : Nat → Nat → α} (el : d.l = .ok (some l)) (eu : d.u = .ok (some r))
    (hL : Shows l.at n n L) (hU : Shows r.at n n U) {σ : Equiv.Perm (Fin n)} (hσ : PivotIs d.pivots σ)
    {b x y : Nat → α} (h : LU.Subst n d.lu.f (fun i => b (d.pivot.f i)) y x)
    (hx : ∀ i, i < n → fin (x i)) (hdg : ∀ i, i < n → fin (U i i)) :
    (∀ i j, i < n → j < n → fin (A i j)) ∧ (∀ i, i < n → fin (b i)) ∧ (∀ i, i < n → val (U i i) ≠ 0) ∧
    ∀ i : Fin n, |∑ j ∈ range n, val (A (σ i) j) * val (x j) - val (b (σ i))| ≤ luBound n L U x i := by
  obtain ⟨d', e, h'⟩ := LU.new_bits (thr := thr) (ninf := ninf) hm hn hA
  obtain rfl : d' = d := by rw [hd] at e; exact (Except.ok.inj e).symm
  obtain ⟨-, ⟨τ, hτ⟩, hI⟩ := h'.resolve_right (by simp [hs])
  obtain rfl := LU.pivots_unique hσ (LU.pivots_is hτ.1)
  have eL : ∀ i j, i < n → j < n → L i j = LU.lf d'.lu.f i j := fun i j => LU.lf_shows hn hs el hL
  have eU : ∀ i j, i < n → j < n → U i j = LU.uf d'.lu.f i j := fun i j => LU.uf_shows hn hs eu hU
  have hf := h.fins (fun i hi => by
    have := hdg i hi
    rw [eU i i hi hi] at this
    unfold LU.uf at this
    rwa [if_pos le_rfl] at this) hx
  refine ⟨fun i j hi hj => ?_, fun i hi => ?_, fun i hi => ?_, fun i => ?_⟩
  · have h1 := (hI.err hf (σ.symm ⟨i, hi⟩).2 hj).1
    rw [hτ.1, Equiv.apply_symm_apply] at h1
    exact h1
  · have h1 := ((h.err hf hx).1 _ (σ.symm ⟨i, hi⟩).2).1
    rw [hτ.1, Equiv.apply_symm_apply] at h1
    exact h1
  · rw [eU i i hi hi, show LU.uf d'.lu.f i i = d'.lu.f i i from if_pos le_rfl]
    exact ((h.err hf hx).1 i hi).2.1
  · rw [luBound_congr i.2 eL eU, ← hτ.1]
    exact LU.Subst.residual hI h hf hx i.2

/-- **C83.** `SolveVector`: when the result and the diagonal of `U` are finite, so are the matrix and the
right-hand side, and the residual is small. -/
theorem C83_vector {m : Mat α n n} {thr ninf : α} (hm : m.own) (hn : 0 < n) {A : Nat → Nat → α}
    (hA : Shows m.at n n A) {d : LU α n n} (hd : LU.new thr ninf m = .ok d) (hs : d.singular = false)
    {l r : Mat α n n} {L U : Nat → Nat → α} (el : d.l = .ok (some l)) (eu : d.u = .ok (some r))
    (hL : Shows l.at n n L) (hU : Shows r.at n n U) {σ : Equiv.Perm (Fin n)} (hσ : PivotIs d.pivots σ)
    {v : RVec α} (hv : v.dim = n) {b : Nat → α} (hb : IsList v.list n b) :
    ∃ z x, d.solveVector v = .ok z ∧ IsList z n x ∧
      ((∀ i, i < n → fin (x i)) → (∀ i, i < n → fin (U i i)) →
        (∀ i j, i < n → j < n → fin (A i j)) ∧ (∀ i, i < n → fin (b i)) ∧
        (∀ i, i < n → val (U i i) ≠ 0) ∧
        ∀ i : Fin n, |∑ j ∈ range n, val (A (σ i) j) * val (x j) - val (b (σ i))| ≤
          luBound n L U x i) := by
  have hp : ∀ i : Fin n, d.pivot.f i = σ i := fun i => by
    have h1 := hσ.2 i
    have h2 := (Row.toList_isList d.pivot).2 i i.2
    exact Option.some.inj (h2.symm.trans h1)
  obtain ⟨x, y, ex, hl, hS⟩ := LU.solveVector_bits hs hp hv
  refine ⟨x, nth x, ex, hl ▸ isList_nth x, fun hx hdg => ?_⟩
  have hnb : ∀ i, i < n → nth v.list i = b i := fun i hi => by
    have := hb.2 i hi
    simp [nth, this]
  refine LU.solved hm hn hA hd hs el eu hL hU hσ (b := b) (y := y)
    ⟨fun i hi => ?_, hS.bwd⟩ hx hdg
  have h1 := hS.fwd i hi
  rwa [hnb _ (by rw [hp ⟨i, hi⟩]; exact (σ ⟨i, hi⟩).2)] at h1

/-- **C83.** `SolveMatrix`, column by column. -/
theorem C83_matrix {m : Mat α n n} {thr ninf : α} (hm : m.own) (hn : 0 < n) {A : Nat → Nat → α}
    (hA : Shows m.at n n A) {d : LU α n n} (hd : LU.new thr ninf m = .ok d) (hs : d.singular = false)
    {l r : Mat α n n} {L U : Nat → Nat → α} (el : d.l = .ok (some l)) (eu : d.u = .ok (some r))
    (hL : Shows l.at n n L) (hU : Shows r.at n n U) {σ : Equiv.Perm (Fin n)} (hσ : PivotIs d.pivots σ)
    {q : Nat} (hq : 0 < q) {b : Mat α n q} {B : Nat → Nat → α} (hB : Shows b.at n q B) :
    ∃ (x : Mat α n q) (X : Nat → Nat → α), d.solveMatrix b = .ok ⟨n, q, x⟩ ∧ x.own ∧ Shows x.at n q X ∧
      ∀ j, j < q → (∀ i, i < n → fin (X i j)) → (∀ i, i < n → fin (U i i)) →
        (∀ i j, i < n → j < n → fin (A i j)) ∧ (∀ i, i < n → fin (B i j)) ∧
        (∀ i, i < n → val (U i i) ≠ 0) ∧
        ∀ i : Fin n, |∑ k ∈ range n, val (A (σ i) k) * val (X k j) - val (B (σ i) j)| ≤
          luBound n L U (fun k => X k j) i := by
  have hp : ∀ i : Fin n, d.pivot.f i = σ i := fun i => by
    have h1 := hσ.2 i
    have h2 := (Row.toList_isList d.pivot).2 i i.2
    exact Option.some.inj (h2.symm.trans h1)
  obtain ⟨x, X, Y, ex, hx, hX, hS⟩ := LU.solveMatrix_bits hs hp hn hq hB
  refine ⟨x, X, ex, hx, hX, fun j hj hfx hdg => ?_⟩
  exact LU.solved hm hn hA hd hs el eu hL hU hσ (b := fun i => B i j) (hS j hj) hfx hdg

/-- **C83.** `Inverse`: the residual of each column. -/
theorem C83_inverse {m : Mat α n n} {thr ninf : α} (hm : m.own) (hn : 0 < n) {A : Nat → Nat → α}
    (hA : Shows m.at n n A) {d : LU α n n} (hd : LU.new thr ninf m = .ok d) (hs : d.singular = false)
    {l r : Mat α n n} {L U : Nat → Nat → α} (el : d.l = .ok (some l)) (eu : d.u = .ok (some r))
    (hL : Shows l.at n n L) (hU : Shows r.at n n U) {σ : Equiv.Perm (Fin n)} (hσ : PivotIs d.pivots σ) :
    ∃ (x : Mat α n n) (X : Nat → Nat → α), d.inverse = .ok ⟨n, n, x⟩ ∧ x.own ∧ Shows x.at n n X ∧
      ∀ j, j < n → (∀ i, i < n → fin (X i j)) → (∀ i, i < n → fin (U i i)) →
        ∀ i : Fin n, |∑ k ∈ range n, val (A (σ i) k) * val (X k j) - (if (σ i : Nat) = j then 1 else 0)| ≤
          luBound n L U (fun k => X k j) i := by
  obtain ⟨e, ee, -, he⟩ := (C03_identity (α := α) (n : Int)).1 (by omega)
  obtain ⟨x, X, ex, hx, hX, h⟩ := C83_matrix hm hn hA hd hs el eu hL hU hσ hn (b := e) he
  refine ⟨x, X, ?_, hx, hX, fun j hj h1 h2 i => ?_⟩
  · unfold LU.inverse
    refine (congrArg (fun x : Res (Mat α n n) => x.must >>= fun m => d.solveMatrix m) ee :).trans ?_
    rw [must_ok, ok_bind, ex]
  · have h3 := (h j hj h1 h2).2.2.2 i
    have e4 : val (if (σ i : Nat) = j then (Flt.one : α) else Flt.zero) = if (σ i : Nat) = j then 1 else 0 := by
      split
      · exact val_one
      · exact val_zero
    rwa [← e4]

end round

/-! ## A case in binary64 -/

/-- With a threshold no magnitude is below, no matrix is reported singular. -/
theorem LU.new_regular {thr ninf : α} (ht : ∀ x : α, Flt.lt (Flt.abs x) thr = false) {m : Mat α n n}
    (hm : m.own) (hn : 0 < n) {A : Nat → Nat → α} (hA : Shows m.at n n A) :
    ∃ d, LU.new thr ninf m = .ok d ∧ d.singular = false := by
  obtain ⟨d, e, h⟩ := LU.new_wp (thr := thr) (ninf := ninf) hm hn hA
    (fun _ s => s.singular = false ∧ ∃ σ, s.Piv σ) (fun _ => False)
    (fun s h1 h2 _ _ => ⟨h1, _, h2⟩) (by
      rintro k s hk ⟨hs, σ, hσ⟩
      unfold LU.step
      obtain ⟨t, et, -, -⟩ := LU.upper_ok hk s.lu
      obtain ⟨t', p, el, b2, -, -⟩ := LU.lower_ok (fun _ p => p.1 < n)
        (ninf := ninf) hk t hk (fun row p h1 h2 h3 => by
          dsimp only
          split
          · exact h2
          · exact h3)
      rw [et, ok_bind, el, ok_bind]
      dsimp only
      rw [wp_bind, wp_tget b2 hk]
      rw [if_neg (by rw [ht]; simp)]
      obtain ⟨s', es, p1, p2, p3, p4⟩ := LU.doPivot_ok b2 hk { s with lu := t' }
      obtain ⟨t'', ed, d1, d2⟩ := LU.divide_ok hk s'.lu
      rw [es, ok_bind, ed]
      exact ⟨p4.trans hs, _, hσ.swap (s' := { s' with lu := t'' }) b2 hk p2 p3⟩)
  exact ⟨d, e, (h.resolve_right id).1⟩

/-- The matrix of the case below: 2 1 / 2 4. -/
noncomputable def LU.caseA (i j : Nat) : B64 :=
  if j = 0 then B64.int 2 else if i = 0 then B64.int 1 else B64.int 4

/-- Integers stay finite. -/
theorem LU.case_fin (f : Nat → Nat → B64) (p : Nat → Nat) (h : LU.RInv 2 LU.caseA p 2 f) :
    ∀ i j, i < 2 → j < 2 → fin (f i j) := by
  have h00 := h.up 0 0 (by omega) (by omega) (by omega) le_rfl
  have h01 := h.up 0 1 (by omega) (by omega) (by omega) (by omega)
  have h10 := h.lo 1 0 (by omega) (by omega) (by omega) (by omega)
  have h11 := h.up 1 1 (by omega) (by omega) (by omega) le_rfl
  rw [lsub_self le_rfl] at h00 h01 h10
  rw [lsub_succ le_rfl, lsub_self le_rfl] at h11
  have e0 : ∀ i, LU.caseA i 0 = B64.int 2 := fun i => rfl
  rw [e0] at h00 h10
  rw [h00, B64.div_int (m := 1) _ _ (by norm_num) (by norm_num) (by norm_num)] at h10
  rw [h10] at h11
  have e1 : ∀ i, LU.caseA i 1 = B64.int 1 ∨ LU.caseA i 1 = B64.int 4 := fun i => by
    unfold LU.caseA
    by_cases e : i = 0 <;> simp [e]
  have f01 : fin (f 0 1) := by
    rw [h01]
    rcases e1 (p 0) with e | e <;> rw [e] <;> exact B64.int_fin _
  have f11 : fin (f 1 1) := by
    rw [h11, h01]
    rcases e1 (p 0) with e | e <;> rcases e1 (p 1) with e' | e' <;>
      rw [e, e', B64.mul_int _ _ (by norm_num), B64.sub_int _ _ (by norm_num)] <;> exact B64.int_fin _
  intro i j hi hj
  have : i = 0 ∨ i = 1 := by omega
  have : j = 0 ∨ j = 1 := by omega
  rcases ‹i = 0 ∨ i = 1› with rfl | rfl <;> rcases ‹j = 0 ∨ j = 1› with rfl | rfl
  · rw [h00]; exact B64.int_fin _
  · exact f01
  · rw [h10]; exact B64.int_fin _
  · exact f11

/-- A matrix of binary64 numbers that meets all hypotheses of C82 and C83. -/
example : ∃ (m : Mat B64 2 2) (d : LU B64 2 2) (l r : Mat B64 2 2) (L U : Nat → Nat → B64),
    m.own ∧ Shows m.at 2 2 LU.caseA ∧ (∀ x : B64, fin x → Flt.lt (B64.inf true) (Flt.abs x) = true) ∧
    LU.new (Flt.zero : B64) (B64.inf true) m = .ok d ∧ d.singular = false ∧
    d.l = .ok (some l) ∧ d.u = .ok (some r) ∧ Shows l.at 2 2 L ∧ Shows r.at 2 2 U ∧
    ∀ i j, i < 2 → j < 2 → fin (L i j) ∧ fin (U i j) := by
  let m : Mat B64 2 2 := .arr ⟨⟨LU.caseA⟩, fun _ => 0⟩
  have hA : Shows m.at 2 2 LU.caseA := (Mat.at_shows m).congr fun i j hi hj => rfl
  have hthr : ∀ x : B64, Flt.lt (Flt.abs x) Flt.zero = false := by
    rintro (⟨x, hx⟩ | _ | _)
    · show decide (|x| < ((0 : ℤ) : ℝ)) = false
      simp
    · rfl
    · rfl
  have hinf : ∀ x : B64, fin x → Flt.lt (B64.inf true) (Flt.abs x) = true := by
    rintro (_ | _ | _) h
    · rfl
    · exact h.elim
    · exact h.elim
  obtain ⟨d, e, hs⟩ := LU.new_regular (ninf := B64.inf true) hthr (m := m) trivial (by omega) hA
  obtain ⟨d', e', h⟩ := LU.new_bits (thr := (Flt.zero : B64)) (ninf := B64.inf true) (m := m) trivial (by omega) hA
  obtain rfl : d' = d := by rw [e] at e'; exact (Except.ok.inj e').symm
  obtain ⟨-, -, hI⟩ := h.resolve_right (by simp [hs])
  have hf := LU.case_fin _ _ hI
  obtain ⟨l, el, hl⟩ := LU.l_ok (by omega) hs
  obtain ⟨r, er, hr⟩ := LU.u_ok (by omega) hs
  refine ⟨m, d', l, r, _, _, trivial, hA, hinf, e, hs, el, er, hl, hr, fun i j hi hj => ⟨?_, ?_⟩⟩
  · split
    · exact hf i j hi hj
    · split
      · exact one_fin
      · exact zero_fin
  · split
    · exact hf i j hi hj
    · exact zero_fin

end Linear
