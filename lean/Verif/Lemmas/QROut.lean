import Verif.Lemmas.QRLemmas
import Verif.Lemmas.CopySub

/-!
# Lemmas on the matrices and solutions computed from a QR decomposition
-/

set_option linter.unusedSectionVars false

namespace Linear

open Spec Finset Matrix

section free

variable {α : Type} [Flt α] {m n p : Nat}

theorem QR.new_wp [ZeroLaws α] {a : Mat α m n} (ha : a.own) (hm : 0 < m) (hn : 0 < n)
    {A : Nat → Nat → α} (hA : Shows a.at m n A) (I : Nat → (Nat → Nat → α) → (Nat → α) → Prop)
    (h0 : ∀ f d, (∀ i j, i < n → j < m → f i j = A j i) → I 0 f d)
    (hs : ∀ k f f' d, k < m → k < n → I k f d → QR.Step k f f' m n (hnorm k m (f k)) →
      I (k + 1) f' (upd1 d k (hnorm k m (f k)))) :
    ∃ s : QR α m n (min m n), QR.new a = .ok s ∧ I (min m n) s.qrt.f s.rDiag.f := by
  obtain ⟨tm, t, e1, e2, h1⟩ := Mat.transData_ok ha hm hA
  unfold QR.new
  rw [Mat.colDim_ok hm, ok_bind, e1, ok_bind, e2, ok_bind, if_neg (by omega)]
  show ∃ s, forUp 0 (min n m) QR.reflect ⟨t, Row.zero _⟩ = .ok s ∧ _
  rw [min_comm n m]
  refine Wp.exists_ok (wp_forUp (fun k (s : QR α m n (min m n)) => I k s.qrt.f s.rDiag.f)
    (Nat.zero_le _) (h0 _ _ h1) ?_)
  intro k s _ hk hI
  obtain ⟨s', e, hd, hf⟩ := QR.reflect_ok (show k < n by omega) (show k < m by omega) hk s
  rw [e]
  have := hs k _ _ s.rDiag.f (by omega) (by omega) hI hf
  show I (k + 1) s'.qrt.f s'.rDiag.f
  rw [hd]
  exact this

/-- The triangular factor, law-free. -/
def QR.rEnt (f : Nat → Nat → α) (d : Nat → α) (i j : Nat) : α :=
  if i < j then f j i else if i = j then d j else Flt.zero

theorem QR.r_ok (hm : 0 < m) (hn : 0 < n) (s : QR α m n (min m n)) :
    ∃ M : Mat α m n, s.r = .ok ⟨m, n, M⟩ ∧ M.dense ∧
      Shows M.at m n (QR.rEnt s.qrt.f s.rDiag.f) := by
  unfold QR.r
  rw [if_neg (by omega)]
  show ∃ M : Mat α m n, (forDown (min m n) 0 _ (Jag.zero m _) >>= _ : Res (SMat α)) = _ ∧ _
  obtain ⟨ra, e, h1, -⟩ := Wp.exists_ok (wp_forDown (E := fun _ : Fault => False) (b := 0) (a := min m n)
    (s := (Jag.zero m _ : Tab α m n)) (body := fun row (ra : Tab α m n) => do
      let ra ← ra.set row row (← s.rDiag.get row)
      forUp (row + 1) n (fun col (ra : Tab α m n) => do ra.set row col (← s.qrt.get col row)) ra)
    (fun k (t : Tab α m n) => (∀ i j, k ≤ i → i < m → j < n → t.f i j = QR.rEnt s.qrt.f s.rDiag.f i j) ∧
      ∀ i j, i < k → t.f i j = Flt.zero) (Nat.zero_le _) (And.intro (by
      intro i j h1 h2 h3
      show Flt.zero = _
      unfold QR.rEnt
      rw [if_neg (by omega), if_neg (by omega)]) (by
      intro i j _; rfl)) (by
      rintro row ra - hr ⟨h1, h2⟩
      rw [Row.get_ok hr, ok_bind, wp_bind, wp_tset (by omega) (by omega)]
      obtain ⟨t', e, h3, h4⟩ := Tab.rowLoop (ε := Fault) (r := m) (c := n) (a := row + 1) (b := n)
        (i := row) (t := (⟨upd2 ra.f row row (s.rDiag.f row)⟩ : Tab α m n)) (fun j _ => s.qrt.f j row)
        (body := fun col (ra : Tab α m n) => do ra.set row col (← s.qrt.get col row)) (by
        intro j t' h3 h4 _
        rw [Tab.get_ok h4 (by omega), ok_bind, Tab.set_ok (by omega) h4])
      rw [e]
      dsimp only at h4
      refine ⟨fun i j h5 h6 h7 => ?_, fun i j hi => ?_⟩
      · by_cases e : i = row
        · subst e
          unfold QR.rEnt
          by_cases e' : i < j
          · rw [if_pos e', h3 j (by omega) h7]
          · rw [if_neg e', h4 i j (by omega), upd2_eq]
            by_cases e'' : i = j
            · rw [if_pos e'', if_pos ⟨rfl, e''.symm⟩, e'']
            · rw [if_neg e'', if_neg (by omega), h2 i j (by omega)]
        · rw [h4 i j (by omega), upd2_eq, if_neg (by omega), h1 i j (by omega) h6 h7]
      · rw [h4 i j (by omega), upd2_eq, if_neg (by omega), h2 i j (by omega)]))
  rw [e, ok_bind]
  obtain ⟨M, e2, h2, h3⟩ := SMat.fromSlices_dense (Jag.toLists_rect ra) hm hn false
  exact ⟨M, by rw [e2]; rfl, h2, h3.congr fun i j hi hj => h1 i j (Nat.zero_le _) hi hj⟩

/-- The reflector matrix, law-free. -/
def QR.hEnt (f : Nat → Nat → α) (d : Nat → α) (i j : Nat) : α :=
  if j ≤ i then Flt.div (f j i) (Flt.neg (d j)) else Flt.zero

theorem QR.h_ok (hm : 0 < m) (hn : 0 < n) (s : QR α m n (min m n)) :
    ∃ M : Mat α m n, s.h = .ok ⟨m, n, M⟩ ∧ M.dense ∧
      Shows M.at m n (QR.hEnt s.qrt.f s.rDiag.f) := by
  unfold QR.h
  rw [if_neg (by omega)]
  show ∃ M : Mat α m n, (forUp 0 m _ (Jag.zero m _) >>= _ : Res (SMat α)) = _ ∧ _
  obtain ⟨ha, e, h1, -⟩ := Wp.exists_ok (wp_forUp (E := fun _ : Fault => False) (a := 0) (b := m)
    (s := (Jag.zero m _ : Tab α m n)) (body := fun i (ha : Tab α m n) =>
      forUp 0 (min (i + 1) n) (fun j (ha : Tab α m n) => do
        ha.set i j (Flt.div (← s.qrt.get j i) (Flt.neg (← s.rDiag.get j)))) ha)
    (fun k (t : Tab α m n) => (∀ i j, i < k → j < n → t.f i j = QR.hEnt s.qrt.f s.rDiag.f i j) ∧
      ∀ i j, k ≤ i → t.f i j = Flt.zero) (Nat.zero_le _) (And.intro (by
      intro i j h1; omega) (by
      intro i j _; rfl)) (by
      rintro i ha - hi ⟨h1, h2⟩
      obtain ⟨t', e, h3, h4⟩ := Tab.rowLoop (ε := Fault) (r := m) (c := n) (a := 0) (b := min (i + 1) n)
        (i := i) (t := ha) (fun j _ => Flt.div (s.qrt.f j i) (Flt.neg (s.rDiag.f j)))
        (body := fun j (ha : Tab α m n) => do
          ha.set i j (Flt.div (← s.qrt.get j i) (Flt.neg (← s.rDiag.get j)))) (by
        intro j t' h3 h4 _
        rw [Tab.get_ok (by omega) hi, ok_bind, Row.get_ok (by omega), ok_bind,
          Tab.set_ok hi (by omega)])
      rw [e]
      refine ⟨fun x y hx hy => ?_, fun x y hx => ?_⟩
      · by_cases e : x = i
        · subst e
          unfold QR.hEnt
          by_cases e' : y ≤ x
          · rw [if_pos e', h3 y (Nat.zero_le _) (by omega)]
          · rw [if_neg e', h4 x y (by omega), h2 x y le_rfl]
        · rw [h4 x y (by omega), h1 x y (by omega) hy]
      · rw [h4 x y (by omega), h2 x y (by omega)]))
  rw [e, ok_bind]
  obtain ⟨M, e2, h2, h3⟩ := SMat.fromSlices_dense (Jag.toLists_rect ha) hm hn false
  exact ⟨M, by rw [e2]; rfl, h2, h3.congr fun i j hi hj => h1 i j hi hj⟩

/-- One step of the accumulation of `QT`. -/
structure QR.QStep (m k : Nat) (d fkk : α) (v : Nat → α) (q q' : Nat → Nat → α) : Prop where
  skip : Flt.eq fkk Flt.zero = true → q' = upd2 q k k Flt.one
  rows : Flt.eq fkk Flt.zero = false → ∀ i j, k ≤ i → i < m → k ≤ j → j < m → q' i j =
    Flt.add (upd2 q k k Flt.one i j)
      (Flt.mul (Flt.neg (Flt.div (lsub k m (fun r => Flt.mul (upd2 q k k Flt.one i r) (v r)) Flt.zero)
        (Flt.mul d fkk))) (v j))
  other : ∀ i j, (i < k ∨ j < k) → q' i j = q i j

theorem QR.qtStep_ok {k : Nat} (hm : k < m) (hn : k < n) (s : QR α m n (min m n)) (q : Tab α m m) :
    ∃ q' : Tab α m m, (do
      let q ← q.set k k Flt.one
      if !Flt.eq (← s.qrt.get k k) Flt.zero then
        forUp k m (s.qtRow k) q
      else return q : Res (Tab α m m)) = .ok q' ∧
      QR.QStep m k (s.rDiag.f k) (s.qrt.f k k) (s.qrt.f k) q.f q'.f := by
  rw [Tab.set_ok hm hm, ok_bind, Tab.get_ok hn hm, ok_bind]
  by_cases ha : Flt.eq (s.qrt.f k k) Flt.zero = true
  · rw [if_neg (by simp [ha])]
    refine ⟨_, rfl, fun _ => rfl, fun h => by simp [ha] at h, fun i j h => ?_⟩
    dsimp only
    rw [upd2_eq, if_neg (by omega)]
  · rw [if_pos (by simp [ha])]
    obtain ⟨t', e, h1, h2⟩ := Tab.rowsLoop (ε := Fault) (r := m) (c := m) (a := k) (b := m) (p := k)
      (q := m) (t := (⟨upd2 q.f k k Flt.one⟩ : Tab α m m)) (body := s.qtRow k)
      (fun i j x => Flt.add x
        (Flt.mul (Flt.neg (Flt.div (lsub k m (fun r => Flt.mul (upd2 q.f k k Flt.one i r) (s.qrt.f k r))
          Flt.zero) (Flt.mul (s.rDiag.f k) (s.qrt.f k k)))) (s.qrt.f k j))) (by
      intro i t' h1 h2 h3
      unfold QR.qtRow
      rw [subUp_ok (fun r => Flt.mul (upd2 q.f k k Flt.one i r) (s.qrt.f k r)) fun r h4 h5 => by
        rw [Tab.get_ok h2 h5, ok_bind, Tab.get_ok hn h5, h3 i r (by omega)]; rfl, ok_bind,
        Row.get_ok (by omega), ok_bind, Tab.get_ok hn hm, ok_bind]
      obtain ⟨t'', e, h4, h5⟩ := Tab.rowLoop (ε := Fault) (r := m) (c := m) (a := k) (b := m) (i := i)
        (t := t') (fun j x => Flt.add x
          (Flt.mul (Flt.neg (Flt.div (lsub k m (fun r => Flt.mul (upd2 q.f k k Flt.one i r) (s.qrt.f k r))
            Flt.zero) (Flt.mul (s.rDiag.f k) (s.qrt.f k k)))) (s.qrt.f k j)))
        (body := fun row (q_1 : Tab α m m) => do
          q_1.set i row (Flt.add (← q_1.get i row) (Flt.mul (Flt.neg (Flt.div
            (lsub k m (fun r => Flt.mul (upd2 q.f k k Flt.one i r) (s.qrt.f k r)) Flt.zero)
            (Flt.mul (s.rDiag.f k) (s.qrt.f k k)))) (← s.qrt.get k row)))) (by
        intro j t'' h4 h5 h6
        rw [Tab.get_ok h2 h5, ok_bind, Tab.get_ok hn h5, ok_bind, Tab.set_ok h2 h5,
          h6 i j (by omega)])
      refine ⟨t'', e, fun j h6 h7 => ?_, h5⟩
      rw [h4 j h6 h7, h3 i j (by omega)])
    rw [e]
    dsimp only at h1 h2
    refine ⟨t', rfl, fun h => absurd h ha, fun _ i j h3 h4 h5 h6 => h1 i j h3 h4 h5 h6,
      fun i j h => ?_⟩
    rw [h2 i j (by omega), upd2_eq, if_neg (by omega)]

theorem QR.qT_wp (hm : 0 < m) (hn : 0 < n) (s : QR α m n (min m n))
    (I : Nat → (Nat → Nat → α) → Prop)
    (h0 : ∀ q : Nat → Nat → α, (∀ i j, q i j =
      if i = j ∧ min m n ≤ i ∧ i < m then Flt.one else Flt.zero) → I (min m n) q)
    (hs : ∀ k q q', k < m → k < n → I (k + 1) q →
      QR.QStep m k (s.rDiag.f k) (s.qrt.f k k) (s.qrt.f k) q q' → I k q') :
    ∃ (M : Mat α m m) (q : Nat → Nat → α), s.qT = .ok ⟨m, m, M⟩ ∧ M.dense ∧ Shows M.at m m q ∧ I 0 q := by
  unfold QR.qT
  rw [if_neg (by omega)]
  show ∃ (M : Mat α m m) (q : Nat → Nat → α),
    (forDown m (min m n) _ (Jag.zero m _) >>= _ : Res (SMat α)) = _ ∧ _
  obtain ⟨q0, e, h1⟩ := Wp.exists_ok (wp_forDown (E := fun _ : Fault => False) (b := min m n) (a := m)
    (s := (Jag.zero m _ : Tab α m m)) (body := fun k (q : Tab α m m) => q.set k k Flt.one)
    (fun k (t : Tab α m m) => ∀ i j, t.f i j = if i = j ∧ k ≤ i ∧ i < m then Flt.one else Flt.zero)
    (by omega) (by
      intro i j
      rw [if_neg (by omega)]; rfl) (by
      intro k t h1 h2 h3
      rw [wp_tset h2 h2]
      intro i j
      dsimp only
      rw [upd2_eq, h3]
      by_cases e : i = k ∧ j = k
      · rw [if_pos e, if_pos (by omega)]
      · rw [if_neg e]
        refine if_congr ?_ rfl rfl
        omega))
  rw [e, ok_bind]
  obtain ⟨q, e, h2⟩ := Wp.exists_ok (wp_forDown (E := fun _ : Fault => False) (b := 0) (a := min m n)
    (s := q0) (body := fun minor (q : Tab α m m) => do
      let q ← q.set minor minor Flt.one
      if !Flt.eq (← s.qrt.get minor minor) Flt.zero then
        forUp minor m (s.qtRow minor) q
      else return q) (fun k (t : Tab α m m) => I k t.f) (Nat.zero_le _) (h0 _ h1) (by
      intro k t _ h2 h3
      obtain ⟨q', e, h4⟩ := QR.qtStep_ok (show k < m by omega) (show k < n by omega) s t
      rw [e]
      exact hs k _ _ (by omega) (by omega) h3 h4))
  rw [e, ok_bind]
  obtain ⟨M, e2, h3, h4⟩ := SMat.fromSlices_dense (Jag.toLists_rect q) hm hm false
  exact ⟨M, q.f, by rw [e2]; rfl, h3, h4, h2⟩

end free

section exact

variable {K : Type} [Field K] [LinearOrder K] [IsStrictOrderedRing K] [Flt K] [Exact K] [ExactSqrt K]
variable {m n p : Nat}

theorem QR.rEnt_exact (f : Nat → Nat → K) (d : Nat → K) {k i j : Nat} (hm : i < m) (hn : j < n)
    (hk : k = min m n) : QR.rEnt f d i j = QR.R f d k i j := by
  unfold QR.rEnt QR.R
  by_cases e : j < k
  · rw [if_pos e, Exact.zero_eq]
  · rw [if_neg e, if_pos (by omega)]

/-- Before a step the accumulated matrix is zero off the block already computed. -/
theorem QR.QStep.exact {k : Nat} {d fkk : K} {v : Nat → K} {q q' : Nat → Nat → K}
    (h : QR.QStep m k d fkk v q q') (hq : ∀ i j, (i < k + 1 ∨ j < k + 1) → q i j = 0) :
    (∀ i j, (i < k ∨ j < k) → q' i j = 0) ∧
    mx m m (pad k q') = mx m m (pad (k + 1) q) *
      hh m k v (if fkk = 0 then 0 else 1 / (d * fkk)) := by
  have hp : ∀ i j, k ≤ i → k ≤ j → upd2 q k k Flt.one i j = pad (k + 1) q i j := by
    intro i j h1 h2
    rw [upd2_eq]
    by_cases e : i = k ∧ j = k
    · rw [if_pos e, pad_lo (by omega), if_pos (by omega), Exact.one_eq]
    · rw [if_neg e]
      by_cases e' : i < k + 1 ∨ j < k + 1
      · rw [pad_lo e', hq i j e', if_neg (by omega)]
      · rw [pad_hi (by omega) (by omega)]
  refine ⟨fun i j hij => by rw [h.other i j hij, hq i j (by omega)], pad_mul ?_⟩
  intro i j h1 h2 h3 h4
  by_cases e : fkk = 0
  · rw [if_pos e, h.skip (by simp [e]), hp i j h1 h3]
    ring
  · rw [if_neg e, h.rows (by simp [e]) i j h1 h2 h3 h4, hp i j h1 h3, lsub_exact]
    have : ∑ r ∈ Ico k m, Flt.mul (upd2 q k k Flt.one i r) (v r) =
        ∑ x ∈ Ico k m, pad (k + 1) q i x * v x := sum_congr rfl fun r hr => by
      rw [Exact.mul_eq, hp i r h1 (mem_Ico.1 hr).1]
    rw [this]
    simp only [Exact.add_eq, Exact.mul_eq, Exact.neg_eq, Exact.div_eq, Exact.zero_eq]
    ring

/-- `QT` is the transpose of the product of the reflections. -/
theorem QR.qT_exact (hm : 0 < m) (hn : 0 < n) (s : QR K m n (min m n)) :
    ∃ (M : Mat K m m) (q : Nat → Nat → K), s.qT = .ok ⟨m, m, M⟩ ∧ M.dense ∧ Shows M.at m m q ∧
      mx m m q = (hprod m (QR.H m s.qrt.f s.rDiag.f) (min m n))ᵀ := by
  obtain ⟨M, q, e, h1, h2, -, h3⟩ := QR.qT_wp hm hn s (fun k q =>
    (∀ i j, (i < k ∨ j < k) → q i j = 0) ∧
    mx m m (pad k q) = (hfrom m (QR.H m s.qrt.f s.rDiag.f) k (min m n))ᵀ) (by
      intro q hq
      refine ⟨fun i j hij => ?_, ?_⟩
      · rw [hq, if_neg (by omega), Exact.zero_eq]
      · rw [hfrom_self, Matrix.transpose_one, ← mx_one]
        refine mx_congr fun i j hi hj => ?_
        by_cases e : i < min m n ∨ j < min m n
        · rw [pad_lo e]
        · rw [pad_hi (by omega) (by omega), hq, Exact.one_eq, Exact.zero_eq]
          refine if_congr ?_ rfl rfl
          omega) (by
      rintro k q q' hkm hkn ⟨hI, hI'⟩ hs
      obtain ⟨h1, h2⟩ := hs.exact hI
      refine ⟨h1, ?_⟩
      rw [h2, hI', hfrom_step _ (show k < min m n by omega), Matrix.transpose_mul]
      congr 1
      rw [QR.H, hh_transpose]
      rfl)
  refine ⟨M, q, e, h1, h2, ?_⟩
  rw [← pad_zero, h3, hfrom_zero]

end exact

end Linear
