import Verif.Model.QR
import Verif.Lemmas.Householder

/-!
# Lemmas on the QR decompositions
-/

set_option linter.unusedSectionVars false

namespace Linear

open Spec Finset Matrix

section free

variable {α : Type} [Flt α] {m n p : Nat}

/-- The signed norm of `x` from entry `k` on, as the code computes it. -/
def hnorm (k m : Nat) (x : Nat → α) : α :=
  if Flt.lt Flt.zero (x k) = true then
    Flt.mul (Flt.sqrt (lsum k m (fun r => Flt.mul (x r) (x r)) Flt.zero)) (Flt.neg Flt.one)
  else Flt.sqrt (lsum k m (fun r => Flt.mul (x r) (x r)) Flt.zero)

theorem QR.norm_ok {k : Nat} (hn : k < n) (hm : k < m) (t : Tab α n m) :
    QR.norm k t = .ok (hnorm k m (t.f k)) := by
  unfold QR.norm hnorm
  rw [sumUp_ok (fun r => Flt.mul (t.f k r) (t.f k r)) fun i h1 h2 => by
    rw [Tab.get_ok hn h2]; rfl, ok_bind, Tab.get_ok hn hm, ok_bind]
  split <;> rfl

/-- The factor of the reflected column. -/
def halpha (k m : Nat) (a : α) (v x : Nat → α) : α :=
  Flt.div (lsub k m (fun r => Flt.mul (x r) (v r)) Flt.zero) (Flt.mul a (v k))

theorem QR.column_ok {k col : Nat} (hk : k < col) (hn : col < n) (hm : k < m) (a : α) (t : Tab α n m) :
    ∃ t' : Tab α n m, QR.column k a col t = .ok t' ∧
      (∀ row, k ≤ row → row < m → t'.f col row =
        Flt.sub (t.f col row) (Flt.mul (halpha k m a (t.f k) (t.f col)) (t.f k row))) ∧
      ∀ x y, ¬ (x = col ∧ k ≤ y ∧ y < m) → t'.f x y = t.f x y := by
  unfold QR.column
  rw [subUp_ok (fun r => Flt.mul (t.f col r) (t.f k r)) fun i h1 h2 => by
    rw [Tab.get_ok hn h2, ok_bind, Tab.get_ok (by omega) h2]; rfl, ok_bind, Tab.get_ok (by omega) hm,
    ok_bind]
  refine Tab.rowLoop (fun row v => Flt.sub v (Flt.mul (halpha k m a (t.f k) (t.f col)) (t.f k row)))
    (fun row t' h1 h2 h3 => ?_)
  rw [Tab.get_ok hn h2, ok_bind, Tab.get_ok (by omega) h2, ok_bind, Tab.set_ok hn h2,
    h3 col row (by omega), h3 k row (by omega)]
  rfl

/-- What one step of the decomposition does. -/
structure QR.Step (k : Nat) (f f' : Nat → Nat → α) (m n : Nat) (a : α) : Prop where
  same : Flt.eq a Flt.zero = true → f' = f
  head : Flt.eq a Flt.zero = false → f' k k = Flt.sub (f k k) a
  row : ∀ r, r ≠ k → f' k r = f k r
  cols : Flt.eq a Flt.zero = false → ∀ c r, k < c → c < n → k ≤ r → r < m →
    f' c r = Flt.sub (f c r) (Flt.mul (halpha k m a (f' k) (f c)) (f' k r))
  other : ∀ c r, (c < k ∨ r < k) → f' c r = f c r

theorem QR.reflect_ok {k : Nat} (hn : k < n) (hm : k < m) (hp : k < p) (s : QR α m n p) :
    ∃ s' : QR α m n p, QR.reflect k s = .ok s' ∧
      s'.rDiag.f = upd1 s.rDiag.f k (hnorm k m (s.qrt.f k)) ∧
      QR.Step k s.qrt.f s'.qrt.f m n (hnorm k m (s.qrt.f k)) := by
  unfold QR.reflect
  rw [QR.norm_ok hn hm, ok_bind, Row.set_ok hp, ok_bind]
  generalize hnorm k m (s.qrt.f k) = a
  by_cases ha : Flt.eq a Flt.zero = true
  · rw [if_neg (by simp [ha])]
    exact ⟨_, rfl, rfl, fun _ => rfl, fun h => by simp [ha] at h, fun _ _ => rfl,
      fun h => by simp [ha] at h, fun _ _ _ => rfl⟩
  · rw [if_pos (by simp [ha]), Tab.get_ok hn hm, ok_bind, Tab.set_ok hn hm, ok_bind]
    obtain ⟨t', e, h1, h2⟩ := Tab.rowsLoop (ε := Fault) (r := n) (c := m) (a := k + 1) (b := n) (p := k)
      (q := m) (t := (⟨upd2 s.qrt.f k k (Flt.sub (s.qrt.f k k) a)⟩ : Tab α n m))
      (body := QR.column k a)
      (fun c r v => Flt.sub v (Flt.mul (halpha k m a (upd2 s.qrt.f k k (Flt.sub (s.qrt.f k k) a) k)
        (s.qrt.f c)) (upd2 s.qrt.f k k (Flt.sub (s.qrt.f k k) a) k r))) (by
      intro c t' h1 h2 h3
      obtain ⟨t'', e, h4, h5⟩ := QR.column_ok (by omega) h2 hm a t'
      refine ⟨t'', e, fun r h6 h7 => ?_, h5⟩
      have e1 : t'.f k = upd2 s.qrt.f k k (Flt.sub (s.qrt.f k k) a) k :=
        funext fun y => h3 k y (by omega)
      have e2 : t'.f c = s.qrt.f c := funext fun y => by
        rw [h3 c y (by omega)]; dsimp only; rw [upd2_eq, if_neg (by omega)]
      rw [h4 r h6 h7, e1, e2]
      dsimp only
      rw [upd2_eq _ _ _ _ c, if_neg (by omega)])
    rw [e]
    dsimp only at h1 h2
    have e1 : t'.f k = upd2 s.qrt.f k k (Flt.sub (s.qrt.f k k) a) k :=
        funext fun y => h2 k y (by omega)
    refine ⟨_, rfl, rfl, fun h => absurd h ha, fun _ => ?_, fun r hr => ?_, fun _ c r h3 h4 h5 h6 => ?_,
      fun c r h3 => ?_⟩
    · rw [e1, upd2_eq, if_pos ⟨rfl, rfl⟩]
    · rw [e1, upd2_eq, if_neg (by omega)]
    · dsimp only
      rw [h1 c r (by omega) h4 h5 h6, e1, upd2_eq _ _ _ _ c, if_neg (by omega)]
    · dsimp only
      rw [h2 c r (by omega), upd2_eq, if_neg (by omega)]

/-- The transposed data on which the decompositions work. -/
theorem Mat.transData_ok [ZeroLaws α] {a : Mat α m n} (ha : a.own) (hr : 0 < m) {A : Nat → Nat → α}
    (hA : Shows a.at m n A) :
    ∃ (tm : Mat α n m) (t : Tab α n m), a.transpose = .ok tm ∧ tm.dataCopy = .ok t ∧
      ∀ i j, i < n → j < m → t.f i j = A j i := by
  have main : ∃ tm : Mat α n m, a.transpose = .ok tm ∧ tm.own ∧ Shows tm.at n m fun i j => A j i := by
    revert ha hA
    cases a with
    | arr a =>
      intro _ hA
      obtain ⟨tm, e, h1, h2⟩ := C12_transpose (a := .arr a) trivial hr hA
      exact ⟨tm, e, Mat.dense_own h1, h2⟩
    | blk a =>
      intro _ hA
      obtain ⟨tm, e, h1, h2⟩ := C12_transpose (a := .blk a) trivial hr hA
      exact ⟨tm, e, Mat.dense_own h1, h2⟩
    | dia a =>
      intro _ hA
      obtain ⟨tm, e, h2⟩ := C12_transpose_dia a hA
      exact ⟨.dia tm, e, trivial, h2⟩
    | ext a => exact fun h => h.elim
  obtain ⟨tm, e, h1, h2⟩ := main
  obtain ⟨t, e', h3⟩ := Mat.dataCopy_ok h1 hr h2
  exact ⟨tm, t, e, e', h3⟩

end free

section exact

variable {K : Type} [Field K] [LinearOrder K] [IsStrictOrderedRing K] [Flt K] [Exact K] [ExactSqrt K]
variable {m n p : Nat}

theorem hnorm_sq (k m : Nat) (x : Nat → K) :
    hnorm k m x * hnorm k m x = ∑ r ∈ Ico k m, x r * x r := by
  have h0 : 0 ≤ ∑ r ∈ Ico k m, x r * x r := sum_nonneg fun r _ => mul_self_nonneg _
  have h1 : lsum k m (fun r => Flt.mul (x r) (x r)) Flt.zero = ∑ r ∈ Ico k m, x r * x r := by
    rw [lsum_exact]
    simp
  have h2 := ExactSqrt.sqrt_mul_self _ h0
  unfold hnorm
  rw [h1]
  split
  · simp only [Exact.mul_eq, Exact.neg_eq, Exact.one_eq]
    linear_combination h2
  · exact h2

theorem hnorm_sign (k m : Nat) (x : Nat → K) : if 0 < x k then hnorm k m x ≤ 0 else 0 ≤ hnorm k m x := by
  have h0 : ∀ y : K, 0 ≤ Flt.sqrt y := ExactSqrt.sqrt_nonneg
  unfold hnorm
  simp only [Exact.lt_eq, Exact.zero_eq, decide_eq_true_eq]
  split
  · simp only [Exact.mul_eq, Exact.neg_eq, Exact.one_eq]
    rw [mul_neg, mul_one]
    exact neg_nonpos.2 (h0 _)
  · exact h0 _

theorem hnorm_zero {k m : Nat} {x : Nat → K} (h : hnorm k m x = 0) {r : Nat} (h1 : k ≤ r) (h2 : r < m) :
    x r = 0 := by
  have h3 := hnorm_sq k m x
  rw [h, mul_zero] at h3
  have := (sum_eq_zero_iff_of_nonneg fun r _ => mul_self_nonneg (x r)).1 h3.symm r
    (mem_Ico.2 ⟨h1, h2⟩)
  exact mul_self_eq_zero.1 this

theorem halpha_exact (k m : Nat) (a : K) (v x : Nat → K) :
    halpha k m a v x = - (1 / (a * v k) * ∑ r ∈ Ico k m, v r * x r) := by
  unfold halpha
  rw [lsub_exact]
  simp only [Exact.mul_eq, Exact.div_eq, Exact.zero_eq]
  rw [sum_congr rfl fun r _ => mul_comm (x r) (v r)]
  ring

/-- The factor of reflection `j`. -/
def QR.beta (f : Nat → Nat → K) (d : Nat → K) (j : Nat) : K :=
  if f j j = 0 then 0 else 1 / (d j * f j j)

/-- Reflection `j`. -/
def QR.H (m : Nat) (f : Nat → Nat → K) (d : Nat → K) (j : Nat) : Matrix (Fin m) (Fin m) K :=
  hh m j (f j) (QR.beta f d j)

/-- The triangular part after `k` steps. -/
def QR.R (f : Nat → Nat → K) (d : Nat → K) (k i j : Nat) : K :=
  if j < k then (if i < j then f j i else if i = j then d j else 0) else f j i

/-- The state after `k` steps of the decomposition of `B`. -/
structure QR.Inv (m n : Nat) (B : Nat → Nat → K) (k : Nat) (f : Nat → Nat → K) (d : Nat → K) :
    Prop where
  prod : mx m n B = hprod m (QR.H m f d) k * mx m n (QR.R f d k)
  refl : ∀ j, j < k → QR.beta f d j = 0 ∨ QR.beta f d j * ∑ r ∈ Ico j m, f j r * f j r = -2
  diag : ∀ j, j < k → (d j = 0 ↔ f j j = 0)
  sq : ∀ j, j < k → f j j = 0 → ∀ i, j ≤ i → i < m → f j i = 0

theorem QR.Step.exact {k : Nat} {f f' : Nat → Nat → K} (h : QR.Step k f f' m n (hnorm k m (f k))) :
    hnorm k m (f k) = 0 ∧ f' = f ∨ HV m k (f k) (f' k) (hnorm k m (f k)) ∧
      ∀ c r, k < c → c < n → r < m → f' c r =
        f c r + 1 / (hnorm k m (f k) * f' k k) * (∑ s ∈ Ico k m, f' k s * f c s) * tl k (f' k) r := by
  by_cases ha : hnorm k m (f k) = 0
  · exact .inl ⟨ha, h.same (by simp [ha])⟩
  · have ha' : Flt.eq (hnorm k m (f k)) Flt.zero = false := by simp [ha]
    refine .inr ⟨⟨hnorm_sq k m _, hnorm_sign k m _, ha, ?_, fun r h1 _ => h.row r (by omega)⟩, ?_⟩
    · rw [h.head ha', Exact.sub_eq]
    · intro c r h1 h2 h3
      unfold tl
      by_cases e : k ≤ r
      · rw [h.cols ha' c r h1 h2 e h3, halpha_exact, if_pos e, Exact.sub_eq, Exact.mul_eq]
        ring
      · rw [h.other c r (by omega), if_neg e]
        ring

theorem QR.Inv.step {k : Nat} {B f f' : Nat → Nat → K} {d d' : Nat → K} (hI : QR.Inv m n B k f d)
    (hm : k < m) (hs : QR.Step k f f' m n (hnorm k m (f k))) (hd : d' = upd1 d k (hnorm k m (f k))) :
    QR.Inv m n B (k + 1) f' d' := by
  have hd0 : ∀ j, j ≠ k → d' j = d j := fun j hj => by rw [hd, upd1_eq, if_neg hj]
  have hdk : d' k = hnorm k m (f k) := by rw [hd, upd1_eq, if_pos rfl]
  have hf : ∀ j, j < k → f' j = f j := fun j hj => funext fun r => hs.other j r (.inl hj)
  have hb : ∀ j, j < k → QR.beta f' d' j = QR.beta f d j := fun j hj => by
    unfold QR.beta; rw [hf j hj, hd0 j (by omega)]
  have hH : ∀ j, j < k → QR.H m f' d' j = QR.H m f d j := fun j hj => by
    unfold QR.H; rw [hf j hj, hb j hj]
  have key : (QR.beta f' d' k = 0 ∨ QR.beta f' d' k * ∑ r ∈ Ico k m, f' k r * f' k r = -2) ∧
      (d' k = 0 ↔ f' k k = 0) ∧ (f' k k = 0 → ∀ i, k ≤ i → i < m → f' k i = 0) ∧
      QR.H m f' d' k * mx m n (QR.R f d k) = mx m n (QR.R f' d' (k + 1)) := by
    rcases hs.exact with ⟨h1, rfl⟩ | ⟨h1, h2⟩
    · have h3 := hnorm_zero h1 le_rfl hm
      have hb0 : QR.beta f' d' k = 0 := by unfold QR.beta; rw [if_pos h3]
      refine ⟨.inl hb0, by rw [hdk, h1, h3], fun _ i => hnorm_zero h1, ?_⟩
      rw [QR.H, hb0, hh_zero, Matrix.one_mul]
      refine mx_congr fun i j hi hj => ?_
      unfold QR.R
      by_cases e : j < k
      · rw [if_pos e, if_pos (show j < k + 1 by omega), hd0 j (by omega)]
      · rw [if_neg e]
        by_cases e' : j = k
        · subst e'
          rw [if_pos (by omega), hdk, h1]
          split
          · rfl
          · rw [hnorm_zero h1 (by omega) hi]
            split <;> rfl
        · rw [if_neg (by omega)]
    · have h3 := h1.head_ne
      have hb0 : QR.beta f' d' k = 1 / (hnorm k m (f k) * f' k k) := by
        unfold QR.beta; rw [if_neg h3, hdk]
      refine ⟨.inr (by rw [hb0]; exact h1.beta hm), ?_, fun h => absurd h h3, ?_⟩
      · rw [hdk]; exact iff_of_false h1.ne h3
      · rw [QR.H, hb0, hh_mul]
        refine mx_congr fun i j hi hj => ?_
        unfold QR.R
        by_cases e : j < k
        · have : ∑ r ∈ Ico k m, f' k r * (if j < k then (if r < j then f j r else if r = j then d j else 0)
              else f j r) = 0 := by
            refine sum_eq_zero fun r hr => ?_
            have := mem_Ico.1 hr
            rw [if_pos e, if_neg (by omega), if_neg (by omega), mul_zero]
          rw [this, if_pos e, if_pos (show j < k + 1 by omega), hd0 j (by omega), hf j e]
          ring
        · simp only [if_neg e]
          by_cases e' : j = k
          · subst e'
            rw [h1.apply hm hi, if_pos (show j < j + 1 by omega), hdk]
            by_cases e'' : i < j
            · rw [if_pos e'', if_pos e'', hs.row i (by omega)]
            · rw [if_neg e'', if_neg e'']
          · rw [if_neg (by omega), h2 j i (by omega) hj hi]
  obtain ⟨k1, k2, k3, k4⟩ := key
  refine ⟨?_, fun j hj => ?_, fun j hj => ?_, fun j hj => ?_⟩
  · rw [hprod, hprod_congr hH, ← k4, Matrix.mul_assoc, ← Matrix.mul_assoc (QR.H m f' d' k)]
    have : QR.H m f' d' k * QR.H m f' d' k = 1 := hh_sq k1
    rw [this, Matrix.one_mul, hI.prod]
  · by_cases e : j = k
    · subst e; exact k1
    · rw [hb j (by omega), hf j (by omega)]; exact hI.refl j (by omega)
  · by_cases e : j = k
    · subst e; exact k2
    · rw [hd0 j e, hf j (by omega)]; exact hI.diag j (by omega)
  · by_cases e : j = k
    · subst e; exact k3
    · rw [hf j (by omega)]; exact hI.sq j (by omega)

theorem QR.Inv.init {B f : Nat → Nat → K} (d : Nat → K) (h : ∀ i j, i < n → j < m → f i j = B j i) :
    QR.Inv m n B 0 f d := by
  refine ⟨?_, by omega, by omega, by omega⟩
  rw [hprod, Matrix.one_mul]
  refine mx_congr fun i j hi hj => ?_
  unfold QR.R
  rw [if_neg (by omega), h j i hj hi]

theorem QR.Inv.square {k : Nat} {B f : Nat → Nat → K} {d : Nat → K} (h : QR.Inv m n B k f d) {j : Nat}
    (hj : j < k) : QR.H m f d j * QR.H m f d j = 1 := hh_sq (h.refl j hj)

theorem QR.Inv.orth {k : Nat} {B f : Nat → Nat → K} {d : Nat → K} (h : QR.Inv m n B k f d) :
    hprod m (QR.H m f d) k * (hprod m (QR.H m f d) k)ᵀ = 1 :=
  hprod_orth (fun _ _ => hh_transpose _ _ _ _) fun _ hj => h.square hj

end exact

end Linear
