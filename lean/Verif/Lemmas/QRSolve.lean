import Verif.Lemmas.QROut
import Mathlib.LinearAlgebra.Matrix.ToLinearEquiv

/-!
# Lemmas on the least-squares solver of the QR decompositions
-/

set_option linter.unusedSectionVars false

namespace Linear

open Spec Finset Matrix

section free

variable {α : Type} [Flt α] {m n p : Nat}

theorem checkSingular_ok (d : Row α p) (thr : α) :
    ∃ b, checkSingular d thr = .ok b ∧
      (b = true ↔ ∃ i, i < p ∧ Flt.le (Flt.abs (d.f i)) thr = true) := by
  refine Wp.exists_ok ?_
  unfold checkSingular
  rw [wp_bind]
  refine (wp_forUpBrk (fun k (_ : Unit) => ∀ i, i < k → ¬ Flt.le (Flt.abs (d.f i)) thr = true)
    (fun _ => ∃ i, i < p ∧ Flt.le (Flt.abs (d.f i)) thr = true) (Nat.zero_le _) (by omega) ?_).imp ?_
  · intro i _ _ hi h
    rw [Row.get_ok hi, ok_bind]
    by_cases e : Flt.le (Flt.abs (d.f i)) thr = true
    · rw [if_pos e]
      exact ⟨i, hi, e⟩
    · rw [if_neg e]
      intro j hj
      by_cases e' : j = i
      · rw [e']; exact e
      · exact h j (by omega)
  · rintro (_ | _) h
    · exact ⟨fun e => (Bool.false_ne_true e).elim, fun ⟨i, h1, h2⟩ => (h i h1 h2).elim⟩
    · exact ⟨fun _ => h, fun _ => rfl⟩

end free

section exact

variable {K : Type} [Field K] [LinearOrder K] [IsStrictOrderedRing K] [Flt K] [Exact K] [ExactSqrt K]
variable {m n p q : Nat}

/-- Entries of the triangular system that the back substitution solves. -/
def QR.U (f : Nat → Nat → K) (d : Nat → K) (i j : Nat) : K := if i = j then d j else f j i

/-- One reflection of one column. -/
theorem QR.H_col {f : Nat → Nat → K} {d : Nat → K} {k : Nat} (hf : f k k ≠ 0) {Y Y' : Nat → Nat → K}
    (h1 : ∀ i c, i < m → c < q → Y' i c =
      Y i c + 1 / (d k * f k k) * (∑ r ∈ Ico k m, f k r * Y r c) * tl k (f k) i) :
    mx m q Y' = QR.H m f d k * mx m q Y := by
  rw [QR.H, QR.beta, if_neg hf, hh_mul]
  exact mx_congr fun i c hi hc => h1 i c hi hc

theorem QR.transform_vec (s : QR K m n p) (hp : p = min m n) (hf : ∀ i, i < p → s.qrt.f i i ≠ 0)
    (b : Row K m) :
    ∃ y : Row K m, forUp 0 (min m n) (fun minor (y : Row K m) => do
      let dot ← sumUp minor m (fun row => do
        return Flt.mul (← y.get row) (← s.qrt.get minor row)) Flt.zero
      let dot := Flt.div dot (Flt.mul (← s.rDiag.get minor) (← s.qrt.get minor minor))
      forUp minor m (fun row (y : Row K m) => do
        y.set row (Flt.add (← y.get row) (Flt.mul dot (← s.qrt.get minor row)))) y) b = .ok y ∧
      mx m 1 (fun i _ => y.f i) = (hprod m (QR.H m s.qrt.f s.rDiag.f) (min m n))ᵀ *
        mx m 1 fun i _ => b.f i := by
  subst hp
  refine Wp.exists_ok (wp_forUp (fun k (y : Row K m) => mx m 1 (fun i _ => y.f i) =
    (hprod m (QR.H m s.qrt.f s.rDiag.f) k)ᵀ * mx m 1 fun i _ => b.f i) (Nat.zero_le _) ?_ ?_)
  · rw [hprod, Matrix.transpose_one, Matrix.one_mul]
  · intro k y _ hk hI
    rw [sumUp_ok (fun r => Flt.mul (y.f r) (s.qrt.f k r)) fun i h1 h2 => by
      rw [Row.get_ok h2, ok_bind, Tab.get_ok (by omega) h2]; rfl, ok_bind, Row.get_ok (by omega), ok_bind,
      Tab.get_ok (by omega) (by omega), ok_bind]
    obtain ⟨y', e, h1, h2⟩ := Row.loop (ε := Fault) (n := m) (a := k) (b := m) (t := y)
      (fun row v => Flt.add v (Flt.mul (Flt.div (lsum k m (fun r => Flt.mul (y.f r) (s.qrt.f k r)) Flt.zero)
        (Flt.mul (s.rDiag.f k) (s.qrt.f k k))) (s.qrt.f k row)))
      (body := fun row (y_1 : Row K m) => do
        y_1.set row (Flt.add (← y_1.get row) (Flt.mul (Flt.div
          (lsum k m (fun r => Flt.mul (y.f r) (s.qrt.f k r)) Flt.zero)
          (Flt.mul (s.rDiag.f k) (s.qrt.f k k))) (← s.qrt.get k row)))) (by
      intro i y' h1 h2 h3
      rw [Row.get_ok h2, ok_bind, Tab.get_ok (by omega) h2, ok_bind, Row.set_ok h2, h3 i (by omega)])
    rw [e]
    show mx m 1 (fun i _ => y'.f i) = _
    rw [hprod, Matrix.transpose_mul, Matrix.mul_assoc, ← hI]
    rw [show (QR.H m s.qrt.f s.rDiag.f k)ᵀ = QR.H m s.qrt.f s.rDiag.f k from hh_transpose _ _ _ _]
    refine QR.H_col (hf k hk) fun i c hi _ => ?_
    unfold tl
    by_cases e : k ≤ i
    · rw [if_pos e, h1 i e hi, lsum_exact]
      simp only [Exact.add_eq, Exact.mul_eq, Exact.div_eq, Exact.zero_eq, zero_add]
      rw [sum_congr rfl fun r _ => mul_comm (y.f r) (s.qrt.f k r)]
      ring
    · rw [if_neg e, h2 i (by omega)]
      ring

theorem QR.back_vec (s : QR K m n p) (hp : p = min m n) (hd : ∀ i, i < p → s.rDiag.f i ≠ 0)
    (y : Row K m) :
    ∃ xy : Row K n × Row K m, forDown p 0 (fun row (xy : Row K n × Row K m) => do
      let y ← xy.2.set row (Flt.div (← xy.2.get row) (← s.rDiag.get row))
      let yRow ← y.get row
      let x ← xy.1.set row yRow
      let y ← forUp 0 row (fun i (y : Row K m) => do
        y.set i (Flt.sub (← y.get i) (Flt.mul yRow (← s.qrt.get row i)))) y
      return (x, y)) (Row.zero n, y) = .ok xy ∧
      (∀ i, i < p → ∑ j ∈ Ico i p, QR.U s.qrt.f s.rDiag.f i j * xy.1.f j = y.f i) ∧
      ∀ i, p ≤ i → i < n → xy.1.f i = 0 := by
  obtain ⟨xy, e, h1, h2, h3⟩ := Wp.exists_ok (wp_forDown (E := fun _ : Fault => False)
    (s := (Row.zero n, y)) (a := p) (b := 0) (body := fun row (xy : Row K n × Row K m) => do
      let y ← xy.2.set row (Flt.div (← xy.2.get row) (← s.rDiag.get row))
      let yRow ← y.get row
      let x ← xy.1.set row yRow
      let y ← forUp 0 row (fun i (y : Row K m) => do
        y.set i (Flt.sub (← y.get i) (Flt.mul yRow (← s.qrt.get row i)))) y
      return (x, y)) (fun k (xy : Row K n × Row K m) =>
      Bwd p (QR.U s.qrt.f s.rDiag.f) y.f k xy.2.f ∧ (∀ i, k ≤ i → i < p → xy.1.f i = xy.2.f i) ∧
      ∀ i, p ≤ i → xy.1.f i = 0) (Nat.zero_le _)
    (And.intro (Bwd.init fun _ _ => rfl) (And.intro (by omega) (by
      intro i _; exact Exact.zero_eq))) (by
    rintro k ⟨x, z⟩ _ hk ⟨h1, h2, h3⟩
    dsimp only at h1 h2 h3 ⊢
    rw [Row.get_ok (by omega), ok_bind, Row.get_ok hk, ok_bind, Row.set_ok (by omega), ok_bind,
      Row.get_ok (by omega), ok_bind, Row.set_ok (by omega), ok_bind]
    dsimp only
    rw [upd1_eq z.f k _ k, if_pos rfl]
    obtain ⟨z', e, h4, h5⟩ := Row.loop (ε := Fault) (n := m) (a := 0) (b := k)
      (t := (⟨upd1 z.f k (Flt.div (z.f k) (s.rDiag.f k))⟩ : Row K m))
      (fun i v => Flt.sub v (Flt.mul (Flt.div (z.f k) (s.rDiag.f k)) (s.qrt.f k i)))
      (body := fun i (y : Row K m) => do
        y.set i (Flt.sub (← y.get i) (Flt.mul (Flt.div (z.f k) (s.rDiag.f k)) (← s.qrt.get k i)))) (by
      intro i z' _ h4 h5
      rw [Row.get_ok (by omega), ok_bind, Tab.get_ok (by omega) (by omega), ok_bind,
        Row.set_ok (by omega), h5 i (by omega)])
    rw [e, ok_bind]
    dsimp only at h4 h5
    have hzk : z'.f k = z.f k / s.rDiag.f k := by
      rw [h5 k (by omega), upd1_eq, if_pos rfl, Exact.div_eq]
    refine ⟨h1.step hk (by unfold QR.U; rw [if_pos rfl]; exact hd k hk) ?_ ?_ ?_, ?_, ?_⟩
    · intro i h6 _
      rw [h5 i (by omega), upd1_eq, if_neg (by omega)]
    · unfold QR.U; rw [if_pos rfl, hzk]
    · intro i hi
      rw [h4 i (Nat.zero_le _) hi, upd1_eq, if_neg (by omega)]
      unfold QR.U
      rw [if_neg (by omega), hzk]
      simp only [Exact.sub_eq, Exact.mul_eq, Exact.div_eq]
      ring
    · intro i h6 h7
      dsimp only
      rw [upd1_eq, h5 i (by omega), upd1_eq]
      by_cases e : i = k
      · rw [if_pos e, if_pos e]
      · rw [if_neg e, if_neg e, h2 i (by omega) h7]
    · intro i h6
      dsimp only
      rw [upd1_eq, if_neg (by omega), h3 i h6]))
  refine ⟨xy, e, fun i hi => ?_, fun i h _ => h3 i h⟩
  rw [← h1.done hi]
  refine sum_congr rfl fun j hj => ?_
  have := mem_Ico.1 hj
  rw [h2 j (Nat.zero_le _) (by omega)]

/-! ## Least squares -/

theorem QR.Inv.first {k c : Nat} {B f : Nat → Nat → K} {d : Nat → K} (h : QR.Inv m n B k f d) (hc : c ≤ n) :
    mx m c B = hprod m (QR.H m f d) k * mx m c (QR.R f d k) := by
  ext i j
  have := congrFun (congrFun h.prod i) (Fin.castLE hc j)
  rw [Matrix.mul_apply] at this ⊢
  exact this

theorem QR.Inv.normal {k : Nat} {B f X Y b : Nat → Nat → K} {d : Nat → K} (h : QR.Inv m n B k f d)
    (hk : k = min m n) (hY : mx m q Y = (hprod m (QR.H m f d) k)ᵀ * mx m q b)
    (hX : ∀ c, c < q → ∀ i, i < k → ∑ j ∈ Ico i k, QR.U f d i j * X j c = Y i c) :
    (mx m k B)ᵀ * (mx m k B * mx k q X - mx m q b) = 0 ∧
    (k = m → mx m k B * mx k q X = mx m q b) := by
  have hQ := h.orth
  have hQ' : (hprod m (QR.H m f d) k)ᵀ * hprod m (QR.H m f d) k = 1 := mul_eq_one_comm.1 hQ
  have hA := h.first (c := k) (by omega)
  generalize hprod m (QR.H m f d) k = Q at *
  have hE : ∀ i c, i < k → c < q → ∑ j ∈ range k, QR.R f d k i j * X j c = Y i c := by
    intro i c hi hc
    rw [← hX c hc i hi, ← sum_subset (show Ico i k ⊆ range k from fun a ha =>
      mem_range.2 (mem_Ico.1 ha).2)]
    · refine sum_congr rfl fun j hj => ?_
      have := mem_Ico.1 hj
      unfold QR.R QR.U
      rw [if_pos (by omega)]
      by_cases e : i = j
      · rw [if_pos e, if_neg (by omega), if_pos e]
      · rw [if_neg e, if_pos (show i < j by omega), if_neg e]
    · intro j hj hj'
      have : ¬ i ≤ j := fun h => hj' (mem_Ico.2 ⟨h, mem_range.1 hj⟩)
      unfold QR.R
      rw [if_pos (mem_range.1 hj), if_neg (by omega), if_neg (by omega), zero_mul]
  have hb : mx m q b = Q * mx m q Y := by
    rw [hY, ← Matrix.mul_assoc, hQ, Matrix.one_mul]
  have hdiff : mx m k B * mx k q X - mx m q b = Q * (mx m k (QR.R f d k) * mx k q X - mx m q Y) := by
    rw [hA, hb, Matrix.mul_sub, Matrix.mul_assoc]
  constructor
  · rw [hdiff, hA, Matrix.transpose_mul, Matrix.mul_assoc, ← Matrix.mul_assoc _ Q, hQ', Matrix.one_mul]
    ext i c
    rw [Matrix.mul_apply, Matrix.zero_apply]
    refine sum_eq_zero fun r _ => ?_
    rw [Matrix.transpose_apply, Matrix.sub_apply]
    by_cases e : (r : Nat) < k
    · rw [mx_mul]
      have := hE r c e c.2
      show _ * (∑ j ∈ range k, QR.R f d k r j * X j c - Y r c) = 0
      rw [this, sub_self, mul_zero]
    · have : mx m k (QR.R f d k) r i = 0 := by
        show QR.R f d k r i = 0
        unfold QR.R
        rw [if_pos i.2, if_neg (by omega), if_neg (by omega)]
      rw [this, zero_mul]
  · intro e
    rw [← sub_eq_zero, hdiff]
    have : mx m k (QR.R f d k) * mx k q X - mx m q Y = 0 := by
      rw [mx_mul, sub_eq_zero]
      exact mx_congr fun i c hi hc => hE i c (by omega) hc
    rw [this, Matrix.mul_zero]

theorem QR.Inv.injective_iff {k : Nat} {B f : Nat → Nat → K} {d : Nat → K} (h : QR.Inv m n B k f d)
    (hk : k = min m n) :
    Function.Injective (mx m k B).mulVec ↔ ∀ i, i < k → d i ≠ 0 := by
  have hQ := h.orth
  have hQ' : (hprod m (QR.H m f d) k)ᵀ * hprod m (QR.H m f d) k = 1 := mul_eq_one_comm.1 hQ
  have hA := h.first (c := k) (by omega)
  generalize hprod m (QR.H m f d) k = Q at *
  have hup : Upper k k (QR.R f d k) := fun i j hi hj hij => by
    unfold QR.R; rw [if_pos hj, if_neg (by omega), if_neg (by omega)]
  have hdet : (mx k k (QR.R f d k)).det = ∏ i ∈ range k, d i := by
    rw [det_upper hup]
    refine Finset.prod_congr rfl fun i hi => ?_
    unfold QR.R; rw [if_pos (mem_range.1 hi), if_neg (by omega), if_pos rfl]
  have hrow : ∀ z : Fin k → K, mx m k (QR.R f d k) *ᵥ z = 0 ↔ mx k k (QR.R f d k) *ᵥ z = 0 := by
    intro z
    constructor
    · intro hz
      ext i
      exact congrFun hz ⟨i, by omega⟩
    · intro hz
      ext i
      by_cases e : (i : Nat) < k
      · exact congrFun hz ⟨i, e⟩
      · show ∑ j : Fin k, QR.R f d k i j * z j = 0
        refine sum_eq_zero fun j _ => ?_
        unfold QR.R
        rw [if_pos j.2, if_neg (by omega), if_neg (by omega), zero_mul]
  have hzero : ∀ z : Fin k → K, mx m k B *ᵥ z = 0 ↔ mx k k (QR.R f d k) *ᵥ z = 0 := by
    intro z
    rw [← hrow, hA, ← Matrix.mulVec_mulVec]
    constructor
    · intro hz
      have := congrArg (Qᵀ *ᵥ ·) hz
      simpa [Matrix.mulVec_mulVec, ← Matrix.mul_assoc, hQ'] using this
    · intro hz; rw [hz, Matrix.mulVec_zero]
  have hinj : Function.Injective (mx m k B).mulVec ↔ ∀ z, mx m k B *ᵥ z = 0 → z = 0 :=
    injective_iff_map_eq_zero (Matrix.mulVecLin (mx m k B))
  rw [hinj]
  constructor
  · intro hz
    have : (mx k k (QR.R f d k)).det ≠ 0 := by
      intro h0
      obtain ⟨v, hv, hv'⟩ := Matrix.exists_mulVec_eq_zero_iff.2 h0
      exact hv (hz v ((hzero v).2 hv'))
    rw [hdet, Finset.prod_ne_zero_iff] at this
    exact fun i hi => this i (mem_range.2 hi)
  · intro hd z hz
    by_contra hne
    have h0 := Matrix.exists_mulVec_eq_zero_iff.1 ⟨z, hne, (hzero z).1 hz⟩
    rw [hdet] at h0
    exact Finset.prod_ne_zero_iff.2 (fun i hi => hd i (mem_range.1 hi)) h0

end exact

end Linear
