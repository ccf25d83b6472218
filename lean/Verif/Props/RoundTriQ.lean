import Verif.Lemmas.RoundTriQ
import Verif.Props.RoundTri

/-!
# C107: the orthogonal factor of the tridiagonal reduction in rounded arithmetic

`fro M` is the Frobenius norm and `cnorm M j` the Euclidean norm of column `j`.  The theorems hold for
every arithmetic that satisfies `Rnd`, in particular for `B64`.
-/

set_option linter.unusedSectionVars false

namespace Linear

open Spec Rnd Matrix
open Finset hiding val diag

section round

variable {α : Type} [Flt α] [Rnd α] [ZeroLaws α] {m : Nat}

/-- **C107.** When the orthogonal factor is finite as well, each of its columns differs from that of an
exactly orthogonal matrix, the one of C106, by at most `hhErr` of 1.  `QT` is the transpose of `Q`. -/
theorem C107_near {a : Mat α m m} (ha : a.own) (hm : 0 < m) {A : Nat → Nat → α} (hA : Shows a.at m m A)
    {s : Tri α m m} (hs : Tri.new a = .ok s) {mt mq : Mat α m m} {T Q : Nat → Nat → α}
    (et : s.t = .ok ⟨m, m, mt⟩) (hT : Shows mt.at m m T) (eq : s.q = .ok ⟨m, m, mq⟩) (hQ : Shows mq.at m m Q)
    {e : ℝ} (he : u α ≤ e) (hM : (m + 4) * e ≤ 1 / 100) (hd : ∀ i, i < m → fin (T i i))
    (hsec : ∀ i, i + 1 < m → Scaled m e (T i (i + 1))) (hf : ∀ i j, i < m → j < m → fin (Q i j)) :
    (∃ mqt : Mat α m m, s.qT = .ok ⟨m, m, mqt⟩ ∧ Shows mqt.at m m fun i j => Q j i) ∧
    ∃ Q₀ : Matrix (Fin m) (Fin m) ℝ, Q₀ᵀ * Q₀ = 1 ∧
      fro (upSym m A - Q₀ * (mx m m fun i j => val (T i j)) * Q₀ᵀ) ≤ triErr α m (m - 1) e (fro (upSym m A)) ∧
      ∀ j, cnorm ((mx m m fun i j => val (Q i j)) - Q₀) j ≤ hhErr α m (m - 1) e 1 := by
  obtain ⟨h1, d, hI, hmain⟩ := Tri.new_round ha hm hA hs et hT he hM hd hsec
  have hl := hI.last hm he hM hmain h1 rfl
  obtain ⟨mqt, q, eqt, hdt, hqt, hq⟩ := Tri.qT_round hm s he hM hI.refl
  obtain ⟨mq', eq', -, hsq⟩ := C12_transpose hdt hm hqt
  have e1 : s.q = .ok ⟨m, m, mq'⟩ := by
    unfold Tri.q
    rw [eqt, ok_bind]
    dsimp only
    rw [eq']
    rfl
  rw [eq] at e1
  cases Except.ok.inj e1
  have hu : ∀ i j, i < m → j < m → Q i j = q j i := fun i j hi hj => hQ.unique hsq hi hj
  refine ⟨⟨mqt, eqt, hqt.congr fun i j hi hj => (hu j i hj hi).symm⟩, _, hl.1, hl.2, fun j => ?_⟩
  have := hq (fun i j hi hj => by rw [← hu j i hj hi]; exact hf j i hj hi) j
  unfold hhErr
  rw [mul_one]
  refine le_trans (le_of_eq ?_) this
  congr 2
  exact mx_congr fun i j hi hj => congrArg val (hu i j hi hj)

/-- **C107.** The columns of the computed orthogonal factor are nearly orthonormal, and the product
`Q T Qᵀ` of the computed factors is near to the symmetric matrix with the upper triangle of the argument. -/
theorem C107_factors {a : Mat α m m} (ha : a.own) (hm : 0 < m) {A : Nat → Nat → α} (hA : Shows a.at m m A)
    {s : Tri α m m} (hs : Tri.new a = .ok s) {mt mq : Mat α m m} {T Q : Nat → Nat → α}
    (et : s.t = .ok ⟨m, m, mt⟩) (hT : Shows mt.at m m T) (eq : s.q = .ok ⟨m, m, mq⟩) (hQ : Shows mq.at m m Q)
    {e δ : ℝ} (he : u α ≤ e) (hM : (m + 4) * e ≤ 1 / 100) (hd : ∀ i, i < m → fin (T i i))
    (hsec : ∀ i, i + 1 < m → Scaled m e (T i (i + 1))) (hf : ∀ i j, i < m → j < m → fin (Q i j))
    (hδ : hhErr α m (m - 1) e 1 ≤ δ) :
    (∀ i j : Fin m, |∑ k ∈ range m, val (Q k i) * val (Q k j) - if i = j then 1 else 0| ≤ 2 * δ + δ ^ 2) ∧
    fro (upSym m A - (mx m m fun i j => val (Q i j)) * (mx m m fun i j => val (T i j)) *
        (mx m m fun i j => val (Q i j))ᵀ) ≤
      triErr α m (m - 1) e (fro (upSym m A)) +
        (2 * √m * δ + m * δ ^ 2) * fro (mx m m fun i j => val (T i j)) := by
  obtain ⟨-, Q₀, h1, h3, h4'⟩ := C107_near ha hm hA hs et hT eq hQ he hM hd hsec hf
  have h4 : ∀ j, cnorm ((mx m m fun i j => val (Q i j)) - Q₀) j ≤ δ := fun j => (h4' j).trans hδ
  have hδ0 : 0 ≤ δ := (hhErr_nonneg ((u_nonneg (α := α)).trans he)).trans hδ
  refine ⟨near_orth h1 h4, ?_⟩
  have n1 := fro_near (p := m) le_rfl hδ0 h4
  have hN : √(m : ℝ) ^ 2 = m := Real.sq_sqrt (Nat.cast_nonneg _)
  have hN0 := Real.sqrt_nonneg (m : ℝ)
  generalize √(m : ℝ) = N at *
  generalize triErr α m (m - 1) e (fro (upSym m A)) = E at *
  generalize upSym m A = A at *
  generalize (mx m m fun i j => val (T i j)) = B at *
  generalize (mx m m fun i j => val (Q i j)) = U at *
  obtain ⟨X, hX⟩ : ∃ X, X = U - Q₀ := ⟨_, rfl⟩
  rw [← hX] at n1
  have eX : U = Q₀ + X := by rw [hX]; abel
  have e1 : A - U * B * Uᵀ = (A - Q₀ * B * Q₀ᵀ) + -(X * B * Q₀ᵀ + (X * B * Xᵀ + Q₀ * (B * Xᵀ))) := by
    rw [eX, Matrix.transpose_add]
    simp only [Matrix.add_mul, Matrix.mul_add, Matrix.mul_assoc]
    abel
  have o2 : Q₀ᵀ * (Q₀ᵀ)ᵀ = 1 := by rw [Matrix.transpose_transpose]; exact h1
  have b1 := fro_add_le (A - Q₀ * B * Q₀ᵀ) (-(X * B * Q₀ᵀ + (X * B * Xᵀ + Q₀ * (B * Xᵀ))))
  rw [← e1, fro_neg] at b1
  have b2 := fro_add_le (X * B * Q₀ᵀ) (X * B * Xᵀ + Q₀ * (B * Xᵀ))
  have b3 := fro_add_le (X * B * Xᵀ) (Q₀ * (B * Xᵀ))
  rw [fro_right o2] at b2
  rw [fro_left h1] at b3
  have b4 := fro_mul_le X B
  have b5 := fro_mul_le (X * B) Xᵀ
  have b6 := fro_mul_le B Xᵀ
  rw [fro_transpose] at b5 b6
  have hB0 := fro_nonneg B
  have hX0 := fro_nonneg X
  have hXB := fro_nonneg (X * B)
  have c1 : fro X * fro B ≤ N * δ * fro B := by gcongr
  have c2 : fro (X * B) * fro X ≤ N * δ * fro B * (N * δ) := by
    refine mul_le_mul (b4.trans c1) n1 hX0 (by positivity)
  have c3 : fro B * fro X ≤ fro B * (N * δ) := by gcongr
  have c4 : N * δ * fro B * (N * δ) = m * δ ^ 2 * fro B := by rw [← hN]; ring
  linarith

/-- **C107**, why a finite orthogonal factor has to be assumed: if the square of the entry next to the
diagonal of a 2 × 2 matrix underflows to 0, `T` is diagonal and `QT` is not finite. -/
theorem C107_underflow {a : Mat α 2 2} (ha : a.own) {A : Nat → Nat → α} (hA : Shows a.at 2 2 A)
    (hx : fin (A 0 1)) (h0 : val (A 0 1) ≠ 0) (hxf : fin (Flt.mul (A 0 1) (A 0 1)))
    (hxx : val (Flt.mul (A 0 1) (A 0 1)) = 0) :
    ∃ (s : Tri α 2 2) (mt mq : Mat α 2 2) (T Q : Nat → Nat → α), Tri.new a = .ok s ∧
      s.t = .ok ⟨2, 2, mt⟩ ∧ s.qT = .ok ⟨2, 2, mq⟩ ∧ Shows mt.at 2 2 T ∧ Shows mq.at 2 2 Q ∧
      T 0 0 = A 0 0 ∧ T 1 1 = A 1 1 ∧ fin (T 0 1) ∧ val (T 0 1) = 0 ∧ ¬ fin (Q 1 1) := by
  obtain ⟨s, d, e1, htr, hmain⟩ := Tri.new_ok ha two_pos hA
  obtain ⟨mt, et, -, hT⟩ := Tri.t_ok two_pos s
  change Tri.Trace 2 A 1 _ _ _ at htr
  have key : s.hv.f 0 1 = A 0 1 ∧ s.hv.f 1 1 = A 1 1 ∧ d 0 = A 0 0 ∧ fin (s.sec.f 0) ∧ val (s.sec.f 0) = 0 := by
    revert htr
    generalize s.hv.f = f
    generalize s.sec.f = c
    intro htr
    cases htr with
    | @step _ f0 _ d0 c0 h _ hs =>
    cases h with
    | init hf0 =>
    have e2 : lsum (0 + 1) 2 (fun r => Flt.mul (f0 0 r) (f0 0 r)) Flt.zero =
        Flt.add Flt.zero (Flt.mul (A 0 1) (A 0 1)) := by
      rw [lsum_succ (a := 0 + 1) (b := 1) le_rfl, lsum_self le_rfl, hf0 0 1 two_pos one_lt_two]
    have f1 : fin (Flt.add Flt.zero (Flt.mul (A 0 1) (A 0 1))) := add_ok zero_fin hxf (by
      rw [val_zero, hxx, _root_.add_zero, abs_zero]; linarith [big_le (α := α)])
    have v1 : val (Flt.add Flt.zero (Flt.mul (A 0 1) (A 0 1))) = 0 := by rw [Rnd.zero_add f1 val_zero, hxx]
    have f2 : fin (Flt.sqrt (Flt.add Flt.zero (Flt.mul (A 0 1) (A 0 1)))) := sqrt_ok f1 v1.ge
    have v2 : val (Flt.sqrt (Flt.add Flt.zero (Flt.mul (A 0 1) (A 0 1)))) = 0 := by
      have := (sqrt_err f2).1
      rw [v1, Real.sqrt_zero, mul_zero, sub_zero] at this
      exact abs_nonpos_iff.1 this
    have hn : fin (hnorm (0 + 1) 2 (f0 0)) ∧ val (hnorm (0 + 1) 2 (f0 0)) = 0 := by
      unfold hnorm
      rw [e2]
      split
      · have f3 : fin (Flt.mul (Flt.sqrt (Flt.add Flt.zero (Flt.mul (A 0 1) (A 0 1)))) (Flt.neg Flt.one)) :=
          mul_ok f2 (neg_fin.2 one_fin) (by rw [v2, zero_mul, abs_zero]; linarith [big_le (α := α)])
        exact ⟨f3, mul_of_zero f3 v2⟩
      · exact ⟨f2, v2⟩
    have hz : Flt.eq (hnorm (0 + 1) 2 (f0 0)) Flt.zero = true := by rw [eq_iff hn.1 zero_fin, hn.2, val_zero]
    rw [hs.same hz, hf0 0 1 two_pos one_lt_two, hf0 1 1 one_lt_two one_lt_two, upd1_eq, if_pos rfl,
      hf0 0 0 two_pos two_pos, upd1_eq, if_pos rfl]
    exact ⟨rfl, rfl, rfl, hn⟩
  obtain ⟨k1, k2, k3, k4, k5⟩ := key
  obtain ⟨mq, q, eq, -, hq, hI⟩ := Tri.qT_wp two_pos s (fun k q => k = 1 → ¬ fin (q 1 1))
    (fun h => absurd h (by decide)) (by
      intro k q q' h1 h2 _ hS _
      obtain rfl : k = 1 := by omega
      have hne : Flt.eq (s.hv.f 0 1) Flt.zero = false := by
        rw [k1, Bool.eq_false_iff, Ne, eq_iff hx zero_fin, val_zero]
        exact h0
      rw [hS.diag hne]
      intro hf
      exact div_ne (mul_fin (add_fin hf).2).1 k4 k5)
  refine ⟨s, mt, mq, _, _, e1, et, eq, hT, hq, ?_, ?_, k4, k5, ?_⟩
  · rw [Tri.tEnt, if_pos rfl, hmain, upd1_eq, if_neg (by omega), k3]
  · rw [Tri.tEnt, if_pos rfl, hmain, upd1_eq, if_pos rfl]; exact k2
  · rw [upd2_eq, if_neg (by omega)]; exact hI rfl

end round

/-! ## binary64 -/

/-- **C107** for binary64: the entries of the Gram matrix of the computed `Q` are off by at most
`160 (m - 1) (m + 4) 2⁻⁵³`. -/
theorem C107_binary64 {m : Nat} {a : Mat B64 m m} (ha : a.own) (hm : 0 < m) {A : Nat → Nat → B64}
    (hA : Shows a.at m m A) {s : Tri B64 m m} (hs : Tri.new a = .ok s)
    {mt mq : Mat B64 m m} {T Q : Nat → Nat → B64} (et : s.t = .ok ⟨m, m, mt⟩) (hT : Shows mt.at m m T)
    (eq : s.q = .ok ⟨m, m, mq⟩) (hQ : Shows mq.at m m Q)
    (hp : (m + 4) * (m + 4) ≤ 2 ^ 44) (hfin : ∀ i j, i < m → j < m → fin (T i j))
    (hlow : ∀ i, i + 1 < m → val (T i (i + 1)) = 0 ∨ m * (1 / 2) ^ 1020 ≤ val (T i (i + 1)) ^ 2)
    (hhigh : ∀ i, i + 1 < m → |val (T i (i + 1))| ≤ 2 ^ 510) (hf : ∀ i j, i < m → j < m → fin (Q i j))
    (i j : Fin m) :
    |∑ k ∈ range m, val (Q k i) * val (Q k j) - if i = j then 1 else 0| ≤
      160 * (m - 1 : ℕ) * (m + 4) * (1 / 2) ^ 53 := by
  have hp' : ((m : ℝ) + 4) * (m + 4) ≤ 2 ^ 44 := by exact_mod_cast hp
  have hm0 : (0 : ℝ) ≤ m := Nat.cast_nonneg m
  have h2 : ((m - 1 : ℕ) : ℝ) ≤ m + 4 := by exact_mod_cast (show m - 1 ≤ m + 4 by omega)
  have h4 : ((m - 1 : ℕ) : ℝ) * (m + 4) ≤ 2 ^ 44 := (mul_le_mul_of_nonneg_right h2 (by positivity)).trans hp'
  have h5 : (m : ℝ) + 4 ≤ 2 ^ 42 := by norm_num at hp' ⊢; nlinarith
  have hw : √((m : ℝ) * η B64) ≤ (m + 4) * (1 / 2) ^ 60 := by
    rw [show η B64 = (1 / 2) ^ 1075 from rfl]
    refine Real.sqrt_le_iff.2 ⟨by positivity, ?_⟩
    have : ((1 : ℝ) / 2) ^ 1075 ≤ ((1 / 2) ^ 60) ^ 2 := by
      rw [← pow_mul]
      exact pow_le_pow_of_le_one (by norm_num) (by norm_num) (by norm_num)
    rw [mul_pow]
    refine mul_le_mul ?_ this (by positivity) (by positivity)
    nlinarith
  have hX0 : (0 : ℝ) ≤ ((m - 1 : ℕ) : ℝ) * (m + 4) := by positivity
  obtain ⟨q1, -⟩ := C107_factors ha hm hA hs et hT eq hQ (e := (1 / 2) ^ 53)
    (δ := 73 * (((m - 1 : ℕ) : ℝ) * (m + 4)) * (1 / 2) ^ 53) le_rfl
    (by norm_num at h5 ⊢; linarith)
    (fun i hi => hfin i i hi hi)
    (fun i hi => B64.scaled (hfin i (i + 1) (by omega) (by omega)) (hlow i hi) (hhigh i hi)) hf (by
      refine (hhErr_le (α := B64) (by positivity) zero_le_one ?_).trans ?_
      · rw [show ((m - 1 : ℕ) : ℝ) * (36 * (m + 4) * (1 / 2) ^ 53) =
          ((m - 1 : ℕ) : ℝ) * (m + 4) * (36 * (1 / 2) ^ 53) by ring]
        norm_num at h4 ⊢; linarith
      · have : 18 * ((m - 1 : ℕ) : ℝ) * √((m : ℝ) * η B64) ≤
            18 * ((m - 1 : ℕ) : ℝ) * ((m + 4) * (1 / 2) ^ 60) := by gcongr
        have e1 : 18 * ((m - 1 : ℕ) : ℝ) * ((m + 4) * (1 / 2) ^ 60) =
          18 / 128 * (((m - 1 : ℕ) : ℝ) * (m + 4) * (1 / 2) ^ 53) := by norm_num; ring
        have e2 : 72 * ((m - 1 : ℕ) : ℝ) * (m + 4) * (1 / 2) ^ 53 * 1 =
          72 * (((m - 1 : ℕ) : ℝ) * (m + 4) * (1 / 2) ^ 53) := by ring
        have e3 : 0 ≤ ((m - 1 : ℕ) : ℝ) * (m + 4) * (1 / 2) ^ 53 := by positivity
        rw [e2]
        rw [e1] at this
        linarith)
  refine (q1 i j).trans ?_
  generalize ((m - 1 : ℕ) : ℝ) = p at *
  rw [show 160 * p * (m + 4) * (1 / 2) ^ 53 = 160 * (p * (m + 4)) * (1 / 2) ^ 53 by ring]
  generalize p * ((m : ℝ) + 4) = X at *
  norm_num at h4 ⊢
  nlinarith

/-- Concrete case for C107: the finite 2 × 2 binary64 matrix with 1 on the diagonal and `2⁻⁶⁰⁰` next to it,
for which `T` is finite and `QT` is not. -/
theorem C107_tiny : ∃ (a : Mat B64 2 2) (s : Tri B64 2 2) (mt mq : Mat B64 2 2) (T Q : Nat → Nat → B64),
    a.own ∧ Shows a.at 2 2 (fun i j => if i = j then Flt.one else B64.num _ B64.num600) ∧ Tri.new a = .ok s ∧
      s.t = .ok ⟨2, 2, mt⟩ ∧ s.qT = .ok ⟨2, 2, mq⟩ ∧ Shows mt.at 2 2 T ∧ Shows mq.at 2 2 Q ∧
      T 0 0 = Flt.one ∧ T 1 1 = Flt.one ∧ fin (T 0 1) ∧ val (T 0 1) = 0 ∧ ¬ fin (Q 1 1) := by
  let a : Mat B64 2 2 := .arr ⟨⟨fun i j => if i = j then Flt.one else B64.num _ B64.num600⟩, fun _ => 0⟩
  have hA : Shows a.at 2 2 (fun i j => if i = j then Flt.one else B64.num _ B64.num600) :=
    (Mat.at_shows a).congr fun i j hi hj => rfl
  have hpos : (0 : ℝ) < 2 ^ (-600 : ℤ) := zpow_pos (by norm_num) _
  have hsq : |(2 : ℝ) ^ (-600 : ℤ) * 2 ^ (-600 : ℤ)| < 2 ^ (-1075 : ℤ) := by
    rw [abs_of_pos (by positivity), ← zpow_add₀ (by norm_num)]
    exact zpow_lt_zpow_right₀ (by norm_num) (by norm_num)
  have hxf : fin (Flt.mul (B64.num _ B64.num600) (B64.num _ B64.num600)) := by
    refine mul_ok trivial trivial (hsq.le.trans ?_)
    exact (zpow_lt_one_of_neg₀ (by norm_num) (by norm_num)).le.trans (le_trans (by norm_num) (big_le (α := B64)))
  obtain ⟨s, mt, mq, T, Q, h⟩ := C107_underflow (a := a) trivial hA trivial hpos.ne' hxf
    ((B64.rnd_fin hxf).trans (B64.near_tiny hsq))
  exact ⟨a, s, mt, mq, T, Q, trivial, hA, h⟩

/-! ## A concrete case -/

/-- Concrete case for C107: the matrix of the concrete case of C106, whose orthogonal factor has the rows
(1, 0, 0), (0, 0, -1), (0, 1, 0). -/
example : ∃ (a : Mat B64 3 3) (s : Tri B64 3 3) (mt mq : Mat B64 3 3) (T Q : Nat → Nat → B64),
    a.own ∧ Shows a.at 3 3 Tri.caseA ∧ Tri.new a = .ok s ∧ s.t = .ok ⟨3, 3, mt⟩ ∧ s.q = .ok ⟨3, 3, mq⟩ ∧
      Shows mt.at 3 3 T ∧ Shows mq.at 3 3 Q ∧ (∀ i j, i < 3 → j < 3 → fin (T i j)) ∧
      (∀ i, i + 1 < 3 → val (T i (i + 1)) = 0 ∨ (3 : ℕ) * (1 / 2) ^ 1020 ≤ val (T i (i + 1)) ^ 2) ∧
      (∀ i, i + 1 < 3 → |val (T i (i + 1))| ≤ 2 ^ 510) ∧ (∀ i j, i < 3 → j < 3 → fin (Q i j)) ∧
      val (Q 0 0) = 1 ∧ val (Q 1 2) = -1 ∧ val (Q 2 1) = 1 := by
  let a : Mat B64 3 3 := .arr ⟨⟨Tri.caseA⟩, fun _ => 0⟩
  have hA : Shows a.at 3 3 Tri.caseA := (Mat.at_shows a).congr fun i j hi hj => rfl
  obtain ⟨s, d, e, htr, hmain⟩ := Tri.new_ok (a := a) trivial (by norm_num) hA
  obtain ⟨h1, h2, h3, h4, h5, h6, h7, h8⟩ := Tri.case_trace htr
  obtain ⟨mt, et, -, hT⟩ := Tri.t_ok (by norm_num) s
  have m0 : B64.Is (s.main.f 0) 5 := by rw [hmain]; simpa [upd1_eq] using h1
  have m1 : B64.Is (s.main.f 1) 3 := by rw [hmain]; simpa [upd1_eq] using h2
  have m2 : B64.Is (s.main.f 2) 1 := by rw [hmain]; simpa [upd1_eq] using h3
  have hs : ∀ i, i + 1 < 3 → Tri.tEnt s.main.f s.sec.f i (i + 1) = s.sec.f i := fun i _ => by
    rw [Tri.tEnt, if_neg (by omega), if_neg (by omega), if_pos rfl]
  have hz : (3 : ℕ) * ((1 : ℝ) / 2) ^ 1020 ≤ 1 := by
    have : ((1 : ℝ) / 2) ^ 1020 ≤ (1 / 2) ^ 2 := pow_le_pow_of_le_one (by norm_num) (by norm_num) (by norm_num)
    generalize ((1 : ℝ) / 2) ^ 1020 = w at *
    norm_num at this ⊢
    linarith
  have hw : (2 : ℝ) ≤ 2 ^ 510 := by
    calc (2 : ℝ) = 2 ^ 1 := by norm_num
      _ ≤ _ := pow_le_pow_right₀ (by norm_num) (by norm_num)
  have z := B64.Is.zero
  obtain ⟨mqt, q, eqt, hdt, hqt, q0, q1⟩ := Tri.qT_wp (show 0 < 3 by omega) s (fun k q =>
      (∀ i j, i < k ∨ j < k → i < 3 → j < 3 → B64.Is (q i j) 0) ∧
      (k = 2 → B64.Is (q 2 2) (-1)) ∧
      (k = 1 → B64.Is (q 1 1) 0 ∧ B64.Is (q 1 2) 1 ∧ B64.Is (q 2 1) (-1) ∧ B64.Is (q 2 2) 0))
    ⟨fun _ _ _ _ _ => z, fun h => by omega, fun h => by omega⟩ (by
      intro k q q' hk hk3 ⟨i1, i2, i3⟩ hS
      obtain rfl | rfl : k = 2 ∨ k = 1 := by omega
      · change Tri.QStep 3 2 (s.sec.f 1) (s.hv.f 1) q q' at hS
        refine ⟨fun i j hij hi hj => by rw [hS.other i j hij]; exact i1 i j (by omega) hi hj, fun _ => ?_,
          fun h => by omega⟩
        rw [hS.diag (h8.ne (by norm_num))]
        exact B64.Is.one.add ((B64.Is.one.div (t := -1 / 2) h5 (by norm_num) (by norm_num)
          (B64.Num.dy (-1) 1 (by norm_num) (by norm_num) (by norm_num))).mul (t := -2) h8 (by norm_num)
          (B64.dyi (-2) (by norm_num))) (by norm_num) (B64.dyi (-1) (by norm_num))
      · change Tri.QStep 3 1 (s.sec.f 0) (s.hv.f 0) q q' at hS
        have hne := h6.ne (by norm_num)
        have hq := i2 rfl
        have hr : B64.Is (Flt.div Flt.one (s.sec.f 0)) 1 := B64.Is.one.div h4 (by norm_num) (by norm_num)
          (B64.dyi 1 (by norm_num))
        have hi : B64.Is (Flt.div Flt.one (Flt.mul (s.sec.f 0) (s.hv.f 0 1))) (-1) :=
          B64.Is.one.div (h4.mul (t := -1) h6 (by norm_num) (B64.dyi (-1) (by norm_num))) (by norm_num)
            (by norm_num) (B64.dyi (-1) (by norm_num))
        have hb : B64.Is (Flt.mul (lsum (1 + 1) 3 (fun i => Flt.mul (q 2 i) (s.hv.f 0 i)) Flt.zero)
            (Flt.div Flt.one (Flt.mul (s.sec.f 0) (s.hv.f 0 1)))) 1 := by
          rw [lsum_succ (a := 1 + 1) (b := 2) le_rfl, lsum_self le_rfl]
          exact (z.add (t := -1) (hq.mul (t := -1) h7 (by norm_num) (B64.dyi (-1) (by norm_num))) (by norm_num)
            (B64.dyi (-1) (by norm_num))).mul hi (by norm_num) (B64.dyi 1 (by norm_num))
        refine ⟨fun i j hij hi hj => by rw [hS.other i j hij]; exact i1 i j (by omega) hi hj,
          fun h => by omega, fun _ => ⟨?_, ?_, ?_, ?_⟩⟩
        · rw [hS.diag hne]
          exact B64.Is.one.add (hr.mul (t := -1) h6 (by norm_num) (B64.dyi (-1) (by norm_num))) (by norm_num)
            (B64.dyi 0 (by norm_num))
        · rw [hS.row hne 2 (by omega) (by omega)]
          exact hr.mul h7 (by norm_num) (B64.dyi 1 (by norm_num))
        · rw [hS.col hne 2 (by omega) (by omega)]
          exact hb.mul h6 (by norm_num) (B64.dyi (-1) (by norm_num))
        · rw [hS.rest hne 2 2 (by omega) (by omega) (by omega) (by omega)]
          exact hq.add (hb.mul (t := 1) h7 (by norm_num) (B64.dyi 1 (by norm_num))) (by norm_num)
            (B64.dyi 0 (by norm_num)))
  obtain ⟨q11, q12, q21, q22⟩ := q1.2 rfl
  obtain ⟨mq, eq, -, hQ⟩ := C12_transpose hdt (by norm_num) hqt
  have e1 : s.q = .ok ⟨3, 3, mq⟩ := by
    unfold Tri.q
    rw [eqt, ok_bind]
    dsimp only
    rw [eq]
    rfl
  refine ⟨a, s, mt, mq, _, _, trivial, hA, e, et, e1, hT, hQ, fun i j hi hj => ?_, fun i hi => ?_,
    fun i hi => ?_, fun i j hi hj => ?_, ?_, ?_, ?_⟩
  · have hm : ∀ i, i < 3 → fin (s.main.f i) := fun i hi => by
      obtain rfl | rfl | rfl : i = 0 ∨ i = 1 ∨ i = 2 := by omega
      exacts [m0.1, m1.1, m2.1]
    have hc : ∀ i, i < 2 → fin (s.sec.f i) := fun i hi => by
      obtain rfl | rfl : i = 0 ∨ i = 1 := by omega
      exacts [h4.1, h5.1]
    unfold Tri.tEnt
    split_ifs
    · exact hm i hi
    · exact hc j (by omega)
    · exact hc i (by omega)
    · exact zero_fin
  · rw [hs i hi]
    obtain rfl | rfl : i = 0 ∨ i = 1 := by omega
    · rw [h4.2]; right; exact hz.trans (by norm_num)
    · rw [h5.2]; right; exact hz.trans (by norm_num)
  · rw [hs i hi]
    obtain rfl | rfl : i = 0 ∨ i = 1 := by omega
    · rw [h4.2, abs_one]; exact le_trans (by norm_num) hw
    · rw [h5.2, abs_neg, abs_two]; exact hw
  · rw [upd2_eq]
    split
    · exact one_fin
    · by_cases h : i < 1 ∨ j < 1
      · exact (q0 j i h.symm hj hi).1
      · obtain rfl | rfl : i = 1 ∨ i = 2 := by omega
        all_goals obtain rfl | rfl : j = 1 ∨ j = 2 := by omega
        exacts [q11.1, q21.1, q12.1, q22.1]
  · rw [upd2_eq, if_pos ⟨rfl, rfl⟩]; exact val_one
  · rw [upd2_eq, if_neg (by omega)]; exact q21.2
  · rw [upd2_eq, if_neg (by omega)]; exact q12.2

end Linear
