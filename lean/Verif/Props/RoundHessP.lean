import Verif.Lemmas.RoundHessP
import Verif.Props.RoundHess

/-!
# C104: the orthogonal factor of the Hessenberg reduction in rounded arithmetic

`fro M` is the Frobenius norm, `cnorm M j` the norm of a column.
-/

set_option linter.unusedSectionVars false

namespace Linear

open Spec Rnd Matrix
open Finset hiding val diag

/-! ## Specification -/

/-- The error of the accumulation of `p` reflections with `m` rows. -/
noncomputable def Spec.accErr (m p : Nat) (e : ℝ) : ℝ :=
  ((1 + 70 * (m + 4) * e) ^ p - 1) + p * (1 + 70 * (m + 4) * e) ^ p * (13 * e)

theorem accErr_nonneg {m p : Nat} {e : ℝ} (he : 0 ≤ e) : 0 ≤ accErr m p e := by
  unfold accErr
  have h1 : (1 : ℝ) ≤ (1 + 70 * (m + 4) * e) ^ p := one_le_pow₀ (by nlinarith [show (0 : ℝ) ≤ 70 * (m + 4) * e by positivity])
  have h2 : 0 ≤ p * (1 + 70 * (m + 4) * e) ^ p * (13 * e) := by positivity
  linarith

/-- The error in terms without powers. -/
theorem accErr_le {m p : Nat} {e : ℝ} (he : 0 ≤ e) (h : p * (70 * (m + 4) * e) ≤ 1) :
    accErr m p e ≤ 150 * p * (m + 4) * e := by
  have h1 := pow_le_lin (p := p) (x := 70 * (m + 4) * e) (by positivity) h
  have hp : (0 : ℝ) ≤ p := Nat.cast_nonneg _
  have hm : (0 : ℝ) ≤ m := Nat.cast_nonneg _
  unfold accErr
  have h4 : (1 + 70 * (m + 4) * e) ^ p ≤ 3 := by nlinarith
  have h6 : p * (1 + 70 * (m + 4) * e) ^ p * (13 * e) ≤ p * 3 * (13 * e) := by gcongr
  have h7 : 0 ≤ p * m * e := by positivity
  have h8 : 0 ≤ p * e := by positivity
  linarith

section round

variable {α : Type} [Flt α] [Rnd α] [ZeroLaws α] {m : Nat}

/-! ## C104 -/

/-- **C104.** When the entries of `H` and `P` are finite and no entry of `H` next to the diagonal is a
tiny number, there is an exactly orthogonal matrix `P₀` that makes the error of the reduction small as in
C103, and every column of the computed `P` is near to the column of `P₀`. -/
theorem C104_near {a : Mat α m m} (ha : a.own) (hm : 0 < m) {A : Nat → Nat → α} (hA : Shows a.at m m A)
    {s : Hess α m m} (hs : Hess.new a = .ok s) {mh mp : Mat α m m} {H P : Nat → Nat → α}
    (eh : s.h = .ok ⟨m, m, mh⟩) (hH : Shows mh.at m m H) (ep : s.p = .ok ⟨m, m, mp⟩) (hP : Shows mp.at m m P)
    {e : ℝ} (he : u α ≤ e) (hM : (m + 4) * e ≤ 1 / 200) (hη : 5 * m ^ 2 * η α ≤ e)
    (hf : ∀ i j, i < m → j < m → fin (H i j))
    (hsub : ∀ k, k + 2 < m → val (H (k + 1) k) = 0 ∨ m * η α ≤ e * |val (H (k + 1) k)|)
    (hPf : ∀ i j, i < m → j < m → fin (P i j)) :
    ∃ P₀ : Matrix (Fin m) (Fin m) ℝ, P₀ᵀ * P₀ = 1 ∧
      fro ((mx m m fun i j => val (A i j)) - P₀ * (mx m m fun i j => val (H i j)) * P₀ᵀ) ≤
        hessErr α m (2 * (m - 2)) e (fro (mx m m fun i j => val (A i j))) ∧
      ∀ j, cnorm ((mx m m fun i j => val (P i j)) - P₀) j ≤ accErr m (m - 2) e := by
  obtain ⟨h1, V, b, hI⟩ := Hess.new_round ha hm hA hs eh hH he (by linarith) hη hf
  obtain ⟨g1, g2⟩ := hI.last h1 rfl
  refine ⟨_, g1, g2, fun j => ?_⟩
  obtain ⟨M, o, p, e1, -, h2, h3⟩ := Hess.p_wp hm s (Hess.PInv m m e V b s.ort.f)
    (fun p hp => Hess.PInv.init V b hp) (by
      intro k o o' p p' hk hkm hI' hS
      refine hI'.step hk hkm le_rfl he hM hη hS (fun j q1 q2 => hI.done j q1 (by omega)) ?_
      have := hsub (k - 1) (by omega)
      rwa [h1 _ _ (by omega) (by omega), Hess.hEnt, if_pos (by omega), show k - 1 + 1 = k by omega] at this)
  rw [ep] at e1
  cases Except.ok.inj e1
  have hu : ∀ i j, i < m → j < m → p i j = P i j := fun i j hi hj => h2.unique hP hi hj
  have h4 := h3.err (fun i j _ hi _ hj => by rw [hu i j hi hj]; exact hPf i j hi hj) j
  rw [show min 1 (m - 1) - 1 = 0 by omega, hfrom_zero, show mx m m (vals p) = mx m m fun i j => val (P i j) from
    mx_congr fun i j hi hj => congrArg val (hu i j hi hj)] at h4
  refine h4.trans (le_of_eq ?_)
  rw [show m - 1 - min 1 (m - 1) = m - 2 by omega]
  rfl

/-- The product of the computed factors, from the exact orthogonal one. -/
theorem fro_near_product {A H P O : Matrix (Fin m) (Fin m) ℝ} {E δ : ℝ} (hO : Oᵀ * O = 1) (hδ : 0 ≤ δ)
    (hE : fro (A - O * H * Oᵀ) ≤ E) (hc : ∀ j, cnorm (P - O) j ≤ δ) :
    fro (A - P * H * Pᵀ) ≤ E + (2 * √m * δ + m * δ ^ 2) * fro H := by
  have n1 := fro_near le_rfl hδ hc
  have hN : √(m : ℝ) ^ 2 = m := Real.sq_sqrt (Nat.cast_nonneg _)
  have hN0 := Real.sqrt_nonneg (m : ℝ)
  generalize √(m : ℝ) = N at *
  obtain ⟨X, hX⟩ : ∃ X, X = P - O := ⟨_, rfl⟩
  rw [← hX] at n1
  have eX : P = O + X := by rw [hX]; abel
  have e1 : A - P * H * Pᵀ = (A - O * H * Oᵀ) + -(X * H * Oᵀ + (X * H * Xᵀ + O * (H * Xᵀ))) := by
    rw [eX, Matrix.transpose_add]
    simp only [Matrix.add_mul, Matrix.mul_add, Matrix.mul_assoc]
    abel
  have o2 : Oᵀ * (Oᵀ)ᵀ = 1 := by rw [Matrix.transpose_transpose]; exact hO
  have b1 := fro_add_le (A - O * H * Oᵀ) (-(X * H * Oᵀ + (X * H * Xᵀ + O * (H * Xᵀ))))
  rw [← e1, fro_neg] at b1
  have b2 := fro_add_le (X * H * Oᵀ) (X * H * Xᵀ + O * (H * Xᵀ))
  have b3 := fro_add_le (X * H * Xᵀ) (O * (H * Xᵀ))
  rw [fro_right o2] at b2
  rw [fro_left hO] at b3
  have b4 := fro_mul_le X H
  have b5 := fro_mul_le (X * H) Xᵀ
  have b6 := fro_mul_le H Xᵀ
  rw [fro_transpose] at b5 b6
  have hH0 := fro_nonneg H
  have hX0 := fro_nonneg X
  have hXH := fro_nonneg (X * H)
  have c1 : fro X * fro H ≤ N * δ * fro H := by gcongr
  have c2 : fro (X * H) * fro X ≤ N * δ * fro H * (N * δ) :=
    mul_le_mul (b4.trans c1) n1 hX0 (by positivity)
  have c3 : fro H * fro X ≤ fro H * (N * δ) := by gcongr
  have c4 : N * δ * fro H * (N * δ) = m * δ ^ 2 * fro H := by rw [← hN]; ring
  linarith

/-- **C104.** The columns of the computed `P` are nearly orthonormal, and the product `P H Pᵀ` of the
computed factors is near to the matrix. -/
theorem C104_factors {a : Mat α m m} (ha : a.own) (hm : 0 < m) {A : Nat → Nat → α} (hA : Shows a.at m m A)
    {s : Hess α m m} (hs : Hess.new a = .ok s) {mh mp : Mat α m m} {H P : Nat → Nat → α}
    (eh : s.h = .ok ⟨m, m, mh⟩) (hH : Shows mh.at m m H) (ep : s.p = .ok ⟨m, m, mp⟩) (hP : Shows mp.at m m P)
    {e δ : ℝ} (he : u α ≤ e) (hM : (m + 4) * e ≤ 1 / 200) (hη : 5 * m ^ 2 * η α ≤ e)
    (hf : ∀ i j, i < m → j < m → fin (H i j))
    (hsub : ∀ k, k + 2 < m → val (H (k + 1) k) = 0 ∨ m * η α ≤ e * |val (H (k + 1) k)|)
    (hPf : ∀ i j, i < m → j < m → fin (P i j)) (hδ : accErr m (m - 2) e ≤ δ) :
    (∀ i j : Fin m, |∑ k ∈ range m, val (P k i) * val (P k j) - if i = j then 1 else 0| ≤ 2 * δ + δ ^ 2) ∧
    fro ((mx m m fun i j => val (A i j)) - (mx m m fun i j => val (P i j)) * (mx m m fun i j => val (H i j)) *
        (mx m m fun i j => val (P i j))ᵀ) ≤
      hessErr α m (2 * (m - 2)) e (fro (mx m m fun i j => val (A i j))) +
        (2 * √m * δ + m * δ ^ 2) * fro (mx m m fun i j => val (H i j)) := by
  obtain ⟨P₀, h1, h2, h3⟩ := C104_near ha hm hA hs eh hH ep hP he hM hη hf hsub hPf
  have hc := fun j => (h3 j).trans hδ
  exact ⟨near_orth h1 hc, fro_near_product h1 ((accErr_nonneg ((u_nonneg (α := α)).trans he)).trans hδ) h2 hc⟩

/-- **C104**, why tiny entries have to be excluded: the reduction takes a column for zero when its sum is
the smallest positive number, but `P` does not.  For the 3 × 3 identity matrix with such a number below its
first diagonal entry the reduction changes nothing, and `P` is not finite. -/
theorem C104_skip {a : Mat α 3 3} (ha : a.own) {x : α} (hx : fin x) (h0 : val x ≠ 0) (h4 : |val x| < 4 * η α)
    (hle : |val x| ≤ 1)
    (hA : Shows a.at 3 3 fun i j => if i = j then Flt.one else if i = 1 ∧ j = 0 then x else Flt.zero) :
    ∃ (s : Hess α 3 3) (mh mp : Mat α 3 3) (H P : Nat → Nat → α), Hess.new a = .ok s ∧
      s.h = .ok ⟨3, 3, mh⟩ ∧ s.p = .ok ⟨3, 3, mp⟩ ∧ Shows mh.at 3 3 H ∧ Shows mp.at 3 3 P ∧
      (∀ i j, i < 3 → j < 3 → H i j = if i = j then Flt.one else if i = 1 ∧ j = 0 then x else Flt.zero) ∧
      ¬ fin (P 1 1) := by
  have hbig := big_le (α := α)
  obtain ⟨s, e1, h1, h2⟩ := Hess.new_wp' ha (by norm_num) hA
    (fun _ f o => (∀ i j, i < 3 → j < 3 →
      f i j = if i = j then Flt.one else if i = 1 ∧ j = 0 then x else Flt.zero) ∧ ∀ i, o i = Flt.zero)
    (fun f o h ho => ⟨h, ho⟩) (by
      rintro k f f' o o' hk hk' ⟨h1, h2⟩ hS
      obtain rfl : k = 1 := by omega
      have e10 : f 1 (1 - 1) = x := h1 1 0 (by omega) (by omega)
      have e20 : f 2 (1 - 1) = Flt.zero := h1 2 0 (by omega) (by omega)
      have ht : Flt.ulpEq (lsum 1 3 (fun i => Flt.abs (f i (1 - 1))) Flt.zero) (Flt.zero : α) = true := by
        rw [lsum_succ (by omega), lsum_succ (a := 1) (b := 1) (by omega), lsum_self le_rfl]
        rw [e10, e20]
        have f1 : fin (Flt.add Flt.zero (Flt.abs x)) := add_ok zero_fin (abs_fin.2 hx) (by
          rw [val_zero, _root_.zero_add, val_abs hx, abs_abs]; linarith)
        have v1 : val (Flt.add Flt.zero (Flt.abs x)) = |val x| := by
          rw [Rnd.zero_add f1 val_zero, val_abs hx]
        have za : val (Flt.abs (Flt.zero : α)) = 0 := by rw [val_abs zero_fin, val_zero, abs_zero]
        have f2 : fin (Flt.add (Flt.add Flt.zero (Flt.abs x)) (Flt.abs Flt.zero)) :=
          add_ok f1 (abs_fin.2 zero_fin) (by rw [v1, za, _root_.add_zero, abs_abs]; linarith)
        have v2 := Rnd.add_zero f2 za
        rw [v1] at v2
        exact zero_ulp f2 (by rw [v2]; exact abs_nonneg _) (.inr (by rw [v2]; exact h4))
      cases hS with
      | skip _ _ _ hf ho => rw [hf, ho]; exact ⟨h1, h2⟩
      | refl σ _ _ _ hs hne => rw [hs, ht] at hne; exact absurd hne (by decide))
  obtain ⟨mh, eh, -, hh⟩ := Hess.h_ok (by norm_num) s
  obtain ⟨mp, o, p, ep, -, hp, -, hq⟩ := Hess.p_wp (by norm_num) s
    (fun k o p => (k = 2 → ∀ i, o i = Flt.zero) ∧ (k = 1 → ¬ fin (p 1 1)))
    (fun p hp => ⟨fun _ => h2, fun h => absurd h (by decide)⟩) (by
      rintro k o o' p p' hk hk' ⟨g1, -⟩ hS
      obtain rfl : k = 1 := by omega
      have e10 : s.hv.f 1 (1 - 1) = x := h1 1 0 (by omega) (by omega)
      have hne : Flt.eq (s.hv.f 1 (1 - 1)) Flt.zero = false := by
        rw [e10, Bool.eq_false_iff, Ne, eq_iff hx zero_fin, val_zero]
        exact h0
      refine ⟨by omega, fun _ hf => ?_⟩
      rw [hS.cols hne 1 1 le_rfl (by omega) le_rfl (by omega), hS.ort 1 le_rfl, g1 rfl 1] at hf
      exact div_ne (div_fin (mul_fin (add_fin hf).2).1) zero_fin val_zero)
  refine ⟨s, mh, mp, _, p, e1, eh, ep, hh, hp, fun i j hi hj => ?_, hq rfl⟩
  unfold Hess.hEnt
  by_cases c : i ≤ j + 1
  · rw [if_pos c, h1 i j hi hj]
  · rw [if_neg c, if_neg (by omega), if_neg (by omega)]

end round

/-! ## binary64 -/

/-- **C104** for binary64: when every entry of `H` next to the diagonal is 0 or at least `m · 2⁻¹⁰²²`, the
entries of the Gram matrix of the computed `P` are off by at most `305 (m - 2) (m + 4) 2⁻⁵³`. -/
theorem C104_binary64 {m : Nat} {a : Mat B64 m m} (ha : a.own) (hm : 0 < m) {A : Nat → Nat → B64}
    (hA : Shows a.at m m A) {s : Hess B64 m m} (hs : Hess.new a = .ok s) {mh mp : Mat B64 m m}
    {H P : Nat → Nat → B64} (eh : s.h = .ok ⟨m, m, mh⟩) (hH : Shows mh.at m m H) (ep : s.p = .ok ⟨m, m, mp⟩)
    (hP : Shows mp.at m m P) (hp : (m + 4) * (m + 4) ≤ 2 ^ 40) (hf : ∀ i j, i < m → j < m → fin (H i j))
    (hsub : ∀ k, k + 2 < m → val (H (k + 1) k) = 0 ∨ m * (1 / 2) ^ 1022 ≤ |val (H (k + 1) k)|)
    (hPf : ∀ i j, i < m → j < m → fin (P i j)) (i j : Fin m) :
    |∑ k ∈ range m, val (P k i) * val (P k j) - if i = j then 1 else 0| ≤
      305 * (m - 2 : ℕ) * (m + 4) * (1 / 2) ^ 53 := by
  have hm0 : (0 : ℝ) ≤ m := Nat.cast_nonneg m
  have hp' : ((m : ℝ) + 4) * (m + 4) ≤ 2 ^ 40 := by exact_mod_cast hp
  have h2 : ((m - 2 : ℕ) : ℝ) ≤ m + 4 := by exact_mod_cast (show m - 2 ≤ m + 4 by omega)
  have h4 : ((m - 2 : ℕ) : ℝ) * (m + 4) ≤ 2 ^ 40 := (mul_le_mul_of_nonneg_right h2 (by positivity)).trans hp'
  have h5 : (m : ℝ) + 4 ≤ 2 ^ 40 := by norm_num at hp' ⊢; nlinarith
  have h6 : (m : ℝ) ^ 2 ≤ 2 ^ 40 := by nlinarith
  have h7 : ((m - 2 : ℕ) : ℝ) * (70 * (m + 4) * (1 / 2) ^ 53) ≤ 1 := by
    rw [show ((m - 2 : ℕ) : ℝ) * (70 * (m + 4) * (1 / 2) ^ 53) =
      ((m - 2 : ℕ) : ℝ) * (m + 4) * (70 * (1 / 2) ^ 53) by ring]
    norm_num at h4 ⊢; linarith
  have hE : η B64 = (1 / 2) ^ 53 * (1 / 2) ^ 1022 := by
    rw [show η B64 = (1 / 2) ^ 1075 from rfl, ← pow_add]
  have hz : (0 : ℝ) < (1 / 2) ^ 1022 := by positivity
  have h8 : ((1 : ℝ) / 2) ^ 1022 ≤ (1 / 2) ^ 60 := pow_le_pow_of_le_one (by norm_num) (by norm_num) (by norm_num)
  obtain ⟨q, -⟩ := C104_factors ha hm hA hs eh hH ep hP (e := (1 / 2) ^ 53)
    (δ := 150 * (m - 2 : ℕ) * (m + 4) * (1 / 2) ^ 53) le_rfl (by norm_num at h5 ⊢; linarith) (by
      rw [hE]
      generalize ((1 : ℝ) / 2) ^ 1022 = z at *
      have h9 : 5 * (m : ℝ) ^ 2 * z ≤ 5 * 2 ^ 40 * (1 / 2) ^ 60 := by gcongr
      have h10 : (5 : ℝ) * 2 ^ 40 * (1 / 2) ^ 60 ≤ 1 := by norm_num
      calc 5 * (m : ℝ) ^ 2 * ((1 / 2) ^ 53 * z) = 5 * (m : ℝ) ^ 2 * z * (1 / 2) ^ 53 := by ring
        _ ≤ 1 * (1 / 2) ^ 53 := mul_le_mul_of_nonneg_right (h9.trans h10) (by positivity)
        _ = _ := one_mul _) hf (fun k hk => (hsub k hk).imp id fun h => by
      rw [hE]
      generalize ((1 : ℝ) / 2) ^ 1022 = z at *
      have := mul_le_mul_of_nonneg_left h (show (0 : ℝ) ≤ (1 / 2) ^ 53 by positivity)
      linarith) hPf (accErr_le (by positivity) h7)
  refine (q i j).trans ?_
  have h9 : 0 ≤ ((m - 2 : ℕ) : ℝ) * (m + 4) := by positivity
  rw [show (150 : ℝ) * (m - 2 : ℕ) * (m + 4) * (1 / 2) ^ 53 = ((m - 2 : ℕ) : ℝ) * (m + 4) * (150 * (1 / 2) ^ 53) by ring,
    show (305 : ℝ) * (m - 2 : ℕ) * (m + 4) * (1 / 2) ^ 53 = ((m - 2 : ℕ) : ℝ) * (m + 4) * (305 * (1 / 2) ^ 53) by ring]
  generalize ((m - 2 : ℕ) : ℝ) * (m + 4) = t at *
  clear h7 q hsub hE hz h8
  have h10 := mul_le_mul_of_nonneg_left h4 h9
  norm_num at h10 ⊢
  nlinarith

theorem B64.numTiny : B64.Num (2 ^ (-1074 : ℤ)) := by
  refine ⟨⟨1, -1074, by norm_num, by norm_num, by simp⟩, ?_⟩
  rw [abs_of_pos (zpow_pos (by norm_num) _)]
  exact lt_of_lt_of_le (zpow_lt_one_of_neg₀ (by norm_num) (by norm_num)) (one_le_pow₀ (by norm_num))

/-- **C104**: a finite binary64 matrix with a finite `H` for which `P` has an entry that is not finite. -/
theorem C104_tiny : ∃ (a : Mat B64 3 3) (s : Hess B64 3 3) (mh mp : Mat B64 3 3) (H P : Nat → Nat → B64),
    a.own ∧ Shows a.at 3 3 (fun i j => if i = j then Flt.one else if i = 1 ∧ j = 0 then
      B64.num _ B64.numTiny else Flt.zero) ∧ Hess.new a = .ok s ∧ s.h = .ok ⟨3, 3, mh⟩ ∧ s.p = .ok ⟨3, 3, mp⟩ ∧
      Shows mh.at 3 3 H ∧ Shows mp.at 3 3 P ∧ (∀ i j, i < 3 → j < 3 → fin (H i j)) ∧ ¬ fin (P 1 1) := by
  let a : Mat B64 3 3 := .arr ⟨⟨fun i j => if i = j then Flt.one else if i = 1 ∧ j = 0 then
      B64.num _ B64.numTiny else Flt.zero⟩, fun _ => 0⟩
  have hA : Shows a.at 3 3 (fun i j => if i = j then Flt.one else if i = 1 ∧ j = 0 then
      B64.num _ B64.numTiny else Flt.zero) := (Mat.at_shows a).congr fun i j hi hj => rfl
  have hpos : (0 : ℝ) < 2 ^ (-1074 : ℤ) := zpow_pos (by norm_num) _
  have hE : 4 * η B64 = 2 * 2 ^ (-1074 : ℤ) := by
    rw [show η B64 = (1 / 2) ^ 1075 from rfl, show (-1074 : ℤ) = -1075 + 1 by norm_num,
      zpow_add₀ (by norm_num), zpow_neg, show (1075 : ℤ) = ((1075 : ℕ) : ℤ) from rfl, zpow_natCast, one_div, inv_pow]
    ring
  obtain ⟨s, mh, mp, H, P, h1, h2, h3, h4, h5, h6, h7⟩ := C104_skip (a := a) trivial
    (x := B64.num _ B64.numTiny) trivial hpos.ne' (by
      show |(2 : ℝ) ^ (-1074 : ℤ)| < _
      rw [abs_of_pos hpos, hE]; linarith) (by
      show |(2 : ℝ) ^ (-1074 : ℤ)| ≤ 1
      rw [abs_of_pos hpos]
      exact (zpow_lt_one_of_neg₀ (by norm_num) (by norm_num)).le) hA
  refine ⟨a, s, mh, mp, H, P, trivial, hA, h1, h2, h3, h4, h5, fun i j hi hj => ?_, h7⟩
  rw [h6 i j hi hj]
  split_ifs
  · exact one_fin
  · trivial
  · exact zero_fin

/-- Concrete case for C104: the matrix of C103; `P` exchanges the last two coordinates. -/
example : ∃ (a : Mat B64 3 3) (s : Hess B64 3 3) (mh mp : Mat B64 3 3) (H P : Nat → Nat → B64),
    a.own ∧ Shows a.at 3 3 Hess.caseA ∧ Hess.new a = .ok s ∧ s.h = .ok ⟨3, 3, mh⟩ ∧ s.p = .ok ⟨3, 3, mp⟩ ∧
      Shows mh.at 3 3 H ∧ Shows mp.at 3 3 P ∧ (∀ i j, i < 3 → j < 3 → fin (H i j)) ∧
      (∀ k, k + 2 < 3 → val (H (k + 1) k) = 0 ∨ (3 : ℕ) * (1 / 2) ^ 1022 ≤ |val (H (k + 1) k)|) ∧
      (∀ i j, i < 3 → j < 3 → fin (P i j)) ∧ val (P 1 1) = 0 ∧ val (P 1 2) = 1 := by
  let a : Mat B64 3 3 := .arr ⟨⟨Hess.caseA⟩, fun _ => 0⟩
  have hA : Shows a.at 3 3 Hess.caseA := (Mat.at_shows a).congr fun i j hi hj => rfl
  obtain ⟨s, e, ho, h00, h01, h02, h10, h11, h12, h20, h21, h22⟩ := Hess.case_new (a := a) trivial hA
  obtain ⟨mh, eh, -, hH⟩ := Hess.h_ok (by norm_num) s
  obtain ⟨mp, o, p, ep, -, hp, -, hq⟩ := Hess.p_wp (by norm_num) s
    (fun k o p => (k = 2 → o 1 = B64.int (-1) ∧ ∀ i j, i < 3 → j < 3 → p i j = if i = j then Flt.one else Flt.zero) ∧
      (k = 1 → ∀ i j, i < 3 → j < 3 → p i j = if (i = 0 ∧ j = 0) ∨ (i = 1 ∧ j = 2) ∨ (i = 2 ∧ j = 1) then
        B64.int 1 else B64.int 0))
    (fun p hp => ⟨fun _ => ⟨ho, hp⟩, fun h => absurd h (by decide)⟩) (by
      rintro k o o' p p' hk hk' ⟨g1, -⟩ hS
      obtain rfl : k = 1 := by omega
      obtain ⟨g1, g2⟩ := g1 rfl
      have h10' : s.hv.f 1 (1 - 1) = B64.int 1 := h10
      have hne : Flt.eq (s.hv.f 1 (1 - 1)) Flt.zero = false := by
        rw [h10', Bool.eq_false_iff, Ne, eq_iff (B64.int_fin _) zero_fin, val_zero, B64.int_val]
        norm_num
      refine ⟨by omega, fun _ i j hi hj => ?_⟩
      have o1 : o' 1 = B64.int (-1) := by rw [hS.ort 1 le_rfl, g1]
      have o2 : o' 2 = B64.int 1 := by rw [hS.ortf hne 2 (by omega) (by omega)]; exact h20
      have z : (Flt.zero : B64) = B64.int 0 := B64.zero_int
      have w : (Flt.one : B64) = B64.int 1 := B64.one_int
      have q : ∀ i j, i < 3 → j < 3 → p i j = if i = j then B64.int 1 else B64.int 0 := by
        intro i j hi hj; rw [g2 i j hi hj, w, z]
      have q11 : p 1 1 = B64.int 1 := q 1 1 (by omega) (by omega)
      have q12 : p 1 2 = B64.int 0 := q 1 2 (by omega) (by omega)
      have q21 : p 2 1 = B64.int 0 := q 2 1 (by omega) (by omega)
      have q22 : p 2 2 = B64.int 1 := q 2 2 (by omega) (by omega)
      by_cases hc : i < 1 ∨ j < 1
      · rw [hS.other i j hc, q i j hi hj]
        by_cases hij : i = j
        · rw [if_pos hij, if_pos (by omega)]
        · rw [if_neg hij, if_neg (by omega)]
      · have := hS.cols hne i j (by omega) hi (by omega) hj
        rw [lsum_succ (by omega), lsum_succ (a := 1) (b := 1) (by omega), lsum_self le_rfl, h10', o1, o2, z] at this
        rw [this]
        obtain rfl | rfl : i = 1 ∨ i = 2 := by omega
        · obtain rfl | rfl : j = 1 ∨ j = 2 := by omega
          · rw [q11, q21, o1, B64.mul_int _ _ (by norm_num), B64.mul_int _ _ (by norm_num),
              B64.add_int _ _ (by norm_num), B64.add_int _ _ (by norm_num),
              B64.div_int (m := 1) _ _ (by norm_num) (by norm_num) (by norm_num),
              B64.div_int (m := 1) _ _ (by norm_num) (by norm_num) (by norm_num),
              B64.mul_int _ _ (by norm_num), B64.add_int _ _ (by norm_num)]
            rfl
          · rw [q12, q22, o1, B64.mul_int _ _ (by norm_num), B64.mul_int _ _ (by norm_num),
              B64.add_int _ _ (by norm_num), B64.add_int _ _ (by norm_num),
              B64.div_int (m := -1) _ _ (by norm_num) (by norm_num) (by norm_num),
              B64.div_int (m := -1) _ _ (by norm_num) (by norm_num) (by norm_num),
              B64.mul_int _ _ (by norm_num), B64.add_int _ _ (by norm_num)]
            rfl
        · obtain rfl | rfl : j = 1 ∨ j = 2 := by omega
          · rw [q11, q21, o2, B64.mul_int _ _ (by norm_num), B64.mul_int _ _ (by norm_num),
              B64.add_int _ _ (by norm_num), B64.add_int _ _ (by norm_num),
              B64.div_int (m := 1) _ _ (by norm_num) (by norm_num) (by norm_num),
              B64.div_int (m := 1) _ _ (by norm_num) (by norm_num) (by norm_num),
              B64.mul_int _ _ (by norm_num), B64.add_int _ _ (by norm_num)]
            rfl
          · rw [q12, q22, o2, B64.mul_int _ _ (by norm_num), B64.mul_int _ _ (by norm_num),
              B64.add_int _ _ (by norm_num), B64.add_int _ _ (by norm_num),
              B64.div_int (m := -1) _ _ (by norm_num) (by norm_num) (by norm_num),
              B64.div_int (m := -1) _ _ (by norm_num) (by norm_num) (by norm_num),
              B64.mul_int _ _ (by norm_num), B64.add_int _ _ (by norm_num)]
            rfl)
  replace hq := hq rfl
  refine ⟨a, s, mh, mp, _, p, trivial, hA, e, eh, ep, hH, hp, fun i j hi hj => ?_, fun k hk => .inr ?_,
    fun i j hi hj => ?_, ?_, ?_⟩
  · unfold Hess.hEnt
    split_ifs with hc
    · obtain rfl | rfl | rfl : i = 0 ∨ i = 1 ∨ i = 2 := by omega
      · obtain rfl | rfl | rfl : j = 0 ∨ j = 1 ∨ j = 2 := by omega
        · rw [h00]; trivial
        · rw [h01]; trivial
        · rw [h02]; trivial
      · obtain rfl | rfl | rfl : j = 0 ∨ j = 1 ∨ j = 2 := by omega
        · rw [h10]; trivial
        · rw [h11]; trivial
        · rw [h12]; trivial
      · obtain rfl | rfl | rfl : j = 0 ∨ j = 1 ∨ j = 2 := by omega
        · rw [h20]; trivial
        · rw [h21]; trivial
        · rw [h22]; trivial
    · exact zero_fin
  · obtain rfl : k = 0 := by omega
    rw [Hess.hEnt, if_pos (by omega), h10, B64.int_val]
    have : ((1 : ℝ) / 2) ^ 1022 ≤ (1 / 2) ^ 2 := pow_le_pow_of_le_one (by norm_num) (by norm_num) (by norm_num)
    generalize ((1 : ℝ) / 2) ^ 1022 = z at *
    norm_num at this ⊢
    linarith
  · rw [hq i j hi hj]
    split_ifs <;> trivial
  · rw [hq 1 1 (by omega) (by omega), if_neg (by omega), B64.int_val]; norm_num
  · rw [hq 1 2 (by omega) (by omega), if_pos (by omega), B64.int_val]; norm_num

end Linear
