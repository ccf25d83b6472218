import Verif.Lemmas.RoundHessRed
import Verif.Props.Hess
import Verif.Props.RoundBi

/-!
# C103: the Hessenberg reduction in rounded arithmetic

`fro M` is the Frobenius norm.  The theorems hold for every arithmetic that satisfies `Rnd`, in particular
for `B64`.
-/

set_option linter.unusedSectionVars false

namespace Linear

open Spec Rnd Matrix
open Finset hiding val diag

/-! ## Specification -/

/-- The error of `p` reflections on a matrix of norm `x` with `m` rows and columns: a relative part of
about `38 p (m + 4) e` and a part for underflow. -/
noncomputable def Spec.hessErr (α : Type) [Flt α] [Rnd α] (m p : Nat) (e x : ℝ) : ℝ :=
  ((1 + 38 * (m + 4) * e) ^ p - 1) * x + p * (1 + 38 * (m + 4) * e) ^ p * (7 * m ^ 2 * η α)

section round

variable {α : Type} [Flt α] [Rnd α] {m : Nat}

/-- The error in terms without powers. -/
theorem hessErr_le {p : Nat} {e x : ℝ} (he : 0 ≤ e) (hx : 0 ≤ x) (h : p * (38 * (m + 4) * e) ≤ 1) :
    hessErr α m p e x ≤ 76 * p * (m + 4) * e * x + 21 * p * m ^ 2 * η α := by
  have h1 := pow_le_lin (p := p) (x := 38 * (m + 4) * e) (by positivity) h
  have h2 := η_nonneg (α := α)
  have hp : (0 : ℝ) ≤ p := Nat.cast_nonneg _
  unfold hessErr
  have h3 : (1 + 38 * (m + 4) * e) ^ p - 1 ≤ 76 * p * (m + 4) * e := by nlinarith
  have h4 : (1 + 38 * (m + 4) * e) ^ p ≤ 3 := by nlinarith
  have h5 := mul_le_mul_of_nonneg_right h3 hx
  have h6 : p * (1 + 38 * (m + 4) * e) ^ p * (7 * m ^ 2 * η α) ≤ p * 3 * (7 * m ^ 2 * η α) := by gcongr
  linarith

variable [ZeroLaws α]

/-- The reduction, round by round. -/
theorem Hess.new_round {a : Mat α m m} (ha : a.own) (hm : 0 < m) {A : Nat → Nat → α} (hA : Shows a.at m m A)
    {s : Hess α m m} (hs : Hess.new a = .ok s) {mh : Mat α m m} {H : Nat → Nat → α} (eh : s.h = .ok ⟨m, m, mh⟩)
    (hH : Shows mh.at m m H) {e : ℝ} (he : Rnd.u α ≤ e) (hM : (m + 4) * e ≤ 1 / 100) (hη : 5 * m ^ 2 * η α ≤ e)
    (hf : ∀ i j, i < m → j < m → fin (H i j)) :
    (∀ i j, i < m → j < m → H i j = Hess.hEnt s.hv.f i j) ∧
    ∃ V b, Hess.RInv m m e A (max 1 (m - 1)) s.hv.f s.ort.f V b := by
  obtain ⟨s', e1, hI⟩ := Hess.new_wp ha hm hA
    (fun k f o => Hess.RFin m k f → ∃ V b, Hess.RInv m m e A k f o V b)
    (fun f o h hF => ⟨_, _, Hess.rinv_init h hF⟩)
    (fun k f f' o o' h1 h2 hI hS hF => Hess.rinv_step h1 (by omega) le_rfl he hM hη hS hI hF)
  rw [hs] at e1
  cases Except.ok.inj e1
  obtain ⟨mh', eh', -, hH'⟩ := Hess.h_ok hm s
  rw [eh] at eh'
  cases Except.ok.inj eh'
  have hu : ∀ i j, i < m → j < m → H i j = Hess.hEnt s.hv.f i j := fun i j hi hj => hH.unique hH' hi hj
  refine ⟨hu, hI fun i j hi hj h => ?_⟩
  have := hf i j hi hj
  rwa [hu i j hi hj, Hess.hEnt, if_pos (by omega)] at this

/-- What the entries of `H` stand for at the end. -/
theorem Hess.RInv.last {e : ℝ} {A f : Nat → Nat → α} {o : Nat → α} {V : Nat → Nat → ℝ} {b : Nat → ℝ}
    (hI : Hess.RInv m m e A (max 1 (m - 1)) f o V b) {H : Nat → Nat → α}
    (hH : ∀ i j, i < m → j < m → H i j = Hess.hEnt f i j) {P : Matrix (Fin m) (Fin m) ℝ}
    (hP : P = hprod m (Hess.X m V b) (m - 2)) :
    Pᵀ * P = 1 ∧ fro (mx m m (fun i j => val (A i j)) - P * (mx m m fun i j => val (H i j)) * Pᵀ) ≤
      hessErr α m (2 * (m - 2)) e (fro (mx m m fun i j => val (A i j))) := by
  have ho := hI.orth
  have hE := hI.err
  rw [show max 1 (m - 1) - 1 = m - 2 by omega, ← hP] at ho hE
  refine ⟨mul_eq_one_comm.1 ho, ?_⟩
  have e1 : mx m m (Hess.M (max 1 (m - 1)) (vals f)) = mx m m fun i j => val (H i j) := by
    refine mx_congr fun i j hi hj => ?_
    rw [hH i j hi hj]
    unfold Hess.M Hess.hEnt vals
    by_cases h : i ≤ j + 1
    · rw [if_neg (by omega), if_pos h]
    · rw [if_pos (by omega), if_neg h, val_zero]
  rw [e1] at hE
  rw [fro_swap (mul_eq_one_comm.1 ho) ho ho]
  refine hE.trans (le_of_eq ?_)
  unfold hessErr
  have : √(m : ℝ) * (7 * (m * √m * η α)) = 7 * m ^ 2 * η α := by
    have := Real.mul_self_sqrt (Nat.cast_nonneg (α := ℝ) m)
    linear_combination 7 * m * η α * this
  rw [this]
  rfl

/-! ## C103 -/

/-- **C103.** When the entries of `H` are finite, then the matrix is finite, `H` is zero below the diagonal
next to the main one, and there is an exactly orthogonal matrix `P` such that `P H Pᵀ` differs from the
matrix by at most `hessErr` of its Frobenius norm. -/
theorem C103_backward {a : Mat α m m} (ha : a.own) (hm : 0 < m) {A : Nat → Nat → α} (hA : Shows a.at m m A)
    {s : Hess α m m} (hs : Hess.new a = .ok s) {mh : Mat α m m} {H : Nat → Nat → α} (eh : s.h = .ok ⟨m, m, mh⟩)
    (hH : Shows mh.at m m H) {e : ℝ} (he : u α ≤ e) (hM : (m + 4) * e ≤ 1 / 100) (hη : 5 * m ^ 2 * η α ≤ e)
    (hf : ∀ i j, i < m → j < m → fin (H i j)) :
    (∀ i j, i < m → j < m → fin (A i j)) ∧ (∀ i j, i < m → j < m → j + 1 < i → H i j = Flt.zero) ∧
    ∃ P : Matrix (Fin m) (Fin m) ℝ, Pᵀ * P = 1 ∧ P * Pᵀ = 1 ∧
      fro ((mx m m fun i j => val (A i j)) - P * (mx m m fun i j => val (H i j)) * Pᵀ) ≤
        hessErr α m (2 * (m - 2)) e (fro (mx m m fun i j => val (A i j))) := by
  obtain ⟨h1, V, b, hI⟩ := Hess.new_round ha hm hA hs eh hH he hM hη hf
  refine ⟨hI.fin, fun i j hi hj hij => ?_, _, (hI.last h1 rfl).1, mul_eq_one_comm.1 (hI.last h1 rfl).1,
    (hI.last h1 rfl).2⟩
  rw [h1 i j hi hj, Hess.hEnt, if_neg (by omega)]

/-- **C103.** The same bound without powers. -/
theorem C103_linear {a : Mat α m m} (ha : a.own) (hm : 0 < m) {A : Nat → Nat → α} (hA : Shows a.at m m A)
    {s : Hess α m m} (hs : Hess.new a = .ok s) {mh : Mat α m m} {H : Nat → Nat → α} (eh : s.h = .ok ⟨m, m, mh⟩)
    (hH : Shows mh.at m m H) {e : ℝ} (he : u α ≤ e) (hM : (m + 4) * e ≤ 1 / 100) (hη : 5 * m ^ 2 * η α ≤ e)
    (hp : (2 * (m - 2) : ℕ) * (38 * (m + 4) * e) ≤ 1) (hf : ∀ i j, i < m → j < m → fin (H i j)) :
    ∃ P : Matrix (Fin m) (Fin m) ℝ, Pᵀ * P = 1 ∧ P * Pᵀ = 1 ∧
      fro ((mx m m fun i j => val (A i j)) - P * (mx m m fun i j => val (H i j)) * Pᵀ) ≤
        76 * (2 * (m - 2) : ℕ) * (m + 4) * e * fro (mx m m fun i j => val (A i j)) +
          21 * (2 * (m - 2) : ℕ) * m ^ 2 * η α := by
  obtain ⟨-, -, P, h1, h2, h3⟩ := C103_backward ha hm hA hs eh hH he hM hη hf
  exact ⟨P, h1, h2, h3.trans (hessErr_le ((u_nonneg (α := α)).trans he) (fro_nonneg _) hp)⟩

end round

/-! ## binary64 -/

/-- **C103** for binary64. -/
theorem C103_binary64 {m : Nat} {a : Mat B64 m m} (ha : a.own) (hm : 0 < m) {A : Nat → Nat → B64}
    (hA : Shows a.at m m A) {s : Hess B64 m m} (hs : Hess.new a = .ok s) {mh : Mat B64 m m} {H : Nat → Nat → B64}
    (eh : s.h = .ok ⟨m, m, mh⟩) (hH : Shows mh.at m m H) (hp : (m + 4) * (m + 4) ≤ 2 ^ 46)
    (hf : ∀ i j, i < m → j < m → fin (H i j)) :
    ∃ P : Matrix (Fin m) (Fin m) ℝ, Pᵀ * P = 1 ∧ P * Pᵀ = 1 ∧
      fro ((mx m m fun i j => val (A i j)) - P * (mx m m fun i j => val (H i j)) * Pᵀ) ≤
        19 * (m - 2 : ℕ) * (m + 4) * (1 / 2) ^ 50 * fro (mx m m fun i j => val (A i j)) +
          42 * (m - 2 : ℕ) * m ^ 2 * (1 / 2) ^ 1075 := by
  have hm0 : (0 : ℝ) ≤ m := Nat.cast_nonneg m
  have hp' : ((m : ℝ) + 4) * (m + 4) ≤ 2 ^ 46 := by exact_mod_cast hp
  have h2 : ((m - 2 : ℕ) : ℝ) ≤ m + 4 := by exact_mod_cast (show m - 2 ≤ m + 4 by omega)
  have h4 : ((m - 2 : ℕ) : ℝ) * (m + 4) ≤ 2 ^ 46 := (mul_le_mul_of_nonneg_right h2 (by positivity)).trans hp'
  have h5 : (m : ℝ) + 4 ≤ 2 ^ 44 := by norm_num at hp' ⊢; nlinarith
  have h6 : (m : ℝ) ^ 2 ≤ 2 ^ 46 := by nlinarith
  obtain ⟨P, q1, q2, q3⟩ := C103_linear ha hm hA hs eh hH (e := (1 / 2) ^ 53) le_rfl
    (by norm_num at h5 ⊢; linarith) (by
      show 5 * (m : ℝ) ^ 2 * (1 / 2) ^ 1075 ≤ (1 / 2) ^ 53
      rw [show ((1 : ℝ) / 2) ^ 1075 = (1 / 2) ^ 53 * (1 / 2) ^ 1022 by rw [← pow_add]]
      have h7 : ((1 : ℝ) / 2) ^ 1022 ≤ (1 / 2) ^ 60 := pow_le_pow_of_le_one (by norm_num) (by norm_num) (by norm_num)
      have h8 : 5 * (m : ℝ) ^ 2 * (1 / 2) ^ 1022 ≤ 5 * 2 ^ 46 * (1 / 2) ^ 60 := by gcongr
      have h9 : (5 : ℝ) * 2 ^ 46 * (1 / 2) ^ 60 ≤ 1 := by norm_num
      calc 5 * (m : ℝ) ^ 2 * ((1 / 2) ^ 53 * (1 / 2) ^ 1022) = 5 * (m : ℝ) ^ 2 * (1 / 2) ^ 1022 * (1 / 2) ^ 53 := by ring
        _ ≤ 1 * (1 / 2) ^ 53 := mul_le_mul_of_nonneg_right (h8.trans h9) (by positivity)
        _ = _ := one_mul _)
    (by
      push_cast
      rw [show 2 * ((m - 2 : ℕ) : ℝ) * (38 * (m + 4) * (1 / 2) ^ 53) =
        ((m - 2 : ℕ) : ℝ) * (m + 4) * (76 * (1 / 2) ^ 53) by ring]
      norm_num at h4 ⊢; linarith) hf
  refine ⟨P, q1, q2, q3.trans (le_of_eq ?_)⟩
  rw [show η B64 = (1 / 2) ^ 1075 from rfl, show ((1 : ℝ) / 2) ^ 53 = (1 / 2) ^ 50 / 8 by norm_num]
  push_cast
  ring

/-! ## A concrete case -/

/-- The 3 × 3 matrix with rows (1, 2, 3), (0, 4, 5) and (1, 6, 7). -/
noncomputable def Hess.caseA (i j : Nat) : B64 :=
  if i = 0 then (if j = 0 then B64.int 1 else if j = 1 then B64.int 2 else B64.int 3)
  else if i = 1 then (if j = 0 then B64.int 0 else if j = 1 then B64.int 4 else B64.int 5)
  else (if j = 0 then B64.int 1 else if j = 1 then B64.int 6 else B64.int 7)

theorem B64.int_congr {k l : ℤ} {hk : |k| ≤ 2 ^ 53} {hl : |l| ≤ 2 ^ 53} (h : k = l) : B64.int k hk = B64.int l hl := by
  subst h; rfl

theorem B64.int_ulp (k : ℤ) (hk : |k| ≤ 2 ^ 53) (h : 1 ≤ k) :
    Flt.ulpEq (B64.int k hk) (Flt.zero : B64) = false := by
  rw [Bool.eq_false_iff]
  intro h1
  have h2 : ((k : ℤ) : ℝ) ≤ 2 ^ (-1074 : ℤ) := ((B64.ulpEq_zero _).1 h1).2.2
  have h3 : (2 : ℝ) ^ (-1074 : ℤ) < 1 := zpow_lt_one_of_neg₀ (by norm_num) (by norm_num)
  have h4 : (1 : ℝ) ≤ k := by exact_mod_cast h
  linarith

/-- The reflection of the concrete case exchanges two entries. -/
theorem Hess.case_swap {k l : ℤ} (hk : |k| ≤ 100) (hl : |l| ≤ 100) {o t : Nat → B64} (h1 : o 1 = B64.int (-1))
    (h2 : o 2 = B64.int 1) (h3 : t 1 = B64.int k (hk.trans (by norm_num)))
    (h4 : t 2 = B64.int l (hl.trans (by norm_num))) :
    Flt.sub (t 1) (Flt.mul (Flt.div (dsum 3 1 (fun x => Flt.mul (o x) (t x)) Flt.zero) (B64.int 1)) (o 1)) =
      B64.int l (hl.trans (by norm_num)) ∧
    Flt.sub (t 2) (Flt.mul (Flt.div (dsum 3 1 (fun x => Flt.mul (o x) (t x)) Flt.zero) (B64.int 1)) (o 2)) =
      B64.int k (hk.trans (by norm_num)) := by
  have e1 : dsum 3 1 (fun x => Flt.mul (o x) (t x)) Flt.zero = B64.int (l - k) (by rw [abs_le] at *; omega) := by
    rw [dsum_low (by omega), dsum_low (by omega), dsum_self le_rfl]
    rw [h1, h2, h3, h4, B64.zero_int, B64.mul_int _ _ (by rw [abs_le] at *; omega),
      B64.mul_int _ _ (by rw [abs_le] at *; omega), B64.add_int _ _ (by rw [abs_le] at *; omega),
      B64.add_int _ _ (by rw [abs_le] at *; omega)]
    exact B64.int_congr (by omega)
  rw [e1, h1, h2, h3, h4, B64.div_int (m := l - k) _ _ (by norm_num) (by rw [abs_le] at *; omega) (by omega)]
  constructor
  · rw [B64.mul_int _ _ (by rw [abs_le] at *; omega), B64.sub_int _ _ (by rw [abs_le] at *; omega)]
    exact B64.int_congr (by omega)
  · rw [B64.mul_int _ _ (by rw [abs_le] at *; omega), B64.sub_int _ _ (by rw [abs_le] at *; omega)]
    exact B64.int_congr (by omega)

/-- The reduction of the matrix of the concrete case. -/
theorem Hess.case_new {a : Mat B64 3 3} (ha : a.own) (hA : Shows a.at 3 3 Hess.caseA) :
    ∃ s : Hess B64 3 3, Hess.new a = .ok s ∧ s.ort.f 1 = B64.int (-1) ∧
      s.hv.f 0 0 = B64.int 1 ∧ s.hv.f 0 1 = B64.int 3 ∧ s.hv.f 0 2 = B64.int 2 ∧
      s.hv.f 1 0 = B64.int 1 ∧ s.hv.f 1 1 = B64.int 7 ∧ s.hv.f 1 2 = B64.int 6 ∧
      s.hv.f 2 0 = B64.int 1 ∧ s.hv.f 2 1 = B64.int 5 ∧ s.hv.f 2 2 = B64.int 4 := by
  obtain ⟨s, e, h⟩ := Hess.new_wp ha (by norm_num) hA (fun k f o =>
    (k = 1 → ∀ i j, i < 3 → j < 3 → f i j = Hess.caseA i j) ∧
    (k = 2 → o 1 = B64.int (-1) ∧
      f 0 0 = B64.int 1 ∧ f 0 1 = B64.int 3 ∧ f 0 2 = B64.int 2 ∧
      f 1 0 = B64.int 1 ∧ f 1 1 = B64.int 7 ∧ f 1 2 = B64.int 6 ∧
      f 2 0 = B64.int 1 ∧ f 2 1 = B64.int 5 ∧ f 2 2 = B64.int 4))
    (fun f o h => ⟨fun _ => h, by omega⟩) (by
      intro k f f' o o' hk hk' hI hS
      obtain rfl : k = 1 := by omega
      have h := hI.1 rfl
      have h00 : f 0 0 = B64.int 1 := h 0 0 (by omega) (by omega)
      have h01 : f 0 1 = B64.int 2 := h 0 1 (by omega) (by omega)
      have h02 : f 0 2 = B64.int 3 := h 0 2 (by omega) (by omega)
      have h10 : f 1 (1 - 1) = B64.int 0 := h 1 0 (by omega) (by omega)
      have h11 : f 1 1 = B64.int 4 := h 1 1 (by omega) (by omega)
      have h12 : f 1 2 = B64.int 5 := h 1 2 (by omega) (by omega)
      have h20 : f 2 (1 - 1) = B64.int 1 := h 2 0 (by omega) (by omega)
      have h21 : f 2 1 = B64.int 6 := h 2 1 (by omega) (by omega)
      have h22 : f 2 2 = B64.int 7 := h 2 2 (by omega) (by omega)
      have sc : lsum 1 3 (fun i => Flt.abs (f i (1 - 1))) Flt.zero = B64.int 1 := by
        rw [lsum_succ (by omega), lsum_succ (a := 1) (b := 1) (by omega), lsum_self le_rfl]
        rw [h10, h20, B64.zero_int, B64.abs_int, B64.abs_int, B64.add_int _ _ (by norm_num),
          B64.add_int _ _ (by norm_num)]
        rfl
      refine ⟨by omega, fun _ => ?_⟩
      cases hS with
      | skip _ hs h0 =>
        rw [hs, sc, B64.int_ulp 1 _ le_rfl] at h0
        exact absurd h0 (by decide)
      | refl σ h0 w f1 hs hne hh hu huk hr hok ho =>
        rw [sc] at hs
        subst hs
        have d1 : Flt.div (f 1 (1 - 1)) (B64.int 1) = B64.int 0 := by
          rw [h10, B64.div_int (m := 0) _ _ (by norm_num) (by norm_num) (by norm_num)]
        have d2 : Flt.div (f 2 (1 - 1)) (B64.int 1) = B64.int 1 := by
          rw [h20, B64.div_int (m := 1) _ _ (by norm_num) (by norm_num) (by norm_num)]
        have eh : h0 = B64.int 1 := by
          rw [hh, dsum_low (by omega), dsum_low (by omega), dsum_self le_rfl]
          rw [d1, d2, B64.zero_int, B64.mul_int _ _ (by norm_num), B64.mul_int _ _ (by norm_num),
            B64.add_int _ _ (by norm_num), B64.add_int _ _ (by norm_num)]
          rfl
        have eg : Hess.sign (Flt.div (f 1 (1 - 1)) (B64.int 1)) h0 = B64.int 1 := by
          unfold Hess.sign
          rw [d1, eh, if_neg (by
            rw [B64.zero_int, lt_iff (B64.int_fin _) (B64.int_fin _)]; exact lt_irrefl _),
            B64.sqrt_int (m := 1) _ (by norm_num) (by norm_num) (by norm_num)]
        rw [eg, d1] at huk hr
        rw [B64.sub_int _ _ (by norm_num)] at huk
        have w1 : w 1 = B64.int (-1) := huk
        have w2 : w 2 = B64.int 1 := by rw [hu 2 (by omega) (by omega), d2]
        rw [eh, B64.mul_int _ _ (by norm_num), B64.sub_int _ _ (by norm_num)] at hr
        replace hr : Hess.Refl 3 1 (B64.int 1) (B64.int 1) (B64.int 1) w f f1 f' := hr
        have b1 := Hess.case_swap (t := fun x => f x 1) (k := 4) (l := 6) (by norm_num) (by norm_num) w1 w2 h11 h21
        have b2 := Hess.case_swap (t := fun x => f x 2) (k := 5) (l := 7) (by norm_num) (by norm_num) w1 w2 h12 h22
        have g01 : f1 0 1 = B64.int 2 := by rw [hr.left' 0 1 (.inl (by omega)), h01]
        have g02 : f1 0 2 = B64.int 3 := by rw [hr.left' 0 2 (.inl (by omega)), h02]
        have g11 : f1 1 1 = B64.int 6 := (hr.left 1 1 (by omega) (by omega) (by omega) (by omega)).trans b1.1
        have g21 : f1 2 1 = B64.int 4 := (hr.left 2 1 (by omega) (by omega) (by omega) (by omega)).trans b1.2
        have g12 : f1 1 2 = B64.int 7 := (hr.left 1 2 (by omega) (by omega) (by omega) (by omega)).trans b2.1
        have g22 : f1 2 2 = B64.int 5 := (hr.left 2 2 (by omega) (by omega) (by omega) (by omega)).trans b2.2
        have c0 := Hess.case_swap (t := f1 0) (k := 2) (l := 3) (by norm_num) (by norm_num) w1 w2 g01 g02
        have c1 := Hess.case_swap (t := f1 1) (k := 6) (l := 7) (by norm_num) (by norm_num) w1 w2 g11 g12
        have c2 := Hess.case_swap (t := f1 2) (k := 4) (l := 5) (by norm_num) (by norm_num) w1 w2 g21 g22
        refine ⟨?_, ?_, ?_, ?_, ?_, ?_, ?_, ?_, ?_, ?_⟩
        · rw [hok, w1, B64.mul_int _ _ (by norm_num)]; rfl
        · rw [hr.right' 0 0 (by omega) (by omega), hr.left' 0 0 (.inl (by omega)), h00]
        · exact (hr.right 0 1 (by omega) (by omega) (by omega)).trans c0.1
        · exact (hr.right 0 2 (by omega) (by omega) (by omega)).trans c0.2
        · refine hr.head.trans ?_
          rw [B64.mul_int _ _ (by norm_num)]; rfl
        · exact (hr.right 1 1 (by omega) (by omega) (by omega)).trans c1.1
        · exact (hr.right 1 2 (by omega) (by omega) (by omega)).trans c1.2
        · refine (hr.right' 2 0 (by omega) (by omega)).trans ((hr.left' 2 0 (.inr (by omega))).trans h20)
        · exact (hr.right 2 1 (by omega) (by omega) (by omega)).trans c2.1
        · exact (hr.right 2 2 (by omega) (by omega) (by omega)).trans c2.2)
  exact ⟨s, e, h.2 rfl⟩

/-- Concrete case for C103: a matrix whose reduction reflects, with all the hypotheses of the theorems. -/
example : ∃ (a : Mat B64 3 3) (s : Hess B64 3 3) (mh : Mat B64 3 3) (H : Nat → Nat → B64),
    a.own ∧ Shows a.at 3 3 Hess.caseA ∧ Hess.new a = .ok s ∧ s.h = .ok ⟨3, 3, mh⟩ ∧ Shows mh.at 3 3 H ∧
      (∀ i j, i < 3 → j < 3 → fin (H i j)) ∧ val (Hess.caseA 2 0) = 1 ∧ val (H 1 0) = 1 ∧ val (H 2 1) = 5 := by
  let a : Mat B64 3 3 := .arr ⟨⟨Hess.caseA⟩, fun _ => 0⟩
  have hA : Shows a.at 3 3 Hess.caseA := (Mat.at_shows a).congr fun i j hi hj => rfl
  obtain ⟨s, e, -, h00, h01, h02, h10, h11, h12, h20, h21, h22⟩ := Hess.case_new (a := a) trivial hA
  obtain ⟨mh, eh, -, hH⟩ := Hess.h_ok (by norm_num) s
  refine ⟨a, s, mh, _, trivial, hA, e, eh, hH, fun i j hi hj => ?_, ?_, ?_, ?_⟩
  · unfold Hess.hEnt
    split_ifs with hc
    · obtain rfl | rfl | rfl : i = 0 ∨ i = 1 ∨ i = 2 := by omega
      · obtain rfl | rfl | rfl : j = 0 ∨ j = 1 ∨ j = 2 := by omega
        · rw [h00]; trivial
        · rw [h01]; trivial
        · rw [h02]; trivial
      · obtain rfl | rfl | rfl : j = 0 ∨ j = 1 ∨ j = 2 := by omega
        · rw [h10]; trivial
        · rw [h11]; trivial
        · rw [h12]; trivial
      · obtain rfl | rfl | rfl : j = 0 ∨ j = 1 ∨ j = 2 := by omega
        · rw [h20]; trivial
        · rw [h21]; trivial
        · rw [h22]; trivial
    · exact zero_fin
  · show val (B64.int 1) = 1
    rw [B64.int_val]; norm_num
  · rw [Hess.hEnt, if_pos (by omega), h10, B64.int_val]; norm_num
  · rw [Hess.hEnt, if_pos (by omega), h21, B64.int_val]; norm_num

end Linear
