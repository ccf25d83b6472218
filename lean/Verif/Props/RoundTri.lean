import Verif.Lemmas.RoundTriRed
import Verif.Lemmas.B64Eval
import Verif.Props.Tri

/-!
# C106: the tridiagonal reduction in rounded arithmetic

`fro M` is the Frobenius norm.  The theorems hold for every arithmetic that satisfies `Rnd`, in particular
for `B64`.
-/

set_option linter.unusedSectionVars false

namespace Linear

open Spec Rnd Matrix
open Finset hiding val diag

/-! ## Specification -/

/-- The error of `p` reflections from both sides on a symmetric matrix of norm `x` with at most `N` rows: a
relative part of about `410 p (N + 4) e` and a part for underflow. -/
noncomputable def Spec.triErr (α : Type) [Flt α] [Rnd α] (N p : Nat) (e x : ℝ) : ℝ :=
  ((1 + 410 * (N + 4) * e) ^ p - 1) * x + p * (1 + 410 * (N + 4) * e) ^ p * (120 * N * √(η α))

/-- The symmetric matrix that has the upper triangle of `A`, in real numbers. -/
noncomputable def Spec.upSym {α : Type} [Flt α] [Rnd α] (m : Nat) (A : Nat → Nat → α) : Matrix (Fin m) (Fin m) ℝ :=
  Matrix.of fun i j => val (A (min i j) (max i j))

section round

variable {α : Type} [Flt α] [Rnd α] {m : Nat}

theorem upSym_eq (A : Nat → Nat → α) : upSym m A = mx m m (symU (vals A)) := by
  ext i j
  show val (A (min (i : ℕ) j) (max (i : ℕ) j)) = symU (vals A) i j
  unfold symU vals
  split
  · rw [min_eq_left ‹_›, max_eq_right ‹_›]
  · rw [min_eq_right (by omega), max_eq_left (by omega)]

/-- The error in terms without powers. -/
theorem triErr_le {N p : Nat} {e x : ℝ} (he : 0 ≤ e) (hx : 0 ≤ x) (h : p * (410 * (N + 4) * e) ≤ 1) :
    triErr α N p e x ≤ 820 * p * (N + 4) * e * x + 360 * p * N * √(η α) := by
  have h1 := pow_le_lin (p := p) (x := 410 * (N + 4) * e) (by positivity) h
  have h2 := Real.sqrt_nonneg (η α)
  have hp : (0 : ℝ) ≤ p := Nat.cast_nonneg _
  unfold triErr
  have h3 : (1 + 410 * (N + 4) * e) ^ p - 1 ≤ 820 * p * (N + 4) * e := by nlinarith
  have h4 : (1 + 410 * (N + 4) * e) ^ p ≤ 3 := by nlinarith
  have h5 := mul_le_mul_of_nonneg_right h3 hx
  have h6 : p * (1 + 410 * (N + 4) * e) ^ p * (120 * N * √(η α)) ≤ p * 3 * (120 * N * √(η α)) := by gcongr
  linarith

variable [ZeroLaws α]

/-- The finished reduction, by its private parts. -/
theorem Tri.new_round {a : Mat α m m} (ha : a.own) (hm : 0 < m) {A : Nat → Nat → α} (hA : Shows a.at m m A)
    {s : Tri α m m} (hs : Tri.new a = .ok s) {mt : Mat α m m} {T : Nat → Nat → α} (et : s.t = .ok ⟨m, m, mt⟩)
    (hT : Shows mt.at m m T) {e : ℝ} (he : Rnd.u α ≤ e) (hM : (m + 4) * e ≤ 1 / 100)
    (hd : ∀ i, i < m → fin (T i i)) (hsec : ∀ i, i + 1 < m → Scaled m e (T i (i + 1))) :
    (∀ i j, i < m → j < m → T i j = Tri.tEnt s.main.f s.sec.f i j) ∧
    ∃ d, Tri.RInv m m e A (m - 1) s.hv.f d s.sec.f ∧ s.main.f = upd1 d (m - 1) (s.hv.f (m - 1) (m - 1)) := by
  obtain ⟨s', d, e1, htr, hmain⟩ := Tri.new_ok ha hm hA
  rw [hs] at e1
  cases Except.ok.inj e1
  obtain ⟨mt', et', -, hT'⟩ := Tri.t_ok hm s
  rw [et] at et'
  cases Except.ok.inj et'
  have hu : ∀ i j, i < m → j < m → T i j = Tri.tEnt s.main.f s.sec.f i j := fun i j hi hj => hT.unique hT' hi hj
  have hdd : ∀ i, i < m → fin (s.main.f i) := fun i hi => by
    have := hd i hi
    rwa [hu i i hi hi, Tri.tEnt, if_pos rfl] at this
  refine ⟨hu, d, htr.round le_rfl he hM ⟨fun i hi => ?_, fun i hi => ?_, fun i j h1 h2 h3 => ?_⟩, hmain⟩
  · have := hdd i (by omega)
    rwa [hmain, upd1_eq, if_neg (by omega)] at this
  · have := hsec i (by omega)
    rwa [hu i (i + 1) (by omega) (by omega), Tri.tEnt, if_neg (by omega), if_neg (by omega), if_pos rfl] at this
  · obtain rfl : i = m - 1 := by omega
    obtain rfl : j = m - 1 := by omega
    have := hdd (m - 1) (by omega)
    rwa [hmain, upd1_eq, if_pos rfl] at this

theorem Tri.RInv.last {e : ℝ} {A f : Nat → Nat → α} {d c main : Nat → α} (hI : Tri.RInv m m e A (m - 1) f d c)
    (hm : 0 < m) (he : Rnd.u α ≤ e) (hM : (m + 4) * e ≤ 1 / 100) (hmain : main = upd1 d (m - 1) (f (m - 1) (m - 1)))
    {T : Nat → Nat → α} (hT : ∀ i j, i < m → j < m → T i j = Tri.tEnt main c i j) {Q : Matrix (Fin m) (Fin m) ℝ}
    (hQ : Q = hprod m (Tri.XH m (vals f) (vals1 c)) (m - 1)) :
    Qᵀ * Q = 1 ∧ fro (upSym m A - Q * (mx m m fun i j => val (T i j)) * Qᵀ) ≤
      triErr α m (m - 1) e (fro (upSym m A)) := by
  have ho := hI.orth (by omega) le_rfl he hM
  have hE := hI.err
  rw [← hQ] at ho hE
  refine ⟨mul_eq_one_comm.1 ho, ?_⟩
  have e1 : mx m m (Tri.M (vals f) (vals1 d) (vals1 c) (m - 1)) = mx m m fun i j => val (T i j) := by
    refine mx_congr fun i j hi hj => ?_
    rw [hT i j hi hj, hmain]
    unfold Tri.M Tri.tEnt symU vals vals1
    dsimp only
    simp only [upd1_eq]
    split_ifs <;> first | rfl | omega | exact val_zero.symm | (subst_vars; rfl)
  rw [e1] at hE
  rw [fro_swap (mul_eq_one_comm.1 ho) ho ho, upSym_eq]
  refine hE.trans (le_of_eq ?_)
  unfold triErr
  have : √(m : ℝ) * (120 * √(m * η α)) = 120 * m * √(η α) := by
    have := sqrt_twice (α := α) m
    linarith
  rw [this]

/-! ## C106 -/

/-- **C106.** When the entries of `T` are finite, and those next to the diagonal are 0 or not so small or
large that their squares are lost, then the upper triangle of the matrix is finite, `T` is symmetric and
tridiagonal, and there is an exactly orthogonal matrix `Q` such that `Q T Qᵀ` differs from the symmetric
matrix with this upper triangle by at most `triErr` of its Frobenius norm. -/
theorem C106_backward {a : Mat α m m} (ha : a.own) (hm : 0 < m) {A : Nat → Nat → α} (hA : Shows a.at m m A)
    {s : Tri α m m} (hs : Tri.new a = .ok s) {mt : Mat α m m} {T : Nat → Nat → α} (et : s.t = .ok ⟨m, m, mt⟩)
    (hT : Shows mt.at m m T) {e : ℝ} (he : u α ≤ e) (hM : (m + 4) * e ≤ 1 / 100)
    (hd : ∀ i, i < m → fin (T i i)) (hsec : ∀ i, i + 1 < m → Scaled m e (T i (i + 1))) :
    (∀ i j, i ≤ j → j < m → fin (A i j)) ∧
    (∀ i j, i < m → j < m → (i + 1 < j ∨ j + 1 < i) → T i j = Flt.zero) ∧
    (∀ i j, i < m → j < m → T i j = T j i) ∧
    ∃ Q : Matrix (Fin m) (Fin m) ℝ, Qᵀ * Q = 1 ∧ Q * Qᵀ = 1 ∧
      fro (upSym m A - Q * (mx m m fun i j => val (T i j)) * Qᵀ) ≤ triErr α m (m - 1) e (fro (upSym m A)) := by
  obtain ⟨h1, d, hI, hmain⟩ := Tri.new_round ha hm hA hs et hT he hM hd hsec
  have hl := hI.last hm he hM hmain h1 rfl
  refine ⟨hI.fin, fun i j hi hj hij => ?_, fun i j hi hj => ?_, _, hl.1, mul_eq_one_comm.1 hl.1, hl.2⟩
  · rw [h1 i j hi hj, Tri.tEnt, if_neg (by omega), if_neg (by omega), if_neg (by omega)]
  · rw [h1 i j hi hj, h1 j i hj hi]
    unfold Tri.tEnt
    split_ifs <;> first | rfl | omega | (subst_vars; rfl)

/-- **C106.** The same bound without powers. -/
theorem C106_linear {a : Mat α m m} (ha : a.own) (hm : 0 < m) {A : Nat → Nat → α} (hA : Shows a.at m m A)
    {s : Tri α m m} (hs : Tri.new a = .ok s) {mt : Mat α m m} {T : Nat → Nat → α} (et : s.t = .ok ⟨m, m, mt⟩)
    (hT : Shows mt.at m m T) {e : ℝ} (he : u α ≤ e) (hM : (m + 4) * e ≤ 1 / 100)
    (hp : (m - 1 : ℕ) * (410 * (m + 4) * e) ≤ 1)
    (hd : ∀ i, i < m → fin (T i i)) (hsec : ∀ i, i + 1 < m → Scaled m e (T i (i + 1))) :
    ∃ Q : Matrix (Fin m) (Fin m) ℝ, Qᵀ * Q = 1 ∧ Q * Qᵀ = 1 ∧
      fro (upSym m A - Q * (mx m m fun i j => val (T i j)) * Qᵀ) ≤
        820 * (m - 1 : ℕ) * (m + 4) * e * fro (upSym m A) + 360 * (m - 1 : ℕ) * m * √(η α) := by
  obtain ⟨-, -, -, Q, h1, h2, h3⟩ := C106_backward ha hm hA hs et hT he hM hd hsec
  exact ⟨Q, h1, h2, h3.trans (triErr_le ((u_nonneg (α := α)).trans he) (fro_nonneg _) hp)⟩

end round

/-! ## binary64 -/

/-- **C106** for binary64 and a symmetric matrix. -/
theorem C106_binary64 {m : Nat} {a : Mat B64 m m} (ha : a.own) (hm : 0 < m) {A : Nat → Nat → B64}
    (hA : Shows a.at m m A) (hS : ∀ i j, i < m → j < m → A i j = A j i) {s : Tri B64 m m} (hs : Tri.new a = .ok s)
    {mt : Mat B64 m m} {T : Nat → Nat → B64} (et : s.t = .ok ⟨m, m, mt⟩) (hT : Shows mt.at m m T)
    (hp : (m + 4) * (m + 4) ≤ 2 ^ 44) (hfin : ∀ i j, i < m → j < m → fin (T i j))
    (hlow : ∀ i, i + 1 < m → val (T i (i + 1)) = 0 ∨ m * (1 / 2) ^ 1020 ≤ val (T i (i + 1)) ^ 2)
    (hhigh : ∀ i, i + 1 < m → |val (T i (i + 1))| ≤ 2 ^ 510) :
    ∃ Q : Matrix (Fin m) (Fin m) ℝ, Qᵀ * Q = 1 ∧ Q * Qᵀ = 1 ∧
      fro ((mx m m fun i j => val (A i j)) - Q * (mx m m fun i j => val (T i j)) * Qᵀ) ≤
        103 * (m - 1 : ℕ) * (m + 4) * (1 / 2) ^ 50 * fro (mx m m fun i j => val (A i j)) +
          360 * (m - 1 : ℕ) * m * √((1 / 2) ^ 1075) := by
  have hp' : ((m : ℝ) + 4) * (m + 4) ≤ 2 ^ 44 := by exact_mod_cast hp
  have hm0 : (0 : ℝ) ≤ m := Nat.cast_nonneg m
  have h2 : ((m - 1 : ℕ) : ℝ) ≤ m + 4 := by exact_mod_cast (show m - 1 ≤ m + 4 by omega)
  have h4 : ((m - 1 : ℕ) : ℝ) * (m + 4) ≤ 2 ^ 44 := (mul_le_mul_of_nonneg_right h2 (by positivity)).trans hp'
  have h5 : (m : ℝ) + 4 ≤ 2 ^ 42 := by norm_num at hp' ⊢; nlinarith
  have eA : upSym m A = mx m m fun i j => val (A i j) := by
    rw [upSym_eq]
    refine mx_congr fun i j hi hj => ?_
    unfold symU vals
    split
    · rfl
    · rw [hS i j hi hj]
  obtain ⟨Q, q1, q2, q3⟩ := C106_linear ha hm hA hs et hT (e := (1 / 2) ^ 53) le_rfl
    (by norm_num at h5 ⊢; linarith) (by
      rw [show ((m - 1 : ℕ) : ℝ) * (410 * (m + 4) * (1 / 2) ^ 53) =
        ((m - 1 : ℕ) : ℝ) * (m + 4) * (410 * (1 / 2) ^ 53) by ring]
      norm_num at h4 ⊢; linarith)
    (fun i hi => hfin i i hi hi)
    (fun i hi => B64.scaled (hfin i (i + 1) (by omega) (by omega)) (hlow i hi) (hhigh i hi))
  rw [eA] at q3
  refine ⟨Q, q1, q2, q3.trans ?_⟩
  rw [show η B64 = (1 / 2) ^ 1075 from rfl, show ((1 : ℝ) / 2) ^ 53 = (1 / 2) ^ 50 / 8 by norm_num]
  have hF := fro_nonneg (mx m m fun i j => val (A i j))
  generalize fro (mx m m fun i j => val (A i j)) = F at *
  generalize √((1 / 2) ^ 1075 : ℝ) = w at *
  have : 0 ≤ ((m - 1 : ℕ) : ℝ) * (m + 4) * (1 / 2) ^ 50 * F := by positivity
  linarith

/-! ## A concrete case -/

/-- The symmetric matrix with rows (5, 0, 1), (0, 1, 2) and (1, 2, 3). -/
noncomputable def Tri.caseA (i j : Nat) : B64 :=
  if i = 0 then (if j = 0 then B64.int 5 else if j = 1 then B64.int 0 else B64.int 1)
  else if i = 1 then (if j = 0 then B64.int 0 else if j = 1 then B64.int 1 else B64.int 2)
  else (if j = 0 then B64.int 1 else if j = 1 then B64.int 2 else B64.int 3)

theorem B64.dyi {r : ℝ} (k : ℤ) (h : r = k) (hk : |k| ≤ 2 ^ 53 := by norm_num) : B64.Num r :=
  B64.Num.dy k 0 hk (by norm_num) (by rw [h]; norm_num)

/-- The rounds of the concrete case. -/
theorem Tri.case_trace {f : Nat → Nat → B64} {d c : Nat → B64} (h : Tri.Trace 3 Tri.caseA 2 f d c) :
    B64.Is (d 0) 5 ∧ B64.Is (d 1) 3 ∧ B64.Is (f 2 2) 1 ∧ B64.Is (c 0) 1 ∧ B64.Is (c 1) (-2) ∧
      B64.Is (f 0 1) (-1) ∧ B64.Is (f 0 2) 1 ∧ B64.Is (f 1 2) 4 := by
  cases h with
  | @step _ f1 _ d1 c1 h _ s2 =>
  cases h with
  | @step _ f0 _ d0 c0 h _ s1 =>
  cases h with
  | init h0 =>
  have z := B64.Is.zero
  have a00 : B64.Is (f0 0 0) 5 := by rw [h0 0 0 (by omega) (by omega)]; simpa [Tri.caseA] using B64.Is.int (k := 5) (by norm_num)
  have a01 : B64.Is (f0 0 1) 0 := by rw [h0 0 1 (by omega) (by omega)]; simpa [Tri.caseA] using B64.Is.int (k := 0) (by norm_num)
  have a02 : B64.Is (f0 0 2) 1 := by rw [h0 0 2 (by omega) (by omega)]; simpa [Tri.caseA] using B64.Is.int (k := 1) (by norm_num)
  have a11 : B64.Is (f0 1 1) 1 := by rw [h0 1 1 (by omega) (by omega)]; simpa [Tri.caseA] using B64.Is.int (k := 1) (by norm_num)
  have a12 : B64.Is (f0 1 2) 2 := by rw [h0 1 2 (by omega) (by omega)]; simpa [Tri.caseA] using B64.Is.int (k := 2) (by norm_num)
  have a22 : B64.Is (f0 2 2) 3 := by rw [h0 2 2 (by omega) (by omega)]; simpa [Tri.caseA] using B64.Is.int (k := 3) (by norm_num)
  have two : B64.Is (Flt.two : B64) 2 := ⟨two_fin, val_two⟩
  have n0 : B64.Is (hnorm (0 + 1) 3 (f0 0)) 1 := by
    unfold hnorm
    rw [if_neg (by
      show ¬ Flt.lt Flt.zero (f0 0 1) = true
      rw [lt_iff zero_fin a01.1, a01.2, val_zero]; exact lt_irrefl _)]
    rw [lsum_succ (by omega), lsum_succ (a := 0 + 1) (b := 1) le_rfl, lsum_self le_rfl]
    exact B64.Is.sqrt (r := 1) ((z.add (t := 0) (a01.mul (t := 0) a01 (by norm_num) (B64.dyi 0 (by norm_num)))
      (by norm_num) (B64.dyi 0 (by norm_num))).add (a02.mul (t := 1) a02 (by norm_num) (B64.dyi 1 (by norm_num)))
      (by norm_num) (B64.dyi 1 (by norm_num))) (by norm_num) (by norm_num) (B64.dyi 1 (by norm_num))
  generalize hnorm (0 + 1) 3 (f0 0) = a at *
  have ne := n0.ne (by norm_num)
  have v1 : B64.Is (f1 0 1) (-1) := by
    rw [s1.head ne]
    exact a01.sub n0 (by norm_num) (B64.dyi (-1) (by norm_num))
  have v2 : B64.Is (f1 0 2) 1 := by rw [s1.row 2 (by omega)]; exact a02
  have hb : B64.Is (Flt.div (Flt.neg Flt.one) (Flt.mul a (f1 0 1))) 1 :=
    (B64.Is.one.neg (t := -1) rfl).div (n0.mul (t := -1) v1 (by norm_num) (B64.dyi (-1) (by norm_num)))
      (by norm_num) (by norm_num) (B64.dyi 1 (by norm_num))
  have u := s1.upd ne
  change ∀ i j, 0 < i → i ≤ j → j < 3 → f1 i j = Flt.sub (f0 i j)
    (Flt.add (Flt.mul (f1 0 i) (Tri.zz 3 0 (Flt.div (Flt.neg Flt.one) (Flt.mul a (f1 0 1))) f0 (f1 0) j))
      (Flt.mul (Tri.zz 3 0 (Flt.div (Flt.neg Flt.one) (Flt.mul a (f1 0 1))) f0 (f1 0) i) (f1 0 j))) at u
  generalize Flt.div (Flt.neg Flt.one) (Flt.mul a (f1 0 1)) = β at *
  have p1 : B64.Is (Tri.zv 3 0 β f0 (f1 0) 1) 1 := by
    unfold Tri.zv
    rw [lsum_self (a := 0 + 1) (b := 1) le_rfl, lsum_succ (a := 1 + 1) (b := 2) le_rfl, lsum_self le_rfl]
    exact hb.mul (z.add (s := 1) (t := 1) ((a11.mul (t := -1) v1 (by norm_num) (B64.dyi (-1) (by norm_num))).add
      (a12.mul (t := 2) v2 (by norm_num) (B64.dyi 2 (by norm_num))) (by norm_num) (B64.dyi 1 (by norm_num)))
      (by norm_num) (B64.dyi 1 (by norm_num))) (by norm_num) (B64.dyi 1 (by norm_num))
  have p2 : B64.Is (Tri.zv 3 0 β f0 (f1 0) 2) 1 := by
    unfold Tri.zv
    rw [lsum_succ (a := 0 + 1) (b := 1) le_rfl, lsum_self le_rfl, lsum_self le_rfl]
    exact hb.mul (B64.Is.add (t := 1) (z.add (t := -2) (a12.mul (t := -2) v1 (by norm_num) (B64.dyi (-2) (by norm_num))) (by norm_num)
      (B64.dyi (-2) (by norm_num))) (a22.mul (t := 3) v2 (by norm_num) (B64.dyi 3 (by norm_num)))
      (by norm_num) (B64.dyi 1 (by norm_num))) (by norm_num) (B64.dyi 1 (by norm_num))
  have g : B64.Is (Flt.mul (lsum (0 + 1) 3 (fun i => Flt.mul (Tri.zv 3 0 β f0 (f1 0) i) (f1 0 i)) Flt.zero)
      (Flt.div β Flt.two)) 0 := by
    rw [lsum_succ (by omega), lsum_succ (a := 0 + 1) (b := 1) le_rfl, lsum_self le_rfl]
    exact (B64.Is.add (t := 0) (z.add (t := -1) (p1.mul (t := -1) v1 (by norm_num) (B64.dyi (-1) (by norm_num))) (by norm_num)
      (B64.dyi (-1) (by norm_num))) (p2.mul (t := 1) v2 (by norm_num) (B64.dyi 1 (by norm_num))) (by norm_num)
      (B64.dyi 0 (by norm_num))).mul (hb.div (t := 1 / 2) two (by norm_num) (by norm_num)
      (B64.Num.dy 1 1 (by norm_num) (by norm_num) (by norm_num))) (by norm_num) (B64.dyi 0 (by norm_num))
  have z1 : B64.Is (Tri.zz 3 0 β f0 (f1 0) 1) 1 :=
    p1.sub (g.mul (t := 0) v1 (by norm_num) (B64.dyi 0 (by norm_num))) (by norm_num) (B64.dyi 1 (by norm_num))
  have z2 : B64.Is (Tri.zz 3 0 β f0 (f1 0) 2) 1 :=
    p2.sub (g.mul (t := 0) v2 (by norm_num) (B64.dyi 0 (by norm_num))) (by norm_num) (B64.dyi 1 (by norm_num))
  have b11 : B64.Is (f1 1 1) 3 := by
    rw [u 1 1 (by omega) le_rfl (by omega)]
    exact a11.sub ((v1.mul (t := -1) z1 (by norm_num) (B64.dyi (-1) (by norm_num))).add (t := -2)
      (z1.mul (t := -1) v1 (by norm_num) (B64.dyi (-1) (by norm_num))) (by norm_num) (B64.dyi (-2) (by norm_num)))
      (by norm_num) (B64.dyi 3 (by norm_num))
  have b12 : B64.Is (f1 1 2) 2 := by
    rw [u 1 2 (by omega) (by omega) (by omega)]
    exact a12.sub ((v1.mul (t := -1) z2 (by norm_num) (B64.dyi (-1) (by norm_num))).add (t := 0)
      (z1.mul (t := 1) v2 (by norm_num) (B64.dyi 1 (by norm_num))) (by norm_num) (B64.dyi 0 (by norm_num)))
      (by norm_num) (B64.dyi 2 (by norm_num))
  have b22 : B64.Is (f1 2 2) 1 := by
    rw [u 2 2 (by omega) le_rfl (by omega)]
    exact a22.sub ((v2.mul (t := 1) z2 (by norm_num) (B64.dyi 1 (by norm_num))).add (t := 2)
      (z2.mul (t := 1) v2 (by norm_num) (B64.dyi 1 (by norm_num))) (by norm_num) (B64.dyi 2 (by norm_num)))
      (by norm_num) (B64.dyi 1 (by norm_num))
  clear u g z1 z2 p1 p2 hb
  have n1 : B64.Is (hnorm (0 + 1 + 1) 3 (f1 (0 + 1))) (-2) := by
    unfold hnorm
    rw [if_pos (by
      show Flt.lt Flt.zero (f1 1 2) = true
      rw [lt_iff zero_fin b12.1, b12.2, val_zero]; norm_num)]
    rw [lsum_succ (a := 0 + 1 + 1) (b := 2) le_rfl, lsum_self le_rfl]
    exact B64.Is.mul (r := 2) (B64.Is.sqrt (r := 4) (z.add (b12.mul (t := 4) b12 (by norm_num)
      (B64.dyi 4 (by norm_num))) (by norm_num) (B64.dyi 4 (by norm_num))) (by norm_num) (by norm_num)
      (B64.dyi 2 (by norm_num))) (B64.Is.one.neg (t := -1) rfl) (by norm_num) (B64.dyi (-2) (by norm_num))
  change Tri.Step 3 1 f1 f (hnorm (0 + 1 + 1) 3 (f1 (0 + 1))) at s2
  generalize hnorm (0 + 1 + 1) 3 (f1 (0 + 1)) = a' at *
  have ne' := n1.ne (by norm_num)
  have w2 : B64.Is (f 1 2) 4 := by
    rw [s2.head ne']
    exact b12.sub n1 (by norm_num) (B64.dyi 4 (by norm_num))
  have hb : B64.Is (Flt.div (Flt.neg Flt.one) (Flt.mul a' (f 1 2))) (1 / 8) :=
    (B64.Is.one.neg (t := -1) rfl).div (n1.mul (t := -8) w2 (by norm_num) (B64.dyi (-8) (by norm_num)))
      (by norm_num) (by norm_num) (B64.Num.dy 1 3 (by norm_num) (by norm_num) (by norm_num))
  have u := s2.upd ne' 2 2 (by omega) le_rfl (by omega)
  change f 2 2 = Flt.sub (f1 2 2)
    (Flt.add (Flt.mul (f 1 2) (Tri.zz 3 1 (Flt.div (Flt.neg Flt.one) (Flt.mul a' (f 1 2))) f1 (f 1) 2))
      (Flt.mul (Tri.zz 3 1 (Flt.div (Flt.neg Flt.one) (Flt.mul a' (f 1 2))) f1 (f 1) 2) (f 1 2))) at u
  generalize Flt.div (Flt.neg Flt.one) (Flt.mul a' (f 1 2)) = β' at *
  have p2 : B64.Is (Tri.zv 3 1 β' f1 (f 1) 2) (1 / 2) := by
    unfold Tri.zv
    rw [lsum_self (a := 1 + 1) (b := 2) le_rfl, lsum_self le_rfl]
    exact hb.mul (z.add (t := 4) (b22.mul (t := 4) w2 (by norm_num) (B64.dyi 4 (by norm_num))) (by norm_num)
      (B64.dyi 4 (by norm_num))) (by norm_num) (B64.Num.dy 1 1 (by norm_num) (by norm_num) (by norm_num))
  have g : B64.Is (Flt.mul (lsum (1 + 1) 3 (fun i => Flt.mul (Tri.zv 3 1 β' f1 (f 1) i) (f 1 i)) Flt.zero)
      (Flt.div β' Flt.two)) (1 / 8) := by
    rw [lsum_succ (a := 1 + 1) (b := 2) le_rfl, lsum_self le_rfl]
    exact (z.add (t := 2) (p2.mul (t := 2) w2 (by norm_num) (B64.dyi 2 (by norm_num))) (by norm_num)
      (B64.dyi 2 (by norm_num))).mul (hb.div (t := 1 / 16) two (by norm_num) (by norm_num)
      (B64.Num.dy 1 4 (by norm_num) (by norm_num) (by norm_num))) (by norm_num)
      (B64.Num.dy 1 3 (by norm_num) (by norm_num) (by norm_num))
  have z2 : B64.Is (Tri.zz 3 1 β' f1 (f 1) 2) 0 :=
    p2.sub (g.mul (t := 1 / 2) w2 (by norm_num) (B64.Num.dy 1 1 (by norm_num) (by norm_num) (by norm_num)))
      (by norm_num) (B64.dyi 0 (by norm_num))
  refine ⟨?_, ?_, ?_, ?_, ?_, ?_, ?_, w2⟩
  · simpa [upd1_eq] using a00
  · simpa [upd1_eq] using b11
  · rw [u]
    exact b22.sub (B64.Is.add (t := 0) (w2.mul (t := 0) z2 (by norm_num) (B64.dyi 0 (by norm_num)))
      (z2.mul (t := 0) w2 (by norm_num) (B64.dyi 0 (by norm_num))) (by norm_num) (B64.dyi 0 (by norm_num)))
      (by norm_num) (B64.dyi 1 (by norm_num))
  · simpa [upd1_eq] using n0
  · simpa [upd1_eq] using n1
  · rw [s2.other 0 1 (by omega)]; exact v1
  · rw [s2.other 0 2 (by omega)]; exact v2

/-- Concrete case for C106: a matrix whose reduction reflects twice, with all the hypotheses of the
theorems. -/
example : ∃ (a : Mat B64 3 3) (s : Tri B64 3 3) (mt : Mat B64 3 3) (T : Nat → Nat → B64),
    a.own ∧ Shows a.at 3 3 Tri.caseA ∧ (∀ i j, i < 3 → j < 3 → Tri.caseA i j = Tri.caseA j i) ∧
      Tri.new a = .ok s ∧ s.t = .ok ⟨3, 3, mt⟩ ∧ Shows mt.at 3 3 T ∧ (∀ i j, i < 3 → j < 3 → fin (T i j)) ∧
      (∀ i, i + 1 < 3 → val (T i (i + 1)) = 0 ∨ (3 : ℕ) * (1 / 2) ^ 1020 ≤ val (T i (i + 1)) ^ 2) ∧
      (∀ i, i + 1 < 3 → |val (T i (i + 1))| ≤ 2 ^ 510) ∧ val (Tri.caseA 0 2) = 1 ∧
      val (T 0 0) = 5 ∧ val (T 1 1) = 3 ∧ val (T 2 2) = 1 ∧ val (T 0 1) = 1 ∧ val (T 1 2) = -2 := by
  let a : Mat B64 3 3 := .arr ⟨⟨Tri.caseA⟩, fun _ => 0⟩
  have hA : Shows a.at 3 3 Tri.caseA := (Mat.at_shows a).congr fun i j hi hj => rfl
  obtain ⟨s, d, e, htr, hmain⟩ := Tri.new_ok (a := a) trivial (by norm_num) hA
  obtain ⟨h1, h2, h3, h4, h5, -⟩ := Tri.case_trace htr
  obtain ⟨mt, et, -, hT⟩ := Tri.t_ok (by norm_num) s
  have m0 : B64.Is (s.main.f 0) 5 := by rw [hmain]; simpa [upd1_eq] using h1
  have m1 : B64.Is (s.main.f 1) 3 := by rw [hmain]; simpa [upd1_eq] using h2
  have m2 : B64.Is (s.main.f 2) 1 := by rw [hmain]; simpa [upd1_eq] using h3
  have hs : ∀ i, i + 1 < 3 → Tri.tEnt s.main.f s.sec.f i (i + 1) = s.sec.f i := fun i _ => by
    rw [Tri.tEnt, if_neg (by omega), if_neg (by omega), if_pos rfl]
  have hz : (3 : ℕ) * ((1 : ℝ) / 2) ^ 1020 ≤ 1 := by
    have : ((1 : ℝ) / 2) ^ 1020 ≤ (1 / 2) ^ 2 := pow_le_pow_of_le_one (by norm_num) (by norm_num) (by norm_num)
    generalize ((1 : ℝ) / 2) ^ 1020 = w at *
    norm_num at this ⊢
    linarith
  have hw : (2 : ℝ) ≤ 2 ^ 510 := by
    calc (2 : ℝ) = 2 ^ 1 := by norm_num
      _ ≤ _ := pow_le_pow_right₀ (by norm_num) (by norm_num)
  refine ⟨a, s, mt, _, trivial, hA, fun i j hi hj => ?_, e, et, hT, fun i j hi hj => ?_, fun i hi => ?_,
    fun i hi => ?_, ?_, m0.2, m1.2, m2.2, ?_, ?_⟩
  · unfold Tri.caseA
    obtain rfl | rfl | rfl : i = 0 ∨ i = 1 ∨ i = 2 := by omega
    all_goals obtain rfl | rfl | rfl : j = 0 ∨ j = 1 ∨ j = 2 := by omega
    all_goals rfl
  · have hm : ∀ i, i < 3 → fin (s.main.f i) := fun i hi => by
      obtain rfl | rfl | rfl : i = 0 ∨ i = 1 ∨ i = 2 := by omega
      exacts [m0.1, m1.1, m2.1]
    have hc : ∀ i, i < 2 → fin (s.sec.f i) := fun i hi => by
      obtain rfl | rfl : i = 0 ∨ i = 1 := by omega
      exacts [h4.1, h5.1]
    unfold Tri.tEnt
    split_ifs
    · exact hm i hi
    · exact hc j (by omega)
    · exact hc i (by omega)
    · exact zero_fin
  · rw [hs i hi]
    obtain rfl | rfl : i = 0 ∨ i = 1 := by omega
    · rw [h4.2]; right; exact hz.trans (by norm_num)
    · rw [h5.2]; right; exact hz.trans (by norm_num)
  · rw [hs i hi]
    obtain rfl | rfl : i = 0 ∨ i = 1 := by omega
    · rw [h4.2, abs_one]; exact le_trans (by norm_num) hw
    · rw [h5.2, abs_neg, abs_two]; exact hw
  · show val (B64.int 1) = 1
    rw [B64.int_val]; norm_num
  · rw [hs 0 (by omega)]; exact h4.2
  · rw [hs 1 (by omega)]; exact h5.2

end Linear
