import Verif.Lemmas.RoundSvdRound
import Verif.Lemmas.RoundHypot
import Verif.Props.RoundRectChol
import Verif.Props.RoundEig

/-!
# C115: the iteration of the singular value decomposition in rounded arithmetic

`fro M` is the Frobenius norm.  The theorems hold for every arithmetic that satisfies `Rnd`, in particular for `B64`.
`rotErr ε ω E b k` is `(1 + ε)^k (E + b + k ω) - b`: about `E + k (ε b + ω)`.
-/

set_option linter.unusedSectionVars false

namespace Linear

open Spec Rnd Matrix
open Finset hiding val diag

section round

variable {α : Type} [Flt α] [Rnd α] {m n : Nat}

/-- **C115.** The iteration of the decomposition, started with finite entries `s`, `e` of a bidiagonal matrix `B` and any `U`, `V`,
does not fail.  When it ends with finite `U'`, `V'` after at most `fuel` rounds:
* all singular values are finite, not negative and sorted;
* there are exactly orthogonal matrices `P`, `Q` with `U'` near to `U P`, `V'` near to `V Q` and `B` near to `P S Qᵀ`. -/
theorem C115_iteration {κ : Svd.Lit α} {ε ω : ℝ} (he : u α ≤ ε) (he1 : ε ≤ 1 / 100) (hω : η α ≤ ω) (hω1 : ω ≤ 1 / 100)
    (hyp : HypNear ε κ.hyp) (f1 : fin κ.eps) (b1 : |val κ.eps| ≤ ε) (f2 : fin κ.tiny) (b2 : |val κ.tiny| ≤ ω)
    (hm : n ≤ m) (fuel : Nat) {x : Svd.St α m n} (fs : ∀ i, i < n → fin (x.s.f i)) (fe : ∀ i, i < n → fin (x.e.f i))
    (e0 : val (x.e.f (n - 1)) = 0) {B : Nat → Nat → ℝ} (h1 : ∀ i, i < n → B i i = val (x.s.f i))
    (h2 : ∀ i, i + 1 < n → B i (i + 1) = val (x.e.f i)) (h3 : ∀ i j, i < n → j < n → j ≠ i → j ≠ i + 1 → B i j = 0)
    (room : 16 * (rotErr (75 * ε) (75 * ω) 0 (fro (mx n n B)) (fuel * (2 * n + 2)) + fro (mx n n B)) ≤ big α) :
    ∃ o, Svd.loop κ fuel n x = .ok o ∧ ∀ y, o = some y → (∀ i j, i < m → j < n → fin (y.u.f i j)) →
      (∀ i j, i < n → j < n → fin (y.v.f i j)) →
      (∀ i, i < n → fin (y.s.f i) ∧ 0 ≤ val (y.s.f i)) ∧ (∀ i, i + 1 < n → val (y.s.f (i + 1)) ≤ val (y.s.f i)) ∧
      ∃ P Q : Matrix (Fin n) (Fin n) ℝ, Pᵀ * P = 1 ∧ Qᵀ * Q = 1 ∧
        fro ((mx m n fun i j => val (y.u.f i j)) - (mx m n fun i j => val (x.u.f i j)) * P) ≤
          rotErr (22 * ε) (√m * (5 * η α)) 0 (fro (mx m n fun i j => val (x.u.f i j))) (fuel * (2 * n + 2)) ∧
        fro ((mx n n fun i j => val (y.v.f i j)) - (mx n n fun i j => val (x.v.f i j)) * Q) ≤
          rotErr (22 * ε) (√n * (5 * η α)) 0 (fro (mx n n fun i j => val (x.v.f i j))) (fuel * (2 * n + 2)) ∧
        fro (mx n n B - P * Matrix.diagonal (fun i : Fin n => val (y.s.f i)) * Qᵀ) ≤
          rotErr (75 * ε) (75 * ω) 0 (fro (mx n n B)) (fuel * (2 * n + 2)) := by
  have eB : mx n n (Bi.bEnt (Svd.vf x.s.f) (Svd.vf x.e.f)) = mx n n B := by
    refine mx_congr fun i j hi hj => ?_
    unfold Bi.bEnt
    split_ifs with c1 c2
    · rw [c1, h1 i hi]; rfl
    · rw [c2, h2 i (by omega)]; rfl
    · rw [h3 i j hi hj c1 c2]; exact Exact.zero_eq
  have hf : ∀ {r c : Nat} (A : Matrix (Fin r) (Fin c) ℝ), fro (A - A) = 0 := fun A => by rw [sub_self]; unfold fro; simp
  have C : Svd.Cx ε ω (mx n n B) (fuel * (2 * n + 2)) κ.hyp := ⟨he, he1, hω, hω1, room, hyp⟩
  obtain ⟨o, e, H⟩ := Svd.loop_good (U₀ := mx m n fun i j => val (x.u.f i j)) (V₀ := mx n n fun i j => val (x.v.f i j)) C
    ⟨f1, b1, f2, b2⟩ hm fuel n 0 x le_rfl (by omega) fun _ _ => ⟨⟨fs, fe, 1, 1, by simp, by simp,
      by rw [Matrix.mul_one, hf, rotErr_zero], by rw [Matrix.mul_one, hf, rotErr_zero],
      by rw [Matrix.one_mul, Matrix.transpose_one, Matrix.mul_one, eB, hf, rotErr_zero]⟩,
      fun i h h' => by rw [show i = n - 1 by omega, e0], fun i _ _ => by omega, fun i _ _ => by omega, fun _ _ => by omega⟩
  rw [Nat.zero_add] at H
  refine ⟨o, e, fun y hy hu hv => ?_⟩
  have D := H y hy hu hv
  obtain ⟨P, Q, p1, p2, p3, p4, p5⟩ := D.good.near
  refine ⟨fun i hi => ⟨D.good.s i hi, D.pos i (Nat.zero_le _) hi⟩, fun i hi => D.dec i (Nat.zero_le _) hi (by omega), P, Q, p1, p2,
    p3, p4, ?_⟩
  have eS : mx n n (Bi.bEnt (Svd.vf y.s.f) (Svd.vf y.e.f)) = Matrix.diagonal (fun i : Fin n => val (y.s.f i)) := by
    ext i j
    rw [Matrix.diagonal_apply]
    show Bi.bEnt _ _ _ _ = _
    unfold Bi.bEnt
    by_cases c1 : i = j
    · rw [if_pos (by rw [c1]), if_pos c1]; rfl
    · rw [if_neg (fun h => c1 (Fin.ext h.symm)), if_neg c1]
      split_ifs
      · exact D.e0 i (by omega) i.2
      · exact Exact.zero_eq
  rwa [eS] at p5

end round

/-- `eps_svd` and `tiny_svd` of `/repo/singular_value_decomposition.go:23-26` in binary64. -/
structure B64.SvdLit (κ : Svd.Lit B64) : Prop where
  eps : val κ.eps = (1 / 2) ^ 52
  eps_fin : fin κ.eps
  tiny : val κ.tiny = (1 / 2) ^ 966
  tiny_fin : fin κ.tiny

/-- **C115, binary64**, with the literals of the code and `math.Hypot` where its result is not below `2⁻¹⁰⁰⁰`. -/
theorem C115_binary64 {m n : Nat} {κ : Svd.Lit B64} (L : B64.SvdLit κ) (hyp : κ.hyp = B64.guard ((1 / 2) ^ 1000) B64.hypot)
    (hm : n ≤ m) (fuel : Nat) {x : Svd.St B64 m n} (fs : ∀ i, i < n → fin (x.s.f i)) (fe : ∀ i, i < n → fin (x.e.f i))
    (e0 : val (x.e.f (n - 1)) = 0) {B : Nat → Nat → ℝ} (h1 : ∀ i, i < n → B i i = val (x.s.f i))
    (h2 : ∀ i, i + 1 < n → B i (i + 1) = val (x.e.f i)) (h3 : ∀ i j, i < n → j < n → j ≠ i → j ≠ i + 1 → B i j = 0)
    (room : 16 * (rotErr (75 * (1 / 2) ^ 52) (75 * (1 / 2) ^ 966) 0 (fro (mx n n B)) (fuel * (2 * n + 2)) + fro (mx n n B)) ≤
      2 ^ 1023) :
    ∃ o, Svd.loop κ fuel n x = .ok o ∧ ∀ y, o = some y → (∀ i j, i < m → j < n → fin (y.u.f i j)) →
      (∀ i j, i < n → j < n → fin (y.v.f i j)) →
      (∀ i, i < n → fin (y.s.f i) ∧ 0 ≤ val (y.s.f i)) ∧ (∀ i, i + 1 < n → val (y.s.f (i + 1)) ≤ val (y.s.f i)) ∧
      ∃ P Q : Matrix (Fin n) (Fin n) ℝ, Pᵀ * P = 1 ∧ Qᵀ * Q = 1 ∧
        fro ((mx m n fun i j => val (y.u.f i j)) - (mx m n fun i j => val (x.u.f i j)) * P) ≤
          rotErr (22 * (1 / 2) ^ 52) (√m * (5 * (1 / 2) ^ 1075)) 0 (fro (mx m n fun i j => val (x.u.f i j))) (fuel * (2 * n + 2)) ∧
        fro ((mx n n fun i j => val (y.v.f i j)) - (mx n n fun i j => val (x.v.f i j)) * Q) ≤
          rotErr (22 * (1 / 2) ^ 52) (√n * (5 * (1 / 2) ^ 1075)) 0 (fro (mx n n fun i j => val (x.v.f i j))) (fuel * (2 * n + 2)) ∧
        fro (mx n n B - P * Matrix.diagonal (fun i : Fin n => val (y.s.f i)) * Qᵀ) ≤
          rotErr (75 * (1 / 2) ^ 52) (75 * (1 / 2) ^ 966) 0 (fro (mx n n B)) (fuel * (2 * n + 2)) := by
  have hu : u B64 = (1 / 2) ^ 53 := rfl
  have hη : η B64 = (1 / 2) ^ 1075 := rfl
  have h2u : 2 * u B64 = (1 / 2) ^ 52 := by rw [hu]; norm_num
  have hp : ((1 : ℝ) / 2) ^ 966 ≤ (1 / 2) ^ 10 := pow_le_pow_of_le_one (by norm_num) (by norm_num) (by norm_num)
  have hn := B64.guard_near
  rw [h2u] at hn
  have := C115_iteration (κ := κ) (ε := (1 / 2) ^ 52) (ω := (1 / 2) ^ 966) (by rw [← h2u]; linarith [u_nonneg (α := B64)])
    (by norm_num) (by rw [hη]; exact pow_le_pow_of_le_one (by norm_num) (by norm_num) (by norm_num))
    (hp.trans (by norm_num)) (by rw [hyp]; exact hn) L.eps_fin
    (by rw [L.eps, abs_of_nonneg (by positivity)]) L.tiny_fin (by rw [L.tiny, abs_of_nonneg (by positivity)]) hm fuel fs fe e0
    h1 h2 h3 room
  rw [hη] at this
  exact this

/-! ## A case -/

theorem rotErr_case {ε ω b : ℝ} {k : Nat} (h0 : 0 ≤ ε) (h1 : ε ≤ 1 / 1000) (w0 : 0 ≤ ω) (w1 : ω ≤ 1 / 1000) (hb : 0 ≤ b) (hk : k ≤ 100) :
    rotErr ε ω 0 b k + b ≤ 2 * (b + 1) := by
  have e1 : (1 + ε) ^ k ≤ 2 := calc
    (1 + ε) ^ k ≤ (1 + ε) ^ 100 := pow_le_pow_right₀ (by linarith) hk
    _ ≤ (1 + 1 / 1000) ^ 100 := pow_le_pow_left₀ (by linarith) (by linarith) _
    _ ≤ 2 := by norm_num
  have e2 : (k : ℝ) * ω ≤ 1 := by
    have h : (k : ℝ) ≤ 100 := by exact_mod_cast hk
    have := mul_le_mul h w1 w0 (by norm_num)
    linarith
  have e3 : 0 ≤ (k : ℝ) * ω := by positivity
  have := mul_le_mul e1 (show 0 + b + k * ω ≤ b + 1 by linarith) (by linarith) (by norm_num)
  unfold rotErr
  linarith

theorem Svd.room_case {b : ℝ} {k : Nat} (hb : 0 ≤ b) (h : b ≤ 10) (hk : k ≤ 100) :
    16 * (rotErr (75 * (1 / 2) ^ 52) (75 * (1 / 2) ^ 966) 0 b k + b) ≤ 2 ^ 1023 := by
  have hp : ((1 : ℝ) / 2) ^ 966 ≤ (1 / 2) ^ 20 := pow_le_pow_of_le_one (by norm_num) (by norm_num) (by norm_num)
  have h1 := rotErr_case (ε := 75 * (1 / 2) ^ 52) (ω := 75 * (1 / 2) ^ 966) (b := b) (k := k) (by positivity) (by norm_num) (by positivity)
    (by
      generalize ((1 : ℝ) / 2) ^ 966 = w at *
      norm_num at hp ⊢
      linarith) hb hk
  have h2 : (2 : ℝ) ^ 9 ≤ 2 ^ 1023 := pow_le_pow_right₀ (by norm_num) (by norm_num)
  generalize (2 : ℝ) ^ 1023 = c at *
  norm_num at h2
  linarith

theorem B64.guard_case {a b : B64} (ha : B64.Is a 0) (hb : B64.Is b 4) :
    B64.Is (B64.guard ((1 / 2) ^ 1000) B64.hypot a b) 4 := by
  have e1 : (Flt.isInf a || Flt.isInf b) = false := by rw [isInf_fin ha.1, isInf_fin hb.1]; rfl
  have e2 : (Flt.isNaN a || Flt.isNaN b) = false := by rw [isNaN_fin ha.1, isNaN_fin hb.1]; rfl
  have a1 : B64.Is (Flt.abs a) 0 := ha.abs (by norm_num)
  have b1 : B64.Is (Flt.abs b) 4 := hb.abs (by norm_num)
  have c : Flt.lt (Flt.abs a) (Flt.abs b) = true := (lt_iff a1.1 b1.1).2 (by rw [a1.2, b1.2]; norm_num)
  have N : ∀ k : ℤ, |k| ≤ 2 ^ 53 → B64.Num (k : ℝ) := fun k h => B64.Num.int h
  have q : B64.Is (Flt.div (Flt.abs a) (Flt.abs b)) 0 :=
    a1.div b1 (by norm_num) (by norm_num) (by simpa using N 0 (by norm_num))
  have w : B64.Is (Flt.mul (Flt.div (Flt.abs a) (Flt.abs b)) (Flt.div (Flt.abs a) (Flt.abs b))) 0 :=
    q.mul q (by norm_num) (by simpa using N 0 (by norm_num))
  have z := B64.Is.one.add w (t := 1) (by norm_num) (by simpa using N 1 (by norm_num))
  have r := z.sqrt (t := 1) (by norm_num) (by norm_num) (by simpa using N 1 (by norm_num))
  have h := b1.mul r (t := 4) (by norm_num) (by simpa using N 4 (by norm_num))
  have E : B64.hypot a b = Flt.mul (Flt.abs b)
      (Flt.sqrt (Flt.add Flt.one (Flt.mul (Flt.div (Flt.abs a) (Flt.abs b)) (Flt.div (Flt.abs a) (Flt.abs b))))) := by
    unfold B64.hypot
    rw [e1, e2, if_neg Bool.false_ne_true, if_neg Bool.false_ne_true]
    simp only [if_pos c]
    rw [if_neg (by rw [b1.ne (by norm_num)]; exact Bool.false_ne_true)]
  rw [← E] at h
  unfold B64.guard
  rw [if_pos ⟨.inr (by
    rw [h.2]
    exact (pow_le_one₀ (by norm_num) (by norm_num)).trans (by norm_num)), ha.1, hb.1, h.1⟩]
  exact h

theorem B64.SvdLit.thr {κ : Svd.Lit B64} (L : B64.SvdLit κ) {t : B64} (ht : B64.Is t 0 ∨ B64.Is t 4) :
    fin (Flt.add κ.tiny (Flt.mul κ.eps t)) ∧ 0 ≤ val (Flt.add κ.tiny (Flt.mul κ.eps t)) ∧
      val (Flt.add κ.tiny (Flt.mul κ.eps t)) ≤ 1 := by
  have hp : ((1 : ℝ) / 2) ^ 966 ≤ (1 / 2) ^ 10 := pow_le_pow_of_le_one (by norm_num) (by norm_num) (by norm_num)
  have hp0 : (0 : ℝ) ≤ (1 / 2) ^ 966 := by positivity
  obtain ⟨q, hq, q0, q1⟩ : ∃ q : ℝ, B64.Is (Flt.mul κ.eps t) q ∧ 0 ≤ q ∧ q ≤ 1 / 2 := by
    rcases ht with h | h
    · exact ⟨0, B64.Is.mul ⟨L.eps_fin, L.eps⟩ h (by norm_num) (by simpa using B64.Num.int (k := 0) (by norm_num)), le_rfl, by norm_num⟩
    · exact ⟨(1 / 2) ^ 50, B64.Is.mul ⟨L.eps_fin, L.eps⟩ h (by norm_num) (B64.Num.dy 1 50 (by norm_num) (by norm_num) (by norm_num)),
        by positivity, by norm_num⟩
  have hb : (10 : ℝ) ≤ big B64 := le_trans (by norm_num) big_le
  have s0 : 0 ≤ val κ.tiny + val (Flt.mul κ.eps t) := by rw [L.tiny, hq.2]; linarith
  have s1 : val κ.tiny + val (Flt.mul κ.eps t) ≤ 6 / 10 := by
    rw [L.tiny, hq.2]
    generalize ((1 : ℝ) / 2) ^ 966 = w at *
    norm_num at hp
    linarith
  have fa := add_ok L.tiny_fin hq.1 (by rw [abs_of_nonneg s0]; linarith)
  have h := (add_err fa).1
  rw [abs_of_nonneg s0] at h
  have hu : u B64 ≤ 1 / 2 := u_le
  have hu0 := u_nonneg (α := B64)
  have h2 := abs_le.1 h
  have h3 : u B64 * (val κ.tiny + val (Flt.mul κ.eps t)) ≤ 1 / 2 * (val κ.tiny + val (Flt.mul κ.eps t)) :=
    mul_le_mul_of_nonneg_right hu s0
  exact ⟨fa, by linarith, by linarith⟩

/-- The iteration for the matrix ((0, 4), (0, 0)): one rotation, and then no more. -/
theorem Svd.case_loop {m : Nat} {κ : Svd.Lit B64} (L : B64.SvdLit κ) (hyp : κ.hyp = B64.guard ((1 / 2) ^ 1000) B64.hypot) (hm : 2 ≤ m)
    {x : Svd.St B64 m 2} (s0 : B64.Is (x.s.f 0) 0) (s1 : B64.Is (x.s.f 1) 0) (e0 : B64.Is (x.e.f 0) 4) (e1 : B64.Is (x.e.f 1) 0)
    (hu : Svd.tfin x.u) (hv : ∀ i j, i < 2 → j < 2 → B64.Is (x.v.f i j) (if i = j then 1 else 0)) :
    ∃ y, Svd.loop κ 3 2 x = .ok (some y) ∧ Svd.tfin y.u ∧ Svd.tfin y.v ∧ B64.Is (y.s.f 0) 4 ∧ B64.Is (y.s.f 1) 0 := by
  have N : ∀ k : ℤ, |k| ≤ 2 ^ 53 → B64.Num (k : ℝ) := fun k h => B64.Num.int h
  have N0 : B64.Num 0 := by simpa using N 0 (by norm_num)
  have N1 : B64.Num 1 := by simpa using N 1 (by norm_num)
  have N4 : B64.Num 4 := by simpa using N 4 (by norm_num)
  have Nm : B64.Num (-1) := by simpa using N (-1) (by norm_num)
  -- the first round
  obtain ⟨x1, r1, u1, v1, a1, a2, a3, a4⟩ : ∃ x1 : Svd.St B64 m 2, Svd.round κ 2 x = .ok (2, x1) ∧ Svd.tfin x1.u ∧ Svd.tfin x1.v ∧
      B64.Is (x1.s.f 0) 4 ∧ B64.Is (x1.s.f 1) 0 ∧ B64.Is (x1.e.f 0) 0 ∧ B64.Is (x1.e.f 1) 0 := by
    obtain ⟨k', e', q1, q0, q2, q3⟩ := Svd.findE_ok κ x.s (k := 1) (.inl (by norm_num)) x.e
    have t0 := L.thr (t := Flt.add (Flt.abs (x.s.f 0)) (Flt.abs (x.s.f (0 + 1))))
      (.inl ((s0.abs (t := 0) (by norm_num)).add (s1.abs (t := 0) (by norm_num)) (by norm_num) N0))
    have b0 := e0.abs (t := 4) (by norm_num)
    have c0 : Flt.lt (Svd.thrE κ x.s.f 0) (Flt.abs (x.e.f 0)) = true :=
      (lt_iff (x := Svd.thrE κ x.s.f 0) t0.1 b0.1).2 (by rw [b0.2]; exact lt_of_le_of_lt t0.2.2 (by norm_num))
    obtain ⟨rfl, rfl⟩ : k' = 0 ∧ e' = x.e := by
      rcases q3 with h | ⟨h, h1, -⟩
      · exact h
      · obtain rfl : k' = 1 := by omega
        rw [c0] at h1
        cases h1
    obtain ⟨o, s', p1, p2⟩ := Svd.findS_ok κ x.e (k := 0) (d := 2) (by norm_num) x.s
    have b1 := s1.abs (t := 0) (by norm_num)
    have t1 := L.thr (t := if (1 : Nat) ≠ 0 then Flt.add (Flt.abs (x.e.f 1)) (Flt.abs (x.e.f (1 - 1))) else Flt.abs (x.e.f 1))
      (.inr (by
        rw [if_pos (by norm_num)]
        exact (e1.abs (t := 0) (by norm_num)).add b0 (by norm_num) N4))
    have c1 : Flt.le (Flt.abs (x.s.f 1)) (Svd.thrS κ x.e.f 0 1) = true :=
      (le_iff (y := Svd.thrS κ x.e.f 0 1) b1.1 t1.1).2 (by rw [b1.2]; exact t1.2.1)
    obtain ⟨rfl, rfl⟩ : o = some 1 ∧ s' = ⟨upd1 x.s.f 1 Flt.zero⟩ := by
      rcases p2 with ⟨-, -, h⟩ | ⟨i, rfl, -, h1, -, rfl, h⟩
      · have := h 1 (by norm_num) (by norm_num)
        rw [c1] at this
        cases this
      · by_cases hi : i = 1
        · rw [hi]; exact ⟨rfl, rfl⟩
        · have := h 1 (by omega) (by norm_num)
          rw [c1] at this
          cases this
    unfold Svd.round
    rw [q1, ok_bind]
    dsimp only
    rw [if_neg (by norm_num), p1, ok_bind]
    dsimp only
    rw [if_pos rfl]
    unfold Svd.deflate
    rw [Row.get_ok (by norm_num), ok_bind, Row.set_ok (by norm_num), ok_bind, forDown_step (a := 0) (by norm_num)]
    obtain ⟨w, ew, D⟩ := Svd.deflateStep_ok (m := m) κ.hyp (p := 2) (k := 0) (j := 0) (by norm_num) le_rfl
      (x.e.f (2 - 2), ⟨⟨upd1 x.s.f 1 Flt.zero⟩, ⟨upd1 x.e.f (2 - 2) Flt.zero⟩, x.u, x.v⟩)
    rw [ew, ok_bind, forDown_eq_self (le_refl _), ok_bind]
    have ht : B64.Is (κ.hyp (upd1 x.s.f 1 Flt.zero 0) (x.e.f (2 - 2))) 4 := by
      rw [hyp, upd1_eq, if_neg (by norm_num)]
      exact B64.guard_case s0 e0
    have hs := D.s
    have he := D.e
    have hV := D.v
    dsimp only at hs he hV
    rw [if_neg (by norm_num)] at he
    generalize κ.hyp (upd1 x.s.f 1 Flt.zero 0) (x.e.f (2 - 2)) = t at *
    have cs : B64.Is (Flt.div (upd1 x.s.f 1 Flt.zero 0) t) 0 := by
      rw [upd1_eq, if_neg (by norm_num)]
      exact s0.div ht (by norm_num) (by norm_num) N0
    have sn : B64.Is (Flt.div (x.e.f (2 - 2)) t) 1 := e0.div ht (by norm_num) (by norm_num) N1
    refine ⟨w.2, rfl, by rw [D.u]; exact hu, fun i j hi hj => ?_, ?_, ?_, ?_, ?_⟩
    · rw [hV i hi]
      generalize Flt.div (upd1 x.s.f 1 Flt.zero 0) t = cs' at *
      generalize Flt.div (x.e.f (2 - 2)) t = sn' at *
      have g0 := hv i 0 hi (by norm_num)
      have g1 := hv i 1 hi (by norm_num)
      unfold Svd.rt
      obtain rfl | rfl : i = 0 ∨ i = 1 := by omega
      · obtain rfl | rfl : j = 0 ∨ j = 1 := by omega
        · rw [if_pos rfl]
          exact ((cs.mul g0 (t := 0) (by norm_num) N0).add (sn.mul g1 (t := 0) (by norm_num) N0) (t := 0) (by norm_num) N0).1
        · rw [if_neg (by norm_num), if_pos rfl]
          exact (((sn.neg rfl).mul g0 (t := -1) (by norm_num) Nm).add (cs.mul g1 (t := 0) (by norm_num) N0) (t := -1) (by norm_num) Nm).1
      · obtain rfl | rfl : j = 0 ∨ j = 1 := by omega
        · rw [if_pos rfl]
          exact ((cs.mul g0 (t := 0) (by norm_num) N0).add (sn.mul g1 (t := 1) (by norm_num) N1) (t := 1) (by norm_num) N1).1
        · rw [if_neg (by norm_num), if_pos rfl]
          exact (((sn.neg rfl).mul g0 (t := 0) (by norm_num) N0).add (cs.mul g1 (t := 0) (by norm_num) N0) (t := 0) (by norm_num) N0).1
    · rw [hs, upd1_eq, if_pos rfl]; exact ht
    · rw [hs, upd1_eq, if_neg (by norm_num), upd1_eq, if_pos rfl]; exact B64.Is.zero
    · rw [he, upd1_eq, if_pos rfl]; exact B64.Is.zero
    · rw [he, upd1_eq, if_neg (by norm_num)]; exact e1
  -- the second round
  obtain ⟨x2, r2, u2, v2, c1, c2⟩ : ∃ x2 : Svd.St B64 m 2, Svd.round κ 2 x1 = .ok (1, x2) ∧ Svd.tfin x2.u ∧ Svd.tfin x2.v ∧
      B64.Is (x2.s.f 0) 4 ∧ B64.Is (x2.s.f 1) 0 := by
    obtain ⟨k', e', q1, q0, q2, q3⟩ := Svd.findE_ok κ x1.s (k := 1) (.inl (by norm_num)) x1.e
    have t0 := L.thr (t := Flt.add (Flt.abs (x1.s.f 0)) (Flt.abs (x1.s.f (0 + 1))))
      (.inr ((a1.abs (t := 4) (by norm_num)).add (a2.abs (t := 0) (by norm_num)) (by norm_num) N4))
    have b0 := a3.abs (t := 0) (by norm_num)
    have c0 : ¬ Flt.lt (Svd.thrE κ x1.s.f 0) (Flt.abs (x1.e.f 0)) = true := fun h => by
      have := (lt_iff (x := Svd.thrE κ x1.s.f 0) t0.1 b0.1).1 h
      rw [b0.2] at this
      exact absurd t0.2.1 (not_le.2 this)
    obtain rfl : k' = 1 := by
      by_contra h
      exact c0 (q2 0 (by omega) (by norm_num))
    unfold Svd.round
    rw [q1, ok_bind]
    dsimp only
    rw [if_pos rfl]
    unfold Svd.converged
    obtain ⟨x', w1, -, w2, w3, -⟩ := Svd.positive_ok (k := 1) (by norm_num) (⟨x1.s, e', x1.u, x1.v⟩ : Svd.St B64 m 2)
    obtain ⟨w4, w5⟩ := w3 ((le_iff a2.1 zero_fin).2 (by rw [a2.2, val_zero]))
    rw [w1, ok_bind, Svd.order_stop x' (by norm_num), ok_bind]
    refine ⟨x', rfl, by rw [w2]; exact u1, fun i j hi hj => ?_, ?_, ?_⟩
    · rw [w5 i j hi]
      split
      · exact neg_fin.2 (v1 i 1 hi (by norm_num))
      · exact v1 i j hi hj
    · rw [w4, upd1_eq, if_neg (by norm_num)]; exact a1
    · rw [w4, upd1_eq, if_pos rfl]
      split
      · exact a2.neg (by norm_num)
      · exact B64.Is.zero
  -- the third round
  have r3 : Svd.round κ 1 x2 = .ok (0, x2) := by
    unfold Svd.round
    rw [show Svd.findE κ x2.s (1 - 1) x2.e = .ok (0, x2.e) from rfl, ok_bind]
    dsimp only
    rw [if_pos rfl]
    unfold Svd.converged
    obtain ⟨x', w1, -, -, -, w3⟩ := Svd.positive_ok (k := 0) (by norm_num) x2
    have : Flt.le (x2.s.f 0) Flt.zero = false := by
      rw [← Bool.not_eq_true, le_iff c1.1 zero_fin, c1.2, val_zero]
      norm_num
    rw [show Svd.positive (1 - 1) x2 = .ok x2 by rw [← w3 this]; rw [w3 this] at w1 ⊢; exact w1, ok_bind,
      Svd.order_stop x2 (fun _ => (le_iff c2.1 c1.1).2 (by rw [c1.2, c2.2]; norm_num)), ok_bind]
    rfl
  refine ⟨x2, ?_, u2, v2, c1, c2⟩
  rw [Svd.loop, if_neg (by norm_num), r1, ok_bind, Svd.loop, if_neg (by norm_num), r2, ok_bind, Svd.loop, if_neg (by norm_num), r3,
    ok_bind]
  rfl

/-- The literals in binary64, with any `floor` and `conv`. -/
noncomputable def B64.svdLit (floor : B64) (conv : Nat → B64) : Svd.Lit B64 :=
  ⟨B64.two (-52) (by norm_num) (by norm_num), B64.two (-966) (by norm_num) (by norm_num),
    B64.guard ((1 / 2) ^ 1000) B64.hypot, floor, conv⟩

theorem B64.svdLit_ok (floor : B64) (conv : Nat → B64) : B64.SvdLit (B64.svdLit floor conv) := by
  refine ⟨?_, trivial, ?_, trivial⟩
  · show (2 : ℝ) ^ (-52 : ℤ) = _
    rw [zpow_neg, one_div, inv_pow]; rfl
  · show (2 : ℝ) ^ (-966 : ℤ) = _
    rw [zpow_neg, one_div, inv_pow]; rfl

/-- The case meets the hypotheses: the bidiagonal matrix ((0, 4), (0, 0)). -/
example : ∃ (κ : Svd.Lit B64) (x y : Svd.St B64 2 2), B64.SvdLit κ ∧ κ.hyp = B64.guard ((1 / 2) ^ 1000) B64.hypot ∧
    (∀ i, i < 2 → fin (x.s.f i)) ∧ (∀ i, i < 2 → fin (x.e.f i)) ∧ val (x.e.f (2 - 1)) = 0 ∧ val (x.e.f 0) = 4 ∧
    16 * (rotErr (75 * (1 / 2) ^ 52) (75 * (1 / 2) ^ 966) 0 (fro (mx 2 2 (Bi.bEnt (Svd.vf x.s.f) (Svd.vf x.e.f)))) (3 * (2 * 2 + 2)) +
      fro (mx 2 2 (Bi.bEnt (Svd.vf x.s.f) (Svd.vf x.e.f)))) ≤ 2 ^ 1023 ∧ Svd.loop κ 3 2 x = .ok (some y) ∧
    (∀ i j, i < 2 → j < 2 → fin (y.u.f i j)) ∧ (∀ i j, i < 2 → j < 2 → fin (y.v.f i j)) ∧ val (y.s.f 0) = 4 ∧ val (y.s.f 1) = 0 := by
  obtain ⟨id, hid⟩ : ∃ id : Tab B64 2 2, id = ⟨fun i j => if i = j then Flt.one else Flt.zero⟩ := ⟨_, rfl⟩
  obtain ⟨x, hx⟩ : ∃ x : Svd.St B64 2 2, x = ⟨⟨fun _ => Flt.zero⟩, ⟨fun i => if i = 0 then B64.int 4 (by norm_num) else Flt.zero⟩, id, id⟩ :=
    ⟨_, rfl⟩
  have hv : ∀ i j, i < 2 → j < 2 → B64.Is (id.f i j) (if i = j then 1 else 0) := fun i j _ _ => by
    rw [hid]
    dsimp only
    split
    · exact B64.Is.one
    · exact B64.Is.zero
  have e0 : B64.Is (x.e.f 0) 4 := by
    rw [hx]
    have := B64.Is.int (k := 4) (by norm_num)
    simpa using this
  have e1 : B64.Is (x.e.f 1) 0 := by rw [hx]; exact B64.Is.zero
  have s0 : ∀ i, x.s.f i = Flt.zero := fun i => by rw [hx]
  obtain ⟨y, h1, h2, h3, h4, h5⟩ := Svd.case_loop (m := 2) (B64.svdLit_ok Flt.zero fun _ => Flt.zero) rfl le_rfl (x := x)
    (by rw [s0]; exact B64.Is.zero) (by rw [s0]; exact B64.Is.zero) e0 e1
    (by rw [hx]; exact fun i j hi hj => (hv i j hi hj).1) (by rw [hx]; exact hv)
  refine ⟨_, x, y, B64.svdLit_ok Flt.zero fun _ => Flt.zero, rfl, fun i _ => by rw [s0]; exact zero_fin, fun i hi => ?_, e1.2, e0.2, ?_, h1, h2,
    h3, h4.2, h5.2⟩
  · obtain rfl | rfl : i = 0 ∨ i = 1 := by omega
    exacts [e0.1, e1.1]
  · refine Svd.room_case (Real.sqrt_nonneg _) ?_ (by norm_num)
    unfold fro
    refine Real.sqrt_le_iff.2 ⟨by norm_num, ?_⟩
    have z : (Flt.zero : ℝ) = 0 := Exact.zero_eq
    norm_num [Fin.sum_univ_two, mx, Bi.bEnt, Svd.vf, s0, val_zero, e0.2, z]

end Linear
