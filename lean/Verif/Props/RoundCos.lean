import Verif.Props.RoundUnit

/-!
# C125: cosines in rounded arithmetic

`VecCosine` divides the dot product by the product of the norms.  Rounding can lift the quotient above one, and a norm that overflows makes it
zero.
-/

set_option linter.unusedSectionVars false

namespace Linear

open Spec Rnd Matrix
open Finset hiding val diag

/-- **C125, the operations**: in every arithmetic `VecCosine` of vectors of one dimension is the sum of the products divided by the product of
the computed norms, unless one of these is zero. -/
theorem C125_terms {α : Type} [Flt α] (v w : RVec α) (h : v.dim = w.dim) :
    ∃ N M, vecNorm v = .ok N ∧ vecNorm w = .ok M ∧
      (Flt.eq N Flt.zero = true ∨ Flt.eq M Flt.zero = true → vecCosine v w = .error (.pan .arith)) ∧
      (Flt.eq N Flt.zero = false → Flt.eq M Flt.zero = false →
        vecCosine v w = .ok (Flt.div (Spec.total (List.zipWith Flt.mul v.list w.list)) (Flt.mul N M))) := by
  obtain ⟨N, e, -⟩ := C124_terms v
  obtain ⟨M, e', -⟩ := C124_terms w
  refine ⟨N, M, e, e', fun h0 => ?_, fun h1 h2 => ?_⟩
  · unfold vecCosine
    rw [e, ok_bind, e', ok_bind, if_pos (by rw [Bool.or_eq_true]; exact h0)]
    rfl
  · unfold vecCosine
    rw [e, ok_bind, e', ok_bind, h1, h2, (C24_machine v w).2.2.2.1 h]
    rfl

/-- The computed norm, where the squares do not underflow. -/
theorem vecNorm_near {α : Type} [Flt α] [Rnd α] (v : RVec α) {f : Nat → α} (hf : IsList v.list v.dim f) {S δ : ℝ}
    (hS : S = ∑ k ∈ range v.dim, val (f k) ^ 2) (S0 : 0 < S) {N : α} (e : vecNorm v = .ok N) (fN : fin N)
    (hδ : gam α (v.dim + 2) * S + v.dim * (1 + u α) ^ (v.dim + 2) * η α ≤ δ * S) :
    0 ≤ δ ∧ |val N - √S| ≤ δ * √S := by
  obtain ⟨⟨N', e', H⟩, -⟩ := C80_norms v hf
  rw [e] at e'
  obtain rfl := Except.ok.inj e'
  obtain ⟨-, N0, err⟩ := H fN
  rw [← hS] at err
  have q0 : 0 < √S := Real.sqrt_pos.2 S0
  have qq : √S ^ 2 = S := Real.sq_sqrt S0.le
  have err := err.trans hδ
  have d0 : 0 ≤ δ := nonneg_of_mul_nonneg_left ((abs_nonneg _).trans err) S0
  refine ⟨d0, ?_⟩
  have h : |val N - √S| * (val N + √S) ≤ δ * √S * (val N + √S) := by
    rw [← abs_of_pos (show 0 < val N + √S by linarith), ← abs_mul, abs_of_pos (show 0 < val N + √S by linarith)]
    rw [show (val N - √S) * (val N + √S) = val N ^ 2 - S by linear_combination -qq]
    refine err.trans ?_
    have := mul_nonneg (mul_nonneg d0 q0.le) N0
    have : δ * √S * (val N + √S) = δ * √S * val N + δ * S := by linear_combination δ * qq
    linarith
  exact le_of_mul_le_mul_right h (by linarith)

/-- **C125, partial**: where the computed norms are finite and nothing underflows, the computed cosine is near to the true one.  `δ` bounds the
relative errors of the squares of the norms, `ε` the error of the dot product and `κ` that of the product of the norms, both relative to the
product of the true norms.  Missing: vectors whose squares underflow or overflow, and the bound by one; there it is false
(`C125_refuted_large`, `C125_refuted`). -/
theorem C125_partial {α : Type} [Flt α] [Rnd α] (v w : RVec α) (h : v.dim = w.dim) {f g : Nat → α} (hf : IsList v.list v.dim f)
    (hg : IsList w.list w.dim g) {S T δ ε κ : ℝ} (hS : S = ∑ k ∈ range v.dim, val (f k) ^ 2) (S0 : 0 < S)
    (hT : T = ∑ k ∈ range v.dim, val (g k) ^ 2) (T0 : 0 < T) (hN : ∀ N, vecNorm v = .ok N → fin N) (hM : ∀ M, vecNorm w = .ok M → fin M)
    (hδ : gam α (v.dim + 2) * S + v.dim * (1 + u α) ^ (v.dim + 2) * η α ≤ δ * S)
    (hδ' : gam α (v.dim + 2) * T + v.dim * (1 + u α) ^ (v.dim + 2) * η α ≤ δ * T) (hδ1 : δ < 1)
    (hε : gam α v.dim * (√S * √T) + v.dim * (1 + u α) ^ v.dim * η α ≤ ε * (√S * √T))
    (hκ : ((1 + δ) ^ 2 * (1 + u α) - 1) * (√S * √T) + η α ≤ κ * (√S * √T)) (hκ1 : κ < 1) :
    ∃ d c, vecDotProduct v w = .ok d ∧ vecCosine v w = .ok c ∧ (fin d → (∀ N M, vecNorm v = .ok N → vecNorm w = .ok M → fin (Flt.mul N M)) →
      fin c → |val c - (∑ k ∈ range v.dim, val (f k) * val (g k)) / (√S * √T)| ≤ (ε + κ + u α * (1 + ε)) / (1 - κ) + η α) := by
  obtain ⟨N, M, eN, eM, -, hc⟩ := C125_terms v w h
  have fN := hN N eN
  have fM := hM M eM
  obtain ⟨d0, nN⟩ := vecNorm_near v hf hS S0 eN fN hδ
  obtain ⟨-, nM⟩ := vecNorm_near w hg (by rw [← h]; exact hT) T0 eM fM (by rw [← h]; exact hδ')
  obtain ⟨d, ed, hd⟩ := C80_dot v w h hf hg
  have ed' := (C24_machine v w).2.2.2.1 h
  rw [ed] at ed'
  have ed' := Except.ok.inj ed'
  have s0 : 0 < √S := Real.sqrt_pos.2 S0
  have t0 : 0 < √T := Real.sqrt_pos.2 T0
  have cs : |∑ k ∈ range v.dim, val (f k) * val (g k)| ≤ √S * √T ∧ ∑ k ∈ range v.dim, |val (f k)| * |val (g k)| ≤ √S * √T := by
    have b : ∑ k ∈ range v.dim, |val (f k)| * |val (g k)| ≤ √S * √T := by
      have := Real.sum_mul_le_sqrt_mul_sqrt (range v.dim) (fun k => |val (f k)|) (fun k => |val (g k)|)
      simp only [sq_abs] at this
      rwa [← hS, ← hT] at this
    refine ⟨(abs_sum_le_sum_abs _ _).trans ?_, b⟩
    simpa only [abs_mul] using b
  generalize √S = s at *
  generalize √T = t at *
  obtain ⟨n1, n2⟩ := abs_le.1 nN
  obtain ⟨m1, m2⟩ := abs_le.1 nM
  have u0 := u_nonneg (α := α)
  have η0 := η_nonneg (α := α)
  have pN : 0 < val N := by nlinarith
  have pM : 0 < val M := by nlinarith
  have ne : ∀ {x : α}, fin x → 0 < val x → Flt.eq x Flt.zero = false := fun fx px => by
    rw [Bool.eq_false_iff, Ne, eq_iff fx zero_fin, val_zero]
    exact px.ne'
  refine ⟨d, _, ed, hc (ne fN pN) (ne fM pM), fun fd fp fc => ?_⟩
  rw [← ed'] at fc ⊢
  have fp := fp N M eN eM
  obtain ⟨-, hd⟩ := hd fd
  obtain ⟨c1, c2⟩ := cs
  have P0 : 0 < s * t := mul_pos s0 t0
  have g0 : 0 ≤ gam α v.dim := by
    unfold gam
    have := one_le_pow₀ (n := v.dim) (show 1 ≤ 1 + u α by linarith)
    linarith
  have hd : |val d - ∑ k ∈ range v.dim, val (f k) * val (g k)| ≤ ε * (s * t) :=
    (hd.trans (by linarith [mul_le_mul_of_nonneg_left c2 g0])).trans hε
  generalize ∑ k ∈ range v.dim, val (f k) * val (g k) = D at *
  have hp := (mul_err fp).1
  rw [abs_of_pos (mul_pos pN pM)] at hp
  have NM : |val N * val M - s * t| ≤ ((1 + δ) ^ 2 - 1) * (s * t) := by
    rw [show val N * val M - s * t = (val N - s) * (val M - t) + (val N - s) * t + s * (val M - t) by ring]
    have a1 := mul_le_mul nN nM (abs_nonneg _) (mul_nonneg d0 s0.le)
    have a2 := mul_le_mul_of_nonneg_right nN t0.le
    have a3 := mul_le_mul_of_nonneg_left nM s0.le
    refine (abs_add_le _ _).trans ((add_le_add_left (abs_add_le _ _) _).trans ?_)
    rw [abs_mul, abs_mul, abs_mul, abs_of_pos s0, abs_of_pos t0]
    linarith
  have hp : |val (Flt.mul N M) - s * t| ≤ κ * (s * t) := by
    refine le_trans ?_ hκ
    have a := abs_sub_le (val (Flt.mul N M)) (val N * val M) (s * t)
    have b := mul_le_mul_of_nonneg_left (abs_le.1 NM).2 u0
    linarith
  have dv := (div_err fc fp).1
  generalize val (Flt.mul N M) = p at *
  generalize val (Flt.div d (Flt.mul N M)) = c at *
  generalize val d = d at *
  have ε0 : 0 ≤ ε := nonneg_of_mul_nonneg_left ((abs_nonneg _).trans hd) P0
  have low : (1 - κ) * (s * t) ≤ p := by linarith [(abs_le.1 hp).1]
  have k0 : 0 < 1 - κ := by linarith
  have p0 : 0 < p := lt_of_lt_of_le (mul_pos k0 P0) low
  generalize s * t = P at *
  have q1 : |d / p| ≤ (1 + ε) / (1 - κ) := by
    rw [abs_div, abs_of_pos p0, div_le_div_iff₀ p0 k0]
    have a : |d| ≤ (1 + ε) * P := by linarith [abs_sub_abs_le_abs_sub d D]
    have b := mul_le_mul_of_nonneg_right a k0.le
    have c := mul_le_mul_of_nonneg_left low (show 0 ≤ 1 + ε by linarith)
    linarith
  have q2 : |d / p - D / P| ≤ (ε + κ) / (1 - κ) := by
    rw [div_sub_div _ _ p0.ne' P0.ne', abs_div, abs_of_pos (mul_pos p0 P0), div_le_div_iff₀ (mul_pos p0 P0) k0]
    have κ0 : 0 ≤ κ := nonneg_of_mul_nonneg_left ((abs_nonneg _).trans hp) P0
    have a : |d * P - p * D| ≤ (ε + κ) * P * P := by
      rw [show d * P - p * D = (d - D) * P - D * (p - P) by ring]
      refine (abs_sub _ _).trans ?_
      rw [abs_mul, abs_mul, abs_of_pos P0]
      have a1 := mul_le_mul_of_nonneg_right hd P0.le
      have a2 := mul_le_mul c1 hp (abs_nonneg _) P0.le
      linarith
    have b := mul_le_mul_of_nonneg_right a k0.le
    have c := mul_le_mul_of_nonneg_left low (mul_nonneg (show 0 ≤ ε + κ by linarith) P0.le)
    linarith
  have a := abs_sub_le c (d / p) (D / P)
  have b := mul_le_mul_of_nonneg_left q1 u0
  rw [add_div, mul_div_assoc]
  linarith

/-- Rounding of a number between two powers of two. -/
theorem B64.near_eq {x : ℝ} (e k : ℤ) (h1 : 2 ^ e ≤ x) (h2 : x < 2 ^ (e + 1)) (he : -1022 ≤ e) (hk : |x / 2 ^ (e - 52) - k| < 1 / 2) :
    B64.near x = k * 2 ^ (e - 52) := by
  have x0 : 0 < x := lt_of_lt_of_le (zpow_pos (by norm_num) _) h1
  have hl : Int.log 2 |x| = e := by
    rw [abs_of_pos x0]
    refine le_antisymm ?_ ?_
    · refine Int.lt_add_one_iff.1 ((Int.lt_zpow_iff_log_lt (by norm_num) x0).1 ?_)
      exact_mod_cast h2
    · refine (Int.zpow_le_iff_le_log (by norm_num) x0).1 ?_
      exact_mod_cast h1
  unfold B64.near B64.ulp
  rw [hl, max_eq_right (by omega)]
  have t := B64.abs_sub_toInt (x / 2 ^ (e - 52))
  have : |(B64.toInt (x / 2 ^ (e - 52)) : ℝ) - k| < 1 := by
    have := abs_sub_le (B64.toInt (x / 2 ^ (e - 52)) : ℝ) (x / 2 ^ (e - 52)) k
    rw [abs_sub_comm (B64.toInt _ : ℝ) (x / _)] at this
    linarith
  have : |B64.toInt (x / 2 ^ (e - 52)) - k| < 1 := by exact_mod_cast this
  rw [show B64.toInt (x / 2 ^ (e - 52)) = k by rw [Int.abs_lt_one_iff] at this; omega]

theorem B64.Is.of_near {x r : ℝ} (h : B64.near x = r) (hr : |r| ≤ 4) : B64.Is (B64.rnd x) r := by
  unfold B64.rnd
  rw [dif_pos (by
    rw [h]
    exact hr.trans_lt (by
      calc (4 : ℝ) < 2 ^ 3 := by norm_num
        _ ≤ 2 ^ 1024 := pow_le_pow_right₀ (by norm_num) (by norm_num)))]
  exact ⟨trivial, h⟩

/-- **C125.**  The cosine of the angle between the vector (1, 1, 1) and itself is computed as 1 + 2⁻⁵². -/
theorem C125_refuted : ∃ o c : B64, B64.Is o 1 ∧ B64.Is c (1 + (1 / 2) ^ 52) ∧
    vecCosine (.arr [o, o, o]) (.arr [o, o, o]) = .ok c := by
  have o := B64.Is.one
  generalize (Flt.one : B64) = x at o
  have m : B64.Is (Flt.mul x x) 1 := o.mul o (by norm_num) (B64.dyi 1 (by norm_num))
  have t : B64.Is (Flt.add (Flt.add (Flt.add Flt.zero (Flt.mul x x)) (Flt.mul x x)) (Flt.mul x x)) 3 :=
    ((B64.Is.zero.add m (t := 1) (by norm_num) (B64.dyi 1 (by norm_num))).add m (t := 2) (by norm_num) (B64.dyi 2 (by norm_num))).add m
      (by norm_num) (B64.dyi 3 (by norm_num))
  have r3 : √3 * √3 = (3 : ℝ) := Real.mul_self_sqrt (by norm_num)
  have n0 : 0 ≤ √(3 : ℝ) := Real.sqrt_nonneg _
  have l1 : (15600926743107923 : ℝ) / 2 ^ 53 < √3 := Real.lt_sqrt_of_sq_lt (by norm_num)
  have l2 : √3 < (15600926743107925 : ℝ) / 2 ^ 53 := (Real.sqrt_lt' (by norm_num)).2 (by norm_num)
  have n : B64.Is (Flt.sqrt (Flt.add (Flt.add (Flt.add Flt.zero (Flt.mul x x)) (Flt.mul x x)) (Flt.mul x x))) (7800463371553962 / 2 ^ 52) := by
    generalize Flt.add (Flt.add (Flt.add Flt.zero (Flt.mul x x)) (Flt.mul x x)) (Flt.mul x x) = y at t
    obtain ⟨f1, v1⟩ := t
    rcases y with ⟨y, hy⟩ | _ | _ <;> [skip; exact f1.elim; exact f1.elim]
    change y = 3 at v1
    subst v1
    show B64.Is (if (3 : ℝ) < 0 then _ else B64.rnd √3) _
    rw [if_neg (by norm_num)]
    refine B64.Is.of_near ((B64.near_eq 0 7800463371553962 ?_ ?_ (by norm_num) ?_).trans (by norm_num)) ?_
    · norm_num at l1 ⊢
    · norm_num at l2 ⊢
      linarith
    · norm_num at l1 l2 ⊢
      rw [abs_lt]
      constructor <;> linarith
    · rw [abs_of_pos (by norm_num)]
      norm_num
  obtain ⟨N, M, eN, eM, -, hc⟩ := C125_terms (RVec.arr [x, x, x]) (.arr [x, x, x]) rfl
  have eN' := (C24_machine (.arr []) (RVec.arr [x, x, x])).1
  have E : N = Flt.sqrt (Flt.add (Flt.add (Flt.add Flt.zero (Flt.mul x x)) (Flt.mul x x)) (Flt.mul x x)) :=
    Except.ok.inj (eN.symm.trans eN')
  have E' : M = N := Except.ok.inj (eM.symm.trans eN)
  subst E'
  rw [← E] at n
  have z := n.ne (by norm_num)
  refine ⟨x, _, o, ?_, hc z z⟩
  have p : B64.Is (Flt.mul M M) (6755399441055743 / 2 ^ 51) := by
    obtain ⟨f1, v1⟩ := n
    rcases M with ⟨y, hy⟩ | _ | _ <;> [skip; exact f1.elim; exact f1.elim]
    change y = _ at v1
    subst v1
    show B64.Is (B64.rnd (_ * _)) _
    refine B64.Is.of_near ((B64.near_eq 1 6755399441055743 ?_ ?_ (by norm_num) ?_).trans (by norm_num)) ?_
    · norm_num
    · norm_num
    · norm_num [abs_lt]
    · rw [abs_of_pos (by norm_num)]
      norm_num
  show B64.Is (Flt.div (Flt.add (Flt.add (Flt.add Flt.zero (Flt.mul x x)) (Flt.mul x x)) (Flt.mul x x)) _) _
  generalize Flt.add (Flt.add (Flt.add Flt.zero (Flt.mul x x)) (Flt.mul x x)) (Flt.mul x x) = y at t
  generalize Flt.mul M M = q at p
  obtain ⟨f1, v1⟩ := t
  obtain ⟨f2, v2⟩ := p
  rcases y with ⟨y, hy⟩ | _ | _ <;> [skip; exact f1.elim; exact f1.elim]
  rcases q with ⟨q, hq⟩ | _ | _ <;> [skip; exact f2.elim; exact f2.elim]
  change y = _ at v1
  change q = _ at v2
  subst v1 v2
  show B64.Is (if _ = _ then _ else B64.rnd (_ / _)) _
  rw [if_neg (by norm_num)]
  refine B64.Is.of_near ((B64.near_eq 0 4503599627370497 ?_ ?_ (by norm_num) ?_).trans (by norm_num)) ?_
  · norm_num
  · norm_num
  · norm_num [abs_lt]
  · rw [abs_of_pos (by norm_num)]
    norm_num

/-- **C125, large vectors**: when an entry of the first vector is at least `2⁵¹³` in magnitude, and the second norm and the dot product are
finite, the computed cosine is zero, whatever the vectors are. -/
theorem C125_large (v w : RVec B64) (h : v.dim = w.dim) (hf : ∀ x ∈ v.list, fin x) {y : B64} (hy : y ∈ v.list) (hl : 2 ^ 513 ≤ |val y|)
    {M d : B64} (eM : vecNorm w = .ok M) (fM : fin M) (M0 : 0 < val M) (ed : vecDotProduct v w = .ok d) (fd : fin d) :
    ∃ c, vecCosine v w = .ok c ∧ B64.Is c 0 := by
  obtain ⟨N, M', eN, eM', -, hc⟩ := C125_terms v w h
  rw [vecNorm_large v hf hy hl] at eN
  obtain rfl := Except.ok.inj eN
  rw [eM] at eM'
  obtain rfl := Except.ok.inj eM'
  have ed' := (C24_machine v w).2.2.2.1 h
  rw [ed] at ed'
  obtain rfl := Except.ok.inj ed'
  refine ⟨_, hc rfl (by
    rw [Bool.eq_false_iff, Ne, eq_iff fM zero_fin, val_zero]
    exact M0.ne'), ?_⟩
  rcases M with ⟨m, hm⟩ | _ | _ <;> [skip; exact fM.elim; exact fM.elim]
  have m0 : 0 < m := M0
  have e : Flt.mul (B64.inf false) (B64.num m hm) = B64.inf false := by
    show (if m = 0 then _ else B64.inf (false ^^ decide (m < 0))) = _
    rw [if_neg m0.ne', decide_eq_false (not_lt.2 m0.le)]
    rfl
  rw [e]
  generalize total (List.zipWith Flt.mul v.list w.list) = d at fd
  rcases d with ⟨d, hd⟩ | _ | _ <;> [skip; exact fd.elim; exact fd.elim]
  exact ⟨trivial, show ((0 : ℤ) : ℝ) = 0 by norm_num⟩

/-- **C125.**  The cosine of the angle between the vectors (2⁶⁰⁰) and (1), which is 1, is computed as 0. -/
theorem C125_refuted_large : ∃ x o c : B64, B64.Is x (2 ^ (600 : ℤ)) ∧ B64.Is o 1 ∧ B64.Is c 0 ∧ vecCosine (.arr [x]) (.arr [o]) = .ok c := by
  have hx := B64.Is.two 600 (by norm_num) (by norm_num)
  generalize B64.two 600 (by norm_num) (by norm_num) = x at hx
  have ho := B64.Is.one
  generalize (Flt.one : B64) = o at ho
  have d1 : B64.Num 1 := B64.dyi 1 (by norm_num)
  have dx : B64.Num (2 ^ (600 : ℤ)) := B64.Num.zpow 600 (by norm_num) (by norm_num)
  have hM : B64.Is (Flt.sqrt (Flt.add Flt.zero (Flt.mul o o))) 1 :=
    (B64.Is.zero.add (ho.mul ho (t := 1) (by norm_num) d1) (t := 1) (by norm_num) d1).sqrt (by norm_num) (by norm_num) d1
  have hd : B64.Is (Flt.add Flt.zero (Flt.mul x o)) (2 ^ (600 : ℤ)) :=
    B64.Is.zero.add (hx.mul ho (mul_one _) dx) (_root_.zero_add _) dx
  obtain ⟨c, e, hc⟩ := C125_large (.arr [x]) (.arr [o]) rfl (fun a ha => by
    obtain rfl := List.mem_singleton.1 ha
    exact hx.1) (y := x) (List.mem_singleton.2 rfl) (by
    rw [hx.2, abs_of_pos (zpow_pos (by norm_num) _), ← zpow_natCast]
    exact zpow_le_zpow_right₀ (by norm_num) (by norm_num)) (C24_machine (.arr []) (.arr [o])).1 hM.1
    (show 0 < val (Flt.sqrt (Flt.add Flt.zero (Flt.mul o o))) by rw [hM.2]; norm_num)
    ((C24_machine (.arr [x]) (.arr [o])).2.2.2.1 rfl) hd.1
  exact ⟨x, o, c, hx, ho, hc, e⟩

/-- The hypotheses of `C125_partial` are met by the vectors (3, -4) and (1, 0) in binary64. -/
example : ∃ x3 x4 x1 x0 c : B64, B64.Is x3 3 ∧ B64.Is x4 (-4) ∧ B64.Is x1 1 ∧ B64.Is x0 0 ∧
    vecCosine (.arr [x3, x4]) (.arr [x1, x0]) = .ok c ∧ |val c - 3 / 5| ≤ (1 / 2) ^ 40 := by
  have i3 : B64.Is (B64.int 3) 3 := by simpa using B64.Is.int (k := 3) (by norm_num)
  have i4 : B64.Is (B64.int (-4)) (-4) := by simpa using B64.Is.int (k := -4) (by norm_num)
  have i1 := B64.Is.one
  have i0 := B64.Is.zero
  have z := B64.Is.zero
  generalize (Flt.zero : B64) = x0 at i0
  generalize (Flt.one : B64) = x1 at i1
  generalize B64.int 3 = x3 at *
  generalize B64.int (-4) = x4 at *
  refine ⟨x3, x4, x1, x0, ?_⟩
  have hN : B64.Is (Flt.sqrt (Flt.add (Flt.add Flt.zero (Flt.mul x3 x3)) (Flt.mul x4 x4))) 5 :=
    ((z.add (i3.mul i3 (t := 9) (by norm_num) (B64.dyi 9 (by norm_num))) (t := 9) (by norm_num) (B64.dyi 9 (by norm_num))).add
      (i4.mul i4 (t := 16) (by norm_num) (B64.dyi 16 (by norm_num))) (t := 25) (by norm_num) (B64.dyi 25 (by norm_num))).sqrt
      (by norm_num) (by norm_num) (B64.dyi 5 (by norm_num))
  have hM : B64.Is (Flt.sqrt (Flt.add (Flt.add Flt.zero (Flt.mul x1 x1)) (Flt.mul x0 x0))) 1 :=
    ((z.add (i1.mul i1 (t := 1) (by norm_num) (B64.dyi 1 (by norm_num))) (t := 1) (by norm_num) (B64.dyi 1 (by norm_num))).add
      (i0.mul i0 (t := 0) (by norm_num) (B64.dyi 0 (by norm_num))) (t := 1) (by norm_num) (B64.dyi 1 (by norm_num))).sqrt
      (by norm_num) (by norm_num) (B64.dyi 1 (by norm_num))
  have hd : B64.Is (Flt.add (Flt.add Flt.zero (Flt.mul x3 x1)) (Flt.mul x4 x0)) 3 :=
    (z.add (i3.mul i1 (t := 3) (by norm_num) (B64.dyi 3 (by norm_num))) (t := 3) (by norm_num) (B64.dyi 3 (by norm_num))).add
      (i4.mul i0 (t := 0) (by norm_num) (B64.dyi 0 (by norm_num))) (t := 3) (by norm_num) (B64.dyi 3 (by norm_num))
  have eN : vecNorm (RVec.arr [x3, x4]) = .ok (Flt.sqrt (Flt.add (Flt.add Flt.zero (Flt.mul x3 x3)) (Flt.mul x4 x4))) :=
    (C24_machine (.arr []) (.arr [x3, x4])).1
  have eM : vecNorm (RVec.arr [x1, x0]) = .ok (Flt.sqrt (Flt.add (Flt.add Flt.zero (Flt.mul x1 x1)) (Flt.mul x0 x0))) :=
    (C24_machine (.arr []) (.arr [x1, x0])).1
  have ed : vecDotProduct (RVec.arr [x3, x4]) (.arr [x1, x0]) = .ok (Flt.add (Flt.add Flt.zero (Flt.mul x3 x1)) (Flt.mul x4 x0)) :=
    (C24_machine (.arr [x3, x4]) (.arr [x1, x0])).2.2.2.1 rfl
  generalize Flt.sqrt (Flt.add (Flt.add Flt.zero (Flt.mul x3 x3)) (Flt.mul x4 x4)) = N at *
  generalize Flt.sqrt (Flt.add (Flt.add Flt.zero (Flt.mul x1 x1)) (Flt.mul x0 x0)) = M at *
  generalize Flt.add (Flt.add Flt.zero (Flt.mul x3 x1)) (Flt.mul x4 x0) = d at *
  have hp : B64.Is (Flt.mul N M) 5 := hN.mul hM (by norm_num) (B64.dyi 5 (by norm_num))
  have fc : fin (Flt.div d (Flt.mul N M)) := div_ok hd.1 hp.1 (by rw [hp.2]; norm_num) (by
    rw [hd.2, hp.2, abs_of_pos (by norm_num)]
    exact le_trans (by norm_num) (big_le (α := B64)))
  have hl : ∀ a b : B64, IsList (RVec.arr [a, b]).list (RVec.arr [a, b]).dim (fun i => if i = 0 then a else b) := fun a b =>
    ⟨rfl, fun i hi => by
      have hi : i < 2 := hi
      rcases (by omega : i = 0 ∨ i = 1) with rfl | rfl <;> rfl⟩
  have t : ((1 : ℝ) / 2) ^ 1075 ≤ (1 / 2) ^ 60 := pow_le_pow_of_le_one (by norm_num) (by norm_num) (by norm_num)
  have hS : (25 : ℝ) = ∑ k ∈ range 2, val (if k = 0 then x3 else x4) ^ 2 := by
    rw [sum_range_succ, sum_range_one, if_pos rfl, if_neg (by norm_num), i3.2, i4.2]
    norm_num
  have hT : (1 : ℝ) = ∑ k ∈ range 2, val (if k = 0 then x1 else x0) ^ 2 := by
    rw [sum_range_succ, sum_range_one, if_pos rfl, if_neg (by norm_num), i1.2, i0.2]
    norm_num
  have s5 : √(25 : ℝ) = 5 := by rw [show (25 : ℝ) = 5 ^ 2 by norm_num, Real.sqrt_sq (by norm_num)]
  obtain ⟨d', c, ed', ec, H⟩ := C125_partial (.arr [x3, x4]) (.arr [x1, x0]) rfl (hl x3 x4) (hl x1 x0) (S := 25) (T := 1)
    (δ := (1 / 2) ^ 45) (ε := (1 / 2) ^ 45) (κ := (1 / 2) ^ 43) hS (by norm_num) hT (by norm_num)
    (fun N' h => by rw [eN] at h; obtain rfl := Except.ok.inj h; exact hN.1)
    (fun M' h => by rw [eM] at h; obtain rfl := Except.ok.inj h; exact hM.1)
    (by
      show ((1 + (1 / 2) ^ 53) ^ (2 + 2) - 1) * 25 + ((2 : Nat) : ℝ) * (1 + (1 / 2) ^ 53) ^ (2 + 2) * (1 / 2) ^ 1075 ≤ _
      generalize ((1 : ℝ) / 2) ^ 1075 = y at *
      norm_num at t ⊢
      linarith)
    (by
      show ((1 + (1 / 2) ^ 53) ^ (2 + 2) - 1) * 1 + ((2 : Nat) : ℝ) * (1 + (1 / 2) ^ 53) ^ (2 + 2) * (1 / 2) ^ 1075 ≤ _
      generalize ((1 : ℝ) / 2) ^ 1075 = y at *
      norm_num at t ⊢
      linarith) (by norm_num)
    (by
      rw [s5, Real.sqrt_one]
      show ((1 + (1 / 2) ^ 53) ^ 2 - 1) * (5 * 1) + ((2 : Nat) : ℝ) * (1 + (1 / 2) ^ 53) ^ 2 * (1 / 2) ^ 1075 ≤ _
      generalize ((1 : ℝ) / 2) ^ 1075 = y at *
      norm_num at t ⊢
      linarith)
    (by
      rw [s5, Real.sqrt_one]
      show ((1 + (1 / 2) ^ 45) ^ 2 * (1 + (1 / 2) ^ 53) - 1) * (5 * 1) + (1 / 2) ^ 1075 ≤ _
      generalize ((1 : ℝ) / 2) ^ 1075 = y at *
      norm_num at t ⊢
      linarith) (by norm_num)
  rw [ed] at ed'
  obtain rfl := Except.ok.inj ed'
  have fc' : fin c := by
    obtain ⟨N', M', eN', eM', -, h⟩ := C125_terms (RVec.arr [x3, x4]) (.arr [x1, x0]) rfl
    rw [eN] at eN'
    rw [eM] at eM'
    obtain rfl := Except.ok.inj eN'
    obtain rfl := Except.ok.inj eM'
    have h := h (hN.ne (by norm_num)) (hM.ne (by norm_num))
    rw [ec] at h
    have q := (C24_machine (.arr [x3, x4]) (.arr [x1, x0])).2.2.2.1 rfl
    rw [ed] at q
    rw [Except.ok.inj h, ← Except.ok.inj q]
    exact fc
  refine ⟨c, i3, i4, i1, i0, ec, ?_⟩
  have H := H hd.1 (fun N' M' h1 h2 => by
    rw [eN] at h1
    rw [eM] at h2
    obtain rfl := Except.ok.inj h1
    obtain rfl := Except.ok.inj h2
    exact hp.1) fc'
  have e : ∑ k ∈ range (RVec.arr [x3, x4]).dim, val (if k = 0 then x3 else x4) * val (if k = 0 then x1 else x0) = 3 := by
    show ∑ k ∈ range 2, _ = _
    simp [sum_range_succ, i3.2, i4.2, i1.2, i0.2]
  rw [e, s5, Real.sqrt_one, mul_one] at H
  refine H.trans ?_
  show ((1 / 2) ^ 45 + (1 / 2) ^ 43 + (1 / 2) ^ 53 * (1 + (1 / 2) ^ 45)) / (1 - (1 / 2) ^ 43) + (1 / 2) ^ 1075 ≤ (1 / 2 : ℝ) ^ 40
  clear H
  generalize ((1 : ℝ) / 2) ^ 1075 = y at *
  norm_num at t ⊢
  linarith

end Linear
