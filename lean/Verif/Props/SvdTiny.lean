import Verif.Props.RoundPinv

/-!
# C120: singular value decomposition of subnormal numbers

`math.Hypot` has no relative accuracy below the normal numbers, and the norm of a column of subnormal numbers can be wrong by a factor.
-/

set_option linter.unusedSectionVars false

namespace Linear

open Spec Rnd Matrix
open Finset hiding val diag

/-- The decomposition of a column of two numbers, in any arithmetic: `nu` is the norm, computed by two calls of `hyp`. -/
theorem Svd.core_col {α : Type} [Flt α] (κ : Svd.Lit α) {a b nu : α} (hn : κ.hyp (κ.hyp Flt.zero a) b = nu) (h1 : Flt.eq nu Flt.zero = false)
    (h2 : Flt.lt a Flt.zero = false) (h3 : Flt.eq (Flt.neg nu) Flt.zero = false) (h4 : Flt.le (Flt.neg nu) Flt.zero = true)
    (h5 : Flt.lt (Flt.neg nu) Flt.zero = true) {t : Tab α 2 1} (t0 : t.f 0 0 = a) (t1 : t.f 1 0 = b) :
    ∃ x, Svd.core κ 1 t = .ok (some x) ∧ x.u.f 0 0 = Flt.add Flt.one (Flt.neg (Flt.add (Flt.div a nu) Flt.one)) ∧
      x.u.f 1 0 = Flt.neg (Flt.div b nu) ∧ x.s.f 0 = Flt.neg (Flt.neg nu) ∧ x.v.f 0 0 = Flt.neg Flt.one := by
  have hs : Svd.signed nu a = nu := by simp [Svd.signed, h1, h2]
  unfold Svd.core Svd.reduce
  simp [Svd.redStep, Svd.colPass, Svd.norm, Svd.colScale, Svd.colRest, Svd.keepU, Svd.rowPass, Svd.lastEntries, Svd.genU, Svd.genUStep,
    Svd.genV, Svd.genVStep, Svd.unitCol, Svd.loop, Svd.round, Svd.findE, Svd.converged, Svd.positive, Svd.order, forUp, forDown,
    List.range'_succ, List.range', Jag.get, Jag.set, Row.get, Row.set, t0, t1, hn, hs, h1, h3, h4, h5, ok_bind, pure_eq_ok, upd2_eq]

theorem B64.fin_grid {x : B64} (h : fin x) : ∃ k : ℤ, val x = k * 2 ^ (-1074 : ℤ) := by
  rcases x with ⟨r, hr⟩ | _ | _ <;> [skip; exact h.elim; exact h.elim]
  exact hr.1.grid

theorem B64.hypot_fin_eq {a b : B64} (fa : fin a) (fb : fin b) {p q : B64}
    (hp : p = if Flt.lt (Flt.abs a) (Flt.abs b) then Flt.abs b else Flt.abs a)
    (hq : q = if Flt.lt (Flt.abs a) (Flt.abs b) then Flt.abs a else Flt.abs b) (h0 : Flt.eq p Flt.zero = false) :
    B64.hypot a b = Flt.mul p (Flt.sqrt (Flt.add Flt.one (Flt.mul (Flt.div q p) (Flt.div q p)))) := by
  have e1 : (Flt.isInf a || Flt.isInf b) = false := by rw [isInf_fin fa, isInf_fin fb]; rfl
  have e2 : (Flt.isNaN a || Flt.isNaN b) = false := by rw [isNaN_fin fa, isNaN_fin fb]; rfl
  unfold B64.hypot
  rw [e1, e2, if_neg Bool.false_ne_true, if_neg Bool.false_ne_true]
  dsimp only
  rw [← hp, ← hq, h0, if_neg Bool.false_ne_true]

private theorem num_int {r : ℝ} (k : ℤ) (h : r = k) (hk : |k| ≤ 2 ^ 53) : B64.Num r := by rw [h]; exact B64.Num.int hk

/-- `math.Hypot(0, x)` is `x` for the smallest positive number. -/
theorem B64.hypot_tiny_zero {a b : B64} (ha : B64.Is a 0) (hb : B64.Is b (2 ^ (-1074 : ℤ))) :
    B64.Is (B64.hypot a b) (2 ^ (-1074 : ℤ)) := by
  have t0 : (0 : ℝ) < 2 ^ (-1074 : ℤ) := zpow_pos (by norm_num) _
  have hn := B64.Num.zpow (-1074) (by norm_num) (by norm_num)
  generalize (2 : ℝ) ^ (-1074 : ℤ) = T at *
  have a' : B64.Is (Flt.abs a) 0 := ha.abs (by norm_num)
  have b' : B64.Is (Flt.abs b) T := hb.abs (abs_of_pos t0)
  have l : Flt.lt (Flt.abs a) (Flt.abs b) = true := (lt_iff a'.1 b'.1).2 (by rw [a'.2, b'.2]; exact t0)
  rw [B64.hypot_fin_eq ha.1 hb.1 (p := Flt.abs b) (q := Flt.abs a) (by rw [if_pos l]) (by rw [if_pos l]) (b'.ne t0.ne')]
  have d : B64.Is (Flt.div (Flt.abs a) (Flt.abs b)) 0 := a'.div b' t0.ne' (zero_div T) (num_int 0 (by norm_num) (by norm_num))
  have m : B64.Is (Flt.mul (Flt.div (Flt.abs a) (Flt.abs b)) (Flt.div (Flt.abs a) (Flt.abs b))) 0 :=
    d.mul d (by norm_num) (num_int 0 (by norm_num) (by norm_num))
  have s : B64.Is (Flt.add Flt.one (Flt.mul (Flt.div (Flt.abs a) (Flt.abs b)) (Flt.div (Flt.abs a) (Flt.abs b)))) 1 :=
    B64.Is.one.add m (by norm_num) (num_int 1 (by norm_num) (by norm_num))
  exact b'.mul (s.sqrt zero_le_one (by norm_num) (num_int 1 (by norm_num) (by norm_num))) (mul_one T) hn

/-- `math.Hypot(x, x)` is `x` for the smallest positive number. -/
theorem B64.hypot_tiny {a b : B64} (ha : B64.Is a (2 ^ (-1074 : ℤ))) (hb : B64.Is b (2 ^ (-1074 : ℤ))) :
    B64.Is (B64.hypot a b) (2 ^ (-1074 : ℤ)) := by
  have t0 : (0 : ℝ) < 2 ^ (-1074 : ℤ) := zpow_pos (by norm_num) _
  have hη : η B64 = 2 ^ (-1074 : ℤ) / 2 := by
    show ((1 : ℝ) / 2) ^ 1075 = _
    rw [_root_.zpow_neg, one_div, inv_pow, pow_succ (2 : ℝ) 1074, mul_inv]; rfl
  have hu : u B64 ≤ 1 / 1000 := by rw [show u B64 = (1 / 2) ^ 53 from rfl]; norm_num
  have hu0 := u_nonneg (α := B64)
  have hbig : (1 : ℝ) ≤ big B64 := by rw [show big B64 = 2 ^ 1023 from rfl]; exact one_le_pow₀ (by norm_num)
  have t1 : (2 : ℝ) ^ (-1074 : ℤ) ≤ 1 / 2 := by
    have h : (2 : ℝ) ^ (-1074 : ℤ) ≤ 2 ^ (-1 : ℤ) := zpow_le_zpow_right₀ (by norm_num) (by norm_num)
    exact h.trans (by norm_num)
  have grid := fun (x : B64) (h : fin x) => B64.fin_grid h
  generalize (2 : ℝ) ^ (-1074 : ℤ) = T at *
  have a' : B64.Is (Flt.abs a) T := ha.abs (abs_of_pos t0)
  have b' : B64.Is (Flt.abs b) T := hb.abs (abs_of_pos t0)
  have l : ¬ Flt.lt (Flt.abs a) (Flt.abs b) = true := fun h => by
    have := (lt_iff a'.1 b'.1).1 h
    rw [a'.2, b'.2] at this
    exact lt_irrefl _ this
  rw [B64.hypot_fin_eq ha.1 hb.1 (p := Flt.abs a) (q := Flt.abs b) (by rw [if_neg l]) (by rw [if_neg l]) (a'.ne t0.ne')]
  have d : B64.Is (Flt.div (Flt.abs b) (Flt.abs a)) 1 := b'.div a' t0.ne' (div_self t0.ne') (num_int 1 (by norm_num) (by norm_num))
  have m : B64.Is (Flt.mul (Flt.div (Flt.abs b) (Flt.abs a)) (Flt.div (Flt.abs b) (Flt.abs a))) 1 :=
    d.mul d (by norm_num) (num_int 1 (by norm_num) (by norm_num))
  have s : B64.Is (Flt.add Flt.one (Flt.mul (Flt.div (Flt.abs b) (Flt.abs a)) (Flt.div (Flt.abs b) (Flt.abs a)))) 2 :=
    B64.Is.one.add m (by norm_num) (num_int 2 (by norm_num) (by norm_num))
  generalize Flt.add Flt.one (Flt.mul (Flt.div (Flt.abs b) (Flt.abs a)) (Flt.div (Flt.abs b) (Flt.abs a))) = z at s ⊢
  have fz : fin (Flt.sqrt z) := sqrt_ok s.1 (by rw [s.2]; norm_num)
  have e := (sqrt_err fz).1
  rw [s.2] at e
  have r1 : (1414 / 1000 : ℝ) ≤ √2 := Real.le_sqrt_of_sq_le (by norm_num)
  have r2 : √2 ≤ (1415 / 1000 : ℝ) := Real.sqrt_le_iff.2 ⟨by norm_num, by norm_num⟩
  have e1 := abs_le.1 (e.trans (mul_le_mul hu r2 (by positivity) (by norm_num)))
  generalize Flt.sqrt z = y at *
  have y1 : 141 / 100 ≤ val y := by linarith
  have y2 : val y ≤ 142 / 100 := by linarith
  have fm : fin (Flt.mul (Flt.abs a) y) := mul_ok a'.1 fz (by
    rw [a'.2, abs_of_pos (by positivity)]
    refine le_trans ?_ hbig
    nlinarith)
  refine ⟨fm, ?_⟩
  obtain ⟨k, hk⟩ := grid _ fm
  have me := (mul_err fm).1
  rw [a'.2, hη, hk, abs_of_pos (show 0 < T * val y by positivity)] at me
  have m1 : u B64 * (T * val y) ≤ 1 / 1000 * (T * 2) := mul_le_mul hu (by nlinarith) (by positivity) (by norm_num)
  obtain ⟨m2, m3⟩ := abs_le.1 me
  have k1 : (0 : ℝ) < k := by
    by_contra h
    have := mul_le_mul_of_nonneg_right (not_lt.1 h) t0.le
    nlinarith
  have k2 : (k : ℝ) < 2 := by
    by_contra h
    have := mul_le_mul_of_nonneg_right (not_lt.1 h) t0.le
    nlinarith
  obtain rfl : k = 1 := by
    have : 0 < k := by exact_mod_cast k1
    have : k < 2 := by exact_mod_cast k2
    omega
  rw [hk]; push_cast; ring

/-- **C120.**  With `math.Hypot` as it is, the column `(2⁻¹⁰⁷⁴, 2⁻¹⁰⁷⁴)` is decomposed with finite factors, but `U` is `(-1, -1)`: it is
not near to any column of norm 1.  So `C116` does not hold for all matrices of finite numbers, and the bound `2⁻¹⁰⁰⁰` in it is needed. -/
theorem C120_refuted (floor : B64) (conv : Nat → B64) : ∃ (κ : Svd.Lit B64) (a : Mat B64 2 1) (A : Nat → Nat → B64) (s : Svd B64)
    (U V : Nat → Nat → B64) (σ : Nat → B64), κ.floor = floor ∧ κ.conv = conv ∧ B64.SvdLit κ ∧ κ.hyp = B64.hypot ∧ a.own ∧ Shows a.at 2 1 A ∧
    (∀ i, i < 2 → B64.Is (A i 0) (2 ^ (-1074 : ℤ))) ∧ Svd.new κ 1 a = .ok (some s) ∧ HoldsSvd s 2 1 1 U V σ ∧
    B64.Is (U 0 0) (-1) ∧ B64.Is (U 1 0) (-1) ∧ B64.Is (V 0 0) (-1) ∧ B64.Is (σ 0) (2 ^ (-1074 : ℤ)) ∧
    ∀ U₀ : Matrix (Fin 2) (Fin 1) ℝ, U₀ᵀ * U₀ = 1 → 2 / 5 ≤ fro ((mx 2 1 fun i j => val (U i j)) - U₀) := by
  have hx := B64.Is.two (-1074) (by norm_num) (by norm_num)
  have t0 : (0 : ℝ) < 2 ^ (-1074 : ℤ) := zpow_pos (by norm_num) _
  obtain ⟨x, ex⟩ : ∃ x, x = B64.two (-1074) (by norm_num) (by norm_num) := ⟨_, rfl⟩
  rw [← ex] at hx
  obtain ⟨κ, hκ⟩ : ∃ κ : Svd.Lit B64, κ = { B64.svdLit floor conv with hyp := B64.hypot } := ⟨_, rfl⟩
  have L : B64.SvdLit κ := by
    rw [hκ]
    obtain ⟨l1, l2, l3, l4⟩ := B64.svdLit_ok floor conv
    exact ⟨l1, l2, l3, l4⟩
  have hyp : κ.hyp = B64.hypot := by rw [hκ]
  have hn : B64.Is (κ.hyp (κ.hyp Flt.zero x) x) (2 ^ (-1074 : ℤ)) := by
    rw [hyp]
    exact B64.hypot_tiny (B64.hypot_tiny_zero B64.Is.zero hx) hx
  obtain ⟨nu, e⟩ : ∃ nu, κ.hyp (κ.hyp Flt.zero x) x = nu := ⟨_, rfl⟩
  rw [e] at hn
  have neg := hn.neg rfl
  have own : (Mat.arr ⟨⟨fun _ _ => x⟩, fun _ => 0⟩ : Mat B64 2 1).own := trivial
  have sh : Shows (Mat.arr ⟨⟨fun _ _ => x⟩, fun _ => 0⟩ : Mat B64 2 1).at 2 1 fun _ _ => x :=
    Arr.at_shows (⟨⟨fun _ _ => x⟩, fun _ => 0⟩ : Arr B64 2 1)
  rcases Svd.new_ok κ 1 own (by norm_num) (by norm_num) sh with ⟨-, t, ht, ho⟩ | ⟨h, -⟩
  · obtain ⟨y, h1, h2, h3, h4, h5⟩ := Svd.core_col κ e (hn.ne t0.ne')
      (by
        rw [Bool.eq_false_iff, Ne, lt_iff hx.1 zero_fin, hx.2, val_zero]
        exact not_lt.2 t0.le)
      (neg.ne (by linarith)) ((le_iff neg.1 zero_fin).2 (by rw [neg.2, val_zero]; linarith))
      ((lt_iff neg.1 zero_fin).2 (by rw [neg.2, val_zero]; linarith)) (ht 0 0 (by norm_num) (by norm_num)) (ht 1 0 (by norm_num) (by norm_num))
    obtain ⟨s, es, hs, -⟩ := (ho _ h1).2 y rfl
    have d : B64.Is (Flt.div x nu) 1 := hx.div hn t0.ne' (div_self t0.ne') (num_int 1 (by norm_num) (by norm_num))
    have u0 : B64.Is (y.u.f 0 0) (-1) := by
      rw [h2]
      refine B64.Is.one.add (((d.add B64.Is.one (t := 2) (by norm_num) (num_int 2 (by norm_num) (by norm_num))).neg rfl)) (by norm_num)
        (num_int (-1) (by norm_num) (by norm_num))
    have u1 : B64.Is (y.u.f 1 0) (-1) := by rw [h3]; exact d.neg rfl
    refine ⟨κ, _, _, s, _, _, _, by rw [hκ]; rfl, by rw [hκ]; rfl, L, hyp, own, sh, fun _ _ => hx, es, hs, u0, u1,
      by rw [h5]; exact B64.Is.one.neg rfl, by rw [h4]; exact neg.neg (neg_neg _), fun U₀ h0 => ?_⟩
    have n0 := fro_cols h0
    have n1 : fro (mx 2 1 fun i j => val (y.u.f i j)) = √2 := by
      unfold fro
      congr 1
      norm_num [Fin.sum_univ_two, mx, u0.2, u1.2]
    have n2 := fro_add_le ((mx 2 1 fun i j => val (y.u.f i j)) - U₀) U₀
    rw [sub_add_cancel, n0, n1] at n2
    have r1 : (14 / 10 : ℝ) ≤ √2 := Real.le_sqrt_of_sq_le (by norm_num)
    norm_num at n2
    linarith
  · omega

/-- Columns near to orthonormal ones have nearly the Gram matrix 1. -/
theorem gram_near {m n : Nat} {U U₀ : Matrix (Fin m) (Fin n) ℝ} {δ : ℝ} (h : U₀ᵀ * U₀ = 1) (hd : fro (U - U₀) ≤ δ) :
    fro (Uᵀ * U - 1) ≤ δ * (2 * √n + δ) := by
  have e : Uᵀ * U - 1 = Uᵀ * (U - U₀) + (U - U₀)ᵀ * U₀ := by
    rw [← h, Matrix.mul_sub, Matrix.transpose_sub, Matrix.sub_mul]; abel
  have n0 := fro_cols h
  have n1 : fro U ≤ √n + δ := by
    have := fro_add_le (U - U₀) U₀
    rw [sub_add_cancel, n0] at this
    linarith
  have d0 := (fro_nonneg _).trans hd
  have k1 := (fro_mul_le Uᵀ (U - U₀)).trans (mul_le_mul ((fro_transpose U).trans_le n1) hd (fro_nonneg _) ((fro_nonneg _).trans n1))
  have k2 := (fro_mul_le (U - U₀)ᵀ U₀).trans (mul_le_mul (by rw [fro_transpose]; exact hd) n0.le (fro_nonneg _) d0)
  have k3 := fro_add_le (Uᵀ * (U - U₀)) ((U - U₀)ᵀ * U₀)
  rw [e]
  linarith

/-- **C120, partial**: where no result of `math.Hypot` is below `2⁻¹⁰⁰⁰` (other than that of two zeros), the columns of `U` and `V` are
orthonormal up to the explicit bound `δ (2 √c + δ)`.  Missing: smaller results; there it is false (`C120_refuted`). -/
theorem C120_partial {r c K : Nat} {κ : Svd.Lit B64} (L : B64.SvdLit κ) (hyp : κ.hyp = B64.guard ((1 / 2) ^ 1000) B64.hypot)
    (hc : 0 < c) (hrc : c ≤ r) (hr : r ≤ 2 ^ 40) (fuel : Nat) {a : Mat B64 r c} (ha : a.own) {A : Nat → Nat → B64}
    (hA : Shows a.at r c A) (F : RedFin κ.hyp r c A) (hb : fro (mx r c fun i j => val (A i j)) ≤ 2 ^ 900) (hK : K = fuel * (2 * c + 2))
    (h1 : 200 * c * (r + 2) * (1 / 2) ^ 52 ≤ (1 : ℝ)) (h2 : 75 * K * (1 / 2) ^ 52 ≤ (1 : ℝ)) {δ : ℝ}
    (hδ : δ = (200 * c * (r + 2) + 300 * K) * (1 / 2) ^ 52 * √c + (126 * c * r * √r * (1 / 2) ^ 1075 + 225 * K * (1 / 2) ^ 966))
    {s : Svd B64} (hs : Svd.new κ fuel a = .ok (some s)) :
    ∃ U V σ, HoldsSvd s r c c U V σ ∧
      ((∀ i j, i < r → j < c → fin (U i j)) → (∀ i j, i < c → j < c → fin (V i j)) →
        fro ((mx r c fun i j => val (U i j))ᵀ * (mx r c fun i j => val (U i j)) - 1) ≤ δ * (2 * √c + δ) ∧
        fro ((mx c c fun i j => val (V i j))ᵀ * (mx c c fun i j => val (V i j)) - 1) ≤ δ * (2 * √c + δ)) := by
  obtain ⟨room, -⟩ := svd_room (fro_nonneg (mx r c fun i j => val (A i j))) hb h1 h2 hc
  rw [hK] at room
  rcases C116_binary64 L hyp hc hrc hr fuel ha hA F rfl room with h | ⟨s', U, V, σ, e, hold, H⟩
  · rw [hs] at h; cases h
  rw [hs] at e
  obtain rfl : s = s' := by injection e with e; injection e
  refine ⟨U, V, σ, hold, fun g1 g2 => ?_⟩
  obtain ⟨-, nr⟩ := H g1 g2
  obtain ⟨U₀, V₀, oU, oV, nU, nV, -⟩ := nr.near
  rw [← hK] at nU nV
  have fac : ∀ q : Nat, q ≤ r → svdFac r c q K ((1 / 2) ^ 52) ((1 / 2) ^ 1075) ≤ δ := fun q hq => by
    rw [hδ]
    exact (svdFac_le (m := r) (n := c) (K := K) (ε := (1 / 2) ^ 52) (by positivity) (by positivity) (svd_rows_ok (hq.trans hr))).2.trans
      (svdErr_linear (by positivity) (by positivity) (by positivity) (Real.sqrt_nonneg _) h1 h2)
  exact ⟨gram_near oU (nU.trans (fac r le_rfl)), gram_near oV (nV.trans (fac c hrc))⟩

/-- The hypotheses of `C120_partial` are met by the matrix ((0, 4), (0, 0)). -/
example (floor : B64) (conv : Nat → B64) : ∃ (κ : Svd.Lit B64) (a : Mat B64 2 2) (A : Nat → Nat → B64) (s : Svd B64) (U V : Nat → Nat → B64) (σ : Nat → B64),
    κ.floor = floor ∧ κ.conv = conv ∧ val (A 0 1) = 4 ∧ Shows a.at 2 2 A ∧ Svd.new κ 3 a = .ok (some s) ∧ HoldsSvd s 2 2 2 U V σ ∧
    fro ((mx 2 2 fun i j => val (U i j))ᵀ * (mx 2 2 fun i j => val (U i j)) - 1) ≤ 1 / 2 := by
  obtain ⟨κ, a, A, s, U, V, σ, N, hf, hcv, nA, L, hyp, own, sh, k, F, hN, room, hs, hold, g1, g2, s0, s1⟩ := Svd.case_new floor conv
  obtain ⟨U', V', σ', hold', H⟩ := C120_partial (r := 2) (c := 2) (K := 18) L hyp (by norm_num) le_rfl (by norm_num) 3 own sh F
    (nA.trans ((by norm_num : (4 : ℝ) ≤ 2 ^ 2).trans (pow_le_pow_right₀ (by norm_num) (by norm_num)))) (by norm_num) (by norm_num) (by norm_num)
    rfl hs
  obtain ⟨eU, eV⟩ := hold.uniq hold'
  obtain ⟨q1, -⟩ := H (fun i j hi hj => by rw [eU i j hi hj]; exact g1 i j hi hj)
    fun i j hi hj => by rw [eV i j hi hj]; exact g2 i j hi hj
  refine ⟨κ, a, A, s, U', V', σ', hf, hcv, k, sh, hs, hold', q1.trans ?_⟩
  have hsm : ((1 : ℝ) / 2) ^ 1075 ≤ (1 / 2) ^ 60 := pow_le_pow_of_le_one (by norm_num) (by norm_num) (by norm_num)
  have hsm' : ((1 : ℝ) / 2) ^ 966 ≤ (1 / 2) ^ 60 := pow_le_pow_of_le_one (by norm_num) (by norm_num) (by norm_num)
  have hq : √((2 : Nat) : ℝ) ≤ 2 := Real.sqrt_le_iff.2 ⟨by norm_num, by norm_num⟩
  have hq0 : 0 ≤ √((2 : Nat) : ℝ) := Real.sqrt_nonneg _
  have w0 : 0 ≤ √((2 : Nat) : ℝ) * (1 / 2) ^ 1075 := by positivity
  have w1 : √((2 : Nat) : ℝ) * (1 / 2) ^ 1075 ≤ 2 * (1 / 2) ^ 60 := mul_le_mul hq hsm (by positivity) (by norm_num)
  have v0 : (0 : ℝ) ≤ (1 / 2) ^ 966 := by positivity
  rw [mul_assoc (126 * ((2 : Nat) : ℝ) * (2 : Nat))]
  generalize √((2 : Nat) : ℝ) * (1 / 2) ^ 1075 = w at *
  generalize ((1 : ℝ) / 2) ^ 966 = v at *
  generalize √((2 : Nat) : ℝ) = y at *
  obtain ⟨δ, hδ⟩ : ∃ δ : ℝ, δ = (200 * ((2 : Nat) : ℝ) * (((2 : Nat) : ℝ) + 2) + 300 * ((18 : Nat) : ℝ)) * (1 / 2) ^ 52 * y +
    (126 * ((2 : Nat) : ℝ) * ((2 : Nat) : ℝ) * w + 225 * ((18 : Nat) : ℝ) * v) := ⟨_, rfl⟩
  rw [← hδ]
  norm_num at hδ w1 hsm'
  have d0 : 0 ≤ δ := by rw [hδ]; positivity
  have d1 : δ ≤ 1 / 100 := by rw [hδ]; linarith
  nlinarith

end Linear
