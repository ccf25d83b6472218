import Verif.Props.RoundCos

/-!
# C126: projections in rounded arithmetic

`Projection` multiplies the second vector by the quotient of two dot products.
-/

set_option linter.unusedSectionVars false

namespace Linear

open Spec Rnd Matrix
open Finset hiding val diag

/-- **C126, the operations**: in every arithmetic `Projection` multiplies each entry of the second vector by the quotient of the two computed
dot products, unless the second of these is zero or the dimensions differ. -/
theorem C126_terms {α : Type} [Flt α] (src : RVec α) (dest : List α) :
    ∃ b, vecDotProduct (.arr dest) (.arr dest) = .ok b ∧ b = Spec.total (dest.map fun x => Flt.mul x x) ∧
      (Flt.eq b Flt.zero = true → projection src dest = .error (.pan .arith, dest)) ∧
      (Flt.eq b Flt.zero = false → src.dim ≠ dest.length → projection src dest = .error (.pan .dim, dest)) ∧
      (Flt.eq b Flt.zero = false → src.dim = dest.length → ∃ a, vecDotProduct src (.arr dest) = .ok a ∧
        a = Spec.total (List.zipWith Flt.mul src.list dest) ∧ projection src dest = .ok (dest.map fun x => Flt.mul x (Flt.div a b))) := by
  have e := (C24_machine (.arr dest) (.arr dest)).2.2.2.1 rfl
  have z : List.zipWith Flt.mul (RVec.arr dest).list (RVec.arr dest).list = dest.map fun x => Flt.mul x x := by
    show List.zipWith Flt.mul dest dest = _
    rw [List.zipWith_self]
  rw [z] at e
  refine ⟨_, e, rfl, fun h => ?_, fun h hd => ?_, fun h hd => ⟨_, (C24_machine src (.arr dest)).2.2.2.1 hd, rfl, ?_⟩⟩
  · unfold projection
    rw [e, res_at_ok, ok_bind]
    dsimp only
    rw [if_pos h]
    rfl
  · unfold projection
    rw [e, res_at_ok, ok_bind]
    dsimp only
    rw [if_neg (by rw [h]; exact Bool.false_ne_true), (C24_machine src (.arr dest)).2.2.2.2 hd]
    rfl
  · unfold projection
    rw [e, res_at_ok, ok_bind]
    dsimp only
    rw [if_neg (by rw [h]; exact Bool.false_ne_true), (C24_machine src (.arr dest)).2.2.2.1 hd]
    show Vec.mapMultiply _ _ = _
    rw [(C21_map _ _).2.2.1]

/-- **C126, large vectors**: when an entry of the second vector is at least `2⁵¹³` in magnitude and the dot product is finite, the computed
projection is the zero vector, whatever the vectors are. -/
theorem C126_large (src : RVec B64) (dest : List B64) (h : src.dim = dest.length) (hf : ∀ x ∈ dest, fin x) {y : B64} (hy : y ∈ dest)
    (hl : 2 ^ 513 ≤ |val y|) {a : B64} (ea : vecDotProduct src (.arr dest) = .ok a) (fa : fin a) :
    ∃ w, projection src dest = .ok w ∧ w.length = dest.length ∧ ∀ x ∈ w, B64.Is x 0 := by
  obtain ⟨b, -, hb, -, -, H⟩ := C126_terms src dest
  have tot : Spec.total (dest.map fun x => Flt.mul x x) = B64.inf false := total_large dest hf hy hl
  rw [tot] at hb
  subst hb
  obtain ⟨a', ea', -, ep⟩ := H rfl h
  rw [ea] at ea'
  obtain rfl := Except.ok.inj ea'
  refine ⟨_, ep, List.length_map _, fun x hx => ?_⟩
  obtain ⟨z, hz, rfl⟩ := List.mem_map.1 hx
  have q : B64.Is (Flt.div a (B64.inf false)) 0 := by
    rcases a with ⟨d, hd⟩ | _ | _ <;> [skip; exact fa.elim; exact fa.elim]
    exact ⟨trivial, show ((0 : ℤ) : ℝ) = 0 by norm_num⟩
  exact B64.Is.mul ⟨hf z hz, rfl⟩ q (mul_zero _) (B64.dyi 0 (by norm_num))

/-- **C126.**  The projection of (1) on (2⁶⁰⁰), which is (1), is computed as (0). -/
theorem C126_refuted : ∃ x o z : B64, B64.Is x (2 ^ (600 : ℤ)) ∧ B64.Is o 1 ∧ B64.Is z 0 ∧ projection (.arr [o]) [x] = .ok [z] := by
  have hx := B64.Is.two 600 (by norm_num) (by norm_num)
  generalize B64.two 600 (by norm_num) (by norm_num) = x at hx
  have ho := B64.Is.one
  generalize (Flt.one : B64) = o at ho
  have dx : B64.Num (2 ^ (600 : ℤ)) := B64.Num.zpow 600 (by norm_num) (by norm_num)
  have hd : B64.Is (Flt.add Flt.zero (Flt.mul o x)) (2 ^ (600 : ℤ)) :=
    B64.Is.zero.add (ho.mul hx (one_mul _) dx) (_root_.zero_add _) dx
  obtain ⟨w, e, l, h⟩ := C126_large (.arr [o]) [x] rfl (fun a ha => by
    obtain rfl := List.mem_singleton.1 ha
    exact hx.1) (y := x) (List.mem_singleton.2 rfl) (by
    rw [hx.2, abs_of_pos (zpow_pos (by norm_num) _), ← zpow_natCast]
    exact zpow_le_zpow_right₀ (by norm_num) (by norm_num))
    ((C24_machine (.arr [o]) (.arr [x])).2.2.2.1 rfl) hd.1
  obtain ⟨z, rfl⟩ := List.length_eq_one_iff.1 l
  exact ⟨x, o, z, hx, ho, h z (by simp), e⟩

/-- **C126, partial**: where the dot products and their quotient are finite and nothing underflows, each entry of the computed projection is near
to the true one.  `s` and `t` are the norms of the two vectors; `ε` bounds the error of the first dot product relative to `s * t` and `δ` that of
the second relative to `t²`.  Missing: vectors whose squares underflow or overflow; there it is false (`C126_refuted`,
`C124_small_projection`). -/
theorem C126_partial {α : Type} [Flt α] [Rnd α] (src : RVec α) (dest : List α) (h : src.dim = dest.length) {f g : Nat → α}
    (hf : IsList src.list src.dim f) (hg : IsList dest dest.length g) {s t δ ε : ℝ} (hs : s = √(∑ k ∈ range src.dim, val (f k) ^ 2))
    (ht : t = √(∑ k ∈ range src.dim, val (g k) ^ 2)) (t0 : 0 < t) (hb : ∀ b, vecDotProduct (.arr dest) (.arr dest) = .ok b → fin b)
    (hδ : gam α src.dim * t ^ 2 + src.dim * (1 + u α) ^ src.dim * η α ≤ δ * t ^ 2) (hδ1 : δ < 1)
    (hε : gam α src.dim * (s * t) + src.dim * (1 + u α) ^ src.dim * η α ≤ ε * (s * t)) (ε0 : 0 ≤ ε) {ρ : ℝ}
    (hρ : (ε + δ + u α * (1 + ε)) / (1 - δ) ≤ ρ) :
    ∃ w r, projection src dest = .ok w ∧ IsList w src.dim r ∧ ∀ k, k < src.dim → fin (r k) →
      |val (r k) - (∑ k ∈ range src.dim, val (f k) * val (g k)) / t ^ 2 * val (g k)| ≤
        |val (g k)| * ((ρ + u α * (1 + ρ)) * (s / t) + (1 + u α) * η α) + η α := by
  obtain ⟨b, eb, -, -, -, H⟩ := C126_terms src dest
  have fb := hb b eb
  have s0 : 0 ≤ s := hs ▸ Real.sqrt_nonneg _
  have tt : t ^ 2 = ∑ k ∈ range src.dim, val (g k) ^ 2 := by rw [ht, Real.sq_sqrt (sum_nonneg fun _ _ => sq_nonneg _)]
  have u0 := u_nonneg (α := α)
  have η0 := η_nonneg (α := α)
  have db : |val b - t ^ 2| ≤ δ * t ^ 2 := by
    obtain ⟨b', eb', hb'⟩ := C80_dot (.arr dest) (.arr dest) rfl hg hg
    rw [eb] at eb'
    obtain rfl := Except.ok.inj eb'
    have h1 := (hb' fb).2
    change |val b - ∑ k ∈ range dest.length, _| ≤ gam α dest.length * ∑ k ∈ range dest.length, _ + dest.length * (1 + u α) ^ dest.length * η α at h1
    rw [← h] at h1
    simp only [← sq, sq_abs] at h1
    rw [← tt] at h1
    exact h1.trans hδ
  have T0 : 0 < t ^ 2 := by positivity
  have d0 : 0 ≤ δ := nonneg_of_mul_nonneg_left ((abs_nonneg _).trans db) T0
  have k0 : 0 < 1 - δ := by linarith
  have low : (1 - δ) * t ^ 2 ≤ val b := by linarith [(abs_le.1 db).1]
  have b0 : 0 < val b := lt_of_lt_of_le (mul_pos k0 T0) low
  obtain ⟨a, ea, -, ep⟩ := H (by
    rw [Bool.eq_false_iff, Ne, eq_iff fb zero_fin, val_zero]
    exact b0.ne') h
  refine ⟨_, fun k => Flt.mul (g k) (Flt.div a b), ep, ⟨by rw [List.length_map, h], fun k hk => ?_⟩, fun k hk fr => ?_⟩
  · rw [List.getElem?_map, hg.2 k (h ▸ hk)]
    rfl
  obtain ⟨fg, fq⟩ := mul_fin fr
  have fa := div_fin fq
  have cs : |∑ k ∈ range src.dim, val (f k) * val (g k)| ≤ s * t ∧ ∑ k ∈ range src.dim, |val (f k)| * |val (g k)| ≤ s * t := by
    have b : ∑ k ∈ range src.dim, |val (f k)| * |val (g k)| ≤ s * t := by
      have := Real.sum_mul_le_sqrt_mul_sqrt (range src.dim) (fun k => |val (f k)|) (fun k => |val (g k)|)
      simp only [sq_abs] at this
      rwa [← hs, ← ht] at this
    refine ⟨(abs_sum_le_sum_abs _ _).trans ?_, b⟩
    simpa only [abs_mul] using b
  obtain ⟨c1, c2⟩ := cs
  have g0 : 0 ≤ gam α src.dim := by
    unfold gam
    have := one_le_pow₀ (n := src.dim) (show 1 ≤ 1 + u α by linarith)
    linarith
  have da : |val a - ∑ k ∈ range src.dim, val (f k) * val (g k)| ≤ ε * (s * t) := by
    obtain ⟨a', ea', ha'⟩ := C80_dot src (.arr dest) h hf hg
    rw [ea] at ea'
    obtain rfl := Except.ok.inj ea'
    exact ((ha' fa).2.trans (by linarith [mul_le_mul_of_nonneg_left c2 g0])).trans hε
  generalize ∑ k ∈ range src.dim, val (f k) * val (g k) = D at *
  have dq := (div_err fq fb).1
  have dr := (mul_err fr).1
  dsimp only
  generalize val (Flt.mul (g k) (Flt.div a b)) = r at *
  generalize val (Flt.div a b) = q at *
  generalize val (g k) = y at *
  generalize val a = a at *
  generalize val b = b at *
  have st0 : 0 ≤ s / t := div_nonneg s0 t0.le
  have st : s / t * t ^ 2 = s * t := by field_simp
  have q1 : |a / b| ≤ (1 + ε) / (1 - δ) * (s / t) := by
    rw [abs_div, abs_of_pos b0, div_le_iff₀ b0]
    have a1 : |a| ≤ (1 + ε) * (s * t) := by linarith [abs_sub_abs_le_abs_sub a D]
    have a2 := mul_le_mul_of_nonneg_left low (mul_nonneg (div_nonneg (show 0 ≤ 1 + ε by linarith) k0.le) st0)
    refine a1.trans (le_trans (le_of_eq ?_) a2)
    rw [← st]
    field_simp
  have q2 : |a / b - D / t ^ 2| ≤ (ε + δ) / (1 - δ) * (s / t) := by
    rw [div_sub_div _ _ b0.ne' T0.ne', abs_div, abs_of_pos (mul_pos b0 T0), div_le_iff₀ (mul_pos b0 T0)]
    have a1 : |a * t ^ 2 - b * D| ≤ (ε + δ) * (s * t) * t ^ 2 := by
      rw [show a * t ^ 2 - b * D = (a - D) * t ^ 2 - D * (b - t ^ 2) by ring]
      refine (abs_sub _ _).trans ?_
      rw [abs_mul, abs_mul, abs_of_pos T0]
      have a1 := mul_le_mul_of_nonneg_right da T0.le
      have a2 := mul_le_mul c1 db (abs_nonneg _) (mul_nonneg s0 t0.le)
      linarith
    have a2 := mul_le_mul_of_nonneg_left low (mul_nonneg (mul_nonneg (div_nonneg (show 0 ≤ ε + δ by linarith) k0.le) st0) T0.le)
    refine a1.trans (le_trans (le_of_eq ?_) (a2.trans (le_of_eq ?_)))
    · rw [← st]
      field_simp
    · ring
  have q3 : |q - D / t ^ 2| ≤ ρ * (s / t) + η α := by
    have a1 := abs_sub_le q (a / b) (D / t ^ 2)
    have a2 := mul_le_mul_of_nonneg_left q1 u0
    have a3 := mul_le_mul_of_nonneg_right hρ st0
    rw [add_div, mul_div_assoc, add_mul, mul_assoc (u α)] at a3
    linarith
  have q4 : |D / t ^ 2| ≤ s / t := by
    rw [abs_div, abs_of_pos T0, div_le_iff₀ T0, st]
    exact c1
  have q5 : |q| ≤ (1 + ρ) * (s / t) + η α := by linarith [abs_sub_abs_le_abs_sub q (D / t ^ 2)]
  have e1 : |y * q - D / t ^ 2 * y| = |y| * |q - D / t ^ 2| := by rw [← abs_mul]; ring_nf
  have a1 := abs_sub_le r (y * q) (D / t ^ 2 * y)
  have a2 := mul_le_mul_of_nonneg_left q3 (abs_nonneg y)
  have a3 := mul_le_mul_of_nonneg_left (mul_le_mul_of_nonneg_left q5 (abs_nonneg y)) u0
  rw [abs_mul] at dr
  rw [e1] at a1
  linarith

/-- The hypotheses of `C126_partial` are met by the vectors (1, 0) and (3, -4) in binary64. -/
example : ∃ (x3 x4 x1 x0 : B64) (w : List B64) (r : Nat → B64), B64.Is x3 3 ∧ B64.Is x4 (-4) ∧ B64.Is x1 1 ∧ B64.Is x0 0 ∧
    projection (.arr [x1, x0]) [x3, x4] = .ok w ∧ IsList w 2 r ∧ (fin (r 1) → |val (r 1) - -(12 / 25)| ≤ (1 / 2) ^ 40) := by
  have i3 : B64.Is (B64.int 3) 3 := by simpa using B64.Is.int (k := 3) (by norm_num)
  have i4 : B64.Is (B64.int (-4)) (-4) := by simpa using B64.Is.int (k := -4) (by norm_num)
  have i1 := B64.Is.one
  have i0 := B64.Is.zero
  have z := B64.Is.zero
  generalize (Flt.zero : B64) = x0 at i0
  generalize (Flt.one : B64) = x1 at i1
  generalize B64.int 3 = x3 at *
  generalize B64.int (-4) = x4 at *
  refine ⟨x3, x4, x1, x0, ?_⟩
  have hb : B64.Is (Flt.add (Flt.add Flt.zero (Flt.mul x3 x3)) (Flt.mul x4 x4)) 25 :=
    (z.add (i3.mul i3 (t := 9) (by norm_num) (B64.dyi 9 (by norm_num))) (t := 9) (by norm_num) (B64.dyi 9 (by norm_num))).add
      (i4.mul i4 (t := 16) (by norm_num) (B64.dyi 16 (by norm_num))) (t := 25) (by norm_num) (B64.dyi 25 (by norm_num))
  have eb : vecDotProduct (RVec.arr [x3, x4]) (.arr [x3, x4]) = .ok (Flt.add (Flt.add Flt.zero (Flt.mul x3 x3)) (Flt.mul x4 x4)) :=
    (C24_machine (.arr [x3, x4]) (.arr [x3, x4])).2.2.2.1 rfl
  have hl : ∀ a b : B64, IsList [a, b] 2 (fun i => if i = 0 then a else b) := fun a b =>
    ⟨rfl, fun i hi => by rcases (by omega : i = 0 ∨ i = 1) with rfl | rfl <;> rfl⟩
  have t : ((1 : ℝ) / 2) ^ 1075 ≤ (1 / 2) ^ 60 := pow_le_pow_of_le_one (by norm_num) (by norm_num) (by norm_num)
  have hs : (1 : ℝ) = √(∑ k ∈ range 2, val (if k = 0 then x1 else x0) ^ 2) := by
    simp [sum_range_succ, i1.2, i0.2]
  have ht : (5 : ℝ) = √(∑ k ∈ range 2, val (if k = 0 then x3 else x4) ^ 2) := by
    rw [sum_range_succ, sum_range_one, if_pos rfl, if_neg (by norm_num), i3.2, i4.2, show (3 : ℝ) ^ 2 + (-4) ^ 2 = 5 ^ 2 by norm_num,
      Real.sqrt_sq (by norm_num)]
  obtain ⟨w, r, ew, hw, H⟩ := C126_partial (.arr [x1, x0]) [x3, x4] rfl (hl x1 x0) (hl x3 x4) (s := 1) (t := 5)
    (δ := (1 / 2) ^ 45) (ε := (1 / 2) ^ 45) (ρ := (1 / 2) ^ 43) hs ht (by norm_num)
    (fun b h => by rw [eb] at h; obtain rfl := Except.ok.inj h; exact hb.1)
    (by
      show ((1 + (1 / 2) ^ 53) ^ 2 - 1) * 5 ^ 2 + ((2 : Nat) : ℝ) * (1 + (1 / 2) ^ 53) ^ 2 * (1 / 2) ^ 1075 ≤ _
      generalize ((1 : ℝ) / 2) ^ 1075 = y at *
      norm_num at t ⊢
      linarith) (by norm_num)
    (by
      show ((1 + (1 / 2) ^ 53) ^ 2 - 1) * (1 * 5) + ((2 : Nat) : ℝ) * (1 + (1 / 2) ^ 53) ^ 2 * (1 / 2) ^ 1075 ≤ _
      generalize ((1 : ℝ) / 2) ^ 1075 = y at *
      norm_num at t ⊢
      linarith) (by norm_num)
    (by
      show ((1 / 2) ^ 45 + (1 / 2) ^ 45 + (1 / 2) ^ 53 * (1 + (1 / 2) ^ 45)) / (1 - (1 / 2) ^ 45) ≤ _
      norm_num)
  refine ⟨w, r, i3, i4, i1, i0, ew, hw, fun f1 => ?_⟩
  have h := H 1 (show 1 < 2 by norm_num) f1
  have e : ∑ k ∈ range (RVec.arr [x1, x0]).dim, val (if k = 0 then x1 else x0) * val (if k = 0 then x3 else x4) = 3 := by
    show ∑ k ∈ range 2, _ = _
    simp [sum_range_succ, i3.2, i4.2, i1.2, i0.2]
  rw [e, if_neg (by norm_num), i4.2] at h
  rw [show (3 : ℝ) / 5 ^ 2 * -4 = -(12 / 25) by norm_num] at h
  refine h.trans ?_
  show |(-4 : ℝ)| * (((1 / 2) ^ 43 + (1 / 2) ^ 53 * (1 + (1 / 2) ^ 43)) * (1 / 5) + (1 + (1 / 2) ^ 53) * (1 / 2) ^ 1075) + (1 / 2) ^ 1075 ≤
    (1 / 2 : ℝ) ^ 40
  clear h H
  generalize ((1 : ℝ) / 2) ^ 1075 = y at *
  norm_num at t ⊢
  linarith

end Linear
