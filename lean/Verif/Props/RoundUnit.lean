import Verif.Props.EigHuge
import Verif.Props.RoundRectChol

/-!
# C124: unit vectors in rounded arithmetic

`UnitVector` divides by the square root of the sum of the squares.  The squares of small numbers are zero and those of large ones infinite.
-/

set_option linter.unusedSectionVars false

namespace Linear

open Spec Rnd Matrix
open Finset hiding val diag

/-- **C124, the operations**: in every arithmetic `UnitVector` and `Unitize` divide each entry by the computed norm, and refuse when this norm
is zero. -/
theorem C124_terms {α : Type} [Flt α] (v : RVec α) :
    ∃ N, vecNorm v = .ok N ∧ N = Flt.sqrt (Spec.total (v.list.map fun x => Flt.mul x x)) ∧
      (Flt.eq N Flt.zero = true → unitVector (some v) = .error (.pan .arith) ∧ Vec.unitize v.list = .error (.pan .arith, v.list)) ∧
      (Flt.eq N Flt.zero = false → unitVector (some v) = .ok (v.list.map fun x => Flt.div x N) ∧
        Vec.unitize v.list = .ok (v.list.map fun x => Flt.div x N)) := by
  obtain ⟨N, hN⟩ : ∃ N, N = Flt.sqrt (Spec.total (v.list.map fun x => Flt.mul x x)) := ⟨_, rfl⟩
  have en : vecNorm v = .ok N := by rw [(C24_machine v v).1, hN]
  have en' : vecNorm (.arr v.list) = .ok N := by rw [(C24_machine v (.arr v.list)).1, hN]; rfl
  have hu : unitVector (some v) = match Vec.unitize v.list with
      | .ok a => .ok a
      | .error (e, _) => .error e := by
    unfold unitVector
    rw [(C57_construct 0 Flt.zero v [] true (-1) (by omega)).2.2.1, must_ok, ok_bind]
    cases Vec.unitize v.list with
    | ok a => rfl
    | error x => rfl
  refine ⟨N, en, hN, fun h => ?_, fun h => ?_⟩
  · have : Vec.unitize v.list = .error (.pan .arith, v.list) := by
      unfold Vec.unitize
      rw [en', res_at_ok, ok_bind, if_pos h]; rfl
    rw [hu, this]
    exact ⟨rfl, rfl⟩
  · have : Vec.unitize v.list = .ok (v.list.map fun x => Flt.div x N) := by
      unfold Vec.unitize
      rw [en', res_at_ok, ok_bind, if_neg (by rw [h]; exact Bool.false_ne_true)]
      show Vec.mapDivide _ _ = _
      rw [(C21_map v.list N).2.2.2]
    rw [hu, this]
    exact ⟨rfl, rfl⟩

/-- The computed sum of squares that are zero. -/
theorem total_tiny : ∀ (l : List B64) (z : B64), fin z → val z = 0 → (∀ x ∈ l, fin x) → (∀ x ∈ l, |val x| ≤ (1 / 2) ^ 540) →
    fin ((l.map fun x => Flt.mul x x).foldl Flt.add z) ∧ val ((l.map fun x => Flt.mul x x).foldl Flt.add z) = 0 := by
  intro l
  induction l with
  | nil => exact fun z fz vz _ _ => ⟨fz, vz⟩
  | cons a l ih =>
    intro z fz vz hf hs
    rw [List.map_cons, List.foldl_cons]
    obtain ⟨f1, v1⟩ := mul_tiny (hf a (by simp)) (hf a (by simp)) (by
      rw [abs_mul]
      have h := mul_le_mul (hs a (by simp)) (hs a (by simp)) (abs_nonneg _) (pow_pos (by norm_num) _).le
      rw [← pow_add] at h
      show _ < ((1 : ℝ) / 2) ^ 1075
      have hη : (0 : ℝ) < (1 / 2) ^ 1075 := pow_pos (by norm_num) _
      have e : ((1 : ℝ) / 2) ^ (540 + 540) = (1 / 2) ^ 5 * (1 / 2) ^ 1075 := by rw [← pow_add]
      rw [e] at h
      clear ih hs
      generalize ((1 : ℝ) / 2) ^ 1075 = w at *
      generalize |val a| * |val a| = v at *
      norm_num at h
      linarith)
    have f2 : fin (Flt.add z (Flt.mul a a)) := add_ok fz f1 (by rw [v1, vz]; have := big_le (α := B64); norm_num; linarith)
    have v2 := Rnd.add_zero f2 v1
    exact ih _ f2 (v2.trans vz) (fun x hx => hf x (by simp [hx])) fun x hx => hs x (by simp [hx])

/-- **C124, small vectors**: when all entries are so small that their squares are zero, below `2⁻⁵⁴⁰` in binary64, `UnitVector` and `VecCosine`
panic as for the zero vector, whatever the entries are. -/
theorem C124_small (v : RVec B64) (hf : ∀ x ∈ v.list, fin x) (hs : ∀ x ∈ v.list, |val x| ≤ (1 / 2) ^ 540) :
    unitVector (some v) = .error (.pan .arith) ∧ Vec.unitize v.list = .error (.pan .arith, v.list) ∧
      ∀ w : RVec B64, vecCosine v w = .error (.pan .arith) := by
  obtain ⟨N, e, hN, h1, -⟩ := C124_terms v
  obtain ⟨f1, v1⟩ := total_tiny v.list Flt.zero zero_fin val_zero hf hs
  have f2 := sqrt_ok f1 v1.ge
  have v2 := (sqrt_err f2).1
  rw [v1, Real.sqrt_zero, mul_zero, sub_zero] at v2
  have z : Flt.eq N Flt.zero = true := by
    rw [hN]
    exact (eq_iff f2 zero_fin).2 (by rw [abs_nonpos_iff.1 v2, val_zero])
  refine ⟨(h1 z).1, (h1 z).2, fun w => ?_⟩
  obtain ⟨M, e', -⟩ := C124_terms w
  unfold vecCosine
  rw [e, ok_bind, e', ok_bind, z, Bool.true_or, if_pos rfl]
  rfl

/-- **C124, projections on small vectors**: `Projection` panics as for the zero vector. -/
theorem C124_small_projection (src : RVec B64) (dest : List B64) (hf : ∀ x ∈ dest, fin x) (hs : ∀ x ∈ dest, |val x| ≤ (1 / 2) ^ 540) :
    projection src dest = .error (.pan .arith, dest) := by
  obtain ⟨f1, v1⟩ := total_tiny dest Flt.zero zero_fin val_zero hf hs
  have e := (C24_machine (.arr dest) (.arr dest)).2.2.2.1 rfl
  have z : List.zipWith Flt.mul (RVec.arr dest).list (RVec.arr dest).list = dest.map fun x => Flt.mul x x := by
    show List.zipWith Flt.mul dest dest = _
    rw [List.zipWith_self]
  rw [z] at e
  have q : Flt.eq (Spec.total (dest.map fun x => Flt.mul x x)) Flt.zero = true :=
    (eq_iff f1 zero_fin).2 (by rw [val_zero]; exact v1)
  unfold projection
  rw [e, res_at_ok, ok_bind]
  dsimp only
  rw [if_pos q]
  rfl

theorem B64.Up.add {x y : B64} (hx : x.Up) (hy : y.Up) : (Flt.add x y).Up := by
  rcases hx with ⟨fx, vx⟩ | rfl <;> rcases hy with ⟨fy, vy⟩ | rfl
  · rcases x with ⟨a, ha⟩ | _ | _ <;> [skip; exact fx.elim; exact fx.elim]
    rcases y with ⟨b, hb⟩ | _ | _ <;> [skip; exact fy.elim; exact fy.elim]
    exact B64.rnd_up (add_nonneg vx vy)
  · rcases x with ⟨b, hb⟩ | _ | _ <;> [exact .inr rfl; exact fx.elim; exact fx.elim]
  · rcases y with ⟨b, hb⟩ | _ | _ <;> [exact .inr rfl; exact fy.elim; exact fy.elim]
  · exact .inr rfl

theorem B64.Up.inf_add {x : B64} (hx : x.Up) : Flt.add (B64.inf false) x = B64.inf false ∧ Flt.add x (B64.inf false) = B64.inf false := by
  rcases hx with ⟨fx, vx⟩ | rfl
  · rcases x with ⟨b, hb⟩ | _ | _ <;> [exact ⟨rfl, rfl⟩; exact fx.elim; exact fx.elim]
  · exact ⟨rfl, rfl⟩

theorem B64.mul_self_up {x : B64} (fx : fin x) : (Flt.mul x x).Up := by
  rcases x with ⟨a, ha⟩ | _ | _ <;> [skip; exact fx.elim; exact fx.elim]
  exact B64.rnd_up (mul_self_nonneg a)

/-- The sum of the squares of a list with a large entry is infinite. -/
theorem total_large (l : List B64) (hf : ∀ x ∈ l, fin x) {y : B64} (hy : y ∈ l) (hl : 2 ^ 513 ≤ |val y|) :
    Spec.total (l.map fun x => Flt.mul x x) = B64.inf false := by
  have up : ∀ (l : List B64) (z : B64), z.Up → (∀ x ∈ l, fin x) → ((l.map fun x => Flt.mul x x).foldl Flt.add z).Up := by
    intro l
    induction l with
    | nil => exact fun z hz _ => hz
    | cons a l ih => exact fun z hz hf => ih _ (hz.add (B64.mul_self_up (hf a (by simp)))) fun x hx => hf x (by simp [hx])
  have keep : ∀ l : List B64, (∀ x ∈ l, fin x) → (l.map fun x => Flt.mul x x).foldl Flt.add (B64.inf false) = B64.inf false := by
    intro l
    induction l with
    | nil => exact fun _ => rfl
    | cons a l ih =>
      intro hf
      rw [List.map_cons, List.foldl_cons, (B64.mul_self_up (hf a (by simp))).inf_add.1]
      exact ih fun x hx => hf x (by simp [hx])
  have o : Flt.mul y y = B64.inf false := B64.mul_over (hf y hy) (hf y hy) (by
    have h := mul_le_mul hl hl (pow_nonneg (by norm_num) _) (abs_nonneg _)
    rw [← abs_mul, abs_mul_self, ← pow_add] at h
    exact (pow_le_pow_right₀ (by norm_num) (by norm_num)).trans h)
  obtain ⟨l₁, l₂, e⟩ := List.append_of_mem hy
  rw [e] at hf ⊢
  unfold Spec.total
  rw [List.map_append, List.foldl_append, List.map_cons, List.foldl_cons, o,
    (up l₁ Flt.zero (.inl ⟨zero_fin, val_zero.ge⟩) fun x hx => hf x (by simp [hx])).inf_add.2]
  exact keep l₂ fun x hx => hf x (by simp [hx])

theorem vecNorm_large (v : RVec B64) (hf : ∀ x ∈ v.list, fin x) {y : B64} (hy : y ∈ v.list) (hl : 2 ^ 513 ≤ |val y|) :
    vecNorm v = .ok (B64.inf false) := by
  rw [(C24_machine v v).1, total_large v.list hf hy hl]
  rfl

/-- **C124, large vectors**: when the entries are finite and one of them is at least `2⁵¹³` in magnitude, `UnitVector` gives the zero vector. -/
theorem C124_large (v : RVec B64) (hf : ∀ x ∈ v.list, fin x) {y : B64} (hy : y ∈ v.list) (hl : 2 ^ 513 ≤ |val y|) :
    ∃ w, unitVector (some v) = .ok w ∧ w.length = v.dim ∧ ∀ x ∈ w, B64.Is x 0 := by
  obtain ⟨N, e, -, -, h2⟩ := C124_terms v
  rw [vecNorm_large v hf hy hl] at e
  obtain rfl := Except.ok.inj e
  refine ⟨_, (h2 rfl).1, by rw [List.length_map, v.dim_list], fun x hx => ?_⟩
  obtain ⟨a, ha, rfl⟩ := List.mem_map.1 hx
  have fa := hf a ha
  rcases a with ⟨b, hb⟩ | _ | _ <;> [skip; exact fa.elim; exact fa.elim]
  exact ⟨trivial, show ((0 : ℤ) : ℝ) = 0 by norm_num⟩

/-- **C124.**  `UnitVector` refuses the vector `(2⁻⁶⁰⁰)`, which is not zero, and its result for `(2⁶⁰⁰)` is the zero vector. -/
theorem C124_refuted : ∃ x y z : B64, B64.Is x (2 ^ (-600 : ℤ)) ∧ B64.Is y (2 ^ (600 : ℤ)) ∧ B64.Is z 0 ∧
    unitVector (some (.arr [x])) = .error (.pan .arith) ∧ unitVector (some (.arr [y])) = .ok [z] := by
  have hx := B64.Is.two (-600) (by norm_num) (by norm_num)
  have hy := B64.Is.two 600 (by norm_num) (by norm_num)
  generalize B64.two (-600) (by norm_num) (by norm_num) = x at hx
  generalize B64.two 600 (by norm_num) (by norm_num) = y at hy
  have h1 := (C124_small (.arr [x]) (fun a ha => by
    obtain rfl := List.mem_singleton.1 ha
    exact hx.1) (fun a ha => by
    obtain rfl := List.mem_singleton.1 ha
    rw [hx.2, abs_of_pos (zpow_pos (by norm_num) _), one_div, inv_pow, ← zpow_natCast, ← _root_.zpow_neg]
    exact zpow_le_zpow_right₀ (by norm_num) (by norm_num))).1
  obtain ⟨w, e, l, h⟩ := C124_large (.arr [y]) (fun a ha => by
    obtain rfl := List.mem_singleton.1 ha
    exact hy.1) (y := y) (List.mem_singleton.2 rfl) (by
    rw [hy.2, abs_of_pos (zpow_pos (by norm_num) _), ← zpow_natCast]
    exact zpow_le_zpow_right₀ (by norm_num) (by norm_num))
  obtain ⟨z, rfl⟩ := List.length_eq_one_iff.1 l
  exact ⟨x, y, z, hx, hy, h z (by simp), h1, e⟩

/-- **C124, partial**: where the computed norm is finite and the squares do not underflow, each entry of the unit vector is near to the true
one: `δ` is the relative error of the square of the norm.  Missing: small and large vectors; there it is false (`C124_refuted`). -/
theorem C124_partial {α : Type} [Flt α] [Rnd α] (v : RVec α) {f : Nat → α} (hf : IsList v.list v.dim f) {S δ : ℝ}
    (hS : S = ∑ k ∈ range v.dim, val (f k) ^ 2) (S0 : 0 < S) (hN : ∀ N, vecNorm v = .ok N → fin N)
    (hδ : gam α (v.dim + 2) * S + v.dim * (1 + u α) ^ (v.dim + 2) * η α ≤ δ * S) (hδ1 : δ < 1) :
    ∃ w g, unitVector (some v) = .ok w ∧ IsList w v.dim g ∧ ∀ k, k < v.dim → fin (g k) →
      |val (g k) - val (f k) / √S| ≤ (δ + u α) / (1 - δ) * (|val (f k)| / √S) + η α := by
  obtain ⟨N, e, -, -, h2⟩ := C124_terms v
  obtain ⟨⟨N', e', H⟩, -⟩ := C80_norms v hf
  rw [e] at e'
  obtain rfl := Except.ok.inj e'
  have fN := hN N e
  obtain ⟨ff, N0, err⟩ := H fN
  rw [← hS] at err
  have q0 : 0 < √S := Real.sqrt_pos.2 S0
  have qq : √S ^ 2 = S := Real.sq_sqrt S0.le
  have err := err.trans hδ
  have u0 := u_nonneg (α := α)
  have near : |val N - √S| ≤ δ * √S := by
    have h : |val N - √S| * (val N + √S) ≤ δ * √S * (val N + √S) := by
      rw [← abs_of_pos (show 0 < val N + √S by linarith), ← abs_mul, abs_of_pos (show 0 < val N + √S by linarith)]
      rw [show (val N - √S) * (val N + √S) = val N ^ 2 - S by linear_combination -qq]
      refine err.trans ?_
      have d0 : 0 ≤ δ * √S := by
        have := (abs_nonneg _).trans err
        exact mul_nonneg (nonneg_of_mul_nonneg_left this S0) q0.le
      have := mul_nonneg d0 N0
      have : δ * √S * (val N + √S) = δ * √S * val N + δ * S := by linear_combination δ * qq
      linarith
    exact le_of_mul_le_mul_right h (by linarith)
  obtain ⟨n1, n2⟩ := abs_le.1 near
  have low : (1 - δ) * √S ≤ val N := by linarith
  have pos : 0 < val N := lt_of_lt_of_le (mul_pos (by linarith) q0) low
  have ne : Flt.eq N Flt.zero = false := by
    rw [Bool.eq_false_iff, Ne, eq_iff fN zero_fin, val_zero]
    exact pos.ne'
  refine ⟨_, fun k => Flt.div (f k) N, (h2 ne).1, ⟨by rw [List.length_map, v.dim_list], fun k hk => ?_⟩, fun k hk fq => ?_⟩
  · rw [List.getElem?_map, hf.2 k hk]
    rfl
  · have d := (div_err fq fN).1
    rw [abs_div, abs_of_pos pos] at d
    have a : |val (f k)| / val N ≤ 1 / (1 - δ) * (|val (f k)| / √S) := by
      rw [div_mul_div_comm, one_mul]
      exact div_le_div_of_nonneg_left (abs_nonneg _) (mul_pos (by linarith) q0) low
    have b : |val (f k) / val N - val (f k) / √S| ≤ δ * (|val (f k)| / val N) := by
      rw [div_sub_div _ _ pos.ne' q0.ne', abs_div, abs_of_pos (mul_pos pos q0), ← mul_div_assoc,
        div_le_div_iff₀ (mul_pos pos q0) pos, show val (f k) * √S - val N * val (f k) = -(val (f k) * (val N - √S)) by ring, abs_neg, abs_mul]
      have := mul_le_mul_of_nonneg_left near (mul_nonneg (abs_nonneg (val (f k))) pos.le)
      linarith
    have d0 : 0 ≤ δ := nonneg_of_mul_nonneg_left ((abs_nonneg _).trans err) S0
    have m := mul_le_mul_of_nonneg_left a (show 0 ≤ δ + u α by linarith)
    have t := abs_sub_le (val (Flt.div (f k) N)) (val (f k) / val N) (val (f k) / √S)
    rw [← mul_assoc, mul_one_div] at m
    linarith

/-- The hypotheses of `C124_partial` are met by the vector (3, -4) in binary64. -/
example : ∃ (w : List B64) (g : Nat → B64), unitVector (some (.arr [B64.int 3, B64.int (-4)])) = .ok w ∧ IsList w 2 g ∧
    (fin (g 0) → |val (g 0) - 3 / 5| ≤ (1 / 2) ^ 40) := by
  have i3 : B64.Is (B64.int 3) 3 := by simpa using B64.Is.int (k := 3) (by norm_num)
  have i4 : B64.Is (B64.int (-4)) (-4) := by simpa using B64.Is.int (k := -4) (by norm_num)
  have nm : ∃ x, vecNorm (.arr [B64.int 3, B64.int (-4)]) = .ok x ∧ fin x ∧ val x = 5 := by
    refine ⟨_, (C24_machine (.arr []) _).1, ?_⟩
    have e : Flt.sqrt (total ([B64.int 3, B64.int (-4)].map fun x => Flt.mul x x)) = B64.int 5 := by
      show Flt.sqrt (Flt.add (Flt.add Flt.zero (Flt.mul _ _)) (Flt.mul _ _)) = _
      rw [B64.zero_int, B64.mul_int _ _ (by norm_num), B64.mul_int _ _ (by norm_num),
        B64.add_int _ _ (by norm_num), B64.add_int _ _ (by norm_num),
        B64.sqrt_int (m := 5) _ (by norm_num) (by norm_num) (by norm_num)]
    show fin (Flt.sqrt _) ∧ val (Flt.sqrt _) = 5
    rw [show Flt.sqrt (total (List.map (fun x => Flt.mul x x) (RVec.arr [B64.int 3, B64.int (-4)]).list)) = _ from e]
    exact ⟨B64.int_fin _, by rw [B64.int_val]; norm_num⟩
  generalize B64.int 3 = x3 at *
  generalize B64.int (-4) = x4 at *
  obtain ⟨x, ex, fx, -⟩ := nm
  have hl : IsList (RVec.arr [x3, x4]).list (RVec.arr [x3, x4]).dim (fun i => if i = 0 then x3 else x4) :=
    ⟨rfl, fun i hi => by
      have hi : i < 2 := hi
      rcases (by omega : i = 0 ∨ i = 1) with rfl | rfl <;> rfl⟩
  have t : ((1 : ℝ) / 2) ^ 1075 ≤ (1 / 2) ^ 60 := pow_le_pow_of_le_one (by norm_num) (by norm_num) (by norm_num)
  have hS : (25 : ℝ) = ∑ k ∈ range 2, val (if k = 0 then x3 else x4) ^ 2 := by
    rw [sum_range_succ, sum_range_one, if_pos rfl, if_neg (by norm_num), i3.2, i4.2]
    norm_num
  obtain ⟨w, g, e, h1, h2⟩ := C124_partial (.arr [x3, x4]) hl (S := 25) (δ := (1 / 2) ^ 45) hS (by norm_num)
    (fun N hN => by
      rw [ex] at hN
      obtain rfl := Except.ok.inj hN
      exact fx)
    (by
      show ((1 + (1 / 2) ^ 53) ^ (2 + 2) - 1) * 25 + ((2 : Nat) : ℝ) * (1 + (1 / 2) ^ 53) ^ (2 + 2) * (1 / 2) ^ 1075 ≤ _
      generalize ((1 : ℝ) / 2) ^ 1075 = y at *
      norm_num at t ⊢
      linarith) (by norm_num)
  refine ⟨w, g, e, h1, fun f0 => ?_⟩
  have h := h2 0 (show 0 < 2 by norm_num) f0
  have s5 : √(25 : ℝ) = 5 := by rw [show (25 : ℝ) = 5 ^ 2 by norm_num, Real.sqrt_sq (by norm_num)]
  rw [if_pos rfl, i3.2, s5] at h
  refine h.trans ?_
  show ((1 / 2) ^ 45 + (1 / 2) ^ 53) / (1 - (1 / 2) ^ 45) * (|3| / 5) + (1 / 2) ^ 1075 ≤ (1 / 2 : ℝ) ^ 40
  clear h h2 e
  generalize ((1 : ℝ) / 2) ^ 1075 = y at *
  norm_num at t ⊢
  linarith

end Linear
