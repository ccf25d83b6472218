import Verif.Props.RoundNormZero

/-!
# C130: the norms are monotone in binary64, without any error
-/

set_option linter.unusedSectionVars false

namespace Linear

open Spec Rnd Matrix
open Finset hiding val diag

theorem B64.toInt_mono {a b : ℝ} (h : a ≤ b) : B64.toInt a ≤ B64.toInt b := by
  by_contra hc
  have h1 : B64.toInt b + 1 ≤ B64.toInt a := by omega
  have h2 : (B64.toInt b : ℝ) + 1 ≤ B64.toInt a := by exact_mod_cast h1
  have h3 := abs_le.1 (B64.abs_sub_toInt a)
  have h4 := abs_le.1 (B64.abs_sub_toInt b)
  have : a = b := by linarith
  subst this
  omega

/-- Rounding keeps the order. -/
theorem B64.near_mono {x y : ℝ} (h0 : 0 ≤ x) (h : x ≤ y) : B64.near x ≤ B64.near y := by
  have same : B64.ulp x = B64.ulp y → B64.near x ≤ B64.near y := by
    intro e
    unfold B64.near
    rw [e]
    have hp := B64.ulp_pos y
    refine mul_le_mul_of_nonneg_right ?_ hp.le
    exact_mod_cast B64.toInt_mono (div_le_div_of_nonneg_right h hp.le)
  rcases h0.eq_or_lt with rfl | hx
  · rw [B64.near_zero]
    exact B64.near_nonneg h
  have hy : 0 < y := hx.trans_le h
  by_cases hl : max (-1074) (Int.log 2 |y| - 52) = max (-1074) (Int.log 2 |x| - 52)
  · exact same (by unfold B64.ulp; rw [hl])
  have hm : Int.log 2 |x| ≤ Int.log 2 |y| := by
    rw [abs_of_pos hx, abs_of_pos hy]
    exact Int.log_mono_right hx h
  have hxy : x < 2 ^ Int.log 2 |y| := by
    have h1 := Int.lt_zpow_succ_log_self (show 1 < 2 by norm_num) |x|
    rw [abs_of_pos hx] at h1
    refine h1.trans_le ?_
    push_cast
    refine zpow_le_zpow_right₀ (by norm_num) ?_
    rw [abs_of_pos hx] at hl hm
    omega
  have hyy : (2 : ℝ) ^ Int.log 2 |y| ≤ y := by
    have := Int.zpow_log_le_self (show 1 < 2 by norm_num) (abs_pos.2 hy.ne')
    rw [abs_of_pos hy] at this ⊢
    exact_mod_cast this
  obtain ⟨k, hk⟩ : ∃ k : ℕ, Int.log 2 |y| = max (-1074) (Int.log 2 |x| - 52) + k :=
    ⟨(Int.log 2 |y| - max (-1074) (Int.log 2 |x| - 52)).toNat, by omega⟩
  have a1 : (2 : ℝ) ^ Int.log 2 |y| = ((2 ^ k : ℤ) : ℝ) * B64.ulp x := by
    unfold B64.ulp
    rw [hk, zpow_add₀ (by norm_num), zpow_natCast]
    push_cast
    ring
  have a2 : (2 : ℝ) ^ Int.log 2 |y| = ((2 ^ 52 : ℤ) : ℝ) * B64.ulp y := by
    unfold B64.ulp
    rw [max_eq_right (by omega), zpow_sub₀ (by norm_num)]
    push_cast
    field_simp
    norm_num
  have b1 : B64.near x ≤ 2 ^ Int.log 2 |y| := by
    have hp := B64.ulp_pos x
    rw [a1]
    unfold B64.near
    refine mul_le_mul_of_nonneg_right ?_ hp.le
    have := B64.toInt_mono (a := x / B64.ulp x) (b := ((2 ^ k : ℤ) : ℝ)) (by rw [div_le_iff₀ hp, ← a1]; exact hxy.le)
    rw [B64.toInt_int] at this
    exact_mod_cast this
  have b2 : (2 : ℝ) ^ Int.log 2 |y| ≤ B64.near y := by
    have hp := B64.ulp_pos y
    rw [a2]
    unfold B64.near
    refine mul_le_mul_of_nonneg_right ?_ hp.le
    have := B64.toInt_mono (a := ((2 ^ 52 : ℤ) : ℝ)) (b := y / B64.ulp y) (by rw [le_div_iff₀ hp, ← a2]; exact hyy)
    rw [B64.toInt_int] at this
    exact_mod_cast this
  exact b1.trans b2

/-- Neither is negative or NaN, and the first is not larger. -/
def B64.Below (x y : B64) : Prop :=
  (∃ a ha b hb, x = B64.num a ha ∧ y = B64.num b hb ∧ 0 ≤ a ∧ a ≤ b) ∨
  (y = B64.inf false ∧ (x = B64.inf false ∨ ∃ a ha, x = B64.num a ha ∧ 0 ≤ a))

theorem B64.Below.le {x y : B64} (h : B64.Below x y) : Flt.le x y = true := by
  rcases h with ⟨a, ha, b, hb, rfl, rfl, h0, h⟩ | ⟨rfl, rfl | ⟨a, ha, rfl, h0⟩⟩
  · show (decide (a < b) || decide (a = b)) = true
    rcases h.lt_or_eq with h | h <;> simp [h]
  · rfl
  · rfl

theorem B64.rnd_mono {x y : ℝ} (h0 : 0 ≤ x) (h : x ≤ y) : B64.Below (B64.rnd x) (B64.rnd y) := by
  have nx := B64.near_nonneg h0
  have ny := B64.near_nonneg (h0.trans h)
  have m := B64.near_mono h0 h
  unfold B64.rnd
  rw [decide_eq_false (not_lt.2 h0), decide_eq_false (not_lt.2 (h0.trans h))]
  split_ifs with h1 h2 h2
  · exact .inl ⟨_, _, _, _, rfl, rfl, nx, m⟩
  · exact .inr ⟨rfl, .inr ⟨_, _, rfl, nx⟩⟩
  · rw [abs_of_nonneg nx] at h1
    rw [abs_of_nonneg ny] at h2
    exact absurd (m.trans_lt h2) h1
  · exact .inr ⟨rfl, .inl rfl⟩

theorem B64.Below.add {x y z w : B64} (h : B64.Below x y) (k : B64.Below z w) : B64.Below (Flt.add x z) (Flt.add y w) := by
  have cl : ∀ {a : ℝ}, 0 ≤ a → B64.Below (B64.rnd a) (B64.inf false) := by
    intro a ha
    rcases B64.rnd_mono ha le_rfl with ⟨b, hb, -, -, e, -, h0, -⟩ | ⟨e, -⟩
    · exact .inr ⟨rfl, .inr ⟨b, hb, e, h0⟩⟩
    · exact .inr ⟨rfl, .inl e⟩
  rcases h with ⟨a, ha, b, hb, rfl, rfl, h0, h⟩ | ⟨rfl, rfl | ⟨a, ha, rfl, h0⟩⟩ <;>
    rcases k with ⟨c, hc, d, hd, rfl, rfl, k0, k⟩ | ⟨rfl, rfl | ⟨c, hc, rfl, k0⟩⟩
  · exact B64.rnd_mono (add_nonneg h0 k0) (add_le_add h k)
  · exact .inr ⟨rfl, .inl rfl⟩
  · exact cl (add_nonneg h0 k0)
  · exact .inr ⟨rfl, .inl rfl⟩
  · exact .inr ⟨rfl, .inl rfl⟩
  · exact .inr ⟨rfl, .inl rfl⟩
  · exact cl (add_nonneg h0 k0)
  · exact .inr ⟨rfl, .inl rfl⟩
  · exact cl (add_nonneg h0 k0)

theorem B64.Below.left {x y : B64} (h : B64.Below x y) : B64.Below x x := by
  rcases h with ⟨a, ha, b, hb, rfl, rfl, h0, h⟩ | ⟨rfl, rfl | ⟨a, ha, rfl, h0⟩⟩
  · exact .inl ⟨a, ha, a, ha, rfl, rfl, h0, le_rfl⟩
  · exact .inr ⟨rfl, .inl rfl⟩
  · exact .inl ⟨a, ha, a, ha, rfl, rfl, h0, le_rfl⟩

theorem B64.Below.zero {x : B64} (h : B64.Below x x) : B64.Below Flt.zero x := by
  have z : ((0 : ℤ) : ℝ) = 0 := by norm_num
  rcases h with ⟨a, ha, b, hb, rfl, -, h0, h⟩ | ⟨rfl, -⟩
  · exact .inl ⟨_, _, a, ha, rfl, rfl, z.ge, z.trans_le h0⟩
  · exact .inr ⟨rfl, .inr ⟨_, _, rfl, z.ge⟩⟩

theorem B64.Below.trans {x y z : B64} (h : B64.Below x y) (k : B64.Below y z) : B64.Below x z := by
  rcases h with ⟨a, ha, b, hb, rfl, rfl, h0, h⟩ | ⟨rfl, h⟩
  · rcases k with ⟨c, hc, d, hd, e, rfl, k0, k⟩ | ⟨rfl, -⟩
    · obtain rfl := B64.num.inj e
      exact .inl ⟨_, _, _, _, rfl, rfl, h0, h.trans k⟩
    · exact .inr ⟨rfl, .inr ⟨_, _, rfl, h0⟩⟩
  · rcases k with ⟨c, hc, d, hd, e, -⟩ | ⟨rfl, -⟩
    · exact absurd e (by simp)
    · exact .inr ⟨rfl, h⟩

theorem B64.add_zero_left {x : B64} (h : B64.Below x x) : Flt.add Flt.zero x = x ∧ Flt.add x Flt.zero = x := by
  rcases h with ⟨a, ha, b, hb, rfl, -, h0, h⟩ | ⟨rfl, -⟩
  · constructor
    · show B64.rnd (((0 : ℤ) : ℝ) + a) = _
      rw [Int.cast_zero, _root_.zero_add, B64.rnd_rep ha]
    · show B64.rnd (a + ((0 : ℤ) : ℝ)) = _
      rw [Int.cast_zero, _root_.add_zero, B64.rnd_rep ha]
  · exact ⟨rfl, rfl⟩

theorem B64.Below.fmax_or {x y : B64} (h : B64.Below x x) (k : B64.Below y y) :
    (Flt.fmax x y = x ∧ B64.Below y x) ∨ (Flt.fmax x y = y ∧ B64.Below x y) := by
  rcases h with ⟨a, ha, _, _, rfl, -, h0, -⟩ | ⟨rfl, -⟩ <;> rcases k with ⟨c, hc, _, _, rfl, -, k0, -⟩ | ⟨rfl, -⟩
  · show ((if a < c then B64.num c hc else B64.num a ha) = _ ∧ _) ∨ ((if a < c then B64.num c hc else B64.num a ha) = _ ∧ _)
    by_cases e : a < c
    · rw [if_pos e]
      exact .inr ⟨rfl, .inl ⟨_, _, _, _, rfl, rfl, h0, e.le⟩⟩
    · rw [if_neg e]
      exact .inl ⟨rfl, .inl ⟨_, _, _, _, rfl, rfl, k0, not_lt.1 e⟩⟩
  · exact .inr ⟨rfl, .inr ⟨rfl, .inr ⟨_, _, rfl, h0⟩⟩⟩
  · exact .inl ⟨rfl, .inr ⟨rfl, .inr ⟨_, _, rfl, k0⟩⟩⟩
  · exact .inl ⟨rfl, .inr ⟨rfl, .inl rfl⟩⟩

theorem B64.Below.right {x y : B64} (h : B64.Below x y) : B64.Below y y := by
  rcases h with ⟨a, ha, b, hb, rfl, rfl, h0, h⟩ | ⟨rfl, -⟩
  · exact .inl ⟨b, hb, b, hb, rfl, rfl, h0.trans h, le_rfl⟩
  · exact .inr ⟨rfl, .inl rfl⟩

theorem B64.Below.fmax_le {x y z : B64} (h : B64.Below x z) (k : B64.Below y z) : B64.Below (Flt.fmax x y) z := by
  rcases h.left.fmax_or k.left with ⟨e, -⟩ | ⟨e, -⟩ <;> rw [e]
  · exact h
  · exact k

theorem B64.Below.fmax {x y z w : B64} (h : B64.Below x y) (k : B64.Below z w) : B64.Below (Flt.fmax x z) (Flt.fmax y w) := by
  rcases h.right.fmax_or k.right with ⟨e, m⟩ | ⟨e, m⟩ <;> rw [e]
  · exact h.fmax_le (k.trans m)
  · exact (h.trans m).fmax_le k

/-- A magnitude that is compared is a number or infinite. -/
theorem B64.Below.of_le {x y : B64} (h : Flt.le (Flt.abs x) (Flt.abs y) = true) : B64.Below (Flt.abs x) (Flt.abs y) := by
  rcases x with ⟨a, ha⟩ | s | _ <;> rcases y with ⟨b, hb⟩ | t | _
  · refine .inl ⟨|a|, ha.abs, |b|, hb.abs, rfl, rfl, abs_nonneg _, ?_⟩
    have h : (decide (|a| < |b|) || decide (|a| = |b|)) = true := h
    simp only [Bool.or_eq_true, decide_eq_true_eq] at h
    exact h.elim le_of_lt le_of_eq
  · exact .inr ⟨rfl, .inr ⟨|a|, ha.abs, rfl, abs_nonneg _⟩⟩
  · exact absurd (show (false || false) = true from h) (by simp)
  · exact absurd (show (false || false) = true from h) (by simp)
  · exact .inr ⟨rfl, .inl rfl⟩
  · exact absurd (show (false || false) = true from h) (by simp)
  · exact absurd (show (false || false) = true from h) (by simp)
  · exact absurd (show (false || false) = true from h) (by simp)
  · exact absurd (show (false || false) = true from h) (by simp)

theorem B64.Below.sq {x y : B64} (h : B64.Below (Flt.abs x) (Flt.abs y)) : B64.Below (Flt.mul x x) (Flt.mul y y) := by
  have e : ∀ x : B64, B64.Below (Flt.abs x) (Flt.abs x) → (∃ a ha, x = B64.num a ha) ∨ (Flt.abs x = B64.inf false ∧ Flt.mul x x = B64.inf false) := by
    intro x hx
    rcases x with ⟨a, ha⟩ | s | _
    · exact .inl ⟨a, ha, rfl⟩
    · refine .inr ⟨rfl, ?_⟩
      show B64.inf (s ^^ s) = _
      rw [Bool.xor_self]
    · rcases hx with ⟨_, _, _, _, e, -⟩ | ⟨e, -⟩ <;> exact absurd (show B64.nan = _ from e) (by simp)
  rcases e x h.left with ⟨a, ha, rfl⟩ | ⟨f1, e1⟩ <;> rcases e y h.right with ⟨b, hb, rfl⟩ | ⟨f0, e2⟩
  · rcases h with ⟨c, hc, d, hd, e1, e2, h0, h⟩ | ⟨e1, -⟩
    · obtain rfl := B64.num.inj (show B64.num |a| ha.abs = _ from e1)
      obtain rfl := B64.num.inj (show B64.num |b| hb.abs = _ from e2)
      refine B64.rnd_mono (mul_self_nonneg a) ?_
      rw [← abs_mul_abs_self a, ← abs_mul_abs_self b]
      exact mul_self_le_mul_self (abs_nonneg _) h
    · exact absurd (show B64.num |b| hb.abs = _ from e1) (by simp)
  · rw [e2]
    rcases B64.mul_self_up (x := B64.num a ha) trivial with ⟨f, v⟩ | e
    · generalize Flt.mul (B64.num a ha) (B64.num a ha) = q at *
      rcases q with ⟨c, hc⟩ | _ | _ <;> [exact .inr ⟨rfl, .inr ⟨c, hc, rfl, v⟩⟩; exact f.elim; exact f.elim]
    · exact .inr ⟨rfl, .inl e⟩
  · rw [f1] at h
    rcases h with ⟨_, _, _, _, e, -⟩ | ⟨e, -⟩
    · exact absurd e (by simp)
    · exact absurd (show B64.num |b| hb.abs = _ from e) (by simp)
  · rw [e1, e2]
    exact .inr ⟨rfl, .inl rfl⟩

theorem B64.Below.sqrt {x y : B64} (h : B64.Below x y) : B64.Below (Flt.sqrt x) (Flt.sqrt y) := by
  have num : ∀ {a : ℝ} (ha : B64.Num a), 0 ≤ a → Flt.sqrt (B64.num a ha) = B64.rnd √a := fun ha h0 => if_neg (not_lt.2 h0)
  rcases h with ⟨a, ha, b, hb, rfl, rfl, h0, h⟩ | ⟨rfl, rfl | ⟨a, ha, rfl, h0⟩⟩
  · rw [num ha h0, num hb (h0.trans h)]
    exact B64.rnd_mono (Real.sqrt_nonneg _) (Real.sqrt_le_sqrt h)
  · exact .inr ⟨rfl, .inl rfl⟩
  · rw [num ha h0]
    rcases B64.rnd_mono (Real.sqrt_nonneg a) le_rfl with ⟨b, hb, -, -, e, -, h0, -⟩ | ⟨e, -⟩
    · exact .inr ⟨rfl, .inr ⟨b, hb, e, h0⟩⟩
    · exact .inr ⟨rfl, .inl e⟩

theorem zero_below : B64.Below (Flt.zero : B64) Flt.zero := by
  have z : ((0 : ℤ) : ℝ) = 0 := by norm_num
  exact .inl ⟨_, _, _, _, rfl, rfl, z.ge, le_rfl⟩

/-- **C130, monotone**: when no entry of the first vector is larger in magnitude than that of the second, no norm is larger: overflow included,
and without any error term. -/
theorem C130_monotone (v w : RVec B64) (h : List.Forall₂ (fun x y => Flt.le (Flt.abs x) (Flt.abs y) = true) v.list w.list) :
    (∃ d e, vecNorm v = .ok d ∧ vecNorm w = .ok e ∧ Flt.le d e = true) ∧
    (∃ d e, vecL1Norm v = .ok d ∧ vecL1Norm w = .ok e ∧ Flt.le d e = true) ∧
    ∃ d e, vecLInfNorm v = .ok d ∧ vecLInfNorm w = .ok e ∧ Flt.le d e = true := by
  obtain ⟨a1, a2, a3, -⟩ := C24_machine v v
  obtain ⟨b1, b2, b3, -⟩ := C24_machine w w
  have fold : ∀ (op : B64 → B64 → B64) (g : B64 → B64),
      (∀ {x y z w}, B64.Below x y → B64.Below z w → B64.Below (op x z) (op y w)) →
      (∀ {x y}, B64.Below (Flt.abs x) (Flt.abs y) → B64.Below (g x) (g y)) → ∀ {l m : List B64},
      List.Forall₂ (fun x y => Flt.le (Flt.abs x) (Flt.abs y) = true) l m → ∀ {s t : B64}, B64.Below s t →
      B64.Below ((l.map g).foldl op s) ((m.map g).foldl op t) := by
    intro op g ho hg l m hl
    induction hl with
    | nil => exact fun h => h
    | cons hx _ ih => exact fun hs => ih (ho hs (hg (B64.Below.of_le hx)))
  exact ⟨⟨_, _, a1, b1, (fold Flt.add (fun x => Flt.mul x x) B64.Below.add B64.Below.sq h zero_below).sqrt.le⟩,
    ⟨_, _, a2, b2, (fold Flt.add Flt.abs B64.Below.add (fun h => h) h zero_below).le⟩,
    _, _, a3, b3, (fold Flt.fmax Flt.abs B64.Below.fmax (fun h => h) h zero_below).le⟩

/-- **C130, order**: the LInf norm is at most the L1 norm and at least every magnitude, for all entries other than NaN. -/
theorem C130_order (v : RVec B64) (h : ∀ x ∈ v.list, x ≠ B64.nan) : ∃ d e, vecLInfNorm v = .ok d ∧ vecL1Norm v = .ok e ∧
    Flt.le d e = true ∧ ∀ x ∈ v.list, Flt.le (Flt.abs x) d = true := by
  obtain ⟨-, a2, a3, -⟩ := C24_machine v v
  refine ⟨_, _, a3, a2, ?_⟩
  have self : ∀ x : B64, x ≠ B64.nan → B64.Below (Flt.abs x) (Flt.abs x) := by
    rintro (⟨a, ha⟩ | s | _) hx
    · exact .inl ⟨|a|, ha.abs, |a|, ha.abs, rfl, rfl, abs_nonneg _, le_rfl⟩
    · exact .inr ⟨rfl, .inl rfl⟩
    · exact absurd rfl hx
  have key : ∀ (l : List B64) (s t : B64), (∀ x ∈ l, x ≠ B64.nan) → B64.Below s t →
      B64.Below ((l.map Flt.abs).foldl Flt.fmax s) ((l.map Flt.abs).foldl Flt.add t) ∧ B64.Below s ((l.map Flt.abs).foldl Flt.fmax s) ∧
      ∀ x ∈ l, B64.Below (Flt.abs x) ((l.map Flt.abs).foldl Flt.fmax s) := by
    intro l
    induction l with
    | nil => exact fun s t _ h => ⟨h, h.left, by simp⟩
    | cons a l ih =>
      intro s t hl hs
      have ha := self a (hl a (by simp))
      have p := hs.right.add ha.zero
      rw [(B64.add_zero_left hs.right).2] at p
      have q := hs.right.zero.add ha
      rw [(B64.add_zero_left ha).1] at q
      obtain ⟨k1, k2, k3⟩ := ih (Flt.fmax s (Flt.abs a)) (Flt.add t (Flt.abs a)) (fun x hx => hl x (by simp [hx])) ((hs.trans p).fmax_le q)
      have up : B64.Below s (Flt.fmax s (Flt.abs a)) ∧ B64.Below (Flt.abs a) (Flt.fmax s (Flt.abs a)) := by
        rcases hs.left.fmax_or ha with ⟨e, m⟩ | ⟨e, m⟩ <;> rw [e]
        · exact ⟨hs.left, m⟩
        · exact ⟨m, ha⟩
      refine ⟨k1, up.1.trans k2, fun x hx => ?_⟩
      rcases List.mem_cons.1 hx with rfl | hx
      · exact up.2.trans k2
      · exact k3 x hx
  obtain ⟨k1, -, k3⟩ := key v.list Flt.zero Flt.zero h zero_below
  exact ⟨k1.le, fun x hx => (k3 x hx).le⟩

/-- **C130, matrices**: the LInf norm of matrices is monotone as well, whatever the two storages are. -/
theorem C130_matrix {r c : Nat} {m n : Mat B64 r c} (hm : m.own) (hn : n.own) (hr : 0 < r) {A B : Nat → Nat → B64} (hA : Shows m.at r c A)
    (hB : Shows n.at r c B) (h : ∀ i j, i < r → j < c → Flt.le (Flt.abs (A i j)) (Flt.abs (B i j)) = true) :
    ∃ d e, m.lInfNorm = .ok d ∧ n.lInfNorm = .ok e ∧ Flt.le d e = true := by
  have col : ∀ j, j < c → ∀ k, k ≤ r → B64.Below (lsum 0 k (fun i => Flt.abs (A i j)) Flt.zero) (lsum 0 k (fun i => Flt.abs (B i j)) Flt.zero) := by
    intro j hj k
    induction k with
    | zero => exact fun _ => zero_below
    | succ k ih =>
      intro hk
      rw [lsum_succ (Nat.zero_le k), lsum_succ (Nat.zero_le k)]
      exact (ih (by omega)).add (B64.Below.of_le (h k j (by omega) hj))
  have all : ∀ k, k ≤ c → B64.Below
      ((List.range k).foldl (fun x j => Flt.fmax x (lsum 0 r (fun i => Flt.abs (A i j)) Flt.zero)) Flt.zero)
      ((List.range k).foldl (fun x j => Flt.fmax x (lsum 0 r (fun i => Flt.abs (B i j)) Flt.zero)) Flt.zero) := by
    intro k
    induction k with
    | zero => exact fun _ => zero_below
    | succ k ih =>
      intro hk
      rw [List.range_succ, List.foldl_append, List.foldl_append]
      exact (ih (by omega)).fmax (col k (by omega) r le_rfl)
  exact ⟨_, _, Mat.lInfNorm_eq hm hr hA, Mat.lInfNorm_eq hn hr hB, (all c le_rfl).le⟩

/-- **C130.**  The other inequality between norms is false: for the vector (2⁻⁶⁰⁰) the LInf norm is larger than the L2 norm, which is 0. -/
theorem C130_refuted : ∃ x d e : B64, B64.Is x (2 ^ (-600 : ℤ)) ∧ vecNorm (.arr [x]) = .ok d ∧ vecLInfNorm (.arr [x]) = .ok e ∧
    B64.Is d 0 ∧ B64.Is e (2 ^ (-600 : ℤ)) ∧ Flt.lt d e = true := by
  have hx := B64.Is.two (-600) (by norm_num) (by norm_num)
  generalize B64.two (-600) (by norm_num) (by norm_num) = x at hx
  obtain ⟨a1, -, a3, -⟩ := C24_machine (RVec.arr [x]) (.arr [x])
  have hd : B64.Is (Flt.sqrt (Spec.total ((RVec.arr [x]).list.map fun x => Flt.mul x x))) 0 := by
    obtain ⟨f1, v1⟩ := total_tiny [x] Flt.zero zero_fin val_zero (by simpa using hx.1) (by
      intro y hy
      obtain rfl := List.mem_singleton.1 hy
      rw [hx.2, abs_of_pos (zpow_pos (by norm_num) _), one_div, inv_pow, ← zpow_natCast, ← _root_.zpow_neg]
      exact zpow_le_zpow_right₀ (by norm_num) (by norm_num))
    have f2 := sqrt_ok f1 v1.ge
    have v2 := (sqrt_err f2).1
    rw [v1, Real.sqrt_zero, mul_zero, sub_zero] at v2
    exact ⟨f2, abs_nonpos_iff.1 v2⟩
  have he : B64.Is (((RVec.arr [x]).list.map Flt.abs).foldl Flt.fmax Flt.zero) (2 ^ (-600 : ℤ)) := by
    have a := hx.abs (abs_of_pos (zpow_pos (by norm_num) _))
    obtain ⟨f, v⟩ := max_fin (x := (Flt.zero : B64)) zero_fin a.1
    refine ⟨f, v.trans ?_⟩
    rw [a.2, val_zero]
    exact max_eq_right (zpow_pos (by norm_num) _).le
  refine ⟨x, _, _, hx, a1, a3, hd, he, (lt_iff hd.1 he.1).2 ?_⟩
  rw [hd.2, he.2]
  exact zpow_pos (by norm_num) _

/-- The hypotheses of `C130_monotone` are met by (1, -1) and (-2, 1). -/
example : List.Forall₂ (fun x y : B64 => Flt.le (Flt.abs x) (Flt.abs y) = true) (RVec.arr [Flt.one, Flt.neg Flt.one]).list
    (RVec.arr [Flt.neg Flt.two, Flt.one]).list := by
  refine .cons ?_ (.cons ?_ .nil)
  · refine B64.Below.le (.inl ⟨_, _, _, _, rfl, rfl, abs_nonneg _, ?_⟩)
    norm_num
  · refine B64.Below.le (.inl ⟨_, _, _, _, rfl, rfl, abs_nonneg _, ?_⟩)
    norm_num

/-- The hypotheses of `C130_matrix` are met by the matrices of two rows and columns filled with 1 and with -2. -/
example : ∃ (m n : Mat B64 2 2) (d e : B64), m.at 0 1 = .ok Flt.one ∧ n.at 0 1 = .ok (Flt.neg Flt.two) ∧
    m.lInfNorm = .ok d ∧ n.lInfNorm = .ok e ∧ Flt.le d e = true := by
  have sh : ∀ z : B64, Shows (Mat.arr (⟨⟨fun _ _ => z⟩, fun _ => 0⟩ : Arr B64 2 2)).at 2 2 fun _ _ => z :=
    fun z => Arr.at_shows (⟨⟨fun _ _ => z⟩, fun _ => 0⟩ : Arr B64 2 2)
  obtain ⟨d, e, h⟩ := C130_matrix (Mat.own_arr _) (Mat.own_arr _) (by norm_num) (sh Flt.one) (sh (Flt.neg Flt.two)) fun _ _ _ _ => by
    refine B64.Below.le (.inl ⟨_, _, _, _, rfl, rfl, abs_nonneg _, ?_⟩)
    norm_num
  exact ⟨_, _, d, e, (sh _).ok (i := 0) (j := 1) (by norm_num) (by norm_num), (sh _).ok (i := 0) (j := 1) (by norm_num) (by norm_num), h⟩

end Linear
