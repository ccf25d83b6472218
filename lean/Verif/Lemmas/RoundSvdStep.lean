import Verif.Lemmas.RoundSvdTurn

/-!
# The steps of the iteration of the singular value decomposition in rounded arithmetic
-/

set_option linter.unusedSectionVars false

namespace Linear

open Spec Rnd Matrix
open Finset hiding val diag

variable {α : Type} [Flt α] [Rnd α] {m n : Nat}

/-- The values of a slice. -/
noncomputable def Svd.vf (f : Nat → α) (i : Nat) : ℝ := val (f i)

theorem Svd.vf_upd (f : Nat → α) (i : Nat) (t : α) : Svd.vf (upd1 f i t) = upd1 (Svd.vf f) i (val t) := by
  funext j
  unfold Svd.vf
  rw [upd1_eq, upd1_eq]
  split <;> rfl

/-! ## Comparison of two matrices -/

/-- Two sequences that differ at two places by at most `δ`. -/
structure Svd.Cmp (δ : ℝ) (i j : Nat) (s s' : Nat → ℝ) : Prop where
  eq : ∀ a, a ≠ i → a ≠ j → s a = s' a
  le : ∀ a, |s a - s' a| ≤ δ

theorem Svd.Cmp.refl {δ : ℝ} (hδ : 0 ≤ δ) (i j : Nat) (s : Nat → ℝ) : Svd.Cmp δ i j s s :=
  ⟨fun _ _ _ => rfl, fun a => by rw [sub_self, abs_zero]; exact hδ⟩

theorem Svd.Cmp.one {δ : ℝ} (i : Nat) {s s' : Nat → ℝ} {x y : ℝ} (h : |x - y| ≤ δ) (hs : ∀ a, |s a - s' a| ≤ δ)
    (he : ∀ a, a ≠ i → s a = s' a) : Svd.Cmp δ i i (upd1 s i x) (upd1 s' i y) := by
  refine ⟨fun a h1 _ => by rw [upd1_eq, upd1_eq, if_neg h1, if_neg h1, he a h1], fun a => ?_⟩
  rw [upd1_eq, upd1_eq]
  split
  · exact h
  · exact hs a

theorem Svd.Cmp.upd {δ : ℝ} {j : Nat} (i : Nat) {s s' : Nat → ℝ} {x y : ℝ} (h : |x - y| ≤ δ) (hs : Svd.Cmp δ j j s s') :
    Svd.Cmp δ i j (upd1 s i x) (upd1 s' i y) := by
  refine ⟨fun a h1 h2 => by rw [upd1_eq, upd1_eq, if_neg h1, if_neg h1, hs.eq a h2 h2], fun a => ?_⟩
  rw [upd1_eq, upd1_eq]
  split
  · exact h
  · exact hs.le a

variable {δ : ℝ} {f f' g g' : ℝ} {s s' e e' : Nat → ℝ}

theorem Svd.bEnt_cmp (hδ : 0 ≤ δ) {i₁ i₂ j₁ j₂ : Nat} (hs : Svd.Cmp δ i₁ i₂ s s') (he : Svd.Cmp δ j₁ j₂ e e') :
    fro (mx n n (Bi.bEnt s e) - mx n n (Bi.bEnt s' e')) ≤ 3 * δ := by
  refine fro_few [(i₁, i₁), (i₂, i₂), (j₁, j₁ + 1), (j₂, j₂ + 1)] hδ (by norm_num) (by norm_num) (fun a b _ => ?_)
    fun a b h => ?_
  · show |Bi.bEnt s e a b - Bi.bEnt s' e' a b| ≤ δ
    rw [Svd.bEnt_exact, Svd.bEnt_exact]
    split_ifs
    · exact hs.le _
    · exact he.le _
    · rw [sub_self, abs_zero]; exact hδ
  · show Bi.bEnt s e a b - Bi.bEnt s' e' a b = 0
    simp only [List.mem_cons, Prod.mk.injEq, List.not_mem_nil, or_false, not_or] at h
    rw [Svd.bEnt_exact, Svd.bEnt_exact, sub_eq_zero]
    split_ifs
    · exact hs.eq _ (by omega) (by omega)
    · exact he.eq _ (by omega) (by omega)
    · rfl

theorem Svd.WD_cmp (hδ : 0 ≤ δ) {p k i i₁ i₂ j₁ j₂ : Nat} (hf : k < i → |f - f'| ≤ δ) (hs : Svd.Cmp δ i₁ i₂ s s')
    (he : Svd.Cmp δ j₁ j₂ e e') :
    fro (mx n n (Svd.WD p k i f s e) - mx n n (Svd.WD p k i f' s' e')) ≤ 3 * δ := by
  refine fro_few [(i - 1, p - 1), (i₁, i₁), (i₂, i₂), (j₁, j₁ + 1), (j₂, j₂ + 1)] hδ (by norm_num) (by norm_num)
    (fun a b _ => ?_) fun a b h => ?_
  · show |Svd.WD p k i f s e a b - Svd.WD p k i f' s' e' a b| ≤ δ
    unfold Svd.WD
    rw [Svd.bEnt_exact, Svd.bEnt_exact]
    split_ifs with c
    · exact hf c.1
    · exact hs.le _
    · exact he.le _
    · rw [sub_self, abs_zero]; exact hδ
  · show Svd.WD p k i f s e a b - Svd.WD p k i f' s' e' a b = 0
    simp only [List.mem_cons, Prod.mk.injEq, List.not_mem_nil, or_false, not_or] at h
    unfold Svd.WD
    rw [Svd.bEnt_exact, Svd.bEnt_exact, sub_eq_zero]
    split_ifs
    · omega
    · exact hs.eq _ (by omega) (by omega)
    · exact he.eq _ (by omega) (by omega)
    · rfl

theorem Svd.WS_cmp (hδ : 0 ≤ δ) {p k j i₁ i₂ j₁ j₂ : Nat} (hf : |f - f'| ≤ δ) (hs : Svd.Cmp δ i₁ i₂ s s')
    (he : Svd.Cmp δ j₁ j₂ e e') :
    fro (mx n n (Svd.WS p k j f s e) - mx n n (Svd.WS p k j f' s' e')) ≤ 3 * δ := by
  refine fro_few [(k - 1, j), (i₁, i₁), (i₂, i₂), (j₁, j₁ + 1), (j₂, j₂ + 1)] hδ (by norm_num) (by norm_num)
    (fun a b _ => ?_) fun a b h => ?_
  · show |Svd.WS p k j f s e a b - Svd.WS p k j f' s' e' a b| ≤ δ
    unfold Svd.WS
    rw [Svd.bEnt_exact, Svd.bEnt_exact]
    split_ifs with c
    · exact hf
    · exact hs.le _
    · exact he.le _
    · rw [sub_self, abs_zero]; exact hδ
  · show Svd.WS p k j f s e a b - Svd.WS p k j f' s' e' a b = 0
    simp only [List.mem_cons, Prod.mk.injEq, List.not_mem_nil, or_false, not_or] at h
    unfold Svd.WS
    rw [Svd.bEnt_exact, Svd.bEnt_exact, sub_eq_zero]
    split_ifs
    · omega
    · exact hs.eq _ (by omega) (by omega)
    · exact he.eq _ (by omega) (by omega)
    · rfl

theorem Svd.WC_cmp (hδ : 0 ≤ δ) {k j i₁ i₂ j₁ j₂ : Nat} (hf : |f - f'| ≤ δ) (hg : |g - g'| ≤ δ) (hs : Svd.Cmp δ i₁ i₂ s s')
    (he : Svd.Cmp δ j₁ j₂ e e') :
    fro (mx n n (Svd.WC k j f g s e) - mx n n (Svd.WC k j f' g' s' e')) ≤ 3 * δ := by
  refine fro_few [(j - 1, j), (j - 1, j + 1), (i₁, i₁), (i₂, i₂), (j₁, j₁ + 1), (j₂, j₂ + 1)] hδ (by norm_num)
    (by norm_num) (fun a b _ => ?_) fun a b h => ?_
  · show |Svd.WC k j f g s e a b - Svd.WC k j f' g' s' e' a b| ≤ δ
    unfold Svd.WC
    rw [Svd.bEnt_exact, Svd.bEnt_exact]
    split_ifs
    · exact hs.le _
    · exact hf
    · exact hg
    · rw [sub_self, abs_zero]; exact hδ
    · exact hs.le _
    · exact he.le _
    · rw [sub_self, abs_zero]; exact hδ
  · show Svd.WC k j f g s e a b - Svd.WC k j f' g' s' e' a b = 0
    simp only [List.mem_cons, Prod.mk.injEq, List.not_mem_nil, or_false, not_or] at h
    unfold Svd.WC
    rw [Svd.bEnt_exact, Svd.bEnt_exact, sub_eq_zero]
    split_ifs
    · exact hs.eq _ (by omega) (by omega)
    · omega
    · omega
    · rfl
    · exact hs.eq _ (by omega) (by omega)
    · exact he.eq _ (by omega) (by omega)
    · rfl

theorem Svd.WM_cmp (hδ : 0 ≤ δ) {j i₁ i₂ j₁ j₂ : Nat} (hf : |f - f'| ≤ δ) (hg : |g - g'| ≤ δ) (hs : Svd.Cmp δ i₁ i₂ s s')
    (he : Svd.Cmp δ j₁ j₂ e e') :
    fro (mx n n (Svd.WM j f g s e) - mx n n (Svd.WM j f' g' s' e')) ≤ 3 * δ := by
  refine fro_few [(j, j), (j + 1, j), (i₁, i₁), (i₂, i₂), (j₁, j₁ + 1), (j₂, j₂ + 1)] hδ (by norm_num)
    (by norm_num) (fun a b _ => ?_) fun a b h => ?_
  · show |Svd.WM j f g s e a b - Svd.WM j f' g' s' e' a b| ≤ δ
    unfold Svd.WM
    rw [Svd.bEnt_exact, Svd.bEnt_exact]
    split_ifs <;> first | exact hf | exact hg | exact hs.le _ | exact he.le _ | (rw [sub_self, abs_zero]; exact hδ)
  · show Svd.WM j f g s e a b - Svd.WM j f' g' s' e' a b = 0
    simp only [List.mem_cons, Prod.mk.injEq, List.not_mem_nil, or_false, not_or] at h
    unfold Svd.WM
    rw [Svd.bEnt_exact, Svd.bEnt_exact, sub_eq_zero]
    split_ifs <;> first | rfl | (exfalso; omega) | exact hs.eq _ (by omega) (by omega) | exact he.eq _ (by omega) (by omega)

/-! ## Single entries -/

/-- Bounds of the entries and their errors. -/
structure Svd.Scale (α : Type) [Flt α] [Rnd α] (ε κ β : ℝ) : Prop where
  unit : NV.Unit α ε κ β
  room : 16 * β ≤ Rnd.big α
  κle : κ ≤ β / 100 + 1 / 100

variable {ε κ β c sn : ℝ}

theorem Svd.Scale.mul (H : Svd.Scale α ε κ β) {q x : α} (hq : fin q) (eq : |val q - c| ≤ 8 * ε) (hc : |c| ≤ 1)
    (hx : fin x) (bx : |val x| ≤ β) : NV κ β (Flt.mul q x) (c * val x) 11 1 := by
  have hb := big_le (α := α)
  have h0 := H.unit.β0
  have h1 := H.room
  have x0 : NV κ β x (val x) 0 1 := NV.exact hx (by rw [one_mul]; exact bx)
  exact NV.mul H.unit x0 le_rfl (by norm_num) hq eq (by norm_num) hc (by linarith) (by norm_num) (by norm_num)

theorem Svd.Scale.neg_mul (H : Svd.Scale α ε κ β) {q x : α} (hq : fin q) (eq : |val q - c| ≤ 8 * ε) (hc : |c| ≤ 1)
    (hx : fin x) (bx : |val x| ≤ β) : NV κ β (Flt.mul (Flt.neg q) x) (-c * val x) 11 1 :=
  H.mul (neg_fin.2 hq) (by rw [val_neg hq, show -val q - -c = -(val q - c) by ring, abs_neg]; exact eq)
    (by rw [abs_neg]; exact hc) hx bx

theorem Svd.Scale.add (H : Svd.Scale α ε κ β) {x y : α} {X Y : ℝ} (hx : NV κ β x X 11 1) (hy : NV κ β y Y 11 1) :
    fin (Flt.add x y) ∧ |val (Flt.add x y) - (X + Y)| ≤ 25 * κ := by
  have hb := big_le (α := α)
  have h0 := H.unit.β0
  have h1 := H.room
  have h2 := H.κle
  have := NV.add (k := 25) (B := 2) H.unit hx hy (by norm_num) (by norm_num) (by linarith)
    (by have := abs_add_le X Y; have := hx.size; have := hy.size; linarith) (by norm_num)
  exact ⟨this.fin, this.err⟩

theorem Svd.Scale.sub (H : Svd.Scale α ε κ β) {x y : α} {X Y : ℝ} (hx : NV κ β x X 11 1) (hy : NV κ β y Y 11 1) :
    fin (Flt.sub x y) ∧ |val (Flt.sub x y) - (X - Y)| ≤ 25 * κ := by
  have hb := big_le (α := α)
  have h0 := H.unit.β0
  have h1 := H.room
  have h2 := H.κle
  have := NV.sub (k := 25) (B := 2) H.unit hx hy (by norm_num) (by norm_num) (by linarith)
    (by have := abs_sub X Y; have := hx.size; have := hy.size; linarith) (by norm_num)
  exact ⟨this.fin, this.err⟩

theorem Svd.Scale.e25 (H : Svd.Scale α ε κ β) {x : α} {X : ℝ} (hx : NV κ β x X 11 1) : |val x - X| ≤ 25 * κ :=
  hx.err.trans (mul_le_mul_of_nonneg_right (by norm_num) H.unit.κ0)

/-- The error of the norm of a pair of entries. -/
theorem Svd.Scale.hyp (H : Svd.Scale α ε κ β) {t r a b : ℝ} (hr : r = √(a ^ 2 + b ^ 2)) (ha : |a| ≤ β) (hb : |b| ≤ β)
    (ht : |t - r| ≤ 4 * ε * r) : |t - r| ≤ 25 * κ := by
  have hβ := H.unit.β0
  have r2 : r ≤ 2 * β := by
    rw [hr]
    refine Real.sqrt_le_iff.2 ⟨by linarith, ?_⟩
    have h1 := sq_le_sq' (abs_le.1 ha).1 (abs_le.1 ha).2
    have h2 := sq_le_sq' (abs_le.1 hb).1 (abs_le.1 hb).2
    nlinarith
  have h1 := mul_le_mul_of_nonneg_left r2 H.unit.e0
  have h2 := H.unit.eβ
  have h3 := H.unit.κ0
  linarith

/-- A zero times something. -/
theorem mul_zero_val {x y : α} (h : fin (Flt.mul x y)) (hy : val y = 0) : val (Flt.mul x y) = 0 := by
  have h1 := (mul_err h).1
  rw [hy, mul_zero, abs_zero, mul_zero, _root_.zero_add, sub_zero] at h1
  rcases fin_tiny h with h2 | h2
  · exact h2
  · have := η_nonneg (α := α)
    have h3 : |val (Flt.mul x y)| ≤ 0 := by linarith
    exact abs_nonpos_iff.1 h3

end Linear
