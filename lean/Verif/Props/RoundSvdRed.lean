import Verif.Lemmas.RoundSvdGen
import Verif.Props.RoundSvd
import Verif.Props.Svd

/-!
# C116: the singular value decomposition in rounded arithmetic

`fro M` is the Frobenius norm.  The theorems hold for every arithmetic that satisfies `Rnd`, in particular for `B64`.
`rotErr ε ω E b k` is `(1 + ε)^k (E + b + k ω) - b`: about `E + k (ε b + ω)`.
-/

set_option linter.unusedSectionVars false

namespace Linear

open Spec Rnd Matrix
open Finset hiding val diag

/-- The error of the at most `2 n` reflections of the reduction of an `m × n` matrix to bidiagonal form, for a matrix of norm `b`: about
`2 n (50 (m + 2) ε b + 7 m √m η)`. -/
noncomputable def Spec.redErr (m n : Nat) (ε η b : ℝ) : ℝ := rotErr (50 * (m + 2) * ε) (√m * (7 * (m * η))) 0 b (2 * n)

/-- The error of a factor with `p` rows and `n` columns after the `K` rotations of the iteration. -/
noncomputable def Spec.svdFac (m n p K : Nat) (ε η : ℝ) : ℝ :=
  redErr m n ε η √n + rotErr (22 * ε) (√p * (5 * η)) 0 (√n + redErr m n ε η √n) K

/-- `U`, `σ` and `V` are nearly a singular value decomposition of the `m × n` matrix `A`: the values are not negative and sorted,
and there are exactly orthonormal columns near to those of `U` and `V` with which they make up nearly `A`. -/
structure Spec.NearSvd (m n K : Nat) (ε ω η : ℝ) (A U V : Nat → Nat → ℝ) (σ : Nat → ℝ) : Prop where
  pos : ∀ i, i < n → 0 ≤ σ i
  sorted : ∀ i, i + 1 < n → σ (i + 1) ≤ σ i
  near : ∃ (U₀ : Matrix (Fin m) (Fin n) ℝ) (V₀ : Matrix (Fin n) (Fin n) ℝ), U₀ᵀ * U₀ = 1 ∧ V₀ᵀ * V₀ = 1 ∧
    fro (mx m n U - U₀) ≤ svdFac m n m K ε η ∧ fro (mx n n V - V₀) ≤ svdFac m n n K ε η ∧
    fro (mx m n A - U₀ * Matrix.diagonal (fun i : Fin n => σ i) * V₀ᵀ) ≤
      redErr m n ε η (fro (mx m n A)) + rotErr (75 * ε) (75 * ω) 0 (fro (mx m n A) + redErr m n ε η (fro (mx m n A))) K

section round

variable {α : Type} [Flt α] [Rnd α] {m n r c : Nat}

theorem fro_eq (M : Matrix (Fin m) (Fin n) ℝ) : fro M = √(Mᵀ * M).trace := by
  unfold fro
  congr 1
  rw [Matrix.trace, Finset.sum_comm]
  refine Finset.sum_congr rfl fun j _ => ?_
  rw [Matrix.diag_apply, Matrix.mul_apply]
  exact Finset.sum_congr rfl fun i _ => by rw [Matrix.transpose_apply, pow_two]

/-- Orthonormal columns keep the norm. -/
theorem fro_iso {p : Nat} {U : Matrix (Fin m) (Fin n) ℝ} (h : Uᵀ * U = 1) (M : Matrix (Fin n) (Fin p) ℝ) : fro (U * M) = fro M := by
  rw [fro_eq, fro_eq, Matrix.transpose_mul, Matrix.mul_assoc, ← Matrix.mul_assoc Uᵀ, h, Matrix.one_mul]

theorem fro_cols {U : Matrix (Fin m) (Fin n) ℝ} (h : Uᵀ * U = 1) : fro U = √n := by
  rw [fro_eq, h, Matrix.trace_one, Fintype.card_fin]

theorem rotErr_up {ε ω b b' : ℝ} (hε : 0 ≤ ε) (h : b ≤ b') (k : Nat) : rotErr ε ω 0 b k ≤ rotErr ε ω 0 b' k := by
  unfold rotErr
  have h1 : 1 ≤ (1 + ε) ^ k := one_le_pow₀ (by linarith)
  have h2 := mul_nonneg (sub_nonneg.2 h1) (sub_nonneg.2 h)
  linarith

theorem Svd.fac_near {p K : Nat} {ε η' ρ : ℝ} {U X : Matrix (Fin p) (Fin n) ℝ} {P : Matrix (Fin n) (Fin n) ℝ}
    {Y : Matrix (Fin p) (Fin n) ℝ} (oU : Uᵀ * U = 1) (oP : P * Pᵀ = 1) (he : 0 ≤ 22 * ε) (h1 : fro (X - U) ≤ ρ)
    (h2 : fro (Y - X * P) ≤ rotErr (22 * ε) (√p * (5 * η')) 0 (fro X) K) :
    fro (Y - U * P) ≤ ρ + rotErr (22 * ε) (√p * (5 * η')) 0 (√n + ρ) K := by
  have nX : fro X ≤ √n + ρ := by
    have h := fro_add_le U (X - U)
    rw [add_sub_cancel, fro_cols oU] at h
    linarith
  have key : Y - U * P = (X - U) * P + (Y - X * P) := by rw [Matrix.sub_mul]; abel
  rw [key]
  refine (fro_add_le _ _).trans (add_le_add ?_ (h2.trans (rotErr_up he nX K)))
  rwa [fro_right oP]

/-- **C116, reduction.** The reduction of an `m × n` matrix to bidiagonal form does not fail.  When its results are finite, there are
exactly orthonormal columns `U`, `V` near to the two computed factors, and the matrix is near to `U B Vᵀ`, where `B` is the bidiagonal
matrix with the computed entries. -/
theorem C116_reduction {hyp : α → α → α} {ε : ℝ} (he : u α ≤ ε) (hM : (m + 4) * ε ≤ 1 / 250) (H : HypNear ε hyp) (hn : 0 < n)
    (hm : n ≤ m) (a : Tab α m n) :
    ∃ x, Svd.reduce hyp a = .ok x ∧ val (x.e.f (n - 1)) = 0 ∧ ((∀ i, i < n → fin (x.s.f i)) → (∀ i, i < n → fin (x.e.f i)) →
      (∀ i j, i < m → j < n → fin (x.u.f i j)) → (∀ i j, i < n → j < n → fin (x.v.f i j)) →
      (∀ i j, i < m → j < n → fin (a.f i j)) ∧
      ∃ (B : Nat → Nat → ℝ) (U : Matrix (Fin m) (Fin n) ℝ) (V : Matrix (Fin n) (Fin n) ℝ),
        (∀ i, i < n → B i i = val (x.s.f i)) ∧ (∀ i, i + 1 < n → B i (i + 1) = val (x.e.f i)) ∧
        (∀ i j, i < n → j < n → j ≠ i → j ≠ i + 1 → B i j = 0) ∧ Uᵀ * U = 1 ∧ Vᵀ * V = 1 ∧
        fro ((mx m n fun i j => val (x.u.f i j)) - U) ≤ redErr m n ε (η α) √n ∧
        fro ((mx n n fun i j => val (x.v.f i j)) - V) ≤ redErr m n ε (η α) √n ∧
        fro ((mx m n fun i j => val (a.f i j)) - U * mx n n B * Vᵀ) ≤
          redErr m n ε (η α) (fro (mx m n fun i j => val (a.f i j)))) := by
  obtain ⟨x, e, h0, h⟩ := Svd.reduce_round (N := m) le_rfl he hM H hn hm a
  refine ⟨x, e, h0, fun f1 f2 f3 f4 => ?_⟩
  obtain ⟨g0, U, V, g1, g2, g3, g4, g5⟩ := h f1 f2 f3 f4
  rw [fro_cols (Svd.I_orth hm)] at g3
  rw [fro_cols (show (1 : Matrix (Fin n) (Fin n) ℝ)ᵀ * 1 = 1 by simp)] at g4
  refine ⟨g0, _, U, V, fun i _ => ?_, fun i _ => ?_, fun i j _ _ h1 h2 => ?_, g1, g2, g3, g4, g5⟩
  · unfold Bi.bEnt; rw [if_pos rfl]; rfl
  · unfold Bi.bEnt; rw [if_neg (by omega), if_pos rfl]; rfl
  · unfold Bi.bEnt; rw [if_neg h1, if_neg h2]; exact Exact.zero_eq

/-- The bidiagonal form computed for the `m × n` matrix `A` and its two factors are finite. -/
def Spec.RedFin (hyp : α → α → α) (m n : Nat) (A : Nat → Nat → α) : Prop :=
  ∀ (t : Tab α m n) (x : Svd.St α m n), (∀ i j, i < m → j < n → t.f i j = A i j) → Svd.reduce hyp t = .ok x →
    (∀ i, i < n → fin (x.s.f i)) ∧ (∀ i, i < n → fin (x.e.f i)) ∧
    (∀ i j, i < m → j < n → fin (x.u.f i j)) ∧ ∀ i j, i < n → j < n → fin (x.v.f i j)

/-- **C116, the construction on tall data.** -/
theorem C116_core {κ : Svd.Lit α} {ε ω : ℝ} (he : u α ≤ ε) (hM : (m + 4) * ε ≤ 1 / 250) (hω : η α ≤ ω) (hω1 : ω ≤ 1 / 100)
    (hyp : HypNear ε κ.hyp) (f1 : fin κ.eps) (b1 : |val κ.eps| ≤ ε) (f2 : fin κ.tiny) (b2 : |val κ.tiny| ≤ ω) (hn : 0 < n)
    (hm : n ≤ m) (fuel : Nat) {a : Tab α m n} {A : Nat → Nat → α} (hA : ∀ i j, i < m → j < n → a.f i j = A i j)
    (F : RedFin κ.hyp m n A) {N : ℝ}
    (hN : N = fro (mx m n fun i j => val (A i j)) + redErr m n ε (η α) (fro (mx m n fun i j => val (A i j))))
    (room : 16 * (rotErr (75 * ε) (75 * ω) 0 N (fuel * (2 * n + 2)) + N) ≤ big α) :
    ∃ o, Svd.core κ fuel a = .ok o ∧ ∀ y, o = some y → (∀ i j, i < m → j < n → fin (y.u.f i j)) →
      (∀ i j, i < n → j < n → fin (y.v.f i j)) → (∀ i, i < n → fin (y.s.f i)) ∧
      NearSvd m n (fuel * (2 * n + 2)) ε ω (η α) (fun i j => val (A i j)) (fun i j => val (y.u.f i j)) (fun i j => val (y.v.f i j))
        fun i => val (y.s.f i) := by
  have e0 : 0 ≤ ε := (u_nonneg (α := α)).trans he
  have hη := η_nonneg (α := α)
  have he1 : ε ≤ 1 / 100 := by
    have : 0 ≤ (m : ℝ) * ε := by positivity
    linarith
  obtain ⟨x, ex, x0, hx⟩ := C116_reduction he hM hyp hn hm a
  obtain ⟨g1, g2, g3, g4⟩ := F a x hA ex
  obtain ⟨-, B, U, V, k1, k2, k3, oU, oV, eU, eV, eA⟩ := hx g1 g2 g3 g4
  have eqA : (mx m n fun i j => val (a.f i j)) = mx m n fun i j => val (A i j) := mx_congr fun i j hi hj => by rw [hA i j hi hj]
  rw [eqA] at eA
  have oV' : V * Vᵀ = 1 := mul_eq_one_comm.1 oV
  have nB : fro (mx n n B) ≤ N := by
    have : fro (mx n n B) = fro (U * mx n n B * Vᵀ) := by
      rw [fro_right (by rw [Matrix.transpose_transpose]; exact oV), fro_iso oU]
    rw [this, hN]
    have h := fro_add_le (mx m n fun i j => val (A i j)) (-((mx m n fun i j => val (A i j)) - U * mx n n B * Vᵀ))
    rw [fro_neg, neg_sub, add_sub_cancel] at h
    linarith
  have up := fun (E W : ℝ) (hE : 0 ≤ E) => rotErr_up (ω := W) hE nB (fuel * (2 * n + 2))
  obtain ⟨o, eo, H⟩ := C115_iteration he he1 hω hω1 hyp f1 b1 f2 b2 hm fuel g1 g2 x0 k1 k2 k3
    (by linarith [up (75 * ε) (75 * ω) (by positivity)])
  refine ⟨o, ?_, fun y hy hu hv => ?_⟩
  · unfold Svd.core
    rw [if_neg (by omega)]
    show (Svd.reduce κ.hyp a >>= fun x => Svd.loop κ fuel n x) = _
    rw [ex, ok_bind, eo]
  obtain ⟨q1, q2, P, Q, oP, oQ, w1, w2, w3⟩ := H y hy hu hv
  refine ⟨fun i hi => (q1 i hi).1, fun i hi => (q1 i hi).2, q2, U * P, V * Q, ?_, ?_, ?_, ?_, ?_⟩
  · rw [Matrix.transpose_mul, Matrix.mul_assoc, ← Matrix.mul_assoc Uᵀ, oU, Matrix.one_mul, oP]
  · rw [Matrix.transpose_mul, Matrix.mul_assoc, ← Matrix.mul_assoc Vᵀ, oV, Matrix.one_mul, oQ]
  · exact Svd.fac_near oU (mul_eq_one_comm.1 oP) (by positivity) eU w1
  · exact Svd.fac_near oV (mul_eq_one_comm.1 oQ) (by positivity) eV w2
  · have key : (mx m n fun i j => val (A i j)) - U * P * Matrix.diagonal (fun i : Fin n => val (y.s.f i)) * (V * Q)ᵀ =
        ((mx m n fun i j => val (A i j)) - U * mx n n B * Vᵀ) +
          U * ((mx n n B - P * Matrix.diagonal (fun i : Fin n => val (y.s.f i)) * Qᵀ) * Vᵀ) := by
      rw [Matrix.sub_mul, Matrix.mul_sub, Matrix.transpose_mul]
      simp only [Matrix.mul_assoc]
      abel
    rw [key]
    refine (fro_add_le _ _).trans (add_le_add eA ?_)
    rw [fro_iso oU, fro_right (by rw [Matrix.transpose_transpose]; exact oV), ← hN]
    exact w3.trans (up _ _ (by positivity))

/-- **C116, `NewSingularValueDecomposition`** for a matrix with at least as many rows as columns: the construction does not fail, and
when it ends within `fuel` rounds with finite factors, these and the singular values are nearly a decomposition. -/
theorem C116_tall {κ : Svd.Lit α} {ε ω : ℝ} (he : u α ≤ ε) (hM : (r + 4) * ε ≤ 1 / 250) (hω : η α ≤ ω) (hω1 : ω ≤ 1 / 100)
    (hyp : HypNear ε κ.hyp) (f1 : fin κ.eps) (b1 : |val κ.eps| ≤ ε) (f2 : fin κ.tiny) (b2 : |val κ.tiny| ≤ ω) (hc : 0 < c)
    (hrc : c ≤ r) (fuel : Nat) {a : Mat α r c} (ha : a.own) {A : Nat → Nat → α} (hA : Shows a.at r c A)
    (F : RedFin κ.hyp r c A) {N : ℝ}
    (hN : N = fro (mx r c fun i j => val (A i j)) + redErr r c ε (η α) (fro (mx r c fun i j => val (A i j))))
    (room : 16 * (rotErr (75 * ε) (75 * ω) 0 N (fuel * (2 * c + 2)) + N) ≤ big α) :
    Svd.new κ fuel a = .ok none ∨ ∃ s U V σ, Svd.new κ fuel a = .ok (some s) ∧ HoldsSvd s r c c U V σ ∧
      ((∀ i j, i < r → j < c → fin (U i j)) → (∀ i j, i < c → j < c → fin (V i j)) →
        (∀ i, i < c → fin (σ i)) ∧
        NearSvd r c (fuel * (2 * c + 2)) ε ω (η α) (fun i j => val (A i j)) (fun i j => val (U i j)) (fun i j => val (V i j))
          fun i => val (σ i)) := by
  rcases Svd.new_ok κ fuel ha (by omega) hc hA with ⟨-, t, ht, ho⟩ | ⟨h, -⟩
  · obtain ⟨o, eo, H⟩ := C116_core he hM hω hω1 hyp f1 b1 f2 b2 hc hrc fuel ht F hN room
    obtain ⟨h1, h2⟩ := ho o eo
    cases o with
    | none => exact .inl (h1 rfl)
    | some x =>
      obtain ⟨s, es, hs, -⟩ := h2 x rfl
      rw [min_eq_right hrc] at hs
      exact .inr ⟨s, _, _, _, es, hs, H x rfl⟩
  · omega

/-- **C116, `NewSingularValueDecomposition`** for a matrix with more columns than rows: the transposed matrix is decomposed. -/
theorem C116_wide {κ : Svd.Lit α} {ε ω : ℝ} (he : u α ≤ ε) (hM : (c + 4) * ε ≤ 1 / 250) (hω : η α ≤ ω) (hω1 : ω ≤ 1 / 100)
    (hyp : HypNear ε κ.hyp) (f1 : fin κ.eps) (b1 : |val κ.eps| ≤ ε) (f2 : fin κ.tiny) (b2 : |val κ.tiny| ≤ ω) (hr : 0 < r)
    (hrc : r < c) (fuel : Nat) {a : Mat α r c} (ha : a.own) {A : Nat → Nat → α} (hA : Shows a.at r c A)
    (F : RedFin κ.hyp c r fun i j => A j i) {N : ℝ}
    (hN : N = fro (mx c r fun i j => val (A j i)) + redErr c r ε (η α) (fro (mx c r fun i j => val (A j i))))
    (room : 16 * (rotErr (75 * ε) (75 * ω) 0 N (fuel * (2 * r + 2)) + N) ≤ big α) :
    Svd.new κ fuel a = .ok none ∨ ∃ s U V σ, Svd.new κ fuel a = .ok (some s) ∧ HoldsSvd s r c r U V σ ∧
      ((∀ i j, i < r → j < r → fin (U i j)) → (∀ i j, i < c → j < r → fin (V i j)) →
        (∀ i, i < r → fin (σ i)) ∧
        NearSvd c r (fuel * (2 * r + 2)) ε ω (η α) (fun i j => val (A j i)) (fun i j => val (V i j)) (fun i j => val (U i j))
          fun i => val (σ i)) := by
  rcases Svd.new_ok κ fuel ha hr (by omega) hA with ⟨h, -⟩ | ⟨-, t, ht, ho⟩
  · omega
  · obtain ⟨o, eo, H⟩ := C116_core he hM hω hω1 hyp f1 b1 f2 b2 hr hrc.le fuel ht F hN room
    obtain ⟨h1, h2⟩ := ho o eo
    cases o with
    | none => exact .inl (h1 rfl)
    | some x =>
      obtain ⟨s, es, hs, -⟩ := h2 x rfl
      rw [min_eq_left hrc.le] at hs
      exact .inr ⟨s, _, _, _, es, hs, fun g1 g2 => H x rfl g2 g1⟩

end round

/-- **C116, binary64**, with the literals of the code and `math.Hypot` where its result is not below `2⁻¹⁰⁰⁰`, for a matrix with at
least as many rows as columns and up to `2⁴⁰` rows. -/
theorem C116_binary64 {r c : Nat} {κ : Svd.Lit B64} (L : B64.SvdLit κ) (hyp : κ.hyp = B64.guard ((1 / 2) ^ 1000) B64.hypot)
    (hc : 0 < c) (hrc : c ≤ r) (hr : r ≤ 2 ^ 40) (fuel : Nat) {a : Mat B64 r c} (ha : a.own) {A : Nat → Nat → B64}
    (hA : Shows a.at r c A) (F : RedFin κ.hyp r c A) {N : ℝ}
    (hN : N = fro (mx r c fun i j => val (A i j)) +
      redErr r c ((1 / 2) ^ 52) ((1 / 2) ^ 1075) (fro (mx r c fun i j => val (A i j))))
    (room : 16 * (rotErr (75 * (1 / 2) ^ 52) (75 * (1 / 2) ^ 966) 0 N (fuel * (2 * c + 2)) + N) ≤ 2 ^ 1023) :
    Svd.new κ fuel a = .ok none ∨ ∃ s U V σ, Svd.new κ fuel a = .ok (some s) ∧ HoldsSvd s r c c U V σ ∧
      ((∀ i j, i < r → j < c → fin (U i j)) → (∀ i j, i < c → j < c → fin (V i j)) →
        (∀ i, i < c → fin (σ i)) ∧
        NearSvd r c (fuel * (2 * c + 2)) ((1 / 2) ^ 52) ((1 / 2) ^ 966) ((1 / 2) ^ 1075) (fun i j => val (A i j))
          (fun i j => val (U i j)) (fun i j => val (V i j)) fun i => val (σ i)) := by
  have hu : u B64 = (1 / 2) ^ 53 := rfl
  have hη : η B64 = (1 / 2) ^ 1075 := rfl
  have h2u : 2 * u B64 = (1 / 2) ^ 52 := by rw [hu]; norm_num
  have hp : ((1 : ℝ) / 2) ^ 966 ≤ (1 / 2) ^ 10 := pow_le_pow_of_le_one (by norm_num) (by norm_num) (by norm_num)
  have hn := B64.guard_near
  rw [h2u] at hn
  have hr' : (r : ℝ) ≤ 2 ^ 40 := by exact_mod_cast hr
  rw [← hη] at hN ⊢
  exact C116_tall (κ := κ) (ε := (1 / 2) ^ 52) (ω := (1 / 2) ^ 966) (by rw [← h2u]; linarith [u_nonneg (α := B64)])
    ((mul_le_mul_of_nonneg_right (add_le_add hr' le_rfl) (by positivity)).trans (by norm_num))
    (by rw [hη]; exact pow_le_pow_of_le_one (by norm_num) (by norm_num) (by norm_num))
    (hp.trans (by norm_num)) (by rw [hyp]; exact hn) L.eps_fin
    (by rw [L.eps, abs_of_nonneg (by positivity)]) L.tiny_fin (by rw [L.tiny, abs_of_nonneg (by positivity)]) hc hrc fuel ha hA F hN
    room

/-! ## A case -/

theorem B64.guard_zero {a b : B64} (ha : B64.Is a 0) (hb : B64.Is b 0) :
    B64.Is (B64.guard ((1 / 2) ^ 1000) B64.hypot a b) 0 := by
  have e1 : (Flt.isInf a || Flt.isInf b) = false := by rw [isInf_fin ha.1, isInf_fin hb.1]; rfl
  have e2 : (Flt.isNaN a || Flt.isNaN b) = false := by rw [isNaN_fin ha.1, isNaN_fin hb.1]; rfl
  have a1 : B64.Is (Flt.abs a) 0 := ha.abs (by norm_num)
  have b1 : B64.Is (Flt.abs b) 0 := hb.abs (by norm_num)
  have E : B64.hypot a b = Flt.zero := by
    unfold B64.hypot
    rw [e1, e2, if_neg Bool.false_ne_true, if_neg Bool.false_ne_true]
    dsimp only
    rw [if_pos]
    split
    · exact (eq_iff b1.1 zero_fin).2 (by rw [b1.2, val_zero])
    · exact (eq_iff a1.1 zero_fin).2 (by rw [a1.2, val_zero])
  unfold B64.guard
  rw [E, if_pos ⟨.inl ⟨ha.2, hb.2⟩, ha.1, hb.1, zero_fin⟩]
  exact B64.Is.zero

/-- The reduction of ((0, 4), (0, 0)). -/
theorem Svd.case_reduce {hyp : B64 → B64 → B64} (hh' : hyp = B64.guard ((1 / 2) ^ 1000) B64.hypot) {t : Tab B64 2 2}
    (t0 : B64.Is (t.f 0 0) 0) (t1 : B64.Is (t.f 1 0) 0) (t2 : B64.Is (t.f 0 1) 4) (t3 : B64.Is (t.f 1 1) 0) :
    ∃ x, Svd.reduce hyp t = .ok x ∧ B64.Is (x.s.f 0) 0 ∧ B64.Is (x.s.f 1) 0 ∧ B64.Is (x.e.f 0) 4 ∧ B64.Is (x.e.f 1) 0 ∧
      (∀ i j, i < 2 → j < 2 → B64.Is (x.u.f i j) (if i = j then 1 else 0)) ∧
      ∀ i j, i < 2 → j < 2 → B64.Is (x.v.f i j) (if i = j then 1 else 0) := by
  have hunit : ∀ j i : Nat, B64.Is (Svd.unit B64 j i) (if i = j then 1 else 0) := fun j i => by
    unfold Svd.unit
    split
    exacts [B64.Is.one, B64.Is.zero]
  unfold Svd.reduce
  rw [show max (min (2 - 1) 2) (2 - 2) = 1 from rfl, show min (2 - 1) 2 = 1 from rfl, show 2 - 2 = 0 from rfl, forUp_step (by norm_num),
    Svd.redStep_split']
  obtain ⟨w, ew, hL, hs, he1, he2, hu1, hu2, hv⟩ := Svd.left_ok hyp (nct := 1) (k := 0) (by norm_num) (by norm_num) (by norm_num)
    (⟨t, Row.zero 2, Row.zero 2, Jag.zero 2 _, Jag.zero 2 _⟩ : Svd.Red B64 2 2)
  rw [ew, ok_bind]
  dsimp only at hL hs
  have hnu : B64.Is (Svd.signed (Svd.hsum hyp 0 (fun i => t.f i 0) (2 - 0)) (t.f 0 0)) 0 := by
    have : B64.Is (Svd.hsum hyp 0 (fun i => t.f i 0) (2 - 0)) 0 := by
      show B64.Is (hyp (hyp Flt.zero (t.f 0 0)) (t.f 1 0)) 0
      rw [hh']
      exact B64.guard_zero (B64.guard_zero B64.Is.zero t0) t1
    unfold Svd.signed
    rw [(eq_iff this.1 zero_fin).2 (by rw [this.2, val_zero]), if_neg (by simp)]
    exact this
  generalize Svd.signed (Svd.hsum hyp 0 (fun i => t.f i 0) (2 - 0)) (t.f 0 0) = nu at *
  have hneg : B64.Is (Flt.neg nu) 0 := hnu.neg (by norm_num)
  have hsk := hL.skip ((eq_iff hneg.1 zero_fin).2 (by rw [hneg.2, val_zero]))
  have hs0 : w.s.f 0 = Flt.neg nu := by rw [hs, upd1_eq, if_pos rfl]
  unfold Svd.rowPass
  rw [if_neg (by norm_num)]
  rw [pure_eq_ok, ok_bind, forUp_eq_self le_rfl, ok_bind, Svd.lastEntries_ok (by norm_num) le_rfl, ok_bind]
  dsimp only
  rw [if_pos (by norm_num), if_pos (by norm_num), show 2 - 1 = 1 from rfl]
  unfold Svd.genU Svd.genV
  rw [forUp_step (by norm_num)]
  obtain ⟨u1, eu1, a1, -⟩ := Svd.unitCol_ok (n := 2) (r := 2) (j := 1) (by norm_num) (by norm_num) w.u
  rw [eu1, ok_bind, forUp_eq_self le_rfl, ok_bind, forDown_step (a := 0) le_rfl]
  obtain ⟨u2, eu2, -, a2, -⟩ := Svd.genUStep_ok (m := 2) (n := 2) (k := 0) (by norm_num) (by norm_num) ⟨upd1 w.s.f 1 (w.a.f 1 1)⟩ u1
    (fun h => absurd h (lt_irrefl _))
  rw [eu2, ok_bind, forDown_eq_self le_rfl, ok_bind, forDown_step (a := 1) (by norm_num)]
  obtain ⟨a2, a3⟩ := a2 ((eq_iff (by dsimp only; rw [upd1_eq, if_neg (by norm_num), hs0]; exact hneg.1) zero_fin).2
    (by dsimp only; rw [upd1_eq, if_neg (by norm_num), hs0, hneg.2, val_zero]))
  obtain ⟨v1, ev1, -, -, b1, -⟩ := Svd.genVStep_ok (n := 2) (nrt := 0) (k := 1) (by norm_num) (by norm_num)
    (⟨upd1 (upd1 w.e.f 0 (w.a.f 0 1)) 1 Flt.zero⟩ : Row B64 2) w.v
  rw [ev1, ok_bind, forDown_step (a := 0) le_rfl]
  obtain ⟨v2, ev2, -, b2, b3, -⟩ := Svd.genVStep_ok (n := 2) (nrt := 0) (k := 0) (by norm_num) (by norm_num)
    (⟨upd1 (upd1 w.e.f 0 (w.a.f 0 1)) 1 Flt.zero⟩ : Row B64 2) v1
  rw [ev2, ok_bind, forDown_eq_self le_rfl, ok_bind]
  refine ⟨_, rfl, ?_, ?_, ?_, ?_, fun i j hi hj => ?_, fun i j hi hj => ?_⟩
  · dsimp only; rw [upd1_eq, if_neg (by norm_num), hs0]; exact hneg
  · dsimp only; rw [upd1_eq, if_pos rfl, hsk 1 1 (by norm_num)]; exact t3
  · dsimp only; rw [upd1_eq, if_neg (by norm_num), upd1_eq, if_pos rfl, hsk 0 1 (by norm_num)]; exact t2
  · dsimp only; rw [upd1_eq, if_pos rfl]; exact B64.Is.zero
  · dsimp only
    obtain rfl | rfl : j = 0 ∨ j = 1 := by omega
    · rw [a3 i hi]; exact hunit 0 i
    · rw [a2 i 1 (by norm_num), a1 i hi]; exact hunit 1 i
  · dsimp only
    obtain rfl | rfl : j = 0 ∨ j = 1 := by omega
    · rw [b3 i hi]; exact hunit 0 i
    · rw [b2 (fun h => absurd h.1 (lt_irrefl _)) i 1 (by norm_num), b1 i hi]; exact hunit 1 i

/-- The case meets the hypotheses: the matrix ((0, 4), (0, 0)) has finite factors, and the construction ends with the singular values
4 and 0. -/
theorem Svd.case_new (floor : B64) (conv : Nat → B64) : ∃ (κ : Svd.Lit B64) (a : Mat B64 2 2) (A : Nat → Nat → B64) (s : Svd B64) (U V : Nat → Nat → B64) (σ : Nat → B64) (N : ℝ),
    κ.floor = floor ∧ κ.conv = conv ∧ fro (mx 2 2 fun i j => val (A i j)) ≤ 4 ∧
    B64.SvdLit κ ∧ κ.hyp = B64.guard ((1 / 2) ^ 1000) B64.hypot ∧ a.own ∧ Shows a.at 2 2 A ∧ val (A 0 1) = 4 ∧ RedFin κ.hyp 2 2 A ∧
    N = fro (mx 2 2 fun i j => val (A i j)) + redErr 2 2 ((1 / 2) ^ 52) ((1 / 2) ^ 1075) (fro (mx 2 2 fun i j => val (A i j))) ∧
    16 * (rotErr (75 * (1 / 2) ^ 52) (75 * (1 / 2) ^ 966) 0 N (3 * (2 * 2 + 2)) + N) ≤ 2 ^ 1023 ∧ Svd.new κ 3 a = .ok (some s) ∧ HoldsSvd s 2 2 2 U V σ ∧
    (∀ i j, i < 2 → j < 2 → fin (U i j)) ∧ (∀ i j, i < 2 → j < 2 → fin (V i j)) ∧ val (σ 0) = 4 ∧ val (σ 1) = 0 := by
  obtain ⟨A, hA⟩ : ∃ A : Nat → Nat → B64, A = fun i j => if i = 0 ∧ j = 1 then B64.int 4 (by norm_num) else Flt.zero := ⟨_, rfl⟩
  have k : ∀ i j : Nat, B64.Is (A i j) (if i = 0 ∧ j = 1 then 4 else 0) := fun i j => by
    rw [hA]
    dsimp only
    split
    · simpa using B64.Is.int (k := 4) (by norm_num)
    · exact B64.Is.zero
  have k0 : B64.Is (A 0 0) 0 := by simpa using k 0 0
  have k1 : B64.Is (A 1 0) 0 := by simpa using k 1 0
  have k2 : B64.Is (A 0 1) 4 := by simpa using k 0 1
  have k3 : B64.Is (A 1 1) 0 := by simpa using k 1 1
  have red : ∀ t : Tab B64 2 2, (∀ i j, i < 2 → j < 2 → t.f i j = A i j) → _ := fun t ht =>
    Svd.case_reduce (hyp := B64.guard ((1 / 2) ^ 1000) B64.hypot) rfl (t := t) (by rw [ht 0 0 (by norm_num) (by norm_num)]; exact k0)
      (by rw [ht 1 0 (by norm_num) (by norm_num)]; exact k1) (by rw [ht 0 1 (by norm_num) (by norm_num)]; exact k2)
      (by rw [ht 1 1 (by norm_num) (by norm_num)]; exact k3)
  have own : (Mat.arr ⟨⟨A⟩, fun _ => 0⟩ : Mat B64 2 2).own := trivial
  have sh : Shows (Mat.arr ⟨⟨A⟩, fun _ => 0⟩ : Mat B64 2 2).at 2 2 A :=
    Arr.at_shows (⟨⟨A⟩, fun _ => 0⟩ : Arr B64 2 2)
  obtain ⟨κ, hκ⟩ : ∃ κ, κ = B64.svdLit floor conv := ⟨_, rfl⟩
  have L : B64.SvdLit κ := by rw [hκ]; exact B64.svdLit_ok _ _
  have hyp : κ.hyp = B64.guard ((1 / 2) ^ 1000) B64.hypot := by rw [hκ]; rfl
  rcases Svd.new_ok κ 3 own (by norm_num) (by norm_num) sh with ⟨-, t, ht, ho⟩ | ⟨h, -⟩
  · obtain ⟨x, ex, s0, s1, e0, e1, hu, hv⟩ := red t ht
    obtain ⟨y, h1, h2, h3, h4, h5⟩ := Svd.case_loop (m := 2) L hyp le_rfl s0 s1 e0 e1 (fun i j hi hj => (hu i j hi hj).1) hv
    obtain ⟨s, es, hs, -⟩ := (ho (some y) (by
      unfold Svd.core
      show (Svd.reduce κ.hyp t >>= fun x => Svd.loop κ 3 2 x) = _
      rw [hyp, ex, ok_bind, h1])).2 y rfl
    have nA : fro (mx 2 2 fun i j => val (A i j)) ≤ 4 := by
      unfold fro
      refine Real.sqrt_le_iff.2 ⟨by norm_num, ?_⟩
      norm_num [Fin.sum_univ_two, mx, k0.2, k1.2, k2.2, k3.2]
    have nA0 : 0 ≤ fro (mx 2 2 fun i j => val (A i j)) := Real.sqrt_nonneg _
    refine ⟨κ, _, A, s, _, _, _, _, by rw [hκ]; rfl, by rw [hκ]; rfl, nA, L, hyp, own, sh, k2.2, fun t x ht e => ?_, rfl, ?_, es, hs, h2, h3, h4.2, h5.2⟩
    · obtain ⟨x', ex, s0, s1, e0, e1, hu, hv⟩ := red t ht
      rw [hyp, ex] at e
      obtain rfl := Except.ok.inj e
      refine ⟨fun i hi => ?_, fun i hi => ?_, fun i j hi hj => (hu i j hi hj).1, fun i j hi hj => (hv i j hi hj).1⟩
      · obtain rfl | rfl : i = 0 ∨ i = 1 := by omega
        exacts [s0.1, s1.1]
      · obtain rfl | rfl : i = 0 ∨ i = 1 := by omega
        exacts [e0.1, e1.1]
    · generalize fro (mx 2 2 fun i j => val (A i j)) = b at nA nA0 ⊢
      have hp : ((1 : ℝ) / 2) ^ 1075 ≤ (1 / 2) ^ 20 := pow_le_pow_of_le_one (by norm_num) (by norm_num) (by norm_num)
      have h2 : √((2 : Nat) : ℝ) ≤ 2 := Real.sqrt_le_iff.2 ⟨by norm_num, by norm_num⟩
      have h3 : √((2 : Nat) : ℝ) * (7 * ((2 : Nat) * (1 / 2) ^ 1075)) ≤ 2 * (7 * ((2 : Nat) * (1 / 2) ^ 20)) :=
        mul_le_mul h2 (by push_cast; linarith) (by positivity) (by norm_num)
      have h4 := rotErr_case (ε := 50 * ((2 : Nat) + 2) * (1 / 2) ^ 52) (ω := √((2 : Nat) : ℝ) * (7 * ((2 : Nat) * (1 / 2) ^ 1075)))
        (b := b) (k := 2 * 2) (by positivity) (by norm_num) (by positivity) (h3.trans (by norm_num)) nA0 (by norm_num)
      have h5 : 0 ≤ redErr 2 2 ((1 / 2) ^ 52) ((1 / 2) ^ 1075) b :=
        rotErr_nonneg (by positivity) (by positivity) le_rfl nA0 _
      refine Svd.room_case (by linarith) ?_ (by norm_num)
      unfold redErr
      linarith
  · omega

end Linear
