import Verif.Props.RoundPow
import Verif.Props.EigenUse

/-!
# C112: the matrix square root in rounded arithmetic
-/

set_option linter.unusedSectionVars false

namespace Linear

open Spec Finset Matrix Rnd

section round

variable {α : Type} [Flt α] [Rnd α] {n : Nat}

/-- The size of the first product. -/
noncomputable def Spec.rootHalf (α : Type) [Flt α] [Rnd α] (n : Nat) (δ σ : ℝ) : ℝ :=
  powGrow α n * ((1 + δ) * σ) + powTiny α n

/-- The bound of C112: `δ` is the distance of the vectors to an orthogonal matrix, `σ` the norm of the roots. -/
noncomputable def Spec.rootErr (α : Type) [Flt α] [Rnd α] (n : Nat) (δ σ : ℝ) : ℝ :=
  (powGrow α n * (1 + δ) ^ 2 - 1) * σ + gam α n * (rootHalf α n δ σ * (√n + δ)) + (2 + δ) * powTiny α n

private theorem fro_one : fro (1 : Matrix (Fin n) (Fin n) ℝ) = √n := by
  unfold fro
  simp [Matrix.one_apply]

/-- Multiplication with a matrix near to an orthogonal one. -/
private theorem near_left {V O X : Matrix (Fin n) (Fin n) ℝ} {δ : ℝ} (hO : Oᵀ * O = 1) (hV : fro (V - O) ≤ δ) :
    fro (V * X) ≤ (1 + δ) * fro X := by
  have e : V * X = O * X + (V - O) * X := by rw [Matrix.sub_mul]; abel
  rw [e]
  have h1 := fro_add_le (O * X) ((V - O) * X)
  have h2 := fro_mul_le (V - O) X
  have h3 := mul_le_mul_of_nonneg_right hV (fro_nonneg X)
  rw [fro_left hO] at h1
  linarith

private theorem near_right {V O X : Matrix (Fin n) (Fin n) ℝ} {δ : ℝ} (hO : Oᵀ * O = 1) (hV : fro (V - O) ≤ δ) :
    fro (X * Vᵀ) ≤ (1 + δ) * fro X := by
  rw [← fro_transpose, Matrix.transpose_mul, Matrix.transpose_transpose, ← fro_transpose X]
  exact near_left hO hV

private theorem abs_diag {V : Matrix (Fin n) (Fin n) ℝ} {w : Fin n → ℝ} :
    fro ((Matrix.of fun i j => |V i j|) * Matrix.of fun i j => |Matrix.diagonal w i j|) = fro (V * Matrix.diagonal w) := by
  have e : (Matrix.of fun i j => |Matrix.diagonal w i j|) = Matrix.diagonal fun i => |w i| := by
    funext i j
    simp only [Matrix.of_apply, Matrix.diagonal_apply]
    split <;> simp
  rw [e]
  unfold fro
  simp only [Matrix.mul_diagonal, Matrix.of_apply, mul_pow, sq_abs]

/-- **C112.** The computed square root of a symmetric matrix: if all eigenvalues are positive and the vectors `V` differ from an
exactly orthogonal matrix `O` by at most `δ`, the result exists, all its entries are finite and it differs from `O √D Oᵀ` by at
most `rootErr`. -/
theorem C112_squareRoot [ZeroLaws α] {s : Eig α n} (hn : 0 < n) (hsym : s.sym = true)
    (hre : ∀ i, i < n → fin (s.re.f i) ∧ 0 < val (s.re.f i)) (hv : ∀ i j, i < n → j < n → fin (s.vec.f i j))
    {O : Matrix (Fin n) (Fin n) ℝ} (hO : Oᵀ * O = 1) {δ σ : ℝ} (hδ : fro ((mx n n fun i j => val (s.vec.f j i)) - O) ≤ δ)
    (hσ : fro (Matrix.diagonal fun i : Fin n => √(val (s.re.f i))) ≤ σ)
    (hb : powGrow α n * (rootHalf α n δ σ * (√n + δ)) + powTiny α n ≤ big α) :
    ∃ (mr : Mat α n n) (R : Nat → Nat → α), s.squareRoot = .ok ⟨n, n, mr⟩ ∧ mr.own ∧ Shows mr.at n n R ∧
      (∀ i j, i < n → j < n → fin (R i j)) ∧
      fro ((mx n n fun i j => val (R i j)) - O * Matrix.diagonal (fun i : Fin n => √(val (s.re.f i))) * Oᵀ) ≤
        rootErr α n δ σ := by
  have hG := grow_ge (α := α) n
  have hh := tiny_nn (α := α) n
  have hu := u_nonneg (α := α)
  have hgm := gam_nonneg (α := α) n
  have hδ0 : 0 ≤ δ := (fro_nonneg _).trans hδ
  have hσ0 : 0 ≤ σ := (fro_nonneg _).trans hσ
  have hn1 : (1 : ℝ) ≤ √n := Real.one_le_sqrt.2 (by exact_mod_cast hn)
  have hle : ∀ i, i < n → Flt.le (s.re.f i) Flt.zero = false := fun i hi => by
    rw [Bool.eq_false_iff, Ne, le_iff (hre i hi).1 zero_fin, val_zero]
    linarith [(hre i hi).2]
  obtain ⟨w, e, hw, -⟩ := Row.loop (ε := Fault) (a := 0) (b := n) (fun i _ => Flt.sqrt (s.re.f i)) (t := Row.zero n)
    (body := fun i (v : Row α n) => do
      let x ← s.re.get i
      if Flt.le x Flt.zero then throw (.pan .unsup)
      v.set i (Flt.sqrt x)) (fun i t' _ hi _ => by
      rw [Row.get_ok hi, ok_bind, if_neg (by rw [hle i hi]; simp)]
      show t'.set i _ = _
      rw [Row.set_ok hi])
  obtain ⟨md, ed, hd⟩ := (C02_dia (v := w.toList) (Row.toList_isList w)).1
  obtain ⟨mv, mvt, e1, e2, h1, h2, h3, h4⟩ := C64_vectors s hn
  have fw : ∀ i, i < n → fin (w.f i) ∧ |val (w.f i) - √(val (s.re.f i))| ≤ u α * √(val (s.re.f i)) := fun i hi => by
    have hf := sqrt_ok (hre i hi).1 (hre i hi).2.le
    rw [hw i (by omega) hi]
    exact ⟨hf, (sqrt_err hf).1⟩
  have fd : ∀ i j, i < n → j < n → fin (Spec.diag w.f i j) := fun i j hi _ => by
    unfold Spec.diag
    split
    exacts [(fw i hi).1, zero_fin]
  set V := mx n n fun i j => val (s.vec.f j i) with hV
  set W : Matrix (Fin n) (Fin n) ℝ := Matrix.diagonal fun i : Fin n => val (w.f i) with hW
  set L : Matrix (Fin n) (Fin n) ℝ := Matrix.diagonal fun i : Fin n => √(val (s.re.f i)) with hL
  have eW : (mx n n fun i j => val (Spec.diag w.f i j)) = W := by
    funext i j
    simp only [mx, Spec.diag, hW, Matrix.diagonal_apply, Fin.ext_iff]
    split
    exacts [rfl, val_zero]
  have hWL : fro (W - L) ≤ u α * σ := by
    have : fro (W - L) ≤ fro (u α • L) := by
      unfold fro
      refine Real.sqrt_le_sqrt (sum_le_sum fun i _ => sum_le_sum fun j _ => ?_)
      rw [← sq_abs]
      refine pow_le_pow_left₀ (abs_nonneg _) ?_ 2
      simp only [hW, hL, Matrix.sub_apply, Matrix.smul_apply, Matrix.diagonal_apply, smul_eq_mul]
      split
      · exact (fw i i.2).2
      · simp
    rw [fro_scale hu] at this
    exact this.trans (mul_le_mul_of_nonneg_left hσ hu)
  have hWs : fro W ≤ (1 + u α) * σ := by
    have := fro_add_le (W - L) L
    rw [sub_add_cancel] at this
    linarith
  have hVW : fro (V * W) ≤ (1 + δ) * ((1 + u α) * σ) :=
    (near_left hO hδ).trans (mul_le_mul_of_nonneg_left hWs (by linarith))
  have hhalf : 0 ≤ rootHalf α n δ σ := by
    unfold rootHalf
    have : 0 ≤ (1 + δ) * σ := by positivity
    nlinarith
  have hGu : powGrow α n = (1 + gam α n) * (1 + u α) := by unfold powGrow gam; ring
  have hGu1 : 1 + u α ≤ powGrow α n := by rw [hGu]; nlinarith
  obtain ⟨m1, P, e3, o1, hP, fP, eP⟩ := Mat.multiply_fro h1 hn h3 (b := .dia md) hd (fun i j hi hj => hv j i hj hi) fd
    (D := (1 + δ) * ((1 + u α) * σ)) (by
      have := abs_diag (V := V) (w := fun i : Fin n => val (w.f i))
      rw [← hW] at this
      refine le_trans (le_of_eq ?_) hVW
      rw [← this, ← eW]
      rfl) (by
      refine le_trans (add_le_add (mul_le_mul_of_nonneg_left ?_ (by linarith)) le_rfl) hb
      unfold rootHalf
      have h0 : 0 ≤ (1 + δ) * σ := by positivity
      have h1 : (1 + δ) * ((1 + u α) * σ) ≤ powGrow α n * ((1 + δ) * σ) + powTiny α n := by nlinarith
      have h2 : 0 ≤ powGrow α n * ((1 + δ) * σ) + powTiny α n := by nlinarith
      nlinarith)
  rw [eW] at eP
  have hPs : fro (mx n n fun i j => val (P i j)) ≤ rootHalf α n δ σ := by
    have := fro_add_le ((mx n n fun i j => val (P i j)) - V * W) (V * W)
    rw [sub_add_cancel] at this
    unfold rootHalf
    rw [hGu]
    nlinarith
  have eVT : (mx n n fun k i => val (s.vec.f k i)) = Vᵀ := rfl
  have hVs : fro V ≤ √n + δ := by
    have := fro_add_le (V - O) O
    rw [sub_add_cancel] at this
    have h2 := fro_left hO (1 : Matrix (Fin n) (Fin n) ℝ)
    rw [Matrix.mul_one, fro_one] at h2
    linarith
  obtain ⟨m2, R, e4, o2, hR, fR, eR⟩ := Mat.multiply_fro o1 hn hP h4 fP hv (D := rootHalf α n δ σ * (√n + δ)) (by
      refine (fro_mul_le _ _).trans ?_
      have g1 := fro_abs (mx n n fun i j => val (P i j))
      have g2 := fro_abs (mx n n fun i j => val (s.vec.f i j))
      rw [eVT, fro_transpose] at g2
      refine mul_le_mul (le_trans (le_of_eq ?_) hPs) (le_trans (le_of_eq ?_) hVs) (fro_nonneg _) hhalf
      · exact g1
      · exact g2) hb
  refine ⟨m2, R, ?_, o2, hR, fR, ?_⟩
  · unfold Eig.squareRoot Eig.roots SMat.diagonal
    simp only [hsym, Bool.not_true, Bool.false_eq_true, if_false]
    show (forUp 0 n _ _ >>= _) = _
    rw [e, ok_bind, ed]
    show (s.v >>= _) = _
    rw [e1, ok_bind, e2, ok_bind]
    show (mv.multiply (.dia md) >>= _) = _
    rw [e3, ok_bind]
    exact e4
  · rw [eVT] at eR
    have split : (mx n n fun i j => val (R i j)) - O * L * Oᵀ = ((mx n n fun i j => val (R i j)) - (mx n n fun i j => val (P i j)) * Vᵀ) +
        (((mx n n fun i j => val (P i j)) - V * W) * Vᵀ + (V * (W - L) * Vᵀ + ((V - O) * L * Vᵀ + O * (L * (V - O)ᵀ)))) := by
      simp only [Matrix.sub_mul, Matrix.mul_sub, Matrix.transpose_sub, ← Matrix.mul_assoc]
      abel
    rw [split]
    have a1 := fro_add_le ((mx n n fun i j => val (R i j)) - (mx n n fun i j => val (P i j)) * Vᵀ)
      (((mx n n fun i j => val (P i j)) - V * W) * Vᵀ + (V * (W - L) * Vᵀ + ((V - O) * L * Vᵀ + O * (L * (V - O)ᵀ))))
    have a2 := fro_add_le (((mx n n fun i j => val (P i j)) - V * W) * Vᵀ) (V * (W - L) * Vᵀ + ((V - O) * L * Vᵀ + O * (L * (V - O)ᵀ)))
    have a3 := fro_add_le (V * (W - L) * Vᵀ) ((V - O) * L * Vᵀ + O * (L * (V - O)ᵀ))
    have a4 := fro_add_le ((V - O) * L * Vᵀ) (O * (L * (V - O)ᵀ))
    have b2 := (near_right (X := (mx n n fun i j => val (P i j)) - V * W) hO hδ).trans (mul_le_mul_of_nonneg_left eP (by linarith))
    have b3 := (near_right (X := V * (W - L)) hO hδ).trans (mul_le_mul_of_nonneg_left
      ((near_left hO hδ).trans (mul_le_mul_of_nonneg_left hWL (by linarith))) (by linarith))
    have b4 := (near_right (X := (V - O) * L) hO hδ).trans (mul_le_mul_of_nonneg_left
      ((fro_mul_le _ _).trans (mul_le_mul hδ hσ (fro_nonneg _) hδ0)) (by linarith))
    have b5 : fro (O * (L * (V - O)ᵀ)) ≤ σ * δ := by
      rw [fro_left hO]
      refine (fro_mul_le _ _).trans ?_
      rw [fro_transpose]
      exact mul_le_mul hσ hδ (fro_nonneg _) hσ0
    unfold rootErr
    rw [hGu]
    nlinarith

/-- The square of a matrix near to the root of a matrix near to `A`. -/
private theorem squared {R O L A : Matrix (Fin n) (Fin n) ℝ} {e E σ : ℝ} (hO : Oᵀ * O = 1) (hR : fro (R - O * L * Oᵀ) ≤ E)
    (hL : fro L ≤ σ) (hA : fro (A - O * (L * L) * Oᵀ) ≤ e) : fro (R * R - A) ≤ e + 2 * σ * E + E ^ 2 := by
  have hE : 0 ≤ E := (fro_nonneg _).trans hR
  have hσ : 0 ≤ σ := (fro_nonneg _).trans hL
  obtain ⟨S, hS⟩ : ∃ S, S = O * L * Oᵀ := ⟨_, rfl⟩
  have hO' : O * Oᵀ = 1 := mul_eq_one_comm.1 hO
  have hSs : fro S ≤ σ := by
    rw [hS, fro_right (by rwa [Matrix.transpose_transpose]), fro_left hO]
    exact hL
  have hSS : O * (L * L) * Oᵀ = S * S := by
    rw [hS]
    calc O * (L * L) * Oᵀ = O * L * 1 * (L * Oᵀ) := by simp only [Matrix.mul_one, Matrix.mul_assoc]
      _ = O * L * (Oᵀ * O) * (L * Oᵀ) := by rw [hO]
      _ = _ := by simp only [Matrix.mul_assoc]
  rw [← hS] at hR
  rw [hSS] at hA
  have split : R * R - A = (R - S) * (R - S) + ((R - S) * S + (S * (R - S) + -(A - S * S))) := by
    simp only [Matrix.sub_mul, Matrix.mul_sub]
    abel
  rw [split]
  have a1 := fro_add_le ((R - S) * (R - S)) ((R - S) * S + (S * (R - S) + -(A - S * S)))
  have a2 := fro_add_le ((R - S) * S) (S * (R - S) + -(A - S * S))
  have a3 := fro_add_le (S * (R - S)) (-(A - S * S))
  rw [fro_neg] at a3
  have b1 := (fro_mul_le (R - S) (R - S)).trans (mul_le_mul hR hR (fro_nonneg _) hE)
  have b2 := (fro_mul_le (R - S) S).trans (mul_le_mul hR hSs (fro_nonneg _) hE)
  have b3 := (fro_mul_le S (R - S)).trans (mul_le_mul hSs hR (fro_nonneg _) hσ)
  nlinarith

/-- **C112.** Under the same hypotheses, if `O D Oᵀ` differs from `A` by at most `e`: the square of the computed root differs from
`A` by at most `e + 2 σ E + E ^ 2` for `E = rootErr`. -/
theorem C112_squared [ZeroLaws α] {s : Eig α n} (hn : 0 < n) (hsym : s.sym = true)
    (hre : ∀ i, i < n → fin (s.re.f i) ∧ 0 < val (s.re.f i)) (hv : ∀ i j, i < n → j < n → fin (s.vec.f i j))
    {O A : Matrix (Fin n) (Fin n) ℝ} (hO : Oᵀ * O = 1) {δ σ e : ℝ} (hδ : fro ((mx n n fun i j => val (s.vec.f j i)) - O) ≤ δ)
    (hσ : fro (Matrix.diagonal fun i : Fin n => √(val (s.re.f i))) ≤ σ)
    (hA : fro (A - O * Matrix.diagonal (fun i : Fin n => val (s.re.f i)) * Oᵀ) ≤ e)
    (hb : powGrow α n * (rootHalf α n δ σ * (√n + δ)) + powTiny α n ≤ big α) :
    ∃ (mr : Mat α n n) (R : Nat → Nat → α), s.squareRoot = .ok ⟨n, n, mr⟩ ∧ mr.own ∧ Shows mr.at n n R ∧
      (∀ i j, i < n → j < n → fin (R i j)) ∧
      fro ((mx n n fun i j => val (R i j)) * (mx n n fun i j => val (R i j)) - A) ≤
        e + 2 * σ * rootErr α n δ σ + rootErr α n δ σ ^ 2 := by
  obtain ⟨mr, R, h1, h2, h3, h4, h5⟩ := C112_squareRoot hn hsym hre hv hO hδ hσ hb
  refine ⟨mr, R, h1, h2, h3, h4, squared hO h5 hσ ?_⟩
  rw [Matrix.diagonal_mul_diagonal]
  simp only [Real.mul_self_sqrt (hre _ (Fin.is_lt _)).2.le]
  exact hA

end round

/-! ## binary64 -/

private theorem bind_some {β γ : Type} {x : Res β} {f : β → Res γ} {c : γ} (h : (x >>= f) = .ok c) : ∃ b, x = .ok b ∧ f b = .ok c := by
  cases x with
  | ok b => exact ⟨b, rfl, h⟩
  | error e => cases h

private theorem newSym_sym {α : Type} [Flt α] {n c : Nat} {eps : α} {a : Mat α n c} {g : Eig α n} (h : Eig.newSym eps a = .ok g) :
    g.sym = true := by
  unfold Eig.newSym at h
  obtain ⟨t, -, h⟩ := bind_some h
  obtain ⟨z, -, h⟩ := bind_some h
  obtain ⟨y, -, h⟩ := bind_some h
  unfold Eig.findSym at h
  obtain ⟨_, -, h⟩ := bind_some h
  obtain ⟨_, -, h⟩ := bind_some h
  obtain ⟨_, -, h⟩ := bind_some h
  obtain ⟨_, -, h⟩ := bind_some h
  obtain ⟨_, -, h⟩ := bind_some h
  obtain ⟨_, -, h⟩ := bind_some h
  cases h
  rfl

/-- The numbers of `C112_binary64`. -/
private theorem root_num {G g h δ r n u σ X : ℝ} (hr : 1 ≤ r) (hn : n = r ^ 2) (hu : 0 ≤ u) (hX : X = n ^ 2 * r * u)
    (hX1 : X ≤ 1 / 2 ^ 23) (hG1 : 1 ≤ G) (hG : G ≤ 1 + 2 * ((n + 1) * u)) (hg0 : 0 ≤ g) (hg : g ≤ 2 * (n * u)) (hh : 0 ≤ h) (hδ : δ = 3000 * X)
    (hσ : 0 ≤ σ) :
    (G * (1 + δ) ^ 2 - 1) * σ + g * ((G * ((1 + δ) * σ) + h) * (r + δ)) + (2 + δ) * h ≤ 6011 * X * σ + 3 * h ∧
      G * ((G * ((1 + δ) * σ) + h) * (r + δ)) + h ≤ 4 * (σ + h) * r + h := by
  have hX0 : 0 ≤ X := by rw [hX, hn]; positivity
  have h1 : n * u ≤ X := by
    rw [hX, hn]
    have h2 : r ^ 2 ≤ (r ^ 2) ^ 2 * r := by
      have : 1 ≤ r ^ 2 * r := by nlinarith [sq_nonneg (r - 1), mul_self_nonneg r]
      nlinarith [sq_nonneg r]
    nlinarith
  have h1' : u ≤ n * u := by rw [hn]; nlinarith [mul_nonneg hu (by nlinarith : 0 ≤ r ^ 2 - 1)]
  have hgr : g * r ≤ 2 * X := by
    have h3 : n * u * r ≤ X := by
      rw [hX, hn]
      have h4 : 1 ≤ r ^ 2 := by nlinarith
      have : 0 ≤ r ^ 2 * r * u := by positivity
      nlinarith
    nlinarith
  have hδ0 : 0 ≤ δ := by rw [hδ]; positivity
  have hδ1 : δ ≤ 1 / 1000 := by rw [hδ]; norm_num at hX1; linarith
  have hG2 : G ≤ 1 + 4 * X := by linarith
  have hX2 : X ≤ 1 / 1000000 := by norm_num at hX1; linarith
  have hsq : (1 + δ) ^ 2 ≤ 1 + 6001.5 * X := by rw [hδ]; norm_num at hX1 ⊢; nlinarith
  have hGs : G * (1 + δ) ^ 2 ≤ 1 + 6006 * X := by
    refine (mul_le_mul hG2 hsq (by positivity) (by linarith)).trans ?_
    nlinarith
  have hG3 : G * (1 + δ) ≤ 101 / 100 := by nlinarith
  have hP : G * ((1 + δ) * σ) + h ≤ 101 / 100 * σ + h := by nlinarith
  have hP0 : 0 ≤ G * ((1 + δ) * σ) + h := by positivity
  have hrd : r + δ ≤ 2 * r := by linarith
  constructor
  · have k1 : (G * (1 + δ) ^ 2 - 1) * σ ≤ 6006 * X * σ := by nlinarith
    have k2 : g * ((G * ((1 + δ) * σ) + h) * (r + δ)) ≤ 4 * X * (101 / 100 * σ + h) := by
      calc g * ((G * ((1 + δ) * σ) + h) * (r + δ)) ≤ g * ((G * ((1 + δ) * σ) + h) * (2 * r)) := by gcongr
        _ = 2 * (g * r) * (G * ((1 + δ) * σ) + h) := by ring
        _ ≤ 2 * (2 * X) * (101 / 100 * σ + h) := by gcongr
        _ = _ := by ring
    have k3 : 4 * X * h ≤ 1 / 100 * h := by nlinarith
    have k4 : δ * h ≤ 1 / 1000 * h := by nlinarith
    have k5 : 0 ≤ X * σ := by positivity
    nlinarith
  · have hG4 : G ≤ 11 / 10 := by linarith
    have : G * ((G * ((1 + δ) * σ) + h) * (r + δ)) ≤ 11 / 10 * ((101 / 100 * σ + h) * (2 * r)) := by gcongr
    have k : 0 ≤ σ * r := by positivity
    have k' : 0 ≤ h * r := by positivity
    linarith

/-- The numbers of the last step of `C112_binary64`. -/
private theorem root_final {n r v X f e w h σ E y : ℝ} (hn1 : 1 ≤ n) (hr2 : n = r ^ 2) (hv0 : 0 ≤ v) (hX : X = n ^ 2 * r * v) (hX0 : 0 ≤ X)
    (hX1 : X ≤ 1 / 2 ^ 23) (hf0 : 0 ≤ f) (he0 : 0 ≤ e) (he : e = 45000 * n ^ 2 * v * f + 400 * n ^ 2 * w) (hw0 : 0 ≤ w) (hh0 : 0 ≤ h)
    (hh4 : h ≤ 1) (hh2 : h ≤ 2 * (n ^ 2 * w) * w) (hh3 : h ≤ n ^ 2 * w / 1000000) (hσ0 : 0 ≤ σ) (hσσ : σ ^ 2 = r * (f + e))
    (hσw : σ * w ≤ 1 / 1000000) (hE0 : 0 ≤ E) (hE : E ≤ 6011 * X * σ + 3 * h) (hy : y = n ^ 3 * v) (hy1 : y ≤ 1 / 2 ^ 17) :
    e + 2 * σ * E + E ^ 2 ≤ 62000 * n ^ 3 * v * f + 450 * n ^ 2 * w := by
  have hy0 : 0 ≤ y := by rw [hy]; positivity
  have hyn : n ^ 2 * v ≤ y := by
    rw [hy]
    have : 0 ≤ n ^ 2 * v := by positivity
    nlinarith
  have hXσ : X * σ ^ 2 = y * (f + e) := by
    rw [hσσ, hX, hy]
    have : n ^ 3 = n ^ 2 * r ^ 2 := by rw [← hr2]; ring
    rw [this]
    ring
  have m1 : 2 * σ * E ≤ 2 * σ * (6011 * X * σ + 3 * h) := mul_le_mul_of_nonneg_left hE (by linarith)
  have m2 : E ^ 2 ≤ (6011 * X * σ + 3 * h) ^ 2 := pow_le_pow_left₀ hE0 hE 2
  have m3 : (6011 * X * σ + 3 * h) ^ 2 ≤ 2 * (6011 * X * σ) ^ 2 + 2 * (3 * h) ^ 2 := by
    nlinarith [sq_nonneg (6011 * X * σ - 3 * h)]
  have m4 : (6011 * X * σ) ^ 2 ≤ 5 * (X * σ ^ 2) := by
    have h1 : 0 ≤ X * σ ^ 2 := by positivity
    have h2 : 6011 ^ 2 * X ≤ 5 := by norm_num at hX1 ⊢; linarith
    calc (6011 * X * σ) ^ 2 = 6011 ^ 2 * X * (X * σ ^ 2) := by ring
      _ ≤ 5 * (X * σ ^ 2) := mul_le_mul_of_nonneg_right h2 h1
  have m5 : 2 * σ * (6011 * X * σ + 3 * h) = 12022 * (X * σ ^ 2) + 6 * (σ * h) := by ring
  have m6 : σ * h ≤ n ^ 2 * w / 10 := by
    have h1 : 0 ≤ n ^ 2 * w := by positivity
    calc σ * h ≤ σ * (2 * (n ^ 2 * w) * w) := mul_le_mul_of_nonneg_left hh2 hσ0
      _ = 2 * (n ^ 2 * w) * (σ * w) := by ring
      _ ≤ 2 * (n ^ 2 * w) * (1 / 1000000) := mul_le_mul_of_nonneg_left hσw (by positivity)
      _ ≤ _ := by linarith
  have m7 : h ^ 2 ≤ n ^ 2 * w / 1000000 := by nlinarith
  have m8 : 12032 * (y * e) ≤ e / 10 := by
    have : 12032 * y ≤ 1 / 10 := by norm_num at hy1; linarith
    nlinarith
  have m9 : n ^ 2 * v * f ≤ y * f := mul_le_mul_of_nonneg_right hyn hf0
  have m10 : 62000 * n ^ 3 * v * f = 62000 * (y * f) := by rw [hy]; ring
  rw [m10]
  have m11 : 0 ≤ n ^ 2 * w := by positivity
  have m12 : 0 ≤ y * f := by positivity
  have m13 : X * σ ^ 2 = y * f + y * e := by rw [hXσ]; ring
  have m14 : e = 45000 * (n ^ 2 * v * f) + 400 * (n ^ 2 * w) := by rw [he]; ring
  have m15 : (3 * h) ^ 2 = 9 * h ^ 2 := by ring
  rw [show 450 * n ^ 2 * w = 450 * (n ^ 2 * w) by ring]
  generalize n ^ 2 * w = b1 at *
  generalize n ^ 2 * v * f = b2 at *
  generalize X * σ ^ 2 = b3 at *
  generalize y * f = b4 at *
  generalize y * e = b5 at *
  generalize σ * h = b6 at *
  linarith

/-- **C112** for binary64: the square root of a symmetric matrix of at most 4096 rows, under the hypotheses of `C109_binary64` and
when all computed eigenvalues are positive. -/
theorem C112_binary64 {n : Nat} {eps : B64} (fe : fin eps) (hε : val eps = (1 / 2) ^ 53) {a : Mat B64 n n} (ha : a.own)
    (hn : 0 < n) (hn' : n ≤ 2 ^ 12) {A : Nat → Nat → B64} (hA : Shows a.at n n A)
    (hS : ∀ i j, i < n → j < n → A i j = A j i) {s : Tri B64 n n} (hs : Tri.new a = .ok s)
    {mt : Mat B64 n n} {T : Nat → Nat → B64} (et : s.t = .ok ⟨n, n, mt⟩) (hT : Shows mt.at n n T)
    (hfin : ∀ i j, i < n → j < n → fin (T i j))
    (hlow : ∀ i, i + 1 < n → val (T i (i + 1)) = 0 ∨ n * (1 / 2) ^ 1020 ≤ val (T i (i + 1)) ^ 2)
    (hhigh : ∀ i, i + 1 < n → |val (T i (i + 1))| ≤ 2 ^ 510) (hN : fro (mx n n fun i j => val (A i j)) ≤ 2 ^ 1000)
    {g : Eig B64 n} (hg : Eig.newSym eps a = .ok g) (hv : ∀ i j, i < n → j < n → fin (g.vec.f i j))
    (hpos : ∀ i, i < n → 0 < val (g.re.f i)) :
    ∃ (mr : Mat B64 n n) (R : Nat → Nat → B64), g.squareRoot = .ok ⟨n, n, mr⟩ ∧ mr.own ∧ Shows mr.at n n R ∧
      (∀ i j, i < n → j < n → fin (R i j)) ∧
      fro ((mx n n fun i j => val (R i j)) * (mx n n fun i j => val (R i j)) - mx n n fun i j => val (A i j)) ≤
        62000 * n ^ 3 * (1 / 2) ^ 53 * fro (mx n n fun i j => val (A i j)) + 450 * n ^ 2 * √((1 / 2) ^ 1075) := by
  have hn16 : n ≤ 2 ^ 16 := hn'.trans (by norm_num)
  obtain ⟨r1, -, ⟨O, o1, o2, o3⟩, -⟩ := C109_binary64 fe hε ha hn hn16 hA hS hs et hT hfin hlow hhigh hN hg hv
  obtain ⟨f, hf⟩ : ∃ f, f = fro (mx n n fun i j => val (A i j)) := ⟨_, rfl⟩
  rw [← hf] at o3 hN ⊢
  have hsym : g.sym = true := newSym_sym hg
  have hf0 : 0 ≤ f := by rw [hf]; exact fro_nonneg _
  obtain ⟨w, hw⟩ : ∃ w, w = √(((1 : ℝ) / 2) ^ 1075) := ⟨_, rfl⟩
  have hw0 : 0 ≤ w := by rw [hw]; exact Real.sqrt_nonneg _
  have hww : ((1 : ℝ) / 2) ^ 1075 = w * w := by rw [hw, Real.mul_self_sqrt (by positivity)]
  have hw1 : w ≤ (1 / 2) ^ 537 := by
    rw [hw]
    refine Real.sqrt_le_iff.2 ⟨by positivity, ?_⟩
    rw [← pow_mul]
    exact pow_le_pow_of_le_one (by norm_num) (by norm_num) (by norm_num)
  rw [← hw] at o3 ⊢
  obtain ⟨r, hr⟩ : ∃ r, r = √(n : ℝ) := ⟨_, rfl⟩
  have hn1 : (1 : ℝ) ≤ n := by exact_mod_cast hn
  have hn2 : (n : ℝ) ≤ 2 ^ 12 := by exact_mod_cast hn'
  have hr1 : 1 ≤ r := by rw [hr]; exact Real.one_le_sqrt.2 hn1
  have hr2 : (n : ℝ) = r ^ 2 := by rw [hr, Real.sq_sqrt (by linarith)]
  have hr3 : r ≤ 2 ^ 6 := by
    rw [hr]
    exact Real.sqrt_le_iff.2 ⟨by positivity, by rw [← pow_mul]; exact hn2⟩
  have hu0 : u B64 = (1 / 2) ^ 53 := rfl
  obtain ⟨v, hvv⟩ : ∃ v : ℝ, v = (1 / 2) ^ 53 := ⟨_, rfl⟩
  have hv0 : 0 ≤ v := by rw [hvv]; positivity
  rw [← hvv] at o2 o3 hu0 ⊢
  obtain ⟨X, hX⟩ : ∃ X : ℝ, X = n ^ 2 * r * v := ⟨_, rfl⟩
  have hX0 : 0 ≤ X := by rw [hX]; positivity
  have hX1 : X ≤ 1 / 2 ^ 23 := by
    rw [hX, hvv]
    calc (n : ℝ) ^ 2 * r * (1 / 2) ^ 53 ≤ (2 ^ 12) ^ 2 * 2 ^ 6 * (1 / 2) ^ 53 := by gcongr
      _ ≤ 1 / 2 ^ 23 := by norm_num
  obtain ⟨e, he⟩ : ∃ e, e = 45000 * n ^ 2 * v * f + 400 * n ^ 2 * w := ⟨_, rfl⟩
  have he0 : 0 ≤ e := by rw [he]; positivity
  rw [← he] at o3
  rw [← hr, show 3000 * ((n : ℝ) ^ 2 * r) * v = 3000 * X by rw [hX]; ring] at o2
  obtain ⟨h, hh⟩ : ∃ h, h = powTiny B64 n := ⟨_, rfl⟩
  have hh0 : 0 ≤ h := by rw [hh]; exact tiny_nn n
  have hnv : (n : ℝ) * v ≤ 1 / 2 ^ 41 := by
    rw [hvv]
    calc (n : ℝ) * (1 / 2) ^ 53 ≤ 2 ^ 12 * (1 / 2) ^ 53 := by gcongr
      _ ≤ 1 / 2 ^ 41 := by norm_num
  have hv1 : v ≤ 1 / 2 ^ 41 := by nlinarith
  have hg : gam B64 n ≤ 2 * (n * v) := by
    have := pow_le_lin (x := v) (p := n) hv0 (by norm_num at hnv; linarith)
    unfold gam
    rw [hu0]
    linarith
  have hG : powGrow B64 n ≤ 1 + 2 * ((n + 1) * v) := by
    have := pow_le_lin (x := v) (p := n + 1) hv0 (by push_cast; norm_num at hnv hv1; linarith)
    unfold powGrow
    rw [hu0]
    push_cast at this
    linarith
  have hh1 : h ≤ 2 * n ^ 2 * (w * w) := by
    rw [hh, ← hww]
    unfold powTiny
    have h1 : (1 + u B64) ^ n ≤ 2 := by
      unfold gam at hg
      norm_num at hnv
      linarith
    have h2 : (n : ℝ) * (n * (1 + u B64) ^ n * η B64) = n ^ 2 * η B64 * (1 + u B64) ^ n := by ring
    rw [h2, show η B64 = (1 / 2) ^ 1075 from rfl]
    have h3 : (0 : ℝ) ≤ n ^ 2 * (1 / 2) ^ 1075 := by positivity
    nlinarith
  obtain ⟨σ, hσ⟩ : ∃ σ, σ = √(r * (f + e)) := ⟨_, rfl⟩
  have hσ0 : 0 ≤ σ := by rw [hσ]; exact Real.sqrt_nonneg _
  have hσσ : σ ^ 2 = r * (f + e) := by rw [hσ, Real.sq_sqrt (by positivity)]
  obtain ⟨k1, k2⟩ := root_num (σ := σ) (g := gam B64 n) hr1 hr2 hv0 hX hX1 (grow_ge n) hG (gam_nonneg n) hg hh0 rfl hσ0
  have hfe : fro (Matrix.diagonal fun i : Fin n => val (g.re.f i)) ≤ f + e := by
    have hO' : O * Oᵀ = 1 := mul_eq_one_comm.1 o1
    have h1 := fro_add_le (mx n n fun i j => val (A i j)) (-((mx n n fun i j => val (A i j)) -
      O * Matrix.diagonal (fun i : Fin n => val (g.re.f i)) * Oᵀ))
    rw [fro_neg, show (mx n n fun i j => val (A i j)) + (-((mx n n fun i j => val (A i j)) -
      O * Matrix.diagonal (fun i : Fin n => val (g.re.f i)) * Oᵀ)) = O * Matrix.diagonal (fun i : Fin n => val (g.re.f i)) * Oᵀ by abel,
      fro_right (by rwa [Matrix.transpose_transpose]), fro_left o1, ← hf] at h1
    linarith
  have hL : fro (Matrix.diagonal fun i : Fin n => √(val (g.re.f i))) ≤ σ := by
    have d1 : ∀ d : Fin n → ℝ, fro (Matrix.diagonal d) = √(∑ i, d i ^ 2) := fun d => by
      unfold fro
      congr 1
      refine sum_congr rfl fun i _ => ?_
      rw [sum_eq_single i (fun j _ hj => by rw [Matrix.diagonal_apply_ne' _ hj]; ring) (fun h => absurd (mem_univ i) h),
        Matrix.diagonal_apply_eq]
    rw [d1] at hfe ⊢
    rw [hσ]
    refine Real.sqrt_le_sqrt ?_
    calc ∑ i : Fin n, √(val (g.re.f i)) ^ 2 = ∑ i : Fin n, val (g.re.f i) :=
          sum_congr rfl fun i _ => Real.sq_sqrt (hpos i i.2).le
      _ ≤ √(n * ∑ i : Fin n, val (g.re.f i) ^ 2) := by
          refine Real.le_sqrt_of_sq_le ?_
          have := sum_mul_sq_le_sq_mul_sq univ (fun _ : Fin n => (1 : ℝ)) (fun i : Fin n => val (g.re.f i))
          simpa using this
      _ = r * √(∑ i : Fin n, val (g.re.f i) ^ 2) := by rw [Real.sqrt_mul (by linarith), hr]
      _ ≤ r * (f + e) := mul_le_mul_of_nonneg_left hfe (by linarith)
  have hn2v : (n : ℝ) ^ 2 * v ≤ 1 / 2 ^ 29 := by
    rw [hvv]
    calc (n : ℝ) ^ 2 * (1 / 2) ^ 53 ≤ (2 ^ 12) ^ 2 * (1 / 2) ^ 53 := by gcongr
      _ ≤ 1 / 2 ^ 29 := by norm_num
  have hw2 : w ≤ (1 / 2) ^ 60 := hw1.trans (pow_le_pow_of_le_one (by norm_num) (by norm_num) (by norm_num))
  have hn2w : (n : ℝ) ^ 2 * w ≤ 1 / 1000000 := by
    calc (n : ℝ) ^ 2 * w ≤ (2 ^ 12) ^ 2 * (1 / 2) ^ 60 := by gcongr
      _ ≤ 1 / 1000000 := by norm_num
  have he1 : e ≤ f + 1 := by
    have h1 : 45000 * ((n : ℝ) ^ 2 * v) ≤ 1 := by norm_num at hn2v; linarith
    have h2 := mul_le_mul_of_nonneg_right h1 hf0
    rw [he]
    calc 45000 * (n : ℝ) ^ 2 * v * f + 400 * n ^ 2 * w = 45000 * ((n : ℝ) ^ 2 * v) * f + 400 * (n ^ 2 * w) := by ring
      _ ≤ _ := by linarith only [h2, hn2w]
  have hσb : σ ≤ 2 ^ 504 := by
    rw [hσ]
    refine Real.sqrt_le_iff.2 ⟨by positivity, ?_⟩
    have h1 : (1 : ℝ) ≤ 2 ^ 1000 := one_le_pow₀ (by norm_num)
    rw [← pow_mul, show 504 * 2 = 1000 + 8 from rfl, pow_add]
    calc r * (f + e) ≤ 2 ^ 6 * (4 * 2 ^ 1000) := by
          refine mul_le_mul hr3 ?_ (by linarith) (by positivity)
          generalize (2 : ℝ) ^ 1000 = x at *
          linarith only [hN, he1, h1, hf0]
      _ = _ := by ring
  have hσw : σ * w ≤ 1 / 1000000 := by
    calc σ * w ≤ 2 ^ 504 * (1 / 2) ^ 537 := mul_le_mul hσb hw1 hw0 (by positivity)
      _ = (1 / 2) ^ 33 := by rw [show 537 = 504 + 33 from rfl, pow_add, ← mul_assoc, ← mul_pow]; norm_num
      _ ≤ 1 / 1000000 := by norm_num
  have hh2 : h ≤ 2 * (n ^ 2 * w) * w := by linarith only [hh1]
  have hw3 : w ≤ 1 := hw2.trans (by norm_num)
  have hh3 : h ≤ n ^ 2 * w / 1000000 := by
    have h1 : w ≤ 1 / 2000000 := hw2.trans (by norm_num)
    have h2 : 0 ≤ (n : ℝ) ^ 2 * w := by positivity
    calc h ≤ 2 * (n ^ 2 * w) * w := hh2
      _ ≤ 2 * (n ^ 2 * w) * (1 / 2000000) := mul_le_mul_of_nonneg_left h1 (by linarith only [h2])
      _ = _ := by ring
  have hh4 : h ≤ 1 := by linarith only [hh3, hn2w]
  have hb : powGrow B64 n * (rootHalf B64 n (3000 * X) σ * (√n + 3000 * X)) + powTiny B64 n ≤ big B64 := by
    unfold rootHalf
    rw [← hh, ← hr]
    refine k2.trans ?_
    show _ ≤ (2 : ℝ) ^ 1023
    have h1 : (1 : ℝ) ≤ 2 ^ 504 := one_le_pow₀ (by norm_num)
    have h2 : (2 : ℝ) ^ 1023 = 2 ^ 504 * (2 ^ 20 * 2 ^ 499) := by rw [← pow_add, ← pow_add]
    have h3 : (1 : ℝ) ≤ 2 ^ 499 := one_le_pow₀ (by norm_num)
    rw [h2]
    calc 4 * (σ + h) * r + h ≤ 4 * (2 ^ 504 + 2 ^ 504) * 2 ^ 6 + 2 ^ 504 := by
          have : h ≤ 2 ^ 504 := hh4.trans h1
          gcongr
      _ ≤ 2 ^ 504 * (2 ^ 20 * 1) := by
          generalize (2 : ℝ) ^ 504 = x at *
          linarith only [h1]
      _ ≤ 2 ^ 504 * (2 ^ 20 * 2 ^ 499) := by
          generalize (2 : ℝ) ^ 504 = x at *
          generalize (2 : ℝ) ^ 499 = y at *
          have : 0 ≤ x := by linarith only [h1]
          gcongr
  obtain ⟨mr, R, q1, q2, q3, q4, q5⟩ := C112_squared hn hsym (fun i hi => ⟨r1 i hi, hpos i hi⟩) hv o1 o2 hL o3 hb
  refine ⟨mr, R, q1, q2, q3, q4, q5.trans ?_⟩
  have hE : rootErr B64 n (3000 * X) σ ≤ 6011 * X * σ + 3 * h := by
    unfold rootErr rootHalf
    rw [← hh, ← hr]
    exact k1
  have hE0 : 0 ≤ rootErr B64 n (3000 * X) σ := by
    obtain ⟨_, _, -, -, -, -, h⟩ := C112_squareRoot hn hsym (fun i hi => ⟨r1 i hi, hpos i hi⟩) hv o1 o2 hL hb
    exact (fro_nonneg _).trans h
  obtain ⟨y, hy⟩ : ∃ y, y = n ^ 3 * v := ⟨_, rfl⟩
  have hy1 : y ≤ 1 / 2 ^ 17 := by
    rw [hy, hvv]
    calc (n : ℝ) ^ 3 * (1 / 2) ^ 53 ≤ (2 ^ 12) ^ 3 * (1 / 2) ^ 53 := by gcongr
      _ ≤ 1 / 2 ^ 17 := by norm_num
  exact root_final hn1 hr2 hv0 hX hX0 hX1 hf0 he0 he hw0 hh0 hh4 hh2 hh3 hσ0 hσσ hσw hE0 hE hy hy1

/-- Concrete case: the matrix with the rows `(1, -2⁻³⁰)` and `(-2⁻³⁰, 2)` meets all hypotheses of C112_binary64 (and with them
those of C112_squareRoot and C112_squared), so its computed square root exists and is finite. -/
example : ∃ (eps : B64) (a : Mat B64 2 2) (g : Eig B64 2) (mr : Mat B64 2 2) (R : Nat → Nat → B64),
    Shows a.at 2 2 Eig.caseA ∧ Eig.newSym eps a = .ok g ∧ g.squareRoot = .ok ⟨2, 2, mr⟩ ∧ Shows mr.at 2 2 R ∧
    ∀ i j, i < 2 → j < 2 → fin (R i j) := by
  obtain ⟨eps, a, s, mt, T, g, h1, h2, h3, h4, h5, h6, h7, h8, h9, h10, h11, h12, h13, h14, h15⟩ := Eig.case_new
  obtain ⟨mr, R, e, -, hR, hf, -⟩ := C112_binary64 h1 h2 h3 (by norm_num) (by norm_num) h4 h5 h6 h7 h8 h9 h10 h11 h12 h13 h14
    fun i hi => by rcases h15 i hi with p | p <;> rw [p.2] <;> norm_num
  exact ⟨eps, a, g, mr, R, h4, h13, e, hR, hf⟩

end Linear
