import Verif.Lemmas.Weyl
import Verif.Props.SvdUse

/-!
# C117: the computed singular values and eigenvalues are near to the true ones

`IsSv A σ`: `σ` are the singular values of the real matrix `A`; `IsEv S l`: `l` are the eigenvalues of the symmetric matrix `S`
(`Lemmas/Weyl.lean`).  Both exist for every matrix and are unique (`C117_values`).  `fro M` is the Frobenius norm.
-/

set_option linter.unusedSectionVars false

namespace Linear

open Spec Rnd Matrix
open Finset hiding val diag

/-- The bound of C116 for the difference between a matrix of norm `b` and the product of the factors. -/
noncomputable def Spec.svdErr (m n K : Nat) (ε ω η b : ℝ) : ℝ := redErr m n ε η b + rotErr (75 * ε) (75 * ω) 0 (b + redErr m n ε η b) K

/-- **C117, the values exist and are unique**: every real matrix has singular values and every symmetric one has eigenvalues, in the
sense of `IsSv` and `IsEv`, and only one sequence of them. -/
theorem C117_values {m n : Nat} (A : Matrix (Fin m) (Fin n) ℝ) (S : Matrix (Fin n) (Fin n) ℝ) (hS : Sᵀ = S) :
    (∃ σ, IsSv A σ ∧ ∀ τ, IsSv A τ → ∀ i, i < n → τ i = σ i) ∧ ∃ l, IsEv S l ∧ ∀ k, IsEv S k → ∀ i, i < n → k i = l i := by
  obtain ⟨σ, hσ⟩ := exists_isSv A
  obtain ⟨l, hl⟩ := exists_isEv hS
  have z : ∀ {p q : Nat} (M : Matrix (Fin p) (Fin q) ℝ), fro (M - M) = 0 := fun M => by rw [sub_self, fro_zero']
  refine ⟨⟨σ, hσ, fun τ hτ i hi => ?_⟩, l, hl, fun k hk i hi => ?_⟩
  · have h := weyl_sv hτ hσ hi
    rw [z] at h
    exact sub_eq_zero.1 (abs_nonpos_iff.1 h)
  · have h := weyl_ev hk hl hi
    rw [z] at h
    exact sub_eq_zero.1 (abs_nonpos_iff.1 h)

/-- A nearly exact decomposition has nearly the singular values, nearly the norm and nearly the smallest stretching of the matrix. -/
theorem Spec.NearSvd.weyl {m n K : Nat} {ε ω η E : ℝ} {A U V : Nat → Nat → ℝ} {σ : Nat → ℝ} (h : NearSvd m n K ε ω η A U V σ)
    (hE : svdErr m n K ε ω η (fro (mx m n A)) ≤ E) :
    (∀ τ, IsSv (mx m n A) τ → ∀ i, i < n → |σ i - τ i| ≤ E) ∧
    (0 < n → (∀ x : Matrix (Fin n) (Fin 1) ℝ, fro (mx m n A * x) ≤ (σ 0 + E) * fro x) ∧
      (∃ x : Matrix (Fin n) (Fin 1) ℝ, x ≠ 0 ∧ (σ 0 - E) * fro x ≤ fro (mx m n A * x)) ∧
      ∀ x : Matrix (Fin n) (Fin 1) ℝ, (σ (n - 1) - E) * fro x ≤ fro (mx m n A * x)) := by
  obtain ⟨h0, h1, U₀, V₀, oU, oV, -, -, hA⟩ := h
  replace hA := hA.trans hE
  have hs := sorted_of_adj h1
  have hB := isSv_of_factors oU oV h0 hs
  have key : ∀ τ, IsSv (mx m n A) τ → ∀ i, i < n → |σ i - τ i| ≤ E := fun τ hτ i hi => by
    rw [abs_sub_comm]
    exact (weyl_sv hτ hB hi).trans hA
  refine ⟨key, fun hn => ?_⟩
  obtain ⟨τ, hτ⟩ := exists_isSv (mx m n A)
  obtain ⟨b1, b2, b3⟩ := hτ.stretch hn
  have k0 := abs_le.1 (key τ hτ 0 hn)
  have k1 := abs_le.1 (key τ hτ (n - 1) (by omega))
  refine ⟨fun x => (b1 x).trans (mul_le_mul_of_nonneg_right (by linarith) (fro_nonneg x)), ?_, fun x =>
    (mul_le_mul_of_nonneg_right (by linarith) (fro_nonneg x)).trans (b3 x)⟩
  obtain ⟨x, x0, hx⟩ := b2
  exact ⟨x, x0, (mul_le_mul_of_nonneg_right (by linarith) (fro_nonneg x)).trans hx⟩

section round

variable {α : Type} [Flt α] [Rnd α] {m n r c : Nat}

/-- **C117, singular values of a matrix with at least as many rows as columns.**  When the construction ends with finite factors, every
computed singular value is within `svdErr` of the true one; `Norm` is within it of the largest stretching of a vector by the
matrix, and the last singular value within it of the smallest stretching. -/
theorem C117_tall {κ : Svd.Lit α} {ε ω : ℝ} (he : u α ≤ ε) (hM : (r + 4) * ε ≤ 1 / 250) (hω : η α ≤ ω) (hω1 : ω ≤ 1 / 100)
    (hyp : HypNear ε κ.hyp) (f1 : fin κ.eps) (b1 : |val κ.eps| ≤ ε) (f2 : fin κ.tiny) (b2 : |val κ.tiny| ≤ ω) (hc : 0 < c)
    (hrc : c ≤ r) (fuel : Nat) {a : Mat α r c} (ha : a.own) {A : Nat → Nat → α} (hA : Shows a.at r c A)
    (F : RedFin κ.hyp r c A) {b N E : ℝ} (hb : b = fro (mx r c fun i j => val (A i j))) (hN : N = b + redErr r c ε (η α) b)
    (room : 16 * (rotErr (75 * ε) (75 * ω) 0 N (fuel * (2 * c + 2)) + N) ≤ big α)
    (hE : E = svdErr r c (fuel * (2 * c + 2)) ε ω (η α) b) {s : Svd α} (hs : Svd.new κ fuel a = .ok (some s)) :
    ∃ U V σ, HoldsSvd s r c c U V σ ∧
      ((∀ i j, i < r → j < c → fin (U i j)) → (∀ i j, i < c → j < c → fin (V i j)) →
        (∀ i, i < c → fin (σ i)) ∧ (∀ τ, IsSv (mx r c fun i j => val (A i j)) τ → ∀ i, i < c → |val (σ i) - τ i| ≤ E) ∧
        ∃ ν, s.norm2 = .ok ν ∧
          (∀ x : Matrix (Fin c) (Fin 1) ℝ, fro ((mx r c fun i j => val (A i j)) * x) ≤ (val ν + E) * fro x) ∧
          (∃ x : Matrix (Fin c) (Fin 1) ℝ, x ≠ 0 ∧ (val ν - E) * fro x ≤ fro ((mx r c fun i j => val (A i j)) * x)) ∧
          ∀ x : Matrix (Fin c) (Fin 1) ℝ, (val (σ (c - 1)) - E) * fro x ≤ fro ((mx r c fun i j => val (A i j)) * x)) := by
  rcases C116_tall he hM hω hω1 hyp f1 b1 f2 b2 hc hrc fuel ha hA F (by rw [hN, hb]) room with h | ⟨s', U, V, σ, e, hold, H⟩
  · rw [hs] at h; cases h
  · rw [hs] at e
    obtain rfl : s = s' := by injection e with e; injection e
    refine ⟨U, V, σ, hold, fun g1 g2 => ?_⟩
    obtain ⟨h1, h2⟩ := H g1 g2
    obtain ⟨w1, w2⟩ := h2.weyl (E := E) (by rw [hE, hb])
    obtain ⟨w2, w3, w4⟩ := w2 hc
    exact ⟨h1, w1, σ 0, rdL_eq_ok.2 (hold.vals.2 0 hc), w2, w3, w4⟩

/-- **C117, singular values of a matrix with more columns than rows**: they are near to those of the transposed matrix. -/
theorem C117_wide {κ : Svd.Lit α} {ε ω : ℝ} (he : u α ≤ ε) (hM : (c + 4) * ε ≤ 1 / 250) (hω : η α ≤ ω) (hω1 : ω ≤ 1 / 100)
    (hyp : HypNear ε κ.hyp) (f1 : fin κ.eps) (b1 : |val κ.eps| ≤ ε) (f2 : fin κ.tiny) (b2 : |val κ.tiny| ≤ ω) (hr : 0 < r)
    (hrc : r < c) (fuel : Nat) {a : Mat α r c} (ha : a.own) {A : Nat → Nat → α} (hA : Shows a.at r c A)
    (F : RedFin κ.hyp c r fun i j => A j i) {b N E : ℝ} (hb : b = fro (mx r c fun i j => val (A i j)))
    (hN : N = b + redErr c r ε (η α) b)
    (room : 16 * (rotErr (75 * ε) (75 * ω) 0 N (fuel * (2 * r + 2)) + N) ≤ big α)
    (hE : E = svdErr c r (fuel * (2 * r + 2)) ε ω (η α) b) {s : Svd α} (hs : Svd.new κ fuel a = .ok (some s)) :
    ∃ U V σ, HoldsSvd s r c r U V σ ∧
      ((∀ i j, i < r → j < r → fin (U i j)) → (∀ i j, i < c → j < r → fin (V i j)) →
        (∀ i, i < r → fin (σ i)) ∧ (∀ τ, IsSv (mx r c fun i j => val (A i j))ᵀ τ → ∀ i, i < r → |val (σ i) - τ i| ≤ E) ∧
        ∃ ν, s.norm2 = .ok ν ∧
          (∀ x : Matrix (Fin r) (Fin 1) ℝ, fro ((mx r c fun i j => val (A i j))ᵀ * x) ≤ (val ν + E) * fro x) ∧
          (∃ x : Matrix (Fin r) (Fin 1) ℝ, x ≠ 0 ∧ (val ν - E) * fro x ≤ fro ((mx r c fun i j => val (A i j))ᵀ * x)) ∧
          ∀ x : Matrix (Fin r) (Fin 1) ℝ, (val (σ (r - 1)) - E) * fro x ≤ fro ((mx r c fun i j => val (A i j))ᵀ * x)) := by
  have eT : (mx c r fun i j => val (A j i)) = (mx r c fun i j => val (A i j))ᵀ := rfl
  have eb : fro (mx c r fun i j => val (A j i)) = b := by rw [eT, fro_transpose, hb]
  rcases C116_wide he hM hω hω1 hyp f1 b1 f2 b2 hr hrc fuel ha hA F (by rw [hN, eb]) room with h | ⟨s', U, V, σ, e, hold, H⟩
  · rw [hs] at h; cases h
  · rw [hs] at e
    obtain rfl : s = s' := by injection e with e; injection e
    refine ⟨U, V, σ, hold, fun g1 g2 => ?_⟩
    obtain ⟨h1, h2⟩ := H g1 g2
    obtain ⟨w1, w2⟩ := h2.weyl (E := E) (by rw [hE, eb])
    obtain ⟨w2, w3, w4⟩ := w2 hr
    rw [eT] at w1 w2 w3 w4
    exact ⟨h1, w1, σ 0, rdL_eq_ok.2 (hold.vals.2 0 hr), w2, w3, w4⟩

/-- **C117, eigenvalues of a symmetric matrix**: every computed eigenvalue is near to the true one of the same rank. -/
theorem C117_symmetric [ZeroLaws α] {eps : α} {ε θ t : ℝ} (he : u α ≤ ε) (hM : (n + 4) * ε ≤ 1 / 100) (fe : fin eps)
    (hθe : |val eps| ≤ θ) (hθ : θ ≤ 1) {a : Mat α n n} (ha : a.own) (hn : 0 < n) {A : Nat → Nat → α}
    (hA : Shows a.at n n A) {s : Tri α n n} (hs : Tri.new a = .ok s) {mt : Mat α n n} {T : Nat → Nat → α}
    (et : s.t = .ok ⟨n, n, mt⟩) (hT : Shows mt.at n n T) (hd : ∀ i, i < n → fin (T i i))
    (hsec : ∀ i, i + 1 < n → Scaled n ε (T i (i + 1)))
    (ht : fro (upSym n A) + triErr α n (n - 1) ε (fro (upSym n A)) ≤ t) (hbig : 16 * qlSize α n ε t ≤ big α)
    {g : Eig α n} (hg : Eig.newSym eps a = .ok g) (hv : ∀ i j, i < n → j < n → fin (g.vec.f i j)) :
    ∀ l, IsEv (upSym n A) l → ∀ i, i < n →
      |val (g.re.f i) - l i| ≤ triErr α n (n - 1) ε (fro (upSym n A)) + qlErr α n ε θ t := by
  obtain ⟨-, h1, -, O, oO, -, h2⟩ := C109_symmetric he hM fe hθe hθ ha hn hA hs et hT hd hsec ht hbig hg hv
  intro l hl i hi
  have hB : IsEv (O * Matrix.diagonal (fun i : Fin n => val (g.re.f i)) * Oᵀ) fun i => val (g.re.f i) :=
    ⟨fun i j hij hj => (Nat.eq_or_lt_of_le hij).elim (fun e => by rw [e]) fun h => h1 i j h hj, O, oO, rfl⟩
  have h3 := weyl_ev hl hB hi
  rw [abs_sub_comm]
  exact h3.trans h2

end round

/-- **C117, binary64, singular values**, with the literals of the code and `math.Hypot` where its result is not below `2⁻¹⁰⁰⁰`. -/
theorem C117_binary64_svd {r c : Nat} {κ : Svd.Lit B64} (L : B64.SvdLit κ) (hyp : κ.hyp = B64.guard ((1 / 2) ^ 1000) B64.hypot)
    (hc : 0 < c) (hrc : c ≤ r) (hr : r ≤ 2 ^ 40) (fuel : Nat) {a : Mat B64 r c} (ha : a.own) {A : Nat → Nat → B64}
    (hA : Shows a.at r c A) (F : RedFin κ.hyp r c A) {b N E : ℝ} (hb : b = fro (mx r c fun i j => val (A i j)))
    (hN : N = b + redErr r c ((1 / 2) ^ 52) ((1 / 2) ^ 1075) b)
    (room : 16 * (rotErr (75 * (1 / 2) ^ 52) (75 * (1 / 2) ^ 966) 0 N (fuel * (2 * c + 2)) + N) ≤ 2 ^ 1023)
    (hE : E = svdErr r c (fuel * (2 * c + 2)) ((1 / 2) ^ 52) ((1 / 2) ^ 966) ((1 / 2) ^ 1075) b) {s : Svd B64}
    (hs : Svd.new κ fuel a = .ok (some s)) :
    ∃ U V σ, HoldsSvd s r c c U V σ ∧
      ((∀ i j, i < r → j < c → fin (U i j)) → (∀ i j, i < c → j < c → fin (V i j)) →
        ∀ τ, IsSv (mx r c fun i j => val (A i j)) τ → ∀ i, i < c → |val (σ i) - τ i| ≤ E) := by
  rcases C116_binary64 L hyp hc hrc hr fuel ha hA F (by rw [hN, hb]) room with h | ⟨s', U, V, σ, e, hold, H⟩
  · rw [hs] at h; cases h
  · rw [hs] at e
    obtain rfl : s = s' := by injection e with e; injection e
    exact ⟨U, V, σ, hold, fun g1 g2 => ((H g1 g2).2.weyl (E := E) (by rw [hE, hb])).1⟩

/-- **C117, binary64, eigenvalues** of a symmetric matrix with up to 65536 rows. -/
theorem C117_binary64_symmetric {n : Nat} {eps : B64} (fe : fin eps) (hε : val eps = (1 / 2) ^ 53) {a : Mat B64 n n} (ha : a.own)
    (hn : 0 < n) (hn' : n ≤ 2 ^ 16) {A : Nat → Nat → B64} (hA : Shows a.at n n A)
    (hS : ∀ i j, i < n → j < n → A i j = A j i) {s : Tri B64 n n} (hs : Tri.new a = .ok s)
    {mt : Mat B64 n n} {T : Nat → Nat → B64} (et : s.t = .ok ⟨n, n, mt⟩) (hT : Shows mt.at n n T)
    (hfin : ∀ i j, i < n → j < n → fin (T i j))
    (hlow : ∀ i, i + 1 < n → val (T i (i + 1)) = 0 ∨ n * (1 / 2) ^ 1020 ≤ val (T i (i + 1)) ^ 2)
    (hhigh : ∀ i, i + 1 < n → |val (T i (i + 1))| ≤ 2 ^ 510) (hN : fro (mx n n fun i j => val (A i j)) ≤ 2 ^ 1000)
    {g : Eig B64 n} (hg : Eig.newSym eps a = .ok g) (hv : ∀ i j, i < n → j < n → fin (g.vec.f i j)) :
    ∀ l, IsEv (mx n n fun i j => val (A i j)) l → ∀ i, i < n → |val (g.re.f i) - l i| ≤
      45000 * n ^ 2 * (1 / 2) ^ 53 * fro (mx n n fun i j => val (A i j)) + 400 * n ^ 2 * √((1 / 2) ^ 1075) := by
  obtain ⟨-, h1, ⟨O, oO, -, h2⟩, -⟩ := C109_binary64 fe hε ha hn hn' hA hS hs et hT hfin hlow hhigh hN hg hv
  intro l hl i hi
  have hB : IsEv (O * Matrix.diagonal (fun i : Fin n => val (g.re.f i)) * Oᵀ) fun i => val (g.re.f i) :=
    ⟨fun i j hij hj => (Nat.eq_or_lt_of_le hij).elim (fun e => by rw [e]) fun h => h1 i j h hj, O, oO, rfl⟩
  have h3 := weyl_ev hl hB hi
  rw [abs_sub_comm]
  exact h3.trans h2

/-! ## Exact arithmetic -/

theorem fro_fro2 {m n : Nat} (M : Matrix (Fin m) (Fin n) ℝ) : fro M = √(fro2 M) := rfl

/-- **C117, exact arithmetic, singular values**: for a matrix with at least as many rows as columns they differ from the true ones by no
more than the neglected entries. -/
theorem C117_exact_svd {r c : Nat} {κ : Svd.Lit ℝ} (hh : Spec.Hypot κ.hyp) (ht : 0 ≤ κ.tiny) (hε : 0 ≤ κ.eps) (fuel : Nat)
    {a : Mat ℝ r c} (ha : a.own) (hc : 0 < c) (hrc : c ≤ r) {A : Nat → Nat → ℝ} (hA : Shows a.at r c A) {s : Svd ℝ}
    (hs : Svd.new κ fuel a = .ok (some s)) :
    ∃ U V σ, HoldsSvd s r c c U V σ ∧ ∀ τ, IsSv (mx r c A) τ → ∀ i, i < c →
      |σ i - τ i| ≤ (c - 1 : Nat) * (κ.tiny + 2 * κ.eps * fro (mx r c A)) := by
  obtain ⟨U, V, σ, h1, h2, h3, h4, h5, h6⟩ := C68_factors hh ht hε fuel ha (by omega) hc hA (N := fro (mx r c A)) (fro_nonneg _)
    (fro_sq _).ge hs
  rw [min_eq_right hrc] at h1 h2 h3 h4 h5 h6
  refine ⟨U, V, σ, h1, fun τ hτ i hi => ?_⟩
  have hB := isSv_of_factors h2 h3 h5 (sorted_of_adj h6)
  refine (weyl_sv hB hτ hi).trans ?_
  rw [fro_fro2]
  refine (Real.sqrt_le_sqrt h4).trans_eq (Real.sqrt_sq ?_)
  have := fro_nonneg (mx r c A)
  positivity

/-- **C117, exact arithmetic, eigenvalues** of a symmetric matrix, given by its upper triangle. -/
theorem C117_exact_symmetric {n : Nat} {eps : ℝ} (heps : 0 ≤ eps) {a : Mat ℝ n n} (ha : a.own) (hn : 0 < n)
    {A : Nat → Nat → ℝ} (hA : Shows a.at n n A) {s : Eig ℝ n} (h : Eig.newSym eps a = .ok s) :
    ∀ l, IsEv (mx n n (symU A)) l → ∀ i, i < n → |s.re.f i - l i| ≤ √(8 * n) * eps * fro (mx n n (symU A)) := by
  obtain ⟨-, -, h1, M, ⟨oO, hM⟩, h2⟩ := C41_decomposition heps ha hn hA h
  intro l hl i hi
  refine (weyl_ev (S := M) ⟨fun i j hij hj => ?_, _, oO, hM.symm⟩ hl hi).trans ?_
  · rcases hij.eq_or_lt with rfl | h
    exacts [le_rfl, h1 i j h hj]
  · rw [fro_fro2]
    refine (Real.sqrt_le_sqrt h2).trans_eq ?_
    rw [Real.sqrt_mul (by positivity), Real.sqrt_mul (by positivity), Real.sqrt_sq heps, fro_fro2]

/-! ## Cases -/

/-- The hypotheses of `C117_binary64_svd` are met by the matrix ((0, 4), (0, 0)), and those of `C117_binary64_symmetric` by the matrix
of `Eig.case_new`. -/
example : ∃ (κ : Svd.Lit B64) (a : Mat B64 2 2) (A : Nat → Nat → B64) (s : Svd B64) (σ : Nat → B64),
    val (A 0 1) = 4 ∧ Shows a.at 2 2 A ∧ Svd.new κ 3 a = .ok (some s) ∧ val (σ 0) = 4 ∧
    ∀ τ, IsSv (mx 2 2 fun i j => val (A i j)) τ → ∀ i, i < 2 → |val (σ i) - τ i| ≤
      svdErr 2 2 (3 * (2 * 2 + 2)) ((1 / 2) ^ 52) ((1 / 2) ^ 966) ((1 / 2) ^ 1075) (fro (mx 2 2 fun i j => val (A i j))) := by
  obtain ⟨κ, a, A, s, U, V, σ, N, -, -, -, L, hyp, own, sh, k, F, hN, room, hs, hold, g1, g2, s0, s1⟩ :=
    Svd.case_new Flt.zero fun _ => Flt.zero
  obtain ⟨U', V', σ', hold', H⟩ := C117_binary64_svd L hyp (by norm_num) le_rfl (by norm_num) 3 own sh F rfl hN room rfl hs
  have eU : ∀ i j, i < 2 → j < 2 → U' i j = U i j := fun i j hi hj => by
    obtain ⟨x, ex, -, h1⟩ := hold.left
    obtain ⟨y, ey, -, h2⟩ := hold'.left
    rw [ex] at ey
    cases ey
    exact h2.unique h1 hi hj
  have eV : ∀ i j, i < 2 → j < 2 → V' i j = V i j := fun i j hi hj => by
    obtain ⟨x, ex, -, h1⟩ := hold.right
    obtain ⟨y, ey, -, h2⟩ := hold'.right
    rw [ex] at ey
    cases ey
    exact h2.unique h1 hi hj
  have eσ : σ' 0 = σ 0 := by
    have h1 := hold.vals.2 0 (by norm_num)
    have h2 := hold'.vals.2 0 (by norm_num)
    rw [h1] at h2
    exact (Option.some.inj h2).symm
  exact ⟨κ, a, A, s, σ', k, sh, hs, by rw [eσ, s0], H (fun i j hi hj => by rw [eU i j hi hj]; exact g1 i j hi hj)
    fun i j hi hj => by rw [eV i j hi hj]; exact g2 i j hi hj⟩

example : ∃ (eps : B64) (a : Mat B64 2 2) (g : Eig B64 2), Shows a.at 2 2 Eig.caseA ∧ Eig.newSym eps a = .ok g ∧
    ∀ l, IsEv (mx 2 2 fun i j => val (Eig.caseA i j)) l → ∀ i, i < 2 → |val (g.re.f i) - l i| ≤
      45000 * (2 : Nat) ^ 2 * (1 / 2) ^ 53 * fro (mx 2 2 fun i j => val (Eig.caseA i j)) + 400 * (2 : Nat) ^ 2 * √((1 / 2) ^ 1075) := by
  obtain ⟨eps, a, s, mt, T, g, fe, hε, own, sh, hS, hs, et, hT, hfin, hlow, hhigh, hN, hg, hv, -⟩ := Eig.case_new
  exact ⟨eps, a, g, sh, hg, C117_binary64_symmetric fe hε own (by norm_num) (by norm_num) sh hS hs et hT hfin hlow hhigh hN hg hv⟩

end Linear
