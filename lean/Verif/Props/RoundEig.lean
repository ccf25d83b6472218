import Verif.Lemmas.RoundEig
import Verif.Lemmas.B64Eval
import Verif.Props.RoundTriQ
import Verif.Props.Eigen

/-!
# C108, C109: the symmetric eigen decomposition in rounded arithmetic

`fro M` is the Frobenius norm.  The theorems hold for every arithmetic that satisfies `Rnd`, in particular
for `B64`.  `V` is the matrix with the computed vectors as columns and `D` the diagonal matrix of the
computed eigenvalues.  The hypotheses are that the computed vectors are finite and that the norm of the
matrix is far from overflow; that the eigenvalues are finite is part of the conclusion.
-/

set_option linter.unusedSectionVars false

namespace Linear

open Spec Rnd Matrix
open Finset hiding val diag

section round

variable {α : Type} [Flt α] [Rnd α] {n : Nat}

/-- What nearness to an orthogonal matrix means for the computed vectors and eigenvalues: they are almost orthonormal, and
`S V` is almost `V D`. -/
theorem near_eigen {S O : Matrix (Fin n) (Fin n) ℝ} {V : Nat → Nat → ℝ} {D : Matrix (Fin n) (Fin n) ℝ} {δ e b : ℝ}
    (hO : Oᵀ * O = 1) (hV : fro (mx n n V - O) ≤ δ) (hS : fro (S - O * D * Oᵀ) ≤ e) (hb : fro D ≤ b) :
    (∀ i j : Fin n, |∑ k ∈ range n, V k i * V k j - if i = j then 1 else 0| ≤ 2 * δ + δ ^ 2) ∧
      fro (S * mx n n V - mx n n V * D) ≤ e * (1 + δ) + 2 * δ * b := by
  refine ⟨near_orth hO fun j => (cnorm_le_fro _ j).trans hV, ?_⟩
  obtain ⟨F, hF⟩ : ∃ F, F = mx n n V - O := ⟨_, rfl⟩
  rw [← hF] at hV
  have eV : mx n n V = O + F := by rw [hF]; abel
  have hO' : O * Oᵀ = 1 := mul_eq_one_comm.1 hO
  have e1 : S * mx n n V - mx n n V * D =
      (S - O * D * Oᵀ) * O + ((S - O * D * Oᵀ) * F + (O * (D * (Oᵀ * F)) + -(F * D))) := by
    rw [eV]
    simp only [Matrix.mul_add, Matrix.add_mul, Matrix.sub_mul, Matrix.mul_assoc, hO, Matrix.mul_one]
    abel
  have b1 := fro_add_le ((S - O * D * Oᵀ) * O) ((S - O * D * Oᵀ) * F + (O * (D * (Oᵀ * F)) + -(F * D)))
  have b2 := fro_add_le ((S - O * D * Oᵀ) * F) (O * (D * (Oᵀ * F)) + -(F * D))
  have b3 := fro_add_le (O * (D * (Oᵀ * F))) (-(F * D))
  have b4 := fro_mul_le (S - O * D * Oᵀ) F
  have b5 := fro_mul_le D (Oᵀ * F)
  have b6 := fro_mul_le F D
  rw [← e1, fro_right hO'] at b1
  rw [fro_neg, fro_left hO] at b3
  have e2 : fro (Oᵀ * F) = fro F := fro_left (by rw [Matrix.transpose_transpose]; exact hO') F
  rw [e2] at b5
  have p1 := fro_nonneg F
  have p2 := fro_nonneg D
  have p3 := fro_nonneg (S - O * D * Oᵀ)
  have q1 : fro (S - O * D * Oᵀ) * fro F ≤ e * δ := mul_le_mul hS hV p1 (p3.trans hS)
  have q2 : fro D * fro F ≤ b * δ := mul_le_mul hb hV p1 (p2.trans hb)
  linarith

/-! ## The constructor from two diagonals -/

/-- **C108.** Decomposition of the symmetric tridiagonal matrix `T` with finite diagonals.  When the vectors are finite:
* all eigenvalues are finite, real and sorted;
* `V` is near to an exactly orthogonal matrix `O`, and `O D Oᵀ` is near to `T`;
* `V` is almost orthonormal and `T V` almost `V D`. -/
theorem C108_tridiagonal {l : Nat} {eps : α} {ε θ t : ℝ} (he : u α ≤ ε) (he1 : ε ≤ 1 / 100) (fe : fin eps)
    (hθe : |val eps| ≤ θ) (hθ : θ ≤ 1) {main : Row α n} {sec : Row α l} (hn : 0 < n) (hl : n - 1 ≤ l)
    (f1 : ∀ i, i < n → fin (main.f i)) (f2 : ∀ i, i + 1 < n → fin (sec.f i))
    {T : Nat → Nat → ℝ} (h1 : ∀ i, i < n → T i i = val (main.f i))
    (h2 : ∀ i, i + 1 < n → T i (i + 1) = val (sec.f i) ∧ T (i + 1) i = val (sec.f i))
    (h3 : ∀ i j, i < n → j < n → i + 1 < j ∨ j + 1 < i → T i j = 0)
    (ht : fro (mx n n T) ≤ t) (hbig : 16 * qlSize α n ε t ≤ big α)
    {g : Eig α n} (hg : Eig.ofTri eps main sec = .ok g) (hv : ∀ i j, i < n → j < n → fin (g.vec.f i j)) :
    (∀ i, i < n → fin (g.re.f i) ∧ g.im.f i = Flt.zero) ∧ (∀ i j, i < j → j < n → val (g.re.f j) ≤ val (g.re.f i)) ∧
    (∃ O : Matrix (Fin n) (Fin n) ℝ, Oᵀ * O = 1 ∧
      fro ((mx n n fun i j => val (g.vec.f j i)) - O) ≤ qlVec α n ε 0 ∧
      fro (mx n n T - O * Matrix.diagonal (fun i : Fin n => val (g.re.f i)) * Oᵀ) ≤ qlErr α n ε θ t) ∧
    (∀ i j : Fin n, |∑ k ∈ range n, val (g.vec.f i k) * val (g.vec.f j k) - if i = j then 1 else 0| ≤
      2 * qlVec α n ε 0 + qlVec α n ε 0 ^ 2) ∧
    fro (mx n n T * (mx n n fun i j => val (g.vec.f j i)) -
        (mx n n fun i j => val (g.vec.f j i)) * Matrix.diagonal (fun i : Fin n => val (g.re.f i))) ≤
      qlErr α n ε θ t * (1 + qlVec α n ε 0) + 2 * qlVec α n ε 0 * qlSize α n ε t := by
  obtain ⟨z, hz, e⟩ := Eig.ofTri_eq eps main sec
  rw [e] at hg
  have hTT : (mx n n fun i j => val (Tri.tEnt main.f sec.f i j)) = mx n n T := by
    refine mx_congr fun i j hi hj => ?_
    unfold Tri.tEnt
    by_cases c1 : i = j
    · subst c1; rw [if_pos rfl, h1 i hi]
    · rw [if_neg c1]
      by_cases c2 : i = j + 1
      · subst c2; rw [if_pos rfl, (h2 j hi).2]
      · rw [if_neg c2]
        by_cases c3 : j = i + 1
        · subst c3; rw [if_pos rfl, (h2 i hj).1]
        · rw [if_neg c3, val_zero, h3 i j hi hj (by omega)]
  obtain ⟨-, r1, r2, r3, r4⟩ := Eig.findSym_round he he1 fe hθe hθ hn hl f1 f2 (by rw [hTT]; exact ht) hbig hg hv
  have hz1 : Eig.zM z = 1 := by
    ext i j
    show val (z.f i j) = _
    rw [hz i j i.2 j.2, Matrix.one_apply]
    by_cases hij : i = j
    · rw [if_pos hij, if_pos (congrArg Fin.val hij), val_one]
    · rw [if_neg hij, if_neg (fun h => hij (Fin.ext h)), val_zero]
  obtain ⟨O, o1, o2, o3⟩ := r4 0 1 le_rfl (by simp) (by rw [hz1, sub_self]; unfold fro; simp)
  rw [hTT, Matrix.one_mul, Matrix.transpose_one, Matrix.mul_one] at o3
  have him : g.im = Row.zero n := by
    obtain ⟨s0, s1, -, -, ⟨f, -, hf⟩ | ⟨x, y, d, v, -, -, -, -, hgg⟩⟩ := Eig.findSym_ok eps main sec z hn hl
    · rw [hg] at hf; cases hf
    · rw [hg] at hgg; rw [Except.ok.inj hgg]
  obtain ⟨n1, n2⟩ := near_eigen o1 o2 o3 r3
  exact ⟨fun i hi => ⟨r1 i hi, by rw [him]; rfl⟩, r2, ⟨O, o1, o2, o3⟩, n1, n2⟩

/-! ## The constructor from a symmetric matrix -/

/-- **C109.** Decomposition of a square matrix as symmetric; `S` is the symmetric matrix that has the upper triangle of the
argument.  When the tridiagonal matrix of the reduction and the computed vectors are finite and nothing underflows in the
reduction (as in C106): all eigenvalues are finite, real and sorted; `V` is near to an exactly orthogonal matrix `O`, and `O D Oᵀ`
is near to `S`. -/
theorem C109_symmetric [ZeroLaws α] {eps : α} {ε θ t : ℝ} (he : u α ≤ ε) (hM : (n + 4) * ε ≤ 1 / 100) (fe : fin eps)
    (hθe : |val eps| ≤ θ) (hθ : θ ≤ 1) {a : Mat α n n} (ha : a.own) (hn : 0 < n) {A : Nat → Nat → α}
    (hA : Shows a.at n n A) {s : Tri α n n} (hs : Tri.new a = .ok s) {mt : Mat α n n} {T : Nat → Nat → α}
    (et : s.t = .ok ⟨n, n, mt⟩) (hT : Shows mt.at n n T) (hd : ∀ i, i < n → fin (T i i))
    (hsec : ∀ i, i + 1 < n → Scaled n ε (T i (i + 1)))
    (ht : fro (upSym n A) + triErr α n (n - 1) ε (fro (upSym n A)) ≤ t) (hbig : 16 * qlSize α n ε t ≤ big α)
    {g : Eig α n} (hg : Eig.newSym eps a = .ok g) (hv : ∀ i j, i < n → j < n → fin (g.vec.f i j)) :
    (∀ i, i < n → fin (g.re.f i) ∧ g.im.f i = Flt.zero) ∧ (∀ i j, i < j → j < n → val (g.re.f j) ≤ val (g.re.f i)) ∧
    fro (Matrix.diagonal fun i : Fin n => val (g.re.f i)) ≤ qlSize α n ε t ∧
    ∃ O : Matrix (Fin n) (Fin n) ℝ, Oᵀ * O = 1 ∧
      fro ((mx n n fun i j => val (g.vec.f j i)) - O) ≤ qlVec α n ε (√n * hhErr α n (n - 1) ε 1) ∧
      fro (upSym n A - O * Matrix.diagonal (fun i : Fin n => val (g.re.f i)) * Oᵀ) ≤
        triErr α n (n - 1) ε (fro (upSym n A)) + qlErr α n ε θ t := by
  have he0 : 0 ≤ ε := (u_nonneg (α := α)).trans he
  have hn0 : (0 : ℝ) ≤ n := Nat.cast_nonneg n
  have he1 : ε ≤ 1 / 100 := by nlinarith
  obtain ⟨g1, d, hI, hmain⟩ := Tri.new_round ha hn hA hs et hT he hM hd hsec
  have hl := hI.last hn he hM hmain g1 rfl
  obtain ⟨mqt, q, eqt, hdt, hqt, hq⟩ := Tri.qT_round hn s he hM hI.refl
  obtain ⟨mq, eq', hdq, hsq⟩ := C12_transpose hdt hn hqt
  have e1 : s.q = .ok ⟨n, n, mq⟩ := by
    unfold Tri.q
    rw [eqt, ok_bind]
    dsimp only
    rw [eq']
    rfl
  obtain ⟨z, ez, hz⟩ := Schur.tab_ok (Mat.dense_own hdq) hn hsq
  unfold Eig.newSym at hg
  rw [hs, ok_bind, e1, ok_bind, ez, ok_bind] at hg
  have hTT : (mx n n fun i j => val (Tri.tEnt s.main.f s.sec.f i j)) = mx n n fun i j => val (T i j) :=
    mx_congr fun i j hi hj => congrArg val (g1 i j hi hj).symm
  have f1 : ∀ i, i < n → fin (s.main.f i) := fun i hi => by
    have := hd i hi
    rwa [g1 i i hi hi, Tri.tEnt, if_pos rfl] at this
  have f2 : ∀ i, i + 1 < n → fin (s.sec.f i) := fun i hi => by
    have := (hsec i hi).1
    rwa [g1 i (i + 1) (by omega) hi, Tri.tEnt, if_neg (by omega), if_neg (by omega), if_pos rfl] at this
  obtain ⟨Q₀, hQ₀⟩ : ∃ Q₀, Q₀ = hprod n (Tri.XH n (vals s.hv.f) (vals1 s.sec.f)) (n - 1) := ⟨_, rfl⟩
  have hl1 : Q₀ᵀ * Q₀ = 1 := by rw [hQ₀]; exact hl.1
  have hl2 : fro (upSym n A - Q₀ * (mx n n fun i j => val (T i j)) * Q₀ᵀ) ≤ triErr α n (n - 1) ε (fro (upSym n A)) := by
    rw [hQ₀]; exact hl.2
  have hTn : fro (mx n n fun i j => val (T i j)) ≤ t := by
    have hQ' : Q₀ᵀ * (Q₀ᵀ)ᵀ = 1 := by rw [Matrix.transpose_transpose]; exact hl1
    have e2 : fro (mx n n fun i j => val (T i j)) = fro (Q₀ * (mx n n fun i j => val (T i j)) * Q₀ᵀ) := by
      rw [fro_right hQ', fro_left hl1]
    rw [e2, show Q₀ * (mx n n fun i j => val (T i j)) * Q₀ᵀ =
      upSym n A + -(upSym n A - Q₀ * (mx n n fun i j => val (T i j)) * Q₀ᵀ) by abel]
    refine (fro_add_le _ _).trans ?_
    rw [fro_neg]
    linarith
  obtain ⟨r0, r1, r2, r3, r4⟩ := Eig.findSym_round he he1 fe hθe hθ hn (by omega) f1 f2 (by rw [hTT]; exact hTn) hbig hg hv
  have hqf : ∀ i j, i < n → j < n → fin (q i j) := fun i j hi hj => by
    rw [← hz j i hj hi]; exact r0 j i hj hi
  have hδ0 : 0 ≤ hhErr α n (n - 1) ε 1 := hhErr_nonneg he0
  have hzq : fro (Eig.zM z - Q₀) ≤ √n * hhErr α n (n - 1) ε 1 := by
    refine fro_near le_rfl hδ0 fun j => ?_
    have := hq hqf j
    unfold hhErr
    rw [mul_one, hQ₀]
    refine le_trans (le_of_eq ?_) this
    congr 2
    exact mx_congr fun i j hi hj => congrArg val (hz i j hi hj)
  obtain ⟨O, o1, o2, o3⟩ := r4 _ Q₀ (by positivity) hl1 hzq
  rw [hTT] at o3
  have him : g.im = Row.zero n := by
    obtain ⟨s0, s1, -, -, ⟨f, -, hf⟩ | ⟨x, y, d, v, -, -, -, -, hgg⟩⟩ :=
      Eig.findSym_ok eps s.main s.sec z hn (by omega)
    · rw [hg] at hf; cases hf
    · rw [hg] at hgg; rw [Except.ok.inj hgg]
  refine ⟨fun i hi => ⟨r1 i hi, by rw [him]; rfl⟩, r2, r3, O, o1, o2, ?_⟩
  rw [show upSym n A - O * Matrix.diagonal (fun i : Fin n => val (g.re.f i)) * Oᵀ =
    (upSym n A - Q₀ * (mx n n fun i j => val (T i j)) * Q₀ᵀ) +
      (Q₀ * (mx n n fun i j => val (T i j)) * Q₀ᵀ - O * Matrix.diagonal (fun i : Fin n => val (g.re.f i)) * Oᵀ) by abel]
  exact (fro_add_le _ _).trans (add_le_add hl2 o3)

/-- **C109.** The computed vectors are almost orthonormal, and each belongs to its eigenvalue: `S V` is almost `V D`. -/
theorem C109_pairs [ZeroLaws α] {eps : α} {ε θ t δ e : ℝ} (he : u α ≤ ε) (hM : (n + 4) * ε ≤ 1 / 100) (fe : fin eps)
    (hθe : |val eps| ≤ θ) (hθ : θ ≤ 1) {a : Mat α n n} (ha : a.own) (hn : 0 < n) {A : Nat → Nat → α}
    (hA : Shows a.at n n A) {s : Tri α n n} (hs : Tri.new a = .ok s) {mt : Mat α n n} {T : Nat → Nat → α}
    (et : s.t = .ok ⟨n, n, mt⟩) (hT : Shows mt.at n n T) (hd : ∀ i, i < n → fin (T i i))
    (hsec : ∀ i, i + 1 < n → Scaled n ε (T i (i + 1)))
    (ht : fro (upSym n A) + triErr α n (n - 1) ε (fro (upSym n A)) ≤ t) (hbig : 16 * qlSize α n ε t ≤ big α)
    {g : Eig α n} (hg : Eig.newSym eps a = .ok g) (hv : ∀ i j, i < n → j < n → fin (g.vec.f i j))
    (hδ : qlVec α n ε (√n * hhErr α n (n - 1) ε 1) ≤ δ)
    (herr : triErr α n (n - 1) ε (fro (upSym n A)) + qlErr α n ε θ t ≤ e) :
    (∀ i j : Fin n, |∑ k ∈ range n, val (g.vec.f i k) * val (g.vec.f j k) - if i = j then 1 else 0| ≤
      2 * δ + δ ^ 2) ∧
    fro (upSym n A * (mx n n fun i j => val (g.vec.f j i)) -
        (mx n n fun i j => val (g.vec.f j i)) * Matrix.diagonal (fun i : Fin n => val (g.re.f i))) ≤
      e * (1 + δ) + 2 * δ * qlSize α n ε t := by
  obtain ⟨-, -, r3, O, o1, o2, o3⟩ := C109_symmetric he hM fe hθe hθ ha hn hA hs et hT hd hsec ht hbig hg hv
  exact near_eigen o1 (o2.trans hδ) (o3.trans herr) r3

/-! ## Linear bounds -/

theorem qlSteps_le (hn : 0 < n) : (qlSteps n : ℝ) ≤ 61 * n ^ 2 := by
  have : qlSteps n ≤ 61 * n ^ 2 := by
    unfold qlSteps
    nlinarith
  exact_mod_cast this

theorem qlSize_le (hn : 0 < n) {ε t : ℝ} (hε : 0 ≤ ε) (ht : 0 ≤ t) (h : 21350 * n ^ 2 * ε ≤ 1 / 2) :
    qlSize α n ε t ≤ t + 42700 * n ^ 2 * ε * t + 42700 * n ^ 2 * η α := by
  have hη := η_nonneg (α := α)
  have h1 := qlSteps_le hn
  have hN : (0 : ℝ) ≤ qlSteps n := Nat.cast_nonneg _
  have h2 : (qlSteps n : ℝ) * (350 * ε) ≤ 21350 * n ^ 2 * ε := by nlinarith
  have h3 := pow_le_lin (p := qlSteps n) (x := 350 * ε) (by positivity) (by linarith)
  unfold qlSize
  have h4 : (1 + 350 * ε) ^ qlSteps n * t ≤ (1 + 42700 * n ^ 2 * ε) * t :=
    mul_le_mul_of_nonneg_right (by linarith) ht
  have h5 : (1 + 350 * ε) ^ qlSteps n * (qlSteps n * (350 * η α)) ≤ 2 * (61 * n ^ 2 * (350 * η α)) :=
    mul_le_mul (by linarith) (mul_le_mul_of_nonneg_right h1 (by positivity)) (by positivity) (by norm_num)
  linarith

theorem qlErr_le (hn : 0 < n) {ε θ t : ℝ} (hε : 0 ≤ ε) (hθ : 0 ≤ θ) (ht : 0 ≤ t) (h : 21350 * n ^ 2 * ε ≤ 1 / 2) :
    qlErr α n ε θ t ≤ (42700 * n ^ 2 * ε + 8 * n * θ) * t + (42700 * n ^ 2 + 170800 * n ^ 3 * θ + 2 * n) * η α := by
  have h1 := qlSize_le (α := α) hn hε ht h
  have h2 : 42700 * (n : ℝ) ^ 2 * ε * t ≤ 1 * t := mul_le_mul_of_nonneg_right (by linarith) ht
  have h3 : (n : ℝ) * θ * qlSize α n ε t ≤ n * θ * (2 * t + 42700 * n ^ 2 * η α) :=
    mul_le_mul_of_nonneg_left (by linarith) (by positivity)
  unfold qlErr
  linarith

theorem qlVec_le (hn : 0 < n) {ε E : ℝ} (hε : 0 ≤ ε) (hE : 0 ≤ E) (h : 21350 * n ^ 2 * ε ≤ 1 / 2) :
    qlVec α n ε E ≤ 2 * E + 2684 * (n ^ 2 * √n) * ε + 610 * (n ^ 2 * √n) * η α := by
  have hη := η_nonneg (α := α)
  have h1 := qlSteps_le hn
  have hN : (0 : ℝ) ≤ qlSteps n := Nat.cast_nonneg _
  have h2 : (qlSteps n : ℝ) * (22 * ε) ≤ 1342 * n ^ 2 * ε := by nlinarith
  have h3 := pow_le_lin (p := qlSteps n) (x := 22 * ε) (by positivity) (by nlinarith)
  have hs := Real.sqrt_nonneg (n : ℝ)
  unfold qlVec rotErr
  have h4 : (1 + 22 * ε) ^ qlSteps n * √n ≤ (1 + 2684 * n ^ 2 * ε) * √n := mul_le_mul_of_nonneg_right (by linarith) hs
  have h6 : (1 + 22 * ε) ^ qlSteps n ≤ 2 := by nlinarith
  have h5 : (1 + 22 * ε) ^ qlSteps n * (qlSteps n * (√n * (5 * η α))) ≤ 2 * (61 * n ^ 2 * (√n * (5 * η α))) :=
    mul_le_mul h6 (mul_le_mul_of_nonneg_right h1 (by positivity)) (by positivity) (by norm_num)
  have h7 : (1 + 22 * ε) ^ qlSteps n * E ≤ 2 * E := mul_le_mul_of_nonneg_right h6 hE
  linarith

end round

/-! ## binary64 -/

theorem B64.qlBounds {n : Nat} (hn : 0 < n) (hn' : n ≤ 2 ^ 16) {t E : ℝ} (ht : 0 ≤ t) (hE : 0 ≤ E) :
    (t ≤ 2 ^ 1001 → 16 * qlSize B64 n ((1 / 2) ^ 53) t ≤ big B64) ∧
    qlErr B64 n ((1 / 2) ^ 53) ((1 / 2) ^ 53) t ≤ 43000 * n ^ 2 * ((1 / 2) ^ 53 * t + (1 / 2) ^ 1075) ∧
    qlVec B64 n ((1 / 2) ^ 53) E ≤ 2 * E + 2700 * (n ^ 2 * √n) * (1 / 2) ^ 53 := by
  have h1 : (1 : ℝ) ≤ n := by exact_mod_cast hn
  have h2 : (n : ℝ) ≤ 2 ^ 16 := by exact_mod_cast hn'
  have h3 : (n : ℝ) ^ 2 ≤ 2 ^ 32 := by
    calc (n : ℝ) ^ 2 ≤ (2 ^ 16) ^ 2 := pow_le_pow_left₀ (by linarith) h2 2
      _ = _ := by norm_num
  have h4 : 21350 * (n : ℝ) ^ 2 * (1 / 2) ^ 53 ≤ 1 / 2 := by norm_num at h3 ⊢; linarith
  have e0 : (0 : ℝ) ≤ (1 / 2) ^ 53 := by positivity
  have hη : η B64 = (1 / 2) ^ 1075 := rfl
  have hq : (0 : ℝ) < (1 / 2) ^ 1075 := by positivity
  have hsm : ((1 : ℝ) / 2) ^ 1075 ≤ (1 / 2) ^ 70 := pow_le_pow_of_le_one (by norm_num) (by norm_num) (by norm_num)
  refine ⟨fun htb => ?_, ?_, ?_⟩
  · have := qlSize_le (α := B64) hn e0 ht h4
    have h5 : 42700 * (n : ℝ) ^ 2 * (1 / 2) ^ 53 * t ≤ 1 * t := mul_le_mul_of_nonneg_right (by linarith) ht
    rw [hη] at this
    have h6 : 42700 * (n : ℝ) ^ 2 * (1 / 2) ^ 1075 ≤ 1 := by
      generalize ((1 : ℝ) / 2) ^ 1075 = w at *
      have : 42700 * (n : ℝ) ^ 2 * w ≤ 42700 * 2 ^ 32 * (1 / 2) ^ 70 :=
        mul_le_mul (by linarith) hsm hq.le (by positivity)
      refine this.trans ?_
      norm_num
    show _ ≤ (2 : ℝ) ^ 1023
    have h7 : (1 : ℝ) ≤ 2 ^ 1001 := one_le_pow₀ (by norm_num)
    rw [show (2 : ℝ) ^ 1023 = 2 ^ 1001 * 2 ^ 22 by rw [← pow_add]]
    generalize (2 : ℝ) ^ 1001 = w at *
    have h8 : 16 * qlSize B64 n ((1 / 2) ^ 53) t ≤ 48 * w := by
      clear hsm hη
      generalize qlSize B64 n ((1 / 2) ^ 53) t = x at *
      generalize ((1 : ℝ) / 2) ^ 1075 = y at *
      generalize ((1 : ℝ) / 2) ^ 53 = y' at *
      linarith
    refine h8.trans ?_
    rw [mul_comm w]
    exact mul_le_mul_of_nonneg_right (by norm_num) (by linarith)
  · refine (qlErr_le hn e0 e0 ht h4).trans ?_
    rw [hη]
    have h5 : 170800 * (n : ℝ) ^ 3 * (1 / 2) ^ 53 ≤ 1 * n ^ 2 := by
      have : 170800 * (n : ℝ) * (1 / 2) ^ 53 ≤ 1 := by
        have : 170800 * (n : ℝ) * (1 / 2) ^ 53 ≤ 170800 * 2 ^ 16 * (1 / 2) ^ 53 :=
          mul_le_mul_of_nonneg_right (by linarith) e0
        refine this.trans ?_
        norm_num
      calc 170800 * (n : ℝ) ^ 3 * (1 / 2) ^ 53 = 170800 * n * (1 / 2) ^ 53 * n ^ 2 := by ring
        _ ≤ _ := mul_le_mul_of_nonneg_right this (by positivity)
    have h6 : (n : ℝ) ≤ n ^ 2 := by nlinarith
    have h7 : (42700 * (n : ℝ) ^ 2 * (1 / 2) ^ 53 + 8 * n * (1 / 2) ^ 53) * t ≤ 43000 * n ^ 2 * (1 / 2) ^ 53 * t := by
      refine mul_le_mul_of_nonneg_right ?_ ht
      have : (n : ℝ) * (1 / 2) ^ 53 ≤ n ^ 2 * (1 / 2) ^ 53 := mul_le_mul_of_nonneg_right h6 e0
      have h9 : 0 ≤ (n : ℝ) ^ 2 * (1 / 2) ^ 53 := by positivity
      linarith
    have h8 : (42700 * (n : ℝ) ^ 2 + 170800 * n ^ 3 * (1 / 2) ^ 53 + 2 * n) * (1 / 2) ^ 1075 ≤
        43000 * n ^ 2 * (1 / 2) ^ 1075 := mul_le_mul_of_nonneg_right (by nlinarith) hq.le
    generalize ((1 : ℝ) / 2) ^ 1075 = w at *
    generalize ((1 : ℝ) / 2) ^ 53 = v at *
    linarith
  · refine (qlVec_le hn e0 hE h4).trans ?_
    rw [hη]
    have h5 : (0 : ℝ) ≤ n ^ 2 * √n := by positivity
    have h6 : 610 * ((n : ℝ) ^ 2 * √n) * (1 / 2) ^ 1075 ≤ 610 * ((n : ℝ) ^ 2 * √n) * (1 / 2) ^ 70 :=
      mul_le_mul_of_nonneg_left hsm (by positivity)
    generalize ((1 : ℝ) / 2) ^ 1075 = w at *
    generalize (n : ℝ) ^ 2 * √n = p at *
    norm_num at h6 ⊢
    linarith

/-- The bound on the distance to orthogonal vectors that is left for at most 65536 rows. -/
theorem B64.vec_small {n : Nat} (hn' : n ≤ 2 ^ 16) : 3000 * ((n : ℝ) ^ 2 * √n) * (1 / 2) ^ 53 ≤ 2 / 5 := by
  have h2 : (n : ℝ) ≤ 2 ^ 16 := by exact_mod_cast hn'
  have h3 : √(n : ℝ) ≤ 2 ^ 8 := Real.sqrt_le_iff.2 ⟨by positivity, by norm_num at h2 ⊢; exact h2⟩
  have h4 : (n : ℝ) ^ 2 * √n ≤ (2 ^ 16) ^ 2 * 2 ^ 8 :=
    mul_le_mul (pow_le_pow_left₀ (Nat.cast_nonneg _) h2 2) h3 (Real.sqrt_nonneg _) (by positivity)
  norm_num at h4 ⊢
  linarith

/-- **C108** for binary64, up to 65536 rows and for `doubleeps = 2⁻⁵³`. -/
theorem C108_binary64 {n l : Nat} {eps : B64} (fe : fin eps) (hε : val eps = (1 / 2) ^ 53) {main : Row B64 n}
    {sec : Row B64 l} (hn : 0 < n) (hn' : n ≤ 2 ^ 16) (hl : n - 1 ≤ l)
    (f1 : ∀ i, i < n → fin (main.f i)) (f2 : ∀ i, i + 1 < n → fin (sec.f i))
    {T : Nat → Nat → ℝ} (h1 : ∀ i, i < n → T i i = val (main.f i))
    (h2 : ∀ i, i + 1 < n → T i (i + 1) = val (sec.f i) ∧ T (i + 1) i = val (sec.f i))
    (h3 : ∀ i j, i < n → j < n → i + 1 < j ∨ j + 1 < i → T i j = 0) (ht : fro (mx n n T) ≤ 2 ^ 1000)
    {g : Eig B64 n} (hg : Eig.ofTri eps main sec = .ok g) (hv : ∀ i j, i < n → j < n → fin (g.vec.f i j)) :
    (∀ i, i < n → fin (g.re.f i)) ∧ (∀ i j, i < j → j < n → val (g.re.f j) ≤ val (g.re.f i)) ∧
    (∃ O : Matrix (Fin n) (Fin n) ℝ, Oᵀ * O = 1 ∧
      fro ((mx n n fun i j => val (g.vec.f j i)) - O) ≤ 2700 * (n ^ 2 * √n) * (1 / 2) ^ 53 ∧
      fro (mx n n T - O * Matrix.diagonal (fun i : Fin n => val (g.re.f i)) * Oᵀ) ≤
        43000 * n ^ 2 * ((1 / 2) ^ 53 * fro (mx n n T) + (1 / 2) ^ 1075)) ∧
    ∀ i j : Fin n, |∑ k ∈ range n, val (g.vec.f i k) * val (g.vec.f j k) - if i = j then 1 else 0| ≤
      6500 * (n ^ 2 * √n) * (1 / 2) ^ 53 := by
  obtain ⟨b1, b2, b3⟩ := B64.qlBounds hn hn' (fro_nonneg (mx n n T)) le_rfl
  have h5 : (2 : ℝ) ^ 1000 ≤ 2 ^ 1001 := pow_le_pow_right₀ (by norm_num) (by norm_num)
  have e0 : (0 : ℝ) ≤ (1 / 2) ^ 53 := by positivity
  obtain ⟨r1, r2, ⟨O, o1, o2, o3⟩, -, -⟩ := C108_tridiagonal (α := B64) (ε := (1 / 2) ^ 53) (θ := (1 / 2) ^ 53) le_rfl
    (by norm_num) fe (by rw [hε, abs_of_nonneg e0]) (by norm_num) hn hl f1 f2 h1 h2 h3 le_rfl (b1 (ht.trans h5)) hg hv
  have o2' : fro ((mx n n fun i j => val (g.vec.f j i)) - O) ≤ 2700 * (n ^ 2 * √n) * (1 / 2) ^ 53 := by linarith
  refine ⟨fun i hi => (r1 i hi).1, r2, ⟨O, o1, o2', o3.trans b2⟩, fun i j => ?_⟩
  refine (near_orth o1 (fun j => (cnorm_le_fro _ j).trans o2') i j).trans ?_
  have h6 := B64.vec_small hn'
  have h7 : (0 : ℝ) ≤ n ^ 2 * √n * (1 / 2) ^ 53 := by positivity
  rw [show 2700 * ((n : ℝ) ^ 2 * √n) * (1 / 2) ^ 53 = 2700 * (n ^ 2 * √n * (1 / 2) ^ 53) by ring,
    show 6500 * ((n : ℝ) ^ 2 * √n) * (1 / 2) ^ 53 = 6500 * (n ^ 2 * √n * (1 / 2) ^ 53) by ring]
  rw [show 3000 * ((n : ℝ) ^ 2 * √n) * (1 / 2) ^ 53 = 3000 * (n ^ 2 * √n * (1 / 2) ^ 53) by ring] at h6
  generalize (n : ℝ) ^ 2 * √n * (1 / 2) ^ 53 = p at *
  nlinarith

/-- **C109** for binary64 and a symmetric matrix of at most 65536 rows and for `doubleeps = 2⁻⁵³`. -/
theorem C109_binary64 {n : Nat} {eps : B64} (fe : fin eps) (hε : val eps = (1 / 2) ^ 53) {a : Mat B64 n n} (ha : a.own)
    (hn : 0 < n) (hn' : n ≤ 2 ^ 16) {A : Nat → Nat → B64} (hA : Shows a.at n n A)
    (hS : ∀ i j, i < n → j < n → A i j = A j i) {s : Tri B64 n n} (hs : Tri.new a = .ok s)
    {mt : Mat B64 n n} {T : Nat → Nat → B64} (et : s.t = .ok ⟨n, n, mt⟩) (hT : Shows mt.at n n T)
    (hfin : ∀ i j, i < n → j < n → fin (T i j))
    (hlow : ∀ i, i + 1 < n → val (T i (i + 1)) = 0 ∨ n * (1 / 2) ^ 1020 ≤ val (T i (i + 1)) ^ 2)
    (hhigh : ∀ i, i + 1 < n → |val (T i (i + 1))| ≤ 2 ^ 510) (hN : fro (mx n n fun i j => val (A i j)) ≤ 2 ^ 1000)
    {g : Eig B64 n} (hg : Eig.newSym eps a = .ok g) (hv : ∀ i j, i < n → j < n → fin (g.vec.f i j)) :
    (∀ i, i < n → fin (g.re.f i)) ∧ (∀ i j, i < j → j < n → val (g.re.f j) ≤ val (g.re.f i)) ∧
    (∃ O : Matrix (Fin n) (Fin n) ℝ, Oᵀ * O = 1 ∧
      fro ((mx n n fun i j => val (g.vec.f j i)) - O) ≤ 3000 * (n ^ 2 * √n) * (1 / 2) ^ 53 ∧
      fro ((mx n n fun i j => val (A i j)) - O * Matrix.diagonal (fun i : Fin n => val (g.re.f i)) * Oᵀ) ≤
        45000 * n ^ 2 * (1 / 2) ^ 53 * fro (mx n n fun i j => val (A i j)) + 400 * n ^ 2 * √((1 / 2) ^ 1075)) ∧
    ∀ i j : Fin n, |∑ k ∈ range n, val (g.vec.f i k) * val (g.vec.f j k) - if i = j then 1 else 0| ≤
      7200 * (n ^ 2 * √n) * (1 / 2) ^ 53 := by
  have eA : upSym n A = mx n n fun i j => val (A i j) := by
    rw [upSym_eq]
    refine mx_congr fun i j hi hj => ?_
    unfold symU vals
    split
    · rfl
    · rw [hS i j hi hj]
  have hn1 : (1 : ℝ) ≤ n := by exact_mod_cast hn
  have hn2 : (n : ℝ) ≤ 2 ^ 16 := by exact_mod_cast hn'
  have hn3 : (n : ℝ) ^ 2 ≤ 2 ^ 32 := by
    calc (n : ℝ) ^ 2 ≤ (2 ^ 16) ^ 2 := pow_le_pow_left₀ (by linarith) hn2 2
      _ = _ := by norm_num
  have hp : ((n - 1 : ℕ) : ℝ) = n - 1 := by rw [Nat.cast_sub hn, Nat.cast_one]
  have hp0 : (0 : ℝ) ≤ ((n - 1 : ℕ) : ℝ) := Nat.cast_nonneg _
  have hp2 : ((n - 1 : ℕ) : ℝ) * (n + 4) ≤ 2 * n ^ 2 := by rw [hp]; nlinarith [sq_nonneg ((n : ℝ) - 3 / 2)]
  have hp3 : ((n - 1 : ℕ) : ℝ) * n ≤ n ^ 2 := by rw [hp]; nlinarith
  have hp4 : ((n - 1 : ℕ) : ℝ) ≤ n ^ 2 := by rw [hp]; nlinarith
  have e0 : (0 : ℝ) ≤ (1 / 2) ^ 53 := by positivity
  have hv1 : (n : ℝ) ^ 2 * (1 / 2) ^ 53 ≤ (1 / 2) ^ 21 := by
    calc (n : ℝ) ^ 2 * (1 / 2) ^ 53 ≤ 2 ^ 32 * (1 / 2) ^ 53 := mul_le_mul_of_nonneg_right hn3 e0
      _ = _ := by norm_num
  have hN4 : (n : ℝ) + 4 ≤ 2 ^ 17 := by
    have : (2 : ℝ) ^ 16 + 4 ≤ 2 ^ 17 := by norm_num
    linarith
  obtain ⟨f, hf⟩ : ∃ f, f = fro (mx n n fun i j => val (A i j)) := ⟨_, rfl⟩
  have hf0 : 0 ≤ f := by rw [hf]; exact fro_nonneg _
  obtain ⟨w, hw⟩ : ∃ w, w = √(((1 : ℝ) / 2) ^ 1075) := ⟨_, rfl⟩
  have hw0 : 0 ≤ w := by rw [hw]; exact Real.sqrt_nonneg _
  have hw1 : w ≤ (1 / 2) ^ 500 := by
    rw [hw]
    refine Real.sqrt_le_iff.2 ⟨by positivity, ?_⟩
    rw [← pow_mul]
    exact pow_le_pow_of_le_one (by norm_num) (by norm_num) (by norm_num)
  have hw2 : ((1 : ℝ) / 2) ^ 1075 ≤ (1 / 2) ^ 500 * w := by
    have : ((1 : ℝ) / 2) ^ 1075 = w * w := by rw [hw, Real.mul_self_sqrt (by positivity)]
    rw [this]
    exact mul_le_mul_of_nonneg_right hw1 hw0
  have hw3 : ((1 : ℝ) / 2) ^ 500 ≤ (1 / 2) ^ 60 := pow_le_pow_of_le_one (by norm_num) (by norm_num) (by norm_num)
  have hw4 : ((1 : ℝ) / 2) ^ 1075 ≤ (1 / 2) ^ 60 * w := hw2.trans (mul_le_mul_of_nonneg_right hw3 hw0)
  have t1 : triErr B64 n (n - 1) ((1 / 2) ^ 53) f ≤ 1640 * (n ^ 2 * (1 / 2) ^ 53) * f + 360 * n ^ 2 * w := by
    refine (triErr_le e0 hf0 ?_).trans ?_
    · calc ((n - 1 : ℕ) : ℝ) * (410 * ((n : ℝ) + 4) * (1 / 2 : ℝ) ^ 53) =
          ((n - 1 : ℕ) : ℝ) * (n + 4) * (410 * (1 / 2 : ℝ) ^ 53) := by ring
        _ ≤ 2 * (n : ℝ) ^ 2 * (410 * (1 / 2 : ℝ) ^ 53) := mul_le_mul_of_nonneg_right hp2 (by positivity)
        _ = 820 * ((n : ℝ) ^ 2 * (1 / 2 : ℝ) ^ 53) := by ring
        _ ≤ 820 * (1 / 2 : ℝ) ^ 21 := by linarith
        _ ≤ 1 := by norm_num
    · rw [show η B64 = (1 / 2) ^ 1075 from rfl, ← hw]
      have h1 : ((n - 1 : ℕ) : ℝ) * (n + 4) * ((1 / 2) ^ 53 * f) ≤ 2 * n ^ 2 * ((1 / 2) ^ 53 * f) :=
        mul_le_mul_of_nonneg_right hp2 (mul_nonneg e0 hf0)
      have h2 := mul_le_mul_of_nonneg_right hp3 hw0
      clear hw2 hw4 hw3 hw1 hN hv1 hw
      generalize ((1 : ℝ) / 2) ^ 53 = v at *
      linarith
  have t2 : 1640 * (n ^ 2 * (1 / 2) ^ 53) * f ≤ 1 / 1000 * f := by
    refine mul_le_mul_of_nonneg_right ?_ hf0
    calc 1640 * ((n : ℝ) ^ 2 * (1 / 2) ^ 53) ≤ 1640 * (1 / 2) ^ 21 := by linarith
      _ ≤ _ := by norm_num
  obtain ⟨t, htd⟩ : ∃ t, t = 1001 / 1000 * f + 360 * n ^ 2 * w := ⟨_, rfl⟩
  have ht0 : 0 ≤ t := by rw [htd]; positivity
  have ht1 : t ≤ 2 ^ 1001 := by
    rw [← hf] at hN
    have h1 : 360 * (n : ℝ) ^ 2 * w ≤ 360 * 2 ^ 32 * (1 / 2) ^ 60 :=
      mul_le_mul (by linarith) (hw1.trans hw3) hw0 (by positivity)
    have h2 : (360 : ℝ) * 2 ^ 32 * (1 / 2) ^ 60 ≤ 1 / 2 := by norm_num
    have h7 : (1 : ℝ) ≤ 2 ^ 1000 := one_le_pow₀ (by norm_num)
    rw [htd, show (2 : ℝ) ^ 1001 = 2 ^ 1000 * 2 by rw [← pow_succ]]
    generalize (2 : ℝ) ^ 1000 = x at *
    clear hw2 hw4 hw3 hw1
    linarith
  have h1 : hhErr B64 n (n - 1) ((1 / 2) ^ 53) 1 ≤ 145 * (n ^ 2 * (1 / 2) ^ 53) := by
    refine (hhErr_le (α := B64) e0 zero_le_one ?_).trans ?_
    · calc ((n - 1 : ℕ) : ℝ) * (36 * ((n : ℝ) + 4) * (1 / 2 : ℝ) ^ 53) =
          ((n - 1 : ℕ) : ℝ) * (n + 4) * (36 * (1 / 2 : ℝ) ^ 53) := by ring
        _ ≤ 2 * (n : ℝ) ^ 2 * (36 * (1 / 2 : ℝ) ^ 53) := mul_le_mul_of_nonneg_right hp2 (by positivity)
        _ = 72 * ((n : ℝ) ^ 2 * (1 / 2 : ℝ) ^ 53) := by ring
        _ ≤ 72 * (1 / 2 : ℝ) ^ 21 := by linarith
        _ ≤ 1 := by norm_num
    · have hq : √((n : ℝ) * η B64) ≤ (1 / 2) ^ 60 := by
        rw [show η B64 = (1 / 2) ^ 1075 from rfl]
        refine Real.sqrt_le_iff.2 ⟨by positivity, ?_⟩
        have h2 : ((1 : ℝ) / 2) ^ 1075 ≤ (1 / 2) ^ 136 :=
          pow_le_pow_of_le_one (by norm_num) (by norm_num) (by norm_num)
        calc (n : ℝ) * (1 / 2) ^ 1075 ≤ 2 ^ 16 * (1 / 2) ^ 136 := mul_le_mul hn2 h2 (by positivity) (by positivity)
          _ = _ := by norm_num
      have h2 : 18 * ((n - 1 : ℕ) : ℝ) * √((n : ℝ) * η B64) ≤ 18 * n ^ 2 * (1 / 2) ^ 60 :=
        mul_le_mul (by linarith) hq (Real.sqrt_nonneg _) (by positivity)
      have h3 : ((n - 1 : ℕ) : ℝ) * (n + 4) * (1 / 2) ^ 53 ≤ 2 * n ^ 2 * (1 / 2) ^ 53 :=
        mul_le_mul_of_nonneg_right hp2 e0
      rw [show ((1 : ℝ) / 2) ^ 60 = (1 / 2) ^ 53 / 128 by norm_num] at h2
      have h4 : 0 ≤ (n : ℝ) ^ 2 * (1 / 2) ^ 53 := by positivity
      generalize √((n : ℝ) * η B64) = y at *
      clear hw2 hw4 hw3 hw1 hN hv1
      generalize ((1 : ℝ) / 2) ^ 53 = v at *
      linarith
  obtain ⟨b1, b2, b3⟩ := B64.qlBounds hn hn' ht0
    (E := √n * hhErr B64 n (n - 1) ((1 / 2) ^ 53) 1) (mul_nonneg (Real.sqrt_nonneg _) (hhErr_nonneg e0))
  obtain ⟨r1, r2, -, O, o1, o2, o3⟩ := C109_symmetric (α := B64) (ε := (1 / 2) ^ 53) (θ := (1 / 2) ^ 53) (t := t) le_rfl
    (by norm_num at hN4 ⊢; linarith) fe (by rw [hε, abs_of_nonneg e0]) (by norm_num) ha hn hA hs et hT
    (fun i hi => hfin i i hi hi)
    (fun i hi => B64.scaled (hfin i (i + 1) (by omega) (by omega)) (hlow i hi) (hhigh i hi))
    (by rw [eA, ← hf, htd]; linarith) (b1 ht1) hg hv
  have o2' : fro ((mx n n fun i j => val (g.vec.f j i)) - O) ≤ 3000 * (n ^ 2 * √n) * (1 / 2) ^ 53 := by
    refine (o2.trans b3).trans ?_
    have h2 := mul_le_mul_of_nonneg_left h1 (Real.sqrt_nonneg (n : ℝ))
    have h3 : (0 : ℝ) ≤ n ^ 2 * √n * (1 / 2) ^ 53 := by positivity
    clear hw2 hw4 hw3 hw1 hN hv1 b1 b2 b3
    generalize ((1 : ℝ) / 2) ^ 53 = v at *
    linarith
  rw [eA, ← hf] at o3
  refine ⟨fun i hi => (r1 i hi).1, r2, ⟨O, o1, o2', ?_⟩, fun i j => ?_⟩
  · rw [← hf, ← hw]
    refine (o3.trans (add_le_add t1 b2)).trans ?_
    have h2 : 43000 * (n : ℝ) ^ 2 * (1 / 2) ^ 1075 ≤ 43000 * (n : ℝ) ^ 2 * ((1 / 2) ^ 60 * w) :=
      mul_le_mul_of_nonneg_left hw4 (by positivity)
    have h3 : (n : ℝ) ^ 2 * (1 / 2) ^ 53 * (360 * n ^ 2 * w) ≤ (1 / 2) ^ 21 * (360 * n ^ 2 * w) :=
      mul_le_mul_of_nonneg_right hv1 (by positivity)
    have h4 : 0 ≤ (n : ℝ) ^ 2 * w := by positivity
    have h5 : 0 ≤ (n : ℝ) ^ 2 * (1 / 2) ^ 53 * f := by positivity
    rw [htd]
    clear hw2 hw4 hw3 hw1 hN hv1 b1 b2 b3
    generalize ((1 : ℝ) / 2) ^ 1075 = x at *
    have h6 : 43000 * (n : ℝ) ^ 2 * ((1 / 2) ^ 60 * w) ≤ 1 * (n ^ 2 * w) := by
      rw [show 43000 * (n : ℝ) ^ 2 * ((1 / 2) ^ 60 * w) = 43000 * (1 / 2) ^ 60 * (n ^ 2 * w) by ring]
      exact mul_le_mul_of_nonneg_right (by norm_num) h4
    have h7 : 43000 * ((1 / 2) ^ 21 * (360 * (n : ℝ) ^ 2 * w)) ≤ 8 * (n ^ 2 * w) := by
      rw [show 43000 * ((1 / 2) ^ 21 * (360 * (n : ℝ) ^ 2 * w)) = 43000 * (1 / 2) ^ 21 * 360 * (n ^ 2 * w) by ring]
      exact mul_le_mul_of_nonneg_right (by norm_num) h4
    clear t1 t2 h1 o3
    generalize ((1 : ℝ) / 2) ^ 53 = v at *
    generalize ((1 : ℝ) / 2) ^ 60 = v1 at *
    generalize ((1 : ℝ) / 2) ^ 21 = v2 at *
    linarith
  · refine (near_orth o1 (fun j => (cnorm_le_fro _ j).trans o2') i j).trans ?_
    have h6 := B64.vec_small hn'
    have h7 : (0 : ℝ) ≤ n ^ 2 * √n * (1 / 2) ^ 53 := by positivity
    rw [show 3000 * ((n : ℝ) ^ 2 * √n) * (1 / 2) ^ 53 = 3000 * (n ^ 2 * √n * (1 / 2) ^ 53) by ring,
      show 7200 * ((n : ℝ) ^ 2 * √n) * (1 / 2) ^ 53 = 7200 * (n ^ 2 * √n * (1 / 2) ^ 53) by ring]
    rw [show 3000 * ((n : ℝ) ^ 2 * √n) * (1 / 2) ^ 53 = 3000 * (n ^ 2 * √n * (1 / 2) ^ 53) by ring] at h6
    clear hw2 hw4 hw3 hw1 hN hv1 b1 b2 b3 h1 o2' o2 o3 t1 t2
    generalize (n : ℝ) ^ 2 * √n * (1 / 2) ^ 53 = p at *
    nlinarith

/-! ## A concrete case -/

/-- A power of two absorbs what is below half of its last place. -/
theorem B64.near_absorb {k : ℕ} {δ : ℝ} (h0 : 0 ≤ δ) (h1 : δ * 2 ^ 53 < 2 ^ k) : B64.near (2 ^ k + δ) = 2 ^ k := by
  have hk : (0 : ℝ) < 2 ^ k := by positivity
  have hδ : δ < 2 ^ k := by nlinarith
  have hl : Int.log 2 |(2 : ℝ) ^ k + δ| = k := by
    rw [abs_of_pos (by positivity)]
    refine le_antisymm ?_ ?_
    · refine Int.lt_add_one_iff.1 ((Int.lt_zpow_iff_log_lt (by norm_num) (by positivity)).1 ?_)
      rw [zpow_add_one₀ (by norm_num)]
      push_cast
      rw [zpow_natCast]
      linarith
    · refine (Int.zpow_le_iff_le_log (by norm_num) (by positivity)).1 ?_
      push_cast
      rw [zpow_natCast]
      linarith
  unfold B64.near B64.ulp
  rw [hl, max_eq_right (by omega)]
  have hp : (2 : ℝ) ^ ((k : ℤ) - 52) = 2 ^ k / 2 ^ 52 := by
    rw [zpow_sub₀ (by norm_num), zpow_natCast]; norm_num
  rw [hp]
  have hr : B64.toInt ((2 ^ k + δ) / (2 ^ k / 2 ^ 52)) = 2 ^ 52 := by
    have e1 : ((2 : ℝ) ^ k + δ) / (2 ^ k / 2 ^ 52) = ((2 ^ 52 : ℤ) : ℝ) + δ * 2 ^ 52 / 2 ^ k := by
      push_cast; field_simp; ring
    have e2 : δ * 2 ^ 52 / 2 ^ k < 1 / 2 := by
      rw [div_lt_iff₀ hk]; linarith
    have e3 : 0 ≤ δ * 2 ^ 52 / 2 ^ k := by positivity
    rw [e1]
    generalize δ * 2 ^ 52 / 2 ^ k = x at *
    rw [B64.toInt_of, round_eq, Int.floor_eq_iff]
    · push_cast
      constructor <;> linarith
    · rw [Int.fract_intCast_add, Int.fract_eq_self.2 ⟨e3, by linarith⟩]
      linarith
  rw [hr]
  push_cast
  field_simp
  norm_num

theorem B64.Is.absorb {x y : B64} {r δ : ℝ} (k : ℕ) (hk : k ≤ 100) (hx : Is x r) (hr : r = 2 ^ k) (hy : Is y δ) (h0 : 0 ≤ δ)
    (h1 : δ * 2 ^ 53 < 2 ^ k) : Is (Flt.add x y) r ∧ Is (Flt.add y x) r := by
  obtain ⟨f1, rfl⟩ := hx
  obtain ⟨f2, rfl⟩ := hy
  rcases x with x | _ | _ <;> [skip; exact f1.elim; exact f1.elim]
  rcases y with y | _ | _ <;> [skip; exact f2.elim; exact f2.elim]
  change x = 2 ^ k at hr
  subst hr
  change 0 ≤ y at h0
  change y * 2 ^ 53 < 2 ^ k at h1
  have e : Is (B64.rnd (2 ^ k + y)) (2 ^ k) := by
    have hn := B64.near_absorb h0 h1
    have hf : |B64.near (2 ^ k + y)| < 2 ^ 1024 := by
      rw [hn, abs_of_pos (by positivity)]
      exact pow_lt_pow_right₀ (by norm_num) (by omega)
    unfold B64.rnd
    rw [dif_pos hf]
    exact ⟨trivial, hn⟩
  refine ⟨e, ?_⟩
  show Is (B64.rnd (y + 2 ^ k)) _
  rw [add_comm]
  exact e

/-- A power of two also absorbs the subtraction of what is below a quarter of its last place. -/
theorem B64.near_absorb_sub {k : ℕ} {δ : ℝ} (h0 : 0 < δ) (h1 : δ * 2 ^ 54 < 2 ^ k) : B64.near (2 ^ k - δ) = 2 ^ k := by
  have hk : (0 : ℝ) < 2 ^ k := by positivity
  have hδ : δ < 2 ^ k / 2 := by rw [lt_div_iff₀ (by norm_num)]; nlinarith
  have hp : (0 : ℝ) < 2 ^ k - δ := by linarith
  have hl : Int.log 2 |(2 : ℝ) ^ k - δ| = (k : ℤ) - 1 := by
    rw [abs_of_pos hp]
    refine le_antisymm ?_ ?_
    · refine Int.le_sub_one_of_lt ((Int.lt_zpow_iff_log_lt (by norm_num) hp).1 ?_)
      push_cast
      rw [zpow_natCast]
      linarith
    · refine (Int.zpow_le_iff_le_log (by norm_num) hp).1 ?_
      push_cast
      rw [zpow_sub_one₀ (by norm_num), zpow_natCast]
      linarith
  unfold B64.near B64.ulp
  rw [hl, max_eq_right (by omega)]
  have hq : (2 : ℝ) ^ ((k : ℤ) - 1 - 52) = 2 ^ k / 2 ^ 53 := by
    rw [sub_sub, zpow_sub₀ (by norm_num), zpow_natCast]; norm_num
  rw [hq]
  have hr : B64.toInt ((2 ^ k - δ) / (2 ^ k / 2 ^ 53)) = 2 ^ 53 := by
    have e1 : ((2 : ℝ) ^ k - δ) / (2 ^ k / 2 ^ 53) = ((2 ^ 53 - 1 : ℤ) : ℝ) + (1 - δ * 2 ^ 53 / 2 ^ k) := by
      push_cast; field_simp; ring
    have e2 : δ * 2 ^ 53 / 2 ^ k < 1 / 2 := by
      rw [div_lt_iff₀ hk]; linarith
    have e3 : 0 < δ * 2 ^ 53 / 2 ^ k := by positivity
    rw [e1]
    generalize δ * 2 ^ 53 / 2 ^ k = x at *
    rw [B64.toInt_of, round_eq, Int.floor_eq_iff]
    · push_cast
      constructor <;> linarith
    · rw [Int.fract_intCast_add, Int.fract_eq_self.2 ⟨by linarith, by linarith⟩]
      linarith
  rw [hr]
  push_cast
  field_simp
  norm_num

theorem B64.Is.absorb_sub {x y : B64} {r δ : ℝ} (k : ℕ) (hk : k ≤ 100) (hx : Is x r) (hr : r = 2 ^ k) (hy : Is y δ)
    (h0 : 0 < δ) (h1 : δ * 2 ^ 54 < 2 ^ k) : Is (Flt.sub x y) r := by
  obtain ⟨f1, rfl⟩ := hx
  obtain ⟨f2, rfl⟩ := hy
  rcases x with x | _ | _ <;> [skip; exact f1.elim; exact f1.elim]
  rcases y with y | _ | _ <;> [skip; exact f2.elim; exact f2.elim]
  change x = 2 ^ k at hr
  subst hr
  change 0 < y at h0
  change y * 2 ^ 54 < 2 ^ k at h1
  have hn := B64.near_absorb_sub h0 h1
  have hf : |B64.near (2 ^ k - y)| < 2 ^ 1024 := by
    rw [hn, abs_of_pos (by positivity)]
    exact pow_lt_pow_right₀ (by norm_num) (by omega)
  show Is (B64.rnd (2 ^ k - y)) _
  unfold B64.rnd
  rw [dif_pos hf]
  exact ⟨trivial, hn⟩

theorem B64.Num.pow {r : ℝ} (k : ℕ) (hk : k ≤ 100) (h : r = 2 ^ k) : B64.Num r := by
  subst h
  refine ⟨⟨1, k, by norm_num, by omega, by rw [zpow_natCast]; push_cast; ring⟩, ?_⟩
  rw [abs_of_pos (by positivity)]
  exact pow_lt_pow_right₀ (by norm_num) (by omega)

/-- The rotation of the concrete case. -/
theorem Eig.case_round {x : Eig.St B64 2} (h0 : B64.Is (x.d.f 0) 1) (h1 : B64.Is (x.d.f 1) 2)
    (he : B64.Is (x.e.f 0) (1 / 2 ^ 30)) (hz : ∀ i j, i < 2 → j < 2 → ∃ k : ℤ, |k| ≤ 1 ∧ B64.Is (x.z.f i j) k) :
    ∃ y, Eig.round 0 1 x = .ok y ∧ B64.Is (y.d.f 0) 1 ∧ B64.Is (y.d.f 1) 2 ∧ B64.Is (y.e.f 0) 0 ∧
      ∀ i j, i < 2 → j < 2 → fin (y.z.f i j) := by
  have two : B64.Is (Flt.two : B64) 2 := ⟨two_fin, val_two⟩
  have one := B64.Is.one
  have s1 : B64.Is (Flt.div (Flt.sub (x.d.f 1) (x.d.f 0)) (Flt.mul Flt.two (x.e.f 0))) (2 ^ 29) :=
    (h1.sub (t := 1) h0 (by norm_num) (B64.dyi 1 (by norm_num))).div (s := 1 / 2 ^ 29)
      (two.mul he (by norm_num) (B64.Num.dy 1 29 (by norm_num) (by norm_num) (by norm_num))) (by norm_num) (by norm_num)
      (B64.Num.pow 29 (by norm_num) rfl)
  have s2 : B64.Is (Eig.t0 (Flt.div (Flt.sub (x.d.f 1) (x.d.f 0)) (Flt.mul Flt.two (x.e.f 0)))) (2 ^ 29) := by
    unfold Eig.t0
    have := ((s1.mul (t := 2 ^ 58) s1 (by norm_num) (B64.Num.pow 58 (by norm_num) rfl)).absorb 58 (by norm_num) rfl one
      (by norm_num) (by norm_num)).2
    exact this.sqrt (by positivity) (by norm_num) (B64.Num.pow 29 (by norm_num) rfl)
  have s3 : B64.Is (Eig.q0 (x.d.f 1) (x.d.f 0) (x.e.f 0)
      (Flt.div (Flt.sub (x.d.f 1) (x.d.f 0)) (Flt.mul Flt.two (x.e.f 0)))) 1 := by
    unfold Eig.q0
    rw [if_neg (by rw [lt_iff s1.1 zero_fin, s1.2, val_zero]; norm_num)]
    exact ((h1.sub (t := 1) h0 (by norm_num) (B64.dyi 1 (by norm_num))).absorb 0 (by norm_num) (by norm_num)
      (he.div (t := 1 / 2 ^ 60) (s1.add (t := 2 ^ 30) s2 (by norm_num) (B64.Num.pow 30 (by norm_num) rfl)) (by norm_num)
        (by norm_num) (B64.Num.dy 1 60 (by norm_num) (by norm_num) (by norm_num))) (by norm_num) (by norm_num)).1
  unfold Eig.round
  rw [Row.get_ok (by omega), ok_bind, Row.get_ok (by omega), ok_bind, Row.get_ok (by omega), ok_bind, ok_bind]
  change ∃ y, (do
    let bw ← Eig.sweep 0 1 1 ⟨x.z, x.d, x.e, Eig.q0 (x.d.f 1) (x.d.f 0) (x.e.f 0)
      (Flt.div (Flt.sub (x.d.f 1) (x.d.f 0)) (Flt.mul Flt.two (x.e.f 0))), Flt.zero, Flt.one, Flt.one,
      Eig.t0 (Flt.div (Flt.sub (x.d.f 1) (x.d.f 0)) (Flt.mul Flt.two (x.e.f 0)))⟩
    Eig.finish 0 1 bw.1 bw.2) = .ok y ∧ _
  generalize Eig.q0 (x.d.f 1) (x.d.f 0) (x.e.f 0)
      (Flt.div (Flt.sub (x.d.f 1) (x.d.f 0)) (Flt.mul Flt.two (x.e.f 0))) = q at *
  generalize Eig.t0 (Flt.div (Flt.sub (x.d.f 1) (x.d.f 0)) (Flt.mul Flt.two (x.e.f 0))) = t at *
  clear s1 s2
  obtain ⟨R, hR⟩ : ∃ R, R = Eig.rot (Flt.mul Flt.one (x.e.f 0)) q := ⟨_, rfl⟩
  have hp : B64.Is (Flt.mul Flt.one (x.e.f 0)) (1 / 2 ^ 30) :=
    one.mul he (by norm_num) (B64.Num.dy 1 30 (by norm_num) (by norm_num) (by norm_num))
  have rr : B64.Is R.r 1 ∧ B64.Is R.s (1 / 2 ^ 30) ∧ B64.Is R.c 1 := by
    rw [hR]
    unfold Eig.rot
    rw [if_neg (by
      rw [le_iff (abs_fin.2 s3.1) (abs_fin.2 hp.1), val_abs s3.1, val_abs hp.1, s3.2, hp.2]
      norm_num [abs_of_pos])]
    unfold Eig.rotQ
    have a1 : B64.Is (Flt.div (Flt.mul Flt.one (x.e.f 0)) q) (1 / 2 ^ 30) :=
      hp.div s3 (by norm_num) (by norm_num) (B64.Num.dy 1 30 (by norm_num) (by norm_num) (by norm_num))
    generalize Flt.div (Flt.mul Flt.one (x.e.f 0)) q = v at *
    have a2 : B64.Is (Flt.sqrt (Flt.add (Flt.mul v v) Flt.one)) 1 :=
      (one.absorb 0 (by norm_num) (by norm_num) (a1.mul (t := 1 / 2 ^ 60) a1 (by norm_num)
        (B64.Num.dy 1 60 (by norm_num) (by norm_num) (by norm_num))) (by norm_num) (by norm_num)).2.sqrt (by norm_num)
        (by norm_num) (B64.dyi 1 (by norm_num))
    dsimp only
    generalize Flt.sqrt (Flt.add (Flt.mul v v) Flt.one) = w at *
    have a3 := one.div (t := 1) a2 (by norm_num) (by norm_num) (B64.dyi 1 (by norm_num))
    exact ⟨s3.mul a2 (by norm_num) (B64.dyi 1 (by norm_num)),
      a1.mul a3 (by norm_num) (B64.Num.dy 1 30 (by norm_num) (by norm_num) (by norm_num)), a3⟩
  obtain ⟨r1, r2, r3⟩ := rr
  unfold Eig.sweep
  rw [Row.get_ok (by decide), ok_bind, Eig.take_ok (by decide), ok_bind, Row.get_ok (by decide), ok_bind, if_neg (by
    have : (Eig.took (0 + 0) (Eig.rot (Flt.mul Flt.one (x.e.f (0 + 0))) q) (⟨x.z, x.d, x.e, q, Flt.zero, Flt.one, Flt.one, t⟩ : Eig.Sw B64 2)).e.f
        (0 + 0 + 1) = R.r := by
      rw [hR]; rfl
    rw [this, r1.ne (by norm_num)]; simp), Eig.bulge_ok (by decide), ok_bind]
  rw [show Eig.rot (Flt.mul (Flt.one : B64) (x.e.f (0 + 0))) q = R from hR.symm]
  obtain ⟨h, hh⟩ : ∃ h, h = Flt.mul (Flt.one : B64) (x.e.f 0) := ⟨_, rfl⟩
  rw [← hh] at hp
  obtain ⟨w, hw⟩ : ∃ w : Eig.Sw B64 2, w = Eig.took (0 + 0) R ⟨x.z, x.d, x.e, q, Flt.zero, Flt.one, Flt.one, t⟩ := ⟨_, rfl⟩
  have ht : B64.Is (Eig.tv 0 h w) (1 / 2 ^ 30) := by
    rw [hw]
    unfold Eig.tv Eig.took
    dsimp only
    exact ((h0.sub (t := -1) (h1.sub (t := 2) B64.Is.zero (by norm_num) (B64.dyi 2 (by norm_num))) (by norm_num)
      (B64.dyi (-1) (by norm_num))).mul (t := -1 / 2 ^ 30) r2 (by norm_num)
      (B64.Num.dy (-1) 30 (by norm_num) (by norm_num) (by norm_num))).add
      ((two.mul (t := 2) r3 (by norm_num) (B64.dyi 2 (by norm_num))).mul (t := 1 / 2 ^ 29) hp (by norm_num)
        (B64.Num.dy 1 29 (by norm_num) (by norm_num) (by norm_num))) (by norm_num)
      (B64.Num.dy 1 30 (by norm_num) (by norm_num) (by norm_num))
  change ∃ y, (do
    let bw ← (pure (false, (⟨⟨fun a b => if 0 ≤ a ∧ a < 2 then Eig.rz (0 + 0) R.s R.c (x.z.f a) b else x.z.f a b⟩,
      ⟨upd1 x.d.f (0 + 0 + 1) (Flt.add (Flt.sub (x.d.f 1) Flt.zero) (Flt.mul R.s (Eig.tv 0 (Flt.mul (Flt.one : B64) (x.e.f 0))
        (Eig.took (0 + 0) R ⟨x.z, x.d, x.e, q, Flt.zero, Flt.one, Flt.one, t⟩))))⟩,
      ⟨upd1 x.e.f (0 + 0 + 1) R.r⟩, Flt.sub (Flt.mul R.c (Eig.tv 0 (Flt.mul (Flt.one : B64) (x.e.f 0))
        (Eig.took (0 + 0) R ⟨x.z, x.d, x.e, q, Flt.zero, Flt.one, Flt.one, t⟩))) (Flt.mul (Flt.one : B64) (x.e.f 0)),
      Flt.mul R.s (Eig.tv 0 (Flt.mul (Flt.one : B64) (x.e.f 0))
        (Eig.took (0 + 0) R ⟨x.z, x.d, x.e, q, Flt.zero, Flt.one, Flt.one, t⟩)), R.s, R.c, Eig.tv 0 (Flt.mul (Flt.one : B64) (x.e.f 0))
        (Eig.took (0 + 0) R ⟨x.z, x.d, x.e, q, Flt.zero, Flt.one, Flt.one, t⟩)⟩ : Eig.Sw B64 2)) : Res (Bool × Eig.Sw B64 2))
    Eig.finish 0 1 bw.1 bw.2) = .ok y ∧ _
  rw [← hw, ← hh]
  generalize Eig.tv 0 h w = v at *
  rw [pure_eq_ok, ok_bind]
  unfold Eig.finish
  dsimp only
  rw [if_neg (by simp), Row.get_ok (by omega), ok_bind, Row.set_ok (by omega), ok_bind, Row.set_ok (by omega), ok_bind,
    Row.set_ok (by omega), ok_bind]
  have hu : B64.Is (Flt.mul R.s v) (1 / 2 ^ 60) :=
    r2.mul ht (by norm_num) (B64.Num.dy 1 60 (by norm_num) (by norm_num) (by norm_num))
  refine ⟨_, rfl, ?_, ?_, ?_, fun i j hi hj => ?_⟩
  · have : B64.Is (Flt.sub (x.d.f 0) (Flt.mul R.s v)) 1 :=
      h0.absorb_sub 0 (by norm_num) (by norm_num) hu (by norm_num) (by norm_num)
    simpa [upd1_eq] using this
  · have : B64.Is (Flt.add (Flt.sub (x.d.f 1) Flt.zero) (Flt.mul R.s v)) 2 :=
      ((h1.sub (t := 2) B64.Is.zero (by norm_num) (B64.dyi 2 (by norm_num))).absorb 1 (by norm_num) (by norm_num) hu
        (by norm_num) (by norm_num)).1
    simpa [upd1_eq] using this
  · have : B64.Is (Flt.sub (Flt.mul R.c v) h) 0 :=
      (r3.mul ht (t := 1 / 2 ^ 30) (by norm_num) (B64.Num.dy 1 30 (by norm_num) (by norm_num) (by norm_num))).sub hp
        (by norm_num) (B64.dyi 0 (by norm_num))
    simpa [upd1_eq] using this
  · show fin (if 0 ≤ i ∧ i < 2 then Eig.rz (0 + 0) R.s R.c (x.z.f i) j else x.z.f i j)
    rw [if_pos ⟨by omega, hi⟩]
    obtain ⟨k0, b0, z0⟩ := hz i 0 hi (by omega)
    obtain ⟨k1, b1, z1⟩ := hz i 1 hi (by omega)
    have c0 : |(k0 : ℝ)| ≤ 1 := by exact_mod_cast b0
    have c1 : |(k1 : ℝ)| ≤ 1 := by exact_mod_cast b1
    have hb : (4 : ℝ) ≤ big B64 := le_trans (by norm_num) (big_le (α := B64))
    unfold Eig.rz
    have m0 : B64.Is (Flt.mul R.c (x.z.f i 0)) k0 := r3.mul z0 (by ring) (B64.dyi k0 rfl (by omega))
    have m1 : B64.Is (Flt.mul R.c (x.z.f i 1)) k1 := r3.mul z1 (by ring) (B64.dyi k1 rfl (by omega))
    have n0 : B64.Is (Flt.mul R.s (x.z.f i 0)) (k0 / 2 ^ 30) := r2.mul z0 (by ring)
      (B64.Num.dy k0 30 (by omega) (by norm_num) rfl)
    have n1 : B64.Is (Flt.mul R.s (x.z.f i 1)) (k1 / 2 ^ 30) := r2.mul z1 (by ring)
      (B64.Num.dy k1 30 (by omega) (by norm_num) rfl)
    have l0 := abs_le.1 c0
    have l1 := abs_le.1 c1
    split_ifs
    · refine sub_ok m0.1 n1.1 ?_
      rw [m0.2, n1.2]
      refine le_trans (abs_le.2 ⟨?_, ?_⟩) hb <;> norm_num <;> linarith
    · refine add_ok n0.1 m1.1 ?_
      rw [n0.2, m1.2]
      refine le_trans (abs_le.2 ⟨?_, ?_⟩) hb <;> norm_num <;> linarith
    · obtain rfl | rfl : j = 0 ∨ j = 1 := by omega
      exacts [z0.1, z1.1]

theorem B64.Is.abs {x : B64} {r t : ℝ} (hx : Is x r) (e : |r| = t) : Is (Flt.abs x) t :=
  ⟨abs_fin.2 hx.1, by rw [val_abs hx.1, hx.2, e]⟩

theorem B64.Is.grow {x y : B64} {r s t : ℝ} (hx : Is x r) (hy : Is y s) (e : max r |s| = t) : Is (Eig.grow x y) t := by
  subst e
  unfold Eig.grow
  have ha := hy.abs rfl
  by_cases h : r < |s|
  · rw [if_pos (by rw [lt_iff hx.1 ha.1, hx.2, ha.2]; exact h), max_eq_right h.le]; exact ha
  · rw [if_neg (by rw [lt_iff hx.1 ha.1, hx.2, ha.2]; exact h), max_eq_left (not_lt.1 h)]; exact hx

/-- The iteration of the concrete case. -/
theorem Eig.case_find {l : Nat} {eps : B64} (hl : 1 ≤ l) (heps : B64.Is eps (1 / 2 ^ 53)) {main : Row B64 2} {sec : Row B64 l}
    (h0 : B64.Is (main.f 0) 1) (h1 : B64.Is (main.f 1) 2) (he : B64.Is (sec.f 0) (1 / 2 ^ 30)) {z : Tab B64 2 2}
    (hz : ∀ i j, i < 2 → j < 2 → ∃ k : ℤ, |k| ≤ 1 ∧ B64.Is (z.f i j) k) :
    ∃ g, Eig.findSym eps main sec z = .ok g ∧ (∀ i j, i < 2 → j < 2 → fin (g.vec.f i j)) ∧
      ∀ i, i < 2 → B64.Is (g.re.f i) 1 ∨ B64.Is (g.re.f i) 2 := by
  obtain ⟨s0, s1, e0, e1, hc⟩ := Eig.findSym_ok eps main sec z (show 0 < 2 by omega) (show 2 - 1 ≤ l by omega)
  obtain ⟨s0', e0', d1, d2, d3⟩ := Eig.diagonals_ok (show 0 < 2 by omega) (show 2 - 1 ≤ l by omega) main sec
  rw [e0] at e0'
  cases Except.ok.inj e0'
  obtain ⟨mx', s1', em, e1', hs⟩ := Eig.null2_ok eps s0
  rw [e1] at e1'
  cases Except.ok.inj e1'
  have a0 : B64.Is (s0.1.f 0) 1 := by rw [d1 0 (by omega)]; exact h0
  have a1 : B64.Is (s0.1.f 1) 2 := by rw [d1 1 (by omega)]; exact h1
  have a2 : B64.Is (s0.2.f 0) (1 / 2 ^ 30) := by rw [d2 0 (by omega)]; exact he
  have a3 : B64.Is (s0.2.f 1) 0 := by rw [show s0.2.f 1 = _ from d3]; exact B64.Is.zero
  have hm : B64.Is mx' 2 := by
    rw [forUp_step (by omega), Row.get_ok (by omega), ok_bind, Row.get_ok (by omega), ok_bind, pure_eq_ok, ok_bind,
      forUp_step (by omega), Row.get_ok (by omega), ok_bind, Row.get_ok (by omega), ok_bind, pure_eq_ok, ok_bind,
      forUp_eq_self (by omega)] at em
    rw [← Except.ok.inj em]
    exact (((B64.Is.zero.grow a0 (t := 1) (by norm_num)).grow a2 (t := 1) (by norm_num [abs_of_pos])).grow a1 (t := 2)
      (by norm_num)).grow a3 (by norm_num)
  have ht : B64.Is (Flt.mul eps mx') (1 / 2 ^ 52) :=
    heps.mul hm (by norm_num) (B64.Num.dy 1 52 (by norm_num) (by norm_num) (by norm_num))
  have hcut : ∀ (v : Nat → B64) (i : Nat) (r : ℝ), B64.Is (v i) r → r = 0 ∨ 1 / 2 ^ 52 < |r| →
      B64.Is (Eig.cutV (Flt.mul eps mx') v i) r := by
    intro v i r hv hr
    unfold Eig.cutV
    have ha := hv.abs rfl
    rcases hr with rfl | hr
    · split
      · exact B64.Is.zero
      · exact hv
    · rw [if_neg (by rw [le_iff ha.1 ht.1, ha.2, ht.2]; exact not_le.2 hr)]
      exact hv
  have hb : B64.Is (s1.1.f 0) 1 ∧ B64.Is (s1.1.f 1) 2 ∧ B64.Is (s1.2.f 0) (1 / 2 ^ 30) := by
    rcases hs with ⟨hs, -⟩ | ⟨-, g1, g2⟩
    · rw [hm.ne (by norm_num)] at hs; cases hs
    · rw [g1 0 (by omega), g1 1 (by omega), g2 0 (by omega)]
      exact ⟨hcut _ 0 _ a0 (.inr (by norm_num)), hcut _ 1 _ a1 (.inr (by norm_num)), hcut _ 0 _ a2 (.inr (by norm_num [abs_of_pos]))⟩
  obtain ⟨b0, b1, b2⟩ := hb
  obtain ⟨x, hx, x0, x1, x2, xz⟩ := Eig.case_round (x := ⟨z, s1.1, s1.2⟩) b0 b1 b2 hz
  have n0 : ¬ Eig.small s1.1.f s1.2.f 0 := by
    unfold Eig.small
    have c1 : B64.Is (Flt.add (Flt.abs (s1.1.f 0)) (Flt.abs (s1.1.f (0 + 1)))) 3 :=
      (b0.abs (t := 1) (by norm_num)).add (b1.abs (t := 2) (by norm_num)) (by norm_num) (B64.dyi 3 (by norm_num))
    have c2 : B64.Is (Flt.add (Flt.abs (s1.2.f 0)) (Flt.add (Flt.abs (s1.1.f 0)) (Flt.abs (s1.1.f (0 + 1)))))
        ((3 * 2 ^ 30 + 1) / 2 ^ 30) :=
      (b2.abs (t := 1 / 2 ^ 30) (abs_of_pos (by norm_num))).add c1 (by norm_num)
        (B64.Num.dy (3 * 2 ^ 30 + 1) 30 (by norm_num) (by norm_num) (by norm_num))
    rw [eq_iff c2.1 c1.1, c2.2, c1.2]
    norm_num
  have n1 : Eig.small x.d.f x.e.f 0 := by
    unfold Eig.small
    have c1 : B64.Is (Flt.add (Flt.abs (x.d.f 0)) (Flt.abs (x.d.f (0 + 1)))) 3 :=
      (x0.abs (t := 1) (by norm_num)).add (x1.abs (t := 2) (by norm_num)) (by norm_num) (B64.dyi 3 (by norm_num))
    have c2 := (x2.abs (t := 0) (by norm_num)).add c1 (t := 3) (by norm_num) (B64.dyi 3 (by norm_num))
    rw [eq_iff c2.1 c1.1, c2.2, c1.2]
  have f0 : Eig.find s1.1 s1.2 (2 - 1 - 0) 0 = .ok 1 := by
    obtain ⟨m, e, g1, g2, g3, -⟩ := Eig.find_ok s1.1 s1.2 (show 0 + (2 - 1 - 0) < 2 by omega)
    rw [e]
    obtain rfl | rfl : m = 0 ∨ m = 1 := by omega
    · exact absurd (g3 (by omega)) n0
    · rfl
  have f1 : Eig.find x.d x.e (2 - 1 - 0) 0 = .ok 0 := by
    obtain ⟨m, e, g1, g2, -, g4⟩ := Eig.find_ok x.d x.e (show 0 + (2 - 1 - 0) < 2 by omega)
    rw [e]
    obtain rfl | rfl : m = 0 ∨ m = 1 := by omega
    · rfl
    · exact absurd n1 (g4 0 le_rfl (by omega))
  have hq : forUp 0 2 (fun j (x : Eig.St B64 2) => Eig.ql j 30 x) ⟨z, s1.1, s1.2⟩ = .ok x := by
    have q0 : Eig.ql 0 30 (⟨z, s1.1, s1.2⟩ : Eig.St B64 2) = .ok x := by
      unfold Eig.ql
      rw [f0, ok_bind, if_neg (by omega), hx, ok_bind]
      unfold Eig.ql
      rw [f1, ok_bind, if_pos rfl]
      rfl
    have q1 : Eig.ql 1 30 x = .ok x := by
      unfold Eig.ql Eig.find
      rfl
    rw [forUp_step (by omega), q0, ok_bind, forUp_step (by omega)]
    change (do let y ← Eig.ql 1 30 x; forUp 2 2 _ y : Res _) = _
    rw [q1, ok_bind, forUp_eq_self (by omega)]
  rcases hc with ⟨f, hf, -⟩ | ⟨x', y, d, v, ex, ey, ed, hv, hg⟩
  · rw [hq] at hf; cases hf
  · rw [hq] at ex
    cases Except.ok.inj ex
    obtain ⟨y', ey', hy, hd⟩ := Eig.sort_rule (fun _ y => (∀ i j, i < 2 → j < 2 → fin (y.1.f i j)) ∧
        ∀ i, i < 2 → B64.Is (y.2.f i) 1 ∨ B64.Is (y.2.f i) 2) (x.z, x.d) ⟨xz, fun i hi => by
          obtain rfl | rfl : i = 0 ∨ i = 1 := by omega
          exacts [.inl x0, .inr x1]⟩
      (fun i x k y hi hI _ h2 h3 h4 h5 => ⟨fun a b ha hb => by
        rw [h4 a b ha]
        exact hI.1 a _ ha (by unfold Eig.sw; split_ifs <;> omega), fun b hb => by
        rw [h5 b]
        exact hI.2 _ (by unfold Eig.sw; split_ifs <;> omega)⟩)
    rw [ey] at ey'
    cases Except.ok.inj ey'
    refine ⟨_, hg, fun i j hi hj => ?_, fun i hi => ?_⟩
    · show fin (v.f i j)
      rw [hv i j hi hj]
      exact hy j i hj hi
    · show B64.Is (d.f i) 1 ∨ B64.Is (d.f i) 2
      obtain ⟨mx1, d', em1, ed', hs1⟩ := Eig.null1_ok eps y.2
      rw [ed] at ed'
      cases Except.ok.inj ed'
      rcases hs1 with ⟨-, rfl⟩ | ⟨-, g1⟩
      · exact hd i hi
      · have hb : B64.Is mx1 1 ∨ B64.Is mx1 2 := by
          rw [forUp_step (by omega), Row.get_ok (by omega), ok_bind, pure_eq_ok, ok_bind,
            forUp_step (by omega), Row.get_ok (by omega), ok_bind, pure_eq_ok, ok_bind, forUp_eq_self (by omega)] at em1
          rw [← Except.ok.inj em1]
          rcases hd 0 (by omega) with p0 | p0 <;> rcases hd 1 (by omega) with p1 | p1
          · exact .inl ((B64.Is.zero.grow p0 (t := 1) (by norm_num)).grow p1 (by norm_num))
          · exact .inr ((B64.Is.zero.grow p0 (t := 1) (by norm_num)).grow p1 (by norm_num))
          · exact .inr ((B64.Is.zero.grow p0 (t := 2) (by norm_num)).grow p1 (by norm_num))
          · exact .inr ((B64.Is.zero.grow p0 (t := 2) (by norm_num)).grow p1 (by norm_num))
        have ht1 : ∃ t, t < 1 ∧ B64.Is (Flt.mul eps mx1) t := by
          rcases hb with p | p
          · exact ⟨1 / 2 ^ 53, by norm_num, heps.mul p (by norm_num) (B64.Num.dy 1 53 (by norm_num) (by norm_num) (by norm_num))⟩
          · exact ⟨1 / 2 ^ 52, by norm_num, heps.mul p (by norm_num) (B64.Num.dy 1 52 (by norm_num) (by norm_num) (by norm_num))⟩
        obtain ⟨t, tl, ht1⟩ := ht1
        have hge : ¬ Flt.lt (Flt.abs (y.2.f i)) (Flt.mul eps mx1) = true := by
          rcases hd i hi with p | p
          · have pa := p.abs (t := 1) (by norm_num)
            rw [lt_iff pa.1 ht1.1, pa.2, ht1.2]; linarith
          · have pa := p.abs (t := 2) (by norm_num)
            rw [lt_iff pa.1 ht1.1, pa.2, ht1.2]; linarith
        rw [g1 i hi, if_neg hge]
        exact hd i hi

/-- Concrete case for C108: the diagonals (1, 2) and `2⁻³⁰`, for which one rotation is made and the eigenvalues are then
exchanged.  All hypotheses of C108_binary64 hold. -/
example : ∃ (eps : B64) (main : Row B64 2) (sec : Row B64 1) (g : Eig B64 2), fin eps ∧ val eps = (1 / 2) ^ 53 ∧
    (∀ i, i < 2 → fin (main.f i)) ∧ (∀ i, i + 1 < 2 → fin (sec.f i)) ∧ val (main.f 0) = 1 ∧ val (main.f 1) = 2 ∧
    val (sec.f 0) = 1 / 2 ^ 30 ∧
    fro (mx 2 2 fun i j => if i ≠ j then 1 / 2 ^ 30 else if i = 0 then 1 else (2 : ℝ)) ≤ 2 ^ 1000 ∧
    Eig.ofTri eps main sec = .ok g ∧ ∀ i j, i < 2 → j < 2 → fin (g.vec.f i j) := by
  have he : B64.Num (1 / 2 ^ 53) := B64.Num.dy 1 53 (by norm_num) (by norm_num) (by norm_num)
  have hs : B64.Num (1 / 2 ^ 30) := B64.Num.dy 1 30 (by norm_num) (by norm_num) (by norm_num)
  let main : Row B64 2 := ⟨fun i => if i = 0 then Flt.one else Flt.two⟩
  let sec : Row B64 1 := ⟨fun _ => B64.num _ hs⟩
  obtain ⟨z, hz, e⟩ := Eig.ofTri_eq (B64.num _ he) main sec
  obtain ⟨g, hg, hv, -⟩ := Eig.case_find (eps := B64.num _ he) (main := main) (sec := sec) (z := z) le_rfl ⟨trivial, rfl⟩
    B64.Is.one ⟨two_fin, val_two⟩ ⟨trivial, rfl⟩ (fun i j hi hj => by
      rw [hz i j hi hj]
      split
      · exact ⟨1, by norm_num, by simpa using B64.Is.one⟩
      · exact ⟨0, by norm_num, by simpa using B64.Is.zero⟩)
  refine ⟨B64.num _ he, main, sec, g, trivial, ?_, fun i _ => ?_, fun _ _ => trivial, val_one, val_two, rfl, ?_,
    e.trans hg, hv⟩
  · show (1 : ℝ) / 2 ^ 53 = _
    norm_num
  · show fin (if i = 0 then (Flt.one : B64) else Flt.two)
    split
    exacts [one_fin, two_fin]
  · have h1 : fro (mx 2 2 fun i j => if i ≠ j then 1 / 2 ^ 30 else if i = 0 then 1 else (2 : ℝ)) ≤ 2 ^ 2 := by
      unfold fro
      refine Real.sqrt_le_iff.2 ⟨by norm_num, ?_⟩
      norm_num [Fin.sum_univ_two, mx]
    exact h1.trans (pow_le_pow_right₀ (by norm_num) (by norm_num))

/-- The symmetric matrix with the rows `(1, -2⁻³⁰)` and `(-2⁻³⁰, 2)`. -/
noncomputable def Eig.caseA (i j : Nat) : B64 :=
  if i = j then (if i = 0 then Flt.one else Flt.two)
  else B64.num (-1 / 2 ^ 30) (B64.Num.dy (-1) 30 (by norm_num) (by norm_num) (by norm_num))

/-- The reduction of the concrete case. -/
theorem Eig.case_trace {f : Nat → Nat → B64} {d c : Nat → B64} (h : Tri.Trace 2 Eig.caseA 1 f d c) :
    B64.Is (d 0) 1 ∧ B64.Is (f 1 1) 2 ∧ B64.Is (c 0) (1 / 2 ^ 30) ∧ B64.Is (f 0 1) (-1 / 2 ^ 29) := by
  cases h with
  | @step _ f0 _ d0 c0 h _ s1 =>
  cases h with
  | init h0 =>
  have z := B64.Is.zero
  have a00 : B64.Is (f0 0 0) 1 := by rw [h0 0 0 (by omega) (by omega)]; exact B64.Is.one
  have a01 : B64.Is (f0 0 1) (-1 / 2 ^ 30) := by rw [h0 0 1 (by omega) (by omega)]; exact ⟨trivial, rfl⟩
  have a11 : B64.Is (f0 1 1) 2 := by rw [h0 1 1 (by omega) (by omega)]; exact ⟨two_fin, val_two⟩
  have two : B64.Is (Flt.two : B64) 2 := ⟨two_fin, val_two⟩
  have n0 : B64.Is (hnorm (0 + 1) 2 (f0 0)) (1 / 2 ^ 30) := by
    unfold hnorm
    rw [if_neg (by
      show ¬ Flt.lt Flt.zero (f0 0 1) = true
      rw [lt_iff zero_fin a01.1, a01.2, val_zero]; norm_num)]
    rw [lsum_succ (a := 0 + 1) (b := 1) le_rfl, lsum_self le_rfl]
    exact B64.Is.sqrt (r := 1 / 2 ^ 60) (z.add (a01.mul (t := 1 / 2 ^ 60) a01 (by norm_num)
      (B64.Num.dy 1 60 (by norm_num) (by norm_num) (by norm_num))) (by norm_num)
      (B64.Num.dy 1 60 (by norm_num) (by norm_num) (by norm_num))) (by norm_num) (by norm_num)
      (B64.Num.dy 1 30 (by norm_num) (by norm_num) (by norm_num))
  change Tri.Step 2 0 f0 f (hnorm (0 + 1) 2 (f0 0)) at s1
  generalize hnorm (0 + 1) 2 (f0 0) = a at *
  have ne := n0.ne (by norm_num)
  have v1 : B64.Is (f 0 1) (-1 / 2 ^ 29) := by
    rw [s1.head ne]
    exact a01.sub n0 (by norm_num) (B64.Num.dy (-1) 29 (by norm_num) (by norm_num) (by norm_num))
  have hb : B64.Is (Flt.div (Flt.neg Flt.one) (Flt.mul a (f 0 1))) (2 ^ 59) :=
    (B64.Is.one.neg (t := -1) rfl).div (n0.mul (t := -1 / 2 ^ 59) v1 (by norm_num)
      (B64.Num.dy (-1) 59 (by norm_num) (by norm_num) (by norm_num)))
      (by norm_num) (by norm_num) (B64.Num.pow 59 (by norm_num) rfl)
  have u := s1.upd ne 1 1 (by omega) le_rfl (by omega)
  change f 1 1 = Flt.sub (f0 1 1)
    (Flt.add (Flt.mul (f 0 1) (Tri.zz 2 0 (Flt.div (Flt.neg Flt.one) (Flt.mul a (f 0 1))) f0 (f 0) 1))
      (Flt.mul (Tri.zz 2 0 (Flt.div (Flt.neg Flt.one) (Flt.mul a (f 0 1))) f0 (f 0) 1) (f 0 1))) at u
  generalize Flt.div (Flt.neg Flt.one) (Flt.mul a (f 0 1)) = β at *
  have p1 : B64.Is (Tri.zv 2 0 β f0 (f 0) 1) (-2 ^ 31) := by
    unfold Tri.zv
    rw [lsum_self (a := 0 + 1) (b := 1) le_rfl, lsum_self le_rfl]
    exact hb.mul (z.add (s := -1 / 2 ^ 28) (t := -1 / 2 ^ 28) (a11.mul v1 (by norm_num)
      (B64.Num.dy (-1) 28 (by norm_num) (by norm_num) (by norm_num))) (by norm_num)
      (B64.Num.dy (-1) 28 (by norm_num) (by norm_num) (by norm_num))) (by norm_num) (B64.dyi (-2 ^ 31) (by norm_num))
  have g : B64.Is (Flt.mul (lsum (0 + 1) 2 (fun i => Flt.mul (Tri.zv 2 0 β f0 (f 0) i) (f 0 i)) Flt.zero)
      (Flt.div β Flt.two)) (2 ^ 60) := by
    rw [lsum_succ (a := 0 + 1) (b := 1) le_rfl, lsum_self le_rfl]
    exact (z.add (t := 4) (p1.mul (t := 4) v1 (by norm_num) (B64.dyi 4 (by norm_num))) (by norm_num)
      (B64.dyi 4 (by norm_num))).mul (hb.div (t := 2 ^ 58) two (by norm_num) (by norm_num)
      (B64.Num.pow 58 (by norm_num) rfl)) (by norm_num) (B64.Num.pow 60 (by norm_num) rfl)
  have z1 : B64.Is (Tri.zz 2 0 β f0 (f 0) 1) 0 :=
    p1.sub (g.mul (t := -2 ^ 31) v1 (by norm_num) (B64.dyi (-2 ^ 31) (by norm_num))) (by norm_num) (B64.dyi 0 (by norm_num))
  refine ⟨by simpa [upd1_eq] using a00, ?_, by simpa [upd1_eq] using n0, v1⟩
  rw [u]
  exact a11.sub (B64.Is.add (t := 0) (v1.mul (t := 0) z1 (by norm_num) (B64.dyi 0 (by norm_num)))
    (z1.mul (t := 0) v1 (by norm_num) (B64.dyi 0 (by norm_num))) (by norm_num) (B64.dyi 0 (by norm_num)))
    (by norm_num) (B64.dyi 2 (by norm_num))

/-- Concrete case for C109: the matrix with the rows `(1, -2⁻³⁰)` and `(-2⁻³⁰, 2)`, for which one reflection and one rotation
are made.  All hypotheses of C109_binary64 hold, and both eigenvalues are positive. -/
theorem Eig.case_new : ∃ (eps : B64) (a : Mat B64 2 2) (s : Tri B64 2 2) (mt : Mat B64 2 2) (T : Nat → Nat → B64) (g : Eig B64 2),
    fin eps ∧ val eps = (1 / 2) ^ 53 ∧ a.own ∧ Shows a.at 2 2 Eig.caseA ∧
    (∀ i j, i < 2 → j < 2 → Eig.caseA i j = Eig.caseA j i) ∧ Tri.new a = .ok s ∧ s.t = .ok ⟨2, 2, mt⟩ ∧ Shows mt.at 2 2 T ∧
    (∀ i j, i < 2 → j < 2 → fin (T i j)) ∧
    (∀ i, i + 1 < 2 → val (T i (i + 1)) = 0 ∨ (2 : ℕ) * (1 / 2) ^ 1020 ≤ val (T i (i + 1)) ^ 2) ∧
    (∀ i, i + 1 < 2 → |val (T i (i + 1))| ≤ 2 ^ 510) ∧ fro (mx 2 2 fun i j => val (Eig.caseA i j)) ≤ 2 ^ 1000 ∧
    Eig.newSym eps a = .ok g ∧ (∀ i j, i < 2 → j < 2 → fin (g.vec.f i j)) ∧
    ∀ i, i < 2 → B64.Is (g.re.f i) 1 ∨ B64.Is (g.re.f i) 2 := by
  let a : Mat B64 2 2 := .arr ⟨⟨Eig.caseA⟩, fun _ => 0⟩
  have hA : Shows a.at 2 2 Eig.caseA := (Mat.at_shows a).congr fun i j hi hj => rfl
  obtain ⟨s, d, e, htr, hmain⟩ := Tri.new_ok (a := a) trivial (by norm_num) hA
  obtain ⟨h1, h2, h3, h4⟩ := Eig.case_trace htr
  obtain ⟨mt, et, -, hT⟩ := Tri.t_ok (by norm_num) s
  have m0 : B64.Is (s.main.f 0) 1 := by rw [hmain]; simpa [upd1_eq] using h1
  have m1 : B64.Is (s.main.f 1) 2 := by rw [hmain]; simpa [upd1_eq] using h2
  have he : B64.Num (1 / 2 ^ 53) := B64.Num.dy 1 53 (by norm_num) (by norm_num) (by norm_num)
  have z := B64.Is.zero
  obtain ⟨mqt, q, eqt, hdt, hqt, q0, q1⟩ := Tri.qT_wp (show 0 < 2 by omega) s (fun k q =>
      (∀ i j, i < k ∨ j < k → i < 2 → j < 2 → B64.Is (q i j) 0) ∧ (k = 1 → B64.Is (q 1 1) (-1)))
    ⟨fun _ _ _ _ _ => z, fun h => by omega⟩ (by
      intro k q q' hk hk3 ⟨i1, i2⟩ hS
      obtain rfl : k = 1 := by omega
      change Tri.QStep 2 1 (s.sec.f 0) (s.hv.f 0) q q' at hS
      refine ⟨fun i j hij hi hj => by rw [hS.other i j hij]; exact i1 i j (by omega) hi hj, fun _ => ?_⟩
      rw [hS.diag (h4.ne (by norm_num))]
      exact B64.Is.one.add ((B64.Is.one.div (t := 2 ^ 30) h3 (by norm_num) (by norm_num)
        (B64.Num.pow 30 (by norm_num) rfl)).mul (t := -2) h4 (by norm_num)
        (B64.dyi (-2) (by norm_num))) (by norm_num) (B64.dyi (-1) (by norm_num)))
  have q11 := q1 rfl
  obtain ⟨mq, eq, hdq, hQ⟩ := C12_transpose hdt (by norm_num) hqt
  have e1 : s.q = .ok ⟨2, 2, mq⟩ := by
    unfold Tri.q
    rw [eqt, ok_bind]
    dsimp only
    rw [eq]
    rfl
  obtain ⟨zz, ez, hz⟩ := Schur.tab_ok (Mat.dense_own hdq) (by norm_num) hQ
  obtain ⟨g, hg, hv, hp⟩ := Eig.case_find (eps := B64.num _ he) (main := s.main) (sec := s.sec) (z := zz) (by omega)
    ⟨trivial, rfl⟩ m0 m1 h3 (fun i j hi hj => by
      rw [hz i j hi hj]
      rw [upd2_eq]
      split
      · exact ⟨1, by norm_num, by simpa using B64.Is.one⟩
      · next hne =>
        by_cases h : j < 1 ∨ i < 1
        · exact ⟨0, by norm_num, by simpa using q0 j i h hj hi⟩
        · obtain rfl : i = 1 := by omega
          obtain rfl : j = 1 := by omega
          exact ⟨-1, by norm_num, by simpa using q11⟩)
  have hs : Tri.tEnt s.main.f s.sec.f 0 (0 + 1) = s.sec.f 0 := by
    rw [Tri.tEnt, if_neg (by omega), if_neg (by omega), if_pos rfl]
  refine ⟨B64.num _ he, a, s, mt, _, g, trivial, ?_, trivial, hA, fun i j hi hj => ?_, e, et, hT, fun i j hi hj => ?_,
    fun i hi => ?_, fun i hi => ?_, ?_, ?_, hv, hp⟩
  · show (1 : ℝ) / 2 ^ 53 = _
    norm_num
  · unfold Eig.caseA
    by_cases hij : i = j
    · rw [hij]
    · rw [if_neg hij, if_neg (fun h => hij h.symm)]
  · unfold Tri.tEnt
    split_ifs
    · obtain rfl | rfl : i = 0 ∨ i = 1 := by omega
      exacts [m0.1, m1.1]
    · obtain rfl : j = 0 := by omega
      exact h3.1
    · obtain rfl : i = 0 := by omega
      exact h3.1
    · exact zero_fin
  · obtain rfl : i = 0 := by omega
    rw [hs, h3.2]
    right
    have : ((1 : ℝ) / 2) ^ 1020 ≤ (1 / 2) ^ 70 := pow_le_pow_of_le_one (by norm_num) (by norm_num) (by norm_num)
    generalize ((1 : ℝ) / 2) ^ 1020 = w at *
    norm_num at this ⊢
    linarith
  · obtain rfl : i = 0 := by omega
    rw [hs, h3.2]
    have : (1 : ℝ) ≤ 2 ^ 510 := one_le_pow₀ (by norm_num)
    refine le_trans ?_ this
    norm_num [abs_of_pos]
  · have h1 : fro (mx 2 2 fun i j => val (Eig.caseA i j)) ≤ 2 ^ 2 := by
      have c00 : val (Eig.caseA 0 0) = 1 := val_one
      have c11 : val (Eig.caseA 1 1) = 2 := val_two
      have c01 : val (Eig.caseA 0 1) = -1 / 2 ^ 30 := rfl
      have c10 : val (Eig.caseA 1 0) = -1 / 2 ^ 30 := rfl
      unfold fro
      refine Real.sqrt_le_iff.2 ⟨by norm_num, ?_⟩
      norm_num [Fin.sum_univ_two, mx, c00, c11, c01, c10]
    exact h1.trans (pow_le_pow_right₀ (by norm_num) (by norm_num))
  · unfold Eig.newSym
    rw [e, ok_bind, e1, ok_bind, ez, ok_bind]
    exact hg

end Linear
