import Verif.Lemmas.RRQRLemmas
import Verif.Props.QR
import Verif.Props.Lines

/-!
# C35, C60, C61: the QR decomposition with column pivoting
-/

set_option linter.unusedSectionVars false

namespace Linear

open Spec Finset Matrix

section exact

variable {K : Type} [Field K] [LinearOrder K] [IsStrictOrderedRing K] [Flt K] [Exact K] [ExactSqrt K]
variable {m n p q k : Nat}

/-! ## C35 -/

/-- **C35.** Every matrix with at least one row and one column is decomposed: `A * P = Q * R` with `P` a
permutation matrix, `Q` orthogonal, `R` zero below its diagonal, and the magnitudes of the diagonal of `R`
do not increase. Each diagonal element is at least the norm of every column of the remaining block. -/
theorem C35_factors {a : Mat K m n} (ha : a.own) (hm : 0 < m) (hn : 0 < n) {A : Nat → Nat → K}
    (hA : Shows a.at m n A) :
    ∃ s, RRQR.new a = .ok s ∧
    ∃ (mq mt : Mat K m m) (mr : Mat K m n) (mp : Mat K n n) (Q R P : Nat → Nat → K),
      s.qr.q = .ok ⟨m, m, mq⟩ ∧ s.qr.qT = .ok ⟨m, m, mt⟩ ∧ s.qr.r = .ok ⟨m, n, mr⟩ ∧ s.pMat = .ok mp ∧
      mq.own ∧ mt.own ∧ mr.own ∧ mp.own ∧
      Shows mq.at m m Q ∧ Shows mt.at m m (fun i j => Q j i) ∧ Shows mr.at m n R ∧ Shows mp.at n n P ∧
      mx m n A * mx n n P = mx m m Q * mx m n R ∧ IsPerm n P ∧
      (mx m m Q)ᵀ * mx m m Q = 1 ∧ mx m m Q * (mx m m Q)ᵀ = 1 ∧ Upper m n R ∧
      (∀ i j, i ≤ j → j < min m n → |R j j| ≤ |R i i|) ∧
      ∀ i j, i < min m n → i ≤ j → j < n → ∑ r ∈ Ico i m, R r j ^ 2 ≤ R i i ^ 2 := by
  obtain ⟨s, e, h, σ, hσ⟩ := RRQR.new_exact ha hm hn hA
  obtain ⟨mq, mt, mr, Q, R, h1, h2, h3, h4, h5, h6, h7, h8, h9, h10, h11, h12, h13, h14⟩ :=
    QR.factors_ok hm hn s.qr h.qr
  obtain ⟨mp, ep, hp1, hp2⟩ := RRQR.pMat_ok (s := s) hn hσ
  obtain ⟨mr', er', -, hr'⟩ := QR.r_ok hm hn s.qr
  obtain rfl : mr' = mr := by rw [h3] at er'; cases er'; rfl
  have htop : ∀ i j, i < min m n → i ≤ j → j < n → ∑ r ∈ Ico i m, R r j ^ 2 ≤ R i i ^ 2 := by
    intro i j hi hij hj
    have := h.top i j hi hij hj
    rw [h14 i hi, pow_two]
    refine le_trans (le_of_eq (Finset.sum_congr rfl fun r hr => ?_)) this
    have hrm := (mem_Ico.1 hr).2
    rw [h9.unique hr' hrm hj, QR.rEnt_exact _ _ hrm hj rfl, pow_two]
  refine ⟨s, e, mq, mt, mr', mp, Q, R, _, h1, h2, h3, ep, h4, h5, h6, hp1, h7, h8, h9, hp2, ?_, ?_,
    h11, h12, h13, ?_, htop⟩
  · rw [h10]
    ext i j
    rw [Matrix.mul_apply]
    show (∑ l : Fin n, A i l * (if s.p.f j = l then (Flt.one : K) else Flt.zero)) = A i (s.p.f j)
    rw [Finset.sum_eq_single (σ j)]
    · rw [hσ j]; simp
    · intro l _ hl
      rw [if_neg (fun e => hl (Fin.ext (by rw [← e, hσ j])))]
      simp
    · simp
  · refine ⟨σ.symm, fun i j => ?_⟩
    dsimp only
    rw [hσ j, Exact.zero_eq, Exact.one_eq]
    refine if_congr ?_ rfl rfl
    rw [Fin.val_inj, Equiv.symm_apply_eq]
    exact eq_comm
  · intro i j hij hj
    rw [← sq_le_sq]
    refine le_trans ?_ (htop i j (by omega) hij (by omega))
    exact Finset.single_le_sum (f := fun r => R r j ^ 2) (fun r _ => sq_nonneg _)
      (mem_Ico.2 ⟨hij, by omega⟩)

/-! ## The rank -/

/-- Entries with a single 1 at equal positions. -/
def eqm (i j : Nat) : K := if i = j then 1 else 0

theorem eqm_mul {r c t : Nat} (h : r ≤ c) (B : Nat → Nat → K) :
    mx r c (eqm (K := K)) * mx c t B = mx r t B := by
  ext i j
  rw [Matrix.mul_apply]
  show (∑ l : Fin c, eqm (i : Nat) l * B l j) = B i j
  rw [Finset.sum_eq_single ⟨i, by omega⟩]
  · simp [eqm]
  · intro l _ hl
    rw [eqm, if_neg (fun e => hl (Fin.ext e.symm)), zero_mul]
  · simp

theorem mul_eqm {r c t : Nat} (h : t ≤ c) (B : Nat → Nat → K) :
    mx r c B * mx c t (eqm (K := K)) = mx r t B := by
  ext i j
  rw [Matrix.mul_apply]
  show (∑ l : Fin c, B i l * eqm (l : Nat) j) = B i j
  rw [Finset.sum_eq_single ⟨j, by omega⟩]
  · simp [eqm]
  · intro l _ hl
    rw [eqm, if_neg (fun e => hl (Fin.ext e)), mul_zero]
  · simp

/-- A triangular matrix whose diagonal is zero exactly from `r` on, with the rows from `r` on empty. -/
theorem rank_upper {R : Nat → Nat → K} {r : Nat} (hm : r ≤ m) (hn : r ≤ n) (hU : Upper r r R)
    (hd : ∀ i, i < r → R i i ≠ 0) (hz : ∀ i j, r ≤ i → i < m → j < n → R i j = 0) :
    (mx m n R).rank = r := by
  refine le_antisymm ?_ ?_
  · have : mx m n R = mx m r (eqm (K := K)) * mx r n R := by
      ext i j
      rw [Matrix.mul_apply]
      show R i j = ∑ l : Fin r, eqm (i : Nat) l * R l j
      by_cases e : (i : Nat) < r
      · rw [Finset.sum_eq_single ⟨i, e⟩]
        · simp [eqm]
        · intro l _ hl
          rw [eqm, if_neg (fun e => hl (Fin.ext e.symm)), zero_mul]
        · simp
      · rw [hz i j (not_lt.1 e) i.2 j.2]
        refine (Finset.sum_eq_zero fun l _ => ?_).symm
        rw [eqm, if_neg (by omega), zero_mul]
    rw [this]
    exact (Matrix.rank_mul_le_right _ _).trans (Matrix.rank_le_height _)
  · have h1 : mx r r R = mx r m (eqm (K := K)) * (mx m n R * mx n r (eqm (K := K))) := by
      rw [mul_eqm hn, eqm_mul hm]
    have h2 : (mx r r R).rank = r := by
      have : IsUnit (mx r r R) := by
        rw [Matrix.isUnit_iff_isUnit_det, det_upper hU]
        exact (Finset.prod_ne_zero_iff.2 fun i hi => hd i (mem_range.1 hi)).isUnit
      rw [Matrix.rank_of_isUnit _ this, Fintype.card_fin]
    calc r = (mx r r R).rank := h2.symm
      _ ≤ (mx m n R * mx n r (eqm (K := K))).rank := by rw [h1]; exact Matrix.rank_mul_le_right _ _
      _ ≤ (mx m n R).rank := Matrix.rank_mul_le_left _ _

/-- The rank is the number of nonzero diagonal elements. -/
theorem RRQR.Inv.rank {A f : Nat → Nat → K} {d : Nat → K} {p : Nat → Nat}
    (h : RRQR.Inv m n A (min m n) f d p) {σ : Equiv.Perm (Fin n)} (hσ : ∀ j : Fin n, p j = σ j) {r : Nat}
    (hr : r ≤ min m n) (hd : ∀ i, i < r → d i ≠ 0) (hz : r < min m n → d r = 0) :
    (mx m n A).rank = r := by
  have h1 : mx m n (fun i j => A i (p j)) = (mx m n A).submatrix (Equiv.refl _) σ := by
    ext i j
    show A i (p j) = A i (σ j)
    rw [hσ]
  have h2 : (mx m n (fun i j => A i (p j))).rank = (mx m n A).rank := by
    rw [h1, Matrix.rank_submatrix]
  have hQ : IsUnit (hprod m (QR.H m f d) (min m n)).det := by
    have := congrArg Matrix.det h.qr.orth
    rw [Matrix.det_mul, Matrix.det_one] at this
    exact IsUnit.of_mul_eq_one _ this
  rw [← h2, h.qr.prod, Matrix.rank_mul_eq_right_of_isUnit_det _ _ hQ]
  refine rank_upper (by omega) (by omega) ?_ ?_ ?_
  · intro i j hi hj hij
    unfold QR.R
    rw [if_pos (by omega), if_neg (by omega), if_neg (by omega)]
  · intro i hi
    unfold QR.R
    rw [if_pos (by omega), if_neg (by omega), if_pos rfl]
    exact hd i hi
  · intro i j hri hi hj
    by_cases hjr : j < r
    · unfold QR.R
      rw [if_pos (by omega), if_neg (by omega), if_neg (by omega)]
    · by_cases hr' : r < min m n
      · have h3 := h.top r j hr' (by omega) hj
        rw [hz hr', mul_zero] at h3
        have h4 := (Finset.sum_eq_zero_iff_of_nonneg fun x _ => mul_self_nonneg _).1
          (le_antisymm h3 (Finset.sum_nonneg fun x _ => mul_self_nonneg _)) i (mem_Ico.2 ⟨hri, hi⟩)
        exact mul_self_eq_zero.1 h4
      · omega

theorem RRQR.Inv.mono {A f : Nat → Nat → K} {d : Nat → K} {p : Nat → Nat}
    (h : RRQR.Inv m n A (min m n) f d p) {i j : Nat} (hij : i ≤ j) (hj : j < min m n) (hi : d i = 0) :
    d j = 0 := by
  have h1 := h.top i j (by omega) hij (by omega)
  rw [hi, mul_zero] at h1
  have h4 := (Finset.sum_eq_zero_iff_of_nonneg fun x _ => mul_self_nonneg _).1
    (le_antisymm h1 (Finset.sum_nonneg fun x _ => mul_self_nonneg _)) j (mem_Ico.2 ⟨hij, by omega⟩)
  have h5 := mul_self_eq_zero.1 h4
  unfold QR.R at h5
  rwa [if_pos hj, if_neg (by omega), if_pos rfl] at h5

theorem RRQR.Inv.full_iff {A f : Nat → Nat → K} {d : Nat → K} {p : Nat → Nat}
    (h : RRQR.Inv m n A (min m n) f d p) {σ : Equiv.Perm (Fin n)} (hσ : ∀ j : Fin n, p j = σ j) :
    (mx m n A).rank = min m n ↔ ∀ i, i < min m n → d i ≠ 0 := by
  refine ⟨fun hr => ?_, fun hd => h.rank hσ le_rfl hd (by omega)⟩
  by_contra hc
  push Not at hc
  have hc : ∃ i, i < min m n ∧ d i = 0 := hc
  have h1 := Nat.find_spec hc
  have h2 := h.rank hσ (r := Nat.find hc) h1.1.le
    (fun i hi e => Nat.find_min hc hi ⟨by omega, e⟩) (fun _ => h1.2)
  omega

/-! ## C60 -/

/-- **C60.** `IsNonSingular` compares the magnitude of every diagonal element of `R` with the threshold.
With threshold 0 it answers whether the matrix has full rank. -/
theorem C60_isNonSingular {a : Mat K m n} (ha : a.own) (hm : 0 < m) (hn : 0 < n) {A : Nat → Nat → K}
    (hA : Shows a.at m n A) {s : RRQR K m n (min m n)} (hs : RRQR.new a = .ok s) (thr : K) :
    ∃ (b : Bool) (mr : Mat K m n) (R : Nat → Nat → K), s.isNonSingular thr = .ok b ∧
      s.qr.r = .ok ⟨m, n, mr⟩ ∧ Shows mr.at m n R ∧
      (b = true ↔ ∀ i, i < min m n → thr < |R i i|) ∧
      (thr = 0 → (b = true ↔ (mx m n A).rank = min m n)) := by
  obtain ⟨s', e, h, σ, hσ⟩ := RRQR.new_exact ha hm hn hA
  obtain rfl : s' = s := by rw [hs] at e; exact (Except.ok.inj e).symm
  obtain ⟨_, _, mr, _, R, -, -, er, -, -, -, -, -, hR, -, -, -, -, hd⟩ := QR.factors_ok hm hn s'.qr h.qr
  obtain ⟨b, eb, hb⟩ := QR.check_exact s'.qr thr
  have hb' : (!b) = true ↔ ∀ i, i < min m n → thr < |R i i| := by
    rw [Bool.not_eq_true', ← Bool.not_eq_true, hb]
    push Not
    exact forall_congr' fun i => ⟨fun g hi => by rw [hd i hi]; exact g hi,
      fun g hi => by rw [← hd i hi]; exact g hi⟩
  refine ⟨!b, mr, R, ?_, er, hR, hb', ?_⟩
  · unfold RRQR.isNonSingular QR.isNonSingular
    rw [eb]; rfl
  · rintro rfl
    rw [hb', h.full_iff hσ]
    exact forall_congr' fun i => forall_congr' fun hi => by rw [hd i hi, abs_pos]

theorem resid_perm (M : Matrix (Fin m) (Fin n) K) (σ : Equiv.Perm (Fin n)) (y : Fin n → K) (b : Fin m → K) :
    resid (M.submatrix id σ) y b = resid M (y ∘ σ.symm) b := by
  unfold resid
  refine Finset.sum_congr rfl fun i _ => ?_
  rw [← Equiv.sum_comp σ fun j => M i j * (y ∘ σ.symm) j]
  simp

theorem leastSq_perm {M : Matrix (Fin m) (Fin n) K} {σ : Equiv.Perm (Fin n)} {y : Fin n → K} {b : Fin m → K}
    (h : LeastSq (M.submatrix id σ) y b) : LeastSq M (y ∘ σ.symm) b := by
  intro z
  have h1 := h (z ∘ σ)
  rw [resid_perm, resid_perm] at h1
  have h2 : (z ∘ σ) ∘ σ.symm = z := by funext j; simp
  rw [h2] at h1
  refine ⟨h1.1, fun e => ?_⟩
  have h3 := h1.2 e
  rw [← h2, h3]

/-- Product of the permutation matrix with a column. -/
theorem perm_apply {p : Nat → Nat} {σ : Equiv.Perm (Fin n)} (hσ : ∀ j : Fin n, p j = σ j) (y : Nat → K)
    (i : Fin n) :
    ∑ j ∈ range n, (if p j = i then (Flt.one : K) else Flt.zero) * y j = y (σ.symm i) := by
  rw [Finset.sum_range, Finset.sum_eq_single (σ.symm i)]
  · rw [if_pos (by rw [hσ, Equiv.apply_symm_apply])]; simp
  · intro j _ hj
    rw [if_neg (fun e => hj ((Equiv.eq_symm_apply σ).2 (Fin.ext (by rw [← hσ]; exact e))))]
    simp
  · simp

theorem RRQR.check_ne {s : RRQR K m n (min m n)} {thr : K} (ht : 0 ≤ thr)
    (hok : s.isNonSingular thr = .ok true) :
    checkSingular s.qr.rDiag thr = .ok false ∧ ∀ i, i < min m n → s.qr.rDiag.f i ≠ 0 := by
  obtain ⟨c, ec, hc⟩ := QR.check_exact s.qr thr
  unfold RRQR.isNonSingular QR.isNonSingular at hok
  rw [ec] at hok
  obtain rfl : c = false := by simpa using Except.ok.inj hok
  exact ⟨ec, fun i hi e0 => absurd (hc.2 ⟨i, hi, by rw [e0, abs_zero]; exact ht⟩) (by simp)⟩

/-- **C60.** Unless the matrix is reported singular, `SolveVector` returns for `n ≤ m` the only least
squares solution, and for `m ≤ n` a solution of `A x = b`. -/
theorem C60_vector {a : Mat K m n} (ha : a.own) (hm : 0 < m) (hn : 0 < n) {A : Nat → Nat → K}
    (hA : Shows a.at m n A) {s : RRQR K m n (min m n)} (hs : RRQR.new a = .ok s) {thr : K} (ht : 0 ≤ thr)
    (hok : s.isNonSingular thr = .ok true) {b : RVec K} (hb : b.dim = m) :
    ∃ x, s.solveVector thr b = .ok x ∧ x.length = n ∧
      (n ≤ m → LeastSq (mx m n A) (vc n x) (vc m b.list)) ∧
      (m ≤ n → (mx m n A).mulVec (vc n x) = vc m b.list) := by
  obtain ⟨s', e, h, σ, hσ⟩ := RRQR.new_exact ha hm hn hA
  obtain rfl : s' = s := by rw [hs] at e; exact (Except.ok.inj e).symm
  obtain ⟨ec, hd⟩ := RRQR.check_ne ht hok
  obtain ⟨y, h1, h2, h3, h4, h5⟩ := QR.solveVector_exact s'.qr h.qr hn ec hd hb
  obtain ⟨mp, ep, hp1, hp2⟩ := RRQR.pMat_ok (s := s') hn hσ
  have hy : IsList y n (nth y) := ⟨h2, fun i hi => by
    rw [List.getElem?_eq_getElem (by omega)]; simp [nth, List.getElem?_eq_getElem (show i < y.length by omega)]⟩
  obtain ⟨x, ex, hx⟩ := C11_operate hp1 hn hp2 hy
  have hv : vc n x = vc n y ∘ σ.symm := by
    funext i
    show nth x i = nth y (σ.symm i)
    rw [← perm_apply hσ (nth y) i]
    simp only [nth]
    rw [List.getD_eq_getElem?_getD, hx.2 i i.2]
    rfl
  have hB : mx m n (fun i j => A i (s'.p.f j)) = (mx m n A).submatrix id σ := by
    ext i j
    show A i (s'.p.f j) = A i (σ j)
    rw [hσ]
  rw [hB] at h4 h5
  refine ⟨x, ?_, hx.1, fun hnm => ?_, fun hmn => ?_⟩
  · unfold RRQR.solveVector
    rw [ep, ok_bind, h1, ok_bind, (C48_array hp1 y).1, ex]
  · rw [hv]; exact leastSq_perm (h4 hnm)
  · rw [hv, ← h5 hmn]
    funext i
    show (∑ j, mx m n A i j * vc n y (σ.symm j)) = ∑ j, mx m n A i (σ j) * vc n y j
    rw [← Equiv.sum_comp σ]
    simp

theorem RRQR.solveMatrix_sol {a : Mat K m n} (ha : a.own) (hm : 0 < m) (hn : 0 < n) {A : Nat → Nat → K}
    (hA : Shows a.at m n A) {s : RRQR K m n (min m n)} (hs : RRQR.new a = .ok s) {thr : K} (ht : 0 ≤ thr)
    (hok : s.isNonSingular thr = .ok true) (hq : 0 < q) {b : Mat K m q} {B : Nat → Nat → K}
    (hB : Shows b.at m q B) :
    ∃ (x : Mat K n q) (X : Nat → Nat → K), s.solveMatrix thr b = .ok ⟨n, q, x⟩ ∧ x.own ∧
      Shows x.at n q X ∧
      (n ≤ m → ∀ c : Fin q, LeastSq (mx m n A) (fun i => X i c) (fun i => B i c)) ∧
      (m ≤ n → mx m n A * mx n q X = mx m q B) := by
  obtain ⟨s', e, h, σ, hσ⟩ := RRQR.new_exact ha hm hn hA
  obtain rfl : s' = s := by rw [hs] at e; exact (Except.ok.inj e).symm
  obtain ⟨ec, hd⟩ := RRQR.check_ne ht hok
  obtain ⟨y, Y, h1, h2, h3, h4, h5, h6⟩ := QR.solveMatrix_sol s'.qr h.qr hm hn ec hd hB
  obtain ⟨mp, ep, hp1, hp2⟩ := RRQR.pMat_ok (s := s') hn hσ
  obtain ⟨x, ex, hx1, hx2⟩ := C10_product hp1 hn hn hq hp2 h3
  have hAp : mx m n (fun i j => A i (s'.p.f j)) = (mx m n A).submatrix id σ := by
    ext i j
    show A i (s'.p.f j) = A i (σ j)
    rw [hσ]
  rw [hAp] at h5 h6
  refine ⟨x, _, ?_, hx1, hx2, fun hnm c => ?_, fun hmn => ?_⟩
  · unfold RRQR.solveMatrix
    rw [ep, ok_bind, h1, ok_bind, ex]
  · have := leastSq_perm ((h5 hnm).2 c)
    have e1 : (fun i : Fin n => ∑ k ∈ range n, (if s'.p.f k = i then (Flt.one : K) else Flt.zero) * Y k c) =
        (fun i : Fin n => Y i c) ∘ σ.symm := funext fun i => perm_apply hσ (fun k => Y k c) i
    rw [e1]; exact this
  · rw [← h6 hmn]
    ext i c
    rw [Matrix.mul_apply, Matrix.mul_apply]
    show (∑ j : Fin n, A i j * ∑ k ∈ range n, (if s'.p.f k = j then (Flt.one : K) else Flt.zero) * Y k c) =
      ∑ j : Fin n, A i (σ j) * Y j c
    rw [Finset.sum_congr rfl fun j _ => by rw [perm_apply hσ (fun k => Y k c) j], ← Equiv.sum_comp σ]
    simp

/-- **C60.** Unless the matrix is reported singular, each column of the result of `SolveMatrix` is the
only least squares solution for `n ≤ m`, and for `m ≤ n` it solves `A X = B`. -/
theorem C60_matrix {a : Mat K m n} (ha : a.own) (hm : 0 < m) (hn : 0 < n) {A : Nat → Nat → K}
    (hA : Shows a.at m n A) {s : RRQR K m n (min m n)} (hs : RRQR.new a = .ok s) {thr : K} (ht : 0 ≤ thr)
    (hok : s.isNonSingular thr = .ok true) (hq : 0 < q) {b : Mat K m q} {B : Nat → Nat → K}
    (hB : Shows b.at m q B) :
    ∃ (x : Mat K n q) (X : Nat → Nat → K), s.solveMatrix thr b = .ok ⟨n, q, x⟩ ∧ x.own ∧
      Shows x.at n q X ∧
      (n ≤ m → ∀ c : Fin q, LeastSq (mx m n A) (fun i => X i c) (fun i => B i c)) ∧
      (m ≤ n → mx m n A * mx n q X = mx m q B) :=
  RRQR.solveMatrix_sol ha hm hn hA hs ht hok hq hB

/-- **C60.** `Inverse` of a square matrix. -/
theorem C60_inverse {a : Mat K n n} (ha : a.own) (hn : 0 < n) {A : Nat → Nat → K}
    (hA : Shows a.at n n A) {s : RRQR K n n (min n n)} (hs : RRQR.new a = .ok s) {thr : K} (ht : 0 ≤ thr)
    (hok : s.isNonSingular thr = .ok true) :
    ∃ (x : Mat K n n) (X : Nat → Nat → K), s.inverse thr = .ok ⟨n, n, x⟩ ∧ x.own ∧ Shows x.at n n X ∧
      mx n n A * mx n n X = 1 ∧ mx n n X * mx n n A = 1 := by
  obtain ⟨i, ei, hi⟩ := identity_nat (α := K) hn
  obtain ⟨x, X, ex, hx, hX, -, h⟩ := RRQR.solveMatrix_sol ha hn hn hA hs ht hok hn hi
  obtain ⟨s', e, -, σ, hσ⟩ := RRQR.new_exact ha hn hn hA
  obtain rfl : s' = s := by rw [hs] at e; exact (Except.ok.inj e).symm
  obtain ⟨mp, ep, -⟩ := RRQR.pMat_ok (s := s') hn hσ
  have h1 : mx n n A * mx n n X = 1 := by
    rw [h le_rfl]
    ext i j
    simp [mx, Matrix.one_apply, Fin.ext_iff]
  refine ⟨x, X, ?_, hx, hX, h1, mul_eq_one_comm.1 h1⟩
  unfold RRQR.inverse
  rw [ep, ok_bind]
  refine (congrArg (fun x : Res (Mat K n n) => x.must >>= fun i => s'.solveMatrix thr i) ei :).trans ?_
  rw [must_ok, ok_bind, ex]

/-! ## C61 -/

/-- **C61.** With a threshold of at most 0, `Rank` is the rank of the matrix, except that it is 1 for the
zero matrix. The full claim (equality with the rank for every matrix) is refuted by `C61_false`. -/
theorem C61_rank_partial {a : Mat K m n} (ha : a.own) (hm : 0 < m) (hn : 0 < n) {A : Nat → Nat → K}
    (hA : Shows a.at m n A) {s : RRQR K m n (min m n)} (hs : RRQR.new a = .ok s) {drop : K}
    (hdrop : drop ≤ 0) : s.rank drop = .ok (max 1 (mx m n A).rank) := by
  obtain ⟨s', e, h, σ, hσ⟩ := RRQR.new_exact ha hm hn hA
  obtain rfl : s' = s := by rw [hs] at e; exact (Except.ok.inj e).symm
  obtain ⟨mr, er, hrd, hr⟩ := QR.r_ok hm hn s'.qr
  obtain ⟨rn, ern, hrn, -⟩ := C49_frobenius (Mat.dense_own hrd) hm hr
  set d := s'.qr.rDiag.f with hd
  -- the result from the diagonal
  have fin : ∀ r, 1 ≤ r → r ≤ min m n → (∀ i, 1 ≤ i → i < r → d i ≠ 0) → (r < min m n → d r = 0) →
      max 1 (mx m n A).rank = r := by
    intro r h1 h2 h3 h4
    by_cases h0 : d 0 = 0
    · have h5 := h.rank hσ (Nat.zero_le _) (by intro i hi; omega) (fun _ => h0)
      have h6 : r = 1 := by
        by_contra hr1
        exact h3 1 le_rfl (by omega) (h.mono (Nat.zero_le 1) (by omega) h0)
      rw [h5, h6]; rfl
    · have h5 := h.rank hσ h2 (fun i hi => by
        rcases Nat.eq_zero_or_pos i with rfl | hi'
        · exact h0
        · exact h3 i hi' hi) h4
      rw [h5]; omega
  have loop := wp_forUpBrk (E := fun _ : Fault => False) (a := 1) (b := min m n)
    (body := fun rank (lastNorm : K) => do
      let sub ← mr.subMatrix rank ((m : Int) - 1) rank ((n : Int) - 1)
      let thisNorm ← sub.m.frobeniusNorm
      if Flt.eq thisNorm Flt.zero || Flt.lt (Flt.mul (Flt.div thisNorm lastNorm) rn) drop then
        return .inr rank
      else return .inl thisNorm) (s := rn)
    (fun k (t : K) => 0 ≤ t ∧ ∀ i, 1 ≤ i → i < k → d i ≠ 0)
    (fun r : Nat => max 1 (mx m n A).rank = r) (by omega) (And.intro hrn (by omega)) (by
      rintro k t h1 h2 ⟨h3, h4⟩
      obtain ⟨sub, es, hsd, hss⟩ := C13_subMatrix hrd hr (sr := k) (er := (m : Int) - 1) (sc := k)
        (ec := (n : Int) - 1) (by unfold window; omega)
      obtain ⟨x, ex, hx0, hx⟩ := C49_frobenius (Mat.dense_own hsd) (by omega) hss
      have hzero : x = 0 ↔ d k = 0 := by
        rw [← mul_self_eq_zero, hx]
        constructor
        · intro hz
          have h5 := (Finset.sum_eq_zero_iff_of_nonneg fun i _ => Finset.sum_nonneg fun j _ =>
            mul_self_nonneg _).1 hz 0 (mem_range.2 (by omega))
          have h6 := (Finset.sum_eq_zero_iff_of_nonneg fun j _ => mul_self_nonneg _).1 h5 0
            (mem_range.2 (by omega))
          have h7 := mul_self_eq_zero.1 h6
          unfold QR.rEnt at h7
          simpa using h7
        · intro hz
          refine Finset.sum_eq_zero fun i hi => Finset.sum_eq_zero fun j hj => ?_
          have hi := mem_range.1 hi
          have hj := mem_range.1 hj
          have h5 := h.top k (k + j) h2 (by omega) (by omega)
          rw [hz, mul_zero] at h5
          have h6 := (Finset.sum_eq_zero_iff_of_nonneg fun x _ => mul_self_nonneg _).1
            (le_antisymm h5 (Finset.sum_nonneg fun x _ => mul_self_nonneg _)) (k + i)
            (mem_Ico.2 ⟨by omega, by omega⟩)
          rw [Int.toNat_natCast, QR.rEnt_exact _ _ (show k + i < m by omega) (show k + j < n by omega) rfl]
          exact h6
      rw [es, ok_bind]
      show Wp (sub.frobeniusNorm >>= _) _ _
      rw [ex, ok_bind]
      have hlt : Flt.lt (Flt.mul (Flt.div x t) rn) drop = false := by
        rw [Exact.lt_eq, Exact.mul_eq, Exact.div_eq]
        simpa using hdrop.trans (mul_nonneg (div_nonneg hx0 h3) hrn)
      rw [hlt, Bool.or_false]
      by_cases hxz : x = 0
      · rw [if_pos (by simpa using hxz)]
        exact fin k h1 (by omega) h4 (fun _ => hzero.1 hxz)
      · rw [if_neg (by simpa using hxz)]
        refine ⟨hx0, fun i hi1 hi2 => ?_⟩
        by_cases e : i = k
        · subst e; exact fun e' => hxz (hzero.2 e')
        · exact h4 i hi1 (by omega))
  obtain ⟨o, eo, ho⟩ := loop.exists_ok
  unfold RRQR.rank
  rw [er, ok_bind]
  show (mr.frobeniusNorm >>= _) = _
  rw [ern, ok_bind]
  rcases o with t | r
  · have h5 := fin (min m n) (by omega) le_rfl ho.2 (by omega)
    refine (congrArg (fun x : Res (K ⊕ Nat) => x >>= _) eo).trans ?_
    show (.ok (max 1 (min m n)) : Res Nat) = _
    rw [h5, max_eq_right (by omega)]
  · refine (congrArg (fun x : Res (K ⊕ Nat) => x >>= _) eo).trans ?_
    show (.ok _ : Res Nat) = _
    rw [show max 1 (mx m n A).rank = r from ho]

/-- **C61, refuted.** `Rank` of the zero matrix is 1. -/
theorem C61_false {a : Mat K m n} (ha : a.own) (hm : 0 < m) (hn : 0 < n)
    (hA : Shows a.at m n fun _ _ => (0 : K)) {s : RRQR K m n (min m n)} (hs : RRQR.new a = .ok s) :
    s.rank 0 = .ok 1 ∧ (mx m n fun _ _ => (0 : K)).rank = 0 := by
  have h : (mx m n fun _ _ => (0 : K)).rank = 0 := Matrix.rank_zero
  refine ⟨?_, h⟩
  rw [C61_rank_partial ha hm hn hA hs le_rfl, h]
  rfl

end exact

section free

variable {α : Type} [Flt α] {m n : Nat}

/-- **C58.** In any arithmetic the decomposition with column pivoting ends without an index fault, and so
do `R`, `QT`, `Q` and `P`; the recorded pivots are a permutation of the column indices. -/
theorem C58_rrqr [ZeroLaws α] {a : Mat α m n} (ha : a.own) (hm : 0 < m) (hn : 0 < n) :
    ∃ s, RRQR.new a = .ok s ∧ s.p.toList.Perm (List.range n) ∧
      (∃ x : Mat α m n, s.qr.r = .ok ⟨m, n, x⟩) ∧ (∃ x : Mat α m m, s.qr.qT = .ok ⟨m, m, x⟩) ∧
      (∃ x : Mat α m m, s.qr.q = .ok ⟨m, m, x⟩) ∧ ∃ x, s.pMat = .ok x := by
  obtain ⟨s, e, -, σ, hσ⟩ := RRQR.new_wp ha hm hn a.at_shows (fun _ _ _ _ => True)
    (fun _ _ _ _ _ => trivial) (fun _ _ _ _ _ _ _ _ _ _ _ _ _ _ _ _ _ => trivial)
  obtain ⟨x, ex, -⟩ := QR.r_ok hm hn s.qr
  obtain ⟨y, q, ey, hy, hq, -⟩ := QR.qT_wp hm hn s.qr (fun _ _ => True) (fun _ _ => trivial)
    (fun _ _ _ _ _ _ _ => trivial)
  obtain ⟨z, ez, -⟩ := C12_transpose hy hm hq
  obtain ⟨w, ew, -⟩ := RRQR.pMat_ok (s := s) hn hσ
  refine ⟨s, e, ?_, ⟨x, ex⟩, ⟨y, ey⟩, ⟨z, ?_⟩, ⟨w, ew⟩⟩
  · have h1 : s.p.toList = (List.finRange n).map fun i => (σ i : Nat) := by
      unfold Row.toList
      rw [← List.map_coe_finRange_eq_range, List.map_map]
      exact List.map_congr_left fun i _ => hσ i
    have h2 : (List.finRange n).map (fun i => (σ i : Nat)) = ((List.finRange n).map σ).map Fin.val := by
      rw [List.map_map]; rfl
    rw [h1, h2, ← List.map_coe_finRange_eq_range]
    exact (Equiv.Perm.map_finRange_perm σ).map _
  · unfold QR.q
    rw [ey, ok_bind]
    dsimp only
    rw [ez]
    rfl

/-- **C60.** Refusals, in any arithmetic: right-hand sides of the wrong height, singular matrices, and
`Inverse` of every matrix that is not square. -/
theorem C60_refuse [ZeroLaws α] {a : Mat α m n} (ha : a.own) (hm : 0 < m) (hn : 0 < n)
    {s : RRQR α m n (min m n)} (hs : RRQR.new a = .ok s) (thr : α) :
    (∀ b : RVec α, b.dim ≠ m → s.solveVector thr b = .error (.pan .dim)) ∧
    (∀ (r q : Nat) (b : Mat α r q), r ≠ m → s.solveMatrix thr b = .error (.pan .dim)) ∧
    (n ≠ m → s.inverse thr = .error (.pan .dim)) ∧
    (s.isNonSingular thr = .ok false →
      (∀ b : RVec α, b.dim = m → s.solveVector thr b = .error (.pan .sing)) ∧
      (∀ (q : Nat) (b : Mat α m q), s.solveMatrix thr b = .error (.pan .sing)) ∧
      (n = m → s.inverse thr = .error (.pan .sing))) := by
  obtain ⟨s', e, -, σ, hσ⟩ := RRQR.new_wp ha hm hn a.at_shows (fun _ _ _ _ => True)
    (fun _ _ _ _ _ => trivial) (fun _ _ _ _ _ _ _ _ _ _ _ _ _ _ _ _ _ => trivial)
  obtain rfl : s' = s := by rw [hs] at e; exact (Except.ok.inj e).symm
  obtain ⟨w, ew, -⟩ := RRQR.pMat_ok (s := s') hn hσ
  obtain ⟨h1, h2, h3⟩ := C34_refuse hm hn s'.qr thr
  obtain ⟨i, ei, -⟩ := identity_nat (α := α) hn
  have hinv : s'.inverse thr = s'.solveMatrix thr i := by
    unfold RRQR.inverse
    rw [ew, ok_bind]
    refine (congrArg (fun x : Res (Mat α n n) => x.must >>= fun i => s'.solveMatrix thr i) ei :).trans ?_
    rw [must_ok, ok_bind]
  have h4 : ∀ (r q : Nat) (b : Mat α r q), r ≠ m → s'.solveMatrix thr b = .error (.pan .dim) := by
    intro r q b hb
    unfold RRQR.solveMatrix
    rw [ew, ok_bind, h2 r q b hb]
    rfl
  refine ⟨fun b hb => ?_, h4, fun hnm => by rw [hinv, h4 n n i hnm], fun h => ?_⟩
  · unfold RRQR.solveVector
    rw [ew, ok_bind, h1 b hb]
    rfl
  · obtain ⟨g1, g2, -⟩ := h3 h
    have g3 : ∀ (q : Nat) (b : Mat α m q), s'.solveMatrix thr b = .error (.pan .sing) := by
      intro q b
      unfold RRQR.solveMatrix
      rw [ew, ok_bind, g2 q b]
      rfl
    refine ⟨fun b hb => ?_, g3, ?_⟩
    · unfold RRQR.solveVector
      rw [ew, ok_bind, g1 b hb]
      rfl
    · rintro rfl
      rw [hinv, g3]

end free

/-! ## Concrete cases -/

/-- The second column is longer, so that the columns are exchanged. -/
def Spec.rrCase : Mat ℚ 3 2 :=
  .arr ⟨⟨fun i j => if j = 1 then (if i = 0 then -30 else if i = 1 then 40 else 0) else
    (if i = 0 then 9 else if i = 1 then 13 else 20)⟩, fun _ => 0⟩

example : rrCase.own ∧ (RRQR.new rrCase).toOption.map (fun d => (d.p.toList, d.qr.rDiag.toList)) =
    some ([1, 0], [50, -25]) := ⟨trivial, by decide +kernel⟩

example : (RRQR.new rrCase >>= fun d => d.isNonSingular 0).toOption = some true ∧
    (RRQR.new rrCase >>= fun d => d.solveVector 0 (.arr [1, 2, 3])).toOption = some [18/125, 7/1250] ∧
    (RRQR.new rrCase >>= fun d => d.rank 0).toOption = some 2 := by decide +kernel

/-- A zero matrix, for `C61_false`. -/
def Spec.rrZero : Mat ℚ 2 2 := .arr ⟨⟨fun _ _ => 0⟩, fun _ => 0⟩

example : (RRQR.new rrZero >>= fun d => d.rank 0).toOption = some 1 := by decide +kernel

end Linear
