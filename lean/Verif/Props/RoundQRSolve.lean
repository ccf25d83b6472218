import Verif.Props.RoundQR
import Verif.Props.RRQR
import Verif.Props.Round
import Verif.Lemmas.RoundQRSolve

/-!
# C92, C93: the solvers of the QR decompositions in rounded arithmetic

A computed solution is the exact solution of a system close to the given one.
-/

set_option linter.unusedSectionVars false

namespace Linear

open Spec Rnd Matrix
open Finset hiding val diag

/-! ## Specification -/

/-- The Euclidean norm. -/
noncomputable def Spec.vnorm {m : Nat} (v : Fin m → ℝ) : ℝ := √(∑ i, v i ^ 2)

/-- `x` is the only least squares solution of `M x = b` when there are at least as many rows as columns,
and a solution when there are at most as many. -/
def Spec.Sol {m n : Nat} (M : Matrix (Fin m) (Fin n) ℝ) (x : Fin n → ℝ) (b : Fin m → ℝ) : Prop :=
  (n ≤ m → LeastSq M x b) ∧ (m ≤ n → M.mulVec x = b)

/-- The bound on the change of a column of norm `x` of the matrix: that of the decomposition, and that of
`p` steps of back substitution. -/
noncomputable def Spec.slvErr (α : Type) [Flt α] [Rnd α] (m p : Nat) (e x : ℝ) : ℝ :=
  hhErr α m p e x + ((1 + u α) ^ (p + 2) - 1) * (x + hhErr α m p e x)

section round

variable {α : Type} [Flt α] [Rnd α] {m n : Nat}

/-- A vector as a matrix with one column. -/
def colm {n : Nat} (v : Fin n → ℝ) : Matrix (Fin n) (Fin 1) ℝ := Matrix.of fun i _ => v i

theorem mul_colm (O : Matrix (Fin m) (Fin n) ℝ) (w : Fin n → ℝ) : (fun i => (O * colm w) i 0) = O.mulVec w := by
  funext i
  rw [Matrix.mul_apply]
  rfl

/-! ## Exact solution of a triangular system -/

theorem sol_of_tri {O : Matrix (Fin m) (Fin m) ℝ} (hO : Oᵀ * O = 1) {T : Nat → Nat → ℝ} {x : Fin n → ℝ}
    {w : Fin m → ℝ} (hU : ∀ i j, i < m → j < n → j < i → T i j = 0) (hd : ∀ i, i < min m n → T i i ≠ 0)
    (hs : ∀ i : Fin m, (i : Nat) < min m n → ∑ j : Fin n, T i j * x j = w i) :
    Sol (O * mx m n T) x (O.mulVec w) := by
  refine ⟨fun hn => ?_, fun hn => ?_⟩
  · have hinj : Function.Injective (O * mx m n T).mulVec := by
      have h0 : Function.Injective (O * mx m n T).mulVec ↔ ∀ z, (O * mx m n T) *ᵥ z = 0 → z = 0 :=
        injective_iff_map_eq_zero (Matrix.mulVecLin (O * mx m n T))
      rw [h0]
      intro z hz
      have h1 : mx m n T *ᵥ z = 0 := by
        have := congrArg (Oᵀ *ᵥ ·) hz
        simpa [Matrix.mulVec_mulVec, ← Matrix.mul_assoc, hO] using this
      have h2 : mx n n T *ᵥ z = 0 := by
        ext i
        exact congrFun h1 ⟨i, by omega⟩
      by_contra hne
      have h3 := Matrix.exists_mulVec_eq_zero_iff.1 ⟨z, hne, h2⟩
      rw [det_upper fun i j hi hj hij => hU i j (by omega) hj hij, Finset.prod_eq_zero_iff] at h3
      obtain ⟨i, hi, h4⟩ := h3
      exact hd i (by have := mem_range.1 hi; omega) h4
    have hnorm : (O * mx m n T)ᵀ * (O * mx m n T * colm x - O * colm w) = 0 := by
      rw [Matrix.mul_assoc, ← Matrix.mul_sub, Matrix.transpose_mul, Matrix.mul_assoc, ← Matrix.mul_assoc Oᵀ, hO,
        Matrix.one_mul]
      ext j c
      rw [Matrix.mul_apply]
      refine Finset.sum_eq_zero fun i _ => ?_
      rw [Matrix.transpose_apply, Matrix.sub_apply, Matrix.mul_apply]
      change mx m n T i j * ((∑ k : Fin n, T i k * x k) - w i) = 0
      by_cases hi : (i : Nat) < n
      · rw [hs i (by omega), sub_self, mul_zero]
      · rw [show mx m n T i j = 0 from hU i j i.2 j.2 (by omega), zero_mul]
    have h := leastSq_of_normal hinj hnorm 0
    have e : (fun i => (O * colm w) i 0) = O.mulVec w := mul_colm O w
    rw [e] at h
    exact h
  · rw [← Matrix.mulVec_mulVec]
    congr 1
    ext i
    exact hs i (by omega)

theorem nrm_le_sum (S : Finset ℕ) (f : ℕ → ℝ) : nrm S f ≤ ∑ i ∈ S, |f i| := by
  classical
  refine nrm_le (sum_nonneg fun _ _ => abs_nonneg _) ?_
  induction S using Finset.induction_on with
  | empty => simp
  | insert a s ha ih =>
    rw [sum_insert ha, sum_insert ha]
    have h1 : 0 ≤ ∑ i ∈ s, |f i| := sum_nonneg fun _ _ => abs_nonneg _
    have h2 := abs_nonneg (f a)
    have h3 := sq_abs (f a)
    nlinarith [mul_nonneg h2 h1]

/-! ## One right-hand side -/

theorem QR.solve_round {e : ℝ} {A : Nat → Nat → α} {p : Nat} {f : Nat → Nat → α} {d : Nat → α}
    (hm : 0 < m) (hn : 0 < n) (hp : p = min m n) (he : u α ≤ e) (hM : (m + 4) * e ≤ 1 / 100)
    (hd : ∀ i, i < p → Scaled m e (d i)) (hI : QR.RInv m n e A p f d) {b y x : Nat → α}
    (h1 : QR.Refl m f d b p y) (h2 : QR.Back p f d y x) (h0 : ∀ i, p ≤ i → i < n → x i = Flt.zero)
    (hx : ∀ i, i < p → fin (x i)) :
    (∀ i, i < m → fin (b i)) ∧ ∃ (E : Matrix (Fin m) (Fin n) ℝ) (g : Fin m → ℝ),
      Sol ((mx m n fun i j => val (A i j)) + E) (fun i => val (x i)) (fun i => val (b i) + g i) ∧
      (∀ j, cnorm E j ≤ slvErr α m p e (cnorm (mx m n fun i j => val (A i j)) j)) ∧
      vnorm g ≤ hhErr α m p e (vnorm fun i : Fin m => val (b i)) +
        (1 + u α) ^ (p + 1) * (p ^ 2 + ∑ i ∈ range p, |val (d i)|) * η α := by
  have hu := u_nonneg (α := α)
  have hη := η_nonneg (α := α)
  have he0 : 0 ≤ e := hu.trans he
  have hpm : p ≤ m := by omega
  have B := h2.round hd hI hx
  obtain ⟨hb, z, hz, hzE⟩ := h1.round_top (by omega) hpm he hM (fun i hi => ⟨hd i hi, (B i hi).2.1⟩) hI
    fun i hi => (B i hi).1
  refine ⟨hb, ?_⟩
  set O := hprod m (QR.hx m (fun c r => val (f c r)) (fun c => val (d c))) p with hOd
  have ht : ∀ i, i < p → (QR.hx m (fun c r => val (f c r)) (fun c => val (d c)) i)ᵀ =
      QR.hx m (fun c r => val (f c r)) (fun c => val (d c)) i := fun i _ => hh_transpose _ _ _ _
  have hh : ∀ i, i < p → QR.hx m (fun c r => val (f c r)) (fun c => val (d c)) i *
      QR.hx m (fun c r => val (f c r)) (fun c => val (d c)) i = 1 := fun i hi => hh_sq (hI.refl i hi)
  have o1 : Oᵀ * O = 1 := hprod_orth' ht hh
  have o2 : O * Oᵀ = 1 := hprod_orth ht hh
  set R := QR.R (fun c r => val (f c r)) (fun c => val (d c)) p with hR
  have hRU : ∀ i j, i ≤ j → j < p → R i j = QR.Ut f d i j := by
    intro i j hij hj
    rw [hR]; unfold QR.R QR.Ut
    rw [if_pos hj]
    split_ifs <;> first | rfl | omega
  -- the change of each row
  have hrow : ∀ i, ∃ (δ : Nat → ℝ) (ε : ℝ), i < p → (∀ j, |δ j| ≤ gam α (p + 2) * |QR.Ut f d i j|) ∧
      |ε| ≤ (1 + u α) ^ (p + 1) * (p + |val (d i)|) * η α ∧
      ∑ j ∈ Ico i p, δ j * val (x j) + ε = val (y i) - ∑ j ∈ Ico i p, QR.Ut f d i j * val (x j) := by
    intro i
    by_cases hi : i < p
    · obtain ⟨δ, ε, a1, a2, a3⟩ := row_change (Ico i p) (QR.Ut f d i) (fun j => val (x j))
        (ρ := val (y i) - ∑ j ∈ Ico i p, QR.Ut f d i j * val (x j)) (gam_nonneg (α := α) (p + 2))
        (θ := (1 + u α) ^ (p + 1) * (p + |val (d i)|) * η α) (by positivity)
        (by rw [abs_sub_comm]; exact (B i hi).2.2)
      exact ⟨δ, ε, fun _ => ⟨a1, a2, a3⟩⟩
    · exact ⟨0, 0, fun h => absurd h hi⟩
  choose δ ε hδ using hrow
  obtain ⟨g1, -⟩ := gam_small (α := α) (N := p + 2) he hM (by omega)
  have hg1 : gam α (p + 2) < 1 := by
    refine lt_of_le_of_lt g1 ?_
    have : ((m : ℝ) + 2) * e ≤ (m + 4) * e := by gcongr; norm_num
    linarith
  have hg0 := gam_nonneg (α := α) (p + 2)
  set T : Nat → Nat → ℝ := fun i j => if i ≤ j ∧ j < p then R i j + δ i j else R i j with hT
  set w : Fin m → ℝ := fun i => if (i : Nat) < p then z i - ε i else z i with hw
  have hup : ∀ i j, i < m → j < n → j < i → T i j = 0 := by
    intro i j hi hj hij
    rw [hT]; dsimp only
    rw [if_neg (by omega), hR]
    unfold QR.R
    rw [if_pos (by omega), if_neg (by omega), if_neg (by omega)]
  have hdiag : ∀ i, i < min m n → T i i ≠ 0 := by
    intro i hi
    rw [← hp] at hi
    rw [hT]; dsimp only
    rw [if_pos ⟨le_rfl, hi⟩, hRU i i le_rfl hi]
    intro h
    have h3 := (hδ i hi).1 i
    have h4 : δ i i = -QR.Ut f d i i := by linarith
    have h5 : QR.Ut f d i i = val (d i) := by unfold QR.Ut; rw [if_pos rfl]
    rw [h4, abs_neg, h5] at h3
    have := abs_pos.2 (B i hi).2.1
    nlinarith
  have hsum : ∀ i : Fin m, (i : Nat) < min m n → ∑ j : Fin n, T i j * val (x j) = w i := by
    intro i hi
    rw [← hp] at hi
    obtain ⟨-, -, h3⟩ := hδ i hi
    rw [hw]; dsimp only
    rw [if_pos hi, hz i hi, ← Finset.sum_range (fun j => T i j * val (x j))]
    have e1 : ∑ j ∈ range n, T i j * val (x j) = ∑ j ∈ Ico (i : Nat) p, T i j * val (x j) := by
      refine (sum_subset (fun j hj => ?_) fun j hj hj' => ?_).symm
      · rw [mem_Ico] at hj; rw [mem_range]; omega
      · rw [mem_range] at hj
        rw [mem_Ico] at hj'
        by_cases hjp : j < p
        · rw [hup i j i.2 hj (by omega), zero_mul]
        · rw [h0 j (by omega) hj, val_zero, mul_zero]
    have e2 : ∑ j ∈ Ico (i : Nat) p, T i j * val (x j) =
        ∑ j ∈ Ico (i : Nat) p, QR.Ut f d i j * val (x j) + ∑ j ∈ Ico (i : Nat) p, δ i j * val (x j) := by
      rw [← sum_add_distrib]
      refine sum_congr rfl fun j hj => ?_
      rw [mem_Ico] at hj
      rw [hT]; dsimp only
      rw [if_pos ⟨hj.1, hj.2⟩, hRU i j hj.1 hj.2, add_mul]
    rw [e1, e2]
    linarith
  have hsol := sol_of_tri (x := fun j => val (x j)) o1 hup hdiag hsum
  refine ⟨O * mx m n T - mx m n fun i j => val (A i j), fun i => O.mulVec w i - val (b i), ?_, fun j => ?_, ?_⟩
  · rw [add_sub_cancel]
    have : (fun i : Fin m => val (b i) + (O.mulVec w i - val (b i))) = O.mulVec w := by
      funext i; ring
    rw [this]
    exact hsol
  · -- the matrix
    have hE := hI.err j
    rw [← hOd, ← hR] at hE
    change _ ≤ hhErr α m p e (cnorm (mx m n fun i j => val (A i j)) j) at hE
    have c1 : cnorm (O * mx m n T - mx m n fun i j => val (A i j)) j =
        cnorm (mx m n T - Oᵀ * mx m n fun i j => val (A i j)) j := by
      rw [← cnorm_orth o1 (mx m n T - _), Matrix.mul_sub, ← Matrix.mul_assoc, o2, Matrix.one_mul]
    have c2 : mx m n T - (Oᵀ * mx m n fun i j => val (A i j)) =
        (mx m n R - Oᵀ * mx m n fun i j => val (A i j)) + (mx m n T - mx m n R) := by abel
    have c3 : cnorm (mx m n T - mx m n R) j ≤ gam α (p + 2) * cnorm (mx m n R) j := by
      have : mx m n T - mx m n R = mx m n fun i j => T i j - R i j := rfl
      rw [this, cnorm_mx, cnorm_mx, ← abs_of_nonneg hg0, ← nrm_mul]
      refine nrm_mono fun i hi => ?_
      rw [hT]; dsimp only
      split_ifs with h
      · rw [add_sub_cancel_left, abs_mul, abs_of_nonneg hg0, hRU i j h.1 h.2]
        exact (hδ i (by omega)).1 j
      · rw [sub_self, abs_zero]; exact abs_nonneg _
    have c4 : cnorm (mx m n R) j ≤ cnorm (mx m n fun i j => val (A i j)) j +
        hhErr α m p e (cnorm (mx m n fun i j => val (A i j)) j) := by
      have q1 : mx m n R = (Oᵀ * mx m n fun i j => val (A i j)) +
          (mx m n R - Oᵀ * mx m n fun i j => val (A i j)) := by abel
      have q2 : cnorm (Oᵀ * mx m n fun i j => val (A i j)) j = cnorm (mx m n fun i j => val (A i j)) j :=
        cnorm_orth (by rw [Matrix.transpose_transpose]; exact o2) _ _
      rw [q1]
      refine (cnorm_add_le _ _ _).trans ?_
      rw [q2]
      gcongr
    rw [c1, c2]
    refine (cnorm_add_le _ _ _).trans ?_
    unfold slvErr
    rw [show (1 + u α) ^ (p + 2) - 1 = gam α (p + 2) from rfl]
    exact add_le_add hE (c3.trans (by gcongr))
  · -- the right-hand side
    unfold QR.VErr at hzE
    rw [← hOd] at hzE
    change _ ≤ hhErr α m p e (vnorm fun i : Fin m => val (b i)) at hzE
    have c1 : vnorm (fun i => O.mulVec w i - val (b i)) =
        cnorm (O * colm w - mx m 1 fun i _ => val (b i)) 0 := by
      rw [← mul_colm]
      rfl
    have c2 : cnorm (O * colm w - mx m 1 fun i _ => val (b i)) 0 =
        cnorm (colm w - Oᵀ * mx m 1 fun i _ => val (b i)) 0 := by
      rw [← cnorm_orth o1 (_ - Oᵀ * _), Matrix.mul_sub, ← Matrix.mul_assoc, o2, Matrix.one_mul]
    have c3 : colm w - (Oᵀ * mx m 1 fun i _ => val (b i)) =
        (mx m 1 (fun i _ => z i) - Oᵀ * mx m 1 fun i _ => val (b i)) +
          mx m 1 (fun i _ => if i < p then -ε i else 0) := by
      ext i c
      simp only [Matrix.sub_apply, Matrix.add_apply, hw, mx, colm, Matrix.of_apply]
      split_ifs <;> ring
    have c4 : cnorm (mx m 1 (fun i _ => if i < p then -ε i else 0)) 0 ≤
        (1 + u α) ^ (p + 1) * (p ^ 2 + ∑ i ∈ range p, |val (d i)|) * η α := by
      rw [cnorm_mx]
      have s1 : nrm (range m) (fun i => if i < p then -ε i else 0) =
          nrm (range p) fun i => ε i := by
        unfold nrm
        congr 1
        rw [← sum_subset (range_subset_range.2 hpm) fun i _ hi => by
          dsimp only; rw [if_neg (by simpa using hi)]; ring]
        exact sum_congr rfl fun i hi => by dsimp only; rw [if_pos (mem_range.1 hi), neg_sq]
      rw [s1]
      refine le_trans (nrm_le_sum _ _) ?_
      refine le_trans (sum_le_sum fun i hi => (hδ i (mem_range.1 hi)).2.1) (le_of_eq ?_)
      rw [← sum_mul, ← mul_sum, sum_add_distrib, sum_const, card_range, nsmul_eq_mul]
      ring
    rw [c1, c2, c3]
    exact (cnorm_add_le _ _ _).trans (add_le_add hzE c4)

theorem slvErr_le {p : Nat} {e x : ℝ} (hp : 0 < p) (hpm : p ≤ m) (he : u α ≤ e) (hM : (m + 4) * e ≤ 1 / 100)
    (hx : 0 ≤ x) (h : p * (36 * (m + 4) * e) ≤ 1) :
    slvErr α m p e x ≤ 75 * p * (m + 4) * e * x + 19 * p * √(m * η α) := by
  have he0 : 0 ≤ e := (u_nonneg (α := α)).trans he
  have h1 := hhErr_le (α := α) he0 hx h
  obtain ⟨g1, -⟩ := gam_small (α := α) (N := p + 2) he hM (by omega)
  have hg0 := gam_nonneg (α := α) (p + 2)
  have h2 := Real.sqrt_nonneg (m * η α)
  have hp1 : (1 : ℝ) ≤ p := by exact_mod_cast hp
  unfold slvErr
  rw [show (1 + u α) ^ (p + 2) - 1 = gam α (p + 2) from rfl]
  generalize hhErr α m p e x = H at *
  generalize gam α (p + 2) = G at *
  generalize √(m * η α) = Z at *
  have hM4 : ((m : ℝ) + 2) * e ≤ (m + 4) * e := by gcongr; norm_num
  rw [show (1.02 : ℝ) = 51 / 50 by norm_num] at g1
  have h3 : G ≤ 51 / 50 * ((m + 4) * e) := by linarith
  have h4 : G ≤ 51 / 5000 := by linarith
  have hq : 0 ≤ ((m : ℝ) + 4) * e * x := by positivity
  have h5 : G * x ≤ 51 / 50 * ((m + 4) * e) * x := mul_le_mul_of_nonneg_right h3 hx
  have h6 : ((m : ℝ) + 4) * e * x ≤ p * ((m + 4) * e * x) := le_mul_of_one_le_left hq hp1
  have hH : 0 ≤ 72 * p * (m + 4) * e * x + 18 * p * Z := by positivity
  have h7 : G * H ≤ G * (72 * p * (m + 4) * e * x + 18 * p * Z) := mul_le_mul_of_nonneg_left h1 hg0
  have h8 : G * (72 * p * (m + 4) * e * x + 18 * p * Z) ≤ 51 / 5000 * (72 * p * (m + 4) * e * x + 18 * p * Z) :=
    mul_le_mul_of_nonneg_right h4 hH
  have h9 : 0 ≤ p * Z := by positivity
  nlinarith

/-! ## C92 -/

variable [ZeroLaws α]

theorem QR.solveVector_ok {s : QR α m n (min m n)} {thr : α} {b : RVec α} {x : List α} (hn : 0 < n)
    (h : s.solveVector thr b = .ok x) : b.dim = m ∧ checkSingular s.rDiag thr = .ok false := by
  unfold QR.solveVector at h
  rw [if_neg (by omega)] at h
  by_cases hb : b.dim = m
  · refine ⟨hb, ?_⟩
    rw [if_neg (by simpa using hb)] at h
    cases hc : checkSingular s.rDiag thr with
    | error e => rw [hc] at h; cases h
    | ok c =>
      cases c with
      | false => rfl
      | true => rw [hc] at h; cases h
  · rw [if_pos hb] at h
    cases h

/-- **C92.** When the triangular factor is finite and its diagonal entries are 0 or not so small or large
that their squares are lost, and the vector returned by `SolveVector` is finite, then this vector is the
exact solution (the only least squares solution for `n ≤ m`, a solution for `m ≤ n`) of a system whose
matrix differs from the given one by at most `slvErr` of its norm in each column, and whose right-hand
side differs from the given one by at most `hhErr` of its norm and a term for underflow. -/
theorem C92_vector {a : Mat α m n} (ha : a.own) (hm : 0 < m) (hn : 0 < n) {A : Nat → Nat → α}
    (hA : Shows a.at m n A) {s : QR α m n (min m n)} (hs : QR.new a = .ok s)
    {mr : Mat α m n} {R : Nat → Nat → α} (er : s.r = .ok ⟨m, n, mr⟩) (hR : Shows mr.at m n R)
    {e : ℝ} (he : u α ≤ e) (hM : (m + 4) * e ≤ 1 / 100)
    (hfin : ∀ i j, i < m → j < n → fin (R i j)) (hd : ∀ i, i < min m n → Scaled m e (R i i))
    {thr : α} {b : RVec α} {x : List α} (hx : s.solveVector thr b = .ok x)
    (hxf : ∀ i, i < n → fin (nth x i)) :
    b.dim = m ∧ x.length = n ∧ (∀ i, i < m → fin (nth b.list i)) ∧
    ∃ (E : Matrix (Fin m) (Fin n) ℝ) (g : Fin m → ℝ),
      Sol ((mx m n fun i j => val (A i j)) + E) (fun i => val (nth x i)) (fun i => val (nth b.list i) + g i) ∧
      (∀ j, cnorm E j ≤ slvErr α m (min m n) e (cnorm (mx m n fun i j => val (A i j)) j)) ∧
      vnorm g ≤ hhErr α m (min m n) e (vnorm fun i : Fin m => val (nth b.list i)) +
        (1 + u α) ^ (min m n + 1) * ((min m n : ℕ) ^ 2 + ∑ i ∈ range (min m n), |val (R i i)|) * η α := by
  obtain ⟨h1, h2, h3⟩ := QR.round_all ha hm hn hA hs er hR he hM hfin hd
  obtain ⟨hb, hc⟩ := QR.solveVector_ok hn hx
  obtain ⟨x', y, ex, hl, hy, hx', h0⟩ := QR.solveVector_bits s rfl hn hc hb
  rw [hx] at ex
  cases Except.ok.inj ex
  obtain ⟨k1, E, g, k2, k3, k4⟩ := QR.solve_round hm hn rfl he hM h2.diag h3 hy hx'
    (fun i hi _ => h0 i hi) fun i hi => hxf i (by omega)
  refine ⟨hb, hl, k1, E, g, k2, k3, ?_⟩
  have : ∑ i ∈ range (min m n), |val (R i i)| = ∑ i ∈ range (min m n), |val (s.rDiag.f i)| := by
    refine sum_congr rfl fun i hi => ?_
    have := mem_range.1 hi
    rw [h1 i i (by omega) (by omega)]
    unfold QR.rEnt
    rw [if_neg (by omega), if_pos rfl]
  rw [this]
  exact k4

theorem QR.solveMatrix_ok {q r : Nat} {s : QR α m n (min m n)} {thr : α} {b : Mat α r q} {x : SMat α} (hn : 0 < n)
    (h : s.solveMatrix thr b = .ok x) : r = m ∧ checkSingular s.rDiag thr = .ok false := by
  unfold QR.solveMatrix at h
  rw [if_neg (by omega)] at h
  by_cases hb : r = m
  · refine ⟨hb, ?_⟩
    rw [dif_pos hb] at h
    cases hc : checkSingular s.rDiag thr with
    | error e => rw [hc] at h; cases h
    | ok c =>
      cases c with
      | false => rfl
      | true => rw [hc] at h; cases h
  · rw [dif_neg hb] at h
    cases h

/-- **C92.** The same for each column of the matrix returned by `SolveMatrix`; the changes may differ
from column to column. -/
theorem C92_matrix {a : Mat α m n} (ha : a.own) (hm : 0 < m) (hn : 0 < n) {A : Nat → Nat → α}
    (hA : Shows a.at m n A) {s : QR α m n (min m n)} (hs : QR.new a = .ok s)
    {mr : Mat α m n} {R : Nat → Nat → α} (er : s.r = .ok ⟨m, n, mr⟩) (hR : Shows mr.at m n R)
    {e : ℝ} (he : u α ≤ e) (hM : (m + 4) * e ≤ 1 / 100)
    (hfin : ∀ i j, i < m → j < n → fin (R i j)) (hd : ∀ i, i < min m n → Scaled m e (R i i))
    {q : Nat} {thr : α} {b : Mat α m q} {B : Nat → Nat → α} (hB : Shows b.at m q B)
    {x : Mat α n q} {X : Nat → Nat → α} (hx : s.solveMatrix thr b = .ok ⟨n, q, x⟩) (hX : Shows x.at n q X)
    {c : Nat} (hc : c < q) (hxf : ∀ i, i < n → fin (X i c)) :
    (∀ i, i < m → fin (B i c)) ∧
    ∃ (E : Matrix (Fin m) (Fin n) ℝ) (g : Fin m → ℝ),
      Sol ((mx m n fun i j => val (A i j)) + E) (fun i => val (X i c)) (fun i => val (B i c) + g i) ∧
      (∀ j, cnorm E j ≤ slvErr α m (min m n) e (cnorm (mx m n fun i j => val (A i j)) j)) ∧
      vnorm g ≤ hhErr α m (min m n) e (vnorm fun i : Fin m => val (B i c)) +
        (1 + u α) ^ (min m n + 1) * ((min m n : ℕ) ^ 2 + ∑ i ∈ range (min m n), |val (R i i)|) * η α := by
  obtain ⟨h1, h2, h3⟩ := QR.round_all ha hm hn hA hs er hR he hM hfin hd
  obtain ⟨-, hck⟩ := QR.solveMatrix_ok hn hx
  obtain ⟨x', ex, hy, h0⟩ := QR.solveMatrix_bits s rfl hm hn hck b hB
  rw [hx] at ex
  cases Except.ok.inj ex
  have hXe : ∀ i, i < n → X i c = entB x' i c := fun i hi => hX.unique (Blk.shows_entB ⟨x'⟩) hi hc
  obtain ⟨y, hr, hk⟩ := hy c hc
  obtain ⟨k1, E, g, k2, k3, k4⟩ := QR.solve_round hm hn rfl he hM h2.diag h3 hr hk
    (fun i hi _ => h0 i c hi) fun i hi => by rw [← hXe i (by omega)]; exact hxf i (by omega)
  refine ⟨k1, E, g, ?_, k3, ?_⟩
  · have : (fun i : Fin n => val (X i c)) = fun i : Fin n => val (entB x' i c) := by
      funext i; rw [hXe i i.2]
    rw [this]
    exact k2
  · have : ∑ i ∈ range (min m n), |val (R i i)| = ∑ i ∈ range (min m n), |val (s.rDiag.f i)| := by
      refine sum_congr rfl fun i hi => ?_
      have := mem_range.1 hi
      rw [h1 i i (by omega) (by omega)]
      unfold QR.rEnt
      rw [if_neg (by omega), if_pos rfl]
    rw [this]
    exact k4

theorem unit_val (c i : Fin m) :
    val (if (i : Nat) = c then (Flt.one : α) else Flt.zero) = if i = c then 1 else 0 := by
  by_cases h : i = c
  · rw [if_pos h, if_pos (by rw [h]), val_one]
  · rw [if_neg h, if_neg (by simpa [Fin.ext_iff] using h), val_zero]

theorem unit_norm (c : Fin m) :
    (vnorm fun i : Fin m => val (if (i : Nat) = c then (Flt.one : α) else Flt.zero)) = 1 := by
  simp only [unit_val]
  unfold vnorm
  rw [Finset.sum_eq_single c]
  · simp
  · intro i _ hi; dsimp only; rw [if_neg hi]; norm_num
  · simp

/-- **C92.** Each column of the matrix returned by `Inverse` solves a system close to the one with the
column of the identity as its right-hand side. -/
theorem C92_inverse {a : Mat α m n} (ha : a.own) (hm : 0 < m) (hn : 0 < n) {A : Nat → Nat → α}
    (hA : Shows a.at m n A) {s : QR α m n (min m n)} (hs : QR.new a = .ok s)
    {mr : Mat α m n} {R : Nat → Nat → α} (er : s.r = .ok ⟨m, n, mr⟩) (hR : Shows mr.at m n R)
    {e : ℝ} (he : u α ≤ e) (hM : (m + 4) * e ≤ 1 / 100)
    (hfin : ∀ i j, i < m → j < n → fin (R i j)) (hd : ∀ i, i < min m n → Scaled m e (R i i))
    {thr : α} {x : Mat α n m} {X : Nat → Nat → α} (hx : s.inverse thr = .ok ⟨n, m, x⟩) (hX : Shows x.at n m X)
    (c : Fin m) (hxf : ∀ i, i < n → fin (X i c)) :
    ∃ (E : Matrix (Fin m) (Fin n) ℝ) (g : Fin m → ℝ),
      Sol ((mx m n fun i j => val (A i j)) + E) (fun i => val (X i c)) (fun i => (if i = c then 1 else 0) + g i) ∧
      (∀ j, cnorm E j ≤ slvErr α m (min m n) e (cnorm (mx m n fun i j => val (A i j)) j)) ∧
      vnorm g ≤ hhErr α m (min m n) e 1 +
        (1 + u α) ^ (min m n + 1) * ((min m n : ℕ) ^ 2 + ∑ i ∈ range (min m n), |val (R i i)|) * η α := by
  obtain ⟨i, ei, hi⟩ := identity_nat (α := α) hm
  have hx' : s.solveMatrix thr i = .ok ⟨n, m, x⟩ := by
    rw [← hx]
    unfold QR.inverse
    rw [if_neg (by omega)]
    exact ((congrArg (fun x : Res (Mat α m m) => x.must >>= fun i => s.solveMatrix thr i) ei :).trans
      (by rw [must_ok, ok_bind])).symm
  obtain ⟨-, E, g, h1, h2, h3⟩ := C92_matrix ha hm hn hA hs er hR he hM hfin hd hi hx' hX c.2 hxf
  rw [unit_norm] at h3
  simp only [unit_val] at h1
  exact ⟨E, g, h1, h2, h3⟩

/-! ## C93 -/

/-- A sum with at most one term that is not zero is exact. -/
theorem Spec.SumOf.exact_one {x : α} {s : Multiset α} (h : SumOf x s) (hx : fin x)
    (hs : (s.filter fun t => val t ≠ 0).card ≤ 1) : val x = (s.map val).sum := by
  classical
  have hz : ∀ s : Multiset α, (s.filter fun t => val t ≠ 0).card = 0 → (s.map val).sum = 0 := by
    intro s h
    rw [Multiset.card_eq_zero, Multiset.filter_eq_nil] at h
    refine Multiset.sum_eq_zero fun v hv => ?_
    obtain ⟨t, ht, rfl⟩ := Multiset.mem_map.1 hv
    exact not_not.1 (h t ht)
  induction h with
  | zero => simp [val_zero]
  | term x => simp
  | @add x y s t _ _ ih1 ih2 =>
    obtain ⟨f1, f2⟩ := add_fin hx
    rw [Multiset.filter_add, Multiset.card_add] at hs
    have a1 := ih1 f1 (by omega)
    have a2 := ih2 f2 (by omega)
    rw [Multiset.map_add, Multiset.sum_add]
    by_cases c : (s.filter fun t => val t ≠ 0).card = 0
    · rw [hz s c] at a1 ⊢
      rw [Rnd.zero_add hx a1, a2, _root_.zero_add]
    · have c' : (t.filter fun t => val t ≠ 0).card = 0 := by omega
      rw [hz t c'] at a2 ⊢
      rw [Rnd.add_zero hx a2, a1, _root_.add_zero]

/-- Sums whose magnitudes stay below the greatest number do not overflow. -/
theorem Spec.SumOf.ok {x : α} {s : Multiset α} (h : SumOf x s) (hf : ∀ t ∈ s, fin t)
    (hb : (1 + u α) ^ s.card * (s.map fun t => |val t|).sum ≤ big α) : fin x := by
  have hu := one_le_u (α := α)
  have hnn : ∀ s : Multiset α, 0 ≤ (s.map fun t => |val t|).sum := fun s =>
    Multiset.sum_nonneg fun v hv => by
      obtain ⟨t, -, rfl⟩ := Multiset.mem_map.1 hv
      exact abs_nonneg _
  have hval : ∀ {x : α} {s : Multiset α}, SumOf x s → fin x →
      |val x| ≤ (1 + u α) ^ s.card * (s.map fun t => |val t|).sum := by
    intro x s h hx
    have h1 := (h.err hx).2
    change |val x - (s.map val).sum| ≤ gam α (s.card - 1) * (s.map fun t => |val t|).sum at h1
    have h2 : |(s.map val).sum| ≤ (s.map fun t => |val t|).sum := by
      have := Multiset.abs_sum_le_sum_abs (s := s.map val)
      rwa [Multiset.map_map] at this
    have h3 := abs_sub_abs_le_abs_sub (val x) (s.map val).sum
    have h4 := one_add_gam (α := α) (s.card - 1)
    have h5 : (1 + u α) ^ (s.card - 1) ≤ (1 + u α) ^ s.card := pow_le_pow_right₀ hu (Nat.sub_le _ _)
    nlinarith [hnn s]
  induction h with
  | zero => exact zero_fin
  | term x => exact hf x (by simp)
  | @add x y s t h1 h2 ih1 ih2 =>
    rw [Multiset.map_add, Multiset.sum_add, Multiset.card_add] at hb
    have n1 := hnn s
    have n2 := hnn t
    have e1 : (1 + u α) ^ s.card ≤ (1 + u α) ^ (s.card + t.card) := pow_le_pow_right₀ hu (by omega)
    have e2 : (1 + u α) ^ t.card ≤ (1 + u α) ^ (s.card + t.card) := pow_le_pow_right₀ hu (by omega)
    have p0 : 0 ≤ (1 + u α) ^ (s.card + t.card) := by positivity
    have b1 := mul_le_mul_of_nonneg_right e1 n1
    have b2 := mul_le_mul_of_nonneg_right e2 n2
    have f1 := ih1 (fun z hz => hf z (Multiset.mem_add.2 (.inl hz))) (by nlinarith)
    have f2 := ih2 (fun z hz => hf z (Multiset.mem_add.2 (.inr hz))) (by nlinarith)
    refine add_ok f1 f2 ((abs_add_le _ _).trans ?_)
    have := hval h1 f1
    have := hval h2 f2
    linarith

/-- A row of a permutation matrix picks an element without rounding. -/
theorem Spec.DotOf.pick {N : Nat} {a b : Nat → α} {x : α} (h : DotOf N a b x) (hx : fin x) {i : Nat}
    (hi : i < N) (h1 : a i = Flt.one) (h0 : ∀ k, k < N → k ≠ i → a k = Flt.zero) :
    fin (b i) ∧ val x = val (b i) := by
  classical
  obtain ⟨S, hS, hsum, hout⟩ := h
  have hfin := (hsum.err hx).1
  have hval : ∀ k ∈ S, k ≠ i → val (Flt.mul (a k) (b k)) = 0 := by
    intro k hk hki
    refine mul_of_zero (hfin _ (Multiset.mem_map.2 ⟨k, hk, rfl⟩)) ?_
    rw [h0 k (mem_range.1 (hS hk)) hki, val_zero]
  have hone : ((over S fun k => Flt.mul (a k) (b k)).filter fun t => val t ≠ 0).card ≤ 1 := by
    unfold over
    rw [Multiset.filter_map, Multiset.card_map]
    have : Multiset.filter ((fun t : α => val t ≠ 0) ∘ fun k => Flt.mul (a k) (b k)) S.val =
        (S.filter fun k => val (Flt.mul (a k) (b k)) ≠ 0).val := rfl
    rw [this]
    refine le_trans (Finset.card_le_card (t := {i}) fun k hk => ?_) (by simp)
    rw [mem_filter] at hk
    rw [mem_singleton]
    by_contra hki
    exact hk.2 (hval k hk.1 hki)
  have hx1 := hsum.exact_one hx hone
  have hx2 : val x = ∑ k ∈ S, val (Flt.mul (a k) (b k)) := by
    rw [hx1]; unfold over; rw [Multiset.map_map]; rfl
  by_cases hiS : i ∈ S
  · have hf := hfin _ (Multiset.mem_map.2 ⟨i, hiS, rfl⟩)
    refine ⟨(mul_fin hf).2, ?_⟩
    rw [hx2, Finset.sum_eq_single i hval fun h => absurd hiS h]
    rw [h1] at hf ⊢
    exact one_times hf
  · have hb : b i = Flt.zero := by
      rcases hout i hi hiS with h | h
      · rw [h1] at h
        have := congrArg val h
        rw [val_one, val_zero] at this
        norm_num at this
      · exact h
    rw [hb]
    refine ⟨zero_fin, ?_⟩
    rw [hx2, val_zero]
    exact Finset.sum_eq_zero fun k hk => hval k hk fun e => hiS (e ▸ hk)

theorem sol_perm {M : Matrix (Fin m) (Fin n) ℝ} {σ : Equiv.Perm (Fin n)} {y : Fin n → ℝ} {b : Fin m → ℝ}
    (h : Sol (M.submatrix id σ) y b) : Sol M (y ∘ σ.symm) b := by
  refine ⟨fun hn => leastSq_perm (h.1 hn), fun hn => ?_⟩
  rw [← h.2 hn]
  funext i
  show (∑ j, M i j * y (σ.symm j)) = ∑ j, M i (σ j) * y j
  rw [← Equiv.sum_comp σ]
  simp

/-- What is known of a finished decomposition with pivoting. -/
theorem RRQR.round_all {a : Mat α m n} (ha : a.own) (hm : 0 < m) (hn : 0 < n) {A : Nat → Nat → α}
    (hA : Shows a.at m n A) {s : RRQR α m n (min m n)} (hs : RRQR.new a = .ok s)
    {mr : Mat α m n} {R : Nat → Nat → α} (er : s.qr.r = .ok ⟨m, n, mr⟩) (hR : Shows mr.at m n R)
    {e : ℝ} (he : u α ≤ e) (hM : (m + 4) * e ≤ 1 / 100)
    (hfin : ∀ i j, i < m → j < n → fin (R i j)) (hd : ∀ i, i < min m n → Scaled m e (R i i)) :
    (∀ i j, i < m → j < n → R i j = QR.rEnt s.qr.qrt.f s.qr.rDiag.f i j) ∧
    QR.RFin m n e (min m n) s.qr.qrt.f s.qr.rDiag.f ∧
    QR.RInv m n e (fun i j => A i (s.p.f j)) (min m n) s.qr.qrt.f s.qr.rDiag.f ∧
    ∃ σ : Equiv.Perm (Fin n), ∀ j : Fin n, s.p.f j = σ j := by
  obtain ⟨s', e1, h1, σ, hσ⟩ := RRQR.new_round ha hm hn hA
  rw [hs] at e1
  cases Except.ok.inj e1
  obtain ⟨mr', e2, -, h2⟩ := QR.r_ok hm hn s.qr
  rw [er] at e2
  cases Except.ok.inj e2
  have h3 : ∀ i j, i < m → j < n → R i j = QR.rEnt s.qr.qrt.f s.qr.rDiag.f i j := fun i j hi hj =>
    hR.unique h2 hi hj
  have h4 : QR.RFin m n e (min m n) s.qr.qrt.f s.qr.rDiag.f := by
    refine QR.rfin_of (fun i j hi hj => ?_) fun i hi => ?_
    · rw [← h3 i j hi hj]; exact hfin i j hi hj
    · rw [← h3 i i (by omega) (by omega)]; exact hd i hi
  exact ⟨h3, h4, h1 e he hM h4, σ, hσ⟩

/-- One right-hand side, with the columns in their original order. -/
theorem RRQR.solve_round {e : ℝ} {A : Nat → Nat → α} {p : Nat → Nat} {f : Nat → Nat → α} {d : Nat → α}
    (hm : 0 < m) (hn : 0 < n) (he : u α ≤ e) (hM : (m + 4) * e ≤ 1 / 100)
    (hd : ∀ i, i < min m n → Scaled m e (d i)) (hI : QR.RInv m n e (fun i j => A i (p j)) (min m n) f d)
    {σ : Equiv.Perm (Fin n)} (hσ : ∀ j : Fin n, p j = σ j) {b y z x : Nat → α}
    (h1 : QR.Refl m f d b (min m n) y) (h2 : QR.Back (min m n) f d y z)
    (h0 : ∀ i, min m n ≤ i → i < n → z i = Flt.zero)
    (hx : ∀ i, i < n → DotOf n (fun j => if p j = i then Flt.one else Flt.zero) z (x i))
    (hxf : ∀ i, i < n → fin (x i)) :
    (∀ i, i < m → fin (b i)) ∧ ∃ (E : Matrix (Fin m) (Fin n) ℝ) (g : Fin m → ℝ),
      Sol ((mx m n fun i j => val (A i j)) + E) (fun i => val (x i)) (fun i => val (b i) + g i) ∧
      (∀ j, cnorm E j ≤ slvErr α m (min m n) e (cnorm (mx m n fun i j => val (A i j)) j)) ∧
      vnorm g ≤ hhErr α m (min m n) e (vnorm fun i : Fin m => val (b i)) +
        (1 + u α) ^ (min m n + 1) * ((min m n : ℕ) ^ 2 + ∑ i ∈ range (min m n), |val (d i)|) * η α := by
  have hpk : ∀ j : Fin n, fin (z j) ∧ val (x (σ j)) = val (z j) := by
    intro j
    refine (hx _ (σ j).2).pick (hxf _ (σ j).2) j.2 (if_pos (hσ j)) fun k hk hkj => if_neg fun e => hkj ?_
    have : σ ⟨k, hk⟩ = σ j := Fin.ext (by rw [← hσ]; exact e)
    exact congrArg Fin.val (σ.injective this)
  obtain ⟨k1, E, g, k2, k3, k4⟩ := QR.solve_round hm hn rfl he hM hd hI h1 h2 h0
    fun i hi => (hpk ⟨i, by omega⟩).1
  have eA : (mx m n fun i j => val (A i (p j))) = (mx m n fun i j => val (A i j)).submatrix id σ := by
    ext i j
    show val (A i (p j)) = val (A i (σ j))
    rw [hσ]
  rw [eA] at k2 k3
  refine ⟨k1, E.submatrix id σ.symm, g, ?_, fun j => ?_, k4⟩
  · have e1 : (mx m n fun i j => val (A i j)).submatrix id σ + E =
        ((mx m n fun i j => val (A i j)) + E.submatrix id σ.symm).submatrix id σ := by
      ext i j
      simp
    rw [e1] at k2
    have e2 : (fun i : Fin n => val (x i)) = (fun i : Fin n => val (z i)) ∘ σ.symm := by
      funext i
      have := (hpk (σ.symm i)).2
      rw [Equiv.apply_symm_apply] at this
      exact this
    rw [e2]
    exact sol_perm k2
  · have e1 : cnorm (E.submatrix id σ.symm) j = cnorm E (σ.symm j) := rfl
    have e2 : cnorm ((mx m n fun i j => val (A i j)).submatrix id σ) (σ.symm j) =
        cnorm (mx m n fun i j => val (A i j)) j := by
      unfold cnorm
      simp
    rw [e1, ← e2]
    exact k3 (σ.symm j)

theorem QR.diag_sum {s : QR α m n (min m n)} {R : Nat → Nat → α}
    (h1 : ∀ i j, i < m → j < n → R i j = QR.rEnt s.qrt.f s.rDiag.f i j) :
    ∑ i ∈ range (min m n), |val (R i i)| = ∑ i ∈ range (min m n), |val (s.rDiag.f i)| := by
  refine sum_congr rfl fun i hi => ?_
  have := mem_range.1 hi
  rw [h1 i i (by omega) (by omega)]
  unfold QR.rEnt
  rw [if_neg (by omega), if_pos rfl]

/-- **C93.** The solver of the rank-revealing decomposition, under the hypotheses of C92: a finite
vector returned by `SolveVector` is the exact solution of a system as close to the given one as in C92.
The multiplication by the permutation matrix adds no error. -/
theorem C93_vector {a : Mat α m n} (ha : a.own) (hm : 0 < m) (hn : 0 < n) {A : Nat → Nat → α}
    (hA : Shows a.at m n A) {s : RRQR α m n (min m n)} (hs : RRQR.new a = .ok s)
    {mr : Mat α m n} {R : Nat → Nat → α} (er : s.qr.r = .ok ⟨m, n, mr⟩) (hR : Shows mr.at m n R)
    {e : ℝ} (he : u α ≤ e) (hM : (m + 4) * e ≤ 1 / 100)
    (hfin : ∀ i j, i < m → j < n → fin (R i j)) (hd : ∀ i, i < min m n → Scaled m e (R i i))
    {thr : α} {b : RVec α} {x : List α} (hx : s.solveVector thr b = .ok x)
    (hxf : ∀ i, i < n → fin (nth x i)) :
    b.dim = m ∧ x.length = n ∧ (∀ i, i < m → fin (nth b.list i)) ∧
    ∃ (E : Matrix (Fin m) (Fin n) ℝ) (g : Fin m → ℝ),
      Sol ((mx m n fun i j => val (A i j)) + E) (fun i => val (nth x i)) (fun i => val (nth b.list i) + g i) ∧
      (∀ j, cnorm E j ≤ slvErr α m (min m n) e (cnorm (mx m n fun i j => val (A i j)) j)) ∧
      vnorm g ≤ hhErr α m (min m n) e (vnorm fun i : Fin m => val (nth b.list i)) +
        (1 + u α) ^ (min m n + 1) * ((min m n : ℕ) ^ 2 + ∑ i ∈ range (min m n), |val (R i i)|) * η α := by
  obtain ⟨h1, h2, h3, σ, hσ⟩ := RRQR.round_all ha hm hn hA hs er hR he hM hfin hd
  obtain ⟨mp, ep, hp1, hp2⟩ := RRQR.pMat_ok (s := s) hn hσ
  unfold RRQR.solveVector at hx
  rw [ep, ok_bind] at hx
  cases hz : s.qr.solveVector thr b with
  | error f => rw [hz] at hx; cases hx
  | ok z =>
    rw [hz, ok_bind, (C48_array hp1 z).1] at hx
    obtain ⟨hb, hc⟩ := QR.solveVector_ok hn hz
    obtain ⟨z', y, ez, hl, hy, hz', h0⟩ := QR.solveVector_bits s.qr rfl hn hc hb
    rw [hz] at ez
    cases Except.ok.inj ez
    have hzl : IsList z n (nth z) := ⟨hl, fun i hi => by
      rw [List.getElem?_eq_getElem (by omega)]; simp [nth, List.getElem?_eq_getElem (show i < z.length by omega)]⟩
    obtain ⟨l, F, el, hlF, hF⟩ := (C81_vector_terms hp1 hn hp2).1 hzl
    rw [hx] at el
    cases Except.ok.inj el
    have hxF : ∀ i, i < n → nth x i = F i := fun i hi => by
      have := hlF.2 i hi
      simp [nth, this]
    obtain ⟨k1, E, g, k2, k3, k4⟩ := RRQR.solve_round hm hn he hM h2.diag h3 hσ hy hz' (fun i hi _ => h0 i hi)
      (x := nth x) (fun i hi => by rw [hxF i hi]; exact hF i hi) hxf
    rw [QR.diag_sum h1]
    exact ⟨hb, hlF.1, k1, E, g, k2, k3, k4⟩

/-- **C93.** The same for each column of the matrix returned by `SolveMatrix`. -/
theorem C93_matrix {a : Mat α m n} (ha : a.own) (hm : 0 < m) (hn : 0 < n) {A : Nat → Nat → α}
    (hA : Shows a.at m n A) {s : RRQR α m n (min m n)} (hs : RRQR.new a = .ok s)
    {mr : Mat α m n} {R : Nat → Nat → α} (er : s.qr.r = .ok ⟨m, n, mr⟩) (hR : Shows mr.at m n R)
    {e : ℝ} (he : u α ≤ e) (hM : (m + 4) * e ≤ 1 / 100)
    (hfin : ∀ i j, i < m → j < n → fin (R i j)) (hd : ∀ i, i < min m n → Scaled m e (R i i))
    {q : Nat} {thr : α} {b : Mat α m q} {B : Nat → Nat → α} (hB : Shows b.at m q B)
    {x : Mat α n q} {X : Nat → Nat → α} (hx : s.solveMatrix thr b = .ok ⟨n, q, x⟩) (hX : Shows x.at n q X)
    {c : Nat} (hc : c < q) (hxf : ∀ i, i < n → fin (X i c)) :
    (∀ i, i < m → fin (B i c)) ∧
    ∃ (E : Matrix (Fin m) (Fin n) ℝ) (g : Fin m → ℝ),
      Sol ((mx m n fun i j => val (A i j)) + E) (fun i => val (X i c)) (fun i => val (B i c) + g i) ∧
      (∀ j, cnorm E j ≤ slvErr α m (min m n) e (cnorm (mx m n fun i j => val (A i j)) j)) ∧
      vnorm g ≤ hhErr α m (min m n) e (vnorm fun i : Fin m => val (B i c)) +
        (1 + u α) ^ (min m n + 1) * ((min m n : ℕ) ^ 2 + ∑ i ∈ range (min m n), |val (R i i)|) * η α := by
  obtain ⟨h1, h2, h3, σ, hσ⟩ := RRQR.round_all ha hm hn hA hs er hR he hM hfin hd
  obtain ⟨mp, ep, hp1, hp2⟩ := RRQR.pMat_ok (s := s) hn hσ
  unfold RRQR.solveMatrix at hx
  rw [ep, ok_bind] at hx
  cases hz : s.qr.solveMatrix thr b with
  | error f => rw [hz] at hx; cases hx
  | ok z =>
    rw [hz, ok_bind] at hx
    obtain ⟨-, hck⟩ := QR.solveMatrix_ok hn hz
    obtain ⟨z', ez, hy, h0⟩ := QR.solveMatrix_bits s.qr rfl hm hn hck b hB
    rw [hz] at ez
    cases Except.ok.inj ez
    obtain ⟨mX, M, eM, -, hM1, hM2⟩ := C81_product_terms (b := .blk ⟨z'⟩) hp1 hn hn (by omega : 0 < q) hp2
      (Blk.shows_entB ⟨z'⟩)
    rw [eM] at hx
    cases Except.ok.inj hx
    have hXe : ∀ i, i < n → X i c = M i c := fun i hi => hX.unique hM1 hi hc
    obtain ⟨y, hr, hk⟩ := hy c hc
    obtain ⟨k1, E, g, k2, k3, k4⟩ := RRQR.solve_round hm hn he hM h2.diag h3 hσ hr hk (fun i hi _ => h0 i c hi)
      (x := fun i => X i c) (fun i hi => by rw [hXe i hi]; exact hM2 i c hi hc) hxf
    rw [QR.diag_sum h1]
    exact ⟨k1, E, g, k2, k3, k4⟩

/-- **C93.** `Inverse` of a square matrix. -/
theorem C93_inverse {a : Mat α n n} (ha : a.own) (hn : 0 < n) {A : Nat → Nat → α}
    (hA : Shows a.at n n A) {s : RRQR α n n (min n n)} (hs : RRQR.new a = .ok s)
    {mr : Mat α n n} {R : Nat → Nat → α} (er : s.qr.r = .ok ⟨n, n, mr⟩) (hR : Shows mr.at n n R)
    {e : ℝ} (he : u α ≤ e) (hM : (n + 4) * e ≤ 1 / 100)
    (hfin : ∀ i j, i < n → j < n → fin (R i j)) (hd : ∀ i, i < min n n → Scaled n e (R i i))
    {thr : α} {x : Mat α n n} {X : Nat → Nat → α} (hx : s.inverse thr = .ok ⟨n, n, x⟩) (hX : Shows x.at n n X)
    (c : Fin n) (hxf : ∀ i, i < n → fin (X i c)) :
    ∃ (E : Matrix (Fin n) (Fin n) ℝ) (g : Fin n → ℝ),
      ((mx n n fun i j => val (A i j)) + E).mulVec (fun i => val (X i c)) = (fun i => (if i = c then 1 else 0) + g i) ∧
      (∀ j, cnorm E j ≤ slvErr α n (min n n) e (cnorm (mx n n fun i j => val (A i j)) j)) ∧
      vnorm g ≤ hhErr α n (min n n) e 1 +
        (1 + u α) ^ (min n n + 1) * ((min n n : ℕ) ^ 2 + ∑ i ∈ range (min n n), |val (R i i)|) * η α := by
  obtain ⟨i, ei, hi⟩ := identity_nat (α := α) hn
  obtain ⟨-, -, -, σ, hσ⟩ := RRQR.round_all ha hn hn hA hs er hR he hM hfin hd
  obtain ⟨mp, ep, -⟩ := RRQR.pMat_ok (s := s) hn hσ
  have hx' : s.solveMatrix thr i = .ok ⟨n, n, x⟩ := by
    rw [← hx]
    unfold RRQR.inverse
    rw [ep, ok_bind]
    exact ((congrArg (fun x : Res (Mat α n n) => x.must >>= fun i => s.solveMatrix thr i) ei :).trans
      (by rw [must_ok, ok_bind])).symm
  obtain ⟨-, E, g, h1, h2, h3⟩ := C93_matrix ha hn hn hA hs er hR he hM hfin hd hi hx' hX c.2 hxf
  rw [unit_norm] at h3
  simp only [unit_val] at h1
  exact ⟨E, g, h1.2 le_rfl, h2, h3⟩

end round

/-! ## Binary64 -/

/-- A diagonal entry of moderate magnitude. -/
theorem scaled_b64 {m : Nat} {x : B64} (hf : fin x) (hlow : val x = 0 ∨ m * (1 / 2) ^ 1020 ≤ val x ^ 2)
    (hhigh : |val x| ≤ 2 ^ 510) : Scaled m ((1 / 2) ^ 53) x := by
  refine ⟨hf, ?_, ?_⟩
  · refine hlow.imp id fun h => ?_
    rw [show η B64 = (1 / 2) ^ 1075 from rfl,
      show ((1 : ℝ) / 2) ^ 1075 = (1 / 2) ^ 1020 * (1 / 2) ^ 55 by rw [← pow_add]]
    have : 4 * (m : ℝ) * ((1 / 2) ^ 1020 * (1 / 2) ^ 55) = (1 / 2) ^ 53 * (m * (1 / 2) ^ 1020) := by
      generalize ((1 : ℝ) / 2) ^ 1020 = z
      norm_num
      ring
    rw [this]
    exact mul_le_mul_of_nonneg_left h (by positivity)
  · show 4 * val x ^ 2 ≤ 2 ^ 1023
    have h3 := pow_le_pow_left₀ (abs_nonneg _) hhigh 2
    rw [sq_abs, ← pow_mul] at h3
    have h4 : (2 : ℝ) ^ 1023 = 4 * 2 ^ (510 * 2) * 2 := by
      rw [show 1023 = 510 * 2 + 3 by norm_num, pow_add]
      ring
    rw [h4]
    have : (0 : ℝ) < 2 ^ (510 * 2) := by positivity
    clear h4 hhigh hlow
    generalize (2 : ℝ) ^ (510 * 2) = z at *
    linarith

/-- **C92** for binary64, without powers: the columns of the matrix change by a relative amount of at most
`75 p (m + 4) 2⁻⁵³` and the right-hand side by one of at most `72 p (m + 4) 2⁻⁵³`, with `p = min m n`,
besides terms for underflow. -/
theorem C92_binary64 {m n : Nat} {a : Mat B64 m n} (ha : a.own) (hm : 0 < m) (hn : 0 < n)
    {A : Nat → Nat → B64} (hA : Shows a.at m n A) {s : QR B64 m n (min m n)} (hs : QR.new a = .ok s)
    {mr : Mat B64 m n} {R : Nat → Nat → B64} (er : s.r = .ok ⟨m, n, mr⟩) (hR : Shows mr.at m n R)
    (hp : (min m n) * (m + 4) ≤ 2 ^ 46)
    (hfin : ∀ i j, i < m → j < n → fin (R i j))
    (hlow : ∀ i, i < min m n → val (R i i) = 0 ∨ m * (1 / 2) ^ 1020 ≤ val (R i i) ^ 2)
    (hhigh : ∀ i, i < min m n → |val (R i i)| ≤ 2 ^ 510)
    {thr : B64} {b : RVec B64} {x : List B64} (hx : s.solveVector thr b = .ok x)
    (hxf : ∀ i, i < n → fin (nth x i)) :
    ∃ (E : Matrix (Fin m) (Fin n) ℝ) (g : Fin m → ℝ),
      Sol ((mx m n fun i j => val (A i j)) + E) (fun i => val (nth x i)) (fun i => val (nth b.list i) + g i) ∧
      (∀ j, cnorm E j ≤ 75 * (min m n : ℕ) * (m + 4) * (1 / 2) ^ 53 * cnorm (mx m n fun i j => val (A i j)) j +
        19 * (min m n : ℕ) * √(m * (1 / 2) ^ 1075)) ∧
      vnorm g ≤ 72 * (min m n : ℕ) * (m + 4) * (1 / 2) ^ 53 * (vnorm fun i : Fin m => val (nth b.list i)) +
        18 * (min m n : ℕ) * √(m * (1 / 2) ^ 1075) +
        2 * ((min m n : ℕ) ^ 2 + (min m n : ℕ) * 2 ^ 510) * (1 / 2) ^ 1075 := by
  have hp' : ((min m n : ℕ) : ℝ) * (m + 4) ≤ 2 ^ 46 := by exact_mod_cast hp
  have h1 : (1 : ℝ) ≤ (min m n : ℕ) := by exact_mod_cast (show 1 ≤ min m n by omega)
  have h2 : ((m : ℝ) + 4) ≤ 2 ^ 46 := le_trans (le_mul_of_one_le_left (by positivity) h1) hp'
  have hM : ((m : ℝ) + 4) * (1 / 2) ^ 53 ≤ 1 / 100 := by norm_num at h2 ⊢; linarith
  have hq : ((min m n : ℕ) : ℝ) * (36 * (m + 4) * (1 / 2) ^ 53) ≤ 1 := by norm_num at hp' ⊢; linarith
  obtain ⟨-, -, -, E, g, k1, k2, k3⟩ := C92_vector ha hm hn hA hs er hR (e := (1 / 2) ^ 53) le_rfl hM hfin
    (fun i hi => scaled_b64 (hfin i i (by omega) (by omega)) (hlow i hi) (hhigh i hi)) hx hxf
  refine ⟨E, g, k1, fun j => (k2 j).trans ?_, k3.trans ?_⟩
  · exact slvErr_le (α := B64) (by omega) (by omega) le_rfl hM (cnorm_nonneg _ _) hq
  · refine add_le_add (hhErr_le (α := B64) (by positivity) (Real.sqrt_nonneg _) hq) ?_
    obtain ⟨-, g2⟩ := gam_small (α := B64) (N := min m n + 1) (e := (1 / 2) ^ 53) le_rfl hM (by omega)
    have hsum : ∑ i ∈ range (min m n), |val (R i i)| ≤ (min m n : ℕ) * 2 ^ 510 := by
      refine (sum_le_sum fun i hi => hhigh i (mem_range.1 hi)).trans (le_of_eq ?_)
      rw [sum_const, card_range, nsmul_eq_mul]
    have hnn : 0 ≤ ∑ i ∈ range (min m n), |val (R i i)| := sum_nonneg fun _ _ => abs_nonneg _
    rw [show η B64 = (1 / 2) ^ 1075 from rfl]
    gcongr
    exact g2.trans (by norm_num)

/-- The solver on a system with two equations and two unknowns. -/
theorem QR.solve_two {α : Type} [Flt α] (s : QR α 2 2 (min 2 2)) (thr b0 b1 : α)
    (hc : checkSingular s.rDiag thr = .ok false) :
    let t0 := Flt.div (Flt.add (Flt.add Flt.zero (Flt.mul b0 (s.qrt.f 0 0))) (Flt.mul b1 (s.qrt.f 0 1)))
      (Flt.mul (s.rDiag.f 0) (s.qrt.f 0 0))
    let y0 := Flt.add b0 (Flt.mul t0 (s.qrt.f 0 0))
    let y1 := Flt.add b1 (Flt.mul t0 (s.qrt.f 0 1))
    let t1 := Flt.div (Flt.add Flt.zero (Flt.mul y1 (s.qrt.f 1 1))) (Flt.mul (s.rDiag.f 1) (s.qrt.f 1 1))
    let x1 := Flt.div (Flt.add y1 (Flt.mul t1 (s.qrt.f 1 1))) (s.rDiag.f 1)
    let x0 := Flt.div (Flt.sub y0 (Flt.mul x1 (s.qrt.f 1 0))) (s.rDiag.f 0)
    s.solveVector thr (.arr [b0, b1]) = .ok [x0, x1] := by
  unfold QR.solveVector
  rw [if_neg (by omega), if_neg (by simp [RVec.dim]), hc, ok_bind, if_neg (by simp)]
  rfl

/-- Concrete case for C92: the binary64 system with the rows (0, -1) and (1, 3) and the right-hand side
(-1, 4) meets the hypotheses; its solution is (1, 1). -/
example : ∃ (a : Mat B64 2 2) (s : QR B64 2 2 (min 2 2)) (mr : Mat B64 2 2) (R : Nat → Nat → B64) (b : RVec B64)
    (x : List B64),
    a.own ∧ Shows a.at 2 2 QR.caseA ∧ QR.new a = .ok s ∧ s.r = .ok ⟨2, 2, mr⟩ ∧ Shows mr.at 2 2 R ∧
    (∀ i j, i < 2 → j < 2 → fin (R i j)) ∧
    (∀ i, i < min 2 2 → val (R i i) = 0 ∨ (2 : ℕ) * (1 / 2) ^ 1020 ≤ val (R i i) ^ 2) ∧
    (∀ i, i < min 2 2 → |val (R i i)| ≤ 2 ^ 510) ∧
    s.solveVector Flt.zero b = .ok x ∧ (∀ i, i < 2 → fin (nth x i)) ∧
    val (nth b.list 0) = -1 ∧ val (nth b.list 1) = 4 ∧ val (nth x 0) = 1 ∧ val (nth x 1) = 1 := by
  let a : Mat B64 2 2 := .arr ⟨⟨QR.caseA⟩, fun _ => 0⟩
  have hA : Shows a.at 2 2 QR.caseA := (Mat.at_shows a).congr fun i j hi hj => rfl
  obtain ⟨s, e, d0, d1, h1, h2, h3, h4⟩ := QR.case_new (a := a) trivial hA
  obtain ⟨mr, er, -, hr⟩ := QR.r_ok two_pos two_pos s
  have r0 : QR.rEnt s.qrt.f s.rDiag.f 0 0 = B64.int 1 := d0
  have r1 : QR.rEnt s.qrt.f s.rDiag.f 1 1 = B64.int 1 := d1
  have r2 : QR.rEnt s.qrt.f s.rDiag.f 0 1 = B64.int 3 := h3
  have r3 : QR.rEnt s.qrt.f s.rDiag.f 1 0 = B64.int 0 := rfl
  have hc : checkSingular s.rDiag (Flt.zero : B64) = .ok false := by
    obtain ⟨c, ec, hc⟩ := checkSingular_ok s.rDiag (Flt.zero : B64)
    cases c with
    | false => exact ec
    | true =>
      obtain ⟨i, hi, hle⟩ := hc.1 rfl
      have h : s.rDiag.f i = B64.int 1 := (Nat.lt_succ_iff_lt_or_eq.1 (show i < 2 from hi)).elim
        (fun h => by rw [Nat.lt_one_iff.1 h, d0]) fun h => by rw [h, d1]
      rw [h, le_iff (abs_fin.2 (B64.int_fin _)) zero_fin, val_abs (B64.int_fin _), B64.int_val, val_zero] at hle
      norm_num at hle
  have hs := QR.solve_two s Flt.zero (B64.int (-1)) (B64.int 4) hc
  dsimp only at hs
  rw [d0, d1, h1, h2, h3, h4] at hs
  have t0 : Flt.div (Flt.add (Flt.add Flt.zero (Flt.mul (B64.int (-1)) (B64.int (-1)))) (Flt.mul (B64.int 4) (B64.int 1)))
      (Flt.mul (B64.int 1) (B64.int (-1))) = B64.int (-5) := by
    rw [B64.zero_int, B64.mul_int _ _ (by norm_num), B64.mul_int _ _ (by norm_num), B64.mul_int _ _ (by norm_num),
      B64.add_int _ _ (by norm_num), B64.add_int _ _ (by norm_num),
      B64.div_int (m := -5) _ _ (by norm_num) (by norm_num) (by norm_num)]
  have y0 : Flt.add (B64.int (-1)) (Flt.mul (B64.int (-5)) (B64.int (-1))) = B64.int 4 := by
    rw [B64.mul_int _ _ (by norm_num), B64.add_int _ _ (by norm_num)]; rfl
  have y1 : Flt.add (B64.int 4) (Flt.mul (B64.int (-5)) (B64.int 1)) = B64.int (-1) := by
    rw [B64.mul_int _ _ (by norm_num), B64.add_int _ _ (by norm_num)]; rfl
  have t1 : Flt.div (Flt.add Flt.zero (Flt.mul (B64.int (-1)) (B64.int (-2)))) (Flt.mul (B64.int 1) (B64.int (-2))) =
      B64.int (-1) := by
    rw [B64.zero_int, B64.mul_int _ _ (by norm_num), B64.mul_int _ _ (by norm_num), B64.add_int _ _ (by norm_num),
      B64.div_int (m := -1) _ _ (by norm_num) (by norm_num) (by norm_num)]
  have x1 : Flt.div (Flt.add (B64.int (-1)) (Flt.mul (B64.int (-1)) (B64.int (-2)))) (B64.int 1) = B64.int 1 := by
    rw [B64.mul_int _ _ (by norm_num), B64.add_int _ _ (by norm_num),
      B64.div_int (m := 1) _ _ (by norm_num) (by norm_num) (by norm_num)]
  have x0 : Flt.div (Flt.sub (B64.int 4) (Flt.mul (B64.int 1) (B64.int 3))) (B64.int 1) = B64.int 1 := by
    rw [B64.mul_int _ _ (by norm_num), B64.sub_int _ _ (by norm_num),
      B64.div_int (m := 1) _ _ (by norm_num) (by norm_num) (by norm_num)]
  rw [t0, y0, y1, t1, x1, x0] at hs
  have hv : val (B64.int 1) = 1 := by rw [B64.int_val]; norm_num
  have hdg : ∀ i, i < min 2 2 → QR.rEnt s.qrt.f s.rDiag.f i i = B64.int 1 := by
    intro i hi
    obtain rfl | rfl : i = 0 ∨ i = 1 := by
      have : min 2 2 = 2 := rfl
      omega
    · exact r0
    · exact r1
  refine ⟨a, s, mr, _, _, _, trivial, hA, e, er, hr, ?_, ?_, ?_, hs, ?_, ?_, ?_, hv, hv⟩
  · intro i j hi hj
    obtain rfl | rfl : i = 0 ∨ i = 1 := by omega
    all_goals obtain rfl | rfl : j = 0 ∨ j = 1 := by omega
    · rw [r0]; exact B64.int_fin _
    · rw [r2]; exact B64.int_fin _
    · rw [r3]; exact B64.int_fin _
    · rw [r1]; exact B64.int_fin _
  · intro i hi
    rw [hdg i hi, hv]
    refine Or.inr ?_
    have : ((1 : ℝ) / 2) ^ 1020 ≤ (1 / 2) ^ 1 := pow_le_pow_of_le_one (by norm_num) (by norm_num) (by norm_num)
    generalize ((1 : ℝ) / 2) ^ 1020 = z at *
    push_cast
    linarith
  · intro i hi
    rw [hdg i hi, hv, abs_one]
    exact one_le_pow₀ (by norm_num)
  · intro i hi
    obtain rfl | rfl : i = 0 ∨ i = 1 := by omega
    · exact (B64.int_fin (k := 1) (by norm_num) :)
    · exact (B64.int_fin (k := 1) (by norm_num) :)
  · show val (B64.int (-1)) = -1
    rw [B64.int_val]; norm_num
  · show val (B64.int 4) = 4
    rw [B64.int_val]; norm_num

/-- The pivot search over two columns of length 2, the second of which is the longer. -/
theorem RRQR.best_two {α : Type} [Flt α] (f : Nat → Nat → α) {l0 l1 : α}
    (h0 : Flt.add (Flt.add Flt.zero (Flt.mul (f 0 0) (f 0 0))) (Flt.mul (f 0 1) (f 0 1)) = l0)
    (h1 : Flt.add (Flt.add Flt.zero (Flt.mul (f 1 0) (f 1 0))) (Flt.mul (f 1 1) (f 1 1)) = l1)
    (c0 : Flt.lt Flt.zero l0 = true) (c1 : Flt.lt l0 l1 = true) :
    RRQR.best 0 (⟨f⟩ : Tab α 2 2) = .ok (l1, 1) := by
  have e : ∀ b : α × Nat, RRQR.best 0 (⟨f⟩ : Tab α 2 2) = .ok b ↔
    (.ok (if Flt.lt (if Flt.lt Flt.zero (Flt.add (Flt.add Flt.zero (Flt.mul (f 0 0) (f 0 0)))
        (Flt.mul (f 0 1) (f 0 1))) then (Flt.add (Flt.add Flt.zero (Flt.mul (f 0 0) (f 0 0)))
        (Flt.mul (f 0 1) (f 0 1)), 0) else (Flt.zero, 0)).1
      (Flt.add (Flt.add Flt.zero (Flt.mul (f 1 0) (f 1 0))) (Flt.mul (f 1 1) (f 1 1)))
      then (Flt.add (Flt.add Flt.zero (Flt.mul (f 1 0) (f 1 0))) (Flt.mul (f 1 1) (f 1 1)), 1)
      else if Flt.lt Flt.zero (Flt.add (Flt.add Flt.zero (Flt.mul (f 0 0) (f 0 0)))
        (Flt.mul (f 0 1) (f 0 1))) then (Flt.add (Flt.add Flt.zero (Flt.mul (f 0 0) (f 0 0)))
        (Flt.mul (f 0 1) (f 0 1)), 0) else (Flt.zero, 0)) : Res (α × Nat)) = .ok b := fun _ => Iff.rfl
  rw [e, h0, h1, if_pos c0, if_pos c1]

/-- The 2 × 2 matrix with rows (0, -2) and (1, 0). -/
noncomputable def RRQR.caseB (i j : Nat) : B64 :=
  if i = 0 then (if j = 0 then B64.int 0 else B64.int (-2)) else (if j = 0 then B64.int 1 else B64.int 0)

theorem RRQR.caseB_new {a : Mat B64 2 2} (ha : a.own) (hA : Shows a.at 2 2 RRQR.caseB) :
    ∃ s : RRQR B64 2 2 (min 2 2), RRQR.new a = .ok s ∧ s.p.f 0 = 1 ∧ s.p.f 1 = 0 ∧
      s.qr.rDiag.f 0 = B64.int 2 ∧ s.qr.rDiag.f 1 = B64.int (-1) ∧ s.qr.qrt.f 0 0 = B64.int (-4) ∧
      s.qr.qrt.f 0 1 = B64.int 0 ∧ s.qr.qrt.f 1 0 = B64.int 0 ∧ s.qr.qrt.f 1 1 = B64.int 2 := by
  have lt1 : ∀ j k : ℤ, ∀ hj : |j| ≤ 2 ^ 53, ∀ hk : |k| ≤ 2 ^ 53,
      (Flt.lt (B64.int j hj) (B64.int k hk) = true ↔ j < k) := by
    intro j k hj hk
    rw [lt_iff (B64.int_fin _) (B64.int_fin _), B64.int_val, B64.int_val]
    exact_mod_cast Iff.rfl
  have eq1 : ∀ k : ℤ, ∀ hk : |k| ≤ 2 ^ 53, k ≠ 0 → Flt.eq (B64.int k hk) (Flt.zero : B64) = false := by
    intro k hk h
    rw [Bool.eq_false_iff, Ne, eq_iff (B64.int_fin _) zero_fin, B64.int_val, val_zero]
    exact_mod_cast h
  obtain ⟨s, e, ⟨-, -, h⟩, -⟩ := RRQR.new_wp (a := a) ha two_pos two_pos hA (fun k f d p =>
    (k = 0 → p 0 = 0 ∧ p 1 = 1 ∧ ∀ i j, i < 2 → j < 2 → f i j = RRQR.caseB j i) ∧
    (k = 1 → p 0 = 1 ∧ p 1 = 0 ∧ d 0 = B64.int 2 ∧ f 0 0 = B64.int (-4) ∧ f 0 1 = B64.int 0 ∧ f 1 0 = B64.int 0 ∧
      f 1 1 = B64.int 1) ∧
    (k = 2 → p 0 = 1 ∧ p 1 = 0 ∧ d 0 = B64.int 2 ∧ d 1 = B64.int (-1) ∧ f 0 0 = B64.int (-4) ∧
      f 0 1 = B64.int 0 ∧ f 1 0 = B64.int 0 ∧ f 1 1 = B64.int 2))
    (fun f d p h hp => ⟨fun _ => ⟨hp 0 (by omega), hp 1 (by omega), h⟩, by omega, by omega⟩) (by
      intro k f f' d p p' q v hk _ hkq hq hbest hI hp' _ hS
      obtain rfl | rfl : k = 0 ∨ k = 1 := by omega
      · obtain ⟨p0, p1, hf⟩ := hI.1 rfl
        have f00 : f 0 0 = B64.int 0 := hf 0 0 (by omega) (by omega)
        have f01 : f 0 1 = B64.int 1 := hf 0 1 (by omega) (by omega)
        have f10 : f 1 0 = B64.int (-2) := hf 1 0 (by omega) (by omega)
        have f11 : f 1 1 = B64.int 0 := hf 1 1 (by omega) (by omega)
        have hq1 : q = 1 := by
          have hb := RRQR.best_two f (l0 := B64.int 1) (l1 := B64.int 4)
            (by rw [f00, f01, B64.zero_int, B64.mul_int _ _ (by norm_num), B64.mul_int _ _ (by norm_num),
                  B64.add_int _ _ (by norm_num), B64.add_int _ _ (by norm_num)]; rfl)
            (by rw [f10, f11, B64.zero_int, B64.mul_int _ _ (by norm_num), B64.mul_int _ _ (by norm_num),
                  B64.add_int _ _ (by norm_num), B64.add_int _ _ (by norm_num)]; rfl)
            (by rw [B64.zero_int, lt1]; norm_num) (by rw [lt1]; norm_num)
          rw [hb] at hbest
          exact (congrArg Prod.snd (Except.ok.inj hbest)).symm
        subst hq1
        have hd : hnorm 0 2 (f 1) = B64.int 2 := by
          unfold hnorm
          rw [lsum_succ (by omega), lsum_succ (by omega), lsum_self le_rfl, f10, f11, if_neg, B64.zero_int,
            B64.mul_int _ _ (by norm_num), B64.mul_int _ _ (by norm_num), B64.add_int _ _ (by norm_num),
            B64.add_int _ _ (by norm_num), B64.sqrt_int (m := 2) _ (by norm_num) (by norm_num) (by norm_num)]
          rw [B64.zero_int, lt1]
          norm_num
        have hne : Flt.eq (hnorm 0 2 (f 1)) Flt.zero = false := by rw [hd]; exact eq1 _ _ (by norm_num)
        have k00 : f' 0 0 = B64.int (-4) := by
          rw [hS.head hne, hd, sw_left, f10, B64.sub_int _ _ (by norm_num)]; rfl
        have k01 : f' 0 1 = B64.int 0 := by rw [hS.row 1 (by omega), sw_left, f11]
        have s1 : sw 0 1 1 = 0 := by simp [sw]
        have hal : halpha 0 2 (hnorm 0 2 (f 1)) (f' 0) (f (sw 0 1 1)) = B64.int 0 := by
          unfold halpha
          rw [lsub_succ (by omega), lsub_succ (by omega), lsub_self le_rfl, k00, k01, s1, f00, f01, hd, B64.zero_int,
            B64.mul_int _ _ (by norm_num), B64.mul_int _ _ (by norm_num), B64.mul_int _ _ (by norm_num),
            B64.sub_int _ _ (by norm_num), B64.sub_int _ _ (by norm_num),
            B64.div_int (m := 0) _ _ (by norm_num) (by norm_num) (by norm_num)]
        refine ⟨by omega, fun _ => ⟨?_, ?_, ?_, k00, k01, ?_, ?_⟩, by omega⟩
        · rw [hp', sw_left, p1]
        · rw [hp', s1, p0]
        · rw [upd1, if_pos rfl, hd]
        · rw [hS.cols hne 1 0 (by omega) (by omega) (by omega) (by omega), hal, k00, s1, f00,
            B64.mul_int _ _ (by norm_num), B64.sub_int _ _ (by norm_num)]
          rfl
        · rw [hS.cols hne 1 1 (by omega) (by omega) (by omega) (by omega), hal, k01, s1, f01,
            B64.mul_int _ _ (by norm_num), B64.sub_int _ _ (by norm_num)]
          rfl
      · obtain ⟨p0, p1, g0, g1, g2, g3, g4⟩ := hI.2.1 rfl
        obtain rfl : q = 1 := by omega
        have s1 : sw 1 1 1 = 1 := by simp [sw]
        have s0 : sw 1 1 0 = 0 := by simp [sw]
        have hd : hnorm 1 2 (f 1) = B64.int (-1) := by
          have l1 : ∀ g : Nat → B64, lsum 1 2 g Flt.zero = Flt.add Flt.zero (g 1) := fun g =>
            (lsum_succ (a := 1) (b := 1) le_rfl _ _).trans (by rw [lsum_self le_rfl])
          unfold hnorm
          rw [l1, g4, if_pos, B64.zero_int, B64.mul_int _ _ (by norm_num), B64.add_int _ _ (by norm_num),
            B64.sqrt_int (m := 1) _ (by norm_num) (by norm_num) (by norm_num), B64.one_int, B64.neg_int,
            B64.mul_int _ _ (by norm_num)]
          · rfl
          · rw [B64.zero_int, lt1]; norm_num
        have hne : Flt.eq (hnorm 1 2 (f 1)) Flt.zero = false := by rw [hd]; exact eq1 _ _ (by norm_num)
        refine ⟨by omega, by omega, fun _ => ⟨?_, ?_, ?_, ?_, ?_, ?_, ?_, ?_⟩⟩
        · rw [hp', s0, p0]
        · rw [hp', s1, p1]
        · rw [upd1, if_neg (by omega), g0]
        · rw [upd1, if_pos rfl, hd]
        · rw [hS.other 0 0 (by omega), s0, g1]
        · rw [hS.other 0 1 (by omega), s0, g2]
        · rw [hS.other 1 0 (by omega), s1, g3]
        · rw [hS.head hne, hd, s1, g4, B64.sub_int _ _ (by norm_num)]; rfl)
  obtain ⟨a0, a1, a2, a3, a4, a5, a6, a7⟩ := h rfl
  exact ⟨s, e, a0, a1, a2, a3, a4, a5, a6, a7⟩

/-- Concrete case for C93: the binary64 system with the rows (0, -2) and (1, 0) and the right-hand side
(-2, 3) meets the hypotheses; the columns are exchanged, and the solution is (3, 1). -/
example : ∃ (a : Mat B64 2 2) (s : RRQR B64 2 2 (min 2 2)) (mr : Mat B64 2 2) (R : Nat → Nat → B64) (b : RVec B64)
    (x : List B64),
    a.own ∧ Shows a.at 2 2 RRQR.caseB ∧ RRQR.new a = .ok s ∧ s.qr.r = .ok ⟨2, 2, mr⟩ ∧ Shows mr.at 2 2 R ∧
    (∀ i j, i < 2 → j < 2 → fin (R i j)) ∧ (∀ i, i < min 2 2 → Scaled 2 ((1 / 2) ^ 53) (R i i)) ∧
    s.solveVector Flt.zero b = .ok x ∧ (∀ i, i < 2 → fin (nth x i)) ∧
    val (nth b.list 0) = -2 ∧ val (nth b.list 1) = 3 ∧ val (nth x 0) = 3 ∧ val (nth x 1) = 1 := by
  let a : Mat B64 2 2 := .arr ⟨⟨RRQR.caseB⟩, fun _ => 0⟩
  have hA : Shows a.at 2 2 RRQR.caseB := (Mat.at_shows a).congr fun i j hi hj => rfl
  obtain ⟨s, e, p0, p1, d0, d1, h1, h2, h3, h4⟩ := RRQR.caseB_new (a := a) trivial hA
  obtain ⟨mr, er, -, hr⟩ := QR.r_ok two_pos two_pos s.qr
  have r0 : QR.rEnt s.qr.qrt.f s.qr.rDiag.f 0 0 = B64.int 2 := d0
  have r1 : QR.rEnt s.qr.qrt.f s.qr.rDiag.f 1 1 = B64.int (-1) := d1
  have r2 : QR.rEnt s.qr.qrt.f s.qr.rDiag.f 0 1 = B64.int 0 := h3
  have r3 : QR.rEnt s.qr.qrt.f s.qr.rDiag.f 1 0 = B64.int 0 := rfl
  have hc : checkSingular s.qr.rDiag (Flt.zero : B64) = .ok false := by
    obtain ⟨c, ec, hc⟩ := checkSingular_ok s.qr.rDiag (Flt.zero : B64)
    cases c with
    | false => exact ec
    | true =>
      obtain ⟨i, hi, hle⟩ := hc.1 rfl
      rcases Nat.lt_succ_iff_lt_or_eq.1 (show i < 2 from hi) with h | h
      · rw [Nat.lt_one_iff.1 h, d0, le_iff (abs_fin.2 (B64.int_fin _)) zero_fin, val_abs (B64.int_fin _),
          B64.int_val, val_zero] at hle
        norm_num at hle
      · rw [h, d1, le_iff (abs_fin.2 (B64.int_fin _)) zero_fin, val_abs (B64.int_fin _),
          B64.int_val, val_zero] at hle
        norm_num at hle
  have hs := QR.solve_two s.qr Flt.zero (B64.int (-2)) (B64.int 3) hc
  dsimp only at hs
  rw [d0, d1, h1, h2, h3, h4] at hs
  have t0 : Flt.div (Flt.add (Flt.add Flt.zero (Flt.mul (B64.int (-2)) (B64.int (-4)))) (Flt.mul (B64.int 3) (B64.int 0)))
      (Flt.mul (B64.int 2) (B64.int (-4))) = B64.int (-1) := by
    rw [B64.zero_int, B64.mul_int _ _ (by norm_num), B64.mul_int _ _ (by norm_num), B64.mul_int _ _ (by norm_num),
      B64.add_int _ _ (by norm_num), B64.add_int _ _ (by norm_num),
      B64.div_int (m := -1) _ _ (by norm_num) (by norm_num) (by norm_num)]
  have y0 : Flt.add (B64.int (-2)) (Flt.mul (B64.int (-1)) (B64.int (-4))) = B64.int 2 := by
    rw [B64.mul_int _ _ (by norm_num), B64.add_int _ _ (by norm_num)]; rfl
  have y1 : Flt.add (B64.int 3) (Flt.mul (B64.int (-1)) (B64.int 0)) = B64.int 3 := by
    rw [B64.mul_int _ _ (by norm_num), B64.add_int _ _ (by norm_num)]; rfl
  have t1 : Flt.div (Flt.add Flt.zero (Flt.mul (B64.int 3) (B64.int 2))) (Flt.mul (B64.int (-1)) (B64.int 2)) =
      B64.int (-3) := by
    rw [B64.zero_int, B64.mul_int _ _ (by norm_num), B64.mul_int _ _ (by norm_num), B64.add_int _ _ (by norm_num),
      B64.div_int (m := -3) _ _ (by norm_num) (by norm_num) (by norm_num)]
  have x1 : Flt.div (Flt.add (B64.int 3) (Flt.mul (B64.int (-3)) (B64.int 2))) (B64.int (-1)) = B64.int 3 := by
    rw [B64.mul_int _ _ (by norm_num), B64.add_int _ _ (by norm_num),
      B64.div_int (m := 3) _ _ (by norm_num) (by norm_num) (by norm_num)]
  have x0 : Flt.div (Flt.sub (B64.int 2) (Flt.mul (B64.int 3) (B64.int 0))) (B64.int 2) = B64.int 1 := by
    rw [B64.mul_int _ _ (by norm_num), B64.sub_int _ _ (by norm_num),
      B64.div_int (m := 1) _ _ (by norm_num) (by norm_num) (by norm_num)]
  rw [t0, y0, y1, t1, x1, x0] at hs
  have v1 : val (B64.int 1) = 1 := by rw [B64.int_val]; norm_num
  have v3 : val (B64.int 3) = 3 := by rw [B64.int_val]; norm_num
  -- the permutation
  have hσ : ∀ j : Fin 2, s.p.f j = (Equiv.swap (0 : Fin 2) 1) j := by
    intro j
    fin_cases j
    · exact p0
    · exact p1
  obtain ⟨mp, ep, hp1, hp2⟩ := RRQR.pMat_ok (s := s) two_pos hσ
  have hzl : IsList [B64.int 1, B64.int 3] 2 (nth [B64.int 1, B64.int 3]) := ⟨rfl, fun i hi => by
    obtain rfl | rfl : i = 0 ∨ i = 1 := by omega
    · rfl
    · rfl⟩
  obtain ⟨l, F, el, hlF, hF⟩ := (C81_vector_terms hp1 two_pos hp2).1 hzl
  have hFf : ∀ i, i < 2 → fin (F i) := by
    intro i hi
    obtain ⟨S, hS, hsum, -⟩ := hF i hi
    have hterm : ∀ k ∈ S, ∃ (z : ℤ) (hz : |z| ≤ 2 ^ 53), |z| ≤ 3 ∧ Flt.mul (if s.p.f k = i then Flt.one else Flt.zero)
        (nth [B64.int 1, B64.int 3] k) = B64.int z hz := by
      intro k hk
      have hk := mem_range.1 (hS hk)
      have hk2 : ∃ (z : ℤ) (hz : |z| ≤ 2 ^ 53), |z| ≤ 3 ∧ nth [B64.int 1, B64.int 3] k = B64.int z hz := by
        obtain rfl | rfl : k = 0 ∨ k = 1 := by omega
        · exact ⟨1, by norm_num, by norm_num, rfl⟩
        · exact ⟨3, by norm_num, by norm_num, rfl⟩
      obtain ⟨z, hz, hz3, ez⟩ := hk2
      rw [ez]
      split_ifs
      · rw [B64.one_int, B64.mul_int _ _ (by rw [one_mul]; exact hz)]
        exact ⟨1 * z, by rw [one_mul]; exact hz, by rw [one_mul]; exact hz3, rfl⟩
      · rw [B64.zero_int, B64.mul_int _ _ (by rw [zero_mul]; norm_num)]
        exact ⟨0 * z, by rw [zero_mul]; norm_num, by rw [zero_mul]; norm_num, rfl⟩
    have hcard : S.card ≤ 2 := by simpa using card_le_card hS
    refine hsum.ok (fun t ht => ?_) ?_
    · obtain ⟨k, hk, rfl⟩ := Multiset.mem_map.1 ht
      obtain ⟨z, hz, -, ez⟩ := hterm k hk
      rw [ez]; exact B64.int_fin _
    · have h1 : ((over S fun k => Flt.mul (if s.p.f k = i then Flt.one else Flt.zero)
          (nth [B64.int 1, B64.int 3] k)).map fun t => |val t|).sum ≤ 6 := by
        unfold over
        rw [Multiset.map_map]
        change ∑ k ∈ S, |val (Flt.mul (if s.p.f k = i then Flt.one else Flt.zero) (nth [B64.int 1, B64.int 3] k))| ≤ 6
        refine (sum_le_card_nsmul S _ 3 fun k hk => ?_).trans ?_
        · obtain ⟨z, hz, hz3, ez⟩ := hterm k hk
          rw [ez, B64.int_val]
          exact_mod_cast hz3
        · rw [nsmul_eq_mul]
          have : (S.card : ℝ) ≤ 2 := by exact_mod_cast hcard
          linarith
      have h2 : (1 + u B64) ^ (over S fun k => Flt.mul (if s.p.f k = i then Flt.one else Flt.zero)
          (nth [B64.int 1, B64.int 3] k)).card ≤ 4 := by
        have hu1 := one_le_u (α := B64)
        have hu2 := u_le (α := B64)
        have : (over S fun k => Flt.mul (if s.p.f k = i then Flt.one else Flt.zero)
          (nth [B64.int 1, B64.int 3] k)).card ≤ 2 := by
          unfold over; rw [Multiset.card_map]; exact hcard
        refine (pow_le_pow_right₀ hu1 this).trans ?_
        nlinarith
      have h3 := big_le (α := B64)
      have h4 : 0 ≤ ((over S fun k => Flt.mul (if s.p.f k = i then Flt.one else Flt.zero)
          (nth [B64.int 1, B64.int 3] k)).map fun t => |val t|).sum :=
        Multiset.sum_nonneg fun v hv => by
          obtain ⟨t, -, rfl⟩ := Multiset.mem_map.1 hv
          exact abs_nonneg _
      nlinarith
  have hxF : ∀ i, i < 2 → nth l i = F i := fun i hi => by
    have := hlF.2 i hi
    simp [nth, this]
  have k0 := ((hF 0 two_pos).pick (hFf 0 two_pos) (i := 1) (by omega) (if_pos p1) fun k hk hk1 => by
    obtain rfl : k = 0 := by omega
    exact if_neg (by rw [p0]; omega)).2
  have k1 := ((hF 1 (by omega)).pick (hFf 1 (by omega)) (i := 0) (by omega) (if_pos p0) fun k hk hk1 => by
    obtain rfl : k = 1 := by omega
    exact if_neg (by rw [p1]; omega)).2
  refine ⟨a, s, mr, _, .arr [B64.int (-2), B64.int 3], l, trivial, hA, e, er, hr, ?_, ?_, ?_, fun i hi => ?_, ?_, ?_, ?_,
    ?_⟩
  · intro i j hi hj
    obtain rfl | rfl : i = 0 ∨ i = 1 := by omega
    all_goals obtain rfl | rfl : j = 0 ∨ j = 1 := by omega
    · rw [r0]; exact B64.int_fin _
    · rw [r2]; exact B64.int_fin _
    · rw [r3]; exact B64.int_fin _
    · rw [r1]; exact B64.int_fin _
  · have hsc : ∀ k : ℤ, ∀ hk : |k| ≤ 2 ^ 53, 1 ≤ |k| → |k| ≤ 2 → Scaled 2 ((1 / 2) ^ 53) (B64.int k hk) := by
      intro k hk h1 h2
      have g1 : (1 : ℝ) ≤ |(k : ℝ)| := by exact_mod_cast h1
      have g2 : |(k : ℝ)| ≤ 2 := by exact_mod_cast h2
      refine scaled_b64 (B64.int_fin _) (Or.inr ?_) ?_
      · rw [B64.int_val, ← sq_abs]
        have : ((1 : ℝ) / 2) ^ 1020 ≤ (1 / 2) ^ 1 := pow_le_pow_of_le_one (by norm_num) (by norm_num) (by norm_num)
        generalize ((1 : ℝ) / 2) ^ 1020 = z at *
        push_cast
        nlinarith
      · rw [B64.int_val]
        refine g2.trans ?_
        have : (2 : ℝ) ^ 1 ≤ 2 ^ 510 := pow_le_pow_right₀ (by norm_num) (by norm_num)
        rwa [pow_one] at this
    intro i hi
    obtain rfl | rfl : i = 0 ∨ i = 1 := by
      have : min 2 2 = 2 := rfl
      omega
    · rw [r0]; exact hsc _ _ (by norm_num) (by norm_num)
    · rw [r1]; exact hsc _ _ (by norm_num) (by norm_num)
  · unfold RRQR.solveVector
    rw [ep, ok_bind, hs, ok_bind, (C48_array hp1 _).1, el]
  · rw [hxF i hi]; exact hFf i hi
  · show val (B64.int (-2)) = -2
    rw [B64.int_val]; norm_num
  · show val (B64.int 3) = 3
    exact v3
  · rw [hxF 0 two_pos, k0]; exact v3
  · rw [hxF 1 (by omega), k1]; exact v1

end Linear
