import Verif.Lemmas.QRSolveM
import Verif.Props.Cholesky

/-!
# C33, C34: the QR decomposition
-/

set_option linter.unusedSectionVars false

namespace Linear

open Spec Finset Matrix

section exact

variable {K : Type} [Field K] [LinearOrder K] [IsStrictOrderedRing K] [Flt K] [Exact K] [ExactSqrt K]
variable {m n p q k : Nat}

/-! ## Specification -/

/-- The sum of the squares of the residuals of `M x = b`. -/
def Spec.resid (M : Matrix (Fin m) (Fin n) K) (x : Fin n → K) (b : Fin m → K) : K :=
  ∑ i, ((∑ j, M i j * x j) - b i) ^ 2

/-- `x` is the only vector with the smallest sum of squares. -/
def Spec.LeastSq (M : Matrix (Fin m) (Fin n) K) (x : Fin n → K) (b : Fin m → K) : Prop :=
  ∀ z, resid M x b ≤ resid M z b ∧ (resid M z b = resid M x b → z = x)

/-- The columns `0, …, k - 1` are linearly independent. -/
def Spec.Indep (m k : Nat) (A : Nat → Nat → K) : Prop :=
  ∀ x : Nat → K, (∀ i, i < m → ∑ j ∈ range k, A i j * x j = 0) → ∀ j, j < k → x j = 0

/-! ## Bridges -/

theorem indep_iff (m k : Nat) (A : Nat → Nat → K) :
    Indep m k A ↔ Function.Injective (mx m k A).mulVec := by
  constructor
  · intro h x y hxy
    have h1 := h (fun j => if hj : j < k then x ⟨j, hj⟩ - y ⟨j, hj⟩ else 0) (fun i hi => by
      have h2 := congrFun hxy ⟨i, hi⟩
      rw [Finset.sum_range]
      simp only [Fin.is_lt, dite_true, Fin.eta]
      rw [Matrix.mulVec, Matrix.mulVec, dotProduct, dotProduct] at h2
      simp only [mul_sub, Finset.sum_sub_distrib]
      exact sub_eq_zero.2 h2)
    funext j
    have h3 := h1 j j.2
    simp only [Fin.is_lt, dite_true, Fin.eta] at h3
    exact sub_eq_zero.1 h3
  · intro h x hx j hj
    have h1 : (mx m k A).mulVec (fun j => x j) = (mx m k A).mulVec 0 := by
      funext i
      rw [Matrix.mulVec_zero, Matrix.mulVec, dotProduct]
      have h2 := hx i i.2
      rw [Finset.sum_range] at h2
      exact h2
    exact congrFun (h h1) ⟨j, hj⟩

theorem QR.Inv.cast {B f : Nat → Nat → K} {d : Nat → K} {k k' : Nat} (h : QR.Inv m n B k f d)
    (e : k = k') : QR.Inv m n B k' f d := e ▸ h

/-- The normal equations determine the least squares solution. -/
theorem leastSq_of_normal {M : Matrix (Fin m) (Fin n) K} (hM : Function.Injective M.mulVec)
    {X : Matrix (Fin n) (Fin q) K} {B : Matrix (Fin m) (Fin q) K} (h : Mᵀ * (M * X - B) = 0) (c : Fin q) :
    LeastSq M (fun i => X i c) (fun i => B i c) := by
  intro z
  have key : resid M z (fun i => B i c) = resid M (fun i => X i c) (fun i => B i c) +
      ∑ i, (M.mulVec (z - fun i => X i c) i) ^ 2 := by
    have h1 : ∑ i, (M.mulVec (z - fun i => X i c) i) * (∑ j, M i j * X j c - B i c) = 0 := by
      have h2 : ∀ j, ∑ i, M i j * (∑ j, M i j * X j c - B i c) = 0 := by
        intro j
        have := congrFun (congrFun h j) c
        rw [Matrix.mul_apply] at this
        simpa only [Matrix.transpose_apply, Matrix.sub_apply, Matrix.mul_apply, Matrix.zero_apply] using this
      simp only [Matrix.mulVec, dotProduct, Finset.sum_mul]
      rw [Finset.sum_comm]
      refine Finset.sum_eq_zero fun j _ => ?_
      have h3 : ∀ i, M i j * (z - fun i => X i c) j * (∑ j, M i j * X j c - B i c) =
          (z - fun i => X i c) j * (M i j * (∑ j, M i j * X j c - B i c)) := fun i => by ring
      rw [Finset.sum_congr rfl fun i _ => h3 i, ← Finset.mul_sum, h2, mul_zero]
    have h4 : ∀ i, (∑ j, M i j * z j - B i c) ^ 2 = (∑ j, M i j * X j c - B i c) ^ 2 +
        (M.mulVec (z - fun i => X i c) i) ^ 2 +
        2 * ((M.mulVec (z - fun i => X i c) i) * (∑ j, M i j * X j c - B i c)) := by
      intro i
      have : M.mulVec (z - fun i => X i c) i = ∑ j, M i j * z j - ∑ j, M i j * X j c := by
        rw [Matrix.mulVec, dotProduct, ← Finset.sum_sub_distrib]
        exact Finset.sum_congr rfl fun j _ => by rw [Pi.sub_apply]; ring
      rw [this]; ring
    unfold resid
    rw [Finset.sum_congr rfl fun i _ => h4 i, Finset.sum_add_distrib, Finset.sum_add_distrib,
      ← Finset.mul_sum, h1, mul_zero, add_zero]
  have hnn : 0 ≤ ∑ i, (M.mulVec (z - fun i => X i c) i) ^ 2 := Finset.sum_nonneg fun i _ => sq_nonneg _
  refine ⟨by rw [key]; exact le_add_of_nonneg_right hnn, fun e => ?_⟩
  rw [key] at e
  have h5 : ∑ i, (M.mulVec (z - fun i => X i c) i) ^ 2 = 0 := by linarith
  rw [Finset.sum_eq_zero_iff_of_nonneg fun i _ => sq_nonneg _] at h5
  have h6 : M.mulVec (z - fun i => X i c) = M.mulVec 0 := by
    funext i
    rw [Matrix.mulVec_zero]
    exact pow_eq_zero_iff (two_ne_zero) |>.1 (h5 i (Finset.mem_univ i))
  exact sub_eq_zero.1 (hM h6)

/-- What the two substitutions of the solver compute. -/
theorem QR.Inv.solves {B f X b : Nat → Nat → K} {d : Nat → K} (h : QR.Inv m n B (min m n) f d)
    (hd : ∀ i, i < min m n → d i ≠ 0)
    (hX : ∀ c, c < q → ∀ i, i < min m n → ∑ j ∈ Ico i (min m n), QR.U f d i j * X j c =
      QR.Y (hprod m (QR.H m f d) (min m n)) b i c)
    (h0 : ∀ i c, min m n ≤ i → i < n → c < q → X i c = 0) :
    (n ≤ m → (mx m n B)ᵀ * (mx m n B * mx n q X - mx m q b) = 0 ∧
      ∀ c : Fin q, LeastSq (mx m n B) (fun i => X i c) (fun i => b i c)) ∧
    (m ≤ n → mx m n B * mx n q X = mx m q b) := by
  obtain ⟨h1, h2⟩ := h.normal rfl (QR.Y_mx _ b q) hX
  refine ⟨fun hn => ?_, fun hn => ?_⟩
  · have e : min m n = n := min_eq_right hn
    rw [e] at h1 hd
    exact ⟨h1, leastSq_of_normal (((h.cast e).injective_iff e.symm).2 hd) h1⟩
  · have e : min m n = m := min_eq_left hn
    rw [e] at h2 h0
    rw [← h2 rfl]
    ext i c
    rw [Matrix.mul_apply, Matrix.mul_apply]
    have g : ∀ N, (∑ j : Fin N, B i j * X j c) = ∑ j ∈ range N, B i j * X j c := fun N =>
      (Finset.sum_range (fun j => B i j * X j c)).symm
    show (∑ j : Fin n, B i j * X j c) = ∑ j : Fin m, B i j * X j c
    rw [g, g]
    refine (Finset.sum_subset (range_subset_range.2 hn) fun j hj hj' => ?_).symm
    rw [h0 j c (by simpa using hj') (mem_range.1 hj) c.2, mul_zero]

/-- `QR`, `Q` and `R` of a finished decomposition. -/
theorem QR.factors_ok (hm : 0 < m) (hn : 0 < n) (s : QR K m n (min m n)) {B : Nat → Nat → K}
    (h : QR.Inv m n B (min m n) s.qrt.f s.rDiag.f) :
    ∃ (mq mt : Mat K m m) (mr : Mat K m n) (Q R : Nat → Nat → K),
      s.q = .ok ⟨m, m, mq⟩ ∧ s.qT = .ok ⟨m, m, mt⟩ ∧ s.r = .ok ⟨m, n, mr⟩ ∧
      mq.own ∧ mt.own ∧ mr.own ∧
      Shows mq.at m m Q ∧ Shows mt.at m m (fun i j => Q j i) ∧ Shows mr.at m n R ∧
      mx m m Q * mx m n R = mx m n B ∧ (mx m m Q)ᵀ * mx m m Q = 1 ∧ mx m m Q * (mx m m Q)ᵀ = 1 ∧
      Upper m n R ∧ ∀ i, i < min m n → R i i = s.rDiag.f i := by
  obtain ⟨mt, q, et, hdt, ht, hq⟩ := QR.qT_exact hm hn s
  obtain ⟨mr, er, hdr, hr⟩ := QR.r_ok hm hn s
  obtain ⟨mq, eq, hdq, hsq⟩ := C12_transpose hdt hm ht
  have hQ : mx m m (fun i j => q j i) = hprod m (QR.H m s.qrt.f s.rDiag.f) (min m n) := by
    have : mx m m (fun i j => q j i) = (mx m m q)ᵀ := rfl
    rw [this, hq, Matrix.transpose_transpose]
  refine ⟨mq, mt, mr, fun i j => q j i, QR.rEnt s.qrt.f s.rDiag.f, ?_, et, er,
    Mat.dense_own hdq, Mat.dense_own hdt, Mat.dense_own hdr, hsq, ht, hr, ?_, ?_, ?_, ?_, ?_⟩
  · unfold QR.q
    rw [et, ok_bind]
    dsimp only
    rw [eq]
    rfl
  · rw [hQ, h.first le_rfl]
    congr 1
    ext i j
    exact QR.rEnt_exact _ _ i.2 j.2 rfl
  · rw [hQ]; exact mul_eq_one_comm.1 h.orth
  · rw [hQ]; exact h.orth
  · intro i j _ _ hij
    unfold QR.rEnt
    split_ifs <;> first | omega | rfl | exact Exact.zero_eq
  · intro i hi
    unfold QR.rEnt
    split_ifs <;> first | omega | rfl

theorem QR.new_exact {a : Mat K m n} (ha : a.own) (hm : 0 < m) (hn : 0 < n) {A : Nat → Nat → K}
    (hA : Shows a.at m n A) :
    ∃ s : QR K m n (min m n), QR.new a = .ok s ∧ QR.Inv m n A (min m n) s.qrt.f s.rDiag.f :=
  QR.new_wp ha hm hn hA (QR.Inv m n A) (fun _ d h => QR.Inv.init d h)
    (fun _ _ _ _ h1 _ hI hs => hI.step h1 hs rfl)

/-! ## C33 -/

theorem QR.Inv.diag_ne {B f : Nat → Nat → K} {d : Nat → K} (h : QR.Inv m n B k f d)
    (hd : ∀ i, i < k → d i ≠ 0) : ∀ i, i < k → f i i ≠ 0 :=
  fun i hi e => hd i hi ((h.diag i hi).2 e)

/-- **C33.** Every matrix with at least one row and one column is decomposed: `Q * R` is the matrix,
`Q` is orthogonal, `QT` is its transpose and `R` is zero below its diagonal. -/
theorem C33_factors {a : Mat K m n} (ha : a.own) (hm : 0 < m) (hn : 0 < n) {A : Nat → Nat → K}
    (hA : Shows a.at m n A) :
    ∃ s, QR.new a = .ok s ∧ ∃ (mq mt : Mat K m m) (mr : Mat K m n) (Q R : Nat → Nat → K),
      s.q = .ok ⟨m, m, mq⟩ ∧ s.qT = .ok ⟨m, m, mt⟩ ∧ s.r = .ok ⟨m, n, mr⟩ ∧
      mq.own ∧ mt.own ∧ mr.own ∧
      Shows mq.at m m Q ∧ Shows mt.at m m (fun i j => Q j i) ∧ Shows mr.at m n R ∧
      mx m m Q * mx m n R = mx m n A ∧ (mx m m Q)ᵀ * mx m m Q = 1 ∧ mx m m Q * (mx m m Q)ᵀ = 1 ∧
      Upper m n R := by
  obtain ⟨s, e, h⟩ := QR.new_exact ha hm hn hA
  obtain ⟨mq, mt, mr, Q, R, h1, h2, h3, h4, h5, h6, h7, h8, h9, h10, h11, h12, h13, -⟩ :=
    QR.factors_ok hm hn s h
  exact ⟨s, e, mq, mt, mr, Q, R, h1, h2, h3, h4, h5, h6, h7, h8, h9, h10, h11, h12, h13⟩

/-- The product of the `k` first reflections `1 - h hᵀ / h_j`, `h` being column `j` of `h`. -/
def Spec.reflections (m : Nat) (h : Nat → Nat → K) : Nat → Matrix (Fin m) (Fin m) K
  | 0 => 1
  | j + 1 => reflections m h j * (1 - Matrix.of fun a b : Fin m => h a j * h b j / h j j)

/-- **C33.** `H` is zero above its diagonal. When no diagonal element of `R` is 0 (the code divides by
them), `Q` is the product of the reflections along the columns of `H`. -/
theorem C33_h {a : Mat K m n} (ha : a.own) (hm : 0 < m) (hn : 0 < n) {A : Nat → Nat → K}
    (hA : Shows a.at m n A) {s : QR K m n (min m n)} (hs : QR.new a = .ok s) :
    ∃ (mh mr : Mat K m n) (mq : Mat K m m) (H R Q : Nat → Nat → K),
      s.h = .ok ⟨m, n, mh⟩ ∧ s.r = .ok ⟨m, n, mr⟩ ∧ s.q = .ok ⟨m, m, mq⟩ ∧ mh.own ∧
      Shows mh.at m n H ∧ Shows mr.at m n R ∧ Shows mq.at m m Q ∧
      (∀ i j, i < m → j < n → i < j → H i j = 0) ∧
      ((∀ i, i < min m n → R i i ≠ 0) → mx m m Q = reflections m H (min m n)) := by
  obtain ⟨s', e, h⟩ := QR.new_exact ha hm hn hA
  obtain rfl : s' = s := by rw [hs] at e; exact (Except.ok.inj e).symm
  obtain ⟨mh, eh, hhd, hh⟩ := QR.h_ok hm hn s'
  obtain ⟨mt, q, et, hdt, ht, hq⟩ := QR.qT_exact hm hn s'
  obtain ⟨mr, er, hdr, hr⟩ := QR.r_ok hm hn s'
  obtain ⟨mq, eq, hdq, hsq⟩ := C12_transpose hdt hm ht
  refine ⟨mh, mr, mq, _, _, fun i j => q j i, eh, er, ?_, Mat.dense_own hhd, hh, hr, hsq, ?_, ?_⟩
  · unfold QR.q
    rw [et, ok_bind]
    dsimp only
    rw [eq]
    rfl
  · intro i j _ _ hij
    unfold QR.hEnt
    rw [if_neg (by omega), Exact.zero_eq]
  · intro hd
    have hQ : mx m m (fun i j => q j i) = hprod m (QR.H m s'.qrt.f s'.rDiag.f) (min m n) := by
      have : mx m m (fun i j => q j i) = (mx m m q)ᵀ := rfl
      rw [this, hq, Matrix.transpose_transpose]
    have hd' : ∀ i, i < min m n → s'.rDiag.f i ≠ 0 := fun i hi => by
      have := hd i hi
      unfold QR.rEnt at this
      rwa [if_neg (by omega), if_pos rfl] at this
    have hf := h.diag_ne hd'
    have key : ∀ k, k ≤ min m n → hprod m (QR.H m s'.qrt.f s'.rDiag.f) k =
        reflections m (QR.hEnt s'.qrt.f s'.rDiag.f) k := by
      intro k
      induction k with
      | zero => intro _; rfl
      | succ k ih =>
        intro hk
        rw [hprod, reflections, ih (by omega)]
        congr 1
        ext i j
        rw [QR.H, Matrix.sub_apply, Matrix.one_apply]
        show hhf k (s'.qrt.f k) (QR.beta s'.qrt.f s'.rDiag.f k) i j = _
        have g1 := hd' k hk
        have g2 := hf k hk
        simp only [hhf, QR.beta, if_neg g2, tl, QR.hEnt, Matrix.of_apply, le_refl, if_true, Fin.ext_iff,
          Exact.div_eq, Exact.neg_eq, Exact.zero_eq]
        split_ifs <;> field_simp <;> ring
    rw [hQ, key _ le_rfl]

/-! ## C34 -/

/-- The test made by every solver. -/
theorem QR.check_exact (s : QR K m n p) (thr : K) :
    ∃ b, checkSingular s.rDiag thr = .ok b ∧ (b = true ↔ ∃ i, i < p ∧ |s.rDiag.f i| ≤ thr) := by
  obtain ⟨b, e, h⟩ := checkSingular_ok s.rDiag thr
  refine ⟨b, e, ?_⟩
  rw [h]
  simp

/-- **C34.** `IsNonSingular` compares the magnitude of every diagonal element of `R` with the threshold.
With threshold 0 it answers whether the first `min m n` columns are linearly independent; for `n ≤ m`
this is full column rank. -/
theorem C34_isNonSingular {a : Mat K m n} (ha : a.own) (hm : 0 < m) (hn : 0 < n) {A : Nat → Nat → K}
    (hA : Shows a.at m n A) {s : QR K m n (min m n)} (hs : QR.new a = .ok s) (thr : K) :
    ∃ (b : Bool) (mr : Mat K m n) (R : Nat → Nat → K), s.isNonSingular thr = .ok b ∧
      s.r = .ok ⟨m, n, mr⟩ ∧ Shows mr.at m n R ∧
      (b = true ↔ ∀ i, i < min m n → thr < |R i i|) ∧
      (thr = 0 → (b = true ↔ Indep m (min m n) A)) := by
  obtain ⟨s', e, h⟩ := QR.new_exact ha hm hn hA
  obtain rfl : s' = s := by rw [hs] at e; exact (Except.ok.inj e).symm
  obtain ⟨_, _, mr, _, R, -, -, er, -, -, -, -, -, hR, -, -, -, -, hd⟩ := QR.factors_ok hm hn s' h
  obtain ⟨b, eb, hb⟩ := QR.check_exact s' thr
  have hb' : (!b) = true ↔ ∀ i, i < min m n → thr < |R i i| := by
    rw [Bool.not_eq_true', ← Bool.not_eq_true, hb]
    push Not
    exact forall_congr' fun i => ⟨fun g hi => by rw [hd i hi]; exact g hi,
      fun g hi => by rw [← hd i hi]; exact g hi⟩
  refine ⟨!b, mr, R, ?_, er, hR, hb', ?_⟩
  · unfold QR.isNonSingular
    rw [eb]; rfl
  · rintro rfl
    rw [hb', indep_iff, h.injective_iff rfl]
    exact forall_congr' fun i => forall_congr' fun hi => by rw [hd i hi, abs_pos]

theorem QR.solveVector_exact (s : QR K m n (min m n)) {B : Nat → Nat → K}
    (h : QR.Inv m n B (min m n) s.qrt.f s.rDiag.f) (hn : 0 < n) {thr : K}
    (hc : checkSingular s.rDiag thr = .ok false) (hd : ∀ i, i < min m n → s.rDiag.f i ≠ 0)
    {b : RVec K} (hb : b.dim = m) :
    ∃ x, s.solveVector thr b = .ok x ∧ x.length = n ∧ (∀ i, min m n ≤ i → nth x i = 0) ∧
      (n ≤ m → LeastSq (mx m n B) (vc n x) (vc m b.list)) ∧
      (m ≤ n → (mx m n B).mulVec (vc n x) = vc m b.list) := by
  obtain ⟨y, ey, hy⟩ := QR.transform_vec s rfl (h.diag_ne hd) (b.toRow m)
  obtain ⟨xy, ex, hx, hx0⟩ := QR.back_vec s rfl hd y
  have hl : ∀ i, i < n → nth xy.1.toList i = xy.1.f i := fun i hi => by
    simp [nth, (Row.toList_isList xy.1).2 i hi]
  have hlen : xy.1.toList.length = n := (Row.toList_isList xy.1).1
  have hY : ∀ i, i < m → y.f i = QR.Y (hprod m (QR.H m s.qrt.f s.rDiag.f) (min m n))
      (fun i _ => nth b.list i) i 0 := by
    intro i hi
    have h1 := congrFun (congrFun hy ⟨i, hi⟩) (0 : Fin 1)
    have h2 := congrFun (congrFun (QR.Y_mx (hprod m (QR.H m s.qrt.f s.rDiag.f) (min m n))
      (fun i _ => nth b.list i) 1) ⟨i, hi⟩) (0 : Fin 1)
    rw [RVec.toRow_f] at h1
    exact h1.trans h2.symm
  obtain ⟨g1, g2⟩ := h.solves (q := 1) (X := fun i _ => xy.1.f i) (b := fun i _ => nth b.list i) hd
    (fun c hc i hi => by
      obtain rfl : c = 0 := by omega
      rw [← hY i (by omega), ← hx i hi])
    (fun i c hi hn _ => hx0 i hi hn)
  have hv : vc n xy.1.toList = fun i : Fin n => xy.1.f i := funext fun i => hl i i.2
  refine ⟨xy.1.toList, ?_, hlen, fun i hi => ?_, fun hnm => ?_, fun hmn => ?_⟩
  · unfold QR.solveVector
    rw [if_neg (by omega), if_neg (by simpa using hb), hc]
    show (do let y ← forUp 0 (min m n) _ _; _) = _
    rw [ey, ok_bind, ex]
    rfl
  · by_cases hin : i < n
    · rw [hl i hin, hx0 i hi hin]
    · simp [nth, List.getElem?_eq_none (show xy.1.toList.length ≤ i by omega)]
  · rw [hv]; exact (g1 hnm).2 0
  · rw [hv]
    funext i
    exact congrFun (congrFun (g2 hmn) i) 0

/-- **C34.** Unless the matrix is reported singular, `SolveVector` returns for `n ≤ m` the only least
squares solution, and for `m ≤ n` a solution of `A x = b` whose elements after the first `m` are 0. For
a square matrix both hold. -/
theorem C34_vector {a : Mat K m n} (ha : a.own) (hm : 0 < m) (hn : 0 < n) {A : Nat → Nat → K}
    (hA : Shows a.at m n A) {s : QR K m n (min m n)} (hs : QR.new a = .ok s) {thr : K} (ht : 0 ≤ thr)
    (hok : s.isNonSingular thr = .ok true) {b : RVec K} (hb : b.dim = m) :
    ∃ x, s.solveVector thr b = .ok x ∧ x.length = n ∧ (∀ i, m ≤ i → nth x i = 0) ∧
      (n ≤ m → LeastSq (mx m n A) (vc n x) (vc m b.list)) ∧
      (m ≤ n → (mx m n A).mulVec (vc n x) = vc m b.list) := by
  obtain ⟨s', e, h⟩ := QR.new_exact ha hm hn hA
  obtain rfl : s' = s := by rw [hs] at e; exact (Except.ok.inj e).symm
  obtain ⟨c, ec, hc⟩ := QR.check_exact s' thr
  unfold QR.isNonSingular at hok
  rw [ec] at hok
  obtain rfl : c = false := by simpa using Except.ok.inj hok
  have hd : ∀ i, i < min m n → s'.rDiag.f i ≠ 0 := fun i hi e0 =>
    absurd (hc.2 ⟨i, hi, by rw [e0, abs_zero]; exact ht⟩) (by simp)
  obtain ⟨x, h1, h2, h3, h4⟩ := QR.solveVector_exact s' h hn ec hd hb
  exact ⟨x, h1, h2, fun i hi => h3 i (by omega), h4⟩

theorem QR.solveMatrix_sol (s : QR K m n (min m n)) {B : Nat → Nat → K}
    (h : QR.Inv m n B (min m n) s.qrt.f s.rDiag.f) (hm : 0 < m) (hn : 0 < n) {thr : K}
    (hc : checkSingular s.rDiag thr = .ok false) (hd : ∀ i, i < min m n → s.rDiag.f i ≠ 0)
    {b : Mat K m q} {D : Nat → Nat → K} (hB : Shows b.at m q D) :
    ∃ (x : Mat K n q) (X : Nat → Nat → K), s.solveMatrix thr b = .ok ⟨n, q, x⟩ ∧ x.dense ∧
      Shows x.at n q X ∧ (∀ i c, min m n ≤ i → X i c = 0) ∧
      (n ≤ m → (mx m n B)ᵀ * (mx m n B * mx n q X - mx m q D) = 0 ∧
        ∀ c : Fin q, LeastSq (mx m n B) (fun i => X i c) (fun i => D i c)) ∧
      (m ≤ n → mx m n B * mx n q X = mx m q D) := by
  obtain ⟨x, ex, hx, hx0⟩ := QR.solveMatrix_exact s rfl hm hn hc hd (h.diag_ne hd) b hB
  exact ⟨.blk ⟨x⟩, entB x, ex, trivial, Blk.shows_entB ⟨x⟩, hx0,
    h.solves hd hx (fun i c hi _ _ => hx0 i c hi)⟩

/-- **C34.** Unless the matrix is reported singular, each column of the result of `SolveMatrix` is the
only least squares solution for `n ≤ m`, and for `m ≤ n` it solves `A X = B` with zeros after the first
`m` rows. -/
theorem C34_matrix {a : Mat K m n} (ha : a.own) (hm : 0 < m) (hn : 0 < n) {A : Nat → Nat → K}
    (hA : Shows a.at m n A) {s : QR K m n (min m n)} (hs : QR.new a = .ok s) {thr : K} (ht : 0 ≤ thr)
    (hok : s.isNonSingular thr = .ok true) {b : Mat K m q} {B : Nat → Nat → K} (hB : Shows b.at m q B) :
    ∃ (x : Mat K n q) (X : Nat → Nat → K), s.solveMatrix thr b = .ok ⟨n, q, x⟩ ∧ x.own ∧
      Shows x.at n q X ∧ (∀ i c, m ≤ i → X i c = 0) ∧
      (n ≤ m → ∀ c : Fin q, LeastSq (mx m n A) (fun i => X i c) (fun i => B i c)) ∧
      (m ≤ n → mx m n A * mx n q X = mx m q B) := by
  obtain ⟨s', e, h⟩ := QR.new_exact ha hm hn hA
  obtain rfl : s' = s := by rw [hs] at e; exact (Except.ok.inj e).symm
  obtain ⟨c, ec, hc⟩ := QR.check_exact s' thr
  unfold QR.isNonSingular at hok
  rw [ec] at hok
  obtain rfl : c = false := by simpa using Except.ok.inj hok
  have hd : ∀ i, i < min m n → s'.rDiag.f i ≠ 0 := fun i hi e0 =>
    absurd (hc.2 ⟨i, hi, by rw [e0, abs_zero]; exact ht⟩) (by simp)
  obtain ⟨x, X, h1, h2, h3, h4, h5, h6⟩ := QR.solveMatrix_sol s' h hm hn ec hd hB
  exact ⟨x, X, h1, Mat.dense_own h2, h3, fun i c hi => h4 i c (by omega), fun g => (h5 g).2, h6⟩

theorem left_inv_of_normal {M : Matrix (Fin m) (Fin n) K} (hM : Function.Injective M.mulVec)
    {X : Matrix (Fin n) (Fin m) K} (h : Mᵀ * (M * X - 1) = 0) : X * M = 1 := by
  have h1 : Mᵀ * (M * (X * M) - M * (1 : Matrix (Fin n) (Fin n) K)) = 0 := by
    have := congrArg (· * M) h
    simp only [Matrix.zero_mul] at this
    rw [← this, Matrix.mul_one, Matrix.mul_assoc, Matrix.sub_mul, Matrix.one_mul, Matrix.mul_assoc]
  ext i j
  have h2 := (leastSq_of_normal hM h1 j (fun i => (1 : Matrix (Fin n) (Fin n) K) i j)).1
  have h3 : resid M (fun i => (1 : Matrix (Fin n) (Fin n) K) i j) (fun i => (M * (1 : Matrix (Fin n) (Fin n) K)) i j) = 0 := by
    unfold resid
    refine Finset.sum_eq_zero fun i _ => ?_
    have : (∑ k, M i k * (1 : Matrix (Fin n) (Fin n) K) k j) =
      (M * (1 : Matrix (Fin n) (Fin n) K)) i j := rfl
    exact (congrArg (· ^ 2) (sub_eq_zero.2 this)).trans (by simp)
  have h4 := (leastSq_of_normal hM h1 j (fun i => (1 : Matrix (Fin n) (Fin n) K) i j)).2 (by
    rw [h3]
    rw [h3] at h2
    exact le_antisymm (Finset.sum_nonneg fun i _ => sq_nonneg _) h2)
  exact (congrFun h4 i).symm

theorem identity_nat {α : Type} [Flt α] {m : Nat} (hm : 0 < m) :
    ∃ i : Mat α m m, (Mat.identity (m : Int) : Res (Mat α m m)) = .ok i ∧
      Shows i.at m m fun i j => if i = j then Flt.one else Flt.zero := by
  obtain ⟨i, ei, -, hi⟩ := (C03_identity (α := α) (m : Int)).1 (by omega)
  exact ⟨i, ei, hi⟩

/-- **C34.** `Inverse` returns the inverse of a square matrix, a left inverse for `n ≤ m` and a right
inverse for `m ≤ n`. -/
theorem C34_inverse {a : Mat K m n} (ha : a.own) (hm : 0 < m) (hn : 0 < n) {A : Nat → Nat → K}
    (hA : Shows a.at m n A) {s : QR K m n (min m n)} (hs : QR.new a = .ok s) {thr : K} (ht : 0 ≤ thr)
    (hok : s.isNonSingular thr = .ok true) :
    ∃ (x : Mat K n m) (X : Nat → Nat → K), s.inverse thr = .ok ⟨n, m, x⟩ ∧ x.own ∧ Shows x.at n m X ∧
      (n ≤ m → mx n m X * mx m n A = 1) ∧ (m ≤ n → mx m n A * mx n m X = 1) := by
  obtain ⟨s', e, h⟩ := QR.new_exact ha hm hn hA
  obtain rfl : s' = s := by rw [hs] at e; exact (Except.ok.inj e).symm
  obtain ⟨c, ec, hc⟩ := QR.check_exact s' thr
  unfold QR.isNonSingular at hok
  rw [ec] at hok
  obtain rfl : c = false := by simpa using Except.ok.inj hok
  have hd : ∀ i, i < min m n → s'.rDiag.f i ≠ 0 := fun i hi e0 =>
    absurd (hc.2 ⟨i, hi, by rw [e0, abs_zero]; exact ht⟩) (by simp)
  obtain ⟨i, ei, hi⟩ := identity_nat (α := K) hm
  obtain ⟨x, X, h1, h2, h3, h4, h5, h6⟩ := QR.solveMatrix_sol s' h hm hn ec hd (b := i) hi
  have h1' : mx m m (fun i j => if i = j then (Flt.one : K) else Flt.zero) = 1 := by
    ext i j
    simp [mx, Matrix.one_apply, Fin.ext_iff]
  refine ⟨x, X, ?_, Mat.dense_own h2, h3, fun hnm => ?_, fun hmn => ?_⟩
  · unfold QR.inverse
    rw [if_neg (by omega)]
    refine (congrArg (fun x : Res (Mat K m m) => x.must >>= fun i => s'.solveMatrix thr i) ei :).trans ?_
    rw [must_ok, ok_bind, h1]
  · have h7 := (h5 hnm).1
    rw [h1'] at h7
    have e : min m n = n := min_eq_right hnm
    exact left_inv_of_normal (((h.cast e).injective_iff e.symm).2 (fun i hi => hd i (by omega))) h7
  · rw [h6 hmn, h1']

end exact

section free

variable {α : Type} [Flt α] {m n p q : Nat}

/-- **C34.** Right-hand sides of the wrong height, and all of them when the matrix is reported singular,
are refused; in any arithmetic. -/
theorem C34_refuse (hm : 0 < m) (hn : 0 < n) (s : QR α m n p) (thr : α) :
    (∀ b : RVec α, b.dim ≠ m → s.solveVector thr b = .error (.pan .dim)) ∧
    (∀ (r q : Nat) (b : Mat α r q), r ≠ m → s.solveMatrix thr b = .error (.pan .dim)) ∧
    (s.isNonSingular thr = .ok false →
      (∀ b : RVec α, b.dim = m → s.solveVector thr b = .error (.pan .sing)) ∧
      (∀ (q : Nat) (b : Mat α m q), s.solveMatrix thr b = .error (.pan .sing)) ∧
      s.inverse thr = .error (.pan .sing)) := by
  have hc : s.isNonSingular thr = .ok false → checkSingular s.rDiag thr = .ok true := by
    intro h
    obtain ⟨b, e, -⟩ := checkSingular_ok s.rDiag thr
    unfold QR.isNonSingular at h
    rw [e] at h
    rw [e, show b = true by simpa using Except.ok.inj h]
  have hsm : s.isNonSingular thr = .ok false →
      ∀ (q : Nat) (b : Mat α m q), s.solveMatrix thr b = .error (.pan .sing) := by
    intro h q b
    unfold QR.solveMatrix
    rw [if_neg (by omega), dif_pos rfl, hc h]
    rfl
  refine ⟨fun b hb => ?_, fun r q b hb => ?_, fun h => ⟨fun b hb => ?_, hsm h, ?_⟩⟩
  · unfold QR.solveVector
    rw [if_neg (by omega), if_pos hb]
    rfl
  · unfold QR.solveMatrix
    rw [if_neg (by omega), dif_neg hb]
    rfl
  · unfold QR.solveVector
    rw [if_neg (by omega), if_neg (by simpa using hb), hc h]
    rfl
  · obtain ⟨i, ei, -, -⟩ := (C03_identity (α := α) (m : Int)).1 (by omega)
    unfold QR.inverse
    rw [if_neg (by omega)]
    refine (congrArg (fun x : Res (Mat α m m) => x.must >>= fun i => s.solveMatrix thr i) ei :).trans ?_
    rw [must_ok, ok_bind, hsm h]

/-- **C58.** In any arithmetic the decomposition of a matrix with at least one row and one column ends
without an index fault, and so do `R`, `QT`, `Q` and `H`. -/
theorem C58_qr [ZeroLaws α] {a : Mat α m n} (ha : a.own) (hm : 0 < m) (hn : 0 < n) :
    ∃ s, QR.new a = .ok s ∧ (∃ x : Mat α m n, s.r = .ok ⟨m, n, x⟩) ∧
      (∃ x : Mat α m m, s.qT = .ok ⟨m, m, x⟩) ∧ (∃ x : Mat α m m, s.q = .ok ⟨m, m, x⟩) ∧
      ∃ x : Mat α m n, s.h = .ok ⟨m, n, x⟩ := by
  obtain ⟨s, e, -⟩ := QR.new_wp ha hm hn a.at_shows (fun _ _ _ => True) (fun _ _ _ => trivial)
    (fun _ _ _ _ _ _ _ _ => trivial)
  obtain ⟨x, ex, -⟩ := QR.r_ok hm hn s
  obtain ⟨y, q, ey, hy, hq, -⟩ := QR.qT_wp hm hn s (fun _ _ => True) (fun _ _ => trivial)
    (fun _ _ _ _ _ _ _ => trivial)
  obtain ⟨z, ez, -⟩ := C12_transpose hy hm hq
  obtain ⟨w, ew, -⟩ := QR.h_ok hm hn s
  refine ⟨s, e, ⟨x, ex⟩, ⟨y, ey⟩, ⟨z, ?_⟩, ⟨w, ew⟩⟩
  unfold QR.q
  rw [ey, ok_bind]
  dsimp only
  rw [ez]
  rfl

end free

/-! ## Concrete cases -/

/-- A 3 × 2 matrix of full column rank whose norms are rational. -/
def Spec.qrCase : Mat ℚ 3 2 :=
  .arr ⟨⟨fun i j => if j = 0 then (if i = 0 then -3 else if i = 1 then 4 else 0) else
    (if i = 0 then 9 else if i = 1 then 13 else 20)⟩, fun _ => 0⟩

example : qrCase.own ∧ (QR.new qrCase).toOption.map (fun d => d.rDiag.toList) = some [5, -25] :=
  ⟨trivial, by decide +kernel⟩

example : (QR.new qrCase >>= fun d => d.isNonSingular 0).toOption = some true ∧
    (QR.new qrCase >>= fun d => d.solveVector 0 (.arr [1, 2, 3])).toOption = some [7/125, 18/125] := by
  decide +kernel

/-- The columns are dependent. -/
def Spec.qrSing : Mat ℚ 2 2 := .arr ⟨⟨fun i j => if i = 0 then 3 * (j + 1) else 4 * (j + 1)⟩, fun _ => 0⟩

example : (QR.new qrSing >>= fun d => d.isNonSingular 0).toOption = some false := by decide +kernel

/-- The code refuses some wide matrices of full row rank: only the first `m` columns count. -/
def Spec.qrWide : Mat ℚ 1 2 := .arr ⟨⟨fun _ j => j⟩, fun _ => 0⟩

example : (QR.new qrWide >>= fun d => d.isNonSingular 0).toOption = some false := by decide +kernel

end Linear
