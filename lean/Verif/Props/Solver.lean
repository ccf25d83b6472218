import Verif.Model.Solver
import Verif.Props.LU
import Verif.Props.Cholesky
import Verif.Props.RRQR
import Verif.Props.EigenUse
import Verif.Props.SvdAll

/-!
# C105: the solvers behind `DecompositionSolver` agree
-/

set_option linter.unusedSectionVars false

namespace Linear

open Spec Finset Matrix

section exact

variable {K : Type} [Field K] [LinearOrder K] [IsStrictOrderedRing K] [Flt K] [Exact K] [ExactSqrt K] {n : Nat}

/-- What a solver of a square system with the matrix `M` has to do: one answer for each right-hand side, the only
solution, and the inverse matrix. -/
structure Spec.Solves (M : Matrix (Fin n) (Fin n) K) (s : Solver K n n) : Prop where
  vec : ∀ b : List K, b.length = n → ∃ x, s.solveVector (.arr b) = .ok x ∧ x.length = n ∧
    ∀ y : Fin n → K, M.mulVec y = vc n b ↔ y = vc n x
  mat : ∀ (q : Nat) (b : Mat K n q) (B : Nat → Nat → K), 0 < q → b.own → Shows b.at n q B →
    ∃ (x : Mat K n q) (X : Nat → Nat → K), s.solveMatrix b = .ok ⟨n, q, x⟩ ∧ x.own ∧ Shows x.at n q X ∧
      ∀ Y : Matrix (Fin n) (Fin q) K, M * Y = mx n q B ↔ Y = mx n q X
  inv : ∃ (x : Mat K n n) (X : Nat → Nat → K), s.inverse = .ok ⟨n, n, x⟩ ∧ x.own ∧ Shows x.at n n X ∧
    M * mx n n X = 1 ∧ mx n n X * M = 1

/-- The square of the distance (Frobenius norm) between the matrix that is solved for and the matrix that was given, whose
norm is at most `N`. -/
def Spec.off2 (κ : Solver.Lit K) (n : Nat) (N : K) : Solver.Kind K → K
  | .lu _ | .qr _ | .rrqr _ => 0
  | .chol rel _ => (rel * N) ^ 2
  | .eig => (32 * n * κ.eig.eps ^ 2 + 2 * κ.symTol n n ^ 2) * N ^ 2
  | .svd => ((n - 1 : Nat) * (κ.svd.tiny + 2 * κ.svd.eps * N)) ^ 2

/-- The thresholds are not negative (that of LU is positive), and the matrix given to the eigen decomposition is symmetric
up to the tolerance of the code; see `C65_general_false` for the others. -/
def Spec.Fit (κ : Solver.Lit K) (a : Mat K n n) : Solver.Kind K → Prop
  | .lu thr => 0 < thr
  | .chol _ pos => 0 ≤ pos
  | .qr thr => 0 ≤ thr
  | .rrqr thr => 0 ≤ thr
  | .eig => ∀ i j, i < j → j < n → |a.ent i j - a.ent j i| ≤ max |a.ent i j| |a.ent j i| * κ.symTol n n
  | .svd => True

/-- What is asked of the constants. -/
structure Spec.Consts (κ : Solver.Lit K) : Prop where
  ninf : κ.ninf < 0
  eps : 0 ≤ κ.eig.eps
  epsEd : 0 ≤ κ.eig.epsEd
  hyp : Spec.Hypot κ.svd.hyp
  tiny : 0 ≤ κ.svd.tiny
  seps : 0 ≤ κ.svd.eps
  floor : 0 ≤ κ.svd.floor

private theorem shows_ent {r c : Nat} (a : Mat K r c) : Shows a.at r c a.ent := a.at_shows

private theorem sq_mirror {t x y : K} (h : |x - y| ≤ t * max |x| |y|) :
    (x - y) ^ 2 ≤ t ^ 2 * (x ^ 2 + y ^ 2) := by
  have h1 : (x - y) ^ 2 ≤ (t * max |x| |y|) ^ 2 := sq_le_sq' (by linarith [neg_abs_le (x - y)]) ((le_abs_self _).trans h)
  refine h1.trans ?_
  rw [mul_pow]
  refine mul_le_mul_of_nonneg_left ?_ (sq_nonneg t)
  rcases max_choice |x| |y| with e | e <;> rw [e, sq_abs] <;> nlinarith [sq_nonneg x, sq_nonneg y]

private theorem fro2_pairs {A : Nat → Nat → K} {c : K} (hc : 0 ≤ c) (f : Fin n → Fin n → K)
    (h : ∀ i j : Fin n, f i j ≤ c * if j < i then A j i ^ 2 + A i j ^ 2 else 0) :
    ∑ i, ∑ j, f i j ≤ c * fro2 (mx n n A) := by
  have h1 : ∑ i, ∑ j, f i j ≤
      c * ∑ i : Fin n, ∑ j : Fin n, ((if j < i then A j i ^ 2 else 0) + if j < i then A i j ^ 2 else 0) := by
    simp only [mul_sum]
    exact sum_le_sum fun i _ => sum_le_sum fun j _ => (h i j).trans (by split_ifs <;> simp)
  refine h1.trans (mul_le_mul_of_nonneg_left ?_ hc)
  simp only [sum_add_distrib]
  rw [sum_comm, ← sum_add_distrib]
  refine sum_le_sum fun i _ => ?_
  rw [← sum_add_distrib]
  refine sum_le_sum fun j _ => ?_
  show _ ≤ A i j ^ 2
  rcases lt_trichotomy i j with c | c | c
  · rw [if_pos c, if_neg (not_lt.2 c.le), add_zero]
  · rw [if_neg (by omega), if_neg (by omega), add_zero]; positivity
  · rw [if_neg (not_lt.2 c.le), if_pos c, zero_add]

/-- The matrix with the upper triangle of `A` is near `A` when mirrored entries are near each other. -/
private theorem symU_near {A : Nat → Nat → K} {t : K}
    (h : ∀ i j, i < j → j < n → |A i j - A j i| ≤ t * max |A i j| |A j i|) :
    fro2 (mx n n (symU A) - mx n n A) ≤ t ^ 2 * fro2 (mx n n A) := by
  refine fro2_pairs (A := A) (sq_nonneg t) (fun i j => (mx n n (symU A) - mx n n A) i j ^ 2) fun i j => ?_
  show (symU A i j - A i j) ^ 2 ≤ _
  unfold symU
  by_cases c : (i : Nat) ≤ j
  · rw [if_pos c, sub_self, if_neg (by rw [Fin.lt_def]; omega)]; simp
  · rw [if_neg c, if_pos (by rw [Fin.lt_def]; omega)]
    exact sq_mirror (h j i (by omega) i.2)

private theorem symU_size {A : Nat → Nat → K} : fro2 (mx n n (symU A)) ≤ 2 * fro2 (mx n n A) := by
  have h1 : ∑ i : Fin n, ∑ j : Fin n, (if j < i then A j i ^ 2 else 0) ≤ 1 * fro2 (mx n n A) :=
    fro2_pairs (A := A) zero_le_one (fun i j => if j < i then A j i ^ 2 else 0) fun i j => by
      rw [one_mul]
      split_ifs
      · nlinarith [sq_nonneg (A i j)]
      · exact le_rfl
  have h2 : fro2 (mx n n (symU A)) ≤ ∑ i : Fin n, ∑ j : Fin n, (A i j ^ 2 + if j < i then A j i ^ 2 else 0) := by
    refine sum_le_sum fun i _ => sum_le_sum fun j _ => ?_
    show symU A i j ^ 2 ≤ _
    unfold symU
    by_cases c : (i : Nat) ≤ j
    · rw [if_pos c, if_neg (by rw [Fin.lt_def]; omega), add_zero]
    · rw [if_neg c, if_pos (by rw [Fin.lt_def]; omega)]
      nlinarith [sq_nonneg (A i j)]
  simp only [sum_add_distrib] at h2
  have h3 : ∑ i : Fin n, ∑ j : Fin n, A i j ^ 2 = fro2 (mx n n A) := rfl
  linarith

private theorem isUnit_of_rank {M : Matrix (Fin n) (Fin n) K} (h : M.rank = n) : IsUnit M := by
  rw [← Matrix.mulVec_surjective_iff_isUnit]
  have : LinearMap.range M.mulVecLin = ⊤ := Submodule.eq_top_of_finrank_eq (by
    rw [Module.finrank_fin_fun]
    exact h)
  exact LinearMap.range_eq_top.1 this

private theorem uniq_of_inv {q : Nat} {M X : Matrix (Fin n) (Fin n) K} (h : M * X = 1) {Y Z B : Matrix (Fin n) (Fin q) K}
    (hZ : M * Z = B) : M * Y = B ↔ Y = Z := by
  have h' := mul_eq_one_comm.1 h
  refine ⟨fun hY => ?_, fun hY => by rw [hY, hZ]⟩
  rw [← Matrix.one_mul Y, ← Matrix.one_mul Z, ← h', Matrix.mul_assoc, Matrix.mul_assoc, hY, hZ]

private theorem uniq_vec {M X : Matrix (Fin n) (Fin n) K} (h : M * X = 1) {y z b : Fin n → K}
    (hz : M.mulVec z = b) : M.mulVec y = b ↔ y = z := by
  have h' := mul_eq_one_comm.1 h
  refine ⟨fun hy => ?_, fun hy => by rw [hy, hz]⟩
  rw [← Matrix.one_mulVec y, ← Matrix.one_mulVec z, ← h', ← Matrix.mulVec_mulVec, ← Matrix.mulVec_mulVec, hy, hz]

/-- **C105.** Every solver that reports a nonsingular square matrix solves the systems of one matrix `M`, for vectors, for
matrices and for the inverse. `M` is the matrix that was given for LU, QR and rank-revealing QR; for the others it is within
the distance `off2` of it. -/
theorem C105_solves {κ : Solver.Lit K} (hκ : Consts κ) (fuel : Nat) (hn : 0 < n) {a : Mat K n n} (ha : a.own)
    {N : K} (hN : 0 ≤ N) (hAN : fro2 (mx n n a.ent) ≤ N ^ 2) {k : Solver.Kind K} (hk : Fit κ a k) {s : Solver K n n}
    (hs : Solver.make κ fuel k a = .ok (some s)) (hns : s.isNonSingular = .ok true) :
    ∃ M : Matrix (Fin n) (Fin n) K, fro2 (M - mx n n a.ent) ≤ off2 κ n N k ∧ Solves M s := by
  have hA := shows_ent a
  have h00 : fro2 (mx n n a.ent - mx n n a.ent) ≤ 0 := by simp [fro2]
  cases k with
  | lu thr =>
    cases hd : LU.new thr κ.ninf a with
    | error e => simp [Solver.make, hd, bind, Except.bind] at hs
    | ok d =>
      simp only [Solver.make, hd, ok_bind] at hs
      obtain rfl : Solver.lu d = s := by simpa [pure, Except.pure] using hs
      have hsing : d.singular = false := by simpa [Solver.isNonSingular, LU.isNonSingular, pure, Except.pure] using hns
      refine ⟨_, h00, ⟨fun b hb => C29_vector hk hκ.ninf ha hn hA hd hsing (b := .arr b) hb, fun q b B hq _ hB =>
        C29_matrix hk hκ.ninf ha hn hA hd hsing hq hB, C29_inverse hk hκ.ninf ha hn hA hd hsing⟩⟩
  | chol rel pos =>
    cases hd : Chol.new rel pos a with
    | error e => simp [Solver.make, hd, bind, Except.bind] at hs
    | ok d =>
      simp only [Solver.make, hd, ok_bind] at hs
      obtain rfl : Solver.chol d = s := by simpa [pure, Except.pure] using hs
      refine ⟨mx n n (symU a.ent), ?_, ⟨fun b hb => ?_, fun q b B hq hbo hB => ?_, ?_⟩⟩
      · have := ((Chol.new_wp (rel := rel) hk ha hn hA).of_ok hd).2
        refine (symU_near this).trans ?_
        show _ ≤ (rel * N) ^ 2
        rw [mul_pow]
        exact mul_le_mul_of_nonneg_left hAN (sq_nonneg _)
      · obtain ⟨x, h1, h2, h3, -⟩ := C32_vector hk ha hn hA hd (b := .arr b) hb
        exact ⟨x, h1, h2, h3⟩
      · obtain ⟨x, X, h1, h2, h3, h4, -⟩ := C32_matrix hk ha hn hA hd hq hbo hB
        exact ⟨x, X, h1, h2, h3, h4⟩
      · obtain ⟨x, X, h1, h2, h3, h4, -⟩ := C32_inverse hk ha hn hA hd
        exact ⟨x, X, h1, h2, h3, h4, mul_eq_one_comm.1 h4⟩
  | qr thr =>
    cases hd : QR.new a with
    | error e => simp [Solver.make, hd, bind, Except.bind] at hs
    | ok d =>
      simp only [Solver.make, hd, ok_bind] at hs
      obtain rfl : Solver.qr thr d = s := by simpa [pure, Except.pure] using hs
      have hns : d.isNonSingular thr = .ok true := hns
      obtain ⟨x, X, h1, h2, h3, h4, h5⟩ := C34_inverse ha hn hn hA hd hk hns
      refine ⟨_, h00, ⟨fun b hb => ?_, fun q b B hq hbo hB => ?_, ⟨x, X, h1, h2, h3, h5 le_rfl, h4 le_rfl⟩⟩⟩
      · obtain ⟨y, g1, g2, -, -, g5⟩ := C34_vector ha hn hn hA hd hk hns (b := .arr b) hb
        exact ⟨y, g1, g2, fun z => uniq_vec (h5 le_rfl) (g5 le_rfl)⟩
      · obtain ⟨y, Y, g1, g2, g3, -, -, g4⟩ := C34_matrix ha hn hn hA hd hk hns hB
        exact ⟨y, Y, g1, g2, g3, fun z => uniq_of_inv (h5 le_rfl) (g4 le_rfl)⟩
  | rrqr thr =>
    cases hd : RRQR.new a with
    | error e => simp [Solver.make, hd, bind, Except.bind] at hs
    | ok d =>
      simp only [Solver.make, hd, ok_bind] at hs
      obtain rfl : Solver.rrqr thr d = s := by simpa [pure, Except.pure] using hs
      have hns : d.isNonSingular thr = .ok true := hns
      obtain ⟨x, X, h1, h2, h3, h4, h5⟩ := C60_inverse ha hn hA hd hk hns
      refine ⟨_, h00, ⟨fun b hb => ?_, fun q b B hq hbo hB => ?_, ⟨x, X, h1, h2, h3, h4, h5⟩⟩⟩
      · obtain ⟨y, g1, g2, -, g5⟩ := C60_vector ha hn hn hA hd hk hns (b := .arr b) hb
        exact ⟨y, g1, g2, fun z => uniq_vec h4 (g5 le_rfl)⟩
      · obtain ⟨y, Y, g1, g2, g3, -, g4⟩ := C60_matrix ha hn hn hA hd hk hns hq hB
        exact ⟨y, Y, g1, g2, g3, fun z => uniq_of_inv h4 (g4 le_rfl)⟩
  | eig =>
    obtain ⟨bb, eb, hbb⟩ := C64_branch hn hA (κ.symTol n n)
    obtain rfl : bb = true := hbb.2 ⟨rfl, hk⟩
    have hnew : Eig.new κ.schur κ.eig (κ.symTol n n) fuel a = do return some (← Eig.newSym κ.eig.eps a) := by
      unfold Eig.new
      rw [eb, ok_bind]
      rfl
    unfold Solver.make at hs
    dsimp only at hs
    rw [Mat.colDim_ok hn, ok_bind, hnew] at hs
    cases hd : Eig.newSym κ.eig.eps a with
    | error e => rw [hd] at hs; simp [bind, Except.bind] at hs
    | ok d =>
      rw [hd] at hs
      have hs' : (d.solver κ.eig.epsEd >>= fun _ => (pure (some (Solver.eig κ.eig.epsEd d)) : Res (Option (Solver K n n)))) =
          .ok (some s) := hs
      obtain rfl : Solver.eig κ.eig.epsEd d = s := by
        cases hsv : d.solver κ.eig.epsEd with
        | error e => rw [hsv] at hs'; cases hs'
        | ok u => rw [hsv] at hs'; exact Option.some.inj (Except.ok.inj hs')
      have hns : d.isNonSingular κ.eig.epsEd = .ok true := hns
      obtain ⟨-, him, -, M, hM, hE⟩ := C41_decomposition hκ.eps ha hn hA hd
      refine ⟨M, ?_, ⟨fun b hb => C65_vector hκ.epsEd him hM hns (b := .arr b) hb, fun q b B hq _ hB =>
        C65_matrix hκ.epsEd hn him hM hns hq hB, (C65_inverse hκ.epsEd hn him hM).1 hns⟩⟩
      have e1 : M - mx n n a.ent = (M - mx n n (symU a.ent)) + (mx n n (symU a.ent) - mx n n a.ent) := by abel
      have e2 := symU_near fun i j hi hj => (hk i j hi hj).trans_eq (mul_comm _ _)
      have e3 := fro2_add_le (M - mx n n (symU a.ent)) (mx n n (symU a.ent) - mx n n a.ent)
      rw [← e1] at e3
      have e4 : 8 * (n : K) * κ.eig.eps ^ 2 * fro2 (mx n n (symU a.ent)) ≤ 8 * (n : K) * κ.eig.eps ^ 2 * (2 * N ^ 2) :=
        mul_le_mul_of_nonneg_left (symU_size.trans (by linarith)) (by positivity)
      have e5 : κ.symTol n n ^ 2 * fro2 (mx n n a.ent) ≤ κ.symTol n n ^ 2 * N ^ 2 :=
        mul_le_mul_of_nonneg_left hAN (sq_nonneg _)
      show _ ≤ (32 * (n : K) * κ.eig.eps ^ 2 + 2 * κ.symTol n n ^ 2) * N ^ 2
      calc fro2 (M - mx n n a.ent) ≤ 2 * fro2 (M - mx n n (symU a.ent)) + 2 * fro2 (mx n n (symU a.ent) - mx n n a.ent) := e3
        _ ≤ 2 * (8 * (n : K) * κ.eig.eps ^ 2 * (2 * N ^ 2)) + 2 * (κ.symTol n n ^ 2 * N ^ 2) := by linarith
        _ = _ := by ring
  | svd =>
    cases hd : Svd.new κ.svd fuel a with
    | error e => simp [Solver.make, hd, bind, Except.bind] at hs
    | ok o =>
      cases o with
      | none => simp [Solver.make, hd, bind, Except.bind, pure, Except.pure] at hs
      | some d =>
        obtain ⟨U, V, σ, h1, h2, h3, h4, h5, h6⟩ := C68_factors hκ.hyp hκ.tiny hκ.seps fuel ha hn hn hA hN hAN hd
        have htol : 0 ≤ d.tol := by
          rcases C67_safe κ.svd fuel ha hn hn with e | ⟨s', U', V', σ', e, g1, g2⟩
          · rw [e] at hd; cases hd
          · rw [e] at hd
            cases hd
            rw [g2, Exact.max_eq]
            exact hκ.floor.trans (le_max_right _ _)
        cases hp : d.pinv with
        | error e => simp [Solver.make, hd, hp, bind, Except.bind] at hs
        | ok p =>
          have hs' : (some (Solver.svd d p) : Option (Solver K n n)) = some s := by
            simpa [Solver.make, hd, hp, bind, Except.bind, pure, Except.pure] using hs
          obtain rfl := Option.some.inj hs'
          have hns' : d.isNonSingular = true := by simpa [Solver.isNonSingular, pure, Except.pure] using hns
          have hbig := ((C70_isNonSingular h1).1 hns').2
          have hg : GoodSvd d n n (min n n) U V σ := ⟨h1, h2, h3, htol, fun i hi hle =>
            absurd hle (not_le.2 (hbig i (by omega)))⟩
          -- the matrix that the factors make up
          let W : Nat → Nat → K := fun i j => if h : i < n ∧ j < n then usv n n (min n n) U V σ ⟨i, h.1⟩ ⟨j, h.2⟩ else 0
          have hW : usv n n (min n n) U V σ = mx n n W := by
            ext i j
            simp [mx, W]
          obtain ⟨m, B, e, m1, m2, m3⟩ := C55_penrose hg hn hn (by omega) hW
          obtain rfl : (⟨n, n, m⟩ : SMat K) = p := by rw [e] at hp; exact Except.ok.inj hp
          have hrank : (mx n n W).rank = n := by
            rw [← C70_rank hg hW]
            have : d.rank = d.big := by simpa [Svd.isNonSingular] using hns'
            rw [this, h1.big, max_self]
          have hunit : IsUnit (mx n n W) := isUnit_of_rank hrank
          have hWB : mx n n W * mx n n B = 1 := by
            have := m3.aba
            have h' : mx n n W * mx n n B * mx n n W = 1 * mx n n W := by rw [this, Matrix.one_mul]
            exact hunit.mul_right_cancel h'
          have hdim : min n n = n := min_self n
          refine ⟨mx n n W, ?_, ⟨fun b hb => ?_, fun q b Y hq _ hY => ?_, ⟨m, B, rfl, m1, m2, hWB, mul_eq_one_comm.1 hWB⟩⟩⟩
          · rw [← hW]
            have := h4
            rwa [hdim] at this ⊢
          · show ∃ x, m.operateVector (.arr b) = .ok x ∧ _
            rw [(C48_array m1 b).1]
            obtain ⟨l, el, hl⟩ := C11_operate m1 hn m2 (hb ▸ isList_nth b)
            refine ⟨l, el, hl.1, fun y => uniq_vec hWB ?_⟩
            have : vc n l = (mx n n B).mulVec (vc n b) := by
              funext i
              show nth l i = _
              unfold nth
              rw [List.getD_eq_getElem?_getD, hl.2 i i.2, Option.getD_some]
              exact (Fin.sum_univ_eq_sum_range (fun j => B i j * nth b j) n).symm
            rw [this, Matrix.mulVec_mulVec, hWB, Matrix.one_mulVec]
          · obtain ⟨x, ex, x1, x2⟩ := C10_product m1 hn hn hq m2 hY
            refine ⟨x, _, ex, x1, x2, fun Z => uniq_of_inv hWB ?_⟩
            have : mx n q (fun i j => ∑ k ∈ range n, B i k * Y k j) = mx n n B * mx n q Y := by
              ext i j
              rw [Matrix.mul_apply]
              exact (Fin.sum_univ_eq_sum_range (fun k => B i k * Y k j) n).symm
            rw [this, ← Matrix.mul_assoc, hWB, Matrix.one_mul]

/-- **C105, the residual.** The answer `x` of every solver that reports a nonsingular square matrix satisfies
`‖A x - b‖² ≤ off2 ‖x‖²` for the matrix `A` that was given. -/
theorem C105_residual {κ : Solver.Lit K} (hκ : Consts κ) (fuel : Nat) (hn : 0 < n) {a : Mat K n n} (ha : a.own)
    {N : K} (hN : 0 ≤ N) (hAN : fro2 (mx n n a.ent) ≤ N ^ 2) {k : Solver.Kind K} (hk : Fit κ a k) {s : Solver K n n}
    (hs : Solver.make κ fuel k a = .ok (some s)) (hns : s.isNonSingular = .ok true) {b : List K} (hb : b.length = n) :
    ∃ x, s.solveVector (.arr b) = .ok x ∧ x.length = n ∧
      ∑ i ∈ range n, (∑ j ∈ range n, a.ent i j * nth x j - nth b i) ^ 2 ≤ off2 κ n N k * ∑ j ∈ range n, nth x j ^ 2 := by
  obtain ⟨M, hM, hS⟩ := C105_solves hκ fuel hn ha hN hAN hk hs hns
  obtain ⟨x, e, hl, hx⟩ := hS.vec b hb
  refine ⟨x, e, hl, ?_⟩
  have hMx := (hx (vc n x)).2 rfl
  have hrow : ∀ i : Fin n, ∑ j ∈ range n, a.ent i j * nth x j - nth b i = -∑ j : Fin n, (M - mx n n a.ent) i j * nth x j := by
    intro i
    have h1 : ∑ j : Fin n, M i j * nth x j = nth b i := congrFun hMx i
    rw [← h1, ← Fin.sum_univ_eq_sum_range (fun j => a.ent i j * nth x j), ← sum_sub_distrib, ← sum_neg_distrib]
    refine sum_congr rfl fun j _ => ?_
    rw [Matrix.sub_apply]
    show _ = -((M i j - a.ent i j) * nth x j)
    ring
  rw [← Fin.sum_univ_eq_sum_range (fun i => (∑ j ∈ range n, a.ent i j * nth x j - nth b i) ^ 2),
    ← Fin.sum_univ_eq_sum_range (fun j => nth x j ^ 2)]
  calc ∑ i : Fin n, (∑ j ∈ range n, a.ent i j * nth x j - nth b i) ^ 2
      = ∑ i : Fin n, (∑ j : Fin n, (M - mx n n a.ent) i j * nth x j) ^ 2 :=
        sum_congr rfl fun i _ => by rw [hrow i, neg_sq]
    _ ≤ ∑ i : Fin n, (∑ j : Fin n, (M - mx n n a.ent) i j ^ 2) * ∑ j : Fin n, nth x j ^ 2 :=
        sum_le_sum fun i _ => sum_mul_sq_le_sq_mul_sq _ _ _
    _ = fro2 (M - mx n n a.ent) * ∑ j : Fin n, nth x j ^ 2 := by rw [← sum_mul]; rfl
    _ ≤ _ := mul_le_mul_of_nonneg_right hM (sum_nonneg fun _ _ => sq_nonneg _)

/-- **C105, the solvers agree.** Two solvers for the same matrix of which both solve exactly (`off2` is 0: LU, QR,
rank-revealing QR, and Cholesky with symmetry threshold 0) and both report it nonsingular give the same vector for every
right-hand side, the same matrix for every matrix, and the same inverse. -/
theorem C105_agree {κ : Solver.Lit K} (hκ : Consts κ) (fuel : Nat) (hn : 0 < n) {a : Mat K n n} (ha : a.own)
    {k k' : Solver.Kind K} (hk : Fit κ a k) (hk' : Fit κ a k') (h0 : ∀ N, off2 κ n N k = 0) (h0' : ∀ N, off2 κ n N k' = 0)
    {s s' : Solver K n n} (hs : Solver.make κ fuel k a = .ok (some s)) (hs' : Solver.make κ fuel k' a = .ok (some s'))
    (hns : s.isNonSingular = .ok true) (hns' : s'.isNonSingular = .ok true) :
    (∀ b : List K, b.length = n → ∃ x, s.solveVector (.arr b) = .ok x ∧ s'.solveVector (.arr b) = .ok x ∧
      ∀ y : Fin n → K, (mx n n a.ent).mulVec y = vc n b ↔ y = vc n x) ∧
    (∀ (q : Nat) (b : Mat K n q), 0 < q → b.own → ∃ (x x' : Mat K n q) (X : Nat → Nat → K),
      s.solveMatrix b = .ok ⟨n, q, x⟩ ∧ s'.solveMatrix b = .ok ⟨n, q, x'⟩ ∧ Shows x.at n q X ∧ Shows x'.at n q X ∧
      mx n n a.ent * mx n q X = mx n q b.ent) ∧
    ∃ (x x' : Mat K n n) (X : Nat → Nat → K), s.inverse = .ok ⟨n, n, x⟩ ∧ s'.inverse = .ok ⟨n, n, x'⟩ ∧
      Shows x.at n n X ∧ Shows x'.at n n X ∧ mx n n a.ent * mx n n X = 1 := by
  obtain ⟨N, hN, hAN⟩ : ∃ N, 0 ≤ N ∧ fro2 (mx n n a.ent) ≤ N ^ 2 :=
    ⟨1 + fro2 (mx n n a.ent), by linarith [fro2_nonneg (mx n n a.ent)], by nlinarith [fro2_nonneg (mx n n a.ent)]⟩
  have key : ∀ {k : Solver.Kind K} {s : Solver K n n}, Fit κ a k → (∀ N, off2 κ n N k = 0) →
      Solver.make κ fuel k a = .ok (some s) → s.isNonSingular = .ok true → Solves (mx n n a.ent) s := by
    intro k s hk h0 hs hns
    obtain ⟨M, hM, hS⟩ := C105_solves hκ fuel hn ha hN hAN hk hs hns
    rw [h0] at hM
    rwa [sub_eq_zero.1 (fro2_zero_iff _ hM)] at hS
  have g := key hk h0 hs hns
  have g' := key hk' h0' hs' hns'
  have same : ∀ {q : Nat} {x' : Mat K n q} {X X' : Nat → Nat → K}, Shows x'.at n q X' → mx n q X = mx n q X' →
      Shows x'.at n q X := fun hX h => hX.congr fun i j hi hj => (congrFun (congrFun h ⟨i, hi⟩) ⟨j, hj⟩).symm
  refine ⟨fun b hb => ?_, fun q b hq hbo => ?_, ?_⟩
  · obtain ⟨x, e, hl, hx⟩ := g.vec b hb
    obtain ⟨x', e', hl', hx'⟩ := g'.vec b hb
    refine ⟨x, e, ?_, hx⟩
    have hv := (hx' _).1 ((hx _).2 rfl)
    rw [e']
    congr 1
    refine List.ext_getElem (by omega) fun i h1 h2 => ?_
    have := congrFun hv ⟨i, by omega⟩
    simp only [vc, nth, List.getD_eq_getElem?_getD, List.getElem?_eq_getElem h1, List.getElem?_eq_getElem h2,
      Option.getD_some] at this
    exact this.symm
  · obtain ⟨x, X, e, -, hX, hx⟩ := g.mat q b b.ent hq hbo (shows_ent b)
    obtain ⟨x', X', e', -, hX', hx'⟩ := g'.mat q b b.ent hq hbo (shows_ent b)
    have hsol := (hx _).2 rfl
    exact ⟨x, x', X, e, e', hX, same hX' ((hx' _).1 hsol), hsol⟩
  · obtain ⟨x, X, e, -, hX, h1, h2⟩ := g.inv
    obtain ⟨x', X', e', -, hX', h1', -⟩ := g'.inv
    refine ⟨x, x', X, e, e', hX, same hX' ?_, h1⟩
    rw [← Matrix.mul_one (mx n n X), ← h1', ← Matrix.mul_assoc, h2, Matrix.one_mul]

/-- **C105, columns.** Every solver that reports a nonsingular square matrix answers a matrix column by column: column `j` of
the result is the answer to column `j` of the right-hand side. -/
theorem C105_columns {κ : Solver.Lit K} (hκ : Consts κ) (fuel : Nat) (hn : 0 < n) {a : Mat K n n} (ha : a.own)
    {k : Solver.Kind K} (hk : Fit κ a k) {s : Solver K n n}
    (hs : Solver.make κ fuel k a = .ok (some s)) (hns : s.isNonSingular = .ok true) {q : Nat} {b : Mat K n q}
    (hq : 0 < q) (hbo : b.own) :
    ∃ (x : Mat K n q) (X : Nat → Nat → K), s.solveMatrix b = .ok ⟨n, q, x⟩ ∧ Shows x.at n q X ∧
      ∀ j, j < q → s.solveVector (.arr ((List.range n).map fun i => b.ent i j)) = .ok ((List.range n).map fun i => X i j) := by
  obtain ⟨M, -, g⟩ := C105_solves hκ fuel hn ha (N := 1 + fro2 (mx n n a.ent))
    (by linarith [fro2_nonneg (mx n n a.ent)]) (by nlinarith [fro2_nonneg (mx n n a.ent)]) hk hs hns
  obtain ⟨x, X, e, -, hX, hx⟩ := g.mat q b b.ent hq hbo (shows_ent b)
  refine ⟨x, X, e, hX, fun j hj => ?_⟩
  obtain ⟨y, ey, hl, hy⟩ := g.vec ((List.range n).map fun i => b.ent i j) (by simp)
  rw [ey]
  congr 1
  have hcol : M.mulVec (fun i : Fin n => X i j) = vc n ((List.range n).map fun i => b.ent i j) := by
    funext i
    have := congrFun (congrFun ((hx _).2 rfl) i) ⟨j, hj⟩
    rw [Matrix.mul_apply] at this
    have hi := i.2
    simp only [Matrix.mulVec, dotProduct, vc, nth, List.getD_eq_getElem?_getD, List.getElem?_map, List.getElem?_range hi,
      Option.map_some, Option.getD_some]
    exact this
  have hv := (hy _).1 hcol
  refine List.ext_getElem (by simp [hl]) fun i h1 h2 => ?_
  have := congrFun hv ⟨i, by omega⟩
  simp only [vc, nth, List.getD_eq_getElem?_getD, List.getElem?_eq_getElem h1, Option.getD_some] at this
  rw [← this]
  simp

/-- **C105, singular matrices.** No solver that solves exactly reports a singular matrix as nonsingular. -/
theorem C105_singular {κ : Solver.Lit K} (hκ : Consts κ) (fuel : Nat) (hn : 0 < n) {a : Mat K n n} (ha : a.own)
    {k : Solver.Kind K} (hk : Fit κ a k) (h0 : ∀ N, off2 κ n N k = 0) {s : Solver K n n}
    (hs : Solver.make κ fuel k a = .ok (some s)) (hdet : (mx n n a.ent).det = 0) : s.isNonSingular ≠ .ok true := by
  intro hns
  obtain ⟨-, -, x, x', X, -, -, -, -, h⟩ := C105_agree hκ fuel hn ha hk hk h0 h0 hs hs hns hns
  have := congrArg Matrix.det h
  rw [Matrix.det_mul, hdet, zero_mul, Matrix.det_one] at this
  exact zero_ne_one this

/-- **C105, shapes.** Every solver of a square matrix refuses a right-hand side of the wrong height. -/
theorem C105_refuse (κ : Solver.Lit K) (fuel : Nat) (hn : 0 < n) {a : Mat K n n} (ha : a.own)
    {k : Solver.Kind K} {s : Solver K n n} (hs : Solver.make κ fuel k a = .ok (some s)) :
    (∀ b : List K, b.length ≠ n → s.solveVector (.arr b) = .error (.pan .dim)) ∧
    ∀ (p q : Nat) (b : Mat K p q), p ≠ n → s.solveMatrix b = .error (.pan .dim) := by
  cases k with
  | lu thr =>
    cases hd : LU.new thr κ.ninf a with
    | error e => simp [Solver.make, hd, bind, Except.bind] at hs
    | ok d =>
      simp only [Solver.make, hd, ok_bind] at hs
      obtain rfl : Solver.lu d = s := by simpa [pure, Except.pure] using hs
      exact ⟨fun b => (C29_refuse d).1 (.arr b), (C29_refuse d).2.1⟩
  | chol rel pos =>
    cases hd : Chol.new rel pos a with
    | error e => simp [Solver.make, hd, bind, Except.bind] at hs
    | ok d =>
      simp only [Solver.make, hd, ok_bind] at hs
      obtain rfl : Solver.chol d = s := by simpa [pure, Except.pure] using hs
      exact ⟨fun b => (C32_refuse d).1 (.arr b), (C32_refuse d).2⟩
  | qr thr =>
    cases hd : QR.new a with
    | error e => simp [Solver.make, hd, bind, Except.bind] at hs
    | ok d =>
      simp only [Solver.make, hd, ok_bind] at hs
      obtain rfl : Solver.qr thr d = s := by simpa [pure, Except.pure] using hs
      exact ⟨fun b => (C34_refuse hn hn d thr).1 (.arr b), (C34_refuse hn hn d thr).2.1⟩
  | rrqr thr =>
    cases hd : RRQR.new a with
    | error e => simp [Solver.make, hd, bind, Except.bind] at hs
    | ok d =>
      simp only [Solver.make, hd, ok_bind] at hs
      obtain rfl : Solver.rrqr thr d = s := by simpa [pure, Except.pure] using hs
      exact ⟨fun b => (C60_refuse ha hn hn hd thr).1 (.arr b), (C60_refuse ha hn hn hd thr).2.1⟩
  | eig =>
    obtain ⟨d, rfl⟩ : ∃ d, s = .eig κ.eig.epsEd d := by
      unfold Solver.make at hs
      dsimp only at hs
      rw [Mat.colDim_ok hn, ok_bind] at hs
      cases ho : Eig.new κ.schur κ.eig (κ.symTol n n) fuel a with
      | error e => rw [ho] at hs; cases hs
      | ok o =>
        rw [ho, ok_bind] at hs
        cases o with
        | none => cases hs
        | some d =>
          have hs' : (d.solver κ.eig.epsEd >>= fun _ => (pure (some (Solver.eig κ.eig.epsEd d)) :
            Res (Option (Solver K n n)))) = .ok (some s) := hs
          cases hsv : d.solver κ.eig.epsEd with
          | error e => rw [hsv] at hs'; cases hs'
          | ok u => rw [hsv] at hs'; exact ⟨d, (Option.some.inj (Except.ok.inj hs')).symm⟩
    exact ⟨fun b => (C65_refused κ.eig.epsEd d).1 (.arr b), (C65_refused κ.eig.epsEd d).2.1⟩
  | svd =>
    rcases C67_safe κ.svd fuel ha hn hn with e | ⟨d, U, V, σ, e, g1, -⟩
    · simp [Solver.make, e, bind, Except.bind, pure, Except.pure] at hs
    · obtain ⟨m, em, m1, -⟩ := Svd.pinv_exact g1 hn hn (by omega)
      obtain rfl : (Solver.svd d ⟨n, n, m⟩ : Solver K n n) = s := by
        simpa [Solver.make, e, em, bind, Except.bind, pure, Except.pure] using hs
      refine ⟨fun b hb => ?_, fun p q b hp => C10_refused m1 hn b (Ne.symm hp)⟩
      show m.operateVector (.arr b) = _
      rw [(C48_array m1 b).1]
      exact (C11_refused m1 hn b).1 hb

end exact

/-! ## A case that meets the hypotheses -/

/-- The constants of the code, in exact arithmetic. -/
noncomputable def Spec.solverReal : Solver.Lit ℝ :=
  ⟨-2 ^ 1024, 1 / 10 ^ 11, 1 / 10 ^ 15, 1 / 10 ^ 10, ⟨1 / 2 ^ 53, 3 / 4, -7 / 16, 241 / 250⟩,
    ⟨1 / 2 ^ 53, 1 / 10 ^ 12, 1 / 2, fun a b =>
      ((a.1 * b.1 + a.2 * b.2) / (b.1 * b.1 + b.2 * b.2), (a.2 * b.1 - a.1 * b.2) / (b.1 * b.1 + b.2 * b.2))⟩,
    fun r c => 10 * r * c / 2 ^ 53, svdReal⟩

theorem Spec.solverReal_ok : Consts solverReal where
  ninf := by norm_num [solverReal]
  eps := by norm_num [solverReal]
  epsEd := by norm_num [solverReal]
  hyp := svdReal_hypot
  tiny := by show (0 : ℝ) ≤ 1 / 2 ^ 966; positivity
  seps := by show (0 : ℝ) ≤ 1 / 2 ^ 52; positivity
  floor := Real.sqrt_nonneg _

/-- The matrix with rows `2 1` and `1 2`. -/
def Spec.solverCase {α : Type} [Flt α] (two : α) : Mat α 2 2 :=
  .arr ⟨⟨fun i j => if i = j then two else Flt.one⟩, fun _ => 0⟩

private theorem solverCase_mx : mx 2 2 (solverCase (2 : ℝ)).ent = !![2, 1; 1, 2] := by
  ext i j
  fin_cases i <;> fin_cases j <;> simp [mx, Mat.ent, solverCase]

/-- Cholesky with thresholds 0 and QR with the default threshold, on a matrix with rows `2 1` and `1 2`: both are made and
report it nonsingular, so they agree. -/
example : ∃ s s', Solver.make solverReal 0 (.chol 0 0) (solverCase 2) = .ok (some s) ∧
    Solver.make solverReal 0 Solver.qrDefault (solverCase 2) = .ok (some s') ∧
    ∀ b : List ℝ, b.length = 2 → ∃ x, s.solveVector (.arr b) = .ok x ∧ s'.solveVector (.arr b) = .ok x := by
  have ho : (solverCase (2 : ℝ)).own := trivial
  have hA := shows_ent (solverCase (2 : ℝ))
  obtain ⟨d, hd⟩ := (C31_iff ho (by omega) hA).1.2 ⟨by
      rw [solverCase_mx]; ext i j; fin_cases i <;> fin_cases j <;> simp, fun x hx => by
      rw [solverCase_mx]
      simp only [dotProduct, Matrix.mulVec, Fin.sum_univ_two, Matrix.of_apply, Matrix.cons_val', Matrix.cons_val_zero,
        Matrix.cons_val_one, Matrix.cons_val_fin_one]
      have : x 0 ≠ 0 ∨ x 1 ≠ 0 := by
        by_contra h
        push Not at h
        exact hx (by ext i; fin_cases i <;> simp [h.1, h.2])
      rcases this with h | h
      · have := pow_pos (abs_pos.2 h) 2
        rw [sq_abs] at this
        nlinarith [sq_nonneg (x 0 + x 1), sq_nonneg (x 1)]
      · have := pow_pos (abs_pos.2 h) 2
        rw [sq_abs] at this
        nlinarith [sq_nonneg (x 0 + x 1), sq_nonneg (x 0)]⟩
  obtain ⟨q, hq, -⟩ := QR.new_exact ho (by omega) (by omega) hA
  obtain ⟨bb, -, -, eb, -, -, -, hb⟩ := C34_isNonSingular ho (by omega) (by omega) hA hq 0
  have hbb : bb = true := (hb rfl).2 fun x hx j hj => by
    have h0 := hx 0 (by omega)
    have h1 := hx 1 (by omega)
    simp only [min_self, sum_range_succ, sum_range_zero, Mat.ent, solverCase, Exact.one_eq] at h0 h1
    norm_num at h0 h1
    obtain rfl | rfl : j = 0 ∨ j = 1 := by omega
    · linarith
    · linarith
  refine ⟨.chol d, .qr 0 q, by simp [Solver.make, hd, bind, Except.bind, pure, Except.pure], ?_, ?_⟩
  · simp [Solver.make, Solver.qrDefault, hq, bind, Except.bind, pure, Except.pure]
  · intro b hb
    obtain ⟨x, h1, h2, -⟩ := (C105_agree solverReal_ok 0 (by omega) ho (k := .chol 0 0) (k' := .qr 0) (le_refl (0 : ℝ))
      (le_refl (0 : ℝ)) (fun N => by simp [off2]) (fun N => rfl) (s := .chol d) (s' := .qr 0 q)
      (by simp [Solver.make, hd, bind, Except.bind, pure, Except.pure])
      (by simp [Solver.make, hq, bind, Except.bind, pure, Except.pure]) rfl (by
        show q.isNonSingular 0 = _
        rw [eb, hbb])).1 b hb
    exact ⟨x, h1, h2⟩

end Linear
