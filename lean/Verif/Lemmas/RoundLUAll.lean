import Verif.Lemmas.RoundLU
import Verif.Props.LU

/-!
# The growth of the entries in the LU decomposition

Partial pivoting keeps the multipliers at most 1, so a column step at most doubles the entries, up to
rounding.  A matrix whose entries leave room for this is decomposed without overflow.
-/

set_option linter.unusedSectionVars false

namespace Linear

open Spec Rnd
open Finset hiding val diag

variable {α : Type} [Flt α] [Rnd α] {n : Nat}

/-- How much the entries can grow in one step: 2, up to rounding. -/
noncomputable def Spec.growth (α : Type) [Flt α] [Rnd α] : ℝ := (1 + u α) * (2 + u α)

theorem two_le_growth : 2 ≤ growth α := by
  unfold growth
  nlinarith [u_nonneg (α := α)]

theorem growth_pow {i k : Nat} (h : i ≤ k) : growth α ^ i ≤ growth α ^ k :=
  pow_le_pow_right₀ (by linarith [two_le_growth (α := α)]) h

theorem growth_sum (k : Nat) : ∑ x ∈ range k, growth α ^ x ≤ growth α ^ k := by
  induction k with
  | zero => simp
  | succ k ih =>
    rw [sum_range_succ, pow_succ]
    have : 0 ≤ growth α ^ k := pow_nonneg (by linarith [two_le_growth (α := α)]) k
    nlinarith [two_le_growth (α := α)]

/-- The sums of the decomposition: finite, and bounded by the growth. -/
theorem lsub_growth {T M : ℝ} (hT : T = M + η α) {s : α} (hs : fin s) (hsM : |val s| ≤ M) {x y : Nat → α} :
    ∀ b : Nat, growth α ^ b * T ≤ big α →
      (∀ i, i < b → fin (x i) ∧ |val (x i)| ≤ 1 ∧ fin (y i) ∧ |val (y i)| + η α ≤ growth α ^ i * T) →
      fin (lsub 0 b (fun i => Flt.mul (x i) (y i)) s) ∧
      |val (lsub 0 b (fun i => Flt.mul (x i) (y i)) s)| + η α ≤ growth α ^ b * T
  | 0, _, _ => by
    rw [lsub_self le_rfl]
    refine ⟨hs, ?_⟩
    rw [pow_zero, one_mul, hT]
    linarith
  | b + 1, hb, h => by
    have hu := u_nonneg (α := α)
    have hη := η_nonneg (α := α)
    have hT0 : 0 ≤ T := by rw [hT]; linarith [abs_nonneg (val s)]
    have hg : growth α ^ b * T ≤ growth α ^ (b + 1) * T :=
      mul_le_mul_of_nonneg_right (growth_pow (by omega)) hT0
    obtain ⟨f1, h1⟩ := lsub_growth hT hs hsM b (hg.trans hb) fun i hi => h i (by omega)
    obtain ⟨a1, a2, a3, a4⟩ := h b (by omega)
    rw [lsub_succ (Nat.zero_le b)]
    generalize lsub 0 b (fun i => Flt.mul (x i) (y i)) s = z at *
    have hxy : |val (x b) * val (y b)| ≤ |val (y b)| := by
      rw [abs_mul]
      have := mul_le_mul_of_nonneg_right a2 (abs_nonneg (val (y b)))
      linarith
    have fm : fin (Flt.mul (x b) (y b)) := mul_ok a1 a3 (by linarith)
    have hm : |val (Flt.mul (x b) (y b))| ≤ (1 + u α) * |val (y b)| + η α := by
      have e1 := (mul_err fm).1
      have e2 := abs_add_le (val (Flt.mul (x b) (y b)) - val (x b) * val (y b)) (val (x b) * val (y b))
      rw [sub_add_cancel] at e2
      have e3 := mul_le_mul_of_nonneg_left hxy hu
      linarith
    have e1 : growth α ^ (b + 1) * T = (1 + u α) * ((2 + u α) * (growth α ^ b * T)) := by
      rw [pow_succ, growth]; ring
    have hG0 : 0 ≤ growth α ^ b * T := by linarith [abs_nonneg (val z)]
    generalize growth α ^ b * T = G at *
    have h2 : |val z - val (Flt.mul (x b) (y b))| ≤ (2 + u α) * G - (1 + u α) * η α := by
      refine (abs_sub _ _).trans ?_
      nlinarith
    have fs : fin (Flt.sub z (Flt.mul (x b) (y b))) := by
      refine sub_ok f1 fm (h2.trans (le_trans ?_ hb))
      rw [e1]
      have : 0 ≤ u α * ((2 + u α) * G) := by positivity
      have : 0 ≤ (1 + u α) * η α := by positivity
      linarith
    refine ⟨fs, ?_⟩
    have e2 := (sub_err fs).1
    have e3 := abs_add_le (val (Flt.sub z (Flt.mul (x b) (y b))) - (val z - val (Flt.mul (x b) (y b))))
      (val z - val (Flt.mul (x b) (y b)))
    rw [sub_add_cancel] at e3
    rw [e1]
    have e4 : |val (Flt.sub z (Flt.mul (x b) (y b)))| ≤ (1 + u α) * |val z - val (Flt.mul (x b) (y b))| := by
      linarith
    have e5 := mul_le_mul_of_nonneg_left h2 (by positivity : 0 ≤ 1 + u α)
    have e6 : η α ≤ (1 + u α) * ((1 + u α) * η α) := by nlinarith [mul_nonneg hu hη, mul_nonneg hu (mul_nonneg hu hη)]
    linarith

/-- What is known of the columns before `k`. -/
def LU.Fine (n k : Nat) (T : ℝ) (f : Nat → Nat → α) : Prop :=
  ∀ i j, i < n → j < n → j < k → fin (f i j) ∧ (i ≤ j → |val (f i j)| + η α ≤ growth α ^ i * T) ∧
    (j < i → |val (f i j)| ≤ 1)

/-- The sums of column `k`. -/
theorem LU.RMid.fine {A f : Nat → Nat → α} {p : Nat → Nat} {k : Nat} {T M : ℝ} (hk : k < n)
    (h : LU.RMid n A p k f) (hF : LU.Fine n k T f) (hT : T = M + η α)
    (hA : ∀ i, i < n → fin (A (p i) k) ∧ |val (A (p i) k)| ≤ M) (hb : growth α ^ n * T ≤ big α) :
    ∀ i, i < n → fin (f i k) ∧ |val (f i k)| + η α ≤ growth α ^ (min i k) * T := by
  intro i
  induction i using Nat.strong_induction_on with
  | _ i ih =>
    intro hi
    obtain ⟨a1, a2⟩ := hA i hi
    have hT0 : 0 ≤ T := by rw [hT]; linarith [abs_nonneg (val (A (p i) k)), η_nonneg (α := α)]
    rw [h.col i hi]
    refine lsub_growth hT a1 a2 (min i k)
      ((mul_le_mul_of_nonneg_right (growth_pow (by omega)) hT0).trans hb) fun x hx => ?_
    obtain ⟨b1, -, b3⟩ := hF i x hi (by omega) (by omega)
    obtain ⟨c1, c2⟩ := ih x (by omega) (by omega)
    rw [min_eq_left (by omega)] at c2
    exact ⟨b1, b3 (by omega), c1, c2⟩

/-- The state of the decomposition before column `k`. -/
def LU.FAt (A : Nat → Nat → α) (T : ℝ) (thr : α) (k : Nat) (s : LU α n n) : Prop :=
  s.singular = false ∧ (∃ σ, s.Piv σ) ∧ LU.RInv n A s.pivot.f k s.lu.f ∧ LU.Fine n k T s.lu.f ∧
    ∀ j, j < n → j < k → val thr ≤ |val (s.lu.f j j)|

/-- How the decomposition stops: in a column whose remainders are all below the threshold. -/
def LU.Stopped (A : Nat → Nat → α) (T : ℝ) (thr : α) (s : LU α n n) : Prop :=
  s.singular = true ∧ ∃ (k : Nat) (f : Nat → Nat → α) (p : Nat → Nat) (σ : Equiv.Perm (Fin n)), k < n ∧
    (∀ i : Fin n, p i = σ i) ∧ LU.RMid n A p k f ∧ LU.Fine n k T f ∧
    (∀ i, i < n → fin (f i k) ∧ |val (f i k)| + η α ≤ growth α ^ (min i k) * T) ∧
    ∀ i, k ≤ i → i < n → |val (f i k)| < val thr

theorem LU.step_fine {A : Nat → Nat → α} {k : Nat} {s : LU α n n} {thr ninf : α} {T M : ℝ}
    (hn : ∀ x, fin x → Flt.lt ninf (Flt.abs x) = true) (ht : fin thr) (ht0 : 0 < val thr)
    (hT : T = M + η α) (hA : ∀ i j, i < n → j < n → fin (A i j) ∧ |val (A i j)| ≤ M)
    (hb : growth α ^ n * T ≤ big α) (hk : k < n) (h : LU.FAt A T thr k s) :
    Wp (LU.step thr ninf k s) (Sum.elim (LU.FAt A T thr (k + 1)) (LU.Stopped A T thr))
      (fun _ => False) := by
  obtain ⟨hs, ⟨σ, hσ⟩, hI, hF, hD⟩ := h
  unfold LU.step
  obtain ⟨t, et, u1, u2⟩ := LU.upper_ok hk s.lu
  obtain ⟨t', p, el, hJ, l1, l2⟩ := LU.lower_ok
    (LU.RBest (fun row => lsub 0 k (fun i => Flt.mul (t.f row i) (t.f i k)) (t.f row k)) ninf n k)
    (ninf := ninf) hk t ⟨le_rfl, hk, fun _ => .inl ⟨rfl, rfl⟩⟩
    (fun row p h1 h2 h3 => LU.RBest.step hn h1 h2 h3)
  obtain ⟨b1, b2, b3⟩ := hJ
  beta_reduce at b3
  rw [et, ok_bind, el, ok_bind]
  dsimp only
  rw [wp_bind, wp_tget b2 hk]
  have hmid0 := hI.mid hk u1 u2 l1 l2
  have hlo : ∀ x y, y < k → t'.f x y = s.lu.f x y := fun x y hy => by
    rw [l1 x y (by omega), u1 x y (by omega)]
  have hF' : LU.Fine n k T t'.f := fun i j hi hj hjk => by
    rw [hlo i j hjk]; exact hF i j hi hj hjk
  have hcol := hmid0.fine hk hF' hT (fun i hi => by
    rw [hσ.1 ⟨i, hi⟩]
    exact hA _ k (σ ⟨i, hi⟩).2 hk) hb
  have b4 := ((b3 fun x h1 h2 => by rw [← l2 x h1 h2]; exact (hcol x h2).1).resolve_left (by omega)).2
  have b5 : ∀ i, k ≤ i → i < n → |val (t'.f i k)| ≤ |val (t'.f p.1 k)| := fun i h1 h2 => by
    have := b4 i h1 h2
    rwa [← l2 i h1 h2, ← l2 _ b1 b2] at this
  have fp := (hcol p.1 b2).1
  by_cases hlt : Flt.lt (Flt.abs (t'.f p.1 k)) thr = true
  · rw [if_pos hlt]
    rw [lt_iff (abs_fin.2 fp) ht, val_abs fp] at hlt
    exact ⟨rfl, k, t'.f, s.pivot.f, σ, hk, hσ.1, hmid0, hF', hcol,
      fun i h1 h2 => (b5 i h1 h2).trans_lt hlt⟩
  rw [if_neg hlt]
  rw [lt_iff (abs_fin.2 fp) ht, val_abs fp, not_lt] at hlt
  obtain ⟨s', es, p1, p2, p3, p4⟩ := LU.doPivot_ok b2 hk { s with lu := t' }
  obtain ⟨t'', ed, d1, d2⟩ := LU.divide_ok hk s'.lu
  rw [es, ok_bind, ed]
  have hkk : s'.lu.f k k = t'.f p.1 k := by rw [p1 k k hk]; simp
  have hmid := hmid0.swap (f' := s'.lu.f) (p' := s'.pivot.f) hk b1 b2 p1 p2
  have hi : ∀ j i, j ≤ k → j ≤ i → i < n →
      j ≤ Equiv.swap p.1 k i ∧ Equiv.swap p.1 k i < n ∧ (j < k → j < i → j < Equiv.swap p.1 k i) := by
    intro j i hj h1 h2
    rw [Equiv.swap_apply_def]
    split
    · omega
    · split <;> omega
  have hup : ∀ i, i < k → Equiv.swap p.1 k i = i := fun i h =>
    Equiv.swap_apply_of_ne_of_ne (by omega) (by omega)
  refine ⟨p4.trans hs, ⟨_, hσ.swap (s' := { s' with lu := t'' }) b2 hk p2 p3⟩,
    hmid.divide hk d1 d2, fun i j hin hjn hj => ?_, fun j hjn hj => ?_⟩
  rotate_left
  · dsimp only
    by_cases e : j = k
    · rw [e, d2 k k (by omega), hkk]
      exact hlt
    · rw [d2 j j (by omega), p1 j j (by omega), hup j (by omega), hlo j j (by omega)]
      exact hD j hjn (by omega)
  dsimp only
  by_cases e : j = k
  · subst e
    by_cases e2 : j < i
    · rw [d1 i e2 hin, hkk]
      obtain ⟨a1, a2, -⟩ := hi j i le_rfl e2.le hin
      have hne : val (t'.f p.1 j) ≠ 0 := fun h => by
        rw [h, abs_zero] at hlt
        linarith
      have hle : |val (s'.lu.f i j)| ≤ |val (t'.f p.1 j)| := by
        rw [p1 i j hk]; exact b5 _ a1 a2
      have f1 : fin (s'.lu.f i j) := by rw [p1 i j hk]; exact (hcol _ a2).1
      have f2 : fin (Flt.div (s'.lu.f i j) (t'.f p.1 j)) := by
        refine div_ok f1 fp hne ?_
        rw [abs_div]
        exact (div_le_one_of_le₀ hle (abs_nonneg _)).trans (by linarith [four_le_big (α := α)])
      exact ⟨f2, fun h => by omega, fun _ => Rnd.div_le_one f2 fp hle⟩
    · rw [d2 i j (by omega), p1 i j hk]
      by_cases e3 : i = j
      · subst e3
        rw [Equiv.swap_apply_right]
        obtain ⟨c1, c2⟩ := hcol p.1 b2
        rw [min_eq_right b1] at c2
        exact ⟨c1, fun _ => c2, fun h => by omega⟩
      · rw [hup i (by omega)]
        obtain ⟨c1, c2⟩ := hcol i hin
        rw [min_eq_left (by omega)] at c2
        exact ⟨c1, fun _ => c2, fun h => by omega⟩
  · have e2 : ∀ x, t''.f x j = s.lu.f (Equiv.swap p.1 k x) j := fun x => by
      rw [d2 x j (by omega), p1 x j (by omega), hlo _ j (by omega)]
    rw [e2 i]
    by_cases e3 : i ≤ j
    · rw [hup i (by omega)]
      exact hF i j hin hjn (by omega)
    · obtain ⟨a1, a2, a3⟩ := hi j i (by omega) (by omega) hin
      obtain ⟨c1, c2, c3⟩ := hF _ j a2 hjn (by omega)
      exact ⟨c1, fun h => by omega, fun _ => c3 (a3 (by omega) (by omega))⟩

theorem LU.new_fine {thr ninf : α} (hinf : ∀ x, fin x → Flt.lt ninf (Flt.abs x) = true)
    (ht : fin thr) (ht0 : 0 < val thr) {m : Mat α n n} (hm : m.own) (hn : 0 < n) {A : Nat → Nat → α}
    (hA : Shows m.at n n A) {M : ℝ} (hM : ∀ i j, i < n → j < n → fin (A i j) ∧ |val (A i j)| ≤ M)
    (hb : growth α ^ n * (M + η α) ≤ big α) :
    ∃ d, LU.new thr ninf m = .ok d ∧ (LU.FAt A (M + η α) thr n d ∨ LU.Stopped A (M + η α) thr d) := by
  refine LU.new_wp hm hn hA (LU.FAt A (M + η α) thr) _ ?_
    fun k s hk h => LU.step_fine hinf ht ht0 rfl hM hb hk h
  intro s h1 h2 h3 h4
  refine ⟨h1, ⟨1, h2⟩, ⟨fun i j _ _ h => by omega, fun i j _ _ h => by omega, fun i j hi hj _ => ?_⟩,
    fun i j _ _ h => by omega, fun j _ h => by omega⟩
  rw [h3 i hi]; exact h4 i j hi hj

/-! ## Near a singular matrix -/

/-- What rounding amounts to in one entry of a matrix of magnitude at most `T - η`. -/
noncomputable def Spec.luRound (α : Type) [Flt α] [Rnd α] (n : Nat) (T : ℝ) : ℝ :=
  gam α n * (growth α ^ n * T) + (1 + u α) ^ n * (n + growth α ^ n * T) * η α

theorem sum_growth {T : ℝ} (hT : 0 ≤ T) {m : Nat} {x y : Nat → ℝ} (hx : ∀ i, i < m → |x i| ≤ 1)
    (hy : ∀ i, i < m → |y i| ≤ growth α ^ i * T) :
    ∑ i ∈ Ico 0 m, |x i| * |y i| ≤ (∑ i ∈ range m, growth α ^ i) * T := by
  rw [← range_eq_Ico, sum_mul]
  refine sum_le_sum fun i hi => ?_
  have h1 := hx i (mem_range.1 hi)
  have h2 := hy i (mem_range.1 hi)
  calc |x i| * |y i| ≤ 1 * |y i| := mul_le_mul_of_nonneg_right h1 (abs_nonneg _)
    _ ≤ _ := by linarith

/-- The error of one sum. -/
theorem lsub_round {T : ℝ} (hT : 0 ≤ T) {m : Nat} (hm : m < n) {x y : Nat → α} {s : α}
    (hf : fin (lsub 0 m (fun i => Flt.mul (x i) (y i)) s))
    (hz : |val (lsub 0 m (fun i => Flt.mul (x i) (y i)) s)| ≤ growth α ^ m * T)
    (hx : ∀ i, i < m → |val (x i)| ≤ 1) (hy : ∀ i, i < m → |val (y i)| ≤ growth α ^ i * T) :
    |∑ i ∈ range m, val (x i) * val (y i) + val (lsub 0 m (fun i => Flt.mul (x i) (y i)) s) - val s| ≤
      luRound α n T := by
  obtain ⟨-, -, h⟩ := lsub_prods hf
  generalize lsub 0 m (fun i => Flt.mul (x i) (y i)) s = z at *
  rw [add_comm (∑ i ∈ range m, _) (val z), range_eq_Ico]
  refine h.trans ?_
  have hS := sum_growth (α := α) hT hx hy
  have hu := u_nonneg (α := α)
  have hη := η_nonneg (α := α)
  have hg0 : 0 ≤ gam α n := gam_nonneg n
  have hmn : (m : ℝ) ≤ n := by exact_mod_cast hm.le
  have hG : 0 ≤ growth α ^ n * T := mul_nonneg (pow_nonneg (by linarith [two_le_growth (α := α)]) _) hT
  have h1 : gam α (m - 0) * |val z| ≤ gam α n * (growth α ^ m * T) :=
    mul_le_mul (gam_mono (by omega)) hz (abs_nonneg _) hg0
  have h2 : gam α (m - 0 + 1) * ∑ i ∈ Ico 0 m, |val (x i)| * |val (y i)| ≤
      gam α n * ((∑ i ∈ range m, growth α ^ i) * T) :=
    mul_le_mul (gam_mono (by omega)) hS (sum_nonneg fun i _ => by positivity) hg0
  have h3 : ((m - 0 : ℕ) : ℝ) * (1 + u α) ^ (m - 0) * η α ≤ (1 + u α) ^ n * (n + growth α ^ n * T) * η α := by
    rw [Nat.sub_zero, mul_comm (m : ℝ)]
    refine mul_le_mul_of_nonneg_right (mul_le_mul (pow_le_pow_right₀ one_le_u hm.le) (by linarith)
      (by positivity) (by positivity)) hη
  have h4 : (growth α ^ m + ∑ i ∈ range m, growth α ^ i) * T ≤ growth α ^ n * T := by
    refine mul_le_mul_of_nonneg_right ?_ hT
    have := growth_sum (α := α) (m + 1)
    rw [sum_range_succ] at this
    have := growth_pow (α := α) (show m + 1 ≤ n by omega)
    linarith
  have h5 := mul_le_mul_of_nonneg_left h4 hg0
  unfold luRound
  linarith

/-- The error of one multiplier. -/
theorem lsub_div_round {T : ℝ} (hT : 0 ≤ T) {m : Nat} (hm : m < n) {x y : Nat → α} {s d : α} (hd : fin d)
    (hf : fin (Flt.div (lsub 0 m (fun i => Flt.mul (x i) (y i)) s) d))
    (hz : |val (Flt.div (lsub 0 m (fun i => Flt.mul (x i) (y i)) s) d)| ≤ 1) (hdT : |val d| ≤ growth α ^ m * T)
    (hx : ∀ i, i < m → |val (x i)| ≤ 1) (hy : ∀ i, i < m → |val (y i)| ≤ growth α ^ i * T) :
    |∑ i ∈ range m, val (x i) * val (y i) +
      val (Flt.div (lsub 0 m (fun i => Flt.mul (x i) (y i)) s) d) * val d - val s| ≤ luRound α n T := by
  obtain ⟨-, -, -, h⟩ := lsub_prods_div hd hf
  generalize Flt.div (lsub 0 m (fun i => Flt.mul (x i) (y i)) s) d = z at *
  rw [add_comm (∑ i ∈ range m, _), range_eq_Ico]
  refine h.trans ?_
  have hS := sum_growth (α := α) hT hx hy
  have hu := u_nonneg (α := α)
  have hη := η_nonneg (α := α)
  have hg0 : 0 ≤ gam α n := gam_nonneg n
  have hmn : (m : ℝ) ≤ n := by exact_mod_cast hm.le
  have hgm := growth_pow (α := α) hm.le
  have hG : 0 ≤ growth α ^ n * T := mul_nonneg (pow_nonneg (by linarith [two_le_growth (α := α)]) _) hT
  have h0 : |val z| * |val d| ≤ growth α ^ m * T := by
    calc |val z| * |val d| ≤ 1 * |val d| := mul_le_mul_of_nonneg_right hz (abs_nonneg _)
      _ ≤ _ := by linarith
  have h4 : (growth α ^ m + ∑ i ∈ range m, growth α ^ i) * T ≤ growth α ^ n * T := by
    refine mul_le_mul_of_nonneg_right ?_ hT
    have := growth_sum (α := α) (m + 1)
    rw [sum_range_succ] at this
    have := growth_pow (α := α) (show m + 1 ≤ n by omega)
    linarith
  have h1 : gam α (m - 0 + 1) * (|val z| * |val d| + ∑ i ∈ Ico 0 m, |val (x i)| * |val (y i)|) ≤
      gam α n * (growth α ^ n * T) := by
    refine mul_le_mul (gam_mono (by omega)) (by linarith) ?_ hg0
    exact add_nonneg (by positivity) (sum_nonneg fun i _ => by positivity)
  have h3 : (1 + u α) ^ (m - 0) * ((m - 0 : ℕ) + |val d|) * η α ≤
      (1 + u α) ^ n * (n + growth α ^ n * T) * η α := by
    rw [Nat.sub_zero]
    have := mul_le_mul_of_nonneg_right hgm hT
    exact mul_le_mul_of_nonneg_right (mul_le_mul (pow_le_pow_right₀ one_le_u hm.le) (by linarith)
      (by positivity) (by positivity)) hη
  unfold luRound
  linarith

/-- A matrix on which the decomposition stops is near a singular one. -/
theorem LU.Stopped.near {A : Nat → Nat → α} {T : ℝ} (hT : 0 ≤ T) {thr : α} (ht0 : 0 < val thr) {s : LU α n n}
    (h : LU.Stopped A T thr s) :
    ∃ (k : Fin n) (B : Matrix (Fin n) (Fin n) ℝ), B.det = 0 ∧
      ∀ i j : Fin n, |B i j - val (A i j)| ≤ luRound α n T + if j = k then val thr else 0 := by
  obtain ⟨-, k, f, p, σ, hk, hp, hM, hF, hc, hsm⟩ := h
  have hη := η_nonneg (α := α)
  have hR0 : 0 ≤ luRound α n T := by
    have := gam_nonneg (α := α) n
    have hG : 0 ≤ growth α ^ n * T := mul_nonneg (pow_nonneg (by linarith [two_le_growth (α := α)]) _) hT
    have := u_nonneg (α := α)
    unfold luRound
    positivity
  -- the matrix of which the computed numbers are the exact factors
  let A' : Nat → Nat → ℝ := fun r j =>
    if h : r < n then
      if j < k then ∑ x ∈ range (min (σ.symm ⟨r, h⟩ : Nat) j), val (f (σ.symm ⟨r, h⟩) x) * val (f x j) +
        if (σ.symm ⟨r, h⟩ : Nat) ≤ j then val (f (σ.symm ⟨r, h⟩) j)
        else val (f (σ.symm ⟨r, h⟩) j) * val (f j j)
      else if j = k then ∑ x ∈ range (min (σ.symm ⟨r, h⟩ : Nat) k), val (f (σ.symm ⟨r, h⟩) x) * val (f x k) +
        val (f (σ.symm ⟨r, h⟩) k)
      else val (A r j)
    else 0
  have hA' : ∀ i, (hi : i < n) → ∀ j, A' (p i) j =
      if j < k then ∑ x ∈ range (min i j), val (f i x) * val (f x j) +
        if i ≤ j then val (f i j) else val (f i j) * val (f j j)
      else if j = k then ∑ x ∈ range (min i k), val (f i x) * val (f x k) + val (f i k)
      else val (A (p i) j) := by
    intro i hi j
    have e : p i = σ ⟨i, hi⟩ := hp ⟨i, hi⟩
    dsimp only [A']
    rw [dif_pos (show p i < n by rw [e]; exact (σ ⟨i, hi⟩).2)]
    have e2 : σ.symm ⟨p i, (show p i < n by rw [e]; exact (σ ⟨i, hi⟩).2)⟩ = ⟨i, hi⟩ := by
      rw [Equiv.symm_apply_eq]
      exact Fin.ext e
    rw [e2]
  have herr : ∀ i, i < n → ∀ j, j < n → |A' (p i) j - val (A (p i) j)| ≤ luRound α n T := by
    intro i hi j hj
    rw [hA' i hi j]
    have hle : ∀ {a : α} {t : ℝ}, |val a| + η α ≤ t → |val a| ≤ t := fun h => by linarith
    by_cases e1 : j < k
    · rw [if_pos e1]
      by_cases e2 : i ≤ j
      · rw [if_pos e2, min_eq_left e2]
        obtain ⟨a1, a2, -⟩ := hF i j hi hj e1
        have a3 := hle (a2 e2)
        rw [hM.up i j hi hj e1 e2] at a1 a3 ⊢
        refine lsub_round hT hi a1 a3 (fun x hx => ?_) fun x hx => ?_
        · exact (hF i x hi (by omega) (by omega)).2.2 hx
        · exact hle ((hF x j (by omega) hj e1).2.1 (by omega))
      · rw [if_neg e2, min_eq_right (by omega)]
        obtain ⟨a1, -, a3⟩ := hF i j hi hj e1
        replace a3 := a3 (by omega)
        obtain ⟨c1, c2, -⟩ := hF j j hj hj e1
        rw [hM.lo i j hi hj e1 (by omega)] at a1 a3 ⊢
        refine lsub_div_round hT hj c1 a1 a3 (hle (c2 le_rfl)) (fun x hx => ?_) fun x hx => ?_
        · exact (hF i x hi (by omega) (by omega)).2.2 (by omega)
        · exact hle ((hF x j (by omega) hj e1).2.1 (by omega))
    · rw [if_neg e1]
      by_cases e2 : j = k
      · subst e2
        rw [if_pos rfl]
        obtain ⟨a1, a3⟩ := hc i hi
        replace a3 := hle a3
        rw [hM.col i hi] at a1 a3 ⊢
        refine lsub_round hT (by omega) a1 a3 (fun x hx => ?_) fun x hx => ?_
        · exact (hF i x hi (by omega) (by omega)).2.2 (by omega)
        · have := hle (hc x (by omega)).2
          rwa [min_eq_left (by omega)] at this
      · rw [if_neg e2, sub_self, abs_zero]
        exact hR0
  have hmid : LU.Mid n A' p k (fun i j => if j ≤ k then val (f i j) else A' (p i) j) := by
    constructor
    · intro i j hi hj hjk
      rw [hA' i hi j, if_pos hjk]
      simp only [if_pos (show j ≤ k by omega)]
      congr 1
      refine sum_congr rfl fun x hx => ?_
      rw [if_pos (by have := mem_range.1 hx; omega)]
    · intro i hi
      rw [hA' i hi k, if_neg (lt_irrefl k), if_pos rfl]
      simp only [if_pos le_rfl]
      congr 1
      refine sum_congr rfl fun x hx => ?_
      rw [if_pos (by have := mem_range.1 hx; omega)]
    · intro i j hi hj hjk
      exact if_neg (by omega)
    · intro j hj hjk
      rw [if_pos (by omega)]
      by_cases hj1 : j + 1 < n
      · have := (hF (j + 1) j hj1 hj hjk).1
        rw [hM.lo (j + 1) j hj1 hj hjk (by omega)] at this
        exact div_ne this (hF j j hj hj hjk).1
      · omega
    · intro i j hi hj hji
      rw [if_pos (by omega)]
      exact (hF i j hi (by omega) hj).2.2 hji
  obtain ⟨B, hB, h1, h2⟩ := hmid.near hk ht0 (fun i h1 h2 => by
    rw [if_pos le_rfl]
    exact hsm i h1 h2) hp
  refine ⟨⟨k, hk⟩, B, hB, fun i j => ?_⟩
  have e3 : p (σ.symm i) = i := by rw [hp]; simp
  have h3 := herr (σ.symm i) (σ.symm i).2 j j.2
  rw [e3] at h3
  have e4 : B i j - val (A i j) = (B i j - A' i j) + (A' i j - val (A i j)) := by ring
  rw [e4]
  refine (abs_add_le _ _).trans ?_
  by_cases e : j = ⟨k, hk⟩
  · rw [if_pos e, e]
    have := h2 i
    rw [e] at h3
    dsimp only at h3
    linarith
  · rw [if_neg e, h1 i j (fun h => e (Fin.ext h)), sub_self, abs_zero]
    linarith

end Linear
