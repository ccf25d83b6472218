import Verif.Lemmas.RoundRectChol
import Verif.Props.RoundQR
import Verif.Lemmas.B64Eval

/-!
# C114: the rectangular Cholesky decomposition in rounded arithmetic

`u` is the unit round-off, `η` half of the smallest positive number and `gam n = (1 + u)ⁿ - 1`, about `n u`.  The
matrix is symmetric bit by bit; the constructor does not check that.
-/

set_option linter.unusedSectionVars false

namespace Linear

open Spec Rnd
open Finset hiding val diag

variable {α : Type} [Flt α] [Rnd α] {n : Nat}

/-- **C114.** The constructor answers a root whose entries and rank come from the recurrence, or it refuses the
matrix: because no diagonal element is above the threshold, or because what is left of the diagonal after some columns
has no element above the threshold and one below its negative. -/
theorem C114_outcome {small : α} {m : Mat α n n} (hm : m.own) (hn : 0 < n) {A : Nat → Nat → α} (hA : Shows m.at n n A)
    (hsym : ∀ i j, i < n → j < n → A i j = A j i) :
    (∃ (d : RectChol α n) (B : Nat → Nat → α) (p : Nat → Nat) (C : Nat → Nat → Nat → α),
      RectChol.new small m = .ok d ∧ 0 < d.rank ∧ d.rank ≤ n ∧ d.root.own ∧ Shows d.root.at n d.rank B ∧
      RectRec n d.rank small A p (fun i t => B (p i) t) C ∧ (d.rank < n → RectEnd n d.rank small p C)) ∨
    (RectChol.new small m = .error (.err .small) ∧
      ∃ (k : Nat) (p : Nat → Nat) (b : Nat → Nat → α) (C : Nat → Nat → Nat → α),
        k < n ∧ RectRec n k small A p b C ∧ Flt.le (C k (p k) (p k)) small = true ∧
        (k = 0 ∨ ∃ i, k ≤ i ∧ i < n ∧ Flt.lt (C k (p i) (p i)) (Flt.neg small) = true)) := by
  have h := RectChol.new_rec (small := small) hm hn hA hsym
  cases hd : RectChol.new small m with
  | ok d =>
    obtain ⟨B, p, C, h1⟩ := h.of_ok hd
    exact .inl ⟨d, B, p, C, rfl, h1⟩
  | error e =>
    obtain ⟨rfl, h1⟩ := h.of_error hd
    exact .inr ⟨rfl, h1⟩

theorem RectChol.ok_rec {small : α} {m : Mat α n n} (hm : m.own) (hn : 0 < n) {A : Nat → Nat → α}
    (hA : Shows m.at n n A) (hsym : ∀ i j, i < n → j < n → A i j = A j i) {d : RectChol α n}
    (hd : RectChol.new small m = .ok d) {B : Nat → Nat → α} (hB : Shows d.root.at n d.rank B) :
    0 < d.rank ∧ d.rank ≤ n ∧ ∃ (p : Nat → Nat) (C : Nat → Nat → Nat → α),
      RectRec n d.rank small A p (fun i t => B (p i) t) C ∧ (d.rank < n → RectEnd n d.rank small p C) := by
  obtain ⟨B', p, C, h1, h2, -, h3, h4, h5⟩ := (RectChol.new_rec (small := small) hm hn hA hsym).of_ok hd
  exact ⟨h1, h2, p, C, h4.congr h2 fun i t hi ht => hB.unique h3 (h4.lt i hi) ht, h5⟩

/-- The bounds of C114 on `B Bᵀ - A`, but for the diagonal elements of the rows left over. -/
structure Spec.RectNear (n k : Nat) (A B : Nat → Nat → α) (p : Nat → Nat) : Prop where
  lt : ∀ i, i < n → p i < n
  inj : ∀ i j, i < n → j < n → p i = p j → i = j
  pivot : ∀ i, i < k → 0 < val (B (p i) i)
  zero : ∀ i t, i < t → t < k → val (B (p i) t) = 0
  off : ∀ i j, i < k → i < j → j < n → fin (A (p i) (p j)) ∧ A (p j) (p i) = A (p i) (p j) ∧
    |∑ t ∈ range k, val (B (p i) t) * val (B (p j) t) - val (A (p i) (p j))| ≤
      gam α (n + 1) * ∑ t ∈ range k, |val (B (p i) t)| * |val (B (p j) t)| +
      (1 + u α) ^ n * (n + |val (B (p i) i)|) * η α
  diag : ∀ i, i < k → fin (A (p i) (p i)) ∧
    |∑ t ∈ range k, val (B (p i) t) * val (B (p i) t) - val (A (p i) (p i))| ≤
      gam α (n + 19) * ∑ t ∈ range k, val (B (p i) t) * val (B (p i) t) +
      (1 + u α) ^ (n + 24) * (∑ t ∈ range k, (3 + 2 * |val (B (p i) t)| + 1 / val (B (p t) t) ^ 2)) * η α

theorem Spec.RectRec.near {k : Nat} {small : α} {A B : Nat → Nat → α} {p : Nat → Nat} {C : Nat → Nat → Nat → α}
    (h : RectRec n k small A p (fun i t => B (p i) t) C) (hkn : k ≤ n) (hu8 : u α ≤ 1 / 8)
    (hf : ∀ x t, x < n → t < k → fin (B x t)) (hs : fin small) (hs0 : 0 ≤ val small)
    (hsym : ∀ i j, i < n → j < n → A i j = A j i) : RectNear n k A B p := by
  have hf' : ∀ i t, i < n → t < k → fin ((fun i t => B (p i) t) i t) := fun i t hi ht => hf _ _ (h.lt i hi) ht
  refine ⟨h.lt, h.inj, fun i hi => (h.pos hs hs0 hi (hf' i i (by omega) hi)).2.2, fun i t h1 h2 => h.row_zero h2 h1,
    fun i j h1 h2 h3 => ?_, fun i hi => ?_⟩
  · have e := hsym (p j) (p i) (h.lt j h3) (h.lt i (by omega))
    have h4 := h.err_off hf' h1 h2 h3
    rw [e] at h4
    exact ⟨h4.1, e, h4.2⟩
  · have h4 := h.err_diag hu8 hkn hf' hs hs0 hi
    refine ⟨h4.1, h4.2.trans_eq ?_⟩
    unfold rectTiny
    ring

/-- **C114.** When the root `B` is finite and the threshold is not negative: in the order `p` in which the rows are
taken `B` is lower trapezoidal with a positive diagonal; `B Bᵀ` differs from `A` in the rows and columns of the
pivots by at most `gam (n + 19) |B||B|ᵀ` plus terms for underflow; and on the diagonal of the other rows by at most the
threshold and the same terms, provided that what is left there is finite.  Outside of the diagonal of the other rows
nothing is known, see `C36_false_indefinite`. -/
theorem C114_backward {small : α} {m : Mat α n n} (hm : m.own) (hn : 0 < n) {A : Nat → Nat → α}
    (hA : Shows m.at n n A) (hsym : ∀ i j, i < n → j < n → A i j = A j i) (hu8 : u α ≤ 1 / 8) {d : RectChol α n}
    (hd : RectChol.new small m = .ok d) {B : Nat → Nat → α} (hB : Shows d.root.at n d.rank B)
    (hf : ∀ x t, x < n → t < d.rank → fin (B x t)) (hs : fin small) (hs0 : 0 ≤ val small) :
    0 < d.rank ∧ d.rank ≤ n ∧ ∃ (p : Nat → Nat) (C : Nat → Nat → Nat → α),
      RectRec n d.rank small A p (fun i t => B (p i) t) C ∧ RectNear n d.rank A B p ∧
      ((∀ i, d.rank ≤ i → i < n → fin (C d.rank (p i) (p i))) → ∀ i, d.rank ≤ i → i < n →
        fin (A (p i) (p i)) ∧
        |∑ t ∈ range d.rank, val (B (p i) t) * val (B (p i) t) - val (A (p i) (p i))| ≤
          (1 + u α) ^ n * val small + gam α (n + 19) * ∑ t ∈ range d.rank, val (B (p i) t) * val (B (p i) t) +
          (1 + u α) ^ (n + 24) * (∑ t ∈ range d.rank, (3 + 2 * |val (B (p i) t)| + 1 / val (B (p t) t) ^ 2)) * η α) := by
  obtain ⟨h1, h2, p, C, h3, h4⟩ := RectChol.ok_rec hm hn hA hsym hd hB
  refine ⟨h1, h2, p, C, h3, h3.near h2 hu8 hf hs hs0 hsym, fun hc i hi hin => ?_⟩
  have h5 := h3.err_rest hu8 h2 (fun i t hi ht => hf _ _ (h3.lt i hi) ht) hs hs0 (h4 (by omega)) hc hi hin
  refine ⟨h5.1, h5.2.trans_eq ?_⟩
  unfold rectTiny
  ring

/-! ## binary64 -/

theorem B64.Num.le_max {x : ℝ} (h : B64.Num x) : |x| ≤ 2 ^ 1024 - 2 ^ 971 := by
  obtain ⟨⟨k, e, hk, -, rfl⟩, hx⟩ := h
  have hk' : |(k : ℝ)| ≤ 2 ^ 53 := by exact_mod_cast hk
  have he0 : (0 : ℝ) < 2 ^ e := zpow_pos (by norm_num) _
  rw [abs_mul, abs_of_pos he0] at hx ⊢
  have e1 : (2 : ℝ) ^ 1024 = 2 ^ 53 * 2 ^ 971 := by rw [← pow_add]
  rw [e1] at hx ⊢
  have hw : (0 : ℝ) < 2 ^ 971 := by positivity
  by_cases he : e ≤ 970
  · have h1 : (2 : ℝ) ^ e ≤ 2 ^ 971 / 2 := by
      calc (2 : ℝ) ^ e ≤ 2 ^ (970 : ℤ) := zpow_le_zpow_right₀ (by norm_num) he
        _ = _ := by rw [eq_div_iff (by norm_num), ← zpow_natCast (2 : ℝ) 971, ← zpow_add_one₀ (by norm_num)]; norm_num
    clear e1 hx
    generalize (2 : ℝ) ^ 971 = w at *
    generalize (2 : ℝ) ^ e = v at *
    have : |(k : ℝ)| * v ≤ 2 ^ 53 * (w / 2) := by gcongr
    have h2 : (2 : ℝ) ^ 53 = 9007199254740992 := by norm_num
    rw [h2] at this ⊢
    linarith only [this, hw]
  · obtain ⟨j, rfl⟩ : ∃ j : ℕ, e = 971 + j := ⟨(e - 971).toNat, by omega⟩
    rw [zpow_add₀ (by norm_num), show ((2 : ℝ) ^ (971 : ℤ)) = 2 ^ 971 from zpow_natCast (2 : ℝ) 971, zpow_natCast] at hx ⊢
    generalize (2 : ℝ) ^ 971 = w at *
    have h2 : |(k : ℝ)| * 2 ^ j < 2 ^ 53 := by
      have : (|(k : ℝ)| * 2 ^ j) * w < 2 ^ 53 * w := by linarith
      exact lt_of_mul_lt_mul_right this hw.le
    have h3 : |k| * 2 ^ j < 2 ^ 53 := by exact_mod_cast h2
    have h4 : |k| * 2 ^ j ≤ 2 ^ 53 - 1 := by omega
    have h5 : |(k : ℝ)| * 2 ^ j ≤ 2 ^ 53 - 1 := by exact_mod_cast h4
    calc |(k : ℝ)| * (w * 2 ^ j) = |(k : ℝ)| * 2 ^ j * w := by ring
      _ ≤ (2 ^ 53 - 1) * w := by gcongr
      _ = _ := by ring

/-- Something that is subtracted can only overflow downwards. -/
theorem B64.rnd_down {x y : ℝ} (hx : B64.Num x) (h : y ≤ x) : fin (B64.rnd y) ∨ B64.rnd y = B64.inf true := by
  by_cases hy : y < 0
  · unfold B64.rnd
    split_ifs
    · exact .inl trivial
    · right; simp [hy]
  · left
    rw [not_lt] at hy
    have h1 := (B64.near_err y).1
    rw [abs_of_nonneg hy] at h1
    have h2 := (abs_le.1 h1).2
    have h3 := hx.le_max
    have h4 := le_abs_self x
    have h5 := B64.near_nonneg hy
    have : |B64.near y| < 2 ^ 1024 := by
      rw [abs_of_nonneg h5]
      have e1 : (1 / 2 : ℝ) ^ 53 * 2 ^ 1024 = 2 ^ 971 := by
        rw [one_div, inv_pow, show (1024 : ℕ) = 53 + 971 by norm_num, pow_add, inv_mul_cancel_left₀ (by positivity)]
      have e2 : (1 / 2 : ℝ) ^ 1075 < (1 / 2 : ℝ) ^ 53 * 2 ^ 971 := by
        refine lt_of_lt_of_le (pow_lt_pow_right_of_lt_one₀ (by norm_num) (by norm_num) (show 53 < 1075 by norm_num)) ?_
        exact le_mul_of_one_le_right (by positivity) (one_le_pow₀ (by norm_num))
      have h6 : y ≤ 2 ^ 1024 - 2 ^ 971 := h.trans (h4.trans h3)
      have h7 := mul_le_mul_of_nonneg_left h6 (show (0 : ℝ) ≤ (1 / 2) ^ 53 by positivity)
      rw [mul_sub, e1] at h7
      generalize (1 / 2 : ℝ) ^ 53 * 2 ^ 971 = a at *
      generalize (1 / 2 : ℝ) ^ 53 * y = b at *
      generalize (2 : ℝ) ^ 1024 = c at *
      generalize (2 : ℝ) ^ 971 = e at *
      generalize (1 / 2 : ℝ) ^ 1075 = f at *
      linarith
    unfold B64.rnd
    rw [dif_pos this]
    trivial

/-- Finite and not negative, or infinite. -/
def B64.Up (x : B64) : Prop := (fin x ∧ 0 ≤ val x) ∨ x = B64.inf false

/-- Finite or infinite downwards. -/
def B64.Dn (x : B64) : Prop := fin x ∨ x = B64.inf true

theorem B64.rnd_up {x : ℝ} (h : 0 ≤ x) : B64.Up (B64.rnd x) := by
  unfold B64.rnd B64.Up
  split_ifs with h1
  · exact .inl ⟨trivial, B64.near_nonneg h⟩
  · right; simp [not_lt.2 h]

theorem B64.Up.mul {x y : B64} (hx : B64.Up x) (hy : fin y) (h0 : 0 < val y) : B64.Up (Flt.mul x y) := by
  rcases y with ⟨y, hy'⟩ | _ | _ <;> [skip; exact hy.elim; exact hy.elim]
  change 0 < y at h0
  rcases hx with ⟨f, h⟩ | rfl
  · rcases x with ⟨x, hx⟩ | _ | _ <;> [skip; exact f.elim; exact f.elim]
    change 0 ≤ x at h
    exact B64.rnd_up (mul_nonneg h h0.le)
  · right
    show (if y = 0 then B64.nan else B64.inf (false ^^ decide (y < 0))) = _
    rw [if_neg h0.ne', decide_eq_false (not_lt.2 h0.le)]
    rfl

theorem B64.Dn.sub {x y : B64} (hx : B64.Dn x) (hy : B64.Up y) : B64.Dn (Flt.sub x y) := by
  rcases hx with f | rfl
  · rcases x with ⟨x, hx⟩ | _ | _ <;> [skip; exact f.elim; exact f.elim]
    rcases hy with ⟨f', h⟩ | rfl
    · rcases y with ⟨y, hy⟩ | _ | _ <;> [skip; exact f'.elim; exact f'.elim]
      change 0 ≤ y at h
      exact B64.rnd_down hx (show x - y ≤ x by linarith)
    · exact .inr rfl
  · rcases hy with ⟨f', h⟩ | rfl
    · rcases y with ⟨y, hy⟩ | _ | _ <;> [skip; exact f'.elim; exact f'.elim]
      exact .inr rfl
    · exact .inr rfl

/-- The reciprocal of a normal number is finite and positive. -/
theorem B64.recip_pos {x : B64} (hx : fin x) (h : (2 : ℝ) ^ (-1022 : ℤ) ≤ val x) :
    fin (Flt.div Flt.one x) ∧ 0 < val (Flt.div Flt.one x) := by
  have hp : (0 : ℝ) < 2 ^ (-1022 : ℤ) := zpow_pos (by norm_num) _
  have h0 : 0 < val x := hp.trans_le h
  have hf : fin (Flt.div Flt.one x) := by
    refine div_ok one_fin hx h0.ne' ?_
    rw [val_one, abs_of_pos (by positivity)]
    calc 1 / val x ≤ 1 / 2 ^ (-1022 : ℤ) := one_div_le_one_div_of_le hp h
      _ = 2 ^ 1022 := by rw [zpow_neg, one_div, inv_inv]; exact zpow_natCast (2 : ℝ) 1022
      _ ≤ 2 ^ 1023 := pow_le_pow_right₀ (by norm_num) (by norm_num)
  refine ⟨hf, ?_⟩
  by_contra hc
  have h1 := (abs_le.1 (div_err hf hx).1).1
  have h2 := fin_η hx
  rw [val_one, abs_of_pos (show 0 < 1 / val x by positivity)] at h1
  rw [abs_of_pos h0] at h2
  have hu8 : u B64 ≤ 1 / 8 := by
    show (1 / 2 : ℝ) ^ 53 ≤ 1 / 8
    norm_num
  generalize val (Flt.div Flt.one x) = q at *
  generalize val x = v at *
  generalize η B64 = e at *
  generalize u B64 = w at *
  have h3 : (1 / v) * v = 1 := one_div_mul_cancel h0.ne'
  have h4 : (1 / v) * (1 - w) ≤ e := by linarith
  have h5 := mul_le_mul_of_nonneg_right h4 h0.le
  have h6 : (1 / v) * (1 - w) * v = 1 - w := by rw [mul_right_comm, h3, one_mul]
  rw [h6] at h5
  linarith

/-- The diagonal elements of the rows left over are finite. -/
theorem Spec.RectRec.rest_fin {k : Nat} {small : B64} {A b : Nat → Nat → B64} {p : Nat → Nat} {C : Nat → Nat → Nat → B64}
    (h : RectRec n k small A p b C) (hf : ∀ i t, i < n → t < k → fin (b i t)) (hs : fin small)
    (hs0 : (2 : ℝ) ^ (-1022 : ℤ) ≤ val small) (he : RectEnd n k small p C) (hA : ∀ i, i < n → fin (A i i)) :
    ∀ i, k ≤ i → i < n → fin (C k (p i) (p i)) := by
  intro i hi hin
  have key : ∀ t, t ≤ k → B64.Dn (C t (p i) (p i)) := by
    intro t
    induction t with
    | zero =>
      intro _
      rw [h.start _ _ (h.lt i hin) (h.lt i hin)]
      exact .inl (hA _ (h.lt i hin))
    | succ t ih =>
      intro ht
      rw [h.next t i (by omega) (by omega) hin]
      refine (ih (by omega)).sub ?_
      have hb := hf i t hin (by omega)
      have hd := hf t t (by omega) (by omega)
      obtain ⟨f1, f2, -⟩ := h.pos hs ((zpow_pos (by norm_num) _).le.trans hs0) (show t < k by omega) hd
      rw [h.col t i (by omega) (by omega) hin] at hb
      obtain ⟨-, f3⟩ := mul_fin hb
      obtain ⟨g1, g2⟩ := B64.recip_pos f1 (hs0.trans f2.le)
      refine B64.Up.mul ?_ g1 g2
      generalize C t (p i) (p t) = x at *
      rcases x with ⟨x, hx⟩ | _ | _ <;> [skip; exact f3.elim; exact f3.elim]
      exact B64.rnd_up (mul_self_nonneg x)
  rcases key k le_rfl with h1 | h1
  · exact h1
  · refine absurd ?_ (he.ge i hi hin)
    rw [h1]
    rcases small with ⟨s, hs'⟩ | _ | _ <;> [rfl; exact hs.elim; exact hs.elim]

/-- **C114.** For binary64 and a threshold that is a normal number all diagonal elements are bounded. -/
theorem C114_binary64 {small : B64} {m : Mat B64 n n} (hm : m.own) (hn : 0 < n) {A : Nat → Nat → B64}
    (hA : Shows m.at n n A) (hsym : ∀ i j, i < n → j < n → A i j = A j i) {d : RectChol B64 n}
    (hd : RectChol.new small m = .ok d) {B : Nat → Nat → B64} (hB : Shows d.root.at n d.rank B)
    (hf : ∀ x t, x < n → t < d.rank → fin (B x t)) (hs : fin small) (hs0 : (2 : ℝ) ^ (-1022 : ℤ) ≤ val small)
    (hAf : ∀ i, i < n → fin (A i i)) :
    0 < d.rank ∧ d.rank ≤ n ∧ ∃ p : Nat → Nat, RectNear n d.rank A B p ∧
      ∀ i, d.rank ≤ i → i < n →
        |∑ t ∈ range d.rank, val (B (p i) t) * val (B (p i) t) - val (A (p i) (p i))| ≤
          (1 + (1 / 2) ^ 53) ^ n * val small +
          ((1 + (1 / 2) ^ 53) ^ (n + 19) - 1) * ∑ t ∈ range d.rank, val (B (p i) t) * val (B (p i) t) +
          (1 + (1 / 2) ^ 53) ^ (n + 24) *
            (∑ t ∈ range d.rank, (3 + 2 * |val (B (p i) t)| + 1 / val (B (p t) t) ^ 2)) * (1 / 2) ^ 1075 := by
  have hs1 : 0 ≤ val small := (zpow_pos (by norm_num) _).le.trans hs0
  have hu8 : u B64 ≤ 1 / 8 := by
    show (1 / 2 : ℝ) ^ 53 ≤ 1 / 8
    norm_num
  obtain ⟨h1, h2, p, C, h3, h4⟩ := RectChol.ok_rec hm hn hA hsym hd hB
  have hf' : ∀ i t, i < n → t < d.rank → fin ((fun i t => B (p i) t) i t) := fun i t hi ht => hf _ _ (h3.lt i hi) ht
  refine ⟨h1, h2, p, h3.near h2 hu8 hf hs hs1 hsym, fun i hi hin => ?_⟩
  have he := h4 (by omega)
  refine (h3.err_rest hu8 h2 hf' hs hs1 he (h3.rest_fin hf' hs hs0 he hAf) hi hin).2.trans_eq ?_
  show (1 + (1 / 2 : ℝ) ^ 53) ^ n * val small + ((1 + (1 / 2 : ℝ) ^ 53) ^ (n + 19) - 1) * _ +
    (1 + (1 / 2 : ℝ) ^ 53) ^ (n + 24) * (rectTiny _ _ i * (1 / 2 : ℝ) ^ 1075) = _
  unfold rectTiny
  rw [← mul_assoc]

/-! ## Matrices of order 2 -/

/-- The matrix of order 2 with `a` on the diagonal and `x` outside. -/
def RectChol.pair (a x : α) : Mat α 2 2 := .arr ⟨⟨fun i j => if i = j then a else x⟩, fun _ => 0⟩

theorem RectChol.pair_shows (a x : α) : Shows (RectChol.pair a x).at 2 2 (fun i j => if i = j then a else x) :=
  (Mat.at_shows _).congr fun _ _ _ _ => rfl

/-- What is left of the second diagonal element. -/
def Spec.pairLeft (a x : α) : α := Flt.sub a (Flt.mul (Flt.mul x x) (Flt.div Flt.one a))

theorem RectChol.pair_rec {small a x : α} {k : Nat} {p : Nat → Nat} {b : Nat → Nat → α} {C : Nat → Nat → Nat → α}
    (h : RectRec 2 k small (fun i j => if i = j then a else x) p b C) :
    C 0 (p 0) (p 0) = a ∧ (0 < k → b 0 0 = Flt.sqrt a ∧ b 1 0 = Flt.mul (Flt.div Flt.one (Flt.sqrt a)) x ∧
      C 1 (p 1) (p 1) = pairLeft a x) := by
  have h0 := h.lt 0 (by norm_num)
  have h1 := h.lt 1 (by norm_num)
  have hne : p 1 ≠ p 0 := fun e => absurd (h.inj 1 0 (by norm_num) (by norm_num) e) (by norm_num)
  have e0 : C 0 (p 0) (p 0) = a := by rw [h.start _ _ h0 h0]; exact if_pos rfl
  have e1 : C 0 (p 1) (p 1) = a := by rw [h.start _ _ h1 h1]; exact if_pos rfl
  have e2 : C 0 (p 1) (p 0) = x := by rw [h.start _ _ h1 h0]; exact if_neg hne
  refine ⟨e0, fun hk => ⟨?_, ?_, ?_⟩⟩
  · rw [h.diag 0 hk, e0]
  · rw [h.col 0 1 hk (by norm_num) (by norm_num), e0, e2]
  · rw [h.next 0 1 hk (by norm_num) (by norm_num), e0, e1, e2]; rfl

/-- All cases of order 2, operation by operation. -/
theorem RectChol.pair_cases (small a x : α) :
    (RectChol.new small (RectChol.pair a x) = .error (.err .small) ∧
      (Flt.le a small = true ∨ Flt.le (pairLeft a x) small = true ∧ Flt.lt (pairLeft a x) (Flt.neg small) = true)) ∨
    (¬ Flt.le a small = true ∧
      ∃ (d : RectChol α 2) (B : Nat → Nat → α) (q : Nat), RectChol.new small (RectChol.pair a x) = .ok d ∧
      Shows d.root.at 2 d.rank B ∧ q < 2 ∧ B q 0 = Flt.sqrt a ∧
      B (1 - q) 0 = Flt.mul (Flt.div Flt.one (Flt.sqrt a)) x ∧
      ((d.rank = 1 ∧ Flt.le (pairLeft a x) small = true ∧ ¬ Flt.lt (pairLeft a x) (Flt.neg small) = true) ∨
        (d.rank = 2 ∧ ¬ Flt.le (pairLeft a x) small = true ∧ B q 1 = Flt.zero ∧
          B (1 - q) 1 = Flt.sqrt (pairLeft a x)))) := by
  rcases C114_outcome (small := small) (m := RectChol.pair a x) (by trivial) (by norm_num)
    (RectChol.pair_shows _ _) (fun i j _ _ => by simp only [eq_comm]) with
    ⟨d, B, p, C, h1, h2, h3, -, h4, h5, h6⟩ | ⟨h0, k, p, b, C, h1, h2, h3, h4⟩
  · right
    obtain ⟨e0, e1⟩ := RectChol.pair_rec h5
    obtain ⟨e1, e2, e3⟩ := e1 h2
    have hp0 := h5.lt 0 (by norm_num)
    have hp1 := h5.lt 1 (by norm_num)
    have hne : p 1 ≠ p 0 := fun e => absurd (h5.inj 1 0 (by norm_num) (by norm_num) e) (by norm_num)
    have hq : p 1 = 1 - p 0 := by omega
    have t := h5.test 0 h2
    rw [e0] at t
    refine ⟨t, d, B, p 0, h1, h4, hp0, e1, hq ▸ e2, ?_⟩
    obtain hr | hr : d.rank = 1 ∨ d.rank = 2 := by omega
    · left
      have h7 := h6 (by omega)
      have h8 := h7.le
      have h9 := h7.ge 1 hr.le (by norm_num)
      rw [hr, e3] at h8 h9
      exact ⟨hr, h8, h9⟩
    · right
      have h7 := h5.test 1 (by omega)
      have h8 := h5.diag 1 (by omega)
      have h9 := h5.up 1 0 (by omega) (by norm_num)
      rw [e3] at h7 h8
      exact ⟨hr, h7, h9, hq ▸ h8⟩
  · left
    refine ⟨h0, ?_⟩
    obtain ⟨e0, e1⟩ := RectChol.pair_rec h2
    obtain rfl | rfl : k = 0 ∨ k = 1 := by omega
    · rw [e0] at h3; exact .inl h3
    · obtain ⟨e1, e2, e3⟩ := e1 (by norm_num)
      obtain ⟨i, h5, h6, h7⟩ := h4.resolve_left (by norm_num)
      obtain rfl : i = 1 := by omega
      rw [e3] at h3 h7
      exact .inr ⟨h3, h7⟩

/-- Concrete case: the matrix whose entries are all 4 meets the hypotheses of C114 with the threshold 1, rank 1 and
all entries of the root 2. -/
theorem C114_case : ∃ (d : RectChol B64 2) (B : Nat → Nat → B64),
    RectChol.new (Flt.one : B64) (RectChol.pair (B64.int 4) (B64.int 4)) = .ok d ∧ d.rank = 1 ∧
    Shows d.root.at 2 d.rank B ∧ (∀ x t, x < 2 → t < d.rank → fin (B x t) ∧ val (B x t) = 2) ∧
    fin (Flt.one : B64) ∧ (2 : ℝ) ^ (-1022 : ℤ) ≤ val (Flt.one : B64) := by
  have i1 : B64.Is (B64.int 4) 4 := by
    have := B64.Is.int (k := 4) (by norm_num)
    norm_num at this
    exact this
  have s1 : B64.Is (Flt.sqrt (B64.int 4)) 2 :=
    i1.sqrt (by norm_num) (by norm_num) (B64.Num.dy 2 0 (by norm_num) (by norm_num) (by norm_num))
  have s2 : B64.Is (Flt.div Flt.one (Flt.sqrt (B64.int 4))) (1 / 2) :=
    B64.Is.one.div s1 (by norm_num) rfl (B64.Num.dy 1 1 (by norm_num) (by norm_num) (by norm_num))
  have s3 : B64.Is (Flt.mul (Flt.div Flt.one (Flt.sqrt (B64.int 4))) (B64.int 4)) 2 :=
    s2.mul i1 (by norm_num) (B64.Num.dy 2 0 (by norm_num) (by norm_num) (by norm_num))
  have s4 : B64.Is (pairLeft (B64.int 4) (B64.int 4)) 0 :=
    i1.sub (s := 4) ((i1.mul (t := 16) i1 (by norm_num) (B64.Num.dy 16 0 (by norm_num) (by norm_num) (by norm_num))).mul
      (B64.Is.one.div (t := 1 / 4) i1 (by norm_num) rfl (B64.Num.dy 1 2 (by norm_num) (by norm_num) (by norm_num)))
      (by norm_num) (B64.Num.dy 4 0 (by norm_num) (by norm_num) (by norm_num))) (by norm_num)
      (B64.Num.dy 0 0 (by norm_num) (by norm_num) (by norm_num))
  have t0 : ¬ Flt.le (B64.int 4) (Flt.one : B64) = true := by
    rw [le_iff i1.1 one_fin, i1.2, val_one]; norm_num
  have t1 : Flt.le (pairLeft (B64.int 4) (B64.int 4)) (Flt.one : B64) = true := by
    rw [le_iff s4.1 one_fin, s4.2, val_one]; norm_num
  have t2 : ¬ Flt.lt (pairLeft (B64.int 4) (B64.int 4)) (Flt.neg (Flt.one : B64)) = true := by
    rw [lt_iff s4.1 (neg_fin.2 one_fin), s4.2, val_neg one_fin, val_one]; norm_num
  rcases RectChol.pair_cases (Flt.one : B64) (B64.int 4) (B64.int 4) with
    ⟨-, h | h⟩ | ⟨-, d, B, q, h1, h2, h3, h4, h5, ⟨h6, -⟩ | ⟨-, h, -⟩⟩
  · exact absurd h t0
  · exact absurd h.2 t2
  · refine ⟨d, B, h1, h6, h2, fun x t hx ht => ?_, one_fin, ?_⟩
    · obtain rfl : t = 0 := by omega
      by_cases e : x = q
      · rw [e, h4]; exact s1
      · rw [show x = 1 - q by omega, h5]; exact s3
    · rw [val_one]
      exact (zpow_lt_one_of_neg₀ (by norm_num) (by norm_num)).le
  · exact absurd t1 h

/-! ## Underflow and overflow -/

theorem B64.Num.zpow (e : ℤ) (h1 : -1074 ≤ e) (h2 : e ≤ 1023) : B64.Num (2 ^ e) := by
  refine ⟨⟨1, e, by norm_num, h1, by simp⟩, ?_⟩
  rw [abs_of_pos (zpow_pos (by norm_num) _), ← zpow_natCast (2 : ℝ) 1024]
  exact zpow_lt_zpow_right₀ (by norm_num) (by push_cast; omega)

/-- A power of two. -/
noncomputable def B64.two (e : ℤ) (h1 : -1074 ≤ e) (h2 : e ≤ 1023) : B64 := B64.num _ (B64.Num.zpow e h1 h2)

theorem B64.Is.two (e : ℤ) (h1 : -1074 ≤ e) (h2 : e ≤ 1023) : B64.Is (B64.two e h1 h2) (2 ^ e) := ⟨trivial, rfl⟩

theorem B64.rnd_big {e : ℤ} (h : 1024 ≤ e) : B64.rnd (2 ^ e) = B64.inf false := by
  have hp : (0 : ℝ) < 2 ^ e := zpow_pos (by norm_num) _
  have h1 : B64.near (2 ^ e) = 2 ^ e := B64.near_of_rep ⟨1, e, by norm_num, by omega, by simp⟩
  unfold B64.rnd
  rw [dif_neg]
  · rw [decide_eq_false (not_lt.2 hp.le)]
  · rw [h1, abs_of_pos hp, not_lt, ← zpow_natCast (2 : ℝ) 1024]
    exact zpow_le_zpow_right₀ (by norm_num) (by push_cast; omega)

/-- **C114.** The matrix whose entries are all `2⁻⁶⁰⁰` has rank 1. The square of `2⁻⁶⁰⁰` is rounded to 0, the second
diagonal element is not changed, and the constructor answers rank 2: one diagonal element of `B Bᵀ` is twice that of
the matrix. -/
theorem C114_underflow {a : B64} (ha : a = B64.two (-600) (by norm_num) (by norm_num)) :
    ∃ (d : RectChol B64 2) (B : Nat → Nat → B64) (q : Nat), RectChol.new (Flt.zero : B64) (RectChol.pair a a) = .ok d ∧
      d.rank = 2 ∧ Shows d.root.at 2 d.rank B ∧ q < 2 ∧ (∀ x t, x < 2 → t < 2 → fin (B x t)) ∧
      ∑ t ∈ range 2, val (B q t) * val (B q t) = 2 * val a := by
  have i1 : B64.Is a (2 ^ (-600 : ℤ)) := ha ▸ B64.Is.two _ _ _
  have hpos : (0 : ℝ) < 2 ^ (-600 : ℤ) := zpow_pos (by norm_num) _
  have e3 : (2 : ℝ) ^ (-600 : ℤ) = 2 ^ (-300 : ℤ) * 2 ^ (-300 : ℤ) := by rw [← zpow_add₀ (by norm_num)]; norm_num
  have s1 : B64.Is (Flt.sqrt a) (2 ^ (-300 : ℤ)) :=
    i1.sqrt (zpow_pos (by norm_num) _).le e3 (B64.Num.zpow _ (by norm_num) (by norm_num))
  have s2 : B64.Is (Flt.div Flt.one (Flt.sqrt a)) (2 ^ (300 : ℤ)) :=
    B64.Is.one.div s1 (zpow_pos (by norm_num) _).ne' (by rw [zpow_neg, one_div, inv_inv])
      (B64.Num.zpow _ (by norm_num) (by norm_num))
  have s3 : B64.Is (Flt.mul (Flt.div Flt.one (Flt.sqrt a)) a) (2 ^ (-300 : ℤ)) :=
    s2.mul i1 (by rw [← zpow_add₀ (by norm_num)]; norm_num) (B64.Num.zpow _ (by norm_num) (by norm_num))
  have hz : B64.Num 0 := by simpa using B64.Num.dy 0 0 (by norm_num) (by norm_num) rfl
  have s4 : B64.Is (Flt.mul a a) 0 := by
    have e : Flt.mul a a = B64.rnd (2 ^ (-600 : ℤ) * 2 ^ (-600 : ℤ)) := by rw [ha]; rfl
    have hf : fin (Flt.mul a a) := by
      rw [e]
      refine B64.rnd_ok ?_
      rw [abs_of_pos (by positivity)]
      have : (2 : ℝ) ^ (-600 : ℤ) ≤ 1 := (zpow_lt_one_of_neg₀ (by norm_num) (by norm_num)).le
      calc _ ≤ (1 : ℝ) * 1 := by gcongr
        _ ≤ _ := by rw [one_mul]; exact one_le_pow₀ (by norm_num)
    refine ⟨hf, ?_⟩
    rw [e] at hf ⊢
    refine (B64.rnd_fin hf).trans (B64.near_tiny ?_)
    rw [abs_of_pos (by positivity), ← zpow_add₀ (by norm_num)]
    exact zpow_lt_zpow_right₀ (by norm_num) (by norm_num)
  have s5 : B64.Is (Flt.div Flt.one a) (2 ^ (600 : ℤ)) :=
    B64.Is.one.div i1 hpos.ne' (by rw [zpow_neg, one_div, inv_inv]) (B64.Num.zpow _ (by norm_num) (by norm_num))
  have s6 : B64.Is (pairLeft a a) (2 ^ (-600 : ℤ)) :=
    i1.sub (s4.mul s5 (zero_mul _) hz) (sub_zero _) (B64.Num.zpow _ (by norm_num) (by norm_num))
  have s7 : B64.Is (Flt.sqrt (pairLeft a a)) (2 ^ (-300 : ℤ)) :=
    s6.sqrt (zpow_pos (by norm_num) _).le e3 (B64.Num.zpow _ (by norm_num) (by norm_num))
  have t0 : ¬ Flt.le a (Flt.zero : B64) = true := by
    rw [le_iff i1.1 zero_fin, i1.2, val_zero]; exact not_le.2 hpos
  have t1 : ¬ Flt.le (pairLeft a a) (Flt.zero : B64) = true := by
    rw [le_iff s6.1 zero_fin, s6.2, val_zero]; exact not_le.2 hpos
  rcases RectChol.pair_cases (Flt.zero : B64) a a with
    ⟨-, h | h⟩ | ⟨-, d, B, q, h1, h2, h3, h4, h5, ⟨-, h, -⟩ | ⟨h6, -, h7, h8⟩⟩
  · exact absurd h t0
  · exact absurd h.1 t1
  · exact absurd h t1
  · refine ⟨d, B, 1 - q, h1, h6, h2, by omega, fun x t hx ht => ?_, ?_⟩
    · obtain rfl | rfl : t = 0 ∨ t = 1 := by omega
      · by_cases e : x = q
        · rw [e, h4]; exact s1.1
        · rw [show x = 1 - q by omega, h5]; exact s3.1
      · by_cases e : x = q
        · rw [e, h7]; exact zero_fin
        · rw [show x = 1 - q by omega, h8]; exact s7.1
    · rw [sum_range_succ, sum_range_one, h5, h8, s3.2, s7.2, i1.2, ← e3]; ring

/-- **C114.** The matrix whose entries are all `2⁶⁰⁰` is positive semidefinite. The square of `2⁶⁰⁰` is infinite, and
the constructor answers that the matrix is not positive definite. -/
theorem C114_overflow {a : B64} (ha : a = B64.two 600 (by norm_num) (by norm_num)) :
    RectChol.new (Flt.zero : B64) (RectChol.pair a a) = .error (.err .small) := by
  have i1 : B64.Is a (2 ^ (600 : ℤ)) := ha ▸ B64.Is.two _ _ _
  have hpos : (0 : ℝ) < 2 ^ (600 : ℤ) := zpow_pos (by norm_num) _
  have s4 : Flt.mul a a = B64.inf false := by
    have e : Flt.mul a a = B64.rnd (2 ^ (600 : ℤ) * 2 ^ (600 : ℤ)) := by rw [ha]; rfl
    rw [e, ← zpow_add₀ (by norm_num)]
    exact B64.rnd_big (by norm_num)
  have s5 : B64.Is (Flt.div Flt.one a) (2 ^ (-600 : ℤ)) :=
    B64.Is.one.div i1 hpos.ne' (by rw [zpow_neg, one_div]) (B64.Num.zpow _ (by norm_num) (by norm_num))
  have s6 : pairLeft a a = B64.inf true := by
    unfold pairLeft
    rw [s4]
    obtain ⟨f, e⟩ := s5
    have hp : 0 < val (Flt.div Flt.one a) := by rw [e]; exact zpow_pos (by norm_num) _
    generalize Flt.div Flt.one a = y at *
    rcases y with ⟨y, hy⟩ | _ | _ <;> [skip; exact f.elim; exact f.elim]
    have : Flt.mul (B64.inf false) (B64.num y hy) = B64.inf false := by
      show (if y = 0 then B64.nan else B64.inf (false ^^ decide (y < 0))) = _
      rw [if_neg (show ¬ y = 0 from hp.ne'), decide_eq_false (show ¬ y < 0 from not_lt.2 hp.le)]
      rfl
    rw [this, ha]
    rfl
  have t1 : Flt.le (pairLeft a a) (Flt.zero : B64) = true := by rw [s6]; rfl
  have t2 : Flt.lt (pairLeft a a) (Flt.neg (Flt.zero : B64)) = true := by rw [s6]; rfl
  rcases RectChol.pair_cases (Flt.zero : B64) a a with
    ⟨h, -⟩ | ⟨-, d, B, q, h1, h2, h3, h4, h5, ⟨-, -, h⟩ | ⟨-, h, -⟩⟩
  · exact h
  · exact absurd t2 h
  · exact absurd t1 h

/-- **C114.** The matrix `2⁻¹⁰⁷⁴ · 1`: the reciprocal of the pivot is infinite, its product with zero is NaN, and the
constructor answers a root with a NaN in it. -/
theorem C114_nan {a : B64} (ha : a = B64.two (-1074) (by norm_num) (by norm_num)) :
    ∃ (d : RectChol B64 2) (B : Nat → Nat → B64) (q : Nat),
      RectChol.new (Flt.zero : B64) (RectChol.pair a Flt.zero) = .ok d ∧
      d.rank = 2 ∧ Shows d.root.at 2 d.rank B ∧ q < 2 ∧ B q 1 = B64.nan := by
  have i1 : B64.Is a (2 ^ (-1074 : ℤ)) := ha ▸ B64.Is.two _ _ _
  have hpos : (0 : ℝ) < 2 ^ (-1074 : ℤ) := zpow_pos (by norm_num) _
  have s5 : Flt.div Flt.one a = B64.inf false := by
    have e : Flt.div Flt.one a = B64.rnd (((1 : ℤ) : ℝ) / 2 ^ (-1074 : ℤ)) := by
      rw [ha]
      show (if (2 : ℝ) ^ (-1074 : ℤ) = 0 then _ else B64.rnd _) = _
      rw [if_neg hpos.ne']
    rw [e, Int.cast_one, zpow_neg, one_div, inv_inv]
    exact B64.rnd_big (by norm_num)
  have s4 : B64.Is (Flt.mul (Flt.zero : B64) Flt.zero) 0 :=
    B64.Is.zero.mul B64.Is.zero (mul_zero _) (by simpa using B64.Num.dy 0 0 (by norm_num) (by norm_num) rfl)
  have s6 : pairLeft a Flt.zero = B64.nan := by
    unfold pairLeft
    rw [s5]
    obtain ⟨f, e⟩ := s4
    generalize Flt.mul (Flt.zero : B64) Flt.zero = y at *
    rcases y with ⟨y, hy⟩ | _ | _ <;> [skip; exact f.elim; exact f.elim]
    have : Flt.mul (B64.num y hy) (B64.inf false) = B64.nan := by
      show (if y = 0 then B64.nan else B64.inf (false ^^ decide (y < 0))) = _
      rw [if_pos (show y = 0 from e)]
    rw [this, ha]
    rfl
  have t0 : ¬ Flt.le a (Flt.zero : B64) = true := by
    rw [le_iff i1.1 zero_fin, i1.2, val_zero]; exact not_le.2 hpos
  have t1 : ¬ Flt.le (pairLeft a Flt.zero) (Flt.zero : B64) = true := by rw [s6]; exact Bool.false_ne_true
  rcases RectChol.pair_cases (Flt.zero : B64) a Flt.zero with
    ⟨-, h | h⟩ | ⟨-, d, B, q, h1, h2, h3, h4, h5, ⟨-, h, -⟩ | ⟨h6, -, h7, h8⟩⟩
  · exact absurd h t0
  · exact absurd h.1 t1
  · exact absurd h t1
  · refine ⟨d, B, 1 - q, h1, h6, h2, by omega, ?_⟩
    rw [h8, s6]
    rfl

end Linear
