import Verif.Lemmas.RoundSvdQr
import Verif.Lemmas.SvdLoop

/-!
# The rounds of the iteration of the singular value decomposition in rounded arithmetic
-/

set_option linter.unusedSectionVars false

namespace Linear

open Spec Rnd Matrix
open Finset hiding val diag

variable {α : Type} [Flt α] [Rnd α] {m n : Nat} {ε ω : ℝ} {U₀ : Matrix (Fin m) (Fin n) ℝ} {V₀ B₀ : Matrix (Fin n) (Fin n) ℝ}
  {N K : Nat} {hyp : α → α → α} {x : Svd.St α m n}

/-! ## Changes without error -/

theorem Svd.RNear.iso {U U' : Matrix (Fin m) (Fin n) ℝ} {V V' W W' G H : Matrix (Fin n) (Fin n) ℝ}
    (h : Svd.RNear α ε ω U₀ V₀ B₀ K U V W) (hG : G * Gᵀ = 1) (hH : H * Hᵀ = 1)
    (hU : U' = U * G) (hV : V' = V * H) (hW : W' = Gᵀ * W * H) : Svd.RNear α ε ω U₀ V₀ B₀ K U' V' W' := by
  obtain ⟨P, Q, h1, h2, h3, h4, h5⟩ := h
  have hG' : Gᵀ * G = 1 := mul_eq_one_comm.1 hG
  have hH' : Hᵀ * H = 1 := mul_eq_one_comm.1 hH
  refine ⟨P * G, Q * H, ?_, ?_, ?_, ?_, ?_⟩
  · rw [Matrix.transpose_mul, Matrix.mul_assoc, ← Matrix.mul_assoc Pᵀ, h1, Matrix.one_mul, hG']
  · rw [Matrix.transpose_mul, Matrix.mul_assoc, ← Matrix.mul_assoc Qᵀ, h2, Matrix.one_mul, hH']
  · rw [hU, ← Matrix.mul_assoc, ← Matrix.sub_mul, fro_right hG]; exact h3
  · rw [hV, ← Matrix.mul_assoc, ← Matrix.sub_mul, fro_right hH]; exact h4
  · have e : P * G * W' * (Q * H)ᵀ = P * W * Qᵀ := by
      rw [hW, Matrix.transpose_mul]
      calc P * G * (Gᵀ * W * H) * (Hᵀ * Qᵀ) = P * (G * Gᵀ) * W * (H * Hᵀ) * Qᵀ := by simp only [Matrix.mul_assoc]
        _ = _ := by rw [hG, hH, Matrix.mul_one, Matrix.mul_one]
    rw [e]; exact h5

/-- The matrix that exchanges two columns. -/
def Svd.swM (n i k : Nat) : Matrix (Fin n) (Fin n) ℝ := mx n n fun x y => if x = Eig.sw i k y then 1 else 0

theorem Svd.mul_swM {r i k : Nat} (hi : i < n) (hk : k < n) (u : Nat → Nat → ℝ) :
    mx r n u * Svd.swM n i k = mx r n fun a y => u a (Eig.sw i k y) := by
  unfold Svd.swM
  rw [mx_mul]
  refine mx_congr fun a y _ hy => ?_
  rw [sum_eq_single (Eig.sw i k y)]
  · rw [if_pos rfl, mul_one]
  · intro b _ hb; rw [if_neg hb, mul_zero]
  · intro hb; exact absurd (mem_range.2 (Svd.sw_lt hi hk hy)) hb

theorem Svd.swM_tr (i k : Nat) : (Svd.swM n i k)ᵀ = Svd.swM n i k := by
  unfold Svd.swM
  rw [mx_transpose]
  refine mx_congr fun a b _ _ => if_congr ⟨fun h => ?_, fun h => ?_⟩ rfl rfl <;>
    rw [h, Svd.sw_sw]

theorem Svd.swM_orth {i k : Nat} (hi : i < n) (hk : k < n) : Svd.swM n i k * (Svd.swM n i k)ᵀ = 1 := by
  rw [Svd.swM_tr, ← mx_one]
  conv_lhs => rw [show Svd.swM n i k * Svd.swM n i k =
    mx n n (fun x y => if x = Eig.sw i k y then (1 : ℝ) else 0) * Svd.swM n i k from rfl, Svd.mul_swM hi hk]
  refine mx_congr fun a b _ _ => ?_
  rw [Svd.sw_sw]

/-- The matrix that negates a column. -/
def Svd.ngM (n k : Nat) : Matrix (Fin n) (Fin n) ℝ := mx n n fun x y => if x = y then (if y = k then -1 else 1) else 0

theorem Svd.mul_ngM {r k : Nat} (u : Nat → Nat → ℝ) :
    mx r n u * Svd.ngM n k = mx r n fun a y => if y = k then -u a y else u a y := by
  unfold Svd.ngM
  rw [mx_mul]
  refine mx_congr fun a y _ hy => ?_
  rw [sum_eq_single y]
  · rw [if_pos rfl]; split_ifs <;> ring
  · intro b _ hb; rw [if_neg hb, mul_zero]
  · intro hb; exact absurd (mem_range.2 hy) hb

theorem Svd.ngM_orth {k : Nat} : Svd.ngM n k * (Svd.ngM n k)ᵀ = 1 := by
  have : (Svd.ngM n k)ᵀ = Svd.ngM n k := by
    unfold Svd.ngM
    rw [mx_transpose]
    refine mx_congr fun a b _ _ => ?_
    by_cases c : b = a
    · subst c; rfl
    · rw [if_neg c, if_neg (Ne.symm c)]
  rw [this, ← mx_one]
  conv_lhs => rw [show Svd.ngM n k * Svd.ngM n k =
    mx n n (fun x y => if x = y then (if y = k then (-1 : ℝ) else 1) else 0) * Svd.ngM n k from rfl, Svd.mul_ngM]
  refine mx_congr fun a b _ _ => ?_
  split_ifs <;> norm_num

/-! ## Case 4 -/

/-- The state is good, the entries from `q` on are done and those other than `k` are in order. -/
structure Svd.Done (ε ω : ℝ) (U₀ : Matrix (Fin m) (Fin n) ℝ) (V₀ B₀ : Matrix (Fin n) (Fin n) ℝ) (K q k : Nat)
    (x : Svd.St α m n) : Prop where
  good : Svd.Good ε ω U₀ V₀ B₀ K (Bi.bEnt (Svd.vf x.s.f) (Svd.vf x.e.f)) x
  e0 : ∀ i, q ≤ i + 1 → i < n → val (x.e.f i) = 0
  pos : ∀ i, q ≤ i → i < n → 0 ≤ val (x.s.f i)
  dec : ∀ i, q ≤ i → i + 1 < n → i ≠ k → val (x.s.f (i + 1)) ≤ val (x.s.f i)
  skip : q < k → k + 1 < n → val (x.s.f (k + 1)) ≤ val (x.s.f (k - 1))

theorem Svd.order_good (hm : n ≤ m) {q : Nat} (d : Nat) : ∀ (k : Nat) (x : Svd.St α m n),
    n ≤ k + d + 1 → q ≤ k → k < n → (Svd.tfin x.u → Svd.tfin x.v → Svd.Done ε ω U₀ V₀ B₀ K q k x) →
    ∃ x', Svd.order d k x = .ok x' ∧ (Svd.tfin x'.u → Svd.tfin x'.v → Svd.Done ε ω U₀ V₀ B₀ K q n x') := by
  induction d with
  | zero =>
    intro k x h1 h2 h3 h4
    refine ⟨x, rfl, fun hu hv => ?_⟩
    have h := h4 hu hv
    exact ⟨h.good, h.e0, h.pos, fun i g1 g2 _ => h.dec i g1 g2 (by omega), fun _ _ => by omega⟩
  | succ d ih =>
    intro k x h1 h2 h3 h4
    by_cases hk : k + 1 < n
    · by_cases hc : Flt.le (x.s.f (k + 1)) (x.s.f k) = true
      · refine ⟨x, Svd.order_stop x fun _ => hc, fun hu hv => ?_⟩
        have h := h4 hu hv
        refine ⟨h.good, h.e0, h.pos, fun i g1 g2 _ => ?_, fun _ _ => by omega⟩
        by_cases c : i = k
        · rw [c]; exact (le_iff (h.good.s _ hk) (h.good.s _ h3)).1 hc
        · exact h.dec i g1 g2 c
      · have hc := Bool.eq_false_iff.2 hc
        obtain ⟨x1, e1, a1, a2, a3, a4⟩ := Svd.order_step (d := d) hk hm x hc
        rw [e1]
        refine ih (k + 1) x1 (by omega) (by omega) hk fun hu hv => ?_
        have hu' : Svd.tfin x.u := fun a b ha hb => by
          have := hu a (Eig.sw k (k + 1) b) ha (Svd.sw_lt h3 hk hb)
          rwa [a3 _ _ ha, Svd.sw_sw] at this
        have hv' : Svd.tfin x.v := fun a b ha hb => by
          have := hv a (Eig.sw k (k + 1) b) ha (Svd.sw_lt h3 hk hb)
          rwa [a4 _ _ ha, Svd.sw_sw] at this
        have h := h4 hu' hv'
        have hc : val (x.s.f k) ≤ val (x.s.f (k + 1)) := by
          have := mt (le_iff (h.good.s _ hk) (h.good.s _ h3)).2 (by rw [hc]; exact Bool.false_ne_true)
          exact (not_le.1 this).le
        have sk : x1.s.f k = x.s.f (k + 1) := by rw [a2]; exact congrArg _ (if_pos rfl)
        have sk1 : x1.s.f (k + 1) = x.s.f k := by
          rw [a2]; exact congrArg _ (by unfold Eig.sw; rw [if_neg (by omega), if_pos rfl])
        have so : ∀ i, i ≠ k → i ≠ k + 1 → x1.s.f i = x.s.f i := fun i c c' => by
          rw [a2]; exact congrArg _ (by unfold Eig.sw; rw [if_neg c, if_neg c'])
        refine ⟨⟨fun a ha => ?_, fun a ha => ?_, ?_⟩, fun i g1 g2 => ?_, fun i g1 g2 => ?_, fun i g1 g2 g3 => ?_,
          fun g1 g2 => ?_⟩
        · rw [a2]; exact h.good.s _ (Svd.sw_lt h3 hk ha)
        · rw [a1]; exact h.good.e _ ha
        · refine h.good.near.iso (Svd.swM_orth h3 hk) (Svd.swM_orth h3 hk) ?_ ?_ ?_
          · rw [Svd.mul_swM h3 hk]
            exact mx_congr fun a b ha hb => by rw [a3 a b ha]
          · rw [Svd.mul_swM h3 hk]
            exact mx_congr fun a b ha hb => by rw [a4 a b ha]
          · rw [Matrix.mul_assoc, Svd.mul_swM h3 hk, ← Matrix.transpose_inj, Matrix.transpose_mul,
              Matrix.transpose_transpose, mx_transpose, mx_transpose, Svd.mul_swM h3 hk]
            refine mx_congr fun a b ha hb => ?_
            have := Svd.bEnt_sw (s := Svd.vf x.s.f) (e := Svd.vf x.e.f) h2 hk h.e0 b a hb
            rw [← this, a1]
            have e2 : Svd.vf x1.s.f = fun y => Svd.vf x.s.f (Eig.sw k (k + 1) y) := by rw [a2]; rfl
            rw [e2]
        · rw [a1]; exact h.e0 i g1 g2
        · by_cases c : i = k
          · rw [c, sk]; exact h.pos _ (by omega) hk
          · by_cases c' : i = k + 1
            · rw [c', sk1]; exact h.pos _ h2 h3
            · rw [so i c c']; exact h.pos i g1 g2
        · by_cases c : i = k
          · rw [c, sk, sk1]; exact hc
          · by_cases c' : i + 1 = k
            · rw [c', sk, so i c (by omega), show i = k - 1 by omega]; exact h.skip (by omega) hk
            · rw [so i c g3, so (i + 1) c' (by omega)]; exact h.dec i g1 g2 c
        · rw [show k + 1 - 1 = k by omega, sk, so _ (by omega) (by omega)]
          exact h.dec (k + 1) (by omega) g2 (by omega)
    · refine ⟨x, Svd.order_stop x fun h => absurd h hk, fun hu hv => ?_⟩
      have h := h4 hu hv
      exact ⟨h.good, h.e0, h.pos, fun i g1 g2 _ => h.dec i g1 g2 (by omega), fun _ _ => by omega⟩

theorem Svd.converged_good (hm : n ≤ m) {k : Nat} (hk : k < n)
    (hx : Svd.tfin x.u → Svd.tfin x.v → Svd.Good ε ω U₀ V₀ B₀ K (Bi.bEnt (Svd.vf x.s.f) (Svd.vf x.e.f)) x ∧
      (∀ i, k ≤ i + 1 → i < n → val (x.e.f i) = 0) ∧ (∀ i, k < i → i < n → 0 ≤ val (x.s.f i)) ∧
      (∀ i, k < i → i + 1 < n → val (x.s.f (i + 1)) ≤ val (x.s.f i))) :
    ∃ x', Svd.converged k x = .ok x' ∧ (Svd.tfin x'.u → Svd.tfin x'.v → Svd.Done ε ω U₀ V₀ B₀ K k n x') := by
  unfold Svd.converged
  obtain ⟨y, e, a1, a2, a3, a4⟩ := Svd.positive_ok hk x
  rw [e, ok_bind]
  refine Svd.order_good hm (q := k) n k y (by omega) le_rfl hk fun hu hv => ?_
  by_cases c : Flt.le (x.s.f k) Flt.zero = true
  · obtain ⟨b1, b2⟩ := a3 c
    have hv' : Svd.tfin x.v := fun a b ha hb => by
      have := hv a b ha hb
      rw [b2 a b ha] at this
      split_ifs at this with c'
      · rw [c']; exact neg_fin.1 this
      · exact this
    obtain ⟨h1, h2, h3, h4⟩ := hx (by rw [← a2]; exact hu) hv'
    have hle : val (x.s.f k) ≤ 0 := by
      have := (le_iff (h1.s _ hk) zero_fin).1 c
      rwa [val_zero] at this
    obtain ⟨t, ht⟩ : ∃ t, t = if Flt.lt (x.s.f k) Flt.zero then Flt.neg (x.s.f k) else Flt.zero := ⟨_, rfl⟩
    rw [← ht] at b1
    have ft : fin t := by
      rw [ht]
      split_ifs
      · exact neg_fin.2 (h1.s _ hk)
      · exact zero_fin
    have vt : val t = -val (x.s.f k) := by
      rw [ht]
      split_ifs with c'
      · rw [val_neg (h1.s _ hk)]
      · rw [val_zero]
        have := mt (lt_iff (h1.s _ hk) zero_fin).2 c'
        rw [val_zero] at this
        linarith
    have so : ∀ i, i ≠ k → y.s.f i = x.s.f i := fun i hi => by rw [b1, upd1_eq, if_neg hi]
    have sk : val (y.s.f k) = -val (x.s.f k) := by rw [b1, upd1_eq, if_pos rfl, vt]
    refine ⟨⟨?_, ?_, ?_⟩, ?_, fun i g1 g2 => ?_, fun i g1 g2 g3 => ?_, fun h => by omega⟩
    · rw [b1]; exact Svd.upd_fin h1.s ft
    · rw [a1]; exact h1.e
    · refine h1.near.iso (G := 1) (H := Svd.ngM n k) (by simp) Svd.ngM_orth (by rw [a2, Matrix.mul_one]) ?_ ?_
      · rw [Svd.mul_ngM]
        refine mx_congr fun a b ha hb => ?_
        rw [b2 a b ha]
        split_ifs with c'
        · rw [val_neg (hv' a k ha hk), c']
        · rfl
      · rw [Matrix.transpose_one, Matrix.one_mul, Svd.mul_ngM]
        refine mx_congr fun i j hi hj => ?_
        simp only [Svd.bEnt_exact]
        rw [a1]
        unfold Svd.vf
        by_cases c1 : j = k
        · rw [if_pos c1]
          by_cases c2 : j = i
          · rw [if_pos c2, if_pos c2, ← c2, c1, sk]
          · rw [if_neg c2, if_neg c2]
            split_ifs with c3
            · rw [h2 i (by omega) hi, neg_zero]
            · rw [neg_zero]
        · rw [if_neg c1]
          by_cases c2 : j = i
          · rw [if_pos c2, if_pos c2, so i (by omega)]
          · rw [if_neg c2, if_neg c2]
    · rw [a1]; exact h2
    · by_cases c : i = k
      · rw [c, sk]; linarith
      · rw [so i c]; exact h3 i (by omega) g2
    · rw [so i g3, so (i + 1) (by omega)]; exact h4 i (by omega) g2
  · have c := Bool.eq_false_iff.2 c
    rw [a4 c] at hu hv ⊢
    obtain ⟨h1, h2, h3, h4⟩ := hx hu hv
    refine ⟨h1, h2, fun i g1 g2 => ?_, fun i g1 g2 g3 => h4 i (by omega) g2, fun h => by omega⟩
    by_cases c' : i = k
    · rw [c']
      have := mt (le_iff (h1.s _ hk) zero_fin).2 (by rw [c]; exact Bool.false_ne_true)
      rw [val_zero] at this
      exact (not_le.1 this).le
    · exact h3 i (by omega) g2

/-! ## The thresholds -/

/-- What is asked of the two literals of the thresholds. -/
structure Svd.Small (ε ω : ℝ) (κ : Svd.Lit α) : Prop where
  eps_fin : fin κ.eps
  eps_le : |val κ.eps| ≤ ε
  tiny_fin : fin κ.tiny
  tiny_le : |val κ.tiny| ≤ ω

/-- The size of a threshold. -/
theorem Svd.Small.bound {κ : Svd.Lit α} {β : ℝ} (S : Svd.Small ε ω κ) (C : Svd.Scale α ε (ε * β + ω) β) {t : α} (ht : fin t)
    (hb : |val t| ≤ 3 * β) : fin (Flt.add κ.tiny (Flt.mul κ.eps t)) ∧
      |val (Flt.add κ.tiny (Flt.mul κ.eps t))| ≤ 7 * (ε * β + ω) := by
  have hβ := C.unit.β0
  have he := C.unit.e0
  have hu0 := Rnd.u_nonneg (α := α)
  have hu1 := C.unit.ue.trans C.unit.e1
  have hη := C.unit.ηκ
  have hκ := C.unit.κ0
  have hκ1 := C.κle
  have hr := C.room
  have hB := big_le (α := α)
  have hω : ω ≤ ε * β + ω := by have := mul_nonneg he hβ; linarith
  have heb := C.unit.eβ
  have p1 : |val κ.eps * val t| ≤ 3 * (ε * β + ω) := by
    rw [abs_mul]
    calc _ ≤ ε * (3 * β) := mul_le_mul S.eps_le hb (abs_nonneg _) he
      _ = 3 * (ε * β) := by ring
      _ ≤ _ := by linarith
  generalize ε * β + ω = k at *
  have f1 : fin (Flt.mul κ.eps t) := mul_ok S.eps_fin ht (by linarith)
  have e1 := (mul_err f1).1
  have b1 : |val (Flt.mul κ.eps t)| ≤ 5 * k := by
    have h1 : Rnd.u α * |val κ.eps * val t| ≤ 1 / 100 * (3 * k) := mul_le_mul hu1 p1 (abs_nonneg _) (by norm_num)
    have h2 := abs_add_le (val (Flt.mul κ.eps t) - val κ.eps * val t) (val κ.eps * val t)
    rw [sub_add_cancel] at h2
    linarith
  have b2 : |val κ.tiny + val (Flt.mul κ.eps t)| ≤ 6 * k := by
    have h2 := abs_add_le (val κ.tiny) (val (Flt.mul κ.eps t))
    have := S.tiny_le
    linarith
  have f2 : fin (Flt.add κ.tiny (Flt.mul κ.eps t)) := add_ok S.tiny_fin f1 (by linarith)
  refine ⟨f2, ?_⟩
  have e2 := (add_err f2).1
  have h1 : Rnd.u α * |val κ.tiny + val (Flt.mul κ.eps t)| ≤ 1 / 100 * (6 * k) :=
    mul_le_mul hu1 b2 (abs_nonneg _) (by norm_num)
  have h2 := abs_add_le (val (Flt.add κ.tiny (Flt.mul κ.eps t)) - (val κ.tiny + val (Flt.mul κ.eps t)))
    (val κ.tiny + val (Flt.mul κ.eps t))
  rw [sub_add_cancel] at h2
  linarith

theorem Svd.Scale.two {κ β : ℝ} (C : Svd.Scale α ε κ β) {a b : α} (fa : fin a) (fb : fin b) (ha : |val a| ≤ β)
    (hb : |val b| ≤ β) : fin (Flt.add (Flt.abs a) (Flt.abs b)) ∧ |val (Flt.add (Flt.abs a) (Flt.abs b))| ≤ 3 * β := by
  have hβ := C.unit.β0
  have hr := C.room
  have hu1 := C.unit.ue.trans C.unit.e1
  have b0 : |val (Flt.abs a) + val (Flt.abs b)| ≤ 2 * β := by
    rw [val_abs fa, val_abs fb, abs_of_nonneg (add_nonneg (abs_nonneg _) (abs_nonneg _))]; linarith
  have f : fin (Flt.add (Flt.abs a) (Flt.abs b)) := add_ok (abs_fin.2 fa) (abs_fin.2 fb) (by linarith)
  refine ⟨f, ?_⟩
  have e2 := (add_err f).1
  have h1 : Rnd.u α * |val (Flt.abs a) + val (Flt.abs b)| ≤ 1 / 100 * (2 * β) :=
    mul_le_mul hu1 b0 (abs_nonneg _) (by norm_num)
  have h2 := abs_add_le (val (Flt.add (Flt.abs a) (Flt.abs b)) - (val (Flt.abs a) + val (Flt.abs b)))
    (val (Flt.abs a) + val (Flt.abs b))
  rw [sub_add_cancel] at h2
  linarith

/-- An entry above the diagonal is neglected. -/
theorem Svd.Good.dropE {κ : Svd.Lit α} (C : Svd.Cx ε ω B₀ N hyp) (S : Svd.Small ε ω κ) (hK : K ≤ N)
    (h : Svd.Good ε ω U₀ V₀ B₀ K (Bi.bEnt (Svd.vf x.s.f) (Svd.vf x.e.f)) x) {k : Nat} (hk : k + 1 < n)
    (hc : Flt.lt (Svd.thrE κ x.s.f k) (Flt.abs (x.e.f k)) = false) :
    Svd.Good ε ω U₀ V₀ B₀ (K + 1) (Bi.bEnt (Svd.vf x.s.f) (Svd.vf (upd1 x.e.f k Flt.zero)))
      ⟨x.s, ⟨upd1 x.e.f k Flt.zero⟩, x.u, x.v⟩ := by
  have H := h.scale C hK
  have bs : ∀ i, i < n → |val (x.s.f i)| ≤ _ := fun i hi => mx_entry (n := n) (Bi.bEnt (Svd.vf x.s.f) (Svd.vf x.e.f))
    (a := i) (b := i) hi hi |> le_trans (by rw [Svd.bEnt_exact, if_pos rfl]; rfl)
  refine ⟨h.s, Svd.upd_fin h.e zero_fin, h.near.still C.e0 C.ω0 ?_⟩
  generalize fro (mx n n (Bi.bEnt (Svd.vf x.s.f) (Svd.vf x.e.f))) = β at *
  obtain ⟨f1, b1⟩ := H.two (h.s k (by omega)) (h.s (k + 1) hk) (bs k (by omega)) (bs (k + 1) hk)
  obtain ⟨f2, b2⟩ := S.bound H f1 b1
  have hle : |val (x.e.f k)| ≤ 7 * (ε * β + ω) := by
    unfold Svd.thrE at hc
    have := mt (lt_iff f2 (abs_fin.2 (h.e k (by omega)))).2 (by rw [hc]; exact Bool.false_ne_true)
    rw [val_abs (h.e k (by omega)), not_lt] at this
    exact this.trans ((le_abs_self _).trans b2)
  have hκ := H.unit.κ0
  have hδ : 0 ≤ 7 * (ε * β + ω) := by linarith
  refine (Svd.bEnt_cmp hδ (i₁ := 0) (i₂ := 0) (j₁ := k) (j₂ := k) (Svd.Cmp.refl hδ _ _ _) ?_).trans (by linarith)
  rw [Svd.vf_upd]
  refine ⟨fun a h1 _ => by rw [upd1_eq, if_neg h1], fun a => ?_⟩
  rw [upd1_eq]
  split_ifs with c
  · rw [val_zero, zero_sub, abs_neg, c]; exact hle
  · rw [sub_self, abs_zero]; exact hδ

/-- An entry of the diagonal is neglected. -/
theorem Svd.Good.dropS {κ : Svd.Lit α} (C : Svd.Cx ε ω B₀ N hyp) (S : Svd.Small ε ω κ) (hK : K ≤ N)
    (h : Svd.Good ε ω U₀ V₀ B₀ K (Bi.bEnt (Svd.vf x.s.f) (Svd.vf x.e.f)) x) {k i : Nat} (hi : i < n)
    (hl : val (x.e.f (n - 1)) = 0)
    (hc : Flt.le (Flt.abs (x.s.f i)) (Svd.thrS κ x.e.f k i) = true) :
    Svd.Good ε ω U₀ V₀ B₀ (K + 1) (Bi.bEnt (Svd.vf (upd1 x.s.f i Flt.zero)) (Svd.vf x.e.f))
      ⟨⟨upd1 x.s.f i Flt.zero⟩, x.e, x.u, x.v⟩ := by
  have H := h.scale C hK
  have be : ∀ i, i < n → |val (x.e.f i)| ≤ fro (mx n n (Bi.bEnt (Svd.vf x.s.f) (Svd.vf x.e.f))) := fun i hi => by
    by_cases c : i + 1 < n
    · exact mx_entry (n := n) (Bi.bEnt (Svd.vf x.s.f) (Svd.vf x.e.f))
        (a := i) (b := i + 1) hi c |> le_trans (by rw [Svd.bEnt_exact, if_neg (by omega), if_pos rfl]; rfl)
    · rw [show i = n - 1 by omega, hl, abs_zero]; exact fro_nonneg _
  refine ⟨Svd.upd_fin h.s zero_fin, h.e, h.near.still C.e0 C.ω0 ?_⟩
  generalize fro (mx n n (Bi.bEnt (Svd.vf x.s.f) (Svd.vf x.e.f))) = β at *
  have hβ := H.unit.β0
  obtain ⟨f1, b1⟩ : fin (if i ≠ k then Flt.add (Flt.abs (x.e.f i)) (Flt.abs (x.e.f (i - 1))) else Flt.abs (x.e.f i)) ∧
      |val (if i ≠ k then Flt.add (Flt.abs (x.e.f i)) (Flt.abs (x.e.f (i - 1))) else Flt.abs (x.e.f i))| ≤ 3 * β := by
    split_ifs
    · exact H.two (h.e i hi) (h.e (i - 1) (by omega)) (be i hi) (be (i - 1) (by omega))
    · refine ⟨abs_fin.2 (h.e i hi), ?_⟩
      rw [val_abs (h.e i hi), abs_abs]
      have := be i hi
      linarith
  obtain ⟨f2, b2⟩ := S.bound H f1 b1
  have hle : |val (x.s.f i)| ≤ 7 * (ε * β + ω) := by
    have := (le_iff (abs_fin.2 (h.s i hi)) f2).1 hc
    rw [val_abs (h.s i hi)] at this
    exact this.trans ((le_abs_self _).trans b2)
  have hκ := H.unit.κ0
  have hδ : 0 ≤ 7 * (ε * β + ω) := by linarith
  refine (Svd.bEnt_cmp hδ (i₁ := i) (i₂ := i) (j₁ := 0) (j₂ := 0) ?_ (Svd.Cmp.refl hδ _ _ _)).trans (by linarith)
  rw [Svd.vf_upd]
  refine ⟨fun a h1 _ => by rw [upd1_eq, if_neg h1], fun a => ?_⟩
  rw [upd1_eq]
  split_ifs with c
  · rw [val_zero, zero_sub, abs_neg, c]; exact hle
  · rw [sub_self, abs_zero]; exact hδ

/-! ## The rounds -/

theorem Svd.round_good {κ : Svd.Lit α} (C : Svd.Cx ε ω B₀ N κ.hyp) (S : Svd.Small ε ω κ) (hm : n ≤ m) {p : Nat} (hp0 : 0 < p)
    (hp : p ≤ n) (hK : K + (2 * n + 2) ≤ N)
    (hx : Svd.tfin x.u → Svd.tfin x.v → Svd.Done ε ω U₀ V₀ B₀ K p n x) :
    ∃ p' x', Svd.round κ p x = .ok (p', x') ∧ p' ≤ p ∧
      (Svd.tfin x'.u → Svd.tfin x'.v → Svd.Done ε ω U₀ V₀ B₀ (K + (2 * n + 2)) p' n x') := by
  unfold Svd.round
  obtain ⟨k, e', ee, hk, -, hcase⟩ := Svd.findE_ok κ x.s (k := p - 1) (by omega) x.e
  rw [ee, ok_bind]
  have hz : 0 < k → val (e'.f (k - 1)) = 0 := by
    rcases hcase with ⟨k0, -⟩ | ⟨-, -, rfl⟩
    · omega
    · intro _; dsimp only; rw [upd1_eq, if_pos rfl, val_zero]
  have key : Svd.tfin x.u → Svd.tfin x.v →
      Svd.Good ε ω U₀ V₀ B₀ (K + 1) (Bi.bEnt (Svd.vf x.s.f) (Svd.vf e'.f)) ⟨x.s, e', x.u, x.v⟩ ∧
      (∀ i, p ≤ i + 1 → i < n → val (e'.f i) = 0) := fun hu hv => by
    have h := hx hu hv
    rcases hcase with ⟨k0, rfl⟩ | ⟨k0, hf, rfl⟩
    · exact ⟨h.good.mono C (by omega), h.e0⟩
    · refine ⟨h.good.dropE C S (by omega) (by omega) hf, fun i g1 g2 => ?_⟩
      dsimp only
      rw [upd1_eq]
      split_ifs
      · exact val_zero
      · exact h.e0 i g1 g2
  clear hcase
  dsimp only
  by_cases hkp : k = p - 1
  · rw [if_pos hkp]
    obtain ⟨x', ex, a1⟩ := Svd.converged_good (K := K + (2 * n + 2)) hm (k := p - 1) (by omega) (x := ⟨x.s, e', x.u, x.v⟩)
      fun hu hv => by
        obtain ⟨b1, b2⟩ := key hu hv
        have h := hx hu hv
        refine ⟨b1.mono C (by omega), fun i g1 g2 => ?_, fun i g1 g2 => h.pos i (by omega) g2,
          fun i g1 g2 => h.dec i (by omega) g2 (by omega)⟩
        by_cases c : p ≤ i + 1
        · exact b2 i c g2
        · have := hz (by omega)
          rwa [hkp, show p - 1 - 1 = i by omega] at this
    rw [ex, ok_bind]
    exact ⟨p - 1, x', rfl, by omega, a1⟩
  · rw [if_neg hkp]
    obtain ⟨o, s', es, hcase⟩ := Svd.findS_ok κ e' (k := k) (d := p - k) (by omega) x.s
    rw [es, ok_bind]
    -- the states after the three cases
    have fin' : ∀ x' : Svd.St α m n, (∀ i, p ≤ i → x'.e.f i = e'.f i ∧ x'.s.f i = x.s.f i) →
        (Svd.tfin x'.u → Svd.tfin x'.v →
          Svd.Good ε ω U₀ V₀ B₀ (K + (2 * n + 2)) (Bi.bEnt (Svd.vf x'.s.f) (Svd.vf x'.e.f)) x' ∧ val (x'.e.f (p - 1)) = 0 ∧
            Svd.Done ε ω U₀ V₀ B₀ K p n x ∧ (∀ i, p ≤ i + 1 → i < n → val (e'.f i) = 0)) →
        (Svd.tfin x'.u → Svd.tfin x'.v → Svd.Done ε ω U₀ V₀ B₀ (K + (2 * n + 2)) p n x') := by
      intro x' q1 q4 hu hv
      obtain ⟨c1, c2, h, b2⟩ := q4 hu hv
      refine ⟨c1, fun i g1 g2 => ?_, fun i g1 g2 => ?_, fun i g1 g2 g3 => ?_, fun _ _ => by omega⟩
      · by_cases c : i = p - 1
        · rw [c]; exact c2
        · rw [(q1 i (by omega)).1]; exact b2 i g1 g2
      · rw [(q1 i g1).2]; exact h.pos i g1 g2
      · rw [(q1 i g1).2, (q1 (i + 1) (by omega)).2]; exact h.dec i g1 g2 g3
    rcases hcase with ⟨rfl, rfl, -⟩ | ⟨i, rfl, i1, i2, hle, rfl, -⟩
    · dsimp only
      obtain ⟨x', ex, a1, a2⟩ := Svd.qr_good C (K := K + 1) (k := k) (p := p) (by omega) hp hm (by omega)
        (x := ⟨x.s, e', x.u, x.v⟩) (R := Svd.Done ε ω U₀ V₀ B₀ K p n x ∧ (∀ i, p ≤ i + 1 → i < n → val (e'.f i) = 0))
          (fun hu hv => ⟨(key hu hv).1, hx hu hv, (key hu hv).2⟩) hz
        (fun hu hv => (key hu hv).2 _ (by omega) (by omega))
      rw [ex, ok_bind]
      exact ⟨p, x', rfl, le_rfl, fin' x' a2 fun hu hv => ⟨(a1 hu hv).1.mono C (by omega), (a1 hu hv).2⟩⟩
    · dsimp only
      have key2 : Svd.tfin x.u → Svd.tfin x.v →
          Svd.Good ε ω U₀ V₀ B₀ (K + 2) (Bi.bEnt (Svd.vf (upd1 x.s.f i Flt.zero)) (Svd.vf e'.f))
            ⟨⟨upd1 x.s.f i Flt.zero⟩, e', x.u, x.v⟩ := fun hu hv =>
        Svd.Good.dropS (K := K + 1) (x := ⟨x.s, e', x.u, x.v⟩) C S (by omega) (key hu hv).1 (k := k) (i := i) (by omega)
          ((key hu hv).2 (n - 1) (by omega) (by omega)) hle
      have ez : val (upd1 x.s.f i Flt.zero i) = (0 : ℝ) := by rw [upd1_eq, if_pos rfl, val_zero]
      have so : ∀ a, p ≤ a → upd1 x.s.f i Flt.zero a = x.s.f a := fun a ha => by rw [upd1_eq, if_neg (by omega)]
      by_cases hip : i = p - 1
      · rw [if_pos hip]
        obtain ⟨x', ex, a1, a2⟩ := Svd.deflate_good C (K := K + 2) (k := k) (p := p) (by omega) hp (by omega)
          (x := ⟨⟨upd1 x.s.f i Flt.zero⟩, e', x.u, x.v⟩)
          (R := Svd.Done ε ω U₀ V₀ B₀ K p n x ∧ (∀ i, p ≤ i + 1 → i < n → val (e'.f i) = 0))
          (fun hu hv => ⟨key2 hu hv, hx hu hv, (key hu hv).2⟩) (by rw [← hip]; exact ez) hz
        rw [ex, ok_bind]
        refine ⟨p, x', rfl, le_rfl, fin' x' (fun j hj => ?_) fun hu hv => ?_⟩
        · obtain ⟨c1, c2⟩ := a2 j (by omega)
          exact ⟨c1, c2.trans (so j hj)⟩
        · obtain ⟨c1, c2, c3⟩ := a1 hu hv
          refine ⟨c1.mono C (by omega), ?_, c2, c3⟩
          rw [(a2 _ le_rfl).1]
          exact c3 _ (by omega) (by omega)
      · rw [if_neg hip]
        obtain ⟨x', ex, a1, a2⟩ := Svd.split_good C (K := K + 2) (k := i + 1) (p := p) (by omega) (by omega) hp hm (by omega)
          (x := ⟨⟨upd1 x.s.f i Flt.zero⟩, e', x.u, x.v⟩)
          (R := Svd.Done ε ω U₀ V₀ B₀ K p n x ∧ (∀ i, p ≤ i + 1 → i < n → val (e'.f i) = 0))
          (fun hu hv => ⟨key2 hu hv, hx hu hv, (key hu hv).2⟩) ez
          (fun hu hv => (key hu hv).2 _ (by omega) (by omega))
        rw [ex, ok_bind]
        refine ⟨p, x', rfl, le_rfl, fin' x' (fun j hj => ?_) fun hu hv => ?_⟩
        · obtain ⟨c1, c2⟩ := a2 j hj
          exact ⟨c1, c2.trans (so j hj)⟩
        · exact ⟨(a1 hu hv).1.mono C (by omega), (a1 hu hv).2⟩

/-- **The whole iteration.** -/
theorem Svd.loop_good {κ : Svd.Lit α} (C : Svd.Cx ε ω B₀ N κ.hyp) (S : Svd.Small ε ω κ) (hm : n ≤ m) (fuel : Nat) :
    ∀ (p K : Nat) (x : Svd.St α m n), p ≤ n → K + fuel * (2 * n + 2) ≤ N →
    (Svd.tfin x.u → Svd.tfin x.v → Svd.Done ε ω U₀ V₀ B₀ K p n x) →
    ∃ o, Svd.loop κ fuel p x = .ok o ∧ ∀ y, o = some y → Svd.tfin y.u → Svd.tfin y.v →
      Svd.Done ε ω U₀ V₀ B₀ (K + fuel * (2 * n + 2)) 0 n y := by
  induction fuel with
  | zero =>
    intro p K x hp hK h
    unfold Svd.loop
    split_ifs with c
    · subst c
      exact ⟨_, rfl, fun y hy => by cases hy; rw [Nat.zero_mul, Nat.add_zero]; exact h⟩
    · exact ⟨_, rfl, fun y hy => by cases hy⟩
  | succ fuel ih =>
    intro p K x hp hK h
    unfold Svd.loop
    rw [Nat.succ_mul] at hK ⊢
    split_ifs with c
    · subst c
      refine ⟨_, rfl, fun y hy hu hv => ?_⟩
      cases hy
      have h := h hu hv
      exact ⟨h.good.mono C (by omega), h.e0, h.pos, h.dec, h.skip⟩
    · obtain ⟨p', x', e, h1, h2⟩ := Svd.round_good C S hm (by omega) hp (by omega) h
      rw [e, ok_bind]
      obtain ⟨o, eo, ho⟩ := ih p' (K + (2 * n + 2)) x' (by omega) (by omega) h2
      refine ⟨o, eo, fun y hy hu hv => ?_⟩
      have := ho y hy hu hv
      rwa [show K + (fuel * (2 * n + 2) + (2 * n + 2)) = K + (2 * n + 2) + fuel * (2 * n + 2) by omega]

end Linear
