import Verif.Lemmas.SchurExact
import Verif.Lemmas.SvdLoop

/-!
# The error of the Schur form: similarity transformations of a table close to the code's

The table `W` is what the code's table would be if every neglected entry were zero. Each step of the code is an exact
similarity transformation of `W`, up to the entries it neglects.
-/

set_option linter.unusedSectionVars false

namespace Linear

open Spec Finset Matrix

variable {K : Type} [Field K] [LinearOrder K] [IsStrictOrderedRing K] [Flt K] [Exact K] [ExactSqrt K]
variable {n : Nat}

/-- `P` is orthogonal, and `P V Pᵀ` differs from `A` by at most `b`. -/
structure Schur.Rep (A : Matrix (Fin n) (Fin n) K) (b : K) (P V : Nat → Nat → K) : Prop where
  orth : mx n n P * (mx n n P)ᵀ = 1
  near : fro2 (mx n n P * mx n n V * (mx n n P)ᵀ - A) ≤ b ^ 2
  pos : 0 ≤ b

theorem Schur.Rep.congr {A : Matrix (Fin n) (Fin n) K} {b : K} {P V P' V' : Nat → Nat → K} (h : Schur.Rep A b P V)
    (hP : Schur.Same n P' P) (hV : Schur.Same n V' V) : Schur.Rep A b P' V' := by
  have e1 : mx n n P' = mx n n P := mx_congr hP
  have e2 : mx n n V' = mx n n V := mx_congr hV
  exact ⟨by rw [e1]; exact h.orth, by rw [e1, e2]; exact h.near, h.pos⟩

theorem Schur.Rep.sim {A : Matrix (Fin n) (Fin n) K} {b : K} {P V P' V' : Nat → Nat → K} (h : Schur.Rep A b P V)
    {Q : Matrix (Fin n) (Fin n) K} (hQ : Q * Qᵀ = 1) (hP : mx n n P' = mx n n P * Qᵀ)
    (hV : mx n n V' = Q * mx n n V * Qᵀ) : Schur.Rep A b P' V' := by
  have hQ' : Qᵀ * Q = 1 := mul_eq_one_comm.1 hQ
  refine ⟨?_, ?_, h.pos⟩
  · rw [hP, Matrix.transpose_mul, Matrix.transpose_transpose, Matrix.mul_assoc, ← Matrix.mul_assoc Qᵀ, hQ',
      Matrix.one_mul, h.orth]
  · have : mx n n P' * mx n n V' * (mx n n P')ᵀ = mx n n P * mx n n V * (mx n n P)ᵀ := by
      rw [hP, hV, Matrix.transpose_mul, Matrix.transpose_transpose]
      calc mx n n P * Qᵀ * (Q * mx n n V * Qᵀ) * (Q * (mx n n P)ᵀ)
          = mx n n P * ((Qᵀ * Q) * mx n n V * (Qᵀ * Q)) * (mx n n P)ᵀ := by simp only [Matrix.mul_assoc]
        _ = _ := by rw [hQ', Matrix.one_mul, Matrix.mul_one]
    rw [this]
    exact h.near

theorem Schur.Rep.add {A : Matrix (Fin n) (Fin n) K} {b d : K} {P V V' : Nat → Nat → K} (h : Schur.Rep A b P V)
    (hd : 0 ≤ d) (hV : fro2 (mx n n V' - mx n n V) ≤ d ^ 2) : Schur.Rep A (b + d) P V' := by
  refine ⟨h.orth, ?_, add_nonneg h.pos hd⟩
  have e : mx n n P * mx n n V' * (mx n n P)ᵀ - A = (mx n n P * mx n n V * (mx n n P)ᵀ - A) +
      mx n n P * (mx n n V' - mx n n V) * (mx n n P)ᵀ := by
    rw [Matrix.mul_sub, Matrix.sub_mul]
    abel
  rw [e]
  refine fro2_add h.pos hd h.near ?_
  rw [fro2_conj _ h.orth]
  exact hV

/-- One entry is changed. -/
theorem Schur.Rep.entry {A : Matrix (Fin n) (Fin n) K} {b d : K} {P V V' : Nat → Nat → K} (h : Schur.Rep A b P V)
    (hd : 0 ≤ d) {i j : Nat} (h1 : ∀ x y, x < n → y < n → ¬ (x = i ∧ y = j) → V' x y = V x y)
    (h2 : |V' i j - V i j| ≤ d) : Schur.Rep A (b + d) P V' := by
  refine h.add hd (fro2_single (i := i) (j := j) (fun x y hxy => ?_) fun x y hx hy => ?_)
  · show V' x y - V x y = 0
    rw [h1 x y x.2 y.2 hxy, sub_self]
  · show |V' x y - V x y| ≤ d
    rw [hx, hy]
    exact h2

/-- The size of an entry. -/
theorem Schur.Rep.size {A : Matrix (Fin n) (Fin n) K} {b N : K} {P V : Nat → Nat → K} (h : Schur.Rep A b P V)
    (hN : 0 ≤ N) (hA : fro2 A ≤ N ^ 2) : fro2 (mx n n V) ≤ (N + b) ^ 2 := by
  have e : mx n n P * mx n n V * (mx n n P)ᵀ = A + (mx n n P * mx n n V * (mx n n P)ᵀ - A) := by abel
  rw [← fro2_conj _ h.orth, e]
  exact fro2_add hN h.pos hA h.near

theorem Schur.Rep.le {A : Matrix (Fin n) (Fin n) K} {b N : K} {P V : Nat → Nat → K} (h : Schur.Rep A b P V)
    (hN : 0 ≤ N) (hA : fro2 A ≤ N ^ 2) {i j : Nat} (hi : i < n) (hj : j < n) : |V i j| ≤ N + b := by
  have h1 := (fro2_entry (mx n n V) ⟨i, hi⟩ ⟨j, hj⟩).trans (h.size hN hA)
  have := sq_le_sq.1 h1
  rwa [abs_of_nonneg (add_nonneg hN h.pos)] at this

theorem Schur.Rep.mono {A : Matrix (Fin n) (Fin n) K} {b b' : K} {P V : Nat → Nat → K} (h : Schur.Rep A b P V)
    (hb : b ≤ b') : Schur.Rep A b' P V :=
  ⟨h.orth, h.near.trans (pow_le_pow_left₀ h.pos hb 2), h.pos.trans hb⟩

/-- The shift put back on the first `u` diagonal entries. -/
def Schur.up (u : Nat) (ex : K) (W : Nat → Nat → K) (i j : Nat) : K := W i j + if i = j ∧ i < u then ex else 0

/-! ## Reflections -/

/-- The rows of `W` after a reflection. -/
def Schur.fullRow (k : Nat) (q r x : K) (W : Nat → Nat → K) (i j : Nat) : K :=
  W i j - x * Schur.wv k q r i * (W k j + q * W (k + 1) j + r * W (k + 2) j)

/-- `W` after a reflection from both sides. -/
def Schur.full (k : Nat) (q r x : K) (W : Nat → Nat → K) (i j : Nat) : K :=
  Schur.fullRow k q r x W i j - x * Schur.wv k q r j *
    (Schur.fullRow k q r x W i k + q * Schur.fullRow k q r x W i (k + 1) + r * Schur.fullRow k q r x W i (k + 2))

theorem Schur.wv_at (k : Nat) (q r : K) :
    Schur.wv k q r k = 1 ∧ Schur.wv k q r (k + 1) = q ∧ Schur.wv k q r (k + 2) = r := by
  simp [Schur.wv]

theorem Schur.wv_off {k : Nat} {q r : K} {i : Nat} (h0 : i ≠ k) (h1 : i ≠ k + 1) (h2 : i ≠ k + 2) :
    Schur.wv k q r i = 0 := by
  simp [Schur.wv, h0, h1, h2]

theorem Schur.Rep.refl {A : Matrix (Fin n) (Fin n) K} {b : K} {P V P' V' : Nat → Nat → K} (h : Schur.Rep A b P V)
    {k : Nat} {nl : Bool} {q r x y z : K} (hr : Schur.IsRefl nl q r x y z) (hk : k + 1 < n)
    (hnl : nl = true → k + 2 < n) (hP : Schur.Same n P' (Schur.colF n k nl q r x y z P))
    (hV : Schur.Same n V' (Schur.full k q r x V)) : Schur.Rep A b P' V' := by
  have hr' : k + 2 < n ∨ r = 0 := by
    cases nl
    · exact .inr (hr.hr rfl)
    · exact .inl (hnl rfl)
  let Q : Nat → Nat → K := fun i j => (if i = j then 1 else 0) - x * Schur.wv k q r i * Schur.wv k q r j
  have hsym : (mx n n Q)ᵀ = mx n n Q := by
    rw [mx_transpose]
    refine mx_congr fun i j _ _ => ?_
    show (if j = i then (1 : K) else 0) - x * Schur.wv k q r j * Schur.wv k q r i =
      (if i = j then 1 else 0) - x * Schur.wv k q r i * Schur.wv k q r j
    rw [if_congr (eq_comm (a := j) (b := i)) rfl rfl]
    ring
  have hright : ∀ f : Nat → Nat → K, mx n n f * mx n n Q = mx n n fun i j =>
      f i j - x * Schur.wv k q r j * (f i k + q * f i (k + 1) + r * f i (k + 2)) := by
    intro f
    rw [mx_mul]
    refine mx_congr fun i j hi hj => ?_
    rw [← Schur.sum_wv hk hr' (f i), mul_sum]
    have : ∀ c, f i c * Q c j = (if c = j then f i c else 0) - x * Schur.wv k q r j * (f i c * Schur.wv k q r c) := by
      intro c
      show f i c * ((if c = j then 1 else 0) - x * Schur.wv k q r c * Schur.wv k q r j) = _
      split <;> ring
    rw [sum_congr rfl fun c _ => this c, sum_sub_distrib, sum_ite_eq', if_pos (mem_range.2 hj)]
  have hleft : ∀ f : Nat → Nat → K, mx n n Q * mx n n f = mx n n (Schur.fullRow k q r x f) := by
    intro f
    have := congrArg Matrix.transpose (hright fun i j => f j i)
    rw [Matrix.transpose_mul, hsym, mx_transpose, mx_transpose] at this
    rw [this]
    rfl
  have hQ : mx n n Q * (mx n n Q)ᵀ = 1 := by
    rw [hsym, hright, ← mx_one]
    refine mx_congr fun i j hi hj => ?_
    obtain ⟨w0, w1, w2⟩ := Schur.wv_at k q r
    have e0 : ∀ c, Q i c = (if i = c then 1 else 0) - x * Schur.wv k q r i * Schur.wv k q r c := fun _ => rfl
    rw [e0, e0, e0, e0, w0, w1, w2]
    have hw : (if i = k then (1 : K) else 0) + q * (if i = k + 1 then 1 else 0) + r * (if i = k + 2 then 1 else 0) =
        Schur.wv k q r i := by
      unfold Schur.wv
      split_ifs <;> first | omega | ring
    have : (if i = k then (1 : K) else 0) - x * Schur.wv k q r i * 1 +
        q * ((if i = k + 1 then 1 else 0) - x * Schur.wv k q r i * q) +
        r * ((if i = k + 2 then 1 else 0) - x * Schur.wv k q r i * r) =
        Schur.wv k q r i * (1 - x * (1 + q * q + r * r)) := by
      linear_combination hw
    rw [this, hr.two]
    ring
  refine h.sim hQ ?_ ?_
  · rw [hsym, hright]
    refine mx_congr fun i j hi hj => ?_
    rw [hP i j hi hj, Schur.colF, if_pos hi, Schur.colV_exact hr]
  · rw [hsym, hleft, hright]
    exact mx_congr hV

/-- A reflection inside the first `u` lines does not see the shift. -/
theorem Schur.full_up {k u : Nat} {nl : Bool} {q r x y z : K} (hr : Schur.IsRefl nl q r x y z) (hk : k + 1 < u)
    (hnl : nl = true → k + 2 < u) (ex : K) (W : Nat → Nat → K) (i j : Nat) :
    Schur.full k q r x (Schur.up u ex W) i j = Schur.up u ex (Schur.full k q r x W) i j := by
  have hr' : k + 2 < u ∨ r = 0 := by
    cases nl
    · exact .inr (hr.hr rfl)
    · exact .inl (hnl rfl)
  have hrow : ∀ i j, Schur.fullRow k q r x (Schur.up u ex W) i j =
      Schur.fullRow k q r x W i j + (if i = j ∧ i < u then ex else 0) -
        x * Schur.wv k q r i * (Schur.wv k q r j * ex) := by
    intro i j
    unfold Schur.fullRow Schur.up
    have : (if k = j ∧ k < u then ex else 0) + q * (if k + 1 = j ∧ k + 1 < u then ex else 0) +
        r * (if k + 2 = j ∧ k + 2 < u then ex else 0) = Schur.wv k q r j * ex := by
      unfold Schur.wv
      rcases hr' with hr' | hr'
      · split_ifs <;> first | omega | ring
      · rw [hr']
        split_ifs <;> first | omega | ring
    linear_combination - x * Schur.wv k q r i * this
  unfold Schur.full
  rw [hrow, hrow, hrow, hrow]
  obtain ⟨w0, w1, w2⟩ := Schur.wv_at k q r
  rw [w0, w1, w2]
  have : (if i = k ∧ i < u then ex else 0) + q * (if i = k + 1 ∧ i < u then ex else 0) +
      r * (if i = k + 2 ∧ i < u then ex else 0) = Schur.wv k q r i * ex := by
    unfold Schur.wv
    rcases hr' with hr' | hr'
    · split_ifs <;> first | omega | ring
    · rw [hr']
      split_ifs <;> first | omega | ring
  unfold Schur.up
  beta_reduce
  linear_combination (-x * Schur.wv k q r j) * this +
    x * Schur.wv k q r i * Schur.wv k q r j * ex * hr.two

/-! ## Rotations -/

/-- The rows of `W` after a rotation. -/
def Schur.fullRot (k : Nat) (p q : K) (W : Nat → Nat → K) (i j : Nat) : K :=
  Schur.rotV k p q (fun b => Schur.rotV k p q (fun i => W i b) i) j

theorem Schur.Rep.rot {A : Matrix (Fin n) (Fin n) K} {b : K} {P V P' V' : Nat → Nat → K} (h : Schur.Rep A b P V)
    {k : Nat} {p q : K} (hpq : p * p + q * q = 1) (hk : k + 1 < n)
    (hP : Schur.Same n P' (fun a b => Schur.rotV k p q (P a) b))
    (hV : Schur.Same n V' (Schur.fullRot k p q V)) : Schur.Rep A b P' V' := by
  let Q : Nat → Nat → K := fun i j => if i = k + 1 then (if j = k + 1 then q else if j = k then -p else 0)
    else if i = k then (if j = k then q else if j = k + 1 then p else 0) else if i = j then 1 else 0
  have hcol : ∀ (u : Nat → K) (j : Nat), j < n → ∑ c ∈ range n, u c * Q j c = Schur.rotV k p q u j := by
    intro u j hj
    rw [Schur.rotV_exact]
    by_cases e1 : j = k + 1
    · rw [if_pos e1]
      have : ∀ c, u c * Q j c = (if c = k + 1 then q * u (k + 1) else 0) - (if c = k then p * u k else 0) := by
        intro c
        show u c * (if j = k + 1 then _ else _) = _
        rw [if_pos e1]
        by_cases c1 : c = k + 1
        · subst c1; simp [mul_comm]
        · by_cases c2 : c = k
          · subst c2; simp [mul_comm]
          · simp [c1, c2]
      rw [sum_congr rfl fun c _ => this c, sum_sub_distrib, sum_ite_eq', sum_ite_eq', if_pos (mem_range.2 hk),
        if_pos (mem_range.2 (by omega))]
    · rw [if_neg e1]
      by_cases e2 : j = k
      · rw [if_pos e2]
        have : ∀ c, u c * Q j c = (if c = k then q * u k else 0) + (if c = k + 1 then p * u (k + 1) else 0) := by
          intro c
          show u c * (if j = k + 1 then _ else _) = _
          rw [if_neg e1, if_pos e2]
          by_cases c1 : c = k
          · subst c1; simp [mul_comm]
          · by_cases c2 : c = k + 1
            · subst c2; simp [mul_comm]
            · simp [c1, c2]
        rw [sum_congr rfl fun c _ => this c, sum_add_distrib, sum_ite_eq', sum_ite_eq', if_pos (mem_range.2 hk),
          if_pos (mem_range.2 (by omega))]
      · rw [if_neg e2]
        have : ∀ c, u c * Q j c = if c = j then u j else 0 := by
          intro c
          show u c * (if j = k + 1 then _ else _) = _
          rw [if_neg e1, if_neg e2]
          by_cases c1 : c = j
          · subst c1; simp
          · rw [if_neg (Ne.symm c1), if_neg c1, mul_zero]
        rw [sum_congr rfl fun c _ => this c, sum_ite_eq', if_pos (mem_range.2 hj)]
  have hright : ∀ f : Nat → Nat → K, mx n n f * (mx n n Q)ᵀ = mx n n fun i j => Schur.rotV k p q (f i) j := by
    intro f
    rw [mx_transpose, mx_mul]
    exact mx_congr fun i j hi hj => hcol (f i) j hj
  have hleft : ∀ f : Nat → Nat → K, mx n n Q * mx n n f =
      mx n n fun i j => Schur.rotV k p q (fun c => f c j) i := by
    intro f
    rw [mx_mul]
    refine mx_congr fun i j hi hj => ?_
    rw [← hcol (fun c => f c j) i hi]
    exact sum_congr rfl fun c _ => mul_comm _ _
  refine h.sim (Q := mx n n Q) ?_ ?_ ?_
  · have h1 := Schur.rot_orth hpq hk (f := fun i j => if i = j then 1 else 0) (n := n)
      (g := fun i j => Q j i) (fun i j hi hj => by
        beta_reduce
        rw [← hcol _ j hj, sum_congr rfl fun c _ => by rw [ite_mul, one_mul, zero_mul], sum_ite_eq,
          if_pos (mem_range.2 hi)])
    rw [mx_one, Matrix.transpose_one, Matrix.one_mul] at h1
    exact mul_eq_one_comm.1 h1
  · rw [hright]
    exact mx_congr hP
  · rw [hleft, hright]
    exact mx_congr hV

end Linear
