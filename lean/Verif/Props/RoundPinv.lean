import Verif.Props.RoundRank
import Verif.Props.Round
import Verif.Props.RoundPow

/-!
# C119: the pseudo-inverse of the singular value decomposition in rounded arithmetic

`Spec.Penrose` (`Props/SvdUse.lean`) is the definition of the Moore-Penrose inverse.
-/

set_option linter.unusedSectionVars false

namespace Linear

open Spec Rnd Matrix
open Finset hiding val diag

variable {m n r c p : Nat}

/-! ## Matrices over ℝ -/

private theorem fro_err {q : Nat} {E P : Matrix (Fin m) (Fin q) ℝ} {g t : ℝ} (hg : 0 ≤ g) (ht : 0 ≤ t)
    (h : ∀ i j, |E i j| ≤ g * P i j + t) : fro E ≤ g * fro P + √(m * q) * t := by
  have h1 : fro E ≤ fro (g • P + Matrix.of fun _ _ => t) := by
    unfold fro
    refine Real.sqrt_le_sqrt (sum_le_sum fun i _ => sum_le_sum fun j _ => ?_)
    rw [← sq_abs]
    exact pow_le_pow_left₀ (abs_nonneg _) (h i j) 2
  have h2 : fro (g • P) = g * fro P := by
    unfold fro
    simp only [Matrix.smul_apply, smul_eq_mul, mul_pow, ← mul_sum]
    rw [Real.sqrt_mul (sq_nonneg g), Real.sqrt_sq hg]
  have h3 : fro (Matrix.of fun _ _ => t : Matrix (Fin m) (Fin q) ℝ) = √(m * q) * t := by
    unfold fro
    simp only [Matrix.of_apply, sum_const, card_univ, Fintype.card_fin, nsmul_eq_mul]
    rw [← mul_assoc, Real.sqrt_mul (by positivity), Real.sqrt_sq ht]
  exact h1.trans ((fro_add_le _ _).trans_eq (by rw [h2, h3]))

private theorem abs_fro {q : Nat} (M : Matrix (Fin m) (Fin q) ℝ) : fro (Matrix.of fun i j => |M i j|) = fro M := by
  unfold fro
  simp

private theorem fro_mul_diag {X : Matrix (Fin m) (Fin n) ℝ} {l : Fin n → ℝ} {b : ℝ} (hb : 0 ≤ b) (hl : ∀ i, |l i| ≤ b) :
    fro (X * Matrix.diagonal l) ≤ b * fro X := by
  have := fro_err (E := X * Matrix.diagonal l) (P := Matrix.of fun i j => |X i j|) (g := b) (t := 0) hb le_rfl fun i j => by
    rw [Matrix.mul_diagonal, abs_mul, Matrix.of_apply, _root_.add_zero, mul_comm]
    exact mul_le_mul_of_nonneg_right (hl j) (abs_nonneg _)
  rwa [abs_fro, mul_zero, _root_.add_zero] at this

private theorem fro_iso_tr {U : Matrix (Fin r) (Fin p) ℝ} (h : Uᵀ * U = 1) (M : Matrix (Fin c) (Fin p) ℝ) : fro (M * Uᵀ) = fro M := by
  rw [← fro_transpose, Matrix.transpose_mul, Matrix.transpose_transpose, fro_iso h, fro_transpose]

private theorem fro_dist {M N : Matrix (Fin m) (Fin n) ℝ} : fro M ≤ fro N + fro (M - N) := by
  have := fro_add_le N (M - N)
  rwa [add_sub_cancel] at this

/-- The product of two matrices given by the same orthonormal columns. -/
private theorem iso_mul {q : Nat} {X : Matrix (Fin m) (Fin p) ℝ} {V : Matrix (Fin c) (Fin p) ℝ} {W : Matrix (Fin q) (Fin p) ℝ}
    (hV : Vᵀ * V = 1) (d e : Fin p → ℝ) :
    X * Matrix.diagonal d * Vᵀ * (V * Matrix.diagonal e * Wᵀ) = X * Matrix.diagonal (fun i => d i * e i) * Wᵀ := by
  have : X * Matrix.diagonal d * Vᵀ * (V * Matrix.diagonal e * Wᵀ) = X * Matrix.diagonal d * (Vᵀ * V) * Matrix.diagonal e * Wᵀ := by
    simp only [Matrix.mul_assoc]
  rw [this, hV, Matrix.mul_one, Matrix.mul_assoc X, Matrix.diagonal_mul_diagonal]

/-- The Moore-Penrose inverse from orthonormal columns. -/
theorem penrose_iso {U : Matrix (Fin r) (Fin p) ℝ} {V : Matrix (Fin c) (Fin p) ℝ} (hU : Uᵀ * U = 1) (hV : Vᵀ * V = 1)
    {d e : Fin p → ℝ} (h1 : ∀ i, d i * e i * d i = d i) (h2 : ∀ i, e i * d i * e i = e i) :
    Penrose (U * Matrix.diagonal d * Vᵀ) (V * Matrix.diagonal e * Uᵀ) := by
  refine ⟨?_, ?_, ?_, ?_⟩
  · rw [iso_mul hV, iso_mul hU]
    simp only [h1]
  · rw [iso_mul hU, iso_mul hV]
    simp only [h2]
  · rw [iso_mul hV, Matrix.transpose_mul, Matrix.transpose_mul, Matrix.transpose_transpose, Matrix.diagonal_transpose, Matrix.mul_assoc]
  · rw [iso_mul hU, Matrix.transpose_mul, Matrix.transpose_mul, Matrix.transpose_transpose, Matrix.diagonal_transpose, Matrix.mul_assoc]

/-- The rank of a matrix made up of orthonormal columns and a diagonal. -/
theorem rank_iso {U : Matrix (Fin r) (Fin p) ℝ} {V : Matrix (Fin c) (Fin p) ℝ} (hU : Uᵀ * U = 1) (hV : Vᵀ * V = 1) (d : Nat → ℝ) :
    (U * Matrix.diagonal (fun i : Fin p => d i) * Vᵀ).rank = ((range p).filter fun i => d i ≠ 0).card := by
  have h1 : (U * Matrix.diagonal (fun i : Fin p => d i) * Vᵀ).rank = (Matrix.diagonal fun i : Fin p => d i).rank := by
    refine le_antisymm ?_ ?_
    · exact (Matrix.rank_mul_le_left _ _).trans (Matrix.rank_mul_le_right _ _)
    · have e : (Matrix.diagonal fun i : Fin p => d i) = Uᵀ * (U * Matrix.diagonal (fun i : Fin p => d i) * Vᵀ) * V := by
        have : Uᵀ * (U * Matrix.diagonal (fun i : Fin p => d i) * Vᵀ) * V = (Uᵀ * U) * Matrix.diagonal (fun i : Fin p => d i) * (Vᵀ * V) := by
          simp only [Matrix.mul_assoc]
        rw [this, hU, hV, Matrix.one_mul, Matrix.mul_one]
      conv_lhs => rw [e]
      exact (Matrix.rank_mul_le_left _ _).trans (Matrix.rank_mul_le_right _ _)
  rw [h1, Matrix.rank_diagonal, Fintype.card_subtype]
  refine Finset.card_bij (fun i _ => i.1) (fun i hi => ?_) (fun i _ j _ h => Fin.ext h) fun i hi => ?_
  · rw [Finset.mem_filter] at hi ⊢
    exact ⟨Finset.mem_range.2 i.2, hi.2⟩
  · rw [Finset.mem_filter, Finset.mem_range] at hi
    exact ⟨⟨i, hi.1⟩, by rw [Finset.mem_filter]; exact ⟨Finset.mem_univ _, hi.2⟩, rfl⟩

/-! ## The pseudo-inverse that the code computes -/

section free

variable {α : Type} [Flt α]

/-- The product of a matrix stored entry by entry with another one: all products are summed. -/
theorem mul_dense_terms {q : Nat} {a : Mat α r c} (ha : a.dense) (hr : 0 < r) (hc : 0 < c) (hq : 0 < q)
    {b : Mat α c q} {A B : Nat → Nat → α} (hA : Shows a.at r c A) (hB : Shows b.at c q B) :
    ∃ (m : Mat α r q) (M : Nat → Nat → α), a.multiply b = .ok ⟨r, q, m⟩ ∧ m.own ∧ Shows m.at r q M ∧
      ∀ i j, i < r → j < q → SumOf (M i j) (over (range c) fun k => Flt.mul (A i k) (B k j)) := by
  have conv : ∀ {A' B' : Nat → α} {i j : Nat} {x : α}, SumOf x (terms 0 c fun k => Flt.mul (A' k) (B' k)) → (∀ k, k < c → A' k = A i k) →
      (∀ k, k < c → B' k = B k j) → SumOf x (over (range c) fun k => Flt.mul (A i k) (B k j)) := fun {A' B' i j x} h h1 h2 => by
    rw [← over_range] at h
    convert h using 1
    refine Multiset.map_congr rfl fun k hk => ?_
    have := Finset.mem_range.1 hk
    rw [h1 k this, h2 k this]
  revert ha hA
  cases a with
  | arr a =>
    intro _ hA
    obtain ⟨m, e, h⟩ := C10_bits a hr hc hA hB
    exact ⟨.arr m, _, e, trivial, h, fun i j hi hj => conv (.left 0 c _) (fun _ _ => rfl) fun _ _ => rfl⟩
  | blk a =>
    intro _ hA
    by_cases hb : ∃ m, b = .blk m
    · obtain ⟨b, rfl⟩ := hb
      obtain ⟨m, e, h⟩ := a.multiply_blk b hr hq
      exact ⟨.blk m, _, by rw [Mat.multiply, e]; rfl, Mat.own_blk _, h, fun i j hi hj =>
        conv (.bdot c _ _) (fun k hk => Blk.entB_of hA hi hk) fun k hk => Blk.entB_of hB hk hj⟩
    · obtain ⟨m, e, h⟩ := a.multiply_gen b (fun m hm => hb ⟨m, hm⟩) hr hq
      exact ⟨.blk m, _, by rw [Mat.multiply, e]; rfl, Mat.own_blk _, h, fun i j hi hj =>
        conv (.gdot c _ _) (fun k hk => Blk.entB_of hA hi hk) fun k hk => Mat.ent_of hB hk hj⟩
  | dia a => exact fun h => h.elim
  | ext a => exact fun h => h.elim

/-- Without any law of the arithmetic: the entries of the pseudo-inverse are the sums, in some order, of the products of a row of
`V` with a row of `U` times the factors. -/
theorem C119_terms {s : Svd α} {U V : Nat → Nat → α} {σ : Nat → α} (h : HoldsSvd s r c p U V σ) (hr : 0 < r)
    (hc : 0 < c) (hp : 0 < p) :
    ∃ (m : Mat α c r) (P : Nat → Nat → α), s.pinv = .ok ⟨c, r, m⟩ ∧ m.own ∧ Shows m.at c r P ∧
      ∀ i j, i < c → j < r → SumOf (P i j) (over (range p) fun k => Flt.mul (V i k) (Flt.mul (U j k)
        (if Flt.lt s.tol (σ k) = true then Flt.div Flt.one (σ k) else Flt.zero))) := by
  obtain ⟨ut, e1, h1, h2⟩ := h.uT hr
  have hv := h.vals
  obtain ⟨mv, ev, v1, v2⟩ := h.right
  obtain ⟨d, e2, h3⟩ := Mat.dataCopy_ok (Mat.dense_own h1) hr h2
  obtain ⟨d', e3, h4, -⟩ := Tab.rowsLoop (ε := Fault) (a := 0) (b := p) (p := 0) (q := r)
    (fun i _ x => Flt.mul x (s.factor (σ i))) (t := d)
    (body := fun i (d : Tab α p r) => do
      let sv ← rdL s.sv i
      forUp 0 r (fun j (d : Tab α p r) => do
        d.set i j (Flt.mul (← d.get i j) (s.factor sv))) d)
    (fun i t' _ hi ht => by
      rw [rdL_eq_ok.2 (hv.2 i hi), ok_bind]
      obtain ⟨t'', e, q1, q2⟩ := Tab.rowLoop (ε := Fault) (a := 0) (b := r) (i := i)
        (fun _ x => Flt.mul x (s.factor (σ i))) (t := t')
        (body := fun j (d : Tab α p r) => do d.set i j (Flt.mul (← d.get i j) (s.factor (σ i))))
        (fun j t1 g1 g2 g3 => by
          rw [Tab.get_ok hi g2, ok_bind, Tab.set_ok hi g2, g3 _ _ (by omega)])
      exact ⟨t'', e, fun j g1 g2 => by rw [q1 j g1 g2, ht _ _ (by omega)], fun x y g => q2 x y (by omega)⟩)
  obtain ⟨mt, e4, h5, -⟩ := Arr.copyIn_ok (Jag.toLists_rect d') hp hr
  obtain ⟨m, P, e5, h6, h7, h8⟩ := mul_dense_terms v1 hc hp hr v2 (Mat.at_shows (.arr mt))
  unfold Svd.pinv
  rw [e1, ok_bind]
  dsimp only
  rw [e2, ok_bind, hv.1, e3, ok_bind, e4, must_ok, ok_bind]
  refine ⟨m, P, ?_, h6, h7, fun i j hi hj => ?_⟩
  · obtain ⟨sv, big, u, v, tol⟩ := s
    dsimp only at ev
    subst ev
    exact e5
  · convert h8 i j hi hj using 1
    refine Multiset.map_congr rfl fun k hk => ?_
    have hk := Finset.mem_range.1 hk
    congr 1
    show _ = mt.data.f k j
    rw [h5 k j hk hj, h4 k j (Nat.zero_le _) hk (Nat.zero_le _) hj, h3 k j hk hj]
    rfl

end free

section round

variable {α : Type} [Flt α] [Rnd α]

/-- Error of the computed pseudo-inverse: `δ` and `δ'` are the distances of the factors `U` and `V` from orthonormal columns, `M` is a
bound for the reciprocals of the singular values kept. -/
noncomputable def Spec.pinvErr (α : Type) [Flt α] [Rnd α] (r c p : Nat) (δ δ' M : ℝ) : ℝ :=
  let e := (u α * M + η α + u α * (M + (u α * M + η α))) * (√p + δ) + √(r * p) * η α
  (δ' + gam α p * (√p + δ')) * (M * (√p + δ) + e) + e + M * δ + √(c * r) * (p * (1 + u α) ^ p * η α)

/-- The norm argument: `W` are the scaled rows of `U`, `P` the product. -/
private theorem pinv_norm {U U₀ W : Matrix (Fin r) (Fin p) ℝ} {V V₀ : Matrix (Fin c) (Fin p) ℝ} {P : Matrix (Fin c) (Fin r) ℝ}
    {ρ : Fin p → ℝ} {δ δ' M e g t : ℝ} (hU : U₀ᵀ * U₀ = 1) (hV : V₀ᵀ * V₀ = 1) (nU : fro (U - U₀) ≤ δ) (nV : fro (V - V₀) ≤ δ')
    (hM : 0 ≤ M) (hρ : ∀ k, |ρ k| ≤ M) (hg : 0 ≤ g) (hW : fro (W - U * Matrix.diagonal ρ) ≤ e)
    (hP : fro (P - V * Wᵀ) ≤ g * (fro V * fro W) + t) :
    fro (P - V₀ * Matrix.diagonal ρ * U₀ᵀ) ≤ (δ' + g * (√p + δ')) * (M * (√p + δ) + e) + e + M * δ + t := by
  have bU : fro U ≤ √p + δ := by
    have := fro_dist (M := U) (N := U₀)
    rw [fro_cols hU] at this
    linarith
  have bV : fro V ≤ √p + δ' := by
    have := fro_dist (M := V) (N := V₀)
    rw [fro_cols hV] at this
    linarith
  have bW : fro W ≤ M * (√p + δ) + e := by
    have h1 := fro_dist (M := W) (N := U * Matrix.diagonal ρ)
    have h2 := fro_mul_diag (X := U) hM hρ
    have h3 := mul_le_mul_of_nonneg_left bU hM
    linarith
  have h1 : fro (W - U₀ * Matrix.diagonal ρ) ≤ e + M * δ := by
    have e1 : W - U₀ * Matrix.diagonal ρ = (W - U * Matrix.diagonal ρ) + (U - U₀) * Matrix.diagonal ρ := by
      rw [Matrix.sub_mul]; abel
    rw [e1]
    have h2 := fro_add_le (W - U * Matrix.diagonal ρ) ((U - U₀) * Matrix.diagonal ρ)
    have h3 := fro_mul_diag (X := U - U₀) hM hρ
    have h4 := mul_le_mul_of_nonneg_left nU hM
    linarith
  have e2 : P - V₀ * Matrix.diagonal ρ * U₀ᵀ = (P - V * Wᵀ) + ((V - V₀) * Wᵀ + V₀ * (W - U₀ * Matrix.diagonal ρ)ᵀ) := by
    rw [Matrix.transpose_sub, Matrix.transpose_mul, Matrix.diagonal_transpose, Matrix.mul_sub, Matrix.sub_mul, Matrix.mul_assoc]
    abel
  rw [e2]
  have k1 := fro_add_le (P - V * Wᵀ) ((V - V₀) * Wᵀ + V₀ * (W - U₀ * Matrix.diagonal ρ)ᵀ)
  have k2 := fro_add_le ((V - V₀) * Wᵀ) (V₀ * (W - U₀ * Matrix.diagonal ρ)ᵀ)
  have k3 := fro_mul_le (V - V₀) Wᵀ
  rw [fro_iso hV, fro_transpose] at k2
  rw [fro_transpose] at k3
  have k4 : fro (V - V₀) * fro W ≤ δ' * (M * (√p + δ) + e) := mul_le_mul nV bW (fro_nonneg _) ((fro_nonneg _).trans nV)
  have k5 : fro V * fro W ≤ (√p + δ') * (M * (√p + δ) + e) := mul_le_mul bV bW (fro_nonneg _) ((fro_nonneg _).trans bV)
  have k6 := mul_le_mul_of_nonneg_left k5 hg
  nlinarith

/-- **C119, the pseudo-inverse.**  `U₀` and `V₀` are orthonormal columns near to the computed ones. The computed pseudo-inverse is near to
the Moore-Penrose inverse of a matrix whose rank is that of the decomposition and which differs from `U₀ Σ V₀ᵀ` by no more than the
tolerance for each column. -/
theorem C119_near {s : Svd α} {U V : Nat → Nat → α} {σ : Nat → α} (h : HoldsSvd s r c p U V σ) (hr : 0 < r) (hc : 0 < c) (hp : 0 < p)
    (ft : fin s.tol) (t0 : 0 < val s.tol) (fs : ∀ i, i < p → fin (σ i)) (s0 : ∀ i, i < p → 0 ≤ val (σ i))
    {U₀ : Matrix (Fin r) (Fin p) ℝ} {V₀ : Matrix (Fin c) (Fin p) ℝ} (hU : U₀ᵀ * U₀ = 1) (hV : V₀ᵀ * V₀ = 1) {δ δ' : ℝ}
    (nU : fro ((mx r p fun i j => val (U i j)) - U₀) ≤ δ) (nV : fro ((mx c p fun i j => val (V i j)) - V₀) ≤ δ') :
    ∃ (m : Mat α c r) (P : Nat → Nat → α), s.pinv = .ok ⟨c, r, m⟩ ∧ m.own ∧ Shows m.at c r P ∧
      ((∀ i j, i < c → j < r → fin (P i j)) → ∃ (A : Matrix (Fin r) (Fin c) ℝ) (B : Matrix (Fin c) (Fin r) ℝ), Penrose A B ∧
        A.rank = s.rank ∧ fro B ≤ √p / val s.tol ∧
        fro (U₀ * Matrix.diagonal (fun i : Fin p => val (σ i)) * V₀ᵀ - A) ≤ √p * val s.tol ∧
        (s.rank = p → A = U₀ * Matrix.diagonal (fun i : Fin p => val (σ i)) * V₀ᵀ ∧ (r = p → A * B = 1) ∧ (c = p → B * A = 1)) ∧
        fro ((mx c r fun i j => val (P i j)) - B) ≤ pinvErr α r c p δ δ' (1 / val s.tol)) := by
  obtain ⟨m, P, e1, h1, h2, h3⟩ := C119_terms h hr hc hp
  refine ⟨m, P, e1, h1, h2, fun fP => ?_⟩
  have hu := u_nonneg (α := α)
  have hη := η_nonneg (α := α)
  have lt : ∀ k, k < p → (Flt.lt s.tol (σ k) = true ↔ val s.tol < val (σ k)) := fun k hk => lt_iff ft (fs k hk)
  let a : Nat → α := fun k => if Flt.lt s.tol (σ k) = true then Flt.div Flt.one (σ k) else Flt.zero
  let d : Nat → ℝ := fun k => if val s.tol < val (σ k) then val (σ k) else 0
  let ρ : Nat → ℝ := fun k => if val s.tol < val (σ k) then 1 / val (σ k) else 0
  have hM : 0 ≤ 1 / val s.tol := by positivity
  have hρ : ∀ k : Fin p, |ρ k| ≤ 1 / val s.tol := fun k => by
    show |if val s.tol < val (σ k) then 1 / val (σ k) else 0| ≤ _
    split_ifs with g
    · rw [abs_of_nonneg (one_div_nonneg.2 (t0.trans g).le)]
      exact one_div_le_one_div_of_le t0 g.le
    · rw [abs_zero]; exact hM
  have nB : fro (V₀ * Matrix.diagonal (fun i : Fin p => ρ i) * U₀ᵀ) ≤ √p / val s.tol := by
    rw [fro_iso_tr hU]
    refine (fro_mul_diag hM hρ).trans_eq ?_
    rw [fro_cols hV]
    ring
  have nA : fro (U₀ * Matrix.diagonal (fun i : Fin p => val (σ i)) * V₀ᵀ - U₀ * Matrix.diagonal (fun i : Fin p => d i) * V₀ᵀ) ≤
      √p * val s.tol := by
    rw [← Matrix.sub_mul, ← Matrix.mul_sub, Matrix.diagonal_sub, fro_iso_tr hV]
    refine (fro_mul_diag t0.le fun i => ?_).trans_eq (by rw [fro_cols hU, mul_comm])
    show |val (σ i) - if val s.tol < val (σ i) then val (σ i) else 0| ≤ _
    split_ifs with g
    · rw [sub_self, abs_zero]; exact t0.le
    · rw [sub_zero, abs_of_nonneg (s0 i i.2)]; exact not_lt.1 g
  have rk : ((range p).filter fun i => d i ≠ 0) = (range p).filter fun i => Flt.lt s.tol (σ i) = true := by
    refine Finset.filter_congr fun k hk => ?_
    rw [lt k (Finset.mem_range.1 hk)]
    show (if val s.tol < val (σ k) then val (σ k) else 0) ≠ 0 ↔ _
    split_ifs with g
    · exact ⟨fun _ => g, fun _ => (t0.trans g).ne'⟩
    · exact ⟨fun h => absurd rfl h, fun h => absurd h g⟩
  refine ⟨_, _, penrose_iso hU hV (d := fun i : Fin p => d i) (e := fun i : Fin p => ρ i) (fun i => ?_) (fun i => ?_), ?_, nB, nA, fun hrk => ?_, ?_⟩
  · show (if val s.tol < val (σ i) then val (σ i) else 0) * (if val s.tol < val (σ i) then 1 / val (σ i) else 0) *
      (if val s.tol < val (σ i) then val (σ i) else 0) = if val s.tol < val (σ i) then val (σ i) else 0
    split_ifs with g
    · have := (t0.trans g).ne'
      field_simp
    · ring
  · show (if val s.tol < val (σ i) then 1 / val (σ i) else 0) * (if val s.tol < val (σ i) then val (σ i) else 0) *
      (if val s.tol < val (σ i) then 1 / val (σ i) else 0) = if val s.tol < val (σ i) then 1 / val (σ i) else 0
    split_ifs with g
    · have := (t0.trans g).ne'
      field_simp
    · ring
  · rw [rank_iso hU hV, rk, Svd.rank_filter h]
  · rw [Svd.rank_filter h] at hrk
    have hall := Finset.filter_card_eq (s := range p) (by rw [hrk, Finset.card_range])
    have hall' : ∀ i : Fin p, val s.tol < val (σ i) := fun i => (lt i i.2).1 (hall i (Finset.mem_range.2 i.2))
    have one : ∀ i : Fin p, d i * ρ i = 1 := fun i => by
      show (if val s.tol < val (σ i) then val (σ i) else 0) * (if val s.tol < val (σ i) then 1 / val (σ i) else 0) = 1
      have := (t0.trans (hall' i)).ne'
      rw [if_pos (hall' i), if_pos (hall' i), mul_one_div_cancel this]
    refine ⟨?_, fun e => ?_, fun e => ?_⟩
    · congr 3
      funext i
      show (if val s.tol < val (σ i) then val (σ i) else 0) = _
      rw [if_pos (hall' i)]
    · rw [iso_mul hV]
      simp only [one]
      subst e
      rw [Matrix.diagonal_one, Matrix.mul_one, mul_eq_one_comm.1 hU]
    · rw [iso_mul hU]
      simp only [fun i : Fin p => (mul_comm (ρ i) (d i)).trans (one i)]
      subst e
      rw [Matrix.diagonal_one, Matrix.mul_one, mul_eq_one_comm.1 hV]
  · have fW : ∀ i j k, i < c → j < r → k < p → fin (Flt.mul (U j k) (a k)) := fun i j k hi hj hk =>
      (((h3 i j hi hj).prods (fP i j hi hj)).1 k (Finset.mem_range.2 hk)).2
    have fa : ∀ k, k < p → fin (a k) := fun k hk => (mul_fin (fW 0 0 k hc hr hk)).2
    have ea : ∀ k, k < p → |val (a k) - ρ k| ≤ u α * (1 / val s.tol) + η α := fun k hk => by
      have f := fa k hk
      have b := hρ ⟨k, hk⟩
      show |val (if Flt.lt s.tol (σ k) = true then Flt.div Flt.one (σ k) else Flt.zero) - if val s.tol < val (σ k) then 1 / val (σ k) else 0| ≤ _
      change fin (if Flt.lt s.tol (σ k) = true then Flt.div Flt.one (σ k) else Flt.zero) at f
      change |if val s.tol < val (σ k) then 1 / val (σ k) else 0| ≤ _ at b
      by_cases g : val s.tol < val (σ k)
      · rw [if_pos g] at b ⊢
        rw [if_pos ((lt k hk).2 g)] at f ⊢
        have := (div_err f (fs k hk)).1
        rw [val_one] at this
        exact this.trans (add_le_add (mul_le_mul_of_nonneg_left b hu) le_rfl)
      · rw [if_neg g, if_neg (fun q => g ((lt k hk).1 q)), val_zero, sub_zero, abs_zero]
        positivity
    refine pinv_norm (W := mx r p fun j k => val (Flt.mul (U j k) (a k))) (U := mx r p fun i j => val (U i j))
      (V := mx c p fun i j => val (V i j)) (g := gam α p) hU hV nU nV hM hρ (gam_nonneg p) ?_ ?_
    · have key := fro_err (E := (mx r p fun j k => val (Flt.mul (U j k) (a k))) -
          (mx r p fun i j => val (U i j)) * Matrix.diagonal fun i : Fin p => ρ i)
        (P := Matrix.of fun i j => |(mx r p fun i j => val (U i j)) i j|)
        (g := u α * (1 / val s.tol) + η α + u α * (1 / val s.tol + (u α * (1 / val s.tol) + η α))) (t := η α) (by positivity) hη
        fun i j => by
          rw [Matrix.sub_apply, Matrix.mul_diagonal]
          show |val (Flt.mul (U i j) (a j)) - val (U i j) * ρ j| ≤ _ * |val (U i j)| + η α
          have q1 := (mul_err (fW 0 i j hc i.2 j.2)).1
          have q2 := ea j j.2
          have q3 : |val (a j)| ≤ 1 / val s.tol + (u α * (1 / val s.tol) + η α) := by
            have := abs_sub_abs_le_abs_sub (val (a j)) (ρ j)
            linarith [hρ j]
          have q4 : |val (U i j) * val (a j) - val (U i j) * ρ j| ≤ |val (U i j)| * (u α * (1 / val s.tol) + η α) := by
            rw [← mul_sub, abs_mul]
            exact mul_le_mul_of_nonneg_left q2 (abs_nonneg _)
          have q5 : u α * |val (U i j) * val (a j)| ≤ u α * (|val (U i j)| * (1 / val s.tol + (u α * (1 / val s.tol) + η α))) := by
            rw [abs_mul]
            exact mul_le_mul_of_nonneg_left (mul_le_mul_of_nonneg_left q3 (abs_nonneg _)) hu
          have q6 := abs_sub_le (val (Flt.mul (U i j) (a j))) (val (U i j) * val (a j)) (val (U i j) * ρ j)
          refine q6.trans ((add_le_add q1 q4).trans ?_)
          linarith
      rw [abs_fro] at key
      refine key.trans (add_le_add (mul_le_mul_of_nonneg_left ?_ (by positivity)) le_rfl)
      have := fro_dist (M := mx r p fun i j => val (U i j)) (N := U₀)
      rw [fro_cols hU] at this
      linarith
    · have key := fro_err (E := (mx c r fun i j => val (P i j)) - (mx c p fun i j => val (V i j)) *
          (mx r p fun j k => val (Flt.mul (U j k) (a k)))ᵀ)
        (P := (Matrix.of fun i j => |(mx c p fun i j => val (V i j)) i j|) *
          (Matrix.of fun i j => |(mx r p fun j k => val (Flt.mul (U j k) (a k))) i j|)ᵀ)
        (g := gam α p) (t := p * (1 + u α) ^ p * η α) (gam_nonneg p) (by positivity) fun i j => by
          have q := ((h3 i j i.2 j.2).prods (fP i j i.2 j.2)).2
          rw [Finset.card_range] at q
          rw [Matrix.sub_apply, Matrix.mul_apply, Matrix.mul_apply]
          rw [← Fin.sum_univ_eq_sum_range fun k => val (V i k) * val (Flt.mul (U j k) (a k)),
            ← Fin.sum_univ_eq_sum_range fun k => |val (V i k)| * |val (Flt.mul (U j k) (a k))|] at q
          exact q
      refine key.trans (add_le_add (mul_le_mul_of_nonneg_left ?_ (gam_nonneg p)) le_rfl)
      refine (fro_mul_le _ _).trans_eq ?_
      rw [fro_transpose, abs_fro, abs_fro]

/-- `P` is nearly the Moore-Penrose inverse of a matrix of rank `k` near to `A`: `e` and `f` are the distances, `b` bounds the inverse. -/
structure Spec.NearPinv (k : Nat) (e f b : ℝ) (A : Matrix (Fin r) (Fin c) ℝ) (P : Matrix (Fin c) (Fin r) ℝ) : Prop where
  near : ∃ (A' : Matrix (Fin r) (Fin c) ℝ) (B : Matrix (Fin c) (Fin r) ℝ), Penrose A' B ∧ A'.rank = k ∧ fro (A - A') ≤ e ∧
    fro B ≤ b ∧ fro (P - B) ≤ f

/-- **C119, from the matrix**, with at least as many rows as columns.  The computed pseudo-inverse is near to the exact one of a matrix
near to the given one; when all singular values are kept, it is nearly a left inverse of the given matrix itself. -/
theorem C119_tall {κ : Svd.Lit α} {ε ω : ℝ} (he : u α ≤ ε) (hM : (r + 4) * ε ≤ 1 / 250) (hω : η α ≤ ω) (hω1 : ω ≤ 1 / 100)
    (hyp : HypNear ε κ.hyp) (f1 : fin κ.eps) (b1 : |val κ.eps| ≤ ε) (f2 : fin κ.tiny) (b2 : |val κ.tiny| ≤ ω) (hc : 0 < c)
    (hrc : c ≤ r) (fuel : Nat) {a : Mat α r c} (ha : a.own) {A : Nat → Nat → α} (hA : Shows a.at r c A)
    (F : RedFin κ.hyp r c A) {b N E D : ℝ} (hb : b = fro (mx r c fun i j => val (A i j))) (hN : N = b + redErr r c ε (η α) b)
    (room : 16 * (rotErr (75 * ε) (75 * ω) 0 N (fuel * (2 * c + 2)) + N) ≤ big α)
    (hE : E = svdErr r c (fuel * (2 * c + 2)) ε ω (η α) b) {s : Svd α} (hs : Svd.new κ fuel a = .ok (some s))
    (hD : D = pinvErr α r c c (svdFac r c r (fuel * (2 * c + 2)) ε (η α)) (svdFac r c c (fuel * (2 * c + 2)) ε (η α)) (1 / val s.tol)) :
    ∃ U V σ, HoldsSvd s r c c U V σ ∧
      ((∀ i j, i < r → j < c → fin (U i j)) → (∀ i j, i < c → j < c → fin (V i j)) → fin s.tol → 0 < val s.tol →
        ∃ (m : Mat α c r) (P : Nat → Nat → α), s.pinv = .ok ⟨c, r, m⟩ ∧ m.own ∧ Shows m.at c r P ∧
          ((∀ i j, i < c → j < r → fin (P i j)) →
            NearPinv s.rank (E + √c * val s.tol) D (√c / val s.tol) (mx r c fun i j => val (A i j)) (mx c r fun i j => val (P i j)) ∧
            (s.rank = c → fro ((mx c r fun i j => val (P i j)) * (mx r c fun i j => val (A i j)) - 1) ≤
              (√c / val s.tol + D) * E + D * (b + E)) ∧
            (s.isNonSingular = true → fro ((mx r c fun i j => val (A i j)) * (mx c r fun i j => val (P i j)) - 1) ≤
              (√c / val s.tol + D) * E + D * (b + E)))) := by
  rcases C116_tall he hM hω hω1 hyp f1 b1 f2 b2 hc hrc fuel ha hA F (by rw [hN, hb]) room with h | ⟨s', U, V, σ, e, hold, H⟩
  · rw [hs] at h; cases h
  · rw [hs] at e
    obtain rfl : s = s' := by injection e with e; injection e
    refine ⟨U, V, σ, hold, fun g1 g2 ft t0 => ?_⟩
    obtain ⟨fs, nr⟩ := H g1 g2
    obtain ⟨U₀, V₀, oU, oV, nU, nV, nE⟩ := nr.near
    obtain ⟨m, P, q1, q2, q3, q4⟩ := C119_near hold (hc.trans_le hrc) hc hc ft t0 fs nr.pos oU oV nU nV
    refine ⟨m, P, q1, q2, q3, fun fP => ?_⟩
    obtain ⟨A', B, pen, rk, nB, nA, full, nP⟩ := q4 fP
    rw [← hD] at nP
    have nE' : fro ((mx r c fun i j => val (A i j)) - U₀ * Matrix.diagonal (fun i : Fin c => val (σ i)) * V₀ᵀ) ≤ E := by
      rw [hE, hb]; exact nE
    have bP : fro (mx c r fun i j => val (P i j)) ≤ √c / val s.tol + D := by
      have := fro_dist (M := mx c r fun i j => val (P i j)) (N := B)
      linarith
    have D0 : 0 ≤ D := (fro_nonneg _).trans nP
    have E0 : 0 ≤ E := (fro_nonneg _).trans nE'
    have bA : s.rank = c → fro ((mx r c fun i j => val (A i j)) - A') ≤ E ∧ fro A' ≤ b + E := fun hk => by
      rw [(full hk).1]
      have := fro_dist (M := U₀ * Matrix.diagonal (fun i : Fin c => val (σ i)) * V₀ᵀ) (N := mx r c fun i j => val (A i j))
      rw [fro_sub_comm, ← hb] at this
      exact ⟨nE', by linarith⟩
    refine ⟨⟨A', B, pen, rk, ?_, nB, nP⟩, fun hk => ?_, fun hk => ?_⟩
    · have := fro_add_le ((mx r c fun i j => val (A i j)) - U₀ * Matrix.diagonal (fun i : Fin c => val (σ i)) * V₀ᵀ)
        (U₀ * Matrix.diagonal (fun i : Fin c => val (σ i)) * V₀ᵀ - A')
      rw [sub_add_sub_cancel] at this
      linarith
    · obtain ⟨k1, k2⟩ := bA hk
      rw [← (full hk).2.2 rfl]
      have e1 : (mx c r fun i j => val (P i j)) * (mx r c fun i j => val (A i j)) - B * A' =
          (mx c r fun i j => val (P i j)) * ((mx r c fun i j => val (A i j)) - A') + ((mx c r fun i j => val (P i j)) - B) * A' := by
        rw [Matrix.mul_sub, Matrix.sub_mul]; abel
      rw [e1]
      refine (fro_add_le _ _).trans (add_le_add ((fro_mul_le _ _).trans ?_) ((fro_mul_le _ _).trans ?_))
      · exact mul_le_mul bP k1 (fro_nonneg _) ((fro_nonneg _).trans bP)
      · exact mul_le_mul nP k2 (fro_nonneg _) D0
    · unfold Svd.isNonSingular at hk
      rw [beq_iff_eq, hold.big, max_eq_left hrc] at hk
      have h4 := A'.rank_le_width
      have hkc : s.rank = c := by omega
      obtain ⟨k1, k2⟩ := bA hkc
      rw [← (full hkc).2.1 (by omega)]
      have e1 : (mx r c fun i j => val (A i j)) * (mx c r fun i j => val (P i j)) - A' * B =
          ((mx r c fun i j => val (A i j)) - A') * (mx c r fun i j => val (P i j)) + A' * ((mx c r fun i j => val (P i j)) - B) := by
        rw [Matrix.mul_sub, Matrix.sub_mul]; abel
      rw [e1]
      refine (fro_add_le _ _).trans (add_le_add ((fro_mul_le _ _).trans ?_) ((fro_mul_le _ _).trans ?_))
      · rw [mul_comm]
        exact mul_le_mul bP k1 (fro_nonneg _) ((fro_nonneg _).trans bP)
      · rw [mul_comm]
        exact mul_le_mul nP k2 (fro_nonneg _) D0

/-- **C119, from the matrix**, with more columns than rows; when all singular values are kept, the result is nearly a right inverse. -/
theorem C119_wide {κ : Svd.Lit α} {ε ω : ℝ} (he : u α ≤ ε) (hM : (c + 4) * ε ≤ 1 / 250) (hω : η α ≤ ω) (hω1 : ω ≤ 1 / 100)
    (hyp : HypNear ε κ.hyp) (f1 : fin κ.eps) (b1 : |val κ.eps| ≤ ε) (f2 : fin κ.tiny) (b2 : |val κ.tiny| ≤ ω) (hr : 0 < r)
    (hrc : r < c) (fuel : Nat) {a : Mat α r c} (ha : a.own) {A : Nat → Nat → α} (hA : Shows a.at r c A)
    (F : RedFin κ.hyp c r fun i j => A j i) {b N E D : ℝ} (hb : b = fro (mx r c fun i j => val (A i j)))
    (hN : N = b + redErr c r ε (η α) b)
    (room : 16 * (rotErr (75 * ε) (75 * ω) 0 N (fuel * (2 * r + 2)) + N) ≤ big α)
    (hE : E = svdErr c r (fuel * (2 * r + 2)) ε ω (η α) b) {s : Svd α} (hs : Svd.new κ fuel a = .ok (some s))
    (hD : D = pinvErr α r c r (svdFac c r r (fuel * (2 * r + 2)) ε (η α)) (svdFac c r c (fuel * (2 * r + 2)) ε (η α)) (1 / val s.tol)) :
    ∃ U V σ, HoldsSvd s r c r U V σ ∧
      ((∀ i j, i < r → j < r → fin (U i j)) → (∀ i j, i < c → j < r → fin (V i j)) → fin s.tol → 0 < val s.tol →
        ∃ (m : Mat α c r) (P : Nat → Nat → α), s.pinv = .ok ⟨c, r, m⟩ ∧ m.own ∧ Shows m.at c r P ∧
          ((∀ i j, i < c → j < r → fin (P i j)) →
            NearPinv s.rank (E + √r * val s.tol) D (√r / val s.tol) (mx r c fun i j => val (A i j)) (mx c r fun i j => val (P i j)) ∧
            (s.rank = r → fro ((mx r c fun i j => val (A i j)) * (mx c r fun i j => val (P i j)) - 1) ≤
              (√r / val s.tol + D) * E + D * (b + E)))) := by
  have eT : (mx c r fun i j => val (A j i)) = (mx r c fun i j => val (A i j))ᵀ := rfl
  have eb : fro (mx c r fun i j => val (A j i)) = b := by rw [eT, fro_transpose, hb]
  rcases C116_wide he hM hω hω1 hyp f1 b1 f2 b2 hr hrc fuel ha hA F (by rw [hN, eb]) room with h | ⟨s', U, V, σ, e, hold, H⟩
  · rw [hs] at h; cases h
  · rw [hs] at e
    obtain rfl : s = s' := by injection e with e; injection e
    refine ⟨U, V, σ, hold, fun g1 g2 ft t0 => ?_⟩
    obtain ⟨fs, nr⟩ := H g1 g2
    obtain ⟨V₀, U₀, oV, oU, nV, nU, nE⟩ := nr.near
    obtain ⟨m, P, q1, q2, q3, q4⟩ := C119_near hold hr (hr.trans hrc) hr ft t0 fs nr.pos oU oV nU nV
    refine ⟨m, P, q1, q2, q3, fun fP => ?_⟩
    obtain ⟨A', B, pen, rk, nB, nA, full, nP⟩ := q4 fP
    rw [← hD] at nP
    have nE' : fro ((mx r c fun i j => val (A i j)) - U₀ * Matrix.diagonal (fun i : Fin r => val (σ i)) * V₀ᵀ) ≤ E := by
      rw [eT] at nE
      rw [← fro_transpose, Matrix.transpose_sub, Matrix.transpose_mul, Matrix.transpose_mul, Matrix.transpose_transpose,
        Matrix.diagonal_transpose, ← Matrix.mul_assoc, hE, hb, ← fro_transpose (mx r c fun i j => val (A i j))]
      exact nE
    have bP : fro (mx c r fun i j => val (P i j)) ≤ √r / val s.tol + D := by
      have := fro_dist (M := mx c r fun i j => val (P i j)) (N := B)
      linarith
    have D0 : 0 ≤ D := (fro_nonneg _).trans nP
    refine ⟨⟨A', B, pen, rk, ?_, nB, nP⟩, fun hk => ?_⟩
    · have := fro_add_le ((mx r c fun i j => val (A i j)) - U₀ * Matrix.diagonal (fun i : Fin r => val (σ i)) * V₀ᵀ)
        (U₀ * Matrix.diagonal (fun i : Fin r => val (σ i)) * V₀ᵀ - A')
      rw [sub_add_sub_cancel] at this
      linarith
    · have k1 : fro ((mx r c fun i j => val (A i j)) - A') ≤ E := by rw [(full hk).1]; exact nE'
      have k2 : fro A' ≤ b + E := by
        have := fro_dist (M := A') (N := mx r c fun i j => val (A i j))
        rw [fro_sub_comm, ← hb] at this
        linarith
      rw [← (full hk).2.1 rfl]
      have e1 : (mx r c fun i j => val (A i j)) * (mx c r fun i j => val (P i j)) - A' * B =
          ((mx r c fun i j => val (A i j)) - A') * (mx c r fun i j => val (P i j)) + A' * ((mx c r fun i j => val (P i j)) - B) := by
        rw [Matrix.mul_sub, Matrix.sub_mul]; abel
      rw [e1]
      refine (fro_add_le _ _).trans (add_le_add ((fro_mul_le _ _).trans ?_) ((fro_mul_le _ _).trans ?_))
      · rw [mul_comm]
        exact mul_le_mul bP k1 (fro_nonneg _) ((fro_nonneg _).trans bP)
      · rw [mul_comm]
        exact mul_le_mul nP k2 (fro_nonneg _) D0

/-- **C119, the solver.**  `SolveMatrix` and `SolveVector` apply the computed pseudo-inverse `P`; when it is within `f` of `B`, the result
is near to `B Y`. -/
theorem C119_solve {s : Svd α} (hr : 0 < r) (hc : 0 < c) {m : Mat α c r} {P : Nat → Nat → α} (hs : s.pinv = .ok ⟨c, r, m⟩) (ho : m.own)
    (hP : Shows m.at c r P) {B : Matrix (Fin c) (Fin r) ℝ} {f b : ℝ} (nP : fro ((mx c r fun i j => val (P i j)) - B) ≤ f) (nB : fro B ≤ b) :
    (∀ {q : Nat} (_ : 0 < q) {y : Mat α r q} {Y : Nat → Nat → α}, Shows y.at r q Y → ∃ (x : Mat α c q) (X : Nat → Nat → α),
      s.solveMatrix ⟨r, q, y⟩ = .ok ⟨c, q, x⟩ ∧ x.own ∧ Shows x.at c q X ∧ ((∀ i j, i < c → j < q → fin (X i j)) →
        fro ((mx c q fun i j => val (X i j)) - B * mx r q fun i j => val (Y i j)) ≤
          (f + gam α r * (b + f)) * fro (mx r q fun i j => val (Y i j)) + √(c * q) * (r * (1 + u α) ^ r * η α))) ∧
    ∀ {v : List α} {y : Nat → α}, IsList v r y → ∃ (l : List α) (x : Nat → α), s.solveVector (.arr v) = .ok l ∧ IsList l c x ∧
      ((∀ i, i < c → fin (x i)) →
        fro ((mx c 1 fun i _ => val (x i)) - B * mx r 1 fun i _ => val (y i)) ≤
          (f + gam α r * (b + f)) * fro (mx r 1 fun i _ => val (y i)) + √(c * (1 : Nat)) * (r * (1 + u α) ^ r * η α)) := by
  have hη := η_nonneg (α := α)
  have hu := u_nonneg (α := α)
  have core : ∀ {q : Nat} {X Y : Nat → Nat → α}, (∀ i j, i < c → j < q → DotOf r (P i) (fun k => Y k j) (X i j)) →
      (∀ i j, i < c → j < q → fin (X i j)) →
      fro ((mx c q fun i j => val (X i j)) - B * mx r q fun i j => val (Y i j)) ≤
        (f + gam α r * (b + f)) * fro (mx r q fun i j => val (Y i j)) + √(c * q) * (r * (1 + u α) ^ r * η α) := fun {q X Y} h fX => by
    have key := fro_err (E := (mx c q fun i j => val (X i j)) - (mx c r fun i j => val (P i j)) * mx r q fun i j => val (Y i j))
      (P := (Matrix.of fun i j => |(mx c r fun i j => val (P i j)) i j|) * Matrix.of fun i j => |(mx r q fun i j => val (Y i j)) i j|)
      (g := gam α r) (t := r * (1 + u α) ^ r * η α) (gam_nonneg r) (by positivity) fun i j => by
        have q := ((h i j i.2 j.2).err (fX i j i.2 j.2)).2
        rw [Matrix.sub_apply, Matrix.mul_apply, Matrix.mul_apply]
        rw [← Fin.sum_univ_eq_sum_range fun k => val (P i k) * val (Y k j),
          ← Fin.sum_univ_eq_sum_range fun k => |val (P i k)| * |val (Y k j)|] at q
        exact q
    have k1 := fro_mul_le (Matrix.of fun i j => |(mx c r fun i j => val (P i j)) i j|) (Matrix.of fun i j => |(mx r q fun i j => val (Y i j)) i j|)
    rw [abs_fro, abs_fro] at k1
    have bP : fro (mx c r fun i j => val (P i j)) ≤ b + f := by
      have := fro_dist (M := mx c r fun i j => val (P i j)) (N := B)
      linarith
    have k2 := mul_le_mul_of_nonneg_right bP (fro_nonneg (mx r q fun i j => val (Y i j)))
    have k3 := mul_le_mul_of_nonneg_left (k1.trans k2) (gam_nonneg (α := α) r)
    have k4 := fro_mul_le ((mx c r fun i j => val (P i j)) - B) (mx r q fun i j => val (Y i j))
    have k5 := mul_le_mul_of_nonneg_right nP (fro_nonneg (mx r q fun i j => val (Y i j)))
    have e1 : (mx c q fun i j => val (X i j)) - B * (mx r q fun i j => val (Y i j)) =
        ((mx c q fun i j => val (X i j)) - (mx c r fun i j => val (P i j)) * mx r q fun i j => val (Y i j)) +
          ((mx c r fun i j => val (P i j)) - B) * mx r q fun i j => val (Y i j) := by
      rw [Matrix.sub_mul]; abel
    rw [e1]
    have k6 := fro_add_le ((mx c q fun i j => val (X i j)) - (mx c r fun i j => val (P i j)) * mx r q fun i j => val (Y i j))
      (((mx c r fun i j => val (P i j)) - B) * mx r q fun i j => val (Y i j))
    linarith
  refine ⟨fun {q} hq {y Y} hY => ?_, fun {v y} hv => ?_⟩
  · obtain ⟨x, X, e, h1, h2, h3⟩ := C81_product_terms ho hc hr hq hP hY
    exact ⟨x, X, by unfold Svd.solveMatrix; rw [hs, ok_bind]; exact e, h1, h2, fun fX => core h3 fX⟩
  · obtain ⟨l, x, e, h1, h2⟩ := (C81_vector_terms ho hc hP).1 hv
    refine ⟨l, x, by unfold Svd.solveVector; rw [hs, ok_bind]; dsimp only; rw [(C48_array ho v).1]; exact e, h1, fun fx => ?_⟩
    exact core (X := fun i _ => x i) (Y := fun i _ => y i) (q := 1) (fun i j hi _ => h2 i hi) fun i j hi _ => fx i hi

/-- **C119, no overflow.**  `b` bounds the entries of the factors. -/
theorem C119_finite {s : Svd α} {U V : Nat → Nat → α} {σ : Nat → α} (h : HoldsSvd s r c p U V σ) (hr : 0 < r) (hc : 0 < c) (hp : 0 < p)
    (ft : fin s.tol) (t0 : 0 < val s.tol) (fs : ∀ i, i < p → fin (σ i)) (fU : ∀ i j, i < r → j < p → fin (U i j))
    (fV : ∀ i j, i < c → j < p → fin (V i j)) {b w : ℝ} (b1 : 1 ≤ b) (bU : ∀ i j, i < r → j < p → |val (U i j)| ≤ b)
    (bV : ∀ i j, i < c → j < p → |val (V i j)| ≤ b) (hw : w = (1 + u α) * (b * ((1 + u α) * (1 / val s.tol) + η α)) + η α)
    (room : (1 + u α) ^ p * ((1 + u α) * (p * (b * w)) + p * η α) ≤ big α) :
    ∃ (m : Mat α c r) (P : Nat → Nat → α), s.pinv = .ok ⟨c, r, m⟩ ∧ Shows m.at c r P ∧ ∀ i j, i < c → j < r → fin (P i j) := by
  obtain ⟨m, P, e1, -, h2, h3⟩ := C119_terms h hr hc hp
  refine ⟨m, P, e1, h2, fun i j hi hj => ?_⟩
  have hu := u_nonneg (α := α)
  have hη := η_nonneg (α := α)
  have M0 : 0 ≤ 1 / val s.tol := by positivity
  have b0 : 0 ≤ b := by linarith
  have hz0 : 0 ≤ (1 + u α) * (1 / val s.tol) + η α := by positivity
  have w0 : 0 ≤ w := by rw [hw]; positivity
  have p1 : (1 : ℝ) ≤ p := by exact_mod_cast hp
  have wb : w ≤ big α := by
    have k1 : w ≤ b * w := le_mul_of_one_le_left w0 b1
    have k2 : b * w ≤ p * (b * w) := le_mul_of_one_le_left (by positivity) p1
    have k3 : p * (b * w) ≤ (1 + u α) * (p * (b * w)) := le_mul_of_one_le_left (by positivity) (by linarith)
    have k4 : 0 ≤ p * η α := by positivity
    have k5 : (1 + u α) * (p * (b * w)) + p * η α ≤ (1 + u α) ^ p * ((1 + u α) * (p * (b * w)) + p * η α) :=
      le_mul_of_one_le_left (by positivity) (one_le_pow₀ (by linarith))
    linarith
  have zb : (1 + u α) * (1 / val s.tol) + η α ≤ w := by
    have k1 := le_mul_of_one_le_left hz0 b1
    have k2 : b * ((1 + u α) * (1 / val s.tol) + η α) ≤ (1 + u α) * (b * ((1 + u α) * (1 / val s.tol) + η α)) :=
      le_mul_of_one_le_left (by positivity) (by linarith)
    rw [hw]
    linarith
  have hM : ∀ k, k < p → fin (if Flt.lt s.tol (σ k) = true then Flt.div Flt.one (σ k) else Flt.zero) ∧
      |val (if Flt.lt s.tol (σ k) = true then Flt.div Flt.one (σ k) else Flt.zero)| ≤ (1 + u α) * (1 / val s.tol) + η α := fun k hk => by
    split_ifs with g
    · have g' := (lt_iff ft (fs k hk)).1 g
      have q1 : |1 / val (σ k)| ≤ 1 / val s.tol := by
        rw [abs_of_nonneg (one_div_nonneg.2 (t0.trans g').le)]
        exact one_div_le_one_div_of_le t0 g'.le
      have q2 : 1 / val s.tol ≤ (1 + u α) * (1 / val s.tol) := le_mul_of_one_le_left M0 (by linarith)
      have f : fin (Flt.div Flt.one (σ k)) := div_ok one_fin (fs k hk) (t0.trans g').ne' (by rw [val_one]; linarith)
      refine ⟨f, ?_⟩
      have q3 := (div_err f (fs k hk)).1
      rw [val_one] at q3
      have q4 := abs_sub_abs_le_abs_sub (val (Flt.div Flt.one (σ k))) (1 / val (σ k))
      have q5 := mul_le_mul_of_nonneg_left q1 hu
      linarith
    · exact ⟨zero_fin, by rw [val_zero, abs_zero]; exact hz0⟩
  have hW : ∀ k, k < p → fin (Flt.mul (U j k) (if Flt.lt s.tol (σ k) = true then Flt.div Flt.one (σ k) else Flt.zero)) ∧
      |val (Flt.mul (U j k) (if Flt.lt s.tol (σ k) = true then Flt.div Flt.one (σ k) else Flt.zero))| ≤ w := fun k hk => by
    obtain ⟨g1, g2⟩ := hM k hk
    have q1 : |val (U j k) * val (if Flt.lt s.tol (σ k) = true then Flt.div Flt.one (σ k) else Flt.zero)| ≤
        b * ((1 + u α) * (1 / val s.tol) + η α) := by
      rw [abs_mul]
      exact mul_le_mul (bU j k hj hk) g2 (abs_nonneg _) b0
    have q2 : b * ((1 + u α) * (1 / val s.tol) + η α) ≤ w := by
      rw [hw]
      have : b * ((1 + u α) * (1 / val s.tol) + η α) ≤ (1 + u α) * (b * ((1 + u α) * (1 / val s.tol) + η α)) :=
        le_mul_of_one_le_left (by positivity) (by linarith)
      linarith
    have f := mul_ok (fU j k hj hk) g1 (q1.trans (q2.trans wb))
    refine ⟨f, ?_⟩
    have q3 := (mul_err f).1
    have q4 := abs_sub_abs_le_abs_sub (val (Flt.mul (U j k) (if Flt.lt s.tol (σ k) = true then Flt.div Flt.one (σ k) else Flt.zero)))
      (val (U j k) * val (if Flt.lt s.tol (σ k) = true then Flt.div Flt.one (σ k) else Flt.zero))
    have q5 := mul_le_mul_of_nonneg_left q1 hu
    rw [hw]
    linarith
  have dot : DotOf p (V i) (fun k => Flt.mul (U j k) (if Flt.lt s.tol (σ k) = true then Flt.div Flt.one (σ k) else Flt.zero)) (P i j) :=
    ⟨range p, subset_rfl, h3 i j hi hj, fun k hk hn => absurd (Finset.mem_range.2 hk) hn⟩
  refine dot.fine (fun k hk => fV i k hi hk) (fun k hk => (hW k hk).1) (le_trans ?_ room)
  refine mul_le_mul_of_nonneg_left (add_le_add (mul_le_mul_of_nonneg_left ?_ (by linarith)) le_rfl) (by positivity)
  refine (Finset.sum_le_sum fun k hk => mul_le_mul (bV i k hi (Finset.mem_range.1 hk)) (hW k (Finset.mem_range.1 hk)).2 (abs_nonneg _) b0).trans_eq ?_
  rw [Finset.sum_const, Finset.card_range, nsmul_eq_mul]

/-- The error grows with the distances of the factors. -/
theorem pinvErr_mono {δ₁ δ₂ δ₁' δ₂' M : ℝ} (h1 : δ₁ ≤ δ₂) (h2 : δ₁' ≤ δ₂') (h0 : 0 ≤ δ₁) (h0' : 0 ≤ δ₁') (hM : 0 ≤ M) :
    pinvErr α r c p δ₁ δ₁' M ≤ pinvErr α r c p δ₂ δ₂' M := by
  have hu := u_nonneg (α := α)
  have hη := η_nonneg (α := α)
  have hg := gam_nonneg (α := α) p
  have h3 := h0'.trans h2
  unfold pinvErr
  dsimp only
  gcongr

/-- The factors are within the error of the values for a matrix of norm `√n`. -/
theorem svdFac_le {m n q K : Nat} {ε ω η : ℝ} (h0 : 0 ≤ ε) (e0 : 0 ≤ η) (h : √q * (5 * η) ≤ 75 * ω) :
    0 ≤ svdFac m n q K ε η ∧ svdFac m n q K ε η ≤ svdErr m n K ε ω η √n := by
  have r0 : 0 ≤ redErr m n ε η √n := rotErr_nonneg (by positivity) (by positivity) le_rfl (Real.sqrt_nonneg _) _
  have s0 := Real.sqrt_nonneg (n : ℝ)
  refine ⟨add_nonneg r0 (rotErr_nonneg (by positivity) (by positivity) le_rfl (by positivity) _), ?_⟩
  unfold svdFac svdErr
  refine add_le_add le_rfl ?_
  unfold rotErr
  have k1 : (1 + 22 * ε) ^ K ≤ (1 + 75 * ε) ^ K := pow_le_pow_left₀ (by positivity) (by linarith) K
  have k2 : 0 + (√n + redErr m n ε η √n) + K * (√q * (5 * η)) ≤ 0 + (√n + redErr m n ε η √n) + K * (75 * ω) := by
    have := mul_le_mul_of_nonneg_left h (Nat.cast_nonneg (α := ℝ) K)
    linarith
  have k3 := mul_le_mul k1 k2 (by positivity) (by positivity)
  linarith

end round

/-! ## Binary64 -/

theorem Spec.HoldsSvd.uniq {α : Type} [Flt α] {r c p : Nat} {s : Svd α} {U V U' V' : Nat → Nat → α} {σ σ' : Nat → α}
    (h : HoldsSvd s r c p U V σ) (h' : HoldsSvd s r c p U' V' σ') :
    (∀ i j, i < r → j < p → U' i j = U i j) ∧ ∀ i j, i < c → j < p → V' i j = V i j := by
  refine ⟨fun i j hi hj => ?_, fun i j hi hj => ?_⟩
  · obtain ⟨x, ex, -, h1⟩ := h.left
    obtain ⟨y, ey, -, h2⟩ := h'.left
    rw [ex] at ey
    cases ey
    exact h2.unique h1 hi hj
  · obtain ⟨x, ex, -, h1⟩ := h.right
    obtain ⟨y, ey, -, h2⟩ := h'.right
    rw [ex] at ey
    cases ey
    exact h2.unique h1 hi hj

theorem abs_le_fro {m n : Nat} (M : Matrix (Fin m) (Fin n) ℝ) (i : Fin m) (j : Fin n) : |M i j| ≤ fro M := by
  unfold fro
  refine Real.abs_le_sqrt ?_
  have k1 := Finset.single_le_sum (f := fun l => M i l ^ 2) (fun _ _ => sq_nonneg _) (Finset.mem_univ j)
  have k2 := Finset.single_le_sum (f := fun k => ∑ l, M k l ^ 2) (fun _ _ => Finset.sum_nonneg fun _ _ => sq_nonneg _) (Finset.mem_univ i)
  exact k1.trans k2

/-- An entry of a matrix near to orthonormal columns. -/
theorem entry_near {m n : Nat} {U : Nat → Nat → ℝ} {U₀ : Matrix (Fin m) (Fin n) ℝ} {δ : ℝ} (h : U₀ᵀ * U₀ = 1) (hd : fro (mx m n U - U₀) ≤ δ)
    {i j : Nat} (hi : i < m) (hj : j < n) : |U i j| ≤ 1 + δ := by
  have h1 := (abs_le_fro (mx m n U - U₀) ⟨i, hi⟩ ⟨j, hj⟩).trans hd
  have h2 : |U₀ ⟨i, hi⟩ ⟨j, hj⟩| ≤ 1 := by
    have e := congrFun (congrFun h ⟨j, hj⟩) ⟨j, hj⟩
    rw [Matrix.mul_apply, Matrix.one_apply_eq] at e
    have k := Finset.single_le_sum (f := fun k => (U₀ᵀ ⟨j, hj⟩ k) * U₀ k ⟨j, hj⟩) (fun k _ => mul_self_nonneg _) (Finset.mem_univ (⟨i, hi⟩ : Fin m))
    rw [e] at k
    exact abs_le_one_iff_mul_self_le_one.2 k
  have h3 := abs_sub_abs_le_abs_sub (U i j) (U₀ ⟨i, hi⟩ ⟨j, hj⟩)
  have h4 : |U i j - U₀ ⟨i, hi⟩ ⟨j, hj⟩| ≤ δ := h1
  linarith

theorem pinv_room {c : Nat} (hc : c ≤ 2 ^ 40) {δ t w : ℝ} (d0 : 0 ≤ δ) (hd : δ ≤ 5 * √c + 1) (ht : (1 / 2) ^ 30 ≤ t)
    (hw : w = (1 + u B64) * ((1 + δ) * ((1 + u B64) * (1 / t) + η B64)) + η B64) :
    (1 + u B64) ^ c * ((1 + u B64) * (c * ((1 + δ) * w)) + c * η B64) ≤ big B64 := by
  have hu : u B64 ≤ 1 := by rw [show u B64 = (1 / 2) ^ 53 from rfl]; norm_num
  have hu' : u B64 * 2 ^ 40 ≤ 1 := by rw [show u B64 = (1 / 2) ^ 53 from rfl]; norm_num
  have hu0 := u_nonneg (α := B64)
  have hη : η B64 ≤ 1 := by rw [show η B64 = (1 / 2) ^ 1075 from rfl]; exact pow_le_one₀ (by norm_num) (by norm_num)
  have hη0 := η_nonneg (α := B64)
  have hb : (2 : ℝ) ^ 130 ≤ big B64 := by
    rw [show big B64 = 2 ^ 1023 from rfl]; exact pow_le_pow_right₀ (by norm_num) (by norm_num)
  have c0 : (0 : ℝ) ≤ c := Nat.cast_nonneg c
  have hc' : (c : ℝ) ≤ 2 ^ 40 := by exact_mod_cast hc
  have hs : √(c : ℝ) ≤ 2 ^ 20 := Real.sqrt_le_iff.2 ⟨by norm_num, hc'.trans (by norm_num)⟩
  have t0 : 0 < t := lt_of_lt_of_le (by positivity) ht
  have hM : 1 / t ≤ 2 ^ 30 := by
    rw [div_le_iff₀ t0]
    have := mul_le_mul_of_nonneg_left ht (show (0 : ℝ) ≤ 2 ^ 30 by positivity)
    norm_num at this ⊢
    linarith
  have M0 : 0 ≤ 1 / t := by positivity
  generalize 1 / t = M at *
  have hpow : (1 + u B64) ^ c ≤ 4 := by
    have h1 : (1 + u B64) ^ c ≤ Real.exp (c * u B64) := by
      rw [Real.exp_nat_mul]
      exact pow_le_pow_left₀ (by linarith) (by linarith [Real.add_one_le_exp (u B64)]) c
    have h2 : (c : ℝ) * u B64 ≤ 1 := by
      have := mul_le_mul_of_nonneg_right hc' hu0
      linarith
    have h3 : 0 ≤ c * u B64 := mul_nonneg c0 hu0
    have h4 := (abs_le.1 (Real.abs_exp_sub_one_sub_id_le (x := c * u B64) (by rw [abs_of_nonneg h3]; exact h2))).2
    have h5 : (c * u B64) ^ 2 ≤ 1 := pow_le_one₀ h3 h2
    linarith
  generalize u B64 = v at *
  generalize η B64 = h at *
  generalize big B64 = g at *
  have d1 : 1 + δ ≤ 2 ^ 24 := by norm_num at hs ⊢; linarith
  have z0 : 0 ≤ (1 + v) * M + h := by positivity
  have z1 : (1 + v) * M + h ≤ 2 ^ 32 := by
    have := mul_le_mul (show 1 + v ≤ 2 by linarith) hM M0 (by norm_num)
    norm_num at this ⊢
    linarith
  have y0 : 0 ≤ (1 + δ) * ((1 + v) * M + h) := by positivity
  have y1 : (1 + δ) * ((1 + v) * M + h) ≤ 2 ^ 24 * 2 ^ 32 := mul_le_mul d1 z1 z0 (by norm_num)
  have w0 : 0 ≤ w := by rw [hw]; positivity
  have w1 : w ≤ 2 ^ 58 := by
    rw [hw]
    have := mul_le_mul (show 1 + v ≤ 2 by linarith) y1 y0 (by norm_num)
    norm_num at this ⊢
    linarith
  have x0 : 0 ≤ (1 + δ) * w := by positivity
  have x1 : (1 + δ) * w ≤ 2 ^ 24 * 2 ^ 58 := mul_le_mul d1 w1 w0 (by norm_num)
  have s0 : 0 ≤ c * ((1 + δ) * w) := by positivity
  have s1 : c * ((1 + δ) * w) ≤ 2 ^ 40 * (2 ^ 24 * 2 ^ 58) := mul_le_mul hc' x1 x0 (by norm_num)
  have r1 := mul_le_mul (show 1 + v ≤ 2 by linarith) s1 s0 (by norm_num)
  have r2 := mul_le_mul hc' hη hη0 (by norm_num)
  have r3 : (1 + v) * (c * ((1 + δ) * w)) + c * h ≤ 2 ^ 125 := by
    norm_num at r1 r2 ⊢
    linarith
  refine (mul_le_mul hpow r3 (by positivity) (by norm_num)).trans (le_trans ?_ hb)
  norm_num

theorem svd_rows_ok {q : Nat} (hq : q ≤ 2 ^ 40) : √(q : ℝ) * (5 * (1 / 2) ^ 1075) ≤ 75 * (1 / 2) ^ 966 := by
  have : √(q : ℝ) ≤ 2 ^ 20 := Real.sqrt_le_iff.2 ⟨by norm_num, le_trans (by exact_mod_cast hq) (by norm_num : (2 : ℝ) ^ 40 ≤ (2 ^ 20) ^ 2)⟩
  have h3 : ((1 : ℝ) / 2) ^ 1075 = (1 / 2) ^ 109 * (1 / 2) ^ 966 := by rw [← pow_add]
  have h4 : (0 : ℝ) ≤ (1 / 2) ^ 966 := by positivity
  rw [h3]
  have h5 := mul_le_mul this (le_refl (5 * ((1 / 2) ^ 109 * (1 / 2) ^ 966 : ℝ))) (by positivity) (by positivity)
  refine h5.trans ?_
  generalize ((1 : ℝ) / 2) ^ 966 = y at *
  norm_num
  linarith

/-- **C119, binary64.**  The pseudo-inverse is finite, and near to the exact pseudo-inverse of a matrix of rank `Rank` near to `A`. -/
theorem C119_binary64 {r c K : Nat} {κ : Svd.Lit B64} (L : B64.SvdLit κ)
    (hyp : κ.hyp = B64.guard ((1 / 2) ^ 1000) B64.hypot) (ff : fin κ.floor) (hfl : (1 / 2) ^ 30 ≤ val κ.floor) (fc : fin (κ.conv r))
    (hconv : val (κ.conv r) = r) (hc : 0 < c) (hrc : c ≤ r) (hr : r ≤ 2 ^ 40) (fuel : Nat)
    {a : Mat B64 r c} (ha : a.own) {A : Nat → Nat → B64} (hA : Shows a.at r c A) (F : RedFin κ.hyp r c A) {b g w E D : ℝ}
    (hb : b = fro (mx r c fun i j => val (A i j))) (hb' : b ≤ 2 ^ 900) (hK : K = fuel * (2 * c + 2))
    (h1 : 200 * c * (r + 2) * (1 / 2) ^ 52 ≤ (1 : ℝ)) (h2 : 75 * K * (1 / 2) ^ 52 ≤ (1 : ℝ))
    (hg : g = (200 * c * (r + 2) + 300 * K) * (1 / 2) ^ 52) (hw : w = 126 * c * r * √r * (1 / 2) ^ 1075 + 225 * K * (1 / 2) ^ 966)
    (hE : E = g * b + w) {s : Svd B64} (hs : Svd.new κ fuel a = .ok (some s))
    (hD : D = pinvErr B64 r c c (g * √c + w) (g * √c + w) (1 / val s.tol)) :
    ∃ U V σ, HoldsSvd s r c c U V σ ∧
      ((∀ i j, i < r → j < c → fin (U i j)) → (∀ i j, i < c → j < c → fin (V i j)) → fin s.tol ∧ val κ.floor ≤ val s.tol ∧
        ∃ (m : Mat B64 c r) (P : Nat → Nat → B64), s.pinv = .ok ⟨c, r, m⟩ ∧ m.own ∧ Shows m.at c r P ∧
          (∀ i j, i < c → j < r → fin (P i j)) ∧
          NearPinv s.rank (E + √c * val s.tol) D (√c / val s.tol) (mx r c fun i j => val (A i j)) (mx c r fun i j => val (P i j)) ∧
          (s.rank = c → fro ((mx c r fun i j => val (P i j)) * (mx r c fun i j => val (A i j)) - 1) ≤
            (√c / val s.tol + D) * E + D * (b + E)) ∧
          (s.isNonSingular = true → fro ((mx r c fun i j => val (A i j)) * (mx c r fun i j => val (P i j)) - 1) ≤
            (√c / val s.tol + D) * E + D * (b + E))) := by
  have hu : u B64 = (1 / 2) ^ 53 := rfl
  have hη : η B64 = (1 / 2) ^ 1075 := rfl
  have h2u : 2 * u B64 = (1 / 2) ^ 52 := by rw [hu]; norm_num
  have hp : ((1 : ℝ) / 2) ^ 966 ≤ (1 / 2) ^ 10 := pow_le_pow_of_le_one (by norm_num) (by norm_num) (by norm_num)
  have hn := B64.guard_near
  rw [h2u] at hn
  have hr' : (r : ℝ) ≤ 2 ^ 40 := by exact_mod_cast hr
  have b0 : 0 ≤ b := by rw [hb]; exact fro_nonneg _
  obtain ⟨room, small⟩ := svd_room b0 hb' h1 h2 hc
  rw [hK] at room
  have p1 : u B64 ≤ (1 / 2) ^ 52 := by rw [← h2u]; linarith [u_nonneg (α := B64)]
  have p2 : ((r : ℝ) + 4) * (1 / 2) ^ 52 ≤ 1 / 250 :=
    (mul_le_mul_of_nonneg_right (add_le_add hr' le_rfl) (by positivity)).trans (by norm_num)
  have p3 : η B64 ≤ (1 / 2) ^ 966 := by rw [hη]; exact pow_le_pow_of_le_one (by norm_num) (by norm_num) (by norm_num)
  obtain ⟨U, V, σ, hold, H⟩ := C118_tolerance L hyp ff fc hconv hc hrc hr fuel ha hA F hb hb' hK h1 h2 rfl hs
  obtain ⟨U', V', σ', hold', H'⟩ := C119_tall (κ := κ) (ε := (1 / 2) ^ 52) (ω := (1 / 2) ^ 966) p1 p2 p3 (hp.trans (by norm_num))
    (by rw [hyp]; exact hn) L.eps_fin (by rw [L.eps, abs_of_nonneg (by positivity)]) L.tiny_fin
    (by rw [L.tiny, abs_of_nonneg (by positivity)]) hc hrc fuel ha hA F hb rfl (by rw [hη]; exact room) rfl hs rfl
  rcases C116_binary64 L hyp hc hrc hr fuel ha hA F (by rw [← hb]) room with h | ⟨s', U₁, V₁, σ₁, e, hold₁, H₁⟩
  · rw [hs] at h; cases h
  rw [hs] at e
  obtain rfl : s = s' := by injection e with e; injection e
  obtain ⟨eU, eV⟩ := hold.uniq hold'
  obtain ⟨eU₁, eV₁⟩ := hold.uniq hold₁
  refine ⟨U, V, σ, hold, fun g1 g2 => ?_⟩
  obtain ⟨fs, -, ft, hle⟩ := H g1 g2
  have htol := hfl.trans hle
  have t0 : 0 < val s.tol := lt_of_lt_of_le (by positivity) htol
  obtain ⟨fs₁, nr⟩ := H₁ (fun i j hi hj => by rw [eU₁ i j hi hj]; exact g1 i j hi hj) fun i j hi hj => by
    rw [eV₁ i j hi hj]; exact g2 i j hi hj
  obtain ⟨m, P, q1, q2, q3, q4⟩ := H' (fun i j hi hj => by rw [eU i j hi hj]; exact g1 i j hi hj)
    (fun i j hi hj => by rw [eV i j hi hj]; exact g2 i j hi hj) ft t0
  -- the bounds
  have lin : ∀ {y : ℝ}, 0 ≤ y → svdErr r c K ((1 / 2) ^ 52) ((1 / 2) ^ 966) ((1 / 2) ^ 1075) y ≤ g * y + w := fun {y} hy => by
    rw [hg, hw]
    exact svdErr_linear (by positivity) (by positivity) (by positivity) hy h1 h2
  have sc := Real.sqrt_nonneg (c : ℝ)
  have fac : ∀ q : Nat, q ≤ r → 0 ≤ svdFac r c q K ((1 / 2) ^ 52) ((1 / 2) ^ 1075) ∧
      svdFac r c q K ((1 / 2) ^ 52) ((1 / 2) ^ 1075) ≤ g * √c + w := fun q hq => by
    obtain ⟨k1, k2⟩ := svdFac_le (m := r) (n := c) (q := q) (K := K) (ε := (1 / 2) ^ 52) (ω := (1 / 2) ^ 966) (η := (1 / 2) ^ 1075)
      (by positivity) (by positivity) (svd_rows_ok (hq.trans hr))
    exact ⟨k1, k2.trans (lin sc)⟩
  have g5 : g ≤ 5 := by rw [hg]; linarith
  have δ0 : 0 ≤ g * √c + w := (fac r le_rfl).1.trans (fac r le_rfl).2
  have δ5 : g * √c + w ≤ 5 * √c + 1 := by
    have := mul_le_mul_of_nonneg_right g5 sc
    rw [← hw] at small
    linarith
  obtain ⟨U₀, V₀, oU, oV, nU, nV, -⟩ := nr.near
  rw [← hK] at nU nV q4
  obtain ⟨m', P', z1, z2, z3⟩ := C119_finite (b := 1 + (g * √c + w)) hold (by omega) hc hc ft t0 fs g1 g2 (by linarith)
    (fun i j hi hj => by
      rw [← eU₁ i j hi hj]
      exact entry_near (U := fun i j => val (U₁ i j)) oU (nU.trans (fac r le_rfl).2) hi hj)
    (fun i j hi hj => by
      rw [← eV₁ i j hi hj]
      exact entry_near (U := fun i j => val (V₁ i j)) oV (nV.trans (fac c hrc).2) hi hj) rfl
    (pinv_room (hrc.trans hr) δ0 δ5 htol rfl)
  rw [q1] at z1
  obtain rfl : m = m' := by injection z1 with z1; cases z1; rfl
  have fP : ∀ i j, i < c → j < r → fin (P i j) := fun i j hi hj => by
    rw [← z2.unique q3 hi hj]; exact z3 i j hi hj
  obtain ⟨⟨A', B, pen, rk, nA, nB, nP⟩, n2, n3⟩ := q4 fP
  have M0 : 0 ≤ 1 / val s.tol := by positivity
  have leD := pinvErr_mono (α := B64) (r := r) (c := c) (p := c) (fac r le_rfl).2 (fac c hrc).2 (fac r le_rfl).1 (fac c hrc).1 M0
  rw [← hD] at leD
  have leE := lin b0
  rw [← hE] at leE
  rw [hη] at nA nP n2 n3
  have D0 := (fro_nonneg _).trans nP
  have E0 : 0 ≤ svdErr r c K ((1 / 2) ^ 52) ((1 / 2) ^ 966) ((1 / 2) ^ 1075) b := by
    have r0 : 0 ≤ redErr r c ((1 / 2) ^ 52) ((1 / 2) ^ 1075) b := rotErr_nonneg (by positivity) (by positivity) le_rfl b0 _
    exact add_nonneg r0 (rotErr_nonneg (by positivity) (by positivity) le_rfl (by positivity) _)
  have all : ∀ {D' E' : ℝ}, 0 ≤ D' → 0 ≤ E' → D' ≤ D → E' ≤ E →
      (√c / val s.tol + D') * E' + D' * (b + E') ≤ (√c / val s.tol + D) * E + D * (b + E) := fun k1 k2 k3 k4 => by
    have k5 : 0 ≤ √c / val s.tol := by positivity
    have k6 := k1.trans k3
    have k7 := k2.trans k4
    gcongr
  refine ⟨ft, hle, m, P, q1, q2, q3, fP, ⟨A', B, pen, rk, nA.trans (by linarith), nB, nP.trans leD⟩, fun k => ?_, fun k => ?_⟩
  · exact (n2 k).trans (all D0 E0 leD leE)
  · exact (n3 k).trans (all D0 E0 leD leE)

/-! ## A case -/

/-- The hypotheses of `C119_binary64` are met by the matrix ((0, 4), (0, 0)), with the constant of the code, `math.Sqrt(doubleeps)`. -/
example : ∃ (κ : Svd.Lit B64) (a : Mat B64 2 2) (A : Nat → Nat → B64) (s : Svd B64) (m : Mat B64 2 2) (P : Nat → Nat → B64),
    κ.floor = Flt.sqrt (B64.two (-53) (by norm_num) (by norm_num)) ∧ val (κ.conv 2) = 2 ∧ val (A 0 1) = 4 ∧ Shows a.at 2 2 A ∧ Svd.new κ 3 a = .ok (some s) ∧
    s.pinv = .ok ⟨2, 2, m⟩ ∧ Shows m.at 2 2 P ∧ ∀ i j, i < 2 → j < 2 → fin (P i j) := by
  obtain ⟨κ, a, A, s, U, V, σ, N, hf, hcv, nA, L, hyp, own, sh, k, F, hN, room, hs, hold, g1, g2, s0, s1⟩ :=
    Svd.case_new (Flt.sqrt (B64.two (-53) (by norm_num) (by norm_num))) fun _ => B64.int 2 (by norm_num)
  have i2 : B64.Is (B64.int 2 (by norm_num)) 2 := by simpa using B64.Is.int (k := 2) (by norm_num)
  have f53 := B64.Is.two (-53) (by norm_num) (by norm_num)
  have ff : fin (Flt.sqrt (B64.two (-53) (by norm_num) (by norm_num))) := sqrt_ok f53.1 (by rw [f53.2]; positivity)
  have hf26 : (1 / 2 : ℝ) ^ 30 ≤ val (Flt.sqrt (B64.two (-53) (by norm_num) (by norm_num))) := by
    have h1 := (abs_le.1 (sqrt_err ff).1).1
    have h2 : (1 / 2 : ℝ) ^ 27 ≤ √(val (B64.two (-53) (by norm_num) (by norm_num))) := by
      refine Real.le_sqrt_of_sq_le ?_
      rw [f53.2]
      norm_num
    have h3 : Rnd.u B64 * √(val (B64.two (-53) (by norm_num) (by norm_num))) ≤ 1 / 2 * √(val (B64.two (-53) (by norm_num) (by norm_num))) :=
      mul_le_mul_of_nonneg_right (by rw [show Rnd.u B64 = (1 / 2) ^ 53 from rfl]; norm_num) (Real.sqrt_nonneg _)
    norm_num at h2 ⊢
    linarith
  obtain ⟨U', V', σ', hold', H⟩ := C119_binary64 (r := 2) (c := 2) (K := 18) L hyp (by rw [hf]; exact ff) (by rw [hf]; exact hf26)
    (by rw [hcv]; exact i2.1) (by rw [hcv]; exact i2.2.trans (by norm_num)) (by norm_num) le_rfl (by norm_num) 3 own sh F rfl
    (nA.trans ((by norm_num : (4 : ℝ) ≤ 2 ^ 2).trans (pow_le_pow_right₀ (by norm_num) (by norm_num)))) (by norm_num) (by norm_num) (by norm_num)
    rfl rfl rfl hs rfl
  obtain ⟨eU, eV⟩ := hold.uniq hold'
  obtain ⟨-, -, m, P, q1, -, q2, q3, -⟩ := H (fun i j hi hj => by rw [eU i j hi hj]; exact g1 i j hi hj)
    fun i j hi hj => by rw [eV i j hi hj]; exact g2 i j hi hj
  exact ⟨κ, a, A, s, m, P, hf, by rw [hcv]; exact i2.2, k, sh, hs, q1, q2, q3⟩

end Linear
