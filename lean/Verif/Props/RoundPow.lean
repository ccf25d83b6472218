import Verif.Props.RoundEig
import Verif.Props.Derived
import Verif.Props.Round

/-!
# C111: powers of matrices in rounded arithmetic
-/

set_option linter.unusedSectionVars false

namespace Linear

open Spec Finset Matrix Rnd

/-! ## The products that `Power` forms -/

/-- Whatever the arithmetic: a relation between matrices and exponents that products respect holds for the result. -/
theorem Mat.power_rel {α : Type} [Flt α] {n : Nat} (P : SMat α → Nat → Prop)
    (mul : ∀ s t j k, 1 ≤ j → 1 ≤ k → P s j → P t k → ∃ u, s.multiply t = .ok u ∧ P u (j + k))
    {m : Mat α n n} (hm : m.own) (hn : 0 < n) {A : Nat → Nat → α} (hA : Shows m.at n n A)
    (one : ∀ m₁ : Mat α n n, m₁.own → Shows m₁.at n n A → P ⟨n, n, m₁⟩ 1) {p : Nat} (hp : 1 ≤ p) :
    ∃ s, m.power p = .ok s ∧ P s p := by
  have hsq : m.isSquare = .ok true := by
    unfold Mat.isSquare
    rw [Mat.colDim_ok hn, ok_bind]
    simp
  obtain ⟨m₁, e₁, h₁, hA₁⟩ := Mat.copy_own hm hn hn hA
  have one := one m₁ h₁ hA₁
  unfold Mat.power
  rw [if_neg (by omega)]
  simp only [hsq, ok_bind, Bool.not_true, Bool.false_eq_true, if_false, e₁]
  rw [if_neg (by omega)]
  by_cases h1 : p = 1
  · subst h1
    rw [if_pos (by simp)]
    exact ⟨_, rfl, one⟩
  rw [if_neg (by omega)]
  obtain ⟨q, rfl⟩ : ∃ q, p = q + 1 := ⟨p - 1, by omega⟩
  have eq : (((q + 1 : Nat) : Int) - 1).toNat = q := by omega
  rw [eq]
  obtain ⟨k, l, ek, hk⟩ := onePositions_head (n := q) (by omega)
  have er : (rdL (onePositions q) 0 : Res Nat) = .ok k := by rw [ek]; rfl
  rw [er, ok_bind]
  have hres : ∃ res, forUp 1 (k + 1) (fun i (res : List (SMat α)) => do
      let x ← rdS res (i - 1)
      return res ++ [← x.multiply x]) [⟨n, n, m₁⟩] = .ok res ∧ (res.length = k + 1 ∧
        ∀ i < k + 1, ∃ s, rdS res i = .ok s ∧ P s (2 ^ i)) := by
    refine Wp.exists_ok (wp_forUp (fun i (res : List (SMat α)) => res.length = i ∧
        ∀ j < i, ∃ s, rdS res j = .ok s ∧ P s (2 ^ j)) (by omega) ⟨rfl, ?_⟩ ?_)
    · intro j hj
      obtain rfl : j = 0 := by omega
      exact ⟨_, rfl, one⟩
    · rintro i res h1 h2 ⟨hl, h⟩
      obtain ⟨s, es, hs⟩ := h (i - 1) (by omega)
      obtain ⟨u, eu, hu⟩ := mul _ _ _ _ Nat.one_le_two_pow Nat.one_le_two_pow hs hs
      rw [es, ok_bind, eu, ok_bind]
      refine ⟨by simp [hl], fun j hj => ?_⟩
      by_cases hji : j = i
      · subst hji
        refine ⟨u, ?_, ?_⟩
        · unfold rdS rdL
          simp [hl]
        · have : 2 ^ (j - 1) + 2 ^ (j - 1) = 2 ^ j := by
            rw [← Nat.two_mul, ← pow_succ']
            congr 1; omega
          rwa [this] at hu
      · obtain ⟨t, et, ht⟩ := h j (by omega)
        refine ⟨t, ?_, ht⟩
        rw [← et]
        unfold rdS rdL
        rw [List.getElem?_append_left (by omega)]
  obtain ⟨res, e, hl, hres⟩ := hres
  rw [e, ok_bind]
  rw [← ek] at hk
  have fold : ∀ (l : List Nat), (∀ i ∈ l, i ≤ k) → ∀ s j, 1 ≤ j → P s j →
      ∃ u, l.foldlM (fun (result : SMat α) i => do result.multiply (← rdS res i)) s = .ok u ∧
        P u (j + (l.map (2 ^ ·)).sum) := by
    intro l
    induction l with
    | nil => exact fun _ s j _ h => ⟨s, rfl, h⟩
    | cons i l ih =>
      intro hl s j hj h
      obtain ⟨t, et, ht⟩ := hres i (by have := hl i (by simp); omega)
      obtain ⟨u, eu, hu⟩ := mul _ _ _ _ hj Nat.one_le_two_pow h ht
      obtain ⟨w, ew, hw⟩ := ih (fun i hi => hl i (by simp [hi])) u _ (by have := Nat.one_le_two_pow (n := i); omega) hu
      refine ⟨w, ?_, ?_⟩
      · rw [List.foldlM_cons, et, ok_bind, eu, ok_bind, ew]
      · rw [List.map_cons, List.sum_cons, ← add_assoc]
        exact hw
  obtain ⟨u, eu, hu⟩ := fold _ hk _ _ le_rfl one
  refine ⟨u, eu, ?_⟩
  rw [onePositions_sum, add_comm] at hu
  exact hu

/-! ## No overflow -/

section round

variable {α : Type} [Flt α] [Rnd α] {n : Nat}

/-- A sum of finite terms that are small enough is finite. -/
theorem Spec.SumOf.fine {x : α} {s : Multiset α} (h : SumOf x s) (hs : ∀ t ∈ s, fin t)
    (hb : (1 + u α) ^ s.card * asum s ≤ big α) : fin x := by
  induction h with
  | zero => exact zero_fin
  | term x => exact hs x (by simp)
  | @add x y s t h1 h2 ih1 ih2 =>
    have hu := one_le_u (α := α)
    have m1 := asum_nonneg s
    have m2 := asum_nonneg t
    have e2 : asum (s + t) = asum s + asum t := by simp [asum]
    rw [e2, Multiset.card_add] at hb
    have k1 : (1 + u α) ^ s.card ≤ (1 + u α) ^ (s.card + t.card) := pow_le_pow_right₀ hu (by omega)
    have k2 : (1 + u α) ^ t.card ≤ (1 + u α) ^ (s.card + t.card) := pow_le_pow_right₀ hu (by omega)
    have k0 : 0 ≤ (1 + u α) ^ (s.card + t.card) := by positivity
    have f1 := ih1 (fun z hz => hs z (Multiset.mem_add.2 (.inl hz))) (by nlinarith)
    have f2 := ih2 (fun z hz => hs z (Multiset.mem_add.2 (.inr hz))) (by nlinarith)
    have size : ∀ {z : α} {w : Multiset α}, SumOf z w → fin z → |val z| ≤ (1 + u α) ^ w.card * asum w := by
      intro z w hz hf
      have g1 := (hz.err hf).2
      have g2 := vsum_le w
      have g3 : gam α (w.card - 1) * asum w ≤ gam α w.card * asum w :=
        mul_le_mul_of_nonneg_right (gam_mono (by omega)) (asum_nonneg w)
      have g4 : |val z| ≤ |val z - vsum w| + |vsum w| := by
        calc |val z| = |(val z - vsum w) + vsum w| := by rw [sub_add_cancel]
          _ ≤ _ := abs_add_le _ _
      have g5 : (1 + u α) ^ w.card = gam α w.card + 1 := by unfold gam; ring
      rw [g5, add_mul, one_mul]
      linarith
    refine add_ok f1 f2 ((abs_add_le _ _).trans ?_)
    have s1 := size h1 f1
    have s2 := size h2 f2
    nlinarith

/-- An inner product of finite vectors that are small enough is finite. -/
theorem Spec.DotOf.fine {a b : Nat → α} {x : α} (h : DotOf n a b x) (ha : ∀ k, k < n → fin (a k)) (hb : ∀ k, k < n → fin (b k))
    (hB : (1 + u α) ^ n * ((1 + u α) * ∑ k ∈ range n, |val (a k)| * |val (b k)| + n * η α) ≤ big α) : fin x := by
  obtain ⟨S, hS, h1, -⟩ := h
  have hu := one_le_u (α := α)
  have hη := η_nonneg (α := α)
  have hp : 1 ≤ (1 + u α) ^ n := one_le_pow₀ hu
  have h0 : 0 ≤ ∑ k ∈ range n, |val (a k)| * |val (b k)| := sum_nonneg fun _ _ => by positivity
  have hs1 : 0 ≤ (1 + u α) * ∑ k ∈ range n, |val (a k)| * |val (b k)| := mul_nonneg (by linarith) h0
  have hn0 : 0 ≤ (n : ℝ) * η α := mul_nonneg (Nat.cast_nonneg _) hη
  have hall : ∑ k ∈ range n, |val (a k)| * |val (b k)| ≤ big α := by nlinarith
  have fm : ∀ k, k ∈ S → fin (Flt.mul (a k) (b k)) := fun k hk => by
    have hk' := mem_range.1 (hS hk)
    refine mul_ok (ha k hk') (hb k hk') ?_
    rw [abs_mul]
    exact (single_le_sum (f := fun k => |val (a k)| * |val (b k)|) (fun _ _ => by positivity) (hS hk)).trans hall
  refine h1.fine (fun t ht => ?_) (le_trans ?_ hB)
  · obtain ⟨k, hk, rfl⟩ := Multiset.mem_map.1 ht
    exact fm k hk
  · have hc : S.card ≤ n := by simpa using card_le_card hS
    have ec : (over S fun k => Flt.mul (a k) (b k)).card = S.card := by simp [over]
    have ea : asum (over S fun k => Flt.mul (a k) (b k)) = ∑ k ∈ S, |val (Flt.mul (a k) (b k))| := by
      unfold asum over
      rw [Multiset.map_map]
      rfl
    rw [ec, ea]
    have e1 : ∑ k ∈ S, |val (Flt.mul (a k) (b k))| ≤ (1 + u α) * ∑ k ∈ range n, |val (a k)| * |val (b k)| + n * η α := by
      calc ∑ k ∈ S, |val (Flt.mul (a k) (b k))| ≤ ∑ k ∈ S, ((1 + u α) * (|val (a k)| * |val (b k)|) + η α) :=
            sum_le_sum fun k hk => by
              have g1 := (mul_err (fm k hk)).1
              have g2 : |val (Flt.mul (a k) (b k))| ≤ |val (Flt.mul (a k) (b k)) - val (a k) * val (b k)| +
                  |val (a k) * val (b k)| := by
                calc _ = |(val (Flt.mul (a k) (b k)) - val (a k) * val (b k)) + val (a k) * val (b k)| := by
                      rw [sub_add_cancel]
                  _ ≤ _ := abs_add_le _ _
              rw [← abs_mul]
              linarith
        _ ≤ ∑ k ∈ range n, ((1 + u α) * (|val (a k)| * |val (b k)|) + η α) :=
            sum_le_sum_of_subset_of_nonneg hS fun k _ _ => add_nonneg (mul_nonneg (by linarith) (by positivity)) hη
        _ = _ := by rw [sum_add_distrib, ← mul_sum, sum_const, card_range, nsmul_eq_mul]
    gcongr

/-! ## C111 -/

/-- The factor by which one product of matrices of order `n` can exceed the product of the norms. -/
noncomputable def Spec.powGrow (α : Type) [Flt α] [Rnd α] (n : Nat) : ℝ := (1 + u α) ^ (n + 1)

/-- The term for underflow in one product. -/
noncomputable def Spec.powTiny (α : Type) [Flt α] [Rnd α] (n : Nat) : ℝ := n * (n * (1 + u α) ^ n * η α)

/-- The bound for the norm of the computed `k`-th power of a matrix of norm `N`. -/
noncomputable def Spec.powSize (α : Type) [Flt α] [Rnd α] (n : Nat) (N : ℝ) (k : Nat) : ℝ :=
  powGrow α n ^ (k - 1) * (N + powTiny α n) ^ k

theorem Spec.grow_ge (n : Nat) : 1 ≤ powGrow α n := one_le_pow₀ one_le_u

theorem Spec.tiny_nn (n : Nat) : 0 ≤ powTiny α n := by
  unfold powTiny
  have := η_nonneg (α := α)
  have := u_nonneg (α := α)
  positivity

private theorem size_mul {N : ℝ} (hN : 1 ≤ N) {j k : Nat} (hj : 1 ≤ j) (hk : 1 ≤ k) :
    powGrow α n * (powSize α n N j - powTiny α n) * (powSize α n N k - powTiny α n) + powTiny α n ≤
      powSize α n N (j + k) - powTiny α n := by
  have hG := grow_ge (α := α) n
  have hh := tiny_nn (α := α) n
  have e : powSize α n N (j + k) = powGrow α n * powSize α n N j * powSize α n N k := by
    unfold powSize
    obtain ⟨j, rfl⟩ : ∃ i, j = i + 1 := ⟨j - 1, by omega⟩
    obtain ⟨k, rfl⟩ : ∃ i, k = i + 1 := ⟨k - 1, by omega⟩
    rw [show j + 1 + (k + 1) - 1 = j + k + 1 by omega, Nat.add_sub_cancel, Nat.add_sub_cancel]
    ring
  have ge : ∀ i, 1 ≤ i → 1 + powTiny α n ≤ powSize α n N i := fun i hi => by
    unfold powSize
    have h1 : 1 ≤ powGrow α n ^ (i - 1) := one_le_pow₀ hG
    have h2 : N + powTiny α n ≤ (N + powTiny α n) ^ i := le_self_pow₀ (by linarith) (by omega)
    nlinarith
  rw [e]
  generalize powGrow α n = G at *
  generalize powTiny α n = h at *
  have g1 := ge j hj
  have g2 := ge k hk
  generalize powSize α n N j = x at *
  generalize powSize α n N k = y at *
  nlinarith [mul_nonneg hh (sub_nonneg.2 hG), mul_nonneg (mul_nonneg hh (sub_nonneg.2 hG)) (by linarith : 0 ≤ x + y - h - 2 + 1),
    mul_nonneg hh (by linarith : 0 ≤ x + y - h - 2)]

private theorem size_mono {N : ℝ} (hN : 1 ≤ N) {j k : Nat} (h : j ≤ k) : powSize α n N j ≤ powSize α n N k := by
  have hG := grow_ge (α := α) n
  have hh := tiny_nn (α := α) n
  unfold powSize
  have h1 : powGrow α n ^ (j - 1) ≤ powGrow α n ^ (k - 1) := pow_le_pow_right₀ hG (by omega)
  have h2 : (N + powTiny α n) ^ j ≤ (N + powTiny α n) ^ k := pow_le_pow_right₀ (by linarith) h
  have h3 : 0 ≤ powGrow α n ^ (k - 1) := by positivity
  have h4 : 0 ≤ (N + powTiny α n) ^ j := by
    have : 0 ≤ N + powTiny α n := by linarith
    positivity
  exact mul_le_mul h1 h2 h4 h3

/-- `s` is a matrix of the library that approximates `A ^ k`, unless a bound is too large. -/
private def Near (A : Matrix (Fin n) (Fin n) ℝ) (N : ℝ) (s : SMat α) (k : Nat) : Prop :=
  ∃ m : Mat α n n, s = ⟨n, n, m⟩ ∧ m.own ∧ ∃ X, Shows m.at n n X ∧ (powSize α n N k ≤ big α →
    (∀ i j, i < n → j < n → fin (X i j)) ∧
      fro ((mx n n fun i j => val (X i j)) - A ^ k) ≤ powSize α n N k - powTiny α n - N ^ k)

theorem Spec.fro_abs (M : Matrix (Fin n) (Fin n) ℝ) : fro (Matrix.of fun i j => |M i j|) = fro M := by
  unfold fro
  simp

private theorem fro_le {m p : Nat} {M N : Matrix (Fin m) (Fin p) ℝ} (h : ∀ i j, |M i j| ≤ N i j) : fro M ≤ fro N := by
  unfold fro
  refine Real.sqrt_le_sqrt (sum_le_sum fun i _ => sum_le_sum fun j _ => ?_)
  rw [← sq_abs]
  exact pow_le_pow_left₀ (abs_nonneg _) (h i j) 2

private theorem fro_const {c : ℝ} (hc : 0 ≤ c) : fro (Matrix.of fun _ _ => c : Matrix (Fin n) (Fin n) ℝ) = n * c := by
  unfold fro
  simp only [Matrix.of_apply, sum_const, card_univ, Fintype.card_fin, nsmul_eq_mul]
  rw [← mul_assoc, ← pow_two, ← mul_pow, Real.sqrt_sq (by positivity)]

theorem Spec.fro_scale {c : ℝ} (hc : 0 ≤ c) (M : Matrix (Fin n) (Fin n) ℝ) : fro (c • M) = c * fro M := by
  unfold fro
  simp only [Matrix.smul_apply, smul_eq_mul, mul_pow, ← mul_sum]
  rw [Real.sqrt_mul (sq_nonneg c), Real.sqrt_sq hc]

theorem Spec.fro_null : fro (0 : Matrix (Fin n) (Fin n) ℝ) = 0 := by simp [fro]

private theorem fro_pow_le {A : Matrix (Fin n) (Fin n) ℝ} {N : ℝ} (hA : fro A ≤ N) {k : Nat} (hk : 1 ≤ k) : fro (A ^ k) ≤ N ^ k := by
  induction k, hk using Nat.le_induction with
  | base => simpa using hA
  | succ k hk ih =>
    rw [pow_succ, pow_succ]
    exact (fro_mul_le _ _).trans (mul_le_mul ih hA (fro_nonneg _) ((fro_nonneg _).trans ih))

private theorem fro_dist {A B : Matrix (Fin n) (Fin n) ℝ} {d a : ℝ} (h : fro (A - B) ≤ d) (hB : fro B ≤ a) : fro A ≤ d + a := by
  have := fro_add_le (A - B) B
  rw [sub_add_cancel] at this
  linarith

/-- A product in the Frobenius norm: no overflow, and the error. -/
theorem Mat.multiply_fro {a b : Mat α n n} (ha : a.own) (hn : 0 < n) {X Y : Nat → Nat → α} (hX : Shows a.at n n X)
    (hY : Shows b.at n n Y) (f1 : ∀ i j, i < n → j < n → fin (X i j)) (f2 : ∀ i j, i < n → j < n → fin (Y i j)) {D : ℝ}
    (hD : fro ((Matrix.of fun i j : Fin n => |val (X i j)|) * Matrix.of fun i j : Fin n => |val (Y i j)|) ≤ D)
    (hB : powGrow α n * D + powTiny α n ≤ big α) :
    ∃ (m : Mat α n n) (M : Nat → Nat → α), a.multiply b = .ok ⟨n, n, m⟩ ∧ m.own ∧ Shows m.at n n M ∧
      (∀ i j, i < n → j < n → fin (M i j)) ∧
      fro ((mx n n fun i j => val (M i j)) - (mx n n fun i j => val (X i j)) * mx n n fun i j => val (Y i j)) ≤
        gam α n * D + powTiny α n := by
  obtain ⟨m, M, e, hm, hM, hd⟩ := C81_product_terms ha hn hn hn hX hY
  have hG := grow_ge (α := α) n
  have hη := η_nonneg (α := α)
  have hu := one_le_u (α := α)
  set E : Matrix (Fin n) (Fin n) ℝ := (Matrix.of fun i j : Fin n => |val (X i j)|) * Matrix.of fun i j : Fin n => |val (Y i j)|
    with hE
  have eE : ∀ i j : Fin n, ∑ k ∈ range n, |val (X i k)| * |val (Y k j)| = E i j := fun i j => by
    rw [hE, Matrix.mul_apply, ← Fin.sum_univ_eq_sum_range fun k => |val (X i k)| * |val (Y k j)|]
    rfl
  have hEe : ∀ i j : Fin n, E i j ≤ fro E := fun i j => by
    unfold fro
    refine Real.le_sqrt_of_sq_le ?_
    exact (single_le_sum (f := fun j => E i j ^ 2) (fun _ _ => sq_nonneg _) (mem_univ j)).trans
      (single_le_sum (f := fun i => ∑ j, E i j ^ 2) (fun _ _ => sum_nonneg fun _ _ => sq_nonneg _) (mem_univ i))
  have hpow : 0 ≤ (1 + u α) ^ n := by positivity
  have hnn : (1 : ℝ) ≤ n := by exact_mod_cast hn
  have hone : (n : ℝ) * (1 + u α) ^ n * η α ≤ powTiny α n := by
    unfold powTiny
    have : 0 ≤ (n : ℝ) * (1 + u α) ^ n * η α := by positivity
    nlinarith
  have hf : ∀ i l, i < n → l < n → fin (M i l) := fun i l hi hl => by
    refine (hd i l hi hl).fine (fun k hk => f1 i k hi hk) (fun k hk => f2 k l hk hl) ?_
    rw [eE ⟨i, hi⟩ ⟨l, hl⟩]
    have g1 := hEe ⟨i, hi⟩ ⟨l, hl⟩
    calc (1 + u α) ^ n * ((1 + u α) * E ⟨i, hi⟩ ⟨l, hl⟩ + n * η α) = powGrow α n * E ⟨i, hi⟩ ⟨l, hl⟩ + n * (1 + u α) ^ n * η α := by
          unfold powGrow; ring
      _ ≤ powGrow α n * D + powTiny α n :=
          add_le_add (mul_le_mul_of_nonneg_left (by linarith) (by linarith)) hone
      _ ≤ big α := hB
  refine ⟨m, M, e, hm, hM, hf, ?_⟩
  have g : fro ((mx n n fun i j => val (M i j)) - (mx n n fun i j => val (X i j)) * mx n n fun i j => val (Y i j)) ≤
      fro (gam α n • E + Matrix.of fun _ _ => (n : ℝ) * (1 + u α) ^ n * η α) := by
    refine fro_le fun i j => ?_
    have := ((hd i j i.2 j.2).err (hf i j i.2 j.2)).2
    rw [eE] at this
    rw [Matrix.sub_apply, Matrix.mul_apply]
    rw [← Fin.sum_univ_eq_sum_range fun k => val (X i k) * val (Y k j)] at this
    exact this
  refine g.trans ((fro_add_le _ _).trans ?_)
  rw [fro_scale (gam_nonneg n), fro_const (by positivity)]
  exact add_le_add (mul_le_mul_of_nonneg_left hD (gam_nonneg n)) le_rfl

private theorem Near.mul {A : Matrix (Fin n) (Fin n) ℝ} {N : ℝ} (hN : 1 ≤ N) (hA : fro A ≤ N) (hn : 0 < n) (s t : SMat α)
    (j k : Nat) (hj : 1 ≤ j) (hk : 1 ≤ k) (hs : Near A N s j) (ht : Near A N t k) :
    ∃ w, s.multiply t = .ok w ∧ Near A N w (j + k) := by
  obtain ⟨a, rfl, ha, X, hX, h1⟩ := hs
  obtain ⟨b, rfl, hb, Y, hY, h2⟩ := ht
  by_cases hB : powSize α n N (j + k) ≤ big α
  · obtain ⟨f1, e1⟩ := h1 ((size_mono hN (by omega)).trans hB)
    obtain ⟨f2, e2⟩ := h2 ((size_mono hN (by omega)).trans hB)
    have q1 := fro_pow_le hA hj
    have q2 := fro_pow_le hA hk
    have s1 := fro_dist e1 q1
    have s2 := fro_dist e2 q2
    rw [sub_add_cancel] at s1 s2
    have key := size_mul (α := α) (n := n) hN hj hk
    have hh := tiny_nn (α := α) n
    set X' := mx n n fun i j => val (X i j) with hX'
    set Y' := mx n n fun i j => val (Y i j) with hY'
    have n1 := fro_nonneg X'
    have n2 := fro_nonneg Y'
    have hD : fro ((Matrix.of fun i j : Fin n => |val (X i j)|) * Matrix.of fun i j : Fin n => |val (Y i j)|) ≤
        (powSize α n N j - powTiny α n) * (powSize α n N k - powTiny α n) := by
      refine (fro_mul_le _ _).trans ?_
      rw [show (Matrix.of fun i j : Fin n => |val (X i j)|) = Matrix.of fun i j => |X' i j| from rfl,
        show (Matrix.of fun i j : Fin n => |val (Y i j)|) = Matrix.of fun i j => |Y' i j| from rfl, fro_abs, fro_abs]
      exact mul_le_mul s1 s2 n2 (n1.trans s1)
    obtain ⟨m, M, e, hm, hM, hf, herr⟩ := Mat.multiply_fro ha hn hX hY f1 f2 hD (by linarith)
    refine ⟨_, e, m, rfl, hm, M, hM, fun _ => ⟨hf, ?_⟩⟩
    have split : (mx n n fun i j => val (M i j)) - A ^ (j + k) = ((mx n n fun i j => val (M i j)) - X' * Y') +
        ((X' - A ^ j) * Y' + A ^ j * (Y' - A ^ k)) := by
      rw [Matrix.sub_mul, Matrix.mul_sub, pow_add]
      abel
    rw [split]
    have t1 := fro_add_le ((mx n n fun i j => val (M i j)) - X' * Y') ((X' - A ^ j) * Y' + A ^ j * (Y' - A ^ k))
    have t2 := fro_add_le ((X' - A ^ j) * Y') (A ^ j * (Y' - A ^ k))
    have t3 := fro_mul_le (X' - A ^ j) Y'
    have t4 := fro_mul_le (A ^ j) (Y' - A ^ k)
    have z1 := fro_nonneg (X' - A ^ j)
    have z2 := fro_nonneg (Y' - A ^ k)
    have t5 : fro (X' - A ^ j) * fro Y' ≤
        (powSize α n N j - powTiny α n - N ^ j) * (powSize α n N k - powTiny α n) := mul_le_mul e1 s2 n2 (z1.trans e1)
    have t6 : fro (A ^ j) * fro (Y' - A ^ k) ≤ N ^ j * (powSize α n N k - powTiny α n - N ^ k) :=
      mul_le_mul q1 e2 z2 (by positivity)
    have hg : gam α n ≤ powGrow α n - 1 := by
      unfold gam powGrow
      have := pow_le_pow_right₀ (one_le_u (α := α)) (show n ≤ n + 1 by omega)
      linarith
    have t7 : gam α n * ((powSize α n N j - powTiny α n) * (powSize α n N k - powTiny α n)) ≤
        (powGrow α n - 1) * ((powSize α n N j - powTiny α n) * (powSize α n N k - powTiny α n)) :=
      mul_le_mul_of_nonneg_right hg (mul_nonneg (n1.trans s1) (n2.trans s2))
    rw [pow_add]
    nlinarith
  · obtain ⟨m, M, e, hm, hM, -⟩ := C81_product_terms ha hn hn hn hX hY
    exact ⟨_, e, m, rfl, hm, M, hM, fun h => absurd h hB⟩

/-- **C111.** The computed power of a matrix of norm at most `N` (and `1 ≤ N`): if the bound stays below the overflow threshold,
all entries are finite and the result differs from the power of the matrix by at most
`(1+u)^((n+1)(p-1)) (N + tiny)^p - N^p` in the Frobenius norm. -/
theorem C111_power {a : Mat α n n} (ha : a.own) (hn : 0 < n) {A : Nat → Nat → α} (hA : Shows a.at n n A)
    (hf : ∀ i j, i < n → j < n → fin (A i j)) {N : ℝ} (hN : 1 ≤ N) (hs : fro (mx n n fun i j => val (A i j)) ≤ N) (p : Nat)
    (hb : powSize α n N p ≤ big α) :
    ∃ (m : Mat α n n) (M : Nat → Nat → α), a.power p = .ok ⟨n, n, m⟩ ∧ m.own ∧ Shows m.at n n M ∧
      (∀ i j, i < n → j < n → fin (M i j)) ∧
      fro ((mx n n fun i j => val (M i j)) - (mx n n fun i j => val (A i j)) ^ p) ≤ powSize α n N p - N ^ p := by
  rcases Nat.eq_zero_or_pos p with rfl | hp
  · obtain ⟨m, e, hd, h⟩ := (C03_identity (α := α) (n : Int)).1 (by omega)
    refine ⟨m, _, ?_, ?_, h, fun i j _ _ => ?_, ?_⟩
    · unfold Mat.power
      rw [if_neg (by omega)]
      simp only [Mat.isSquare_ok hn a, ok_bind, Bool.not_true, Bool.false_eq_true, if_false]
      rw [if_pos (by simp), e]
      rfl
    · revert hd
      cases m with
      | arr m => exact fun _ => trivial
      | blk m => exact fun _ => trivial
      | dia m => exact fun h => h.elim
      | ext m => exact fun h => h.elim
    · split
      exacts [one_fin, zero_fin]
    · have e1 : (mx n n fun i j => val (if i = j then (Flt.one : α) else Flt.zero)) = 1 := by
        funext i j
        simp only [mx, Matrix.one_apply, Fin.ext_iff]
        split
        exacts [val_one, val_zero]
      rw [e1, pow_zero, sub_self, fro_null]
      simp [powSize]
  · obtain ⟨s, e, m, rfl, hm, M, hM, h⟩ := Mat.power_rel (Near (mx n n fun i j => val (A i j)) N)
      (Near.mul hN hs hn) ha hn hA (fun m₁ h₁ h₂ => ⟨m₁, rfl, h₁, A, h₂, fun _ => ⟨hf, by
        rw [pow_one, sub_self, fro_null]
        unfold powSize
        simp⟩⟩) hp
    obtain ⟨h1, h2⟩ := h hb
    exact ⟨m, M, e, hm, hM, h1, h2.trans (by linarith [tiny_nn (α := α) n])⟩

/-- **C111**, with an error linear in `p (n + 2) u`. -/
theorem C111_linear {a : Mat α n n} (ha : a.own) (hn : 0 < n) {A : Nat → Nat → α} (hA : Shows a.at n n A)
    (hf : ∀ i j, i < n → j < n → fin (A i j)) {N : ℝ} (hN : 1 ≤ N) (hs : fro (mx n n fun i j => val (A i j)) ≤ N) (p : Nat)
    (ht : powTiny α n ≤ u α) (hp : ((p * (n + 2) : ℕ) : ℝ) * u α ≤ 1 / 2) (hb : 2 * N ^ p ≤ big α) :
    ∃ (m : Mat α n n) (M : Nat → Nat → α), a.power p = .ok ⟨n, n, m⟩ ∧ m.own ∧ Shows m.at n n M ∧
      (∀ i j, i < n → j < n → fin (M i j)) ∧
      fro ((mx n n fun i j => val (M i j)) - (mx n n fun i j => val (A i j)) ^ p) ≤
        2 * (((p * (n + 2) : ℕ) : ℝ) * u α) * N ^ p := by
  have hu := u_nonneg (α := α)
  have h1 := one_le_u (α := α)
  have hh := tiny_nn (α := α) n
  have hNp : 0 ≤ N ^ p := by positivity
  have key : powSize α n N p ≤ (1 + 2 * (((p * (n + 2) : ℕ) : ℝ) * u α)) * N ^ p := by
    have l := pow_le_lin hu (hp.trans (by norm_num))
    have l1 : powGrow α n ^ (p - 1) ≤ (1 + u α) ^ ((n + 1) * p) := by
      unfold powGrow
      rw [← pow_mul]
      exact pow_le_pow_right₀ h1 (Nat.mul_le_mul_left _ (by omega))
    have l2 : (N + powTiny α n) ^ p ≤ (N * (1 + u α)) ^ p := pow_le_pow_left₀ (by linarith) (by nlinarith) p
    unfold powSize
    calc powGrow α n ^ (p - 1) * (N + powTiny α n) ^ p ≤ (1 + u α) ^ ((n + 1) * p) * (N * (1 + u α)) ^ p :=
          mul_le_mul l1 l2 (by have : 0 ≤ N + powTiny α n := by linarith
                               positivity) (by positivity)
      _ = (1 + u α) ^ (p * (n + 2)) * N ^ p := by
          rw [mul_pow, show p * (n + 2) = (n + 1) * p + p by ring, pow_add]
          ring
      _ ≤ _ := mul_le_mul_of_nonneg_right l hNp
  obtain ⟨m, M, e, h1, h2, h3, h4⟩ := C111_power ha hn hA hf hN hs p (key.trans (by nlinarith))
  exact ⟨m, M, e, h1, h2, h3, h4.trans (by linarith)⟩

end round

/-- **C111** for binary64: if twice the `p`-th power of the norm is below `2 ^ 1023`, no entry of the computed power overflows
and the error in the Frobenius norm is at most `2 p (n + 2) 2⁻⁵³` times the `p`-th power of the norm. -/
theorem C111_binary64 {n : Nat} {a : Mat B64 n n} (ha : a.own) (hn : 0 < n) {A : Nat → Nat → B64} (hA : Shows a.at n n A)
    (hf : ∀ i j, i < n → j < n → fin (A i j)) {N : ℝ} (hN : 1 ≤ N) (hs : fro (mx n n fun i j => val (A i j)) ≤ N) (p : Nat)
    (hp : p * (n + 2) ≤ 2 ^ 52) (hb : N ^ p ≤ 2 ^ 1022) :
    ∃ (m : Mat B64 n n) (M : Nat → Nat → B64), a.power p = .ok ⟨n, n, m⟩ ∧ m.own ∧ Shows m.at n n M ∧
      (∀ i j, i < n → j < n → fin (M i j)) ∧
      fro ((mx n n fun i j => val (M i j)) - (mx n n fun i j => val (A i j)) ^ p) ≤
        2 * (p * (n + 2)) * (1 / 2) ^ 53 * N ^ p := by
  rcases Nat.eq_zero_or_pos p with rfl | h0
  · obtain ⟨m, M, e, h1, h2, h3, h4⟩ := C111_power ha hn hA hf hN hs 0 (by
      have := big_le (α := B64)
      simp only [powSize]
      norm_num
      linarith)
    refine ⟨m, M, e, h1, h2, h3, h4.trans ?_⟩
    simp [powSize]
  have hn2 : n ≤ 2 ^ 52 := by nlinarith
  have hnr : (n : ℝ) ≤ 2 ^ 52 := by exact_mod_cast hn2
  have hpr : ((p * (n + 2) : ℕ) : ℝ) ≤ 2 ^ 52 := by exact_mod_cast hp
  have hu : u B64 = (1 / 2) ^ 53 := rfl
  obtain ⟨m, M, e, h1, h2, h3, h4⟩ := C111_linear ha hn hA hf hN hs p (by
      have l := pow_le_lin (x := u B64) (p := n) u_nonneg (by
        rw [hu]
        calc (n : ℝ) * (1 / 2) ^ 53 ≤ 2 ^ 52 * (1 / 2) ^ 53 := mul_le_mul_of_nonneg_right hnr (by positivity)
          _ ≤ 1 := by norm_num)
      have l' : (1 + u B64) ^ n ≤ 2 := by
        refine l.trans ?_
        rw [hu]
        have : (n : ℝ) * (1 / 2) ^ 53 ≤ 2 ^ 52 * (1 / 2) ^ 53 := mul_le_mul_of_nonneg_right hnr (by positivity)
        have e : (2 : ℝ) ^ 52 * (1 / 2) ^ 53 = 1 / 2 := by norm_num
        linarith
      have hη : η B64 ≤ (1 / 2) ^ 200 := pow_le_pow_of_le_one (by norm_num) (by norm_num) (by norm_num)
      have hη0 := η_nonneg (α := B64)
      unfold powTiny
      rw [hu] at *
      generalize η B64 = w at *
      have hg : 0 ≤ (1 + ((1 : ℝ) / 2) ^ 53) ^ n := by positivity
      generalize (1 + ((1 : ℝ) / 2) ^ 53) ^ n = g at *
      have g0 : 0 ≤ (n : ℝ) := by positivity
      calc (n : ℝ) * (n * g * w) = (n * n) * (g * w) := by ring
        _ ≤ (2 ^ 52 * 2 ^ 52) * (2 * (1 / 2) ^ 200) :=
            mul_le_mul (mul_le_mul hnr hnr g0 (by positivity)) ((mul_le_mul_of_nonneg_right l' hη0).trans
              (mul_le_mul_of_nonneg_left hη (by norm_num))) (mul_nonneg hg hη0) (by positivity)
        _ ≤ _ := by norm_num) (by
      rw [hu]
      calc ((p * (n + 2) : ℕ) : ℝ) * (1 / 2) ^ 53 ≤ 2 ^ 52 * (1 / 2) ^ 53 := mul_le_mul_of_nonneg_right hpr (by positivity)
        _ ≤ 1 / 2 := by norm_num) (by
      show 2 * N ^ p ≤ 2 ^ 1023
      rw [show (2 : ℝ) ^ 1023 = 2 * 2 ^ 1022 from pow_succ' 2 1022]
      exact mul_le_mul_of_nonneg_left hb (by norm_num))
  refine ⟨m, M, e, h1, h2, h3, h4.trans_eq ?_⟩
  rw [hu]
  push_cast
  ring

/-- A matrix that meets the hypotheses of `C111_binary64` with `p = 10`. -/
example : ∃ (a : Mat B64 2 2) (A : Nat → Nat → B64), a.own ∧ Shows a.at 2 2 A ∧ (∀ i j, i < 2 → j < 2 → fin (A i j)) ∧
    fro (mx 2 2 fun i j => val (A i j)) ≤ 3 ∧ (3 : ℝ) ^ 10 ≤ 2 ^ 1022 ∧ val (A 0 1) = 2 := by
  refine ⟨.arr ⟨⟨fun i j => if i = 0 ∧ j = 1 then B64.int 2 else B64.int 1⟩, fun _ => 0⟩,
    fun i j => if i = 0 ∧ j = 1 then B64.int 2 else B64.int 1, Mat.own_arr _, (Mat.at_shows _).congr fun _ _ _ _ => rfl,
    fun i j _ _ => ?_, ?_, ?_, ?_⟩
  · dsimp only; split <;> exact B64.int_fin _
  · unfold fro
    rw [Real.sqrt_le_left (by norm_num)]
    simp [mx, Fin.sum_univ_two, B64.int_val]
    norm_num
  · calc (3 : ℝ) ^ 10 ≤ 2 ^ 16 := by norm_num
      _ ≤ 2 ^ 1022 := pow_le_pow_right₀ (by norm_num) (by norm_num)
  · simp [B64.int_val]

end Linear
