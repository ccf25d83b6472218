import Verif.Lemmas.RoundQL

/-!
# The symmetric eigenvalue iteration in rounded arithmetic: all sweeps, sorting and the removals
-/

set_option linter.unusedSectionVars false

namespace Linear

open Spec Rnd Matrix
open Finset hiding val diag

variable {α : Type} [Flt α] [Rnd α] {n : Nat}
variable {ε E : ℝ} {S : Matrix (Fin n) (Fin n) ℝ} {N : Nat}

/-! ## All sweeps -/

/-- What is known of a state after `K` steps, when its vectors are finite. -/
def Eig.Inv (α : Type) [Flt α] [Rnd α] {n : Nat} (ε E : ℝ) (S : Matrix (Fin n) (Fin n) ℝ) (N : Nat) (z₀ : Tab α n n)
    (j K : Nat) (x : Eig.St α n) : Prop :=
  Eig.zfin x.z → Eig.zfin z₀ ∧ (K ≤ N → Eig.FinS x ∧ Eig.Simil α ε E S K (Eig.zM x.z) (mx n n (Eig.tM j x.d.f x.e.f)))

theorem Eig.Inv.mono (he0 : 0 ≤ ε) (hE : 0 ≤ E) {z₀ : Tab α n n} {j K L : Nat} (hKL : K ≤ L) {x : Eig.St α n}
    (h : Eig.Inv α ε E S N z₀ j K x) : Eig.Inv α ε E S N z₀ j L x := fun hz =>
  ⟨(h hz).1, fun hL => ⟨((h hz).2 (by omega)).1, ((h hz).2 (by omega)).2.mono he0 hE hKL⟩⟩

theorem Eig.Inv.round (he : u α ≤ ε) (he1 : ε ≤ 1 / 100) (hE : 0 ≤ E) (hR : Eig.Room α ε S N) {z₀ : Tab α n n}
    {j m K : Nat} (hj : j < m) (hm : m < n) {x x' : Eig.St α n} (h : Eig.Inv α ε E S N z₀ j K x)
    (hsm : m < n - 1 → Eig.small x.d.f x.e.f m) (hx : Eig.round j m x = .ok x') :
    Eig.Inv α ε E S N z₀ j (K + (n + 1)) x' := fun hz => by
  obtain ⟨r1, r2⟩ := Eig.round_round (E := E) he he1 hR hj hm x x' hsm hx hz
  obtain ⟨h1, h2⟩ := h r1
  exact ⟨h1, fun hK => r2 K hK (h2 (by omega)).1 (h2 (by omega)).2 hE⟩

theorem Eig.Inv.next (he : u α ≤ ε) (he1 : ε ≤ 1 / 100) (hE : 0 ≤ E) (hR : Eig.Room α ε S N) {z₀ : Tab α n n}
    {j K : Nat} (hj : j < n) {x : Eig.St α n} (h : Eig.Inv α ε E S N z₀ j K x)
    (hsm : j < n - 1 → Eig.small x.d.f x.e.f j) : Eig.Inv α ε E S N z₀ (j + 1) (K + 1) x := fun hz => by
  have he0 : 0 ≤ ε := (u_nonneg (α := α)).trans he
  have hη := η_nonneg (α := α)
  obtain ⟨h1, h2⟩ := h hz
  refine ⟨h1, fun hK => ?_⟩
  obtain ⟨hF, hA⟩ := h2 (by omega)
  refine ⟨hF, ?_⟩
  by_cases hjn : j < n - 1
  · refine hA.still he0 ?_
    have hroom := hA.room he0 hR (by omega)
    obtain ⟨β, hβ⟩ : ∃ β, β = fro (mx n n (Eig.tM j x.d.f x.e.f)) := ⟨_, rfl⟩
    rw [← hβ] at hroom ⊢
    have hβ0 : 0 ≤ β := by rw [hβ]; exact fro_nonneg _
    have hεβ : 0 ≤ ε * β := mul_nonneg he0 hβ0
    have hem : |val (x.e.f j)| ≤ 3 * ε * β :=
      Eig.small_round he he1 (hsm hjn) (hF.d j hj) (hF.d (j + 1) (by omega)) (hF.e j hj)
        (by rw [hβ]; exact Eig.tM_d hj) (by rw [hβ]; exact Eig.tM_d (by omega)) hroom
    unfold Eig.tM
    refine (Eig.W_block (k := j) (δ := 3 * ε * β) (by linarith) (fun a => ?_) (fun a _ => rfl) (fun a => ?_)
      (fun a ha => ?_) (fun a h0 => absurd h0 (by omega)) (fun a h0 => absurd h0 (by omega))).trans (by nlinarith)
    · rw [sub_self, abs_zero]; linarith
    · by_cases ha : a = j
      · rw [if_pos (by omega), if_neg (by omega), zero_sub, abs_neg, ha]; exact hem
      · by_cases h3 : a < j
        · rw [if_pos (by omega), if_pos h3, sub_self, abs_zero]; linarith
        · rw [if_neg (by omega), if_neg h3, sub_self, abs_zero]; linarith
    · by_cases h3 : a < j
      · rw [if_pos (by omega), if_pos h3]
      · rw [if_neg (by omega), if_neg h3]
  · have e1 : mx n n (Eig.tM (j + 1) x.d.f x.e.f) = mx n n (Eig.tM j x.d.f x.e.f) := by
      refine mx_congr fun a b ha hb => ?_
      have hc : ∀ a, a + 1 < n → (if a < j + 1 then 0 else val (x.e.f a)) = (if a < j then 0 else val (x.e.f a)) := by
        intro a ha
        rw [if_pos (by omega), if_pos (by omega)]
      unfold Eig.tM Eig.W
      split
      · rfl
      · split
        · exact hc _ (by omega)
        · split
          · exact hc _ (by omega)
          · rfl
    rw [e1]
    exact hA.mono he0 hE (by omega)

theorem Eig.ql_inv (he : u α ≤ ε) (he1 : ε ≤ 1 / 100) (hE : 0 ≤ E) (hR : Eig.Room α ε S N) {z₀ : Tab α n n}
    {j : Nat} (hj : j < n) (k K : Nat) (x : Eig.St α n) (hx : Eig.Inv α ε E S N z₀ j K x) :
    Wp (Eig.ql j k x) (Eig.Inv α ε E S N z₀ (j + 1) (K + (k * (n + 1) + 1))) (fun f => f = .err .maxIter) := by
  have he0 : 0 ≤ ε := (u_nonneg (α := α)).trans he
  induction k generalizing x K with
  | zero =>
    unfold Eig.ql
    obtain ⟨m, e, h1, h2, h3, h4⟩ := Eig.find_ok x.d x.e (show j + (n - 1 - j) < n by omega)
    rw [e, ok_bind]
    split
    · next h =>
      refine wp_of_eq_ok rfl ?_
      rw [Nat.zero_mul, Nat.zero_add]
      exact hx.next he he1 hE hR hj (fun h5 => by subst h; exact h3 (by omega))
    · exact (wp_error _).2 rfl
  | succ k ih =>
    unfold Eig.ql
    obtain ⟨m, e, h1, h2, h3, h4⟩ := Eig.find_ok x.d x.e (show j + (n - 1 - j) < n by omega)
    rw [e, ok_bind]
    split
    · next h =>
      refine wp_of_eq_ok rfl ?_
      refine Eig.Inv.mono he0 hE ?_ (hx.next he he1 hE hR hj (fun h5 => by subst h; exact h3 (by omega)))
      omega
    · next h =>
      obtain ⟨x', e'⟩ := Eig.round_ok (show j < m by omega) (show m < n by omega) x
      rw [e', ok_bind]
      refine (ih (K + (n + 1)) x' (hx.round he he1 hE hR (by omega) (by omega) (fun h5 => h3 (by omega)) e')).mono
        (fun y hy => ?_) (fun _ h => h)
      rw [show K + ((k + 1) * (n + 1) + 1) = K + (n + 1) + (k * (n + 1) + 1) by rw [Nat.succ_mul]; omega]
      exact hy

theorem Eig.iter_inv (he : u α ≤ ε) (he1 : ε ≤ 1 / 100) (hE : 0 ≤ E) (hR : Eig.Room α ε S N) {z₀ : Tab α n n}
    (x : Eig.St α n) (hx : Eig.Inv α ε E S N z₀ 0 0 x) :
    Wp (forUp 0 n (fun j (x : Eig.St α n) => Eig.ql j 30 x) x)
      (Eig.Inv α ε E S N z₀ n (n * (30 * (n + 1) + 1))) (fun f => f = .err .maxIter) :=
  wp_forUp (ε := Fault) (fun j => Eig.Inv α ε E S N z₀ j (j * (30 * (n + 1) + 1))) (by omega) (by simpa using hx)
    (fun j x _ h2 h3 => (Eig.ql_inv he he1 hE hR h2 30 _ x h3).mono
      (fun x' h => by rw [Nat.succ_mul]; exact h) (fun _ h => h))

/-! ## Sorting -/

theorem Eig.Simil.perm {Z D Z' D' : Matrix (Fin n) (Fin n) ℝ} {k : Nat} (σ : Equiv.Perm (Fin n))
    (h : Eig.Simil α ε E S k Z D) (hZ : Z' = Z.submatrix id σ) (hD : D' = D.submatrix σ σ) :
    Eig.Simil α ε E S k Z' D' := by
  obtain ⟨O, h1, h2, h3⟩ := h
  refine ⟨O.submatrix id σ, ?_, ?_, ?_⟩
  · ext i j
    refine (congrFun (congrFun h1 (σ i)) (σ j)).trans ?_
    rw [Matrix.one_apply, Matrix.one_apply]
    simp only [EmbeddingLike.apply_eq_iff_eq]
  · rw [hZ]
    refine le_trans (le_of_eq ?_) h2
    unfold fro
    congr 1
    refine sum_congr rfl fun i _ => ?_
    exact Equiv.sum_comp σ fun j => (Z - O) i j ^ 2
  · rw [hD, Matrix.transpose_submatrix, Matrix.submatrix_mul_equiv, Matrix.submatrix_mul_equiv, Matrix.submatrix_id_id]
    exact h3

/-- The exchange of two columns. -/
def Eig.swE {i k : Nat} (hi : i < n) (hk : k < n) : Equiv.Perm (Fin n) where
  toFun b := ⟨Eig.sw i k b, Eig.sw_lt hi hk b.2⟩
  invFun b := ⟨Eig.sw i k b, Eig.sw_lt hi hk b.2⟩
  left_inv b := Fin.ext (Eig.sw_sw i k b)
  right_inv b := Fin.ext (Eig.sw_sw i k b)

/-- The values in the diagonal of a matrix. -/
noncomputable def Eig.dM (n : Nat) (d : Nat → α) : Matrix (Fin n) (Fin n) ℝ :=
  Matrix.diagonal fun i : Fin n => val (d i)

theorem Eig.tM_last (d e : Nat → α) : mx n n (Eig.tM n d e) = Eig.dM n d := by
  ext i j
  show Eig.tM n d e i j = _
  unfold Eig.tM Eig.W Eig.dM
  rw [Matrix.diagonal_apply]
  by_cases h : i = j
  · rw [if_pos h, if_pos (congrArg Fin.val h)]
  · rw [if_neg h, if_neg (fun h' => h (Fin.ext h'))]
    have h1 := i.2
    have h2 := j.2
    simp [h1, h2]

theorem Eig.largest_round {i : Nat} (hi : i < n) (d : Row α n) (hd : ∀ b, b < n → fin (d.f b)) {k : Nat}
    (h : Eig.largest i d = .ok (k, d.f k)) : ∀ b, i ≤ b → b < n → val (d.f b) ≤ val (d.f k) := by
  unfold Eig.largest at h
  rw [Row.get_ok hi, ok_bind] at h
  have h1 := (wp_forUp (ε := Fault) (a := i + 1) (b := n)
    (body := fun j (kp : Nat × α) => do
      let x ← d.get j
      return if Flt.lt kp.2 x then (j, x) else kp) (s := (i, d.f i)) (E := fun _ => False)
    (fun b kp => fin kp.2 ∧ ∀ y, i ≤ y → y < b → val (d.f y) ≤ val kp.2) (by omega)
    ⟨hd i hi, fun y h1 h2 => by rw [show y = i by omega]⟩
    (fun j kp h1 h2 hI => by
      rw [Row.get_ok h2, ok_bind]
      refine wp_of_eq_ok rfl ?_
      split
      · next hl =>
        rw [lt_iff hI.1 (hd j h2)] at hl
        refine ⟨hd j h2, fun y hy1 hy2 => ?_⟩
        by_cases hyj : y = j
        · subst hyj; exact le_refl _
        · exact (hI.2 y hy1 (by omega)).trans hl.le
      · next hl =>
        rw [lt_iff hI.1 (hd j h2), not_lt] at hl
        refine ⟨hI.1, fun y hy1 hy2 => ?_⟩
        by_cases hyj : y = j
        · subst hyj; exact hl
        · exact hI.2 y hy1 (by omega))).of_ok h
  exact h1.2

/-- What is known of the vectors and values after `i` steps of the sorting, when the vectors are finite. -/
def Eig.SortInv (ε E : ℝ) (S : Matrix (Fin n) (Fin n) ℝ) (K : Nat) (z₀ : Tab α n n) (i : Nat)
    (x : Tab α n n × Row α n) : Prop :=
  Eig.zfin x.1 → Eig.zfin z₀ ∧ (∀ a, a < n → fin (x.2.f a)) ∧ Eig.Simil α ε E S K (Eig.zM x.1) (Eig.dM n x.2.f) ∧
    ∀ a b, a < i → a < b → b < n → val (x.2.f b) ≤ val (x.2.f a)

theorem Eig.sort_inv {K : Nat} {z₀ : Tab α n n} (x : Tab α n n × Row α n) (hx : Eig.SortInv ε E S K z₀ 0 x) :
    ∃ y, forUp 0 n Eig.select x = .ok y ∧ Eig.SortInv ε E S K z₀ n y :=
  Eig.sort_rule (Eig.SortInv ε E S K z₀) x hx fun i x k y hi hI el hik hk h1 h2 hz => by
    obtain ⟨g1, g2, g3, g4⟩ := hI fun a b ha hb => by
      have := hz a (Eig.sw i k b) ha (Eig.sw_lt hi hk hb)
      rw [h1 a _ ha, Eig.sw_sw] at this
      exact this
    refine ⟨g1, fun a ha => by rw [h2]; exact g2 _ (Eig.sw_lt hi hk ha), g3.perm (Eig.swE hi hk) ?_ ?_,
      fun a b ha hab hb => ?_⟩
    · ext a b
      exact congrArg val (h1 a b a.2)
    · ext a b
      show Eig.dM n y.2.f a b = Eig.dM n x.2.f (Eig.swE hi hk a) (Eig.swE hi hk b)
      unfold Eig.dM
      rw [Matrix.diagonal_apply, Matrix.diagonal_apply, h2]
      simp only [EmbeddingLike.apply_eq_iff_eq]
      rfl
    · have hmax := Eig.largest_round hi x.2 g2 el
      rw [h2, h2]
      by_cases hai : a = i
      · subst hai
        have : Eig.sw a k a = k := if_pos rfl
        rw [this]
        refine hmax _ ?_ (Eig.sw_lt hi hk hb)
        unfold Eig.sw
        split_ifs <;> omega
      · have : Eig.sw i k a = a := by
          unfold Eig.sw
          split_ifs <;> omega
        rw [this]
        refine g4 a _ (by omega) ?_ (Eig.sw_lt hi hk hb)
        unfold Eig.sw
        split_ifs <;> omega

/-! ## The removals -/

theorem fro_le_entry {M : Matrix (Fin n) (Fin n) ℝ} {δ : ℝ} (hδ : 0 ≤ δ) (h : ∀ i j, |M i j| ≤ δ) : fro M ≤ n * δ := by
  refine Real.sqrt_le_iff.2 ⟨by positivity, ?_⟩
  have h1 : ∀ i j : Fin n, M i j ^ 2 ≤ δ ^ 2 := fun i j => by
    rw [← sq_abs]; exact pow_le_pow_left₀ (abs_nonneg _) (h i j) 2
  refine (sum_le_sum fun i _ => sum_le_sum fun j _ => h1 i j).trans (le_of_eq ?_)
  simp only [sum_const, card_univ, Fintype.card_fin, nsmul_eq_mul]
  ring

theorem fro_mono {M M' : Matrix (Fin n) (Fin n) ℝ} (h : ∀ i j, |M i j| ≤ |M' i j|) : fro M ≤ fro M' :=
  Real.sqrt_le_sqrt (sum_le_sum fun i _ => sum_le_sum fun j _ => sq_le_sq.2 (h i j))

theorem Eig.grow_round {mx x : α} {β : ℝ} (h1 : fin mx) (h2 : fin x) (b1 : |val mx| ≤ β) (b2 : |val x| ≤ β) :
    fin (Eig.grow mx x) ∧ |val (Eig.grow mx x)| ≤ β := by
  unfold Eig.grow
  split
  · exact ⟨abs_fin.2 h2, by rw [val_abs h2, abs_abs]; exact b2⟩
  · exact ⟨h1, b1⟩

/-- The threshold. -/
theorem Eig.thr_round {eps mx : α} {θ β : ℝ} (hu1 : u α ≤ 1 / 100) (fe : fin eps) (he : |val eps| ≤ θ) (hθ : θ ≤ 1)
    (fm : fin mx) (hm : |val mx| ≤ β) (hβ : β ≤ big α) :
    fin (Flt.mul eps mx) ∧ val (Flt.mul eps mx) ≤ 2 * θ * β + η α := by
  have hu0 := u_nonneg (α := α)
  have hθ0 : 0 ≤ θ := (abs_nonneg _).trans he
  have hβ0 : 0 ≤ β := (abs_nonneg _).trans hm
  have h1 : |val eps * val mx| ≤ θ * β := by
    rw [abs_mul]; exact mul_le_mul he hm (abs_nonneg _) hθ0
  have hf : fin (Flt.mul eps mx) := mul_ok fe fm (h1.trans (by nlinarith))
  refine ⟨hf, ?_⟩
  have h2 := (mul_err hf).1
  have h3 := (abs_le.1 h2).2
  have h4 : u α * |val eps * val mx| ≤ 1 / 100 * (θ * β) := mul_le_mul hu1 h1 (abs_nonneg _) (by norm_num)
  have h5 := (abs_le.1 h1).2
  have h6 : 0 ≤ θ * β := by positivity
  linarith

theorem Eig.cut_round {x thr : α} {τ : ℝ} (fx : fin x) (ft : fin thr) (ht : val thr ≤ τ) (hτ : 0 ≤ τ) {y : α}
    (hy : y = if Flt.le (Flt.abs x) thr = true then Flt.zero else x) :
    fin y ∧ |val y| ≤ |val x| ∧ |val x - val y| ≤ τ := by
  rw [hy]
  split
  · next h =>
    rw [le_iff (abs_fin.2 fx) ft, val_abs fx] at h
    rw [val_zero, sub_zero, abs_zero]
    exact ⟨zero_fin, abs_nonneg _, h.trans ht⟩
  · rw [sub_self, abs_zero]
    exact ⟨fx, le_rfl, hτ⟩

theorem Eig.cut_round' {x thr : α} {τ : ℝ} (fx : fin x) (ft : fin thr) (ht : val thr ≤ τ) (hτ : 0 ≤ τ) {y : α}
    (hy : y = if Flt.lt (Flt.abs x) thr = true then Flt.zero else x) :
    fin y ∧ |val y| ≤ |val x| ∧ |val x - val y| ≤ τ := by
  rw [hy]
  split
  · next h =>
    rw [lt_iff (abs_fin.2 fx) ft, val_abs fx] at h
    rw [val_zero, sub_zero, abs_zero]
    exact ⟨zero_fin, abs_nonneg _, h.le.trans ht⟩
  · rw [sub_self, abs_zero]
    exact ⟨fx, le_rfl, hτ⟩

/-- The removal of small entries of both diagonals. -/
theorem Eig.null2_round {eps : α} {θ β : ℝ} (hu1 : u α ≤ 1 / 100) (fe : fin eps) (he : |val eps| ≤ θ) (hθ : θ ≤ 1)
    {s s' : Row α n × Row α n} (f1 : ∀ i, i < n → fin (s.1.f i)) (f2 : ∀ i, i < n → fin (s.2.f i))
    (b1 : ∀ i, i < n → |val (s.1.f i)| ≤ β) (b2 : ∀ i, i < n → |val (s.2.f i)| ≤ β) (hβ0 : 0 ≤ β) (hβ : β ≤ big α)
    (h : Eig.null2 eps s = .ok s') :
    (∀ i, i < n → fin (s'.1.f i) ∧ |val (s'.1.f i)| ≤ |val (s.1.f i)| ∧ |val (s.1.f i) - val (s'.1.f i)| ≤ 2 * θ * β + η α) ∧
    ∀ i, i < n → fin (s'.2.f i) ∧ |val (s'.2.f i)| ≤ |val (s.2.f i)| ∧ |val (s.2.f i) - val (s'.2.f i)| ≤ 2 * θ * β + η α := by
  have hη := η_nonneg (α := α)
  have hθ0 : 0 ≤ θ := (abs_nonneg _).trans he
  have hτ : 0 ≤ 2 * θ * β + η α := by positivity
  obtain ⟨mx, t, em, et, hs⟩ := Eig.null2_ok eps s
  rw [h] at et
  cases Except.ok.inj et
  obtain ⟨mx', em', fm, bm⟩ := Wp.exists_ok (wp_forUp (ε := Fault) (a := 0) (b := n)
    (body := fun i mx => do return Eig.grow (Eig.grow mx (← s.1.get i)) (← s.2.get i)) (s := (Flt.zero : α))
    (E := fun _ => False) (fun _ m => fin m ∧ |val m| ≤ β) (by omega) ⟨zero_fin, by rw [val_zero, abs_zero]; exact hβ0⟩
    (fun i m h1 h2 hI => by
      rw [Row.get_ok (by omega), ok_bind, Row.get_ok (by omega), ok_bind]
      have := Eig.grow_round hI.1 (f1 i h2) hI.2 (b1 i h2)
      exact wp_of_eq_ok rfl (Eig.grow_round this.1 (f2 i h2) this.2 (b2 i h2))))
  rw [em] at em'
  cases Except.ok.inj em'
  rcases hs with ⟨-, rfl⟩ | ⟨-, g1, g2⟩
  · exact ⟨fun i hi => ⟨f1 i hi, le_rfl, by rw [sub_self, abs_zero]; exact hτ⟩,
      fun i hi => ⟨f2 i hi, le_rfl, by rw [sub_self, abs_zero]; exact hτ⟩⟩
  · obtain ⟨ft, bt⟩ := Eig.thr_round hu1 fe he hθ fm bm hβ
    exact ⟨fun i hi => Eig.cut_round (f1 i hi) ft bt hτ (g1 i hi), fun i hi => Eig.cut_round (f2 i hi) ft bt hτ (g2 i hi)⟩

/-- The removal of small eigenvalues. -/
theorem Eig.null1_round {eps : α} {θ β : ℝ} (hu1 : u α ≤ 1 / 100) (fe : fin eps) (he : |val eps| ≤ θ) (hθ : θ ≤ 1)
    {d d' : Row α n} (f1 : ∀ i, i < n → fin (d.f i)) (b1 : ∀ i, i < n → |val (d.f i)| ≤ β) (hβ0 : 0 ≤ β)
    (hβ : β ≤ big α) (h : Eig.null1 eps d = .ok d') :
    (∀ i, i < n → fin (d'.f i) ∧ |val (d'.f i)| ≤ |val (d.f i)| ∧ |val (d.f i) - val (d'.f i)| ≤ 2 * θ * β + η α) ∧
    ∀ i j, i < n → j < n → val (d.f i) ≤ val (d.f j) → val (d'.f i) ≤ val (d'.f j) := by
  have hη := η_nonneg (α := α)
  have hθ0 : 0 ≤ θ := (abs_nonneg _).trans he
  have hτ : 0 ≤ 2 * θ * β + η α := by positivity
  obtain ⟨mx, t, em, et, hs⟩ := Eig.null1_ok eps d
  rw [h] at et
  cases Except.ok.inj et
  obtain ⟨mx', em', fm, bm⟩ := Wp.exists_ok (wp_forUp (ε := Fault) (a := 0) (b := n)
    (body := fun i mx => do return Eig.grow mx (← d.get i)) (s := (Flt.zero : α))
    (E := fun _ => False) (fun _ m => fin m ∧ |val m| ≤ β) (by omega) ⟨zero_fin, by rw [val_zero, abs_zero]; exact hβ0⟩
    (fun i m h1 h2 hI => by
      rw [Row.get_ok (by omega), ok_bind]
      exact wp_of_eq_ok rfl (Eig.grow_round hI.1 (f1 i h2) hI.2 (b1 i h2))))
  rw [em] at em'
  cases Except.ok.inj em'
  rcases hs with ⟨-, rfl⟩ | ⟨-, g1⟩
  · exact ⟨fun i hi => ⟨f1 i hi, le_rfl, by rw [sub_self, abs_zero]; exact hτ⟩, fun _ _ _ _ h => h⟩
  · obtain ⟨ft, bt⟩ := Eig.thr_round hu1 fe he hθ fm bm hβ
    refine ⟨fun i hi => Eig.cut_round' (f1 i hi) ft bt hτ (g1 i hi), fun i j hi hj hij => ?_⟩
    rw [g1 i hi, g1 j hj]
    simp only [lt_iff (abs_fin.2 (f1 i hi)) ft, lt_iff (abs_fin.2 (f1 j hj)) ft, val_abs (f1 i hi), val_abs (f1 j hj)]
    generalize val (Flt.mul eps mx) = τ at *
    split
    · next h1 =>
      rw [val_zero]
      split
      · rw [val_zero]
      · next h2 =>
        rw [abs_lt] at h1 h2
        by_contra h3
        exact h2 ⟨by linarith, by linarith⟩
    · next h1 =>
      split
      · next h2 =>
        rw [val_zero]
        rw [abs_lt] at h1 h2
        by_contra h3
        exact h1 ⟨by linarith, by linarith⟩
      · exact hij

/-! ## All of it -/

/-- The number of steps of the iteration, at most: thirty sweeps for each eigenvalue. -/
def Spec.qlSteps (n : Nat) : Nat := n * (30 * (n + 1) + 1)

/-- A bound of all norms, for a matrix of norm `t`. -/
noncomputable def Spec.qlSize (α : Type) [Flt α] [Rnd α] (n : Nat) (ε t : ℝ) : ℝ :=
  (1 + 350 * ε) ^ qlSteps n * (t + qlSteps n * (350 * η α))

/-- The bound of the backward error: the rotations and the two removals. -/
noncomputable def Spec.qlErr (α : Type) [Flt α] [Rnd α] (n : Nat) (ε θ t : ℝ) : ℝ :=
  (qlSize α n ε t - t) + 2 * (n * (2 * θ * qlSize α n ε t + η α))

/-- The bound of the distance to orthogonal vectors, for a starting distance `E`. -/
noncomputable def Spec.qlVec (α : Type) [Flt α] [Rnd α] (n : Nat) (ε E : ℝ) : ℝ :=
  rotErr (22 * ε) (√n * (5 * η α)) E √n (qlSteps n)

theorem Eig.findSym_round {l : Nat} {eps : α} {θ : ℝ} (he : u α ≤ ε) (he1 : ε ≤ 1 / 100) (fe : fin eps)
    (hθe : |val eps| ≤ θ) (hθ : θ ≤ 1) {main : Row α n} {sec : Row α l} {z : Tab α n n} (hn : 0 < n) (hl : n - 1 ≤ l)
    (f1 : ∀ i, i < n → fin (main.f i)) (f2 : ∀ i, i + 1 < n → fin (sec.f i)) {t : ℝ}
    (ht : fro (mx n n fun i j => val (Tri.tEnt main.f sec.f i j)) ≤ t) (hbig : 16 * qlSize α n ε t ≤ big α)
    {g : Eig α n} (hg : Eig.findSym eps main sec z = .ok g) (hv : ∀ i j, i < n → j < n → fin (g.vec.f i j)) :
    Eig.zfin z ∧ (∀ i, i < n → fin (g.re.f i)) ∧ (∀ i j, i < j → j < n → val (g.re.f j) ≤ val (g.re.f i)) ∧
    fro (Eig.dM n g.re.f) ≤ qlSize α n ε t ∧
    ∀ (E : ℝ) (Q₀ : Matrix (Fin n) (Fin n) ℝ), 0 ≤ E → Q₀ᵀ * Q₀ = 1 → fro (Eig.zM z - Q₀) ≤ E →
      ∃ O : Matrix (Fin n) (Fin n) ℝ, Oᵀ * O = 1 ∧
        fro ((mx n n fun i j => val (g.vec.f j i)) - O) ≤ qlVec α n ε E ∧
        fro (Q₀ * (mx n n fun i j => val (Tri.tEnt main.f sec.f i j)) * Q₀ᵀ - O * Eig.dM n g.re.f * Oᵀ) ≤
          qlErr α n ε θ t := by
  have hη := η_nonneg (α := α)
  have he0 : 0 ≤ ε := (u_nonneg (α := α)).trans he
  have hθ0 : 0 ≤ θ := (abs_nonneg _).trans hθe
  have hu1 := he.trans he1
  obtain ⟨s0, e0, d1, d2, d3⟩ := Eig.diagonals_ok hn hl main sec
  obtain ⟨s0', s1, e0', e1, hcase⟩ := Eig.findSym_ok eps main sec z hn hl
  rw [e0] at e0'
  cases Except.ok.inj e0'
  obtain ⟨T, hT⟩ : ∃ T, T = mx n n fun i j => val (Tri.tEnt main.f sec.f i j) := ⟨_, rfl⟩
  rw [← hT] at ht ⊢
  have hT0 : T = mx n n (Eig.tM 0 s0.1.f s0.2.f) := by
    rw [hT]
    refine mx_congr fun a b ha hb => ?_
    unfold Eig.tM Eig.W Tri.tEnt
    dsimp only
    by_cases h1 : a = b
    · rw [if_pos h1, if_pos h1, d1 a ha]
    · rw [if_neg h1, if_neg h1]
      by_cases h2 : a = b + 1
      · rw [if_pos h2, if_neg (by omega), if_pos h2, if_neg (by omega), d2 b (by omega)]
      · rw [if_neg h2]
        by_cases h3 : b = a + 1
        · rw [if_pos h3, if_pos h3, if_neg (by omega), d2 a (by omega)]
        · rw [if_neg h3, if_neg h3, if_neg h2, ite_self, val_zero]
  have ht0 : 0 ≤ t := (fro_nonneg _).trans ht
  have hN1 : 1 ≤ (1 + 350 * ε) ^ qlSteps n := one_le_pow₀ (by linarith)
  have htB : t ≤ qlSize α n ε t := by
    unfold qlSize
    have : 0 ≤ (qlSteps n : ℝ) * (350 * η α) := by positivity
    nlinarith
  have hB0 : 0 ≤ qlSize α n ε t := ht0.trans htB
  have g1 : ∀ i, i < n → fin (s0.1.f i) := fun i hi => by rw [d1 i hi]; exact f1 i hi
  have g2 : ∀ i, i < n → fin (s0.2.f i) := fun i hi => by
    by_cases h1 : i < n - 1
    · rw [d2 i h1]; exact f2 i (by omega)
    · rw [show i = n - 1 by omega, d3]; exact zero_fin
  have b1 : ∀ i, i < n → |val (s0.1.f i)| ≤ t := fun i hi => le_trans (Eig.tM_d hi) (by rw [← hT0]; exact ht)
  have b2 : ∀ i, i < n → |val (s0.2.f i)| ≤ t := fun i hi => by
    by_cases h1 : i < n - 1
    · have h := W_entry (n := n) (D := fun a => val (s0.1.f a)) (C := fun a => if a < 0 then 0 else val (s0.2.f a)) (x := 0)
        (P := 0) (a := i) (b := i + 1) hi (by omega)
      change |Eig.tM 0 s0.1.f s0.2.f i (i + 1)| ≤ fro (mx n n (Eig.tM 0 s0.1.f s0.2.f)) at h
      rw [← hT0] at h
      unfold Eig.tM Eig.W at h
      dsimp only at h
      rw [if_neg (by omega), if_pos rfl, if_neg (by omega)] at h
      exact h.trans ht
    · rw [show i = n - 1 by omega, d3, val_zero, abs_zero]; exact ht0
  obtain ⟨c1, c2⟩ := Eig.null2_round hu1 fe hθe hθ g1 g2 b1 b2 ht0 (by linarith) e1
  obtain ⟨M1, hM1⟩ : ∃ M, M = mx n n (Eig.tM 0 s1.1.f s1.2.f) := ⟨_, rfl⟩
  have hM1t : fro M1 ≤ fro T := by
    rw [hM1, hT0]
    refine fro_mono fun i j => ?_
    show |Eig.tM 0 s1.1.f s1.2.f i j| ≤ |Eig.tM 0 s0.1.f s0.2.f i j|
    unfold Eig.tM Eig.W
    split_ifs
    · exact (c1 i i.2).2.1
    all_goals first | exact (c2 i i.2).2.1 | exact (c2 j j.2).2.1 | exact le_rfl
  have hMT : fro (T - M1) ≤ n * (2 * θ * t + η α) := by
    rw [hM1, hT0]
    refine fro_le_entry (by positivity) fun i j => ?_
    show |Eig.tM 0 s0.1.f s0.2.f i j - Eig.tM 0 s1.1.f s1.2.f i j| ≤ _
    unfold Eig.tM Eig.W
    split_ifs
    · exact (c1 i i.2).2.2
    all_goals first | exact (c2 i i.2).2.2 | exact (c2 j j.2).2.2 | (rw [sub_self, abs_zero]; positivity)
  rcases hcase with ⟨f, -, hbad⟩ | ⟨x, y, d, v, ex, ey, ed, hvv, hgg⟩
  · rw [hg] at hbad; cases hbad
  rw [hg] at hgg
  cases Except.ok.inj hgg
  have key : ∀ (E : ℝ) (Q₀ : Matrix (Fin n) (Fin n) ℝ), 0 ≤ E → Q₀ᵀ * Q₀ = 1 → fro (Eig.zM z - Q₀) ≤ E →
      Eig.zfin z ∧ (∀ i, i < n → fin (d.f i)) ∧ (∀ i j, i < j → j < n → val (d.f j) ≤ val (d.f i)) ∧
      fro (Eig.dM n d.f) ≤ qlSize α n ε t ∧
      ∃ O : Matrix (Fin n) (Fin n) ℝ, Oᵀ * O = 1 ∧
        fro ((mx n n fun i j => val (v.f j i)) - O) ≤ qlVec α n ε E ∧
        fro (Q₀ * T * Q₀ᵀ - O * Eig.dM n d.f * Oᵀ) ≤ qlErr α n ε θ t := by
    intro E Q₀ hE hQ hZ
    have hQ' : Q₀ᵀ * (Q₀ᵀ)ᵀ = 1 := by rw [Matrix.transpose_transpose]; exact hQ
    have hS : fro (Q₀ * M1 * Q₀ᵀ) = fro M1 := by rw [fro_right hQ', fro_left hQ]
    have hsz : rotErr (350 * ε) (350 * η α) 0 (fro (Q₀ * M1 * Q₀ᵀ)) (qlSteps n) + fro (Q₀ * M1 * Q₀ᵀ) ≤
        qlSize α n ε t := by
      rw [hS]
      unfold rotErr qlSize
      rw [sub_add_cancel]
      refine mul_le_mul_of_nonneg_left ?_ (by positivity)
      linarith
    have hR : Eig.Room α ε (Q₀ * M1 * Q₀ᵀ) (qlSteps n) := by unfold Eig.Room; linarith
    have hI := (Eig.iter_inv he he1 hE hR (z₀ := z) ⟨z, s1.1, s1.2⟩ (fun hz => ⟨hz, fun _ =>
      ⟨⟨fun a ha => (c1 a ha).1, fun a ha => (c2 a ha).1⟩, Q₀, hQ, by rw [rotErr_zero]; exact hZ, by
        rw [rotErr_zero, ← hM1, sub_self]
        unfold fro
        simp⟩⟩)).of_ok ex
    obtain ⟨y', ey', hy⟩ := Eig.sort_inv (ε := ε) (E := E) (S := Q₀ * M1 * Q₀ᵀ) (K := qlSteps n) (z₀ := z) (x.z, x.d)
      (fun hz => by
        obtain ⟨h1, h2⟩ := hI hz
        obtain ⟨h3, h4⟩ := h2 le_rfl
        rw [Eig.tM_last] at h4
        exact ⟨h1, h3.d, h4, fun a b h => by omega⟩)
    rw [ey] at ey'
    cases Except.ok.inj ey'
    obtain ⟨r1, r2, r3, r4⟩ := hy fun a b ha hb => by rw [← hvv b a hb ha]; exact hv b a hb ha
    have hD := r3.size.trans hsz
    obtain ⟨O, o1, o2, o3⟩ := r3
    have hdi : ∀ i, i < n → |val (y.2.f i)| ≤ qlSize α n ε t := fun i hi => by
      have h := fro_entry (Eig.dM n y.2.f) ⟨i, hi⟩ ⟨i, hi⟩
      rw [show Eig.dM n y.2.f ⟨i, hi⟩ ⟨i, hi⟩ = val (y.2.f i) from Matrix.diagonal_apply_eq _ _] at h
      exact h.trans hD
    obtain ⟨hn1, hn2⟩ := Eig.null1_round hu1 fe hθe hθ r2 hdi hB0 (by linarith) ed
    have hDD : fro (Eig.dM n y.2.f - Eig.dM n d.f) ≤ n * (2 * θ * qlSize α n ε t + η α) := by
      refine fro_le_entry (by positivity) fun i j => ?_
      unfold Eig.dM
      rw [Matrix.sub_apply, Matrix.diagonal_apply, Matrix.diagonal_apply]
      split
      · exact (hn1 i i.2).2.2
      · rw [sub_self, abs_zero]; positivity
    refine ⟨r1, fun i hi => (hn1 i hi).1, fun i j hij hj => hn2 j i hj (by omega) (r4 i j (by omega) hij hj), le_trans (fro_mono fun i j => ?_) hD, O, o1, ?_, ?_⟩
    · unfold Eig.dM
      rw [Matrix.diagonal_apply, Matrix.diagonal_apply]
      split
      · exact (hn1 i i.2).2.1
      · exact le_rfl
    · refine le_trans (le_of_eq ?_) o2
      congr 2
      exact mx_congr fun a b ha hb => congrArg val (hvv b a hb ha)
    · have o1' : Oᵀ * (Oᵀ)ᵀ = 1 := by rw [Matrix.transpose_transpose]; exact o1
      have e3 : Q₀ * T * Q₀ᵀ - O * Eig.dM n d.f * Oᵀ = Q₀ * (T - M1) * Q₀ᵀ +
          ((Q₀ * M1 * Q₀ᵀ - O * Eig.dM n y.2.f * Oᵀ) + O * (Eig.dM n y.2.f - Eig.dM n d.f) * Oᵀ) := by
        simp only [Matrix.mul_sub, Matrix.sub_mul]
        abel
      rw [e3]
      have k1 := fro_add_le (Q₀ * (T - M1) * Q₀ᵀ)
        ((Q₀ * M1 * Q₀ᵀ - O * Eig.dM n y.2.f * Oᵀ) + O * (Eig.dM n y.2.f - Eig.dM n d.f) * Oᵀ)
      have k2 := fro_add_le (Q₀ * M1 * Q₀ᵀ - O * Eig.dM n y.2.f * Oᵀ) (O * (Eig.dM n y.2.f - Eig.dM n d.f) * Oᵀ)
      rw [fro_right hQ', fro_left hQ] at k1
      rw [fro_right o1', fro_left o1] at k2
      have k3 : rotErr (350 * ε) (350 * η α) 0 (fro (Q₀ * M1 * Q₀ᵀ)) (qlSteps n) ≤ qlSize α n ε t - t := by
        rw [hS]
        unfold rotErr qlSize
        have : ((1 + 350 * ε) ^ qlSteps n - 1) * fro M1 ≤ ((1 + 350 * ε) ^ qlSteps n - 1) * t :=
          mul_le_mul_of_nonneg_left (hM1t.trans ht) (by linarith)
        linarith
      have k4 : (n : ℝ) * (2 * θ * t + η α) ≤ n * (2 * θ * qlSize α n ε t + η α) := by gcongr
      unfold qlErr
      linarith
  obtain ⟨k1, k2, k3, k4, -⟩ := key (fro (Eig.zM z - 1)) 1 (fro_nonneg _) (by simp) le_rfl
  exact ⟨k1, k2, k3, k4, fun E Q₀ h1 h2 h3 => (key E Q₀ h1 h2 h3).2.2.2.2⟩

end Linear
