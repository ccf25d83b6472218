import Verif.Props.RoundPinv

/-!
# C123: condition numbers and covariance by singular values in rounded arithmetic

`IsSv A τ`: `τ` are the singular values of the real matrix `A` (`Lemmas/Weyl.lean`).
-/

set_option linter.unusedSectionVars false

namespace Linear

open Spec Rnd Matrix
open Finset hiding val diag

variable {α : Type} [Flt α] {r c p : Nat}

/-! ## Condition numbers -/

/-- **C123, the terms of the condition numbers**: in every arithmetic they are the two quotients of the first and the last singular value. -/
theorem C123_condition_terms {s : Svd α} {U V : Nat → Nat → α} {σ : Nat → α} (h : HoldsSvd s r c p U V σ) (hp : 0 < p) :
    s.cond = .ok (Flt.div (σ 0) (σ (p - 1))) ∧ s.invCond = .ok (Flt.div (σ (p - 1)) (σ 0)) := by
  have e0 : rdL s.sv 0 = .ok (σ 0) := rdL_eq_ok.2 (h.vals.2 0 hp)
  have e1 : rdL s.sv (s.sv.length - 1) = .ok (σ (p - 1)) := by
    rw [h.vals.1]
    exact rdL_eq_ok.2 (h.vals.2 (p - 1) (by omega))
  refine ⟨?_, ?_⟩
  · unfold Svd.cond
    rw [e0, ok_bind, e1, ok_bind]; rfl
  · unfold Svd.invCond
    rw [e1, ok_bind, e0, ok_bind]; rfl

variable [Rnd α]

/-- The quotient of two numbers known up to `E`. -/
theorem quot_near {x y : α} (fx : fin x) (fy : fin y) {f g E : ℝ} (hx : |val x - f| ≤ E) (hy : |val y - g| ≤ E) (hE : E ≤ f) (hg : E < g)
    (hb : (f + E) / (g - E) ≤ big α) :
    fin (Flt.div x y) ∧ val (Flt.div x y) ≤ (1 + u α) * ((f + E) / (g - E)) + η α ∧
      (1 - u α) * ((f - E) / (g + E)) - η α ≤ val (Flt.div x y) := by
  obtain ⟨x1, x2⟩ := abs_le.1 hx
  obtain ⟨y1, y2⟩ := abs_le.1 hy
  have E0 := (abs_nonneg _).trans hx
  have u0 := u_nonneg (α := α)
  have u1 := u_le (α := α)
  have y0 : 0 < val y := by linarith
  have x0 : 0 ≤ val x := by linarith
  have q1 : val x / val y ≤ (f + E) / (g - E) := div_le_div₀ (by linarith) (by linarith) (by linarith) (by linarith)
  have q2 : (f - E) / (g + E) ≤ val x / val y := div_le_div₀ x0 (by linarith) y0 (by linarith)
  have q0 : 0 ≤ val x / val y := div_nonneg x0 y0.le
  have fq : fin (Flt.div x y) := div_ok fx fy y0.ne' (by rw [abs_of_nonneg q0]; linarith)
  have e := (div_err fq fy).1
  rw [abs_of_nonneg q0] at e
  obtain ⟨e1, e2⟩ := abs_le.1 e
  have m1 := mul_le_mul_of_nonneg_left q1 (show 0 ≤ 1 + u α by linarith)
  have m2 := mul_le_mul_of_nonneg_left q2 (show 0 ≤ 1 - u α by linarith)
  exact ⟨fq, by linarith, by linarith⟩

/-- **C123, condition numbers**: singular values near to `τ`, whose last one exceeds the bound `E`, give condition numbers within explicit
bounds around the true ones; they are finite. -/
theorem C123_condition {s : Svd α} {U V : Nat → Nat → α} {σ : Nat → α} (h : HoldsSvd s r c p U V σ) (hp : 0 < p)
    (fs : ∀ i, i < p → fin (σ i)) {τ : Nat → ℝ} {E : ℝ} (hE : ∀ i, i < p → |val (σ i) - τ i| ≤ E) (hl : E < τ (p - 1)) (h0 : τ (p - 1) ≤ τ 0)
    (hb : (τ 0 + E) / (τ (p - 1) - E) ≤ big α) :
    ∃ x y, s.cond = .ok x ∧ s.invCond = .ok y ∧ fin x ∧ fin y ∧
      val x ≤ (1 + u α) * ((τ 0 + E) / (τ (p - 1) - E)) + η α ∧ (1 - u α) * ((τ 0 - E) / (τ (p - 1) + E)) - η α ≤ val x ∧
      val y ≤ (1 + u α) * ((τ (p - 1) + E) / (τ 0 - E)) + η α ∧ (1 - u α) * ((τ (p - 1) - E) / (τ 0 + E)) - η α ≤ val y := by
  obtain ⟨e1, e2⟩ := C123_condition_terms h hp
  have hp' : p - 1 < p := by omega
  have E0 := (abs_nonneg _).trans (hE 0 hp)
  obtain ⟨a1, a2, a3⟩ := quot_near (fs 0 hp) (fs _ hp') (hE 0 hp) (hE _ hp') (by linarith) hl hb
  obtain ⟨b1, b2, b3⟩ := quot_near (fs _ hp') (fs 0 hp) (hE _ hp') (hE 0 hp) hl.le (by linarith)
    (le_trans (div_le_div₀ (by linarith) (by linarith) (by linarith) (by linarith)) hb)
  exact ⟨_, _, e1, e2, a1, b1, a2, a3, b2, b3⟩

/-! ## Covariance -/

section terms
omit [Rnd α]

/-- The number of singular values that `Covariance` considers: those before the first one below the bound. -/
theorem Svd.cutoff_prefix (minSv : α) : ∀ (l : List α), Svd.cutoff minSv l ≤ l.length ∧
    (∀ k x, k < Svd.cutoff minSv l → l[k]? = some x → Flt.le minSv x = true) ∧
    (∀ x, l[Svd.cutoff minSv l]? = some x → Flt.le minSv x = false)
  | [] => ⟨le_rfl, fun k x h => by simp [Svd.cutoff] at h, fun x h => by simp [Svd.cutoff] at h⟩
  | y :: l => by
    obtain ⟨h1, h2, h3⟩ := Svd.cutoff_prefix minSv l
    unfold Svd.cutoff
    cases c : Flt.le minSv y
    · refine ⟨by simp, fun k x hk => by simp at hk, fun x hx => ?_⟩
      simp at hx
      rw [← hx]; exact c
    · refine ⟨by simpa using h1, fun k x hk hx => ?_, fun x hx => h3 x (by simpa using hx)⟩
      cases k with
      | zero =>
        simp at hx
        rw [← hx]; exact c
      | succ k => exact h2 k x (by simpa using hk) (by simpa using hx)

theorem Svd.cov_steps {s : Svd α} {σ : Nat → α} (hv : IsList s.sv p σ) {d : Nat} (hd : d ≤ p) (A : Nat → Nat → α) :
    ∀ (cells : List (Nat × Nat)) (t : Tab α d s.sv.length), (∀ i j, (i, j) ∈ cells → i < d ∧ j < p) →
    ∃ t' : Tab α d s.sv.length, cells.foldlM (fun t q => (s.visitor d).visit q.1 q.2 (A q.1 q.2) t) t = .ok t' ∧
      ∀ i j, t'.f i j = if (i, j) ∈ cells then Flt.div (A i j) (σ i) else t.f i j
  | [], t, _ => ⟨t, rfl, fun i j => by simp⟩
  | (a, b) :: cells, t, hc => by
    obtain ⟨ha, hb⟩ := hc a b (by simp)
    rw [List.foldlM_cons]
    have e : (s.visitor d).visit a b (A a b) t = .ok ⟨upd2 t.f a b (Flt.div (A a b) (σ a))⟩ := by
      show (do
        let x ← rdL s.sv (a : Int).toNat
        t.set (a : Int).toNat (b : Int).toNat (Flt.div (A a b) x)) = _
      rw [Int.toNat_natCast, Int.toNat_natCast, rdL_eq_ok.2 (hv.2 a (by omega)), ok_bind,
        Tab.set_ok ha (by rw [hv.1]; exact hb)]
    rw [e, ok_bind]
    obtain ⟨t', e', h'⟩ := Svd.cov_steps hv hd A cells ⟨upd2 t.f a b (Flt.div (A a b) (σ a))⟩ fun i j h => hc i j (by simp [h])
    refine ⟨t', e', fun i j => ?_⟩
    rw [h' i j]
    dsimp only
    rw [upd2_eq]
    by_cases c : (i, j) ∈ cells
    · rw [if_pos c, if_pos (by simp [c])]
    · rw [if_neg c]
      by_cases c2 : i = a ∧ j = b
      · rw [if_pos c2, c2.1, c2.2, if_pos (by simp)]
      · rw [if_neg c2, if_neg (by simp [c]; intro h1 h2; exact c2 ⟨h1, h2⟩)]

/-- **C123, the terms of the covariance**: in every arithmetic, with `d` singular values before the first one below the bound, the entries
are sums of products of the entries of `V` over these singular values; for `d = 0` it panics. -/
theorem C123_covariance_terms {s : Svd α} {U V : Nat → Nat → α} {σ : Nat → α} (h : HoldsSvd s r c p U V σ) (hc : 0 < c) (hp : 0 < p)
    (hpc : p ≤ c) (minSv : α) :
    ∃ d, d ≤ p ∧ (∀ k, k < d → Flt.le minSv (σ k) = true) ∧ (d < p → Flt.le minSv (σ d) = false) ∧
      (d = 0 → s.covariance minSv = .error (.pan .big)) ∧
      (0 < d → ∃ (m : Mat α p p) (M : Nat → Nat → α), s.covariance minSv = .ok ⟨p, p, m⟩ ∧ m.own ∧ Shows m.at p p M ∧
        ∀ i j, i < p → j < p → DotOf d (fun k => Flt.div (V i k) (σ k)) (fun k => Flt.div (V j k) (σ k)) (M i j)) := by
  have hv := h.vals
  obtain ⟨d1, d2, d3⟩ := Svd.cutoff_prefix minSv s.sv
  unfold Svd.covariance
  rw [hv.1] at d1
  refine ⟨Svd.cutoff minSv s.sv, d1, fun k hk => d2 k _ hk (hv.2 k (by omega)), fun hd => d3 _ (hv.2 _ hd), fun h0 => ?_, fun h0 => ?_⟩
  · rw [if_pos h0, rdL_eq_ok.2 (hv.2 0 hp)]
    rfl
  · rw [if_neg (by omega)]
    obtain ⟨vt, e1, h1, h2⟩ := h.vT hc
    show ∃ (m : Mat α p p) (M : Nat → Nat → α), (do
      let vt ← s.vT
      let t ← vt.m.walkInB .opt (s.visitor (Svd.cutoff minSv s.sv)) (Jag.zero _ _) 0
        (Svd.cutoff minSv s.sv - 1) 0 (s.sv.length - 1)
      let jv ← (Arr.copyIn (some t.1.toLists)).must
      let jt ← jv.toSMat.m.transpose
      jt.multiply jv.toSMat.m) = .ok ⟨p, p, m⟩ ∧ _
    rw [e1, ok_bind]
    dsimp only
    generalize hd : Svd.cutoff minSv s.sv = d at *
    obtain ⟨cells, hcells, hw⟩ := C16_walkBounded (Mat.dense_own h1) h2 .opt (sr := 0) (er := d - 1) (sc := 0)
      (ec := p - 1) (by unfold window; omega)
    have hmem : ∀ i j, (i, j) ∈ cells ↔ i < d ∧ j < p := fun i j => by
      rw [hcells.2.2.2 i j]; omega
    obtain ⟨t, e2, h3⟩ := Svd.cov_steps hv d1 (fun i j => V j i) cells (Jag.zero _ _) fun i j g => (hmem i j).1 g
    rw [show ((s.sv.length : Nat) : Int) - 1 = (p : Int) - 1 by rw [hv.1], hw]
    unfold walk
    have e3 : (s.visitor d).start p c 0 (d - 1) 0 (p - 1) (Jag.zero _ _) = .ok (Jag.zero _ _) := rfl
    rw [e3, ok_bind, e2, ok_bind]
    have e4 : (s.visitor d).fin t = .ok (t, Flt.zero) := rfl
    rw [e4, ok_bind]
    have ht : Rect t.toLists d p t.f := by
      have := Jag.toLists_rect t
      generalize t.toLists = l at *
      generalize t.f = g at *
      rwa [hv.1] at this
    obtain ⟨mt, e5, h5, -⟩ := Arr.copyIn_ok ht (by omega) hp
    rw [e5, must_ok, ok_bind]
    obtain ⟨tm, e6, h6, h7⟩ := C12_transpose (a := .arr mt) trivial (by omega) (Mat.at_shows (.arr mt))
    obtain ⟨m, M, e7, h8, h9, h10⟩ := C81_product_terms (Mat.dense_own h6) hp (by omega) hp h7 (Mat.at_shows (.arr mt))
    show ∃ (m_1 : Mat α p p) (M : Nat → Nat → α), (do
      let jt ← (Mat.arr mt).transpose
      jt.multiply (.arr mt)) = .ok ⟨p, p, m_1⟩ ∧ _
    rw [e6, ok_bind, e7]
    have ent : ∀ k i, k < d → i < p → mt.data.f k i = Flt.div (V i k) (σ k) := fun k i hk hi => by
      rw [h5 k i hk hi, h3 k i, if_pos ((hmem k i).2 ⟨hk, hi⟩)]
    exact ⟨m, M, rfl, h8, h9, fun i j hi hj => (h10 i j hi hj).congr (fun k hk => ent k i hk hi) fun k hk => ent k j hk hj⟩

end terms

/-- **C123, covariance**: a finite entry of the covariance differs from the sum of `vᵢ vⱼ / σ²` over the singular values considered by no
more than an explicit bound. -/
theorem C123_covariance {s : Svd α} {U V : Nat → Nat → α} {σ : Nat → α} (h : HoldsSvd s r c p U V σ) (hc : 0 < c) (hp : 0 < p)
    (hpc : p ≤ c) {minSv : α} (fm : fin minSv) (m0 : 0 < val minSv) (fs : ∀ i, i < p → fin (σ i)) :
    ∃ d, d ≤ p ∧ (∀ k, k < d → val minSv ≤ val (σ k)) ∧ (d < p → val (σ d) < val minSv) ∧
      (d = 0 → s.covariance minSv = .error (.pan .big)) ∧
      (0 < d → ∃ (m : Mat α p p) (M : Nat → Nat → α), s.covariance minSv = .ok ⟨p, p, m⟩ ∧ m.own ∧ Shows m.at p p M ∧
        ∀ i j, i < p → j < p → (∀ k, k < d → fin (Flt.div (V i k) (σ k)) ∧ fin (Flt.div (V j k) (σ k))) → fin (M i j) →
          |val (M i j) - ∑ k ∈ range d, val (V i k) * val (V j k) / val (σ k) ^ 2| ≤
            (1 + u α) ^ d * (∑ k ∈ range d, ((1 + u α) * (|val (V i k)| / val (σ k)) + η α) *
              ((1 + u α) * (|val (V j k)| / val (σ k)) + η α) + d * η α) -
            ∑ k ∈ range d, |val (V i k)| / val (σ k) * (|val (V j k)| / val (σ k))) := by
  obtain ⟨d, h1, h2, h3, h4, h5⟩ := C123_covariance_terms h hc hp hpc minSv
  have hs : ∀ k, k < d → val minSv ≤ val (σ k) := fun k hk => (le_iff fm (fs k (by omega))).1 (h2 k hk)
  refine ⟨d, h1, hs, fun hd => ?_, h4, fun h0 => ?_⟩
  · have := h3 hd
    rw [Bool.eq_false_iff, Ne, le_iff fm (fs d hd)] at this
    exact not_le.1 this
  obtain ⟨m, M, e, own, sh, dot⟩ := h5 h0
  refine ⟨m, M, e, own, sh, fun i j hi hj hf fM => ?_⟩
  have u0 := u_nonneg (α := α)
  have η0 := η_nonneg (α := α)
  have b1 := ((dot i j hi hj).err fM).2
  have one : ∀ v : α, ∀ k, k < d → fin (Flt.div v (σ k)) →
      |val (Flt.div v (σ k)) - val v / val (σ k)| ≤ u α * (|val v| / val (σ k)) + η α := fun v k hk fq => by
    have := (div_err fq (fs k (by omega))).1
    rwa [abs_div, abs_of_pos (lt_of_lt_of_le m0 (hs k hk))] at this
  have pr : ∀ {a a' b b' x y e : ℝ}, |a - a'| ≤ e → |a'| = x → ∀ {e' : ℝ}, |b - b'| ≤ e' → |b'| = y →
      |a * b - a' * b'| ≤ (x + e) * (y + e') - x * y ∧ |a| ≤ x + e ∧ |b| ≤ y + e' := by
    intro a a' b b' x y e ha hx e' hb hy
    have a1 := abs_sub_abs_le_abs_sub a a'
    have c1 := abs_sub_abs_le_abs_sub b b'
    have e0 := (abs_nonneg _).trans ha
    have x0 : 0 ≤ x := hx ▸ abs_nonneg _
    refine ⟨?_, by linarith, by linarith⟩
    have eq : a * b - a' * b' = (a - a') * b + a' * (b - b') := by ring
    rw [eq]
    refine (abs_add_le _ _).trans ?_
    rw [abs_mul, abs_mul, hx]
    have k1 := mul_le_mul ha (show |b| ≤ y + e' by linarith) (abs_nonneg _) e0
    have k2 := mul_le_mul_of_nonneg_left hb x0
    linarith
  have key : ∀ k, k < d → _ := fun k hk => pr (one (V i k) k hk (hf k hk).1)
    (by rw [abs_div, abs_of_pos (lt_of_lt_of_le m0 (hs k hk))]) (one (V j k) k hk (hf k hk).2)
    (by rw [abs_div, abs_of_pos (lt_of_lt_of_le m0 (hs k hk))])
  have g1 : |∑ k ∈ range d, val (Flt.div (V i k) (σ k)) * val (Flt.div (V j k) (σ k)) -
      ∑ k ∈ range d, val (V i k) * val (V j k) / val (σ k) ^ 2| ≤
      ∑ k ∈ range d, ((1 + u α) * (|val (V i k)| / val (σ k)) + η α) * ((1 + u α) * (|val (V j k)| / val (σ k)) + η α) -
      ∑ k ∈ range d, |val (V i k)| / val (σ k) * (|val (V j k)| / val (σ k)) := by
    rw [← sum_sub_distrib, ← sum_sub_distrib]
    refine (abs_sum_le_sum_abs _ _).trans (sum_le_sum fun k hk => ?_)
    have := (key k (mem_range.1 hk)).1
    rw [show val (V i k) * val (V j k) / val (σ k) ^ 2 = val (V i k) / val (σ k) * (val (V j k) / val (σ k)) by
      rw [div_mul_div_comm, sq]]
    refine this.trans (le_of_eq ?_)
    ring
  have g2 : ∑ k ∈ range d, |val (Flt.div (V i k) (σ k))| * |val (Flt.div (V j k) (σ k))| ≤
      ∑ k ∈ range d, ((1 + u α) * (|val (V i k)| / val (σ k)) + η α) * ((1 + u α) * (|val (V j k)| / val (σ k)) + η α) := by
    refine sum_le_sum fun k hk => ?_
    obtain ⟨-, k1, k2⟩ := key k (mem_range.1 hk)
    refine mul_le_mul (k1.trans (le_of_eq (by ring))) (k2.trans (le_of_eq (by ring))) (abs_nonneg _) ?_
    have := hs k (mem_range.1 hk)
    have : 0 < val (σ k) := by linarith
    positivity
  have g3 : 0 ≤ gam α d := gam_nonneg d
  have g4 := mul_le_mul_of_nonneg_left g2 g3
  have tri := abs_sub_le (val (M i j)) (∑ k ∈ range d, val (Flt.div (V i k) (σ k)) * val (Flt.div (V j k) (σ k)))
    (∑ k ∈ range d, val (V i k) * val (V j k) / val (σ k) ^ 2)
  have ge : (1 + u α) ^ d = 1 + gam α d := by unfold gam; ring
  rw [ge] at b1 ⊢
  linarith

/-! ## Binary64 -/

/-- **C123, condition numbers, binary64**: of a decomposition by the code, compared with the singular values `τ` of the given matrix. -/
theorem C123_binary64 {r c K : Nat} {κ : Svd.Lit B64} (L : B64.SvdLit κ)
    (hyp : κ.hyp = B64.guard ((1 / 2) ^ 1000) B64.hypot) (hc : 0 < c) (hrc : c ≤ r) (hr : r ≤ 2 ^ 40) (fuel : Nat)
    {a : Mat B64 r c} (ha : a.own) {A : Nat → Nat → B64} (hA : Shows a.at r c A) (F : RedFin κ.hyp r c A) {b E : ℝ}
    (hb : b = fro (mx r c fun i j => val (A i j))) (hb' : b ≤ 2 ^ 900) (hK : K = fuel * (2 * c + 2))
    (h1 : 200 * c * (r + 2) * (1 / 2) ^ 52 ≤ (1 : ℝ)) (h2 : 75 * K * (1 / 2) ^ 52 ≤ (1 : ℝ))
    (hE : E = (200 * c * (r + 2) + 300 * K) * (1 / 2) ^ 52 * b + (126 * c * r * √r * (1 / 2) ^ 1075 + 225 * K * (1 / 2) ^ 966))
    {s : Svd B64} (hs : Svd.new κ fuel a = .ok (some s)) :
    ∃ U V σ, HoldsSvd s r c c U V σ ∧
      ((∀ i j, i < r → j < c → fin (U i j)) → (∀ i j, i < c → j < c → fin (V i j)) →
        ∀ τ, IsSv (mx r c fun i j => val (A i j)) τ → E < τ (c - 1) → (τ 0 + E) / (τ (c - 1) - E) ≤ 2 ^ 1023 →
        ∃ x y, s.cond = .ok x ∧ s.invCond = .ok y ∧ fin x ∧ fin y ∧
          val x ≤ (1 + (1 / 2) ^ 53) * ((τ 0 + E) / (τ (c - 1) - E)) + (1 / 2) ^ 1075 ∧
          (1 - (1 / 2) ^ 53) * ((τ 0 - E) / (τ (c - 1) + E)) - (1 / 2) ^ 1075 ≤ val x ∧
          val y ≤ (1 + (1 / 2) ^ 53) * ((τ (c - 1) + E) / (τ 0 - E)) + (1 / 2) ^ 1075 ∧
          (1 - (1 / 2) ^ 53) * ((τ (c - 1) - E) / (τ 0 + E)) - (1 / 2) ^ 1075 ≤ val y) := by
  obtain ⟨U, V, σ, hold, H⟩ := C117_binary64_explicit L hyp hc hrc hr fuel ha hA F hb hb' hK h1 h2 hs
  refine ⟨U, V, σ, hold, fun g1 g2 τ hτ hl hq => ?_⟩
  obtain ⟨fs, near⟩ := H g1 g2
  rw [← hE] at near
  exact C123_condition hold hc fs (near τ hτ) hl (hτ.sorted 0 (c - 1) (by omega) (by omega)) hq

/-! ## Cases -/

/-- The hypotheses of `C123_condition` and `C123_covariance` are met: singular values 4 and 2, with one of them considered. -/
example : ∃ (s : Svd B64) (U V : Nat → Nat → B64) (σ : Nat → B64) (x y minSv : B64) (m : Mat B64 2 2), HoldsSvd s 2 2 2 U V σ ∧
    s.cond = .ok x ∧ s.invCond = .ok y ∧ val (σ 0) = 4 ∧ val (σ 1) = 2 ∧ val minSv = 3 ∧ fin x ∧ fin y ∧
    s.covariance minSv = .ok ⟨2, 2, m⟩ := by
  have i4 : B64.Is (B64.int 4 (by norm_num)) 4 := by simpa using B64.Is.int (k := 4) (by norm_num)
  have i3 : B64.Is (B64.int 3 (by norm_num)) 3 := by simpa using B64.Is.int (k := 3) (by norm_num)
  have i2 : B64.Is (B64.int 2 (by norm_num)) 2 := by simpa using B64.Is.int (k := 2) (by norm_num)
  generalize B64.int 4 (by norm_num) = x4 at *
  generalize B64.int 3 (by norm_num) = x3 at *
  generalize B64.int 2 (by norm_num) = x2 at *
  have hl : IsList [x4, x2] 2 (fun i => if i = 0 then x4 else x2) :=
    ⟨rfl, fun i hi => by rcases (by omega : i = 0 ∨ i = 1) with rfl | rfl <;> rfl⟩
  obtain ⟨I, hI⟩ : ∃ I : Nat → Nat → B64, I = fun i j => if i = j then Flt.one else Flt.zero := ⟨_, rfl⟩
  have hs : HoldsSvd (⟨[x4, x2], 2, ⟨2, 2, .arr ⟨⟨I⟩, fun _ => 0⟩⟩, ⟨2, 2, .arr ⟨⟨I⟩, fun _ => 0⟩⟩, Flt.zero⟩ : Svd B64)
      2 2 2 I I (fun i => if i = 0 then x4 else x2) :=
    ⟨hl, ⟨_, rfl, trivial, Mat.at_shows _⟩, ⟨_, rfl, trivial, Mat.at_shows _⟩, rfl⟩
  have fs : ∀ i, i < 2 → fin ((fun i => if i = 0 then x4 else x2) i) := fun i _ => by
    dsimp only
    split
    exacts [i4.1, i2.1]
  obtain ⟨x, y, e1, e2, f1, f2, -⟩ := C123_condition hs (by norm_num) fs (τ := fun i => if i = 0 then 4 else 2) (E := 0)
    (fun i _ => by split <;> [rw [i4.2]; rw [i2.2]] <;> norm_num) (by norm_num) (by norm_num)
    (by
      rw [show big B64 = 2 ^ 1023 from rfl]
      norm_num
      exact (by norm_num : (2 : ℝ) ≤ 2 ^ 1).trans (pow_le_pow_right₀ (by norm_num) (by norm_num)))
  obtain ⟨d, h1, h2, h3, h4, h5⟩ := C123_covariance hs (by norm_num) (by norm_num) le_rfl i3.1 (by rw [i3.2]; norm_num) fs
  have d0 : 0 < d := by
    by_contra h
    have := h3 (by omega)
    obtain rfl : d = 0 := by omega
    rw [i3.2] at this
    simp only [if_true, i4.2] at this
    norm_num at this
  obtain ⟨m, M, e, -⟩ := h5 d0
  exact ⟨_, I, I, _, x, y, x3, m, hs, e1, e2, i4.2, i2.2, i3.2, f1, f2, e⟩

/-- The decomposition of a matrix with one positive entry, in any arithmetic. -/
theorem Svd.core_one {α : Type} [Flt α] (κ : Svd.Lit α) {x : α} (h : Flt.le x Flt.zero = false) {t : Tab α 1 1} (t0 : t.f 0 0 = x) :
    ∃ z y, Svd.reduce κ.hyp t = .ok z ∧ z.s.f 0 = x ∧ z.e.f 0 = Flt.zero ∧ z.u.f 0 0 = Flt.one ∧ z.v.f 0 0 = Flt.one ∧
      Svd.core κ 1 t = .ok (some y) ∧ y.u.f 0 0 = Flt.one ∧ y.s.f 0 = x ∧ y.v.f 0 0 = Flt.one := by
  unfold Svd.core Svd.reduce
  simp [Svd.lastEntries, Svd.genU, Svd.genV, Svd.genVStep, Svd.unitCol, Svd.loop, Svd.round, Svd.findE, Svd.converged, Svd.positive,
    Svd.order, forUp, forDown, List.range'_succ, List.range', Jag.get, Jag.set, Row.get, Row.set, t0, h, ok_bind, pure_eq_ok, upd2_eq]

/-- The hypotheses of `C123_binary64` are met by the matrix with the entry 4. -/
example : ∃ (κ : Svd.Lit B64) (a : Mat B64 1 1) (A : Nat → Nat → B64) (s : Svd B64) (x y : B64),
    val (A 0 0) = 4 ∧ Shows a.at 1 1 A ∧ Svd.new κ 1 a = .ok (some s) ∧ s.cond = .ok x ∧ s.invCond = .ok y ∧ fin x ∧ fin y := by
  have i4 : B64.Is (B64.int 4 (by norm_num)) 4 := by simpa using B64.Is.int (k := 4) (by norm_num)
  generalize B64.int 4 (by norm_num) = x4 at *
  obtain ⟨κ, hκ⟩ : ∃ κ, κ = B64.svdLit Flt.zero fun _ => Flt.zero := ⟨_, rfl⟩
  have L : B64.SvdLit κ := by rw [hκ]; exact B64.svdLit_ok _ _
  have hyp : κ.hyp = B64.guard ((1 / 2) ^ 1000) B64.hypot := by rw [hκ]; rfl
  have own : (Mat.arr ⟨⟨fun _ _ => x4⟩, fun _ => 0⟩ : Mat B64 1 1).own := trivial
  have sh : Shows (Mat.arr ⟨⟨fun _ _ => x4⟩, fun _ => 0⟩ : Mat B64 1 1).at 1 1 fun _ _ => x4 :=
    Arr.at_shows (⟨⟨fun _ _ => x4⟩, fun _ => 0⟩ : Arr B64 1 1)
  have le : Flt.le x4 Flt.zero = false := by
    rw [Bool.eq_false_iff, Ne, le_iff i4.1 zero_fin, i4.2, val_zero]
    norm_num
  have F : RedFin κ.hyp 1 1 fun _ _ => x4 := fun t x ht e => by
    obtain ⟨z, -, ez, z1, z2, z3, z4, -⟩ := Svd.core_one κ le (ht 0 0 (by norm_num) (by norm_num))
    rw [ez] at e
    obtain rfl := Except.ok.inj e
    have o : fin (Flt.one : B64) := B64.Is.one.1
    refine ⟨fun i hi => ?_, fun i hi => ?_, fun i j hi hj => ?_, fun i j hi hj => ?_⟩ <;> obtain rfl : i = 0 := by omega
    · rw [z1]; exact i4.1
    · rw [z2]; exact zero_fin
    · obtain rfl : j = 0 := by omega
      rw [z3]; exact o
    · obtain rfl : j = 0 := by omega
      rw [z4]; exact o
  have nA : fro (mx 1 1 fun _ _ => val x4) = 4 := by
    unfold fro
    norm_num [mx, i4.2]
    rw [show (16 : ℝ) = 4 ^ 2 by norm_num, Real.sqrt_sq (by norm_num)]
  rcases Svd.new_ok κ 1 own (by norm_num) (by norm_num) sh with ⟨-, t, ht, ho⟩ | ⟨h, -⟩
  · obtain ⟨z, y, -, -, -, -, -, ey, y1, y2, y3⟩ := Svd.core_one κ le (ht 0 0 (by norm_num) (by norm_num))
    obtain ⟨s, es, hs, -⟩ := (ho _ ey).2 y rfl
    obtain ⟨U, V, σ, hold, H⟩ := C123_binary64 (r := 1) (c := 1) (K := 4) L hyp (by norm_num) le_rfl (by norm_num) 1 own sh F rfl
      (by rw [nA]; exact (by norm_num : (4 : ℝ) ≤ 2 ^ 2).trans (pow_le_pow_right₀ (by norm_num) (by norm_num))) rfl (by norm_num) (by norm_num)
      rfl es
    obtain ⟨eU, eV⟩ := hs.uniq hold
    have o : fin (Flt.one : B64) := B64.Is.one.1
    have gU : ∀ i j, i < 1 → j < 1 → fin (U i j) := fun i j hi hj => by
      rw [eU i j hi hj]
      obtain rfl : i = 0 := by omega
      obtain rfl : j = 0 := by omega
      rw [y1]; exact o
    have gV : ∀ i j, i < 1 → j < 1 → fin (V i j) := fun i j hi hj => by
      rw [eV i j hi hj]
      obtain rfl : i = 0 := by omega
      obtain rfl : j = 0 := by omega
      rw [y3]; exact o
    have sv : IsSv (mx 1 1 fun _ _ => val x4) fun _ => 4 := by
      refine ⟨fun _ _ => by norm_num, fun _ _ _ _ => le_rfl, fun _ _ _ _ => le_rfl, 1, by simp, ?_⟩
      ext i j
      obtain rfl : i = 0 := by omega
      obtain rfl : j = 0 := by omega
      norm_num [Matrix.mul_apply, mx, i4.2]
    have small : (200 * ((1 : Nat) : ℝ) * ((1 : Nat) + 2) + 300 * (4 : Nat)) * (1 / 2) ^ 52 * fro (mx 1 1 fun _ _ => val x4) +
        (126 * (1 : Nat) * (1 : Nat) * √((1 : Nat) : ℝ) * (1 / 2) ^ 1075 + 225 * (4 : Nat) * (1 / 2) ^ 966) ≤ 1 := by
      rw [nA]
      have t1 : ((1 : ℝ) / 2) ^ 1075 ≤ (1 / 2) ^ 20 := pow_le_pow_of_le_one (by norm_num) (by norm_num) (by norm_num)
      have t2 : ((1 : ℝ) / 2) ^ 966 ≤ (1 / 2) ^ 20 := pow_le_pow_of_le_one (by norm_num) (by norm_num) (by norm_num)
      generalize ((1 : ℝ) / 2) ^ 1075 = p at *
      generalize ((1 : ℝ) / 2) ^ 966 = q at *
      norm_num at t1 t2 ⊢
      linarith
    have pos : 0 ≤ (200 * ((1 : Nat) : ℝ) * ((1 : Nat) + 2) + 300 * (4 : Nat)) * (1 / 2) ^ 52 * fro (mx 1 1 fun _ _ => val x4) +
        (126 * (1 : Nat) * (1 : Nat) * √((1 : Nat) : ℝ) * (1 / 2) ^ 1075 + 225 * (4 : Nat) * (1 / 2) ^ 966) := by
      rw [nA]
      positivity
    obtain ⟨v, w, e1, e2, f1, f2, -⟩ := H gU gV _ sv (lt_of_le_of_lt small (by norm_num)) (by
      generalize (200 * ((1 : Nat) : ℝ) * ((1 : Nat) + 2) + 300 * (4 : Nat)) * (1 / 2) ^ 52 * fro (mx 1 1 fun _ _ => val x4) +
        (126 * (1 : Nat) * (1 : Nat) * √((1 : Nat) : ℝ) * (1 / 2) ^ 1075 + 225 * (4 : Nat) * (1 / 2) ^ 966) = e at *
      have q : (4 + e) / (4 - e) ≤ 2 ^ 2 := by
        rw [div_le_iff₀ (by linarith)]
        linarith
      exact q.trans (pow_le_pow_right₀ (by norm_num) (by norm_num)))
    exact ⟨κ, _, _, s, v, w, i4.2, sh, es, e1, e2, f1, f2⟩
  · omega

end Linear
