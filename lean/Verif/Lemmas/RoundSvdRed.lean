import Verif.Lemmas.RoundSvdHH

/-!
# The bidiagonal reduction of the singular value decomposition in rounded arithmetic
-/

set_option linter.unusedSectionVars false

namespace Linear

open Spec Rnd Matrix
open Finset hiding val diag

variable {α : Type} [Flt α] [Rnd α] {m n : Nat}

/-- A norm over all rows is one over the rows from `i0` on when the others are zero. -/
theorem Svd.nrm_tail {i0 m : Nat} {g : Nat → ℝ} (h : ∀ i, i < i0 → g i = 0) : nrm (range m) g = nrm (Ico i0 m) g := by
  unfold nrm
  congr 1
  refine (sum_subset (fun i hi => mem_range.2 (mem_Ico.1 hi).2) fun i hi hi' => ?_).symm
  rw [h i (by
    by_contra c
    exact hi' (mem_Ico.2 ⟨by omega, mem_range.1 hi⟩))]
  norm_num

/-- A rounded reflection of the rows from `i0` on that moves column `k` onto the first axis. -/
theorem Svd.hh_near {i0 k p : Nat} {v : Nat → ℝ} {β a E W : ℝ} {f f' : Nat → Nat → ℝ} (hE : 0 ≤ E) (hW : 0 ≤ W) (hp : n ≤ p)
    (g2 : ∀ j, k < j → j < n → nrm (Ico i0 m) (fun i => f' i j - (f i j + β * (∑ r ∈ Ico i0 m, v r * f r j) * v i)) ≤
      E * nrm (Ico i0 m) (fun i => f i j) + W)
    (g3 : nrm (Ico i0 m) (fun i => (if i = i0 then a else 0) - (f i k + β * (∑ r ∈ Ico i0 m, v r * f r k) * v i)) ≤
      E * nrm (Ico i0 m) (fun i => f i k))
    {M M' : Nat → Nat → ℝ}
    (h1 : ∀ i j, i0 ≤ i → i < m → k ≤ j → j < n → M i j = f i j)
    (h2 : ∀ i j, i0 ≤ i → i < m → j < k → M i j = 0)
    (h3 : ∀ i j, i < i0 → j < n → M' i j = M i j)
    (h4 : ∀ i j, i0 ≤ i → i < m → j < n →
      M' i j = if j < k then 0 else if j = k then (if i = i0 then a else 0) else f' i j) :
    fro (mx m n M' - hh m i0 v β * mx m n M) ≤ E * fro (mx m n M) + √p * W := by
  refine fro_of_cols hE hW hp fun j => ?_
  rw [hh_mul, show ∀ A B : Nat → Nat → ℝ, mx m n A - mx m n B = mx m n fun i j => A i j - B i j from fun _ _ => rfl, cnorm_mx,
    cnorm_mx]
  have hj := j.2
  generalize (j : Nat) = j at *
  have z : ∀ i, i < i0 → M' i j - (M i j + β * (∑ r ∈ Ico i0 m, v r * M r j) * tl i0 v i) = 0 := fun i hi => by
    rw [h3 i j hi hj, tl, if_neg (by omega)]; ring
  rw [Svd.nrm_tail z]
  have mono : nrm (Ico i0 m) (fun i => M i j) ≤ nrm (range m) fun i => M i j :=
    nrm_mono_set fun i hi => mem_range.2 (mem_Ico.1 hi).2
  refine le_trans ?_ (add_le_add_left (mul_le_mul_of_nonneg_left mono hE) _)
  rcases lt_or_ge j k with c | c
  · have : nrm (Ico i0 m) (fun i => M' i j - (M i j + β * (∑ r ∈ Ico i0 m, v r * M r j) * tl i0 v i)) = 0 := by
      refine (nrm_congr (y := fun _ => 0) fun i hi => ?_).trans nrm_zero
      obtain ⟨i1, i2⟩ := mem_Ico.1 hi
      rw [h4 i j i1 i2 hj, if_pos c, h2 i j i1 i2 c, sum_eq_zero fun r hr => by
        rw [h2 r j (mem_Ico.1 hr).1 (mem_Ico.1 hr).2 c, mul_zero]]
      ring
    rw [this]
    have := mul_nonneg hE (nrm_nonneg (S := Ico i0 m) (x := fun i => M i j))
    linarith
  · have eS : ∑ r ∈ Ico i0 m, v r * M r j = ∑ r ∈ Ico i0 m, v r * f r j := sum_congr rfl fun r hr => by
      rw [h1 r j (mem_Ico.1 hr).1 (mem_Ico.1 hr).2 c hj]
    have eM : nrm (Ico i0 m) (fun i => M i j) = nrm (Ico i0 m) fun i => f i j := nrm_congr fun i hi =>
      h1 i j (mem_Ico.1 hi).1 (mem_Ico.1 hi).2 c hj
    rw [eM, eS]
    rcases c.eq_or_lt with c' | c'
    · subst c'
      refine le_trans (le_of_eq (nrm_congr fun i hi => ?_)) (g3.trans (by linarith))
      obtain ⟨i1, i2⟩ := mem_Ico.1 hi
      rw [h4 i k i1 i2 hj, if_neg (lt_irrefl _), if_pos rfl, h1 i k i1 i2 le_rfl hj, tl, if_pos i1]
    · refine le_trans (le_of_eq (nrm_congr fun i hi => ?_)) (g2 j c' hj)
      obtain ⟨i1, i2⟩ := mem_Ico.1 hi
      rw [h4 i j i1 i2 hj, if_neg (by omega), if_neg (by omega), h1 i j i1 i2 c hj, tl, if_pos i1]

theorem Svd.eq_zero_iff {a : α} (h : fin a) : Flt.eq a Flt.zero = true ↔ val a = 0 := by
  rw [eq_iff h zero_fin, val_zero]

theorem Svd.eq_zero_false {a : α} (h : fin a) : Flt.eq a Flt.zero = false ↔ val a ≠ 0 := by
  rw [← Bool.not_eq_true, Svd.eq_zero_iff h]

/-- The constants of one reflection. -/
noncomputable def Spec.svdE (N : Nat) (ε : ℝ) : ℝ := 50 * (N + 2) * ε

/-- The pass over column `k` as a reflection. -/
theorem Svd.LPass.round {hyp : α → α → α} {ε : ℝ} {k N : Nat} (hk : k < m) (hmN : m ≤ N) (hnm : n ≤ m) (he : Rnd.u α ≤ ε)
    (hM : (N + 4) * ε ≤ 1 / 250) (H : HypNear ε hyp) {nu : α} {f f1 : Nat → Nat → α}
    (hnu : nu = Svd.signed (Svd.hsum hyp k (fun i => f i k) (m - k)) (f k k)) (fnu : fin nu)
    (h : Svd.LPass m n k nu f f1) (fV : val nu ≠ 0 → ∀ i, k ≤ i → i < m → fin (f1 i k))
    (ff : ∀ i j, k ≤ i → i < m → k < j → j < n → fin (f1 i j)) :
    (∀ i j, k ≤ i → i < m → k ≤ j → j < n → fin (f i j)) ∧
    ∃ v β, Svd.HNear k m N ε v β (fun r => f1 r k) (Flt.neg nu) ∧ ∀ M M' : Nat → Nat → ℝ,
      (∀ i j, k ≤ i → i < m → k ≤ j → j < n → M i j = val (f i j)) →
      (∀ i j, k ≤ i → i < m → j < k → M i j = 0) →
      (∀ i j, i < k → j < n → M' i j = M i j) →
      (∀ i j, k ≤ i → i < m → j < n →
        M' i j = if j < k then 0 else if j = k then (if i = k then val (Flt.neg nu) else 0) else val (f1 i j)) →
      fro (mx m n M' - hh m k v β * mx m n M) ≤ svdE N ε * fro (mx m n M) + √N * (7 * (N * η α)) := by
  have e0 : 0 ≤ ε := (u_nonneg (α := α)).trans he
  have e1 : ε ≤ 1 / 100 := by nlinarith [(by positivity : (0 : ℝ) ≤ N * ε)]
  have hη := η_nonneg (α := α)
  obtain ⟨fx, v, β, Nr, col⟩ := Svd.HNear.make hk hmN he hM H hnu fnu h.col fV
  have va : val (Flt.neg nu) = -val nu := val_neg fnu
  have fn := Nr.fa
  have nz : val nu ≠ 0 ↔ val (Flt.neg nu) ≠ 0 := by rw [va, neg_ne_zero]
  refine ⟨fun i j i1 i2 j1 j2 => ?_, v, β, Nr, fun M M' h1 h2 h3 h4 => ?_⟩
  · by_cases cj : j = k
    · rw [cj]; exact fx i i1 i2
    · by_cases c : val nu = 0
      · have := h.skip ((Svd.eq_zero_iff fn).2 (by rw [va, c, neg_zero])) i j (by omega)
        rw [← this]; exact ff i j i1 i2 (by omega) j2
      · have c' := nz.1 c
        have q := ff i j i1 i2 (by omega) j2
        rw [h.cols ((Svd.eq_zero_false fn).2 c') i j i1 i2 (by omega) j2] at q
        exact (Svd.upd_core he e1 (fV c k le_rfl hk) q).1
  · refine Svd.hh_near (f := fun i j => val (f i j)) (f' := fun i j => val (f1 i j)) (k := k) (a := val (Flt.neg nu))
      (by unfold svdE; positivity) (by positivity) (hnm.trans hmN) (fun j j1 j2 => ?_) ?_ h1 h2 h3 h4
    · by_cases c : val nu = 0
      · have sk := h.skip ((Svd.eq_zero_iff fn).2 (by rw [va, c, neg_zero]))
        have : nrm (Ico k m) (fun i => val (f1 i j) - (val (f i j) + β * (∑ r ∈ Ico k m, v r * val (f r j)) * v i)) = 0 := by
          refine (nrm_congr (y := fun _ => 0) fun i hi => ?_).trans nrm_zero
          rw [sk i j j1, Nr.no (by rw [va, c, neg_zero])]; ring
        rw [this]
        have := nrm_nonneg (S := Ico k m) (x := fun i => val (f i j))
        unfold svdE
        positivity
      · exact Nr.refl hk hmN he hM (nz.1 c) (z := fun r => f r j) (z' := fun r => f1 r j)
          (fun i i1 i2 => h.cols ((Svd.eq_zero_false fn).2 (nz.1 c)) i j i1 i2 j1 j2) fun i i1 i2 => ff i j i1 i2 j1 j2
    · refine col.trans (mul_le_mul_of_nonneg_right ?_ nrm_nonneg)
      unfold svdE
      have : 0 ≤ (N : ℝ) * ε := by positivity
      linarith

/-- The pass over row `k` as a reflection. -/
theorem Svd.RPass.round {hyp : α → α → α} {ε : ℝ} {k N : Nat} (hk : k + 1 < n) (hmN : m ≤ N) (hnm : n ≤ m) (he : Rnd.u α ≤ ε)
    (hM : (N + 4) * ε ≤ 1 / 250) (H : HypNear ε hyp) {mu : α} {x e' : Nat → α} {f f' : Nat → Nat → α}
    (hmu : mu = Svd.signed (Svd.hsum hyp (k + 1) x (n - (k + 1))) (x (k + 1))) (fmu : fin mu)
    (h : Svd.RPass m n k mu x e' f f') (fV : val mu ≠ 0 → ∀ i, k + 1 ≤ i → i < n → fin (e' i))
    (hx : ∀ j, k < j → j < n → x j = f k j)
    (ff : ∀ i j, k < i → i < m → k < j → j < n → fin (f' i j)) :
    (∀ i j, k ≤ i → i < m → k < j → j < n → fin (f i j)) ∧
    ∃ v β, Svd.HNear (k + 1) n N ε v β e' (Flt.neg mu) ∧ ∀ M M' : Nat → Nat → ℝ,
      (∀ i j, k + 1 ≤ i → i < n → k ≤ j → j < m → M i j = val (f j i)) →
      (∀ i j, k + 1 ≤ i → i < n → j < k → M i j = 0) →
      (∀ i j, i < k + 1 → j < m → M' i j = M i j) →
      (∀ i j, k + 1 ≤ i → i < n → j < m →
        M' i j = if j < k then 0 else if j = k then (if i = k + 1 then val (Flt.neg mu) else 0) else val (f' j i)) →
      fro (mx n m M' - hh n (k + 1) v β * mx n m M) ≤ svdE N ε * fro (mx n m M) + √N * (7 * (N * η α)) := by
  have e0 : 0 ≤ ε := (u_nonneg (α := α)).trans he
  have e1 : ε ≤ 1 / 100 := by nlinarith [(by positivity : (0 : ℝ) ≤ N * ε)]
  have hη := η_nonneg (α := α)
  obtain ⟨fx, v, β, Nr, col⟩ := Svd.HNear.make hk (hnm.trans hmN) he hM H hmu fmu (fun j j1 j2 => h.row j (by omega) j2) fV
  have va : val (Flt.neg mu) = -val mu := val_neg fmu
  have fn := Nr.fa
  have nz : val mu ≠ 0 ↔ val (Flt.neg mu) ≠ 0 := by rw [va, neg_ne_zero]
  refine ⟨fun i j i1 i2 j1 j2 => ?_, v, β, Nr, fun M M' h1 h2 h3 h4 => ?_⟩
  · by_cases ci : i = k
    · rw [ci, ← hx j j1 j2]; exact fx j (by omega) j2
    · by_cases c : val mu = 0
      · have := h.skip ((Svd.eq_zero_iff fn).2 (by rw [va, c, neg_zero]))
        rw [← this]; exact ff i j (by omega) i2 j1 j2
      · have c' := nz.1 c
        have q := ff i j (by omega) i2 j1 j2
        rw [h.rows ((Svd.eq_zero_false fn).2 c') i j (by omega) i2 j1 j2] at q
        exact (Svd.upd_core he e1 (fV c (k + 1) le_rfl hk) q).1
  · refine Svd.hh_near (f := fun i j => val (f j i)) (f' := fun i j => val (f' j i)) (k := k) (a := val (Flt.neg mu))
      (by unfold svdE; positivity) (by positivity) hmN (fun j j1 j2 => ?_) ?_ h1 h2 h3 h4
    · by_cases c : val mu = 0
      · have sk := h.skip ((Svd.eq_zero_iff fn).2 (by rw [va, c, neg_zero]))
        have : nrm (Ico (k + 1) n) (fun i => val (f' j i) -
            (val (f j i) + β * (∑ r ∈ Ico (k + 1) n, v r * val (f j r)) * v i)) = 0 := by
          refine (nrm_congr (y := fun _ => 0) fun i hi => ?_).trans nrm_zero
          rw [sk, Nr.no (by rw [va, c, neg_zero])]; ring
        rw [this]
        have := nrm_nonneg (S := Ico (k + 1) n) (x := fun i => val (f j i))
        unfold svdE
        positivity
      · exact Nr.reflR hk (hnm.trans hmN) he hM (nz.1 c) (z := fun r => f j r) (z' := fun r => f' j r)
          (fun i i1 i2 => h.rows ((Svd.eq_zero_false fn).2 (nz.1 c)) j i j1 j2 (by omega) i2) fun i i1 i2 => ff j i j1 j2 (by omega) i2
    · have ex : ∀ i ∈ Ico (k + 1) n, val (x i) = val (f k i) := fun i hi => by
        obtain ⟨i1, i2⟩ := mem_Ico.1 hi
        rw [hx i (by omega) i2]
      rw [nrm_congr (y := fun i => val (f k i)) ex, sum_congr rfl fun r hr => by rw [ex r hr],
        nrm_congr (y := fun i => (if i = k + 1 then val (Flt.neg mu) else 0) -
          (val (f k i) + β * (∑ r ∈ Ico (k + 1) n, v r * val (f k r)) * v i)) fun i hi => by rw [ex i hi]] at col
      refine col.trans (mul_le_mul_of_nonneg_right ?_ nrm_nonneg)
      unfold svdE
      have : 0 ≤ (N : ℝ) * ε := by positivity
      linarith

/-! ## The invariant of the reduction -/

/-- The finiteness that the results have before round `k`. -/
structure Svd.RdFin (m n nrt k : Nat) (f : Nat → Nat → α) (s e : Nat → α) (u v : Nat → Nat → α) : Prop where
  fs : ∀ j, j < k → fin (s j)
  fe : ∀ j, j < min k nrt → fin (e j)
  fu : ∀ j, j < k → val (s j) ≠ 0 → ∀ i, j ≤ i → i < m → fin (u i j)
  fv : ∀ j, j < min k nrt → val (e j) ≠ 0 → ∀ i, j < i → i < n → fin (v i j)
  rest : ∀ i j, k ≤ i → i < m → k ≤ j → j < n → fin (f i j)
  top : ∀ i j, nrt ≤ i → i < k → i < j → j < n → fin (f i j)

/-- What is known before round `k`: the stored vectors stand for reflections, and these turn `A` nearly into what the variables
stand for. -/
def Svd.RdNear (m n nrt N : Nat) (ε : ℝ) (A : Nat → Nat → ℝ) (k : Nat) (f : Nat → Nat → α) (s e : Nat → α)
    (u v : Nat → Nat → α) : Prop :=
  ∃ (vL : Nat → Nat → ℝ) (bL : Nat → ℝ) (vR : Nat → Nat → ℝ) (bR : Nat → ℝ),
    (∀ j, j < k → Svd.HNear j m N ε (vL j) (bL j) (fun r => u r j) (s j)) ∧
    (∀ j, j < min k nrt → Svd.HNear (j + 1) n N ε (vR j) (bR j) (fun r => v r j) (e j)) ∧
    fro (mx m n (Svd.M nrt k (vals f) (vals1 s) (vals1 e)) - (hprod m (fun j => hh m j (vL j) (bL j)) k)ᵀ * mx m n A *
        hprod n (fun j => hh n (j + 1) (vR j) (bR j)) (min k nrt)) ≤
      rotErr (svdE N ε) (√N * (7 * (N * η α))) 0 (fro (mx m n A)) (k + min k nrt)

theorem Svd.rotErr_eq (ε ω b : ℝ) (k : Nat) : rotErr ε ω 0 b k = ((1 + ε) ^ k - 1) * b + k * (1 + ε) ^ k * ω := by
  unfold rotErr; ring

theorem Svd.redStep_split' (hyp : α → α → α) (nct nrt k : Nat) (w : Svd.Red α m n) :
    Svd.redStep hyp nct nrt k w =
      (Svd.colPass hyp nct k w >>= Svd.colRest nct k >>= Svd.keepU nct k) >>= Svd.rowPass hyp nrt k := by
  unfold Svd.redStep
  simp only [bind_assoc]

theorem Svd.near_sq {k m N : Nat} {ε β : ℝ} {v : Nat → ℝ} {V : Nat → α} {a : α} (h : Svd.HNear k m N ε v β V a) :
    (hh m k v β)ᵀ * hh m k v β = 1 := by rw [hh_transpose]; exact hh_sq h.orth

theorem Svd.near_orth {p N k : Nat} {ε : ℝ} {d : Nat → Nat} {vL : Nat → Nat → ℝ} {bL : Nat → ℝ} {V : Nat → Nat → α} {a : Nat → α}
    (h : ∀ j, j < k → Svd.HNear (d j) p N ε (vL j) (bL j) (V j) (a j)) :
    hprod p (fun j => hh p (d j) (vL j) (bL j)) k * (hprod p (fun j => hh p (d j) (vL j) (bL j)) k)ᵀ = 1 ∧
    (hprod p (fun j => hh p (d j) (vL j) (bL j)) k)ᵀ * hprod p (fun j => hh p (d j) (vL j) (bL j)) k = 1 :=
  ⟨hprod_orth (fun _ _ => hh_transpose _ _ _ _) fun j hj => hh_sq (h j hj).orth,
   hprod_orth' (fun _ _ => hh_transpose _ _ _ _) fun j hj => hh_sq (h j hj).orth⟩

set_option maxHeartbeats 1600000 in
theorem Svd.RdNear.step {hyp : α → α → α} {ε : ℝ} {N : Nat} (hmN : m ≤ N) (he : Rnd.u α ≤ ε)
    (hM : (N + 4) * ε ≤ 1 / 250) (H : HypNear ε hyp) {nct nrt k : Nat} (h : k < nct) (hnct : nct ≤ n)
    (hm : n ≤ m) (hnrt : nrt + 2 ≤ n ∨ nrt = 0) {A : Nat → Nat → ℝ} {w : Svd.Red α m n}
    (hw : Svd.RdFin m n nrt k w.a.f w.s.f w.e.f w.u.f w.v.f →
      Svd.RdNear m n nrt N ε A k w.a.f w.s.f w.e.f w.u.f w.v.f) (hup : ∀ i j, i < j → w.u.f i j = Flt.zero) :
    ∃ w', Svd.redStep hyp nct nrt k w = .ok w' ∧ (∀ i j, i < j → w'.u.f i j = Flt.zero) ∧
      (Svd.RdFin m n nrt (k + 1) w'.a.f w'.s.f w'.e.f w'.u.f w'.v.f →
        Svd.RdFin m n nrt k w.a.f w.s.f w.e.f w.u.f w.v.f ∧
        Svd.RdNear m n nrt N ε A (k + 1) w'.a.f w'.s.f w'.e.f w'.u.f w'.v.f) := by
  have hk : k < m := by omega
  have hkn : k < n := by omega
  have hη := η_nonneg (α := α)
  have e0 : 0 ≤ ε := (u_nonneg (α := α)).trans he
  have hE : 0 ≤ svdE N ε := by unfold svdE; positivity
  have hΩ : 0 ≤ √N * (7 * (N * Rnd.η α)) := by positivity
  rw [Svd.redStep_split']
  obtain ⟨w1, e1, hL, hs, he1, he2, hu1, hu2, hv⟩ := Svd.left_ok hyp h hk hkn w
  rw [e1, ok_bind]
  generalize hnu : Svd.signed (Svd.hsum hyp k (fun i => w.a.f i k) (m - k)) (w.a.f k k) = nu at *
  have hsk : w1.s.f k = Flt.neg nu := by rw [hs, upd1_eq, if_pos rfl]
  have hsj : ∀ j, j < k → w1.s.f j = w.s.f j := fun j hj => by rw [hs, upd1_eq, if_neg (by omega)]
  have hup1 : ∀ i j, i < j → w1.u.f i j = Flt.zero := fun i j hij => by
    rw [hu2 i j (by omega), hup i j hij]
  have hlo : ∀ i j, i < k → w1.a.f i j = w.a.f i j := fun i j hi => hL.other i j (.inl hi)
  by_cases hkr : k < nrt
  · obtain ⟨w2, e2, hR, hek, hej, hv1, hv2, hs2, hu3⟩ := Svd.right_ok hyp hkr (by omega) hk w1
    refine ⟨w2, e2, fun i j hij => by rw [hu3, hup1 i j hij], fun F => ?_⟩
    generalize hmu : Svd.signed (Svd.hsum hyp (k + 1) w1.e.f (n - (k + 1))) (w1.e.f (k + 1)) = mu at *
    have hejw : ∀ j, j < k → w2.e.f j = w.e.f j := fun j hj => by rw [hej j hj, he2 j (by omega)]
    have fnu : fin nu := neg_fin.1 (by rw [← hsk, ← hs2]; exact F.fs k (by omega))
    have fmu : fin mu := neg_fin.1 (by rw [← hek]; exact F.fe k (by omega))
    have cnu : val nu ≠ 0 → val (w2.s.f k) ≠ 0 := fun c => by rw [hs2, hsk, val_neg fnu]; exact neg_ne_zero.2 c
    have cmu : val mu ≠ 0 → val (w2.e.f k) ≠ 0 := fun c => by rw [hek, val_neg fmu]; exact neg_ne_zero.2 c
    obtain ⟨fr, vr, br, Nr, Er⟩ := hR.round (m := m) (N := N) (ε := ε) (by omega) hmN hm he hM H hmu.symm fmu
      (fun c i i1 i2 => by
        rw [← hv1 i (by omega) i2]; exact F.fv k (by omega) (cmu c) i (by omega) i2)
      he1 (fun i j i1 i2 j1 j2 => F.rest i j (by omega) i2 (by omega) j2)
    obtain ⟨fl, vl, bl, Nl, El⟩ := hL.round (N := N) (ε := ε) hk hmN hm he hM H hnu.symm fnu
      (fun c i i1 i2 => by
        rw [← hu1 i i1 i2, ← hu3]; exact F.fu k (by omega) (cnu c) i i1 i2)
      fr
    have F0 : Svd.RdFin m n nrt k w.a.f w.s.f w.e.f w.u.f w.v.f := by
      refine ⟨fun j hj => ?_, fun j hj => ?_, fun j hj c i i1 i2 => ?_, fun j hj c i i1 i2 => ?_, fl, fun i j h1 h2 h3 h4 => by omega⟩
      · rw [← hsj j hj, ← hs2]; exact F.fs j (by omega)
      · rw [← hejw j (by omega)]; exact F.fe j (by omega)
      · rw [← hu2 i j (by omega), ← hu3]
        refine F.fu j (by omega) ?_ i i1 i2
        rw [hs2, hsj j hj]; exact c
      · have q := F.fv j (by omega) (by rw [hejw j (by omega)]; exact c) i i1 i2
        rwa [hv2 i j (by omega), hv] at q
    refine ⟨F0, ?_⟩
    obtain ⟨vL, bL, vR, bR, p1, p2, p3⟩ := hw F0
    rw [show min k nrt = k by omega] at p2 p3
    have oL := Svd.near_orth (d := fun j => j) p1
    have oR := Svd.near_orth (d := fun j => j + 1) p2
    set vL' : Nat → Nat → ℝ := fun j => if j = k then vl else vL j with hvL
    set bL' : Nat → ℝ := fun j => if j = k then bl else bL j with hbL
    set vR' : Nat → Nat → ℝ := fun j => if j = k then vr else vR j with hvR
    set bR' : Nat → ℝ := fun j => if j = k then br else bR j with hbR
    refine ⟨vL', bL', vR', bR', fun j hj => ?_, fun j hj => ?_, ?_⟩
    · by_cases c : j = k
      · subst c
        rw [hvL, hbL]; dsimp only; rw [if_pos rfl, if_pos rfl, hs2, hsk]
        refine ⟨Nl.fa, Nl.no, fun c i i1 i2 => ?_, fun c => ?_, Nl.yes⟩
        · rw [hu3, hu1 i i1 i2]; exact Nl.ent c i i1 i2
        · refine ⟨(Nl.vec c).one, (Nl.vec c).sq, ?_⟩
          refine le_trans (le_of_eq (nrm_congr fun i hi => ?_)) (Nl.vec c).near
          rw [hu3, hu1 i (mem_Ico.1 hi).1 (mem_Ico.1 hi).2]
      · rw [hvL, hbL]; dsimp only; rw [if_neg c, if_neg c, hs2, hsj j (by omega), hu3]
        rw [show (fun r => w1.u.f r j) = fun r => w.u.f r j from funext fun r => hu2 r j (by omega)]
        exact p1 j (by omega)
    · by_cases c : j = k
      · subst c
        rw [hvR, hbR]; dsimp only; rw [if_pos rfl, if_pos rfl, hek]
        refine ⟨Nr.fa, Nr.no, fun c i i1 i2 => ?_, fun c => ?_, Nr.yes⟩
        · rw [hv1 i (by omega) i2]; exact Nr.ent c i i1 i2
        · refine ⟨(Nr.vec c).one, (Nr.vec c).sq, ?_⟩
          refine le_trans (le_of_eq (nrm_congr fun i hi => ?_)) (Nr.vec c).near
          obtain ⟨i1, i2⟩ := mem_Ico.1 hi
          rw [hv1 i (by omega) i2]
      · rw [hvR, hbR]; dsimp only; rw [if_neg c, if_neg c, hejw j (by omega)]
        rw [show (fun r => w2.v.f r j) = fun r => w.v.f r j from funext fun r => by rw [hv2 r j (by omega), hv]]
        exact p2 j (by omega)
    · rw [show min (k + 1) nrt = k + 1 by omega]
      have cL : hprod m (fun j => hh m j (vL' j) (bL' j)) (k + 1) = hprod m (fun j => hh m j (vL j) (bL j)) k * hh m k vl bl := by
        rw [hprod]
        congr 1
        · exact hprod_congr fun j hj => by rw [hvL, hbL]; dsimp only; rw [if_neg (by omega), if_neg (by omega)]
        · rw [hvL, hbL]; dsimp only; rw [if_pos rfl, if_pos rfl]
      have cR : hprod n (fun j => hh n (j + 1) (vR' j) (bR' j)) (k + 1) =
          hprod n (fun j => hh n (j + 1) (vR j) (bR j)) k * hh n (k + 1) vr br := by
        rw [hprod]
        congr 1
        · exact hprod_congr fun j hj => by rw [hvR, hbR]; dsimp only; rw [if_neg (by omega), if_neg (by omega)]
        · rw [hvR, hbR]; dsimp only; rw [if_pos rfl, if_pos rfl]
      rw [cL, cR, Matrix.transpose_mul, hh_transpose]
      set M1 : Nat → Nat → ℝ := fun i j =>
        if i < k then Svd.M nrt k (vals w.a.f) (vals1 w.s.f) (vals1 w.e.f) i j else
          if j < k then 0 else if j = k then (if i = k then val (Flt.neg nu) else 0) else val (w1.a.f i j) with hM1
      have s1 := El (Svd.M nrt k (vals w.a.f) (vals1 w.s.f) (vals1 w.e.f)) M1
        (fun i j h3 h4 h5 h6 => by rw [Svd.M, if_neg (by omega), if_neg (by omega)]; rfl)
        (fun i j h3 h4 h5 => by rw [Svd.M, if_neg (by omega), if_pos h5])
        (fun i j h3 h4 => by rw [hM1]; dsimp only; rw [if_pos h3])
        (fun i j h3 h4 h5 => by rw [hM1]; dsimp only; rw [if_neg (by omega)])
      have s2 := Er (fun j i => M1 i j)
        (fun j i => Svd.M nrt (k + 1) (vals w2.a.f) (vals1 w2.s.f) (vals1 w2.e.f) i j)
        (fun i j h3 h4 h5 h6 => by rw [hM1]; dsimp only; rw [if_neg (by omega), if_neg (by omega), if_neg (by omega)])
        (fun i j h3 h4 h5 => by
          rw [hM1]; dsimp only
          rw [if_pos h5, Svd.M, if_pos h5, if_neg (by omega), if_pos (by omega), if_neg (by omega)])
        (fun i j h3 h4 => by
          have q1 : ∀ j, j < k → vals1 w2.s.f j = vals1 w.s.f j := fun j hj => by unfold vals1; rw [hs2, hsj j hj]
          have q2 : ∀ j, j < k → vals1 w2.e.f j = vals1 w.e.f j := fun j hj => by unfold vals1; rw [hejw j hj]
          have q3 : vals1 w2.s.f k = val (Flt.neg nu) := by unfold vals1; rw [hs2, hsk]
          rw [hM1]; dsimp only
          unfold Svd.M
          split_ifs with c1 c2 c3 c4 c5 c6 c7 <;>
            first
              | rfl
              | (exfalso; omega)
              | rw [q1 _ (by omega)]
              | rw [q2 _ (by omega)]
              | (subst_vars; exact q3))
        (fun i j h3 h4 h5 => by
          have q3 : vals1 w2.e.f k = val (Flt.neg mu) := by unfold vals1; rw [hek]
          unfold Svd.M
          split_ifs <;>
            first
              | rfl
              | (exfalso; omega)
              | (subst_vars; exact q3))
      rw [Svd.rotErr_eq] at p3
      have t1 := left_step (P := (hprod m (fun j => hh m j (vL j) (bL j)) k)ᵀ) hE hΩ (by rw [Matrix.transpose_transpose]; exact oL.1) oR.1
        (Svd.near_sq Nl) p3 s1
      have s2' : fro (mx m n (Svd.M nrt (k + 1) (vals w2.a.f) (vals1 w2.s.f) (vals1 w2.e.f)) - mx m n M1 * hh n (k + 1) vr br) ≤
          svdE N ε * fro (mx m n M1) + √N * (7 * (N * Rnd.η α)) := by
        rw [← fro_transpose, Matrix.transpose_sub, Matrix.transpose_mul, hh_transpose, mx_transpose, mx_transpose,
          ← fro_transpose (mx m n M1), mx_transpose]
        exact s2
      have t2 := right_step (P := hh m k vl bl * (hprod m (fun j => hh m j (vL j) (bL j)) k)ᵀ) hE hΩ (by
          rw [Matrix.transpose_mul, Matrix.transpose_transpose, Matrix.mul_assoc,
            ← Matrix.mul_assoc (hh m k vl bl)ᵀ, Svd.near_sq Nl, Matrix.one_mul]
          exact oL.1) oR.1
        (by rw [hh_transpose]; exact hh_sq Nr.orth) t1 s2'
      rw [Svd.rotErr_eq, show k + 1 + (k + 1) = k + k + 1 + 1 by omega]
      exact t2
  · have e2 : Svd.rowPass hyp nrt k w1 = .ok w1 := by
      unfold Svd.rowPass; rw [if_neg hkr]; rfl
    refine ⟨w1, e2, hup1, fun F => ?_⟩
    have fnu : fin nu := neg_fin.1 (by rw [← hsk]; exact F.fs k (by omega))
    have cnu : val nu ≠ 0 → val (w1.s.f k) ≠ 0 := fun c => by rw [hsk, val_neg fnu]; exact neg_ne_zero.2 c
    obtain ⟨fl, vl, bl, Nl, El⟩ := hL.round (N := N) (ε := ε) hk hmN hm he hM H hnu.symm fnu
      (fun c i i1 i2 => by rw [← hu1 i i1 i2]; exact F.fu k (by omega) (cnu c) i i1 i2)
      (fun i j i1 i2 j1 j2 => by
        by_cases c : i = k
        · exact F.top i j (by omega) (by omega) (by omega) j2
        · exact F.rest i j (by omega) i2 (by omega) j2)
    have F0 : Svd.RdFin m n nrt k w.a.f w.s.f w.e.f w.u.f w.v.f := by
      refine ⟨fun j hj => ?_, fun j hj => ?_, fun j hj c i i1 i2 => ?_, fun j hj c i i1 i2 => ?_, fl, fun i j h1 h2 h3 h4 => ?_⟩
      · rw [← hsj j hj]; exact F.fs j (by omega)
      · rw [← he2 j (by omega)]; exact F.fe j (by omega)
      · rw [← hu2 i j (by omega)]
        refine F.fu j (by omega) ?_ i i1 i2
        rw [hsj j hj]; exact c
      · have q := F.fv j (by omega) (by rw [he2 j (by omega)]; exact c) i i1 i2
        rwa [hv] at q
      · rw [← hlo i j h2]; exact F.top i j h1 (by omega) h3 h4
    refine ⟨F0, ?_⟩
    obtain ⟨vL, bL, vR, bR, p1, p2, p3⟩ := hw F0
    rw [show min k nrt = nrt by omega] at p2 p3
    have oL := Svd.near_orth (d := fun j => j) p1
    have oR := Svd.near_orth (d := fun j => j + 1) p2
    set vL' : Nat → Nat → ℝ := fun j => if j = k then vl else vL j with hvL
    set bL' : Nat → ℝ := fun j => if j = k then bl else bL j with hbL
    refine ⟨vL', bL', vR, bR, fun j hj => ?_, fun j hj => ?_, ?_⟩
    · by_cases c : j = k
      · subst c
        rw [hvL, hbL]; dsimp only; rw [if_pos rfl, if_pos rfl, hsk]
        refine ⟨Nl.fa, Nl.no, fun c i i1 i2 => ?_, fun c => ?_, Nl.yes⟩
        · rw [hu1 i i1 i2]; exact Nl.ent c i i1 i2
        · refine ⟨(Nl.vec c).one, (Nl.vec c).sq, ?_⟩
          refine le_trans (le_of_eq (nrm_congr fun i hi => ?_)) (Nl.vec c).near
          rw [hu1 i (mem_Ico.1 hi).1 (mem_Ico.1 hi).2]
      · rw [hvL, hbL]; dsimp only; rw [if_neg c, if_neg c, hsj j (by omega)]
        rw [show (fun r => w1.u.f r j) = fun r => w.u.f r j from funext fun r => hu2 r j (by omega)]
        exact p1 j (by omega)
    · rw [hv, he2 j (by omega)]; exact p2 j (by omega)
    · rw [show min (k + 1) nrt = nrt by omega]
      have cL : hprod m (fun j => hh m j (vL' j) (bL' j)) (k + 1) = hprod m (fun j => hh m j (vL j) (bL j)) k * hh m k vl bl := by
        rw [hprod]
        congr 1
        · exact hprod_congr fun j hj => by rw [hvL, hbL]; dsimp only; rw [if_neg (by omega), if_neg (by omega)]
        · rw [hvL, hbL]; dsimp only; rw [if_pos rfl, if_pos rfl]
      rw [cL, Matrix.transpose_mul, hh_transpose]
      have s1 := El (Svd.M nrt k (vals w.a.f) (vals1 w.s.f) (vals1 w.e.f))
        (Svd.M nrt (k + 1) (vals w1.a.f) (vals1 w1.s.f) (vals1 w1.e.f))
        (fun i j h3 h4 h5 h6 => by rw [Svd.M, if_neg (by omega), if_neg (by omega)]; rfl)
        (fun i j h3 h4 h5 => by rw [Svd.M, if_neg (by omega), if_pos h5])
        (fun i j h3 h4 => by
          have q1 : ∀ j, j < k → vals1 w1.s.f j = vals1 w.s.f j := fun j hj => by unfold vals1; rw [hsj j hj]
          have q2 : ∀ j, j < k → vals1 w1.e.f j = vals1 w.e.f j := fun j hj => by unfold vals1; rw [he2 j (by omega)]
          have q3 : ∀ i j, i < k → vals w1.a.f i j = vals w.a.f i j := fun i j hj => by unfold vals; rw [hlo i j hj]
          unfold Svd.M
          split_ifs <;>
            first
              | rfl
              | (exfalso; omega)
              | rw [q1 _ (by omega)]
              | rw [q2 _ (by omega)]
              | rw [q3 _ _ (by omega)])
        (fun i j h3 h4 h5 => by
          have q3 : vals1 w1.s.f k = val (Flt.neg nu) := by unfold vals1; rw [hsk]
          unfold Svd.M
          split_ifs <;>
            first
              | rfl
              | (exfalso; omega)
              | (subst_vars; exact q3))
      rw [Svd.rotErr_eq] at p3
      have t1 := left_step (P := (hprod m (fun j => hh m j (vL j) (bL j)) k)ᵀ) hE hΩ (by rw [Matrix.transpose_transpose]; exact oL.1) oR.1
        (Svd.near_sq Nl) p3 s1
      rw [Svd.rotErr_eq, show k + 1 + nrt = k + nrt + 1 by omega]
      exact t1

end Linear
