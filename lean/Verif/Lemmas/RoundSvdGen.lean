import Verif.Lemmas.RoundSvdRed
import Verif.Lemmas.SvdSafe

/-!
# The factors of the bidiagonal form in rounded arithmetic
-/

set_option linter.unusedSectionVars false

namespace Linear

open Spec Rnd Matrix
open Finset hiding val diag

variable {α : Type} [Flt α] [Rnd α] {m n : Nat}

/-- A rounded reflection of the rows from `i0` on, column by column. -/
theorem Svd.hh_cols {i0 p : Nat} {v : Nat → ℝ} {β E W : ℝ} {M M' : Nat → Nat → ℝ} (hE : 0 ≤ E) (hW : 0 ≤ W) (hp : n ≤ p)
    (h : ∀ j, j < n → nrm (Ico i0 m) (fun i => M' i j - (M i j + β * (∑ r ∈ Ico i0 m, v r * M r j) * v i)) ≤
      E * nrm (Ico i0 m) (fun i => M i j) + W)
    (h3 : ∀ i j, i < i0 → j < n → M' i j = M i j) :
    fro (mx m n M' - hh m i0 v β * mx m n M) ≤ E * fro (mx m n M) + √p * W := by
  refine fro_of_cols hE hW hp fun j => ?_
  rw [hh_mul, show ∀ A B : Nat → Nat → ℝ, mx m n A - mx m n B = mx m n fun i j => A i j - B i j from fun _ _ => rfl, cnorm_mx,
    cnorm_mx]
  have hj := j.2
  generalize (j : Nat) = j at *
  have z : ∀ i, i < i0 → M' i j - (M i j + β * (∑ r ∈ Ico i0 m, v r * M r j) * tl i0 v i) = 0 := fun i hi => by
    rw [h3 i j hi hj, tl, if_neg (by omega)]; ring
  rw [Svd.nrm_tail z]
  have mono : nrm (Ico i0 m) (fun i => M i j) ≤ nrm (range m) fun i => M i j :=
    nrm_mono_set fun i hi => mem_range.2 (mem_Ico.1 hi).2
  refine le_trans ?_ (add_le_add_left (mul_le_mul_of_nonneg_left mono hE) _)
  refine le_trans (le_of_eq (nrm_congr fun i hi => ?_)) (h j hj)
  rw [tl, if_pos (mem_Ico.1 hi).1]

theorem Svd.nrm_same {S : Finset ℕ} {f g : ℕ → ℝ} {E W N : ℝ} (hE : 0 ≤ E) (hW : 0 ≤ W) (hN : 0 ≤ N) (h : ∀ i ∈ S, f i = g i) :
    nrm S (fun i => f i - g i) ≤ E * N + W := by
  have : nrm S (fun i => f i - g i) = 0 := by
    refine (nrm_congr (y := fun _ => 0) fun i hi => ?_).trans nrm_zero
    rw [h i hi, sub_self]
  rw [this]
  positivity

theorem Svd.vunit (j i : Nat) : val (Svd.unit α j i) = if i = j then 1 else 0 := by
  unfold Svd.unit
  split_ifs
  · exact val_one
  · exact val_zero

/-- The error after one more reflection of the generation. -/
theorem Svd.gen_step {E Ω : ℝ} {c : Nat} {H Q : Matrix (Fin m) (Fin m) ℝ} {X X' : Matrix (Fin m) (Fin n) ℝ}
    {J : Matrix (Fin m) (Fin n) ℝ} (hE : 0 ≤ E) (hΩ : 0 ≤ Ω) (hH : Hᵀ * H = 1) (hQ : Qᵀ * Q = 1)
    (h : fro (X - Q * J) ≤ rotErr E Ω 0 (fro J) c) (h' : fro (X' - H * X) ≤ E * fro X + Ω) :
    fro (X' - H * Q * J) ≤ rotErr E Ω 0 (fro J) (c + 1) := by
  rw [Svd.rotErr_eq] at h ⊢
  have := left_step (Q := (1 : Matrix (Fin n) (Fin n) ℝ)) hE hΩ hQ (by rw [Matrix.transpose_one, Matrix.mul_one]) hH
    (A := J) (M := X) (M' := X') (by rw [Matrix.mul_one]; exact h) h'
  rwa [Matrix.mul_one] at this

theorem Svd.hfrom_orth {p N k b : Nat} {ε : ℝ} {d : Nat → Nat} {vL : Nat → Nat → ℝ} {bL : Nat → ℝ} {V : Nat → Nat → α} {a : Nat → α}
    (h : ∀ j, j < b → Svd.HNear (d j) p N ε (vL j) (bL j) (V j) (a j)) :
    (hfrom p (fun j => hh p (d j) (vL j) (bL j)) k b)ᵀ * hfrom p (fun j => hh p (d j) (vL j) (bL j)) k b = 1 := by
  unfold hfrom
  exact hprod_orth' (fun _ _ => hh_transpose _ _ _ _) fun j hj => hh_sq (h (k + j) (by omega)).orth

set_option maxHeartbeats 1000000 in
/-- The generation of `U`. -/
theorem Svd.genU_round {nct N : Nat} {ε : ℝ} (hnct : nct ≤ n) (hm : n ≤ m) (hmN : m ≤ N) (he : Rnd.u α ≤ ε)
    (hM : (N + 4) * ε ≤ 1 / 250) (s : Row α n) (u : Tab α m n)
    (hup : ∀ i j, i < j → u.f i j = Flt.zero) (fs : ∀ j, j < nct → fin (s.f j)) :
    ∃ u', Svd.genU nct s u = .ok u' ∧ ((∀ i j, i < m → j < n → fin (u'.f i j)) →
      (∀ j, j < nct → val (s.f j) ≠ 0 → ∀ i, j ≤ i → i < m → fin (u.f i j)) ∧
      ∀ (vL : Nat → Nat → ℝ) (bL : Nat → ℝ),
        (∀ j, j < nct → Svd.HNear j m N ε (vL j) (bL j) (fun r => u.f r j) (s.f j)) →
        fro (mx m n (vals u'.f) - hprod m (fun j => hh m j (vL j) (bL j)) nct * Svd.I m n) ≤
          rotErr (svdE N ε) (√N * (7 * (N * η α))) 0 (fro (Svd.I (K := ℝ) m n)) nct) := by
  have hη := η_nonneg (α := α)
  have e0 : 0 ≤ ε := (u_nonneg (α := α)).trans he
  have Nε : 0 ≤ (N : ℝ) * ε := by positivity
  have hE : 0 ≤ svdE N ε := by unfold svdE; positivity
  have hW : 0 ≤ 7 * (N * Rnd.η α) := by positivity
  have hΩ : 0 ≤ √N * (7 * (N * Rnd.η α)) := by positivity
  unfold Svd.genU
  obtain ⟨u1, e1, h1, h2⟩ := Wp.exists_ok (wp_forUp (ε := Fault) (a := nct) (b := n)
    (body := fun j => Svd.unitCol j) (s := u) (E := fun _ => False)
    (fun b (t : Tab α m n) => (∀ i j, i < m → nct ≤ j → j < b → t.f i j = Svd.unit α j i) ∧
      ∀ i j, j < nct → t.f i j = u.f i j) hnct ⟨fun i j _ g1 g2 => by omega, fun _ _ _ => rfl⟩
    (fun j t g1 g2 ⟨g3, g4⟩ => by
      obtain ⟨t', e, q1, q2⟩ := Svd.unitCol_ok (show j < m by omega) g2 t
      refine wp_of_eq_ok e ⟨fun i y hi h1 h2 => ?_, fun i y hy => ?_⟩
      · by_cases ey : y = j
        · rw [ey, q1 i hi]
        · rw [q2 i y ey, g3 i y hi h1 (by omega)]
      · rw [q2 i y (by omega), g4 i y hy]))
  rw [e1, ok_bind]
  obtain ⟨u', e2, -, h3⟩ := Wp.exists_ok (wp_forDown (ε := Fault) (a := nct) (b := 0)
    (body := Svd.genUStep s) (s := u1) (E := fun _ => False)
    (fun k (t : Tab α m n) => (∀ i j, j < k → t.f i j = u.f i j) ∧ ((∀ i j, i < m → k ≤ j → j < n → fin (t.f i j)) →
      (∀ j, k ≤ j → j < nct → val (s.f j) ≠ 0 → ∀ i, j ≤ i → i < m → fin (u.f i j)) ∧
      ∀ (vL : Nat → Nat → ℝ) (bL : Nat → ℝ),
        (∀ j, j < nct → Svd.HNear j m N ε (vL j) (bL j) (fun r => u.f r j) (s.f j)) →
        fro (mx m n (Svd.P k (vals t.f)) - hfrom m (fun j => hh m j (vL j) (bL j)) k nct * Svd.I m n) ≤
          rotErr (svdE N ε) (√N * (7 * (N * Rnd.η α))) 0 (fro (Svd.I (K := ℝ) m n)) (nct - k))) (Nat.zero_le _)
    ⟨h2, fun F => ⟨fun j j1 j2 => by omega, fun vL bL _ => by
      rw [hfrom_self, Matrix.one_mul, Nat.sub_self, rotErr_zero]
      have : mx m n (Svd.P nct (vals u1.f)) = Svd.I m n := by
        refine mx_congr fun i j hi hj => ?_
        unfold Svd.P
        split_ifs with c1 c2 c2
        · rfl
        · rfl
        · unfold vals; rw [h1 i j hi (by omega) hj, Svd.vunit, if_pos c2]
        · unfold vals; rw [h1 i j hi (by omega) hj, Svd.vunit, if_neg c2]
      rw [this, sub_self]
      unfold fro
      simp⟩⟩
    (fun k t g1 g2 ⟨g4, g5⟩ => by
      have hk : k < m := by omega
      obtain ⟨t', e, q1, q2, q3⟩ := Svd.genUStep_ok hk (show k < n by omega) s t
        (fun hk => by rw [g4 _ _ (by omega), hup _ _ (by omega)])
      refine wp_of_eq_ok e ⟨fun i j hj => by rw [q3 i j hj, g4 i j (by omega)], fun F => ?_⟩
      have fk := fs k (by omega)
      have Ft : ∀ i j, i < m → k + 1 ≤ j → j < n → fin (t.f i j) := fun i j hi hj hjn => by
        have f := F i j hi (by omega) hjn
        by_cases c : val (s.f k) = 0
        · rwa [(q2 ((Svd.eq_zero_iff fk).2 c)).1 i j (by omega)] at f
        · obtain ⟨r1, r2, -, -, -⟩ := q1 ((Svd.eq_zero_false fk).2 c)
          by_cases ci : k ≤ i
          · rw [r1 i j ci hi (by omega) hjn] at f
            exact (add_fin f).1
          · rwa [r2 i j (by omega) (by omega)] at f
      obtain ⟨p1, p2⟩ := g5 Ft
      refine ⟨fun j j1 j2 c i i1 i2 => ?_, fun vL bL HN => ?_⟩
      · by_cases cj : j = k
        · subst cj
          obtain ⟨-, -, r3, r4, -⟩ := q1 ((Svd.eq_zero_false fk).2 c)
          rw [← g4 i j (by omega)]
          have f := F i j i2 le_rfl (by omega)
          by_cases ci : i = j
          · subst ci
            rw [r4] at f
            exact neg_fin.1 (add_fin f).2
          · rw [r3 i (by omega) i2] at f
            exact neg_fin.1 f
        · exact p1 j (by omega) j2 c i i1 i2
      · have Nk := HN k (by omega)
        rw [hfrom_step _ (by omega), show nct - k = nct - (k + 1) + 1 by omega]
        refine Svd.gen_step hE hΩ (Svd.near_sq Nk) (Svd.hfrom_orth (d := fun j => j) HN) (p2 vL bL HN) ?_
        refine Svd.hh_cols hE hW (hm.trans hmN) (fun j hj => ?_) fun i j hi hj => ?_
        · have hN0 := nrm_nonneg (S := Ico k m) (x := fun i => Svd.P (k + 1) (vals t.f) i j)
          by_cases c1 : j < k
          · refine Svd.nrm_same hE hW hN0 fun i hi => ?_
            rw [Svd.P_lo c1, Svd.P_lo (show j < k + 1 by omega), sum_congr rfl (g := fun r => vL k r *
              (if r = j then (1 : ℝ) else 0)) fun r _ => by rw [Svd.P_lo (by omega)],
              Svd.sum_unit _ _ (by omega), if_neg (show ¬ k ≤ j by omega)]
            ring
          · by_cases c2 : j = k
            · subst c2
              have eS : ∑ r ∈ Ico j m, vL j r * Svd.P (j + 1) (vals t.f) r j = vL j j := by
                rw [sum_congr rfl (g := fun r => vL j r * (if r = j then (1 : ℝ) else 0)) fun r _ => by rw [Svd.P_lo (by omega)],
                  Svd.sum_unit _ _ (by omega), if_pos le_rfl]
              rw [eS]
              by_cases c : val (s.f j) = 0
              · refine Svd.nrm_same hE hW hN0 fun i hi => ?_
                rw [Svd.P_hi c1, Svd.P_lo (by omega), Nk.no c]
                unfold vals
                rw [(q2 ((Svd.eq_zero_iff fk).2 c)).2 i (mem_Ico.1 hi).2, Svd.vunit]
                ring
              · obtain ⟨-, -, r3, r4, -⟩ := q1 ((Svd.eq_zero_false fk).2 c)
                have W := Nk.vec c
                have v1 := W.one
                have hβ : bL j * vL j j = -1 := by
                  rw [Nk.yes c]; field_simp
                have fj := F j j hk le_rfl (by omega)
                rw [r4] at fj
                have fV := neg_fin.1 (add_fin fj).2
                have er := (add_err fj).1
                rw [val_one, val_neg fV, g4 j j (by omega)] at er
                obtain ⟨w1, -, -, w4⟩ := W.bounds hk
                have w4' := abs_le.1 w4
                have hδ : 5 * (N + 1) * ε ≤ 1 / 50 := by linarith
                have b1 : |1 + -val (u.f j j)| ≤ 11 / 10 := abs_le.2 ⟨by linarith, by linarith⟩
                have er' : |val (Flt.add Flt.one (Flt.neg (u.f j j))) - (1 + -val (u.f j j))| ≤ 11 / 10 * ε := by
                  refine er.trans ((mul_le_mul he b1 (abs_nonneg _) e0).trans (le_of_eq (by ring)))
                have hn1 : nrm (Ico j m) (fun i => Svd.P (j + 1) (vals t.f) i j) = 1 := by
                  have : nrm (Ico j m) (fun i => Svd.P (j + 1) (vals t.f) i j) = nrm (Ico j m) fun i => if i = j then 1 else 0 :=
                    nrm_congr fun i _ => Svd.P_lo (by omega)
                  rw [this]
                  unfold nrm
                  rw [sum_eq_single j (fun b _ hb => by simp [hb])
                    (fun q => absurd (mem_Ico.2 ⟨le_rfl, hk⟩) q)]
                  simp
                rw [hn1]
                have split : ∀ i ∈ Ico j m, Svd.P j (vals t'.f) i j - (Svd.P (j + 1) (vals t.f) i j + bL j * vL j j * vL j i) =
                    (-1) * (val (u.f i j) - vL j i) +
                      if i = j then val (Flt.add Flt.one (Flt.neg (u.f j j))) - (1 + -val (u.f j j)) else 0 := fun i hi => by
                  obtain ⟨i1, i2⟩ := mem_Ico.1 hi
                  rw [hβ, Svd.P_hi c1, Svd.P_lo (by omega)]
                  unfold vals
                  by_cases ci : i = j
                  · subst ci
                    rw [r4, if_pos rfl, if_pos rfl, g4 i i (by omega)]; ring
                  · have fi := F i j i2 le_rfl (by omega)
                    rw [r3 i (by omega) i2, g4 i j (by omega)] at fi ⊢
                    rw [val_neg (neg_fin.1 fi), if_neg ci, if_neg ci]; ring
                rw [nrm_congr split]
                refine nrm_add_le.trans ?_
                rw [nrm_mul, abs_neg, abs_one, one_mul]
                have n2 : nrm (Ico j m) (fun i => if i = j then val (Flt.add Flt.one (Flt.neg (u.f j j))) - (1 + -val (u.f j j)) else 0) ≤
                    11 / 10 * ε := by
                  refine nrm_le (by positivity) ?_
                  rw [sum_eq_single j (fun b _ hb => by rw [if_neg hb]; norm_num)
                    (fun q => absurd (mem_Ico.2 ⟨le_rfl, hk⟩) q), if_pos rfl, ← sq_abs]
                  exact pow_le_pow_left₀ (abs_nonneg _) er' 2
                have := W.near
                unfold svdE
                linarith
            · have hP : ∀ r, Svd.P (k + 1) (vals t.f) r j = val (t.f r j) := fun r => Svd.P_hi (by omega)
              have hP' : ∀ r, Svd.P k (vals t'.f) r j = val (t'.f r j) := fun r => Svd.P_hi (by omega)
              simp only [hP, hP'] at hN0 ⊢
              by_cases c : val (s.f k) = 0
              · refine Svd.nrm_same hE hW hN0 fun i hi => ?_
                rw [(q2 ((Svd.eq_zero_iff fk).2 c)).1 i j (by omega), Nk.no c]
                ring
              · obtain ⟨r1, -, -, -, -⟩ := q1 ((Svd.eq_zero_false fk).2 c)
                refine Nk.refl hk hmN he hM c (z := fun r => t.f r j) (z' := fun r => t'.f r j)
                  (fun i i1 i2 => ?_) fun i i1 i2 => F i j i2 (by omega) hj
                rw [r1 i j i1 i2 (by omega) hj]
                congr 1
                exact funext fun r => g4 r k (by omega)
        · by_cases c1 : j < k
          · rw [Svd.P_lo c1, Svd.P_lo (show j < k + 1 by omega)]
          · rw [Svd.P_hi c1]
            unfold vals
            by_cases c2 : j = k
            · subst c2
              rw [Svd.P_lo (by omega), if_neg (by omega)]
              by_cases c : val (s.f j) = 0
              · rw [(q2 ((Svd.eq_zero_iff fk).2 c)).2 i (by omega), Svd.vunit, if_neg (by omega)]
              · obtain ⟨-, -, -, -, r5⟩ := q1 ((Svd.eq_zero_false fk).2 c)
                rw [r5 i hi, val_zero]
            · rw [Svd.P_hi (by omega)]
              by_cases c : val (s.f k) = 0
              · rw [(q2 ((Svd.eq_zero_iff fk).2 c)).1 i j (by omega)]
              · obtain ⟨-, r2, -, -, -⟩ := q1 ((Svd.eq_zero_false fk).2 c)
                rw [r2 i j hi (by omega)]))
  refine ⟨u', e2, fun F => ?_⟩
  obtain ⟨a1, a2⟩ := h3 fun i j hi _ hj => F i j hi hj
  refine ⟨fun j hj => a1 j (Nat.zero_le _) hj, fun vL bL HN => ?_⟩
  have := a2 vL bL HN
  rw [hfrom_zero, Nat.sub_zero] at this
  rwa [show mx m n (Svd.P 0 (vals u'.f)) = mx m n (vals u'.f) from mx_congr fun i j _ _ => by rw [Svd.P_hi (by omega)]] at this

set_option maxHeartbeats 1000000 in
/-- The generation of `V`. -/
theorem Svd.genV_round {nrt N : Nat} {ε : ℝ} (hr : nrt + 2 ≤ n ∨ nrt = 0) (hn : 0 < n) (hnN : n ≤ N) (he : Rnd.u α ≤ ε)
    (hM : (N + 4) * ε ≤ 1 / 250) (e : Row α n) (v : Tab α n n) (fe : ∀ j, j < nrt → fin (e.f j)) :
    ∃ v', Svd.genV nrt e v = .ok v' ∧ ((∀ i j, i < n → j < n → fin (v'.f i j)) →
      (∀ j, j < nrt → val (e.f j) ≠ 0 → ∀ i, j < i → i < n → fin (v.f i j)) ∧
      ∀ (vR : Nat → Nat → ℝ) (bR : Nat → ℝ),
        (∀ j, j < nrt → Svd.HNear (j + 1) n N ε (vR j) (bR j) (fun r => v.f r j) (e.f j)) →
        fro (mx n n (vals v'.f) - hprod n (fun j => hh n (j + 1) (vR j) (bR j)) nrt) ≤
          rotErr (svdE N ε) (√N * (7 * (N * η α))) 0 (fro (1 : Matrix (Fin n) (Fin n) ℝ)) nrt) := by
  have hη := η_nonneg (α := α)
  have e0 : 0 ≤ ε := (u_nonneg (α := α)).trans he
  have hE : 0 ≤ svdE N ε := by unfold svdE; positivity
  have hW : 0 ≤ 7 * (N * Rnd.η α) := by positivity
  have hΩ : 0 ≤ √N * (7 * (N * Rnd.η α)) := by positivity
  unfold Svd.genV
  obtain ⟨v', e2, -, h3⟩ := Wp.exists_ok (wp_forDown (ε := Fault) (a := n) (b := 0)
    (body := Svd.genVStep nrt e) (s := v) (E := fun _ => False)
    (fun k (t : Tab α n n) => (∀ i j, j < k → t.f i j = v.f i j) ∧ ((∀ i j, i < n → k ≤ j → j < n → fin (t.f i j)) →
      (∀ j, k ≤ j → j < nrt → val (e.f j) ≠ 0 → ∀ i, j < i → i < n → fin (v.f i j)) ∧
      ∀ (vR : Nat → Nat → ℝ) (bR : Nat → ℝ),
        (∀ j, j < nrt → Svd.HNear (j + 1) n N ε (vR j) (bR j) (fun r => v.f r j) (e.f j)) →
        fro (mx n n (Svd.P k (vals t.f)) - hfrom n (fun j => hh n (j + 1) (vR j) (bR j)) k nrt) ≤
          rotErr (svdE N ε) (√N * (7 * (N * Rnd.η α))) 0 (fro (1 : Matrix (Fin n) (Fin n) ℝ)) (nrt - k))) (Nat.zero_le _)
    ⟨fun _ _ _ => rfl, fun F => ⟨fun j j1 j2 => by omega, fun vR bR _ => by
      rw [hfrom, show nrt - n = 0 by omega, hprod, rotErr_zero]
      have : mx n n (Svd.P n (vals v.f)) = 1 := by
        rw [← mx_one]
        exact mx_congr fun i j hi hj => by rw [Svd.P, if_pos hj]
      rw [this, sub_self]
      unfold fro
      simp⟩⟩
    (fun k t g1 g2 ⟨g4, g5⟩ => by
      obtain ⟨t', e', q1, q2, q3, q4⟩ := Svd.genVStep_ok g2 (show nrt < n by omega) e t
      refine wp_of_eq_ok e' ⟨fun i j hj => by rw [q4 i j hj, g4 i j (by omega)], fun F => ?_⟩
      have Ft : ∀ i j, i < n → k + 1 ≤ j → j < n → fin (t.f i j) := fun i j hi hj hjn => by
        have f := F i j hi (by omega) hjn
        by_cases c : k < nrt ∧ Flt.eq (e.f k) Flt.zero = false
        · obtain ⟨r1, r2⟩ := q1 c
          by_cases ci : k < i
          · rw [r1 i j ci hi (by omega) hjn] at f
            exact (add_fin f).1
          · rwa [r2 i j (by omega) (by omega)] at f
        · rwa [q2 c i j (by omega)] at f
      obtain ⟨p1, p2⟩ := g5 Ft
      refine ⟨fun j j1 j2 c i i1 i2 => ?_, fun vR bR HN => ?_⟩
      · by_cases cj : j = k
        · subst cj
          obtain ⟨r1, -⟩ := q1 ⟨j2, (Svd.eq_zero_false (fe j j2)).2 c⟩
          have f := F i (j + 1) i2 (by omega) (by omega)
          rw [r1 i (j + 1) i1 i2 (by omega) (by omega)] at f
          rw [← g4 i j (by omega)]
          exact (mul_fin (add_fin f).2).2
        · exact p1 j (by omega) j2 c i i1 i2
      · by_cases hk : k < nrt
        · have Nk := HN k hk
          have fk := fe k hk
          rw [hfrom_step _ hk, show nrt - k = nrt - (k + 1) + 1 by omega]
          have p := p2 vR bR HN
          rw [← Matrix.mul_one (hfrom n (fun j => hh n (j + 1) (vR j) (bR j)) (k + 1) nrt)] at p
          rw [← Matrix.mul_one (hh n (k + 1) (vR k) (bR k) * hfrom n (fun j => hh n (j + 1) (vR j) (bR j)) (k + 1) nrt)]
          refine Svd.gen_step hE hΩ (Svd.near_sq Nk) (Svd.hfrom_orth (d := fun j => j + 1) HN) p ?_
          refine Svd.hh_cols hE hW hnN (fun j hj => ?_) fun i j hi hj => ?_
          · have hN0 := nrm_nonneg (S := Ico (k + 1) n) (x := fun i => Svd.P (k + 1) (vals t.f) i j)
            by_cases c1 : j < k + 1
            · refine Svd.nrm_same hE hW hN0 fun i hi => ?_
              obtain ⟨i1, i2⟩ := mem_Ico.1 hi
              rw [Svd.P_lo c1, sum_congr rfl (g := fun r => vR k r *
                (if r = j then (1 : ℝ) else 0)) fun r _ => by rw [Svd.P_lo (by omega)],
                Svd.sum_unit _ _ (by omega), if_neg (show ¬ k + 1 ≤ j by omega)]
              by_cases c2 : j = k
              · subst c2
                rw [Svd.P_hi (by omega)]
                unfold vals
                rw [q3 i i2, Svd.vunit]; ring
              · rw [Svd.P_lo (by omega)]; ring
            · have hP : ∀ r, Svd.P (k + 1) (vals t.f) r j = val (t.f r j) := fun r => Svd.P_hi (by omega)
              have hP' : ∀ r, Svd.P k (vals t'.f) r j = val (t'.f r j) := fun r => Svd.P_hi (by omega)
              simp only [hP, hP'] at hN0 ⊢
              by_cases c : val (e.f k) = 0
              · refine Svd.nrm_same hE hW hN0 fun i hi => ?_
                rw [q2 (fun q => (Svd.eq_zero_false fk).1 q.2 c) i j (by omega), Nk.no c]
                ring
              · obtain ⟨r1, -⟩ := q1 ⟨hk, (Svd.eq_zero_false fk).2 c⟩
                refine Nk.refl (by omega) hnN he hM c (z := fun r => t.f r j) (z' := fun r => t'.f r j)
                  (fun i i1 i2 => ?_) fun i i1 i2 => F i j i2 (by omega) hj
                rw [r1 i j (by omega) i2 (by omega) hj]
                congr 1
                exact funext fun r => g4 r k (by omega)
          · by_cases c1 : j < k
            · rw [Svd.P_lo c1, Svd.P_lo (show j < k + 1 by omega)]
            · rw [Svd.P_hi c1]
              unfold vals
              by_cases c2 : j = k
              · subst c2
                rw [Svd.P_lo (by omega), q3 i (by omega), Svd.vunit]
              · rw [Svd.P_hi (by omega)]
                by_cases c : val (e.f k) = 0
                · rw [q2 (fun q => (Svd.eq_zero_false fk).1 q.2 c) i j (by omega)]
                · obtain ⟨-, r2⟩ := q1 ⟨hk, (Svd.eq_zero_false fk).2 c⟩
                  rw [r2 i j (by omega) (by omega)]
        · have p := p2 vR bR HN
          rw [hfrom, show nrt - (k + 1) = 0 by omega] at p
          rw [hfrom, show nrt - k = 0 by omega]
          rw [show mx n n (Svd.P k (vals t'.f)) = mx n n (Svd.P (k + 1) (vals t.f)) from ?_]
          · exact p
          · refine mx_congr fun i j hi hj => ?_
            by_cases c1 : j < k
            · rw [Svd.P_lo c1, Svd.P_lo (show j < k + 1 by omega)]
            · rw [Svd.P_hi c1]
              unfold vals
              by_cases c2 : j = k
              · rw [Svd.P_lo (by omega), c2, q3 i hi, Svd.vunit]
              · rw [Svd.P_hi (show ¬ j < k + 1 by omega), q2 (by omega) i j (by omega)]))
  refine ⟨v', e2, fun F => ?_⟩
  obtain ⟨a1, a2⟩ := h3 fun i j hi _ hj => F i j hi hj
  refine ⟨fun j hj => a1 j (Nat.zero_le _) hj, fun vR bR HN => ?_⟩
  have := a2 vR bR HN
  rw [hfrom_zero, Nat.sub_zero] at this
  rwa [show mx n n (Svd.P 0 (vals v'.f)) = mx n n (vals v'.f) from mx_congr fun i j _ _ => by rw [Svd.P_hi (by omega)]] at this

/-- The columns of the identity are orthonormal. -/
theorem Svd.I_orth (hm : n ≤ m) : (Svd.I (K := ℝ) m n)ᵀ * Svd.I (K := ℝ) m n = 1 := by
  unfold Svd.I
  rw [mx_transpose, mx_mul, ← mx_one]
  refine mx_congr fun i j hi hj => ?_
  rw [sum_eq_single i]
  · rw [if_pos rfl, one_mul]
  · intro k _ hk
    rw [if_neg hk, zero_mul]
  · intro h
    exact absurd (mem_range.2 (by omega)) h

set_option maxHeartbeats 1000000 in
/-- The bidiagonal form with its factors. -/
theorem Svd.reduce_round {hyp : α → α → α} {ε : ℝ} {N : Nat} (hmN : m ≤ N) (he : Rnd.u α ≤ ε)
    (hM : (N + 4) * ε ≤ 1 / 250) (H : HypNear ε hyp) (hn : 0 < n) (hm : n ≤ m) (a : Tab α m n) :
    ∃ x, Svd.reduce hyp a = .ok x ∧ val (x.e.f (n - 1)) = 0 ∧ ((∀ i, i < n → fin (x.s.f i)) → (∀ i, i < n → fin (x.e.f i)) →
      (∀ i j, i < m → j < n → fin (x.u.f i j)) → (∀ i j, i < n → j < n → fin (x.v.f i j)) →
      (∀ i j, i < m → j < n → fin (a.f i j)) ∧
      ∃ (U : Matrix (Fin m) (Fin n) ℝ) (V : Matrix (Fin n) (Fin n) ℝ), Uᵀ * U = 1 ∧ Vᵀ * V = 1 ∧
        fro (mx m n (vals x.u.f) - U) ≤
          rotErr (svdE N ε) (√N * (7 * (N * η α))) 0 (fro (Svd.I (K := ℝ) m n)) (2 * n) ∧
        fro (mx n n (vals x.v.f) - V) ≤
          rotErr (svdE N ε) (√N * (7 * (N * η α))) 0 (fro (1 : Matrix (Fin n) (Fin n) ℝ)) (2 * n) ∧
        fro (mx m n (vals a.f) - U * mx n n (Bi.bEnt (vals1 x.s.f) (vals1 x.e.f)) * Vᵀ) ≤
          rotErr (svdE N ε) (√N * (7 * (N * η α))) 0 (fro (mx m n (vals a.f))) (2 * n)) := by
  have hη := η_nonneg (α := α)
  have e0 : 0 ≤ ε := (u_nonneg (α := α)).trans he
  have hE : 0 ≤ svdE N ε := by unfold svdE; positivity
  have hΩ : 0 ≤ √N * (7 * (N * Rnd.η α)) := by positivity
  unfold Svd.reduce
  rw [show max (min (m - 1) n) (n - 2) = min (m - 1) n by omega]
  generalize hnct : min (m - 1) n = nct
  generalize hnrt : n - 2 = nrt
  obtain ⟨w, e1, hup, hfa, hw⟩ := Wp.exists_ok (wp_forUp (ε := Fault) (a := 0) (b := nct)
    (body := Svd.redStep hyp nct nrt) (s := ⟨a, Row.zero n, Row.zero n, Jag.zero m _, Jag.zero n _⟩)
    (E := fun _ => False)
    (fun k (w : Svd.Red α m n) => (∀ i j, i < j → w.u.f i j = Flt.zero) ∧
      (Svd.RdFin m n nrt k w.a.f w.s.f w.e.f w.u.f w.v.f → ∀ i j, i < m → j < n → fin (a.f i j)) ∧
      (Svd.RdFin m n nrt k w.a.f w.s.f w.e.f w.u.f w.v.f →
        Svd.RdNear m n nrt N ε (vals a.f) k w.a.f w.s.f w.e.f w.u.f w.v.f)) (Nat.zero_le _)
    (by
      refine ⟨fun _ _ _ => rfl, fun F i j hi hj => F.rest i j (Nat.zero_le _) hi (Nat.zero_le _) hj, fun _ =>
        ⟨fun _ _ => 0, fun _ => 0, fun _ _ => 0, fun _ => 0, fun j h => by omega, fun j h => by omega, ?_⟩⟩
      rw [Nat.zero_min, hprod, hprod, Matrix.transpose_one, Matrix.one_mul, Matrix.mul_one, rotErr_zero]
      rw [show mx m n (Svd.M nrt 0 (vals a.f) (vals1 (Row.zero (α := α) n).f) (vals1 (Row.zero (α := α) n).f)) = mx m n (vals a.f) from
        mx_congr fun i j hi hj => by rw [Svd.M, if_neg (by omega), if_neg (by omega)], sub_self]
      unfold fro
      simp)
    (fun k w _ g2 ⟨g3, g4, g5⟩ => by
      obtain ⟨w', e, q1, q2⟩ := Svd.RdNear.step hmN he hM H g2 (by omega) hm (by omega) g5 g3
      exact wp_of_eq_ok e ⟨q1, fun F => g4 (q2 F).1, fun F => (q2 F).2⟩))
  rw [e1, ok_bind, Svd.lastEntries_ok hn hm, ok_bind]
  dsimp only
  generalize hs : (if nct < n then upd1 w.s.f nct (w.a.f nct nct) else w.s.f) = s
  generalize hee : upd1 (if nrt + 1 < n then upd1 w.e.f nrt (w.a.f nrt (n - 1)) else w.e.f) (n - 1) Flt.zero = e
  have hsj : ∀ j, j < nct → s j = w.s.f j := fun j hj => by
    rw [← hs]
    split_ifs
    · rw [upd1_eq, if_neg (by omega)]
    · rfl
  have hsn : nct < n → s nct = w.a.f nct nct := fun h => by rw [← hs, if_pos h, upd1_eq, if_pos rfl]
  have hej : ∀ j, j < nrt → e j = w.e.f j := fun j hj => by
    rw [← hee, upd1_eq, if_neg (by omega)]
    split_ifs
    · rw [upd1_eq, if_neg (by omega)]
    · rfl
  have hen : nrt + 1 < n → e nrt = w.a.f nrt (n - 1) := fun h => by
    rw [← hee, upd1_eq, if_neg (by omega), if_pos h, upd1_eq, if_pos rfl]
  have hez : e (n - 1) = Flt.zero := by rw [← hee, upd1_eq, if_pos rfl]
  obtain ⟨u, e2⟩ := Svd.genU_safe (show nct ≤ n by omega) hm ⟨s⟩ w.u hup
  rw [e2, ok_bind]
  obtain ⟨v, e3⟩ := Svd.genV_safe (show nrt < n by omega) ⟨e⟩ w.v
  rw [e3, ok_bind]
  refine ⟨_, rfl, by dsimp only; rw [hez, val_zero], fun fs fe fu fv => ?_⟩
  dsimp only at fs fe fu fv ⊢
  obtain ⟨u2, e2', hu⟩ := Svd.genU_round (show nct ≤ n by omega) hm hmN he hM ⟨s⟩ w.u hup fun j hj => fs j (by omega)
  obtain rfl : u = u2 := Except.ok.inj (e2.symm.trans e2')
  obtain ⟨v2, e3', hv⟩ := Svd.genV_round (show nrt + 2 ≤ n ∨ nrt = 0 by omega) hn (hm.trans hmN) he hM ⟨e⟩ w.v
    fun j hj => fe j (by omega)
  obtain rfl : v = v2 := Except.ok.inj (e3.symm.trans e3')
  obtain ⟨hu1, hu2⟩ := hu fu
  obtain ⟨hv1, hv2⟩ := hv fv
  dsimp only at hu1 hu2 hv1 hv2
  have F : Svd.RdFin m n nrt nct w.a.f w.s.f w.e.f w.u.f w.v.f := by
    refine ⟨fun j hj => ?_, fun j hj => ?_, fun j hj c => ?_, fun j hj c => ?_, fun i j i1 i2 j1 j2 => ?_,
      fun i j i1 i2 j1 j2 => ?_⟩
    · rw [← hsj j hj]; exact fs j (by omega)
    · rw [← hej j (by omega)]; exact fe j (by omega)
    · exact hu1 j hj (by rw [hsj j hj]; exact c)
    · exact hv1 j (by omega) (by rw [hej j (by omega)]; exact c)
    · obtain rfl : i = nct := by omega
      obtain rfl : j = i := by omega
      rw [← hsn (by omega)]
      exact fs _ (by omega)
    · obtain rfl : i = nrt := by omega
      obtain rfl : j = n - 1 := by omega
      rw [← hen (by omega)]
      exact fe _ (by omega)
  obtain ⟨vL, bL, vR, bR, p1, p2, p3⟩ := hw F
  rw [show min nct nrt = nrt by omega] at p2 p3
  obtain ⟨oL, oL'⟩ := Svd.near_orth (d := fun j => j) p1
  obtain ⟨oR, oR'⟩ := Svd.near_orth (d := fun j => j + 1) p2
  have gU := hu2 vL bL fun j hj => by rw [hsj j hj]; exact p1 j hj
  have gV := hv2 vR bR fun j hj => by rw [hej j hj]; exact p2 j hj
  have hB : mx m n (Svd.M nrt nct (vals w.a.f) (vals1 w.s.f) (vals1 w.e.f)) =
      Svd.I m n * mx n n (Bi.bEnt (vals1 s) (vals1 e)) := by
    unfold Svd.I
    rw [mx_mul]
    refine mx_congr fun i j hi hj => ?_
    have hsum : ∑ k ∈ range n, (if i = k then (1 : ℝ) else 0) * Bi.bEnt (vals1 s) (vals1 e) k j =
        if i < n then Bi.bEnt (vals1 s) (vals1 e) i j else 0 := by
      by_cases c : i < n
      · rw [if_pos c, sum_eq_single i]
        · rw [if_pos rfl, one_mul]
        · intro k _ hk
          rw [if_neg (Ne.symm hk), zero_mul]
        · intro h
          exact absurd (mem_range.2 c) h
      · rw [if_neg c]
        refine sum_eq_zero fun k hk => ?_
        have := mem_range.1 hk
        rw [if_neg (by omega), zero_mul]
    rw [hsum]
    unfold Svd.M Bi.bEnt vals1 vals
    rw [Exact.zero_eq]
    split_ifs <;>
      first
        | rfl
        | (exfalso; omega)
        | rw [hsj _ (by omega)]
        | rw [hej _ (by omega)]
        | (obtain rfl : i = nrt := by omega
           obtain rfl : j = n - 1 := by omega
           exact congrArg val (hen (by omega)).symm)
        | (obtain rfl : i = nct := by omega
           obtain rfl : j = i := by omega
           exact congrArg val (hsn (by omega)).symm)
  rw [hB] at p3
  have mono : ∀ {b : ℝ} {k : Nat}, 0 ≤ b → k ≤ 2 * n → rotErr (svdE N ε) (√N * (7 * (N * Rnd.η α))) 0 b k ≤
      rotErr (svdE N ε) (√N * (7 * (N * Rnd.η α))) 0 b (2 * n) := fun hb hk => rotErr_mono hE hΩ le_rfl hb hk
  have fnn : ∀ {p q : Nat} (M : Matrix (Fin p) (Fin q) ℝ), 0 ≤ fro M := fun M => Real.sqrt_nonneg _
  generalize hprod m (fun j => hh m j (vL j) (bL j)) nct = L at *
  generalize hprod n (fun j => hh n (j + 1) (vR j) (bR j)) nrt = R at *
  refine ⟨hfa F, L * Svd.I m n, R, ?_, oR', gU.trans (mono (fnn _) (by omega)), gV.trans (mono (fnn _) (by omega)),
    le_trans (le_of_eq ?_) (p3.trans (mono (fnn _) (by omega)))⟩
  · rw [Matrix.transpose_mul, Matrix.mul_assoc, ← Matrix.mul_assoc Lᵀ, oL', Matrix.one_mul, Svd.I_orth hm]
  · have key : mx m n (vals a.f) - L * (Svd.I m n : Matrix (Fin m) (Fin n) ℝ) * mx n n (Bi.bEnt (vals1 s) (vals1 e)) * Rᵀ =
        -(L * (((Svd.I m n * mx n n (Bi.bEnt (vals1 s) (vals1 e)) : Matrix (Fin m) (Fin n) ℝ) - Lᵀ * mx m n (vals a.f) * R) * Rᵀ)) := by
      rw [Matrix.sub_mul, Matrix.mul_sub, Matrix.mul_assoc (Lᵀ * _) R, oR, Matrix.mul_one, ← Matrix.mul_assoc L Lᵀ, oL,
        Matrix.one_mul, neg_sub]
      simp only [Matrix.mul_assoc]
    rw [key, fro_neg, fro_left oL', fro_right (by rw [Matrix.transpose_transpose]; exact oR')]

end Linear
