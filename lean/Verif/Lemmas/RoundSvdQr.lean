import Verif.Lemmas.RoundSvdIter

/-!
# The QR step of the iteration of the singular value decomposition in rounded arithmetic
-/

set_option linter.unusedSectionVars false

namespace Linear

open Spec Rnd Matrix
open Finset hiding val diag

variable {α : Type} [Flt α] [Rnd α] {m n : Nat} {ε ω : ℝ} {U₀ : Matrix (Fin m) (Fin n) ℝ} {V₀ B₀ : Matrix (Fin n) (Fin n) ℝ}
  {N K : Nat} {hyp : α → α → α} {x : Svd.St α m n}

theorem Svd.VStep.good (C : Svd.Cx ε ω B₀ N hyp) (hK : K ≤ N) {k j : Nat} (g1 : k ≤ j) (hj : j + 1 < n)
    {w w' : Svd.Ch α m n} (D : Svd.VStep k j (hyp w.f w.g) w w')
    (h : Svd.Good ε ω U₀ V₀ B₀ K (Svd.WC k j (val w.f) (val w.g) (Svd.vf w.x.s.f) (Svd.vf w.x.e.f)) w.x)
    (h3 : 0 < k → val (w.x.e.f (k - 1)) = 0) (hf : Svd.tfin w'.x.v) :
    Svd.Good ε ω U₀ V₀ B₀ (K + 1) (Svd.WM j (val w'.f) (val w'.g) (Svd.vf w'.x.s.f) (Svd.vf w'.x.e.f)) w'.x := by
  obtain ⟨fc, fs, -⟩ := Svd.turned_fin (by omega) (show j < n by omega) D.v hf
  obtain ⟨c, s, r, hP, -, -, ft, hr, ht, t2, t3⟩ := C.near.pair C.ue C.e1 fc fs
  obtain ⟨c1, s1⟩ := hP.bounds
  have H := h.scale C hK
  have ent := fun a b (ha : a < n) (hb : b < n) => mx_entry (n := n)
    (Svd.WC k j (val w.f) (val w.g) (Svd.vf w.x.s.f) (Svd.vf w.x.e.f)) (a := a) (b := b) ha hb
  have bs0 : |val (w.x.s.f j)| ≤ _ := ent j j (by omega) (by omega)
    |> le_trans (by unfold Svd.WC; rw [if_neg (by omega), Svd.bEnt_exact, if_pos rfl]; rfl)
  have bs1 : |val (w.x.s.f (j + 1))| ≤ _ := ent (j + 1) (j + 1) (by omega) (by omega)
    |> le_trans (by unfold Svd.WC; rw [if_neg (by omega), Svd.bEnt_exact, if_pos rfl]; rfl)
  have be : |val (w.x.e.f j)| ≤ _ := ent j (j + 1) (by omega) (by omega)
    |> le_trans (by unfold Svd.WC; rw [if_neg (by omega), Svd.bEnt_exact, if_neg (by omega), if_pos rfl]; rfl)
  have bf : j ≠ k → |val w.f| ≤ _ := fun hjk => ent (j - 1) j (by omega) (by omega)
    |> le_trans (by unfold Svd.WC; rw [if_pos (by omega), if_neg (by omega), if_pos (by omega)])
  have bg : j ≠ k → |val w.g| ≤ _ := fun hjk => ent (j - 1) (j + 1) (by omega) (by omega)
    |> le_trans (by unfold Svd.WC; rw [if_pos (by omega), if_neg (by omega), if_neg (by omega), if_pos (by omega)])
  clear ent
  generalize hβ : fro (mx n n (Svd.WC k j (val w.f) (val w.g) (Svd.vf w.x.s.f) (Svd.vf w.x.e.f))) = β at *
  have hκ0 := H.unit.κ0
  have hδ : 0 ≤ 25 * (ε * β + ω) := by linarith
  have et : j ≠ k → _ := fun hjk => H.hyp hr (bf hjk) (bg hjk) ht
  have Ds := D.s
  have De := D.e
  have Df := D.f
  have Dg := D.g
  have Du := D.u
  have Dv := D.v
  generalize hyp w.f w.g = t at *
  have q1 := H.mul hP.fc hP.ec c1 (h.s j (by omega)) bs0
  have q2 := H.mul hP.fs hP.es s1 (h.e j (by omega)) be
  have q3 := H.mul hP.fc hP.ec c1 (h.e j (by omega)) be
  have q4 := H.mul hP.fs hP.es s1 (h.s j (by omega)) bs0
  have q5 := H.mul hP.fc hP.ec c1 (h.s (j + 1) (by omega)) bs1
  have q6 := H.mul hP.fs hP.es s1 (h.s (j + 1) (by omega)) bs1
  obtain ⟨a1, a2⟩ := H.add q1 q2
  obtain ⟨b1, b2⟩ := H.sub q3 q4
  have vs := (congrArg Svd.vf Ds).trans (Svd.vf_upd _ _ _)
  have ve := (congrArg Svd.vf De).trans (Svd.vf_upd _ _ _)
  have z : ∀ (f : Nat → ℝ) (a : Nat), |f a - f a| ≤ 25 * (ε * β + ω) := fun f a => by rw [sub_self, abs_zero]; exact hδ
  refine h.turnV C (show j < n by omega) hj (by omega) hP ?_ ?_ Du Dv hf
    (fun a b _ _ => Svd.WV_step g1 (fun _ => t2) (fun _ => t3) (s := Svd.vf w.x.s.f) (e := Svd.vf w.x.e.f) rfl rfl rfl rfl
      h3 a b) ?_
  · rw [Ds]; exact Svd.upd_fin h.s q5.fin
  · rw [De]
    split_ifs
    · exact Svd.upd_fin (Svd.upd_fin h.e ft) b1
    · exact Svd.upd_fin h.e b1
  · rw [hβ]
    refine Svd.WM_cmp hδ ?_ ?_ (i₁ := j + 1) (i₂ := j + 1) (j₁ := j) (j₂ := j - 1) ?_ ?_
    · rw [Df]; exact a2
    · rw [Dg]; exact H.e25 q6
    · rw [vs]
      exact Svd.Cmp.one _ (H.e25 q5) (z _) fun _ _ => rfl
    · rw [ve]
      refine Svd.Cmp.upd _ b2 ?_
      by_cases hjk : j ≠ k
      · rw [if_pos hjk, if_pos hjk, Svd.vf_upd]
        exact Svd.Cmp.one _ (et hjk) (z _) fun _ _ => rfl
      · rw [if_neg hjk, if_neg hjk]
        exact Svd.Cmp.refl hδ _ _ _

theorem Svd.UStep.good (C : Svd.Cx ε ω B₀ N hyp) (hK : K ≤ N) {k j : Nat} (g1 : k ≤ j) (hj : j + 1 < n) (hm : n ≤ m)
    {w w' : Svd.Ch α m n} (D : Svd.UStep j (hyp w.f w.g) w w')
    (h : Svd.Good ε ω U₀ V₀ B₀ K (Svd.WM j (val w.f) (val w.g) (Svd.vf w.x.s.f) (Svd.vf w.x.e.f)) w.x)
    (hl : n ≤ j + 2 → val (w.x.e.f (j + 1)) = 0) (hf : Svd.tfin w'.x.u) :
    Svd.Good ε ω U₀ V₀ B₀ (K + 1) (Svd.WC k (j + 1) (val w'.f) (val w'.g) (Svd.vf w'.x.s.f) (Svd.vf w'.x.e.f)) w'.x ∧
      fin w'.f ∧ fin w'.g := by
  obtain ⟨fc, fs, -⟩ := Svd.turned_fin (by omega) (show j < n by omega) D.u hf
  obtain ⟨c, s, r, hP, -, -, ft, hr, ht, t2, t3⟩ := C.near.pair C.ue C.e1 fc fs
  obtain ⟨c1, s1⟩ := hP.bounds
  have H := h.scale C hK
  have ent := fun a b (ha : a < n) (hb : b < n) => mx_entry (n := n)
    (Svd.WM j (val w.f) (val w.g) (Svd.vf w.x.s.f) (Svd.vf w.x.e.f)) (a := a) (b := b) ha hb
  have bs1 : |val (w.x.s.f (j + 1))| ≤ _ := ent (j + 1) (j + 1) (by omega) (by omega)
    |> le_trans (by unfold Svd.WM; rw [if_neg (by omega), if_pos rfl, if_neg (by omega), if_pos rfl]; rfl)
  have be : |val (w.x.e.f j)| ≤ _ := ent j (j + 1) (by omega) (by omega)
    |> le_trans (by unfold Svd.WM; rw [if_pos rfl, if_neg (by omega), if_pos rfl]; rfl)
  have bf : |val w.f| ≤ _ := ent j j (by omega) (by omega)
    |> le_trans (by unfold Svd.WM; rw [if_pos rfl, if_pos rfl])
  have bg : |val w.g| ≤ _ := ent (j + 1) j (by omega) (by omega)
    |> le_trans (by unfold Svd.WM; rw [if_neg (by omega), if_pos rfl, if_pos rfl])
  have be1 : |val (w.x.e.f (j + 1))| ≤
      fro (mx n n (Svd.WM j (val w.f) (val w.g) (Svd.vf w.x.s.f) (Svd.vf w.x.e.f))) := by
    by_cases cl : n ≤ j + 2
    · rw [hl cl, abs_zero]; exact fro_nonneg _
    · exact ent (j + 1) (j + 2) (by omega) (by omega)
        |> le_trans (by
          unfold Svd.WM
          rw [if_neg (by omega), if_pos rfl, if_neg (by omega), if_neg (by omega), if_pos rfl]; rfl)
  clear ent
  generalize hβ : fro (mx n n (Svd.WM j (val w.f) (val w.g) (Svd.vf w.x.s.f) (Svd.vf w.x.e.f))) = β at *
  have hκ0 := H.unit.κ0
  have hδ : 0 ≤ 25 * (ε * β + ω) := by linarith
  have et := H.hyp hr bf bg ht
  have Ds := D.s
  have De := D.e
  have Df := D.f
  have Dg := D.g
  have Du := D.u
  have Dv := D.v
  generalize hyp w.f w.g = t at *
  have q1 := H.mul hP.fc hP.ec c1 (h.e j (by omega)) be
  have q2 := H.mul hP.fs hP.es s1 (h.s (j + 1) (by omega)) bs1
  have q3 := H.neg_mul hP.fs hP.es s1 (h.e j (by omega)) be
  have q4 := H.mul hP.fc hP.ec c1 (h.s (j + 1) (by omega)) bs1
  have q5 := H.mul hP.fc hP.ec c1 (h.e (j + 1) (by omega)) be1
  have q6 := H.mul hP.fs hP.es s1 (h.e (j + 1) (by omega)) be1
  obtain ⟨a1, a2⟩ := H.add q1 q2
  obtain ⟨b1, b2⟩ := H.add q3 q4
  have vs := (congrArg Svd.vf Ds).trans (Svd.vf_upd _ _ _)
  rw [Svd.vf_upd] at vs
  have ve := (congrArg Svd.vf De).trans (Svd.vf_upd _ _ _)
  have z : ∀ (f : Nat → ℝ) (a : Nat), |f a - f a| ≤ 25 * (ε * β + ω) := fun f a => by rw [sub_self, abs_zero]; exact hδ
  refine ⟨h.turnU C (show j < n by omega) hj (by omega) hP ?_ ?_ Dv Du hf
    (fun a b _ _ => Svd.WU_step g1 t2 t3 (s := Svd.vf w.x.s.f) (e := Svd.vf w.x.e.f) rfl rfl rfl rfl a b) ?_, ?_, ?_⟩
  · rw [Ds]; exact Svd.upd_fin (Svd.upd_fin h.s ft) b1
  · rw [De]; exact Svd.upd_fin h.e q5.fin
  · rw [hβ]
    refine Svd.WC_cmp hδ ?_ ?_ (i₁ := j + 1) (i₂ := j) (j₁ := j + 1) (j₂ := j + 1) ?_ ?_
    · rw [Df]; exact a2
    · rw [Dg]; exact H.e25 q6
    · rw [vs]
      exact Svd.Cmp.upd _ b2 (Svd.Cmp.one _ et (z _) fun _ _ => rfl)
    · rw [ve]
      exact Svd.Cmp.one _ (H.e25 q5) (z _) fun _ _ => rfl
  · rw [Df]; exact a1
  · rw [Dg]; exact q6.fin

theorem Svd.qr_good (C : Svd.Cx ε ω B₀ N hyp) {p k : Nat} (hk : k < p - 1) (hp : p ≤ n) (hm : n ≤ m) (hK : K + 2 * n ≤ N)
    {R : Prop} (hx : Svd.tfin x.u → Svd.tfin x.v →
      Svd.Good ε ω U₀ V₀ B₀ K (Bi.bEnt (Svd.vf x.s.f) (Svd.vf x.e.f)) x ∧ R)
    (h3 : 0 < k → val (x.e.f (k - 1)) = 0) (h4 : Svd.tfin x.u → Svd.tfin x.v → val (x.e.f (p - 1)) = 0) :
    ∃ x', Svd.qr hyp p k x = .ok x' ∧ (Svd.tfin x'.u → Svd.tfin x'.v →
      Svd.Good ε ω U₀ V₀ B₀ (K + 2 * n) (Bi.bEnt (Svd.vf x'.s.f) (Svd.vf x'.e.f)) x' ∧ val (x'.e.f (p - 1)) = 0 ∧ R) ∧
      ∀ i, p ≤ i → x'.e.f i = x.e.f i ∧ x'.s.f i = x.s.f i := by
  unfold Svd.qr
  rw [Row.get_ok (by omega), ok_bind, Row.get_ok (by omega), ok_bind, Row.get_ok (by omega), ok_bind,
    Row.get_ok (by omega), ok_bind, Row.get_ok (by omega), ok_bind]
  generalize Svd.first (x.s.f (p - 1)) (x.s.f (p - 2)) (x.e.f (p - 2)) (x.s.f k) (x.e.f k) = fg at *
  obtain ⟨w, e, r1, r2⟩ := Wp.exists_ok (wp_forUp (ε := Fault) (a := k) (b := p - 1)
    (body := Svd.chase hyp k) (s := (⟨fg.1, fg.2, x⟩ : Svd.Ch α m n)) (E := fun _ => False)
    (fun j (w : Svd.Ch α m n) => (Svd.tfin w.x.u → Svd.tfin w.x.v →
      Svd.Good ε ω U₀ V₀ B₀ (K + 2 * (j - k)) (Svd.WC k j (val w.f) (val w.g) (Svd.vf w.x.s.f) (Svd.vf w.x.e.f)) w.x ∧
        (k < j → fin w.f) ∧ (j = p - 1 → val w.g = 0) ∧ (0 < k → val (w.x.e.f (k - 1)) = 0) ∧
        val (w.x.e.f (p - 1)) = 0 ∧ R) ∧
      ∀ a, p ≤ a → w.x.e.f a = x.e.f a ∧ w.x.s.f a = x.s.f a) (by omega)
    ⟨fun hu hv => by
      refine ⟨?_, fun h => by omega, fun h => by omega, h3, h4 hu hv, (hx hu hv).2⟩
      rw [Nat.sub_self]
      refine (hx hu hv).1.congr fun a b _ _ => ?_
      rw [Svd.WC, if_neg (by omega)],
     fun a ha => ⟨rfl, rfl⟩⟩
    (fun j w g1 g2 ⟨q1, q2⟩ => by
      unfold Svd.chase
      obtain ⟨w1, e1, D1⟩ := Svd.chaseV_ok g1 (show j + 1 < n by omega) (hyp w.f w.g) w
      obtain ⟨w2, e2, D2⟩ := Svd.chaseU_ok (show j + 1 < n by omega) hm (hyp w1.f w1.g) w1
      rw [e1, ok_bind]
      have E1 : ∀ a, a ≠ j → a ≠ j - 1 → w1.x.e.f a = w.x.e.f a := fun a c c' => by
        rw [D1.e, upd1_eq, if_neg c]
        split_ifs
        · rw [upd1_eq, if_neg c']
        · rfl
      have E2 : ∀ a, a ≠ j + 1 → w2.x.e.f a = w1.x.e.f a := fun a c => by rw [D2.e, upd1_eq, if_neg c]
      refine wp_of_eq_ok e2 ⟨fun hu hv => ?_, fun a ha => ?_⟩
      · obtain ⟨-, -, hu'⟩ := Svd.turned_fin (by omega) (show j < n by omega) D2.u hu
        have hv1 : Svd.tfin w1.x.v := by rw [← D2.v]; exact hv
        obtain ⟨-, -, hv'⟩ := Svd.turned_fin (by omega) (show j < n by omega) D1.v hv1
        obtain ⟨a1, a2, a3, a4, a5, hR⟩ := q1 (by rw [← D1.u]; exact hu') hv'
        have b1 := D1.good C (by omega) g1 (by omega) a1 a4 hv1
        have hl : j + 1 = p - 1 → val (w1.x.e.f (j + 1)) = 0 := fun hc => by
          rw [E1 _ (by omega) (by omega), hc]; exact a5
        obtain ⟨c1, c2, c3⟩ := D2.good C (by omega) g1 (by omega) hm b1 (fun hc => hl (by omega)) hu
        refine ⟨c1.mono C (by omega), fun _ => c2, fun hc => ?_, fun hk0 => ?_, ?_, hR⟩
        · rw [D2.g] at c3 ⊢
          exact mul_zero_val c3 (hl hc)
        · rw [E2 _ (by omega)]
          by_cases hjk : j = k
          · rw [D1.e, if_neg (by omega), upd1_eq, if_neg (by omega)]; exact a4 hk0
          · rw [E1 _ (by omega) (by omega)]; exact a4 hk0
        · by_cases hc : p - 1 = j + 1
          · have := c1.e (j + 1) (by omega)
            rw [hc]
            rw [D2.e, upd1_eq, if_pos rfl] at this ⊢
            exact mul_zero_val this (hl (by omega))
          · rw [E2 _ hc, E1 _ (by omega) (by omega)]; exact a5
      · rw [E2 _ (by omega), E1 _ (by omega) (by omega), D2.s, upd1_eq, if_neg (by omega), upd1_eq, if_neg (by omega), D1.s,
          upd1_eq, if_neg (by omega)]
        exact q2 a ha))
  rw [e, ok_bind, Row.set_ok (by omega), ok_bind]
  refine ⟨_, rfl, fun hu hv => ?_, fun i hi => ?_⟩
  · obtain ⟨a1, a2, a3, a4, a5, hR⟩ := r1 hu hv
    have a1 := a1.mono C (L := K + 2 * n) (by omega)
    refine ⟨⟨a1.s, Svd.upd_fin a1.e (a2 (by omega)), ?_⟩, ?_, hR⟩
    · refine cast ?_ a1.near
      congr 1
      refine mx_congr fun a b _ _ => ?_
      dsimp only
      rw [Svd.vf_upd]
      unfold Svd.WC
      simp only [Svd.bEnt_exact, upd1_eq]
      rw [a3 rfl]
      by_cases ca : a = p - 2
      · split_ifs <;> first | rfl | (exfalso; omega)
      · split_ifs <;> first | rfl | (exfalso; omega)
    · dsimp only
      rw [upd1_eq, if_neg (by omega)]; exact a5
  · dsimp only
    rw [upd1_eq, if_neg (by omega)]
    exact r2 i hi

end Linear
