import Verif.Lemmas.RoundSvdStep

/-!
# The three cases of the iteration of the singular value decomposition in rounded arithmetic
-/

set_option linter.unusedSectionVars false

namespace Linear

open Spec Rnd Matrix
open Finset hiding val diag

variable {α : Type} [Flt α] [Rnd α] {m n : Nat}

/-- The assumptions about the arithmetic: `ω` bounds the absolute errors, and the norm of `B₀` leaves room for `N` steps. -/
structure Svd.Cx (ε ω : ℝ) (B₀ : Matrix (Fin n) (Fin n) ℝ) (N : Nat) (hyp : α → α → α) : Prop where
  ue : Rnd.u α ≤ ε
  e1 : ε ≤ 1 / 100
  ηω : η α ≤ ω
  ω1 : ω ≤ 1 / 100
  room : Svd.Room α ε ω B₀ N
  near : Spec.HypNear ε hyp

/-- The state is finite and represents `W`. -/
structure Svd.Good (ε ω : ℝ) (U₀ : Matrix (Fin m) (Fin n) ℝ) (V₀ B₀ : Matrix (Fin n) (Fin n) ℝ) (K : Nat) (W : Nat → Nat → ℝ)
    (x : Svd.St α m n) : Prop where
  s : ∀ a, a < n → fin (x.s.f a)
  e : ∀ a, a < n → fin (x.e.f a)
  near : Svd.RNear α ε ω U₀ V₀ B₀ K (mx m n fun i y => val (x.u.f i y)) (mx n n fun i y => val (x.v.f i y)) (mx n n W)

variable {ε ω : ℝ} {U₀ : Matrix (Fin m) (Fin n) ℝ} {V₀ B₀ : Matrix (Fin n) (Fin n) ℝ} {N K : Nat} {hyp : α → α → α}
  {W : Nat → Nat → ℝ} {x : Svd.St α m n}

theorem Svd.Cx.e0 (C : Svd.Cx ε ω B₀ N hyp) : 0 ≤ ε := (u_nonneg (α := α)).trans C.ue
theorem Svd.Cx.ω0 (C : Svd.Cx ε ω B₀ N hyp) : 0 ≤ ω := (η_nonneg (α := α)).trans C.ηω

theorem Svd.Good.scale (C : Svd.Cx ε ω B₀ N hyp) (hK : K ≤ N) (h : Svd.Good ε ω U₀ V₀ B₀ K W x) :
    Svd.Scale α ε (ε * fro (mx n n W) + ω) (fro (mx n n W)) := by
  have h0 := fro_nonneg (mx n n W)
  have h1 := mul_le_mul_of_nonneg_right C.e1 h0
  have h2 := mul_nonneg C.e0 h0
  have h3 := C.ηω
  have h4 := C.ω1
  have h5 := C.ω0
  exact ⟨⟨C.ue, C.e1, h0, by linarith, by linarith⟩, h.near.room C.e0 C.ω0 C.room hK, by linarith⟩

theorem mx_entry (W : Nat → Nat → ℝ) {a b : Nat} (ha : a < n) (hb : b < n) : |W a b| ≤ fro (mx n n W) :=
  fro_entry (mx n n W) ⟨a, ha⟩ ⟨b, hb⟩

theorem Svd.Good.mono (C : Svd.Cx ε ω B₀ N hyp) {L : Nat} (hKL : K ≤ L) (h : Svd.Good ε ω U₀ V₀ B₀ K W x) :
    Svd.Good ε ω U₀ V₀ B₀ L W x := ⟨h.s, h.e, h.near.mono C.e0 C.ω0 hKL⟩

theorem Svd.Good.congr {W' : Nat → Nat → ℝ} (h : Svd.Good ε ω U₀ V₀ B₀ K W x) (hW : ∀ a b, a < n → b < n → W' a b = W a b) :
    Svd.Good ε ω U₀ V₀ B₀ K W' x := ⟨h.s, h.e, by rw [mx_congr hW]; exact h.near⟩

theorem Svd.upd_fin {f : Nat → α} (h : ∀ a, a < n → fin (f a)) {i : Nat} {t : α} (ht : fin t) :
    ∀ a, a < n → fin (upd1 f i t a) := by
  intro a ha
  rw [upd1_eq]
  split
  · exact ht
  · exact h a ha

/-- A rotation of columns `a` and `b` of the matrix and of `V`. -/
theorem Svd.Good.turnV (C : Svd.Cx ε ω B₀ N hyp) {x' : Svd.St α m n} (h : Svd.Good ε ω U₀ V₀ B₀ K W x)
    {a b : Nat} (ha : a < n) (hb : b < n) (hab : a ≠ b) {c s : ℝ} {cs sn : α} (hP : Svd.Pair ε c s cs sn)
    (hs : ∀ a, a < n → fin (x'.s.f a)) (he : ∀ a, a < n → fin (x'.e.f a)) (hu : x'.u = x.u)
    (hv : ∀ i, i < n → x'.v.f i = Svd.rt a b cs sn (x.v.f i)) (hf : Svd.tfin x'.v) {W₁ W' : Nat → Nat → ℝ}
    (h1 : ∀ i j, i < n → j < n → W₁ i j = Svd.rt a b c s (W i) j)
    (h2 : fro (mx n n W' - mx n n W₁) ≤ 3 * (25 * (ε * fro (mx n n W) + ω))) : Svd.Good ε ω U₀ V₀ B₀ (K + 1) W' x' := by
  refine ⟨hs, he, ?_⟩
  rw [hu]
  have e1 : (mx n n fun i y => val (x'.v.f i y)) = mx n n fun i y => val (Svd.rt a b cs sn (x.v.f i) y) :=
    mx_congr fun i y hi _ => by rw [hv i hi]
  refine h.near.turnV C.e0 C.ω0 (H := Svd.R n a b c s) (Svd.R_orth ha hb hab hP.one) ?_ ?_
  · rw [e1]
    exact Svd.turn_near ha hb hab C.ue C.e1 hP fun i y hi hy => by
      have := hf i y hi hy
      rwa [hv i hi] at this
  · rw [← Svd.mul_R ha hb c s h1]
    linarith

/-- A rotation of rows `a` and `b` of the matrix and of the columns of `U`. -/
theorem Svd.Good.turnU (C : Svd.Cx ε ω B₀ N hyp) {x' : Svd.St α m n} (h : Svd.Good ε ω U₀ V₀ B₀ K W x)
    {a b : Nat} (ha : a < n) (hb : b < n) (hab : a ≠ b) {c s : ℝ} {cs sn : α} (hP : Svd.Pair ε c s cs sn)
    (hs : ∀ a, a < n → fin (x'.s.f a)) (he : ∀ a, a < n → fin (x'.e.f a)) (hv : x'.v = x.v)
    (hu : ∀ i, i < m → x'.u.f i = Svd.rt a b cs sn (x.u.f i)) (hf : Svd.tfin x'.u) {W₁ W' : Nat → Nat → ℝ}
    (h1 : ∀ i j, i < n → j < n → W₁ i j = Svd.rt a b c s (fun y => W y j) i)
    (h2 : fro (mx n n W' - mx n n W₁) ≤ 3 * (25 * (ε * fro (mx n n W) + ω))) : Svd.Good ε ω U₀ V₀ B₀ (K + 1) W' x' := by
  refine ⟨hs, he, ?_⟩
  rw [hv]
  have e1 : (mx m n fun i y => val (x'.u.f i y)) = mx m n fun i y => val (Svd.rt a b cs sn (x.u.f i) y) :=
    mx_congr fun i y hi _ => by rw [hu i hi]
  have e2 := Svd.mul_R (r := n) ha hb c s (u := fun j i => W i j) (u' := fun j i => W₁ i j)
    fun i j hi hj => h1 j i hj hi
  have e3 : mx n n W₁ = (Svd.R n a b c s)ᵀ * mx n n W := by
    rw [← Matrix.transpose_inj, Matrix.transpose_mul, Matrix.transpose_transpose]
    exact e2
  refine h.near.turnU C.e0 C.ω0 (G := Svd.R n a b c s) (Svd.R_orth ha hb hab hP.one) ?_ ?_
  · rw [e1]
    exact Svd.turn_near ha hb hab C.ue C.e1 hP fun i y hi hy => by
      have := hf i y hi hy
      rwa [hu i hi] at this
  · rw [← e3]
    linarith

theorem Svd.turned_fin {r a b : Nat} (hr : 0 < r) (ha : a < n) {cs sn : α} {t t' : Tab α r n}
    (h : ∀ i, i < r → t'.f i = Svd.rt a b cs sn (t.f i)) (hf : Svd.tfin t') : fin cs ∧ fin sn ∧ Svd.tfin t := by
  have h1 : ∀ i, i < r → fin cs ∧ fin sn ∧ ∀ y, y < n → fin (t.f i y) := fun i hi =>
    Svd.rt_fin ha fun y hy => by have := hf i y hi hy; rwa [h i hi] at this
  exact ⟨(h1 0 hr).1, (h1 0 hr).2.1, fun i y hi hy => (h1 i hi).2.2 y hy⟩

/-! ## Case 1 -/

theorem Svd.DStep.good (C : Svd.Cx ε ω B₀ N hyp) (hK : K ≤ N) {p k j : Nat} (g1 : k ≤ j) (g2 : j < p - 1) (hp : p ≤ n)
    {w w' : α × Svd.St α m n} (D : Svd.DStep p k j (hyp (w.2.s.f j) w.1) w w')
    (h : Svd.Good ε ω U₀ V₀ B₀ K (Svd.WD p k (j + 1) (val w.1) (Svd.vf w.2.s.f) (Svd.vf w.2.e.f)) w.2) (ff : fin w.1)
    (h3 : 0 < k → val (w.2.e.f (k - 1)) = 0) (q5 : val (w.2.e.f (p - 2)) = 0) (q6 : val (w.2.s.f (p - 1)) = 0)
    (hf : Svd.tfin w'.2.v) :
    Svd.Good ε ω U₀ V₀ B₀ (K + 1) (Svd.WD p k j (val w'.1) (Svd.vf w'.2.s.f) (Svd.vf w'.2.e.f)) w'.2 ∧ fin w'.1 := by
  obtain ⟨fc, fs, -⟩ := Svd.turned_fin (by omega) (by omega) D.v hf
  obtain ⟨c, s, r, hP, fa, -, ft, hr, ht, t2, t3⟩ := C.near.pair C.ue C.e1 fc fs
  obtain ⟨c1, s1⟩ := hP.bounds
  have H := h.scale C hK
  have bs : |val (w.2.s.f j)| ≤ _ := mx_entry (n := n)
    (Svd.WD p k (j + 1) (val w.1) (Svd.vf w.2.s.f) (Svd.vf w.2.e.f)) (a := j) (b := j) (by omega) (by omega)
      |> le_trans (by unfold Svd.WD; rw [if_neg (by omega), Svd.bEnt_exact, if_pos rfl]; rfl)
  have bf : |val w.1| ≤ _ := mx_entry (n := n)
    (Svd.WD p k (j + 1) (val w.1) (Svd.vf w.2.s.f) (Svd.vf w.2.e.f)) (a := j) (b := p - 1) (by omega) (by omega)
      |> le_trans (by unfold Svd.WD; rw [if_pos (by omega)])
  have be : j ≠ k → |val (w.2.e.f (j - 1))| ≤ _ := fun hjk => mx_entry (n := n)
    (Svd.WD p k (j + 1) (val w.1) (Svd.vf w.2.s.f) (Svd.vf w.2.e.f)) (a := j - 1) (b := j) (by omega) (by omega)
      |> le_trans (by unfold Svd.WD; rw [if_neg (by omega), Svd.bEnt_exact, if_neg (by omega), if_pos (by omega)]; rfl)
  generalize hβ : fro (mx n n (Svd.WD p k (j + 1) (val w.1) (Svd.vf w.2.s.f) (Svd.vf w.2.e.f))) = β at *
  have hκ0 := H.unit.κ0
  have hδ : 0 ≤ 25 * (ε * β + ω) := by linarith
  have et := H.hyp hr bs bf ht
  have Ds := D.s
  have De := D.e
  have Df := D.f
  have Du := D.u
  have Dv := D.v
  generalize hyp (w.2.s.f j) w.1 = t at *
  have vs : Svd.vf w'.2.s.f = upd1 (Svd.vf w.2.s.f) j (val t) := by rw [Ds, Svd.vf_upd]
  by_cases hjk : j = k
  · rw [if_neg (by omega)] at De Df
    refine ⟨h.turnV C (show j < n by omega) (show p - 1 < n by omega) (by omega) hP ?_ ?_ Du Dv hf
      (fun a b _ _ => Svd.WD_step g1 g2 t2 t3 (s := Svd.vf w.2.s.f) (e := Svd.vf w.2.e.f) rfl rfl rfl h3 q5 q6 a b) ?_, ?_⟩
    · rw [Ds]; exact Svd.upd_fin h.s ft
    · rw [De]; exact h.e
    · rw [hβ]
      refine Svd.WD_cmp hδ (fun hc => by omega) (i₁ := j) (i₂ := j) (j₁ := j) (j₂ := j) ?_ ?_
      · rw [vs]
        exact Svd.Cmp.one j et (fun a => by rw [sub_self, abs_zero]; exact hδ) fun _ _ => rfl
      · rw [De, if_neg (by omega)]
        exact Svd.Cmp.refl hδ _ _ _
    · rw [Df]; exact ff
  · rw [if_pos hjk] at De Df
    have m1 := H.mul hP.fc hP.ec c1 (h.e (j - 1) (by omega)) (be hjk)
    have m2 := H.neg_mul hP.fs hP.es s1 (h.e (j - 1) (by omega)) (be hjk)
    have ve := (congrArg Svd.vf De).trans (Svd.vf_upd _ _ _)
    refine ⟨h.turnV C (show j < n by omega) (show p - 1 < n by omega) (by omega) hP ?_ ?_ Du Dv hf
      (fun a b _ _ => Svd.WD_step g1 g2 t2 t3 (s := Svd.vf w.2.s.f) (e := Svd.vf w.2.e.f) rfl rfl rfl h3 q5 q6 a b) ?_, ?_⟩
    · rw [Ds]; exact Svd.upd_fin h.s ft
    · rw [De]; exact Svd.upd_fin h.e m1.fin
    · rw [hβ]
      refine Svd.WD_cmp hδ (fun _ => ?_) (i₁ := j) (i₂ := j) (j₁ := j - 1) (j₂ := j - 1) ?_ ?_
      · rw [Df, if_pos hjk]; exact H.e25 m2
      · rw [vs]
        exact Svd.Cmp.one j et (fun a => by rw [sub_self, abs_zero]; exact hδ) fun _ _ => rfl
      · rw [ve, if_pos hjk]
        exact Svd.Cmp.one _ (H.e25 m1) (fun a => by rw [sub_self, abs_zero]; exact hδ) fun _ _ => rfl
    · rw [Df]; exact m2.fin

theorem Svd.deflate_good (C : Svd.Cx ε ω B₀ N hyp) {p k : Nat} (hk : k < p - 1) (hp : p ≤ n) (hK : K + n ≤ N)
    {R : Prop} (hx : Svd.tfin x.u → Svd.tfin x.v →
      Svd.Good ε ω U₀ V₀ B₀ K (Bi.bEnt (Svd.vf x.s.f) (Svd.vf x.e.f)) x ∧ R)
    (h1 : val (x.s.f (p - 1)) = 0) (h3 : 0 < k → val (x.e.f (k - 1)) = 0) :
    ∃ x', Svd.deflate hyp p k x = .ok x' ∧ (Svd.tfin x'.u → Svd.tfin x'.v →
      Svd.Good ε ω U₀ V₀ B₀ (K + n) (Bi.bEnt (Svd.vf x'.s.f) (Svd.vf x'.e.f)) x' ∧ R) ∧
      ∀ i, p - 1 ≤ i → x'.e.f i = x.e.f i ∧ x'.s.f i = x.s.f i := by
  unfold Svd.deflate
  rw [Row.get_ok (by omega), ok_bind, Row.set_ok (by omega), ok_bind]
  obtain ⟨w, e, r1, r2⟩ := Wp.exists_ok (wp_forDown (ε := Fault) (a := p - 1) (b := k)
    (body := Svd.deflateStep hyp p k) (s := (x.e.f (p - 2), ⟨x.s, ⟨upd1 x.e.f (p - 2) Flt.zero⟩, x.u, x.v⟩))
    (E := fun _ => False)
    (fun i (w : α × Svd.St α m n) => (Svd.tfin w.2.u → Svd.tfin w.2.v →
      Svd.Good ε ω U₀ V₀ B₀ (K + (p - 1 - i)) (Svd.WD p k i (val w.1) (Svd.vf w.2.s.f) (Svd.vf w.2.e.f)) w.2 ∧ fin w.1 ∧
        (0 < k → val (w.2.e.f (k - 1)) = 0) ∧ val (w.2.e.f (p - 2)) = 0 ∧ val (w.2.s.f (p - 1)) = 0 ∧ R) ∧
      ∀ a, p - 1 ≤ a → w.2.e.f a = x.e.f a ∧ w.2.s.f a = x.s.f a) (by omega)
    ⟨fun hu hv => by
      obtain ⟨hg, hR⟩ := hx hu hv
      refine ⟨⟨hg.s, Svd.upd_fin hg.e zero_fin, ?_⟩, hg.e _ (by omega), fun hk0 => ?_, ?_, h1, hR⟩
      · rw [Nat.sub_self, Nat.add_zero]
        refine cast ?_ hg.near
        congr 1
        refine mx_congr fun a b ha hb => ?_
        dsimp only
        rw [Svd.vf_upd]
        unfold Svd.WD
        rw [Svd.bEnt_exact, Svd.bEnt_exact]
        simp only [upd1_eq, val_zero]
        by_cases c : a + 1 = p - 1
        · obtain rfl : a = p - 2 := by omega
          split_ifs <;> first | rfl | (exfalso; omega)
        · split_ifs <;> first | rfl | (exfalso; omega)
      · dsimp only; rw [upd1_eq, if_neg (by omega)]; exact h3 hk0
      · dsimp only; rw [upd1_eq, if_pos rfl, val_zero],
     fun a ha => by dsimp only; rw [upd1_eq, if_neg (by omega)]; exact ⟨rfl, rfl⟩⟩
    (fun j w g1 g2 ⟨q1, q2⟩ => by
      obtain ⟨w', e, D⟩ := Svd.deflateStep_ok hyp (k := k) g2 hp w
      refine wp_of_eq_ok e ⟨fun hu hv => ?_, fun a ha => ?_⟩
      · obtain ⟨-, -, hv'⟩ := Svd.turned_fin (by omega) (by omega) D.v hv
        obtain ⟨a1, a2, a3, a4, a5, hR⟩ := q1 (by rw [← D.u]; exact hu) hv'
        obtain ⟨b1, b2⟩ := D.good C (by omega) g1 g2 hp a1 a2 a3 a4 a5 hv
        refine ⟨b1.mono C (by omega), b2, fun hk0 => ?_, ?_, ?_, hR⟩
        · rw [D.e]
          split_ifs
          · rw [upd1_eq, if_neg (by omega)]; exact a3 hk0
          · exact a3 hk0
        · rw [D.e]
          split_ifs
          · rw [upd1_eq, if_neg (by omega)]; exact a4
          · exact a4
        · rw [D.s, upd1_eq, if_neg (by omega)]; exact a5
      · refine ⟨?_, by rw [D.s, upd1_eq, if_neg (by omega)]; exact (q2 a ha).2⟩
        rw [D.e]
        split_ifs
        · rw [upd1_eq, if_neg (by omega)]; exact (q2 a ha).1
        · exact (q2 a ha).1))
  rw [e, ok_bind]
  refine ⟨_, rfl, fun hu hv => ?_, r2⟩
  refine ⟨((r1 hu hv).1.mono C (by omega)).congr fun a b _ _ => ?_, (r1 hu hv).2.2.2.2.2⟩
  rw [Svd.WD, if_neg (by omega)]

/-! ## Case 2 -/

theorem Svd.PStep.good (C : Svd.Cx ε ω B₀ N hyp) (hK : K ≤ N) {p k j : Nat} (hk0 : 0 < k) (g1 : k ≤ j) (g2 : j < p)
    (hp : p ≤ n) (hm : n ≤ m)
    {w w' : α × Svd.St α m n} (D : Svd.PStep k j (hyp (w.2.s.f j) w.1) w w')
    (h : Svd.Good ε ω U₀ V₀ B₀ K (Svd.WS p k j (val w.1) (Svd.vf w.2.s.f) (Svd.vf w.2.e.f)) w.2)
    (hl : val (w.2.e.f (p - 1)) = 0) (q6 : val (w.2.e.f (k - 1)) = 0) (q7 : val (w.2.s.f (k - 1)) = 0)
    (hf : Svd.tfin w'.2.u) :
    Svd.Good ε ω U₀ V₀ B₀ (K + 1) (Svd.WS p k (j + 1) (val w'.1) (Svd.vf w'.2.s.f) (Svd.vf w'.2.e.f)) w'.2 ∧
      fin w'.1 ∧ fin (w'.2.e.f j) := by
  obtain ⟨fc, fs, -⟩ := Svd.turned_fin (by omega) (by omega) D.u hf
  obtain ⟨c, s, r, hP, fa, -, ft, hr, ht, t2, t3⟩ := C.near.pair C.ue C.e1 fc fs
  obtain ⟨c1, s1⟩ := hP.bounds
  have H := h.scale C hK
  have bs : |val (w.2.s.f j)| ≤ _ := mx_entry (n := n)
    (Svd.WS p k j (val w.1) (Svd.vf w.2.s.f) (Svd.vf w.2.e.f)) (a := j) (b := j) (by omega) (by omega)
      |> le_trans (by unfold Svd.WS; rw [if_neg (by omega), Svd.bEnt_exact, if_pos rfl]; rfl)
  have bf : |val w.1| ≤ _ := mx_entry (n := n)
    (Svd.WS p k j (val w.1) (Svd.vf w.2.s.f) (Svd.vf w.2.e.f)) (a := k - 1) (b := j) (by omega) (by omega)
      |> le_trans (by unfold Svd.WS; rw [if_pos (by omega)])
  have be : |val (w.2.e.f j)| ≤ fro (mx n n (Svd.WS p k j (val w.1) (Svd.vf w.2.s.f) (Svd.vf w.2.e.f))) := by
    by_cases cl : j = p - 1
    · rw [cl, hl, abs_zero]; exact fro_nonneg _
    · exact mx_entry (n := n)
        (Svd.WS p k j (val w.1) (Svd.vf w.2.s.f) (Svd.vf w.2.e.f)) (a := j) (b := j + 1) (by omega) (by omega)
          |> le_trans (by unfold Svd.WS; rw [if_neg (by omega), Svd.bEnt_exact, if_neg (by omega), if_pos rfl]; rfl)
  generalize hβ : fro (mx n n (Svd.WS p k j (val w.1) (Svd.vf w.2.s.f) (Svd.vf w.2.e.f))) = β at *
  have hκ0 := H.unit.κ0
  have hδ : 0 ≤ 25 * (ε * β + ω) := by linarith
  have et := H.hyp hr bs bf ht
  have Ds := D.s
  have De := D.e
  have Df := D.f
  have Du := D.u
  have Dv := D.v
  generalize hyp (w.2.s.f j) w.1 = t at *
  have m1 := H.mul hP.fc hP.ec c1 (h.e j (by omega)) be
  have m2 := H.neg_mul hP.fs hP.es s1 (h.e j (by omega)) be
  have vs : Svd.vf w'.2.s.f = upd1 (Svd.vf w.2.s.f) j (val t) := by rw [Ds, Svd.vf_upd]
  have ve := (congrArg Svd.vf De).trans (Svd.vf_upd _ _ _)
  refine ⟨h.turnU C (show j < n by omega) (show k - 1 < n by omega) (by omega) hP ?_ ?_ Dv Du hf
    (fun a b _ _ => Svd.WS_step hk0 g1 g2 t2 t3 (s := Svd.vf w.2.s.f) (e := Svd.vf w.2.e.f) rfl rfl rfl
      (fun cl => by rw [cl]; exact hl) q6 q7 a b) ?_, ?_, ?_⟩
  · rw [Ds]; exact Svd.upd_fin h.s ft
  · rw [De]; exact Svd.upd_fin h.e m1.fin
  · rw [hβ]
    refine Svd.WS_cmp hδ ?_ (i₁ := j) (i₂ := j) (j₁ := j) (j₂ := j) ?_ ?_
    · rw [Df]; exact H.e25 m2
    · rw [vs]
      exact Svd.Cmp.one j et (fun a => by rw [sub_self, abs_zero]; exact hδ) fun _ _ => rfl
    · rw [ve]
      exact Svd.Cmp.one _ (H.e25 m1) (fun a => by rw [sub_self, abs_zero]; exact hδ) fun _ _ => rfl
  · rw [Df]; exact m2.fin
  · rw [De, upd1_eq, if_pos rfl]; exact m1.fin

theorem Svd.split_good (C : Svd.Cx ε ω B₀ N hyp) {p k : Nat} (hk0 : 0 < k) (hk : k < p) (hp : p ≤ n) (hm : n ≤ m)
    (hK : K + n ≤ N)
    {R : Prop} (hx : Svd.tfin x.u → Svd.tfin x.v →
      Svd.Good ε ω U₀ V₀ B₀ K (Bi.bEnt (Svd.vf x.s.f) (Svd.vf x.e.f)) x ∧ R)
    (h1 : val (x.s.f (k - 1)) = 0) (h3 : Svd.tfin x.u → Svd.tfin x.v → val (x.e.f (p - 1)) = 0) :
    ∃ x', Svd.split hyp p k x = .ok x' ∧ (Svd.tfin x'.u → Svd.tfin x'.v →
      Svd.Good ε ω U₀ V₀ B₀ (K + n) (Bi.bEnt (Svd.vf x'.s.f) (Svd.vf x'.e.f)) x' ∧ val (x'.e.f (p - 1)) = 0 ∧ R) ∧
      ∀ i, p ≤ i → x'.e.f i = x.e.f i ∧ x'.s.f i = x.s.f i := by
  unfold Svd.split
  rw [Row.get_ok (by omega), ok_bind, Row.set_ok (by omega), ok_bind]
  obtain ⟨w, e, r1, r2⟩ := Wp.exists_ok (wp_forUp (ε := Fault) (a := k) (b := p)
    (body := Svd.splitStep hyp k) (s := (x.e.f (k - 1), ⟨x.s, ⟨upd1 x.e.f (k - 1) Flt.zero⟩, x.u, x.v⟩))
    (E := fun _ => False)
    (fun j (w : α × Svd.St α m n) => (Svd.tfin w.2.u → Svd.tfin w.2.v →
      Svd.Good ε ω U₀ V₀ B₀ (K + (j - k)) (Svd.WS p k j (val w.1) (Svd.vf w.2.s.f) (Svd.vf w.2.e.f)) w.2 ∧
        val (w.2.e.f (p - 1)) = 0 ∧ val (w.2.e.f (k - 1)) = 0 ∧ val (w.2.s.f (k - 1)) = 0 ∧ R) ∧
      ∀ a, p ≤ a → w.2.e.f a = x.e.f a ∧ w.2.s.f a = x.s.f a) (by omega)
    ⟨fun hu hv => by
      obtain ⟨hg, hR⟩ := hx hu hv
      refine ⟨⟨hg.s, Svd.upd_fin hg.e zero_fin, ?_⟩, ?_, ?_, h1, hR⟩
      · rw [Nat.sub_self, Nat.add_zero]
        refine cast ?_ hg.near
        congr 1
        refine mx_congr fun a b ha hb => ?_
        dsimp only
        rw [Svd.vf_upd]
        unfold Svd.WS
        rw [Svd.bEnt_exact, Svd.bEnt_exact]
        simp only [upd1_eq, val_zero]
        by_cases c : a + 1 = k
        · obtain rfl : a = k - 1 := by omega
          split_ifs <;> first | rfl | (exfalso; omega)
        · split_ifs <;> first | rfl | (exfalso; omega)
      · dsimp only; rw [upd1_eq, if_neg (by omega)]; exact h3 hu hv
      · dsimp only; rw [upd1_eq, if_pos rfl, val_zero],
     fun a ha => by dsimp only; rw [upd1_eq, if_neg (by omega)]; exact ⟨rfl, rfl⟩⟩
    (fun j w g1 g2 ⟨q1, q2⟩ => by
      obtain ⟨w', e, D⟩ := Svd.splitStep_ok hyp (k := k) g1 (show j < n by omega) w
      refine wp_of_eq_ok e ⟨fun hu hv => ?_, fun a ha => ?_⟩
      · obtain ⟨-, -, hu'⟩ := Svd.turned_fin (by omega) (by omega) D.u hu
        obtain ⟨a1, a2, a3, a4, hR⟩ := q1 hu' (by rw [← D.v]; exact hv)
        obtain ⟨b1, b2, b3⟩ := D.good C (by omega) hk0 g1 g2 hp hm a1 a2 a3 a4 hu
        refine ⟨b1.mono C (by omega), ?_, ?_, ?_, hR⟩
        · rw [D.e, upd1_eq] at b3 ⊢
          rw [if_pos rfl] at b3
          split_ifs with cl
          · exact mul_zero_val b3 (by rw [← cl]; exact a2)
          · exact a2
        · rw [D.e, upd1_eq, if_neg (by omega)]; exact a3
        · rw [D.s, upd1_eq, if_neg (by omega)]; exact a4
      · rw [D.e, upd1_eq, if_neg (by omega), D.s, upd1_eq, if_neg (by omega)]; exact q2 a ha))
  rw [e, ok_bind]
  refine ⟨_, rfl, fun hu hv => ?_, r2⟩
  obtain ⟨a1, a2, -, -, hR⟩ := r1 hu hv
  refine ⟨(a1.mono C (by omega)).congr fun a b _ _ => ?_, a2, hR⟩
  rw [Svd.WS, if_neg (by omega)]

end Linear
