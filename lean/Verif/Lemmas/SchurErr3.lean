import Verif.Lemmas.SchurErr2
import Mathlib.Algebra.Order.Chebyshev

/-!
# The error of the Schur form: shifts, deflations and the loop
-/

set_option linter.unusedSectionVars false

namespace Linear

open Spec Finset Matrix

section free

variable {α : Type} [Flt α] {n : Nat}

/-- Rule for the loop that ends with a result: `J` is kept by each of its three branches. -/
theorem Schur.loop_inv (κ : Schur.Lit α) (norm : α) (J : Nat → Nat → α → Schur α n → Prop)
    (h1 : ∀ iu it ex (s s' : Schur α n), iu < n → it ≤ 100 → J (iu + 1) it ex s →
      Schur.find κ.eps norm s.t iu = .ok iu → Schur.single iu ex s = .ok s' → J iu 0 ex s')
    (h2 : ∀ k it ex (s s' : Schur α n), k + 1 < n → it ≤ 100 → J (k + 2) it ex s →
      Schur.find κ.eps norm s.t (k + 1) = .ok k → Schur.pair k ex s = .ok s' → J k 0 ex s')
    (h3 : ∀ il iu it ex (s s' : Schur α n) th v, il + 2 ≤ iu → iu < n → it < 100 → J (iu + 1) it ex s →
      Schur.find κ.eps norm s.t iu = .ok il → Schur.computeShift κ il iu it s.t ex = .ok th →
      Schur.initQR κ.eps th.1 th.2 il (iu - 2 - il) = .ok v →
      Schur.qrStep κ.eps il v.1 iu v.2 ⟨th.1, s.p⟩ = .ok s' → J (iu + 1) (it + 1) th.2.ex s')
    (fuel u it : Nat) (ex : α) (s s' : Schur α n) (hu : u ≤ n) (hit : it ≤ 100) (h0 : u = 0 → it = 0)
    (hJ : J u it ex s) (h : Schur.loop κ norm fuel u it ex s = .ok (some s')) : ∃ ex', J 0 0 ex' s' := by
  induction fuel generalizing u it ex s with
  | zero =>
    rcases u with _ | iu
    · rw [Schur.loop] at h
      cases h
      obtain rfl := h0 rfl
      exact ⟨ex, hJ⟩
    · rw [Schur.loop] at h
      cases h
  | succ fuel ih =>
    rcases u with _ | iu
    · rw [Schur.loop] at h
      cases h
      obtain rfl := h0 rfl
      exact ⟨ex, hJ⟩
    rw [Schur.loop] at h
    obtain ⟨il, e, hil, -, -⟩ := Schur.find_ok κ.eps norm s.t (show iu < n by omega)
    rw [e, ok_bind] at h
    by_cases e1 : il = iu
    · rw [if_pos e1] at h
      have hs : ∃ s', Schur.single iu ex s = .ok s' := by
        unfold Schur.single
        rw [Tab.get_ok (by omega) (by omega), ok_bind, Tab.set_ok (by omega) (by omega), ok_bind]
        exact ⟨_, rfl⟩
      obtain ⟨s1, e2⟩ := hs
      rw [e2, ok_bind] at h
      exact ih iu 0 ex s1 (by omega) (by omega) (fun _ => rfl)
        (h1 iu it ex s s1 (by omega) hit hJ (by rw [e, e1]) e2) h
    · rw [if_neg e1] at h
      by_cases e3 : il + 1 = iu
      · rw [if_pos e3] at h
        subst e3
        rw [show il + 1 - 1 = il by omega] at h
        obtain ⟨s1, -, e2, -⟩ := Schur.pair_ok (show il + 1 < n by omega) ex s
        rw [e2, ok_bind] at h
        exact ih il 0 ex s1 (by omega) (by omega) (fun _ => rfl) (h2 il it ex s s1 (by omega) hit hJ e e2) h
      · rw [if_neg e3] at h
        obtain ⟨th, e4, hth⟩ := Schur.computeShift_ok κ (l := il) it (show iu < n by omega) (by omega) s.t ex
        rw [e4, ok_bind] at h
        by_cases e5 : it + 1 > 100
        · rw [if_pos e5] at h
          cases h
        · rw [if_neg e5] at h
          obtain ⟨v, e6, h4, h5⟩ := Schur.initQR_ok κ.eps th.1 th.2 il (iu - 2 - il) (by omega)
          rw [e6, ok_bind] at h
          obtain ⟨-, s1, e7, -⟩ := Schur.qrStep_ok κ.eps h4 (show v.1 + 2 ≤ iu by omega) (show iu < n by omega)
            v.2 (⟨th.1, s.p⟩ : Schur α n) (fun _ _ => True) trivial (fun _ _ _ _ _ _ _ _ _ _ _ _ => trivial)
            (fun _ _ _ _ _ => trivial)
          rw [e7, ok_bind] at h
          exact ih (iu + 1) (it + 1) th.2.ex s1 hu (by omega) (fun hc => by omega)
            (h3 il iu it ex s s1 th v (by omega) (by omega) (by omega) hJ e e4 e6 e7) h

/-- Two roots, with the test and the rotation. -/
theorem Schur.pair_val {k : Nat} (hk : k + 1 < n) (ex : α) (s : Schur α n) {p q : α}
    (hp : p = Flt.div (Flt.sub (s.t.f k k) (s.t.f (k + 1) (k + 1))) Flt.two)
    (hq : q = Flt.add (Flt.mul p p) (Flt.mul (s.t.f (k + 1) k) (s.t.f k (k + 1)))) :
    ∃ s' : Schur α n, ∃ g : Nat → Nat → α, Schur.pair k ex s = .ok s' ∧
      g = (fun i j => if i = j ∧ (i = k ∨ i = k + 1) then Flt.add (s.t.f i j) ex else s.t.f i j) ∧
      ((Flt.le Flt.zero q = false ∧ s'.t.f = g ∧ s'.p = s.p) ∨ ∃ u, Flt.le Flt.zero q = true ∧
        u = Schur.unit (s.t.f (k + 1) k) (Schur.root p q) ∧
        Schur.Same n s'.t.f (fun a b => if a < k + 2 then
          Schur.rotV k u.1 u.2 (fun b => if k ≤ b then Schur.rotV k u.1 u.2 (fun i => g i b) a else g a b) b
          else if k ≤ b then Schur.rotV k u.1 u.2 (fun i => g i b) a else g a b) ∧
        Schur.Same n s'.p.f (fun a b => Schur.rotV k u.1 u.2 (s.p.f a) b)) := by
  unfold Schur.pair
  rw [Tab.get_ok (by omega) (by omega), ok_bind, Tab.get_ok (by omega) (by omega), ok_bind,
    Tab.get_ok (by omega) (by omega), ok_bind, Tab.get_ok (by omega) (by omega), ok_bind,
    Tab.set_ok hk hk, ok_bind, Tab.get_ok (by omega) (by omega), ok_bind, Tab.set_ok (by omega) (by omega), ok_bind]
  dsimp only
  have hg : upd2 (upd2 s.t.f (k + 1) (k + 1) (Flt.add (s.t.f (k + 1) (k + 1)) ex)) k k
      (Flt.add (upd2 s.t.f (k + 1) (k + 1) (Flt.add (s.t.f (k + 1) (k + 1)) ex) k k) ex) =
      fun i j => if i = j ∧ (i = k ∨ i = k + 1) then Flt.add (s.t.f i j) ex else s.t.f i j := by
    funext i j
    simp only [upd2_eq]
    by_cases e : i = k ∧ j = k
    · rw [if_pos e, if_neg (by omega), if_pos (by omega), e.1, e.2]
    · rw [if_neg e]
      by_cases e' : i = k + 1 ∧ j = k + 1
      · rw [if_pos e', if_pos (by omega), e'.1, e'.2]
      · rw [if_neg e', if_neg (by omega)]
  rw [hg, ← hp, ← hq]
  unfold Schur.pairRot
  by_cases hc : Flt.le Flt.zero q = true
  · rw [if_pos hc, Tab.get_ok (by omega) (by omega), ok_bind]
    dsimp only
    rw [if_neg (by omega)]
    obtain ⟨s', e, h1, h2⟩ := Schur.rotate_ok hk (Schur.unit (s.t.f (k + 1) k) (Schur.root p q)).1
        (Schur.unit (s.t.f (k + 1) k) (Schur.root p q)).2 (⟨⟨fun i j =>
            if i = j ∧ (i = k ∨ i = k + 1) then Flt.add (s.t.f i j) ex else s.t.f i j⟩, s.p⟩ : Schur α n)
    exact ⟨s', _, e, rfl, .inr ⟨_, hc, rfl, h1, h2⟩⟩
  · rw [if_neg hc]
    exact ⟨_, _, rfl, rfl, .inl ⟨Bool.eq_false_iff.2 hc, rfl, rfl⟩⟩

/-- The start of the double step, with the test that ended the search. -/
theorem Schur.initQR_val (eps : α) (t : Tab α n n) (s : Schur.Shift α) (il d : Nat) (h : il + d + 2 < n)
    {v : Nat × α × α × α} (e : Schur.initQR eps t s il d = .ok v) : il ≤ v.1 ∧ v.1 ≤ il + d ∧
      (v.1 ≠ il → Flt.lt (Flt.mul (Flt.abs (t.f v.1 (v.1 - 1))) (Flt.add (Flt.abs v.2.2.1) (Flt.abs v.2.2.2)))
        (Flt.mul eps (Flt.mul (Flt.abs v.2.1) (Flt.add (Flt.add (Flt.abs (t.f (v.1 - 1) (v.1 - 1)))
          (Flt.abs (t.f v.1 v.1))) (Flt.abs (t.f (v.1 + 1) (v.1 + 1)))))) = true) := by
  induction d with
  | zero =>
    obtain ⟨w, e1⟩ := Schur.hVec_ok (by omega) t s (im := il)
    rw [Schur.initQR, e1, ok_bind] at e
    cases e
    exact ⟨le_refl _, le_refl _, fun h => absurd rfl h⟩
  | succ d ih =>
    obtain ⟨w, e1⟩ := Schur.hVec_ok (by omega) t s (im := il + (d + 1))
    rw [Schur.initQR, e1, ok_bind] at e
    unfold Schur.twoSmall at e
    rw [Tab.get_ok (by omega) (by omega), ok_bind, Tab.get_ok (by omega) (by omega), ok_bind,
      Tab.get_ok (by omega) (by omega), ok_bind, Tab.get_ok (by omega) (by omega), ok_bind, pure_eq_ok, ok_bind] at e
    split at e
    · rename_i hc
      cases e
      exact ⟨by dsimp only; omega, le_refl _, fun _ => hc⟩
    · obtain ⟨h1, h2, h3⟩ := ih (by omega) e
      exact ⟨h1, by omega, h3⟩

end free

variable {K : Type} [Field K] [LinearOrder K] [IsStrictOrderedRing K] [Flt K] [Exact K] [ExactSqrt K]
variable {n : Nat}

/-! ## The shift -/

/-- Four entries of a matrix. -/
theorem Schur.fro2_four (M : Matrix (Fin n) (Fin n) K) {i j : Fin n} (hij : i ≠ j) :
    M i i ^ 2 + M i j ^ 2 + (M j i ^ 2 + M j j ^ 2) ≤ fro2 M := by
  have row : ∀ r : Fin n, M r i ^ 2 + M r j ^ 2 ≤ ∑ c, M r c ^ 2 := by
    intro r
    rw [← Finset.sum_pair hij (f := fun c => M r c ^ 2)]
    exact sum_le_sum_of_subset_of_nonneg (subset_univ _) fun c _ _ => sq_nonneg _
  have : ∑ r ∈ {i, j}, ∑ c, M r c ^ 2 ≤ ∑ r, ∑ c, M r c ^ 2 :=
    sum_le_sum_of_subset_of_nonneg (subset_univ _) fun c _ _ => sum_nonneg fun _ _ => sq_nonneg _
  rw [Finset.sum_pair hij] at this
  have h1 := row i
  have h2 := row j
  unfold fro2
  linarith

/-- An eigenvalue of a 2 × 2 block is not larger than the block. -/
theorem Schur.eig2 {l x y a b : K} (h : (l - y) * (l - x) = a * b) : l ^ 2 ≤ x ^ 2 + y ^ 2 + (a ^ 2 + b ^ 2) := by
  have : (x ^ 2 + y ^ 2 + (a ^ 2 + b ^ 2)) - l ^ 2 = (x + y - l) ^ 2 + (a - b) ^ 2 := by
    linear_combination -2 * h
  nlinarith [sq_nonneg (x + y - l), sq_nonneg (a - b)]

/-- The amount taken at iteration 30 is an eigenvalue of the last block. -/
theorem Schur.amount_eig {h : Schur.Shift K} (hd : 0 < Schur.disc h) :
    (Schur.amount h - h.y) * (Schur.amount h - h.x) = h.w := by
  unfold Schur.amount
  have hs0 := ExactSqrt.sqrt_nonneg (Schur.disc h)
  have hsq := ExactSqrt.sqrt_mul_self _ hd.le
  have hs : 0 < Flt.sqrt (Schur.disc h) := lt_of_le_of_ne hs0 fun e => by
    rw [← e, mul_zero] at hsq
    exact hd.ne hsq
  have hdd : Schur.disc h = (h.y - h.x) / 2 * ((h.y - h.x) / 2) + h.w := by
    unfold Schur.disc
    simp
  generalize Flt.sqrt (Schur.disc h) = w at *
  rw [hdd] at hsq
  simp only [Exact.lt_eq, decide_eq_true_eq, Exact.neg_eq, Exact.sub_eq, Exact.div_eq, Exact.add_eq, Exact.two_eq]
  have key : ∀ t : K, t * t = w * w → (h.y - h.x) / 2 + t ≠ 0 →
      (h.x - h.w / ((h.y - h.x) / 2 + t) - h.y) * (h.x - h.w / ((h.y - h.x) / 2 + t) - h.x) = h.w := by
    intro t ht hne
    have e : h.w / ((h.y - h.x) / 2 + t) = t - (h.y - h.x) / 2 := by
      rw [div_eq_iff hne]
      linear_combination -hsq - ht
    rw [e]
    linear_combination hsq + ht
  split
  · rename_i hlt
    refine key (-w) (by ring) ?_
    have : (h.y - h.x) / 2 + -w < 0 := by linarith
    exact this.ne
  · rename_i hlt
    refine key w rfl ?_
    have : 0 < (h.y - h.x) / 2 + w := by
      have := not_lt.1 hlt
      linarith
    exact this.ne'


theorem Schur.shift_bound (κ : Schur.Lit K) {l idx : Nat} (it : Nat) (h : idx < n) (h2 : 2 ≤ idx) (hl : l < idx)
    (t : Tab K n n) {ex M : K} (hM : 0 ≤ M) (hex : |ex| ≤ M)
    (hV : (t.f idx idx + ex) ^ 2 + (t.f (idx - 1) (idx - 1) + ex) ^ 2 +
      (t.f idx (idx - 1) ^ 2 + t.f (idx - 1) idx ^ 2) ≤ M ^ 2) {th : Tab K n n × Schur.Shift K}
    (e : Schur.computeShift κ l idx it t ex = .ok th) : |th.2.ex| ≤ M ∧
      ∃ d, th.2.ex = ex + d ∧ ∀ i j, th.1.f i j = t.f i j - if i = j ∧ i ≤ idx then d else 0 := by
  have hlow : ∀ (d : K) (i j : Nat), (if i = j ∧ i ≤ idx then Flt.sub (t.f i j) d else t.f i j) =
      t.f i j - if i = j ∧ i ≤ idx then d else 0 := by
    intro d i j
    split
    · rw [Exact.sub_eq]
    · rw [sub_zero]
  have hz : ∀ i j : Nat, t.f i j = t.f i j - if i = j ∧ i ≤ idx then (0 : K) else 0 := by
    intro i j
    rw [ite_self, sub_zero]
  have e0 : Schur.shift0 l idx t ex = .ok ⟨t.f idx idx, t.f (idx - 1) (idx - 1),
      Flt.mul (t.f idx (idx - 1)) (t.f (idx - 1) idx), ex⟩ := by
    unfold Schur.shift0
    rw [Tab.get_ok h h, ok_bind, if_pos hl, Tab.get_ok (by omega) (by omega), ok_bind,
      Tab.get_ok (by omega) (by omega), ok_bind, Tab.get_ok (by omega) (by omega), ok_bind]
    rfl
  unfold Schur.computeShift at e
  rw [e0, ok_bind] at e
  by_cases e1 : it = 10
  · rw [if_pos e1] at e
    unfold Schur.shift10 at e
    rw [Schur.lower_ok h, ok_bind, Tab.get_ok (by omega) (by omega), ok_bind,
      Tab.get_ok (by omega) (by omega), ok_bind] at e
    cases e
    refine ⟨?_, t.f idx idx, by simp, hlow _⟩
    dsimp only
    rw [Exact.add_eq]
    refine abs_le_of_sq_le_sq ?_ hM
    nlinarith [sq_nonneg (t.f (idx - 1) (idx - 1) + ex), sq_nonneg (t.f idx (idx - 1)), sq_nonneg (t.f (idx - 1) idx)]
  · rw [if_neg e1] at e
    by_cases e2 : it = 30
    · rw [if_pos e2] at e
      unfold Schur.shift30 at e
      by_cases e3 : Flt.lt Flt.zero (Schur.disc ⟨t.f idx idx, t.f (idx - 1) (idx - 1),
          Flt.mul (t.f idx (idx - 1)) (t.f (idx - 1) idx), ex⟩) = true
      · rw [if_pos e3, Schur.lower_ok h, ok_bind] at e
        have h3 := Schur.amount_eig (by simpa using e3)
        cases e
        refine ⟨?_, _, Exact.add_eq _ _, hlow _⟩
        dsimp only at h3 ⊢
        rw [Exact.add_eq]
        refine abs_le_of_sq_le_sq (le_trans (Schur.eig2 (a := t.f idx (idx - 1)) (b := t.f (idx - 1) idx) ?_) hV) hM
        rw [Exact.mul_eq]
        linear_combination h3
      · rw [if_neg e3] at e
        cases e
        exact ⟨hex, 0, by simp, hz⟩
    · rw [if_neg e2] at e
      cases e
      exact ⟨hex, 0, by simp, hz⟩

/-! ## The table without the neglected entries -/

/-- `W` is the code's table `T` with zeros in the place of the neglected entries. The lines from `u` on are done:
there an entry next to the diagonal is neglected, or belongs to a 2 × 2 block (`br`) without real eigenvalues. -/
structure Schur.Virt (n u : Nat) (δ : K) (T W : Nat → Nat → K) (br : Nat → Prop) : Prop where
  same : ∀ i j, i < n → j < n → i ≤ j ∨ i < u → W i j = T i j
  low : ∀ i j, i < n → j + 1 < i → W i j = 0
  drop : ∀ k, k + 1 < n → u ≤ k + 1 → ¬ br k → W (k + 1) k = 0 ∧ |T (k + 1) k| ≤ δ
  block : ∀ k, br k → u ≤ k ∧ k + 1 < n ∧ ¬ br (k + 1) ∧ W (k + 1) k = T (k + 1) k ∧
    ((T k k - T (k + 1) (k + 1)) / 2) ^ 2 + T (k + 1) k * T k (k + 1) < 0

variable {A : Matrix (Fin n) (Fin n) K} {b ex δ d : K} {s : Schur K n} {W : Nat → Nat → K} {br : Nat → Prop}

/-- One root. -/
theorem Schur.Virt.single {iu : Nat} (h : Schur.Virt n (iu + 1) δ s.t.f W br)
    (hR : Schur.Rep A b s.p.f (Schur.up (iu + 1) ex W)) (hiu : iu < n) (hd : 0 ≤ d) (hδ : d ≤ δ)
    (hs : 0 < iu → |s.t.f iu (iu - 1)| ≤ d) {s' : Schur K n} (e : Schur.single iu ex s = .ok s') :
    ∃ W', Schur.Rep A (b + d) s'.p.f (Schur.up iu ex W') ∧ Schur.Virt n iu δ s'.t.f W' br := by
  unfold Schur.single at e
  rw [Tab.get_ok (by omega) (by omega), ok_bind, Tab.set_ok (by omega) (by omega), ok_bind] at e
  cases e
  let W' : Nat → Nat → K := fun i j => if i = iu ∧ j + 1 = iu then 0 else if i = iu ∧ j = iu then W i j + ex else W i j
  have eW : ∀ i j, W' i j = if i = iu ∧ j + 1 = iu then 0 else if i = iu ∧ j = iu then W i j + ex else W i j :=
    fun _ _ => rfl
  have eT : ∀ i j, upd2 s.t.f iu iu (Flt.add (s.t.f iu iu) ex) i j =
      if i = iu ∧ j = iu then s.t.f iu iu + ex else s.t.f i j := by
    intro i j
    rw [upd2_eq, Exact.add_eq]
  refine ⟨W', ?_, ⟨fun i j hi hj hij => ?_, fun i j hi hij => ?_, fun k hk hu hb => ?_, fun k hb => ?_⟩⟩
  · have hup : ∀ i j, ¬ (i = iu ∧ j + 1 = iu) → Schur.up iu ex W' i j = Schur.up (iu + 1) ex W i j := by
      intro i j hij
      unfold Schur.up
      rw [eW, if_neg hij]
      by_cases e : i = iu ∧ j = iu
      · rw [if_pos e, if_neg (by omega), if_pos (by omega)]
        ring
      · rw [if_neg e]
        congr 1
        exact if_congr (by omega) rfl rfl
    by_cases h0 : 0 < iu
    · refine hR.entry hd (i := iu) (j := iu - 1) (fun x y _ _ hxy => hup x y (by omega)) ?_
      unfold Schur.up
      rw [eW, if_pos (by omega), if_neg (by omega), if_neg (by omega),
        h.same iu (iu - 1) hiu (by omega) (by omega)]
      simpa using hs h0
    · exact (hR.congr (fun _ _ _ _ => rfl) (fun i j _ _ => hup i j (by omega))).mono (by linarith)
  · dsimp only
    rw [eW, eT, if_neg (by omega)]
    by_cases e : i = iu ∧ j = iu
    · rw [if_pos e, if_pos e, e.1, e.2, h.same iu iu hiu hiu (by omega)]
    · rw [if_neg e, if_neg e, h.same i j hi hj (by omega)]
  · rw [eW]
    rw [if_neg (by omega), if_neg (by omega)]
    exact h.low i j hi hij
  · dsimp only
    rw [eW, eT]
    by_cases e : k + 1 = iu
    · rw [if_pos ⟨e, e⟩, if_neg (by omega)]
      refine ⟨rfl, ?_⟩
      have := hs (by omega)
      rw [← e] at this
      exact this.trans hδ
    · rw [if_neg (by omega), if_neg (by omega), if_neg (by omega)]
      exact h.drop k hk (by omega) hb
  · obtain ⟨h1, h2, h3, h4, h5⟩ := h.block k hb
    refine ⟨by omega, h2, h3, ?_⟩
    dsimp only
    simp only [eW, eT]
    rw [if_neg (by omega), if_neg (by omega), if_neg (by omega), if_neg (by omega), if_neg (by omega), if_neg (by omega)]
    exact ⟨h4, h5⟩


/-- The rotation makes the entry below the diagonal zero. -/
theorem Schur.unit_zero {x a c y p q : K} (hx : x ≠ 0) (hp : p = (a - y) / 2) (hq : q = p * p + x * c) (h0 : 0 ≤ q) :
    (Schur.unit x (Schur.root p q)).2 * ((Schur.unit x (Schur.root p q)).2 * x - (Schur.unit x (Schur.root p q)).1 * a) +
      (Schur.unit x (Schur.root p q)).1 * ((Schur.unit x (Schur.root p q)).2 * y -
        (Schur.unit x (Schur.root p q)).1 * c) = 0 := by
  have hz : Schur.root p q * Schur.root p q = Schur.root p q * (a - y) + x * c := by
    have hsq := ExactSqrt.sqrt_mul_self _ h0
    have habs := abs_of_nonneg h0
    unfold Schur.root
    simp only [Exact.abs_eq, habs, Exact.add_eq, Exact.sub_eq]
    generalize Flt.sqrt q = w at hsq
    split
    · linear_combination (2 * w + 2 * p) * hp + hsq + hq
    · linear_combination (2 * p - 2 * w) * hp + hsq + hq
  have hr : (Schur.unit x (Schur.root p q)).2 * x = (Schur.unit x (Schur.root p q)).1 * Schur.root p q := by
    unfold Schur.unit
    simp only [Exact.div_eq]
    ring
  generalize (Schur.unit x (Schur.root p q)).1 = p' at *
  generalize (Schur.unit x (Schur.root p q)).2 = q' at *
  generalize Schur.root p q = z at *
  have : x * (q' * (q' * x - p' * a) + p' * (q' * y - p' * c)) = 0 := by
    linear_combination (q' * x + p' * z + p' * y - p' * a) * hr + p' * p' * hz
  exact (mul_eq_zero.1 this).resolve_left hx

/-- Two roots. -/
theorem Schur.Virt.pair {k : Nat} (h : Schur.Virt n (k + 2) δ s.t.f W br)
    (hR : Schur.Rep A b s.p.f (Schur.up (k + 2) ex W)) (hk : k + 1 < n) (hd : 0 ≤ d) (hδ : d ≤ δ)
    (hs : 0 < k → |s.t.f k (k - 1)| ≤ d) (hx : s.t.f (k + 1) k ≠ 0) {s' : Schur K n}
    (e : Schur.pair k ex s = .ok s') :
    ∃ W' br', Schur.Rep A (b + d) s'.p.f (Schur.up k ex W') ∧ Schur.Virt n k δ s'.t.f W' br' := by
  obtain ⟨s'', g, e', hg, hcase⟩ := Schur.pair_val hk ex s rfl rfl
  rw [e] at e'
  cases e'
  simp only [Exact.sub_eq, Exact.two_eq, Exact.div_eq, Exact.mul_eq, Exact.add_eq, Exact.le_eq, Exact.zero_eq,
    decide_eq_true_eq, decide_eq_false_iff_not, not_le] at hcase
  have hgv : ∀ i j, g i j = if i = j ∧ (i = k ∨ i = k + 1) then s.t.f i j + ex else s.t.f i j := by
    intro i j
    rw [hg]
    simp only [Exact.add_eq]
  let W1 : Nat → Nat → K := fun i j => if i = k ∧ j + 1 = k then 0
    else if i = j ∧ (i = k ∨ i = k + 1) then W i j + ex else W i j
  have eW : ∀ i j, W1 i j = if i = k ∧ j + 1 = k then 0
    else if i = j ∧ (i = k ∨ i = k + 1) then W i j + ex else W i j := fun _ _ => rfl
  have hbr : ¬ br k ∧ ¬ br (k + 1) := ⟨fun hb => by have := (h.block k hb).1; omega,
    fun hb => by have := (h.block _ hb).1; omega⟩
  have hup : ∀ i j, ¬ (i = k ∧ j + 1 = k) → Schur.up k ex W1 i j = Schur.up (k + 2) ex W i j := by
    intro i j hij
    unfold Schur.up
    rw [eW, if_neg hij]
    by_cases e : i = j ∧ (i = k ∨ i = k + 1)
    · rw [if_pos e, if_neg (by omega), if_pos (by omega)]
      ring
    · rw [if_neg e]
      congr 1
      exact if_congr (by omega) rfl rfl
  have hR1 : Schur.Rep A (b + d) s.p.f (Schur.up k ex W1) := by
    by_cases h0 : 0 < k
    · refine hR.entry hd (i := k) (j := k - 1) (fun x y _ _ hxy => hup x y (by omega)) ?_
      unfold Schur.up
      rw [eW, if_pos (by omega), if_neg (by omega), if_neg (by omega),
        h.same k (k - 1) (by omega) (by omega) (by omega)]
      simpa using hs h0
    · exact (hR.congr (fun _ _ _ _ => rfl) (fun i j _ _ => hup i j (by omega))).mono (by linarith)
  have h1same : ∀ i j, i < n → j < n → i ≤ j ∨ i < k + 2 → ¬ (i = k ∧ j + 1 = k) → W1 i j = g i j := by
    intro i j hi hj hij hne
    rw [eW, if_neg hne, hgv, h.same i j hi hj hij]
  have h1low : ∀ i j, i < n → j + 1 < i → W1 i j = 0 := by
    intro i j hi hij
    rw [eW, if_neg (by omega), if_neg (by omega)]
    exact h.low i j hi hij
  have h1k : 0 < k → W1 k (k - 1) = 0 := fun h0 => by rw [eW, if_pos (by omega)]
  have h1drop : ∀ m, m + 1 < n → k ≤ m + 1 → m ≠ k → ¬ br m → W1 (m + 1) m = 0 ∧ |g (m + 1) m| ≤ δ := by
    intro m hm hkm hne hb
    rw [hgv, if_neg (by omega)]
    by_cases e : m + 1 = k
    · subst e
      refine ⟨h1k (by omega), (hs (by omega)).trans hδ⟩
    · rw [eW, if_neg (by omega), if_neg (by omega)]
      exact h.drop m hm (by omega) hb
  have hcut : k + 2 < n → W1 (k + 2) (k + 1) = 0 := fun hc => (h1drop (k + 1) hc (by omega) (by omega) hbr.2).1
  rcases hcase with ⟨hq, ht, hp⟩ | ⟨u, hq, hu, ht, hp⟩
  · -- a block without real eigenvalues
    refine ⟨W1, fun m => m = k ∨ br m, by rw [hp]; exact hR1, ⟨fun i j hi hj hij => ?_, h1low, fun m hm hkm hb => ?_,
      fun m hb => ?_⟩⟩
    · rw [ht]
      exact h1same i j hi hj (by omega) (by omega)
    · rw [ht]
      exact h1drop m hm hkm (fun hc => hb (.inl hc)) (fun hc => hb (.inr hc))
    · rw [ht]
      rcases hb with rfl | hb
      · refine ⟨le_refl _, hk, fun hc => ?_, h1same _ _ hk (by omega) (by omega) (by omega), ?_⟩
        · rcases hc with hc | hc
          · omega
          · exact hbr.2 hc
        · rw [hgv, hgv, hgv, hgv, if_pos (by omega), if_pos (by omega), if_neg (by omega), if_neg (by omega)]
          convert hq using 1
          ring
      · obtain ⟨c1, c2, c3, c4, c5⟩ := h.block m hb
        refine ⟨by omega, c2, fun hc => ?_, ?_, ?_⟩
        · rcases hc with hc | hc
          · omega
          · exact c3 hc
        · rw [eW, if_neg (by omega), if_neg (by omega), hgv, if_neg (by omega)]
          exact c4
        · rw [hgv, hgv, hgv, hgv, if_neg (by omega), if_neg (by omega), if_neg (by omega), if_neg (by omega)]
          exact c5
  · -- two real roots
    have ht : ∀ i j, i < n → j < n → s'.t.f i j = if i < k + 2 then
        Schur.rotV k u.1 u.2 (fun b => if k ≤ b then Schur.rotV k u.1 u.2 (fun i => g i b) i else g i b) j
        else if k ≤ j then Schur.rotV k u.1 u.2 (fun i => g i j) i else g i j := ht
    have hur : u.1 * u.1 + u.2 * u.2 = 1 := by
      rw [hu]
      exact Schur.unit_exact hx _
    have hF : ∀ i j, Schur.fullRot k u.1 u.2 W1 i j =
        Schur.rotV k u.1 u.2 (fun b => Schur.rotV k u.1 u.2 (fun i => W1 i b) i) j := fun _ _ => rfl
    have rE := Schur.rotV_exact k u.1 u.2
    have rOff : ∀ (f : Nat → K) (i : Nat), i ≠ k → i ≠ k + 1 → Schur.rotV k u.1 u.2 f i = f i := by
      intro f i h1 h2
      rw [rE, if_neg h2, if_neg h1]
    have rK : ∀ f : Nat → K, Schur.rotV k u.1 u.2 f k = u.2 * f k + u.1 * f (k + 1) := by
      intro f
      rw [rE, if_neg (by omega), if_pos rfl]
    have rK1 : ∀ f : Nat → K, Schur.rotV k u.1 u.2 f (k + 1) = u.2 * f (k + 1) - u.1 * f k := by
      intro f
      rw [rE, if_pos rfl]
    have rCongr : ∀ (f f' : Nat → K) (j : Nat), f k = f' k → f (k + 1) = f' (k + 1) → f j = f' j →
        Schur.rotV k u.1 u.2 f j = Schur.rotV k u.1 u.2 f' j := by
      intro f f' j h1 h2 h3
      rw [rE, rE, h1, h2, h3]
    -- a rotation of the rows, right of column `k`
    have hrow : ∀ i j, i < n → j < n → k ≤ j → i ≤ j ∨ i < k + 2 →
        Schur.rotV k u.1 u.2 (fun i => W1 i j) i = Schur.rotV k u.1 u.2 (fun i => g i j) i := by
      intro i j hi hj hkj hij
      by_cases e1 : i = k
      · subst e1
        rw [rK, rK, h1same i j hi hj (by omega) (by omega), h1same (i + 1) j (by omega) hj (by omega) (by omega)]
      · by_cases e2 : i = k + 1
        · subst e2
          rw [rK1, rK1, h1same k j (by omega) hj (by omega) (by omega), h1same (k + 1) j hi hj (by omega) (by omega)]
        · rw [rOff _ i e1 e2, rOff _ i e1 e2]
          exact h1same i j hi hj hij (by omega)
    -- the rotated block below the diagonal
    have hblk : Schur.fullRot k u.1 u.2 W1 (k + 1) k = 0 := by
      have z := Schur.unit_zero (x := s.t.f (k + 1) k) (a := s.t.f k k) (c := s.t.f k (k + 1))
        (y := s.t.f (k + 1) (k + 1)) hx rfl rfl hq
      rw [← hu] at z
      rw [hF, rK, rK1, rK1, h1same _ _ hk (by omega) (by omega) (by omega),
        h1same k k (by omega) (by omega) (by omega) (by omega), h1same _ _ hk hk (by omega) (by omega),
        h1same k (k + 1) (by omega) hk (by omega) (by omega), hgv, hgv, hgv, hgv, if_neg (by omega), if_pos (by omega),
        if_pos (by omega), if_neg (by omega)]
      linear_combination z
    have hsame : ∀ i j, i < n → j < n → i ≤ j ∨ i < k ∨ (k ≤ j ∧ i < k + 2) →
        Schur.fullRot k u.1 u.2 W1 i j = s'.t.f i j := by
      intro i j hi hj hij
      rw [ht i j hi hj, hF]
      by_cases e1 : i < k + 2
      · rw [if_pos e1]
        by_cases e2 : i < k
        · have hin : ∀ b, b < n → Schur.rotV k u.1 u.2 (fun i => W1 i b) i =
              if k ≤ b then Schur.rotV k u.1 u.2 (fun i => g i b) i else g i b := by
            intro b hb
            rw [rOff _ i (by omega) (by omega), rOff _ i (by omega) (by omega), ite_self]
            exact h1same i b hi hb (by omega) (by omega)
          exact rCongr _ _ _ (hin k (by omega)) (hin (k + 1) hk) (hin j hj)
        · have hin : ∀ b, b < n → k ≤ b → Schur.rotV k u.1 u.2 (fun i => W1 i b) i =
              if k ≤ b then Schur.rotV k u.1 u.2 (fun i => g i b) i else g i b := by
            intro b hb hkb
            rw [if_pos hkb]
            exact hrow i b hi hb hkb (by omega)
          exact rCongr _ _ _ (hin k (by omega) (le_refl _)) (hin (k + 1) hk (by omega)) (hin j hj (by omega))
      · rw [if_neg e1, if_pos (by omega), rOff _ j (by omega) (by omega)]
        exact hrow i j hi hj (by omega) (by omega)
    have hlate : ∀ i j, k + 2 ≤ i → Schur.fullRot k u.1 u.2 W1 i j = Schur.rotV k u.1 u.2 (W1 i) j := by
      intro i j hi
      rw [hF]
      congr 1
      funext b
      exact rOff _ i (by omega) (by omega)
    have hTlate : ∀ i j, i < n → j < n → k + 2 ≤ i → s'.t.f i j = g i j := by
      intro i j hi hj hki
      rw [ht i j hi hj, if_neg (by omega), rOff _ i (by omega) (by omega), ite_self]
    refine ⟨Schur.fullRot k u.1 u.2 W1, br, ?_, ⟨fun i j hi hj hij => hsame i j hi hj (by omega), fun i j hi hij => ?_,
      fun m hm hkm hb => ?_, fun m hb => ?_⟩⟩
    · refine hR1.rot hur hk hp fun i j hi hj => ?_
      -- the shift stands outside the rotated lines
      have hup1 : ∀ i j, k ≤ i → Schur.up k ex W1 i j = W1 i j := by
        intro i j hi
        unfold Schur.up
        rw [if_neg (by omega), add_zero]
      have hup2 : ∀ i j, k ≤ j → Schur.up k ex W1 i j = W1 i j := by
        intro i j hi
        unfold Schur.up
        rw [if_neg (by omega), add_zero]
      have hin : ∀ i j, k ≤ i ∨ k ≤ j → Schur.rotV k u.1 u.2 (fun i => Schur.up k ex W1 i j) i =
          Schur.rotV k u.1 u.2 (fun i => W1 i j) i := by
        intro i j hij
        rw [rE, rE, hup1 k j (le_refl _), hup1 (k + 1) j (by omega)]
        rcases hij with hij | hij
        · rw [hup1 i j hij]
        · rw [hup2 i j hij]
      show Schur.up k ex (Schur.fullRot k u.1 u.2 W1) i j = Schur.rotV k u.1 u.2
        (fun b => Schur.rotV k u.1 u.2 (fun i => Schur.up k ex W1 i b) i) j
      have hu1 : ∀ F : Nat → Nat → K, Schur.up k ex F i j = F i j + if i = j ∧ i < k then ex else 0 := fun _ => rfl
      by_cases e1 : k ≤ i ∨ k ≤ j
      · rw [hu1, if_neg (by omega), add_zero, hF]
        exact rCongr _ _ _ (hin i k (by omega)).symm (hin i (k + 1) (by omega)).symm (hin i j e1).symm
      · rw [rOff _ j (by omega) (by omega), rOff _ i (by omega) (by omega), hu1, hu1, hF, rOff _ j (by omega) (by omega),
          rOff _ i (by omega) (by omega)]
    · -- below the first sub-diagonal
      by_cases e1 : k + 2 ≤ i
      · rw [hlate i j e1, rE]
        split
        · rw [h1low i (k + 1) hi (by omega), h1low i k hi (by omega)]
          ring
        · split
          · rw [h1low i k hi (by omega)]
            by_cases e2 : i = k + 2
            · subst e2
              rw [hcut hi]
              ring
            · rw [h1low i (k + 1) hi (by omega)]
              ring
          · exact h1low i j hi hij
      · rw [hF, rOff _ j (by omega) (by omega)]
        by_cases e2 : i = k
        · subst e2
          rw [rK, h1low i j hi hij, h1low (i + 1) j hk (by omega)]
          ring
        · by_cases e3 : i = k + 1
          · subst e3
            have : W1 k j = 0 := by
              by_cases e : j + 1 = k
              · obtain rfl : j = k - 1 := by omega
                exact h1k (by omega)
              · exact h1low k j (by omega) (by omega)
            rw [rK1, h1low _ j hi hij, this]
            ring
          · rw [rOff _ i e2 e3]
            exact h1low i j hi hij
    · by_cases e1 : m = k
      · subst e1
        refine ⟨hblk, ?_⟩
        rw [← hsame (m + 1) m hm (by omega) (by omega), hblk, abs_zero]
        exact hd.trans hδ
      · obtain ⟨d1, d2⟩ := h1drop m hm hkm e1 hb
        by_cases e2 : m + 1 = k
        · subst e2
          have hz : Schur.fullRot (m + 1) u.1 u.2 W1 (m + 1) m = 0 := by
            rw [hF, rOff _ m (by omega) (by omega), rK, d1, h1low _ m hk (by omega)]
            ring
          refine ⟨hz, ?_⟩
          rw [ht (m + 1) m hm (by omega), if_pos (by omega), rOff _ m (by omega) (by omega), if_neg (by omega)]
          exact d2
        · rw [hTlate (m + 1) m hm (by omega) (by omega)]
          refine ⟨?_, d2⟩
          rw [hlate _ _ (by omega)]
          by_cases e3 : m = k + 1
          · subst e3
            rw [rK1, d1, h1low _ k hm (by omega)]
            ring
          · rw [rOff _ m e1 e3]
            exact d1
    · obtain ⟨c1, c2, c3, c4, c5⟩ := h.block m hb
      refine ⟨by omega, c2, c3, ?_, ?_⟩
      · rw [hlate _ _ (by omega), rOff _ m (by omega) (by omega), hTlate (m + 1) m c2 (by omega) (by omega), eW,
          if_neg (by omega), if_neg (by omega), hgv, if_neg (by omega)]
        exact c4
      · rw [hTlate m m (by omega) (by omega) (by omega), hTlate (m + 1) (m + 1) c2 c2 (by omega),
          hTlate (m + 1) m c2 (by omega) (by omega), hTlate m (m + 1) (by omega) c2 (by omega), hgv, hgv, hgv, hgv,
          if_neg (by omega), if_neg (by omega), if_neg (by omega), if_neg (by omega)]
        exact c5


/-! ## Sizes -/

theorem Schur.norm_le {t : Tab K n n} {x N : K} (h : Schur.norm t = .ok x) (hN : 0 ≤ N)
    (ht : fro2 (mx n n t.f) ≤ N ^ 2) : x ≤ n * N := by
  have h1 : x ≤ ∑ i ∈ range n, ∑ j ∈ range n, |t.f i j| := by
    unfold Schur.norm at h
    have hw := wp_forUp (E := fun _ => False) (fun k (s : K) => s ≤ ∑ i ∈ range k, ∑ j ∈ range n, |t.f i j|)
      (Nat.zero_le n) (body := fun i s => sumUp (i - 1) n (fun j => do return Flt.abs (← t.get i j)) s)
      (s := (Flt.zero : K)) (by simp) (fun i s _ hi' hI => by
        rw [sumUp_ok (fun j => Flt.abs (t.f i j)) fun j _ hj => by rw [Tab.get_ok hi' hj]; rfl, wp_ok,
          lsum_exact, sum_range_succ]
        refine add_le_add hI ?_
        simp only [Exact.abs_eq]
        refine sum_le_sum_of_subset_of_nonneg (fun j hj => ?_) fun j _ _ => abs_nonneg _
        exact mem_range.2 (mem_Ico.1 hj).2)
    rw [h, wp_ok] at hw
    exact hw
  have h2 : (∑ i ∈ range n, ∑ j ∈ range n, |t.f i j|) ^ 2 ≤ (n * N) ^ 2 := by
    rw [← sum_product' (range n) (range n) (fun i j => |t.f i j|)]
    refine sq_sum_le_card_mul_sum_sq.trans ?_
    rw [card_product, card_range, sum_product' (range n) (range n) (fun i j => |t.f i j| ^ 2)]
    have h3 : fro2 (mx n n t.f) = ∑ i ∈ range n, ∑ j ∈ range n, |t.f i j| ^ 2 := by
      unfold fro2
      rw [← Fin.sum_univ_eq_sum_range (fun i => ∑ j ∈ range n, |t.f i j| ^ 2) n]
      refine sum_congr rfl fun i _ => ?_
      rw [← Fin.sum_univ_eq_sum_range (fun j => |t.f i j| ^ 2) n]
      exact sum_congr rfl fun j _ => (sq_abs _).symm
    rw [← h3]
    push_cast
    have : 0 ≤ (n : K) * n := mul_self_nonneg _
    nlinarith
  have h4 := abs_le_of_sq_le_sq h2 (by positivity)
  exact h1.trans ((le_abs_self _).trans h4)

theorem Schur.scale_le {norm a c S : K} (h1 : norm ≤ S) (h2 : |a| + |c| ≤ S) : Schur.scale norm a c ≤ S := by
  unfold Schur.scale
  simp only [Exact.eq_eq, Exact.abs_eq, Exact.add_eq, Exact.zero_eq, decide_eq_true_eq]
  split
  · exact h1
  · exact h2

/-- The entries of the active lines. -/
theorem Schur.Virt.diag {u : Nat} (h : Schur.Virt n u δ s.t.f W br) {M : K} (hex : |ex| ≤ M)
    (hV : ∀ i j, i < n → j < n → |Schur.up u ex W i j| ≤ M) {i : Nat} (hi : i < u) (hn : u ≤ n) :
    |s.t.f i i| ≤ 2 * M := by
  have h1 := hV i i (by omega) (by omega)
  unfold Schur.up at h1
  rw [if_pos ⟨rfl, hi⟩, h.same i i (by omega) (by omega) (.inr hi)] at h1
  have e : s.t.f i i = (s.t.f i i + ex) - ex := by ring
  rw [e]
  exact (abs_sub _ _).trans (by linarith)

theorem Schur.Virt.found {u l il : Nat} (h : Schur.Virt n u δ s.t.f W br) {M eps norm : K} (hM : 0 ≤ M) (he : 0 ≤ eps)
    (hex : |ex| ≤ M) (hV : ∀ i j, i < n → j < n → |Schur.up u ex W i j| ≤ M) (hn : u ≤ n) (hl : l < u)
    (hnorm : norm ≤ n * M) (e : Schur.find eps norm s.t l = .ok il) : il ≤ l ∧
      (0 < il → |s.t.f il (il - 1)| ≤ eps * ((n + 4) * M)) := by
  obtain ⟨il', e', h1, h2, h3⟩ := Schur.find_ok eps norm s.t (show l < n by omega)
  rw [e] at e'
  cases e'
  refine ⟨h1, fun h0 => ?_⟩
  have h4 := h2 h0
  simp only [Exact.lt_eq, Exact.abs_eq, Exact.mul_eq, decide_eq_true_eq] at h4
  refine h4.le.trans (mul_le_mul_of_nonneg_left ?_ he)
  have d1 := h.diag hex hV (show il - 1 < u by omega) hn
  have d2 := h.diag hex hV (show il < u by omega) hn
  have : 0 ≤ (n : K) * M := by positivity
  exact Schur.scale_le (by linarith) (by linarith)

/-- One double step. -/
theorem Schur.Virt.step (κ : Schur.Lit K) {iu il it : Nat} {N norm : K}
    (h : Schur.Virt n (iu + 1) δ s.t.f W br) (hR : Schur.Rep A b s.p.f (Schur.up (iu + 1) ex W)) (hN : 0 ≤ N)
    (hA : fro2 A ≤ N ^ 2) (he : 0 ≤ κ.eps) (hex : |ex| ≤ N + b) (hnorm : norm ≤ n * (N + b)) (hil : il + 2 ≤ iu)
    (hiu : iu < n) {s' : Schur K n} {th : Tab K n n × Schur.Shift K} {v : Nat × K × K × K}
    (e1 : Schur.find κ.eps norm s.t iu = .ok il) (e2 : Schur.computeShift κ il iu it s.t ex = .ok th)
    (e3 : Schur.initQR κ.eps th.1 th.2 il (iu - 2 - il) = .ok v)
    (e4 : Schur.qrStep κ.eps il v.1 iu v.2 ⟨th.1, s.p⟩ = .ok s') :
    |th.2.ex| ≤ N + b ∧ ∃ W', Schur.Rep A (b + (8 * n + 24) * κ.eps * (N + b + 1)) s'.p.f
      (Schur.up (iu + 1) th.2.ex W') ∧ Schur.Virt n (iu + 1) δ s'.t.f W' br := by
  have hM : 0 ≤ N + b := add_nonneg hN hR.pos
  have hV : ∀ i j, i < n → j < n → |Schur.up (iu + 1) ex W i j| ≤ N + b := fun i j hi hj => hR.le hN hA hi hj
  have hdT : ∀ i, i ≤ iu → Schur.up (iu + 1) ex W i i = s.t.f i i + ex := by
    intro i hi
    unfold Schur.up
    rw [if_pos (by omega), h.same i i (by omega) (by omega) (by omega)]
  have hoT : ∀ i j, i ≤ iu → j ≤ iu → i ≠ j → Schur.up (iu + 1) ex W i j = s.t.f i j := by
    intro i j hi hj hij
    unfold Schur.up
    rw [if_neg (by omega), h.same i j (by omega) (by omega) (by omega), add_zero]
  obtain ⟨-, hsm⟩ := h.found hM he hex hV hiu (show iu < iu + 1 by omega) hnorm e1
  have h4 : (s.t.f iu iu + ex) ^ 2 + (s.t.f (iu - 1) (iu - 1) + ex) ^ 2 +
      (s.t.f iu (iu - 1) ^ 2 + s.t.f (iu - 1) iu ^ 2) ≤ (N + b) ^ 2 := by
    have := Schur.fro2_four (mx n n (Schur.up (iu + 1) ex W)) (i := ⟨iu, hiu⟩) (j := ⟨iu - 1, by omega⟩)
      (fun hc => by have := congrArg Fin.val hc; dsimp only at this; omega)
    have hs := hR.size hN hA
    simp only [mx] at this
    rw [hdT iu (le_refl _), hdT (iu - 1) (by omega), hoT iu (iu - 1) (le_refl _) (by omega) (by omega),
      hoT (iu - 1) iu (by omega) (le_refl _) (by omega)] at this
    linarith
  obtain ⟨hex', d, hdex, ht⟩ := Schur.shift_bound κ it hiu (by omega) (show il < iu by omega) s.t hM hex h4 e2
  refine ⟨hex', ?_⟩
  obtain ⟨v1, v2, v3⟩ := Schur.initQR_val κ.eps th.1 th.2 il (iu - 2 - il) (by omega) e3
  let W1 : Nat → Nat → K := fun i j => W i j - if i = j ∧ i ≤ iu then d else 0
  have eW : ∀ i j, W1 i j = W i j - if i = j ∧ i ≤ iu then d else 0 := fun _ _ => rfl
  have hup : ∀ i j, Schur.up (iu + 1) th.2.ex W1 i j = Schur.up (iu + 1) ex W i j := by
    intro i j
    unfold Schur.up
    rw [eW, hdex]
    by_cases e : i = j ∧ i < iu + 1
    · rw [if_pos e, if_pos e, if_pos (by omega)]
      ring
    · rw [if_neg e, if_neg e, if_neg (by omega)]
      ring
  have hdiag : ∀ i, i ≤ iu → |th.1.f i i| ≤ 2 * (N + b) := by
    intro i hi
    have h5 := hV i i (by omega) (by omega)
    rw [hdT i hi] at h5
    have e : th.1.f i i = (s.t.f i i + ex) - th.2.ex := by
      rw [ht, if_pos ⟨rfl, hi⟩, hdex]
      ring
    rw [e]
    exact (abs_sub _ _).trans (by linarith)
  have hMid : Schur.Mid A b th.2.ex v.1 iu v.1 th.1.f W1 (⟨th.1, s.p⟩ : Schur K n) W1 := by
    refine ⟨hR.congr (fun _ _ _ _ => rfl) (fun i j _ _ => hup i j), ⟨fun i j hi hij _ => ?_, fun hc => ?_⟩,
      fun i j hi hj hij _ => ?_, fun _ _ _ _ _ => rfl, fun _ _ _ _ _ => rfl⟩
    · rw [eW, if_neg (by omega), h.low i j hi hij, sub_zero]
    · rw [eW, if_neg (by omega), sub_zero]
      exact (h.drop iu hc (le_refl _) (fun hb => by have := (h.block iu hb).1; omega)).1
    · rw [eW, h.same i j hi hj (by omega)]
      exact (ht i j).symm
  have hw : 0 < v.1 → W1 v.1 (v.1 - 1) = s.t.f v.1 (v.1 - 1) := fun h0 => by
    rw [eW, if_neg (by omega), sub_zero]
    exact h.same _ _ (by omega) (by omega) (by omega)
  have hS : 0 ≤ κ.eps * ((n + 4) * (N + b)) := by positivity
  obtain ⟨s1, W2, e5, hM2⟩ := hMid.step (d := 2 * (κ.eps * ((n + 4) * (N + b)))) he (by linarith) v1 (by omega) hiu v.2
    (fun h0 hc => by
      rw [hw h0, ← hc]
      have := hsm (by omega)
      linarith)
    (fun h0 hc => by
      have h5 := v3 (Ne.symm hc)
      simp only [Exact.lt_eq, Exact.abs_eq, Exact.mul_eq, Exact.add_eq, decide_eq_true_eq] at h5
      have e : W1 v.1 (v.1 - 1) = th.1.f v.1 (v.1 - 1) := by
        rw [hw h0, ht, if_neg (by omega), sub_zero]
      rw [e]
      refine h5.le.trans ?_
      have d1 := hdiag (v.1 - 1) (by omega)
      have d2 := hdiag v.1 (by omega)
      have d3 := hdiag (v.1 + 1) (by omega)
      have h6 : |th.1.f (v.1 - 1) (v.1 - 1)| + |th.1.f v.1 v.1| + |th.1.f (v.1 + 1) (v.1 + 1)| ≤
          2 * ((n + 4) * (N + b)) := by
        have : 0 ≤ (n : K) * (N + b) := by positivity
        linarith
      have h7 := mul_le_mul_of_nonneg_left h6 (mul_nonneg he (abs_nonneg v.2.1))
      calc κ.eps * (|v.2.1| * (|th.1.f (v.1 - 1) (v.1 - 1)| + |th.1.f v.1 v.1| + |th.1.f (v.1 + 1) (v.1 + 1)|))
          = κ.eps * |v.2.1| * (|th.1.f (v.1 - 1) (v.1 - 1)| + |th.1.f v.1 v.1| + |th.1.f (v.1 + 1) (v.1 + 1)|) := by
            ring
        _ ≤ _ := h7
        _ = _ := by ring)
  rw [e4] at e5
  cases e5
  refine ⟨W2, (hM2.mono ?_).rep, ⟨fun i j hi hj hij => ?_, fun i j hi hij => ?_, fun m hm hu hb => ?_, fun m hb => ?_⟩⟩
  · have h5 : 0 ≤ (n : K) * κ.eps * (N + b) := by positivity
    nlinarith
  · exact hM2.same i j hi hj (by omega) (fun hs => by have := hs.1; have := hs.2; omega)
  · exact hM2.shape.zero i j hi hij (fun hb => by have := hb.1; omega)
  · rw [hM2.tailW _ _ hm (by omega) (by omega), hM2.tailT _ _ hm (by omega) (by omega), eW, if_neg (by omega), ht,
      if_neg (by omega), sub_zero, sub_zero]
    exact h.drop m hm hu hb
  · obtain ⟨c1, c2, c3, c4, c5⟩ := h.block m hb
    refine ⟨c1, c2, c3, ?_, ?_⟩
    · rw [hM2.tailW _ _ c2 (by omega) (by omega), hM2.tailT _ _ c2 (by omega) (by omega), eW, if_neg (by omega), ht,
        if_neg (by omega), sub_zero, sub_zero]
      exact c4
    · rw [hM2.tailT m m (by omega) (by omega) (by omega), hM2.tailT (m + 1) (m + 1) c2 c2 (by omega),
        hM2.tailT (m + 1) m c2 (by omega) (by omega), hM2.tailT m (m + 1) (by omega) c2 (by omega), ht, ht, ht, ht,
        if_neg (by omega), if_neg (by omega), if_neg (by omega), if_neg (by omega)]
      simpa using c5


/-! ## The loop -/

/-- The error after `e` rounds of the loop. -/
def Schur.err (n e : Nat) (eps N : K) : K := (N + 1) * (1 + (8 * n + 24) * eps) ^ e - (N + 1)

theorem Schur.err_mono {e e' : Nat} {eps N : K} (he : 0 ≤ eps) (hN : 0 ≤ N) (h : e ≤ e') :
    Schur.err n e eps N ≤ Schur.err n e' eps N := by
  unfold Schur.err
  have h1 : (1 : K) ≤ 1 + (8 * n + 24) * eps := by
    have : 0 ≤ (8 * (n : K) + 24) * eps := by positivity
    linarith
  have := mul_le_mul_of_nonneg_left (pow_le_pow_right₀ h1 h) (show 0 ≤ N + 1 by linarith)
  linarith

theorem Schur.err_succ (e : Nat) (eps N : K) : Schur.err n e eps N + (8 * n + 24) * eps *
    (N + Schur.err n e eps N + 1) = Schur.err n (e + 1) eps N := by
  unfold Schur.err
  rw [pow_succ]
  ring

/-- The loop, in exact arithmetic. -/
theorem Schur.loop_rep (κ : Schur.Lit K) (he : 0 < κ.eps) {N norm : K} (hN : 0 ≤ N) (hA : fro2 A ≤ N ^ 2)
    (hn0 : 0 < norm) (hnorm : norm ≤ n * N) (hR : Schur.Rep A 0 s.p.f s.t.f)
    (hlow : ∀ i j, i < n → j + 1 < i → s.t.f i j = 0) {fuel : Nat} {s' : Schur K n}
    (h : Schur.loop κ norm fuel n 0 Flt.zero s = .ok (some s')) :
    ∃ W br, Schur.Rep A (Schur.err n (101 * n) κ.eps N) s'.p.f W ∧
      Schur.Virt n 0 (κ.eps * ((n + 4) * (N + Schur.err n (101 * n) κ.eps N))) s'.t.f W br := by
  have hpos : ∀ e, 0 ≤ Schur.err n e κ.eps N := by
    intro e
    have := Schur.err_mono (n := n) he.le hN (Nat.zero_le e)
    rwa [show Schur.err n 0 κ.eps N = 0 by unfold Schur.err; ring] at this
  -- the entries neglected in a round
  have hdrop : ∀ e, 0 ≤ κ.eps * ((n + 4) * (N + Schur.err n e κ.eps N)) := fun e => by
    have := hpos e
    have := he.le
    positivity
  have hδ : ∀ e, e ≤ 101 * n → κ.eps * ((n + 4) * (N + Schur.err n e κ.eps N)) ≤
      κ.eps * ((n + 4) * (N + Schur.err n (101 * n) κ.eps N)) := by
    intro e h
    have := Schur.err_mono (n := n) he.le hN h
    refine mul_le_mul_of_nonneg_left (mul_le_mul_of_nonneg_left (by linarith) (by positivity)) he.le
  have hstep : ∀ e e', e < e' → Schur.err n e κ.eps N + κ.eps * ((n + 4) * (N + Schur.err n e κ.eps N)) ≤
      Schur.err n e' κ.eps N := by
    intro e e' h
    refine le_trans ?_ (Schur.err_mono (n := n) he.le hN (show e + 1 ≤ e' from h))
    rw [← Schur.err_succ]
    have h1 := hpos e
    have h2 : 0 ≤ κ.eps * (N + Schur.err n e κ.eps N) := mul_nonneg he.le (by linarith)
    have h3 : 0 ≤ (n : K) * (κ.eps * (N + Schur.err n e κ.eps N)) := by positivity
    have h4 : 0 ≤ (n : K) * κ.eps := by positivity
    nlinarith
  obtain ⟨ex', W, br, hR', -, hV'⟩ := Schur.loop_inv κ norm (fun u it ex s => ∃ W br,
      Schur.Rep A (Schur.err n (101 * (n - u) + it) κ.eps N) s.p.f (Schur.up u ex W) ∧
      |ex| ≤ N + Schur.err n (101 * (n - u) + it) κ.eps N ∧
      Schur.Virt n u (κ.eps * ((n + 4) * (N + Schur.err n (101 * n) κ.eps N))) s.t.f W br)
    (fun iu it ex s s' hiu hit hJ ef e => by
      obtain ⟨W, br, hR, hex, hV⟩ := hJ
      have hlt : 101 * (n - (iu + 1)) + it < 101 * (n - iu) + 0 := by omega
      have hM : 0 ≤ N + Schur.err n (101 * (n - (iu + 1)) + it) κ.eps N := add_nonneg hN (hpos _)
      have hnm : norm ≤ n * (N + Schur.err n (101 * (n - (iu + 1)) + it) κ.eps N) :=
        hnorm.trans (mul_le_mul_of_nonneg_left (by linarith [hpos (101 * (n - (iu + 1)) + it)]) (by positivity))
      obtain ⟨-, hsm⟩ := hV.found hM he.le hex (fun i j hi hj => hR.le hN hA hi hj) hiu (Nat.lt_succ_self iu) hnm ef
      obtain ⟨W', hR', hV'⟩ := hV.single hR hiu (hdrop _) (hδ _ (by omega)) hsm e
      exact ⟨W', br, hR'.mono (hstep _ _ hlt), hex.trans (by linarith [Schur.err_mono (n := n) he.le hN hlt.le]), hV'⟩)
    (fun k it ex s s' hk hit hJ ef e => by
      obtain ⟨W, br, hR, hex, hV⟩ := hJ
      have hlt : 101 * (n - (k + 2)) + it < 101 * (n - k) + 0 := by omega
      have hM : 0 ≤ N + Schur.err n (101 * (n - (k + 2)) + it) κ.eps N := add_nonneg hN (hpos _)
      have hnm : norm ≤ n * (N + Schur.err n (101 * (n - (k + 2)) + it) κ.eps N) :=
        hnorm.trans (mul_le_mul_of_nonneg_left (by linarith [hpos (101 * (n - (k + 2)) + it)]) (by positivity))
      obtain ⟨-, hsm⟩ := hV.found hM he.le hex (fun i j hi hj => hR.le hN hA hi hj) hk (Nat.lt_succ_self (k + 1)) hnm ef
      obtain ⟨il, e', -, -, h3⟩ := Schur.find_ok κ.eps norm s.t (show k + 1 < n by omega)
      rw [ef] at e'
      cases e'
      have hlt2 := h3 (k + 1) (Nat.lt_succ_self k) (le_refl _)
      have hx : s.t.f (k + 1) k ≠ 0 := by
        intro hx
        rw [show k + 1 - 1 = k by omega, hx] at hlt2
        simp only [Exact.lt_eq, Exact.abs_eq, abs_zero, Exact.mul_eq, decide_eq_false_iff_not] at hlt2
        refine hlt2 (mul_pos he ?_)
        unfold Schur.scale
        simp only [Exact.eq_eq, Exact.abs_eq, Exact.add_eq, Exact.zero_eq, decide_eq_true_eq]
        split
        · exact hn0
        · rename_i hne
          exact lt_of_le_of_ne (add_nonneg (abs_nonneg _) (abs_nonneg _)) (Ne.symm hne)
      obtain ⟨W', br', hR', hV'⟩ := hV.pair hR hk (hdrop _) (hδ _ (by omega)) hsm hx e
      exact ⟨W', br', hR'.mono (hstep _ _ hlt), hex.trans (by linarith [Schur.err_mono (n := n) he.le hN hlt.le]), hV'⟩)
    (fun il iu it ex s s' th v hil hiu hit hJ e1 e2 e3 e4 => by
      obtain ⟨W, br, hR, hex, hV⟩ := hJ
      have hnm : norm ≤ n * (N + Schur.err n (101 * (n - (iu + 1)) + it) κ.eps N) :=
        hnorm.trans (mul_le_mul_of_nonneg_left (by linarith [hpos (101 * (n - (iu + 1)) + it)]) (by positivity))
      obtain ⟨hex', W', hR', hV'⟩ := hV.step κ hR hN hA he.le hex hnm hil hiu e1 e2 e3 e4
      rw [Schur.err_succ] at hR'
      exact ⟨W', br, hR', hex'.trans (by
        linarith [Schur.err_mono (n := n) he.le hN 
          (show 101 * (n - (iu + 1)) + it ≤ 101 * (n - (iu + 1)) + (it + 1) by omega)]), hV'⟩)
    fuel n 0 Flt.zero s s' (le_refl _) (by omega) (by omega)
    ⟨s.t.f, fun _ => False, by
      refine (hR.congr (fun _ _ _ _ => rfl) (fun i j _ _ => ?_)).mono (hpos _)
      unfold Schur.up
      rw [Exact.zero_eq, ite_self, add_zero], by
      rw [Exact.zero_eq, abs_zero]
      exact add_nonneg hN (hpos _),
      ⟨fun _ _ _ _ _ => rfl, hlow, fun k hk hk' => absurd hk' (by omega), fun k hb => absurd hb id⟩⟩ h
  refine ⟨W, br, ?_, hV'⟩
  rw [Nat.sub_zero, Nat.add_zero] at hR'
  refine hR'.congr (fun _ _ _ _ => rfl) (fun i j _ _ => ?_)
  unfold Schur.up
  rw [if_neg (by omega), add_zero]

end Linear
