import Verif.Lemmas.SvdSteps
import Verif.Lemmas.SvdLemmas

/-!
# The singular value decomposition in any arithmetic: no fault, and the order of the values
-/

namespace Linear

variable {α : Type} [Flt α] {m n : Nat}

/-! ## The reduction -/

theorem Svd.redStep_safe (hyp : α → α → α) {nct nrt k : Nat} (h : k < nct) (hnct : nct ≤ n) (hm : n ≤ m)
    (hnrt : nrt + 2 ≤ n ∨ nrt = 0) (w : Svd.Red α m n) (hu : ∀ i j, i < j → w.u.f i j = Flt.zero) :
    ∃ w', Svd.redStep hyp nct nrt k w = .ok w' ∧ ∀ i j, i < j → w'.u.f i j = Flt.zero := by
  have e0 : Svd.redStep hyp nct nrt k w =
      (Svd.colPass hyp nct k w >>= Svd.colRest nct k >>= Svd.keepU nct k) >>= Svd.rowPass hyp nrt k := by
    unfold Svd.redStep
    simp only [bind_assoc]
  rw [e0]
  obtain ⟨w1, e1, -, -, -, -, -, hu2, -⟩ := Svd.left_ok hyp h (show k < m by omega) (show k < n by omega) w
  rw [e1, ok_bind]
  have hu' : ∀ i j, i < j → w1.u.f i j = Flt.zero := fun i j hij => by rw [hu2 i j (by omega), hu i j hij]
  by_cases hk : k < nrt
  · obtain ⟨w2, e2, -, -, -, -, -, -, q⟩ := Svd.right_ok hyp hk (by omega) (show k < m by omega) w1
    exact ⟨w2, e2, by rw [q]; exact hu'⟩
  · refine ⟨w1, ?_, hu'⟩
    unfold Svd.rowPass
    rw [if_neg hk]
    rfl

theorem Svd.genU_safe {nct : Nat} (hnct : nct ≤ n) (hm : n ≤ m) (s : Row α n) (u : Tab α m n)
    (hup : ∀ i j, i < j → u.f i j = Flt.zero) : ∃ u', Svd.genU nct s u = .ok u' := by
  unfold Svd.genU
  obtain ⟨u1, e1, h1⟩ := Wp.exists_ok (wp_forUp (ε := Fault) (a := nct) (b := n)
    (body := fun j => Svd.unitCol j) (s := u) (E := fun _ => False)
    (fun b (t : Tab α m n) => ∀ i j, j < nct → t.f i j = u.f i j) hnct (fun _ _ _ => rfl)
    (fun j t g1 g2 g3 => by
      obtain ⟨t', e, q1, q2⟩ := Svd.unitCol_ok (show j < m by omega) g2 t
      exact wp_of_eq_ok e fun i y hy => by rw [q2 i y (by omega), g3 i y hy]))
  rw [e1, ok_bind]
  obtain ⟨u', e2, -⟩ := Wp.exists_ok (wp_forDown (ε := Fault) (a := nct) (b := 0)
    (body := Svd.genUStep s) (s := u1) (E := fun _ => False)
    (fun k (t : Tab α m n) => ∀ i j, j < k → t.f i j = u.f i j) (Nat.zero_le _) h1
    (fun k t g1 g2 g3 => by
      obtain ⟨t', e, q1, q2, q3⟩ := Svd.genUStep_ok (show k < m by omega) (show k < n by omega) s t
        (fun hk => by rw [g3 _ _ (by omega), hup _ _ (by omega)])
      exact wp_of_eq_ok e fun i j hj => by rw [q3 i j hj, g3 i j (by omega)]))
  exact ⟨u', e2⟩

theorem Svd.genV_safe {nrt : Nat} (hr : nrt < n) (e : Row α n) (v : Tab α n n) :
    ∃ v', Svd.genV nrt e v = .ok v' := by
  unfold Svd.genV
  obtain ⟨v', e2, -⟩ := Wp.exists_ok (wp_forDown (ε := Fault) (a := n) (b := 0)
    (body := Svd.genVStep nrt e) (s := v) (E := fun _ => False) (fun _ _ => True) (Nat.zero_le _) trivial
    (fun k t g1 g2 _ => by
      obtain ⟨t', e', -⟩ := Svd.genVStep_ok g2 hr e t
      exact wp_of_eq_ok e' trivial))
  exact ⟨v', e2⟩

theorem Svd.reduce_safe (hyp : α → α → α) (hn : 0 < n) (hm : n ≤ m) (a : Tab α m n) :
    ∃ x, Svd.reduce hyp a = .ok x := by
  unfold Svd.reduce
  rw [show max (min (m - 1) n) (n - 2) = min (m - 1) n by omega]
  generalize hnct : min (m - 1) n = nct
  generalize hnrt : n - 2 = nrt
  obtain ⟨w, e1, hw⟩ := Wp.exists_ok (wp_forUp (ε := Fault) (a := 0) (b := nct)
    (body := Svd.redStep hyp nct nrt) (s := ⟨a, Row.zero n, Row.zero n, Jag.zero m _, Jag.zero n _⟩)
    (E := fun _ => False) (fun k (w : Svd.Red α m n) => ∀ i j, i < j → w.u.f i j = Flt.zero) (Nat.zero_le _)
    (fun i j _ => rfl)
    (fun k w _ g2 hw => by
      obtain ⟨w', e, hw'⟩ := Svd.redStep_safe (n := n) (nrt := nrt) hyp g2 (by omega) hm (by omega) w hw
      exact wp_of_eq_ok e hw'))
  rw [e1, ok_bind, Svd.lastEntries_ok hn hm, ok_bind]
  dsimp only
  obtain ⟨u, e2⟩ := Svd.genU_safe (show nct ≤ n by omega) hm
    ⟨if nct < n then upd1 w.s.f nct (w.a.f nct nct) else w.s.f⟩ w.u hw
  rw [e2, ok_bind]
  obtain ⟨v, e3⟩ := Svd.genV_safe (show nrt < n by omega)
    ⟨upd1 (if nrt + 1 < n then upd1 w.e.f nrt (w.a.f nrt (n - 1)) else w.e.f) (n - 1) Flt.zero⟩ w.v
  rw [e3, ok_bind]
  exact ⟨_, rfl⟩

/-! ## The iteration -/

theorem Svd.deflate_safe (hyp : α → α → α) {p k : Nat} (hk : k < p - 1) (hp : p ≤ n) (x : Svd.St α m n) :
    ∃ x', Svd.deflate hyp p k x = .ok x' ∧ ∀ i, p ≤ i → x'.s.f i = x.s.f i := by
  unfold Svd.deflate
  rw [Row.get_ok (by omega), ok_bind, Row.set_ok (by omega), ok_bind]
  obtain ⟨w, e, h⟩ := Wp.exists_ok (wp_forDown (ε := Fault) (a := p - 1) (b := k)
    (body := Svd.deflateStep hyp p k) (s := (x.e.f (p - 2), ⟨x.s, ⟨upd1 x.e.f (p - 2) Flt.zero⟩, x.u, x.v⟩))
    (E := fun _ => False) (fun _ (w : α × Svd.St α m n) => ∀ a, p ≤ a → w.2.s.f a = x.s.f a) (by omega)
    (fun _ _ => rfl) (fun j w g1 g2 q => by
      obtain ⟨w', e, D⟩ := Svd.deflateStep_ok hyp (k := k) g2 hp w
      refine wp_of_eq_ok e fun a ha => ?_
      rw [D.s, upd1_eq, if_neg (by omega), q a ha]))
  rw [e, ok_bind]
  exact ⟨_, rfl, h⟩

theorem Svd.split_safe (hyp : α → α → α) {p k : Nat} (hk0 : 0 < k) (hk : k < p) (hp : p ≤ n) (x : Svd.St α m n) :
    ∃ x', Svd.split hyp p k x = .ok x' ∧ ∀ i, p ≤ i → x'.s.f i = x.s.f i := by
  unfold Svd.split
  rw [Row.get_ok (by omega), ok_bind, Row.set_ok (by omega), ok_bind]
  obtain ⟨w, e, h⟩ := Wp.exists_ok (wp_forUp (ε := Fault) (a := k) (b := p)
    (body := Svd.splitStep hyp k) (s := (x.e.f (k - 1), ⟨x.s, ⟨upd1 x.e.f (k - 1) Flt.zero⟩, x.u, x.v⟩))
    (E := fun _ => False) (fun _ (w : α × Svd.St α m n) => ∀ a, p ≤ a → w.2.s.f a = x.s.f a) (by omega)
    (fun _ _ => rfl) (fun j w g1 g2 q => by
      obtain ⟨w', e, D⟩ := Svd.splitStep_ok hyp (k := k) g1 (show j < n by omega) w
      refine wp_of_eq_ok e fun a ha => ?_
      rw [D.s, upd1_eq, if_neg (by omega), q a ha]))
  rw [e, ok_bind]
  exact ⟨_, rfl, h⟩

theorem Svd.qr_safe (hyp : α → α → α) {p k : Nat} (hk : k < p - 1) (hp : p ≤ n) (hm : n ≤ m) (x : Svd.St α m n) :
    ∃ x', Svd.qr hyp p k x = .ok x' ∧ ∀ i, p ≤ i → x'.s.f i = x.s.f i := by
  unfold Svd.qr
  rw [Row.get_ok (by omega), ok_bind, Row.get_ok (by omega), ok_bind, Row.get_ok (by omega), ok_bind,
    Row.get_ok (by omega), ok_bind, Row.get_ok (by omega), ok_bind]
  generalize Svd.first (x.s.f (p - 1)) (x.s.f (p - 2)) (x.e.f (p - 2)) (x.s.f k) (x.e.f k) = fg
  obtain ⟨w, e, h⟩ := Wp.exists_ok (wp_forUp (ε := Fault) (a := k) (b := p - 1)
    (body := Svd.chase hyp k) (s := (⟨fg.1, fg.2, x⟩ : Svd.Ch α m n)) (E := fun _ => False)
    (fun _ (w : Svd.Ch α m n) => ∀ a, p ≤ a → w.x.s.f a = x.s.f a) (by omega)
    (fun _ _ => rfl) (fun j w g1 g2 q => by
      unfold Svd.chase
      obtain ⟨w1, e1, D⟩ := Svd.chaseV_ok g1 (show j + 1 < n by omega) (hyp w.f w.g) w
      rw [e1, ok_bind]
      obtain ⟨w2, e2, D2⟩ := Svd.chaseU_ok (show j + 1 < n by omega) hm (hyp w1.f w1.g) w1
      refine wp_of_eq_ok e2 fun a ha => ?_
      rw [D2.s, upd1_eq, if_neg (by omega), upd1_eq, if_neg (by omega), D.s, upd1_eq, if_neg (by omega), q a ha]))
  rw [e, ok_bind, Row.set_ok (by omega), ok_bind]
  exact ⟨_, rfl, h⟩

/-- The laws of comparison that the order of the singular values needs. They hold for floating point numbers without
NaN. -/
structure Spec.OrdLaws (α : Type) [Flt α] : Prop where
  total : ∀ a b : α, Flt.le a b = false → Flt.le b a = true
  neg : ∀ a : α, Flt.lt a Flt.zero = true → Flt.le Flt.zero (Flt.neg a) = true
  zero : Flt.le (Flt.zero : α) Flt.zero = true

/-- The entries from `q` on are non-negative. -/
def Spec.NonNeg (q n : Nat) (s : Nat → α) : Prop := ∀ i, q ≤ i → i < n → Flt.le Flt.zero (s i) = true

/-- The entries from `q` on do not increase. -/
def Spec.NonInc (q n : Nat) (s : Nat → α) : Prop := ∀ i, q ≤ i → i + 1 < n → Flt.le (s (i + 1)) (s i) = true

theorem Svd.order_safe (hm : n ≤ m) {q : Nat} (d : Nat) : ∀ (k : Nat) (x : Svd.St α m n),
    n ≤ k + d + 1 → q ≤ k → k < n →
    ∃ x', Svd.order d k x = .ok x' ∧ x'.e = x.e ∧ (Spec.OrdLaws α →
      (∀ i, q ≤ i → i < n → Flt.le Flt.zero (x.s.f i) = true) →
      (∀ i, q ≤ i → i + 1 < n → i ≠ k → Flt.le (x.s.f (i + 1)) (x.s.f i) = true) →
      (q < k → k + 1 < n → Flt.le (x.s.f (k + 1)) (x.s.f (k - 1)) = true) →
      Spec.NonNeg q n x'.s.f ∧ Spec.NonInc q n x'.s.f) := by
  induction d with
  | zero =>
    intro k x h1 h2 h3
    exact ⟨x, rfl, rfl, fun _ h6 h7 h8 => ⟨h6, fun i g1 g2 => h7 i g1 g2 (by omega)⟩⟩
  | succ d ih =>
    intro k x h1 h2 h3
    by_cases hk : k + 1 < n
    · by_cases hc : Flt.le (x.s.f (k + 1)) (x.s.f k) = true
      · refine ⟨x, Svd.order_stop x fun _ => hc, rfl, fun _ h6 h7 h8 => ⟨h6, fun i g1 g2 => ?_⟩⟩
        by_cases c : i = k
        · rw [c]; exact hc
        · exact h7 i g1 g2 c
      · rw [Bool.not_eq_true] at hc
        obtain ⟨x1, e1, a1, a2, a3, a4⟩ := Svd.order_step (d := d) hk hm x hc
        rw [e1]
        have sk : x1.s.f k = x.s.f (k + 1) := by rw [a2]; exact congrArg _ (if_pos rfl)
        have sk1 : x1.s.f (k + 1) = x.s.f k := by
          rw [a2]; exact congrArg _ (by unfold Eig.sw; rw [if_neg (by omega), if_pos rfl])
        have so : ∀ i, i ≠ k → i ≠ k + 1 → x1.s.f i = x.s.f i := fun i c c' => by
          rw [a2]; exact congrArg _ (by unfold Eig.sw; rw [if_neg c, if_neg c'])
        obtain ⟨x', e', b2, b3⟩ := ih (k + 1) x1 (by omega) (by omega) hk
        refine ⟨x', e', b2.trans a1, fun L h6 h7 h8 => b3 L (fun i g1 g2 => ?_) (fun i g1 g2 g3 => ?_)
          (fun g1 g2 => ?_)⟩
        · by_cases c : i = k
          · rw [c, sk]; exact h6 _ (by omega) hk
          · by_cases c' : i = k + 1
            · rw [c', sk1]; exact h6 _ h2 h3
            · rw [so i c c']; exact h6 i g1 g2
        · by_cases c : i = k
          · rw [c, sk, sk1]; exact L.total _ _ hc
          · by_cases c' : i + 1 = k
            · rw [c', sk, so i c (by omega), show i = k - 1 by omega]; exact h8 (by omega) hk
            · rw [so i c g3, so (i + 1) c' (by omega)]; exact h7 i g1 g2 c
        · rw [show k + 1 - 1 = k by omega, sk, so _ (by omega) (by omega)]
          exact h7 (k + 1) (by omega) g2 (by omega)
    · exact ⟨x, Svd.order_stop x fun h => absurd h hk, rfl, fun _ h6 h7 h8 =>
        ⟨h6, fun i g1 g2 => h7 i g1 g2 (by omega)⟩⟩

theorem Svd.converged_safe (hm : n ≤ m) {k : Nat} (hk : k < n) (x : Svd.St α m n) :
    ∃ x', Svd.converged k x = .ok x' ∧ (Spec.OrdLaws α →
      Spec.NonNeg (k + 1) n x.s.f → Spec.NonInc (k + 1) n x.s.f → Spec.NonNeg k n x'.s.f ∧ Spec.NonInc k n x'.s.f) := by
  unfold Svd.converged
  obtain ⟨y, e, a1, a2, a3, a4⟩ := Svd.positive_ok hk x
  rw [e, ok_bind]
  obtain ⟨x', e', b2, b3⟩ := Svd.order_safe hm (q := k) n k y (by omega) le_rfl hk
  refine ⟨x', e', fun L h3 h4 => ?_⟩
  have key : Flt.le Flt.zero (y.s.f k) = true ∧ ∀ i, i ≠ k → y.s.f i = x.s.f i := by
    by_cases c : Flt.le (x.s.f k) Flt.zero = true
    · obtain ⟨b1, -⟩ := a3 c
      refine ⟨?_, fun i hi => by rw [b1, upd1_eq, if_neg hi]⟩
      rw [b1, upd1_eq, if_pos rfl]
      split_ifs with c'
      · exact L.neg _ c'
      · exact L.zero
    · rw [Bool.not_eq_true] at c
      rw [a4 c]
      exact ⟨L.total _ _ c, fun i _ => rfl⟩
  refine b3 L (fun i g1 g2 => ?_) (fun i g1 g2 g3 => ?_) (fun h => by omega)
  · by_cases c : i = k
    · rw [c]; exact key.1
    · rw [key.2 i c]; exact h3 i (by omega) g2
  · rw [key.2 i g3, key.2 (i + 1) (by omega)]; exact h4 i (by omega) g2

theorem Svd.round_safe (κ : Svd.Lit α) (hm : n ≤ m) {p : Nat} (hp0 : 0 < p) (hp : p ≤ n) (x : Svd.St α m n) :
    ∃ p' x', Svd.round κ p x = .ok (p', x') ∧ p' ≤ p ∧ (Spec.OrdLaws α →
      Spec.NonNeg p n x.s.f → Spec.NonInc p n x.s.f → Spec.NonNeg p' n x'.s.f ∧ Spec.NonInc p' n x'.s.f) := by
  unfold Svd.round
  obtain ⟨k, e', ee, hk, hlt, -⟩ := Svd.findE_ok κ x.s (k := p - 1) (by omega) x.e
  rw [ee, ok_bind]
  dsimp only
  have keep : ∀ (y : Svd.St α m n), (∀ i, p ≤ i → y.s.f i = x.s.f i) → (Spec.OrdLaws α →
      Spec.NonNeg p n x.s.f → Spec.NonInc p n x.s.f → Spec.NonNeg p n y.s.f ∧ Spec.NonInc p n y.s.f) :=
    fun y hy _ h1 h2 => ⟨fun i g1 g2 => by rw [hy i g1]; exact h1 i g1 g2,
      fun i g1 g2 => by rw [hy i g1, hy (i + 1) (by omega)]; exact h2 i g1 g2⟩
  by_cases hkp : k = p - 1
  · rw [if_pos hkp]
    obtain ⟨x', ex, a⟩ := Svd.converged_safe hm (k := p - 1) (by omega) ⟨x.s, e', x.u, x.v⟩
    rw [ex, ok_bind]
    refine ⟨p - 1, x', rfl, by omega, fun L h1 h2 => a L ?_ ?_⟩
    · rw [show p - 1 + 1 = p by omega]; exact h1
    · rw [show p - 1 + 1 = p by omega]; exact h2
  · rw [if_neg hkp]
    obtain ⟨o, s', es, hcase⟩ := Svd.findS_ok κ e' (k := k) (d := p - k) (by omega) x.s
    rw [es, ok_bind]
    rcases hcase with ⟨rfl, rfl, -⟩ | ⟨i, rfl, i1, i2, -, rfl, -⟩
    · dsimp only
      obtain ⟨x', ex, a⟩ := Svd.qr_safe κ.hyp (k := k) (p := p) (by omega) hp hm ⟨x.s, e', x.u, x.v⟩
      rw [ex, ok_bind]
      exact ⟨p, x', rfl, le_rfl, keep x' a⟩
    · dsimp only
      have so : ∀ a, p ≤ a → upd1 x.s.f i Flt.zero a = x.s.f a := fun a ha => by rw [upd1_eq, if_neg (by omega)]
      by_cases hip : i = p - 1
      · rw [if_pos hip]
        obtain ⟨x', ex, a⟩ := Svd.deflate_safe κ.hyp (k := k) (p := p) (by omega) hp
          ⟨⟨upd1 x.s.f i Flt.zero⟩, e', x.u, x.v⟩
        rw [ex, ok_bind]
        exact ⟨p, x', rfl, le_rfl, keep x' fun j hj => (a j hj).trans (so j hj)⟩
      · rw [if_neg hip]
        obtain ⟨x', ex, a⟩ := Svd.split_safe κ.hyp (k := i + 1) (p := p) (by omega) (by omega) hp
          ⟨⟨upd1 x.s.f i Flt.zero⟩, e', x.u, x.v⟩
        rw [ex, ok_bind]
        exact ⟨p, x', rfl, le_rfl, keep x' fun j hj => (a j hj).trans (so j hj)⟩

theorem Svd.loop_safe (κ : Svd.Lit α) (hm : n ≤ m) (fuel : Nat) : ∀ (p : Nat) (x : Svd.St α m n), p ≤ n →
    ∃ o, Svd.loop κ fuel p x = .ok o ∧ (Spec.OrdLaws α → Spec.NonNeg p n x.s.f → Spec.NonInc p n x.s.f →
      ∀ y, o = some y → Spec.NonNeg 0 n y.s.f ∧ Spec.NonInc 0 n y.s.f) := by
  induction fuel with
  | zero =>
    intro p x hp
    unfold Svd.loop
    split_ifs with c
    · subst c
      exact ⟨_, rfl, fun _ h1 h2 y hy => by cases hy; exact ⟨h1, h2⟩⟩
    · exact ⟨_, rfl, fun _ _ _ y hy => by cases hy⟩
  | succ fuel ih =>
    intro p x hp
    unfold Svd.loop
    split_ifs with c
    · subst c
      exact ⟨_, rfl, fun _ h1 h2 y hy => by cases hy; exact ⟨h1, h2⟩⟩
    · obtain ⟨p', x', e, h1, h2⟩ := Svd.round_safe κ hm (show 0 < p by omega) hp x
      rw [e, ok_bind]
      obtain ⟨o, e', h3⟩ := ih p' x' (by omega)
      exact ⟨o, e', fun L g1 g2 => h3 L (h2 L g1 g2).1 (h2 L g1 g2).2⟩

theorem Svd.core_safe (κ : Svd.Lit α) (hn : 0 < n) (hm : n ≤ m) (a : Tab α m n) (fuel : Nat) :
    ∃ o, Svd.core κ fuel a = .ok o ∧ (Spec.OrdLaws α → ∀ y : Svd.St α m n, o = some y →
      Spec.NonNeg 0 n y.s.f ∧ Spec.NonInc 0 n y.s.f) := by
  unfold Svd.core
  rw [if_neg (by omega)]
  show ∃ o, (do let x ← Svd.reduce κ.hyp a; Svd.loop κ fuel n x) = .ok o ∧ _
  obtain ⟨x, e⟩ := Svd.reduce_safe κ.hyp hn hm a
  rw [e, ok_bind]
  obtain ⟨o, eo, ho⟩ := Svd.loop_safe κ hm fuel n x le_rfl
  exact ⟨o, eo, fun L => ho L (fun i g1 g2 => by omega) (fun i g1 g2 => by omega)⟩

end Linear
