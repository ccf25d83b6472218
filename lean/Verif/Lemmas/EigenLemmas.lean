import Verif.Model.Eigen
import Verif.Lemmas.SchurLemmas

/-!
# The symmetric eigen decomposition, step by step, for any arithmetic
-/

set_option linter.unusedSectionVars false

namespace Linear

variable {α : Type} [Flt α] {n : Nat}

theorem Eig.diagonals_ok {l : Nat} (hn : 0 < n) (hl : n - 1 ≤ l) (main : Row α n) (sec : Row α l) :
    ∃ s, Eig.diagonals main sec = .ok s ∧ (∀ i, i < n → s.1.f i = main.f i) ∧
      (∀ i, i < n - 1 → s.2.f i = sec.f i) ∧ s.2.f (n - 1) = Flt.zero := by
  unfold Eig.diagonals
  rw [if_neg (by omega)]
  show ∃ s, (do
    let s ← forUp 0 (n - 1) _ _
    _ : Res _) = _ ∧ _
  obtain ⟨s, e, h1, h2⟩ := Wp.exists_ok (wp_forUp (ε := Fault) (a := 0) (b := n - 1)
    (body := fun i (s : Row α n × Row α n) => do
      let d ← s.1.set i (← main.get i)
      let e ← s.2.set i (← sec.get i)
      return (d, e)) (s := (Row.zero n, Row.zero n)) (E := fun _ => False)
    (fun k s => (∀ i, i < k → s.1.f i = main.f i) ∧ ∀ i, i < k → s.2.f i = sec.f i) (by omega)
    ⟨fun i h => by omega, fun i h => by omega⟩ (fun i s h1 h2 hI => by
      rw [Row.get_ok (by omega), ok_bind, Row.set_ok (by omega), ok_bind, Row.get_ok (by omega), ok_bind,
        Row.set_ok (by omega), ok_bind]
      refine wp_of_eq_ok rfl ⟨fun y hy => ?_, fun y hy => ?_⟩
      · simp only [upd1_eq]
        split
        · subst_vars; rfl
        · exact hI.1 y (by omega)
      · simp only [upd1_eq]
        split
        · subst_vars; rfl
        · exact hI.2 y (by omega)))
  rw [e, ok_bind, Row.get_ok (by omega), ok_bind, Row.set_ok (by omega), ok_bind, Row.set_ok (by omega), ok_bind]
  refine ⟨_, rfl, fun i hi => ?_, fun i hi => ?_, ?_⟩
  · simp only [upd1_eq]
    split
    · subst_vars; rfl
    · exact h1 i (by omega)
  · simp only [upd1_eq]
    rw [if_neg (by omega)]
    exact h2 i hi
  · simp only [upd1_eq, if_pos]

theorem Eig.cutLe_ok (thr : α) {i : Nat} (hi : i < n) (v : Row α n) :
    Eig.cutLe thr i v = .ok ⟨fun y => if y = i ∧ Flt.le (Flt.abs (v.f i)) thr = true then Flt.zero else v.f y⟩ := by
  unfold Eig.cutLe
  rw [Row.get_ok hi, ok_bind]
  split
  · next h =>
    rw [Row.set_ok hi]
    congr 2
    funext y
    rw [upd1_eq]
    simp [h]
  · next h =>
    rw [pure_eq_ok]
    refine congrArg (fun f => Except.ok (Row.mk f)) (funext fun y => ?_)
    rw [if_neg (fun h' => h h'.2)]

/-- What the removal of small entries does to a diagonal. -/
def Eig.cutV (thr : α) (v : Nat → α) (y : Nat) : α := if Flt.le (Flt.abs (v y)) thr = true then Flt.zero else v y

theorem Eig.null2_ok (eps : α) (s : Row α n × Row α n) :
    ∃ mx s', forUp 0 n (fun i mx => do
        return Eig.grow (Eig.grow mx (← s.1.get i)) (← s.2.get i)) Flt.zero = (.ok mx : Res α) ∧
      Eig.null2 eps s = .ok s' ∧
      ((Flt.eq mx Flt.zero = true ∧ s' = s) ∨ (Flt.eq mx Flt.zero = false ∧
        (∀ i, i < n → s'.1.f i = Eig.cutV (Flt.mul eps mx) s.1.f i) ∧
        ∀ i, i < n → s'.2.f i = Eig.cutV (Flt.mul eps mx) s.2.f i)) := by
  obtain ⟨mx, em, -⟩ := Wp.exists_ok (wp_forUp (ε := Fault) (a := 0) (b := n)
    (body := fun i mx => do return Eig.grow (Eig.grow mx (← s.1.get i)) (← s.2.get i)) (s := (Flt.zero : α))
    (E := fun _ => False) (fun _ _ => True) (by omega) trivial (fun i s' h1 h2 hI => by
      rw [Row.get_ok (by omega), ok_bind, Row.get_ok (by omega), ok_bind]
      exact wp_of_eq_ok rfl trivial))
  unfold Eig.null2
  rw [em, ok_bind]
  cases hz : Flt.eq mx Flt.zero with
  | true =>
    refine ⟨mx, s, rfl, ?_, .inl ⟨hz, rfl⟩⟩
    rfl
  | false =>
    rw [if_pos (by simp)]
    obtain ⟨s', e, h⟩ := Wp.exists_ok (wp_forUp (ε := Fault) (a := 0) (b := n)
      (body := fun i (s : Row α n × Row α n) => do
        let d ← Eig.cutLe (Flt.mul eps mx) i s.1
        let e ← Eig.cutLe (Flt.mul eps mx) i s.2
        return (d, e)) (s := s) (E := fun _ => False)
      (fun k s' => (∀ i, s'.1.f i = if i < k then Eig.cutV (Flt.mul eps mx) s.1.f i else s.1.f i) ∧
        ∀ i, s'.2.f i = if i < k then Eig.cutV (Flt.mul eps mx) s.2.f i else s.2.f i) (by omega)
      ⟨fun i => rfl, fun i => rfl⟩ (fun i s' h1 h2 hI => by
        rw [Eig.cutLe_ok _ h2, ok_bind, Eig.cutLe_ok _ h2, ok_bind]
        refine wp_of_eq_ok rfl ⟨fun y => ?_, fun y => ?_⟩
        · dsimp only
          rw [hI.1 i, hI.1 y, if_neg (by omega : ¬ i < i)]
          unfold Eig.cutV
          by_cases hy : y = i
          · subst hy
            simp
          · simp [hy, show (y < i + 1) = (y < i) from propext (by omega)]
        · dsimp only
          rw [hI.2 i, hI.2 y, if_neg (by omega : ¬ i < i)]
          unfold Eig.cutV
          by_cases hy : y = i
          · subst hy
            simp
          · simp [hy, show (y < i + 1) = (y < i) from propext (by omega)]))
    refine ⟨mx, s', rfl, e, .inr ⟨hz, fun i hi => ?_, fun i hi => ?_⟩⟩
    · rw [h.1, if_pos hi]
    · rw [h.2, if_pos hi]

/-- The test by which an entry beside the diagonal counts as zero. -/
def Eig.small (d e : Nat → α) (m : Nat) : Prop :=
  Flt.eq (Flt.add (Flt.abs (e m)) (Flt.add (Flt.abs (d m)) (Flt.abs (d (m + 1)))))
    (Flt.add (Flt.abs (d m)) (Flt.abs (d (m + 1)))) = true

theorem Eig.find_ok (d e : Row α n) {k m : Nat} (h : m + k < n) :
    ∃ m', Eig.find d e k m = .ok m' ∧ m ≤ m' ∧ m' ≤ m + k ∧ (m' < m + k → Eig.small d.f e.f m') ∧
      ∀ i, m ≤ i → i < m' → ¬ Eig.small d.f e.f i := by
  induction k generalizing m with
  | zero => exact ⟨m, rfl, le_refl _, by omega, fun h => by omega, fun i h1 h2 => by omega⟩
  | succ k ih =>
    unfold Eig.find
    rw [Row.get_ok (by omega), ok_bind, Row.get_ok (by omega), ok_bind, Row.get_ok (by omega), ok_bind]
    split
    · next hs => exact ⟨m, rfl, le_refl _, by omega, fun _ => hs, fun i h1 h2 => by omega⟩
    · next hs =>
      obtain ⟨m', e1, h1, h2, h3, h4⟩ := ih (m := m + 1) (by omega)
      refine ⟨m', e1, by omega, by omega, fun h5 => h3 (by omega), fun i h5 h6 => ?_⟩
      by_cases h7 : i = m
      · subst h7; exact hs
      · exact h4 i (by omega) h6

/-- One row of vectors after the rotation of columns `i` and `i + 1`. -/
def Eig.rz (i : Nat) (s c : α) (u : Nat → α) (y : Nat) : α :=
  if y = i then Flt.sub (Flt.mul c (u i)) (Flt.mul s (u (i + 1)))
  else if y = i + 1 then Flt.add (Flt.mul s (u i)) (Flt.mul c (u (i + 1))) else u y

theorem Eig.turnZ_ok {i : Nat} (hi : i + 1 < n) (s c : α) (z : Tab α n n) :
    Eig.turnZ i s c z = .ok ⟨fun x y => if 0 ≤ x ∧ x < n then Eig.rz i s c (z.f x) y else z.f x y⟩ := by
  unfold Eig.turnZ
  refine Tab.eachRow (Eig.rz i s c) z fun ia z h1 h2 => ?_
  rw [Tab.get_ok h2 hi, ok_bind, Tab.get_ok h2 (by omega), ok_bind, Tab.set_ok h2 hi, ok_bind,
    Tab.get_ok h2 (by omega), ok_bind, Tab.set_ok h2 (by omega)]
  refine Tab.okExt fun x y => ?_
  simp only [upd2_eq, Eig.rz]
  by_cases hx : x = ia
  · subst hx
    by_cases hy : y = i
    · subst hy; simp
    · by_cases hy' : y = i + 1
      · subst hy'; simp
      · simp [hy, hy']
  · simp [hx]

/-- The value `t` of line 422. -/
def Eig.tv (i : Nat) (h : α) (w : Eig.Sw α n) : α :=
  Flt.add (Flt.mul (Flt.sub (w.d.f i) (Flt.sub (w.d.f (i + 1)) w.u)) w.s) (Flt.mul (Flt.mul Flt.two w.c) h)

theorem Eig.bulge_ok {i : Nat} (hi : i + 1 < n) (h : α) (w : Eig.Sw α n) :
    Eig.bulge i h w = .ok ⟨⟨fun x y => if 0 ≤ x ∧ x < n then Eig.rz i w.s w.c (w.z.f x) y else w.z.f x y⟩,
      ⟨upd1 w.d.f (i + 1) (Flt.add (Flt.sub (w.d.f (i + 1)) w.u) (Flt.mul w.s (Eig.tv i h w)))⟩, w.e,
      Flt.sub (Flt.mul w.c (Eig.tv i h w)) h, Flt.mul w.s (Eig.tv i h w), w.s, w.c, Eig.tv i h w⟩ := by
  unfold Eig.bulge Eig.bulgeQ Eig.bulgeT
  rw [Row.get_ok hi, ok_bind, Row.get_ok (by omega), ok_bind, Row.set_ok hi, ok_bind, Eig.turnZ_ok hi, ok_bind]
  rfl

/-- The state after a rotation is taken over. -/
def Eig.took (i : Nat) (g : Eig.Rot α) (w : Eig.Sw α n) : Eig.Sw α n :=
  ⟨w.z, w.d, ⟨upd1 w.e.f (i + 1) g.r⟩, w.q, w.u, g.s, g.c, g.t⟩

theorem Eig.take_ok {i : Nat} (hi : i + 1 < n) (g : Eig.Rot α) (w : Eig.Sw α n) :
    Eig.take i g w = .ok (Eig.took i g w) := by
  unfold Eig.take
  rw [Row.set_ok hi, ok_bind]
  rfl

theorem Eig.sweep_ok {j m : Nat} (hm : m < n) {k : Nat} (hk : j + k ≤ m) (w : Eig.Sw α n) :
    ∃ bw, Eig.sweep j m k w = .ok bw := by
  induction k generalizing w with
  | zero => exact ⟨_, rfl⟩
  | succ k ih =>
    unfold Eig.sweep
    rw [Row.get_ok (by omega), ok_bind, Eig.take_ok (by omega), ok_bind, Row.get_ok (by omega), ok_bind]
    split
    · unfold Eig.leave
      rw [Row.get_ok (by omega), ok_bind, Row.set_ok (by omega), ok_bind, Row.set_ok (by omega), ok_bind]
      exact ⟨_, rfl⟩
    · rw [Eig.bulge_ok (by omega), ok_bind]
      exact ih (by omega) _

theorem Eig.finish_ok {j m : Nat} (hj : j < n) (hm : m < n) (b : Bool) (w : Eig.Sw α n) :
    ∃ x, Eig.finish j m b w = .ok x := by
  unfold Eig.finish
  split
  · exact ⟨_, rfl⟩
  · rw [Row.get_ok (by omega), ok_bind, Row.set_ok (by omega), ok_bind, Row.set_ok (by omega), ok_bind,
      Row.set_ok (by omega), ok_bind]
    exact ⟨_, rfl⟩

theorem Eig.round_ok {j m : Nat} (hj : j < m) (hm : m < n) (x : Eig.St α n) : ∃ x', Eig.round j m x = .ok x' := by
  unfold Eig.round
  rw [Row.get_ok (by omega), ok_bind, Row.get_ok (by omega), ok_bind, Row.get_ok (by omega), ok_bind,
    Row.get_ok (by omega), ok_bind]
  obtain ⟨bw, e⟩ := Eig.sweep_ok hm (show j + (m - j) ≤ m by omega) (⟨x.z, x.d, x.e,
    Eig.q0 (x.d.f m) (x.d.f j) (x.e.f j) (Flt.div (Flt.sub (x.d.f (j + 1)) (x.d.f j)) (Flt.mul Flt.two (x.e.f j))),
    Flt.zero, Flt.one, Flt.one,
    Eig.t0 (Flt.div (Flt.sub (x.d.f (j + 1)) (x.d.f j)) (Flt.mul Flt.two (x.e.f j)))⟩ : Eig.Sw α n)
  rw [e, ok_bind]
  exact Eig.finish_ok (by omega) hm _ _

/-- The rule for the iteration: it ends with an error after the last sweep, or with a state in which `e[j]`
counts as zero. -/
theorem Eig.ql_rule {j : Nat} (hj : j < n) (I : Eig.St α n → Prop)
    (hI : ∀ m x x', j < m → m < n → I x → (m < n - 1 → Eig.small x.d.f x.e.f m) →
      (∀ i, j ≤ i → i < m → ¬ Eig.small x.d.f x.e.f i) → Eig.round j m x = .ok x' → I x')
    (k : Nat) (x : Eig.St α n) (hx : I x) :
    Wp (Eig.ql j k x) (fun x' => I x' ∧ (j < n - 1 → Eig.small x'.d.f x'.e.f j)) (fun f => f = .err .maxIter) := by
  induction k generalizing x with
  | zero =>
    unfold Eig.ql
    obtain ⟨m, e, h1, h2, h3, h4⟩ := Eig.find_ok x.d x.e (show j + (n - 1 - j) < n by omega)
    rw [e, ok_bind]
    split
    · next h => exact wp_of_eq_ok rfl ⟨hx, fun h5 => by subst h; exact h3 (by omega)⟩
    · exact (wp_error _).2 rfl
  | succ k ih =>
    unfold Eig.ql
    obtain ⟨m, e, h1, h2, h3, h4⟩ := Eig.find_ok x.d x.e (show j + (n - 1 - j) < n by omega)
    rw [e, ok_bind]
    split
    · next h => exact wp_of_eq_ok rfl ⟨hx, fun h5 => by subst h; exact h3 (by omega)⟩
    · next h =>
      obtain ⟨x', e'⟩ := Eig.round_ok (show j < m by omega) (show m < n by omega) x
      rw [e', ok_bind]
      exact ih x' (hI m x x' (by omega) (by omega) hx (fun h5 => h3 (by omega)) h4 e')

/-! ## Sorting and the clean-up -/

theorem Eig.largest_ok {i : Nat} (hi : i < n) (d : Row α n) :
    ∃ k, Eig.largest i d = .ok (k, d.f k) ∧ i ≤ k ∧ k < n := by
  unfold Eig.largest
  rw [Row.get_ok hi, ok_bind]
  obtain ⟨kp, e, h1, h2, h3⟩ := Wp.exists_ok (wp_forUp (ε := Fault) (a := i + 1) (b := n)
    (body := fun j (kp : Nat × α) => do
      let x ← d.get j
      return if Flt.lt kp.2 x then (j, x) else kp) (s := (i, d.f i)) (E := fun _ => False)
    (fun b kp => kp.2 = d.f kp.1 ∧ i ≤ kp.1 ∧ kp.1 < b) (by omega) ⟨rfl, le_refl _, by dsimp only; omega⟩
    (fun j kp h1 h2 hI => by
      rw [Row.get_ok h2, ok_bind]
      refine wp_of_eq_ok rfl ?_
      split
      · exact ⟨rfl, by dsimp only; omega, by dsimp only; omega⟩
      · exact ⟨hI.1, hI.2.1, by omega⟩))
  refine ⟨kp.1, ?_, h2, h3⟩
  rw [e, ← h1]

/-- The exchange of `i` and `k`. -/
def Eig.sw (i k y : Nat) : Nat := if y = i then k else if y = k then i else y

theorem Eig.select_ok {i : Nat} (hi : i < n) (x : Tab α n n × Row α n) :
    ∃ k y, Eig.largest i x.2 = .ok (k, x.2.f k) ∧ i ≤ k ∧ k < n ∧ Eig.select i x = .ok y ∧
      (∀ a b, a < n → y.1.f a b = x.1.f a (Eig.sw i k b)) ∧ ∀ b, y.2.f b = x.2.f (Eig.sw i k b) := by
  obtain ⟨k, e, h1, h2⟩ := Eig.largest_ok hi x.2
  unfold Eig.select
  rw [e, ok_bind]
  dsimp only
  by_cases hk : k = i
  · subst hk
    rw [if_neg (by simp)]
    have : ∀ b, Eig.sw k k b = b := by intro b; unfold Eig.sw; split <;> simp_all
    exact ⟨k, x, rfl, h1, h2, rfl, fun a b _ => by rw [this], fun b => by rw [this]⟩
  · rw [if_pos hk, Row.get_ok hi, ok_bind, Row.set_ok h2, ok_bind, Row.set_ok hi, ok_bind]
    rw [Tab.eachRow (fun u y => u (Eig.sw i k y)) x.1 fun j z _ hj => by
      rw [Tab.get_ok hj hi, ok_bind, Tab.get_ok hj h2, ok_bind, Tab.set_ok hj hi, ok_bind, Tab.set_ok hj h2]
      refine Tab.okExt fun a b => ?_
      simp only [upd2_eq, Eig.sw]
      by_cases ha : a = j
      · subst ha
        by_cases hb : b = k
        · subst hb; simp [hk]
        · by_cases hb' : b = i
          · subst hb'; simp [hb]
          · simp [hb, hb']
      · simp [ha]]
    refine ⟨k, _, rfl, h1, h2, rfl, fun a b ha => ?_, fun b => ?_⟩
    · dsimp only
      rw [if_pos ⟨by omega, ha⟩]
    · simp only [upd1_eq, Eig.sw]
      split
      · rfl
      · split <;> rfl

theorem Eig.cutLt_ok (thr : α) {i : Nat} (hi : i < n) (v : Row α n) :
    Eig.cutLt thr i v = .ok ⟨fun y => if y = i ∧ Flt.lt (Flt.abs (v.f i)) thr = true then Flt.zero else v.f y⟩ := by
  unfold Eig.cutLt
  rw [Row.get_ok hi, ok_bind]
  split
  · next h =>
    rw [Row.set_ok hi]
    congr 2
    funext y
    rw [upd1_eq]
    simp [h]
  · next h =>
    rw [pure_eq_ok]
    refine congrArg (fun f => Except.ok (Row.mk f)) (funext fun y => ?_)
    rw [if_neg (fun h' => h h'.2)]

theorem Eig.null1_ok (eps : α) (d : Row α n) :
    ∃ mx d', forUp 0 n (fun i mx => do return Eig.grow mx (← d.get i)) Flt.zero = (.ok mx : Res α) ∧
      Eig.null1 eps d = .ok d' ∧ ((Flt.eq mx Flt.zero = true ∧ d' = d) ∨ (Flt.eq mx Flt.zero = false ∧
        ∀ i, i < n → d'.f i = if Flt.lt (Flt.abs (d.f i)) (Flt.mul eps mx) = true then Flt.zero else d.f i)) := by
  obtain ⟨mx, em, -⟩ := Wp.exists_ok (wp_forUp (ε := Fault) (a := 0) (b := n)
    (body := fun i mx => do return Eig.grow mx (← d.get i)) (s := (Flt.zero : α))
    (E := fun _ => False) (fun _ _ => True) (by omega) trivial (fun i s' h1 h2 hI => by
      rw [Row.get_ok (by omega), ok_bind]
      exact wp_of_eq_ok rfl trivial))
  unfold Eig.null1
  rw [em, ok_bind]
  cases hz : Flt.eq mx Flt.zero with
  | true =>
    refine ⟨mx, d, rfl, ?_, .inl ⟨hz, rfl⟩⟩
    rfl
  | false =>
    rw [if_pos (by simp)]
    obtain ⟨d', e, h⟩ := Wp.exists_ok (wp_forUp (ε := Fault) (a := 0) (b := n)
      (body := Eig.cutLt (Flt.mul eps mx)) (s := d) (E := fun _ => False)
      (fun k d' => ∀ i, d'.f i = if i < k ∧ Flt.lt (Flt.abs (d.f i)) (Flt.mul eps mx) = true then Flt.zero
        else d.f i) (by omega) (fun i => by rw [if_neg (by omega)]) (fun i d' h1 h2 hI => by
        rw [Eig.cutLt_ok _ h2]
        refine wp_of_eq_ok rfl fun y => ?_
        dsimp only
        rw [hI i, hI y, if_neg (by omega : ¬ (i < i ∧ _))]
        by_cases hy : y = i
        · subst hy
          simp
        · simp [hy, show (y < i + 1) = (y < i) from propext (by omega)]))
    refine ⟨mx, d', rfl, e, .inr ⟨hz, fun i hi => ?_⟩⟩
    rw [h]
    simp [hi]

/-! ## The whole -/

theorem Eig.sort_rule (I : Nat → Tab α n n × Row α n → Prop) (x : Tab α n n × Row α n) (h0 : I 0 x)
    (hI : ∀ i x k y, i < n → I i x → Eig.largest i x.2 = .ok (k, x.2.f k) → i ≤ k → k < n →
      (∀ a b, a < n → y.1.f a b = x.1.f a (Eig.sw i k b)) → (∀ b, y.2.f b = x.2.f (Eig.sw i k b)) → I (i + 1) y) :
    ∃ y, forUp 0 n Eig.select x = .ok y ∧ I n y :=
  Wp.exists_ok (wp_forUp (ε := Fault) (a := 0) (b := n) (body := Eig.select) (s := x) (E := fun _ => False) I
    (by omega) h0 (fun i x h1 h2 h3 => by
      obtain ⟨k, y, e1, h4, h5, e2, h6, h7⟩ := Eig.select_ok h2 x
      exact wp_of_eq_ok e2 (hI i x k y h2 h3 e1 h4 h5 h6 h7)))

theorem Eig.iter_rule (I : Nat → Eig.St α n → Prop)
    (hI : ∀ j m x x', j < m → m < n → I j x → (m < n - 1 → Eig.small x.d.f x.e.f m) →
      (∀ i, j ≤ i → i < m → ¬ Eig.small x.d.f x.e.f i) → Eig.round j m x = .ok x' → I j x')
    (hn : ∀ j x, j < n → I j x → (j < n - 1 → Eig.small x.d.f x.e.f j) → I (j + 1) x)
    (x : Eig.St α n) (hx : I 0 x) :
    Wp (forUp 0 n (fun j (x : Eig.St α n) => Eig.ql j 30 x) x) (I n) (fun f => f = .err .maxIter) :=
  wp_forUp (ε := Fault) I (by omega) hx (fun j x _ h2 h3 =>
    (Eig.ql_rule h2 (I j) (fun m x x' => hI j m x x') 30 x h3).mono (fun x' h => hn j x' h2 h.1 h.2) (fun _ h => h))

theorem Eig.findSym_ok {l : Nat} (eps : α) (main : Row α n) (sec : Row α l) (z : Tab α n n) (hn : 0 < n)
    (hl : n - 1 ≤ l) :
    ∃ s0 s1, Eig.diagonals main sec = .ok s0 ∧ Eig.null2 eps s0 = .ok s1 ∧
      ((∃ f, forUp 0 n (fun j (x : Eig.St α n) => Eig.ql j 30 x) ⟨z, s1.1, s1.2⟩ = .error f ∧
          Eig.findSym eps main sec z = .error f) ∨
        ∃ x y d v, forUp 0 n (fun j (x : Eig.St α n) => Eig.ql j 30 x) ⟨z, s1.1, s1.2⟩ = .ok x ∧
          forUp 0 n Eig.select (x.z, x.d) = .ok y ∧ Eig.null1 eps y.2 = .ok d ∧
          (∀ i j, i < n → j < n → v.f i j = y.1.f j i) ∧
          Eig.findSym eps main sec z = .ok ⟨d, Row.zero n, v, true⟩) := by
  obtain ⟨s0, e0, -⟩ := Eig.diagonals_ok hn hl main sec
  obtain ⟨-, s1, -, e1, -⟩ := Eig.null2_ok eps s0
  refine ⟨s0, s1, e0, e1, ?_⟩
  unfold Eig.findSym
  rw [e0, ok_bind, e1, ok_bind]
  cases ei : forUp 0 n (fun j (x : Eig.St α n) => Eig.ql j 30 x) ⟨z, s1.1, s1.2⟩ with
  | error f => exact .inl ⟨f, rfl, rfl⟩
  | ok x =>
    refine .inr ?_
    obtain ⟨y, e2, -⟩ := Eig.sort_rule (fun _ _ => True) (x.z, x.d) trivial (fun _ _ _ _ _ _ _ _ _ _ _ => trivial)
    obtain ⟨-, d, -, e3, -⟩ := Eig.null1_ok eps y.2
    have hv : Tab.build n n (fun i j => y.1.get j i) Fault.rt = .ok ⟨fun i j => if i < n ∧ j < n then y.1.f j i else
        Flt.zero⟩ := Tab.build_ok (fun i j => y.1.f j i) fun i j hi hj => Tab.get_ok hj hi
    refine ⟨x, y, d, ⟨fun i j => if i < n ∧ j < n then y.1.f j i else Flt.zero⟩, rfl, e2, e3, fun i j hi hj => ?_, ?_⟩
    · exact if_pos ⟨hi, hj⟩
    · rw [ok_bind, e2, ok_bind, e3, ok_bind, hv, ok_bind]
      rfl

end Linear
