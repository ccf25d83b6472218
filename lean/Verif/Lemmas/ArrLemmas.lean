import Verif.Lemmas.Entries
import Verif.Lemmas.Writes
import Verif.Lemmas.Loops

/-!
# Operations of the row-array storage, entry by entry
-/

set_option linter.unusedSectionVars false
set_option linter.unusedSimpArgs false

namespace Linear

open Spec

variable {α : Type}

theorem Spec.Shows.unique {get : Int → Int → Res α} {r c : Nat} {A B : Nat → Nat → α}
    (h : Shows get r c A) (h' : Shows get r c B) {i j : Nat} (hi : i < r) (hj : j < c) :
    A i j = B i j := by
  have h1 := h.ok hi hj
  rw [h'.ok hi hj] at h1
  exact (Except.ok.inj h1).symm

theorem Row.toList_isList {n : Nat} (t : Row α n) : IsList t.toList n t.f :=
  ⟨t.toList_length, fun _ h => t.toList_getElem? h⟩

theorem Spec.IsList.congr {l : List α} {n : Nat} {f g : Nat → α} (h : IsList l n f)
    (hfg : ∀ i, i < n → f i = g i) : IsList l n g :=
  ⟨h.1, fun i hi => by rw [h.2 i hi, hfg i hi]⟩

theorem Spec.IsList.rdL {l : List α} {n : Nat} {f : Nat → α} (h : IsList l n f) {i : Nat}
    (hi : i < n) : rdL l i = .ok (f i) := rdL_eq_ok.2 (h.2 i hi)

theorem Spec.IsList.eq {l l' : List α} {n : Nat} {f : Nat → α} (h : IsList l n f)
    (h' : IsList l' n f) : l = l' := by
  apply List.ext_getElem? 
  intro i
  by_cases hi : i < n
  · rw [h.2 i hi, h'.2 i hi]
  · rw [List.getElem?_eq_none (by rw [h.1]; omega), List.getElem?_eq_none (by rw [h'.1]; omega)]

theorem Jag.toLists_rect {r c : Nat} (t : Tab α r c) : Rect t.toLists r c t.f := by
  refine ⟨by simp [Jag.toLists], fun i hi => ⟨(List.range c).map (t.f i), ?_, by simp, ?_⟩⟩
  · simp [Jag.toLists, hi]
  · intro j hj; simp [hj]

theorem Spec.Rect.congr {d : List (List α)} {r c : Nat} {A B : Nat → Nat → α} (h : Rect d r c A)
    (hAB : ∀ i j, i < r → j < c → A i j = B i j) : Rect d r c B := by
  refine ⟨h.1, fun i hi => ?_⟩
  obtain ⟨row, h1, h2, h3⟩ := h.2 i hi
  exact ⟨row, h1, h2, fun j hj => by rw [h3 j hj, hAB i j hi hj]⟩

variable [Flt α]

theorem copyRowL_ok {r c : Nat} {t : Tab α r c} {i : Nat} {src : List α} {f : Nat → α}
    (hi : i < r) (h : IsList src c f) :
    ∃ t' : Tab α r c, copyRowL t i c src = .ok t' ∧
      Wr (fun _ y => f y) (fun x y => x = i ∧ y < c) t.f t'.f := by
  refine Wp.exists_ok ?_
  unfold copyRowL
  refine (wr_loop' (fun t : Tab α r c => t.f) (fun _ y => f y) (fun j x y => x = i ∧ y = j)
    (Nat.zero_le _) ?_).imp ?_
  · intro j t' _ hj _
    rw [h.rdL hj, ok_bind, Tab.set_ok hi hj]
    exact Wr.upd2 rfl
  · intro t' ht'
    refine ht'.congr fun x y => ?_
    constructor
    · rintro ⟨k, -, hk, rfl, rfl⟩; exact ⟨rfl, hk⟩
    · rintro ⟨rfl, hy⟩; exact ⟨y, by omega, hy, rfl, rfl⟩

/-- `copyIn` on rectangular data keeps dimensions and entries. -/
theorem Arr.copyIn_ok {d : List (List α)} {r c : Nat} {A : Nat → Nat → α} (h : Rect d r c A)
    (hr : 0 < r) (hc : 0 < c) :
    ∃ m : Arr α r c, Arr.copyIn (some d) = .ok ⟨r, c, m⟩ ∧
      (∀ i j, i < r → j < c → m.data.f i j = A i j) ∧ m.slack = fun _ => 0 := by
  obtain ⟨rfl, h⟩ := h
  obtain ⟨row0, h01, h02, -⟩ := h 0 hr
  have key : ∃ t : Tab α d.length c, forUp 0 d.length (fun i (t : Tab α d.length c) => (do
      let row ← rdL d i
      if row.length ≠ c then throw (.pan .dim)
      copyRowL t i c row : Res _)) (Jag.zero d.length (fun _ => c)) = .ok t ∧
      Wr A (fun x y => x < d.length ∧ y < c) (Jag.zero (α := α) d.length (fun _ => c)).f t.f := by
    refine Wp.exists_ok ?_
    refine (wr_loop' (fun t : Tab α d.length c => t.f) A (fun i x y => x = i ∧ y < c)
      (Nat.zero_le _) ?_).imp ?_
    · intro i t _ hi _
      obtain ⟨row, h1, h2, h3⟩ := h i hi
      rw [rdL_eq_ok.2 h1]
      simp only [ok_bind, h2, ne_eq, not_true_eq_false, if_false]
      obtain ⟨t', e, w⟩ := copyRowL_ok (t := t) hi ⟨h2, h3⟩
      rw [e]
      intro x y
      obtain ⟨w1, w2⟩ := w x y
      refine ⟨?_, w2⟩
      rintro ⟨rfl, hy⟩
      exact w1 ⟨rfl, hy⟩
    · intro t' ht'
      refine ht'.congr fun x y => ?_
      constructor
      · rintro ⟨k, -, hk, rfl, hy⟩; exact ⟨hk, hy⟩
      · rintro ⟨hx, hy⟩; exact ⟨x, by omega, hx, rfl, hy⟩
  obtain ⟨t, e, w⟩ := key
  refine ⟨{ data := t }, ?_, fun i j hi hj => (w i j).1 ⟨hi, hj⟩, rfl⟩
  unfold Arr.copyIn
  simp only [show d.length ≠ 0 by omega, if_false, rdL_eq_ok.2 h01, ok_bind, h02,
    show c ≠ 0 by omega]
  subst h02
  rw [e]
  rfl

theorem Arr.copyIn_nil : Arr.copyIn (none : Option (List (List α))) = .error (.pan .inv) := rfl

theorem Arr.copyIn_empty : Arr.copyIn (some ([] : List (List α))) = .error (.pan .noDat) := rfl

theorem forUp_check_ok {ε : Type} {a b : Nat} {f : Nat → Unit → Except ε Unit}
    (hf : ∀ i, a ≤ i → i < b → f i () = .ok ()) : forUp a b f () = .ok () := by
  by_cases hab : a ≤ b
  · induction b, hab using Nat.le_induction with
    | base => rw [forUp_eq_self (le_refl _)]
    | succ b hab ih =>
      rw [forUp_last hab, ih fun i h1 h2 => hf i h1 (by omega), ok_bind, hf b hab (by omega)]
  · exact forUp_eq_self (by omega) _ _

theorem forUp_check_err {ε : Type} {a b : Nat} {e : ε} {f : Nat → Unit → Except ε Unit}
    (hf : ∀ i, a ≤ i → i < b → f i () = .ok () ∨ f i () = .error e)
    {i : Nat} (h1 : a ≤ i) (h2 : i < b) (h3 : f i () = .error e) : forUp a b f () = .error e := by
  obtain ⟨n, hn⟩ : ∃ n, b - a = n := ⟨_, rfl⟩
  induction n generalizing a with
  | zero => omega
  | succ n ih =>
    rw [forUp_step (by omega)]
    rcases hf a (le_refl _) (by omega) with h | h
    · rw [h, ok_bind]
      refine ih (fun i h1 h2 => hf i (by omega) h2) ?_ (by omega)
      rcases Nat.lt_or_eq_of_le h1 with h4 | rfl
      · exact h4
      · rw [h] at h3; exact absurd h3 (by simp)
    · rw [h]; rfl

theorem Tab.build_ex {ε : Type} {r c : Nat} {cell : Nat → Nat → Except ε α} {rt : ε}
    (g : Nat → Nat → α) (h : ∀ i j, i < r → j < c → cell i j = .ok (g i j)) :
    ∃ t, Tab.build r c cell rt = .ok t ∧ ∀ i j, i < r → j < c → t.f i j = g i j :=
  ⟨_, Tab.build_ok g h, fun i j hi hj => by simp [hi, hj]⟩

theorem Row.build_ex {ε : Type} {n : Nat} {cell : Nat → Except ε α} {rt : ε}
    (g : Nat → α) (h : ∀ i, i < n → cell i = .ok (g i)) :
    ∃ t, Row.build n cell rt = .ok t ∧ IsList t.toList n g :=
  ⟨_, Row.build_ok g h, (Row.toList_isList _).congr fun i hi => by simp [hi]⟩

theorem checkAdd_ok {r c : Nat} : checkAdditionCompatible r c r c = .ok () := by
  simp [checkAdditionCompatible]

theorem checkAdd_err {r c p q : Nat} (h : ¬ (r = p ∧ c = q)) :
    checkAdditionCompatible r c p q = .error (.err .matDim) := by
  unfold checkAdditionCompatible; rw [if_pos h]

theorem checkMul_ok {c : Nat} : checkMultiplicationCompatible c c = .ok () := by
  simp [checkMultiplicationCompatible]

theorem checkMul_err {c p : Nat} (h : c ≠ p) :
    checkMultiplicationCompatible c p = .error (.err .dim) := by
  unfold checkMultiplicationCompatible; rw [if_pos h]

section
variable {r c : Nat}

theorem Arr.dataCopy_ok (m : Arr α r c) :
    ∃ t, m.dataCopy = .ok t ∧ ∀ i j, i < r → j < c → t.f i j = m.data.f i j :=
  Tab.build_ex _ fun _ _ hi hj => Tab.get_ok hi hj

theorem Arr.copy_ok (m : Arr α r c) (hr : 0 < r) (hc : 0 < c) :
    ∃ m' : Arr α r c, m.copy = .ok ⟨r, c, m'⟩ ∧
      (∀ i j, i < r → j < c → m'.data.f i j = m.data.f i j) := by
  obtain ⟨t, e, h⟩ := m.dataCopy_ok
  obtain ⟨m', e', h', -⟩ := Arr.copyIn_ok (Jag.toLists_rect t) hr hc
  exact ⟨m', by unfold Arr.copy; rw [e, ok_bind, e'], fun i j hi hj => by rw [h' i j hi hj, h i j hi hj]⟩

/-- `Shows` for a matrix built from a table. -/
theorem Arr.shows_of {A : Nat → Nat → α} (m : Arr α r c)
    (h : ∀ i j, i < r → j < c → m.data.f i j = A i j) : Shows m.at r c A :=
  m.at_shows.congr h

theorem Arr.map2 {A : Nat → Nat → α} {cell : Nat → Nat → Res α}
    (h : ∀ i j, i < r → j < c → cell i j = .ok (A i j)) :
    ∃ m : Arr α r c, (do return { data := ← Tab.build r c cell .rt } : Res (Arr α r c)) = .ok m ∧
      Shows m.at r c A := by
  obtain ⟨t, e, h'⟩ := Tab.build_ex (rt := Fault.rt) A h
  exact ⟨{ data := t }, by rw [e]; rfl, Arr.shows_of _ h'⟩

theorem Arr.add_ok (a : Arr α r c) (b : Mat α r c) (hr : 0 < r) :
    ∃ m, a.add b = .ok m ∧
      Shows m.at r c fun i j => Flt.add (a.data.f i j) (b.ent i j) := by
  unfold Arr.add
  rw [a.colDim_ok hr]
  simp only [ok_bind, checkAdd_ok, must_ok]
  refine Arr.map2 fun i j hi hj => ?_
  cases b with
  | arr m => simp only [Tab.get_ok hi hj, ok_bind]; rfl
  | blk m => simp only [Tab.get_ok hi hj, ok_bind, Mat.at_ok _ hi hj]; rfl
  | dia m => simp only [Tab.get_ok hi hj, ok_bind, Mat.at_ok _ hi hj]; rfl
  | ext m => simp only [Tab.get_ok hi hj, ok_bind, Mat.at_ok _ hi hj]; rfl

theorem Arr.add_err {p q : Nat} (a : Arr α r c) (b : Mat α p q) (hr : 0 < r)
    (h : ¬ (r = p ∧ c = q)) : a.add b = .error (.pan .matDim) := by
  unfold Arr.add
  rw [a.colDim_ok hr]
  simp only [ok_bind, checkAdd_err h, must_err, error_bind]

theorem Arr.subtract_ok (a : Arr α r c) (b : Mat α r c) (hr : 0 < r) :
    ∃ m, a.subtract b = .ok m ∧
      Shows m.at r c fun i j => Flt.sub (a.data.f i j) (b.ent i j) := by
  unfold Arr.subtract
  rw [a.colDim_ok hr]
  simp only [ok_bind, checkAdd_ok, must_ok]
  refine Arr.map2 fun i j hi hj => ?_
  cases b with
  | arr m => simp only [Tab.get_ok hi hj, ok_bind]; rfl
  | blk m => simp only [Tab.get_ok hi hj, ok_bind, Mat.at_ok _ hi hj]; rfl
  | dia m => simp only [Tab.get_ok hi hj, ok_bind, Mat.at_ok _ hi hj]; rfl
  | ext m => simp only [Tab.get_ok hi hj, ok_bind, Mat.at_ok _ hi hj]; rfl

theorem Arr.subtract_err {p q : Nat} (a : Arr α r c) (b : Mat α p q) (hr : 0 < r)
    (h : ¬ (r = p ∧ c = q)) : a.subtract b = .error (.pan .matDim) := by
  unfold Arr.subtract
  rw [a.colDim_ok hr]
  simp only [ok_bind, checkAdd_err h, must_err, error_bind]

theorem Arr.scalarAdd_ok (a : Arr α r c) (d : α) (hr : 0 < r) :
    ∃ m, a.scalarAdd d = .ok m ∧ Shows m.at r c fun i j => Flt.add (a.data.f i j) d := by
  unfold Arr.scalarAdd
  rw [a.colDim_ok hr]
  simp only [ok_bind]
  refine Arr.map2 fun i j hi hj => ?_
  simp only [Tab.get_ok hi hj, ok_bind]; rfl

theorem Arr.scalarMultiply_ok (a : Arr α r c) (d : α) (hr : 0 < r) :
    ∃ m, a.scalarMultiply d = .ok m ∧ Shows m.at r c fun i j => Flt.mul (a.data.f i j) d := by
  unfold Arr.scalarMultiply
  rw [a.colDim_ok hr]
  simp only [ok_bind]
  refine Arr.map2 fun i j hi hj => ?_
  simp only [Tab.get_ok hi hj, ok_bind]; rfl

/-- The left-to-right sum of products: the machine result of a row times a column. -/
def Spec.ldot (c : Nat) (x y : Nat → α) : α := lsum 0 c (fun k => Flt.mul (x k) (y k)) Flt.zero

theorem lsum_congr {a b : Nat} {g g' : Nat → α} {s : α} (h : ∀ i, a ≤ i → i < b → g i = g' i) :
    lsum a b g s = lsum a b g' s := by
  have h1 := sumUp_ok (ε := Unit) (a := a) (b := b) (term := fun i => .ok (g i)) (s := s) g
    fun _ _ _ => rfl
  have h2 := sumUp_ok (ε := Unit) (a := a) (b := b) (term := fun i => .ok (g i)) (s := s) g'
    fun i hi hi' => by rw [h i hi hi']
  rw [h1] at h2
  exact Except.ok.inj h2

theorem Arr.mulArr_ok {q : Nat} (a : Arr α r c) (m : Arr α c q) (hc : 0 < c) :
    ∃ t, a.mulArr m = .ok t ∧ ∀ i j, i < r → j < q →
      t.f i j = ldot c (fun k => a.data.f i k) (fun k => m.data.f k j) := by
  have key : Wp (a.mulArr m) (fun t => ∀ i j, i < r → j < q →
      t.f i j = ldot c (fun k => a.data.f i k) (fun k => m.data.f k j)) (fun _ => False) := by
    unfold Arr.mulArr
    rw [m.colDim_ok hc]
    simp only [ok_bind, wp_bind, wp_pure]
    refine (wr_loop' (fun s : Tab α r q × Row α c => s.1.f)
      (fun i j => ldot c (fun k => a.data.f i k) (fun k => m.data.f k j))
      (fun col x y => x < r ∧ y = col) (Nat.zero_le _) ?_).imp ?_
    · intro col s _ hcol _
      have h1 : Wp (forUp 0 c (fun mRow mCol => do
          Row.set mCol mRow (← m.data.get mRow col)) s.2)
          (fun t : Row α c => Wr (fun k _ => m.data.f k col) (fun x _ => x < c)
            (fun x _ => s.2.f x) (fun x _ => t.f x)) (fun _ : Fault => False) := by
        refine (wr_loop' (fun t : Row α c => fun x _ => t.f x) (fun k _ => m.data.f k col) (fun i x _ => x = i)
          (Nat.zero_le _) ?_).imp ?_
        · intro k t _ hk _
          rw [Tab.get_ok hk hcol, ok_bind, Row.set_ok hk]
          exact Wr.upd1 fun _ => rfl
        · intro t ht
          refine ht.congr fun x y => ?_
          constructor
          · rintro ⟨k, -, hk, rfl⟩; exact hk
          · intro hx; exact ⟨x, by omega, hx, rfl⟩
      obtain ⟨mCol, e1, w1⟩ := h1.exists_ok
      rw [e1]
      simp only [wp_bind, wp_pure, wp_ok]
      refine (wr_loop' (fun t : Tab α r q => t.f)
          (fun i j => ldot c (fun k => a.data.f i k) (fun k => m.data.f k j)) (fun row x y => x = row ∧ y = col)
          (Nat.zero_le _) ?_).imp ?_
      · intro row t _ hrow _
        rw [sumUp_ok (fun k => Flt.mul (a.data.f row k) (m.data.f k col)) (fun k _ hk => by
          rw [Tab.get_ok hrow hk, ok_bind, Row.get_ok hk, ok_bind]
          rw [show mCol.f k = m.data.f k col from (w1 k 0).1 hk]; rfl)]
        rw [ok_bind, Tab.set_ok hrow hcol]
        exact Wr.upd2 rfl
      · intro t ht
        refine ht.congr fun x y => ?_
        constructor
        · rintro ⟨k, -, hk, rfl, rfl⟩; exact ⟨hk, rfl⟩
        · rintro ⟨hx, rfl⟩; exact ⟨x, by omega, hx, rfl, rfl⟩
    · intro s hs i j hi hj
      exact (hs i j).1 ⟨j, by omega, hj, hi, rfl⟩
  exact key.exists_ok

theorem Arr.multiply_ok {q : Nat} (a : Arr α r c) (b : Mat α c q) (hr : 0 < r) (hc : 0 < c) :
    ∃ m, a.multiply b = .ok m ∧
      Shows m.at r q fun i j => ldot c (fun k => a.data.f i k) (fun k => b.ent k j) := by
  unfold Arr.multiply
  rw [a.colDim_ok hr]
  simp only [ok_bind, checkMul_ok, must_ok]
  have gen : ∀ b : Mat α c q, ∃ m : Arr α r q,
      (do return { data := ← a.mulGen b } : Res (Arr α r q)) = .ok m ∧
      Shows m.at r q fun i j => ldot c (fun k => a.data.f i k) (fun k => b.ent k j) := by
    intro b
    refine Arr.map2 fun i j hi hj => ?_
    refine sumUp_ok _ fun k _ hk => ?_
    rw [Tab.get_ok hi hk, ok_bind, Mat.at_ok _ hk hj]
    rfl
  cases b with
  | arr m =>
    obtain ⟨t, e, h⟩ := a.mulArr_ok m hc
    exact ⟨{ data := t }, by dsimp only; rw [e]; rfl, Arr.shows_of _ h⟩
  | blk m => exact gen _
  | dia m => exact gen _
  | ext m => exact gen _

theorem Arr.multiply_err {p q : Nat} (a : Arr α r c) (b : Mat α p q) (hr : 0 < r)
    (h : c ≠ p) : a.multiply b = .error (.pan .dim) := by
  unfold Arr.multiply
  rw [a.colDim_ok hr]
  simp only [ok_bind, checkMul_err h, must_err, error_bind]

theorem Arr.columnAt_ok (m : Arr α r c) {j : Int} (hr : 0 < r) (hj : 0 ≤ j ∧ j < c) :
    ∃ l, m.columnAt j = .ok l ∧ IsList l r fun i => m.data.f i j.toNat := by
  unfold Arr.columnAt
  rw [m.colDim_ok hr]
  simp only [ok_bind, checkColumnIndex_ok hj, must_ok]
  obtain ⟨t, e, h⟩ := Row.build_ex (rt := Fault.rt) (fun i => m.data.f i j.toNat)
    fun i hi => Tab.get_ok (t := m.data) hi (show j.toNat < c by omega)
  exact ⟨_, by rw [e]; rfl, h⟩

theorem Arr.columnAt_err (m : Arr α r c) {j : Int} (hr : 0 < r) (hj : ¬ (0 ≤ j ∧ j < c)) :
    m.columnAt j = .error (.pan .range) := by
  unfold Arr.columnAt
  rw [m.colDim_ok hr]
  simp only [ok_bind, checkColumnIndex_err hj, must_err, error_bind]

theorem Arr.rowAt_ok (m : Arr α r c) {i : Int} (hi : 0 ≤ i ∧ i < r) :
    ∃ l, m.rowAt i = .ok l ∧ IsList l c fun j => m.data.f i.toNat j := by
  unfold Arr.rowAt
  rw [m.colDim_ok (by omega)]
  simp only [ok_bind, checkRowIndex_ok hi, must_ok]
  obtain ⟨t, e, h⟩ := Row.build_ex (rt := Fault.rt) (fun j => m.data.f i.toNat j)
    fun j hj => Tab.get_ok (t := m.data) (show i.toNat < r by omega) hj
  exact ⟨_, by rw [e]; rfl, h⟩

theorem Arr.rowAt_err (m : Arr α r c) {i : Int} (hi : ¬ (0 ≤ i ∧ i < r)) :
    m.rowAt i = .error (.pan .range) := by
  unfold Arr.rowAt
  simp only [checkRowIndex_err hi, must_err, error_bind]

/-- Result of a successful write: `g` on `S`, unchanged elsewhere. -/
theorem Arr.shows_wr {m m' : Arr α r c} {g : Nat → Nat → α} {S : Nat → Nat → Prop}
    [∀ i j, Decidable (S i j)] (h : Wr g S m.data.f m'.data.f) :
    Shows m'.at r c fun i j => if S i j then g i j else m.data.f i j := by
  refine m'.at_shows.congr fun i j _ _ => ?_
  split
  · exact (h i j).1 ‹_›
  · exact (h i j).2 ‹_›

/-- A loop of single writes through `data[...][...] = v`. -/
theorem Arr.wloop {g : Nat → Nat → α} {n : Nat} {m : Arr α r c} (ρ κ : Nat → Nat)
    {body : Nat → Arr α r c → Mut (Arr α r c)}
    (hb : ∀ i (m : Arr α r c), i < n → body i m =
      .ok { m with data := ⟨upd2 m.data.f (ρ i) (κ i) (g (ρ i) (κ i))⟩ }) :
    ∃ m', forUp 0 n body m = .ok m' ∧
      Wr g (fun x y => ∃ i, i < n ∧ x = ρ i ∧ y = κ i) m.data.f m'.data.f ∧ m'.slack = m.slack := by
  refine Wp.exists_ok ?_
  refine (wr_loop (fun m : Arr α r c => m.data.f) g (fun i x y => x = ρ i ∧ y = κ i)
    (fun _ m' => m'.slack = m.slack) (Nat.zero_le _) rfl ?_).imp ?_
  · intro i m' _ hi hK _
    rw [hb i m' hi]
    exact ⟨hK, Wr.upd2 rfl⟩
  · rintro m' ⟨h1, h2⟩
    refine ⟨h2.congr fun x y => ?_, h1⟩
    constructor
    · rintro ⟨i, -, h⟩; exact ⟨i, h⟩
    · rintro ⟨i, h⟩; exact ⟨i, Nat.zero_le _, h⟩

theorem Arr.setColumn_ok (m : Arr α r c) {j : Int} {l : List α} {f : Nat → α} (hr : 0 < r)
    (hj : 0 ≤ j ∧ j < c) (hl : IsList l r f) :
    ∃ m', m.setColumn j l = .ok m' ∧
      Wr (fun x _ => f x) (fun x y => x < r ∧ y = j.toNat) m.data.f m'.data.f ∧
      m'.slack = m.slack := by
  unfold Arr.setColumn
  rw [m.colDim_ok hr]
  simp only [ok_bind, res_at_ok, checkColumnIndex_ok hj, must_ok, hl.1, ne_eq, not_true_eq_false,
    if_false]
  obtain ⟨m', e, w, s⟩ := Arr.wloop (g := fun x _ => f x) (n := r) (m := m) (fun i => i)
    (fun _ => j.toNat) (body := fun i m => do
    let v ← (rdL l i).at m
    let d ← (m.data.set i j.toNat v).at m
    return { m with data := d }) (fun i m hi => by
      rw [hl.rdL hi]
      simp only [res_at_ok, ok_bind, Tab.set_ok hi (show j.toNat < c by omega)]
      rfl)
  refine ⟨m', e, w.congr fun x y => ?_, s⟩
  constructor
  · rintro ⟨i, hi, rfl, rfl⟩; exact ⟨hi, rfl⟩
  · rintro ⟨hx, rfl⟩; exact ⟨x, hx, rfl, rfl⟩

theorem Arr.setColumn_range (m : Arr α r c) {j : Int} {l : List α} (hr : 0 < r)
    (hj : ¬ (0 ≤ j ∧ j < c)) : m.setColumn j l = .error (.pan .range, m) := by
  unfold Arr.setColumn
  rw [m.colDim_ok hr]
  simp only [ok_bind, res_at_ok, checkColumnIndex_err hj, must_err, res_at_error, error_bind]

theorem Arr.setColumn_len (m : Arr α r c) {j : Int} {l : List α} (hr : 0 < r)
    (hj : 0 ≤ j ∧ j < c) (hl : l.length ≠ r) : m.setColumn j l = .error (.pan .matDim, m) := by
  unfold Arr.setColumn
  rw [m.colDim_ok hr]
  simp only [ok_bind, res_at_ok, checkColumnIndex_ok hj, must_ok, ne_eq, hl, not_false_eq_true,
    if_true]
  rfl

theorem Arr.setRow_ok (m : Arr α r c) {i : Int} {l : List α} {f : Nat → α}
    (hi : 0 ≤ i ∧ i < r) (hl : IsList l c f) (hs : i.toNat ≤ m.slack i.toNat) :
    ∃ m', m.setRow i l = .ok m' ∧
      Wr (fun _ y => f y) (fun x y => x = i.toNat ∧ y < c) m.data.f m'.data.f ∧
      m'.slack = m.slack := by
  unfold Arr.setRow
  rw [m.colDim_ok (by omega)]
  simp only [ok_bind, res_at_ok, checkRowIndex_ok hi, must_ok, hl.1, ne_eq, not_true_eq_false,
    if_false]
  rw [if_neg (by omega)]
  obtain ⟨m', e, w, s⟩ := Arr.wloop (g := fun _ y => f y) (n := c) (m := m) (fun _ => i.toNat)
    (fun j => j) (body := fun j m => do
    let v ← (rdL l j).at m
    let d ← (m.data.set i.toNat j v).at m
    return { m with data := d }) (fun j m hj => by
      rw [hl.rdL hj]
      simp only [res_at_ok, ok_bind, Tab.set_ok (show i.toNat < r by omega) hj]
      rfl)
  refine ⟨m', e, w.congr fun x y => ?_, s⟩
  constructor
  · rintro ⟨j, hj, rfl, rfl⟩; exact ⟨rfl, hj⟩
  · rintro ⟨rfl, hy⟩; exact ⟨y, hy, rfl, rfl⟩

/-- The slice expression of `SetRow` overruns the row. -/
theorem Arr.setRow_rt (m : Arr α r c) {i : Int} {l : List α}
    (hi : 0 ≤ i ∧ i < r) (hl : l.length = c) (hs : m.slack i.toNat < i.toNat) :
    m.setRow i l = .error (.rt, m) := by
  unfold Arr.setRow
  rw [m.colDim_ok (by omega)]
  simp only [ok_bind, res_at_ok, checkRowIndex_ok hi, must_ok, hl, ne_eq, not_true_eq_false,
    if_false]
  rw [if_pos (by omega)]
  rfl

theorem Arr.setRow_range (m : Arr α r c) {i : Int} {l : List α}
    (hi : ¬ (0 ≤ i ∧ i < r)) : m.setRow i l = .error (.pan .range, m) := by
  unfold Arr.setRow
  simp only [checkRowIndex_err hi, must_err, res_at_error, error_bind]

theorem Arr.setRow_len (m : Arr α r c) {i : Int} {l : List α}
    (hi : 0 ≤ i ∧ i < r) (hl : l.length ≠ c) : m.setRow i l = .error (.pan .matDim, m) := by
  unfold Arr.setRow
  rw [m.colDim_ok (by omega)]
  simp only [ok_bind, res_at_ok, checkRowIndex_ok hi, must_ok, ne_eq, hl, not_false_eq_true,
    if_true]
  rfl

theorem Arr.transpose_ok (m : Arr α r c) (hr : 0 < r) :
    ∃ m', m.transpose = .ok m' ∧ Shows m'.at c r fun i j => m.data.f j i := by
  unfold Arr.transpose
  rw [m.colDim_ok hr]
  simp only [ok_bind]
  have key : Wp (forUp 0 r (fun i t => forUp 0 c (fun j t => do
      Jag.set t j i (← m.data.get i j)) t) (Jag.zero c (fun _ => r)))
      (fun t : Tab α c r => ∀ i j, i < c → j < r → t.f i j = m.data.f j i)
      (fun _ : Fault => False) := by
    refine (wr_loop' (fun t : Tab α c r => t.f) (fun i j => m.data.f j i)
      (fun i x y => x < c ∧ y = i) (Nat.zero_le _) ?_).imp ?_
    · intro i t _ hi _
      refine (wr_loop' (fun t : Tab α c r => t.f) (fun i j => m.data.f j i)
        (fun j x y => x = j ∧ y = i) (Nat.zero_le _) ?_).imp ?_
      · intro j t _ hj _
        rw [Tab.get_ok hi hj, ok_bind, Tab.set_ok hj hi]
        exact Wr.upd2 rfl
      · intro t ht
        refine ht.congr fun x y => ?_
        constructor
        · rintro ⟨k, -, hk, rfl, rfl⟩; exact ⟨hk, rfl⟩
        · rintro ⟨hx, rfl⟩; exact ⟨x, by omega, hx, rfl, rfl⟩
    · intro t ht i j hi hj
      exact (ht i j).1 ⟨j, by omega, hj, hi, rfl⟩
  obtain ⟨t, e, h⟩ := key.exists_ok
  exact ⟨{ data := t }, by rw [e]; rfl, Arr.shows_of _ h⟩

theorem Arr.trace_ok (m : Arr α r r) (hr : 0 < r) :
    m.trace = .ok (lsum 0 r (fun i => m.data.f i i) Flt.zero) := by
  unfold Arr.trace
  rw [m.colDim_ok hr]
  simp only [ok_bind, ne_eq, not_true_eq_false, if_false]
  exact sumUp_ok _ fun i _ hi => Tab.get_ok hi hi

theorem Arr.trace_err (m : Arr α r c) (hr : 0 < r) (h : r ≠ c) :
    m.trace = .error (.pan .sqMat) := by
  unfold Arr.trace
  rw [m.colDim_ok hr]
  simp only [ok_bind, ne_eq, h, not_false_eq_true, if_true]
  rfl

theorem Arr.operate_ok (m : Arr α r c) {v : List α} {f : Nat → α} (hr : 0 < r)
    (hv : IsList v c f) :
    ∃ l, m.operate v = .ok l ∧ IsList l r fun i => ldot c (fun k => m.data.f i k) f := by
  unfold Arr.operate
  rw [m.colDim_ok hr]
  simp only [ok_bind, hv.1, ne_eq, not_true_eq_false, if_false]
  obtain ⟨t, e, h⟩ := Row.build_ex (rt := Fault.rt) (n := r)
    (cell := fun row => sumUp 0 c (fun i => do
      return Flt.mul (← m.data.get row i) (← rdL v i)) Flt.zero)
    (fun i => ldot c (fun k => m.data.f i k) f) fun i hi => by
      refine sumUp_ok _ fun k _ hk => ?_
      rw [Tab.get_ok hi hk, ok_bind, hv.rdL hk]
      rfl
  exact ⟨_, by rw [e]; rfl, h⟩

theorem Arr.operate_err (m : Arr α r c) {v : List α} (hr : 0 < r) (hv : v.length ≠ c) :
    m.operate v = .error (.pan .dim) := by
  unfold Arr.operate
  rw [m.colDim_ok hr]
  simp only [ok_bind, ne_eq, hv, not_false_eq_true, if_true]
  rfl

theorem Arr.preMultiply_ok (m : Arr α r c) {v : List α} {f : Nat → α} (hr : 0 < r)
    (hv : IsList v r f) :
    ∃ l, m.preMultiply v = .ok l ∧ IsList l c fun j => ldot r (fun k => m.data.f k j) f := by
  unfold Arr.preMultiply
  rw [m.colDim_ok hr]
  simp only [ok_bind, hv.1, ne_eq, not_true_eq_false, if_false]
  obtain ⟨t, e, h⟩ := Row.build_ex (rt := Fault.rt) (n := c)
    (cell := fun col => sumUp 0 r (fun i => do
      return Flt.mul (← m.data.get i col) (← rdL v i)) Flt.zero)
    (fun j => ldot r (fun k => m.data.f k j) f) fun j hj => by
      refine sumUp_ok _ fun k _ hk => ?_
      rw [Tab.get_ok hk hj, ok_bind, hv.rdL hk]
      rfl
  exact ⟨_, by rw [e]; rfl, h⟩

theorem Arr.preMultiply_err (m : Arr α r c) {v : List α} (hr : 0 < r) (hv : v.length ≠ r) :
    m.preMultiply v = .error (.pan .dim) := by
  unfold Arr.preMultiply
  rw [m.colDim_ok hr]
  simp only [ok_bind, ne_eq, hv, not_false_eq_true, if_true]
  rfl

theorem Arr.subMatrix_ok (m : Arr α r c) {sr er sc ec : Int} (h : window r c sr er sc ec) :
    ∃ m', m.subMatrix sr er sc ec = .ok m' ∧
      Shows m'.at (er - sr + 1).toNat (ec - sc + 1).toNat
        fun i j => m.data.f (sr.toNat + i) (sc.toNat + j) := by
  unfold Arr.subMatrix
  simp only [checkSubMatrixIndex_ok h, must_ok, ok_bind]
  unfold window at h
  exact Arr.map2 fun i j hi hj => Tab.get_ok (by omega) (by omega)

theorem must_error_err {β : Type} {x : Res β} (h : ∃ s, x = .error (.err s)) :
    ∃ s, x.must = .error (.pan s) := by
  obtain ⟨s, rfl⟩ := h; exact ⟨s, rfl⟩

theorem Arr.subMatrix_err (m : Arr α r c) {sr er sc ec : Int} (h : ¬ window r c sr er sc ec) :
    ∃ s, m.subMatrix sr er sc ec = .error (.pan s) := by
  unfold Arr.subMatrix
  obtain ⟨s, e⟩ := must_error_err (checkSubMatrixIndex_err h)
  exact ⟨s, by rw [e]; rfl⟩

theorem Arr.rowMatrixAt_ok (m : Arr α r c) {i : Int} (hc : 0 < c) (hi : 0 ≤ i ∧ i < r) :
    ∃ m', m.rowMatrixAt i = .ok m' ∧ Shows m'.at 1 c fun _ j => m.data.f i.toNat j := by
  unfold Arr.rowMatrixAt
  rw [m.colDim_ok (by omega)]
  simp only [ok_bind, checkRowIndex_ok hi, must_ok]
  rw [if_neg (by omega)]
  exact Arr.map2 fun _ j _ hj => Tab.get_ok (by omega) hj

theorem Arr.columnMatrixAt_ok (m : Arr α r c) {j : Int} (hr : 0 < r) (hj : 0 ≤ j ∧ j < c) :
    ∃ m', m.columnMatrixAt j = .ok m' ∧ Shows m'.at r 1 fun i _ => m.data.f i j.toNat := by
  unfold Arr.columnMatrixAt
  rw [m.colDim_ok (by omega)]
  simp only [ok_bind, checkColumnIndex_ok hj, must_ok]
  rw [if_neg (by omega)]
  exact Arr.map2 fun i _ hi _ => Tab.get_ok hi (by omega)

theorem Arr.setEntry_ok (m : Arr α r c) {i j : Int} {v : α} (h : inRange r c i j) :
    m.setEntry i j v = .ok { m with data := ⟨upd2 m.data.f i.toNat j.toNat v⟩ } := by
  unfold inRange at h
  unfold Arr.setEntry
  rw [m.colDim_ok (by omega), checkRowIndex_ok (by omega)]
  simp only [must_ok, res_at_ok, ok_bind]
  rw [checkColumnIndex_ok (by omega)]
  simp only [must_ok, res_at_ok, ok_bind]
  rw [Tab.set_ok (by omega) (by omega)]
  rfl

theorem Arr.setEntry_err (m : Arr α r c) {i j : Int} {v : α} (h : ¬ inRange r c i j) :
    m.setEntry i j v = .error (.pan .range, m) := by
  unfold inRange at h
  unfold Arr.setEntry
  by_cases h1 : 0 ≤ i ∧ i < r
  · rw [m.colDim_ok (by omega), checkRowIndex_ok h1]
    simp only [must_ok, res_at_ok, ok_bind]
    rw [checkColumnIndex_err (by omega)]
    rfl
  · rw [checkRowIndex_err h1]
    rfl

theorem Arr.addToEntry_ok (m : Arr α r c) {i j : Int} {v : α} (h : inRange r c i j) :
    m.addToEntry i j v = .ok { m with data := ⟨upd2 m.data.f i.toNat j.toNat
      (Flt.add (m.data.f i.toNat j.toNat) v)⟩ } := by
  unfold inRange at h
  unfold Arr.addToEntry
  rw [m.colDim_ok (by omega), checkRowIndex_ok (by omega)]
  simp only [must_ok, res_at_ok, ok_bind]
  rw [checkColumnIndex_ok (by omega)]
  simp only [must_ok, res_at_ok, ok_bind]
  rw [Tab.get_ok (by omega) (by omega)]
  simp only [res_at_ok, ok_bind]
  rw [Tab.set_ok (by omega) (by omega)]
  rfl

theorem Arr.addToEntry_err (m : Arr α r c) {i j : Int} {v : α} (h : ¬ inRange r c i j) :
    m.addToEntry i j v = .error (.pan .range, m) := by
  unfold inRange at h
  unfold Arr.addToEntry
  by_cases h1 : 0 ≤ i ∧ i < r
  · rw [m.colDim_ok (by omega), checkRowIndex_ok h1]
    simp only [must_ok, res_at_ok, ok_bind]
    rw [checkColumnIndex_err (by omega)]
    rfl
  · rw [checkRowIndex_err h1]
    rfl

theorem Arr.multiplyEntry_ok (m : Arr α r c) {i j : Int} {v : α} (h : inRange r c i j) :
    m.multiplyEntry i j v = .ok { m with data := ⟨upd2 m.data.f i.toNat j.toNat
      (Flt.mul (m.data.f i.toNat j.toNat) v)⟩ } := by
  unfold inRange at h
  unfold Arr.multiplyEntry
  rw [m.colDim_ok (by omega), checkRowIndex_ok (by omega)]
  simp only [must_ok, res_at_ok, ok_bind]
  rw [checkColumnIndex_ok (by omega)]
  simp only [must_ok, res_at_ok, ok_bind]
  rw [Tab.get_ok (by omega) (by omega)]
  simp only [res_at_ok, ok_bind]
  rw [Tab.set_ok (by omega) (by omega)]
  rfl

theorem Arr.multiplyEntry_err (m : Arr α r c) {i j : Int} {v : α} (h : ¬ inRange r c i j) :
    m.multiplyEntry i j v = .error (.pan .range, m) := by
  unfold inRange at h
  unfold Arr.multiplyEntry
  by_cases h1 : 0 ≤ i ∧ i < r
  · rw [m.colDim_ok (by omega), checkRowIndex_ok h1]
    simp only [must_ok, res_at_ok, ok_bind]
    rw [checkColumnIndex_err (by omega)]
    rfl
  · rw [checkRowIndex_err h1]
    rfl

theorem Arr.setRowMatrix_ok (m : Arr α r c) {i : Int} (b : Mat α 1 c) (hi : 0 ≤ i ∧ i < r) :
    ∃ m', m.setRowMatrix i b = .ok m' ∧
      Wr (fun _ y => b.ent 0 y) (fun x y => x = i.toNat ∧ y < c) m.data.f m'.data.f ∧
      m'.slack = m.slack := by
  unfold Arr.setRowMatrix
  rw [m.colDim_ok (by omega)]
  simp only [ok_bind, res_at_ok, checkRowIndex_ok hi, must_ok, ne_eq, not_true_eq_false, or_self,
    if_false]
  obtain ⟨m', e, w, s⟩ := Arr.wloop (g := fun _ y => b.ent 0 y) (n := c) (m := m)
    (fun _ => i.toNat) (fun j => j) (body := fun j m => do
    let v ← (b.at 0 j).at m
    let d ← (m.data.set i.toNat j v).at m
    return { m with data := d }) (fun j m hj => by
      have := b.at_ok (i := 0) (j := j) (by omega) hj
      simp only [Nat.cast_zero] at this
      simp only [this, res_at_ok, ok_bind, Tab.set_ok (show i.toNat < r by omega) hj]
      rfl)
  refine ⟨m', e, w.congr fun x y => ?_, s⟩
  constructor
  · rintro ⟨j, hj, rfl, rfl⟩; exact ⟨rfl, hj⟩
  · rintro ⟨rfl, hy⟩; exact ⟨y, hy, rfl, rfl⟩

theorem Arr.setColumnMatrix_ok (m : Arr α r c) {j : Int} (b : Mat α r 1) (hr : 0 < r)
    (hj : 0 ≤ j ∧ j < c) :
    ∃ m', m.setColumnMatrix j b = .ok m' ∧
      Wr (fun x _ => b.ent x 0) (fun x y => x < r ∧ y = j.toNat) m.data.f m'.data.f ∧
      m'.slack = m.slack := by
  unfold Arr.setColumnMatrix
  rw [m.colDim_ok (by omega)]
  simp only [ok_bind, res_at_ok, checkColumnIndex_ok hj, must_ok, ne_eq, not_true_eq_false, or_self,
    if_false]
  obtain ⟨m', e, w, s⟩ := Arr.wloop (g := fun x _ => b.ent x 0) (n := r) (m := m)
    (fun i => i) (fun _ => j.toNat) (body := fun i m => do
    let v ← (b.at i 0).at m
    let d ← (m.data.set i j.toNat v).at m
    return { m with data := d }) (fun i m hi => by
      have := b.at_ok (i := i) (j := 0) hi (by omega)
      simp only [Nat.cast_zero] at this
      simp only [this, res_at_ok, ok_bind, Tab.set_ok hi (show j.toNat < c by omega)]
      rfl)
  refine ⟨m', e, w.congr fun x y => ?_, s⟩
  constructor
  · rintro ⟨i, hi, rfl, rfl⟩; exact ⟨hi, rfl⟩
  · rintro ⟨hx, rfl⟩; exact ⟨x, hx, rfl, rfl⟩

/-- Entries of a vector argument. -/
def RVec.list : RVec α → List α
  | .arr d => d
  | .ext d => d

theorem RVec.at_ok {v : RVec α} {n : Nat} {f : Nat → α} (h : IsList v.list n f) {i : Nat}
    (hi : i < n) : v.at i = .ok (f i) := by
  have hr := h.rdL hi
  have hl := h.1
  cases v with
  | arr d =>
    have hl : d.length = n := hl
    have hr : Linear.rdL d i = .ok (f i) := hr
    simp only [RVec.at, Int.toNat_natCast, hr]
    rw [if_neg (by omega)]
  | ext d =>
    have hl : d.length = n := hl
    have hr : Linear.rdL d i = .ok (f i) := hr
    simp only [RVec.at, Int.toNat_natCast, hr]
    rw [if_neg (by omega)]

theorem RVec.dim_eq (v : RVec α) : v.dim = v.list.length := by cases v <;> rfl

theorem Arr.setRowVector_ok (m : Arr α r c) {i : Int} {v : RVec α} {f : Nat → α}
    (hi : 0 ≤ i ∧ i < r) (hv : IsList v.list c f) :
    ∃ m', m.setRowVector i v = .ok m' ∧
      Wr (fun _ y => f y) (fun x y => x = i.toNat ∧ y < c) m.data.f m'.data.f ∧
      m'.slack = m.slack := by
  unfold Arr.setRowVector
  rw [m.colDim_ok (by omega)]
  simp only [ok_bind, res_at_ok, checkRowIndex_ok hi, must_ok, RVec.dim_eq, hv.1, ne_eq,
    not_true_eq_false, if_false]
  obtain ⟨m', e, w, s⟩ := Arr.wloop (g := fun _ y => f y) (n := c) (m := m)
    (fun _ => i.toNat) (fun j => j) (body := fun j m => do
    let x ← (v.at j).at m
    let d ← (m.data.set i.toNat j x).at m
    return { m with data := d }) (fun j m hj => by
      simp only [RVec.at_ok hv hj, res_at_ok, ok_bind, Tab.set_ok (show i.toNat < r by omega) hj]
      rfl)
  refine ⟨m', e, w.congr fun x y => ?_, s⟩
  constructor
  · rintro ⟨j, hj, rfl, rfl⟩; exact ⟨rfl, hj⟩
  · rintro ⟨rfl, hy⟩; exact ⟨y, hy, rfl, rfl⟩

theorem Arr.setColumnVector_ok (m : Arr α r c) {j : Int} {v : RVec α} {f : Nat → α} (hr : 0 < r)
    (hj : 0 ≤ j ∧ j < c) (hv : IsList v.list r f) :
    ∃ m', m.setColumnVector j v = .ok m' ∧
      Wr (fun x _ => f x) (fun x y => x < r ∧ y = j.toNat) m.data.f m'.data.f ∧
      m'.slack = m.slack := by
  unfold Arr.setColumnVector
  rw [m.colDim_ok (by omega)]
  simp only [ok_bind, res_at_ok, RVec.dim_eq, hv.1, ne_eq, not_true_eq_false, if_false]
  obtain ⟨m', e, w, s⟩ := Arr.wloop (g := fun x _ => f x) (n := r) (m := m)
    (fun i => i) (fun _ => j.toNat) (body := fun i m => do
    let x ← (v.at i).at m
    m.rawSet i j x) (fun i m hi => by
      simp only [RVec.at_ok hv hi, res_at_ok, ok_bind, Arr.rawSet]
      rw [if_neg (by omega)]
      simp only [Tab.set_ok hi (show j.toNat < c by omega), res_at_ok, ok_bind]
      rfl)
  refine ⟨m', e, w.congr fun x y => ?_, s⟩
  constructor
  · rintro ⟨i, hi, rfl, rfl⟩; exact ⟨hi, rfl⟩
  · rintro ⟨hx, rfl⟩; exact ⟨x, hx, rfl, rfl⟩

/-- `SetSubMatrix` inside the matrix. -/
theorem Arr.setSubMatrix_ok (m : Arr α r c) {d : List (List α)} {p q : Nat} {B : Nat → Nat → α}
    {row col : Int} (hd : Rect d p q B) (hp : 0 < p) (hq : 0 < q)
    (hrow : 0 ≤ row ∧ row + p ≤ r) (hcol : 0 ≤ col ∧ col + q ≤ c) :
    ∃ m', m.setSubMatrix (some d) row col = .ok m' ∧
      Wr (fun x y => B (x - row.toNat) (y - col.toNat))
        (fun x y => (row.toNat ≤ x ∧ x < row.toNat + p) ∧ (col.toNat ≤ y ∧ y < col.toNat + q))
        m.data.f m'.data.f ∧
      m'.slack = m.slack := by
  obtain ⟨rfl, h⟩ := hd
  obtain ⟨row0, h01, h02, -⟩ := h 0 hp
  unfold Arr.setSubMatrix
  rw [m.colDim_ok (by omega)]
  simp only [show d.length ≠ 0 by omega, if_false, rdL_eq_ok.2 h01, res_at_ok, ok_bind, h02,
    show q ≠ 0 by omega]
  rw [forUp_check_ok (fun i _ hi => by
    obtain ⟨ri, h1, h2, -⟩ := h i hi
    simp only [rdL_eq_ok.2 h1, res_at_ok, ok_bind, h2, ne_eq, not_true_eq_false, if_false]; rfl)]
  rw [checkRowIndex_ok (by omega), checkColumnIndex_ok (by omega), checkRowIndex_ok (by omega),
    checkColumnIndex_ok (by omega)]
  simp only [must_ok, res_at_ok, ok_bind]
  refine Wp.exists_ok ?_
  refine (wr_loop (fun m : Arr α r c => m.data.f) (fun x y => B (x - row.toNat) (y - col.toNat))
    (fun i x y => x = row.toNat + i ∧ (col.toNat ≤ y ∧ y < col.toNat + q))
    (fun _ m' => m'.slack = m.slack) (Nat.zero_le _) rfl ?_).imp ?_
  · intro i m1 _ hi hK _
    obtain ⟨ri, h1, h2, h3⟩ := h i hi
    have hri : IsList ri q (B i) := ⟨h2, h3⟩
    refine (wr_loop (fun m : Arr α r c => m.data.f) (fun x y => B (x - row.toNat) (y - col.toNat))
      (fun j x y => x = row.toNat + i ∧ y = col.toNat + j)
      (fun _ m' => m'.slack = m.slack) (Nat.zero_le _) hK ?_).imp ?_
    · intro j m2 _ hj hK2 _
      simp only [rdL_eq_ok.2 h1, res_at_ok, ok_bind, hri.rdL hj]
      rw [Arr.setEntry_ok _ (by unfold inRange; omega)]
      refine ⟨hK2, ?_⟩
      rw [show (row + i).toNat = row.toNat + i by omega, show (col + j).toNat = col.toNat + j by omega]
      refine Wr.upd2 ?_
      rw [Nat.add_sub_cancel_left, Nat.add_sub_cancel_left]
    · rintro m2 ⟨h5, h6⟩
      refine ⟨h5, h6.congr fun x y => ?_⟩
      constructor
      · rintro ⟨k, -, hk, rfl, rfl⟩; omega
      · rintro ⟨rfl, hy⟩; exact ⟨y - col.toNat, by omega, by omega, rfl, by omega⟩
  · rintro m2 ⟨h5, h6⟩
    refine ⟨h6.congr fun x y => ?_, h5⟩
    constructor
    · rintro ⟨k, -, hk, rfl, hy⟩; omega
    · rintro ⟨hx, hy⟩; exact ⟨x - row.toNat, by omega, by omega, by omega, hy⟩

/-- `SetSubMatrix` outside the matrix, with rectangular data: refused without effect. -/
theorem Arr.setSubMatrix_range (m : Arr α r c) {d : List (List α)} {p q : Nat} {B : Nat → Nat → α}
    {row col : Int} (hr : 0 < r) (hd : Rect d p q B) (hp : 0 < p) (hq : 0 < q)
    (hw : ¬ ((0 ≤ row ∧ row + p ≤ r) ∧ (0 ≤ col ∧ col + q ≤ c))) :
    m.setSubMatrix (some d) row col = .error (.pan .range, m) := by
  obtain ⟨rfl, h⟩ := hd
  obtain ⟨row0, h01, h02, -⟩ := h 0 hp
  unfold Arr.setSubMatrix
  rw [m.colDim_ok (by omega)]
  simp only [show d.length ≠ 0 by omega, if_false, rdL_eq_ok.2 h01, res_at_ok, ok_bind, h02,
    show q ≠ 0 by omega]
  rw [forUp_check_ok (fun i _ hi => by
    obtain ⟨ri, h1, h2, -⟩ := h i hi
    simp only [rdL_eq_ok.2 h1, res_at_ok, ok_bind, h2, ne_eq, not_true_eq_false, if_false]; rfl)]
  by_cases h1 : 0 ≤ row ∧ row < r
  · rw [checkRowIndex_ok h1]
    by_cases h2 : 0 ≤ col ∧ col < c
    · rw [checkColumnIndex_ok h2]
      by_cases h3 : row + d.length ≤ r
      · rw [checkRowIndex_ok (by omega), checkColumnIndex_err (by omega)]; rfl
      · rw [checkRowIndex_err (by omega)]; rfl
    · rw [checkColumnIndex_err h2]; rfl
  · rw [checkRowIndex_err h1]; rfl

/-- `SetSubMatrix` with empty or ragged data: refused without effect. -/
theorem Arr.setSubMatrix_ragged (m : Arr α r c) {sub : Option (List (List α))} {row col : Int}
    (hd : ∀ d p q B, sub = some d → Rect d p q B → p = 0 ∨ q = 0) :
    ∃ s, m.setSubMatrix sub row col = .error (.pan s, m) := by
  unfold Arr.setSubMatrix
  cases sub with
  | none => exact ⟨_, rfl⟩
  | some d =>
    dsimp only
    by_cases hl : d.length = 0
    · rw [if_pos hl]; exact ⟨_, rfl⟩
    · rw [if_neg hl]
      obtain ⟨row0, h0⟩ : ∃ row0, d[0]? = some row0 := by
        cases d with
        | nil => simp at hl
        | cons a l => exact ⟨a, rfl⟩
      simp only [rdL_eq_ok.2 h0, res_at_ok, ok_bind]
      by_cases hq : row0.length = 0
      · rw [if_pos hq]; exact ⟨_, rfl⟩
      · rw [if_neg hq]
        by_cases hrag : ∃ i, 1 ≤ i ∧ i < d.length ∧ ∃ ri, d[i]? = some ri ∧ ri.length ≠ row0.length
        · obtain ⟨i, h1, h2, ri, h3, h4⟩ := hrag
          rw [forUp_check_err (e := (Fault.pan .dim, m)) ?_ h1 h2 ?_]
          · exact ⟨_, rfl⟩
          · intro i' _ hi'
            have : d[i']? = some d[i'] := by simp [hi']
            simp only [rdL_eq_ok.2 this, res_at_ok, ok_bind]
            split
            · exact Or.inr rfl
            · exact Or.inl rfl
          · simp only [rdL_eq_ok.2 h3, res_at_ok, ok_bind, ne_eq, h4, not_false_eq_true, if_true]
            rfl
        · exfalso
          have := hd d d.length row0.length (fun i j => ((d[i]?.getD [])[j]?).getD Flt.zero) rfl
            ⟨rfl, fun i hi => ?_⟩
          · omega
          · refine ⟨d[i], by simp [hi], ?_, ?_⟩
            · by_contra hne
              rcases Nat.eq_zero_or_pos i with rfl | hpos
              · have h0' : d[0]? = some d[0] := by simp [hi]
                rw [h0'] at h0
                exact hne (by rw [Option.some.inj h0])
              · exact hrag ⟨i, hpos, hi, d[i], by simp [hi], hne⟩
            · intro j hj
              have hlen : d[i].length = row0.length := by
                by_contra hne
                rcases Nat.eq_zero_or_pos i with rfl | hpos
                · have h0' : d[0]? = some d[0] := by simp [hi]
                  rw [h0'] at h0
                  exact hne (by rw [Option.some.inj h0])
                · exact hrag ⟨i, hpos, hi, d[i], by simp [hi], hne⟩
              have hj' : j < d[i].length := by omega
              simp [hi, hj']

end

end Linear
