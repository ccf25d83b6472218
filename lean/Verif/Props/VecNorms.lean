import Verif.Props.Vectors
import Mathlib.Algebra.Order.BigOperators.Ring.List
import Mathlib.Tactic.Ring
import Mathlib.Tactic.FieldSimp

/-!
# C23-C26, C56: vector equality, norms, extrema, unit vectors, walks
-/

set_option linter.unusedSectionVars false

namespace Linear

open Spec

variable {α : Type} [Flt α] {τ : Type}

/-! ## C23 Equality -/

theorem exists_nth {l : List α} {p : α → Bool} :
    (∃ i < l.length, p (nth l i) = true) ↔ ∃ x ∈ l, p x = true := by
  constructor
  · rintro ⟨i, hi, h⟩
    exact ⟨nth l i, by simp [nth, hi], h⟩
  · rintro ⟨x, hx, h⟩
    obtain ⟨i, hi, rfl⟩ := List.getElem_of_mem hx
    exact ⟨i, hi, by simpa [nth, hi] using h⟩

/-- `IsNaN` answers whether some entry is a NaN. -/
theorem Vec.isNaN_eq (d : List α) : Vec.isNaN d = .ok (d.any Flt.isNaN) := by
  unfold Vec.isNaN
  rw [searchLoop (p := fun i => Flt.isNaN (nth d i)) (r := true) fun i u hi => by
    rw [rdL_nth hi]; rfl, ok_bind]
  by_cases h : ∃ x ∈ d, Flt.isNaN x = true
  · rw [if_pos (exists_nth.2 h), List.any_eq_true.2 h]; rfl
  · rw [if_neg (fun h' => h (exists_nth.1 h')), Bool.eq_false_iff.2 (fun h' => h (List.any_eq_true.1 h'))]
    rfl

theorem RVec.isNaN_eq (v : RVec α) : v.isNaN = .ok (v.list.any Flt.isNaN) := by
  cases v with
  | arr d => exact Vec.isNaN_eq d
  | ext d => rfl

/-- C23, `IsNaN` and `IsInf`: some entry is a NaN; some entry is infinite and none is a NaN. -/
theorem C23_special (d : List α) :
    (∃ b, Vec.isNaN d = .ok b ∧ (b = true ↔ ∃ x ∈ d, Flt.isNaN x = true)) ∧
    (∃ b, Vec.isInf d = .ok b ∧
      (b = true ↔ (∃ x ∈ d, Flt.isInf x = true) ∧ ∀ x ∈ d, Flt.isNaN x = false)) := by
  refine ⟨⟨_, Vec.isNaN_eq d, List.any_eq_true⟩, ?_⟩
  unfold Vec.isInf
  rw [Vec.isNaN_eq, ok_bind]
  by_cases hn : d.any Flt.isNaN = true
  · rw [if_pos hn]
    refine ⟨false, rfl, by simp, fun h => ?_⟩
    obtain ⟨x, hx, hx'⟩ := List.any_eq_true.1 hn
    rw [h.2 x hx] at hx'
    cases hx'
  · rw [if_neg hn]
    rw [searchLoop (p := fun i => Flt.isInf (nth d i)) (r := true) fun i u hi => by
      rw [rdL_nth hi]; rfl, ok_bind]
    have hn' : ∀ x ∈ d, Flt.isNaN x = false := by simpa using hn
    by_cases h : ∃ x ∈ d, Flt.isInf x = true
    · rw [if_pos (exists_nth.2 h)]
      exact ⟨true, rfl, fun _ => ⟨h, hn'⟩, fun _ => rfl⟩
    · rw [if_neg (fun h' => h (exists_nth.1 h'))]
      exact ⟨false, rfl, by simp, fun h' => absurd h'.1 h⟩

/-- C23: exactly when `Equals` answers true. -/
theorem C23_equals (d : List α) (v : RVec α) :
    ∃ b, Vec.equals d false (some v) = .ok b ∧
      (b = true ↔ d.length = v.list.length ∧
        if ∃ x ∈ v.list, Flt.isNaN x = true then ∃ x ∈ d, Flt.isNaN x = true
        else List.Forall₂ (fun x y => Flt.eq x y = true) d v.list) := by
  unfold Vec.equals
  rw [if_neg (by simp), v.dim_list]
  dsimp only
  by_cases hl : d.length = v.dim
  swap
  · rw [if_pos hl]
    exact ⟨false, rfl, by simp [hl]⟩
  rw [if_neg (by simpa using hl), v.isNaN_eq, Vec.isNaN_eq]
  simp only [ok_bind, hl, true_and]
  by_cases hn : ∃ x ∈ v.list, Flt.isNaN x = true
  · rw [if_pos hn, if_pos (List.any_eq_true.2 hn)]
    exact ⟨_, rfl, List.any_eq_true⟩
  · rw [if_neg hn, if_neg (fun h' => hn (List.any_eq_true.1 h'))]
    have e := searchLoop (ε := Fault) (n := v.dim) (p := fun i => !Flt.eq (nth d i) (nth v.list i))
      (r := false) (body := fun i (_ : Unit) => do
        return if Flt.eq (← rdL d i) (← v.at i) then .inl () else .inr false) fun i u hi => by
      rw [rdL_nth (by omega), v.at_nth hi]
      show Except.ok _ = Except.ok _
      cases Flt.eq (nth d i) (nth v.list i) <;> rfl
    have e' : (forUpBrk 0 v.dim (fun i (_ : Unit) => do
        return if Flt.eq (← rdL d i) (← v.at i) then .inl () else .inr false) () :
        Res (Unit ⊕ Bool)) = _ := e
    rw [e', ok_bind]
    have iff : (∃ i < v.dim, (!Flt.eq (nth d i) (nth v.list i)) = true) ↔
        ¬ List.Forall₂ (fun x y => Flt.eq x y = true) d v.list := by
      rw [List.forall₂_iff_get]
      constructor
      · rintro ⟨i, hi, h⟩ ⟨_, h'⟩
        have := h' i (by omega) (by rw [v.dim_list]; omega)
        simp [nth, hl ▸ hi, v.dim_list.symm ▸ hi] at h this
        rw [this] at h
        cases h
      · intro h
        by_contra hc
        refine h ⟨by rw [v.dim_list, hl], fun i h1 h2 => ?_⟩
        by_contra h3
        refine hc ⟨i, by omega, ?_⟩
        simp [nth, h1, h2] at h3 ⊢
        exact h3
    by_cases hx : List.Forall₂ (fun x y => Flt.eq x y = true) d v.list
    · rw [if_neg (fun h => iff.1 h hx)]
      exact ⟨true, rfl, by simp [hx]⟩
    · rw [if_pos (iff.2 hx)]
      exact ⟨false, rfl, by simp [hx]⟩

/-- What machine equality satisfies: an equivalence on the values that are not NaN, and never true
on a NaN. -/
structure EqNaN (α : Type) [Flt α] : Prop where
  refl : ∀ x : α, Flt.isNaN x = false → Flt.eq x x = true
  symm : ∀ x y : α, Flt.eq x y = true → Flt.eq y x = true
  trans : ∀ x y z : α, Flt.eq x y = true → Flt.eq y z = true → Flt.eq x z = true
  nan : ∀ x y : α, Flt.eq x y = true → Flt.isNaN x = false

theorem forall₂_nan (L : EqNaN α) {a b : List α}
    (h : List.Forall₂ (fun x y => Flt.eq x y = true) a b) : ∀ x ∈ a, Flt.isNaN x = false := by
  induction h with
  | nil => simp
  | cons h _ ih =>
    intro z hz
    rcases List.mem_cons.1 hz with rfl | hz
    · exact L.nan _ _ h
    · exact ih z hz

/-- C23: `Equals` is an equivalence on vectors, NaN entries included. -/
theorem C23_equivalence (L : EqNaN α) (a b c : List α) :
    Vec.equals a true (some (.arr a)) = .ok true ∧ Vec.equals a false (some (.arr a)) = .ok true ∧
    (Vec.equals a false (some (.arr b)) = .ok true → Vec.equals b false (some (.arr a)) = .ok true) ∧
    (Vec.equals a false (some (.arr b)) = .ok true → Vec.equals b false (some (.arr c)) = .ok true →
      Vec.equals a false (some (.arr c)) = .ok true) := by
  have key : ∀ a b : List α, Vec.equals a false (some (.arr b)) = .ok true ↔
      (a.length = b.length ∧ (∃ x ∈ a, Flt.isNaN x = true) ∧ (∃ x ∈ b, Flt.isNaN x = true)) ∨
      List.Forall₂ (fun x y => Flt.eq x y = true) a b := by
    intro a b
    obtain ⟨r, e, h⟩ := C23_equals a (.arr b)
    have h : r = true ↔ a.length = b.length ∧
        if ∃ x ∈ b, Flt.isNaN x = true then ∃ x ∈ a, Flt.isNaN x = true
        else List.Forall₂ (fun x y => Flt.eq x y = true) a b := h
    rw [e]
    have : (Except.ok r : Res Bool) = .ok true ↔ r = true := by simp
    rw [this, h]
    by_cases hb : ∃ x ∈ b, Flt.isNaN x = true
    · rw [if_pos hb]
      constructor
      · exact fun h => .inl ⟨h.1, h.2, hb⟩
      · rintro (h | h)
        · exact ⟨h.1, h.2.1⟩
        · obtain ⟨x, hx, hx'⟩ := hb
          have h' : List.Forall₂ (fun x y => Flt.eq x y = true) b a :=
            h.flip.imp fun x y h => L.symm _ _ h
          rw [forall₂_nan L h' x hx] at hx'
          cases hx'
    · rw [if_neg hb]
      constructor
      · exact fun h => .inr h.2
      · rintro (h | h)
        · exact absurd h.2.2 hb
        · exact ⟨h.length_eq, h⟩
  rw [key, key, key, key, key]
  refine ⟨rfl, ?_, ?_, ?_⟩
  · by_cases ha : ∃ x ∈ a, Flt.isNaN x = true
    · exact .inl ⟨rfl, ha, ha⟩
    · refine .inr ?_
      rw [List.forall₂_same]
      exact fun x hx => L.refl x (by simpa using fun h => ha ⟨x, hx, h⟩)
  · rintro (h | h)
    · exact .inl ⟨h.1.symm, h.2.2, h.2.1⟩
    · exact .inr (h.flip.imp fun x y h => L.symm _ _ h)
  · have hno : ∀ {p q : List α}, List.Forall₂ (fun x y => Flt.eq x y = true) p q →
        (∃ x ∈ q, Flt.isNaN x = true) → False := by
      rintro p q h ⟨x, hx, hx'⟩
      have h' : List.Forall₂ (fun x y => Flt.eq x y = true) q p :=
        h.flip.imp fun x y h => L.symm _ _ h
      rw [forall₂_nan L h' x hx] at hx'
      cases hx'
    rintro (h | h) (h' | h')
    · exact .inl ⟨h.1.trans h'.1, h.2.1, h'.2.2⟩
    · obtain ⟨_, _, x, hx, hx'⟩ := h
      rw [forall₂_nan L h' x hx] at hx'
      cases hx'
    · exact absurd h'.2.1 (fun hn => hno h hn)
    · refine .inr ?_
      clear key
      induction h generalizing c with
      | nil => exact h'
      | cons hx _ ih =>
        cases h' with
        | cons hy h' => exact .cons (L.trans _ _ _ hx hy) (ih _ h')

/-- Something that is not a vector is not equal to one. -/
theorem C23_foreign (d : List α) : Vec.equals d false none = .ok false := rfl

theorem Xq.eqNaN : EqNaN Xq where
  refl x h := by simpa [Flt.isNaN, Flt.eq] using h
  symm x y h := by
    simp only [Flt.eq, Bool.and_eq_true, decide_eq_true_eq, Bool.not_eq_true',
      decide_eq_false_iff_not] at h ⊢
    exact ⟨h.1.symm, h.1 ▸ h.2⟩
  trans x y z h h' := by
    simp only [Flt.eq, Bool.and_eq_true, decide_eq_true_eq, Bool.not_eq_true',
      decide_eq_false_iff_not] at h h' ⊢
    exact ⟨h.1.trans h'.1, h.2⟩
  nan x y h := by
    simp only [Flt.eq, Flt.isNaN, Bool.and_eq_true, decide_eq_true_eq, Bool.not_eq_true',
      decide_eq_false_iff_not] at h ⊢
    exact h.2

/-- Concrete case: two vectors with NaNs at different places are equal; a finite one differs. -/
example : Vec.equals [Xq.nan, .fin 1] false (some (.arr [.fin 5, Xq.nan])) = .ok true ∧
    Vec.equals [Xq.fin 5, .nan] false (some (.arr [Xq.nan, .fin 1])) = .ok true ∧
    Vec.equals [Xq.fin 5, .nan] false (some (.arr [Xq.fin 5, .fin 1])) = .ok false :=
  ⟨by decide +kernel, (C23_equivalence Xq.eqNaN _ _ []).2.2.1 (by decide +kernel),
    by decide +kernel⟩

/-! ## C25 Extrema -/

/-- What machine `<=` satisfies: a total preorder on the values that are not NaN, never true on a
NaN, with largest value `inf` and smallest `ninf`. -/
structure OrdNaN (α : Type) [Flt α] (inf ninf : α) : Prop where
  total : ∀ x y : α, Flt.isNaN x = false → Flt.isNaN y = false →
    Flt.le x y = true ∨ Flt.le y x = true
  trans : ∀ x y z : α, Flt.le x y = true → Flt.le y z = true → Flt.le x z = true
  nan : ∀ x y : α, Flt.le x y = true → Flt.isNaN x = false ∧ Flt.isNaN y = false
  top : ∀ x : α, Flt.isNaN x = false → Flt.le x inf = true
  bot : ∀ x : α, Flt.isNaN x = false → Flt.le ninf x = true

/-- The loop of `MinIndex` and `MaxIndex` for a comparison `le`. -/
theorem extremum_loop {le : α → α → Bool} {inf : α} (l : List α)
    (total : ∀ x y : α, Flt.isNaN x = false → Flt.isNaN y = false → le x y = true ∨ le y x = true)
    (trans : ∀ x y z : α, le x y = true → le y z = true → le x z = true)
    (nan : ∀ x y : α, le x y = true → Flt.isNaN x = false ∧ Flt.isNaN y = false)
    (top : ∀ x : α, Flt.isNaN x = false → le x inf = true) {v : RVec α} (hv : v.list = l)
    {body : Nat → α → Int × α → Res (Int × α)}
    (hb : ∀ i x s, body i x s = .ok (if le x s.2 then ((i : Int), x) else s)) :
    ∃ s, v.iterate body 0 (-1, inf) = .ok s ∧
      ((s.1 = -1 ∧ ∀ x ∈ l, Flt.isNaN x = true) ∨
       ∃ i x, s = (((i : Nat) : Int), x) ∧ l[i]? = some x ∧ Flt.isNaN x = false ∧
        ∀ j y, l[j]? = some y → Flt.isNaN y = false →
          le x y = true ∧ (i < j → le y x = false)) := by
  rw [v.iterate_eq, ← v.dim_list, hv]
  obtain ⟨s, e, h⟩ := Wp.exists_ok (wp_forUp (E := fun _ => False) (a := 0) (b := l.length)
    (body := fun i s => body i (nth l i) s) (s := ((-1, inf) : Int × α))
    (fun k (s : Int × α) => (s = (-1, inf) ∧ ∀ j y, j < k → l[j]? = some y → Flt.isNaN y = true) ∨
      ∃ i x, s = (((i : Nat) : Int), x) ∧ i < k ∧ l[i]? = some x ∧ Flt.isNaN x = false ∧
        ∀ j y, j < k → l[j]? = some y → Flt.isNaN y = false →
          le x y = true ∧ (i < j → le y x = false))
    (Nat.zero_le _) (.inl ⟨rfl, by simp⟩) (by
      intro k s _ hk hs
      have hx : l[k]? = some (nth l k) := (isList_nth l).2 k hk
      generalize nth l k = x at hx
      rw [hb]
      show _ ∨ _
      rcases hs with ⟨rfl, hs⟩ | ⟨i, m, rfl, hi, hm, hmn, hs⟩
      · by_cases hn : Flt.isNaN x = true
        · have : le x inf = false := by
            by_contra hc
            rw [(nan _ _ (by simpa using hc)).1] at hn
            cases hn
          rw [this]
          refine .inl ⟨rfl, fun j y hj hy => ?_⟩
          by_cases hjk : j = k
          · subst hjk; rw [hx] at hy; cases hy; exact hn
          · exact hs j y (by omega) hy
        · have hn : Flt.isNaN x = false := by simpa using hn
          rw [top x hn]
          refine .inr ⟨k, x, rfl, by omega, hx, hn, fun j y hj hy hny => ?_⟩
          by_cases hjk : j = k
          · subst hjk; rw [hx] at hy; cases hy
            exact ⟨by simpa using total x x hn hn, by omega⟩
          · rw [hs j y (by omega) hy] at hny; cases hny
      · by_cases hle : le x m = true
        · rw [show (le x ((i : Int), m).2) = true from hle]
          have hn := (nan _ _ hle).1
          refine .inr ⟨k, x, rfl, by omega, hx, hn, fun j y hj hy hny => ⟨?_, by omega⟩⟩
          by_cases hjk : j = k
          · subst hjk; rw [hx] at hy; cases hy
            simpa using total x x hn hn
          · exact trans _ _ _ hle (hs j y (by omega) hy hny).1
        · have hle : le x m = false := by simpa using hle
          rw [show (le x ((i : Int), m).2) = false from hle]
          refine .inr ⟨i, m, rfl, by omega, hm, hmn, fun j y hj hy hny => ?_⟩
          by_cases hjk : j = k
          · subst hjk; rw [hx] at hy; cases hy
            refine ⟨?_, fun _ => hle⟩
            rcases total x m hny hmn with h | h
            · rw [hle] at h; cases h
            · exact h
          · exact hs j y (by omega) hy hny))
  refine ⟨s, e, ?_⟩
  rcases h with ⟨rfl, h⟩ | ⟨i, x, rfl, hi, hx, hn, h⟩
  · refine .inl ⟨rfl, fun x hx => ?_⟩
    obtain ⟨j, hj, rfl⟩ := List.getElem_of_mem hx
    exact h j _ hj (by simp)
  · refine .inr ⟨i, x, rfl, hx, hn, fun j y hy hny => h j y ?_ hy hny⟩
    exact (List.getElem?_eq_some_iff.1 hy).1

/-- C25, `MinIndex` and `MinValue`: the last entry that no comparable entry undercuts, or `-1` and
NaN when no entry is comparable. -/
theorem C25_min {inf ninf : α} (L : OrdNaN α inf ninf) (v : RVec α) :
    ((∀ x ∈ v.list, Flt.isNaN x = true) → minIndex inf v = .ok (-1) ∧ minValue inf v = .ok Flt.nan) ∧
    ((∃ x ∈ v.list, Flt.isNaN x = false) → ∃ (i : Nat) (x : α), minIndex inf v = .ok (i : Int) ∧
      minValue inf v = .ok x ∧ v.list[i]? = some x ∧ Flt.isNaN x = false ∧
      ∀ j y, v.list[j]? = some y → Flt.isNaN y = false →
        Flt.le x y = true ∧ (i < j → Flt.le y x = false)) := by
  obtain ⟨s, e, h⟩ := extremum_loop (le := Flt.le) (inf := inf) v.list L.total L.trans L.nan L.top
    (v := v) rfl (body := fun i x s => .ok (if Flt.le x s.2 then ((i : Int), x) else s))
    (fun _ _ _ => rfl)
  have ei : minIndex inf v = .ok s.1 := by unfold minIndex; rw [e]; rfl
  rcases h with ⟨h1, h⟩ | ⟨i, x, rfl, hx, hn, h⟩
  · refine ⟨fun _ => ⟨by rw [ei, h1], ?_⟩, fun ⟨x, hx, hx'⟩ => ?_⟩
    · unfold minValue; rw [ei, h1]; rfl
    · rw [h x hx] at hx'; cases hx'
  · refine ⟨fun h' => ?_, fun _ => ⟨i, x, ei, ?_, hx, hn, h⟩⟩
    · have := h' x (List.mem_of_getElem? hx)
      rw [hn] at this; cases this
    · unfold minValue
      have hi := (List.getElem?_eq_some_iff.1 hx).1
      rw [ei, ok_bind, if_neg (by dsimp only; omega), v.at_nth (by rw [← v.dim_list]; exact hi)]
      have := (isList_nth v.list).2 i hi
      rw [hx] at this
      cases this; rfl

/-- C25, `MaxIndex` and `MaxValue`. -/
theorem C25_max {inf ninf : α} (L : OrdNaN α inf ninf) (v : RVec α) :
    ((∀ x ∈ v.list, Flt.isNaN x = true) → maxIndex ninf v = .ok (-1) ∧ maxValue ninf v = .ok Flt.nan) ∧
    ((∃ x ∈ v.list, Flt.isNaN x = false) → ∃ (i : Nat) (x : α), maxIndex ninf v = .ok (i : Int) ∧
      maxValue ninf v = .ok x ∧ v.list[i]? = some x ∧ Flt.isNaN x = false ∧
      ∀ j y, v.list[j]? = some y → Flt.isNaN y = false →
        Flt.le y x = true ∧ (i < j → Flt.le x y = false)) := by
  obtain ⟨s, e, h⟩ := extremum_loop (le := fun x y => Flt.le y x) (inf := ninf) v.list
    (fun x y hx hy => L.total y x hy hx) (fun x y z h h' => L.trans _ _ _ h' h)
    (fun x y h => (L.nan _ _ h).symm) L.bot
    (v := v) rfl (body := fun i x s => .ok (if Flt.le s.2 x then ((i : Int), x) else s))
    (fun _ _ _ => rfl)
  have ei : maxIndex ninf v = .ok s.1 := by unfold maxIndex; rw [e]; rfl
  rcases h with ⟨h1, h⟩ | ⟨i, x, rfl, hx, hn, h⟩
  · refine ⟨fun _ => ⟨by rw [ei, h1], ?_⟩, fun ⟨x, hx, hx'⟩ => ?_⟩
    · unfold maxValue; rw [ei, h1]; rfl
    · rw [h x hx] at hx'; cases hx'
  · refine ⟨fun h' => ?_, fun _ => ⟨i, x, ei, ?_, hx, hn, h⟩⟩
    · have := h' x (List.mem_of_getElem? hx)
      rw [hn] at this; cases this
    · unfold maxValue
      have hi := (List.getElem?_eq_some_iff.1 hx).1
      rw [ei, ok_bind, if_neg (by dsimp only; omega), v.at_nth (by rw [← v.dim_list]; exact hi)]
      have := (isList_nth v.list).2 i hi
      rw [hx] at this
      cases this; rfl

theorem Xq.ordNaN : OrdNaN Xq .pinf .ninf where
  total x y hx hy := by
    cases x <;> cases y <;> simp_all [Flt.le, Xq.le, Flt.isNaN]
    exact le_total _ _
  trans x y z h h' := by
    cases x <;> cases y <;> cases z <;> simp_all [Flt.le, Xq.le]
    exact le_trans h h'
  nan x y h := by cases x <;> cases y <;> simp_all [Flt.le, Xq.le, Flt.isNaN]
  top x h := by cases x <;> simp_all [Flt.le, Xq.le, Flt.isNaN]
  bot x h := by cases x <;> simp_all [Flt.le, Xq.le, Flt.isNaN]

/-- Concrete case: ties, a NaN and an infinity. -/
example : minIndex Xq.pinf (.arr [.fin 1, .nan, .fin 1, .pinf]) = .ok 2 ∧
    maxIndex Xq.ninf (.arr [.nan, .ninf]) = .ok 1 ∧
    minIndex Xq.pinf (.arr [.nan, .nan]) = .ok (-1) := by decide +kernel

/-! ## C56 Walks -/

/-- The visitor run over an explicit list of indices of `d`. -/
def Spec.vwalk (n a b : Int) (idx : List Nat) (A : Nat → α) (v : VVisP α τ) (t : τ) : Res (τ × α) := do
  let t ← v.start n a b t
  let t ← idx.foldlM (fun t (i : Nat) => v.visit i (A i) t) t
  v.fin t

/-- C56: a walk visits every index of its range once, in increasing order, with the entry there, and
refuses bad ranges before calling the visitor. -/
theorem C56_walk (d : List α) (A : Nat → α) (hA : IsList d d.length A) (v : VVisP α τ) (t : τ)
    (s e : Int) :
    Vec.walk d v t = Spec.vwalk d.length 0 (d.length - 1) (List.range' 0 d.length) A v t ∧
    (0 ≤ s → s ≤ e → e < d.length →
      Vec.walkB d v t s e =
        Spec.vwalk d.length s e (List.range' s.toNat (e.toNat + 1 - s.toNat)) A v t) ∧
    (¬ (0 ≤ s ∧ s ≤ e ∧ e < d.length) → Vec.walkB d v t s e = .error (.pan .range) ∨
      Vec.walkB d v t s e = .error (.pan .small)) := by
  have key : ∀ a b t, b ≤ d.length → forUp a b (fun i t => do v.visit i (← rdL d i) t) t =
      (List.range' a (b - a)).foldlM (fun t (i : Nat) => v.visit i (A i) t) t := by
    intro a b t hb
    unfold forUp
    have h' : ∀ i ∈ List.range' a (b - a), i < d.length := by
      intro i hi
      rw [List.mem_range'_1] at hi; omega
    generalize List.range' a (b - a) = l at h'
    induction l generalizing t with
    | nil => rfl
    | cons i l ih =>
      rw [List.foldlM_cons, List.foldlM_cons]
      dsimp only
      rw [hA.rdL (h' i (by simp)), ok_bind]
      congr 1
      funext t
      exact ih t fun i hi => h' i (by simp [hi])
  refine ⟨?_, fun h1 h2 h3 => ?_, fun h => ?_⟩
  · unfold Vec.walk Spec.vwalk
    congr 1
    funext t
    rw [key 0 _ t le_rfl]; rfl
  · unfold Vec.walkB Spec.vwalk
    rw [checkIndices, if_neg (by omega), if_neg (by omega), if_neg (by omega), must_ok, ok_bind]
    congr 1
    funext t
    rw [key _ _ t (by omega)]
  · unfold Vec.walkB checkIndices
    split
    · exact .inl rfl
    · split
      · exact .inl rfl
      · rw [if_pos (by omega)]
        exact .inr rfl

/-- An updating visitor run over an explicit list of indices: each answer replaces the entry just
visited; when the visitor panics, the entries replaced so far stay replaced. -/
def Spec.vupd (n a b : Int) (idx : List Nat) (v : VVisC α τ) (t : τ) (A : Nat → α) :
    Except (Fault × (Nat → α)) ((τ × α) × (Nat → α)) := do
  let t ← (v.start n a b t).at A
  let s ← idx.foldlM (fun (s : τ × (Nat → α)) (i : Nat) => do
    let y ← (v.visit i (s.2 i) s.1).at s.2
    return (y.1, upd1 s.2 i y.2)) (t, A)
  return (← (v.fin s.1).at s.2, s.2)

/-- The outcome on lists shows the outcome on functions. -/
def Spec.Tracks {ρ : Type} (n : Nat) (x : Except (Fault × List α) (ρ × List α))
    (y : Except (Fault × (Nat → α)) (ρ × (Nat → α))) : Prop :=
  match x, y with
  | .ok x, .ok y => x.1 = y.1 ∧ IsList x.2 n y.2
  | .error x, .error y => x.1 = y.1 ∧ IsList x.2 n y.2
  | _, _ => False

theorem vupd_loop (v : VVisC α τ) (n : Nat) (l : List Nat) (hl : ∀ i ∈ l, i < n) (t : τ)
    (d : List α) (A : Nat → α) (hA : IsList d n A) :
    Spec.Tracks n (l.foldlM (fun s i => Vec.visitSet v i s) (t, d))
      (l.foldlM (fun (s : τ × (Nat → α)) (i : Nat) => do
        let y ← (v.visit i (s.2 i) s.1).at s.2
        return (y.1, upd1 s.2 i y.2)) (t, A)) := by
  induction l generalizing t d A with
  | nil => exact ⟨rfl, hA⟩
  | cons i l ih =>
    rw [List.foldlM_cons, List.foldlM_cons, Vec.visitSet]
    have hi := hl i (by simp)
    dsimp only
    rw [hA.rdL hi, res_at_ok, ok_bind]
    cases hv : v.visit i (A i) t with
    | error e => exact ⟨rfl, hA⟩
    | ok y =>
      rw [res_at_ok, ok_bind, res_at_ok, ok_bind, wrL_ok (by rw [hA.1]; exact hi), res_at_ok, ok_bind]
      exact ih (fun i hi => hl i (by simp [hi])) y.1 _ _ (hA.set i y.2)

theorem vupd_walk (v : VVisC α τ) (n : Nat) (p q : Int) (l : List Nat) (hl : ∀ i ∈ l, i < n) (t : τ)
    (d : List α) (A : Nat → α) (hA : IsList d n A) :
    Spec.Tracks n (do
      let t ← (v.start n p q t).at d
      let s ← l.foldlM (fun s i => Vec.visitSet v i s) (t, d)
      return (← (v.fin s.1).at s.2, s.2)) (Spec.vupd n p q l v t A) := by
  unfold Spec.vupd
  cases hs : v.start n p q t with
  | error e => exact ⟨rfl, hA⟩
  | ok t =>
    rw [res_at_ok, res_at_ok, ok_bind, ok_bind]
    have := vupd_loop v n l hl t d A hA
    revert this
    cases l.foldlM (fun s i => Vec.visitSet v i s) (t, d) with
    | error e =>
      cases l.foldlM (m := Except (Fault × (Nat → α))) (fun (s : τ × (Nat → α)) (i : Nat) => do
        let y ← (v.visit i (s.2 i) s.1).at s.2
        return (y.1, upd1 s.2 i y.2)) (t, A) with
      | error e' => exact fun h => h
      | ok y => exact fun h => h.elim
    | ok x =>
      cases l.foldlM (m := Except (Fault × (Nat → α))) (fun (s : τ × (Nat → α)) (i : Nat) => do
        let y ← (v.visit i (s.2 i) s.1).at s.2
        return (y.1, upd1 s.2 i y.2)) (t, A) with
      | error e' => exact fun h => h.elim
      | ok y =>
        rintro ⟨h1, h2⟩
        rw [ok_bind, ok_bind, ← h1]
        cases v.fin x.1 with
        | error e => exact ⟨rfl, h2⟩
        | ok z => exact ⟨rfl, h2⟩

/-- C56: an updating walk visits every index of its range once, in increasing order, with the entry
there, and stores the answer there; entries outside the range are untouched, also after a panic. -/
theorem C56_update (d : List α) (A : Nat → α) (hA : IsList d d.length A) (v : VVisC α τ) (t : τ)
    (s e : Int) :
    Spec.Tracks d.length (Vec.upd d v t)
      (Spec.vupd d.length 0 (d.length - 1) (List.range' 0 d.length) v t A) ∧
    (0 ≤ s → s ≤ e → e < d.length → Spec.Tracks d.length (Vec.updB d v t s e)
      (Spec.vupd d.length s e (List.range' s.toNat (e.toNat + 1 - s.toNat)) v t A)) ∧
    (¬ (0 ≤ s ∧ s ≤ e ∧ e < d.length) → Vec.updB d v t s e = .error (.pan .range, d) ∨
      Vec.updB d v t s e = .error (.pan .small, d)) := by
  refine ⟨?_, fun h1 h2 h3 => ?_, fun h => ?_⟩
  · exact vupd_walk v d.length 0 (d.length - 1) _
      (fun i hi => by rw [List.mem_range'_1] at hi; omega) t d A hA
  · unfold Vec.updB
    rw [checkIndices, if_neg (by omega), if_neg (by omega), if_neg (by omega), must_ok, res_at_ok,
      ok_bind]
    exact vupd_walk v d.length s e _ (fun i hi => by rw [List.mem_range'_1] at hi; omega) t d A hA
  · unfold Vec.updB checkIndices
    split
    · exact .inl rfl
    · split
      · exact .inl rfl
      · rw [if_pos (by omega)]
        exact .inr rfl

/-- Concrete case: doubling the entries 1 to 2 while counting. -/
example : Vec.updB [(1 : ℚ), 2, 3, 4] ⟨fun _ _ _ t => .ok t, fun _ x t => .ok (t + 1, 2 * x),
    fun t => .ok (t, 0)⟩ (0 : Nat) 1 2 = .ok ((2, 0), [1, 4, 6, 4]) := by decide +kernel

/-! ## C24 Dot product, norms and distances -/

variable {K : Type} [Field K] [LinearOrder K] [Flt K]

/-- The entries combined left to right by machine addition, starting from zero. -/
def Spec.total (l : List α) : α := l.foldl Flt.add Flt.zero

theorem iterate_total (v : RVec α) (g : α → α) {body : Nat → α → α → Res α}
    (h : ∀ i x s, body i x s = .ok (Flt.add s (g x))) :
    v.iterate body 0 Flt.zero = .ok (Spec.total (v.list.map g)) := by
  rw [v.iterate_fold (f := fun s x => Flt.add s (g x)) _ fun i x s _ _ => h i x s, Spec.total,
    List.foldl_map]

theorem iterate_zip {σ : Type} (u v : RVec α) (h : u.dim = v.dim) (f : σ → α → σ) (op : α → α → α)
    {body : Nat → α → σ → Res σ} (s : σ)
    (hb : ∀ i x y s, v.at (i : Nat) = .ok y → body i x s = .ok (f s (op x y))) :
    u.iterate body 0 s = .ok ((List.zipWith op u.list v.list).foldl f s) := by
  have hl : u.list.length = v.list.length := by rw [u.dim_list, v.dim_list, h]
  rw [u.iterate_eq, forUp_pure (f := fun s i => f s (op (nth u.list i) (nth v.list i))) s
    fun i s hi => hb i _ _ s (v.at_nth (by omega))]
  have : u.dim = (List.zipWith op u.list v.list).length := by
    rw [List.length_zipWith, ← hl, u.dim_list, Nat.min_self]
  rw [this, ← foldl_range_nth (List.zipWith op u.list v.list) f s]
  congr 1
  have : ∀ k, k ≤ u.list.length →
      (List.range k).foldl (fun s i => f s (op (nth u.list i) (nth v.list i))) s =
      (List.range k).foldl (fun s i => f s (nth (List.zipWith op u.list v.list) i)) s := by
    intro k hk
    induction k with
    | zero => rfl
    | succ k ih =>
      rw [List.range_succ, List.foldl_append, List.foldl_append, ih (by omega)]
      simp only [List.foldl_cons, List.foldl_nil]
      rw [nth_zipWith op hl (by omega)]
  exact this _ (by rw [List.length_zipWith, ← hl, Nat.min_self])

/-- C24, machine arithmetic: which operations the dot product, the norms and the distances perform,
in which order. -/
theorem C24_machine (u v : RVec α) :
    vecNorm v = .ok (Flt.sqrt (Spec.total (v.list.map fun x => Flt.mul x x))) ∧
    vecL1Norm v = .ok (Spec.total (v.list.map Flt.abs)) ∧
    vecLInfNorm v = .ok ((v.list.map Flt.abs).foldl Flt.fmax Flt.zero) ∧
    (u.dim = v.dim → vecDotProduct u v = .ok (Spec.total (List.zipWith Flt.mul u.list v.list))) ∧
    (u.dim ≠ v.dim → vecDotProduct u v = .error (.pan .dim)) := by
  refine ⟨?_, ?_, ?_, fun h => ?_, fun h => ?_⟩
  · unfold vecNorm
    rw [iterate_total v (fun x => Flt.mul x x) fun _ _ _ => rfl]; rfl
  · unfold vecL1Norm
    rw [iterate_total v Flt.abs fun _ _ _ => rfl]
  · unfold vecLInfNorm
    rw [v.iterate_fold (f := fun s x => Flt.fmax s (Flt.abs x)) _ fun _ _ _ _ _ => rfl,
      List.foldl_map]
  · unfold vecDotProduct
    have e := iterate_zip u v h Flt.add Flt.mul (body := fun i x s => do
      return Flt.add s (Flt.mul x (← v.at i))) Flt.zero (fun i x y s h => by rw [h]; rfl)
    rw [← h, checkDims_ok, must_ok, ok_bind, Spec.total, ← e, u.iterate_eq]
    unfold sumUp
    unfold forUp
    have h' : ∀ i ∈ List.range' 0 (u.dim - 0), i < u.dim := by
      intro i hi
      rw [List.mem_range'_1] at hi; omega
    generalize List.range' 0 (u.dim - 0) = l at h'
    generalize (Flt.zero : α) = s
    induction l generalizing s with
    | nil => rfl
    | cons i l ih =>
      rw [List.foldlM_cons, List.foldlM_cons]
      dsimp only
      have hi := h' i (by simp)
      rw [u.at_nth hi, v.at_nth (h ▸ hi)]
      exact ih (fun i hi => h' i (by simp [hi])) _
  · unfold vecDotProduct
    rw [checkDims_err h]; rfl

/-- C24, machine arithmetic: the L2 and L1 distances are exactly the norms of the difference. -/
theorem C24_distance (u : List α) (v : RVec α) :
    (u.length = v.dim → ∃ w, Vec.subtract u v = .ok w ∧
      vecDistance (.arr u) v = vecNorm (.arr w) ∧ vecL1Distance (.arr u) v = vecL1Norm (.arr w)) ∧
    (u.length ≠ v.dim → vecDistance (.arr u) v = .error (.pan .dim) ∧
      vecL1Distance (.arr u) v = .error (.pan .dim) ∧
      vecLInfDistance (.arr u) v = .error (.pan .dim)) := by
  constructor
  · intro h
    refine ⟨_, ((C21_binary u v).1 h).2.1, ?_, ?_⟩
    · rw [(C24_machine v _).1]
      unfold vecDistance
      rw [show (RVec.arr u).dim = v.dim from h, checkDims_ok, must_ok, ok_bind,
        iterate_zip (.arr u) v h (fun s x => Flt.add s (Flt.mul x x)) Flt.sub Flt.zero
          (fun i x y s h => by rw [h]; rfl), ok_bind, Spec.total, List.foldl_map]
      rfl
    · rw [(C24_machine v _).2.1]
      unfold vecL1Distance
      rw [show (RVec.arr u).dim = v.dim from h, checkDims_ok, must_ok, ok_bind,
        iterate_zip (.arr u) v h (fun s x => Flt.add s (Flt.abs x)) Flt.sub Flt.zero
          (fun i x y s h => by rw [h]; rfl), Spec.total, List.foldl_map]
      rfl
  · intro h
    unfold vecDistance vecL1Distance vecLInfDistance
    rw [show (RVec.arr u).dim = u.length from rfl, checkDims_err h]
    exact ⟨rfl, rfl, rfl⟩

section Exact

variable [Exact K]

theorem total_exact (l : List K) : Spec.total l = l.sum := by
  unfold Spec.total
  have : ∀ s : K, l.foldl Flt.add s = s + l.sum := by
    induction l with
    | nil => simp
    | cons x l ih => intro s; rw [List.foldl_cons, ih, List.sum_cons, Exact.add_eq, add_assoc]
  rw [this, Exact.zero_eq, zero_add]

theorem fold_max (l : List K) (s : K) :
    (∀ x ∈ l, x ≤ l.foldl Flt.fmax s) ∧ s ≤ l.foldl Flt.fmax s ∧
    (l.foldl Flt.fmax s = s ∨ l.foldl Flt.fmax s ∈ l) := by
  induction l generalizing s with
  | nil => simp
  | cons x l ih =>
    rw [List.foldl_cons, Exact.max_eq]
    obtain ⟨h1, h2, h3⟩ := ih (max s x)
    refine ⟨fun y hy => ?_, le_trans (le_max_left _ _) h2, ?_⟩
    · rcases List.mem_cons.1 hy with rfl | hy
      · exact le_trans (le_max_right _ _) h2
      · exact h1 y hy
    · rcases h3 with h3 | h3
      · rcases max_choice s x with h | h
        · rw [h] at h3 ⊢; exact .inl h3
        · rw [h] at h3 ⊢; exact .inr (by simp [h3])
      · exact .inr (by simp [h3])

variable [IsStrictOrderedRing K]

theorem sum_sq_nonneg (l : List K) : 0 ≤ (l.map fun x => x * x).sum :=
  List.sum_nonneg fun x hx => by
    obtain ⟨y, _, rfl⟩ := List.mem_map.1 hx
    exact mul_self_nonneg y

theorem sum_sq_eq_zero (l : List K) : (l.map fun x => x * x).sum = 0 ↔ ∀ x ∈ l, x = 0 := by
  induction l with
  | nil => simp
  | cons x l ih =>
    rw [List.map_cons, List.sum_cons, add_eq_zero_iff_of_nonneg (mul_self_nonneg x) (sum_sq_nonneg l),
      ih]
    simp

/-- C24: the dot product is the sum of products, the L2 norm the non-negative square root of the self
dot product, the L1 norm the sum and the LInf norm the maximum of absolute values. -/
theorem C24_exact [ExactSqrt K] (u v : RVec K) (h : u.dim = v.dim) :
    vecDotProduct u v = .ok (List.zipWith (· * ·) u.list v.list).sum ∧
    (∃ x, vecNorm v = .ok x ∧ 0 ≤ x ∧ x * x = (v.list.map fun a => a * a).sum ∧
      vecDotProduct v v = .ok (x * x)) ∧
    (∃ x, vecL1Norm v = .ok x ∧ 0 ≤ x ∧ x = (v.list.map fun a => |a|).sum) ∧
    (∃ x, vecLInfNorm v = .ok x ∧ 0 ≤ x ∧ (∀ a ∈ v.list, |a| ≤ x) ∧
      (v.list = [] ∧ x = 0 ∨ ∃ a ∈ v.list, x = |a|)) := by
  have hm : (Flt.mul : K → K → K) = (· * ·) := by funext x y; simp
  have ha : (Flt.abs : K → K) = fun x => |x| := by funext x; simp
  obtain ⟨e1, e2, e3, e4, _⟩ := C24_machine u v
  have hdot : ∀ w : RVec K, vecDotProduct w w = .ok (w.list.map fun a => a * a).sum := by
    intro w
    rw [(C24_machine w w).2.2.2.1 rfl, total_exact, hm]
    congr 2
    rw [List.zipWith_self]
  refine ⟨?_, ⟨_, e1, ExactSqrt.sqrt_nonneg _, ?_, ?_⟩, ⟨_, e2, ?_, ?_⟩, ⟨_, e3, ?_, ?_, ?_⟩⟩
  · rw [e4 h, total_exact, hm]
  · rw [total_exact, ExactSqrt.sqrt_mul_self _ (by rw [hm]; exact sum_sq_nonneg _), hm]
  · rw [total_exact, ExactSqrt.sqrt_mul_self _ (by rw [hm]; exact sum_sq_nonneg _), hm, hdot]
  · rw [total_exact, ha]
    refine List.sum_nonneg fun x hx => ?_
    obtain ⟨y, _, rfl⟩ := List.mem_map.1 hx
    exact abs_nonneg y
  · rw [total_exact, ha]
  · have := (fold_max (v.list.map Flt.abs) Flt.zero).2.1
    rwa [Exact.zero_eq] at this ⊢
  · intro a hx
    refine (fold_max (v.list.map Flt.abs) Flt.zero).1 _ ?_
    rw [ha]
    exact List.mem_map_of_mem hx
  · cases hv : v.list with
    | nil => exact .inl ⟨rfl, Exact.zero_eq⟩
    | cons a l =>
      refine .inr ?_
      obtain ⟨h1, h2, h3⟩ := fold_max ((a :: l).map Flt.abs) (Flt.zero : K)
      rcases h3 with h3 | h3
      · refine ⟨a, by simp, ?_⟩
        have := h1 |a| (by simp [ha])
        rw [h3] at this ⊢
        rw [Exact.zero_eq] at this ⊢
        exact le_antisymm (abs_nonneg a) this
      · obtain ⟨b, hb, e⟩ := List.mem_map.1 h3
        exact ⟨b, hb, by rw [← e, Exact.abs_eq]⟩

/-- C24: every distance is the norm of the difference (for LInf the arguments of `max` are swapped,
so this is stated for exact arithmetic). -/
theorem C24_lInfDistance (u : List K) (v : RVec K) (h : u.length = v.dim) :
    ∃ w, Vec.subtract u v = .ok w ∧ w = List.zipWith (· - ·) u v.list ∧
      vecLInfDistance (.arr u) v = vecLInfNorm (.arr w) := by
  have hs : (Flt.sub : K → K → K) = (· - ·) := by funext x y; simp
  refine ⟨_, ((C21_binary u v).1 h).2.1, by rw [hs], ?_⟩
  rw [(C24_machine v _).2.2.1]
  unfold vecLInfDistance
  rw [show (RVec.arr u).dim = v.dim from h, checkDims_ok, must_ok, ok_bind,
    iterate_zip (.arr u) v h (fun s x => Flt.fmax (Flt.abs x) s) Flt.sub Flt.zero
      (fun i x y s h => by rw [h]; rfl), List.foldl_map]
  congr 2
  funext s x
  rw [Exact.max_eq, Exact.max_eq, max_comm]

/-- C24: the cosine; refused when a norm is zero. -/
theorem C24_cosine [ExactSqrt K] (u v : RVec K) (h : u.dim = v.dim) :
    ((∀ x ∈ u.list, x = 0) ∨ (∀ x ∈ v.list, x = 0) → vecCosine u v = .error (.pan .arith)) ∧
    (¬ (∀ x ∈ u.list, x = 0) → ¬ (∀ x ∈ v.list, x = 0) → ∃ a b c, vecNorm u = .ok a ∧
      vecNorm v = .ok b ∧ vecCosine u v = .ok c ∧ 0 < a ∧ 0 < b ∧
      c * (a * b) = (List.zipWith (· * ·) u.list v.list).sum) := by
  obtain ⟨hd, ⟨b, eb, hb0, hb, _⟩, _⟩ := C24_exact u v h
  obtain ⟨_, ⟨a, ea, ha0, ha, _⟩, _⟩ := C24_exact v u h.symm
  have za : a = 0 ↔ ∀ x ∈ u.list, x = 0 := by
    rw [← sum_sq_eq_zero, ← ha, mul_self_eq_zero]
  have zb : b = 0 ↔ ∀ x ∈ v.list, x = 0 := by
    rw [← sum_sq_eq_zero, ← hb, mul_self_eq_zero]
  unfold vecCosine
  rw [ea, eb, hd]
  simp only [ok_bind, Exact.eq_eq, Exact.zero_eq, Exact.div_eq, Exact.mul_eq, Bool.or_eq_true,
    decide_eq_true_eq, ← za, ← zb]
  refine ⟨fun h0 => ?_, fun h1 h2 => ⟨a, b,
    (List.zipWith (· * ·) u.list v.list).sum / (a * b), rfl, rfl, ?_, lt_of_le_of_ne ha0 (Ne.symm h1),
    lt_of_le_of_ne hb0 (Ne.symm h2), ?_⟩⟩
  · rw [if_pos h0]; rfl
  · rw [if_neg (by tauto)]; rfl
  · field_simp

/-! ## C26 Unit vector and projection -/

/-- C26: `Unitize` and `UnitVector` divide by the norm, give norm 1, and refuse the zero vector. -/
theorem C26_unit [ExactSqrt K] (v : RVec K) :
    ((∀ x ∈ v.list, x = 0) → unitVector (some v) = .error (.pan .arith) ∧
      Vec.unitize v.list = .error (.pan .arith, v.list)) ∧
    (¬ (∀ x ∈ v.list, x = 0) → ∃ n w, vecNorm v = .ok n ∧ 0 < n ∧ unitVector (some v) = .ok w ∧
      Vec.unitize v.list = .ok w ∧ w = v.list.map (· / n) ∧ vecNorm (.arr w) = .ok 1) := by
  obtain ⟨_, ⟨n, e, h0, h1, _⟩, _⟩ := C24_exact (.arr v.list) (.arr v.list) rfl
  have zn : n = 0 ↔ ∀ x ∈ v.list, x = 0 := by
    rw [← sum_sq_eq_zero, ← mul_self_eq_zero, h1]; rfl
  have en : vecNorm v = .ok n := by
    rw [← e, (C24_machine v v).1, (C24_machine v (.arr v.list)).1]; rfl
  have hu : unitVector (some v) = match Vec.unitize v.list with
      | .ok a => .ok a
      | .error (e, _) => .error e := by
    unfold unitVector
    rw [(C57_construct 0 Flt.zero v [] true (-1) (by omega)).2.2.1, must_ok, ok_bind]
    cases Vec.unitize v.list with
    | ok a => rfl
    | error x => rfl
  constructor
  · intro h
    have : Vec.unitize v.list = .error (.pan .arith, v.list) := by
      unfold Vec.unitize
      rw [e, res_at_ok, ok_bind, if_pos (by simpa using zn.2 h)]; rfl
    rw [hu, this]
    exact ⟨rfl, rfl⟩
  · intro h
    have hn : n ≠ 0 := fun hc => h (zn.1 hc)
    have : Vec.unitize v.list = .ok (v.list.map (· / n)) := by
      unfold Vec.unitize
      rw [e, res_at_ok, ok_bind, if_neg (by simpa using hn)]
      show Vec.mapDivide _ _ = _
      rw [(C21_map v.list n).2.2.2]
      congr 2
      funext x; simp
    refine ⟨n, _, en, lt_of_le_of_ne h0 (Ne.symm hn), by rw [hu, this], this, rfl, ?_⟩
    obtain ⟨_, ⟨m, e', h0', h1', _⟩, _⟩ := C24_exact (.arr (v.list.map (· / n))) (.arr (v.list.map (· / n))) rfl
    rw [e']
    have : m * m = 1 := by
      rw [h1']
      show ((v.list.map (· / n)).map fun a => a * a).sum = 1
      rw [List.map_map]
      have hh : ((fun a => a * a) ∘ fun x => x / n) = fun x : K => (x * x) * (1 / (n * n)) := by
        funext x; simp only [Function.comp]; field_simp
      rw [hh, List.sum_map_mul_right]
      have h1 : n * n = (v.list.map fun a => a * a).sum := h1
      rw [← h1]
      field_simp
    congr 1
    nlinarith [sq_nonneg (m - 1)]

/-- C26: the projection of `src` on `dest` is a multiple of `dest`, and the difference is orthogonal
to `dest`; refused when `dest` is zero or the lengths differ. -/
theorem C26_projection (src : RVec K) (dest : List K) :
    ((∀ x ∈ dest, x = 0) → projection src dest = .error (.pan .arith, dest)) ∧
    (¬ (∀ x ∈ dest, x = 0) → src.dim ≠ dest.length →
      projection src dest = .error (.pan .dim, dest)) ∧
    (¬ (∀ x ∈ dest, x = 0) → src.dim = dest.length → ∃ w c, projection src dest = .ok w ∧
      w = dest.map (· * c) ∧
      (List.zipWith (fun a b => a * b) (List.zipWith (fun a b => a - b) src.list w) dest).sum = 0) := by
  have hm : (Flt.mul : K → K → K) = (· * ·) := by funext x y; simp
  have ed : vecDotProduct (.arr dest) (.arr dest) = .ok (dest.map fun a => a * a).sum := by
    rw [(C24_machine (.arr dest) (.arr dest)).2.2.2.1 rfl, total_exact, hm]
    congr 2
    show List.zipWith _ dest dest = _
    rw [List.zipWith_self]
  unfold projection
  rw [ed, res_at_ok, ok_bind]
  simp only [Exact.eq_eq, Exact.zero_eq, decide_eq_true_eq, sum_sq_eq_zero]
  refine ⟨fun h => ?_, fun h hl => ?_, fun h hl => ?_⟩
  · rw [if_pos h]; rfl
  · rw [if_neg h, (C24_machine src (.arr dest)).2.2.2.2 hl]; rfl
  · rw [if_neg h, (C24_machine src (.arr dest)).2.2.2.1 hl, total_exact, hm]
    have hl' : src.list.length = dest.length := by rw [src.dim_list, hl]
    have hz : (dest.map fun a => a * a).sum ≠ 0 := fun hc => h ((sum_sq_eq_zero _).1 hc)
    refine ⟨_, (List.zipWith (· * ·) src.list dest).sum / (dest.map fun a => a * a).sum, ?_, rfl, ?_⟩
    · show Vec.mapMultiply _ _ = _
      rw [(C21_map _ _).2.2.1]
      congr 2
      funext x; simp [RVec.list]
    · generalize hc : (List.zipWith (· * ·) src.list dest).sum / (dest.map fun a => a * a).sum = c
      have key : ∀ (s d : List K), s.length = d.length →
          (List.zipWith (fun a b => a * b) (List.zipWith (fun a b => a - b) s (d.map (· * c))) d).sum =
          (List.zipWith (· * ·) s d).sum - c * (d.map fun a => a * a).sum := by
        intro s d
        induction s generalizing d with
        | nil => intro h; cases d <;> simp_all
        | cons x s ih =>
          intro h
          cases d with
          | nil => simp at h
          | cons y d =>
            simp only [List.map_cons, List.zipWith_cons_cons, List.sum_cons]
            rw [ih d (by simpa using h)]
            ring
      rw [key _ _ hl', ← hc, div_mul_cancel₀ _ hz, sub_self]

end Exact

/-- Concrete case: projecting `[1, 2]` on `[2, 0]` gives `[1, 0]`. -/
example : projection (.arr [(1 : ℚ), 2]) [2, 0] = .ok [1, 0] ∧
    projection (.arr [(1 : ℚ), 2]) [0, 0] = .error (.pan .arith, [0, 0]) := by decide +kernel

/-- Concrete case over the reals: `[3, 4]` is not zero, so it has a unit vector of norm 1. -/
example : ∃ n w, vecNorm (.arr [(3 : ℝ), 4]) = .ok n ∧ 0 < n ∧
    unitVector (some (.arr [(3 : ℝ), 4])) = .ok w ∧ vecNorm (.arr w) = .ok 1 := by
  obtain ⟨n, w, h1, h2, h3, _, _, h6⟩ := (C26_unit (.arr [(3 : ℝ), 4])).2
    (fun h => by have := h 3 (by simp [RVec.list]); norm_num at this)
  exact ⟨n, w, h1, h2, h3, h6⟩

end Linear
