import Verif.Base.Outcome
import Verif.Base.Flt

/-!
# Slices

`Row α n` models a `[]float64` of length `n`, `Jag α n len` a `[][]float64` with `n` inner slices,
inner slice `i` having length `len i`; `Tab α r c` is the rectangular case. Lengths never change
after allocation, so they are type parameters. Contents outside the bounds are meaningless and can
neither be read nor written: every access is checked and gives the Go runtime panic `.rt`.
Inner slices are assumed to be disjoint in memory (sharing is treated in the heap model).
-/

namespace Linear

/-- Point update of a table of contents. -/
def upd2 {α : Type} (f : Nat → Nat → α) (i j : Nat) (v : α) : Nat → Nat → α :=
  fun i' j' => if i' = i ∧ j' = j then v else f i' j'

/-- Point update of a row of contents. -/
def upd1 {α : Type} (f : Nat → α) (i : Nat) (v : α) : Nat → α :=
  fun i' => if i' = i then v else f i'

@[simp] theorem upd1_same {α : Type} (f : Nat → α) (i : Nat) (v : α) : upd1 f i v i = v := by
  simp [upd1]

theorem upd1_of_ne {α : Type} {f : Nat → α} {i k : Nat} {v : α} (h : k ≠ i) :
    upd1 f i v k = f k := by
  simp [upd1, h]

/-- A `[]float64` of length `n`. -/
structure Row (α : Type) (n : Nat) where
  f : Nat → α

/-- A `[][]float64` with `n` inner slices of lengths `len 0, ..., len (n-1)`. -/
structure Jag (α : Type) (n : Nat) (len : Nat → Nat) where
  f : Nat → Nat → α

/-- A rectangular `[][]float64`. -/
abbrev Tab (α : Type) (r c : Nat) := Jag α r (fun _ => c)

variable {α : Type}

/-- Go `make([]float64, n)`. -/
def Row.zero [Flt α] (n : Nat) : Row α n := ⟨fun _ => Flt.zero⟩

/-- Go `x[i]` (read). -/
def Row.get {n : Nat} (t : Row α n) (i : Nat) : Res α :=
  if i < n then .ok (t.f i) else .error .rt

/-- Go `x[i] = v`. -/
def Row.set {n : Nat} (t : Row α n) (i : Nat) (v : α) : Res (Row α n) :=
  if i < n then .ok ⟨upd1 t.f i v⟩ else .error .rt

/-- Go `make([][]float64, n)` with each inner slice made with its length. -/
def Jag.zero [Flt α] (n : Nat) (len : Nat → Nat) : Jag α n len := ⟨fun _ _ => Flt.zero⟩

/-- Go `x[i][j]` (read). -/
def Jag.get {n : Nat} {len : Nat → Nat} (t : Jag α n len) (i j : Nat) : Res α :=
  if i < n ∧ j < len i then .ok (t.f i j) else .error .rt

/-- Go `x[i][j] = v`. -/
def Jag.set {n : Nat} {len : Nat → Nat} (t : Jag α n len) (i j : Nat) (v : α) :
    Res (Jag α n len) :=
  if i < n ∧ j < len i then .ok ⟨upd2 t.f i j v⟩ else .error .rt

/-- Go `x[i]` on a caller-supplied slice given as a list. -/
def rdL {β : Type} (l : List β) (i : Nat) : Res β :=
  match l[i]? with
  | some x => .ok x
  | none => .error .rt

/-- Contents of a row as a list (what a caller who receives the slice observes). -/
def Row.toList {n : Nat} (t : Row α n) : List α := (List.range n).map t.f

/-- Contents of a table as a list of lists. -/
def Jag.toLists {n : Nat} {len : Nat → Nat} (t : Jag α n len) : List (List α) :=
  (List.range n).map fun i => (List.range (len i)).map (t.f i)

/-- The model of the idiom
`out := make([][]float64, r); for i … { out[i] = make([]float64, c); for j … { out[i][j] = cell } }`
(row by row, column by column). -/
def Tab.build {ε : Type} [Flt α] (r c : Nat) (cell : Nat → Nat → Except ε α) (rt : ε) :
    Except ε (Tab α r c) :=
  forUp 0 r (fun i t => forUp 0 c (fun j t => do
    let v ← cell i j
    match t.set i j v with
    | .ok t => .ok t
    | .error _ => .error rt) t) (Jag.zero r _)

/-- The model of the idiom `out := make([]float64, n); for i … { out[i] = cell }`. -/
def Row.build {ε : Type} [Flt α] (n : Nat) (cell : Nat → Except ε α) (rt : ε) :
    Except ε (Row α n) :=
  forUp 0 n (fun i t => do
    let v ← cell i
    match t.set i v with
    | .ok t => .ok t
    | .error _ => .error rt) (Row.zero n)

/-- The model of `var sum float64; for i := a; i < b; i++ { sum += term }`. -/
def sumUp {ε : Type} [Flt α] (a b : Nat) (term : Nat → Except ε α) (s : α) : Except ε α :=
  forUp a b (fun i s => do return Flt.add s (← term i)) s

section
variable {n : Nat} {len : Nat → Nat}

theorem Row.get_ok {t : Row α n} {i : Nat} (h : i < n) : t.get i = .ok (t.f i) := by
  simp [Row.get, h]

theorem Row.set_ok {t : Row α n} {i : Nat} {v : α} (h : i < n) :
    t.set i v = .ok ⟨upd1 t.f i v⟩ := by
  simp [Row.set, h]

theorem Jag.get_ok {t : Jag α n len} {i j : Nat} (h : i < n) (h' : j < len i) :
    t.get i j = .ok (t.f i j) := by
  simp [Jag.get, h, h']

theorem Jag.set_ok {t : Jag α n len} {i j : Nat} {v : α} (h : i < n) (h' : j < len i) :
    t.set i j v = .ok ⟨upd2 t.f i j v⟩ := by
  simp [Jag.set, h, h']

theorem Tab.get_ok {r c : Nat} {t : Tab α r c} {i j : Nat} (h : i < r) (h' : j < c) :
    Jag.get t i j = .ok (t.f i j) := Jag.get_ok h h'

theorem Tab.set_ok {r c : Nat} {t : Tab α r c} {i j : Nat} {v : α} (h : i < r) (h' : j < c) :
    Jag.set t i j v = .ok ⟨upd2 t.f i j v⟩ := Jag.set_ok h h'

theorem rdL_ok {β : Type} {l : List β} {i : Nat} (h : i < l.length) : rdL l i = .ok l[i] := by
  simp [rdL, h]

theorem rdL_eq_ok {β : Type} {l : List β} {i : Nat} {b : β} :
    rdL l i = .ok b ↔ l[i]? = some b := by
  unfold rdL; cases l[i]? <;> simp

theorem rdL_rt {β : Type} {l : List β} {i : Nat} (h : l.length ≤ i) :
    rdL l i = .error .rt := by
  simp [rdL, h]

theorem wp_row_get {Q : α → Prop} {E : Fault → Prop} {t : Row α n} {i : Nat} (h : i < n) :
    Wp (t.get i) Q E ↔ Q (t.f i) := by
  rw [Row.get_ok h]; rfl

theorem wp_row_set {Q : Row α n → Prop} {E : Fault → Prop} {t : Row α n} {i : Nat} {v : α}
    (h : i < n) : Wp (t.set i v) Q E ↔ Q ⟨upd1 t.f i v⟩ := by
  rw [Row.set_ok h]; rfl

theorem wp_get {Q : α → Prop} {E : Fault → Prop} {t : Jag α n len} {i j : Nat} (h : i < n)
    (h' : j < len i) : Wp (t.get i j) Q E ↔ Q (t.f i j) := by
  rw [Jag.get_ok h h']; rfl

theorem wp_set {Q : Jag α n len → Prop} {E : Fault → Prop} {t : Jag α n len} {i j : Nat} {v : α}
    (h : i < n) (h' : j < len i) : Wp (t.set i j v) Q E ↔ Q ⟨upd2 t.f i j v⟩ := by
  rw [Jag.set_ok h h']; rfl

theorem wp_tget {Q : α → Prop} {E : Fault → Prop} {r c : Nat} {t : Tab α r c} {i j : Nat}
    (h : i < r) (h' : j < c) : Wp (Jag.get t i j) Q E ↔ Q (t.f i j) := wp_get h h'

theorem wp_tset {r c : Nat} {Q : Tab α r c → Prop} {E : Fault → Prop} {t : Tab α r c} {i j : Nat}
    {v : α} (h : i < r) (h' : j < c) : Wp (Jag.set t i j v) Q E ↔ Q ⟨upd2 t.f i j v⟩ :=
  wp_set h h'

@[simp] theorem Row.toList_length (t : Row α n) : t.toList.length = n := by simp [Row.toList]

theorem Row.toList_getElem? (t : Row α n) {i : Nat} (h : i < n) : t.toList[i]? = some (t.f i) := by
  simp [Row.toList, h]

theorem upd2_eq (f : Nat → Nat → α) (i j : Nat) (v : α) (i' j' : Nat) :
    upd2 f i j v i' j' = if i' = i ∧ j' = j then v else f i' j' := rfl

theorem upd1_eq (f : Nat → α) (i : Nat) (v : α) (i' : Nat) :
    upd1 f i v i' = if i' = i then v else f i' := rfl

/-- Nested fill loops write exactly the in-range cells (starting from zeros). -/
theorem Tab.build_ok {ε : Type} [Flt α] {r c : Nat} {cell : Nat → Nat → Except ε α} {rt : ε}
    (g : Nat → Nat → α) (h : ∀ i j, i < r → j < c → cell i j = .ok (g i j)) :
    Tab.build r c cell rt =
      .ok ⟨fun i j => if i < r ∧ j < c then g i j else Flt.zero⟩ := by
  have key : Wp (Tab.build r c cell rt)
      (fun t => t = ⟨fun i j => if i < r ∧ j < c then g i j else Flt.zero⟩)
      (fun _ => False) := by
    unfold Tab.build
    refine wp_forUp (fun i (t : Tab α r c) =>
      t = ⟨fun i' j' => if i' < i ∧ j' < c then g i' j' else Flt.zero⟩) (Nat.zero_le _) ?_ ?_
    · simp [Jag.zero]
    · rintro i t - hi rfl
      refine (wp_forUp (fun j (t : Tab α r c) =>
        t = ⟨fun i' j' => if (i' < i ∧ j' < c) ∨ (i' = i ∧ j' < j) then g i' j' else Flt.zero⟩)
        (Nat.zero_le _) ?_ ?_).imp ?_
      · simp
      · rintro j t - hj rfl
        rw [h i j hi hj]
        simp only [wp_bind, wp_ok, Tab.set_ok hi hj, Jag.mk.injEq]
        funext i' j'
        simp only [upd2_eq]
        grind
      · rintro t rfl
        simp only [Jag.mk.injEq]
        funext i' j'
        grind
  obtain ⟨t, h1, rfl⟩ := key.exists_ok
  exact h1

theorem Row.build_ok {ε : Type} [Flt α] {n : Nat} {cell : Nat → Except ε α} {rt : ε}
    (g : Nat → α) (h : ∀ i, i < n → cell i = .ok (g i)) :
    Row.build n cell rt = .ok ⟨fun i => if i < n then g i else Flt.zero⟩ := by
  have key : Wp (Row.build n cell rt)
      (fun t => t = ⟨fun i => if i < n then g i else Flt.zero⟩) (fun _ => False) := by
    unfold Row.build
    refine wp_forUp (fun i (t : Row α n) =>
      t = ⟨fun i' => if i' < i then g i' else Flt.zero⟩) (Nat.zero_le _) ?_ ?_
    · simp [Row.zero]
    · rintro i t - hi rfl
      rw [h i hi]
      simp only [wp_bind, wp_ok, Row.set_ok hi, Row.mk.injEq]
      funext i'
      simp only [upd1_eq]
      grind
  obtain ⟨t, h1, rfl⟩ := key.exists_ok
  exact h1

/-- The left-to-right sum `((s + g a) + g (a+1)) + ... + g (b-1)`. -/
def lsum [Flt α] (a b : Nat) (g : Nat → α) (s : α) : α :=
  (List.range' a (b - a)).foldl (fun s i => Flt.add s (g i)) s

theorem sumUp_ok {ε : Type} [Flt α] {a b : Nat} {term : Nat → Except ε α} {s : α}
    (g : Nat → α) (h : ∀ i, a ≤ i → i < b → term i = .ok (g i)) :
    sumUp a b term s = .ok (lsum a b g s) := by
  unfold sumUp lsum forUp
  have h' : ∀ i ∈ List.range' a (b - a), term i = .ok (g i) := by
    intro i hi
    rw [List.mem_range'_1] at hi
    exact h i hi.1 (by omega)
  generalize List.range' a (b - a) = l at h'
  induction l generalizing s with
  | nil => rfl
  | cons x l ih =>
    rw [List.foldlM_cons]
    dsimp only
    rw [h' x (by simp)]
    exact ih fun i hi => h' i (by simp [hi])

end

end Linear
