import Verif.Lemmas.WalkLemmas
import Verif.Props.Entry

/-!
# C06: diagonal storage stays diagonal

The specification is a diagonal `D : Nat → α` and a list of single writes. A write to `(i, i)` inside
the matrix replaces `D i`; a write of a zero off the diagonal does nothing; any other write stops.
-/

set_option linter.unusedSectionVars false

namespace Linear

open Spec

variable {α : Type} [Flt α] {n : Nat}

/-- One write: row, column, value. -/
abbrev Spec.Put (α : Type) := Int × Int × α

/-- Writes in order, up to the first refused one: whether all completed, and the diagonal reached. -/
def Spec.puts (n : Nat) : List (Put α) → (Nat → α) → Bool × (Nat → α)
  | [], D => (true, D)
  | (i, j, v) :: l, D =>
    if i = j then
      if 0 ≤ i ∧ i < n then puts n l (fun k => if (k : Int) = i then v else D k) else (false, D)
    else if Flt.ulpEq Flt.zero v then puts n l D else (false, D)

/-- All writes complete exactly when those on the diagonal are inside the matrix and those off the
diagonal write a zero. -/
theorem puts_complete (l : List (Put α)) (D : Nat → α) :
    (puts n l D).1 = true ↔ ∀ i j v, (i, j, v) ∈ l →
      (i = j → 0 ≤ i ∧ i < n) ∧ (i ≠ j → Flt.ulpEq Flt.zero v = true) := by
  induction l generalizing D with
  | nil => simp [puts]
  | cons p l ih =>
    obtain ⟨i, j, v⟩ := p
    unfold puts
    simp only [List.mem_cons, Prod.mk.injEq]
    constructor
    · intro h i' j' v' h'
      rcases h' with ⟨rfl, rfl, rfl⟩ | h'
      · constructor
        · rintro rfl
          by_contra hr
          simp [hr] at h
        · intro hij
          rw [if_neg hij] at h
          by_contra hv
          rw [if_neg hv] at h
          cases h
      · by_cases hij : i = j
        · rw [if_pos hij] at h
          split at h
          · exact (ih _).1 h _ _ _ h'
          · cases h
        · rw [if_neg hij] at h
          split at h
          · exact (ih _).1 h _ _ _ h'
          · cases h
    · intro h
      have h0 := h i j v (Or.inl ⟨rfl, rfl, rfl⟩)
      by_cases hij : i = j
      · rw [if_pos hij, if_pos (h0.1 hij)]
        exact (ih _).2 fun _ _ _ h' => h _ _ _ (Or.inr h')
      · rw [if_neg hij, if_pos (h0.2 hij)]
        exact (ih _).2 fun _ _ _ h' => h _ _ _ (Or.inr h')

/-- Whether or not all complete, every diagonal entry is the old one or one written to it. -/
theorem puts_values (l : List (Put α)) (D : Nat → α) (k : Nat) :
    (puts n l D).2 k = D k ∨ ((k : Int), (k : Int), (puts n l D).2 k) ∈ l := by
  induction l generalizing D with
  | nil => exact Or.inl rfl
  | cons p l ih =>
    obtain ⟨i, j, v⟩ := p
    unfold puts
    split
    · rename_i hij
      subst hij
      split
      · rcases ih (fun k => if (k : Int) = i then v else D k) with h | h
        · rw [h]
          by_cases hk : (k : Int) = i
          · rw [if_pos hk, hk]; exact Or.inr (by simp)
          · rw [if_neg hk]; exact Or.inl rfl
        · exact Or.inr (List.mem_cons_of_mem _ h)
      · exact Or.inl rfl
    · split
      · exact (ih D).imp id fun h => List.mem_cons_of_mem _ h
      · exact Or.inl rfl

/-- When all complete, an entry that is written to ends with a written value. -/
theorem puts_written (l : List (Put α)) (D : Nat → α) {k : Nat} {v : α}
    (hc : (puts n l D).1 = true) (h : ((k : Int), (k : Int), v) ∈ l) :
    ((k : Int), (k : Int), (puts n l D).2 k) ∈ l := by
  induction l generalizing D v with
  | nil => cases h
  | cons p l ih =>
    obtain ⟨i, j, w⟩ := p
    unfold puts at hc ⊢
    split at hc
    · rename_i hij
      subst hij
      split at hc
      · rename_i hi
        rw [if_pos rfl, if_pos hi]
        by_cases h' : ∃ v, ((k : Int), (k : Int), v) ∈ l
        · obtain ⟨v', h'⟩ := h'
          exact List.mem_cons_of_mem _ (ih _ hc h')
        · rcases List.mem_cons.1 h with e | e
          · cases e
            rcases puts_values l (fun x => if (x : Int) = k then v else D x) k with h2 | h2
            · rw [h2]; simp
            · exact absurd ⟨_, h2⟩ h'
          · exact absurd ⟨_, e⟩ h'
      · cases hc
    · rename_i hij
      split at hc
      · rename_i hv
        rw [if_neg hij, if_pos hv]
        rcases List.mem_cons.1 h with e | e
        · cases e; exact absurd rfl hij
        · exact List.mem_cons_of_mem _ (ih _ hc e)
      · cases hc

/-- Outcome of a mutating call against the specification. -/
def Spec.DiagRefines (x : Mut (Dia α n)) (y : Bool × (Nat → α)) : Prop :=
  match x with
  | .ok m => y.1 = true ∧ Shows m.at n n (diag y.2)
  | .error (_, m) => y.1 = false ∧ Shows m.at n n (diag y.2)

theorem diag_shows_upd {m : Dia α n} {D : Nat → α} (h : ∀ k, k < n → m.data.f k = D k) {i : Int}
    (v : α) (hi : 0 ≤ i ∧ i < n) : ∀ k, k < n →
    (upd1 m.data.f i.toNat v) k = if (k : Int) = i then v else D k := by
  intro k hk
  rw [upd1_eq, h k hk]
  exact if_congr (by omega) rfl rfl

theorem setEntry_puts (l : List (Put α)) (m : Dia α n) (D : Nat → α)
    (h : ∀ k, k < n → m.data.f k = D k) :
    DiagRefines (l.foldlM (fun m p => m.setEntry p.1 p.2.1 p.2.2) m) (puts n l D) := by
  induction l generalizing m D with
  | nil => exact ⟨rfl, m.shows_of h⟩
  | cons p l ih =>
    obtain ⟨i, j, v⟩ := p
    rw [List.foldlM_cons]
    unfold puts
    dsimp only
    by_cases hij : i = j
    · subst hij
      rw [if_pos rfl]
      by_cases hi : 0 ≤ i ∧ i < n
      · rw [if_pos hi, m.setEntry_diag hi, ok_bind]
        exact ih _ _ (diag_shows_upd h v hi)
      · rw [if_neg hi, m.setEntry_range hi]
        exact ⟨rfl, m.shows_of h⟩
    · rw [if_neg hij]
      by_cases hv : Flt.ulpEq Flt.zero v = true
      · rw [if_pos hv, m.setEntry_off hij hv, ok_bind]
        exact ih _ _ h
      · rw [if_neg hv, m.setEntry_big hij hv]
        exact ⟨rfl, m.shows_of h⟩

/-! ## The calls -/

/-- A mutating call on a diagonal matrix. -/
inductive DCall (α : Type)
  | setEntry (i j : Int) (v : α)
  | addToEntry (i j : Int) (v : α)
  | multiplyEntry (i j : Int) (v : α)
  | setRow (i : Int) (l : List α)
  | setColumn (j : Int) (l : List α)
  | setSubMatrix (d : Option (List (List α))) (row col : Int)
  | setRowVector (i : Int) (v : RVec α)
  | setColumnVector (j : Int) (v : RVec α)

/-- The call on the model. -/
def DCall.on (m : Dia α n) : DCall α → Mut (Dia α n)
  | .setEntry i j v => m.setEntry i j v
  | .addToEntry i j v => m.addToEntry i j v
  | .multiplyEntry i j v => m.multiplyEntry i j v
  | .setRow i l => m.setRow i l
  | .setColumn j l => m.setColumn j l
  | .setSubMatrix d row col => m.setSubMatrix d row col
  | .setRowVector i v => m.setRowVector i v
  | .setColumnVector j v => m.setColumnVector j v

/-- State left by a call, completed or refused. -/
def after {σ : Type} : Mut σ → σ
  | .ok s => s
  | .error (_, s) => s

/-- A history of calls; a panicking call is recovered from and the next one runs. -/
def DCall.run (m : Dia α n) (l : List (DCall α)) : Dia α n :=
  l.foldl (fun m call => after (call.on m)) m

/-- What a call does to a diagonal `D` of size `n`, independent of the storage. A line write is
refused outright when the index or the length is wrong; otherwise it is the sequence of its single
writes. -/
def Spec.dstep (n : Nat) (D : Nat → α) : DCall α → Bool × (Nat → α)
  | .setEntry i j v => puts n [(i, j, v)] D
  | .addToEntry i j v => puts n [(i, j, if i = j then Flt.add (D i.toNat) v else v)] D
  | .multiplyEntry i j v =>
    if i = j then puts n [(i, j, Flt.mul (D i.toNat) v)] D else (true, D)
  | .setRow i l => line i l fun k x => (i, (k : Int), x)
  | .setColumn j l => line j l fun k x => ((k : Int), j, x)
  | .setRowVector i v => line i v.list fun k x => (i, (k : Int), x)
  | .setColumnVector j v => line j v.list fun k x => ((k : Int), j, x)
  | .setSubMatrix none _ _ => (false, D)
  | .setSubMatrix (some d) row col =>
    if d.length = 0 ∨ (d.headD []).length = 0 ∨ ¬ (∀ x ∈ d, x.length = (d.headD []).length)
    then (false, D)
    else puts n (d.zipIdx.flatMap fun x => x.1.zipIdx.map fun y => (row + x.2, col + y.2, y.1)) D
where
  line (i : Int) (l : List α) (f : Nat → α → Put α) : Bool × (Nat → α) :=
    if (0 ≤ i ∧ i < n) ∧ l.length = n then puts n (l.zipIdx.map fun y => f y.2 y.1) D
    else (false, D)

theorem forUp_zip {β ε σ : Type} {l : List β} {body : Nat → σ → Except ε σ}
    {g : β × Nat → σ → Except ε σ} (h : ∀ i x, l[i]? = some x → ∀ s, body i s = g (x, i) s) (s : σ) :
    forUp 0 l.length body s = l.zipIdx.foldlM (fun s y => g y s) s := by
  have key : ∀ (k : Nat) (l' : List β), (∀ i x, l'[i]? = some x → ∀ s, body (k + i) s = g (x, k + i) s) →
      ∀ s : σ, (List.range' k l'.length).foldlM (fun s i => body i s) s =
        (l'.zipIdx k).foldlM (fun s y => g y s) s := by
    intro k l'
    induction l' generalizing k with
    | nil => intros; rfl
    | cons x l' ih =>
      intro h s
      rw [List.length_cons, List.range'_succ, List.foldlM_cons, List.zipIdx_cons, List.foldlM_cons]
      have h0 := h 0 x (by simp) s
      rw [Nat.add_zero] at h0
      rw [h0]
      congr 1
      funext s
      exact ih (k + 1) (fun i y hy s => by
        have := h (i + 1) y (by simpa using hy) s
        rwa [show k + (i + 1) = k + 1 + i by omega] at this) s
  have := key 0 l (fun i x h' s => by rw [Nat.zero_add]; exact h i x h' s) s
  unfold forUp
  rw [Nat.sub_zero]
  exact this

theorem forUp_list {l : List α} (f : Nat → α → Put α) (m : Dia α n)
    {get : Nat → Res α} (hget : ∀ i x, l[i]? = some x → get i = .ok x) :
    forUp 0 l.length (fun i m => do
      let v ← (get i).at m
      let p := f i v
      m.setEntry p.1 p.2.1 p.2.2) m =
    (l.zipIdx.map fun y => f y.2 y.1).foldlM (fun m p => m.setEntry p.1 p.2.1 p.2.2) m := by
  rw [foldlM_map']
  refine forUp_zip (g := fun y m => m.setEntry (f y.2 y.1).1 (f y.2 y.1).2.1 (f y.2 y.1).2.2)
    (fun i x h m => ?_) m
  rw [hget i x h, res_at_ok, ok_bind]

theorem rdL_some {β : Type} {l : List β} {i : Nat} {x : β} (h : l[i]? = some x) :
    rdL l i = .ok x := by
  unfold rdL; rw [h]

theorem line_refines {i : Int} {l : List α} {D : Nat → α} {m : Dia α n} (f : Nat → α → Put α)
    (h : ∀ k, k < n → m.data.f k = D k) {get : Nat → Res α}
    (hget : ∀ i x, l[i]? = some x → get i = .ok x) {chk : Res Unit} {st : Status}
    (hc : (0 ≤ i ∧ i < n) → chk = .ok ()) (hc' : ¬ (0 ≤ i ∧ i < n) → chk = .error (.err .range)) :
    DiagRefines (do
      (chk).must.at m
      if l.length ≠ n then throw (.pan st, m)
      forUp 0 n (fun i m => do
        let v ← (get i).at m
        let p := f i v
        m.setEntry p.1 p.2.1 p.2.2) m) (dstep.line n D i l f) := by
  unfold dstep.line
  by_cases hi : 0 ≤ i ∧ i < n
  · rw [hc hi, must_ok, res_at_ok, ok_bind]
    by_cases hl : l.length = n
    · rw [if_neg (not_not.2 hl), if_pos ⟨hi, hl⟩]
      subst hl
      have e := forUp_list f m hget
      have := setEntry_puts (l.zipIdx.map fun y => f y.2 y.1) m D h
      rw [← e] at this
      exact this
    · rw [if_pos hl, if_neg (c := (0 ≤ i ∧ i < n) ∧ l.length = n) (fun h => hl h.2)]
      exact ⟨rfl, m.shows_of h⟩
  · rw [hc' hi, if_neg (c := (0 ≤ i ∧ i < n) ∧ l.length = n) (fun h => hi h.1)]
    exact ⟨rfl, m.shows_of h⟩

theorem RVec.at_some (v : RVec α) {i : Nat} {x : α} (h : v.list[i]? = some x) :
    v.at i = .ok x := by
  obtain ⟨hi, -⟩ := List.getElem?_eq_some_iff.1 h
  cases v <;>
  · rw [RVec.list] at h hi
    simp only [RVec.at, Int.toNat_natCast]
    rw [if_neg (by omega), rdL_some h]

theorem setSubMatrix_refines {d : List (List α)} {row col : Int} {D : Nat → α} {m : Dia α n}
    (h : ∀ k, k < n → m.data.f k = D k) :
    DiagRefines (m.setSubMatrix (some d) row col) (dstep n D (.setSubMatrix (some d) row col)) := by
  unfold Dia.setSubMatrix dstep
  dsimp only
  cases d with
  | nil => exact ⟨rfl, m.shows_of h⟩
  | cons x d =>
    rw [if_neg (by simp), show rdL (x :: d) 0 = .ok x from rfl, res_at_ok, ok_bind]
    by_cases hx : x.length = 0
    · have hx' : ((x :: d).headD []).length = 0 := hx
      rw [if_pos hx, if_pos (Or.inr (Or.inl hx'))]
      exact ⟨rfl, m.shows_of h⟩
    · rw [if_neg hx]
      by_cases hall : ∀ y ∈ x :: d, y.length = x.length
      · rw [if_neg (c := (x :: d).length = 0 ∨ ((x :: d).headD []).length = 0 ∨
            ¬ ∀ y ∈ x :: d, y.length = ((x :: d).headD []).length) (fun h => by
              rcases h with h | h | h
              · cases h
              · exact hx h
              · exact h hall)]
        have hchk : forUp 1 (x :: d).length (fun i (_ : Unit) => (do
            if (← (rdL (x :: d) i).at m).length ≠ x.length then throw (Fault.pan .dim, m)
            : Except (Fault × Dia α n) Unit)) () = .ok () := by
          obtain ⟨u, e, -⟩ := (wp_forUp (E := fun _ => False) (fun _ _ => True)
            (show 1 ≤ (x :: d).length by simp) (body := fun i (_ : Unit) => (do
            if (← (rdL (x :: d) i).at m).length ≠ x.length then throw (Fault.pan .dim, m)
            : Except (Fault × Dia α n) Unit)) (s := ()) trivial fun i _ _ hi _ => by
              rw [rdL_some (List.getElem?_eq_getElem hi), res_at_ok, ok_bind,
                if_neg (not_not.2 (hall _ (List.getElem_mem hi)))]
              trivial).exists_ok
          exact e
        rw [hchk, ok_bind]
        have e : forUp 0 (x :: d).length (fun i (m : Dia α n) =>
            forUp 0 x.length (fun j m => (do
              let v ← (rdL (← (rdL (x :: d) i).at m) j).at m
              m.setEntry (row + i) (col + j) v)) m) m =
            ((x :: d).zipIdx.flatMap fun x => x.1.zipIdx.map fun y =>
              (row + x.2, col + y.2, y.1)).foldlM (fun m p => m.setEntry p.1 p.2.1 p.2.2) m := by
          rw [foldlM_flatMap']
          refine forUp_zip (g := fun (z : List α × Nat) m => (z.1.zipIdx.map fun y =>
              (row + z.2, col + y.2, y.1)).foldlM (fun m p => m.setEntry p.1 p.2.1 p.2.2) m)
            (fun i y hy m => ?_) m
          rw [← hall y (List.mem_of_getElem? hy),
            ← forUp_list (fun k v => (row + i, col + (k : Int), v)) m (get := rdL y)
              (fun j z hz => rdL_some hz)]
          simp only [rdL_some hy, res_at_ok, ok_bind]
        rw [e]
        exact setEntry_puts _ m D h
      · have hall' : ¬ ∀ y ∈ x :: d, y.length = ((x :: d).headD []).length := hall
        rw [if_pos (Or.inr (Or.inr hall'))]
        have hex : ∃ i, 1 ≤ i ∧ ∃ hi : i < (x :: d).length, (x :: d)[i].length ≠ x.length := by
          push Not at hall
          obtain ⟨y, hy, hne⟩ := hall
          obtain ⟨i, hi, rfl⟩ := List.getElem_of_mem hy
          refine ⟨i, ?_, hi, hne⟩
          rcases Nat.eq_zero_or_pos i with rfl | h0
          · exact absurd rfl hne
          · exact h0
        obtain ⟨i, h1, hi, hne⟩ := hex
        have hchk : forUp 1 (x :: d).length (fun i (_ : Unit) => (do
            if (← (rdL (x :: d) i).at m).length ≠ x.length then throw (Fault.pan .dim, m)
            : Except (Fault × Dia α n) Unit)) () = .error (.pan .dim, m) := by
          refine forUp_err (fun j _ _ hj => ?_) h1 hi (fun _ => ?_)
          · rw [rdL_some (List.getElem?_eq_getElem hj), res_at_ok, ok_bind]
            by_cases hj' : (x :: d)[j].length = x.length
            · rw [if_neg (not_not.2 hj')]; exact Or.inl ⟨_, rfl⟩
            · rw [if_pos hj']; exact Or.inr rfl
          · rw [rdL_some (List.getElem?_eq_getElem hi), res_at_ok, ok_bind, if_pos hne]
            rfl
        rw [hchk]
        exact ⟨rfl, m.shows_of h⟩

/-- C06, one call: the model does exactly what the specification says, completed or refused. In
particular the off-diagonal entries still read zero. -/
theorem C06_step (m : Dia α n) {D : Nat → α} (hD : Shows m.at n n (diag D)) (call : DCall α) :
    DiagRefines (call.on m) (dstep n D call) := by
  have h : ∀ k, k < n → m.data.f k = D k := fun k hk => by
    have := m.shows.unique hD hk hk
    simpa [diag] using this
  cases call with
  | setEntry i j v =>
    have := setEntry_puts [(i, j, v)] m D h
    rw [List.foldlM_cons] at this
    simp only [List.foldlM_nil, bind_pure] at this
    exact this
  | addToEntry i j v =>
    show DiagRefines (m.addToEntry i j v) _
    unfold dstep puts puts
    by_cases hij : i = j
    · subst hij
      simp only [if_true]
      by_cases hi : 0 ≤ i ∧ i < n
      · rw [if_pos hi, m.addToEntry_diag hi, h i.toNat (by omega)]
        exact ⟨rfl, Dia.shows_of _ (diag_shows_upd h _ hi)⟩
      · rw [if_neg hi, m.addToEntry_range hi]
        exact ⟨rfl, m.shows_of h⟩
    · simp only [if_neg hij]
      by_cases hv : Flt.ulpEq Flt.zero v = true
      · rw [if_pos hv, m.addToEntry_off hij hv]
        exact ⟨rfl, m.shows_of h⟩
      · rw [if_neg hv, m.addToEntry_big hij hv]
        exact ⟨rfl, m.shows_of h⟩
  | multiplyEntry i j v =>
    show DiagRefines (m.multiplyEntry i j v) _
    unfold dstep puts puts
    by_cases hij : i = j
    · subst hij
      simp only [if_true]
      by_cases hi : 0 ≤ i ∧ i < n
      · rw [if_pos hi, m.multiplyEntry_diag hi, h i.toNat (by omega)]
        exact ⟨rfl, Dia.shows_of _ (diag_shows_upd h _ hi)⟩
      · rw [if_neg hi, m.multiplyEntry_range hi]
        exact ⟨rfl, m.shows_of h⟩
    · simp only [if_neg hij, m.multiplyEntry_off hij]
      exact ⟨rfl, m.shows_of h⟩
  | setRow i l =>
    exact line_refines (fun k x => (i, (k : Int), x)) h
      (fun _ _ => rdL_some) checkRowIndex_ok checkRowIndex_err
  | setColumn j l =>
    exact line_refines (fun k x => ((k : Int), j, x)) h
      (fun _ _ => rdL_some) checkColumnIndex_ok checkColumnIndex_err
  | setRowVector i v => cases v with
    | arr v =>
      exact line_refines (fun k x => (i, (k : Int), x)) h
        (fun _ _ => RVec.at_some (.arr v)) checkRowIndex_ok checkRowIndex_err
    | ext v =>
      exact line_refines (fun k x => (i, (k : Int), x)) h
        (fun _ _ => RVec.at_some (.ext v)) checkRowIndex_ok checkRowIndex_err
  | setColumnVector j v => cases v with
    | arr v =>
      exact line_refines (fun k x => ((k : Int), j, x)) h
        (fun _ _ => RVec.at_some (.arr v)) checkColumnIndex_ok checkColumnIndex_err
    | ext v =>
      exact line_refines (fun k x => ((k : Int), j, x)) h
        (fun _ _ => RVec.at_some (.ext v)) checkColumnIndex_ok checkColumnIndex_err
  | setSubMatrix d row col => cases d with
    | none => exact ⟨rfl, m.shows_of h⟩
    | some d => exact setSubMatrix_refines h

/-- C06, every history of calls: the matrix shows a diagonal matrix, namely the one the
specification computes. -/
theorem C06_history (m : Dia α n) {D : Nat → α} (hD : Shows m.at n n (diag D))
    (calls : List (DCall α)) :
    Shows (DCall.run m calls).at n n
      (diag (calls.foldl (fun D call => (dstep n D call).2) D)) := by
  induction calls generalizing m D with
  | nil => exact hD
  | cons call calls ih =>
    have h := C06_step m hD call
    refine ih _ ?_
    unfold DiagRefines at h
    cases e : call.on m with
    | ok m' => rw [e] at h; dsimp only; rw [e]; exact h.2
    | error x => obtain ⟨f, m'⟩ := x; rw [e] at h; dsimp only; rw [e]; exact h.2

/-- C06 in plain form: after any history every off-diagonal entry reads as zero. -/
theorem C06_offDiagonal (m : Dia α n) (calls : List (DCall α)) {i j : Nat} (hi : i < n)
    (hj : j < n) (hij : i ≠ j) : (DCall.run m calls).at i j = .ok Flt.zero := by
  rw [(C06_history m m.shows calls).ok hi hj]
  simp [diag, hij]

/-- C06, what a completed `SetRow(i, l)` or `SetColumn(i, l)` means: the index and the length were
right, everything off the diagonal was a zero, and only diagonal entry `i` is replaced, by `l[i]`. -/
theorem C06_line {i : Int} {l : List α} {D : Nat → α} {call : DCall α}
    (hcall : call = .setRow i l ∨ call = .setColumn i l) (h : (dstep n D call).1 = true) :
    (0 ≤ i ∧ i < n) ∧ l.length = n ∧
    (∀ (k : Nat) x, (k : Int) ≠ i → l[k]? = some x → Flt.ulpEq Flt.zero x = true) ∧
    (∀ k : Nat, (k : Int) ≠ i → (dstep n D call).2 k = D k) ∧
    l[i.toNat]? = some ((dstep n D call).2 i.toNat) := by
  have key : ∀ f : Nat → α → Put α, (∀ k x, f k x = (i, (k : Int), x)) ∨
      (∀ k x, f k x = ((k : Int), i, x)) → dstep n D call = dstep.line n D i l f →
    (0 ≤ i ∧ i < n) ∧ l.length = n ∧
    (∀ (k : Nat) x, (k : Int) ≠ i → l[k]? = some x → Flt.ulpEq Flt.zero x = true) ∧
    (∀ k : Nat, (k : Int) ≠ i → (dstep n D call).2 k = D k) ∧
    l[i.toNat]? = some ((dstep n D call).2 i.toNat) := by
    intro f hf e
    rw [e] at h ⊢
    unfold dstep.line at h ⊢
    split at h
    · rename_i hc
      rw [if_pos hc]
      refine ⟨hc.1, hc.2, fun k x hk hx => ?_, fun k hk => ?_, ?_⟩
      · rw [puts_complete] at h
        have hm : f k x ∈ l.zipIdx.map fun y => f y.2 y.1 :=
          List.mem_map.2 ⟨(x, k), List.mem_zipIdx_iff_getElem?.2 hx, rfl⟩
        rcases hf with hf | hf
        · rw [hf] at hm; exact (h _ _ x hm).2 hk.symm
        · rw [hf] at hm; exact (h _ _ x hm).2 hk
      · rcases puts_values (n := n) (l.zipIdx.map fun y => f y.2 y.1) D k with h1 | h1
        · exact h1
        · obtain ⟨y, -, hy⟩ := List.mem_map.1 h1
          rcases hf with hf | hf <;> rw [hf] at hy <;> simp only [Prod.mk.injEq] at hy
          · exact absurd hy.1.symm hk
          · exact absurd hy.2.1.symm hk
      · obtain ⟨j, rfl⟩ := Int.eq_ofNat_of_zero_le hc.1.1
        have hj : j < l.length := by omega
        have hm : ((j : Int), (j : Int), l[j]) ∈ l.zipIdx.map fun y => f y.2 y.1 :=
          List.mem_map.2 ⟨(l[j], j), List.mem_zipIdx_iff_getElem?.2
            (List.getElem?_eq_getElem hj), by rcases hf with hf | hf <;> rw [hf] <;> rfl⟩
        have h1 := puts_written (n := n) _ D h hm
        obtain ⟨y, hy1, hy⟩ := List.mem_map.1 h1
        have hy2 : (y.2 : Int) = j ∧ y.1 = (puts n (l.zipIdx.map fun y => f y.2 y.1) D).2 j := by
          rcases hf with hf | hf <;> rw [hf] at hy <;> simp only [Prod.mk.injEq] at hy
          · exact ⟨hy.2.1, hy.2.2⟩
          · exact ⟨hy.1, hy.2.2⟩
        have h3 := List.mem_zipIdx_iff_getElem?.1 hy1
        rw [Int.toNat_natCast, ← hy2.2, ← h3]
        congr 1
        omega
    · cases h
  rcases hcall with rfl | rfl
  · exact key (fun k x => (i, (k : Int), x)) (Or.inl fun _ _ => rfl) rfl
  · exact key (fun k x => ((k : Int), i, x)) (Or.inr fun _ _ => rfl) rfl

/-- Concrete case: on `diag(1, 2)`, `SetRow(1, [0, 5])` completes with `diag(1, 5)`; then
`SetRow(0, [7, 8])` is refused after it has already stored 7. -/
example : (dstep 2 (fun i => ([1, 2] : List ℚ)[i]?.getD 0) (.setRow 1 [0, 5])).1 = true ∧
    (DCall.run (⟨⟨fun i => ([1, 2] : List ℚ)[i]?.getD 0⟩⟩ : Dia ℚ 2)
      [.setRow 1 [0, 5], .setRow 0 [7, 8]]).at 0 0 = .ok 7 ∧
    (DCall.run (⟨⟨fun i => ([1, 2] : List ℚ)[i]?.getD 0⟩⟩ : Dia ℚ 2)
      [.setRow 1 [0, 5], .setRow 0 [7, 8]]).at 1 1 = .ok 5 := by
  decide +kernel

/-! ## Matrices as lines, and windows -/

/-- C06, `SetRowMatrix` and `SetColumnMatrix` with an argument of any storage: refused outright when the shape is wrong,
otherwise the write of the line. -/
theorem C06_lineMatrix (m : Dia α n) {D : Nat → α} (hD : Shows m.at n n (diag D)) (k : Int) {p q : Nat}
    {b : Mat α p q} {B : Nat → Nat → α} (hB : Shows b.at p q B) :
    DiagRefines (m.setRowMatrix k b)
      (if p = 1 ∧ q = n then dstep n D (.setRow k ((List.range n).map (B 0))) else (false, D)) ∧
    DiagRefines (m.setColumnMatrix k b)
      (if p = n ∧ q = 1 then dstep n D (.setColumn k ((List.range n).map (B · 0))) else (false, D)) := by
  have h : ∀ k, k < n → m.data.f k = D k := fun k hk => by
    have := m.shows.unique hD hk hk
    simpa [diag] using this
  have hget : ∀ (g : Nat → α) i x, ((List.range n).map g)[i]? = some x → i < n ∧ g i = x := by
    intro g i x hx
    rw [List.getElem?_map] at hx
    by_cases hi : i < n
    · rw [List.getElem?_range hi] at hx
      exact ⟨hi, Option.some.inj hx⟩
    · rw [List.getElem?_eq_none (by rw [List.length_range]; omega)] at hx
      cases hx
  have hlen : ∀ g : Nat → α, ¬ ((List.range n).map g).length ≠ n := fun g => by simp
  constructor
  · by_cases hs : p = 1 ∧ q = n
    · obtain ⟨rfl, rfl⟩ := hs
      rw [if_pos ⟨rfl, rfl⟩]
      have := line_refines (i := k) (l := (List.range q).map (B 0)) (st := .matDim) (m := m)
        (fun j x => (k, (j : Int), x)) h (get := fun i => b.at 0 i)
        (fun i x hx => by
          obtain ⟨h1, h2⟩ := hget _ i x hx
          rw [← h2]
          exact_mod_cast hB.ok (i := 0) (j := i) (by omega) h1)
        (checkRowIndex_ok (n := q)) (checkRowIndex_err (n := q))
      rw [if_neg (hlen _)] at this
      unfold Dia.setRowMatrix
      rw [if_neg (by simp)]
      exact this
    · rw [if_neg hs]
      unfold Dia.setRowMatrix
      by_cases hi : 0 ≤ k ∧ k < n
      · rw [checkRowIndex_ok hi, must_ok, res_at_ok, ok_bind, if_pos (by omega)]
        exact ⟨rfl, m.shows_of h⟩
      · rw [checkRowIndex_err hi]
        exact ⟨rfl, m.shows_of h⟩
  · by_cases hs : p = n ∧ q = 1
    · obtain ⟨rfl, rfl⟩ := hs
      rw [if_pos ⟨rfl, rfl⟩]
      have := line_refines (i := k) (l := (List.range p).map (B · 0)) (st := .matDim) (m := m)
        (fun j x => ((j : Int), k, x)) h (get := fun i => b.at i 0)
        (fun i x hx => by
          obtain ⟨h1, h2⟩ := hget _ i x hx
          rw [← h2]
          exact_mod_cast hB.ok (i := i) (j := 0) h1 (by omega))
        (checkColumnIndex_ok (n := p)) (checkColumnIndex_err (n := p))
      rw [if_neg (hlen _)] at this
      unfold Dia.setColumnMatrix
      rw [if_neg (by simp)]
      exact this
    · rw [if_neg hs]
      unfold Dia.setColumnMatrix
      by_cases hi : 0 ≤ k ∧ k < n
      · rw [checkColumnIndex_ok hi, must_ok, res_at_ok, ok_bind, if_pos (by omega)]
        exact ⟨rfl, m.shows_of h⟩
      · rw [checkColumnIndex_err hi]
        exact ⟨rfl, m.shows_of h⟩

/-- **C88.** A row or a column of a diagonal matrix as a matrix: only for the 1×1 matrix, since the answer is again
diagonal; everything else is refused. -/
theorem C88_lineMatrix (m : Dia α n) {D : Nat → α} (hD : Shows m.at n n (diag D)) (k : Int) :
    (¬ (0 ≤ k ∧ k < n) → m.rowMatrixAt k = .error (.pan .range) ∧ m.columnMatrixAt k = .error (.pan .range)) ∧
    ((0 ≤ k ∧ k < n) → n ≠ 1 → m.rowMatrixAt k = .error (.pan .dim) ∧ m.columnMatrixAt k = .error (.pan .dim)) ∧
    ((0 ≤ k ∧ k < n) → n = 1 → ∃ a b : Dia α 1, m.rowMatrixAt k = .ok a ∧ m.columnMatrixAt k = .ok b ∧
      a.at 0 0 = .ok (D 0) ∧ b.at 0 0 = .ok (D 0)) := by
  refine ⟨fun h => ?_, fun h h1 => ?_, fun h h1 => ?_⟩
  · unfold Dia.rowMatrixAt Dia.columnMatrixAt
    rw [checkRowIndex_err h, checkColumnIndex_err h]
    exact ⟨rfl, rfl⟩
  · unfold Dia.rowMatrixAt Dia.columnMatrixAt
    rw [checkRowIndex_ok h, checkColumnIndex_ok h, must_ok, ok_bind, ok_bind]
    constructor <;>
    · rw [if_pos (by omega)]
      rfl
  · subst h1
    obtain rfl : k = 0 := by omega
    have h0 := hD.ok (i := 0) (j := 0) (by omega) (by omega)
    have h0' : m.at 0 0 = .ok (D 0) := by simpa [diag] using h0
    have key : ∀ v : α, ∃ a : Dia α 1, (⟨Row.zero 1⟩ : Dia α 1).setEntry 0 0 v = .ok a ∧ a.at 0 0 = .ok v := by
      intro v
      refine ⟨_, Dia.setEntry_diag _ (by omega), ?_⟩
      have := (Dia.shows (⟨⟨upd1 (Row.zero 1 : Row α 1).f (0 : Int).toNat v⟩⟩ : Dia α 1)).ok (i := 0) (j := 0)
        (by omega) (by omega)
      simpa [diag, upd1] using this
    obtain ⟨a, e1, e2⟩ := key (D 0)
    refine ⟨a, a, ?_, ?_, e2, e2⟩
    · unfold Dia.rowMatrixAt
      rw [checkRowIndex_ok h, must_ok, ok_bind, if_neg (by omega), forUp_step (by omega)]
      simp only [Nat.cast_zero]
      rw [h0', ok_bind, e1, ok_bind, forUp_eq_self (by omega)]
    · unfold Dia.columnMatrixAt
      rw [checkColumnIndex_ok h, must_ok, ok_bind, if_neg (by omega), forUp_step (by omega)]
      simp only [Nat.cast_zero]
      rw [h0', ok_bind, e1, ok_bind, forUp_eq_self (by omega)]

/-- **C88.** A window of a diagonal matrix: refused when it is not square or is empty. Inside the matrix the answer is the
diagonal of the window, or a panic when something else in the window is not a zero; a window that leaves the matrix ends
in a panic. -/
theorem C88_subMatrix (m : Dia α n) {D : Nat → α} (hD : Shows m.at n n (diag D)) (sr er sc ec : Int) :
    (er - sr ≠ ec - sc → m.subMatrix sr er sc ec = .error (.pan .dim)) ∧
    (er - sr = ec - sc → er < sr → m.subMatrix sr er sc ec = .error (.pan .notSPos)) ∧
    (er - sr = ec - sc → sr ≤ er → 0 ≤ sr ∧ er < n ∧ 0 ≤ sc ∧ ec < n →
      ((∀ i j : Nat, sr + i ≤ er → sc + j ≤ ec → i ≠ j →
          Flt.ulpEq Flt.zero (diag D (sr.toNat + i) (sc.toNat + j)) = true) →
        ∃ a, m.subMatrix sr er sc ec = .ok a ∧ Shows a.at (er - sr + 1).toNat (er - sr + 1).toNat
          (diag fun i => diag D (sr.toNat + i) (sc.toNat + i))) ∧
      ((∃ i j : Nat, sr + i ≤ er ∧ sc + j ≤ ec ∧ i ≠ j ∧
          ¬ Flt.ulpEq Flt.zero (diag D (sr.toNat + i) (sc.toNat + j)) = true) →
        m.subMatrix sr er sc ec = .error (.pan .big))) ∧
    (er - sr = ec - sc → sr ≤ er → ¬ (0 ≤ sr ∧ er < n ∧ 0 ≤ sc ∧ ec < n) →
      m.subMatrix sr er sc ec = .error (.pan .range) ∨ m.subMatrix sr er sc ec = .error (.pan .big)) := by
  have hfill : er - sr = ec - sc → sr ≤ er → m.subMatrix sr er sc ec =
      Dia.fill fun i j => m.at (sr + i) (sc + j) := by
    intro h h1
    unfold Dia.subMatrix Dia.fill
    rw [if_neg (by omega), if_neg (by omega)]
    rw [show (ec - sc + 1).toNat = (er - sr + 1).toNat by omega]
    dsimp only
    congr 1
    funext i out
    congr 1
    funext j out
    cases m.at (sr + i) (sc + j) with
    | error f => rfl
    | ok v =>
      rw [ok_bind, ok_bind]
      cases out.setEntry i j v <;> rfl
  refine ⟨fun h => ?_, fun h h1 => ?_, fun h h1 hin => ?_, fun h h1 hout => ?_⟩
  · unfold Dia.subMatrix
    rw [if_pos (by omega)]
    rfl
  · unfold Dia.subMatrix
    rw [if_neg (by omega), if_pos (by omega)]
    rfl
  · have hcell : ∀ i j, i < (er - sr + 1).toNat → j < (er - sr + 1).toNat →
        m.at (sr + i) (sc + j) = .ok (diag D (sr.toNat + i) (sc.toNat + j)) := by
      intro i j hi hj
      have := hD.ok (i := sr.toNat + i) (j := sc.toNat + j) (by omega) (by omega)
      rwa [show ((sr.toNat + i : Nat) : Int) = sr + i by omega,
        show ((sc.toNat + j : Nat) : Int) = sc + j by omega] at this
    rw [hfill h h1]
    refine ⟨fun hz => Dia.fill_ok hcell fun i j hi hj hij => hz i j (by omega) (by omega) hij, ?_⟩
    rintro ⟨i, j, hi, hj, hij, hz⟩
    exact Dia.fill_err hcell (by omega) (by omega) hij hz
  · rw [hfill h h1]
    have hw : Wp (Dia.fill (fun i j => m.at (sr + i) (sc + j)) : Res (Dia α (er - sr + 1).toNat)) (fun _ => False)
        fun f => f = .pan .range ∨ f = .pan .big := by
      unfold Dia.fill
      refine (wp_forUp (fun k _ => ∀ i j : Nat, i < k → j < (er - sr + 1).toNat →
        (0 ≤ sr + i ∧ sr + i < n) ∧ (0 ≤ sc + j ∧ sc + j < n)) (Nat.zero_le _) (fun i j hi => by omega)
        fun i s _ hi hI => ?_).imp fun _ hI => ?_
      · refine (wp_forUp (fun l _ => ∀ j : Nat, j < l → (0 ≤ sr + i ∧ sr + i < n) ∧ (0 ≤ sc + j ∧ sc + j < n))
          (Nat.zero_le _) (fun j hj => by omega) fun j s _ hj hJ => ?_).imp fun _ hJ i' j' hi' hj' => ?_
        · dsimp only
          by_cases hg : (0 ≤ sr + (i : Int) ∧ sr + i < n) ∧ (0 ≤ sc + (j : Int) ∧ sc + j < n)
          · have := hD.ok (i := (sr + i).toNat) (j := (sc + j).toNat) (by omega) (by omega)
            rw [show ((sr + i).toNat : Int) = sr + i by omega, show ((sc + j).toNat : Int) = sc + j by omega] at this
            rw [this, ok_bind]
            rcases Dia.fill_step (m := s) (v := diag D (sr + i).toNat (sc + j).toNat) hi hj with ⟨m', e⟩ | e
            · rw [e]
              refine wp_of_eq_ok rfl fun j' hj' => ?_
              rcases Nat.lt_succ_iff_lt_or_eq.1 hj' with h2 | rfl
              · exact hJ j' h2
              · exact hg
            · rw [e]
              exact Or.inr rfl
          · have : m.at (sr + i) (sc + j) = .error (.pan .range) := by
              rw [hD]
              unfold at'
              rw [if_neg (by unfold inRange; omega)]
            rw [this]
            exact Or.inl rfl
        · rcases Nat.lt_succ_iff_lt_or_eq.1 hi' with h2 | rfl
          · exact hI i' j' h2 hj'
          · exact hJ j' hj'
      · apply hout
        have h2 := hI 0 0 (by omega) (by omega)
        have h3 := hI ((er - sr + 1).toNat - 1) ((er - sr + 1).toNat - 1) (by omega) (by omega)
        omega
    cases e : (Dia.fill (fun i j => m.at (sr + i) (sc + j)) : Res (Dia α (er - sr + 1).toNat)) with
    | ok a => rw [e] at hw; exact hw.elim
    | error f =>
      rw [e] at hw
      rcases (hw : f = .pan .range ∨ f = .pan .big) with rfl | rfl
      · exact .inl rfl
      · exact .inr rfl

/-- Concrete cases: of `diag(1, 2, 3)` the window of the last two rows and columns is `diag(2, 3)`; one that is shifted
meets a 2 off its diagonal. -/
example : ((⟨⟨fun i => ([1, 2, 3] : List ℚ)[i]?.getD 0⟩⟩ : Dia ℚ 3).subMatrix 1 2 1 2).toOption.map
      (fun a => ((a.at 0 0).toOption, (a.at 1 1).toOption)) = some (some 2, some 3) ∧
    ((⟨⟨fun i => ([1, 2, 3] : List ℚ)[i]?.getD 0⟩⟩ : Dia ℚ 3).subMatrix 0 1 1 2).toOption.isNone = true := by
  decide +kernel

end Linear
