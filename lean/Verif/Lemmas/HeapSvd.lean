import Verif.Model.HeapSvd
import Verif.Lemmas.HeapMat

/-!
# Singular value, Schur and eigen decomposition on the heap
-/

set_option linter.unusedSectionVars false

namespace Linear

open HM Heap Spec

section
variable {α : Type} [Flt α] {m n : Nat} {h : Heap α} {v : Sl} {rows : Nat → Sl} {t : Tab α m n}

theorem svdNorm_run (hyp : α → α → α) (k : Nat) (H : IsJag v rows h t) :
    Reads (svdNorm hyp v m k) h (Svd.norm hyp k m fun i => t.get i k) := by
  unfold svdNorm Svd.norm
  exact Reads.forS fun i s => Reads.bind (Reads.get H i k) fun _ => Reads.ret _ _

theorem svdColScale_run (k : Nat) (nu : α) (H : IsJag v rows h t) :
    RunAt (IsJag v rows) (matCells rows m n) id (fun _ => ()) (svdColScale v m k nu) h (Svd.colScale k nu t) := by
  unfold svdColScale Svd.colScale
  by_cases e : (!Flt.eq nu Flt.zero) = true
  · rw [if_pos e, if_pos e]
    refine RunAt.bind (RunAt.for' (p := id) H fun i t h _ _ H => ?_) fun t h H => ?_
    · refine RunAt.reads (Reads.get H i k) fun _ _ => ?_
      exact RunAt.put H i k _
    · refine RunAt.reads (Reads.get H k k) fun _ _ => ?_
      exact RunAt.put H k k _
  · rw [if_neg e, if_neg e]
    exact RunAt.ret rfl H

/-- The part of the state that is not on the heap. -/
def Svd.Red.rest (w : Svd.Red α m n) : SvdRest α m n := ⟨w.s, w.e, w.u, w.v⟩

theorem svdColPass_run (hyp : α → α → α) (nct k : Nat) (w : Svd.Red α m n) (H : IsJag v rows h w.a) :
    RunAt (IsJag v rows) (matCells rows m n) Svd.Red.a Svd.Red.rest (svdColPass hyp v nct k w.rest) h
      (Svd.colPass hyp nct k w) := by
  unfold svdColPass Svd.colPass
  by_cases e : k < nct
  · rw [if_pos e, if_pos e]
    refine RunAt.reads (svdNorm_run hyp k H) fun nu _ => ?_
    refine RunAt.reads (Reads.get H k k) fun x _ => ?_
    refine RunAt.bind (svdColScale_run k _ H) fun t h H => ?_
    refine RunAt.lift' fun s _ => ?_
    exact RunAt.ret rfl H
  · rw [if_neg e, if_neg e]
    exact RunAt.ret rfl H

theorem svdReflect_run (k j : Nat) (H : IsJag v rows h t) :
    RunAt (IsJag v rows) (matCells rows m n) id (fun _ => ()) (svdReflect v m k j) h (Svd.reflect k k j t) := by
  unfold svdReflect Svd.reflect
  refine RunAt.reads (Reads.sumUp fun i => Reads.prod H i k i j) fun s _ => ?_
  refine RunAt.reads (Reads.get H k k) fun d _ => ?_
  refine RunAt.for' (p := id) H fun i t h _ _ H => ?_
  refine RunAt.reads (Reads.get H i j) fun _ _ => ?_
  refine RunAt.reads (Reads.get H i k) fun _ _ => ?_
  exact RunAt.put H i j _

theorem svdColRest_run (nct k : Nat) (w : Svd.Red α m n) (H : IsJag v rows h w.a) :
    RunAt (IsJag v rows) (matCells rows m n) Svd.Red.a Svd.Red.rest (svdColRest v nct k w.rest) h
      (Svd.colRest nct k w) := by
  unfold svdColRest Svd.colRest
  refine RunAt.bind (RunAt.forS (p := Prod.fst) (q := Prod.snd) (s := (w.a, w.e)) H fun j ae h _ _ H => ?_) fun ae h H => ?_
  · refine RunAt.lift' fun sk _ => ?_
    by_cases e : k < nct ∧ (!Flt.eq sk Flt.zero) = true
    · rw [if_pos e, if_pos e]
      refine RunAt.bind (svdReflect_run k j H) fun t h H => ?_
      refine RunAt.reads (Reads.get H k j) fun x _ => ?_
      rw [← HM.bind_pure (HM.lift _)]
      refine RunAt.lift' fun _ _ => ?_
      exact RunAt.ret rfl H
    · rw [if_neg e, if_neg e]
      refine RunAt.reads (Reads.get H k j) fun x _ => ?_
      rw [← HM.bind_pure (HM.lift _)]
      refine RunAt.lift' fun _ _ => ?_
      exact RunAt.ret rfl H
  · exact RunAt.ret rfl H

theorem svdKeepU_run (nct k : Nat) (w : Svd.Red α m n) (H : IsJag v rows h w.a) :
    RunAt (IsJag v rows) (matCells rows m n) Svd.Red.a Svd.Red.rest (svdKeepU v nct k w.rest) h
      (Svd.keepU nct k w) := by
  unfold svdKeepU Svd.keepU
  by_cases e : k < nct
  · rw [if_pos e, if_pos e]
    refine RunAt.reads (Reads.forS fun i u => Reads.bind (Reads.get H i k) fun _ => Reads.lift _ _) fun u _ => ?_
    exact RunAt.ret rfl H
  · rw [if_neg e, if_neg e]
    exact RunAt.ret rfl H

theorem svdRowApply_run (k : Nat) (e : Row α n) (H : IsJag v rows h t) :
    RunAt (IsJag v rows) (matCells rows m n) id (fun _ => ()) (svdRowApply v m k e) h (Svd.rowApply k e t) := by
  unfold svdRowApply Svd.rowApply
  refine RunAt.lift' fun ek _ => ?_
  by_cases c : k + 1 < m ∧ (!Flt.eq ek Flt.zero) = true
  · rw [if_pos c, if_pos c]
    refine RunAt.reads (Reads.forS fun j work => Reads.forS fun i work => ?_) fun work _ => ?_
    · exact Reads.bind (Reads.lift _ _) fun _ => Reads.bind (Reads.lift _ _) fun _ =>
        Reads.bind (Reads.get H i j) fun _ => Reads.lift _ _
    · refine RunAt.for' (p := id) H fun j t h _ _ H => ?_
      refine RunAt.lift' fun ej _ => ?_
      refine RunAt.lift' fun d _ => ?_
      refine RunAt.for' (p := id) H fun i t h _ _ H => ?_
      refine RunAt.reads (Reads.get H i j) fun _ _ => ?_
      refine RunAt.lift' fun _ _ => ?_
      exact RunAt.put H i j _
  · rw [if_neg c, if_neg c]
    exact RunAt.ret rfl H

theorem svdRowPass_run (hyp : α → α → α) (nrt k : Nat) (w : Svd.Red α m n) (H : IsJag v rows h w.a) :
    RunAt (IsJag v rows) (matCells rows m n) Svd.Red.a Svd.Red.rest (svdRowPass hyp v nrt k w.rest) h
      (Svd.rowPass hyp nrt k w) := by
  unfold svdRowPass Svd.rowPass
  by_cases c : k < nrt
  · rw [if_pos c, if_pos c]
    refine RunAt.lift' fun nu _ => ?_
    refine RunAt.lift' fun x _ => ?_
    refine RunAt.lift' fun e _ => ?_
    refine RunAt.lift' fun e _ => ?_
    refine RunAt.bind (svdRowApply_run k e H) fun t h H => ?_
    refine RunAt.lift' fun v _ => ?_
    exact RunAt.ret rfl H
  · rw [if_neg c, if_neg c]
    exact RunAt.ret rfl H

theorem svdStep_run (hyp : α → α → α) (nct nrt k : Nat) (w : Svd.Red α m n) (H : IsJag v rows h w.a) :
    RunAt (IsJag v rows) (matCells rows m n) Svd.Red.a Svd.Red.rest (svdStep hyp v nct nrt k w.rest) h
      (Svd.redStep hyp nct nrt k w) := by
  unfold svdStep Svd.redStep
  refine RunAt.bind (svdColPass_run hyp nct k w H) fun w h H => ?_
  refine RunAt.bind (svdColRest_run nct k w H) fun w h H => ?_
  refine RunAt.bind (svdKeepU_run nct k w H) fun w h H => ?_
  exact svdRowPass_run hyp nrt k w H

theorem svdLast_run (nct nrt : Nat) (w : Svd.Red α m n) (H : IsJag v rows h w.a) :
    Reads (svdLast v nct nrt w.rest) h (Svd.lastEntries nct nrt w) := by
  have tail : ∀ s : Row α n, Reads (do
      let e ← if nrt + 1 < n then do
          let x ← Heap.get v nrt (n - 1)
          HM.lift (w.e.set nrt x)
        else pure w.e
      let e ← HM.lift (e.set (n - 1) Flt.zero)
      pure (s, e)) h (do
      let e ← if nrt + 1 < n then do w.e.set nrt (← w.a.get nrt (n - 1)) else pure w.e
      let e ← e.set (n - 1) Flt.zero
      return (s, e)) := fun s => by
    by_cases c : nrt + 1 < n
    · rw [if_pos c, if_pos c]
      exact Reads.bind (Reads.get H _ _) fun _ => Reads.bind (Reads.lift _ _) fun _ => Reads.bind (Reads.lift _ _) fun _ =>
        Reads.ret _ _
    · rw [if_neg c, if_neg c]
      exact Reads.bind (y := .ok w.e) (Reads.ret _ _) fun _ => Reads.bind (Reads.lift _ _) fun _ => Reads.ret _ _
  unfold svdLast Svd.lastEntries
  by_cases c : nct < n
  · rw [if_pos c, if_pos c]
    exact Reads.bind (Reads.get H _ _) fun _ => Reads.bind (Reads.lift _ _) fun _ => tail _
  · rw [if_neg c, if_neg c]
    exact tail _

/-- Anything. -/
def Heap.Any (_ : Heap α) (_ : Unit) : Prop := True

theorem svdWork_run {b : Nat} (κ : Svd.Lit α) (fuel : Nat) (o : h.Ok) (H : IsNew b v h t) :
    RunOld b Any (fun _ => ()) id (svdWork κ fuel v m n) h (Svd.core κ fuel t) := by
  unfold svdWork Svd.core
  by_cases e : n = 0
  · rw [if_pos e, if_pos e]
    exact RunOld.fail o _
  · rw [if_neg e, if_neg e]
    show RunOld _ _ _ _ _ _ (Svd.reduce κ.hyp t >>= _)
    unfold Svd.reduce
    rw [bind_assoc]
    refine RunOld.bind (RunAt.fresh (p := Svd.Red.a) (q := Svd.Red.rest) o H fun rows H => RunAt.forS (p := Svd.Red.a) (q := Svd.Red.rest)
      (s := (⟨t, Row.zero n, Row.zero n, Jag.zero m _, Jag.zero n _⟩ : Svd.Red α m n)) H
      fun k w h _ _ H => svdStep_run κ.hyp _ _ k w H) fun w h o H => ?_
    obtain ⟨-, rows, H, -⟩ := H
    simp only [bind_assoc]
    refine RunOld.reads o (svdLast_run _ _ w H) fun se _ => ?_
    refine RunOld.lift' o fun u _ => ?_
    refine RunOld.lift' o fun v _ => ?_
    show RunOld b Any (fun _ => ()) id (HM.lift (Svd.loop κ fuel n ⟨se.1, se.2, u, v⟩)) h (Svd.loop κ fuel n ⟨se.1, se.2, u, v⟩)
    cases Svd.loop κ fuel n ⟨se.1, se.2, u, v⟩ with
    | ok s => exact ⟨h, rfl, trivial, Old.refl o⟩
    | error e => exact ⟨h, rfl, Old.refl o⟩

end

end Linear
namespace Linear

open HM Heap Spec

variable {α : Type} [Flt α] {r c n : Nat} {h : Heap α} {β γ : Type}

/-! ## Reading -/

/-- The computation leaves the heap as it is. -/
def HM.Still (x : HM α β) : Prop := ∀ h, (x h).2 = h

theorem HM.Still.bind {x : HM α β} {k : β → HM α γ} (hx : Still x) (hk : ∀ b, Still (k b)) : Still (x >>= k) := fun h => by
  have := hx h
  rcases e : x h with ⟨_ | b, h'⟩
  · rw [HM.bind_error e]
    rw [e] at this
    exact this
  · rw [HM.bind_ok e, hk b h']
    rw [e] at this
    exact this

theorem HM.Still.lift (y : Res β) : Still (HM.lift y : HM α β) := fun _ => rfl

theorem HM.Still.ret (y : β) : Still (pure y : HM α β) := fun _ => rfl

theorem HM.Still.ite {p : Prop} [Decidable p] {x y : HM α β} (hx : Still x) (hy : Still y) : Still (if p then x else y) := by
  by_cases e : p
  · rwa [if_pos e]
  · rwa [if_neg e]

theorem HM.Still.rd (v : Sl) (i : Nat) : Still (HM.rd v i : HM α α) := fun h => by
  unfold HM.rd
  split <;> [split <;> rfl; rfl]

theorem HM.Still.rdH (v : Sl) (i : Nat) : Still (HM.rdH v i : HM α Sl) := fun h => by
  unfold HM.rdH
  split <;> [split <;> rfl; rfl]

theorem HM.Still.get (m : Sl) (i j : Nat) : Still (Heap.get m i j : HM α α) :=
  Still.bind (Still.rdH _ _) fun _ => Still.rd _ _

theorem HMat.at_still (x : HMat r c) (i j : Int) : Still (x.at' i j : HM α α) := by
  cases x with
  | arr m =>
    exact Still.bind (Still.bind (Still.lift _) fun _ => Still.bind (Still.bind (Still.rdH _ _) fun _ => Still.ret _) fun _ =>
      Still.lift _) fun _ => Still.get _ _ _
  | blk m => exact Still.bind (Still.lift _) fun _ => Still.get _ _ _
  | dia v => exact Still.bind (Still.lift _) fun _ => Still.ite (Still.rd _ _) (Still.ret _)

theorem Heap.IsMat.read {x : HMat r c} {a : Mat α r c} (H : IsMat h x a) (i j : Int) : Reads (x.at' i j) h (a.at i j) :=
  Prod.ext ((H.at i j).trans (a.at_shows i j).symm) (x.at_still i j h)

theorem Reads.forBrk {σ ρ : Type} {body : Nat → σ → HM α (σ ⊕ ρ)} {z : Nat → σ → Res (σ ⊕ ρ)} {a b : Nat} {s : σ}
    (hb : ∀ i s, a ≤ i → i < b → Reads (body i s) h (z i s)) : Reads (HM.forBrk a b body s) h (forUpBrk a b z s) := by
  by_cases hab : a ≤ b
  · induction b, hab using Nat.le_induction with
    | base =>
      rw [forBrk_self le_rfl, forUpBrk_eq_self le_rfl]
      rfl
    | succ b hab ih =>
      unfold Reads
      rw [forBrk_last hab, forUpBrk_last hab]
      refine Reads.bind (ih fun i s h1 h2 => hb i s h1 (by omega)) fun s => ?_
      cases s with
      | inl s => exact hb b s hab (by omega)
      | inr s => rfl
  · rw [forBrk_self (by omega), forUpBrk_eq_self (by omega)]
    rfl

theorem isSymm_run {x : HMat r c} {a : Mat α r c} (H : IsMat h x a) (tol : α) :
    Reads (x.isSymm tol) h (isSymmetric a tol) := by
  unfold HMat.isSymm isSymmetric
  rw [H.rows]
  refine Reads.bind H.cols fun col => ?_
  by_cases e : r ≠ col
  · rw [if_pos e, if_pos e]
    rfl
  · rw [if_neg e, if_neg e]
    refine Reads.bind (Reads.forBrk fun i _ _ _ => ?_) fun s => Reads.ret _ _
    exact Reads.forBrk fun j _ _ _ => Reads.bind (H.read _ _) fun _ => Reads.bind (H.read _ _) fun _ => Reads.ret _ _

theorem readTab_run {t : Tab α r c} {v : Sl} {rows : Nat → Sl} (H : IsJag v rows h t) :
    ∃ t' : Tab α r c, Reads (readTab v r c) h (.ok t') ∧ ∀ i j, t'.get i j = t.get i j := by
  have : ∃ t' : Tab α r c, forUp 0 r (fun i (d : Tab α r c) => forUp 0 c (fun j (d : Tab α r c) => do
      d.set i j (← t.get i j)) d) (Jag.zero r _) = (.ok t' : Res _) ∧ ∀ i j, t'.get i j = t.get i j := by
    obtain ⟨t', e, h1, -⟩ := Tab.rowsLoop (ε := Fault) (a := 0) (b := r) (p := 0) (q := c) (fun i j _ => t.f i j)
      (t := (Jag.zero r (fun _ => c) : Tab α r c)) (body := fun i (d : Tab α r c) => forUp 0 c (fun j (d : Tab α r c) => do
        d.set i j (← t.get i j)) d) fun i t' _ hi ht' => by
        obtain ⟨t'', e, h1, h2⟩ := Tab.rowLoop (ε := Fault) (a := 0) (b := c) (i := i) (fun j _ => t.f i j) (t := t')
          (body := fun j (d : Tab α r c) => do d.set i j (← t.get i j)) fun j d _ hj _ => by
            rw [Tab.get_ok hi hj, ok_bind, Tab.set_ok hi hj]
        exact ⟨t'', e, fun j hj hj' => h1 j hj hj', h2⟩
    refine ⟨t', e, fun i j => ?_⟩
    unfold Jag.get
    by_cases c : i < r ∧ j < c
    · rw [if_pos c, if_pos c, h1 i j (Nat.zero_le _) c.1 (Nat.zero_le _) c.2]
    · rw [if_neg c, if_neg c]
  obtain ⟨t', e, ht⟩ := this
  refine ⟨t', ?_, ht⟩
  rw [← e]
  exact Reads.forS fun i d => Reads.forS fun j d => Reads.bind (Reads.get H i j) fun _ => Reads.lift _ _

theorem Hess.h_congr {t t' : Tab α r c} (ht : ∀ i j, t'.get i j = t.get i j) (o : Row α r) :
    (⟨t', o⟩ : Hess α r c).h = (⟨t, o⟩ : Hess α r c).h := by
  have : (⟨t', o⟩ : Hess α r c).hRow = (⟨t, o⟩ : Hess α r c).hRow := by
    funext i d
    simp only [Hess.hRow, ht]
  unfold Hess.h
  rw [this]

theorem Hess.p_congr {t t' : Tab α r c} (ht : ∀ i j, t'.get i j = t.get i j) (o : Row α r) :
    (⟨t', o⟩ : Hess α r c).p = (⟨t, o⟩ : Hess α r c).p := by
  have h1 : (⟨t', o⟩ : Hess α r c).pCol = (⟨t, o⟩ : Hess α r c).pCol := by
    funext m o j p
    simp only [Hess.pCol, ht]
  have h2 : (⟨t', o⟩ : Hess α r c).pStep = (⟨t, o⟩ : Hess α r c).pStep := by
    funext m x
    simp only [Hess.pStep, ht, h1]
  unfold Hess.p
  rw [h2]

theorem Tri.q_congr {t t' : Tab α r c} (ht : ∀ i j, t'.get i j = t.get i j) (m : Row α r) (s : Row α (r - 1)) :
    (⟨t', m, s⟩ : Tri α r c).q = (⟨t, m, s⟩ : Tri α r c).q := by
  have h1 : (⟨t', m, s⟩ : Tri α r c).qtRow = (⟨t, m, s⟩ : Tri α r c).qtRow := by
    funext k x j q
    simp only [Tri.qtRow, ht]
  have h2 : (⟨t', m, s⟩ : Tri α r c).qtStep = (⟨t, m, s⟩ : Tri α r c).qtStep := by
    funext k q
    simp only [Tri.qtStep, ht, h1]
  unfold Tri.q Tri.qT
  rw [h2]

end Linear
