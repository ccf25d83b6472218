import Verif.Model.HeapDec
import Verif.Lemmas.HeapRun

/-!
# The decompositions on the heap run as their value models
-/

set_option linter.unusedSectionVars false

namespace Linear

open HM Heap

variable {α β γ σ : Type}

/-- A heap computation that only reads, and its outcome. -/
def Reads (x : HM α β) (h : Heap α) (y : Res β) : Prop := x h = (y, h)

theorem Reads.bind {x : HM α β} {k : β → HM α γ} {h : Heap α} {y : Res β} {z : β → Res γ} (hx : Reads x h y)
    (hk : ∀ b, Reads (k b) h (z b)) : Reads (x >>= k) h (y >>= z) := by
  unfold Reads at hx ⊢
  cases y with
  | error e => exact HM.bind_error hx
  | ok b =>
    rw [HM.bind_ok hx]
    exact hk b

theorem Reads.ret (b : β) (h : Heap α) : Reads (pure b) h (.ok b) := rfl

theorem Reads.lift (y : Res β) (h : Heap α) : Reads (HM.lift y) h y := rfl

theorem Reads.ite {p : Prop} [Decidable p] {x x' : HM α β} {h : Heap α} {y y' : Res β} (hx : Reads x h y)
    (hx' : Reads x' h y') : Reads (if p then x else x') h (if p then y else y') := by
  by_cases e : p
  · rw [if_pos e, if_pos e]; exact hx
  · rw [if_neg e, if_neg e]; exact hx'

theorem Reads.forS [Flt α] {body : Nat → σ → HM α σ} {z : Nat → σ → Res σ} {a b : Nat} {s : σ} {h : Heap α}
    (hb : ∀ i s, Reads (body i s) h (z i s)) : Reads (forS a b body s) h (forUp a b z s) :=
  forS_reads fun i s _ _ => hb i s

theorem forDownS_self {a b : Nat} (hab : a ≤ b) (body : Nat → σ → HM α σ) (s : σ) : forDownS a b body s = pure s := by
  unfold forDownS
  rw [Nat.sub_eq_zero_of_le hab]
  rfl

theorem forDownS_step {a b : Nat} (hab : b ≤ a) (body : Nat → σ → HM α σ) (s : σ) :
    forDownS (a + 1) b body s = (body a s >>= fun s => forDownS a b body s) := by
  have h1 : a + 1 - b = (a - b) + 1 := by omega
  have : b + (a - b) = a := by omega
  unfold forDownS
  rw [h1, List.range'_1_concat, this, List.reverse_append]
  rfl

theorem Reads.forDownS {body : Nat → σ → HM α σ} {z : Nat → σ → Res σ} {a b : Nat} {s : σ} {h : Heap α}
    (hb : ∀ i s, Reads (body i s) h (z i s)) : Reads (forDownS a b body s) h (forDown a b z s) := by
  induction a generalizing s with
  | zero => rw [forDownS_self (by omega), forDown_eq_self (by omega)]; exact Reads.ret s h
  | succ a ih =>
    by_cases hab : b ≤ a
    · rw [forDownS_step hab, forDown_step hab]
      exact Reads.bind (hb a s) fun s => ih
    · rw [forDownS_self (by omega), forDown_eq_self (by omega)]; exact Reads.ret s h

section
variable {S T : Type} {R : Heap α → T → Prop} {F : Nat → Nat → Prop} {h : Heap α}

theorem RunAt.reads {p : S → T} {q : S → γ} {x : HM α β} {y : Res β} {k : β → HM α γ} {z : β → Res S}
    (hx : Reads x h y) (hk : ∀ b, y = .ok b → RunAt R F p q (k b) h (z b)) : RunAt R F p q (x >>= k) h (y >>= z) :=
  RunAt.read hx hk

theorem RunAt.fail {p : S → T} {q : S → β} (e : Fault) : RunAt R F p q (HM.lift (.error e)) h (.error e) :=
  ⟨h, rfl, Frame.refl _ _⟩

theorem RunAt.lift' {p : S → T} {q : S → γ} {y : Res β} {k : β → HM α γ} {z : β → Res S}
    (hk : ∀ b, y = .ok b → RunAt R F p q (k b) h (z b)) : RunAt R F p q (HM.lift y >>= k) h (y >>= z) :=
  RunAt.read rfl hk

theorem RunAt.forDownS {p : S → T} {q : S → β} {body : Nat → β → HM α β} {z : Nat → S → Res S} {a b : Nat} {s : S}
    (hR : R h (p s)) (hb : ∀ i s h, R h (p s) → RunAt R F p q (body i (q s)) h (z i s)) :
    RunAt R F p q (forDownS a b body (q s)) h (forDown a b z s) := by
  induction a generalizing h s with
  | zero => rw [forDownS_self (by omega), forDown_eq_self (by omega)]; exact RunAt.ret rfl hR
  | succ a ih =>
    by_cases hab : b ≤ a
    · rw [forDownS_step hab, forDown_step hab]
      exact RunAt.bind (hb a s h hR) fun s' h' hR' => ih hR'
    · rw [forDownS_self (by omega), forDown_eq_self (by omega)]; exact RunAt.ret rfl hR

end

variable [Flt α] {r c m n : Nat} {v : Sl} {rows : Nat → Sl} {h : Heap α} {t : Tab α r c}

theorem Reads.get (H : IsJag v rows h t) (i j : Nat) : Reads (Heap.get v i j) h (t.get i j) := get_run H i j

theorem Reads.sumUp {f : Nat → HM α α} {g : Nat → Res α} {a b : Nat} {s : α} (hf : ∀ i, Reads (f i) h (g i)) :
    Reads (HM.sumUp a b f s) h (Linear.sumUp a b g s) :=
  Reads.forS fun i _ => Reads.bind (hf i) fun _ => Reads.ret _ _

theorem Reads.subUp {f : Nat → HM α α} {g : Nat → Res α} {a b : Nat} {s : α} (hf : ∀ i, Reads (f i) h (g i)) :
    Reads (HM.subUp a b f s) h (Linear.subUp a b g s) :=
  Reads.forS fun i _ => Reads.bind (hf i) fun _ => Reads.ret _ _

theorem Reads.sumDown {f : Nat → HM α α} {g : Nat → Res α} {a b : Nat} {s : α} (hf : ∀ i, Reads (f i) h (g i)) :
    Reads (HM.sumDown a b f s) h (Linear.sumDown a b g s) :=
  Reads.forDownS fun i _ => Reads.bind (hf i) fun _ => Reads.ret _ _

/-- The product of two entries. -/
theorem Reads.prod (H : IsJag v rows h t) (i j i' j' : Nat) : Reads (do
      let x ← Heap.get v i j
      let y ← Heap.get v i' j'
      pure (Flt.mul x y)) h (do return Flt.mul (← t.get i j) (← t.get i' j')) :=
  Reads.bind (Reads.get H i j) fun _ => Reads.bind (Reads.get H i' j') fun _ => Reads.ret _ _

theorem Reads.square (H : IsJag v rows h t) (i j : Nat) : Reads (do
      let x ← Heap.get v i j
      pure (Flt.mul x x)) h (do
      let x ← t.get i j
      return Flt.mul x x) :=
  Reads.bind (Reads.get H i j) fun _ => Reads.ret _ _

/-! ## Cholesky -/

theorem cholCheck_run (rel : α) (H : IsJag v rows h t) :
    RunAt (IsJag v rows) (matCells rows r c) id (fun _ => ()) (cholCheck rel v r) h (Chol.check rel t) := by
  unfold cholCheck Chol.check
  refine RunAt.for' (p := id) H fun i t h _ _ H => ?_
  refine RunAt.for' (p := id) H fun j t h _ _ H => ?_
  refine RunAt.reads (Reads.get H i j) fun x _ => ?_
  refine RunAt.reads (Reads.get H j i) fun y _ => ?_
  dsimp only
  by_cases e : Flt.lt (Flt.mul rel (Flt.fmax (Flt.abs x) (Flt.abs y))) (Flt.abs (Flt.sub x y)) = true
  · rw [if_pos e, if_pos e]
    exact RunAt.fail _
  · rw [if_neg e, if_neg e]
    exact RunAt.put H j i _

theorem cholRow_run (i : Nat) (x : α) (H : IsJag v rows h t) :
    RunAt (IsJag v rows) (matCells rows r c) id (fun _ => ()) (cholRow v r i x) h
      (forDown r (i + 1) (fun q (t : Tab α r c) => do
        let t ← t.set i q (Flt.mul (← t.get i q) x)
        forUp q r (fun p (t : Tab α r c) => do
          t.set q p (Flt.sub (← t.get q p) (Flt.mul (← t.get i q) (← t.get i p)))) t) t) := by
  unfold cholRow
  refine RunAt.forDownS (p := id) (q := fun _ => ()) H fun q t h H => ?_
  refine RunAt.reads (Reads.get H i q) fun y _ => ?_
  refine RunAt.bind (RunAt.put H i q _) fun t h H => ?_
  refine RunAt.for' (p := id) H fun p t h _ _ H => ?_
  refine RunAt.reads (Reads.get H q p) fun _ _ => ?_
  refine RunAt.reads (Reads.get H i q) fun _ _ => ?_
  refine RunAt.reads (Reads.get H i p) fun _ _ => ?_
  exact RunAt.put H q p _

theorem cholStep_run (pos : α) (i : Nat) (H : IsJag v rows h t) :
    RunAt (IsJag v rows) (matCells rows r c) id (fun _ => ()) (cholStep pos v r i) h (Chol.step pos i t) := by
  unfold cholStep Chol.step
  refine RunAt.reads (Reads.get H i i) fun d _ => ?_
  by_cases e : Flt.le d pos = true
  · rw [if_pos e, if_pos e]
    exact RunAt.fail _
  · rw [if_neg e, if_neg e]
    refine RunAt.reads (Reads.get H i i) fun d _ => ?_
    refine RunAt.bind (RunAt.put H i i _) fun t h H => ?_
    refine RunAt.reads (Reads.get H i i) fun d _ => ?_
    exact cholRow_run i _ H

theorem cholWork_run (rel pos : α) (H : IsJag v rows h t) :
    RunAt (IsJag v rows) (matCells rows r c) id (fun _ => ()) (cholWork rel pos v r) h
      (Chol.check rel t >>= fun t => forUp 0 r (Chol.step pos) t) := by
  unfold cholWork
  refine RunAt.bind (cholCheck_run rel H) fun t h H => ?_
  exact RunAt.for' (p := id) H fun i t h _ _ H => cholStep_run pos i H

/-! ## QR -/

section
variable {t : Tab α n m}

theorem qrNorm_run (minor : Nat) (H : IsJag v rows h t) : Reads (qrNorm v m minor) h (QR.norm minor t) := by
  unfold qrNorm QR.norm
  refine Reads.bind (Reads.sumUp fun i => Reads.square H minor i) fun x => ?_
  exact Reads.bind (Reads.get H minor minor) fun d => Reads.ite (Reads.ret _ _) (Reads.ret _ _)

theorem qrColumn_run (minor : Nat) (a : α) (col : Nat) (H : IsJag v rows h t) :
    RunAt (IsJag v rows) (matCells rows n m) id (fun _ => ()) (qrColumn v m minor a col) h (QR.column minor a col t) := by
  unfold qrColumn QR.column
  refine RunAt.reads (Reads.subUp fun i => Reads.prod H col i minor i) fun x _ => ?_
  refine RunAt.reads (Reads.get H minor minor) fun d _ => ?_
  refine RunAt.for' (p := id) H fun i t h _ _ H => ?_
  refine RunAt.reads (Reads.get H col i) fun _ _ => ?_
  refine RunAt.reads (Reads.get H minor i) fun _ _ => ?_
  exact RunAt.put H col i _

theorem qrReflect_run {p : Nat} (minor : Nat) (s : QR α m n p) (H : IsJag v rows h s.qrt) :
    RunAt (IsJag v rows) (matCells rows n m) QR.qrt QR.rDiag (qrReflect v m n minor s.rDiag) h (QR.reflect minor s) := by
  unfold qrReflect QR.reflect
  refine RunAt.reads (qrNorm_run minor H) fun a _ => ?_
  refine RunAt.lift' fun d _ => ?_
  by_cases e : (!Flt.eq a Flt.zero) = true
  · rw [if_pos e, if_pos e]
    refine RunAt.reads (Reads.get H minor minor) fun x _ => ?_
    refine RunAt.bind (RunAt.put H minor minor _) fun t h H => ?_
    refine RunAt.bind (RunAt.for' (p := id) H fun i t h _ _ H => qrColumn_run minor a i H) fun t h H => ?_
    exact RunAt.ret rfl H
  · rw [if_neg e, if_neg e]
    exact RunAt.ret rfl H

theorem qrWork_run (H : IsJag v rows h t) :
    RunAt (IsJag v rows) (matCells rows n m) QR.qrt QR.rDiag (qrWork v m n) h
      (do
        if n = 0 then throw .rt
        forUp 0 (min n m) QR.reflect (⟨t, Row.zero _⟩ : QR α m n (min m n))) := by
  unfold qrWork
  by_cases e : n = 0
  · rw [if_pos e, if_pos e]
    exact RunAt.fail _
  · rw [if_neg e, if_neg e]
    exact RunAt.forS (p := QR.qrt) (q := QR.rDiag) (s := (⟨t, Row.zero _⟩ : QR α m n (min m n))) H
      fun i s h _ _ H => qrReflect_run i s H

end

/-! ## Tridiagonal form -/

theorem triNorm_run (k : Nat) (H : IsJag v rows h t) : Reads (triNorm v r k) h (Tri.norm k t) := by
  unfold triNorm Tri.norm
  refine Reads.bind (Reads.sumUp fun i => Reads.square H k i) fun x => ?_
  exact Reads.bind (Reads.get H k (k + 1)) fun d => Reads.ite (Reads.ret _ _) (Reads.ret _ _)

theorem triZRow_run (k : Nat) (beta : α) (i : Nat) (z : Row α r) (H : IsJag v rows h t) :
    Reads (triZRow v k beta i z) h (Tri.zRow k beta t i z) := by
  unfold triZRow Tri.zRow
  refine Reads.bind (Reads.get H k i) fun x => ?_
  refine Reads.bind (Reads.get H i i) fun d => ?_
  refine Reads.bind (Reads.forS fun j s => ?_) fun s => ?_
  · refine Reads.bind (Reads.get H i j) fun _ => ?_
    refine Reads.bind (Reads.get H k j) fun _ => ?_
    exact Reads.bind (Reads.lift _ _) fun _ => Reads.bind (Reads.lift _ _) fun _ => Reads.ret _ _
  · exact Reads.bind (Reads.lift _ _) fun _ => Reads.lift _ _

theorem triZ_run (k : Nat) (beta : α) (z : Row α r) (H : IsJag v rows h t) :
    Reads (triZ v k beta z) h (Tri.z k beta t z) := by
  unfold triZ Tri.z
  refine Reads.bind (Reads.lift _ _) fun z => ?_
  refine Reads.bind (Reads.forS fun i z => triZRow_run k beta i z H) fun z => ?_
  refine Reads.bind (Reads.sumUp fun i => Reads.bind (Reads.lift _ _) fun _ =>
    Reads.bind (Reads.get H k i) fun _ => Reads.ret _ _) fun g => ?_
  exact Reads.forS fun i z => Reads.bind (Reads.lift _ _) fun _ => Reads.bind (Reads.get H k i) fun _ => Reads.lift _ _

theorem triUpdate_run (k : Nat) (z : Row α r) (H : IsJag v rows h t) :
    RunAt (IsJag v rows) (matCells rows r c) id (fun _ => ()) (triUpdate v k z) h (Tri.update k z t) := by
  unfold triUpdate Tri.update
  refine RunAt.for' (p := id) H fun i t h _ _ H => ?_
  refine RunAt.for' (p := id) H fun j t h _ _ H => ?_
  refine RunAt.reads (Reads.get H i j) fun _ _ => ?_
  refine RunAt.reads (Reads.get H k i) fun _ _ => ?_
  refine RunAt.lift' fun _ _ => ?_
  refine RunAt.lift' fun _ _ => ?_
  refine RunAt.reads (Reads.get H k j) fun _ _ => ?_
  exact RunAt.put H i j _

/-- The part of the state that is not on the heap. -/
def Tri.rest (s : Tri α r c × Row α r) : TriRest α r := ⟨s.1.main, s.1.sec, s.2⟩

theorem triStep_run (k : Nat) (s : Tri α r c × Row α r) (H : IsJag v rows h s.1.hv) :
    RunAt (IsJag v rows) (matCells rows r c) (fun s => s.1.hv) Tri.rest (triStep v k (Tri.rest s)) h (Tri.step k s) := by
  unfold triStep Tri.step
  refine RunAt.reads (Reads.get H k k) fun d _ => ?_
  refine RunAt.lift' fun main _ => ?_
  refine RunAt.reads (triNorm_run k H) fun a _ => ?_
  refine RunAt.lift' fun sec _ => ?_
  by_cases e : (!Flt.eq a Flt.zero) = true
  · rw [if_pos e, if_pos e]
    refine RunAt.reads (Reads.get H k (k + 1)) fun x _ => ?_
    refine RunAt.bind (RunAt.put H k (k + 1) _) fun t h H => ?_
    refine RunAt.reads (Reads.get H k (k + 1)) fun y _ => ?_
    refine RunAt.reads (triZ_run k _ s.2 H) fun z _ => ?_
    refine RunAt.bind (triUpdate_run k z H) fun t h H => ?_
    exact RunAt.ret rfl H
  · rw [if_neg e, if_neg e]
    exact RunAt.ret rfl H

theorem triWork_run (H : IsJag v rows h t) :
    RunAt (IsJag v rows) (matCells rows r c) (fun s => s.1.hv) Tri.rest (triWork v r) h (do
      if r = 0 then throw .rt
      let s ← forUp 0 (r - 1) Tri.step ((⟨t, Row.zero r, Row.zero (r - 1)⟩ : Tri α r c), Row.zero r)
      let main ← s.1.main.set (r - 1) (← s.1.hv.get (r - 1) (r - 1))
      return ({ s.1 with main := main }, s.2)) := by
  unfold triWork
  by_cases e : r = 0
  · rw [if_pos e, if_pos e]
    exact RunAt.fail _
  · rw [if_neg e, if_neg e]
    refine RunAt.bind (RunAt.forS (p := fun s => s.1.hv) (q := Tri.rest)
      (s := ((⟨t, Row.zero r, Row.zero (r - 1)⟩ : Tri α r c), Row.zero r)) H fun i s h _ _ H => triStep_run i s H)
      fun s h H => ?_
    refine RunAt.reads (Reads.get H (r - 1) (r - 1)) fun d _ => ?_
    refine RunAt.lift' fun main _ => ?_
    exact RunAt.ret rfl H

/-! ## Hessenberg form -/

theorem hessColumn_run (k : Nat) (scale : α) (ort : Row α r) (H : IsJag v rows h t) :
    Reads (hessColumn v k scale ort) h (Hess.column k scale t ort) := by
  unfold hessColumn Hess.column
  refine Reads.forDownS fun i s => ?_
  refine Reads.bind (Reads.get H i (k - 1)) fun _ => ?_
  refine Reads.bind (Reads.lift _ _) fun _ => ?_
  exact Reads.bind (Reads.lift _ _) fun _ => Reads.bind (Reads.lift _ _) fun _ => Reads.ret _ _

theorem hessLeft_run (k : Nat) (x : α) (ort : Row α r) (j : Nat) (H : IsJag v rows h t) :
    RunAt (IsJag v rows) (matCells rows r c) id (fun _ => ()) (hessLeft v k x ort j) h (Hess.leftCol k x ort j t) := by
  unfold hessLeft Hess.leftCol
  refine RunAt.reads (Reads.sumDown fun i => Reads.bind (Reads.lift _ _) fun _ =>
    Reads.bind (Reads.get H i j) fun _ => Reads.ret _ _) fun f _ => ?_
  refine RunAt.for' (p := id) H fun i t h _ _ H => ?_
  refine RunAt.reads (Reads.get H i j) fun _ _ => ?_
  refine RunAt.lift' fun _ _ => ?_
  exact RunAt.put H i j _

theorem hessRight_run (k : Nat) (x : α) (ort : Row α r) (i : Nat) (H : IsJag v rows h t) :
    RunAt (IsJag v rows) (matCells rows r c) id (fun _ => ()) (hessRight v k x ort i) h (Hess.rightRow k x ort i t) := by
  unfold hessRight Hess.rightRow
  refine RunAt.reads (Reads.sumDown fun j => Reads.bind (Reads.lift _ _) fun _ =>
    Reads.bind (Reads.get H i j) fun _ => Reads.ret _ _) fun f _ => ?_
  refine RunAt.for' (p := id) H fun j t h _ _ H => ?_
  refine RunAt.reads (Reads.get H i j) fun _ _ => ?_
  refine RunAt.lift' fun _ _ => ?_
  exact RunAt.put H i j _

theorem hessReflect_run (k : Nat) (scale g x : α) (ort : Row α r) (H : IsJag v rows h t) :
    RunAt (IsJag v rows) (matCells rows r c) Hess.hv Hess.ort (hessReflect v k scale g x ort) h
      (Hess.reflect k scale g x ort t) := by
  unfold hessReflect Hess.reflect
  refine RunAt.bind (RunAt.for' (p := id) H fun i t h _ _ H => hessLeft_run k x ort i H) fun t h H => ?_
  refine RunAt.bind (RunAt.for' (p := id) H fun i t h _ _ H => hessRight_run k x ort i H) fun t h H => ?_
  refine RunAt.lift' fun _ _ => ?_
  refine RunAt.lift' fun _ _ => ?_
  refine RunAt.bind (RunAt.put H k (k - 1) _) fun t h H => ?_
  exact RunAt.ret rfl H

theorem hessStep_run (k : Nat) (s : Hess α r c) (H : IsJag v rows h s.hv) :
    RunAt (IsJag v rows) (matCells rows r c) Hess.hv Hess.ort (hessStep v k s.ort) h (Hess.step k s) := by
  unfold hessStep Hess.step
  refine RunAt.reads (Reads.sumUp fun i => Reads.bind (Reads.get H i (k - 1)) fun _ => Reads.ret _ _) fun scale _ => ?_
  by_cases e : (!Flt.ulpEq scale Flt.zero) = true
  · rw [if_pos e, if_pos e]
    refine RunAt.reads (hessColumn_run k scale s.ort H) fun ho _ => ?_
    refine RunAt.lift' fun x0 _ => ?_
    unfold hessApply Hess.apply
    refine RunAt.lift' fun _ _ => ?_
    refine RunAt.lift' fun _ _ => ?_
    exact hessReflect_run k scale _ _ _ H
  · rw [if_neg e, if_neg e]
    exact RunAt.ret rfl H

theorem hessWork_run (H : IsJag v rows h t) :
    RunAt (IsJag v rows) (matCells rows r c) Hess.hv Hess.ort (hessWork v r) h
      (forUp 1 (r - 1) Hess.step (⟨t, Row.zero r⟩ : Hess α r c)) :=
  RunAt.forS (p := Hess.hv) (q := Hess.ort) (s := (⟨t, Row.zero r⟩ : Hess α r c)) H fun i s _ _ _ H => hessStep_run i s H

/-! ## Bidiagonal form -/

section
variable {t : Tab α m n}

theorem biColApply_run (i0 k : Nat) (a : α) (j : Nat) (H : IsJag v rows h t) :
    RunAt (IsJag v rows) (matCells rows m n) id (fun _ => ()) (biColApply v m i0 k a j) h (Bi.colApply i0 k a j t) := by
  unfold biColApply Bi.colApply
  refine RunAt.reads (Reads.subUp fun i => Reads.prod H i j i k) fun x _ => ?_
  refine RunAt.reads (Reads.get H i0 k) fun d _ => ?_
  refine RunAt.for' (p := id) H fun i t h _ _ H => ?_
  refine RunAt.reads (Reads.get H i j) fun _ _ => ?_
  refine RunAt.reads (Reads.get H i k) fun _ _ => ?_
  exact RunAt.put H i j _

theorem biRowApply_run (k j0 : Nat) (a : α) (i : Nat) (H : IsJag v rows h t) :
    RunAt (IsJag v rows) (matCells rows m n) id (fun _ => ()) (biRowApply v n k j0 a i) h (Bi.rowApply k j0 a i t) := by
  unfold biRowApply Bi.rowApply
  refine RunAt.reads (Reads.subUp fun j => Reads.prod H i j k j) fun x _ => ?_
  refine RunAt.reads (Reads.get H k j0) fun d _ => ?_
  refine RunAt.for' (p := id) H fun j t h _ _ H => ?_
  refine RunAt.reads (Reads.get H i j) fun _ _ => ?_
  refine RunAt.reads (Reads.get H k j) fun _ _ => ?_
  exact RunAt.put H i j _

theorem biColPass_run (i0 k : Nat) (H : IsJag v rows h t) :
    RunAt (IsJag v rows) (matCells rows m n) Prod.snd Prod.fst (biColPass v m n i0 k) h (Bi.colPass i0 k t) := by
  unfold biColPass Bi.colPass Bi.colRefl
  refine RunAt.reads (Reads.sumUp fun i => Reads.square H i k) fun sqr _ => ?_
  refine RunAt.reads (Reads.get H i0 k) fun x0 _ => ?_
  by_cases e : (!Flt.eq (Bi.sign x0 sqr) Flt.zero) = true
  · rw [if_pos e, if_pos e]
    refine RunAt.reads (Reads.get H i0 k) fun x _ => ?_
    refine RunAt.bind (RunAt.put H i0 k _) fun t h H => ?_
    refine RunAt.bind (RunAt.for' (p := id) H fun i t h _ _ H => biColApply_run i0 k _ i H) fun t h H => ?_
    exact RunAt.ret rfl H
  · rw [if_neg e, if_neg e]
    exact RunAt.ret rfl H

theorem biRowPass_run (k j0 : Nat) (H : IsJag v rows h t) :
    RunAt (IsJag v rows) (matCells rows m n) Prod.snd Prod.fst (biRowPass v m n k j0) h (Bi.rowPass k j0 t) := by
  unfold biRowPass Bi.rowPass Bi.rowRefl
  refine RunAt.reads (Reads.sumUp fun i => Reads.square H k i) fun sqr _ => ?_
  refine RunAt.reads (Reads.get H k j0) fun x0 _ => ?_
  by_cases e : (!Flt.eq (Bi.sign x0 sqr) Flt.zero) = true
  · rw [if_pos e, if_pos e]
    refine RunAt.reads (Reads.get H k j0) fun x _ => ?_
    refine RunAt.bind (RunAt.put H k j0 _) fun t h H => ?_
    refine RunAt.bind (RunAt.for' (p := id) H fun i t h _ _ H => biRowApply_run k j0 _ i H) fun t h H => ?_
    exact RunAt.ret rfl H
  · rw [if_neg e, if_neg e]
    exact RunAt.ret rfl H

/-- The part of the decomposition that is not on the heap. -/
def Bi.rest (s : Bi α m n) : BiRest α m n := ⟨s.main, s.sec⟩

theorem biUpStep_run (k : Nat) (s : Bi α m n) (H : IsJag v rows h s.hv) :
    RunAt (IsJag v rows) (matCells rows m n) Bi.hv Bi.rest (biUpStep v k s.rest) h (Bi.upStep k s) := by
  unfold biUpStep Bi.upStep
  refine RunAt.bind (biColPass_run k k H) fun x h H => ?_
  refine RunAt.lift' fun main _ => ?_
  by_cases e : k + 1 < n
  · rw [if_pos e, if_pos e]
    refine RunAt.bind (biRowPass_run k (k + 1) H) fun y h H => ?_
    refine RunAt.lift' fun sec _ => ?_
    exact RunAt.ret rfl H
  · rw [if_neg e, if_neg e]
    exact RunAt.ret rfl H

theorem biLowStep_run (k : Nat) (s : Bi α m n) (H : IsJag v rows h s.hv) :
    RunAt (IsJag v rows) (matCells rows m n) Bi.hv Bi.rest (biLowStep v k s.rest) h (Bi.lowStep k s) := by
  unfold biLowStep Bi.lowStep
  refine RunAt.bind (biRowPass_run k k H) fun x h H => ?_
  refine RunAt.lift' fun main _ => ?_
  by_cases e : k + 1 < m
  · rw [if_pos e, if_pos e]
    refine RunAt.bind (biColPass_run (k + 1) k H) fun y h H => ?_
    refine RunAt.lift' fun sec _ => ?_
    exact RunAt.ret rfl H
  · rw [if_neg e, if_neg e]
    exact RunAt.ret rfl H

theorem biWork_run (H : IsJag v rows h t) :
    RunAt (IsJag v rows) (matCells rows m n) Bi.hv Bi.rest (biWork v m n) h (do
      if min m n = 0 then throw .rt
      if n ≤ m then forUp 0 n Bi.upStep (⟨t, Row.zero _, Row.zero _⟩ : Bi α m n)
      else forUp 0 m Bi.lowStep ⟨t, Row.zero _, Row.zero _⟩) := by
  unfold biWork
  by_cases e : min m n = 0
  · rw [if_pos e, if_pos e]
    exact RunAt.fail _
  · rw [if_neg e, if_neg e]
    show RunAt _ _ _ _ _ _ (if n ≤ m then _ else _)
    by_cases e : n ≤ m
    · rw [if_pos e, if_pos e]
      exact RunAt.forS (p := Bi.hv) (q := Bi.rest) (s := (⟨t, Row.zero _, Row.zero _⟩ : Bi α m n)) H
        fun i s h _ _ H => biUpStep_run i s H
    · rw [if_neg e, if_neg e]
      exact RunAt.forS (p := Bi.hv) (q := Bi.rest) (s := (⟨t, Row.zero _, Row.zero _⟩ : Bi α m n)) H
        fun i s h _ _ H => biLowStep_run i s H

end

/-! ## Rectangular Cholesky -/

section
variable {r c : Nat} {t : Tab α r c}

/-- The part of the state that is not on the heap. -/
def RChol.other (s : RChol α r c) : RcRest α r := ⟨s.b, s.index⟩

theorem rcBest_run (k : Nat) (s : RChol α r c) (H : IsJag v rows h s.c) :
    Reads (rcBest v k s.other) h (RChol.best k s) := by
  unfold rcBest RChol.best
  refine Reads.forS fun i q => ?_
  refine Reads.bind (Reads.lift _ _) fun _ => ?_
  refine Reads.bind (Reads.lift _ _) fun _ => ?_
  refine Reads.bind (Reads.get H _ _) fun _ => ?_
  exact Reads.bind (Reads.get H _ _) fun _ => Reads.ret _ _

theorem rcSwap_run (k q : Nat) (s : RChol α r c) (H : IsJag v rows h s.c) :
    RunAt (IsJag v rows) (matCells rows r c) RChol.c RChol.other (rcSwap k q s.other) h (RChol.swap k q s) := by
  unfold rcSwap RChol.swap
  by_cases e : q ≠ k
  · rw [if_pos e, if_pos e]
    refine RunAt.lift' fun _ _ => ?_
    refine RunAt.lift' fun _ _ => ?_
    refine RunAt.lift' fun _ _ => ?_
    refine RunAt.lift' fun _ _ => ?_
    exact RunAt.ret rfl H
  · rw [if_neg e, if_neg e]
    exact RunAt.ret rfl H

theorem rcRest_run (small : α) (k : Nat) (s : RChol α r c) (H : IsJag v rows h s.c) :
    Reads (rcRest small v k s.other) h (RChol.rest small k s) := by
  unfold rcRest RChol.rest
  refine Reads.forS fun i _ => ?_
  refine Reads.bind (Reads.lift _ _) fun _ => ?_
  refine Reads.bind (Reads.get H _ _) fun _ => ?_
  exact Reads.ite (Reads.lift _ _) (Reads.ret _ _)

theorem rcTransform_run (k : Nat) (s : RChol α r c) (H : IsJag v rows h s.c) :
    RunAt (IsJag v rows) (matCells rows r c) RChol.c RChol.other (rcTransform v k s.other) h (RChol.transform k s) := by
  unfold rcTransform RChol.transform
  refine RunAt.lift' fun ir _ => ?_
  refine RunAt.reads (Reads.get H ir ir) fun d _ => ?_
  refine RunAt.lift' fun b _ => ?_
  refine RunAt.forS (p := RChol.c) (q := RChol.other) (s := { s with b := b }) H fun i s h _ _ H => ?_
  unfold rcRow
  refine RunAt.lift' fun ii _ => ?_
  refine RunAt.reads (Reads.get H ii ir) fun x _ => ?_
  refine RunAt.lift' fun b _ => ?_
  refine RunAt.reads (Reads.get H ii ir) fun y _ => ?_
  refine RunAt.reads (Reads.get H ii ii) fun z _ => ?_
  refine RunAt.bind (RunAt.put H ii ii _) fun t h H => ?_
  refine RunAt.forS (p := RChol.c) (q := RChol.other) (s := { s with b := b, c := t }) H fun j s h _ _ H => ?_
  refine RunAt.lift' fun ij _ => ?_
  refine RunAt.reads (Reads.get H ii ij) fun u _ => ?_
  refine RunAt.lift' fun w _ => ?_
  refine RunAt.bind (RunAt.put H ii ij _) fun t h H => ?_
  refine RunAt.bind (RunAt.put H ij ii _) fun t h H => ?_
  exact RunAt.ret rfl H

/-- What the loop leaves: the rank and the local variables. -/
def RChol.left (s : RChol α r c ⊕ Nat × RChol α r c) : RcRest α r ⊕ Nat × RcRest α r :=
  Sum.map RChol.other (fun x => (x.1, x.2.other)) s

theorem rcStep_run (small : α) (k : Nat) (s : RChol α r c) (H : IsJag v rows h s.c) :
    RunAt (IsJag v rows) (matCells rows r c) (Sum.elim RChol.c fun x => x.2.c) RChol.left
      (rcStep small v k s.other) h (RChol.step small k s) := by
  unfold rcStep RChol.step
  refine RunAt.reads (rcBest_run k s H) fun q _ => ?_
  refine RunAt.bind (rcSwap_run k q s H) fun s h H => ?_
  refine RunAt.lift' fun ir _ => ?_
  refine RunAt.reads (Reads.get H ir ir) fun d _ => ?_
  by_cases e : Flt.le d small = true
  · rw [if_pos e, if_pos e]
    by_cases e : k = 0
    · rw [if_pos e, if_pos e]
      exact RunAt.fail _
    · rw [if_neg e, if_neg e]
      refine RunAt.reads (rcRest_run small k s H) fun _ _ => ?_
      exact RunAt.ret rfl H
  · rw [if_neg e, if_neg e]
    refine RunAt.bind (rcTransform_run k s H) fun s h H => ?_
    exact RunAt.ret rfl H

theorem rcWork_run (small : α) (H : IsJag v rows h t) :
    RunAt (IsJag v rows) (matCells rows r c) (fun x => x.2.c) (fun x => (x.1, x.2.other)) (rcWork small v r) h (do
      let p ← forUp 0 r (fun row (p : Row Nat r) => p.set row row) ⟨fun _ => 0⟩
      if r = 0 then throw .rt
      match ← forUpBrk 0 r (RChol.step small) (⟨t, Jag.zero r r, p⟩ : RChol α r c) with
      | .inl s => return (r, s)
      | .inr x => return x) := by
  unfold rcWork
  refine RunAt.lift' fun p _ => ?_
  by_cases e : r = 0
  · rw [if_pos e, if_pos e]
    exact RunAt.fail _
  · rw [if_neg e, if_neg e]
    refine RunAt.bind (RunAt.forBrk (p := RChol.c) (q := RChol.other) (p' := fun x => x.2.c)
      (q' := fun x => (x.1, x.2.other)) (s := (⟨t, Jag.zero r r, p⟩ : RChol α r c)) (Nat.zero_le _) H
      fun i s h _ _ H => rcStep_run small i s H) fun s h H => ?_
    cases s with
    | inl s => exact RunAt.ret rfl H
    | inr s => exact RunAt.ret rfl H

end

end Linear
