import Verif.Model.HeapMat
import Verif.Lemmas.HeapDec
import Verif.Lemmas.QRLemmas
import Verif.Props.Alias

/-!
# The constructors of the decompositions on the heap
-/

set_option linter.unusedSectionVars false

namespace Linear

open HM Heap Spec

variable {α : Type} [Flt α] {r c n : Nat} {h : Heap α}

/-- The matrix `x` on the heap has the value `a`. -/
inductive Heap.IsMat (h : Heap α) : {r c : Nat} → HMat r c → Mat α r c → Prop
  | arr {r c : Nat} {m : Sl} {rows : Nat → Sl} {a : Arr α r c} (H : IsArr m rows h a) : IsMat h (.arr m) (.arr a)
  | blk {r c : Nat} {m : Sl} {rows : Nat → Sl} {b : Blk α r c} (H : IsBlk m rows h b) : IsMat h (.blk m) (.blk b)
  | dia {n : Nat} {v : Sl} {d : Dia α n} (H : IsDia v h d) : IsMat h (.dia v) (.dia d)

theorem Heap.IsMat.own {x : HMat r c} {a : Mat α r c} (H : IsMat h x a) : a.own := by
  cases H <;> exact trivial

theorem Heap.IsMat.survive {x : HMat r c} {a : Mat α r c} {h' : Heap α} (H : IsMat h x a) (o : h.Ok) (e : Old h.next h h') :
    IsMat h' x a := by
  cases H with
  | arr H => exact .arr ((Obj.arr _ _ _ _).survives H o e)
  | blk H => exact .blk ((Obj.blk _ _ _ _).survives H o e)
  | dia H => exact .dia ((Obj.dia _ _ H.1).survives H o e)

theorem Heap.IsMat.at {x : HMat r c} {a : Mat α r c} (H : IsMat h x a) :
    Shows (fun i j => (x.at' i j h).1) r c a.ent := by
  cases H with
  | arr H => exact (IsArr.reads H).1
  | blk H => exact IsBlk.reads H
  | dia H => exact IsDia.reads H

theorem Heap.IsMat.rows {x : HMat r c} {a : Mat α r c} (H : IsMat h x a) : x.rows = r := by
  cases H with
  | arr H => exact H.1.size
  | blk H => rfl
  | dia H => exact H.1

theorem Heap.IsMat.cols {x : HMat r c} {a : Mat α r c} (H : IsMat h x a) : x.cols h = (a.colDim, h) := by
  cases H with
  | arr H => exact cols_run H
  | blk H => rfl
  | dia H =>
    show (Except.ok _, h) = _
    rw [H.1]
    rfl

/-- The table `t`, made from nothing but new arrays. -/
def Gives (g : HM α Sl) (h : Heap α) (t : Tab α r c) : Prop :=
  ∃ h' d rows, g h = (.ok d, h') ∧ Old h.next h h' ∧ IsJag d rows h' t ∧ h.next ≤ d.id ∧
    ∀ a k, matCells rows r c a k → h.next ≤ a

theorem made_id {g : HM α Sl} {k : Sl → HM α Unit} {h h' : Heap α} {d : Sl} {b : Nat}
    (hg : ∀ d h', g h = (.ok d, h') → b ≤ d.id) (e : (g >>= fun out => k out >>= fun _ => pure out) h = (.ok d, h')) :
    b ≤ d.id := by
  rcases e1 : g h with ⟨x | x, h1⟩
  · rw [HM.bind_error e1] at e
    cases e
  · rw [HM.bind_ok e1] at e
    rcases e2 : k x h1 with ⟨y | y, h2⟩
    · rw [HM.bind_error e2] at e
      cases e
    · rw [HM.bind_ok e2] at e
      cases e
      exact hg _ _ e1

theorem makeH_id (n : Nat) (h : Heap α) : ∀ d h', makeH n h = (.ok d, h') → h.next ≤ d.id := fun d h' e => by
  cases e
  exact le_rfl

theorem makeJag_id (n : Nat) (len : Nat → Nat) (h : Heap α) :
    ∀ d h', makeJag n len h = (.ok d, h') → h.next ≤ d.id := fun _ _ e =>
  made_id (k := fun out => for' 0 n fun i => do
    let d ← make (len i)
    wrH out i d) (makeH_id n h) e

theorem Heap.IsMat.data {x : HMat r c} {a : Mat α r c} {t : Tab α r c} (o : h.Ok) (H : IsMat h x a) (hc : 0 < c)
    (et : a.dataCopy = .ok t) : Gives x.data h t := by
  obtain ⟨t', e, ht⟩ := Mat.dataCopy_ok H.own hc a.at_shows
  cases et.symm.trans e
  cases H with
  | arr H =>
    obtain ⟨h', d, rows, e1, e2, e3, e4⟩ := mData_run o H
    exact ⟨h', d, rows, e1, e2, IsJag.congr e3.1 fun i j hi hj => (ht i j hi hj).symm, made_id (makeH_id _ h) e1, e4⟩
  | blk H =>
    obtain ⟨h', d, rows, e1, e2, e3, e4⟩ := bData_run o H
    exact ⟨h', d, rows, e1, e2, IsJag.congr e3.1 fun i j hi hj => (ht i j hi hj).symm, made_id (makeJag_id _ _ h) e1, e4⟩
  | dia H =>
    obtain ⟨h', d, rows, e1, e2, e3, e4⟩ := dData_run o H
    exact ⟨h', d, rows, e1, e2, IsJag.congr e3.1 fun i j hi hj => (ht i j hi hj).symm, made_id (makeJag_id _ _ h) e1, e4⟩

theorem Old.next_step {h h1 h2 : Heap α} (x : Old h.next h h1) (y : Old h1.next h1 h2) : Old h.next h h2 :=
  ⟨x.next.trans y.next, fun a k ha => (y.cell a k (by have := x.next; omega)).trans (x.cell a k ha),
    fun a k ha => (y.head a k (by have := x.next; omega)).trans (x.head a k ha), y.ok⟩

theorem HM.for_pairs {P Q : Nat} {body : Nat → Nat → HM α Unit} (I : Nat → Nat → Heap α → Prop) (h0 : I 0 0 h)
    (hs : ∀ p q h, p < P → q < Q → I p q h → ∃ h', body p q h = (.ok (), h') ∧ I p (q + 1) h')
    (hw : ∀ p h, p < P → I p Q h → I (p + 1) 0 h) :
    ∃ h', for' 0 P (fun p => for' 0 Q (body p)) h = (.ok (), h') ∧ I P 0 h' :=
  HM.for_ok (fun p h => I p 0 h) (Nat.zero_le _) h0 fun p h _ hp hI => by
    obtain ⟨h', e1, e2⟩ := HM.for_ok (body := body p) (fun q h => I p q h) (Nat.zero_le _) hI
      fun q h _ hq hI => hs p q h hp hq hI
    exact ⟨h', e1, hw p h' hp e2⟩

theorem mTranspose_run {m : Sl} {rows : Nat → Sl} {a : Arr α r c} (o : h.Ok) (H : IsArr m rows h a) (hr : 0 < r) :
    ∃ h' d rows', mTranspose m h = (.ok d, h') ∧ Old h.next h h' ∧
      IsArr d rows' h' ({ data := ⟨fun i j => a.data.f j i⟩ } : Arr α c r) := by
  have hcol : mCols m h = (.ok c, h) := by
    rw [cols_run H]
    unfold Arr.colDim
    rw [if_neg (by omega)]
  obtain ⟨h1, e1, e2, e3, e4⟩ := makeJag_run c (fun _ => r) o
  obtain ⟨h2, f1, f2, t, f3, f4⟩ := HM.for_pairs (P := r) (Q := c) (h := h1)
    (body := fun i j => Heap.get m i j >>= fun x => Heap.put ⟨h.next, 0, c, c⟩ j i x)
    (fun i j h' => Old h.next h h' ∧ ∃ t : Tab α c r, IsJag ⟨h.next, 0, c, c⟩ (newRows h.next fun _ => r) h' t ∧
      ∀ p q, (p < i ∧ q < c ∨ p = i ∧ q < j) → t.f q p = a.data.f p q)
    ⟨e3, _, e4, fun p q hp => absurd hp (by omega)⟩
    (fun i j h' hi hj ⟨q1, t, q2, q3⟩ => by
      obtain ⟨h3, g1, g2, g3⟩ := put_run q2 hj hi (a.data.f i j)
      refine ⟨h3, ?_, q1.trans (g3.old q1.ok fun a k hF => newCells_above hF), _, g2, fun p q hq => ?_⟩
      · rw [HM.bind_ok (b := a.data.f i j) (h' := h') (by
          rw [get_run (IsJag.survive H.1 o q1), Jag.get_ok hi hj]), g1]
      · dsimp only
        unfold upd2
        by_cases e : q = j ∧ p = i
        · rw [if_pos e, e.1, e.2]
        · rw [if_neg e]
          exact q3 p q (by omega))
    (fun i h' hi ⟨q1, t, q2, q3⟩ => ⟨q1, t, q2, fun p q hq => q3 p q (by omega)⟩)
  refine ⟨h2, _, _, ?_, f2, ⟨IsJag.congr f3 fun i j hi hj => f4 j i (by omega), fun i _ => rfl⟩⟩
  unfold mTranspose
  rw [HM.bind_ok hcol, H.1.size, HM.bind_ok e1, HM.bind_ok f1]
  rfl

theorem bTranspose_run {m : Sl} {rows : Nat → Sl} {b : Blk α r c} (o : h.Ok) (H : IsBlk m rows h b) :
    ∃ h' d rows', ∃ b' : Blk α c r, bTranspose r c m h = (.ok d, h') ∧ Old h.next h h' ∧ IsBlk d rows' h' b' ∧
      ∀ p q, p < c → q < r → b'.ent p q = b.ent q p := by
  obtain ⟨h1, e1, e2, e3, e4⟩ := makeJag_run (nBlocks c * nBlocks r) (blkLen c r) o
  obtain ⟨h2, f1, f2, t, f3, f4⟩ := HM.for_pairs (P := c) (Q := r) (h := h1)
    (body := fun p q => Heap.get m (blkIdx c q p) (blkOff c q p) >>= fun x =>
      Heap.put ⟨h.next, 0, nBlocks c * nBlocks r, nBlocks c * nBlocks r⟩ (blkIdx r p q) (blkOff r p q) x)
    (fun i j h' => Old h.next h h' ∧ ∃ t : Blocks α c r,
      IsJag ⟨h.next, 0, nBlocks c * nBlocks r, nBlocks c * nBlocks r⟩ (newRows h.next (blkLen c r)) h' t ∧
      ∀ p q, (p < i ∧ q < r ∨ p = i ∧ q < j) → t.f (blkIdx r p q) (blkOff r p q) = b.ent q p)
    ⟨e3, _, e4, fun p q hp => absurd hp (by omega)⟩
    (fun i j h' hi hj ⟨q1, t, q2, q3⟩ => by
      obtain ⟨h3, g1, g2, g3⟩ := put_run q2 (blkIdx_lt hi hj) (blkOff_lt hi hj) (b.ent j i)
      refine ⟨h3, ?_, q1.trans (g3.old q1.ok fun a k hF => newCells_above hF), _, g2, fun p q hq => ?_⟩
      · rw [HM.bind_ok (b := b.ent j i) (h' := h') (by
          rw [get_run (IsJag.survive H o q1), Blk.get_ok b.blocks hj hi]; rfl), g1]
      · dsimp only
        unfold upd2
        by_cases e : p = i ∧ q = j
        · rw [if_pos ⟨by rw [e.1, e.2], by rw [e.1, e.2]⟩, e.1, e.2]
        · rw [if_neg fun x => e (blk_pos_inj (by omega) hj x)]
          exact q3 p q (by omega))
    (fun i h' hi ⟨q1, t, q2, q3⟩ => ⟨q1, t, q2, fun p q hq => q3 p q (by omega)⟩)
  refine ⟨h2, _, _, ⟨t⟩, ?_, f2, f3, fun p q hp hq => f4 p q (by omega)⟩
  unfold bTranspose bLayout
  rw [HM.bind_ok e1, HM.bind_ok f1]
  rfl

theorem dAt_run {v : Sl} {d : Dia α n} (H : IsDia v h d) {i j : Nat} (hi : i < n) (hj : j < n) :
    dAt v i j h = (.ok (if i = j then d.data.f i else Flt.zero), h) := by
  unfold dAt
  rw [H.1, HM.bind_ok (x := HM.lift _) (b := ()) (h' := h) (by rw [checkMatrixIndex_ok ⟨by omega, by omega, by omega, by omega⟩]; rfl)]
  by_cases e : i = j
  · rw [if_pos (by omega), if_pos e, drd_run H, Int.toNat_natCast, Row.get_ok hi]
  · rw [if_neg (by omega), if_neg e]
    rfl

theorem dTranspose_run [ZeroLaws α] {v : Sl} {d : Dia α n} (o : h.Ok) (H : IsDia v h d) :
    ∃ h' w, dTranspose v h = (.ok w, h') ∧ Old h.next h h' ∧ IsDia w h' d := by
  have survive : ∀ h', Old h.next h h' → IsDia v h' d := fun h' x => (Obj.dia v n H.1).survives H o x
  obtain ⟨h1, e1, e2, e3, e4, e5⟩ := HM.make_run n h o
  obtain ⟨h2, f1, f2, t, f3, f4⟩ := HM.for_pairs (P := n) (Q := n) (h := h1)
    (body := fun i j => dAt v i j >>= fun x => dSetEntry ⟨h.next, 0, n, n⟩ j i x)
    (fun i j h' => Old h.next h h' ∧ ∃ t : Dia α n, IsDia ⟨h.next, 0, n, n⟩ h' t ∧
      ∀ p, (p < i ∨ p = i ∧ p < j) → p < n → t.data.f p = d.data.f p)
    ⟨e3, ⟨Row.zero n⟩, ⟨rfl, fun j hj => by dsimp only; rw [Nat.zero_add, e5 j hj]; rfl⟩, fun p hp => absurd hp (by omega)⟩
    (fun i j h' hi hj ⟨q1, t, q2, q3⟩ => by
      have hs := DOp.sim ⟨h.next, 0, n, n⟩ (.setEntry j i (if i = j then d.data.f i else Flt.zero)) h' t q2
      have hv : ∃ t' : Dia α n, t.setEntry j i (if i = j then d.data.f i else Flt.zero) = .ok t' ∧
          ∀ p, (p < i ∨ p = i ∧ p < j + 1) → p < n → t'.data.f p = d.data.f p := by
        by_cases e : i = j
        · subst e
          refine ⟨_, Dia.setEntry_diag _ (by omega), fun p hp hpn => ?_⟩
          dsimp only
          rw [upd1_eq]
          by_cases e : p = i
          · rw [if_pos (by omega), if_pos rfl, e]
          · rw [if_neg (by omega)]
            exact q3 p (by omega) hpn
        · rw [if_neg e]
          exact ⟨t, Dia.setEntry_off _ (by omega) ZeroLaws.ulp_zz, fun p hp hpn => q3 p (by omega) hpn⟩
      obtain ⟨t', x1, x2⟩ := hv
      have x3 : DOp.onDia t (.setEntry j i (if i = j then d.data.f i else Flt.zero)) = .ok t' := x1
      rw [x3] at hs
      obtain ⟨h3, g1, g2, g3⟩ := hs
      refine ⟨h3, ?_, q1.trans (g3.old q1.ok fun a k ⟨_, _, ha, _⟩ => by rw [ha]), t', g2, x2⟩
      rw [HM.bind_ok (dAt_run (survive h' q1) hi hj)]
      exact g1)
    (fun i h' hi ⟨q1, t, q2, q3⟩ => ⟨q1, t, q2, fun p hp hpn => q3 p (by omega) hpn⟩)
  refine ⟨h2, _, ?_, f2, ⟨rfl, fun j hj => by rw [f3.2 j hj, f4 j (by omega) hj]⟩⟩
  unfold dTranspose
  rw [H.1, HM.bind_ok e1, HM.bind_ok f1]
  rfl

theorem Heap.IsMat.transData [ZeroLaws α] {x : HMat r c} {a : Mat α r c} {t : Tab α c r} (o : h.Ok) (H : IsMat h x a)
    (hr : 0 < r) {tm : Mat α c r} (em : a.transpose = .ok tm) (et : tm.dataCopy = .ok t) : Gives x.transData h t := by
  obtain ⟨tm', t', e, e', ht⟩ := Mat.transData_ok H.own hr a.at_shows
  cases em.symm.trans e
  cases et.symm.trans e'
  cases H with
  | arr H =>
    obtain ⟨h1, d1, rows1, e1, e2, e3⟩ := mTranspose_run o H hr
    obtain ⟨h', d, rows, f1, f2, f3, f4⟩ := mData_run e2.ok e3
    refine ⟨h', d, rows, ?_, e2.next_step f2, IsJag.congr f3.1 fun i j hi hj => (ht i j hi hj).symm,
      e2.next.trans (made_id (makeH_id _ h1) f1), fun a k hF => e2.next.trans (f4 a k hF)⟩
    show (mTranspose _ >>= fun t => mData t) h = _
    rw [HM.bind_ok e1, f1]
  | blk H =>
    obtain ⟨h1, d1, rows1, b', e1, e2, e3, e4⟩ := bTranspose_run o H
    obtain ⟨h', d, rows, f1, f2, f3, f4⟩ := bData_run e2.ok e3
    refine ⟨h', d, rows, ?_, e2.next_step f2, IsJag.congr f3.1 fun i j hi hj =>
      (e4 i j hi hj).trans (ht i j hi hj).symm,
      e2.next.trans (made_id (makeJag_id _ _ h1) f1), fun a k hF => e2.next.trans (f4 a k hF)⟩
    show (bTranspose r c _ >>= fun t => bData c r t) h = _
    rw [HM.bind_ok e1, f1]
  | dia H =>
    obtain ⟨h1, w, e1, e2, e3⟩ := dTranspose_run o H
    obtain ⟨h', d, rows, f1, f2, f3, f4⟩ := dData_run e2.ok e3
    refine ⟨h', d, rows, ?_, e2.next_step f2, IsJag.congr f3.1 fun i j hi hj => ?_,
      e2.next.trans (made_id (makeJag_id _ _ h1) f1), fun a k hF => e2.next.trans (f4 a k hF)⟩
    · show (dTranspose _ >>= fun t => dData t) h = _
      rw [HM.bind_ok e1, f1]
    · rw [ht i j hi hj]
      show (if i = j then _ else _) = if j = i then _ else _
      by_cases e : i = j
      · rw [if_pos e, if_pos e.symm, e]
      · rw [if_neg e, if_neg (Ne.symm e)]

/-! ## Computations that may change every array from number `b` on -/

section
variable {S S' T β γ : Type} {b : Nat} {R : Heap α → T → Prop}

/-- As `RunAt`, but all arrays from number `b` on may change, and there may be more of them. -/
def RunOld (b : Nat) (R : Heap α → T → Prop) (p : S → T) (q : S → β) (x : HM α β) (h : Heap α) (y : Res S) : Prop :=
  match y with
  | .ok s => ∃ h', x h = (.ok (q s), h') ∧ R h' (p s) ∧ Old b h h'
  | .error e => ∃ h', x h = (.error e, h') ∧ Old b h h'

theorem RunAt.old {R' : Heap α → T → Prop} {F : Nat → Nat → Prop} {p : S → T} {q : S → β} {x : HM α β} {y : Res S}
    (o : h.Ok) (H : RunAt R' F p q x h y) (hF : ∀ a k, F a k → b ≤ a) (hR : ∀ h t, R' h t → R h t) :
    RunOld b R p q x h y := by
  cases y with
  | ok s =>
    obtain ⟨h', e1, e2, e3⟩ := H
    exact ⟨h', e1, hR _ _ e2, e3.old o hF⟩
  | error e =>
    obtain ⟨h', e1, e3⟩ := H
    exact ⟨h', e1, e3.old o hF⟩

theorem RunOld.bind {T' : Type} {R' : Heap α → T' → Prop} {p : S → T} {q : S → β} {p' : S' → T'} {q' : S' → γ} {x : HM α β}
    {y : Res S} {k : β → HM α γ} {z : S → Res S'} (hx : RunOld b R p q x h y)
    (hk : ∀ s h', h'.Ok → R h' (p s) → RunOld b R' p' q' (k (q s)) h' (z s)) : RunOld b R' p' q' (x >>= k) h (y >>= z) := by
  cases y with
  | error e =>
    obtain ⟨h', e1, e2⟩ := hx
    exact ⟨h', HM.bind_error e1, e2⟩
  | ok s =>
    obtain ⟨h', e1, e2, e3⟩ := hx
    have := hk s h' e3.ok e2
    show RunOld b R' p' q' _ h (z s)
    unfold RunOld at this ⊢
    rw [HM.bind_ok e1]
    cases hz : z s with
    | ok s' =>
      rw [hz] at this
      obtain ⟨h2, f1, f2, f3⟩ := this
      exact ⟨h2, f1, f2, e3.trans f3⟩
    | error e =>
      rw [hz] at this
      obtain ⟨h2, f1, f2⟩ := this
      exact ⟨h2, f1, e3.trans f2⟩

theorem HM.bind_pure (x : HM α β) : (x >>= fun b => pure b) = x := funext fun h => by
  rcases e : x h with ⟨_ | _, h'⟩
  · rw [HM.bind_error e]
  · rw [HM.bind_ok e]
    rfl

theorem RunOld.map {p : S → T} {q : S → β} {p' : S' → T} {q' : S' → γ} {x : HM α β} {y : Res S} (g : S → S') {f : β → γ}
    (H : RunOld b R p q x h y) (hp : ∀ s, p' (g s) = p s) (hq : ∀ s, q' (g s) = f (q s)) :
    RunOld b R p' q' (x >>= fun b => pure (f b)) h (y >>= fun s => .ok (g s)) := by
  refine RunOld.bind H fun s h' o' H' => ⟨h', ?_, ?_, Old.refl o'⟩
  · rw [hq]
    rfl
  · rw [hp]
    exact H'

theorem RunOld.reads {p : S → T} {q : S → γ} {x : HM α β} {y : Res β} {k : β → HM α γ} {z : β → Res S} (o : h.Ok)
    (hx : Reads x h y) (hk : ∀ b', y = .ok b' → RunOld b R p q (k b') h (z b')) :
    RunOld b R p q (x >>= k) h (y >>= z) := by
  cases y with
  | error e => exact ⟨h, HM.bind_error hx, Old.refl o⟩
  | ok b' =>
    have := hk b' rfl
    show RunOld b R p q _ h (z b')
    unfold RunOld at this ⊢
    rw [HM.bind_ok hx]
    exact this

theorem RunOld.lift' {p : S → T} {q : S → γ} {y : Res β} {k : β → HM α γ} {z : β → Res S} (o : h.Ok)
    (hk : ∀ b', y = .ok b' → RunOld b R p q (k b') h (z b')) : RunOld b R p q (HM.lift y >>= k) h (y >>= z) :=
  RunOld.reads o rfl hk

theorem RunOld.next {p : S → T} {q : S → γ} {x : HM α β} {k : β → HM α γ} {z : Res S} {b' : β} {h' : Heap α}
    (hx : x h = (.ok b', h')) (ho : Old b h h') (hk : RunOld b R p q (k b') h' z) : RunOld b R p q (x >>= k) h z := by
  unfold RunOld at hk ⊢
  rw [HM.bind_ok hx]
  cases z with
  | ok s =>
    obtain ⟨h2, f1, f2, f3⟩ := hk
    exact ⟨h2, f1, f2, ho.trans f3⟩
  | error e =>
    obtain ⟨h2, f1, f2⟩ := hk
    exact ⟨h2, f1, ho.trans f2⟩

theorem RunOld.ret {p : S → T} {q : S → β} {s : S} {b' : β} (o : h.Ok) (hb : b' = q s) (hR : R h (p s)) :
    RunOld b R p q (pure b') h (.ok s) := ⟨h, by rw [hb]; rfl, hR, Old.refl o⟩

theorem RunOld.fail {p : S → T} {q : S → β} (o : h.Ok) (e : Fault) : RunOld b R p q (HM.lift (.error e)) h (.error e) :=
  ⟨h, rfl, Old.refl o⟩

theorem RunOld.forS {p : S → T} {q : S → β} {body : Nat → β → HM α β} {z : Nat → S → Res S} {i j : Nat} {s : S}
    (o : h.Ok) (hR : R h (p s))
    (hb : ∀ i s h, h.Ok → R h (p s) → RunOld b R p q (body i (q s)) h (z i s)) :
    RunOld b R p q (forS i j body (q s)) h (forUp i j z s) := by
  induction hn : j - i generalizing i h s with
  | zero =>
    rw [forS_self (by omega), forUp_eq_self (by omega)]
    exact RunOld.ret o rfl hR
  | succ n ih =>
    rw [forS_step (by omega), forUp_step (by omega)]
    exact RunOld.bind (hb i s h o hR) fun s' h' o' hR' => ih o' hR' (by omega)

end

/-- The table `t`, whose cells and descriptors are in arrays from number `b` on. -/
def Heap.IsNew (b : Nat) (d : Sl) (h : Heap α) (t : Tab α r c) : Prop :=
  b ≤ d.id ∧ ∃ rows, IsJag d rows h t ∧ ∀ a k, matCells rows r c a k → b ≤ a

/-- The outcome `y` of the constructor `f`: a new table, and nothing old changed. -/
def Built {S β : Type} (p : S → Tab α r c) (q : S → β) (f : HM α (Sl × β)) (h : Heap α) (y : Res S) : Prop :=
  match y with
  | .ok s => ∃ h' d, f h = (.ok (d, q s), h') ∧ IsNew h.next d h' (p s) ∧ Old h.next h h'
  | .error e => ∃ h', f h = (.error e, h') ∧ Old h.next h h'

/-- A constructor that works in place, seen from its caller. -/
theorem Gives.build {S β : Type} {g : HM α Sl} {t : Tab α r c} (hg : Gives g h t) {work : Sl → HM α β} {p : S → Tab α r c}
    {q : S → β} {y : Res S}
    (hw : ∀ d h', h'.Ok → IsNew h.next d h' t → RunOld h.next (IsNew h.next d) p q (work d) h' y) :
    Built p q (HMat.build g work) h y := by
  obtain ⟨h1, d, rows, e1, e2, e3, e4, e5⟩ := hg
  have := hw d h1 e2.ok ⟨e4, rows, e3, e5⟩
  unfold Built HMat.build
  rw [HM.bind_ok e1]
  cases y with
  | ok s =>
    obtain ⟨h', f1, f2, f3⟩ := this
    exact ⟨h', d, by rw [HM.bind_ok f1]; rfl, f2, e2.trans f3⟩
  | error e =>
    obtain ⟨h', f1, f3⟩ := this
    exact ⟨h', by rw [HM.bind_error f1], e2.trans f3⟩

/-- Work whose descriptors stay. -/
theorem RunAt.fresh {S β : Type} {b : Nat} {d : Sl} {t : Tab α r c} {p : S → Tab α r c} {q : S → β} {x : HM α β} {y : Res S}
    (o : h.Ok) (H : IsNew b d h t)
    (hx : ∀ rows, IsJag d rows h t → RunAt (IsJag d rows) (matCells rows r c) p q x h y) :
    RunOld b (IsNew b d) p q x h y := by
  obtain ⟨h1, rows, h2, h3⟩ := H
  exact (hx rows h2).old o h3 fun h t H => ⟨h1, rows, H, h3⟩

/-! ## Rank-revealing QR -/

section
variable {m : Nat} {t : Tab α n m} {d : Sl} {b : Nat}

theorem rrBest_run (minor : Nat) {rows : Nat → Sl} (H : IsJag d rows h t) :
    Reads (rrBest d m n minor) h (RRQR.best minor t) := by
  unfold rrBest RRQR.best
  refine Reads.forS fun i best => ?_
  exact Reads.bind (Reads.sumUp fun j => Reads.prod H i j i j) fun _ => Reads.ret _ _

theorem rrSwap_run (o : h.Ok) {i j : Nat} (hi : i < n) (hj : j < n) (H : IsNew b d h t) :
    ∃ h', rrSwap d i j h = (.ok (), h') ∧ Old b h h' ∧
      IsNew b d h' (⟨fun k => t.f (if k = i then j else if k = j then i else k)⟩ : Tab α n m) := by
  obtain ⟨h1, rows, H, h3⟩ := H
  have a1 : rdH d j h = (.ok (rows j), h) := by rw [rdH_run H, if_pos hj]
  have a2 : rdH d i h = (.ok (rows i), h) := by rw [rdH_run H, if_pos hi]
  have w1 := wrH_run (s := d) (h := h) (i := i) (by rw [H.size]; exact hi) (rows j) (by rw [H.head i hi]; rfl)
  have w2 := wrH_run (s := d) (h := ⟨h.next, h.cell, upd2 h.head d.id (d.off + i) (some (rows j))⟩) (i := j)
    (by rw [H.size]; exact hj) (rows i) (by
      dsimp only
      rw [upd2_eq]
      split
      · rfl
      · rw [H.head j hj]; rfl)
  have hd : d.id < h.next := by
    by_contra hn
    have := (o d.id (d.off + i) (by omega)).2
    rw [H.head i hi] at this
    cases this
  have hlt : ∀ k, k < n → (if k = i then j else if k = j then i else k) < n := fun k hk => by
    split
    · exact hj
    · split
      · exact hi
      · exact hk
  refine ⟨⟨h.next, h.cell, upd2 (upd2 h.head d.id (d.off + i) (some (rows j))) d.id (d.off + j) (some (rows i))⟩,
    by unfold rrSwap; rw [HM.bind_ok a1, HM.bind_ok a2, HM.bind_ok w1, w2], ⟨le_rfl, fun _ _ _ => rfl, ?_, ?_⟩,
    h1, fun k => rows (if k = i then j else if k = j then i else k), ⟨H.size, ?_, ?_, ?_, ?_⟩, ?_⟩
  · intro a k ha
    dsimp only
    rw [upd2_eq, if_neg (by omega), upd2_eq, if_neg (by omega)]
  · intro a k ha
    refine ⟨(o a k ha).1, ?_⟩
    dsimp only at ha ⊢
    rw [upd2_eq, if_neg (by omega), upd2_eq, if_neg (by omega)]
    exact (o a k ha).2
  · intro k hk
    dsimp only
    rw [upd2_eq, upd2_eq]
    by_cases e2 : k = j
    · rw [if_pos ⟨rfl, by omega⟩]
      by_cases e1 : k = i
      · rw [if_pos e1, ← e1, e2]
      · rw [if_neg e1, if_pos e2]
    · rw [if_neg (by omega)]
      by_cases e1 : k = i
      · rw [if_pos ⟨rfl, by omega⟩, if_pos e1]
      · rw [if_neg (by omega), if_neg e1, if_neg e2]
        exact H.head k hk
  · intro k hk
    exact H.width _ (hlt k hk)
  · intro k l hk hl
    exact H.cell _ l (hlt k hk) hl
  · intro k l k' l' hk hl hk' hl' e1 e2
    have := H.apart _ l _ l' (hlt k hk) hl (hlt k' hk') hl' e1 e2
    refine ⟨?_, this.2⟩
    have e := this.1
    split at e <;> split at e <;> (try split at e) <;> (try split at e) <;> omega
  · rintro a l ⟨k, l', hk, hl, ha, hl'⟩
    exact h3 a l ⟨_, l', hlt k hk, hl, ha, hl'⟩

theorem rrReflect_run {p : Nat} (minor : Nat) (s : RRQR α m n p) (o : h.Ok) (H : IsNew b d h s.qr.qrt) :
    RunOld b (IsNew b d) (fun s => s.qr.qrt) (fun s => (s.qr.rDiag, s.p)) (rrReflect d m n minor (s.qr.rDiag, s.p)) h
      (RRQR.reflect minor s) := by
  unfold rrReflect RRQR.reflect
  refine RunOld.reads o (rrBest_run minor H.2.choose_spec.1) fun best _ => ?_
  dsimp only
  by_cases e : best.2 ≠ minor
  · rw [if_pos e, if_pos e]
    by_cases hm : minor < n
    · by_cases hq : best.2 < n
      · obtain ⟨h1, e1, e2, e3⟩ := rrSwap_run o hm hq H
        refine RunOld.next e1 e2 ?_
        refine RunOld.lift' e2.ok fun pm _ => RunOld.lift' e2.ok fun pq _ => RunOld.lift' e2.ok fun pv _ =>
          RunOld.lift' e2.ok fun pv _ => ?_
        refine RunOld.bind (RunAt.fresh e2.ok e3 fun rows H => qrReflect_run minor
          (⟨⟨fun k => s.qr.qrt.f (if k = minor then best.2 else if k = best.2 then minor else k)⟩, s.qr.rDiag⟩ : QR α m n p) H)
          fun s' h' o' H' => ?_
        exact RunOld.ret o' rfl H'
      · have e1 : s.p.get best.2 = .error .rt := by
          unfold Row.get
          rw [if_neg hq]
        have e2 : s.p.get minor = .ok (s.p.f minor) := Row.get_ok hm
        rw [e2, ok_bind, e1]
        refine ⟨h, HM.bind_error ?_, Old.refl o⟩
        unfold rrSwap
        exact HM.bind_error (by rw [rdH_run H.2.choose_spec.1, if_neg hq])
    · have e2 : s.p.get minor = .error .rt := by
        unfold Row.get
        rw [if_neg hm]
      rw [e2]
      refine ⟨h, HM.bind_error ?_, Old.refl o⟩
      unfold rrSwap
      by_cases hq : best.2 < n
      · rw [HM.bind_ok (b := H.2.choose best.2) (h' := h) (by rw [rdH_run H.2.choose_spec.1, if_pos hq])]
        exact HM.bind_error (by rw [rdH_run H.2.choose_spec.1, if_neg hm])
      · exact HM.bind_error (by rw [rdH_run H.2.choose_spec.1, if_neg hq])
  · rw [if_neg e, if_neg e]
    refine RunOld.bind (RunAt.fresh o H fun rows H => qrReflect_run minor s.qr H) fun s' h' o' H' => ?_
    exact RunOld.ret o' rfl H'

theorem rrWork_run (o : h.Ok) (H : IsNew b d h t) :
    RunOld b (IsNew b d) (fun s => s.qr.qrt) (fun s => (s.qr.rDiag, s.p)) (rrWork d m n) h (do
      let pv ← forUp 0 n (fun i (pv : Row Nat n) => pv.set i i) ⟨fun _ => 0⟩
      if n = 0 then throw .rt
      forUp 0 (min n m) RRQR.reflect (⟨⟨t, Row.zero _⟩, pv⟩ : RRQR α m n (min m n))) := by
  unfold rrWork
  refine RunOld.lift' o fun pv _ => ?_
  by_cases e : n = 0
  · rw [if_pos e, if_pos e]
    exact RunOld.fail o _
  · rw [if_neg e, if_neg e]
    exact RunOld.forS (p := fun s => s.qr.qrt) (q := fun s => (s.qr.rDiag, s.p))
      (s := (⟨⟨t, Row.zero _⟩, pv⟩ : RRQR α m n (min m n))) o H fun i s h o H => rrReflect_run i s o H

end

end Linear
