import Verif.Lemmas.HeapSvd

/-!
# The constructors of the decompositions on the heap, as a whole
-/

set_option linter.unusedSectionVars false

namespace Linear

open HM Heap Spec

variable {α : Type} [Flt α] {r c n : Nat} {h : Heap α}

section
variable {S β : Type} {r' c' : Nat} {x : HMat r c} {a : Mat α r c} {f : HM α (Sl × β)} {y : Res S} {p : S → Tab α r' c'}
  {q : S → β}

theorem Built.refused (o : h.Ok) {e : Fault} (hf : f h = (.error e, h)) : Built p q f h (.error e : Res S) :=
  ⟨h, hf, Old.refl o⟩

theorem Built.congr {f' : HM α (Sl × β)} {y' : Res S} (hf : f h = f' h) (hy : y = y') (H : Built p q f' h y') :
    Built p q f h y := by
  subst hy
  unfold Built at H ⊢
  rwa [hf]

/-- The test for squareness, then work on the table from `Data`. -/
theorem Built.square (o : h.Ok) (H : IsMat h x a) (hr : 0 < r) (hc : 0 < c) {work : Sl → HM α β} {z : Tab α r c → Res S}
    {p : S → Tab α r c}
    (hw : ∀ t d h', h'.Ok → IsNew h.next d h' t → RunOld h.next (IsNew h.next d) p q (work d) h' (z t)) :
    Built p q (HMat.square x (HMat.build x.data work)) h (do
      if !(← a.isSquare) then throw (.err .sqMat)
      let t ← a.dataCopy
      z t) := by
  have ec := H.cols
  rw [Mat.colDim_ok hr] at ec
  have es : a.isSquare = .ok (c == r) := by
    unfold Mat.isSquare
    rw [Mat.colDim_ok hr]
    rfl
  obtain ⟨t, et, -⟩ := Mat.dataCopy_ok H.own hc a.at_shows
  rw [es, et]
  by_cases e : c = r
  · refine Built.congr (y' := z t) (f' := HMat.build x.data work) ?_ ?_ (((H.data o hc et).build fun d h' o' H' => hw t d h' o' H'))
    · unfold HMat.square
      rw [HM.bind_ok ec, H.rows, if_pos e]
    · rw [ok_bind, if_neg (by simp [e])]
      rfl
  · refine Built.congr (y' := .error (.err .sqMat)) (f' := HMat.square x (HMat.build x.data work)) rfl ?_ (Built.refused o ?_)
    · rw [ok_bind, if_pos (by simp [e])]
      rfl
    · unfold HMat.square
      rw [HM.bind_ok ec, H.rows, if_neg e]
      rfl

/-- Work on the table from `Data`. -/
theorem Built.data (o : h.Ok) (H : IsMat h x a) (hc : 0 < c) {work : Sl → HM α β} {z : Tab α r c → Res S}
    {p : S → Tab α r c}
    (hw : ∀ t d h', h'.Ok → IsNew h.next d h' t → RunOld h.next (IsNew h.next d) p q (work d) h' (z t)) :
    Built p q (HMat.build x.data work) h (a.dataCopy >>= z) := by
  obtain ⟨t, et, -⟩ := Mat.dataCopy_ok H.own hc a.at_shows
  rw [et]
  exact ((H.data o hc et).build fun d h' o' H' => hw t d h' o' H')

/-- Work on the table from `Transpose().Data()`. -/
theorem Built.transposed [ZeroLaws α] (o : h.Ok) (H : IsMat h x a) (hr : 0 < r) {work : Sl → HM α β}
    {z : Tab α c r → Res S} {p : S → Tab α c r}
    (hw : ∀ t d h', h'.Ok → IsNew h.next d h' t → RunOld h.next (IsNew h.next d) p q (work d) h' (z t)) :
    Built p q (HMat.build x.transData work) h (do
      let t : Mat α c r ← a.transpose
      let t ← t.dataCopy
      z t) := by
  obtain ⟨tm, t, em, et, -⟩ := Mat.transData_ok H.own hr a.at_shows
  rw [em, ok_bind, et]
  exact ((H.transData o hr em et).build fun d h' o' H' => hw t d h' o' H')

/-- A call of `ColumnDimension` first. -/
theorem Built.afterCols (H : IsMat h x a) (hr : 0 < r) (h1 : Built p q f h y) :
    Built p q (do
      let _ ← x.cols
      f) h (do
      let _ ← a.colDim
      y) := by
  have ec := H.cols
  rw [Mat.colDim_ok hr] at ec
  exact Built.congr (HM.bind_ok ec) (by rw [Mat.colDim_ok hr]; rfl) h1

end

variable {x : HMat r c} {a : Mat α r c}

theorem lu_built (thr ninf : α) (o : h.Ok) (H : IsMat h x a) (hr : 0 < r) (hc : 0 < c) :
    Built LU.lu LU.rest (x.lu thr ninf) h (LU.new thr ninf a) :=
  Built.square o H hr hc fun _ _ _ o' H' => RunAt.fresh o' H' fun _ H => luWork_run thr ninf H

theorem chol_built (rel pos : α) (o : h.Ok) (H : IsMat h x a) (hr : 0 < r) (hc : 0 < c) :
    Built Chol.lT (fun _ => ()) (x.chol rel pos) h (Chol.new rel pos a) :=
  Built.square o H hr hc fun t d h' o' H' => by
    have := RunOld.map (p' := Chol.lT) (q' := fun _ => ()) (f := id) (fun t => (⟨t⟩ : Chol α r c))
      (RunAt.fresh o' H' fun _ H => cholWork_run rel pos H) (fun _ => rfl) (fun _ => rfl)
    rw [bind_assoc] at this
    rwa [show (cholWork rel pos d r >>= fun b => pure (id b)) = cholWork rel pos d r from HM.bind_pure _] at this

theorem rectChol_built (small : α) (o : h.Ok) (H : IsMat h x a) (hc : 0 < c) :
    Built (fun s => s.2.c) (fun s => (s.1, s.2.other)) (x.rectChol small) h (RChol.loop small a) :=
  Built.data o H hc fun _ _ _ o' H' => RunAt.fresh o' H' fun _ H => rcWork_run small H

theorem qr_built [ZeroLaws α] (o : h.Ok) (H : IsMat h x a) (hr : 0 < r) :
    Built QR.qrt QR.rDiag x.qr h (QR.new a) :=
  Built.afterCols H hr (Built.transposed o H hr fun _ _ _ o' H' => RunAt.fresh o' H' fun _ H => qrWork_run H)

theorem rrqr_built [ZeroLaws α] (o : h.Ok) (H : IsMat h x a) (hr : 0 < r) :
    Built (fun s => s.qr.qrt) (fun s => (s.qr.rDiag, s.p)) x.rrqr h (RRQR.new a) :=
  Built.afterCols H hr (Built.transposed o H hr fun _ _ _ o' H' => rrWork_run o' H')

theorem tri_built (o : h.Ok) (H : IsMat h x a) (hr : 0 < r) (hc : 0 < c) :
    Built Tri.hv (fun s => (s.main, s.sec)) x.tri h (Tri.new a) :=
  Built.square o H hr hc fun t d h' o' H' => by
    have := RunOld.map (p' := Tri.hv) (q' := fun s => (s.main, s.sec)) (f := fun s => (s.main, s.sec)) Prod.fst
      (RunAt.fresh o' H' fun _ H => triWork_run H) (fun _ => rfl) (fun _ => rfl)
    by_cases e : r = 0
    · omega
    · rw [if_neg e, bind_assoc] at this
      rw [if_neg e]
      simp only [bind_assoc] at this
      exact this

theorem hess_built (o : h.Ok) (H : IsMat h x a) (hr : 0 < r) (hc : 0 < c) :
    Built Hess.hv Hess.ort x.hess h (Hess.new a) :=
  Built.square o H hr hc fun _ _ _ o' H' => RunAt.fresh o' H' fun _ H => hessWork_run H

theorem bi_built (o : h.Ok) (H : IsMat h x a) (hr : 0 < r) (hc : 0 < c) :
    Built Bi.hv Bi.rest x.bi h (Bi.new a) :=
  Built.afterCols H hr (Built.data o H hc fun _ _ _ o' H' => RunAt.fresh o' H' fun _ H => biWork_run H)

/-! ## Constructors whose result is a value -/

/-- The outcome `y` of the constructor `f`, and nothing old changed. -/
def Made {S : Type} (f : HM α S) (h : Heap α) (y : Res S) : Prop := RunOld h.next Any (fun _ => ()) id f h y

theorem Gives.made {S : Type} {r' c' : Nat} {t : Tab α r' c'} {g : HM α Sl} {k : Sl → HM α S} {y : Res S} (hg : Gives g h t)
    (hk : ∀ d h', h'.Ok → IsNew h.next d h' t → RunOld h.next Any (fun _ => ()) id (k d) h' y) : Made (g >>= k) h y := by
  obtain ⟨h1, d, rows, e1, e2, e3, e4, e5⟩ := hg
  exact RunOld.next e1 e2 (hk d h1 e2.ok ⟨e4, rows, e3, e5⟩)

theorem RunOld.value {S : Type} {b : Nat} (o : h.Ok) (y : Res S) : RunOld b Any (fun _ => ()) id (HM.lift y) h y := by
  cases y with
  | ok s => exact ⟨h, rfl, trivial, Old.refl o⟩
  | error e => exact ⟨h, rfl, Old.refl o⟩

theorem Made.reads {S β : Type} {x : HM α β} {y : Res β} {k : β → HM α S} {z : β → Res S} (o : h.Ok) (hx : Reads x h y)
    (hk : ∀ b, y = .ok b → Made (k b) h (z b)) : Made (x >>= k) h (y >>= z) := RunOld.reads o hx hk

theorem Built.made {S T β : Type} {r' c' : Nat} {f : HM α (Sl × β)} {y : Res S} {p : S → Tab α r' c'} {q : S → β}
    (hf : Built p q f h y) {k : Sl × β → HM α T} {z : S → Res T}
    (hk : ∀ s d h', h'.Ok → IsNew h.next d h' (p s) → RunOld h.next Any (fun _ => ()) id (k (d, q s)) h' (z s)) :
    Made (f >>= k) h (y >>= z) := by
  cases y with
  | ok s =>
    obtain ⟨h', d, e1, e2, e3⟩ := hf
    exact RunOld.next e1 e3 (hk s d h' e3.ok e2)
  | error e =>
    obtain ⟨h', e1, e2⟩ := hf
    exact ⟨h', HM.bind_error e1, e2⟩

theorem svd_made [ZeroLaws α] (κ : Svd.Lit α) (fuel : Nat) (o : h.Ok) (H : IsMat h x a) (hr : 0 < r) (hc : 0 < c) :
    Made (x.svd κ fuel) h (Svd.new κ fuel a) := by
  unfold HMat.svd Svd.new
  rw [H.rows]
  have ec : Reads x.cols h (.ok c) := by
    have := H.cols
    rwa [Mat.colDim_ok hr] at this
  rw [Mat.colDim_ok hr]
  refine Made.reads o ec fun col e => ?_
  cases e
  by_cases e : r < c
  · rw [if_pos e, if_pos e]
    obtain ⟨tm, t, em, et, -⟩ := Mat.transData_ok H.own hr a.at_shows
    rw [em, ok_bind, et, ok_bind]
    refine (H.transData o hr em et).made fun d h' o' H' => ?_
    refine RunOld.bind (svdWork_run κ fuel o' H') fun s h' o' _ => ?_
    cases s with
    | none => exact RunOld.value o' _
    | some s => exact RunOld.value o' _
  · rw [if_neg e, if_neg e]
    obtain ⟨t, et, -⟩ := Mat.dataCopy_ok H.own hc a.at_shows
    rw [et, ok_bind]
    refine (H.data o hc et).made fun d h' o' H' => ?_
    refine RunOld.bind (svdWork_run κ fuel o' H') fun s h' o' _ => ?_
    cases s with
    | none => exact RunOld.value o' _
    | some s => exact RunOld.value o' _

theorem schur_made {x : HMat n c} {a : Mat α n c} (κ : Schur.Lit α) (fuel : Nat) (o : h.Ok) (H : IsMat h x a) (hr : 0 < n)
    (hc : 0 < c) : Made (x.schur κ fuel) h (Schur.new κ fuel a) := by
  unfold HMat.schur Schur.new HMat.square
  have ec : Reads x.cols h (.ok c) := by
    have := H.cols
    rwa [Mat.colDim_ok hr] at this
  have es : a.isSquare = .ok (c == n) := by
    unfold Mat.isSquare
    rw [Mat.colDim_ok hr]
    rfl
  rw [es, H.rows]
  refine RunOld.next ec (Old.refl o) ?_
  by_cases e : c = n
  · rw [if_pos e, ok_bind, if_neg (by simp [e])]
    refine (hess_built o H hr hc).made fun s d h' o' H' => ?_
    obtain ⟨-, rows, H', -⟩ := H'
    obtain ⟨t', e1, ht⟩ := readTab_run H'
    refine RunOld.next e1 (Old.refl o') ?_
    rw [Hess.h_congr ht, Hess.p_congr ht]
    exact RunOld.value o' _
  · rw [if_neg e, ok_bind, if_pos (by simp [e])]
    exact RunOld.fail o _

theorem eigen_made {x : HMat n c} {a : Mat α n c} (σ : Schur.Lit α) (κ : Eig.Lit α) (symTol : α) (fuel : Nat) (o : h.Ok)
    (H : IsMat h x a) (hr : 0 < n) (hc : 0 < c) : Made (x.eigen σ κ symTol fuel) h (Eig.new σ κ symTol fuel a) := by
  unfold HMat.eigen Eig.new
  refine Made.reads o (isSymm_run H symTol) fun sym _ => ?_
  cases sym with
  | true =>
    rw [if_pos rfl, if_pos rfl]
    unfold Eig.newSym
    rw [bind_assoc]
    refine (tri_built o H hr hc).made fun s d h' o' H' => ?_
    obtain ⟨-, rows, H', -⟩ := H'
    obtain ⟨t', e1, ht⟩ := readTab_run H'
    refine RunOld.next e1 (Old.refl o') ?_
    rw [Tri.q_congr ht]
    simp only [bind_assoc]
    exact RunOld.value o' _
  | false =>
    rw [if_neg Bool.false_ne_true, if_neg Bool.false_ne_true]
    unfold Eig.newGen
    refine RunOld.bind (schur_made σ fuel o H hr hc) fun s h' o' _ => ?_
    cases s with
    | none => exact RunOld.value o' _
    | some s => exact RunOld.value o' _

end Linear
