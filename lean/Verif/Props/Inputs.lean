import Verif.Lemmas.HeapNew

/-!
# Properties C54: decompositions leave their input unchanged

The constructors run on a heap, in place, as the code does. Every array that existed before the call holds what it held,
so the argument, and all else the caller can reach, reads as before. The outcome is the one of the value model, and the table of
the new object is made of new arrays only, so that nothing done to the object later can reach the argument.
-/

set_option linter.unusedSectionVars false

namespace Linear

open HM Heap Spec

variable {α : Type} [Flt α] {r c n : Nat} {h : Heap α}

/-- Every array of `h`, of numbers or of row descriptors, holds in `h'` what it holds in `h`. -/
def Spec.Intact (h h' : Heap α) : Prop :=
  ∀ i k, i < h.next → h'.cell i k = h.cell i k ∧ h'.head i k = h.head i k

/-- After the call `f` on heap `h`: no array of `h` has changed and the matrix `x` still reads as `A`; the call has the
outcome `y`, and if it succeeds, the table of the new object is made of new arrays and is the one of `y`. -/
structure Spec.Spares {S β : Type} {r' c' : Nat} (h : Heap α) (x : HMat r c) (A : Nat → Nat → α) (f : HM α (Sl × β))
    (y : Res S) (p : S → Tab α r' c') (q : S → β) : Prop where
  intact : Intact h (f h).2
  reads : Shows (fun i j => (x.at' i j (f h).2).1) r c A
  outcome : match y with
    | .ok s => ∃ d, (f h).1 = .ok (d, q s) ∧ IsNew h.next d (f h).2 (p s)
    | .error e => (f h).1 = .error e

section
variable {S β : Type} {r' c' : Nat} {x : HMat r c} {a : Mat α r c} {f : HM α (Sl × β)} {y : Res S} {p : S → Tab α r' c'}
  {q : S → β}

theorem Spares.intro (o : h.Ok) (H : IsMat h x a)
    (hy : Built p q f h y) : Spares h x a.ent f y p q := by
  cases y with
  | ok s =>
    obtain ⟨h', d, e1, e2, e3⟩ := hy
    refine ⟨?_, ?_, ?_⟩
    · rw [e1]
      exact fun i k hi => ⟨e3.cell i k hi, e3.head i k hi⟩
    · rw [e1]
      exact (H.survive o e3).at
    · rw [e1]
      exact ⟨d, rfl, e2⟩
  | error e =>
    obtain ⟨h', e1, e3⟩ := hy
    refine ⟨?_, ?_, ?_⟩
    · rw [e1]
      exact fun i k hi => ⟨e3.cell i k hi, e3.head i k hi⟩
    · rw [e1]
      exact (H.survive o e3).at
    · rw [e1]

end

variable {x : HMat r c} {a : Mat α r c}

/-- C54, LU decomposition. -/
theorem C54_lu (thr ninf : α) (o : h.Ok) (H : IsMat h x a) (hr : 0 < r) (hc : 0 < c) :
    Spares h x a.ent (x.lu thr ninf) (LU.new thr ninf a) LU.lu LU.rest :=
  Spares.intro o H (lu_built thr ninf o H hr hc)

/-- C54, Cholesky decomposition. -/
theorem C54_cholesky (rel pos : α) (o : h.Ok) (H : IsMat h x a) (hr : 0 < r) (hc : 0 < c) :
    Spares h x a.ent (x.chol rel pos) (Chol.new rel pos a) Chol.lT (fun _ => ()) :=
  Spares.intro o H (chol_built rel pos o H hr hc)

/-- C54, rectangular Cholesky decomposition: the part that works on the table. -/
theorem C54_rectCholesky (small : α) (o : h.Ok) (H : IsMat h x a) (hc : 0 < c) :
    Spares h x a.ent (x.rectChol small) (RChol.loop small a) (fun s => s.2.c) (fun s => (s.1, s.2.other)) :=
  Spares.intro o H (rectChol_built small o H hc)

/-- C54, QR decomposition. -/
theorem C54_qr [ZeroLaws α] (o : h.Ok) (H : IsMat h x a) (hr : 0 < r) :
    Spares h x a.ent x.qr (QR.new a) QR.qrt QR.rDiag :=
  Spares.intro o H (qr_built o H hr)

/-- C54, rank-revealing QR decomposition. -/
theorem C54_rrqr [ZeroLaws α] (o : h.Ok) (H : IsMat h x a) (hr : 0 < r) :
    Spares h x a.ent x.rrqr (RRQR.new a) (fun s => s.qr.qrt) (fun s => (s.qr.rDiag, s.p)) :=
  Spares.intro o H (rrqr_built o H hr)

/-- C54, reduction to tridiagonal form. -/
theorem C54_tridiagonal (o : h.Ok) (H : IsMat h x a) (hr : 0 < r) (hc : 0 < c) :
    Spares h x a.ent x.tri (Tri.new a) Tri.hv (fun s => (s.main, s.sec)) :=
  Spares.intro o H (tri_built o H hr hc)

/-- C54, reduction to Hessenberg form. -/
theorem C54_hessenberg (o : h.Ok) (H : IsMat h x a) (hr : 0 < r) (hc : 0 < c) :
    Spares h x a.ent x.hess (Hess.new a) Hess.hv Hess.ort :=
  Spares.intro o H (hess_built o H hr hc)

/-- C54, reduction to bidiagonal form. -/
theorem C54_bidiagonal (o : h.Ok) (H : IsMat h x a) (hr : 0 < r) (hc : 0 < c) :
    Spares h x a.ent x.bi (Bi.new a) Bi.hv Bi.rest :=
  Spares.intro o H (bi_built o H hr hc)

/-- After the call `f` on heap `h`: no array of `h` has changed, the matrix `x` still reads as `A`, and the call has the
outcome `y`. -/
structure Spec.SparesAll {S : Type} (h : Heap α) (x : HMat r c) (A : Nat → Nat → α) (f : HM α S) (y : Res S) : Prop where
  intact : Intact h (f h).2
  reads : Shows (fun i j => (x.at' i j (f h).2).1) r c A
  outcome : (f h).1 = y

theorem SparesAll.intro {S : Type} {f : HM α S} {y : Res S} (o : h.Ok) (H : IsMat h x a) (hy : Made f h y) :
    SparesAll h x a.ent f y := by
  cases y with
  | ok s =>
    obtain ⟨h', e1, -, e3⟩ := hy
    refine ⟨?_, ?_, ?_⟩
    · rw [e1]
      exact fun i k hi => ⟨e3.cell i k hi, e3.head i k hi⟩
    · rw [e1]
      exact (H.survive o e3).at
    · rw [e1]
      rfl
  | error e =>
    obtain ⟨h', e1, e3⟩ := hy
    refine ⟨?_, ?_, ?_⟩
    · rw [e1]
      exact fun i k hi => ⟨e3.cell i k hi, e3.head i k hi⟩
    · rw [e1]
      exact (H.survive o e3).at
    · rw [e1]

/-- C54, singular value decomposition. -/
theorem C54_svd [ZeroLaws α] (κ : Svd.Lit α) (fuel : Nat) (o : h.Ok) (H : IsMat h x a) (hr : 0 < r) (hc : 0 < c) :
    SparesAll h x a.ent (x.svd κ fuel) (Svd.new κ fuel a) :=
  SparesAll.intro o H (svd_made κ fuel o H hr hc)

/-- C54, Schur transformer. -/
theorem C54_schur {x : HMat n c} {a : Mat α n c} (κ : Schur.Lit α) (fuel : Nat) (o : h.Ok) (H : IsMat h x a) (hr : 0 < n)
    (hc : 0 < c) : SparesAll h x a.ent (x.schur κ fuel) (Schur.new κ fuel a) :=
  SparesAll.intro o H (schur_made κ fuel o H hr hc)

/-- C54, eigen decomposition. -/
theorem C54_eigen {x : HMat n c} {a : Mat α n c} (σ : Schur.Lit α) (κ : Eig.Lit α) (symTol : α) (fuel : Nat) (o : h.Ok)
    (H : IsMat h x a) (hr : 0 < n) (hc : 0 < c) :
    SparesAll h x a.ent (x.eigen σ κ symTol fuel) (Eig.new σ κ symTol fuel a) :=
  SparesAll.intro o H (eigen_made σ κ symTol fuel o H hr hc)

/-! The matrix `[[0, 10], [30, 40]]` of `demo`, whose rows share one array, meets the hypotheses. Its LU decomposition exchanges the
two rows of the table: the table of the object is `[[30, 40], [0, 10]]`, the matrix reads as before. -/

theorem demo_mat : IsMat demo (.arr ⟨1, 0, 2, 2⟩ : HMat 2 2) (.arr demoArr) := .arr demo_arr

/-- What the decomposition of the matrix of `demo` returns, and the heap afterwards. -/
def Spec.demoLu : Res (Sl × LuRest 2) × Heap ℚ := (HMat.arr ⟨1, 0, 2, 2⟩ : HMat 2 2).lu (1 / 1000) (-1000) demo

example : demo.Ok ∧ IsMat demo (.arr ⟨1, 0, 2, 2⟩ : HMat 2 2) (.arr demoArr) := ⟨demo_ok, demo_mat⟩

example : demoLu.1.toOption.map (fun x => (x.1, x.2.pivot.f 0, x.2.even)) = some (⟨3, 0, 2, 2⟩, 1, false) ∧
    (Heap.get ⟨3, 0, 2, 2⟩ 0 1 demoLu.2).1.toOption = some 40 ∧ (Heap.get ⟨1, 0, 2, 2⟩ 0 1 demoLu.2).1.toOption = some 10 := by
  decide +kernel

end Linear
