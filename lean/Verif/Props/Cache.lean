import Verif.Lemmas.Cache
import Verif.Props.Svd
import Verif.Props.LU

/-!
# C96, C97: the cached factors

C96: caching does not show.  Whatever sequence of accessors (and of the methods that use them) is called on a fresh decomposition, every
call answers exactly what it would answer on its own, and fails exactly when it would fail on its own.

C97: a caller who overwrites a returned factor does not change what the decomposition answers afterwards.  The code refutes it, because
the returned matrix is the cached one; what remains is that the private data of the decomposition never changes.
-/

namespace Linear

variable {α : Type} [Flt α] {r c m n p : Nat}

/-! ## What the calls answer on their own -/

/-- The answers of an LU decomposition. -/
def LU.answer (d : LU α r c) : LU.Acc → Res (Ans α)
  | .l => do return .ofOpt ((← d.l).map fun x => ⟨c, c, x⟩)
  | .u => do return .ofOpt ((← d.u).map fun x => ⟨c, c, x⟩)
  | .p => do return .ofOpt ((← d.p).map fun x => ⟨c, c, x⟩)

/-- The answers of a Cholesky decomposition. -/
def Chol.answer (d : Chol α r c) : Chol.Acc → Res (Ans α)
  | .l => do return .mat (← d.getL)
  | .lT => do return .mat (← d.getLT)

/-- The answers of a QR decomposition. -/
def QR.answer (d : QR α m n p) : QR.Acc → Res (Ans α)
  | .q => do return .mat (← d.q)
  | .qT => do return .mat (← d.qT)
  | .r => do return .mat (← d.r)
  | .h => do return .mat (← d.h)

/-- The answers of a rank-revealing QR decomposition. -/
def RRQR.answer (d : RRQR α m n p) : RRQR.Acc α → Res (Ans α)
  | .qr a => d.qr.answer a
  | .p => do return .mat ⟨n, n, ← d.pMat⟩
  | .rank drop => do return .nat (← d.rank drop)
  | .solveVector thr b => do return .vec (← d.solveVector thr b)
  | .solveMatrix thr b => do return .mat (← d.solveMatrix thr b.m)
  | .inverse thr => do return .mat (← d.inverse thr)

/-- The answers of a transformation to tridiagonal form. -/
def Tri.answer (d : Tri α r c) : Tri.Acc → Res (Ans α)
  | .q => do return .mat (← d.q)
  | .qT => do return .mat (← d.qT)
  | .t => do return .mat (← d.t)

/-- The answers of a transformation to bidiagonal form. -/
def Bi.answer (d : Bi α m n) : Bi.Acc → Res (Ans α)
  | .u => do return .mat (← d.u)
  | .b => do return .mat (← d.b)
  | .v => do return .mat (← d.v)

/-- The answers of a transformation to Hessenberg form. -/
def Hess.answer (d : Hess α r c) : Hess.Acc → Res (Ans α)
  | .p => do return .mat (← d.p)
  | .pT => do return .mat (← d.pT)
  | .h => do return .mat (← d.h)

/-- The answers of a transformation to Schur form. -/
def Schur.answer (d : Schur α n) : Schur.Acc → Res (Ans α)
  | .p => do return .mat (← d.pMat)
  | .pT => do return .mat (← d.ptMat)
  | .t => do return .mat (← d.tMat)

/-- The answers of an eigendecomposition. -/
def Eig.answer (epsEd : α) (d : Eig α n) : Eig.Acc → Res (Ans α)
  | .v => do return .mat (← d.v)
  | .d => do return .mat (← d.dMat epsEd)
  | .vT => do return .mat (← d.vT)
  | .squareRoot => do return .mat (← d.squareRoot)
  | .reals => return .vec ((List.range n).map d.re.f)
  | .imags => return .vec ((List.range n).map d.im.f)
  | .realAt i => if 0 ≤ i ∧ i < n then return .vec [d.re.f i.toNat] else .error .rt
  | .imagAt i => if 0 ≤ i ∧ i < n then return .vec [d.im.f i.toNat] else .error .rt
  | .vectorAt i => if 0 ≤ i ∧ i < n then return .vec ((List.range n).map (d.vec.f i.toNat)) else .error .rt

/-- The answers of a singular value decomposition. -/
def Svd.answer (d : Svd α) : Svd.Acc α → Res (Ans α)
  | .u => return .mat d.u
  | .uT => do return .mat (← d.uT)
  | .s => do return .mat (← d.sMat)
  | .v => return .mat d.v
  | .vT => do return .mat (← d.vT)
  | .covariance minSv => do return .mat (← d.covariance minSv)
  | .solver => do return .mat (← d.pinv)

/-! ## What the answers use -/

/-- None of the matrices in the list has been overwritten. -/
def Clean {A : Type} (w : A → Prop) (l : List A) : Prop := ∀ b ∈ l, ¬ w b

/-- The cached factors an answer of LU depends on. -/
def LU.reads (a : LU.Acc) : List LU.Acc := [a]

/-- The cached factors an answer of Cholesky depends on. -/
def Chol.reads : Chol.Acc → List Chol.Acc
  | .l => [.l, .lT]
  | .lT => [.lT]

/-- The cached factors an answer of QR depends on. -/
def QR.reads : QR.Acc → List QR.Acc
  | .q => [.q, .qT]
  | .qT => [.qT]
  | .r => [.r]
  | .h => [.h]

/-- The cached factors an answer of the rank-revealing QR decomposition depends on. -/
def RRQR.reads : RRQR.Acc α → List (RRQR.Acc α)
  | .qr a => (QR.reads a).map .qr
  | .rank _ => [.qr .r]
  | _ => [.p]

/-- The cached factors an answer of the tridiagonal transformer depends on. -/
def Tri.reads : Tri.Acc → List Tri.Acc
  | .q => [.q, .qT]
  | .qT => [.qT]
  | .t => [.t]

/-- The cached factors an answer of the bidiagonal transformer depends on. -/
def Bi.reads (a : Bi.Acc) : List Bi.Acc := [a]

/-- The cached factors an answer of the Hessenberg transformer depends on. -/
def Hess.reads : Hess.Acc → List Hess.Acc
  | .p => [.p]
  | .pT => [.pT, .p]
  | .h => [.h]

/-- The cached factors an answer of the Schur transformer depends on. -/
def Schur.reads : Schur.Acc → List Schur.Acc
  | .p => [.p]
  | .pT => [.pT, .p]
  | .t => [.t]

/-- The cached factors an answer of the eigendecomposition depends on. -/
def Eig.reads : Eig.Acc → List Eig.Acc
  | .v => [.v]
  | .d => [.d]
  | .vT => [.vT]
  | .squareRoot => [.v, .vT]
  | _ => []

/-- The cached factors an answer of the singular value decomposition depends on. -/
def Svd.reads : Svd.Acc α → List (Svd.Acc α)
  | .uT => [.u, .uT]
  | .vT => [.v, .vT]
  | .covariance _ => [.v, .vT]
  | .solver => [.u, .uT, .v]
  | a => [a]

theorem Clean.none {A : Type} (l : List A) : Clean (fun _ => False) l := fun _ _ h => h

theorem Clean.mono {A : Type} {w : A → Prop} {l l' : List A} (h : Clean w l) (hl : ∀ b ∈ l', b ∈ l) : Clean w l' :=
  fun b hb => h b (hl b hb)

theorem Clean.step {β σ : Type} {A : Type} {x : Res (β × σ)} {b : Res β} {I : σ → Prop} {l : List A}
    (h : Does x b I (Clean (fun _ => False) l)) : Does x b I True :=
  ⟨h.inv, fun _ => h.ans (Clean.none l)⟩

/-! ## LU -/

/-- The slot of a factor of LU. -/
def LU.Held (s : Option (SMat α)) (b : Res (Option (Mat α c c))) : Prop :=
  ∀ x, s = some x → ∃ y, b = .ok (some y) ∧ x = ⟨c, c, y⟩

/-- The invariant of an LU decomposition. -/
def LU.Keeps (d : LU α r c) (w : LU.Acc → Prop) (o : LU.Obj α r c) : Prop :=
  o.d = d ∧ (¬ w .l → LU.Held o.l d.l) ∧ (¬ w .u → LU.Held o.u d.u) ∧ (¬ w .p → LU.Held o.p d.p)

omit [Flt α] in
theorem LU.fill_step {σ : Type} {s : Option (SMat α)} {b : Res (Option (Mat α c c))} {k : Prop} {J : σ → Prop}
    {f : Option (SMat α) → Res (Ans α × σ)} (h : k → LU.Held s b)
    (hf : ∀ x, (k → LU.Held x b) → Does (f x) (.ok (.ofOpt x)) J k) :
    Does (LU.fill s b >>= f) (b >>= fun y => pure (.ofOpt (y.map fun x => ⟨c, c, x⟩))) J k := by
  cases s with
  | some x =>
    obtain ⟨h1, h2⟩ := hf (some x) h
    refine ⟨h1, fun hk => (h2 hk).trans ?_⟩
    obtain ⟨y, hy, e⟩ := h hk x rfl
    rw [hy, e]
    rfl
  | none =>
    rw [LU.fill, bind_assoc]
    refine Does.lift fun y ey => ?_
    refine hf (y.map fun x => ⟨c, c, x⟩) fun _ x hx => ?_
    cases y with
    | none => cases hx
    | some y => exact ⟨y, ey, (Option.some.inj hx).symm⟩

theorem LU.answers {d : LU α r c} (w : LU.Acc → Prop) (a : LU.Acc) (o : LU.Obj α r c) (h : LU.Keeps d w o) :
    Does (o.call a) (d.answer a) (LU.Keeps d w) (Clean w (LU.reads a)) := by
  obtain ⟨rfl, hl, hu, hq⟩ := h
  have cl : ∀ a, Clean w (LU.reads a) ↔ ¬ w a := fun a => by simp [Clean, LU.reads]
  rw [cl]
  cases a
  · exact LU.fill_step hl fun x hx => Does.pure ⟨rfl, hx, hu, hq⟩
  · exact LU.fill_step hu fun x hx => Does.pure ⟨rfl, hl, hx, hq⟩
  · exact LU.fill_step hq fun x hx => Does.pure ⟨rfl, hl, hu, hx⟩

theorem LU.obj_keeps (d : LU α r c) (w : LU.Acc → Prop) : LU.Keeps d w d.obj :=
  ⟨rfl, fun _ _ hx => (by cases hx), fun _ _ hx => (by cases hx), fun _ _ hx => (by cases hx)⟩

theorem LU.write_keeps {d : LU α r c} (w : LU.Acc → Prop) (a : LU.Acc) (x : SMat α) (o : LU.Obj α r c) (ha : w a)
    (h : LU.Keeps d w o) : LU.Keeps d w (o.write a x) := by
  obtain ⟨h0, hl, hu, hq⟩ := h
  cases a
  · exact ⟨h0, fun hn => absurd ha hn, hu, hq⟩
  · exact ⟨h0, hl, fun hn => absurd ha hn, hq⟩
  · exact ⟨h0, hl, hu, fun hn => absurd ha hn⟩

/-- C96 for LU: in every sequence of calls, every call answers what it answers on its own. -/
theorem C96_lu (d : LU α r c) (cs : List LU.Acc) :
    (runCalls LU.Obj.call cs d.obj).map Prod.fst = cs.mapM d.answer :=
  runCalls_eq (I := LU.Keeps d fun _ => False) (fun a o h => Clean.step (LU.answers _ a o h)) cs _ (d.obj_keeps _)

/-- C97 for LU, as far as it holds: whatever the client calls and overwrites, the private data stay, and a factor that has not been
overwritten is answered as before. -/
theorem C97_lu_partial (d : LU α r c) (as : List (Act LU.Acc α)) (o : LU.Obj α r c)
    (e : runActs LU.Obj.call LU.Obj.write as d.obj = .ok o) :
    o.d = d ∧ ∀ a, (∀ b ∈ LU.reads a, ∀ x, Act.write b x ∉ as) → (o.call a).map Prod.fst = d.answer a := by
  obtain ⟨h1, h2⟩ := acts_answer (clean := fun w a => Clean w (LU.reads a)) LU.answers LU.write_keeps (d.obj_keeps _) e
  exact ⟨h1.1, fun a ha => h2 a fun b hb ⟨x, hx⟩ => ha b hb x hx⟩

/-! ## Cholesky -/

/-- The invariant of a Cholesky decomposition. -/
def Chol.Keeps (d : Chol α r c) (w : Chol.Acc → Prop) (o : Chol.Obj α r c) : Prop :=
  o.d = d ∧ (Clean w [.l, .lT] → Slot o.l d.getL) ∧ (Clean w [.lT] → Slot o.lT d.getLT)

theorem Chol.stepLT_ok {d : Chol α r c} {w : Chol.Acc → Prop} {o : Chol.Obj α r c} (h : Chol.Keeps d w o) :
    Does o.callLT d.getLT (Chol.Keeps d w) (Clean w [.lT]) := by
  obtain ⟨rfl, hl, ht⟩ := h
  exact Does.cached ht (fun _ => rfl) fun v e => Does.pure ⟨rfl, hl, fun hc => Slot.some (e hc)⟩

theorem Chol.stepL_ok {d : Chol α r c} {w : Chol.Acc → Prop} {o : Chol.Obj α r c} (h : Chol.Keeps d w o) :
    Does o.callL d.getL (Chol.Keeps d w) (Clean w [.l, .lT]) := by
  rw [Chol.Obj.callL]
  cases e : o.l with
  | some x => exact Does.hit h fun hc => h.2.1 hc x e
  | none =>
    have hm : Clean w [.l, .lT] → Clean w [Chol.Acc.lT] := fun hc => hc.mono (by simp)
    refine (Chol.stepLT_ok h).bind hm (fun v s hs ev => ?_)
    show Does (v.flip >>= _) v.flip _ _
    exact Does.keep fun x ex => Does.pure
      ⟨hs.1, fun hc => Slot.some (by rw [Chol.getL, ev (hm hc)]; exact ex), hs.2.2⟩

theorem Chol.answers {d : Chol α r c} (w : Chol.Acc → Prop) (a : Chol.Acc) (o : Chol.Obj α r c) (h : Chol.Keeps d w o) :
    Does (o.call a) (d.answer a) (Chol.Keeps d w) (Clean w (Chol.reads a)) := by
  cases a
  · exact (Chol.stepL_ok h).bind id fun v s hs _ => Does.pure hs
  · exact (Chol.stepLT_ok h).bind id fun v s hs _ => Does.pure hs

theorem Chol.obj_keeps (d : Chol α r c) (w : Chol.Acc → Prop) : Chol.Keeps d w d.obj :=
  ⟨rfl, fun _ => Slot.none _, fun _ => Slot.none _⟩

theorem Chol.write_keeps {d : Chol α r c} (w : Chol.Acc → Prop) (a : Chol.Acc) (x : SMat α) (o : Chol.Obj α r c) (ha : w a)
    (h : Chol.Keeps d w o) : Chol.Keeps d w (o.write a x) := by
  obtain ⟨h0, hl, ht⟩ := h
  cases a
  · exact ⟨h0, fun hn => absurd ha (hn _ (by simp)), ht⟩
  · exact ⟨h0, hl, fun hn => absurd ha (hn _ (by simp))⟩

/-- C96 for Cholesky. -/
theorem C96_chol (d : Chol α r c) (cs : List Chol.Acc) :
    (runCalls Chol.Obj.call cs d.obj).map Prod.fst = cs.mapM d.answer :=
  runCalls_eq (I := Chol.Keeps d fun _ => False) (fun a o h => Clean.step (Chol.answers _ a o h)) cs _ (d.obj_keeps _)

/-- C97 for Cholesky, as far as it holds. -/
theorem C97_chol_partial (d : Chol α r c) (as : List (Act Chol.Acc α)) (o : Chol.Obj α r c)
    (e : runActs Chol.Obj.call Chol.Obj.write as d.obj = .ok o) :
    o.d = d ∧ ∀ a, (∀ b ∈ Chol.reads a, ∀ x, Act.write b x ∉ as) → (o.call a).map Prod.fst = d.answer a := by
  obtain ⟨h1, h2⟩ := acts_answer (clean := fun w a => Clean w (Chol.reads a)) Chol.answers Chol.write_keeps (d.obj_keeps _) e
  exact ⟨h1.1, fun a ha => h2 a fun b hb ⟨x, hx⟩ => ha b hb x hx⟩

/-! ## QR -/

/-- The invariant of a QR decomposition. -/
def QR.Keeps (d : QR α m n p) (w : QR.Acc → Prop) (o : QR.Obj α m n p) : Prop :=
  o.d = d ∧ (Clean w [.q, .qT] → Slot o.q d.q) ∧ (Clean w [.qT] → Slot o.qT d.qT) ∧ (Clean w [.r] → Slot o.r d.r) ∧
    (Clean w [.h] → Slot o.h d.h)

theorem QR.stepQT_ok {d : QR α m n p} {w : QR.Acc → Prop} {o : QR.Obj α m n p} (h : QR.Keeps d w o) :
    Does o.callQT d.qT (QR.Keeps d w) (Clean w [.qT]) := by
  obtain ⟨rfl, hq, ht, hr, hh⟩ := h
  exact Does.cached ht (fun _ => rfl) fun v e => Does.pure ⟨rfl, hq, fun hc => Slot.some (e hc), hr, hh⟩

theorem QR.stepR_ok {d : QR α m n p} {w : QR.Acc → Prop} {o : QR.Obj α m n p} (h : QR.Keeps d w o) :
    Does o.callR d.r (QR.Keeps d w) (Clean w [.r]) := by
  obtain ⟨rfl, hq, ht, hr, hh⟩ := h
  exact Does.cached hr (fun _ => rfl) fun v e => Does.pure ⟨rfl, hq, ht, fun hc => Slot.some (e hc), hh⟩

theorem QR.stepH_ok {d : QR α m n p} {w : QR.Acc → Prop} {o : QR.Obj α m n p} (h : QR.Keeps d w o) :
    Does o.callH d.h (QR.Keeps d w) (Clean w [.h]) := by
  obtain ⟨rfl, hq, ht, hr, hh⟩ := h
  exact Does.cached hh (fun _ => rfl) fun v e => Does.pure ⟨rfl, hq, ht, hr, fun hc => Slot.some (e hc)⟩

theorem QR.stepQ_ok {d : QR α m n p} {w : QR.Acc → Prop} {o : QR.Obj α m n p} (h : QR.Keeps d w o) :
    Does o.callQ d.q (QR.Keeps d w) (Clean w [.q, .qT]) := by
  rw [QR.Obj.callQ]
  cases e : o.q with
  | some x => exact Does.hit h fun hc => h.2.1 hc x e
  | none =>
    have hm : Clean w [.q, .qT] → Clean w [QR.Acc.qT] := fun hc => hc.mono (by simp)
    refine (QR.stepQT_ok h).bind hm (fun v s hs ev => ?_)
    show Does (v.flip >>= _) v.flip _ _
    exact Does.keep fun x ex => Does.pure
      ⟨hs.1, fun hc => Slot.some (by rw [QR.q, ev (hm hc)]; exact ex), hs.2.2⟩

theorem QR.answers {d : QR α m n p} (w : QR.Acc → Prop) (a : QR.Acc) (o : QR.Obj α m n p) (h : QR.Keeps d w o) :
    Does (o.call a) (d.answer a) (QR.Keeps d w) (Clean w (QR.reads a)) := by
  cases a
  · exact (QR.stepQ_ok h).bind id fun v s hs _ => Does.pure hs
  · exact (QR.stepQT_ok h).bind id fun v s hs _ => Does.pure hs
  · exact (QR.stepR_ok h).bind id fun v s hs _ => Does.pure hs
  · exact (QR.stepH_ok h).bind id fun v s hs _ => Does.pure hs

theorem QR.obj_keeps (d : QR α m n p) (w : QR.Acc → Prop) : QR.Keeps d w d.obj :=
  ⟨rfl, fun _ => Slot.none _, fun _ => Slot.none _, fun _ => Slot.none _, fun _ => Slot.none _⟩

theorem QR.write_keeps {d : QR α m n p} (w : QR.Acc → Prop) (a : QR.Acc) (x : SMat α) (o : QR.Obj α m n p) (ha : w a)
    (h : QR.Keeps d w o) : QR.Keeps d w (o.write a x) := by
  obtain ⟨h0, hq, ht, hr, hh⟩ := h
  cases a
  · exact ⟨h0, fun hn => absurd ha (hn _ (by simp)), ht, hr, hh⟩
  · exact ⟨h0, hq, fun hn => absurd ha (hn _ (by simp)), hr, hh⟩
  · exact ⟨h0, hq, ht, fun hn => absurd ha (hn _ (by simp)), hh⟩
  · exact ⟨h0, hq, ht, hr, fun hn => absurd ha (hn _ (by simp))⟩

/-- C96 for QR. -/
theorem C96_qr (d : QR α m n p) (cs : List QR.Acc) :
    (runCalls QR.Obj.call cs d.obj).map Prod.fst = cs.mapM d.answer :=
  runCalls_eq (I := QR.Keeps d fun _ => False) (fun a o h => Clean.step (QR.answers _ a o h)) cs _ (d.obj_keeps _)

/-- C97 for QR, as far as it holds. -/
theorem C97_qr_partial (d : QR α m n p) (as : List (Act QR.Acc α)) (o : QR.Obj α m n p)
    (e : runActs QR.Obj.call QR.Obj.write as d.obj = .ok o) :
    o.d = d ∧ ∀ a, (∀ b ∈ QR.reads a, ∀ x, Act.write b x ∉ as) → (o.call a).map Prod.fst = d.answer a := by
  obtain ⟨h1, h2⟩ := acts_answer (clean := fun w a => Clean w (QR.reads a)) QR.answers QR.write_keeps (d.obj_keeps _) e
  exact ⟨h1.1, fun a ha => h2 a fun b hb ⟨x, hx⟩ => ha b hb x hx⟩

/-! ## Rank-revealing QR -/

/-- The invariant of a rank-revealing QR decomposition. -/
def RRQR.Keeps (d : RRQR α m n p) (w : RRQR.Acc α → Prop) (o : RRQR.Obj α m n p) : Prop :=
  QR.Keeps d.qr (fun a => w (.qr a)) o.qr ∧ o.perm = d.p ∧ (Clean w [.p] → Slot o.p (do return ⟨n, n, ← d.pMat⟩))

theorem RRQR.stepP_ok {d : RRQR α m n p} {w : RRQR.Acc α → Prop} {o : RRQR.Obj α m n p} (h : RRQR.Keeps d w o) :
    Does o.callP (do return ⟨n, n, ← d.pMat⟩) (RRQR.Keeps d w) (Clean w [.p]) := by
  obtain ⟨h1, h2, h3⟩ := h
  have e : (⟨o.qr.d, o.perm⟩ : RRQR α m n p) = d := by rw [h1.1, h2]
  rw [RRQR.Obj.callP, e]
  exact Does.cached h3 (fun _ => rfl) fun v e => Does.pure ⟨h1, h2, fun hc => Slot.some (e hc)⟩

theorem RRQR.stepSolve_ok {d : RRQR α m n p} {w : RRQR.Acc α → Prop} {o : RRQR.Obj α m n p} (h : RRQR.Keeps d w o) {k q : Nat} (thr : α)
    (b : Mat α k q) : Does (o.callSolve thr b) (d.solveMatrix thr b) (RRQR.Keeps d w) (Clean w [.p]) := by
  rw [RRQR.Obj.callSolve, RRQR.solveMatrix, h.1.1]
  have := (RRQR.stepP_ok h).bind (c' := Clean w [.p]) (J := RRQR.Keeps d w) (f := fun pm => d.qr.solveMatrix thr b >>= fun x =>
    pm.1.m.multiply x.m >>= fun y => pure (y, pm.2)) (g := fun pm => d.qr.solveMatrix thr b >>= fun x => pm.m.multiply x.m) id
    fun v s hs _ => Does.lift fun x _ => Does.keep fun y _ => Does.pure hs
  rw [bind_assoc] at this
  exact this

theorem RRQR.answers {d : RRQR α m n p} (w : RRQR.Acc α → Prop) (a : RRQR.Acc α) (o : RRQR.Obj α m n p) (h : RRQR.Keeps d w o) :
    Does (o.call a) (d.answer a) (RRQR.Keeps d w) (Clean w (RRQR.reads a)) := by
  cases a with
  | qr a =>
    rw [RRQR.Obj.call, RRQR.answer, RRQR.reads]
    have := (QR.answers _ a _ h.1).bind (c' := Clean w ((QR.reads a).map .qr)) (J := RRQR.Keeps d w)
      (f := fun x => pure (x.1, ({ o with qr := x.2 } : RRQR.Obj α m n p))) (g := pure)
      (fun hc b hb => hc _ (List.mem_map_of_mem hb)) fun v s hs _ => Does.pure ⟨hs, h.2⟩
    rw [bind_pure] at this
    exact this
  | p =>
    rw [RRQR.Obj.call, RRQR.answer]
    have := (RRQR.stepP_ok h).bind (c' := Clean w [.p]) (J := RRQR.Keeps d w) (f := fun x => pure (Ans.mat x.1, x.2))
      (g := fun x => pure (.mat x)) id fun v s hs _ => Does.pure hs
    rw [bind_assoc] at this
    exact this
  | rank drop =>
    rw [RRQR.Obj.call, RRQR.answer]
    have e : d.rank drop = d.qr.r >>= fun x => RRQR.rankOf x drop := rfl
    rw [e, bind_assoc]
    refine (QR.stepR_ok h.1).bind ?_ fun v s hs _ => Does.lift fun k _ => Does.pure ⟨hs, h.2⟩
    intro hc b hb
    rw [List.mem_singleton] at hb
    subst hb
    exact hc _ (by simp [RRQR.reads])
  | solveVector thr b =>
    rw [RRQR.Obj.call, RRQR.answer, RRQR.solveVector, h.1.1]
    have := (RRQR.stepP_ok h).bind (c' := Clean w [.p]) (J := RRQR.Keeps d w) (f := fun pm => d.qr.solveVector thr b >>= fun x =>
      pm.1.m.operateVector (.arr x) >>= fun y => pure (Ans.vec y, pm.2)) (g := fun pm => d.qr.solveVector thr b >>= fun x =>
      pm.m.operateVector (.arr x) >>= fun y => pure (.vec y)) id
      fun v s hs _ => Does.lift fun x _ => Does.lift fun y _ => Does.pure hs
    simp only [bind_assoc] at this ⊢
    exact this
  | solveMatrix thr b => exact (RRQR.stepSolve_ok h thr b.m).bind id fun v s hs _ => Does.pure hs
  | inverse thr =>
    rw [RRQR.Obj.call, RRQR.answer, RRQR.inverse]
    have := (RRQR.stepP_ok h).bind (c' := Clean w [.p]) (J := RRQR.Keeps d w)
      (f := fun pm => ((Mat.identity (pm.1.r : Int)).must : Res (Mat α pm.1.r pm.1.r)) >>=
      fun i => pm.2.callSolve thr i >>= fun x => pure (Ans.mat x.1, x.2))
      (g := fun pm => ((Mat.identity (pm.r : Int)).must : Res (Mat α pm.r pm.r)) >>= fun i => d.solveMatrix thr i >>= fun x =>
        pure (.mat x)) id fun v s hs _ => Does.lift fun i _ => (RRQR.stepSolve_ok hs thr i).bind
        (f := fun x => pure (Ans.mat x.1, x.2)) (g := fun x => pure (.mat x)) id fun x s hs _ => Does.pure hs
    simp only [bind_assoc] at this ⊢
    exact this

theorem RRQR.obj_keeps (d : RRQR α m n p) (w : RRQR.Acc α → Prop) : RRQR.Keeps d w d.obj :=
  ⟨d.qr.obj_keeps _, rfl, fun _ => Slot.none _⟩

theorem RRQR.write_keeps {d : RRQR α m n p} (w : RRQR.Acc α → Prop) (a : RRQR.Acc α) (x : SMat α) (o : RRQR.Obj α m n p) (ha : w a)
    (h : RRQR.Keeps d w o) : RRQR.Keeps d w (o.write a x) := by
  obtain ⟨h1, h2, h3⟩ := h
  cases a with
  | qr a => exact ⟨QR.write_keeps _ a x _ ha h1, h2, h3⟩
  | p => exact ⟨h1, h2, fun hn => absurd ha (hn _ (by simp))⟩
  | _ => exact ⟨h1, h2, h3⟩

/-- C96 for the rank-revealing QR decomposition, including the rank and the solver. -/
theorem C96_rrqr (d : RRQR α m n p) (cs : List (RRQR.Acc α)) :
    (runCalls RRQR.Obj.call cs d.obj).map Prod.fst = cs.mapM d.answer :=
  runCalls_eq (I := RRQR.Keeps d fun _ => False) (fun a o h => Clean.step (RRQR.answers _ a o h)) cs _ (d.obj_keeps _)

/-- C97 for the rank-revealing QR decomposition, as far as it holds: the rank changes only if `R` has been overwritten, the solver only
if `P` has. -/
theorem C97_rrqr_partial (d : RRQR α m n p) (as : List (Act (RRQR.Acc α) α)) (o : RRQR.Obj α m n p)
    (e : runActs RRQR.Obj.call RRQR.Obj.write as d.obj = .ok o) :
    o.qr.d = d.qr ∧ o.perm = d.p ∧
      ∀ a, (∀ b ∈ RRQR.reads a, ∀ x, Act.write b x ∉ as) → (o.call a).map Prod.fst = d.answer a := by
  obtain ⟨h1, h2⟩ := acts_answer (clean := fun w a => Clean w (RRQR.reads a)) RRQR.answers RRQR.write_keeps (d.obj_keeps _) e
  exact ⟨h1.1.1, h1.2.1, fun a ha => h2 a fun b hb ⟨x, hx⟩ => ha b hb x hx⟩

/-! ## The transformers -/

/-- The invariant of a transformation to tridiagonal form. -/
def Tri.Keeps (d : Tri α r c) (w : Tri.Acc → Prop) (o : Tri.Obj α r c) : Prop :=
  o.d = d ∧ (Clean w [.q, .qT] → Slot o.q d.q) ∧ (Clean w [.qT] → Slot o.qT d.qT) ∧ (Clean w [.t] → Slot o.t d.t)

theorem Tri.stepQT_ok {d : Tri α r c} {w : Tri.Acc → Prop} {o : Tri.Obj α r c} (h : Tri.Keeps d w o) :
    Does o.callQT d.qT (Tri.Keeps d w) (Clean w [.qT]) := by
  obtain ⟨rfl, hq, ht, hr⟩ := h
  exact Does.cached ht (fun _ => rfl) fun v e => Does.pure ⟨rfl, hq, fun hc => Slot.some (e hc), hr⟩

omit [Flt α] in
/-- A call that looks into one slot and answers the matrix. -/
theorem Does.slot {σ : Type} {o : Option (SMat α)} {b : Res (SMat α)} {J : σ → Prop} {k : Prop} {f : SMat α → σ}
    (ho : k → Slot o b) (hf : ∀ v, (k → b = .ok v) → J (f v)) :
    Does (Linear.cached o b >>= fun x => .ok (Ans.mat x, f x)) (b >>= fun x => .ok (.mat x)) J k := by
  have h := Does.cached (J := J) (f := fun x => .ok (x, f x)) ho (fun _ => rfl) fun v e => Does.pure (hf v e)
  have := h.bind (c' := k) (J := J) (f := fun x => .ok (Ans.mat x.1, x.2)) (g := fun x => .ok (.mat x)) id
    fun v s hs _ => Does.pure hs
  rw [bind_assoc] at this
  exact this

theorem Tri.answers {d : Tri α r c} (w : Tri.Acc → Prop) (a : Tri.Acc) (o : Tri.Obj α r c) (h : Tri.Keeps d w o) :
    Does (o.call a) (d.answer a) (Tri.Keeps d w) (Clean w (Tri.reads a)) := by
  cases a
  · rw [Tri.Obj.call, Tri.answer]
    cases e : o.q with
    | some x =>
      refine Does.hit h fun hc => ?_
      rw [h.2.1 hc x e]
      rfl
    | none =>
      have hm : Clean w [.q, .qT] → Clean w [Tri.Acc.qT] := fun hc => hc.mono (by simp)
      have e : d.q = d.qT >>= SMat.flip := rfl
      rw [e, bind_assoc]
      exact (Tri.stepQT_ok h).bind hm fun v s hs ev => Does.lift fun w ew => Does.pure
        ⟨hs.1, fun hc => Slot.some (by rw [e, ev (hm hc)]; exact ew), hs.2.2⟩
  · exact (Tri.stepQT_ok h).bind id fun v s hs _ => Does.pure hs
  · obtain ⟨rfl, hq, ht, hr⟩ := h
    exact Does.slot hr fun v e => ⟨rfl, hq, ht, fun hc => Slot.some (e hc)⟩

theorem Tri.obj_keeps (d : Tri α r c) (w : Tri.Acc → Prop) : Tri.Keeps d w d.obj :=
  ⟨rfl, fun _ => Slot.none _, fun _ => Slot.none _, fun _ => Slot.none _⟩

theorem Tri.write_keeps {d : Tri α r c} (w : Tri.Acc → Prop) (a : Tri.Acc) (x : SMat α) (o : Tri.Obj α r c) (ha : w a)
    (h : Tri.Keeps d w o) : Tri.Keeps d w (o.write a x) := by
  obtain ⟨h0, hq, ht, hr⟩ := h
  cases a
  · exact ⟨h0, fun hn => absurd ha (hn _ (by simp)), ht, hr⟩
  · exact ⟨h0, hq, fun hn => absurd ha (hn _ (by simp)), hr⟩
  · exact ⟨h0, hq, ht, fun hn => absurd ha (hn _ (by simp))⟩

/-- C96 for the transformation to tridiagonal form. -/
theorem C96_tri (d : Tri α r c) (cs : List Tri.Acc) :
    (runCalls Tri.Obj.call cs d.obj).map Prod.fst = cs.mapM d.answer :=
  runCalls_eq (I := Tri.Keeps d fun _ => False) (fun a o h => Clean.step (Tri.answers _ a o h)) cs _ (d.obj_keeps _)

/-- C97 for the transformation to tridiagonal form, as far as it holds. -/
theorem C97_tri_partial (d : Tri α r c) (as : List (Act Tri.Acc α)) (o : Tri.Obj α r c)
    (e : runActs Tri.Obj.call Tri.Obj.write as d.obj = .ok o) :
    o.d = d ∧ ∀ a, (∀ b ∈ Tri.reads a, ∀ x, Act.write b x ∉ as) → (o.call a).map Prod.fst = d.answer a := by
  obtain ⟨h1, h2⟩ := acts_answer (clean := fun w a => Clean w (Tri.reads a)) Tri.answers Tri.write_keeps (d.obj_keeps _) e
  exact ⟨h1.1, fun a ha => h2 a fun b hb ⟨x, hx⟩ => ha b hb x hx⟩

/-- The invariant of a transformation to bidiagonal form. -/
def Bi.Keeps (d : Bi α m n) (w : Bi.Acc → Prop) (o : Bi.Obj α m n) : Prop :=
  o.d = d ∧ (Clean w [.u] → Slot o.u d.u) ∧ (Clean w [.b] → Slot o.b d.b) ∧ (Clean w [.v] → Slot o.v d.v)

theorem Bi.answers {d : Bi α m n} (w : Bi.Acc → Prop) (a : Bi.Acc) (o : Bi.Obj α m n) (h : Bi.Keeps d w o) :
    Does (o.call a) (d.answer a) (Bi.Keeps d w) (Clean w (Bi.reads a)) := by
  obtain ⟨rfl, hu, hb, hv⟩ := h
  cases a
  · exact Does.slot hu fun v e => ⟨rfl, fun hc => Slot.some (e hc), hb, hv⟩
  · exact Does.slot hb fun v e => ⟨rfl, hu, fun hc => Slot.some (e hc), hv⟩
  · exact Does.slot hv fun v e => ⟨rfl, hu, hb, fun hc => Slot.some (e hc)⟩

theorem Bi.obj_keeps (d : Bi α m n) (w : Bi.Acc → Prop) : Bi.Keeps d w d.obj :=
  ⟨rfl, fun _ => Slot.none _, fun _ => Slot.none _, fun _ => Slot.none _⟩

theorem Bi.write_keeps {d : Bi α m n} (w : Bi.Acc → Prop) (a : Bi.Acc) (x : SMat α) (o : Bi.Obj α m n) (ha : w a)
    (h : Bi.Keeps d w o) : Bi.Keeps d w (o.write a x) := by
  obtain ⟨h0, hq, ht, hr⟩ := h
  cases a
  · exact ⟨h0, fun hn => absurd ha (hn _ (by simp)), ht, hr⟩
  · exact ⟨h0, hq, fun hn => absurd ha (hn _ (by simp)), hr⟩
  · exact ⟨h0, hq, ht, fun hn => absurd ha (hn _ (by simp))⟩

/-- C96 for the transformation to bidiagonal form. -/
theorem C96_bi (d : Bi α m n) (cs : List Bi.Acc) :
    (runCalls Bi.Obj.call cs d.obj).map Prod.fst = cs.mapM d.answer :=
  runCalls_eq (I := Bi.Keeps d fun _ => False) (fun a o h => Clean.step (Bi.answers _ a o h)) cs _ (d.obj_keeps _)

/-- C97 for the transformation to bidiagonal form, as far as it holds. -/
theorem C97_bi_partial (d : Bi α m n) (as : List (Act Bi.Acc α)) (o : Bi.Obj α m n)
    (e : runActs Bi.Obj.call Bi.Obj.write as d.obj = .ok o) :
    o.d = d ∧ ∀ a, (∀ k ∈ Bi.reads a, ∀ x, Act.write k x ∉ as) → (o.call a).map Prod.fst = d.answer a := by
  obtain ⟨h1, h2⟩ := acts_answer (clean := fun w a => Clean w (Bi.reads a)) Bi.answers Bi.write_keeps (d.obj_keeps _) e
  exact ⟨h1.1, fun a ha => h2 a fun k hk ⟨x, hx⟩ => ha k hk x hx⟩

/-- The invariant of a transformation to Hessenberg form: the work slice may change once `P` has been built, nothing else. -/
def Hess.Keeps (d : Hess α r c) (w : Hess.Acc → Prop) (o : Hess.Obj α r c) : Prop :=
  o.d.hv = d.hv ∧ (o.p = none → o.d = d) ∧ (Clean w [.p] → Slot o.p d.p) ∧ (Clean w [.pT, .p] → Slot o.pT d.pT) ∧
    (Clean w [.h] → Slot o.h d.h)

theorem Hess.stepP_ok {d : Hess α r c} {w : Hess.Acc → Prop} {o : Hess.Obj α r c} (h : Hess.Keeps d w o) :
    Does o.callP d.p (Hess.Keeps d w) (Clean w [.p]) := by
  obtain ⟨h1, h2, h3, h4, h5⟩ := h
  rw [Hess.Obj.callP]
  cases e : o.p with
  | some x => exact Does.hit ⟨h1, h2, h3, h4, h5⟩ fun hc => h3 hc x e
  | none =>
    dsimp only
    have e1 : d.p = d.pWith >>= fun x => pure x.1 := by
      rw [Hess.p, Hess.pWith]
      simp only [bind_assoc, pure_bind, bind_pure]
    rw [h2 e, e1]
    refine Does.lift fun v ev => Does.pure ⟨rfl, nofun, fun _ => Slot.some ?_, h4, h5⟩
    rw [e1, ev]
    rfl

theorem Hess.answers {d : Hess α r c} (w : Hess.Acc → Prop) (a : Hess.Acc) (o : Hess.Obj α r c) (h : Hess.Keeps d w o) :
    Does (o.call a) (d.answer a) (Hess.Keeps d w) (Clean w (Hess.reads a)) := by
  cases a
  · exact (Hess.stepP_ok h).bind id fun v s hs _ => Does.pure hs
  · rw [Hess.Obj.call, Hess.answer]
    cases e : o.pT with
    | some x =>
      refine Does.hit h fun hc => ?_
      rw [h.2.2.2.1 hc x e]
      rfl
    | none =>
      have hm : Clean w [.pT, .p] → Clean w [Hess.Acc.p] := fun hc => hc.mono (by simp)
      have e : d.pT = d.p >>= SMat.flip := rfl
      rw [e, bind_assoc]
      exact (Hess.stepP_ok h).bind hm fun v s hs ev => Does.lift fun w ew => Does.pure
        ⟨hs.1, hs.2.1, hs.2.2.1, fun hc => Slot.some (by rw [e, ev (hm hc)]; exact ew), hs.2.2.2.2⟩
  · obtain ⟨h1, h2, h3, h4, h5⟩ := h
    have e : o.d.h = d.h := by
      have : ∀ x : Hess α r c, x.h = (Hess.mk x.hv d.ort).h := fun _ => rfl
      rw [this o.d, h1]
    rw [Hess.Obj.call, Hess.answer, e]
    exact Does.slot h5 fun v e => ⟨h1, h2, h3, h4, fun hc => Slot.some (e hc)⟩

theorem Hess.obj_keeps (d : Hess α r c) (w : Hess.Acc → Prop) : Hess.Keeps d w d.obj :=
  ⟨rfl, fun _ => rfl, fun _ => Slot.none _, fun _ => Slot.none _, fun _ => Slot.none _⟩

omit [Flt α] in
theorem overwrite_none {x : SMat α} {o : Option (SMat α)} (h : overwrite x o = none) : o = none := by
  cases o with
  | none => rfl
  | some y =>
    rw [overwrite] at h
    split at h <;> cases h

theorem Hess.write_keeps {d : Hess α r c} (w : Hess.Acc → Prop) (a : Hess.Acc) (x : SMat α) (o : Hess.Obj α r c) (ha : w a)
    (h : Hess.Keeps d w o) : Hess.Keeps d w (o.write a x) := by
  obtain ⟨h1, h2, h3, h4, h5⟩ := h
  cases a
  · exact ⟨h1, fun hn => h2 (overwrite_none hn), fun hn => absurd ha (hn _ (by simp)), h4, h5⟩
  · exact ⟨h1, h2, h3, fun hn => absurd ha (hn _ (by simp)), h5⟩
  · exact ⟨h1, h2, h3, h4, fun hn => absurd ha (hn _ (by simp))⟩

/-- C96 for the transformation to Hessenberg form: `P` overwrites its work slice, and nothing shows it. -/
theorem C96_hess (d : Hess α r c) (cs : List Hess.Acc) :
    (runCalls Hess.Obj.call cs d.obj).map Prod.fst = cs.mapM d.answer :=
  runCalls_eq (I := Hess.Keeps d fun _ => False) (fun a o h => Clean.step (Hess.answers _ a o h)) cs _ (d.obj_keeps _)

/-- C97 for the transformation to Hessenberg form, as far as it holds. -/
theorem C97_hess_partial (d : Hess α r c) (as : List (Act Hess.Acc α)) (o : Hess.Obj α r c)
    (e : runActs Hess.Obj.call Hess.Obj.write as d.obj = .ok o) :
    o.d.hv = d.hv ∧ ∀ a, (∀ b ∈ Hess.reads a, ∀ x, Act.write b x ∉ as) → (o.call a).map Prod.fst = d.answer a := by
  obtain ⟨h1, h2⟩ := acts_answer (clean := fun w a => Clean w (Hess.reads a)) Hess.answers Hess.write_keeps (d.obj_keeps _) e
  exact ⟨h1.1, fun a ha => h2 a fun b hb ⟨x, hx⟩ => ha b hb x hx⟩

/-- The invariant of a transformation to Schur form. -/
def Schur.Keeps (d : Schur α n) (w : Schur.Acc → Prop) (o : Schur.Obj α n) : Prop :=
  o.d = d ∧ (Clean w [.p] → Slot o.p d.pMat) ∧ (Clean w [.pT, .p] → Slot o.pT d.ptMat) ∧ (Clean w [.t] → Slot o.t d.tMat)

theorem Schur.stepP_ok {d : Schur α n} {w : Schur.Acc → Prop} {o : Schur.Obj α n} (h : Schur.Keeps d w o) :
    Does o.callP d.pMat (Schur.Keeps d w) (Clean w [.p]) := by
  obtain ⟨rfl, hp, ht, hr⟩ := h
  exact Does.cached hp (fun _ => rfl) fun v e => Does.pure ⟨rfl, fun hc => Slot.some (e hc), ht, hr⟩

theorem Schur.answers {d : Schur α n} (w : Schur.Acc → Prop) (a : Schur.Acc) (o : Schur.Obj α n) (h : Schur.Keeps d w o) :
    Does (o.call a) (d.answer a) (Schur.Keeps d w) (Clean w (Schur.reads a)) := by
  cases a
  · exact (Schur.stepP_ok h).bind id fun v s hs _ => Does.pure hs
  · rw [Schur.Obj.call, Schur.answer]
    cases e : o.pT with
    | some x =>
      refine Does.hit h fun hc => ?_
      rw [h.2.2.1 hc x e]
      rfl
    | none =>
      have hm : Clean w [.pT, .p] → Clean w [Schur.Acc.p] := fun hc => hc.mono (by simp)
      have e : d.ptMat = d.pMat >>= SMat.flip := rfl
      rw [e, bind_assoc]
      exact (Schur.stepP_ok h).bind hm fun v s hs ev => Does.lift fun w ew => Does.pure
        ⟨hs.1, hs.2.1, fun hc => Slot.some (by rw [e, ev (hm hc)]; exact ew), hs.2.2.2⟩
  · obtain ⟨rfl, hq, ht, hr⟩ := h
    exact Does.slot hr fun v e => ⟨rfl, hq, ht, fun hc => Slot.some (e hc)⟩

theorem Schur.obj_keeps (d : Schur α n) (w : Schur.Acc → Prop) : Schur.Keeps d w d.obj :=
  ⟨rfl, fun _ => Slot.none _, fun _ => Slot.none _, fun _ => Slot.none _⟩

theorem Schur.write_keeps {d : Schur α n} (w : Schur.Acc → Prop) (a : Schur.Acc) (x : SMat α) (o : Schur.Obj α n) (ha : w a)
    (h : Schur.Keeps d w o) : Schur.Keeps d w (o.write a x) := by
  obtain ⟨h0, hq, ht, hr⟩ := h
  cases a
  · exact ⟨h0, fun hn => absurd ha (hn _ (by simp)), ht, hr⟩
  · exact ⟨h0, hq, fun hn => absurd ha (hn _ (by simp)), hr⟩
  · exact ⟨h0, hq, ht, fun hn => absurd ha (hn _ (by simp))⟩

/-- C96 for the transformation to Schur form. -/
theorem C96_schur (d : Schur α n) (cs : List Schur.Acc) :
    (runCalls Schur.Obj.call cs d.obj).map Prod.fst = cs.mapM d.answer :=
  runCalls_eq (I := Schur.Keeps d fun _ => False) (fun a o h => Clean.step (Schur.answers _ a o h)) cs _ (d.obj_keeps _)

/-- C97 for the transformation to Schur form, as far as it holds. -/
theorem C97_schur_partial (d : Schur α n) (as : List (Act Schur.Acc α)) (o : Schur.Obj α n)
    (e : runActs Schur.Obj.call Schur.Obj.write as d.obj = .ok o) :
    o.d = d ∧ ∀ a, (∀ b ∈ Schur.reads a, ∀ x, Act.write b x ∉ as) → (o.call a).map Prod.fst = d.answer a := by
  obtain ⟨h1, h2⟩ := acts_answer (clean := fun w a => Clean w (Schur.reads a)) Schur.answers Schur.write_keeps (d.obj_keeps _) e
  exact ⟨h1.1, fun a ha => h2 a fun b hb ⟨x, hx⟩ => ha b hb x hx⟩

/-! ## Eigen -/

/-- The invariant of an eigendecomposition. -/
def Eig.Keeps (epsEd : α) (d : Eig α n) (w : Eig.Acc → Prop) (o : Eig.Obj α n) : Prop :=
  o.d = d ∧ (Clean w [.v] → Slot o.v d.v) ∧ (Clean w [.d] → Slot o.dm (d.dMat epsEd)) ∧ (Clean w [.vT] → Slot o.vT d.vT)

theorem Eig.stepV_ok {epsEd : α} {d : Eig α n} {w : Eig.Acc → Prop} {o : Eig.Obj α n} (h : Eig.Keeps epsEd d w o) :
    Does o.callV d.v (Eig.Keeps epsEd d w) (Clean w [.v]) := by
  obtain ⟨rfl, hv, hd, ht⟩ := h
  exact Does.cached hv (fun _ => rfl) fun v e => Does.pure ⟨rfl, fun hc => Slot.some (e hc), hd, ht⟩

theorem Eig.stepVT_ok {epsEd : α} {d : Eig α n} {w : Eig.Acc → Prop} {o : Eig.Obj α n} (h : Eig.Keeps epsEd d w o) :
    Does o.callVT d.vT (Eig.Keeps epsEd d w) (Clean w [.vT]) := by
  obtain ⟨rfl, hv, hd, ht⟩ := h
  exact Does.cached ht (fun _ => rfl) fun v e => Does.pure ⟨rfl, hv, hd, fun hc => Slot.some (e hc)⟩

theorem Eig.answers {epsEd : α} {d : Eig α n} (w : Eig.Acc → Prop) (a : Eig.Acc) (o : Eig.Obj α n) (h : Eig.Keeps epsEd d w o) :
    Does (o.call epsEd a) (d.answer epsEd a) (Eig.Keeps epsEd d w) (Clean w (Eig.reads a)) := by
  cases a
  · exact (Eig.stepV_ok h).bind id fun v s hs _ => Does.pure hs
  · obtain ⟨rfl, hv, hd, ht⟩ := h
    exact Does.slot hd fun v e => ⟨rfl, hv, fun hc => Slot.some (e hc), ht⟩
  · exact (Eig.stepVT_ok h).bind id fun v s hs _ => Does.pure hs
  · rw [Eig.Obj.call, Eig.answer, Eig.squareRoot, h.1]
    by_cases hs : d.sym = true
    · simp only [hs, Bool.not_true, Bool.false_eq_true, if_false, bind_assoc]
      refine Does.lift fun w _ => Does.lift fun dd _ => ?_
      refine (Eig.stepV_ok h).bind (fun hc => hc.mono (by simp [Eig.reads])) fun v s hs _ =>
        (Eig.stepVT_ok hs).bind (fun hc => hc.mono (by simp [Eig.reads])) fun vt s' hs' _ => ?_
      exact Does.lift fun x _ => Does.lift fun y _ => Does.pure hs'
    · simp only [hs, Bool.not_false, if_true]
      exact Does.fail
  · rw [Eig.Obj.call, Eig.answer, h.1]
    exact Does.pure h
  · rw [Eig.Obj.call, Eig.answer, h.1]
    exact Does.pure h
  · rename_i i
    rw [Eig.Obj.call, Eig.answer, h.1, Eig.realAt]
    by_cases c : i < 0
    · rw [if_pos c, if_neg (by omega)]; exact Does.fail
    · rw [if_neg c]
      by_cases c' : i < n
      · rw [if_pos ⟨by omega, c'⟩, Row.get_ok (by omega)]; exact Does.pure h
      · rw [if_neg (by omega), Row.get, if_neg (by omega)]; exact Does.fail
  · rename_i i
    rw [Eig.Obj.call, Eig.answer, h.1, Eig.imagAt]
    by_cases c : i < 0
    · rw [if_pos c, if_neg (by omega)]; exact Does.fail
    · rw [if_neg c]
      by_cases c' : i < n
      · rw [if_pos ⟨by omega, c'⟩, Row.get_ok (by omega)]; exact Does.pure h
      · rw [if_neg (by omega), Row.get, if_neg (by omega)]; exact Does.fail
  · rename_i i
    rw [Eig.Obj.call, Eig.answer, h.1, Eig.vectorAt]
    by_cases c : i < 0 ∨ (n : Int) ≤ i
    · rw [if_pos c, if_neg (by omega)]; exact Does.fail
    · rw [if_neg c, if_pos (by omega)]; exact Does.pure h

theorem Eig.obj_keeps (epsEd : α) (d : Eig α n) (w : Eig.Acc → Prop) : Eig.Keeps epsEd d w d.obj :=
  ⟨rfl, fun _ => Slot.none _, fun _ => Slot.none _, fun _ => Slot.none _⟩

theorem Eig.write_keeps {epsEd : α} {d : Eig α n} (w : Eig.Acc → Prop) (a : Eig.Acc) (x : SMat α) (o : Eig.Obj α n) (ha : w a)
    (h : Eig.Keeps epsEd d w o) : Eig.Keeps epsEd d w (o.write a x) := by
  obtain ⟨h0, hq, ht, hr⟩ := h
  cases a
  · exact ⟨h0, fun hn => absurd ha (hn _ (by simp)), ht, hr⟩
  · exact ⟨h0, hq, fun hn => absurd ha (hn _ (by simp)), hr⟩
  · exact ⟨h0, hq, ht, fun hn => absurd ha (hn _ (by simp))⟩
  all_goals exact ⟨h0, hq, ht, hr⟩

/-- C96 for the eigendecomposition, including the square root, the eigenvalues and the eigenvectors. -/
theorem C96_eig (epsEd : α) (d : Eig α n) (cs : List Eig.Acc) :
    (runCalls (Eig.Obj.call epsEd) cs d.obj).map Prod.fst = cs.mapM (d.answer epsEd) :=
  runCalls_eq (I := Eig.Keeps epsEd d fun _ => False) (fun a o h => Clean.step (Eig.answers _ a o h)) cs _ (d.obj_keeps _ _)

/-- C97 for the eigendecomposition, as far as it holds: the square root changes only if `V` or `VT` has been overwritten. -/
theorem C97_eig_partial (epsEd : α) (d : Eig α n) (as : List (Act Eig.Acc α)) (o : Eig.Obj α n)
    (e : runActs (Eig.Obj.call epsEd) Eig.Obj.write as d.obj = .ok o) :
    o.d = d ∧ ∀ a, (∀ b ∈ Eig.reads a, ∀ x, Act.write b x ∉ as) →
      (o.call epsEd a).map Prod.fst = d.answer epsEd a := by
  obtain ⟨h1, h2⟩ := acts_answer (clean := fun w a => Clean w (Eig.reads a)) Eig.answers Eig.write_keeps (d.obj_keeps epsEd _) e
  exact ⟨h1.1, fun a ha => h2 a fun b hb ⟨x, hx⟩ => ha b hb x hx⟩

/-! ## Singular values -/

/-- The invariant of a singular value decomposition: `U` and `V` themselves can be overwritten. -/
def Svd.Keeps (d : Svd α) (w : Svd.Acc α → Prop) (o : Svd.Obj α) : Prop :=
  (o.d.sv = d.sv ∧ o.d.tol = d.tol ∧ o.d.big = d.big) ∧ (Clean w [.u] → o.d.u = d.u) ∧ (Clean w [.v] → o.d.v = d.v) ∧
    (Clean w [.u, .uT] → Slot o.uT d.uT) ∧ (Clean w [.s] → Slot o.s d.sMat) ∧ (Clean w [.v, .vT] → Slot o.vT d.vT)

theorem Svd.stepUT_ok {d : Svd α} {w : Svd.Acc α → Prop} {o : Svd.Obj α} (h : Svd.Keeps d w o) :
    Does o.callUT d.uT (Svd.Keeps d w) (Clean w [.u, .uT]) := by
  obtain ⟨h0, hu, hv, hut, hs, hvt⟩ := h
  refine Does.cached hut (fun hc => ?_) fun v e => Does.pure ⟨h0, hu, hv, fun hc => Slot.some (e hc), hs, hvt⟩
  have e : ∀ x : Svd α, x.uT = x.u.flip := fun _ => rfl
  rw [e, e, hu (hc.mono (by simp))]

theorem Svd.stepVT_ok {d : Svd α} {w : Svd.Acc α → Prop} {o : Svd.Obj α} (h : Svd.Keeps d w o) :
    Does o.callVT d.vT (Svd.Keeps d w) (Clean w [.v, .vT]) := by
  obtain ⟨h0, hu, hv, hut, hs, hvt⟩ := h
  refine Does.cached hvt (fun hc => ?_) fun v e => Does.pure ⟨h0, hu, hv, hut, hs, fun hc => Slot.some (e hc)⟩
  have e : ∀ x : Svd α, x.vT = x.v.flip := fun _ => rfl
  rw [e, e, hv (hc.mono (by simp))]

theorem Svd.answers {d : Svd α} (w : Svd.Acc α → Prop) (a : Svd.Acc α) (o : Svd.Obj α) (h : Svd.Keeps d w o) :
    Does (o.call a) (d.answer a) (Svd.Keeps d w) (Clean w (Svd.reads a)) := by
  cases a with
  | u => exact Does.hit h fun hc => by rw [Svd.answer, h.2.1 hc]; rfl
  | uT => exact (Svd.stepUT_ok h).bind id fun v s hs _ => Does.pure hs
  | s =>
    obtain ⟨h0, hu, hv, hut, hs, hvt⟩ := h
    have e : o.d.sMat = d.sMat := by rw [Svd.sMat, h0.1, Svd.sMat]
    rw [Svd.Obj.call, Svd.answer, e]
    exact Does.slot hs fun v e => ⟨h0, hu, hv, hut, fun hc => Slot.some (e hc), hvt⟩
  | v => exact Does.hit h fun hc => by rw [Svd.answer, h.2.2.1 hc]; rfl
  | vT => exact (Svd.stepVT_ok h).bind id fun v s hs _ => Does.pure hs
  | covariance minSv =>
    have e : o.d.covarianceOf = d.covarianceOf := by
      have : ∀ x : Svd α, x.covarianceOf = (Svd.mk x.sv d.big d.u d.v d.tol).covarianceOf := fun _ => rfl
      rw [this, h.1.1]
    rw [Svd.Obj.call, Svd.answer, Svd.covariance, e, h.1.1]
    by_cases hc : Svd.cutoff minSv d.sv = 0
    · simp only [hc, if_true, bind_assoc]
      exact Does.lift fun _ _ => Does.fail
    · simp only [hc, if_false]
      have := (Svd.stepVT_ok h).bind (c' := Clean w [.v, .vT]) (J := Svd.Keeps d w)
        (f := fun x => d.covarianceOf x.1 minSv >>= fun y => pure (Ans.mat y, x.2))
        (g := fun x => d.covarianceOf x minSv >>= fun y => pure (.mat y)) id
        fun v s hs _ => Does.lift fun y _ => Does.pure hs
      simp only [Svd.covarianceOf, bind_assoc] at this ⊢
      exact this
  | solver =>
    rw [Svd.Obj.call, Svd.answer]
    have e : d.pinv = d.uT >>= d.pinvOf := rfl
    rw [e, bind_assoc]
    refine (Svd.stepUT_ok h).bind (fun hc => hc.mono (by simp [Svd.reads])) fun x s hs _ => Does.like hs fun hc => ?_
    have : ∀ y : Svd α, y.pinvOf x = (Svd.mk y.sv d.big d.u y.v y.tol).pinvOf x := fun _ => rfl
    rw [this, hs.1.1, hs.1.2.1, hs.2.2.1 (hc.mono (by simp [Svd.reads]))]

theorem Svd.obj_keeps (d : Svd α) (w : Svd.Acc α → Prop) : Svd.Keeps d w d.obj :=
  ⟨⟨rfl, rfl, rfl⟩, fun _ => rfl, fun _ => rfl, fun _ => Slot.none _, fun _ => Slot.none _, fun _ => Slot.none _⟩

theorem Svd.write_keeps {d : Svd α} (w : Svd.Acc α → Prop) (a : Svd.Acc α) (x : SMat α) (o : Svd.Obj α) (ha : w a)
    (h : Svd.Keeps d w o) : Svd.Keeps d w (o.write a x) := by
  obtain ⟨h0, hu, hv, hut, hs, hvt⟩ := h
  cases a with
  | u => exact ⟨h0, fun hn => absurd ha (hn _ (by simp)), hv, hut, hs, hvt⟩
  | uT => exact ⟨h0, hu, hv, fun hn => absurd ha (hn _ (by simp)), hs, hvt⟩
  | s => exact ⟨h0, hu, hv, hut, fun hn => absurd ha (hn _ (by simp)), hvt⟩
  | v => exact ⟨h0, hu, fun hn => absurd ha (hn _ (by simp)), hut, hs, hvt⟩
  | vT => exact ⟨h0, hu, hv, hut, hs, fun hn => absurd ha (hn _ (by simp))⟩
  | _ => exact ⟨h0, hu, hv, hut, hs, hvt⟩

/-- C96 for the singular value decomposition, including the covariance and the solver. -/
theorem C96_svd (d : Svd α) (cs : List (Svd.Acc α)) :
    (runCalls Svd.Obj.call cs d.obj).map Prod.fst = cs.mapM d.answer :=
  runCalls_eq (I := Svd.Keeps d fun _ => False) (fun a o h => Clean.step (Svd.answers _ a o h)) cs _ (d.obj_keeps _)

/-- C97 for the singular value decomposition, as far as it holds: the singular values stay; the pseudo-inverse of a new solver changes
only if `U`, `UT` or `V` has been overwritten. -/
theorem C97_svd_partial (d : Svd α) (as : List (Act (Svd.Acc α) α)) (o : Svd.Obj α)
    (e : runActs Svd.Obj.call Svd.Obj.write as d.obj = .ok o) :
    (o.d.sv = d.sv ∧ o.d.tol = d.tol ∧ o.d.big = d.big) ∧
      ∀ a, (∀ b ∈ Svd.reads a, ∀ x, Act.write b x ∉ as) → (o.call a).map Prod.fst = d.answer a := by
  obtain ⟨h1, h2⟩ := acts_answer (clean := fun w a => Clean w (Svd.reads a)) Svd.answers Svd.write_keeps (d.obj_keeps _) e
  exact ⟨h1.1, fun a ha => h2 a fun b hb ⟨x, hx⟩ => ha b hb x hx⟩

/-! ## C97 does not hold in full: the returned matrix is the cached one -/

/-- The matrix the caller overwrites is the one the next call returns (LU). -/
theorem C97_lu_shared {o o' : LU.Obj α r c} {a : LU.Acc} {x y : SMat α} (h : o.call a = .ok (.mat y, o'))
    (hr : x.r = y.r) (hc : x.c = y.c) : ((o'.write a x).call a).map Prod.fst = .ok (.mat x) := by
  have key : ∀ (s : Option (SMat α)) (b : Res (Option (Mat α c c))) (t : Option (SMat α)), LU.fill s b = .ok t →
      Ans.ofOpt t = Ans.mat y → overwrite x t = some x := by
    intro s b t _ ht
    cases t with
    | none => cases ht
    | some t =>
      cases ht
      rw [overwrite, if_pos ⟨hr, hc⟩]
  cases a
  all_goals
    rw [LU.Obj.call] at h
    cases e : LU.fill _ _ with
    | error f =>
      rw [e] at h
      cases h
    | ok t =>
      rw [e] at h
      injection h with h
      injection h with h1 h2
      subst h2
      rw [LU.Obj.call, LU.Obj.write]
      dsimp only
      rw [key _ _ _ e h1]
      rfl

/-- The matrix the caller overwrites is the one the next call returns, and `L` is then the transpose of the overwritten `LT` (Cholesky):
for every decomposition whose `LT` is `y` and every matrix `x` of the same dimensions. -/
theorem C97_chol_shared {d : Chol α r c} {x y : SMat α} (h : d.getLT = .ok y) (hr : x.r = y.r) (hc : x.c = y.c) :
    ∃ o, runActs Chol.Obj.call Chol.Obj.write [.call .lT, .write .lT x] d.obj = .ok o ∧
      (o.call .lT).map Prod.fst = .ok (.mat x) ∧ (o.call .l).map Prod.fst = x.flip.map .mat := by
  refine ⟨⟨d, none, some x⟩, ?_, rfl, ?_⟩
  · rw [runActs, Chol.Obj.call, Chol.Obj.callLT]
    show ((cached none d.getLT >>= _) >>= _) >>= _ = _
    rw [cached, h]
    show (Except.ok ⟨d, none, overwrite x (some y)⟩ : Res (Chol.Obj α r c)) = _
    rw [overwrite, if_pos ⟨hr, hc⟩]
  · show Except.map Prod.fst ((x.flip >>= _) >>= _) = _
    cases x.flip <;> rfl

/-- `Q` is the transpose of the overwritten `QT` if it has not been built before. -/
theorem C97_qr_shared {d : QR α m n p} {x y : SMat α} (h : d.qT = .ok y) (hr : x.r = y.r) (hc : x.c = y.c) :
    ∃ o, runActs QR.Obj.call QR.Obj.write [.call .qT, .write .qT x] d.obj = .ok o ∧
      (o.call .qT).map Prod.fst = .ok (.mat x) ∧ (o.call .q).map Prod.fst = x.flip.map .mat := by
  refine ⟨⟨d, none, some x, none, none⟩, ?_, rfl, ?_⟩
  · rw [runActs, QR.Obj.call, QR.Obj.callQT]
    show ((cached none d.qT >>= _) >>= _) >>= _ = _
    rw [cached, h]
    show (Except.ok ⟨d, none, overwrite x (some y), none, none⟩ : Res (QR.Obj α m n p)) = _
    rw [overwrite, if_pos ⟨hr, hc⟩]
  · show Except.map Prod.fst ((x.flip >>= _) >>= _) = _
    cases x.flip <;> rfl

/-- The entries of an answer. -/
def Ans.entries {β : Type} : Res (Ans ℚ × β) → Option (List (List ℚ))
  | .ok (.mat a, _) => a.m.dataCopy.toOption.map Jag.toLists
  | .ok (.vec l, _) => some [l]
  | .ok (.nat k, _) => some [[(k : ℚ)]]
  | _ => none

/-- A matrix of one entry. -/
def oneBy (x : ℚ) : Mat ℚ 1 1 := .arr ⟨⟨fun _ _ => x⟩, fun _ => 0⟩

/-- C97 is refuted for the solver of the rank-revealing QR decomposition: `x` with `1 · x = 1` is 1, and 2 after the caller has doubled the
matrix that `P` returned. -/
theorem C97_rrqr_false :
    (RRQR.new (oneBy 1)).toOption.map (fun d =>
      (Ans.entries (RRQR.Obj.call (.solveVector 0 (.arr [1])) d.obj),
        Ans.entries (runActs RRQR.Obj.call RRQR.Obj.write [.call .p, .write .p ⟨1, 1, oneBy 2⟩] d.obj >>=
          RRQR.Obj.call (.solveVector 0 (.arr [1]))))) = some (some [[1]], some [[2]]) := by decide +kernel

/-- C97 is refuted for the rank: the unit matrix of order 2 has rank 2, and rank 1 after the caller has cleared the matrix that `R`
returned. -/
theorem C97_rank_false :
    (RRQR.new (.arr ⟨⟨fun i j => if i = j then 1 else 0⟩, fun _ => 0⟩ : Mat ℚ 2 2)).toOption.map (fun d =>
      (Ans.entries (RRQR.Obj.call (.rank 0) d.obj),
        Ans.entries (runActs RRQR.Obj.call RRQR.Obj.write
          [.call (.qr .r), .write (.qr .r) ⟨2, 2, .arr ⟨⟨fun _ _ => 0⟩, fun _ => 0⟩⟩] d.obj >>=
          RRQR.Obj.call (.rank 0)))) = some (some [[2]], some [[1]]) := by decide +kernel

/-- C97 is refuted for the square root: that of 4 is 2, and 4 after the caller has doubled the matrix that `V` returned. -/
theorem C97_sqrt_false :
    (Eig.newSym (1 / 2 ^ 52) (oneBy 4)).toOption.map (fun d =>
      (Ans.entries (Eig.Obj.call 0 .squareRoot d.obj),
        Ans.entries (runActs (Eig.Obj.call 0) Eig.Obj.write [.call .v, .write .v ⟨1, 1, oneBy 2⟩] d.obj >>=
          Eig.Obj.call 0 .squareRoot))) = some (some [[2]], some [[4]]) := by decide +kernel

/-- C97 is refuted for the solver of the singular value decomposition: the inverse of 2 is 1/2, and 0 after the caller has cleared the
matrix that `V` returned. -/
theorem C97_svd_false :
    (Svd.new Spec.svdLit 3 (oneBy 2)).toOption.map (·.map fun d =>
      (Ans.entries (Svd.Obj.call .solver d.obj),
        Ans.entries (runActs Svd.Obj.call Svd.Obj.write [.write .v ⟨1, 1, oneBy 0⟩] d.obj >>=
          Svd.Obj.call .solver))) = some (some (some [[1 / 2]], some [[0]])) := by decide +kernel

/-- The hypotheses of C97 are met: a client that reads `L`, `U` and `L` again and overwrites `L`; `U` and `P` are not affected. -/
example : (LU.new (1 / 10) (-1) Spec.luCase).toOption.map (fun d =>
    match runActs LU.Obj.call LU.Obj.write
      [.call .l, .call .u, .call .l, .write .l ⟨3, 3, .arr ⟨⟨fun _ _ => 7⟩, fun _ => 0⟩⟩] d.obj with
    | .ok o => [Ans.entries (o.call .u) == Ans.entries (LU.Obj.call .u d.obj), Ans.entries (o.call .p) == Ans.entries (LU.Obj.call .p d.obj),
        Ans.entries (o.call .l) == Ans.entries (LU.Obj.call .l d.obj)]
    | .error _ => []) = some [true, true, false] := by decide +kernel

end Linear
