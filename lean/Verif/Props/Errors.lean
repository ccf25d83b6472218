import Verif.Model.Errors
import Verif.Lemmas.Loops

/-!
# C94 (messages of errors), C95 (what errors tell)
-/

namespace Linear

open Msg

variable {α : Type}

namespace Spec

/-- The message is the pattern with its verbs replaced by the arguments in their order, each verb by one
argument and each argument at one verb. -/
inductive Filled : List Piece → List (Arg α) → List (Tok α) → Prop
  | nil : Filled [] [] []
  | lit {s p as t} : Filled p as t → Filled (.lit s :: p) as (.text s :: t)
  | verb {a p as t} : Filled p as t → Filled (.verb :: p) (a :: as) (.shown a :: t)

/-- The arguments that a message shows, in their order. -/
def shownArgs : List (Tok α) → List (Arg α)
  | [] => []
  | .shown a :: t => a :: shownArgs t
  | .text _ :: t => shownArgs t
  | .missing :: t => shownArgs t
  | .extra _ :: t => shownArgs t

end Spec

open Spec

/-- Number of verbs of a pattern. -/
private def verbs (p : List Piece) : Nat := p.count .verb

private theorem filled_length {p : List Piece} {as : List (Arg α)} {t : List (Tok α)} (h : Filled p as t) :
    verbs p = as.length := by
  induction h with
  | nil => rfl
  | lit _ ih => simpa [verbs] using ih
  | verb _ ih => simpa [verbs] using ih

private theorem filled_size {p : List Piece} {as : List (Arg α)} {t : List (Tok α)} (h : Filled p as t) :
    t.length = p.length := by
  induction h with
  | nil => rfl
  | lit _ ih => simp [ih]
  | verb _ ih => simp [ih]

private theorem sprintf_size (p : List Piece) (as : List (Arg α)) :
    (sprintf p as).length = p.length + (as.length - verbs p) := by
  induction p generalizing as with
  | nil => simp [sprintf, verbs]
  | cons x p ih => cases x with
    | lit s => simp [sprintf, ih, verbs]; omega
    | verb => cases as with
      | nil => simp [sprintf, ih, verbs]
      | cons a as => simp [sprintf, ih, verbs]; omega

/-- `Sprintf` fills a pattern exactly when it has as many verbs as there are arguments. -/
theorem sprintf_filled {p : List Piece} {as : List (Arg α)} :
    Filled p as (sprintf p as) ↔ p.count .verb = as.length := by
  refine ⟨filled_length, ?_⟩
  induction p generalizing as with
  | nil => intro h; cases as with
    | nil => exact .nil
    | cons => simp at h
  | cons x p ih => cases x with
    | lit s => intro h; exact .lit (ih (by simpa using h))
    | verb => intro h; cases as with
      | nil => simp at h
      | cons a as => exact .verb (ih (by simpa using h))

private theorem filled_shown {p : List Piece} {as : List (Arg α)} {t : List (Tok α)} (h : Filled p as t) :
    shownArgs t = as := by
  induction h with
  | nil => rfl
  | lit _ ih => simpa [shownArgs] using ih
  | verb _ ih => simp [shownArgs, ih]

private theorem shown_prefix {p : List Piece} {as : List (Arg α)} : shownArgs (sprintf p as) <+: as := by
  induction p generalizing as with
  | nil =>
    have : ∀ as : List (Arg α), shownArgs (as.map .extra) = [] := by
      intro as
      induction as with
      | nil => rfl
      | cons a as ih => simpa [shownArgs] using ih
    unfold sprintf
    rw [this]; exact List.nil_prefix
  | cons x p ih => cases x with
    | lit s => simpa [sprintf, shownArgs] using ih
    | verb => cases as with
      | nil => simpa [sprintf, shownArgs] using ih (as := [])
      | cons a as => simpa [sprintf, shownArgs] using ih

/-! ## C94 -/

private theorem mismatch_ok (w e : List Int) :
    mismatchArgs (α := α) w e = .ok ((w ++ e).map .int) := by
  have H : Wp (mismatchArgs (α := α) w e) (fun args => args.length = w.length + e.length ∧
      ∀ k, k < w.length + e.length → args[k]? = ((w ++ e)[k]?).map Arg.int) fun _ => False := by
    unfold mismatchArgs
    refine wp_forUp (E := fun _ => False)
      (fun i (args : List (Arg α)) => args.length = w.length + e.length ∧
        ∀ k, k < i → args[k]? = ((w ++ e)[k]?).map Arg.int) (Nat.zero_le _) ⟨by simp, by simp⟩ ?_
    intro i args _ hi ⟨h1, h2⟩
    have key : ∀ z : Int, (w ++ e)[i]? = some z →
        (args.set i (.int z)).length = w.length + e.length ∧
        ∀ k, k < i + 1 → (args.set i (.int z))[k]? = ((w ++ e)[k]?).map Arg.int := by
      intro z hz
      refine ⟨by simpa using h1, fun k hk => ?_⟩
      by_cases hki : i = k
      · subst hki
        rw [List.getElem?_set_self (by omega), hz]; rfl
      · rw [List.getElem?_set_ne hki]; exact h2 k (by omega)
    by_cases hw : i < w.length
    · rw [if_pos hw, List.getElem?_eq_getElem hw]
      exact key _ (by rw [List.getElem?_append_left hw, List.getElem?_eq_getElem hw])
    · have he : i - w.length < e.length := by omega
      rw [if_neg hw, List.getElem?_eq_getElem he]
      exact key _ (by rw [List.getElem?_append_right (by omega), List.getElem?_eq_getElem he])
  obtain ⟨x, hx, h1, h2⟩ := H.exists_ok
  rw [hx]
  congr 1
  refine List.ext_getElem? fun k => ?_
  by_cases hk : k < w.length + e.length
  · rw [h2 k hk, List.getElem?_map]
  · rw [List.getElem?_eq_none (by omega), List.getElem?_eq_none (by simp; omega)]

/-- **C94, part.** Errors that are not about one number are filled by their arguments: unsupported
operations, arithmetic, invalid arguments, missing data and singular matrices whatever the pattern, when
it has a verb for each argument; dimensions of matrices and symmetry with their own patterns. What is
missing: the errors about one number, see `C94_number_false`, and the patterns of two constructors,
see `C94_pattern_false`. -/
theorem C94_filled_partial :
    Filled (.lit "Math Error: " :: unsupportedOperation) [] (unsupportedf (α := α)).msg ∧
    (∀ (p : List Piece) (as : List (Arg α)), p.count .verb = as.length →
      Filled (.lit "Math Error: " :: p) as (arithmeticf p as).msg ∧
      Filled (.lit "Math Error: " :: p) as (invalidArgumentf p as).msg ∧
      Filled (.lit "Math Error: " :: p) as (noDataf p as).msg ∧
      Filled (.lit "Math Error: " :: p) as (singularf p as).msg ∧
      Filled (.lit "Math Error: " :: p) as (illegalStatef p as).msg ∧
      ∀ max, Filled (.lit "Math Error: " :: p) as (maxIterationf p max as).msg) ∧
    (∀ (p : List Piece) (w e : List Int), p.count .verb = w.length + e.length →
      ∃ x : MultiDimension α, multiDimensionf p w e = .ok x ∧
        Filled (.lit "Math Error: " :: p) ((w ++ e).map .int) x.msg) ∧
    (∀ wr wc er ec : Int, ∃ x : MatrixDimension α, matrixDimensionf wr wc er ec = .ok x ∧
      Filled (.lit "Math Error: " :: dimensionsMismatch2x2) [.int wr, .int wc, .int er, .int ec] x.msg) ∧
    (∀ (i j : Int) (t : α), Filled (.lit "Math Error: " :: nonSymmetricMatrix)
      [.int i, .int j, .int j, .int i, .num t] (nonSymmetricSimplef i j t).msg) := by
  have hm : ∀ (p : List Piece) (as : List (Arg α)), p.count .verb = as.length →
      Filled (.lit "Math Error: " :: p) as (mathErrorf p as).msg := fun p as h =>
    sprintf_filled.2 (by simpa using h)
  refine ⟨hm _ _ rfl, fun p as h => ⟨hm _ _ h, hm _ _ h, hm _ _ h, hm _ _ h, hm _ _ h, fun _ => hm _ _ h⟩,
    fun p w e h => ?_, fun wr wc er ec => ?_, fun i j t => hm _ _ rfl⟩
  · refine ⟨_, by unfold multiDimensionf; rw [mismatch_ok]; rfl, hm _ _ ?_⟩
    simpa using h
  · refine ⟨_, by unfold matrixDimensionf multiDimensionf; rw [mismatch_ok]; rfl, hm _ _ rfl⟩

/-- **C94 refuted for numbers.** No error about one number is filled by its arguments, whatever the
pattern and the arguments: the constructor passes the slice of the other arguments on as one argument.
The number itself is shown when the pattern has a verb; of the other arguments none is shown on its own. -/
theorem C94_number_false (p : List Piece) (wrong : α) (as : List (Arg α)) :
    ¬Filled (.lit "Math Error: " :: p) (.num wrong :: as) (illegalNumberf p wrong as).msg ∧
    shownArgs (illegalNumberf p wrong as).msg <+: [.num wrong, .list as] := by
  refine ⟨fun h => ?_, shown_prefix (p := .lit "Math Error: " :: p)⟩
  have h1 := filled_shown h
  have h2 : shownArgs (illegalNumberf p wrong as).msg <+: [.num wrong, .list as] :=
    shown_prefix (p := .lit "Math Error: " :: p)
  rw [h1, List.cons_prefix_cons] at h2
  have h3 := filled_length h
  have h4 : (sprintf (.lit "Math Error: " :: p) [.num wrong, .list as]).length = _ := filled_size h
  rw [sprintf_size, h3] at h4
  cases as with
  | nil => simp at h4
  | cons a l =>
    have h5 := (List.cons_prefix_cons.1 h2.2).1
    have h6 := congrArg sizeOf h5
    simp at h6
    omega

/-- **C94 refuted for two patterns.** The error for too many iterations announces a number that it does
not show, and the plain error for an illegal state ignores its pattern and its arguments. -/
theorem C94_pattern_false (max : Int) :
    (maxIterationSimplef (α := α) max).msg =
      [.text "Math Error: ", .text "maximal count (", .missing, .text ") exceeded"] ∧
    (∀ as : List (Arg α), ¬Filled (.lit "Math Error: " :: maxCountExceeded) as (maxIterationSimplef max).msg) ∧
    ∀ (p : List Piece) (as : List (Arg α)), p ≠ illegalState →
      ¬Filled (.lit "Math Error: " :: p) as (illegalStateSimplef p as).msg := by
  refine ⟨rfl, fun as h => ?_, fun p as hp h => ?_⟩
  · change Filled _ as [.text "Math Error: ", .text "maximal count (", .missing, .text ") exceeded"] at h
    cases h with
    | lit h => cases h with
      | lit h => cases h
  · change Filled _ as [.text "Math Error: ", .text "illegal state"] at h
    cases h with
    | lit h => cases h with
      | lit h => cases h with
        | nil => exact hp rfl

/-- **C94, the messages about one number as they are.** What the errors about one number say, for all
numbers: the expected dimension and the bounds appear as slices in brackets, the upper end of a range is
missing, patterns with one verb get a slice too many, the cutoff of singular values shows nothing at its
place, and the error on matrices that are not positive definite never shows the index. -/
theorem C94_number_messages (cvt : Int → α) (w e : Int) (x lo hi : α) :
    (dimensionSimplef cvt w e).msg =
      [.text "Math Error: ", .shown (.num (cvt w)), .text " != ", .shown (.list [.int e])] ∧
    (nonSquareSimplef cvt w e).msg =
      [.text "Math Error: ", .text "non square (", .shown (.num (cvt w)), .text "x", .shown (.list [.int e]),
        .text ") matrix"] ∧
    (outOfRangeSimplef x lo hi).msg =
      [.text "Math Error: ", .shown (.num x), .text " out of [", .shown (.list [.num lo, .num hi]), .text ", ",
        .missing, .text "] range"] ∧
    (∀ p : List Piece, p.count .verb = 1 →
      ∃ t, Filled (.lit "Math Error: " :: p) [.num x] t ∧
        (outOfRangef p x lo hi).msg = t ++ [.extra (.list [.num lo, .num hi])] ∧
        (notPositivef cvt p x).msg = t ++ [.extra (.list [.num (cvt 0)])]) ∧
    (tooSmallBoundedf x lo true).msg =
      [.text "Math Error: ", .shown (.num x), .text " is smaller than the minimum (", .shown (.list [.num lo]),
        .text ")"] ∧
    (tooSmallBoundedf x lo false).msg =
      [.text "Math Error: ", .shown (.num x), .text " is smaller than, or equal to, the minimum (",
        .shown (.list [.num lo]), .text ")"] ∧
    (tooLargeBoundedf x hi true).msg =
      [.text "Math Error: ", .shown (.num x), .text " is larger than the maximum (", .shown (.list [.num hi]),
        .text ")"] ∧
    (tooLargeBoundedf x hi false).msg =
      [.text "Math Error: ", .shown (.num x), .text " is larger than, or equal to, the maximum (",
        .shown (.list [.num hi]), .text ")"] ∧
    (tooLargef tooLargeCutoff x hi true).msg =
      [.text "Math Error: ", .text "cutoff singular value is {0}, should be at most {1}", .extra (.num x),
        .extra (.list [.num hi])] ∧
    (nonPositiveDefinitef x w lo).msg =
      [.text "Math Error: ", .shown (.num x), .text " is smaller than, or equal to, the minimum (",
        .shown (.list [.num lo]), .text ")"] := by
  refine ⟨rfl, rfl, rfl, fun p hp => ⟨sprintf (.lit "Math Error: " :: p) [.num x],
    sprintf_filled.2 (by simpa using hp), ?_⟩, rfl, rfl, rfl, rfl, rfl, rfl⟩
  have key : ∀ y : Arg α, sprintf p [.num x, y] = sprintf p [.num x] ++ [.extra y] := by
    intro y
    induction p with
    | nil => simp at hp
    | cons c p ih => cases c with
      | lit s => simpa [sprintf] using ih (by simpa using hp)
      | verb =>
        have h0 : p.count .verb = 0 := by simpa using hp
        have : ∀ q : List Piece, q.count .verb = 0 → sprintf q [y] = sprintf q [] ++ [.extra y] := by
          intro q hq
          induction q with
          | nil => rfl
          | cons c q ih => cases c with
            | lit s => simpa [sprintf] using ih (by simpa using hq)
            | verb => simp at hq
        simpa [sprintf] using this p h0
  exact ⟨congrArg (Tok.text "Math Error: " :: ·) (key _), congrArg (Tok.text "Math Error: " :: ·) (key _)⟩

/-- **C94 refuted for ranges of rows.** `checkSubMatrixIndex`, `/repo/array_2d_row_real_matrix.go:894`, refuses a final row
before the initial one with `tooSmallf initialRowAfterFinalRow end start`; the message then gives the final
row as the initial one. -/
theorem C94_rows_false (cvt : Int → α) (start fin : Int) (h : cvt start ≠ cvt fin) :
    ∃ t, (tooSmallf initialRowAfterFinalRow (cvt fin) (cvt start) false).msg =
        .text "Math Error: " :: .text "initial row " :: .shown (.num (cvt fin)) :: t ∧
      ∀ t', (tooSmallf initialRowAfterFinalRow (cvt fin) (cvt start) false).msg ≠
        .text "Math Error: " :: .text "initial row " :: .shown (.num (cvt start)) :: t' := by
  refine ⟨_, rfl, fun t' e => ?_⟩
  have e : Tok.text "Math Error: " :: .text "initial row " :: .shown (.num (cvt fin)) :: _ = _ := e
  simp only [List.cons.injEq, Tok.shown.injEq, Arg.num.injEq, true_and] at e
  exact h e.1.symm

/-! ## C95 -/

/-- **C95.** The accessors of an error answer the arguments of its constructor. -/
theorem C95_accessors (cvt : Int → α) :
    (∀ wr wc er ec : Int, ∃ x : MatrixDimension α, matrixDimensionf wr wc er ec = .ok x ∧
      x.wrongRow = .ok wr ∧ x.wrongCol = .ok wc ∧ x.expectedRow = .ok er ∧ x.expectedCol = .ok ec) ∧
    (∀ (p : List Piece) (w e : List Int), ∃ x : MultiDimension α, multiDimensionf p w e = .ok x ∧
      (∀ i (h : i < w.length), x.wrongDimension i = .ok w[i]) ∧
      (∀ i, w.length ≤ i → x.wrongDimension i = .error .rt) ∧
      (∀ i (h : i < e.length), x.expectedDimension i = .ok e[i]) ∧
      ∀ i, e.length ≤ i → x.expectedDimension i = .error .rt) ∧
    (∀ (i j : Int) (t : α), (nonSymmetricSimplef i j t).row = i ∧ (nonSymmetricSimplef i j t).column = j ∧
      (nonSymmetricSimplef i j t).threshold = t) ∧
    (∀ w e : Int, (dimensionSimplef cvt w e).argument = cvt w ∧ (dimensionSimplef cvt w e).dimension = e ∧
      (nonSquareSimplef cvt w e).argument = cvt w ∧ (nonSquareSimplef cvt w e).dimension = e) ∧
    (∀ (p : List Piece) (x lo hi : α), (outOfRangef p x lo hi).argument = x ∧ (outOfRangef p x lo hi).lo = lo ∧
      (outOfRangef p x lo hi).high = hi) ∧
    (∀ (x b : α) (ok : Bool),
      ((tooSmallBoundedf x b ok).argument = x ∧ (tooSmallBoundedf x b ok).min = b ∧
        (tooSmallBoundedf x b ok).boundIsAllowed = ok) ∧
      ((tooLargeBoundedf x b ok).argument = x ∧ (tooLargeBoundedf x b ok).max = b ∧
        (tooLargeBoundedf x b ok).boundIsAllowed = ok)) ∧
    (∀ (x : α) (i : Int) (t : α), (nonPositiveDefinitef x i t).argument = x ∧
      (nonPositiveDefinitef x i t).row = i ∧ (nonPositiveDefinitef x i t).column = i ∧
      (nonPositiveDefinitef x i t).threshold = t ∧ (nonPositiveDefinitef x i t).min = t ∧
      (nonPositiveDefinitef x i t).boundIsAllowed = false) ∧
    (∀ (p : List Piece) (max : Int) (as : List (Arg α)), (maxIterationf p max as).max = max) ∧
    (∀ (p : List Piece) (x : α), (notPositivef cvt p x).argument = x ∧ (notPositivef cvt p x).min = cvt 0 ∧
      (notPositivef cvt p x).boundIsAllowed = true) ∧
    (∀ x : α, (notStrictlyPositivef cvt x).argument = x ∧ (notStrictlyPositivef cvt x).min = cvt 0) := by
  have hget : ∀ (l : List Int) i (h : i < l.length),
      (match l[i]? with | some x => (.ok x : Res Int) | none => .error .rt) = .ok l[i] := by
    intro l i h
    rw [List.getElem?_eq_getElem h]
  have hnone : ∀ (l : List Int) i, l.length ≤ i →
      (match l[i]? with | some x => (.ok x : Res Int) | none => .error .rt) = .error .rt := by
    intro l i h
    rw [List.getElem?_eq_none h]
  refine ⟨fun wr wc er ec => ?_, fun p w e => ?_, fun i j t => ⟨rfl, rfl, rfl⟩, fun w e => ⟨rfl, rfl, rfl, rfl⟩,
    fun p x lo hi => ⟨rfl, rfl, rfl⟩, fun x b ok => ?_, fun x i t => ⟨rfl, rfl, rfl, rfl, rfl, rfl⟩,
    fun p m as => rfl, fun p x => ⟨rfl, rfl, rfl⟩, fun x => ⟨rfl, rfl⟩⟩
  · exact ⟨_, by unfold matrixDimensionf multiDimensionf; rw [mismatch_ok]; rfl, rfl, rfl, rfl, rfl⟩
  · exact ⟨⟨illegalArgumentf p ((w ++ e).map .int), w, e⟩, by unfold multiDimensionf; rw [mismatch_ok]; rfl, fun i h => hget w i h, fun i h => hnone w i h,
      fun i h => hget e i h, fun i h => hnone e i h⟩
  · cases ok <;> exact ⟨⟨rfl, rfl, rfl⟩, rfl, rfl, rfl⟩

/-- **C95, part.** The status tells the type of an error, but for one pair: errors for numbers that are too
small and for matrices that are not positive definite have the same status. -/
theorem C95_status_partial (e f : LinearMathError α) (h : e.status = f.status) :
    e.ctorIdx = f.ctorIdx ∨
    ((∃ x, e = .tooSmall x) ∧ ∃ x, f = .nonPositiveDefinite x) ∨
    ((∃ x, e = .nonPositiveDefinite x) ∧ ∃ x, f = .tooSmall x) := by
  cases e <;> cases f <;>
    first
    | exact .inl rfl
    | exact .inr (.inl ⟨⟨_, rfl⟩, _, rfl⟩)
    | exact .inr (.inr ⟨⟨_, rfl⟩, _, rfl⟩)
    | (simp [LinearMathError.status] at h)

/-- **C95 refuted for one pair of types.** -/
theorem C95_status_false (x y : α) (i : Int) :
    (LinearMathError.tooSmall (tooSmallBoundedf x y false)).status =
      (LinearMathError.nonPositiveDefinite (nonPositiveDefinitef x i y)).status := rfl

/-- **C95 refuted for dimensions.** The error for a number that is not strictly positive says that its
bound, zero, is allowed, and it is used to refuse zero: `NewBlockRealMatrix` and the other constructors
refuse a dimension of 0 with the message that 0 is smaller than the minimum 0. -/
theorem C95_bound_false (cvt : Int → α) :
    (notStrictlyPositivef cvt (cvt 0)).boundIsAllowed = true ∧
    (notStrictlyPositivef cvt (cvt 0)).argument = (notStrictlyPositivef cvt (cvt 0)).min ∧
    (notStrictlyPositivef cvt (cvt 0)).msg =
      [.text "Math Error: ", .shown (.num (cvt 0)), .text " is smaller than the minimum (",
        .shown (.list [.num (cvt 0)]), .text ")"] :=
  ⟨rfl, rfl, rfl⟩

/-! ## Concrete cases -/

/-- The singular-matrix error of `/repo/qr_decomposition.go:299` has three verbs and three arguments. -/
example : Filled (α := Rat) (.lit "Math Error: " ::
      (singularMatrix ++ .lit " : " :: numberTooSmall ++ .lit " : " :: index))
    [.num 3, .num 5, .int 1]
    (singularf (singularMatrix ++ .lit " : " :: numberTooSmall ++ .lit " : " :: index)
      [.num 3, .num 5, .int 1]).msg :=
  (C94_filled_partial.2.1 _ _ rfl).2.2.2.1

example : ¬Filled (α := Rat) (.lit "Math Error: " :: dimensionsMismatchSimple) [.num 2, .int 3]
    (dimensionSimplef (fun i => (i : Rat)) 2 3).msg :=
  (C94_number_false _ _ _).1

end Linear
