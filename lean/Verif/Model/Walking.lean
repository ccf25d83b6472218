import Verif.Model.Matrix

/-!
# Interface dispatch of all the walk methods

`/repo/real_matrix.go`, methods `WalkIn*` of `RealMatrix`, run the method of the storage.
-/

namespace Linear

variable {α : Type} [Flt α] {τ : Type}

/-- Which of the three families of walk methods is called. (/repo/real_matrix.go:240-324) -/
inductive Order
  | row | col | opt
  deriving DecidableEq

/-- A walk of the underlying object seen through the interface value. (/repo/real_matrix.go:240-324) -/
def liftWalk {β σ τ : Type} (f : σ → τ) : Except (Fault × σ) (β × σ) → Except (Fault × τ) (β × τ)
  | .ok (x, s) => .ok (x, f s)
  | .error (e, s) => .error (e, f s)

/-- `WalkInRowOrder`, `WalkInColumnOrder`, `WalkInOptimizedOrder`. (/repo/real_matrix.go:248, 280, 310) -/
def Mat.walkIn {r c : Nat} (m : Mat α r c) (o : Order) (v : VisP α τ) (t : τ) : Res (τ × α) :=
  match m, o with
  | .arr m, .row => m.walkRow v t
  | .arr m, .col => m.walkCol v t
  | .arr m, .opt => m.walkRow v t
  | .blk m, .row => m.walkRow v t
  | .blk m, .col => m.walkCol v t
  | .blk m, .opt => m.walkOpt v t
  | .dia m, .row => m.walkRow v t
  | .dia m, .col => m.walkCol v t
  | .dia m, .opt => m.walkRow v t
  | .ext _, _ => .error .user

/-- `WalkInRowOrderBounded`, `WalkInColumnOrderBounded`, `WalkInOptimizedOrderBounded`. (/repo/real_matrix.go:264, 296, 324) -/
def Mat.walkInB {r c : Nat} (m : Mat α r c) (o : Order) (v : VisP α τ) (t : τ)
    (sr er sc ec : Int) : Res (τ × α) :=
  match m, o with
  | .arr m, .row => m.walkRowB v t sr er sc ec
  | .arr m, .col => m.walkColB v t sr er sc ec
  | .arr m, .opt => m.walkRowB v t sr er sc ec
  | .blk m, .row => m.walkRowB v t sr er sc ec
  | .blk m, .col => m.walkColB v t sr er sc ec
  | .blk m, .opt => m.walkOptB v t sr er sc ec
  | .dia m, .row => m.walkRowB v t sr er sc ec
  | .dia m, .col => m.walkColB v t sr er sc ec
  | .dia m, .opt => m.walkRowB v t sr er sc ec
  | .ext _, _ => .error .user

/-- `WalkInUpdateRowOrder`, `WalkInUpdateColumnOrder`, `WalkInUpdateOptimizedOrder`. (/repo/real_matrix.go:240, 272, 303) -/
def Mat.updIn : {r c : Nat} → Mat α r c → Order → VisC α τ → τ →
    Except (Fault × Mat α r c) ((τ × α) × Mat α r c)
  | _, _, .arr m, .row, v, t => liftWalk .arr (m.updRow v t)
  | _, _, .arr m, .col, v, t => liftWalk .arr (m.updCol v t)
  | _, _, .arr m, .opt, v, t => liftWalk .arr (m.updRow v t)
  | _, _, .blk m, .row, v, t => liftWalk .blk (m.updRow v t)
  | _, _, .blk m, .col, v, t => liftWalk .blk (m.updCol v t)
  | _, _, .blk m, .opt, v, t => liftWalk .blk (m.updOpt v t)
  | _, _, .dia m, .row, v, t => liftWalk .dia (m.updRow v t)
  | _, _, .dia m, .col, v, t => liftWalk .dia (m.updCol v t)
  | _, _, .dia m, .opt, v, t => liftWalk .dia (m.updRow v t)
  | _, _, .ext m, _, _, _ => .error (.user, .ext m)

/-- `WalkInUpdateRowOrderBounded`, `WalkInUpdateColumnOrderBounded`,
`WalkInUpdateOptimizedOrderBounded`. (/repo/real_matrix.go:256, 288, 317) -/
def Mat.updInB : {r c : Nat} → Mat α r c → Order → VisC α τ → τ → Int → Int → Int → Int →
    Except (Fault × Mat α r c) ((τ × α) × Mat α r c)
  | _, _, .arr m, .row, v, t, sr, er, sc, ec => liftWalk .arr (m.updRowB v t sr er sc ec)
  | _, _, .arr m, .col, v, t, sr, er, sc, ec => liftWalk .arr (m.updColB v t sr er sc ec)
  | _, _, .arr m, .opt, v, t, sr, er, sc, ec => liftWalk .arr (m.updRowB v t sr er sc ec)
  | _, _, .blk m, .row, v, t, sr, er, sc, ec => liftWalk .blk (m.updRowB v t sr er sc ec)
  | _, _, .blk m, .col, v, t, sr, er, sc, ec => liftWalk .blk (m.updColB v t sr er sc ec)
  | _, _, .blk m, .opt, v, t, sr, er, sc, ec => liftWalk .blk (m.updOptB v t sr er sc ec)
  | _, _, .dia m, .row, v, t, sr, er, sc, ec => liftWalk .dia (m.updRowB v t sr er sc ec)
  | _, _, .dia m, .col, v, t, sr, er, sc, ec => liftWalk .dia (m.updColB v t sr er sc ec)
  | _, _, .dia m, .opt, v, t, sr, er, sc, ec => liftWalk .dia (m.updRowB v t sr er sc ec)
  | _, _, .ext m, _, _, _, _, _, _, _ => .error (.user, .ext m)

end Linear
