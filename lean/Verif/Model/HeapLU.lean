import Verif.Model.Heap
import Verif.Model.LU

/-!
# The LU decomposition on the heap (`/repo/lu_decomposition.go`)

The constructor again, with its table where the code has it: in slices on the heap. Every read and write of
`ans.lu` is one of the heap. The rows `luRow`, `luMax` and `luCol` are written `ans.lu[row]` and so on: the
descriptors do not change while they are held. The slice `pivot` of integers is new and never leaves the object: it is
kept as a value.
-/

namespace Linear

namespace HM

variable {α σ ρ : Type}

/-- `for i := a; i < b; i++ { body }` with local variables `s`. (Go language; as in /repo/lu_decomposition.go:72-75) -/
def forS (a b : Nat) (body : Nat → σ → HM α σ) (s : σ) : HM α σ :=
  (List.range' a (b - a)).foldlM (fun s i => body i s) s

/-- The same with an exit, answered by `.inr`. (Go language; as in /repo/lu_decomposition.go:105-109) -/
def forBrk (a b : Nat) (body : Nat → σ → HM α (σ ⊕ ρ)) (s : σ) : HM α (σ ⊕ ρ) :=
  (List.range' a (b - a)).foldlM
    (fun s i => match s with
      | .inl s => body i s
      | .inr r => pure (.inr r)) (.inl s)

end HM

open HM

namespace Heap

variable {α : Type} [Flt α]

/-- `sum` over a part of row `row` and column `col`, `/repo/lu_decomposition.go:79-83, 91-95`. -/
def luSum (lu : Sl) (row col n : Nat) : HM α α := do
  let s ← get lu row col
  forS 0 n (fun i s => do
    let x ← get lu row i
    let y ← get lu i col
    pure (Flt.sub s (Flt.mul x y))) s

/-- `/repo/lu_decomposition.go:77-85`. -/
def luUpper (lu : Sl) (col : Nat) : HM α Unit := for' 0 col fun row => do
  let sum ← luSum lu row col row
  put lu row col sum

/-- `/repo/lu_decomposition.go:87-103`; the local variables are `max` and `largest`. -/
def luLower (ninf : α) (lu : Sl) (m col : Nat) : HM α (Nat × α) :=
  forS col m (fun row s => do
    let sum ← luSum lu row col col
    put lu row col sum
    pure (if Flt.lt s.2 (Flt.abs sum) then (row, Flt.abs sum) else s)) (col, ninf)

/-- `/repo/lu_decomposition.go:113-120`. -/
def luSwap (lu : Sl) (m max col : Nat) : HM α Unit := for' 0 m fun i => do
  let tmp ← get lu max i
  let x ← get lu col i
  put lu max i x
  put lu col i tmp

/-- `/repo/lu_decomposition.go:127-131`. -/
def luDivide (lu : Sl) (m col : Nat) : HM α Unit := do
  let luDiag ← get lu col col
  for' (col + 1) m fun row => do
    let x ← get lu row col
    put lu row col (Flt.div x luDiag)

/-- The fields of `LUDecomposition` besides `lu`: the pivot, `even` and `singular`. (/repo/lu_decomposition.go:38-43) -/
structure LuRest (m : Nat) where
  pivot : Row Nat m
  even : Bool
  singular : Bool

/-- `/repo/lu_decomposition.go:111-125`. -/
def luPivot (lu : Sl) {m : Nat} (max col : Nat) (s : LuRest m) : HM α (LuRest m) := do
  if max ≠ col then
    luSwap lu m max col
    let temp ← lift (s.pivot.get max)
    let x ← lift (s.pivot.get col)
    let p ← lift (s.pivot.set max x)
    let p ← lift (p.set col temp)
    pure { s with pivot := p, even := !s.even }
  else pure s

/-- `/repo/lu_decomposition.go:75-132`. -/
def luStep (thr ninf : α) (lu : Sl) {m : Nat} (col : Nat) (s : LuRest m) : HM α (LuRest m ⊕ LuRest m) := do
  luUpper lu col
  let x ← luLower ninf lu m col
  let big ← get lu x.1 col
  if Flt.lt (Flt.abs big) thr then pure (.inr { s with singular := true })
  else do
    let s ← luPivot lu x.1 col s
    luDivide lu m col
    pure (.inl s)

/-- `/repo/lu_decomposition.go:62-134` for the slice `lu` (`ans.lu`). -/
def luWork (thr ninf : α) (lu : Sl) (m : Nat) : HM α (LuRest m) := do
  let pivot ← lift (forUp 0 m (fun row (p : Row Nat m) => p.set row row) ⟨fun _ => 0⟩)
  let x ← forBrk 0 m (luStep thr ninf lu) ⟨pivot, true, false⟩
  match x with
  | .inl s => pure s
  | .inr s => pure s

end Heap

end Linear
