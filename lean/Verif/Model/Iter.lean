import Verif.Model.Vector

/-!
# Vector iterators (`/repo/real_vector.go:217-261`, `/repo/array_real_vector.go:355-357`)

An iterator holds a pointer to its vector, so writes to the vector between two calls are seen by the
iterator. The state is the contents of the vector together with the cursor. The panic value of
`Next` is a Go string and not an error of the library; it is the outcome `noEntry`.
-/

namespace Linear

variable {α : Type} [Flt α]

/-- `entryIteratorImpl`, `/repo/real_vector.go:238-241`: the vector it points to and its cursor. -/
structure Iter (α : Type) where
  vec : List α
  idx : Nat

/-- What a call on the iterator, or on the vector under it, gives back. `entry` is an `entryImpl`,
`/repo/real_vector.go:225-236`, seen through `Index` and `Value`. -/
inductive IterOut (α : Type)
  | flag (b : Bool)
  | entry (i : Nat) (v : α)
  | noEntry
  | done
  | fault (f : Fault)

/-- `Iterator`, `/repo/array_real_vector.go:355-357`, which is `newEntryIterator`,
`/repo/real_vector.go:243-245`. -/
def Iter.new (d : List α) : Iter α := ⟨d, 0⟩

/-- `HasNext`, `/repo/real_vector.go:247-249`. -/
def Iter.hasNext (s : Iter α) : Bool := decide (s.idx < s.vec.length)

/-- `Next`, `/repo/real_vector.go:251-261`. The cursor moves only after `At` has returned. -/
def Iter.next (s : Iter α) : IterOut α × Iter α :=
  if s.idx ≥ s.vec.length then (.noEntry, s)
  else
    match Vec.at s.vec s.idx with
    | .ok x => (.entry s.idx x, ⟨s.vec, s.idx + 1⟩)
    | .error f => (.fault f, s)

/-- A call of a client that holds the vector and one iterator over it. `write` is any mutator of the
vector, given by its effect on the contents (`SetEntry`, `AddToEntry`, `Set`, `CopyFrom`, …). (/repo/real_vector.go:217-261) -/
inductive IterCall (α : Type)
  | hasNext
  | next
  | write (f : List α → Mut (List α))

/-- Run one call. A mutator that fails leaves the contents it had reached. (/repo/real_vector.go:217-261) -/
def IterCall.run (s : Iter α) : IterCall α → IterOut α × Iter α
  | .hasNext => (.flag s.hasNext, s)
  | .next => s.next
  | .write f =>
    match f s.vec with
    | .ok d => (.done, ⟨d, s.idx⟩)
    | .error (e, d) => (.fault e, ⟨d, s.idx⟩)

/-- The state after a sequence of calls. (/repo/real_vector.go:217-261) -/
def Iter.after (s : Iter α) (cs : List (IterCall α)) : Iter α :=
  cs.foldl (fun s c => (c.run s).2) s

end Linear
