import Verif.Model.More
import Verif.Props.Construct
import Verif.Props.Lines
import Verif.Props.Arith

/-!
# C75 (block data), and the vector and left-product forms of C10 and C15
-/

set_option linter.unusedSectionVars false

namespace Linear

open Spec

variable {α : Type} [Flt α] {r c : Nat}

namespace Spec

/-- Number of tiles of 52 that cover `n` places. -/
def tiles (n : Nat) : Nat := (n + 51) / 52

/-- How many of `n` places fall into tile `b`. -/
def tile (n b : Nat) : Nat := min 52 (n - 52 * b)

/-- Block data that describes an `r × c` matrix: tiles are numbered row by row, and each has as many
elements as it covers places. Slices behind the last tile are of no interest. -/
def FitsBlocks (d : List (List α)) (r c : Nat) : Prop :=
  ∀ a b, a < tiles r → b < tiles c →
    ∃ l, d[a * tiles c + b]? = some l ∧ l.length = tile r a * tile c b

/-- The element that block data gives for the place `(i, j)`. -/
def blockEntry (d : List (List α)) (c i j : Nat) : Option α :=
  (d[i / 52 * tiles c + j / 52]?).bind fun l => l[i % 52 * tile c (j / 52) + j % 52]?

end Spec

private theorem tile_eq {n b : Nat} : b < nBlocks n → blockDim n b = tile n b := by
  intro h
  rw [blockDim_eq_blkExt h, blkExt_eq, tile]
  have := mul_lt_of_lt_nBlocks h
  omega

/-- C75: block data is accepted exactly when both dimensions are positive and every tile is present
with the right number of elements. -/
theorem C75_accepts (r c : Int) (d : List (List α)) :
    (∃ m, Blk.fromBlockData r c d = .ok m) ↔ 1 ≤ r ∧ 1 ≤ c ∧ FitsBlocks d r.toNat c.toNat := by
  unfold Blk.fromBlockData
  by_cases hr : r < 1
  · rw [if_pos hr]
    exact ⟨fun ⟨_, h⟩ => (by cases h), fun h => by omega⟩
  rw [if_neg hr]
  by_cases hc : c < 1
  · rw [if_pos hc]
    exact ⟨fun ⟨_, h⟩ => (by cases h), fun h => by omega⟩
  rw [if_neg hc]
  generalize r.toNat = p
  generalize c.toNat = q
  have key : Wp (forUp 0 (nBlocks p) (fun iBlock index =>
      forUp 0 (nBlocks q) (fun jBlock index => do
        let b ← rdL d index
        if b.length ≠ blockDim p iBlock * blockDim q jBlock then
          (.error (.err .dim) : Res Nat)
        else .ok (index + 1)) index) 0)
      (fun _ => FitsBlocks d p q) (fun _ => ¬ FitsBlocks d p q) := by
    refine Wp.imp (wp_forUp (fun a index => index = a * tiles q ∧ ∀ a' b, a' < a → b < tiles q →
      ∃ l, d[a' * tiles q + b]? = some l ∧ l.length = tile p a' * tile q b) (Nat.zero_le _)
      ⟨by simp, fun a' b h => by omega⟩ ?_) fun _ h a b ha hb => h.2 a b ha hb
    rintro a index - ha ⟨rfl, hp⟩
    refine Wp.imp (wp_forUp (fun b index => index = a * tiles q + b ∧ ∀ b', b' < b →
      ∃ l, d[a * tiles q + b']? = some l ∧ l.length = tile p a * tile q b') (Nat.zero_le _)
      ⟨by simp, fun b' h => by omega⟩ ?_) ?_
    · rintro b index - hb ⟨rfl, hq⟩
      cases hd : d[a * tiles q + b]? with
      | none =>
        rw [show rdL d (a * tiles q + b) = .error .rt from by simp [rdL, hd]]
        intro hf
        obtain ⟨l, h1, -⟩ := hf a b ha hb
        rw [hd] at h1
        cases h1
      | some l =>
        rw [rdL_eq_ok.2 hd, ok_bind, tile_eq ha, tile_eq hb]
        by_cases hl : l.length ≠ tile p a * tile q b
        · rw [if_pos hl]
          intro hf
          obtain ⟨l', h1, h2⟩ := hf a b ha hb
          rw [hd] at h1
          cases h1
          exact hl h2
        · rw [if_neg hl]
          refine ⟨by omega, fun b' hb' => ?_⟩
          rcases Nat.lt_succ_iff_lt_or_eq.1 hb' with h | rfl
          · exact hq b' h
          · exact ⟨l, hd, not_not.1 hl⟩
    · rintro index ⟨rfl, hq⟩
      refine ⟨by rw [Nat.add_mul, Nat.one_mul]; rfl, fun a' b ha' hb => ?_⟩
      rcases Nat.lt_succ_iff_lt_or_eq.1 ha' with h | rfl
      · exact hp a' b h hb
      · exact hq b hb
  revert key
  generalize forUp 0 (nBlocks p) _ 0 = x
  intro key
  cases x with
  | ok n => exact ⟨fun _ => ⟨by omega, by omega, key⟩, fun _ => ⟨_, rfl⟩⟩
  | error e => exact ⟨fun ⟨_, h⟩ => (by cases h), fun h => absurd h.2.2 key⟩

/-- C75: an accepted block matrix shows at every place the element of the tile that covers it. -/
theorem C75_entries {r c : Int} {d : List (List α)} {m : Blk α r.toNat c.toNat}
    (h : Blk.fromBlockData r c d = .ok m) {A : Nat → Nat → α}
    (hA : ∀ i j, i < r.toNat → j < c.toNat → blockEntry d c.toNat i j = some (A i j)) :
    Shows m.at r.toNat c.toNat A := by
  have hm : m.blocks = ⟨fun i k => ((d[i]?.getD [])[k]?).getD Flt.zero⟩ := by
    unfold Blk.fromBlockData at h
    split_ifs at h
    revert h
    generalize forUp 0 (nBlocks r.toNat) _ 0 = x
    cases x with
    | error e => intro h; cases h
    | ok n => intro h; cases h; rfl
  refine m.at_shows.congr fun i j hi hj => ?_
  have h1 := hA i j hi hj
  show m.blocks.f (blkIdx c.toNat i j) (blkOff c.toNat i j) = _
  rw [hm]
  have e1 : blkIdx c.toNat i j = i / 52 * tiles c.toNat + j / 52 := rfl
  have e2 : blkOff c.toNat i j = i % 52 * tile c.toNat (j / 52) + j % 52 := by
    unfold blkOff
    rw [show BLOCK_SIZE = 52 from rfl, tile_eq (div_lt_nBlocks hj)]
    congr 1
    · congr 1; omega
    · omega
  dsimp only
  rw [e1, e2]
  unfold blockEntry at h1
  cases hd : d[i / 52 * tiles c.toNat + j / 52]? with
  | none => rw [hd] at h1; cases h1
  | some l =>
    rw [hd] at h1
    simp only [Option.bind_some] at h1
    simp only [Option.getD_some, h1]

/-- C75: every place of accepted data is covered, so `C75_entries` always applies. -/
theorem C75_covered {d : List (List α)} (h : FitsBlocks d r c) {i j : Nat} (hi : i < r)
    (hj : j < c) : ∃ x, blockEntry d c i j = some x := by
  obtain ⟨l, h1, h2⟩ := h (i / 52) (j / 52) (div_lt_nBlocks hi) (div_lt_nBlocks hj)
  unfold blockEntry
  rw [h1]
  have hlt : i % 52 * tile c (j / 52) + j % 52 < l.length := by
    rw [h2]
    exact pair_lt (by unfold tile; omega) (by unfold tile; omega)
  exact ⟨l[i % 52 * tile c (j / 52) + j % 52], by simp [hlt]⟩

/-- C75: the blocks of any block matrix, given back to the constructor, make a matrix with the same
entries. -/
theorem C75_roundTrip (m : Blk α r c) (hr : 0 < r) (hc : 0 < c) {A : Nat → Nat → α}
    (hA : Shows m.at r c A) :
    ∃ m' : Blk α r c, Blk.fromBlockData r c m.blocks.toLists = .ok m' ∧ Shows m'.at r c A := by
  have hget : ∀ b, b < nBlocks r * nBlocks c → m.blocks.toLists[b]? =
      some ((List.range (blkLen r c b)).map (m.blocks.f b)) := by
    intro b hb
    simp [Jag.toLists, hb]
  have hf : FitsBlocks m.blocks.toLists r c := by
    intro a b ha hb
    refine ⟨_, hget _ (pair_lt ha hb), ?_⟩
    rw [List.length_map, List.length_range]
    show blkLen r c (a * nBlocks c + b) = _
    rw [blkLen_pair hb, ← blockDim_eq_blkExt ha, ← blockDim_eq_blkExt hb, tile_eq ha, tile_eq hb]
  obtain ⟨m', hm'⟩ := (C75_accepts (r : Int) (c : Int) m.blocks.toLists).2
    ⟨by omega, by omega, hf⟩
  refine ⟨m', hm', C75_entries hm' fun i j hi hj => ?_⟩
  have hi : i < r := hi
  have hj : j < c := hj
  have e2 : blkOff c i j = i % 52 * tile c (j / 52) + j % 52 := by
    unfold blkOff
    rw [show BLOCK_SIZE = 52 from rfl, tile_eq (div_lt_nBlocks hj)]
    congr 1
    · congr 1; omega
    · omega
  have e1 : blkIdx c i j = i / 52 * tiles c + j / 52 := rfl
  show blockEntry _ c i j = _
  unfold blockEntry
  rw [← e1, ← e2, hget _ (blkIdx_lt hi hj), Option.bind_some,
    List.getElem?_map, List.getElem?_range (blkOff_lt hi hj)]
  exact congrArg some (m.at_shows.unique hA hi hj)

/-- The hypotheses of C75 are met by one tile of `2 × 3` elements; one element less is refused. -/
example : FitsBlocks [[(1 : ℚ), 2, 3, 4, 5, 6]] 2 3 ∧ ¬ FitsBlocks [[(1 : ℚ), 2, 3, 4, 5]] 2 3 ∧
    blockEntry [[(1 : ℚ), 2, 3, 4, 5, 6]] 3 1 0 = some 4 := by
  refine ⟨fun a b ha hb => ?_, fun h => ?_, by decide +kernel⟩
  · have h1 : tiles 2 = 1 := rfl
    have h2 : tiles 3 = 1 := rfl
    obtain rfl : a = 0 := by omega
    obtain rfl : b = 0 := by omega
    exact ⟨_, rfl, rfl⟩
  · obtain ⟨l, h1, h2⟩ := h 0 0 (by decide) (by decide)
    cases h1
    exact absurd h2 (by decide)

/-! ## Left products (C10) -/

/-- C10, `PreMultiplyMatrix`: `m.PreMultiplyMatrix(b)` is the product `b * m` for every storage of
the receiver and every storage of the library of the argument. -/
theorem C10_preMultiply {K : Type} [Field K] [LinearOrder K] [Flt K] [Exact K] {r c p : Nat}
    {m : Mat K r c} {b : Mat K p r} (hb : b.own) (hp : 0 < p) (hr : 0 < r) (hc : 0 < c)
    {A B : Nat → Nat → K} (hA : Shows m.at r c A) (hB : Shows b.at p r B) :
    ∃ x : Mat K p c, m.preMultiplyMatrix b = .ok ⟨p, c, x⟩ ∧ x.own ∧ Shows x.at p c fun i j =>
      ∑ k ∈ Finset.range r, B i k * A k j :=
  C10_product hb hp hr hc hB hA

/-- C10, `PreMultiplyMatrix`: mismatched dimensions are refused. -/
theorem C10_preMultiply_refused {p q : Nat} (m : Mat α r c) {b : Mat α p q} (hb : b.own)
    (hp : 0 < p) (h : q ≠ r) : m.preMultiplyMatrix b = .error (.pan .dim) :=
  C10_refused hb hp m h

/-! ## Rows and columns as vectors (C15) -/

/-- C15, `RowVectorAt`. -/
theorem C15_rowVectorAt {a : Mat α r c} (ha : a.own) {A : Nat → Nat → α} (hA : Shows a.at r c A)
    {i : Int} (hi : 0 ≤ i ∧ i < r) :
    ∃ l, a.rowVectorAt i = .ok l ∧ IsList l c fun j => A i.toNat j := by
  have h := C14_rowAt ha hA hi
  cases a with
  | ext a => exact ha.elim
  | _ => exact h

/-- C15, `ColumnVectorAt`. -/
theorem C15_columnVectorAt {a : Mat α r c} (ha : a.own) (hr : 0 < r) {A : Nat → Nat → α}
    (hA : Shows a.at r c A) {j : Int} (hj : 0 ≤ j ∧ j < c) :
    ∃ l, a.columnVectorAt j = .ok l ∧ IsList l r fun i => A i j.toNat := by
  have h := C14_columnAt ha hr hA hj
  cases a with
  | ext a => exact ha.elim
  | _ => exact h

/-- C15: an index outside the matrix is refused by `RowVectorAt` and `ColumnVectorAt`. -/
theorem C15_vector_refused {a : Mat α r c} (ha : a.own) (hr : 0 < r) (k : Int) :
    (¬ (0 ≤ k ∧ k < r) → a.rowVectorAt k = .error (.pan .range)) ∧
    (¬ (0 ≤ k ∧ k < c) → a.columnVectorAt k = .error (.pan .range)) := by
  have h := C14_read_refused ha hr k
  cases a with
  | ext a => exact ha.elim
  | _ => exact h

end Linear
