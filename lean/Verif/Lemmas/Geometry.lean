import Verif.Model.Storage
import Mathlib.Tactic.Ring
import Mathlib.Tactic.Linarith

/-!
# Block geometry
-/

namespace Linear

theorem nBlocks_eq (n : Nat) : nBlocks n = (n + 51) / 52 := rfl

theorem blkExt_eq (n b : Nat) : blkExt n b = min (b * 52 + 52) n - b * 52 := rfl

theorem div_lt_nBlocks {i n : Nat} (h : i < n) : i / 52 < nBlocks n := by
  rw [nBlocks_eq]; omega

theorem nBlocks_pos {n : Nat} (h : 0 < n) : 0 < nBlocks n := by
  rw [nBlocks_eq]; omega

theorem nBlocks_zero : nBlocks 0 = 0 := rfl

theorem mul_lt_of_lt_nBlocks {b n : Nat} (h : b < nBlocks n) : b * 52 < n := by
  rw [nBlocks_eq] at h; omega

/-- `blockHeight`/`blockWidth` agree with the allocated extents. -/
theorem blockDim_eq_blkExt {n b : Nat} (h : b < nBlocks n) : blockDim n b = blkExt n b := by
  unfold blockDim
  rw [blkExt_eq]
  rw [nBlocks_eq] at *
  split <;> omega

theorem blkExt_pos {n b : Nat} (h : b < nBlocks n) : 0 < blkExt n b := by
  have := mul_lt_of_lt_nBlocks h
  rw [blkExt_eq]; omega

theorem blkExt_le (n b : Nat) : blkExt n b ≤ 52 := by
  rw [blkExt_eq]; omega

theorem mod_lt_blkExt {i n : Nat} (h : i < n) : i % 52 < blkExt n (i / 52) := by
  rw [blkExt_eq]; omega

theorem blkExt_add_lt {n b k : Nat} (h : k < blkExt n b) : b * 52 + k < n := by
  rw [blkExt_eq] at h; omega

theorem blkExt_end {n b : Nat} (h : b < nBlocks n) : b * 52 + blkExt n b = min (b * 52 + 52) n := by
  have := mul_lt_of_lt_nBlocks h
  rw [blkExt_eq]; omega

theorem pair_div {a b B : Nat} (h : b < B) : (a * B + b) / B = a := by
  rw [Nat.mul_comm, Nat.mul_add_div (by omega), Nat.div_eq_of_lt h]; omega

theorem pair_mod {a b B : Nat} (h : b < B) : (a * B + b) % B = b := by
  rw [Nat.add_comm, Nat.add_mul_mod_self_right, Nat.mod_eq_of_lt h]

theorem pair_lt {a b A B : Nat} (ha : a < A) (hb : b < B) : a * B + b < A * B := by
  have : (a + 1) * B ≤ A * B := Nat.mul_le_mul_right B ha
  rw [Nat.add_mul, Nat.one_mul] at this
  omega

theorem pair_split {x B : Nat} : x / B * B + x % B = x := Nat.div_add_mod' x B

theorem div_lt_of_pair {x A B : Nat} (h : x < A * B) : x / B < A :=
  Nat.div_lt_of_lt_mul (by rwa [Nat.mul_comm])

theorem mod_lt_of_pair {x A B : Nat} (h : x < A * B) : x % B < B := by
  refine Nat.mod_lt _ (Nat.pos_of_ne_zero ?_)
  rintro rfl; simp at h

theorem blkLen_pair {r c a b : Nat} (hb : b < nBlocks c) :
    blkLen r c (a * nBlocks c + b) = blkExt r a * blkExt c b := by
  rw [blkLen, pair_div hb, pair_mod hb]

section
variable {r c i j : Nat}

theorem blkIdx_lt (hi : i < r) (hj : j < c) : blkIdx c i j < nBlocks r * nBlocks c :=
  pair_lt (div_lt_nBlocks hi) (div_lt_nBlocks hj)

theorem blkOff_eq (hj : j < c) : blkOff c i j = i % 52 * blkExt c (j / 52) + j % 52 := by
  rw [blkOff, blockDim_eq_blkExt (div_lt_nBlocks hj)]
  congr 1
  · congr 1; omega
  · omega

theorem blkOff_lt (hi : i < r) (hj : j < c) : blkOff c i j < blkLen r c (blkIdx c i j) := by
  rw [blkOff_eq hj, blkIdx, blkLen_pair (div_lt_nBlocks hj)]
  exact pair_lt (mod_lt_blkExt hi) (mod_lt_blkExt hj)

end

/-- Row of the cell stored at offset `k` of block `b`. -/
def cellRow (c b k : Nat) : Nat := b / nBlocks c * 52 + k / blkExt c (b % nBlocks c)

/-- Column of the cell stored at offset `k` of block `b`. -/
def cellCol (c b k : Nat) : Nat := b % nBlocks c * 52 + k % blkExt c (b % nBlocks c)

theorem cellRow_at {c i j : Nat} (hj : j < c) : cellRow c (blkIdx c i j) (blkOff c i j) = i := by
  rw [cellRow, blkOff_eq hj, blkIdx, pair_div (div_lt_nBlocks hj), pair_mod (div_lt_nBlocks hj),
    pair_div (mod_lt_blkExt hj)]
  omega

theorem cellCol_at {c i j : Nat} (hj : j < c) : cellCol c (blkIdx c i j) (blkOff c i j) = j := by
  rw [cellCol, blkOff_eq hj, blkIdx, pair_mod (div_lt_nBlocks hj), pair_mod (mod_lt_blkExt hj)]
  omega

section
variable {r c b k : Nat}

theorem cellRow_lt (hk : k < blkLen r c b) :
    cellRow c b k < r := by
  rw [blkLen] at hk
  exact blkExt_add_lt (div_lt_of_pair hk)

theorem cellCol_lt (hk : k < blkLen r c b) :
    cellCol c b k < c := by
  rw [blkLen] at hk
  exact blkExt_add_lt (mod_lt_of_pair hk)

theorem cellRow_div (hk : k < blkLen r c b) : cellRow c b k / 52 = b / nBlocks c := by
  rw [blkLen] at hk
  have := div_lt_of_pair hk
  have := blkExt_le r (b / nBlocks c)
  rw [cellRow]
  generalize k / blkExt c (b % nBlocks c) = y at *
  omega

theorem cellCol_div (hk : k < blkLen r c b) : cellCol c b k / 52 = b % nBlocks c := by
  rw [blkLen] at hk
  have := mod_lt_of_pair hk
  have := blkExt_le c (b % nBlocks c)
  rw [cellCol]; omega

theorem cellRow_mod (hk : k < blkLen r c b) :
    cellRow c b k % 52 = k / blkExt c (b % nBlocks c) := by
  rw [blkLen] at hk
  have := div_lt_of_pair hk
  have := blkExt_le r (b / nBlocks c)
  rw [cellRow]
  generalize k / blkExt c (b % nBlocks c) = y at *
  omega

theorem cellCol_mod (hk : k < blkLen r c b) :
    cellCol c b k % 52 = k % blkExt c (b % nBlocks c) := by
  rw [blkLen] at hk
  have := mod_lt_of_pair hk
  have := blkExt_le c (b % nBlocks c)
  rw [cellCol]; omega

theorem blkIdx_cell (hk : k < blkLen r c b) : blkIdx c (cellRow c b k) (cellCol c b k) = b := by
  rw [blkIdx, cellRow_div hk, cellCol_div hk, pair_split]

theorem blkOff_cell (hk : k < blkLen r c b) : blkOff c (cellRow c b k) (cellCol c b k) = k := by
  rw [blkOff_eq (cellCol_lt hk), cellCol_div hk, cellRow_mod hk, cellCol_mod hk, pair_split]

end

/-- The cell at block `(ib, jb)`, local row `p`, local column `q`. -/
theorem blkIdx_local {c ib jb p q : Nat} (hp : p < 52) (hq : q < 52) :
    blkIdx c (ib * 52 + p) (jb * 52 + q) = ib * nBlocks c + jb := by
  rw [blkIdx]
  congr 1
  · congr 1; omega
  · omega

theorem blkOff_local {c ib jb p q : Nat} (hp : p < 52) (hq : q < blkExt c jb) :
    blkOff c (ib * 52 + p) (jb * 52 + q) = p * blkExt c jb + q := by
  have h := blkExt_le c jb
  have h1 : (jb * 52 + q) / 52 = jb := by omega
  rw [blkOff_eq (blkExt_add_lt hq), h1]
  congr 1
  · congr 1; omega
  · omega

end Linear
