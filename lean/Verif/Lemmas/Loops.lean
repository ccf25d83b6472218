import Verif.Lemmas.Geometry
import Verif.Model.Walks

/-!
# Equations between loops: blocked loops visit the same cells as plain loops
-/

namespace Linear

variable {ε σ : Type}

theorem forUp_congr {a b : Nat} {f g : Nat → σ → Except ε σ} {s : σ}
    (h : ∀ i, a ≤ i → i < b → ∀ s, f i s = g i s) : forUp a b f s = forUp a b g s := by
  unfold forUp
  have h' : ∀ i ∈ List.range' a (b - a), ∀ s, f i s = g i s := by
    intro i hi
    rw [List.mem_range'_1] at hi
    exact h i hi.1 (by omega)
  generalize List.range' a (b - a) = l at h'
  induction l generalizing s with
  | nil => rfl
  | cons x l ih =>
    rw [List.foldlM_cons, List.foldlM_cons, h' x (by simp)]
    congr 1
    funext s
    exact ih fun i hi => h' i (by simp [hi])

theorem forUp_append {a b c : Nat} (hab : a ≤ b) (hbc : b ≤ c) (f : Nat → σ → Except ε σ) (s : σ) :
    forUp a c f s = forUp a b f s >>= forUp b c f := by
  unfold forUp
  have : c - a = (b - a) + (c - b) := by omega
  rw [this, ← List.range'_append_1, List.foldlM_append]
  have : a + (b - a) = b := by omega
  rw [this]

/-- A loop over consecutive segments is one loop. -/
theorem forUp_segments {A B : Nat} (hAB : A ≤ B) (p : Nat → Nat)
    (hp : ∀ k, A ≤ k → k < B → p k ≤ p (k + 1)) (f : Nat → σ → Except ε σ) (s : σ) :
    forUp A B (fun k s => forUp (p k) (p (k + 1)) f s) s = forUp (p A) (p B) f s := by
  induction B, hAB using Nat.le_induction with
  | base => rw [forUp_eq_self (le_refl _), forUp_eq_self (le_refl _)]
  | succ B hAB ih =>
    have hmono : ∀ k, A ≤ k → k ≤ B → p A ≤ p k := by
      intro k hk
      induction k, hk using Nat.le_induction with
      | base => intro _; exact le_refl _
      | succ k hk ih' => intro h; exact (ih' (by omega)).trans (hp k hk (by omega))
    rw [forUp_last hAB, ih fun k h1 h2 => hp k h1 (by omega),
      forUp_append (hmono B hAB (le_refl _)) (hp B hAB (by omega))]

/-- Blocks of 52 covering `[a, e]`. -/
theorem forUp_blocksB {a e : Nat} (h : a ≤ e) (f : Nat → σ → Except ε σ) (s : σ) :
    forUp (a / 52) (1 + e / 52)
      (fun k s => forUp (max a (k * 52)) (min ((k + 1) * 52) (1 + e)) f s) s
      = forUp a (1 + e) f s := by
  have h1 : a / 52 ≤ 1 + e / 52 := by omega
  have := forUp_segments h1 (fun k => max a (min (k * 52) (1 + e)))
    (by intro k _ _; omega) f s
  have e1 : max a (min (a / 52 * 52) (1 + e)) = a := by omega
  have e2 : max a (min ((1 + e / 52) * 52) (1 + e)) = 1 + e := by omega
  rw [e1, e2] at this
  rw [← this]
  refine forUp_congr fun k hk1 hk2 s => ?_
  congr 1 <;> omega

/-- Blocks of 52 covering `[0, n)`. -/
theorem forUp_blocks (n : Nat) (f : Nat → σ → Except ε σ) (s : σ) :
    forUp 0 (nBlocks n) (fun k s => forUp (k * 52) (min (k * 52 + 52) n) f s) s = forUp 0 n f s := by
  have := forUp_segments (Nat.zero_le (nBlocks n)) (fun k => min (k * 52) n)
    (by intro k _ _; omega) f s
  have e1 : min (0 * 52) n = 0 := by omega
  have e2 : min (nBlocks n * 52) n = n := by rw [nBlocks_eq]; omega
  rw [e1, e2] at this
  rw [← this]
  refine forUp_congr fun k hk1 hk2 s => ?_
  have := mul_lt_of_lt_nBlocks hk2
  congr 1 <;> omega

/-- A running counter that grows by `w` per iteration is a function of the loop index. -/
theorem forUp_counter {a b k w : Nat} (hab : a ≤ b) (f : Nat → Nat → σ → Except ε σ) (s : σ) :
    forUp a b (fun i (t : Nat × σ) => do
      let x ← f i t.1 t.2
      return (t.1 + w, x)) (k, s)
    = (do
      let x ← forUp a b (fun i s => f i (k + (i - a) * w) s) s
      return (k + (b - a) * w, x)) := by
  induction b, hab using Nat.le_induction with
  | base => rw [forUp_eq_self (le_refl _), forUp_eq_self (le_refl _)]; simp
  | succ b hab ih =>
    rw [forUp_last hab, forUp_last hab, ih]
    simp only [bind_assoc, pure_bind]
    congr 1
    funext x
    congr 1
    funext y
    have : b + 1 - a = (b - a) + 1 := by omega
    rw [this]
    congr 2
    ring

/-- Body of a loop that ends by discarding a counter. -/
theorem forUp_counter_snd {a b k w : Nat} (hab : a ≤ b) (f : Nat → Nat → σ → Except ε σ) (s : σ) :
    (do
      let t ← forUp a b (fun i (t : Nat × σ) => do
        let x ← f i t.1 t.2
        return (t.1 + w, x)) (k, s)
      return t.2)
    = forUp a b (fun i s => f i (k + (i - a) * w) s) s := by
  rw [forUp_counter hab]
  simp

/-- The cells of a window, row by row. -/
def rowCells (a b c d : Nat) : List (Nat × Nat) :=
  (List.range' a (b - a)).flatMap fun i => (List.range' c (d - c)).map fun j => (i, j)

/-- The cells of a window, column by column. -/
def colCells (a b c d : Nat) : List (Nat × Nat) :=
  (List.range' c (d - c)).flatMap fun j => (List.range' a (b - a)).map fun i => (i, j)

theorem foldlM_flatMap' {β γ : Type} (l : List β) (g : β → List γ) (f : σ → γ → Except ε σ)
    (s : σ) : (l.flatMap g).foldlM f s = l.foldlM (fun s x => (g x).foldlM f s) s := by
  induction l generalizing s with
  | nil => rfl
  | cons x l ih =>
    rw [List.flatMap_cons, List.foldlM_append, List.foldlM_cons]
    congr 1
    funext s
    exact ih s

theorem foldlM_map' {β γ : Type} (l : List β) (g : β → γ) (f : σ → γ → Except ε σ)
    (s : σ) : (l.map g).foldlM f s = l.foldlM (fun s x => f s (g x)) s := by
  induction l generalizing s with
  | nil => rfl
  | cons x l ih =>
    rw [List.map_cons, List.foldlM_cons, List.foldlM_cons]
    congr 1
    funext s
    exact ih s

theorem forUp_rowCells (a b c d : Nat) (f : Nat → Nat → σ → Except ε σ) (s : σ) :
    forUp a b (fun i s => forUp c d (fun j s => f i j s) s) s =
      (rowCells a b c d).foldlM (fun s p => f p.1 p.2 s) s := by
  rw [rowCells, foldlM_flatMap']
  unfold forUp
  congr 1
  funext s i
  rw [foldlM_map']

theorem forUp_colCells (a b c d : Nat) (f : Nat → Nat → σ → Except ε σ) (s : σ) :
    forUp c d (fun j s => forUp a b (fun i s => f i j s) s) s =
      (colCells a b c d).foldlM (fun s p => f p.1 p.2 s) s := by
  rw [colCells, foldlM_flatMap']
  unfold forUp
  congr 1
  funext s i
  rw [foldlM_map']

theorem mem_rowCells {a b c d i j : Nat} :
    (i, j) ∈ rowCells a b c d ↔ (a ≤ i ∧ i < b) ∧ (c ≤ j ∧ j < d) := by
  simp only [rowCells, List.mem_flatMap, List.mem_map, List.mem_range'_1, Prod.mk.injEq]
  constructor
  · rintro ⟨x, hx, y, hy, rfl, rfl⟩; omega
  · intro h; exact ⟨i, by omega, j, by omega, rfl, rfl⟩

theorem mem_colCells {a b c d i j : Nat} :
    (i, j) ∈ colCells a b c d ↔ (a ≤ i ∧ i < b) ∧ (c ≤ j ∧ j < d) := by
  simp only [colCells, List.mem_flatMap, List.mem_map, List.mem_range'_1, Prod.mk.injEq]
  constructor
  · rintro ⟨x, hx, y, hy, rfl, rfl⟩; omega
  · intro h; exact ⟨j, by omega, i, by omega, rfl, rfl⟩

theorem nodup_rowCells (a b c d : Nat) : (rowCells a b c d).Nodup := by
  rw [rowCells, List.nodup_flatMap]
  constructor
  · intro i _
    exact List.Nodup.map (fun x y h => by simpa using h) List.nodup_range'
  · refine List.Pairwise.imp (R := fun x y => x ≠ y) ?_ List.nodup_range'
    intro x y hxy
    simp only [Function.onFun, List.disjoint_left, List.mem_map, not_exists, not_and]
    rintro p ⟨j, -, rfl⟩ j' - h
    simp only [Prod.mk.injEq] at h
    exact hxy h.1.symm

theorem nodup_colCells (a b c d : Nat) : (colCells a b c d).Nodup := by
  rw [colCells, List.nodup_flatMap]
  constructor
  · intro i _
    exact List.Nodup.map (fun x y h => by simpa using h) List.nodup_range'
  · refine List.Pairwise.imp (R := fun x y => x ≠ y) ?_ List.nodup_range'
    intro x y hxy
    simp only [Function.onFun, List.disjoint_left, List.mem_map, not_exists, not_and]
    rintro p ⟨j, -, rfl⟩ j' - h
    simp only [Prod.mk.injEq] at h
    exact hxy h.2.symm

/-- Blocked column loop for one row `p` of block row `iBlock`, as used by the row-order walks. -/
theorem blk_inner {c ib p : Nat} (hp1 : ib * 52 ≤ p) (hp2 : p < ib * 52 + 52)
    (step : Nat → Nat → Nat → Nat → σ → Except ε σ) (s : σ) :
    forUp 0 (nBlocks c) (fun jBlock (s : σ) => (do
        let t ← forUp (jBlock * 52) (min (jBlock * 52 + 52) c) (fun q (t : Nat × σ) => do
          let b ← step p q (ib * nBlocks c + jBlock) t.1 t.2
          return (t.1 + 1, b)) ((p - ib * 52) * blockDim c jBlock, s)
        return t.2)) s
    = forUp 0 c (fun q s => step p q (blkIdx c p q) (blkOff c p q) s) s := by
  rw [← forUp_blocks c]
  refine forUp_congr fun jb _ hjb s => ?_
  have hm := mul_lt_of_lt_nBlocks hjb
  rw [forUp_counter_snd (by omega) (fun q k s => step p q (ib * nBlocks c + jb) k s)]
  refine forUp_congr fun q hq1 hq2 s => ?_
  have e1 : p = ib * 52 + (p - ib * 52) := by omega
  have e2 : q = jb * 52 + (q - jb * 52) := by omega
  have hq : q - jb * 52 < blkExt c jb := by rw [blkExt_eq]; omega
  have i1 : blkIdx c p q = ib * nBlocks c + jb := by
    conv_lhs => rw [e1, e2]
    exact blkIdx_local (by omega) (by omega)
  have i2 : blkOff c p q = (p - ib * 52) * blkExt c jb + (q - jb * 52) := by
    conv_lhs => rw [e1, e2]
    exact blkOff_local (by omega) hq
  rw [i1, i2, blockDim_eq_blkExt hjb, Nat.mul_one]

theorem blkLoopRow_eq (r c : Nat) (step : Nat → Nat → Nat → Nat → σ → Except ε σ) (s : σ) :
    blkLoopRow r c step s =
      (rowCells 0 r 0 c).foldlM (fun s p => step p.1 p.2 (blkIdx c p.1 p.2) (blkOff c p.1 p.2) s) s
    := by
  rw [← forUp_rowCells 0 r 0 c (fun i j s => step i j (blkIdx c i j) (blkOff c i j) s),
    ← forUp_blocks r]
  unfold blkLoopRow
  refine forUp_congr fun ib _ hib s => ?_
  dsimp only
  refine forUp_congr fun p hp1 hp2 s => ?_
  exact blk_inner hp1 (by omega) step s

theorem blk_innerB {c ib p sc ec : Nat} (hec : ec < c) (hs : sc ≤ ec)
    (hp1 : ib * 52 ≤ p) (hp2 : p < ib * 52 + 52)
    (step : Nat → Nat → Nat → Nat → σ → Except ε σ) (s : σ) :
    forUp (sc / 52) (1 + ec / 52) (fun jBlock (s : σ) => (do
        let t ← forUp (max sc (jBlock * 52)) (min ((jBlock + 1) * 52) (1 + ec))
          (fun q (t : Nat × σ) => do
            let b ← step p q (ib * nBlocks c + jBlock) t.1 t.2
            return (t.1 + 1, b))
          ((p - ib * 52) * blockDim c jBlock + max sc (jBlock * 52) - jBlock * 52, s)
        return t.2)) s
    = forUp sc (1 + ec) (fun q s => step p q (blkIdx c p q) (blkOff c p q) s) s := by
  rw [← forUp_blocksB hs]
  refine forUp_congr fun jb hjb1 hjb2 s => ?_
  have hjb : jb < nBlocks c := by rw [nBlocks_eq]; omega
  rw [forUp_counter_snd (by omega) (fun q k s => step p q (ib * nBlocks c + jb) k s)]
  refine forUp_congr fun q hq1 hq2 s => ?_
  have e1 : p = ib * 52 + (p - ib * 52) := by omega
  have e2 : q = jb * 52 + (q - jb * 52) := by omega
  have hq : q - jb * 52 < blkExt c jb := by rw [blkExt_eq]; omega
  have i1 : blkIdx c p q = ib * nBlocks c + jb := by
    conv_lhs => rw [e1, e2]
    exact blkIdx_local (by omega) (by omega)
  have i2 : blkOff c p q = (p - ib * 52) * blkExt c jb + (q - jb * 52) := by
    conv_lhs => rw [e1, e2]
    exact blkOff_local (by omega) hq
  rw [i1, i2, blockDim_eq_blkExt hjb, Nat.mul_one]
  congr 1
  omega

theorem blkLoopRowB_eq {c sr er sc ec : Nat} (hr : sr ≤ er) (hc : sc ≤ ec) (hec : ec < c)
    (step : Nat → Nat → Nat → Nat → σ → Except ε σ) (s : σ) :
    blkLoopRowB c sr er sc ec step s =
      (rowCells sr (1 + er) sc (1 + ec)).foldlM
        (fun s p => step p.1 p.2 (blkIdx c p.1 p.2) (blkOff c p.1 p.2) s) s := by
  rw [← forUp_rowCells sr (1 + er) sc (1 + ec)
      (fun i j s => step i j (blkIdx c i j) (blkOff c i j) s), ← forUp_blocksB hr]
  unfold blkLoopRowB
  refine forUp_congr fun ib _ hib s => ?_
  dsimp only
  refine forUp_congr fun p hp1 hp2 s => ?_
  exact blk_innerB hec hc (by omega) (by omega) step s

/-- The cells of an `r × c` matrix, block by block. -/
def blkCells (r c : Nat) : List (Nat × Nat) :=
  (rowCells 0 (nBlocks r) 0 (nBlocks c)).flatMap fun b =>
    rowCells (b.1 * 52) (min (b.1 * 52 + 52) r) (b.2 * 52) (min (b.2 * 52 + 52) c)

/-- The cells of a window, block by block. -/
def blkCellsB (sr er sc ec : Nat) : List (Nat × Nat) :=
  (rowCells (sr / 52) (1 + er / 52) (sc / 52) (1 + ec / 52)).flatMap fun b =>
    rowCells (max sr (b.1 * 52)) (min ((b.1 + 1) * 52) (1 + er))
      (max sc (b.2 * 52)) (min ((b.2 + 1) * 52) (1 + ec))

/-- A nested loop with one running counter. -/
theorem forUp_counter2 {a b c d k : Nat} (hab : a ≤ b) (hcd : c ≤ d)
    (f : Nat → Nat → Nat → σ → Except ε σ) (s : σ) :
    forUp a b (fun i t => forUp c d (fun j (t : Nat × σ) => do
      let x ← f i j t.1 t.2
      return (t.1 + 1, x)) t) (k, s)
    = (do
      let x ← forUp a b (fun i s => forUp c d (fun j s =>
        f i j (k + (i - a) * (d - c) + (j - c)) s) s) s
      return (k + (b - a) * (d - c), x)) := by
  rw [← forUp_counter hab (fun i k s => forUp c d (fun j s => f i j (k + (j - c)) s) s)]
  refine forUp_congr fun i _ _ t => ?_
  obtain ⟨k', s'⟩ := t
  rw [forUp_counter hcd (w := 1) (fun j k s => f i j k s)]
  simp

theorem blkLoopOpt_eq (r c : Nat) (step : Nat → Nat → Nat → Nat → σ → Except ε σ) (s : σ) :
    blkLoopOpt r c step s =
      (blkCells r c).foldlM (fun s p => step p.1 p.2 (blkIdx c p.1 p.2) (blkOff c p.1 p.2) s) s
    := by
  have key : ∀ ib jb bi s, ib < nBlocks r → jb < nBlocks c → bi = ib * nBlocks c + jb →
      (do
        let t ← forUp (ib * 52) (min (ib * 52 + 52) r) (fun p t =>
          forUp (jb * 52) (min (jb * 52 + 52) c) (fun q (t : Nat × σ) => do
            let b ← step p q bi t.1 t.2
            return (t.1 + 1, b)) t) (0, s)
        return t.2) =
      (rowCells (ib * 52) (min (ib * 52 + 52) r) (jb * 52) (min (jb * 52 + 52) c)).foldlM
        (fun s p => step p.1 p.2 (blkIdx c p.1 p.2) (blkOff c p.1 p.2) s) s := by
    rintro ib jb bi s hib hjb rfl
    have h1 := mul_lt_of_lt_nBlocks hib
    have h2 := mul_lt_of_lt_nBlocks hjb
    rw [forUp_counter2 (by omega) (by omega)
      (fun p q k s => step p q (ib * nBlocks c + jb) k s)]
    rw [← forUp_rowCells _ _ _ _ (fun i j s => step i j (blkIdx c i j) (blkOff c i j) s)]
    simp only [bind_assoc, pure_bind, bind_pure]
    refine forUp_congr fun p hp1 hp2 s => ?_
    refine forUp_congr fun q hq1 hq2 s => ?_
    have e1 : p = ib * 52 + (p - ib * 52) := by omega
    have e2 : q = jb * 52 + (q - jb * 52) := by omega
    have hq : q - jb * 52 < blkExt c jb := by rw [blkExt_eq]; omega
    have i1 : blkIdx c p q = ib * nBlocks c + jb := by
      conv_lhs => rw [e1, e2]
      exact blkIdx_local (by omega) (by omega)
    have i2 : blkOff c p q = (p - ib * 52) * blkExt c jb + (q - jb * 52) := by
      conv_lhs => rw [e1, e2]
      exact blkOff_local (by omega) hq
    rw [i1, i2, ← blkExt_eq, Nat.zero_add]
  rw [blkCells, foldlM_flatMap',
    ← forUp_rowCells _ _ _ _ (fun ib jb s =>
      (rowCells (ib * 52) (min (ib * 52 + 52) r) (jb * 52) (min (jb * 52 + 52) c)).foldlM
        (fun s p => step p.1 p.2 (blkIdx c p.1 p.2) (blkOff c p.1 p.2) s) s)]
  unfold blkLoopOpt
  dsimp only
  have h3 := forUp_counter2 (k := 0) (Nat.zero_le (nBlocks r)) (Nat.zero_le (nBlocks c))
    (fun ib jb bi s => (do
        let t ← forUp (ib * 52) (min (ib * 52 + 52) r) (fun p t =>
          forUp (jb * 52) (min (jb * 52 + 52) c) (fun q (t : Nat × σ) => do
            let b ← step p q bi t.1 t.2
            return (t.1 + 1, b)) t) (0, s)
        return t.2)) s
  simp only [bind_assoc, pure_bind] at h3 ⊢
  rw [h3]
  simp only [bind_assoc, pure_bind, bind_pure]
  refine forUp_congr fun ib _ hib s => ?_
  refine forUp_congr fun jb _ hjb s => ?_
  have := key ib jb (0 + (ib - 0) * (nBlocks c - 0) + (jb - 0)) s hib hjb (by simp)
  exact this

theorem blkLoopOptB_eq {c sr er sc ec : Nat} (hec : ec < c)
    (step : Nat → Nat → Nat → Nat → σ → Except ε σ) (s : σ) :
    blkLoopOptB c sr er sc ec step s =
      (blkCellsB sr er sc ec).foldlM
        (fun s p => step p.1 p.2 (blkIdx c p.1 p.2) (blkOff c p.1 p.2) s) s := by
  rw [blkCellsB, foldlM_flatMap',
    ← forUp_rowCells _ _ _ _ (fun ib jb s =>
      (rowCells (max sr (ib * 52)) (min ((ib + 1) * 52) (1 + er))
      (max sc (jb * 52)) (min ((jb + 1) * 52) (1 + ec))).foldlM
        (fun s p => step p.1 p.2 (blkIdx c p.1 p.2) (blkOff c p.1 p.2) s) s)]
  unfold blkLoopOptB
  refine forUp_congr fun ib hib1 hib2 s => ?_
  dsimp only
  refine forUp_congr fun jb hjb1 hjb2 s => ?_
  rw [← forUp_rowCells _ _ _ _ (fun i j s => step i j (blkIdx c i j) (blkOff c i j) s)]
  refine forUp_congr fun p hp1 hp2 s => ?_
  by_cases hle : max sc (jb * 52) ≤ min ((jb + 1) * 52) (1 + ec)
  · have hjb : jb < nBlocks c := by rw [nBlocks_eq]; omega
    rw [forUp_counter_snd hle (fun q k s => step p q (ib * nBlocks c + jb) k s)]
    refine forUp_congr fun q hq1 hq2 s => ?_
    have e1 : p = ib * 52 + (p - ib * 52) := by omega
    have e2 : q = jb * 52 + (q - jb * 52) := by omega
    have hq : q - jb * 52 < blkExt c jb := by rw [blkExt_eq]; omega
    have i1 : blkIdx c p q = ib * nBlocks c + jb := by
      conv_lhs => rw [e1, e2]
      exact blkIdx_local (by omega) (by omega)
    have i2 : blkOff c p q = (p - ib * 52) * blkExt c jb + (q - jb * 52) := by
      conv_lhs => rw [e1, e2]
      exact blkOff_local (by omega) hq
    rw [i1, i2, blockDim_eq_blkExt hjb, Nat.mul_one]
    congr 1
    omega
  · rw [forUp_eq_self (by omega), forUp_eq_self (by omega)]
    rfl

theorem mem_blkCells {r c i j : Nat} : (i, j) ∈ blkCells r c ↔ i < r ∧ j < c := by
  rw [blkCells, List.mem_flatMap]
  constructor
  · rintro ⟨⟨a, b⟩, -, h⟩
    rw [mem_rowCells] at h
    omega
  · rintro ⟨hi, hj⟩
    refine ⟨(i / 52, j / 52), ?_, ?_⟩
    · rw [mem_rowCells]
      have := div_lt_nBlocks hi
      have := div_lt_nBlocks hj
      omega
    · rw [mem_rowCells]; omega

theorem mem_blkCellsB {sr er sc ec i j : Nat} :
    (i, j) ∈ blkCellsB sr er sc ec ↔ (sr ≤ i ∧ i ≤ er) ∧ (sc ≤ j ∧ j ≤ ec) := by
  rw [blkCellsB, List.mem_flatMap]
  constructor
  · rintro ⟨⟨a, b⟩, -, h⟩
    rw [mem_rowCells] at h
    omega
  · rintro ⟨hi, hj⟩
    refine ⟨(i / 52, j / 52), ?_, ?_⟩
    · rw [mem_rowCells]; omega
    · rw [mem_rowCells]; omega

theorem nodup_blkCells (r c : Nat) : (blkCells r c).Nodup := by
  rw [blkCells, List.nodup_flatMap]
  refine ⟨fun b _ => nodup_rowCells _ _ _ _, ?_⟩
  refine List.Pairwise.imp (R := fun x y => x ≠ y) ?_ (nodup_rowCells _ _ _ _)
  rintro ⟨x1, x2⟩ ⟨y1, y2⟩ hxy
  simp only [Function.onFun, List.disjoint_left]
  rintro ⟨i, j⟩ h1 h2
  rw [mem_rowCells] at h1 h2
  refine hxy ?_
  rw [Prod.mk.injEq]
  constructor <;> omega

theorem nodup_blkCellsB (sr er sc ec : Nat) : (blkCellsB sr er sc ec).Nodup := by
  rw [blkCellsB, List.nodup_flatMap]
  refine ⟨fun b _ => nodup_rowCells _ _ _ _, ?_⟩
  refine List.Pairwise.imp (R := fun x y => x ≠ y) ?_ (nodup_rowCells _ _ _ _)
  rintro ⟨x1, x2⟩ ⟨y1, y2⟩ hxy
  simp only [Function.onFun, List.disjoint_left]
  rintro ⟨i, j⟩ h1 h2
  rw [mem_rowCells] at h1 h2
  refine hxy ?_
  rw [Prod.mk.injEq]
  constructor <;> omega

end Linear
