import Verif.Lemmas.BiLemmas

/-!
# C38: the bidiagonal reduction
-/

set_option linter.unusedSectionVars false

namespace Linear

open Spec Finset Matrix

/-! ## Specification -/

/-- Zero off the main diagonal and the diagonal above it. -/
def Spec.UpperBidiag {K : Type} [Zero K] (m n : Nat) (B : Nat → Nat → K) : Prop :=
  ∀ i j, i < m → j < n → j ≠ i → j ≠ i + 1 → B i j = 0

/-- Zero off the main diagonal and the diagonal below it. -/
def Spec.LowerBidiag {K : Type} [Zero K] (m n : Nat) (B : Nat → Nat → K) : Prop :=
  ∀ i j, i < m → j < n → i ≠ j → i ≠ j + 1 → B i j = 0

section exact

variable {K : Type} [Field K] [LinearOrder K] [IsStrictOrderedRing K] [Flt K] [Exact K] [ExactSqrt K]
variable {m n : Nat}

theorem Bi.new_exact {a : Mat K m n} (ha : a.own) (hm : 0 < m) (hn : 0 < n) {A : Nat → Nat → K}
    (hA : Shows a.at m n A) :
    ∃ s, Bi.new a = .ok s ∧ (n ≤ m → Bi.Inv m n A n s.hv.f s.main.f s.sec.f) ∧
      (m < n → Bi.Inv n m (fun i j => A j i) m (fun i j => s.hv.f j i) s.main.f s.sec.f) :=
  Bi.new_wp ha hm hn hA (Bi.Inv m n A) (Bi.Inv n m fun i j => A j i) (fun _ d e h => Bi.Inv.init d e h)
    (fun _ _ _ _ _ _ _ hk hnm h hr => h.step hk hnm hr) (fun _ d e h => Bi.Inv.init d e h)
    (fun _ _ _ _ _ _ _ hk hnm h hr => h.step hk hnm hr)

theorem Bi.u_exact (hm : 0 < m) (s : Bi K m n) :
    ∃ (M : Mat K m m) (q : Nat → Nat → K), s.u = .ok ⟨m, m, M⟩ ∧ M.dense ∧ Shows M.at m m q ∧
      mx m m q = if n ≤ m then hprod m (Bi.HL m s.hv.f s.main.f) n
        else hprod m (Bi.HR m (fun i j => s.hv.f j i) s.sec.f) (m - 1) := by
  by_cases hnm : n ≤ m
  · obtain ⟨M, q, e, h1, h2, h3⟩ := Bi.u_wp hm s
      (Bi.AInv m (Bi.HL m s.hv.f s.main.f) 0 (min m n)) (fun q h => Bi.AInv.init _ _ _ h)
      (fun _ k q q' hk h1 h2 => h1.step (by omega) (Nat.zero_le _) h2 rfl)
      (fun h => by omega)
    rw [if_pos hnm] at h2 h3
    refine ⟨M, q, e, h1, h2, ?_⟩
    rw [if_pos hnm]
    exact h3.done0.trans (congrArg _ (by omega))
  · obtain ⟨M, q, e, h1, h2, h3⟩ := Bi.u_wp hm s
      (Bi.AInv m (Bi.HR m (fun i j => s.hv.f j i) s.sec.f) 1 (min m n)) (fun q h => Bi.AInv.init _ _ _ h)
      (fun h => by omega)
      (fun _ k q q' hk0 hk h1 h2 => h1.step (by omega) hk0 h2 (by
        unfold Bi.HR
        rw [show k - 1 + 1 = k by omega]))
    rw [if_neg hnm] at h2 h3
    refine ⟨M, _, e, h1, h2, ?_⟩
    rw [if_neg hnm]
    exact h3.done1.trans (congrArg _ (by omega))

theorem Bi.v_exact (hm : 0 < m) (hn : 0 < n) (s : Bi K m n) :
    ∃ (M : Mat K n n) (q : Nat → Nat → K), s.v = .ok ⟨n, n, M⟩ ∧ M.dense ∧ Shows M.at n n q ∧
      mx n n q = if n ≤ m then hprod n (Bi.HR n s.hv.f s.sec.f) (n - 1)
        else hprod n (Bi.HL n (fun i j => s.hv.f j i) s.main.f) m := by
  by_cases hnm : n ≤ m
  · obtain ⟨M, q, e, h1, h2, h3⟩ := Bi.v_wp hm hn s
      (Bi.AInv n (Bi.HR n s.hv.f s.sec.f) 1 (min m n)) (fun q h => Bi.AInv.init _ _ _ h)
      (fun h => by omega)
      (fun _ k q q' hk0 hk h1 h2 => h1.step (by omega) hk0 h2 (by
        unfold Bi.HR
        rw [show k - 1 + 1 = k by omega]))
    rw [if_pos hnm] at h2 h3
    refine ⟨M, _, e, h1, h2, ?_⟩
    rw [if_pos hnm]
    exact h3.done1.trans (congrArg _ (by omega))
  · obtain ⟨M, q, e, h1, h2, h3⟩ := Bi.v_wp hm hn s
      (Bi.AInv n (Bi.HL n (fun i j => s.hv.f j i) s.main.f) 0 (min m n)) (fun q h => Bi.AInv.init _ _ _ h)
      (fun _ k q q' hk h1 h2 => h1.step (by omega) (Nat.zero_le _) h2 rfl)
      (fun h => by omega)
    rw [if_neg hnm] at h2 h3
    refine ⟨M, q, e, h1, h2, ?_⟩
    rw [if_neg hnm]
    exact h3.done0.trans (congrArg _ (by omega))

theorem Bi.Inv.orthL {A f : Nat → Nat → K} {d e : Nat → K} {k : Nat} (h : Bi.Inv m n A k f d e) :
    hprod m (Bi.HL m f d) k * (hprod m (Bi.HL m f d) k)ᵀ = 1 :=
  hprod_orth (fun _ _ => hh_transpose _ _ _ _) h.left

theorem Bi.Inv.orthR {A f : Nat → Nat → K} {d e : Nat → K} {k : Nat} (h : Bi.Inv m n A k f d e) :
    hprod n (Bi.HR n f e) (min k (n - 1)) * (hprod n (Bi.HR n f e) (min k (n - 1)))ᵀ = 1 :=
  hprod_orth (fun _ _ => hh_transpose _ _ _ _) h.right

/-- **C38.** Every rectangular matrix is reduced, and `U * B * VT = A` with `U` and `V` orthogonal and `B`
upper bidiagonal when there are at least as many rows as columns, lower bidiagonal otherwise, as
`IsUpperBiDiagonal` tells. The diagonals handed out by reference are those of `B`. -/
theorem C38_factors {a : Mat K m n} (ha : a.own) (hm : 0 < m) (hn : 0 < n) {A : Nat → Nat → K}
    (hA : Shows a.at m n A) :
    ∃ s, Bi.new a = .ok s ∧ ∃ (mu : Mat K m m) (mb : Mat K m n) (mv : Mat K n n) (U B V : Nat → Nat → K),
      s.u = .ok ⟨m, m, mu⟩ ∧ s.b = .ok ⟨m, n, mb⟩ ∧ s.v = .ok ⟨n, n, mv⟩ ∧
      mu.own ∧ mb.own ∧ mv.own ∧
      Shows mu.at m m U ∧ Shows mb.at m n B ∧ Shows mv.at n n V ∧
      mx m m U * mx m n B * (mx n n V)ᵀ = mx m n A ∧
      mx m m U * (mx m m U)ᵀ = 1 ∧ (mx m m U)ᵀ * mx m m U = 1 ∧
      mx n n V * (mx n n V)ᵀ = 1 ∧ (mx n n V)ᵀ * mx n n V = 1 ∧
      (n ≤ m → s.isUpper = true ∧ UpperBidiag m n B) ∧ (m < n → s.isUpper = false ∧ LowerBidiag m n B) ∧
      (∀ i, i < min m n → s.main.f i = B i i) ∧
      (∀ i, i + 1 < min m n → s.sec.f i = if n ≤ m then B i (i + 1) else B (i + 1) i) := by
  obtain ⟨s, e, hI, hJ⟩ := Bi.new_exact ha hm hn hA
  obtain ⟨mu, U, eu, hdu, hU, hu⟩ := Bi.u_exact hm s
  obtain ⟨mv, V, ev, hdv, hV, hv⟩ := Bi.v_exact hm hn s
  obtain ⟨mb, eb, hdb, hB⟩ := Bi.b_ok hm hn s
  refine ⟨s, e, mu, mb, mv, U, _, V, eu, eb, ev, Mat.dense_own hdu, Mat.dense_own hdb,
    Mat.dense_own hdv, hU, hB, hV, ?_⟩
  have hdiag : ∀ i, i < min m n → s.main.f i =
      if n ≤ m then Bi.bEnt s.main.f s.sec.f i i else Bi.bEnt s.main.f s.sec.f i i := fun i _ => by
    rw [Bi.bEnt, if_pos rfl, ite_self]
  have hsec : ∀ i, i + 1 < min m n → s.sec.f i =
      if n ≤ m then (if n ≤ m then Bi.bEnt s.main.f s.sec.f i (i + 1)
        else Bi.bEnt s.main.f s.sec.f (i + 1) i)
      else (if n ≤ m then Bi.bEnt s.main.f s.sec.f (i + 1) i
        else Bi.bEnt s.main.f s.sec.f i (i + 1)) := fun i _ => by
    unfold Bi.bEnt
    split_ifs <;> first | rfl | omega
  by_cases hnm : n ≤ m
  · have h := hI hnm
    rw [if_pos hnm] at hu hv
    have o1 := h.orthL
    have o2 := h.orthR
    rw [show min n (n - 1) = n - 1 by omega, ← hv] at o2
    rw [← hu] at o1
    refine ⟨?_, o1, mul_eq_one_comm.1 o1, o2, mul_eq_one_comm.1 o2, fun _ => ⟨?_, ?_⟩, fun h => by omega,
      hdiag, hsec⟩
    · rw [h.prod, hu, hv, show min n (n - 1) = n - 1 by omega]
      congr 2
      refine mx_congr fun i j hi hj => ?_
      rw [if_pos hnm, Bi.M]
      by_cases e : i < n
      · rw [if_pos e]
      · rw [if_neg e, if_pos hj, Bi.bEnt, if_neg (by omega), if_neg (by omega), Exact.zero_eq]
    · exact decide_eq_true hnm
    · intro i j _ _ h1 h2
      dsimp only
      rw [if_pos hnm, Bi.bEnt, if_neg h1, if_neg h2, Exact.zero_eq]
  · have h := hJ (by omega)
    rw [if_neg hnm] at hu hv
    have o1 := h.orthL
    have o2 := h.orthR
    rw [show min m (m - 1) = m - 1 by omega, ← hu] at o2
    rw [← hv] at o1
    refine ⟨?_, o2, mul_eq_one_comm.1 o2, o1, mul_eq_one_comm.1 o1, fun h => absurd h hnm,
      fun _ => ⟨?_, ?_⟩, hdiag, hsec⟩
    · have hp := congrArg Matrix.transpose h.prod
      rw [mx_transpose, ← hv, show min m (m - 1) = m - 1 by omega, ← hu, Matrix.transpose_mul,
        Matrix.transpose_mul, Matrix.transpose_transpose, mx_transpose, ← Matrix.mul_assoc] at hp
      rw [hp]
      congr 2
      refine mx_congr fun i j hi hj => ?_
      rw [if_neg hnm, Bi.M]
      by_cases e : j < m
      · rw [if_pos e]
      · rw [if_neg e, if_pos hi, Bi.bEnt, if_neg (by omega), if_neg (by omega), Exact.zero_eq]
    · exact decide_eq_false hnm
    · intro i j _ _ h1 h2
      dsimp only
      rw [if_neg hnm, Bi.bEnt, if_neg h1, if_neg h2, Exact.zero_eq]

end exact

/-! ## Any arithmetic -/

section free

variable {α : Type} [Flt α] {m n : Nat}

/-- **C58.** Reducing a matrix with rows and columns, and reading off the three factors, always succeeds,
whatever the entries are. -/
theorem C58_bi [ZeroLaws α] {a : Mat α m n} (ha : a.own) (hm : 0 < m) (hn : 0 < n) :
    ∃ s, Bi.new a = .ok s ∧ (∃ mu : Mat α m m, s.u = .ok ⟨m, m, mu⟩) ∧
      (∃ mb : Mat α m n, s.b = .ok ⟨m, n, mb⟩) ∧ ∃ mv : Mat α n n, s.v = .ok ⟨n, n, mv⟩ := by
  obtain ⟨s, e, -, -⟩ := Bi.new_wp ha hm hn a.at_shows (fun _ _ _ _ => True) (fun _ _ _ _ => True)
    (fun _ _ _ _ => trivial) (fun _ _ _ _ _ _ _ _ _ _ _ => trivial) (fun _ _ _ _ => trivial)
    (fun _ _ _ _ _ _ _ _ _ _ _ => trivial)
  obtain ⟨mu, _, eu, -⟩ := Bi.u_wp hm s (fun _ _ => True) (fun _ _ => trivial)
    (fun _ _ _ _ _ _ _ => trivial) (fun _ _ _ _ _ _ _ _ => trivial)
  obtain ⟨mv, _, ev, -⟩ := Bi.v_wp hm hn s (fun _ _ => True) (fun _ _ => trivial)
    (fun _ _ _ _ _ _ _ => trivial) (fun _ _ _ _ _ _ _ _ => trivial)
  obtain ⟨mb, eb, -⟩ := Bi.b_ok hm hn s
  exact ⟨s, e, ⟨mu, eu⟩, ⟨mb, eb⟩, ⟨mv, ev⟩⟩

end free

/-! ## Concrete cases -/

/-- A tall and a wide matrix with rational norms. -/
def Spec.biTall : Mat ℚ 3 2 :=
  .arr ⟨⟨fun i j => if j = 0 then (if i = 0 then 3 else if i = 1 then 4 else 0)
    else if i = 0 then 5 else if i = 1 then 0 else 3⟩, fun _ => 0⟩

def Spec.biWide : Mat ℚ 2 3 :=
  .arr ⟨⟨fun j i => if j = 0 then (if i = 0 then 3 else if i = 1 then 4 else 0)
    else if i = 0 then 5 else if i = 1 then 0 else 3⟩, fun _ => 0⟩

example : biTall.own ∧ (Bi.new biTall).toOption.map (fun d => (d.main.toList, d.sec.toList)) =
    some ([-5, -5], [3]) :=
  ⟨trivial, by decide +kernel⟩

example : biWide.own ∧ (Bi.new biWide).toOption.map (fun d => (d.main.toList, d.sec.toList)) =
    some ([-5, -5], [3]) :=
  ⟨trivial, by decide +kernel⟩

end Linear
