import Verif.Lemmas.HessLemmas

/-!
# C39: the Hessenberg reduction
-/

set_option linter.unusedSectionVars false

namespace Linear

open Spec Finset Matrix

/-! ## Specification -/

/-- Zero below the diagonal next to the main one. -/
def Spec.UpperHessenberg {K : Type} [Zero K] (m : Nat) (H : Nat → Nat → K) : Prop :=
  ∀ i j, i < m → j < m → j + 1 < i → H i j = 0

section exact

variable {K : Type} [Field K] [LinearOrder K] [IsStrictOrderedRing K] [Flt K] [Exact K] [ExactSqrt K]
variable {m : Nat}

/-- **C39.** Every square matrix is reduced, and `P * H * PT = A` with `P` orthogonal, `PT` its transpose
and `H` upper Hessenberg. -/
theorem C39_factors {a : Mat K m m} (ha : a.own) (hm : 0 < m) {A : Nat → Nat → K} (hA : Shows a.at m m A) :
    ∃ s, Hess.new a = .ok s ∧ ∃ (mp mpt mh : Mat K m m) (P H : Nat → Nat → K),
      s.p = .ok ⟨m, m, mp⟩ ∧ s.pT = .ok ⟨m, m, mpt⟩ ∧ s.h = .ok ⟨m, m, mh⟩ ∧
      mp.own ∧ mpt.own ∧ mh.own ∧
      Shows mp.at m m P ∧ Shows mpt.at m m (fun i j => P j i) ∧ Shows mh.at m m H ∧
      mx m m P * mx m m H * (mx m m P)ᵀ = mx m m A ∧
      mx m m P * (mx m m P)ᵀ = 1 ∧ (mx m m P)ᵀ * mx m m P = 1 ∧ UpperHessenberg m H := by
  obtain ⟨s, e, hI⟩ := Hess.new_wp ha hm hA (Hess.Inv m A) (fun f o h => Hess.Inv.init o h)
    (fun k f f' o o' hk hkm h hs => h.step hk (by omega) hs)
  obtain ⟨mp, P, ep, hdp, hP, hp⟩ := Hess.p_exact hm s
  obtain ⟨mh, eh, hdh, hH⟩ := Hess.h_ok hm s
  obtain ⟨mpt, ept, hdpt, hPT⟩ := C12_transpose hdp hm hP
  have o := hI.orth
  rw [show max 1 (m - 1) - 1 = m - 2 by omega, ← hp] at o
  refine ⟨s, e, mp, mpt, mh, P, _, ep, ?_, eh, Mat.dense_own hdp, Mat.dense_own hdpt, Mat.dense_own hdh,
    hP, hPT, hH, ?_, o, mul_eq_one_comm.1 o, ?_⟩
  · unfold Hess.pT
    rw [ep, ok_bind]
    dsimp only
    rw [ept]
    rfl
  · rw [hI.prod, hp, show max 1 (m - 1) - 1 = m - 2 by omega]
    congr 2
    refine mx_congr fun i j hi hj => ?_
    unfold Hess.hEnt Hess.M
    by_cases e : i ≤ j + 1
    · rw [if_pos e, if_neg (by omega)]
    · rw [if_neg e, if_pos (by omega), Exact.zero_eq]
  · intro i j _ _ h
    rw [Hess.hEnt, if_neg (by omega), Exact.zero_eq]

end exact

/-! ## Any arithmetic -/

section free

variable {α : Type} [Flt α] {m n : Nat}

/-- **C39.** A matrix that is not square is refused. -/
theorem C39_square (a : Mat α m n) (hm : 0 < m) (h : m ≠ n) : Hess.new a = .error (.err .sqMat) := by
  unfold Hess.new Mat.isSquare
  rw [Mat.colDim_ok hm]
  simp [ok_bind, pure_eq_ok, Ne.symm h]

/-- **C58.** In any arithmetic the reduction of a square matrix with at least one row ends without an index
fault, and so do `H`, `P` and `PT`. -/
theorem C58_hess [ZeroLaws α] {a : Mat α m m} (ha : a.own) (hm : 0 < m) :
    ∃ s, Hess.new a = .ok s ∧ (∃ x : Mat α m m, s.h = .ok ⟨m, m, x⟩) ∧
      (∃ x : Mat α m m, s.p = .ok ⟨m, m, x⟩) ∧ ∃ x : Mat α m m, s.pT = .ok ⟨m, m, x⟩ := by
  obtain ⟨s, e, -⟩ := Hess.new_wp ha hm a.at_shows (fun _ _ _ => True) (fun _ _ _ => trivial)
    (fun _ _ _ _ _ _ _ _ _ => trivial)
  obtain ⟨x, ex, -⟩ := Hess.h_ok hm s
  obtain ⟨y, _, q, ey, hy, hq, -⟩ := Hess.p_wp hm s (fun _ _ _ => True) (fun _ _ => trivial)
    (fun _ _ _ _ _ _ _ _ _ => trivial)
  obtain ⟨z, ez, -⟩ := C12_transpose hy hm hq
  refine ⟨s, e, ⟨x, ex⟩, ⟨y, ey⟩, ⟨z, ?_⟩⟩
  unfold Hess.pT
  rw [ey, ok_bind]
  dsimp only
  rw [ez]
  rfl

end free

/-! ## Concrete case -/

/-- A 3 × 3 matrix with rational norms. -/
def Spec.hessCase : Mat ℚ 3 3 :=
  .arr ⟨⟨fun i j => if i = 0 then j + 1 else if j = 0 then i + 2 else if i + j = 2 then 4
    else if i + j = 3 then 5 else 7⟩, fun _ => 0⟩

example : hessCase.own ∧ (Hess.new hessCase).toOption.map (fun d => d.hv.toLists) =
    some [[1, -18 / 5, 1 / 5], [-5, 268 / 25, -1 / 25], [4, -1 / 25, 7 / 25]] :=
  ⟨trivial, by decide +kernel⟩

end Linear
