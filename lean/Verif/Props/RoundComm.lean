import Verif.Props.RoundGram

/-!
# C132: operations that commute in floating point
-/

set_option linter.unusedSectionVars false

namespace Linear

open Spec Rnd
open Finset hiding val diag

theorem B64.add_comm (x y : B64) : Flt.add x y = Flt.add y x := by
  rcases x with ⟨a, ha⟩ | s | _ <;> rcases y with ⟨b, hb⟩ | t | _ <;> try rfl
  · show B64.rnd (a + b) = B64.rnd (b + a)
    rw [_root_.add_comm]
  · show (if s = t then B64.inf s else B64.nan) = if t = s then B64.inf t else B64.nan
    by_cases h : s = t
    · rw [if_pos h, if_pos h.symm, h]
    · rw [if_neg h, if_neg fun e => h e.symm]

section

variable {α : Type} [Flt α]

/-- **C132, vectors**: when products commute, so do the dot product and the cosine: the same value, or the same panic. -/
theorem C132_vectors (comm : ∀ x y : α, Flt.mul x y = Flt.mul y x) (v w : RVec α) :
    vecDotProduct v w = vecDotProduct w v ∧ vecCosine v w = vecCosine w v := by
  have dot : vecDotProduct v w = vecDotProduct w v := by
    by_cases h : v.dim = w.dim
    · rw [(C24_machine v w).2.2.2.1 h, (C24_machine w v).2.2.2.1 h.symm, List.zipWith_comm]
      simp only [comm]
    · rw [(C24_machine v w).2.2.2.2 h, (C24_machine w v).2.2.2.2 fun e => h e.symm]
  refine ⟨dot, ?_⟩
  unfold vecCosine
  rw [(C24_machine v v).1, (C24_machine w w).1, ok_bind, ok_bind, ok_bind, ok_bind, dot, Bool.or_comm]
  simp only [comm]

/-- **C132, entries of vectors**: `Add` and `EBEMultiply` in both orders give the same vector or the same panic. -/
theorem C132_entries (add : ∀ x y : α, Flt.add x y = Flt.add y x) (mul : ∀ x y : α, Flt.mul x y = Flt.mul y x) (a b : List α) :
    Vec.add a (.arr b) = Vec.add b (.arr a) ∧ Vec.ebeMultiply a (.arr b) = Vec.ebeMultiply b (.arr a) := by
  by_cases h : a.length = b.length
  · obtain ⟨x1, -, x2, -⟩ := (C21_binary a (.arr b)).1 h
    obtain ⟨y1, -, y2, -⟩ := (C21_binary b (.arr a)).1 h.symm
    rw [x1, x2, y1, y2]
    show Except.ok (List.zipWith Flt.add a b) = .ok (List.zipWith Flt.add b a) ∧ Except.ok (List.zipWith Flt.mul a b) = .ok (List.zipWith Flt.mul b a)
    rw [List.zipWith_comm_of_comm add, List.zipWith_comm_of_comm mul]
    exact ⟨rfl, rfl⟩
  · obtain ⟨x1, -, x2, -⟩ := (C21_binary a (.arr b)).2 h
    obtain ⟨y1, -, y2, -⟩ := (C21_binary b (.arr a)).2 fun e => h e.symm
    rw [x1, x2, y1, y2]
    exact ⟨rfl, rfl⟩

/-- **C132, outer products**: when products commute, the outer products in both orders are transposes of each other. -/
theorem C132_outer (comm : ∀ x y : α, Flt.mul x y = Flt.mul y x) {u v : RVec α} (hu : 0 < u.dim) (hv : 0 < v.dim) :
    ∃ (m : Mat α u.dim v.dim) (n : Mat α v.dim u.dim) (P : Nat → Nat → α), outerProduct u v = .ok ⟨u.dim, v.dim, m⟩ ∧
      outerProduct v u = .ok ⟨v.dim, u.dim, n⟩ ∧ Shows m.at u.dim v.dim P ∧ Shows n.at v.dim u.dim fun i j => P j i := by
  have at_nth : ∀ w : RVec α, ∀ i : Nat, i < w.dim → w.at i = .ok (nth w.list i) := fun w i hi => by
    exact w.at_nth hi
  obtain ⟨m, e, h⟩ := C51_outer hu hv (at_nth u) (at_nth v)
  obtain ⟨n, e', h'⟩ := C51_outer hv hu (at_nth v) (at_nth u)
  exact ⟨m, n, _, e, e', h, h'.congr fun i j _ _ => comm _ _⟩

/-- **C132, matrices**: when sums commute, the sums of two dense matrices in both orders have the same values, whatever the two storages are. -/
theorem C132_add (comm : ∀ x y : α, Flt.add x y = Flt.add y x) {r c : Nat} {a b : Mat α r c} (ha : a.dense) (hb : b.dense) (hr : 0 < r) (hc : 0 < c) :
    ∃ (m n : Mat α r c) (S : Nat → Nat → α), a.add b = .ok m ∧ b.add a = .ok n ∧ Shows m.at r c S ∧ Shows n.at r c S := by
  obtain ⟨m, e, -, h⟩ := C09_add ha hr hc a.at_shows b.at_shows
  obtain ⟨n, e', -, h'⟩ := C09_add hb hr hc b.at_shows a.at_shows
  exact ⟨m, n, _, e, e', h, h'.congr fun i j _ _ => comm _ _⟩

end

/-- **C132, in binary64**: dot product, cosine, `Add` and `EBEMultiply` of vectors and `Add` of dense matrices give the same value, or the same
panic, in both orders. -/
theorem C132_binary64 (v w : RVec B64) (x y : List B64) {r c : Nat} {a b : Mat B64 r c} (ha : a.dense) (hb : b.dense) (hr : 0 < r) (hc : 0 < c) :
    vecDotProduct v w = vecDotProduct w v ∧ vecCosine v w = vecCosine w v ∧
    Vec.add x (.arr y) = Vec.add y (.arr x) ∧ Vec.ebeMultiply x (.arr y) = Vec.ebeMultiply y (.arr x) ∧
    ∃ (m n : Mat B64 r c) (S : Nat → Nat → B64), a.add b = .ok m ∧ b.add a = .ok n ∧ Shows m.at r c S ∧ Shows n.at r c S :=
  ⟨(C132_vectors B64.mul_comm v w).1, (C132_vectors B64.mul_comm v w).2, (C132_entries B64.add_comm B64.mul_comm x y).1,
    (C132_entries B64.add_comm B64.mul_comm x y).2, C132_add B64.add_comm ha hb hr hc⟩

/-- **C132, the limit of this**: `Add` is not associative; for (2¹⁰²³), (2¹⁰²³) and (-2¹⁰²³) one grouping gives infinity and the other 2¹⁰²³. -/
theorem C132_grouping : ∃ x y s t : B64, B64.Is x (2 ^ (1023 : ℤ)) ∧ B64.Is y (-2 ^ (1023 : ℤ)) ∧
    (Vec.add [x] (.arr [x]) >>= fun l => Vec.add l (.arr [y])) = .ok [s] ∧ s = B64.inf false ∧
    (Vec.add [x] (.arr [y]) >>= fun l => Vec.add [x] (.arr l)) = .ok [t] ∧ B64.Is t (2 ^ (1023 : ℤ)) := by
  have nx := B64.Num.zpow 1023 (by norm_num) (by norm_num)
  have two : (2 : ℝ) ^ (1023 : ℤ) + 2 ^ (1023 : ℤ) = 2 ^ (1024 : ℤ) := by
    rw [show (1024 : ℤ) = 1023 + 1 by norm_num, zpow_add₀ (by norm_num) 1023 1, zpow_one]
    ring
  have bin : ∀ a b : B64, Vec.add [a] (.arr [b]) = .ok [Flt.add a b] := fun a b => ((C21_binary [a] (.arr [b])).1 rfl).1
  have top : Flt.add (B64.num _ nx) (B64.num _ nx) = B64.inf false := by
    show B64.rnd (2 ^ (1023 : ℤ) + 2 ^ (1023 : ℤ)) = _
    rw [two]
    exact B64.rnd_big le_rfl
  refine ⟨B64.num _ nx, B64.num _ nx.neg, Flt.add (Flt.add (B64.num _ nx) (B64.num _ nx)) (B64.num _ nx.neg),
    Flt.add (B64.num _ nx) (Flt.add (B64.num _ nx) (B64.num _ nx.neg)), ⟨trivial, rfl⟩, ⟨trivial, rfl⟩, ?_, ?_, ?_, ?_⟩
  · rw [bin, ok_bind, bin]
  · rw [top]
    rfl
  · rw [bin, ok_bind, bin]
  · have hx : B64.Is (B64.num _ nx) (2 ^ (1023 : ℤ)) := ⟨trivial, rfl⟩
    have hy : B64.Is (B64.num _ nx.neg) (-2 ^ (1023 : ℤ)) := ⟨trivial, rfl⟩
    exact hx.add (hx.add hy (t := 0) (add_neg_cancel _) (B64.dyi 0 (by norm_num))) (_root_.add_zero _) nx

/-- The hypotheses of `C132_outer` are met by (1, ∞) and (2, 1, 1) in binary64. -/
example : ∃ (m : Mat B64 2 3) (n : Mat B64 3 2) (x : B64), outerProduct (.arr [Flt.one, B64.inf false]) (.arr [Flt.two, Flt.one, Flt.one]) = .ok ⟨2, 3, m⟩ ∧
    outerProduct (.arr [Flt.two, Flt.one, Flt.one]) (.arr [Flt.one, B64.inf false]) = .ok ⟨3, 2, n⟩ ∧ m.at 1 2 = .ok x ∧ n.at 2 1 = .ok x := by
  obtain ⟨m, n, P, e, e', h, h'⟩ := C132_outer B64.mul_comm (u := .arr [Flt.one, B64.inf false]) (v := .arr [Flt.two, Flt.one, Flt.one])
    (by norm_num [RVec.dim]) (by norm_num [RVec.dim])
  exact ⟨m, n, P 1 2, e, e', h.ok (i := 1) (j := 2) (by norm_num [RVec.dim]) (by norm_num [RVec.dim]),
    h'.ok (i := 2) (j := 1) (by norm_num [RVec.dim]) (by norm_num [RVec.dim])⟩

end Linear
