import Verif.Props.RoundMono

/-!
# C131: transposes of products, bit for bit
-/

set_option linter.unusedSectionVars false

namespace Linear

open Spec Rnd
open Finset hiding val diag

section

variable {α : Type} [Flt α]

theorem usum_congr {n : Nat} {P Q : Nat → α} (h : ∀ i, i < n → P i = Q i) : usum n P = usum n Q := by
  unfold usum
  rw [lsum_congr (a := 0) (b := n / 4) fun g _ hg => by
    rw [h (4 * g) (by omega), h (4 * g + 1) (by omega), h (4 * g + 2) (by omega), h (4 * g + 3) (by omega)]]
  exact lsum_congr fun i _ hi => h i hi

theorem blk_lt {c kb t : Nat} (h : kb < nBlocks c) (ht : t < blkExt c kb) : kb * 52 + t < c := by
  have h1 := blkExt_end h
  omega

theorem bdot_congr {c : Nat} {x y x' y' : Nat → α} (h : ∀ k, k < c → Flt.mul (x k) (y k) = Flt.mul (x' k) (y' k)) :
    bdot c x y = bdot c x' y' := by
  unfold bdot
  exact lsum_congr fun kb _ hk => usum_congr fun t ht => h _ (blk_lt hk ht)

theorem gdot_congr {c : Nat} {x y x' y' : Nat → α} (h : ∀ k, k < c → Flt.mul (x k) (y k) = Flt.mul (x' k) (y' k)) :
    gdot c x y = gdot c x' y' := by
  unfold gdot
  exact lsum_congr fun kb _ hk => lsum_congr fun t _ ht => h _ (blk_lt hk ht)

theorem ldot_congr {c : Nat} {x y x' y' : Nat → α} (h : ∀ k, k < c → Flt.mul (x k) (y k) = Flt.mul (x' k) (y' k)) :
    ldot c x y = ldot c x' y' := by
  unfold ldot
  exact lsum_congr fun k _ hk => h k hk

/-- **C131, Gram matrices**: when products commute, the product of a matrix and its transpose, in whatever storages, has the same values in
mirrored places, bit for bit. -/
theorem C131_gram (comm : ∀ x y : α, Flt.mul x y = Flt.mul y x) {r c : Nat} {a : Mat α r c} (ha : a.dense) (hr : 0 < r) (hc : 0 < c)
    {b : Mat α c r} {A : Nat → Nat → α} (hA : Shows a.at r c A) (hB : Shows b.at c r fun i j => A j i) :
    ∃ (m : Mat α r r) (P : Nat → Nat → α), a.multiply b = .ok ⟨r, r, m⟩ ∧ m.dense ∧ Shows m.at r r P ∧
      ∀ i j, i < r → j < r → P i j = P j i := by
  revert ha hA
  cases a with
  | arr a =>
    intro _ hA
    obtain ⟨m, e, h⟩ := C10_bits a hr hc hA hB
    exact ⟨.arr m, _, e, trivial, h, fun i j hi hj => lsum_congr fun k _ _ => comm _ _⟩
  | blk a =>
    intro _ hA
    by_cases hb : ∃ m, b = .blk m
    · obtain ⟨b, rfl⟩ := hb
      obtain ⟨m, e, h⟩ := a.multiply_blk b hr hr
      refine ⟨.blk m, _, by rw [Mat.multiply, e]; rfl, trivial, h, fun i j hi hj => bdot_congr fun k hk => ?_⟩
      rw [Blk.entB_of hA hi hk, Blk.entB_of hB hk hj, Blk.entB_of hA hj hk, Blk.entB_of hB hk hi]
      exact comm _ _
    · obtain ⟨m, e, h⟩ := a.multiply_gen b (fun m hm => hb ⟨m, hm⟩) hr hr
      refine ⟨.blk m, _, by rw [Mat.multiply, e]; rfl, trivial, h, fun i j hi hj => gdot_congr fun k hk => ?_⟩
      rw [Blk.entB_of hA hi hk, Mat.ent_of hB hk hj, Blk.entB_of hA hj hk, Mat.ent_of hB hk hi]
      exact comm _ _
  | dia a => exact fun h => h.elim
  | ext a => exact fun h => h.elim

/-- The two matrices have the same dense storage. -/
def Mat.alike {r c p q : Nat} : Mat α r c → Mat α p q → Prop
  | .arr _, .arr _ => True
  | .blk _, .blk _ => True
  | _, _ => False

/-- **C131, products**: when products commute, the transpose of a product of two matrices of one dense storage is the product of the transposes in
the reverse order, bit for bit. -/
theorem C131_product (comm : ∀ x y : α, Flt.mul x y = Flt.mul y x) {r c q : Nat} {a : Mat α r c} {b : Mat α c q} (hab : a.alike b)
    (hr : 0 < r) (hc : 0 < c) (hq : 0 < q) :
    ∃ (m : Mat α r q) (t : Mat α c r) (n : Mat α q r) (bt : Mat α q c) (P : Nat → Nat → α), a.multiply b = .ok ⟨r, q, m⟩ ∧
      a.transpose = .ok t ∧ b.transpose = .ok bt ∧ bt.multiply t = .ok ⟨q, r, n⟩ ∧
      Shows m.at r q P ∧ Shows n.at q r fun i j => P j i := by
  cases a with
  | arr a =>
    cases b with
    | arr b =>
      obtain ⟨t, et, ht⟩ := a.transpose_ok hr
      obtain ⟨s, es, hs⟩ := b.transpose_ok hc
      obtain ⟨m, e, h⟩ := C10_bits a hr hc a.at_shows (b := .arr b) b.at_shows
      obtain ⟨n, e', h'⟩ := C10_bits s hq hc hs (b := .arr t) ht
      exact ⟨.arr m, .arr t, .arr n, .arr s, _, e, by rw [Mat.transpose, et]; rfl, by rw [Mat.transpose, es]; rfl, e', h,
        h'.congr fun i j hi hj => lsum_congr fun k _ _ => comm _ _⟩
    | blk b => exact hab.elim
    | dia b => exact hab.elim
    | ext b => exact hab.elim
  | blk a =>
    cases b with
    | blk b =>
      obtain ⟨t, et, ht⟩ := a.transpose_ok
      obtain ⟨s, es, hs⟩ := b.transpose_ok
      obtain ⟨m, e, h⟩ := a.multiply_blk b hr hq
      obtain ⟨n, e', h'⟩ := s.multiply_blk t hq hr
      refine ⟨.blk m, .blk t, .blk n, .blk s, _, by rw [Mat.multiply, e]; rfl, by rw [Mat.transpose, et]; rfl,
        by rw [Mat.transpose, es]; rfl, by rw [Mat.multiply, e']; rfl, h, h'.congr fun i j hi hj => bdot_congr fun k hk => ?_⟩
      rw [Blk.entB_of (m := t) ht hk hj, Blk.entB_of (m := s) hs hi hk]
      exact comm _ _
    | arr b => exact hab.elim
    | dia b => exact hab.elim
    | ext b => exact hab.elim
  | dia a => cases b <;> exact hab.elim
  | ext a => cases b <;> exact hab.elim

end

theorem B64.mul_comm (x y : B64) : Flt.mul x y = Flt.mul y x := by
  rcases x with ⟨a, ha⟩ | s | _ <;> rcases y with ⟨b, hb⟩ | t | _ <;> try rfl
  · show B64.rnd (a * b) = B64.rnd (b * a)
    rw [_root_.mul_comm]
  · show B64.inf (s ^^ t) = B64.inf (t ^^ s)
    rw [Bool.xor_comm]

/-- **C131, in binary64**: the product of every dense matrix of doubles with its transpose, infinities and NaN included, is found symmetric with
every tolerance that is not negative, so that the eigen decomposition takes the symmetric method. -/
theorem C131_symmetric {r c : Nat} {a : Mat B64 r c} (ha : a.dense) (hr : 0 < r) (hc : 0 < c) {tol : B64} (ft : fin tol) (t0 : 0 ≤ val tol) :
    ∃ (t : Mat B64 c r) (m : Mat B64 r r), a.transpose = .ok t ∧ a.multiply t = .ok ⟨r, r, m⟩ ∧ isSymmetric m tol = .ok true := by
  obtain ⟨t, et, -, ht⟩ := C12_transpose ha hr a.at_shows
  obtain ⟨m, P, e, -, h, hP⟩ := C131_gram B64.mul_comm ha hr hc a.at_shows ht
  exact ⟨t, m, et, e, C128_symmetric hr h hP ft t0⟩

/-- The hypotheses of `C131_product` and `C131_symmetric` are met by matrices of several blocks whose entries differ and are in part infinite. -/
example : ∃ (a : Mat B64 60 70) (b : Mat B64 70 3), a.alike b ∧ a.dense ∧ a.at 0 1 = .ok Flt.two ∧ a.at 1 0 = .ok (B64.inf true) ∧
    ∃ (t : Mat B64 70 60) (m : Mat B64 60 60), a.transpose = .ok t ∧ a.multiply t = .ok ⟨60, 60, m⟩ ∧ isSymmetric m Flt.zero = .ok true := by
  obtain ⟨t, m, h⟩ := C131_symmetric (a := (.blk ⟨⟨fun _ k => if k = 1 then Flt.two else if k = 52 then B64.inf true else Flt.one⟩⟩ : Mat B64 60 70))
    trivial (by norm_num) (by norm_num) (tol := Flt.zero) zero_fin val_zero.ge
  refine ⟨_, .blk ⟨⟨fun _ _ => Flt.one⟩⟩, ?_, ?_, ?_, ?_, t, m, h⟩
  · trivial
  · trivial
  · exact (Mat.at_shows _).ok (i := 0) (j := 1) (by norm_num) (by norm_num)
  · exact (Mat.at_shows _).ok (i := 1) (j := 0) (by norm_num) (by norm_num)

end Linear
