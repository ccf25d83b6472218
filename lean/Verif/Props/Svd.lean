import Verif.Lemmas.SvdLoop
import Verif.Lemmas.SvdSafe
import Verif.Lemmas.QRLemmas

/-!
# C43, C67, C68: the singular value decomposition
-/

set_option linter.unusedSectionVars false

namespace Linear

open Spec Finset Matrix

section free

variable {α : Type} [Flt α] {r c m n : Nat}

/-- The decomposition `s` of an `r × c` matrix holds the `r × p` matrix `U`, the `p` values `σ` and the `c × p`
matrix `V`. -/
structure Spec.HoldsSvd (s : Svd α) (r c p : Nat) (U V : Nat → Nat → α) (σ : Nat → α) : Prop where
  vals : IsList s.sv p σ
  left : ∃ u : Mat α r p, s.u = ⟨r, p, u⟩ ∧ u.dense ∧ Shows u.at r p U
  right : ∃ v : Mat α c p, s.v = ⟨c, p, v⟩ ∧ v.dense ∧ Shows v.at c p V
  big : s.big = max r c

/-- What the construction makes of the state at the end of the iteration. -/
theorem Svd.pack_ok (κ : Svd.Lit α) (hn : 0 < n) (hm : n ≤ m) (x : Svd.St α m n) :
    (∃ s, Svd.pack κ false x = .ok s ∧ HoldsSvd s m n n x.u.f x.v.f x.s.f ∧
      s.tol = Flt.fmax (Flt.mul (Flt.mul (κ.conv m) (x.s.f 0)) κ.eps) κ.floor) ∧
    ∃ s, Svd.pack κ true x = .ok s ∧ HoldsSvd s n m n x.v.f x.u.f x.s.f ∧
      s.tol = Flt.fmax (Flt.mul (Flt.mul (κ.conv m) (x.s.f 0)) κ.eps) κ.floor := by
  obtain ⟨a, ea, ha, sa⟩ := SMat.fromSlices_dense (Jag.toLists_rect x.u) (show 0 < m by omega) hn false
  obtain ⟨b, eb, hb, sb⟩ := SMat.fromSlices_dense (Jag.toLists_rect x.v) hn hn false
  unfold Svd.pack
  rw [Row.get_ok hn, ok_bind, ea, ok_bind, eb, ok_bind]
  exact ⟨⟨_, rfl, ⟨Row.toList_isList _, ⟨a, rfl, ha, sa⟩, ⟨b, rfl, hb, sb⟩, by simp; omega⟩, rfl⟩,
    ⟨_, rfl, ⟨Row.toList_isList _, ⟨b, rfl, hb, sb⟩, ⟨a, rfl, ha, sa⟩, by simp; omega⟩, rfl⟩⟩

/-- The construction, for tall and for wide matrices. -/
theorem Svd.new_ok (κ : Svd.Lit α) (fuel : Nat) {a : Mat α r c} (ha : a.own) (hr : 0 < r) (hc : 0 < c)
    {A : Nat → Nat → α} (hA : Shows a.at r c A) :
    (c ≤ r ∧ ∃ t : Tab α r c, (∀ i j, i < r → j < c → t.f i j = A i j) ∧
      ∀ o, Svd.core κ fuel t = .ok o → (o = none → Svd.new κ fuel a = .ok none) ∧ ∀ x, o = some x →
        ∃ s, Svd.new κ fuel a = .ok (some s) ∧ HoldsSvd s r c (min r c) x.u.f x.v.f x.s.f ∧
          s.tol = Flt.fmax (Flt.mul (Flt.mul (κ.conv (max r c)) (x.s.f 0)) κ.eps) κ.floor) ∨
    (r < c ∧ ∃ t : Tab α c r, (∀ i j, i < c → j < r → t.f i j = A j i) ∧
      ∀ o, Svd.core κ fuel t = .ok o → (o = none → Svd.new κ fuel a = .ok none) ∧ ∀ x, o = some x →
        ∃ s, Svd.new κ fuel a = .ok (some s) ∧ HoldsSvd s r c (min r c) x.v.f x.u.f x.s.f ∧
          s.tol = Flt.fmax (Flt.mul (Flt.mul (κ.conv (max r c)) (x.s.f 0)) κ.eps) κ.floor) := by
  unfold Svd.new
  rw [Mat.colDim_ok hr, ok_bind]
  by_cases h : r < c
  · right
    rw [if_pos h]
    have hd : a.dense := by
      cases a with
      | arr _ => trivial
      | blk _ => trivial
      | dia _ => exact absurd h (lt_irrefl _)
      | ext _ => exact ha
    obtain ⟨tm, e, h1, h2⟩ := C12_transpose hd hr hA
    obtain ⟨t, e2, h3⟩ := Mat.dataCopy_ok (Mat.dense_own h1) hr h2
    refine ⟨h, t, h3, fun o ho => ?_⟩
    rw [e, ok_bind, e2, ok_bind, ho, ok_bind]
    refine ⟨fun hn => by subst hn; rfl, fun x hx => ?_⟩
    subst hx
    obtain ⟨-, s, es, hs, ht⟩ := Svd.pack_ok κ hr h.le x
    dsimp only
    rw [es, ok_bind, min_eq_left h.le, max_eq_right h.le]
    exact ⟨s, rfl, hs, ht⟩
  · left
    rw [if_neg h]
    obtain ⟨t, e2, h3⟩ := Mat.dataCopy_ok ha hc hA
    refine ⟨not_lt.1 h, t, h3, fun o ho => ?_⟩
    rw [e2, ok_bind, ho, ok_bind]
    refine ⟨fun hn => by subst hn; rfl, fun x hx => ?_⟩
    subst hx
    obtain ⟨⟨s, es, hs, ht⟩, -⟩ := Svd.pack_ok κ hc (not_lt.1 h) x
    dsimp only
    rw [es, ok_bind, min_eq_right (not_lt.1 h), max_eq_left (not_lt.1 h)]
    exact ⟨s, rfl, hs, ht⟩

/-- C67: whatever the arithmetic does, the construction never faults on a non-empty matrix of the package: the
iteration either goes on, or it ends and the factors have the right sizes. -/
theorem C67_safe (κ : Svd.Lit α) (fuel : Nat) {a : Mat α r c} (ha : a.own) (hr : 0 < r) (hc : 0 < c) :
    Svd.new κ fuel a = .ok none ∨ ∃ s U V σ, Svd.new κ fuel a = .ok (some s) ∧ HoldsSvd s r c (min r c) U V σ ∧
      s.tol = Flt.fmax (Flt.mul (Flt.mul (κ.conv (max r c)) (σ 0)) κ.eps) κ.floor := by
  rcases Svd.new_ok κ fuel ha hr hc a.at_shows with ⟨h, t, -, ho⟩ | ⟨h, t, -, ho⟩
  · obtain ⟨o, eo, -⟩ := Svd.core_safe κ hc h t fuel
    obtain ⟨h1, h2⟩ := ho o eo
    cases o with
    | none => exact .inl (h1 rfl)
    | some x =>
      obtain ⟨s, h⟩ := h2 x rfl
      exact .inr ⟨s, _, _, _, h⟩
  · obtain ⟨o, eo, -⟩ := Svd.core_safe κ hr h.le t fuel
    obtain ⟨h1, h2⟩ := ho o eo
    cases o with
    | none => exact .inl (h1 rfl)
    | some x =>
      obtain ⟨s, h⟩ := h2 x rfl
      exact .inr ⟨s, _, _, _, h⟩

/-- C43: when the construction returns, the singular values are non-negative and do not increase, in every
arithmetic whose comparisons are those of a total order. Nothing is assumed of sums, products, quotients and
roots, so rounding plays no part. -/
theorem C43_sorted (L : OrdLaws α) (κ : Svd.Lit α) (fuel : Nat) {a : Mat α r c} (ha : a.own) (hr : 0 < r)
    (hc : 0 < c) {s : Svd α} (hs : Svd.new κ fuel a = .ok (some s)) :
    s.sv.length = min r c ∧ ∀ i x, s.sv[i]? = some x →
      Flt.le Flt.zero x = true ∧ ∀ y, s.sv[i + 1]? = some y → Flt.le y x = true := by
  have key : ∃ (U V : Nat → Nat → α) (σ : Nat → α), HoldsSvd s r c (min r c) U V σ ∧
      NonNeg 0 (min r c) σ ∧ NonInc 0 (min r c) σ := by
    rcases Svd.new_ok κ fuel ha hr hc a.at_shows with ⟨h, t, -, ho⟩ | ⟨h, t, -, ho⟩
    · obtain ⟨o, eo, hv⟩ := Svd.core_safe κ hc h t fuel
      obtain ⟨h1, h2⟩ := ho o eo
      cases o with
      | none => rw [h1 rfl] at hs; cases hs
      | some x =>
        obtain ⟨s', e, hs', -⟩ := h2 x rfl
        rw [e] at hs
        cases hs
        obtain ⟨q1, q2⟩ := hv L x rfl
        rw [min_eq_right h] at hs' ⊢
        exact ⟨_, _, _, hs', q1, q2⟩
    · obtain ⟨o, eo, hv⟩ := Svd.core_safe κ hr h.le t fuel
      obtain ⟨h1, h2⟩ := ho o eo
      cases o with
      | none => rw [h1 rfl] at hs; cases hs
      | some x =>
        obtain ⟨s', e, hs', -⟩ := h2 x rfl
        rw [e] at hs
        cases hs
        obtain ⟨q1, q2⟩ := hv L x rfl
        rw [min_eq_left h.le] at hs' ⊢
        exact ⟨_, _, _, hs', q1, q2⟩
  obtain ⟨U, V, σ, H, h1, h2⟩ := key
  refine ⟨H.vals.1, fun i x hx => ?_⟩
  have hi : i < min r c := by
    rw [← H.vals.1]
    exact (List.getElem?_eq_some_iff.1 hx).1
  rw [H.vals.2 i hi] at hx
  cases hx
  refine ⟨h1 i (Nat.zero_le _) hi, fun y hy => ?_⟩
  have hi' : i + 1 < min r c := by
    rw [← H.vals.1]
    exact (List.getElem?_eq_some_iff.1 hy).1
  rw [H.vals.2 _ hi'] at hy
  cases hy
  exact h2 i (Nat.zero_le _) hi'

end free

/-! ## Exact arithmetic -/

section exact

variable {K : Type} [Field K] [LinearOrder K] [IsStrictOrderedRing K] [Flt K] [Exact K] {r c : Nat}

theorem OrdLaws.exact : OrdLaws K where
  total a b h := by
    rw [Exact.le_eq, decide_eq_false_iff_not, not_le] at h
    rw [Exact.le_eq, decide_eq_true_eq]
    exact h.le
  neg a h := by
    rw [Exact.lt_eq, decide_eq_true_eq, Exact.zero_eq] at h
    rw [Exact.le_eq, decide_eq_true_eq, Exact.zero_eq, Exact.neg_eq]
    exact neg_nonneg.2 h.le
  zero := by rw [Exact.le_eq, decide_eq_true_eq]

/-- `U diag(σ) Vᵀ`, for `p` columns in `U` and in `V`. -/
def Spec.usv (r c p : Nat) (U V : Nat → Nat → K) (σ : Nat → K) : Matrix (Fin r) (Fin c) K :=
  mx r p U * Matrix.diagonal (fun i : Fin p => σ i) * (mx c p V)ᵀ

theorem mx_diagonal {p : Nat} (σ : Nat → K) :
    mx p p (fun i j => if j = i then σ i else 0) = Matrix.diagonal (fun i : Fin p => σ i) := by
  ext i j
  rw [Matrix.diagonal_apply]
  show (if j.1 = i.1 then σ i else 0) = _
  by_cases h : i = j
  · rw [if_pos h, if_pos (by rw [h])]
  · rw [if_neg h, if_neg fun h' => h (Fin.ext h'.symm)]

/-- C68: when the construction returns, in exact arithmetic, the columns of `U` and of `V` are orthonormal, the
singular values are non-negative and do not increase, and `U Σ Vᵀ` differs from the matrix by at most
`(p - 1) (tiny + 2 eps N)` in the Frobenius norm. Here `p` is the smaller dimension, and `N` bounds the Frobenius
norm of the matrix. The difference comes from the entries that the iteration neglects, and from nothing else. -/
theorem C68_factors {κ : Svd.Lit K} (hh : Spec.Hypot κ.hyp) (ht : 0 ≤ κ.tiny) (hε : 0 ≤ κ.eps) (fuel : Nat)
    {a : Mat K r c} (ha : a.own) (hr : 0 < r) (hc : 0 < c) {A : Nat → Nat → K} (hA : Shows a.at r c A)
    {N : K} (hN : 0 ≤ N) (hAN : fro2 (mx r c A) ≤ N ^ 2) {s : Svd K} (hs : Svd.new κ fuel a = .ok (some s)) :
    ∃ U V σ, HoldsSvd s r c (min r c) U V σ ∧
      (mx r (min r c) U)ᵀ * mx r (min r c) U = 1 ∧ (mx c (min r c) V)ᵀ * mx c (min r c) V = 1 ∧
      fro2 (usv r c (min r c) U V σ - mx r c A) ≤ ((min r c - 1 : Nat) * (κ.tiny + 2 * κ.eps * N)) ^ 2 ∧
      (∀ i, i < min r c → 0 ≤ σ i) ∧ (∀ i, i + 1 < min r c → σ (i + 1) ≤ σ i) := by
  have hδ : κ.tiny + 2 * κ.eps * N = κ.tiny + κ.eps * (N + N) := by ring
  rw [hδ]
  have hfT : ∀ {p q : Nat} (X : Matrix (Fin p) (Fin q) K), fro2 Xᵀ = fro2 X := fun X => by
    unfold fro2
    exact sum_comm
  rcases Svd.new_ok κ fuel ha hr hc hA with ⟨h, t, hd, ho⟩ | ⟨h, t, hd, ho⟩
  · have et : mx r c t.f = mx r c A := mx_congr hd
    obtain ⟨o, eo, hv⟩ := Svd.core_exact hh ht hε hc h hN t (by rw [et]; exact hAN) fuel
    obtain ⟨h1, h2⟩ := ho o eo
    cases o with
    | none => rw [h1 rfl] at hs; cases hs
    | some x =>
      obtain ⟨s', e, hs', -⟩ := h2 x rfl
      rw [e] at hs
      cases hs
      obtain ⟨S, R, q1, -, q2, q3⟩ := hv x rfl
      rw [min_eq_right h] at hs' ⊢
      refine ⟨_, _, _, hs', R.ou, R.ov, ?_, q2, q3⟩
      rw [et, ← R.prod, mx_diagonal] at q1
      exact q1
  · have et : mx c r t.f = (mx r c A)ᵀ := by rw [mx_transpose]; exact mx_congr hd
    obtain ⟨o, eo, hv⟩ := Svd.core_exact hh ht hε hr h.le hN t (by rw [et, hfT]; exact hAN) fuel
    obtain ⟨h1, h2⟩ := ho o eo
    cases o with
    | none => rw [h1 rfl] at hs; cases hs
    | some x =>
      obtain ⟨s', e, hs', -⟩ := h2 x rfl
      rw [e] at hs
      cases hs
      obtain ⟨S, R, q1, -, q2, q3⟩ := hv x rfl
      rw [min_eq_left h.le] at hs' ⊢
      refine ⟨_, _, _, hs', R.ov, R.ou, ?_, q2, q3⟩
      rw [et, ← R.prod, mx_diagonal, ← hfT] at q1
      unfold usv
      rw [Matrix.transpose_sub, Matrix.transpose_transpose, Matrix.transpose_mul, Matrix.transpose_mul,
        Matrix.transpose_transpose, Matrix.diagonal_transpose, ← Matrix.mul_assoc] at q1
      exact q1

/-- C68: if the constants below which entries are neglected are zero, the product of the factors is the matrix. -/
theorem C68_exact {κ : Svd.Lit K} (hh : Spec.Hypot κ.hyp) (ht : κ.tiny = 0) (hε : κ.eps = 0) (fuel : Nat)
    {a : Mat K r c} (ha : a.own) (hr : 0 < r) (hc : 0 < c) {A : Nat → Nat → K} (hA : Shows a.at r c A)
    {s : Svd K} (hs : Svd.new κ fuel a = .ok (some s)) :
    ∃ U V σ, HoldsSvd s r c (min r c) U V σ ∧
      (mx r (min r c) U)ᵀ * mx r (min r c) U = 1 ∧ (mx c (min r c) V)ᵀ * mx c (min r c) V = 1 ∧
      usv r c (min r c) U V σ = mx r c A ∧
      (∀ i, i < min r c → 0 ≤ σ i) ∧ (∀ i, i + 1 < min r c → σ (i + 1) ≤ σ i) := by
  obtain ⟨U, V, σ, h1, h2, h3, h4, h5⟩ := C68_factors hh ht.ge hε.ge fuel ha hr hc hA
    (N := 1 + fro2 (mx r c A)) (by have := fro2_nonneg (mx r c A); linarith)
    (by have := fro2_nonneg (mx r c A); nlinarith) hs
  refine ⟨U, V, σ, h1, h2, h3, ?_, h5⟩
  rw [ht, hε, mul_zero, zero_mul, add_zero, mul_zero, zero_pow two_ne_zero] at h4
  exact sub_eq_zero.1 (fro2_zero_iff _ h4)

/-- C69: in exact arithmetic, three rounds are enough for every matrix with at most two rows or at most two columns,
whatever the constants: the shift is then an eigenvalue, and a QR step splits the two columns. -/
theorem C69_small [ExactSqrt K] {κ : Svd.Lit K} (hh : Spec.Hypot κ.hyp) (ht : 0 ≤ κ.tiny) (hε : 0 ≤ κ.eps)
    {a : Mat K r c} (ha : a.own) (hr : 0 < r) (hc : 0 < c) (h2 : r ≤ 2 ∨ c ≤ 2) {fuel : Nat} (hf : 3 ≤ fuel) :
    ∃ s, Svd.new κ fuel a = .ok (some s) := by
  have hq : Spec.Roots K := fun x hx => ⟨ExactSqrt.sqrt_nonneg x, ExactSqrt.sqrt_mul_self x hx⟩
  rcases Svd.new_ok κ fuel ha hr hc a.at_shows with ⟨h, t, -, ho⟩ | ⟨h, t, -, ho⟩
  · obtain ⟨y, ey⟩ := Svd.core_ends hq hh ht hε hc h (by omega) t (show c + 1 ≤ fuel by omega)
    obtain ⟨s, e, -⟩ := (ho _ ey).2 y rfl
    exact ⟨s, e⟩
  · obtain ⟨y, ey⟩ := Svd.core_ends hq hh ht hε hr h.le (by omega) t (show r + 1 ≤ fuel by omega)
    obtain ⟨s, e, -⟩ := (ho _ ey).2 y rfl
    exact ⟨s, e⟩

/-- C69: in exact arithmetic, the iteration ends for every matrix of every size. `N` bounds the root of the sum of the squares
of the entries. A QR step on three or more columns multiplies the square of the last product of neighbours times the
product before by at most 13/20, and no QR step is taken when these are below `tiny ^ 6`: hence there are at most `M` steps
between two rounds that finish a column or clear an entry above the diagonal, and at most `2 n - 1` of those rounds. -/
theorem C69_rounds [ExactSqrt K] {κ : Svd.Lit K} (hh : Spec.Hypot κ.hyp) (ht : 0 < κ.tiny) (hε : 0 ≤ κ.eps)
    {a : Mat K r c} (ha : a.own) (hr : 0 < r) (hc : 0 < c) {A : Nat → Nat → K} (hA : Shows a.at r c A)
    {N : K} (hN : 0 ≤ N) (hAN : fro2 (mx r c A) ≤ N ^ 2) {M : Nat} (hM : (13 / 20) ^ M * N ^ 6 < κ.tiny ^ 6)
    {fuel : Nat} (hf : 2 * min r c * (M + 1) ≤ fuel) :
    ∃ s, Svd.new κ fuel a = .ok (some s) := by
  have hq : Spec.Roots K := fun x hx => ⟨ExactSqrt.sqrt_nonneg x, ExactSqrt.sqrt_mul_self x hx⟩
  rcases Svd.new_ok κ fuel ha hr hc hA with ⟨h, t, hd, ho⟩ | ⟨h, t, hd, ho⟩
  · have et : mx r c t.f = mx r c A := mx_congr hd
    rw [min_eq_right h] at hf
    obtain ⟨y, ey⟩ := Svd.core_done hq hh ht hε hc h hN t (by rw [et]; exact hAN) hM hf
    obtain ⟨s, e, -⟩ := (ho _ ey).2 y rfl
    exact ⟨s, e⟩
  · have et : mx c r t.f = (mx r c A)ᵀ := by rw [mx_transpose]; exact mx_congr hd
    rw [min_eq_left h.le] at hf
    obtain ⟨y, ey⟩ := Svd.core_done hq hh ht hε hr h.le hN t (by
      rw [et]
      unfold fro2 at hAN ⊢
      rw [sum_comm]
      exact hAN) hM hf
    obtain ⟨s, e, -⟩ := (ho _ ey).2 y rfl
    exact ⟨s, e⟩

/-- C69: in exact arithmetic (over an Archimedean field, such as the real numbers), the iteration ends for every matrix. -/
theorem C69_ends [ExactSqrt K] [Archimedean K] {κ : Svd.Lit K} (hh : Spec.Hypot κ.hyp) (ht : 0 < κ.tiny) (hε : 0 ≤ κ.eps)
    {a : Mat K r c} (ha : a.own) (hr : 0 < r) (hc : 0 < c) :
    ∃ f, ∀ fuel, f ≤ fuel → ∃ s, Svd.new κ fuel a = .ok (some s) := by
  have h0 := fro2_nonneg (mx r c a.ent)
  have hN : 0 < 1 + fro2 (mx r c a.ent) := by linarith
  obtain ⟨M, hM⟩ := exists_pow_lt_of_lt_one (div_pos (pow_pos ht 6) (pow_pos hN 6)) (show (13 / 20 : K) < 1 by norm_num)
  rw [lt_div_iff₀ (pow_pos hN 6)] at hM
  exact ⟨2 * min r c * (M + 1), fun fuel hf => C69_rounds hh ht hε ha hr hc a.at_shows hN.le (by nlinarith) hM hf⟩

end exact

/-! ## The result does not depend on the fuel -/

theorem Svd.loop_mono {α : Type} [Flt α] {m n : Nat} (κ : Svd.Lit α) {x' : Svd.St α m n} : ∀ (f p : Nat) (x : Svd.St α m n),
    Svd.loop κ f p x = .ok (some x') → ∀ g, f ≤ g → Svd.loop κ g p x = .ok (some x') := by
  intro f
  induction f with
  | zero =>
    intro p x h g _
    unfold Svd.loop at h
    split_ifs at h with c
    · cases g <;> (unfold Svd.loop; rw [if_pos c]; exact h)
    · cases h
  | succ f ih =>
    intro p x h g hg
    obtain ⟨g, rfl⟩ : ∃ g', g = g' + 1 := ⟨g - 1, by omega⟩
    unfold Svd.loop at h ⊢
    split_ifs at h ⊢ with c
    · exact h
    · cases e : Svd.round κ p x with
      | error _ => rw [e] at h; cases h
      | ok px =>
        rw [e, ok_bind] at h
        rw [ok_bind]
        exact ih _ _ h g (by omega)

/-- C69: the fuel of the model plays no part: once the iteration has ended, more fuel gives the same result. -/
theorem C69_fuel {α : Type} [Flt α] {r c : Nat} (κ : Svd.Lit α) {a : Mat α r c} (hr : 0 < r)
    {f g : Nat} (hg : f ≤ g) {s : Svd α} (hs : Svd.new κ f a = .ok (some s)) :
    Svd.new κ g a = .ok (some s) := by
  have core : ∀ {m n : Nat} (t : Tab α m n) (x : Svd.St α m n), Svd.core κ f t = .ok (some x) →
      Svd.core κ g t = .ok (some x) := by
    intro m n t x h
    unfold Svd.core at h ⊢
    by_cases c : n = 0
    · rw [if_pos c] at h; cases h
    · rw [if_neg c] at h ⊢
      change (do let x ← Svd.reduce κ.hyp t; Svd.loop κ f n x) = _ at h
      show (do let x ← Svd.reduce κ.hyp t; Svd.loop κ g n x) = _
      cases e : Svd.reduce κ.hyp t with
      | error _ => rw [e] at h; cases h
      | ok y =>
        rw [e, ok_bind] at h
        rw [ok_bind]
        exact Svd.loop_mono κ f n y h g hg
  unfold Svd.new at hs ⊢
  rw [Mat.colDim_ok hr, ok_bind] at hs ⊢
  split_ifs at hs ⊢ with h
  · cases e : a.transpose with
    | error _ => rw [e] at hs; cases hs
    | ok tm =>
      rw [e, ok_bind] at hs
      rw [ok_bind]
      cases e2 : tm.dataCopy with
      | error _ => rw [e2] at hs; cases hs
      | ok t =>
        rw [e2, ok_bind] at hs
        rw [ok_bind]
        cases e3 : Svd.core κ f t with
        | error _ => rw [e3] at hs; cases hs
        | ok o =>
          rw [e3, ok_bind] at hs
          cases o with
          | none => cases hs
          | some x =>
            rw [core t x e3, ok_bind]
            exact hs
  · cases e2 : a.dataCopy with
    | error _ => rw [e2] at hs; cases hs
    | ok t =>
      rw [e2, ok_bind] at hs
      rw [ok_bind]
      cases e3 : Svd.core κ f t with
      | error _ => rw [e3] at hs; cases hs
      | ok o =>
        rw [e3, ok_bind] at hs
        cases o with
        | none => cases hs
        | some x =>
          rw [core t x e3, ok_bind]
          exact hs

/-! ## Concrete cases -/

/-- The literals of the code over the rational numbers; the roots are exact for perfect squares only, and the floor
of the tolerance, the root of 2⁻⁵³, is rounded down. -/
def Spec.svdLit : Svd.Lit ℚ :=
  ⟨1 / 2 ^ 52, 1 / 2 ^ 966, fun a b => Flt.sqrt (a * a + b * b), 1 / 2 ^ 27, fun n => n⟩

/-- A matrix with the singular values 10 and 5. -/
def Spec.svdCase : Mat ℚ 2 2 :=
  .arr ⟨⟨fun i j => if j = 0 then (if i = 0 then 3 else 4) else (if i = 0 then -8 else 6)⟩, fun _ => 0⟩

example : (Svd.new svdLit 3 svdCase).toOption.map (·.map fun s => (s.sv, s.u.m.dataCopy.toOption.map (·.toLists),
    s.v.m.dataCopy.toOption.map (·.toLists))) =
    some (some ([10, 5], some [[-4 / 5, -3 / 5], [3 / 5, -4 / 5]], some [[0, -1], [1, 0]])) := by decide +kernel

/-- The hypotheses of C43 are met. -/
example : OrdLaws ℚ := OrdLaws.exact

/-- The literals over the real numbers. -/
noncomputable def Spec.svdReal : Svd.Lit ℝ :=
  ⟨1 / 2 ^ 52, 1 / 2 ^ 966, fun a b => √(a * a + b * b), √(1 / 2 ^ 53), fun n => n⟩

theorem Spec.svdReal_hypot : Spec.Hypot svdReal.hyp := fun a b =>
  ⟨Real.sqrt_nonneg _, Real.mul_self_sqrt (add_nonneg (mul_self_nonneg a) (mul_self_nonneg b))⟩

/-- The matrix with rows (1, 3), (2, 4), (3, 5). -/
def Spec.svdTall : Mat ℝ 3 2 := .arr ⟨⟨fun i j => i + 2 * j + 1⟩, fun _ => 0⟩

/-- Every hypothesis of C43, C67, C68 and C69 is met by a matrix with three rows and two columns. -/
example : ∃ s U V σ, Svd.new svdReal 3 svdTall = .ok (some s) ∧ HoldsSvd s 3 2 2 U V σ ∧
    (mx 3 2 U)ᵀ * mx 3 2 U = 1 ∧ (mx 2 2 V)ᵀ * mx 2 2 V = 1 ∧
    fro2 (usv 3 2 2 U V σ - mx 3 2 svdTall.ent) ≤ (1 / 2 ^ 966 + 16 / 2 ^ 52) ^ 2 ∧ 0 ≤ σ 1 ∧ σ 1 ≤ σ 0 := by
  have ht : (0 : ℝ) ≤ svdReal.tiny := by show (0 : ℝ) ≤ 1 / 2 ^ 966; positivity
  have hε : (0 : ℝ) ≤ svdReal.eps := by show (0 : ℝ) ≤ 1 / 2 ^ 52; positivity
  obtain ⟨s, e⟩ := C69_small svdReal_hypot ht hε (a := svdTall) (show svdTall.own from trivial) (by omega)
    (by omega) (.inr le_rfl) (fuel := 3) le_rfl
  obtain ⟨U, V, σ, h1, h2, h3, h4, h5, h6⟩ := C68_factors svdReal_hypot ht hε 3 (a := svdTall)
    (show svdTall.own from trivial) (by omega) (by omega) svdTall.at_shows (N := 8) (by norm_num)
    (by
      simp [fro2, mx, Fin.sum_univ_succ, Mat.ent, svdTall]
      norm_num) e
  refine ⟨s, U, V, σ, e, h1, h2, h3, h4.trans (le_of_eq ?_), h5 1 (by decide), h6 0 (by decide)⟩
  simp [svdReal]
  norm_num

/-- The hypotheses of C69 are met: the iteration ends for a real matrix with three rows and four columns, with the
constants of the code. -/
example : ∃ f, ∀ fuel, f ≤ fuel →
    ∃ s, Svd.new svdReal fuel (.arr ⟨⟨fun i j => i * i + 2 * j + 1⟩, fun _ => 0⟩ : Mat ℝ 3 4) = .ok (some s) :=
  C69_ends svdReal_hypot (by show (0 : ℝ) < 1 / 2 ^ 966; positivity) (by show (0 : ℝ) ≤ 1 / 2 ^ 52; positivity) trivial
    (by omega) (by omega)

end Linear
