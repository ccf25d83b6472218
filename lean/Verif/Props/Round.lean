import Verif.Lemmas.Round
import Verif.Props.Derived
import Verif.Props.VecNorms

/-!
# C80, C81: sums and products in rounded arithmetic

The theorems hold for every arithmetic that satisfies `Rnd`, in particular for `B64`.  Nothing is
assumed about the data: when the answer of the library is finite, the numbers it was computed from are
finite and the answer is close to the exact one.  `gam α k` is `(1 + u)ᵏ - 1`, about `k u`.
-/

set_option linter.unusedSectionVars false

namespace Linear

open Spec Rnd
open Finset hiding val diag

variable {α : Type} [Flt α] {r c q : Nat}

/-! ## Law-free: which additions are made -/

theorem Spec.SumOf.foldl {x : α} {s : Multiset α} (h : SumOf x s) (l : List α) :
    SumOf (l.foldl Flt.add x) (s + (l : Multiset α)) := by
  induction l generalizing x s with
  | nil => simpa using h
  | cons a l ih =>
    rw [List.foldl_cons, ← Multiset.cons_coe, ← Multiset.singleton_add, ← add_assoc]
    exact ih (h.add (.term a))

theorem Spec.SumOf.total (l : List α) : SumOf (Spec.total l) (l : Multiset α) := by
  have := SumOf.foldl (.zero (α := α)) l
  rwa [_root_.zero_add] at this

theorem list_terms (l : List α) : (l : Multiset α) = over (range l.length) (nth l) := by
  show _ = Multiset.map _ ((List.range l.length : List Nat) : Multiset Nat)
  rw [Multiset.map_coe]
  congr 1
  refine List.ext_getElem (by simp) fun i h1 h2 => ?_
  simp [nth, List.getElem?_eq_getElem h1]

theorem Spec.SumOf.total_map (l : List α) (g : α → α) :
    SumOf (Spec.total (l.map g)) (over (range l.length) fun i => g (nth l i)) := by
  have h := SumOf.total (l.map g)
  rw [list_terms, List.length_map] at h
  convert h using 1
  refine Multiset.map_congr rfl fun i hi => ?_
  have := Multiset.mem_range.1 hi
  simp [nth, this]

theorem Spec.SumOf.total_zip (l m : List α) (hl : l.length = m.length) (g : α → α → α) :
    SumOf (Spec.total (List.zipWith g l m)) (over (range l.length) fun i => g (nth l i) (nth m i)) := by
  have h := SumOf.total (List.zipWith g l m)
  rw [list_terms, List.length_zipWith, ← hl, min_self] at h
  convert h using 1
  refine Multiset.map_congr rfl fun i hi => ?_
  have h1 := Multiset.mem_range.1 hi
  have h2 : i < m.length := hl ▸ h1
  simp [nth, h1, h2]

/-- `x` is the sum of the products `a k * b k`, `k < n`, each taken at most once, in some order and
bracketing; the products left out have a factor that is the constant zero. -/
def Spec.DotOf (n : Nat) (a b : Nat → α) (x : α) : Prop :=
  ∃ S ⊆ range n, SumOf x (over S fun k => Flt.mul (a k) (b k)) ∧
    ∀ k, k < n → k ∉ S → a k = Flt.zero ∨ b k = Flt.zero

theorem Spec.DotOf.full {n : Nat} {a b : Nat → α} {x : α}
    (h : SumOf x (terms 0 n fun k => Flt.mul (a k) (b k))) : DotOf n a b x :=
  ⟨range n, subset_rfl, by rwa [over_range], fun k hk h => absurd (mem_range.2 hk) h⟩

theorem Spec.DotOf.one {n : Nat} {a b : Nat → α} {i : Nat} (hi : i < n)
    (h : ∀ k, k < n → k ≠ i → a k = Flt.zero ∨ b k = Flt.zero) : DotOf n a b (Flt.mul (a i) (b i)) :=
  ⟨{i}, by simpa using hi, by simpa [over] using SumOf.term (Flt.mul (a i) (b i)),
    fun k hk h' => h k hk (by simpa using h')⟩

theorem Spec.DotOf.none {n : Nat} {a b : Nat → α}
    (h : ∀ k, k < n → a k = Flt.zero ∨ b k = Flt.zero) : DotOf n a b Flt.zero :=
  ⟨∅, by simp, .zero, fun k hk _ => h k hk⟩

theorem Spec.DotOf.congr {n : Nat} {a b a' b' : Nat → α} {x : α} (h : DotOf n a b x)
    (ha : ∀ k, k < n → a k = a' k) (hb : ∀ k, k < n → b k = b' k) : DotOf n a' b' x := by
  obtain ⟨S, hS, h1, h2⟩ := h
  refine ⟨S, hS, ?_, fun k hk hk' => by rw [← ha k hk, ← hb k hk]; exact h2 k hk hk'⟩
  convert h1 using 1
  refine Multiset.map_congr rfl fun k hk => ?_
  have := mem_range.1 (hS hk)
  rw [ha k this, hb k this]

/-- C81, law-free: an entry of the product of two matrices is the sum of the products of its row and
its column, in some order, for every storage. -/
theorem C81_product_terms {a : Mat α r c} (ha : a.own) (hr : 0 < r) (hc : 0 < c) (hq : 0 < q)
    {b : Mat α c q} {A B : Nat → Nat → α} (hA : Shows a.at r c A) (hB : Shows b.at c q B) :
    ∃ (m : Mat α r q) (M : Nat → Nat → α), a.multiply b = .ok ⟨r, q, m⟩ ∧ m.own ∧ Shows m.at r q M ∧
      ∀ i j, i < r → j < q → DotOf c (A i) (fun k => B k j) (M i j) := by
  revert ha hA
  cases a with
  | arr a =>
    intro _ hA
    obtain ⟨m, e, h⟩ := C10_bits a hr hc hA hB
    exact ⟨.arr m, _, e, trivial, h, fun i j hi hj => .full (.left 0 c _)⟩
  | blk a =>
    intro _ hA
    by_cases hb : ∃ m, b = .blk m
    · obtain ⟨b, rfl⟩ := hb
      obtain ⟨m, e, h⟩ := a.multiply_blk b hr hq
      refine ⟨.blk m, _, by rw [Mat.multiply, e]; rfl, Mat.own_blk _, h, fun i j hi hj => ?_⟩
      exact (DotOf.full (.bdot c _ _)).congr (fun k hk => Blk.entB_of hA hi hk)
        fun k hk => Blk.entB_of hB hk hj
    · obtain ⟨m, e, h⟩ := a.multiply_gen b (fun m hm => hb ⟨m, hm⟩) hr hq
      refine ⟨.blk m, _, by rw [Mat.multiply, e]; rfl, Mat.own_blk _, h, fun i j hi hj => ?_⟩
      exact (DotOf.full (.gdot c _ _)).congr (fun k hk => Blk.entB_of hA hi hk)
        fun k hk => Mat.ent_of hB hk hj
  | dia a =>
    intro _ hA
    have hz : ∀ i k, i < r → k < r → k ≠ i → A i k = Flt.zero := fun i k hi hk hki => by
      rw [← (Dia.shows a).unique hA hi hk]; simp [diag, Ne.symm hki]
    have hd : ∀ i, i < r → a.data.f i = A i i := fun i hi => by
      rw [← (Dia.shows a).unique hA hi hi]; simp [diag]
    have gen : ∀ b : Mat α r q, b.nonDia → Shows b.at r q B → ∃ (m : Mat α r q) (M : Nat → Nat → α),
        (Mat.dia a).multiply b = .ok ⟨r, q, m⟩ ∧ m.own ∧ Shows m.at r q M ∧
          ∀ i j, i < r → j < q → DotOf r (A i) (fun k => B k j) (M i j) := by
      intro b hb hB
      obtain ⟨m, e, h⟩ := a.mulGen_ok b hr hq
      refine ⟨.arr m, _, ?_, trivial, h, fun i j hi hj => ?_⟩
      · unfold Mat.multiply Dia.multiply
        dsimp only
        rw [checkMul_ok, must_ok, ok_bind]
        cases b with
        | dia b => exact hb.elim
        | arr b => show Except.map _ (a.mulGen _) = _; rw [e]; rfl
        | blk b => show Except.map _ (a.mulGen _) = _; rw [e]; rfl
        | ext b => show Except.map _ (a.mulGen _) = _; rw [e]; rfl
      · rw [hd i hi, Mat.ent_of hB hi hj]
        exact DotOf.one (a := A i) (b := fun k => B k j) hi fun k hk hki => .inl (hz i k hi hk hki)
    cases b with
    | arr b => exact gen _ trivial hB
    | blk b => exact gen _ trivial hB
    | ext b => exact gen _ trivial hB
    | dia b =>
      obtain ⟨m, e, h⟩ := a.mulDia_ok b
      refine ⟨.dia m, _, ?_, trivial, h, fun i j hi hj => ?_⟩
      · unfold Mat.multiply Dia.multiply
        dsimp only
        rw [checkMul_ok, must_ok, ok_bind]
        show Except.map _ (a.mulDia b) = _
        rw [e]; rfl
      · by_cases hij : i = j
        · subst hij
          rw [diag, if_pos rfl, hd i hi, show b.data.f i = B i i by
            rw [← (Dia.shows b).unique hB hi hi]; simp [diag]]
          exact DotOf.one (a := A i) (b := fun k => B k i) hi fun k hk hki => .inl (hz i k hi hk hki)
        · rw [diag, if_neg hij]
          refine DotOf.none fun k hk => ?_
          by_cases hk' : k = i
          · right
            rw [hk', ← (Dia.shows b).unique hB hi hj]; simp [diag, hij]
          · exact .inl (hz i k hi hk hk')
  | ext a => exact fun h => h.elim

/-- C81, law-free: `Operate` and `PreMultiply`. -/
theorem C81_vector_terms {a : Mat α r c} (ha : a.own) (hr : 0 < r) {A : Nat → Nat → α}
    (hA : Shows a.at r c A) :
    (∀ {v : List α} {f : Nat → α}, IsList v c f → ∃ l F, a.operate v = .ok l ∧ IsList l r F ∧
      ∀ i, i < r → DotOf c (A i) f (F i)) ∧
    (∀ {v : List α} {f : Nat → α}, IsList v r f → ∃ l F, a.preMultiply v = .ok l ∧ IsList l c F ∧
      ∀ j, j < c → DotOf r (fun k => A k j) f (F j)) := by
  revert ha hA
  cases a with
  | arr a =>
    intro _ hA
    constructor
    · intro v f hv
      obtain ⟨l, e, h⟩ := a.operate_ok hr hv
      refine ⟨l, _, e, h, fun i hi => (DotOf.full (.left 0 c _)).congr (fun k hk => ?_) fun _ _ => rfl⟩
      exact Arr.data_of hA hi hk
    · intro v f hv
      obtain ⟨l, e, h⟩ := a.preMultiply_ok hr hv
      refine ⟨l, _, e, h, fun i hi => (DotOf.full (.left 0 r _)).congr (fun k hk => ?_) fun _ _ => rfl⟩
      exact Arr.data_of hA hk hi
  | blk a =>
    intro _ hA
    constructor
    · intro v f hv
      obtain ⟨l, e, h⟩ := a.operate_ok hv
      refine ⟨l, _, e, h, fun i hi => (DotOf.full (.bdot c _ _)).congr (fun k hk => ?_) fun _ _ => rfl⟩
      exact Blk.entB_of hA hi hk
    · intro v f hv
      obtain ⟨l, e, h⟩ := a.preMultiply_ok hv
      refine ⟨l, _, e, h, fun i hi => (DotOf.full (.bdot r _ _)).congr (fun k hk => ?_) fun _ _ => rfl⟩
      exact Blk.entB_of hA hk hi
  | dia a =>
    intro _ hA
    have hd : ∀ i, i < r → a.data.f i = A i i := fun i hi => by
      rw [← (Dia.shows a).unique hA hi hi]; simp [diag]
    constructor
    · intro v f hv
      obtain ⟨l, e, h⟩ := a.operate_ok hv
      refine ⟨l, _, e, h, fun i hi => ?_⟩
      rw [hd i hi]
      exact DotOf.one (a := A i) hi fun k hk hki => .inl (by
        rw [← (Dia.shows a).unique hA hi hk]; simp [diag, Ne.symm hki])
    · intro v f hv
      obtain ⟨l, e, h⟩ := a.operate_ok hv
      refine ⟨l, _, e, h, fun i hi => ?_⟩
      rw [hd i hi]
      exact DotOf.one (a := fun k => A k i) hi fun k hk hki => .inl (by
        rw [← (Dia.shows a).unique hA hk hi]; simp [diag, hki])
  | ext a => exact fun h => h.elim

/-! ## Errors -/

section round

variable [Rnd α]

/-- The error of an inner product. -/
theorem Spec.DotOf.err {n : Nat} {a b : Nat → α} {x : α} (h : DotOf n a b x) (hx : fin x) :
    (∀ k, k < n → (fin (a k) ∧ fin (b k)) ∨ a k = Flt.zero ∨ b k = Flt.zero) ∧
    |val x - ∑ k ∈ range n, val (a k) * val (b k)| ≤
      gam α n * ∑ k ∈ range n, |val (a k)| * |val (b k)| + n * (1 + u α) ^ n * η α := by
  obtain ⟨S, hS, h1, h2⟩ := h
  obtain ⟨h3, h4⟩ := h1.prods hx
  have hz : ∀ k ∈ range n, k ∉ S → val (a k) * val (b k) = 0 := fun k hk hk' => by
    rcases h2 k (mem_range.1 hk) hk' with e | e <;> simp [e, val_zero]
  have hcard : S.card ≤ n := by simpa using card_le_card hS
  refine ⟨fun k hk => ?_, ?_⟩
  · by_cases hk' : k ∈ S
    · exact .inl (h3 k hk')
    · exact .inr (h2 k hk hk')
  · rw [← sum_subset hS hz, ← sum_subset hS fun k hk hk' => by rw [← abs_mul, hz k hk hk', abs_zero]]
    refine h4.trans ?_
    have hT : 0 ≤ ∑ k ∈ S, |val (a k)| * |val (b k)| := sum_nonneg fun k _ => by positivity
    have hη := η_nonneg (α := α)
    have hu := u_nonneg (α := α)
    have hp : (1 + u α) ^ S.card ≤ (1 + u α) ^ n := pow_le_pow_right₀ one_le_u hcard
    have hc : (S.card : ℝ) ≤ n := by exact_mod_cast hcard
    have := gam_mono (α := α) hcard
    gcongr

/-- **C81.** A finite entry of a computed product differs from the entry of the exact product of the
two matrices by at most `gam c` times the product of the matrices of absolute values, and the term for
underflow. Every storage. -/
theorem C81_product {a : Mat α r c} (ha : a.own) (hr : 0 < r) (hc : 0 < c) (hq : 0 < q)
    {b : Mat α c q} {A B : Nat → Nat → α} (hA : Shows a.at r c A) (hB : Shows b.at c q B) :
    ∃ (m : Mat α r q) (M : Nat → Nat → α), a.multiply b = .ok ⟨r, q, m⟩ ∧ m.own ∧ Shows m.at r q M ∧
      ∀ i j, i < r → j < q → fin (M i j) →
        |val (M i j) - ∑ k ∈ range c, val (A i k) * val (B k j)| ≤
          gam α c * ∑ k ∈ range c, |val (A i k)| * |val (B k j)| + c * (1 + u α) ^ c * η α := by
  obtain ⟨m, M, h1, h2, h3, h4⟩ := C81_product_terms ha hr hc hq hA hB
  exact ⟨m, M, h1, h2, h3, fun i j hi hj hf => ((h4 i j hi hj).err hf).2⟩

/-- **C81.** The same for `Operate` and `PreMultiply`. -/
theorem C81_vector {a : Mat α r c} (ha : a.own) (hr : 0 < r) {A : Nat → Nat → α}
    (hA : Shows a.at r c A) :
    (∀ {v : List α} {f : Nat → α}, IsList v c f → ∃ l F, a.operate v = .ok l ∧ IsList l r F ∧
      ∀ i, i < r → fin (F i) → |val (F i) - ∑ k ∈ range c, val (A i k) * val (f k)| ≤
        gam α c * ∑ k ∈ range c, |val (A i k)| * |val (f k)| + c * (1 + u α) ^ c * η α) ∧
    (∀ {v : List α} {f : Nat → α}, IsList v r f → ∃ l F, a.preMultiply v = .ok l ∧ IsList l c F ∧
      ∀ j, j < c → fin (F j) → |val (F j) - ∑ k ∈ range r, val (f k) * val (A k j)| ≤
        gam α r * ∑ k ∈ range r, |val (f k)| * |val (A k j)| + r * (1 + u α) ^ r * η α) := by
  obtain ⟨h1, h2⟩ := C81_vector_terms ha hr hA
  constructor
  · intro v f hv
    obtain ⟨l, F, e, h, h'⟩ := h1 hv
    exact ⟨l, F, e, h, fun i hi hf => ((h' i hi).err hf).2⟩
  · intro v f hv
    obtain ⟨l, F, e, h, h'⟩ := h2 hv
    refine ⟨l, F, e, h, fun j hj hf => ?_⟩
    have := ((h' j hj).err hf).2
    simp only [mul_comm (val (f _)), mul_comm |val (f _)|]
    exact this

/-! ## C80 Inner products, norms and distances -/

/-- **C80.** A finite inner product comes from finite entries and is close to the exact one. -/
theorem C80_dot (v w : RVec α) (h : v.dim = w.dim) {f g : Nat → α} (hf : IsList v.list v.dim f)
    (hg : IsList w.list w.dim g) :
    ∃ x, vecDotProduct v w = .ok x ∧ (fin x → (∀ k, k < v.dim → fin (f k) ∧ fin (g k)) ∧
      |val x - ∑ k ∈ range v.dim, val (f k) * val (g k)| ≤
        gam α v.dim * ∑ k ∈ range v.dim, |val (f k)| * |val (g k)| +
        v.dim * (1 + u α) ^ v.dim * η α) := by
  refine ⟨_, (C24_machine v w).2.2.2.1 h, fun hx => ?_⟩
  have hl : v.list.length = w.list.length := by rw [v.dim_list, w.dim_list, h]
  have h1 := SumOf.total_zip v.list w.list hl Flt.mul
  rw [v.dim_list] at h1
  have hn : ∀ k, k < v.dim → nth v.list k = f k ∧ nth w.list k = g k := fun k hk => by
    have a1 := hf.2 k hk
    have a2 := hg.2 k (h ▸ hk)
    simp [nth, a1, a2]
  obtain ⟨h2, h3⟩ := h1.prods hx
  rw [card_range] at h3
  refine ⟨fun k hk => ?_, ?_⟩
  · have := h2 k (mem_range.2 hk)
    rwa [(hn k hk).1, (hn k hk).2] at this
  · have e1 : ∑ k ∈ range v.dim, val (nth v.list k) * val (nth w.list k) =
        ∑ k ∈ range v.dim, val (f k) * val (g k) := sum_congr rfl fun k hk => by
      rw [(hn k (mem_range.1 hk)).1, (hn k (mem_range.1 hk)).2]
    have e2 : ∑ k ∈ range v.dim, |val (nth v.list k)| * |val (nth w.list k)| =
        ∑ k ∈ range v.dim, |val (f k)| * |val (g k)| := sum_congr rfl fun k hk => by
      rw [(hn k (mem_range.1 hk)).1, (hn k (mem_range.1 hk)).2]
    rwa [e1, e2] at h3

/-- **C80.** The Euclidean norm and the sum of absolute values; the largest absolute value is exact. -/
theorem C80_norms (v : RVec α) {f : Nat → α} (hf : IsList v.list v.dim f) :
    (∃ x, vecNorm v = .ok x ∧ (fin x → (∀ k, k < v.dim → fin (f k)) ∧ 0 ≤ val x ∧
      |val x ^ 2 - ∑ k ∈ range v.dim, val (f k) ^ 2| ≤
        gam α (v.dim + 2) * ∑ k ∈ range v.dim, val (f k) ^ 2 +
        v.dim * (1 + u α) ^ (v.dim + 2) * η α)) ∧
    (∃ x, vecL1Norm v = .ok x ∧ (fin x → (∀ k, k < v.dim → fin (f k)) ∧
      |val x - (∑ k ∈ range v.dim, |val (f k)|)| ≤
        gam α (v.dim - 1) * ∑ k ∈ range v.dim, |val (f k)|)) ∧
    (∃ x, vecLInfNorm v = .ok x ∧ ((∀ k, k < v.dim → fin (f k)) → fin x ∧
      (∀ k, k < v.dim → |val (f k)| ≤ val x) ∧ (val x = 0 ∨ ∃ k, k < v.dim ∧ val x = |val (f k)|))) := by
  have hn : ∀ k, k < v.dim → nth v.list k = f k := fun k hk => by
    have a1 := hf.2 k hk
    simp [nth, a1]
  obtain ⟨m1, m2, m3, -⟩ := C24_machine v v
  refine ⟨⟨_, m1, fun hx => ?_⟩, ⟨_, m2, fun hx => ?_⟩, ⟨_, m3, fun hx => ?_⟩⟩
  · have h1 := SumOf.total_map v.list fun x => Flt.mul x x
    rw [v.dim_list] at h1
    obtain ⟨h2, h0, h3⟩ := sqrt_sq h1 hx
    rw [card_range, sum_congr (g := fun k => val (f k) ^ 2) rfl fun k hk => by
      rw [hn k (mem_range.1 hk)]] at h3
    exact ⟨fun k hk => hn k hk ▸ h2 k (mem_range.2 hk), h0, h3⟩
  · have h1 := SumOf.total_map v.list Flt.abs
    rw [v.dim_list] at h1
    obtain ⟨h2, h3⟩ := h1.err' hx
    have h4 : ∀ k, k < v.dim → fin (f k) := fun k hk =>
      abs_fin.1 (hn k hk ▸ h2 k (mem_range.2 hk))
    refine ⟨h4, ?_⟩
    have h5 := h3 (fun k => |val (f k)|) (fun _ => 0) fun k hk => by
      have hk := mem_range.1 hk
      rw [hn k hk, val_abs (h4 k hk), sub_self, abs_zero]
    simpa using h5
  · have key : ∀ (l : List α) (s : α), (∀ x ∈ l, fin x) → fin s → 0 ≤ val s →
        fin ((l.map Flt.abs).foldl Flt.fmax s) ∧ val s ≤ val ((l.map Flt.abs).foldl Flt.fmax s) ∧
        (∀ x ∈ l, |val x| ≤ val ((l.map Flt.abs).foldl Flt.fmax s)) ∧
        (val ((l.map Flt.abs).foldl Flt.fmax s) = val s ∨
          ∃ x ∈ l, val ((l.map Flt.abs).foldl Flt.fmax s) = |val x|) := by
      intro l
      induction l with
      | nil => intro s _ hs _; exact ⟨hs, le_rfl, by simp, .inl rfl⟩
      | cons a l ih =>
        intro s hl hs h0
        have ha := hl a (by simp)
        obtain ⟨b1, b2⟩ := max_fin hs (abs_fin.2 ha)
        rw [val_abs ha] at b2
        rw [List.map_cons, List.foldl_cons]
        obtain ⟨c1, c2, c3, c4⟩ := ih (Flt.fmax s (Flt.abs a)) (fun x hx => hl x (by simp [hx])) b1
          (b2 ▸ h0.trans (le_max_left _ _))
        rw [b2] at c2 c4
        refine ⟨c1, (le_max_left _ _).trans c2, ?_, ?_⟩
        · intro x hx
          rcases List.mem_cons.1 hx with rfl | hx
          · exact (le_max_right _ _).trans c2
          · exact c3 x hx
        · rcases c4 with c4 | ⟨x, hx, c4⟩
          · rcases max_choice (val s) |val a| with e | e
            · exact .inl (c4.trans e)
            · exact .inr ⟨a, by simp, c4.trans e⟩
          · exact .inr ⟨x, by simp [hx], c4⟩
    have hmem : ∀ x, x ∈ v.list ↔ ∃ k, k < v.dim ∧ f k = x := by
      intro x
      rw [← v.dim_list]
      constructor
      · intro h
        obtain ⟨k, hk, rfl⟩ := List.getElem_of_mem h
        refine ⟨k, hk, ?_⟩
        have := hf.2 k (v.dim_list ▸ hk)
        rw [List.getElem?_eq_getElem hk] at this
        exact (Option.some.inj this).symm
      · rintro ⟨k, hk, rfl⟩
        exact List.mem_of_getElem? (hf.2 k (v.dim_list ▸ hk))
    obtain ⟨c1, -, c3, c4⟩ := key v.list Flt.zero (fun x hx' => by
      obtain ⟨k, hk, rfl⟩ := (hmem x).1 hx'
      exact hx k hk) zero_fin (le_of_eq val_zero.symm)
    refine ⟨c1, fun k hk => c3 _ ((hmem _).2 ⟨k, hk, rfl⟩), ?_⟩
    rcases c4 with c4 | ⟨x, hx', c4⟩
    · exact .inl (c4.trans val_zero)
    · obtain ⟨k, hk, rfl⟩ := (hmem x).1 hx'
      exact .inr ⟨k, hk, c4⟩

/-- **C80.** The distances of two vectors. -/
theorem C80_distances (l : List α) (w : RVec α) (h : l.length = w.dim) {f g : Nat → α}
    (hf : IsList l l.length f) (hg : IsList w.list w.dim g) :
    (∃ x, vecDistance (.arr l) w = .ok x ∧ (fin x → (∀ k, k < w.dim → fin (f k) ∧ fin (g k)) ∧
      0 ≤ val x ∧ |val x ^ 2 - ∑ k ∈ range w.dim, (val (f k) - val (g k)) ^ 2| ≤
        gam α (w.dim + 4) * ∑ k ∈ range w.dim, (val (f k) - val (g k)) ^ 2 +
        w.dim * (1 + u α) ^ (w.dim + 4) * η α)) ∧
    (∃ x, vecL1Distance (.arr l) w = .ok x ∧ (fin x → (∀ k, k < w.dim → fin (f k) ∧ fin (g k)) ∧
      |val x - (∑ k ∈ range w.dim, |val (f k) - val (g k)|)| ≤
        gam α w.dim * ∑ k ∈ range w.dim, |val (f k) - val (g k)|)) := by
  have hl : l.length = w.list.length := by rw [w.dim_list, h]
  have hn : ∀ k, k < w.dim → Flt.sub (nth l k) (nth w.list k) = Flt.sub (f k) (g k) := fun k hk => by
    have a1 := hf.2 k (h ▸ hk)
    have a2 := hg.2 k hk
    simp [nth, a1, a2]
  obtain ⟨s, e, d2, d1⟩ := (C24_distance l w).1 h
  have es : s = List.zipWith Flt.sub l w.list := Except.ok.inj (e.symm.trans ((C21_binary l w).1 h).2.1)
  obtain ⟨m1, m2, -⟩ := C24_machine w (.arr s)
  have hu := u_nonneg (α := α)
  have hη := η_nonneg (α := α)
  have hlen : s.length = w.dim := by rw [es, List.length_zipWith, ← hl, min_self, h]
  have hs : ∀ k, k < w.dim → nth s k = Flt.sub (f k) (g k) := fun k hk => by
    rw [← hn k hk, es, nth_zipWith Flt.sub hl (by omega)]
  rw [d2, d1, m1, m2]
  refine ⟨⟨_, rfl, fun hx => ?_⟩, ⟨_, rfl, fun hx => ?_⟩⟩
  · have h1 := SumOf.total_map s fun x => Flt.mul x x
    rw [hlen] at h1
    obtain ⟨h2, h3⟩ := h1.err' (sqrt_fin hx).1
    have h4 : ∀ k, k < w.dim → fin (Flt.sub (f k) (g k)) := fun k hk =>
      (mul_fin (hs k hk ▸ h2 k (mem_range.2 hk))).1
    refine ⟨fun k hk => sub_fin (h4 k hk), ?_⟩
    have h5 := h3 (fun k => (val (f k) - val (g k)) ^ 2)
      (fun k => gam α 3 * (val (f k) - val (g k)) ^ 2 + η α) (by
      intro k hk
      have hk := mem_range.1 hk
      have b0 : fin (Flt.mul (Flt.sub (f k) (g k)) (Flt.sub (f k) (g k))) :=
        hs k hk ▸ h2 k (mem_range.2 hk)
      have b1 := (mul_err b0).1
      have b2 := (sub_err (h4 k hk)).1
      rw [hs k hk]
      generalize val (Flt.mul (Flt.sub (f k) (g k)) (Flt.sub (f k) (g k))) = z at b1 ⊢
      generalize val (Flt.sub (f k) (g k)) = y at b1 b2
      generalize val (f k) - val (g k) = x at b2 ⊢
      rw [abs_mul] at b1
      have b3 : |y| ≤ (1 + u α) * |x| := by
        have := abs_sub_abs_le_abs_sub y x
        linarith
      have b4 : |y * y - x ^ 2| ≤ gam α 2 * x ^ 2 := by
        have b5 : |y + x| ≤ (2 + u α) * |x| := (abs_add_le y x).trans (by linarith)
        rw [show y * y - x ^ 2 = (y - x) * (y + x) by ring, abs_mul]
        calc _ ≤ (u α * |x|) * ((2 + u α) * |x|) := by gcongr
          _ = u α * (2 + u α) * (|x| * |x|) := by ring
          _ = _ := by rw [abs_mul_abs_self]; unfold gam; ring
      calc |z - x ^ 2| = |(z - y * y) + (y * y - x ^ 2)| := by congr 1; ring
        _ ≤ (u α * (((1 + u α) * |x|) * ((1 + u α) * |x|)) + η α) + gam α 2 * x ^ 2 :=
          (abs_add_le _ _).trans (add_le_add (b1.trans (by gcongr)) b4)
        _ = (u α * (1 + u α) ^ 2) * (|x| * |x|) + η α + gam α 2 * x ^ 2 := by ring
        _ = _ := by rw [abs_mul_abs_self]; unfold gam; ring)
    rw [card_range, sum_add_distrib, ← mul_sum, sum_const, card_range, nsmul_eq_mul] at h5
    have hT : ∑ k ∈ range w.dim, |(val (f k) - val (g k)) ^ 2| =
        ∑ k ∈ range w.dim, (val (f k) - val (g k)) ^ 2 :=
      sum_congr rfl fun k _ => abs_of_nonneg (sq_nonneg _)
    rw [hT] at h5
    have hT0 : 0 ≤ ∑ k ∈ range w.dim, (val (f k) - val (g k)) ^ 2 := sum_nonneg fun k _ => sq_nonneg _
    have h6 : |val (Spec.total (s.map fun x => Flt.mul x x)) -
        ∑ k ∈ range w.dim, (val (f k) - val (g k)) ^ 2| ≤
        gam α (w.dim + 2) * ∑ k ∈ range w.dim, (val (f k) - val (g k)) ^ 2 +
        w.dim * (1 + u α) ^ (w.dim + 2) * η α := by
      refine h5.trans ?_
      cases hd : w.dim with
      | zero => simp
      | succ n =>
        rw [hd] at hT0
        generalize ∑ k ∈ range (n + 1), (val (f k) - val (g k)) ^ 2 = T at hT0 ⊢
        rw [Nat.add_sub_cancel, show n + 1 + 2 = n + 3 by ring, gam_add n 3]
        have hp : (1 + u α) ^ n ≤ (1 + u α) ^ (n + 3) := pow_le_pow_right₀ one_le_u (by omega)
        calc gam α n * T + (1 + u α) ^ n * (gam α 3 * T + ((n + 1 : ℕ) : ℝ) * η α)
            = (gam α n + gam α 3 + gam α n * gam α 3) * T +
              ((n + 1 : ℕ) : ℝ) * (1 + u α) ^ n * η α := by rw [← one_add_gam]; ring
          _ ≤ _ := by gcongr
    obtain ⟨h7, h8⟩ := sqrt_step hx _ h6
    refine ⟨h7, h8.trans (le_of_eq ?_)⟩
    rw [show w.dim + 4 = w.dim + 2 + 2 by ring, pow_add (1 + u α) (w.dim + 2) 2]
    ring
  · have h1 := SumOf.total_map s Flt.abs
    rw [hlen] at h1
    obtain ⟨h2, h3⟩ := h1.err' hx
    have h4 : ∀ k, k < w.dim → fin (Flt.sub (f k) (g k)) := fun k hk =>
      abs_fin.1 (hs k hk ▸ h2 k (mem_range.2 hk))
    refine ⟨fun k hk => sub_fin (h4 k hk), ?_⟩
    have h5 := h3 (fun k => |val (f k) - val (g k)|) (fun k => u α * |val (f k) - val (g k)|) (by
      intro k hk
      have hk := mem_range.1 hk
      rw [hs k hk, val_abs (h4 k hk)]
      exact (abs_abs_sub_abs_le _ _).trans (sub_err (h4 k hk)).1)
    refine h5.trans ?_
    simp only [abs_abs]
    rw [card_range, ← mul_sum]
    cases hd : w.dim with
    | zero => simp
    | succ n =>
      rw [Nat.add_sub_cancel, gam_add, gam_one, ← one_add_gam]
      exact le_of_eq (by ring)

/-- **C80.** The trace and the Frobenius norm of a matrix, every storage. -/
theorem C80_matrix {m : Mat α r c} (hm : m.own) (hr : 0 < r) {A : Nat → Nat → α}
    (hA : Shows m.at r c A) :
    (∃ x, m.frobeniusNorm = .ok x ∧ (fin x → (∀ i j, i < r → j < c → fin (A i j)) ∧
      0 ≤ val x ∧ |val x ^ 2 - ∑ i ∈ range r, ∑ j ∈ range c, val (A i j) ^ 2| ≤
        gam α (r * c + 2) * ∑ i ∈ range r, ∑ j ∈ range c, val (A i j) ^ 2 +
        (r * c : ℕ) * (1 + u α) ^ (r * c + 2) * η α)) ∧
    (r = c → ∃ x, m.trace = .ok x ∧ (fin x → (∀ i, i < r → fin (A i i)) ∧
      |val x - ∑ i ∈ range r, val (A i i)| ≤ gam α (r - 1) * ∑ i ∈ range r, |val (A i i)|)) := by
  constructor
  · obtain ⟨cells, hc, h⟩ := C16_walk hm hr hA .opt
    have hfold : ∀ (l : List (Nat × Nat)) (s : α), l.foldlM (fun t p =>
        (frobVis : VisP α α).visit p.1 p.2 (A p.1 p.2) t) s =
          .ok ((l.map fun p => Flt.mul (A p.1 p.2) (A p.1 p.2)).foldl Flt.add s) := by
      intro l
      induction l with
      | nil => intro s; rfl
      | cons p l ih =>
        intro s
        rw [List.foldlM_cons]
        show ((.ok _ : Res α) >>= _) = _
        rw [ok_bind, ih]
        rfl
    have hS : SumOf (total (cells.map fun p => Flt.mul (A p.1 p.2) (A p.1 p.2)))
        (over (range r ×ˢ range c) fun p => Flt.mul (A p.1 p.2) (A p.1 p.2)) := by
      have := SumOf.total (cells.map fun p => Flt.mul (A p.1 p.2) (A p.1 p.2))
      rw [← Multiset.map_coe] at this
      convert this using 1
      unfold over
      congr 1
      refine Multiset.Nodup.ext (Finset.nodup _) (Multiset.coe_nodup.2 hc.2.2.1) |>.2 fun p => ?_
      rw [Multiset.mem_coe, hc.2.2.2]
      simp
    refine ⟨Flt.sqrt (total (cells.map fun p => Flt.mul (A p.1 p.2) (A p.1 p.2))), ?_, fun hx => ?_⟩
    · unfold Mat.frobeniusNorm
      rw [Mat.walkOpt_walkIn, h]
      unfold Spec.walk
      show (((.ok _ : Res α) >>= _) >>= _) = _
      rw [ok_bind, hfold, ok_bind]
      rfl
    · obtain ⟨h1, h0, h2⟩ := sqrt_sq hS hx
      refine ⟨fun i j hi hj => h1 (i, j) (by simp [hi, hj]), h0, ?_⟩
      rw [sum_product, card_product, card_range, card_range] at h2
      exact h2
  · rintro rfl
    refine ⟨_, C51_trace hm hr hA, fun hx => ?_⟩
    have h1 := SumOf.left 0 r fun i => A i i
    rw [← over_range] at h1
    obtain ⟨h2, h3⟩ := h1.err' hx
    refine ⟨fun i hi => h2 i (mem_range.2 hi), ?_⟩
    have h4 := h3 (fun i => val (A i i)) (fun _ => 0) fun k _ => by rw [sub_self, abs_zero]
    simpa using h4

end round

/-! ## Cases in binary64 -/

/-- An inner product that is rounded: (1, 2⁻⁶⁰)·(1, 1) is computed as 1, finite and inexact. -/
example : ∃ x, vecDotProduct (.arr [Flt.one, B64.num (1 / 2 ^ 60) B64.rep60])
    (.arr [(Flt.one : B64), Flt.one]) = .ok x ∧ fin x ∧ val x = 1 ∧ (1 : ℝ) ≠ 1 + 1 / 2 ^ 60 := by
  refine ⟨_, (C24_machine _ _).2.2.2.1 rfl, ?_⟩
  have e1 : Flt.mul (B64.num (1 / 2 ^ 60) B64.rep60) Flt.one = B64.num (1 / 2 ^ 60) B64.rep60 := by
    show B64.rnd (1 / 2 ^ 60 * ((1 : ℤ) : ℝ)) = _
    rw [Int.cast_one, mul_one, B64.rnd_rep B64.rep60]
  have e : total (List.zipWith Flt.mul [Flt.one, B64.num (1 / 2 ^ 60) B64.rep60]
      [(Flt.one : B64), Flt.one]) = Flt.one := by
    show Flt.add (Flt.add Flt.zero (Flt.mul Flt.one Flt.one)) (Flt.mul (B64.num (1 / 2 ^ 60) B64.rep60) Flt.one) = _
    rw [e1, B64.one_int, B64.zero_int, B64.mul_int _ _ (by norm_num), B64.add_int _ _ (by norm_num)]
    exact B64.absorbs
  refine ⟨?_, ?_, by norm_num⟩
  · show fin (total (List.zipWith Flt.mul [Flt.one, B64.num (1 / 2 ^ 60) B64.rep60]
      [(Flt.one : B64), Flt.one]))
    rw [e]
    exact one_fin
  show val (total (List.zipWith Flt.mul [Flt.one, B64.num (1 / 2 ^ 60) B64.rep60]
      [(Flt.one : B64), Flt.one])) = 1
  rw [e]
  exact val_one

/-- The norm of (3, −4) is finite. -/
example : ∃ x, vecNorm (.arr [B64.int 3, B64.int (-4)]) = .ok x ∧ fin x ∧ val x = 5 := by
  refine ⟨_, (C24_machine (.arr []) _).1, ?_⟩
  have e : Flt.sqrt (total ([B64.int 3, B64.int (-4)].map fun x => Flt.mul x x)) = B64.int 5 := by
    show Flt.sqrt (Flt.add (Flt.add Flt.zero (Flt.mul _ _)) (Flt.mul _ _)) = _
    rw [B64.zero_int, B64.mul_int _ _ (by norm_num), B64.mul_int _ _ (by norm_num),
      B64.add_int _ _ (by norm_num), B64.add_int _ _ (by norm_num),
      B64.sqrt_int (m := 5) _ (by norm_num) (by norm_num) (by norm_num)]
  show fin (Flt.sqrt _) ∧ val (Flt.sqrt _) = 5
  rw [show Flt.sqrt (total (List.map (fun x => Flt.mul x x) (RVec.arr [B64.int 3, B64.int (-4)]).list)) = _ from e]
  exact ⟨B64.int_fin _, by rw [B64.int_val]; norm_num⟩

end Linear
