import Verif.Lemmas.RoundChol
import Verif.Props.RoundLU

/-!
# C84, C85: the Cholesky decomposition and its solver in rounded arithmetic

`u` is the unit round-off, `η` half of the smallest positive number and
`gam n = (1 + u)ⁿ - 1`, about `n u`.  Nothing is assumed about overflow except that the results the
theorem speaks of are finite.  `rel` and `pos` are the thresholds of the constructor.
-/

set_option linter.unusedSectionVars false

namespace Linear

open Spec Rnd
open Finset hiding val diag

variable {α : Type} [Flt α] {n : Nat}

/-! ## Specification -/

/-- The symmetry test of the constructor rejects the pair `a`, `b`. -/
def Spec.Rejects (rel a b : α) : Prop :=
  Flt.lt (Flt.mul rel (Flt.fmax (Flt.abs a) (Flt.abs b))) (Flt.abs (Flt.sub a b)) = true

/-- What is left of `A i j` when the products of the first `k` rows of `R` are subtracted one after
the other. -/
def Spec.cholLeft (A R : Nat → Nat → α) (k i j : Nat) : α :=
  (List.range k).foldl (fun s x => Flt.sub s (Flt.mul (R x i) (R x j))) (A i j)

theorem cholLeft_eq (A R : Nat → Nat → α) (k i j : Nat) : cholLeft A R k i j = Chol.left A R k i j := by
  unfold cholLeft Chol.left lsub
  rw [Nat.sub_zero, List.range_eq_range']

theorem cholLeft_congr {A R R' : Nat → Nat → α} {k i j : Nat} (h : ∀ x, x < k → R x i = R' x i ∧ R x j = R' x j) :
    cholLeft A R k i j = cholLeft A R' k i j := by
  rw [cholLeft_eq, cholLeft_eq]
  exact lsub_congr fun x _ hx => by rw [(h x hx).1, (h x hx).2]

/-- `R` is the upper factor of `A`: operation by operation, with the test of every pivot. -/
structure Spec.CholRec (n : Nat) (pos : α) (A R : Nat → Nat → α) : Prop where
  test : ∀ i, i < n → ¬ Flt.le (cholLeft A R i i i) pos = true
  diag : ∀ i, i < n → R i i = Flt.sqrt (cholLeft A R i i i)
  up : ∀ i j, i < j → j < n → R i j = Flt.mul (cholLeft A R i i j) (Flt.div Flt.one (R i i))
  low : UpperF n R

theorem Chol.get_shows (d : Chol α n n) (hn : 0 < n) : ∃ l lt : Mat α n n,
    d.getL = .ok ⟨n, n, l⟩ ∧ d.getLT = .ok ⟨n, n, lt⟩ ∧
    Shows l.at n n (fun i j => d.lT.f j i) ∧ Shows lt.at n n d.lT.f := by
  obtain ⟨lt, e1, h1, h2⟩ := SMat.fromSlices_dense (Jag.toLists_rect d.lT) hn hn false
  obtain ⟨l, e2, h3, h4⟩ := C12_transpose h1 hn h2
  have hlt : d.getLT = .ok ⟨n, n, lt⟩ := by unfold Chol.getLT; rw [e1, must_ok]
  refine ⟨l, lt, ?_, hlt, h4, h2⟩
  unfold Chol.getL
  rw [hlt, ok_bind]
  dsimp only
  rw [e2]
  rfl

theorem Chol.lt_shows {d : Chol α n n} (hn : 0 < n) {lt : Mat α n n} {R : Nat → Nat → α}
    (e : d.getLT = .ok ⟨n, n, lt⟩) (hR : Shows lt.at n n R) {i j : Nat} (hi : i < n) (hj : j < n) :
    R i j = d.lT.f i j := by
  obtain ⟨-, lt', -, e', -, h⟩ := Chol.get_shows d hn
  rw [e] at e'
  have e2 := Except.ok.inj e'
  simp only [SMat.mk.injEq, heq_eq_eq, true_and] at e2
  subst e2
  exact hR.unique h hi hj

theorem Chol.RInv.spec {pos : α} {A f : Nat → Nat → α} (h : Chol.RInv n pos A n f) : CholRec n pos A f := by
  constructor
  · intro i hi; rw [cholLeft_eq]; exact h.test i hi
  · intro i hi; rw [cholLeft_eq]; exact h.dg i hi
  · intro i j hij hj; rw [cholLeft_eq]; exact h.up i j (by omega) hij hj
  · intro i j hi _ hij; exact h.low i j hi hij

theorem Spec.CholRec.congr {pos : α} {A R R' : Nat → Nat → α} (h : CholRec n pos A R)
    (e : ∀ i j, i < n → j < n → R' i j = R i j) : CholRec n pos A R' := by
  have el : ∀ k i j, k ≤ n → i < n → j < n → cholLeft A R' k i j = cholLeft A R k i j := fun k i j hk hi hj =>
    cholLeft_congr fun x hx => ⟨e x i (by omega) hi, e x j (by omega) hj⟩
  constructor
  · intro i hi; rw [el i i i hi.le hi hi]; exact h.test i hi
  · intro i hi; rw [el i i i hi.le hi hi, e i i hi hi]; exact h.diag i hi
  · intro i j hij hj
    rw [el i i j (by omega) (by omega) hj, e i j (by omega) hj, e i i (by omega) (by omega)]
    exact h.up i j hij hj
  · intro i j hi hj hij; rw [e i j hi hj]; exact h.low i j hi hj hij

/-- The recurrence has at most one solution, and the triangle below the diagonal does not count. -/
theorem Spec.CholRec.unique {pos : α} {A A' R R' : Nat → Nat → α} (h : CholRec n pos A R)
    (h' : CholRec n pos A' R') (hA : ∀ i j, i ≤ j → j < n → A i j = A' i j) :
    ∀ i j, i < n → j < n → R i j = R' i j := by
  intro i
  induction i using Nat.strong_induction_on with
  | _ i ih =>
    intro j hi hj
    have hl : ∀ j, i ≤ j → j < n → cholLeft A R i i j = cholLeft A' R' i i j := by
      intro j hij hj
      unfold cholLeft
      rw [hA i j hij hj]
      refine List.foldl_ext _ _ _ fun s x hx => ?_
      have hx := List.mem_range.1 hx
      rw [ih x hx i (by omega) hi, ih x hx j (by omega) hj]
    have hd : R i i = R' i i := by rw [h.diag i hi, h'.diag i hi, hl i le_rfl hi]
    rcases lt_trichotomy i j with e | e | e
    · rw [h.up i j e hj, h'.up i j e hj, hl j e.le hj, hd]
    · subst e; exact hd
    · rw [h.low i j hi hj e, h'.low i j hi hj e]

/-! ## C84 -/

/-- **C84.** In any arithmetic: the constructor answers a factor that satisfies the recurrence, and
no pair of entries is rejected; or it answers the symmetry error and a pair is rejected; or it
answers the positivity error, no pair is rejected and no factor satisfies the recurrence. -/
theorem C84_outcome {rel pos : α} {m : Mat α n n} (hm : m.own) (hn : 0 < n)
    {A : Nat → Nat → α} (hA : Shows m.at n n A) :
    (∃ (d : Chol α n n) (l lt : Mat α n n) (R : Nat → Nat → α), Chol.new rel pos m = .ok d ∧
      d.getL = .ok ⟨n, n, l⟩ ∧ d.getLT = .ok ⟨n, n, lt⟩ ∧ Shows l.at n n (fun i j => R j i) ∧
      Shows lt.at n n R ∧ CholRec n pos A R ∧ ∀ i j, i < j → j < n → ¬ Rejects rel (A i j) (A j i)) ∨
    (Chol.new rel pos m = .error (.err .symm) ∧ ∃ i j, i < j ∧ j < n ∧ Rejects rel (A i j) (A j i)) ∨
    (Chol.new rel pos m = .error (.err .small) ∧ (∀ i j, i < j → j < n → ¬ Rejects rel (A i j) (A j i)) ∧
      ¬ ∃ R, CholRec n pos A R) := by
  have h := Chol.new_bits (rel := rel) (pos := pos) hm hn hA
  cases hd : Chol.new rel pos m with
  | ok d =>
    obtain ⟨hI, hs⟩ := h.of_ok hd
    obtain ⟨l, lt, e1, e2, h1, h2⟩ := Chol.get_shows d hn
    exact .inl ⟨d, l, lt, _, rfl, e1, e2, h1, h2, hI.spec, hs⟩
  | error e =>
    rcases h.of_error hd with ⟨rfl, i, j, h1, h2, h3⟩ | ⟨rfl, ⟨k, f, hk, hI, hf⟩, hsym⟩
    · exact .inr (.inl ⟨rfl, i, j, h1, h2, h3⟩)
    · refine .inr (.inr ⟨rfl, hsym, ?_⟩)
      rintro ⟨R, hR⟩
      have key : ∀ i, i < k → ∀ j, i ≤ j → j < n → f i j = R i j := by
        intro i
        induction i using Nat.strong_induction_on with
        | _ i ih =>
          intro hi j hij hj
          have hl : ∀ j, i ≤ j → j < n → Chol.left A f i i j = cholLeft A R i i j := by
            intro j hij hj
            rw [cholLeft_eq]
            exact lsub_congr fun x _ hx => by
              rw [ih x hx (by omega) i hx.le (by omega), ih x hx (by omega) j (by omega) hj]
          have hd : f i i = R i i := by rw [hI.dg i hi, hR.diag i (by omega), hl i le_rfl (by omega)]
          rcases Nat.eq_or_lt_of_le hij with e | e
          · subst e; exact hd
          · rw [hI.up i j hi e hj, hR.up i j e hj, hl j hij hj, hd]
      refine hR.test k hk ?_
      have : cholLeft A R k k k = f k k := by
        rw [hI.rest k k le_rfl le_rfl hk, cholLeft_eq]
        exact lsub_congr fun x _ hx => by rw [key x hx k hx.le hk]
      rw [this]
      exact hf

/-- **C84.** Only the triangle above the diagonal counts: a second matrix that agrees with the first
there and passes the symmetry test has the same factor. -/
theorem C84_upper {rel pos : α} {m m' : Mat α n n} (hm : m.own) (hm' : m'.own) (hn : 0 < n)
    {A A' : Nat → Nat → α} (hA : Shows m.at n n A) (hA' : Shows m'.at n n A')
    (hAA : ∀ i j, i ≤ j → j < n → A i j = A' i j)
    (hs : ∀ i j, i < j → j < n → ¬ Rejects rel (A' i j) (A' j i))
    {d : Chol α n n} (hd : Chol.new rel pos m = .ok d) {lt : Mat α n n} {R : Nat → Nat → α}
    (el : d.getLT = .ok ⟨n, n, lt⟩) (hR : Shows lt.at n n R) :
    ∃ (d' : Chol α n n) (lt' : Mat α n n), Chol.new rel pos m' = .ok d' ∧ d'.getLT = .ok ⟨n, n, lt'⟩ ∧
      Shows lt'.at n n R := by
  have hI := ((Chol.new_bits hm hn hA).of_ok hd).1.spec
  rcases C84_outcome (rel := rel) (pos := pos) hm' hn hA' with
    ⟨d', -, lt', R', e1, -, e2, -, h2, h3, -⟩ | ⟨-, i, j, h1, h2, h3⟩ | ⟨-, -, h⟩
  · refine ⟨d', lt', e1, e2, h2.congr fun i j hi hj => ?_⟩
    rw [Chol.lt_shows hn el hR hi hj]
    exact h3.unique hI (fun i j h1 h2 => (hAA i j h1 h2).symm) i j hi hj
  · exact absurd h3 (hs i j h1 h2)
  · refine absurd ⟨d.lT.f, ?_⟩ h
    have el : ∀ k i j, i ≤ j → j < n → cholLeft A' d.lT.f k i j = cholLeft A d.lT.f k i j := by
      intro k i j hij hj
      unfold cholLeft
      rw [hAA i j hij hj]
    constructor
    · intro i hi; rw [el i i i le_rfl hi]; exact hI.test i hi
    · intro i hi; rw [el i i i le_rfl hi]; exact hI.diag i hi
    · intro i j hij hj; rw [el i i j hij.le hj]; exact hI.up i j hij hj
    · exact hI.low

section round

variable [Rnd α]

/-- **C84.** When the factor `R = LT` is finite, the upper triangle of the matrix is finite, `Rᵀ R` differs
from it by at most `gam (n+1) · |Rᵀ||R|` in each entry, plus a term for underflow, and with a
threshold that is not negative the diagonal of `R` is positive. -/
theorem C84_backward {rel pos : α} {m : Mat α n n} (hm : m.own) (hn : 0 < n) {A : Nat → Nat → α}
    (hA : Shows m.at n n A) {d : Chol α n n} (hd : Chol.new rel pos m = .ok d)
    {lt : Mat α n n} {R : Nat → Nat → α} (el : d.getLT = .ok ⟨n, n, lt⟩) (hR : Shows lt.at n n R)
    (hfin : ∀ i j, i < n → j < n → fin (R i j)) :
    (∀ i j, i ≤ j → j < n → fin (A i j) ∧
      |∑ k ∈ range n, val (R k i) * val (R k j) - val (A i j)| ≤
        gam α (n + 1) * ∑ k ∈ range n, |val (R k i)| * |val (R k j)| +
        (1 + u α) ^ n * (n + |val (R i i)|) * η α) ∧
    (fin pos → 0 ≤ val pos → ∀ i, i < n → 0 < val (R i i)) := by
  obtain ⟨hI, -⟩ := (Chol.new_bits (rel := rel) (pos := pos) hm hn hA).of_ok hd
  have eR : ∀ i j, i < n → j < n → R i j = d.lT.f i j := fun i j => Chol.lt_shows hn el hR
  have hf : ∀ i j, i < n → j < n → fin (d.lT.f i j) := fun i j hi hj => eR i j hi hj ▸ hfin i j hi hj
  constructor
  · intro i j hij hj
    have h1 := hI.err hf hij hj
    have e1 : ∑ k ∈ range n, val (R k i) * val (R k j) = ∑ k ∈ range n, val (d.lT.f k i) * val (d.lT.f k j) :=
      sum_congr rfl fun k hk => by
        rw [eR k i (mem_range.1 hk) (by omega), eR k j (mem_range.1 hk) hj]
    have e2 : ∑ k ∈ range n, |val (R k i)| * |val (R k j)| =
        ∑ k ∈ range n, |val (d.lT.f k i)| * |val (d.lT.f k j)| :=
      sum_congr rfl fun k hk => by
        rw [eR k i (mem_range.1 hk) (by omega), eR k j (mem_range.1 hk) hj]
    rw [e1, e2, eR i i (by omega) (by omega)]
    exact h1
  · intro hp hp0 i hi
    have h1 := hf i i hi hi
    rw [eR i i hi hi]
    have e1 := hI.dg i hi
    rw [e1] at h1 ⊢
    obtain ⟨f1, -, f3, -⟩ := sqrt_back h1
    refine f3 ?_
    have h2 := hI.test i hi
    rw [le_iff f1 hp] at h2
    exact lt_of_le_of_lt hp0 (not_le.1 h2)

/-- **C84.** The matrix is nearly symmetric, as far as the test did not overflow. -/
theorem C84_symmetric {rel pos : α} {m : Mat α n n} (hm : m.own) (hn : 0 < n) {A : Nat → Nat → α}
    (hA : Shows m.at n n A) {d : Chol α n n} (hd : Chol.new rel pos m = .ok d) {i j : Nat}
    (hij : i < j) (hj : j < n) (hs : fin (Flt.sub (A i j) (A j i)))
    (ht : fin (Flt.mul rel (Flt.fmax (Flt.abs (A i j)) (Flt.abs (A j i))))) (hr : 0 ≤ val rel) :
    |val (A i j) - val (A j i)| ≤
      (1 + u α) ^ 2 * (val rel * max |val (A i j)| |val (A j i)|) + (1 + u α) * η α := by
  obtain ⟨-, h⟩ := (Chol.new_bits (rel := rel) (pos := pos) hm hn hA).of_ok hd
  have h1 := h i j hij hj
  unfold Chol.Asym at h1
  rw [lt_iff ht (abs_fin.2 hs), not_lt, val_abs hs] at h1
  obtain ⟨f1, f2⟩ := sub_fin hs
  obtain ⟨-, e⟩ := max_fin (abs_fin.2 f1) (abs_fin.2 f2)
  rw [val_abs f1, val_abs f2] at e
  have h2 := (sub_err hs).2
  have h3 := (mul_err ht).1
  rw [e] at h3
  have hM : 0 ≤ max |val (A i j)| |val (A j i)| := le_max_of_le_left (abs_nonneg _)
  rw [abs_of_nonneg (a := val rel * _) (mul_nonneg hr hM)] at h3
  have hu := u_nonneg (α := α)
  generalize max |val (A i j)| |val (A j i)| = M at *
  generalize val (Flt.mul rel (Flt.fmax (Flt.abs (A i j)) (Flt.abs (A j i)))) = t at *
  have h4 : |val (A i j) - val (A j i)| ≤ (1 + u α) * |val (Flt.sub (A i j) (A j i))| := by
    have := abs_sub_abs_le_abs_sub (val (A i j) - val (A j i)) (val (Flt.sub (A i j) (A j i)))
    rw [abs_sub_comm (val (A i j) - val (A j i)) (val (Flt.sub _ _))] at this
    linarith
  have h5 : t ≤ (1 + u α) * (val rel * M) + η α := by
    have := (abs_le.1 h3).2
    linarith
  calc _ ≤ (1 + u α) * |val (Flt.sub (A i j) (A j i))| := h4
    _ ≤ (1 + u α) * ((1 + u α) * (val rel * M) + η α) := by gcongr; exact h1.trans h5
    _ = _ := by ring

/-! ## C85 -/

/-- The bound on the residual in row `i`. -/
noncomputable def Spec.cholBound (n : Nat) (R : Nat → Nat → α) (x : Nat → α) (i : Nat) : ℝ :=
  gam α (3 * n + 1) * ∑ j ∈ range n, (∑ k ∈ range n, |val (R k i)| * |val (R k j)|) * |val (x j)| +
  (1 + u α) ^ n * (∑ j ∈ range n, (n + |val (R (min i j) (min i j))|) * |val (x j)| +
    (1 + u α) ^ n * ∑ k ∈ range n, |val (R k i)| * (n + |val (R k k)|) + (n + |val (R i i)|)) * η α

theorem cholBound_congr {R R' : Nat → Nat → α} {x : Nat → α} {i : Nat} (hi : i < n)
    (h : ∀ i j, i < n → j < n → R i j = R' i j) : cholBound n R x i = cholBound n R' x i := by
  unfold cholBound
  have e1 : ∑ j ∈ range n, (∑ k ∈ range n, |val (R k i)| * |val (R k j)|) * |val (x j)| =
      ∑ j ∈ range n, (∑ k ∈ range n, |val (R' k i)| * |val (R' k j)|) * |val (x j)| :=
    sum_congr rfl fun j hj => by
      congr 1
      exact sum_congr rfl fun k hk => by
        rw [h k i (mem_range.1 hk) hi, h k j (mem_range.1 hk) (mem_range.1 hj)]
  have e2 : ∑ j ∈ range n, ((n : ℝ) + |val (R (min i j) (min i j))|) * |val (x j)| =
      ∑ j ∈ range n, ((n : ℝ) + |val (R' (min i j) (min i j))|) * |val (x j)| :=
    sum_congr rfl fun j hj => by rw [h _ _ (by omega) (by omega)]
  have e3 : ∑ k ∈ range n, |val (R k i)| * ((n : ℝ) + |val (R k k)|) =
      ∑ k ∈ range n, |val (R' k i)| * ((n : ℝ) + |val (R' k k)|) :=
    sum_congr rfl fun k hk => by
      rw [h k i (mem_range.1 hk) hi, h k k (mem_range.1 hk) (mem_range.1 hk)]
  rw [e1, e2, e3, h i i hi hi]

/-- The theorems below from the substitutions. -/
theorem Chol.solved {m : Mat α n n} {rel pos : α} (hm : m.own) (hn : 0 < n) {A : Nat → Nat → α}
    (hA : Shows m.at n n A) {d : Chol α n n} (hd : Chol.new rel pos m = .ok d)
    {lt : Mat α n n} {R : Nat → Nat → α} (el : d.getLT = .ok ⟨n, n, lt⟩) (hR : Shows lt.at n n R)
    {b x y : Nat → α} (h : Chol.Subst n d.lT.f b y x)
    (hx : ∀ i, i < n → fin (x i)) (hdg : ∀ i, i < n → fin (R i i)) :
    (∀ i j, i ≤ j → j < n → fin (A i j)) ∧ (∀ i, i < n → fin (b i)) ∧ (∀ i, i < n → val (R i i) ≠ 0) ∧
    ∀ i, i < n → |∑ j ∈ range n, val (symU A i j) * val (x j) - val (b i)| ≤ cholBound n R x i := by
  obtain ⟨hI, -⟩ := (Chol.new_bits (rel := rel) (pos := pos) hm hn hA).of_ok hd
  have eR : ∀ i j, i < n → j < n → R i j = d.lT.f i j := fun i j => Chol.lt_shows hn el hR
  have hf : ∀ i, i < n → fin (d.lT.f i i) := fun i hi => eR i i hi hi ▸ hdg i hi
  have hfin : ∀ i j, i < n → j < n → fin (d.lT.f i j) := fun i j hi hj => by
    by_cases e : i ≤ j
    · exact h.fins hf hx i j e hj
    · rw [hI.low i j hi (by omega)]; exact zero_fin
  have h1 := (h.err hI.low hf hx).1
  refine ⟨fun i j hij hj => (hI.err hfin hij hj).1, fun i hi => (h1 i hi).1, fun i hi => ?_, fun i hi => ?_⟩
  · rw [eR i i hi hi]; exact (h1 i hi).2.1
  · rw [cholBound_congr hi eR]
    exact Chol.Subst.residual hI h hf hx hi

/-- **C85.** `SolveVector`: when the result and the diagonal of `LT` are finite, so are the upper triangle
of the matrix and the right-hand side, and the residual is small; the matrix of the system is the
symmetric one with the upper triangle of `A`. -/
theorem C85_vector {m : Mat α n n} {rel pos : α} (hm : m.own) (hn : 0 < n) {A : Nat → Nat → α}
    (hA : Shows m.at n n A) {d : Chol α n n} (hd : Chol.new rel pos m = .ok d)
    {lt : Mat α n n} {R : Nat → Nat → α} (el : d.getLT = .ok ⟨n, n, lt⟩) (hR : Shows lt.at n n R)
    {v : RVec α} (hv : v.dim = n) {b : Nat → α} (hb : IsList v.list n b) :
    ∃ z x, d.solveVector v = .ok z ∧ IsList z n x ∧
      ((∀ i, i < n → fin (x i)) → (∀ i, i < n → fin (R i i)) →
        (∀ i j, i ≤ j → j < n → fin (A i j)) ∧ (∀ i, i < n → fin (b i)) ∧
        (∀ i, i < n → val (R i i) ≠ 0) ∧
        ∀ i, i < n → |∑ j ∈ range n, val (symU A i j) * val (x j) - val (b i)| ≤ cholBound n R x i) := by
  obtain ⟨x, y, ex, hl, hS⟩ := Chol.solveVector_bits (d := d) hv
  refine ⟨x, nth x, ex, hl ▸ isList_nth x, fun hx hdg => ?_⟩
  have hnb : ∀ i, i < n → nth v.list i = b i := fun i hi => by
    have := hb.2 i hi
    simp [nth, this]
  refine Chol.solved hm hn hA hd el hR (b := b) (y := y) ⟨fun i hi => ?_, hS.bwd⟩ hx hdg
  have h1 := hS.fwd i hi
  rwa [hnb _ hi] at h1

/-- **C85.** `SolveMatrix`, column by column. -/
theorem C85_matrix {m : Mat α n n} {rel pos : α} (hm : m.own) (hn : 0 < n) {A : Nat → Nat → α}
    (hA : Shows m.at n n A) {d : Chol α n n} (hd : Chol.new rel pos m = .ok d)
    {lt : Mat α n n} {R : Nat → Nat → α} (el : d.getLT = .ok ⟨n, n, lt⟩) (hR : Shows lt.at n n R)
    {q : Nat} (hq : 0 < q) {b : Mat α n q} (hbo : b.own) {B : Nat → Nat → α} (hB : Shows b.at n q B) :
    ∃ (x : Mat α n q) (X : Nat → Nat → α), d.solveMatrix b = .ok ⟨n, q, x⟩ ∧ x.own ∧ Shows x.at n q X ∧
      ∀ j, j < q → (∀ i, i < n → fin (X i j)) → (∀ i, i < n → fin (R i i)) →
        (∀ i j, i ≤ j → j < n → fin (A i j)) ∧ (∀ i, i < n → fin (B i j)) ∧
        (∀ i, i < n → val (R i i) ≠ 0) ∧
        ∀ i, i < n → |∑ k ∈ range n, val (symU A i k) * val (X k j) - val (B i j)| ≤
          cholBound n R (fun k => X k j) i := by
  obtain ⟨x, X, Y, ex, hx, hX, hS⟩ := Chol.solveMatrix_bits (d := d) hn hq hbo hB
  refine ⟨x, X, ex, hx, hX, fun j hj hfx hdg => ?_⟩
  exact Chol.solved hm hn hA hd el hR (b := fun i => B i j) (hS j hj) hfx hdg

/-- **C85.** `Inverse`: the residual of each column. -/
theorem C85_inverse {m : Mat α n n} {rel pos : α} (hm : m.own) (hn : 0 < n) {A : Nat → Nat → α}
    (hA : Shows m.at n n A) {d : Chol α n n} (hd : Chol.new rel pos m = .ok d)
    {lt : Mat α n n} {R : Nat → Nat → α} (el : d.getLT = .ok ⟨n, n, lt⟩) (hR : Shows lt.at n n R) :
    ∃ (x : Mat α n n) (X : Nat → Nat → α), d.inverse = .ok ⟨n, n, x⟩ ∧ x.own ∧ Shows x.at n n X ∧
      ∀ j, j < n → (∀ i, i < n → fin (X i j)) → (∀ i, i < n → fin (R i i)) →
        ∀ i, i < n → |∑ k ∈ range n, val (symU A i k) * val (X k j) - (if i = j then 1 else 0)| ≤
          cholBound n R (fun k => X k j) i := by
  obtain ⟨e, ee, heo, he⟩ := (C03_identity (α := α) (n : Int)).1 (by omega)
  obtain ⟨x, X, ex, hx, hX, h⟩ := C85_matrix hm hn hA hd el hR hn (b := e) (Mat.dense_own heo) he
  refine ⟨x, X, ?_, hx, hX, fun j hj h1 h2 i hi => ?_⟩
  · unfold Chol.inverse
    refine (congrArg (fun x : Res (Mat α n n) => x.must >>= fun m => d.solveMatrix m) ee :).trans ?_
    rw [must_ok, ok_bind, ex]
  · have h3 := (h j hj h1 h2).2.2.2 i hi
    have e4 : val (if i = j then (Flt.one : α) else Flt.zero) = if i = j then 1 else 0 := by
      split
      · exact val_one
      · exact val_zero
    rwa [← e4]

end round

/-! ## Binary64 -/

/-- **C84.** NaN passes the symmetry test: a matrix with NaN everywhere below the diagonal has the factor
of the matrix with the same upper triangle, if that one is accepted. -/
theorem C84_nan {rel pos : B64} {m m' : Mat B64 n n} (hm : m.own) (hm' : m'.own) (hn : 0 < n)
    {A A' : Nat → Nat → B64} (hA : Shows m.at n n A) (hA' : Shows m'.at n n A')
    (hup : ∀ i j, i ≤ j → j < n → A' i j = A i j) (hlow : ∀ i j, j < i → i < n → A' i j = .nan)
    {d : Chol B64 n n} (hd : Chol.new rel pos m = .ok d) {lt : Mat B64 n n} {R : Nat → Nat → B64}
    (el : d.getLT = .ok ⟨n, n, lt⟩) (hR : Shows lt.at n n R) :
    ∃ (d' : Chol B64 n n) (lt' : Mat B64 n n), Chol.new rel pos m' = .ok d' ∧
      d'.getLT = .ok ⟨n, n, lt'⟩ ∧ Shows lt'.at n n R := by
  refine C84_upper hm hm' hn hA hA' (fun i j h1 h2 => (hup i j h1 h2).symm) (fun i j h1 h2 => ?_) hd el hR
  rw [hlow j i h1 h2]
  unfold Rejects
  have e : Flt.sub (A' i j) B64.nan = B64.nan := by
    cases A' i j <;> rfl
  rw [e]
  have e2 : ∀ x : B64, Flt.lt x (Flt.abs B64.nan) = false := by
    intro x
    cases x <;> rfl
  rw [e2]
  simp

/-- The matrix of the case below: 1 1 / 1 2. -/
noncomputable def Chol.caseA (i j : Nat) : B64 :=
  if i = 0 ∨ j = 0 then B64.int 1 else B64.int 2

/-- Its factor: 1 1 / 0 1. -/
noncomputable def Chol.caseR (i j : Nat) : B64 := if j < i then B64.int 0 else B64.int 1

theorem Chol.case_rec : CholRec 2 (Flt.zero : B64) Chol.caseA Chol.caseR := by
  have e00 : cholLeft Chol.caseA Chol.caseR 0 0 0 = B64.int 1 := by simp [cholLeft, Chol.caseA]
  have e01 : cholLeft Chol.caseA Chol.caseR 0 0 1 = B64.int 1 := by simp [cholLeft, Chol.caseA]
  have e11 : cholLeft Chol.caseA Chol.caseR 1 1 1 = B64.int 1 := by
    show Flt.sub (Chol.caseA 1 1) (Flt.mul (Chol.caseR 0 1) (Chol.caseR 0 1)) = _
    unfold Chol.caseA Chol.caseR
    rw [if_neg (by omega), if_neg (by omega), B64.mul_int _ _ (by norm_num), B64.sub_int _ _ (by norm_num)]
    rfl
  have ht : ¬ Flt.le (B64.int 1) (Flt.zero : B64) = true := by
    rw [le_iff (B64.int_fin _) zero_fin, B64.int_val, val_zero]
    norm_num
  have hs : Flt.sqrt (B64.int 1) = B64.int 1 := B64.sqrt_int _ _ (by norm_num) (by norm_num)
  constructor
  · intro i hi
    obtain rfl | rfl : i = 0 ∨ i = 1 := by omega
    · rw [e00]; exact ht
    · rw [e11]; exact ht
  · intro i hi
    obtain rfl | rfl : i = 0 ∨ i = 1 := by omega
    · rw [e00, hs]; rfl
    · rw [e11, hs]; rfl
  · intro i j hij hj
    obtain ⟨rfl, rfl⟩ : i = 0 ∧ j = 1 := by omega
    rw [e01]
    show B64.int 1 = Flt.mul (B64.int 1) (Flt.div (B64.int 1) (B64.int 1))
    rw [B64.div_int (m := 1) _ _ (by norm_num) (by norm_num) (by norm_num), B64.mul_int _ _ (by norm_num)]
    rfl
  · intro i j _ _ h
    show (if j < i then _ else _) = _
    rw [if_pos h]
    rfl

/-- A matrix of binary64 numbers that meets all hypotheses of C84 and C85. -/
example : ∃ (m : Mat B64 2 2) (d : Chol B64 2 2) (lt : Mat B64 2 2) (R : Nat → Nat → B64),
    m.own ∧ Shows m.at 2 2 Chol.caseA ∧ Chol.new (Flt.zero : B64) Flt.zero m = .ok d ∧
    d.getLT = .ok ⟨2, 2, lt⟩ ∧ Shows lt.at 2 2 R ∧ (∀ i j, i < 2 → j < 2 → fin (R i j)) ∧
    fin (Flt.sub (Chol.caseA 0 1) (Chol.caseA 1 0)) ∧
    fin (Flt.mul Flt.zero (Flt.fmax (Flt.abs (Chol.caseA 0 1)) (Flt.abs (Chol.caseA 1 0)))) := by
  let m : Mat B64 2 2 := .arr ⟨⟨Chol.caseA⟩, fun _ => 0⟩
  have hA : Shows m.at 2 2 Chol.caseA := (Mat.at_shows m).congr fun i j hi hj => rfl
  have e1 : Chol.caseA 0 1 = B64.int 1 := rfl
  have e2 : Chol.caseA 1 0 = B64.int 1 := rfl
  have e3 : Flt.sub (B64.int 1) (B64.int 1) = B64.int 0 := B64.sub_int _ _ (by norm_num)
  have e4 : Flt.abs (B64.int 1) = B64.int 1 := B64.abs_int _
  have e5 : Flt.fmax (B64.int 1) (B64.int 1) = B64.int 1 := by
    show (if ((1 : ℤ) : ℝ) < ((1 : ℤ) : ℝ) then B64.int 1 else B64.int 1) = _
    rw [if_neg (lt_irrefl _)]
  have e6 : Flt.mul (Flt.zero : B64) (B64.int 1) = B64.int 0 := by
    rw [B64.zero_int, B64.mul_int _ _ (by norm_num)]; rfl
  have hno : ∀ i j, i < j → j < 2 → ¬ Rejects (Flt.zero : B64) (Chol.caseA i j) (Chol.caseA j i) := by
    intro i j hij hj
    obtain ⟨rfl, rfl⟩ : i = 0 ∧ j = 1 := by omega
    unfold Rejects
    rw [e1, e2, e3, e4, e5, e6, B64.abs_int, lt_iff (B64.int_fin _) (B64.int_fin _), B64.int_val, B64.int_val]
    norm_num
  rcases C84_outcome (rel := Flt.zero) (pos := Flt.zero) (m := m) trivial (by norm_num) hA with
    ⟨d, -, lt, R, h1, -, h2, -, h3, h4, -⟩ | ⟨-, i, j, h1, h2, h3⟩ | ⟨-, -, h⟩
  · refine ⟨m, d, lt, R, trivial, hA, h1, h2, h3, fun i j hi hj => ?_, ?_, ?_⟩
    · rw [h4.unique Chol.case_rec (fun _ _ _ _ => rfl) i j hi hj]
      unfold Chol.caseR
      split <;> exact B64.int_fin _
    · rw [e1, e2, e3]; exact B64.int_fin _
    · rw [e1, e2, e4, e5, e6]; exact B64.int_fin _
  · exact absurd h3 (hno i j h1 h2)
  · exact absurd ⟨_, Chol.case_rec⟩ h

end Linear
