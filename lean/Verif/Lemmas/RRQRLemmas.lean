import Verif.Lemmas.QROut
import Mathlib.LinearAlgebra.Matrix.Rank

/-!
# Lemmas on the QR decomposition with column pivoting
-/

set_option linter.unusedSectionVars false

namespace Linear

open Spec Finset Matrix

section free

variable {α : Type} [Flt α] {m n p : Nat}

/-- The square of the norm of the part of a column from `k` on. -/
def RRQR.l2 (k m : Nat) (x : Nat → α) : α := lsum k m (fun j => Flt.mul (x j) (x j)) Flt.zero

theorem RRQR.best_wp {k : Nat} (hn : k < n) (t : Tab α n m) (I : Nat → α × Nat → Prop)
    (h0 : I k (Flt.zero, k)) (hs : ∀ i b, k ≤ i → i < n → I i b →
      I (i + 1) (if Flt.lt b.1 (RRQR.l2 k m (t.f i)) then (RRQR.l2 k m (t.f i), i) else b)) :
    ∃ b, RRQR.best k t = .ok b ∧ I n b := by
  unfold RRQR.best
  refine Wp.exists_ok (wp_forUp I (by omega) h0 ?_)
  intro i b h1 h2 hI
  rw [sumUp_ok (g := fun j => Flt.mul (t.f i j) (t.f i j)) (fun j _ hj => by
    rw [Tab.get_ok h2 hj]; rfl), ok_bind]
  exact hs i b h1 h2 hI

/-- The exchange of columns `k` and `q`. -/
def sw (k q i : Nat) : Nat := if i = k then q else if i = q then k else i

theorem sw_self (k i : Nat) : sw k k i = i := by unfold sw; split_ifs <;> omega

theorem sw_lo {k q i : Nat} (hq : k ≤ q) (hi : i < k) : sw k q i = i := by unfold sw; split_ifs <;> omega

theorem sw_ge {k q i : Nat} (hq : k ≤ q) (hi : k ≤ i) : k ≤ sw k q i := by unfold sw; split_ifs <;> omega

theorem sw_lt {k q i n : Nat} (hk : k < n) (hq : q < n) (hi : i < n) : sw k q i < n := by
  unfold sw; split_ifs <;> omega

theorem sw_left (k q : Nat) : sw k q k = q := if_pos rfl

theorem sw_swap (k q i : Nat) : sw k q i = Equiv.swap k q i := by
  rw [Equiv.swap_apply_def]; rfl

/-- One step, law-free. -/
theorem RRQR.reflect_ok {k : Nat} (hn : k < n) (hm : k < m) (hp : k < p) (s : RRQR α m n p)
    {b : α × Nat} (hb : RRQR.best k s.qr.qrt = .ok b) (h2 : b.2 < n) :
    ∃ s' : RRQR α m n p, RRQR.reflect k s = .ok s' ∧
      (∀ j, s'.p.f j = s.p.f (sw k b.2 j)) ∧
      s'.qr.rDiag.f = upd1 s.qr.rDiag.f k (hnorm k m (s.qr.qrt.f b.2)) ∧
      QR.Step k (fun c => s.qr.qrt.f (sw k b.2 c)) s'.qr.qrt.f m n (hnorm k m (s.qr.qrt.f b.2)) := by
  unfold RRQR.reflect
  rw [hb, ok_bind]
  dsimp only
  by_cases hq : b.2 = k
  · rw [if_neg (by simpa using hq)]
    obtain ⟨s', e, h3, h4⟩ := QR.reflect_ok hn hm hp s.qr
    have : (fun c => s.qr.qrt.f (sw k k c)) = s.qr.qrt.f := funext fun c => by rw [sw_self]
    refine ⟨⟨s', s.p⟩, by rw [e]; rfl, fun j => by rw [hq, sw_self], by rw [hq]; exact h3, ?_⟩
    rw [hq, this]; exact h4
  · rw [if_pos (by simpa using hq), Row.get_ok hn, ok_bind, Row.get_ok h2, ok_bind, Row.set_ok hn, ok_bind,
      Row.set_ok h2, ok_bind]
    obtain ⟨s', e, h3, h4⟩ := QR.reflect_ok hn hm hp
      (⟨⟨fun i => s.qr.qrt.f (if i = k then b.2 else if i = b.2 then k else i)⟩, s.qr.rDiag⟩ : QR α m n p)
    refine ⟨⟨s', ⟨upd1 (upd1 s.p.f k (s.p.f b.2)) b.2 (s.p.f k)⟩⟩, by rw [e]; rfl, fun j => ?_, ?_, ?_⟩
    · dsimp only
      rw [upd1_eq, upd1_eq]
      unfold sw
      by_cases e1 : j = k
      · rw [if_neg (by omega), if_pos e1, if_pos e1]
      · rw [if_neg e1, if_neg e1]
        split <;> rfl
    · dsimp only at h3
      rw [if_pos rfl] at h3
      exact h3
    · dsimp only at h4
      rw [if_pos rfl] at h4
      exact h4

theorem perm_sw {k q : Nat} (hk : k < n) (hq : q < n) {p p' : Nat → Nat}
    (h : ∃ σ : Equiv.Perm (Fin n), ∀ j : Fin n, p j = σ j) (hp : ∀ j, p' j = p (sw k q j)) :
    ∃ σ : Equiv.Perm (Fin n), ∀ j : Fin n, p' j = σ j := by
  obtain ⟨σ, hσ⟩ := h
  refine ⟨(Equiv.swap ⟨k, hk⟩ ⟨q, hq⟩).trans σ, fun j => ?_⟩
  rw [hp, Equiv.trans_apply, ← hσ, swap_val, sw_swap]

theorem RRQR.new_wp [ZeroLaws α] {a : Mat α m n} (ha : a.own) (hm : 0 < m) (hn : 0 < n)
    {A : Nat → Nat → α} (hA : Shows a.at m n A)
    (I : Nat → (Nat → Nat → α) → (Nat → α) → (Nat → Nat) → Prop)
    (h0 : ∀ f d p, (∀ i j, i < n → j < m → f i j = A j i) → (∀ i, i < n → p i = i) → I 0 f d p)
    (hs : ∀ k f f' d p p' q v, k < m → k < n → k ≤ q → q < n → RRQR.best k (⟨f⟩ : Tab α n m) = .ok (v, q) →
      I k f d p → (∀ j, p' j = p (sw k q j)) → (∀ j : Nat, j < n → p j < n) →
      QR.Step k (fun c => f (sw k q c)) f' m n (hnorm k m (f q)) →
      I (k + 1) f' (upd1 d k (hnorm k m (f q))) p') :
    ∃ s : RRQR α m n (min m n), RRQR.new a = .ok s ∧ I (min m n) s.qr.qrt.f s.qr.rDiag.f s.p.f ∧
      ∃ σ : Equiv.Perm (Fin n), ∀ j : Fin n, s.p.f j = σ j := by
  obtain ⟨tm, t, e1, e2, h1⟩ := Mat.transData_ok ha hm hA
  obtain ⟨pv, e3, h3⟩ := LU.pivot_init (n := n)
  unfold RRQR.new
  rw [Mat.colDim_ok hm, ok_bind, e1, ok_bind, e2, ok_bind, e3, ok_bind, if_neg (by omega)]
  show ∃ s, forUp 0 (min n m) RRQR.reflect ⟨⟨t, Row.zero _⟩, pv⟩ = .ok s ∧ _
  rw [min_comm n m]
  refine Wp.exists_ok (wp_forUp (fun k (s : RRQR α m n (min m n)) =>
    I k s.qr.qrt.f s.qr.rDiag.f s.p.f ∧ ∃ σ : Equiv.Perm (Fin n), ∀ j : Fin n, s.p.f j = σ j)
    (Nat.zero_le _) (And.intro (h0 _ _ _ h1 h3) ⟨1, fun j => h3 j j.2⟩) ?_)
  rintro k s - hk ⟨hI, hp⟩
  obtain ⟨b, eb, hb⟩ := RRQR.best_wp (show k < n by omega) s.qr.qrt
    (fun i b => k ≤ b.2 ∧ (b.2 < i ∨ b.2 = k)) (And.intro le_rfl (.inr rfl)) (by
      intro i b h1 h2 h3
      split
      · exact ⟨h1, .inl (by dsimp only; omega)⟩
      · exact ⟨h3.1, by omega⟩)
  obtain ⟨s', e, h4, h5, h6⟩ := RRQR.reflect_ok (show k < n by omega) (show k < m by omega) hk s eb
    (by omega)
  rw [e]
  refine ⟨?_, perm_sw (show k < n by omega) (show b.2 < n by omega) hp h4⟩
  rw [h5]
  obtain ⟨σ, hσ⟩ := hp
  exact hs k _ _ _ _ _ b.2 b.1 (by omega) (by omega) hb.1 (by omega) eb hI h4
    (fun j hj => by rw [hσ ⟨j, hj⟩]; exact (σ ⟨j, hj⟩).2) h6

theorem RRQR.pMat_ok {s : RRQR α m n p} (hn : 0 < n) {σ : Equiv.Perm (Fin n)}
    (hp : ∀ i : Fin n, s.p.f i = σ i) :
    ∃ M : Mat α n n, s.pMat = .ok M ∧ M.own ∧ Shows M.at n n fun i j =>
      if s.p.f j = i then Flt.one else Flt.zero := by
  unfold RRQR.pMat
  obtain ⟨m, e, h1, h2⟩ := Mat.new_win (α := α) (r := n) (c := n) hn hn
  obtain ⟨m', e', h3, h4⟩ := Mat.putLoop (Nat.zero_le n) (fun _ _ => Flt.one)
    (fun i x y => x = s.p.f i ∧ y = i) h1 (body := fun i (m : Mat α n n) => do
      m.put (← s.p.get i) i Flt.one) (by
    intro i m _ hi hm
    have hpi : s.p.f i < n := by rw [hp ⟨i, hi⟩]; exact (σ ⟨i, hi⟩).2
    obtain ⟨m', e, h3, h4⟩ := Mat.put_ok hm hpi hi Flt.one
    refine ⟨m', by rw [Row.get_ok hi, ok_bind, e], h3, ?_⟩
    rw [h4]
    exact Wr.upd2 rfl)
  refine ⟨m', ?_, Mat.dense_own h3, m'.win_shows.congr fun i j hi hj => ?_⟩
  · rw [e, must_ok, ok_bind, e']
  · by_cases e : s.p.f j = i
    · rw [(h4 i j).1 ⟨j, by omega, hj, e.symm, rfl⟩, if_pos e]
    · rw [(h4 i j).2 (by rintro ⟨i', _, _, h, rfl⟩; exact e h.symm), h2, if_neg e]

end free

section exact

variable {K : Type} [Field K] [LinearOrder K] [IsStrictOrderedRing K] [Flt K] [Exact K] [ExactSqrt K]
variable {m n p : Nat}

theorem RRQR.l2_exact (k m : Nat) (x : Nat → K) : RRQR.l2 k m x = ∑ r ∈ Ico k m, x r * x r := by
  unfold RRQR.l2
  rw [lsum_exact]
  simp

/-- The chosen column has the greatest norm. -/
theorem RRQR.best_max {k q : Nat} {v : K} (hn : k < n) {t : Tab K n m} (h : RRQR.best k t = .ok (v, q))
    {c : Nat} (h1 : k ≤ c) (h2 : c < n) :
    ∑ r ∈ Ico k m, t.f c r * t.f c r ≤ ∑ r ∈ Ico k m, t.f q r * t.f q r := by
  obtain ⟨b, eb, hb1, hb2⟩ := RRQR.best_wp hn t (fun i b => b.1 ≤ ∑ r ∈ Ico k m, t.f b.2 r * t.f b.2 r ∧
      ∀ c, k ≤ c → c < i → ∑ r ∈ Ico k m, t.f c r * t.f c r ≤ b.1) (And.intro (by
        dsimp only
        rw [Exact.zero_eq]
        exact sum_nonneg fun r _ => mul_self_nonneg _) (by intro c h1 h2; omega)) (by
      rintro i b h1 h2 ⟨h3, h4⟩
      rw [RRQR.l2_exact, Exact.lt_eq]
      by_cases e : b.1 < ∑ r ∈ Ico k m, t.f i r * t.f i r
      · rw [if_pos (by simpa using e)]
        refine ⟨le_rfl, fun c h5 h6 => ?_⟩
        by_cases e' : c = i
        · subst e'; exact le_rfl
        · exact (h4 c h5 (by omega)).trans e.le
      · rw [if_neg (by simpa using e)]
        refine ⟨h3, fun c h5 h6 => ?_⟩
        by_cases e' : c = i
        · subst e'; exact not_lt.1 e
        · exact h4 c h5 (by omega))
  rw [h] at eb
  cases Except.ok.inj eb
  exact (hb2 c h1 h2).trans hb1

/-- Exchanging columns not yet treated. -/
theorem QR.Inv.swap {k q : Nat} {B f : Nat → Nat → K} {d : Nat → K} (h : QR.Inv m n B k f d)
    (hk : k < n) (hq : k ≤ q) (hqn : q < n) :
    QR.Inv m n (fun i j => B i (sw k q j)) k (fun c => f (sw k q c)) d := by
  have hf : ∀ j, j < k → f (sw k q j) = f j := fun j hj => by rw [sw_lo hq hj]
  have hb : ∀ j, j < k → QR.beta (fun c => f (sw k q c)) d j = QR.beta f d j := fun j hj => by
    simp only [QR.beta, hf j hj]
  have hH : ∀ j, j < k → QR.H m (fun c => f (sw k q c)) d j = QR.H m f d j := fun j hj => by
    unfold QR.H; dsimp only; rw [hf j hj, hb j hj]
  refine ⟨?_, fun j hj => ?_, fun j hj => ?_, fun j hj => ?_⟩
  · rw [hprod_congr hH]
    ext i j
    have h1 := congrFun (congrFun h.prod i) ⟨sw k q j, sw_lt hk hqn j.2⟩
    rw [Matrix.mul_apply] at h1 ⊢
    refine Eq.trans h1 (Finset.sum_congr rfl fun r _ => ?_)
    congr 1
    show QR.R f d k r (sw k q j) = QR.R _ d k r j
    unfold QR.R
    dsimp only
    by_cases e : (j : Nat) < k
    · rw [sw_lo hq e]
    · rw [if_neg e, if_neg (by have := sw_ge hq (not_lt.1 e); omega)]
  · rw [hb j hj, hf j hj]; exact h.refl j hj
  · rw [hf j hj]; exact h.diag j hj
  · rw [hf j hj]; exact h.sq j hj

/-- What a step keeps of the columns from `k` on. -/
theorem QR.Step.keeps {k : Nat} {f f' : Nat → Nat → K} {d d' : Nat → K} (hm : k < m)
    (hs : QR.Step k f f' m n (hnorm k m (f k))) (hd : d' = upd1 d k (hnorm k m (f k))) {c : Nat}
    (h1 : k ≤ c) (h2 : c < n) :
    (∀ r, r < k → QR.R f' d' (k + 1) r c = QR.R f d k r c) ∧
    ∑ r ∈ Ico k m, QR.R f' d' (k + 1) r c * QR.R f' d' (k + 1) r c = ∑ r ∈ Ico k m, f c r * f c r := by
  have hdk : d' k = hnorm k m (f k) := by rw [hd, upd1_eq, if_pos rfl]
  by_cases e : c = k
  · subst e
    refine ⟨fun r hr => ?_, ?_⟩
    · unfold QR.R
      rw [if_pos (by omega), if_pos hr, if_neg (by omega), hs.row r (by omega)]
    · rw [← hnorm_sq c m (f c), sum_eq_sum_Ico_succ_bot hm, sum_eq_zero fun r hr => ?_, add_zero]
      · unfold QR.R
        rw [if_pos (by omega), if_neg (by omega), if_pos rfl, hdk]
      · have := mem_Ico.1 hr
        unfold QR.R
        rw [if_pos (by omega), if_neg (by omega), if_neg (by omega), mul_zero]
  · have hR : ∀ r, QR.R f' d' (k + 1) r c = f' c r := fun r => by
      unfold QR.R; rw [if_neg (by omega)]
    have hR' : ∀ r, QR.R f d k r c = f c r := fun r => by
      unfold QR.R; rw [if_neg (by omega)]
    simp only [hR, hR']
    rcases hs.exact with ⟨-, rfl⟩ | ⟨g1, g2⟩
    · exact ⟨fun _ _ => rfl, rfl⟩
    · refine ⟨fun r hr => ?_, ?_⟩
      · rw [g2 c r (by omega) h2 (by omega)]
        unfold tl
        rw [if_neg (by omega), mul_zero, add_zero]
      · rw [← hh_dot (v := f' k) (.inr (g1.beta hm)) (f c) (f c)]
        refine sum_congr rfl fun r hr => ?_
        have := mem_Ico.1 hr
        rw [g2 c r (by omega) h2 (by omega)]
        unfold tl
        rw [if_pos (by omega)]

/-- The state after `k` steps. -/
structure RRQR.Inv (m n : Nat) (A : Nat → Nat → K) (k : Nat) (f : Nat → Nat → K) (d : Nat → K)
    (p : Nat → Nat) : Prop where
  qr : QR.Inv m n (fun i j => A i (p j)) k f d
  top : ∀ i c, i < k → i ≤ c → c < n →
    ∑ r ∈ Ico i m, QR.R f d k r c * QR.R f d k r c ≤ d i * d i

theorem RRQR.Inv.step {k q : Nat} {v : K} {A f f' : Nat → Nat → K} {d : Nat → K} {p p' : Nat → Nat}
    (hI : RRQR.Inv m n A k f d p) (hm : k < m) (hn : k < n) (hq : k ≤ q) (hqn : q < n)
    (hb : RRQR.best k (⟨f⟩ : Tab K n m) = .ok (v, q)) (hp : ∀ j, p' j = p (sw k q j))
    (hs : QR.Step k (fun c => f (sw k q c)) f' m n (hnorm k m (f q))) :
    RRQR.Inv m n A (k + 1) f' (upd1 d k (hnorm k m (f q))) p' := by
  have hs' : QR.Step k (fun c => f (sw k q c)) f' m n (hnorm k m (f (sw k q k))) := by
    rw [sw_left]; exact hs
  have hq' : hnorm k m (f q) = hnorm k m ((fun c => f (sw k q c)) k) := by dsimp only; rw [sw_left]
  have h1 := (hI.qr.swap hn hq hqn).step (d' := upd1 d k (hnorm k m (f q))) hm hs' (by rw [hq'])
  refine ⟨?_, fun i c hi hc hcn => ?_⟩
  · have : (fun i j => A i (p' j)) = fun i j => A i (p (sw k q j)) := by
      funext i j; rw [hp]
    rw [this]; exact h1
  · by_cases hck : c < k
    · -- a finished column
      have e1 : ∀ r, QR.R f' (upd1 d k (hnorm k m (f q))) (k + 1) r c = QR.R f d k r c := fun r => by
        unfold QR.R
        rw [if_pos (show c < k + 1 by omega), if_pos hck, upd1_eq, if_neg (show ¬ c = k by omega),
          hs.other c r (.inl hck), sw_lo hq hck]
      simp only [e1]
      rw [upd1_eq, if_neg (by omega)]
      exact hI.top i c (by omega) hc hcn
    · obtain ⟨g1, g2⟩ := hs'.keeps (d := d) (d' := upd1 d k (hnorm k m (f q))) hm (by rw [hq'])
        (not_lt.1 hck) hcn
      have hsc : sw k q c < n := sw_lt hn hqn hcn
      have hsk : k ≤ sw k q c := sw_ge hq (not_lt.1 hck)
      by_cases hik : i = k
      · subst hik
        rw [g2, upd1_eq, if_pos rfl, hnorm_sq]
        exact RRQR.best_max hn hb hsk hsc
      · have h2 := hI.top i (sw k q c) (by omega) (by omega) hsc
        rw [upd1_eq, if_neg hik]
        refine le_trans (le_of_eq ?_) h2
        have e2 : ∀ r, QR.R (fun c => f (sw k q c)) d k r c = QR.R f d k r (sw k q c) := fun r => by
          unfold QR.R
          rw [if_neg (by omega), if_neg (by omega)]
        rw [← sum_Ico_consecutive _ (show i ≤ k by omega) (show k ≤ m by omega),
          ← sum_Ico_consecutive _ (show i ≤ k by omega) (show k ≤ m by omega), g2]
        congr 1
        · refine sum_congr rfl fun r hr => ?_
          rw [g1 r (mem_Ico.1 hr).2, e2]
        · refine sum_congr rfl fun r hr => ?_
          unfold QR.R
          rw [if_neg (by omega)]

theorem RRQR.new_exact {a : Mat K m n} (ha : a.own) (hm : 0 < m) (hn : 0 < n) {A : Nat → Nat → K}
    (hA : Shows a.at m n A) :
    ∃ s : RRQR K m n (min m n), RRQR.new a = .ok s ∧
      RRQR.Inv m n A (min m n) s.qr.qrt.f s.qr.rDiag.f s.p.f ∧
      ∃ σ : Equiv.Perm (Fin n), ∀ j : Fin n, s.p.f j = σ j :=
  RRQR.new_wp ha hm hn hA (RRQR.Inv m n A)
    (fun f d p h1 h2 => ⟨QR.Inv.init d fun i j hi hj => by rw [h1 i j hi hj, h2 i hi], by intro i; omega⟩)
    (fun k f f' d p p' q v h1 h2 h3 h4 h5 hI h6 _ h7 => hI.step h1 h2 h3 h4 h5 h6 h7)

end exact

end Linear
