import Verif.Lemmas.RoundQRFin
import Verif.Lemmas.RRQRLemmas

/-!
# The rank-revealing QR decomposition in rounded arithmetic
-/

set_option linter.unusedSectionVars false

namespace Linear

open Spec Rnd Matrix
open Finset hiding val diag

variable {α : Type} [Flt α] [Rnd α] {m n : Nat}

theorem QR.rfin_unswap {e : ℝ} {k q : Nat} {f : Nat → Nat → α} {d : Nat → α} (hk : k < n) (hq : k ≤ q)
    (hqn : q < n) (h : QR.RFin m n e k (fun c => f (sw k q c)) d) : QR.RFin m n e k f d := by
  have hss : ∀ j, sw k q (sw k q j) = j := fun j => by rw [sw_swap, sw_swap, Equiv.swap_apply_self]
  refine ⟨h.diag, fun i j hi hij hj => ?_, fun j r h1 h2 h3 h4 => ?_⟩
  · by_cases hjk : j < k
    · have := h.done i j hi hij hj
      rwa [sw_lo hq hjk] at this
    · have := h.done i (sw k q j) hi (by have := sw_ge hq (not_lt.1 hjk); omega) (sw_lt hk hqn hj)
      rwa [hss] at this
  · have := h.rest (sw k q j) r (sw_ge hq h1) (sw_lt hk hqn h2) h3 h4
    rwa [hss] at this

theorem QR.rinv_swap {e : ℝ} {k q : Nat} {B f : Nat → Nat → α} {d : Nat → α} (h : QR.RInv m n e B k f d)
    (hk : k < n) (hq : k ≤ q) (hqn : q < n) :
    QR.RInv m n e (fun i j => B i (sw k q j)) k (fun c => f (sw k q c)) d := by
  have hf : ∀ j, j < k → f (sw k q j) = f j := fun j hj => by rw [sw_lo hq hj]
  have hb : ∀ j, j < k → QR.hb m (fun c r => val (f (sw k q c) r)) (fun c => val (d c)) j =
      QR.hb m (fun c r => val (f c r)) (fun c => val (d c)) j := fun j hj => by
    simp only [QR.hb, hf j hj]
  have hH : ∀ j, j < k → QR.hx m (fun c r => val (f (sw k q c) r)) (fun c => val (d c)) j =
      QR.hx m (fun c r => val (f c r)) (fun c => val (d c)) j := fun j hj => by
    unfold QR.hx; dsimp only; rw [hf j hj, hb j hj]
  refine ⟨fun i j hi hj => h.fin i _ hi (sw_lt hk hqn hj), fun j r hj h1 h2 => ?_, fun i hi => ?_,
    fun i hi hd => ?_, fun j => ?_⟩
  · rw [hf j hj]; exact h.vec j r hj h1 h2
  · rw [hb i hi, hf i hi]
    exact h.refl i hi
  · rw [hf i hi]
    exact h.src i hi hd
  · rw [hprod_congr hH]
    have h1 := h.err ⟨sw k q j, sw_lt hk hqn j.2⟩
    have e1 : ∀ X : Nat → Nat → ℝ, cnorm (mx m n fun i j => X i (sw k q j)) j =
        cnorm (mx m n X) ⟨sw k q j, sw_lt hk hqn j.2⟩ := fun X => rfl
    rw [e1 fun i j => val (B i j)]
    refine le_trans (le_of_eq ?_) h1
    unfold cnorm
    congr 1
    refine sum_congr rfl fun i _ => ?_
    congr 1
    rw [Matrix.sub_apply, Matrix.sub_apply, Matrix.mul_apply, Matrix.mul_apply]
    congr 1
    show QR.R _ _ k i j = QR.R _ _ k i (sw k q j)
    unfold QR.R
    dsimp only
    by_cases e : (j : Nat) < k
    · rw [sw_lo hq e]
    · rw [if_neg e, if_neg (by have := sw_ge hq (not_lt.1 e); omega)]

/-- The decomposition with exchanges of columns. -/
theorem RRQR.new_round [ZeroLaws α] {a : Mat α m n} (ha : a.own) (hm : 0 < m) (hn : 0 < n)
    {A : Nat → Nat → α} (hA : Shows a.at m n A) :
    ∃ s : RRQR α m n (min m n), RRQR.new a = .ok s ∧ (∀ e : ℝ, u α ≤ e → (m + 4) * e ≤ 1 / 100 →
      QR.RFin m n e (min m n) s.qr.qrt.f s.qr.rDiag.f →
      QR.RInv m n e (fun i j => A i (s.p.f j)) (min m n) s.qr.qrt.f s.qr.rDiag.f) ∧
      ∃ σ : Equiv.Perm (Fin n), ∀ j : Fin n, s.p.f j = σ j := by
  refine RRQR.new_wp ha hm hn hA (fun k f d p => ∀ e : ℝ, u α ≤ e → (m + 4) * e ≤ 1 / 100 →
    QR.RFin m n e k f d → QR.RInv m n e (fun i j => A i (p j)) k f d) ?_ ?_
  · intro f d p hf hp e he hM hF
    exact QR.rinv_init (fun i j hi hj => by rw [hf i j hi hj, hp i hi]) hF
  · intro k f f' d p p' q v hk hkn hq hqn hb hI hp _ hs e he hM hF
    have hq' : hnorm k m (f q) = hnorm k m ((fun c => f (sw k q c)) k) := by dsimp only; rw [sw_left]
    rw [hq'] at hs hF ⊢
    have e1 : (fun i j => A i (p' j)) = fun i j => A i (p (sw k q j)) := by
      funext i j; rw [hp]
    rw [e1]
    exact QR.rinv_step hk hkn he hM hs (fun hF' =>
      QR.rinv_swap (hI e he hM (QR.rfin_unswap hkn hq hqn hF')) hkn hq hqn) hF

end Linear
