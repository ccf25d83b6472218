import Verif.Lemmas.RoundSweep

/-!
# One rotation of the symmetric eigen decomposition in rounded arithmetic
-/

set_option linter.unusedSectionVars false

namespace Linear

open Spec Rnd Matrix
open Finset hiding val diag

variable {α : Type} [Flt α] [Rnd α] {n : Nat}

/-! ## Errors in units of `κ`, sizes in units of `β` -/

/-- `x` is finite, its error against `X` at most `k κ`, and `|X| ≤ B β`. -/
structure NV (κ β : ℝ) (x : α) (X k B : ℝ) : Prop where
  fin : Rnd.fin x
  err : |val x - X| ≤ k * κ
  size : |X| ≤ B * β

/-- The units: `κ` exceeds `e β` and the smallest number. -/
structure NV.Unit (α : Type) [Flt α] [Rnd α] (e κ β : ℝ) : Prop where
  ue : u α ≤ e
  e1 : e ≤ 1 / 100
  β0 : 0 ≤ β
  eβ : e * β ≤ κ
  ηκ : η α ≤ κ

theorem NV.Unit.e0 {e κ β : ℝ} (h : NV.Unit α e κ β) : 0 ≤ e := (u_nonneg (α := α)).trans h.ue
theorem NV.Unit.κ0 {e κ β : ℝ} (h : NV.Unit α e κ β) : 0 ≤ κ := (η_nonneg (α := α)).trans h.ηκ
theorem NV.Unit.eκ {e κ β : ℝ} (h : NV.Unit α e κ β) : e * κ ≤ 1 / 100 * κ :=
  mul_le_mul_of_nonneg_right h.e1 h.κ0

theorem NV.abs {κ β : ℝ} {x : α} {X k B : ℝ} (h : NV κ β x X k B) : |val x| ≤ B * β + k * κ := by
  calc |val x| = |X + (val x - X)| := by congr 1; ring
    _ ≤ _ := (abs_add_le _ _).trans (add_le_add h.size h.err)

theorem NV.exact {κ β : ℝ} {x : α} {B : ℝ} (hx : Rnd.fin x) (h : |val x| ≤ B * β) : NV κ β x (val x) 0 B :=
  ⟨hx, by rw [sub_self, abs_zero, zero_mul], h⟩

/-- The rounding of something of size `B β + k κ`. -/
theorem NV.Unit.rnd {e κ β : ℝ} (H : NV.Unit α e κ β) {z B k : ℝ} (hB : 0 ≤ B) (hk : 0 ≤ k) (hz : |z| ≤ B * β + k * κ) :
    u α * |z| ≤ (B + k / 100) * κ := by
  have h1 : u α * |z| ≤ e * (B * β + k * κ) := mul_le_mul H.ue hz (abs_nonneg _) H.e0
  have h2 := mul_le_mul_of_nonneg_left H.eβ hB
  have h3 := mul_le_mul_of_nonneg_left H.eκ hk
  nlinarith

theorem NV.sub {e κ β : ℝ} (H : NV.Unit α e κ β) {x y : α} {X Y kx ky k Bx By B : ℝ} (hx : NV κ β x X kx Bx)
    (hy : NV κ β y Y ky By) (p1 : 0 ≤ kx + ky) (p2 : 0 ≤ Bx + By) (hb : (Bx + By) * β + (kx + ky) * κ ≤ big α)
    (hB : |X - Y| ≤ B * β) (hk : 101 / 100 * (kx + ky) + (Bx + By) ≤ k) : NV κ β (Flt.sub x y) (X - Y) k B := by
  have hz : |val x - val y| ≤ (Bx + By) * β + (kx + ky) * κ := by
    have := abs_sub (val x) (val y)
    have h1 := hx.abs
    have h2 := hy.abs
    linarith
  have hf : Rnd.fin (Flt.sub x y) := sub_ok hx.fin hy.fin (hz.trans hb)
  refine ⟨hf, ?_, hB⟩
  have h1 := (sub_err hf).1
  have h2 := H.rnd p2 p1 hz
  have h3 : |val (Flt.sub x y) - (X - Y)| ≤ |val (Flt.sub x y) - (val x - val y)| + (|val x - X| + |val y - Y|) := by
    calc _ = |(val (Flt.sub x y) - (val x - val y)) + ((val x - X) - (val y - Y))| := by congr 1; ring
      _ ≤ _ := (abs_add_le _ _).trans (add_le_add_right (abs_sub _ _) _)
  have h4 := hx.err
  have h5 := hy.err
  have h6 := mul_le_mul_of_nonneg_right hk H.κ0
  linarith

theorem NV.add {e κ β : ℝ} (H : NV.Unit α e κ β) {x y : α} {X Y kx ky k Bx By B : ℝ} (hx : NV κ β x X kx Bx)
    (hy : NV κ β y Y ky By) (p1 : 0 ≤ kx + ky) (p2 : 0 ≤ Bx + By) (hb : (Bx + By) * β + (kx + ky) * κ ≤ big α)
    (hB : |X + Y| ≤ B * β) (hk : 101 / 100 * (kx + ky) + (Bx + By) ≤ k) : NV κ β (Flt.add x y) (X + Y) k B := by
  have hz : |val x + val y| ≤ (Bx + By) * β + (kx + ky) * κ := by
    have := abs_add_le (val x) (val y)
    have h1 := hx.abs
    have h2 := hy.abs
    linarith
  have hf : Rnd.fin (Flt.add x y) := add_ok hx.fin hy.fin (hz.trans hb)
  refine ⟨hf, ?_, hB⟩
  have h1 := (add_err hf).1
  have h2 := H.rnd p2 p1 hz
  have h3 : |val (Flt.add x y) - (X + Y)| ≤ |val (Flt.add x y) - (val x + val y)| + (|val x - X| + |val y - Y|) := by
    calc _ = |(val (Flt.add x y) - (val x + val y)) + ((val x - X) + (val y - Y))| := by congr 1; ring
      _ ≤ _ := (abs_add_le _ _).trans (add_le_add_right (abs_add_le _ _) _)
  have h4 := hx.err
  have h5 := hy.err
  have h6 := mul_le_mul_of_nonneg_right hk H.κ0
  linarith

/-- A product with a factor of size `Γ` and error `l e`. -/
theorem NV.mul_core {e κ β : ℝ} (H : NV.Unit α e κ β) {w : α} {x g X γ k k' B Γ l : ℝ} (hx : |x - X| ≤ k * κ)
    (hX : |X| ≤ B * β) (hk : 0 ≤ k) (hB : 0 ≤ B) (hg : |g - γ| ≤ l * e) (hl : 0 ≤ l) (hγ : |γ| ≤ Γ)
    (hb : (Γ + l / 100) * (B * β + k * κ) ≤ big α)
    (hk' : (Γ + l / 100) * k + l * B + (Γ + l / 100) * (B + k / 100) + 1 ≤ k') :
    |g * x| ≤ big α ∧
      (|val w - g * x| ≤ u α * |g * x| + η α → |val w - γ * X| ≤ k' * κ) ∧ |γ * X| ≤ Γ * B * β := by
  have he0 := H.e0
  have hκ := H.κ0
  have hβ := H.β0
  have hxa : |x| ≤ B * β + k * κ := by
    calc |x| = |X + (x - X)| := by congr 1; ring
      _ ≤ _ := (abs_add_le _ _).trans (add_le_add hX hx)
  have hga : |g| ≤ Γ + l / 100 := by
    calc |g| = |γ + (g - γ)| := by congr 1; ring
      _ ≤ |γ| + |g - γ| := abs_add_le _ _
      _ ≤ Γ + l * (1 / 100) := add_le_add hγ (hg.trans (mul_le_mul_of_nonneg_left H.e1 hl))
      _ = _ := by ring
  have hΓ : 0 ≤ Γ := (abs_nonneg _).trans hγ
  have hG : 0 ≤ Γ + l / 100 := (abs_nonneg _).trans hga
  have hgx : |g * x| ≤ (Γ + l / 100) * (B * β + k * κ) := by
    rw [abs_mul]; exact mul_le_mul hga hxa (abs_nonneg _) hG
  refine ⟨hgx.trans hb, fun hw => ?_, ?_⟩
  · have h1 : |g * x - γ * X| ≤ (Γ + l / 100) * (k * κ) + l * e * (B * β) := by
      calc |g * x - γ * X| = |g * (x - X) + (g - γ) * X| := by congr 1; ring
        _ ≤ |g| * |x - X| + |g - γ| * |X| := by
          refine (abs_add_le _ _).trans (le_of_eq ?_); rw [abs_mul, abs_mul]
        _ ≤ _ := add_le_add (mul_le_mul hga hx (abs_nonneg _) hG)
          (mul_le_mul hg hX (abs_nonneg _) (by positivity))
    have h2 : l * e * (B * β) ≤ l * B * κ := by
      have := mul_le_mul_of_nonneg_left H.eβ (mul_nonneg hl hB)
      nlinarith
    have h3 : u α * |g * x| ≤ ((Γ + l / 100) * B + (Γ + l / 100) * k / 100) * κ := by
      refine H.rnd (by positivity) (by positivity) (hgx.trans (le_of_eq ?_))
      ring
    have h4 : |val w - γ * X| ≤ |val w - g * x| + |g * x - γ * X| := by
      calc _ = |(val w - g * x) + (g * x - γ * X)| := by congr 1; ring
        _ ≤ _ := abs_add_le _ _
    have h5 := H.ηκ
    have h6 := mul_le_mul_of_nonneg_right hk' hκ
    nlinarith
  · rw [abs_mul, mul_assoc]
    exact mul_le_mul hγ hX (abs_nonneg _) hΓ

theorem NV.mul {e κ β : ℝ} (H : NV.Unit α e κ β) {g x : α} {X γ k k' B B' Γ l : ℝ} (hx : NV κ β x X k B)
    (hk : 0 ≤ k) (hB : 0 ≤ B) (fg : Rnd.fin g) (hg : |val g - γ| ≤ l * e) (hl : 0 ≤ l) (hγ : |γ| ≤ Γ)
    (hb : (Γ + l / 100) * (B * β + k * κ) ≤ big α) (hB' : Γ * B = B')
    (hk' : (Γ + l / 100) * k + l * B + (Γ + l / 100) * (B + k / 100) + 1 ≤ k') :
    NV κ β (Flt.mul g x) (γ * X) k' B' := by
  obtain ⟨h1, h2, h3⟩ := NV.mul_core H (w := Flt.mul g x) hx.err hx.size hk hB hg hl hγ hb hk'
  have hf : Rnd.fin (Flt.mul g x) := mul_ok fg hx.fin h1
  exact ⟨hf, h2 (mul_err hf).1, hB' ▸ h3⟩

theorem NV.mul' {e κ β : ℝ} (H : NV.Unit α e κ β) {g x : α} {X γ k k' B B' Γ l : ℝ} (hx : NV κ β x X k B)
    (hk : 0 ≤ k) (hB : 0 ≤ B) (fg : Rnd.fin g) (hg : |val g - γ| ≤ l * e) (hl : 0 ≤ l) (hγ : |γ| ≤ Γ)
    (hb : (Γ + l / 100) * (B * β + k * κ) ≤ big α) (hB' : Γ * B = B')
    (hk' : (Γ + l / 100) * k + l * B + (Γ + l / 100) * (B + k / 100) + 1 ≤ k') :
    NV κ β (Flt.mul x g) (X * γ) k' B' := by
  obtain ⟨h1, h2, h3⟩ := NV.mul_core H (w := Flt.mul x g) hx.err hx.size hk hB hg hl hγ hb hk'
  have hf : Rnd.fin (Flt.mul x g) := mul_ok hx.fin fg (by rw [mul_comm]; exact h1)
  have h4 := (mul_err hf).1
  rw [mul_comm (val x)] at h4
  rw [mul_comm X]
  exact ⟨hf, h2 h4, hB' ▸ h3⟩

/-- The numbers of one rotation: `d0`, `d1 - u0` and `b` are the entries of the 2 × 2 block. -/
theorem Eig.block_round {e κ β : ℝ} (H : NV.Unit α e κ β) (hbig : 16 * β ≤ big α) (hκ : κ ≤ β / 100 + 1 / 100)
    {s c : ℝ} {s' c' d0 d1 u0 h : α} {b : ℝ} (h1 : s * s + c * c = 1) (fs : fin s') (fc : fin c')
    (es : |val s' - s| ≤ 8 * e) (ec : |val c' - c| ≤ 8 * e) (f0 : fin d0) (f1 : fin d1) (fu : fin u0)
    (b0 : |val d0| ≤ β) (b1 : |val d1 - val u0| ≤ β) (hh : NV κ β h b 1 1) :
    ∀ t : α, t = Flt.add (Flt.mul (Flt.sub d0 (Flt.sub d1 u0)) s') (Flt.mul (Flt.mul Flt.two c') h) →
    ∀ T : ℝ, T = (val d0 - (val d1 - val u0)) * s + 2 * c * b →
      (fin (Flt.mul s' t) ∧ |val (Flt.mul s' t) - s * T| ≤ 106 * κ) ∧
      (fin (Flt.add (Flt.sub d1 u0) (Flt.mul s' t)) ∧
        |val (Flt.add (Flt.sub d1 u0) (Flt.mul s' t)) - (val d1 - val u0 + s * T)| ≤ 106 * κ) ∧
      (fin (Flt.sub (Flt.mul c' t) h) ∧ |val (Flt.sub (Flt.mul c' t) h) - (c * T - b)| ≤ 106 * κ) := by
  intro t ht T hT
  have hβ := H.β0
  have hκ0 := H.κ0
  have he0 := H.e0
  have hb0 := big_le (α := α)
  have s1 : |s| ≤ 1 := abs_le_of_sq_le_sq' (by nlinarith [mul_self_nonneg c]) one_pos.le |> abs_le.2
  have c1 : |c| ≤ 1 := abs_le_of_sq_le_sq' (by nlinarith [mul_self_nonneg s]) one_pos.le |> abs_le.2
  have x0 : NV κ β d0 (val d0) 0 1 := NV.exact f0 (by rw [one_mul]; exact b0)
  have x1 : NV κ β (Flt.sub d1 u0) (val d1 - val u0) 1 1 := by
    have hf : fin (Flt.sub d1 u0) := sub_ok f1 fu (by linarith)
    refine ⟨hf, (sub_err hf).1.trans ?_, by rw [one_mul]; exact b1⟩
    have := H.rnd (z := val d1 - val u0) (B := 1) (k := 0) (by norm_num) le_rfl (by linarith)
    linarith
  have x2 := NV.sub H (k := 311 / 100) (B := 2) x0 x1 (by norm_num) (by norm_num) (by linarith)
    (by have := abs_sub (val d0) (val d1 - val u0); linarith) (by norm_num)
  have x3 := NV.mul' H (k' := 24) x2 (by norm_num) (by norm_num) fs es (by norm_num) s1 (by linarith) rfl (by norm_num)
  have fc2 : fin (Flt.mul Flt.two c') := mul_ok two_fin fc (by
    rw [val_two, abs_mul, abs_of_pos (a := (2 : ℝ)) (by norm_num)]
    have h2 := abs_le.1 ec
    have h3 := abs_le.1 c1
    have h4 := H.e1
    have : |val c'| ≤ 2 := by rw [abs_le]; constructor <;> linarith
    linarith)
  have ec2 : |val (Flt.mul Flt.two c') - 2 * c| ≤ 20 * e := by
    have h2 := (mul_err fc2).1
    rw [val_two] at h2
    have h3 := abs_le.1 ec
    have h3' := abs_le.1 c1
    have h4 := H.e1
    have h5 : |2 * val c'| ≤ 3 := by rw [abs_le]; constructor <;> linarith
    have h6 : u α * |2 * val c'| ≤ e * 3 := mul_le_mul H.ue h5 (abs_nonneg _) he0
    have h7 := (η_le_u (α := α)).trans H.ue
    have h8 := abs_le.1 h2
    rw [abs_le]
    constructor <;> linarith
  have c2 : |2 * c| ≤ 2 := by rw [abs_mul, abs_of_pos (a := (2 : ℝ)) (by norm_num)]; linarith
  have x5 := NV.mul H (k' := 27) hh (by norm_num) (by norm_num) fc2 ec2 (by norm_num) c2 (by linarith) rfl (by norm_num)
  have x6 := NV.add H (k := 56) (B := 4) x3 x5 (by norm_num) (by norm_num) (by linarith)
    (by have h2 := abs_add_le ((val d0 - (val d1 - val u0)) * s) (2 * c * b); have h3 := x3.size; have h4 := x5.size
        linarith) (by norm_num)
  rw [← ht, ← hT] at x6
  have y1 := NV.mul H (k' := 99) x6 (by norm_num) (by norm_num) fs es (by norm_num) s1 (by linarith) rfl (by norm_num)
  have y3 := NV.mul H (k' := 99) x6 (by norm_num) (by norm_num) fc ec (by norm_num) c1 (by linarith) rfl (by norm_num)
  have y2 := NV.add H (k := 106) (B := 5) x1 y1 (by norm_num) (by norm_num) (by linarith)
    (by have h2 := abs_add_le (val d1 - val u0) (s * T); have h3 := x1.size; have h4 := y1.size
        linarith) (by norm_num)
  have y4 := NV.sub H (k := 106) (B := 5) y3 hh (by norm_num) (by norm_num) (by linarith)
    (by have h2 := abs_sub (c * T) b; have h3 := hh.size; have h4 := y3.size
        linarith) (by norm_num)
  exact ⟨⟨y1.fin, y1.err.trans (by linarith)⟩, ⟨y2.fin, y2.err⟩, ⟨y4.fin, y4.err⟩⟩

/-! ## One rotation of the matrix -/

theorem Eig.W_block {D C D2 C2 : Nat → ℝ} {x k : Nat} {P P2 δ : ℝ} (hδ : 0 ≤ δ) (d1 : ∀ a, |D a - D2 a| ≤ δ)
    (d2 : ∀ a, ¬ (k ≤ a ∧ a < k + 3) → D a = D2 a) (c1 : ∀ a, |C a - C2 a| ≤ δ)
    (c2 : ∀ a, ¬ (k ≤ a ∧ a < k + 2) → C a = C2 a) (p1 : ∀ a, a + 1 = x → |P - P2| ≤ δ)
    (p2 : ∀ a, a + 1 = x → a ≠ k → P = P2) :
    fro (mx n n (Eig.W D C x P) - mx n n (Eig.W D2 C2 x P2)) ≤ 3 * δ := by
  refine fro_block k hδ (fun a b => ?_) (fun a b hab => ?_)
  · show |Eig.W D C x P a b - Eig.W D2 C2 x P2 a b| ≤ δ
    unfold Eig.W
    split_ifs with h1 h2 h3 h4
    · exact d1 _
    · exact c1 _
    · exact c1 _
    · rcases h4 with h | h
      · exact p1 _ h.2
      · exact p1 _ h.2
    · rw [sub_zero, abs_zero]; exact hδ
  · show Eig.W D C x P a b - Eig.W D2 C2 x P2 a b = 0
    rw [sub_eq_zero]
    unfold Eig.W
    split_ifs with h1 h2 h3 h4
    · exact d2 _ (by omega)
    · exact c2 _ (by omega)
    · exact c2 _ (by omega)
    · rcases h4 with h | h
      · exact p2 _ h.2 (by omega)
      · exact p2 _ h.2 (by omega)
    · rfl

/-- The diagonal of the matrix of a state. -/
noncomputable def Eig.wD (x : Nat) (d : Nat → α) (u : α) (a : Nat) : ℝ := if a = x then val (d a) - val u else val (d a)

/-- The entries beside it: those before `j` and the one at `m` are left out. -/
noncomputable def Eig.wC (j m x : Nat) (e : Nat → α) (q c : α) (a : Nat) : ℝ :=
  if a < j then 0 else if a = m then 0 else if a = x then val q else if a + 1 = x then val c * val (e a) else val (e a)

/-- The entry outside of the three diagonals. -/
noncomputable def Eig.wP (j m x : Nat) (e : Nat → α) (s : α) : ℝ :=
  if j < x ∧ x < m then val s * val (e (x - 1)) else 0

/-- The matrix of a state in the middle of a sweep. -/
noncomputable def Eig.wM (j m x : Nat) (d e : Nat → α) (q u s c : α) : Nat → Nat → ℝ :=
  Eig.W (Eig.wD x d u) (Eig.wC j m x e q c) x (Eig.wP j m x e s)

/-- All numbers that the matrix of a state uses are finite. -/
structure Eig.FinW (n m x : Nat) (d e : Nat → α) (q u s c : α) : Prop where
  d : ∀ a, a < n → fin (d a)
  e : ∀ a, a < n → a ≠ m → fin (e a)
  q : x < m → fin q
  u : fin u
  s : fin s
  c : fin c

theorem W_entry {D C : Nat → ℝ} {x : Nat} {P : ℝ} {a b : Nat} (ha : a < n) (hb : b < n) :
    |Eig.W D C x P a b| ≤ fro (mx n n (Eig.W D C x P)) :=
  fro_entry (mx n n (Eig.W D C x P)) ⟨a, ha⟩ ⟨b, hb⟩

/-- **One rotation.** The matrix of the new state is near to the rotated one. -/
theorem Eig.turn_matrix {j m i : Nat} (hji : j ≤ i) (him : i + 1 ≤ m) (hm : m < n) {ε : ℝ} (he : Rnd.u α ≤ ε)
    (he1 : ε ≤ 1 / 100) {d e : Nat → α} {q u s c : α} (hF : Eig.FinW n m (i + 1) d e q u s c)
    (hbig : 16 * fro (mx n n (Eig.wM j m (i + 1) d e q u s c)) ≤ big α)
    {g : Eig.Rot α} (hg : g = Eig.rot (Flt.mul s (e i)) q) (hs : fin g.s) (hc : fin g.c) {t : α}
    (ht : t = Flt.add (Flt.mul (Flt.sub (d i) (Flt.sub (d (i + 1)) u)) g.s)
      (Flt.mul (Flt.mul Flt.two g.c) (Flt.mul c (e i)))) :
    ∃ s' c' : ℝ, Eig.RotNear ε s' c' g ∧
      Eig.FinW n m i (upd1 d (i + 1) (Flt.add (Flt.sub (d (i + 1)) u) (Flt.mul g.s t))) (upd1 e (i + 1) g.r)
        (Flt.sub (Flt.mul g.c t) (Flt.mul c (e i))) (Flt.mul g.s t) g.s g.c ∧
      fro (mx n n (Eig.wM j m i (upd1 d (i + 1) (Flt.add (Flt.sub (d (i + 1)) u) (Flt.mul g.s t)))
          (upd1 e (i + 1) g.r) (Flt.sub (Flt.mul g.c t) (Flt.mul c (e i))) (Flt.mul g.s t) g.s g.c) -
        (Eig.G n i s' c')ᵀ * mx n n (Eig.wM j m (i + 1) d e q u s c) * Eig.G n i s' c') ≤
        350 * (ε * fro (mx n n (Eig.wM j m (i + 1) d e q u s c)) + Rnd.η α) := by
  obtain ⟨β, hβ⟩ : ∃ β, β = fro (mx n n (Eig.wM j m (i + 1) d e q u s c)) := ⟨_, rfl⟩
  rw [← hβ] at hbig ⊢
  have hβ0 : 0 ≤ β := by rw [hβ]; exact fro_nonneg _
  have hη := η_nonneg (α := α)
  have hu0 := u_nonneg (α := α)
  have he0 : 0 ≤ ε := hu0.trans he
  have hηu := η_le_u (α := α)
  have hb0 := big_le (α := α)
  obtain ⟨κ, hκ⟩ : ∃ κ, κ = ε * β + Rnd.η α := ⟨_, rfl⟩
  rw [← hκ]
  have hεβ : 0 ≤ ε * β := mul_nonneg he0 hβ0
  have H : NV.Unit α ε κ β := ⟨he, he1, hβ0, by linarith, by linarith⟩
  have hκ1 : κ ≤ β / 100 + 1 / 100 := by
    have : ε * β ≤ 1 / 100 * β := mul_le_mul_of_nonneg_right he1 hβ0
    linarith
  have hκ0 := H.κ0
  obtain ⟨D, hD⟩ : ∃ D, D = Eig.wD (i + 1) d u := ⟨_, rfl⟩
  obtain ⟨C, hC⟩ : ∃ C, C = Eig.wC j m (i + 1) e q c := ⟨_, rfl⟩
  obtain ⟨P, hP⟩ : ∃ P, P = Eig.wP j m (i + 1) e s := ⟨_, rfl⟩
  have hM : Eig.wM j m (i + 1) d e q u s c = Eig.W D C (i + 1) P := by rw [hD, hC, hP]; rfl
  rw [hM] at hβ ⊢
  have D0 : D i = val (d i) := by rw [hD]; exact if_neg (by omega)
  have D1 : D (i + 1) = val (d (i + 1)) - val u := by rw [hD]; exact if_pos rfl
  have C0 : C i = val c * val (e i) := by
    rw [hC]; unfold Eig.wC
    rw [if_neg (by omega), if_neg (by omega), if_neg (by omega), if_pos rfl]
  have b0 : |val (d i)| ≤ β := by
    have h := W_entry (n := n) (D := D) (C := C) (x := i + 1) (P := P) (a := i) (b := i) (by omega) (by omega)
    rw [← hβ, show Eig.W D C (i + 1) P i i = D i from if_pos rfl, D0] at h
    exact h
  have b1 : |val (d (i + 1)) - val u| ≤ β := by
    have h := W_entry (n := n) (D := D) (C := C) (x := i + 1) (P := P) (a := i + 1) (b := i + 1) (by omega) (by omega)
    rw [← hβ, show Eig.W D C (i + 1) P (i + 1) (i + 1) = D (i + 1) from if_pos rfl, D1] at h
    exact h
  have bC : ∀ a, a + 1 < n → |C a| ≤ β := by
    intro a ha
    have h := W_entry (n := n) (D := D) (C := C) (x := i + 1) (P := P) (a := a) (b := a + 1) (by omega) (by omega)
    rw [← hβ] at h
    unfold Eig.W at h
    rw [if_neg (by omega), if_pos rfl] at h
    exact h
  have bb : |val c * val (e i)| ≤ β := by rw [← C0]; exact bC i (by omega)
  have fei : fin (e i) := hF.e i (by omega) (by omega)
  have hh : NV κ β (Flt.mul c (e i)) (val c * val (e i)) 1 1 := by
    have hf : fin (Flt.mul c (e i)) := mul_ok hF.c fei (by linarith)
    refine ⟨hf, (mul_err hf).1.trans ?_, by rw [one_mul]; exact bb⟩
    have : Rnd.u α * |val c * val (e i)| ≤ ε * β := mul_le_mul he bb (abs_nonneg _) he0
    linarith
  rw [hg] at hs hc
  obtain ⟨s', c', hN, hR⟩ := Eig.rot_round he he1 hs hc
  rw [← hg] at hs hc hN hR
  obtain ⟨T, hT⟩ : ∃ T, T = (val (d i) - (val (d (i + 1)) - val u)) * s' + 2 * c' * (val c * val (e i)) := ⟨_, rfl⟩
  obtain ⟨⟨f1, k1⟩, ⟨f2, k2⟩, ⟨f3, k3⟩⟩ := Eig.block_round H hbig hκ1 hN.one hs hc hN.sErr hN.cErr
    (hF.d i (by omega)) (hF.d (i + 1) (by omega)) hF.u b0 b1 hh t ht T hT
  have s1 : |s'| ≤ 1 := abs_le_of_sq_le_sq' (by nlinarith [mul_self_nonneg c', hN.one]) one_pos.le |> abs_le.2
  have c1 : |c'| ≤ 1 := abs_le_of_sq_le_sq' (by nlinarith [mul_self_nonneg s', hN.one]) one_pos.le |> abs_le.2
  -- the radius
  have hrad : i + 1 < m → fin g.r ∧ |P - s' * val g.r| ≤ 9 * κ ∧ |C (i + 1) - c' * val g.r| ≤ 9 * κ := by
    intro him'
    have P0 : P = val s * val (e i) := by
      rw [hP]; unfold Eig.wP
      rw [if_pos (by omega)]; rfl
    have C1 : C (i + 1) = val q := by
      rw [hC]; unfold Eig.wC
      rw [if_neg (by omega), if_neg (by omega), if_pos rfl]
    have bP : |val s * val (e i)| ≤ β := by
      have h := W_entry (n := n) (D := D) (C := C) (x := i + 1) (P := P) (a := i) (b := i + 2) (by omega) (by omega)
      rw [← hβ] at h
      unfold Eig.W at h
      rw [if_neg (by omega), if_neg (by omega), if_neg (by omega), if_pos (by omega), P0] at h
      exact h
    have bq : |val q| ≤ β := by rw [← C1]; exact bC (i + 1) (by omega)
    have fp : fin (Flt.mul s (e i)) := mul_ok hF.s fei (by linarith)
    have ep := (mul_err fp).1
    have h2 : Rnd.u α * |val s * val (e i)| ≤ ε * β := mul_le_mul he bP (abs_nonneg _) he0
    have bp : |val (Flt.mul s (e i))| ≤ β + κ := by
      calc |val (Flt.mul s (e i))| = |val s * val (e i) + (val (Flt.mul s (e i)) - val s * val (e i))| := by
            congr 1; ring
        _ ≤ _ := (abs_add_le _ _).trans (by linarith)
    obtain ⟨r1, -, r2, r3⟩ := hR (β + κ) fp (hF.q him') bp (by linarith) (by linarith)
    have h3 : 7 * ε * (β + κ) + Rnd.η α ≤ 8 * κ := by
      have h5 := H.eκ
      have h4 : 7 * ε * (β + κ) = 7 * (ε * β) + 7 * (ε * κ) := by ring
      rw [h4]; linarith
    refine ⟨r1, ?_, ?_⟩
    · rw [P0]
      calc |val s * val (e i) - s' * val g.r| = |-(val (Flt.mul s (e i)) - val s * val (e i)) +
            (val (Flt.mul s (e i)) - s' * val g.r)| := by congr 1; ring
        _ ≤ |val (Flt.mul s (e i)) - val s * val (e i)| + |val (Flt.mul s (e i)) - s' * val g.r| := by
          refine (abs_add_le _ _).trans (le_of_eq ?_); rw [abs_neg]
        _ ≤ 9 * κ := by linarith
    · rw [C1]; linarith
  refine ⟨s', c', hN, ⟨fun a ha => ?_, fun a ha ham => ?_, fun _ => f3, f1, hs, hc⟩, ?_⟩
  · rw [upd1_eq]; split
    · exact f2
    · exact hF.d a ha
  · rw [upd1_eq]; split
    · next h => exact (hrad (by omega)).1
    · exact hF.e a ha ham
  -- the matrix
  obtain ⟨r, hr⟩ : ∃ r : ℝ, r = if i + 1 < m then val g.r else 0 := ⟨_, rfl⟩
  obtain ⟨C3, hC3⟩ : ∃ C3 : Nat → ℝ, C3 = upd1 C (i + 1) (c' * r) := ⟨_, rfl⟩
  have C3o : ∀ a, a ≠ i + 1 → C3 a = C a := fun a ha => by rw [hC3, upd1_eq, if_neg ha]
  have C3e : C3 (i + 1) = c' * r := by rw [hC3, upd1_eq, if_pos rfl]
  obtain ⟨Ds, hDs⟩ : ∃ Ds : Nat → ℝ, Ds = fun a => if a = i then D i - s' * T else if a = i + 1 then
    D (i + 1) + s' * T else D a := ⟨_, rfl⟩
  obtain ⟨Cs, hCs⟩ : ∃ Cs : Nat → ℝ, Cs = fun a => if a = i then c' * T - C i else if a = i + 1 then r else
    if a + 1 = i then c' * C a else C a := ⟨_, rfl⟩
  have hstep : mx n n (Eig.W Ds Cs i (s' * C (i - 1))) =
      (Eig.G n i s' c')ᵀ * mx n n (Eig.W D C3 (i + 1) (s' * r)) * Eig.G n i s' c' := by
    rw [Eig.G_conj (by omega)]
    refine mx_congr fun a b _ _ => ?_
    refine Eig.W_step (r := r) (t := T) hN.one rfl C3e ?_ ?_ ?_ ?_ ?_ ?_ ?_ ?_ ?_ a b
    · rw [C3o i (by omega), C0, D0, D1, hT]
    · rw [hDs]; exact if_pos rfl
    · rw [hDs]; dsimp only; rw [if_neg (by omega), if_pos rfl]
    · intro a h1 h2; rw [hDs]; dsimp only; rw [if_neg h1, if_neg h2]
    · rw [hCs, C3o i (by omega)]; exact if_pos rfl
    · rw [hCs]; dsimp only; rw [if_neg (by omega), if_pos rfl]
    · intro a h1; rw [hCs, C3o a (by omega)]; dsimp only; rw [if_neg (by omega), if_neg (by omega), if_pos h1]
    · intro a h1 h2 h3; rw [hCs, C3o a h2]; dsimp only; rw [if_neg h1, if_neg h2, if_neg h3]
    · intro a h1; rw [C3o a (by omega), ← h1]; rfl
  have g1 : fro (mx n n (Eig.W D C3 (i + 1) (s' * r)) - mx n n (Eig.W D C (i + 1) P)) ≤ 3 * (9 * κ) := by
    have hPP : |s' * r - P| ≤ 9 * κ := by
      rw [abs_sub_comm]
      by_cases h : i + 1 < m
      · rw [hr, if_pos h]; exact (hrad h).2.1
      · rw [hr, if_neg h, hP]; unfold Eig.wP; rw [if_neg (by omega), mul_zero, sub_zero, abs_zero]; linarith
    refine Eig.W_block (k := i) (by linarith) (fun a => by rw [sub_self, abs_zero]; linarith) (fun _ _ => rfl)
      (fun a => ?_) (fun a ha => C3o a (by omega)) (fun _ _ => hPP) (fun a h1 h2 => absurd (by omega) h2)
    by_cases ha : a = i + 1
    · subst ha
      rw [C3e, abs_sub_comm]
      by_cases h : i + 1 < m
      · rw [hr, if_pos h]; exact (hrad h).2.2
      · rw [hr, if_neg h, hC]; unfold Eig.wC
        rw [if_neg (by omega), if_pos (by omega), mul_zero, sub_zero, abs_zero]; linarith
    · rw [C3o a ha, sub_self, abs_zero]; linarith
  have key8 : ∀ {x y z : ℝ}, |x - y| ≤ 8 * ε → |z| ≤ β → |x * z - y * z| ≤ 106 * κ := by
    intro x y z h1 h2
    rw [← sub_mul, abs_mul]
    have : |x - y| * |z| ≤ 8 * ε * β := mul_le_mul h1 h2 (abs_nonneg _) (by linarith)
    linarith
  have ua : ∀ {x : Nat → α} {v : α} {a : Nat}, a ≠ i + 1 → upd1 x (i + 1) v a = x a := fun h => by
    rw [upd1_eq, if_neg h]
  have ub : ∀ {x : Nat → α} {v : α}, upd1 x (i + 1) v (i + 1) = v := by
    intro x v; rw [upd1_eq, if_pos rfl]
  have Clow : ∀ a, a + 1 = i → C a = if a < j then 0 else val (e a) := by
    intro a ha
    rw [hC]; unfold Eig.wC
    split
    · rfl
    · rw [if_neg (by omega), if_neg (by omega), if_neg (by omega)]
  have g2 : fro (mx n n (Eig.wM j m i (upd1 d (i + 1) (Flt.add (Flt.sub (d (i + 1)) u) (Flt.mul g.s t)))
          (upd1 e (i + 1) g.r) (Flt.sub (Flt.mul g.c t) (Flt.mul c (e i))) (Flt.mul g.s t) g.s g.c) -
        mx n n (Eig.W Ds Cs i (s' * C (i - 1)))) ≤ 3 * (106 * κ) := by
    refine Eig.W_block (k := i - 1) (by linarith) (fun a => ?_) (fun a ha => ?_) (fun a => ?_) (fun a ha => ?_)
      (fun a ha => ?_) (fun a h1 h2 => absurd (by omega) h2)
    · rw [hDs]
      unfold Eig.wD
      dsimp only
      by_cases h1 : a = i
      · rw [if_pos h1, if_pos h1, h1, ua (by omega), D0, abs_sub_comm]
        rw [show val (d i) - s' * T - (val (d i) - val (Flt.mul g.s t)) = val (Flt.mul g.s t) - s' * T by ring]
        exact k1
      · rw [if_neg h1, if_neg h1]
        by_cases h2 : a = i + 1
        · rw [if_pos h2, h2, ub, D1]; exact k2
        · rw [if_neg h2, ua h2, hD]
          unfold Eig.wD
          rw [if_neg h2, sub_self, abs_zero]; linarith
    · rw [hDs]
      unfold Eig.wD
      dsimp only
      rw [if_neg (by omega), if_neg (by omega), if_neg (by omega), ua (by omega), hD]
      unfold Eig.wD
      rw [if_neg (by omega)]
    · rw [hCs]
      dsimp only
      by_cases h1 : a = i
      · rw [if_pos h1, h1, C0]
        unfold Eig.wC
        rw [if_neg (by omega), if_neg (by omega), if_pos rfl]
        exact k3
      · rw [if_neg h1]
        by_cases h2 : a = i + 1
        · rw [if_pos h2, h2, hr]
          unfold Eig.wC
          rw [if_neg (by omega)]
          by_cases h3 : i + 1 < m
          · rw [if_pos h3, if_neg (by omega), if_neg (by omega), if_neg (by omega), ub, sub_self, abs_zero]; linarith
          · rw [if_neg h3, if_pos (by omega), sub_self, abs_zero]; linarith
        · rw [if_neg h2]
          by_cases h3 : a + 1 = i
          · rw [if_pos h3, Clow a h3]
            have hCa := Clow a h3
            unfold Eig.wC
            by_cases h4 : a < j
            · rw [if_pos h4, if_pos h4, mul_zero, sub_zero, abs_zero]; linarith
            · rw [if_neg h4, if_neg h4, if_neg (by omega), if_neg (by omega), if_pos h3, ua h2]
              rw [if_neg h4] at hCa
              exact key8 hN.cErr (by rw [← hCa]; exact bC a (by omega))
          · rw [if_neg h3, hC]
            unfold Eig.wC
            rw [if_neg h1, if_neg h3, if_neg h2, if_neg (show ¬ a + 1 = i + 1 by omega), ua h2, sub_self, abs_zero]
            linarith
    · rw [hCs]
      dsimp only
      by_cases h2 : a = i + 1
      · rw [if_neg (by omega), if_pos h2, h2, hr]
        unfold Eig.wC
        rw [if_neg (by omega)]
        by_cases h3 : i + 1 < m
        · rw [if_pos h3, if_neg (by omega), if_neg (by omega), if_neg (by omega), ub]
        · rw [if_neg h3, if_pos (by omega)]
      · rw [if_neg (by omega), if_neg h2, if_neg (by omega), hC]
        unfold Eig.wC
        rw [if_neg (show ¬ a = i by omega), if_neg (show ¬ a + 1 = i by omega), if_neg h2,
          if_neg (show ¬ a + 1 = i + 1 by omega), ua h2]
    · have hi1 : i - 1 = a := by omega
      unfold Eig.wP
      rw [hi1, Clow a ha]
      have hCa := Clow a ha
      by_cases h4 : a < j
      · rw [if_pos h4, if_neg (by omega), mul_zero, sub_zero, abs_zero]; linarith
      · rw [if_neg h4, if_pos (by omega), ua (by omega)]
        rw [if_neg h4] at hCa
        exact key8 hN.sErr (by rw [← hCa]; exact bC a (by omega))
  have hG := Eig.G_orth (n := n) (i := i) (by omega) hN.one
  have g3 : fro ((Eig.G n i s' c')ᵀ * (mx n n (Eig.W D C3 (i + 1) (s' * r)) - mx n n (Eig.W D C (i + 1) P)) *
      Eig.G n i s' c') ≤ 3 * (9 * κ) := by
    rw [fro_right hG, fro_left (by rw [Matrix.transpose_transpose]; exact hG)]
    exact g1
  rw [hstep] at g2
  generalize mx n n (Eig.wM j m i (upd1 d (i + 1) (Flt.add (Flt.sub (d (i + 1)) u) (Flt.mul g.s t)))
          (upd1 e (i + 1) g.r) (Flt.sub (Flt.mul g.c t) (Flt.mul c (e i))) (Flt.mul g.s t) g.s g.c) = M' at *
  generalize mx n n (Eig.W D C3 (i + 1) (s' * r)) = M3 at *
  generalize mx n n (Eig.W D C (i + 1) P) = M at *
  generalize Eig.G n i s' c' = G at *
  have e1 : M' - Gᵀ * M * G = (M' - Gᵀ * M3 * G) + Gᵀ * (M3 - M) * G := by
    rw [Matrix.mul_sub, Matrix.sub_mul]; abel
  rw [e1]
  refine (fro_add_le _ _).trans ?_
  linarith

end Linear
