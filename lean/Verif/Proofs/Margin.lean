import Verif.Proofs.SignRun
/-!
# Error bounds for the area and the in-circle determinant at binary64
-/
namespace Verif.Proofs
open Verif Verif.F64 Verif.Tri2 Verif.Props

/-- `v` is finite and approximates `X` up to `k` units of `uro * S`, and `X` is at most `b * S` -/
structure App (v : F64) (X S k b : ℚ) : Prop where
  fin : v.Finite
  err : |v.toQ - X| ≤ k * (uro * S)
  le : |X| ≤ b * S

/-- a scale that is neither too small nor too large -/
def Scale (S : ℚ) : Prop := 1 / 2 ^ 170 ≤ S ∧ S ≤ 2 ^ 170

theorem Scale.pos {S : ℚ} (h : Scale S) : 0 < S := lt_of_lt_of_le (by positivity) h.1

theorem Scale.tiny {S : ℚ} (h : Scale S) : 1 / 2 ^ 1000 ≤ 1 / 4 * (uro * S) := by
  have h1 : (1:ℚ) / 2 ^ 1000 ≤ 1 / 4 * (uro * (1 / 2 ^ 170)) := by
    unfold uro
    rw [show (1:ℚ) / 4 * (1 / 2 ^ 53 * (1 / 2 ^ 170)) = 1 / 2 ^ 225 by norm_num]
    exact one_div_le_one_div_of_le (by positivity) (pow_le_pow_right₀ (by norm_num) (by norm_num))
  refine h1.trans ?_
  have := mul_le_mul_of_nonneg_left h.1 uro_pos.le
  linarith

/-- one rounding -/
theorem app_round {w X S k b : ℚ} (hS : Scale S) (hk : k ≤ 2 ^ 26) (hb : b ≤ 2 ^ 25) (he : |w - X| ≤ k * (uro * S)) (hX : |X| ≤ b * S) :
    |rnd w| < 2 ^ 1024 ∧ |rnd w - X| ≤ (k + b + 1 / 2) * (uro * S) := by
  have hp := hS.pos
  have hu := uro_pos
  have huS : 0 < uro * S := mul_pos hu hp
  have hw : |w| ≤ (b + k * uro) * S := by
    have e : w = X + (w - X) := by ring
    rw [e]
    refine (abs_add_le _ _).trans ?_
    have : (b + k * uro) * S = b * S + k * (uro * S) := by ring
    linarith
  have hku : k * uro ≤ 1 / 4 := by
    calc k * uro ≤ 2 ^ 26 * uro := mul_le_mul_of_nonneg_right hk hu.le
      _ ≤ 1 / 4 := by unfold uro; norm_num
  have hw2 : |w| ≤ (b + 1 / 4) * S := hw.trans (mul_le_mul_of_nonneg_right (by linarith) hp.le)
  refine ⟨rnd_small (hw2.trans ?_), ?_⟩
  · calc (b + 1 / 4) * S ≤ 2 ^ 26 * S := mul_le_mul_of_nonneg_right (by linarith) hp.le
      _ ≤ 2 ^ 26 * 2 ^ 170 := mul_le_mul_of_nonneg_left hS.2 (by norm_num)
      _ ≤ 2 ^ 200 := by norm_num
  · have hr := rnd_abs_err w
    have ht := hS.tiny
    have h1 : uro * |w| ≤ (b + 1 / 4) * (uro * S) := by
      have := mul_le_mul_of_nonneg_left hw2 hu.le
      have e : uro * ((b + 1 / 4) * S) = (b + 1 / 4) * (uro * S) := by ring
      linarith
    have e : rnd w - X = (rnd w - w) + (w - X) := by ring
    rw [e]
    refine (abs_add_le _ _).trans ?_
    have e2 : (k + b + 1 / 2) * (uro * S) = k * (uro * S) + ((b + 1 / 4) * (uro * S) + 1 / 4 * (uro * S)) := by ring
    linarith

theorem App.sub {v w : F64} {X Y S k l b c : ℚ} (h : App v X S k b) (h' : App w Y S l c) (hS : Scale S) (hk : 0 ≤ k ∧ k ≤ 2 ^ 20) (hl : 0 ≤ l ∧ l ≤ 2 ^ 20)
    (hb : b ≤ 2 ^ 20) (hc : c ≤ 2 ^ 20) : App (v - w) (X - Y) S (k + l + b + c + 1 / 2) (b + c) := by
  have he : |(v.toQ - w.toQ) - (X - Y)| ≤ (k + l) * (uro * S) := by
    have e : (v.toQ - w.toQ) - (X - Y) = (v.toQ - X) - (w.toQ - Y) := by ring
    rw [e]
    refine (abs_sub _ _).trans ?_
    have := h.err
    have := h'.err
    have e : (k + l) * (uro * S) = k * (uro * S) + l * (uro * S) := by ring
    linarith
  have hX : |X - Y| ≤ (b + c) * S := by
    refine (abs_sub _ _).trans ?_
    have := h.le
    have := h'.le
    have e : (b + c) * S = b * S + c * S := by ring
    linarith
  obtain ⟨r1, r2⟩ := app_round hS (by linarith) (by linarith) he hX
  obtain ⟨f, e⟩ := sub_fin h.fin h'.fin r1
  refine ⟨f, ?_, hX⟩
  rw [e]
  refine r2.trans (le_of_eq ?_); ring

theorem App.neg {v : F64} {X S k b : ℚ} (h : App v X S k b) : App (-v) (-X) S k b := by
  obtain ⟨f, e⟩ := neg_fin h.fin
  refine ⟨f, ?_, by rw [abs_neg]; exact h.le⟩
  rw [e, show -v.toQ - -X = -(v.toQ - X) by ring, abs_neg]; exact h.err

theorem App.add {v w : F64} {X Y S k l b c : ℚ} (h : App v X S k b) (h' : App w Y S l c) (hS : Scale S) (hk : 0 ≤ k ∧ k ≤ 2 ^ 20) (hl : 0 ≤ l ∧ l ≤ 2 ^ 20)
    (hb : b ≤ 2 ^ 20) (hc : c ≤ 2 ^ 20) : App (v + w) (X + Y) S (k + l + b + c + 1 / 2) (b + c) := by
  have := h.sub h'.neg hS hk hl hb hc
  rw [sub_neg_eq_add] at this
  have e : v - -w = v + w := by
    show F64.add v (F64.neg (F64.neg w)) = F64.add v w
    rw [neg_neg']
  rwa [e] at this

theorem App.mul {v w : F64} {X Y S R k l b c : ℚ} (h : App v X S k b) (h' : App w Y R l c) (hS : Scale S) (hR : Scale R) (hSR : Scale (S * R))
    (hk : 0 ≤ k ∧ k ≤ 2 ^ 12) (hl : 0 ≤ l ∧ l ≤ 2 ^ 12) (hb : 0 ≤ b ∧ b ≤ 2 ^ 12) (hc : 0 ≤ c ∧ c ≤ 2 ^ 12) :
    App (v * w) (X * Y) (S * R) (k * c + l * b + b * c + 1) (b * c) := by
  have hu := uro_pos
  have hSp := hS.pos
  have hRp := hR.pos
  have hw : |w.toQ| ≤ (c + l * uro) * R := by
    have e : w.toQ = Y + (w.toQ - Y) := by ring
    rw [e]
    refine (abs_add_le _ _).trans ?_
    have := h'.err
    have := h'.le
    have e : (c + l * uro) * R = c * R + l * (uro * R) := by ring
    linarith
  have hklu : k * l * uro ≤ 1 / 2 := by
    have h1 : k * l ≤ 2 ^ 12 * 2 ^ 12 := mul_le_mul hk.2 hl.2 hl.1 (by norm_num)
    calc k * l * uro ≤ 2 ^ 12 * 2 ^ 12 * uro := mul_le_mul_of_nonneg_right h1 hu.le
      _ ≤ 1 / 2 := by unfold uro; norm_num
  have he : |v.toQ * w.toQ - X * Y| ≤ (k * c + l * b + 1 / 2) * (uro * (S * R)) := by
    have e : v.toQ * w.toQ - X * Y = (v.toQ - X) * w.toQ + X * (w.toQ - Y) := by ring
    rw [e]
    refine (abs_add_le _ _).trans ?_
    rw [abs_mul, abs_mul]
    have h1 : |v.toQ - X| * |w.toQ| ≤ k * (uro * S) * ((c + l * uro) * R) :=
      mul_le_mul h.err hw (abs_nonneg _) (mul_nonneg hk.1 (mul_nonneg hu.le hSp.le))
    have h2 : |X| * |w.toQ - Y| ≤ b * S * (l * (uro * R)) :=
      mul_le_mul h.le h'.err (abs_nonneg _) (mul_nonneg hb.1 hSp.le)
    have h3 : k * l * uro * (uro * (S * R)) ≤ 1 / 2 * (uro * (S * R)) := mul_le_mul_of_nonneg_right hklu (by positivity)
    have e1 : k * (uro * S) * ((c + l * uro) * R) = k * c * (uro * (S * R)) + k * l * uro * (uro * (S * R)) := by ring
    have e2 : b * S * (l * (uro * R)) = l * b * (uro * (S * R)) := by ring
    have e3 : (k * c + l * b + 1 / 2) * (uro * (S * R)) = k * c * (uro * (S * R)) + l * b * (uro * (S * R)) + 1 / 2 * (uro * (S * R)) := by ring
    linarith
  have hX : |X * Y| ≤ b * c * (S * R) := by
    rw [abs_mul]
    have := mul_le_mul h.le h'.le (abs_nonneg _) (mul_nonneg hb.1 hSp.le)
    have e : b * S * (c * R) = b * c * (S * R) := by ring
    linarith
  have q1 : k * c ≤ 2 ^ 12 * 2 ^ 12 := mul_le_mul hk.2 hc.2 hc.1 (by norm_num)
  have q2 : l * b ≤ 2 ^ 12 * 2 ^ 12 := mul_le_mul hl.2 hb.2 hb.1 (by norm_num)
  have q3 : b * c ≤ 2 ^ 12 * 2 ^ 12 := mul_le_mul hb.2 hc.2 hc.1 (by norm_num)
  have q4 : 0 ≤ k * c := mul_nonneg hk.1 hc.1
  have q5 : 0 ≤ l * b := mul_nonneg hl.1 hb.1
  obtain ⟨r1, r2⟩ := app_round hSR (by norm_num at q1 q2 ⊢; linarith) (by norm_num at q3 ⊢; linarith) he hX
  obtain ⟨f, e⟩ := mul_fin h.fin h'.fin r1
  refine ⟨f, ?_, hX⟩
  rw [e]
  refine r2.trans (le_of_eq ?_); ring

theorem App.weaken {v : F64} {X S k b k' b' : ℚ} (h : App v X S k b) (hS : Scale S) (hk : k ≤ k') (hb : b ≤ b') : App v X S k' b' :=
  ⟨h.fin, h.err.trans (mul_le_mul_of_nonneg_right hk (mul_pos uro_pos hS.pos).le), h.le.trans (mul_le_mul_of_nonneg_right hb hS.pos.le)⟩

/-- the bound for the coordinates -/
def Bounded (M : ℚ) (v : R3.Vector F64) : Prop := v.X.Finite ∧ v.Y.Finite ∧ |v.X.toQ| ≤ M ∧ |v.Y.toQ| ≤ M

section
variable {M : ℚ} (h1 : 1 / 2 ^ 40 ≤ M) (h2 : M ≤ 2 ^ 40)
include h1 h2

theorem scale_pow {d : ℕ} (hd : d ≤ 4) : Scale (M ^ d) := by
  have h0 : 0 < M := lt_of_lt_of_le (by positivity) h1
  constructor
  · calc (1:ℚ) / 2 ^ 170 ≤ (1 / 2 ^ 40) ^ d := by interval_cases d <;> norm_num
      _ ≤ M ^ d := pow_le_pow_left₀ (by positivity) h1 d
  · calc M ^ d ≤ (2 ^ 40) ^ d := pow_le_pow_left₀ h0.le h2 d
      _ ≤ 2 ^ 170 := by interval_cases d <;> norm_num

omit h1 h2 in
theorem app_coord {x : F64} (hx : x.Finite) (hM : |x.toQ| ≤ M) : App x x.toQ (M ^ 1) 0 1 :=
  ⟨hx, by simp, by simpa using hM⟩

theorem app_diff {x y : F64} (hx : x.Finite) (hy : y.Finite) (hxM : |x.toQ| ≤ M) (hyM : |y.toQ| ≤ M) : App (x - y) (x.toQ - y.toQ) (M ^ 1) (5 / 2) 2 := by
  have := (app_coord hx hxM).sub (app_coord hy hyM) (scale_pow h1 h2 (by norm_num)) (by norm_num) (by norm_num) (by norm_num) (by norm_num)
  exact this.weaken (scale_pow h1 h2 (by norm_num)) (by norm_num) (by norm_num)

/-- a product of two approximations at the scales `M ^ i` and `M ^ j` -/
theorem app_mul {v w : F64} {X Y k l b c : ℚ} {i j : ℕ} (hij : i + j ≤ 4) (h : App v X (M ^ i) k b) (h' : App w Y (M ^ j) l c)
    (hk : 0 ≤ k ∧ k ≤ 2 ^ 12) (hl : 0 ≤ l ∧ l ≤ 2 ^ 12) (hb : 0 ≤ b ∧ b ≤ 2 ^ 12) (hc : 0 ≤ c ∧ c ≤ 2 ^ 12) :
    App (v * w) (X * Y) (M ^ (i + j)) (k * c + l * b + b * c + 1) (b * c) := by
  rw [pow_add]
  exact h.mul h' (scale_pow h1 h2 (by omega)) (scale_pow h1 h2 (by omega)) (by rw [← pow_add]; exact scale_pow h1 h2 hij) hk hl hb hc

theorem app_sub {v w : F64} {X Y k l b c : ℚ} {i : ℕ} (hi : i ≤ 4) (h : App v X (M ^ i) k b) (h' : App w Y (M ^ i) l c)
    (hk : 0 ≤ k ∧ k ≤ 2 ^ 20) (hl : 0 ≤ l ∧ l ≤ 2 ^ 20) (hb : b ≤ 2 ^ 20) (hc : c ≤ 2 ^ 20) :
    App (v - w) (X - Y) (M ^ i) (k + l + b + c + 1 / 2) (b + c) :=
  h.sub h' (scale_pow h1 h2 hi) hk hl hb hc

theorem app_add {v w : F64} {X Y k l b c : ℚ} {i : ℕ} (hi : i ≤ 4) (h : App v X (M ^ i) k b) (h' : App w Y (M ^ i) l c)
    (hk : 0 ≤ k ∧ k ≤ 2 ^ 20) (hl : 0 ≤ l ∧ l ≤ 2 ^ 20) (hb : b ≤ 2 ^ 20) (hc : c ≤ 2 ^ 20) :
    App (v + w) (X + Y) (M ^ i) (k + l + b + c + 1 / 2) (b + c) :=
  h.add h' (scale_pow h1 h2 hi) hk hl hb hc

/-- `area` -/
theorem area_app {a b c : R3.Vector F64} (ha : Bounded M a) (hb : Bounded M b) (hc : Bounded M c) :
    App (area a b c) (area (exactV a) (exactV b) (exactV c)) (M ^ 2) 39 8 := by
  unfold area
  obtain ⟨a1, a2, a3, a4⟩ := ha
  obtain ⟨b1, b2, b3, b4⟩ := hb
  obtain ⟨c1, c2, c3, c4⟩ := hc
  have p := app_mul h1 h2 (by norm_num) (app_diff h1 h2 b2 a2 b4 a4) (app_diff h1 h2 c1 b1 c3 b3) (by norm_num) (by norm_num) (by norm_num) (by norm_num)
  have q := app_mul h1 h2 (by norm_num) (app_diff h1 h2 b1 a1 b3 a3) (app_diff h1 h2 c2 b2 c4 b4) (by norm_num) (by norm_num) (by norm_num) (by norm_num)
  have := app_sub h1 h2 (by norm_num) p q (by norm_num) (by norm_num) (by norm_num) (by norm_num)
  exact this.weaken (scale_pow h1 h2 (by norm_num)) (by norm_num) (by norm_num)

/-- `inCircleDet` -/
theorem det_app {a b c d : R3.Vector F64} (ha : Bounded M a) (hb : Bounded M b) (hc : Bounded M c) (hd : Bounded M d) :
    App (inCircleDet a b c d) (inCircleDet (exactV a) (exactV b) (exactV c) (exactV d)) (M ^ 4) 2350 192 := by
  unfold inCircleDet
  obtain ⟨a1, a2, a3, a4⟩ := ha
  obtain ⟨b1, b2, b3, b4⟩ := hb
  obtain ⟨c1, c2, c3, c4⟩ := hc
  obtain ⟨d1, d2, d3, d4⟩ := hd
  have dx := app_diff h1 h2 a1 d1 a3 d3
  have dy := app_diff h1 h2 a2 d2 a4 d4
  have ex := app_diff h1 h2 b1 d1 b3 d3
  have ey := app_diff h1 h2 b2 d2 b4 d4
  have fx := app_diff h1 h2 c1 d1 c3 d3
  have fy := app_diff h1 h2 c2 d2 c4 d4
  have sq : ∀ {x y : F64} {X Y : ℚ}, App x X (M ^ 1) (5 / 2) 2 → App y Y (M ^ 1) (5 / 2) 2 → App (x * x + y * y) (X * X + Y * Y) (M ^ 2) 39 8 := by
    intro x y X Y hx hy
    have p := app_mul h1 h2 (by norm_num) hx hx (by norm_num) (by norm_num) (by norm_num) (by norm_num)
    have q := app_mul h1 h2 (by norm_num) hy hy (by norm_num) (by norm_num) (by norm_num) (by norm_num)
    have := app_add h1 h2 (by norm_num) p q (by norm_num) (by norm_num) (by norm_num) (by norm_num)
    exact this.weaken (scale_pow h1 h2 (by norm_num)) (by norm_num) (by norm_num)
  have cr : ∀ {x y z w : F64} {X Y Z W : ℚ}, App x X (M ^ 1) (5 / 2) 2 → App y Y (M ^ 1) (5 / 2) 2 → App z Z (M ^ 1) (5 / 2) 2 → App w W (M ^ 1) (5 / 2) 2 →
      App (x * y - z * w) (X * Y - Z * W) (M ^ 2) 39 8 := by
    intro x y z w X Y Z W hx hy hz hw
    have p := app_mul h1 h2 (by norm_num) hx hy (by norm_num) (by norm_num) (by norm_num) (by norm_num)
    have q := app_mul h1 h2 (by norm_num) hz hw (by norm_num) (by norm_num) (by norm_num) (by norm_num)
    have := app_sub h1 h2 (by norm_num) p q (by norm_num) (by norm_num) (by norm_num) (by norm_num)
    exact this.weaken (scale_pow h1 h2 (by norm_num)) (by norm_num) (by norm_num)
  have tw : ∀ {x y p q : F64} {X Y P Q : ℚ}, App x X (M ^ 1) (5 / 2) 2 → App y Y (M ^ 1) (5 / 2) 2 → App p P (M ^ 2) 39 8 → App q Q (M ^ 2) 39 8 →
      App (x * p - q * y) (X * P - Q * Y) (M ^ 3) (525 / 2) 32 := by
    intro x y p q X Y P Q hx hy hp hq
    have p := app_mul h1 h2 (by norm_num) hx hp (by norm_num) (by norm_num) (by norm_num) (by norm_num)
    have q := app_mul h1 h2 (by norm_num) hq hy (by norm_num) (by norm_num) (by norm_num) (by norm_num)
    have := app_sub h1 h2 (by norm_num) p q (by norm_num) (by norm_num) (by norm_num) (by norm_num)
    exact this.weaken (scale_pow h1 h2 (by norm_num)) (by norm_num) (by norm_num)
  have ap := sq dx dy
  have bp := sq ex ey
  have cp := sq fx fy
  have t1 := app_mul h1 h2 (by norm_num) dx (tw ey fy cp bp) (by norm_num) (by norm_num) (by norm_num) (by norm_num)
  have t2 := app_mul h1 h2 (by norm_num) dy (tw ex fx cp bp) (by norm_num) (by norm_num) (by norm_num) (by norm_num)
  have t3 := app_mul h1 h2 (by norm_num) ap (cr ex fy ey fx) (by norm_num) (by norm_num) (by norm_num) (by norm_num)
  have s1 := app_sub h1 h2 (by norm_num) t1 t2 (by norm_num) (by norm_num) (by norm_num) (by norm_num)
  have := app_add h1 h2 (by norm_num) s1 t3 (by norm_num) (by norm_num) (by norm_num) (by norm_num)
  exact this.weaken (scale_pow h1 h2 (by norm_num)) (by norm_num) (by norm_num)

end

/-- a quantity further from zero than the error has the right sign -/
theorem App.sign {v : F64} {X S k b : ℚ} (h : App v X S k b) (hX : k * (uro * S) < |X|) : (v < 0 ↔ X < 0) ∧ (0 < v ↔ 0 < X) := by
  have h0 : (0 : F64).toQ = 0 := rfl
  have z0 : (0 : F64).Finite := trivial
  rw [lt_fin h.fin z0, lt_fin z0 h.fin, h0]
  obtain ⟨e1, e2⟩ := abs_le.mp h.err
  rcases lt_abs.mp hX with hX | hX
  · constructor <;> constructor <;> intro _ <;> linarith
  · constructor <;> constructor <;> intro _ <;> linarith

theorem eqZ_of_toQ {x y : F64} (hx : x.Finite) (hy : y.Finite) (h : x.toQ = y.toQ) : EqZ x y := by
  by_cases h0 : x.toQ = 0
  · have key : ∀ z : F64, z.Finite → z.toQ = 0 → ∃ s, z = zero s := by
      intro z hz hz0
      cases z with
      | nan => exact hz.elim
      | inf s => exact hz.elim
      | zero s => exact ⟨s, rfl⟩
      | fin q hq => exact absurd hz0 hq.1
    obtain ⟨s, rfl⟩ := key x hx h0
    obtain ⟨t, rfl⟩ := key y hy (h ▸ h0)
    exact Or.inr ⟨s, t, rfl, rfl⟩
  · exact Or.inl (toQ_inj hx hy h h0)

theorem zn_toQ {x : F64} (h : ZN x) : x.toQ = 0 := by
  rcases h with rfl | ⟨s, rfl⟩ <;> rfl

theorem toQ_eqZ {x y : F64} (h : EqZ x y) : x.toQ = y.toQ := by
  rcases h with rfl | ⟨s, t, rfl, rfl⟩ <;> rfl

/-- the computed area of a triangle with two corners at the same position is zero -/
theorem area_same {a b c : R3.Vector F64} (h : SameZ a b ∨ SameZ b c ∨ SameZ c a) : (area a b c).toQ = 0 := by
  have rf : ∀ v : R3.Vector F64, SameZ v v := fun v => ⟨EqZ.refl _, EqZ.refl _⟩
  rcases h with h | h | h
  · rw [toQ_eqZ (area_eqZ h (rf b) (rf c))]
    exact zn_toQ (((zn_self b.Y).mul _).sub ((zn_self b.X).mul _))
  · rw [toQ_eqZ (area_eqZ (rf a) h (rf c))]
    unfold area
    rw [mul_comm' (c.Y - a.Y), mul_comm' (c.X - a.X)]
    exact zn_toQ (((zn_self c.X).mul _).sub ((zn_self c.Y).mul _))
  · rw [toQ_eqZ (area_eqZ (rf a) (rf b) h)]
    unfold area
    have h1 := EqZ.mul_left (b.Y - a.Y) (sub_anti a.X b.X)
    have h2 := EqZ.mul_left (b.X - a.X) (sub_anti a.Y b.Y)
    rw [neg_mul_comm'] at h2
    exact zn_toQ (EqZ.zn h1 h2)

/-- the points are well apart from degenerate positions: coordinates at most `M`, no three points at different positions nearly on a line, no four nearly
on a circle. The bounds are the errors of the computed area and determinant -/
structure Margin (Vs : List (R3.Vector F64)) (M : ℚ) : Prop where
  low : 1 / 2 ^ 40 ≤ M
  high : M ≤ 2 ^ 40
  size : ∀ v ∈ Vs, |v.X.toQ| ≤ M ∧ |v.Y.toQ| ≤ M
  line : ∀ a ∈ Vs, ∀ b ∈ Vs, ∀ c ∈ Vs, exactV a ≠ exactV b → exactV b ≠ exactV c → exactV c ≠ exactV a →
    39 / 2 ^ 53 * M ^ 2 < |area (exactV a) (exactV b) (exactV c)|
  circle : ∀ a ∈ Vs, ∀ b ∈ Vs, ∀ c ∈ Vs, ∀ d ∈ Vs, exactV a ≠ exactV b → exactV a ≠ exactV c → exactV a ≠ exactV d → exactV b ≠ exactV c →
    exactV b ≠ exactV d → exactV c ≠ exactV d → 2350 / 2 ^ 53 * M ^ 4 < |inCircleDet (exactV a) (exactV b) (exactV c) (exactV d)|

section
variable {Vs : List (R3.Vector F64)} {M : ℚ} (hfin : FinitePlanar Vs) (hM : Margin Vs M)
include hfin hM

theorem Margin.bounded {v : R3.Vector F64} (hv : v ∈ Vs) : Bounded M v :=
  ⟨(hfin v hv).1, (hfin v hv).2.1, (hM.size v hv).1, (hM.size v hv).2⟩

/-- the in-circle test is right for four points at different positions -/
theorem Margin.inCircle {a b c d : R3.Vector F64} (ha : a ∈ Vs) (hb : b ∈ Vs) (hc : c ∈ Vs) (hd : d ∈ Vs) (n1 : exactV a ≠ exactV b) (n2 : exactV a ≠ exactV c)
    (n3 : exactV a ≠ exactV d) (n4 : exactV b ≠ exactV c) (n5 : exactV b ≠ exactV d) (n6 : exactV c ≠ exactV d) :
    Tri2.inCircle a b c d = Tri2.inCircle (exactV a) (exactV b) (exactV c) (exactV d) := by
  have h := det_app hM.low hM.high (hM.bounded hfin ha) (hM.bounded hfin hb) (hM.bounded hfin hc) (hM.bounded hfin hd)
  have hm := hM.circle a ha b hb c hc d hd n1 n2 n3 n4 n5 n6
  have := (h.sign (by unfold uro; linarith)).1
  unfold Tri2.inCircle
  rw [decide_eq_decide]; exact this

theorem Margin.signs : SignsRight Vs := by
  have h0 : (0 : F64).toQ = 0 := rfl
  have z0 : (0 : F64).Finite := trivial
  have same : ∀ a ∈ Vs, ∀ b ∈ Vs, exactV a = exactV b → SameZ a b := by
    intro a ha b hb e
    exact ⟨eqZ_of_toQ (hfin a ha).1 (hfin b hb).1 (congrArg R3.Vector.X e), eqZ_of_toQ (hfin a ha).2.1 (hfin b hb).2.1 (congrArg R3.Vector.Y e)⟩
  constructor
  · intro a ha b hb c hc
    have h := area_app hM.low hM.high (hM.bounded hfin ha) (hM.bounded hfin hb) (hM.bounded hfin hc)
    refine ⟨h.fin, ?_⟩
    by_cases hd : exactV a ≠ exactV b ∧ exactV b ≠ exactV c ∧ exactV c ≠ exactV a
    · have hm := hM.line a ha b hb c hc hd.1 hd.2.1 hd.2.2
      exact h.sign (by unfold uro; linarith)
    · have hd' : exactV a = exactV b ∨ exactV b = exactV c ∨ exactV c = exactV a := by
        by_contra hn
        exact hd ⟨fun e => hn (Or.inl e), fun e => hn (Or.inr (Or.inl e)), fun e => hn (Or.inr (Or.inr e))⟩
      have hz : (Tri2.area a b c).toQ = 0 := by
        refine area_same ?_
        rcases hd' with e | e | e
        · exact Or.inl (same a ha b hb e)
        · exact Or.inr (Or.inl (same b hb c hc e))
        · exact Or.inr (Or.inr (same c hc a ha e))
      have he : Tri2.area (exactV a) (exactV b) (exactV c) = 0 := by
        unfold Tri2.area
        rcases hd' with e | e | e
        · rw [e]; ring
        · rw [e]; ring
        · rw [e]; ring
      rw [lt_fin h.fin z0, lt_fin z0 h.fin, h0, hz, he]
      exact ⟨Iff.rfl, Iff.rfl⟩
  · intro a ha b hb c hc d hd p1 p2
    have ne : ∀ {x y z : R3.Vector ℚ}, 0 < Tri2.area x y z → x ≠ y ∧ x ≠ z ∧ y ≠ z := by
      intro x y z h
      refine ⟨?_, ?_, ?_⟩
      · rintro rfl; rw [show Tri2.area x x z = 0 by unfold Tri2.area; ring] at h; exact lt_irrefl _ h
      · rintro rfl; rw [show Tri2.area x y x = 0 by unfold Tri2.area; ring] at h; exact lt_irrefl _ h
      · rintro rfl; rw [show Tri2.area x y y = 0 by unfold Tri2.area; ring] at h; exact lt_irrefl _ h
    obtain ⟨a1, a2, a3⟩ := ne p1
    obtain ⟨b1, b2, _⟩ := ne p2
    refine hM.inCircle hfin ha hb hc hd a1 a2 ?_ a3 b2.symm b1.symm
    intro e
    rw [← e] at p2
    have : Tri2.area (exactV a) (exactV c) (exactV b) = - Tri2.area (exactV a) (exactV b) (exactV c) := by unfold Tri2.area; ring
    linarith

/-- the tests of the program find the seed circle empty if it is -/
theorem Margin.emptySeed (hd : (Vs.map exactV).Nodup) {i0 i1 i2 : ℕ} (d01 : i0 ≠ i1) (d12 : i1 ≠ i2) (d20 : i2 ≠ i0)
    (hemp : ∀ p0 p1 p2, Vs[i0]? = some p0 → Vs[i1]? = some p1 → Vs[i2]? = some p2 → ∀ v ∈ Vs, 0 ≤ inCircleDet (exactV p0) (exactV p1) (exactV p2) (exactV v)) :
    EmptySeed Vs i0 i1 i2 := by
  intro p n0 n1 n2 v v0 v1 v2 hv g0 g1 g2
  have ne : ∀ {i j : ℕ} {x y : R3.Vector F64}, i ≠ j → Vs[i]? = some x → Vs[j]? = some y → exactV x ≠ exactV y := by
    intro i j x y hij hx hy e
    have hx' : (Vs.map exactV)[i]? = some (exactV x) := by simp [hx]
    have hy' : (Vs.map exactV)[j]? = some (exactV y) := by simp [hy]
    obtain ⟨li, ei⟩ := List.getElem?_eq_some_iff.mp hx'
    obtain ⟨lj, ej⟩ := List.getElem?_eq_some_iff.mp hy'
    exact hij ((List.Nodup.getElem_inj_iff hd).mp (ei.trans (e.trans ej.symm)))
  have he := hemp v0 v1 v2 g0 g1 g2 v (List.mem_of_getElem? hv)
  have mv := List.mem_of_getElem? hv
  have m0 := List.mem_of_getElem? g0
  have m1 := List.mem_of_getElem? g1
  have m2 := List.mem_of_getElem? g2
  have a0 := ne n0 hv g0
  have a1 := ne n1 hv g1
  have a2 := ne n2 hv g2
  have b01 := ne d01 g0 g1
  have b12 := ne d12 g1 g2
  have b20 := ne d20 g2 g0
  refine ⟨?_, ?_, ?_⟩
  · rw [hM.inCircle hfin mv m1 m0 m2 a1 a0 a2 b01.symm b12 b20.symm]
    unfold Tri2.inCircle
    rw [show inCircleDet (exactV v) (exactV v1) (exactV v0) (exactV v2) = inCircleDet (exactV v0) (exactV v1) (exactV v2) (exactV v) by simp only [inCircleDet]; ring]
    simpa using he
  · rw [hM.inCircle hfin mv m2 m1 m0 a2 a1 a0 b12.symm b20 b01.symm]
    unfold Tri2.inCircle
    rw [show inCircleDet (exactV v) (exactV v2) (exactV v1) (exactV v0) = inCircleDet (exactV v0) (exactV v1) (exactV v2) (exactV v) by simp only [inCircleDet]; ring]
    simpa using he
  · rw [hM.inCircle hfin mv m0 m2 m1 a0 a2 a1 b20.symm b01 b12.symm]
    unfold Tri2.inCircle
    rw [show inCircleDet (exactV v) (exactV v0) (exactV v2) (exactV v1) = inCircleDet (exactV v0) (exactV v1) (exactV v2) (exactV v) by simp only [inCircleDet]; ring]
    simpa using he

end

end Verif.Proofs

namespace Verif.Proofs
open Verif Verif.F64 Verif.Tri2 Verif.Props

/-! ## Coordinates on a dyadic grid -/

/-- `x` is the float `n * 2^e`, with `n` at most `b` in size -/
structure Dy (x : F64) (n : ℤ) (b : ℕ) (e : ℤ) : Prop where
  fin : x.Finite
  val : x.toQ = n * 2 ^ e
  le : |n| ≤ b

theorem rnd_dy {n e : ℤ} (h : |n| < 2 ^ 53) (h1 : -1000 ≤ e) (h2 : e ≤ 800) : rnd ((n:ℚ) * 2 ^ e) = n * 2 ^ e ∧ |(n:ℚ) * 2 ^ e| < 2 ^ 1024 := by
  constructor
  · have := rnd_id (K := ℚ) (q := n * 2 ^ e) ⟨n, e, h, by omega, by simp⟩
    simpa using this
  · have hn : |(n:ℚ)| < 2 ^ 53 := by exact_mod_cast h
    have hp : (0:ℚ) < 2 ^ e := by positivity
    rw [abs_mul, abs_of_pos hp]
    have h3 : (2:ℚ) ^ e ≤ 2 ^ (800 : ℤ) := zpow_le_zpow_right₀ (by norm_num) h2
    have h4 : (2:ℚ) ^ (800 : ℤ) = 2 ^ 800 := zpow_natCast 2 800
    calc |(n:ℚ)| * 2 ^ e < 2 ^ 53 * 2 ^ e := mul_lt_mul_of_pos_right hn hp
      _ ≤ 2 ^ 53 * 2 ^ 800 := mul_le_mul_of_nonneg_left (h4 ▸ h3) (by positivity)
      _ = 2 ^ 853 := by rw [← pow_add]
      _ ≤ 2 ^ 1024 := pow_le_pow_right₀ (by norm_num) (by norm_num)

section
variable {x y : F64} {n m : ℤ} {b c : ℕ} {e f : ℤ}

theorem Dy.add (hx : Dy x n b e) (hy : Dy y m c e) (h : b + c < 2 ^ 53) (h1 : -1000 ≤ e) (h2 : e ≤ 800) : Dy (x + y) (n + m) (b + c) e := by
  have hle : |n + m| ≤ ((b + c : ℕ) : ℤ) := by push_cast; exact (abs_add_le n m).trans (add_le_add hx.le hy.le)
  obtain ⟨r1, r2⟩ := rnd_dy (hle.trans_lt (by exact_mod_cast h)) h1 h2
  have e1 : x.toQ + y.toQ = ((n + m : ℤ) : ℚ) * 2 ^ e := by rw [hx.val, hy.val]; push_cast; ring
  obtain ⟨f, v⟩ := add_fin hx.fin hy.fin (by rw [e1, r1]; exact r2)
  exact ⟨f, by rw [v, e1, r1], hle⟩

theorem Dy.sub (hx : Dy x n b e) (hy : Dy y m c e) (h : b + c < 2 ^ 53) (h1 : -1000 ≤ e) (h2 : e ≤ 800) : Dy (x - y) (n - m) (b + c) e := by
  have hle : |n - m| ≤ ((b + c : ℕ) : ℤ) := by push_cast; exact (abs_sub n m).trans (add_le_add hx.le hy.le)
  obtain ⟨r1, r2⟩ := rnd_dy (hle.trans_lt (by exact_mod_cast h)) h1 h2
  have e1 : x.toQ - y.toQ = ((n - m : ℤ) : ℚ) * 2 ^ e := by rw [hx.val, hy.val]; push_cast; ring
  obtain ⟨f, v⟩ := sub_fin hx.fin hy.fin (by rw [e1, r1]; exact r2)
  exact ⟨f, by rw [v, e1, r1], hle⟩

theorem Dy.mul (hx : Dy x n b e) (hy : Dy y m c f) (h : b * c < 2 ^ 53) (h1 : -1000 ≤ e + f) (h2 : e + f ≤ 800) : Dy (x * y) (n * m) (b * c) (e + f) := by
  have hle : |n * m| ≤ ((b * c : ℕ) : ℤ) := by push_cast; rw [abs_mul]; exact mul_le_mul hx.le hy.le (abs_nonneg _) (by positivity)
  obtain ⟨r1, r2⟩ := rnd_dy (hle.trans_lt (by exact_mod_cast h)) h1 h2
  have e1 : x.toQ * y.toQ = ((n * m : ℤ) : ℚ) * 2 ^ (e + f) := by rw [hx.val, hy.val, zpow_add₀ (by norm_num)]; push_cast; ring
  obtain ⟨f, v⟩ := mul_fin hx.fin hy.fin (by rw [e1, r1]; exact r2)
  exact ⟨f, by rw [v, e1, r1], hle⟩

end

/-- the point `v` is `a * 2^e` with `a` at most 2048 in size -/
def DPt (e : ℤ) (v : R3.Vector F64) (a : R3.Vector ℤ) : Prop := Dy v.X a.X 2048 e ∧ Dy v.Y a.Y 2048 e

section
variable {e : ℤ} (h1 : -250 ≤ e) (h2 : e ≤ 200) {u v w p : R3.Vector F64} {a b c d : R3.Vector ℤ}
include h1 h2

theorem dpt_area (hu : DPt e u a) (hv : DPt e v b) (hw : DPt e w c) : Dy (area u v w) (area a b c) (2 ^ 25) (e + e) :=
  (((hv.2.sub hu.2 (by norm_num) (by omega) (by omega)).mul (hw.1.sub hv.1 (by norm_num) (by omega) (by omega)) (by norm_num) (by omega) (by omega)).sub
    ((hv.1.sub hu.1 (by norm_num) (by omega) (by omega)).mul (hw.2.sub hv.2 (by norm_num) (by omega) (by omega)) (by norm_num) (by omega) (by omega))
    (by norm_num) (by omega) (by omega))

theorem dpt_det (hu : DPt e u a) (hv : DPt e v b) (hw : DPt e w c) (hp : DPt e p d) : ∃ B, Dy (inCircleDet u v w p) (inCircleDet a b c d) B (e + (e + (e + e))) := by
  have dx := hu.1.sub hp.1 (by norm_num) (by omega) (by omega)
  have dy := hu.2.sub hp.2 (by norm_num) (by omega) (by omega)
  have ex := hv.1.sub hp.1 (by norm_num) (by omega) (by omega)
  have ey := hv.2.sub hp.2 (by norm_num) (by omega) (by omega)
  have fx := hw.1.sub hp.1 (by norm_num) (by omega) (by omega)
  have fy := hw.2.sub hp.2 (by norm_num) (by omega) (by omega)
  have ap := (dx.mul dx (by norm_num) (by omega) (by omega)).add (dy.mul dy (by norm_num) (by omega) (by omega)) (by norm_num) (by omega) (by omega)
  have bp := (ex.mul ex (by norm_num) (by omega) (by omega)).add (ey.mul ey (by norm_num) (by omega) (by omega)) (by norm_num) (by omega) (by omega)
  have cp := (fx.mul fx (by norm_num) (by omega) (by omega)).add (fy.mul fy (by norm_num) (by omega) (by omega)) (by norm_num) (by omega) (by omega)
  have cr := (ex.mul fy (by norm_num) (by omega) (by omega)).sub (ey.mul fx (by norm_num) (by omega) (by omega)) (by norm_num) (by omega) (by omega)
  have q : e + e + e = e + (e + e) := by ring
  have q2 : e + e + (e + e) = e + (e + (e + e)) := by ring
  have t1 := (ey.mul cp (by norm_num) (by omega) (by omega)).sub (q ▸ bp.mul fy (by norm_num) (by omega) (by omega)) (by norm_num) (by omega) (by omega)
  have t2 := (ex.mul cp (by norm_num) (by omega) (by omega)).sub (q ▸ bp.mul fx (by norm_num) (by omega) (by omega)) (by norm_num) (by omega) (by omega)
  exact ⟨_, (((dx.mul t1 (by norm_num) (by omega) (by omega)).sub (dy.mul t2 (by norm_num) (by omega) (by omega)) (by norm_num) (by omega) (by omega)).add
    (q2 ▸ ap.mul cr (by norm_num) (by omega) (by omega)) (by norm_num) (by omega) (by omega))⟩

end

theorem mul_neg_pos_iff {a b : ℚ} (h : 0 < b) : a * b < 0 ↔ a < 0 := by
  simp [mul_neg_iff, h, not_lt.mpr h.le]

theorem Dy.neg_iff {x : F64} {n : ℤ} {b : ℕ} {e : ℤ} (h : Dy x n b e) : (x < 0 ↔ n < 0) ∧ (0 < x ↔ 0 < n) := by
  have h0 : (0 : F64).toQ = 0 := rfl
  have z0 : (0 : F64).Finite := trivial
  have hp : (0:ℚ) < 2 ^ e := by positivity
  rw [lt_fin h.fin z0, lt_fin z0 h.fin, h0, h.val]
  constructor
  · rw [mul_neg_pos_iff hp]; exact_mod_cast Iff.rfl
  · rw [mul_pos_iff_of_pos_right hp]; exact_mod_cast Iff.rfl

/-- all coordinates are multiples of `2^e` by integers of size at most 2048 -/
def Dyadic (Vs : List (R3.Vector F64)) (e : ℤ) : Prop := ∀ v ∈ Vs, v.X.Finite ∧ v.Y.Finite ∧ ∃ n m : ℤ, |n| ≤ 2048 ∧ |m| ≤ 2048 ∧ v.X.toQ = n * 2 ^ e ∧ v.Y.toQ = m * 2 ^ e

theorem dyadic_signs {Vs : List (R3.Vector F64)} {e : ℤ} (h1 : -250 ≤ e) (h2 : e ≤ 200) (h : Dyadic Vs e) : SignsRight Vs := by
  have get : ∀ v ∈ Vs, ∃ a, DPt e v a := by
    intro v hv
    obtain ⟨f1, f2, n, m, b1, b2, e1, e2⟩ := h v hv
    exact ⟨⟨n, m, 0⟩, ⟨f1, e1, by exact_mod_cast b1⟩, ⟨f2, e2, by exact_mod_cast b2⟩⟩
  have hp : (0:ℚ) < 2 ^ e := by positivity
  constructor
  · intro a ha b hb c hc
    obtain ⟨a', ha⟩ := get a ha
    obtain ⟨b', hb⟩ := get b hb
    obtain ⟨c', hc⟩ := get c hc
    have hA := dpt_area h1 h2 ha hb hc
    obtain ⟨s1, s2⟩ := hA.neg_iff
    have ee : area (exactV a) (exactV b) (exactV c) = ((area a' b' c' : ℤ) : ℚ) * (2 ^ e * 2 ^ e) := by
      unfold exactV
      rw [ha.1.val, ha.2.val, hb.1.val, hb.2.val, hc.1.val, hc.2.val]
      simp only [area]; push_cast; ring
    refine ⟨hA.fin, ?_, ?_⟩
    · rw [s1, ee, mul_neg_pos_iff (mul_pos hp hp)]; exact_mod_cast Iff.rfl
    · rw [s2, ee, mul_pos_iff_of_pos_right (mul_pos hp hp)]; exact_mod_cast Iff.rfl
  · intro a ha b hb c hc d hd _ _
    obtain ⟨a', ha⟩ := get a ha
    obtain ⟨b', hb⟩ := get b hb
    obtain ⟨c', hc⟩ := get c hc
    obtain ⟨d', hd⟩ := get d hd
    obtain ⟨B, hA⟩ := dpt_det h1 h2 ha hb hc hd
    obtain ⟨s1, _⟩ := hA.neg_iff
    have ee : inCircleDet (exactV a) (exactV b) (exactV c) (exactV d) = ((inCircleDet a' b' c' d' : ℤ) : ℚ) * (2 ^ e * (2 ^ e * (2 ^ e * 2 ^ e))) := by
      unfold exactV
      rw [ha.1.val, ha.2.val, hb.1.val, hb.2.val, hc.1.val, hc.2.val, hd.1.val, hd.2.val]
      simp only [inCircleDet]; push_cast; ring
    unfold inCircle
    rw [decide_eq_decide, s1, ee, mul_neg_pos_iff (by positivity)]; exact_mod_cast Iff.rfl

end Verif.Proofs
