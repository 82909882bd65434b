import Verif.Proofs.Margin
import Verif.Proofs.GridSeeds
/-!
# Error bounds for the circumcentre and the circumradius at binary64
-/
namespace Verif.Proofs
open Verif Verif.F64 Verif.Tri2 Verif.Props

/-- one rounding, for larger errors -/
theorem app_round2 {w X S k b : ℚ} (hS : Scale S) (hk : k * uro ≤ 1 / 4) (hb : b ≤ 2 ^ 30 - 1) (he : |w - X| ≤ k * (uro * S)) (hX : |X| ≤ b * S) :
    |rnd w| < 2 ^ 1024 ∧ |rnd w - X| ≤ (k + b + 1 / 2) * (uro * S) := by
  have hp := hS.pos
  have hu := uro_pos
  have hw : |w| ≤ (b + k * uro) * S := by
    have e : w = X + (w - X) := by ring
    rw [e]
    refine (abs_add_le _ _).trans ?_
    have : (b + k * uro) * S = b * S + k * (uro * S) := by ring
    linarith
  have hw2 : |w| ≤ (b + 1 / 4) * S := hw.trans (mul_le_mul_of_nonneg_right (by linarith) hp.le)
  refine ⟨rnd_small (hw2.trans ?_), ?_⟩
  · calc (b + 1 / 4) * S ≤ 2 ^ 30 * S := mul_le_mul_of_nonneg_right (by linarith) hp.le
      _ ≤ 2 ^ 30 * 2 ^ 170 := mul_le_mul_of_nonneg_left hS.2 (by norm_num)
      _ ≤ 2 ^ 200 := by norm_num
  · have hr := rnd_abs_err w
    have ht := hS.tiny
    have h1 : uro * |w| ≤ (b + 1 / 4) * (uro * S) := by
      have := mul_le_mul_of_nonneg_left hw2 hu.le
      have e : uro * ((b + 1 / 4) * S) = (b + 1 / 4) * (uro * S) := by ring
      linarith
    have e : rnd w - X = (rnd w - w) + (w - X) := by ring
    rw [e]
    refine (abs_add_le _ _).trans ?_
    have e2 : (k + b + 1 / 2) * (uro * S) = k * (uro * S) + ((b + 1 / 4) * (uro * S) + 1 / 4 * (uro * S)) := by ring
    linarith

theorem App.sub2 {v w : F64} {X Y S k l b c : ℚ} (h : App v X S k b) (h' : App w Y S l c) (hS : Scale S) (hk : (k + l) * uro ≤ 1 / 4)
    (hb : b + c ≤ 2 ^ 30 - 1) : App (v - w) (X - Y) S (k + l + b + c + 1 / 2) (b + c) := by
  have he : |(v.toQ - w.toQ) - (X - Y)| ≤ (k + l) * (uro * S) := by
    have e : (v.toQ - w.toQ) - (X - Y) = (v.toQ - X) - (w.toQ - Y) := by ring
    rw [e]
    refine (abs_sub _ _).trans ?_
    have := h.err
    have := h'.err
    have e : (k + l) * (uro * S) = k * (uro * S) + l * (uro * S) := by ring
    linarith
  have hX : |X - Y| ≤ (b + c) * S := by
    refine (abs_sub _ _).trans ?_
    have := h.le
    have := h'.le
    have e : (b + c) * S = b * S + c * S := by ring
    linarith
  obtain ⟨r1, r2⟩ := app_round2 hS hk hb he hX
  obtain ⟨f, e⟩ := sub_fin h.fin h'.fin r1
  refine ⟨f, ?_, hX⟩
  rw [e]
  refine r2.trans (le_of_eq ?_); ring

theorem App.add2 {v w : F64} {X Y S k l b c : ℚ} (h : App v X S k b) (h' : App w Y S l c) (hS : Scale S) (hk : (k + l) * uro ≤ 1 / 4)
    (hb : b + c ≤ 2 ^ 30 - 1) : App (v + w) (X + Y) S (k + l + b + c + 1 / 2) (b + c) := by
  have := h.sub2 h'.neg hS hk hb
  rw [sub_neg_eq_add] at this
  have e : v - -w = v + w := by
    show F64.add v (F64.neg (F64.neg w)) = F64.add v w
    rw [neg_neg']
  rwa [e] at this

theorem App.mul2 {v w : F64} {X Y S R k l b c e : ℚ} (h : App v X S k b) (h' : App w Y R l c) (hS : Scale S) (hR : Scale R) (hSR : Scale (S * R))
    (hk : 0 ≤ k) (hb : 0 ≤ b) (he : k * l * uro ≤ e) (hs : (k * c + l * b + e) * uro ≤ 1 / 4) (hbc : b * c ≤ 2 ^ 30 - 1) :
    App (v * w) (X * Y) (S * R) (k * c + l * b + e + b * c + 1 / 2) (b * c) := by
  have hu := uro_pos
  have hSp := hS.pos
  have hRp := hR.pos
  have hw : |w.toQ| ≤ (c + l * uro) * R := by
    have e : w.toQ = Y + (w.toQ - Y) := by ring
    rw [e]
    refine (abs_add_le _ _).trans ?_
    have := h'.err
    have := h'.le
    have e : (c + l * uro) * R = c * R + l * (uro * R) := by ring
    linarith
  have he : |v.toQ * w.toQ - X * Y| ≤ (k * c + l * b + e) * (uro * (S * R)) := by
    have e0 : v.toQ * w.toQ - X * Y = (v.toQ - X) * w.toQ + X * (w.toQ - Y) := by ring
    rw [e0]
    refine (abs_add_le _ _).trans ?_
    rw [abs_mul, abs_mul]
    have h1 : |v.toQ - X| * |w.toQ| ≤ k * (uro * S) * ((c + l * uro) * R) :=
      mul_le_mul h.err hw (abs_nonneg _) (mul_nonneg hk (mul_nonneg hu.le hSp.le))
    have h2 : |X| * |w.toQ - Y| ≤ b * S * (l * (uro * R)) :=
      mul_le_mul h.le h'.err (abs_nonneg _) (mul_nonneg hb hSp.le)
    have h3 : k * l * uro * (uro * (S * R)) ≤ e * (uro * (S * R)) := mul_le_mul_of_nonneg_right he (by positivity)
    have e1 : k * (uro * S) * ((c + l * uro) * R) = k * c * (uro * (S * R)) + k * l * uro * (uro * (S * R)) := by ring
    have e2 : b * S * (l * (uro * R)) = l * b * (uro * (S * R)) := by ring
    have e3 : (k * c + l * b + e) * (uro * (S * R)) = k * c * (uro * (S * R)) + l * b * (uro * (S * R)) + e * (uro * (S * R)) := by ring
    linarith
  have hX : |X * Y| ≤ b * c * (S * R) := by
    rw [abs_mul]
    have := mul_le_mul h.le h'.le (abs_nonneg _) (mul_nonneg hb hSp.le)
    have e : b * S * (c * R) = b * c * (S * R) := by ring
    linarith
  obtain ⟨r1, r2⟩ := app_round2 hSR hs hbc he hX
  obtain ⟨f, e⟩ := mul_fin h.fin h'.fin r1
  refine ⟨f, ?_, hX⟩
  rw [e]
  exact r2

/-- a quotient whose divisor is at least a `1/κ`-th of its scale -/
theorem App.div2 {v w : F64} {X Y S R k l b κ : ℚ} {c : ℚ} (h : App v X (S * R) k b) (h' : App w Y R l c) (hS : Scale S) (hR : Scale R)
    (hk : 0 ≤ k) (hl : 0 ≤ l) (hb : 0 ≤ b) (hκ : 0 < κ) (hY : R ≤ κ * |Y|) (hlu : κ * (l * uro) ≤ 1 / 2)
    (hs : (2 * κ * k + 2 * κ * κ * l * b) * uro ≤ 1 / 4) (hbk : b * κ ≤ 2 ^ 30 - 1) :
    w.toQ ≠ 0 ∧ App (v / w) (X / Y) S (2 * κ * k + 2 * κ * κ * l * b + b * κ + 1 / 2) (b * κ) := by
  have hu := uro_pos
  have hSp := hS.pos
  have hRp := hR.pos
  have hY0 : 0 < |Y| := by
    by_contra h0
    have : |Y| = 0 := le_antisymm (not_lt.mp h0) (abs_nonneg _)
    rw [this, mul_zero] at hY; linarith
  have hwl : |Y| / 2 ≤ |w.toQ| := by
    have e1 : |Y| ≤ |w.toQ| + |w.toQ - Y| := by
      have := abs_sub w.toQ (w.toQ - Y)
      rwa [show w.toQ - (w.toQ - Y) = Y by ring] at this
    have e2 : |w.toQ - Y| ≤ |Y| / 2 := by
      refine h'.err.trans ?_
      have h1 : l * (uro * R) ≤ l * uro * (κ * |Y|) := by
        have := mul_le_mul_of_nonneg_left hY (mul_nonneg hl hu.le)
        have e : l * (uro * R) = l * uro * R := by ring
        linarith
      have h2 : l * uro * (κ * |Y|) = κ * (l * uro) * |Y| := by ring
      have h3 := mul_le_mul_of_nonneg_right hlu hY0.le
      linarith
    linarith
  have hw0 : 0 < |w.toQ| := by linarith
  have hw : w.toQ ≠ 0 := abs_pos.mp hw0
  have hY' : Y ≠ 0 := abs_pos.mp hY0
  have hX : |X / Y| ≤ b * κ * S := by
    rw [abs_div, div_le_iff₀ hY0]
    have h1 := h.le
    have h2 := mul_le_mul_of_nonneg_left hY (mul_nonneg hb hSp.le)
    have e1 : b * (S * R) = b * S * R := by ring
    have e2 : b * κ * S * |Y| = b * S * (κ * |Y|) := by ring
    linarith
  have hRw : R ≤ 2 * κ * |w.toQ| := by
    have := mul_le_mul_of_nonneg_left hwl hκ.le
    linarith
  have he : |v.toQ / w.toQ - X / Y| ≤ (2 * κ * k + 2 * κ * κ * l * b) * (uro * S) := by
    have e : v.toQ / w.toQ - X / Y = ((v.toQ - X) - X / Y * (w.toQ - Y)) / w.toQ := by
      field_simp; ring
    rw [e, abs_div, div_le_iff₀ hw0]
    refine (abs_sub _ _).trans ?_
    rw [abs_mul]
    have h1 := h.err
    have h2 : |X / Y| * |w.toQ - Y| ≤ b * κ * S * (l * (uro * R)) := mul_le_mul hX h'.err (abs_nonneg _) (by positivity)
    have h3 : k * (uro * (S * R)) ≤ k * (uro * S) * (2 * κ * |w.toQ|) := by
      have := mul_le_mul_of_nonneg_left hRw (mul_nonneg hk (mul_nonneg hu.le hSp.le))
      have e : k * (uro * (S * R)) = k * (uro * S) * R := by ring
      linarith
    have h4 : b * κ * S * (l * (uro * R)) ≤ b * κ * S * (l * uro) * (2 * κ * |w.toQ|) := by
      have := mul_le_mul_of_nonneg_left hRw (show 0 ≤ b * κ * S * (l * uro) by positivity)
      have e : b * κ * S * (l * (uro * R)) = b * κ * S * (l * uro) * R := by ring
      linarith
    have e2 : (2 * κ * k + 2 * κ * κ * l * b) * (uro * S) * |w.toQ| = k * (uro * S) * (2 * κ * |w.toQ|) + b * κ * S * (l * uro) * (2 * κ * |w.toQ|) := by ring
    linarith
  obtain ⟨r1, r2⟩ := app_round2 hS hs hbk he hX
  obtain ⟨f, e⟩ := div_fin h.fin h'.fin hw r1
  refine ⟨hw, f, ?_, hX⟩
  rw [e]
  exact r2

/-! ## The circumcentre -/

theorem scale_one : Scale 1 := by
  constructor
  · exact div_le_one_of_le₀ (one_le_pow₀ (by norm_num)) (by positivity)
  · exact one_le_pow₀ (by norm_num)

/-- what the powers of `κ` are good for -/
theorem kappa_pow {κ : ℚ} (hk1 : 1 ≤ κ) (hk2 : κ ≤ 1024) : κ ≤ κ ^ 2 ∧ 1 ≤ κ ^ 2 ∧ κ ^ 2 ≤ κ ^ 3 ∧ 1 ≤ κ ^ 3 ∧ κ ^ 2 ≤ 2 ^ 20 ∧ κ ^ 3 ≤ 2 ^ 30 ∧ κ ^ 4 ≤ 1024 * κ ^ 3 := by
  have h0 : 0 ≤ κ := by linarith
  have s : κ ≤ κ ^ 2 := by nlinarith
  have c : κ ^ 2 ≤ κ ^ 3 := by nlinarith
  have s2 : κ ^ 2 ≤ 2 ^ 20 := by
    have := pow_le_pow_left₀ h0 hk2 2
    norm_num at this ⊢; exact this
  have c2 : κ ^ 3 ≤ 2 ^ 30 := by
    have := pow_le_pow_left₀ h0 hk2 3
    norm_num at this ⊢; exact this
  refine ⟨s, by linarith, c, by linarith, s2, c2, ?_⟩
  have := mul_le_mul_of_nonneg_right hk2 (show 0 ≤ κ ^ 3 by positivity)
  have e : κ ^ 4 = κ * κ ^ 3 := by ring
  linarith

theorem uro_kappa {κ : ℚ} (hk1 : 1 ≤ κ) (hk2 : κ ≤ 1024) {m : ℚ} (hm' : m ≤ 2 ^ 20) : m * κ ^ 3 * uro ≤ 1 / 4 := by
  obtain ⟨_, _, _, _, _, c2, _⟩ := kappa_pow hk1 hk2
  have h1 : m * κ ^ 3 ≤ 2 ^ 20 * 2 ^ 30 := mul_le_mul hm' c2 (by positivity) (by norm_num)
  calc m * κ ^ 3 * uro ≤ 2 ^ 20 * 2 ^ 30 * uro := mul_le_mul_of_nonneg_right h1 uro_pos.le
    _ ≤ 1 / 4 := by unfold uro; norm_num

section
variable {M κ : ℚ} (h1 : 1 / 2 ^ 40 ≤ M) (h2 : M ≤ 2 ^ 40) (hk1 : 1 ≤ κ) (hk2 : κ ≤ 1024)
include h1 h2 hk1 hk2

/-- one coordinate of the vector from the first corner to the circumcentre -/
theorem quot_app {x y p q d : F64} {X Y P Q D : ℚ} (hx : App x X (M ^ 1) (5 / 2) 2) (hy : App y Y (M ^ 1) (5 / 2) 2) (hp : App p P (M ^ 2) 39 8)
    (hq : App q Q (M ^ 2) 39 8) (hd : App d D (M ^ 2) 39 8) (hD : M ^ 2 ≤ κ * |D|) :
    d.toQ ≠ 0 ∧ App ((x * p - y * q) * GoConst.const (1/2) / d) ((X * P - Y * Q) * (1 / 2) / D) (M ^ 1) (1561 * κ ^ 2) (16 * κ) := by
  have a1 := app_mul h1 h2 (by norm_num) hx hp (by norm_num) (by norm_num) (by norm_num) (by norm_num)
  have a2 := app_mul h1 h2 (by norm_num) hy hq (by norm_num) (by norm_num) (by norm_num) (by norm_num)
  have a3 := app_sub h1 h2 (by norm_num) a1 a2 (by norm_num) (by norm_num) (by norm_num) (by norm_num)
  have hh : App (GoConst.const (1/2) : F64) (1 / 2) 1 0 (1 / 2) := ⟨half_float.1, by rw [half_float.2]; norm_num, by norm_num⟩
  have s3 : Scale (M ^ (1 + 2)) := scale_pow h1 h2 (by norm_num)
  have a4 := a3.mul2 hh s3 scale_one (by rw [mul_one]; exact s3) (by norm_num) (by norm_num) (e := 0) (by norm_num)
    (by unfold uro; norm_num) (by norm_num)
  rw [mul_one] at a4
  have a5 : App ((x * p - y * q) * GoConst.const (1/2)) ((X * P - Y * Q) * (1 / 2)) (M ^ 1 * M ^ 2) 148 16 := by
    rw [← pow_add]
    exact a4.weaken s3 (by norm_num) (by norm_num)
  have hu := uro_pos
  obtain ⟨k1, k2, k3, k4, _, _, _⟩ := kappa_pow hk1 hk2
  have hκ : 0 < κ := by linarith
  have h39 : κ * (39 * uro) ≤ 1 / 2 := by
    calc κ * (39 * uro) ≤ 1024 * (39 * uro) := mul_le_mul_of_nonneg_right hk2 (by positivity)
      _ ≤ 1 / 2 := by unfold uro; norm_num
  have hbig := uro_kappa hk1 hk2 (m := 1544) (by norm_num)
  have e1 : 2 * κ * 148 + 2 * κ * κ * 39 * 16 = 296 * κ + 1248 * κ ^ 2 := by ring
  obtain ⟨hd0, a6⟩ := a5.div2 hd (scale_pow h1 h2 (by norm_num)) (scale_pow h1 h2 (by norm_num)) (by norm_num) (by norm_num) (by norm_num) hκ hD h39
    (le_trans (mul_le_mul_of_nonneg_right (by rw [e1]; linarith) hu.le) hbig) (by norm_num; linarith)
  refine ⟨hd0, a6.weaken (scale_pow h1 h2 (by norm_num)) (by rw [e1]; linarith) (by linarith)⟩

/-- the square of a coordinate relative to the circumcentre -/
theorem square_app {x : F64} {X m n : ℚ} (hm : 0 ≤ m) (hn : 0 ≤ n) (hm' : m ≤ 2000) (hn' : n ≤ 20) (hx : App x X (M ^ 1) (m * κ ^ 2) (n * κ)) :
    App (x * x) (X * X) (M ^ 2) ((2 * m * n + n * n + 2) * κ ^ 3) (n * n * κ ^ 2) := by
  obtain ⟨k1, k2, k3, k4, k5, _, k7⟩ := kappa_pow hk1 hk2
  have hu := uro_pos
  have hκ : 0 < κ := by linarith
  have hmn : m * n ≤ 2000 * 20 := mul_le_mul hm' hn' hn (by norm_num)
  have hnn : n * n ≤ 20 * 20 := mul_le_mul hn' hn' hn (by norm_num)
  have hmm : m * m ≤ 2000 * 2000 := mul_le_mul hm' hm' hm (by norm_num)
  have e1 : m * κ ^ 2 * (m * κ ^ 2) * uro ≤ κ ^ 3 := by
    have h1 : m * κ ^ 2 * (m * κ ^ 2) = m * m * κ ^ 4 := by ring
    rw [h1]
    have h2 : m * m * κ ^ 4 ≤ 2000 * 2000 * (1024 * κ ^ 3) := mul_le_mul hmm k7 (by positivity) (by norm_num)
    calc m * m * κ ^ 4 * uro ≤ 2000 * 2000 * (1024 * κ ^ 3) * uro := mul_le_mul_of_nonneg_right h2 hu.le
      _ = 2000 * 2000 * 1024 * uro * κ ^ 3 := by ring
      _ ≤ 1 * κ ^ 3 := mul_le_mul_of_nonneg_right (by unfold uro; norm_num) (by positivity)
      _ = κ ^ 3 := one_mul _
  have e2 : m * κ ^ 2 * (n * κ) + m * κ ^ 2 * (n * κ) + κ ^ 3 = (2 * (m * n) + 1) * κ ^ 3 := by ring
  have s1 := scale_pow h1 h2 (d := 1) (by norm_num)
  have s2 := scale_pow h1 h2 (d := 2) (by norm_num)
  have e3 : n * κ * (n * κ) = n * n * κ ^ 2 := by ring
  have := hx.mul2 hx s1 s1 (by rw [← pow_add]; exact s2) (by positivity) (by positivity) e1
    (by rw [e2]; exact uro_kappa hk1 hk2 (by norm_num; linarith))
    (by
      rw [e3]
      calc n * n * κ ^ 2 ≤ 20 * 20 * 2 ^ 20 := mul_le_mul hnn k5 (by positivity) (by norm_num)
        _ ≤ 2 ^ 30 - 1 := by norm_num)
  rw [← pow_add] at this
  refine this.weaken s2 ?_ (le_of_eq e3)
  rw [e2, e3]
  have h3 := mul_le_mul_of_nonneg_left k3 (mul_nonneg hn hn)
  have e4 : (2 * m * n + n * n + 2) * κ ^ 3 = (2 * (m * n) + 1) * κ ^ 3 + n * n * κ ^ 3 + κ ^ 3 := by ring
  rw [e4]; linarith

omit hk1 hk2 in
/-- the differences of the coordinates, the squared lengths and the determinant of `circumcenter` -/
theorem circum_parts {a b c : R3.Vector F64} (ha : Bounded M a) (hb : Bounded M b) (hc : Bounded M c) :
    (App (b.X - a.X) (b.X.toQ - a.X.toQ) (M ^ 1) (5 / 2) 2 ∧ App (b.Y - a.Y) (b.Y.toQ - a.Y.toQ) (M ^ 1) (5 / 2) 2) ∧
    App ((b.X - a.X) * (b.X - a.X) + (b.Y - a.Y) * (b.Y - a.Y)) (dist2 (exactV b) (exactV a)) (M ^ 2) 39 8 ∧
    App ((b.X - a.X) * (c.Y - a.Y) - (b.Y - a.Y) * (c.X - a.X)) (dOf (exactV a) (exactV b) (exactV c)) (M ^ 2) 39 8 := by
  obtain ⟨a1, a2, a3, a4⟩ := ha
  obtain ⟨b1, b2, b3, b4⟩ := hb
  obtain ⟨c1, c2, c3, c4⟩ := hc
  have dx := app_diff h1 h2 b1 a1 b3 a3
  have dy := app_diff h1 h2 b2 a2 b4 a4
  have ex := app_diff h1 h2 c1 a1 c3 a3
  have ey := app_diff h1 h2 c2 a2 c4 a4
  refine ⟨⟨dx, dy⟩, ?_, ?_⟩
  · have p := app_mul h1 h2 (by norm_num) dx dx (by norm_num) (by norm_num) (by norm_num) (by norm_num)
    have q := app_mul h1 h2 (by norm_num) dy dy (by norm_num) (by norm_num) (by norm_num) (by norm_num)
    have := app_add h1 h2 (by norm_num) p q (by norm_num) (by norm_num) (by norm_num) (by norm_num)
    have e : dist2 (exactV b) (exactV a) = (b.X.toQ - a.X.toQ) * (b.X.toQ - a.X.toQ) + (b.Y.toQ - a.Y.toQ) * (b.Y.toQ - a.Y.toQ) := by
      simp only [dist2, exactV]; ring
    rw [e]
    exact this.weaken (scale_pow h1 h2 (by norm_num)) (by norm_num) (by norm_num)
  · have p := app_mul h1 h2 (by norm_num) dx ey (by norm_num) (by norm_num) (by norm_num) (by norm_num)
    have q := app_mul h1 h2 (by norm_num) dy ex (by norm_num) (by norm_num) (by norm_num) (by norm_num)
    have := app_sub h1 h2 (by norm_num) p q (by norm_num) (by norm_num) (by norm_num) (by norm_num)
    exact this.weaken (scale_pow h1 h2 (by norm_num)) (by norm_num) (by norm_num)

/-- the coordinates of the circumcentre relative to the first corner -/
def relX (a b c : R3.Vector ℚ) : ℚ := ((c.Y - a.Y) * dist2 b a - (b.Y - a.Y) * dist2 c a) * (1 / 2) / dOf a b c
def relY (a b c : R3.Vector ℚ) : ℚ := ((b.X - a.X) * dist2 c a - (c.X - a.X) * dist2 b a) * (1 / 2) / dOf a b c

omit h1 h2 hk1 hk2 in
theorem center_rel (a b c : R3.Vector ℚ) : (circumcenter a b c).X = a.X + relX a b c ∧ (circumcenter a b c).Y = a.Y + relY a b c := by
  have hh : (GoConst.const (1/2) : ℚ) = 1 / 2 := by rw [goConst_field]; norm_num
  constructor
  · simp only [circumcenter, relX, dist2, dOf, hh]; ring
  · simp only [circumcenter, relY, dist2, dOf, hh]; ring

theorem circum_quots {a b c : R3.Vector F64} (ha : Bounded M a) (hb : Bounded M b) (hc : Bounded M c)
    (hD : M ^ 2 ≤ κ * |dOf (exactV a) (exactV b) (exactV c)|) :
    ((b.X - a.X) * (c.Y - a.Y) - (b.Y - a.Y) * (c.X - a.X)).toQ ≠ 0 ∧
    App (((c.Y - a.Y) * ((b.X - a.X) * (b.X - a.X) + (b.Y - a.Y) * (b.Y - a.Y)) - (b.Y - a.Y) * ((c.X - a.X) * (c.X - a.X) + (c.Y - a.Y) * (c.Y - a.Y)))
      * GoConst.const (1/2) / ((b.X - a.X) * (c.Y - a.Y) - (b.Y - a.Y) * (c.X - a.X))) (relX (exactV a) (exactV b) (exactV c)) (M ^ 1) (1561 * κ ^ 2) (16 * κ) ∧
    App (((b.X - a.X) * ((c.X - a.X) * (c.X - a.X) + (c.Y - a.Y) * (c.Y - a.Y)) - (c.X - a.X) * ((b.X - a.X) * (b.X - a.X) + (b.Y - a.Y) * (b.Y - a.Y)))
      * GoConst.const (1/2) / ((b.X - a.X) * (c.Y - a.Y) - (b.Y - a.Y) * (c.X - a.X))) (relY (exactV a) (exactV b) (exactV c)) (M ^ 1) (1561 * κ ^ 2) (16 * κ) := by
  obtain ⟨⟨dx, dy⟩, bl, dd⟩ := circum_parts h1 h2 ha hb hc
  obtain ⟨⟨ex, ey⟩, cl, _⟩ := circum_parts h1 h2 ha hc hb
  obtain ⟨hd0, qx⟩ := quot_app h1 h2 hk1 hk2 ey dy bl cl dd hD
  obtain ⟨_, qy⟩ := quot_app h1 h2 hk1 hk2 dx ex cl bl dd hD
  exact ⟨hd0, qx, qy⟩

/-- `circumcenter` -/
theorem center_app {a b c : R3.Vector F64} (ha : Bounded M a) (hb : Bounded M b) (hc : Bounded M c)
    (hD : M ^ 2 ≤ κ * |dOf (exactV a) (exactV b) (exactV c)|) :
    App (circumcenter a b c).X (circumcenter (exactV a) (exactV b) (exactV c)).X (M ^ 1) (1579 * κ ^ 2) (17 * κ) ∧
    App (circumcenter a b c).Y (circumcenter (exactV a) (exactV b) (exactV c)).Y (M ^ 1) (1579 * κ ^ 2) (17 * κ) := by
  obtain ⟨_, qx, qy⟩ := circum_quots h1 h2 hk1 hk2 ha hb hc hD
  obtain ⟨k1, k2, k3, k4, k5, _, k7⟩ := kappa_pow hk1 hk2
  have s1 := scale_pow h1 h2 (d := 1) (by norm_num)
  have hbig := uro_kappa hk1 hk2 (m := 1561) (by norm_num)
  have hbig2 : (0 + 1561 * κ ^ 2) * uro ≤ 1 / 4 := le_trans (mul_le_mul_of_nonneg_right (by linarith) uro_pos.le) hbig
  obtain ⟨a1, a2, a3, a4⟩ := ha
  rw [(center_rel _ _ _).1, (center_rel _ _ _).2]
  exact ⟨((app_coord a1 a3).add2 qx s1 hbig2 (by norm_num; linarith)).weaken s1 (by linarith) (by linarith),
    ((app_coord a2 a4).add2 qy s1 hbig2 (by norm_num; linarith)).weaken s1 (by linarith) (by linarith)⟩

/-- the squared radius, before it is tested against zero -/
theorem radius_app {a b c : R3.Vector F64} {x y : F64}
    (hx : App x (relX (exactV a) (exactV b) (exactV c)) (M ^ 1) (1561 * κ ^ 2) (16 * κ)) (hy : App y (relY (exactV a) (exactV b) (exactV c)) (M ^ 1) (1561 * κ ^ 2) (16 * κ)) :
    App (x * x + y * y) (dist2 (exactV a) (circumcenter (exactV a) (exactV b) (exactV c))) (M ^ 2) (101000 * κ ^ 3) (512 * κ ^ 2) := by
  obtain ⟨k1, k2, k3, k4, k5, _, k7⟩ := kappa_pow hk1 hk2
  have s2 := scale_pow h1 h2 (d := 2) (by norm_num)
  have p := square_app h1 h2 hk1 hk2 (by norm_num) (by norm_num) (by norm_num) (by norm_num) hx
  have q := square_app h1 h2 hk1 hk2 (by norm_num) (by norm_num) (by norm_num) (by norm_num) hy
  have hbig := uro_kappa hk1 hk2 (m := 100420) (by norm_num)
  have := p.add2 q s2 (le_trans (mul_le_mul_of_nonneg_right (by norm_num; linarith) uro_pos.le) hbig) (by norm_num at k5 ⊢; linarith)
  have e : dist2 (exactV a) (circumcenter (exactV a) (exactV b) (exactV c)) = relX (exactV a) (exactV b) (exactV c) * relX (exactV a) (exactV b) (exactV c) +
      relY (exactV a) (exactV b) (exactV c) * relY (exactV a) (exactV b) (exactV c) := by
    unfold dist2; rw [(center_rel _ _ _).1, (center_rel _ _ _).2]; ring
  rw [e]
  exact this.weaken s2 (by norm_num; linarith) (by norm_num; linarith)

omit hk1 hk2 in
/-- `SquaredDistance` between two points -/
theorem sqdist_app {v w : R3.Vector F64} (hv : Bounded M v) (hw : Bounded M w) (zv : v.Z = 0) (zw : w.Z = 0) :
    App (R3.SquaredDistance v w) (dist2 (exactV v) (exactV w)) (M ^ 2) 48 8 := by
  obtain ⟨_, bl, _⟩ := circum_parts h1 h2 hw hv hv
  have z : App ((0:F64) - 0 : F64) 0 (M ^ 2) 0 0 := ⟨by decide +kernel, by simp [show ((0:F64) - 0).toQ = 0 by decide +kernel], by simp⟩
  have zz : App (((0:F64) - 0) * (0 - 0)) 0 (M ^ 2) 0 0 := ⟨by decide +kernel, by simp [show (((0:F64) - 0) * (0 - 0)).toQ = 0 by decide +kernel], by simp⟩
  have := app_add h1 h2 (by norm_num) bl zz (by norm_num) (by norm_num) (by norm_num) (by norm_num)
  rw [add_zero] at this
  simp only [R3.SquaredDistance, R3.Vector.Norm2, R3.Dot, R3.Sub, zv, zw]
  exact this.weaken (scale_pow h1 h2 (by norm_num)) (by norm_num) (by norm_num)

/-- the squared distance to the computed circumcentre -/
theorem centre_dist_app {v o : R3.Vector F64} {c : R3.Vector ℚ} (hv : Bounded M v) (zv : v.Z = 0) (zo : o.Z = 0)
    (hx : App o.X c.X (M ^ 1) (1579 * κ ^ 2) (17 * κ)) (hy : App o.Y c.Y (M ^ 1) (1579 * κ ^ 2) (17 * κ)) :
    App (R3.SquaredDistance v o) (dist2 (exactV v) c) (M ^ 2) (117100 * κ ^ 3) (648 * κ ^ 2) := by
  obtain ⟨k1, k2, k3, k4, k5, _, k7⟩ := kappa_pow hk1 hk2
  have s1 := scale_pow h1 h2 (d := 1) (by norm_num)
  have s2 := scale_pow h1 h2 (d := 2) (by norm_num)
  obtain ⟨v1, v2, v3, v4⟩ := hv
  have hbig := uro_kappa hk1 hk2 (m := 1579) (by norm_num)
  have hbig2 : (0 + 1579 * κ ^ 2) * uro ≤ 1 / 4 := le_trans (mul_le_mul_of_nonneg_right (by linarith) uro_pos.le) hbig
  have dx := ((app_coord v1 v3).sub2 hx s1 hbig2 (by norm_num; linarith)).weaken s1 (k' := 1598 * κ ^ 2) (b' := 18 * κ) (by linarith) (by linarith)
  have dy := ((app_coord v2 v4).sub2 hy s1 hbig2 (by norm_num; linarith)).weaken s1 (k' := 1598 * κ ^ 2) (b' := 18 * κ) (by linarith) (by linarith)
  have p := square_app h1 h2 hk1 hk2 (by norm_num) (by norm_num) (by norm_num) (by norm_num) dx
  have q := square_app h1 h2 hk1 hk2 (by norm_num) (by norm_num) (by norm_num) (by norm_num) dy
  have zz : App (((0:F64) - 0) * (0 - 0)) 0 (M ^ 2) 0 0 := ⟨by decide +kernel, by simp [show (((0:F64) - 0) * (0 - 0)).toQ = 0 by decide +kernel], by simp⟩
  have hbig3 := uro_kappa hk1 hk2 (m := 117000) (by norm_num)
  have s := (p.add2 q s2 (le_trans (mul_le_mul_of_nonneg_right (by norm_num; linarith) uro_pos.le) hbig3) (by norm_num at k5 ⊢; linarith)).weaken s2
    (k' := 116400 * κ ^ 3) (b' := 648 * κ ^ 2) (by norm_num; linarith) (by norm_num; linarith)
  have t := s.add2 zz s2 (le_trans (mul_le_mul_of_nonneg_right (by linarith) uro_pos.le) hbig3) (by norm_num at k5 ⊢; linarith)
  have e : dist2 (exactV v) c = (v.X.toQ - c.X) * (v.X.toQ - c.X) + (v.Y.toQ - c.Y) * (v.Y.toQ - c.Y) + 0 := by
    simp only [dist2, exactV]; ring
  rw [e]
  simp only [R3.SquaredDistance, R3.Vector.Norm2, R3.Dot, R3.Sub, zv, zo]
  exact t.weaken s2 (by linarith) (by linarith)

end

end Verif.Proofs
