import Verif.Proofs.GridFloat
import Verif.Props.Nurbs
/-!
# Float64 error bounds for the B-spline basis functions

`Near x X a t`: the float `x` is finite, not negative, and within `a * X + t` of the exact value `X`.
-/
namespace Verif.Proofs
open Verif Verif.F64 Verif.Nurbs Verif.Props Verif.Spec

/-- bound of the absolute error by underflow -/
def tau : ℚ := 1 / 2 ^ 1000

theorem tau_pos : 0 < tau := by unfold tau; positivity
theorem tau_le : tau ≤ 1 / 2 ^ 100 := by
  have h : (2:ℚ) ^ 100 ≤ 2 ^ 1000 := pow_le_pow_right₀ (by norm_num) (by norm_num)
  exact one_div_le_one_div_of_le (by positivity) h
theorem uro_pos' : 0 < uro := by unfold uro; positivity
theorem uro_le50 : uro ≤ 1 / 2 ^ 50 := by unfold uro; norm_num

/-- sums and differences of floats have no underflow error -/
theorem rnd_add_rel (x y : F64) : |rnd (x.toQ + y.toQ) - (x.toQ + y.toQ)| ≤ uro * |x.toQ + y.toQ| := by
  by_cases h : (2:ℚ) ^ (-1022 : ℤ) ≤ |x.toQ + y.toQ|
  · have := rnd_rel (K := ℚ) h
    simpa [uro] using this
  · obtain ⟨n, hn⟩ := bin_grid (toQ_bin x)
    obtain ⟨k, hk⟩ := bin_grid (toQ_bin y)
    have e : x.toQ + y.toQ = ((n + k : ℤ) : ℚ) * 2 ^ (-1074 : ℤ) := by rw [hn, hk]; push_cast; ring
    have hp := two_zpow_pos (K := ℚ) (-1074)
    have h2 : |((n + k : ℤ) : ℚ)| < 2 ^ 52 := by
      rw [e, abs_mul, abs_of_pos hp, not_le] at h
      have e2 : (2:ℚ) ^ (-1022 : ℤ) = 2 ^ 52 * 2 ^ (-1074 : ℤ) := by
        rw [← zpow_natCast, ← zpow_add₀ (by norm_num)]; norm_num
      rw [e2] at h
      exact lt_of_mul_lt_mul_right h hp.le
    have h3 : |n + k| < 2 ^ 53 := lt_trans (by exact_mod_cast h2) (by norm_num : (2:ℤ) ^ 52 < 2 ^ 53)
    have := rnd_id (K := ℚ) (q := ((n + k : ℤ) : ℚ) * 2 ^ (-1074 : ℤ)) ⟨n + k, -1074, h3, le_refl _, rfl⟩
    rw [e]
    have hu := uro_pos'
    simp only [Rat.cast_id] at this
    rw [this, sub_self, abs_zero]; positivity

theorem rnd_sub_rel (x y : F64) (hy : y.Finite) : |rnd (x.toQ - y.toQ) - (x.toQ - y.toQ)| ≤ uro * |x.toQ - y.toQ| := by
  have := rnd_add_rel x (-y)
  rwa [(neg_fin hy).2, ← sub_eq_add_neg] at this

structure Near (x : F64) (X a t : ℚ) : Prop where
  fin : x.Finite
  nn : 0 ≤ x.toQ
  lo : (1 - a) * X - t ≤ x.toQ
  hi : x.toQ ≤ (1 + a) * X + t

theorem Near.weaken {x : F64} {X a t b s : ℚ} (h : Near x X a t) (hX : 0 ≤ X) (hab : a ≤ b) (hts : t ≤ s) : Near x X b s := by
  have := mul_le_mul_of_nonneg_right hab hX
  exact ⟨h.fin, h.nn, by linarith [h.lo], by linarith [h.hi]⟩

theorem Near.err {x : F64} {X a t : ℚ} (h : Near x X a t) : |x.toQ - X| ≤ a * X + t :=
  abs_le.mpr ⟨by linarith [h.lo], by linarith [h.hi]⟩

theorem rnd_near {v : ℚ} (hv : 0 ≤ v) : 0 ≤ rnd v ∧ (1 - uro) * v - tau ≤ rnd v ∧ rnd v ≤ (1 + uro) * v + tau := by
  have h := abs_le.mp (rnd_abs_err v)
  rw [abs_of_nonneg hv] at h
  unfold tau
  exact ⟨rnd_nonneg hv, by linarith [h.1], by linarith [h.2]⟩

attribute [irreducible] tau

/-- the knots as floats -/
theorem ofInt_exact {n : ℤ} (h : |n| ≤ 2 ^ 53) : (GoOfInt.ofInt n : F64).Finite ∧ (GoOfInt.ofInt n : F64).toQ = n := by
  have hr : rnd (n : ℚ) = n := by
    rcases lt_or_eq_of_le h with h | h
    · have := rnd_id (K := ℚ) (q := n) ⟨n, 0, h, by norm_num, by simp⟩
      simpa using this
    · have e : n = 2 ^ 53 ∨ n = -2 ^ 53 := (abs_eq (by norm_num)).mp h
      have key := rnd_id (K := ℚ) (q := ((2:ℤ) ^ 53 : ℤ)) ⟨1, 53, by norm_num, by norm_num, by norm_num⟩
      have key2 := rnd_id (K := ℚ) (q := ((-2 ^ 53 : ℤ) : ℚ)) ⟨-1, 53, by norm_num, by norm_num, by norm_num⟩
      rcases e with rfl | rfl
      · simpa using key
      · simpa using key2
  have hb : |rnd (n : ℚ)| < 2 ^ 1024 := by
    rw [hr]
    have h1 : |(n:ℚ)| ≤ 2 ^ 53 := by exact_mod_cast h
    exact h1.trans_lt (pow_lt_pow_right₀ (by norm_num) (by norm_num))
  obtain ⟨f, v⟩ := round_fin (s := false) hb
  exact ⟨f, v.trans hr⟩

theorem near_sub {x y : F64} (hx : x.Finite) (hy : y.Finite) (h : 0 ≤ x.toQ - y.toQ) (hb : x.toQ - y.toQ ≤ 2 ^ 100) : Near (x - y) (x.toQ - y.toQ) uro 0 := by
  have hb' : |x.toQ - y.toQ| ≤ 2 ^ 200 := by rw [abs_of_nonneg h]; exact hb.trans (pow_le_pow_right₀ (by norm_num) (by norm_num))
  obtain ⟨f, v⟩ := sub_fin hx hy (rnd_small hb')
  have hr := abs_le.mp (rnd_sub_rel x y hy)
  rw [abs_of_nonneg h] at hr
  refine ⟨f, ?_, ?_, ?_⟩
  · rw [v]; exact rnd_nonneg h
  · rw [v]; linarith [hr.1]
  · rw [v]; linarith [hr.2]

theorem Near.addRel {x y : F64} {X Y a : ℚ} (hx : Near x X a 0) (hy : Near y Y a 0) (hX : 0 ≤ X) (hY : 0 ≤ Y) (ha' : a ≤ 1 / 2 ^ 20)
    (hb : X + Y ≤ 2 ^ 100) : Near (x + y) (X + Y) (a + 9 / 8 * uro) 0 := by
  have hu := uro_pos'
  have hu2 := uro_le50
  have n1 := hx.nn
  have n2 := hy.nn
  have hs : 0 ≤ X + Y := add_nonneg hX hY
  have hlo : (1 - a) * (X + Y) ≤ x.toQ + y.toQ := by linarith [hx.lo, hy.lo]
  have hhi : x.toQ + y.toQ ≤ (1 + a) * (X + Y) := by linarith [hx.hi, hy.hi]
  have e0 : 0 ≤ x.toQ + y.toQ := add_nonneg n1 n2
  have hb' : |x.toQ + y.toQ| ≤ 2 ^ 200 := by
    rw [abs_of_nonneg e0]
    have h1 : (1 + a) * (X + Y) ≤ 2 * 2 ^ 100 := mul_le_mul (by linarith) hb hs (by norm_num)
    exact hhi.trans (h1.trans (by norm_num))
  obtain ⟨f, v⟩ := add_fin hx.fin hy.fin (rnd_small hb')
  have hr := abs_le.mp (rnd_add_rel x y)
  rw [abs_of_nonneg e0] at hr
  have k1 : uro * (x.toQ + y.toQ) ≤ 9 / 8 * uro * (X + Y) := by
    have h1 : uro * (x.toQ + y.toQ) ≤ uro * ((1 + a) * (X + Y)) := mul_le_mul_of_nonneg_left hhi hu.le
    have h2 : uro * ((1 + a) * (X + Y)) = (1 + a) * (uro * (X + Y)) := by ring
    have h3 : (1 + a) * (uro * (X + Y)) ≤ 9 / 8 * (uro * (X + Y)) := mul_le_mul_of_nonneg_right (by linarith) (mul_nonneg hu.le hs)
    linarith
  refine ⟨f, ?_, ?_, ?_⟩
  · rw [v]; exact rnd_nonneg e0
  · rw [v]; linarith [hr.1]
  · rw [v]; linarith [hr.2]

theorem Near.add {x y : F64} {X Y a t s : ℚ} (hx : Near x X a t) (hy : Near y Y a s) (hX : 0 ≤ X) (hY : 0 ≤ Y) (ha' : a ≤ 1 / 2 ^ 20)
    (hb : X + Y ≤ 2 ^ 100) (ht : 0 ≤ t) (hs : 0 ≤ s) (hts : t + s ≤ 1) : Near (x + y) (X + Y) (a + 9 / 8 * uro) (9 / 8 * (t + s)) := by
  have hu := uro_pos'
  have hu2 := uro_le50
  have hs0 : 0 ≤ X + Y := add_nonneg hX hY
  have hlo : (1 - a) * (X + Y) - (t + s) ≤ x.toQ + y.toQ := by linarith [hx.lo, hy.lo]
  have hhi : x.toQ + y.toQ ≤ (1 + a) * (X + Y) + (t + s) := by linarith [hx.hi, hy.hi]
  have e0 : 0 ≤ x.toQ + y.toQ := add_nonneg hx.nn hy.nn
  have hb' : |x.toQ + y.toQ| ≤ 2 ^ 200 := by
    rw [abs_of_nonneg e0]
    have h1 : (1 + a) * (X + Y) ≤ 2 * 2 ^ 100 := mul_le_mul (by linarith) hb hs0 (by norm_num)
    have h2 : (2:ℚ) * 2 ^ 100 + 1 ≤ 2 ^ 200 := by norm_num
    linarith
  obtain ⟨f, v⟩ := add_fin hx.fin hy.fin (rnd_small hb')
  have hr := abs_le.mp (rnd_add_rel x y)
  rw [abs_of_nonneg e0] at hr
  have k1 : uro * (x.toQ + y.toQ) ≤ 9 / 8 * uro * (X + Y) + 1 / 8 * (t + s) := by
    have h1 : uro * (x.toQ + y.toQ) ≤ uro * ((1 + a) * (X + Y) + (t + s)) := mul_le_mul_of_nonneg_left hhi hu.le
    have h2 : uro * ((1 + a) * (X + Y) + (t + s)) = (1 + a) * (uro * (X + Y)) + uro * (t + s) := by ring
    have h3 : (1 + a) * (uro * (X + Y)) ≤ 9 / 8 * (uro * (X + Y)) := mul_le_mul_of_nonneg_right (by linarith) (mul_nonneg hu.le hs0)
    have h4 : uro * (t + s) ≤ 1 / 8 * (t + s) := mul_le_mul_of_nonneg_right (by linarith) (add_nonneg ht hs)
    linarith
  refine ⟨f, ?_, ?_, ?_⟩
  · rw [v]; exact rnd_nonneg e0
  · rw [v]; linarith [hr.1]
  · rw [v]; linarith [hr.2]

/-- rounding of a value within `[(1-a) V - t, (1+a) V + t]` -/
theorem near_round {x : F64} {v V a t : ℚ} (hf : x.Finite) (hx : x.toQ = rnd v) (hv : 0 ≤ v) (hV : 0 ≤ V) (ha' : a ≤ 1 / 8) (ht : 0 ≤ t)
    (hlo : (1 - a) * V - t ≤ v) (hhi : v ≤ (1 + a) * V + t) : Near x V (a + 9 / 8 * uro) (9 / 8 * t + tau) := by
  have hu := uro_pos'
  have hu2 := uro_le50
  obtain ⟨r0, r1, r2⟩ := rnd_near hv
  have k1 : uro * v ≤ 9 / 8 * uro * V + 1 / 8 * t := by
    have h1 : uro * v ≤ uro * ((1 + a) * V + t) := mul_le_mul_of_nonneg_left hhi hu.le
    have h2 : uro * ((1 + a) * V + t) = (1 + a) * (uro * V) + uro * t := by ring
    have h3 : (1 + a) * (uro * V) ≤ 9 / 8 * (uro * V) := mul_le_mul_of_nonneg_right (by linarith) (mul_nonneg hu.le hV)
    have h4 : uro * t ≤ 1 / 8 * t := mul_le_mul_of_nonneg_right (by linarith) ht
    linarith
  refine ⟨hf, hx ▸ r0, ?_, ?_⟩
  · rw [hx]; linarith
  · rw [hx]; linarith

theorem Near.div {n d : F64} {X D a t b : ℚ} (hn : Near n X a t) (hd : Near d D b 0) (hX : 0 ≤ X) (hX' : X ≤ 2) (hD : 1 ≤ D) (ha : 0 ≤ a) (ha' : a ≤ 1 / 2 ^ 20)
    (ht : 0 ≤ t) (ht' : t ≤ 1) (hb : 0 ≤ b) (hb' : b ≤ 1 / 2 ^ 20) : Near (n / d) (X / D) (a + 9 / 8 * b + 9 / 8 * uro) (81 / 64 * (t / D) + tau) := by
  have hD0 : 0 < D := by linarith
  have hY : 0 ≤ X / D := div_nonneg hX hD0.le
  have hT : 0 ≤ t / D := div_nonneg ht hD0.le
  have d1 : (1 - b) * D ≤ d.toQ := by linarith [hd.lo]
  have d2 : d.toQ ≤ (1 + b) * D := by linarith [hd.hi]
  have db : 0 < (1 - b) * D := mul_pos (by linarith) hD0
  have dp : 0 < d.toQ := lt_of_lt_of_le db d1
  have hq : 0 ≤ n.toQ / d.toQ := div_nonneg hn.nn dp.le
  -- the exact quotient of the computed values
  have hhi : n.toQ / d.toQ ≤ (1 + (a + 9 / 8 * b)) * (X / D) + 9 / 8 * (t / D) := by
    rw [div_le_iff₀ dp]
    have hc : 0 ≤ (1 + (a + 9 / 8 * b)) * (X / D) + 9 / 8 * (t / D) := by positivity
    refine hn.hi.trans (le_trans ?_ (mul_le_mul_of_nonneg_left d1 hc))
    have e : ((1 + (a + 9 / 8 * b)) * (X / D) + 9 / 8 * (t / D)) * ((1 - b) * D) = ((1 + (a + 9 / 8 * b)) * (1 - b)) * X + 9 / 8 * (1 - b) * t := by
      field_simp
    rw [e]
    have h1 : 1 + a ≤ (1 + (a + 9 / 8 * b)) * (1 - b) := by
      have h : (1 + (a + 9 / 8 * b)) * (1 - b) = 1 + a + b * (1 / 8 - a - 9 / 8 * b) := by ring
      have := mul_nonneg hb (show 0 ≤ 1 / 8 - a - 9 / 8 * b by linarith)
      linarith
    have h2 := mul_le_mul_of_nonneg_right h1 hX
    have h3 : t ≤ 9 / 8 * (1 - b) * t := le_mul_of_one_le_left ht (by linarith)
    linarith
  have hlo : (1 - (a + 9 / 8 * b)) * (X / D) - 9 / 8 * (t / D) ≤ n.toQ / d.toQ := by
    rw [le_div_iff₀ dp]
    by_cases hc : (1 - (a + 9 / 8 * b)) * (X / D) - 9 / 8 * (t / D) ≤ 0
    · exact (mul_nonpos_of_nonpos_of_nonneg hc dp.le).trans hn.nn
    · refine (mul_le_mul_of_nonneg_left d2 (not_le.mp hc).le).trans (le_trans ?_ hn.lo)
      have e : ((1 - (a + 9 / 8 * b)) * (X / D) - 9 / 8 * (t / D)) * ((1 + b) * D) = ((1 - (a + 9 / 8 * b)) * (1 + b)) * X - 9 / 8 * (1 + b) * t := by
        field_simp
      rw [e]
      have h1 : (1 - (a + 9 / 8 * b)) * (1 + b) ≤ 1 - a := by
        have h : (1 - (a + 9 / 8 * b)) * (1 + b) = 1 - a - b * (1 / 8 + a + 9 / 8 * b) := by ring
        have := mul_nonneg hb (show 0 ≤ 1 / 8 + a + 9 / 8 * b by linarith)
        linarith
      have h2 := mul_le_mul_of_nonneg_right h1 hX
      have h3 : t ≤ 9 / 8 * (1 + b) * t := le_mul_of_one_le_left ht (by linarith)
      linarith
  have hb2 : |n.toQ / d.toQ| ≤ 2 ^ 200 := by
    rw [abs_of_nonneg hq]
    have h1 : X / D ≤ 2 := (div_le_self hX hD).trans hX'
    have h2 : t / D ≤ 1 := (div_le_self ht hD).trans ht'
    have h3 : (1 + (a + 9 / 8 * b)) * (X / D) ≤ 2 * 2 := mul_le_mul (by linarith) h1 hY (by norm_num)
    have h4 : (2:ℚ) * 2 + 9 / 8 ≤ 2 ^ 200 := by norm_num
    linarith
  obtain ⟨f, v⟩ := div_fin hn.fin hd.fin dp.ne' (rnd_small hb2)
  have := near_round f v hq hY (by linarith) (t := 9 / 8 * (t / D)) (by positivity) hlo hhi
  convert this using 2
  ring

theorem Near.mul {r y : F64} {R Y a b t : ℚ} (hr : Near r R b 0) (hy : Near y Y a t) (hR : 0 ≤ R) (hR' : R ≤ 2 ^ 60) (hY : 0 ≤ Y) (hY' : Y ≤ 2)
    (ha : 0 ≤ a) (ha' : a ≤ 1 / 2 ^ 20) (ht : 0 ≤ t) (ht' : t ≤ 1) (hb : 0 ≤ b) (hb' : b ≤ 1 / 2 ^ 20) :
    Near (r * y) (R * Y) (a + 9 / 8 * b + 9 / 8 * uro) (81 / 64 * (R * t) + tau) := by
  have hRY : 0 ≤ R * Y := mul_nonneg hR hY
  have hRt : 0 ≤ R * t := mul_nonneg hR ht
  have r1 : (1 - b) * R ≤ r.toQ := by linarith [hr.lo]
  have r2 : r.toQ ≤ (1 + b) * R := by linarith [hr.hi]
  have hq : 0 ≤ r.toQ * y.toQ := mul_nonneg hr.nn hy.nn
  have hhi : r.toQ * y.toQ ≤ (1 + (a + 9 / 8 * b)) * (R * Y) + 9 / 8 * (R * t) := by
    have h0 : 0 ≤ (1 + b) * R := mul_nonneg (by linarith) hR
    refine (mul_le_mul r2 hy.hi hy.nn h0).trans ?_
    have e : (1 + b) * R * ((1 + a) * Y + t) = ((1 + b) * (1 + a)) * (R * Y) + (1 + b) * (R * t) := by ring
    rw [e]
    have h1 : (1 + b) * (1 + a) ≤ 1 + (a + 9 / 8 * b) := by
      have h : (1 + b) * (1 + a) = 1 + (a + 9 / 8 * b) - b * (1 / 8 - a) := by ring
      have := mul_nonneg hb (show 0 ≤ 1 / 8 - a by linarith)
      linarith
    have h2 := mul_le_mul_of_nonneg_right h1 hRY
    have h3 : (1 + b) * (R * t) ≤ 9 / 8 * (R * t) := mul_le_mul_of_nonneg_right (by linarith) hRt
    linarith
  have hlo : (1 - (a + 9 / 8 * b)) * (R * Y) - 9 / 8 * (R * t) ≤ r.toQ * y.toQ := by
    by_cases hc : (1 - a) * Y - t ≤ 0
    · have h1 : R * ((1 - a) * Y - t) ≤ 0 := mul_nonpos_of_nonneg_of_nonpos hR hc
      have h2 : (9 / 8 * b) * (R * Y) ≥ 0 := by positivity
      have e : R * ((1 - a) * Y - t) = (1 - a) * (R * Y) - R * t := by ring
      linarith
    · have h1 : ((1 - b) * R) * ((1 - a) * Y - t) ≤ r.toQ * y.toQ := mul_le_mul r1 hy.lo (not_le.mp hc).le hr.nn
      have e : (1 - b) * R * ((1 - a) * Y - t) = ((1 - b) * (1 - a)) * (R * Y) - (1 - b) * (R * t) := by ring
      have h2 : 1 - (a + 9 / 8 * b) ≤ (1 - b) * (1 - a) := by
        have h : (1 - b) * (1 - a) = 1 - (a + 9 / 8 * b) + b * (1 / 8 + a) := by ring
        have := mul_nonneg hb (show 0 ≤ 1 / 8 + a by linarith)
        linarith
      have h3 := mul_le_mul_of_nonneg_right h2 hRY
      have h4 : (1 - b) * (R * t) ≤ 9 / 8 * (R * t) := mul_le_mul_of_nonneg_right (by linarith) hRt
      linarith
  have hb2 : |r.toQ * y.toQ| ≤ 2 ^ 200 := by
    rw [abs_of_nonneg hq]
    have h1 : R * Y ≤ 2 ^ 60 * 2 := mul_le_mul hR' hY' hY (by norm_num)
    have h2 : R * t ≤ 2 ^ 60 * 1 := mul_le_mul hR' ht' ht (by norm_num)
    have h3 : (1 + (a + 9 / 8 * b)) * (R * Y) ≤ 2 * (2 ^ 60 * 2) := mul_le_mul (by linarith) h1 hRY (by norm_num)
    have h4 : (2:ℚ) * (2 ^ 60 * 2) + 9 / 8 * (2 ^ 60 * 1) ≤ 2 ^ 200 := by norm_num
    linarith
  obtain ⟨f, v⟩ := mul_fin hr.fin hy.fin (rnd_small hb2)
  have := near_round f v hq hRY (by linarith) (t := 9 / 8 * (R * t)) (by positivity) hlo hhi
  convert this using 2
  ring

/-- one iteration of the inner loop: both products -/
theorem near_step {n rr lj : F64} {X R L a t : ℚ} (hn : Near n X a t) (hr : Near rr R uro 0) (hl : Near lj L uro 0) (hX : 0 ≤ X) (hX' : X ≤ 1)
    (hR : 0 ≤ R) (hL : 0 ≤ L) (hD : 1 ≤ R + L) (hD' : R + L ≤ 2 ^ 54) (ha : 0 ≤ a) (ha' : a ≤ 1 / 2 ^ 30) (ht : 2 ^ 60 * tau ≤ t) (ht' : t ≤ 1 / 2 ^ 100) :
    Near (rr * (n / (rr + lj))) (R * (X / (R + L))) (a + 8 * uro) (7 / 4 * t) ∧
      Near (lj * (n / (rr + lj))) (L * (X / (R + L))) (a + 8 * uro) (7 / 4 * t) := by
  have hu := uro_pos'
  have hu2 := uro_le50
  have ht0 := tau_pos
  have htp : 0 ≤ t := le_trans (mul_nonneg (by norm_num) ht0.le) ht
  have hD0 : 0 < R + L := by linarith
  have hden := hr.addRel hl hR hL (hu2.trans (by norm_num)) (hD'.trans (by norm_num))
  have hY : 0 ≤ X / (R + L) := div_nonneg hX hD0.le
  have hY' : X / (R + L) ≤ 2 := (div_le_self hX hD).trans (by linarith)
  have htd : 0 ≤ t / (R + L) := div_nonneg htp hD0.le
  have htd' : t / (R + L) ≤ t := div_le_self htp hD
  have q := hn.div hden hX (by linarith) hD ha (by linarith) htp (by linarith) (by positivity) (by linarith)
  have ta := tau_le
  have fin : ∀ {z : F64} {Z : ℚ}, Near z Z uro 0 → 0 ≤ Z → Z ≤ R + L →
      Near (z * (n / (rr + lj))) (Z * (X / (R + L))) (a + 8 * uro) (7 / 4 * t) := by
    intro z Z hz hZ hZ'
    have m := hz.mul q hZ (by linarith [show (2:ℚ) ^ 54 ≤ 2 ^ 60 by norm_num]) hY hY' (by positivity) (by linarith) (add_nonneg (mul_nonneg (by norm_num) htd) ht0.le) (by linarith) hu.le (by linarith)
    refine m.weaken (mul_nonneg hZ hY) (by linarith) ?_
    have h1 : Z * (t / (R + L)) ≤ t := by
      rw [← mul_div_assoc, div_le_iff₀ hD0, mul_comm t]
      exact mul_le_mul_of_nonneg_right hZ' htp
    have h2 : Z * tau ≤ 2 ^ 54 * tau := mul_le_mul_of_nonneg_right (by linarith) ht0.le
    have e : Z * (81 / 64 * (t / (R + L)) + tau) = 81 / 64 * (Z * (t / (R + L))) + Z * tau := by ring
    rw [e]
    linarith
  exact ⟨fin hr hR (by linarith), fin hl hL (by linarith)⟩

/-! ## The loops -/

/-- every knot is a float64 number -/
def KnotsFit (U : List Int) : Prop := ∀ n ∈ U, |n| ≤ 2 ^ 53

theorem KnotsFit.getD {U : List Int} (h : KnotsFit U) (i : ℕ) : |U.getD i 0| ≤ 2 ^ 53 := by
  rw [List.getD_eq_getElem?_getD]
  cases e : U[i]? with
  | none => simp
  | some n => exact h n (List.mem_of_getElem? e)

/-- absolute error by underflow at level `j` -/
def lvl (j : ℕ) : ℚ := 4 ^ j * (2 ^ 60 * tau)

theorem lvl_ge (j : ℕ) : 2 ^ 60 * tau ≤ lvl j :=
  le_mul_of_one_le_left (mul_nonneg (by norm_num) tau_pos.le) (one_le_pow₀ (by norm_num))

theorem lvl_succ (j : ℕ) : lvl (j + 1) = 4 * lvl j := by unfold lvl; rw [pow_succ]; ring

theorem lvl_pos (j : ℕ) : 0 < lvl j := by have := tau_pos; unfold lvl; positivity

theorem lvl_mono {j k : ℕ} (h : j ≤ k) : lvl j ≤ lvl k :=
  mul_le_mul_of_nonneg_right (pow_le_pow_right₀ (by norm_num) h) (mul_nonneg (by norm_num) tau_pos.le)

theorem lvl_200 : lvl 200 = 1 / 2 ^ 540 := by
  unfold lvl tau
  have e : (4:ℚ) ^ 200 = 2 ^ 400 := by rw [show (4:ℚ) = 2 ^ 2 by norm_num, ← pow_mul]
  have e2 : (2:ℚ) ^ 1000 = 2 ^ 540 * (2 ^ 400 * 2 ^ 60) := by rw [← pow_add, ← pow_add]
  rw [e, e2]
  have h1 : (2:ℚ) ^ 400 ≠ 0 := by positivity
  have h2 : (2:ℚ) ^ 540 ≠ 0 := by positivity
  have h3 : (2:ℚ) ^ 60 ≠ 0 := by positivity
  generalize (2:ℚ) ^ 400 = a at *
  generalize (2:ℚ) ^ 540 = b at *
  generalize (2:ℚ) ^ 60 = c at *
  field_simp

theorem lvl_le {j : ℕ} (h : j ≤ 200) : lvl j ≤ 1 / 2 ^ 100 := by
  refine (lvl_mono h).trans ?_
  rw [lvl_200]
  have h : (2:ℚ) ^ 100 ≤ 2 ^ 540 := pow_le_pow_right₀ (by norm_num) (by norm_num)
  exact one_div_le_one_div_of_le (by positivity) h

section
variable {U : List Int} (hU : Nondec U) (hfit : KnotsFit U) {i p : ℕ} (hpi : p ≤ i) (hlen : i + p + 1 < U.length) (hp : p ≤ 200) {q : ℚ}
  (hk : knot ℚ U i < knot ℚ U (i+1)) (h1 : knot ℚ U i ≤ q) (h2 : q ≤ knot ℚ U (i+1))

include hU hlen hk h1 h2 in
theorem piece_bounds {j m : ℕ} (hj : j ≤ p) (hji : j ≤ i) : 0 ≤ piece (knot ℚ U) i j m q ∧ piece (knot ℚ U) i j m q ≤ 1 := by
  have hm : ∀ a b, b < U.length → MonoOn (knot ℚ U) a b := fun a b hb i j _ hij hj => knot_mono U hU i j hij (by omega)
  have nn : ∀ m, 0 ≤ piece (knot ℚ U) i j m q := by
    intro m
    by_cases hs : i < m ∨ m + j < i
    · rw [piece_support _ _ _ _ _ hs]
    · exact piece_nonneg (knot ℚ U) i j m q (hm _ _ (by omega)) h1 h2
  refine ⟨nn m, ?_⟩
  by_cases hs : i < m
  · rw [piece_support _ _ _ _ _ (Or.inl hs)]; norm_num
  · rw [← piece_sum (knot ℚ U) i j q hji (hm _ _ (by omega)) hk]
    exact Finset.single_le_sum (fun m _ => nn m) (Finset.mem_range.mpr (by omega))

include hU hpi hlen hp hk h1 h2 in
theorem basisInner_near {j : ℕ} (hj : 1 ≤ j) (hjp : j ≤ p) (hspread : knot ℚ U (i+p) - knot ℚ U (i+1-p) ≤ 2 ^ 54) (left right : List F64)
    (hl : ∀ m, 1 ≤ m → m ≤ j → ∃ x, left[m]? = some x ∧ Near x (q - knot ℚ U (i+1-m)) uro 0)
    (hr : ∀ m, 1 ≤ m → m ≤ j → ∃ x, right[m]? = some x ∧ Near x (knot ℚ U (i+m) - q) uro 0) :
    ∀ (m r : ℕ) (N : List F64) (saved : F64), r + m = j →
      (∀ s, s < r → ∃ x, N[s]? = some x ∧ Near x (piece (knot ℚ U) i j (i+s-j) q) (10 * j * uro) (lvl j)) →
      (∀ s, r ≤ s → s < j → ∃ x, N[s]? = some x ∧ Near x (piece (knot ℚ U) i (j-1) (i+s+1-j) q) (10 * (j - 1) * uro) (lvl (j-1))) →
      j < N.length → Near saved (savedVal U i j q r) (10 * (j - 1) * uro + 8 * uro) (7 / 4 * lvl (j-1)) →
      ∃ N' z, basisInner left right (j : Int) m (r : Int) N saved = .ok (N', z) ∧
        Near z (savedVal U i j q j) (10 * (j - 1) * uro + 8 * uro) (7 / 4 * lvl (j-1)) ∧ N'.length = N.length ∧
        (∀ s, s < j → ∃ x, N'[s]? = some x ∧ Near x (piece (knot ℚ U) i j (i+s-j) q) (10 * j * uro) (lvl j)) := by
  have hu := uro_pos'
  have hu2 := uro_le50
  have hmono : ∀ a b, a ≤ b → b < U.length → knot ℚ U a ≤ knot ℚ U b := fun a b hab hb => knot_mono U hU a b hab hb
  have hone : knot ℚ U i + 1 ≤ knot ℚ U (i+1) := by
    unfold knot at hk ⊢
    have : U.getD i 0 < U.getD (i+1) 0 := by exact_mod_cast hk
    exact_mod_cast this
  have hjq : (1:ℚ) ≤ j := by exact_mod_cast hj
  have hjq' : (j:ℚ) ≤ 200 := by exact_mod_cast hjp.trans hp
  have ha0 : 0 ≤ 10 * ((j:ℚ) - 1) * uro := mul_nonneg (by linarith) hu.le
  have ha1 : 10 * ((j:ℚ) - 1) * uro ≤ 1 / 2 ^ 31 := by
    have : 10 * ((j:ℚ) - 1) * uro ≤ 2000 * (1 / 2 ^ 50) := mul_le_mul (by linarith) hu2 hu.le (by norm_num)
    exact this.trans (by norm_num)
  have hlv := lvl_le (j := j - 1) (by omega)
  have hlp := lvl_pos (j - 1)
  have hls : lvl j = 4 * lvl (j - 1) := by rw [← lvl_succ, Nat.sub_add_cancel hj]
  intro m
  induction m with
  | zero =>
    intro r N saved hrm hlo hhi hlen hs
    have : r = j := by omega
    subst this
    exact ⟨N, saved, by simp [basisInner], hs, rfl, hlo⟩
  | succ m ih =>
    intro r N saved hrm hlo hhi hNlen hs
    obtain ⟨n, en, nn⟩ := hhi r (le_refl _) (by omega)
    obtain ⟨rr, er, nr⟩ := hr (r+1) (by omega) (by omega)
    obtain ⟨lj, el, nl⟩ := hl (j-r) (by omega) (by omega)
    have hR : 0 ≤ knot ℚ U (i+(r+1)) - q := by linarith [hmono (i+1) (i+(r+1)) (by omega) (by omega)]
    have hL : 0 ≤ q - knot ℚ U (i+1-(j-r)) := by linarith [hmono (i+1-(j-r)) i (by omega) (by omega)]
    have hD : 1 ≤ (knot ℚ U (i+(r+1)) - q) + (q - knot ℚ U (i+1-(j-r))) := by
      linarith [hmono (i+1) (i+(r+1)) (by omega) (by omega), hmono (i+1-(j-r)) i (by omega) (by omega)]
    have hD' : (knot ℚ U (i+(r+1)) - q) + (q - knot ℚ U (i+1-(j-r))) ≤ 2 ^ 54 := by
      linarith [hmono (i+(r+1)) (i+p) (by omega) (by omega), hmono (i+1-p) (i+1-(j-r)) (by omega) (by omega)]
    obtain ⟨b1, b2⟩ := piece_bounds hU hlen hk h1 h2 (j := j-1) (m := i+r+1-j) (by omega) (by omega)
    obtain ⟨n1, n2⟩ := near_step nn nr nl b1 b2 hR hL hD hD' ha0 (by linarith) (lvl_ge _) hlv
    have hden : (knot ℚ U (i+(r+1)) - q) + (q - knot ℚ U (i+1-(j-r))) = knot ℚ U (i+r+1) - knot ℚ U (i+1-(j-r)) := by
      rw [show i + (r+1) = i+r+1 by omega]; ring
    have hpc : savedVal U i j q r + (knot ℚ U (i+(r+1)) - q) *
        (piece (knot ℚ U) i (j-1) (i+r+1-j) q / ((knot ℚ U (i+(r+1)) - q) + (q - knot ℚ U (i+1-(j-r))))) =
        piece (knot ℚ U) i j (i+r-j) q := by
      rw [hden]
      obtain ⟨j', rfl⟩ : ∃ j', j = j' + 1 := ⟨j-1, by omega⟩
      simp only [piece, savedVal, Nat.add_sub_cancel]
      rw [show i + (r+1) = i+r+1 by omega, show i + r + 1 - (j'+1) = i + r - (j'+1) + 1 by omega,
        show i + 1 - (j' + 1 - r) = i + r - (j'+1) + 1 by omega,
        show i + r - (j'+1) + j' + 1 = i + r by omega, show i + r - (j'+1) + j' + 2 = i + r + 1 by omega]
      ring
    have hsv : (q - knot ℚ U (i+1-(j-r))) *
        (piece (knot ℚ U) i (j-1) (i+r+1-j) q / ((knot ℚ U (i+(r+1)) - q) + (q - knot ℚ U (i+1-(j-r))))) =
        savedVal U i j q (r+1) := by
      rw [hden]
      simp only [savedVal]
      rw [show i + (r+1) = i+r+1 by omega, show i + 1 - (j-r) = i + r + 1 - j by omega]
      ring
    have hs0 : 0 ≤ savedVal U i j q r := by
      unfold savedVal
      obtain ⟨c1, _⟩ := piece_bounds hU hlen hk h1 h2 (j := j-1) (m := i+r-j) (by omega) (by omega)
      refine mul_nonneg (div_nonneg ?_ ?_) c1
      · linarith [hmono (i+r-j) i (by omega) (by omega)]
      · linarith [hmono (i+r-j) (i+r) (by omega) (by omega)]
    have hp0 : 0 ≤ (knot ℚ U (i+(r+1)) - q) *
        (piece (knot ℚ U) i (j-1) (i+r+1-j) q / ((knot ℚ U (i+(r+1)) - q) + (q - knot ℚ U (i+1-(j-r))))) :=
      mul_nonneg hR (div_nonneg b1 (by linarith))
    have hnew : Near (saved + rr * (n / (rr + lj))) (piece (knot ℚ U) i j (i+r-j) q) (10 * j * uro) (lvl j) := by
      obtain ⟨c1, c2⟩ := piece_bounds hU hlen hk h1 h2 (j := j) (m := i+r-j) (by omega) (by omega)
      have hz := hs.add n1 hs0 hp0 (by linarith) (by rw [hpc]; linarith [show (1:ℚ) ≤ 2 ^ 100 by norm_num]) (by linarith) (by linarith) (by linarith)
      rw [hpc] at hz
      refine hz.weaken c1 (by linarith) (by rw [hls]; linarith)
    rw [hsv] at n2
    unfold basisInner
    rw [goGet_eq (n := r) rfl en, goGet_eq (n := r+1) (by push_cast; rfl) er, goGet_eq (n := j-r) (by omega) el]
    simp only [Res.bind_ok]
    rw [goSet_eq (n := r) rfl (by omega)]
    simp only [Res.bind_ok]
    obtain ⟨N', z, e, hz, hl', hN'⟩ := ih (r+1) (N.set r (saved + rr * (n / (rr + lj)))) (lj * (n / (rr + lj))) (by omega)
      (by
        intro s hs'
        rw [List.getElem?_set]
        split
        · rename_i h; subst h; rw [if_pos (by omega)]; exact ⟨_, rfl, hnew⟩
        · exact hlo s (by omega))
      (by
        intro s h1 h2
        rw [List.getElem?_set, if_neg (by omega)]
        exact hhi s (by omega) h2)
      (by simpa using hNlen) n2
    refine ⟨N', z, ?_, hz, by simpa using hl', hN'⟩
    rw [← e]; push_cast; rfl

include hU hfit hpi hlen hp hk h1 h2 in
theorem basisOuter_near {u : F64} (hu : u.Finite) (hq : u.toQ = q) :
    ∀ (m j : ℕ) (left right N : List F64), j + m = p + 1 → 1 ≤ j →
      left.length = p+1 → right.length = p+1 → N.length = p+1 →
      (∀ m, 1 ≤ m → m < j → ∃ x, left[m]? = some x ∧ Near x (q - knot ℚ U (i+1-m)) uro 0) →
      (∀ m, 1 ≤ m → m < j → ∃ x, right[m]? = some x ∧ Near x (knot ℚ U (i+m) - q) uro 0) →
      (∀ s, s < j → ∃ x, N[s]? = some x ∧ Near x (piece (knot ℚ U) i (j-1) (i+s+1-j) q) (10 * (j - 1) * uro) (lvl (j-1))) →
      ∃ N', basisOuter i u U m (j : Int) left right N = .ok N' ∧ N'.length = p+1 ∧
        ∀ s, s ≤ p → ∃ x, N'[s]? = some x ∧ Near x (piece (knot ℚ U) i p (i+s-p) q) (10 * p * uro) (lvl p) := by
  have hu0 := uro_pos'
  have hmono : ∀ a b, a ≤ b → b < U.length → knot ℚ U a ≤ knot ℚ U b := fun a b hab hb => knot_mono U hU a b hab hb
  have hkb : ∀ a, |knot ℚ U a| ≤ 2 ^ 53 := fun a => by unfold knot; exact_mod_cast hfit.getD a
  have hspread : knot ℚ U (i+p) - knot ℚ U (i+1-p) ≤ 2 ^ 54 := by
    have a1 := (abs_le.mp (hkb (i+p))).2
    have a2 := (abs_le.mp (hkb (i+1-p))).1
    have : (2:ℚ) ^ 54 = 2 ^ 53 + 2 ^ 53 := by norm_num
    linarith
  intro m
  induction m with
  | zero =>
    intro j left right N hjm hj1 hll hrl hNl hl hr hN
    have : j = p + 1 := by omega
    subst this
    refine ⟨N, rfl, hNl, fun s hs => ?_⟩
    obtain ⟨x, e, hx⟩ := hN s (by omega)
    refine ⟨x, e, ?_⟩
    simp only [Nat.add_sub_cancel] at hx
    rw [show i + s + 1 - (p+1) = i + s - p by omega] at hx
    push_cast at hx
    rwa [show (p:ℚ) + 1 - 1 = p by ring] at hx
  | succ m ih =>
    intro j left right N hjm hj1 hll hrl hNl hl hr hN
    unfold basisOuter
    rw [goGet_knot U _ (i+1-j) (by omega) (by omega), goGet_knot U _ (i+j) (by push_cast; rfl) (by omega)]
    simp only [Res.bind_ok]
    obtain ⟨fa, va⟩ := ofInt_exact (hfit.getD (i+1-j))
    obtain ⟨fb, vb⟩ := ofInt_exact (hfit.getD (i+j))
    have va' : (GoOfInt.ofInt (U.getD (i+1-j) 0) : F64).toQ = knot ℚ U (i+1-j) := va
    have vb' : (GoOfInt.ofInt (U.getD (i+j) 0) : F64).toQ = knot ℚ U (i+j) := vb
    have hbig : (2:ℚ) ^ 54 ≤ 2 ^ 100 := by norm_num
    have nL : Near (u - GoOfInt.ofInt (U.getD (i+1-j) 0)) (q - knot ℚ U (i+1-j)) uro 0 := by
      have := near_sub hu fa (by rw [va', hq]; linarith [hmono (i+1-j) i (by omega) (by omega)])
        (by rw [va', hq]; linarith [hmono (i+1) (i+p) (by omega) (by omega), hmono (i+1-p) (i+1-j) (by omega) (by omega)])
      rwa [va', hq] at this
    have nR : Near (GoOfInt.ofInt (U.getD (i+j) 0) - u) (knot ℚ U (i+j) - q) uro 0 := by
      have := near_sub fb hu (by rw [vb', hq]; linarith [hmono (i+1) (i+j) (by omega) (by omega)])
        (by rw [vb', hq]; linarith [hmono (i+j) (i+p) (by omega) (by omega), hmono (i+1-p) i (by omega) (by omega)])
      rwa [vb', hq] at this
    rw [goSet_eq (n := j) rfl (by omega), goSet_eq (n := j) rfl (by omega)]
    simp only [Res.bind_ok, Int.toNat_natCast]
    have hl' : ∀ m, 1 ≤ m → m < j + 1 → ∃ x,
        (left.set j (u - GoOfInt.ofInt (U.getD (i+1-j) 0)))[m]? = some x ∧ Near x (q - knot ℚ U (i+1-m)) uro 0 := by
      intro m h1 h2
      rw [List.getElem?_set]
      split
      · rename_i h; subst h; rw [if_pos (by omega)]; exact ⟨_, rfl, nL⟩
      · exact hl m h1 (by omega)
    have hr' : ∀ m, 1 ≤ m → m < j + 1 → ∃ x,
        (right.set j (GoOfInt.ofInt (U.getD (i+j) 0) - u))[m]? = some x ∧ Near x (knot ℚ U (i+m) - q) uro 0 := by
      intro m h1 h2
      rw [List.getElem?_set]
      split
      · rename_i h; subst h; rw [if_pos (by omega)]; exact ⟨_, rfl, nR⟩
      · exact hr m h1 (by omega)
    have hjq : (1:ℚ) ≤ j := by exact_mod_cast hj1
    have hlp := lvl_pos (j - 1)
    have hs0 : savedVal U i j q 0 = 0 := by
      simp only [savedVal]
      rw [piece_support (knot ℚ U) i (j-1) (i+0-j) q (by omega)]; simp
    obtain ⟨N', z, e, hz, hNl', hN'⟩ := basisInner_near hU hpi hlen hp hk h1 h2 hj1 (by omega) hspread _ _
      (fun m h1 h2 => hl' m h1 (by omega)) (fun m h1 h2 => hr' m h1 (by omega)) j 0 N 0 (by omega)
      (fun s h => by omega) (fun s _ h => hN s h) (by omega)
      ⟨trivial, le_refl _, by rw [hs0]; show _ ≤ (0:ℚ); linarith, by rw [hs0]; show (0:ℚ) ≤ _; linarith⟩
    rw [show ((0 : ℕ) : Int) = 0 from rfl] at e
    rw [e]
    simp only [Res.bind_ok]
    rw [goSet_eq (n := j) rfl (by omega)]
    simp only [Res.bind_ok]
    have hlast : savedVal U i j q j = piece (knot ℚ U) i j i q := by
      obtain ⟨j', rfl⟩ : ∃ j', j = j' + 1 := ⟨j-1, by omega⟩
      simp only [piece, savedVal, Nat.add_sub_cancel]
      rw [piece_support (knot ℚ U) i j' (i+1) q (by omega)]
      rw [show i + j' + 1 = i + (j'+1) by omega]; ring
    have hgoal := ih (j+1) _ _ (N'.set j z) (by omega) (by omega)
      (by simpa using hll) (by simpa using hrl) (by simpa using hNl'.trans hNl) hl' hr'
      (by
        intro s hs
        rw [List.getElem?_set, Nat.add_sub_cancel]
        have ej : 10 * (((j + 1 : ℕ) : ℚ) - 1) * uro = 10 * j * uro := by push_cast; ring
        rw [ej]
        split
        · rename_i h; subst h; rw [if_pos (by omega)]
          refine ⟨z, rfl, ?_⟩
          rw [show i + j + 1 - (j+1) = i by omega, ← hlast]
          refine hz.weaken ?_ (by linarith) ?_
          · rw [hlast]; exact (piece_bounds hU hlen hk h1 h2 (by omega) (by omega)).1
          · rw [show lvl j = 4 * lvl (j - 1) by rw [← lvl_succ, Nat.sub_add_cancel hj1]]; linarith
        · obtain ⟨x, ex, hx⟩ := hN' s (by omega)
          refine ⟨x, ex, ?_⟩
          rw [show i + s + 1 - (j + 1) = i + s - j by omega]; exact hx)
    rw [show ((j : Int) + 1) = ((j+1 : ℕ) : Int) by push_cast; rfl]
    exact hgoal

include hU hfit hpi hlen hp hk h1 h2 in
theorem basisFuns_near {u : F64} (hu : u.Finite) (hq : u.toQ = q) :
    ∃ N, basisFuns i u p U = .ok N ∧ N.length = p + 1 ∧
      ∀ s, s ≤ p → ∃ x, N[s]? = some x ∧ Near x (piece (knot ℚ U) i p (i-p+s) q) (10 * p * uro) (lvl p) := by
  unfold basisFuns
  rw [if_neg (by omega), show ((p : Int) + 1).toNat = p + 1 by omega]
  dsimp only
  rw [goSet_eq (z := 0) (n := 0) rfl (by simp)]
  simp only [Res.bind_ok, Int.toNat_natCast]
  obtain ⟨N', e, hl, hN⟩ := basisOuter_near hU hfit hpi hlen hp hk h1 h2 hu hq p 1 (List.replicate (p+1) 0)
    (List.replicate (p+1) 0) ((List.replicate (p+1) 0).set 0 1) (by omega) (by omega) (by simp) (by simp) (by simp)
    (fun m h1 h2 => by omega) (fun m h1 h2 => by omega)
    (fun s hs => by
      have : s = 0 := by omega
      subst this
      rw [List.getElem?_set, if_pos rfl, if_pos (by simp)]
      have hlp := lvl_pos 0
      refine ⟨1, rfl, trivial, by show (0:ℚ) ≤ 1; norm_num, ?_, ?_⟩
      · show _ ≤ (1:ℚ)
        simp [piece]; linarith
      · show (1:ℚ) ≤ _
        simp [piece]; linarith)
  rw [show ((1 : ℕ) : Int) = 1 from rfl] at e
  refine ⟨N', e, hl, fun s hs => ?_⟩
  rw [show i - p + s = i + s - p by omega]
  exact hN s hs

end

end Verif.Proofs
