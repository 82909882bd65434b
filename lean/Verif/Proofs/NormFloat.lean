import Verif.Proofs.NurbsFloat
import Verif.Proofs.GridValidate
/-!
# Rounding errors of norms, distances and normalisation at binary64
-/
namespace Verif.Proofs
open Verif Verif.F64 Verif.Props

/-- products: relative error plus underflow -/
theorem sq_round {x : F64} (hx : x.Finite) (hb : x.toQ * x.toQ ≤ 2 ^ 199) :
    (x * x).Finite ∧ 0 ≤ (x * x).toQ ∧ |(x * x).toQ - x.toQ * x.toQ| ≤ uro * (x.toQ * x.toQ) + tau := by
  have h0 := mul_self_nonneg x.toQ
  obtain ⟨f, v⟩ := mul_fin hx hx (rnd_small (by rw [abs_of_nonneg h0]; exact hb.trans (pow_le_pow_right₀ (by norm_num) (by norm_num))))
  refine ⟨f, v ▸ rnd_nonneg h0, ?_⟩
  have := rnd_abs_err (x.toQ * x.toQ)
  rw [abs_of_nonneg h0] at this
  rw [v]
  unfold tau
  exact this

/-- the sum of the squares -/
theorem norm2_near {x y z : F64} (hx : x.Finite) (hy : y.Finite) (hz : z.Finite) {S : ℚ} (hS : S = x.toQ * x.toQ + y.toQ * y.toQ + z.toQ * z.toQ)
    (h1 : 1 / 2 ^ 400 ≤ S) (h2 : S ≤ 2 ^ 199) : (x * x + y * y + z * z).Finite ∧ |(x * x + y * y + z * z).toQ - S| ≤ 4 * uro * S := by
  have hu := uro_pos'
  have hu2 := uro_le50
  have t0 := tau_pos
  have x0 := mul_self_nonneg x.toQ
  have y0 := mul_self_nonneg y.toQ
  have z0 := mul_self_nonneg z.toQ
  obtain ⟨fx, nx, ex⟩ := sq_round hx (by linarith)
  obtain ⟨fy, ny, ey⟩ := sq_round hy (by linarith)
  obtain ⟨fz, nz, ez⟩ := sq_round hz (by linarith)
  have hS0 : 0 < S := lt_of_lt_of_le (by positivity) h1
  have tS : tau ≤ 1 / 2 ^ 100 * S := by
    have h3 : tau ≤ 1 / 2 ^ 100 * (1 / 2 ^ 400) := by
      unfold tau
      rw [one_div_mul_one_div, ← pow_add]
      exact one_div_le_one_div_of_le (by positivity) (pow_le_pow_right₀ (by norm_num) (by norm_num))
    exact h3.trans (mul_le_mul_of_nonneg_left h1 (by positivity))
  have uS : uro * S ≤ 1 / 2 ^ 50 * S := mul_le_mul_of_nonneg_right hu2 hS0.le
  have uSt : 1 / 2 ^ 53 * S = uro * S := rfl
  have eS : uro * S = uro * (x.toQ * x.toQ) + uro * (y.toQ * y.toQ) + uro * (z.toQ * z.toQ) := by rw [hS]; ring
  have p1 : 0 ≤ uro * (x.toQ * x.toQ) := mul_nonneg hu.le x0
  have p2 : 0 ≤ uro * (y.toQ * y.toQ) := mul_nonneg hu.le y0
  have p3 : 0 ≤ uro * (z.toQ * z.toQ) := mul_nonneg hu.le z0
  have ex' := abs_le.mp ex
  have ey' := abs_le.mp ey
  have ez' := abs_le.mp ez
  have b1 : (x * x).toQ + (y * y).toQ ≤ 101 / 100 * S := by linarith
  obtain ⟨fa, va⟩ := add_fin fx fy (rnd_small (by rw [abs_of_nonneg (add_nonneg nx ny)]; linarith [show (101:ℚ) / 100 * 2 ^ 199 ≤ 2 ^ 200 by norm_num]))
  have ra := abs_le.mp (rnd_add_rel (x * x) (y * y))
  rw [abs_of_nonneg (add_nonneg nx ny), ← va] at ra
  have c1 : uro * ((x * x).toQ + (y * y).toQ) ≤ 101 / 100 * (uro * S) := by
    have := mul_le_mul_of_nonneg_left b1 hu.le
    linarith
  have na : 0 ≤ (x * x + y * y).toQ := va ▸ rnd_nonneg (add_nonneg nx ny)
  have b2 : (x * x + y * y).toQ + (z * z).toQ ≤ 102 / 100 * S := by linarith [ra.2]
  obtain ⟨fb, vb⟩ := add_fin fa fz (rnd_small (by rw [abs_of_nonneg (add_nonneg na nz)]; linarith [show (102:ℚ) / 100 * 2 ^ 199 ≤ 2 ^ 200 by norm_num]))
  have rb := abs_le.mp (rnd_add_rel (x * x + y * y) (z * z))
  rw [abs_of_nonneg (add_nonneg na nz), ← vb] at rb
  have c2 : uro * ((x * x + y * y).toQ + (z * z).toQ) ≤ 102 / 100 * (uro * S) := by
    have := mul_le_mul_of_nonneg_left b2 hu.le
    linarith
  refine ⟨fb, abs_le.mpr ⟨?_, ?_⟩⟩
  · have : -(4 * uro * S) = -(4 * (uro * S)) := by ring
    rw [this]
    linarith [ra.1, rb.1]
  · have : 4 * uro * S = 4 * (uro * S) := by ring
    rw [this]
    linarith [ra.2, rb.2]

/-- the unit roundoff as a real number -/
noncomputable def ur : ℝ := 1 / 2 ^ 53

theorem ur_cast : ((uro : ℚ) : ℝ) = ur := by unfold uro ur; norm_num
theorem ur_pos : 0 < ur := by unfold ur; positivity
theorem ur_le : ur ≤ 1 / 2 ^ 50 := by unfold ur; norm_num

/-- rounding a positive real number in the middle of the range -/
theorem round_mid {x : ℝ} (h1 : 1 / 2 ^ 400 ≤ x) (h2 : x ≤ 2 ^ 300) (s : Bool) :
    (round s x).Finite ∧ |((round s x).toQ : ℝ) - x| ≤ ur * x := by
  have hx0 : 0 < x := lt_of_lt_of_le (by positivity) h1
  have hr : |((rnd x : ℚ) : ℝ) - x| ≤ ur * x := by
    have h3 : (2:ℝ) ^ (-1022 : ℤ) ≤ |x| := by
      rw [abs_of_pos hx0]
      refine le_trans ?_ h1
      rw [show (1:ℝ) / 2 ^ 400 = 2 ^ (-400 : ℤ) by rw [zpow_neg, one_div]; exact congrArg _ (zpow_natCast 2 400).symm]
      exact zpow_le_zpow_right₀ (by norm_num) (by norm_num)
    have := rnd_rel h3
    rw [abs_of_pos hx0] at this
    have e : (2:ℝ) ^ (-53 : ℤ) = ur := by unfold ur; norm_num
    rwa [e] at this
  have hlt : |rnd x| < 2 ^ 1024 := by
    have h4 := rnd_mono h2
    have h5 : rnd ((2:ℝ) ^ 300) = 2 ^ 300 := by
      have := rnd_id (K := ℝ) (q := 2 ^ 300) ⟨1, 300, by norm_num, by norm_num, by rw [Int.cast_one, one_mul]; exact (zpow_natCast 2 300).symm⟩
      simpa using this
    rw [abs_of_nonneg (rnd_nonneg hx0.le)]
    rw [h5] at h4
    exact h4.trans_lt (pow_lt_pow_right₀ (by norm_num) (by norm_num))
  obtain ⟨f, v⟩ := round_fin (s := s) hlt
  exact ⟨f, by rw [v]; exact hr⟩

/-- square root of an approximate value -/
theorem sqrt_near {n : F64} (hn : n.Finite) {S k : ℝ} (hk' : k ≤ 1000) (h1 : 1 / 2 ^ 200 ≤ S) (h2 : S ≤ 2 ^ 200)
    (he : |(n.toQ : ℝ) - S| ≤ k * ur * S) :
    (F64.sqrt n).Finite ∧ |((F64.sqrt n).toQ : ℝ) - Real.sqrt S| ≤ (k / (199 / 100) + 101 / 100) * ur * Real.sqrt S := by
  have hu := ur_pos
  have hu2 := ur_le
  have hS : 0 < S := lt_of_lt_of_le (by positivity) h1
  have hr : 0 < Real.sqrt S := Real.sqrt_pos.mpr hS
  have hrr : Real.sqrt S * Real.sqrt S = S := Real.mul_self_sqrt hS.le
  have hku : k * ur ≤ 1 / 1000 := by
    have : k * ur ≤ 1000 * (1 / 2 ^ 50) := mul_le_mul hk' hu2 hu.le (by norm_num)
    exact this.trans (by norm_num)
  have hkS : k * ur * S ≤ 1 / 1000 * S := mul_le_mul_of_nonneg_right hku hS.le
  obtain ⟨he1, he2⟩ := abs_le.mp he
  have hn0 : 0 < (n.toQ : ℝ) := by linarith
  have hm0 := Real.sqrt_nonneg (n.toQ : ℝ)
  have hmm : Real.sqrt (n.toQ : ℝ) * Real.sqrt (n.toQ : ℝ) = n.toQ := Real.mul_self_sqrt hn0.le
  have hlo : 99 / 100 * Real.sqrt S ≤ Real.sqrt (n.toQ : ℝ) := by
    apply Real.le_sqrt_of_sq_le
    have : (99 / 100 * Real.sqrt S) ^ 2 = 9801 / 10000 * S := by rw [mul_pow, sq (Real.sqrt S), hrr]; norm_num
    rw [this]; linarith
  have hhi : Real.sqrt (n.toQ : ℝ) ≤ 101 / 100 * Real.sqrt S := by
    rw [Real.sqrt_le_left (by positivity)]
    have : (101 / 100 * Real.sqrt S) ^ 2 = 10201 / 10000 * S := by rw [mul_pow, sq (Real.sqrt S), hrr]; norm_num
    rw [this]; linarith
  have hdiff : |Real.sqrt (n.toQ : ℝ) - Real.sqrt S| ≤ k / (199 / 100) * ur * Real.sqrt S := by
    have e : |Real.sqrt (n.toQ : ℝ) - Real.sqrt S| * (Real.sqrt (n.toQ : ℝ) + Real.sqrt S) = |(n.toQ : ℝ) - S| := by
      have h := abs_mul (Real.sqrt (n.toQ : ℝ) - Real.sqrt S) (Real.sqrt (n.toQ : ℝ) + Real.sqrt S)
      rw [abs_of_nonneg (add_nonneg hm0 hr.le)] at h
      rw [← h]
      congr 1
      linear_combination hmm - hrr
    have h3 : |Real.sqrt (n.toQ : ℝ) - Real.sqrt S| * (199 / 100 * Real.sqrt S) ≤ k * ur * (Real.sqrt S * Real.sqrt S) := by
      rw [hrr]
      refine le_trans (mul_le_mul_of_nonneg_left (by linarith) (abs_nonneg _)) (e.le.trans he)
    have h4 : |Real.sqrt (n.toQ : ℝ) - Real.sqrt S| * Real.sqrt S ≤ k / (199 / 100) * ur * Real.sqrt S * Real.sqrt S := by linarith
    exact le_of_mul_le_mul_right h4 hr
  have hrange1 : 1 / 2 ^ 400 ≤ Real.sqrt (n.toQ : ℝ) := by
    have h5 : (1:ℝ) / 2 ^ 200 ≤ Real.sqrt (n.toQ : ℝ) := by
      apply Real.le_sqrt_of_sq_le
      have h5 : ((1:ℝ) / 2 ^ 200) ^ 2 ≤ 1 / 2 * (1 / 2 ^ 200) := by
        rw [sq]; exact mul_le_mul_of_nonneg_right (by norm_num) (by positivity)
      linarith
    exact le_trans (one_div_le_one_div_of_le (by positivity) (pow_le_pow_right₀ (by norm_num) (by norm_num))) h5
  have hrange2 : Real.sqrt (n.toQ : ℝ) ≤ 2 ^ 300 := by
    have h5 : Real.sqrt (n.toQ : ℝ) ≤ 2 ^ 120 := by
      rw [Real.sqrt_le_left (by positivity)]
      have : (2:ℝ) * 2 ^ 200 ≤ (2 ^ 120) ^ 2 := by norm_num
      linarith
    exact h5.trans (pow_le_pow_right₀ (by norm_num) (by norm_num))
  have hval : F64.sqrt n = round false (Real.sqrt (n.toQ : ℝ)) := by
    cases n with
    | nan => exact hn.elim
    | inf s => exact hn.elim
    | zero s => exact absurd hn0 (by simp [F64.toQ])
    | fin q h =>
      have : ¬ q < 0 := by
        have : (0:ℝ) < (q : ℝ) := hn0
        rw [not_lt]; exact_mod_cast this.le
      simp only [F64.sqrt, if_neg this]
      rfl
  rw [hval]
  obtain ⟨f, e⟩ := round_mid hrange1 hrange2 false
  refine ⟨f, ?_⟩
  have e2 : ur * Real.sqrt (n.toQ : ℝ) ≤ ur * (101 / 100 * Real.sqrt S) := mul_le_mul_of_nonneg_left hhi hu.le
  have := abs_sub_le ((round false (Real.sqrt (n.toQ : ℝ))).toQ : ℝ) (Real.sqrt (n.toQ : ℝ)) (Real.sqrt S)
  have e3 : (k / (199 / 100) + 101 / 100) * ur * Real.sqrt S = k / (199 / 100) * ur * Real.sqrt S + ur * (101 / 100 * Real.sqrt S) := by ring
  rw [e3]
  linarith

/-- rounding of a quotient with positive, middle-sized exact value -/
theorem rnd_mid {q : ℚ} (h1 : 1 / 2 ^ 200 ≤ q) (h2 : q ≤ 2 ^ 200) : |rnd q| < 2 ^ 1024 ∧ |rnd q - q| ≤ uro * q := by
  have h0 : 0 < q := lt_of_lt_of_le (by positivity) h1
  refine ⟨rnd_small (by rwa [abs_of_pos h0]), ?_⟩
  have h3 : (2:ℚ) ^ (-1022 : ℤ) ≤ |q| := by
    rw [abs_of_pos h0]
    refine le_trans ?_ h1
    rw [show (1:ℚ) / 2 ^ 200 = 2 ^ (-200 : ℤ) by rw [zpow_neg, one_div]; exact congrArg _ (zpow_natCast 2 200).symm]
    exact zpow_le_zpow_right₀ (by norm_num) (by norm_num)
  have := rnd_rel (K := ℚ) h3
  rw [abs_of_pos h0, Rat.cast_id] at this
  simpa [uro] using this

/-- one component of the normalised vector: `x` times the rounded inverse of an approximate norm -/
theorem scaled_near {x n : F64} (hx : x.Finite) (hn : n.Finite) {r : ℝ} (h1 : 1 / 2 ^ 120 ≤ r) (h2 : r ≤ 2 ^ 120) (hxr : |(x.toQ : ℝ)| ≤ r)
    (he : |(n.toQ : ℝ) - r| ≤ 32 / 10 * ur * r) :
    ((1 / n) * x).Finite ∧ |(((1 / n) * x).toQ : ℝ) - x.toQ / r| ≤ 55 / 10 * ur * (|(x.toQ : ℝ)| / r) + (tau : ℚ) := by
  have hu := ur_pos
  have hu2 := ur_le
  have hr : 0 < r := lt_of_lt_of_le (by positivity) h1
  have hur : ur * r ≤ 1 / 2 ^ 50 * r := mul_le_mul_of_nonneg_right hu2 hr.le
  obtain ⟨he1, he2⟩ := abs_le.mp he
  have hlo : 99 / 100 * r ≤ (n.toQ : ℝ) := by linarith
  have hhi : (n.toQ : ℝ) ≤ 101 / 100 * r := by linarith
  have hn0 : 0 < (n.toQ : ℝ) := by linarith
  have hnq : 0 < n.toQ := by exact_mod_cast hn0
  -- the inverse of n
  have i0 : 0 < 1 / (n.toQ : ℝ) := by positivity
  have r0 : 0 < 1 / r := by positivity
  have i1 : 1 / (n.toQ : ℝ) ≤ 102 / 100 * (1 / r) := by
    rw [div_le_iff₀ hn0]
    have : 102 / 100 * (1 / r) * (99 / 100 * r) ≤ 102 / 100 * (1 / r) * n.toQ := mul_le_mul_of_nonneg_left hlo (by positivity)
    have e : 102 / 100 * (1 / r) * (99 / 100 * r) = 10098 / 10000 * (1 / r * r) := by ring
    rw [e, one_div_mul_cancel hr.ne'] at this
    linarith
  have i2 : |1 / (n.toQ : ℝ) - 1 / r| ≤ 327 / 100 * ur * (1 / r) := by
    have e : 1 / (n.toQ : ℝ) - 1 / r = (r - n.toQ) * (1 / (n.toQ : ℝ)) * (1 / r) := by field_simp
    rw [e, abs_mul, abs_mul, abs_of_pos i0, abs_of_pos r0, abs_sub_comm]
    have h3 : |(n.toQ : ℝ) - r| * (1 / (n.toQ : ℝ)) ≤ (32 / 10 * ur * r) * (102 / 100 * (1 / r)) := mul_le_mul he i1 i0.le (by positivity)
    have e2 : (32 / 10 * ur * r) * (102 / 100 * (1 / r)) = 3264 / 1000 * ur * (1 / r * r) := by ring
    rw [e2, one_div_mul_cancel hr.ne'] at h3
    exact mul_le_mul_of_nonneg_right (by linarith) r0.le
  -- rounded
  have hq1 : 1 / 2 ^ 200 ≤ 1 / n.toQ := by
    have h3 : (n.toQ : ℝ) ≤ 2 ^ 200 := by linarith [show (101:ℝ) / 100 * 2 ^ 120 ≤ 2 ^ 200 by norm_num]
    have h4 : n.toQ ≤ 2 ^ 200 := by exact_mod_cast h3
    exact one_div_le_one_div_of_le hnq h4
  have hq2 : 1 / n.toQ ≤ 2 ^ 200 := by
    have h3 : (1:ℝ) / 2 ^ 200 ≤ n.toQ := by
      have : (1:ℝ) / 2 ^ 200 ≤ 99 / 100 * (1 / 2 ^ 120) := by norm_num
      linarith
    have h4 : (1:ℚ) / 2 ^ 200 ≤ n.toQ := by
      rw [← Rat.cast_le (K := ℝ)]
      push_cast
      exact h3
    rw [div_le_iff₀ hnq]
    have := mul_le_mul_of_nonneg_left h4 (show (0:ℚ) ≤ 2 ^ 200 by positivity)
    rw [mul_one_div_cancel (by positivity)] at this
    exact this
  obtain ⟨hl, hr'⟩ := rnd_mid hq1 hq2
  have one : (1 : F64).toQ = 1 := rfl
  obtain ⟨fR, vR⟩ := div_fin (x := 1) (y := n) trivial hn hnq.ne' (by rw [one]; exact hl)
  rw [one] at vR
  have R1 : |((1 / n : F64).toQ : ℝ) - 1 / (n.toQ : ℝ)| ≤ 102 / 100 * ur * (1 / r) := by
    have h3 : |((1 / n : F64).toQ : ℝ) - 1 / (n.toQ : ℝ)| ≤ ur * (1 / (n.toQ : ℝ)) := by
      rw [vR, ← ur_cast]
      exact_mod_cast hr'
    have h4 : ur * (1 / (n.toQ : ℝ)) ≤ ur * (102 / 100 * (1 / r)) := mul_le_mul_of_nonneg_left i1 hu.le
    linarith
  have R2 : |((1 / n : F64).toQ : ℝ) - 1 / r| ≤ 43 / 10 * ur * (1 / r) := by
    have := abs_sub_le ((1 / n : F64).toQ : ℝ) (1 / (n.toQ : ℝ)) (1 / r)
    have p : 0 ≤ ur * (1 / r) := by positivity
    linarith
  have R3 : |((1 / n : F64).toQ : ℝ)| ≤ 101 / 100 * (1 / r) := by
    have e : ((1 / n : F64).toQ : ℝ) = (((1 / n : F64).toQ : ℝ) - 1 / r) + 1 / r := by ring
    rw [e]
    refine (abs_add_le _ _).trans ?_
    rw [abs_of_pos r0]
    have p : ur * (1 / r) ≤ 1 / 2 ^ 50 * (1 / r) := mul_le_mul_of_nonneg_right hu2 r0.le
    linarith
  -- the product
  have eX : |(x.toQ : ℝ)| * (1 / r) = |(x.toQ : ℝ)| / r := by ring
  have hX1 : |(x.toQ : ℝ)| / r ≤ 1 := (div_le_one hr).mpr hxr
  have hX0 : 0 ≤ |(x.toQ : ℝ)| / r := by positivity
  have P1 : |((1 / n : F64).toQ : ℝ) * x.toQ| ≤ 101 / 100 * (|(x.toQ : ℝ)| / r) := by
    rw [abs_mul, ← eX]
    have := mul_le_mul_of_nonneg_right R3 (abs_nonneg (x.toQ : ℝ))
    linarith
  have P2 : |((1 / n : F64).toQ : ℝ) * x.toQ - x.toQ / r| ≤ 43 / 10 * ur * (|(x.toQ : ℝ)| / r) := by
    have e : ((1 / n : F64).toQ : ℝ) * x.toQ - x.toQ / r = (((1 / n : F64).toQ : ℝ) - 1 / r) * x.toQ := by ring
    rw [e, abs_mul, ← eX]
    have := mul_le_mul_of_nonneg_right R2 (abs_nonneg (x.toQ : ℝ))
    linarith
  have hb : |(1 / n : F64).toQ * x.toQ| ≤ 2 ^ 200 := by
    have h3 : |((1 / n : F64).toQ : ℝ) * x.toQ| ≤ 2 ^ 200 := P1.trans (by linarith [show (101:ℝ) / 100 ≤ 2 ^ 200 by norm_num])
    exact_mod_cast h3
  obtain ⟨fP, vP⟩ := mul_fin fR hx (rnd_small hb)
  refine ⟨fP, ?_⟩
  have P3 : |((1 / n * x : F64).toQ : ℝ) - ((1 / n : F64).toQ : ℝ) * x.toQ| ≤ ur * |((1 / n : F64).toQ : ℝ) * x.toQ| + (tau : ℚ) := by
    rw [vP, ← ur_cast]
    have h3 : |rnd ((1 / n : F64).toQ * x.toQ) - (1 / n : F64).toQ * x.toQ| ≤ uro * |(1 / n : F64).toQ * x.toQ| + tau := by
      have := rnd_abs_err ((1 / n : F64).toQ * x.toQ)
      unfold tau
      exact this
    exact_mod_cast h3
  have P4 : ur * |((1 / n : F64).toQ : ℝ) * x.toQ| ≤ ur * (101 / 100 * (|(x.toQ : ℝ)| / r)) := mul_le_mul_of_nonneg_left P1 hu.le
  have := abs_sub_le ((1 / n * x : F64).toQ : ℝ) (((1 / n : F64).toQ : ℝ) * x.toQ) (x.toQ / r)
  have p : 0 ≤ ur * (|(x.toQ : ℝ)| / r) := mul_nonneg hu.le hX0
  linarith

end Verif.Proofs
