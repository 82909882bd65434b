import Verif.Proofs.NormFloat
/-!
# C81: lengths, distances and normalisation at binary64
-/
namespace Verif.Props
set_option linter.unusedSectionVars false
open Verif Verif.F64 Verif.Proofs Verif.R3

/-- exact sum of the squares of the coordinates -/
def sqLen (v : R3.Vector F64) : ℚ := v.X.toQ ^ 2 + v.Y.toQ ^ 2 + v.Z.toQ ^ 2

/-- the coordinates are numbers -/
def FinV (v : R3.Vector F64) : Prop := v.X.Finite ∧ v.Y.Finite ∧ v.Z.Finite

section
variable {v : R3.Vector F64} (hf : FinV v) (h1 : 1 / 2 ^ 200 ≤ sqLen v) (h2 : sqLen v ≤ 2 ^ 199)
include hf h1 h2

theorem norm2_real : v.Norm2.Finite ∧ |((v.Norm2).toQ : ℝ) - (sqLen v : ℝ)| ≤ 4 * ur * (sqLen v : ℝ) ∧ 0 < v.Norm2.toQ := by
  obtain ⟨f, e⟩ := norm2_near hf.1 hf.2.1 hf.2.2 (S := sqLen v) (by unfold sqLen; ring)
    (le_trans (one_div_le_one_div_of_le (by positivity) (pow_le_pow_right₀ (by norm_num) (by norm_num))) h1) h2
  have hS : 0 < sqLen v := lt_of_lt_of_le (by positivity) h1
  refine ⟨f, ?_, ?_⟩
  · rw [← ur_cast]
    exact_mod_cast e
  · have h3 := (abs_le.mp e).1
    have h4 : uro * sqLen v ≤ 1 / 2 ^ 50 * sqLen v := mul_le_mul_of_nonneg_right uro_le50 hS.le
    show 0 < (v.X * v.X + v.Y * v.Y + v.Z * v.Z).toQ
    linarith

theorem sqLen_real : (1:ℝ) / 2 ^ 200 ≤ (sqLen v : ℝ) ∧ (sqLen v : ℝ) ≤ 2 ^ 199 := by
  have a : (((1:ℚ) / 2 ^ 200 : ℚ) : ℝ) ≤ (sqLen v : ℝ) := Rat.cast_le.mpr h1
  have b : (sqLen v : ℝ) ≤ (((2:ℚ) ^ 199 : ℚ) : ℝ) := Rat.cast_le.mpr h2
  push_cast at a b
  exact ⟨a, b⟩

theorem norm_real : v.Norm.Finite ∧ |((v.Norm).toQ : ℝ) - Real.sqrt (sqLen v)| ≤ 32 / 10 * ur * Real.sqrt (sqLen v) := by
  obtain ⟨f, e, _⟩ := norm2_real hf h1 h2
  obtain ⟨a, b⟩ := sqLen_real hf h1 h2
  obtain ⟨f', e'⟩ := sqrt_near f (by norm_num) a (b.trans (pow_le_pow_right₀ (by norm_num) (by norm_num))) e
  refine ⟨f', e'.trans ?_⟩
  have p : 0 ≤ ur * Real.sqrt (sqLen v) := mul_nonneg ur_pos.le (Real.sqrt_nonneg _)
  have e1 : (4 / (199 / 100) + 101 / 100) * ur * Real.sqrt (sqLen v) = (4 / (199 / 100) + 101 / 100) * (ur * Real.sqrt (sqLen v)) := by ring
  have e2 : 32 / 10 * ur * Real.sqrt (sqLen v) = 32 / 10 * (ur * Real.sqrt (sqLen v)) := by ring
  rw [e1, e2]
  exact mul_le_mul_of_nonneg_right (by norm_num) p

/-- C81: the float64 length is finite and within `4 / 2^53` of the exact length, relatively -/
theorem C81_norm : v.Norm.Finite ∧ |((v.Norm).toQ : ℝ) - Real.sqrt (sqLen v)| ≤ 4 / 2 ^ 53 * Real.sqrt (sqLen v) := by
  obtain ⟨f, e⟩ := norm_real hf h1 h2
  refine ⟨f, e.trans (mul_le_mul_of_nonneg_right ?_ (Real.sqrt_nonneg _))⟩
  unfold ur; norm_num

theorem normalize_eq : Normalize v = ⟨(1 / v.Norm) * v.X, (1 / v.Norm) * v.Y, (1 / v.Norm) * v.Z⟩ := by
  obtain ⟨f, _, p⟩ := norm2_real hf h1 h2
  unfold Normalize
  have : ¬ (v.Norm2 == (0 : F64)) = true := by
    rw [beq_fin (y := (0 : F64)) f trivial]
    exact ne_of_gt p
  simp only [if_neg this]
  rfl

/-- C81: there the in-place form does the same, bit by bit -/
theorem C81_inplace : v.normalizeM = Normalize v := by
  obtain ⟨f, _, p⟩ := norm2_real hf h1 h2
  unfold Normalize R3.Vector.normalizeM
  have : ¬ (v.Norm2 == (0 : F64)) = true := by
    rw [beq_fin (y := (0 : F64)) f trivial]
    exact ne_of_gt p
  simp only [if_neg this]
  rfl

theorem root_range : (1:ℝ) / 2 ^ 120 ≤ Real.sqrt (sqLen v) ∧ Real.sqrt (sqLen v) ≤ 2 ^ 120 := by
  obtain ⟨a, b⟩ := sqLen_real hf h1 h2
  constructor
  · apply Real.le_sqrt_of_sq_le
    exact le_trans (by norm_num) a
  · rw [Real.sqrt_le_left (by positivity)]
    exact b.trans (by norm_num)

theorem comp_le {x : F64} (hx : x.toQ ^ 2 ≤ sqLen v) : |(x.toQ : ℝ)| ≤ Real.sqrt (sqLen v) := by
  rw [← Real.sqrt_sq_eq_abs]
  apply Real.sqrt_le_sqrt
  exact_mod_cast hx

theorem comp_near {x : F64} (hxf : x.Finite) (hx : x.toQ ^ 2 ≤ sqLen v) : ((1 / v.Norm) * x).Finite ∧
    |(((1 / v.Norm) * x).toQ : ℝ) - x.toQ / Real.sqrt (sqLen v)| ≤ 55 / 10 * ur * (|(x.toQ : ℝ)| / Real.sqrt (sqLen v)) + (tau : ℚ) := by
  obtain ⟨f, e⟩ := norm_real hf h1 h2
  obtain ⟨a, b⟩ := root_range hf h1 h2
  exact scaled_near hxf f a b (comp_le hf h1 h2 hx) e

theorem sqX : v.X.toQ ^ 2 ≤ sqLen v := by unfold sqLen; linarith [sq_nonneg v.Y.toQ, sq_nonneg v.Z.toQ]
theorem sqY : v.Y.toQ ^ 2 ≤ sqLen v := by unfold sqLen; linarith [sq_nonneg v.X.toQ, sq_nonneg v.Z.toQ]
theorem sqZ : v.Z.toQ ^ 2 ≤ sqLen v := by unfold sqLen; linarith [sq_nonneg v.X.toQ, sq_nonneg v.Y.toQ]

/-- C81: every coordinate of the float64 `Normalize v` is within `6 / 2^53` of the exact coordinate, relatively, up to an underflow error of `2^-1000` -/
theorem C81_normalize : FinV (Normalize v) ∧
    |((Normalize v).X.toQ : ℝ) - v.X.toQ / Real.sqrt (sqLen v)| ≤ 6 / 2 ^ 53 * (|(v.X.toQ : ℝ)| / Real.sqrt (sqLen v)) + ((1 / 2 ^ 1000 : ℚ) : ℝ) ∧
    |((Normalize v).Y.toQ : ℝ) - v.Y.toQ / Real.sqrt (sqLen v)| ≤ 6 / 2 ^ 53 * (|(v.Y.toQ : ℝ)| / Real.sqrt (sqLen v)) + ((1 / 2 ^ 1000 : ℚ) : ℝ) ∧
    |((Normalize v).Z.toQ : ℝ) - v.Z.toQ / Real.sqrt (sqLen v)| ≤ 6 / 2 ^ 53 * (|(v.Z.toQ : ℝ)| / Real.sqrt (sqLen v)) + ((1 / 2 ^ 1000 : ℚ) : ℝ) := by
  obtain ⟨fx, ex⟩ := comp_near hf h1 h2 hf.1 (sqX hf h1 h2)
  obtain ⟨fy, ey⟩ := comp_near hf h1 h2 hf.2.1 (sqY hf h1 h2)
  obtain ⟨fz, ez⟩ := comp_near hf h1 h2 hf.2.2 (sqZ hf h1 h2)
  have key : ∀ x : F64, 55 / 10 * ur * (|(x.toQ : ℝ)| / Real.sqrt (sqLen v)) + (tau : ℚ) ≤ 6 / 2 ^ 53 * (|(x.toQ : ℝ)| / Real.sqrt (sqLen v)) + ((1 / 2 ^ 1000 : ℚ) : ℝ) := by
    intro x
    have p : 0 ≤ |(x.toQ : ℝ)| / Real.sqrt (sqLen v) := div_nonneg (abs_nonneg _) (Real.sqrt_nonneg _)
    have q : 55 / 10 * ur ≤ 6 / 2 ^ 53 := by unfold ur; norm_num
    refine add_le_add (mul_le_mul_of_nonneg_right q p) (le_of_eq ?_)
    unfold tau; rfl
  rw [normalize_eq hf h1 h2]
  exact ⟨⟨fx, fy, fz⟩, ex.trans (key _), ey.trans (key _), ez.trans (key _)⟩

end

theorem sq_close {W X e t : ℝ} (he : 0 ≤ e) (he' : e ≤ 1 / 1000) (ht : 0 ≤ t) (ht' : t ≤ 1 / 1000) (hX : |X| ≤ 1) (h : |W - X| ≤ e * |X| + t) :
    |W ^ 2 - X ^ 2| ≤ 201 / 100 * e * X ^ 2 + 3 * t := by
  have e1 : W ^ 2 - X ^ 2 = (W - X) * (2 * X + (W - X)) := by ring
  have a0 := abs_nonneg X
  rw [e1, abs_mul]
  have h2 : |2 * X + (W - X)| ≤ 2 * |X| + (e * |X| + t) := by
    refine (abs_add_le _ _).trans (add_le_add ?_ h)
    rw [abs_mul, abs_of_pos (by norm_num : (0:ℝ) < 2)]
  have h0 : 0 ≤ e * |X| + t := add_nonneg (mul_nonneg he a0) ht
  refine (mul_le_mul h h2 (abs_nonneg _) h0).trans ?_
  rw [← sq_abs X]
  have q1 : e * e * |X| ^ 2 ≤ 1 / 1000 * e * |X| ^ 2 := mul_le_mul_of_nonneg_right (mul_le_mul_of_nonneg_right he' he) (sq_nonneg _)
  have q2 : t * |X| ≤ t * 1 := mul_le_mul_of_nonneg_left hX ht
  have q3 : e * (t * |X|) ≤ 1 / 1000 * (t * |X|) := mul_le_mul_of_nonneg_right he' (mul_nonneg ht a0)
  have q4 : t * t ≤ 1 / 1000 * t := mul_le_mul_of_nonneg_right ht' ht
  have q5 : 0 ≤ e * |X| ^ 2 := mul_nonneg he (sq_nonneg _)
  have e2 : (e * |X| + t) * (2 * |X| + (e * |X| + t)) = 2 * (e * |X| ^ 2) + e * e * |X| ^ 2 + 2 * (e * (t * |X|)) + 2 * (t * |X|) + t * t := by ring
  rw [e2]
  linarith

theorem tau_real : (0:ℝ) ≤ ((tau : ℚ) : ℝ) ∧ ((tau : ℚ) : ℝ) ≤ 1 / 2 ^ 100 := by
  refine ⟨by exact_mod_cast tau_pos.le, ?_⟩
  have : ((tau : ℚ) : ℝ) ≤ (((1:ℚ) / 2 ^ 100 : ℚ) : ℝ) := Rat.cast_le.mpr tau_le
  push_cast at this
  exact this

/-- the float64 constant of `IsUnit` -/
theorem unit_const : (GoConst.const (5 / 10 ^ 14) : F64).Finite ∧ 4 / 10 ^ 14 ≤ (GoConst.const (5 / 10 ^ 14) : F64).toQ := by decide +kernel

/-- C81: the float64 `Normalize v` passes the float64 test `IsUnit` -/
theorem C81_unit {v : R3.Vector F64} (hf : FinV v) (h1 : 1 / 2 ^ 200 ≤ sqLen v) (h2 : sqLen v ≤ 2 ^ 199) : (Normalize v).IsUnit = true := by
  obtain ⟨fx, ex⟩ := comp_near hf h1 h2 hf.1 (sqX hf h1 h2)
  obtain ⟨fy, ey⟩ := comp_near hf h1 h2 hf.2.1 (sqY hf h1 h2)
  obtain ⟨fz, ez⟩ := comp_near hf h1 h2 hf.2.2 (sqZ hf h1 h2)
  have hu := ur_pos
  have hu2 := ur_le
  obtain ⟨t0, t1⟩ := tau_real
  have hr : 0 < Real.sqrt (sqLen v) := lt_of_lt_of_le (by positivity) (root_range hf h1 h2).1
  have hrr : Real.sqrt (sqLen v) ^ 2 = sqLen v := Real.sq_sqrt (by exact_mod_cast (lt_of_lt_of_le (by positivity) h1).le)
  have hsum : (v.X.toQ / Real.sqrt (sqLen v)) ^ 2 + (v.Y.toQ / Real.sqrt (sqLen v)) ^ 2 + (v.Z.toQ / Real.sqrt (sqLen v)) ^ 2 = 1 := by
    rw [div_pow, div_pow, div_pow, ← add_div, ← add_div, div_eq_one_iff_eq (by positivity), hrr]
    unfold sqLen
    push_cast
    ring
  have cl : ∀ x : F64, x.toQ ^ 2 ≤ sqLen v → ∀ W : ℝ, |W - x.toQ / Real.sqrt (sqLen v)| ≤ 55 / 10 * ur * (|(x.toQ : ℝ)| / Real.sqrt (sqLen v)) + (tau : ℚ) →
      |W ^ 2 - (x.toQ / Real.sqrt (sqLen v)) ^ 2| ≤ 201 / 100 * (55 / 10 * ur) * (x.toQ / Real.sqrt (sqLen v)) ^ 2 + 3 * (tau : ℚ) := by
    intro x hx W h
    have e : |(x.toQ : ℝ)| / Real.sqrt (sqLen v) = |x.toQ / Real.sqrt (sqLen v)| := by rw [abs_div, abs_of_pos hr]
    rw [e] at h
    refine sq_close (by positivity) (by linarith) t0 (by linarith) ?_ h
    rw [← e, div_le_one hr]
    exact comp_le hf h1 h2 hx
  have cx := abs_le.mp (cl _ (sqX hf h1 h2) _ ex)
  have cy := abs_le.mp (cl _ (sqY hf h1 h2) _ ey)
  have cz := abs_le.mp (cl _ (sqZ hf h1 h2) _ ez)
  rw [normalize_eq hf h1 h2]
  generalize (1 / v.Norm) * v.X = wx at *
  generalize (1 / v.Norm) * v.Y = wy at *
  generalize (1 / v.Norm) * v.Z = wz at *
  have hL : (sqLen ⟨wx, wy, wz⟩ : ℝ) = (wx.toQ : ℝ) ^ 2 + (wy.toQ : ℝ) ^ 2 + (wz.toQ : ℝ) ^ 2 := by unfold sqLen; push_cast; rfl
  generalize ((v.X.toQ : ℝ) / Real.sqrt (sqLen v)) ^ 2 = a at *
  generalize ((v.Y.toQ : ℝ) / Real.sqrt (sqLen v)) ^ 2 = b at *
  generalize ((v.Z.toQ : ℝ) / Real.sqrt (sqLen v)) ^ 2 = c at *
  have eabc : ur * a + ur * b + ur * c = ur := by linear_combination ur * hsum
  have tu : ((tau : ℚ) : ℝ) ≤ 1 / 1000 * ur := by
    refine t1.trans ?_
    unfold ur; norm_num
  have d1 : (sqLen ⟨wx, wy, wz⟩ : ℝ) ≤ 1 + 12 * ur := by rw [hL]; linarith [cx.2, cy.2, cz.2]
  have d2 : 1 - 12 * ur ≤ (sqLen ⟨wx, wy, wz⟩ : ℝ) := by rw [hL]; linarith [cx.1, cy.1, cz.1]
  have q1 : (1:ℚ) / 2 ^ 200 ≤ sqLen ⟨wx, wy, wz⟩ := by
    rw [← Rat.cast_le (K := ℝ)]
    push_cast
    linarith [show (1:ℝ) / 2 ^ 200 ≤ 1 / 2 by norm_num]
  have q2 : sqLen ⟨wx, wy, wz⟩ ≤ 2 ^ 199 := by
    rw [← Rat.cast_le (K := ℝ)]
    push_cast
    linarith [show (2:ℝ) ≤ 2 ^ 199 by norm_num]
  obtain ⟨f, e, _⟩ := norm2_real (v := ⟨wx, wy, wz⟩) ⟨fx, fy, fz⟩ q1 q2
  have e3 : 4 * ur * (sqLen ⟨wx, wy, wz⟩ : ℝ) ≤ 4 * ur * 2 := mul_le_mul_of_nonneg_left (by linarith) (by positivity)
  have e4 := abs_le.mp e
  have g : |((R3.Vector.Norm2 ⟨wx, wy, wz⟩ : F64).toQ : ℝ) - 1| ≤ 20 * ur := abs_le.mpr ⟨by linarith [e4.1], by linarith [e4.2]⟩
  have gq : |(R3.Vector.Norm2 ⟨wx, wy, wz⟩ : F64).toQ - 1| ≤ 20 * uro := by
    rw [← ur_cast] at g
    exact_mod_cast g
  unfold R3.Vector.IsUnit
  rw [decide_eq_true_iff]
  generalize (R3.Vector.Norm2 ⟨wx, wy, wz⟩ : F64) = n at *
  have one : (1 : F64).toQ = 1 := rfl
  have hu3 := uro_le50
  obtain ⟨fs, vs⟩ := sub_fin (y := (1 : F64)) f trivial (rnd_small (by rw [one]; exact gq.trans (by linarith [show (1:ℚ) ≤ 2 ^ 200 by norm_num])))
  have rs := rnd_sub_rel n 1 trivial
  rw [← vs, one] at rs
  have rs2 : uro * |n.toQ - 1| ≤ 1 * |n.toQ - 1| := mul_le_mul_of_nonneg_right (by linarith) (abs_nonneg _)
  have bound : |(n - 1).toQ| ≤ 40 * uro := by
    have := abs_sub_abs_le_abs_sub (n - 1).toQ (n.toQ - 1)
    linarith
  obtain ⟨fa, va⟩ := abs_fin fs
  obtain ⟨fc, vc⟩ := unit_const
  rw [le_fin fa fc, va]
  refine bound.trans (le_trans ?_ vc)
  unfold uro; norm_num

/-- exact squared distance -/
def sqDist (p q : R3.Vector F64) : ℚ := (p.X.toQ - q.X.toQ) ^ 2 + (p.Y.toQ - q.Y.toQ) ^ 2 + (p.Z.toQ - q.Z.toQ) ^ 2

theorem diff_near {x y : F64} (hx : x.Finite) (hy : y.Finite) (h : (x.toQ - y.toQ) ^ 2 ≤ 2 ^ 190) :
    (x - y).Finite ∧ |(x - y).toQ ^ 2 - (x.toQ - y.toQ) ^ 2| ≤ 201 / 100 * uro * (x.toQ - y.toQ) ^ 2 := by
  have hu := uro_pos'
  have hu2 := uro_le50
  have hb : |x.toQ - y.toQ| ≤ 2 ^ 200 := by
    have : |x.toQ - y.toQ| ≤ 2 ^ 95 := abs_le_of_sq_le_sq (by rw [← pow_mul]; exact h) (by positivity)
    exact this.trans (pow_le_pow_right₀ (by norm_num) (by norm_num))
  obtain ⟨f, v⟩ := sub_fin hx hy (rnd_small hb)
  have hr := rnd_sub_rel x y hy
  rw [← v] at hr
  refine ⟨f, ?_⟩
  generalize (x - y).toQ = w at *
  generalize x.toQ - y.toQ = d at *
  have e1 : w ^ 2 - d ^ 2 = (w - d) * (2 * d + (w - d)) := by ring
  rw [e1, abs_mul]
  have a0 := abs_nonneg d
  have hur : uro * |d| ≤ 1 / 1000 * |d| := mul_le_mul_of_nonneg_right (by linarith) a0
  have h2 : |2 * d + (w - d)| ≤ 201 / 100 * |d| := by
    refine (abs_add_le _ _).trans ?_
    rw [abs_mul, abs_of_pos (by norm_num : (0:ℚ) < 2)]
    linarith
  refine (mul_le_mul hr h2 (abs_nonneg _) (mul_nonneg hu.le a0)).trans (le_of_eq ?_)
  rw [← sq_abs d]
  ring

/-- C81: the float64 distance is finite and within `5 / 2^53` of the exact distance, relatively -/
theorem C81_distance {p q : R3.Vector F64} (hp : FinV p) (hq : FinV q) (h1 : 1 / 2 ^ 190 ≤ sqDist p q) (h2 : sqDist p q ≤ 2 ^ 190) :
    (Distance p q).Finite ∧ |((Distance p q).toQ : ℝ) - Real.sqrt (sqDist p q)| ≤ 5 / 2 ^ 53 * Real.sqrt (sqDist p q) := by
  have hu := uro_pos'
  have hu2 := uro_le50
  have sx := sq_nonneg (p.X.toQ - q.X.toQ)
  have sy := sq_nonneg (p.Y.toQ - q.Y.toQ)
  have sz := sq_nonneg (p.Z.toQ - q.Z.toQ)
  have hD : sqDist p q = (p.X.toQ - q.X.toQ) ^ 2 + (p.Y.toQ - q.Y.toQ) ^ 2 + (p.Z.toQ - q.Z.toQ) ^ 2 := rfl
  obtain ⟨fx, ex⟩ := diff_near hp.1 hq.1 (by linarith)
  obtain ⟨fy, ey⟩ := diff_near hp.2.1 hq.2.1 (by linarith)
  obtain ⟨fz, ez⟩ := diff_near hp.2.2 hq.2.2 (by linarith)
  have ex := abs_le.mp ex
  have ey := abs_le.mp ey
  have ez := abs_le.mp ez
  have hL : sqLen (R3.Sub p q) = (p.X - q.X).toQ ^ 2 + (p.Y - q.Y).toQ ^ 2 + (p.Z - q.Z).toQ ^ 2 := rfl
  have hD0 : 0 < sqDist p q := lt_of_lt_of_le (by positivity) h1
  have eU : uro * sqDist p q = uro * (p.X.toQ - q.X.toQ) ^ 2 + uro * (p.Y.toQ - q.Y.toQ) ^ 2 + uro * (p.Z.toQ - q.Z.toQ) ^ 2 := by rw [hD]; ring
  have uD : uro * sqDist p q ≤ 1 / 2 ^ 50 * sqDist p q := mul_le_mul_of_nonneg_right hu2 hD0.le
  have l1 : sqLen (R3.Sub p q) ≤ sqDist p q + 201 / 100 * (uro * sqDist p q) := by rw [hL]; linarith [ex.2, ey.2, ez.2]
  have l2 : sqDist p q - 201 / 100 * (uro * sqDist p q) ≤ sqLen (R3.Sub p q) := by rw [hL]; linarith [ex.1, ey.1, ez.1]
  obtain ⟨f, e⟩ := norm2_near (x := p.X - q.X) (y := p.Y - q.Y) (z := p.Z - q.Z) fx fy fz (S := sqLen (R3.Sub p q)) (by unfold sqLen R3.Sub; ring)
    (by
      have h3 : (1:ℚ) / 2 ^ 400 ≤ 1 / 2 * (1 / 2 ^ 190) := by
        have : (1:ℚ) / 2 ^ 400 ≤ 1 / 2 ^ 191 := one_div_le_one_div_of_le (by positivity) (pow_le_pow_right₀ (by norm_num) (by norm_num))
        exact this.trans (by norm_num)
      linarith) (by linarith [show (2:ℚ) * 2 ^ 190 ≤ 2 ^ 199 by norm_num])
  have e := abs_le.mp e
  have uL : uro * sqLen (R3.Sub p q) ≤ uro * (101 / 100 * sqDist p q) := mul_le_mul_of_nonneg_left (by linarith) hu.le
  have g : |((p.X - q.X) * (p.X - q.X) + (p.Y - q.Y) * (p.Y - q.Y) + (p.Z - q.Z) * (p.Z - q.Z)).toQ - sqDist p q| ≤ 61 / 10 * uro * sqDist p q :=
    abs_le.mpr ⟨by linarith [e.1], by linarith [e.2]⟩
  have gr : |((((p.X - q.X) * (p.X - q.X) + (p.Y - q.Y) * (p.Y - q.Y) + (p.Z - q.Z) * (p.Z - q.Z)).toQ : ℚ) : ℝ) - (sqDist p q : ℝ)| ≤ 61 / 10 * ur * (sqDist p q : ℝ) := by
    have := (Rat.cast_le (K := ℝ)).mpr g
    push_cast at this
    rw [← ur_cast]
    exact this
  have r1 : (1:ℝ) / 2 ^ 200 ≤ (sqDist p q : ℝ) := by
    have := (Rat.cast_le (K := ℝ)).mpr h1
    push_cast at this
    exact le_trans (by norm_num) this
  have r2 : (sqDist p q : ℝ) ≤ 2 ^ 200 := by
    have := (Rat.cast_le (K := ℝ)).mpr h2
    push_cast at this
    exact this.trans (by norm_num)
  obtain ⟨f', e'⟩ := sqrt_near f (by norm_num) r1 r2 gr
  refine ⟨f', e'.trans (mul_le_mul_of_nonneg_right ?_ (Real.sqrt_nonneg _))⟩
  unfold ur; norm_num

/-- points with coordinates that are not dyadic fractions of few bits meet the hypotheses -/
example : FinV ⟨GoConst.const (1 / 10), GoConst.const (-7 / 3), GoConst.const (10 ^ 9)⟩ ∧ 1 / 2 ^ 200 ≤ sqLen ⟨GoConst.const (1 / 10), GoConst.const (-7 / 3), GoConst.const (10 ^ 9)⟩ ∧
    sqLen ⟨GoConst.const (1 / 10), GoConst.const (-7 / 3), GoConst.const (10 ^ 9)⟩ ≤ 2 ^ 199 := by
  unfold FinV
  decide +kernel

end Verif.Props
