import Verif.Props.NormFloat
import Verif.Proofs.VolFloat
import Verif.Props.R3
/-!
# C85: the intersection of a line and a plane at binary64
-/
namespace Verif.Props
set_option linter.unusedSectionVars false
open Verif Verif.F64 Verif.Proofs Verif.R3

/-- the vector of the exact values, as reals -/
noncomputable def realV (v : R3.Vector F64) : R3.Vector ℝ := ⟨v.X.toQ, v.Y.toQ, v.Z.toQ⟩

/-- exact scalar product -/
def dotQ (v w : R3.Vector F64) : ℚ := v.X.toQ * w.X.toQ + v.Y.toQ * w.Y.toQ + v.Z.toQ * w.Z.toQ

/-- sizes of a line and a plane: the normal up to `N`, the points up to `M`, a direction of moderate length -/
structure LineFit (l : Line F64) (p : Plane3D F64) (N M : ℚ) : Prop where
  nlow : 1 / 2 ^ 60 ≤ N
  nhigh : N ≤ 2 ^ 60
  mlow : 1 / 2 ^ 60 ≤ M
  mhigh : M ≤ 2 ^ 60
  normal : Bounded3 N p.Normal
  base : Bounded3 M p.point
  start : Bounded3 M l.point
  dfin : FinV l.Direction
  dlow : 1 / 2 ^ 200 ≤ sqLen l.Direction
  dhigh : sqLen l.Direction ≤ 2 ^ 199

/-- quotient of approximations -/
theorem quot_bound {u C Q den num N M κ : ℝ} (u0 : 0 < u) (u1 : u ≤ 1 / 2 ^ 50) (N0 : 0 < N) (M0 : 0 < M) (k1 : 1 ≤ κ) (k2 : κ ≤ 2 ^ 20)
    (hC : N ≤ κ * |C|) (hd : |den - C| ≤ 32 * u * N) (hn : |num - Q| ≤ 31 * u * (N * M)) (hQ : |Q| ≤ 6 * (N * M)) :
    den ≠ 0 ∧ |num / den - Q / C| ≤ 224 * u * (κ ^ 2 * M) ∧ |Q / C| ≤ 6 * (κ * M) := by
  have C0 : 0 < |C| := by
    by_contra h
    have : |C| = 0 := le_antisymm (not_lt.mp h) (abs_nonneg _)
    rw [this, mul_zero] at hC
    linarith
  have hCn : C ≠ 0 := abs_pos.mp C0
  have k0 : 0 < κ := by linarith
  have hs : 32 * u * N ≤ 1 / 1000 * |C| := by
    have h1 : 32 * u * N ≤ 32 * u * (κ * |C|) := mul_le_mul_of_nonneg_left hC (by positivity)
    have h2 : 32 * u * κ ≤ 1 / 1000 := by
      have : u * κ ≤ 1 / 2 ^ 50 * 2 ^ 20 := mul_le_mul u1 k2 k0.le (by norm_num)
      have e : (1:ℝ) / 2 ^ 50 * 2 ^ 20 = 1 / 2 ^ 30 := by norm_num
      rw [e] at this
      have : (1:ℝ) / 2 ^ 30 ≤ 1 / 32000 := by norm_num
      linarith
    have h3 : 32 * u * (κ * |C|) = 32 * u * κ * |C| := by ring
    rw [h3] at h1
    exact h1.trans (mul_le_mul_of_nonneg_right h2 C0.le)
  have hden : 999 / 1000 * |C| ≤ |den| := by
    have : |C| ≤ |den| + |den - C| := by
      have e : C = den - (den - C) := by ring
      calc |C| = |den - (den - C)| := by rw [← e]
        _ ≤ |den| + |den - C| := abs_sub _ _
    linarith
  have D0 : 0 < |den| := by linarith
  have hdn : den ≠ 0 := abs_pos.mp D0
  refine ⟨hdn, ?_, ?_⟩
  · have e : num / den - Q / C = (num - Q) / den - Q * (den - C) / (den * C) := by field_simp; ring
    rw [e]
    have a1 : |(num - Q) / den| ≤ 3104 / 100 * u * (κ ^ 2 * M) := by
      rw [abs_div, div_le_iff₀ D0]
      refine hn.trans ?_
      have h1 : N * M ≤ κ * |C| * M := mul_le_mul_of_nonneg_right hC M0.le
      have h2 : κ * |C| * M ≤ κ ^ 2 * M * |C| := by
        have : κ * (|C| * M) ≤ κ ^ 2 * (|C| * M) := mul_le_mul_of_nonneg_right (by rw [sq]; exact le_mul_of_one_le_left k0.le k1) (by positivity)
        have e1 : κ * |C| * M = κ * (|C| * M) := by ring
        have e2 : κ ^ 2 * M * |C| = κ ^ 2 * (|C| * M) := by ring
        rw [e1, e2]; exact this
      have h3 : 3104 / 100 * u * (κ ^ 2 * M) * (999 / 1000 * |C|) ≤ 3104 / 100 * u * (κ ^ 2 * M) * |den| := mul_le_mul_of_nonneg_left hden (by positivity)
      refine le_trans ?_ h3
      have h4 : 31 * u * (N * M) ≤ 31 * u * (κ ^ 2 * M * |C|) := mul_le_mul_of_nonneg_left (h1.trans h2) (by positivity)
      refine h4.trans ?_
      have e3 : 3104 / 100 * u * (κ ^ 2 * M) * (999 / 1000 * |C|) = 3104 / 100 * (999 / 1000) * (u * (κ ^ 2 * M * |C|)) := by ring
      have e4 : 31 * u * (κ ^ 2 * M * |C|) = 31 * (u * (κ ^ 2 * M * |C|)) := by ring
      rw [e3, e4]
      exact mul_le_mul_of_nonneg_right (by norm_num) (by positivity)
    have a2 : |Q * (den - C) / (den * C)| ≤ 1923 / 10 * u * (κ ^ 2 * M) := by
      rw [abs_div, abs_mul, abs_mul, div_le_iff₀ (mul_pos D0 C0)]
      have h1 : |Q| * |den - C| ≤ 6 * (N * M) * (32 * u * N) := mul_le_mul hQ hd (abs_nonneg _) (by positivity)
      have h2 : N * N ≤ κ * |C| * (κ * |C|) := mul_le_mul hC hC N0.le (by positivity)
      have h3 : 6 * (N * M) * (32 * u * N) = 192 * u * M * (N * N) := by ring
      have h4 : 192 * u * M * (N * N) ≤ 192 * u * M * (κ * |C| * (κ * |C|)) := mul_le_mul_of_nonneg_left h2 (by positivity)
      have h5 : 1923 / 10 * u * (κ ^ 2 * M) * (999 / 1000 * |C| * |C|) ≤ 1923 / 10 * u * (κ ^ 2 * M) * (|den| * |C|) :=
        mul_le_mul_of_nonneg_left (mul_le_mul_of_nonneg_right hden C0.le) (by positivity)
      refine le_trans ?_ h5
      rw [h3] at h1
      refine (h1.trans h4).trans ?_
      have e3 : 1923 / 10 * u * (κ ^ 2 * M) * (999 / 1000 * |C| * |C|) = 1923 / 10 * (999 / 1000) * (u * (κ ^ 2 * M * (|C| * |C|))) := by ring
      have e4 : 192 * u * M * (κ * |C| * (κ * |C|)) = 192 * (u * (κ ^ 2 * M * (|C| * |C|))) := by ring
      rw [e3, e4]
      exact mul_le_mul_of_nonneg_right (by norm_num) (by positivity)
    have p : 0 ≤ u * (κ ^ 2 * M) := by positivity
    refine (abs_sub _ _).trans ?_
    linarith
  · rw [abs_div, div_le_iff₀ C0]
    have h1 : 6 * (N * M) ≤ 6 * (κ * |C| * M) := by
      have := mul_le_mul_of_nonneg_right hC M0.le
      linarith
    linarith

/-- absolute error of a rounding, as reals -/
theorem rnd_err_real (q : ℚ) : |((rnd q : ℚ) : ℝ) - (q : ℝ)| ≤ ur * |(q : ℝ)| + ((tau : ℚ) : ℝ) := by
  have h := (Rat.cast_le (K := ℝ)).mpr (rnd_abs_err q)
  push_cast at h
  rw [ur_cast] at h
  have e : ((tau : ℚ) : ℝ) = 1 / 2 ^ 1000 := by unfold tau; push_cast; rfl
  rw [e]
  exact h

theorem rnd_small_real {q : ℚ} (h : |(q : ℝ)| ≤ 2 ^ 190) : |rnd q| < 2 ^ 1024 := by
  apply rnd_small
  have : |q| ≤ 2 ^ 190 := by exact_mod_cast h
  exact this.trans (by norm_num)

/-- one coordinate of the point: start plus parameter times direction -/
theorem coord_bound {s t w : F64} (hs : s.Finite) (ht : t.Finite) (hw : w.Finite) {T U M κ : ℝ} (m0 : 1 / 2 ^ 60 ≤ M) (m1 : M ≤ 2 ^ 60) (k1 : 1 ≤ κ) (k2 : κ ≤ 2 ^ 20)
    (hM : |(s.toQ : ℝ)| ≤ M) (hT : |(t.toQ : ℝ) - T| ≤ 232 * ur * (κ ^ 2 * M)) (hT' : |T| ≤ 6 * (κ * M)) (hU : |U| ≤ 1) (hwU : |(w.toQ : ℝ) - U| ≤ 61 / 10 * ur) :
    (s + t * w).Finite ∧ |((s + t * w).toQ : ℝ) - (s.toQ + T * U)| ≤ 300 * ur * (κ ^ 2 * M) := by
  have u0 := ur_pos
  have u1 := ur_le
  have M0 : 0 < M := lt_of_lt_of_le (by positivity) m0
  have k0 : 0 < κ := by linarith
  have kk : κ ≤ κ ^ 2 := by rw [sq]; exact le_mul_of_one_le_left k0.le k1
  have hkM : κ * M ≤ κ ^ 2 * M := mul_le_mul_of_nonneg_right kk M0.le
  have hMk : M ≤ κ * M := le_mul_of_one_le_left M0.le k1
  have P0 : 0 < κ ^ 2 * M := by positivity
  obtain ⟨t0, t1⟩ := tau_real
  -- underflow is negligible
  have htau : ((tau : ℚ) : ℝ) ≤ 1 / 10 * ur * (κ ^ 2 * M) := by
    have a : (1:ℝ) / 2 ^ 114 ≤ ur * M := by
      unfold ur
      calc (1:ℝ) / 2 ^ 114 ≤ 1 / 2 ^ 53 * (1 / 2 ^ 60) := by norm_num
        _ ≤ _ := mul_le_mul_of_nonneg_left m0 (by norm_num)
    have b : ((tau : ℚ) : ℝ) ≤ 1 / 2 ^ 124 := by
      have : tau ≤ 1 / 2 ^ 124 := by
        unfold tau
        exact one_div_le_one_div_of_le (by positivity) (pow_le_pow_right₀ (by norm_num) (by norm_num))
      have := (Rat.cast_le (K := ℝ)).mpr this
      push_cast at this
      exact this
    have c : ur * M ≤ ur * (κ ^ 2 * M) := mul_le_mul_of_nonneg_left (hMk.trans hkM) u0.le
    have d : (1:ℝ) / 2 ^ 124 ≤ 1 / 10 * (1 / 2 ^ 114) := by norm_num
    linarith
  have hu2 : ur * (κ ^ 2 * M) ≤ 1 / 10000 * (κ * M) := by
    have : ur * κ ≤ 1 / 2 ^ 50 * 2 ^ 20 := mul_le_mul u1 k2 k0.le (by norm_num)
    have h : ur * κ ≤ 1 / 10000 := this.trans (by norm_num)
    have e : ur * (κ ^ 2 * M) = ur * κ * (κ * M) := by ring
    rw [e]
    exact mul_le_mul_of_nonneg_right h (by positivity)
  have hw1 : |(w.toQ : ℝ)| ≤ 1001 / 1000 := by
    have e : (w.toQ : ℝ) = U + (w.toQ - U) := by ring
    rw [e]
    refine (abs_add_le _ _).trans ?_
    have : (1:ℝ) / 2 ^ 50 ≤ 1 / 10000 := by norm_num
    linarith
  -- the product before rounding
  have hprod : |(t.toQ : ℝ) * w.toQ - T * U| ≤ 2691 / 10 * ur * (κ ^ 2 * M) := by
    have e : (t.toQ : ℝ) * w.toQ - T * U = (t.toQ - T) * w.toQ + T * (w.toQ - U) := by ring
    rw [e]
    refine (abs_add_le _ _).trans ?_
    rw [abs_mul, abs_mul]
    have a := mul_le_mul hT hw1 (abs_nonneg _) (by positivity)
    have b := mul_le_mul hT' hwU (abs_nonneg _) (by positivity)
    have c : ur * (κ * M) ≤ ur * (κ ^ 2 * M) := mul_le_mul_of_nonneg_left hkM u0.le
    have d : 6 * (κ * M) * (61 / 10 * ur) = 366 / 10 * (ur * (κ * M)) := by ring
    have f : 232 * ur * (κ ^ 2 * M) * (1001 / 1000) = 232 * 1001 / 1000 * (ur * (κ ^ 2 * M)) := by ring
    rw [d] at b
    rw [f] at a
    have p : 0 ≤ ur * (κ ^ 2 * M) := by positivity
    linarith
  have hTU : |T * U| ≤ 6 * (κ * M) := by
    rw [abs_mul]
    have := mul_le_mul hT' hU (abs_nonneg _) (by positivity)
    linarith
  have hpS : |(t.toQ : ℝ) * w.toQ| ≤ 61 / 10 * (κ * M) := by
    have e : (t.toQ : ℝ) * w.toQ = T * U + (t.toQ * w.toQ - T * U) := by ring
    rw [e]
    refine (abs_add_le _ _).trans ?_
    linarith
  have hbig : κ * M ≤ 2 ^ 80 := by
    have := mul_le_mul k2 m1 M0.le (by norm_num)
    refine this.trans (by norm_num)
  obtain ⟨fm, em⟩ := mul_fin ht hw (rnd_small_real (q := t.toQ * w.toQ) (by
    push_cast
    have : (61:ℝ) / 10 * 2 ^ 80 ≤ 2 ^ 190 := by norm_num
    linarith))
  have rm := rnd_err_real (t.toQ * w.toQ)
  rw [← em] at rm
  push_cast at rm
  have hm : |((t * w).toQ : ℝ) - T * U| ≤ 2754 / 10 * ur * (κ ^ 2 * M) := by
    have e : ((t * w).toQ : ℝ) - T * U = ((t * w).toQ - t.toQ * w.toQ) + (t.toQ * w.toQ - T * U) := by ring
    rw [e]
    refine (abs_add_le _ _).trans ?_
    have a : ur * |(t.toQ : ℝ) * w.toQ| ≤ ur * (61 / 10 * (κ * M)) := mul_le_mul_of_nonneg_left hpS u0.le
    have c : ur * (κ * M) ≤ ur * (κ ^ 2 * M) := mul_le_mul_of_nonneg_left hkM u0.le
    linarith
  have hsum : |(s.toQ : ℝ) + (t * w).toQ - (s.toQ + T * U)| ≤ 2754 / 10 * ur * (κ ^ 2 * M) := by
    have e : (s.toQ : ℝ) + (t * w).toQ - (s.toQ + T * U) = (t * w).toQ - T * U := by ring
    rw [e]; exact hm
  have hsS : |(s.toQ : ℝ) + (t * w).toQ| ≤ 72 / 10 * (κ * M) := by
    have e : (s.toQ : ℝ) + (t * w).toQ = s.toQ + T * U + ((t * w).toQ - T * U) := by ring
    rw [e]
    refine (abs_add_le _ _).trans ?_
    have := abs_add_le (s.toQ : ℝ) (T * U)
    linarith
  obtain ⟨fa, ea⟩ := add_fin hs fm (rnd_small_real (q := s.toQ + (t * w).toQ) (by
    push_cast
    have : (72:ℝ) / 10 * 2 ^ 80 ≤ 2 ^ 190 := by norm_num
    linarith))
  refine ⟨fa, ?_⟩
  have ra := rnd_err_real (s.toQ + (t * w).toQ)
  rw [← ea] at ra
  push_cast at ra
  have e : ((s + t * w).toQ : ℝ) - (s.toQ + T * U) = ((s + t * w).toQ - (s.toQ + (t * w).toQ)) + (s.toQ + (t * w).toQ - (s.toQ + T * U)) := by ring
  rw [e]
  refine (abs_add_le _ _).trans ?_
  have a : ur * |(s.toQ : ℝ) + (t * w).toQ| ≤ ur * (72 / 10 * (κ * M)) := mul_le_mul_of_nonneg_left hsS u0.le
  have c : ur * (κ * M) ≤ ur * (κ ^ 2 * M) := mul_le_mul_of_nonneg_left hkM u0.le
  have p : 0 ≤ ur * (κ ^ 2 * M) := by positivity
  linarith

/-- a computed scalar product -/
theorem dot_app {N R : ℚ} (hN : Scale N) (hR : Scale R) (hNR : Scale (N * R)) {n v : R3.Vector F64} (hn : Bounded3 N n) (hv : Bounded3 R v) :
    App (Dot n v) (dotQ n v) (N * R) 12 3 := by
  have m : ∀ {x y : F64}, (x.Finite ∧ |x.toQ| ≤ N) → (y.Finite ∧ |y.toQ| ≤ R) → App (x * y) (x.toQ * y.toQ) (N * R) 2 1 := by
    intro x y hx hy
    have a : App x x.toQ N 0 1 := ⟨hx.1, by simp, by simpa using hx.2⟩
    have b : App y y.toQ R 0 1 := ⟨hy.1, by simp, by simpa using hy.2⟩
    exact (a.mul b hN hR hNR (by norm_num) (by norm_num) (by norm_num) (by norm_num)).weaken hNR (by norm_num) (by norm_num)
  have s1 := ((m hn.1 hv.1).add (m hn.2.1 hv.2.1) hNR (by norm_num) (by norm_num) (by norm_num) (by norm_num)).weaken (k' := 13 / 2) (b' := 2) hNR (by norm_num) (by norm_num)
  exact (s1.add (m hn.2.2 hv.2.2) hNR (by norm_num) (by norm_num) (by norm_num) (by norm_num)).weaken hNR (by norm_num) (by norm_num)

section
variable {l : Line F64} {p : Plane3D F64} {N M κ : ℚ}

/-- C85: if the angle is not too small (the cosine between direction and normal, relative to `N`, is at least `1 / κ`), IntersectPlane does not panic and
its point is within `300 * 2^-53 * κ^2 * M` of the point computed over the reals, which is the exact intersection by C05 -/
theorem C85_intersect (h : LineFit l p N M) (k1 : 1 ≤ κ) (k2 : κ ≤ 2 ^ 20) (hk : N ^ 2 * sqLen l.Direction ≤ κ ^ 2 * dotQ p.Normal l.Direction ^ 2) :
    ∃ r x, l.IntersectPlane p = .ok r ∧ (⟨realV l.point, realV l.Direction⟩ : Line ℝ).IntersectPlane ⟨realV p.Normal, realV p.point⟩ = .ok x ∧
      FinV r ∧ |(r.X.toQ : ℝ) - x.X| ≤ 300 / 2 ^ 53 * (κ ^ 2 * M) ∧ |(r.Y.toQ : ℝ) - x.Y| ≤ 300 / 2 ^ 53 * (κ ^ 2 * M) ∧
      |(r.Z.toQ : ℝ) - x.Z| ≤ 300 / 2 ^ 53 * (κ ^ 2 * M) := by
  have u0 := ur_pos
  have u1 := ur_le
  obtain ⟨t0, t1⟩ := tau_real
  obtain ⟨fw, ex, ey, ez⟩ := C81_normalize h.dfin h.dlow h.dhigh
  have hr : 0 < Real.sqrt (sqLen l.Direction) := lt_of_lt_of_le (by positivity) (root_range h.dfin h.dlow h.dhigh).1
  have hrr : Real.sqrt (sqLen l.Direction) ^ 2 = sqLen l.Direction := Real.sq_sqrt (by exact_mod_cast (lt_of_lt_of_le (by positivity) h.dlow).le)
  have cX := comp_le h.dfin h.dlow h.dhigh (sqX h.dfin h.dlow h.dhigh)
  have cY := comp_le h.dfin h.dlow h.dhigh (sqY h.dfin h.dlow h.dhigh)
  have cZ := comp_le h.dfin h.dlow h.dhigh (sqZ h.dfin h.dlow h.dhigh)
  have etau : ((1 / 2 ^ 1000 : ℚ) : ℝ) = ((tau : ℚ) : ℝ) := by unfold tau; rfl
  rw [etau] at ex ey ez
  generalize hw : Normalize l.Direction = w at *
  generalize hR : Real.sqrt (sqLen l.Direction) = R at *
  have unit : ∀ {d : ℝ}, |d| ≤ R → |d / R| ≤ 1 := by
    intro d hd
    rw [abs_div, abs_of_pos hr, div_le_one hr]
    exact hd
  have near : ∀ {d v : ℝ}, |d| ≤ R → |v - d / R| ≤ 6 / 2 ^ 53 * (|d| / R) + ((tau : ℚ) : ℝ) → |v - d / R| ≤ 61 / 10 * ur := by
    intro d v hd hv
    refine hv.trans ?_
    have a := unit hd
    rw [abs_div, abs_of_pos hr] at a
    have b : (1:ℝ) / 2 ^ 100 ≤ 1 / 10 * ur := by unfold ur; norm_num
    have c : 6 / 2 ^ 53 * (|d| / R) ≤ 6 / 2 ^ 53 * 1 := mul_le_mul_of_nonneg_left a (by positivity)
    have d : (6:ℝ) / 2 ^ 53 = 6 * ur := by unfold ur; ring
    linarith
  have nx := near cX ex
  have ny := near cY ey
  have nz := near cZ ez
  have sw : ∀ {x : F64} {d : ℝ}, x.Finite → |d| ≤ R → |(x.toQ : ℝ) - d / R| ≤ 61 / 10 * ur → x.Finite ∧ |x.toQ| ≤ 9 / 8 := by
    intro x d fx hd hx
    refine ⟨fx, ?_⟩
    have a := unit hd
    have e : (x.toQ : ℝ) = d / R + (x.toQ - d / R) := by ring
    have b : |(x.toQ : ℝ)| ≤ 9 / 8 := by
      rw [e]
      refine (abs_add_le _ _).trans ?_
      have : (1:ℝ) / 2 ^ 50 ≤ 1 / 100 := by norm_num
      linarith
    have c : ((|x.toQ| : ℚ) : ℝ) ≤ ((9 / 8 : ℚ) : ℝ) := by push_cast; exact b
    exact Rat.cast_le.mp c
  have bw : Bounded3 (9 / 8) w := ⟨sw fw.1 cX nx, sw fw.2.1 cY ny, sw fw.2.2 cZ nz⟩
  -- the two scalar products
  have N0 : 0 < N := lt_of_lt_of_le (by positivity) h.nlow
  have M0 : 0 < M := lt_of_lt_of_le (by positivity) h.mlow
  have sN : Scale N := ⟨le_trans (by norm_num) h.nlow, h.nhigh.trans (by norm_num)⟩
  have sM : Scale M := ⟨le_trans (by norm_num) h.mlow, h.mhigh.trans (by norm_num)⟩
  have s1 : Scale (9 / 8) := ⟨by norm_num, by norm_num⟩
  have sN1 : Scale (N * (9 / 8)) := by
    have a := h.nlow
    have b := h.nhigh
    exact ⟨by linarith [show (1:ℚ) / 2 ^ 170 ≤ 1 / 2 ^ 60 by norm_num], by linarith [show (2:ℚ) * 2 ^ 60 ≤ 2 ^ 170 by norm_num]⟩
  have sNM : Scale (N * M) := by
    constructor
    · have := mul_le_mul h.nlow h.mlow (by positivity) N0.le
      exact le_trans (by norm_num) this
    · have := mul_le_mul h.nhigh h.mhigh M0.le (by positivity)
      exact this.trans (by norm_num)
  have aD := dot_app sN s1 sN1 h.normal bw
  have aQ := (dot_app sN sM sNM h.normal h.base).sub (dot_app sN sM sNM h.normal h.start) sNM (by norm_num) (by norm_num) (by norm_num) (by norm_num)
  have N0r : (0:ℝ) < N := by exact_mod_cast N0
  have M0r : (0:ℝ) < M := by exact_mod_cast M0
  have k1r : (1:ℝ) ≤ κ := by exact_mod_cast k1
  have k2r : (κ:ℝ) ≤ 2 ^ 20 := by exact_mod_cast k2
  have m0r : (1:ℝ) / 2 ^ 60 ≤ M := by
    have := (Rat.cast_le (K := ℝ)).mpr h.mlow
    push_cast at this; exact this
  have m1r : (M:ℝ) ≤ 2 ^ 60 := by exact_mod_cast h.mhigh
  have hnb : ∀ {x : F64}, (x.Finite ∧ |x.toQ| ≤ N) → |(x.toQ : ℝ)| ≤ N := fun hx => by exact_mod_cast hx.2
  have hmb : ∀ {x : F64}, (x.Finite ∧ |x.toQ| ≤ M) → |(x.toQ : ℝ)| ≤ M := fun hx => by exact_mod_cast hx.2
  have n1 := hnb h.normal.1
  have n2 := hnb h.normal.2.1
  have n3 := hnb h.normal.2.2
  set C : ℝ := (dotQ p.Normal l.Direction : ℚ) / R with hC
  set Q : ℝ := ((dotQ p.Normal p.point - dotQ p.Normal l.point : ℚ) : ℝ) with hQ
  have hCk : (N:ℝ) ≤ κ * |C| := by
    rw [hC, abs_div, abs_of_pos hr, ← mul_div_assoc, le_div_iff₀ hr]
    have e : ((N:ℝ) * R) ^ 2 ≤ (κ * |((dotQ p.Normal l.Direction : ℚ) : ℝ)|) ^ 2 := by
      rw [mul_pow, mul_pow, sq_abs, hrr]
      have := (Rat.cast_le (K := ℝ)).mpr hk
      push_cast at this
      exact this
    exact (pow_le_pow_iff_left₀ (by positivity) (by positivity) (by norm_num)).mp e
  have dD : |((Dot p.Normal w).toQ : ℝ) - C| ≤ 32 * ur * N := by
    have a : |((Dot p.Normal w).toQ : ℝ) - (dotQ p.Normal w : ℚ)| ≤ 12 * (ur * (N * (9 / 8))) := by
      have := (Rat.cast_le (K := ℝ)).mpr aD.err
      push_cast at this
      rw [ur_cast] at this
      exact this
    have b : ((dotQ p.Normal w : ℚ) : ℝ) - C = p.Normal.X.toQ * (w.X.toQ - l.Direction.X.toQ / R) + p.Normal.Y.toQ * (w.Y.toQ - l.Direction.Y.toQ / R) +
        p.Normal.Z.toQ * (w.Z.toQ - l.Direction.Z.toQ / R) := by
      rw [hC]; unfold dotQ; push_cast; ring
    have c : ∀ {x y : ℝ}, |x| ≤ N → |y| ≤ 61 / 10 * ur → |x * y| ≤ 61 / 10 * (ur * N) := by
      intro x y hx hy
      rw [abs_mul]
      have := mul_le_mul hx hy (abs_nonneg _) N0r.le
      linarith
    have d : |((dotQ p.Normal w : ℚ) : ℝ) - C| ≤ 183 / 10 * (ur * N) := by
      rw [b]
      refine (abs_add_le _ _).trans ?_
      have := abs_add_le ((p.Normal.X.toQ : ℝ) * (w.X.toQ - l.Direction.X.toQ / R)) (p.Normal.Y.toQ * (w.Y.toQ - l.Direction.Y.toQ / R))
      have := c n1 nx
      have := c n2 ny
      have := c n3 nz
      linarith
    have e : ((Dot p.Normal w).toQ : ℝ) - C = ((Dot p.Normal w).toQ - (dotQ p.Normal w : ℚ)) + ((dotQ p.Normal w : ℚ) - C) := by ring
    rw [e]
    refine (abs_add_le _ _).trans ?_
    have : 0 ≤ ur * N := by positivity
    linarith
  have dN : |((Dot p.Normal p.point - Dot p.Normal l.point).toQ : ℝ) - Q| ≤ 31 * ur * (N * M) := by
    have := (Rat.cast_le (K := ℝ)).mpr aQ.err
    push_cast at this
    rw [ur_cast] at this
    rw [hQ]
    push_cast
    have p0 : 0 ≤ ur * ((N:ℝ) * M) := by positivity
    refine this.trans ?_
    linarith
  have bQ : |Q| ≤ 6 * (N * M) := by
    have := (Rat.cast_le (K := ℝ)).mpr aQ.le
    push_cast at this
    rw [hQ]
    push_cast
    refine this.trans (le_of_eq ?_); ring
  obtain ⟨dne, qerr, qle⟩ := quot_bound u0 u1 N0r M0r k1r k2r hCk dD dN bQ
  -- the float quotient
  have fD := aD.fin
  have fN := aQ.fin
  generalize hden : Dot p.Normal w = den at *
  generalize hnum : Dot p.Normal p.point - Dot p.Normal l.point = num at *
  have dne' : den.toQ ≠ 0 := by exact_mod_cast dne
  have kk : (κ:ℝ) ≤ κ ^ 2 := by rw [sq]; exact le_mul_of_one_le_left (by linarith) k1r
  have hkM : (κ:ℝ) * M ≤ κ ^ 2 * M := mul_le_mul_of_nonneg_right kk M0r.le
  have hMk : (M:ℝ) ≤ κ * M := le_mul_of_one_le_left M0r.le k1r
  have P0 : 0 ≤ ur * ((κ:ℝ) ^ 2 * M) := by positivity
  have hu2 : ur * ((κ:ℝ) ^ 2 * M) ≤ 1 / 10000 * (κ * M) := by
    have : ur * κ ≤ 1 / 2 ^ 50 * 2 ^ 20 := mul_le_mul u1 k2r (by linarith) (by norm_num)
    have h : ur * κ ≤ 1 / 10000 := this.trans (by norm_num)
    have e : ur * ((κ:ℝ) ^ 2 * M) = ur * κ * (κ * M) := by ring
    rw [e]
    exact mul_le_mul_of_nonneg_right h (by positivity)
  have qS : |(num.toQ : ℝ) / den.toQ| ≤ 61 / 10 * (κ * M) := by
    have e : (num.toQ : ℝ) / den.toQ = Q / C + (num.toQ / den.toQ - Q / C) := by ring
    rw [e]
    refine (abs_add_le _ _).trans ?_
    linarith
  have hbig : (κ:ℝ) * M ≤ 2 ^ 80 := by
    have := mul_le_mul k2r m1r M0r.le (by norm_num)
    exact this.trans (by norm_num)
  obtain ⟨ft, et⟩ := div_fin fN fD dne' (rnd_small_real (q := num.toQ / den.toQ) (by
    push_cast
    have : (61:ℝ) / 10 * 2 ^ 80 ≤ 2 ^ 190 := by norm_num
    linarith))
  have rt := rnd_err_real (num.toQ / den.toQ)
  rw [← et] at rt
  push_cast at rt
  have tlow : ((tau : ℚ) : ℝ) ≤ 1 / 10 * ur * (κ ^ 2 * M) := by
    have a : (1:ℝ) / 2 ^ 114 ≤ ur * M := by
      unfold ur
      calc (1:ℝ) / 2 ^ 114 ≤ 1 / 2 ^ 53 * (1 / 2 ^ 60) := by norm_num
        _ ≤ _ := mul_le_mul_of_nonneg_left m0r (by norm_num)
    have b : ((tau : ℚ) : ℝ) ≤ 1 / 2 ^ 124 := by
      have : tau ≤ 1 / 2 ^ 124 := by
        unfold tau
        exact one_div_le_one_div_of_le (by positivity) (pow_le_pow_right₀ (by norm_num) (by norm_num))
      have := (Rat.cast_le (K := ℝ)).mpr this
      push_cast at this
      exact this
    have c : ur * M ≤ ur * (κ ^ 2 * M) := mul_le_mul_of_nonneg_left (hMk.trans hkM) u0.le
    have d : (1:ℝ) / 2 ^ 124 ≤ 1 / 10 * (1 / 2 ^ 114) := by norm_num
    linarith
  have terr : |((num / den).toQ : ℝ) - Q / C| ≤ 232 * ur * (κ ^ 2 * M) := by
    have e : ((num / den).toQ : ℝ) - Q / C = ((num / den).toQ - num.toQ / den.toQ) + (num.toQ / den.toQ - Q / C) := by ring
    rw [e]
    refine (abs_add_le _ _).trans ?_
    have a : ur * |(num.toQ : ℝ) / den.toQ| ≤ ur * (61 / 10 * (κ * M)) := mul_le_mul_of_nonneg_left qS u0.le
    have c : ur * ((κ:ℝ) * M) ≤ ur * (κ ^ 2 * M) := mul_le_mul_of_nonneg_left hkM u0.le
    linarith
  generalize ht : num / den = t at *
  obtain ⟨f1, e1⟩ := coord_bound h.start.1.1 ft fw.1 m0r m1r k1r k2r (hmb h.start.1) terr qle (unit cX) nx
  obtain ⟨f2, e2⟩ := coord_bound h.start.2.1.1 ft fw.2.1 m0r m1r k1r k2r (hmb h.start.2.1) terr qle (unit cY) ny
  obtain ⟨f3, e3⟩ := coord_bound h.start.2.2.1 ft fw.2.2 m0r m1r k1r k2r (hmb h.start.2.2) terr qle (unit cZ) nz
  have eu : (300:ℝ) / 2 ^ 53 = 300 * ur := by unfold ur; ring
  rw [eu]
  refine ⟨⟨l.point.X + t * w.X, l.point.Y + t * w.Y, l.point.Z + t * w.Z⟩, ⟨l.point.X.toQ + Q / C * (l.Direction.X.toQ / R), l.point.Y.toQ + Q / C * (l.Direction.Y.toQ / R),
    l.point.Z.toQ + Q / C * (l.Direction.Z.toQ / R)⟩, ?_, ?_, ⟨f1, f2, f3⟩, e1, e2, e3⟩
  · unfold Line.IntersectPlane
    have hne : ¬ (den == (0 : F64)) = true := by
      rw [beq_fin (y := (0 : F64)) fD trivial]
      exact dne'
    simp only [hw, hden, hnum, ht, if_neg hne]
    rfl
  · have hN2 : (realV l.Direction).Norm2 = (sqLen l.Direction : ℚ) := by
      simp only [R3.Vector.Norm2, Dot, realV, sqLen]; push_cast; ring
    have hd0 : realV l.Direction ≠ ⟨0, 0, 0⟩ := by
      intro h0
      rw [h0] at hN2
      simp only [R3.Vector.Norm2, Dot, mul_zero, add_zero] at hN2
      rw [← hN2] at hrr
      exact hr.ne' (pow_eq_zero_iff (by norm_num) |>.mp hrr)
    have hNz : Normalize (realV l.Direction) = ⟨l.Direction.X.toQ / R, l.Direction.Y.toQ / R, l.Direction.Z.toQ / R⟩ := by
      rw [normalize_of_ne hd0, hN2, hR]
      apply R3.Vector.ext <;> simp only [R3.Vector.Scaled, realV] <;> ring
    have hCne : C ≠ 0 := by
      intro h0
      rw [h0, abs_zero, mul_zero] at hCk
      linarith
    have hDC : Dot (realV p.Normal) (Normalize (realV l.Direction)) = C := by
      rw [hNz, hC]; simp only [Dot, realV, dotQ]; push_cast; ring
    have hDQ : Dot (realV p.Normal) (realV p.point) - Dot (realV p.Normal) (realV l.point) = Q := by
      rw [hQ]; simp only [Dot, realV, dotQ]; push_cast; ring
    unfold Line.IntersectPlane
    have hne : ¬ (C == (0 : ℝ)) = true := by simpa using hCne
    rw [hNz] at hDC
    simp only [hNz, hDC, hDQ, if_neg hne]
    rfl

end

instance decBounded3 (a : R3.Vector F64) (M : ℚ) : Decidable (Bounded3 M a) := by unfold Bounded3; infer_instance
instance decFinV (a : R3.Vector F64) : Decidable (FinV a) := by unfold FinV; infer_instance

theorem sqrt_nine : GoSqrt.sqrt (GoConst.const 9 : F64) = 3 := by
  have h9 : (GoConst.const 9 : F64).Finite ∧ (GoConst.const 9 : F64).toQ = 9 := by decide +kernel
  have h3 : (3 : F64).Finite ∧ (3 : F64).toQ = 3 := by decide +kernel
  have hs : Real.sqrt (9 : ℝ) = 3 := by
    rw [show (9:ℝ) = 3 ^ 2 by norm_num]
    exact Real.sqrt_sq (by norm_num)
  have hr : rnd (K := ℝ) 3 = 3 := by
    have := rnd_id (K := ℝ) (q := 3) ⟨3, 0, by norm_num, by norm_num, by norm_num⟩
    simpa using this
  generalize (GoConst.const 9 : F64) = x at h9
  cases x with
  | fin q h =>
    have e : q = 9 := h9.2
    subst e
    show F64.sqrt _ = _
    unfold F64.sqrt
    have : ¬ ((9:ℚ) < 0) := by norm_num
    simp only [if_neg this]
    have hs' : Real.sqrt (((9:ℚ)) : ℝ) = 3 := by push_cast; exact hs
    rw [hs']
    obtain ⟨f, v⟩ := round_fin (s := false) (x := (3:ℝ)) (by rw [hr, abs_of_pos (by norm_num)]; exact lt_of_lt_of_le (by norm_num : (3:ℚ) < 2 ^ 2) (pow_le_pow_right₀ (by norm_num) (by norm_num)))
    rw [hr] at v
    exact toQ_inj f h3.1 (v.trans h3.2.symm) (by rw [v]; norm_num)
  | zero s => exact absurd h9.2 (by norm_num [toQ_zero])
  | _ => exact h9.1.elim

/-- C85: small integer coordinates, a direction exactly perpendicular to the normal, and yet no panic: the returned point is more than 10^15 away -/
theorem C85_parallel_refuted : ∃ (l : Line F64) (p : Plane3D F64) (r : R3.Vector F64), LineFit l p 3 1 ∧ dotQ p.Normal l.Direction = 0 ∧
    (⟨realV l.point, realV l.Direction⟩ : Line ℝ).IntersectPlane ⟨realV p.Normal, realV p.point⟩ = .panic ∧
    l.IntersectPlane p = .ok r ∧ FinV r ∧ 10 ^ 15 < |r.X.toQ| := by
  have hz : dotQ ⟨3, 2, 2⟩ ⟨2, -1, -2⟩ = 0 := by decide +kernel
  have hn : Normalize (⟨2, -1, -2⟩ : R3.Vector F64) = ⟨(1 / 3) * 2, (1 / 3) * (-1), (1 / 3) * (-2)⟩ := by
    have h2 : (⟨2, -1, -2⟩ : R3.Vector F64).Norm2 = GoConst.const 9 := by decide +kernel
    have hne : ¬ ((GoConst.const 9 : F64) == 0) = true := by decide +kernel
    unfold Normalize
    simp only [h2, if_neg hne, sqrt_nine]
    rfl
  refine ⟨⟨⟨0, 0, 0⟩, ⟨2, -1, -2⟩⟩, ⟨⟨3, 2, 2⟩, ⟨1, 0, 0⟩⟩, R3.Add ⟨0, 0, 0⟩ ((⟨(1 / 3) * 2, (1 / 3) * (-1), (1 / 3) * (-2)⟩ : R3.Vector F64).Scaled
    ((Dot ⟨3, 2, 2⟩ ⟨1, 0, 0⟩ - Dot ⟨3, 2, 2⟩ ⟨0, 0, 0⟩) / Dot ⟨3, 2, 2⟩ ⟨(1 / 3) * 2, (1 / 3) * (-1), (1 / 3) * (-2)⟩)), ?_, hz, ?_, ?_, ?_, by decide +kernel⟩
  · constructor <;> decide +kernel
  · rw [C05_panics]
    right
    have := congrArg (fun q : ℚ => (q : ℝ)) hz
    simp only [dotQ] at this
    push_cast at this
    exact this
  · unfold Line.IntersectPlane
    have hne : ¬ (Dot (⟨3, 2, 2⟩ : R3.Vector F64) ⟨(1 / 3) * 2, (1 / 3) * (-1), (1 / 3) * (-2)⟩ == 0) = true := by decide +kernel
    simp only [hn, if_neg hne]
  · decide +kernel

/-- a line and a plane with decimal coordinates at a moderate angle meet the hypotheses -/
example : let l : Line F64 := ⟨⟨GoConst.const (1 / 10), GoConst.const (2 / 10), GoConst.const (3 / 10)⟩, ⟨GoConst.const (7 / 10), GoConst.const (1 / 10), 2⟩⟩
    let p : Plane3D F64 := ⟨⟨GoConst.const (1 / 3), GoConst.const (-1 / 10), 1⟩, ⟨GoConst.const (-9 / 10), 0, 1⟩⟩
    LineFit l p 1 1 ∧ 1 ^ 2 * sqLen l.Direction ≤ 2 ^ 2 * dotQ p.Normal l.Direction ^ 2 := by
  refine ⟨?_, by decide +kernel⟩
  constructor <;> decide +kernel

end Verif.Props
