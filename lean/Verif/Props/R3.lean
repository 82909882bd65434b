import Verif.Model.R3
import Mathlib.Tactic.Linarith
import Mathlib.Tactic.Ring
import Mathlib.Tactic.LinearCombination
import Mathlib.Tactic.FieldSimp
import Mathlib.Tactic.NormNum
import Mathlib.Tactic.Positivity
/-!
# C01 - C08: package r3 in exact arithmetic

Statements are written in coordinates. `K` is any linearly ordered field, statements with square roots are
over `ℝ`. The binary64 parts of C01 - C04 are in `Props/R3Float.lean`.
-/
set_option linter.unusedSectionVars false

namespace Verif.Props
open Verif Verif.R3

section C01
variable {K : Type} [Field K] [LinearOrder K]

/-- C01: what the in-place methods leave in the receiver is what the value functions return, and both are
the coordinatewise operations -/
theorem C01_inplace (v w : R3.Vector K) (f : K) :
    v.scaleM f = v.Scaled f ∧ v.Scaled f = ⟨f * v.X, f * v.Y, f * v.Z⟩ ∧
    v.addM w = R3.Add v w ∧ R3.Add v w = ⟨v.X + w.X, v.Y + w.Y, v.Z + w.Z⟩ ∧
    v.subM w = R3.Sub v w ∧ R3.Sub v w = ⟨v.X - w.X, v.Y - w.Y, v.Z - w.Z⟩ ∧
    v.absM = R3.Abs v ∧ R3.Abs v = ⟨|v.X|, |v.Y|, |v.Z|⟩ ∧
    createVector v w = ⟨v.X - w.X, v.Y - w.Y, v.Z - w.Z⟩ := by
  refine ⟨rfl, rfl, rfl, rfl, rfl, rfl, rfl, rfl, rfl⟩

/-- C01: the in-place forms agree with the value forms for every scalar type (so also in binary64) -/
theorem C01_inplace_any {F : Type} [_root_.Add F] [_root_.Sub F] [Mul F] [GoAbs F] (v w : R3.Vector F) (f : F) :
    v.scaleM f = v.Scaled f ∧ v.addM w = R3.Add v w ∧ v.subM w = R3.Sub v w ∧ v.absM = R3.Abs v :=
  ⟨rfl, rfl, rfl, rfl⟩

/-- C01: algebraic laws -/
theorem C01_laws (u v w : R3.Vector K) (f g : K) :
    R3.Add v w = R3.Add w v ∧ R3.Add (R3.Add u v) w = R3.Add u (R3.Add v w) ∧
    R3.Sub (R3.Add v w) w = v ∧ R3.Add (R3.Sub v w) w = v ∧
    Dot v w = Dot w v ∧ Dot (R3.Add u v) w = Dot u w + Dot v w ∧ Dot (v.Scaled f) w = f * Dot v w ∧
    (v.Scaled f).Scaled g = v.Scaled (g * f) ∧
    Dot v w = v.X * w.X + v.Y * w.Y + v.Z * w.Z ∧
    v.Norm2 = v.X^2 + v.Y^2 + v.Z^2 ∧ v.SquaredMagnitude = v.Norm2 := by
  refine ⟨?_, ?_, ?_, ?_, ?_, ?_, ?_, ?_, rfl, ?_, rfl⟩ <;>
    simp [R3.Add, R3.Sub, Dot, R3.Vector.Scaled, R3.Vector.Norm2, R3.Vector.ext_iff] <;> ring_nf <;> simp

example : (⟨1, 2, 3⟩ : R3.Vector ℚ).addM ⟨4, 5, 6⟩ = ⟨5, 7, 9⟩ ∧
    R3.Sub (R3.Add (⟨1, 2, 3⟩ : R3.Vector ℚ) ⟨4, 5, 6⟩) ⟨4, 5, 6⟩ = ⟨1, 2, 3⟩ := by
  constructor <;> norm_num [R3.Vector.addM, R3.Add, R3.Sub]

end C01

section C02
variable {K : Type} [Field K] [LinearOrder K] [IsStrictOrderedRing K]

/-- C02: orthogonality, antisymmetry, Lagrange identity -/
theorem C02_cross (a b : R3.Vector K) :
    a.X * (Cross a b).X + a.Y * (Cross a b).Y + a.Z * (Cross a b).Z = 0 ∧
    b.X * (Cross a b).X + b.Y * (Cross a b).Y + b.Z * (Cross a b).Z = 0 ∧
    Cross b a = ⟨-(Cross a b).X, -(Cross a b).Y, -(Cross a b).Z⟩ ∧
    (Cross a b).X^2 + (Cross a b).Y^2 + (Cross a b).Z^2 =
      (a.X^2 + a.Y^2 + a.Z^2) * (b.X^2 + b.Y^2 + b.Z^2) - (a.X*b.X + a.Y*b.Y + a.Z*b.Z)^2 := by
  refine ⟨?_, ?_, ?_, ?_⟩
  · simp only [Cross]; ring
  · simp only [Cross]; ring
  · simp only [Cross, R3.Vector.ext_iff]; refine ⟨?_, ?_, ?_⟩ <;> ring
  · simp only [Cross]; ring

/-- C02: right-handedness, which pins down the sign -/
theorem C02_right_handed :
    Cross (⟨1, 0, 0⟩ : R3.Vector K) ⟨0, 1, 0⟩ = ⟨0, 0, 1⟩ ∧
    Cross (⟨0, 1, 0⟩ : R3.Vector K) ⟨0, 0, 1⟩ = ⟨1, 0, 0⟩ ∧
    Cross (⟨0, 0, 1⟩ : R3.Vector K) ⟨1, 0, 0⟩ = ⟨0, 1, 0⟩ ∧
    (∀ a b c : R3.Vector K, Cross (R3.Add a b) c = R3.Add (Cross a c) (Cross b c)) ∧
    (∀ (f : K) (a b : R3.Vector K), Cross (a.Scaled f) b = (Cross a b).Scaled f) := by
  refine ⟨?_, ?_, ?_, ?_, ?_⟩
  · simp [Cross]
  · simp [Cross]
  · simp [Cross]
  · intro a b c; simp only [Cross, R3.Add, R3.Vector.ext_iff]; refine ⟨?_, ?_, ?_⟩ <;> ring
  · intro f a b; simp only [Cross, R3.Vector.Scaled, R3.Vector.ext_iff]; refine ⟨?_, ?_, ?_⟩ <;> ring

/-- two vectors are linearly dependent -/
def Dependent (a b : R3.Vector K) : Prop :=
  ∃ s t : K, (s ≠ 0 ∨ t ≠ 0) ∧ s*a.X + t*b.X = 0 ∧ s*a.Y + t*b.Y = 0 ∧ s*a.Z + t*b.Z = 0

/-- C02: the cross product vanishes exactly on dependent pairs -/
theorem C02_zero_iff (a b : R3.Vector K) : Cross a b = ⟨0, 0, 0⟩ ↔ Dependent a b := by
  simp only [Cross, R3.Vector.ext_iff, Dependent]
  constructor
  · rintro ⟨h1, h2, h3⟩
    by_cases hx : a.X = 0
    · by_cases hy : a.Y = 0
      · by_cases hz : a.Z = 0
        · exact ⟨1, 0, Or.inl one_ne_zero, by simp [hx], by simp [hy], by simp [hz]⟩
        · refine ⟨b.Z, -a.Z, Or.inr (neg_ne_zero.mpr hz), ?_, ?_, ?_⟩
          · linear_combination -h2
          · linear_combination h1
          · ring
      · refine ⟨b.Y, -a.Y, Or.inr (neg_ne_zero.mpr hy), ?_, ?_, ?_⟩
        · linear_combination h3
        · ring
        · linear_combination -h1
    · refine ⟨b.X, -a.X, Or.inr (neg_ne_zero.mpr hx), ?_, ?_, ?_⟩
      · ring
      · linear_combination -h3
      · linear_combination h2
  · rintro ⟨s, t, hst, h1, h2, h3⟩
    rcases hst with hs | ht
    · refine ⟨?_, ?_, ?_⟩ <;> apply mul_left_cancel₀ hs
      · linear_combination b.Z * h2 - b.Y * h3
      · linear_combination b.X * h3 - b.Z * h1
      · linear_combination b.Y * h1 - b.X * h2
    · refine ⟨?_, ?_, ?_⟩ <;> apply mul_left_cancel₀ ht
      · linear_combination a.Y * h3 - a.Z * h2
      · linear_combination a.Z * h1 - a.X * h3
      · linear_combination a.X * h2 - a.Y * h1

example : Cross (⟨1, 2, 3⟩ : R3.Vector ℚ) ⟨4, 5, 6⟩ = ⟨-3, 6, -3⟩ := by norm_num [Cross]

end C02

section C03

theorem sqDist_eq {K : Type} [Field K] (v w : R3.Vector K) :
    SquaredDistance v w = (v.X - w.X)^2 + (v.Y - w.Y)^2 + (v.Z - w.Z)^2 := by
  simp only [SquaredDistance, R3.Vector.Norm2, Dot, R3.Sub]; ring

/-- the Euclidean distance, spelled out -/
noncomputable def euclid (v w : R3.Vector ℝ) : ℝ :=
  Real.sqrt ((v.X - w.X)^2 + (v.Y - w.Y)^2 + (v.Z - w.Z)^2)

theorem Distance_eq_euclid (v w : R3.Vector ℝ) : Distance v w = euclid v w := by
  have : Dot (R3.Sub v w) (R3.Sub v w) = (v.X - w.X)^2 + (v.Y - w.Y)^2 + (v.Z - w.Z)^2 := by
    simp only [Dot, R3.Sub]; ring
  simp only [Distance, R3.Vector.Norm, goSqrt_real, this, euclid]

/-- Cauchy-Schwarz in coordinates -/
theorem cs3 (a b c x y z : ℝ) :
    a*x + b*y + c*z ≤ Real.sqrt (a^2+b^2+c^2) * Real.sqrt (x^2+y^2+z^2) := by
  rw [← Real.sqrt_mul (by positivity)]
  apply Real.le_sqrt_of_sq_le
  nlinarith [sq_nonneg (a*y-b*x), sq_nonneg (a*z-c*x), sq_nonneg (b*z-c*y)]

/-- C03: Distance is the Euclidean metric -/
theorem C03_metric (u v w : R3.Vector ℝ) :
    Distance v w = euclid v w ∧
    Distance v w = Distance w v ∧ 0 ≤ Distance v w ∧ (Distance v w = 0 ↔ v = w) ∧
    Distance u w ≤ Distance u v + Distance v w ∧
    SquaredDistance v w = (Distance v w)^2 := by
  have hnn : ∀ v w : R3.Vector ℝ, 0 ≤ (v.X - w.X)^2 + (v.Y - w.Y)^2 + (v.Z - w.Z)^2 := by
    intro v w; positivity
  refine ⟨Distance_eq_euclid v w, ?_, ?_, ?_, ?_, ?_⟩
  · rw [Distance_eq_euclid, Distance_eq_euclid]; unfold euclid; congr 1; ring
  · rw [Distance_eq_euclid]; exact Real.sqrt_nonneg _
  · rw [Distance_eq_euclid, euclid, Real.sqrt_eq_zero (hnn v w)]
    constructor
    · intro h
      have hx : v.X - w.X = 0 := by nlinarith [sq_nonneg (v.X - w.X), sq_nonneg (v.Y - w.Y), sq_nonneg (v.Z - w.Z)]
      have hy : v.Y - w.Y = 0 := by nlinarith [sq_nonneg (v.X - w.X), sq_nonneg (v.Y - w.Y), sq_nonneg (v.Z - w.Z)]
      have hz : v.Z - w.Z = 0 := by nlinarith [sq_nonneg (v.X - w.X), sq_nonneg (v.Y - w.Y), sq_nonneg (v.Z - w.Z)]
      exact R3.Vector.ext (by linarith) (by linarith) (by linarith)
    · rintro rfl; ring
  · rw [Distance_eq_euclid, Distance_eq_euclid, Distance_eq_euclid]
    unfold euclid
    apply Real.sqrt_le_iff.mpr
    refine ⟨by positivity, ?_⟩
    have h := cs3 (u.X - v.X) (u.Y - v.Y) (u.Z - v.Z) (v.X - w.X) (v.Y - w.Y) (v.Z - w.Z)
    have h1 := Real.sq_sqrt (hnn u v)
    have h2 := Real.sq_sqrt (hnn v w)
    nlinarith
  · rw [Distance_eq_euclid, euclid, Real.sq_sqrt (hnn v w), sqDist_eq]

/-- C03 for SquaredDistance, over every ordered field -/
theorem C03_squared {K : Type} [Field K] [LinearOrder K] [IsStrictOrderedRing K] (v w : R3.Vector K) :
    SquaredDistance v w = (v.X - w.X)^2 + (v.Y - w.Y)^2 + (v.Z - w.Z)^2 ∧
    SquaredDistance v w = SquaredDistance w v ∧ 0 ≤ SquaredDistance v w ∧
    (SquaredDistance v w = 0 ↔ v = w) := by
  refine ⟨sqDist_eq v w, ?_, ?_, ?_⟩
  · rw [sqDist_eq, sqDist_eq]; ring
  · rw [sqDist_eq]; positivity
  · rw [sqDist_eq]
    constructor
    · intro h
      have hx : v.X - w.X = 0 := by nlinarith [sq_nonneg (v.X - w.X), sq_nonneg (v.Y - w.Y), sq_nonneg (v.Z - w.Z)]
      have hy : v.Y - w.Y = 0 := by nlinarith [sq_nonneg (v.X - w.X), sq_nonneg (v.Y - w.Y), sq_nonneg (v.Z - w.Z)]
      have hz : v.Z - w.Z = 0 := by nlinarith [sq_nonneg (v.X - w.X), sq_nonneg (v.Y - w.Y), sq_nonneg (v.Z - w.Z)]
      exact R3.Vector.ext (by linarith) (by linarith) (by linarith)
    · rintro rfl; ring

/-- C03: Magnitude and Norm are the distance to the origin -/
theorem C03_magnitude (v : R3.Vector ℝ) :
    v.Magnitude = euclid v ⟨0, 0, 0⟩ ∧ v.Norm = euclid v ⟨0, 0, 0⟩ := by
  have : Dot v v = (v.X - 0)^2 + (v.Y - 0)^2 + (v.Z - 0)^2 := by simp only [Dot]; ring
  constructor <;> simp only [R3.Vector.Magnitude, R3.Vector.SquaredMagnitude, R3.Vector.Norm, goSqrt_real, this, euclid]

example : SquaredDistance (⟨1, 2, 3⟩ : R3.Vector ℚ) ⟨0, 0, 1⟩ = 9 := by
  norm_num [sqDist_eq]

end C03

section C04

theorem norm2_pos {v : R3.Vector ℝ} (hv : v ≠ ⟨0, 0, 0⟩) : 0 < v.Norm2 := by
  have h : v.Norm2 = v.X^2 + v.Y^2 + v.Z^2 := by simp only [R3.Vector.Norm2, Dot]; ring
  rw [h]
  by_contra hc
  apply hv
  have hx : v.X = 0 := by nlinarith [sq_nonneg v.X, sq_nonneg v.Y, sq_nonneg v.Z]
  have hy : v.Y = 0 := by nlinarith [sq_nonneg v.X, sq_nonneg v.Y, sq_nonneg v.Z]
  have hz : v.Z = 0 := by nlinarith [sq_nonneg v.X, sq_nonneg v.Y, sq_nonneg v.Z]
  exact R3.Vector.ext hx hy hz

theorem normalize_of_ne {v : R3.Vector ℝ} (hv : v ≠ ⟨0, 0, 0⟩) :
    Normalize v = v.Scaled (1 / Real.sqrt v.Norm2) := by
  have : ¬ (v.Norm2 == (0:ℝ)) = true := by simpa using (norm2_pos hv).ne'
  simp [Normalize, this]

/-- C04: Normalize of a nonzero vector is the unit vector in its direction, of zero it is zero -/
theorem C04_normalize (v : R3.Vector ℝ) :
    (v ≠ ⟨0, 0, 0⟩ → (Normalize v).X^2 + (Normalize v).Y^2 + (Normalize v).Z^2 = 1 ∧
      ∃ s : ℝ, 0 < s ∧ v = ⟨s * (Normalize v).X, s * (Normalize v).Y, s * (Normalize v).Z⟩) ∧
    (v = ⟨0, 0, 0⟩ → Normalize v = ⟨0, 0, 0⟩) := by
  constructor
  · intro hv
    have hp := norm2_pos hv
    have hs : 0 < Real.sqrt v.Norm2 := Real.sqrt_pos.mpr hp
    have hsq : Real.sqrt v.Norm2 ^ 2 = v.X^2 + v.Y^2 + v.Z^2 := by
      rw [Real.sq_sqrt hp.le]; simp only [R3.Vector.Norm2, Dot]; ring
    rw [normalize_of_ne hv]
    refine ⟨?_, Real.sqrt v.Norm2, hs, ?_⟩
    · simp only [R3.Vector.Scaled]
      field_simp
      linarith
    · apply R3.Vector.ext <;> simp only [R3.Vector.Scaled] <;> field_simp
  · rintro rfl
    simp [Normalize, R3.Vector.Norm2, Dot]

/-- C04 (in-place form, exact arithmetic): for nonzero vectors the method agrees with the function. For the
zero vector the method scales by `1/sqrt(0)`, which has no exact value; the binary64 result (all NaN) is
`C04_inplace_zero_float`. -/
theorem C04_inplace_partial (v : R3.Vector ℝ) (hv : v ≠ ⟨0, 0, 0⟩) : v.normalizeM = Normalize v := by
  have : ¬ (v.Norm2 == (0:ℝ)) = true := by simpa using (norm2_pos hv).ne'
  simp [Normalize, R3.Vector.normalizeM, this, R3.Vector.scaleM, R3.Vector.Scaled]

example : (⟨3, 0, 4⟩ : R3.Vector ℝ) ≠ ⟨0, 0, 0⟩ := by simp [R3.Vector.ext_iff]

end C04

section C05

/-- the points of a line -/
def OnLine (l : Line ℝ) (x : R3.Vector ℝ) : Prop :=
  ∃ s : ℝ, x.X = l.point.X + s * l.Direction.X ∧ x.Y = l.point.Y + s * l.Direction.Y ∧
    x.Z = l.point.Z + s * l.Direction.Z

/-- the points of a plane given by normal and point -/
def OnPlane (p : Plane3D ℝ) (x : R3.Vector ℝ) : Prop :=
  p.Normal.X * (x.X - p.point.X) + p.Normal.Y * (x.Y - p.point.Y) + p.Normal.Z * (x.Z - p.point.Z) = 0

/-- the scalar product of the normal and the direction, in coordinates -/
def normalDotDir (l : Line ℝ) (p : Plane3D ℝ) : ℝ :=
  p.Normal.X * l.Direction.X + p.Normal.Y * l.Direction.Y + p.Normal.Z * l.Direction.Z

/-- C05: IntersectPlane panics exactly when the direction is zero or perpendicular to the normal -/
theorem C05_panics (l : Line ℝ) (p : Plane3D ℝ) :
    l.IntersectPlane p = .panic ↔ (l.Direction = ⟨0, 0, 0⟩ ∨ normalDotDir l p = 0) := by
  have key : Dot p.Normal (Normalize l.Direction) = 0 ↔ (l.Direction = ⟨0, 0, 0⟩ ∨ normalDotDir l p = 0) := by
    by_cases hd : l.Direction = ⟨0, 0, 0⟩
    · simp [hd, (C04_normalize ⟨0,0,0⟩).2 rfl, Dot]
    · simp only [hd, false_or]
      rw [normalize_of_ne hd]
      have hs : 0 < Real.sqrt l.Direction.Norm2 := Real.sqrt_pos.mpr (norm2_pos hd)
      have : Dot p.Normal (l.Direction.Scaled (1 / Real.sqrt l.Direction.Norm2))
          = normalDotDir l p / Real.sqrt l.Direction.Norm2 := by
        simp only [Dot, R3.Vector.Scaled, normalDotDir]; field_simp
      rw [this, div_eq_zero_iff]
      simp [hs.ne']
  rw [← key]
  unfold Line.IntersectPlane
  by_cases h : Dot p.Normal (Normalize l.Direction) = 0 <;> simp [h]

/-- C05: a returned point is on the plane and on the line and is the only such point -/
theorem C05_result (l : Line ℝ) (p : Plane3D ℝ) (r : R3.Vector ℝ) (h : l.IntersectPlane p = .ok r) :
    OnPlane p r ∧ OnLine l r ∧ ∀ x, OnPlane p x → OnLine l x → x = r := by
  have hnp : ¬ (l.Direction = ⟨0, 0, 0⟩ ∨ normalDotDir l p = 0) := by
    rw [← C05_panics, h]; simp
  push Not at hnp
  obtain ⟨hd, hn⟩ := hnp
  have hs : 0 < Real.sqrt l.Direction.Norm2 := Real.sqrt_pos.mpr (norm2_pos hd)
  have hdot : Dot p.Normal (l.Direction.Scaled (1 / Real.sqrt l.Direction.Norm2))
      = normalDotDir l p / Real.sqrt l.Direction.Norm2 := by
    simp only [Dot, R3.Vector.Scaled, normalDotDir]; field_simp
  have hne : ¬ (Dot p.Normal (Normalize l.Direction) == (0:ℝ)) = true := by
    rw [normalize_of_ne hd, hdot]
    simp [hn, hs.ne']
  unfold Line.IntersectPlane at h
  simp only [hne, Bool.false_eq_true, if_false, Res.ok.injEq] at h
  rw [normalize_of_ne hd, hdot] at h
  -- the parameter along the (unnormalised) direction
  set s : ℝ := (Dot p.Normal p.point - Dot p.Normal l.point) / normalDotDir l p with hsdef
  have hr : r = ⟨l.point.X + s * l.Direction.X, l.point.Y + s * l.Direction.Y,
      l.point.Z + s * l.Direction.Z⟩ := by
    rw [← h, hsdef]
    apply R3.Vector.ext <;> simp only [R3.Add, R3.Vector.Scaled] <;> field_simp
  have hsn : s * normalDotDir l p = Dot p.Normal p.point - Dot p.Normal l.point := by
    rw [hsdef]; field_simp
  refine ⟨?_, ⟨s, by rw [hr], by rw [hr], by rw [hr]⟩, ?_⟩
  · rw [hr]
    simp only [OnPlane]
    simp only [normalDotDir, Dot] at hsn
    linear_combination hsn
  · rintro x hx ⟨s', h1, h2, h3⟩
    have : s' = s := by
      have h' : s' * normalDotDir l p = s * normalDotDir l p := by
        rw [hsn]
        simp only [OnPlane] at hx
        simp only [normalDotDir, Dot]
        rw [h1, h2, h3] at hx
        linear_combination hx
      exact mul_right_cancel₀ hn h'
    subst this
    rw [hr]
    exact R3.Vector.ext h1 h2 h3

example : ∃ r, (⟨⟨1, 2, 3⟩, ⟨1, 1, 0⟩⟩ : Line ℝ).IntersectPlane ⟨⟨0, 1, 0⟩, ⟨0, 0, 0⟩⟩ = .ok r := by
  cases h : (⟨⟨1, 2, 3⟩, ⟨1, 1, 0⟩⟩ : Line ℝ).IntersectPlane ⟨⟨0, 1, 0⟩, ⟨0, 0, 0⟩⟩ with
  | ok r => exact ⟨r, rfl⟩
  | panic => rw [C05_panics] at h; simp [normalDotDir, R3.Vector.ext_iff] at h
  | fuel => simp [Line.IntersectPlane] at h; split at h <;> simp at h

end C05

section C06
variable {K : Type} [Field K] [LinearOrder K] [IsStrictOrderedRing K]

/-- C06: the plane built by newPlane -/
theorem C06_newPlane (n o x : R3.Vector K) :
    (newPlane n o).Normal = n ∧
    ((newPlane n o).Normal.X * x.X + (newPlane n o).Normal.Y * x.Y + (newPlane n o).Normal.Z * x.Z
        + (newPlane n o).Distance =
      n.X * (x.X - o.X) + n.Y * (x.Y - o.Y) + n.Z * (x.Z - o.Z)) := by
  refine ⟨rfl, ?_⟩
  simp only [newPlane, Dot]; ring

/-- C06: calculateNormal is the right-handed normal of the triangle -/
theorem C06_calculateNormal (a b c : R3.Vector K) :
    let n := calculateNormal a b c
    n = ⟨(b.Y-a.Y)*(c.Z-a.Z) - (b.Z-a.Z)*(c.Y-a.Y), (b.Z-a.Z)*(c.X-a.X) - (b.X-a.X)*(c.Z-a.Z),
         (b.X-a.X)*(c.Y-a.Y) - (b.Y-a.Y)*(c.X-a.X)⟩ ∧
    n.X * (b.X - a.X) + n.Y * (b.Y - a.Y) + n.Z * (b.Z - a.Z) = 0 ∧
    n.X * (c.X - a.X) + n.Y * (c.Y - a.Y) + n.Z * (c.Z - a.Z) = 0 ∧
    n = Cross (R3.Sub b a) (R3.Sub c a) := by
  refine ⟨rfl, ?_, ?_, ?_⟩
  · simp only [calculateNormal, createVector]; ring
  · simp only [calculateNormal, createVector]; ring
  · simp only [calculateNormal, createVector, Cross, R3.Sub, R3.Vector.ext_iff]
    refine ⟨?_, ?_, ?_⟩ <;> ring

/-- C06, point distance: what CalculateDistanceToPlane computes, and exactly when this is the signed
distance `n.v + Distance`. Missing from the full claim: it does not hold for all planes (see
`C06_distance_refuted`). -/
theorem C06_distance_partial (v : R3.Vector K) (p : Plane K) :
    v.CalculateDistanceToPlane p =
      p.Normal.X * v.X + p.Normal.Y * v.Y + p.Normal.Z * v.Z +
        (p.Normal.X^2 + p.Normal.Y^2 + p.Normal.Z^2) ∧
    (v.CalculateDistanceToPlane p =
        p.Normal.X * v.X + p.Normal.Y * v.Y + p.Normal.Z * v.Z + p.Distance ↔
      p.Distance = p.Normal.X^2 + p.Normal.Y^2 + p.Normal.Z^2) := by
  have h : v.CalculateDistanceToPlane p =
      p.Normal.X * v.X + p.Normal.Y * v.Y + p.Normal.Z * v.Z +
        (p.Normal.X^2 + p.Normal.Y^2 + p.Normal.Z^2) := by
    simp only [R3.Vector.CalculateDistanceToPlane, Dot, R3.Vector.Norm2]; ring
  refine ⟨h, ?_⟩
  rw [h]
  constructor
  · intro h'; linarith
  · intro h'; linarith

/-- C06 is false of the code: the origin lies on the plane z = 0, but the computed distance is 1 -/
theorem C06_distance_refuted :
    ∃ (v : R3.Vector ℚ) (n o : R3.Vector ℚ), (newPlane n o).Distance = 0 ∧
      n.X * (v.X - o.X) + n.Y * (v.Y - o.Y) + n.Z * (v.Z - o.Z) = 0 ∧
      v.CalculateDistanceToPlane (newPlane n o) = 1 := by
  refine ⟨⟨0,0,0⟩, ⟨0,0,1⟩, ⟨0,0,0⟩, ?_, ?_, ?_⟩ <;>
    norm_num [newPlane, Dot, R3.Vector.CalculateDistanceToPlane, R3.Vector.Norm2]

/-- C06: det2D is the planar cross product -/
theorem C06_det2D (a b : R3.Vector K) : det2D a b = a.X*b.Y - a.Y*b.X ∧ det2D b a = - det2D a b := by
  refine ⟨rfl, ?_⟩
  simp only [det2D]; ring

end C06

section C07
variable {K : Type} [Field K] [LinearOrder K] [IsStrictOrderedRing K]

/-- C07: end points, coordinates, and the relation between the two interpolation functions -/
theorem C07_interpolate (a b : R3.Vector K) (t : K) :
    Interpolate a b 0 = a ∧ Interpolate a b 1 = b ∧
    Interpolate a b t = ⟨a.X + t * (b.X - a.X), a.Y + t * (b.Y - a.Y), a.Z + t * (b.Z - a.Z)⟩ ∧
    a.GetInterpolationVector b t = Interpolate b a t := by
  refine ⟨?_, ?_, ?_, ?_⟩ <;>
    simp only [Interpolate, R3.Vector.GetInterpolationVector, R3.Vector.ext_iff] <;>
    refine ⟨?_, ?_, ?_⟩ <;> ring

/-- C07: for t in [0,1] every coordinate stays between those of the end points, and the distances to the
end points are in the ratio t : 1-t -/
theorem C07_segment (a b : R3.Vector K) (t : K) (h0 : 0 ≤ t) (h1 : t ≤ 1) :
    (min a.X b.X ≤ (Interpolate a b t).X ∧ (Interpolate a b t).X ≤ max a.X b.X) ∧
    (min a.Y b.Y ≤ (Interpolate a b t).Y ∧ (Interpolate a b t).Y ≤ max a.Y b.Y) ∧
    (min a.Z b.Z ≤ (Interpolate a b t).Z ∧ (Interpolate a b t).Z ≤ max a.Z b.Z) ∧
    SquaredDistance a (Interpolate a b t) = t^2 * SquaredDistance a b ∧
    SquaredDistance (Interpolate a b t) b = (1-t)^2 * SquaredDistance a b := by
  have seg : ∀ x y : K, min x y ≤ x + t * (y - x) ∧ x + t * (y - x) ≤ max x y := by
    intro x y
    rcases le_total x y with h | h
    · rw [min_eq_left h, max_eq_right h]
      constructor <;> nlinarith [mul_nonneg h0 (sub_nonneg.mpr h), mul_nonneg (sub_nonneg.mpr h1) (sub_nonneg.mpr h)]
    · rw [min_eq_right h, max_eq_left h]
      constructor <;> nlinarith [mul_nonneg h0 (sub_nonneg.mpr h), mul_nonneg (sub_nonneg.mpr h1) (sub_nonneg.mpr h)]
  rw [(C07_interpolate a b t).2.2.1]
  refine ⟨seg _ _, seg _ _, seg _ _, ?_, ?_⟩
  · simp only [sqDist_eq]; ring
  · simp only [sqDist_eq]; ring

example : (0:ℚ) ≤ 1/3 ∧ (1/3:ℚ) ≤ 1 := by norm_num

end C07

section C08

/-- C08: IsUnit is a tolerance test on the squared length -/
theorem C08_isUnit {K : Type} [Field K] [LinearOrder K] (v : R3.Vector K) :
    v.IsUnit = true ↔ |v.X * v.X + v.Y * v.Y + v.Z * v.Z - 1| ≤ ((5 / 10^14 : ℚ) : K) := by
  simp only [R3.Vector.IsUnit, R3.Vector.Norm2, Dot, goAbs_field, goConst_field]
  exact decide_eq_true_iff

/-- C08: normalised vectors pass the test; the zero vector does not -/
theorem C08_normalized (v : R3.Vector ℝ) : (Normalize v).IsUnit = true ↔ v ≠ ⟨0, 0, 0⟩ := by
  rw [C08_isUnit]
  constructor
  · rintro h rfl
    rw [(C04_normalize ⟨0,0,0⟩).2 rfl] at h
    norm_num at h
  · intro hv
    have := ((C04_normalize v).1 hv).1
    have h0 : (Normalize v).X * (Normalize v).X + (Normalize v).Y * (Normalize v).Y +
        (Normalize v).Z * (Normalize v).Z - 1 = 0 := by linear_combination this
    rw [h0]
    norm_num

end C08

end Verif.Props
