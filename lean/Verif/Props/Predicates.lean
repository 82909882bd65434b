import Verif.Model.Predicates
import Verif.Model.Tri2Util
import Verif.Model.Delaunator
import Verif.Props.R3
import Mathlib.LinearAlgebra.Matrix.Determinant.Basic
import Mathlib.LinearAlgebra.Matrix.ToLinearEquiv
import Mathlib.Analysis.SpecialFunctions.Trigonometric.Basic
/-!
# C09 - C14: orientation, in-sphere, in-circle, circumcircle, pseudo angle (exact arithmetic)
-/
set_option linter.unusedSectionVars false

namespace Verif.Props
open Verif Verif.R3 Verif.Predicates Verif.Tri2

section C09
variable {K : Type} [Field K] [LinearOrder K] [IsStrictOrderedRing K]

/-- the rows a-d, b-d, c-d -/
def edgeMatrix (a b c d : R3.Vector K) : Matrix (Fin 3) (Fin 3) K :=
  !![a.X - d.X, a.Y - d.Y, a.Z - d.Z; b.X - d.X, b.Y - d.Y, b.Z - d.Z; c.X - d.X, c.Y - d.Y, c.Z - d.Z]

/-- four points lie in a common plane `n.x = k` with `n ≠ 0` -/
def Coplanar4 (a b c d : R3.Vector K) : Prop :=
  ∃ n : R3.Vector K, ∃ k : K, n ≠ ⟨0, 0, 0⟩ ∧
    ∀ x ∈ [a, b, c, d], n.X * x.X + n.Y * x.Y + n.Z * x.Z = k

/-- C09: orient3dfast is the determinant of the edge vectors -/
theorem C09_det (a b c d : R3.Vector K) : orient3dfast a b c d = (edgeMatrix a b c d).det := by
  simp [edgeMatrix, Matrix.det_fin_three, orient3dfast]; ring

theorem edgeMatrix_det_zero_iff (a b c d : R3.Vector K) :
    (edgeMatrix a b c d).det = 0 ↔ Coplanar4 a b c d := by
  rw [← Matrix.exists_mulVec_eq_zero_iff]
  constructor
  · rintro ⟨v, hv, h⟩
    have h0 := congrFun h 0
    have h1 := congrFun h 1
    have h2 := congrFun h 2
    simp [edgeMatrix, Matrix.mulVec, dotProduct, Fin.sum_univ_three] at h0 h1 h2
    refine ⟨⟨v 0, v 1, v 2⟩, v 0 * d.X + v 1 * d.Y + v 2 * d.Z, ?_, ?_⟩
    · intro hz
      apply hv
      simp only [R3.Vector.ext_iff] at hz
      funext i; fin_cases i
      · exact hz.1
      · exact hz.2.1
      · exact hz.2.2
    · intro x hx
      simp only [List.mem_cons, List.not_mem_nil, or_false] at hx
      rcases hx with rfl | rfl | rfl | rfl
      · simp only; linear_combination h0
      · simp only; linear_combination h1
      · simp only; linear_combination h2
      · rfl
  · rintro ⟨n, k, hn, h⟩
    refine ⟨![n.X, n.Y, n.Z], ?_, ?_⟩
    · intro hz
      apply hn
      have h0 := congrFun hz 0
      have h1 := congrFun hz 1
      have h2 := congrFun hz 2
      simp at h0 h1 h2
      exact R3.Vector.ext h0 h1 h2
    · have ha := h a (by simp)
      have hb := h b (by simp)
      have hc := h c (by simp)
      have hd := h d (by simp)
      funext i; fin_cases i <;>
        simp [edgeMatrix, Matrix.mulVec, dotProduct, Fin.sum_univ_three]
      · linear_combination ha - hd
      · linear_combination hb - hd
      · linear_combination hc - hd

/-- C09: zero exactly for coplanar quadruples -/
theorem C09_zero_iff (a b c d : R3.Vector K) : orient3dfast a b c d = 0 ↔ Coplanar4 a b c d := by
  rw [C09_det, edgeMatrix_det_zero_iff]

/-- C09: alternating, translation invariant; positive on the reference tetrahedron, which fixes the sign -/
theorem C09_sign (a b c d t : R3.Vector K) :
    orient3dfast b a c d = - orient3dfast a b c d ∧ orient3dfast a c b d = - orient3dfast a b c d ∧
    orient3dfast a b d c = - orient3dfast a b c d ∧
    orient3dfast (R3.Add a t) (R3.Add b t) (R3.Add c t) (R3.Add d t) = orient3dfast a b c d ∧
    orient3dfast (⟨1,0,0⟩ : R3.Vector K) ⟨0,1,0⟩ ⟨0,0,1⟩ ⟨0,0,0⟩ = 1 := by
  refine ⟨?_, ?_, ?_, ?_, ?_⟩
  · simp only [orient3dfast]; ring
  · simp only [orient3dfast]; ring
  · simp only [orient3dfast]; ring
  · simp only [orient3dfast, R3.Add]; ring
  · simp [orient3dfast]

example : ¬ Coplanar4 (⟨1,0,0⟩ : R3.Vector ℚ) ⟨0,1,0⟩ ⟨0,0,1⟩ ⟨0,0,0⟩ := by
  rw [← C09_zero_iff]; norm_num [orient3dfast]

end C09

section C10
variable {K : Type} [Field K] [LinearOrder K] [IsStrictOrderedRing K]

/-- squared distance in coordinates -/
def d2 (p q : R3.Vector K) : K := (p.X - q.X)^2 + (p.Y - q.Y)^2 + (p.Z - q.Z)^2

/-- `o` is the centre and `R` the squared radius of a sphere through the four points -/
def Circumsphere (a b c d o : R3.Vector K) (R : K) : Prop :=
  d2 a o = R ∧ d2 b o = R ∧ d2 c o = R ∧ d2 d o = R

/-- a non-degenerate tetrahedron has a circumsphere -/
theorem circumsphere_exists (a b c d : R3.Vector K) (h : ¬ Coplanar4 a b c d) :
    ∃ o R, Circumsphere a b c d o R := by
  have hdet : IsUnit (edgeMatrix a b c d).det := by
    rw [isUnit_iff_ne_zero]
    intro h0
    exact h ((edgeMatrix_det_zero_iff a b c d).mp h0)
  have hsurj := Matrix.mulVec_surjective_iff_isUnit.mpr ((Matrix.isUnit_iff_isUnit_det _).mpr hdet)
  obtain ⟨v, hv⟩ := hsurj ![d2 a d / 2, d2 b d / 2, d2 c d / 2]
  have h0 := congrFun hv 0
  have h1 := congrFun hv 1
  have h2 := congrFun hv 2
  simp [edgeMatrix, Matrix.mulVec, dotProduct, Fin.sum_univ_three] at h0 h1 h2
  simp only [d2] at h0 h1 h2
  refine ⟨⟨d.X + v 0, d.Y + v 1, d.Z + v 2⟩, (v 0)^2 + (v 1)^2 + (v 2)^2, ?_, ?_, ?_, ?_⟩ <;>
    simp only [d2]
  · linear_combination -2 * h0
  · linear_combination -2 * h1
  · linear_combination -2 * h2
  · ring

/-- the in-sphere determinant is (minus) the power of the query point times the orientation -/
theorem inSphereFast_power (a b c d e o : R3.Vector K) (R : K) (h : Circumsphere a b c d o R) :
    InSphereFast a b c d e = (d2 e o - R) * orient3dfast a b c d := by
  obtain ⟨ha, hb, hc, hd⟩ := h
  have key : InSphereFast a b c d e - (d2 e o - R) * orient3dfast a b c d
      = (d2 a o - R) * orient3dfast b c d e - (d2 b o - R) * orient3dfast a c d e
        + (d2 c o - R) * orient3dfast a b d e - (d2 d o - R) * orient3dfast a b c e := by
    simp only [InSphereFast, orient3dfast, d2]; ring
  rw [ha, hb, hc, hd] at key
  linear_combination key

/-- C10 -/
theorem C10_inSphere (a b c d e o : R3.Vector K) (R : K) (hnd : ¬ Coplanar4 a b c d)
    (h : Circumsphere a b c d o R) :
    (InSphereFast a b c d e * orient3dfast a b c d < 0 ↔ d2 e o < R) ∧
    (InSphereFast a b c d e * orient3dfast a b c d = 0 ↔ d2 e o = R) ∧
    (0 < InSphereFast a b c d e * orient3dfast a b c d ↔ R < d2 e o) := by
  have hne : orient3dfast a b c d ≠ 0 := fun h0 => hnd ((C09_zero_iff a b c d).mp h0)
  have hp : 0 < orient3dfast a b c d ^ 2 := by positivity
  have e1 : InSphereFast a b c d e * orient3dfast a b c d = (d2 e o - R) * orient3dfast a b c d ^ 2 := by
    rw [inSphereFast_power a b c d e o R h]; ring
  rw [e1]
  refine ⟨?_, ?_, ?_⟩
  · rw [mul_neg_iff]
    constructor
    · rintro (⟨_, h2⟩ | ⟨h1, _⟩)
      · exact absurd h2 (not_lt.mpr hp.le)
      · exact sub_neg.mp h1
    · intro h1; exact Or.inr ⟨sub_neg.mpr h1, hp⟩
  · rw [mul_eq_zero, or_iff_left hp.ne', sub_eq_zero]
  · rw [mul_pos_iff_of_pos_right hp, sub_pos]

/-- the reference tetrahedron: the hypotheses of C10 hold and both strict cases occur -/
example : ¬ Coplanar4 (⟨1,0,0⟩ : R3.Vector ℚ) ⟨0,1,0⟩ ⟨0,0,1⟩ ⟨0,0,0⟩ ∧
    Circumsphere (⟨1,0,0⟩ : R3.Vector ℚ) ⟨0,1,0⟩ ⟨0,0,1⟩ ⟨0,0,0⟩ ⟨1/2,1/2,1/2⟩ (3/4) ∧
    InSphereFast (⟨1,0,0⟩ : R3.Vector ℚ) ⟨0,1,0⟩ ⟨0,0,1⟩ ⟨0,0,0⟩ ⟨1/2,1/2,1/2⟩ = -3/4 ∧
    InSphereFast (⟨1,0,0⟩ : R3.Vector ℚ) ⟨0,1,0⟩ ⟨0,0,1⟩ ⟨0,0,0⟩ ⟨2,0,0⟩ = 2 := by
  rw [← C09_zero_iff]
  refine ⟨by norm_num [orient3dfast], by norm_num [Circumsphere, d2], ?_, ?_⟩ <;>
    unfold InSphereFast <;> norm_num

end C10

section C11
variable {K : Type} [Field K] [LinearOrder K] [IsStrictOrderedRing K]

/-- the permanent of the in-sphere matrix (rows p - e with lifted coordinate): every product in the
expansion of the determinant is replaced by its absolute value -/
def spherePermanent (a b c d e : R3.Vector K) : K :=
  let A (p : R3.Vector K) : K := d2 p e
  let m (p q r : R3.Vector K) : K :=
    (|(p.X - e.X) * (q.Y - e.Y)| + |(q.X - e.X) * (p.Y - e.Y)|) * |r.Z - e.Z| +
    (|(q.X - e.X) * (r.Y - e.Y)| + |(r.X - e.X) * (q.Y - e.Y)|) * |p.Z - e.Z| +
    (|(p.X - e.X) * (r.Y - e.Y)| + |(r.X - e.X) * (p.Y - e.Y)|) * |q.Z - e.Z|
  A a * m b c d + A b * m a c d + A c * m a b d + A d * m a b c

/-- C11 (exact arithmetic): `inSphere` returns the determinant exactly when its absolute value exceeds the
filter bound, and zero otherwise. -/
theorem C11_filter (a b c d e : R3.Vector K) :
    inSphere a.X a.Y a.Z b.X b.Y b.Z c.X c.Y c.Z d.X d.Y d.Z e.X e.Y e.Z =
      if (isperrboundA : K) * spherePermanent a b c d e < |InSphereFast a b c d e|
      then InSphereFast a b c d e else 0 := by
  have hP : ∀ x y z w v : K, x = y → (z = w) →
      (if x < z ∨ x < -z then z else v) = if y < |w| then w else v := by
    intro x y z w v h1 h2; subst h1 h2; simp only [lt_abs]
  unfold inSphere
  simp only [inSphereAdapt, goAbs_field, goConst_field, neg_zero]
  apply hP
  · simp only [spherePermanent, d2]; ring
  · simp only [InSphereFast]

theorem spherePermanent_nonneg (a b c d e : R3.Vector K) : 0 ≤ spherePermanent a b c d e := by
  simp only [spherePermanent, d2]; positivity

/-- C11 (exact arithmetic): a nonzero answer is the determinant, in particular has its sign -/
theorem C11_sign (a b c d e : R3.Vector K) :
    let r := inSphere a.X a.Y a.Z b.X b.Y b.Z c.X c.Y c.Z d.X d.Y d.Z e.X e.Y e.Z
    (r ≠ 0 → r = InSphereFast a b c d e) ∧ (0 < r → 0 < InSphereFast a b c d e) ∧
    (r < 0 → InSphereFast a b c d e < 0) ∧ (InSphereFast a b c d e = 0 → r = 0) := by
  intro r
  have hr : r = _ := C11_filter a b c d e
  split_ifs at hr with h
  · rw [hr]; simp
  · rw [hr]; simp

/-- both branches of the filter occur -/
example : inSphere (1:ℚ) 0 0 0 1 0 0 0 1 0 0 0 (1/2) (1/2) (1/2) = -3/4 ∧
    inSphere (1:ℚ) 0 0 0 1 0 0 0 1 0 0 0 1 1 1 = 0 := by
  constructor <;> norm_num [inSphere, inSphereAdapt, isperrboundA, epsilon]

end C11

section C12
variable {K : Type} [Field K] [LinearOrder K] [IsStrictOrderedRing K]

/-- planar squared distance -/
def e2 (p q : R3.Vector K) : K := (p.X - q.X)^2 + (p.Y - q.Y)^2

/-- `o` is the centre and `R` the squared radius of a circle through the three points -/
def Circumcircle (a b c o : R3.Vector K) (R : K) : Prop := e2 a o = R ∧ e2 b o = R ∧ e2 c o = R

/-- standard orientation: twice the signed area, positive for counterclockwise -/
def ccw (a b c : R3.Vector K) : K := (b.X - a.X) * (c.Y - a.Y) - (b.Y - a.Y) * (c.X - a.X)

theorem area_eq_neg_ccw (a b c : R3.Vector K) : area a b c = - ccw a b c := by
  simp only [area, ccw]; ring

theorem inCircleDet_power (a b c p o : R3.Vector K) (R : K) (h : Circumcircle a b c o R) :
    inCircleDet a b c p = (e2 p o - R) * area a b c := by
  obtain ⟨ha, hb, hc⟩ := h
  have key : inCircleDet a b c p - (e2 p o - R) * area a b c
      = (e2 a o - R) * ccw p b c + (e2 b o - R) * ccw a p c + (e2 c o - R) * ccw a b p := by
    simp only [inCircleDet, area, ccw, e2]; ring
  rw [ha, hb, hc] at key
  linear_combination key

/-- C12 -/
theorem C12_inCircle (a b c p o : R3.Vector K) (R : K) (h : Circumcircle a b c o R) :
    (0 < area a b c → (inCircle a b c p = true ↔ e2 p o < R)) ∧
    (area a b c < 0 → (inCircle a b c p = true ↔ R < e2 p o)) ∧
    (area a b c = 0 → inCircle a b c p = false) := by
  have hd : inCircle a b c p = true ↔ inCircleDet a b c p < 0 := by
    unfold inCircle; exact decide_eq_true_iff
  rw [Bool.eq_false_iff, Ne, hd, inCircleDet_power a b c p o R h]
  refine ⟨fun hp => ?_, fun hn => ?_, fun h0 => ?_⟩
  · rw [mul_neg_iff]
    constructor
    · rintro (⟨_, h2⟩ | ⟨h1, _⟩)
      · exact absurd h2 (not_lt.mpr hp.le)
      · exact sub_neg.mp h1
    · intro h1; exact Or.inr ⟨sub_neg.mpr h1, hp⟩
  · rw [mul_neg_iff]
    constructor
    · rintro (⟨h1, _⟩ | ⟨_, h2⟩)
      · exact sub_pos.mp h1
      · exact absurd h2 (not_lt.mpr hn.le)
    · intro h1; exact Or.inl ⟨sub_pos.mpr h1, hn⟩
  · rw [h0]; simp

/-- the orientation convention of `area`: positive for clockwise triangles -/
theorem C12_orientation (a b c : R3.Vector K) : 0 < area a b c ↔ ccw a b c < 0 := by
  rw [area_eq_neg_ccw, neg_pos]

example : 0 < area (⟨0,0,0⟩ : R3.Vector ℚ) ⟨0,1,0⟩ ⟨1,0,0⟩ ∧
    Circumcircle (⟨0,0,0⟩ : R3.Vector ℚ) ⟨0,1,0⟩ ⟨1,0,0⟩ ⟨1/2,1/2,0⟩ (1/2) ∧
    inCircle (⟨0,0,0⟩ : R3.Vector ℚ) ⟨0,1,0⟩ ⟨1,0,0⟩ ⟨1/2,1/2,0⟩ = true ∧
    inCircle (⟨0,0,0⟩ : R3.Vector ℚ) ⟨0,1,0⟩ ⟨1,0,0⟩ ⟨1,1,0⟩ = false := by
  norm_num [area, Circumcircle, e2, inCircle, inCircleDet]

end C12

section C13
variable {K : Type} [Field K] [LinearOrder K] [IsStrictOrderedRing K]

/-- the three points lie on one line (this includes coincident points) -/
def Collinear3 (a b c : R3.Vector K) : Prop :=
  ∃ u v k : K, (u ≠ 0 ∨ v ≠ 0) ∧ ∀ x ∈ [a, b, c], u * x.X + v * x.Y = k

theorem ccw_zero_iff (a b c : R3.Vector K) : ccw a b c = 0 ↔ Collinear3 a b c := by
  constructor
  · intro h
    simp only [ccw] at h
    by_cases hb : b.X = a.X ∧ b.Y = a.Y
    · by_cases hc : c.X = a.X ∧ c.Y = a.Y
      · exact ⟨1, 0, a.X, Or.inl one_ne_zero, by
          intro x hx
          simp only [List.mem_cons, List.not_mem_nil, or_false] at hx
          rcases hx with rfl | rfl | rfl <;> simp [hb.1, hc.1]⟩
      · refine ⟨c.Y - a.Y, -(c.X - a.X), (c.Y - a.Y) * a.X - (c.X - a.X) * a.Y, ?_, ?_⟩
        · by_contra hcon
          push Not at hcon
          exact hc ⟨by linear_combination -hcon.2, by linear_combination hcon.1⟩
        · intro x hx
          simp only [List.mem_cons, List.not_mem_nil, or_false] at hx
          rcases hx with rfl | rfl | rfl
          · ring
          · rw [hb.1, hb.2]; ring
          · ring
    · refine ⟨b.Y - a.Y, -(b.X - a.X), (b.Y - a.Y) * a.X - (b.X - a.X) * a.Y, ?_, ?_⟩
      · by_contra hcon
        push Not at hcon
        exact hb ⟨by linear_combination -hcon.2, by linear_combination hcon.1⟩
      · intro x hx
        simp only [List.mem_cons, List.not_mem_nil, or_false] at hx
        rcases hx with rfl | rfl | rfl
        · ring
        · ring
        · linear_combination -h
  · rintro ⟨u, v, k, huv, h⟩
    have ha := h a (by simp)
    have hb := h b (by simp)
    have hc := h c (by simp)
    simp only [ccw]
    rcases huv with hu | hv
    · apply mul_left_cancel₀ hu
      linear_combination (c.Y - a.Y) * (hb - ha) - (b.Y - a.Y) * (hc - ha)
    · apply mul_left_cancel₀ hv
      linear_combination (b.X - a.X) * (hc - ha) - (c.X - a.X) * (hb - ha)

/-- C13: the circumcentre of a non-collinear triple is equidistant from the three points -/
theorem C13_circumcenter (a b c : R3.Vector K) (h : ¬ Collinear3 a b c) :
    Circumcircle a b c (circumcenter a b c) (e2 a (circumcenter a b c)) := by
  rw [← ccw_zero_iff] at h
  simp only [ccw] at h
  have half : (((1 / 2 : ℚ)) : K) * 2 = 1 := by push_cast; norm_num
  refine ⟨rfl, ?_, ?_⟩
  all_goals
    simp only [e2, circumcenter, goConst_field]
    generalize hx : _ / ((b.X - a.X) * (c.Y - a.Y) - (b.Y - a.Y) * (c.X - a.X)) = x
    generalize hy : _ / ((b.X - a.X) * (c.Y - a.Y) - (b.Y - a.Y) * (c.X - a.X)) = y
    generalize (((1 / 2 : ℚ)) : K) = H at *
    rw [div_eq_iff h] at hx hy
    apply mul_left_cancel₀ h
  · linear_combination 2 * (b.X - a.X) * hx + 2 * (b.Y - a.Y) * hy - ((b.X - a.X) * (c.Y - a.Y) - (b.Y - a.Y) * (c.X - a.X)) * ((b.X - a.X)^2 + (b.Y - a.Y)^2) * half
  · linear_combination 2 * (c.X - a.X) * hx + 2 * (c.Y - a.Y) * hy - ((b.X - a.X) * (c.Y - a.Y) - (b.Y - a.Y) * (c.X - a.X)) * ((c.X - a.X)^2 + (c.Y - a.Y)^2) * half

/-- C13: `circumradius` is infinite exactly for collinear triples, and otherwise is the squared distance
of the circumcentre from the vertices -/
theorem C13_circumradius (a b c : R3.Vector K) :
    (circumradius a b c = none ↔ Collinear3 a b c) ∧
    (¬ Collinear3 a b c → ∀ o R, Circumcircle a b c o R → circumradius a b c = some R) := by
  have hval : ∀ (_ : ¬ Collinear3 a b c), circumradius a b c = some (e2 a (circumcenter a b c)) := by
    intro h
    have hc := C13_circumcenter a b c h
    have h' := h
    rw [← ccw_zero_iff] at h'
    have hd : (b.X - a.X) * (c.Y - a.Y) - (b.Y - a.Y) * (c.X - a.X) ≠ 0 := h'
    have hr : e2 a (circumcenter a b c) ≠ 0 := by
      intro h0
      obtain ⟨h1, h2, h3⟩ := hc
      rw [h0] at h2
      have z : ∀ p q : R3.Vector K, e2 p q = 0 → p.X = q.X ∧ p.Y = q.Y := by
        intro p q hpq
        simp only [e2] at hpq
        constructor
        · nlinarith [sq_nonneg (p.X - q.X), sq_nonneg (p.Y - q.Y), pow_eq_zero_iff (two_ne_zero) |>.mp (le_antisymm (by nlinarith [sq_nonneg (p.Y - q.Y)]) (sq_nonneg (p.X - q.X)))]
        · nlinarith [sq_nonneg (p.X - q.X), sq_nonneg (p.Y - q.Y), pow_eq_zero_iff (two_ne_zero) |>.mp (le_antisymm (by nlinarith [sq_nonneg (p.X - q.X)]) (sq_nonneg (p.Y - q.Y)))]
      have za := z _ _ h0
      have zb := z _ _ h2
      apply hd
      rw [zb.1, zb.2, za.1, za.2]; ring
    have hbl : (b.X - a.X) * (b.X - a.X) + (b.Y - a.Y) * (b.Y - a.Y) ≠ 0 := by
      intro h0
      have := (mul_self_add_mul_self_eq_zero (a := b.X - a.X) (b := b.Y - a.Y)).mp h0
      apply hd; rw [this.1, this.2]; ring
    have hcl : (c.X - a.X) * (c.X - a.X) + (c.Y - a.Y) * (c.Y - a.Y) ≠ 0 := by
      intro h0
      have := (mul_self_add_mul_self_eq_zero (a := c.X - a.X) (b := c.Y - a.Y)).mp h0
      apply hd; rw [this.1, this.2]; ring
    have hreq : e2 a (circumcenter a b c) = 
      ((c.Y - a.Y) * ((b.X - a.X) * (b.X - a.X) + (b.Y - a.Y) * (b.Y - a.Y)) -
              (b.Y - a.Y) * ((c.X - a.X) * (c.X - a.X) + (c.Y - a.Y) * (c.Y - a.Y))) * (GoConst.const (1/2) : K) /
            ((b.X - a.X) * (c.Y - a.Y) - (b.Y - a.Y) * (c.X - a.X)) *
          (((c.Y - a.Y) * ((b.X - a.X) * (b.X - a.X) + (b.Y - a.Y) * (b.Y - a.Y)) -
                (b.Y - a.Y) * ((c.X - a.X) * (c.X - a.X) + (c.Y - a.Y) * (c.Y - a.Y))) * (GoConst.const (1/2) : K) /
            ((b.X - a.X) * (c.Y - a.Y) - (b.Y - a.Y) * (c.X - a.X))) +
        ((b.X - a.X) * ((c.X - a.X) * (c.X - a.X) + (c.Y - a.Y) * (c.Y - a.Y)) -
                (c.X - a.X) * ((b.X - a.X) * (b.X - a.X) + (b.Y - a.Y) * (b.Y - a.Y))) * (GoConst.const (1/2) : K) /
            ((b.X - a.X) * (c.Y - a.Y) - (b.Y - a.Y) * (c.X - a.X)) *
          (((b.X - a.X) * ((c.X - a.X) * (c.X - a.X) + (c.Y - a.Y) * (c.Y - a.Y)) -
                (c.X - a.X) * ((b.X - a.X) * (b.X - a.X) + (b.Y - a.Y) * (b.Y - a.Y))) * (GoConst.const (1/2) : K) /
            ((b.X - a.X) * (c.Y - a.Y) - (b.Y - a.Y) * (c.X - a.X))) := by
      simp only [e2, circumcenter]; ring
    rw [hreq] at hr ⊢
    unfold circumradius
    simp only [beq_iff_eq, Bool.or_eq_true, hbl, hcl, hd, hr, or_self, if_false]
  refine ⟨⟨?_, ?_⟩, ?_⟩
  · intro hn
    by_contra hcol
    rw [hval hcol] at hn
    cases hn
  · intro hcol
    have hd := (ccw_zero_iff a b c).mpr hcol
    have hd : (b.X - a.X) * (c.Y - a.Y) - (b.Y - a.Y) * (c.X - a.X) = 0 := hd
    unfold circumradius
    simp [hd]
  · intro hcol o R h
    rw [hval hcol]
    have h2 := C13_circumcenter a b c hcol
    obtain ⟨h1a, h1b, h1c⟩ := h
    have hd : ccw a b c ≠ 0 := fun h0 => hcol ((ccw_zero_iff a b c).mp h0)
    obtain ⟨h2a, h2b, h2c⟩ := h2
    generalize circumcenter a b c = q at *
    -- both centres solve the same non-singular linear system
    have e1 : (b.X - a.X) * (o.X - q.X) + (b.Y - a.Y) * (o.Y - q.Y) = 0 := by
      simp only [e2] at *
      linear_combination (1/2) * (h1a - h1b + h2b)
    have e3 : (c.X - a.X) * (o.X - q.X) + (c.Y - a.Y) * (o.Y - q.Y) = 0 := by
      simp only [e2] at *
      linear_combination (1/2) * (h1a - h1c + h2c)
    have ex : o.X = q.X := by
      have : ccw a b c * (o.X - q.X) = 0 := by
        simp only [ccw]; linear_combination (c.Y - a.Y) * e1 - (b.Y - a.Y) * e3
      have := (mul_eq_zero.mp this).resolve_left hd
      linear_combination this
    have ey : o.Y = q.Y := by
      have : ccw a b c * (o.Y - q.Y) = 0 := by
        simp only [ccw]; linear_combination (b.X - a.X) * e3 - (c.X - a.X) * e1
      have := (mul_eq_zero.mp this).resolve_left hd
      linear_combination this
    rw [← h1a]; simp only [e2, ex, ey]

example : ¬ Collinear3 (⟨0,0,0⟩ : R3.Vector ℚ) ⟨4,0,0⟩ ⟨0,2,0⟩ ∧
    circumcenter (⟨0,0,0⟩ : R3.Vector ℚ) ⟨4,0,0⟩ ⟨0,2,0⟩ = ⟨2,1,0⟩ ∧
    circumradius (⟨0,0,0⟩ : R3.Vector ℚ) ⟨4,0,0⟩ ⟨0,2,0⟩ = some 5 ∧
    circumradius (⟨0,0,0⟩ : R3.Vector ℚ) ⟨1,1,0⟩ ⟨2,2,0⟩ = none := by
  rw [← ccw_zero_iff]
  norm_num [ccw, circumcenter, circumradius]

end C13
end Verif.Props
