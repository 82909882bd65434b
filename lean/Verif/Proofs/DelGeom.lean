import Mathlib.Tactic.LinearCombination
import Mathlib.Tactic.Linarith
import Mathlib.Tactic.Positivity
import Verif.Model.Tri2Util
/-!
# Plane geometry behind the Delaunay condition

`area a b c` and `inCircleDet a b c d` are the determinants of util.go, read over an ordered field. A triangle is
positively oriented when `0 < area`; then `inCircleDet a b c d < 0` says that `d` lies strictly inside its circumcircle.
-/
namespace Verif.Proofs
open Verif Verif.Tri2

section ring
variable {K : Type} [CommRing K]

theorem area_cyc (a b c : R3.Vector K) : area b c a = area a b c := by unfold area; ring
theorem area_cyc' (a b c : R3.Vector K) : area c a b = area a b c := by unfold area; ring
theorem area_swap (a b c : R3.Vector K) : area a c b = - area a b c := by unfold area; ring
theorem area_swap' (a b c : R3.Vector K) : area b a c = - area a b c := by unfold area; ring
theorem area_aa (a b : R3.Vector K) : area a a b = 0 := by unfold area; ring
theorem area_aba (a b : R3.Vector K) : area a b a = 0 := by unfold area; ring
theorem area_abb (a b : R3.Vector K) : area a b b = 0 := by unfold area; ring

theorem det_cyc (a b c d : R3.Vector K) : inCircleDet b c a d = inCircleDet a b c d := by simp only [inCircleDet]; ring
theorem det_cyc' (a b c d : R3.Vector K) : inCircleDet c a b d = inCircleDet a b c d := by simp only [inCircleDet]; ring
theorem det_swap (a b c d : R3.Vector K) : inCircleDet a c b d = - inCircleDet a b c d := by simp only [inCircleDet]; ring
theorem det_swap4 (a b c d : R3.Vector K) : inCircleDet d b c a = - inCircleDet a b c d := by simp only [inCircleDet]; ring
theorem det_flip (a b c d : R3.Vector K) : inCircleDet d c b a = inCircleDet a b c d := by simp only [inCircleDet]; ring
theorem det_1 (a b c : R3.Vector K) : inCircleDet a b c a = 0 := by simp only [inCircleDet]; ring
theorem det_2 (a b c : R3.Vector K) : inCircleDet a b c b = 0 := by simp only [inCircleDet]; ring
theorem det_3 (a b c : R3.Vector K) : inCircleDet a b c c = 0 := by simp only [inCircleDet]; ring

/-- the circles through `o` and `l` form a pencil -/
theorem pencil (p r v o l : R3.Vector K) :
    inCircleDet p o l v * area r o l = inCircleDet r o l v * area p o l - inCircleDet r o l p * area v o l := by
  obtain ⟨px, py, _⟩ := p
  obtain ⟨rx, ry, _⟩ := r
  obtain ⟨vx, vy, _⟩ := v
  obtain ⟨ox, oy, _⟩ := o
  obtain ⟨lx, ly, _⟩ := l
  simp only [inCircleDet, area]
  ring

/-- the two triangulations of a quadrilateral have the same area -/
theorem area_quad (p r l o : R3.Vector K) : area p r l + area o l r = area o l p + area p r o := by unfold area; ring

/-- Plücker relation at `w` -/
theorem plucker (p v z u w : R3.Vector K) :
    area p v w * area z u w = area p z w * area v u w + area p u w * area z v w := by unfold area; ring

end ring

variable {K : Type} [Field K] [LinearOrder K] [IsStrictOrderedRing K]

/-- the planar positions agree -/
def SameXY (a b : R3.Vector K) : Prop := a.X = b.X ∧ a.Y = b.Y

omit [LinearOrder K] [IsStrictOrderedRing K] in
theorem SameXY.area {a b : R3.Vector K} (h : SameXY a b) (x y : R3.Vector K) : area a x y = Tri2.area b x y := by
  unfold Tri2.area; rw [h.1, h.2]

theorem flip_pos_aux {p r l o : R3.Vector K} (h1 : 0 < area p r l) (h2 : 0 < area o l r) (hD : inCircleDet p r l o < 0) : 0 < area o l p := by
  have key : inCircleDet p r l o = ((p.X-l.X)^2 + (p.Y-l.Y)^2) * area o l r + ((o.X-l.X)^2 + (o.Y-l.Y)^2) * area p r l
      - ((r.X-l.X)^2 + (r.Y-l.Y)^2) * area o l p := by
    obtain ⟨px, py, _⟩ := p
    obtain ⟨rx, ry, _⟩ := r
    obtain ⟨ox, oy, _⟩ := o
    obtain ⟨lx, ly, _⟩ := l
    simp only [inCircleDet, area]; ring
  by_contra hn
  rw [not_lt] at hn
  have e1 : 0 ≤ ((p.X-l.X)^2 + (p.Y-l.Y)^2) * area o l r := by positivity
  have e2 : 0 ≤ ((o.X-l.X)^2 + (o.Y-l.Y)^2) * area p r l := by positivity
  have e3 : ((r.X-l.X)^2 + (r.Y-l.Y)^2) * area o l p ≤ 0 := mul_nonpos_of_nonneg_of_nonpos (by positivity) hn
  linarith

/-- a flip yields positively oriented triangles -/
theorem flip_pos {p r l o : R3.Vector K} (h1 : 0 < area p r l) (h2 : 0 < area o l r) (hD : inCircleDet p r l o < 0) :
    0 < area o l p ∧ 0 < area p r o := by
  refine ⟨flip_pos_aux h1 h2 hD, ?_⟩
  have := flip_pos_aux (p := o) (r := l) (l := r) (o := p) h2 h1 (by rw [det_flip]; exact hD)
  exact this

/-- points outside the circle of `o l r` on the side of `p` stay outside the circle of `p o l` when `p` is inside the circle of `o l r` -/
theorem flip_far {p r v o l : R3.Vector K} (h1 : 0 < area r o l) (h2 : 0 < area p o l) (h3 : 0 ≤ inCircleDet r o l v)
    (h4 : inCircleDet r o l p ≤ 0) (h5 : 0 ≤ area v o l) : 0 ≤ inCircleDet p o l v := by
  have k := pencil p r v o l
  have e1 : 0 ≤ inCircleDet r o l v * area p o l := by positivity
  have e2 : inCircleDet r o l p * area v o l ≤ 0 := mul_nonpos_of_nonpos_of_nonneg h4 h5
  by_contra hn
  rw [not_le] at hn
  have := mul_neg_of_neg_of_pos hn h1
  linarith

/-- the far side of a legal edge -/
theorem legal_far {p r l o v : R3.Vector K} (h1 : 0 < area p r l) (h2 : 0 < area o l r) (h3 : 0 ≤ inCircleDet o l r v)
    (h4 : 0 ≤ inCircleDet p r l o) (h5 : area v r l ≤ 0) : 0 ≤ inCircleDet p r l v := by
  have k := pencil p o v r l
  rw [show area o r l = - area o l r from area_swap _ _ _, show inCircleDet o r l v = - inCircleDet o l r v from det_swap _ _ _ _,
    show inCircleDet o r l p = - inCircleDet p r l o from det_swap4 _ _ _ _] at k
  have e1 : 0 ≤ inCircleDet o l r v * area p r l := by positivity
  have e2 : inCircleDet p r l o * area v r l ≤ 0 := mul_nonpos_of_nonneg_of_nonpos h4 h5
  by_contra hn
  rw [not_le] at hn
  have := mul_neg_of_neg_of_pos hn h2
  linarith

/-- a point outside the circle of `z q r` lying on the line `q r` is outside every circle through `q` and `r` -/
theorem line_far {p q r z v : R3.Vector K} (h1 : 0 < area z q r) (h2 : 0 < area p r q) (h3 : 0 ≤ inCircleDet z q r v) (h4 : area v r q = 0) :
    0 ≤ inCircleDet p r q v := by
  have k := pencil p z v r q
  rw [h4, mul_zero, sub_zero, show area z r q = - area z q r from area_swap _ _ _, show inCircleDet z r q v = - inCircleDet z q r v from det_swap _ _ _ _] at k
  have e1 : 0 ≤ inCircleDet z q r v * area p r q := by positivity
  by_contra hn
  rw [not_le] at hn
  have := mul_neg_of_neg_of_pos hn h1
  linarith

/-- the point before a visible edge and after an invisible one is a tangent point from `p` -/
theorem tangent_max {p v z u w v0 : R3.Vector K} (n1 : 0 ≤ area p u w) (n2 : area p w z < 0) (v1 : 0 ≤ area v u w) (v2 : 0 ≤ area v w z)
    (z1 : 0 ≤ area z u w) (m1 : 0 < area v0 u w) (m2 : 0 ≤ area v0 w z) : 0 ≤ area p v w := by
  have hpz : 0 < area p z w := by rw [area_swap]; linarith
  have rot : ∀ x : R3.Vector K, area z x w = area x w z := fun x => by unfold area; ring
  have k := plucker p v z u w
  have k0 := plucker p v0 z u w
  rw [rot v] at k
  rw [rot v0] at k0
  have e0 : 0 < area p z w * area v0 u w := by positivity
  have e1 : 0 ≤ area p u w * area v0 w z := by positivity
  have e2 : 0 ≤ area p z w * area v u w := by positivity
  have e3 : 0 ≤ area p u w * area v w z := by positivity
  rcases z1.lt_or_eq with h | h
  · by_contra hn
    rw [not_le] at hn
    have := mul_neg_of_neg_of_pos hn h
    linarith
  · rw [← h] at k0; linarith

/-- the mirror image: the point after a visible edge and before an invisible one -/
theorem tangent_min {p v z u w v0 : R3.Vector K} (n1 : area p u w < 0) (n2 : 0 ≤ area p w z) (v1 : 0 ≤ area v u w) (v2 : 0 ≤ area v w z)
    (z1 : 0 ≤ area u w z) (m1 : 0 ≤ area v0 u w) (m2 : 0 < area v0 w z) : 0 ≤ area v p w := by
  have rot : ∀ x : R3.Vector K, area z x w = area x w z := fun x => by unfold area; ring
  have k := plucker p v z u w
  have k0 := plucker p v0 z u w
  rw [rot v] at k
  rw [rot v0] at k0
  have hzp : area p z w ≤ 0 := by rw [area_swap]; linarith
  have ez : area z u w = area u w z := rot u
  rw [ez] at k k0
  have e0 : area p u w * area v0 w z < 0 := mul_neg_of_neg_of_pos n1 m2
  have e1 : area p z w * area v0 u w ≤ 0 := mul_nonpos_of_nonpos_of_nonneg hzp m1
  have e2 : area p z w * area v u w ≤ 0 := mul_nonpos_of_nonpos_of_nonneg hzp v1
  have e3 : area p u w * area v w z ≤ 0 := mul_nonpos_of_nonpos_of_nonneg n1.le v2
  have ev : area v p w = - area p v w := area_swap' _ _ _
  rw [ev]
  rcases z1.lt_or_eq with h | h
  · by_contra hn
    rw [not_le] at hn
    have : 0 < area p v w := by linarith
    have := mul_pos this h
    linarith
  · rw [← h] at k0; linarith

/-- two tangent points on one line through `p` coincide -/
theorem tangent_unique {p a a' w z : R3.Vector K} (hcol : area p a w = 0) (h1 : area p w z < 0) (h2 : 0 ≤ area a w z) (h3 : area p a a' < 0)
    (h4 : 0 ≤ area w a a') : SameXY a w := by
  obtain ⟨px, py, pz⟩ := p
  obtain ⟨ax, ay, az⟩ := a
  obtain ⟨bx, bY, bz⟩ := a'
  obtain ⟨wx, wy, wz⟩ := w
  obtain ⟨zx, zy, zz⟩ := z
  simp only [area, SameXY] at *
  obtain ⟨A1, hA1⟩ : ∃ t, t = ax - px := ⟨_, rfl⟩
  obtain ⟨A2, hA2⟩ : ∃ t, t = ay - py := ⟨_, rfl⟩
  obtain ⟨W1, hW1⟩ : ∃ t, t = wx - px := ⟨_, rfl⟩
  obtain ⟨W2, hW2⟩ : ∃ t, t = wy - py := ⟨_, rfl⟩
  obtain ⟨Z1, hZ1⟩ : ∃ t, t = zx - px := ⟨_, rfl⟩
  obtain ⟨Z2, hZ2⟩ : ∃ t, t = zy - py := ⟨_, rfl⟩
  obtain ⟨B1, hB1⟩ : ∃ t, t = bx - px := ⟨_, rfl⟩
  obtain ⟨B2, hB2⟩ : ∃ t, t = bY - py := ⟨_, rfl⟩
  have c0 : A2 * W1 - A1 * W2 = 0 := by rw [hA1, hA2, hW1, hW2]; linear_combination hcol
  have c1 : W2 * Z1 - W1 * Z2 < 0 := by rw [hW1, hW2, hZ1, hZ2]; linarith [h1]
  have c2 : 0 ≤ (W2 * Z1 - W1 * Z2) - (A2 * Z1 - A1 * Z2) + (A2 * W1 - A1 * W2) := by
    rw [hW1, hW2, hZ1, hZ2, hA1, hA2]; linarith [h2]
  have c3 : A2 * B1 - A1 * B2 < 0 := by rw [hA1, hA2, hB1, hB2]; linarith [h3]
  have c4 : 0 ≤ (A2 * B1 - A1 * B2) - (W2 * B1 - W1 * B2) - (A2 * W1 - A1 * W2) := by
    rw [hW1, hW2, hB1, hB2, hA1, hA2]; linarith [h4]
  rw [c0] at c2 c4
  -- A = t W
  have hW : W1 ≠ 0 ∨ W2 ≠ 0 := by
    by_contra h
    push Not at h
    rw [h.1, h.2] at c1; simp at c1
  obtain ⟨t, t1, t2⟩ : ∃ t, A1 = t * W1 ∧ A2 = t * W2 := by
    rcases hW with h | h
    · refine ⟨A1 / W1, by field_simp, ?_⟩
      field_simp; linear_combination c0
    · refine ⟨A2 / W2, ?_, by field_simp⟩
      field_simp; linear_combination -c0
  subst t1 t2
  have g1 : 1 ≤ t := by
    by_contra hn
    rw [not_le] at hn
    nlinarith
  have g2 : t ≤ 1 := by
    by_contra hn
    rw [not_le] at hn
    have e : t * (W2 * B1 - W1 * B2) < 0 := by linarith
    have e2 : W2 * B1 - W1 * B2 < 0 := by
      by_contra hh
      rw [not_lt] at hh
      have := mul_nonneg (by linarith : (0:K) ≤ t) hh
      linarith
    nlinarith
  have ht : t = 1 := le_antisymm g2 g1
  subst ht
  constructor
  · linear_combination -hA1 + hW1
  · linear_combination -hA2 + hW2

/-- a point with no edge of a positively oriented triangle strictly between satisfies every linear inequality that the corners satisfy -/
theorem inside_left {a b c v e y : R3.Vector K} (h : 0 < area a b c) (h1 : 0 ≤ area v a b) (h2 : 0 ≤ area v b c) (h3 : 0 ≤ area v c a)
    (ha : 0 ≤ area a e y) (hb : 0 ≤ area b e y) (hc : 0 ≤ area c e y) : 0 ≤ area v e y := by
  have key : area v e y * area a b c = area v b c * area a e y + area v c a * area b e y + area v a b * area c e y := by
    unfold area; ring
  have : 0 ≤ area v b c * area a e y + area v c a * area b e y + area v a b * area c e y := by positivity
  by_contra hn
  rw [not_le] at hn
  have := mul_neg_of_neg_of_pos hn h
  linarith

/-- a point on the circumcircle strictly beyond one edge is strictly inside with respect to the next one -/
theorem circle_beyond {a b c v : R3.Vector K} (h : 0 < area a b c) (hD : inCircleDet a b c v = 0) (hv : area v a b < 0) : 0 < area v b c := by
  have key : inCircleDet a b c v = ((v.X-b.X)^2 + (v.Y-b.Y)^2) * area a b c - ((a.X-b.X)^2 + (a.Y-b.Y)^2) * area v b c
      - ((c.X-b.X)^2 + (c.Y-b.Y)^2) * area v a b := by
    obtain ⟨ax, ay, az⟩ := a
    obtain ⟨bx, bY, bz⟩ := b
    obtain ⟨cx, cy, cz⟩ := c
    obtain ⟨vx, vy, vz⟩ := v
    simp only [inCircleDet, area]; ring
  by_contra hn
  rw [not_lt] at hn
  have e1 : 0 ≤ ((v.X-b.X)^2 + (v.Y-b.Y)^2) * area a b c := by positivity
  have e2 : ((a.X-b.X)^2 + (a.Y-b.Y)^2) * area v b c ≤ 0 := mul_nonpos_of_nonneg_of_nonpos (by positivity) hn
  have e3 : ((c.X-b.X)^2 + (c.Y-b.Y)^2) * area v a b < 0 := by
    refine mul_neg_of_pos_of_neg ?_ hv
    by_contra h0
    have s1 := sq_nonneg (c.X - b.X)
    have s2 := sq_nonneg (c.Y - b.Y)
    have z1 : (c.X - b.X)^2 = 0 := by linarith
    have z2 : (c.Y - b.Y)^2 = 0 := by linarith
    have z1 := pow_eq_zero_iff (two_ne_zero) |>.mp z1
    have z2 := pow_eq_zero_iff (two_ne_zero) |>.mp z2
    unfold area at h
    rw [z1, z2] at h; simp at h
  linarith

/-- the same with respect to the previous one -/
theorem circle_beyond' {a b c v : R3.Vector K} (h : 0 < area a b c) (hD : inCircleDet a b c v = 0) (hv : area v a b < 0) : 0 < area v c a := by
  have key : inCircleDet a b c v = ((v.X-a.X)^2 + (v.Y-a.Y)^2) * area a b c - ((b.X-a.X)^2 + (b.Y-a.Y)^2) * area v c a
      - ((c.X-a.X)^2 + (c.Y-a.Y)^2) * area v a b := by
    obtain ⟨ax, ay, az⟩ := a
    obtain ⟨bx, bY, bz⟩ := b
    obtain ⟨cx, cy, cz⟩ := c
    obtain ⟨vx, vy, vz⟩ := v
    simp only [inCircleDet, area]; ring
  by_contra hn
  rw [not_lt] at hn
  have e1 : 0 ≤ ((v.X-a.X)^2 + (v.Y-a.Y)^2) * area a b c := by positivity
  have e2 : ((b.X-a.X)^2 + (b.Y-a.Y)^2) * area v c a ≤ 0 := mul_nonpos_of_nonneg_of_nonpos (by positivity) hn
  have e3 : ((c.X-a.X)^2 + (c.Y-a.Y)^2) * area v a b < 0 := by
    refine mul_neg_of_pos_of_neg ?_ hv
    by_contra h0
    have s1 := sq_nonneg (c.X - a.X)
    have s2 := sq_nonneg (c.Y - a.Y)
    have z1 : (c.X - a.X)^2 = 0 := by linarith
    have z2 : (c.Y - a.Y)^2 = 0 := by linarith
    have z1 := pow_eq_zero_iff (two_ne_zero) |>.mp z1
    have z2 := pow_eq_zero_iff (two_ne_zero) |>.mp z2
    have e : area a b c = (c.X - a.X) * (b.Y - a.Y) - (c.Y - a.Y) * (b.X - a.X) := by unfold area; ring
    rw [e, z1, z2] at h; simp at h
  linarith

/-- crossing an edge towards `p` does not increase the power of `p` -/
theorem power_step {x y z o p : R3.Vector K} (hA : 0 < area z x y) (hB : 0 < area o y x) (he : 0 ≤ inCircleDet z x y o) (hp : area p x y < 0) :
    inCircleDet o y x p / area o y x ≤ inCircleDet z x y p / area z x y ∧
    (inCircleDet o y x p / area o y x = inCircleDet z x y p / area z x y → inCircleDet z x y o = 0) := by
  have k := pencil o z p x y
  rw [show area o x y = - area o y x from area_swap _ _ _, show inCircleDet o x y p = - inCircleDet o y x p from det_swap _ _ _ _] at k
  have e : inCircleDet z x y o * area p x y ≤ 0 := mul_nonpos_of_nonneg_of_nonpos he hp.le
  constructor
  · rw [div_le_div_iff₀ hB hA]; linarith
  · intro h
    rw [div_eq_div_iff hB.ne' hA.ne'] at h
    have : inCircleDet z x y o * area p x y = 0 := by linarith
    exact (mul_eq_zero.mp this).resolve_right hp.ne

/-- two triangles on a common circle -/
theorem same_circle {x y z o v : R3.Vector K} (hA : 0 < area z x y) (hB : 0 < area o y x) (h0 : inCircleDet z x y o = 0) (hv : inCircleDet o y x v = 0) :
    inCircleDet z x y v = 0 := by
  have k := pencil o z v x y
  rw [h0, show inCircleDet o x y v = - inCircleDet o y x v from det_swap _ _ _ _, hv, show area o x y = - area o y x from area_swap _ _ _] at k
  have : inCircleDet z x y v * area o y x = 0 := by linear_combination k
  exact (mul_eq_zero.mp this).resolve_right hB.ne'

end Verif.Proofs
