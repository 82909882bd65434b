import Verif.Props.Extremes
/-!
# C113: the edges form a plane graph (triangulate2/triangulator.go)

No two edges of the triangulation cross and no point lies inside an edge; no further edge can be added. Every edge has a triangle or the outside on each side.
The number of edges is `3 n - 3 - h`, and some point has at most five neighbours.
-/
namespace Verif.Props
open Verif Verif.Tri2 Verif.Proofs Verif.Spec

variable {K : Type} [Field K] [LinearOrder K] [IsStrictOrderedRing K]

/-- `a`, `b`, `c` are the corners of triangle number `k`, beginning anywhere -/
def TriNo (Vs : List (R3.Vector K)) (ts : List ℤ) (k : ℕ) (a b c : R3.Vector K) : Prop :=
  Corners Vs ts k a b c ∨ Corners Vs ts k b c a ∨ Corners Vs ts k c a b

omit [Field K] [LinearOrder K] [IsStrictOrderedRing K] in
theorem TriNo.rot {Vs : List (R3.Vector K)} {ts : List ℤ} {k : ℕ} {a b c : R3.Vector K} (h : TriNo Vs ts k a b c) : TriNo Vs ts k b c a := by
  unfold TriNo at *; tauto

omit [Field K] [LinearOrder K] [IsStrictOrderedRing K] in
theorem TriNo.has {Vs : List (R3.Vector K)} {ts : List ℤ} {k : ℕ} {a b c : R3.Vector K} (h : TriNo Vs ts k a b c) : HasTriangle Vs ts a b c := ⟨k, h⟩

omit [Field K] [LinearOrder K] [IsStrictOrderedRing K] in
theorem triNo_det {Vs : List (R3.Vector K)} {ts : List ℤ} {k : ℕ} {a b c a' b' c' : R3.Vector K} (h : TriNo Vs ts k a b c) (h' : TriNo Vs ts k a' b' c') :
    (a = a' ∧ b = b' ∧ c = c') ∨ (a = b' ∧ b = c' ∧ c = a') ∨ (a = c' ∧ b = a' ∧ c = b') := by
  rcases h with h | h | h <;> rcases h' with h' | h' | h' <;> have := corners_det h h' <;> tauto

/-- the point `x` moved by `ε w` -/
def moved (x w : R3.Vector K) (ε : K) : R3.Vector K := ⟨x.X + ε * w.X, x.Y + ε * w.Y, 0⟩

/-- the cross product of the direction from `a` to `b` with `w` -/
def turnOf (a b w : R3.Vector K) : K := (b.X - a.X) * w.Y - (b.Y - a.Y) * w.X

omit [LinearOrder K] [IsStrictOrderedRing K] in
theorem orient_moved (a b x w : R3.Vector K) (ε : K) : orient a b (moved x w ε) = orient a b x + ε * turnOf a b w := by
  unfold orient moved turnOf; ring

omit [LinearOrder K] [IsStrictOrderedRing K] in
theorem orient_rot (a b c : R3.Vector K) : orient b c a = orient a b c := by unfold orient; ring

theorem small_neg {n m : K} (h : n < 0) : ∃ d, 0 < d ∧ ∀ ε, 0 < ε → ε ≤ d → n + ε * m < 0 := by
  have hp : 0 < |m| + 1 := by positivity
  refine ⟨-n / (|m| + 1), div_pos (by linarith) hp, fun ε e0 e1 => ?_⟩
  rw [le_div_iff₀ hp] at e1
  have := mul_le_mul_of_nonneg_left (le_abs_self m) e0.le
  linarith

omit [LinearOrder K] [IsStrictOrderedRing K] in
theorem orient_at {p q x : R3.Vector K} {t : K} (hx : x.X = p.X + t * (q.X - p.X)) (hy : x.Y = p.Y + t * (q.Y - p.Y)) (a b : R3.Vector K) :
    orient a b x = (1 - t) * orient a b p + t * orient a b q := by
  unfold orient; rw [hx, hy]; ring

/-- just inside of an edge -/
theorem just_inside {a b c x w : R3.Vector K} (cw : orient a b c < 0) (hx : Between a b x) (hw : turnOf a b w < 0) :
    ∃ d, 0 < d ∧ ∀ ε, 0 < ε → ε ≤ d → orient a b (moved x w ε) < 0 ∧ orient b c (moved x w ε) < 0 ∧ orient c a (moved x w ε) < 0 := by
  obtain ⟨t, t0, t1, hX, hY⟩ := hx
  have e1 : orient a b x = 0 := by
    rw [orient_at hX hY]; unfold orient; ring
  have e2 : orient b c x < 0 := by
    rw [orient_at hX hY, show orient b c b = 0 by unfold orient; ring, orient_rot, mul_zero, add_zero]
    exact mul_neg_of_pos_of_neg (by linarith) cw
  have e3 : orient c a x < 0 := by
    rw [orient_at hX hY, show orient c a a = 0 by unfold orient; ring, orient_rot b c a, orient_rot a b c, mul_zero, zero_add]
    exact mul_neg_of_pos_of_neg t0 cw
  obtain ⟨d2, p2, h2⟩ := small_neg (m := turnOf b c w) e2
  obtain ⟨d3, p3, h3⟩ := small_neg (m := turnOf c a w) e3
  refine ⟨min d2 d3, lt_min p2 p3, fun ε e0 hε => ?_⟩
  rw [orient_moved, orient_moved, orient_moved, e1, zero_add]
  exact ⟨mul_neg_of_pos_of_neg e0 hw, h2 ε e0 (hε.trans (min_le_left _ _)), h3 ε e0 (hε.trans (min_le_right _ _))⟩

section
variable {Vs hull : List (R3.Vector K)} {ts : List ℤ}

omit [IsStrictOrderedRing K] in
theorem tri_clockwise (D : Delaunay Vs ts) {a b c : R3.Vector K} (h : HasTriangle Vs ts a b c) : orient a b c < 0 := (has_delaunay D h).1

omit [IsStrictOrderedRing K] in
theorem tri_mem (D : Delaunay Vs ts) {a b c : R3.Vector K} (h : HasTriangle Vs ts a b c) : a ∈ Vs ∧ b ∈ Vs ∧ c ∈ Vs :=
  ⟨vertex_mem (has_delaunay D (has_rot h)).2.1.2, vertex_mem (has_delaunay D h).2.1.1, vertex_mem (has_delaunay D h).2.1.2⟩

omit [IsStrictOrderedRing K] in
theorem tri_ne {a b c : R3.Vector K} (cw : orient a b c < 0) : a ≠ b ∧ b ≠ c ∧ c ≠ a := by
  refine ⟨?_, ?_, ?_⟩ <;> rintro rfl <;> (unfold orient at cw; ring_nf at cw; exact lt_irrefl _ cw)

/-- a point in a closed triangle is a corner -/
theorem in_tri_corner (R : DelaunayResult Vs hull ts) (hd : PlanarDistinct Vs) {a b c v : R3.Vector K} (h : HasTriangle Vs ts a b c) (hv : v ∈ Vs) (hin : InTri a b c v) :
    v = a ∨ v = b ∨ v = c := by
  obtain ⟨i1, i2, i3⟩ := hin
  obtain ⟨k, h | h | h⟩ := h
  · exact vertex_corner hd R.delaunay h (R.cover v hv) ⟨i1, i2, i3⟩
  · have := vertex_corner hd R.delaunay h (R.cover v hv) ⟨i2, i3, i1⟩; tauto
  · have := vertex_corner hd R.delaunay h (R.cover v hv) ⟨i3, i1, i2⟩; tauto

/-- no point lies inside an edge -/
theorem edge_inner (R : DelaunayResult Vs hull ts) (hd : PlanarDistinct Vs) {a b c v : R3.Vector K} (h : HasTriangle Vs ts a b c) (hv : v ∈ Vs) : ¬ Between a b v := by
  rintro ⟨t, t0, t1, hX, hY⟩
  have cw := tri_clockwise R.delaunay h
  have e1 : orient a b v = 0 := by rw [orient_at hX hY]; unfold orient; ring
  have e2 : orient b c v < 0 := by
    rw [orient_at hX hY, show orient b c b = 0 by unfold orient; ring, orient_rot, mul_zero, add_zero]
    exact mul_neg_of_pos_of_neg (by linarith) cw
  have e3 : orient c a v < 0 := by
    rw [orient_at hX hY, show orient c a a = 0 by unfold orient; ring, orient_rot b c a, orient_rot a b c, mul_zero, zero_add]
    exact mul_neg_of_pos_of_neg t0 cw
  rcases in_tri_corner R hd h hv ⟨e1.le, e2.le, e3.le⟩ with rfl | rfl | rfl
  · rw [show orient c v v = 0 by unfold orient; ring] at e3; exact lt_irrefl _ e3
  · rw [show orient v c v = 0 by unfold orient; ring] at e2; exact lt_irrefl _ e2
  · rw [e1] at cw; exact lt_irrefl _ cw

/-- two triangles on the same side of a common point of two edges are the same triangle -/
theorem tri_overlap (R : DelaunayResult Vs hull ts) {j k : ℕ} {a b c a' b' c' x w : R3.Vector K} (h : TriNo Vs ts j a b c) (h' : TriNo Vs ts k a' b' c')
    (hx : Between a b x) (hx' : Between a' b' x) (hw : turnOf a b w < 0) (hw' : turnOf a' b' w < 0) : j = k ∧ a = a' ∧ b = b' := by
  have cw := tri_clockwise R.delaunay h.has
  have cw' := tri_clockwise R.delaunay h'.has
  obtain ⟨d, d0, h1⟩ := just_inside cw hx hw
  obtain ⟨d', d0', h1'⟩ := just_inside cw' hx' hw'
  have m : 0 < min d d' := lt_min d0 d0'
  obtain ⟨i1, i2, i3⟩ := h1 _ m (min_le_left _ _)
  obtain ⟨i1', i2', i3'⟩ := h1' _ m (min_le_right _ _)
  have e : j = k := by
    rcases h with h | h | h <;> rcases h' with h' | h' | h' <;> refine R.disjoint (moved x w (min d d')) h h' ⟨?_, ?_, ?_⟩ ⟨?_, ?_, ?_⟩ <;> assumption
  subst e
  refine ⟨rfl, ?_⟩
  obtain ⟨t, t0, t1, hX, hY⟩ := hx
  obtain ⟨t', t0', t1', hX', hY'⟩ := hx'
  have e1' : orient a' b' x = 0 := by rw [orient_at hX' hY']; unfold orient; ring
  rcases triNo_det h h' with ⟨rfl, rfl, -⟩ | ⟨rfl, rfl, rfl⟩ | ⟨rfl, rfl, rfl⟩
  · exact ⟨rfl, rfl⟩
  · -- the other edge is `c a`
    exfalso
    rw [orient_at hX hY, show orient c a a = 0 by unfold orient; ring, orient_rot b c a, orient_rot a b c, mul_zero, zero_add] at e1'
    have := mul_neg_of_pos_of_neg t0 cw
    linarith
  · exfalso
    rw [orient_at hX hY, show orient b c b = 0 by unfold orient; ring, orient_rot, mul_zero, add_zero] at e1'
    have := mul_neg_of_pos_of_neg (sub_pos.mpr t1) cw
    linarith

/-- two edges with a common inner point are the same edge -/
theorem edge_same (R : DelaunayResult Vs hull ts) (hd : PlanarDistinct Vs) {a b c a' b' c' x : R3.Vector K} (h : HasTriangle Vs ts a b c)
    (h' : HasTriangle Vs ts a' b' c') (hx : Between a b x) (hx' : Between a' b' x) : (a = a' ∧ b = b') ∨ (a = b' ∧ b = a') := by
  have cw := tri_clockwise R.delaunay h
  have cw' := tri_clockwise R.delaunay h'
  obtain ⟨ma, mb, mc⟩ := tri_mem R.delaunay h
  obtain ⟨ma', mb', mc'⟩ := tri_mem R.delaunay h'
  by_cases hD : (b.X - a.X) * (b'.Y - a'.Y) - (b.Y - a.Y) * (b'.X - a'.X) = 0
  · -- parallel
    have hne : b.X - a.X ≠ 0 ∨ b.Y - a.Y ≠ 0 := by
      by_contra hc
      push Not at hc
      exact (tri_ne cw).1 (hd a ma b mb (by linarith [hc.1]) (by linarith [hc.2]))
    have ex : ∃ l, b'.X - a'.X = l * (b.X - a.X) ∧ b'.Y - a'.Y = l * (b.Y - a.Y) := by
      rcases hne with hx | hy
      · refine ⟨(b'.X - a'.X) / (b.X - a.X), by field_simp, ?_⟩
        field_simp
        linarith
      · refine ⟨(b'.Y - a'.Y) / (b.Y - a.Y), ?_, by field_simp⟩
        field_simp
        linarith
    obtain ⟨l, lX, lY⟩ := ex
    have s : 0 < (b.X - a.X) ^ 2 + (b.Y - a.Y) ^ 2 := by
      rcases hne with h | h
      · have := sq_nonneg (b.Y - a.Y); have : 0 < (b.X - a.X) ^ 2 := by positivity
        linarith
      · have := sq_nonneg (b.X - a.X); have : 0 < (b.Y - a.Y) ^ 2 := by positivity
        linarith
    rcases lt_trichotomy l 0 with hl | hl | hl
    · right
      obtain ⟨t, t0, t1, hX, hY⟩ := hx
      obtain ⟨u, u0, u1, hX', hY'⟩ := hx'
      rw [lX] at hX'
      rw [lY] at hY'
      have aX : a'.X = a.X + (t - u * l) * (b.X - a.X) := by linear_combination hX - hX'
      have aY : a'.Y = a.Y + (t - u * l) * (b.Y - a.Y) := by linear_combination hY - hY'
      have bX : b'.X = a.X + (t - u * l + l) * (b.X - a.X) := by linear_combination hX - hX' + lX
      have bY : b'.Y = a.Y + (t - u * l + l) * (b.Y - a.Y) := by linear_combination hY - hY' + lY
      have ul : u * l < 0 := mul_neg_of_pos_of_neg u0 hl
      have vl : (1 - u) * l < 0 := mul_neg_of_pos_of_neg (by linarith) hl
      have a1 : 1 ≤ t - u * l := by
        by_contra hc
        exact edge_inner R hd h ma' ⟨t - u * l, by linarith, not_le.mp hc, aX, aY⟩
      have b1 : t - u * l + l ≤ 0 := by
        by_contra hc
        exact edge_inner R hd h mb' ⟨t - u * l + l, not_le.mp hc, by linarith, bX, bY⟩
      have b0 : t - u * l + l = 0 := by
        by_contra hc
        have hlt := lt_of_le_of_ne b1 hc
        have el : (t - u * l) / -l * l = -(t - u * l) := by have := hl.ne; field_simp
        refine edge_inner R hd h' ma ⟨(t - u * l) / -l, div_pos (by linarith) (by linarith), ?_, ?_, ?_⟩
        · rw [div_lt_one (by linarith)]; linarith
        · rw [lX, ← mul_assoc, el, aX]; ring
        · rw [lY, ← mul_assoc, el, aY]; ring
      have a0 : t - u * l = 1 := by
        by_contra hc
        have hlt := lt_of_le_of_ne a1 (Ne.symm hc)
        have el : (t - u * l - 1) / -l * l = -(t - u * l - 1) := by have := hl.ne; field_simp
        refine edge_inner R hd h' mb ⟨(t - u * l - 1) / -l, div_pos (by linarith) (by linarith), ?_, ?_, ?_⟩
        · rw [div_lt_one (by linarith)]; linarith
        · rw [lX, ← mul_assoc, el, aX]; ring
        · rw [lY, ← mul_assoc, el, aY]; ring
      rw [b0] at bX bY
      rw [a0] at aX aY
      exact ⟨hd a ma b' mb' (by linarith) (by linarith), hd b mb a' ma' (by linarith) (by linarith)⟩
    · exfalso
      rw [hl, zero_mul] at lX lY
      exact (tri_ne cw').1 (hd a' ma' b' mb' (by linarith) (by linarith))
    · left
      obtain ⟨j, h⟩ := h
      obtain ⟨k, h'⟩ := h'
      have t1 : turnOf a b ⟨b.Y - a.Y, -(b.X - a.X), 0⟩ < 0 := by unfold turnOf; nlinarith
      have t2 : turnOf a' b' ⟨b.Y - a.Y, -(b.X - a.X), 0⟩ < 0 := by
        unfold turnOf
        rw [lX, lY]
        have := mul_pos hl s
        simp only
        nlinarith
      exact (tri_overlap R h h' hx hx' t1 t2).2
  · left
    obtain ⟨j, h⟩ := h
    obtain ⟨k, h'⟩ := h'
    set D := (b.X - a.X) * (b'.Y - a'.Y) - (b.Y - a.Y) * (b'.X - a'.X) with hDdef
    have D2 : 0 < D * D := mul_self_pos.mpr hD
    have e1 : turnOf a b ⟨D * (b.X - a.X) - D * (b'.X - a'.X), D * (b.Y - a.Y) - D * (b'.Y - a'.Y), 0⟩ = -(D * D) := by
      unfold turnOf; rw [hDdef]; ring
    have e2 : turnOf a' b' ⟨D * (b.X - a.X) - D * (b'.X - a'.X), D * (b.Y - a.Y) - D * (b'.Y - a'.Y), 0⟩ = -(D * D) := by
      unfold turnOf; rw [hDdef]; ring
    exact (tri_overlap R h h' hx hx' (by rw [e1]; linarith) (by rw [e2]; linarith)).2

/-- on a ray without points in between there is one point -/
theorem ray_same (hd : PlanarDistinct Vs) {p q b : R3.Vector K} (hq : q ∈ Vs) (hb : b ∈ Vs) {β : K} (β0 : 0 < β)
    (hX : q.X - p.X = β * (b.X - p.X)) (hY : q.Y - p.Y = β * (b.Y - p.Y)) : q = b ∨ Between p b q ∨ Between p q b := by
  rcases lt_trichotomy β 1 with h | h | h
  · exact Or.inr (Or.inl ⟨β, β0, h, by linarith, by linarith⟩)
  · rw [h, one_mul] at hX hY
    exact Or.inl (hd q hq b hb (by linarith) (by linarith))
  · refine Or.inr (Or.inr ⟨1 / β, by positivity, by rw [div_lt_one β0]; exact h, ?_, ?_⟩)
    · rw [hX]; field_simp; ring
    · rw [hY]; field_simp; ring

/-- from a corner through a triangle across the opposite edge -/
theorem cone_cross {p b c q : R3.Vector K} (cw : orient p b c < 0) (h1 : orient p b q < 0) (h2 : orient c p q < 0) (ho : ¬ InTri p b c q) :
    ∃ x, Between b c x ∧ Between p q x := by
  have h3 : 0 < orient b c q := by
    by_contra hc
    exact ho ⟨h1.le, not_lt.mp hc, h2.le⟩
  have sum : orient p b q + orient b c q + orient c p q = orient p b c := by unfold orient; ring
  set g := orient p b q with hg
  set β := orient c p q with hβ
  have gβ : g + β < 0 := by linarith
  have ne : g + β ≠ 0 := gβ.ne
  have iX : orient p b c * (q.X - p.X) = β * (b.X - p.X) + g * (c.X - p.X) := by rw [hg, hβ]; unfold orient; ring
  have iY : orient p b c * (q.Y - p.Y) = β * (b.Y - p.Y) + g * (c.Y - p.Y) := by rw [hg, hβ]; unfold orient; ring
  refine ⟨⟨b.X + g / (g + β) * (c.X - b.X), b.Y + g / (g + β) * (c.Y - b.Y), 0⟩, ⟨g / (g + β), div_pos_of_neg_of_neg h1 gβ, ?_, rfl, rfl⟩,
    ⟨orient p b c / (g + β), div_pos_of_neg_of_neg cw gβ, ?_, ?_, ?_⟩⟩
  · rw [div_lt_one_of_neg gβ]; linarith
  · rw [div_lt_one_of_neg gβ]; linarith
  · simp only
    rw [div_mul_eq_mul_div, div_mul_eq_mul_div, iX]
    field_simp
    ring
  · simp only
    rw [div_mul_eq_mul_div, div_mul_eq_mul_div, iY]
    field_simp
    ring

omit [LinearOrder K] [IsStrictOrderedRing K] in
/-- coordinates of a direction in the cone of two others -/
theorem cone_coords {p b c q : R3.Vector K} (h : orient p b c ≠ 0) :
    q.X - p.X = orient c p q / orient p b c * (b.X - p.X) + orient p b q / orient p b c * (c.X - p.X) ∧
    q.Y - p.Y = orient c p q / orient p b c * (b.Y - p.Y) + orient p b q / orient p b c * (c.Y - p.Y) := by
  constructor
  · rw [div_mul_eq_mul_div, div_mul_eq_mul_div, ← add_div, eq_div_iff h]; unfold orient; ring
  · rw [div_mul_eq_mul_div, div_mul_eq_mul_div, ← add_div, eq_div_iff h]; unfold orient; ring

theorem edge_no_point (R : DelaunayResult Vs hull ts) (hd : PlanarDistinct Vs) {p q v : R3.Vector K} (h : HasEdge Vs ts p q) (hv : v ∈ Vs) : ¬ Between p q v := by
  obtain ⟨r, h | h⟩ := h
  · exact edge_inner R hd h hv
  · exact fun hb => edge_inner R hd h hv (between_symm hb)

theorem edge_no_cross (R : DelaunayResult Vs hull ts) (hd : PlanarDistinct Vs) {p q r s x : R3.Vector K} (h : HasEdge Vs ts p q) (h' : HasEdge Vs ts r s)
    (hx : Between p q x) (hx' : Between r s x) : (p = r ∧ q = s) ∨ (p = s ∧ q = r) := by
  obtain ⟨c, h | h⟩ := h <;> obtain ⟨c', h' | h'⟩ := h'
  · exact edge_same R hd h h' hx hx'
  · have := edge_same R hd h h' hx (between_symm hx'); tauto
  · have := edge_same R hd h h' (between_symm hx) hx'; tauto
  · have := edge_same R hd h h' (between_symm hx) (between_symm hx'); tauto

/-- a segment that is no edge goes through a point or across an edge -/
theorem edge_full (R : DelaunayResult Vs hull ts) (hd : PlanarDistinct Vs) {p q : R3.Vector K} (hp : p ∈ Vs) (hq : q ∈ Vs) (hne : p ≠ q) :
    HasEdge Vs ts p q ∨ (∃ v ∈ Vs, Between p q v) ∨ ∃ a b x, HasEdge Vs ts a b ∧ Between a b x ∧ Between p q x := by
  obtain ⟨b, c, ht, h1, h2⟩ := star R hd hp hq
  have cw := tri_clockwise R.delaunay ht
  obtain ⟨-, mb, mc⟩ := tri_mem R.delaunay ht
  have eb : HasEdge Vs ts p b := ⟨c, Or.inl ht⟩
  have ec : HasEdge Vs ts p c := ⟨b, Or.inr (has_rot (has_rot ht))⟩
  obtain ⟨cX, cY⟩ := cone_coords (q := q) cw.ne
  have nz : ¬ (q.X - p.X = 0 ∧ q.Y - p.Y = 0) := fun ⟨x, y⟩ => hne (hd p hp q hq (by linarith) (by linarith))
  rcases h1.lt_or_eq with h1 | h1
  · rcases h2.lt_or_eq with h2 | h2
    · by_cases hin : InTri p b c q
      · rcases in_tri_corner R hd ht hq hin with rfl | rfl | rfl
        · exact absurd rfl hne
        · exact Or.inl eb
        · exact Or.inl ec
      · obtain ⟨x, x1, x2⟩ := cone_cross cw h1 h2 hin
        exact Or.inr (Or.inr ⟨b, c, x, ⟨p, Or.inl (has_rot ht)⟩, x1, x2⟩)
    · rw [h2, zero_div, zero_mul, zero_add] at cX cY
      rcases ray_same hd hq mc (div_pos_of_neg_of_neg h1 cw) cX cY with h | h | h
      · exact Or.inl (by rw [h]; exact ec)
      · exact absurd h (edge_no_point R hd ec hq)
      · exact Or.inr (Or.inl ⟨c, mc, h⟩)
  · rw [h1, zero_div, zero_mul, add_zero] at cX cY
    rcases h2.lt_or_eq with h2 | h2
    · rcases ray_same hd hq mb (div_pos_of_neg_of_neg h2 cw) cX cY with h | h | h
      · exact Or.inl (by rw [h]; exact eb)
      · exact absurd h (edge_no_point R hd eb hq)
      · exact Or.inr (Or.inl ⟨b, mb, h⟩)
    · rw [h2, zero_div, zero_mul] at cX cY
      exact absurd ⟨cX, cY⟩ nz

/-- if a point lies on the other side of an edge, there is a triangle on that side -/
theorem other_side (R : DelaunayResult Vs hull ts) (hd : PlanarDistinct Vs) {a b c q : R3.Vector K} (h : HasTriangle Vs ts a b c) (hq : q ∈ Vs)
    (hs : orient b a q < 0) : ∃ r, HasTriangle Vs ts b a r := by
  obtain ⟨ma, mb, mc⟩ := tri_mem R.delaunay h
  have ne := (tri_ne (tri_clockwise R.delaunay h)).1
  obtain ⟨x, y, ht, h1, h2, hx, hy, hin, cw, h3⟩ := covering_fan (result_covering R hd) mb ma hq hs
  have h3 : orient y b a < 0 := by rw [orient_rot a y b, orient_rot b a y]; exact h2
  rcases h1.lt_or_eq with h1 | h1
  · exfalso
    have hno : ¬ InTri b x y a := by
      intro hc
      have := hin hc
      subst this
      unfold orient at h1; linarith
    obtain ⟨z, z1, z2⟩ := cone_cross cw h1 h3 hno
    have n := tri_ne cw
    rcases edge_same R hd h (has_rot ht) (between_symm z2) z1 with ⟨rfl, rfl⟩ | ⟨rfl, rfl⟩
    · exact n.2.2 rfl
    · exact n.1 rfl
  · obtain ⟨cX, cY⟩ := cone_coords (q := a) cw.ne
    rw [h1, zero_div, zero_mul, add_zero] at cX cY
    rcases ray_same hd ma hx (div_pos_of_neg_of_neg h3 cw) cX cY with e | e | e
    · exact ⟨y, by rw [e]; exact ht⟩
    · exact absurd e (edge_inner R hd ht ma)
    · exact absurd (between_symm e) (edge_inner R hd h hx)

/-- a piece of the boundary is an edge of the polygon -/
theorem boundary_edge {P : List (R3.Vector K)} (B : BoundaryPolygon Vs P) (hn : NotCollinear Vs) (hd : PlanarDistinct Vs) {a b : R3.Vector K} (E : BoundaryEdge Vs a b) :
    (a, b) ∈ edges P := by
  have nz : ¬ (b.Y - a.Y = 0 ∧ -(b.X - a.X) = 0) := fun ⟨y, x⟩ => E.ne (hd a E.fst b E.snd (by linarith) (by linarith))
  have ma : a ∈ P := by
    refine extreme_corner B hn hd nz E.fst fun q hq => ?_
    have h1 : 0 ≤ orient a b q := E.left q hq
    have e : orient a b q = toward (b.Y - a.Y) (-(b.X - a.X)) a - toward (b.Y - a.Y) (-(b.X - a.X)) q := by unfold orient toward; ring
    linarith
  obtain ⟨n, he⟩ := edge_after ma
  have E' := B.edge _ he
  have l1 : 0 ≤ orient a b n := E.left n E'.snd
  have l2 : 0 ≤ orient a n b := E'.left b E.snd
  have e0 : orient a n b = -orient a b n := by unfold orient; ring
  have z : orient a b n = 0 := by linarith
  have hne : b.X - a.X ≠ 0 ∨ b.Y - a.Y ≠ 0 := by
    by_contra hc
    push Not at hc
    exact nz ⟨hc.2, by linarith [hc.1]⟩
  have ex : ∃ l, n.X - a.X = l * (b.X - a.X) ∧ n.Y - a.Y = l * (b.Y - a.Y) := by
    unfold orient at z
    rcases hne with hx | hy
    · refine ⟨(n.X - a.X) / (b.X - a.X), by field_simp, ?_⟩
      field_simp
      linarith
    · refine ⟨(n.Y - a.Y) / (b.Y - a.Y), ?_, by field_simp⟩
      field_simp
      linarith
  obtain ⟨l, lX, lY⟩ := ex
  have l0 : 0 < l := by
    by_contra hc
    have hl : l < 0 := by
      rcases (not_lt.mp hc).lt_or_eq with h | h
      · exact h
      · rw [h, zero_mul] at lX lY
        exact absurd (hd a E.fst n E'.snd (by linarith) (by linarith)) E'.ne
    have line : ∀ q ∈ Vs, orient a b q = 0 := by
      intro q hq
      have a1 : 0 ≤ orient a b q := E.left q hq
      have a2 : 0 ≤ orient a n q := E'.left q hq
      have e : orient a n q = l * orient a b q := by unfold orient; rw [lX, lY]; ring
      rw [e] at a2
      by_contra hc
      have := mul_neg_of_neg_of_pos hl (lt_of_le_of_ne a1 (Ne.symm hc))
      linarith
    obtain ⟨p, hp, q, hq, r, hr, hpqr⟩ := hn
    apply hpqr
    have e1 := line p hp
    have e2 := line q hq
    have e3 := line r hr
    unfold orient at e1 e2 e3
    exact cross_zero hne (by linarith) (by linarith)
  rcases ray_same hd E'.snd E.snd l0 lX lY with h | h | h
  · simp only at h
    rw [← h]; exact he
  · exact absurd h (E.tight n E'.snd)
  · exact absurd h (E'.tight b E.snd)

/-- on each side of an edge there is a triangle or the outside -/
theorem side_or_hull (R : DelaunayResult Vs hull ts) (B : BoundaryPolygon Vs hull) (hn : NotCollinear Vs) (hd : PlanarDistinct Vs) {a b c : R3.Vector K}
    (h : HasTriangle Vs ts a b c) : (∃ r, HasTriangle Vs ts b a r) ∨ (b, a) ∈ edges hull := by
  obtain ⟨ma, mb, mc⟩ := tri_mem R.delaunay h
  by_cases hq : ∃ q ∈ Vs, orient b a q < 0
  · obtain ⟨q, hq, hs⟩ := hq
    exact Or.inl (other_side R hd h hq hs)
  · push Not at hq
    exact Or.inr (boundary_edge B hn hd ⟨mb, ma, (tri_ne (tri_clockwise R.delaunay h)).1.symm, hq, fun q hq => fun hb => edge_inner R hd h hq (between_symm hb)⟩)

/-- inside of an edge of the hull there is a triangle, outside there is none -/
theorem hull_side (R : DelaunayResult Vs hull ts) (B : BoundaryPolygon Vs hull) (hd : PlanarDistinct Vs) {a b : R3.Vector K} (h : (b, a) ∈ edges hull) :
    (∃ r, HasTriangle Vs ts a b r) ∧ ∀ r, ¬ HasTriangle Vs ts b a r := by
  have E := B.edge _ h
  refine ⟨?_, fun r hr => ?_⟩
  · obtain ⟨p, c, ht, h1, h2⟩ := star R hd E.fst E.snd
    simp only at ht h1 h2
    have cw := tri_clockwise R.delaunay ht
    obtain ⟨-, mp, mc⟩ := tri_mem R.delaunay ht
    obtain ⟨cX, cY⟩ := cone_coords (q := a) cw.ne
    have lp : 0 ≤ orient b a p := E.left p mp
    have lc : 0 ≤ orient b a c := E.left c mc
    have key : orient c b a * orient b a p + orient b p a * orient b a c = 0 := by unfold orient; ring
    have eb : HasEdge Vs ts b p := ⟨c, Or.inl ht⟩
    have ec : HasEdge Vs ts b c := ⟨p, Or.inr (has_rot (has_rot ht))⟩
    have e1 : orient b p a = -orient b a p := by unfold orient; ring
    have e2 : orient c b a = orient b a c := by unfold orient; ring
    rw [e2] at h2
    have zc : orient b a c = 0 := le_antisymm h2 lc
    rw [e2, zc, zero_div, zero_mul, zero_add] at cX cY
    rcases h1.lt_or_eq with h1 | h1
    · rcases ray_same hd E.snd mc (div_pos_of_neg_of_neg h1 cw) cX cY with e | e | e
      · simp only at e
        rw [e]; exact ⟨p, has_rot (has_rot ht)⟩
      · exact absurd e (edge_no_point R hd ec E.snd)
      · exact absurd e (E.tight c mc)
    · rw [h1, zero_div, zero_mul] at cX cY
      exact absurd (hd a E.snd b E.fst (by linarith) (by linarith)) (fun e => E.ne e.symm)
  · have := tri_clockwise R.delaunay hr
    have : 0 ≤ orient b a r := E.left r (tri_mem R.delaunay hr).2.2
    linarith

/-- the triangle on one side of an edge is unique -/
theorem side_unique (R : DelaunayResult Vs hull ts) {j k : ℕ} {a b c c' : R3.Vector K} (h : TriNo Vs ts j a b c) (h' : TriNo Vs ts k a b c') : j = k ∧ c = c' := by
  have cw := tri_clockwise R.delaunay h.has
  have s : (b.X - a.X) ^ 2 + (b.Y - a.Y) ^ 2 ≠ 0 := by
    intro hc
    have z1 : (b.X - a.X) ^ 2 = 0 := by nlinarith [sq_nonneg (b.X - a.X), sq_nonneg (b.Y - a.Y)]
    have z2 : (b.Y - a.Y) ^ 2 = 0 := by nlinarith [sq_nonneg (b.X - a.X), sq_nonneg (b.Y - a.Y)]
    have z1 := pow_eq_zero_iff two_ne_zero |>.mp z1
    have z2 := pow_eq_zero_iff two_ne_zero |>.mp z2
    unfold orient at cw
    rw [z1, z2] at cw
    simp at cw
  have sp : 0 < (b.X - a.X) ^ 2 + (b.Y - a.Y) ^ 2 := lt_of_le_of_ne (by positivity) (Ne.symm s)
  have w : turnOf a b ⟨b.Y - a.Y, -(b.X - a.X), 0⟩ < 0 := by unfold turnOf; nlinarith
  have m : Between a b ⟨a.X + 1/2 * (b.X - a.X), a.Y + 1/2 * (b.Y - a.Y), 0⟩ := ⟨1/2, by norm_num, by norm_num, rfl, rfl⟩
  obtain ⟨rfl, -, -⟩ := tri_overlap R h h' m m w w
  refine ⟨rfl, ?_⟩
  have n := tri_ne cw
  rcases triNo_det h h' with ⟨-, -, h⟩ | ⟨h, -, -⟩ | ⟨h1, h2, h3⟩
  · exact h
  · exact absurd h n.1
  · exact absurd h2.symm n.1


/-! ## Counting -/

open Classical in
/-- the ordered pairs of points joined by an edge -/
noncomputable def edgePairs (Vs : List (R3.Vector K)) (ts : List ℤ) : Finset (R3.Vector K × R3.Vector K) :=
  (Vs.toFinset ×ˢ Vs.toFinset).filter fun e => HasEdge Vs ts e.1 e.2

open Classical in
/-- the neighbours of a point -/
noncomputable def neighbours (Vs : List (R3.Vector K)) (ts : List ℤ) (p : R3.Vector K) : Finset (R3.Vector K) := Vs.toFinset.filter fun q => HasEdge Vs ts p q

open Classical in
noncomputable def sidesOf (Vs : List (R3.Vector K)) (ts : List ℤ) (k : ℕ) : Finset (R3.Vector K × R3.Vector K) :=
  (Vs.toFinset ×ˢ Vs.toFinset).filter fun e => ∃ r, TriNo Vs ts k e.1 e.2 r

omit [IsStrictOrderedRing K] in
theorem sides_card (R : DelaunayResult Vs hull ts) {k : ℕ} (hk : 3 * k < ts.length) : (sidesOf Vs ts k).card = 3 := by
  classical
  obtain ⟨a, b, c, h⟩ := R.delaunay.corners k hk
  have h : TriNo Vs ts k a b c := Or.inl h
  obtain ⟨ma, mb, mc⟩ := tri_mem R.delaunay h.has
  obtain ⟨n1, n2, n3⟩ := tri_ne (tri_clockwise R.delaunay h.has)
  have e : sidesOf Vs ts k = {(a, b), (b, c), (c, a)} := by
    ext ⟨p, q⟩
    simp only [sidesOf, Finset.mem_filter, Finset.mem_product, List.mem_toFinset, Finset.mem_insert, Finset.mem_singleton, Prod.mk.injEq]
    constructor
    · rintro ⟨-, r, hr⟩
      have := triNo_det h hr
      rcases this with ⟨rfl, rfl, -⟩ | ⟨rfl, -, rfl⟩ | ⟨-, rfl, rfl⟩
      · exact Or.inl ⟨rfl, rfl⟩
      · exact Or.inr (Or.inr ⟨rfl, rfl⟩)
      · exact Or.inr (Or.inl ⟨rfl, rfl⟩)
    · rintro (⟨rfl, rfl⟩ | ⟨rfl, rfl⟩ | ⟨rfl, rfl⟩)
      · exact ⟨⟨ma, mb⟩, c, h⟩
      · exact ⟨⟨mb, mc⟩, _, h.rot⟩
      · exact ⟨⟨mc, ma⟩, _, h.rot.rot⟩
  rw [e, Finset.card_insert_of_notMem, Finset.card_insert_of_notMem, Finset.card_singleton]
  · simp only [Finset.mem_singleton, Prod.mk.injEq]
    exact fun h => n2 h.1
  · simp only [Finset.mem_insert, Finset.mem_singleton, Prod.mk.injEq]
    rintro (h | h)
    · exact n1 h.1
    · exact n3 h.1.symm

theorem pairs_card (R : DelaunayResult Vs hull ts) (B : BoundaryPolygon Vs hull) (hn : NotCollinear Vs) (hd : PlanarDistinct Vs) {T : ℕ} (hT : ts.length = 3 * T) :
    (edgePairs Vs ts).card = ts.length + hull.length := by
  classical
  have hU : ((Finset.range T).biUnion (sidesOf Vs ts)).card = ts.length := by
    rw [Finset.card_biUnion, Finset.sum_congr rfl (fun k hk => sides_card R (by have := Finset.mem_range.mp hk; omega)), Finset.sum_const, Finset.card_range, smul_eq_mul]
    · omega
    · intro i _ j _ hij
      rw [Function.onFun, Finset.disjoint_left]
      rintro ⟨p, q⟩ h1 h2
      simp only [sidesOf, Finset.mem_filter] at h1 h2
      obtain ⟨-, r, h1⟩ := h1
      obtain ⟨-, r', h2⟩ := h2
      exact hij (side_unique R h1 h2).1
  have hH : (edges hull).toFinset.card = hull.length := by
    rw [List.toFinset_card_of_nodup]
    · rw [← List.length_map (f := Prod.fst), edges_fst]
    · apply List.Nodup.of_map Prod.fst
      rw [edges_fst]; exact B.nodup
  have hk : ∀ k p q r, TriNo Vs ts k p q r → k < T := by
    intro k p q r h
    have : ∀ a b c, Corners Vs ts k a b c → k < T := by
      rintro a b c ⟨_, _, _, h1, -⟩
      have := (List.getElem?_eq_some_iff.mp h1).1
      omega
    rcases h with h | h | h <;> exact this _ _ _ h
  have hS : edgePairs Vs ts = (Finset.range T).biUnion (sidesOf Vs ts) ∪ (edges hull).toFinset := by
    ext ⟨p, q⟩
    simp only [edgePairs, sidesOf, Finset.mem_filter, Finset.mem_product, List.mem_toFinset, Finset.mem_union, Finset.mem_biUnion, Finset.mem_range]
    constructor
    · rintro ⟨⟨hp, hq⟩, r, h | h⟩
      · obtain ⟨k, h⟩ := h
        exact Or.inl ⟨k, hk k _ _ _ h, ⟨hp, hq⟩, r, h⟩
      · rcases side_or_hull R B hn hd h with ⟨r, k, h⟩ | h
        · exact Or.inl ⟨k, hk k _ _ _ h, ⟨hp, hq⟩, r, h⟩
        · exact Or.inr h
    · rintro (⟨k, -, hm, r, h⟩ | h)
      · exact ⟨hm, r, Or.inl h.has⟩
      · obtain ⟨⟨r, hr⟩, -⟩ := hull_side R B hd h
        exact ⟨⟨(B.edge _ h).fst, (B.edge _ h).snd⟩, r, Or.inr hr⟩
  rw [hS, Finset.card_union_of_disjoint, hU, hH]
  rw [Finset.disjoint_left]
  rintro ⟨p, q⟩ h1 h2
  simp only [sidesOf, Finset.mem_filter, Finset.mem_biUnion, List.mem_toFinset] at h1 h2
  obtain ⟨k, -, -, r, h⟩ := h1
  exact (hull_side R B hd h2).2 r h.has

omit [Field K] [IsStrictOrderedRing K] in
theorem pairs_sum (Vs : List (R3.Vector K)) (ts : List ℤ) : (edgePairs Vs ts).card = ∑ p ∈ Vs.toFinset, (neighbours Vs ts p).card := by
  classical
  unfold edgePairs neighbours
  rw [← Finset.card_sigma]
  refine Finset.card_bij' (fun e _ => ⟨e.1, e.2⟩) (fun e _ => (e.1, e.2)) ?_ ?_ (fun _ _ => rfl) (fun _ _ => rfl)
  · rintro ⟨p, q⟩ h
    simpa [and_assoc] using h
  · rintro ⟨p, q⟩ h
    simpa [and_assoc] using h

/-- the edges as a graph drawn in the plane -/
structure PlaneGraph (Vs hull : List (R3.Vector K)) (ts : List ℤ) : Prop where
  /-- no point lies inside an edge -/
  inner : ∀ p q, HasEdge Vs ts p q → ∀ v ∈ Vs, ¬ Between p q v
  /-- two edges with a common inner point are the same -/
  cross : ∀ p q r s x, HasEdge Vs ts p q → HasEdge Vs ts r s → Between p q x → Between r s x → (p = r ∧ q = s) ∨ (p = s ∧ q = r)
  /-- a segment between two points that is no edge goes through a point or across an edge -/
  full : ∀ p ∈ Vs, ∀ q ∈ Vs, p ≠ q → HasEdge Vs ts p q ∨ (∃ v ∈ Vs, Between p q v) ∨ ∃ a b x, HasEdge Vs ts a b ∧ Between a b x ∧ Between p q x
  /-- to the right of an edge there is one triangle, or the edge belongs to the hull and there is none -/
  sides : ∀ p q, HasEdge Vs ts p q → ((∃! r, HasTriangle Vs ts p q r) ∧ ¬ HullEdge hull p q) ∨ ((¬ ∃ r, HasTriangle Vs ts p q r) ∧ HullEdge hull p q)
  /-- the edges of the hull are edges -/
  onHull : ∀ p q, HullEdge hull p q → HasEdge Vs ts p q
  /-- twice the number of edges -/
  count : (edgePairs Vs ts).card = ts.length + hull.length

theorem plane_graph (R : DelaunayResult Vs hull ts) (B : BoundaryPolygon Vs hull) (hn : NotCollinear Vs) (hd : PlanarDistinct Vs) {T : ℕ} (hT : ts.length = 3 * T) :
    PlaneGraph Vs hull ts where
  inner p q h v hv := edge_no_point R hd h hv
  cross p q r s x h h' hx hx' := edge_no_cross R hd h h' hx hx'
  full p hp q hq hne := edge_full R hd hp hq hne
  sides p q h := by
    rw [← mem_edges]
    by_cases ht : ∃ r, HasTriangle Vs ts p q r
    · refine Or.inl ⟨?_, fun he => ?_⟩
      · obtain ⟨r, k, hr⟩ := ht
        exact ⟨r, ⟨k, hr⟩, fun r' ⟨k', hr'⟩ => (side_unique R hr' hr).2⟩
      · obtain ⟨r, hr⟩ := ht
        exact (hull_side R B hd he).2 r hr
    · refine Or.inr ⟨ht, ?_⟩
      obtain ⟨r, h | h⟩ := h
      · exact absurd ⟨r, h⟩ ht
      · exact (side_or_hull R B hn hd h).resolve_left ht
  onHull p q h := by
    obtain ⟨⟨r, hr⟩, -⟩ := hull_side R B hd (mem_edges.mpr h)
    exact ⟨r, Or.inr hr⟩
  count := pairs_card R B hn hd hT

omit [IsStrictOrderedRing K] in
/-- the number of edges in terms of the number of points, and a point with few neighbours -/
theorem few_neighbours (G : PlaneGraph Vs hull ts) (hnd : Vs.Nodup) (hc : ts.length = 3 * (2 * Vs.length - 2 - hull.length)) (h2 : 2 ≤ Vs.length) (hl : hull.length ≤ Vs.length) :
    (edgePairs Vs ts).card = 2 * (3 * Vs.length - 3 - hull.length) ∧ ∃ p ∈ Vs, (neighbours Vs ts p).card ≤ 5 := by
  have e := G.count
  refine ⟨by omega, ?_⟩
  by_contra hno
  push Not at hno
  have : Vs.toFinset.card * 6 ≤ ∑ p ∈ Vs.toFinset, (neighbours Vs ts p).card := by
    rw [← smul_eq_mul]
    exact Finset.card_nsmul_le_sum _ _ _ fun p hp => hno p (List.mem_toFinset.mp hp)
  rw [← pairs_sum, List.toFinset_card_of_nodup hnd] at this
  omega

omit [IsStrictOrderedRing K] in
theorem hull_length (B : BoundaryPolygon Vs hull) : hull.length ≤ Vs.length := (List.subperm_of_subset B.nodup fun _ h => polygon_mem B h).length_le

end

/-- C113: in exact arithmetic -/
theorem C113_plane [FloorRing K] (srt : R3.Vector K → List ℤ → List ℤ) (hsrt : ∀ c l, (srt c l).Perm l) (hashSize : ℕ → ℕ) (fuel : ℕ) (Vs : List (R3.Vector K))
    (hp : Planar Vs) (hn : 2 ≤ Vs.length) (hash : 0 < hashSize Vs.length) (hf : 6 * Vs.length < fuel) {hull : List (R3.Vector K)} {ts hs : List ℤ}
    (h : Triangulate srt hashSize fuel Vs = .ok (.triangulation hull ts hs)) (hs' : Sorts srt Vs) (hsep : Separated Vs) (hnd : Vs.Nodup) :
    PlaneGraph Vs hull ts ∧ (edgePairs Vs ts).card = 2 * (3 * Vs.length - 3 - hull.length) ∧ ∃ p ∈ Vs, (neighbours Vs ts p).card ≤ 5 := by
  obtain ⟨B, hN⟩ := C72_boundary srt hsrt hashSize fuel Vs hp hn hash hf h hs' hsep
  have hc : ts.length = 3 * (2 * Vs.length - 2 - hull.length) := by
    refine (C69_all srt hsrt hashSize fuel Vs hp hn hash hf h hs' ?_).2.1
    intro i j a b hij ha hb
    rcases hsep a (List.mem_of_getElem? ha) b (List.mem_of_getElem? hb) with rfl | ⟨_, hnn⟩
    · obtain ⟨h1, e1⟩ := List.getElem?_eq_some_iff.mp ha
      obtain ⟨h2, e2⟩ := List.getElem?_eq_some_iff.mp hb
      exact absurd ((List.Nodup.getElem_inj_iff hnd).mp (e1.trans e2.symm)) hij
    · by_contra hlt
      apply hnn
      rw [← near_iff]; simpa [eps] using hlt
  have G := plane_graph (exact_result srt hsrt hashSize fuel Vs hp hn hash hf h hs' hsep) B hN (separated_distinct hsep) hc
  exact ⟨G, few_neighbours G hnd hc hn (hull_length B)⟩

/-- C113: in float64, for coordinates that are integers of size at most 512 times a power of two -/
theorem C113_float {e : ℤ} (he : -26 ≤ e ∧ e ≤ 80) (srt : R3.Vector F64 → List ℤ → List ℤ) (hsrt : ∀ c l, (srt c l).Perm l) (hashSize : ℕ → ℕ) (fuel : ℕ)
    (Vs : List (R3.Vector F64)) (hg : MidDyadic e Vs) (hn : 2 ≤ Vs.length) (hash : 0 < hashSize Vs.length ∧ hashSize Vs.length < 2 ^ 53) (hf : 6 * Vs.length < fuel)
    {hull : List (R3.Vector F64)} {ts hs : List ℤ} (h : Triangulate srt hashSize fuel Vs = .ok (.triangulation hull ts hs)) (hs' : SortsCall srt Vs)
    (hnd : (Vs.map exactV).Nodup) : PlaneGraph (Vs.map exactV) (hull.map exactV) ts ∧
      (edgePairs (Vs.map exactV) ts).card = 2 * (3 * Vs.length - 3 - hull.length) ∧ ∃ p ∈ Vs, (neighbours (Vs.map exactV) ts (exactV p)).card ≤ 5 := by
  obtain ⟨B, -⟩ := C104_dyadic_hull he srt hsrt hashSize fuel Vs hg hn hash.1 hash.2 hf h hs'
  have hc := (C104_dyadic_all he srt hsrt hashSize fuel Vs hg hn hash.1 hash.2 hf h hs' hnd).2.1
  have G := plane_graph (dyadic_result he srt hsrt hashSize fuel Vs hg hn hash hf h hs') B (dyadic_not_collinear he srt hashSize fuel Vs hg hn h)
    (separated_distinct (dyadic_separated he hg)) hc
  obtain ⟨h1, p, h2, h3⟩ := few_neighbours G hnd (by rw [List.length_map, List.length_map]; exact hc) (by rw [List.length_map]; exact hn) (hull_length B)
  obtain ⟨v, hv, rfl⟩ := List.mem_map.mp h2
  rw [List.length_map, List.length_map] at h1
  exact ⟨G, h1, v, hv, h3⟩

theorem spread_not_collinear {Vs : List (R3.Vector ℚ)} {M κ : ℚ} (hW : Spread Vs M κ) : NotCollinear Vs := by
  have h3 := hW.three
  have hnd := hW.distinct
  have hs := hW.shape
  have M0 : 0 < M := lt_of_lt_of_le (by norm_num) hW.low
  match Vs, h3, hnd, hs with
  | a :: b :: c :: l, _, hnd, hs =>
    simp only [List.nodup_cons, List.mem_cons, not_or] at hnd
    refine ⟨a, by simp, b, by simp, c, by simp, fun h0 => ?_⟩
    have := hs a (by simp) b (by simp) c (by simp) hnd.1.1 hnd.2.1.1 (Ne.symm hnd.1.2.1)
    unfold orient at this
    rw [h0, abs_zero, mul_zero] at this
    have : 0 < M ^ 2 := by positivity
    linarith

/-- C113: in float64 for well spread points, with the hash table of the code -/
theorem C113_spread (srt : R3.Vector F64 → List ℤ → List ℤ) (hsrt : ∀ c l, (srt c l).Perm l) (fuel : ℕ) (Vs : List (R3.Vector F64)) (hs' : SortsCall srt Vs)
    {M κ : ℚ} (hfin : FinitePlanar Vs) (hW : Spread (Vs.map exactV) M κ) (hn' : Vs.length < 2 ^ 63) (hf : 6 * Vs.length < fuel) :
    ∃ hull ts hs, Triangulate64 srt fuel Vs = .ok (.triangulation hull ts hs) ∧ PlaneGraph (Vs.map exactV) (hull.map exactV) ts ∧
      (edgePairs (Vs.map exactV) ts).card = 2 * (3 * Vs.length - 3 - hull.length) ∧ ∃ p ∈ Vs, (neighbours (Vs.map exactV) ts (exactV p)).card ≤ 5 := by
  have hn : 2 ≤ Vs.length := by have := hW.three; rw [List.length_map] at this; omega
  obtain ⟨a, b⟩ := hash_ok hn hn'
  obtain ⟨hull, ts, hs, e⟩ := C87_outcome srt hsrt hashSize64 fuel Vs hfin hW a b hf
  obtain ⟨-, hc, -, B⟩ := C87_all srt hsrt hashSize64 fuel Vs hfin hW a b hf e hs'
  have hN := spread_not_collinear hW
  have G := plane_graph (spread_result srt hsrt hashSize64 fuel Vs hfin hW a b hf e hs') B hN (separated_distinct (hW.separated hfin)) hc
  obtain ⟨h1, p, h2, h3⟩ := few_neighbours G hW.distinct (by rw [List.length_map, List.length_map]; exact hc) (by rw [List.length_map]; exact hn) (hull_length B)
  obtain ⟨v, hv, rfl⟩ := List.mem_map.mp h2
  rw [List.length_map, List.length_map] at h1
  exact ⟨hull, ts, hs, e, G, h1, v, hv, h3⟩

/-! ## Concrete cases -/

example (srt : R3.Vector F64 → List ℤ → List ℤ) (hsrt : ∀ c l, (srt c l).Perm l) (hs' : SortsCall srt seedSample) :
    ∃ hull ts hs, Triangulate64 srt 37 seedSample = .ok (.triangulation hull ts hs) ∧ PlaneGraph (seedSample.map exactV) (hull.map exactV) ts := by
  obtain ⟨hull, ts, hs, e, G, -⟩ := C113_spread srt hsrt 37 seedSample hs' sample_finite sample_spread (by decide) (by decide)
  exact ⟨hull, ts, hs, e, G⟩

/-- the four corners of a square and a point near one of them: eight edges -/
example : ∃ hull ts hs, Triangulate (keySort fivePts) (fun _ => 3) 31 fivePts = .ok (.triangulation hull ts hs) ∧ PlaneGraph fivePts hull ts ∧
    (edgePairs fivePts ts).card = 2 * 8 := by
  have h1 : ∃ x, Triangulate (keySort fivePts) (fun _ => 3) 31 fivePts = x ∧
      (match x with | .ok (.triangulation hull _ _) => hull.length == 4 | _ => false) = true := ⟨_, rfl, by decide +kernel⟩
  obtain ⟨x, hx, h1⟩ := h1
  match x, h1 with
  | .ok (.triangulation hull ts hs), h1 =>
    obtain ⟨G, c, -⟩ := C113_plane (keySort fivePts) (keySort_perm _) (fun _ => 3) 31 fivePts ⟨0, by decide⟩ (by decide) (by decide) (by decide) hx (keySort_sorts _)
      (by unfold Separated Near; decide +kernel) (by decide +kernel)
    refine ⟨hull, ts, hs, hx, G, ?_⟩
    rw [c, eq_of_beq h1]
    rfl

end Verif.Props
