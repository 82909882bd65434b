import Verif.Props.Edges
import Mathlib.Analysis.SpecialFunctions.Trigonometric.Arctan
/-!
# C110: no other triangulation of the points has larger angles (triangulate2/triangulator.go)

For every corner of every triangle that `Triangulate` returns, every other triangulation of the same points has a corner with an angle that is not larger. So
the smallest angle of the result is as large as it can be. The largest of the smallest circles around the triangles is as small as it can be. And at every position the triangle of the result has the smallest mean square distance to its
corners, weighted as in linear interpolation, among all triangles of input points that contain the position.
-/
namespace Verif.Props
open Verif Verif.Tri2 Verif.Proofs Verif.Spec

variable {K : Type} [Field K] [LinearOrder K] [IsStrictOrderedRing K]

/-- `x` is in the convex hull of the points: on the left of every line that has no point on its right -/
def InHull (Vs : List (R3.Vector K)) (x : R3.Vector K) : Prop := ∀ u v : R3.Vector K, (∀ p ∈ Vs, 0 ≤ orient u v p) → 0 ≤ orient u v x

/-- a triangulation of the points: clockwise triangles that cover the convex hull and contain no other points than their corners -/
structure Covering (Vs : List (R3.Vector K)) (ts : List ℤ) : Prop where
  clockwise : ∀ k a b c, Corners Vs ts k a b c → orient a b c < 0
  corner : ∀ k a b c, Corners Vs ts k a b c → ∀ v ∈ Vs, InTri a b c v → v = a ∨ v = b ∨ v = c
  fills : ∀ x, InHull Vs x → ∃ k a b c, Corners Vs ts k a b c ∧ InTri a b c x

/-- `(a - c) . (b - c)` -/
def dotAt (a b c : R3.Vector K) : K := (a.X - c.X) * (b.X - c.X) + (a.Y - c.Y) * (b.Y - c.Y)

/-- the cotangent of the angle at `c` in the clockwise triangle `a b c` -/
def cotAt (a b c : R3.Vector K) : K := dotAt a b c / -orient a b c

/-- every triangulation of the points has an angle at most as large as the angle at `c` -/
def SharperIn (Vs : List (R3.Vector K)) (a b c : R3.Vector K) : Prop :=
  ∀ us, Covering Vs us → ∃ p q r, HasTriangle Vs us p q r ∧ cotAt a b c ≤ cotAt p q r

/-- a result of `Triangulate` is a triangulation in this sense -/
theorem result_covering {Vs hull : List (R3.Vector K)} {ts : List ℤ} (R : DelaunayResult Vs hull ts) (hd : PlanarDistinct Vs) : Covering Vs ts where
  clockwise := R.delaunay.clockwise
  corner _ _ _ _ h v hv hin := vertex_corner hd R.delaunay h (R.cover v hv) hin
  fills x hx := R.fills x fun u v huv => hx u v fun p hp => R.convex p (R.cover p hp) u v huv

/-! ## The triangle at a point in a given direction -/

omit [IsStrictOrderedRing K] in
theorem inHull_mem {Vs : List (R3.Vector K)} {p : R3.Vector K} (h : p ∈ Vs) : InHull Vs p := fun _ _ H => H p h

theorem inHull_way {Vs : List (R3.Vector K)} {p q : R3.Vector K} (hp : InHull Vs p) (hq : InHull Vs q) {t : K} (t0 : 0 ≤ t) (t1 : t ≤ 1) : InHull Vs (onWay p q t) := by
  intro u v H
  rw [orient_onWay]
  have := mul_nonneg (sub_nonneg.mpr t1) (hp u v H)
  have := mul_nonneg t0 (hq u v H)
  linarith

theorem covering_star {Vs : List (R3.Vector K)} {us : List ℤ} (C : Covering Vs us) {p q : R3.Vector K} (hp : p ∈ Vs) (hq : InHull Vs q) :
    ∃ k a b c, Corners Vs us k a b c ∧ ((p = a ∧ orient a b q ≤ 0 ∧ orient c a q ≤ 0) ∨ (p = b ∧ orient b c q ≤ 0 ∧ orient a b q ≤ 0) ∨
      (p = c ∧ orient c a q ≤ 0 ∧ orient b c q ≤ 0)) := by
  obtain ⟨d, d0, d1, hs⟩ := small_step (us.length) (fun k a b c => Corners Vs us k a b c) (fun k a b c a' b' c' h h' => corners_det h h') p q
  obtain ⟨k, a, b, c, hk, hin⟩ := C.fills _ (inHull_way (inHull_mem hp) hq (t := d / 2) (by linarith) (by linarith))
  have hkl : k < us.length := by
    obtain ⟨_, _, _, h1, _⟩ := hk
    have := (List.getElem?_eq_some_iff.mp h1).1
    omega
  have hpin := hs (d / 2) (by linarith) (by linarith) k hkl a b c hk hin
  have cone : ∀ u v : R3.Vector K, orient u v p = 0 → orient u v (onWay p q (d / 2)) ≤ 0 → orient u v q ≤ 0 := by
    intro u v h0 h
    rw [orient_onWay, h0, mul_zero, zero_add] at h
    exact nonpos_of_mul_nonpos_right h (by linarith)
  have o1 : ∀ u v : R3.Vector K, orient u v u = 0 := by intro u v; unfold orient; ring
  have o2 : ∀ u v : R3.Vector K, orient v u u = 0 := by intro u v; unfold orient; ring
  obtain ⟨t1, t2, t3⟩ := hin
  refine ⟨k, a, b, c, hk, ?_⟩
  rcases C.corner k a b c hk p hp hpin with rfl | rfl | rfl
  · exact Or.inl ⟨rfl, cone _ _ (o1 _ _) t1, cone _ _ (o2 _ _) t3⟩
  · exact Or.inr (Or.inl ⟨rfl, cone _ _ (o1 _ _) t2, cone _ _ (o2 _ _) t1⟩)
  · exact Or.inr (Or.inr ⟨rfl, cone _ _ (o1 _ _) t3, cone _ _ (o2 _ _) t2⟩)

/-- for small `t` a half-plane whose line has the position `t` on its right has the start there too; for finitely many half-planes -/
theorem small_side (L : List (R3.Vector K × R3.Vector K)) (p q : R3.Vector K) :
    ∃ d : K, 0 < d ∧ d ≤ 1 ∧ ∀ t, 0 < t → t < d → ∀ l ∈ L, orient l.1 l.2 (onWay p q t) ≤ 0 → orient l.1 l.2 p ≤ 0 := by
  induction L with
  | nil => exact ⟨1, one_pos, le_rfl, fun _ _ _ l hl => by simp at hl⟩
  | cons l L ih =>
    obtain ⟨d, d0, d1, hd⟩ := ih
    by_cases hp : orient l.1 l.2 p ≤ 0
    · refine ⟨d, d0, d1, fun t t0 ht m hm h => ?_⟩
      rcases List.mem_cons.mp hm with rfl | hm
      · exact hp
      · exact hd t t0 ht m hm h
    · have hp := not_le.mp hp
      have hs : 0 < orient l.1 l.2 p + |orient l.1 l.2 q| := add_pos_of_pos_of_nonneg hp (abs_nonneg _)
      refine ⟨min d (orient l.1 l.2 p / (orient l.1 l.2 p + |orient l.1 l.2 q|)), lt_min d0 (div_pos hp hs), (min_le_left _ _).trans d1, fun t t0 ht m hm h => ?_⟩
      obtain ⟨td, te⟩ := lt_min_iff.mp ht
      rcases List.mem_cons.mp hm with rfl | hm
      · exfalso
        rw [orient_onWay] at h
        rw [lt_div_iff₀ hs] at te
        have := mul_le_mul_of_nonneg_left (neg_abs_le (orient m.1 m.2 q)) t0.le
        linarith
      · exact hd t t0 td m hm h

/-- a triangle at `a` that has the direction of `b` in its cone and reaches to the side of `c` -/
theorem covering_fan {Vs : List (R3.Vector K)} {us : List ℤ} (C : Covering Vs us) {a b c : R3.Vector K} (ha : a ∈ Vs) (hb : b ∈ Vs) (hc : c ∈ Vs)
    (cw : orient a b c < 0) : ∃ x y, HasTriangle Vs us a x y ∧ orient a x b ≤ 0 ∧ orient a b y < 0 ∧ x ∈ Vs ∧ y ∈ Vs ∧ (InTri a x y b → b = x) ∧ orient a x y < 0 ∧
      orient y a b ≤ 0 := by
  obtain ⟨d, d0, d1, hd⟩ := small_side (Vs ×ˢ Vs) b c
  obtain ⟨k, u, v, w, hk, h⟩ := covering_star C ha (inHull_way (inHull_mem hb) (inHull_mem hc) (t := d / 2) (by linarith) (by linarith))
  obtain ⟨mu, mv, mw⟩ := corners_vertex hk
  have mu := vertex_mem mu
  have mv := vertex_mem mv
  have mw := vertex_mem mw
  have key : ∀ x y : R3.Vector K, x ∈ Vs → y ∈ Vs → orient a x y < 0 → HasTriangle Vs us a x y → (InTri a x y b → b = a ∨ b = x ∨ b = y) →
      orient a x (onWay b c (d / 2)) ≤ 0 → orient y a (onWay b c (d / 2)) ≤ 0 →
      ∃ x y, HasTriangle Vs us a x y ∧ orient a x b ≤ 0 ∧ orient a b y < 0 ∧ x ∈ Vs ∧ y ∈ Vs ∧ (InTri a x y b → b = x) ∧ orient a x y < 0 ∧ orient y a b ≤ 0 := by
    intro x y hx hy cxy ht hcor h1 h2
    have b1 := hd (d / 2) (by linarith) (by linarith) (a, x) (List.mem_product.mpr ⟨ha, hx⟩) h1
    have b2 := hd (d / 2) (by linarith) (by linarith) (y, a) (List.mem_product.mpr ⟨hy, ha⟩) h2
    simp only at b1 b2
    have hq : orient a b (onWay b c (d / 2)) < 0 := by
      rw [orient_onWay]
      have : orient a b b = 0 := by unfold orient; ring
      rw [this, mul_zero, zero_add]
      exact mul_neg_of_pos_of_neg (by linarith) cw
    have hy' : orient a b y < 0 := by
      by_contra hn
      have hn := not_lt.mp hn
      generalize onWay b c (d / 2) = q at *
      have id : orient a x y * orient a b q = orient a b x * orient y a q + orient a b y * orient a x q := by unfold orient; ring
      have e : orient a b x = -orient a x b := by unfold orient; ring
      rw [e] at id
      have p1 := mul_pos_of_neg_of_neg cxy hq
      have p2 : -orient a x b * orient y a q ≤ 0 := mul_nonpos_of_nonneg_of_nonpos (by linarith) h2
      have p3 : orient a b y * orient a x q ≤ 0 := mul_nonpos_of_nonneg_of_nonpos hn h1
      linarith
    refine ⟨x, y, ht, b1, hy', hx, hy, fun hin => ?_, cxy, b2⟩
    rcases hcor hin with rfl | h | rfl
    · exfalso; unfold orient at cw; linarith
    · exact h
    · exfalso; unfold orient at hy'; linarith
  have r : ∀ a b c : R3.Vector K, orient b c a = orient a b c := by intro a b c; unfold orient; ring
  have cor := C.corner k u v w hk b hb
  have cuvw := C.clockwise k u v w hk
  rcases h with ⟨rfl, h1, h2⟩ | ⟨rfl, h1, h2⟩ | ⟨rfl, h1, h2⟩
  · exact key v w mv mw cuvw ⟨k, Or.inl hk⟩ cor h1 h2
  · exact key w u mw mu (by rw [r]; exact cuvw) ⟨k, Or.inr (Or.inr hk)⟩ (fun ⟨i1, i2, i3⟩ => by have := cor ⟨i3, i1, i2⟩; tauto) h1 h2
  · exact key u v mu mv (by rw [r, r]; exact cuvw) ⟨k, Or.inr (Or.inl hk)⟩ (fun ⟨i1, i2, i3⟩ => by have := cor ⟨i2, i3, i1⟩; tauto) h1 h2

/-! ## Angles -/

/-- a point outside the circle sees a chord under a smaller angle -/
theorem chord_angle {o a b c y : R3.Vector K} (e1 : sqd o a = sqd o b) (e2 : sqd o a = sqd o c) (cw : orient a b c < 0) (cy : orient a b y < 0)
    (hy : sqd o a ≤ sqd o y) : cotAt a b c ≤ cotAt a b y := by
  unfold cotAt
  rw [div_le_div_iff₀ (by linarith) (by linarith)]
  have id : (dotAt a b y - (sqd o y - sqd o a)) * orient a b c = orient b c y * (dotAt a b a - (sqd o a - sqd o a)) +
      orient c a y * (dotAt a b b - (sqd o b - sqd o a)) + orient a b y * (dotAt a b c - (sqd o c - sqd o a)) := by unfold orient dotAt sqd; ring
  have d1 : dotAt a b a = 0 := by unfold dotAt; ring
  have d2 : dotAt a b b = 0 := by unfold dotAt; ring
  rw [← e1, ← e2, d1, d2, sub_self, sub_zero, sub_zero, mul_zero, mul_zero, zero_add, zero_add] at id
  have := mul_nonneg (sub_nonneg.mpr hy) (neg_nonneg.mpr cw.le)
  linarith

/-- a smaller part of an angle -/
theorem part_angle {a b x y : R3.Vector K} (cy : orient a b y < 0) (cxy : orient a x y < 0) (hx : orient y x b ≤ 0) : cotAt a b y ≤ cotAt a x y := by
  unfold cotAt
  rw [div_le_div_iff₀ (by linarith) (by linarith)]
  have id : dotAt a x y * -orient a b y = -orient y x b * sqd a y + -orient a x y * dotAt a b y := by unfold orient dotAt sqd; ring
  have := mul_nonneg (neg_nonneg.mpr hx) (sqd_nonneg a y)
  linarith

/-- every angle of the result is matched by an angle that is not larger in every triangulation -/
theorem result_sharper {Vs hull : List (R3.Vector K)} {ts : List ℤ} (R : DelaunayResult Vs hull ts) {a b c : R3.Vector K} (h : HasTriangle Vs ts a b c) :
    SharperIn Vs a b c := by
  intro us C
  obtain ⟨cw, ⟨vb, vc⟩, o, e1, e2, em⟩ := has_delaunay R.delaunay h
  obtain ⟨_, ⟨_, va⟩, _⟩ := has_delaunay R.delaunay (has_rot h)
  obtain ⟨x, y, ht, h1, h2, mx, my, hin, cxy, h3⟩ := covering_fan C (vertex_mem va) (vertex_mem vb) (vertex_mem vc) cw
  refine ⟨a, x, y, ht, (chord_angle e1 e2 cw h2 (em y (R.cover y my))).trans (part_angle h2 cxy ?_)⟩
  by_contra hn
  have hn := not_le.mp hn
  have e : orient x y b = -orient y x b := by unfold orient; ring
  have := hin ⟨h1, by rw [e]; linarith, h3⟩
  subst this
  unfold orient at hn
  linarith

/-! ## Interpolation -/

/-- the mean of the squared distances from `x` to the corners, with the weights of linear interpolation in the triangle `a b c` -/
def spreadAt (a b c x : R3.Vector K) : K := (orient b c x * sqd x a + orient c a x * sqd x b + orient a b x * sqd x c) / orient a b c

/-- among all triangles of input points that contain `x` the triangle of the result has the least spread at `x` -/
theorem result_spread {Vs hull : List (R3.Vector K)} {ts : List ℤ} (R : DelaunayResult Vs hull ts) {a b c x : R3.Vector K} (h : HasTriangle Vs ts a b c)
    {u v w : R3.Vector K} (hu : u ∈ Vs) (hv : v ∈ Vs) (hw : w ∈ Vs) (cw : orient u v w < 0) (hx : InTri u v w x) : spreadAt a b c x ≤ spreadAt u v w x := by
  obtain ⟨cw', _, o, e1, e2, em⟩ := has_delaunay R.delaunay h
  have id : ∀ a b c : R3.Vector K, orient b c x * sqd x a + orient c a x * sqd x b + orient a b x * sqd x c =
      orient b c x * sqd o a + orient c a x * sqd o b + orient a b x * sqd o c - orient a b c * sqd o x := by intro a b c; unfold orient sqd; ring
  have sum : ∀ a b c : R3.Vector K, orient b c x + orient c a x + orient a b x = orient a b c := by intro a b c; unfold orient; ring
  have l : spreadAt a b c x = sqd o a - sqd o x := by
    unfold spreadAt
    rw [div_eq_iff cw'.ne, id, ← e1, ← e2, ← sum a b c]; ring
  rw [l]
  unfold spreadAt
  rw [le_div_iff_of_neg cw, id, ← sum u v w]
  obtain ⟨t1, t2, t3⟩ := hx
  have m1 := mul_le_mul_of_nonpos_left (em u (R.cover u hu)) t2
  have m2 := mul_le_mul_of_nonpos_left (em v (R.cover v hv)) t3
  have m3 := mul_le_mul_of_nonpos_left (em w (R.cover w hw)) t1
  linarith

/-! ## Smallest enclosing circles -/

/-- the three corners are in some disc with squared radius `ρ` -/
def InDisc (a b c : R3.Vector K) (ρ : K) : Prop := ∃ z, sqd z a ≤ ρ ∧ sqd z b ≤ ρ ∧ sqd z c ≤ ρ

omit [LinearOrder K] [IsStrictOrderedRing K] in
/-- where the centre of the circumcircle is -/
theorem centre_side {o a b c : R3.Vector K} (e1 : sqd o a = sqd o b) (e2 : sqd o a = sqd o c) : 2 * orient a b c * orient b c o = sqd b c * dotAt b c a := by
  unfold sqd at e1 e2
  unfold orient dotAt sqd
  linear_combination ((c.X - b.X) * (a.X - c.X) + (c.Y - b.Y) * (a.Y - c.Y)) * e1 - ((c.X - b.X) * (a.X - b.X) + (c.Y - b.Y) * (a.Y - b.Y)) * e2

/-- the spread is at most the square of the radius of a disc around the triangle -/
theorem spread_disc {a b c x : R3.Vector K} (cw : orient a b c < 0) (hx : InTri a b c x) {ρ : K} (h : InDisc a b c ρ) : spreadAt a b c x ≤ ρ := by
  obtain ⟨z, h1, h2, h3⟩ := h
  unfold spreadAt
  rw [div_le_iff_of_neg cw]
  have id : orient b c x * sqd x a + orient c a x * sqd x b + orient a b x * sqd x c =
      orient b c x * sqd z a + orient c a x * sqd z b + orient a b x * sqd z c - orient a b c * sqd z x := by unfold orient sqd; ring
  have sum : orient b c x + orient c a x + orient a b x = orient a b c := by unfold orient; ring
  obtain ⟨t1, t2, t3⟩ := hx
  have m1 := mul_le_mul_of_nonpos_left h1 t2
  have m2 := mul_le_mul_of_nonpos_left h2 t3
  have m3 := mul_le_mul_of_nonpos_left h3 t1
  have m4 := mul_nonneg (neg_nonneg.mpr cw.le) (sqd_nonneg z x)
  rw [id]
  have : ρ * orient a b c = orient b c x * ρ + orient c a x * ρ + orient a b x * ρ := by rw [← sum]; ring
  linarith

/-- if the angle at `c` is not acute, half the opposite side is the radius of a disc around the triangle, and of no smaller one -/
theorem spread_middle {a b c : R3.Vector K} (cw : orient a b c < 0) (hc : dotAt a b c ≤ 0) :
    ∃ x, InTri a b c x ∧ InDisc a b c (spreadAt a b c x) := by
  have ex : ∃ x : R3.Vector K, x = ⟨(a.X + b.X) / 2, (a.Y + b.Y) / 2, 0⟩ := ⟨_, rfl⟩
  obtain ⟨x, hx⟩ := ex
  have o1 : orient b c x = orient a b c / 2 := by rw [hx]; unfold orient; ring
  have o2 : orient c a x = orient a b c / 2 := by rw [hx]; unfold orient; ring
  have o3 : orient a b x = 0 := by rw [hx]; unfold orient; ring
  have d : sqd x a = sqd x b := by rw [hx]; unfold sqd; ring
  have e : spreadAt a b c x = sqd x b := by
    unfold spreadAt
    rw [div_eq_iff cw.ne, o1, o2, o3, d]; ring
  have id : sqd x c - sqd x b = dotAt a b c := by rw [hx]; unfold sqd dotAt; ring
  exact ⟨x, ⟨o3.le, by rw [o1]; linarith, by rw [o2]; linarith⟩, x, by rw [e, d], by rw [e], by rw [e]; linarith⟩

/-- every triangle with a circumcircle contains a point where the spread is the square of the radius of a disc around it -/
theorem spread_top {o a b c : R3.Vector K} (cw : orient a b c < 0) (e1 : sqd o a = sqd o b) (e2 : sqd o a = sqd o c) :
    ∃ x, InTri a b c x ∧ InDisc a b c (spreadAt a b c x) := by
  have r : ∀ a b c : R3.Vector K, orient b c a = orient a b c := by intro a b c; unfold orient; ring
  have rs : ∀ a b c x : R3.Vector K, spreadAt b c a x = spreadAt a b c x := by intro a b c x; unfold spreadAt; rw [r a b c]; congr 1; ring
  by_cases hc : dotAt a b c ≤ 0
  · exact spread_middle cw hc
  by_cases ha : dotAt b c a ≤ 0
  · obtain ⟨x, ⟨i1, i2, i3⟩, z, z1, z2, z3⟩ := spread_middle (by rw [r]; exact cw) ha
    rw [rs] at z1 z2 z3
    exact ⟨x, ⟨i3, i1, i2⟩, z, z3, z1, z2⟩
  by_cases hb : dotAt c a b ≤ 0
  · obtain ⟨x, ⟨i1, i2, i3⟩, z, z1, z2, z3⟩ := spread_middle (by rw [r, r]; exact cw) hb
    rw [rs, rs] at z1 z2 z3
    exact ⟨x, ⟨i2, i3, i1⟩, z, z2, z3, z1⟩
  have neg : ∀ u v w : R3.Vector K, orient u v w < 0 → sqd o u = sqd o v → sqd o u = sqd o w → ¬ dotAt v w u ≤ 0 → orient v w o ≤ 0 := by
    intro u v w h q1 q2 hd
    have id := centre_side q1 q2
    have pos : 0 ≤ sqd v w * dotAt v w u := mul_nonneg (sqd_nonneg _ _) (not_le.mp hd).le
    by_contra hn
    have := mul_neg_of_neg_of_pos (show 2 * orient u v w < 0 by linarith) (not_le.mp hn)
    linarith
  refine ⟨o, ⟨neg c a b (by rw [r, r]; exact cw) (by rw [← e2]) (by rw [← e2, e1]) hc, neg a b c cw e1 e2 ha,
    neg b c a (by rw [r]; exact cw) (by rw [← e1, e2]) e1.symm hb⟩, o, ?_⟩
  have e : spreadAt a b c o = sqd o a := by
    unfold spreadAt
    rw [div_eq_iff cw.ne, ← e1, ← e2]
    have sum : orient b c o + orient c a o + orient a b o = orient a b c := by unfold orient; ring
    rw [← sum]; ring
  rw [e]
  exact ⟨le_rfl, e1.symm.le, e2.symm.le⟩

omit [Field K] [LinearOrder K] [IsStrictOrderedRing K] in
theorem has_mem {Vs : List (R3.Vector K)} {us : List ℤ} {k : ℕ} {a b c : R3.Vector K} (h : Corners Vs us k a b c) : a ∈ Vs ∧ b ∈ Vs ∧ c ∈ Vs :=
  have ⟨h1, h2, h3⟩ := corners_vertex h
  ⟨vertex_mem h1, vertex_mem h2, vertex_mem h3⟩

theorem inHull_tri {Vs : List (R3.Vector K)} {a b c x : R3.Vector K} (ha : a ∈ Vs) (hb : b ∈ Vs) (hc : c ∈ Vs) (cw : orient a b c < 0) (hx : InTri a b c x) :
    InHull Vs x := by
  intro u v H
  have id : orient a b c * orient u v x = orient b c x * orient u v a + orient c a x * orient u v b + orient a b x * orient u v c := by unfold orient; ring
  obtain ⟨t1, t2, t3⟩ := hx
  have m1 := mul_nonpos_of_nonpos_of_nonneg t2 (H a ha)
  have m2 := mul_nonpos_of_nonpos_of_nonneg t3 (H b hb)
  have m3 := mul_nonpos_of_nonpos_of_nonneg t1 (H c hc)
  by_contra hn
  have := mul_pos_of_neg_of_neg cw (not_le.mp hn)
  linarith

/-- if some triangulation has all triangles in discs of one size, so has the result -/
theorem result_disc {Vs hull : List (R3.Vector K)} {ts : List ℤ} (R : DelaunayResult Vs hull ts) {us : List ℤ} (C : Covering Vs us) {ρ : K}
    (hρ : ∀ p q r, HasTriangle Vs us p q r → InDisc p q r ρ) {a b c : R3.Vector K} (h : HasTriangle Vs ts a b c) : InDisc a b c ρ := by
  obtain ⟨cw, ⟨vb, vc⟩, o, e1, e2, _⟩ := has_delaunay R.delaunay h
  obtain ⟨_, ⟨_, va⟩, _⟩ := has_delaunay R.delaunay (has_rot h)
  obtain ⟨x, hx, z, z1, z2, z3⟩ := spread_top cw e1 e2
  obtain ⟨k, p, q, r, hk, hin⟩ := C.fills x (inHull_tri (vertex_mem va) (vertex_mem vb) (vertex_mem vc) cw hx)
  obtain ⟨mp, mq, mr⟩ := has_mem hk
  have l := (result_spread R h mp mq mr (C.clockwise _ _ _ _ hk) hin).trans (spread_disc (C.clockwise _ _ _ _ hk) hin (hρ p q r ⟨k, Or.inl hk⟩))
  exact ⟨z, z1.trans l, z2.trans l, z3.trans l⟩

/-- the properties of this file, for a list of points and a list of triangles -/
structure BestTriangles (Vs : List (R3.Vector K)) (ts : List ℤ) : Prop where
  /-- the triangles are a triangulation of the points -/
  covering : Covering Vs ts
  /-- for every angle, every other triangulation has an angle that is not larger -/
  sharper : ∀ a b c, HasTriangle Vs ts a b c → SharperIn Vs a b c
  /-- every triangle of input points that contains `x` has a spread at `x` that is not smaller -/
  spread : ∀ a b c x, HasTriangle Vs ts a b c → ∀ u ∈ Vs, ∀ v ∈ Vs, ∀ w ∈ Vs, orient u v w < 0 → InTri u v w x → spreadAt a b c x ≤ spreadAt u v w x
  /-- if the triangles of some triangulation each fit in a disc with squared radius `ρ`, these do -/
  disc : ∀ us, Covering Vs us → ∀ ρ, (∀ p q r, HasTriangle Vs us p q r → InDisc p q r ρ) → ∀ a b c, HasTriangle Vs ts a b c → InDisc a b c ρ

theorem best_triangles {Vs hull : List (R3.Vector K)} {ts : List ℤ} (R : DelaunayResult Vs hull ts) (hd : PlanarDistinct Vs) : BestTriangles Vs ts where
  covering := result_covering R hd
  sharper _ _ _ h := result_sharper R h
  spread _ _ _ _ h _ hu _ hv _ hw cw hx := result_spread R h hu hv hw cw hx
  disc _ C _ hρ _ _ _ h := result_disc R C hρ h

/-! ## Real angles -/

/-- the angle at `c` in the triangle `a b c`, in radians -/
noncomputable def angleAt (a b c : R3.Vector ℝ) : ℝ := Real.arccos (dotAt a b c / (√(sqd c a) * √(sqd c b)))

theorem angle_cot {a b c : R3.Vector ℝ} (cw : orient a b c < 0) : angleAt a b c = Real.pi / 2 - Real.arctan (cotAt a b c) := by
  have hn : 0 < -orient a b c := by linarith
  have e : sqd c a * sqd c b = (orient a b c) ^ 2 * (1 + cotAt a b c ^ 2) := by
    have : (orient a b c) ^ 2 * (1 + cotAt a b c ^ 2) = orient a b c ^ 2 + dotAt a b c ^ 2 := by
      unfold cotAt; have := cw.ne; field_simp
    rw [this]; unfold sqd orient dotAt; ring
  have h : dotAt a b c / (√(sqd c a) * √(sqd c b)) = Real.sin (Real.arctan (cotAt a b c)) := by
    rw [← Real.sqrt_mul (sqd_nonneg c a), e, Real.sqrt_mul (sq_nonneg _), Real.sin_arctan, Real.sqrt_sq_eq_abs, abs_of_neg cw]
    unfold cotAt
    rw [div_div]
  rw [angleAt, h, Real.arccos, Real.arcsin_sin (Real.neg_pi_div_two_lt_arctan _).le (Real.arctan_lt_pi_div_two _).le]

/-- a larger cotangent is a smaller angle -/
theorem angle_le {a b c p q r : R3.Vector ℝ} (h1 : orient a b c < 0) (h2 : orient p q r < 0) : angleAt p q r ≤ angleAt a b c ↔ cotAt a b c ≤ cotAt p q r := by
  rw [angle_cot h1, angle_cot h2, sub_le_sub_iff_left, Real.arctan_le_arctan_iff]

/-- the real point -/
def real3 (v : R3.Vector ℚ) : R3.Vector ℝ := ⟨v.X, v.Y, v.Z⟩

theorem orient_real (a b c : R3.Vector ℚ) : orient (real3 a) (real3 b) (real3 c) = ((orient a b c : ℚ) : ℝ) := by unfold orient real3; push_cast; ring

theorem cot_real (a b c : R3.Vector ℚ) : cotAt (real3 a) (real3 b) (real3 c) = ((cotAt a b c : ℚ) : ℝ) := by
  unfold cotAt
  rw [orient_real]
  push_cast
  congr 1
  unfold dotAt real3; push_cast; ring

omit [IsStrictOrderedRing K] in
theorem has_clockwise {Vs : List (R3.Vector K)} {us : List ℤ} (C : Covering Vs us) {p q r : R3.Vector K} (h : HasTriangle Vs us p q r) : orient p q r < 0 := by
  have e : ∀ a b c : R3.Vector K, orient b c a = orient a b c := by intro a b c; unfold orient; ring
  obtain ⟨k, h | h | h⟩ := h
  · exact C.clockwise k _ _ _ h
  · rw [← e]; exact C.clockwise k _ _ _ h
  · rw [← e, ← e]; exact C.clockwise k _ _ _ h

/-! ## Calls -/

/-- C110: `Triangulate` in exact arithmetic, for points at least `sqrt eps` apart -/
theorem C110_best [FloorRing K] (srt : R3.Vector K → List ℤ → List ℤ) (hsrt : ∀ c l, (srt c l).Perm l) (hashSize : ℕ → ℕ) (fuel : ℕ) (Vs : List (R3.Vector K))
    (hp : Planar Vs) (hn : 2 ≤ Vs.length) (hash : 0 < hashSize Vs.length) (hf : 6 * Vs.length < fuel) {hull : List (R3.Vector K)} {ts hs : List ℤ}
    (h : Triangulate srt hashSize fuel Vs = .ok (.triangulation hull ts hs)) (hs' : Sorts srt Vs) (hsep : Separated Vs) : BestTriangles Vs ts :=
  best_triangles (exact_result srt hsrt hashSize fuel Vs hp hn hash hf h hs' hsep) (separated_distinct hsep)

/-- C110: the smallest angle is as large as it can be: if some triangulation of the points has no angle below `θ`, the result has none -/
theorem C110_angle (srt : R3.Vector ℝ → List ℤ → List ℤ) (hsrt : ∀ c l, (srt c l).Perm l) (hashSize : ℕ → ℕ) (fuel : ℕ) (Vs : List (R3.Vector ℝ))
    (hp : Planar Vs) (hn : 2 ≤ Vs.length) (hash : 0 < hashSize Vs.length) (hf : 6 * Vs.length < fuel) {hull : List (R3.Vector ℝ)} {ts hs : List ℤ}
    (h : Triangulate srt hashSize fuel Vs = .ok (.triangulation hull ts hs)) (hs' : Sorts srt Vs) (hsep : Separated Vs) (us : List ℤ) (C : Covering Vs us) (θ : ℝ)
    (hθ : ∀ p q r, HasTriangle Vs us p q r → θ ≤ angleAt p q r) : ∀ a b c, HasTriangle Vs ts a b c → θ ≤ angleAt a b c := by
  intro a b c habc
  have B := C110_best srt hsrt hashSize fuel Vs hp hn hash hf h hs' hsep
  obtain ⟨p, q, r, hpqr, le⟩ := B.sharper a b c habc us C
  exact (hθ p q r hpqr).trans ((angle_le (has_clockwise B.covering habc) (has_clockwise C hpqr)).mpr le)

/-- the same for rational positions -/
theorem best_angle {Vs : List (R3.Vector ℚ)} {ts : List ℤ} (B : BestTriangles Vs ts) {us : List ℤ} (C : Covering Vs us) {θ : ℝ}
    (hθ : ∀ p q r, HasTriangle Vs us p q r → θ ≤ angleAt (real3 p) (real3 q) (real3 r)) :
    ∀ a b c, HasTriangle Vs ts a b c → θ ≤ angleAt (real3 a) (real3 b) (real3 c) := by
  intro a b c habc
  obtain ⟨p, q, r, hpqr, le⟩ := B.sharper a b c habc us C
  refine (hθ p q r hpqr).trans ((angle_le ?_ ?_).mpr ?_)
  · rw [orient_real]; exact_mod_cast has_clockwise B.covering habc
  · rw [orient_real]; exact_mod_cast has_clockwise C hpqr
  · rw [cot_real, cot_real]; exact_mod_cast le

/-- C110: in float64, for coordinates that are integers of size at most 512 times a power of two -/
theorem C110_float {e : ℤ} (he : -26 ≤ e ∧ e ≤ 80) (srt : R3.Vector F64 → List ℤ → List ℤ) (hsrt : ∀ c l, (srt c l).Perm l) (hashSize : ℕ → ℕ) (fuel : ℕ)
    (Vs : List (R3.Vector F64)) (hg : MidDyadic e Vs) (hn : 2 ≤ Vs.length) (hash : 0 < hashSize Vs.length ∧ hashSize Vs.length < 2 ^ 53) (hf : 6 * Vs.length < fuel)
    {hull : List (R3.Vector F64)} {ts hs : List ℤ} (h : Triangulate srt hashSize fuel Vs = .ok (.triangulation hull ts hs)) (hs' : SortsCall srt Vs) :
    BestTriangles (Vs.map exactV) ts ∧ ∀ us, Covering (Vs.map exactV) us → ∀ θ : ℝ,
      (∀ p q r, HasTriangle (Vs.map exactV) us p q r → θ ≤ angleAt (real3 p) (real3 q) (real3 r)) →
      ∀ a b c, HasTriangle (Vs.map exactV) ts a b c → θ ≤ angleAt (real3 a) (real3 b) (real3 c) := by
  have B := best_triangles (dyadic_result he srt hsrt hashSize fuel Vs hg hn hash hf h hs') (separated_distinct (dyadic_separated he hg))
  exact ⟨B, fun us C θ hθ => best_angle B C hθ⟩

/-- C110: in float64 for well spread points, with the hash table of the code -/
theorem C110_spread (srt : R3.Vector F64 → List ℤ → List ℤ) (hsrt : ∀ c l, (srt c l).Perm l) (fuel : ℕ) (Vs : List (R3.Vector F64)) (hs' : SortsCall srt Vs)
    {M κ : ℚ} (hfin : FinitePlanar Vs) (hW : Spread (Vs.map exactV) M κ) (hn' : Vs.length < 2 ^ 63) (hf : 6 * Vs.length < fuel) :
    ∃ hull ts hs, Triangulate64 srt fuel Vs = .ok (.triangulation hull ts hs) ∧ BestTriangles (Vs.map exactV) ts ∧ ∀ us, Covering (Vs.map exactV) us → ∀ θ : ℝ,
      (∀ p q r, HasTriangle (Vs.map exactV) us p q r → θ ≤ angleAt (real3 p) (real3 q) (real3 r)) →
      ∀ a b c, HasTriangle (Vs.map exactV) ts a b c → θ ≤ angleAt (real3 a) (real3 b) (real3 c) := by
  have hn : 2 ≤ Vs.length := by have := hW.three; rw [List.length_map] at this; omega
  obtain ⟨a, b⟩ := hash_ok hn hn'
  obtain ⟨hull, ts, hs, e⟩ := C87_outcome srt hsrt hashSize64 fuel Vs hfin hW a b hf
  have B := best_triangles (spread_result srt hsrt hashSize64 fuel Vs hfin hW a b hf e hs') (separated_distinct (hW.separated hfin))
  exact ⟨hull, ts, hs, e, B, fun us C θ hθ => best_angle B C hθ⟩

/-! ## Concrete cases -/

/-- a flat kite -/
def kite : List (R3.Vector ℚ) := [⟨0,0,0⟩, ⟨2,-1,0⟩, ⟨4,0,0⟩, ⟨2,1,0⟩]

/-- its triangulation with the long diagonal -/
def kiteLong : List ℤ := [0, 3, 2, 0, 2, 1]

theorem kite_corners {k : ℕ} {a b c : R3.Vector ℚ} (h : Corners kite kiteLong k a b c) :
    (a = ⟨0,0,0⟩ ∧ b = ⟨2,1,0⟩ ∧ c = ⟨4,0,0⟩) ∨ (a = ⟨0,0,0⟩ ∧ b = ⟨4,0,0⟩ ∧ c = ⟨2,-1,0⟩) := by
  have e0 : Corners kite kiteLong 0 ⟨0,0,0⟩ ⟨2,1,0⟩ ⟨4,0,0⟩ := ⟨0, 3, 2, rfl, rfl, rfl, rfl, rfl, rfl⟩
  have e1 : Corners kite kiteLong 1 ⟨0,0,0⟩ ⟨4,0,0⟩ ⟨2,-1,0⟩ := ⟨0, 2, 1, rfl, rfl, rfl, rfl, rfl, rfl⟩
  have hk : k < 2 := by
    obtain ⟨_, _, _, h1, _⟩ := h
    have := (List.getElem?_eq_some_iff.mp h1).1
    simp only [kiteLong, List.length_cons, List.length_nil] at this
    omega
  interval_cases k
  · exact Or.inl (corners_det h e0)
  · exact Or.inr (corners_det h e1)

theorem kite_covering : Covering kite kiteLong where
  clockwise k a b c h := by rcases kite_corners h with ⟨rfl, rfl, rfl⟩ | ⟨rfl, rfl, rfl⟩ <;> decide +kernel
  corner k a b c h := by rcases kite_corners h with ⟨rfl, rfl, rfl⟩ | ⟨rfl, rfl, rfl⟩ <;> (unfold InTri; decide +kernel)
  fills x hx := by
    have h1 := hx ⟨0,0,0⟩ ⟨2,-1,0⟩ (by decide +kernel)
    have h2 := hx ⟨2,-1,0⟩ ⟨4,0,0⟩ (by decide +kernel)
    have h3 := hx ⟨4,0,0⟩ ⟨2,1,0⟩ (by decide +kernel)
    have h4 := hx ⟨2,1,0⟩ ⟨0,0,0⟩ (by decide +kernel)
    unfold orient at h1 h2 h3 h4
    simp only at h1 h2 h3 h4
    rcases le_total 0 x.Y with hy | hy
    · refine ⟨0, ⟨0,0,0⟩, ⟨2,1,0⟩, ⟨4,0,0⟩, ⟨0, 3, 2, rfl, rfl, rfl, rfl, rfl, rfl⟩, ?_, ?_, ?_⟩ <;> unfold orient <;> simp only <;> linarith
    · refine ⟨1, ⟨0,0,0⟩, ⟨4,0,0⟩, ⟨2,-1,0⟩, ⟨0, 2, 1, rfl, rfl, rfl, rfl, rfl, rfl⟩, ?_, ?_, ?_⟩ <;> unfold orient <;> simp only <;> linarith

/-- every angle in the result for the kite is matched in the triangulation with the long diagonal -/
example : ∃ hull ts hs, Triangulate (keySort kite) (fun _ => 2) 25 kite = .ok (.triangulation hull ts hs) ∧
    ∀ a b c, HasTriangle kite ts a b c → ∃ p q r, HasTriangle kite kiteLong p q r ∧ cotAt a b c ≤ cotAt p q r := by
  have h1 : ∃ x, Triangulate (keySort kite) (fun _ => 2) 25 kite = x ∧
      (match x with | .ok (.triangulation _ _ _) => true | _ => false) = true := ⟨_, rfl, by decide +kernel⟩
  obtain ⟨x, hx, h1⟩ := h1
  match x, h1 with
  | .ok (.triangulation hull ts hs), _ =>
    have B := C110_best (keySort kite) (keySort_perm _) (fun _ => 2) 25 kite ⟨0, by decide⟩ (by decide) (by decide) (by decide) hx (keySort_sorts _)
      (by unfold Separated Near; decide +kernel)
    exact ⟨hull, ts, hs, hx, fun a b c h => B.sharper a b c h kiteLong kite_covering⟩

/-- the converse fails: the long diagonal makes a smaller angle than any in the result -/
example : cotAt (K := ℚ) ⟨2,1,0⟩ ⟨4,0,0⟩ ⟨0,0,0⟩ = 2 ∧ cotAt (K := ℚ) ⟨0,0,0⟩ ⟨2,1,0⟩ ⟨2,-1,0⟩ = 1 / 2 := by decide +kernel

end Verif.Props
