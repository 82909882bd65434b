import Verif.Props.DyadicCalls
import Verif.Props.Fused
/-!
# C109: nearest neighbours in the triangulation (triangulate2/triangulator.go)

Two points on a circle that has all other points strictly outside are joined by an edge of the triangulation. So the edges contain the nearest neighbour of
every point and the closest pair across every cut, that is, every shortest spanning tree. And walking along edges towards a position ends at the point nearest
to it: a point without a closer neighbour is a nearest point.
-/
namespace Verif.Props
open Verif Verif.Tri2 Verif.Proofs Verif.Spec

variable {K : Type} [Field K] [LinearOrder K] [IsStrictOrderedRing K]

/-- some triangle has the side `p q`, in one of the two directions -/
def HasEdge (Vs : List (R3.Vector K)) (ts : List ℤ) (p q : R3.Vector K) : Prop := ∃ r, HasTriangle Vs ts p q r ∨ HasTriangle Vs ts q p r

omit [Field K] [LinearOrder K] [IsStrictOrderedRing K] in
theorem HasEdge.symm {Vs : List (R3.Vector K)} {ts : List ℤ} {p q : R3.Vector K} (h : HasEdge Vs ts p q) : HasEdge Vs ts q p := by
  obtain ⟨r, h⟩ := h; exact ⟨r, h.symm⟩

/-- a point at the fraction `t` of the way from `p` to `q` -/
def onWay (p q : R3.Vector K) (t : K) : R3.Vector K := ⟨p.X + t * (q.X - p.X), p.Y + t * (q.Y - p.Y), 0⟩

omit [LinearOrder K] [IsStrictOrderedRing K] in
theorem orient_onWay (a b p q : R3.Vector K) (t : K) : orient a b (onWay p q t) = (1 - t) * orient a b p + t * orient a b q := by
  unfold orient onWay; ring

/-- for small `t` the point on the way is only in triangles that contain the start -/
theorem small_step (n : ℕ) (T : ℕ → R3.Vector K → R3.Vector K → R3.Vector K → Prop)
    (hdet : ∀ k a b c a' b' c', T k a b c → T k a' b' c' → a = a' ∧ b = b' ∧ c = c') (p q : R3.Vector K) :
    ∃ d : K, 0 < d ∧ d ≤ 1 ∧ ∀ t, 0 < t → t < d → ∀ k < n, ∀ a b c, T k a b c → InTri a b c (onWay p q t) → InTri a b c p := by
  induction n with
  | zero => exact ⟨1, one_pos, le_rfl, fun t _ _ k hk => by omega⟩
  | succ n ih =>
    obtain ⟨d, d0, d1, hd⟩ := ih
    by_cases hT : ∃ a b c, T n a b c
    · obtain ⟨a, b, c, hT⟩ := hT
      have line : ∀ a b : R3.Vector K, ∃ e : K, 0 < e ∧ ∀ t, 0 < t → t < e → t < 1 → orient a b (onWay p q t) ≤ 0 → orient a b p ≤ 0 := by
        intro a b
        by_cases hp : orient a b p ≤ 0
        · exact ⟨1, one_pos, fun _ _ _ _ _ => hp⟩
        · have hp := not_le.mp hp
          have hs : 0 < orient a b p + |orient a b q| := add_pos_of_pos_of_nonneg hp (abs_nonneg _)
          refine ⟨orient a b p / (orient a b p + |orient a b q|), div_pos hp hs, fun t t0 te t1 h => ?_⟩
          exfalso
          rw [orient_onWay] at h
          rw [lt_div_iff₀ hs] at te
          have := mul_le_mul_of_nonneg_left (neg_abs_le (orient a b q)) t0.le
          linarith
      obtain ⟨e1, p1, h1⟩ := line a b
      obtain ⟨e2, p2, h2⟩ := line b c
      obtain ⟨e3, p3, h3⟩ := line c a
      refine ⟨min d (min e1 (min e2 e3)), by simp only [lt_min_iff]; exact ⟨d0, p1, p2, p3⟩, (min_le_left _ _).trans d1, fun t t0 ht k hk a' b' c' hT' hin => ?_⟩
      simp only [lt_min_iff] at ht
      obtain ⟨q0, q1, q2, q3⟩ := ht
      rcases Nat.lt_succ_iff_lt_or_eq.mp hk with hk | rfl
      · exact hd t t0 q0 k hk a' b' c' hT' hin
      · obtain ⟨rfl, rfl, rfl⟩ := hdet _ _ _ _ _ _ _ hT hT'
        have t1 : t < 1 := q0.trans_le d1
        exact ⟨h1 t t0 q1 t1 hin.1, h2 t t0 q2 t1 hin.2.1, h3 t t0 q3 t1 hin.2.2⟩
    · refine ⟨d, d0, d1, fun t t0 ht k hk a b c hk' => ?_⟩
      rcases Nat.lt_succ_iff_lt_or_eq.mp hk with hk | rfl
      · exact hd t t0 ht k hk a b c hk'
      · exact absurd ⟨a, b, c, hk'⟩ hT

omit [Field K] [LinearOrder K] [IsStrictOrderedRing K] in
theorem corners_det {Vs : List (R3.Vector K)} {ts : List ℤ} {k : ℕ} {x y z x' y' z' : R3.Vector K} (h : Corners Vs ts k x y z) (h' : Corners Vs ts k x' y' z') :
    x = x' ∧ y = y' ∧ z = z' := by
  obtain ⟨i1, i2, i3, p1, p2, p3, q1, q2, q3⟩ := h
  obtain ⟨j1, j2, j3, r1, r2, r3, u1, u2, u3⟩ := h'
  rw [p1] at r1; rw [p2] at r2; rw [p3] at r3
  injection r1 with r1; injection r2 with r2; injection r3 with r3
  obtain rfl : i1 = j1 := by exact_mod_cast r1
  obtain rfl : i2 = j2 := by exact_mod_cast r2
  obtain rfl : i3 = j3 := by exact_mod_cast r3
  rw [q1] at u1; rw [q2] at u2; rw [q3] at u3
  injection u1 with u1; injection u2 with u2; injection u3 with u3
  exact ⟨u1, u2, u3⟩

theorem sqd_nonneg (a b : R3.Vector K) : 0 ≤ sqd a b := by unfold sqd; positivity

theorem sqd_pos {Vs : List (R3.Vector K)} (hd : PlanarDistinct Vs) {a b : R3.Vector K} (ha : a ∈ Vs) (hb : b ∈ Vs) (h : a ≠ b) : 0 < sqd a b := by
  rcases (sqd_nonneg a b).lt_or_eq with h' | h'
  · exact h'
  · exfalso
    unfold sqd at h'
    have e1 : (a.X - b.X) ^ 2 = 0 := by nlinarith [sq_nonneg (a.X - b.X), sq_nonneg (a.Y - b.Y)]
    have e2 : (a.Y - b.Y) ^ 2 = 0 := by nlinarith [sq_nonneg (a.X - b.X), sq_nonneg (a.Y - b.Y)]
    exact h (hd a ha b hb (by nlinarith [pow_eq_zero_iff (two_ne_zero) |>.mp e1]) (by nlinarith [pow_eq_zero_iff (two_ne_zero) |>.mp e2]))

/-- a vertex in a closed triangle is one of its corners -/
theorem vertex_corner {Vs : List (R3.Vector K)} {ts : List ℤ} (hd : PlanarDistinct Vs) (D : Delaunay Vs ts) {k : ℕ} {a b c p : R3.Vector K}
    (h : Corners Vs ts k a b c) (hp : IsVertex Vs ts p) (hin : InTri a b c p) : p = a ∨ p = b ∨ p = c := by
  obtain ⟨va, vb, vc⟩ := corners_vertex h
  obtain ⟨o, e1, e2, em⟩ := D.empty k a b c h
  have cw := D.clockwise k a b c h
  obtain ⟨t1, t2, t3⟩ := hin
  have dis : ∀ v, IsVertex Vs ts v → p ≠ v → 0 < sqd p v := fun v hv hne => sqd_pos hd (vertex_mem hp) (vertex_mem hv) hne
  have id : orient a b c * (sqd o p - sqd o a) = orient b c p * (sqd o a - sqd o a) + orient c a p * (sqd o b - sqd o a) + orient a b p * (sqd o c - sqd o a) -
      (orient b c p * sqd p a + orient c a p * sqd p b + orient a b p * sqd p c) := by unfold orient sqd; ring
  have sum : orient b c p + orient c a p + orient a b p = orient a b c := by unfold orient; ring
  rw [← e1, ← e2, sub_self, mul_zero, mul_zero, mul_zero, add_zero, add_zero, zero_sub] at id
  have ge := em p hp
  have l : orient a b c * (sqd o p - sqd o a) ≤ 0 := mul_nonpos_of_nonpos_of_nonneg cw.le (by linarith)
  by_contra hne
  push Not at hne
  have q1 := dis a va hne.1
  have q2 := dis b vb hne.2.1
  have q3 := dis c vc hne.2.2
  have m1 := mul_nonpos_of_nonpos_of_nonneg t2 q1.le
  have m2 := mul_nonpos_of_nonpos_of_nonneg t3 q2.le
  have m3 := mul_nonpos_of_nonpos_of_nonneg t1 q3.le
  have z : ∀ x y : K, x ≤ 0 → 0 < y → 0 ≤ x * y → x = 0 := by
    intro x y hx hy h
    rcases hx.lt_or_eq with h' | h'
    · have := mul_neg_of_neg_of_pos h' hy; linarith
    · exact h'
  have z1 := z _ _ t2 q1 (by linarith)
  have z2 := z _ _ t3 q2 (by linarith)
  have z3 := z _ _ t1 q3 (by linarith)
  rw [z1, z2, z3] at sum
  linarith

/-- around every vertex there is a triangle in the direction of any other point -/
theorem star {Vs hull : List (R3.Vector K)} {ts : List ℤ} (R : DelaunayResult Vs hull ts) (hd : PlanarDistinct Vs) {p q : R3.Vector K} (hp : p ∈ Vs) (hq : q ∈ Vs) :
    ∃ b c, HasTriangle Vs ts p b c ∧ orient p b q ≤ 0 ∧ orient c p q ≤ 0 := by
  obtain ⟨d, d0, d1, hs⟩ := small_step (ts.length) (fun k a b c => Corners Vs ts k a b c) (fun k a b c a' b' c' h h' => corners_det h h') p q
  have vp := R.cover p hp
  have inside : Spec.Inside hull (onWay p q (d / 2)) := by
    intro u v huv
    have i1 := R.convex p vp u v huv
    have i2 := R.convex q (R.cover q hq) u v huv
    rw [orient_onWay]
    have : 0 ≤ (1 - d / 2) * orient u v p := mul_nonneg (by linarith) i1
    have : 0 ≤ d / 2 * orient u v q := mul_nonneg (by linarith) i2
    linarith
  obtain ⟨k, a, b, c, hk, hin⟩ := R.fills _ inside
  have hkl : k < ts.length := by
    obtain ⟨_, _, _, h1, _⟩ := hk
    have := (List.getElem?_eq_some_iff.mp h1).1
    omega
  have hpin := hs (d / 2) (by linarith) (by linarith) k hkl a b c hk hin
  have cone : ∀ u v : R3.Vector K, orient u v p = 0 → orient u v (onWay p q (d / 2)) ≤ 0 → orient u v q ≤ 0 := by
    intro u v h0 h
    rw [orient_onWay, h0, mul_zero, zero_add] at h
    exact nonpos_of_mul_nonpos_right h (by linarith)
  have o1 : ∀ u v : R3.Vector K, orient u v u = 0 := by intro u v; unfold orient; ring
  have o2 : ∀ u v : R3.Vector K, orient v u u = 0 := by intro u v; unfold orient; ring
  obtain ⟨t1, t2, t3⟩ := hin
  rcases vertex_corner hd R.delaunay hk vp hpin with rfl | rfl | rfl
  · exact ⟨b, c, ⟨k, Or.inl hk⟩, cone _ _ (o1 _ _) t1, cone _ _ (o2 _ _) t3⟩
  · exact ⟨c, a, ⟨k, Or.inr (Or.inr hk)⟩, cone _ _ (o1 _ _) t2, cone _ _ (o2 _ _) t1⟩
  · exact ⟨a, b, ⟨k, Or.inr (Or.inl hk)⟩, cone _ _ (o1 _ _) t3, cone _ _ (o2 _ _) t2⟩

omit [IsStrictOrderedRing K] in
theorem has_delaunay {Vs : List (R3.Vector K)} {ts : List ℤ} (D : Delaunay Vs ts) {a b c : R3.Vector K} (h : HasTriangle Vs ts a b c) :
    orient a b c < 0 ∧ (IsVertex Vs ts b ∧ IsVertex Vs ts c) ∧ ∃ o, sqd o a = sqd o b ∧ sqd o a = sqd o c ∧ ∀ v, IsVertex Vs ts v → sqd o a ≤ sqd o v := by
  have r : ∀ a b c : R3.Vector K, orient b c a = orient a b c := by intro a b c; unfold orient; ring
  obtain ⟨k, h | h | h⟩ := h
  · exact ⟨D.clockwise k _ _ _ h, (corners_vertex h).2, D.empty k _ _ _ h⟩
  · obtain ⟨o, e1, e2, e⟩ := D.empty k _ _ _ h
    obtain ⟨v1, v2, v3⟩ := corners_vertex h
    refine ⟨by rw [← r]; exact D.clockwise k _ _ _ h, ⟨v1, v2⟩, o, by rw [← e2], by rw [← e2, e1], fun v hv => by rw [← e2]; exact e v hv⟩
  · obtain ⟨o, e1, e2, e⟩ := D.empty k _ _ _ h
    obtain ⟨v1, v2, v3⟩ := corners_vertex h
    refine ⟨by rw [← r, ← r]; exact D.clockwise k _ _ _ h, ⟨v3, v1⟩, o, by rw [← e1, e2], by rw [← e1], fun v hv => by rw [← e1]; exact e v hv⟩

omit [LinearOrder K] [IsStrictOrderedRing K] in
theorem cone_power (o x p b c q : R3.Vector K) :
    orient p b c * (sqd x q - sqd x p) - orient c p q * (sqd x b - sqd x p) - orient p b q * (sqd x c - sqd x p) =
    orient p b c * (sqd o q - sqd o p) - orient c p q * (sqd o b - sqd o p) - orient p b q * (sqd o c - sqd o p) := by
  unfold orient sqd; ring

/-- the key inequality in the triangle towards `q` -/
theorem star_power {Vs hull : List (R3.Vector K)} {ts : List ℤ} (R : DelaunayResult Vs hull ts) (hd : PlanarDistinct Vs) {p q : R3.Vector K} (hp : p ∈ Vs)
    (hq : q ∈ Vs) (x : R3.Vector K) : ∃ b c, HasTriangle Vs ts p b c ∧ orient p b c < 0 ∧ orient p b q ≤ 0 ∧ orient c p q ≤ 0 ∧ b ∈ Vs ∧ c ∈ Vs ∧
      orient p b c * (sqd x q - sqd x p) ≤ orient c p q * (sqd x b - sqd x p) + orient p b q * (sqd x c - sqd x p) := by
  obtain ⟨b, c, h, h1, h2⟩ := star R hd hp hq
  obtain ⟨cw, ⟨vb, vc⟩, o, e1, e2, em⟩ := has_delaunay R.delaunay h
  refine ⟨b, c, h, cw, h1, h2, vertex_mem vb, vertex_mem vc, ?_⟩
  have id := cone_power o x p b c q
  rw [← e1, ← e2, sub_self, mul_zero, mul_zero, sub_zero, sub_zero] at id
  have := mul_nonpos_of_nonpos_of_nonneg cw.le (sub_nonneg.mpr (em q (R.cover q hq)))
  linarith

/-! ## Edges with an empty circle -/

/-- two points on a circle with all other points strictly outside are joined by an edge -/
theorem empty_edge {Vs hull : List (R3.Vector K)} {ts : List ℤ} (R : DelaunayResult Vs hull ts) (hd : PlanarDistinct Vs) {p q : R3.Vector K} (hp : p ∈ Vs)
    (hq : q ∈ Vs) (hne : p ≠ q) (x : R3.Vector K) (hx : sqd x p = sqd x q) (hout : ∀ v ∈ Vs, v ≠ p → v ≠ q → sqd x p < sqd x v) : HasEdge Vs ts p q := by
  obtain ⟨b, c, h, cw, h1, h2, vb, vc, le⟩ := star_power R hd hp hq x
  rw [hx, sub_self, mul_zero, ← hx] at le
  have bp : b ≠ p := by rintro rfl; unfold orient at cw; linarith
  have cp : c ≠ p := by rintro rfl; unfold orient at cw; linarith
  by_cases hb : b = q
  · subst hb; exact ⟨c, Or.inl h⟩
  by_cases hc : c = q
  · subst hc; exact ⟨b, Or.inr (has_rot (has_rot h))⟩
  exfalso
  have q1 := hout b vb bp hb
  have q2 := hout c vc cp hc
  have z : ∀ u v : K, u ≤ 0 → 0 < v → 0 ≤ u * v → u = 0 := by
    intro u v hu hv h
    rcases hu.lt_or_eq with h' | h'
    · have := mul_neg_of_neg_of_pos h' hv; linarith
    · exact h'
  have m1 := mul_nonpos_of_nonpos_of_nonneg h2 (sub_nonneg.mpr q1.le)
  have m2 := mul_nonpos_of_nonpos_of_nonneg h1 (sub_nonneg.mpr q2.le)
  have z1 := z _ _ h2 (sub_pos.mpr q1) (by linarith)
  have z2 := z _ _ h1 (sub_pos.mpr q2) (by linarith)
  have ex : orient p b c * (q.X - p.X) = orient c p q * (b.X - p.X) + orient p b q * (c.X - p.X) := by unfold orient; ring
  have ey : orient p b c * (q.Y - p.Y) = orient c p q * (b.Y - p.Y) + orient p b q * (c.Y - p.Y) := by unfold orient; ring
  rw [z1, z2, zero_mul, zero_mul, add_zero] at ex ey
  have dx := (mul_eq_zero.mp ex).resolve_left cw.ne
  have dy := (mul_eq_zero.mp ey).resolve_left cw.ne
  exact hne (hd p hp q hq (by linarith) (by linarith))

omit [IsStrictOrderedRing K] in
/-- every edge has such a circle, with no point strictly inside -/
theorem edge_empty {Vs hull : List (R3.Vector K)} {ts : List ℤ} (R : DelaunayResult Vs hull ts) {p q : R3.Vector K} (h : HasEdge Vs ts p q) :
    ∃ x, sqd x p = sqd x q ∧ ∀ v ∈ Vs, sqd x p ≤ sqd x v := by
  obtain ⟨r, h | h⟩ := h
  · obtain ⟨_, _, o, e1, _, e⟩ := has_delaunay R.delaunay h
    exact ⟨o, e1, fun v hv => e v (R.cover v hv)⟩
  · obtain ⟨_, _, o, e1, _, e⟩ := has_delaunay R.delaunay h
    exact ⟨o, e1.symm, fun v hv => by rw [← e1]; exact e v (R.cover v hv)⟩

/-- no point is closer to both ends than the ends are to each other: then there is an edge -/
theorem lune_edge {Vs hull : List (R3.Vector K)} {ts : List ℤ} (R : DelaunayResult Vs hull ts) (hd : PlanarDistinct Vs) {p q : R3.Vector K} (hp : p ∈ Vs)
    (hq : q ∈ Vs) (hne : p ≠ q) (hl : ∀ v ∈ Vs, v ≠ p → v ≠ q → sqd p q ≤ sqd p v ∨ sqd p q ≤ sqd q v) : HasEdge Vs ts p q := by
  refine empty_edge R hd hp hq hne ⟨(p.X + q.X) / 2, (p.Y + q.Y) / 2, 0⟩ (by unfold sqd; ring) fun v hv h1 h2 => ?_
  have d1 := sqd_pos hd hp hv h1.symm
  have d2 := sqd_pos hd hq hv h2.symm
  have id : sqd ⟨(p.X + q.X) / 2, (p.Y + q.Y) / 2, 0⟩ v - sqd ⟨(p.X + q.X) / 2, (p.Y + q.Y) / 2, 0⟩ p = (sqd p v + sqd q v - sqd p q) / 2 := by unfold sqd; ring
  have : 0 < (sqd p v + sqd q v - sqd p q) / 2 := by
    rcases hl v hv h1 h2 with h | h <;> linarith
  linarith

/-- the closest pair across a cut is an edge -/
theorem cut_edge {Vs hull : List (R3.Vector K)} {ts : List ℤ} (R : DelaunayResult Vs hull ts) (hd : PlanarDistinct Vs) (S : R3.Vector K → Prop) {p q : R3.Vector K}
    (hp : p ∈ Vs) (hq : q ∈ Vs) (sp : S p) (sq : ¬ S q) (hmin : ∀ a ∈ Vs, ∀ b ∈ Vs, S a → ¬ S b → sqd p q ≤ sqd a b) : HasEdge Vs ts p q := by
  refine lune_edge R hd hp hq (fun e => sq (e ▸ sp)) fun v hv _ _ => ?_
  by_cases hS : S v
  · right
    have := hmin v hv q hq hS sq
    rwa [show sqd v q = sqd q v by unfold sqd; ring] at this
  · left; exact hmin p hp v hv sp hS

/-- the edges connect all points -/
theorem edges_connect {Vs hull : List (R3.Vector K)} {ts : List ℤ} (R : DelaunayResult Vs hull ts) (hd : PlanarDistinct Vs) {p q : R3.Vector K} (hp : p ∈ Vs)
    (hq : q ∈ Vs) : Relation.ReflTransGen (HasEdge Vs ts) p q := by
  classical
  by_contra hno
  let S : R3.Vector K → Prop := fun v => Relation.ReflTransGen (HasEdge Vs ts) p v
  let pairs := (Vs.toFinset ×ˢ Vs.toFinset).filter fun ab => S ab.1 ∧ ¬ S ab.2
  have hne : pairs.Nonempty := ⟨(p, q), by simp only [pairs, Finset.mem_filter, Finset.mem_product, List.mem_toFinset]; exact ⟨⟨hp, hq⟩, Relation.ReflTransGen.refl, hno⟩⟩
  obtain ⟨⟨a, b⟩, hab, hmin⟩ := Finset.exists_min_image pairs (fun ab => sqd ab.1 ab.2) hne
  simp only [pairs, Finset.mem_filter, Finset.mem_product, List.mem_toFinset] at hab hmin
  have e := cut_edge R hd S hab.1.1 hab.1.2 hab.2.1 hab.2.2 fun x hx y hy sx sy => hmin (x, y) ⟨⟨hx, hy⟩, sx, sy⟩
  exact hab.2.2 (hab.2.1.tail e)

/-! ## Walking towards a position -/

/-- a point that is not nearest to `x` has a neighbour nearer to `x` -/
theorem walk_step {Vs hull : List (R3.Vector K)} {ts : List ℤ} (R : DelaunayResult Vs hull ts) (hd : PlanarDistinct Vs) {p q : R3.Vector K} (hp : p ∈ Vs)
    (hq : q ∈ Vs) (x : R3.Vector K) (h : sqd x q < sqd x p) : ∃ b ∈ Vs, HasEdge Vs ts p b ∧ sqd x b < sqd x p := by
  obtain ⟨b, c, ht, cw, h1, h2, vb, vc, le⟩ := star_power R hd hp hq x
  have pos := mul_pos_of_neg_of_neg cw (sub_neg.mpr h)
  by_cases hb : sqd x b < sqd x p
  · exact ⟨b, vb, ⟨c, Or.inl ht⟩, hb⟩
  by_cases hc : sqd x c < sqd x p
  · exact ⟨c, vc, ⟨b, Or.inr (has_rot (has_rot ht))⟩, hc⟩
  exfalso
  have m1 := mul_nonpos_of_nonpos_of_nonneg h2 (sub_nonneg.mpr (not_lt.mp hb))
  have m2 := mul_nonpos_of_nonpos_of_nonneg h1 (sub_nonneg.mpr (not_lt.mp hc))
  linarith

/-- the properties of this file, for a list of points and a list of triangles -/
structure NeighbourEdges (Vs : List (R3.Vector K)) (ts : List ℤ) : Prop where
  /-- an empty circle gives an edge -/
  circle : ∀ p ∈ Vs, ∀ q ∈ Vs, p ≠ q → ∀ x, sqd x p = sqd x q → (∀ v ∈ Vs, v ≠ p → v ≠ q → sqd x p < sqd x v) → HasEdge Vs ts p q
  /-- an edge has an empty circle -/
  edge : ∀ p q, HasEdge Vs ts p q → ∃ x, sqd x p = sqd x q ∧ ∀ v ∈ Vs, sqd x p ≤ sqd x v
  /-- every nearest neighbour is joined by an edge -/
  nearest : ∀ p ∈ Vs, ∀ q ∈ Vs, p ≠ q → (∀ v ∈ Vs, v ≠ p → sqd p q ≤ sqd p v) → HasEdge Vs ts p q
  /-- every closest pair across a cut is joined by an edge -/
  cut : ∀ S : R3.Vector K → Prop, ∀ p ∈ Vs, ∀ q ∈ Vs, S p → ¬ S q → (∀ a ∈ Vs, ∀ b ∈ Vs, S a → ¬ S b → sqd p q ≤ sqd a b) → HasEdge Vs ts p q
  /-- the edges connect the points -/
  connected : ∀ p ∈ Vs, ∀ q ∈ Vs, Relation.ReflTransGen (HasEdge Vs ts) p q
  /-- a point without a neighbour closer to `x` is a point nearest to `x` -/
  walk : ∀ p ∈ Vs, ∀ x, (∀ b ∈ Vs, HasEdge Vs ts p b → sqd x p ≤ sqd x b) → ∀ q ∈ Vs, sqd x p ≤ sqd x q

theorem neighbour_edges {Vs hull : List (R3.Vector K)} {ts : List ℤ} (R : DelaunayResult Vs hull ts) (hd : PlanarDistinct Vs) : NeighbourEdges Vs ts where
  circle p hp q hq hne x h1 h2 := empty_edge R hd hp hq hne x h1 h2
  edge p q h := edge_empty R h
  nearest p hp q hq hne h := lune_edge R hd hp hq hne fun v hv h1 _ => Or.inl (h v hv h1)
  cut S p hp q hq sp sq h := cut_edge R hd S hp hq sp sq h
  connected p hp q hq := edges_connect R hd hp hq
  walk p hp x h q hq := by
    by_contra hlt
    obtain ⟨b, hb, he, hl⟩ := walk_step R hd hp hq x (not_le.mp hlt)
    exact absurd (h b hb he) (not_le.mpr hl)

/-- C109: the edges of the triangulation that `Triangulate` returns, in exact arithmetic, for points at least `sqrt eps` apart -/
theorem C109_edges [FloorRing K] (srt : R3.Vector K → List ℤ → List ℤ) (hsrt : ∀ c l, (srt c l).Perm l) (hashSize : ℕ → ℕ) (fuel : ℕ) (Vs : List (R3.Vector K))
    (hp : Planar Vs) (hn : 2 ≤ Vs.length) (hash : 0 < hashSize Vs.length) (hf : 6 * Vs.length < fuel) {hull : List (R3.Vector K)} {ts hs : List ℤ}
    (h : Triangulate srt hashSize fuel Vs = .ok (.triangulation hull ts hs)) (hs' : Sorts srt Vs) (hsep : Separated Vs) : NeighbourEdges Vs ts :=
  neighbour_edges (exact_result srt hsrt hashSize fuel Vs hp hn hash hf h hs' hsep) (separated_distinct hsep)

/-- C109: the same in float64, for coordinates that are integers of size at most 512 times a power of two -/
theorem C109_float {e : ℤ} (he : -26 ≤ e ∧ e ≤ 80) (srt : R3.Vector F64 → List ℤ → List ℤ) (hsrt : ∀ c l, (srt c l).Perm l) (hashSize : ℕ → ℕ) (fuel : ℕ)
    (Vs : List (R3.Vector F64)) (hg : MidDyadic e Vs) (hn : 2 ≤ Vs.length) (hash : 0 < hashSize Vs.length ∧ hashSize Vs.length < 2 ^ 53) (hf : 6 * Vs.length < fuel)
    {hull : List (R3.Vector F64)} {ts hs : List ℤ} (h : Triangulate srt hashSize fuel Vs = .ok (.triangulation hull ts hs)) (hs' : SortsCall srt Vs) :
    NeighbourEdges (Vs.map exactV) ts :=
  neighbour_edges (dyadic_result he srt hsrt hashSize fuel Vs hg hn hash hf h hs') (separated_distinct (dyadic_separated he hg))

theorem spread_result (srt : R3.Vector F64 → List ℤ → List ℤ) (hsrt : ∀ c l, (srt c l).Perm l) (hashSize : ℕ → ℕ) (fuel : ℕ) (Vs : List (R3.Vector F64)) {M κ : ℚ}
    (hfin : FinitePlanar Vs) (hW : Spread (Vs.map exactV) M κ) (hash : 0 < hashSize Vs.length) (hash' : hashSize Vs.length < 2 ^ 53) (hf : 6 * Vs.length < fuel)
    {hull : List (R3.Vector F64)} {ts hs : List ℤ} (h : Triangulate srt hashSize fuel Vs = .ok (.triangulation hull ts hs)) (hs' : SortsCall srt Vs) :
    DelaunayResult (Vs.map exactV) (hull.map exactV) ts := by
  obtain ⟨_, c2, c3, c4⟩ := C87_delaunay srt hsrt hashSize fuel Vs hfin hW hash hash' hf h
  obtain ⟨d1, _, d3, _⟩ := C87_all srt hsrt hashSize fuel Vs hfin hW hash hash' hf h hs'
  refine ⟨c2, fun v hv => ?_, c3, fun x _ _ _ _ _ _ _ _ hj hk sj sk => c4 x _ _ _ _ _ _ _ _ hj hk sj sk, fun p hp => ?_⟩
  · obtain ⟨p, hp, rfl⟩ := List.mem_map.mp (vertex_mem hv)
    exact d3 p hp
  · obtain ⟨i, hi, e⟩ := List.getElem_of_mem hp
    exact ⟨i, (d1 i).mp (by rwa [List.length_map] at hi), by rw [← e]; exact List.getElem?_eq_getElem hi⟩

/-- C109: the same in float64 for well spread points, with the hash table of the code -/
theorem C109_spread (srt : R3.Vector F64 → List ℤ → List ℤ) (hsrt : ∀ c l, (srt c l).Perm l) (fuel : ℕ) (Vs : List (R3.Vector F64)) (hs' : SortsCall srt Vs)
    {M κ : ℚ} (hfin : FinitePlanar Vs) (hW : Spread (Vs.map exactV) M κ) (hn' : Vs.length < 2 ^ 63) (hf : 6 * Vs.length < fuel) :
    ∃ hull ts hs, Triangulate64 srt fuel Vs = .ok (.triangulation hull ts hs) ∧ NeighbourEdges (Vs.map exactV) ts := by
  have hn : 2 ≤ Vs.length := by have := hW.three; rw [List.length_map] at this; omega
  obtain ⟨a, b⟩ := hash_ok hn hn'
  obtain ⟨hull, ts, hs, e⟩ := C87_outcome srt hsrt hashSize64 fuel Vs hfin hW a b hf
  exact ⟨hull, ts, hs, e, neighbour_edges (spread_result srt hsrt hashSize64 fuel Vs hfin hW a b hf e hs') (separated_distinct (hW.separated hfin))⟩

/-- C109: the same on small integer coordinates, whatever the compiler fuses -/
theorem C109_fused {A : Arith} (hA : Fused A) (srt : R3.Vector F64 → List ℤ → List ℤ) (hsrt : ∀ c l, (srt c l).Perm l) (fuel : ℕ) (Vs : List (R3.Vector F64))
    (hs' : A.Sorts srt Vs) (hg : SmallInts Vs) (hc : NotCollinear (Vs.map exactV)) (hn : 2 ≤ Vs.length) (hn' : Vs.length < 2 ^ 63) (hf : 6 * Vs.length < fuel) :
    ∃ hull ts hs, TriangulateA A srt hashSize64 fuel Vs = .ok (.triangulation hull ts hs) ∧ NeighbourEdges (Vs.map exactV) ts := by
  obtain ⟨k1, k2⟩ := hash_ok hn hn'
  rcases C100_outcome hA srt hsrt hashSize64 fuel Vs hg hn k1 k2 hf with ⟨c, _⟩ | ⟨_, hull, ts, hs, e⟩
  · exact absurd hc c
  · exact ⟨hull, ts, hs, e, neighbour_edges (fused_result hA srt hsrt hashSize64 fuel Vs hg hn k1 k2 hf e hs')
      (separated_distinct (ints_separated hg.grid.ints hg.flat))⟩

/-! ## Concrete cases -/

example (srt : R3.Vector F64 → List ℤ → List ℤ) (hsrt : ∀ c l, (srt c l).Perm l) (hs' : SortsCall srt seedSample) :
    ∃ hull ts hs, Triangulate64 srt 37 seedSample = .ok (.triangulation hull ts hs) ∧ NeighbourEdges (seedSample.map exactV) ts :=
  C109_spread srt hsrt 37 seedSample hs' sample_finite sample_spread (by decide) (by decide)

/-- five points: the four corners of a square and a point near one of them -/
def fivePts : List (R3.Vector ℚ) := [⟨0,0,0⟩, ⟨4,0,0⟩, ⟨4,4,0⟩, ⟨0,4,0⟩, ⟨1,1,0⟩]

example : ∃ hull ts hs, Triangulate (keySort fivePts) (fun _ => 3) 31 fivePts = .ok (.triangulation hull ts hs) ∧
    HasEdge fivePts ts ⟨0,0,0⟩ ⟨1,1,0⟩ ∧ HasEdge fivePts ts ⟨1,1,0⟩ ⟨4,4,0⟩ := by
  have h1 : ∃ x, Triangulate (keySort fivePts) (fun _ => 3) 31 fivePts = x ∧
      (match x with | .ok (.triangulation _ _ _) => true | _ => false) = true := ⟨_, rfl, by decide +kernel⟩
  obtain ⟨x, hx, h1⟩ := h1
  match x, h1 with
  | .ok (.triangulation hull ts hs), _ =>
    have E := C109_edges (keySort fivePts) (keySort_perm _) (fun _ => 3) 31 fivePts ⟨0, by decide⟩ (by decide) (by decide) (by decide) hx (keySort_sorts _)
      (by unfold Separated Near; decide +kernel)
    exact ⟨hull, ts, hs, hx, E.nearest _ (by decide) _ (by decide) (by decide) (by decide +kernel),
      E.circle _ (by decide) _ (by decide) (by decide) ⟨5/2, 5/2, 0⟩ (by decide +kernel) (by decide +kernel)⟩

end Verif.Props
