import Verif.Props.Angles
import Verif.Props.HullFloat
/-!
# C112: extreme points (triangulate2/hull.go)

The polygon of `ConvexHull` contains every point that is farthest in some direction and every point that is farthest from some position; so its diameter and its
bounding box are those of the points. The region to the left of all its edges is exactly the convex hull of the points.
-/
namespace Verif.Props
open Verif Verif.Tri2 Verif.Proofs Verif.Spec

variable {K : Type} [Field K] [LinearOrder K] [IsStrictOrderedRing K]

/-- the component of `v` in the direction `(dx, dy)` -/
def toward (dx dy : K) (v : R3.Vector K) : K := dx * v.X + dy * v.Y

/-- the points on the left of all edges of the polygon -/
def LeftOfAll (P : List (R3.Vector K)) (x : R3.Vector K) : Prop := ∀ e ∈ edges P, OnLeft e.1 e.2 x

theorem edge_before {α : Type} {P : List α} {h : α} (hh : h ∈ P) : ∃ g, (g, h) ∈ edges P := by
  have : h ∈ (edges P).map Prod.snd := by rw [edges_snd]; exact List.mem_rotate.mpr hh
  obtain ⟨⟨g, h'⟩, he, rfl⟩ := List.mem_map.mp this
  exact ⟨g, he⟩

theorem edge_after {α : Type} {P : List α} {h : α} (hh : h ∈ P) : ∃ n, (h, n) ∈ edges P := by
  have : h ∈ (edges P).map Prod.fst := by rw [edges_fst]; exact hh
  obtain ⟨⟨h', n⟩, he, rfl⟩ := List.mem_map.mp this
  exact ⟨n, he⟩

theorem edge_mem {α : Type} {P : List α} {g h : α} (he : (g, h) ∈ edges P) : g ∈ P ∧ h ∈ P := by
  constructor
  · rw [← edges_fst P]; exact List.mem_map_of_mem (f := Prod.fst) he
  · rw [← List.mem_rotate (n := 1), ← edges_snd P]; exact List.mem_map_of_mem (f := Prod.snd) he

omit [IsStrictOrderedRing K] in
theorem polygon_mem {Vs P : List (R3.Vector K)} (B : BoundaryPolygon Vs P) {h : R3.Vector K} (hh : h ∈ P) : h ∈ Vs := by
  obtain ⟨n, he⟩ := edge_after hh
  exact (B.edge _ he).fst

/-- the two edges at a corner: a proper corner, or a straight one with the corner strictly between its neighbours -/
theorem corner_cases {Vs P : List (R3.Vector K)} (B : BoundaryPolygon Vs P) (hn : NotCollinear Vs) (hd : PlanarDistinct Vs) {g h n : R3.Vector K}
    (h1 : (g, h) ∈ edges P) (h2 : (h, n) ∈ edges P) :
    0 < orient g h n ∨ (∃ t, 0 < t ∧ g.X - h.X = -t * (n.X - h.X) ∧ g.Y - h.Y = -t * (n.Y - h.Y)) := by
  have E1 := B.edge _ h1
  have E2 := B.edge _ h2
  have l1 : 0 ≤ orient g h n := E1.left n E2.snd
  rcases l1.lt_or_eq with l | l
  · exact Or.inl l
  · right
    have hne : n.X - h.X ≠ 0 ∨ n.Y - h.Y ≠ 0 := by
      by_contra hc
      push Not at hc
      exact E2.ne (hd h E2.fst n E2.snd (by linarith [hc.1]) (by linarith [hc.2]))
    have hng : g.X - h.X ≠ 0 ∨ g.Y - h.Y ≠ 0 := by
      by_contra hc
      push Not at hc
      exact E1.ne (hd g E1.fst h E1.snd (by linarith [hc.1]) (by linarith [hc.2]))
    have cr : (n.X - h.X) * (g.Y - h.Y) - (n.Y - h.Y) * (g.X - h.X) = 0 := by
      have : orient g h n = (n.X - h.X) * (g.Y - h.Y) - (n.Y - h.Y) * (g.X - h.X) := by unfold orient; ring
      rw [← this, ← l]
    have ex : ∃ t, g.X - h.X = -t * (n.X - h.X) ∧ g.Y - h.Y = -t * (n.Y - h.Y) := by
      rcases hne with hx | hy
      · refine ⟨-((g.X - h.X) / (n.X - h.X)), by field_simp, ?_⟩
        field_simp
        linarith
      · refine ⟨-((g.Y - h.Y) / (n.Y - h.Y)), ?_, by field_simp⟩
        field_simp
        linarith
    obtain ⟨t, tx, ty⟩ := ex
    refine ⟨t, ?_, tx, ty⟩
    by_contra ht
    have ht : t < 0 := by
      rcases (not_lt.mp ht).lt_or_eq with h | h
      · exact h
      · rw [h, neg_zero, zero_mul] at tx ty
        rcases hng with h | h
        · exact absurd tx h
        · exact absurd ty h
    -- all points are on both sides of the line
    have line : ∀ q ∈ Vs, orient h n q = 0 := by
      intro q hq
      have a1 : 0 ≤ orient g h q := E1.left q hq
      have a2 : 0 ≤ orient h n q := E2.left q hq
      have e : orient g h q = t * orient h n q := by
        have e1 : orient g h q = -((g.X - h.X) * (q.Y - h.Y) - (g.Y - h.Y) * (q.X - h.X)) := by unfold orient; ring
        rw [e1, tx, ty]; unfold orient; ring
      rw [e] at a1
      by_contra hc
      have : 0 < orient h n q := lt_of_le_of_ne a2 (Ne.symm hc)
      have := mul_neg_of_neg_of_pos ht this
      linarith
    obtain ⟨p, hp, q, hq, r, hr, hpqr⟩ := hn
    apply hpqr
    have e1 := line p hp
    have e2 := line q hq
    have e3 := line r hr
    unfold orient at e1 e2 e3
    exact cross_zero hne (by linarith) (by linarith)

omit [LinearOrder K] [IsStrictOrderedRing K] in
/-- what a point on the left of both edges at a corner satisfies -/
theorem corner_cone (dx dy : K) (g h n x : R3.Vector K) : orient g h n * (toward dx dy x - toward dx dy h) =
    orient g h x * (toward dx dy n - toward dx dy h) + orient h n x * (toward dx dy g - toward dx dy h) := by
  unfold orient toward; ring

/-- a corner that is farthest in a direction, and the last of these, bounds everything on the left of all edges -/
theorem far_corner {Vs P : List (R3.Vector K)} (B : BoundaryPolygon Vs P) (hn : NotCollinear Vs) (hd : PlanarDistinct Vs) (dx dy : K) :
    ∃ h ∈ P, ∀ x, LeftOfAll P x → toward dx dy x ≤ toward dx dy h := by
  obtain ⟨m, hm⟩ := List.exists_mem_of_ne_nil P B.ne
  by_cases hz : dx = 0 ∧ dy = 0
  · exact ⟨m, hm, fun x _ => by unfold toward; rw [hz.1, hz.2]; simp⟩
  obtain ⟨h0, hh0, max0⟩ := Finset.exists_max_image P.toFinset (toward dx dy) ⟨m, List.mem_toFinset.mpr hm⟩
  obtain ⟨h, hh, max1⟩ := Finset.exists_max_image (P.toFinset.filter fun v => toward dx dy v = toward dx dy h0) (toward (-dy) dx) ⟨h0, by simp [hh0]⟩
  simp only [Finset.mem_filter, List.mem_toFinset] at hh max1 max0
  obtain ⟨hhP, hhe⟩ := hh
  refine ⟨h, hhP, fun x hx => ?_⟩
  obtain ⟨g, hg⟩ := edge_before hhP
  obtain ⟨n, hn'⟩ := edge_after hhP
  have fg : toward dx dy g ≤ toward dx dy h := by rw [hhe]; exact max0 g (edge_mem hg).1
  have fn : toward dx dy n ≤ toward dx dy h := by rw [hhe]; exact max0 n (edge_mem hn').2
  rcases corner_cases B hn hd hg hn' with hpos | ⟨t, t0, tx, ty⟩
  · have l1 : 0 ≤ orient g h x := hx _ hg
    have l2 : 0 ≤ orient h n x := hx _ hn'
    have id := corner_cone dx dy g h n x
    by_contra hc
    have := mul_pos hpos (sub_pos.mpr (not_le.mp hc))
    have := mul_nonpos_of_nonneg_of_nonpos l1 (sub_nonpos.mpr fn)
    have := mul_nonpos_of_nonneg_of_nonpos l2 (sub_nonpos.mpr fg)
    linarith
  · exfalso
    have e1 : toward dx dy g - toward dx dy h = -t * (toward dx dy n - toward dx dy h) := by
      have : toward dx dy g - toward dx dy h = dx * (g.X - h.X) + dy * (g.Y - h.Y) := by unfold toward; ring
      rw [this, tx, ty]; unfold toward; ring
    have e2 : toward (-dy) dx g - toward (-dy) dx h = -t * (toward (-dy) dx n - toward (-dy) dx h) := by
      have : toward (-dy) dx g - toward (-dy) dx h = -dy * (g.X - h.X) + dx * (g.Y - h.Y) := by unfold toward; ring
      rw [this, tx, ty]; unfold toward; ring
    have z1 : toward dx dy n - toward dx dy h = 0 := by
      by_contra hc
      have : toward dx dy n - toward dx dy h < 0 := lt_of_le_of_ne (by linarith) hc
      have := mul_pos_of_neg_of_neg (neg_neg_of_pos t0) this
      linarith
    have z1' : toward dx dy g - toward dx dy h = 0 := by rw [e1, z1, mul_zero]
    have gg := max1 g ⟨(edge_mem hg).1, by linarith⟩
    have nn := max1 n ⟨(edge_mem hn').2, by linarith⟩
    have z2 : toward (-dy) dx n - toward (-dy) dx h = 0 := by
      by_contra hc
      have : toward (-dy) dx n - toward (-dy) dx h < 0 := lt_of_le_of_ne (by linarith) hc
      have := mul_pos_of_neg_of_neg (neg_neg_of_pos t0) this
      linarith
    have E2 := B.edge _ hn'
    have s : 0 < dx ^ 2 + dy ^ 2 := by
      rcases not_and_or.mp hz with h | h
      · have := sq_nonneg dy; have : 0 < dx ^ 2 := by positivity
        linarith
      · have := sq_nonneg dx; have : 0 < dy ^ 2 := by positivity
        linarith
    unfold toward at z1 z2
    have zx : (dx ^ 2 + dy ^ 2) * (n.X - h.X) = 0 := by linear_combination dx * z1 - dy * z2
    have zy : (dx ^ 2 + dy ^ 2) * (n.Y - h.Y) = 0 := by linear_combination dy * z1 + dx * z2
    have zx := (mul_eq_zero.mp zx).resolve_left s.ne'
    have zy := (mul_eq_zero.mp zy).resolve_left s.ne'
    exact E2.ne (hd h E2.fst n E2.snd (by linarith) (by linarith))

omit [IsStrictOrderedRing K] in
theorem left_mem {Vs P : List (R3.Vector K)} (B : BoundaryPolygon Vs P) {q : R3.Vector K} (hq : q ∈ Vs) : LeftOfAll P q := fun e he => (B.edge e he).left q hq

/-- every point that is farthest in a direction is a corner -/
theorem extreme_corner {Vs P : List (R3.Vector K)} (B : BoundaryPolygon Vs P) (hn : NotCollinear Vs) (hd : PlanarDistinct Vs) {dx dy : K} (hz : ¬ (dx = 0 ∧ dy = 0))
    {p : R3.Vector K} (hp : p ∈ Vs) (hmax : ∀ q ∈ Vs, toward dx dy q ≤ toward dx dy p) : p ∈ P := by
  by_contra hpP
  obtain ⟨h0, hh0, max0⟩ := far_corner B hn hd dx dy
  have e0 : toward dx dy h0 = toward dx dy p := le_antisymm (hmax h0 (polygon_mem B hh0)) (max0 p (left_mem B hp))
  obtain ⟨h, hh, near⟩ := Finset.exists_min_image (P.toFinset.filter fun v => toward dx dy v = toward dx dy p) (fun v => |toward (-dy) dx v - toward (-dy) dx p|) ⟨h0, by simp [hh0, e0]⟩
  simp only [Finset.mem_filter, List.mem_toFinset] at hh near
  obtain ⟨hhP, hhe⟩ := hh
  have hV := polygon_mem B hhP
  obtain ⟨g, hg⟩ := edge_before hhP
  obtain ⟨n, hn'⟩ := edge_after hhP
  have E1 := B.edge _ hg
  have E2 := B.edge _ hn'
  have s : 0 < dx ^ 2 + dy ^ 2 := by
    rcases not_and_or.mp hz with h | h
    · have := sq_nonneg dy; have : 0 < dx ^ 2 := by positivity
      linarith
    · have := sq_nonneg dx; have : 0 < dy ^ 2 := by positivity
      linarith
  -- a neighbour on the same line towards `p` would have `p` strictly between
  have no : ∀ v ∈ P, ∀ a, 0 < a → p.X - h.X = a * (v.X - h.X) → p.Y - h.Y = a * (v.Y - h.Y) → (∀ t, 0 < t → t < 1 → ¬ (p.X = h.X + t * (v.X - h.X) ∧ p.Y = h.Y + t * (v.Y - h.Y))) → False := by
    intro v hv a a0 ax ay hbt
    have fp : toward dx dy p - toward dx dy h = a * (toward dx dy v - toward dx dy h) := by
      have : toward dx dy p - toward dx dy h = dx * (p.X - h.X) + dy * (p.Y - h.Y) := by unfold toward; ring
      rw [this, ax, ay]; unfold toward; ring
    have fp' : toward (-dy) dx p - toward (-dy) dx h = a * (toward (-dy) dx v - toward (-dy) dx h) := by
      have : toward (-dy) dx p - toward (-dy) dx h = -dy * (p.X - h.X) + dx * (p.Y - h.Y) := by unfold toward; ring
      rw [this, ax, ay]; unfold toward; ring
    rw [hhe, sub_self] at fp
    have fv : toward dx dy v = toward dx dy p := by have := (mul_eq_zero.mp fp.symm).resolve_left a0.ne'; linarith
    have le := near v ⟨hv, fv⟩
    by_cases ha : a < 1
    · exact hbt a a0 ha ⟨by linarith, by linarith⟩
    · have ha := not_lt.mp ha
      rcases ha.lt_or_eq with ha | ha
      · -- then `v` is nearer to `p` than `h`
        set D := toward (-dy) dx v - toward (-dy) dx h with hD
        have d1 : toward (-dy) dx h - toward (-dy) dx p = -(a * D) := by linarith
        have d2 : toward (-dy) dx v - toward (-dy) dx p = -((a - 1) * D) := by linarith
        rw [d1, d2, abs_neg, abs_neg, abs_mul, abs_mul, abs_of_pos a0, abs_of_pos (by linarith : 0 < a - 1)] at le
        have D0 : |D| ≤ 0 := by linarith
        have D0 : D = 0 := abs_eq_zero.mp (le_antisymm D0 (abs_nonneg _))
        have z1 : toward dx dy v - toward dx dy h = 0 := by linarith
        unfold toward at z1
        rw [hD] at D0
        unfold toward at D0
        have zx : (dx ^ 2 + dy ^ 2) * (v.X - h.X) = 0 := by linear_combination dx * z1 - dy * D0
        have zy : (dx ^ 2 + dy ^ 2) * (v.Y - h.Y) = 0 := by linear_combination dy * z1 + dx * D0
        rw [(mul_eq_zero.mp zx).resolve_left s.ne', mul_zero] at ax
        rw [(mul_eq_zero.mp zy).resolve_left s.ne', mul_zero] at ay
        exact hpP (by rw [hd p hp h hV (by linarith) (by linarith)]; exact hhP)
      · rw [← ha, one_mul] at ax ay
        exact hpP (by rw [hd p hp v (polygon_mem B hv) (by linarith) (by linarith)]; exact hv)
  have tn : ∀ t, 0 < t → t < 1 → ¬ (p.X = h.X + t * (n.X - h.X) ∧ p.Y = h.Y + t * (n.Y - h.Y)) := fun t t0 t1 ⟨x, y⟩ => E2.tight p hp ⟨t, t0, t1, x, y⟩
  have tg : ∀ t, 0 < t → t < 1 → ¬ (p.X = h.X + t * (g.X - h.X) ∧ p.Y = h.Y + t * (g.Y - h.Y)) := fun t t0 t1 ⟨x, y⟩ =>
    E1.tight p hp ⟨1 - t, by linarith, by linarith, by simp only; rw [x]; ring, by simp only; rw [y]; ring⟩
  have np : ¬ (p.X - h.X = 0 ∧ p.Y - h.Y = 0) := fun ⟨x, y⟩ => hpP (by rw [hd p hp h hV (by linarith) (by linarith)]; exact hhP)
  have fg : toward dx dy g - toward dx dy h ≤ 0 := by rw [hhe]; exact sub_nonpos.mpr (hmax g E1.fst)
  have fn : toward dx dy n - toward dx dy h ≤ 0 := by rw [hhe]; exact sub_nonpos.mpr (hmax n E2.snd)
  rcases corner_cases B hn hd hg hn' with hpos | ⟨t, t0, tx, ty⟩
  · have l1 : 0 ≤ orient g h p := E1.left p hp
    have l2 : 0 ≤ orient h n p := E2.left p hp
    have id := corner_cone dx dy g h n p
    have ix : orient g h n * (p.X - h.X) = orient g h p * (n.X - h.X) + orient h n p * (g.X - h.X) := by unfold orient; ring
    have iy : orient g h n * (p.Y - h.Y) = orient g h p * (n.Y - h.Y) + orient h n p * (g.Y - h.Y) := by unfold orient; ring
    rw [hhe, sub_self, mul_zero, ← hhe] at id
    have m1 := mul_nonpos_of_nonneg_of_nonpos l1 fn
    have m2 := mul_nonpos_of_nonneg_of_nonpos l2 fg
    have z1 : orient g h p * (toward dx dy n - toward dx dy h) = 0 := by linarith
    have z2 : orient h n p * (toward dx dy g - toward dx dy h) = 0 := by linarith
    rcases mul_eq_zero.mp z1 with a | a
    · rw [a, zero_mul, zero_add] at ix iy
      rcases l2.lt_or_eq with b | b
      · refine no g (edge_mem hg).1 (orient h n p / orient g h n) (div_pos b hpos) ?_ ?_ tg <;> field_simp <;> linarith
      · rw [← b, zero_mul] at ix iy
        exact np ⟨(mul_eq_zero.mp ix).resolve_left hpos.ne', (mul_eq_zero.mp iy).resolve_left hpos.ne'⟩
    · rcases mul_eq_zero.mp z2 with b | b
      · rw [b, zero_mul, add_zero] at ix iy
        rcases l1.lt_or_eq with c | c
        · refine no n (edge_mem hn').2 (orient g h p / orient g h n) (div_pos c hpos) ?_ ?_ tn <;> field_simp <;> linarith
        · rw [← c, zero_mul] at ix iy
          exact np ⟨(mul_eq_zero.mp ix).resolve_left hpos.ne', (mul_eq_zero.mp iy).resolve_left hpos.ne'⟩
      · -- both neighbours on the line: not a proper corner
        exfalso
        have zero : (dx ^ 2 + dy ^ 2) * orient g h n = 0 := by
          unfold toward at a b
          unfold orient
          linear_combination (dx * (g.Y - h.Y) - dy * (g.X - h.X)) * a - (dx * (n.Y - h.Y) - dy * (n.X - h.X)) * b
        rcases mul_eq_zero.mp zero with h | h <;> linarith
  · -- straight: `p` is on the line through the neighbours
    have e1 : toward dx dy g - toward dx dy h = -t * (toward dx dy n - toward dx dy h) := by
      have : toward dx dy g - toward dx dy h = dx * (g.X - h.X) + dy * (g.Y - h.Y) := by unfold toward; ring
      rw [this, tx, ty]; unfold toward; ring
    have z1 : toward dx dy n - toward dx dy h = 0 := by
      by_contra hc
      have : toward dx dy n - toward dx dy h < 0 := lt_of_le_of_ne fn hc
      have := mul_pos_of_neg_of_neg (neg_neg_of_pos t0) this
      linarith
    have zp : toward dx dy p - toward dx dy h = 0 := by rw [hhe, sub_self]
    unfold toward at z1 zp
    have cr : (n.X - h.X) * (p.Y - h.Y) - (n.Y - h.Y) * (p.X - h.X) = 0 := by
      have : (dx ^ 2 + dy ^ 2) * ((n.X - h.X) * (p.Y - h.Y) - (n.Y - h.Y) * (p.X - h.X)) = 0 := by
        linear_combination (dx * (p.Y - h.Y) - dy * (p.X - h.X)) * z1 - (dx * (n.Y - h.Y) - dy * (n.X - h.X)) * zp
      exact (mul_eq_zero.mp this).resolve_left s.ne'
    have hne : n.X - h.X ≠ 0 ∨ n.Y - h.Y ≠ 0 := by
      by_contra hc
      push Not at hc
      exact E2.ne (hd h E2.fst n E2.snd (by linarith [hc.1]) (by linarith [hc.2]))
    have ex : ∃ a, p.X - h.X = a * (n.X - h.X) ∧ p.Y - h.Y = a * (n.Y - h.Y) := by
      rcases hne with hx | hy
      · refine ⟨(p.X - h.X) / (n.X - h.X), by field_simp, ?_⟩
        field_simp
        linarith
      · refine ⟨(p.Y - h.Y) / (n.Y - h.Y), ?_, by field_simp⟩
        field_simp
        linarith
    obtain ⟨a, ax, ay⟩ := ex
    rcases lt_trichotomy a 0 with ha | ha | ha
    · refine no g (edge_mem hg).1 (-a / t) (div_pos (by linarith) t0) ?_ ?_ tg
      · rw [tx, ax]; field_simp
      · rw [ty, ay]; field_simp
    · rw [ha, zero_mul] at ax ay; exact np ⟨ax, ay⟩
    · exact no n (edge_mem hn').2 a ha ax ay tn

/-- the corners of the polygon `P` are the extreme points of `Vs`, and its region is the convex hull -/
structure ExtremePolygon (Vs P : List (R3.Vector K)) : Prop where
  /-- the region of the polygon is the convex hull of the points -/
  region : ∀ x, LeftOfAll P x ↔ InHull Vs x
  /-- the corners are the points that are farthest in some direction -/
  corners : ∀ p, p ∈ P ↔ p ∈ Vs ∧ ∃ dx dy, ¬ (dx = 0 ∧ dy = 0) ∧ ∀ q ∈ Vs, toward dx dy q ≤ toward dx dy p
  /-- in every direction some corner is as far as any point of the hull -/
  reach : ∀ dx dy, ∃ h ∈ P, ∀ x, InHull Vs x → toward dx dy x ≤ toward dx dy h
  /-- the points farthest from any position are corners -/
  farthest : ∀ x, ∀ p ∈ Vs, (∀ q ∈ Vs, sqd x q ≤ sqd x p) → p ∈ P
  /-- some corner is as far from the position as any point of the hull -/
  radius : ∀ x, ∃ h ∈ P, ∀ y, InHull Vs y → sqd x y ≤ sqd x h
  /-- the two points of a pair at the greatest distance are corners -/
  pair : ∀ p ∈ Vs, ∀ q ∈ Vs, (∀ p' ∈ Vs, ∀ q' ∈ Vs, sqd p' q' ≤ sqd p q) → p ∈ P ∧ q ∈ P
  /-- two corners are as far apart as any two points of the hull -/
  diameter : ∃ p ∈ P, ∃ q ∈ P, ∀ x y, InHull Vs x → InHull Vs y → sqd x y ≤ sqd p q

theorem region_hull {Vs P : List (R3.Vector K)} (B : BoundaryPolygon Vs P) (hn : NotCollinear Vs) (hd : PlanarDistinct Vs) (x : R3.Vector K) :
    LeftOfAll P x ↔ InHull Vs x := by
  constructor
  · intro hx u v huv
    obtain ⟨h, hh, hmax⟩ := far_corner B hn hd (v.Y - u.Y) (-(v.X - u.X))
    have h1 := hmax x hx
    have h2 := huv h (polygon_mem B hh)
    have e : ∀ w : R3.Vector K, orient u v w = toward (v.Y - u.Y) (-(v.X - u.X)) u - toward (v.Y - u.Y) (-(v.X - u.X)) w := by
      intro w; unfold orient toward; ring
    rw [e] at h2 ⊢
    linarith
  · exact fun hx e he => hx e.1 e.2 fun p hp => (B.edge e he).left p hp

theorem far_toward {x p q : R3.Vector K} (h : sqd x q ≤ sqd x p) : toward (p.X - x.X) (p.Y - x.Y) q ≤ toward (p.X - x.X) (p.Y - x.Y) p := by
  unfold sqd at h
  unfold toward
  nlinarith [sq_nonneg (p.X - q.X), sq_nonneg (p.Y - q.Y)]

theorem farthest_corner {Vs P : List (R3.Vector K)} (B : BoundaryPolygon Vs P) (hn : NotCollinear Vs) (hd : PlanarDistinct Vs) {x p : R3.Vector K} (hp : p ∈ Vs)
    (hmax : ∀ q ∈ Vs, sqd x q ≤ sqd x p) : p ∈ P := by
  refine extreme_corner B hn hd (dx := p.X - x.X) (dy := p.Y - x.Y) ?_ hp fun q hq => far_toward (hmax q hq)
  rintro ⟨zx, zy⟩
  have z : sqd x p = 0 := by
    unfold sqd
    rw [show x.X - p.X = 0 by linarith, show x.Y - p.Y = 0 by linarith]; ring
  have all : ∀ q ∈ Vs, q.X = x.X ∧ q.Y = x.Y := by
    intro q hq
    have := hmax q hq
    rw [z] at this
    unfold sqd at this
    have a := sq_nonneg (x.X - q.X)
    have b := sq_nonneg (x.Y - q.Y)
    have a0 : (x.X - q.X) ^ 2 = 0 := by linarith
    have b0 : (x.Y - q.Y) ^ 2 = 0 := by linarith
    have a0 := pow_eq_zero_iff two_ne_zero |>.mp a0
    have b0 := pow_eq_zero_iff two_ne_zero |>.mp b0
    exact ⟨by linarith, by linarith⟩
  obtain ⟨a, ha, b, hb, c, hc, h⟩ := hn
  apply h
  rw [(all a ha).1, (all a ha).2, (all b hb).1, (all b hb).2]
  ring

/-- the squared distance is convex: a corner is as far as any point of the hull -/
theorem radius_corner {Vs P : List (R3.Vector K)} (B : BoundaryPolygon Vs P) (hn : NotCollinear Vs) (hd : PlanarDistinct Vs) (x : R3.Vector K) :
    ∃ h ∈ P, ∀ y, InHull Vs y → sqd x y ≤ sqd x h := by
  obtain ⟨m, hm⟩ := List.exists_mem_of_ne_nil P B.ne
  obtain ⟨h, hh, hmax⟩ := Finset.exists_max_image P.toFinset (sqd x) ⟨m, List.mem_toFinset.mpr hm⟩
  simp only [List.mem_toFinset] at hh hmax
  refine ⟨h, hh, fun y hy => ?_⟩
  -- the corner farthest in the direction from `x` to `y` is at least as far as `y`
  obtain ⟨g, hg, gmax⟩ := far_corner B hn hd (y.X - x.X) (y.Y - x.Y)
  have h1 := gmax y ((region_hull B hn hd y).mpr hy)
  refine le_trans ?_ (hmax g hg)
  unfold toward at h1
  unfold sqd
  nlinarith [sq_nonneg (g.X - y.X), sq_nonneg (g.Y - y.Y)]

theorem extreme_polygon {Vs P : List (R3.Vector K)} (B : BoundaryPolygon Vs P) (hn : NotCollinear Vs) (hd : PlanarDistinct Vs) : ExtremePolygon Vs P where
  region := region_hull B hn hd
  corners p := by
    constructor
    · intro hp
      obtain ⟨n, he⟩ := edge_after hp
      have E := B.edge _ he
      refine ⟨polygon_mem B hp, n.Y - p.Y, -(n.X - p.X), ?_, fun q hq => ?_⟩
      · rintro ⟨zx, zy⟩
        exact E.ne (hd p E.fst n E.snd (by linarith) (by linarith))
      · have h1 : 0 ≤ orient p n q := E.left q hq
        have e : orient p n q = toward (n.Y - p.Y) (-(n.X - p.X)) p - toward (n.Y - p.Y) (-(n.X - p.X)) q := by unfold orient toward; ring
        linarith
    · rintro ⟨hp, dx, dy, hz, hmax⟩
      exact extreme_corner B hn hd hz hp hmax
  reach dx dy := by
    obtain ⟨h, hh, hmax⟩ := far_corner B hn hd dx dy
    exact ⟨h, hh, fun x hx => hmax x ((region_hull B hn hd x).mpr hx)⟩
  farthest x p hp hmax := farthest_corner B hn hd hp hmax
  radius := radius_corner B hn hd
  pair p hp q hq hmax := by
    refine ⟨farthest_corner B hn hd (x := q) hp fun r hr => ?_, farthest_corner B hn hd (x := p) hq fun r hr => hmax p hp r hr⟩
    have e : ∀ a b : R3.Vector K, sqd a b = sqd b a := fun a b => by unfold sqd; ring
    rw [e q r, e q p]
    exact hmax r hr q hq
  diameter := by
    have e : ∀ a b : R3.Vector K, sqd a b = sqd b a := fun a b => by unfold sqd; ring
    obtain ⟨m, hm⟩ := List.exists_mem_of_ne_nil P B.ne
    obtain ⟨⟨p, q⟩, hpq, hmax⟩ := Finset.exists_max_image (P.toFinset ×ˢ P.toFinset) (fun z => sqd z.1 z.2) ⟨(m, m), by simp [hm]⟩
    simp only [Finset.mem_product, List.mem_toFinset] at hpq hmax
    refine ⟨p, hpq.1, q, hpq.2, fun x y hx hy => ?_⟩
    obtain ⟨g, hg, h1⟩ := radius_corner B hn hd x
    obtain ⟨h, hh, h2⟩ := radius_corner B hn hd g
    have a := h1 y hy
    have b := h2 x hx
    rw [e g x] at b
    exact a.trans (b.trans (hmax (g, h) ⟨hg, hh⟩))

/-- C112: the polygon of `ConvexHull`, in exact arithmetic -/
theorem C112_hull (srt : List (R3.Vector K) → List (R3.Vector K)) (hsrt : SortsHull srt) (Vs : List (R3.Vector K)) (hsep : Separated Vs) (hn : NotCollinear Vs) :
    ExtremePolygon Vs (ConvexHull srt Vs) :=
  extreme_polygon (C73_convexHull srt hsrt Vs hsep hn) hn (separated_distinct hsep)

/-- C112: the polygon of `ConvexHull` in float64, for integers of size at most `2^24` -/
theorem C112_hull_float (srt : List (R3.Vector F64) → List (R3.Vector F64)) (Vs : List (R3.Vector F64)) (hs : SortsHullF srt Vs) (h : IntCoords Vs) (hf : Flat Vs)
    (hn : NotCollinear (Vs.map exactV)) : ExtremePolygon (Vs.map exactV) ((ConvexHull srt Vs).map exactV) :=
  extreme_polygon (C75_boundary srt Vs hs h hf hn) hn (separated_distinct (ints_separated h.ints hf))

/-- C112: the hull returned by `Triangulate`, in exact arithmetic -/
theorem C112_triangulate [FloorRing K] (srt : R3.Vector K → List ℤ → List ℤ) (hsrt : ∀ c l, (srt c l).Perm l) (hashSize : ℕ → ℕ) (fuel : ℕ) (Vs : List (R3.Vector K))
    (hp : Planar Vs) (hn : 2 ≤ Vs.length) (hash : 0 < hashSize Vs.length) (hf : 6 * Vs.length < fuel) {hull : List (R3.Vector K)} {ts hs : List ℤ}
    (h : Triangulate srt hashSize fuel Vs = .ok (.triangulation hull ts hs)) (hs' : Sorts srt Vs) (hsep : Separated Vs) : ExtremePolygon Vs hull := by
  obtain ⟨B, hN⟩ := C72_boundary srt hsrt hashSize fuel Vs hp hn hash hf h hs' hsep
  exact extreme_polygon B hN (separated_distinct hsep)

/-- C112: the hull returned by `Triangulate` in float64, for coordinates that are integers of size at most 512 times a power of two -/
theorem C112_float {e : ℤ} (he : -26 ≤ e ∧ e ≤ 80) (srt : R3.Vector F64 → List ℤ → List ℤ) (hsrt : ∀ c l, (srt c l).Perm l) (hashSize : ℕ → ℕ) (fuel : ℕ)
    (Vs : List (R3.Vector F64)) (hg : MidDyadic e Vs) (hn : 2 ≤ Vs.length) (hash : 0 < hashSize Vs.length ∧ hashSize Vs.length < 2 ^ 53) (hf : 6 * Vs.length < fuel)
    {hull : List (R3.Vector F64)} {ts hs : List ℤ} (h : Triangulate srt hashSize fuel Vs = .ok (.triangulation hull ts hs)) (hs' : SortsCall srt Vs) :
    ExtremePolygon (Vs.map exactV) (hull.map exactV) := by
  obtain ⟨B, -⟩ := C104_dyadic_hull he srt hsrt hashSize fuel Vs hg hn hash.1 hash.2 hf h hs'
  exact extreme_polygon B (dyadic_not_collinear he srt hashSize fuel Vs hg hn h) (separated_distinct (dyadic_separated he hg))

/-- a case: a square with the middle of a side and an inner point. The corners are the five points on the boundary, the inner point is not farthest in any direction,
and the diagonals are the pairs at the greatest distance. -/
example : Separated [(⟨0,0,0⟩ : R3.Vector ℚ), ⟨2,0,0⟩, ⟨4,0,0⟩, ⟨4,4,0⟩, ⟨0,4,0⟩, ⟨1,2,0⟩] ∧
    NotCollinear [(⟨0,0,0⟩ : R3.Vector ℚ), ⟨2,0,0⟩, ⟨4,0,0⟩, ⟨4,4,0⟩, ⟨0,4,0⟩, ⟨1,2,0⟩] ∧
    (∀ q ∈ [(⟨0,0,0⟩ : R3.Vector ℚ), ⟨2,0,0⟩, ⟨4,0,0⟩, ⟨4,4,0⟩, ⟨0,4,0⟩, ⟨1,2,0⟩], toward 0 (-1) q ≤ toward 0 (-1) ⟨2,0,0⟩) ∧
    (∀ p ∈ [(⟨0,0,0⟩ : R3.Vector ℚ), ⟨2,0,0⟩, ⟨4,0,0⟩, ⟨4,4,0⟩, ⟨0,4,0⟩, ⟨1,2,0⟩], ∀ q ∈ [(⟨0,0,0⟩ : R3.Vector ℚ), ⟨2,0,0⟩, ⟨4,0,0⟩, ⟨4,4,0⟩, ⟨0,4,0⟩, ⟨1,2,0⟩],
      sqd p q ≤ sqd ⟨0,0,0⟩ (⟨4,4,0⟩ : R3.Vector ℚ)) := by
  refine ⟨?_, ?_, ?_, ?_⟩
  · unfold Separated; decide +kernel
  · unfold NotCollinear; decide +kernel
  · unfold toward; decide +kernel
  · unfold sqd; decide +kernel

/-- the five points of `wideSquare` (`HullFloat`) meet the hypotheses in float64 -/
example : ExtremePolygon (wideSquare.map exactV) ((ConvexHull (fun l => l) wideSquare).map exactV) :=
  C112_hull_float _ _ ⟨List.Perm.refl _, by decide +kernel⟩ wideSquare_int (by decide +kernel)
    ⟨⟨-16777216, -16777216, 0⟩, by decide +kernel, ⟨-16777216, 16777216, 0⟩, by decide +kernel, ⟨0, -16777216, 0⟩, by decide +kernel, by decide +kernel⟩

end Verif.Props
