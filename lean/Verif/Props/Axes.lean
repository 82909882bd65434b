import Verif.Props.DelaunayUnique
import Verif.Props.HullFloat
import Verif.Props.BowyerWatson
/-!
# C101: the direction of the axes

What happens to the triangulator and the hull when all points are turned, mirrored, moved and scaled together. The two calls do different things: the box of the
points, the seeds, the order of insertion and the hash keys all depend on the axes.
-/
set_option linter.unusedSectionVars false

namespace Verif.Props
open Verif Verif.Tri2 Verif.Proofs Verif.R3 Verif.Spec

variable {K : Type} [Field K] [LinearOrder K] [IsStrictOrderedRing K]

/-- turning and scaling by the complex number `a + b i`, then moving by `(t1, t2)`; the third coordinate is kept -/
def turn (a b t1 t2 : K) (v : R3.Vector K) : R3.Vector K := ⟨a * v.X - b * v.Y + t1, b * v.X + a * v.Y + t2, v.Z⟩

/-- the mirror image at the first axis -/
def mirror (v : R3.Vector K) : R3.Vector K := ⟨v.X, -v.Y, v.Z⟩

/-- the triangles with the opposite winding -/
def mirrorTs : List ℤ → List ℤ
  | a :: b :: c :: l => a :: c :: b :: mirrorTs l
  | l => l

/-! ## Maps of the plane that keep or reverse orientation -/

/-- what the proofs need: `f` is onto and one to one, multiplies orientations by `m` and squared distances by `k`, and keeps segments -/
structure Alike (f : R3.Vector K → R3.Vector K) (m k : K) : Prop where
  onto : ∀ x, ∃ y, f y = x
  inj : Function.Injective f
  orient : ∀ p q r, orient (f p) (f q) (f r) = m * orient p q r
  sqd : ∀ p q, sqd (f p) (f q) = k * sqd p q
  pos : 0 < k
  between : ∀ p q r, Between (f p) (f q) (f r) → Between p q r

theorem turn_alike {a b : K} (h : a ≠ 0 ∨ b ≠ 0) (t1 t2 : K) : Alike (turn a b t1 t2) (a ^ 2 + b ^ 2) (a ^ 2 + b ^ 2) := by
  have hk : 0 < a ^ 2 + b ^ 2 := by
    rcases h with h | h <;> positivity
  have inv : ∀ p : R3.Vector K, p.X = (a * ((turn a b t1 t2 p).X - t1) + b * ((turn a b t1 t2 p).Y - t2)) / (a ^ 2 + b ^ 2) ∧
      p.Y = (a * ((turn a b t1 t2 p).Y - t2) - b * ((turn a b t1 t2 p).X - t1)) / (a ^ 2 + b ^ 2) := by
    intro p
    rw [eq_div_iff hk.ne', eq_div_iff hk.ne']
    simp only [turn]; constructor <;> ring
  refine ⟨fun x => ⟨⟨(a * (x.X - t1) + b * (x.Y - t2)) / (a ^ 2 + b ^ 2), (a * (x.Y - t2) - b * (x.X - t1)) / (a ^ 2 + b ^ 2), x.Z⟩, ?_⟩, ?_, ?_, ?_, hk, ?_⟩
  · obtain ⟨x, y, z⟩ := x
    simp only [turn, R3.Vector.mk.injEq, and_true]
    constructor <;> (field_simp; ring)
  · intro p q e
    obtain ⟨p1, p2⟩ := inv p
    obtain ⟨q1, q2⟩ := inv q
    rw [e, ← q1] at p1
    rw [e, ← q2] at p2
    have p3 : p.Z = q.Z := (congrArg R3.Vector.Z e : _)
    cases p; cases q
    subst p1 p2 p3; rfl
  · intro p q r; simp only [Spec.orient, turn]; ring
  · intro p q; simp only [Spec.sqd, turn]; ring
  · rintro p q r ⟨t, h0, h1, hx, hy⟩
    refine ⟨t, h0, h1, ?_, ?_⟩
    · rw [(inv r).1, (inv p).1, (inv q).1, hx, hy]; field_simp; ring
    · rw [(inv r).2, (inv p).2, (inv q).2, hx, hy]; field_simp; ring

theorem mirror_alike : Alike (mirror : R3.Vector K → R3.Vector K) (-1) 1 := by
  refine ⟨fun x => ⟨mirror x, by simp [mirror]⟩, ?_, ?_, ?_, one_pos, ?_⟩
  · intro p q e; cases p; cases q; simpa [mirror] using e
  · intro p q r; simp only [Spec.orient, mirror]; ring
  · intro p q; simp only [Spec.sqd, mirror]; ring
  · rintro p q r ⟨t, h0, h1, hx, hy⟩
    refine ⟨t, h0, h1, hx, ?_⟩
    simp only [mirror] at hy; linarith

/-! ## The winding -/

theorem mirrorTs_get : ∀ (ts : List ℤ) (k : ℕ), 3 * k + 2 < ts.length →
    (mirrorTs ts)[3 * k]? = ts[3 * k]? ∧ (mirrorTs ts)[3 * k + 1]? = ts[3 * k + 2]? ∧ (mirrorTs ts)[3 * k + 2]? = ts[3 * k + 1]?
  | a :: b :: c :: l, 0, _ => by simp [mirrorTs]
  | a :: b :: c :: l, k + 1, h => by
    have := mirrorTs_get l k (by simp at h; omega)
    simp only [mirrorTs, show 3 * (k + 1) = 3 * k + 3 by ring, show 3 * k + 3 + 1 = 3 * k + 1 + 3 by ring, show 3 * k + 3 + 2 = 3 * k + 2 + 3 by ring,
      List.getElem?_cons_succ]
    exact this
  | [], _, h => by simp at h
  | [_], _, h => by simp at h
  | [_, _], _, h => by simp at h

theorem mirrorTs_perm : ∀ ts : List ℤ, (mirrorTs ts).Perm ts
  | a :: b :: c :: l => by
    simp only [mirrorTs]
    exact ((List.Perm.swap b c _).trans (((mirrorTs_perm l).cons c).cons b)).cons a
  | [] => by simp [mirrorTs]
  | [_] => by simp [mirrorTs]
  | [_, _] => by simp [mirrorTs]

omit [Field K] [LinearOrder K] [IsStrictOrderedRing K] in
theorem corners_mirror {Vs : List (R3.Vector K)} {ts : List ℤ} {k : ℕ} {a b c : R3.Vector K} :
    Corners Vs (mirrorTs ts) k a b c ↔ Corners Vs ts k a c b := by
  constructor
  · rintro ⟨i, j, l, h1, h2, h3, e1, e2, e3⟩
    have hk : 3 * k + 2 < ts.length := by
      rw [← (mirrorTs_perm ts).length_eq]; exact (List.getElem?_eq_some_iff.mp h3).1
    obtain ⟨g1, g2, g3⟩ := mirrorTs_get ts k hk
    exact ⟨i, l, j, g1 ▸ h1, g3 ▸ h3, g2 ▸ h2, e1, e3, e2⟩
  · rintro ⟨i, j, l, h1, h2, h3, e1, e2, e3⟩
    have hk : 3 * k + 2 < ts.length := (List.getElem?_eq_some_iff.mp h3).1
    obtain ⟨g1, g2, g3⟩ := mirrorTs_get ts k hk
    exact ⟨i, l, j, g1.trans h1, g2.trans h3, g3.trans h2, e1, e3, e2⟩

omit [Field K] [LinearOrder K] [IsStrictOrderedRing K] in
theorem vertex_mirror {Vs : List (R3.Vector K)} {ts : List ℤ} {v : R3.Vector K} : IsVertex Vs (mirrorTs ts) v ↔ IsVertex Vs ts v := by
  unfold IsVertex
  simp only [(mirrorTs_perm ts).mem_iff]

/-! ## Results are carried along -/

section carry
variable {f : R3.Vector K → R3.Vector K} {m k : K} {Vs hull : List (R3.Vector K)} {ts : List ℤ}

omit [Field K] [LinearOrder K] [IsStrictOrderedRing K] in
theorem corners_map {n : ℕ} {a b c : R3.Vector K} : Corners (Vs.map f) ts n a b c ↔ ∃ p q r, Corners Vs ts n p q r ∧ f p = a ∧ f q = b ∧ f r = c := by
  constructor
  · rintro ⟨i, j, l, h1, h2, h3, e1, e2, e3⟩
    rw [List.getElem?_map, Option.map_eq_some_iff] at e1 e2 e3
    obtain ⟨p, e1, rfl⟩ := e1
    obtain ⟨q, e2, rfl⟩ := e2
    obtain ⟨r, e3, rfl⟩ := e3
    exact ⟨p, q, r, ⟨i, j, l, h1, h2, h3, e1, e2, e3⟩, rfl, rfl, rfl⟩
  · rintro ⟨p, q, r, ⟨i, j, l, h1, h2, h3, e1, e2, e3⟩, rfl, rfl, rfl⟩
    exact ⟨i, j, l, h1, h2, h3, by simp [e1], by simp [e2], by simp [e3]⟩

omit [Field K] [LinearOrder K] [IsStrictOrderedRing K] in
theorem vertex_map {v : R3.Vector K} : IsVertex (Vs.map f) ts v ↔ ∃ w, IsVertex Vs ts w ∧ f w = v := by
  constructor
  · rintro ⟨i, hi, e⟩
    rw [List.getElem?_map, Option.map_eq_some_iff] at e
    obtain ⟨w, e, rfl⟩ := e
    exact ⟨w, ⟨i, hi, e⟩, rfl⟩
  · rintro ⟨w, ⟨i, hi, e⟩, rfl⟩
    exact ⟨i, hi, by simp [e]⟩

theorem hullEdge_map {p q : R3.Vector K} : HullEdge (hull.map f) p q ↔ ∃ a b, HullEdge hull a b ∧ f a = p ∧ f b = q := by
  constructor
  · rintro ⟨i, h1, h2⟩
    rw [List.length_map] at h2
    rw [List.getElem?_map, Option.map_eq_some_iff] at h1 h2
    obtain ⟨a, h1, rfl⟩ := h1
    obtain ⟨b, h2, rfl⟩ := h2
    exact ⟨a, b, ⟨i, h1, h2⟩, rfl, rfl⟩
  · rintro ⟨a, b, ⟨i, h1, h2⟩, rfl, rfl⟩
    exact ⟨i, by simp [h1], by simp [h2]⟩

theorem mem_edges_reverse {α : Type} {l : List α} {p q : α} : (p, q) ∈ edges l.reverse ↔ (q, p) ∈ edges l := by
  rw [(edges_reverse l).mem_iff, List.mem_map]
  constructor
  · rintro ⟨⟨a, b⟩, h, e⟩
    obtain ⟨rfl, rfl⟩ := Prod.mk.inj e
    exact h
  · intro h; exact ⟨_, h, rfl⟩

theorem hullEdge_reverse {p q : R3.Vector K} : HullEdge hull.reverse p q ↔ HullEdge hull q p := by
  rw [← mem_edges, ← mem_edges, mem_edges_reverse]

omit [Field K] [LinearOrder K] [IsStrictOrderedRing K] in
theorem has_map (hf : Function.Injective f) {p q r : R3.Vector K} : HasTriangle Vs ts p q r ↔ HasTriangle (Vs.map f) ts (f p) (f q) (f r) := by
  have e : ∀ {n : ℕ} {p q r : R3.Vector K}, Corners Vs ts n p q r ↔ Corners (Vs.map f) ts n (f p) (f q) (f r) := by
    intro n p q r
    rw [corners_map]
    constructor
    · intro h; exact ⟨p, q, r, h, rfl, rfl, rfl⟩
    · rintro ⟨p', q', r', h, e1, e2, e3⟩
      rwa [← hf e1, ← hf e2, ← hf e3]
  unfold HasTriangle
  simp only [e]

theorem has_mirror {p q r : R3.Vector K} : HasTriangle Vs ts p q r ↔ HasTriangle (Vs.map mirror) (mirrorTs ts) (mirror p) (mirror r) (mirror q) := by
  rw [has_map (mirror_alike (K := K)).inj]
  unfold HasTriangle
  simp only [corners_mirror]
  refine exists_congr fun n => ?_
  tauto

/-- the polygon and the triangles belonging to the image: reversed when `f` reverses orientation -/
theorem result_map (A : Alike f m k) (hm : 0 < m) (h : DelaunayResult Vs hull ts) : DelaunayResult (Vs.map f) (hull.map f) ts := by
  have o : ∀ p q r, Spec.orient (f p) (f q) (f r) < 0 ↔ Spec.orient p q r < 0 := fun p q r => by
    rw [A.orient]; exact ⟨fun h => by_contra fun h' => absurd h (not_lt.mpr (mul_nonneg hm.le (not_lt.mp h'))), fun h => mul_neg_of_pos_of_neg hm h⟩
  have o' : ∀ p q r, 0 ≤ Spec.orient (f p) (f q) (f r) ↔ 0 ≤ Spec.orient p q r := fun p q r => by
    rw [← not_lt, ← not_lt, o]
  have o2 : ∀ p q r, Spec.orient (f p) (f q) (f r) ≤ 0 ↔ Spec.orient p q r ≤ 0 := fun p q r => by
    rw [A.orient]; exact ⟨fun h => by_contra fun h' => absurd h (not_le.mpr (mul_pos hm (not_le.mp h'))), fun h => mul_nonpos_of_nonneg_of_nonpos hm.le h⟩
  refine ⟨⟨?_, ?_, ?_⟩, ?_, ?_, ?_, ?_⟩
  · intro n hn
    obtain ⟨a, b, c, hc⟩ := h.delaunay.corners n hn
    exact ⟨f a, f b, f c, corners_map.mpr ⟨a, b, c, hc, rfl, rfl, rfl⟩⟩
  · intro n a b c hc
    replace hc := corners_map.mp hc
    obtain ⟨p, q, r, hc, rfl, rfl, rfl⟩ := hc
    exact (o _ _ _).mpr (h.delaunay.clockwise n p q r hc)
  · intro n a b c hc
    replace hc := corners_map.mp hc
    obtain ⟨p, q, r, hc, rfl, rfl, rfl⟩ := hc
    obtain ⟨w, h1, h2, h3⟩ := h.delaunay.empty n p q r hc
    refine ⟨f w, by rw [A.sqd, A.sqd, h1], by rw [A.sqd, A.sqd, h2], ?_⟩
    intro v hv
    replace hv := vertex_map.mp hv
    obtain ⟨v, hv, rfl⟩ := hv
    rw [A.sqd, A.sqd]
    exact mul_le_mul_of_nonneg_left (h3 v hv) A.pos.le
  · intro v hv p q hpq
    replace hv := vertex_map.mp hv
    obtain ⟨v, hv, rfl⟩ := hv
    obtain ⟨a, b, hab, rfl, rfl⟩ := hullEdge_map.mp hpq
    exact (o' _ _ _).mpr (h.convex v hv a b hab)
  · intro x hx
    obtain ⟨x, rfl⟩ := A.onto x
    obtain ⟨n, a, b, c, hc, t1, t2, t3⟩ := h.fills x (fun p q hpq => (o' _ _ _).mp (hx _ _ (hullEdge_map.mpr ⟨p, q, hpq, rfl, rfl⟩)))
    exact ⟨n, f a, f b, f c, corners_map.mpr ⟨a, b, c, hc, rfl, rfl, rfl⟩, (o2 _ _ _).mpr t1, (o2 _ _ _).mpr t2, (o2 _ _ _).mpr t3⟩
  · intro x j n a b c a' b' c' h1 h2 h3 h4
    obtain ⟨x, rfl⟩ := A.onto x
    replace h1 := corners_map.mp h1
    obtain ⟨p, q, r, h1, rfl, rfl, rfl⟩ := h1
    replace h2 := corners_map.mp h2
    obtain ⟨p', q', r', h2, rfl, rfl, rfl⟩ := h2
    simp only [o] at h3 h4
    exact h.disjoint x h1 h2 h3 h4
  · intro p hp
    replace hp := List.mem_map.mp hp
    obtain ⟨p, hp, rfl⟩ := hp
    exact vertex_map.mpr ⟨p, h.cover p hp, rfl⟩

theorem result_mirror (h : DelaunayResult Vs hull ts) : DelaunayResult (Vs.map mirror) (hull.map mirror).reverse (mirrorTs ts) := by
  have A := mirror_alike (K := K)
  have s : ∀ p q r : R3.Vector K, Spec.orient p q r = - Spec.orient q p r := fun p q r => by simp only [Spec.orient]; ring
  have e : ∀ p q r : R3.Vector K, Spec.orient (mirror p) (mirror q) (mirror r) = Spec.orient q p r := fun p q r => by rw [A.orient, s]; ring
  refine ⟨⟨?_, ?_, ?_⟩, ?_, ?_, ?_, ?_⟩
  · intro n hn
    rw [(mirrorTs_perm ts).length_eq] at hn
    obtain ⟨a, b, c, hc⟩ := h.delaunay.corners n hn
    exact ⟨_, _, _, corners_mirror.mpr (corners_map.mpr ⟨a, b, c, hc, rfl, rfl, rfl⟩)⟩
  · intro n a b c hc
    replace hc := corners_map.mp (corners_mirror.mp hc)
    obtain ⟨p, q, r, hc, rfl, rfl, rfl⟩ := hc
    rw [e, show Spec.orient r p q = Spec.orient p q r from by simp only [Spec.orient]; ring]
    exact h.delaunay.clockwise n p q r hc
  · intro n a b c hc
    replace hc := corners_map.mp (corners_mirror.mp hc)
    obtain ⟨p, q, r, hc, rfl, rfl, rfl⟩ := hc
    obtain ⟨w, h1, h2, h3⟩ := h.delaunay.empty n p q r hc
    refine ⟨mirror w, by rw [A.sqd, A.sqd, h2], by rw [A.sqd, A.sqd, h1], ?_⟩
    intro v hv
    replace hv := vertex_map.mp (vertex_mirror.mp hv)
    obtain ⟨v, hv, rfl⟩ := hv
    rw [A.sqd, A.sqd]
    exact mul_le_mul_of_nonneg_left (h3 v hv) A.pos.le
  · intro v hv p q hpq
    replace hv := vertex_map.mp (vertex_mirror.mp hv)
    obtain ⟨v, hv, rfl⟩ := hv
    obtain ⟨a, b, hab, rfl, rfl⟩ := hullEdge_map.mp (hullEdge_reverse.mp hpq)
    rw [e]
    exact h.convex v hv a b hab
  · intro x hx
    obtain ⟨x, rfl⟩ := A.onto x
    obtain ⟨n, a, b, c, hc, t1, t2, t3⟩ := h.fills x (fun p q hpq => by
      have := hx _ _ (hullEdge_reverse.mpr (hullEdge_map.mpr ⟨p, q, hpq, rfl, rfl⟩))
      rwa [e] at this)
    refine ⟨n, _, _, _, corners_mirror.mpr (corners_map.mpr ⟨a, b, c, hc, rfl, rfl, rfl⟩), ?_, ?_, ?_⟩ <;> rw [e] <;> assumption
  · intro x j n a b c a' b' c' h1 h2 h3 h4
    obtain ⟨x, rfl⟩ := A.onto x
    replace h1 := corners_map.mp (corners_mirror.mp h1)
    obtain ⟨p, q, r, h1, rfl, rfl, rfl⟩ := h1
    replace h2 := corners_map.mp (corners_mirror.mp h2)
    obtain ⟨p', q', r', h2, rfl, rfl, rfl⟩ := h2
    simp only [e] at h3 h4
    exact h.disjoint x h1 h2 ⟨h3.2.2, h3.2.1, h3.1⟩ ⟨h4.2.2, h4.2.1, h4.1⟩
  · intro p hp
    replace hp := List.mem_map.mp hp
    obtain ⟨p, hp, rfl⟩ := hp
    exact vertex_mirror.mpr (vertex_map.mpr ⟨p, h.cover p hp, rfl⟩)

theorem boundary_map (A : Alike f m k) (hm : 0 < m) {P : List (R3.Vector K)} (h : BoundaryPolygon Vs P) : BoundaryPolygon (Vs.map f) (P.map f) := by
  refine ⟨h.nodup.map A.inj, by simpa using h.ne, ?_⟩
  rintro ⟨x, y⟩ he
  obtain ⟨a, b, hab, rfl, rfl⟩ := hullEdge_map.mp (mem_edges.mp he)
  obtain ⟨h1, h2, h3, h4, h5⟩ := h.edge _ (mem_edges.mpr hab)
  refine ⟨List.mem_map_of_mem h1, List.mem_map_of_mem h2, fun e => h3 (A.inj e), ?_, ?_⟩
  · intro q hq
    replace hq := List.mem_map.mp hq
    obtain ⟨q, hq, rfl⟩ := hq
    have := A.orient a b q
    simp only [Spec.orient] at this
    unfold OnLeft
    simp only [this]
    exact mul_nonneg hm.le (h4 q hq)
  · intro q hq hb
    replace hq := List.mem_map.mp hq
    obtain ⟨q, hq, rfl⟩ := hq
    exact h5 q hq (A.between _ _ _ hb)

theorem boundary_mirror {P : List (R3.Vector K)} (h : BoundaryPolygon Vs P) : BoundaryPolygon (Vs.map mirror) (P.map mirror).reverse := by
  have A := mirror_alike (K := K)
  refine ⟨List.nodup_reverse.mpr (h.nodup.map A.inj), by simpa using h.ne, ?_⟩
  rintro ⟨x, y⟩ he
  obtain ⟨b, a, hab, rfl, rfl⟩ := hullEdge_map.mp (hullEdge_reverse.mp (mem_edges.mp he))
  obtain ⟨h1, h2, h3, h4, h5⟩ := h.edge _ (mem_edges.mpr hab)
  refine ⟨List.mem_map_of_mem h2, List.mem_map_of_mem h1, fun e => h3 (A.inj e).symm, ?_, ?_⟩
  · intro q hq
    replace hq := List.mem_map.mp hq
    obtain ⟨q, hq, rfl⟩ := hq
    have := h4 q hq
    simp only [OnLeft, mirror] at this ⊢
    linarith
  · intro q hq hb
    replace hq := List.mem_map.mp hq
    obtain ⟨q, hq, rfl⟩ := hq
    exact h5 q hq (between_symm (A.between _ _ _ hb))

theorem noFour_map (A : Alike f m k) (h : NoFourOnEmptyCircle (· ∈ Vs)) : NoFourOnEmptyCircle (· ∈ Vs.map f) := by
  intro o a b c d ha hb hc hd ab ac ad bc bd cd em he
  obtain ⟨o, rfl⟩ := A.onto o
  replace ha := List.mem_map.mp ha
  obtain ⟨a, ha, rfl⟩ := ha
  replace hb := List.mem_map.mp hb
  obtain ⟨b, hb, rfl⟩ := hb
  replace hc := List.mem_map.mp hc
  obtain ⟨c, hc, rfl⟩ := hc
  replace hd := List.mem_map.mp hd
  obtain ⟨d, hd, rfl⟩ := hd
  simp only [A.sqd, mul_right_inj' A.pos.ne'] at he
  refine h o a b c d ha hb hc hd (fun e => ab (e ▸ rfl)) (fun e => ac (e ▸ rfl)) (fun e => ad (e ▸ rfl)) (fun e => bc (e ▸ rfl)) (fun e => bd (e ▸ rfl))
    (fun e => cd (e ▸ rfl)) (fun v hv => ?_) he
  have := em _ (List.mem_map_of_mem hv)
  rw [A.sqd, A.sqd] at this
  exact le_of_mul_le_mul_left this A.pos

end carry

/-! ## Exact arithmetic -/

omit [LinearOrder K] [IsStrictOrderedRing K] in
theorem mem_image {f : R3.Vector K → R3.Vector K} {Vs Vs' : List (R3.Vector K)} (h : ∀ p, p ∈ Vs' ↔ ∃ q ∈ Vs, f q = p) : ∀ p, p ∈ Vs.map f ↔ p ∈ Vs' := by
  intro p; rw [h, List.mem_map]

/-- the image of separated points under a motion that does not shrink is separated -/
theorem separated_turn {a b t1 t2 : K} (h : 1 ≤ a ^ 2 + b ^ 2) {Vs : List (R3.Vector K)} (hs : Separated Vs) : Separated (Vs.map (turn a b t1 t2)) := by
  have h0 : a ≠ 0 ∨ b ≠ 0 := by
    by_contra hc; push Not at hc; rw [hc.1, hc.2] at h; norm_num at h
  have A := turn_alike h0 t1 t2
  intro p hp q hq
  replace hp := List.mem_map.mp hp
  replace hq := List.mem_map.mp hq
  obtain ⟨p, hp, rfl⟩ := hp
  obtain ⟨q, hq, rfl⟩ := hq
  rcases hs p hp q hq with rfl | ⟨h1, h2⟩
  · exact Or.inl rfl
  · refine Or.inr ⟨fun hc => h1 ?_, fun hc => h2 ?_⟩
    · have := A.sqd p q
      simp only [Spec.sqd, hc.1, hc.2] at this
      have e : (p.X - q.X) ^ 2 + (p.Y - q.Y) ^ 2 = 0 := by
        rcases mul_eq_zero.mp (by rw [← this]; ring : (a ^ 2 + b ^ 2) * ((p.X - q.X) ^ 2 + (p.Y - q.Y) ^ 2) = 0) with h | h
        · exact absurd h A.pos.ne'
        · exact h
      have e1 := (add_eq_zero_iff_of_nonneg (sq_nonneg _) (sq_nonneg _)).mp e
      exact ⟨sub_eq_zero.mp (pow_eq_zero_iff (two_ne_zero)|>.mp e1.1), sub_eq_zero.mp (pow_eq_zero_iff (two_ne_zero)|>.mp e1.2)⟩
    · have := A.sqd p q
      have hn : 0 ≤ Spec.sqd p q := by unfold Spec.sqd; positivity
      simp only [Near, Spec.sqd] at *
      simp only [turn] at *
      nlinarith

theorem notCollinear_image {f : R3.Vector K → R3.Vector K} {m k : K} (A : Alike f m k) (hm : m ≠ 0) {Vs Vs' : List (R3.Vector K)}
    (hsame : ∀ p, p ∈ Vs' ↔ ∃ q ∈ Vs, f q = p) (h : NotCollinear Vs) : NotCollinear Vs' := by
  obtain ⟨p, hp, q, hq, r, hr, hne⟩ := h
  refine ⟨f p, (hsame _).mpr ⟨p, hp, rfl⟩, f q, (hsame _).mpr ⟨q, hq, rfl⟩, f r, (hsame _).mpr ⟨r, hr, rfl⟩, ?_⟩
  have := A.orient p q r
  simp only [Spec.orient] at this
  rw [this]
  exact mul_ne_zero hm hne

section exact
variable [FloorRing K] (srt srt' : R3.Vector K → List ℤ → List ℤ) (hsrt : ∀ c l, (srt c l).Perm l) (hsrt' : ∀ c l, (srt' c l).Perm l)
  (hashSize hashSize' : ℕ → ℕ) (fuel fuel' : ℕ) (Vs Vs' : List (R3.Vector K)) (hp : Planar Vs) (hn : 2 ≤ Vs.length) (hn' : 2 ≤ Vs'.length)
  (hash : 0 < hashSize Vs.length) (hash' : 0 < hashSize' Vs'.length) (hf : 6 * Vs.length < fuel) (hf' : 6 * Vs'.length < fuel')
  {a b : K} (hab : a ≠ 0 ∨ b ≠ 0) (t1 t2 : K)
include hsrt hsrt' hp hn hn' hash hash' hf hf' hab

omit hsrt hsrt' hn hn' hash hash' hf hf' hab in
theorem planar_image {f : R3.Vector K → R3.Vector K} (hz : ∀ v, (f v).Z = v.Z) (hsame : ∀ p, p ∈ Vs' ↔ ∃ q ∈ Vs, f q = p) : Planar Vs' := by
  obtain ⟨z, h⟩ := hp
  refine ⟨z, fun v hv => ?_⟩
  obtain ⟨q, hq, rfl⟩ := (hsame v).mp hv
  rw [hz, h q hq]

omit hab in
theorem error_alike {f : R3.Vector K → R3.Vector K} {m k : K} (A : Alike f m k) (hm : m ≠ 0) (hz : ∀ v, (f v).Z = v.Z)
    (hsame : ∀ p, p ∈ Vs' ↔ ∃ q ∈ Vs, f q = p) :
    Triangulate srt hashSize fuel Vs = .ok .noTriangulation ↔ Triangulate srt' hashSize' fuel' Vs' = .ok .noTriangulation := by
  have hp' := planar_image Vs Vs' hp hz hsame
  have e : ∀ p q r : R3.Vector K, Tri2.area p q r = 0 ↔ Tri2.area (f p) (f q) (f r) = 0 := by
    intro p q r
    have h1 : ∀ p q r : R3.Vector K, Tri2.area p q r = - Spec.orient p q r := by intro p q r; simp only [Tri2.area, Spec.orient]; ring
    rw [h1, h1, A.orient, neg_eq_zero, neg_eq_zero, mul_eq_zero]
    simp [hm]
  have hc : Proofs.Collinear Vs ↔ Proofs.Collinear Vs' := by
    unfold Proofs.Collinear
    constructor
    · intro h x hx y hy z hz
      obtain ⟨x, hx, rfl⟩ := (hsame _).mp hx
      obtain ⟨y, hy, rfl⟩ := (hsame _).mp hy
      obtain ⟨z, hz, rfl⟩ := (hsame _).mp hz
      exact (e _ _ _).mp (h _ ‹_› _ ‹_› _ ‹_›)
    · intro h x hx y hy z hz
      exact (e _ _ _).mpr (h _ ((hsame _).mpr ⟨x, hx, rfl⟩) _ ((hsame _).mpr ⟨y, hy, rfl⟩) _ ((hsame _).mpr ⟨z, hz, rfl⟩))
  rcases C23_planar srt hsrt hashSize fuel Vs hp hn hash hf with ⟨h1, e1⟩ | ⟨h1, _, _, _, e1, _⟩ <;>
    rcases C23_planar srt' hsrt' hashSize' fuel' Vs' hp' hn' hash' hf' with ⟨h2, e2⟩ | ⟨h2, _, _, _, e2, _⟩
  · simp [e1, e2]
  · exact absurd (hc.mp h1) h2
  · exact absurd (hc.mpr h2) h1
  · simp [e1, e2]

/-- C101: whether there is a triangulation does not depend on the direction of the axes -/
theorem C101_error (hsame : (∀ p, p ∈ Vs' ↔ ∃ q ∈ Vs, turn a b t1 t2 q = p) ∨ ∀ p, p ∈ Vs' ↔ ∃ q ∈ Vs, turn a b t1 t2 (mirror q) = p) :
    Triangulate srt hashSize fuel Vs = .ok .noTriangulation ↔ Triangulate srt' hashSize' fuel' Vs' = .ok .noTriangulation := by
  have A := turn_alike hab t1 t2
  have B := mirror_alike (K := K)
  rcases hsame with hsame | hsame
  · exact error_alike srt srt' hsrt hsrt' hashSize hashSize' fuel fuel' Vs Vs' hp hn hn' hash hash' hf hf' A A.pos.ne' (fun _ => rfl) hsame
  · have C : Alike (fun v => turn a b t1 t2 (mirror v)) ((a ^ 2 + b ^ 2) * -1) ((a ^ 2 + b ^ 2) * 1) := by
      refine ⟨fun x => ?_, A.inj.comp B.inj, fun p q r => by rw [A.orient, B.orient, mul_assoc], fun p q => by rw [A.sqd, B.sqd, mul_assoc],
        mul_pos A.pos B.pos, fun p q r h => B.between _ _ _ (A.between _ _ _ h)⟩
      obtain ⟨y, rfl⟩ := A.onto x
      obtain ⟨z, rfl⟩ := B.onto y
      exact ⟨z, rfl⟩
    exact error_alike srt srt' hsrt hsrt' hashSize hashSize' fuel fuel' Vs Vs' hp hn hn' hash hash' hf hf' C (mul_ne_zero A.pos.ne' (by norm_num))
      (fun _ => rfl) hsame

variable {hull hull' : List (R3.Vector K)} {ts hs ts' hs' : List ℤ} (h : Triangulate srt hashSize fuel Vs = .ok (.triangulation hull ts hs))
  (h' : Triangulate srt' hashSize' fuel' Vs' = .ok (.triangulation hull' ts' hs')) (hS : Sorts srt Vs) (hS' : Sorts srt' Vs') (hsep : Separated Vs)
  (hsep' : Separated Vs')
include h h' hS hS' hsep hsep'

/-- C101: turning, scaling and moving all points turns, scales and moves the hull, and also the triangles if no four points are on an empty circle -/
theorem C101_turn (hsame : ∀ p, p ∈ Vs' ↔ ∃ q ∈ Vs, turn a b t1 t2 q = p) :
    (hull.map (turn a b t1 t2)).IsRotated hull' ∧ (NoFourOnEmptyCircle (· ∈ Vs) → ts.length = ts'.length ∧
      ∀ p q r, HasTriangle Vs ts p q r ↔ HasTriangle Vs' ts' (turn a b t1 t2 p) (turn a b t1 t2 q) (turn a b t1 t2 r)) := by
  have A := turn_alike hab t1 t2
  have hp' := planar_image Vs Vs' hp (f := turn a b t1 t2) (fun _ => rfl) hsame
  have m := mem_image hsame
  constructor
  · obtain ⟨b1, _⟩ := C72_boundary srt hsrt hashSize fuel Vs hp hn hash hf h hS hsep
    obtain ⟨b2, c2⟩ := C72_boundary srt' hsrt' hashSize' fuel' Vs' hp' hn' hash' hf' h' hS' hsep'
    exact C73_unique c2 (separated_distinct hsep') (boundary_congr m (boundary_map A A.pos b1)) b2
  · intro gen
    obtain ⟨l, i⟩ := result_iff (result_map A A.pos (exact_result srt hsrt hashSize fuel Vs hp hn hash hf h hS hsep))
      (exact_result srt' hsrt' hashSize' fuel' Vs' hp' hn' hash' hf' h' hS' hsep') m (noFour_map A gen)
    refine ⟨l, fun p q r => (?_ : _ ↔ _).trans (i _ _ _)⟩
    exact has_map A.inj

/-- C101: taking the mirror image of all points (and turning, scaling and moving it) gives the mirror image of the hull, with the opposite direction, and also of
the triangles if no four points are on an empty circle -/
theorem C101_mirror (hsame : ∀ p, p ∈ Vs' ↔ ∃ q ∈ Vs, turn a b t1 t2 (mirror q) = p) :
    (hull.map fun v => turn a b t1 t2 (mirror v)).reverse.IsRotated hull' ∧ (NoFourOnEmptyCircle (· ∈ Vs) → ts.length = ts'.length ∧
      ∀ p q r, HasTriangle Vs ts p q r ↔ HasTriangle Vs' ts' (turn a b t1 t2 (mirror p)) (turn a b t1 t2 (mirror r)) (turn a b t1 t2 (mirror q))) := by
  have A := turn_alike hab t1 t2
  have B := mirror_alike (K := K)
  have hp' := planar_image Vs Vs' hp (f := fun v => turn a b t1 t2 (mirror v)) (fun _ => rfl) hsame
  have m : ∀ p, p ∈ (Vs.map mirror).map (turn a b t1 t2) ↔ p ∈ Vs' := by
    intro p; rw [List.map_map]; exact mem_image (f := fun v => turn a b t1 t2 (mirror v)) hsame p
  constructor
  · obtain ⟨b1, _⟩ := C72_boundary srt hsrt hashSize fuel Vs hp hn hash hf h hS hsep
    obtain ⟨b2, c2⟩ := C72_boundary srt' hsrt' hashSize' fuel' Vs' hp' hn' hash' hf' h' hS' hsep'
    have := C73_unique c2 (separated_distinct hsep') (boundary_congr m (boundary_map A A.pos (boundary_mirror b1))) b2
    rwa [List.map_reverse, List.map_map] at this
  · intro gen
    obtain ⟨l, i⟩ := result_iff (result_map A A.pos (result_mirror (exact_result srt hsrt hashSize fuel Vs hp hn hash hf h hS hsep)))
      (exact_result srt' hsrt' hashSize' fuel' Vs' hp' hn' hash' hf' h' hS' hsep') m (noFour_map A (noFour_map B gen))
    rw [(mirrorTs_perm ts).length_eq] at l
    exact ⟨l, fun p q r => (has_mirror.trans (has_map A.inj)).trans (i _ _ _)⟩

end exact

/-! ## `ConvexHull` -/

/-- C101: `ConvexHull` of turned points is the turned hull, up to the starting point -/
theorem C101_hull_turn (srt srt' : List (R3.Vector K) → List (R3.Vector K)) (hsrt : SortsHull srt) (hsrt' : SortsHull srt') {Vs Vs' : List (R3.Vector K)}
    (hsep : Separated Vs) (hsep' : Separated Vs') (hn : NotCollinear Vs) {a b : K} (hab : a ≠ 0 ∨ b ≠ 0) (t1 t2 : K)
    (hsame : ∀ p, p ∈ Vs' ↔ ∃ q ∈ Vs, turn a b t1 t2 q = p) : ((ConvexHull srt Vs).map (turn a b t1 t2)).IsRotated (ConvexHull srt' Vs') := by
  have A := turn_alike hab t1 t2
  have hn' := notCollinear_image A A.pos.ne' hsame hn
  exact C73_unique hn' (separated_distinct hsep') (boundary_congr (mem_image hsame) (boundary_map A A.pos (C73_convexHull srt hsrt Vs hsep hn)))
    (C73_convexHull srt' hsrt' Vs' hsep' hn')

/-- C101: `ConvexHull` of the mirror image is the mirror image of the hull in the opposite direction, up to the starting point -/
theorem C101_hull_mirror (srt srt' : List (R3.Vector K) → List (R3.Vector K)) (hsrt : SortsHull srt) (hsrt' : SortsHull srt') {Vs Vs' : List (R3.Vector K)}
    (hsep : Separated Vs) (hsep' : Separated Vs') (hn : NotCollinear Vs) {a b : K} (hab : a ≠ 0 ∨ b ≠ 0) (t1 t2 : K)
    (hsame : ∀ p, p ∈ Vs' ↔ ∃ q ∈ Vs, turn a b t1 t2 (mirror q) = p) :
    ((ConvexHull srt Vs).map fun v => turn a b t1 t2 (mirror v)).reverse.IsRotated (ConvexHull srt' Vs') := by
  have A := turn_alike hab t1 t2
  have B := mirror_alike (K := K)
  have m : ∀ p, p ∈ (Vs.map mirror).map (turn a b t1 t2) ↔ p ∈ Vs' := by
    intro p; rw [List.map_map]; exact mem_image (f := fun v => turn a b t1 t2 (mirror v)) hsame p
  have hm : NotCollinear (Vs.map mirror) := notCollinear_image B (by norm_num) (fun p => List.mem_map) hn
  have hn' := notCollinear_image A A.pos.ne' (fun p => (m p).symm.trans List.mem_map) hm
  have := C73_unique hn' (separated_distinct hsep') (boundary_congr m (boundary_map A A.pos (boundary_mirror (C73_convexHull srt hsrt Vs hsep hn))))
    (C73_convexHull srt' hsrt' Vs' hsep' hn')
  rwa [List.map_reverse, List.map_map] at this

/-! ## The tests in space -/

/-- a linear map of space with the given rows, followed by a translation -/
def move3 (u v w t p : R3.Vector K) : R3.Vector K :=
  ⟨u.X * p.X + u.Y * p.Y + u.Z * p.Z + t.X, v.X * p.X + v.Y * p.Y + v.Z * p.Z + t.Y, w.X * p.X + w.Y * p.Y + w.Z * p.Z + t.Z⟩

/-- the determinant of the rows -/
def det3 (u v w : R3.Vector K) : K := u.X * (v.Y * w.Z - v.Z * w.Y) - u.Y * (v.X * w.Z - v.Z * w.X) + u.Z * (v.X * w.Y - v.Y * w.X)

/-- the columns are orthogonal and of squared length `s` -/
structure OrthoCols (u v w : R3.Vector K) (s : K) : Prop where
  xx : u.X * u.X + v.X * v.X + w.X * w.X = s
  yy : u.Y * u.Y + v.Y * v.Y + w.Y * w.Y = s
  zz : u.Z * u.Z + v.Z * v.Z + w.Z * w.Z = s
  xy : u.X * u.Y + v.X * v.Y + w.X * w.Y = 0
  xz : u.X * u.Z + v.X * v.Z + w.X * w.Z = 0
  yz : u.Y * u.Z + v.Y * v.Z + w.Y * w.Z = 0

/-- C101: turning and scaling in space multiplies the 3-D orientation by the determinant, squared distances by the scale, and the in-sphere determinant by both -/
theorem C101_space {u v w : R3.Vector K} {s : K} (h : OrthoCols u v w s) (t a b c d e : R3.Vector K) :
    Predicates.orient3dfast (move3 u v w t a) (move3 u v w t b) (move3 u v w t c) (move3 u v w t d) = det3 u v w * Predicates.orient3dfast a b c d ∧
    SquaredDistance (move3 u v w t a) (move3 u v w t b) = s * SquaredDistance a b ∧
    Predicates.InSphereFast (move3 u v w t a) (move3 u v w t b) (move3 u v w t c) (move3 u v w t d) (move3 u v w t e) =
      s * det3 u v w * Predicates.InSphereFast a b c d e ∧ det3 u v w ^ 2 = s ^ 3 := by
  have lift : ∀ x y z : K, (u.X * x + u.Y * y + u.Z * z) * (u.X * x + u.Y * y + u.Z * z) + (v.X * x + v.Y * y + v.Z * z) * (v.X * x + v.Y * y + v.Z * z) +
      (w.X * x + w.Y * y + w.Z * z) * (w.X * x + w.Y * y + w.Z * z) = s * (x * x + y * y + z * z) := by
    intro x y z
    linear_combination x * x * h.xx + y * y * h.yy + z * z * h.zz + 2 * x * y * h.xy + 2 * x * z * h.xz + 2 * y * z * h.yz
  have dX : ∀ p q : R3.Vector K, (move3 u v w t p).X - (move3 u v w t q).X = u.X * (p.X - q.X) + u.Y * (p.Y - q.Y) + u.Z * (p.Z - q.Z) := by
    intro p q; simp only [move3]; ring
  have dY : ∀ p q : R3.Vector K, (move3 u v w t p).Y - (move3 u v w t q).Y = v.X * (p.X - q.X) + v.Y * (p.Y - q.Y) + v.Z * (p.Z - q.Z) := by
    intro p q; simp only [move3]; ring
  have dZ : ∀ p q : R3.Vector K, (move3 u v w t p).Z - (move3 u v w t q).Z = w.X * (p.X - q.X) + w.Y * (p.Y - q.Y) + w.Z * (p.Z - q.Z) := by
    intro p q; simp only [move3]; ring
  refine ⟨?_, ?_, ?_, ?_⟩
  · simp only [Predicates.orient3dfast, dX, dY, dZ, det3]; ring
  · simp only [SquaredDistance, R3.Sub, R3.Dot, R3.Vector.Norm2, dX, dY, dZ, lift]
  · simp only [Predicates.InSphereFast, dX, dY, dZ, lift]
    generalize (a.X - e.X) * (a.X - e.X) + (a.Y - e.Y) * (a.Y - e.Y) + (a.Z - e.Z) * (a.Z - e.Z) = la
    generalize (b.X - e.X) * (b.X - e.X) + (b.Y - e.Y) * (b.Y - e.Y) + (b.Z - e.Z) * (b.Z - e.Z) = lb
    generalize (c.X - e.X) * (c.X - e.X) + (c.Y - e.Y) * (c.Y - e.Y) + (c.Z - e.Z) * (c.Z - e.Z) = lc
    generalize (d.X - e.X) * (d.X - e.X) + (d.Y - e.Y) * (d.Y - e.Y) + (d.Z - e.Z) * (d.Z - e.Z) = ld
    generalize a.X - e.X = ax, a.Y - e.Y = ay, a.Z - e.Z = az
    generalize b.X - e.X = bx, b.Y - e.Y = by', b.Z - e.Z = bz
    generalize c.X - e.X = cx, c.Y - e.Y = cy, c.Z - e.Z = cz
    generalize d.X - e.X = dx, d.Y - e.Y = dy, d.Z - e.Z = dz
    unfold det3; ring
  · have e1 : det3 u v w ^ 2 = (u.X * u.X + v.X * v.X + w.X * w.X) * ((u.Y * u.Y + v.Y * v.Y + w.Y * w.Y) * (u.Z * u.Z + v.Z * v.Z + w.Z * w.Z) -
        (u.Y * u.Z + v.Y * v.Z + w.Y * w.Z) ^ 2) - (u.X * u.Y + v.X * v.Y + w.X * w.Y) * ((u.X * u.Y + v.X * v.Y + w.X * w.Y) * (u.Z * u.Z + v.Z * v.Z + w.Z * w.Z) -
        (u.Y * u.Z + v.Y * v.Z + w.Y * w.Z) * (u.X * u.Z + v.X * v.Z + w.X * w.Z)) + (u.X * u.Z + v.X * v.Z + w.X * w.Z) *
        ((u.X * u.Y + v.X * v.Y + w.X * w.Y) * (u.Y * u.Z + v.Y * v.Z + w.Y * w.Z) - (u.Y * u.Y + v.Y * v.Y + w.Y * w.Y) * (u.X * u.Z + v.X * v.Z + w.X * w.Z)) := by
      unfold det3; ring
    rw [e1, h.xx, h.yy, h.zz, h.xy, h.xz, h.yz]; ring

/-- C101: point-in-tetrahedron does not depend on the axes, nor on the unit, nor on the origin; any invertible linear map may be applied -/
theorem C101_inTetra {u v w : R3.Vector K} (h : det3 u v w ≠ 0) (t v1 v2 v3 v4 p : R3.Vector K) :
    Tri3.VectorInTetrahedron (move3 u v w t v1) (move3 u v w t v2) (move3 u v w t v3) (move3 u v w t v4) (move3 u v w t p) =
      Tri3.VectorInTetrahedron v1 v2 v3 v4 p := by
  have key : ∀ a b c d q : R3.Vector K, Tri3.SameSide (move3 u v w t a) (move3 u v w t b) (move3 u v w t c) (move3 u v w t d) (move3 u v w t q) =
      Tri3.SameSide a b c d q := by
    intro a b c d q
    have e : ∀ x : R3.Vector K, R3.Dot (R3.Cross (R3.Sub (move3 u v w t b) (move3 u v w t a)) (R3.Sub (move3 u v w t c) (move3 u v w t a))) (R3.Sub (move3 u v w t x) (move3 u v w t a)) =
        det3 u v w * R3.Dot (R3.Cross (R3.Sub b a) (R3.Sub c a)) (R3.Sub x a) := by
      intro x; simp only [R3.Dot, R3.Cross, R3.Sub, move3, det3]; ring
    unfold Tri3.SameSide
    simp only [e]
    generalize R3.Dot (R3.Cross (R3.Sub b a) (R3.Sub c a)) (R3.Sub d a) = x
    generalize R3.Dot (R3.Cross (R3.Sub b a) (R3.Sub c a)) (R3.Sub q a) = y
    rcases lt_or_gt_of_ne h with h | h
    · have n1 : ∀ x : K, det3 u v w * x ≤ 0 ↔ 0 ≤ x := fun x =>
        ⟨fun hx => by_contra fun hc => absurd hx (not_le.mpr (mul_pos_of_neg_of_neg h (not_le.mp hc))), fun hx => mul_nonpos_of_nonpos_of_nonneg h.le hx⟩
      have n2 : ∀ x : K, 0 ≤ det3 u v w * x ↔ x ≤ 0 := fun x =>
        ⟨fun hx => by_contra fun hc => absurd hx (not_le.mpr (mul_neg_of_neg_of_pos h (not_le.mp hc))), fun hx => mul_nonneg_of_nonpos_of_nonpos h.le hx⟩
      simp only [n1, n2]
      split_ifs <;> rfl
    · have n1 : ∀ x : K, det3 u v w * x ≤ 0 ↔ x ≤ 0 := fun x =>
        ⟨fun hx => by_contra fun hc => absurd hx (not_le.mpr (mul_pos h (not_le.mp hc))), fun hx => mul_nonpos_of_nonneg_of_nonpos h.le hx⟩
      simp only [n1, mul_nonneg_iff_of_pos_left h]
  simp only [Tri3.VectorInTetrahedron, key]

/-! ## Float64 -/

section float
variable {a b : ℚ} (hab : a ≠ 0 ∨ b ≠ 0) (t1 t2 : ℚ)
include hab

/-- C101 in float64: two calls whose points have integer coordinates up to 64 and are images of each other -/
theorem C101_float (srt srt' : R3.Vector F64 → List ℤ → List ℤ) (hsrt : ∀ c l, (srt c l).Perm l) (hsrt' : ∀ c l, (srt' c l).Perm l)
    (hashSize hashSize' : ℕ → ℕ) (fuel fuel' : ℕ) (Vs Vs' : List (R3.Vector F64)) (hg : SmallInts Vs) (hg' : SmallInts Vs')
    (hn : 2 ≤ Vs.length) (hn' : 2 ≤ Vs'.length)
    (hash : 0 < hashSize Vs.length ∧ hashSize Vs.length < 2 ^ 53) (hash' : 0 < hashSize' Vs'.length ∧ hashSize' Vs'.length < 2 ^ 53)
    (hf : 6 * Vs.length < fuel) (hf' : 6 * Vs'.length < fuel') {hull hull' : List (R3.Vector F64)} {ts hs ts' hs' : List ℤ}
    (h : Triangulate srt hashSize fuel Vs = .ok (.triangulation hull ts hs))
    (h' : Triangulate srt' hashSize' fuel' Vs' = .ok (.triangulation hull' ts' hs')) (hS : SortsCall srt Vs) (hS' : SortsCall srt' Vs') :
    ((∀ p, p ∈ Vs'.map exactV ↔ ∃ q ∈ Vs.map exactV, turn a b t1 t2 q = p) →
      ((hull.map exactV).map (turn a b t1 t2)).IsRotated (hull'.map exactV) ∧ (NoFourOnEmptyCircle (· ∈ Vs.map exactV) → ts.length = ts'.length ∧
        ∀ p q r, HasTriangle (Vs.map exactV) ts p q r ↔ HasTriangle (Vs'.map exactV) ts' (turn a b t1 t2 p) (turn a b t1 t2 q) (turn a b t1 t2 r))) ∧
    ((∀ p, p ∈ Vs'.map exactV ↔ ∃ q ∈ Vs.map exactV, turn a b t1 t2 (mirror q) = p) →
      ((hull.map exactV).map fun v => turn a b t1 t2 (mirror v)).reverse.IsRotated (hull'.map exactV) ∧
      (NoFourOnEmptyCircle (· ∈ Vs.map exactV) → ts.length = ts'.length ∧ ∀ p q r, HasTriangle (Vs.map exactV) ts p q r ↔
        HasTriangle (Vs'.map exactV) ts' (turn a b t1 t2 (mirror p)) (turn a b t1 t2 (mirror r)) (turn a b t1 t2 (mirror q)))) := by
  have A := turn_alike hab t1 t2
  have B := mirror_alike (K := ℚ)
  have r1 := grid_result srt hsrt hashSize fuel Vs hg hn hash hf h hS
  have r2 := grid_result srt' hsrt' hashSize' fuel' Vs' hg' hn' hash' hf' h' hS'
  obtain ⟨b1, _⟩ := C74_boundary srt hsrt hashSize fuel Vs hg hn hash.1 hash.2 hf h hS
  obtain ⟨b2, c2⟩ := C74_boundary srt' hsrt' hashSize' fuel' Vs' hg' hn' hash'.1 hash'.2 hf' h' hS'
  have sep := separated_distinct (ints_separated hg'.grid.ints hg'.flat)
  refine ⟨fun hsame => ⟨?_, fun gen => ?_⟩, fun hsame => ?_⟩
  · exact C73_unique c2 sep (boundary_congr (mem_image hsame) (boundary_map A A.pos b1)) b2
  · obtain ⟨l, i⟩ := result_iff (result_map A A.pos r1) r2 (mem_image hsame) (noFour_map A gen)
    exact ⟨l, fun p q r => (has_map A.inj).trans (i _ _ _)⟩
  · have m : ∀ p, p ∈ ((Vs.map exactV).map mirror).map (turn a b t1 t2) ↔ p ∈ Vs'.map exactV := by
      intro p; rw [List.map_map (f := mirror)]; exact mem_image (f := fun v => turn a b t1 t2 (mirror v)) hsame p
    refine ⟨?_, fun gen => ?_⟩
    · have := C73_unique c2 sep (boundary_congr m (boundary_map A A.pos (boundary_mirror b1))) b2
      rwa [List.map_reverse, List.map_map (f := mirror)] at this
    · obtain ⟨l, i⟩ := result_iff (result_map A A.pos (result_mirror r1)) r2 m (noFour_map A (noFour_map B gen))
      rw [(mirrorTs_perm ts).length_eq] at l
      exact ⟨l, fun p q r => (has_mirror.trans (has_map A.inj)).trans (i _ _ _)⟩

/-- C101 in float64, for `ConvexHull` on integer coordinates up to `2^24` -/
theorem C101_hull_float (srt srt' : List (R3.Vector F64) → List (R3.Vector F64)) {Vs Vs' : List (R3.Vector F64)} (hs : SortsHullF srt Vs)
    (hs' : SortsHullF srt' Vs') (h : IntCoords Vs) (h' : IntCoords Vs') (hf : Flat Vs) (hf' : Flat Vs') (hn : NotCollinear (Vs.map exactV)) :
    ((∀ p, p ∈ Vs'.map exactV ↔ ∃ q ∈ Vs.map exactV, turn a b t1 t2 q = p) →
      (((ConvexHull srt Vs).map exactV).map (turn a b t1 t2)).IsRotated ((ConvexHull srt' Vs').map exactV)) ∧
    ((∀ p, p ∈ Vs'.map exactV ↔ ∃ q ∈ Vs.map exactV, turn a b t1 t2 (mirror q) = p) →
      (((ConvexHull srt Vs).map exactV).map fun v => turn a b t1 t2 (mirror v)).reverse.IsRotated ((ConvexHull srt' Vs').map exactV)) := by
  rw [convexHull_map h.ints.agrees hs, convexHull_map h'.ints.agrees hs']
  exact ⟨C101_hull_turn _ _ (sortAs_sorts h.ints.agrees hs) (sortAs_sorts h'.ints.agrees hs') (ints_separated h.ints hf) (ints_separated h'.ints hf') hn hab t1 t2,
    C101_hull_mirror _ _ (sortAs_sorts h.ints.agrees hs) (sortAs_sorts h'.ints.agrees hs') (ints_separated h.ints hf) (ints_separated h'.ints hf') hn hab t1 t2⟩

end float

/-! ## Where the axes matter -/

/-- a rectangle with a gable -/
def house : List (R3.Vector ℚ) := [⟨0,0,0⟩, ⟨2,0,0⟩, ⟨2,1,0⟩, ⟨0,1,0⟩, ⟨1,3,0⟩]

theorem corners_two {Vs : List (R3.Vector ℚ)} {ts : List ℤ} {k : ℕ} {a b c : R3.Vector ℚ} (h : Corners Vs ts k a b c) :
    ∃ i j l : ℕ, (i, j, l) ∈ (List.range ts.length).flatMap (fun k => match ts[3*k]?, ts[3*k+1]?, ts[3*k+2]? with
      | some x, some y, some z => [(x.toNat, y.toNat, z.toNat)] | _, _, _ => []) ∧ Vs[i]? = some a ∧ Vs[j]? = some b ∧ Vs[l]? = some c := by
  obtain ⟨i, j, l, h1, h2, h3, e1, e2, e3⟩ := h
  refine ⟨i, j, l, ?_, e1, e2, e3⟩
  rw [List.mem_flatMap]
  have := (List.getElem?_eq_some_iff.mp h3).1
  exact ⟨k, List.mem_range.mpr (by omega), by rw [h1, h2, h3]; simp⟩

/-- Without the condition on circles C101 is false: the diagonal of a rectangle depends on the direction of the axes. -/
theorem C101_circle_refuted : ∃ (Vs : List (R3.Vector ℚ)) (a b : ℚ), Planar Vs ∧ Separated Vs ∧ Separated (Vs.map (turn a b 0 0)) ∧ a ^ 2 + b ^ 2 = 1 ∧
    ∃ hull hull' ts hs ts' hs', Triangulate (keySort Vs) (fun _ => 3) 100 Vs = .ok (.triangulation hull ts hs) ∧
    Triangulate (keySort (Vs.map (turn a b 0 0))) (fun _ => 3) 100 (Vs.map (turn a b 0 0)) = .ok (.triangulation hull' ts' hs') ∧
    ∃ p q r, HasTriangle Vs ts p q r ∧ ¬ HasTriangle (Vs.map (turn a b 0 0)) ts' (turn a b 0 0 p) (turn a b 0 0 q) (turn a b 0 0 r) := by
  have hsep : Separated house := by
    intro p hp q hq
    simp only [house, List.mem_cons, List.not_mem_nil, or_false] at hp hq
    rcases hp with rfl | rfl | rfl | rfl | rfl <;> rcases hq with rfl | rfl | rfl | rfl | rfl <;>
      first | exact Or.inl rfl | (right; constructor <;> norm_num [Near])
  refine ⟨house, 3/5, 4/5, ⟨0, by simp [house]⟩, hsep, separated_turn (by norm_num) hsep, by norm_num, ?_⟩
  have h1 : ∃ x, Triangulate (keySort house) (fun _ => 3) 100 house = x ∧
      (match x with | .ok (.triangulation _ ts _) => decide (ts = [2, 1, 0, 0, 3, 2, 3, 4, 2]) | _ => false) = true := ⟨_, rfl, by decide +kernel⟩
  have h2 : ∃ x, Triangulate (keySort (house.map (turn (3/5) (4/5) 0 0))) (fun _ => 3) 100 (house.map (turn (3/5) (4/5) 0 0)) = x ∧
      (match x with | .ok (.triangulation _ ts _) => decide (ts = [3, 1, 0, 3, 2, 1, 3, 4, 2]) | _ => false) = true := ⟨_, rfl, by decide +kernel⟩
  obtain ⟨x, hx, h1⟩ := h1
  obtain ⟨y, hy, h2⟩ := h2
  match x, h1, y, h2 with
  | .ok (.triangulation hull ts hs), h1, .ok (.triangulation hull' ts' hs'), h2 =>
    rw [decide_eq_true_eq] at h1 h2
    subst h1 h2
    refine ⟨hull, hull', _, hs, _, hs', hx, hy, ⟨2,1,0⟩, ⟨2,0,0⟩, ⟨0,0,0⟩, ⟨0, Or.inl ⟨2, 1, 0, rfl, rfl, rfl, rfl, rfl, rfl⟩⟩, ?_⟩
    have no : ∀ k a b c, Corners (house.map (turn (3/5) (4/5) 0 0)) [3, 1, 0, 3, 2, 1, 3, 4, 2] k a b c →
        a = turn (3/5) (4/5) 0 0 ⟨0,1,0⟩ := by
      intro k a b c h
      obtain ⟨i, j, l, hm, e1, _, _⟩ := corners_two h
      have hi : i = 3 := by
        have : ∀ t ∈ (List.range 9).flatMap (fun k => match ([3, 1, 0, 3, 2, 1, 3, 4, 2] : List ℤ)[3*k]?, ([3, 1, 0, 3, 2, 1, 3, 4, 2] : List ℤ)[3*k+1]?,
            ([3, 1, 0, 3, 2, 1, 3, 4, 2] : List ℤ)[3*k+2]? with
            | some x, some y, some z => [(x.toNat, y.toNat, z.toNat)] | _, _, _ => []), t.1 = 3 := by decide
        exact this _ hm
      subst hi
      simpa [house] using e1.symm
    have hinj := (turn_alike (a := (3/5 : ℚ)) (b := 4/5) (Or.inl (by norm_num)) 0 0).inj
    rintro ⟨k, h | h | h⟩
    · have := hinj (no _ _ _ _ h); simp at this
    · have := hinj (no _ _ _ _ h); simp at this
    · have := hinj (no _ _ _ _ h); simp at this

/-- the axes renamed: a third of a full turn about the diagonal -/
def cyclic (v : R3.Vector ℚ) : R3.Vector ℚ := ⟨v.Y, v.Z, v.X⟩

/-- For `bowyerWatson` the claim is false: of four points in general position, no triangle is returned; after renaming the axes, eight are. -/
theorem C101_bowyer_refuted : ∃ points : List (R3.Vector ℚ), points.length = 4 ∧ Meshing.bowyerWatson schedId points = .ok [] ∧
    ∃ r, Meshing.bowyerWatson schedId (points.map cyclic) = .ok r ∧ r.length = 24 := by
  refine ⟨[⟨4,6,4⟩, ⟨1,6,0⟩, ⟨5,5,1⟩, ⟨2,0,7⟩], rfl, by decide +kernel, ?_⟩
  have h : ∃ x, Meshing.bowyerWatson schedId (([⟨4,6,4⟩, ⟨1,6,0⟩, ⟨5,5,1⟩, ⟨2,0,7⟩] : List (R3.Vector ℚ)).map cyclic) = x ∧
      (match x with | .ok r => decide (r.length = 24) | _ => false) = true := ⟨_, rfl, by decide +kernel⟩
  obtain ⟨x, hx, h⟩ := h
  match x, h with
  | .ok r, h => exact ⟨r, hx, by simpa using h⟩

/-! ## The hypotheses hold -/

/-- the points of `square5`, turned by the angle with cosine 3/5, and the runs on both -/
example : ∃ hull hull' ts hs ts' hs', Triangulate (keySort square5) (fun _ => 3) 31 square5 = .ok (.triangulation hull ts hs) ∧
    Triangulate (keySort (square5.map (turn (3/5) (4/5) 1 2))) (fun _ => 3) 31 (square5.map (turn (3/5) (4/5) 1 2)) = .ok (.triangulation hull' ts' hs') ∧
    (hull.map (turn (3/5) (4/5) 1 2)).IsRotated hull' ∧ ts.length = ts'.length := by
  have hp : Planar square5 := ⟨0, by simp [square5]⟩
  have hsame : ∀ p, p ∈ square5.map (turn (3/5) (4/5) 1 2) ↔ ∃ q ∈ square5, turn (3/5) (4/5) 1 2 q = p := fun p => List.mem_map
  have hc : ¬ Proofs.Collinear square5 := by
    intro h
    have := h ⟨0,0,0⟩ (by simp [square5]) ⟨4,0,0⟩ (by simp [square5]) ⟨4,4,0⟩ (by simp [square5])
    norm_num [area] at this
  rcases C23_planar _ (keySort_perm square5) (fun _ => 3) 31 square5 hp (by decide) (by decide) (by decide) with ⟨h, _⟩ | ⟨_, hull, ts, hs, e, _⟩
  · exact absurd h hc
  have hp' := planar_image square5 _ hp (f := turn (3/5) (4/5) 1 2) (fun _ => rfl) hsame
  have herr := C101_error _ _ (keySort_perm square5) (keySort_perm (square5.map (turn (3/5) (4/5) 1 2))) (fun _ => 3) (fun _ => 3) 31 31 square5 _ hp
    (by decide) (by decide) (by decide) (by decide) (by decide) (by decide) (Or.inl (by norm_num)) 1 2 (Or.inl hsame)
  rcases C23_planar _ (keySort_perm (square5.map (turn (3/5) (4/5) 1 2))) (fun _ => 3) 31 _ hp' (by decide) (by decide) (by decide) with
    ⟨_, h⟩ | ⟨_, hull', ts', hs', e', _⟩
  · have := herr.mpr h
    rw [e] at this; cases this
  have r := C101_turn _ _ (keySort_perm square5) (keySort_perm (square5.map (turn (3/5) (4/5) 1 2))) (fun _ => 3) (fun _ => 3) 31 31 square5 _ hp
    (by decide) (by decide) (by decide) (by decide) (by decide) (by decide) (Or.inl (by norm_num)) 1 2 e e' (keySort_sorts _) (keySort_sorts _)
    square5_separated (separated_turn (by norm_num) square5_separated) hsame
  exact ⟨hull, hull', ts, hs, ts', hs', e, e', r.1, (r.2 square5_circles).1⟩

/-- the axes renamed, and a turn by the angle with cosine 3/5 with a scale of 5 -/
example : OrthoCols (⟨0, 1, 0⟩ : R3.Vector ℚ) ⟨0, 0, 1⟩ ⟨1, 0, 0⟩ 1 ∧ OrthoCols (⟨3, -4, 0⟩ : R3.Vector ℚ) ⟨4, 3, 0⟩ ⟨0, 0, 5⟩ 25 ∧
    ∀ p : R3.Vector ℚ, move3 ⟨0, 1, 0⟩ ⟨0, 0, 1⟩ ⟨1, 0, 0⟩ ⟨0, 0, 0⟩ p = cyclic p :=
  ⟨⟨by norm_num, by norm_num, by norm_num, by norm_num, by norm_num, by norm_num⟩, ⟨by norm_num, by norm_num, by norm_num, by norm_num, by norm_num, by norm_num⟩,
    fun p => by simp [move3, cyclic]⟩

/-- the float64 points of C74, and the same points after a quarter turn: integers up to 64 -/
example : SmallInts gridPts ∧ SmallInts (gridPts.map fun v => ⟨-v.Y, v.X, v.Z⟩) ∧
    (gridPts.map fun v => ⟨-v.Y, v.X, v.Z⟩).map exactV = (gridPts.map exactV).map (turn 0 1 0 0) :=
  ⟨gridPts_small, by
    intro v hv
    replace hv := List.mem_map.mp hv
    obtain ⟨v, hv, rfl⟩ := hv
    obtain ⟨h1, ⟨f, y, e, hy⟩, h3⟩ := gridPts_small v hv
    obtain ⟨n1, n2⟩ := F64.neg_fin f
    exact ⟨⟨n1, -y, by rw [n2, e]; push_cast; rfl, by rwa [abs_neg]⟩, h1, h3⟩, by decide +kernel⟩

end Verif.Props
