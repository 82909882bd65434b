import Verif.Proofs.SeedMargin
import Verif.Props.ValidateFloat
/-!
# C87: the triangulator at binary64 on well spread points (triangulate2/util.go:47-83, triangulator.go, triangulation.go)

C77 proves a float64 call right if its sign tests, its seed triangle and its order of the points are right. Here the errors of the computed circumcentre and
circumradius are bounded, and with them all of this follows from conditions on the exact positions alone (`Spread`).
-/
namespace Verif.Props
open Verif Verif.Tri2 Verif.Proofs Verif.F64 Verif.Spec

/-- `o` is the centre of the circle through `a`, `b` and `c` -/
def Centre (o a b c : R3.Vector ℚ) : Prop := sqd o a = sqd o b ∧ sqd o a = sqd o c

theorem sqd_dist2 (o a : R3.Vector ℚ) : sqd o a = dist2 a o := by unfold sqd dist2; ring

theorem orient_dOf (a b c : R3.Vector ℚ) : orient a b c = dOf a b c := by unfold orient dOf; ring

theorem orient_area (a b c : R3.Vector ℚ) : |orient a b c| = |area a b c| := by rw [orient_dOf, area_dOf, abs_neg]

theorem centre_exact {a b c : R3.Vector ℚ} (h : dOf a b c ≠ 0) : Centre (circumcenter a b c) a b c := by
  obtain ⟨e1, e2⟩ := center_equi h
  exact ⟨by rw [sqd_dist2, sqd_dist2, e1], by rw [sqd_dist2, sqd_dist2, e2]⟩

theorem centre_eq {o a b c : R3.Vector ℚ} (h : dOf a b c ≠ 0) (hc : Centre o a b c) : o.X = (circumcenter a b c).X ∧ o.Y = (circumcenter a b c).Y := by
  obtain ⟨o1, o2⟩ := hc
  rw [sqd_dist2, sqd_dist2] at o1 o2
  exact center_unique h o1.symm o2.symm

/-! ## The circumcentre and the circumradius -/

section
variable {M κ : ℚ} (h1 : 1 / 2 ^ 40 ≤ M) (h2 : M ≤ 2 ^ 40) (hk1 : 1 ≤ κ) {a b c : R3.Vector F64} (ha : Bounded M a) (hb : Bounded M b) (hc : Bounded M c)
  (hD : M ^ 2 ≤ κ * |orient (exactV a) (exactV b) (exactV c)|) {o : R3.Vector ℚ} (ho : Centre o (exactV a) (exactV b) (exactV c))
include h1 h2 hk1 ha hb hc hD ho

/-- C87: the error of the computed circumcentre: at most `1579 * κ^2 * 2^-53 * M` in each coordinate, for coordinates up to `M` and a triangle
whose doubled area is at least `M^2 / κ` -/
theorem C87_center (hk2 : κ ≤ 1024) : (circumcenter a b c).X.Finite ∧ (circumcenter a b c).Y.Finite ∧
    |(circumcenter a b c).X.toQ - o.X| ≤ 1579 * κ ^ 2 / 2 ^ 53 * M ∧ |(circumcenter a b c).Y.toQ - o.Y| ≤ 1579 * κ ^ 2 / 2 ^ 53 * M := by
  rw [orient_dOf] at hD
  have hM : 0 < M := lt_of_lt_of_le (by positivity) h1
  obtain ⟨cx, cy⟩ := center_app h1 h2 hk1 hk2 ha hb hc hD
  obtain ⟨ex, ey⟩ := centre_eq (shape_ne hM hD) ho
  have hu : uro = 1 / 2 ^ 53 := rfl
  have e : 1579 * κ ^ 2 * (uro * M ^ 1) = 1579 * κ ^ 2 / 2 ^ 53 * M := by rw [hu]; ring
  rw [← e, ex, ey]
  exact ⟨cx.fin, cy.fin, cx.err, cy.err⟩

/-- C87: `circumradius` returns a number (not the infinite radius of a degenerate triangle), with an error of at most `101000 * κ^3 * 2^-53 * M^2`
from the square of the radius -/
theorem C87_radius (hk2 : κ ≤ 256) : ∃ r, circumradius a b c = some r ∧ r.Finite ∧ |r.toQ - sqd o (exactV a)| ≤ 101000 * κ ^ 3 / 2 ^ 53 * M ^ 2 := by
  rw [orient_dOf] at hD
  have hM : 0 < M := lt_of_lt_of_le (by positivity) h1
  obtain ⟨r, er, hr⟩ := shape_rad h1 h2 hk1 hk2 ha hb hc hD
  obtain ⟨ex, ey⟩ := centre_eq (shape_ne hM hD) ho
  refine ⟨r, er, hr.fin, ?_⟩
  have hu : uro = 1 / 2 ^ 53 := rfl
  have e : 101000 * κ ^ 3 * (uro * M ^ 2) = 101000 * κ ^ 3 / 2 ^ 53 * M ^ 2 := by rw [hu]; ring
  have e' : sqd o (exactV a) = dist2 (exactV a) (circumcenter (exactV a) (exactV b) (exactV c)) := by
    rw [sqd_dist2]; unfold dist2; rw [ex, ey]
  rw [← e, e']
  exact hr.err

end

/-! ## Well spread points -/

/-- positions with coordinates up to `M` such that no three are nearly on a line, no four nearly on a circle, and the quantities by which the program
orders points are not nearly equal without being equal: distances between points, radii of the circles through a point, its nearest
neighbour and a third point, and distances from the centre of an empty circle. `κ` is the ratio between `M^2` and the smallest doubled area -/
structure Spread (Vs : List (R3.Vector ℚ)) (M κ : ℚ) : Prop where
  low : 1 / 2 ^ 14 ≤ M
  high : M ≤ 2 ^ 40
  one : 1 ≤ κ
  cap : κ ≤ 256
  three : 3 ≤ Vs.length
  distinct : Vs.Nodup
  size : ∀ v ∈ Vs, |v.X| ≤ M ∧ |v.Y| ≤ M
  shape : ∀ a ∈ Vs, ∀ b ∈ Vs, ∀ c ∈ Vs, a ≠ b → b ≠ c → c ≠ a → M ^ 2 ≤ κ * |orient a b c|
  circle : ∀ a ∈ Vs, ∀ b ∈ Vs, ∀ c ∈ Vs, ∀ d ∈ Vs, a ≠ b → a ≠ c → a ≠ d → b ≠ c → b ≠ d → c ≠ d → ∀ o, Centre o a b c →
    2350 / 2 ^ 53 * M ^ 4 < |orient a b c| * |sqd o d - sqd o a|
  near : ∀ a ∈ Vs, ∀ v ∈ Vs, ∀ w ∈ Vs, sqd a v ≤ sqd a w ∨ κ ^ 3 * M ^ 2 / 2 ^ 35 < sqd a v - sqd a w
  radius : ∀ a ∈ Vs, ∀ b ∈ Vs, a ≠ b → (∀ p ∈ Vs, p ≠ a → sqd a b ≤ sqd a p) → ∀ v ∈ Vs, ∀ w ∈ Vs, v ≠ a → v ≠ b → w ≠ a → w ≠ b →
    ∀ o o', Centre o a b v → Centre o' a b w → sqd o a ≤ sqd o' a ∨ κ ^ 3 * M ^ 2 / 2 ^ 35 < sqd o a - sqd o' a
  order : ∀ a ∈ Vs, ∀ b ∈ Vs, ∀ c ∈ Vs, a ≠ b → b ≠ c → c ≠ a → ∀ o, Centre o a b c → (∀ p ∈ Vs, sqd o a ≤ sqd o p) → ∀ v ∈ Vs, ∀ w ∈ Vs,
    sqd o v ≤ sqd o w ∨ κ ^ 3 * M ^ 2 / 2 ^ 35 < sqd o v - sqd o w

theorem Spread.well {Vs : List (R3.Vector ℚ)} {M κ : ℚ} (h : Spread Vs M κ) : WellSpread Vs M κ := by
  have hM : 0 < M := lt_of_lt_of_le (by norm_num) h.low
  have hd : ∀ a ∈ Vs, ∀ b ∈ Vs, ∀ c ∈ Vs, a ≠ b → b ≠ c → c ≠ a → dOf a b c ≠ 0 := by
    intro a ha b hb c hc n1 n2 n3
    have := h.shape a ha b hb c hc n1 n2 n3
    rw [orient_dOf] at this
    exact shape_ne hM this
  have ne : ∀ {a b c : R3.Vector ℚ}, dOf a b c ≠ 0 → a ≠ b ∧ b ≠ c ∧ c ≠ a := by
    intro a b c hd
    refine ⟨?_, ?_, ?_⟩ <;> (rintro rfl; apply hd; unfold dOf; ring)
  refine ⟨h.low, h.high, h.one, h.cap, h.three, h.distinct, h.size, ?_, ?_, ?_, ?_, ?_⟩
  · intro a ha b hb c hc n1 n2 n3
    rw [← orient_area]
    exact h.shape a ha b hb c hc n1 n2 n3
  · intro a ha b hb c hc d hd' n1 n2 n3 n4 n5 n6
    have hz := hd a ha b hb c hc n1 n4 n2.symm
    have := h.circle a ha b hb c hc d hd' n1 n2 n3 n4 n5 n6 _ (centre_exact hz)
    rw [orient_area, sqd_dist2, sqd_dist2] at this
    rwa [det_center hz, abs_mul]
  · intro a ha v hv w hw
    rw [← sqd_dist2, ← sqd_dist2]
    exact h.near a ha v hv w hw
  · intro a ha b hb nab hn v hv w hw n1 n2 n3 n4
    rw [← sqd_dist2, ← sqd_dist2]
    refine h.radius a ha b hb nab (fun p hp hpa => ?_) v hv w hw n1 n2 n3 n4 _ _ (centre_exact (hd a ha b hb v hv nab n2.symm n1))
      (centre_exact (hd a ha b hb w hw nab n4.symm n3))
    rw [sqd_dist2, sqd_dist2]
    exact hn p hp hpa
  · intro a ha b hb c hc hpos hemp v hv w hw
    have hz : dOf a b c ≠ 0 := by
      intro e; rw [area_dOf, e, neg_zero] at hpos; exact lt_irrefl _ hpos
    obtain ⟨n1, n2, n3⟩ := ne hz
    rw [← sqd_dist2, ← sqd_dist2]
    refine h.order a ha b hb c hc n1 n2 n3 _ (centre_exact hz) (fun p hp => ?_) v hv w hw
    have := hemp p hp
    rw [det_center hz] at this
    have := nonneg_of_mul_nonneg_right this hpos
    rw [sqd_dist2, sqd_dist2]
    linarith

/-- to check the conditions the centres can be computed -/
theorem Spread.of_centers {Vs : List (R3.Vector ℚ)} {M κ : ℚ} (low : 1 / 2 ^ 14 ≤ M) (high : M ≤ 2 ^ 40) (one : 1 ≤ κ) (cap : κ ≤ 256) (three : 3 ≤ Vs.length)
    (distinct : Vs.Nodup) (size : ∀ v ∈ Vs, |v.X| ≤ M ∧ |v.Y| ≤ M)
    (shape : ∀ a ∈ Vs, ∀ b ∈ Vs, ∀ c ∈ Vs, a ≠ b → b ≠ c → c ≠ a → M ^ 2 ≤ κ * |orient a b c|)
    (circle : ∀ a ∈ Vs, ∀ b ∈ Vs, ∀ c ∈ Vs, ∀ d ∈ Vs, a ≠ b → a ≠ c → a ≠ d → b ≠ c → b ≠ d → c ≠ d →
      2350 / 2 ^ 53 * M ^ 4 < |orient a b c| * |sqd (circumcenter a b c) d - sqd (circumcenter a b c) a|)
    (near : ∀ a ∈ Vs, ∀ v ∈ Vs, ∀ w ∈ Vs, sqd a v ≤ sqd a w ∨ κ ^ 3 * M ^ 2 / 2 ^ 35 < sqd a v - sqd a w)
    (radius : ∀ a ∈ Vs, ∀ b ∈ Vs, a ≠ b → (∀ p ∈ Vs, p ≠ a → sqd a b ≤ sqd a p) → ∀ v ∈ Vs, ∀ w ∈ Vs, v ≠ a → v ≠ b → w ≠ a → w ≠ b →
      sqd (circumcenter a b v) a ≤ sqd (circumcenter a b w) a ∨ κ ^ 3 * M ^ 2 / 2 ^ 35 < sqd (circumcenter a b v) a - sqd (circumcenter a b w) a)
    (order : ∀ a ∈ Vs, ∀ b ∈ Vs, ∀ c ∈ Vs, a ≠ b → b ≠ c → c ≠ a → (∀ p ∈ Vs, sqd (circumcenter a b c) a ≤ sqd (circumcenter a b c) p) → ∀ v ∈ Vs, ∀ w ∈ Vs,
      sqd (circumcenter a b c) v ≤ sqd (circumcenter a b c) w ∨ κ ^ 3 * M ^ 2 / 2 ^ 35 < sqd (circumcenter a b c) v - sqd (circumcenter a b c) w) :
    Spread Vs M κ := by
  have hM : 0 < M := lt_of_lt_of_le (by norm_num) low
  have hd : ∀ a ∈ Vs, ∀ b ∈ Vs, ∀ c ∈ Vs, a ≠ b → b ≠ c → c ≠ a → dOf a b c ≠ 0 := by
    intro a ha b hb c hc n1 n2 n3
    have := shape a ha b hb c hc n1 n2 n3
    rw [orient_dOf] at this
    exact shape_ne hM this
  have eq : ∀ {a b c o : R3.Vector ℚ}, dOf a b c ≠ 0 → Centre o a b c → ∀ v, sqd o v = sqd (circumcenter a b c) v := by
    intro a b c o hd hc v
    obtain ⟨ex, ey⟩ := centre_eq hd hc
    unfold sqd; rw [ex, ey]
  refine ⟨low, high, one, cap, three, distinct, size, shape, ?_, near, ?_, ?_⟩
  · intro a ha b hb c hc d hd' n1 n2 n3 n4 n5 n6 o ho
    rw [eq (hd a ha b hb c hc n1 n4 n2.symm) ho, eq (hd a ha b hb c hc n1 n4 n2.symm) ho]
    exact circle a ha b hb c hc d hd' n1 n2 n3 n4 n5 n6
  · intro a ha b hb nab hn v hv w hw n1 n2 n3 n4 o o' ho ho'
    rw [eq (hd a ha b hb v hv nab n2.symm n1) ho, eq (hd a ha b hb w hw nab n4.symm n3) ho']
    exact radius a ha b hb nab hn v hv w hw n1 n2 n3 n4
  · intro a ha b hb c hc n1 n2 n3 o ho hemp v hv w hw
    have hz := hd a ha b hb c hc n1 n2 n3
    rw [eq hz ho v, eq hz ho w]
    refine order a ha b hb c hc n1 n2 n3 (fun p hp => ?_) v hv w hw
    rw [← eq hz ho, ← eq hz ho]
    exact hemp p hp

/-- such points are apart by the measure of the program -/
theorem Spread.separated {Vs : List (R3.Vector F64)} {M κ : ℚ} (hfin : FinitePlanar Vs) (h : Spread (Vs.map exactV) M κ) : Separated (Vs.map exactV) := by
  have hM : 0 < M := lt_of_lt_of_le (by norm_num) h.low
  have hlow : (1 / 2 ^ 14) ^ 2 ≤ M ^ 2 := pow_le_pow_left₀ (by norm_num) h.low 2
  intro p hp q hq
  by_cases e : p = q
  · exact Or.inl e
  · right
    have hf := h.well.far hq hp (Ne.symm e)
    have hpos : 1 / 2 ^ 52 < dist2 p q := by
      refine lt_of_lt_of_le ?_ hf
      rw [lt_div_iff₀ (by norm_num)]
      refine lt_of_lt_of_le ?_ hlow
      norm_num
    refine ⟨?_, ?_⟩
    · rintro ⟨hx, hy⟩
      simp only [dist2, hx, hy, sub_self] at hpos
      norm_num at hpos
    · intro hn
      have : dist2 p q < 1 / 2 ^ 52 := by
        obtain ⟨v, hv, rfl⟩ := List.mem_map.mp hp
        obtain ⟨w, hw, rfl⟩ := List.mem_map.mp hq
        have z1 : (exactV v).Z = 0 := by unfold exactV; rw [planar_z hfin hv]; rfl
        have z2 : (exactV w).Z = 0 := by unfold exactV; rw [planar_z hfin hw]; rfl
        have hn' := hn
        simp only [Near, z1, z2] at hn'
        refine lt_of_le_of_lt (le_of_eq ?_) hn'
        unfold dist2; ring
      linarith

theorem Spread.hull {Vs : List (R3.Vector F64)} {M κ : ℚ} (hfin : FinitePlanar Vs) (h : Spread (Vs.map exactV) M κ) (hM2 : M ≤ 2 ^ 34) : HullMargin Vs M := by
  have hM : 0 < M := lt_of_lt_of_le (by norm_num) h.low
  have hMM : 0 < M ^ 2 := by positivity
  have hlow : (1 / 2 ^ 14) ^ 2 ≤ M ^ 2 := pow_le_pow_left₀ (by norm_num) h.low 2
  have mem : ∀ {v : R3.Vector F64}, v ∈ Vs → exactV v ∈ Vs.map exactV := fun h => List.mem_map_of_mem h
  refine ⟨le_trans (by norm_num) h.low, hM2, ?_, ?_, ?_⟩
  · intro v hv
    obtain ⟨f1, f2, f3⟩ := hfin v hv
    obtain ⟨s1, s2⟩ := h.size _ (mem hv)
    refine ⟨⟨f1, s1⟩, ⟨f2, s2⟩, ?_⟩
    rw [f3]
    exact ⟨trivial, by rw [show (0 : F64).toQ = 0 from rfl, abs_zero]; exact hM.le⟩
  · intro a ha b hb hne
    have hf := h.well.far (mem hb) (mem ha) (Ne.symm hne)
    have e : dist2 (exactV a) (exactV b) = (a.X.toQ - b.X.toQ) ^ 2 + (a.Y.toQ - b.Y.toQ) ^ 2 := rfl
    rw [e] at hf
    have hz : (a.Z.toQ - b.Z.toQ) ^ 2 = 0 := by rw [planar_z hfin ha, planar_z hfin hb]; simp
    have hpos : 1 / 2 ^ 52 + 66 / 2 ^ 53 * M ^ 2 < M ^ 2 / 2 ^ 19 := by
      generalize M ^ 2 = m at *
      norm_num at *
      linarith
    refine ⟨?_, ?_⟩
    · by_contra hn
      push Not at hn
      rw [hn.1, hn.2, sub_self, sub_self] at hf
      have : 0 < M ^ 2 / 2 ^ 19 := by positivity
      norm_num at hf
      linarith
    · rw [hz]; linarith
  · intro a ha b hb c hc n1 n2 n3
    have hs := h.shape _ (mem ha) _ (mem hb) _ (mem hc) n1 n2 n3
    have e : orient (exactV a) (exactV b) (exactV c) = (b.X.toQ - a.X.toQ) * (c.Y.toQ - a.Y.toQ) - (b.Y.toQ - a.Y.toQ) * (c.X.toQ - a.X.toQ) := rfl
    rw [e] at hs
    generalize |(b.X.toQ - a.X.toQ) * (c.Y.toQ - a.Y.toQ) - (b.Y.toQ - a.Y.toQ) * (c.X.toQ - a.X.toQ)| = X at *
    have hk := h.cap
    have hk1 := h.one
    have hX : 0 ≤ X := by
      by_contra hn
      have : κ * X ≤ 0 := mul_nonpos_of_nonneg_of_nonpos (by linarith) (by linarith)
      linarith
    have h4 : κ * X ≤ 256 * X := mul_le_mul_of_nonneg_right hk hX
    generalize M ^ 2 = m at *
    norm_num at *
    linarith

/-! ## The triangulation -/

section
variable (srt : R3.Vector F64 → List ℤ → List ℤ) (hsrt : ∀ c l, (srt c l).Perm l) (hashSize : ℕ → ℕ) (fuel : ℕ) (Vs : List (R3.Vector F64)) {M κ : ℚ}
  (hfin : FinitePlanar Vs) (hW : Spread (Vs.map exactV) M κ) (hash : 0 < hashSize Vs.length) (hash' : hashSize Vs.length < 2 ^ 53) (hf : 6 * Vs.length < fuel)
include hsrt hfin hW hash hash' hf

/-- C87: `Triangulate`, computed in float64 on well spread points, ends with a triangulation, for every order `srt` may produce -/
theorem C87_outcome : ∃ hull ts hs, Triangulate srt hashSize fuel Vs = .ok (.triangulation hull ts hs) := by
  obtain ⟨i0, i1, i2, o, hS, _⟩ := hW.well.right hfin
  exact C77_outcome srt hsrt hashSize fuel Vs hfin (C78_signs hfin hW.well.margin) hS hash hash' hf

variable {hull : List (R3.Vector F64)} {ts hs : List ℤ} (h : Triangulate srt hashSize fuel Vs = .ok (.triangulation hull ts hs))
include h

/-- C87: its tables are consistent, it is exactly a Delaunay triangulation of its vertices, and its triangles cover the hull without overlap -/
theorem C87_delaunay : Consistent (Vs.map exactV) (hull.map exactV) ts hs ∧ Delaunay (Vs.map exactV) ts ∧
    (∀ x, Inside (hull.map exactV) x → ∃ k a b c, Corners (Vs.map exactV) ts k a b c ∧ InTri a b c x) ∧
    ∀ (x : R3.Vector ℚ) (j k : ℕ) (a b c a' b' c' : R3.Vector ℚ), Corners (Vs.map exactV) ts j a b c → Corners (Vs.map exactV) ts k a' b' c' →
      (orient a b x < 0 ∧ orient b c x < 0 ∧ orient c a x < 0) → (orient a' b' x < 0 ∧ orient b' c' x < 0 ∧ orient c' a' x < 0) → j = k := by
  obtain ⟨i0, i1, i2, o, hS, _⟩ := hW.well.right hfin
  have hg := C78_signs hfin hW.well.margin
  exact ⟨C77_consistent srt hsrt hashSize fuel Vs hfin hg hS hash hash' hf h, C77_delaunay srt hsrt hashSize fuel Vs hfin hg hS hash hash' hf h,
    C77_fills srt hsrt hashSize fuel Vs hfin hg hS hash hash' hf h,
    fun x _ _ _ _ _ _ _ _ hj hk sj sk => C77_disjoint srt hsrt hashSize fuel Vs hfin hg hS hash hash' hf h x hj hk sj sk⟩

variable (hs' : SortsCall srt Vs)
include hs'

/-- C87: if `sort.Sort` sorts by the computed distances, the vertices are exactly the input points, there are `2 n - 2 - h` triangles, and the hull is the
boundary polygon of the points -/
theorem C87_all : (∀ i : ℕ, i < Vs.length ↔ (i:ℤ) ∈ ts) ∧ ts.length = 3 * (2 * Vs.length - 2 - hull.length) ∧
    (∀ p ∈ Vs, Inside (hull.map exactV) (exactV p)) ∧ BoundaryPolygon (Vs.map exactV) (hull.map exactV) := by
  obtain ⟨i0, i1, i2, o, hS, hO⟩ := hW.well.right hfin
  exact C77_all srt hsrt hashSize fuel Vs hfin (C78_signs hfin hW.well.margin) hS hash hash' hf h hs' hO hW.distinct
    fun p hp q hq e => hW.well.not_near hfin hp hq e

/-- C87: it has the same triangles as the triangulation computed with exact numbers -/
theorem C87_same (srtQ : R3.Vector ℚ → List ℤ → List ℤ) (hsrtQ : ∀ c l, (srtQ c l).Perm l) (hsQ : Sorts srtQ (Vs.map exactV))
    {hullQ : List (R3.Vector ℚ)} {tsQ hsQ' : List ℤ} (hQ : Triangulate srtQ hashSize fuel (Vs.map exactV) = .ok (.triangulation hullQ tsQ hsQ')) :
    ts.length = tsQ.length ∧ ∀ a b c, HasTriangle (Vs.map exactV) ts a b c ↔ HasTriangle (Vs.map exactV) tsQ a b c := by
  obtain ⟨i0, i1, i2, o, hS, hO⟩ := hW.well.right hfin
  exact C78_same srt hsrt hashSize fuel Vs hfin hW.well.margin hS hash hash' hf hs' hO (fun p hp q hq e => hW.well.not_near hfin hp hq e) h
    srtQ hsrtQ hsQ (hW.separated hfin) hQ

/-- C87: its hull is the polygon of `ConvexHull`, computed in float64 as well, up to the starting point -/
theorem C87_hull (hM : M ≤ 2 ^ 34) {hsort : List (R3.Vector F64) → List (R3.Vector F64)} (hH : SortsHullF hsort Vs) :
    (hull.map exactV).IsRotated ((ConvexHull hsort Vs).map exactV) := by
  have B1 := (C87_all srt hsrt hashSize fuel Vs hfin hW hash hash' hf h hs').2.2.2
  have hsep := hW.separated hfin
  have hC : NotCollinear (Vs.map exactV) := by
    obtain ⟨a, b, c, r, e⟩ : ∃ a b c r, Vs.map exactV = a :: b :: c :: r := by
      have := hW.three
      generalize Vs.map exactV = l at this
      rcases l with _ | ⟨a, _ | ⟨b, _ | ⟨c, r⟩⟩⟩
      · simp at this
      · simp at this
      · simp at this
      · exact ⟨a, b, c, r, rfl⟩
    have hd := hW.distinct
    have hs := hW.shape
    rw [e] at hd hs ⊢
    have hp : 0 < M := hW.well.mpos
    simp only [List.nodup_cons, List.mem_cons, not_or] at hd
    obtain ⟨⟨d1, d2, _⟩, ⟨d3, _⟩, _⟩ := hd
    refine ⟨a, by simp, b, by simp, c, by simp, ?_⟩
    have := hs a (by simp) b (by simp) c (by simp) d1 d3 (Ne.symm d2)
    intro e'
    rw [show orient a b c = 0 from e', abs_zero, mul_zero] at this
    have : 0 < M ^ 2 := by positivity
    linarith
  exact C73_unique hC (separated_distinct hsep) B1 ((C84_margin hsort Vs hH (hW.hull hfin hM)).2.1 hC)

/-- C87: `Validate`, computed in float64, accepts it, if number and size of the coordinates are moderate -/
theorem C87_validate {hsort : List (R3.Vector F64) → List (R3.Vector F64)} (hH : SortsHullF hsort Vs) (hM : M ≤ 2 ^ 34)
    (n1 : Vs.length ≤ 500000) (n2 : Vs.length * M ^ 2 ≤ 29000) (n3 : Vs.length * M ≤ 35000) : Validate hsort Vs hull ts hs = .ok true := by
  obtain ⟨i0, i1, i2, o, hS, hO⟩ := hW.well.right hfin
  exact C86_validate srt hsrt hashSize fuel Vs hfin (C78_signs hfin hW.well.margin) hS hash hash' hf h hs' hO (hW.hull hfin hM).agrees (hW.separated hfin) hH
    hW.well.low40 hM (fun v hv => hW.well.margin.bounded hfin hv) n1 n2 n3

end

/-! ## The conditions hold for the six points -/

set_option synthInstance.maxSize 1000 in
set_option synthInstance.maxHeartbeats 400000 in
theorem sample_spread : Spread (seedSample.map exactV) 4 31 := by
  refine Spread.of_centers (by norm_num) (by norm_num) (by norm_num) (by norm_num) (by decide +kernel) (by decide +kernel) (by decide +kernel)
    (by decide +kernel) (by decide +kernel) (by decide +kernel) (by decide +kernel) (by decide +kernel)

example (srt : R3.Vector F64 → List ℤ → List ℤ) (hsrt : ∀ c l, (srt c l).Perm l) (hs' : SortsCall srt seedSample)
    (hsort : List (R3.Vector F64) → List (R3.Vector F64)) (hH : SortsHullF hsort seedSample) :
    ∃ hull ts hs, Triangulate srt (fun _ => 3) 40 seedSample = .ok (.triangulation hull ts hs) ∧ Delaunay (seedSample.map exactV) ts ∧
      Validate hsort seedSample hull ts hs = .ok true := by
  obtain ⟨hull, ts, hs, e⟩ := C87_outcome srt hsrt (fun _ => 3) 40 seedSample sample_finite sample_spread (by norm_num) (by norm_num) (by decide)
  exact ⟨hull, ts, hs, e, (C87_delaunay srt hsrt (fun _ => 3) 40 seedSample sample_finite sample_spread (by norm_num) (by norm_num) (by decide) e).2.1,
    C87_validate srt hsrt (fun _ => 3) 40 seedSample sample_finite sample_spread (by norm_num) (by norm_num) (by decide) e hs' hH (by norm_num) (by decide)
      (by decide +kernel) (by decide +kernel)⟩

end Verif.Props
