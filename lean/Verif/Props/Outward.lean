import Verif.Props.ShapeMesh
import Verif.Props.ShapeFloat
import Verif.Props.Export32
/-!
# C105: the triangles of the sphere and of the torus face outwards (shape/sphere.go:29-122, shape/torus.go:29-122, glTF/model.go)

A triangle faces outwards if its corners go counter-clockwise seen from outside, which is what a glTF viewer needs to draw it. For the sphere that is a positive
volume of the tetrahedron from the origin, the point the vertices lie around (C47).
-/
namespace Verif.Props
open Verif Verif.F64 Verif.Proofs Verif.R3 Verif.Shape

/-- the triangle number `k` of an index list -/
def TriAt (is : List ℕ) (k a b c : ℕ) : Prop := is[3*k]? = some a ∧ is[3*k+1]? = some b ∧ is[3*k+2]? = some c

/-- six times the signed volume of the tetrahedron of the origin and three points -/
def volume6 {K : Type} [_root_.Add K] [_root_.Sub K] [Mul K] (a b c : R3.Vector K) : K :=
  a.X * (b.Y * c.Z - b.Z * c.Y) - a.Y * (b.X * c.Z - b.Z * c.X) + a.Z * (b.X * c.Y - b.Y * c.X)

theorem flat_get : ∀ (l : List Tri) (k a b c : ℕ), TriAt (flat l) k a b c ↔ l[k]? = some (a, b, c) := by
  intro l
  induction l with
  | nil => intro k a b c; simp [TriAt, flat]
  | cons t l ih =>
    intro k a b c
    have e : flat (t :: l) = t.1 :: t.2.1 :: t.2.2 :: flat l := rfl
    cases k with
    | zero =>
      unfold TriAt
      rw [e]
      simp only [Nat.mul_zero, List.getElem?_cons_zero, Nat.zero_add, List.getElem?_cons_succ, Option.some.injEq]
      constructor
      · rintro ⟨rfl, rfl, rfl⟩; rfl
      · rintro rfl; exact ⟨rfl, rfl, rfl⟩
    | succ k =>
      rw [List.getElem?_cons_succ, ← ih k a b c]
      unfold TriAt
      rw [e, show 3 * (k+1) = 3*k+1+1+1 by ring]
      simp only [List.getElem?_cons_succ]

/-- every triangle of the grid is one of the two of a quad -/
theorem tri_cases {sc st : ℕ} (hst : 2 ≤ st) (hsz : st * (sc+1) < 2^32) {k a b c : ℕ} (h : TriAt (gridIndices (sc:ℤ) (st:ℤ)) k a b c) :
    ∃ i j, i + 1 < st ∧ j < sc ∧
      ((1 ≤ i ∧ a = i*(sc+1)+j ∧ b = (i+1)*(sc+1)+j ∧ c = i*(sc+1)+(j+1)) ∨
       (a = i*(sc+1)+(j+1) ∧ b = (i+1)*(sc+1)+j ∧ c = (i+1)*(sc+1)+(j+1))) := by
  rw [C48_gridIndices sc st hst hsz, flat_get] at h
  have hm := List.mem_of_getElem? h
  unfold gridTris at hm
  obtain ⟨⟨s, q⟩, hq, e⟩ := List.mem_map.mp hm
  obtain ⟨i, j, hi, hj, rfl, hb⟩ := gridKeys_coord sc st hst s q hq
  have e1 : (i+1)*(sc+1)+j = i*(sc+1)+j+(sc+1) := by ring
  refine ⟨i, j, hi, hj, ?_⟩
  cases s
  · left
    simp only [quadTri, lower, Bool.false_eq_true, if_false, Prod.mk.injEq] at e
    exact ⟨hb rfl, by omega⟩
  · right
    simp only [quadTri, upper, if_true, Prod.mk.injEq] at e
    omega

/-! ## Sphere -/

theorem sin_sector {sc : ℕ} (h : 3 ≤ sc) : 0 < Real.sin (2 * Real.pi / sc) := by
  have hp := Real.pi_pos
  have h3 : (3:ℝ) ≤ sc := by exact_mod_cast h
  apply Real.sin_pos_of_pos_of_lt_pi
  · positivity
  · rw [div_lt_iff₀ (by linarith)]; nlinarith

theorem sin_stack {st i : ℕ} (h : 1 ≤ i) (h' : i < st) : 0 < Real.sin (i * (Real.pi / st)) := by
  have hp := Real.pi_pos
  have h3 : (0:ℝ) < st := by exact_mod_cast (by omega : 0 < st)
  have h4 : (i:ℝ) < st := by exact_mod_cast h'
  have h5 : (0:ℝ) < i := by exact_mod_cast h
  apply Real.sin_pos_of_pos_of_lt_pi
  · positivity
  · rw [mul_div_assoc', div_lt_iff₀ h3]; nlinarith

/-- position of the vertex at stack `i` and sector `j` -/
noncomputable def sphereAt (r : ℝ) (sc st i j : ℕ) : R3.Vector ℝ :=
  ⟨r * Real.cos (Real.pi/2 - i * (Real.pi / st)) * Real.cos (j * (2 * Real.pi / sc)),
   r * Real.cos (Real.pi/2 - i * (Real.pi / st)) * Real.sin (j * (2 * Real.pi / sc)),
   r * Real.sin (Real.pi/2 - i * (Real.pi / st))⟩

theorem sphere_volume (r : ℝ) (sc st i j : ℕ) :
    volume6 (sphereAt r sc st i j) (sphereAt r sc st (i+1) j) (sphereAt r sc st i (j+1)) =
      r ^ 3 * (Real.sin (i * (Real.pi / st)) * Real.sin (2 * Real.pi / sc) * Real.sin (Real.pi / st)) ∧
    volume6 (sphereAt r sc st i (j+1)) (sphereAt r sc st (i+1) j) (sphereAt r sc st (i+1) (j+1)) =
      r ^ 3 * (Real.sin ((i+1 : ℕ) * (Real.pi / st)) * Real.sin (2 * Real.pi / sc) * Real.sin (Real.pi / st)) := by
  have e1 : Real.sin (2 * Real.pi / sc) = Real.sin ((j+1 : ℕ) * (2 * Real.pi / sc) - j * (2 * Real.pi / sc)) := by congr 1; push_cast; ring
  have e2 : Real.sin (Real.pi / st) = Real.sin ((i+1 : ℕ) * (Real.pi / st) - i * (Real.pi / st)) := by congr 1; push_cast; ring
  rw [e1, e2, Real.sin_sub, Real.sin_sub]
  unfold volume6 sphereAt
  simp only [Real.cos_pi_div_two_sub, Real.sin_pi_div_two_sub]
  constructor <;> ring

/-- C105: in real arithmetic every triangle of the sphere faces outwards, away from the origin, and none is degenerate; for a negative radius all face inwards -/
theorem C105_sphere (c : R3.Vector ℝ) (r : ℝ) (sc st : ℕ) (hsc : 3 ≤ sc) (hst : 2 ≤ st) (hsz : st * (sc+1) < 2^32) :
    ∃ m, Sphere.Construct ⟨c, r, sc, st⟩ = .ok m ∧ ∀ k a b d, TriAt m.Indices k a b d →
      ∃ u v w, m.Vertices[a]? = some u ∧ m.Vertices[b]? = some v ∧ m.Vertices[d]? = some w ∧
        (0 < r → 0 < volume6 u v w) ∧ (r < 0 → volume6 u v w < 0) := by
  obtain ⟨m, e, hi, _, _, _, hm⟩ := C47_sphere_vertices c r sc st (by omega)
  have hm' : ∀ i j, i < st → j ≤ sc → m.Vertices[i * (sc+1) + j]? = some (sphereAt r sc st i j) := fun i j h1 h2 => (hm i j h1 h2).1
  refine ⟨m, e, fun k a b d h => ?_⟩
  rw [hi] at h
  have s1 := sin_sector hsc
  have s2 := sin_stack (st := st) (i := 1) le_rfl (by omega)
  rw [Nat.cast_one, one_mul] at s2
  obtain ⟨i, j, h1, h2, ⟨h3, rfl, rfl, rfl⟩ | ⟨rfl, rfl, rfl⟩⟩ := tri_cases hst hsz h
  · refine ⟨_, _, _, hm' i j (by omega) (by omega), hm' (i+1) j h1 (by omega), hm' i (j+1) (by omega) (by omega), ?_⟩
    rw [(sphere_volume r sc st i j).1]
    have := mul_pos (mul_pos (sin_stack h3 (by omega : i < st)) s1) s2
    exact ⟨fun hr => mul_pos (pow_pos hr 3) this, fun hr => mul_neg_of_neg_of_pos (Odd.pow_neg (by decide) hr) this⟩
  · refine ⟨_, _, _, hm' i (j+1) (by omega) (by omega), hm' (i+1) j h1 (by omega), hm' (i+1) (j+1) h1 (by omega), ?_⟩
    rw [(sphere_volume r sc st i j).2]
    have := mul_pos (mul_pos (sin_stack (by omega : 1 ≤ i+1) h1) s1) s2
    exact ⟨fun hr => mul_pos (pow_pos hr 3) this, fun hr => mul_neg_of_neg_of_pos (Odd.pow_neg (by decide) hr) this⟩

/-- C105: three sectors are needed: with one or two sectors every triangle is flat -/
theorem C105_sectors_flat (c : R3.Vector ℝ) (r : ℝ) (sc st : ℕ) (hsc : 1 ≤ sc) (hsc' : sc ≤ 2) (hst : 2 ≤ st) (hsz : st * (sc+1) < 2^32) :
    ∃ m, Sphere.Construct ⟨c, r, sc, st⟩ = .ok m ∧ m.Indices ≠ [] ∧ ∀ k a b d, TriAt m.Indices k a b d →
      ∃ u v w, m.Vertices[a]? = some u ∧ m.Vertices[b]? = some v ∧ m.Vertices[d]? = some w ∧ volume6 u v w = 0 := by
  obtain ⟨m, e, hi, _, _, _, hm⟩ := C47_sphere_vertices c r sc st (by omega)
  have hm' : ∀ i j, i < st → j ≤ sc → m.Vertices[i * (sc+1) + j]? = some (sphereAt r sc st i j) := fun i j h1 h2 => (hm i j h1 h2).1
  have s1 : Real.sin (2 * Real.pi / sc) = 0 := by
    rcases (by omega : sc = 1 ∨ sc = 2) with rfl | rfl
    · simp
    · simp
  refine ⟨m, e, ?_, fun k a b d h => ?_⟩
  · rw [hi]
    intro h0
    have := (C48_indices sc st hst hsz).2
    rw [h0, List.length_nil] at this
    omega
  rw [hi] at h
  obtain ⟨i, j, h1, h2, ⟨h3, rfl, rfl, rfl⟩ | ⟨rfl, rfl, rfl⟩⟩ := tri_cases hst hsz h
  · refine ⟨_, _, _, hm' i j (by omega) (by omega), hm' (i+1) j h1 (by omega), hm' i (j+1) (by omega) (by omega), ?_⟩
    rw [(sphere_volume r sc st i j).1, s1]; ring
  · refine ⟨_, _, _, hm' i (j+1) (by omega) (by omega), hm' (i+1) j h1 (by omega), hm' (i+1) (j+1) h1 (by omega), ?_⟩
    rw [(sphere_volume r sc st i j).2, s1]; ring

/-! ## Torus -/

/-- the distance from the axis times the outward normal of the torus with centre circle of radius `R` through a point: half the gradient of `(ρ - R)^2 + z^2` -/
noncomputable def torusNormal (R : ℝ) (p : R3.Vector ℝ) : R3.Vector ℝ :=
  ⟨(Real.sqrt (p.X^2 + p.Y^2) - R) * p.X, (Real.sqrt (p.X^2 + p.Y^2) - R) * p.Y, Real.sqrt (p.X^2 + p.Y^2) * p.Z⟩

/-- dot product of a vector with `(v - u) × (w - u)` -/
def facing (n u v w : R3.Vector ℝ) : ℝ :=
  n.X * ((v.Y - u.Y) * (w.Z - u.Z) - (v.Z - u.Z) * (w.Y - u.Y)) + n.Y * ((v.Z - u.Z) * (w.X - u.X) - (v.X - u.X) * (w.Z - u.Z)) +
    n.Z * ((v.X - u.X) * (w.Y - u.Y) - (v.Y - u.Y) * (w.X - u.X))

noncomputable def torusAt (R t : ℝ) (sc st i j : ℕ) : R3.Vector ℝ :=
  ⟨(R + t * Real.cos (Real.pi/2 - i * (2 * Real.pi / st))) * Real.cos (j * (2 * Real.pi / sc)),
   (R + t * Real.cos (Real.pi/2 - i * (2 * Real.pi / st))) * Real.sin (j * (2 * Real.pi / sc)),
   t * Real.sin (Real.pi/2 - i * (2 * Real.pi / st))⟩

theorem torus_ring {R t : ℝ} (h0 : 0 < t) (h : t < R) (α : ℝ) : 0 < R + t * Real.cos α := by
  have := mul_le_mul_of_nonneg_left (Real.neg_one_le_cos α) h0.le
  linarith

theorem torusNormal_at {R t : ℝ} (h0 : 0 < t) (h : t < R) (sc st i j : ℕ) :
    torusNormal R (torusAt R t sc st i j) =
      ⟨(R + t * Real.cos (Real.pi/2 - i * (2 * Real.pi / st))) * (t * Real.cos (Real.pi/2 - i * (2 * Real.pi / st)) * Real.cos (j * (2 * Real.pi / sc))),
       (R + t * Real.cos (Real.pi/2 - i * (2 * Real.pi / st))) * (t * Real.cos (Real.pi/2 - i * (2 * Real.pi / st)) * Real.sin (j * (2 * Real.pi / sc))),
       (R + t * Real.cos (Real.pi/2 - i * (2 * Real.pi / st))) * (t * Real.sin (Real.pi/2 - i * (2 * Real.pi / st)))⟩ := by
  unfold torusNormal torusAt
  have hw := torus_ring h0 h (Real.pi/2 - i * (2 * Real.pi / st))
  generalize Real.pi/2 - i * (2 * Real.pi / st) = α at *
  generalize (j:ℝ) * (2 * Real.pi / sc) = β at *
  have e : Real.sqrt (((R + t * Real.cos α) * Real.cos β)^2 + ((R + t * Real.cos α) * Real.sin β)^2) = R + t * Real.cos α := by
    rw [mul_pow, mul_pow, ← mul_add, Real.cos_sq_add_sin_sq, mul_one, Real.sqrt_sq hw.le]
  dsimp only
  rw [e]
  ext <;> simp only <;> ring

theorem torus_facing {R t : ℝ} (h0 : 0 < t) (h : t < R) {sc st : ℕ} (hsc : 3 ≤ sc) (hst : 3 ≤ st) (i j : ℕ) :
    (∀ p, p = torusAt R t sc st i j ∨ p = torusAt R t sc st (i+1) j ∨ p = torusAt R t sc st i (j+1) →
      0 < facing (torusNormal R p) (torusAt R t sc st i j) (torusAt R t sc st (i+1) j) (torusAt R t sc st i (j+1))) ∧
    (∀ p, p = torusAt R t sc st i (j+1) ∨ p = torusAt R t sc st (i+1) j ∨ p = torusAt R t sc st (i+1) (j+1) →
      0 < facing (torusNormal R p) (torusAt R t sc st i (j+1)) (torusAt R t sc st (i+1) j) (torusAt R t sc st (i+1) (j+1))) := by
  have s1 := sin_sector hsc
  have s2 := sin_sector hst
  have e1 : Real.sin (2 * Real.pi / sc) = Real.sin ((j+1 : ℕ) * (2 * Real.pi / sc) - j * (2 * Real.pi / sc)) := by congr 1; push_cast; ring
  have e2 : Real.sin (2 * Real.pi / st) = Real.sin ((Real.pi/2 - i * (2 * Real.pi / st)) - (Real.pi/2 - (i+1 : ℕ) * (2 * Real.pi / st))) := by
    congr 1; push_cast; ring
  rw [e1, Real.sin_sub] at s1
  rw [e2, Real.sin_sub] at s2
  have w1 := torus_ring h0 h (Real.pi/2 - i * (2 * Real.pi / st))
  have w2 := torus_ring h0 h (Real.pi/2 - (i+1 : ℕ) * (2 * Real.pi / st))
  have n1 := torusNormal_at h0 h sc st i j
  have n2 := torusNormal_at h0 h sc st (i+1) j
  have n3 := torusNormal_at h0 h sc st i (j+1)
  have n4 := torusNormal_at h0 h sc st (i+1) (j+1)
  have t2 := mul_pos h0 h0
  constructor
  · rintro p (rfl | rfl | rfl)
    · rw [n1]
      refine lt_of_lt_of_eq (mul_pos (mul_pos w1 w1) (mul_pos t2 (mul_pos s1 s2))) ?_
      unfold facing torusAt; ring
    · rw [n2]
      refine lt_of_lt_of_eq (mul_pos (mul_pos w1 w2) (mul_pos t2 (mul_pos s1 s2))) ?_
      unfold facing torusAt; ring
    · rw [n3]
      refine lt_of_lt_of_eq (mul_pos (mul_pos w1 w1) (mul_pos t2 (mul_pos s1 s2))) ?_
      unfold facing torusAt; ring
  · rintro p (rfl | rfl | rfl)
    · rw [n3]
      refine lt_of_lt_of_eq (mul_pos (mul_pos w2 w1) (mul_pos t2 (mul_pos s1 s2))) ?_
      unfold facing torusAt; ring
    · rw [n2]
      refine lt_of_lt_of_eq (mul_pos (mul_pos w2 w2) (mul_pos t2 (mul_pos s1 s2))) ?_
      unfold facing torusAt; ring
    · rw [n4]
      refine lt_of_lt_of_eq (mul_pos (mul_pos w2 w2) (mul_pos t2 (mul_pos s1 s2))) ?_
      unfold facing torusAt; ring

/-- C105: in real arithmetic every triangle of a torus whose tube does not reach the axis faces outwards: its normal has a positive dot product with the
outward normals of the torus at all three corners -/
theorem C105_torus (c : R3.Vector ℝ) (R t : ℝ) (h0 : 0 < t) (h : t < R) (sc st : ℕ) (hsc : 3 ≤ sc) (hst : 3 ≤ st) (hsz : st * (sc+1) < 2^32) :
    ∃ m, Torus.Construct ⟨c, R, t, sc, st⟩ = .ok m ∧ ∀ k a b d, TriAt m.Indices k a b d →
      ∃ u v w, m.Vertices[a]? = some u ∧ m.Vertices[b]? = some v ∧ m.Vertices[d]? = some w ∧
        0 < facing (torusNormal R u) u v w ∧ 0 < facing (torusNormal R v) u v w ∧ 0 < facing (torusNormal R w) u v w := by
  obtain ⟨m, e, hi, _, _, _, hm⟩ := C47_torus_vertices c R t sc st (by omega)
  have hm' : ∀ i j, i < st → j ≤ sc → m.Vertices[i * (sc+1) + j]? = some (torusAt R t sc st i j) := fun i j h1 h2 => (hm i j h1 h2).1
  refine ⟨m, e, fun k a b d hk => ?_⟩
  rw [hi] at hk
  obtain ⟨i, j, h1, h2, ⟨h3, rfl, rfl, rfl⟩ | ⟨rfl, rfl, rfl⟩⟩ := tri_cases (by omega) hsz hk
  · refine ⟨_, _, _, hm' i j (by omega) (by omega), hm' (i+1) j h1 (by omega), hm' i (j+1) (by omega) (by omega), ?_⟩
    have := (torus_facing h0 h hsc hst i j).1
    exact ⟨this _ (by simp), this _ (by simp), this _ (by simp)⟩
  · refine ⟨_, _, _, hm' i (j+1) (by omega) (by omega), hm' (i+1) j h1 (by omega), hm' (i+1) (j+1) h1 (by omega), ?_⟩
    have := (torus_facing h0 h hsc hst i j).2
    exact ⟨this _ (by simp), this _ (by simp), this _ (by simp)⟩

/-- a normal of the mesh as a vector -/
def normalV (n : ℝ × ℝ × ℝ) : R3.Vector ℝ := ⟨n.1, n.2.1, n.2.2⟩

/-- C105: for the sphere the stored normals of the three corners of a triangle agree with the side from which the corners are counter-clockwise,
for positive and for negative radius -/
theorem C105_sphere_normals (c : R3.Vector ℝ) (r : ℝ) (hr : r ≠ 0) (sc st : ℕ) (hsc : 3 ≤ sc) (hst : 2 ≤ st) (hsz : st * (sc+1) < 2^32) :
    ∃ m, Sphere.Construct ⟨c, r, sc, st⟩ = .ok m ∧ ∀ k a b d, TriAt m.Indices k a b d →
      ∃ u v w, m.Vertices[a]? = some u ∧ m.Vertices[b]? = some v ∧ m.Vertices[d]? = some w ∧
        ∀ x ∈ [a, b, d], ∃ n, m.Normals[x]? = some n ∧ 0 < facing (normalV n) u v w := by
  obtain ⟨m, e, h⟩ := C105_sphere c r sc st hsc hst hsz
  obtain ⟨m1, e1, h1⟩ := C51_sphere c r hr sc st (by omega)
  obtain ⟨m2, e2, _, l1, l2, _⟩ := C47_sphere_vertices c r sc st (by omega)
  obtain rfl : m = m1 := by rw [e, Res.ok.injEq] at e1; exact e1
  obtain rfl : m = m2 := by rw [e, Res.ok.injEq] at e2; exact e2
  refine ⟨m, e, fun k a b d hk => ?_⟩
  obtain ⟨u, v, w, hu, hv, hw, p1, p2⟩ := h k a b d hk
  refine ⟨u, v, w, hu, hv, hw, ?_⟩
  have key : ∀ (x : ℕ) (y : R3.Vector ℝ), m.Vertices[x]? = some y → y = u ∨ y = v ∨ y = w → ∃ n, m.Normals[x]? = some n ∧ 0 < facing (normalV n) u v w := by
    intro x y hx hy
    have hl : x < m.Normals.length := by
      have := (List.getElem?_eq_some_iff.mp hx).1
      omega
    refine ⟨_, List.getElem?_eq_getElem hl, ?_⟩
    have hn := (h1 x y _ hx (List.getElem?_eq_getElem hl)).2
    generalize m.Normals[x] = n at hn
    have f : r * facing (normalV n) u v w = volume6 u v w := by
      have e3 : r * facing (normalV n) u v w = facing y u v w := by rw [hn]; unfold facing normalV; ring
      rw [e3]
      rcases hy with rfl | rfl | rfl <;> unfold facing volume6 <;> ring
    rcases lt_or_gt_of_ne hr with hr | hr
    · have := p2 hr; rw [← f] at this; exact pos_of_mul_neg_right this hr.le
    · have := p1 hr; rw [← f] at this; exact pos_of_mul_pos_right this hr.le
  intro x hx
  simp only [List.mem_cons, List.not_mem_nil, or_false] at hx
  rcases hx with rfl | rfl | rfl
  · exact key _ u hu (by simp)
  · exact key _ v hv (by simp)
  · exact key _ w hw (by simp)

/-- dot product -/
def dot3 (a b : R3.Vector ℝ) : ℝ := a.X * b.X + a.Y * b.Y + a.Z * b.Z

/-- C105: for the torus they do not: a stored normal points out of the tube exactly at the vertices with `ρ R > R^2 - t^2`, and into it
if `ρ R < R^2 - t^2`, where `ρ` is the distance from the axis -/
theorem C105_torus_normals (c : R3.Vector ℝ) (R t : ℝ) (h0 : 0 < t) (h : t < R) (sc st : ℕ) (hsc : 0 < sc) :
    ∃ m, Torus.Construct ⟨c, R, t, sc, st⟩ = .ok m ∧ ∀ (k : ℕ) (v : R3.Vector ℝ) (n : ℝ × ℝ × ℝ), m.Vertices[k]? = some v → m.Normals[k]? = some n →
      (0 < dot3 (normalV n) (torusNormal R v) ↔ R^2 - t^2 < Real.sqrt (v.X^2 + v.Y^2) * R) ∧
      (dot3 (normalV n) (torusNormal R v) < 0 ↔ Real.sqrt (v.X^2 + v.Y^2) * R < R^2 - t^2) := by
  obtain ⟨m, e, _, l1, l2, _, hm⟩ := C47_torus_vertices c R t sc st hsc
  have R0 : 0 < R := h0.trans h
  refine ⟨m, e, fun k v n hv hn => ?_⟩
  have hk : k < st * (sc+1) := by rw [← l1]; exact (List.getElem?_eq_some_iff.mp hv).1
  obtain ⟨i, j, hi, hj, rfl⟩ := grid_index st (sc+1) k hk
  obtain ⟨a1, a2, _⟩ := hm i j hi (by omega)
  rw [a1, Option.some.injEq] at hv
  rw [a2, Option.some.injEq] at hn
  have hw := torus_ring h0 h (Real.pi/2 - i * (2 * Real.pi / st))
  have ht := torusNormal_at h0 h sc st i j
  have hv' : v = torusAt R t sc st i j := hv.symm
  have hs : Real.sqrt (v.X^2 + v.Y^2) = R + t * Real.cos (Real.pi/2 - i * (2 * Real.pi / st)) := by
    rw [← hv]
    dsimp only
    rw [mul_pow, mul_pow, ← mul_add, Real.cos_sq_add_sin_sq, mul_one, Real.sqrt_sq hw.le]
  rw [hs, hv', ht, ← hn]
  generalize Real.pi/2 - i * (2 * Real.pi / st) = α at *
  generalize (j:ℝ) * (2 * Real.pi / sc) = β at *
  have ca := Real.sin_sq_add_cos_sq α
  have cb := Real.sin_sq_add_cos_sq β
  have key : dot3 (normalV ((R + t * Real.cos α) * Real.cos β * (1 / R), (R + t * Real.cos α) * Real.sin β * (1 / R), t * Real.sin α * (1 / R)))
      ⟨(R + t * Real.cos α) * (t * Real.cos α * Real.cos β), (R + t * Real.cos α) * (t * Real.cos α * Real.sin β), (R + t * Real.cos α) * (t * Real.sin α)⟩ =
      (R + t * Real.cos α) * (1 / R) * ((R + t * Real.cos α) * R - (R^2 - t^2)) := by
    unfold dot3 normalV
    dsimp only
    linear_combination (R + t * Real.cos α) * (1 / R) * (R + t * Real.cos α) * t * Real.cos α * cb + (R + t * Real.cos α) * (1 / R) * t^2 * ca
  rw [key]
  have q : 0 < (R + t * Real.cos α) * (1 / R) := mul_pos hw (by positivity)
  constructor
  · rw [mul_pos_iff_of_pos_left q, sub_pos]
  · rw [← neg_pos, ← mul_neg, mul_pos_iff_of_pos_left q, neg_pos, sub_neg]

/-- C105: ConstructTorus stores normals that point into the tube, at all vertices of the inner equator -/
theorem C105_torus_normals_refuted (c : R3.Vector ℝ) (R t : ℝ) (h0 : 0 < t) (h : t < R) (j : ℕ) (hj : j ≤ 100) :
    ∃ m v n, ConstructTorus c R t = .ok m ∧ m.Vertices[75 * 101 + j]? = some v ∧ m.Normals[75 * 101 + j]? = some n ∧
      dot3 (normalV n) (torusNormal R v) < 0 := by
  obtain ⟨m, e, _, l1, l2, _, hm⟩ := C47_torus_vertices c R t 100 100 (by norm_num)
  obtain ⟨m', e', h'⟩ := C105_torus_normals c R t h0 h 100 100 (by norm_num)
  obtain rfl : m = m' := by rw [e, Res.ok.injEq] at e'; exact e'
  obtain ⟨a1, a2, _⟩ := hm 75 j (by norm_num) hj
  refine ⟨m, _, _, e, a1, a2, (h' _ _ _ a1 a2).2.mpr ?_⟩
  have hw := torus_ring h0 h (Real.pi/2 - (75:ℕ) * (2 * Real.pi / (100:ℕ)))
  dsimp only
  rw [mul_pow, mul_pow, ← mul_add, Real.cos_sq_add_sin_sq, mul_one, Real.sqrt_sq hw.le]
  have : Real.cos (Real.pi/2 - (75:ℕ) * (2 * Real.pi / (100:ℕ))) = -1 := by
    rw [show Real.pi/2 - (75:ℕ) * (2 * Real.pi / (100:ℕ)) = -Real.pi by push_cast; ring, Real.cos_neg, Real.cos_pi]
  rw [this]
  nlinarith

/-! ## The exported sphere -/

theorem prod3_near {B e x y z X Y Z : ℝ} (hB : 0 < B) (he : 0 ≤ e) (hX : |X| ≤ B) (hY : |Y| ≤ B) (hZ : |Z| ≤ B)
    (hx : |x - X| ≤ B * e) (hy : |y - Y| ≤ B * e) (hz : |z - Z| ≤ B * e) :
    |x * (y * z) - X * (Y * Z)| ≤ B ^ 3 * (3 * e + 3 * e^2 + e^3) := by
  have y1 : |y| ≤ B * (1 + e) := by
    have := abs_add_le (y - Y) Y; rw [sub_add_cancel] at this; linarith
  have z1 : |z| ≤ B * (1 + e) := by
    have := abs_add_le (z - Z) Z; rw [sub_add_cancel] at this; linarith
  have e0 : x * (y * z) - X * (Y * Z) = (x - X) * (y * z) + (X * ((y - Y) * z) + X * (Y * (z - Z))) := by ring
  rw [e0]
  have a1 : |(x - X) * (y * z)| ≤ B * e * (B * (1 + e) * (B * (1 + e))) := by
    rw [abs_mul, abs_mul]; gcongr
  have a2 : |X * ((y - Y) * z)| ≤ B * (B * e * (B * (1 + e))) := by
    rw [abs_mul, abs_mul]; gcongr
  have a3 : |X * (Y * (z - Z))| ≤ B * (B * (B * e)) := by
    rw [abs_mul, abs_mul]; gcongr
  have b1 := abs_add_le ((x - X) * (y * z)) (X * ((y - Y) * z) + X * (Y * (z - Z)))
  have b2 := abs_add_le (X * ((y - Y) * z)) (X * (Y * (z - Z)))
  nlinarith

/-- coordinatewise distance and size -/
def Near3 (d : ℝ) (p q : R3.Vector ℝ) : Prop := |p.X - q.X| ≤ d ∧ |p.Y - q.Y| ≤ d ∧ |p.Z - q.Z| ≤ d
def Size3 (d : ℝ) (p : R3.Vector ℝ) : Prop := |p.X| ≤ d ∧ |p.Y| ≤ d ∧ |p.Z| ≤ d

theorem volume_near {B e : ℝ} (hB : 0 < B) (he : 0 ≤ e) {a b c a' b' c' : R3.Vector ℝ} (h1 : Size3 B a) (h2 : Size3 B b) (h3 : Size3 B c)
    (n1 : Near3 (B * e) a' a) (n2 : Near3 (B * e) b' b) (n3 : Near3 (B * e) c' c) :
    |volume6 a' b' c' - volume6 a b c| ≤ B ^ 3 * (6 * (3 * e + 3 * e^2 + e^3)) := by
  obtain ⟨a1, a2, a3⟩ := h1
  obtain ⟨b1, b2, b3⟩ := h2
  obtain ⟨c1, c2, c3⟩ := h3
  obtain ⟨d1, d2, d3⟩ := n1
  obtain ⟨f1, f2, f3⟩ := n2
  obtain ⟨g1, g2, g3⟩ := n3
  have p1 := abs_le.mp (prod3_near hB he a1 b2 c3 d1 f2 g3)
  have p2 := abs_le.mp (prod3_near hB he a1 b3 c2 d1 f3 g2)
  have p3 := abs_le.mp (prod3_near hB he a2 b1 c3 d2 f1 g3)
  have p4 := abs_le.mp (prod3_near hB he a2 b3 c1 d2 f3 g1)
  have p5 := abs_le.mp (prod3_near hB he a3 b1 c2 d3 f1 g2)
  have p6 := abs_le.mp (prod3_near hB he a3 b2 c1 d3 f2 g1)
  unfold volume6
  rw [abs_le]
  constructor <;> linarith [p1.1, p1.2, p2.1, p2.2, p3.1, p3.2, p4.1, p4.2, p5.1, p5.2, p6.1, p6.2]

theorem sphereAt_size {r : ℝ} (hr : 0 < r) (sc st i j : ℕ) : Size3 r (sphereAt r sc st i j) := by
  unfold Size3 sphereAt
  generalize Real.pi/2 - i * (Real.pi / st) = α
  generalize (j:ℝ) * (2 * Real.pi / sc) = β
  have c1 := Real.abs_cos_le_one α
  have s1 := Real.abs_sin_le_one α
  have c2 := Real.abs_cos_le_one β
  have s2 := Real.abs_sin_le_one β
  dsimp only
  simp only [abs_mul, abs_of_pos hr, mul_assoc]
  refine ⟨mul_le_of_le_one_right hr.le (mul_le_one₀ c1 (abs_nonneg _) c2), mul_le_of_le_one_right hr.le (mul_le_one₀ c1 (abs_nonneg _) s2),
    mul_le_of_le_one_right hr.le s1⟩

theorem sin_300 : (1046 : ℝ) / 100000 ≤ Real.sin (Real.pi / (300 : ℕ)) := by
  have hp := Real.pi_gt_d2
  have hp4 := Real.pi_lt_d2
  have h1 : (3.14:ℝ) / 300 ≤ Real.pi / (300 : ℕ) := by push_cast; linarith
  have h2 : Real.sin (3.14 / 300) ≤ Real.sin (Real.pi / (300 : ℕ)) := by
    apply Real.sin_le_sin_of_le_of_le_pi_div_two _ _ h1
    · linarith
    · push_cast; linarith
  have h3 := Real.sin_gt_sub_cube (x := 3.14 / 300) (by norm_num)
  norm_num at h3 ⊢
  linarith

theorem sin_600 : (209 : ℝ) / 10000 ≤ Real.sin (2 * Real.pi / (300 : ℕ)) := by
  have hp := Real.pi_gt_d2
  have hp4 := Real.pi_lt_d2
  have h1 : (3.14:ℝ) / 150 ≤ 2 * Real.pi / (300 : ℕ) := by push_cast; linarith
  have h2 : Real.sin (3.14 / 150) ≤ Real.sin (2 * Real.pi / (300 : ℕ)) := by
    apply Real.sin_le_sin_of_le_of_le_pi_div_two _ _ h1
    · linarith
    · push_cast; linarith
  have h3 := Real.sin_gt_sub_cube (x := 3.14 / 150) (by norm_num)
  norm_num at h3 ⊢
  linarith

theorem sin_row {i : ℕ} (h : 1 ≤ i) (h' : i < 300) : Real.sin (Real.pi / (300 : ℕ)) ≤ Real.sin (i * (Real.pi / (300 : ℕ))) := by
  have hp := Real.pi_pos
  have h1 : (1:ℝ) ≤ i := by exact_mod_cast h
  have h2 : (i:ℝ) ≤ 299 := by exact_mod_cast (by omega : i ≤ 299)
  push_cast
  rcases le_or_gt (i:ℝ) 150 with h3 | h3
  · apply Real.sin_le_sin_of_le_of_le_pi_div_two <;> nlinarith
  · rw [← Real.sin_pi_sub (i * (Real.pi / 300))]
    apply Real.sin_le_sin_of_le_of_le_pi_div_two <;> nlinarith

theorem volume_low {r : ℝ} (hr : 0 < r) {i : ℕ} (h : 1 ≤ i) (h' : i < 300) :
    r ^ 3 * (22 / 10^7) ≤ r ^ 3 * (Real.sin (i * (Real.pi / (300:ℕ))) * Real.sin (2 * Real.pi / (300:ℕ)) * Real.sin (Real.pi / (300:ℕ))) := by
  have h1 := sin_300
  have h2 := sin_600
  have h3 := h1.trans (sin_row h h')
  apply mul_le_mul_of_nonneg_left _ (pow_pos hr 3).le
  calc (22:ℝ) / 10^7 ≤ 1046 / 100000 * (209 / 10000) * (1046 / 100000) := by norm_num
    _ ≤ _ := by gcongr

/-- the exact value of a position in the exported document -/
noncomputable def realP (p : F32 × F32 × F32) : R3.Vector ℝ := ⟨p.1.toQ, p.2.1.toQ, p.2.2.toQ⟩

section
variable [GoTrig F64] {δ : ℝ}

/-- C105: the exported sphere: with float64 arithmetic, a sine and cosine within 2^-26, and the float32 positions written to the file, all 179100
triangles face outwards and none is degenerate -/
theorem C105_export (h : TrigAcc δ) (hδ : δ ≤ 1 / 2 ^ 26) (c : R3.Vector F64) (r : F64) (hr : RadOk r) (hpos : 0 < r.toQ) :
    ∃ m, ConstructSphere c r = .ok m ∧ (exportBuffers F32.ofF64 m).indices.length = 3 * 179100 ∧
      ∀ k < 179100, ∃ a b d p q s, TriAt (exportBuffers F32.ofF64 m).indices k a b d ∧
        (exportBuffers F32.ofF64 m).positions[a]? = some p ∧ (exportBuffers F32.ofF64 m).positions[b]? = some q ∧
        (exportBuffers F32.ofF64 m).positions[d]? = some s ∧
        (∀ x ∈ [p, q, s], x.1.Finite ∧ x.2.1.Finite ∧ x.2.2.Finite) ∧ 0 < volume6 (realP p) (realP q) (realP s) := by
  obtain ⟨m, e, hi, l1, _, hm⟩ := C92_sphere h (hδ.trans (by norm_num)) c r hr 300 300 (by norm_num) (by norm_num) (by norm_num)
  have u0 := ur_pos
  have u1 : ur ≤ 1 / 2 ^ 50 := ur_le
  have d0 := h.nonneg
  have rp : (0:ℝ) < r.toQ := by exact_mod_cast hpos
  obtain ⟨_, r1, r2⟩ := hr
  rw [abs_of_pos hpos] at r1 r2
  have small : 70 * ur + 3 * δ ≤ 1 / 2 ^ 20 := by norm_num at *; linarith
  have hv : ∀ i j, i < 300 → j ≤ 300 → ∃ v, m.Vertices[i * 301 + j]? = some v ∧ FinV v ∧
      Near3 ((r.toQ:ℝ) * (70 * ur + 3 * δ)) (realV v) (sphereAt r.toQ 300 300 i j) := by
    intro i j h1 h2
    obtain ⟨v, n, e1, _, f, _, _, _, x, y, z, _⟩ := hm i j h1 h2
    rw [abs_of_pos rp] at x y z
    refine ⟨v, e1, f, x, y, z.trans ?_⟩
    apply mul_le_mul_of_nonneg_left _ rp.le
    linarith
  have hw : ∀ v ∈ m.Vertices, Within (r.toQ * (1 + 1 / 2^20)) v := by
    intro v hv'
    obtain ⟨k, hk, rfl⟩ := List.mem_iff_getElem.mp hv'
    obtain ⟨i, j, h1, h2, rfl⟩ := grid_index 300 301 k (by omega)
    obtain ⟨v, e1, f, x, y, z⟩ := hv i j h1 (by omega)
    rw [List.getElem?_eq_getElem hk, Option.some.injEq] at e1
    rw [e1]
    obtain ⟨x', y', z'⟩ := sphereAt_size rp 300 300 i j
    have key : ∀ (t : ℚ) (T : ℝ), |(t:ℝ) - T| ≤ (r.toQ:ℝ) * (70 * ur + 3 * δ) → |T| ≤ r.toQ → |t| ≤ r.toQ * (1 + 1 / 2^20) := by
      intro t T a1 a2
      have a3 := abs_add_le ((t:ℝ) - T) T
      rw [sub_add_cancel] at a3
      have a4 := mul_le_mul_of_nonneg_left small rp.le
      have a5 : |(t:ℝ)| ≤ r.toQ * (1 + 1 / 2^20) := by linarith
      have a6 : ((|t| : ℚ) : ℝ) ≤ ((r.toQ * (1 + 1 / 2^20) : ℚ) : ℝ) := by push_cast; exact a5
      exact Rat.cast_le.mp a6
    exact ⟨f, key _ _ x x', key _ _ y y', key _ _ z z'⟩
  have g0 : (2:ℚ) ^ (-126 : ℤ) ≤ r.toQ * (1 + 1 / 2^20) := by
    have a : (2:ℚ) ^ (-126 : ℤ) ≤ 1 / 2 ^ 80 := by norm_num
    nlinarith
  have g1 : r.toQ * (1 + 1 / 2^20) ≤ 2 ^ 127 := by
    have a : (2:ℚ) ^ 80 * (1 + 1/2^20) ≤ 2 ^ 127 := by norm_num
    nlinarith
  obtain ⟨_, hix, hp⟩ := C91_mesh m _ g0 g1 hw
  have hq : ∀ i j, i < 300 → j ≤ 300 → ∃ p, (exportBuffers F32.ofF64 m).positions[i * 301 + j]? = some p ∧ (p.1.Finite ∧ p.2.1.Finite ∧ p.2.2.Finite) ∧
      Near3 ((r.toQ:ℝ) * (176 / 100 / 2 ^ 24)) (realP p) (sphereAt r.toQ 300 300 i j) := by
    intro i j h1 h2
    obtain ⟨v, e1, f, x, y, z⟩ := hv i j h1 h2
    obtain ⟨x', y', z', e2, f1, f2, f3, b1, b2, b3⟩ := hp _ v e1
    have key : ∀ (t s : ℚ) (T : ℝ), |(s:ℝ) - T| ≤ (r.toQ:ℝ) * (70 * ur + 3 * δ) → |t - s| ≤ 2 ^ (-24:ℤ) * (r.toQ * (1 + 1 / 2^20)) →
        |(t:ℝ) - T| ≤ (r.toQ:ℝ) * (176 / 100 / 2 ^ 24) := by
      intro t s T a1 a2
      have a3 : |(t:ℝ) - s| ≤ 2 ^ (-24:ℤ) * (r.toQ * (1 + 1 / 2^20)) := by
        have := (Rat.cast_le (K := ℝ)).mpr a2
        push_cast at this; exact this
      have a4 := abs_add_le ((t:ℝ) - s) (s - T)
      rw [sub_add_sub_cancel] at a4
      have a5 : (70 * ur + 3 * δ) + 2 ^ (-24:ℤ) * (1 + 1/2^20) ≤ 176 / 100 / 2 ^ 24 := by norm_num at *; linarith
      have a6 := mul_le_mul_of_nonneg_left a5 rp.le
      linarith
    exact ⟨_, e2, ⟨f1, f2, f3⟩, key _ _ _ x b1, key _ _ _ y b2, key _ _ _ z b3⟩
  have pos : ∀ {p q s P Q S}, Size3 (r.toQ:ℝ) P → Size3 (r.toQ:ℝ) Q → Size3 (r.toQ:ℝ) S →
      Near3 ((r.toQ:ℝ) * (176 / 100 / 2 ^ 24)) (realP p) P → Near3 ((r.toQ:ℝ) * (176 / 100 / 2 ^ 24)) (realP q) Q →
      Near3 ((r.toQ:ℝ) * (176 / 100 / 2 ^ 24)) (realP s) S → (r.toQ:ℝ) ^ 3 * (22 / 10^7) ≤ volume6 P Q S →
      0 < volume6 (realP p) (realP q) (realP s) := by
    intro p q s P Q S a1 a2 a3 a4 a5 a6 a7
    have b := (abs_le.mp (volume_near rp (by norm_num) a1 a2 a3 a4 a5 a6)).1
    have r3 := pow_pos rp 3
    have c : 6 * (3 * (176 / 100 / 2 ^ 24 : ℝ) + 3 * (176 / 100 / 2 ^ 24)^2 + (176 / 100 / 2 ^ 24)^3) < 22 / 10^7 := by norm_num
    have := mul_lt_mul_of_pos_left c r3
    linarith
  have hlen : (exportBuffers F32.ofF64 m).indices.length = 3 * 179100 := by
    rw [hix, hi]
    exact (C48_indices 300 300 (by norm_num) (by norm_num)).2
  refine ⟨m, e, hlen, fun k hk => ?_⟩
  generalize hI : (exportBuffers F32.ofF64 m).indices = I at *
  obtain ⟨a, b, d, ht⟩ : ∃ a b d, TriAt I k a b d :=
    ⟨I[3*k]'(by omega), I[3*k+1]'(by omega), I[3*k+2]'(by omega), List.getElem?_eq_getElem _, List.getElem?_eq_getElem _, List.getElem?_eq_getElem _⟩
  refine ⟨a, b, d, ?_⟩
  have ht' : TriAt (gridIndices ((300:ℕ):ℤ) ((300:ℕ):ℤ)) k a b d := by rw [← hi, ← hix]; exact ht
  obtain ⟨i, j, h1, h2, ⟨h3, rfl, rfl, rfl⟩ | ⟨rfl, rfl, rfl⟩⟩ := tri_cases (by norm_num) (by norm_num) ht'
  · obtain ⟨p, p1, p2, p3⟩ := hq i j (by omega) (by omega)
    obtain ⟨q, q1, q2, q3⟩ := hq (i+1) j (by omega) (by omega)
    obtain ⟨s, s1, s2, s3⟩ := hq i (j+1) (by omega) (by omega)
    refine ⟨p, q, s, ht, p1, q1, s1, by simpa using ⟨p2, q2, s2⟩, ?_⟩
    refine pos (sphereAt_size rp ..) (sphereAt_size rp ..) (sphereAt_size rp ..) p3 q3 s3 ?_
    rw [(sphere_volume _ 300 300 i j).1]
    exact volume_low rp h3 (by omega)
  · obtain ⟨p, p1, p2, p3⟩ := hq i (j+1) (by omega) (by omega)
    obtain ⟨q, q1, q2, q3⟩ := hq (i+1) j (by omega) (by omega)
    obtain ⟨s, s1, s2, s3⟩ := hq (i+1) (j+1) (by omega) (by omega)
    refine ⟨p, q, s, ht, p1, q1, s1, by simpa using ⟨p2, q2, s2⟩, ?_⟩
    refine pos (sphereAt_size rp ..) (sphereAt_size rp ..) (sphereAt_size rp ..) p3 q3 s3 ?_
    rw [(sphere_volume _ 300 300 i j).2]
    exact volume_low rp (by omega) h1

end

/-! ## Concrete cases -/

example : ∃ m, Sphere.Construct ⟨⟨0, 0, 0⟩, (2:ℝ), 3, 2⟩ = .ok m ∧ ∀ k a b d, TriAt m.Indices k a b d →
    ∃ u v w, m.Vertices[a]? = some u ∧ m.Vertices[b]? = some v ∧ m.Vertices[d]? = some w ∧ 0 < volume6 u v w := by
  obtain ⟨m, e, h⟩ := C105_sphere ⟨0, 0, 0⟩ 2 3 2 (by norm_num) (by norm_num) (by norm_num)
  refine ⟨m, e, fun k a b d hk => ?_⟩
  obtain ⟨u, v, w, h1, h2, h3, h4, _⟩ := h k a b d hk
  exact ⟨u, v, w, h1, h2, h3, h4 (by norm_num)⟩

example : TriAt (gridIndices 3 2) 1 2 5 6 := by unfold TriAt; decide +kernel

example : ∃ m, Torus.Construct ⟨⟨0, 0, 0⟩, (3:ℝ), 1, 100, 100⟩ = .ok m :=
  let ⟨m, e, _⟩ := C105_torus ⟨0, 0, 0⟩ 3 1 (by norm_num) (by norm_num) 100 100 (by norm_num) (by norm_num) (by norm_num)
  ⟨m, e⟩

example : letI := roundedTrig
    ∃ m, ConstructSphere ⟨0, 0, 0⟩ (1 : F64) = .ok m ∧ (exportBuffers F32.ofF64 m).indices.length = 537300 :=
  letI := roundedTrig
  let ⟨m, e, h, _⟩ := C105_export roundedTrig_acc (ur_le.trans (by norm_num)) ⟨0, 0, 0⟩ 1 radOk_one (by decide +kernel)
  ⟨m, e, h⟩

end Verif.Props
