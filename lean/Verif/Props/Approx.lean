import Verif.Props.Outward
import Mathlib.Analysis.SpecialFunctions.Trigonometric.Bounds
import Mathlib.Analysis.SpecialFunctions.Complex.Arg
/-!
# C108: how well the mesh of the sphere approximates the sphere (shape/sphere.go:29-122)

The mesh is a set of triangles. Every point of a triangle is close to the sphere, every point of the sphere above the opening at the bottom is close to the
mesh, and the volume under the triangles has a closed form that tends to the one of the ball.
-/
namespace Verif.Props
open Verif Verif.Proofs Verif.R3 Verif.Shape

/-- square of the distance from the origin -/
def normSq3 (p : R3.Vector ℝ) : ℝ := p.X ^ 2 + p.Y ^ 2 + p.Z ^ 2

/-- square of the distance of two points -/
def distSq3 (p q : R3.Vector ℝ) : ℝ := (p.X - q.X) ^ 2 + (p.Y - q.Y) ^ 2 + (p.Z - q.Z) ^ 2

/-- the point of a triangle with the given weights -/
def mix3 (u v w : R3.Vector ℝ) (x y z : ℝ) : R3.Vector ℝ :=
  ⟨x * u.X + y * v.X + z * w.X, x * u.Y + y * v.Y + z * w.Y, x * u.Z + y * v.Z + z * w.Z⟩

/-- the point on the sphere with the given angle from the top and around the axis -/
noncomputable def onSphere (r p t : ℝ) : R3.Vector ℝ := ⟨r * Real.sin p * Real.cos t, r * Real.sin p * Real.sin t, r * Real.cos p⟩

theorem sphereAt_on (r : ℝ) (sc st i j : ℕ) : sphereAt r sc st i j = onSphere r (i * (Real.pi / st)) (j * (2 * Real.pi / sc)) := by
  unfold sphereAt onSphere; simp only [Real.cos_pi_div_two_sub, Real.sin_pi_div_two_sub]

theorem onSphere_norm (r p t : ℝ) : normSq3 (onSphere r p t) = r ^ 2 := by
  unfold normSq3 onSphere
  have h1 := Real.sin_sq_add_cos_sq p
  have h2 := Real.sin_sq_add_cos_sq t
  calc _ = r ^ 2 * (Real.sin p ^ 2 * (Real.sin t ^ 2 + Real.cos t ^ 2) + Real.cos p ^ 2) := by ring
    _ = r ^ 2 := by rw [h2, mul_one, h1, mul_one]

/-- a chord is not longer than the steps of the two angles -/
theorem onSphere_dist (r p q s t : ℝ) : distSq3 (onSphere r p s) (onSphere r q t) ≤ r ^ 2 * ((p - q) ^ 2 + (s - t) ^ 2) := by
  have e : distSq3 (onSphere r p s) (onSphere r q t) =
      r ^ 2 * (2 * (1 - Real.cos (p - q)) + 2 * (Real.sin p * Real.sin q) * (1 - Real.cos (s - t))) := by
    rw [Real.cos_sub, Real.cos_sub]
    unfold distSq3 onSphere
    have h1 := Real.sin_sq_add_cos_sq p
    have h2 := Real.sin_sq_add_cos_sq q
    have h3 := Real.sin_sq_add_cos_sq s
    have h4 := Real.sin_sq_add_cos_sq t
    have h1' : Real.cos p ^ 2 = 1 - Real.sin p ^ 2 := by linarith
    have h2' : Real.cos q ^ 2 = 1 - Real.sin q ^ 2 := by linarith
    have h3' : Real.cos s ^ 2 = 1 - Real.sin s ^ 2 := by linarith
    have h4' : Real.cos t ^ 2 = 1 - Real.sin t ^ 2 := by linarith
    simp only []
    ring_nf
    rw [h1', h2', h3', h4']
    ring
  rw [e]
  apply mul_le_mul_of_nonneg_left _ (sq_nonneg r)
  have c1 := Real.one_sub_sq_div_two_le_cos (x := p - q)
  have c2 := Real.one_sub_sq_div_two_le_cos (x := s - t)
  have c3 := Real.cos_le_one (s - t)
  have b : Real.sin p * Real.sin q ≤ 1 := by
    have a1 := Real.abs_sin_le_one p
    have a2 := Real.abs_sin_le_one q
    calc _ ≤ |Real.sin p * Real.sin q| := le_abs_self _
      _ = |Real.sin p| * |Real.sin q| := abs_mul _ _
      _ ≤ 1 * 1 := mul_le_mul a1 a2 (abs_nonneg _) zero_le_one
      _ = 1 := one_mul 1
  have : 2 * (Real.sin p * Real.sin q) * (1 - Real.cos (s - t)) ≤ 2 * (1 - Real.cos (s - t)) := by nlinarith
  linarith

/-- a point of a triangle with corners on a sphere and edges of length at most `e` -/
theorem mix_norm (u v w : R3.Vector ℝ) (r e x y z : ℝ) (hu : normSq3 u = r ^ 2) (hv : normSq3 v = r ^ 2) (hw : normSq3 w = r ^ 2)
    (h1 : distSq3 u v ≤ e) (h2 : distSq3 v w ≤ e) (h3 : distSq3 u w ≤ e) (hx : 0 ≤ x) (hy : 0 ≤ y) (hz : 0 ≤ z) (hs : x + y + z = 1) :
    r ^ 2 - e / 3 ≤ normSq3 (mix3 u v w x y z) ∧ normSq3 (mix3 u v w x y z) ≤ r ^ 2 := by
  have id : normSq3 (mix3 u v w x y z) = (x + y + z) * (x * normSq3 u + y * normSq3 v + z * normSq3 w) -
      (x * y * distSq3 u v + y * z * distSq3 v w + x * z * distSq3 u w) := by unfold normSq3 mix3 distSq3; simp only []; ring
  rw [id, hu, hv, hw, hs, one_mul, show x * r ^ 2 + y * r ^ 2 + z * r ^ 2 = (x + y + z) * r ^ 2 by ring, hs, one_mul]
  have p : ∀ a b : R3.Vector ℝ, 0 ≤ distSq3 a b := by intro a b; unfold distSq3; positivity
  have he : 0 ≤ e := (p u v).trans h1
  have third : x * y + y * z + x * z ≤ 1 / 3 := by nlinarith [sq_nonneg (x - y), sq_nonneg (y - z), sq_nonneg (x - z)]
  have l1 := mul_le_mul_of_nonneg_left h1 (mul_nonneg hx hy)
  have l2 := mul_le_mul_of_nonneg_left h2 (mul_nonneg hy hz)
  have l3 := mul_le_mul_of_nonneg_left h3 (mul_nonneg hx hz)
  have g1 := mul_nonneg (mul_nonneg hx hy) (p u v)
  have g2 := mul_nonneg (mul_nonneg hy hz) (p v w)
  have g3 := mul_nonneg (mul_nonneg hx hz) (p u w)
  constructor
  · nlinarith
  · linarith

/-- the corners of a triangle of the sphere are two neighbouring vertices and a third one, at most one step apart in both directions -/
theorem sphere_tri (c : R3.Vector ℝ) (r : ℝ) (sc st : ℕ) (hsc : 1 ≤ sc) (hst : 2 ≤ st) (hsz : st * (sc+1) < 2^32) :
    ∃ m, Sphere.Construct ⟨c, r, sc, st⟩ = .ok m ∧ m.Indices = gridIndices sc st ∧ m.Vertices.length = st * (sc+1) ∧
      (∀ i j, i < st → j ≤ sc → m.Vertices[i * (sc+1) + j]? = some (sphereAt r sc st i j)) ∧
      ∀ k a b d, TriAt m.Indices k a b d →
      ∃ u v w, m.Vertices[a]? = some u ∧ m.Vertices[b]? = some v ∧ m.Vertices[d]? = some w ∧
        ∃ i j, i + 1 < st ∧ j < sc ∧ ∃ i1 i2 i3 j1 j2 j3 : ℕ, (i1 = i ∨ i1 = i + 1) ∧ (i2 = i ∨ i2 = i + 1) ∧ (i3 = i ∨ i3 = i + 1) ∧
          (j1 = j ∨ j1 = j + 1) ∧ (j2 = j ∨ j2 = j + 1) ∧ (j3 = j ∨ j3 = j + 1) ∧
          u = sphereAt r sc st i1 j1 ∧ v = sphereAt r sc st i2 j2 ∧ w = sphereAt r sc st i3 j3 := by
  obtain ⟨m, e, hi, hl, _, _, hm⟩ := C47_sphere_vertices c r sc st (by omega)
  have hm' : ∀ i j, i < st → j ≤ sc → m.Vertices[i * (sc+1) + j]? = some (sphereAt r sc st i j) := fun i j h1 h2 => (hm i j h1 h2).1
  refine ⟨m, e, hi, hl, hm', fun k a b d h => ?_⟩
  rw [hi] at h
  obtain ⟨i, j, h1, h2, ⟨h3, rfl, rfl, rfl⟩ | ⟨rfl, rfl, rfl⟩⟩ := tri_cases hst hsz h
  · exact ⟨_, _, _, hm' i j (by omega) (by omega), hm' (i+1) j h1 (by omega), hm' i (j+1) (by omega) (by omega), i, j, h1, h2,
      i, i+1, i, j, j, j+1, by simp, by simp, by simp, by simp, by simp, by simp, rfl, rfl, rfl⟩
  · exact ⟨_, _, _, hm' i (j+1) (by omega) (by omega), hm' (i+1) j h1 (by omega), hm' (i+1) (j+1) h1 (by omega), i, j, h1, h2,
      i, i+1, i+1, j+1, j, j+1, by simp, by simp, by simp, by simp, by simp, by simp, rfl, rfl, rfl⟩

theorem sphere_edge (r : ℝ) (sc st i j i1 i2 j1 j2 : ℕ) (h1 : i1 = i ∨ i1 = i + 1) (h2 : i2 = i ∨ i2 = i + 1) (h3 : j1 = j ∨ j1 = j + 1)
    (h4 : j2 = j ∨ j2 = j + 1) : distSq3 (sphereAt r sc st i1 j1) (sphereAt r sc st i2 j2) ≤ r ^ 2 * ((Real.pi / st) ^ 2 + (2 * Real.pi / sc) ^ 2) := by
  rw [sphereAt_on, sphereAt_on]
  refine (onSphere_dist _ _ _ _ _).trans (mul_le_mul_of_nonneg_left ?_ (sq_nonneg r))
  have step : ∀ (a b k : ℕ) (s : ℝ), (a = k ∨ a = k + 1) → (b = k ∨ b = k + 1) → (a * s - b * s) ^ 2 ≤ s ^ 2 := by
    rintro a b k s (rfl | rfl) (rfl | rfl) <;> push_cast <;> nlinarith [sq_nonneg s]
  exact add_le_add (step _ _ i _ h1 h2) (step _ _ j _ h3 h4)

/-- C108: every point of every triangle lies in the ball, and its distance from the centre falls short of the radius only by a term of second order in the
two steps -/
theorem C108_distance (c : R3.Vector ℝ) (r : ℝ) (sc st : ℕ) (hsc : 1 ≤ sc) (hst : 2 ≤ st) (hsz : st * (sc+1) < 2^32) :
    ∃ m, Sphere.Construct ⟨c, r, sc, st⟩ = .ok m ∧ ∀ k a b d, TriAt m.Indices k a b d →
      ∃ u v w, m.Vertices[a]? = some u ∧ m.Vertices[b]? = some v ∧ m.Vertices[d]? = some w ∧
        ∀ x y z : ℝ, 0 ≤ x → 0 ≤ y → 0 ≤ z → x + y + z = 1 →
          r ^ 2 * (1 - ((Real.pi / st) ^ 2 + (2 * Real.pi / sc) ^ 2) / 3) ≤ normSq3 (mix3 u v w x y z) ∧ normSq3 (mix3 u v w x y z) ≤ r ^ 2 := by
  obtain ⟨m, e, _, _, _, h⟩ := sphere_tri c r sc st hsc hst hsz
  refine ⟨m, e, fun k a b d ht => ?_⟩
  obtain ⟨u, v, w, g1, g2, g3, i, j, _, _, i1, i2, i3, j1, j2, j3, a1, a2, a3, b1, b2, b3, rfl, rfl, rfl⟩ := h k a b d ht
  refine ⟨_, _, _, g1, g2, g3, fun x y z hx hy hz hs => ?_⟩
  have nn : ∀ i j, normSq3 (sphereAt r sc st i j) = r ^ 2 := fun i j => by rw [sphereAt_on, onSphere_norm]
  obtain ⟨l, u⟩ := mix_norm _ _ _ r _ x y z (nn i1 j1) (nn i2 j2) (nn i3 j3) (sphere_edge r sc st i j _ _ _ _ a1 a2 b1 b2)
    (sphere_edge r sc st i j _ _ _ _ a2 a3 b2 b3) (sphere_edge r sc st i j _ _ _ _ a1 a3 b1 b3) hx hy hz hs
  exact ⟨by linarith, u⟩

/-! ## The opening at the bottom -/

theorem cos_stack {st i : ℕ} (h : i < st) : - Real.cos (Real.pi / st) ≤ Real.cos (i * (Real.pi / st)) := by
  have hp := Real.pi_pos
  have h3 : (0:ℝ) < st := by exact_mod_cast (by omega : 0 < st)
  have h4 : (i:ℝ) + 1 ≤ st := by exact_mod_cast h
  rw [← Real.cos_pi_sub]
  have e : Real.pi - Real.pi / st - i * (Real.pi / st) = (st - 1 - i) * (Real.pi / st) := by field_simp
  have q : 0 ≤ (st - 1 - i) * (Real.pi / st) := mul_nonneg (by linarith) (by positivity)
  apply Real.cos_le_cos_of_nonneg_of_le_pi (by positivity)
  · have : 0 ≤ Real.pi / st := by positivity
    linarith
  · linarith

/-- C108: the mesh stops above the lowest point of the sphere: no point of a triangle is lower than the last ring, and the distance of the lowest point
of the sphere from the mesh is at least `r * (1 - cos (pi / st))` -/
theorem C108_opening (c : R3.Vector ℝ) (r : ℝ) (hr : 0 ≤ r) (sc st : ℕ) (hsc : 1 ≤ sc) (hst : 2 ≤ st) (hsz : st * (sc+1) < 2^32) :
    ∃ m, Sphere.Construct ⟨c, r, sc, st⟩ = .ok m ∧ ∀ k a b d, TriAt m.Indices k a b d →
      ∃ u v w, m.Vertices[a]? = some u ∧ m.Vertices[b]? = some v ∧ m.Vertices[d]? = some w ∧
        ∀ x y z : ℝ, 0 ≤ x → 0 ≤ y → 0 ≤ z → x + y + z = 1 →
          -(r * Real.cos (Real.pi / st)) ≤ (mix3 u v w x y z).Z ∧
          (r * (1 - Real.cos (Real.pi / st))) ^ 2 ≤ distSq3 ⟨0, 0, -r⟩ (mix3 u v w x y z) := by
  obtain ⟨m, e, _, _, _, h⟩ := sphere_tri c r sc st hsc hst hsz
  refine ⟨m, e, fun k a b d ht => ?_⟩
  obtain ⟨u, v, w, g1, g2, g3, i, j, hi, hj, i1, i2, i3, j1, j2, j3, a1, a2, a3, b1, b2, b3, rfl, rfl, rfl⟩ := h k a b d ht
  refine ⟨_, _, _, g1, g2, g3, fun x y z hx hy hz hs => ?_⟩
  have zz : ∀ i j, i < st → -(r * Real.cos (Real.pi / st)) ≤ (sphereAt r sc st i j).Z := by
    intro i j hi
    rw [sphereAt_on]; unfold onSphere
    have := mul_le_mul_of_nonneg_left (cos_stack hi) hr
    simp only []; linarith
  have low : -(r * Real.cos (Real.pi / st)) ≤ (mix3 (sphereAt r sc st i1 j1) (sphereAt r sc st i2 j2) (sphereAt r sc st i3 j3) x y z).Z := by
    unfold mix3
    simp only []
    have m1 := mul_le_mul_of_nonneg_left (zz i1 j1 (by omega)) hx
    have m2 := mul_le_mul_of_nonneg_left (zz i2 j2 (by omega)) hy
    have m3 := mul_le_mul_of_nonneg_left (zz i3 j3 (by omega)) hz
    have : (x + y + z) * -(r * Real.cos (Real.pi / st)) = -(r * Real.cos (Real.pi / st)) := by rw [hs, one_mul]
    linarith
  refine ⟨low, ?_⟩
  generalize mix3 (sphereAt r sc st i1 j1) (sphereAt r sc st i2 j2) (sphereAt r sc st i3 j3) x y z = p at low
  unfold distSq3
  have q : 0 ≤ r * (1 - Real.cos (Real.pi / st)) := mul_nonneg hr (by linarith [Real.cos_le_one (Real.pi / st)])
  have l : r * (1 - Real.cos (Real.pi / st)) ≤ p.Z + r := by linarith
  simp only []
  nlinarith [sq_nonneg (0 - p.X), sq_nonneg (0 - p.Y)]

/-! ## Every point above the opening is close to a vertex -/

theorem polar2 (x y : ℝ) : ∃ t, 0 ≤ t ∧ t ≤ 2 * Real.pi ∧ x = Real.sqrt (x^2+y^2) * Real.cos t ∧ y = Real.sqrt (x^2+y^2) * Real.sin t := by
  have hp := Real.pi_pos
  have nn : ‖(⟨x, y⟩ : ℂ)‖ = Real.sqrt (x^2+y^2) := by rw [Complex.norm_def, Complex.normSq_mk]; congr 1; ring
  have h1 := Complex.norm_mul_cos_arg ⟨x, y⟩
  have h2 := Complex.norm_mul_sin_arg ⟨x, y⟩
  rw [nn] at h1 h2
  have a1 := Complex.neg_pi_lt_arg ⟨x, y⟩
  have a2 := Complex.arg_le_pi ⟨x, y⟩
  by_cases h : 0 ≤ Complex.arg ⟨x, y⟩
  · exact ⟨_, h, by linarith, h1.symm, h2.symm⟩
  · refine ⟨Complex.arg ⟨x, y⟩ + 2 * Real.pi, by linarith, by linarith, ?_, ?_⟩
    · rw [Real.cos_add_two_pi]; exact h1.symm
    · rw [Real.sin_add_two_pi]; exact h2.symm

theorem polar3 (r : ℝ) (hr : 0 < r) (p : R3.Vector ℝ) (hp : normSq3 p = r ^ 2) :
    ∃ t, 0 ≤ t ∧ t ≤ 2 * Real.pi ∧ p = onSphere r (Real.arccos (p.Z / r)) t := by
  obtain ⟨t, h1, h2, h3, h4⟩ := polar2 p.X p.Y
  unfold normSq3 at hp
  have b : |p.Z| ≤ r := abs_le_of_sq_le_sq (by nlinarith [sq_nonneg p.X, sq_nonneg p.Y]) hr.le
  obtain ⟨b1, b2⟩ := abs_le.mp b
  have ec : Real.cos (Real.arccos (p.Z / r)) = p.Z / r :=
    Real.cos_arccos (by rw [le_div_iff₀ hr]; linarith) (by rw [div_le_iff₀ hr]; linarith)
  have es : r * Real.sin (Real.arccos (p.Z / r)) = Real.sqrt (p.X^2+p.Y^2) := by
    rw [Real.sin_arccos]
    have : p.X^2+p.Y^2 = r^2 * (1 - (p.Z/r)^2) := by field_simp; linarith
    rw [this, Real.sqrt_mul (sq_nonneg r), Real.sqrt_sq hr.le]
  refine ⟨t, h1, h2, ?_⟩
  unfold onSphere
  rw [es, ec, ← h3, ← h4, mul_div_cancel₀ _ hr.ne']

theorem nearest_step (n : ℕ) (s a : ℝ) (hs : 0 < s) (h0 : 0 ≤ a) (h1 : a ≤ n * s) : ∃ i ≤ n, (a - i * s) ^ 2 ≤ (s / 2) ^ 2 := by
  have q0 : 0 ≤ a / s := div_nonneg h0 hs.le
  have q1 : a / s ≤ n := by rw [div_le_iff₀ hs]; exact h1
  have e : a = a / s * s := by field_simp
  refine ⟨⌊a / s + 1/2⌋₊, ?_, ?_⟩
  · apply Nat.lt_succ_iff.mp
    rw [Nat.floor_lt (by linarith)]
    push_cast; linarith
  · have f1 := Nat.floor_le (by linarith : (0:ℝ) ≤ a / s + 1/2)
    have f2 := Nat.lt_floor_add_one (a / s + 1/2)
    generalize ((⌊a / s + 1/2⌋₊ : ℕ) : ℝ) = f at f1 f2
    have : (a - f * s) = (a / s - f) * s := by rw [sub_mul, ← e]
    rw [this, mul_pow, div_pow]
    have : (a / s - f) ^ 2 ≤ (1/2)^2 := by nlinarith
    nlinarith [sq_nonneg s]

/-- C108: every point of the sphere that is not below the last ring has a vertex of the mesh at most half a step away in both directions -/
theorem C108_cover (c : R3.Vector ℝ) (r : ℝ) (hr : 0 < r) (sc st : ℕ) (hsc : 1 ≤ sc) (hst : 2 ≤ st) (hsz : st * (sc+1) < 2^32)
    (p : R3.Vector ℝ) (hp : normSq3 p = r ^ 2) (hz : -(r * Real.cos (Real.pi / st)) ≤ p.Z) :
    ∃ m, Sphere.Construct ⟨c, r, sc, st⟩ = .ok m ∧ ∃ v ∈ m.Vertices, distSq3 p v ≤ r ^ 2 * ((Real.pi / (2 * st)) ^ 2 + (Real.pi / sc) ^ 2) := by
  obtain ⟨m, e, _, hl, hm, _⟩ := sphere_tri c r sc st hsc hst hsz
  refine ⟨m, e, ?_⟩
  have hpi := Real.pi_pos
  have hst' : (0:ℝ) < st := by exact_mod_cast (by omega : 0 < st)
  have hsc' : (0:ℝ) < sc := by exact_mod_cast (by omega : 0 < sc)
  obtain ⟨t, t0, t1, hpt⟩ := polar3 r hr p hp
  have acc : Real.arccos (p.Z / r) ≤ ((st - 1 : ℕ) : ℝ) * (Real.pi / st) := by
    have e1 : ((st - 1 : ℕ) : ℝ) * (Real.pi / st) = Real.pi - Real.pi / st := by
      rw [Nat.cast_sub (by omega)]; push_cast; field_simp
    have le : Real.pi / st ≤ Real.pi := by rw [div_le_iff₀ hst']; nlinarith [(by exact_mod_cast (by omega : 1 ≤ st) : (1:ℝ) ≤ st)]
    have le' : 0 ≤ Real.pi / st := by positivity
    rw [e1, ← Real.arccos_cos (x := Real.pi - Real.pi / st) (by linarith) (by linarith)]
    apply Real.arccos_le_arccos
    rw [Real.cos_pi_sub, le_div_iff₀ hr]; linarith
  obtain ⟨i, hi, di⟩ := nearest_step (st - 1) (Real.pi / st) _ (by positivity) (Real.arccos_nonneg (p.Z / r)) acc
  obtain ⟨j, hj, dj⟩ := nearest_step sc (2 * Real.pi / sc) t (by positivity) t0 (by rw [mul_div_cancel₀ _ hsc'.ne']; exact t1)
  refine ⟨sphereAt r sc st i j, List.mem_of_getElem? (hm i j (by omega) hj), ?_⟩
  have := onSphere_dist r (Real.arccos (p.Z / r)) (i * (Real.pi / st)) t (j * (2 * Real.pi / sc))
  rw [← hpt, ← sphereAt_on] at this
  refine this.trans (mul_le_mul_of_nonneg_left ?_ (sq_nonneg r))
  have s1 : Real.pi / (2 * st) = Real.pi / st / 2 := by field_simp
  have s2 : Real.pi / sc = 2 * Real.pi / sc / 2 := by field_simp
  rw [s1, s2]
  exact add_le_add di dj

/-! ## Volume -/

/-- signed volume of the tetrahedron of the origin and triangle number `k` of a mesh -/
noncomputable def triVolume (m : Mesh ℝ) (k : ℕ) : ℝ :=
  match m.Indices[3*k]?, m.Indices[3*k+1]?, m.Indices[3*k+2]? with
  | some x, some y, some z =>
    match m.Vertices[x]?, m.Vertices[y]?, m.Vertices[z]? with
    | some u, some v, some w => volume6 u v w / 6
    | _, _, _ => 0
  | _, _, _ => 0

/-- the volume between the origin and the triangles of a mesh -/
noncomputable def meshVolume (m : Mesh ℝ) : ℝ := ∑ k ∈ Finset.range (m.Indices.length / 3), triVolume m k

theorem flat_length (l : List Tri) : (flat l).length = 3 * l.length := by
  induction l with
  | nil => rfl
  | cons t l ih => simp only [flat, List.flatMap_cons, List.length_append, List.length_cons, List.length_nil] at ih ⊢; omega

theorem volume_sum (m : Mesh ℝ) (l : List Tri) (hi : m.Indices = flat l) (f : Tri → ℝ)
    (hf : ∀ t ∈ l, ∃ u v w, m.Vertices[t.1]? = some u ∧ m.Vertices[t.2.1]? = some v ∧ m.Vertices[t.2.2]? = some w ∧ volume6 u v w / 6 = f t) :
    meshVolume m = (l.map f).sum := by
  unfold meshVolume
  rw [hi, flat_length, Nat.mul_div_cancel_left _ (by norm_num : 0 < 3)]
  have : ∀ k ∈ Finset.range l.length, triVolume m k = (l.map f).getD k 0 := by
    intro k hk
    have hk := Finset.mem_range.mp hk
    have g : l[k]? = some l[k] := List.getElem?_eq_getElem hk
    obtain ⟨h1, h2, h3⟩ := (flat_get l k l[k].1 l[k].2.1 l[k].2.2).mpr g
    obtain ⟨u, v, w, e1, e2, e3, e4⟩ := hf l[k] (List.getElem_mem hk)
    unfold triVolume
    rw [hi]
    rw [h1, h2, h3]
    simp only []
    rw [e1, e2, e3]
    simp only []
    rw [e4, List.getD_eq_getElem?_getD, List.getElem?_map, g]
    rfl
  rw [Finset.sum_congr rfl this]
  have gen : ∀ L : List ℝ, ∑ k ∈ Finset.range L.length, L.getD k 0 = L.sum := by
    intro L
    induction L with
    | nil => rfl
    | cons a L ih => rw [List.length_cons, Finset.sum_range_succ']; simp only [List.getD_cons_succ, List.getD_cons_zero, List.sum_cons]; rw [ih, add_comm]
  simpa using gen (l.map f)

theorem telescope (a : ℝ) (n : ℕ) : Real.sin a * ∑ i ∈ Finset.range n, (Real.sin (i * a) + Real.sin ((i+1 : ℕ) * a)) =
    (1 + Real.cos a) * (1 - Real.cos (n * a)) := by
  induction n with
  | zero => simp
  | succ n ih =>
    rw [Finset.sum_range_succ, mul_add, ih]
    have e : ((n+1 : ℕ) : ℝ) * a = n * a + a := by push_cast; ring
    rw [e, Real.sin_add, Real.cos_add]
    have h := Real.sin_sq_add_cos_sq a
    have h' : Real.sin a ^ 2 = 1 - Real.cos a ^ 2 := by linarith
    ring_nf
    rw [h']
    ring

/-- C108: the volume between the centre and the triangles, in closed form -/
theorem C108_volume (c : R3.Vector ℝ) (r : ℝ) (sc st : ℕ) (hsc : 1 ≤ sc) (hst : 2 ≤ st) (hsz : st * (sc+1) < 2^32) :
    ∃ m, Sphere.Construct ⟨c, r, sc, st⟩ = .ok m ∧
      meshVolume m = sc * Real.sin (2 * Real.pi / sc) / 6 * r ^ 3 * (1 + Real.cos (Real.pi / st)) ^ 2 := by
  obtain ⟨m, e, hi, hl, hm, _⟩ := sphere_tri c r sc st hsc hst hsz
  refine ⟨m, e, ?_⟩
  rw [C48_gridIndices sc st hst hsz] at hi
  set S := Real.sin (2 * Real.pi / sc) with hS
  set A := Real.pi / st with hA
  have hst' : (st:ℝ) ≠ 0 := by exact_mod_cast (by omega : st ≠ 0)
  -- value by key
  let g : Bool × ℕ → ℝ := fun q => if q.1 then r ^ 3 * (Real.sin ((q.2 / (sc+1) + 1 : ℕ) * A) * S * Real.sin A) / 6
    else r ^ 3 * (Real.sin ((q.2 / (sc+1) : ℕ) * A) * S * Real.sin A) / 6
  let f : Tri → ℝ := fun t => if t.2.1 < t.2.2 then g (true, t.1 - 1) else g (false, t.1)
  have divq : ∀ i j, j < sc → (i * (sc+1) + j) / (sc+1) = i := by
    intro i j hj
    rw [mul_comm, Nat.mul_add_div (by omega), Nat.div_eq_of_lt (by omega), add_zero]
  have fq : ∀ q : Bool × ℕ, f (quadTri (sc+1) q) = g q := by
    rintro ⟨b, q⟩
    cases b
    · simp only [quadTri, lower, Bool.false_eq_true, if_false, f]
      rw [if_neg (by omega)]
    · simp only [quadTri, upper, if_true, f]
      rw [if_pos (by omega), Nat.add_sub_cancel]
  rw [volume_sum m _ hi f]
  · unfold gridTris
    rw [List.map_map, show f ∘ quadTri (sc+1) = g from funext fq]
    unfold gridKeys
    rw [List.map_append, List.sum_append, List.map_map, List.map_flatMap]
    have lst : ∀ (n : ℕ) (h : ℕ → ℝ), ((List.range n).map h).sum = ∑ i ∈ Finset.range n, h i := by
      intro n h
      induction n with
      | zero => rfl
      | succ n ih => rw [List.range_succ, List.map_append, List.sum_append, ih, Finset.sum_range_succ]; simp
    have fl : ∀ (n : ℕ) (h : ℕ → List ℝ), ((List.range n).flatMap h).sum = ∑ i ∈ Finset.range n, (h i).sum := by
      intro n h
      rw [List.flatMap_def, List.sum_flatten, List.map_map, lst]; rfl
    rw [lst, fl]
    have t1 : ∑ i ∈ Finset.range sc, (g ∘ fun j => (true, j)) i = sc * (r ^ 3 * (Real.sin ((0+1 : ℕ) * A) * S * Real.sin A) / 6) := by
      rw [Finset.sum_congr rfl (g := fun _ => r ^ 3 * (Real.sin ((0+1 : ℕ) * A) * S * Real.sin A) / 6)]
      · simp
      · intro j hj
        have hj := Finset.mem_range.mp hj
        simp only [Function.comp, g, if_true]
        rw [Nat.div_eq_of_lt (by omega)]
    have t2 : ∀ i ∈ Finset.range (st-2), (List.map g ((List.range sc).flatMap fun j => [(false, (i+1)*(sc+1)+j), (true, (i+1)*(sc+1)+j)])).sum =
        sc * (r ^ 3 * S * Real.sin A / 6) * (Real.sin ((i+1 : ℕ) * A) + Real.sin ((i+1+1 : ℕ) * A)) := by
      intro i _
      rw [List.map_flatMap, fl]
      rw [Finset.sum_congr rfl (g := fun _ => (r ^ 3 * S * Real.sin A / 6) * (Real.sin ((i+1 : ℕ) * A) + Real.sin ((i+1+1 : ℕ) * A)))]
      · simp; ring
      · intro j hj
        have hj := Finset.mem_range.mp hj
        simp only [List.map_cons, List.map_nil, List.sum_cons, List.sum_nil, g, if_true, Bool.false_eq_true, if_false]
        rw [divq _ _ hj]; ring
    rw [t1, Finset.sum_congr rfl t2, ← Finset.mul_sum]
    have tel := telescope A (st - 2 + 1)
    rw [Finset.sum_range_succ'] at tel
    have last : Real.cos (((st - 2 + 1 : ℕ) : ℝ) * A) = - Real.cos A := by
      rw [← Real.cos_pi_sub]; congr 1
      rw [show st - 2 + 1 = st - 1 by omega, Nat.cast_sub (by omega), hA]; push_cast; field_simp
    rw [last] at tel
    simp only [Nat.cast_zero, zero_mul, Real.sin_zero, zero_add] at tel ⊢
    calc _ = sc * S / 6 * r ^ 3 * (Real.sin A * (∑ k ∈ Finset.range (st-2), (Real.sin ((k+1 : ℕ) * A) + Real.sin ((k+1+1 : ℕ) * A)) + Real.sin ((1:ℕ) * A))) := by ring
      _ = _ := by rw [tel]; ring
  · intro t ht
    unfold gridTris at ht
    obtain ⟨⟨s, q⟩, hq, rfl⟩ := List.mem_map.mp ht
    rw [fq]
    obtain ⟨i, j, h1, h2, rfl, hb⟩ := gridKeys_coord sc st hst s q hq
    have e1 : i*(sc+1)+j+(sc+1) = (i+1)*(sc+1)+j := by ring
    cases s
    · simp only [quadTri, lower, Bool.false_eq_true, if_false, g]
      refine ⟨_, _, _, hm i j (by omega) (by omega), by rw [e1]; exact hm (i+1) j h1 (by omega), hm i (j+1) (by omega) (by omega), ?_⟩
      rw [(sphere_volume r sc st i j).1, divq i j h2]
    · simp only [quadTri, upper, if_true, g]
      refine ⟨_, _, _, hm i (j+1) (by omega) (by omega), by rw [e1]; exact hm (i+1) j h1 (by omega), by rw [e1]; exact hm (i+1) (j+1) h1 (by omega), ?_⟩
      rw [(sphere_volume r sc st i j).2, divq i j h2]

theorem sin_lower {X : ℝ} (h : 0 < X) : X * (1 - X ^ 2 / 6) ≤ Real.sin X := by
  have := Real.sin_gt_sub_cube h
  nlinarith

/-- C108: the volume is at most the one of the ball and falls short of it by a term of second order in the two steps -/
theorem C108_volume_bounds (c : R3.Vector ℝ) (r : ℝ) (hr : 0 ≤ r) (sc st : ℕ) (hsc : 1 ≤ sc) (hst : 2 ≤ st) (hsz : st * (sc+1) < 2^32) :
    ∃ m, Sphere.Construct ⟨c, r, sc, st⟩ = .ok m ∧ meshVolume m ≤ 4 / 3 * Real.pi * r ^ 3 ∧
      4 / 3 * Real.pi * r ^ 3 * (1 - (2 * Real.pi / sc) ^ 2 / 6 - (Real.pi / st) ^ 2 / 2) ≤ meshVolume m := by
  obtain ⟨m, e, h⟩ := C108_volume c r sc st hsc hst hsz
  refine ⟨m, e, ?_⟩
  rw [h]
  have hp := Real.pi_pos
  have hsc' : (0:ℝ) < sc := by exact_mod_cast (by omega : 0 < sc)
  have hst' : (0:ℝ) < st := by exact_mod_cast (by omega : 0 < st)
  have r3 : 0 ≤ r ^ 3 := pow_nonneg hr 3
  set X := 2 * Real.pi / sc with hX
  set A := Real.pi / st with hA
  have x0 : 0 < X := by positivity
  have a0 : 0 < A := by positivity
  have eX : sc * X = 2 * Real.pi := by rw [hX]; field_simp
  have c1 := Real.one_sub_sq_div_two_le_cos (x := A)
  have c2 := Real.cos_le_one A
  have c3 := Real.neg_one_le_cos A
  have sX := sin_lower x0
  have sX' : Real.sin X ≤ X := Real.sin_le x0.le
  have n1 : sc * Real.sin X ≤ 2 * Real.pi := by rw [← eX]; exact mul_le_mul_of_nonneg_left sX' hsc'.le
  have n2 : 2 * Real.pi * (1 - X ^ 2 / 6) ≤ sc * Real.sin X := by
    rw [← eX]
    have := mul_le_mul_of_nonneg_left sX hsc'.le
    linarith
  have q0 : 0 ≤ (1 + Real.cos A) ^ 2 := sq_nonneg _
  have q1 : (1 + Real.cos A) ^ 2 ≤ 4 := by nlinarith
  have q2 : 4 * (1 - A ^ 2 / 2) ≤ (1 + Real.cos A) ^ 2 := by nlinarith [sq_nonneg (1 - Real.cos A)]
  constructor
  · calc _ = r ^ 3 / 6 * (sc * Real.sin X * (1 + Real.cos A) ^ 2) := by ring
      _ ≤ r ^ 3 / 6 * (2 * Real.pi * (1 + Real.cos A) ^ 2) := mul_le_mul_of_nonneg_left (mul_le_mul_of_nonneg_right n1 q0) (by positivity)
      _ ≤ r ^ 3 / 6 * (2 * Real.pi * 4) := mul_le_mul_of_nonneg_left (mul_le_mul_of_nonneg_left q1 (by positivity)) (by positivity)
      _ = _ := by ring
  · have step : 8 * Real.pi * (1 - X ^ 2 / 6 - A ^ 2 / 2) ≤ sc * Real.sin X * (1 + Real.cos A) ^ 2 := by
      have s1 : 2 * Real.pi * (1 - X ^ 2 / 6) * (1 + Real.cos A) ^ 2 ≤ sc * Real.sin X * (1 + Real.cos A) ^ 2 := mul_le_mul_of_nonneg_right n2 q0
      have s2 : 2 * Real.pi * (X ^ 2 / 6) * (1 + Real.cos A) ^ 2 ≤ 2 * Real.pi * (X ^ 2 / 6) * 4 := mul_le_mul_of_nonneg_left q1 (by positivity)
      have s3 : 2 * Real.pi * (4 * (1 - A ^ 2 / 2)) ≤ 2 * Real.pi * (1 + Real.cos A) ^ 2 := mul_le_mul_of_nonneg_left q2 (by positivity)
      linarith
    calc _ = r ^ 3 / 6 * (8 * Real.pi * (1 - X ^ 2 / 6 - A ^ 2 / 2)) := by ring
      _ ≤ r ^ 3 / 6 * (sc * Real.sin X * (1 + Real.cos A) ^ 2) := mul_le_mul_of_nonneg_left step (by positivity)
      _ = _ := by ring

/-! ## Torus -/

/-- three points at the ends of an arc, with weights: their sum is between chord and arc -/
theorem arc3 (a b c A B C θ h : ℝ) (ha : 0 ≤ a) (hb : 0 ≤ b) (hc : 0 ≤ c) (hA : A = θ - h ∨ A = θ + h) (hB : B = θ - h ∨ B = θ + h)
    (hC : C = θ - h ∨ C = θ + h) :
    Real.cos h * (a + b + c) ≤ Real.sqrt ((a * Real.cos A + b * Real.cos B + c * Real.cos C) ^ 2 + (a * Real.sin A + b * Real.sin B + c * Real.sin C) ^ 2) ∧
    Real.sqrt ((a * Real.cos A + b * Real.cos B + c * Real.cos C) ^ 2 + (a * Real.sin A + b * Real.sin B + c * Real.sin C) ^ 2) ≤ a + b + c := by
  set x := a * Real.cos A + b * Real.cos B + c * Real.cos C with hx
  set y := a * Real.sin A + b * Real.sin B + c * Real.sin C with hy
  have one := Real.sin_sq_add_cos_sq θ
  have along : x * Real.cos θ + y * Real.sin θ = Real.cos h * (a + b + c) := by
    have k : ∀ D, (D = θ - h ∨ D = θ + h) → Real.cos D * Real.cos θ + Real.sin D * Real.sin θ = Real.cos h := by
      rintro D (rfl | rfl)
      · rw [← Real.cos_sub, show θ - h - θ = -h by ring, Real.cos_neg]
      · rw [← Real.cos_sub, show θ + h - θ = h by ring]
    have e : x * Real.cos θ + y * Real.sin θ = a * (Real.cos A * Real.cos θ + Real.sin A * Real.sin θ) +
        b * (Real.cos B * Real.cos θ + Real.sin B * Real.sin θ) + c * (Real.cos C * Real.cos θ + Real.sin C * Real.sin θ) := by rw [hx, hy]; ring
    rw [e, k A hA, k B hB, k C hC]; ring
  have len : x ^ 2 + y ^ 2 = (x * Real.cos θ + y * Real.sin θ) ^ 2 + (y * Real.cos θ - x * Real.sin θ) ^ 2 := by
    calc _ = (x ^ 2 + y ^ 2) * (Real.sin θ ^ 2 + Real.cos θ ^ 2) := by rw [one, mul_one]
      _ = _ := by ring
  have across : |y * Real.cos θ - x * Real.sin θ| ≤ |Real.sin h| * (a + b + c) := by
    have k : ∀ D, (D = θ - h ∨ D = θ + h) → |Real.sin D * Real.cos θ - Real.cos D * Real.sin θ| = |Real.sin h| := by
      rintro D (rfl | rfl)
      · rw [← Real.sin_sub, show θ - h - θ = -h by ring, Real.sin_neg, abs_neg]
      · rw [← Real.sin_sub, show θ + h - θ = h by ring]
    have e : y * Real.cos θ - x * Real.sin θ = a * (Real.sin A * Real.cos θ - Real.cos A * Real.sin θ) +
        b * (Real.sin B * Real.cos θ - Real.cos B * Real.sin θ) + c * (Real.sin C * Real.cos θ - Real.cos C * Real.sin θ) := by rw [hx, hy]; ring
    rw [e]
    refine (abs_add_three _ _ _).trans ?_
    rw [abs_mul, abs_mul, abs_mul, abs_of_nonneg ha, abs_of_nonneg hb, abs_of_nonneg hc, k A hA, k B hB, k C hC]
    linarith
  constructor
  · rw [← along]
    apply Real.le_sqrt_of_sq_le
    rw [len]
    nlinarith [sq_nonneg (y * Real.cos θ - x * Real.sin θ)]
  · rw [Real.sqrt_le_left (by linarith), len, along]
    have sq : (y * Real.cos θ - x * Real.sin θ) ^ 2 ≤ (|Real.sin h| * (a + b + c)) ^ 2 := by
      rw [← sq_abs (y * Real.cos θ - x * Real.sin θ)]
      exact pow_le_pow_left₀ (abs_nonneg _) across 2
    rw [mul_pow, sq_abs] at sq
    have h1 := Real.sin_sq_add_cos_sq h
    calc _ ≤ (Real.cos h * (a+b+c)) ^ 2 + Real.sin h ^ 2 * (a+b+c) ^ 2 := by linarith
      _ = (Real.sin h ^ 2 + Real.cos h ^ 2) * (a+b+c) ^ 2 := by ring
      _ = _ := by rw [h1, one_mul]

/-- distance of a point from the circle of radius `R` around the origin in the plane of X and Y -/
noncomputable def coreDist (R : ℝ) (p : R3.Vector ℝ) : ℝ := Real.sqrt ((Real.sqrt (p.X ^ 2 + p.Y ^ 2) - R) ^ 2 + p.Z ^ 2)

theorem sqrt_shift (a b z : ℝ) : |Real.sqrt (a ^ 2 + z ^ 2) - Real.sqrt (b ^ 2 + z ^ 2)| ≤ |a - b| := by
  have n : ∀ u v : ℝ, ‖(⟨u, v⟩ : ℂ)‖ = Real.sqrt (u ^ 2 + v ^ 2) := by
    intro u v; rw [Complex.norm_def, Complex.normSq_mk]; congr 1; ring
  rw [← n, ← n]
  refine (abs_norm_sub_norm_le _ _).trans ?_
  have : (⟨a, z⟩ : ℂ) - ⟨b, z⟩ = ((a - b : ℝ) : ℂ) := by apply Complex.ext <;> simp
  rw [this, Complex.norm_real, Real.norm_eq_abs]

theorem torus_point (R t : ℝ) (ht : 0 ≤ t) (hR : t ≤ R) (sc st i j i1 i2 i3 j1 j2 j3 : ℕ) (a1 : i1 = i ∨ i1 = i + 1) (a2 : i2 = i ∨ i2 = i + 1)
    (a3 : i3 = i ∨ i3 = i + 1) (b1 : j1 = j ∨ j1 = j + 1) (b2 : j2 = j ∨ j2 = j + 1) (b3 : j3 = j ∨ j3 = j + 1) (x y z : ℝ)
    (hx : 0 ≤ x) (hy : 0 ≤ y) (hz : 0 ≤ z) (hs : x + y + z = 1) :
    |coreDist R (mix3 (torusAt R t sc st i1 j1) (torusAt R t sc st i2 j2) (torusAt R t sc st i3 j3) x y z) - t| ≤
      t * (1 - Real.cos (Real.pi / st)) + (R + t) * (1 - Real.cos (Real.pi / sc)) := by
  set al : ℕ → ℝ := fun i => Real.pi/2 - i * (2 * Real.pi / st) with hal
  set be : ℕ → ℝ := fun j => j * (2 * Real.pi / sc) with hbe
  have ang1 : ∀ k, (k = i ∨ k = i + 1) → al k = (Real.pi/2 - i * (2 * Real.pi / st) - Real.pi / st) - Real.pi / st ∨
      al k = (Real.pi/2 - i * (2 * Real.pi / st) - Real.pi / st) + Real.pi / st := by
    rintro k (rfl | rfl)
    · right; simp only [hal]; ring
    · left; simp only [hal]; push_cast; ring
  have ang2 : ∀ k, (k = j ∨ k = j + 1) → be k = (j * (2 * Real.pi / sc) + Real.pi / sc) - Real.pi / sc ∨
      be k = (j * (2 * Real.pi / sc) + Real.pi / sc) + Real.pi / sc := by
    rintro k (rfl | rfl)
    · left; simp only [hbe]; ring
    · right; simp only [hbe]; push_cast; ring
  have rho : ∀ k, 0 ≤ R + t * Real.cos (al k) ∧ R + t * Real.cos (al k) ≤ R + t := by
    intro k
    have := Real.neg_one_le_cos (al k)
    have := Real.cos_le_one (al k)
    constructor <;> nlinarith
  obtain ⟨m1, m2⟩ := arc3 (x * (R + t * Real.cos (al i1))) (y * (R + t * Real.cos (al i2))) (z * (R + t * Real.cos (al i3))) _ _ _ _ _
    (mul_nonneg hx (rho i1).1) (mul_nonneg hy (rho i2).1) (mul_nonneg hz (rho i3).1) (ang2 j1 b1) (ang2 j2 b2) (ang2 j3 b3)
  obtain ⟨k1, k2⟩ := arc3 (x * t) (y * t) (z * t) _ _ _ _ _ (mul_nonneg hx ht) (mul_nonneg hy ht) (mul_nonneg hz ht) (ang1 i1 a1) (ang1 i2 a2) (ang1 i3 a3)
  set W := x * (R + t * Real.cos (al i1)) + y * (R + t * Real.cos (al i2)) + z * (R + t * Real.cos (al i3)) with hW
  have tot : x * t + y * t + z * t = t := by rw [← add_mul, ← add_mul, hs, one_mul]
  rw [tot] at k1 k2
  have W1 : W ≤ R + t := by
    have q1 := mul_le_mul_of_nonneg_left (rho i1).2 hx
    have q2 := mul_le_mul_of_nonneg_left (rho i2).2 hy
    have q3 := mul_le_mul_of_nonneg_left (rho i3).2 hz
    have : (x + y + z) * (R + t) = R + t := by rw [hs, one_mul]
    rw [hW]; linarith
  set P := mix3 (torusAt R t sc st i1 j1) (torusAt R t sc st i2 j2) (torusAt R t sc st i3 j3) x y z with hP
  have eX : P.X = x * (R + t * Real.cos (al i1)) * Real.cos (be j1) + y * (R + t * Real.cos (al i2)) * Real.cos (be j2) +
      z * (R + t * Real.cos (al i3)) * Real.cos (be j3) := by rw [hP]; simp only [mix3, torusAt, hal, hbe]; ring
  have eY : P.Y = x * (R + t * Real.cos (al i1)) * Real.sin (be j1) + y * (R + t * Real.cos (al i2)) * Real.sin (be j2) +
      z * (R + t * Real.cos (al i3)) * Real.sin (be j3) := by rw [hP]; simp only [mix3, torusAt, hal, hbe]; ring
  have eZ : P.Z = x * t * Real.sin (al i1) + y * t * Real.sin (al i2) + z * t * Real.sin (al i3) := by
    rw [hP]; simp only [mix3, torusAt, hal]; ring
  have eW : W - R = x * t * Real.cos (al i1) + y * t * Real.cos (al i2) + z * t * Real.cos (al i3) := by
    have : (x + y + z) * R = R := by rw [hs, one_mul]
    rw [hW]; linarith
  rw [← eX, ← eY] at m1 m2
  rw [← eZ, ← eW] at k1 k2
  have sh := sqrt_shift (Real.sqrt (P.X ^ 2 + P.Y ^ 2) - R) (W - R) P.Z
  have d : |Real.sqrt (P.X ^ 2 + P.Y ^ 2) - R - (W - R)| ≤ (R + t) * (1 - Real.cos (Real.pi / sc)) := by
    have c1 := Real.cos_le_one (Real.pi / sc)
    rw [abs_le]
    constructor
    · have : W * (1 - Real.cos (Real.pi / sc)) ≤ (R + t) * (1 - Real.cos (Real.pi / sc)) := mul_le_mul_of_nonneg_right W1 (by linarith)
      linarith
    · have : 0 ≤ (R + t) * (1 - Real.cos (Real.pi / sc)) := mul_nonneg (by linarith) (by linarith)
      linarith
  have e2 : |Real.sqrt ((W - R) ^ 2 + P.Z ^ 2) - t| ≤ t * (1 - Real.cos (Real.pi / st)) := by
    have c1 := Real.cos_le_one (Real.pi / st)
    have : 0 ≤ t * (1 - Real.cos (Real.pi / st)) := mul_nonneg ht (by linarith)
    rw [abs_le]
    constructor <;> linarith
  unfold coreDist
  calc _ = |(Real.sqrt ((Real.sqrt (P.X ^ 2 + P.Y ^ 2) - R) ^ 2 + P.Z ^ 2) - Real.sqrt ((W - R) ^ 2 + P.Z ^ 2)) + (Real.sqrt ((W - R) ^ 2 + P.Z ^ 2) - t)| := by ring_nf
    _ ≤ _ := abs_add_le _ _
    _ ≤ _ := by linarith [sh.trans d]

/-- C108: every point of every triangle of the torus has a distance from the surface of second order in the two steps -/
theorem C108_torus_distance (c : R3.Vector ℝ) (R t : ℝ) (ht : 0 ≤ t) (hR : t ≤ R) (sc st : ℕ) (hsc : 1 ≤ sc) (hst : 2 ≤ st) (hsz : st * (sc+1) < 2^32) :
    ∃ m, Torus.Construct ⟨c, R, t, sc, st⟩ = .ok m ∧ ∀ k a b d, TriAt m.Indices k a b d →
      ∃ u v w, m.Vertices[a]? = some u ∧ m.Vertices[b]? = some v ∧ m.Vertices[d]? = some w ∧
        ∀ x y z : ℝ, 0 ≤ x → 0 ≤ y → 0 ≤ z → x + y + z = 1 →
          |coreDist R (mix3 u v w x y z) - t| ≤ t * (1 - Real.cos (Real.pi / st)) + (R + t) * (1 - Real.cos (Real.pi / sc)) := by
  obtain ⟨m, e, hi, _, _, _, hm⟩ := C47_torus_vertices c R t sc st (by omega)
  have hm' : ∀ i j, i < st → j ≤ sc → m.Vertices[i * (sc+1) + j]? = some (torusAt R t sc st i j) := fun i j h1 h2 => (hm i j h1 h2).1
  refine ⟨m, e, fun k a b d hk => ?_⟩
  rw [hi] at hk
  obtain ⟨i, j, h1, h2, ⟨h3, rfl, rfl, rfl⟩ | ⟨rfl, rfl, rfl⟩⟩ := tri_cases hst hsz hk
  · exact ⟨_, _, _, hm' i j (by omega) (by omega), hm' (i+1) j h1 (by omega), hm' i (j+1) (by omega) (by omega), fun x y z hx hy hz hs =>
      torus_point R t ht hR sc st i j _ _ _ _ _ _ (by simp) (by simp) (by simp) (by simp) (by simp) (by simp) x y z hx hy hz hs⟩
  · exact ⟨_, _, _, hm' i (j+1) (by omega) (by omega), hm' (i+1) j h1 (by omega), hm' (i+1) (j+1) h1 (by omega), fun x y z hx hy hz hs =>
      torus_point R t ht hR sc st i j _ _ _ _ _ _ (by simp) (by simp) (by simp) (by simp) (by simp) (by simp) x y z hx hy hz hs⟩

/-! ## Concrete cases -/

/-- the mesh of `ConstructSphere` misses less than one part in 5000 of the volume of the ball -/
example (c : R3.Vector ℝ) (r : ℝ) (hr : 0 ≤ r) : ∃ m, ConstructSphere c r = .ok m ∧ 9998 / 10000 * (4 / 3 * Real.pi * r ^ 3) ≤ meshVolume m := by
  obtain ⟨m, e, _, h⟩ := C108_volume_bounds c r hr 300 300 (by norm_num) (by norm_num) (by norm_num)
  refine ⟨m, e, le_trans ?_ h⟩
  have p1 := Real.pi_pos
  have p2 := Real.pi_lt_d2
  have : (9998 / 10000 : ℝ) ≤ 1 - (2 * Real.pi / (300:ℕ)) ^ 2 / 6 - (Real.pi / (300:ℕ)) ^ 2 / 2 := by push_cast; nlinarith
  have q : 0 ≤ 4 / 3 * Real.pi * r ^ 3 := by positivity
  nlinarith

/-- four sectors and two stacks: half of an octahedron, whose volume is two thirds -/
example (c : R3.Vector ℝ) : ∃ m, Sphere.Construct ⟨c, (1:ℝ), 4, 2⟩ = .ok m ∧ meshVolume m = 2 / 3 := by
  obtain ⟨m, e, h⟩ := C108_volume c 1 4 2 (by norm_num) (by norm_num) (by norm_num)
  refine ⟨m, e, ?_⟩
  rw [h, show 2 * Real.pi / ((4:ℕ):ℝ) = Real.pi / 2 by push_cast; ring, show Real.pi / ((2:ℕ):ℝ) = Real.pi / 2 by push_cast; ring,
    Real.sin_pi_div_two, Real.cos_pi_div_two]
  norm_num

/-- the torus of `ConstructTorus` with radius 2 and tube 1 is nowhere further than a five-hundredth from the true one -/
example (c : R3.Vector ℝ) : ∃ m, ConstructTorus c (2:ℝ) 1 = .ok m ∧ ∀ k a b d, TriAt m.Indices k a b d →
    ∃ u v w, m.Vertices[a]? = some u ∧ m.Vertices[b]? = some v ∧ m.Vertices[d]? = some w ∧
      ∀ x y z : ℝ, 0 ≤ x → 0 ≤ y → 0 ≤ z → x + y + z = 1 → |coreDist 2 (mix3 u v w x y z) - 1| ≤ 1 / 500 := by
  obtain ⟨m, e, h⟩ := C108_torus_distance c 2 1 (by norm_num) (by norm_num) 100 100 (by norm_num) (by norm_num) (by norm_num)
  refine ⟨m, e, fun k a b d hk => ?_⟩
  obtain ⟨u, v, w, h1, h2, h3, h4⟩ := h k a b d hk
  refine ⟨u, v, w, h1, h2, h3, fun x y z hx hy hz hs => (h4 x y z hx hy hz hs).trans ?_⟩
  have c1 := Real.one_sub_sq_div_two_le_cos (x := Real.pi / (100:ℕ))
  have p1 := Real.pi_pos
  have p2 := Real.pi_lt_d2
  have : (Real.pi / (100:ℕ)) ^ 2 ≤ 1 / 1000 := by push_cast; nlinarith
  linarith

/-- a point on the equator between two vertices of a sphere of radius 2 -/
example : normSq3 ⟨0, 2, 0⟩ = 2 ^ 2 ∧ -(2 * Real.cos (Real.pi / (2:ℕ))) ≤ (0:ℝ) := by
  constructor
  · norm_num [normSq3]
  · simp

end Verif.Props
