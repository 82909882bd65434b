import Verif.Model.Shape
import Verif.Props.R3
import Mathlib.Tactic.Linarith
import Mathlib.Tactic.Ring
import Mathlib.Tactic.FieldSimp
import Mathlib.Tactic.IntervalCases
/-!
# C47-C51, C53: tessellated shapes and the glTF transfer

Over the reals. The record for stack `i` and sector `j` is given explicitly (`C47_sphere_vertices`,
`C47_torus_vertices`), the properties follow from it.
-/
namespace Verif.Props
open Verif Verif.R3 Verif.Shape
set_option linter.unusedSectionVars false

/-! ## Loops -/

theorem loopRecs_ok {α β : Type} (body : α → Res β) (f : α → β) (l : List α) (h : ∀ x ∈ l, body x = .ok (f x)) :
    loopRecs body l = .ok (l.map f) := by
  induction l with
  | nil => rfl
  | cons x xs ih =>
    simp only [loopRecs]
    rw [h x (by simp), ih fun y hy => h y (by simp [hy])]
    rfl

theorem mem_loopTo (n : Int) (i : Int) : i ∈ loopTo n ↔ 0 ≤ i ∧ i < n := by
  simp only [loopTo, List.mem_map, List.mem_range]
  constructor
  · rintro ⟨a, h, rfl⟩
    simp only [Int.ofNat_eq_natCast]; omega
  · rintro ⟨h1, h2⟩
    exact ⟨i.toNat, by omega, by simp only [Int.ofNat_eq_natCast]; omega⟩

theorem loopTo_nat (n : ℕ) : loopTo (n : Int) = (List.range n).map fun i : ℕ => (i : Int) := by
  simp [loopTo]

theorem goDiv_nat (a b : ℕ) (hb : 0 < b) : goDiv (a : Int) (b : Int) = .ok ((a / b : ℕ) : Int) := by
  unfold goDiv
  rw [if_neg (by omega), Int.tdiv_eq_ediv_of_nonneg (by omega)]; rfl

/-- elements of a rectangular double loop -/
theorem flatten_grid {α : Type} (f : ℕ → ℕ → α) (n w i j : ℕ) (hi : i < n) (hj : j < w) :
    ((List.range n).map fun i => (List.range w).map (f i)).flatten[i * w + j]? = some (f i j) := by
  induction n generalizing i with
  | zero => omega
  | succ n ih =>
    rw [List.range_succ, List.map_append, List.flatten_append]
    have hl : ((List.range n).map fun i => (List.range w).map (f i)).flatten.length = n * w := by
      simp [List.length_flatten, List.map_map, Function.comp_def]
    by_cases h : i < n
    · rw [List.getElem?_append_left, ih i h]
      rw [hl]
      calc i * w + j < i * w + w := by omega
        _ = (i+1) * w := by ring
        _ ≤ n * w := Nat.mul_le_mul_right _ (by omega)
    · have : i = n := by omega
      subst this
      rw [List.getElem?_append_right (by omega), hl]
      simp [hj]

theorem length_grid {α : Type} (f : ℕ → ℕ → α) (n w : ℕ) :
    ((List.range n).map fun i => (List.range w).map (f i)).flatten.length = n * w := by
  simp [List.length_flatten, List.map_map, Function.comp_def]

theorem mem_grid {α : Type} (f : ℕ → ℕ → α) (n w : ℕ) (x : α) :
    x ∈ ((List.range n).map fun i => (List.range w).map (f i)).flatten ↔ ∃ i j, i < n ∧ j < w ∧ x = f i j := by
  simp only [List.mem_flatten, List.mem_map, List.mem_range]
  constructor
  · rintro ⟨l, ⟨i, hi, rfl⟩, hx⟩
    obtain ⟨j, hj, rfl⟩ := List.mem_map.mp hx
    exact ⟨i, j, hi, List.mem_range.mp hj, rfl⟩
  · rintro ⟨i, j, hi, hj, rfl⟩
    exact ⟨_, ⟨i, hi, rfl⟩, List.mem_map.mpr ⟨j, List.mem_range.mpr hj, rfl⟩⟩

/-- the record the ring loop appends for sector `j` -/
noncomputable def ringRec (sc st : ℕ) (lengthInv xy z : ℝ) (i j : ℕ) : VertexRec ℝ :=
  ⟨⟨xy * Real.cos (j * (2 * Real.pi / sc)), xy * Real.sin (j * (2 * Real.pi / sc)), z⟩,
   (xy * Real.cos (j * (2 * Real.pi / sc)) * lengthInv, xy * Real.sin (j * (2 * Real.pi / sc)) * lengthInv, z * lengthInv),
   (((j / sc : ℕ) : ℝ), ((i / st : ℕ) : ℝ))⟩

theorem ringVertices_eq (sc st : ℕ) (hsc : 0 < sc) (hst : 0 < st) (lengthInv xy z : ℝ) (i : ℕ) :
    ringVertices (sc : Int) (st : Int) lengthInv xy z (i : Int) =
      .ok ((List.range (sc+1)).map (ringRec sc st lengthInv xy z i)) := by
  unfold ringVertices
  rw [show ((sc : Int) + 1) = ((sc + 1 : ℕ) : Int) by push_cast; rfl, loopTo_nat]
  dsimp only
  rw [loopRecs_ok _ (fun j : Int => ringRec sc st lengthInv xy z i j.toNat)]
  · rw [List.map_map]; rfl
  · intro j hj
    obtain ⟨j', _, rfl⟩ := List.mem_map.mp hj
    rw [goDiv_nat j' sc hsc, goDiv_nat i st hst]
    simp [ringRec]
    exact ⟨by norm_cast, by norm_cast⟩

/-- the record of the sphere for stack `i` and sector `j` -/
noncomputable def sphereRec (r : ℝ) (sc st i j : ℕ) : VertexRec ℝ :=
  ringRec sc st (1 / r) (r * Real.cos (Real.pi/2 - i * (Real.pi / st))) (r * Real.sin (Real.pi/2 - i * (Real.pi / st))) i j

/-- the record of the torus for stack `i` and sector `j` -/
noncomputable def torusRec (R t : ℝ) (sc st i j : ℕ) : VertexRec ℝ :=
  ringRec sc st (1 / R) (R + t * Real.cos (Real.pi/2 - i * (2 * Real.pi / st)))
    (t * Real.sin (Real.pi/2 - i * (2 * Real.pi / st))) i j

theorem sphere_generate (c : R3.Vector ℝ) (r : ℝ) (sc st : ℕ) (hsc : 0 < sc) :
    Sphere.generateVertices ⟨c, r, sc, st⟩ =
      .ok ((List.range st).map fun i => (List.range (sc+1)).map (sphereRec r sc st i)).flatten := by
  unfold Sphere.generateVertices
  dsimp only
  rw [loopTo_nat, loopRecs_ok _ (fun i : Int => (List.range (sc+1)).map (sphereRec r sc st i.toNat))]
  · simp only [Res.bind_ok, Res.pure_eq, List.map_map]; rfl
  · intro i hi
    obtain ⟨i', hi', rfl⟩ := List.mem_map.mp hi
    have := List.mem_range.mp hi'
    rw [ringVertices_eq sc st hsc (by omega)]
    congr 2
    funext j
    simp only [sphereRec, Int.toNat_natCast, goPi_real, goOfInt_field, goCos_real, goSin_real]
    push_cast
    rw [show (1 : ℝ) / 2 * Real.pi = Real.pi / 2 by ring, one_mul]

theorem torus_generate (c : R3.Vector ℝ) (R t : ℝ) (sc st : ℕ) (hsc : 0 < sc) :
    Torus.generateVertices ⟨c, R, t, sc, st⟩ =
      .ok ((List.range st).map fun i => (List.range (sc+1)).map (torusRec R t sc st i)).flatten := by
  unfold Torus.generateVertices
  dsimp only
  rw [loopTo_nat, loopRecs_ok _ (fun i : Int => (List.range (sc+1)).map (torusRec R t sc st i.toNat))]
  · simp only [Res.bind_ok, Res.pure_eq, List.map_map]; rfl
  · intro i hi
    obtain ⟨i', hi', rfl⟩ := List.mem_map.mp hi
    have := List.mem_range.mp hi'
    rw [ringVertices_eq sc st hsc (by omega)]
    congr 2
    funext j
    simp only [torusRec, Int.toNat_natCast, goPi_real, goOfInt_field, goCos_real, goSin_real]
    push_cast
    rw [show (1 : ℝ) / 2 * Real.pi = Real.pi / 2 by ring]

/-! ## C47, C48 (lengths), C51 -/

/-- every record of the sphere mesh, with its position in the three lists -/
theorem C47_sphere_vertices (c : R3.Vector ℝ) (r : ℝ) (sc st : ℕ) (hsc : 0 < sc) :
    ∃ m, Sphere.Construct ⟨c, r, sc, st⟩ = .ok m ∧ m.Indices = gridIndices sc st ∧
      m.Vertices.length = st * (sc+1) ∧ m.Normals.length = st * (sc+1) ∧ m.TexCoords.length = st * (sc+1) ∧
      ∀ i j, i < st → j ≤ sc →
        m.Vertices[i * (sc+1) + j]? = some
          ⟨r * Real.cos (Real.pi/2 - i * (Real.pi / st)) * Real.cos (j * (2 * Real.pi / sc)),
           r * Real.cos (Real.pi/2 - i * (Real.pi / st)) * Real.sin (j * (2 * Real.pi / sc)),
           r * Real.sin (Real.pi/2 - i * (Real.pi / st))⟩ ∧
        m.Normals[i * (sc+1) + j]? = some
          (r * Real.cos (Real.pi/2 - i * (Real.pi / st)) * Real.cos (j * (2 * Real.pi / sc)) * (1 / r),
           r * Real.cos (Real.pi/2 - i * (Real.pi / st)) * Real.sin (j * (2 * Real.pi / sc)) * (1 / r),
           r * Real.sin (Real.pi/2 - i * (Real.pi / st)) * (1 / r)) ∧
        m.TexCoords[i * (sc+1) + j]? = some (((j / sc : ℕ) : ℝ), ((i / st : ℕ) : ℝ)) := by
  unfold Sphere.Construct
  rw [sphere_generate c r sc st hsc]
  refine ⟨_, rfl, rfl, ?_, ?_, ?_, ?_⟩
  · rw [List.length_map, length_grid]
  · rw [List.length_map, length_grid]
  · rw [List.length_map, length_grid]
  · intro i j hi hj
    refine ⟨?_, ?_, ?_⟩ <;> rw [List.getElem?_map, flatten_grid _ _ _ _ _ hi (by omega)] <;> rfl

theorem C47_torus_vertices (c : R3.Vector ℝ) (R t : ℝ) (sc st : ℕ) (hsc : 0 < sc) :
    ∃ m, Torus.Construct ⟨c, R, t, sc, st⟩ = .ok m ∧ m.Indices = gridIndices sc st ∧
      m.Vertices.length = st * (sc+1) ∧ m.Normals.length = st * (sc+1) ∧ m.TexCoords.length = st * (sc+1) ∧
      ∀ i j, i < st → j ≤ sc →
        m.Vertices[i * (sc+1) + j]? = some
          ⟨(R + t * Real.cos (Real.pi/2 - i * (2 * Real.pi / st))) * Real.cos (j * (2 * Real.pi / sc)),
           (R + t * Real.cos (Real.pi/2 - i * (2 * Real.pi / st))) * Real.sin (j * (2 * Real.pi / sc)),
           t * Real.sin (Real.pi/2 - i * (2 * Real.pi / st))⟩ ∧
        m.Normals[i * (sc+1) + j]? = some
          ((R + t * Real.cos (Real.pi/2 - i * (2 * Real.pi / st))) * Real.cos (j * (2 * Real.pi / sc)) * (1 / R),
           (R + t * Real.cos (Real.pi/2 - i * (2 * Real.pi / st))) * Real.sin (j * (2 * Real.pi / sc)) * (1 / R),
           t * Real.sin (Real.pi/2 - i * (2 * Real.pi / st)) * (1 / R)) ∧
        m.TexCoords[i * (sc+1) + j]? = some (((j / sc : ℕ) : ℝ), ((i / st : ℕ) : ℝ)) := by
  unfold Torus.Construct
  rw [torus_generate c R t sc st hsc]
  refine ⟨_, rfl, rfl, ?_, ?_, ?_, ?_⟩
  · rw [List.length_map, length_grid]
  · rw [List.length_map, length_grid]
  · rw [List.length_map, length_grid]
  · intro i j hi hj
    refine ⟨?_, ?_, ?_⟩ <;> rw [List.getElem?_map, flatten_grid _ _ _ _ _ hi (by omega)] <;> rfl

/-- membership form: every entry of a grid list comes from some stack and sector -/
theorem grid_index (st w k : ℕ) (hk : k < st * w) : ∃ i j, i < st ∧ j < w ∧ k = i * w + j := by
  have hw : 0 < w := by rcases Nat.eq_zero_or_pos w with h | h <;> [subst h; exact h]; omega
  refine ⟨k / w, k % w, (Nat.div_lt_iff_lt_mul hw).mpr hk, Nat.mod_lt _ hw, ?_⟩
  rw [Nat.mul_comm]; exact (Nat.div_add_mod k w).symm

theorem sphere_vertex_mem (c : R3.Vector ℝ) (r : ℝ) (sc st : ℕ) (hsc : 0 < sc) (m : Mesh ℝ)
    (hm : Sphere.Construct ⟨c, r, sc, st⟩ = .ok m) (v : R3.Vector ℝ) (hv : v ∈ m.Vertices) :
    ∃ i j : ℕ, i < st ∧ j ≤ sc ∧ v =
          ⟨r * Real.cos (Real.pi/2 - i * (Real.pi / st)) * Real.cos (j * (2 * Real.pi / sc)),
           r * Real.cos (Real.pi/2 - i * (Real.pi / st)) * Real.sin (j * (2 * Real.pi / sc)),
           r * Real.sin (Real.pi/2 - i * (Real.pi / st))⟩ := by
  obtain ⟨m', e, _, hl, _, _, h⟩ := C47_sphere_vertices c r sc st hsc
  rw [hm] at e; injection e with e; subst e
  obtain ⟨k, hk, rfl⟩ := List.mem_iff_getElem.mp hv
  obtain ⟨i, j, hi, hj, rfl⟩ := grid_index st (sc+1) k (by omega)
  refine ⟨i, j, hi, by omega, ?_⟩
  have := (h i j hi (by omega)).1
  rw [List.getElem?_eq_getElem hk] at this
  injection this

theorem torus_vertex_mem (c : R3.Vector ℝ) (R t : ℝ) (sc st : ℕ) (hsc : 0 < sc) (m : Mesh ℝ)
    (hm : Torus.Construct ⟨c, R, t, sc, st⟩ = .ok m) (v : R3.Vector ℝ) (hv : v ∈ m.Vertices) :
    ∃ i j : ℕ, i < st ∧ j ≤ sc ∧ v =
          ⟨(R + t * Real.cos (Real.pi/2 - i * (2 * Real.pi / st))) * Real.cos (j * (2 * Real.pi / sc)),
           (R + t * Real.cos (Real.pi/2 - i * (2 * Real.pi / st))) * Real.sin (j * (2 * Real.pi / sc)),
           t * Real.sin (Real.pi/2 - i * (2 * Real.pi / st))⟩ := by
  obtain ⟨m', e, _, hl, _, _, h⟩ := C47_torus_vertices c R t sc st hsc
  rw [hm] at e; injection e with e; subst e
  obtain ⟨k, hk, rfl⟩ := List.mem_iff_getElem.mp hv
  obtain ⟨i, j, hi, hj, rfl⟩ := grid_index st (sc+1) k (by omega)
  refine ⟨i, j, hi, by omega, ?_⟩
  have := (h i j hi (by omega)).1
  rw [List.getElem?_eq_getElem hk] at this
  injection this

theorem sphere_sq (r a b : ℝ) : (r * Real.cos a * Real.cos b)^2 + (r * Real.cos a * Real.sin b)^2 +
    (r * Real.sin a)^2 = r^2 := by
  have h1 := Real.sin_sq_add_cos_sq a
  have h2 := Real.sin_sq_add_cos_sq b
  calc (r * Real.cos a * Real.cos b)^2 + (r * Real.cos a * Real.sin b)^2 + (r * Real.sin a)^2
      = r^2 * (Real.cos a ^2 * (Real.sin b^2 + Real.cos b^2) + Real.sin a^2) := by ring
    _ = r^2 := by rw [h2, mul_one, add_comm, h1, mul_one]

/-- C47 (sphere), what does hold: all vertices have distance `r` from the *origin*, whatever the center -/
theorem C47_sphere_partial (c : R3.Vector ℝ) (r : ℝ) (hr : 0 ≤ r) (sc st : ℕ) (hsc : 0 < sc) (m : Mesh ℝ)
    (hm : Sphere.Construct ⟨c, r, sc, st⟩ = .ok m) (v : R3.Vector ℝ) (hv : v ∈ m.Vertices) :
    euclid v ⟨0, 0, 0⟩ = r := by
  obtain ⟨i, j, _, _, rfl⟩ := sphere_vertex_mem c r sc st hsc m hm v hv
  unfold euclid
  simp only [sub_zero]
  rw [sphere_sq, Real.sqrt_sq hr]

/-- C47 is false for the sphere: whenever the center is not the origin, some vertex of `ConstructSphere` has the
wrong distance to the center -/
theorem C47_sphere_refuted (c : R3.Vector ℝ) (hc : c ≠ ⟨0, 0, 0⟩) (r : ℝ) :
    ∃ m, ConstructSphere c r = .ok m ∧ ∃ v ∈ m.Vertices, euclid v c ≠ r := by
  obtain ⟨m, e, _, hl, _, _, h⟩ := C47_sphere_vertices c r 300 300 (by norm_num)
  refine ⟨m, e, ?_⟩
  by_contra hcon
  push Not at hcon
  have a1 := (h 150 0 (by norm_num) (by norm_num)).1
  have a2 := (h 150 150 (by norm_num) (by norm_num)).1
  have e1 : Real.pi/2 - ((150 : ℕ) : ℝ) * (Real.pi / ((300 : ℕ) : ℝ)) = 0 := by push_cast; ring
  have e2 : ((150 : ℕ) : ℝ) * (2 * Real.pi / ((300 : ℕ) : ℝ)) = Real.pi := by push_cast; ring
  rw [e1] at a1 a2
  rw [e2] at a2
  simp only [Real.cos_zero, Real.sin_zero, mul_zero, mul_one, Nat.cast_zero, zero_mul, Real.cos_pi, Real.sin_pi] at a1 a2
  have b1 := hcon _ (List.mem_of_getElem? a1)
  have b2 := hcon _ (List.mem_of_getElem? a2)
  unfold euclid at b1 b2
  have hr : 0 ≤ r := b1 ▸ Real.sqrt_nonneg _
  have c1 := (Real.sqrt_eq_iff_eq_sq (by positivity) hr).mp b1
  have c2 := (Real.sqrt_eq_iff_eq_sq (by positivity) hr).mp b2
  simp only at c1 c2
  have : c.X^2 + c.Y^2 + c.Z^2 = 0 := by nlinarith
  apply hc
  have hx : c.X = 0 := by nlinarith [sq_nonneg c.X, sq_nonneg c.Y, sq_nonneg c.Z]
  have hy : c.Y = 0 := by nlinarith [sq_nonneg c.X, sq_nonneg c.Y, sq_nonneg c.Z]
  have hz : c.Z = 0 := by nlinarith [sq_nonneg c.X, sq_nonneg c.Y, sq_nonneg c.Z]
  cases c; simp_all

/-- the torus with axis parallel to z around `c`: major radius `R`, tube radius `t` -/
def OnTorus (c : R3.Vector ℝ) (R t : ℝ) (v : R3.Vector ℝ) : Prop :=
  (Real.sqrt ((v.X - c.X)^2 + (v.Y - c.Y)^2) - R)^2 + (v.Z - c.Z)^2 = t^2

/-- C47 (torus), what does hold: the vertices are on the torus around the *origin* (if it is not self-intersecting) -/
theorem C47_torus_partial (c : R3.Vector ℝ) (R t : ℝ) (ht : |t| ≤ R) (sc st : ℕ) (hsc : 0 < sc) (m : Mesh ℝ)
    (hm : Torus.Construct ⟨c, R, t, sc, st⟩ = .ok m) (v : R3.Vector ℝ) (hv : v ∈ m.Vertices) :
    OnTorus ⟨0, 0, 0⟩ R t v := by
  obtain ⟨i, j, _, _, rfl⟩ := torus_vertex_mem c R t sc st hsc m hm v hv
  unfold OnTorus
  simp only [sub_zero]
  generalize Real.pi/2 - (i : ℝ) * (2 * Real.pi / st) = a
  generalize (j : ℝ) * (2 * Real.pi / sc) = b
  have h1 := Real.sin_sq_add_cos_sq a
  have h2 := Real.sin_sq_add_cos_sq b
  have hpos : 0 ≤ R + t * Real.cos a := by
    have : |t * Real.cos a| ≤ R := by
      rw [abs_mul]
      calc |t| * |Real.cos a| ≤ |t| * 1 := mul_le_mul_of_nonneg_left (Real.abs_cos_le_one a) (abs_nonneg t)
        _ ≤ R := by rw [mul_one]; exact ht
    have := (abs_le.mp this).1
    linarith
  have e : ((R + t * Real.cos a) * Real.cos b)^2 + ((R + t * Real.cos a) * Real.sin b)^2 = (R + t * Real.cos a)^2 := by
    calc _ = (R + t * Real.cos a)^2 * (Real.sin b^2 + Real.cos b^2) := by ring
      _ = _ := by rw [h2, mul_one]
  rw [e, Real.sqrt_sq hpos]
  calc (R + t * Real.cos a - R)^2 + (t * Real.sin a)^2 = t^2 * (Real.sin a^2 + Real.cos a^2) := by ring
    _ = t^2 := by rw [h1, mul_one]

/-- C47 is false for the torus: whenever the center is not the origin, some vertex is off the torus around it -/
theorem C47_torus_refuted (c : R3.Vector ℝ) (hc : c ≠ ⟨0, 0, 0⟩) (R t : ℝ) (hR : 0 ≤ R) (ht : 0 ≤ t) :
    ∃ m, ConstructTorus c R t = .ok m ∧ ∃ v ∈ m.Vertices, ¬ OnTorus c R t v := by
  obtain ⟨m, e, _, hl, _, _, h⟩ := C47_torus_vertices c R t 100 100 (by norm_num)
  refine ⟨m, e, ?_⟩
  by_contra hcon
  push Not at hcon
  have a1 := (h 25 0 (by norm_num) (by norm_num)).1
  have a2 := (h 25 50 (by norm_num) (by norm_num)).1
  have e1 : Real.pi/2 - ((25 : ℕ) : ℝ) * (2 * Real.pi / ((100 : ℕ) : ℝ)) = 0 := by push_cast; ring
  have e2 : ((50 : ℕ) : ℝ) * (2 * Real.pi / ((100 : ℕ) : ℝ)) = Real.pi := by push_cast; ring
  rw [e1] at a1 a2
  rw [e2] at a2
  simp only [Real.cos_zero, Real.sin_zero, mul_zero, mul_one, Nat.cast_zero, zero_mul, Real.cos_pi, Real.sin_pi] at a1 a2
  have b1 := hcon _ (List.mem_of_getElem? a1)
  have b2 := hcon _ (List.mem_of_getElem? a2)
  unfold OnTorus at b1 b2
  simp only at b1 b2
  have bound : ∀ s q : ℝ, 0 ≤ q → (Real.sqrt q - R)^2 + s^2 = t^2 → q ≤ (R + t)^2 := by
    intro s q hq hs
    have h1 : (Real.sqrt q - R)^2 ≤ t^2 := by nlinarith [sq_nonneg s]
    have h2 : Real.sqrt q - R ≤ t := (abs_le_of_sq_le_sq' h1 ht).2
    have h3 : Real.sqrt q ≤ R + t := by linarith
    calc q = Real.sqrt q ^ 2 := (Real.sq_sqrt hq).symm
      _ ≤ (R + t)^2 := pow_le_pow_left₀ (Real.sqrt_nonneg q) h3 2
  have d1 := bound _ _ (by positivity) b1
  have d2 := bound _ _ (by positivity) b2
  have hxy : c.X^2 + c.Y^2 = 0 := by nlinarith [sq_nonneg c.X, sq_nonneg c.Y]
  have hx : c.X = 0 := by nlinarith [sq_nonneg c.X, sq_nonneg c.Y]
  have hy : c.Y = 0 := by nlinarith [sq_nonneg c.X, sq_nonneg c.Y]
  rw [hx, hy] at b1
  rw [show (R + t - 0)^2 + (0 - 0)^2 = (R + t)^2 by ring, Real.sqrt_sq (by linarith)] at b1
  have hz : c.Z = 0 := by nlinarith [sq_nonneg c.Z]
  apply hc
  cases c; simp_all

/-- degenerate parameters: zero sectors panic (division by zero), no stacks or negative sectors give no vertices -/
theorem C48_degenerate (c : R3.Vector ℝ) (r : ℝ) (st : ℕ) :
    (0 < st → Sphere.Construct ⟨c, r, 0, st⟩ = .panic) ∧
    (∀ sc : Int, Sphere.Construct ⟨c, r, sc, 0⟩ = .ok ⟨[], [], [], gridIndices sc 0⟩) := by
  constructor
  · intro hst
    unfold Sphere.Construct Sphere.generateVertices
    dsimp only
    obtain ⟨s, rfl⟩ : ∃ s, st = s + 1 := ⟨st - 1, by omega⟩
    rw [loopTo_nat, List.range_succ_eq_map]
    simp only [List.map_cons, loopRecs]
    simp [ringVertices, loopTo, loopRecs, goDiv]
  · intro sc
    unfold Sphere.Construct Sphere.generateVertices
    simp [loopTo, loopRecs]

/-- C51: sphere normals have unit length and point along the vertex -/
theorem C51_sphere (c : R3.Vector ℝ) (r : ℝ) (hr : r ≠ 0) (sc st : ℕ) (hsc : 0 < sc) :
    ∃ m, Sphere.Construct ⟨c, r, sc, st⟩ = .ok m ∧ ∀ (k : ℕ) (v : R3.Vector ℝ) (n : ℝ × ℝ × ℝ),
      m.Vertices[k]? = some v → m.Normals[k]? = some n →
        n.1^2 + n.2.1^2 + n.2.2^2 = 1 ∧ v = ⟨r * n.1, r * n.2.1, r * n.2.2⟩ := by
  obtain ⟨m, e, _, hl, _, _, h⟩ := C47_sphere_vertices c r sc st hsc
  refine ⟨m, e, fun k v n hv hn => ?_⟩
  have hk : k < st * (sc+1) := by rw [← hl]; exact (List.getElem?_eq_some_iff.mp hv).1
  obtain ⟨i, j, hi, hj, rfl⟩ := grid_index st (sc+1) k hk
  obtain ⟨h1, h2, _⟩ := h i j hi (by omega)
  rw [h1] at hv; rw [h2] at hn
  injection hv with hv; injection hn with hn
  subst hv hn
  dsimp only
  constructor
  · rw [mul_pow _ (1/r), mul_pow _ (1/r), mul_pow _ (1/r), ← add_mul, ← add_mul, sphere_sq]
    field_simp
  · simp only [R3.Vector.mk.injEq]
    refine ⟨?_, ?_, ?_⟩ <;> field_simp

/-- C51 is false for torus normals: the very first normal is not a unit vector -/
theorem C51_torus_refuted (c : R3.Vector ℝ) (R t : ℝ) (hR : R ≠ 0) (ht : t ≠ 0) :
    ∃ m n, ConstructTorus c R t = .ok m ∧ m.Normals[0]? = some n ∧ n.1^2 + n.2.1^2 + n.2.2^2 ≠ 1 := by
  obtain ⟨m, e, _, hl, _, _, h⟩ := C47_torus_vertices c R t 100 100 (by norm_num)
  have a := (h 0 0 (by norm_num) (by norm_num)).2.1
  simp only [Nat.cast_zero, zero_mul, sub_zero, Real.cos_pi_div_two, Real.sin_pi_div_two, Real.cos_zero, Real.sin_zero,
    mul_zero, add_zero, mul_one] at a
  refine ⟨m, _, e, a, ?_⟩
  dsimp only
  have : (R * (1/R))^2 + 0^2 + (t * (1/R))^2 = 1 + (t/R)^2 := by field_simp; ring
  rw [this]
  have : 0 < (t/R)^2 := by positivity
  linarith

/-- C51 is false for texture coordinates (integer division): the second coordinate is always 0, and the first is 1 on
the seam and 0 everywhere else; in particular it is not `j / sectorCount`. Stated for both shapes. -/
theorem C51_tex_refuted (sc st i j : ℕ) (hsc : 0 < sc) (hi : i < st) (hj : j ≤ sc) (c : R3.Vector ℝ) (r t : ℝ) :
    ∃ ms mt, Sphere.Construct ⟨c, r, sc, st⟩ = .ok ms ∧ Torus.Construct ⟨c, r, t, sc, st⟩ = .ok mt ∧
      ms.TexCoords[i * (sc+1) + j]? = some (if j = sc then 1 else 0, 0) ∧
      mt.TexCoords[i * (sc+1) + j]? = some (if j = sc then 1 else 0, 0) ∧
      (0 < j → j < sc → (if j = sc then (1 : ℝ) else 0) ≠ (j : ℝ) / sc) ∧
      (0 < i → (0 : ℝ) ≠ (i : ℝ) / st) := by
  obtain ⟨m1, e1, _, _, _, _, h1⟩ := C47_sphere_vertices c r sc st hsc
  obtain ⟨m2, e2, _, _, _, _, h2⟩ := C47_torus_vertices c r t sc st hsc
  have d1 : ((j / sc : ℕ) : ℝ) = if j = sc then 1 else 0 := by
    by_cases h : j = sc
    · subst h; simp [Nat.div_self hsc]
    · rw [if_neg h, Nat.div_eq_of_lt (by omega)]; simp
  have d2 : ((i / st : ℕ) : ℝ) = 0 := by rw [Nat.div_eq_of_lt hi]; simp
  refine ⟨m1, m2, e1, e2, ?_, ?_, ?_, ?_⟩
  · rw [(h1 i j hi hj).2.2, d1, d2]
  · rw [(h2 i j hi hj).2.2, d1, d2]
  · intro h0 hlt
    rw [if_neg (by omega)]
    have : (0 : ℝ) < (j : ℝ) / sc := by positivity
    exact ne_of_lt this
  · intro h0
    have h3 : 0 < st := by omega
    have : (0 : ℝ) < (i : ℝ) / st := by positivity
    exact ne_of_lt this

/-! ## C50 -/

/-- C50: circle vertices: the center first, then points of the circle in the plane of the center -/
theorem C50_circle (c : R3.Vector ℝ) (r : ℝ) (n : ℕ) :
    (Circle.Construct ⟨c, r, n⟩).Vertices.length = n + 1 ∧
    (Circle.Construct ⟨c, r, n⟩).Vertices[0]? = some c ∧
    ∀ (k : ℕ) (v : R3.Vector ℝ), (Circle.Construct ⟨c, r, n⟩).Vertices[k+1]? = some v →
      v.Z = c.Z ∧ (v.X - c.X)^2 + (v.Y - c.Y)^2 = r^2 ∧
      v.X - c.X = r * Real.sin (k * (2 * Real.pi / n)) ∧ v.Y - c.Y = r * Real.cos (k * (2 * Real.pi / n)) := by
  unfold Circle.Construct Circle.generateVertices
  dsimp only
  rw [loopTo_nat]
  refine ⟨by simp, rfl, fun k v hv => ?_⟩
  rw [List.getElem?_cons_succ, List.getElem?_map, List.getElem?_map] at hv
  by_cases hk : k < n
  · rw [List.getElem?_range hk] at hv
    simp only [Option.map_some, Option.some.injEq] at hv
    subst hv
    simp only [Vector.addM, goPi_real, goOfInt_field, goCos_real, goSin_real]
    push_cast
    rw [show (1 : ℝ) / 2 * Real.pi = Real.pi / 2 by ring, Real.cos_pi_div_two_sub, Real.sin_pi_div_two_sub]
    have h1 := Real.sin_sq_add_cos_sq ((k : ℝ) * (2 * Real.pi / n))
    refine ⟨by ring, ?_, by ring, by ring⟩
    calc _ = r^2 * (Real.sin ((k : ℝ) * (2 * Real.pi / n))^2 + Real.cos ((k : ℝ) * (2 * Real.pi / n))^2) := by ring
      _ = r^2 := by rw [h1, mul_one]
  · rw [List.getElem?_eq_none (by simpa using hk)] at hv
    simp at hv

/-- C50: ellipse vertices -/
theorem C50_ellipse (c : R3.Vector ℝ) (a b : ℝ) (n : ℕ) :
    (Ellipse.Construct ⟨c, a, b, n⟩).Vertices.length = n + 1 ∧
    (Ellipse.Construct ⟨c, a, b, n⟩).Vertices[0]? = some c ∧
    ∀ (k : ℕ) (v : R3.Vector ℝ), (Ellipse.Construct ⟨c, a, b, n⟩).Vertices[k+1]? = some v →
      v.Z = c.Z ∧ b^2 * (v.X - c.X)^2 + a^2 * (v.Y - c.Y)^2 = a^2 * b^2 ∧
      (a ≠ 0 → b ≠ 0 → ((v.X - c.X)/a)^2 + ((v.Y - c.Y)/b)^2 = 1) ∧
      v.X - c.X = a * Real.sin (k * (2 * Real.pi / n)) ∧ v.Y - c.Y = b * Real.cos (k * (2 * Real.pi / n)) := by
  unfold Ellipse.Construct Ellipse.generateVertices
  dsimp only
  rw [loopTo_nat]
  refine ⟨by simp, rfl, fun k v hv => ?_⟩
  rw [List.getElem?_cons_succ, List.getElem?_map, List.getElem?_map] at hv
  by_cases hk : k < n
  · rw [List.getElem?_range hk] at hv
    simp only [Option.map_some, Option.some.injEq] at hv
    subst hv
    simp only [Vector.addM, goPi_real, goOfInt_field, goCos_real, goSin_real]
    push_cast
    rw [show (1 : ℝ) / 2 * Real.pi = Real.pi / 2 by ring, Real.cos_pi_div_two_sub, Real.sin_pi_div_two_sub]
    have h1 := Real.sin_sq_add_cos_sq ((k : ℝ) * (2 * Real.pi / n))
    refine ⟨by ring, ?_, ?_, by ring, by ring⟩
    · calc _ = a^2 * b^2 * (Real.sin ((k : ℝ) * (2 * Real.pi / n))^2 + Real.cos ((k : ℝ) * (2 * Real.pi / n))^2) := by ring
        _ = a^2 * b^2 := by rw [h1, mul_one]
    · intro ha hb
      rw [show a * Real.sin ((k : ℝ) * (2 * Real.pi / n)) + c.X - c.X = a * Real.sin ((k : ℝ) * (2 * Real.pi / n)) by ring,
        show b * Real.cos ((k : ℝ) * (2 * Real.pi / n)) + c.Y - c.Y = b * Real.cos ((k : ℝ) * (2 * Real.pi / n)) by ring,
        mul_div_cancel_left₀ _ ha, mul_div_cancel_left₀ _ hb, h1]
  · rw [List.getElem?_eq_none (by simpa using hk)] at hv
    simp at hv

/-! ## C49 -/

/-- the index list of circle and ellipse, without wrap-around -/
theorem fanIndices_eq (n : ℕ) (h1 : 1 ≤ n) (h : n < 2^32) :
    fanIndices n = ((List.range (n-1)).map fun i => [0, i+1, i+2, i+2, i+1, 0]).flatten ++ [0, n-1, 1] ++ [1, n-1, 0] := by
  have hu : ∀ i : ℕ, i < 2^32 → u32 (i : Int) = i := by intro i hi; unfold u32; omega
  unfold fanIndices
  rw [show ((n : Int) - 1) = ((n - 1 : ℕ) : Int) by omega, loopTo_nat, hu (n-1) (by omega), List.map_map]
  congr 3
  apply List.map_congr_left
  intro i hi
  have := List.mem_range.mp hi
  simp only [Function.comp]
  rw [show ((i : Int) + 1) = ((i + 1 : ℕ) : Int) by push_cast; rfl, hu (i+1) (by omega),
    show (((i + 1 : ℕ) : Int) + 1) = ((i + 2 : ℕ) : Int) by push_cast; ring, hu (i+2) (by omega)]

/-- C49 is false: with at least one sector the index list of a circle or ellipse contains `len(Vertices)` -/
theorem C49_refuted (c : R3.Vector ℝ) (r a b : ℝ) (n : ℕ) (hn : 1 ≤ n) (hlt : n + 1 < 2^32) :
    (∃ k ∈ (Circle.Construct ⟨c, r, n⟩).Indices, ¬ k < (Circle.Construct ⟨c, r, n⟩).Vertices.length) ∧
    (∃ k ∈ (Ellipse.Construct ⟨c, a, b, n⟩).Indices, ¬ k < (Ellipse.Construct ⟨c, a, b, n⟩).Vertices.length) := by
  have key : n + 1 ∈ fanIndices (n+1) := by
    rw [fanIndices_eq (n+1) (by omega) hlt]
    simp only [List.mem_append, List.mem_flatten, List.mem_map, List.mem_range]
    left; left
    exact ⟨_, ⟨n - 1, by omega, rfl⟩, by simp; omega⟩
  constructor
  · refine ⟨n+1, ?_, by rw [(C50_circle c r n).1]; omega⟩
    show n + 1 ∈ fanIndices (Circle.Construct ⟨c, r, n⟩).Vertices.length
    rw [(C50_circle c r n).1]; exact key
  · refine ⟨n+1, ?_, by rw [(C50_ellipse c a b n).1]; omega⟩
    show n + 1 ∈ fanIndices (Ellipse.Construct ⟨c, a, b, n⟩).Vertices.length
    rw [(C50_ellipse c a b n).1]; exact key

theorem fan_range (n : ℕ) (h1 : 1 ≤ n) (h : n < 2^32) :
    (∀ k ∈ fanIndices n, k ≤ n) ∧ (fanIndices n).length = 6 * (n - 1) + 6 := by
  rw [fanIndices_eq n h1 h]
  constructor
  · intro k hk
    simp only [List.mem_append, List.mem_flatten, List.mem_map, List.mem_range] at hk
    rcases hk with (⟨l, ⟨i, hi, rfl⟩, hk⟩ | hk) | hk
    · simp at hk; omega
    · simp at hk; omega
    · simp at hk; omega
  · simp [List.length_flatten, List.map_map, Function.comp_def]; omega

/-- C49, what does hold: no index exceeds `len(Vertices)`, i.e. only this one value is out of range, and the
list consists of triples -/
theorem C49_partial (c : R3.Vector ℝ) (r a b : ℝ) (n : ℕ) (hlt : n + 1 < 2^32) :
    ((∀ k ∈ (Circle.Construct ⟨c, r, n⟩).Indices, k ≤ (Circle.Construct ⟨c, r, n⟩).Vertices.length) ∧ (Circle.Construct ⟨c, r, n⟩).Indices.length = 6 * n + 6) ∧
    ((∀ k ∈ (Ellipse.Construct ⟨c, a, b, n⟩).Indices, k ≤ (Ellipse.Construct ⟨c, a, b, n⟩).Vertices.length) ∧
      (Ellipse.Construct ⟨c, a, b, n⟩).Indices.length = 6 * n + 6) := by
  have e1 := (C50_circle c r n).1
  have e2 := (C50_ellipse c a b n).1
  have h := fan_range (n+1) (by omega) hlt
  constructor
  · change (∀ k ∈ fanIndices (Circle.Construct ⟨c, r, n⟩).Vertices.length, _) ∧ (fanIndices (Circle.Construct ⟨c, r, n⟩).Vertices.length).length = _
    rw [e1]; exact h
  · change (∀ k ∈ fanIndices (Ellipse.Construct ⟨c, a, b, n⟩).Vertices.length, _) ∧ (fanIndices (Ellipse.Construct ⟨c, a, b, n⟩).Vertices.length).length = _
    rw [e2]; exact h

example : ConstructCircle (F := ℝ) ⟨0, 0, 0⟩ 1 = Circle.Construct ⟨⟨0, 0, 0⟩, 1, (100 : ℕ)⟩ := rfl

/-! ## C53 -/

/-- C53: the transfer keeps vertex order, count and the index list; Export writes one white colour per vertex -/
theorem C53_transfer {F G : Type} (f32 : F → G) (mesh : Mesh F) :
    (exportBuffers f32 mesh).positions.length = mesh.Vertices.length ∧
    (∀ i : ℕ, (exportBuffers f32 mesh).positions[i]? = (mesh.Vertices[i]?).map fun v : R3.Vector F => (f32 v.X, f32 v.Y, f32 v.Z)) ∧
    (exportBuffers f32 mesh).indices = mesh.Indices ∧
    (exportBuffers f32 mesh).colors = List.replicate mesh.Vertices.length (255, 255, 255) := by
  refine ⟨by simp [exportBuffers, transferModel], fun i => by simp [exportBuffers, transferModel], rfl, ?_⟩
  simp [exportBuffers, List.map_const']

end Verif.Props
