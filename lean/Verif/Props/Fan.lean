import Verif.Props.Outward
/-!
# C106: the fans of circle and ellipse (shape/circle.go:24-55, shape/ellipse.go:26-57)

The index list holds every triangle of the fan twice, once for each side of the disc. One triangle per side uses a vertex that does not exist; the other
ones all have the same area, the one of a sector of the inscribed polygon.
-/
namespace Verif.Props
open Verif Verif.Proofs Verif.R3 Verif.Shape

/-- twice the signed area of a triangle seen from the positive Z axis -/
def flatArea2 (u v w : R3.Vector ℝ) : ℝ := (v.X - u.X) * (w.Y - u.Y) - (v.Y - u.Y) * (w.X - u.X)

/-- the triangles of the index list, as triples -/
def fanTris (n : ℕ) : List Tri :=
  (List.range n).flatMap (fun i => [(0, i+1, i+2), (i+2, i+1, 0)]) ++ [(0, n, 1), (1, n, 0)]

theorem fan_flat (n : ℕ) (hn : 1 ≤ n) (h : n + 1 < 2^32) : fanIndices (n+1) = flat (fanTris n) := by
  rw [fanIndices_eq (n+1) (by omega) h]
  unfold fanTris flat
  rw [List.flatMap_append, List.flatMap_assoc, List.flatMap_def, Nat.add_sub_cancel, List.append_assoc]
  congr 1

theorem flatMap_pair_get (f g : ℕ → Tri) (n k : ℕ) (hk : k < n) :
    ((List.range n).flatMap (fun i => [f i, g i]))[2*k]? = some (f k) ∧ ((List.range n).flatMap (fun i => [f i, g i]))[2*k+1]? = some (g k) := by
  have hl : ∀ n, ((List.range n).flatMap (fun i => [f i, g i])).length = 2 * n := by
    intro n; simp [List.length_flatMap]; ring
  induction n with
  | zero => omega
  | succ n ih =>
    rw [List.range_succ, List.flatMap_append]
    rcases Nat.lt_succ_iff_lt_or_eq.mp hk with h | rfl
    · rw [List.getElem?_append_left (by rw [hl]; omega), List.getElem?_append_left (by rw [hl]; omega)]
      exact ih h
    · rw [List.getElem?_append_right (by rw [hl]), List.getElem?_append_right (by rw [hl]; omega), hl]
      simp

theorem fan_length (n : ℕ) : (fanTris n).length = 2 * n + 2 := by
  simp [fanTris, List.length_flatMap]; ring

/-- the two triangles of number `k` of the fan: one for each side -/
theorem fan_get (n : ℕ) (hn : 1 ≤ n) (h : n + 1 < 2^32) (k : ℕ) :
    (k < n → TriAt (fanIndices (n+1)) (2*k) 0 (k+1) (k+2) ∧ TriAt (fanIndices (n+1)) (2*k+1) (k+2) (k+1) 0) ∧
    (k = n → TriAt (fanIndices (n+1)) (2*k) 0 n 1 ∧ TriAt (fanIndices (n+1)) (2*k+1) 1 n 0) := by
  rw [fan_flat n hn h]
  simp only [flat_get]
  have hl : ((List.range n).flatMap (fun i => [((0, i+1, i+2) : Tri), (i+2, i+1, 0)])).length = 2 * n := by
    simp [List.length_flatMap]; ring
  unfold fanTris
  constructor
  · intro hk
    rw [List.getElem?_append_left (by rw [hl]; omega), List.getElem?_append_left (by rw [hl]; omega)]
    exact flatMap_pair_get _ _ n k hk
  · rintro rfl
    rw [List.getElem?_append_right (by rw [hl]), List.getElem?_append_right (by rw [hl]; omega), hl]
    simp

/-- C106: the fan of the ellipse: every triangle is there for both sides; one pair uses a vertex that does not exist; every other pair lies in the plane
of the centre and has the area of a sector of the inscribed polygon, clockwise and counter-clockwise for positive axes -/
theorem C106_ellipse (c : R3.Vector ℝ) (a b : ℝ) (n : ℕ) (hn : 1 ≤ n) (hlt : n + 1 < 2^32) :
    (Ellipse.Construct ⟨c, a, b, n⟩).Indices.length = 3 * (2 * n + 2) ∧ ∀ k ≤ n, ∃ x y,
      TriAt (Ellipse.Construct ⟨c, a, b, n⟩).Indices (2*k) 0 x y ∧ TriAt (Ellipse.Construct ⟨c, a, b, n⟩).Indices (2*k+1) y x 0 ∧
      (k + 1 = n → (Ellipse.Construct ⟨c, a, b, n⟩).Vertices[y]? = none) ∧
      (k + 1 ≠ n → ∃ v w, (Ellipse.Construct ⟨c, a, b, n⟩).Vertices[0]? = some c ∧ (Ellipse.Construct ⟨c, a, b, n⟩).Vertices[x]? = some v ∧
        (Ellipse.Construct ⟨c, a, b, n⟩).Vertices[y]? = some w ∧ v.Z = c.Z ∧ w.Z = c.Z ∧
        flatArea2 c v w = -(a * b * Real.sin (2 * Real.pi / n)) ∧ flatArea2 w v c = a * b * Real.sin (2 * Real.pi / n)) := by
  obtain ⟨l, h0, hv⟩ := C50_ellipse c a b n
  have hI : (Ellipse.Construct ⟨c, a, b, n⟩).Indices = fanIndices (n+1) := by rw [← l]; rfl
  generalize Ellipse.Construct ⟨c, a, b, n⟩ = m at *
  rw [hI]
  have n0 : (n:ℝ) ≠ 0 := by exact_mod_cast (by omega : n ≠ 0)
  have get : ∀ k < n, ∃ v, m.Vertices[k+1]? = some v ∧ v.Z = c.Z ∧ v.X - c.X = a * Real.sin (k * (2 * Real.pi / n)) ∧
      v.Y - c.Y = b * Real.cos (k * (2 * Real.pi / n)) := by
    intro k hk
    have hl : k + 1 < m.Vertices.length := by omega
    obtain ⟨z, _, _, x, y⟩ := hv k _ (List.getElem?_eq_getElem hl)
    exact ⟨_, List.getElem?_eq_getElem hl, z, x, y⟩
  have anti : ∀ u v w : R3.Vector ℝ, flatArea2 w v u = - flatArea2 u v w := by intro u v w; unfold flatArea2; ring
  refine ⟨by rw [fan_flat n hn hlt, ← fan_length]; generalize fanTris n = L; induction L with
    | nil => rfl
    | cons t L ih => simp only [flat, List.flatMap_cons, List.length_append, List.length_cons, List.length_nil] at ih ⊢; omega, fun k hk => ?_⟩
  rcases Nat.lt_or_eq_of_le hk with hk | rfl
  · obtain ⟨t1, t2⟩ := (fan_get n hn hlt k).1 hk
    refine ⟨k+1, k+2, t1, t2, fun e => List.getElem?_eq_none (by omega), fun e => ?_⟩
    obtain ⟨v, v1, v2, v3, v4⟩ := get k hk
    obtain ⟨w, w1, w2, w3, w4⟩ := get (k+1) (by omega)
    have e1 : Real.sin (2 * Real.pi / n) = Real.sin ((k+1 : ℕ) * (2 * Real.pi / n) - k * (2 * Real.pi / n)) := by congr 1; push_cast; ring
    have : flatArea2 c v w = -(a * b * Real.sin (2 * Real.pi / n)) := by
      rw [e1, Real.sin_sub]; unfold flatArea2; rw [v3, v4, w3, w4]; ring
    exact ⟨v, w, h0, v1, w1, v2, w2, this, by rw [anti, this, neg_neg]⟩
  · obtain ⟨t1, t2⟩ := (fan_get k hn hlt k).2 rfl
    refine ⟨k, 1, t1, t2, fun e => by omega, fun _ => ?_⟩
    obtain ⟨v, v1, v2, v3, v4⟩ := get (k-1) (by omega)
    obtain ⟨w, w1, w2, w3, w4⟩ := get 0 (by omega)
    rw [Nat.sub_add_cancel hn] at v1
    have e1 : Real.sin (((k-1 : ℕ):ℝ) * (2 * Real.pi / k)) = - Real.sin (2 * Real.pi / k) := by
      rw [Nat.cast_sub hn, show (((k:ℕ):ℝ) - ((1:ℕ):ℝ)) * (2 * Real.pi / k) = 2 * Real.pi - 2 * Real.pi / k by push_cast; field_simp,
        Real.sin_two_pi_sub]
    have : flatArea2 c v w = -(a * b * Real.sin (2 * Real.pi / k)) := by
      unfold flatArea2; rw [v3, v4, w3, w4, e1]; simp only [Nat.cast_zero, zero_mul, Real.sin_zero, Real.cos_zero]; ring
    exact ⟨v, w, h0, v1, w1, v2, w2, this, by rw [anti, this, neg_neg]⟩

/-- C106: for the circle it is the same with the radius as both axes -/
theorem C106_circle (c : R3.Vector ℝ) (r : ℝ) (n : ℕ) (hn : 1 ≤ n) (hlt : n + 1 < 2^32) :
    (Circle.Construct ⟨c, r, n⟩).Indices.length = 3 * (2 * n + 2) ∧ ∀ k ≤ n, ∃ x y,
      TriAt (Circle.Construct ⟨c, r, n⟩).Indices (2*k) 0 x y ∧ TriAt (Circle.Construct ⟨c, r, n⟩).Indices (2*k+1) y x 0 ∧
      (k + 1 = n → (Circle.Construct ⟨c, r, n⟩).Vertices[y]? = none) ∧
      (k + 1 ≠ n → ∃ v w, (Circle.Construct ⟨c, r, n⟩).Vertices[0]? = some c ∧ (Circle.Construct ⟨c, r, n⟩).Vertices[x]? = some v ∧
        (Circle.Construct ⟨c, r, n⟩).Vertices[y]? = some w ∧ v.Z = c.Z ∧ w.Z = c.Z ∧
        flatArea2 c v w = -(r * r * Real.sin (2 * Real.pi / n)) ∧ flatArea2 w v c = r * r * Real.sin (2 * Real.pi / n)) :=
  C106_ellipse c r r n hn hlt

/-- signed area of triangle number `k` of a mesh, zero if it has no three vertices -/
noncomputable def triArea (m : Mesh ℝ) (k : ℕ) : ℝ :=
  match m.Indices[3*k]?, m.Indices[3*k+1]?, m.Indices[3*k+2]? with
  | some x, some y, some z =>
    match m.Vertices[x]?, m.Vertices[y]?, m.Vertices[z]? with
    | some u, some v, some w => flatArea2 u v w / 2
    | _, _, _ => 0
  | _, _, _ => 0

theorem fan_area (c : R3.Vector ℝ) (a b : ℝ) (n : ℕ) (hn : 1 ≤ n) (hlt : n + 1 < 2^32) (m : Mesh ℝ) (hm : m = Ellipse.Construct ⟨c, a, b, n⟩)
    (area : ℕ → ℝ) (harea : ∀ k x y z u v w, TriAt m.Indices k x y z → m.Vertices[x]? = some u → m.Vertices[y]? = some v → m.Vertices[z]? = some w →
      area k = flatArea2 u v w / 2)
    (hnone : ∀ k x y z, TriAt m.Indices k x y z → (m.Vertices[x]? = none ∨ m.Vertices[y]? = none ∨ m.Vertices[z]? = none) → area k = 0) :
    ∑ k ∈ Finset.range (n+1), area (2*k+1) = n / 2 * (a * b * Real.sin (2 * Real.pi / n)) ∧
    ∑ k ∈ Finset.range (n+1), area (2*k) = -(n / 2 * (a * b * Real.sin (2 * Real.pi / n))) := by
  subst hm
  have h := (C106_ellipse c a b n hn hlt).2
  have h1 : ∀ k ∈ Finset.range (n+1), area (2*k+1) = if k = n - 1 then 0 else a * b * Real.sin (2 * Real.pi / n) / 2 := by
    intro k hk
    obtain ⟨x, y, t1, t2, g1, g2⟩ := h k (by rw [Finset.mem_range] at hk; omega)
    split_ifs with hc
    · exact hnone _ _ _ _ t2 (Or.inl (g1 (by omega)))
    · obtain ⟨v, w, e0, e1, e2, _, _, _, e3⟩ := g2 (by omega)
      rw [harea _ _ _ _ _ _ _ t2 e2 e1 e0, e3]
  have h2 : ∀ k ∈ Finset.range (n+1), area (2*k) = if k = n - 1 then 0 else -(a * b * Real.sin (2 * Real.pi / n) / 2) := by
    intro k hk
    obtain ⟨x, y, t1, t2, g1, g2⟩ := h k (by rw [Finset.mem_range] at hk; omega)
    split_ifs with hc
    · exact hnone _ _ _ _ t1 (Or.inr (Or.inr (g1 (by omega))))
    · obtain ⟨v, w, e0, e1, e2, _, _, e3, _⟩ := g2 (by omega)
      rw [harea _ _ _ _ _ _ _ t1 e0 e1 e2, e3]; ring
  have key : ∀ s : ℝ, ∑ k ∈ Finset.range (n+1), (if k = n - 1 then 0 else s) = n * s := by
    intro s
    have : ∀ k ∈ Finset.range (n+1), (if k = n - 1 then 0 else s) = s - if k = n - 1 then s else 0 := by
      intro k _; split_ifs <;> ring
    rw [Finset.sum_congr rfl this, Finset.sum_sub_distrib, Finset.sum_ite_eq', if_pos (by rw [Finset.mem_range]; omega)]
    simp; ring
  rw [Finset.sum_congr rfl h1, Finset.sum_congr rfl h2, key, key]
  constructor <;> ring

/-- C106: the areas of the triangles that exist add up to the area of the inscribed polygon: with `n` corners `n / 2 * a * b * sin (2 pi / n)`, on each side -/
theorem C106_area (c : R3.Vector ℝ) (a b : ℝ) (n : ℕ) (hn : 1 ≤ n) (hlt : n + 1 < 2^32) :
    ∑ k ∈ Finset.range (n+1), triArea (Ellipse.Construct ⟨c, a, b, n⟩) (2*k+1) = n / 2 * (a * b * Real.sin (2 * Real.pi / n)) ∧
    ∑ k ∈ Finset.range (n+1), triArea (Ellipse.Construct ⟨c, a, b, n⟩) (2*k) = -(n / 2 * (a * b * Real.sin (2 * Real.pi / n))) := by
  apply fan_area c a b n hn hlt _ rfl
  · rintro k x y z u v w ⟨h1, h2, h3⟩ h4 h5 h6
    simp only [triArea, h1, h2, h3, h4, h5, h6]
  · rintro k x y z ⟨h1, h2, h3⟩ h4
    simp only [triArea, h1, h2, h3]
    generalize Ellipse.Construct ⟨c, a, b, n⟩ = m at *
    rcases h4 with h | h | h <;> rw [h] <;> cases m.Vertices[x]? <;> cases m.Vertices[y]? <;> cases m.Vertices[z]? <;> rfl

/-! ## Concrete cases -/

example : TriAt (fanIndices 5) 0 0 1 2 ∧ TriAt (fanIndices 5) 1 2 1 0 ∧ TriAt (fanIndices 5) 6 0 4 5 ∧ TriAt (fanIndices 5) 8 0 4 1 := by
  unfold TriAt; decide +kernel

/-- the square inscribed in the unit circle has area 2 -/
example : ∑ k ∈ Finset.range 5, triArea (Ellipse.Construct ⟨⟨0, 0, 0⟩, 1, 1, 4⟩) (2*k+1) = 2 := by
  have := (C106_area ⟨0, 0, 0⟩ 1 1 4 (by norm_num) (by norm_num)).1
  rw [show 2 * Real.pi / ((4:ℕ):ℝ) = Real.pi / 2 by push_cast; ring, Real.sin_pi_div_two] at this
  refine this.trans ?_
  norm_num

end Verif.Props
