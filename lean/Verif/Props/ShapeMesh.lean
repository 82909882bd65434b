import Verif.Props.Shape
import Mathlib.Analysis.SpecialFunctions.Trigonometric.Inverse
/-!
# C48 (indices) and C52: the triangles of the sphere and torus meshes

The vertex of stack `i` and sector `j` has index `k = i*(sc+1)+j`. With `w = sc+1` every triangle of the mesh is
`lower w k = (k, k+w, k+1)` or `upper w k = (k+1, k+w, k+w+1)`.
-/
namespace Verif.Props
open Verif Verif.R3 Verif.Shape
set_option linter.unusedSectionVars false

abbrev Tri := ℕ × ℕ × ℕ

def lower (w k : ℕ) : Tri := (k, k+w, k+1)
def upper (w k : ℕ) : Tri := (k+1, k+w, k+w+1)

/-- the triangle `s` of the quad at `k` -/
def quadTri (w : ℕ) (key : Bool × ℕ) : Tri := if key.1 then upper w key.2 else lower w key.2

/-- (which triangle, index of the quad's first vertex): only upper triangles in stack 0, both in stacks `1..st-2` -/
def gridKeys (sc st : ℕ) : List (Bool × ℕ) :=
  (List.range sc).map (fun j => (true, j)) ++
  (List.range (st-2)).flatMap fun i => (List.range sc).flatMap fun j =>
    [(false, (i+1)*(sc+1)+j), (true, (i+1)*(sc+1)+j)]

def gridTris (sc st : ℕ) : List Tri := (gridKeys sc st).map (quadTri (sc+1))

def flat (l : List Tri) : List ℕ := l.flatMap fun t => [t.1, t.2.1, t.2.2]

theorem topIndices_eq (m k1 k2 : ℕ) (h1 : k1 + m < 2^32) (h2 : k2 + m < 2^32) :
    topIndices m k1 k2 = flat ((List.range m).map fun j => (k1+j+1, k2+j, k2+j+1)) := by
  induction m generalizing k1 k2 with
  | zero => rfl
  | succ m ih =>
    have a1 : u32add k1 1 = k1+1 := by unfold u32add; omega
    have a2 : u32add k2 1 = k2+1 := by unfold u32add; omega
    rw [topIndices, a1, a2, ih (k1+1) (k2+1) (by omega) (by omega), List.range_succ_eq_map]
    simp only [flat, List.map_cons, List.flatMap_cons, List.map_map]
    congr 4
    apply List.map_congr_left
    intro j _
    simp only [Function.comp, Prod.mk.injEq]
    omega

theorem midIndices_eq (m k1 k2 : ℕ) (h1 : k1 + m < 2^32) (h2 : k2 + m < 2^32) :
    midIndices m k1 k2 = flat ((List.range m).flatMap fun j => [(k1+j, k2+j, k1+j+1), (k1+j+1, k2+j, k2+j+1)]) := by
  induction m generalizing k1 k2 with
  | zero => rfl
  | succ m ih =>
    have a1 : u32add k1 1 = k1+1 := by unfold u32add; omega
    have a2 : u32add k2 1 = k2+1 := by unfold u32add; omega
    rw [midIndices, a1, a2, ih (k1+1) (k2+1) (by omega) (by omega), List.range_succ_eq_map]
    simp only [flat, List.flatMap_cons, List.cons_append, List.nil_append, List.flatMap_map]
    congr 7
    have : (fun j => [(k1+1+j, k2+1+j, k1+1+j+1), (k1+1+j+1, k2+1+j, k2+1+j+1)]) =
        fun j => [(k1+(j+1), k2+(j+1), k1+(j+1)+1), (k1+(j+1)+1, k2+(j+1), k2+(j+1)+1)] := by
      funext j
      simp only [List.cons.injEq, Prod.mk.injEq, and_true]
      omega
    rw [this]

/-- the index list is the flattened triangle list (no `uint32` wrap-around as long as the vertices can be counted) -/
theorem C48_gridIndices (sc st : ℕ) (hst : 2 ≤ st) (hsz : st * (sc+1) < 2^32) :
    gridIndices (sc : Int) (st : Int) = flat (gridTris sc st) := by
  have hu : ∀ i : ℕ, i < 2^32 → u32 (i : Int) = i := by intro i hi; unfold u32; omega
  have h2 : 2 * (sc+1) ≤ st * (sc+1) := Nat.mul_le_mul_right _ hst
  unfold gridIndices gridTris gridKeys
  rw [show ((sc : Int) + 1) = ((sc+1 : ℕ) : Int) by push_cast; rfl, hu (sc+1) (by omega), Int.toNat_natCast,
    topIndices_eq _ _ _ (by omega) (by omega), show ((st : Int) - 2) = ((st - 2 : ℕ) : Int) by omega, loopTo_nat,
    List.map_append]
  unfold flat
  rw [List.flatMap_append]
  congr 1
  · congr 1
    rw [List.map_map]
    apply List.map_congr_left
    intro j _
    simp only [Function.comp, quadTri, upper, if_true, Prod.mk.injEq]
    omega
  · rw [List.map_map, List.map_flatMap, List.flatMap_assoc, List.flatMap_def]
    congr 1
    apply List.map_congr_left
    intro i hi
    have hi := List.mem_range.mp hi
    have hb : (i+1+2) * (sc+1) ≤ st * (sc+1) := Nat.mul_le_mul_right _ (by omega)
    have hb' : (i+1+2) * (sc+1) = (i+1)*(sc+1) + 2*(sc+1) := by ring
    simp only [Function.comp]
    rw [show ((i : Int) + 1) * ((sc+1 : ℕ) : Int) = (((i+1)*(sc+1) : ℕ) : Int) by push_cast; ring, hu _ (by omega)]
    have a : u32add ((i+1)*(sc+1)) (sc+1) = (i+1)*(sc+1) + (sc+1) := by unfold u32add; omega
    rw [a, midIndices_eq _ _ _ (by omega) (by omega)]
    unfold flat
    rw [List.map_flatMap]
    congr 1
    congr 1
    funext j
    simp only [List.map_cons, List.map_nil, quadTri, lower, upper, if_true, Bool.false_eq_true, if_false,
      List.cons.injEq, Prod.mk.injEq, and_true]
    exact ⟨⟨trivial, by ring⟩, trivial, by ring, by ring⟩

theorem mem_gridKeys (sc st : ℕ) (b : Bool) (k : ℕ) : (b, k) ∈ gridKeys sc st ↔
    (b = true ∧ k < sc) ∨ ∃ i j, 1 ≤ i ∧ i + 2 ≤ st ∧ j < sc ∧ k = i*(sc+1)+j ∧ i + 1 ≤ st - 1 := by
  unfold gridKeys
  simp only [List.mem_append, List.mem_map, List.mem_range, List.mem_flatMap, List.mem_cons, List.not_mem_nil, or_false,
    Prod.mk.injEq]
  constructor
  · rintro (⟨j, hj, rfl, rfl⟩ | ⟨i, hi, j, hj, ⟨_, h⟩ | ⟨_, h⟩⟩)
    · exact Or.inl ⟨rfl, hj⟩
    · exact Or.inr ⟨i+1, j, by omega, by omega, hj, h, by omega⟩
    · exact Or.inr ⟨i+1, j, by omega, by omega, hj, h, by omega⟩
  · rintro (⟨rfl, hj⟩ | ⟨i, j, h1, h2, hj, rfl, _⟩)
    · exact Or.inl ⟨k, hj, rfl, rfl⟩
    · refine Or.inr ⟨i-1, by omega, j, hj, ?_⟩
      rw [show i - 1 + 1 = i by omega]
      cases b <;> simp

/-- a quad key together with the stack and sector of its first vertex -/
theorem gridKeys_coord (sc st : ℕ) (hst : 2 ≤ st) (b : Bool) (k : ℕ) (h : (b, k) ∈ gridKeys sc st) :
    ∃ i j, i + 1 < st ∧ j < sc ∧ k = i*(sc+1)+j ∧ (b = false → 1 ≤ i) := by
  rcases (mem_gridKeys sc st b k).mp h with ⟨rfl, hk⟩ | ⟨i, j, h1, h2, hj, rfl, h3⟩
  · exact ⟨0, k, by omega, hk, by omega, by simp⟩
  · exact ⟨i, j, by omega, hj, rfl, fun _ => h1⟩

/-- C48: all indices are in range and come in triples; the three attribute lists have the same length -/
theorem C48_indices (sc st : ℕ) (hst : 2 ≤ st) (hsz : st * (sc+1) < 2^32) :
    (∀ k ∈ gridIndices (sc : Int) (st : Int), k < st * (sc+1)) ∧
    (gridIndices (sc : Int) (st : Int)).length = 3 * (sc + (st-2) * (2*sc)) := by
  rw [C48_gridIndices sc st hst hsz]
  constructor
  · intro k hk
    simp only [flat, gridTris, List.mem_flatMap, List.mem_map] at hk
    obtain ⟨t, ⟨⟨b, q⟩, hq, rfl⟩, hk⟩ := hk
    obtain ⟨i, j, hi, hj, rfl, _⟩ := gridKeys_coord sc st hst b q hq
    have hb : (i+2) * (sc+1) ≤ st * (sc+1) := Nat.mul_le_mul_right _ (by omega)
    have hb' : (i+2) * (sc+1) = i*(sc+1) + 2*(sc+1) := by ring
    cases b <;> simp only [quadTri, lower, upper, if_true, Bool.false_eq_true, if_false, List.mem_cons, List.not_mem_nil,
      or_false] at hk <;> omega
  · have hf : ∀ l : List Tri, (flat l).length = 3 * l.length := by
      intro l
      induction l with
      | nil => rfl
      | cons a l ih => simp only [flat, List.flatMap_cons, List.length_append, List.length_cons, List.length_nil] at ih ⊢; omega
    rw [hf]
    congr 1
    simp [gridTris, gridKeys, List.length_flatMap]
    left; ring

/-- C48 for the public constructors -/
theorem C48_sphere (c : R3.Vector ℝ) (r : ℝ) : ∃ m, ConstructSphere c r = .ok m ∧
    m.Vertices.length = 300 * 301 ∧ m.Normals.length = m.Vertices.length ∧ m.TexCoords.length = m.Vertices.length ∧
    (∀ k ∈ m.Indices, k < m.Vertices.length) ∧ 3 ∣ m.Indices.length := by
  obtain ⟨m, e, hi, h1, h2, h3, _⟩ := C47_sphere_vertices c r 300 300 (by norm_num)
  obtain ⟨b1, b2⟩ := C48_indices 300 300 (by norm_num) (by norm_num)
  refine ⟨m, e, h1, h2.trans h1.symm, h3.trans h1.symm, ?_, ?_⟩
  · rw [hi, h1]; exact b1
  · rw [hi, b2]; exact Dvd.intro _ rfl

theorem C48_torus (c : R3.Vector ℝ) (R t : ℝ) : ∃ m, ConstructTorus c R t = .ok m ∧
    m.Vertices.length = 100 * 101 ∧ m.Normals.length = m.Vertices.length ∧ m.TexCoords.length = m.Vertices.length ∧
    (∀ k ∈ m.Indices, k < m.Vertices.length) ∧ 3 ∣ m.Indices.length := by
  obtain ⟨m, e, hi, h1, h2, h3, _⟩ := C47_torus_vertices c R t 100 100 (by norm_num)
  obtain ⟨b1, b2⟩ := C48_indices 100 100 (by norm_num) (by norm_num)
  refine ⟨m, e, h1, h2.trans h1.symm, h3.trans h1.symm, ?_, ?_⟩
  · rw [hi, h1]; exact b1
  · rw [hi, b2]; exact Dvd.intro _ rfl

/-- with a single stack (not reachable through the public constructors) the indices are out of range -/
theorem C48_single_stack (sc : ℕ) (h0 : 1 ≤ sc) (hsz : 2 * (sc+1) < 2^32) :
    ∃ k ∈ gridIndices (sc : Int) 1, 1 * (sc+1) ≤ k := by
  have hu : ∀ i : ℕ, i < 2^32 → u32 (i : Int) = i := by intro i hi; unfold u32; omega
  refine ⟨sc+1, ?_, by omega⟩
  unfold gridIndices
  rw [show ((sc : Int) + 1) = ((sc+1 : ℕ) : Int) by push_cast; rfl, hu (sc+1) (by omega), Int.toNat_natCast,
    topIndices_eq _ _ _ (by omega) (by omega)]
  apply List.mem_append_left
  simp only [flat, List.mem_flatMap, List.mem_map, List.mem_range]
  exact ⟨_, ⟨0, by omega, rfl⟩, by simp⟩

/-! ## C52 -/

/-- the directed edges of a triangle -/
def dirEdges (t : Tri) : List (ℕ × ℕ) := [(t.1, t.2.1), (t.2.1, t.2.2), (t.2.2, t.1)]

def meshEdges (l : List Tri) : List (ℕ × ℕ) := l.flatMap dirEdges

/-- the three indices of every triangle are distinct -/
theorem grid_distinct (sc st : ℕ) (h : 1 ≤ sc) (t : Tri) (ht : t ∈ gridTris sc st) :
    t.1 ≠ t.2.1 ∧ t.2.1 ≠ t.2.2 ∧ t.2.2 ≠ t.1 := by
  simp only [gridTris, List.mem_map] at ht
  obtain ⟨⟨b, k⟩, _, rfl⟩ := ht
  cases b <;> simp [quadTri, lower, upper] <;> omega

/-- row-major positions are unique -/
theorem grid_coord_unique (w i j i' j' : ℕ) (hj : j < w) (hj' : j' < w) (h : i*w+j = i'*w+j') : i = i' ∧ j = j' := by
  have h1 : i = i' := by
    have a : (i*w+j) / w = i := by
      rw [Nat.mul_comm, Nat.mul_add_div (by omega), Nat.div_eq_of_lt hj]; omega
    have b : (i'*w+j') / w = i' := by
      rw [Nat.mul_comm, Nat.mul_add_div (by omega), Nat.div_eq_of_lt hj']; omega
    rw [← a, ← b, h]
  subst h1
  exact ⟨rfl, by omega⟩

theorem gridKeys_nodup (sc st : ℕ) : (gridKeys sc st).Nodup := by
  unfold gridKeys
  rw [List.nodup_append]
  refine ⟨?_, ?_, ?_⟩
  · exact List.Nodup.map (fun a b h => by simpa using h) List.nodup_range
  · rw [List.nodup_flatMap]
    constructor
    · intro i _
      rw [List.nodup_flatMap]
      constructor
      · intro j _; simp
      · apply List.Pairwise.imp_of_mem _ List.nodup_range
        intro a b ha hb hab
        simp only [Function.onFun, List.disjoint_left, List.mem_cons, List.not_mem_nil, or_false]
        rintro ⟨s, q⟩ h1 h2
        simp only [Prod.mk.injEq] at h1 h2
        omega
    · apply List.Pairwise.imp_of_mem _ List.nodup_range
      intro a b _ _ hab
      simp only [Function.onFun, List.disjoint_left, List.mem_flatMap, List.mem_range, List.mem_cons, List.not_mem_nil,
        or_false]
      rintro ⟨s, q⟩ ⟨j, hj, h1⟩ ⟨j', hj', h2⟩
      simp only [Prod.mk.injEq] at h1 h2
      have : (a+1)*(sc+1)+j = (b+1)*(sc+1)+j' := by omega
      have := (grid_coord_unique (sc+1) _ _ _ _ (by omega) (by omega) this).1
      omega
  · rintro ⟨s, q⟩ h1 ⟨s', q'⟩ h2 h
    simp only [Prod.mk.injEq] at h
    obtain ⟨rfl, rfl⟩ := h
    simp only [List.mem_map, List.mem_range, Prod.mk.injEq, List.mem_flatMap, List.mem_cons, List.not_mem_nil,
      or_false] at h1 h2
    obtain ⟨j, hj, _, rfl⟩ := h1
    obtain ⟨i, hi, j', hj', h⟩ := h2
    have : 0*(sc+1)+j = (i+1)*(sc+1)+j' := by omega
    have := (grid_coord_unique (sc+1) _ _ _ _ (by omega) (by omega) this).1
    omega

/-- the mesh is consistently oriented: no directed edge occurs twice (at least two sectors) -/
theorem grid_oriented (sc st : ℕ) (h : 2 ≤ sc) : (meshEdges (gridTris sc st)).Nodup := by
  unfold meshEdges gridTris
  rw [List.flatMap_map, List.nodup_flatMap]
  constructor
  · rintro ⟨b, k⟩ _
    cases b <;> simp [quadTri, lower, upper, dirEdges]
  · apply List.Pairwise.imp_of_mem _ (gridKeys_nodup sc st)
    rintro ⟨b, k⟩ ⟨b', k'⟩ _ _ hne
    simp only [Function.onFun, List.disjoint_left]
    rintro ⟨x, y⟩ h1 h2
    have : b ≠ b' ∨ k ≠ k' := by
      by_contra hcon
      push Not at hcon
      exact hne (by rw [hcon.1, hcon.2])
    cases b <;> cases b' <;> simp [quadTri, lower, upper, dirEdges] at h1 h2 this <;> omega

theorem mem_meshEdges (sc st : ℕ) (b : Bool) (i j : ℕ) (hj : j < sc) (h : (b = true ∧ i = 0) ∨ (1 ≤ i ∧ i + 2 ≤ st))
    (e : ℕ × ℕ) (he : e ∈ dirEdges (quadTri (sc+1) (b, i*(sc+1)+j))) : e ∈ meshEdges (gridTris sc st) := by
  unfold meshEdges gridTris
  rw [List.mem_flatMap]
  refine ⟨_, List.mem_map.mpr ⟨(b, i*(sc+1)+j), (mem_gridKeys sc st _ _).mpr ?_, rfl⟩, he⟩
  rcases h with ⟨rfl, rfl⟩ | h
  · exact Or.inl ⟨rfl, by omega⟩
  · exact Or.inr ⟨i, j, h.1, h.2, hj, rfl, by omega⟩

/-- neighbouring triangles share their common edge in opposite directions. With `k = i*(sc+1)+j`, `w = sc+1`:
the diagonal of each quad, the edge between quads of neighbouring sectors, and the edge between neighbouring stacks. -/
theorem grid_shared (sc st i j : ℕ) (hj : j < sc) :
    (1 ≤ i → i + 2 ≤ st →
      (i*(sc+1)+j + (sc+1), i*(sc+1)+j + 1) ∈ meshEdges (gridTris sc st) ∧
      (i*(sc+1)+j + 1, i*(sc+1)+j + (sc+1)) ∈ meshEdges (gridTris sc st)) ∧
    (1 ≤ i → i + 2 ≤ st → j + 1 < sc →
      (i*(sc+1)+j + (sc+1) + 1, i*(sc+1)+j + 1) ∈ meshEdges (gridTris sc st) ∧
      (i*(sc+1)+j + 1, i*(sc+1)+j + (sc+1) + 1) ∈ meshEdges (gridTris sc st)) ∧
    (i + 3 ≤ st →
      (i*(sc+1)+j + (sc+1), i*(sc+1)+j + (sc+1) + 1) ∈ meshEdges (gridTris sc st) ∧
      (i*(sc+1)+j + (sc+1) + 1, i*(sc+1)+j + (sc+1)) ∈ meshEdges (gridTris sc st)) := by
  refine ⟨fun h1 h2 => ⟨?_, ?_⟩, fun h1 h2 h3 => ⟨?_, ?_⟩, fun h => ⟨?_, ?_⟩⟩
  · exact mem_meshEdges sc st false i j hj (Or.inr ⟨h1, h2⟩) _ (by simp [quadTri, lower, dirEdges])
  · exact mem_meshEdges sc st true i j hj (Or.inr ⟨h1, h2⟩) _ (by simp [quadTri, upper, dirEdges])
  · exact mem_meshEdges sc st true i j hj (Or.inr ⟨h1, h2⟩) _ (by simp [quadTri, upper, dirEdges])
  · exact mem_meshEdges sc st false i (j+1) h3 (Or.inr ⟨h1, h2⟩) _ (by simp [quadTri, lower, dirEdges]; omega)
  · refine mem_meshEdges sc st true i j hj ?_ _ (by simp [quadTri, upper, dirEdges])
    rcases Nat.eq_zero_or_pos i with h0 | h0
    · exact Or.inl ⟨rfl, h0⟩
    · exact Or.inr ⟨h0, by omega⟩
  · refine mem_meshEdges sc st false (i+1) j hj (Or.inr ⟨by omega, by omega⟩) _ ?_
    have : (i+1)*(sc+1)+j = i*(sc+1)+j + (sc+1) := by ring
    rw [this]
    simp [quadTri, lower, dirEdges]

/-- every directed mesh edge comes from a quad -/
theorem meshEdges_cases (sc st : ℕ) (hst : 2 ≤ st) (x y : ℕ) (h : (x, y) ∈ meshEdges (gridTris sc st)) :
    ∃ i j, i + 1 < st ∧ j < sc ∧
      ((1 ≤ i ∧ ((x = i*(sc+1)+j ∧ y = (i+1)*(sc+1)+j) ∨ (x = (i+1)*(sc+1)+j ∧ y = i*(sc+1)+(j+1)) ∨
        (x = i*(sc+1)+(j+1) ∧ y = i*(sc+1)+j))) ∨
       (x = i*(sc+1)+(j+1) ∧ y = (i+1)*(sc+1)+j) ∨ (x = (i+1)*(sc+1)+j ∧ y = (i+1)*(sc+1)+(j+1)) ∨
        (x = (i+1)*(sc+1)+(j+1) ∧ y = i*(sc+1)+(j+1))) := by
  unfold meshEdges gridTris at h
  rw [List.mem_flatMap] at h
  obtain ⟨t, ht, he⟩ := h
  obtain ⟨⟨b, k⟩, hk, rfl⟩ := List.mem_map.mp ht
  obtain ⟨i, j, hi, hj, rfl, hb⟩ := gridKeys_coord sc st hst b k hk
  have e1 : (i+1)*(sc+1)+j = i*(sc+1)+j+(sc+1) := by ring
  refine ⟨i, j, hi, hj, ?_⟩
  cases b
  · left
    refine ⟨hb rfl, ?_⟩
    simp only [quadTri, lower, dirEdges, Bool.false_eq_true, if_false, List.mem_cons, List.not_mem_nil, or_false,
      Prod.mk.injEq] at he
    omega
  · right
    simp only [quadTri, upper, dirEdges, if_true, List.mem_cons, List.not_mem_nil, or_false, Prod.mk.injEq] at he
    omega

/-- the edges of the last stack have no partner, so the mesh is open -/
theorem grid_refuted (sc st j : ℕ) (hst : 2 ≤ st) (hj : j < sc) :
    ((st-1)*(sc+1)+j, (st-1)*(sc+1)+(j+1)) ∈ meshEdges (gridTris sc st) ∧
    ((st-1)*(sc+1)+(j+1), (st-1)*(sc+1)+j) ∉ meshEdges (gridTris sc st) := by
  constructor
  · have : (st-1)*(sc+1)+j = (st-2)*(sc+1)+j + (sc+1) := by
      obtain ⟨s, rfl⟩ : ∃ s, st = s + 2 := ⟨st-2, by omega⟩
      rw [show s + 2 - 1 = s + 1 by omega, show s + 2 - 2 = s by omega]; ring
    refine mem_meshEdges sc st true (st-2) j hj ?_ _ ?_
    · rcases Nat.eq_zero_or_pos (st-2) with h | h
      · exact Or.inl ⟨rfl, h⟩
      · exact Or.inr ⟨h, by omega⟩
    · rw [← Nat.add_assoc, this]; simp [quadTri, upper, dirEdges]
  · intro h
    obtain ⟨i, j', hi, hj', h⟩ := meshEdges_cases sc st hst _ _ h
    have key : ∀ a b c d : ℕ, b < sc+1 → d < sc+1 → a*(sc+1)+b = c*(sc+1)+d → a = c ∧ b = d :=
      fun a b c d h1 h2 h3 => grid_coord_unique (sc+1) a b c d h1 h2 h3
    rcases h with ⟨_, ⟨h1, h2⟩ | ⟨h1, h2⟩ | ⟨h1, h2⟩⟩ | ⟨h1, h2⟩ | ⟨h1, h2⟩ | ⟨h1, h2⟩ <;>
    · have a := key _ _ _ _ (by omega) (by omega) h1
      have b := key _ _ _ _ (by omega) (by omega) h2
      omega

/-- the triangles of an index list -/
def triples : List ℕ → List Tri
  | a :: b :: c :: l => (a, b, c) :: triples l
  | _ => []

theorem triples_flat : ∀ l : List Tri, triples (flat l) = l
  | [] => rfl
  | (a, b, c) :: l => by
    have : flat ((a, b, c) :: l) = a :: b :: c :: flat l := rfl
    rw [this, triples, triples_flat l]

/-- `m` is a sphere or a torus with `sc` sectors and `st` stacks, whose vertices can be counted in a `uint32` -/
def GridMesh (m : Mesh ℝ) (sc st : ℕ) : Prop :=
  1 ≤ sc ∧ 2 ≤ st ∧ st * (sc+1) < 2^32 ∧ ((∃ c r, Sphere.Construct ⟨c, r, sc, st⟩ = .ok m) ∨ ∃ c R t, Torus.Construct ⟨c, R, t, sc, st⟩ = .ok m)

theorem gridMesh_indices {m : Mesh ℝ} {sc st : ℕ} (h : GridMesh m sc st) : triples m.Indices = gridTris sc st := by
  obtain ⟨h1, h2, h3, ⟨c, r, e⟩ | ⟨c, R, t, e⟩⟩ := h
  · obtain ⟨m', e', hi, _⟩ := C47_sphere_vertices c r sc st h1
    rw [e] at e'; injection e' with e'; subst e'
    rw [hi, C48_gridIndices sc st h2 h3, triples_flat]
  · obtain ⟨m', e', hi, _⟩ := C47_torus_vertices c R t sc st h1
    rw [e] at e'; injection e' with e'; subst e'
    rw [hi, C48_gridIndices sc st h2 h3, triples_flat]

/-- C52: the three indices of every triangle are distinct -/
theorem C52_distinct {m : Mesh ℝ} {sc st : ℕ} (hm : GridMesh m sc st) (t : Tri) (ht : t ∈ triples m.Indices) :
    t.1 ≠ t.2.1 ∧ t.2.1 ≠ t.2.2 ∧ t.2.2 ≠ t.1 := by
  rw [gridMesh_indices hm] at ht
  exact grid_distinct sc st hm.1 t ht

/-- C52: the mesh is consistently oriented: no directed edge occurs twice (at least two sectors) -/
theorem C52_oriented {m : Mesh ℝ} {sc st : ℕ} (hm : GridMesh m sc st) (h : 2 ≤ sc) : (meshEdges (triples m.Indices)).Nodup := by
  rw [gridMesh_indices hm]
  exact grid_oriented sc st h

/-- C52: neighbouring triangles share their common edge in opposite directions. With `k = i*(sc+1)+j`, `w = sc+1`:
the diagonal of each quad, the edge between quads of neighbouring sectors, and the edge between neighbouring stacks. -/
theorem C52_shared {m : Mesh ℝ} {sc st : ℕ} (hm : GridMesh m sc st) (i j : ℕ) (hj : j < sc) :
    (1 ≤ i → i + 2 ≤ st →
      (i*(sc+1)+j + (sc+1), i*(sc+1)+j + 1) ∈ meshEdges (triples m.Indices) ∧
      (i*(sc+1)+j + 1, i*(sc+1)+j + (sc+1)) ∈ meshEdges (triples m.Indices)) ∧
    (1 ≤ i → i + 2 ≤ st → j + 1 < sc →
      (i*(sc+1)+j + (sc+1) + 1, i*(sc+1)+j + 1) ∈ meshEdges (triples m.Indices) ∧
      (i*(sc+1)+j + 1, i*(sc+1)+j + (sc+1) + 1) ∈ meshEdges (triples m.Indices)) ∧
    (i + 3 ≤ st →
      (i*(sc+1)+j + (sc+1), i*(sc+1)+j + (sc+1) + 1) ∈ meshEdges (triples m.Indices) ∧
      (i*(sc+1)+j + (sc+1) + 1, i*(sc+1)+j + (sc+1)) ∈ meshEdges (triples m.Indices)) := by
  rw [gridMesh_indices hm]
  exact grid_shared sc st i j hj

/-- C52 is false (index level, sphere and torus): the edges of the last stack have no partner, so the mesh is open -/
theorem C52_refuted {m : Mesh ℝ} {sc st : ℕ} (hm : GridMesh m sc st) (j : ℕ) (hj : j < sc) :
    ((st-1)*(sc+1)+j, (st-1)*(sc+1)+(j+1)) ∈ meshEdges (triples m.Indices) ∧
    ((st-1)*(sc+1)+(j+1), (st-1)*(sc+1)+j) ∉ meshEdges (triples m.Indices) := by
  rw [gridMesh_indices hm]
  exact grid_refuted sc st j hm.2.1 hj

/-- the spheres and tori of the public constructors are such meshes -/
theorem gridMesh_public (c : R3.Vector ℝ) (r R t : ℝ) : (∃ m, ConstructSphere c r = .ok m ∧ GridMesh m 300 300) ∧
    ∃ m, ConstructTorus c R t = .ok m ∧ GridMesh m 100 100 := by
  obtain ⟨m, e, _⟩ := C47_sphere_vertices c r 300 300 (by norm_num)
  obtain ⟨m', e', _⟩ := C47_torus_vertices c R t 100 100 (by norm_num)
  exact ⟨⟨m, e, by norm_num, by norm_num, by norm_num, Or.inl ⟨c, r, e⟩⟩, ⟨m', e', by norm_num, by norm_num, by norm_num, Or.inr ⟨c, R, t, e'⟩⟩⟩

/-- height of the vertices of the last stack: strictly above the south pole, and no other stack has this height -/
theorem sphere_height (st i : ℕ) (hi : i < st)
    (h : Real.sin (Real.pi/2 - i * (Real.pi / st)) = Real.sin (Real.pi/2 - ((st-1 : ℕ) : ℝ) * (Real.pi / st))) :
    i = st - 1 := by
  rw [Real.sin_pi_div_two_sub, Real.sin_pi_div_two_sub] at h
  have hst : (0 : ℝ) < st := by exact_mod_cast (by omega : 0 < st)
  have bound : ∀ k : ℕ, k < st → (k : ℝ) * (Real.pi / st) ∈ Set.Icc 0 Real.pi := by
    intro k hk
    have : (k : ℝ) ≤ st := by exact_mod_cast hk.le
    refine ⟨by positivity, ?_⟩
    calc (k : ℝ) * (Real.pi / st) ≤ st * (Real.pi / st) :=
          mul_le_mul_of_nonneg_right this (by positivity)
      _ = Real.pi := by field_simp
  have := Real.injOn_cos (bound i hi) (bound (st-1) (by omega)) h
  have hpos : (Real.pi / st) ≠ 0 := by positivity
  have := mul_right_cancel₀ hpos this
  exact_mod_cast this

/-- C52 is false for the sphere also when vertices at the same position are identified: no triangle edge runs, in
position, opposite to an edge of the last stack. (So the bottom is a hole: the last stack is a circle of positive
radius around the south pole.) -/
theorem C52_sphere_hole_refuted (c : R3.Vector ℝ) (r : ℝ) (hr : 0 < r) (sc st j : ℕ) (hsc : 3 ≤ sc) (hst : 2 ≤ st)
    (hj : j < sc) (hsz : st * (sc+1) < 2^32) : ∃ m, Sphere.Construct ⟨c, r, sc, st⟩ = .ok m ∧
      ((st-1)*(sc+1)+j, (st-1)*(sc+1)+(j+1)) ∈ meshEdges (triples m.Indices) ∧
      ∀ x y, (x, y) ∈ meshEdges (triples m.Indices) →
        ¬ (m.Vertices[x]? = m.Vertices[(st-1)*(sc+1)+(j+1)]? ∧ m.Vertices[y]? = m.Vertices[(st-1)*(sc+1)+j]?) := by
  obtain ⟨m, e, hi, _, _, _, h⟩ := C47_sphere_vertices c r sc st (by omega)
  refine ⟨m, e, ?_⟩
  rw [hi, C48_gridIndices sc st hst hsz, triples_flat]
  refine ⟨(grid_refuted sc st j hst hj).1, ?_⟩
  rintro x y hxy ⟨h1, h2⟩
  -- positions of the two ends of the reversed edge
  have p1 := (h (st-1) (j+1) (by omega) (by omega)).1
  have p2 := (h (st-1) j (by omega) (by omega)).1
  rw [p1] at h1; rw [p2] at h2
  -- an endpoint with stack `a`, sector `b` at the height of the last stack is in the last stack
  have last : ∀ a b : ℕ, a < st → b ≤ sc → ∀ j' : ℕ,
      m.Vertices[a*(sc+1)+b]? = some
        ⟨r * Real.cos (Real.pi/2 - ((st-1 : ℕ) : ℝ) * (Real.pi / st)) * Real.cos (j' * (2 * Real.pi / sc)),
         r * Real.cos (Real.pi/2 - ((st-1 : ℕ) : ℝ) * (Real.pi / st)) * Real.sin (j' * (2 * Real.pi / sc)),
         r * Real.sin (Real.pi/2 - ((st-1 : ℕ) : ℝ) * (Real.pi / st))⟩ → a = st - 1 := by
    intro a b ha hb j' hv
    rw [(h a b ha hb).1] at hv
    injection hv with hv
    injection hv with _ _ hz
    exact sphere_height st a ha (mul_left_cancel₀ (ne_of_gt hr) hz)
  obtain ⟨i, j', hi, hj', hc⟩ := meshEdges_cases sc st hst x y hxy
  have two : ∃ q, q < sc ∧ x = (st-1)*(sc+1)+q ∧ y = (st-1)*(sc+1)+(q+1) := by
    rcases hc with ⟨_, ⟨a, b⟩ | ⟨a, b⟩ | ⟨a, b⟩⟩ | ⟨a, b⟩ | ⟨a, b⟩ | ⟨a, b⟩
    · have t1 := last _ _ (by omega) (by omega) _ (a ▸ h1); omega
    · have t1 := last _ _ (by omega) (by omega) _ (b ▸ h2); omega
    · have t1 := last _ _ (by omega) (by omega) _ (a ▸ h1); omega
    · have t1 := last _ _ (by omega) (by omega) _ (a ▸ h1); omega
    · have t1 := last _ _ (by omega) (by omega) _ (a ▸ h1)
      exact ⟨j', hj', by rw [a, t1], by rw [b, t1]⟩
    · have t1 := last _ _ (by omega) (by omega) _ (b ▸ h2); omega
  obtain ⟨q, hq, rfl, rfl⟩ := two
  rw [(h (st-1) q (by omega) (by omega)).1] at h1
  rw [(h (st-1) (q+1) (by omega) (by omega)).1] at h2
  injection h1 with h1; injection h2 with h2
  injection h1 with x1 y1 _
  injection h2 with x2 y2 _
  -- radius of the last stack
  have hstp : (0 : ℝ) < st := by exact_mod_cast (by omega : 0 < st)
  have hscp : (0 : ℝ) < sc := by exact_mod_cast (by omega : 0 < sc)
  have hrho : 0 < r * Real.cos (Real.pi/2 - ((st-1 : ℕ) : ℝ) * (Real.pi / st)) := by
    apply mul_pos hr
    rw [Real.cos_pi_div_two_sub]
    apply Real.sin_pos_of_pos_of_lt_pi
    · have : (0 : ℝ) < ((st-1 : ℕ) : ℝ) := by exact_mod_cast (by omega : 0 < st - 1)
      positivity
    · have : ((st-1 : ℕ) : ℝ) < st := by exact_mod_cast (by omega : st - 1 < st)
      calc ((st-1 : ℕ) : ℝ) * (Real.pi / st) < st * (Real.pi / st) :=
            mul_lt_mul_of_pos_right this (by positivity)
        _ = Real.pi := by field_simp
  have hne := ne_of_gt hrho
  rw [mul_right_inj' hne] at x1 y1 x2 y2
  -- the step angle
  have step : ∀ k : ℕ, ((k+1 : ℕ) : ℝ) * (2 * Real.pi / sc) = (k : ℝ) * (2 * Real.pi / sc) + 2 * Real.pi / sc := by
    intro k; push_cast; ring
  have hs : 0 < Real.sin (2 * Real.pi / sc) := by
    apply Real.sin_pos_of_pos_of_lt_pi
    · positivity
    · have : (3 : ℝ) ≤ sc := by exact_mod_cast hsc
      rw [div_lt_iff₀ hscp]
      nlinarith [Real.pi_pos]
  have cross : ∀ k : ℕ, Real.cos (k * (2 * Real.pi / sc)) * Real.sin (((k+1 : ℕ) : ℝ) * (2 * Real.pi / sc)) -
      Real.sin (k * (2 * Real.pi / sc)) * Real.cos (((k+1 : ℕ) : ℝ) * (2 * Real.pi / sc)) = Real.sin (2 * Real.pi / sc) := by
    intro k
    rw [step]
    have := Real.sin_sub ((k : ℝ) * (2 * Real.pi / sc) + 2 * Real.pi / sc) ((k : ℝ) * (2 * Real.pi / sc))
    rw [add_sub_cancel_left] at this
    rw [this]; ring
  have cq := cross q
  have cj := cross j
  rw [x1, y1, x2, y2] at cq
  linarith

example : gridTris 2 3 = [(1, 3, 4), (2, 4, 5), (3, 6, 4), (4, 6, 7), (4, 7, 5), (5, 7, 8)] := by decide

end Verif.Props
