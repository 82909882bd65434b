import Verif.Proofs.Exact
/-!
# C19 - C23, C25 for `Triangulate` in exact arithmetic

The points have a common `Z` (`Planar`): `SquaredDistance` is three-dimensional while the other predicates only look
at `X` and `Y`; `C23_nonplanar_refuted` shows what happens otherwise. `srt` is any function that permutes the ids.
-/
namespace Verif.Props
open Verif Verif.Tri2 Verif.Proofs

section exact
variable {K : Type} [Field K] [LinearOrder K] [IsStrictOrderedRing K] [FloorRing K]

/-- a consistent triangulation of (a subset of) the points `Vs` with boundary polygon `hull` -/
structure Consistent (Vs hull : List (R3.Vector K)) (ts hs : List ℤ) : Prop where
  twins : Twins hs
  table : Table Vs.length ts hs
  nonempty : ts ≠ []
  /-- the triangle areas add up to the (positive) area of the boundary polygon -/
  area : triArea Vs ts = .ok (polygonArea hull)
  areaPos : 0 < polygonArea hull
  /-- the boundary polygon consists of input points with distinct indices, all of which are triangle vertices -/
  boundary : ∃ R : List ℕ, R.Nodup ∧ hull.map some = R.map (fun x => Vs[x]?) ∧ ∀ x ∈ R, (x : ℤ) ∈ ts
  three : 3 ≤ hull.length
  count : ts.length = 3 * (2 * ts.toFinset.card - 2 - hull.length)
  buffer : ts.length ≤ 3 * (2 * Vs.length - 5)

omit [FloorRing K] in
/-- every run with exact predicates from a seed triangle -/
theorem geo_run {g : Geo (R3.Vector K)} {Vs : List (R3.Vector K)} (G : Tells g Vs) {m : ℕ} (hkey : ∀ v ∈ Vs, 0 ≤ g.key v ∧ g.key v < m)
    {ids : List ℤ} (hids : ids.Perm ((List.range Vs.length).map Int.ofNat)) {fuel : ℕ} (hf : 6 * Vs.length < fuel)
    {i0 i1 i2 : ℕ} {p0 p1 p2 : R3.Vector K} (S : Seeds Vs i0 i1 i2 p0 p1 p2) (H : SafeSeed g Vs i0 i1 i2) :
    ∃ s hull, triangulateCore g Vs fuel m i0 i1 i2 ids = .ok s ∧ hullWalk Vs s fuel s.hull [] = .ok hull ∧ Consistent Vs hull s.triangles s.halfedges := by
  have O := geo_orc G S H hkey
  have C := geo_call G S H hkey hids hf
  have hpos : True → 0 < crossOf Vs i0 i1 + crossOf Vs i1 i2 + crossOf Vs i2 i0 := by
    intro _
    have := S.pos
    rwa [← ptOf_eq S.g0, ← ptOf_eq S.g1, ← ptOf_eq S.g2, area_crossOf] at this
  rcases core_ok O rfl C.h0 C.h1 C.h2 C.d01 C.d12 C.d20 hpos C.nodup C.range C.fuel with ⟨s, T, V, R, e, I, _⟩ | h
  swap
  · exact absurd trivial h.2
  obtain ⟨h, l, ps, hR, h1, h2⟩ := hull_ok (Vs := Vs) I rfl (fuel := fuel) (by have := C.fuel; omega) (s.triangles.take (3*T)) (s.halfedges.take (3*T))
  refine ⟨_, ps, e, h1, ?_⟩
  have hl : ps.length = R.length := by
    have := congrArg List.length h2
    rw [hR]; simpa using this
  have hps := I.pos trivial
  have h3 : 3 ≤ R.length := by
    by_contra hlt
    have h2' := I.two
    obtain ⟨h', l', hR', hh, hp⟩ := I.ring
    have hl1 : l'.length = 1 := by rw [hR'] at hlt h2'; simp at hlt h2'; omega
    obtain ⟨y, rfl⟩ := List.length_eq_one_iff.mp hl1
    have e1 : (nd s h').next = some y := hp.1.1
    have e2 : (nd s y).next = some h' := hp.2.1
    rw [hR'] at hps
    simp only [ringSum, List.map_cons, List.map_nil, List.sum_cons, List.sum_nil, e1, e2, Option.getD_some] at hps
    have := crossOf_anti Vs h' y
    rw [this] at hps
    simp at hps
  obtain ⟨c1, _, c3, _⟩ := C22_count C _ e h1
  refine ⟨twins_of I, table_of I, ?_, C21_area C _ e h1, ?_, ?_, by omega, c1, C22_buffer C _ e h1 (by omega)⟩
  · intro h0
    have h4 : (s.triangles.take (3*T)).length = 0 := congrArg List.length h0
    rw [length_tr I] at h4
    have := I.seed.1
    omega
  · rw [ring_area I hR h2]
    exact div_pos hps two_pos
  · refine ⟨h :: l.reverse, ?_, h2, ?_⟩
    · have := I.nodup
      rw [hR] at this
      exact (((List.reverse_perm l).cons h).nodup_iff).mpr this
    · intro x hx
      have hx' : x ∈ R := by rw [hR]; simpa using hx
      have : (x : ℤ) ∈ (s.triangles.take (3*T)).toFinset := by
        rw [vertices_of I, Finset.mem_map]; exact ⟨x, I.rV x hx', rfl⟩
      exact List.mem_toFinset.mp this

/-- every run on points that are not collinear -/
theorem exact_run (srt : R3.Vector K → List ℤ → List ℤ) (hsrt : ∀ c l, (srt c l).Perm l) (hashSize : ℕ → ℕ)
    {fuel : ℕ} {Vs : List (R3.Vector K)} (hash : 0 < hashSize Vs.length) (hf : 6 * Vs.length < fuel)
    {i0 i1 i2 : ℕ} {p0 p1 p2 : R3.Vector K} (S : Seeds Vs i0 i1 i2 p0 p1 p2) :
    ∃ hull ts hs, afterSeeds srt hashSize fuel Vs i0 i1 i2 p0 p1 p2 = .ok (.triangulation hull ts hs) ∧
      Consistent Vs hull ts hs := by
  obtain ⟨s, hull, e, h, c⟩ := geo_run (tells_exact (hashSize Vs.length) (circumcenter p0 p1 p2) Vs) (fun v _ => C14_hashKey _ v _ hash)
    (hsrt (circumcenter p0 p1 p2) ((List.range Vs.length).map Int.ofNat)) hf S (safe_exact _ _ S)
  refine ⟨hull, _, _, ?_, c⟩
  unfold afterSeeds
  rw [e, Res.bind_ok, h]
  rfl

/-- C23: two or more planar points. `Triangulate` never panics and always terminates: it returns the error exactly when all points
are collinear, and a consistent triangulation otherwise. -/
theorem C23_planar (srt : R3.Vector K → List ℤ → List ℤ) (hsrt : ∀ c l, (srt c l).Perm l) (hashSize : ℕ → ℕ)
    (fuel : ℕ) (Vs : List (R3.Vector K)) (hp : Planar Vs) (hn : 2 ≤ Vs.length) (hash : 0 < hashSize Vs.length) (hf : 6 * Vs.length < fuel) :
    (Collinear Vs ∧ Triangulate srt hashSize fuel Vs = .ok .noTriangulation) ∨
    (¬ Collinear Vs ∧ ∃ hull ts hs, Triangulate srt hashSize fuel Vs = .ok (.triangulation hull ts hs) ∧ Consistent Vs hull ts hs) := by
  rcases exact_seeds srt hashSize fuel hp hn with h | ⟨hc, i0, i1, i2, p0, p1, p2, S, e⟩
  · exact Or.inl h
  · obtain ⟨hull, ts, hs, e', h⟩ := exact_run srt hsrt hashSize hash hf S
    exact Or.inr ⟨hc, hull, ts, hs, by rw [e, e'], h⟩

/-- C23: the error is returned exactly for collinear points -/
theorem C23_error_iff (srt : R3.Vector K → List ℤ → List ℤ) (hsrt : ∀ c l, (srt c l).Perm l) (hashSize : ℕ → ℕ)
    (fuel : ℕ) (Vs : List (R3.Vector K)) (hp : Planar Vs) (hn : 2 ≤ Vs.length) (hash : 0 < hashSize Vs.length) (hf : 6 * Vs.length < fuel) :
    Triangulate srt hashSize fuel Vs = .ok .noTriangulation ↔ Collinear Vs := by
  rcases C23_planar srt hsrt hashSize fuel Vs hp hn hash hf with ⟨h1, h2⟩ | ⟨h1, hull, ts, hs, h2, _⟩
  · simp [h1, h2]
  · simp [h1, h2]

/-- C19, C20, C21, C22, C25 for the result of `Triangulate` -/
theorem C19_exact (srt : R3.Vector K → List ℤ → List ℤ) (hsrt : ∀ c l, (srt c l).Perm l) (hashSize : ℕ → ℕ)
    (fuel : ℕ) (Vs : List (R3.Vector K)) (hp : Planar Vs) (hn : 2 ≤ Vs.length) (hash : 0 < hashSize Vs.length) (hf : 6 * Vs.length < fuel)
    {hull : List (R3.Vector K)} {ts hs : List ℤ} (h : Triangulate srt hashSize fuel Vs = .ok (.triangulation hull ts hs)) : Consistent Vs hull ts hs := by
  rcases C23_planar srt hsrt hashSize fuel Vs hp hn hash hf with ⟨h1, h2⟩ | ⟨h1, hull', ts', hs', h2, h3⟩
  · rw [h2] at h; cases h
  · rw [h2] at h; cases h; exact h3

omit [IsStrictOrderedRing K] in
/-- C23: no points -/
theorem C23_empty (srt : R3.Vector K → List ℤ → List ℤ) (hashSize : ℕ → ℕ) (fuel : ℕ) :
    Triangulate srt hashSize fuel [] = .ok (.triangulation [] [] []) := rfl

omit [IsStrictOrderedRing K] in
/-- C23 fails for one point: triangulator.go:61-64 reads `Vectors[1]` -/
theorem C23_single_refuted (srt : R3.Vector K → List ℤ → List ℤ) (hashSize : ℕ → ℕ) (fuel : ℕ) (p : R3.Vector K) :
    Triangulate srt hashSize fuel [p] = .panic := rfl

end exact

/-- five points that are not collinear in the plane; the second lies above the first -/
def stacked : List (R3.Vector ℚ) := [⟨0,0,0⟩, ⟨0,0,1⟩, ⟨10,0,0⟩, ⟨-10,0,0⟩, ⟨0,10,0⟩, ⟨0,-10,0⟩]

/-- C23 without a common `Z`: the nearest point in space may have the same `X` and `Y`; then the error is returned although the
points are not collinear -/
theorem C23_nonplanar_refuted : ∃ Vs : List (R3.Vector ℚ), ¬ Collinear Vs ∧
    ∀ srt hashSize fuel, Triangulate srt hashSize fuel Vs = .ok .noTriangulation := by
  refine ⟨stacked, ?_, ?_⟩
  · intro h
    have := h ⟨0,0,0⟩ (by simp [stacked]) ⟨10,0,0⟩ (by simp [stacked]) ⟨0,10,0⟩ (by simp [stacked])
    norm_num [area] at this
  · intro srt hashSize fuel
    have hb : bounds stacked = .ok (-10, 10, -10, 10) := by decide +kernel
    have h0 : seed0 stacked ⟨(-10 + 10) / 2, (-10 + 10) / 2, 0⟩ = 0 := by decide +kernel
    have h1 : seed1 stacked 0 ⟨0,0,0⟩ = 1 := by decide +kernel
    have h2 : (seed2 stacked 0 1 ⟨0,0,0⟩ ⟨0,0,1⟩).2 = none := by decide +kernel
    unfold Triangulate
    simp only
    rw [if_neg (by decide), hb, Res.bind_ok]
    dsimp only
    rw [h0]
    rw [show goGet stacked ((0 : ℕ) : ℤ) = .ok ⟨0,0,0⟩ from rfl, Res.bind_ok, h1]
    rw [show goGet stacked ((1 : ℕ) : ℤ) = .ok ⟨0,0,1⟩ from rfl, Res.bind_ok, h2]
    rfl

/-- five points, four on the hull; a case of `C23_planar` -/
def square5 : List (R3.Vector ℚ) := [⟨0,0,0⟩, ⟨4,0,0⟩, ⟨4,4,0⟩, ⟨0,4,0⟩, ⟨1,2,0⟩]

example : Planar square5 ∧ 2 ≤ square5.length ∧ ¬ Collinear square5 := by
  refine ⟨⟨0, by simp [square5]⟩, by decide, ?_⟩
  intro h
  have := h ⟨0,0,0⟩ (by simp [square5]) ⟨4,0,0⟩ (by simp [square5]) ⟨4,4,0⟩ (by simp [square5])
  norm_num [area] at this

/-- the result for it, with the sort modelled by an insertion sort -/
def sq5Sort (c : R3.Vector ℚ) (l : List ℤ) : List ℤ :=
  l.insertionSort (fun a b => idLess c (ptOf square5 b.toNat) (ptOf square5 a.toNat) = false)

example : (match Triangulate sq5Sort (fun _ => 3) 31 square5 with
    | .ok (.triangulation hull ts hs) => decide (hull.length = 4 ∧ ts.length = 12 ∧ hs.length = 12) | _ => false) = true := by decide +kernel

/-- collinear points, and the error -/
example : Collinear ([⟨0,0,0⟩, ⟨1,1,0⟩, ⟨2,2,0⟩] : List (R3.Vector ℚ)) := by
  intro a ha b hb c hc
  simp at ha hb hc
  rcases ha with rfl | rfl | rfl <;> rcases hb with rfl | rfl | rfl <;> rcases hc with rfl | rfl | rfl <;> norm_num [area]

end Verif.Props
