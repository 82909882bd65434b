import Verif.Proofs.MidRun
import Verif.Props.DelaunatorSigns
import Verif.Props.DelaunatorGrid
/-!
# C104: the triangulator in float64 on integer coordinates up to 512 (triangulator.go, hull.go)

C74 covers integers of size at most 64, where the computed distances from the centre of the seed circle are proved to be in the right order. Up to 512
the sign tests are still exact, but the bounds on the rounding errors no longer separate all distances. The proof does without the right order: a point
cannot come after three others that have it between them, because the distances then differ by more than the errors.
-/
namespace Verif.Props
open Verif Verif.F64 Verif.Tri2 Verif.Proofs Verif.Spec

/-- `X` and `Y` are integers of size at most 512, `Z` is zero -/
def MidInts (Vs : List (R3.Vector F64)) : Prop := ∀ v ∈ Vs, Whole 512 v.X ∧ Whole 512 v.Y ∧ v.Z = 0

theorem MidInts.grid {Vs : List (R3.Vector F64)} (h : MidInts Vs) : MidGrid Vs := by
  intro v hv
  obtain ⟨⟨fx, x, ex, lx⟩, ⟨fy, y, ey, ly⟩, ez⟩ := h v hv
  exact ⟨⟨x, y, 0⟩, ⟨fx, ex, lx⟩, ⟨fy, ey, ly⟩, by rw [ez]; exact Ex.zero⟩

theorem MidInts.finite {Vs : List (R3.Vector F64)} (h : MidInts Vs) : FinitePlanar Vs :=
  fun v hv => ⟨(h v hv).1.1, (h v hv).2.1.1, (h v hv).2.2⟩

theorem MidInts.flat {Vs : List (R3.Vector F64)} (h : MidInts Vs) : Flat Vs :=
  fun p hp q hq _ _ => by rw [(h p hp).2.2, (h q hq).2.2]

theorem MidInts.ints {Vs : List (R3.Vector F64)} (h : MidInts Vs) : IntPts Vs := fun v hv => by
  obtain ⟨a, ga⟩ := h.grid v hv
  exact ⟨a, ⟨ga.x.fin, ga.x.val, ga.x.le.trans (by norm_num)⟩, ⟨ga.y.fin, ga.y.val, ga.y.le.trans (by norm_num)⟩, ⟨ga.z.fin, ga.z.val, ga.z.le.trans (by norm_num)⟩⟩

theorem MidInts.near {Vs : List (R3.Vector F64)} (h : MidInts Vs) : ∀ p ∈ Vs, ∀ q ∈ Vs, R3.SquaredDistance p q < eps → exactV p = exactV q := by
  intro p hp q hq hlt
  rcases ints_separated h.ints h.flat _ (List.mem_map_of_mem hp) _ (List.mem_map_of_mem hq) with e | ⟨_, e⟩
  · exact e
  · exact absurd ((near_iff _ _).mp ((h.ints.agrees.near p hp q hq).mp hlt)) e

/-- C104: the seed triangle is right, and the computed distances put no point after three others that have it between them -/
theorem C104_order {Vs : List (R3.Vector F64)} (hg : MidInts Vs) (hn : 2 ≤ Vs.length) (hC : NotCollinear (Vs.map exactV)) :
    ∃ i0 i1 i2 o, SeedRight Vs i0 i1 i2 o ∧ OrderFine Vs i0 i1 i2 o := by
  rcases mid_right hg.grid hn with ⟨h, _⟩ | ⟨_, h⟩
  · exact absurd hC ((collinear_iff _).mp h)
  · exact h

section
variable (srt : R3.Vector F64 → List ℤ → List ℤ) (hsrt : ∀ c l, (srt c l).Perm l) (hashSize : ℕ → ℕ) (fuel : ℕ) (Vs : List (R3.Vector F64))
  (hg : MidInts Vs) (hn : 2 ≤ Vs.length) (hash : 0 < hashSize Vs.length) (hash' : hashSize Vs.length < 2 ^ 53) (hf : 6 * Vs.length < fuel)
include hsrt hg hn hash hash' hf

/-- C104: an error exactly if the points are on one line, otherwise a triangulation; no panic -/
theorem C104_outcome : (¬ NotCollinear (Vs.map exactV) ∧ Triangulate srt hashSize fuel Vs = .ok .noTriangulation) ∨
    (NotCollinear (Vs.map exactV) ∧ ∃ hull ts hs, Triangulate srt hashSize fuel Vs = .ok (.triangulation hull ts hs)) := by
  rcases mid_right hg.grid hn with ⟨h, e⟩ | ⟨h, i0, i1, i2, o, hS, _⟩
  · exact Or.inl ⟨(collinear_iff _).mp h, e _ _ _⟩
  · exact Or.inr ⟨not_not.mp fun hc => h ((collinear_iff _).mpr hc),
      C77_outcome srt hsrt hashSize fuel Vs hg.finite (mid_signs hg.grid) hS hash hash' hf⟩

variable {hull : List (R3.Vector F64)} {ts hs : List ℤ} (h : Triangulate srt hashSize fuel Vs = .ok (.triangulation hull ts hs))
include h

omit hsrt hash hash' hf in
theorem mid_seed : ∃ i0 i1 i2 o, SeedRight Vs i0 i1 i2 o ∧ OrderFine Vs i0 i1 i2 o := by
  rcases mid_right hg.grid hn with ⟨_, e⟩ | ⟨_, h'⟩
  · rw [e] at h; cases h
  · exact h'

/-- C104: C19 to C22 and C25: the tables are consistent -/
theorem C104_consistent : Consistent (Vs.map exactV) (hull.map exactV) ts hs := by
  obtain ⟨i0, i1, i2, o, hS, hO⟩ := mid_seed srt hashSize fuel Vs hg hn h
  exact C77_consistent srt hsrt hashSize fuel Vs hg.finite (mid_signs hg.grid) hS hash hash' hf h

/-- C104: C67: no vertex is outside the hull -/
theorem C104_convex : ∀ v, IsVertex (Vs.map exactV) ts v → Inside (hull.map exactV) v := by
  obtain ⟨i0, i1, i2, o, hS, hO⟩ := mid_seed srt hashSize fuel Vs hg hn h
  exact C77_convex srt hsrt hashSize fuel Vs hg.finite (mid_signs hg.grid) hS hash hash' hf h

/-- C104: C67: two vertices are at different positions -/
theorem C104_distinct : ∀ i j : ℕ, (i:ℤ) ∈ ts → (j:ℤ) ∈ ts → i ≠ j → ∀ a b, Vs[i]? = some a → Vs[j]? = some b →
    a.X.toQ ≠ b.X.toQ ∨ a.Y.toQ ≠ b.Y.toQ := by
  obtain ⟨i0, i1, i2, o, hS, hO⟩ := mid_seed srt hashSize fuel Vs hg hn h
  exact C77_distinct srt hsrt hashSize fuel Vs hg.finite (mid_signs hg.grid) hS hash hash' hf h

/-- C104: C68: the result is a Delaunay triangulation -/
theorem C104_delaunay : Delaunay (Vs.map exactV) ts := by
  obtain ⟨i0, i1, i2, o, hS, hO⟩ := mid_seed srt hashSize fuel Vs hg hn h
  exact C77_delaunay srt hsrt hashSize fuel Vs hg.finite (mid_signs hg.grid) hS hash hash' hf h

/-- C104: C69: if `sort.Sort` sorts, every input point is at the position of a vertex of the triangulation -/
theorem C104_cover (hs' : SortsCall srt Vs) : ∀ p ∈ Vs, IsVertex (Vs.map exactV) ts (exactV p) := by
  intro p hp
  obtain ⟨i0, i1, i2, o, hS, hO⟩ := mid_seed srt hashSize fuel Vs hg hn h
  obtain ⟨i, v, hi, hv, e⟩ := C77_cover_fine srt hsrt hashSize fuel Vs hg.finite (mid_signs hg.grid) hS hash hash' hf h hs' hO p hp
  have : exactV p = exactV v := e.elim id fun e => hg.near p hp v (List.mem_of_getElem? hv) e
  exact ⟨i, hi, by rw [List.getElem?_map, hv, this]; rfl⟩

/-- C104: C69: if the positions are distinct too, the vertices are exactly the input points and there are `2 n - 2 - h` triangles -/
theorem C104_all (hs' : SortsCall srt Vs) (hd : (Vs.map exactV).Nodup) :
    (∀ i : ℕ, i < Vs.length ↔ (i:ℤ) ∈ ts) ∧ ts.length = 3 * (2 * Vs.length - 2 - hull.length) ∧ ∀ p ∈ Vs, Inside (hull.map exactV) (exactV p) := by
  obtain ⟨i0, i1, i2, o, hS, hO⟩ := mid_seed srt hashSize fuel Vs hg hn h
  obtain ⟨h1, h2, h3, _⟩ := C77_all_fine srt hsrt hashSize fuel Vs hg.finite (mid_signs hg.grid) hS hash hash' hf h hs' hO hd hg.near
  exact ⟨h1, h2, h3⟩

/-- C104: C70: the triangles cover the hull -/
theorem C104_fills (x : R3.Vector ℚ) (hx : Inside (hull.map exactV) x) : ∃ k a b c, Corners (Vs.map exactV) ts k a b c ∧ InTri a b c x := by
  obtain ⟨i0, i1, i2, o, hS, hO⟩ := mid_seed srt hashSize fuel Vs hg hn h
  exact C77_fills srt hsrt hashSize fuel Vs hg.finite (mid_signs hg.grid) hS hash hash' hf h x hx

/-- C104: C70: the triangles do not overlap -/
theorem C104_disjoint (x : R3.Vector ℚ) {j k : ℕ} {a b c a' b' c' : R3.Vector ℚ} (hj : Corners (Vs.map exactV) ts j a b c)
    (hk : Corners (Vs.map exactV) ts k a' b' c') (sj : orient a b x < 0 ∧ orient b c x < 0 ∧ orient c a x < 0)
    (sk : orient a' b' x < 0 ∧ orient b' c' x < 0 ∧ orient c' a' x < 0) : j = k := by
  obtain ⟨i0, i1, i2, o, hS, hO⟩ := mid_seed srt hashSize fuel Vs hg hn h
  exact C77_disjoint srt hsrt hashSize fuel Vs hg.finite (mid_signs hg.grid) hS hash hash' hf h x hj hk sj sk

/-- C104: C72: the hull of the triangulation is the boundary polygon of the points -/
theorem C104_boundary (hs' : SortsCall srt Vs) : BoundaryPolygon (Vs.map exactV) (hull.map exactV) ∧ NotCollinear (Vs.map exactV) := by
  obtain ⟨i0, i1, i2, o, hS, hO⟩ := mid_seed srt hashSize fuel Vs hg hn h
  obtain ⟨h1, h2⟩ := sign_final srt hsrt hashSize fuel Vs hg.finite (mid_signs hg.grid) hS hash hash' hf h
  refine h2.boundary ⟨hs', hO⟩ ?_ h1.three
  intro p hp q hq e
  obtain ⟨p, hp', rfl⟩ := List.mem_map.mp hp
  obtain ⟨q, hq', rfl⟩ := List.mem_map.mp hq
  rw [← (sign_agree hg.finite (hashSize Vs.length) o).near p hp' q hq'] at e
  exact hg.near p hp' q hq' (by simpa [Geo.ofScalar] using e)

/-- C104: C72: the hull of the triangulation is the polygon of `ConvexHull`, up to the starting point -/
theorem C104_agree (hs' : SortsCall srt Vs) {hsort : List (R3.Vector F64) → List (R3.Vector F64)} (hH : SortsHullF hsort Vs) :
    (hull.map exactV).IsRotated ((ConvexHull hsort Vs).map exactV) := by
  obtain ⟨h1, h2⟩ := C104_boundary srt hsrt hashSize fuel Vs hg hn hash hash' hf h hs'
  have hsep := ints_separated hg.ints hg.flat
  rw [convexHull_map hg.ints.agrees hH]
  exact C73_unique h2 (separated_distinct hsep) h1 (C73_convexHull _ (sortAs_sorts hg.ints.agrees hH) _ hsep h2)

end

/-! ## The hypotheses hold -/

/-- seven points up to the corners of the range: four on a circle, one in the middle of a side, and a seed triangle whose computed centre is rounded -/
def midPts : List (R3.Vector F64) :=
  [⟨flt (-512) 0, flt (-512) 0, 0⟩, ⟨flt 512 0, flt (-512) 0, 0⟩, ⟨flt 512 0, flt 512 0, 0⟩, ⟨flt (-512) 0, flt 512 0, 0⟩, ⟨0, flt (-512) 0, 0⟩, ⟨flt 5 0, flt 3 0, 0⟩,
    ⟨flt 511 0, flt (-509) 0, 0⟩]

theorem midPts_ints : MidInts midPts := by
  have w : ∀ n : ℤ, n ∈ ([-512, 512, 5, 3, 511, -509] : List ℤ) → Whole 512 (flt n 0) := by
    intro n hn
    simp only [List.mem_cons, List.not_mem_nil, or_false] at hn
    rcases hn with rfl | rfl | rfl | rfl | rfl | rfl
    · exact ⟨by decide +kernel, -512, by decide +kernel, by decide +kernel⟩
    · exact ⟨by decide +kernel, 512, by decide +kernel, by decide +kernel⟩
    · exact ⟨by decide +kernel, 5, by decide +kernel, by decide +kernel⟩
    · exact ⟨by decide +kernel, 3, by decide +kernel, by decide +kernel⟩
    · exact ⟨by decide +kernel, 511, by decide +kernel, by decide +kernel⟩
    · exact ⟨by decide +kernel, -509, by decide +kernel, by decide +kernel⟩
  intro v hv
  simp only [midPts, List.mem_cons, List.not_mem_nil, or_false] at hv
  rcases hv with rfl | rfl | rfl | rfl | rfl | rfl | rfl
  · exact ⟨w _ (by simp), w _ (by simp), rfl⟩
  · exact ⟨w _ (by simp), w _ (by simp), rfl⟩
  · exact ⟨w _ (by simp), w _ (by simp), rfl⟩
  · exact ⟨w _ (by simp), w _ (by simp), rfl⟩
  · exact ⟨⟨by decide +kernel, 0, by decide +kernel, by simp⟩, w _ (by simp), rfl⟩
  · exact ⟨w _ (by simp), w _ (by simp), rfl⟩
  · exact ⟨w _ (by simp), w _ (by simp), rfl⟩

theorem midPts_data : CallData midPts 5 6 4 ⟨flt 8937231624438557 (-45), flt (-2260084486516539) (-43), 0⟩ [4, 5, 6, 1, 0, 2, 3] := by
  constructor
  · decide +kernel
  · decide +kernel
  · decide +kernel
  · decide +kernel

example : MidInts midPts ∧ 2 ≤ midPts.length ∧ (∃ srt, SortsCall srt midPts) ∧ (midPts.map exactV).Nodup ∧ ¬ SmallInts midPts :=
  ⟨midPts_ints, by decide, ⟨_, midPts_data.sorts⟩, by decide +kernel, fun h => by
    obtain ⟨⟨_, n, e, l⟩, _⟩ := h ⟨flt (-512) 0, flt (-512) 0, 0⟩ (by decide +kernel)
    have : (n:ℚ) = -512 := by rw [← e]; decide +kernel
    have : n = -512 := by exact_mod_cast this
    subst this
    norm_num at l⟩

/-- the run on these points gives seven triangles around a hull of five points -/
example : ∃ x, restOf 3 43 midPts 5 6 4 ⟨flt 8937231624438557 (-45), flt (-2260084486516539) (-43), 0⟩ [4, 5, 6, 1, 0, 2, 3] = x ∧
    (match x with | .ok (.triangulation hull ts _) => decide (hull.length = 5 ∧ ts.length = 21) | _ => false) = true :=
  ⟨_, rfl, by decide +kernel⟩

end Verif.Props
