import Verif.Props.DelaunatorDyadic
import Verif.Props.Axes
import Verif.Props.HashSize
import Verif.Props.Work
/-!
# C76, C98, C101 and C102 in float64, for integers of size at most 512 times a power of two

The theorems for integers of size at most 64 (`C76_float`, `C98_grid`, `C101_float`, `C102_grid`), with the range of C104. The two calls that are compared may have
different units.
-/
namespace Verif.Props
open Verif Verif.F64 Verif.Tri2 Verif.Proofs Verif.Spec

theorem dyadic_result {e : ℤ} (he : -26 ≤ e ∧ e ≤ 80) (srt : R3.Vector F64 → List ℤ → List ℤ) (hsrt : ∀ c l, (srt c l).Perm l) (hashSize : ℕ → ℕ) (fuel : ℕ)
    (Vs : List (R3.Vector F64)) (hg : MidDyadic e Vs) (hn : 2 ≤ Vs.length) (hash : 0 < hashSize Vs.length ∧ hashSize Vs.length < 2 ^ 53) (hf : 6 * Vs.length < fuel)
    {hull : List (R3.Vector F64)} {ts hs : List ℤ} (h : Triangulate srt hashSize fuel Vs = .ok (.triangulation hull ts hs)) (hs' : SortsCall srt Vs) :
    DelaunayResult (Vs.map exactV) (hull.map exactV) ts where
  delaunay := (C104_dyadic_delaunay he srt hsrt hashSize fuel Vs hg hn hash.1 hash.2 hf h).2.2
  convex := (C104_dyadic_delaunay he srt hsrt hashSize fuel Vs hg hn hash.1 hash.2 hf h).2.1
  fills := C104_dyadic_fills he srt hsrt hashSize fuel Vs hg hn hash.1 hash.2 hf h
  disjoint x := C104_dyadic_disjoint he srt hsrt hashSize fuel Vs hg hn hash.1 hash.2 hf h x
  cover p hp := by
    obtain ⟨v, hv, rfl⟩ := List.mem_map.mp hp
    exact C104_dyadic_cover he srt hsrt hashSize fuel Vs hg hn hash.1 hash.2 hf h hs' v hv

theorem dyadic_not_collinear {e : ℤ} (he : -26 ≤ e ∧ e ≤ 80) (srt : R3.Vector F64 → List ℤ → List ℤ) (hashSize : ℕ → ℕ) (fuel : ℕ)
    (Vs : List (R3.Vector F64)) (hg : MidDyadic e Vs) (hn : 2 ≤ Vs.length)
    {hull : List (R3.Vector F64)} {ts hs : List ℤ} (h : Triangulate srt hashSize fuel Vs = .ok (.triangulation hull ts hs)) : NotCollinear (Vs.map exactV) := by
  rcases mid_rightD he hg hn with ⟨_, e1⟩ | ⟨h1, _⟩
  · rw [e1] at h; cases h
  · exact not_not.mp fun hc => h1 ((collinear_iff _).mpr hc)

/-- C76: in float64, on integers of size at most 512 times a power of two: the hull, and the triangles if no four points are on an empty circle, do not depend on
the order of the points, on ties, on repeated points, or on the hash size -/
theorem C76_float_dyadic {e e' : ℤ} (he : -26 ≤ e ∧ e ≤ 80) (he' : -26 ≤ e' ∧ e' ≤ 80)
    (srt srt' : R3.Vector F64 → List ℤ → List ℤ) (hsrt : ∀ c l, (srt c l).Perm l) (hsrt' : ∀ c l, (srt' c l).Perm l)
    (hashSize hashSize' : ℕ → ℕ) (fuel fuel' : ℕ) (Vs Vs' : List (R3.Vector F64)) (hg : MidDyadic e Vs) (hg' : MidDyadic e' Vs')
    (hsame : ∀ p, p ∈ Vs.map exactV ↔ p ∈ Vs'.map exactV) (hn : 2 ≤ Vs.length) (hn' : 2 ≤ Vs'.length)
    (hash : 0 < hashSize Vs.length ∧ hashSize Vs.length < 2 ^ 53) (hash' : 0 < hashSize' Vs'.length ∧ hashSize' Vs'.length < 2 ^ 53)
    (hf : 6 * Vs.length < fuel) (hf' : 6 * Vs'.length < fuel') {hull hull' : List (R3.Vector F64)} {ts hs ts' hs' : List ℤ}
    (h : Triangulate srt hashSize fuel Vs = .ok (.triangulation hull ts hs))
    (h' : Triangulate srt' hashSize' fuel' Vs' = .ok (.triangulation hull' ts' hs')) (hS : SortsCall srt Vs) (hS' : SortsCall srt' Vs') :
    (hull.map exactV).IsRotated (hull'.map exactV) ∧ (NoFourOnEmptyCircle (· ∈ Vs.map exactV) →
      ts.length = ts'.length ∧ ∀ a b c, HasTriangle (Vs.map exactV) ts a b c ↔ HasTriangle (Vs'.map exactV) ts' a b c) := by
  refine ⟨?_, fun gen => result_iff (dyadic_result he srt hsrt hashSize fuel Vs hg hn hash hf h hS)
    (dyadic_result he' srt' hsrt' hashSize' fuel' Vs' hg' hn' hash' hf' h' hS') hsame gen⟩
  obtain ⟨b1, _⟩ := C104_dyadic_hull he srt hsrt hashSize fuel Vs hg hn hash.1 hash.2 hf h hS
  obtain ⟨b2, _⟩ := C104_dyadic_hull he' srt' hsrt' hashSize' fuel' Vs' hg' hn' hash'.1 hash'.2 hf' h' hS'
  exact C73_unique (dyadic_not_collinear he srt hashSize fuel Vs hg hn h) (separated_distinct (dyadic_separated he hg)) b1 (boundary_congr (fun p => (hsame p).symm) b2)

/-- C101: in float64, two calls whose points are integers of size at most 512 times a power of two and are images of each other under a turn with scaling
and translation, or one with a reflection -/
theorem C101_float_dyadic {a b : ℚ} (hab : a ≠ 0 ∨ b ≠ 0) (t1 t2 : ℚ) {e e' : ℤ} (he : -26 ≤ e ∧ e ≤ 80) (he' : -26 ≤ e' ∧ e' ≤ 80)
    (srt srt' : R3.Vector F64 → List ℤ → List ℤ) (hsrt : ∀ c l, (srt c l).Perm l) (hsrt' : ∀ c l, (srt' c l).Perm l)
    (hashSize hashSize' : ℕ → ℕ) (fuel fuel' : ℕ) (Vs Vs' : List (R3.Vector F64)) (hg : MidDyadic e Vs) (hg' : MidDyadic e' Vs')
    (hn : 2 ≤ Vs.length) (hn' : 2 ≤ Vs'.length)
    (hash : 0 < hashSize Vs.length ∧ hashSize Vs.length < 2 ^ 53) (hash' : 0 < hashSize' Vs'.length ∧ hashSize' Vs'.length < 2 ^ 53)
    (hf : 6 * Vs.length < fuel) (hf' : 6 * Vs'.length < fuel') {hull hull' : List (R3.Vector F64)} {ts hs ts' hs' : List ℤ}
    (h : Triangulate srt hashSize fuel Vs = .ok (.triangulation hull ts hs))
    (h' : Triangulate srt' hashSize' fuel' Vs' = .ok (.triangulation hull' ts' hs')) (hS : SortsCall srt Vs) (hS' : SortsCall srt' Vs') :
    ((∀ p, p ∈ Vs'.map exactV ↔ ∃ q ∈ Vs.map exactV, turn a b t1 t2 q = p) →
      ((hull.map exactV).map (turn a b t1 t2)).IsRotated (hull'.map exactV) ∧ (NoFourOnEmptyCircle (· ∈ Vs.map exactV) → ts.length = ts'.length ∧
        ∀ p q r, HasTriangle (Vs.map exactV) ts p q r ↔ HasTriangle (Vs'.map exactV) ts' (turn a b t1 t2 p) (turn a b t1 t2 q) (turn a b t1 t2 r))) ∧
    ((∀ p, p ∈ Vs'.map exactV ↔ ∃ q ∈ Vs.map exactV, turn a b t1 t2 (mirror q) = p) →
      ((hull.map exactV).map fun v => turn a b t1 t2 (mirror v)).reverse.IsRotated (hull'.map exactV) ∧
      (NoFourOnEmptyCircle (· ∈ Vs.map exactV) → ts.length = ts'.length ∧ ∀ p q r, HasTriangle (Vs.map exactV) ts p q r ↔
        HasTriangle (Vs'.map exactV) ts' (turn a b t1 t2 (mirror p)) (turn a b t1 t2 (mirror r)) (turn a b t1 t2 (mirror q)))) := by
  have A := turn_alike hab t1 t2
  have B := mirror_alike (K := ℚ)
  have r1 := dyadic_result he srt hsrt hashSize fuel Vs hg hn hash hf h hS
  have r2 := dyadic_result he' srt' hsrt' hashSize' fuel' Vs' hg' hn' hash' hf' h' hS'
  obtain ⟨b1, _⟩ := C104_dyadic_hull he srt hsrt hashSize fuel Vs hg hn hash.1 hash.2 hf h hS
  obtain ⟨b2, _⟩ := C104_dyadic_hull he' srt' hsrt' hashSize' fuel' Vs' hg' hn' hash'.1 hash'.2 hf' h' hS'
  have c2 := dyadic_not_collinear he' srt' hashSize' fuel' Vs' hg' hn' h'
  have sep := separated_distinct (dyadic_separated he' hg')
  refine ⟨fun hsame => ⟨?_, fun gen => ?_⟩, fun hsame => ?_⟩
  · exact C73_unique c2 sep (boundary_congr (mem_image hsame) (boundary_map A A.pos b1)) b2
  · obtain ⟨l, i⟩ := result_iff (result_map A A.pos r1) r2 (mem_image hsame) (noFour_map A gen)
    exact ⟨l, fun p q r => (has_map A.inj).trans (i _ _ _)⟩
  · have m : ∀ p, p ∈ ((Vs.map exactV).map mirror).map (turn a b t1 t2) ↔ p ∈ Vs'.map exactV := by
      intro p; rw [List.map_map (f := mirror)]; exact mem_image (f := fun v => turn a b t1 t2 (mirror v)) hsame p
    refine ⟨?_, fun gen => ?_⟩
    · have := C73_unique c2 sep (boundary_congr m (boundary_map A A.pos (boundary_mirror b1))) b2
      rwa [List.map_reverse, List.map_map (f := mirror)] at this
    · obtain ⟨l, i⟩ := result_iff (result_map A A.pos (result_mirror r1)) r2 m (noFour_map A (noFour_map B gen))
      rw [(mirrorTs_perm ts).length_eq] at l
      exact ⟨l, fun p q r => (has_mirror.trans (has_map A.inj)).trans (i _ _ _)⟩

/-- C98: `Triangulate` as it is, on integers of size at most 512 times a power of two -/
theorem C98_dyadic {e : ℤ} (he : -26 ≤ e ∧ e ≤ 80) (srt : R3.Vector F64 → List ℤ → List ℤ) (hsrt : ∀ c l, (srt c l).Perm l) (fuel : ℕ) (Vs : List (R3.Vector F64))
    (hs' : SortsCall srt Vs) (hg : MidDyadic e Vs) (hn : 2 ≤ Vs.length) (hn' : Vs.length < 2 ^ 63) (hf : 6 * Vs.length < fuel) :
    (¬ NotCollinear (Vs.map exactV) ∧ Triangulate64 srt fuel Vs = .ok .noTriangulation) ∨
    (NotCollinear (Vs.map exactV) ∧ ∃ hull ts hs, Triangulate64 srt fuel Vs = .ok (.triangulation hull ts hs) ∧
      Consistent (Vs.map exactV) (hull.map exactV) ts hs ∧ Delaunay (Vs.map exactV) ts ∧ (∀ p ∈ Vs, IsVertex (Vs.map exactV) ts (exactV p)) ∧
      BoundaryPolygon (Vs.map exactV) (hull.map exactV)) := by
  obtain ⟨a, b⟩ := hash_ok hn hn'
  rcases C104_dyadic_outcome he srt hsrt hashSize64 fuel Vs hg hn a b hf with h | ⟨h, hull, ts, hs, e1⟩
  · exact Or.inl h
  · obtain ⟨c1, _, c2⟩ := C104_dyadic_delaunay he srt hsrt hashSize64 fuel Vs hg hn a b hf e1
    exact Or.inr ⟨h, hull, ts, hs, e1, c1, c2, C104_dyadic_cover he srt hsrt hashSize64 fuel Vs hg hn a b hf e1 hs',
      (C104_dyadic_hull he srt hsrt hashSize64 fuel Vs hg hn a b hf e1 hs').1⟩

/-- C102: in float64, on integers of size at most 512 times a power of two: every triangulation takes the steps of `Steps` -/
theorem C102_dyadic {e : ℤ} (he : -26 ≤ e ∧ e ≤ 80) (srt : R3.Vector F64 → List ℤ → List ℤ) (hsrt : ∀ c l, (srt c l).Perm l) (hashSize : ℕ → ℕ) (fuel : ℕ)
    (Vs : List (R3.Vector F64)) (hg : MidDyadic e Vs) (hn : 2 ≤ Vs.length) (hf : 6 * Vs.length < fuel)
    {hull : List (R3.Vector F64)} {ts hs : List ℤ} (hr : Triangulate srt hashSize fuel Vs = .ok (.triangulation hull ts hs)) :
    ∃ c, Takes (fun w => TriangulateCt w srt hashSize fuel Vs) (.triangulation hull ts hs) c ∧ Steps Vs.length (hashSize Vs.length) (ts.length / 3) c := by
  obtain ⟨i0, i1, i2, o, hS, _⟩ := dyadic_seed he srt hashSize fuel Vs hg hn hr
  exact C102_float srt hsrt hashSize fuel Vs hf hS.seeds hS.safe hr

/-! ## The hypotheses hold -/

/-- the points of `midPts10`, and the same points after a quarter turn and in units of `2^-9`: both are in the range, and the second are images of the first -/
def midPts9 : List (R3.Vector F64) :=
  [⟨flt 512 (-9), flt (-512) (-9), 0⟩, ⟨flt 512 (-9), flt 512 (-9), 0⟩, ⟨flt (-512) (-9), flt 512 (-9), 0⟩, ⟨flt (-512) (-9), flt (-512) (-9), 0⟩,
    ⟨flt 512 (-9), 0, 0⟩, ⟨flt (-3) (-9), flt 5 (-9), 0⟩, ⟨flt 509 (-9), flt 511 (-9), 0⟩]

theorem midPts9_dyadic : MidDyadic (-9) midPts9 := by
  have w : ∀ n m : ℤ, n ∈ ([-512, 512, 0, 5, -3, 511, 509] : List ℤ) → m ∈ ([-512, 512, 0, 5, -3, 511, 509] : List ℤ) →
      ∀ v : R3.Vector F64, v = ⟨flt n (-9), flt m (-9), 0⟩ →
      v.X.Finite ∧ v.Y.Finite ∧ (∃ n m : ℤ, |n| ≤ 512 ∧ |m| ≤ 512 ∧ v.X.toQ = n * 2 ^ (-9:ℤ) ∧ v.Y.toQ = m * 2 ^ (-9:ℤ)) ∧ v.Z = 0 := by
    rintro n m hn hm v rfl
    have key : ∀ k ∈ ([-512, 512, 0, 5, -3, 511, 509] : List ℤ), (flt k (-9)).Finite ∧ |k| ≤ 512 ∧ (flt k (-9)).toQ = k * 2 ^ (-9:ℤ) := by decide +kernel
    obtain ⟨f1, l1, e1⟩ := key n hn
    obtain ⟨f2, l2, e2⟩ := key m hm
    exact ⟨f1, f2, ⟨n, m, l1, l2, e1, e2⟩, rfl⟩
  intro v hv
  simp only [midPts9, List.mem_cons, List.not_mem_nil, or_false] at hv
  rcases hv with h | h | h | h | h | h | h
  · exact w 512 (-512) (by simp) (by simp) v h
  · exact w 512 512 (by simp) (by simp) v h
  · exact w (-512) 512 (by simp) (by simp) v h
  · exact w (-512) (-512) (by simp) (by simp) v h
  · exact w 512 0 (by simp) (by simp) v (h.trans (by decide +kernel))
  · exact w (-3) 5 (by simp) (by simp) v h
  · exact w 509 511 (by simp) (by simp) v h

example : MidDyadic (-10) midPts10 ∧ MidDyadic (-9) midPts9 ∧ midPts9.map exactV = (midPts10.map exactV).map (turn 0 2 0 0) :=
  ⟨midPts10_dyadic, midPts9_dyadic, by decide +kernel⟩

end Verif.Props
