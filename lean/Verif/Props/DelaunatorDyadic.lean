import Verif.Proofs.MidScale
import Verif.Props.DelaunatorMid
import Verif.Props.HullMargin
import Verif.Props.ValidateFloat
/-!
# C104, continued: coordinates that are integers of size at most 512 times a power of two

The unit `2^e` goes from `2^-26`, below which `SquaredDistance < eps` would take different points for one, to `2^80`. Scaling by a power of two is exact and keeps
the outcome of every test (C95), so the seed triangle and the order of the distances are right for the scaled points if they are for the integers.
-/
namespace Verif.Props
open Verif Verif.F64 Verif.Tri2 Verif.Proofs Verif.Spec

section
variable {e : ℤ} (he : -26 ≤ e ∧ e ≤ 80)

theorem dyadic_finite {Vs : List (R3.Vector F64)} (h : MidDyadic e Vs) : FinitePlanar Vs :=
  fun v hv => ⟨(h v hv).1, (h v hv).2.1, (h v hv).2.2.2⟩

include he in
theorem dyadic_near {Vs : List (R3.Vector F64)} (h : MidDyadic e Vs) : ∀ p ∈ Vs, ∀ q ∈ Vs, R3.SquaredDistance p q < eps → exactV p = exactV q :=
  fun p hp q hq => (mid_near he h p hp q hq).1.mp

theorem dyadic_grid3 {Vs : List (R3.Vector F64)} (h : MidDyadic e Vs) : ∀ v ∈ Vs, Grid3 (2 ^ 24) e v := by
  intro v hv
  obtain ⟨fx, fy, ⟨n, m, hn, hm, ex, ey⟩, ez⟩ := h v hv
  intro x hx
  simp only [List.mem_cons, List.not_mem_nil, or_false] at hx
  rcases hx with rfl | rfl | rfl
  · exact ⟨fx, n, hn.trans (by norm_num), ex⟩
  · exact ⟨fy, m, hm.trans (by norm_num), ey⟩
  · rw [ez]; exact ⟨by decide +kernel, 0, by norm_num, by rw [toQ_zero0]; simp⟩

include he in
theorem dyadic_separated {Vs : List (R3.Vector F64)} (h : MidDyadic e Vs) : Separated (Vs.map exactV) := by
  intro p hp q hq
  obtain ⟨v, hv, rfl⟩ := List.mem_map.mp hp
  obtain ⟨w, hw, rfl⟩ := List.mem_map.mp hq
  by_cases hs : exactV v = exactV w
  · exact Or.inl hs
  right
  obtain ⟨_, _, ⟨n, m, _, _, ex, ey⟩, ez⟩ := h v hv
  obtain ⟨_, _, ⟨n', m', _, _, ex', ey'⟩, ez'⟩ := h w hw
  have key : ¬ (v.X.toQ = w.X.toQ ∧ v.Y.toQ = w.Y.toQ) := fun hxy => hs (by unfold exactV; rw [hxy.1, hxy.2, ez, ez'])
  refine ⟨key, fun hnear => ?_⟩
  have hn : (v.X.toQ - w.X.toQ) ^ 2 + (v.Y.toQ - w.Y.toQ) ^ 2 + (v.Z.toQ - w.Z.toQ) ^ 2 < 1 / 2 ^ 52 := hnear
  rw [ez, ez', ex, ex', ey, ey'] at hn
  rw [ex, ex', ey, ey'] at key
  have hu : (0:ℚ) < 2 ^ e := by positivity
  have hle : (1:ℚ) / 2 ^ 52 ≤ (2 ^ e) ^ 2 := by
    rw [one_div, ← zpow_natCast, ← zpow_neg, ← zpow_natCast, ← zpow_mul]
    exact zpow_le_zpow_right₀ (by norm_num) (by push_cast; omega)
  have hi : (1:ℤ) ≤ (n - n') ^ 2 + (m - m') ^ 2 := by
    by_contra hlt
    have h1 : n - n' = 0 := by nlinarith [sq_nonneg (m - m'), sq_nonneg (n - n')]
    have h2 : m - m' = 0 := by nlinarith [sq_nonneg (m - m'), sq_nonneg (n - n')]
    exact key ⟨by rw [sub_eq_zero.mp h1], by rw [sub_eq_zero.mp h2]⟩
  have hq : (1:ℚ) ≤ ((n:ℚ) - n') ^ 2 + ((m:ℚ) - m') ^ 2 := by exact_mod_cast hi
  nlinarith [mul_le_mul_of_nonneg_left hq (sq_nonneg ((2:ℚ) ^ e))]

variable (srt : R3.Vector F64 → List ℤ → List ℤ) (hsrt : ∀ c l, (srt c l).Perm l) (hashSize : ℕ → ℕ) (fuel : ℕ) (Vs : List (R3.Vector F64))
  (hg : MidDyadic e Vs) (hn : 2 ≤ Vs.length) (hash : 0 < hashSize Vs.length) (hash' : hashSize Vs.length < 2 ^ 53) (hf : 6 * Vs.length < fuel)
include he hsrt hg hn hash hash' hf

/-- C104: with a unit `2^e`: an error exactly if the points are on one line, otherwise a triangulation; no panic -/
theorem C104_dyadic_outcome : (¬ NotCollinear (Vs.map exactV) ∧ Triangulate srt hashSize fuel Vs = .ok .noTriangulation) ∨
    (NotCollinear (Vs.map exactV) ∧ ∃ hull ts hs, Triangulate srt hashSize fuel Vs = .ok (.triangulation hull ts hs)) := by
  rcases mid_rightD he hg hn with ⟨h, e⟩ | ⟨h, i0, i1, i2, o, hS, _⟩
  · exact Or.inl ⟨(collinear_iff _).mp h, e _ _ _⟩
  · exact Or.inr ⟨not_not.mp fun hc => h ((collinear_iff _).mpr hc),
      C77_outcome srt hsrt hashSize fuel Vs (dyadic_finite hg) (mid_signsD he hg) hS hash hash' hf⟩

variable {hull : List (R3.Vector F64)} {ts hs : List ℤ} (h : Triangulate srt hashSize fuel Vs = .ok (.triangulation hull ts hs))
include h

omit hsrt hash hash' hf in
theorem dyadic_seed : ∃ i0 i1 i2 o, SeedRight Vs i0 i1 i2 o ∧ OrderFine Vs i0 i1 i2 o := by
  rcases mid_rightD he hg hn with ⟨_, e⟩ | ⟨_, h'⟩
  · rw [e] at h; cases h
  · exact h'

/-- C104: with a unit `2^e`: the tables are consistent, no vertex is outside the hull, and the result is a Delaunay triangulation -/
theorem C104_dyadic_delaunay : Consistent (Vs.map exactV) (hull.map exactV) ts hs ∧ (∀ v, IsVertex (Vs.map exactV) ts v → Spec.Inside (hull.map exactV) v) ∧
    Delaunay (Vs.map exactV) ts := by
  obtain ⟨i0, i1, i2, o, hS, hO⟩ := dyadic_seed he srt hashSize fuel Vs hg hn h
  exact ⟨C77_consistent srt hsrt hashSize fuel Vs (dyadic_finite hg) (mid_signsD he hg) hS hash hash' hf h,
    C77_convex srt hsrt hashSize fuel Vs (dyadic_finite hg) (mid_signsD he hg) hS hash hash' hf h,
    C77_delaunay srt hsrt hashSize fuel Vs (dyadic_finite hg) (mid_signsD he hg) hS hash hash' hf h⟩

/-- C104: with a unit `2^e`: the triangles cover the hull -/
theorem C104_dyadic_fills (x : R3.Vector ℚ) (hx : Spec.Inside (hull.map exactV) x) : ∃ k a b c, Corners (Vs.map exactV) ts k a b c ∧ InTri a b c x := by
  obtain ⟨i0, i1, i2, o, hS, hO⟩ := dyadic_seed he srt hashSize fuel Vs hg hn h
  exact C77_fills srt hsrt hashSize fuel Vs (dyadic_finite hg) (mid_signsD he hg) hS hash hash' hf h x hx

/-- C104: with a unit `2^e`: the triangles do not overlap -/
theorem C104_dyadic_disjoint (x : R3.Vector ℚ) {j k : ℕ} {a b c a' b' c' : R3.Vector ℚ} (hj : Corners (Vs.map exactV) ts j a b c)
    (hk : Corners (Vs.map exactV) ts k a' b' c') (sj : orient a b x < 0 ∧ orient b c x < 0 ∧ orient c a x < 0)
    (sk : orient a' b' x < 0 ∧ orient b' c' x < 0 ∧ orient c' a' x < 0) : j = k := by
  obtain ⟨i0, i1, i2, o, hS, hO⟩ := dyadic_seed he srt hashSize fuel Vs hg hn h
  exact C77_disjoint srt hsrt hashSize fuel Vs (dyadic_finite hg) (mid_signsD he hg) hS hash hash' hf h x hj hk sj sk

/-- C104: with a unit `2^e`: if `sort.Sort` sorts, every input point is at the position of a vertex of the triangulation -/
theorem C104_dyadic_cover (hs' : SortsCall srt Vs) : ∀ p ∈ Vs, IsVertex (Vs.map exactV) ts (exactV p) := by
  intro p hp
  obtain ⟨i0, i1, i2, o, hS, hO⟩ := dyadic_seed he srt hashSize fuel Vs hg hn h
  obtain ⟨i, v, hi, hv, e⟩ := C77_cover_fine srt hsrt hashSize fuel Vs (dyadic_finite hg) (mid_signsD he hg) hS hash hash' hf h hs' hO p hp
  have : exactV p = exactV v := e.elim id fun e => dyadic_near he hg p hp v (List.mem_of_getElem? hv) e
  exact ⟨i, hi, by rw [List.getElem?_map, hv, this]; rfl⟩

/-- C104: with a unit `2^e`: if the positions are distinct too, the vertices are exactly the input points and there are `2 n - 2 - h` triangles -/
theorem C104_dyadic_all (hs' : SortsCall srt Vs) (hd : (Vs.map exactV).Nodup) :
    (∀ i : ℕ, i < Vs.length ↔ (i:ℤ) ∈ ts) ∧ ts.length = 3 * (2 * Vs.length - 2 - hull.length) ∧ ∀ p ∈ Vs, Spec.Inside (hull.map exactV) (exactV p) := by
  obtain ⟨i0, i1, i2, o, hS, hO⟩ := dyadic_seed he srt hashSize fuel Vs hg hn h
  obtain ⟨h1, h2, h3, _⟩ :=
    C77_all_fine srt hsrt hashSize fuel Vs (dyadic_finite hg) (mid_signsD he hg) hS hash hash' hf h hs' hO hd (dyadic_near he hg)
  exact ⟨h1, h2, h3⟩

/-- C104: with a unit `2^e`: the hull of the triangulation is the boundary polygon of the points, and the polygon of `ConvexHull` up to the starting point -/
theorem C104_dyadic_hull (hs' : SortsCall srt Vs) : BoundaryPolygon (Vs.map exactV) (hull.map exactV) ∧
    ∀ hsort, SortsHullF hsort Vs → (hull.map exactV).IsRotated ((ConvexHull hsort Vs).map exactV) := by
  obtain ⟨i0, i1, i2, o, hS, hO⟩ := dyadic_seed he srt hashSize fuel Vs hg hn h
  obtain ⟨h1, h2⟩ := sign_final srt hsrt hashSize fuel Vs (dyadic_finite hg) (mid_signsD he hg) hS hash hash' hf h
  obtain ⟨hb, hN⟩ : BoundaryPolygon (Vs.map exactV) (hull.map exactV) ∧ NotCollinear (Vs.map exactV) := by
    refine h2.boundary ⟨hs', hO⟩ ?_ h1.three
    intro p hp q hq e'
    obtain ⟨p, hp', rfl⟩ := List.mem_map.mp hp
    obtain ⟨q, hq', rfl⟩ := List.mem_map.mp hq
    rw [← (sign_agree (dyadic_finite hg) (hashSize Vs.length) o).near p hp' q hq'] at e'
    exact dyadic_near he hg p hp' q hq' (by simpa [Geo.ofScalar] using e')
  refine ⟨hb, fun hsort hH => ?_⟩
  have hsep := dyadic_separated he hg
  obtain ⟨_, h3, _⟩ := C84_grid hsort Vs (e := e) (by omega) (by omega) hH (dyadic_grid3 hg) hsep
  exact C73_unique hN (separated_distinct hsep) hb (h3 hN)

/-- C104: with a unit `2^e`: `Validate`, computed in float64, accepts the triangulation if number and size of the coordinates are moderate; its tolerance of `1e-9`
is absolute -/
theorem C104_dyadic_validate (hs' : SortsCall srt Vs) {hsort : List (R3.Vector F64) → List (R3.Vector F64)} (hH : SortsHullF hsort Vs)
    (n1 : Vs.length ≤ 500000) (n2 : (Vs.length : ℚ) * (2 ^ (9 + e)) ^ 2 ≤ 29000) (n3 : (Vs.length : ℚ) * 2 ^ (9 + e) ≤ 35000) :
    Validate hsort Vs hull ts hs = .ok true := by
  obtain ⟨i0, i1, i2, o, hS, hO⟩ := dyadic_seed he srt hashSize fuel Vs hg hn h
  have hn1 : (1:ℚ) ≤ Vs.length := by
    have : 1 ≤ Vs.length := by omega
    exact_mod_cast this
  have hu : (0:ℚ) < 2 ^ (9 + e) := by positivity
  refine C86_validate_fine srt hsrt hashSize fuel Vs (dyadic_finite hg) (mid_signsD he hg) hS hash hash' hf h hs' hO
    (grid_hullAgrees (by omega) (by omega) (dyadic_grid3 hg)) (dyadic_separated he hg) hH (M := 2 ^ (9 + e)) ?_ ?_ ?_ n1 n2 n3
  · rw [one_div, ← zpow_natCast, ← zpow_neg]
    exact zpow_le_zpow_right₀ (by norm_num) (by push_cast; omega)
  · have : (2:ℚ) ^ (9 + e) ≤ Vs.length * 2 ^ (9 + e) := le_mul_of_one_le_left hu.le hn1
    refine (this.trans n3).trans (by norm_num)
  · intro v hv
    obtain ⟨fx, fy, ⟨n, m, hn, hm, ex, ey⟩, _⟩ := hg v hv
    have key : ∀ k : ℤ, |k| ≤ 512 → |(k:ℚ) * 2 ^ e| ≤ 2 ^ (9 + e) := by
      intro k hk
      have hk' : |(k:ℚ)| ≤ 512 := by exact_mod_cast hk
      rw [abs_mul, abs_of_pos (by positivity : (0:ℚ) < 2 ^ e), zpow_add₀ (by norm_num)]
      exact mul_le_mul_of_nonneg_right (hk'.trans (by norm_num)) (by positivity)
    exact ⟨fx, fy, by rw [ex]; exact key n hn, by rw [ey]; exact key m hm⟩

end

/-! ## The hypotheses hold -/

/-- the points of `midPts` in units of `2^-10` -/
def midPts10 : List (R3.Vector F64) :=
  [⟨flt (-512) (-10), flt (-512) (-10), 0⟩, ⟨flt 512 (-10), flt (-512) (-10), 0⟩, ⟨flt 512 (-10), flt 512 (-10), 0⟩, ⟨flt (-512) (-10), flt 512 (-10), 0⟩,
    ⟨0, flt (-512) (-10), 0⟩, ⟨flt 5 (-10), flt 3 (-10), 0⟩, ⟨flt 511 (-10), flt (-509) (-10), 0⟩]

theorem midPts10_dyadic : MidDyadic (-10) midPts10 := by
  have w : ∀ n m : ℤ, n ∈ ([-512, 512, 0, 5, 3, 511, -509] : List ℤ) → m ∈ ([-512, 512, 0, 5, 3, 511, -509] : List ℤ) →
      ∀ v : R3.Vector F64, v = ⟨flt n (-10), flt m (-10), 0⟩ →
      v.X.Finite ∧ v.Y.Finite ∧ (∃ n m : ℤ, |n| ≤ 512 ∧ |m| ≤ 512 ∧ v.X.toQ = n * 2 ^ (-10:ℤ) ∧ v.Y.toQ = m * 2 ^ (-10:ℤ)) ∧ v.Z = 0 := by
    rintro n m hn hm v rfl
    have key : ∀ k ∈ ([-512, 512, 0, 5, 3, 511, -509] : List ℤ), (flt k (-10)).Finite ∧ |k| ≤ 512 ∧ (flt k (-10)).toQ = k * 2 ^ (-10:ℤ) := by decide +kernel
    obtain ⟨f1, l1, e1⟩ := key n hn
    obtain ⟨f2, l2, e2⟩ := key m hm
    exact ⟨f1, f2, ⟨n, m, l1, l2, e1, e2⟩, rfl⟩
  intro v hv
  simp only [midPts10, List.mem_cons, List.not_mem_nil, or_false] at hv
  rcases hv with h | h | h | h | h | h | h
  · exact w (-512) (-512) (by simp) (by simp) v h
  · exact w 512 (-512) (by simp) (by simp) v h
  · exact w 512 512 (by simp) (by simp) v h
  · exact w (-512) 512 (by simp) (by simp) v h
  · exact w 0 (-512) (by simp) (by simp) v (h.trans (by decide +kernel))
  · exact w 5 3 (by simp) (by simp) v h
  · exact w 511 (-509) (by simp) (by simp) v h

theorem midPts10_data : CallData midPts10 5 6 4 ⟨flt 8937231624438557 (-55), flt (-2260084486516539) (-53), 0⟩ [4, 5, 6, 1, 0, 2, 3] := by
  constructor
  · decide +kernel
  · decide +kernel
  · decide +kernel
  · decide +kernel

example : MidDyadic (-10) midPts10 ∧ 2 ≤ midPts10.length ∧ (∃ srt, SortsCall srt midPts10) ∧ (midPts10.map exactV).Nodup ∧
    midPts10.length ≤ 500000 ∧ (midPts10.length : ℚ) * (2 ^ (9 + (-10:ℤ))) ^ 2 ≤ 29000 ∧ (midPts10.length : ℚ) * 2 ^ (9 + (-10:ℤ)) ≤ 35000 :=
  ⟨midPts10_dyadic, by decide, ⟨_, midPts10_data.sorts⟩, by decide +kernel, by decide, by decide +kernel, by decide +kernel⟩

/-- the run on these points gives seven triangles around a hull of five points -/
example : ∃ x, restOf 3 43 midPts10 5 6 4 ⟨flt 8937231624438557 (-55), flt (-2260084486516539) (-53), 0⟩ [4, 5, 6, 1, 0, 2, 3] = x ∧
    (match x with | .ok (.triangulation hull ts _) => decide (hull.length = 5 ∧ ts.length = 21) | _ => false) = true :=
  ⟨_, rfl, by decide +kernel⟩

end Verif.Props
