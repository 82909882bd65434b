import Verif.Proofs.ValidateFloat
import Verif.Props.DelaunatorSigns
import Verif.Props.DelaunatorGrid
/-!
# C86: `Validate` at binary64 (triangulation.go:36-73)
-/
namespace Verif.Props
open Verif Verif.Tri2 Verif.Proofs Verif.F64 Verif.Spec

/-- C86: the error of the computed area of a polygon with coordinates up to `M`, if the `X` coordinate changes by at most `W * M` along the polygon -/
theorem C86_area {M W : ℚ} (h1 : 1 / 2 ^ 40 ≤ M) (h2 : M ≤ 2 ^ 40) (w0 : 0 ≤ W) (w1 : W ≤ 2 ^ 20) {l : List (R3.Vector F64)} (hl : ∀ v ∈ l, Bounded M v)
    (hW : ((edges (l.map exactV)).map fun e => |e.1.X - e.2.X|).sum ≤ W * M) (hn : ((l.length : ℚ) + 1) * (16 + 2 * W) ≤ 2 ^ 26) :
    (polygonArea l).Finite ∧ |(polygonArea l).toQ - polygonArea (l.map exactV)| ≤ (l.length * (8 + W) + W + 1) / 2 ^ 53 * M ^ 2 := by
  have := polygonArea_app h1 h2 w0 w1 hl hW hn
  refine ⟨this.fin, this.err.trans (le_of_eq ?_)⟩
  unfold uro; ring

/-- C86: the same without a condition on the shape -/
theorem C86_area_any {M : ℚ} (h1 : 1 / 2 ^ 40 ≤ M) (h2 : M ≤ 2 ^ 40) {l : List (R3.Vector F64)} (hl : ∀ v ∈ l, Bounded M v) (hn : l.length ≤ 4000) :
    (polygonArea l).Finite ∧ |(polygonArea l).toQ - polygonArea (l.map exactV)| ≤ (2 * l.length ^ 2 + 10 * l.length + 1) / 2 ^ 53 * M ^ 2 := by
  have hM : 0 < M := lt_of_lt_of_le (by positivity) h1
  have hn' : (l.length : ℚ) ≤ 4000 := by exact_mod_cast hn
  have hL : (0:ℚ) ≤ l.length := by positivity
  have := C86_area (W := 2 * l.length) h1 h2 (by linarith) (by linarith) hl (by
    have h3 : ((edges (l.map exactV)).map fun e => |e.1.X - e.2.X|).sum ≤ ((edges (l.map exactV)).map fun e => |e.1.X - e.2.X|).length • (2 * M) := by
      apply List.sum_le_card_nsmul
      intro x hx
      obtain ⟨e, he, rfl⟩ := List.mem_map.mp hx
      rw [edges_map] at he
      obtain ⟨e, hE, rfl⟩ := List.mem_map.mp he
      have m1 := hl _ (List.of_mem_zip hE).1
      have m2 := hl _ (List.mem_rotate.mp (List.of_mem_zip hE).2)
      have := abs_sub e.1.X.toQ e.2.X.toQ
      show |e.1.X.toQ - e.2.X.toQ| ≤ 2 * M
      linarith [m1.2.2.1, m2.2.2.1]
    refine h3.trans (le_of_eq ?_)
    have hl : ((edges (l.map exactV)).map fun e => |e.1.X - e.2.X|).length = l.length := by simp [edges]
    rw [hl, nsmul_eq_mul]; ring) (by
    have h4 : ((l.length : ℚ) + 1) * (16 + 2 * (2 * l.length)) ≤ (4000 + 1) * (16 + 2 * (2 * 4000)) := mul_le_mul (by linarith) (by linarith) (by linarith) (by norm_num)
    refine h4.trans (by norm_num))
  refine ⟨this.1, this.2.trans (le_of_eq ?_)⟩
  ring

/-- C86: the error of the computed sum of the triangle areas, if no triangle is counter-clockwise -/
theorem C86_triangles {M B : ℚ} (h1 : 1 / 2 ^ 40 ≤ M) (h2 : M ≤ 2 ^ 40) {Vs : List (R3.Vector F64)} (hV : ∀ v ∈ Vs, Bounded M v) {ts : List ℤ} {m : ℕ} (h3 : ts.length = 3 * m)
    (hts : ∀ z ∈ ts, 0 ≤ z ∧ z < Vs.length) (hpos : ∀ i a b c, Corners (Vs.map exactV) ts i a b c → orient a b c ≤ 0) {A : ℚ} (hA : triArea (Vs.map exactV) ts = .ok A)
    (hB : 2 * A ≤ B * M ^ 2) (b1 : B ≤ 2 ^ 20) (hm : ((m : ℚ) + 1) * (40 + B) ≤ 2 ^ 26) :
    ∃ r, triArea Vs ts = .ok r ∧ r.Finite ∧ |r.toQ - A| ≤ (m * (20 + B / 2) + B / 2 + 1) / 2 ^ 53 * M ^ 2 := by
  have hM : 0 < M := lt_of_lt_of_le (by positivity) h1
  have hS := scale_pow (d := 2) h1 h2 (by norm_num)
  have hpos' : ∀ i a b c, Corners (Vs.map exactV) ts i a b c → 0 ≤ area a b c := by
    intro i a b c h
    have := hpos i a b c h
    rw [area_orient]; linarith
  have hsum := triSum_nonneg m ts h3 hts hpos'
  have hval : A = triSum (Vs.map exactV) ts / 2 := by
    have := triAreaLoop_spec (Vs.map exactV) m ts 0 h3 (by simpa using hts)
    unfold triArea at hA
    rw [this] at hA
    simp only [Res.bind_ok, zero_add] at hA
    injection hA with hA
    exact hA.symm
  have hB0 : 0 ≤ B := by
    by_contra hneg
    have : B * M ^ 2 < 0 := mul_neg_of_neg_of_pos (not_le.mp hneg) hS.pos
    linarith
  have hz : App 0 0 (M ^ 2) 0 B := ⟨trivial, by rw [Ex.zero.val]; simp, by rw [abs_zero]; exact mul_nonneg hB0 hS.pos.le⟩
  obtain ⟨r, e1, e2, _⟩ := triLoop_app h1 h2 hV hB0 b1 m ts 0 0 0 h3 hts hpos' hz (le_refl _) (by rw [hval] at hB; linarith) (by linarith)
  have hm0 : 0 ≤ (m : ℚ) * (40 + B) := mul_nonneg (by positivity) (by linarith)
  have hh := e2.half hS (by linarith) (by linarith) hB0 (by linarith)
  refine ⟨r / 2, by unfold triArea; rw [e1]; rfl, hh.fin, ?_⟩
  rw [zero_add, ← hval] at hh
  refine (hh.weaken hS (k' := m * (20 + B / 2) + B / 2 + 1) (by linarith) (le_refl _)).err.trans (le_of_eq ?_)
  unfold uro; ring

/-- C86: the error of the computed perimeter, relative to the exact one, if the vertices are pairwise at the same position or well apart -/
theorem C86_perimeter {l : List (R3.Vector F64)} (hf : ∀ v ∈ l, FinV v) (hs : ∀ a ∈ l, ∀ b ∈ l, sqDist a b = 0 ∨ 1 / 2 ^ 190 ≤ sqDist a b ∧ sqDist a b ≤ 2 ^ 190)
    (hn : l.length ≤ 2 ^ 40) : (polygonPerimeter l).Finite ∧
      |((polygonPerimeter l).toQ : ℝ) - polygonPerimeter (l.map exactR)| ≤ (2 * l.length + 5) / 2 ^ 53 * polygonPerimeter (l.map exactR) := by
  obtain ⟨f, e⟩ := perimeter_any hf hs hn
  refine ⟨f, e.trans (le_of_eq ?_)⟩
  unfold ur; ring

/-- a polygon around the given points: the bounds of its float64 area and perimeter -/
theorem boundary_sums {M : ℚ} (h1 : 1 / 2 ^ 40 ≤ M) (h2 : M ≤ 2 ^ 34) {Vs P : List (R3.Vector F64)} (hfin : FinitePlanar Vs) (hV : ∀ v ∈ Vs, Bounded M v)
    (hsep : Separated (Vs.map exactV)) (hC : NotCollinear (Vs.map exactV)) (hP : ∀ v ∈ P, v ∈ Vs) (hB : BoundaryPolygon (Vs.map exactV) (P.map exactV))
    (hn : P.length ≤ 500000) :
    (polygonArea P).Finite ∧ |(polygonArea P).toQ - polygonArea (P.map exactV)| ≤ (16 * P.length + 9) / 2 ^ 53 * M ^ 2 ∧ |polygonArea (P.map exactV)| ≤ 8 * M ^ 2 ∧
    (polygonPerimeter P).Finite ∧ |((polygonPerimeter P).toQ : ℝ) - polygonPerimeter (P.map exactR)| ≤ (16 * P.length + 40) / 2 ^ 53 * M := by
  have hM : 0 < M := lt_of_lt_of_le (by positivity) h1
  have hn' : (P.length : ℚ) ≤ 500000 := by exact_mod_cast hn
  have hlen := boundary_length hB hC hsep hM.le (by
    intro p hp
    obtain ⟨v, hv, rfl⟩ := List.mem_map.mp hp
    exact (hV v hv).2.2.1) (by
    intro p hp
    obtain ⟨v, hv, rfl⟩ := List.mem_map.mp hp
    exact (hV v hv).2.2.2)
  have hlenX : ((edges (P.map exactV)).map fun e => |e.1.X - e.2.X|).sum ≤ 8 * M := by
    refine le_trans ?_ hlen
    apply List.sum_le_sum
    intro e _
    exact le_add_of_nonneg_right (abs_nonneg _)
  have hA := polygonArea_app (W := 8) h1 (h2.trans (by norm_num)) (by norm_num) (by norm_num) (fun v hv => hV v (hP v hv)) hlenX (by linarith)
  have hFin : ∀ v ∈ P, FinV v := by
    intro v hv
    obtain ⟨x, y, z⟩ := hfin v (hP v hv)
    exact ⟨x, y, by rw [z]; trivial⟩
  obtain ⟨pf, pe⟩ := perimeter_any hFin (by
    intro a ha b hb
    have ma := List.mem_map_of_mem (f := exactV) (hP a ha)
    have mb := List.mem_map_of_mem (f := exactV) (hP b hb)
    have za : a.Z.toQ = 0 := by rw [(hfin a (hP a ha)).2.2]; exact Ex.zero.val
    have zb : b.Z.toQ = 0 := by rw [(hfin b (hP b hb)).2.2]; exact Ex.zero.val
    rcases hsep _ ma _ mb with e | ⟨_, e⟩
    · left
      have ex := congrArg R3.Vector.X e
      have ey := congrArg R3.Vector.Y e
      simp only [exactV] at ex ey
      unfold sqDist
      rw [ex, ey, za, zb]; ring
    · right
      unfold Near at e
      have e' : (1:ℚ) / 2 ^ 52 ≤ sqDist a b := not_lt.mp e
      refine ⟨le_trans (by norm_num) e', ?_⟩
      have bx := (hV a (hP a ha)).2.2.1
      have by' := (hV a (hP a ha)).2.2.2
      have cx := (hV b (hP b hb)).2.2.1
      have cy := (hV b (hP b hb)).2.2.2
      have dx : (a.X.toQ - b.X.toQ) ^ 2 ≤ (2 ^ 35) ^ 2 := by
        apply sq_le_sq' <;> linarith [abs_le.mp bx, abs_le.mp cx]
      have dy : (a.Y.toQ - b.Y.toQ) ^ 2 ≤ (2 ^ 35) ^ 2 := by
        apply sq_le_sq' <;> linarith [abs_le.mp by', abs_le.mp cy]
      unfold sqDist
      rw [za, zb]
      linarith) (by omega)
  have hz : ∀ p ∈ P.map exactV, p.Z = 0 := by
    intro p hp
    obtain ⟨v, hv, rfl⟩ := List.mem_map.mp hp
    show v.Z.toQ = 0
    rw [(hfin v (hP v hv)).2.2]; exact Ex.zero.val
  have hper : polygonPerimeter (P.map exactR) ≤ 8 * (M : ℝ) := by
    rw [exactR_eq]
    refine (castR_perimeter (P.map exactV) hz).trans ?_
    exact_mod_cast hlen
  refine ⟨hA.fin, hA.err.trans (le_of_eq ?_), hA.le, pf, pe.trans ?_⟩
  · unfold uro; ring
  · have h0 : (0:ℝ) ≤ (2 * P.length + 5) * ur := by unfold ur; positivity
    refine (mul_le_mul_of_nonneg_left hper h0).trans (le_of_eq ?_)
    unfold ur; ring

section
variable (srt : R3.Vector F64 → List ℤ → List ℤ) (hsrt : ∀ c l, (srt c l).Perm l) (hashSize : ℕ → ℕ) (fuel : ℕ) (Vs : List (R3.Vector F64))
  (hfin : FinitePlanar Vs) (hg : SignsRight Vs) {i0 i1 i2 : ℕ} {o : R3.Vector F64} (hS : SeedRight Vs i0 i1 i2 o)
  (hash : 0 < hashSize Vs.length) (hash' : hashSize Vs.length < 2 ^ 53) (hf : 6 * Vs.length < fuel)
  {hull : List (R3.Vector F64)} {ts hs : List ℤ} (h : Triangulate srt hashSize fuel Vs = .ok (.triangulation hull ts hs))
include hsrt hfin hg hS hash hash' hf h

/-- C86: `Validate`, computed in float64, accepts every triangulation computed in float64 with right sign tests and no point
after three others that have it between them, if also the comparisons of the hull computation are right, the points are pairwise apart, and number and size of the coordinates are moderate -/
theorem C86_validate_fine (hs' : SortsCall srt Vs) (hO : OrderFine Vs i0 i1 i2 o) (hA : HullAgrees Vs) (hsep : Separated (Vs.map exactV))
    {hsort : List (R3.Vector F64) → List (R3.Vector F64)} (hH : SortsHullF hsort Vs) {M : ℚ} (m1 : 1 / 2 ^ 40 ≤ M) (m2 : M ≤ 2 ^ 34) (hV : ∀ v ∈ Vs, Bounded M v)
    (n1 : Vs.length ≤ 500000) (n2 : Vs.length * M ^ 2 ≤ 29000) (n3 : Vs.length * M ≤ 35000) :
    Validate hsort Vs hull ts hs = .ok true := by
  obtain ⟨hcons, hF⟩ := sign_final srt hsrt hashSize fuel Vs hfin hg hS hash hash' hf h
  have hnear : ∀ p ∈ Vs.map exactV, ∀ q ∈ Vs.map exactV, (signGeo (hashSize Vs.length) o).near p q = true → p = q := by
    intro p hp q hq e
    obtain ⟨p, hp', rfl⟩ := List.mem_map.mp hp
    obtain ⟨q, hq', rfl⟩ := List.mem_map.mp hq
    rw [← (sign_agree hfin (hashSize Vs.length) o).near p hp' q hq'] at e
    have e1 : R3.SquaredDistance p q < eps := by simpa [Geo.ofScalar] using e
    have e2 := (hA.near p hp' q hq').mp e1
    rcases hsep _ hp _ hq with he | ⟨_, he⟩
    · exact he
    · refine absurd ?_ he
      have e3 : R3.SquaredDistance (exactV p) (exactV q) < 1 / 2 ^ 52 := e2
      refine lt_of_le_of_lt (le_of_eq ?_) e3
      simp only [R3.SquaredDistance, R3.Vector.Norm2, R3.Dot, R3.Sub]
      ring
  obtain ⟨hB, hC⟩ := hF.boundary ⟨hs', hO⟩ hnear hcons.three
  have B2 := (C84_signs hsort Vs hH hA hsep).2.1 hC
  have hrot := C73_unique hC (separated_distinct hsep) hB B2
  have hM : 0 < M := lt_of_lt_of_le (by positivity) m1
  have hbuf := hcons.buffer
  have hthree := hcons.three
  rw [List.length_map] at hbuf hthree
  -- the two polygons
  have g1 : (∀ v ∈ hull, v ∈ Vs) := by
    have hne : Vs ≠ [] := by
      rintro rfl
      apply hcons.nonempty
      simpa using hbuf
    obtain ⟨_, R, _, _, e⟩ := C25_hull_float (srt := srt) hsrt h hne
    intro v hv
    have : some v ∈ hull.map some := List.mem_map_of_mem hv
    rw [e] at this
    obtain ⟨x, _, ex⟩ := List.mem_map.mp this
    exact List.mem_of_getElem? ex
  have g2 : ∀ v ∈ ConvexHull hsort Vs, v ∈ Vs := C17_members_float hsort Vs hH.1
  have hlenE : hull.length = (ConvexHull hsort Vs).length := by
    have := hrot.perm.length_eq
    simpa using this
  have hlenV : hull.length ≤ Vs.length := by
    obtain ⟨R, hR, hRe, hRt⟩ := hcons.boundary
    have e : R.length = hull.length := by
      have := congrArg List.length hRe
      simpa using this.symm
    rw [← e]
    have hsub : R ⊆ List.range Vs.length := by
      intro x hx
      have := (hcons.table.range _ (hRt x hx)).2
      rw [List.length_map] at this
      exact List.mem_range.mpr (by exact_mod_cast this)
    have := (hR.subperm hsub).length_le
    simpa using this
  obtain ⟨f1, a1, a0, p1, q1⟩ := boundary_sums m1 m2 hfin hV hsep hC g1 hB (by omega)
  obtain ⟨f2, a2, _, p2, q2⟩ := boundary_sums m1 m2 hfin hV hsep hC g2 B2 (by omega)
  rw [← hlenE] at a2 q2
  rw [← rotated_area hrot] at a2
  -- triangles
  obtain ⟨m, hm⟩ := hcons.table.three
  have hrange : ∀ z ∈ ts, 0 ≤ z ∧ z < Vs.length := by
    intro z hz
    have := hcons.table.range z hz
    rwa [List.length_map] at this
  have hmn : (m : ℚ) + 5 ≤ 2 * Vs.length := by
    have hpos : ts.length ≠ 0 := fun e => hcons.nonempty (List.length_eq_zero_iff.mp e)
    have : m + 5 ≤ 2 * Vs.length := by omega
    exact_mod_cast this
  have n1' : (Vs.length : ℚ) ≤ 500000 := by exact_mod_cast n1
  have hn3 : (3:ℚ) ≤ Vs.length := by
    have : 3 ≤ Vs.length := hthree.trans hlenV
    exact_mod_cast this
  have hhl : (hull.length : ℚ) ≤ Vs.length := by exact_mod_cast hlenV
  obtain ⟨r3, e3, f3, a3⟩ := C86_triangles (B := 16) m1 (m2.trans (by norm_num)) hV hm hrange
    (fun i a b c hc => (hF.delaunay.clockwise i a b c hc).le) hcons.area (by have := le_of_abs_le a0; linarith) (by norm_num) (by linarith)
  -- half-edges
  have hr : TableRange hs := by
    intro z hz
    obtain ⟨k, hk, rfl⟩ := List.mem_iff_getElem.mp hz
    rcases hcons.twins k hk with h1 | ⟨j, _, h1, h2⟩
    · left; rw [List.getElem?_eq_getElem hk] at h1; injection h1
    · right
      rw [List.getElem?_eq_getElem hk] at h1; injection h1 with h1
      have := (List.getElem?_eq_some_iff.mp h2).1
      omega
  have hI : Involution hs := by
    intro i j hij
    rcases hcons.twins i (List.getElem?_eq_some_iff.mp hij).1 with h1 | ⟨k, _, h1, h2⟩
    · rw [h1] at hij; injection hij with hij; omega
    · rw [h1] at hij; injection hij with hij
      have : k = j := by exact_mod_cast hij
      exact this ▸ h2
  obtain ⟨b, hb, hiff⟩ := check_iff hr
  rw [hiff.mpr hI] at hb
  -- perimeters
  have hper : polygonPerimeter (hull.map exactR) = polygonPerimeter ((ConvexHull hsort Vs).map exactR) := by
    rw [exactR_eq, exactR_eq]
    exact rotated_perimeter (hrot.map castR)
  have hM2 : 0 < M ^ 2 := by positivity
  have hd : |(polygonPerimeter hull).toQ - (polygonPerimeter (ConvexHull hsort Vs)).toQ| ≤ 1 / 2 ^ 32 := by
    rw [← hper, abs_sub_comm] at q2
    have := abs_sub_le ((polygonPerimeter hull).toQ : ℝ) (polygonPerimeter (hull.map exactR)) ((polygonPerimeter (ConvexHull hsort Vs)).toQ : ℝ)
    have hb2 : (2 * ((16 * hull.length + 40) / 2 ^ 53 * M) : ℚ) ≤ 1 / 2 ^ 32 := by
      have h4 : (32 * (hull.length : ℚ) + 80) * M ≤ 59 * (Vs.length * M) := by
        rw [← mul_assoc]
        exact mul_le_mul_of_nonneg_right (by linarith) hM.le
      have h5 : (2 * ((16 * hull.length + 40) / 2 ^ 53 * M) : ℚ) = (32 * (hull.length : ℚ) + 80) * M / 2 ^ 53 := by ring
      rw [h5, div_le_div_iff₀ (by positivity) (by positivity)]
      have : (59 * 35000 * 2 ^ 32 : ℚ) ≤ 1 * 2 ^ 53 := by norm_num
      linarith
    have hb3 : (2 * ((16 * hull.length + 40) / 2 ^ 53 * (M : ℝ)) : ℝ) ≤ 1 / 2 ^ 32 := by
      have := (Rat.cast_le (K := ℝ)).mpr hb2
      push_cast at this
      exact this
    have h2 : |((polygonPerimeter hull).toQ : ℝ) - ((polygonPerimeter (ConvexHull hsort Vs)).toQ : ℝ)| ≤ 1 / 2 ^ 32 := by linarith
    rw [← Rat.cast_sub, ← Rat.cast_abs] at h2
    have h3 : ((1 / 2 ^ 32 : ℚ) : ℝ) = 1 / 2 ^ 32 := by push_cast; rfl
    rw [← h3] at h2
    exact Rat.cast_le.mp h2
  have hclose : ∀ {x y A s t : ℚ}, |x - A| ≤ s / 2 ^ 53 * M ^ 2 → |y - A| ≤ t / 2 ^ 53 * M ^ 2 → s + t ≤ 72 * Vs.length → |x - y| ≤ 1 / 2 ^ 32 := by
    intro x y A s t hx hy hst
    rw [abs_sub_comm] at hy
    have h3 := abs_sub_le x A y
    have h4 : (s + t) * M ^ 2 ≤ 72 * (Vs.length * M ^ 2) := by
      rw [← mul_assoc]
      exact mul_le_mul_of_nonneg_right hst hM2.le
    have h5 : s / 2 ^ 53 * M ^ 2 + t / 2 ^ 53 * M ^ 2 = (s + t) * M ^ 2 / 2 ^ 53 := by ring
    have h6 : (s + t) * M ^ 2 / 2 ^ 53 ≤ 1 / 2 ^ 32 := by
      rw [div_le_div_iff₀ (by positivity) (by positivity)]
      have : (72 * 29000 * 2 ^ 32 : ℚ) ≤ 1 * 2 ^ 53 := by norm_num
      linarith
    linarith
  unfold Validate
  rw [hb, Res.bind_ok]
  simp only [Bool.not_true, Bool.false_eq_true, if_false]
  rw [e3, Res.bind_ok]
  rw [if_neg, if_neg]
  · rfl
  · exact same_fin p1 p2 hd
  · rintro (hlt | hlt)
    · exact same_fin f1 f2 (hclose a1 a2 (by linarith)) hlt
    · exact same_fin f1 f3 (hclose a1 a3 (by linarith)) hlt

/-- C86: the same if the computed distances from the centre of the seed circle are in the right order -/
theorem C86_validate (hs' : SortsCall srt Vs) (hO : OrderRight Vs i0 i1 i2 o) (hA : HullAgrees Vs) (hsep : Separated (Vs.map exactV))
    {hsort : List (R3.Vector F64) → List (R3.Vector F64)} (hH : SortsHullF hsort Vs) {M : ℚ} (m1 : 1 / 2 ^ 40 ≤ M) (m2 : M ≤ 2 ^ 34) (hV : ∀ v ∈ Vs, Bounded M v)
    (n1 : Vs.length ≤ 500000) (n2 : Vs.length * M ^ 2 ≤ 29000) (n3 : Vs.length * M ≤ 35000) :
    Validate hsort Vs hull ts hs = .ok true :=
  C86_validate_fine srt hsrt hashSize fuel Vs hfin hg hS hash hash' hf h hs' (hO.fine hS) hA hsep hH m1 m2 hV n1 n2 n3

end

/-! ## The hypotheses hold -/

theorem sample_hull : HullMargin seedSample 4 := ⟨by norm_num, by norm_num, by decide +kernel, by decide +kernel, by decide +kernel⟩

/-- the sample has coordinates that are no dyadic fractions of few bits -/
example (srt : R3.Vector F64 → List ℤ → List ℤ) (hsrt : ∀ c l, (srt c l).Perm l) (hs' : SortsCall srt seedSample)
    (hsort : List (R3.Vector F64) → List (R3.Vector F64)) (hH : SortsHullF hsort seedSample) :
    ∃ hull ts hs, Triangulate srt (fun _ => 3) 40 seedSample = .ok (.triangulation hull ts hs) ∧ Validate hsort seedSample hull ts hs = .ok true := by
  have hg := C78_signs sample_finite sample_margin
  obtain ⟨hull, ts, hs, e⟩ := C77_outcome srt hsrt (fun _ => 3) 40 seedSample sample_finite hg sample_seed (by norm_num) (by norm_num) (by decide)
  exact ⟨hull, ts, hs, e, C86_validate srt hsrt (fun _ => 3) 40 seedSample sample_finite hg sample_seed (by norm_num) (by norm_num) (by decide) e hs' sample_order
    sample_hull.agrees sample_hull.separated hH (M := 4) (by norm_num) (by norm_num) (fun v hv => sample_margin.bounded sample_finite hv) (by decide)
    (by decide +kernel) (by decide +kernel)⟩

/-! ## Larger coordinates: a right triangulation that `Validate` rejects -/

/-- one triangle with coordinates of one decimal digit -/
def oneTriangle : List (R3.Vector F64) :=
  [⟨GoConst.const (-9682 / 10), GoConst.const (-11898 / 10), 0⟩, ⟨GoConst.const (-14193 / 10), GoConst.const (-12009 / 10), 0⟩, ⟨GoConst.const (15645 / 10), GoConst.const (-9582 / 10), 0⟩]

/-- the computed centre of its circle -/
def oneCentre : R3.Vector F64 := ⟨flt (-240117625097331) (-37), flt 2926351836821989 (-37), 0⟩

theorem one_finite : FinitePlanar oneTriangle := by decide +kernel

theorem one_margin : Margin oneTriangle 1565 where
  low := by norm_num
  high := by norm_num
  size := by decide +kernel
  line := by decide +kernel
  circle := by decide +kernel

theorem one_corner {P : R3.Vector F64 → R3.Vector F64 → R3.Vector F64 → Prop} (h : P (fpt oneTriangle 0) (fpt oneTriangle 1) (fpt oneTriangle 2)) :
    ∀ p0 p1 p2, oneTriangle[0]? = some p0 → oneTriangle[1]? = some p1 → oneTriangle[2]? = some p2 → P p0 p1 p2 := by
  intro p0 p1 p2 h0 h1 h2
  have e0 : fpt oneTriangle 0 = p0 := Option.some.inj h0
  have e1 : fpt oneTriangle 1 = p1 := Option.some.inj h1
  have e2 : fpt oneTriangle 2 = p2 := Option.some.inj h2
  rw [← e0, ← e1, ← e2]; exact h

theorem one_empty : ∀ p0 p1 p2, oneTriangle[0]? = some p0 → oneTriangle[1]? = some p1 → oneTriangle[2]? = some p2 → ∀ v ∈ oneTriangle,
    0 ≤ inCircleDet (exactV p0) (exactV p1) (exactV p2) (exactV v) :=
  one_corner (P := fun p0 p1 p2 => ∀ v ∈ oneTriangle, 0 ≤ inCircleDet (exactV p0) (exactV p1) (exactV p2) (exactV v)) (by decide +kernel)

theorem one_seed : SeedRight oneTriangle 0 1 2 oneCentre where
  seeds := by decide +kernel
  pos := one_corner (P := fun p0 p1 p2 => 0 < area (exactV p0) (exactV p1) (exactV p2)) (by decide +kernel)
  empty := one_empty
  safe := C78_seed (o := oneCentre) one_finite one_margin (by decide +kernel) (by decide +kernel) one_empty
  finite := by decide +kernel
  size := by decide +kernel
  sizes := by decide +kernel
  other := by decide +kernel

theorem one_order : OrderRight oneTriangle 0 1 2 oneCentre :=
  one_corner (P := fun p0 p1 p2 => ∀ v ∈ oneTriangle, ∀ w ∈ oneTriangle, ¬ R3.SquaredDistance w oneCentre < R3.SquaredDistance v oneCentre →
    dist2 (exactV v) (circumcenter (exactV p0) (exactV p1) (exactV p2)) ≤ dist2 (exactV w) (circumcenter (exactV p0) (exactV p1) (exactV p2))) (by decide +kernel)

theorem one_data : CallData oneTriangle 0 1 2 oneCentre [0, 1, 2] := by
  constructor
  · decide +kernel
  · decide +kernel
  · decide +kernel
  · decide +kernel

theorem one_hull : HullMargin oneTriangle 1565 := ⟨by norm_num, by norm_num, by decide +kernel, by decide +kernel, by decide +kernel⟩

theorem one_sorted {hsort : List (R3.Vector F64) → List (R3.Vector F64)} (h : SortsHullF hsort oneTriangle) :
    hsort oneTriangle = [fpt oneTriangle 1, fpt oneTriangle 0, fpt oneTriangle 2] := by
  have hp : [fpt oneTriangle 1, fpt oneTriangle 0, fpt oneTriangle 2].Perm oneTriangle := by decide +kernel
  refine List.Perm.eq_of_pairwise (le := fun a b => hullLess b a = false) ?_ h.2 (by decide +kernel) (h.1.trans hp.symm)
  intro a b ha hb
  have key : ∀ a ∈ oneTriangle, ∀ b ∈ oneTriangle, hullLess b a = false → hullLess a b = false → a = b := by decide +kernel
  exact key a (h.1.mem_iff.mp ha) b (hp.mem_iff.mp hb)

/-- **`Validate` rejects right results in float64**: the triangulation of one triangle with coordinates below 1600 is computed without any error, but the float64
areas of the triangle differ by more than the tolerance -/
theorem C86_large_refuted : ∃ Vs : List (R3.Vector F64), FinitePlanar Vs ∧ Vs.length = 3 ∧ (∀ v ∈ Vs, Bounded 1600 v) ∧
    ∀ srt, (∀ c l, (srt c l).Perm l) → SortsCall srt Vs → ∀ hashSize, hashSize Vs.length = 2 → ∀ hsort, SortsHullF hsort Vs →
    ∃ fuel hull ts hs, Triangulate srt hashSize fuel Vs = .ok (.triangulation hull ts hs) ∧ Consistent (Vs.map exactV) (hull.map exactV) ts hs ∧
      Delaunay (Vs.map exactV) ts ∧ (hull.map exactV).IsRotated ((ConvexHull hsort Vs).map exactV) ∧ Validate hsort Vs hull ts hs = .ok false := by
  refine ⟨oneTriangle, one_finite, rfl, ?_, ?_⟩
  · intro v hv
    obtain ⟨a, b, c, d⟩ := one_margin.bounded one_finite hv
    exact ⟨a, b, c.trans (by norm_num), d.trans (by norm_num)⟩
  intro srt hsrt hs' hashSize hh hsort hH
  have hg := C78_signs one_finite one_margin
  have h0 : 0 < hashSize oneTriangle.length := by rw [hh]; norm_num
  have h1 : hashSize oneTriangle.length < 2 ^ 53 := by rw [hh]; norm_num
  obtain ⟨hull, ts, hs, e⟩ := C77_outcome srt hsrt hashSize 100 oneTriangle one_finite hg one_seed h0 h1 (by decide)
  have hcons := C77_consistent srt hsrt hashSize 100 oneTriangle one_finite hg one_seed h0 h1 (by decide) e
  have hall := C77_all srt hsrt hashSize 100 oneTriangle one_finite hg one_seed h0 h1 (by decide) e hs' one_order (by decide +kernel) (by decide +kernel)
  have hC : NotCollinear (oneTriangle.map exactV) :=
    ⟨_, List.mem_map_of_mem (List.mem_cons_self), _, List.mem_map_of_mem (List.mem_cons_of_mem _ List.mem_cons_self),
      _, List.mem_map_of_mem (List.mem_cons_of_mem _ (List.mem_cons_of_mem _ List.mem_cons_self)), by decide +kernel⟩
  refine ⟨100, hull, ts, hs, e, hcons, C77_delaunay srt hsrt hashSize 100 oneTriangle one_finite hg one_seed h0 h1 (by decide) e,
    C73_unique hC (separated_distinct one_hull.separated) hall.2.2.2 ((C84_signs hsort oneTriangle hH one_hull.agrees one_hull.separated).2.1 hC), ?_⟩
  rw [one_data.run (by decide) hs', hh] at e
  have hrun : ∀ x, restOf 2 100 oneTriangle 0 1 2 oneCentre [0, 1, 2] = x →
      (match x with | .ok (.triangulation hull ts hs) => decide (Validate (fun _ => [fpt oneTriangle 1, fpt oneTriangle 0, fpt oneTriangle 2]) oneTriangle hull ts hs = .ok false) | _ => false) = true := by
    rintro x rfl
    decide +kernel
  have := hrun _ e
  simp only [decide_eq_true_eq] at this
  rw [← this]
  have hsame : ConvexHull hsort oneTriangle = ConvexHull (fun _ => [fpt oneTriangle 1, fpt oneTriangle 0, fpt oneTriangle 2]) oneTriangle := by
    unfold ConvexHull
    dsimp only
    rw [one_sorted hH]
  unfold Validate
  rw [hsame]

end Verif.Props
