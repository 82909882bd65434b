import Verif.Proofs.Margin
import Verif.Props.DelaunayUnique
/-!
# C77, C78: the triangulator at binary64 when its sign tests are right
-/
namespace Verif.Props
open Verif Verif.Tri2 Verif.Proofs Verif.F64 Verif.Spec

/-! ## C77: right sign tests -/

section
variable (srt : R3.Vector F64 → List ℤ → List ℤ) (hsrt : ∀ c l, (srt c l).Perm l) (hashSize : ℕ → ℕ) (fuel : ℕ) (Vs : List (R3.Vector F64))
  (hfin : FinitePlanar Vs) (hg : SignsRight Vs) {i0 i1 i2 : ℕ} {o : R3.Vector F64} (hS : SeedRight Vs i0 i1 i2 o)
  (hash : 0 < hashSize Vs.length) (hash' : hashSize Vs.length < 2 ^ 53) (hf : 6 * Vs.length < fuel)
include hsrt hfin hg hS hash hash' hf

/-- C77: if the sign tests are right and the seed circle is empty, a float64 call returns a triangulation -/
theorem C77_outcome : ∃ hull ts hs, Triangulate srt hashSize fuel Vs = .ok (.triangulation hull ts hs) := by
  obtain ⟨hull, ts, hs, e, _⟩ := sign_run srt hsrt hashSize hfin hg hS hash hash' hf
  exact ⟨hull, ts, hs, e⟩

variable {hull : List (R3.Vector F64)} {ts hs : List ℤ} (h : Triangulate srt hashSize fuel Vs = .ok (.triangulation hull ts hs))
include h

theorem sign_final : Consistent (Vs.map exactV) (hull.map exactV) ts hs ∧
    Final (Vs.map exactV) (hull.map exactV) ts hs (SortsCall srt Vs ∧ OrderFine Vs i0 i1 i2 o) (fun a b => (signGeo (hashSize Vs.length) o).near a b = true) := by
  obtain ⟨hull', ts', hs', e, h1, h2⟩ := sign_run srt hsrt hashSize hfin hg hS hash hash' hf
  rw [h] at e
  simp only [Res.ok.injEq, TriOut.triangulation.injEq] at e
  obtain ⟨rfl, rfl, rfl⟩ := e
  exact ⟨h1, h2⟩

/-- C77: the tables are consistent -/
theorem C77_consistent : Consistent (Vs.map exactV) (hull.map exactV) ts hs :=
  (sign_final srt hsrt hashSize fuel Vs hfin hg hS hash hash' hf h).1

/-- C77: no vertex is outside the hull -/
theorem C77_convex : ∀ v, IsVertex (Vs.map exactV) ts v → Inside (hull.map exactV) v :=
  (sign_final srt hsrt hashSize fuel Vs hfin hg hS hash hash' hf h).2.convex

/-- C77: two vertices of the triangulation are at different positions -/
theorem C77_distinct : ∀ i j : ℕ, (i:ℤ) ∈ ts → (j:ℤ) ∈ ts → i ≠ j → ∀ a b, Vs[i]? = some a → Vs[j]? = some b →
    a.X.toQ ≠ b.X.toQ ∨ a.Y.toQ ≠ b.Y.toQ := by
  intro i j hi hj hij a b ha hb
  exact (sign_final srt hsrt hashSize fuel Vs hfin hg hS hash hash' hf h).2.distinct i j hi hj hij (exactV a) (exactV b)
    (by rw [List.getElem?_map, ha]; rfl) (by rw [List.getElem?_map, hb]; rfl)

/-- C77: the result is a Delaunay triangulation, exactly -/
theorem C77_delaunay : Delaunay (Vs.map exactV) ts :=
  (sign_final srt hsrt hashSize fuel Vs hfin hg hS hash hash' hf h).2.delaunay

/-- C77: the triangles cover the hull -/
theorem C77_fills (x : R3.Vector ℚ) (hx : Inside (hull.map exactV) x) : ∃ k a b c, Corners (Vs.map exactV) ts k a b c ∧ InTri a b c x :=
  (sign_final srt hsrt hashSize fuel Vs hfin hg hS hash hash' hf h).2.fills x hx

/-- C77: the triangles do not overlap -/
theorem C77_disjoint (x : R3.Vector ℚ) {j k : ℕ} {a b c a' b' c' : R3.Vector ℚ} (hj : Corners (Vs.map exactV) ts j a b c)
    (hk : Corners (Vs.map exactV) ts k a' b' c') (sj : orient a b x < 0 ∧ orient b c x < 0 ∧ orient c a x < 0)
    (sk : orient a' b' x < 0 ∧ orient b' c' x < 0 ∧ orient c' a' x < 0) : j = k :=
  (sign_final srt hsrt hashSize fuel Vs hfin hg hS hash hash' hf h).2.disjoint x hj hk sj sk

/-- C77: if `sort.Sort` sorts and no point comes after other points that have it between them, every point is at the position of a vertex or is one
the program counts as a duplicate of a vertex -/
theorem C77_cover_fine (hs' : SortsCall srt Vs) (hO : OrderFine Vs i0 i1 i2 o) : ∀ p ∈ Vs, ∃ (i : ℕ) (v : R3.Vector F64), (i:ℤ) ∈ ts ∧ Vs[i]? = some v ∧
    (exactV p = exactV v ∨ R3.SquaredDistance p v < eps) := by
  intro p hp
  obtain ⟨v, ⟨i, hi, hv⟩, e⟩ := (sign_final srt hsrt hashSize fuel Vs hfin hg hS hash hash' hf h).2.cover ⟨hs', hO⟩ (exactV p) (List.mem_map_of_mem hp)
  rw [List.getElem?_map] at hv
  obtain ⟨w, hw, rfl⟩ := Option.map_eq_some_iff.mp hv
  refine ⟨i, w, hi, hw, e.imp id fun e => ?_⟩
  rw [← (sign_agree hfin (hashSize Vs.length) o).near p hp w (List.mem_of_getElem? hw)] at e
  simpa [Geo.ofScalar] using e

/-- C77: if `sort.Sort` sorts and the computed distances from the centre are in the right order, every point is at the position of a vertex or is
one the program counts as a duplicate of a vertex -/
theorem C77_cover (hs' : SortsCall srt Vs) (hO : OrderRight Vs i0 i1 i2 o) : ∀ p ∈ Vs, ∃ (i : ℕ) (v : R3.Vector F64), (i:ℤ) ∈ ts ∧ Vs[i]? = some v ∧
    (exactV p = exactV v ∨ R3.SquaredDistance p v < eps) :=
  C77_cover_fine srt hsrt hashSize fuel Vs hfin hg hS hash hash' hf h hs' (hO.fine hS)

/-- C77: if no two points count as duplicates either, the vertices are exactly the input points and there are `2 n - 2 - h` triangles, and the hull is the
boundary polygon of the points -/
theorem C77_all_fine (hs' : SortsCall srt Vs) (hO : OrderFine Vs i0 i1 i2 o) (hd : (Vs.map exactV).Nodup)
    (hnear : ∀ p ∈ Vs, ∀ q ∈ Vs, R3.SquaredDistance p q < eps → exactV p = exactV q) :
    (∀ i : ℕ, i < Vs.length ↔ (i:ℤ) ∈ ts) ∧ ts.length = 3 * (2 * Vs.length - 2 - hull.length) ∧ (∀ p ∈ Vs, Inside (hull.map exactV) (exactV p)) ∧
      BoundaryPolygon (Vs.map exactV) (hull.map exactV) := by
  obtain ⟨h1, h2⟩ := sign_final srt hsrt hashSize fuel Vs hfin hg hS hash hash' hf h
  have hnear' : ∀ p ∈ Vs.map exactV, ∀ q ∈ Vs.map exactV, (signGeo (hashSize Vs.length) o).near p q = true → p = q := by
    intro p hp q hq e
    obtain ⟨p, hp', rfl⟩ := List.mem_map.mp hp
    obtain ⟨q, hq', rfl⟩ := List.mem_map.mp hq
    rw [← (sign_agree hfin (hashSize Vs.length) o).near p hp' q hq'] at e
    exact hnear p hp' q hq' (by simpa [Geo.ofScalar] using e)
  have := all_inserted h1 h2.convex (h2.cover ⟨hs', hO⟩) (by
    intro i j a b hij ha hb
    have hne : a ≠ b := by
      rintro rfl
      obtain ⟨hi, ei⟩ := List.getElem?_eq_some_iff.mp ha
      obtain ⟨hj, ej⟩ := List.getElem?_eq_some_iff.mp hb
      exact hij ((List.Nodup.getElem_inj_iff hd).mp (ei.trans ej.symm))
    exact ⟨hne, fun hlt => hne (hnear' a (List.mem_of_getElem? ha) b (List.mem_of_getElem? hb) hlt)⟩)
  simp only [List.length_map] at this
  exact ⟨this.1, this.2.1, fun p hp => this.2.2 _ (List.mem_map_of_mem hp), (h2.boundary ⟨hs', hO⟩ hnear' h1.three).1⟩

/-- C77: the same for the right order -/
theorem C77_all (hs' : SortsCall srt Vs) (hO : OrderRight Vs i0 i1 i2 o) (hd : (Vs.map exactV).Nodup)
    (hnear : ∀ p ∈ Vs, ∀ q ∈ Vs, R3.SquaredDistance p q < eps → exactV p = exactV q) :
    (∀ i : ℕ, i < Vs.length ↔ (i:ℤ) ∈ ts) ∧ ts.length = 3 * (2 * Vs.length - 2 - hull.length) ∧ (∀ p ∈ Vs, Inside (hull.map exactV) (exactV p)) ∧
      BoundaryPolygon (Vs.map exactV) (hull.map exactV) :=
  C77_all_fine srt hsrt hashSize fuel Vs hfin hg hS hash hash' hf h hs' (hO.fine hS) hd hnear

end

/-! ## C78: when the sign tests are right -/

/-- C78: the error of the computed area: at most `39 * 2^-53 * M^2` for coordinates up to `M` -/
theorem C78_area {M : ℚ} (h1 : 1 / 2 ^ 40 ≤ M) (h2 : M ≤ 2 ^ 40) {a b c : R3.Vector F64} (ha : Bounded M a) (hb : Bounded M b) (hc : Bounded M c) :
    (area a b c).Finite ∧ |(area a b c).toQ - area (exactV a) (exactV b) (exactV c)| ≤ 39 / 2 ^ 53 * M ^ 2 := by
  have h := area_app h1 h2 ha hb hc
  refine ⟨h.fin, h.err.trans (le_of_eq ?_)⟩
  unfold uro; ring

/-- C78: the error of the computed in-circle determinant: at most `2350 * 2^-53 * M^4` for coordinates up to `M` -/
theorem C78_inCircle {M : ℚ} (h1 : 1 / 2 ^ 40 ≤ M) (h2 : M ≤ 2 ^ 40) {a b c d : R3.Vector F64} (ha : Bounded M a) (hb : Bounded M b) (hc : Bounded M c) (hd : Bounded M d) :
    (inCircleDet a b c d).Finite ∧
      |(inCircleDet a b c d).toQ - inCircleDet (exactV a) (exactV b) (exactV c) (exactV d)| ≤ 2350 / 2 ^ 53 * M ^ 4 := by
  have h := det_app h1 h2 ha hb hc hd
  refine ⟨h.fin, h.err.trans (le_of_eq ?_)⟩
  unfold uro; ring

/-- C78: the sign tests are right for points well apart from degenerate positions -/
theorem C78_signs {Vs : List (R3.Vector F64)} {M : ℚ} (hfin : FinitePlanar Vs) (hM : Margin Vs M) : SignsRight Vs := hM.signs hfin

/-- C78: they then also find the seed circle empty if it is -/
theorem C78_seed {Vs : List (R3.Vector F64)} {M : ℚ} (hfin : FinitePlanar Vs) (hM : Margin Vs M) (hd : (Vs.map exactV).Nodup) {i0 i1 i2 : ℕ} {o : R3.Vector F64}
    (hs : seedsOf Vs = .ok (some (i0, i1, i2, o)))
    (hemp : ∀ p0 p1 p2, Vs[i0]? = some p0 → Vs[i1]? = some p1 → Vs[i2]? = some p2 → ∀ v ∈ Vs, 0 ≤ inCircleDet (exactV p0) (exactV p1) (exactV p2) (exactV v)) :
    EmptySeed Vs i0 i1 i2 := by
  obtain ⟨_, _, _, d01, d12, d20⟩ := seeds_call hs
  exact hM.emptySeed hfin hd d01 d12 d20 hemp

/-- C78: the sign tests are right, also for points on a line or a circle, if all coordinates are on a grid of width `2^e` with at most 2048 steps on each side of zero -/
theorem C78_dyadic {Vs : List (R3.Vector F64)} {e : ℤ} (h1 : -250 ≤ e) (h2 : e ≤ 200)
    (h : ∀ v ∈ Vs, v.X.Finite ∧ v.Y.Finite ∧ ∃ n m : ℤ, |n| ≤ 2048 ∧ |m| ≤ 2048 ∧ v.X.toQ = n * 2 ^ e ∧ v.Y.toQ = m * 2 ^ e) : SignsRight Vs :=
  dyadic_signs h1 h2 h

/-- five points on a grid of width 1/8, three of them on a line and four on a circle -/
example : SignsRight [⟨flt 8191 (-3) - flt 8000 (-3), 0, 0⟩, ⟨0, flt 191 (-3), 0⟩, ⟨0, 0, 0⟩, ⟨flt 191 (-3), flt 191 (-3), 0⟩, ⟨flt 5 (-3), flt 5 (-3), 0⟩] :=
  C78_dyadic (e := -3) (by norm_num) (by norm_num) (by
    intro v hv
    simp only [List.mem_cons, List.not_mem_nil, or_false] at hv
    rcases hv with rfl | rfl | rfl | rfl | rfl
    · exact ⟨by decide +kernel, by decide +kernel, 191, 0, by norm_num, by norm_num, by decide +kernel, by decide +kernel⟩
    · exact ⟨by decide +kernel, by decide +kernel, 0, 191, by norm_num, by norm_num, by decide +kernel, by decide +kernel⟩
    · exact ⟨by decide +kernel, by decide +kernel, 0, 0, by norm_num, by norm_num, by decide +kernel, by decide +kernel⟩
    · exact ⟨by decide +kernel, by decide +kernel, 191, 191, by norm_num, by norm_num, by decide +kernel, by decide +kernel⟩
    · exact ⟨by decide +kernel, by decide +kernel, 5, 5, by norm_num, by norm_num, by decide +kernel, by decide +kernel⟩)

theorem margin_general {Vs : List (R3.Vector F64)} {M : ℚ} (hM : Margin Vs M) : NoFourOnEmptyCircle (· ∈ Vs.map exactV) := by
  rintro o a b c d ha hb hc hd n1 n2 n3 n4 n5 n6 _ ⟨e1, e2, e3⟩
  obtain ⟨a, ha', rfl⟩ := List.mem_map.mp ha
  obtain ⟨b, hb', rfl⟩ := List.mem_map.mp hb
  obtain ⟨c, hc', rfl⟩ := List.mem_map.mp hc
  obtain ⟨d, hd', rfl⟩ := List.mem_map.mp hd
  have h := hM.circle a ha' b hb' c hc' d hd' n1 n2 n3 n4 n5 n6
  have hz : inCircleDet (exactV a) (exactV b) (exactV c) (exactV d) = 0 := by
    generalize exactV a = a at *
    generalize exactV b = b at *
    generalize exactV c = c at *
    generalize exactV d = d at *
    have e : inCircleDet a b c d = area a b c * (sqd o d - sqd o a) + area a d c * (sqd o a - sqd o b) + area a b d * (sqd o a - sqd o c) := by
      simp only [inCircleDet, area, sqd]; ring
    rw [e, e1.symm, e2.symm, e3.symm]; ring
  rw [hz, abs_zero] at h
  have : (0:ℚ) ≤ 2350 / 2 ^ 53 * M ^ 4 := by positivity
  linarith

/-- C78: the float64 call returns the triangles that exact arithmetic returns -/
theorem C78_same (srt : R3.Vector F64 → List ℤ → List ℤ) (hsrt : ∀ c l, (srt c l).Perm l) (hashSize : ℕ → ℕ) (fuel : ℕ) (Vs : List (R3.Vector F64))
    {M : ℚ} (hfin : FinitePlanar Vs) (hM : Margin Vs M) {i0 i1 i2 : ℕ} {o : R3.Vector F64} (hS : SeedRight Vs i0 i1 i2 o)
    (hash : 0 < hashSize Vs.length) (hash' : hashSize Vs.length < 2 ^ 53) (hf : 6 * Vs.length < fuel)
    (hs' : SortsCall srt Vs) (hO : OrderRight Vs i0 i1 i2 o) (hnear : ∀ p ∈ Vs, ∀ q ∈ Vs, R3.SquaredDistance p q < eps → exactV p = exactV q)
    {hull : List (R3.Vector F64)} {ts hs : List ℤ} (h : Triangulate srt hashSize fuel Vs = .ok (.triangulation hull ts hs))
    (srtQ : R3.Vector ℚ → List ℤ → List ℤ) (hsrtQ : ∀ c l, (srtQ c l).Perm l) (hsQ : Sorts srtQ (Vs.map exactV)) (hsep : Separated (Vs.map exactV))
    {hullQ : List (R3.Vector ℚ)} {tsQ hsQ' : List ℤ} (hQ : Triangulate srtQ hashSize fuel (Vs.map exactV) = .ok (.triangulation hullQ tsQ hsQ')) :
    ts.length = tsQ.length ∧ ∀ a b c, HasTriangle (Vs.map exactV) ts a b c ↔ HasTriangle (Vs.map exactV) tsQ a b c := by
  have hg := hM.signs hfin
  have R : DelaunayResult (Vs.map exactV) (hull.map exactV) ts :=
    ⟨C77_delaunay srt hsrt hashSize fuel Vs hfin hg hS hash hash' hf h, C77_convex srt hsrt hashSize fuel Vs hfin hg hS hash hash' hf h,
      C77_fills srt hsrt hashSize fuel Vs hfin hg hS hash hash' hf h, fun x => C77_disjoint srt hsrt hashSize fuel Vs hfin hg hS hash hash' hf h x, by
      intro p hp
      obtain ⟨p, hp', rfl⟩ := List.mem_map.mp hp
      obtain ⟨i, v, hi, hv, e⟩ := C77_cover srt hsrt hashSize fuel Vs hfin hg hS hash hash' hf h hs' hO p hp'
      have : exactV p = exactV v := e.elim id fun e => hnear p hp' v (List.mem_of_getElem? hv) e
      exact ⟨i, hi, by rw [List.getElem?_map, hv, this]; rfl⟩⟩
  have hn : 2 ≤ (Vs.map exactV).length := by
    obtain ⟨l0, l1, _, d, _⟩ := seeds_call hS.seeds
    rw [List.length_map]; omega
  exact result_iff R (exact_result srtQ hsrtQ hashSize fuel (Vs.map exactV) (finite_planar hfin) hn (by rw [List.length_map]; exact hash) (by rw [List.length_map]; exact hf) hQ hsQ hsep)
    (fun _ => Iff.rfl) (margin_general hM)

/-! ## The hypotheses hold for six points with coordinates that are not exact in binary -/

theorem sample_finite : FinitePlanar seedSample := by decide +kernel

theorem sample_margin : Margin seedSample 4 where
  low := by norm_num
  high := by norm_num
  size := by decide +kernel
  line := by decide +kernel
  circle := by decide +kernel

/-- the corners of the seed triangle of the sample -/
theorem sample_corner {P : R3.Vector F64 → R3.Vector F64 → R3.Vector F64 → Prop} (h : P (fpt seedSample 0) (fpt seedSample 2) (fpt seedSample 1)) :
    ∀ p0 p1 p2, seedSample[0]? = some p0 → seedSample[2]? = some p1 → seedSample[1]? = some p2 → P p0 p1 p2 := by
  intro p0 p1 p2 h0 h1 h2
  have e0 : fpt seedSample 0 = p0 := Option.some.inj h0
  have e1 : fpt seedSample 2 = p1 := Option.some.inj h1
  have e2 : fpt seedSample 1 = p2 := Option.some.inj h2
  rw [← e0, ← e1, ← e2]; exact h

theorem sample_empty : ∀ p0 p1 p2, seedSample[0]? = some p0 → seedSample[2]? = some p1 → seedSample[1]? = some p2 → ∀ v ∈ seedSample,
    0 ≤ inCircleDet (exactV p0) (exactV p1) (exactV p2) (exactV v) :=
  sample_corner (P := fun p0 p1 p2 => ∀ v ∈ seedSample, 0 ≤ inCircleDet (exactV p0) (exactV p1) (exactV p2) (exactV v)) (by decide +kernel)

theorem sample_seed : SeedRight seedSample 0 2 1 ⟨flt 848805500961571 (-50), flt 2170899058789603 (-52), 0⟩ where
  seeds := by decide +kernel
  pos := sample_corner (P := fun p0 p1 p2 => 0 < area (exactV p0) (exactV p1) (exactV p2)) (by decide +kernel)
  empty := sample_empty
  safe := C78_seed (o := ⟨flt 848805500961571 (-50), flt 2170899058789603 (-52), 0⟩) sample_finite sample_margin (by decide +kernel) (by decide +kernel) sample_empty
  finite := by decide +kernel
  size := by decide +kernel
  sizes := by decide +kernel
  other := by decide +kernel

theorem sample_order : OrderRight seedSample 0 2 1 ⟨flt 848805500961571 (-50), flt 2170899058789603 (-52), 0⟩ :=
  sample_corner (P := fun p0 p1 p2 => ∀ v ∈ seedSample, ∀ w ∈ seedSample,
    ¬ R3.SquaredDistance w ⟨flt 848805500961571 (-50), flt 2170899058789603 (-52), 0⟩ < R3.SquaredDistance v ⟨flt 848805500961571 (-50), flt 2170899058789603 (-52), 0⟩ →
    dist2 (exactV v) (circumcenter (exactV p0) (exactV p1) (exactV p2)) ≤ dist2 (exactV w) (circumcenter (exactV p0) (exactV p1) (exactV p2))) (by decide +kernel)

/-- the remaining hypotheses of `C77_all` and `C78_same` -/
example : (∀ p ∈ seedSample, ∀ q ∈ seedSample, R3.SquaredDistance p q < eps → exactV p = exactV q) ∧ (seedSample.map exactV).Nodup ∧
    Separated (seedSample.map exactV) :=
  ⟨by decide +kernel, by decide +kernel, by unfold Separated; decide +kernel⟩

/-- the conclusion of `C77_outcome` for any order of the ids -/
example (srt : R3.Vector F64 → List ℤ → List ℤ) (hsrt : ∀ c l, (srt c l).Perm l) : ∃ hull ts hs, Triangulate srt (fun _ => 3) 40 seedSample = .ok (.triangulation hull ts hs) :=
  C77_outcome srt hsrt (fun _ => 3) 40 seedSample sample_finite (C78_signs sample_finite sample_margin) sample_seed (by norm_num) (by norm_num) (by decide)

end Verif.Props
