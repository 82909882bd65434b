import Verif.Props.DelaunatorGrid
/-!
# The triangulation does not depend on the order of the input (triangulator.go)

If no four points lie on a circle that has no point inside, there is only one Delaunay triangulation, so the triangles `Triangulate` returns depend neither on the order of the
points nor on the sort, the hash size or repeated points.
-/
namespace Verif.Props
open Verif Verif.Tri2 Verif.Proofs Verif.Spec

variable {K : Type} [Field K] [LinearOrder K] [IsStrictOrderedRing K]

/-- no circle without points of `S` strictly inside passes through four different points of `S` -/
def NoFourOnEmptyCircle (S : R3.Vector K → Prop) : Prop := ∀ o a b c d : R3.Vector K, S a → S b → S c → S d → a ≠ b → a ≠ c → a ≠ d → b ≠ c → b ≠ d →
  c ≠ d → (∀ v, S v → sqd o a ≤ sqd o v) → ¬ (sqd o a = sqd o b ∧ sqd o a = sqd o c ∧ sqd o a = sqd o d)

/-- the triangle `a b c` is in the triangulation, with any of its corners first -/
def HasTriangle (Vs : List (R3.Vector K)) (ts : List ℤ) (a b c : R3.Vector K) : Prop :=
  ∃ k, Corners Vs ts k a b c ∨ Corners Vs ts k b c a ∨ Corners Vs ts k c a b

omit [Field K] [LinearOrder K] [IsStrictOrderedRing K] in
theorem corners_vertex {Vs : List (R3.Vector K)} {ts : List ℤ} {k : ℕ} {a b c : R3.Vector K} (h : Corners Vs ts k a b c) :
    IsVertex Vs ts a ∧ IsVertex Vs ts b ∧ IsVertex Vs ts c := by
  obtain ⟨i, j, l, h1, h2, h3, e1, e2, e3⟩ := h
  exact ⟨⟨i, List.mem_of_getElem? h1, e1⟩, ⟨j, List.mem_of_getElem? h2, e2⟩, ⟨l, List.mem_of_getElem? h3, e3⟩⟩

/-- the middle of a triangle -/
def middle (a b c : R3.Vector K) : R3.Vector K := ⟨(a.X + b.X + c.X) / 3, (a.Y + b.Y + c.Y) / 3, 0⟩

theorem inside_middle {hull : List (R3.Vector K)} {a b c : R3.Vector K} (ha : Inside hull a) (hb : Inside hull b) (hc : Inside hull c) :
    Inside hull (middle a b c) := by
  intro p q h
  have h1 := ha p q h
  have h2 := hb p q h
  have h3 := hc p q h
  have e : orient p q (middle a b c) = (orient p q a + orient p q b + orient p q c) / 3 := by
    unfold orient middle; ring
  rw [e]
  positivity

theorem weights {x y z u v w s : K} (hx : x ≤ 0) (hy : y ≤ 0) (hz : z ≤ 0) (hu : 0 ≤ u) (hv : 0 ≤ v) (hw : 0 ≤ w) {t : K} (ht : t < 0) (e : t * s = x * u + y * v + z * w) :
    0 ≤ s := by
  have h1 := mul_nonneg (neg_nonneg.mpr hx) hu
  have h2 := mul_nonneg (neg_nonneg.mpr hy) hv
  have h3 := mul_nonneg (neg_nonneg.mpr hz) hw
  by_contra hs
  have := mul_pos_of_neg_of_neg ht (not_le.mp hs)
  linarith

omit [LinearOrder K] [IsStrictOrderedRing K] in
/-- the difference of the powers with respect to two circles is affine -/
theorem power_affine (a b c o o' r r' x : R3.Vector K) : orient a b c * ((sqd o x - sqd o r) - (sqd o' x - sqd o' r')) =
    orient b c x * ((sqd o a - sqd o r) - (sqd o' a - sqd o' r')) + orient c a x * ((sqd o b - sqd o r) - (sqd o' b - sqd o' r')) +
      orient a b x * ((sqd o c - sqd o r) - (sqd o' c - sqd o' r')) := by
  unfold orient sqd; ring

theorem power_middle (a b c o o' r r' : R3.Vector K) : (sqd o (middle a b c) - sqd o r) - (sqd o' (middle a b c) - sqd o' r') =
    (((sqd o a - sqd o r) - (sqd o' a - sqd o' r')) + ((sqd o b - sqd o r) - (sqd o' b - sqd o' r')) + ((sqd o c - sqd o r) - (sqd o' c - sqd o' r'))) / 3 := by
  unfold sqd middle; ring

/-- triples of corners: the same three points, both clockwise, are the same up to the first corner -/
theorem same_corners {a b c a' b' c' : R3.Vector K} (h : orient a b c < 0) (h' : orient a' b' c' < 0) (ha : a = a' ∨ a = b' ∨ a = c')
    (hb : b = a' ∨ b = b' ∨ b = c') (hc : c = a' ∨ c = b' ∨ c = c') :
    (a = a' ∧ b = b' ∧ c = c') ∨ (a = b' ∧ b = c' ∧ c = a') ∨ (a = c' ∧ b = a' ∧ c = b') := by
  have d1 : ∀ x y : R3.Vector K, orient x x y = 0 := fun x y => by unfold orient; ring
  have d2 : ∀ x y : R3.Vector K, orient x y x = 0 := fun x y => by unfold orient; ring
  have d3 : ∀ x y : R3.Vector K, orient y x x = 0 := fun x y => by unfold orient; ring
  have s1 : orient b' a' c' = -orient a' b' c' := by unfold orient; ring
  have s2 : orient a' c' b' = -orient a' b' c' := by unfold orient; ring
  have s3 : orient c' b' a' = -orient a' b' c' := by unfold orient; ring
  rcases ha with rfl | rfl | rfl <;> rcases hb with rfl | rfl | rfl <;> rcases hc with rfl | rfl | rfl <;>
    first
    | exact Or.inl ⟨rfl, rfl, rfl⟩
    | exact Or.inr (Or.inl ⟨rfl, rfl, rfl⟩)
    | exact Or.inr (Or.inr ⟨rfl, rfl, rfl⟩)
    | (exfalso; rw [d1] at h; exact lt_irrefl _ h)
    | (exfalso; rw [d2] at h; exact lt_irrefl _ h)
    | (exfalso; rw [d3] at h; exact lt_irrefl _ h)
    | (exfalso; linarith)

/-- **There is only one Delaunay triangulation** of points of which no four are on an empty circle, if it fills a polygon that contains the points. -/
theorem delaunay_unique {Vs Vs' hull' : List (R3.Vector K)} {ts ts' : List ℤ} (D : Delaunay Vs ts) (D' : Delaunay Vs' ts')
    (hv : ∀ v, IsVertex Vs ts v ↔ IsVertex Vs' ts' v) (gen : NoFourOnEmptyCircle (IsVertex Vs ts)) (conv : ∀ v, IsVertex Vs' ts' v → Inside hull' v)
    (fill : ∀ x, Inside hull' x → ∃ k a b c, Corners Vs' ts' k a b c ∧ InTri a b c x) {a b c : R3.Vector K} {k : ℕ} (h : Corners Vs ts k a b c) :
    HasTriangle Vs' ts' a b c := by
  obtain ⟨va, vb, vc⟩ := corners_vertex h
  obtain ⟨k', a', b', c', h', t1, t2, t3⟩ := fill (middle a b c) (inside_middle (conv a ((hv a).mp va)) (conv b ((hv b).mp vb)) (conv c ((hv c).mp vc)))
  obtain ⟨va', vb', vc'⟩ := corners_vertex h'
  have cw := D.clockwise k a b c h
  have cw' := D'.clockwise k' a' b' c' h'
  obtain ⟨o, e1, e2, em⟩ := D.empty k a b c h
  obtain ⟨o', e1', e2', em'⟩ := D'.empty k' a' b' c' h'
  -- the power difference at the middle has both signs
  have up := weights t2 t3 t1 (u := (sqd o a' - sqd o a) - (sqd o' a' - sqd o' a')) (v := (sqd o b' - sqd o a) - (sqd o' b' - sqd o' a'))
    (w := (sqd o c' - sqd o a) - (sqd o' c' - sqd o' a'))
    (by have := em a' ((hv a').mpr va'); linarith) (by have := em b' ((hv b').mpr vb'); linarith) (by have := em c' ((hv c').mpr vc'); linarith) cw'
    (power_affine a' b' c' o o' a a' (middle a b c))
  rw [power_middle] at up
  have ma := em' a ((hv a).mp va)
  have mb := em' b ((hv b).mp vb)
  have mc := em' c ((hv c).mp vc)
  have za : sqd o' a' = sqd o' a := by linarith
  have zb : sqd o' a' = sqd o' b := by linarith
  have zc : sqd o' a' = sqd o' c := by linarith
  have d1 : a' ≠ b' := by rintro rfl; unfold orient at cw'; linarith
  have d2 : a' ≠ c' := by rintro rfl; unfold orient at cw'; linarith
  have d3 : b' ≠ c' := by
    rintro rfl
    have : orient a' b' b' = 0 := by unfold orient; ring
    linarith
  have key : ∀ x, IsVertex Vs ts x → sqd o' a' = sqd o' x → x = a' ∨ x = b' ∨ x = c' := by
    intro x vx ex
    by_contra hne
    push Not at hne
    exact gen o' a' b' c' x ((hv a').mpr va') ((hv b').mpr vb') ((hv c').mpr vc') vx d1 d2 (Ne.symm hne.1) d3 (Ne.symm hne.2.1) (Ne.symm hne.2.2)
      (fun v hv' => em' v ((hv v).mp hv')) ⟨e1', e2', ex⟩
  refine ⟨k', ?_⟩
  rcases same_corners cw cw' (key a va za) (key b vb zb) (key c vc zc) with ⟨rfl, rfl, rfl⟩ | ⟨rfl, rfl, rfl⟩ | ⟨rfl, rfl, rfl⟩
  · exact Or.inl h'
  · exact Or.inr (Or.inr h')
  · exact Or.inr (Or.inl h')

theorem strict_middle {a b c : R3.Vector K} (h : orient a b c < 0) :
    orient a b (middle a b c) < 0 ∧ orient b c (middle a b c) < 0 ∧ orient c a (middle a b c) < 0 := by
  have e1 : orient a b (middle a b c) = orient a b c / 3 := by unfold orient middle; ring
  have e2 : orient b c (middle a b c) = orient a b c / 3 := by unfold orient middle; ring
  have e3 : orient c a (middle a b c) = orient a b c / 3 := by unfold orient middle; ring
  rw [e1, e2, e3]
  refine ⟨?_, ?_, ?_⟩ <;> linarith

/-- two triangulations with the same triangles, of which the first has no overlaps: the first is not longer -/
theorem length_le_of_has {Vs Vs' : List (R3.Vector K)} {ts ts' : List ℤ} (D : Delaunay Vs ts) (D' : Delaunay Vs' ts')
    (dis : ∀ x {j k : ℕ} {a b c a' b' c' : R3.Vector K}, Corners Vs ts j a b c → Corners Vs ts k a' b' c' →
      (orient a b x < 0 ∧ orient b c x < 0 ∧ orient c a x < 0) → (orient a' b' x < 0 ∧ orient b' c' x < 0 ∧ orient c' a' x < 0) → j = k)
    (hh : ∀ {a b c k}, Corners Vs ts k a b c → HasTriangle Vs' ts' a b c) : ts.length ≤ ts'.length := by
  have three : ∀ {Us : List (R3.Vector K)} {us : List ℤ}, Delaunay Us us → us.length % 3 = 0 := by
    intro Us us E
    by_contra hne
    obtain ⟨_, _, _, i, j, l, _, _, h3, _⟩ := E.corners (us.length / 3) (by omega)
    have := (List.getElem?_eq_some_iff.mp h3).1
    omega
  have key : ∀ k, k < ts.length / 3 → ∃ k', k' < ts'.length / 3 ∧ ∃ a b c, Corners Vs ts k a b c ∧
      (Corners Vs' ts' k' a b c ∨ Corners Vs' ts' k' b c a ∨ Corners Vs' ts' k' c a b) := by
    intro k hk
    obtain ⟨a, b, c, h⟩ := D.corners k (by omega)
    obtain ⟨k', h'⟩ := hh h
    refine ⟨k', ?_, a, b, c, h, h'⟩
    have : ∀ x y z, Corners Vs' ts' k' x y z → k' < ts'.length / 3 := by
      rintro x y z ⟨_, _, _, _, _, h3, _⟩
      have := (List.getElem?_eq_some_iff.mp h3).1
      omega
    rcases h' with h' | h' | h' <;> exact this _ _ _ h'
  choose! f hf using key
  have hle : (Finset.range (ts.length / 3)).card ≤ (Finset.range (ts'.length / 3)).card := by
    refine Finset.card_le_card_of_injOn f ?_ ?_
    · intro k hk
      simp only [Finset.coe_range, Set.mem_Iio] at hk ⊢
      exact (hf k hk).1
    · intro j hj k hk e
      simp only [Finset.coe_range, Set.mem_Iio] at hj hk
      obtain ⟨_, a, b, c, h1, h2⟩ := hf j hj
      obtain ⟨_, a', b', c', h1', h2'⟩ := hf k hk
      rw [← e] at h2'
      have s1 := strict_middle (D.clockwise _ _ _ _ h1)
      have det : ∀ {x y z x' y' z'}, Corners Vs' ts' (f j) x y z → Corners Vs' ts' (f j) x' y' z' → x = x' ∧ y = y' ∧ z = z' := by
        rintro x y z x' y' z' ⟨i1, i2, i3, p1, p2, p3, q1, q2, q3⟩ ⟨j1, j2, j3, r1, r2, r3, u1, u2, u3⟩
        rw [p1] at r1; rw [p2] at r2; rw [p3] at r3
        injection r1 with r1; injection r2 with r2; injection r3 with r3
        obtain rfl : i1 = j1 := by exact_mod_cast r1
        obtain rfl : i2 = j2 := by exact_mod_cast r2
        obtain rfl : i3 = j3 := by exact_mod_cast r3
        rw [q1] at u1; rw [q2] at u2; rw [q3] at u3
        injection u1 with u1; injection u2 with u2; injection u3 with u3
        exact ⟨u1, u2, u3⟩
      have rot : (a' = a ∧ b' = b ∧ c' = c) ∨ (a' = b ∧ b' = c ∧ c' = a) ∨ (a' = c ∧ b' = a ∧ c' = b) := by
        rcases h2 with h2 | h2 | h2 <;> rcases h2' with h2' | h2' | h2' <;> obtain ⟨rfl, rfl, rfl⟩ := det h2 h2' <;> simp
      refine dis _ h1 h1' s1 ?_
      rcases rot with ⟨rfl, rfl, rfl⟩ | ⟨rfl, rfl, rfl⟩ | ⟨rfl, rfl, rfl⟩
      · exact s1
      · exact ⟨s1.2.1, s1.2.2, s1.1⟩
      · exact ⟨s1.2.2, s1.1, s1.2.1⟩
  simp only [Finset.card_range] at hle
  have := three D
  have := three D'
  omega

/-- what is known about a result of `Triangulate` -/
structure DelaunayResult (Vs hull : List (R3.Vector K)) (ts : List ℤ) : Prop where
  delaunay : Delaunay Vs ts
  convex : ∀ v, IsVertex Vs ts v → Inside hull v
  fills : ∀ x, Inside hull x → ∃ k a b c, Corners Vs ts k a b c ∧ InTri a b c x
  disjoint : ∀ x {j k : ℕ} {a b c a' b' c' : R3.Vector K}, Corners Vs ts j a b c → Corners Vs ts k a' b' c' →
      (orient a b x < 0 ∧ orient b c x < 0 ∧ orient c a x < 0) → (orient a' b' x < 0 ∧ orient b' c' x < 0 ∧ orient c' a' x < 0) → j = k
  cover : ∀ p ∈ Vs, IsVertex Vs ts p

omit [Field K] [LinearOrder K] [IsStrictOrderedRing K] in
theorem vertex_mem {Vs : List (R3.Vector K)} {ts : List ℤ} {v : R3.Vector K} (h : IsVertex Vs ts v) : v ∈ Vs := by
  obtain ⟨i, _, hi⟩ := h
  exact List.mem_of_getElem? hi

theorem result_has {Vs Vs' hull hull' : List (R3.Vector K)} {ts ts' : List ℤ} (h : DelaunayResult Vs hull ts) (h' : DelaunayResult Vs' hull' ts')
    (hsame : ∀ p, p ∈ Vs ↔ p ∈ Vs') (gen : NoFourOnEmptyCircle (· ∈ Vs)) {a b c : R3.Vector K} {k : ℕ} (hk : Corners Vs ts k a b c) :
    HasTriangle Vs' ts' a b c := by
  have hv : ∀ v, IsVertex Vs ts v ↔ v ∈ Vs := fun v => ⟨vertex_mem, h.cover v⟩
  have hv' : ∀ v, IsVertex Vs' ts' v ↔ v ∈ Vs' := fun v => ⟨vertex_mem, h'.cover v⟩
  refine delaunay_unique h.delaunay h'.delaunay (fun v => by rw [hv, hv', hsame]) ?_ h'.convex h'.fills hk
  have : IsVertex Vs ts = (· ∈ Vs) := funext fun v => propext (hv v)
  rw [this]
  exact gen

omit [Field K] [LinearOrder K] [IsStrictOrderedRing K] in
theorem has_rot {Vs : List (R3.Vector K)} {ts : List ℤ} {a b c : R3.Vector K} (h : HasTriangle Vs ts a b c) : HasTriangle Vs ts b c a := by
  obtain ⟨k, h⟩ := h
  exact ⟨k, by tauto⟩

theorem result_iff {Vs Vs' hull hull' : List (R3.Vector K)} {ts ts' : List ℤ} (h : DelaunayResult Vs hull ts) (h' : DelaunayResult Vs' hull' ts')
    (hsame : ∀ p, p ∈ Vs ↔ p ∈ Vs') (gen : NoFourOnEmptyCircle (· ∈ Vs)) :
    ts.length = ts'.length ∧ ∀ a b c, HasTriangle Vs ts a b c ↔ HasTriangle Vs' ts' a b c := by
  have gen' : NoFourOnEmptyCircle (· ∈ Vs') := by
    have : (· ∈ Vs') = (· ∈ Vs) := funext fun v => propext (hsame v).symm
    rw [this]; exact gen
  refine ⟨le_antisymm (length_le_of_has h.delaunay h'.delaunay h.disjoint (result_has h h' hsame gen))
    (length_le_of_has h'.delaunay h.delaunay h'.disjoint (result_has h' h (fun p => (hsame p).symm) gen')), fun a b c => ⟨?_, ?_⟩⟩
  · rintro ⟨k, hk | hk | hk⟩
    · exact result_has h h' hsame gen hk
    · exact has_rot (has_rot (result_has h h' hsame gen hk))
    · exact has_rot (result_has h h' hsame gen hk)
  · rintro ⟨k, hk | hk | hk⟩
    · exact result_has h' h (fun p => (hsame p).symm) gen' hk
    · exact has_rot (has_rot (result_has h' h (fun p => (hsame p).symm) gen' hk))
    · exact has_rot (result_has h' h (fun p => (hsame p).symm) gen' hk)

omit [IsStrictOrderedRing K] in
theorem boundary_congr {Vs Vs' P : List (R3.Vector K)} (hsame : ∀ p, p ∈ Vs ↔ p ∈ Vs') (h : BoundaryPolygon Vs P) : BoundaryPolygon Vs' P := by
  refine ⟨h.nodup, h.ne, fun e he => ?_⟩
  obtain ⟨h1, h2, h3, h4, h5⟩ := h.edge e he
  exact ⟨(hsame _).mp h1, (hsame _).mp h2, h3, fun q hq => h4 q ((hsame q).mpr hq), fun q hq => h5 q ((hsame q).mpr hq)⟩

/-! ## Exact arithmetic -/

section
variable [FloorRing K]

theorem exact_result (srt : R3.Vector K → List ℤ → List ℤ) (hsrt : ∀ c l, (srt c l).Perm l) (hashSize : ℕ → ℕ) (fuel : ℕ) (Vs : List (R3.Vector K))
    (hp : Planar Vs) (hn : 2 ≤ Vs.length) (hash : 0 < hashSize Vs.length) (hf : 6 * Vs.length < fuel) {hull : List (R3.Vector K)} {ts hs : List ℤ}
    (h : Triangulate srt hashSize fuel Vs = .ok (.triangulation hull ts hs)) (hs' : Sorts srt Vs) (hsep : Separated Vs) : DelaunayResult Vs hull ts where
  delaunay := C68_delaunay srt hsrt hashSize fuel Vs hp hn hash hf h
  convex := C67_convex srt hsrt hashSize fuel Vs hp hn hash hf h
  fills := C70_fills srt hsrt hashSize fuel Vs hp hn hash hf h
  disjoint x := C70_disjoint srt hsrt hashSize fuel Vs hp hn hash hf h x
  cover p hpV := by
    obtain ⟨v, hv, e⟩ := C69_cover srt hsrt hashSize fuel Vs hp hn hash hf h hs' p hpV
    rcases e with rfl | e
    · exact hv
    · rcases hsep p hpV v (vertex_mem hv) with rfl | ⟨_, hnn⟩
      · exact hv
      · exfalso; apply hnn
        rw [← near_iff]; simpa [eps] using e

variable (srt srt' : R3.Vector K → List ℤ → List ℤ) (hsrt : ∀ c l, (srt c l).Perm l) (hsrt' : ∀ c l, (srt' c l).Perm l) (hashSize hashSize' : ℕ → ℕ)
  (fuel fuel' : ℕ) (Vs Vs' : List (R3.Vector K)) (hp : Planar Vs) (hsame : ∀ p, p ∈ Vs ↔ p ∈ Vs') (hn : 2 ≤ Vs.length) (hn' : 2 ≤ Vs'.length)
  (hash : 0 < hashSize Vs.length) (hash' : 0 < hashSize' Vs'.length) (hf : 6 * Vs.length < fuel) (hf' : 6 * Vs'.length < fuel')
include hsrt hsrt' hp hsame hn hn' hash hash' hf hf'

omit [Field K] [LinearOrder K] [IsStrictOrderedRing K] [FloorRing K] hsrt hsrt' hn hn' hash hash' hf hf' in
theorem planar_same : Planar Vs' := by
  obtain ⟨z, hz⟩ := hp
  exact ⟨z, fun v hv => hz v ((hsame v).mpr hv)⟩

/-- C76: whether there is a triangulation does not depend on the order of the points -/
theorem C76_error : Triangulate srt hashSize fuel Vs = .ok .noTriangulation ↔ Triangulate srt' hashSize' fuel' Vs' = .ok .noTriangulation := by
  have hp' := planar_same Vs Vs' hp hsame
  have hc : Proofs.Collinear Vs ↔ Proofs.Collinear Vs' := by
    unfold Proofs.Collinear; simp only [hsame]
  rcases C23_planar srt hsrt hashSize fuel Vs hp hn hash hf with ⟨h1, e1⟩ | ⟨h1, _, _, _, e1, _⟩ <;>
    rcases C23_planar srt' hsrt' hashSize' fuel' Vs' hp' hn' hash' hf' with ⟨h2, e2⟩ | ⟨h2, _, _, _, e2, _⟩
  · simp [e1, e2]
  · exact absurd (hc.mp h1) h2
  · exact absurd (hc.mpr h2) h1
  · simp [e1, e2]

variable {hull hull' : List (R3.Vector K)} {ts hs ts' hs' : List ℤ} (h : Triangulate srt hashSize fuel Vs = .ok (.triangulation hull ts hs))
  (h' : Triangulate srt' hashSize' fuel' Vs' = .ok (.triangulation hull' ts' hs')) (hS : Sorts srt Vs) (hS' : Sorts srt' Vs') (hsep : Separated Vs)
include h h' hS hS' hsep

/-- C76: if no four points are on an empty circle, two calls with the same points return the same triangles -/
theorem C76_triangles (gen : NoFourOnEmptyCircle (· ∈ Vs)) :
    ts.length = ts'.length ∧ ∀ a b c, HasTriangle Vs ts a b c ↔ HasTriangle Vs' ts' a b c := by
  have hsep' : Separated Vs' := fun p hp q hq => hsep p ((hsame p).mpr hp) q ((hsame q).mpr hq)
  exact result_iff (exact_result srt hsrt hashSize fuel Vs hp hn hash hf h hS hsep)
    (exact_result srt' hsrt' hashSize' fuel' Vs' (planar_same Vs Vs' hp hsame) hn' hash' hf' h' hS' hsep') hsame gen

/-- C76: two calls with the same points return the same hull, up to its starting point, whatever circles they are on -/
theorem C76_hull : hull.IsRotated hull' := by
  have hsep' : Separated Vs' := fun p hp q hq => hsep p ((hsame p).mpr hp) q ((hsame q).mpr hq)
  obtain ⟨b1, c1⟩ := C72_boundary srt hsrt hashSize fuel Vs hp hn hash hf h hS hsep
  obtain ⟨b2, _⟩ := C72_boundary srt' hsrt' hashSize' fuel' Vs' (planar_same Vs Vs' hp hsame) hn' hash' hf' h' hS' hsep'
  exact C73_unique c1 (separated_distinct hsep) b1 (boundary_congr (fun p => (hsame p).symm) b2)

end

/-! ## Float64 -/

theorem grid_result (srt : R3.Vector F64 → List ℤ → List ℤ) (hsrt : ∀ c l, (srt c l).Perm l) (hashSize : ℕ → ℕ) (fuel : ℕ) (Vs : List (R3.Vector F64))
    (hg : SmallInts Vs) (hn : 2 ≤ Vs.length) (hash : 0 < hashSize Vs.length ∧ hashSize Vs.length < 2 ^ 53) (hf : 6 * Vs.length < fuel)
    {hull : List (R3.Vector F64)} {ts hs : List ℤ} (h : Triangulate srt hashSize fuel Vs = .ok (.triangulation hull ts hs)) (hs' : SortsCall srt Vs) :
    DelaunayResult (Vs.map exactV) (hull.map exactV) ts where
  delaunay := C74_delaunay srt hsrt hashSize fuel Vs hg hn hash.1 hash.2 hf h
  convex := C74_convex srt hsrt hashSize fuel Vs hg hn hash.1 hash.2 hf h
  fills := C74_fills srt hsrt hashSize fuel Vs hg hn hash.1 hash.2 hf h
  disjoint x := C74_disjoint srt hsrt hashSize fuel Vs hg hn hash.1 hash.2 hf h x
  cover p hp := by
    obtain ⟨v, hv, rfl⟩ := List.mem_map.mp hp
    exact C74_cover srt hsrt hashSize fuel Vs hg hn hash.1 hash.2 hf h hs' v hv

/-- C76 in float64, on small integer coordinates -/
theorem C76_float (srt srt' : R3.Vector F64 → List ℤ → List ℤ) (hsrt : ∀ c l, (srt c l).Perm l) (hsrt' : ∀ c l, (srt' c l).Perm l)
    (hashSize hashSize' : ℕ → ℕ) (fuel fuel' : ℕ) (Vs Vs' : List (R3.Vector F64)) (hg : SmallInts Vs) (hg' : SmallInts Vs')
    (hsame : ∀ p, p ∈ Vs.map exactV ↔ p ∈ Vs'.map exactV) (hn : 2 ≤ Vs.length) (hn' : 2 ≤ Vs'.length)
    (hash : 0 < hashSize Vs.length ∧ hashSize Vs.length < 2 ^ 53) (hash' : 0 < hashSize' Vs'.length ∧ hashSize' Vs'.length < 2 ^ 53)
    (hf : 6 * Vs.length < fuel) (hf' : 6 * Vs'.length < fuel') {hull hull' : List (R3.Vector F64)} {ts hs ts' hs' : List ℤ}
    (h : Triangulate srt hashSize fuel Vs = .ok (.triangulation hull ts hs))
    (h' : Triangulate srt' hashSize' fuel' Vs' = .ok (.triangulation hull' ts' hs')) (hS : SortsCall srt Vs) (hS' : SortsCall srt' Vs') :
    (hull.map exactV).IsRotated (hull'.map exactV) ∧ (NoFourOnEmptyCircle (· ∈ Vs.map exactV) →
      ts.length = ts'.length ∧ ∀ a b c, HasTriangle (Vs.map exactV) ts a b c ↔ HasTriangle (Vs'.map exactV) ts' a b c) := by
  refine ⟨?_, fun gen => result_iff (grid_result srt hsrt hashSize fuel Vs hg hn hash hf h hS)
    (grid_result srt' hsrt' hashSize' fuel' Vs' hg' hn' hash' hf' h' hS') hsame gen⟩
  obtain ⟨b1, c1⟩ := C74_boundary srt hsrt hashSize fuel Vs hg hn hash.1 hash.2 hf h hS
  obtain ⟨b2, _⟩ := C74_boundary srt' hsrt' hashSize' fuel' Vs' hg' hn' hash'.1 hash'.2 hf' h' hS'
  exact C73_unique c1 (separated_distinct (ints_separated hg.grid.ints hg.flat)) b1 (boundary_congr (fun p => (hsame p).symm) b2)

/-! ## Four points on an empty circle -/

/-- a sort that meets the contract -/
def keySort (Vs : List (R3.Vector ℚ)) (c : R3.Vector ℚ) (l : List ℤ) : List ℤ :=
  l.insertionSort (fun i j => idLess c (pz Vs j) (pz Vs i) = false)

theorem keySort_perm (Vs : List (R3.Vector ℚ)) (c : R3.Vector ℚ) (l : List ℤ) : (keySort Vs c l).Perm l := List.perm_insertionSort _ _

theorem keySort_sorts (Vs : List (R3.Vector ℚ)) : Sorts (keySort Vs) Vs := by
  intro c
  have e : ∀ i j : ℤ, (idLess c (pz Vs j) (pz Vs i) = false) ↔ sortKey c (pz Vs i) ≤ sortKey c (pz Vs j) := by
    intro i j
    rw [idLess_key, decide_eq_false_iff_not, not_lt]
  have : Std.Total (fun i j : ℤ => idLess c (pz Vs j) (pz Vs i) = false) := ⟨fun a b => by rw [e, e]; exact le_total _ _⟩
  have : IsTrans ℤ (fun i j : ℤ => idLess c (pz Vs j) (pz Vs i) = false) := ⟨fun a b c h1 h2 => by rw [e] at *; exact le_trans h1 h2⟩
  exact List.pairwise_insertionSort (fun i j : ℤ => idLess c (pz Vs j) (pz Vs i) = false) _

/-- the unit square -/
def unitSquare : List (R3.Vector ℚ) := [⟨0,0,0⟩, ⟨1,0,0⟩, ⟨1,1,0⟩, ⟨0,1,0⟩]

/-- the unit square, starting at another corner -/
def unitSquare' : List (R3.Vector ℚ) := [⟨1,0,0⟩, ⟨1,1,0⟩, ⟨0,1,0⟩, ⟨0,0,0⟩]

/-- Without the condition on circles the claim is false: for the unit square, the diagonal depends on which corner is given first. -/
theorem C76_square_refuted : unitSquare.Perm unitSquare' ∧ ∃ hull hull' ts hs ts' hs',
    Triangulate (keySort unitSquare) (fun _ => 3) 31 unitSquare = .ok (.triangulation hull ts hs) ∧
    Triangulate (keySort unitSquare') (fun _ => 3) 31 unitSquare' = .ok (.triangulation hull' ts' hs') ∧
    HasTriangle unitSquare ts ⟨0,0,0⟩ ⟨1,1,0⟩ ⟨1,0,0⟩ ∧ ¬ HasTriangle unitSquare' ts' ⟨0,0,0⟩ ⟨1,1,0⟩ ⟨1,0,0⟩ := by
  refine ⟨by decide +kernel, ?_⟩
  have h1 : ∃ x, Triangulate (keySort unitSquare) (fun _ => 3) 31 unitSquare = x ∧
      (match x with | .ok (.triangulation _ ts _) => decide (ts = [0, 2, 1, 0, 3, 2]) | _ => false) = true := ⟨_, rfl, by decide +kernel⟩
  have h2 : ∃ x, Triangulate (keySort unitSquare') (fun _ => 3) 31 unitSquare' = x ∧
      (match x with | .ok (.triangulation _ ts _) => decide (ts = [0, 2, 1, 0, 3, 2]) | _ => false) = true := ⟨_, rfl, by decide +kernel⟩
  obtain ⟨x, hx, h1⟩ := h1
  obtain ⟨y, hy, h2⟩ := h2
  match x, h1, y, h2 with
  | .ok (.triangulation hull ts hs), h1, .ok (.triangulation hull' ts' hs'), h2 =>
    rw [decide_eq_true_eq] at h1 h2
    subst h1 h2
    refine ⟨hull, hull', _, hs, _, hs', hx, hy, ⟨0, Or.inl ⟨0, 2, 1, rfl, rfl, rfl, rfl, rfl, rfl⟩⟩, ?_⟩
    have no : ∀ k a b c, Corners unitSquare' [0, 2, 1, 0, 3, 2] k a b c →
        (a = ⟨1,0,0⟩ ∧ b = ⟨0,1,0⟩ ∧ c = ⟨1,1,0⟩) ∨ (a = ⟨1,0,0⟩ ∧ b = ⟨0,0,0⟩ ∧ c = ⟨0,1,0⟩) := by
      rintro k a b c ⟨i, j, l, e1, e2, e3, p1, p2, p3⟩
      have hk : 3*k+2 < 6 := (List.getElem?_eq_some_iff.mp e3).1
      have hk' : k = 0 ∨ k = 1 := by omega
      rcases hk' with rfl | rfl
      · simp at e1 e2 e3
        obtain rfl : i = 0 := by omega
        obtain rfl : j = 2 := by omega
        obtain rfl : l = 1 := by omega
        simp [unitSquare'] at p1 p2 p3
        exact Or.inl ⟨p1.symm, p2.symm, p3.symm⟩
      · simp at e1 e2 e3
        obtain rfl : i = 0 := by omega
        obtain rfl : j = 3 := by omega
        obtain rfl : l = 2 := by omega
        simp [unitSquare'] at p1 p2 p3
        exact Or.inr ⟨p1.symm, p2.symm, p3.symm⟩
    rintro ⟨k, h | h | h⟩ <;> rcases no _ _ _ _ h with h | h <;> simp at h

/-! ## The hypotheses hold -/

/-- the circles through three corners of the square of `square5` contain its fifth point -/
theorem square5_circles : NoFourOnEmptyCircle (· ∈ square5) := by
  intro o a b c d ha hb hc hd ab ac ad bc bd cd em he
  have e4 : a ∈ square5 ∧ sqd o a ≤ sqd o ⟨1,2,0⟩ := ⟨ha, em _ (by simp [square5])⟩
  obtain ⟨_, em⟩ := e4
  obtain ⟨h1, h2, h3⟩ := he
  simp only [square5, List.mem_cons, List.not_mem_nil, or_false] at ha hb hc hd
  rcases ha with rfl | rfl | rfl | rfl | rfl <;> rcases hb with rfl | rfl | rfl | rfl | rfl <;> first | exact absurd rfl ab | skip
  all_goals rcases hc with rfl | rfl | rfl | rfl | rfl <;> first | exact absurd rfl ac | exact absurd rfl bc | skip
  all_goals rcases hd with rfl | rfl | rfl | rfl | rfl <;>
    first
    | exact absurd rfl ad
    | exact absurd rfl bd
    | exact absurd rfl cd
    | (simp only [sqd] at h1 h2 h3 em; linarith)

/-- the points of `square5` in another order, one of them twice -/
def square5' : List (R3.Vector ℚ) := [⟨1,2,0⟩, ⟨4,4,0⟩, ⟨4,0,0⟩, ⟨0,0,0⟩, ⟨1,2,0⟩, ⟨0,4,0⟩]

theorem square5_separated : Separated square5 := by
  intro p hp q hq
  simp only [square5, List.mem_cons, List.not_mem_nil, or_false] at hp hq
  rcases hp with rfl | rfl | rfl | rfl | rfl <;> rcases hq with rfl | rfl | rfl | rfl | rfl <;>
    first | exact Or.inl rfl | (right; constructor <;> norm_num [Near])

/-- a case of the theorems -/
example : ∃ hull hull' ts hs ts' hs', Triangulate (keySort square5) (fun _ => 3) 31 square5 = .ok (.triangulation hull ts hs) ∧
    Triangulate (keySort square5') (fun _ => 4) 37 square5' = .ok (.triangulation hull' ts' hs') ∧ hull.IsRotated hull' ∧ ts.length = ts'.length ∧
    ∀ a b c, HasTriangle square5 ts a b c ↔ HasTriangle square5' ts' a b c := by
  have hp : Planar square5 := ⟨0, by simp [square5]⟩
  have hsame : ∀ p, p ∈ square5 ↔ p ∈ square5' := by
    intro p; simp only [square5, square5', List.mem_cons, List.not_mem_nil, or_false]; tauto
  have hp' := planar_same square5 square5' hp hsame
  have hc : ∀ Vs : List (R3.Vector ℚ), (∀ p, p ∈ square5 ↔ p ∈ Vs) → ¬ Proofs.Collinear Vs := by
    intro Vs hV h
    have := h ⟨0,0,0⟩ ((hV _).mp (by simp [square5])) ⟨4,0,0⟩ ((hV _).mp (by simp [square5])) ⟨4,4,0⟩ ((hV _).mp (by simp [square5]))
    norm_num [area] at this
  rcases C23_planar _ (keySort_perm square5) (fun _ => 3) 31 square5 hp (by decide) (by decide) (by decide) with ⟨h, _⟩ | ⟨_, hull, ts, hs, e, _⟩
  · exact absurd h (hc _ fun _ => Iff.rfl)
  rcases C23_planar _ (keySort_perm square5') (fun _ => 4) 37 square5' hp' (by decide) (by decide) (by decide) with ⟨h, _⟩ | ⟨_, hull', ts', hs', e', _⟩
  · exact absurd h (hc _ hsame)
  have r := C76_triangles _ _ (keySort_perm square5) (keySort_perm square5') (fun _ => 3) (fun _ => 4) 31 37 square5 square5' hp hsame (by decide) (by decide)
    (by decide) (by decide) (by decide) (by decide) e e' (keySort_sorts _) (keySort_sorts _) square5_separated square5_circles
  exact ⟨hull, hull', ts, hs, ts', hs', e, e', C76_hull _ _ (keySort_perm square5) (keySort_perm square5') (fun _ => 3) (fun _ => 4) 31 37 square5 square5' hp
    hsame (by decide) (by decide) (by decide) (by decide) (by decide) (by decide) e e' (keySort_sorts _) (keySort_sorts _) square5_separated, r.1, r.2⟩

end Verif.Props
