import Verif.Proofs.TriSame
import Verif.Proofs.ScaleFloat
import Verif.Props.BowyerFloat
import Verif.Props.DelaunatorFloat
/-!
# C95: the unit of length and the origin

What happens to the triangulator, the hull and the tetrahedralization when all points are moved, or all coordinates multiplied by a number.
-/
set_option linter.unusedSectionVars false

namespace Verif.Props
open Verif Verif.Tri2 Verif.Proofs Verif.R3 Verif.Meshing

section exact
variable {K : Type} [Field K] [LinearOrder K] [IsStrictOrderedRing K] [FloorRing K]

/-- change of the unit of length and of the origin in the plane; the third coordinate is only scaled -/
def place (s t1 t2 : K) (v : R3.Vector K) : R3.Vector K := ⟨s * v.X + t1, s * v.Y + t2, s * v.Z⟩

variable {s t1 t2 : K}

theorem sqDist_place (v w : R3.Vector K) : SquaredDistance (place s t1 t2 v) (place s t1 t2 w) = s ^ 2 * SquaredDistance v w := by
  simp only [SquaredDistance, place, R3.Sub, Dot, R3.Vector.Norm2]; ring

theorem area_place (a b c : R3.Vector K) : area (place s t1 t2 a) (place s t1 t2 b) (place s t1 t2 c) = s ^ 2 * area a b c := by
  simp only [area, place]; ring

theorem inCircleDet_place (a b c d : R3.Vector K) :
    inCircleDet (place s t1 t2 a) (place s t1 t2 b) (place s t1 t2 c) (place s t1 t2 d) = s ^ 4 * inCircleDet a b c d := by
  simp only [inCircleDet, place]; ring

theorem boxMid_place (a b c d : R3.Vector K) :
    boxMid (place s t1 t2 a) (place s t1 t2 b) (place s t1 t2 c) (place s t1 t2 d) = place s t1 t2 (boxMid a b c d) := by
  simp only [boxMid, place, R3.Vector.mk.injEq]
  refine ⟨?_, ?_, ?_⟩ <;> ring

theorem quot_place (hs : 0 < s) (n h d : K) : s ^ 3 * n * h / (s ^ 2 * d) = s * (n * h / d) := by
  rw [show s ^ 3 * n * h = s ^ 2 * (s * (n * h)) by ring, mul_div_mul_left _ _ (pow_ne_zero 2 hs.ne'), mul_div_assoc]

theorem num_place (hs : 0 < s) (dx dy ex ey : K) :
    (s * ey * (s * dx * (s * dx) + s * dy * (s * dy)) - s * dy * (s * ex * (s * ex) + s * ey * (s * ey))) * GoConst.const (1 / 2) / (s * dx * (s * ey) - s * dy * (s * ex)) =
      s * ((ey * (dx * dx + dy * dy) - dy * (ex * ex + ey * ey)) * GoConst.const (1 / 2) / (dx * ey - dy * ex)) ∧
    (s * dx * (s * ex * (s * ex) + s * ey * (s * ey)) - s * ex * (s * dx * (s * dx) + s * dy * (s * dy))) * GoConst.const (1 / 2) / (s * dx * (s * ey) - s * dy * (s * ex)) =
      s * ((dx * (ex * ex + ey * ey) - ex * (dx * dx + dy * dy)) * GoConst.const (1 / 2) / (dx * ey - dy * ex)) := by
  rw [← quot_place hs, ← quot_place hs]
  constructor <;> congr 1 <;> ring

theorem center_place (hs : 0 < s) (a b c : R3.Vector K) :
    circumcenter (place s t1 t2 a) (place s t1 t2 b) (place s t1 t2 c) = place s t1 t2 (circumcenter a b c) := by
  have e : ∀ u v t : K, s * u + t - (s * v + t) = s * (u - v) := by intro u v t; ring
  obtain ⟨k1, k2⟩ := num_place hs (b.X - a.X) (b.Y - a.Y) (c.X - a.X) (c.Y - a.Y)
  unfold circumcenter place
  simp only [e]
  rw [k1, k2, R3.Vector.mk.injEq]
  refine ⟨by ring, by ring, by ring⟩

theorem radius_place (hs : 0 < s) (a b c : R3.Vector K) :
    circumradius (place s t1 t2 a) (place s t1 t2 b) (place s t1 t2 c) = (circumradius a b c).map (s ^ 2 * ·) := by
  have e : ∀ u v t : K, s * u + t - (s * v + t) = s * (u - v) := by intro u v t; ring
  have z : ∀ v v' : K, v' = s ^ 2 * v → (v' == 0) = (v == 0) := by
    intro v v' e
    rw [Bool.eq_iff_iff, beq_iff_eq, beq_iff_eq, e, mul_eq_zero]
    exact ⟨fun h => h.resolve_left (pow_ne_zero 2 hs.ne'), Or.inr⟩
  unfold circumradius place
  simp only [e]
  generalize b.X - a.X = dx
  generalize b.Y - a.Y = dy
  generalize c.X - a.X = ex
  generalize c.Y - a.Y = ey
  obtain ⟨k1, k2⟩ := num_place hs dx dy ex ey
  rw [k1, k2]
  generalize (ey * (dx * dx + dy * dy) - dy * (ex * ex + ey * ey)) * GoConst.const (1 / 2) / (dx * ey - dy * ex) = x
  generalize (dx * (ex * ex + ey * ey) - ex * (dx * dx + dy * dy)) * GoConst.const (1 / 2) / (dx * ey - dy * ex) = y
  have e1 : s * x * (s * x) + s * y * (s * y) = s ^ 2 * (x * x + y * y) := by ring
  have e2 := z (dx * dx + dy * dy) (s * dx * (s * dx) + s * dy * (s * dy)) (by ring)
  have e3 := z (ex * ex + ey * ey) (s * ex * (s * ex) + s * ey * (s * ey)) (by ring)
  have e4 := z (dx * ey - dy * ex) (s * dx * (s * ey) - s * dy * (s * ex)) (by ring)
  have e5 := z (x * x + y * y) _ e1
  rw [e2, e3, e4, e5, e1]
  split <;> rfl

theorem hashKey_place (hs : 0 < s) (h : ℕ) (c v : R3.Vector K) : hashKey h (place s t1 t2 c) (place s t1 t2 v) = hashKey h c v := by
  have ang : ∀ x y : K, pseudoAngle (s * x) (s * y) = pseudoAngle x y := by
    intro x y
    unfold pseudoAngle
    have e : s * x / (GoAbs.abs (s * x) + GoAbs.abs (s * y)) = x / (GoAbs.abs x + GoAbs.abs y) := by
      show s * x / (|s * x| + |s * y|) = x / (|x| + |y|)
      rw [abs_mul, abs_mul, abs_of_pos hs, ← mul_add, mul_div_mul_left _ _ hs.ne']
    rw [e]
    simp only [mul_pos_iff_of_pos_left hs]
  unfold hashKey
  simp only [R3.Sub, place]
  rw [show s * v.X + t1 - (s * c.X + t1) = s * (v.X - c.X) by ring, show s * v.Y + t2 - (s * c.Y + t2) = s * (v.Y - c.Y) by ring, ang]

theorem idLess_place (hs : 0 < s) (c v w : R3.Vector K) : idLess (place s t1 t2 c) (place s t1 t2 v) (place s t1 t2 w) = idLess c v w := by
  have hs2 : 0 < s ^ 2 := by positivity
  have z : ∀ a b : K, (s ^ 2 * a != s ^ 2 * b) = (a != b) := by
    intro a b
    rw [Bool.eq_iff_iff, bne_iff_ne, bne_iff_ne, not_iff_not]
    exact mul_right_inj' hs2.ne'
  have z1 : ∀ a b t : K, (s * a + t != s * b + t) = (a != b) := by
    intro a b t
    rw [Bool.eq_iff_iff, bne_iff_ne, bne_iff_ne, not_iff_not, add_left_inj]
    exact mul_right_inj' hs.ne'
  unfold idLess
  simp only [sqDist_place]
  rw [z]
  simp only [place, z1, add_lt_add_iff_right, mul_lt_mul_iff_right₀ hs, mul_lt_mul_iff_right₀ hs2]

/-- the near-duplicate tests answer the same in both units -/
def NearKept (s : K) (Vs : List (R3.Vector K)) : Prop := ∀ p ∈ Vs, ∀ q ∈ Vs, (s ^ 2 * SquaredDistance p q < eps ↔ SquaredDistance p q < eps)

theorem same_place (hs : 0 < s) {Vs : List (R3.Vector K)} (hn : NearKept s Vs) :
    SameTests (place s t1 t2) Vs (fun x x' => x' = s ^ 2 * x) (fun x x' => x' = s ^ 2 * x) := by
  have hs2 : 0 < s ^ 2 := by positivity
  have hs4 : 0 < s ^ 4 := by positivity
  have hlt : ∀ {x x' y y' : K}, x' = s ^ 2 * x → y' = s ^ 2 * y → (x < y ↔ x' < y') := by
    rintro x _ y _ rfl rfl
    exact (mul_lt_mul_iff_right₀ hs2).symm
  have lt0 : ∀ {t x : K}, 0 < t → (t * x < 0 ↔ x < 0) := fun {t x} ht =>
    ⟨fun h => neg_of_mul_neg_right h ht.le, fun h => mul_neg_of_pos_of_neg ht h⟩
  refine ⟨fun a _ b _ => ?_, fun a _ b _ => ?_, hlt, fun _ => rfl, ?_, hlt, fun _ => rfl, ?_, fun a _ b _ => sqDist_place a b, ?_, ?_, ?_, ?_⟩
  · simp only [place, add_lt_add_iff_right, mul_lt_mul_iff_right₀ hs]
  · simp only [place, add_lt_add_iff_right, mul_lt_mul_iff_right₀ hs]
  · rintro x _ rfl
    exact (mul_pos_iff_of_pos_left hs2).symm
  · intro a _ b _ c _ d _ p _
    rw [boxMid_place, sqDist_place]
  · intro a _ b _ c _
    rw [radius_place hs]
    cases circumradius a b c with
    | none => exact .none
    | some r => exact .some rfl
  · intro a _ b _ c _
    rw [area_place, lt0 hs2]
  · intro a _ b _ c _ _ h
    refine ⟨fun p _ q _ r _ => ?_, fun p _ q _ r _ => ?_, fun p _ q _ r _ u _ => ?_, fun p hp q hq => ?_, fun p _ => ?_⟩
    · simp only [Geo.ofScalar, id, area_place, mul_nonneg_iff_of_pos_left hs2]
    · simp only [Geo.ofScalar, id, area_place, lt0 hs2]
    · simp only [Geo.ofScalar, id, inCircle, inCircleDet_place, lt0 hs4]
    · simp only [Geo.ofScalar, id, sqDist_place]
      exact decide_eq_decide.mpr (hn p hp q hq).symm
    · simp only [Geo.ofScalar, id]
      rw [center_place hs, hashKey_place hs]
  · intro a _ b _ c _ _ p _ q _
    rw [center_place hs, idLess_place hs]

/-- C95: with exact arithmetic, moving all points in the plane and measuring them in another unit gives the same triangles and halfedges, and the hull of
the result is the hull of the original moved in the same way; the same error and the same panics otherwise -/
theorem C95_triangulate (hs : 0 < s) (t1 t2 : K) {Vs : List (R3.Vector K)} (hn : NearKept s Vs) (sortBy : (ℤ → ℤ → Bool) → List ℤ → List ℤ)
    (hashSize : ℕ → ℕ) (fuel : ℕ) :
    Triangulate (sortIds sortBy (Vs.map (place s t1 t2))) hashSize fuel (Vs.map (place s t1 t2)) =
      Res.map' (outMap (place s t1 t2)) (Triangulate (sortIds sortBy Vs) hashSize fuel Vs) :=
  triangulate_same (same_place hs hn) sortBy hashSize fuel

/-- C95: the origin alone never matters -/
theorem C95_origin (t1 t2 : K) (Vs : List (R3.Vector K)) (sortBy : (ℤ → ℤ → Bool) → List ℤ → List ℤ) (hashSize : ℕ → ℕ) (fuel : ℕ) :
    Triangulate (sortIds sortBy (Vs.map (place 1 t1 t2))) hashSize fuel (Vs.map (place 1 t1 t2)) =
      Res.map' (outMap (place 1 t1 t2)) (Triangulate (sortIds sortBy Vs) hashSize fuel Vs) :=
  C95_triangulate one_pos t1 t2 (by intro p _ q _; rw [one_pow, one_mul]) sortBy hashSize fuel

/-- C95: the same for `ConvexHull` -/
theorem C95_hull (hs : 0 < s) (t1 t2 : K) {Vs : List (R3.Vector K)} (hn : NearKept s Vs) (perm : ℕ → (ℕ → ℕ → Bool) → List ℕ) :
    ConvexHull (sortPoints perm) (Vs.map (place s t1 t2)) = (ConvexHull (sortPoints perm) Vs).map (place s t1 t2) := by
  have hs2 : 0 < s ^ 2 := by positivity
  have hc : ∀ a b c : R3.Vector K, cross2D (place s t1 t2 a) (place s t1 t2 b) (place s t1 t2 c) = s ^ 2 * cross2D a b c := by
    intro a b c; simp only [cross2D, place]; ring
  have z1 : ∀ a b t : K, (s * a + t != s * b + t) = (a != b) := by
    intro a b t
    rw [Bool.eq_iff_iff, bne_iff_ne, bne_iff_ne, not_iff_not, add_left_inj]
    exact mul_right_inj' hs.ne'
  refine convexHull_same ⟨fun a _ b _ => ?_, fun a ha b hb => ?_, fun a _ b _ c _ => ?_, fun a _ b _ c _ => ?_⟩ perm
  · unfold hullLess
    simp only [place, z1, add_lt_add_iff_right, mul_lt_mul_iff_right₀ hs]
  · rw [sqDist_place]; exact (hn a ha b hb).symm
  · rw [hc, mul_pos_iff_of_pos_left hs2]
  · rw [hc]
    exact ⟨mul_neg_of_pos_of_neg hs2, fun h => neg_of_mul_neg_right h hs2.le⟩

end exact

/-! ## The tetrahedralization -/

section tetra
variable {F : Type} [_root_.Add F] [_root_.Sub F] [Mul F] [Neg F] [LT F] [DecidableLT F] [LE F] [DecidableLE F] [GoConst F] [OfNat F 0] [OfNat F 3]

/-- strictly between the initial extremes of `findExtremas` -/
def Inside (p : R3.Vector F) : Prop :=
  (p.X < GoConst.const maxFloat64 ∧ -GoConst.const maxFloat64 < p.X) ∧ (p.Y < GoConst.const maxFloat64 ∧ -GoConst.const maxFloat64 < p.Y) ∧
    (p.Z < GoConst.const maxFloat64 ∧ -GoConst.const maxFloat64 < p.Z)

theorem boxStep_first {p : R3.Vector F} (h : Inside p) :
    boxStep (⟨GoConst.const maxFloat64, GoConst.const maxFloat64, GoConst.const maxFloat64⟩,
      ⟨-GoConst.const maxFloat64, -GoConst.const maxFloat64, -GoConst.const maxFloat64⟩) p = (p, p) := by
  obtain ⟨⟨a1, a2⟩, ⟨b1, b2⟩, c1, c2⟩ := h
  unfold boxStep
  simp only [a1, a2, b1, b2, c1, c2, if_true]

/-- the corner of the smallest (or largest) coordinates -/
def corner (a b c : R3.Vector F) : R3.Vector F := ⟨a.X, b.Y, c.Z⟩

theorem extremas_same {T : R3.Vector F → R3.Vector F} {points : List (R3.Vector F)} (hne : points ≠ []) (hin : ∀ p ∈ points, Inside p ∧ Inside (T p))
    (hx : ∀ a ∈ points, ∀ b ∈ points, (a.X < b.X ↔ (T a).X < (T b).X)) (hy : ∀ a ∈ points, ∀ b ∈ points, (a.Y < b.Y ↔ (T a).Y < (T b).Y))
    (hz : ∀ a ∈ points, ∀ b ∈ points, (a.Z < b.Z ↔ (T a).Z < (T b).Z)) :
    ∃ a ∈ points, ∃ b ∈ points, ∃ c ∈ points, ∃ d ∈ points, ∃ e ∈ points, ∃ f ∈ points,
      findExtremas points = ⟨corner a b c, corner d e f⟩ ∧ findExtremas (points.map T) = ⟨corner (T a) (T b) (T c), corner (T d) (T e) (T f)⟩ := by
  have key : ∀ (l : List (R3.Vector F)) (a b c d e f : R3.Vector F), (∀ v ∈ l, v ∈ points) → a ∈ points → b ∈ points → c ∈ points → d ∈ points → e ∈ points → f ∈ points →
      ∃ a' ∈ points, ∃ b' ∈ points, ∃ c' ∈ points, ∃ d' ∈ points, ∃ e' ∈ points, ∃ f' ∈ points,
        l.foldl boxStep (corner a b c, corner d e f) = (corner a' b' c', corner d' e' f') ∧
        (l.map T).foldl boxStep (corner (T a) (T b) (T c), corner (T d) (T e) (T f)) = (corner (T a') (T b') (T c'), corner (T d') (T e') (T f')) := by
    intro l
    induction l with
    | nil => intro a b c d e f _ ha hb hc hd he hf; exact ⟨a, ha, b, hb, c, hc, d, hd, e, he, f, hf, rfl, rfl⟩
    | cons p l ih =>
      intro a b c d e f hl ha hb hc hd he hf
      have hp := hl p (by simp)
      obtain ⟨a', ha', b', hb', c', hc', d', hd', e', he', f', hf', e1, e2⟩ := ih (if p.X < a.X then p else a) (if p.Y < b.Y then p else b) (if p.Z < c.Z then p else c)
        (if d.X < p.X then p else d) (if e.Y < p.Y then p else e) (if f.Z < p.Z then p else f) (fun v hv => hl v (List.mem_cons_of_mem _ hv))
        (by split <;> assumption) (by split <;> assumption) (by split <;> assumption) (by split <;> assumption) (by split <;> assumption) (by split <;> assumption)
      refine ⟨a', ha', b', hb', c', hc', d', hd', e', he', f', hf', ?_, ?_⟩
      · rw [List.foldl_cons, ← e1]
        congr 1
        simp only [boxStep, corner, apply_ite R3.Vector.X, apply_ite R3.Vector.Y, apply_ite R3.Vector.Z]
        congr
      · rw [List.map_cons, List.foldl_cons, ← e2]
        congr 1
        simp only [boxStep, corner, apply_ite T, apply_ite R3.Vector.X, apply_ite R3.Vector.Y, apply_ite R3.Vector.Z, hx p hp a ha, hx d hd p hp, hy p hp b hb,
          hy e he p hp, hz p hp c hc, hz f hf p hp]
        congr
  obtain ⟨p, ps, rfl⟩ := List.exists_cons_of_ne_nil hne
  have hp : p ∈ p :: ps := by simp
  obtain ⟨a, ha, b, hb, c, hc, d, hd, e, he, f, hf, e1, e2⟩ := key ps p p p p p p (fun v hv => List.mem_cons_of_mem _ hv) hp hp hp hp hp hp
  refine ⟨a, ha, b, hb, c, hc, d, hd, e, he, f, hf, ?_, ?_⟩
  · have := extremas_fold (p :: ps)
    rw [List.foldl_cons, boxStep_first (hin p hp).1, show (p, p) = (corner p p p, corner p p p) from rfl, e1] at this
    obtain ⟨q1, q2⟩ := Prod.mk.inj this
    rw [← q1, ← q2]
  · have := extremas_fold ((p :: ps).map T)
    rw [List.map_cons, List.foldl_cons, boxStep_first (hin p hp).2, show (T p, T p) = (corner (T p) (T p) (T p), corner (T p) (T p) (T p)) from rfl, e2] at this
    obtain ⟨q1, q2⟩ := Prod.mk.inj this
    rw [List.map_cons, ← q1, ← q2]

/-- two runs whose tests agree on corresponding entries -/
theorem runs_same {P Q : Type} (test : P → P → P → P → P → Bool) (test' : Q → Q → Q → Q → Q → Bool) (sc : Sched) (hs : sc.WF) (R : P → Q → Prop)
    (h : ∀ a a' b b' c c' d d' p p', R a a' → R b b' → R c c' → R d d' → R p p' → test a b c d p = test' a' b' c' d' p')
    {E ps : List P} {E' ps' : List Q} (hE : List.Forall₂ R E E') (hp : List.Forall₂ R ps ps') (hl : E.length = ps.length + 4) :
    bowyerWatsonWith test sc E ps = bowyerWatsonWith test' sc E' ps' := by
  have zz : ∀ {l : List P} {l' : List Q}, List.Forall₂ R l l' → (l.zip l').map Prod.fst = l ∧ (l.zip l').map Prod.snd = l' ∧ ∀ x ∈ l.zip l', R x.1 x.2 := by
    intro l l' h
    induction h with
    | nil => simp
    | cons hr _ ih =>
      obtain ⟨i1, i2, i3⟩ := ih
      simp only [List.zip_cons_cons, List.map_cons, i1, i2, true_and]
      intro x hx
      rcases List.mem_cons.mp hx with rfl | hx
      · exact hr
      · exact i3 x hx
  obtain ⟨e1, e2, e3⟩ := zz hE
  obtain ⟨p1, p2, p3⟩ := zz hp
  have hlen : (E.zip E').length = (ps.zip ps').length + 4 := by
    rw [← List.length_map (f := Prod.fst) (as := E.zip E'), e1, ← List.length_map (f := Prod.fst) (as := ps.zip ps'), p1, hl]
  have r1 := C93_tests (fun a b c d p : P × Q => test a.1 b.1 c.1 d.1 p.1) test Prod.fst sc hs (E.zip E') (ps.zip ps') hlen (fun _ _ _ _ _ _ _ _ _ _ _ _ _ _ _ _ _ _ _ _ => rfl)
  have r2 := C93_tests (fun a b c d p : P × Q => test a.1 b.1 c.1 d.1 p.1) test' Prod.snd sc hs (E.zip E') (ps.zip ps') hlen
    (fun m p hp i j k l _ _ _ _ _ a b c d ha hb hc hd =>
      h _ _ _ _ _ _ _ _ _ _ (e3 a (List.mem_of_getElem? ha)) (e3 b (List.mem_of_getElem? hb)) (e3 c (List.mem_of_getElem? hc)) (e3 d (List.mem_of_getElem? hd))
        (p3 p (List.mem_of_getElem? hp)))
  rw [e1, p1] at r1
  rw [e2, p2] at r2
  exact r1.symm.trans r2

end tetra

section exact3
variable {K : Type} [Field K] [LinearOrder K] [IsStrictOrderedRing K]

/-- change of the unit of length and of the origin in space -/
def place3 (s : K) (t v : R3.Vector K) : R3.Vector K := ⟨s * v.X + t.X, s * v.Y + t.Y, s * v.Z + t.Z⟩

/-- the coordinates are smaller than the largest float64 -/
def BelowMax (p : R3.Vector K) : Prop := |p.X| < (maxFloat64 : K) ∧ |p.Y| < (maxFloat64 : K) ∧ |p.Z| < (maxFloat64 : K)

theorem BelowMax.inside {p : R3.Vector K} (h : BelowMax p) : Inside p := by
  have e : (GoConst.const maxFloat64 : K) = (maxFloat64 : K) := rfl
  unfold Inside
  rw [e]
  obtain ⟨h1, h2, h3⟩ := h
  rw [abs_lt] at h1 h2 h3
  exact ⟨⟨h1.2, h1.1⟩, ⟨h2.2, h2.1⟩, h3.2, h3.1⟩

/-- C95: with exact arithmetic, moving all points in space and measuring them in another unit does not change the triangles `bowyerWatson` returns, as long
as the coordinates stay below the largest float64 (the initial value of the extremes) -/
theorem C95_bowyer {s : K} (hs : 0 < s) (t : R3.Vector K) (sc : Sched) (hw : sc.WF) {points : List (R3.Vector K)}
    (hb : ∀ p ∈ points, BelowMax p ∧ BelowMax (place3 s t p)) : bowyerWatson sc (points.map (place3 s t)) = bowyerWatson sc points := by
  rcases eq_or_ne points [] with rfl | hne
  · rfl
  obtain ⟨a, ha, b, hb', c, hc, d, hd, e, he, f, hf, e1, e2⟩ := extremas_same (T := place3 s t) hne (fun p hp => ⟨(hb p hp).1.inside, (hb p hp).2.inside⟩)
    (fun a _ b _ => by simp only [place3, add_lt_add_iff_right, mul_lt_mul_iff_right₀ hs])
    (fun a _ b _ => by simp only [place3, add_lt_add_iff_right, mul_lt_mul_iff_right₀ hs])
    (fun a _ b _ => by simp only [place3, add_lt_add_iff_right, mul_lt_mul_iff_right₀ hs])
  have eE : (englobe (points.map (place3 s t))).1 = (englobe points).1.map (place3 s t) := by
    unfold englobe
    rw [e1, e2]
    simp only [computerInitialTetraPoints, corner, List.map_cons, place3]
    congr 1
    congr 1
    · rw [R3.Vector.mk.injEq]; exact ⟨by ring, rfl, rfl⟩
    congr 1
    · rw [R3.Vector.mk.injEq]; exact ⟨rfl, by ring, rfl⟩
    congr 1
    · rw [R3.Vector.mk.injEq]; exact ⟨rfl, rfl, by ring⟩
  unfold bowyerWatson
  rw [eE]
  refine (runs_same _ _ sc hw (fun v w => w = place3 s t v) ?_ (by rw [List.forall₂_map_right_iff, List.forall₂_same]; exact fun _ _ => rfl)
    (by rw [List.forall₂_map_right_iff, List.forall₂_same]; exact fun _ _ => rfl) rfl).symm
  rintro a _ b _ c _ d _ p _ rfl rfl rfl rfl rfl
  have hd : Predicates.InSphereFast (place3 s t a) (place3 s t b) (place3 s t c) (place3 s t d) (place3 s t p) = s ^ 5 * Predicates.InSphereFast a b c d p := by
    simp only [Predicates.InSphereFast, place3]; ring
  have hs5 : 0 < s ^ 5 := by positivity
  simp only [hd, mul_nonneg_iff_of_pos_left hs5]

end exact3

/-! ## Powers of two in float64 -/

section float
open Verif.F64

/-- a number that stays a multiple of `2^-90` of size at most `2^90` when multiplied by `2^k` -/
def Roomy (k : ℤ) (x : F64) : Prop :=
  x.Finite ∧ (Mult (-90) x.toQ ∧ |x.toQ| ≤ 2 ^ (90:ℤ)) ∧ (Mult (-90) (2 ^ k * x.toQ) ∧ |2 ^ k * x.toQ| ≤ 2 ^ (90:ℤ))

/-- the three coordinates do -/
def RoomyV (k : ℤ) (v : R3.Vector F64) : Prop := Roomy k v.X ∧ Roomy k v.Y ∧ Roomy k v.Z

theorem flt_pow {k : ℤ} (hk : -180 ≤ k ∧ k ≤ 180) : (flt 1 k).Finite ∧ (flt 1 k).toQ = 2 ^ k := by
  have hr : rnd ((2:ℚ) ^ k) = 2 ^ k := rnd_two_zpow (by omega)
  have hlt : |rnd (((1:ℤ):ℚ) * 2 ^ k)| < 2 ^ 1024 := by
    rw [Int.cast_one, one_mul, hr, abs_of_pos (two_zpow_pos _)]
    exact lt_of_le_of_lt (zpow_le_zpow_right₀ (by norm_num) (by omega)) two1024
  obtain ⟨f, e⟩ := round_fin (s := false) hlt
  refine ⟨f, e.trans ?_⟩
  rw [Int.cast_one, one_mul, hr]

theorem roomy_sc {k : ℤ} (hk : -180 ≤ k ∧ k ≤ 180) {x : F64} (h : Roomy k x) : Sc k (-90) 90 x (flt 1 k * x) := by
  obtain ⟨f, e⟩ := flt_pow hk
  obtain ⟨fx, ⟨m, b⟩, m', b'⟩ := h
  have hr : rnd ((flt 1 k).toQ * x.toQ) = 2 ^ k * x.toQ := by
    have hl : (2:ℚ) ^ (-1022:ℤ) ≤ 2 ^ (-90:ℤ) := zpow_le_zpow_right₀ (by norm_num) (by omega)
    rw [e, rnd_scale k (fun h0 => hl.trans (m.ge h0)) (fun h0 => hl.trans (m'.ge (mul_ne_zero (two_zpow_pos _).ne' h0))), rnd_toQ]
  have hlt : |rnd ((flt 1 k).toQ * x.toQ)| < 2 ^ 1024 := by
    rw [hr]
    exact lt_of_le_of_lt (b'.trans (zpow_le_zpow_right₀ (by norm_num) (by omega))) two1024
  obtain ⟨f2, e2⟩ := mul_fin f fx hlt
  rw [hr] at e2
  exact ⟨fx, f2, e2, m, by rw [e2]; exact m', b, by rw [e2]; exact b'⟩

theorem roomy_scV {k : ℤ} (hk : -180 ≤ k ∧ k ≤ 180) {v : R3.Vector F64} (h : RoomyV k v) : ScV k (-90) 90 v (v.Scaled (flt 1 k)) :=
  ⟨roomy_sc hk h.1, roomy_sc hk h.2.1, roomy_sc hk h.2.2⟩

/-- the near-duplicate tests answer the same -/
def NearKeptF (k : ℤ) (Vs : List (R3.Vector F64)) : Prop :=
  ∀ p ∈ Vs, ∀ q ∈ Vs, (SquaredDistance p q < eps ↔ SquaredDistance (p.Scaled (flt 1 k)) (q.Scaled (flt 1 k)) < eps)

theorem ScD.lt {k : ℤ} {x x' y y' : F64} (h : ScD k x x') (h' : ScD k y y') : x < y ↔ x' < y' := by
  obtain ⟨_, _, h⟩ := h
  obtain ⟨_, _, h'⟩ := h'
  exact h.lt_iff h'

theorem ScD.top {k : ℤ} {x x' : F64} (h : ScD k x x') : GoTop.ltTop x = GoTop.ltTop x' := by
  obtain ⟨_, _, h⟩ := h
  rw [ltTop_fin h.fin, ltTop_fin h.fin']

theorem ScD.pos {k : ℤ} {x x' : F64} (h : ScD k x x') : 0 < x ↔ 0 < x' := by
  obtain ⟨_, _, h⟩ := h
  exact h.pos_iff

theorem same_scaled {k : ℤ} (hk : -180 ≤ k ∧ k ≤ 180) {Vs : List (R3.Vector F64)} (hr : ∀ v ∈ Vs, RoomyV k v) (hn : NearKeptF k Vs) :
    SameTests (fun v => v.Scaled (flt 1 k)) Vs (ScD (2 * k)) (ScD (2 * k)) := by
  have sc : ∀ v ∈ Vs, ScV k (-90) 90 v (v.Scaled (flt 1 k)) := fun v hv => roomy_scV hk (hr v hv)
  refine ⟨fun a ha b hb => (sc a ha).x.lt_iff (sc b hb).x, fun a ha b hb => (sc a ha).y.lt_iff (sc b hb).y, ScD.lt, ScD.top, ScD.pos, ScD.lt, ScD.top,
    fun a ha b hb c hc d hd p hp => ?_, fun a ha b hb => ?_, fun a ha b hb c hc => sc_radius (sc a ha) (sc b hb) (sc c hc),
    fun a ha b hb c hc => (sc_area (sc a ha) (sc b hb) (sc c hc)).neg_iff, fun a ha b hb c hc hq h => ?_, fun a ha b hb c hc hq p hp q hq' => ?_⟩
  · exact ⟨_, _, sc_sqDist ((sc p hp).mono (lo' := -143) (hi' := 460) (by omega) (by omega))
      ((sc_mid (sc a ha) (sc b hb) (sc c hc) (sc d hd)).mono (lo' := -143) (hi' := 460) (by omega) (by omega)) (by omega) (by omega)⟩
  · exact ⟨_, _, sc_sqDist ((sc a ha).mono (lo' := -90) (hi' := 460) (by omega) (by omega)) ((sc b hb).mono (lo' := -90) (hi' := 460) (by omega) (by omega))
      (by omega) (by omega)⟩
  · have ho := sc_center (sc a ha) (sc b hb) (sc c hc) hq
    refine ⟨fun p hp q hq r hr => ?_, fun p hp q hq r hr => ?_, fun p hp q hq r hr u hu => ?_, fun p hp q hq => ?_, fun p hp => ?_⟩
    · exact decide_eq_decide.mpr (sc_area (sc p hp) (sc q hq) (sc r hr)).nonneg_iff
    · exact decide_eq_decide.mpr (sc_area (sc p hp) (sc q hq) (sc r hr)).neg_iff
    · exact decide_eq_decide.mpr (sc_inCircle (sc p hp) (sc q hq) (sc r hr) (sc u hu)).neg_iff
    · exact decide_eq_decide.mpr (hn p hp q hq)
    · exact sc_key h (sc p hp) ho
  · exact sc_less (sc p hp) (sc q hq') (sc_center (sc a ha) (sc b hb) (sc c hc) hq)

/-- C95: in float64, multiplying all coordinates by a power of two with the repository's own `Scaled` gives the same triangles and halfedges, and the scaled
hull, whatever the rounding errors of the run are (no grid and no margin is assumed), when the coordinates leave room and the near-duplicate answers agree -/
theorem C95_triangulate_float {k : ℤ} (hk : -180 ≤ k ∧ k ≤ 180) {Vs : List (R3.Vector F64)} (hr : ∀ v ∈ Vs, RoomyV k v) (hn : NearKeptF k Vs)
    (sortBy : (ℤ → ℤ → Bool) → List ℤ → List ℤ) (hashSize : ℕ → ℕ) (fuel : ℕ) :
    Triangulate (sortIds sortBy (Vs.map fun v => v.Scaled (flt 1 k))) hashSize fuel (Vs.map fun v => v.Scaled (flt 1 k)) =
      Res.map' (outMap fun v => v.Scaled (flt 1 k)) (Triangulate (sortIds sortBy Vs) hashSize fuel Vs) :=
  triangulate_same (same_scaled hk hr hn) sortBy hashSize fuel

/-- C95: the same for `ConvexHull` -/
theorem C95_hull_float {k : ℤ} (hk : -180 ≤ k ∧ k ≤ 180) {Vs : List (R3.Vector F64)} (hr : ∀ v ∈ Vs, RoomyV k v) (hn : NearKeptF k Vs)
    (perm : ℕ → (ℕ → ℕ → Bool) → List ℕ) :
    ConvexHull (sortPoints perm) (Vs.map fun v => v.Scaled (flt 1 k)) = (ConvexHull (sortPoints perm) Vs).map fun v => v.Scaled (flt 1 k) := by
  have sc : ∀ v ∈ Vs, ScV k (-90) 90 v (v.Scaled (flt 1 k)) := fun v hv => roomy_scV hk (hr v hv)
  exact convexHull_same ⟨fun a ha b hb => sc_hullLess (sc a ha) (sc b hb), hn, fun a ha b hb c hc => (sc_cross (sc a ha) (sc b hb) (sc c hc)).pos_iff,
    fun a ha b hb c hc => (sc_cross (sc a ha) (sc b hb) (sc c hc)).neg_iff⟩ perm

theorem roomy_inside {x x' : F64} {k : ℤ} (h : Sc k (-90) 90 x x') :
    (x < GoConst.const maxFloat64 ∧ -GoConst.const maxFloat64 < x) ∧ (x' < GoConst.const maxFloat64 ∧ -GoConst.const maxFloat64 < x') := by
  obtain ⟨f, e⟩ := max64
  obtain ⟨f', e'⟩ := neg_fin f
  have hm : (2:ℚ) ^ (90:ℤ) < maxFloat64 := by decide +kernel
  have l1 := abs_lt.mp (lt_of_le_of_lt h.le hm)
  have l2 := abs_lt.mp (lt_of_le_of_lt h.le' hm)
  rw [lt_fin h.fin f, lt_fin f' h.fin, lt_fin h.fin' f, lt_fin f' h.fin', e', e]
  exact ⟨⟨l1.2, l1.1⟩, l2.2, l2.1⟩

/-- C95: the same for `bowyerWatson`; no near-duplicate test is involved -/
theorem C95_bowyer_float {k : ℤ} (hk : -180 ≤ k ∧ k ≤ 180) (sch : Sched) (hw : sch.WF) {points : List (R3.Vector F64)} (hr : ∀ v ∈ points, RoomyV k v) :
    bowyerWatson sch (points.map fun v => v.Scaled (flt 1 k)) = bowyerWatson sch points := by
  rcases eq_or_ne points [] with rfl | hne
  · rfl
  have sc : ∀ v ∈ points, ScV k (-90) 90 v (v.Scaled (flt 1 k)) := fun v hv => roomy_scV hk (hr v hv)
  obtain ⟨a, ha, b, hb, c, hc, d, hd, e, he, f, hf, e1, e2⟩ := extremas_same (T := fun v => v.Scaled (flt 1 k)) hne
    (fun p hp => ⟨⟨(roomy_inside (sc p hp).x).1, (roomy_inside (sc p hp).y).1, (roomy_inside (sc p hp).z).1⟩,
      (roomy_inside (sc p hp).x).2, (roomy_inside (sc p hp).y).2, (roomy_inside (sc p hp).z).2⟩)
    (fun a ha b hb => (sc a ha).x.lt_iff (sc b hb).x) (fun a ha b hb => (sc a ha).y.lt_iff (sc b hb).y) (fun a ha b hb => (sc a ha).z.lt_iff (sc b hb).z)
  unfold bowyerWatson
  have up : ∀ {x x' : F64}, Sc k (-90) 90 x x' → Sc k (-90) 94 x x' := fun h => h.mono le_rfl (by omega)
  have hp : List.Forall₂ (ScV k (-90) 94) points (points.map fun v => v.Scaled (flt 1 k)) := by
    rw [List.forall₂_map_right_iff, List.forall₂_same]
    exact fun v hv => (sc v hv).mono le_rfl (by omega)
  have hE : List.Forall₂ (ScV k (-90) 94) (englobe points).1 (englobe (points.map fun v => v.Scaled (flt 1 k))).1 := by
    unfold englobe
    rw [e1, e2]
    have X := (sc a ha).x
    have Y := (sc b hb).y
    have Z := (sc c hc).z
    exact .cons ⟨up X, up Y, up Z⟩ (.cons ⟨sc_tetra X (sc d hd).x, up Y, up Z⟩ (.cons ⟨up X, sc_tetra Y (sc e he).y, up Z⟩
      (.cons ⟨up X, up Y, sc_tetra Z (sc f hf).z⟩ hp)))
  exact (runs_same _ _ sch hw (ScV k (-90) 94) (fun _ _ _ _ _ _ _ _ _ _ h1 h2 h3 h4 h5 => decide_eq_decide.mpr (sc_inSphere h1 h2 h3 h4 h5).nonneg_iff) hE hp rfl).symm

/-! ### Moving the points in float64 -/

/-- `x + t` is computed without rounding, and both sides are multiples of `2^-90` of size at most `2^90` -/
def ShiftOk (t x : F64) : Prop :=
  (x.Finite ∧ Mult (-90) x.toQ ∧ |x.toQ| ≤ 2 ^ (90:ℤ)) ∧ (x + t).Finite ∧ (x + t).toQ = x.toQ + t.toQ ∧ Mult (-90) (x + t).toQ ∧ |(x + t).toQ| ≤ 2 ^ (90:ℤ)

/-- the three coordinates are moved without rounding -/
def ShiftOkV (t v : R3.Vector F64) : Prop := ShiftOk t.X v.X ∧ ShiftOk t.Y v.Y ∧ ShiftOk t.Z v.Z

theorem shift_diff {t x y : F64} (h : ShiftOk t x) (h' : ShiftOk t y) : Sc 0 (-90) 91 (x - y) ((x + t) - (y + t)) := by
  obtain ⟨⟨f, m, b⟩, g, e, n, c⟩ := h
  obtain ⟨⟨f', m', b'⟩, g', e', n', c'⟩ := h'
  have hr : Proofs.InRange (-90) 91 := ⟨by omega, by omega, by omega⟩
  have two : (2:ℚ) ^ (91:ℤ) = 2 ^ (90:ℤ) + 2 ^ (90:ℤ) := two_zpow_succ 90
  have B : |x.toQ - y.toQ| ≤ 2 ^ (91:ℤ) := (abs_sub _ _).trans (by rw [two]; exact add_le_add b b')
  have C : |(x + t).toQ - (y + t).toQ| ≤ 2 ^ (91:ℤ) := (abs_sub _ _).trans (by rw [two]; exact add_le_add c c')
  exact sc_round hr (by rw [e, e', zpow_zero]; ring) (by rw [sub_eq_add_neg]; exact m.add m'.neg) (by rw [sub_eq_add_neg]; exact n.add n'.neg) B C
    (sub_fin f f' (rnd_bound hr B).2) (sub_fin g g' (rnd_bound hr C).2)

theorem shift_lt {t x y : F64} (h : ShiftOk t x) (h' : ShiftOk t y) : x < y ↔ x + t < y + t := by
  rw [lt_fin h.1.1 h'.1.1, lt_fin h.2.1 h'.2.1, h.2.2.1, h'.2.2.1, add_lt_add_iff_right]

theorem shift_beq {t x y : F64} (h : ShiftOk t x) (h' : ShiftOk t y) : (x == y) = (x + t == y + t) := by
  rw [Bool.eq_iff_iff, beq_fin h.1.1 h'.1.1, beq_fin h.2.1 h'.2.1, h.2.2.1, h'.2.2.1, add_left_inj]

/-- C95: in float64, moving all points by a vector the additions of which are exact moves the hull by the same vector, bit for bit, although the cross products
and distances are rounded: every test looks at differences of coordinates only, and those are the same numbers -/
theorem C95_hull_shift_float {t : R3.Vector F64} {Vs : List (R3.Vector F64)} (h : ∀ v ∈ Vs, ShiftOkV t v) (perm : ℕ → (ℕ → ℕ → Bool) → List ℕ) :
    ConvexHull (sortPoints perm) (Vs.map fun v => R3.Add v t) = (ConvexHull (sortPoints perm) Vs).map fun v => R3.Add v t := by
  have hc : ∀ a ∈ Vs, ∀ b ∈ Vs, ∀ c ∈ Vs, Sc 0 (-180) 183 (cross2D a b c) (cross2D (R3.Add a t) (R3.Add b t) (R3.Add c t)) := by
    intro a ha b hb c hc
    have m1 : Sc 0 (-180) 182 _ _ := (shift_diff (h b hb).1 (h a ha).1).mul' (shift_diff (h c hc).2.1 (h a ha).2.1) rfl (by omega)
    have m2 : Sc 0 (-180) 182 _ _ := (shift_diff (h b hb).2.1 (h a ha).2.1).mul' (shift_diff (h c hc).1 (h a ha).1) rfl (by omega)
    exact m1.sub' m2 (by omega)
  refine convexHull_same ⟨fun a ha b hb => ?_, fun a ha b hb => ?_, fun a ha b hb c hc' => (hc a ha b hb c hc').pos_iff,
    fun a ha b hb c hc' => (hc a ha b hb c hc').neg_iff⟩ perm
  · unfold hullLess
    simp only [bne, R3.Add, shift_beq (h a ha).1 (h b hb).1, shift_lt (h a ha).1 (h b hb).1, shift_lt (h a ha).2.1 (h b hb).2.1]
    congr
  · have sq : ∀ {x x' : F64}, Sc 0 (-90) 91 x x' → Sc 0 (-180) 182 (x * x) (x' * x') := fun h => h.mul' h rfl (by omega)
    have s1 : Sc 0 (-180) 183 _ _ := (sq (shift_diff (h a ha).1 (h b hb).1)).add' (sq (shift_diff (h a ha).2.1 (h b hb).2.1)) (by omega)
    have s2 : Sc 0 (-180) 184 _ _ := s1.add' (sq (shift_diff (h a ha).2.2 (h b hb).2.2)) (by omega)
    have he : Sc 0 (-52) 0 (eps : F64) (eps : F64) := Sc.same (by decide +kernel) ⟨1, by decide +kernel⟩ (by decide +kernel)
    exact s2.lt_iff he

end float

/-! ## Where it fails, and concrete cases -/

/-- insertion sort of the ids with the given comparison -/
def insSort (less : ℤ → ℤ → Bool) (l : List ℤ) : List ℤ := l.insertionSort (fun i j => less j i = false)

/-- the triangles of an outcome -/
def trisOf {F : Type} : Res (TriOut F) → List ℤ
  | .ok (.triangulation _ ts _) => ts
  | _ => []

/-- six points of the grid: four corners of a rectangle and two points inside -/
def sixZ : List (ℤ × ℤ) := [(0, 0), (3, 0), (0, 2), (3, 2), (1, 1), (2, 1)]

/-- the six points over the rationals -/
def sixQ : List (R3.Vector ℚ) := sixZ.map fun v => ⟨v.1, v.2, 0⟩

/-- the six points in float64 -/
def sixF : List (R3.Vector F64) := sixZ.map fun v => ⟨flt v.1 0, flt v.2 0, flt 0 0⟩

/-- C95 is false for the unit of length in general, also with exact arithmetic: the near-duplicate bound `eps` is an absolute length squared, so the six
points measured in a unit `2^30` times as long lose all but one triangle -/
theorem C95_unit_refuted : ∃ (s : ℚ) (Vs : List (R3.Vector ℚ)) (sortBy : (ℤ → ℤ → Bool) → List ℤ → List ℤ), 0 < s ∧
    (trisOf (Triangulate (sortIds sortBy Vs) (fun _ => 3) 100 Vs)).length = 18 ∧
    (trisOf (Triangulate (sortIds sortBy (Vs.map (place s 0 0))) (fun _ => 3) 100 (Vs.map (place s 0 0)))).length = 3 :=
  ⟨1 / 2 ^ 30, sixQ, insSort, by norm_num, by decide +kernel, by decide +kernel⟩

/-- C95: the same happens in float64, with coordinates that are scaled without rounding -/
theorem C95_unit_float_refuted : ∃ (Vs : List (R3.Vector F64)) (sortBy : (ℤ → ℤ → Bool) → List ℤ → List ℤ),
    (trisOf (Triangulate (sortIds sortBy Vs) (fun _ => 3) 100 Vs)).length = 18 ∧
    (trisOf (Triangulate (sortIds sortBy (Vs.map fun v => v.Scaled (flt 1 (-30)))) (fun _ => 3) 100 (Vs.map fun v => v.Scaled (flt 1 (-30))))).length = 3 :=
  ⟨sixF, insSort, by decide +kernel, by decide +kernel⟩

/-- C95 is false for the origin in float64, also when every coordinate is moved without rounding (`2^52` is added to small integers): the midpoint of the box
and the circumcenter of the seed are rounded differently, the points are sorted differently, and other triangles are returned.
Over the rationals the origin does not matter (`C95_origin`). -/
theorem C95_origin_float_refuted : ∃ (t : R3.Vector F64) (Vs : List (R3.Vector F64)) (sortBy : (ℤ → ℤ → Bool) → List ℤ → List ℤ),
    (∀ v ∈ Vs, ShiftOkV t v) ∧
    trisOf (Triangulate (sortIds sortBy Vs) (fun _ => 3) 100 Vs) = [4, 5, 0, 5, 1, 0, 4, 2, 5, 0, 2, 4, 5, 3, 1, 2, 3, 5] ∧
    trisOf (Triangulate (sortIds sortBy (Vs.map fun v => R3.Add v t)) (fun _ => 3) 100 (Vs.map fun v => R3.Add v t)) =
      [5, 0, 4, 5, 1, 0, 4, 3, 5, 5, 3, 1, 0, 2, 4, 4, 2, 3] := by
  refine ⟨⟨flt 1 52, flt 0 0, flt 0 0⟩, sixF, insSort, ?_, by decide +kernel, by decide +kernel⟩
  have key : ∀ v ∈ sixF, ∀ w ∈ [(v.X, flt 1 52), (v.Y, flt 0 0), (v.Z, flt 0 0)], (w.1.Finite ∧ (w.1.toQ = w.1.toQ.num ∧ |w.1.toQ| ≤ 2 ^ (90:ℤ))) ∧
      (w.1 + w.2).Finite ∧ (w.1 + w.2).toQ = w.1.toQ + w.2.toQ ∧ (w.1 + w.2).toQ = (w.1 + w.2).toQ.num ∧ |(w.1 + w.2).toQ| ≤ 2 ^ (90:ℤ) := by decide +kernel
  have mk : ∀ {x t : F64}, ((x.Finite ∧ (x.toQ = x.toQ.num ∧ |x.toQ| ≤ 2 ^ (90:ℤ))) ∧
      (x + t).Finite ∧ (x + t).toQ = x.toQ + t.toQ ∧ (x + t).toQ = (x + t).toQ.num ∧ |(x + t).toQ| ≤ 2 ^ (90:ℤ)) → ShiftOk t x := by
    rintro x t ⟨⟨a, b, c⟩, d, e, f, g⟩
    have m : ∀ q : ℚ, q = q.num → Mult (-90) q := fun q hq => Mult.mono (lo := 0) ⟨q.num, by rw [zpow_zero, mul_one]; exact hq⟩ (by omega)
    exact ⟨⟨a, m _ b, c⟩, d, e, m _ f, g⟩
  intro v hv
  exact ⟨mk (key v hv (v.X, flt 1 52) (by simp)), mk (key v hv (v.Y, flt 0 0) (by simp)), mk (key v hv (v.Z, flt 0 0) (by simp))⟩

/-- the six points, measured in thirds of the unit and moved, have the same triangles -/
example : trisOf (Triangulate (sortIds insSort (sixQ.map (place (1 / 3) 5 (-7)))) (fun _ => 3) 100 (sixQ.map (place (1 / 3) 5 (-7)))) =
    [4, 5, 0, 5, 1, 0, 4, 2, 5, 0, 2, 4, 5, 3, 1, 2, 3, 5] := by
  rw [C95_triangulate (by norm_num) 5 (-7) (by unfold NearKept; decide +kernel)]
  decide +kernel

/-- and so has the hull -/
example : ConvexHull (sortPoints fun _ less => (List.range 6).insertionSort fun i j => less j i = false) (sixQ.map (place (1 / 3) 5 (-7))) =
    [⟨5, -7, 0⟩, ⟨6, -7, 0⟩, ⟨6, -7 + 2 / 3, 0⟩, ⟨5, -7 + 2 / 3, 0⟩] := by
  rw [C95_hull (by norm_num) 5 (-7) (by unfold NearKept; decide +kernel)]
  decide +kernel

/-- four points in space, moved and scaled: the coordinates stay below the largest float64 -/
example : ∀ p ∈ ([⟨0, 0, 0⟩, ⟨2, 0, 0⟩, ⟨0, 3, 0⟩, ⟨1, 1, 4⟩] : List (R3.Vector ℚ)), BelowMax p ∧ BelowMax (place3 (1 / 7) ⟨10, 20, 30⟩ p) := by
  unfold BelowMax; decide +kernel

/-- the six points in float64 may be divided by `2^20` and multiplied by `2^80` -/
example : ∀ k ∈ [(-20 : ℤ), 80], (∀ v ∈ sixF, RoomyV k v) ∧ NearKeptF k sixF := by
  intro k hk
  have key : ∀ k ∈ [(-20 : ℤ), 80], (∀ v ∈ sixF, ∀ x ∈ [v.X, v.Y, v.Z], x.Finite ∧ (x.toQ = x.toQ.num ∧ |x.toQ| ≤ 2 ^ (90:ℤ)) ∧
      ((2 ^ (20:ℤ) * (2 ^ k * x.toQ) : ℚ) = (2 ^ (20:ℤ) * (2 ^ k * x.toQ)).num ∧ |2 ^ k * x.toQ| ≤ 2 ^ (90:ℤ))) ∧ NearKeptF k sixF := by
    unfold NearKeptF; decide +kernel
  obtain ⟨h1, h2⟩ := key k hk
  have mk : ∀ {x : F64}, (x.Finite ∧ (x.toQ = x.toQ.num ∧ |x.toQ| ≤ 2 ^ (90:ℤ)) ∧
      ((2 ^ (20:ℤ) * (2 ^ k * x.toQ) : ℚ) = (2 ^ (20:ℤ) * (2 ^ k * x.toQ)).num ∧ |2 ^ k * x.toQ| ≤ 2 ^ (90:ℤ))) → Roomy k x := by
    rintro x ⟨a, ⟨b, c⟩, d, e⟩
    refine ⟨a, ⟨Mult.mono (lo := 0) ⟨x.toQ.num, by rw [zpow_zero, mul_one]; exact b⟩ (by omega), c⟩,
      Mult.mono (lo := -20) ⟨(2 ^ (20:ℤ) * (2 ^ k * x.toQ) : ℚ).num, ?_⟩ (by omega), e⟩
    rw [← d, show ((2:ℚ) ^ (20:ℤ) * (2 ^ k * x.toQ)) * 2 ^ (-20:ℤ) = (2 ^ (20:ℤ) * 2 ^ (-20:ℤ)) * (2 ^ k * x.toQ) by ring, ← zpow_add₀ (by norm_num)]
    norm_num
  exact ⟨fun v hv => ⟨mk (h1 v hv v.X (by simp)), mk (h1 v hv v.Y (by simp)), mk (h1 v hv v.Z (by simp))⟩, h2⟩

end Verif.Props
