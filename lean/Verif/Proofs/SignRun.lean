import Verif.Proofs.GridRun
import Verif.Props.DelaunatorSeed
/-!
# Runs of the triangulator at binary64 in which the tests between points give the exact answers
-/
namespace Verif.Proofs
open Verif Verif.F64 Verif.Tri2 Verif.Props Verif.Spec

theorem sub_eqZ' (c : F64) {x y : F64} (h : EqZ x y) : EqZ (c - x) (c - y) := by
  rcases h with rfl | ⟨s, t, rfl, rfl⟩
  · exact EqZ.refl _
  · show EqZ (F64.add c (zero !s)) (F64.add c (zero !t))
    cases c with
    | nan => exact Or.inl rfl
    | inf => exact Or.inl rfl
    | zero r => exact Or.inr ⟨_, _, rfl, rfl⟩
    | fin q h => exact Or.inl rfl

theorem eqZ_trans {x y z : F64} (h : EqZ x y) (h' : EqZ y z) : EqZ x z := by
  rcases h with rfl | ⟨s, t, rfl, rfl⟩
  · exact h'
  · rcases h' with rfl | ⟨s', t', h1, rfl⟩
    · exact Or.inr ⟨_, _, rfl, rfl⟩
    · exact Or.inr ⟨_, _, rfl, rfl⟩

theorem sq_eqZ' {x y : F64} (h : EqZ x y) : x * x = y * y := by
  rcases h with rfl | ⟨s, t, rfl, rfl⟩
  · rfl
  · show F64.round (s != s) _ = F64.round (t != t) _
    simp [F64.toQ]

theorem dist_eqZ {v w v' w' : R3.Vector F64} (hx : EqZ v.X v'.X) (hy : EqZ v.Y v'.Y) (hz : v.Z = v'.Z) (hx' : EqZ w.X w'.X) (hy' : EqZ w.Y w'.Y)
    (hz' : w.Z = w'.Z) : R3.SquaredDistance v w = R3.SquaredDistance v' w' := by
  simp only [R3.SquaredDistance, R3.Vector.Norm2, R3.Dot, R3.Sub]
  rw [sq_eqZ' (eqZ_trans (sub_eqZ hx w.X) (sub_eqZ' _ hx')), sq_eqZ' (eqZ_trans (sub_eqZ hy w.Y) (sub_eqZ' _ hy')), hz, hz']

theorem sub_eqZ2 {x y x' y' : F64} (h : EqZ x x') (h' : EqZ y y') : EqZ (x - y) (x' - y') := eqZ_trans (sub_eqZ h y) (sub_eqZ' x' h')

theorem neg_eqZ {x y : F64} (h : EqZ x y) : EqZ (-x) (-y) := by
  rcases h with rfl | ⟨s, t, rfl, rfl⟩
  · exact EqZ.refl _
  · exact Or.inr ⟨_, _, rfl, rfl⟩

theorem add_eqZ2 {x y x' y' : F64} (h : EqZ x x') (h' : EqZ y y') : EqZ (x + y) (x' + y') := by
  have hs : ∀ a b : F64, a + b = a - -b := fun a b => by
    show F64.add a b = F64.add a (F64.neg (F64.neg b))
    rw [neg_neg']
  rw [hs, hs]; exact sub_eqZ2 h (neg_eqZ h')

theorem mul_eqZ2 {x y x' y' : F64} (h : EqZ x x') (h' : EqZ y y') : EqZ (x * y) (x' * y') := by
  refine eqZ_trans (EqZ.mul_left x h') ?_
  rw [mul_comm' x, mul_comm' x']
  exact EqZ.mul_left y' h

theorem lt0_eqZ {x y : F64} (h : EqZ x y) : x < 0 ↔ y < 0 := by
  rcases h with rfl | ⟨s, t, rfl, rfl⟩
  · rfl
  · exact Iff.rfl

theorem ge0_eqZ {x y : F64} (h : EqZ x y) : 0 ≤ x ↔ 0 ≤ y := by
  rcases h with rfl | ⟨s, t, rfl, rfl⟩
  · rfl
  · exact Iff.rfl

/-- the same position up to the sign of zero -/
def SameZ (v w : R3.Vector F64) : Prop := EqZ v.X w.X ∧ EqZ v.Y w.Y

theorem area_eqZ {a b c a' b' c' : R3.Vector F64} (ha : SameZ a a') (hb : SameZ b b') (hc : SameZ c c') : EqZ (area a b c) (area a' b' c') := by
  unfold area
  exact sub_eqZ2 (mul_eqZ2 (sub_eqZ2 hb.2 ha.2) (sub_eqZ2 hc.1 hb.1)) (mul_eqZ2 (sub_eqZ2 hb.1 ha.1) (sub_eqZ2 hc.2 hb.2))

theorem det_eqZ {a b c d a' b' c' d' : R3.Vector F64} (ha : SameZ a a') (hb : SameZ b b') (hc : SameZ c c') (hd : SameZ d d') :
    EqZ (inCircleDet a b c d) (inCircleDet a' b' c' d') := by
  unfold inCircleDet
  have dx := sub_eqZ2 ha.1 hd.1
  have dy := sub_eqZ2 ha.2 hd.2
  have ex := sub_eqZ2 hb.1 hd.1
  have ey := sub_eqZ2 hb.2 hd.2
  have fx := sub_eqZ2 hc.1 hd.1
  have fy := sub_eqZ2 hc.2 hd.2
  have ap := add_eqZ2 (mul_eqZ2 dx dx) (mul_eqZ2 dy dy)
  have bp := add_eqZ2 (mul_eqZ2 ex ex) (mul_eqZ2 ey ey)
  have cp := add_eqZ2 (mul_eqZ2 fx fx) (mul_eqZ2 fy fy)
  exact add_eqZ2 (sub_eqZ2 (mul_eqZ2 dx (sub_eqZ2 (mul_eqZ2 ey cp) (mul_eqZ2 bp fy))) (mul_eqZ2 dy (sub_eqZ2 (mul_eqZ2 ex cp) (mul_eqZ2 bp fx))))
    (mul_eqZ2 ap (sub_eqZ2 (mul_eqZ2 ex fy) (mul_eqZ2 ey fx)))

/-- the point with these coordinates -/
def atQ (q : R3.Vector ℚ) : R3.Vector F64 := ⟨ofQ q.X, ofQ q.Y, 0⟩

/-- the tests of the program, as tests of positions -/
def signGeo (m : ℕ) (o : R3.Vector F64) : Geo (R3.Vector ℚ) where
  areaGe a b c := decide (0 ≤ area (atQ a) (atQ b) (atQ c))
  areaLt a b c := decide (area (atQ a) (atQ b) (atQ c) < 0)
  inC a b c d := inCircle (atQ a) (atQ b) (atQ c) (atQ d)
  near p q := decide (R3.SquaredDistance (atQ p) (atQ q) < eps)
  key q := hashKey m o (atQ q)

theorem same_atQ {v : R3.Vector F64} (hx : v.X.Finite) (hy : v.Y.Finite) : SameZ v (atQ (exactV v)) := ⟨ofQ_eqZ hx, ofQ_eqZ hy⟩

/-- the tests of the program between points of the list that decide about its run give the answers of exact arithmetic: the signs of all
areas, and the in-circle test for the far corner of two clockwise triangles with a common edge -/
structure SignsRight (Vs : List (R3.Vector F64)) : Prop where
  areas : ∀ a ∈ Vs, ∀ b ∈ Vs, ∀ c ∈ Vs, (area a b c).Finite ∧ (area a b c < 0 ↔ area (exactV a) (exactV b) (exactV c) < 0) ∧
    (0 < area a b c ↔ 0 < area (exactV a) (exactV b) (exactV c))
  circle : ∀ a ∈ Vs, ∀ b ∈ Vs, ∀ c ∈ Vs, ∀ d ∈ Vs, 0 < area (exactV a) (exactV b) (exactV c) → 0 < area (exactV d) (exactV c) (exactV b) →
    inCircle a b c d = inCircle (exactV a) (exactV b) (exactV c) (exactV d)

theorem sign_agree {Vs : List (R3.Vector F64)} (hfin : FinitePlanar Vs) (m : ℕ) (o : R3.Vector F64) :
    Agree Vs id exactV (Geo.ofScalar m o) (signGeo m o) := by
  have same : ∀ a ∈ Vs, SameZ a (atQ (exactV a)) := fun a ha => same_atQ (hfin a ha).1 (hfin a ha).2.1
  constructor
  · intro a ha b hb c hc
    simp only [Geo.ofScalar, signGeo, id]
    rw [decide_eq_decide, ge0_eqZ (area_eqZ (same a ha) (same b hb) (same c hc))]
  · intro a ha b hb c hc
    simp only [Geo.ofScalar, signGeo, id]
    rw [decide_eq_decide, lt0_eqZ (area_eqZ (same a ha) (same b hb) (same c hc))]
  · intro a ha b hb c hc d hd
    simp only [Geo.ofScalar, signGeo, id, inCircle]
    rw [decide_eq_decide, lt0_eqZ (det_eqZ (same a ha) (same b hb) (same c hc) (same d hd))]
  · intro a ha b hb
    simp only [Geo.ofScalar, signGeo, id]
    rw [dist_eqZ (v := a) (w := b) (v' := atQ (exactV a)) (w' := atQ (exactV b)) (same a ha).1 (same a ha).2 (hfin a ha).2.2 (same b hb).1 (same b hb).2
      (hfin b hb).2.2]
  · intro a ha
    exact hashKey_eqZ _ _ (same a ha).1 (same a ha).2

theorem sign_tells {Vs : List (R3.Vector F64)} (hfin : FinitePlanar Vs) (hg : SignsRight Vs) (m : ℕ) (o : R3.Vector F64) :
    Tells (signGeo m o) (Vs.map exactV) := by
  have z0 : (0 : F64).Finite := trivial
  have h0 : (0 : F64).toQ = 0 := rfl
  have A := sign_agree hfin m o
  refine ⟨fun _ _ _ => inC_self_float _ _ _, fun _ _ => decide_eq_false (areaLt_self1_float _ _), fun _ _ => decide_eq_false (areaLt_self2_float _ _), ?_, ?_, ?_⟩
  · intro a ha b hb c hc d hd h1 h2
    obtain ⟨a, ha', rfl⟩ := List.mem_map.mp ha
    obtain ⟨b, hb', rfl⟩ := List.mem_map.mp hb
    obtain ⟨c, hc', rfl⟩ := List.mem_map.mp hc
    obtain ⟨d, hd', rfl⟩ := List.mem_map.mp hd
    rw [← A.inC a ha' b hb' c hc' d hd']
    exact hg.circle a ha' b hb' c hc' d hd' h1 h2
  · intro a ha b hb c hc
    obtain ⟨a, ha', rfl⟩ := List.mem_map.mp ha
    obtain ⟨b, hb', rfl⟩ := List.mem_map.mp hb
    obtain ⟨c, hc', rfl⟩ := List.mem_map.mp hc
    obtain ⟨_, h1, _⟩ := hg.areas a ha' b hb' c hc'
    rw [← A.lt a ha' b hb' c hc', ← decide_eq_decide.mpr h1]; rfl
  · intro a ha b hb c hc
    obtain ⟨a, ha', rfl⟩ := List.mem_map.mp ha
    obtain ⟨b, hb', rfl⟩ := List.mem_map.mp hb
    obtain ⟨c, hc', rfl⟩ := List.mem_map.mp hc
    obtain ⟨hf, h1, _⟩ := hg.areas a ha' b hb' c hc'
    rw [← A.ge a ha' b hb' c hc']
    simp only [Geo.ofScalar, id]
    rw [lt_fin hf z0, h0] at h1
    rw [decide_eq_decide, le_fin z0 hf, h0, ← not_lt, h1, not_lt]

/-- the seed triangle of the call is clockwise, its circle is empty, both exactly and for the tests of the program, and its centre, as computed,
is finite and not one of the points -/
structure SeedRight (Vs : List (R3.Vector F64)) (i0 i1 i2 : ℕ) (o : R3.Vector F64) : Prop where
  seeds : seedsOf Vs = .ok (some (i0, i1, i2, o))
  pos : ∀ p0 p1 p2, Vs[i0]? = some p0 → Vs[i1]? = some p1 → Vs[i2]? = some p2 → 0 < area (exactV p0) (exactV p1) (exactV p2)
  empty : ∀ p0 p1 p2, Vs[i0]? = some p0 → Vs[i1]? = some p1 → Vs[i2]? = some p2 → ∀ v ∈ Vs,
    0 ≤ inCircleDet (exactV p0) (exactV p1) (exactV p2) (exactV v)
  safe : EmptySeed Vs i0 i1 i2
  finite : o.X.Finite ∧ o.Y.Finite
  size : |o.X.toQ| ≤ 2 ^ 1022 ∧ |o.Y.toQ| ≤ 2 ^ 1022
  sizes : ∀ v ∈ Vs, |v.X.toQ| ≤ 2 ^ 1022 ∧ |v.Y.toQ| ≤ 2 ^ 1022
  other : ∀ v ∈ Vs, v.X.toQ ≠ o.X.toQ ∨ v.Y.toQ ≠ o.Y.toQ

/-- larger computed distances from the computed centre are not smaller exact distances from the exact centre -/
def OrderRight (Vs : List (R3.Vector F64)) (i0 i1 i2 : ℕ) (o : R3.Vector F64) : Prop :=
  ∀ p0 p1 p2, Vs[i0]? = some p0 → Vs[i1]? = some p1 → Vs[i2]? = some p2 → ∀ v ∈ Vs, ∀ w ∈ Vs,
    ¬ R3.SquaredDistance w o < R3.SquaredDistance v o →
    dist2 (exactV v) (circumcenter (exactV p0) (exactV p1) (exactV p2)) ≤ dist2 (exactV w) (circumcenter (exactV p0) (exactV p1) (exactV p2))

/-- `a` is a corner of the seed triangle, or its computed distance from the computed centre is not larger than that of `v` -/
def NotAfter (Vs : List (R3.Vector F64)) (i0 i1 i2 : ℕ) (o a v : R3.Vector F64) : Prop :=
  (Vs[i0]? = some a ∨ Vs[i1]? = some a ∨ Vs[i2]? = some a) ∨ ¬ R3.SquaredDistance v o < R3.SquaredDistance a o

/-- a point in a clockwise triangle whose corners do not come after it is at the position of a corner -/
def OrderFine (Vs : List (R3.Vector F64)) (i0 i1 i2 : ℕ) (o : R3.Vector F64) : Prop :=
  ∀ a ∈ Vs, ∀ b ∈ Vs, ∀ c ∈ Vs, ∀ v ∈ Vs, NotAfter Vs i0 i1 i2 o a v → NotAfter Vs i0 i1 i2 o b v → NotAfter Vs i0 i1 i2 o c v →
    0 < area (exactV a) (exactV b) (exactV c) → 0 ≤ area (exactV v) (exactV a) (exactV b) → 0 ≤ area (exactV v) (exactV b) (exactV c) →
    0 ≤ area (exactV v) (exactV c) (exactV a) → SameXY (exactV a) (exactV v) ∨ SameXY (exactV b) (exactV v) ∨ SameXY (exactV c) (exactV v)

/-- the right order will do -/
theorem OrderRight.fine {Vs : List (R3.Vector F64)} {i0 i1 i2 : ℕ} {o : R3.Vector F64} (hS : SeedRight Vs i0 i1 i2 o) (h : OrderRight Vs i0 i1 i2 o) :
    OrderFine Vs i0 i1 i2 o := by
  obtain ⟨l0, l1, l2, _⟩ := seeds_call hS.seeds
  have g0 : Vs[i0]? = some Vs[i0] := by simp
  have g1 : Vs[i1]? = some Vs[i1] := by simp
  have g2 : Vs[i2]? = some Vs[i2] := by simp
  have hpos := hS.pos _ _ _ g0 g1 g2
  have hemp := hS.empty _ _ _ g0 g1 g2
  have hord := h _ _ _ g0 g1 g2
  generalize Vs[i0] = p0 at g0 hpos hemp hord
  generalize Vs[i1] = p1 at g1 hpos hemp hord
  generalize Vs[i2] = p2 at g2 hpos hemp hord
  obtain ⟨k1, k2, k3⟩ := center_spec hpos.ne'
  have conv : ∀ q o : R3.Vector ℚ, dist2 q o = sqd o q := fun q o => by unfold dist2 sqd; ring
  have far : ∀ a ∈ Vs, ∀ v ∈ Vs, NotAfter Vs i0 i1 i2 o a v →
      dist2 (exactV a) (circumcenter (exactV p0) (exactV p1) (exactV p2)) ≤ dist2 (exactV v) (circumcenter (exactV p0) (exactV p1) (exactV p2)) := by
    intro a ha v hv hn
    rcases hn with hn | hn
    · have h1 := hemp v hv
      rw [k3] at h1
      have h2 := nonneg_of_mul_nonneg_right h1 hpos
      rw [conv, conv]
      rcases hn with e | e | e
      · rw [g0] at e; injection e with e; subst e; linarith
      · rw [g1] at e; injection e with e; subst e; linarith
      · rw [g2] at e; injection e with e; subst e; linarith
    · exact hord a ha v hv hn
  intro a ha b hb c hc v hv na nb nc hp h0 h1 h2
  exact corner_of_far hp h0 h1 h2 (far a ha v hv na) (far b hb v hv nb) (far c hc v hv nc)

theorem idLess_false {c p q : R3.Vector F64} (h : idLess c p q = false) : ¬ R3.SquaredDistance p c < R3.SquaredDistance q c := by
  intro hlt
  unfold idLess at h
  have hne : (R3.SquaredDistance p c != R3.SquaredDistance q c) = true := by
    generalize R3.SquaredDistance p c = x at hlt
    generalize R3.SquaredDistance q c = y at hlt
    show (!(F64.beq x y)) = true
    have hlt' : F64.lt x y = true := hlt
    clear hlt
    cases x <;> cases y <;> simp_all [F64.lt, F64.beq]
    all_goals exact decide_eq_false (of_decide_eq_true hlt').ne
  simp only [hne, if_true] at h
  rw [decide_eq_false_iff_not] at h
  exact h hlt

theorem finite_planar {Vs : List (R3.Vector F64)} (h : FinitePlanar Vs) : Planar (Vs.map exactV) := by
  refine ⟨0, fun v hv => ?_⟩
  obtain ⟨w, hw, rfl⟩ := List.mem_map.mp hv
  show w.Z.toQ = 0
  rw [(h w hw).2.2]; rfl

theorem sign_run (srt : R3.Vector F64 → List ℤ → List ℤ) (hsrt : ∀ c l, (srt c l).Perm l) (hashSize : ℕ → ℕ)
    {fuel : ℕ} {Vs : List (R3.Vector F64)} (hfin : FinitePlanar Vs) (hg : SignsRight Vs) {i0 i1 i2 : ℕ} {o : R3.Vector F64} (hS : SeedRight Vs i0 i1 i2 o)
    (hash : 0 < hashSize Vs.length) (hash' : hashSize Vs.length < 2 ^ 53) (hf : 6 * Vs.length < fuel) :
    ∃ hull ts hs, Triangulate srt hashSize fuel Vs = .ok (.triangulation hull ts hs) ∧
      Consistent (Vs.map exactV) (hull.map exactV) ts hs ∧
      Final (Vs.map exactV) (hull.map exactV) ts hs (SortsCall srt Vs ∧ OrderFine Vs i0 i1 i2 o)
        (fun a b => (signGeo (hashSize Vs.length) o).near a b = true) := by
  obtain ⟨l0, l1, l2, d01, d12, d20⟩ := seeds_call hS.seeds
  have g0 : Vs[i0]? = some Vs[i0] := by simp
  have g1 : Vs[i1]? = some Vs[i1] := by simp
  have g2 : Vs[i2]? = some Vs[i2] := by simp
  have m0 : Vs[i0] ∈ Vs := List.getElem_mem _
  have m1 : Vs[i1] ∈ Vs := List.getElem_mem _
  have m2 : Vs[i2] ∈ Vs := List.getElem_mem _
  have hpos := hS.pos _ _ _ g0 g1 g2
  have hemp := hS.empty _ _ _ g0 g1 g2
  generalize Vs[i0] = p0 at g0 m0 hpos hemp
  generalize Vs[i1] = p1 at g1 m1 hpos hemp
  generalize Vs[i2] = p2 at g2 m2 hpos hemp
  have S : Seeds (Vs.map exactV) i0 i1 i2 (exactV p0) (exactV p1) (exactV p2) := by
    refine ⟨by simp [g0], by simp [g1], by simp [g2], d01, d12, d20, hpos, fun v hv => ?_⟩
    obtain ⟨w, hw, rfl⟩ := List.mem_map.mp hv
    exact hemp w hw
  have H : SafeSeed (signGeo (hashSize Vs.length) o) (Vs.map exactV) i0 i1 i2 := by
    intro p n0 n1 n2 v v0 v1 v2 hv h0 h1 h2
    rw [List.getElem?_map] at hv h0 h1 h2
    obtain ⟨u, hu, rfl⟩ := Option.map_eq_some_iff.mp hv
    obtain ⟨u0, hu0, rfl⟩ := Option.map_eq_some_iff.mp h0
    obtain ⟨u1, hu1, rfl⟩ := Option.map_eq_some_iff.mp h1
    obtain ⟨u2, hu2, rfl⟩ := Option.map_eq_some_iff.mp h2
    have A := sign_agree hfin (hashSize Vs.length) o
    have m := List.mem_of_getElem? hu
    have m0 := List.mem_of_getElem? hu0
    have m1 := List.mem_of_getElem? hu1
    have m2 := List.mem_of_getElem? hu2
    rw [← A.inC _ m _ m1 _ m0 _ m2, ← A.inC _ m _ m2 _ m1 _ m0, ← A.inC _ m _ m0 _ m2 _ m1]
    exact hS.safe p n0 n1 n2 u u0 u1 u2 hu hu0 hu1 hu2
  set m := hashSize Vs.length with hm
  set ids := srt o (fids Vs.length) with hids
  have hperm : ids.Perm ((List.range (Vs.map exactV).length).map Int.ofNat) := by
    rw [List.length_map]; exact hsrt o _
  have hf' : 6 * (Vs.map exactV).length < fuel := by rw [List.length_map]; exact hf
  have hkey : ∀ v ∈ Vs.map exactV, 0 ≤ (signGeo m o).key v ∧ (signGeo m o).key v < m := by
    intro v hv
    obtain ⟨w, hw, rfl⟩ := List.mem_map.mp hv
    have hk : (signGeo m o).key (exactV w) = hashKey m o w := ((sign_agree hfin m o).key w hw).symm
    rw [hk]
    exact C14_hashKey_float o w m hash hash' hS.finite ⟨(hfin w hw).1, (hfin w hw).2.1⟩ hS.size (hS.sizes w hw) (hS.other w hw)
  obtain ⟨s, hullQ, e1, e2, hcons⟩ := geo_run (sign_tells hfin hg m o) hkey hperm hf' S H
  obtain ⟨s', hullQ', e1', e2', hfinl⟩ := geo_final_of (sign_tells hfin hg m o) hkey hperm hf' S H
  rw [e1] at e1'; injection e1' with e1'; subst e1'
  rw [e2] at e2'; injection e2' with e2'; subst e2'
  have ec := core_map (sign_agree hfin m o) fuel m i0 i1 i2 ids
  rw [List.map_id, e1] at ec
  have eh := hullWalk_map (L := Vs) (e := exactV) s fuel s.hull []
  rw [List.map_nil, e2] at eh
  obtain ⟨hull, eh1, eh2⟩ := map'_eq_ok eh.symm
  refine ⟨hull, s.triangles, s.halfedges, ?_, ?_, ?_⟩
  · rw [triangulate_seeds (by omega) hS.seeds]
    unfold restOf
    rw [ec, Res.bind_ok, eh1, Res.bind_ok]; rfl
  · rw [eh2]; exact hcons
  · rw [eh2]
    obtain ⟨s', T, V, R, x, l, c, j0, j1, j2, F, hR, hpa, h2, h3, h4, hq⟩ := hfinl
    refine ⟨s', T, V, R, x, l, c, j0, j1, j2, F, hR, hpa, h2, h3, h4, fun ⟨hs, hO⟩ j hj => ?_⟩
    obtain ⟨hperm', hsorted⟩ := hs i0 i1 i2 o hS.seeds
    have getQ : ∀ w ∈ ids, ∃ n : ℕ, w = n ∧ Vs[n]? = some (fpt Vs w) ∧ pz (Vs.map exactV) w = exactV (fpt Vs w) := by
      intro w hw
      have := hperm'.mem_iff.mp hw
      obtain ⟨n, hn, rfl⟩ := List.mem_map.mp this
      have hn' := List.mem_range.mp hn
      have hv : fpt Vs (Int.ofNat n) = Vs[n] := by
        unfold fpt; simp [hn']
      rw [hv]
      refine ⟨n, rfl, by simp, ?_⟩
      show ptOf (Vs.map exactV) n = _
      exact ptOf_eq (by simp [hn'])
    have seedQ : ∀ u : ℕ, (u = i0 ∨ u = i1 ∨ u = i2) → (u:ℤ) ∈ ids := by
      intro u hu
      refine hperm'.mem_iff.mpr (List.mem_map.mpr ⟨u, List.mem_range.mpr ?_, rfl⟩)
      rcases hu with rfl | rfl | rfl <;> assumption
    refine hq ⟨finite_planar hfin, fun i j => i ∈ ids ∧ j ∈ ids ∧ NotAfter Vs i0 i1 i2 o (fpt Vs i) (fpt Vs j), ?_, ?_, ?_⟩ j hj
    · rintro a b d j ⟨ma, mj, na⟩ ⟨mb, _, nb⟩ ⟨md, _, nd⟩
      obtain ⟨_, _, ga, ea⟩ := getQ a ma
      obtain ⟨_, _, gb, eb⟩ := getQ b mb
      obtain ⟨_, _, gd, ed⟩ := getQ d md
      obtain ⟨_, _, gj, ej⟩ := getQ j mj
      rw [ea, eb, ed, ej]
      exact hO _ (List.mem_of_getElem? ga) _ (List.mem_of_getElem? gb) _ (List.mem_of_getElem? gd) _ (List.mem_of_getElem? gj) na nb nd
    · intro u hu j hj
      refine ⟨seedQ u hu, hj, Or.inl ?_⟩
      obtain ⟨n, hn, gn, _⟩ := getQ u (seedQ u hu)
      have : n = u := by exact_mod_cast hn.symm
      subst this
      rcases hu with rfl | rfl | rfl
      · exact Or.inl gn
      · exact Or.inr (Or.inl gn)
      · exact Or.inr (Or.inr gn)
    · refine List.Pairwise.imp_of_mem ?_ hsorted
      intro i k hi hk hik
      exact ⟨hi, hk, Or.inr (idLess_false hik)⟩

end Verif.Proofs
