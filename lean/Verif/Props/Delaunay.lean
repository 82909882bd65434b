import Verif.Spec.Delaunay
import Verif.Proofs.DelCover
import Verif.Proofs.DelTile
import Mathlib.Data.Prod.Lex
import Mathlib.Data.List.Sort
import Verif.Props.DelaunatorExact
/-!
# C67 - C70: the result of `Triangulate` is a Delaunay triangulation of its convex hull (exact arithmetic)
-/
namespace Verif.Props
open Verif Verif.Tri2 Verif.Proofs Verif.Spec

variable {K : Type} [Field K] [LinearOrder K] [IsStrictOrderedRing K]

omit [LinearOrder K] [IsStrictOrderedRing K] in
theorem area_orient (a b c : R3.Vector K) : area a b c = - orient a b c := by unfold area orient; ring

omit [IsStrictOrderedRing K] in
theorem center_aux {dx dy ex ey X Y : K} (h2 : (2:K) ≠ 0) (hd : dx*ey - dy*ex ≠ 0) (hX : X = (ey*(dx*dx+dy*dy) - dy*(ex*ex+ey*ey))*(1/2)/(dx*ey-dy*ex))
    (hY : Y = (dx*(ex*ex+ey*ey) - ex*(dx*dx+dy*dy))*(1/2)/(dx*ey-dy*ex)) :
    2*(X*dx+Y*dy) = dx*dx+dy*dy ∧ 2*(X*ex+Y*ey) = ex*ex+ey*ey := by
  rw [eq_div_iff hd] at hX hY
  have hh : (2:K) * (1/2) = 1 := by field_simp
  constructor
  · apply mul_right_cancel₀ hd
    linear_combination (2*dx)*hX + (2*dy)*hY + (dx*dx+dy*dy)*(dx*ey-dy*ex)*hh
  · apply mul_right_cancel₀ hd
    linear_combination (2*ex)*hX + (2*ey)*hY + (ex*ex+ey*ey)*(dx*ey-dy*ex)*hh

/-- C13: `circumcenter` has the same distance to the three corners, and the in-circle determinant measures the power of a point -/
theorem center_spec {a b c : R3.Vector K} (h : area a b c ≠ 0) :
    sqd (circumcenter a b c) a = sqd (circumcenter a b c) b ∧ sqd (circumcenter a b c) a = sqd (circumcenter a b c) c ∧
      ∀ v, inCircleDet a b c v = area a b c * (sqd (circumcenter a b c) v - sqd (circumcenter a b c) a) := by
  have hd : (b.X - a.X) * (c.Y - a.Y) - (b.Y - a.Y) * (c.X - a.X) ≠ 0 := by
    have : area a b c = - ((b.X - a.X) * (c.Y - a.Y) - (b.Y - a.Y) * (c.X - a.X)) := area_orient a b c
    intro h0; rw [h0] at this; simp [this] at h
  obtain ⟨k1, k2⟩ := center_aux (X := (circumcenter a b c).X - a.X) (Y := (circumcenter a b c).Y - a.Y) two_ne_zero hd
    (by simp [circumcenter]) (by simp [circumcenter])
  generalize circumcenter a b c = o at *
  have h1 : sqd o a = sqd o b := by unfold sqd; linear_combination k1
  have h2 : sqd o a = sqd o c := by unfold sqd; linear_combination k2
  refine ⟨h1, h2, ?_⟩
  intro v
  have i1 : inCircleDet a b c v = area a b c * (sqd o v - sqd o a) - area v c a * (sqd o b - sqd o a) - area v a b * (sqd o c - sqd o a) := by
    simp only [inCircleDet, area, sqd]; ring
  rw [i1, ← h1, ← h2]; ring

/-- the point with number `z` -/
def pz (Vs : List (R3.Vector K)) (z : ℤ) : R3.Vector K := ptOf Vs z.toNat

omit [LinearOrder K] [IsStrictOrderedRing K] in
theorem pz_nat (Vs : List (R3.Vector K)) (i : ℕ) : pz Vs (i:ℤ) = ptOf Vs i := rfl

section run
variable [FloorRing K]

theorem exactGeo (Vs : List (R3.Vector K)) (m : ℕ) (center : R3.Vector K) : ExactGeo (Geo.ofScalar m center) Vs (pz Vs) :=
  ⟨(tells_exact m center Vs).inC, (tells_exact m center Vs).lt, (tells_exact m center Vs).ge, fun _ _ h => ptOf_eq h⟩

omit [FloorRing K] in
theorem seed_full {Vs : List (R3.Vector K)} {i0 i1 i2 : ℕ} {p0 p1 p2 : R3.Vector K} (S : Seeds Vs i0 i1 i2 p0 p1 p2) {c n : ℕ} (hn : Vs.length = n) {s : St}
    (I : RInv (crossOf Vs) True c n i0 i1 i2 1 {i0, i1, i2} [i2, i0, i1] s) :
    Full (pz Vs) (crossOf Vs) c n i0 i1 i2 1 {i0, i1, i2} [i2, i0, i1] s := by
  obtain ⟨_, t0, t1, t2⟩ := I.seed
  have e0 : pz Vs (i0:ℕ) = p0 := ptOf_eq S.g0
  have e1 : pz Vs (i1:ℕ) = p1 := ptOf_eq S.g1
  have e2 : pz Vs (i2:ℕ) = p2 := ptOf_eq S.g2
  have a0 : tArea (pz Vs) (tr s) 0 = area p0 p1 p2 := by
    unfold tArea
    rw [show pv 0 = 2 from rfl, show nx 0 = 1 from rfl, t0, t1, t2, e0, e1, e2, area_cyc']
  have d0 : ∀ v, tDet (pz Vs) (tr s) 0 v = inCircleDet p0 p1 p2 v := by
    intro v
    unfold tDet
    rw [show pv 0 = 2 from rfl, show nx 0 = 1 from rfl, t0, t1, t2, e0, e1, e2, det_cyc']
  have three : ∀ k < 3*1, k = 0 ∨ k = nx 0 ∨ k = pv 0 := by
    intro k hk
    rw [show nx 0 = 1 from rfl, show pv 0 = 2 from rfl]; omega
  have inV : ∀ v ∈ ({i0, i1, i2} : Finset ℕ), v = i0 ∨ v = i1 ∨ v = i2 := by simp
  have hpos : ∀ k < 3*1, 0 < tArea (pz Vs) (tr s) k := by
    intro k hk
    rcases three k hk with rfl | rfl | rfl
    · rw [a0]; exact S.pos
    · rw [tArea_nx, a0]; exact S.pos
    · rw [tArea_pv, a0]; exact S.pos
  refine ⟨I, ⟨I.mesh, I.tV, hpos, ?_⟩, ?_, ?_⟩
  · intro k hk v hv
    have hvn : v < Vs.length := by rw [hn]; exact I.Vn v hv
    have hmem : pz Vs (v:ℕ) ∈ Vs := by
      rw [pz_nat, ptOf_eq (v := Vs[v]) (by simp)]; exact List.getElem_mem _
    rcases three k hk with rfl | rfl | rfl
    · rw [d0]; exact S.empty _ hmem
    · rw [tDet_nx, d0]; exact S.empty _ hmem
    · rw [tDet_pv, d0]; exact S.empty _ hmem
  · intro x hx y hy v hv
    obtain ⟨t, y', _, o2, o3, _, o5, o6⟩ := I.own x hx
    have : y' = y := by rw [hy] at o2; injection o2 with o2; exact o2.symm
    subst this
    rw [← o5, ← o6]
    have key : ∀ k < 3*1, ∀ v, v = i0 ∨ v = i1 ∨ v = i2 → 0 ≤ area (pz Vs (v:ℕ)) (pz Vs (tr s k)) (pz Vs (tr s (nx k))) := by
      intro k hk v hv
      have hp := (S.pos).le
      rcases three k hk with rfl | rfl | rfl
      · rw [show nx 0 = 1 from rfl, t0, t1, e0, e1]
        rcases hv with rfl | rfl | rfl
        · rw [e0, area_aa]
        · rw [e1, area_aba]
        · rw [e2, area_cyc']; exact hp
      · rw [show nx 0 = 1 from rfl, show nx 1 = 2 from rfl, t1, t2, e1, e2]
        rcases hv with rfl | rfl | rfl
        · rw [e0]; exact hp
        · rw [e1, area_aa]
        · rw [e2, area_aba]
      · rw [nx_pv, show pv 0 = 2 from rfl, t2, t0, e2, e0]
        rcases hv with rfl | rfl | rfl
        · rw [e0, area_aba]
        · rw [e1, area_cyc]; exact hp
        · rw [e2, area_aa]
    exact key t o3 v (inV v hv)
  · have ne01 : ¬ SameXY p0 p1 := fun h => by
      have := S.pos
      rw [h.area, area_aa] at this; exact lt_irrefl _ this
    have ne12 : ¬ SameXY p1 p2 := fun h => by
      have := S.pos
      rw [← area_cyc, h.area, area_aa] at this; exact lt_irrefl _ this
    have ne20 : ¬ SameXY p2 p0 := fun h => by
      have := S.pos
      rw [← area_cyc', h.area, area_aa] at this; exact lt_irrefl _ this
    have sym : ∀ {a b : R3.Vector K}, SameXY a b → SameXY b a := fun h => ⟨h.1.symm, h.2.symm⟩
    intro u hu v hv huv h
    rcases inV u hu with rfl | rfl | rfl <;> rcases inV v hv with rfl | rfl | rfl <;> simp only [e0, e1, e2] at h
    · exact huv rfl
    · exact ne01 h
    · exact ne20 (sym h)
    · exact ne01 (sym h)
    · exact huv rfl
    · exact ne12 h
    · exact ne20 h
    · exact ne12 (sym h)
    · exact huv rfl

/-- `srt` sorts by `Less` -/
def Sorts (srt : R3.Vector K → List ℤ → List ℤ) (Vs : List (R3.Vector K)) : Prop :=
  ∀ c, (srt c ((List.range Vs.length).map Int.ofNat)).Pairwise (fun i j => idLess c (pz Vs j) (pz Vs i) = false)

/-- the end of a run: a valid state whose tables and polygon are the ones returned, and (under `Q`) which points have been inserted -/
def Final (Vs hull : List (R3.Vector K)) (ts hs : List ℤ) (Q : Prop) (near : R3.Vector K → R3.Vector K → Prop) : Prop :=
  ∃ s T V R x l c i0 i1 i2, Full (pz Vs) (crossOf Vs) c Vs.length i0 i1 i2 T V R s ∧ R = x :: l ∧ Path (nd s) x l x ∧
    hull.map some = (x :: l.reverse).map (fun x => Vs[x]?) ∧ ts = s.triangles.take (3*T) ∧ hs = s.halfedges.take (3*T) ∧
    (Q → ∀ j < Vs.length, ∃ u ∈ V, ptOf Vs j = ptOf Vs u ∨ near (ptOf Vs j) (ptOf Vs u))

omit [FloorRing K] in
theorem _root_.Verif.Proofs.Tells.geo {g : Geo (R3.Vector K)} {Vs : List (R3.Vector K)} (G : Tells g Vs) : ExactGeo g Vs (pz Vs) :=
  ⟨G.inC, G.lt, G.ge, fun _ _ h => ptOf_eq h⟩

omit [FloorRing K] in
/-- the final state of a run with exact predicates and what is known about it -/
theorem geo_final_of {g : Geo (R3.Vector K)} {Vs : List (R3.Vector K)} (G' : Tells g Vs) {m : ℕ} (hkey : ∀ v ∈ Vs, 0 ≤ g.key v ∧ g.key v < m)
    {ids : List ℤ} (hids : ids.Perm ((List.range Vs.length).map Int.ofNat)) {fuel : ℕ} (hf : 6 * Vs.length < fuel)
    {i0 i1 i2 : ℕ} {p0 p1 p2 : R3.Vector K} (S : Seeds Vs i0 i1 i2 p0 p1 p2) (H : SafeSeed g Vs i0 i1 i2) :
    ∃ s hull, triangulateCore g Vs fuel m i0 i1 i2 ids = .ok s ∧ hullWalk Vs s fuel s.hull [] = .ok hull ∧
      Final Vs hull s.triangles s.halfedges (Planar Vs ∧ ∃ E, OnlyCorners (pz Vs) E ∧ (∀ u : ℕ, (u = i0 ∨ u = i1 ∨ u = i2) → ∀ j ∈ ids, E u j) ∧ ids.Pairwise E)
        (fun a b => g.near a b = true) := by
  have O := geo_orc G' S H hkey
  have C := geo_call G' S H hkey hids hf
  have hpos : True → 0 < crossOf Vs i0 i1 + crossOf Vs i1 i2 + crossOf Vs i2 i0 := by
    intro _
    have := S.pos
    rwa [← ptOf_eq S.g0, ← ptOf_eq S.g1, ← ptOf_eq S.g2, area_crossOf] at this
  rcases core_ok O rfl C.h0 C.h1 C.h2 C.d01 C.d12 C.d20 hpos C.nodup C.range C.fuel with ⟨s, T, V, R, e, I, s0, tr0, he0, I0, _, RR, _⟩ | h
  swap
  · exact absurd trivial h.2
  have G := G'.geo
  have F0 := seed_full S rfl I0
  have F := run_full G (crossOf_anti Vs) RR F0
  obtain ⟨h, l, ps, hR, h1, h2⟩ := hull_ok (Vs := Vs) I rfl (fuel := fuel) (by have := C.fuel; omega) (s.triangles.take (3*T)) (s.halfedges.take (3*T))
  obtain ⟨h', l', hR', _, hp⟩ := I.ring
  have hhl : h' = h ∧ l' = l := by rw [hR] at hR'; injection hR' with a b; exact ⟨a.symm, b.symm⟩
  obtain ⟨rfl, rfl⟩ := hhl
  refine ⟨_, ps, e, h1, s, T, V, R, h', l', _, i0, i1, i2, F, hR, hp, h2, rfl, rfl, ?_⟩
  rintro ⟨hpl, E, hE, hseed, hs⟩ j hj
  obtain ⟨z, hz⟩ := hpl
  have hZ : ∀ i : ℕ, i < Vs.length → (pz Vs i).Z = z := by
    intro i hi
    rw [pz_nat, ptOf_eq (v := Vs[i]) (by simp)]; exact hz _ (List.getElem_mem _)
  have cov := run_cover (C := fun a b => a = b ∨ g.near a b = true) G (crossOf_anti Vs)
    (fun i j hi hj => by rw [hZ i hi, hZ j hj]) rfl hE (fun a => Or.inl rfl) (fun a b h => Or.inr h) RR F0 (by
      intro u hu w hw
      exact hseed u (by simpa using hu) w hw) hs (by simp) (by simp)
  exact cov.2 (j:ℤ) (hids.mem_iff.mpr (List.mem_map.mpr ⟨j, List.mem_range.mpr hj, rfl⟩))

omit [FloorRing K] in
/-- the same for ids in the order of the distances from the centre -/
theorem geo_final {g : Geo (R3.Vector K)} {Vs : List (R3.Vector K)} (G' : Tells g Vs) {m : ℕ} (hkey : ∀ v ∈ Vs, 0 ≤ g.key v ∧ g.key v < m)
    {ids : List ℤ} (hids : ids.Perm ((List.range Vs.length).map Int.ofNat)) {fuel : ℕ} (hf : 6 * Vs.length < fuel)
    {i0 i1 i2 : ℕ} {p0 p1 p2 : R3.Vector K} (S : Seeds Vs i0 i1 i2 p0 p1 p2) (H : SafeSeed g Vs i0 i1 i2) :
    ∃ s hull, triangulateCore g Vs fuel m i0 i1 i2 ids = .ok s ∧ hullWalk Vs s fuel s.hull [] = .ok hull ∧
      Final Vs hull s.triangles s.halfedges (Planar Vs ∧ ids.Pairwise fun i j => dist2 (pz Vs i) (circumcenter p0 p1 p2) ≤ dist2 (pz Vs j) (circumcenter p0 p1 p2))
        (fun a b => g.near a b = true) := by
  obtain ⟨s, hull, e1, e2, s', T, V, R, x, l, c, j0, j1, j2, F, hR, hpa, h2, h3, h4, hc⟩ := geo_final_of G' hkey hids hf S H
  refine ⟨s, hull, e1, e2, s', T, V, R, x, l, c, j0, j1, j2, F, hR, hpa, h2, h3, h4, ?_⟩
  rintro ⟨hpl, hs⟩
  set o := circumcenter p0 p1 p2 with ho
  have idr : ∀ w ∈ ids, ∃ i : ℕ, i < Vs.length ∧ w = i := by
    intro w hw
    have := hids.mem_iff.mp hw
    obtain ⟨i, hi, rfl⟩ := List.mem_map.mp this
    exact ⟨i, List.mem_range.mp hi, rfl⟩
  have hsame : sqd o p0 = sqd o p1 ∧ sqd o p0 = sqd o p2 ∧ ∀ v, inCircleDet p0 p1 p2 v = area p0 p1 p2 * (sqd o v - sqd o p0) := by
    exact center_spec S.pos.ne'
  refine hc ⟨hpl, _, onlyCorners_dist (pz Vs) o, ?_, hs⟩
  intro u hu w hw
  obtain ⟨i, hi, rfl⟩ := idr w hw
  have hmem : pz Vs (i:ℕ) ∈ Vs := by
    rw [pz_nat, ptOf_eq (v := Vs[i]) (by simp)]; exact List.getElem_mem _
  have h1 := S.empty _ hmem
  rw [hsame.2.2] at h1
  have h2 : 0 ≤ sqd o (pz Vs (i:ℕ)) - sqd o p0 := nonneg_of_mul_nonneg_right h1 S.pos
  have h3 : dist2 (pz Vs (u:ℕ)) o = sqd o p0 := by
    have conv : ∀ q : R3.Vector K, dist2 q o = sqd o q := fun q => by unfold dist2 sqd; ring
    rw [conv]
    rcases hu with rfl | rfl | rfl
    · rw [show pz Vs (u:ℕ) = p0 from ptOf_eq S.g0]
    · rw [show pz Vs (u:ℕ) = p1 from ptOf_eq S.g1]; exact hsame.1.symm
    · rw [show pz Vs (u:ℕ) = p2 from ptOf_eq S.g2]; exact hsame.2.1.symm
  have conv : ∀ q : R3.Vector K, dist2 q o = sqd o q := fun q => by unfold dist2 sqd; ring
  rw [h3, conv]; linarith

/-- the order of the ids asked for by `Less` is that of the distances from the centre -/
theorem sorts_dist {srt : R3.Vector K → List ℤ → List ℤ} (hsrt : ∀ c l, (srt c l).Perm l) {Vs : List (R3.Vector K)} (hpl : Planar Vs) (hs : Sorts srt Vs) (o : R3.Vector K) :
    (srt o ((List.range Vs.length).map Int.ofNat)).Pairwise fun i j => dist2 (pz Vs i) o ≤ dist2 (pz Vs j) o := by
  obtain ⟨z, hz⟩ := hpl
  have hZ : ∀ i : ℕ, i < Vs.length → (pz Vs i).Z = z := by
    intro i hi
    rw [pz_nat, ptOf_eq (v := Vs[i]) (by simp)]; exact hz _ (List.getElem_mem _)
  have sd : ∀ i : ℕ, i < Vs.length → R3.SquaredDistance (pz Vs i) o = dist2 (pz Vs i) o + (z - o.Z)^2 := by
    intro i hi
    have := hZ i hi
    simp only [R3.SquaredDistance, R3.Vector.Norm2, R3.Dot, R3.Sub, dist2, this]; ring
  have ordOf : ∀ i j : ℕ, i < Vs.length → j < Vs.length → idLess o (pz Vs j) (pz Vs i) = false → dist2 (pz Vs i) o ≤ dist2 (pz Vs j) o := by
    intro i j hi hj h
    unfold idLess at h
    simp only [sd i hi, sd j hj] at h
    by_contra hlt
    rw [not_le] at hlt
    rw [if_pos (by simp; exact ne_of_lt (by linarith)), decide_eq_false_iff_not] at h
    exact h (by linarith)
  have idr : ∀ w ∈ srt o ((List.range Vs.length).map Int.ofNat), ∃ i : ℕ, i < Vs.length ∧ w = i := by
    intro w hw
    have := (hsrt o _).mem_iff.mp hw
    obtain ⟨i, hi, rfl⟩ := List.mem_map.mp this
    exact ⟨i, List.mem_range.mp hi, rfl⟩
  refine List.Pairwise.imp_of_mem ?_ (hs o)
  intro a b ha hb hab
  obtain ⟨i, hi, rfl⟩ := idr a ha
  obtain ⟨k, hk, rfl⟩ := idr b hb
  exact ordOf i k hi hk hab

/-- the same for a returned triangulation -/
theorem final_of (srt : R3.Vector K → List ℤ → List ℤ) (hsrt : ∀ c l, (srt c l).Perm l) (hashSize : ℕ → ℕ)
    {fuel : ℕ} {Vs : List (R3.Vector K)} (hp : Planar Vs) (hn : 2 ≤ Vs.length) (hash : 0 < hashSize Vs.length) (hf : 6 * Vs.length < fuel)
    {hull : List (R3.Vector K)} {ts hs : List ℤ} (h : Triangulate srt hashSize fuel Vs = .ok (.triangulation hull ts hs)) :
    Final Vs hull ts hs (Sorts srt Vs) (fun a b => R3.SquaredDistance a b < (1 / 2^52 : K)) := by
  rcases exact_seeds srt hashSize fuel hp hn with ⟨_, e⟩ | ⟨_, i0, i1, i2, p0, p1, p2, S, e⟩
  · rw [e] at h; cases h
  · obtain ⟨s, hull', e1, e2, s', T, V, R, x, l, c, j0, j1, j2, F, hR, hpa, h2, h3, h4, hc⟩ := geo_final (tells_exact (hashSize Vs.length) (circumcenter p0 p1 p2) Vs)
      (fun v _ => C14_hashKey _ v _ hash) (hsrt (circumcenter p0 p1 p2) ((List.range Vs.length).map Int.ofNat)) hf S (safe_exact _ _ S)
    unfold afterSeeds at e
    rw [e1, Res.bind_ok, e2, Res.bind_ok] at e
    rw [e] at h
    cases h
    refine ⟨s', T, V, R, x, l, c, j0, j1, j2, F, hR, hpa, h2, h3, h4, fun hs j hj => ?_⟩
    obtain ⟨u, hu, hd⟩ := hc ⟨hp, sorts_dist hsrt hp hs _⟩ j hj
    refine ⟨u, hu, hd.imp id fun hd => ?_⟩
    have := of_decide_eq_true hd
    simpa [eps] using this

section bridge
variable {Vs : List (R3.Vector K)} {κ : ℕ → ℕ → K} {c i0 i1 i2 T : ℕ} {V : Finset ℕ} {R : List ℕ} {s : St}

omit [IsStrictOrderedRing K] [FloorRing K] in
theorem vertex_iff [IsStrictOrderedRing K] (I : RInv κ True c Vs.length i0 i1 i2 T V R s) {v : R3.Vector K} :
    IsVertex Vs (s.triangles.take (3*T)) v ↔ ∃ i ∈ V, ptOf Vs i = v := by
  have key : ∀ i : ℕ, (i:ℤ) ∈ s.triangles.take (3*T) ↔ i ∈ V := by
    intro i
    rw [← List.mem_toFinset, vertices_of I, Finset.mem_map]
    constructor
    · rintro ⟨j, hj, e⟩
      have : j = i := by simpa using e
      exact this ▸ hj
    · intro h; exact ⟨i, h, rfl⟩
  constructor
  · rintro ⟨i, h1, h2⟩
    exact ⟨i, (key i).mp h1, ptOf_eq h2⟩
  · rintro ⟨i, h1, rfl⟩
    refine ⟨i, (key i).mpr h1, ?_⟩
    have hi := I.Vn i h1
    rw [ptOf_eq (v := Vs[i]) (by simp)]; simp

theorem nx3 (k : ℕ) : nx (3*k) = 3*k+1 := nx_T0 k
theorem pv3 (k : ℕ) : pv (3*k) = 3*k+2 := pv_T0 k

omit [IsStrictOrderedRing K] [FloorRing K] in
theorem corners_iff [IsStrictOrderedRing K] (I : RInv κ True c Vs.length i0 i1 i2 T V R s) {k : ℕ} {a b d : R3.Vector K} :
    Corners Vs (s.triangles.take (3*T)) k a b d ↔ 3*k < 3*T ∧ a = pz Vs (tr s (3*k)) ∧ b = pz Vs (tr s (nx (3*k))) ∧ d = pz Vs (tr s (pv (3*k))) := by
  rw [nx3, pv3]
  constructor
  · rintro ⟨i, j, l, h1, h2, h3, h4, h5, h6⟩
    have hk : 3*k < 3*T := by
      have := (List.getElem?_eq_some_iff.mp h1).1
      rwa [length_tr I] at this
    rw [getElem_take_tr I (by omega)] at h1 h2 h3
    injection h1 with h1; injection h2 with h2; injection h3 with h3
    rw [h1, h2, h3]
    exact ⟨hk, (ptOf_eq h4).symm, (ptOf_eq h5).symm, (ptOf_eq h6).symm⟩
  · rintro ⟨hk, rfl, rfl, rfl⟩
    obtain ⟨i, hi, e1⟩ := I.tV (3*k) hk
    obtain ⟨j, hj, e2⟩ := I.tV (3*k+1) (by omega)
    obtain ⟨l, hl, e3⟩ := I.tV (3*k+2) (by omega)
    have get : ∀ i ∈ V, Vs[i]? = some (pz Vs (i:ℕ)) := by
      intro i hi
      have hi' := I.Vn i hi
      rw [pz_nat, ptOf_eq (v := Vs[i]) (by simp)]; simp
    exact ⟨i, j, l, by rw [getElem_take_tr I (by omega), e1], by rw [getElem_take_tr I (by omega), e2], by rw [getElem_take_tr I (by omega), e3],
      by rw [e1]; exact get i hi, by rw [e2]; exact get j hj, by rw [e3]; exact get l hl⟩

theorem path_chain {nd : ℕ → Node} : ∀ (l : List ℕ) (x e : ℕ), Path nd x l e → (x :: (l ++ [e])).IsChain (fun a b => (nd a).next = some b) := by
  intro l
  induction l with
  | nil => intro x e h; simpa [Path] using h.1
  | cons y l ih =>
    intro x e h
    have := ih y e h.2
    simp only [List.cons_append, List.isChain_cons_cons]
    exact ⟨h.1.1, this⟩

omit [FloorRing K] in
/-- an edge of the returned polygon is a ring edge, reversed -/
theorem hullEdge_ring {nd : ℕ → Node} {x : ℕ} {l : List ℕ} (hp : Path nd x l x) {hull : List (R3.Vector K)}
    (hh : hull.map some = (x :: l.reverse).map (fun x => Vs[x]?)) {p q : R3.Vector K} :
    HullEdge hull p q ↔ ∃ a b, a ∈ x :: l ∧ (nd a).next = some b ∧ Vs[b]? = some p ∧ Vs[a]? = some q := by
  have hch := path_chain l x x hp
  have hlen : hull.length = l.length + 1 := by
    have := congrArg List.length hh
    simpa using this
  have hget : ∀ i, i < hull.length → hull[i]? = ((x :: l.reverse)[i]?).bind (fun z => Vs[z]?) := by
    intro i hi
    have := congrArg (fun L => L[i]?) hh
    simp only [List.getElem?_map] at this
    rw [List.getElem?_eq_getElem hi] at this ⊢
    have h2 : i < (x :: l.reverse).length := by simp; omega
    rw [List.getElem?_eq_getElem h2] at this ⊢
    simp only [Option.map_some] at this
    simp only [Option.bind_some]
    injection this
  -- the closed walk in the order of the polygon
  have hrev : (x :: (l.reverse ++ [x])).IsChain (fun b a => (nd a).next = some b) := by
    have := List.isChain_reverse.mpr hch
    simpa using this
  have cyc : ∀ i, i < hull.length → (x :: l.reverse)[(i+1) % hull.length]? = (x :: (l.reverse ++ [x]))[i+1]? := by
    intro i hi
    by_cases hlast : i + 1 = hull.length
    · rw [hlast, Nat.mod_self, hlen]
      simp
    · rw [Nat.mod_eq_of_lt (by omega)]
      rw [← List.cons_append, List.getElem?_append_left (by simp; omega)]
  have same : ∀ i, i < hull.length → (x :: l.reverse)[i]? = (x :: (l.reverse ++ [x]))[i]? := by
    intro i hi
    rw [← List.cons_append, List.getElem?_append_left (by simp; omega)]
  have hlen2 : (x :: (l.reverse ++ [x])).length = hull.length + 1 := by simp; omega
  constructor
  · rintro ⟨i, h1, h2⟩
    have hi : i < hull.length := (List.getElem?_eq_some_iff.mp h1).1
    have hi' : (i+1) % hull.length < hull.length := Nat.mod_lt _ (by omega)
    rw [hget i hi, same i hi] at h1
    rw [hget _ hi', cyc i hi] at h2
    have j1 : i < (x :: (l.reverse ++ [x])).length := by omega
    have j2 : i+1 < (x :: (l.reverse ++ [x])).length := by omega
    rw [List.getElem?_eq_getElem j1, Option.bind_some] at h1
    rw [List.getElem?_eq_getElem j2, Option.bind_some] at h2
    refine ⟨_, _, ?_, List.isChain_iff_getElem.mp hrev i j2, h1, h2⟩
    have hm := List.getElem_mem j2
    generalize (x :: (l.reverse ++ [x]))[i+1] = w at hm
    simp at hm ⊢
    tauto
  · rintro ⟨a, b, ha, hab, h1, h2⟩
    -- the position of `a` in the polygon
    have hmem : a ∈ l.reverse ++ [x] := by simpa [or_comm] using ha
    obtain ⟨i, hi, e⟩ := List.mem_iff_getElem.mp hmem
    have hi2 : i < hull.length := by simp at hi; omega
    have j2 : i+1 < (x :: (l.reverse ++ [x])).length := by omega
    have j1 : i < (x :: (l.reverse ++ [x])).length := by omega
    have e2 : (x :: (l.reverse ++ [x]))[i+1] = a := by simpa using e
    have hb := List.isChain_iff_getElem.mp hrev i j2
    rw [e2, hab] at hb
    injection hb with hb
    refine ⟨i, ?_, ?_⟩
    · rw [hget i hi2, same i hi2, List.getElem?_eq_getElem j1, Option.bind_some, ← hb]; exact h1
    · rw [hget _ (Nat.mod_lt _ (by omega)), cyc i hi2, List.getElem?_eq_getElem j2, Option.bind_some, e2]; exact h2

end bridge

section final
variable {Vs hull : List (R3.Vector K)} {ts hs : List ℤ} {Q : Prop} {near : R3.Vector K → R3.Vector K → Prop}

omit [FloorRing K] in
theorem Final.convex (H : Final Vs hull ts hs Q near) : ∀ v, IsVertex Vs ts v → Inside hull v := by
  obtain ⟨s, T, V, R, x, l, c, i0, i1, i2, F, rfl, hpa, hh, rfl, rfl, _⟩ := H
  intro v hv p q hpq
  obtain ⟨i, hi, rfl⟩ := (vertex_iff F.inv).mp hv
  obtain ⟨a, b, ha, hab, e1, e2⟩ := (hullEdge_ring hpa hh).mp hpq
  have := F.conv a ha b hab i hi
  rw [show pz Vs (a:ℕ) = q from ptOf_eq e2, show pz Vs (b:ℕ) = p from ptOf_eq e1, pz_nat, area_cyc', area_swap', area_orient, neg_neg] at this
  exact this

omit [FloorRing K] in
theorem Final.distinct (H : Final Vs hull ts hs Q near) : ∀ i j : ℕ, (i:ℤ) ∈ ts → (j:ℤ) ∈ ts → i ≠ j → ∀ a b, Vs[i]? = some a → Vs[j]? = some b → a.X ≠ b.X ∨ a.Y ≠ b.Y := by
  obtain ⟨s, T, V, R, x, l, c, i0, i1, i2, F, rfl, hpa, hh, rfl, rfl, _⟩ := H
  intro i j hi hj hij a b ha hb
  have key : ∀ i : ℕ, (i:ℤ) ∈ s.triangles.take (3*T) → i ∈ V := by
    intro i hi
    rw [← List.mem_toFinset, vertices_of F.inv, Finset.mem_map] at hi
    obtain ⟨j, hj, e⟩ := hi
    have : j = i := by simpa using e
    exact this ▸ hj
  have := F.dist i (key i hi) j (key j hj) hij
  rw [show pz Vs (i:ℕ) = a from ptOf_eq ha, show pz Vs (j:ℕ) = b from ptOf_eq hb] at this
  by_contra hcon
  push Not at hcon
  exact this hcon

omit [FloorRing K] in
theorem Final.delaunay (H : Final Vs hull ts hs Q near) : Delaunay Vs ts := by
  obtain ⟨s, T, V, R, x, l, c, i0, i1, i2, F, rfl, hpa, hh, rfl, rfl, _⟩ := H
  refine ⟨?_, ?_, ?_⟩
  · intro k hk
    rw [length_tr F.inv] at hk
    exact ⟨_, _, _, (corners_iff F.inv).mpr ⟨hk, rfl, rfl, rfl⟩⟩
  · intro k a b d hk
    obtain ⟨hk', rfl, rfl, rfl⟩ := (corners_iff F.inv).mp hk
    have := F.del.pos _ hk'
    unfold tArea at this
    rw [← area_cyc, area_orient] at this
    linarith
  · intro k a b d hk
    obtain ⟨hk', rfl, rfl, rfl⟩ := (corners_iff F.inv).mp hk
    have hpos := F.del.pos _ hk'
    unfold tArea at hpos
    rw [← area_cyc] at hpos
    obtain ⟨h1, h2, h3⟩ := center_spec hpos.ne'
    refine ⟨_, h1, h2, ?_⟩
    intro v hv
    obtain ⟨i, hi, rfl⟩ := (vertex_iff F.inv).mp hv
    have := F.del.emp _ hk' i hi
    unfold tDet at this
    rw [← det_cyc, h3] at this
    have := nonneg_of_mul_nonneg_right this hpos
    rw [← pz_nat]
    linarith

omit [FloorRing K] in
theorem Final.cover (H : Final Vs hull ts hs Q near) (hq : Q) : ∀ p ∈ Vs, ∃ v, IsVertex Vs ts v ∧ (p = v ∨ near p v) := by
  obtain ⟨s, T, V, R, x, l, c, i0, i1, i2, F, rfl, hpa, hh, rfl, rfl, hc⟩ := H
  intro p hpV
  obtain ⟨j, hj, rfl⟩ := List.mem_iff_getElem.mp hpV
  obtain ⟨u, hu, hd⟩ := hc hq j hj
  refine ⟨_, (vertex_iff F.inv).mpr ⟨u, hu, rfl⟩, ?_⟩
  rw [ptOf_eq (v := Vs[j]) (by simp)] at hd
  exact hd

omit [FloorRing K] in
/-- all points are inserted when no two of them are near -/
theorem all_inserted (hcons : Consistent Vs hull ts hs) (hin : ∀ v, IsVertex Vs ts v → Inside hull v)
    (hcov : ∀ p ∈ Vs, ∃ v, IsVertex Vs ts v ∧ (p = v ∨ near p v)) (hsep : ∀ (i j : ℕ) a b, i ≠ j → Vs[i]? = some a → Vs[j]? = some b → a ≠ b ∧ ¬ near a b) :
    (∀ i : ℕ, i < Vs.length ↔ (i:ℤ) ∈ ts) ∧ ts.length = 3 * (2 * Vs.length - 2 - hull.length) ∧ ∀ p ∈ Vs, Inside hull p := by
  have key : ∀ i : ℕ, i < Vs.length ↔ (i:ℤ) ∈ ts := by
    intro i
    constructor
    · intro hi
      obtain ⟨v, ⟨j, hj, e⟩, hd⟩ := hcov Vs[i] (List.getElem_mem hi)
      by_cases hij : i = j
      · rw [hij]; exact hj
      · have := hsep i j _ v hij (List.getElem?_eq_getElem hi) e
        exact (hd.elim this.1 this.2).elim
    · intro hi
      have := (hcons.table.range _ hi).2
      exact_mod_cast this
  refine ⟨key, ?_, ?_⟩
  · have hcard : ts.toFinset.card = Vs.length := by
      have : ts.toFinset = (Finset.range Vs.length).map Nat.castEmbedding := by
        ext z
        rw [List.mem_toFinset, Finset.mem_map]
        constructor
        · intro hz
          obtain ⟨h0, h1⟩ := hcons.table.range z hz
          exact ⟨z.toNat, by simp; omega, by simp [h0]⟩
        · rintro ⟨i, hi, rfl⟩
          exact (key i).mp (Finset.mem_range.mp hi)
      rw [this]; simp
    rw [← hcard]; exact hcons.count
  · intro p hp
    obtain ⟨i, hi, rfl⟩ := List.mem_iff_getElem.mp hp
    exact hin _ ⟨i, (key i).mp hi, by simp⟩

omit [FloorRing K] in
theorem Final.fills (H : Final Vs hull ts hs Q near) (x : R3.Vector K) (hx : Inside hull x) : ∃ k a b c, Corners Vs ts k a b c ∧ InTri a b c x := by
  obtain ⟨s, T, V, R, x0, l, c, i0, i1, i2, F, rfl, hpa, hh, rfl, rfl, _⟩ := H
  have get : ∀ i ∈ V, Vs[i]? = some (pz Vs (i:ℕ)) := by
    intro i hi
    have hi' := F.inv.Vn i hi
    rw [pz_nat, ptOf_eq (v := Vs[i]) (by simp)]; simp
  obtain ⟨k, hk, s0, s1, s2⟩ := located F (v := x) (by
    intro a ha b hab
    have hb := F.inv.next_mem ha hab
    have := hx (pz Vs (b:ℕ)) (pz Vs (a:ℕ)) ((hullEdge_ring hpa hh).mpr ⟨a, b, ha, hab, get b (F.inv.rV b hb), get a (F.inv.rV a ha)⟩)
    rw [area_cyc', area_swap', area_orient, neg_neg]; exact this)
  have all : ∀ j, j = k ∨ j = nx k ∨ j = pv k → 0 ≤ side (pz Vs) (tr s) x j := by
    rintro j (rfl | rfl | rfl) <;> assumption
  obtain ⟨m, hm, h0, h1, h2⟩ : ∃ m, 3*m < 3*T ∧ 0 ≤ side (pz Vs) (tr s) x (3*m) ∧ 0 ≤ side (pz Vs) (tr s) x (nx (3*m)) ∧ 0 ≤ side (pz Vs) (tr s) x (pv (3*m)) := by
    refine ⟨k/3, by omega, all _ ?_, all _ ?_, all _ ?_⟩
    · unfold nx pv; omega
    · rw [nx3]; unfold nx pv; omega
    · rw [pv3]; unfold nx pv; omega
  refine ⟨m, _, _, _, (corners_iff F.inv).mpr ⟨hm, rfl, rfl, rfl⟩, ?_⟩
  unfold side at h0 h1 h2
  rw [nx_nx] at h1
  rw [nx_pv] at h2
  rw [← area_cyc, area_orient] at h0 h1 h2
  exact ⟨by linarith, by linarith, by linarith⟩

omit [FloorRing K] in
theorem Final.disjoint (H : Final Vs hull ts hs Q near) (x : R3.Vector K) {j k : ℕ} {a b c a' b' c' : R3.Vector K} (hj : Corners Vs ts j a b c) (hk : Corners Vs ts k a' b' c')
    (sj : orient a b x < 0 ∧ orient b c x < 0 ∧ orient c a x < 0) (sk : orient a' b' x < 0 ∧ orient b' c' x < 0 ∧ orient c' a' x < 0) : j = k := by
  obtain ⟨s, T, V, R, x0, l, c0, i0, i1, i2, F, rfl, hpa, hh, rfl, rfl, _⟩ := H
  obtain ⟨hj', rfl, rfl, rfl⟩ := (corners_iff F.inv).mp hj
  obtain ⟨hk', rfl, rfl, rfl⟩ := (corners_iff F.inv).mp hk
  rw [nx3, pv3] at sj sk
  have conv : ∀ p q : R3.Vector K, orient p q x < 0 → 0 < area x p q := by
    intro p q hlt
    rw [← area_cyc, area_orient]; linarith
  exact tiles F x (by omega) (by omega) ⟨conv _ _ sj.1, conv _ _ sj.2.1, conv _ _ sj.2.2⟩ ⟨conv _ _ sk.1, conv _ _ sk.2.1, conv _ _ sk.2.2⟩

end final

section claims
variable (srt : R3.Vector K → List ℤ → List ℤ) (hsrt : ∀ c l, (srt c l).Perm l) (hashSize : ℕ → ℕ) (fuel : ℕ) (Vs : List (R3.Vector K))
  (hp : Planar Vs) (hn : 2 ≤ Vs.length) (hash : 0 < hashSize Vs.length) (hf : 6 * Vs.length < fuel)
  {hull : List (R3.Vector K)} {ts hs : List ℤ} (h : Triangulate srt hashSize fuel Vs = .ok (.triangulation hull ts hs))
include hsrt hp hn hash hf h

/-- C67: the hull is a counter-clockwise polygon around all vertices of the triangulation -/
theorem C67_convex : ∀ v, IsVertex Vs ts v → Inside hull v :=
  Final.convex (final_of srt hsrt hashSize hp hn hash hf h)

/-- C67: two different vertices of the triangulation have different positions -/
theorem C67_distinct : ∀ i j : ℕ, (i:ℤ) ∈ ts → (j:ℤ) ∈ ts → i ≠ j → ∀ a b, Vs[i]? = some a → Vs[j]? = some b → a.X ≠ b.X ∨ a.Y ≠ b.Y :=
  Final.distinct (final_of srt hsrt hashSize hp hn hash hf h)

/-- C68: `Triangulate` returns a Delaunay triangulation: every triangle is clockwise and no vertex lies strictly inside its circumcircle -/
theorem C68_delaunay : Delaunay Vs ts :=
  Final.delaunay (final_of srt hsrt hashSize hp hn hash hf h)

/-- C69: if `sort.Sort` sorts, every input point is a vertex of the triangulation up to a squared distance below `eps` -/
theorem C69_cover (hs' : Sorts srt Vs) : ∀ p ∈ Vs, ∃ v, IsVertex Vs ts v ∧ (p = v ∨ R3.SquaredDistance p v < (1 / 2^52 : K)) :=
  Final.cover (final_of srt hsrt hashSize hp hn hash hf h) hs'

/-- C69: if any two of the points are at least `sqrt eps` apart, the vertices of the triangulation are exactly the input points,
and the number of triangles is `2 n - 2 - h` -/
theorem C69_all (hs' : Sorts srt Vs) (hsep : ∀ (i j : ℕ) a b, i ≠ j → Vs[i]? = some a → Vs[j]? = some b → (1 / 2^52 : K) ≤ R3.SquaredDistance a b) :
    (∀ i : ℕ, i < Vs.length ↔ (i:ℤ) ∈ ts) ∧ ts.length = 3 * (2 * Vs.length - 2 - hull.length) ∧ ∀ p ∈ Vs, Inside hull p := by
  refine all_inserted (C19_exact srt hsrt hashSize fuel Vs hp hn hash hf h) (C67_convex srt hsrt hashSize fuel Vs hp hn hash hf h)
    (C69_cover srt hsrt hashSize fuel Vs hp hn hash hf h hs') ?_
  intro i j a b hij ha hb
  have := hsep i j a b hij ha hb
  refine ⟨?_, not_lt.mpr this⟩
  rintro rfl
  simp [R3.SquaredDistance, R3.Vector.Norm2, R3.Dot, R3.Sub] at this
  exact absurd this (not_le.mpr (by positivity))

/-- C70: the triangles cover the hull: a point of the plane that is not outside an edge of the hull lies in some triangle -/
theorem C70_fills (x : R3.Vector K) (hx : Inside hull x) : ∃ k a b c, Corners Vs ts k a b c ∧ InTri a b c x :=
  Final.fills (final_of srt hsrt hashSize hp hn hash hf h) x hx

/-- C70: the triangles do not overlap: no point of the plane lies strictly inside two triangles -/
theorem C70_disjoint (x : R3.Vector K) {j k : ℕ} {a b c a' b' c' : R3.Vector K} (hj : Corners Vs ts j a b c) (hk : Corners Vs ts k a' b' c')
    (sj : orient a b x < 0 ∧ orient b c x < 0 ∧ orient c a x < 0) (sk : orient a' b' x < 0 ∧ orient b' c' x < 0 ∧ orient c' a' x < 0) : j = k :=
  Final.disjoint (final_of srt hsrt hashSize hp hn hash hf h) x hj hk sj sk

end claims

/-- the sort key behind `Less` -/
def sortKey (c p : R3.Vector K) : K ×ₗ K ×ₗ K := toLex (R3.SquaredDistance p c, toLex (p.X, p.Y))

omit [IsStrictOrderedRing K] [FloorRing K] in
theorem idLess_key (c p q : R3.Vector K) : idLess c p q = decide (sortKey c p < sortKey c q) := by
  unfold idLess sortKey
  simp only [Prod.Lex.toLex_lt_toLex]
  by_cases h1 : R3.SquaredDistance p c = R3.SquaredDistance q c
  · by_cases h2 : p.X = q.X
    · simp [h1, h2]
    · simp [h1, h2]
  · simp [h1]

/-- a sort as in the assumptions exists -/
theorem sorts_exists (Vs : List (R3.Vector K)) : ∃ srt : R3.Vector K → List ℤ → List ℤ, (∀ c l, (srt c l).Perm l) ∧ Sorts srt Vs := by
  refine ⟨fun c l => l.insertionSort (fun i j => sortKey c (pz Vs i) ≤ sortKey c (pz Vs j)), fun c l => List.perm_insertionSort _ _, ?_⟩
  intro c
  haveI : Std.Total (fun i j : ℤ => sortKey c (pz Vs i) ≤ sortKey c (pz Vs j)) := ⟨fun a b => le_total _ _⟩
  haveI : IsTrans ℤ (fun i j : ℤ => sortKey c (pz Vs i) ≤ sortKey c (pz Vs j)) := ⟨fun a b c h1 h2 => le_trans h1 h2⟩
  refine List.Pairwise.imp ?_ (List.pairwise_insertionSort (fun i j : ℤ => sortKey c (pz Vs i) ≤ sortKey c (pz Vs j)) _)
  intro a b hab
  rw [idLess_key, decide_eq_false_iff_not, not_lt]; exact hab

end run

/-- a case of the theorems: five points in the plane, at distance at least 2 -/
example : ∃ srt : R3.Vector ℚ → List ℤ → List ℤ, (∀ c l, (srt c l).Perm l) ∧ Sorts srt square5 ∧ ∃ hull ts hs,
    Triangulate srt (fun _ => 3) 31 square5 = .ok (.triangulation hull ts hs) ∧ (∀ i : ℕ, i < 5 ↔ (i:ℤ) ∈ ts) := by
  obtain ⟨srt, h1, h2⟩ := sorts_exists square5
  refine ⟨srt, h1, h2, ?_⟩
  have hp : Planar square5 := ⟨0, by simp [square5]⟩
  rcases C23_planar srt h1 (fun _ => 3) 31 square5 hp (by decide) (by decide) (by decide) with ⟨h, _⟩ | ⟨_, hull, ts, hs, e, _⟩
  · have := h ⟨0,0,0⟩ (by simp [square5]) ⟨4,0,0⟩ (by simp [square5]) ⟨4,4,0⟩ (by simp [square5])
    norm_num [area] at this
  · refine ⟨hull, ts, hs, e, (C69_all srt h1 _ 31 square5 hp (by decide) (by decide) (by decide) e h2 ?_).1⟩
    intro i j a b hij ha hb
    have hi : i < 5 := (List.getElem?_eq_some_iff.mp ha).1
    have hj : j < 5 := (List.getElem?_eq_some_iff.mp hb).1
    interval_cases i <;> interval_cases j <;> first | exact absurd rfl hij | (simp [square5] at ha hb; subst ha hb; norm_num [R3.SquaredDistance, R3.Vector.Norm2, R3.Dot, R3.Sub])

end Verif.Props
