import Verif.Props.HullStrict
import Verif.Props.Delaunay
import Verif.Props.Validate
/-!
# C72: the hull of `Triangulate` is the polygon of `ConvexHull`; `Validate` accepts the result (exact arithmetic)
-/
namespace Verif.Props
open Verif Verif.Tri2 Verif.Proofs Verif.Spec

variable {K : Type} [Field K] [LinearOrder K] [IsStrictOrderedRing K]

omit [Field K] [LinearOrder K] [IsStrictOrderedRing K] in
theorem mem_edges {l : List (R3.Vector K)} {p q : R3.Vector K} : (p, q) ∈ edges l ↔ HullEdge l p q := by
  rw [edges_eq_finRange, List.mem_map]
  constructor
  · rintro ⟨i, _, e⟩
    simp only [Prod.mk.injEq] at e
    obtain ⟨rfl, rfl⟩ := e
    exact ⟨i.1, by simp, by simp⟩
  · rintro ⟨i, h1, h2⟩
    obtain ⟨hi, e1⟩ := List.getElem?_eq_some_iff.mp h1
    obtain ⟨hj, e2⟩ := List.getElem?_eq_some_iff.mp h2
    exact ⟨⟨i, hi⟩, by simp, by simp [e1, e2]⟩

omit [LinearOrder K] [IsStrictOrderedRing K] in
/-- a point strictly inside an edge is strictly inside the circumcircle -/
theorem det_between {a b c q : R3.Vector K} {t : K} (hx : q.X = a.X + t * (b.X - a.X)) (hy : q.Y = a.Y + t * (b.Y - a.Y)) :
    inCircleDet c a b q = - (t * (1 - t) * ((b.X - a.X)^2 + (b.Y - a.Y)^2) * area c a b) := by
  simp only [inCircleDet, area, hx, hy]; ring

/-- the hull at the end of a run is the boundary polygon of the points -/
theorem Final.boundary {Vs hull : List (R3.Vector K)} {ts hs : List ℤ} {Q : Prop} {near : R3.Vector K → R3.Vector K → Prop} (H : Final Vs hull ts hs Q near) (hq : Q)
    (hnear : ∀ p ∈ Vs, ∀ q ∈ Vs, near p q → p = q) (three : 3 ≤ hull.length) : BoundaryPolygon Vs hull ∧ NotCollinear Vs := by
  have hcov := H.cover hq
  have hin := H.convex
  obtain ⟨s, T, V, R, x, l, c, i0, i1, i2, F, rfl, hpa, hh, rfl, rfl, _⟩ := H
  have get : ∀ i ∈ V, Vs[i]? = some (pz Vs (i:ℕ)) := by
    intro i hi
    have hi' := F.inv.Vn i hi
    rw [pz_nat, ptOf_eq (v := Vs[i]) (by simp)]; simp
  have memV : ∀ i ∈ V, pz Vs (i:ℕ) ∈ Vs := fun i hi => List.mem_of_getElem? (get i hi)
  -- every input point is a vertex
  have all : ∀ q ∈ Vs, ∃ i ∈ V, pz Vs (i:ℕ) = q := by
    intro q hq
    obtain ⟨v, hv, hd'⟩ := hcov q hq
    obtain ⟨i, hi, e⟩ := (vertex_iff F.inv).mp hv
    refine ⟨i, hi, ?_⟩
    have hvV : v ∈ Vs := e ▸ memV i hi
    rcases hd' with rfl | hlt
    · exact e
    · rw [hnear q hq v hvV hlt]; exact e
  -- slots of ring edges
  have slot : ∀ p q, (p, q) ∈ edges hull → ∃ t < 3*T, pz Vs (tr s t) = q ∧ pz Vs (tr s (nx t)) = p := by
    intro p q he
    obtain ⟨a, b, ha, hab, e1, e2⟩ := (hullEdge_ring hpa hh).mp (mem_edges.mp he)
    obtain ⟨t, y, _, o2, o3, _, o5, o6⟩ := F.inv.own a ha
    have : y = b := by rw [hab] at o2; injection o2 with o2; exact o2.symm
    subst this
    refine ⟨t, o3, ?_, ?_⟩
    · rw [o5]; exact ptOf_eq e2
    · rw [o6]; exact ptOf_eq e1
  have slotV : ∀ t < 3*T, pz Vs (tr s t) ∈ Vs := by
    intro t ht
    obtain ⟨v, hv, e⟩ := F.inv.tV t ht
    rw [e]; exact memV v hv
  have nxT : ∀ t < 3*T, nx t < 3*T := fun t ht => by unfold nx; omega
  have pvT : ∀ t < 3*T, pv t < 3*T := fun t ht => by unfold pv; omega
  refine ⟨⟨?_, ?_, ?_⟩, ?_⟩
  · -- no vertex twice
    have hnd : (x :: l.reverse).Nodup := by
      have := F.inv.nodup
      rw [List.nodup_cons] at this ⊢
      simpa using this
    have hV : ∀ a ∈ x :: l.reverse, a ∈ V := fun a ha => F.inv.rV a (by simpa using ha)
    have h1 : ((x :: l.reverse).map (fun x => Vs[x]?)).Nodup := by
      refine List.Nodup.map_on ?_ hnd
      intro a ha b hb e
      rw [get a (hV a ha), get b (hV b hb)] at e
      injection e with e
      by_contra hab
      exact F.dist a (hV a ha) b (hV b hb) hab (by rw [e]; exact ⟨rfl, rfl⟩)
    rw [← hh] at h1
    exact List.Nodup.of_map _ h1
  · intro h0
    have := three
    rw [h0] at this; simp at this
  · rintro ⟨p, q⟩ he
    obtain ⟨t, ht, e1, e2⟩ := slot p q he
    have hpos := F.del.pos t ht
    unfold tArea at hpos
    rw [e1, e2] at hpos
    refine ⟨e2 ▸ slotV _ (nxT t ht), e1 ▸ slotV t ht, ?_, ?_, ?_⟩
    · intro hpq
      dsimp only at hpq
      rw [hpq] at hpos
      have : area (pz Vs (tr s (pv t))) q q = 0 := by unfold area; ring
      linarith
    · intro v hv
      obtain ⟨i, hi, e⟩ := all v hv
      have := hin v ((vertex_iff F.inv).mpr ⟨i, hi, e⟩) p q (mem_edges.mp he)
      exact this
    · intro v hv hb
      obtain ⟨i, hi, e⟩ := all v hv
      obtain ⟨τ, t0, t1, hx, hy⟩ := between_symm hb
      have hdet := F.del.emp t ht i hi
      unfold tDet at hdet
      rw [e1, e2, e] at hdet
      dsimp only at hx hy
      rw [det_between hx hy] at hdet
      have hne : 0 < (p.X - q.X)^2 + (p.Y - q.Y)^2 := by
        by_contra hc
        push Not at hc
        have h1 : p.X = q.X := by
          have : (p.X - q.X)^2 = 0 := le_antisymm (by nlinarith [sq_nonneg (p.Y - q.Y)]) (sq_nonneg _)
          rw [pow_eq_zero_iff two_ne_zero] at this; linarith
        have h2 : p.Y = q.Y := by
          have : (p.Y - q.Y)^2 = 0 := le_antisymm (by nlinarith [sq_nonneg (p.X - q.X)]) (sq_nonneg _)
          rw [pow_eq_zero_iff two_ne_zero] at this; linarith
        have : area (pz Vs (tr s (pv t))) q p = 0 := by unfold area; rw [h1, h2]; ring
        linarith
      have := mul_pos (mul_pos (mul_pos t0 (sub_pos.mpr t1)) hne) hpos
      linarith
  · have h0 : 0 < 3*T := by
      obtain ⟨h1, _⟩ := F.inv.seed; omega
    have hpos := F.del.pos 0 h0
    unfold tArea at hpos
    refine ⟨_, slotV _ (pvT 0 h0), _, slotV 0 h0, _, slotV _ (nxT 0 h0), ?_⟩
    intro h0
    have := area_orient (pz Vs (tr s (pv 0))) (pz Vs (tr s 0)) (pz Vs (tr s (nx 0)))
    unfold orient at this
    rw [h0] at this
    linarith

section
variable [FloorRing K]
variable (srt : R3.Vector K → List ℤ → List ℤ) (hsrt : ∀ c l, (srt c l).Perm l) (hashSize : ℕ → ℕ) (fuel : ℕ) (Vs : List (R3.Vector K))
  (hp : Planar Vs) (hn : 2 ≤ Vs.length) (hash : 0 < hashSize Vs.length) (hf : 6 * Vs.length < fuel)
  {hull : List (R3.Vector K)} {ts hs : List ℤ} (h : Triangulate srt hashSize fuel Vs = .ok (.triangulation hull ts hs))
include hsrt hp hn hash hf h

/-- C72: the returned hull is the boundary polygon of the points -/
theorem C72_boundary (hs' : Sorts srt Vs) (hsep : Separated Vs) : BoundaryPolygon Vs hull ∧ NotCollinear Vs := by
  refine (final_of srt hsrt hashSize hp hn hash hf h).boundary hs' ?_ (C19_exact srt hsrt hashSize fuel Vs hp hn hash hf h).three
  intro p hp q hq hlt
  rcases hsep p hp q hq with rfl | ⟨_, hnn⟩
  · rfl
  · exfalso; apply hnn
    rw [← near_iff]; simpa [eps] using hlt

/-- C72: the hull returned by `Triangulate` is the polygon of `ConvexHull`, up to the starting point -/
theorem C72_agree (hs' : Sorts srt Vs) (hsep : Separated Vs) {hsort : List (R3.Vector K) → List (R3.Vector K)} (hH : SortsHull hsort) :
    hull.IsRotated (ConvexHull hsort Vs) := by
  obtain ⟨h1, h2⟩ := C72_boundary srt hsrt hashSize fuel Vs hp hn hash hf h hs' hsep
  exact C73_unique h2 (separated_distinct hsep) h1 (C73_convexHull hsort hH Vs hsep h2)

end

theorem rotated_area {P Q : List (R3.Vector K)} (h : P.IsRotated Q) : polygonArea P = polygonArea Q := by
  obtain ⟨n, rfl⟩ := h
  exact ((C15_area_invariance P n ⟨0,0,0⟩).1).symm

theorem rotated_perimeter {P Q : List (R3.Vector ℝ)} (h : P.IsRotated Q) : polygonPerimeter P = polygonPerimeter Q := by
  obtain ⟨n, rfl⟩ := h
  exact ((C15_perimeter_invariance P n).1).symm

/-- C72: `Validate` returns nil for every triangulation returned by `Triangulate` (exact real arithmetic, separated points) -/
theorem C72_validate (srt : R3.Vector ℝ → List ℤ → List ℤ) (hsrt : ∀ c l, (srt c l).Perm l) (hashSize : ℕ → ℕ) (fuel : ℕ)
    (Vs : List (R3.Vector ℝ)) (hp : Planar Vs) (hn : 2 ≤ Vs.length) (hash : 0 < hashSize Vs.length) (hf : 6 * Vs.length < fuel)
    {hull : List (R3.Vector ℝ)} {ts hs : List ℤ} (h : Triangulate srt hashSize fuel Vs = .ok (.triangulation hull ts hs))
    (hs' : Sorts srt Vs) (hsep : Separated Vs) {hsort : List (R3.Vector ℝ) → List (R3.Vector ℝ)} (hH : SortsHull hsort) :
    Validate hsort Vs hull ts hs = .ok true := by
  have hcons := C19_exact srt hsrt hashSize fuel Vs hp hn hash hf h
  have hrot := C72_agree srt hsrt hashSize fuel Vs hp hn hash hf h hs' hsep hH
  have hr : TableRange hs := by
    intro z hz
    obtain ⟨k, hk, rfl⟩ := List.mem_iff_getElem.mp hz
    rcases hcons.twins k hk with h1 | ⟨j, _, h1, h2⟩
    · left; rw [List.getElem?_eq_getElem hk] at h1; injection h1
    · right
      rw [List.getElem?_eq_getElem hk] at h1; injection h1 with h1
      have := (List.getElem?_eq_some_iff.mp h2).1
      omega
  have hI : Involution hs := by
    intro i j hij
    rcases hcons.twins i (List.getElem?_eq_some_iff.mp hij).1 with h1 | ⟨k, _, h1, h2⟩
    · rw [h1] at hij; injection hij with hij; omega
    · rw [h1] at hij; injection hij with hij
      have : k = j := by exact_mod_cast hij
      exact this ▸ h2
  obtain ⟨m, hm⟩ := hcons.table.three
  have ha := hcons.area
  rw [triArea, triAreaLoop_spec Vs m ts 0 hm hcons.table.range, zero_add, Res.bind_ok] at ha
  have ha' : triSum Vs ts / 2 = polygonArea hull := by injection ha
  obtain ⟨b, hb, hiff⟩ := C26_validate hsort Vs hull ts hs hcons.table.three hcons.table.range hr
  rw [hb]
  congr 1
  apply hiff.mpr
  rw [ha', ← rotated_area hrot, ← rotated_perimeter hrot]
  refine ⟨hI, ?_, ?_, ?_⟩ <;> rw [sub_self, abs_zero] <;> positivity

/-- a case of the theorems: five points of the plane -/
def realSquare5 : List (R3.Vector ℝ) := [⟨0,0,0⟩, ⟨4,0,0⟩, ⟨4,4,0⟩, ⟨0,4,0⟩, ⟨1,2,0⟩]

example : ∃ (srt : R3.Vector ℝ → List ℤ → List ℤ) (hull : List (R3.Vector ℝ)) (ts hs : List ℤ),
    Triangulate srt (fun _ => 3) 31 realSquare5 = .ok (.triangulation hull ts hs) ∧
      ∀ hsort, SortsHull hsort → Validate hsort realSquare5 hull ts hs = .ok true ∧ hull.IsRotated (ConvexHull hsort realSquare5) := by
  obtain ⟨srt, h1, h2⟩ := sorts_exists realSquare5
  have hp : Planar realSquare5 := ⟨0, by simp [realSquare5]⟩
  have hsep : Separated realSquare5 := by
    intro p hp q hq
    simp only [realSquare5, List.mem_cons, List.not_mem_nil, or_false] at hp hq
    rcases hp with rfl | rfl | rfl | rfl | rfl <;> rcases hq with rfl | rfl | rfl | rfl | rfl <;>
      first | exact Or.inl rfl | (right; unfold Near; norm_num)
  rcases C23_planar srt h1 (fun _ => 3) 31 realSquare5 hp (by decide) (by decide) (by decide) with ⟨h, _⟩ | ⟨_, hull, ts, hs, e, _⟩
  · have := h ⟨0,0,0⟩ (by simp [realSquare5]) ⟨4,0,0⟩ (by simp [realSquare5]) ⟨4,4,0⟩ (by simp [realSquare5])
    norm_num [area] at this
  · exact ⟨srt, hull, ts, hs, e, fun hsort hH => ⟨C72_validate srt h1 _ 31 realSquare5 hp (by decide) (by decide) (by decide) e h2 hsep hH,
      C72_agree srt h1 _ 31 realSquare5 hp (by decide) (by decide) (by decide) e h2 hsep hH⟩⟩

/-- two points closer than the tolerance: `Triangulate` keeps both, `ConvexHull` drops the outer one -/
def nearPts : List (R3.Vector ℚ) := [⟨0,0,0⟩, ⟨0,10,0⟩, ⟨10,0,0⟩, ⟨10+1/2^27,0,0⟩]

def nearSort (c : R3.Vector ℚ) (l : List ℤ) : List ℤ :=
  l.insertionSort (fun a b => idLess c (ptOf nearPts b.toNat) (ptOf nearPts a.toNat) = false)

/-- Without the separation the claim is false: `Validate` rejects the result of `Triangulate` on `nearPts` because the areas of the two hulls
differ by more than 1e-9. (The areas are compared before any square root is taken.) -/
theorem C72_near_refuted [GoSqrt ℚ] : ∃ hull ts hs, Triangulate nearSort (fun _ => 3) 31 nearPts = .ok (.triangulation hull ts hs) ∧
    nearPts.Pairwise (fun a b => hullLess b a = false) ∧ Validate (fun l => l) nearPts hull ts hs = .ok false := by
  have : ∃ x, Triangulate nearSort (fun _ => 3) 31 nearPts = x ∧
      (match x with
        | .ok (.triangulation hull ts hs) => decide ((1/10^9 : ℚ) < |polygonArea hull - polygonArea (ConvexHull (fun l => l) nearPts)| ∧
            ts.length = 6 ∧ (∀ z ∈ ts, 0 ≤ z ∧ z < 4) ∧ (∀ z ∈ hs, z = -1 ∨ (0 ≤ z ∧ z < hs.length)))
        | _ => false) = true := ⟨_, rfl, by decide +kernel⟩
  obtain ⟨x, hx, h⟩ := this
  match x, h with
  | .ok (.triangulation hull ts hs), h =>
    rw [decide_eq_true_eq] at h
    obtain ⟨h1, h2, h3, h4⟩ := h
    refine ⟨hull, ts, hs, hx, by decide +kernel, ?_⟩
    obtain ⟨b, hb, hiff⟩ := C26_validate (fun l => l) nearPts hull ts hs (by omega) h3 h4
    rw [hb]
    cases b with
    | false => rfl
    | true => exact absurd (hiff.mp rfl).2.1 (not_le.mpr h1)

end Verif.Props
