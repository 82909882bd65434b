import Verif.Proofs.Exact
import Verif.Proofs.CoreMap
/-!
# The triangulator does not depend on what a division by zero gives
-/
namespace Verif.Proofs
open Verif Verif.Tri2 Verif.Props

variable {K : Type} [Field K] [LinearOrder K] [IsStrictOrderedRing K] [FloorRing K] (d : K → K → K) (hd : ∀ x y : K, y ≠ 0 → d x y = x / y)
include hd

omit [LinearOrder K] [IsStrictOrderedRing K] [FloorRing K] in
theorem hdiv_eq (x : K) {y : K} (h : y ≠ 0) : @HDiv.hDiv K K K (@instHDiv K ⟨d⟩) x y = x / y := hd x y h

omit [FloorRing K] in
theorem half_div (x : K) : @HDiv.hDiv K K K (@instHDiv K ⟨d⟩) x 2 = x / 2 := hd x 2 two_ne_zero

omit [FloorRing K] in
theorem circumradius_div (a b c : R3.Vector K) : @circumradius K _ _ _ ⟨d⟩ _ _ _ a b c = circumradius a b c := by
  unfold circumradius
  dsimp only
  by_cases h : (b.X - a.X) * (c.Y - a.Y) - (b.Y - a.Y) * (c.X - a.X) = 0
  · simp [h]
  · rw [hdiv_eq d hd _ h, hdiv_eq d hd _ h]

omit [FloorRing K] [LinearOrder K] [IsStrictOrderedRing K] in
theorem circumcenter_div {a b c : R3.Vector K} (h : dOf a b c ≠ 0) : @circumcenter K _ _ _ ⟨d⟩ _ _ a b c = circumcenter a b c := by
  have h' : (b.X - a.X) * (c.Y - a.Y) - (b.Y - a.Y) * (c.X - a.X) ≠ 0 := h
  unfold circumcenter
  dsimp only
  rw [hdiv_eq d hd _ h', hdiv_eq d hd _ h']

omit [FloorRing K] in
theorem seed2_div (Vs : List (R3.Vector K)) (i0 i1 : ℕ) (p0 p1 : R3.Vector K) : @seed2 K _ _ _ ⟨d⟩ _ _ _ _ _ _ Vs i0 i1 p0 p1 = seed2 Vs i0 i1 p0 p1 := by
  unfold seed2
  simp only [circumradius_div d hd]

omit hd [FloorRing K] [LinearOrder K] [IsStrictOrderedRing K] in
theorem dOf_swap {a b c : R3.Vector K} (h : dOf a b c ≠ 0) : dOf a c b ≠ 0 := by
  rw [show dOf a c b = - dOf a b c by unfold dOf; ring]
  exact neg_ne_zero.mpr h

/-- the core computation with another division -/
def afterSeedsD (d : K → K → K) (srt : R3.Vector K → List ℤ → List ℤ) (hashSize : ℕ → ℕ) (fuel : ℕ) (Vs : List (R3.Vector K)) (i0 i1 i2 : ℕ)
    (p0 p1 p2 : R3.Vector K) : Res (TriOut K) := do
  let s ← triangulateCore (@Geo.ofScalar K _ _ _ ⟨d⟩ _ _ _ _ _ _ _ _ _ _ _ _ _ (hashSize Vs.length) (circumcenter p0 p1 p2)) Vs fuel (hashSize Vs.length) i0 i1 i2
    (srt (circumcenter p0 p1 p2) ((List.range Vs.length).map Int.ofNat))
  let hull ← hullWalk Vs s fuel s.hull []
  pure (.triangulation hull s.triangles s.halfedges)

omit [FloorRing K] in
/-- the search for the seed triangle: triangulator.go:60-128 up to the circumcentre -/
def seedsQ (Vs : List (R3.Vector K)) : Res (Option (ℕ × ℕ × ℕ × R3.Vector K × R3.Vector K × R3.Vector K)) := do
  let (x0, x1, y0, y1) ← bounds Vs
  let m : R3.Vector K := ⟨(x0 + x1) / 2, (y0 + y1) / 2, 0⟩
  let i0 := seed0 Vs m
  let p0 ← goGet Vs i0
  let i1 := seed1 Vs i0 p0
  let p1 ← goGet Vs i1
  let (i2, minRadius) := seed2 Vs i0 i1 p0 p1
  match minRadius with
  | none => pure none
  | some _ => do
    let p2 ← goGet Vs i2
    let (i1, i2) := if area p0 p1 p2 < (0 : K) then (i2, i1) else (i1, i2)
    let p1 ← goGet Vs i1
    let p2 ← goGet Vs i2
    pure (some (i0, i1, i2, p0, p1, p2))

omit hd in
/-- the seeds of planar points -/
theorem seedsQ_spec {Vs : List (R3.Vector K)} (hp : Planar Vs) (hn : 2 ≤ Vs.length) :
    (Collinear Vs ∧ seedsQ Vs = .ok none) ∨
    (¬ Collinear Vs ∧ ∃ i0 i1 i2 p0 p1 p2, Seeds Vs i0 i1 i2 p0 p1 p2 ∧ seedsQ Vs = .ok (some (i0, i1, i2, p0, p1, p2))) := by
  obtain ⟨z, hz⟩ := hp
  obtain ⟨⟨x0, x1, y0, y1⟩, hb⟩ := bounds_ok hn
  have hne : Vs ≠ [] := by rintro rfl; simp at hn
  unfold seedsQ
  rw [hb, Res.bind_ok]
  dsimp only
  set i0 := seed0 Vs ⟨(x0 + x1) / 2, (y0 + y1) / 2, 0⟩ with hi0
  have h0 : i0 < Vs.length := seed0_lt _ _ hne
  obtain ⟨p0, hp0⟩ : ∃ p0, Vs[i0]? = some p0 := ⟨Vs[i0], by simp⟩
  rw [goGet_eq rfl hp0, Res.bind_ok]
  set i1 := seed1 Vs i0 p0 with hi1
  have mem : ∀ {i v}, Vs[i]? = some v → v ∈ Vs := fun h => List.mem_of_getElem? h
  have mem0 := mem hp0
  have sqd : ∀ {u v}, u ∈ Vs → v ∈ Vs → R3.SquaredDistance u v = dist2 u v := fun hu hv => sq_planar (by rw [hz _ hu, hz _ hv])
  rcases seed1_spec Vs i0 p0 with ⟨e1, hall⟩ | ⟨p1, hp1, hne1, hpos1, hmin1⟩
  · -- all points coincide with p0
    left
    have hco : ∀ v ∈ Vs, v.X = p0.X ∧ v.Y = p0.Y := by
      intro v hv
      obtain ⟨i, hi, e⟩ := List.mem_iff_getElem.mp hv
      have hiv : Vs[i]? = some v := by rw [← e]; simp
      by_cases c : i = i0
      · subst c; rw [hp0] at hiv; injection hiv with hiv; subst hiv; exact ⟨rfl, rfl⟩
      · have := hall i v hiv c
        rw [sqd hv mem0, dist2_pos, not_not] at this
        exact this
    obtain ⟨p1, hp1⟩ : ∃ p1, Vs[i1]? = some p1 := by
      have : i1 < Vs.length := by rw [hi1, e1]; omega
      exact ⟨Vs[i1], by simp [this]⟩
    rw [goGet_eq rfl hp1, Res.bind_ok]
    have h01 := hco p1 (mem hp1)
    have hcr : ∀ v, circumradius p0 p1 v = none := by
      intro v; simp [circumradius, h01.1, h01.2]
    rcases seed2_spec Vs i0 i1 p0 p1 with ⟨e2, _⟩ | ⟨i2, p2, r, e2, _, _, _, hr, _⟩
    · rw [e2]
      refine ⟨?_, rfl⟩
      intro a ha b hb c hc
      unfold area
      rw [(hco a ha).1, (hco a ha).2, (hco b hb).1, (hco b hb).2]; ring
    · rw [hcr] at hr; cases hr
  · rw [← hi1] at hp1 hne1
    rw [goGet_eq rfl hp1, Res.bind_ok]
    have mem1 := mem hp1
    rw [sqd mem1 mem0] at hpos1
    rcases seed2_spec Vs i0 i1 p0 p1 with ⟨e2, hall⟩ | ⟨i2, p2, r, e2, hp2, hne20, hne21, hr2, hmin2⟩
    · left
      rw [e2]
      refine ⟨?_, rfl⟩
      have hd : ∀ v ∈ Vs, dOf p0 p1 v = 0 := by
        intro v hv
        obtain ⟨i, hi, e⟩ := List.mem_iff_getElem.mp hv
        have hiv : Vs[i]? = some v := by rw [← e]; simp
        by_cases c0 : i = i0
        · subst c0; rw [hp0] at hiv; injection hiv with hiv; subst hiv; unfold dOf; ring
        by_cases c1 : i = i1
        · subst c1; rw [hp1] at hiv; injection hiv with hiv; subst hiv; unfold dOf; ring
        by_contra hdv
        have := hall i v hiv c0 c1
        rw [(circumradius_spec hpos1).2 hdv] at this
        cases this
      intro a ha b hb c hc
      exact area_aux hpos1.ne' (hd a ha) (hd b hb) (hd c hc)
    · right
      rw [e2]
      dsimp only
      have mem2 := mem hp2
      have hd2 : dOf p0 p1 p2 ≠ 0 := by
        intro h
        rw [(circumradius_spec hpos1).1 h] at hr2; cases hr2
      rw [(circumradius_spec hpos1).2 hd2] at hr2
      injection hr2 with hr2
      have hp20 : ¬ (p2.X = p0.X ∧ p2.Y = p0.Y) := by
        rintro ⟨e1, e2⟩
        apply hd2; unfold dOf; rw [e1, e2]; ring
      have empty : ∀ v ∈ Vs, 0 ≤ dOf p0 p1 p2 * (dOf p0 p1 p2 * fOf p0 p1 v - fOf p0 p1 p2 * dOf p0 p1 v) := by
        intro v hv
        obtain ⟨i, hi, e⟩ := List.mem_iff_getElem.mp hv
        have hiv : Vs[i]? = some v := by rw [← e]; simp
        have triv : v = p0 ∨ v = p1 → 0 ≤ dOf p0 p1 p2 * (dOf p0 p1 p2 * fOf p0 p1 v - fOf p0 p1 p2 * dOf p0 p1 v) := by
          rintro (rfl | rfl)
          · apply le_of_eq; unfold fOf dOf; ring
          · apply le_of_eq; unfold fOf dOf; ring
        by_cases c0 : i = i0
        · subst c0; rw [hp0] at hiv; injection hiv with hiv; exact triv (Or.inl hiv.symm)
        by_cases c1 : i = i1
        · subst c1; rw [hp1] at hiv; injection hiv with hiv; exact triv (Or.inr hiv.symm)
        refine seed_empty hpos1 hd2 ?_ ?_ ?_
        · have := hmin1 i2 p2 hp2 hne20 (by rw [sqd mem2 mem0, dist2_pos]; exact hp20)
          rwa [sqd mem1 mem0, sqd mem2 mem0] at this
        · intro h
          have := hmin1 i v hiv c0 (by rw [sqd hv mem0]; exact h)
          rwa [sqd mem1 mem0, sqd hv mem0] at this
        · intro hdv
          have := hmin2 i v _ hiv c0 c1 ((circumradius_spec hpos1).2 hdv)
          rw [← hr2] at this
          have h4 : 0 < dist2 p1 p0 / 4 := by positivity
          have := le_of_mul_le_mul_left this h4
          linarith
      refine ⟨?_, ?_⟩
      · intro hc
        apply hd2
        have := hc p0 mem0 p1 mem1 p2 mem2
        rw [area_dOf] at this
        linarith
      · rw [goGet_eq rfl hp2, Res.bind_ok]
        by_cases ha : area p0 p1 p2 < 0
        · rw [if_pos ha]
          dsimp only
          rw [goGet_eq rfl hp2, Res.bind_ok, goGet_eq rfl hp1, Res.bind_ok]
          refine ⟨i0, i2, i1, p0, p2, p1, ⟨hp0, hp2, hp1, fun e => hne20 e.symm, hne21, hne1, ?_, ?_⟩, rfl⟩
          · unfold area at ha ⊢; linarith
          · intro v hv
            have h1 := empty v hv
            rw [area_dOf] at ha
            have h2 : 0 < dOf p0 p1 p2 := by linarith
            have h3 := nonneg_of_mul_nonneg_right h1 h2
            have h4 : inCircleDet p0 p2 p1 v = - inCircleDet p0 p1 p2 v := by simp only [inCircleDet]; ring
            rw [h4, det_dOf]; linarith
        · rw [if_neg ha]
          dsimp only
          rw [goGet_eq rfl hp1, Res.bind_ok, goGet_eq rfl hp2, Res.bind_ok]
          refine ⟨i0, i1, i2, p0, p1, p2, ⟨hp0, hp1, hp2, fun e => hne1 e.symm, fun e => hne21 e.symm, hne20, ?_, ?_⟩, rfl⟩
          · rw [area_dOf] at ha ⊢
            rcases lt_or_gt_of_ne hd2 with h | h
            · linarith
            · exfalso; apply ha; linarith
          · intro v hv
            have h1 := empty v hv
            rw [area_dOf] at ha
            have h2 : dOf p0 p1 p2 < 0 := lt_of_le_of_ne (by linarith) hd2
            rw [det_dOf]
            nlinarith


theorem tri_div (srt : R3.Vector K → List ℤ → List ℤ) (hashSize : ℕ → ℕ) (fuel : ℕ) (Vs : List (R3.Vector K)) (hn : Vs.length ≠ 0) :
    @Triangulate K _ _ _ ⟨d⟩ _ _ _ _ _ _ _ _ _ _ _ _ _ _ _ _ srt hashSize fuel Vs = seedsQ Vs >>= fun o => match o with
      | none => pure .noTriangulation
      | some (i0, i1, i2, p0, p1, p2) => afterSeedsD d srt hashSize fuel Vs i0 i1 i2 p0 p1 p2 := by
  unfold Triangulate seedsQ
  simp only [seed2_div d hd, half_div d hd]
  rw [if_neg hn]
  cases hb : bounds Vs with
  | panic => rfl
  | fuel => rfl
  | ok b =>
    obtain ⟨x0, x1, y0, y1⟩ := b
    simp only [Res.bind_ok]
    generalize seed0 Vs _ = i0
    cases h0 : goGet Vs (i0 : ℤ) with
    | panic => rfl
    | fuel => rfl
    | ok p0 =>
      simp only [Res.bind_ok]
      cases h1 : goGet Vs (Tri2.seed1 Vs i0 p0 : ℤ) with
      | panic => rfl
      | fuel => rfl
      | ok p1 =>
        simp only [Res.bind_ok]
        rcases seed2_spec Vs i0 (Tri2.seed1 Vs i0 p0) p0 p1 with ⟨e2, _⟩ | ⟨i2, p2, r, e2, hp2, _, _, hr, _⟩
        · rw [e2]; rfl
        · have hd2 : dOf p0 p1 p2 ≠ 0 := by
            intro h
            have : (p1.X - p0.X) * (p2.Y - p0.Y) - (p1.Y - p0.Y) * (p2.X - p0.X) = 0 := h
            simp [circumradius, this] at hr
          rw [e2]
          simp only
          rw [goGet_eq rfl hp2]
          simp only [Res.bind_ok]
          by_cases ha : area p0 p1 p2 < 0
          · simp only [if_pos ha]
            rw [goGet_eq rfl hp2, h1]
            simp only [Res.bind_ok]
            rw [circumcenter_div d hd (dOf_swap hd2)]
            rfl
          · simp only [if_neg ha]
            rw [goGet_eq rfl hp2, h1]
            simp only [Res.bind_ok]
            rw [circumcenter_div d hd hd2]
            rfl

end Verif.Proofs
