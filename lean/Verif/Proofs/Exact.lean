import Verif.Proofs.Seeds
/-!
# The triangulator in exact arithmetic
-/
namespace Verif.Proofs
open Verif Verif.Tri2 Verif.Props

variable {K : Type} [Field K] [LinearOrder K] [IsStrictOrderedRing K] [FloorRing K]

/-- every three points are collinear -/
def Collinear (Vs : List (R3.Vector K)) : Prop := ∀ a ∈ Vs, ∀ b ∈ Vs, ∀ c ∈ Vs, area a b c = 0

/-- the core computation after the seeds have been chosen -/
def afterSeeds (srt : R3.Vector K → List ℤ → List ℤ) (hashSize : ℕ → ℕ) (fuel : ℕ) (Vs : List (R3.Vector K)) (i0 i1 i2 : ℕ)
    (p0 p1 p2 : R3.Vector K) : Res (TriOut K) := do
  let s ← triangulateCore (Geo.ofScalar (hashSize Vs.length) (circumcenter p0 p1 p2)) Vs fuel (hashSize Vs.length) i0 i1 i2
    (srt (circumcenter p0 p1 p2) ((List.range Vs.length).map Int.ofNat))
  let hull ← hullWalk Vs s fuel s.hull []
  pure (.triangulation hull s.triangles s.halfedges)

/-- a seed triangle: positively oriented, with an empty circumcircle -/
structure Seeds (Vs : List (R3.Vector K)) (i0 i1 i2 : ℕ) (p0 p1 p2 : R3.Vector K) : Prop where
  g0 : Vs[i0]? = some p0
  g1 : Vs[i1]? = some p1
  g2 : Vs[i2]? = some p2
  d01 : i0 ≠ i1
  d12 : i1 ≠ i2
  d20 : i2 ≠ i0
  pos : 0 < area p0 p1 p2
  empty : ∀ v ∈ Vs, 0 ≤ inCircleDet p0 p1 p2 v

omit [LinearOrder K] [IsStrictOrderedRing K] [FloorRing K] in
theorem area_aux {a b c p0 p1 : R3.Vector K} (h1 : dist2 p1 p0 ≠ 0) (ha : dOf p0 p1 a = 0) (hb : dOf p0 p1 b = 0) (hc : dOf p0 p1 c = 0) :
    area a b c = 0 := by
  have key : ∀ u v : R3.Vector K, dOf p0 p1 u = 0 → dOf p0 p1 v = 0 → dist2 p1 p0 * ((u.X - p0.X)*(v.Y - p0.Y) - (u.Y - p0.Y)*(v.X - p0.X)) = 0 := by
    intro u v hu hv
    unfold dOf at hu hv
    unfold dist2
    linear_combination (-(v.X - p0.X) * (p1.X - p0.X) - (v.Y - p0.Y) * (p1.Y - p0.Y)) * hu + ((u.X - p0.X) * (p1.X - p0.X) + (u.Y - p0.Y) * (p1.Y - p0.Y)) * hv
  have k1 := (mul_eq_zero.mp (key a b ha hb)).resolve_left h1
  have k2 := (mul_eq_zero.mp (key b c hb hc)).resolve_left h1
  have k3 := (mul_eq_zero.mp (key a c ha hc)).resolve_left h1
  unfold area
  linear_combination -k1 - k2 + k3

omit [FloorRing K] in
theorem bounds_ok {Vs : List (R3.Vector K)} (h : 2 ≤ Vs.length) : ∃ b, bounds Vs = .ok b := by
  unfold bounds
  have h0 : Vs[0]? = some Vs[0] := by simp
  have h1 : Vs[1]? = some Vs[1] := by simp
  rw [goGet_eq (z := 0) (n := 0) rfl h0, Res.bind_ok, goGet_eq (z := 1) (n := 1) rfl h1, Res.bind_ok]
  exact ⟨_, rfl⟩

omit [FloorRing K] in
theorem circumradius_self {p v : R3.Vector K} : circumradius p p v = none := by
  simp [circumradius]

/-- triangulator.go:50-128 in exact arithmetic, for planar points -/
theorem exact_seeds (srt : R3.Vector K → List ℤ → List ℤ) (hashSize : ℕ → ℕ) (fuel : ℕ) {Vs : List (R3.Vector K)} (hp : Planar Vs) (hn : 2 ≤ Vs.length) :
    (Collinear Vs ∧ Triangulate srt hashSize fuel Vs = .ok .noTriangulation) ∨
    (¬ Collinear Vs ∧ ∃ i0 i1 i2 p0 p1 p2, Seeds Vs i0 i1 i2 p0 p1 p2 ∧
      Triangulate srt hashSize fuel Vs = afterSeeds srt hashSize fuel Vs i0 i1 i2 p0 p1 p2) := by
  obtain ⟨z, hz⟩ := hp
  obtain ⟨⟨x0, x1, y0, y1⟩, hb⟩ := bounds_ok hn
  have hne : Vs ≠ [] := by rintro rfl; simp at hn
  unfold Triangulate
  simp only
  rw [if_neg (by omega), hb, Res.bind_ok]
  dsimp only
  set i0 := seed0 Vs ⟨(x0 + x1) / 2, (y0 + y1) / 2, 0⟩ with hi0
  have h0 : i0 < Vs.length := seed0_lt _ _ hne
  obtain ⟨p0, hp0⟩ : ∃ p0, Vs[i0]? = some p0 := ⟨Vs[i0], by simp⟩
  rw [goGet_eq rfl hp0, Res.bind_ok]
  set i1 := seed1 Vs i0 p0 with hi1
  have mem : ∀ {i v}, Vs[i]? = some v → v ∈ Vs := fun h => List.mem_of_getElem? h
  have mem0 := mem hp0
  have sqd : ∀ {u v}, u ∈ Vs → v ∈ Vs → R3.SquaredDistance u v = dist2 u v := fun hu hv => sq_planar (by rw [hz _ hu, hz _ hv])
  rcases seed1_spec Vs i0 p0 with ⟨e1, hall⟩ | ⟨p1, hp1, hne1, hpos1, hmin1⟩
  · -- all points coincide with p0
    left
    have hco : ∀ v ∈ Vs, v.X = p0.X ∧ v.Y = p0.Y := by
      intro v hv
      obtain ⟨i, hi, e⟩ := List.mem_iff_getElem.mp hv
      have hiv : Vs[i]? = some v := by rw [← e]; simp
      by_cases c : i = i0
      · subst c; rw [hp0] at hiv; injection hiv with hiv; subst hiv; exact ⟨rfl, rfl⟩
      · have := hall i v hiv c
        rw [sqd hv mem0, dist2_pos, not_not] at this
        exact this
    obtain ⟨p1, hp1⟩ : ∃ p1, Vs[i1]? = some p1 := by
      have : i1 < Vs.length := by rw [hi1, e1]; omega
      exact ⟨Vs[i1], by simp [this]⟩
    rw [goGet_eq rfl hp1, Res.bind_ok]
    have h01 := hco p1 (mem hp1)
    have hcr : ∀ v, circumradius p0 p1 v = none := by
      intro v; simp [circumradius, h01.1, h01.2]
    rcases seed2_spec Vs i0 i1 p0 p1 with ⟨e2, _⟩ | ⟨i2, p2, r, e2, _, _, _, hr, _⟩
    · rw [e2]
      refine ⟨?_, rfl⟩
      intro a ha b hb c hc
      unfold area
      rw [(hco a ha).1, (hco a ha).2, (hco b hb).1, (hco b hb).2]; ring
    · rw [hcr] at hr; cases hr
  · rw [← hi1] at hp1 hne1
    rw [goGet_eq rfl hp1, Res.bind_ok]
    have mem1 := mem hp1
    rw [sqd mem1 mem0] at hpos1
    rcases seed2_spec Vs i0 i1 p0 p1 with ⟨e2, hall⟩ | ⟨i2, p2, r, e2, hp2, hne20, hne21, hr2, hmin2⟩
    · left
      rw [e2]
      refine ⟨?_, rfl⟩
      have hd : ∀ v ∈ Vs, dOf p0 p1 v = 0 := by
        intro v hv
        obtain ⟨i, hi, e⟩ := List.mem_iff_getElem.mp hv
        have hiv : Vs[i]? = some v := by rw [← e]; simp
        by_cases c0 : i = i0
        · subst c0; rw [hp0] at hiv; injection hiv with hiv; subst hiv; unfold dOf; ring
        by_cases c1 : i = i1
        · subst c1; rw [hp1] at hiv; injection hiv with hiv; subst hiv; unfold dOf; ring
        by_contra hdv
        have := hall i v hiv c0 c1
        rw [(circumradius_spec hpos1).2 hdv] at this
        cases this
      intro a ha b hb c hc
      exact area_aux hpos1.ne' (hd a ha) (hd b hb) (hd c hc)
    · right
      rw [e2]
      dsimp only
      have mem2 := mem hp2
      have hd2 : dOf p0 p1 p2 ≠ 0 := by
        intro h
        rw [(circumradius_spec hpos1).1 h] at hr2; cases hr2
      rw [(circumradius_spec hpos1).2 hd2] at hr2
      injection hr2 with hr2
      have hp20 : ¬ (p2.X = p0.X ∧ p2.Y = p0.Y) := by
        rintro ⟨e1, e2⟩
        apply hd2; unfold dOf; rw [e1, e2]; ring
      have empty : ∀ v ∈ Vs, 0 ≤ dOf p0 p1 p2 * (dOf p0 p1 p2 * fOf p0 p1 v - fOf p0 p1 p2 * dOf p0 p1 v) := by
        intro v hv
        obtain ⟨i, hi, e⟩ := List.mem_iff_getElem.mp hv
        have hiv : Vs[i]? = some v := by rw [← e]; simp
        have triv : v = p0 ∨ v = p1 → 0 ≤ dOf p0 p1 p2 * (dOf p0 p1 p2 * fOf p0 p1 v - fOf p0 p1 p2 * dOf p0 p1 v) := by
          rintro (rfl | rfl)
          · apply le_of_eq; unfold fOf dOf; ring
          · apply le_of_eq; unfold fOf dOf; ring
        by_cases c0 : i = i0
        · subst c0; rw [hp0] at hiv; injection hiv with hiv; exact triv (Or.inl hiv.symm)
        by_cases c1 : i = i1
        · subst c1; rw [hp1] at hiv; injection hiv with hiv; exact triv (Or.inr hiv.symm)
        refine seed_empty hpos1 hd2 ?_ ?_ ?_
        · have := hmin1 i2 p2 hp2 hne20 (by rw [sqd mem2 mem0, dist2_pos]; exact hp20)
          rwa [sqd mem1 mem0, sqd mem2 mem0] at this
        · intro h
          have := hmin1 i v hiv c0 (by rw [sqd hv mem0]; exact h)
          rwa [sqd mem1 mem0, sqd hv mem0] at this
        · intro hdv
          have := hmin2 i v _ hiv c0 c1 ((circumradius_spec hpos1).2 hdv)
          rw [← hr2] at this
          have h4 : 0 < dist2 p1 p0 / 4 := by positivity
          have := le_of_mul_le_mul_left this h4
          linarith
      refine ⟨?_, ?_⟩
      · intro hc
        apply hd2
        have := hc p0 mem0 p1 mem1 p2 mem2
        rw [area_dOf] at this
        linarith
      · rw [goGet_eq rfl hp2, Res.bind_ok]
        by_cases ha : area p0 p1 p2 < 0
        · rw [if_pos ha]
          dsimp only
          rw [goGet_eq rfl hp2, Res.bind_ok, goGet_eq rfl hp1, Res.bind_ok]
          refine ⟨i0, i2, i1, p0, p2, p1, ⟨hp0, hp2, hp1, fun e => hne20 e.symm, hne21, hne1, ?_, ?_⟩, rfl⟩
          · unfold area at ha ⊢; linarith
          · intro v hv
            have h1 := empty v hv
            rw [area_dOf] at ha
            have h2 : 0 < dOf p0 p1 p2 := by linarith
            have h3 := nonneg_of_mul_nonneg_right h1 h2
            have h4 : inCircleDet p0 p2 p1 v = - inCircleDet p0 p1 p2 v := by simp only [inCircleDet]; ring
            rw [h4, det_dOf]; linarith
        · rw [if_neg ha]
          dsimp only
          rw [goGet_eq rfl hp1, Res.bind_ok, goGet_eq rfl hp2, Res.bind_ok]
          refine ⟨i0, i1, i2, p0, p1, p2, ⟨hp0, hp1, hp2, fun e => hne1 e.symm, fun e => hne21 e.symm, hne20, ?_, ?_⟩, rfl⟩
          · rw [area_dOf] at ha ⊢
            rcases lt_or_gt_of_ne hd2 with h | h
            · linarith
            · exfalso; apply ha; linarith
          · intro v hv
            have h1 := empty v hv
            rw [area_dOf] at ha
            have h2 : dOf p0 p1 p2 < 0 := lt_of_le_of_ne (by linarith) hd2
            rw [det_dOf]
            nlinarith

/-- predicates that decide the exact signs for the points of the list; the in-circle test has to be right only for the far corner of
two clockwise triangles with a common edge -/
structure Tells (g : Geo (R3.Vector K)) (Vs : List (R3.Vector K)) : Prop where
  self : ∀ v x y, g.inC v x y v = false
  lt1 : ∀ v x, g.areaLt v v x = false
  lt2 : ∀ v x, g.areaLt v x v = false
  inC : ∀ a ∈ Vs, ∀ b ∈ Vs, ∀ c ∈ Vs, ∀ d ∈ Vs, 0 < area a b c → 0 < area d c b → g.inC a b c d = decide (inCircleDet a b c d < 0)
  lt : ∀ a ∈ Vs, ∀ b ∈ Vs, ∀ c ∈ Vs, g.areaLt a b c = decide (area a b c < 0)
  ge : ∀ a ∈ Vs, ∀ b ∈ Vs, ∀ c ∈ Vs, g.areaGe a b c = decide (0 ≤ area a b c)

/-- no point other than the seeds asks to flip away the seed triangle -/
def SafeSeed (g : Geo (R3.Vector K)) (Vs : List (R3.Vector K)) (i0 i1 i2 : ℕ) : Prop :=
  ∀ p, p ≠ i0 → p ≠ i1 → p ≠ i2 → ∀ v v0 v1 v2, Vs[p]? = some v → Vs[i0]? = some v0 → Vs[i1]? = some v1 → Vs[i2]? = some v2 →
    g.inC v v1 v0 v2 = false ∧ g.inC v v2 v1 v0 = false ∧ g.inC v v0 v2 v1 = false

omit [FloorRing K] in
/-- predicates that are the exact ones -/
theorem tells_of {g : Geo (R3.Vector K)} (h1 : g.inC = fun a b c d => decide (inCircleDet a b c d < 0)) (h2 : g.areaLt = fun a b c => decide (area a b c < 0))
    (h3 : g.areaGe = fun a b c => decide (0 ≤ area a b c)) (Vs : List (R3.Vector K)) : Tells g Vs where
  self v x y := by
    rw [h1]
    have : inCircleDet v x y v = 0 := by simp only [inCircleDet]; ring
    simp [this]
  lt1 v x := by
    rw [h2]
    have : area v v x = 0 := by unfold area; ring
    simp [this]
  lt2 v x := by
    rw [h2]
    have : area v x v = 0 := by unfold area; ring
    simp [this]
  inC _ _ _ _ _ _ _ _ _ _ := by rw [h1]
  lt _ _ _ _ _ _ := by rw [h2]
  ge _ _ _ _ _ _ := by rw [h3]

omit [FloorRing K] in
/-- the exact predicates do not flip away the seed triangle if its circle is empty -/
theorem safeSeed_of {g : Geo (R3.Vector K)} (h1 : g.inC = fun a b c d => decide (inCircleDet a b c d < 0)) {Vs : List (R3.Vector K)} {i0 i1 i2 : ℕ}
    {p0 p1 p2 : R3.Vector K} (S : Seeds Vs i0 i1 i2 p0 p1 p2) : SafeSeed g Vs i0 i1 i2 := by
  intro p _ _ _ v v0 v1 v2 hv h0 h1' h2
  rw [S.g0] at h0; rw [S.g1] at h1'; rw [S.g2] at h2
  injection h0 with h0; injection h1' with h1'; injection h2 with h2
  subst h0 h1' h2
  have he := S.empty v (List.mem_of_getElem? hv)
  rw [h1]
  refine ⟨?_, ?_, ?_⟩
  · show decide (inCircleDet v p1 p0 p2 < 0) = false
    rw [show inCircleDet v p1 p0 p2 = inCircleDet p0 p1 p2 v by simp only [inCircleDet]; ring]
    simpa using he
  · show decide (inCircleDet v p2 p1 p0 < 0) = false
    rw [show inCircleDet v p2 p1 p0 = inCircleDet p0 p1 p2 v by simp only [inCircleDet]; ring]
    simpa using he
  · show decide (inCircleDet v p0 p2 p1 < 0) = false
    rw [show inCircleDet v p0 p2 p1 = inCircleDet p0 p1 p2 v by simp only [inCircleDet]; ring]
    simpa using he

theorem tells_exact (m : ℕ) (center : R3.Vector K) (Vs : List (R3.Vector K)) : Tells (Geo.ofScalar m center) Vs :=
  tells_of rfl rfl rfl Vs

theorem safe_exact (m : ℕ) (center : R3.Vector K) {Vs : List (R3.Vector K)} {i0 i1 i2 : ℕ} {p0 p1 p2 : R3.Vector K} (S : Seeds Vs i0 i1 i2 p0 p1 p2) :
    SafeSeed (Geo.ofScalar m center) Vs i0 i1 i2 := safeSeed_of rfl S

omit [FloorRing K] in
/-- predicates that decide the exact signs, with keys in range -/
theorem geo_orc {g : Geo (R3.Vector K)} {Vs : List (R3.Vector K)} (G : Tells g Vs) {i0 i1 i2 : ℕ} {p0 p1 p2 : R3.Vector K} (S : Seeds Vs i0 i1 i2 p0 p1 p2)
    (H : SafeSeed g Vs i0 i1 i2) {m : ℕ} (hkey : ∀ v ∈ Vs, 0 ≤ g.key v ∧ g.key v < m) : Orc g Vs (crossOf Vs) True m i0 i1 i2 where
  safe := by
    intro p hp hne
    exact ⟨G.self, H p hne.1 hne.2.1 hne.2.2⟩
  lt1 := by simpa using G.lt1
  lt2 := by simpa using G.lt2
  anti := fun _ => crossOf_anti Vs
  exLt := by
    intro _ i a b v va vb hv ha hb h
    have h : area v va vb < 0 := by simpa [G.lt _ (List.mem_of_getElem? hv) _ (List.mem_of_getElem? ha) _ (List.mem_of_getElem? hb)] using h
    rw [← ptOf_eq hv, ← ptOf_eq ha, ← ptOf_eq hb, area_crossOf] at h
    have h1 := crossOf_anti Vs a i
    have h2 := crossOf_anti Vs b i
    linarith
  exGe := by
    intro _ i a b v va vb hv ha hb h
    have h : area v va vb < 0 := by simpa [G.ge _ (List.mem_of_getElem? hv) _ (List.mem_of_getElem? ha) _ (List.mem_of_getElem? hb)] using h
    rw [← ptOf_eq hv, ← ptOf_eq ha, ← ptOf_eq hb, area_crossOf] at h
    have h1 := crossOf_anti Vs a i
    have h2 := crossOf_anti Vs b i
    linarith
  key := fun _ => hkey

/-- the exact predicates -/
theorem exact_orc {Vs : List (R3.Vector K)} {i0 i1 i2 : ℕ} {p0 p1 p2 : R3.Vector K} (S : Seeds Vs i0 i1 i2 p0 p1 p2) {m : ℕ} (hm : 0 < m) (center : R3.Vector K) :
    Orc (Geo.ofScalar m center) Vs (crossOf Vs) True m i0 i1 i2 := geo_orc (tells_exact m center Vs) S (safe_exact m center S) fun v _ => C14_hashKey center v m hm

omit [FloorRing K] in
theorem Seeds.lt {Vs : List (R3.Vector K)} {i0 i1 i2 : ℕ} {p0 p1 p2 : R3.Vector K} (S : Seeds Vs i0 i1 i2 p0 p1 p2) :
    i0 < Vs.length ∧ i1 < Vs.length ∧ i2 < Vs.length :=
  ⟨(List.getElem?_eq_some_iff.mp S.g0).1, (List.getElem?_eq_some_iff.mp S.g1).1, (List.getElem?_eq_some_iff.mp S.g2).1⟩

omit [FloorRing K] in
/-- exact predicates satisfy the assumptions of the theorems about arbitrary predicates -/
theorem geo_call {g : Geo (R3.Vector K)} {Vs : List (R3.Vector K)} (G : Tells g Vs) {i0 i1 i2 : ℕ} {p0 p1 p2 : R3.Vector K} (S : Seeds Vs i0 i1 i2 p0 p1 p2)
    (H : SafeSeed g Vs i0 i1 i2) {m : ℕ} (hkey : ∀ v ∈ Vs, 0 ≤ g.key v ∧ g.key v < m) {ids : List ℤ} (hids : ids.Perm ((List.range Vs.length).map Int.ofNat)) {fuel : ℕ} (hf : 6 * Vs.length < fuel) :
    Call g Vs fuel i0 i1 i2 ids := by
  have O := geo_orc G S H hkey
  obtain ⟨l0, l1, l2⟩ := S.lt
  refine ⟨⟨(O.safe i0 l0 · |>.self) |> fun _ => ?_, O.lt1, O.lt2, ?_⟩, l0, l1, l2, S.d01, S.d12, S.d20, ?_, ?_, hf⟩
  · exact G.self
  · intro p h0 h1 h2 v v0 v1 v2 hv
    exact (O.safe p (List.getElem?_eq_some_iff.mp hv).1 ⟨h0, h1, h2⟩).seed v v0 v1 v2 hv
  · rw [hids.nodup_iff]
    exact List.Nodup.map (fun a b h => by simpa using h) List.nodup_range
  · intro z hz
    rw [hids.mem_iff, List.mem_map] at hz
    obtain ⟨a, ha, rfl⟩ := hz
    rw [List.mem_range] at ha
    simp [ha]

theorem exact_call {Vs : List (R3.Vector K)} {i0 i1 i2 : ℕ} {p0 p1 p2 : R3.Vector K} (S : Seeds Vs i0 i1 i2 p0 p1 p2) {m : ℕ} (hm : 0 < m) (center : R3.Vector K)
    {ids : List ℤ} (hids : ids.Perm ((List.range Vs.length).map Int.ofNat)) {fuel : ℕ} (hf : 6 * Vs.length < fuel) :
    Call (Geo.ofScalar m center) Vs fuel i0 i1 i2 ids := geo_call (tells_exact m center Vs) S (safe_exact m center S) (fun v _ => C14_hashKey center v m hm) hids hf

end Verif.Proofs
