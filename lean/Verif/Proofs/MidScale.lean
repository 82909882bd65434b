import Verif.Proofs.MidRun
import Verif.Props.UnitOrigin
import Verif.Props.DelaunatorSigns
/-!
# The triangulator at binary64 for integer coordinates of size at most 512 times a power of two
-/
namespace Verif.Proofs
open Verif Verif.F64 Verif.Tri2 Verif.R3 Verif.Props

theorem goGet_nat {β : Type} {l : List β} {i : ℕ} {v : β} (h : l[i]? = some v) : goGet l (i : ℤ) = .ok v := by
  unfold goGet
  rw [if_neg (by omega), Int.toNat_natCast, h]; rfl

theorem goGet_nat' {β : Type} {l : List β} {i : ℕ} {v : β} (h : goGet l (i : ℤ) = .ok v) : l[i]? = some v := by
  unfold goGet at h
  rw [if_neg (by omega), Int.toNat_natCast] at h
  exact Res.ofOption_eq_ok.mp h

/-- the seeds of the images are the images of the seeds -/
theorem seeds_same {T : Vector F64 → Vector F64} {Vs : List (Vector F64)} {R Q : F64 → F64 → Prop} (S : SameTests T Vs R Q) :
    (∃ i0 i1 i2 a b c, Vs[i0]? = some a ∧ Vs[i1]? = some b ∧ Vs[i2]? = some c ∧ ((circumradius a b c).isSome ∨ (circumradius a c b).isSome) ∧
      seedsOf Vs = .ok (some (i0, i1, i2, circumcenter a b c)) ∧
      seedsOf (Vs.map T) = .ok (some (i0, i1, i2, circumcenter (T a) (T b) (T c)))) ∨
    (seedsOf Vs = .ok none ∧ seedsOf (Vs.map T) = .ok none) ∨ (∀ x, seedsOf (Vs.map T) ≠ .ok x) := by
  unfold seedsOf
  rcases bounds_same S with ⟨e1, e2⟩ | ⟨a, ha, b, hb, c, hc, d, hd, e1, e2⟩
  · rw [e1, e2]; exact Or.inr (Or.inr fun x h => by cases h)
  rw [e1, e2, Res.bind_ok, Res.bind_ok]
  dsimp only
  rw [show (⟨((T a).X + (T b).X) / 2, ((T c).Y + (T d).Y) / 2, 0⟩ : Vector F64) = boxMid (T a) (T b) (T c) (T d) from rfl,
    show (⟨(a.X + b.X) / 2, (c.Y + d.Y) / 2, 0⟩ : Vector F64) = boxMid a b c d from rfl, seed0_same S ha hb hc hd]
  generalize seed0 Vs (boxMid a b c d) = i0
  cases h0 : goGet Vs (i0 : ℤ) with
  | panic => rw [goGet_map, h0]; exact Or.inr (Or.inr fun x h => by cases h)
  | fuel => rw [goGet_map, h0]; exact Or.inr (Or.inr fun x h => by cases h)
  | ok p0 =>
  have m0 := goGet_mem h0
  rw [goGet_map, bind_map', h0, Res.bind_ok, Res.bind_ok, seed1_same S _ m0]
  generalize seed1 Vs i0 p0 = i1
  cases h1 : goGet Vs (i1 : ℤ) with
  | panic => rw [goGet_map, h1]; exact Or.inr (Or.inr fun x h => by cases h)
  | fuel => rw [goGet_map, h1]; exact Or.inr (Or.inr fun x h => by cases h)
  | ok p1 =>
  have m1 := goGet_mem h1
  rw [goGet_map, bind_map', h1, Res.bind_ok, Res.bind_ok]
  obtain ⟨s1, s2⟩ := seed2_same S i0 i1 m0 m1
  rw [s1]
  have found := fun r => seed2_found (r := r) (Vs := Vs) (i0 := i0) (i1 := i1) (p := p0) (q := p1)
  generalize (seed2 (Vs.map T) i0 i1 (T p0) (T p1)).2 = o at s2 ⊢
  generalize (seed2 Vs i0 i1 p0 p1).1 = i2 at found ⊢
  generalize (seed2 Vs i0 i1 p0 p1).2 = r at found s2 ⊢
  cases s2 with
  | none => exact Or.inr (Or.inl ⟨rfl, rfl⟩)
  | some =>
    obtain ⟨p2, g2, hrad⟩ := found _ rfl
    have h2 := goGet_nat g2
    have m2 := goGet_mem h2
    dsimp only
    rw [goGet_map, bind_map', h2, Res.bind_ok, Res.bind_ok]
    left
    by_cases ha : Tri2.area p0 p1 p2 < 0
    · rw [if_pos ha, if_pos ((S.area p0 m0 p1 m1 p2 m2).mp ha)]
      refine ⟨i0, i2, i1, p0, p2, p1, goGet_nat' h0, g2, goGet_nat' h1, Or.inr hrad, ?_, ?_⟩
      · dsimp only; rw [h2, Res.bind_ok, h1, Res.bind_ok]; rfl
      · dsimp only; rw [goGet_map, bind_map', h2, Res.bind_ok, goGet_map, bind_map', h1, Res.bind_ok]; rfl
    · rw [if_neg ha, if_neg (fun hc => ha ((S.area p0 m0 p1 m1 p2 m2).mpr hc))]
      refine ⟨i0, i1, i2, p0, p1, p2, goGet_nat' h0, goGet_nat' h1, g2, Or.inl hrad, ?_, ?_⟩
      · dsimp only; rw [h1, Res.bind_ok, h2, Res.bind_ok]; rfl
      · dsimp only; rw [goGet_map, bind_map', h1, Res.bind_ok, goGet_map, bind_map', h2, Res.bind_ok]; rfl

theorem seeds_none {Vs : List (Vector F64)} (hne : Vs.length ≠ 0) (h : seedsOf Vs = .ok none) (srt : Vector F64 → List ℤ → List ℤ) (hashSize : ℕ → ℕ) (fuel : ℕ) :
    Triangulate srt hashSize fuel Vs = .ok .noTriangulation := by
  unfold Triangulate
  unfold seedsOf at h
  simp only [hne, if_false]
  rw [Res.bind_eq_ok] at h
  obtain ⟨b, hb, h⟩ := h
  rw [hb, Res.bind_ok]
  rw [Res.bind_eq_ok] at h
  obtain ⟨p0, hp0, h⟩ := h
  rw [hp0, Res.bind_ok]
  rw [Res.bind_eq_ok] at h
  obtain ⟨p1, hp1, h⟩ := h
  rw [hp1, Res.bind_ok]
  dsimp only at h ⊢
  split at h
  · rename_i hr
    simp only [hr]; rfl
  · simp only [Res.bind_eq_ok] at h
    obtain ⟨_, _, _, _, _, _, h⟩ := h
    cases h

theorem seeds_not_none {Vs : List (Vector F64)} (hne : Vs.length ≠ 0) {i0 i1 i2 : ℕ} {o : Vector F64} (h : seedsOf Vs = .ok (some (i0, i1, i2, o)))
    (srt : Vector F64 → List ℤ → List ℤ) (hashSize : ℕ → ℕ) (fuel : ℕ) : Triangulate srt hashSize fuel Vs ≠ .ok .noTriangulation := by
  rw [triangulate_seeds hne h]
  unfold restOf
  intro e
  simp only [Res.bind_eq_ok] at e
  obtain ⟨_, _, _, _, e⟩ := e
  cases e

theorem seeds_ok {Vs : List (Vector F64)} {srt : Vector F64 → List ℤ → List ℤ} {hashSize : ℕ → ℕ} {fuel : ℕ} {r : TriOut F64}
    (h : Triangulate srt hashSize fuel Vs = .ok r) (hne : Vs.length ≠ 0) : ∃ x, seedsOf Vs = .ok x := by
  unfold Triangulate at h
  unfold seedsOf
  simp only [hne, if_false] at h
  rw [Res.bind_eq_ok] at h
  obtain ⟨⟨x0, x1, y0, y1⟩, hb, h⟩ := h
  rw [hb, Res.bind_ok]
  dsimp only at h ⊢
  rw [Res.bind_eq_ok] at h
  obtain ⟨p0, hp0, h⟩ := h
  rw [hp0, Res.bind_ok]
  rw [Res.bind_eq_ok] at h
  obtain ⟨p1, hp1, h⟩ := h
  rw [hp1, Res.bind_ok]
  split at h
  · rename_i hr
    simp only [hr]; exact ⟨_, rfl⟩
  · rw [Res.bind_eq_ok] at h
    obtain ⟨p2, hp2, h⟩ := h
    rw [Res.bind_eq_ok] at h
    obtain ⟨q0, hq0, h⟩ := h
    rw [Res.bind_eq_ok] at h
    obtain ⟨q1, hq1, h⟩ := h
    rename_i hr
    simp only [hr, hp2, Res.bind_ok, hq0, hq1]
    exact ⟨_, rfl⟩

/-- `X` and `Y` are integers of size at most 512 times `2^e`, `Z` is zero -/
def MidDyadic (e : ℤ) (Vs : List (Vector F64)) : Prop :=
  ∀ v ∈ Vs, v.X.Finite ∧ v.Y.Finite ∧ (∃ n m : ℤ, |n| ≤ 512 ∧ |m| ≤ 512 ∧ v.X.toQ = n * 2 ^ e ∧ v.Y.toQ = m * 2 ^ e) ∧ v.Z = 0

section
variable {e : ℤ} (he : -26 ≤ e ∧ e ≤ 80) {Vs : List (Vector F64)} (hg : MidDyadic e Vs)

/-- the point divided by the unit -/
def unitless (e : ℤ) (v : Vector F64) : Vector F64 := v.Scaled (flt 1 (-e))

theorem unit_pos (e : ℤ) : (0:ℚ) < 2 ^ e := by positivity

include he in
theorem roomy_unit {x : F64} {n : ℤ} (f : x.Finite) (hn : |n| ≤ 512) (hx : x.toQ = n * 2 ^ e) : Roomy (-e) x ∧ 2 ^ (-e) * x.toQ = n := by
  have h1 : (2:ℚ) ^ (-e) * (n * 2 ^ e) = n := by
    rw [mul_left_comm, ← zpow_add₀ (by norm_num)]; simp
  have hn' : |(n:ℚ)| ≤ 512 := by exact_mod_cast hn
  have h512 : (512:ℚ) = 2 ^ (9:ℤ) := by norm_num
  refine ⟨⟨f, ⟨?_, ?_⟩, ?_, ?_⟩, by rw [hx, h1]⟩
  · rw [hx]; exact Mult.mono (lo := e) ⟨n, rfl⟩ (by omega)
  · rw [hx, abs_mul, abs_of_pos (unit_pos e)]
    calc |(n:ℚ)| * 2 ^ e ≤ 2 ^ (9:ℤ) * 2 ^ e := by rw [← h512]; exact mul_le_mul_of_nonneg_right hn' (unit_pos e).le
      _ = 2 ^ (9 + e) := by rw [← zpow_add₀ (by norm_num)]
      _ ≤ 2 ^ (90:ℤ) := zpow_le_zpow_right₀ (by norm_num) (by omega)
  · rw [hx, h1]; exact Mult.mono (lo := 0) ⟨n, by simp⟩ (by omega)
  · rw [hx, h1]; exact hn'.trans (by rw [h512]; exact zpow_le_zpow_right₀ (by norm_num) (by omega))

include he hg in
theorem mid_roomy : ∀ v ∈ Vs, RoomyV (-e) v := by
  intro v hv
  obtain ⟨fx, fy, ⟨n, m, hn, hm, ex, ey⟩, ez⟩ := hg v hv
  refine ⟨(roomy_unit he fx hn ex).1, (roomy_unit he fy hm ey).1, ?_⟩
  rw [ez]
  exact (roomy_unit he (x := (0:F64)) (n := 0) (by decide +kernel) (by simp) (by rw [toQ_zero0]; simp)).1

include he hg in
theorem mid_sc : ∀ v ∈ Vs, ScV (-e) (-90) 90 v (unitless e v) := fun v hv => roomy_scV (by omega) (mid_roomy he hg v hv)

include he hg in
theorem mid_unit : MidGrid (Vs.map (unitless e)) := by
  intro w hw
  obtain ⟨v, hv, rfl⟩ := List.mem_map.mp hw
  obtain ⟨fx, fy, ⟨n, m, hn, hm, ex, ey⟩, ez⟩ := hg v hv
  have sc := mid_sc he hg v hv
  refine ⟨⟨n, m, 0⟩, ⟨sc.x.fin', ?_, hn⟩, ⟨sc.y.fin', ?_, hm⟩, ⟨sc.z.fin', ?_, by simp⟩⟩
  · rw [sc.x.eq, (roomy_unit he fx hn ex).2]
  · rw [sc.y.eq, (roomy_unit he fy hm ey).2]
  · rw [sc.z.eq, ez, toQ_zero0]; simp

include he hg in
/-- points the program counts as duplicates are at the same position -/
theorem mid_near : ∀ p ∈ Vs, ∀ q ∈ Vs, (SquaredDistance p q < eps ↔ exactV p = exactV q) ∧
    (SquaredDistance (unitless e p) (unitless e q) < eps ↔ exactV p = exactV q) := by
  intro p hp q hq
  have sp := mid_sc he hg p hp
  have sq := mid_sc he hg q hq
  have s := sc_sqDist (sp.mono (lo' := -90) (hi' := 460) (by omega) (by omega)) (sq.mono (lo' := -90) (hi' := 460) (by omega) (by omega)) (by omega) (by omega)
  obtain ⟨a, ga⟩ := mid_unit he hg _ (List.mem_map_of_mem hp)
  obtain ⟨b, gb⟩ := mid_unit he hg _ (List.mem_map_of_mem hq)
  have ex := ga.sq gb
  have hz : a.Z = b.Z := by rw [ga.z0, gb.z0]
  have hu := unit_pos (-e)
  have same : exactV p = exactV q ↔ a.X = b.X ∧ a.Y = b.Y := by
    have hx : (a.X = b.X) ↔ p.X.toQ = q.X.toQ := by
      rw [← @Int.cast_inj ℚ, ← ga.x.val, ← gb.x.val, sp.x.eq, sq.x.eq, mul_right_inj' hu.ne']
    have hy : (a.Y = b.Y) ↔ p.Y.toQ = q.Y.toQ := by
      rw [← @Int.cast_inj ℚ, ← ga.y.val, ← gb.y.val, sp.y.eq, sq.y.eq, mul_right_inj' hu.ne']
    have hz' : p.Z.toQ = q.Z.toQ := by rw [(hg p hp).2.2.2, (hg q hq).2.2.2]
    rw [hx, hy]
    unfold exactV
    simp [hz']
  have zero : SquaredDistance a b = 0 ↔ a.X = b.X ∧ a.Y = b.Y := by
    have e1 : SquaredDistance a b = (a.X - b.X) * (a.X - b.X) + (a.Y - b.Y) * (a.Y - b.Y) + (a.Z - b.Z) * (a.Z - b.Z) := rfl
    rw [e1, hz, sub_self, mul_zero, add_zero]
    constructor
    · intro h
      have h1 : a.X - b.X = 0 := by
        by_contra hne
        have := mul_self_pos.mpr hne
        linarith [mul_self_nonneg (a.Y - b.Y)]
      have h2 : a.Y - b.Y = 0 := by
        by_contra hne
        have := mul_self_pos.mpr hne
        linarith [mul_self_nonneg (a.X - b.X)]
      exact ⟨by omega, by omega⟩
    · rintro ⟨h1, h2⟩; rw [h1, h2]; ring
  have pos : 0 ≤ SquaredDistance a b := by
    have e1 : SquaredDistance a b = (a.X - b.X) * (a.X - b.X) + (a.Y - b.Y) * (a.Y - b.Y) + (a.Z - b.Z) * (a.Z - b.Z) := rfl
    rw [e1]
    exact add_nonneg (add_nonneg (mul_self_nonneg _) (mul_self_nonneg _)) (mul_self_nonneg _)
  have eps' : (eps : F64).toQ = 1 / 2 ^ 52 := by rw [eps_float.2]
  have small : (1:ℚ) / 2 ^ 52 ≤ 2 ^ (2 * e) := by
    rw [one_div, ← zpow_natCast, ← zpow_neg]
    exact zpow_le_zpow_right₀ (by norm_num) (by push_cast; omega)
  constructor
  · rw [lt_fin s.fin eps_float.1, eps', same, ← zero]
    have h := s.eq
    rw [ex.val] at h
    have h2 : (SquaredDistance p q).toQ = 2 ^ (2 * e) * (SquaredDistance a b : ℤ) := by
      rw [h, ← mul_assoc, ← zpow_add₀ (by norm_num)]; simp
    rw [h2]
    constructor
    · intro hlt
      by_contra hne
      have : (1:ℤ) ≤ SquaredDistance a b := by omega
      have h3 : (1:ℚ) ≤ (SquaredDistance a b : ℤ) := by exact_mod_cast this
      have := mul_le_mul_of_nonneg_left h3 (unit_pos (2 * e)).le
      linarith
    · intro h0; rw [h0]; norm_num
  · rw [lt_fin ex.fin eps_float.1, eps', ex.val, same, ← zero]
    constructor
    · intro hlt
      by_contra hne
      have : (1:ℤ) ≤ SquaredDistance a b := by omega
      have h3 : (1:ℚ) ≤ (SquaredDistance a b : ℤ) := by exact_mod_cast this
      have : (1:ℚ) / 2 ^ 52 ≤ 1 := by norm_num
      linarith
    · intro h0; rw [h0]; norm_num

theorem scale_exact {k lo hi : ℤ} {v v' : Vector F64} (h : ScV k lo hi v v') : exactV v' = ⟨2 ^ k * (exactV v).X, 2 ^ k * (exactV v).Y, 2 ^ k * (exactV v).Z⟩ := by
  unfold exactV
  rw [h.x.eq, h.y.eq, h.z.eq]

theorem scale_area {k lo hi : ℤ} {a a' b b' c c' : Vector F64} (ha : ScV k lo hi a a') (hb : ScV k lo hi b b') (hc : ScV k lo hi c c') :
    area (exactV a') (exactV b') (exactV c') = (2 ^ k) ^ 2 * area (exactV a) (exactV b) (exactV c) := by
  rw [scale_exact ha, scale_exact hb, scale_exact hc]
  simp only [area]; ring

theorem scale_det {k lo hi : ℤ} {a a' b b' c c' d d' : Vector F64} (ha : ScV k lo hi a a') (hb : ScV k lo hi b b') (hc : ScV k lo hi c c') (hd : ScV k lo hi d d') :
    inCircleDet (exactV a') (exactV b') (exactV c') (exactV d') = (2 ^ k) ^ 4 * inCircleDet (exactV a) (exactV b) (exactV c) (exactV d) := by
  rw [scale_exact ha, scale_exact hb, scale_exact hc, scale_exact hd]
  simp only [inCircleDet]; ring

theorem scale_same {k lo hi : ℤ} {a a' b b' : Vector F64} (ha : ScV k lo hi a a') (hb : ScV k lo hi b b') (h : SameXY (exactV a') (exactV b')) :
    SameXY (exactV a) (exactV b) := by
  rw [scale_exact ha, scale_exact hb] at h
  exact ⟨mul_left_cancel₀ (unit_pos k).ne' h.1, mul_left_cancel₀ (unit_pos k).ne' h.2⟩

include he hg in
/-- the run of the triangulator for integer coordinates of size at most 512 times `2^e`: the points are on a line, or all that its correctness needs holds -/
theorem mid_rightD (hn : 2 ≤ Vs.length) :
    (Collinear (Vs.map exactV) ∧ ∀ (srt : Vector F64 → List ℤ → List ℤ) (hashSize : ℕ → ℕ) (fuel : ℕ), Triangulate srt hashSize fuel Vs = .ok .noTriangulation) ∨
    (¬ Collinear (Vs.map exactV) ∧ ∃ i0 i1 i2 o, SeedRight Vs i0 i1 i2 o ∧ OrderFine Vs i0 i1 i2 o) := by
  have sc := mid_sc he hg
  have hS : SameTests (unitless e) Vs (ScD (2 * -e)) (ScD (2 * -e)) :=
    same_scaled (by omega) (mid_roomy he hg) fun p hp q hq => by
      obtain ⟨h1, h2⟩ := mid_near he hg p hp q hq
      exact h1.trans h2.symm
  have hne : Vs.length ≠ 0 := by omega
  have hn' : 2 ≤ (Vs.map (unitless e)).length := by rw [List.length_map]; exact hn
  have hu2 : (0:ℚ) < (2 ^ (-e)) ^ 2 := pow_pos (unit_pos _) 2
  have hu4 : (0:ℚ) < (2 ^ (-e)) ^ 4 := pow_pos (unit_pos _) 4
  have col : Collinear ((Vs.map (unitless e)).map exactV) ↔ Collinear (Vs.map exactV) := by
    unfold Collinear
    simp only [List.mem_map, forall_exists_index, and_imp, forall_apply_eq_imp_iff₂]
    refine forall₂_congr fun a ha => forall₂_congr fun b hb => forall₂_congr fun c hc => ?_
    rw [scale_area (sc a ha) (sc b hb) (sc c hc), mul_eq_zero, or_iff_right hu2.ne']
  rcases mid_right (mid_unit he hg) hn' with ⟨hc, e1⟩ | ⟨hc, j0, j1, j2, o, SR, OF⟩
  · left
    refine ⟨col.mp hc, ?_⟩
    rcases seeds_same hS with ⟨i0, i1, i2, a, b, c, _, _, _, _, _, h2⟩ | ⟨h1, _⟩ | h
    · exact absurd (e1 (fun _ l => l) (fun _ => 1) 0) (seeds_not_none (by omega) h2 _ _ _)
    · exact seeds_none hne h1
    · obtain ⟨x, hx⟩ := seeds_ok (e1 (fun _ l => l) (fun _ => 1) 0) (by omega)
      exact absurd hx (h x)
  · right
    refine ⟨fun h => hc (col.mpr h), ?_⟩
    rcases seeds_same hS with ⟨i0, i1, i2, a, b, c, ga, gb, gc, hrad, h1, h2⟩ | ⟨_, h2⟩ | h
    rotate_left
    · rw [SR.seeds] at h2; cases h2
    · exact absurd SR.seeds (h _)
    rw [SR.seeds] at h2
    simp only [Res.ok.injEq, Option.some.injEq, Prod.mk.injEq] at h2
    obtain ⟨e0, e2, e3, e4⟩ := h2
    rw [e0, e2, e3, e4] at SR OF
    have ha := List.mem_of_getElem? ga
    have hb := List.mem_of_getElem? gb
    have hc' := List.mem_of_getElem? gc
    have so := sc_center (sc a ha) (sc b hb) (sc c hc') hrad
    have get : ∀ {i : ℕ} {x : Vector F64}, Vs[i]? = some x → (Vs.map (unitless e))[i]? = some (unitless e x) := fun h => by rw [List.getElem?_map, h]; rfl
    have up : ∀ {v : Vector F64}, v ∈ Vs → unitless e v ∈ Vs.map (unitless e) := fun h => List.mem_map_of_mem h
    have dist : ∀ v ∈ Vs, Sc (2 * -e) (-506 + -506) 924 (SquaredDistance v (circumcenter a b c))
        (SquaredDistance (unitless e v) (circumcenter (unitless e a) (unitless e b) (unitless e c))) := fun v hv =>
      sc_sqDist ((sc v hv).mono (lo' := -506) (hi' := 460) (by omega) (by omega)) (so.mono (lo' := -506) (hi' := 460) (by omega) (by omega)) (by omega) (by omega)
    have big : ∀ {x : ℚ} {n : ℤ}, |x| ≤ 2 ^ n → n ≤ 1022 → |x| ≤ 2 ^ 1022 := fun h hn => by
      rw [← zpow_natCast]
      exact h.trans (zpow_le_zpow_right₀ (by norm_num) (by exact_mod_cast hn))
    refine ⟨i0, i1, i2, circumcenter a b c, ⟨h1, ?_, ?_, ?_, ⟨so.x.fin, so.y.fin⟩, ⟨big so.x.le (by norm_num), big so.y.le (by norm_num)⟩, ?_, ?_⟩, ?_⟩
    · intro p0 p1 p2 g0 g1 g2
      have := SR.pos _ _ _ (get g0) (get g1) (get g2)
      rw [scale_area (sc _ (List.mem_of_getElem? g0)) (sc _ (List.mem_of_getElem? g1)) (sc _ (List.mem_of_getElem? g2))] at this
      exact (mul_pos_iff_of_pos_left hu2).mp this
    · intro p0 p1 p2 g0 g1 g2 v hv
      have := SR.empty _ _ _ (get g0) (get g1) (get g2) _ (up hv)
      rw [scale_det (sc _ (List.mem_of_getElem? g0)) (sc _ (List.mem_of_getElem? g1)) (sc _ (List.mem_of_getElem? g2)) (sc v hv)] at this
      exact (mul_nonneg_iff_of_pos_left hu4).mp this
    · intro p d0 d1 d2 v v0 v1 v2 hv h0 h1 h2
      have := SR.safe p d0 d1 d2 _ _ _ _ (get hv) (get h0) (get h1) (get h2)
      have inC : ∀ {p q r s : Vector F64}, p ∈ Vs → q ∈ Vs → r ∈ Vs → s ∈ Vs →
          inCircle p q r s = inCircle (unitless e p) (unitless e q) (unitless e r) (unitless e s) := fun hp hq hr hs => by
        unfold inCircle
        exact decide_eq_decide.mpr (sc_inCircle (sc _ hp) (sc _ hq) (sc _ hr) (sc _ hs)).neg_iff
      have m := List.mem_of_getElem? hv
      have m0 := List.mem_of_getElem? h0
      have m1 := List.mem_of_getElem? h1
      have m2 := List.mem_of_getElem? h2
      rw [inC m m1 m0 m2, inC m m2 m1 m0, inC m m0 m2 m1]
      exact this
    · intro v hv
      exact ⟨big (sc v hv).x.le (by norm_num), big (sc v hv).y.le (by norm_num)⟩
    · intro v hv
      have := SR.other _ (up hv)
      rw [(sc v hv).x.eq, (sc v hv).y.eq, so.x.eq, so.y.eq] at this
      exact this.imp (fun h h' => h (by rw [h'])) (fun h h' => h (by rw [h']))
    · intro x hx y hy z hz v hv nx ny nz h1 h2 h3 h4
      have na : ∀ {w : Vector F64}, w ∈ Vs → NotAfter Vs i0 i1 i2 (circumcenter a b c) w v →
          NotAfter (Vs.map (unitless e)) i0 i1 i2 (circumcenter (unitless e a) (unitless e b) (unitless e c)) (unitless e w) (unitless e v) := by
        intro w hw h
        refine h.imp (fun h => h.imp get (fun h => h.imp get get)) fun h h' => h (((dist v hv).lt_iff (dist w hw)).mpr h')
      have A : ∀ {p q r : Vector F64}, p ∈ Vs → q ∈ Vs → r ∈ Vs → 0 ≤ area (exactV p) (exactV q) (exactV r) →
          0 ≤ area (exactV (unitless e p)) (exactV (unitless e q)) (exactV (unitless e r)) := fun hp hq hr h => by
        rw [scale_area (sc _ hp) (sc _ hq) (sc _ hr)]; exact mul_nonneg hu2.le h
      have := OF _ (up hx) _ (up hy) _ (up hz) _ (up hv) (na hx nx) (na hy ny) (na hz nz)
        (by rw [scale_area (sc _ hx) (sc _ hy) (sc _ hz)]; exact mul_pos hu2 h1) (A hv hx hy h2) (A hv hy hz h3) (A hv hz hx h4)
      exact this.imp (scale_same (sc _ hx) (sc v hv)) fun h => h.imp (scale_same (sc _ hy) (sc v hv)) (scale_same (sc _ hz) (sc v hv))

include he hg in
theorem mid_signsD : SignsRight Vs := by
  refine dyadic_signs (e := e) (by omega) (by omega) fun v hv => ?_
  obtain ⟨fx, fy, ⟨n, m, hn, hm, ex, ey⟩, _⟩ := hg v hv
  exact ⟨fx, fy, n, m, hn.trans (by norm_num), hm.trans (by norm_num), ex, ey⟩

end

end Verif.Proofs
