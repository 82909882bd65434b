import Verif.Model.Tri3
import Verif.Props.Predicates
/-!
# C27 - C31: package triangulate3 (exact arithmetic)
-/
set_option linter.unusedSectionVars false

namespace Verif.Props
open Verif Verif.R3 Verif.Tri3

variable {K : Type} [Field K] [LinearOrder K] [IsStrictOrderedRing K]

/-! ## C27 -/

/-- `p` is a combination of the listed points with nonnegative weights of sum `s` -/
def Comb : List (R3.Vector K) → K → R3.Vector K → Prop
  | [], s, p => s = 0 ∧ p = ⟨0, 0, 0⟩
  | v :: l, s, p => ∃ a : K, 0 ≤ a ∧ Comb l (s - a) ⟨p.X - a*v.X, p.Y - a*v.Y, p.Z - a*v.Z⟩

/-- `p` is a convex combination of four points -/
def InTet (v1 v2 v3 v4 p : R3.Vector K) : Prop :=
  ∃ a b c d : K, 0 ≤ a ∧ 0 ≤ b ∧ 0 ≤ c ∧ 0 ≤ d ∧ a + b + c + d = 1 ∧
    p.X = a*v1.X + b*v2.X + c*v3.X + d*v4.X ∧ p.Y = a*v1.Y + b*v2.Y + c*v3.Y + d*v4.Y ∧
    p.Z = a*v1.Z + b*v2.Z + c*v3.Z + d*v4.Z

theorem inTet_iff_comb (v1 v2 v3 v4 p : R3.Vector K) : InTet v1 v2 v3 v4 p ↔ Comb [v1, v2, v3, v4] 1 p := by
  simp only [InTet, Comb, R3.Vector.mk.injEq]
  constructor
  · rintro ⟨a, b, c, d, ha, hb, hc, hd, hs, hx, hy, hz⟩
    refine ⟨a, ha, b, hb, c, hc, d, hd, ?_, ?_, ?_, ?_⟩
    · linear_combination -hs
    · rw [hx]; ring
    · rw [hy]; ring
    · rw [hz]; ring
  · rintro ⟨a, ha, b, hb, c, hc, d, hd, hs, hx, hy, hz⟩
    refine ⟨a, b, c, d, ha, hb, hc, hd, ?_, ?_, ?_, ?_⟩
    · linear_combination -hs
    · linear_combination hx
    · linear_combination hy
    · linear_combination hz

theorem comb_perm {l l' : List (R3.Vector K)} (h : l.Perm l') : ∀ s p, Comb l s p → Comb l' s p := by
  induction h with
  | nil => intro s p h; exact h
  | cons x _ ih => rintro s p ⟨a, ha, h⟩; exact ⟨a, ha, ih _ _ h⟩
  | swap x y l =>
    rintro s p ⟨a, ha, b, hb, h⟩
    refine ⟨b, hb, a, ha, ?_⟩
    have e : ∀ q : K, ∀ u v : K, q - u - v = q - v - u := fun q u v => by ring
    simp only [e _ (b * _) (a * _), e s b a]
    exact h
  | trans _ _ ih1 ih2 => intro s p h; exact ih2 _ _ (ih1 _ _ h)

/-- the sextuple signed volume -/
def vol6 (a b c d : R3.Vector K) : K := (edgeMatrix b c d a).det

theorem vol6_eq (a b c d : R3.Vector K) : vol6 a b c d =
    (b.X-a.X)*((c.Y-a.Y)*(d.Z-a.Z) - (c.Z-a.Z)*(d.Y-a.Y)) - (b.Y-a.Y)*((c.X-a.X)*(d.Z-a.Z) - (c.Z-a.Z)*(d.X-a.X)) +
    (b.Z-a.Z)*((c.X-a.X)*(d.Y-a.Y) - (c.Y-a.Y)*(d.X-a.X)) := by
  simp [vol6, edgeMatrix, Matrix.det_fin_three]; ring

theorem coplanar4_perm {a b c d a' b' c' d' : R3.Vector K} (h : [a, b, c, d].Perm [a', b', c', d']) :
    Coplanar4 a b c d → Coplanar4 a' b' c' d' := by
  rintro ⟨n, k, hn, hk⟩
  exact ⟨n, k, hn, fun x hx => hk x (h.symm.subset hx)⟩

theorem vol6_zero_iff (a b c d : R3.Vector K) : vol6 a b c d = 0 ↔ Coplanar4 a b c d := by
  unfold vol6
  rw [edgeMatrix_det_zero_iff]
  have : [b, c, d, a].Perm [a, b, c, d] := (List.perm_append_comm (l₁ := [b, c, d]) (l₂ := [a]))
  exact ⟨coplanar4_perm this, coplanar4_perm this.symm⟩

theorem sameSide_iff (v1 v2 v3 v4 p : R3.Vector K) : SameSide v1 v2 v3 v4 p = true ↔
    (vol6 v1 v2 v3 v4 ≤ 0 ∧ vol6 v1 v2 v3 p ≤ 0) ∨ (0 ≤ vol6 v1 v2 v3 v4 ∧ 0 ≤ vol6 v1 v2 v3 p) := by
  have e : ∀ q, Dot (Cross (Sub v2 v1) (Sub v3 v1)) (Sub q v1) = vol6 v1 v2 v3 q := by
    intro q; rw [vol6_eq]; simp only [Dot, Cross, R3.Sub]; ring
  unfold SameSide
  simp only [e]
  split_ifs <;> simp_all

theorem sameSide_quot (D q : K) (hD : D ≠ 0) : ((D ≤ 0 ∧ q ≤ 0) ∨ (0 ≤ D ∧ 0 ≤ q)) ↔ 0 ≤ q / D := by
  rcases lt_or_gt_of_ne hD with h | h
  · rw [div_nonneg_iff]
    constructor
    · rintro (⟨_, h2⟩ | ⟨h1, _⟩)
      · exact Or.inr ⟨h2, h.le⟩
      · exact absurd h1 (not_le.mpr h)
    · rintro (⟨_, h2⟩ | ⟨h1, _⟩)
      · exact absurd h2 (not_le.mpr h)
      · exact Or.inl ⟨h.le, h1⟩
  · rw [div_nonneg_iff]
    constructor
    · rintro (⟨h1, _⟩ | ⟨_, h2⟩)
      · exact absurd h1 (not_le.mpr h)
      · exact Or.inl ⟨h2, h.le⟩
    · rintro (⟨h1, _⟩ | ⟨_, h2⟩)
      · exact Or.inr ⟨h.le, h1⟩
      · exact absurd h2 (not_le.mpr h)

/-- C27: for a non-degenerate tetrahedron the test is membership in the convex hull -/
theorem C27_membership (v1 v2 v3 v4 p : R3.Vector K) (h : ¬ Coplanar4 v1 v2 v3 v4) :
    VectorInTetrahedron v1 v2 v3 v4 p = true ↔ InTet v1 v2 v3 v4 p := by
  have hD : vol6 v1 v2 v3 v4 ≠ 0 := fun h0 => h ((vol6_zero_iff _ _ _ _).mp h0)
  have r2 : vol6 v2 v3 v4 v1 = - vol6 v1 v2 v3 v4 := by simp only [vol6_eq]; ring
  have r3 : vol6 v3 v4 v1 v2 = vol6 v1 v2 v3 v4 := by simp only [vol6_eq]; ring
  have r4 : vol6 v4 v1 v2 v3 = - vol6 v1 v2 v3 v4 := by simp only [vol6_eq]; ring
  have e : VectorInTetrahedron v1 v2 v3 v4 p = true ↔
      0 ≤ vol6 v1 v2 v3 p / vol6 v1 v2 v3 v4 ∧ 0 ≤ vol6 v2 v3 v4 p / -vol6 v1 v2 v3 v4 ∧
      0 ≤ vol6 v3 v4 v1 p / vol6 v1 v2 v3 v4 ∧ 0 ≤ vol6 v4 v1 v2 p / -vol6 v1 v2 v3 v4 := by
    unfold VectorInTetrahedron
    simp only [Bool.and_eq_true, sameSide_iff, r2, r3, r4]
    rw [sameSide_quot _ _ hD, sameSide_quot _ _ (neg_ne_zero.mpr hD), sameSide_quot _ _ hD,
      sameSide_quot _ _ (neg_ne_zero.mpr hD)]
    simp only [and_assoc]
  rw [e]
  set D := vol6 v1 v2 v3 v4 with hDdef
  constructor
  · rintro ⟨h4, h1, h2, h3⟩
    refine ⟨_, _, _, _, h1, h2, h3, h4, ?_, ?_, ?_, ?_⟩
    all_goals
      field_simp
      simp only [hDdef, vol6_eq]
      ring
  · rintro ⟨a, b, c, d, ha, hb, hc, hd, hs, hx, hy, hz⟩
    have ea : a = 1 - b - c - d := by linear_combination hs
    have q4 : vol6 v1 v2 v3 p = d * D := by
      simp only [hDdef, vol6_eq, hx, hy, hz, ea]; ring
    have q1 : vol6 v2 v3 v4 p = a * -D := by
      simp only [hDdef, vol6_eq, hx, hy, hz, ea]; ring
    have q2 : vol6 v3 v4 v1 p = b * D := by
      simp only [hDdef, vol6_eq, hx, hy, hz, ea]; ring
    have q3 : vol6 v4 v1 v2 p = c * -D := by
      simp only [hDdef, vol6_eq, hx, hy, hz, ea]; ring
    have hD' : -D ≠ 0 := neg_ne_zero.mpr hD
    rw [q1, q2, q3, q4, mul_div_cancel_right₀ _ hD, mul_div_cancel_right₀ _ hD', mul_div_cancel_right₀ _ hD,
      mul_div_cancel_right₀ _ hD']
    exact ⟨hd, ha, hb, hc⟩

/-- C27: vertices and centroid are inside -/
theorem C27_inside (v1 v2 v3 v4 : R3.Vector K) (h : ¬ Coplanar4 v1 v2 v3 v4) :
    (∀ p ∈ [v1, v2, v3, v4, findCentroid v1 v2 v3 v4], VectorInTetrahedron v1 v2 v3 v4 p = true) := by
  intro p hp
  rw [C27_membership _ _ _ _ _ h]
  have q : (0 : K) ≤ 1/4 := by positivity
  simp only [List.mem_cons, List.not_mem_nil, or_false] at hp
  rcases hp with rfl | rfl | rfl | rfl | rfl
  · exact ⟨1, 0, 0, 0, by simp, by simp, by simp, by simp, by simp, by ring, by ring, by ring⟩
  · exact ⟨0, 1, 0, 0, by simp, by simp, by simp, by simp, by simp, by ring, by ring, by ring⟩
  · exact ⟨0, 0, 1, 0, by simp, by simp, by simp, by simp, by simp, by ring, by ring, by ring⟩
  · exact ⟨0, 0, 0, 1, by simp, by simp, by simp, by simp, by simp, by ring, by ring, by ring⟩
  · exact ⟨1/4, 1/4, 1/4, 1/4, q, q, q, q, by ring, by simp only [findCentroid]; ring, by simp only [findCentroid]; ring,
      by simp only [findCentroid]; ring⟩

/-- C27: the centroid of the tetrahedron -/
theorem C27_centroid (v1 v2 v3 v4 : R3.Vector K) : (findCentroid v1 v2 v3 v4).X = (v1.X + v2.X + v3.X + v4.X) / 4 ∧
    (findCentroid v1 v2 v3 v4).Y = (v1.Y + v2.Y + v3.Y + v4.Y) / 4 ∧
    (findCentroid v1 v2 v3 v4).Z = (v1.Z + v2.Z + v3.Z + v4.Z) / 4 := ⟨rfl, rfl, rfl⟩

/-- C27: the answer does not depend on the order of the vertices -/
theorem C27_relabel (v1 v2 v3 v4 w1 w2 w3 w4 p : R3.Vector K) (h : ¬ Coplanar4 v1 v2 v3 v4)
    (hp : [v1, v2, v3, v4].Perm [w1, w2, w3, w4]) :
    VectorInTetrahedron v1 v2 v3 v4 p = VectorInTetrahedron w1 w2 w3 w4 p := by
  rw [Bool.eq_iff_iff, C27_membership _ _ _ _ _ h, C27_membership _ _ _ _ _ (fun hc => h (coplanar4_perm hp.symm hc)),
    inTet_iff_comb, inTet_iff_comb]
  exact ⟨comb_perm hp _ _, comb_perm hp.symm _ _⟩

/-- C27, the excluded case: a flat tetrahedron is reported to contain every point of space -/
theorem C27_degenerate (v1 v2 v3 v4 p : R3.Vector K) (h : Coplanar4 v1 v2 v3 v4) :
    VectorInTetrahedron v1 v2 v3 v4 p = true := by
  have h1 : vol6 v1 v2 v3 v4 = 0 := (vol6_zero_iff _ _ _ _).mpr h
  have h2 : vol6 v2 v3 v4 v1 = 0 := by
    rw [show vol6 v2 v3 v4 v1 = - vol6 v1 v2 v3 v4 by simp only [vol6_eq]; ring, h1, neg_zero]
  have h3 : vol6 v3 v4 v1 v2 = 0 := by rw [← h1]; simp only [vol6_eq]; ring
  have h4 : vol6 v4 v1 v2 v3 = 0 := by
    rw [show vol6 v4 v1 v2 v3 = - vol6 v1 v2 v3 v4 by simp only [vol6_eq]; ring, h1, neg_zero]
  unfold VectorInTetrahedron
  simp only [Bool.and_eq_true, sameSide_iff, h1, h2, h3, h4, le_refl, true_and]
  exact ⟨⟨⟨le_total _ _, le_total _ _⟩, le_total _ _⟩, le_total _ _⟩

example : ¬ Coplanar4 (⟨0, 0, 0⟩ : R3.Vector ℚ) ⟨1, 0, 0⟩ ⟨0, 1, 0⟩ ⟨0, 0, 1⟩ := by
  rw [← vol6_zero_iff, vol6_eq]; norm_num

/-! ## C28: bounding boxes -/

/-- coordinate-wise minimum, starting from the sentinel -/
def minFrom (m : K) (l : List K) : K := l.foldl min m
def maxFrom (m : K) (l : List K) : K := l.foldl max m

theorem minFrom_spec (l : List K) (m : K) : minFrom m l ≤ m ∧ (∀ x ∈ l, minFrom m l ≤ x) ∧
    (minFrom m l = m ∨ minFrom m l ∈ l) := by
  induction l generalizing m with
  | nil => simp [minFrom]
  | cons a l ih =>
    obtain ⟨h1, h2, h3⟩ := ih (min m a)
    have e : minFrom m (a :: l) = minFrom (min m a) l := rfl
    rw [e]
    refine ⟨h1.trans (min_le_left _ _), ?_, ?_⟩
    · intro x hx
      rcases List.mem_cons.mp hx with rfl | hx
      · exact h1.trans (min_le_right _ _)
      · exact h2 x hx
    · rcases h3 with h3 | h3
      · rcases min_choice m a with h | h
        · left; rw [h3, h]
        · right; rw [h3, h]; exact List.mem_cons_self
      · right; exact List.mem_cons_of_mem _ h3

theorem maxFrom_spec (l : List K) (m : K) : m ≤ maxFrom m l ∧ (∀ x ∈ l, x ≤ maxFrom m l) ∧
    (maxFrom m l = m ∨ maxFrom m l ∈ l) := by
  induction l generalizing m with
  | nil => simp [maxFrom]
  | cons a l ih =>
    obtain ⟨h1, h2, h3⟩ := ih (max m a)
    have e : maxFrom m (a :: l) = maxFrom (max m a) l := rfl
    rw [e]
    refine ⟨(le_max_left _ _).trans h1, ?_, ?_⟩
    · intro x hx
      rcases List.mem_cons.mp hx with rfl | hx
      · exact (le_max_right _ _).trans h1
      · exact h2 x hx
    · rcases h3 with h3 | h3
      · rcases max_choice m a with h | h
        · left; rw [h3, h]
        · right; rw [h3, h]; exact List.mem_cons_self
      · right; exact List.mem_cons_of_mem _ h3

theorem if_lt_min (a b : K) : (if a < b then a else b) = min b a := by
  split_ifs with h
  · exact (min_eq_right h.le).symm
  · exact (min_eq_left (not_lt.mp h)).symm

theorem if_lt_max (a b : K) : (if a < b then b else a) = max a b := by
  split_ifs with h
  · exact (max_eq_right h.le).symm
  · exact (max_eq_left (not_lt.mp h)).symm

/-- the two corners are the coordinate-wise minimum and maximum of the points and the sentinels -/
theorem C28_value (Vs : List (R3.Vector K)) : computeBoundingBoxForVectors Vs =
    (⟨minFrom (maxFloat32 : K) (Vs.map (·.X)), minFrom (maxFloat32 : K) (Vs.map (·.Y)), minFrom (maxFloat32 : K) (Vs.map (·.Z))⟩,
     ⟨maxFrom (-maxFloat32 : K) (Vs.map (·.X)), maxFrom (-maxFloat32 : K) (Vs.map (·.Y)), maxFrom (-maxFloat32 : K) (Vs.map (·.Z))⟩) := by
  unfold computeBoundingBoxForVectors
  simp only [goConst_field]
  generalize ((maxFloat32 : ℚ) : K) = m
  generalize hm : -m = m'
  clear hm
  suffices h : ∀ (mn mx : R3.Vector K), Vs.foldl (fun (acc : R3.Vector K × R3.Vector K) v =>
      let mn := acc.1
      let mx := acc.2
      let mn := if v.X < mn.X then { mn with X := v.X } else mn
      let mn := if v.Y < mn.Y then { mn with Y := v.Y } else mn
      let mn := if v.Z < mn.Z then { mn with Z := v.Z } else mn
      let mx := if mx.X < v.X then { mx with X := v.X } else mx
      let mx := if mx.Y < v.Y then { mx with Y := v.Y } else mx
      let mx := if mx.Z < v.Z then { mx with Z := v.Z } else mx
      (mn, mx)) (mn, mx) =
      (⟨minFrom mn.X (Vs.map (·.X)), minFrom mn.Y (Vs.map (·.Y)), minFrom mn.Z (Vs.map (·.Z))⟩,
       ⟨maxFrom mx.X (Vs.map (·.X)), maxFrom mx.Y (Vs.map (·.Y)), maxFrom mx.Z (Vs.map (·.Z))⟩) from h _ _
  induction Vs with
  | nil => intro mn mx; rfl
  | cons v Vs ih =>
    intro mn mx
    rw [List.foldl_cons]
    have step : (let mn' := mn
      let mx' := mx
      let mn' := if v.X < mn'.X then { mn' with X := v.X } else mn'
      let mn' := if v.Y < mn'.Y then { mn' with Y := v.Y } else mn'
      let mn' := if v.Z < mn'.Z then { mn' with Z := v.Z } else mn'
      let mx' := if mx'.X < v.X then { mx' with X := v.X } else mx'
      let mx' := if mx'.Y < v.Y then { mx' with Y := v.Y } else mx'
      let mx' := if mx'.Z < v.Z then { mx' with Z := v.Z } else mx'
      (mn', mx')) = ((⟨min mn.X v.X, min mn.Y v.Y, min mn.Z v.Z⟩, ⟨max mx.X v.X, max mx.Y v.Y, max mx.Z v.Z⟩) : R3.Vector K × R3.Vector K) := by
      simp only [← if_lt_min, ← if_lt_max]
      obtain ⟨a, b, c⟩ := mn
      obtain ⟨d, e, f⟩ := mx
      simp only [Prod.mk.injEq]
      constructor
      · by_cases h1 : v.X < a <;> by_cases h2 : v.Y < b <;> by_cases h3 : v.Z < c <;> simp [h1, h2, h3]
      · by_cases h1 : d < v.X <;> by_cases h2 : e < v.Y <;> by_cases h3 : f < v.Z <;> simp [h1, h2, h3]
    exact (congrArg (fun z => List.foldl _ z Vs) step).trans (ih _ _)

/-- `x` is within the range of the sentinels -/
def InRange (m : K) (p : R3.Vector K) : Prop :=
  |p.X| ≤ m ∧ |p.Y| ≤ m ∧ |p.Z| ≤ m

/-- the box bounds the points and each of the six bounds is attained -/
def IsBox (Vs : List (R3.Vector K)) (mn mx : R3.Vector K) : Prop :=
  (∀ p ∈ Vs, mn.X ≤ p.X ∧ mn.Y ≤ p.Y ∧ mn.Z ≤ p.Z ∧ p.X ≤ mx.X ∧ p.Y ≤ mx.Y ∧ p.Z ≤ mx.Z) ∧
  (∃ p ∈ Vs, p.X = mn.X) ∧ (∃ p ∈ Vs, p.Y = mn.Y) ∧ (∃ p ∈ Vs, p.Z = mn.Z) ∧
  (∃ p ∈ Vs, p.X = mx.X) ∧ (∃ p ∈ Vs, p.Y = mx.Y) ∧ (∃ p ∈ Vs, p.Z = mx.Z)

theorem minFrom_attained (l : List K) (m : K) (hl : l ≠ []) (h : ∀ x ∈ l, x ≤ m) : minFrom m l ∈ l := by
  rcases (minFrom_spec l m).2.2 with h' | h'
  · obtain ⟨x, hx⟩ := List.exists_mem_of_ne_nil l hl
    have h1 := (minFrom_spec l m).2.1 x hx
    have : x = minFrom m l := le_antisymm ((h x hx).trans h'.ge) h1
    rw [← this]; exact hx
  · exact h'

theorem maxFrom_attained (l : List K) (m : K) (hl : l ≠ []) (h : ∀ x ∈ l, m ≤ x) : maxFrom m l ∈ l := by
  rcases (maxFrom_spec l m).2.2 with h' | h'
  · obtain ⟨x, hx⟩ := List.exists_mem_of_ne_nil l hl
    have h1 := (maxFrom_spec l m).2.1 x hx
    have : x = maxFrom m l := le_antisymm h1 (h'.le.trans (h x hx))
    rw [← this]; exact hx
  · exact h'

theorem isBox_of_folds (Vs : List (R3.Vector K)) (m : K) (hne : Vs ≠ []) (hr : ∀ p ∈ Vs, InRange m p) :
    IsBox Vs ⟨minFrom m (Vs.map (·.X)), minFrom m (Vs.map (·.Y)), minFrom m (Vs.map (·.Z))⟩
      ⟨maxFrom (-m) (Vs.map (·.X)), maxFrom (-m) (Vs.map (·.Y)), maxFrom (-m) (Vs.map (·.Z))⟩ := by
  have ne : ∀ f : R3.Vector K → K, Vs.map f ≠ [] := fun f => by simpa using hne
  have att : ∀ (f : R3.Vector K → K), (∀ p ∈ Vs, |f p| ≤ m) →
      (∃ p ∈ Vs, f p = minFrom m (Vs.map f)) ∧ (∃ p ∈ Vs, f p = maxFrom (-m) (Vs.map f)) := by
    intro f hf
    constructor
    · exact List.mem_map.mp (minFrom_attained _ m (ne f) (by
        intro x hx; obtain ⟨p, hp, rfl⟩ := List.mem_map.mp hx; exact (abs_le.mp (hf p hp)).2))
    · exact List.mem_map.mp (maxFrom_attained _ (-m) (ne f) (by
        intro x hx; obtain ⟨p, hp, rfl⟩ := List.mem_map.mp hx; exact (abs_le.mp (hf p hp)).1))
  have hx := att (·.X) (fun p hp => (hr p hp).1)
  have hy := att (·.Y) (fun p hp => (hr p hp).2.1)
  have hz := att (·.Z) (fun p hp => (hr p hp).2.2)
  refine ⟨?_, hx.1, hy.1, hz.1, hx.2, hy.2, hz.2⟩
  intro p hp
  exact ⟨(minFrom_spec _ _).2.1 _ (List.mem_map_of_mem hp), (minFrom_spec _ _).2.1 _ (List.mem_map_of_mem hp),
    (minFrom_spec _ _).2.1 _ (List.mem_map_of_mem hp), (maxFrom_spec _ _).2.1 _ (List.mem_map_of_mem hp),
    (maxFrom_spec _ _).2.1 _ (List.mem_map_of_mem hp), (maxFrom_spec _ _).2.1 _ (List.mem_map_of_mem hp)⟩

/-- C28: bounds always hold, whatever the range -/
theorem C28_bounds (Vs : List (R3.Vector K)) : ∀ p ∈ Vs,
    (computeBoundingBoxForVectors Vs).1.X ≤ p.X ∧ (computeBoundingBoxForVectors Vs).1.Y ≤ p.Y ∧
    (computeBoundingBoxForVectors Vs).1.Z ≤ p.Z ∧ p.X ≤ (computeBoundingBoxForVectors Vs).2.X ∧
    p.Y ≤ (computeBoundingBoxForVectors Vs).2.Y ∧ p.Z ≤ (computeBoundingBoxForVectors Vs).2.Z := by
  intro p hp
  rw [C28_value]
  exact ⟨(minFrom_spec _ _).2.1 _ (List.mem_map_of_mem hp), (minFrom_spec _ _).2.1 _ (List.mem_map_of_mem hp),
    (minFrom_spec _ _).2.1 _ (List.mem_map_of_mem hp), (maxFrom_spec _ _).2.1 _ (List.mem_map_of_mem hp),
    (maxFrom_spec _ _).2.1 _ (List.mem_map_of_mem hp), (maxFrom_spec _ _).2.1 _ (List.mem_map_of_mem hp)⟩

/-- C28: within the sentinel range the bounds are attained -/
theorem C28_tight (Vs : List (R3.Vector K)) (hne : Vs ≠ []) (hr : ∀ p ∈ Vs, InRange (maxFloat32 : K) p) :
    IsBox Vs (computeBoundingBoxForVectors Vs).1 (computeBoundingBoxForVectors Vs).2 := by
  rw [C28_value]
  exact isBox_of_folds Vs _ hne hr

/-- C28: outside the sentinel range tightness is false: a single point beyond `math.MaxFloat32` -/
theorem C28_range_refuted : ∃ p : R3.Vector K, (computeBoundingBoxForVectors [p]).1.X ≠ p.X := by
  refine ⟨⟨((maxFloat32 : ℚ) : K) + 1, 0, 0⟩, ?_⟩
  rw [C28_value]
  simp [minFrom]

example : ∀ p ∈ [(⟨1, 2, 3⟩ : R3.Vector ℚ), ⟨-4, 5, 0⟩], InRange (maxFloat32 : ℚ) p := by
  intro p hp
  simp only [List.mem_cons, List.not_mem_nil, or_false] at hp
  rcases hp with rfl | rfl <;> norm_num [InRange, maxFloat32, abs_le]

/-! ## C31 -/

/-- C31: Get2Ddist is the squared length of the cross product -/
theorem C31_two (a b c : R3.Vector K) :
    Get2Ddist a b c = ((b.Y-a.Y)*(c.Z-a.Z) - (b.Z-a.Z)*(c.Y-a.Y))^2 + ((b.Z-a.Z)*(c.X-a.X) - (b.X-a.X)*(c.Z-a.Z))^2 + ((b.X-a.X)*(c.Y-a.Y) - (b.Y-a.Y)*(c.X-a.X))^2 ∧
    0 ≤ Get2Ddist a b c ∧ (Get2Ddist a b c = 0 ↔ Dependent (⟨b.X-a.X, b.Y-a.Y, b.Z-a.Z⟩ : R3.Vector K) ⟨c.X-a.X, c.Y-a.Y, c.Z-a.Z⟩) := by
  have e : Get2Ddist a b c = (Cross (Sub b a) (Sub c a)).X^2 + (Cross (Sub b a) (Sub c a)).Y^2 +
      (Cross (Sub b a) (Sub c a)).Z^2 := by
    simp only [Get2Ddist, Cross, R3.Sub]; ring
  refine ⟨by rw [e]; simp only [Cross, R3.Sub]; ring, by rw [e]; positivity, ?_⟩
  change _ ↔ Dependent (R3.Sub b a) (R3.Sub c a)
  rw [e, ← C02_zero_iff, R3.Vector.ext_iff]
  generalize (Cross (R3.Sub b a) (R3.Sub c a)) = w
  constructor
  · intro h
    have hx := sq_nonneg w.X
    have hy := sq_nonneg w.Y
    have hz := sq_nonneg w.Z
    have h1 : w.X^2 = 0 := by linarith
    have h2 : w.Y^2 = 0 := by linarith
    have h3 : w.Z^2 = 0 := by linarith
    exact ⟨(pow_eq_zero_iff two_ne_zero).mp h1, (pow_eq_zero_iff two_ne_zero).mp h2, (pow_eq_zero_iff two_ne_zero).mp h3⟩
  · rintro ⟨h1, h2, h3⟩
    rw [h1, h2, h3]; ring

/-- C31: Get3Ddist is the signed volume -/
theorem C31_three (a b c d : R3.Vector K) :
    Get3Ddist a b c d = (edgeMatrix b c d a).det ∧ (Get3Ddist a b c d = 0 ↔ Coplanar4 a b c d) ∧
    Get3Ddist b a c d = - Get3Ddist a b c d ∧ Get3Ddist a c b d = - Get3Ddist a b c d ∧
    Get3Ddist a b d c = - Get3Ddist a b c d := by
  have e : ∀ a b c d : R3.Vector K, Get3Ddist a b c d = vol6 a b c d := by
    intro a b c d; rw [vol6_eq]; simp only [Get3Ddist]; ring
  refine ⟨e a b c d, ?_, ?_, ?_, ?_⟩
  · rw [e, vol6_zero_iff]
  all_goals simp only [e, vol6_eq]; ring

/-! ## C30 -/

/-- C30: the first two points have minimal and maximal x and are input points -/
theorem C30_extremes (Vs : List (R3.Vector K)) (hne : Vs ≠ []) (hr : ∀ p ∈ Vs, |p.X| < (maxFloat32 : K)) :
    (computeExtremitiesForAxeX Vs).1 ∈ Vs ∧ (computeExtremitiesForAxeX Vs).2 ∈ Vs ∧
    ∀ p ∈ Vs, (computeExtremitiesForAxeX Vs).1.X ≤ p.X ∧ p.X ≤ (computeExtremitiesForAxeX Vs).2.X := by
  unfold computeExtremitiesForAxeX
  simp only [goConst_field]
  have gen : ∀ (l : List (R3.Vector K)) (a b : R3.Vector K),
      let r := l.foldl (fun (acc : R3.Vector K × R3.Vector K) v =>
        (if v.X < acc.1.X then v else acc.1, if acc.2.X < v.X then v else acc.2)) (a, b)
      (r.1.X ≤ a.X ∧ b.X ≤ r.2.X) ∧ (∀ p ∈ l, r.1.X ≤ p.X ∧ p.X ≤ r.2.X) ∧ (r.1 = a ∨ r.1 ∈ l) ∧ (r.2 = b ∨ r.2 ∈ l) := by
    intro l
    induction l with
    | nil => intro a b; simp
    | cons v l ih =>
      intro a b
      obtain ⟨⟨h1, h1'⟩, h2, h3, h4⟩ := ih (if v.X < a.X then v else a) (if b.X < v.X then v else b)
      dsimp only at h1 h1' h2 h3 h4 ⊢
      rw [List.foldl_cons]
      have ea : (if v.X < a.X then v else a).X ≤ a.X ∧ (if v.X < a.X then v else a).X ≤ v.X := by
        split_ifs with h
        · exact ⟨h.le, le_refl _⟩
        · exact ⟨le_refl _, not_lt.mp h⟩
      have eb : b.X ≤ (if b.X < v.X then v else b).X ∧ v.X ≤ (if b.X < v.X then v else b).X := by
        split_ifs with h
        · exact ⟨h.le, le_refl _⟩
        · exact ⟨le_refl _, not_lt.mp h⟩
      refine ⟨⟨h1.trans ea.1, eb.1.trans h1'⟩, ?_, ?_, ?_⟩
      · intro p hp
        rcases List.mem_cons.mp hp with rfl | hp
        · exact ⟨h1.trans ea.2, eb.2.trans h1'⟩
        · exact h2 p hp
      · rcases h3 with h3 | h3
        · rw [h3]
          split_ifs with h
          · right; exact List.mem_cons_self
          · left; rfl
        · right; exact List.mem_cons_of_mem _ h3
      · rcases h4 with h4 | h4
        · rw [h4]
          split_ifs with h
          · right; exact List.mem_cons_self
          · left; rfl
        · right; exact List.mem_cons_of_mem _ h4
  obtain ⟨_, h2, h3, h4⟩ := gen Vs ⟨(maxFloat32 : K), (maxFloat32 : K), (maxFloat32 : K)⟩
    ⟨-(maxFloat32 : K), -(maxFloat32 : K), -(maxFloat32 : K)⟩
  obtain ⟨q, hq⟩ := List.exists_mem_of_ne_nil Vs hne
  have hq' := abs_lt.mp (hr q hq)
  have hb := h2 q hq
  refine ⟨?_, ?_, h2⟩
  · rcases h3 with h3 | h3
    · try dsimp only at h3 hb
      rw [h3] at hb; exact absurd hq'.2 (not_lt.mpr hb.1)
    · exact h3
  · rcases h4 with h4 | h4
    · try dsimp only at h4 hb
      rw [h4] at hb; exact absurd hq'.1 (not_lt.mpr hb.2)
    · exact h4

/-- running maximum as in `getFurthestFromTwoVectors` -/
theorem foldl_best (f : R3.Vector K → K) (l : List (R3.Vector K)) (m : K) (z : R3.Vector K) :
    let r := l.foldl (fun (acc : K × R3.Vector K) v => if acc.1 < f v then (f v, v) else acc) (m, z)
    m ≤ r.1 ∧ (∀ p ∈ l, f p ≤ r.1) ∧ ((r = (m, z)) ∨ (r.2 ∈ l ∧ f r.2 = r.1 ∧ m < r.1)) := by
  induction l generalizing m z with
  | nil => simp
  | cons v l ih =>
    dsimp only
    rw [List.foldl_cons]
    dsimp only
    split_ifs with h
    · obtain ⟨h1, h2, h3⟩ := ih (f v) v
      try dsimp only at h1 h2 h3
      refine ⟨h.le.trans h1, ?_, ?_⟩
      · intro p hp
        rcases List.mem_cons.mp hp with rfl | hp
        · exact h1
        · exact h2 p hp
      · right
        rcases h3 with h3 | ⟨h3, h4, h5⟩
        · rw [h3]; exact ⟨List.mem_cons_self, rfl, h⟩
        · exact ⟨List.mem_cons_of_mem _ h3, h4, h.trans_le h1⟩
    · obtain ⟨h1, h2, h3⟩ := ih m z
      try dsimp only at h1 h2 h3
      refine ⟨h1, ?_, ?_⟩
      · intro p hp
        rcases List.mem_cons.mp hp with rfl | hp
        · exact (not_lt.mp h).trans h1
        · exact h2 p hp
      · rcases h3 with h3 | ⟨h3, h4, h5⟩
        · exact Or.inl h3
        · exact Or.inr ⟨List.mem_cons_of_mem _ h3, h4, h5⟩

/-- C30: the third point maximises the distance to the line, unless all points are on the line; then it is the origin -/
theorem C30_third (Vs : List (R3.Vector K)) (a b : R3.Vector K) :
    ((∃ p ∈ Vs, Get2Ddist a b p ≠ 0) → getFurthestFromTwoVectors Vs a b ∈ Vs ∧
      ∀ p ∈ Vs, Get2Ddist a b p ≤ Get2Ddist a b (getFurthestFromTwoVectors Vs a b)) ∧
    ((∀ p ∈ Vs, Get2Ddist a b p = 0) → getFurthestFromTwoVectors Vs a b = ⟨0, 0, 0⟩) := by
  obtain ⟨_, h2, h3⟩ := foldl_best (fun v => Get2Ddist a b v) Vs 0 ⟨0, 0, 0⟩
  try dsimp only at h2 h3
  constructor
  · rintro ⟨p, hp, hn⟩
    have hpos : 0 < Get2Ddist a b p := lt_of_le_of_ne (C31_two a b p).2.1 (Ne.symm hn)
    rcases h3 with h3 | ⟨h3, h4, _⟩
    · exact absurd (h2 p hp) (by rw [h3]; exact not_le.mpr hpos)
    · refine ⟨h3, fun q hq => ?_⟩
      exact (h2 q hq).trans h4.ge
  · intro hall
    rcases h3 with h3 | ⟨h3, h4, h5⟩
    · unfold getFurthestFromTwoVectors; dsimp only; rw [h3]
    · rw [hall _ h3] at h4; exact absurd h5 (by rw [← h4]; exact lt_irrefl _)

/-- C30: the fourth point minimises the *signed* volume if some point has a negative one; otherwise it is the origin -/
theorem C30_fourth (Vs : List (R3.Vector K)) (a b c : R3.Vector K) :
    ((∃ p ∈ Vs, Get3Ddist a b c p < 0) → getFurthestFromthreeVectors Vs a b c ∈ Vs ∧
      ∀ p ∈ Vs, Get3Ddist a b c (getFurthestFromthreeVectors Vs a b c) ≤ Get3Ddist a b c p) ∧
    ((∀ p ∈ Vs, 0 ≤ Get3Ddist a b c p) → getFurthestFromthreeVectors Vs a b c = ⟨0, 0, 0⟩) := by
  have conv : ∀ (l : List (R3.Vector K)) (m : K) (z : R3.Vector K),
      l.foldl (fun (acc : K × R3.Vector K) v => if Get3Ddist a b c v < acc.1 then (Get3Ddist a b c v, v) else acc) (m, z) =
      (- (l.foldl (fun (acc : K × R3.Vector K) v => if acc.1 < - Get3Ddist a b c v then (- Get3Ddist a b c v, v) else acc) (-m, z)).1,
        (l.foldl (fun (acc : K × R3.Vector K) v => if acc.1 < - Get3Ddist a b c v then (- Get3Ddist a b c v, v) else acc) (-m, z)).2) := by
    intro l
    induction l with
    | nil => intro m z; simp
    | cons v l ih =>
      intro m z
      rw [List.foldl_cons, List.foldl_cons]
      by_cases h : Get3Ddist a b c v < m
      · simp only [h, if_true, neg_lt_neg_iff]; exact ih _ _
      · simp only [h, if_false, neg_lt_neg_iff]; exact ih _ _
  obtain ⟨_, h2, h3⟩ := foldl_best (fun v => - Get3Ddist a b c v) Vs 0 ⟨0, 0, 0⟩
  try dsimp only at h2 h3
  have e := conv Vs 0 ⟨0, 0, 0⟩
  rw [neg_zero] at e
  constructor
  · rintro ⟨p, hp, hn⟩
    rcases h3 with h3 | ⟨h3, h4, _⟩
    · have := h2 p hp
      rw [h3] at this
      dsimp only at this
      linarith
    · unfold getFurthestFromthreeVectors
      dsimp only
      rw [e]
      refine ⟨h3, fun q hq => ?_⟩
      have := (h2 q hq).trans h4.ge
      dsimp only at this ⊢
      linarith
  · intro hall
    unfold getFurthestFromthreeVectors
    dsimp only
    rw [e]
    rcases h3 with h3 | ⟨h3, h4, h5⟩
    · rw [h3]
    · have := hall _ h3
      linarith

/-- C30: what `createInitialTetra` returns -/
theorem tetra_parts (Vs : List (R3.Vector K)) : ∃ v0 v1 v2 v3, createInitialTetra Vs = [v0, v1, v2, v3] ∧
    (v0, v1) = computeExtremitiesForAxeX Vs ∧ v2 = getFurthestFromTwoVectors Vs v0 v1 ∧
    v3 = getFurthestFromthreeVectors Vs v0 v1 v2 := ⟨_, _, _, _, rfl, rfl, rfl, rfl⟩

/-- C30 for inputs where it holds -/
theorem C30_partial (Vs : List (R3.Vector K)) (hr : ∀ p ∈ Vs, |p.X| < (maxFloat32 : K)) (v0 v1 v2 v3 : R3.Vector K)
    (h : createInitialTetra Vs = [v0, v1, v2, v3]) (h2 : ∃ p ∈ Vs, Get2Ddist v0 v1 p ≠ 0)
    (h3 : ∃ p ∈ Vs, Get3Ddist v0 v1 v2 p < 0) (h3' : ∀ p ∈ Vs, Get3Ddist v0 v1 v2 p ≤ 0) :
    (∀ v ∈ [v0, v1, v2, v3], v ∈ Vs) ∧ (∀ p ∈ Vs, v0.X ≤ p.X ∧ p.X ≤ v1.X) ∧
    (∀ p ∈ Vs, Get2Ddist v0 v1 p ≤ Get2Ddist v0 v1 v2) ∧
    (∀ p ∈ Vs, |Get3Ddist v0 v1 v2 p| ≤ |Get3Ddist v0 v1 v2 v3|) ∧ ¬ Coplanar4 v0 v1 v2 v3 := by
  obtain ⟨w0, w1, w2, w3, e, e1, e2, e3⟩ := tetra_parts Vs
  rw [h] at e
  simp only [List.cons.injEq, and_true] at e
  obtain ⟨rfl, rfl, rfl, rfl⟩ := e
  obtain ⟨p0, hp0, _⟩ := id h2
  have a := C30_extremes Vs (List.ne_nil_of_mem hp0) hr
  rw [← e1] at a
  have b := (C30_third Vs v0 v1).1 h2
  rw [← e2] at b
  have c := (C30_fourth Vs v0 v1 v2).1 h3
  rw [← e3] at c
  refine ⟨?_, a.2.2, b.2, ?_, ?_⟩
  · intro v hv
    simp only [List.mem_cons, List.not_mem_nil, or_false] at hv
    rcases hv with rfl | rfl | rfl | rfl
    exacts [a.1, a.2.1, b.1, c.1]
  · intro p hp
    rw [abs_of_nonpos (h3' p hp), abs_of_nonpos (h3' _ c.1)]
    exact neg_le_neg (c.2 p hp)
  · intro hc
    obtain ⟨q, hq, hq'⟩ := h3
    have := c.2 q hq
    rw [((C31_three v0 v1 v2 v3).2.1).mpr hc] at this
    exact absurd hq' (not_lt.mpr this)

/-- C30 is false: on this tetrahedron the fourth returned point is the origin, which is not an input point -/
theorem C30_refuted : ∃ Vs : List (R3.Vector K), Vs.length = 4 ∧ (∀ p ∈ Vs, |p.X| < (maxFloat32 : K)) ∧
    ∃ v ∈ createInitialTetra Vs, v ∉ Vs := by
  have h0 : (3 : K) < ((maxFloat32 : ℚ) : K) := by
    have : (3 : ℚ) < maxFloat32 := by norm_num [maxFloat32]
    exact_mod_cast this
  refine ⟨[⟨1, 1, 1⟩, ⟨2, 1, 1⟩, ⟨1, 2, 1⟩, ⟨1, 1, 2⟩], rfl, ?_, ⟨0, 0, 0⟩, ?_, ?_⟩
  · intro p hp
    simp only [List.mem_cons, List.not_mem_nil, or_false] at hp
    rcases hp with rfl | rfl | rfl | rfl <;> norm_num [abs_lt] <;> linarith
  · have e1 : computeExtremitiesForAxeX ([⟨1, 1, 1⟩, ⟨2, 1, 1⟩, ⟨1, 2, 1⟩, ⟨1, 1, 2⟩] : List (R3.Vector K)) =
        (⟨1, 1, 1⟩, ⟨2, 1, 1⟩) := by
      have a1 : (1 : K) < ((maxFloat32 : ℚ) : K) := by linarith
      have a2 : -((maxFloat32 : ℚ) : K) < 1 := by linarith
      simp [computeExtremitiesForAxeX, a1, a2]
    have e2 : getFurthestFromTwoVectors ([⟨1, 1, 1⟩, ⟨2, 1, 1⟩, ⟨1, 2, 1⟩, ⟨1, 1, 2⟩] : List (R3.Vector K))
        ⟨1, 1, 1⟩ ⟨2, 1, 1⟩ = ⟨1, 2, 1⟩ := by
      norm_num [getFurthestFromTwoVectors, Get2Ddist]
    have e3 : getFurthestFromthreeVectors ([⟨1, 1, 1⟩, ⟨2, 1, 1⟩, ⟨1, 2, 1⟩, ⟨1, 1, 2⟩] : List (R3.Vector K))
        ⟨1, 1, 1⟩ ⟨2, 1, 1⟩ ⟨1, 2, 1⟩ = ⟨0, 0, 0⟩ := by
      apply (C30_fourth _ _ _ _).2
      intro p hp
      simp only [List.mem_cons, List.not_mem_nil, or_false] at hp
      rcases hp with rfl | rfl | rfl | rfl <;> norm_num [Get3Ddist]
    unfold createInitialTetra
    rw [e1]; dsimp only
    rw [e2, e3]
    simp
  · norm_num [R3.Vector.ext_iff]

example : ∃ Vs : List (R3.Vector ℚ), ∃ v0 v1 v2 v3, createInitialTetra Vs = [v0, v1, v2, v3] ∧
    (∃ p ∈ Vs, Get2Ddist v0 v1 p ≠ 0) ∧ (∃ p ∈ Vs, Get3Ddist v0 v1 v2 p < 0) ∧ (∀ p ∈ Vs, Get3Ddist v0 v1 v2 p ≤ 0) := by
  refine ⟨[⟨1, 1, 1⟩, ⟨2, 1, 1⟩, ⟨1, 2, 1⟩, ⟨1, 1, 0⟩], ⟨1, 1, 1⟩, ⟨2, 1, 1⟩, ⟨1, 2, 1⟩, ⟨1, 1, 0⟩, ?_, ?_, ?_, ?_⟩
  · decide +kernel
  · exact ⟨⟨1, 2, 1⟩, by simp, by norm_num [Get2Ddist]⟩
  · exact ⟨⟨1, 1, 0⟩, by simp, by norm_num [Get3Ddist]⟩
  · intro p hp
    simp only [List.mem_cons, List.not_mem_nil, or_false] at hp
    rcases hp with rfl | rfl | rfl | rfl <;> norm_num [Get3Ddist]

/-! ## C29 -/

/-- the tetrahedron in closed form: `W`, `D` are the box sizes after the offset, `k` the scale of the base -/
theorem C29_value (Vs : List (R3.Vector ℝ)) (mn mx : R3.Vector ℝ) (hb : computeBoundingBoxForVectors Vs = (mn, mx)) :
    (mx.Y + 1 = 0 → constructEnglobingTetra Vs = .panic) ∧
    (mx.Y + 1 ≠ 0 → ∃ k : ℝ, k * (mx.Y + 1) = 2 * (mx.Y + 1) - (mn.Y - 1) ∧
      constructEnglobingTetra Vs = .ok (⟨mn.X - 1, 2 * (mx.Y + 1), mn.Z - 1⟩,
        ⟨mn.X - 1, mn.Y - 1, mn.Z - 1 + k * (mx.Z + 1 - (mn.Z - 1))⟩,
        ⟨mn.X - 1 + k * (mx.X + 1 - (mn.X - 1)), mn.Y - 1, mn.Z - 1 + k * (mx.Z + 1 - (mn.Z - 1))⟩,
        ⟨mn.X - 1 + k * (mx.X + 1 - (mn.X - 1)), mn.Y - 1, mn.Z - 1⟩)) := by
  constructor
  · intro h0
    unfold constructEnglobingTetra
    rw [hb]
    dsimp only
    rw [(C05_panics _ _).mpr]
    · rfl
    · right
      simp only [normalDotDir, R3.Sub, getTopVectorOfTetrahedron, R3.Vector.addM]
      rw [h0]; ring
  · intro h0
    refine ⟨(2 * (mx.Y + 1) - (mn.Y - 1)) / (mx.Y + 1), by field_simp, ?_⟩
    have inter : ∀ (l : Line ℝ) (p : Plane3D ℝ) (x : R3.Vector ℝ), normalDotDir l p ≠ 0 → OnPlane p x → OnLine l x →
        l.IntersectPlane p = .ok x := by
      intro l p x hn hp hl
      have hnp : l.IntersectPlane p ≠ .panic := by
        rw [Ne, C05_panics]
        rintro (h | h)
        · apply hn; simp [normalDotDir, h]
        · exact hn h
      have hnf : l.IntersectPlane p ≠ .fuel := by
        unfold Line.IntersectPlane; split_ifs <;> simp
      cases h : l.IntersectPlane p with
      | ok r => rw [(C05_result l p r h).2.2 x hp hl]
      | panic => exact absurd h hnp
      | fuel => exact absurd h hnf
    unfold constructEnglobingTetra
    rw [hb]
    dsimp only [R3.Vector.addM, getTopVectorOfTetrahedron, R3.Sub]
    rw [inter _ _ ⟨mn.X - 1, mn.Y - 1, mn.Z - 1 + (2 * (mx.Y + 1) - (mn.Y - 1)) / (mx.Y + 1) * (mx.Z + 1 - (mn.Z - 1))⟩]
    rotate_left
    · simp only [normalDotDir]; intro h; apply h0; linear_combination h
    · simp only [OnPlane]; ring
    · refine ⟨-((2 * (mx.Y + 1) - (mn.Y - 1)) / (mx.Y + 1) - 1), ?_, ?_, ?_⟩ <;> simp only
      · ring
      · field_simp; ring
      · ring
    rw [inter _ _ ⟨mn.X - 1 + (2 * (mx.Y + 1) - (mn.Y - 1)) / (mx.Y + 1) * (mx.X + 1 - (mn.X - 1)), mn.Y - 1,
      mn.Z - 1 + (2 * (mx.Y + 1) - (mn.Y - 1)) / (mx.Y + 1) * (mx.Z + 1 - (mn.Z - 1))⟩]
    rotate_left
    · simp only [normalDotDir]; intro h; apply h0; linear_combination h
    · simp only [OnPlane]; ring
    · refine ⟨-((2 * (mx.Y + 1) - (mn.Y - 1)) / (mx.Y + 1) - 1), ?_, ?_, ?_⟩ <;> simp only
      · ring
      · field_simp; ring
      · ring
    rw [inter _ _ ⟨mn.X - 1 + (2 * (mx.Y + 1) - (mn.Y - 1)) / (mx.Y + 1) * (mx.X + 1 - (mn.X - 1)), mn.Y - 1, mn.Z - 1⟩]
    rotate_left
    · simp only [normalDotDir]; intro h; apply h0; linear_combination h
    · simp only [OnPlane]; ring
    · refine ⟨-((2 * (mx.Y + 1) - (mn.Y - 1)) / (mx.Y + 1) - 1), ?_, ?_, ?_⟩ <;> simp only
      · ring
      · field_simp; ring
      · ring
    simp only [Res.bind_ok, Res.pure_eq, sub_eq_add_neg]

/-- C29 is false for every nonempty input: the call panics or some input point is outside the tetrahedron -/
theorem C29_refuted (Vs : List (R3.Vector ℝ)) (hne : Vs ≠ []) (hr : ∀ p ∈ Vs, InRange (maxFloat32 : ℝ) p) :
    constructEnglobingTetra Vs = .panic ∨
    ∃ a b c d, constructEnglobingTetra Vs = .ok (a, b, c, d) ∧ ∃ p ∈ Vs, ¬ InTet a b c d p := by
  obtain ⟨mn, mx, hb⟩ : ∃ mn mx, computeBoundingBoxForVectors Vs = (mn, mx) := ⟨_, _, rfl⟩
  obtain ⟨v1, v2⟩ := C29_value Vs mn mx hb
  by_cases h0 : mx.Y + 1 = 0
  · exact Or.inl (v1 h0)
  right
  obtain ⟨k, hk, e⟩ := v2 h0
  refine ⟨_, _, _, _, e, ?_⟩
  by_contra hcon
  push Not at hcon
  have box := C28_tight Vs hne hr
  rw [hb] at box
  obtain ⟨hbd, ⟨px, hpx, hpx'⟩, _, ⟨pz, hpz, hpz'⟩, _, ⟨py, hpy, hpy'⟩, _⟩ := box
  dsimp only at hbd hpx' hpz' hpy'
  have hW : 0 < mx.X + 1 - (mn.X - 1) := by have := hbd px hpx; linarith
  have hD : 0 < mx.Z + 1 - (mn.Z - 1) := by have := hbd px hpx; linarith
  set W := mx.X + 1 - (mn.X - 1) with hWd
  set D := mx.Z + 1 - (mn.Z - 1) with hDd
  rcases lt_or_gt_of_ne h0 with hneg | hpos
  · obtain ⟨a, b, c, d, ha, hb', hc, hd, hs, hx, hy, hz⟩ := hcon px hpx
    dsimp only at hx hy hz
    have bd := hbd px hpx
    have e1 : px.X - (mn.X - 1) = (c + d) * k * W := by
      rw [hx]; linear_combination (mn.X - 1) * hs
    have kpos : 0 < k := by
      by_contra hk0
      push Not at hk0
      have : (c + d) * k ≤ 0 := mul_nonpos_of_nonneg_of_nonpos (by linarith) hk0
      have := mul_nonpos_of_nonpos_of_nonneg this hW.le
      linarith
    have hlt : 2 * (mx.Y + 1) < mn.Y - 1 := by nlinarith
    have : px.Y ≤ mn.Y - 1 := by
      rw [hy]
      have : a * (2 * (mx.Y + 1)) ≤ a * (mn.Y - 1) := mul_le_mul_of_nonneg_left hlt.le ha
      have h' : (a + b + c + d) * (mn.Y - 1) = mn.Y - 1 := by rw [hs, one_mul]
      nlinarith
    linarith
  · have kpos : 0 < k := by
      by_contra hk0
      push Not at hk0
      have := mul_nonpos_of_nonpos_of_nonneg hk0 (le_of_lt hpos)
      have := hbd px hpx
      linarith
    -- every contained point has x-fraction + z-fraction > 1
    have key : ∀ p ∈ Vs, 1 < (p.X - (mn.X - 1)) / W + (p.Z - (mn.Z - 1)) / D := by
      intro p hp
      obtain ⟨a, b, c, d, ha, hb', hc, hd, hs, hx, hy, hz⟩ := hcon p hp
      dsimp only at hx hy hz
      have bd := hbd p hp
      have e1 : (p.X - (mn.X - 1)) / W = (c + d) * k := by
        rw [div_eq_iff hW.ne', hx]; linear_combination (mn.X - 1) * hs
      have e2 : (p.Z - (mn.Z - 1)) / D = (b + c) * k := by
        rw [div_eq_iff hD.ne', hz]; linear_combination (mn.Z - 1) * hs
      have e3 : (b + c + d) * k * (mx.Y + 1) = 2 * (mx.Y + 1) - p.Y := by
        rw [mul_assoc, hk, hy]; linear_combination (2 * (mx.Y + 1) ) * hs
      have : 1 < (b + c + d) * k := by
        by_contra hle
        push Not at hle
        have := mul_le_mul_of_nonneg_right hle hpos.le
        linarith
      rw [e1, e2]
      have : 0 ≤ c * k := mul_nonneg hc kpos.le
      linarith
    have h1 := key px hpx
    have h2 := key pz hpz
    have b1 := hbd px hpx
    have b2 := hbd pz hpz
    have f1 : (px.X - (mn.X - 1)) / W = 1 / W := by rw [hpx']; ring
    have f2 : (pz.Z - (mn.Z - 1)) / D = 1 / D := by rw [hpz']; ring
    have f3 : (px.Z - (mn.Z - 1)) / D ≤ 1 - 1 / D := by
      rw [div_le_iff₀ hD, sub_mul, one_mul, one_div, inv_mul_cancel₀ hD.ne']; linarith
    have f4 : (pz.X - (mn.X - 1)) / W ≤ 1 - 1 / W := by
      rw [div_le_iff₀ hW, sub_mul, one_mul, one_div, inv_mul_cancel₀ hW.ne']; linarith
    rw [f1] at h1; rw [f2] at h2
    linarith

example : constructEnglobingTetra ([⟨0, -1, 0⟩] : List (R3.Vector ℝ)) = .panic := by
  have r : ∀ p ∈ ([⟨0, -1, 0⟩] : List (R3.Vector ℝ)), InRange (maxFloat32 : ℝ) p := by
    intro p hp
    simp only [List.mem_cons, List.not_mem_nil, or_false] at hp
    subst hp
    norm_num [InRange, maxFloat32]
  have b := C28_tight _ (by simp) r
  refine (C29_value [⟨0, -1, 0⟩] (computeBoundingBoxForVectors [⟨0, -1, 0⟩]).1
    (computeBoundingBoxForVectors [⟨0, -1, 0⟩]).2 rfl).1 ?_
  obtain ⟨_, _, _, _, _, ⟨q, hq, h⟩, _⟩ := b
  simp only [List.mem_cons, List.not_mem_nil, or_false] at hq
  rw [← h, hq]; norm_num

/-- the index list of the returned mesh: four triangles, each three of the four vertices are the corners of exactly one -/
theorem C29_indices : englobingIndices.length = 12 ∧ (∀ i ∈ englobingIndices, i < 4) ∧
    ∀ a b c : Fin 4, a < b → b < c → ((List.range 4).filter fun k => [(a : ℕ), b, c].Perm ((englobingIndices.drop (3*k)).take 3)).length = 1 := by decide

/-- the four faces are not oriented consistently: two of them run along the edge from 1 to 2 in the same direction -/
theorem C29_orientation_refuted : (englobingIndices.drop 1).take 2 = [1, 2] ∧ (englobingIndices.drop 9).take 2 = [1, 2] := by
  decide

end Verif.Props
