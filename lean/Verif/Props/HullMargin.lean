import Verif.Proofs.VolFloat
import Verif.Props.HullFloat
import Verif.Props.VolFloat
/-!
# C84: the float64 ConvexHull is right whenever its comparisons are
-/
namespace Verif.Props
open Verif Verif.F64 Verif.Tri2 Verif.Proofs

section
variable (srt : List (R3.Vector F64) → List (R3.Vector F64)) (Vs : List (R3.Vector F64))

/-- C84: if the comparisons of cross products with zero, of squared distances with eps, and of coordinates give the exact results, and the exact points are
pairwise apart, then the polygon encloses the points and goes through every boundary point exactly once -/
theorem C84_signs (hs : SortsHullF srt Vs) (H : HullAgrees Vs) (hsep : Separated (Vs.map exactV)) :
    (∀ e ∈ edges ((ConvexHull srt Vs).map exactV), ∀ q ∈ Vs, OnLeft e.1 e.2 (exactV q)) ∧
    (NotCollinear (Vs.map exactV) → BoundaryPolygon (Vs.map exactV) ((ConvexHull srt Vs).map exactV)) ∧
    ∀ srt' Vs', SortsHullF srt' Vs' → Vs.Perm Vs' → (ConvexHull srt Vs).map exactV = (ConvexHull srt' Vs').map exactV := by
  have e := convexHull_map H hs
  refine ⟨fun f hf q hq => ?_, fun hn => ?_, fun srt' Vs' hs' hp => ?_⟩
  · rw [e] at hf
    exact (C16_encloses _ (sortAs_sorts H hs) _ hsep).1 f hf _ (List.mem_map_of_mem hq)
  · rw [e]
    exact C73_convexHull _ (sortAs_sorts H hs) _ hsep hn
  · have H' : HullAgrees Vs' := H.mono fun v hv => hp.symm.subset hv
    rw [e, convexHull_map H' hs']
    exact C17_order _ _ (sortAs_sorts H hs) (sortAs_sorts H' hs') _ _ (hp.map _) (separated_distinct hsep)

end

/-- the sorting comparison is always exact on finite points -/
theorem hullLess_exact {a b : R3.Vector F64} (ha : a.X.Finite ∧ a.Y.Finite) (hb : b.X.Finite ∧ b.Y.Finite) : hullLess a b = hullLess (exactV a) (exactV b) := by
  unfold hullLess
  have e1 : (a.X != b.X) = ((exactV a).X != (exactV b).X) := by
    have := beq_fin ha.1 hb.1
    rw [bne, bne, Bool.not_inj_iff, Bool.eq_iff_iff, this]
    simp [exactV]
  have e2 := lt_fin ha.1 hb.1
  have e3 := lt_fin ha.2 hb.2
  rw [e1]
  simp only [e2, e3]
  rfl

/-- two points at different positions are more than eps and the rounding error apart, three of them are further from a line than the rounding error -/
structure HullMargin (Vs : List (R3.Vector F64)) (M : ℚ) : Prop where
  low : 1 / 2 ^ 34 ≤ M
  high : M ≤ 2 ^ 34
  size : ∀ v ∈ Vs, Bounded3 M v
  apart : ∀ a ∈ Vs, ∀ b ∈ Vs, exactV a ≠ exactV b → (a.X.toQ ≠ b.X.toQ ∨ a.Y.toQ ≠ b.Y.toQ) ∧
    1 / 2 ^ 52 + 66 / 2 ^ 53 * M ^ 2 < (a.X.toQ - b.X.toQ) ^ 2 + (a.Y.toQ - b.Y.toQ) ^ 2 + (a.Z.toQ - b.Z.toQ) ^ 2
  line : ∀ a ∈ Vs, ∀ b ∈ Vs, ∀ c ∈ Vs, exactV a ≠ exactV b → exactV b ≠ exactV c → exactV c ≠ exactV a →
    39 / 2 ^ 53 * M ^ 2 < |(b.X.toQ - a.X.toQ) * (c.Y.toQ - a.Y.toQ) - (b.Y.toQ - a.Y.toQ) * (c.X.toQ - a.X.toQ)|

theorem zn_sub_eqZ {x y : F64} (h : EqZ x y) : ZN (x - y) := by
  rcases h with rfl | ⟨s, t, rfl, rfl⟩
  · exact zn_self _
  · right; exact ⟨_, rfl⟩

theorem eqZ_comm {x y : F64} (h : EqZ x y) : EqZ y x := by
  rcases h with rfl | ⟨s, t, rfl, rfl⟩
  · exact Or.inl rfl
  · exact Or.inr ⟨t, s, rfl, rfl⟩

/-- the computed cross product of two points at the same position is zero -/
theorem cross_same {a b c : R3.Vector F64} (h : SameZ a b ∨ SameZ b c ∨ SameZ c a) : (cross2D a b c).toQ = 0 := by
  unfold cross2D
  rcases h with h | h | h
  · have hx := zn_sub_eqZ (eqZ_comm h.1)
    have hy := zn_sub_eqZ (eqZ_comm h.2)
    exact zn_toQ ((hx.mul _).sub (hy.mul _))
  · have h1 : EqZ ((b.X - a.X) * (c.Y - a.Y)) ((b.X - a.X) * (b.Y - a.Y)) := mul_eqZ2 (EqZ.refl _) (sub_eqZ2 (eqZ_comm h.2) (EqZ.refl _))
    have h2 : EqZ ((b.Y - a.Y) * (c.X - a.X)) ((b.X - a.X) * (b.Y - a.Y)) := by
      rw [mul_comm' (b.X - a.X)]
      exact mul_eqZ2 (EqZ.refl _) (sub_eqZ2 (eqZ_comm h.1) (EqZ.refl _))
    exact zn_toQ (EqZ.zn h1 h2)
  · have hx := zn_sub_eqZ h.1
    have hy := zn_sub_eqZ h.2
    rw [mul_comm' (b.X - a.X), mul_comm' (b.Y - a.Y)]
    exact zn_toQ ((hy.mul _).sub (hx.mul _))

/-- the margins make all comparisons right -/
theorem HullMargin.agrees {Vs : List (R3.Vector F64)} {M : ℚ} (h : HullMargin Vs M) : HullAgrees Vs := by
  have h0 : (0 : F64).toQ = 0 := rfl
  have z0 : (0 : F64).Finite := trivial
  have same : ∀ a ∈ Vs, ∀ b ∈ Vs, exactV a = exactV b → SameZ a b := by
    intro a ha b hb e
    exact ⟨eqZ_of_toQ (h.size a ha).1.1 (h.size b hb).1.1 (congrArg R3.Vector.X e), eqZ_of_toQ (h.size a ha).2.1.1 (h.size b hb).2.1.1 (congrArg R3.Vector.Y e)⟩
  have cr : ∀ a ∈ Vs, ∀ b ∈ Vs, ∀ c ∈ Vs, App (cross2D a b c) (cross2D (exactV a) (exactV b) (exactV c)) (M ^ 2) 39 8 := by
    intro a ha b hb c hc
    have sa := h.size a ha
    have sb := h.size b hb
    have sc := h.size c hc
    exact app_cross5 h.low h.high (app_diff5 h.low h.high sb.1 sa.1) (app_diff5 h.low h.high sc.2.1 sa.2.1) (app_diff5 h.low h.high sb.2.1 sa.2.1)
      (app_diff5 h.low h.high sc.1 sa.1)
  have sg : ∀ a ∈ Vs, ∀ b ∈ Vs, ∀ c ∈ Vs, (cross2D a b c < 0 ↔ cross2D (exactV a) (exactV b) (exactV c) < 0) ∧
      (0 < cross2D a b c ↔ 0 < cross2D (exactV a) (exactV b) (exactV c)) := by
    intro a ha b hb c hc
    have A := cr a ha b hb c hc
    by_cases hd : exactV a ≠ exactV b ∧ exactV b ≠ exactV c ∧ exactV c ≠ exactV a
    · refine A.sign ?_
      have := h.line a ha b hb c hc hd.1 hd.2.1 hd.2.2
      have e : 39 * (uro * M ^ 2) = 39 / 2 ^ 53 * M ^ 2 := by unfold uro; ring
      rw [e]
      exact this
    · have hd' : exactV a = exactV b ∨ exactV b = exactV c ∨ exactV c = exactV a := by
        by_contra hn
        exact hd ⟨fun e => hn (Or.inl e), fun e => hn (Or.inr (Or.inl e)), fun e => hn (Or.inr (Or.inr e))⟩
      have hz : (cross2D a b c).toQ = 0 := by
        refine cross_same ?_
        rcases hd' with e | e | e
        · exact Or.inl (same a ha b hb e)
        · exact Or.inr (Or.inl (same b hb c hc e))
        · exact Or.inr (Or.inr (same c hc a ha e))
      have he : cross2D (exactV a) (exactV b) (exactV c) = 0 := by
        unfold cross2D
        rcases hd' with e | e | e
        · rw [e]; ring
        · rw [e]; ring
        · rw [e]; ring
      rw [lt_fin A.fin z0, lt_fin z0 A.fin, h0, hz, he]
      exact ⟨Iff.rfl, Iff.rfl⟩
  refine ⟨fun a ha b hb c hc => (sg a ha b hb c hc).2, fun a ha b hb c hc => (sg a ha b hb c hc).1, fun a ha b hb => ?_, fun a ha b hb =>
    hullLess_exact ⟨(h.size a ha).1.1, (h.size a ha).2.1.1⟩ ⟨(h.size b hb).1.1, (h.size b hb).2.1.1⟩⟩
  have sa := h.size a ha
  have sb := h.size b hb
  have A : App (R3.SquaredDistance a b) (R3.SquaredDistance (exactV a) (exactV b)) (M ^ 2) 66 12 :=
    app_lift5 h.low h.high (app_diff5 h.low h.high sa.1 sb.1) (app_diff5 h.low h.high sa.2.1 sb.2.1) (app_diff5 h.low h.high sa.2.2 sb.2.2)
  have e : 66 * (uro * M ^ 2) = 66 / 2 ^ 53 * M ^ 2 := by unfold uro; ring
  have he : R3.SquaredDistance (exactV a) (exactV b) = (a.X.toQ - b.X.toQ) ^ 2 + (a.Y.toQ - b.Y.toQ) ^ 2 + (a.Z.toQ - b.Z.toQ) ^ 2 := by
    simp only [R3.SquaredDistance, R3.Vector.Norm2, R3.Sub, R3.Dot, exactV]; ring
  have ep : (eps : ℚ) = 1 / 2 ^ 52 := by simp [eps]
  have p0 : 0 ≤ 66 / 2 ^ 53 * M ^ 2 := by positivity
  rw [lt_fin A.fin eps_float.1, eps_float.2, ep]
  have err := A.err
  rw [e] at err
  by_cases hd : exactV a = exactV b
  · have hz : (R3.SquaredDistance a b).toQ = 0 := by
      have sx := zn_sub_eqZ (same a ha b hb hd).1
      have sy := zn_sub_eqZ (same a ha b hb hd).2
      have sz := zn_sub_eqZ (eqZ_of_toQ sa.2.2.1 sb.2.2.1 (congrArg R3.Vector.Z hd))
      exact zn_toQ (((sx.mul _).add (sy.mul _)).add (sz.mul _))
    have hz' : R3.SquaredDistance (exactV a) (exactV b) = 0 := by
      rw [hd]; simp only [R3.SquaredDistance, R3.Vector.Norm2, R3.Sub, R3.Dot]; ring
    rw [hz, hz']
  · have := (h.apart a ha b hb hd).2
    rw [← he] at this
    obtain ⟨l, _⟩ := abs_le.mp err
    constructor
    · intro hlt; linarith
    · intro hlt; linarith

theorem HullMargin.separated {Vs : List (R3.Vector F64)} {M : ℚ} (h : HullMargin Vs M) : Separated (Vs.map exactV) := by
  intro p hp q hq
  obtain ⟨v, hv, rfl⟩ := List.mem_map.mp hp
  obtain ⟨w, hw, rfl⟩ := List.mem_map.mp hq
  by_cases he : exactV v = exactV w
  · exact Or.inl he
  · obtain ⟨h1, h2⟩ := h.apart v hv w hw he
    refine Or.inr ⟨?_, ?_⟩
    · rintro ⟨hx, hy⟩
      rcases h1 with h1 | h1
      · exact h1 hx
      · exact h1 hy
    · rw [← near_iff]
      have he : R3.SquaredDistance (exactV v) (exactV w) = (v.X.toQ - w.X.toQ) ^ 2 + (v.Y.toQ - w.Y.toQ) ^ 2 + (v.Z.toQ - w.Z.toQ) ^ 2 := by
        simp only [R3.SquaredDistance, R3.Vector.Norm2, R3.Sub, R3.Dot, exactV]; ring
      have ep : (eps : ℚ) = 1 / 2 ^ 52 := by simp [eps]
      have p0 : 0 ≤ 66 / 2 ^ 53 * M ^ 2 := by positivity
      rw [he, ep]
      intro hlt; linarith

section
variable (srt : List (R3.Vector F64) → List (R3.Vector F64)) (Vs : List (R3.Vector F64))

/-- C84: the float64 polygon encloses the points, goes through every boundary point exactly once and does not depend on the order of the input, for points
of size up to `M` that keep away from each other and from common lines by the stated margins -/
theorem C84_margin {M : ℚ} (hs : SortsHullF srt Vs) (h : HullMargin Vs M) :
    (∀ e ∈ edges ((ConvexHull srt Vs).map exactV), ∀ q ∈ Vs, OnLeft e.1 e.2 (exactV q)) ∧
    (NotCollinear (Vs.map exactV) → BoundaryPolygon (Vs.map exactV) ((ConvexHull srt Vs).map exactV)) ∧
    ∀ srt' Vs', SortsHullF srt' Vs' → Vs.Perm Vs' → (ConvexHull srt Vs).map exactV = (ConvexHull srt' Vs').map exactV :=
  C84_signs srt Vs hs h.agrees h.separated

theorem grid_hullAgrees {Vs : List (R3.Vector F64)} {e : ℤ} (h1 : -500 ≤ e) (h2 : e ≤ 400) (h : ∀ v ∈ Vs, Grid3 (2 ^ 24) e v) : HullAgrees Vs := by
  have h0 : (0 : F64).toQ = 0 := rfl
  have z0 : (0 : F64).Finite := trivial
  have cr : ∀ a ∈ Vs, ∀ b ∈ Vs, ∀ c ∈ Vs, (cross2D a b c).Finite ∧ (cross2D a b c).toQ = cross2D (exactV a) (exactV b) (exactV c) := by
    intro a ha b hb c hc
    obtain ⟨a', ga⟩ := (h a ha).pt
    obtain ⟨b', gb⟩ := (h b hb).pt
    obtain ⟨c', gc⟩ := (h c hc).pt
    have bx := gb.1.sub ga.1 (by norm_num) (by omega) (by omega)
    have cy := gc.2.1.sub ga.2.1 (by norm_num) (by omega) (by omega)
    have by' := gb.2.1.sub ga.2.1 (by norm_num) (by omega) (by omega)
    have cx := gc.1.sub ga.1 (by norm_num) (by omega) (by omega)
    have r := dy_cross bx cy by' cx rfl (by norm_num) (by omega) (by omega)
    refine ⟨r.fin, ?_⟩
    rw [dpt3_exact ga, dpt3_exact gb, dpt3_exact gc]
    refine r.val.trans ?_
    rw [zpow_add₀ (by norm_num)]
    simp only [cross2D]; push_cast; ring
  have sd : ∀ a ∈ Vs, ∀ b ∈ Vs, (R3.SquaredDistance a b).Finite ∧ (R3.SquaredDistance a b).toQ = R3.SquaredDistance (exactV a) (exactV b) := by
    intro a ha b hb
    obtain ⟨a', ga⟩ := (h a ha).pt
    obtain ⟨b', gb⟩ := (h b hb).pt
    have x := ga.1.sub gb.1 (by norm_num) (by omega) (by omega)
    have y := ga.2.1.sub gb.2.1 (by norm_num) (by omega) (by omega)
    have z := ga.2.2.sub gb.2.2 (by norm_num) (by omega) (by omega)
    have r := ((x.mul x (by norm_num) (by omega) (by omega)).add (y.mul y (by norm_num) (by omega) (by omega)) (by norm_num) (by omega) (by omega)).add
      (z.mul z (by norm_num) (by omega) (by omega)) (by norm_num) (by omega) (by omega)
    refine ⟨r.fin, ?_⟩
    rw [dpt3_exact ga, dpt3_exact gb]
    refine r.val.trans ?_
    rw [zpow_add₀ (by norm_num)]
    simp only [R3.SquaredDistance, R3.Vector.Norm2, R3.Sub, R3.Dot]; push_cast; ring
  have ep : (eps : ℚ) = 1 / 2 ^ 52 := by simp [eps]
  constructor
  · intro a ha b hb c hc
    obtain ⟨f, v⟩ := cr a ha b hb c hc
    rw [lt_fin z0 f, v, h0]
  · intro a ha b hb c hc
    obtain ⟨f, v⟩ := cr a ha b hb c hc
    rw [lt_fin f z0, v, h0]
  · intro a ha b hb
    obtain ⟨f, v⟩ := sd a ha b hb
    rw [lt_fin f eps_float.1, v, eps_float.2, ep]
  · intro a ha b hb
    exact hullLess_exact ⟨(h a ha a.X (by simp)).1, (h a ha a.Y (by simp)).1⟩ ⟨(h b hb b.X (by simp)).1, (h b hb b.Y (by simp)).1⟩

/-- C84: the same for points whose coordinates are multiples of `2^e` by integers of size at most `2^24` and that are pairwise apart -/
theorem C84_grid {e : ℤ} (h1 : -500 ≤ e) (h2 : e ≤ 400) (hs : SortsHullF srt Vs) (h : ∀ v ∈ Vs, Grid3 (2 ^ 24) e v) (hsep : Separated (Vs.map exactV)) :
    (∀ e ∈ edges ((ConvexHull srt Vs).map exactV), ∀ q ∈ Vs, OnLeft e.1 e.2 (exactV q)) ∧
    (NotCollinear (Vs.map exactV) → BoundaryPolygon (Vs.map exactV) ((ConvexHull srt Vs).map exactV)) ∧
    ∀ srt' Vs', SortsHullF srt' Vs' → Vs.Perm Vs' → (ConvexHull srt Vs).map exactV = (ConvexHull srt' Vs').map exactV :=
  C84_signs srt Vs hs (grid_hullAgrees h1 h2 h) hsep

end

/-- four points with decimal coordinates, (0.1, 0.1), (0.2, 0.9), (0.4, 0.3), (0.9, 0.2), rounded to float64 -/
def decimals : List (R3.Vector F64) :=
  [⟨flt 7205759403792794 (-56), flt 7205759403792794 (-56), 0⟩, ⟨flt 7205759403792794 (-55), flt 8106479329266893 (-53), 0⟩,
   ⟨flt 7205759403792794 (-54), flt 5404319552844595 (-54), 0⟩, ⟨flt 8106479329266893 (-53), flt 7205759403792794 (-55), 0⟩]

instance (a : R3.Vector F64) (M : ℚ) : Decidable (Bounded3 M a) := by unfold Bounded3; infer_instance

/-- C84: the margins hold for decimal coordinates with `M = 1` -/
theorem decimals_margin : HullMargin decimals 1 := ⟨by norm_num, by norm_num, by decide +kernel, by decide +kernel, by decide +kernel⟩

example : SortsHullF (fun l => l) decimals ∧ NotCollinear (decimals.map exactV) ∧ (ConvexHull (fun l => l) decimals).length = 3 :=
  ⟨⟨List.Perm.refl _, by decide +kernel⟩, ⟨_, List.mem_map_of_mem (List.mem_cons_self), _, List.mem_map_of_mem (List.mem_cons_of_mem _ List.mem_cons_self),
    _, List.mem_map_of_mem (List.mem_cons_of_mem _ (List.mem_cons_of_mem _ List.mem_cons_self)), by decide +kernel⟩, by decide +kernel⟩

end Verif.Props
