import Verif.Proofs.HullFloat
import Verif.Props.DelaunatorFloat
/-!
# `ConvexHull` in float64 (hull.go)

For integer coordinates of size at most `2^24` every cross product and squared distance the code computes is exact, so the claims about `ConvexHull`
proved in exact arithmetic hold for the float64 code as well. Membership holds for every float64 input.
-/
namespace Verif.Props
open Verif Verif.F64 Verif.Tri2 Verif.Proofs

/-- the float `x` is an integer of size at most `b` -/
def Whole (b : ℕ) (x : F64) : Prop := x.Finite ∧ ∃ n : ℤ, x.toQ = n ∧ |n| ≤ b

/-- all coordinates are integers of size at most `2^24` -/
def IntCoords (Vs : List (R3.Vector F64)) : Prop := ∀ v ∈ Vs, Whole (2^24) v.X ∧ Whole (2^24) v.Y ∧ Whole (2^24) v.Z

theorem IntCoords.ints {Vs : List (R3.Vector F64)} (h : IntCoords Vs) : IntPts Vs := by
  intro v hv
  obtain ⟨⟨fx, x, ex, lx⟩, ⟨fy, y, ey, ly⟩, ⟨fz, z, ez, lz⟩⟩ := h v hv
  exact ⟨⟨x, y, z⟩, ⟨fx, ex, lx⟩, ⟨fy, ey, ly⟩, ⟨fz, ez, lz⟩⟩

/-- in `Vs` points with the same `x` and `y` have the same `z` -/
def Flat (Vs : List (R3.Vector F64)) : Prop := ∀ p ∈ Vs, ∀ q ∈ Vs, p.X.toQ = q.X.toQ → p.Y.toQ = q.Y.toQ → p.Z.toQ = q.Z.toQ

instance (Vs : List (R3.Vector F64)) : Decidable (Flat Vs) := by unfold Flat; infer_instance

/-- points with integer coordinates are far enough apart -/
theorem ints_separated {Vs : List (R3.Vector F64)} (h : IntPts Vs) (hf : Flat Vs) : Separated (Vs.map exactV) := by
  intro p hp q hq
  obtain ⟨v, hv, rfl⟩ := List.mem_map.mp hp
  obtain ⟨w, hw, rfl⟩ := List.mem_map.mp hq
  obtain ⟨a, ga⟩ := h v hv
  obtain ⟨b, gb⟩ := h w hw
  by_cases he : exactV v = exactV w
  · exact Or.inl he
  · refine Or.inr ⟨?_, ?_⟩
    · rintro ⟨hx, hy⟩
      apply he
      have := hf v hv w hw hx hy
      unfold exactV at *
      dsimp only at hx hy
      rw [hx, hy, this]
    · rw [← near_iff, ga.exact, gb.exact, castQ_sq]
      rw [ga.exact, gb.exact] at he
      intro hlt
      apply he
      have h1 : ((R3.SquaredDistance a b : ℤ) : ℚ) < 1 := by
        refine lt_of_lt_of_le hlt ?_
        simp only [eps]
        norm_num
      have h2 : R3.SquaredDistance a b < 1 := by exact_mod_cast h1
      have h3 : (a.X - b.X) * (a.X - b.X) + (a.Y - b.Y) * (a.Y - b.Y) + (a.Z - b.Z) * (a.Z - b.Z) < 1 := h2
      have hx : a.X - b.X = 0 := by
        by_contra hne
        have := mul_self_pos.mpr hne
        linarith [mul_self_nonneg (a.Y - b.Y), mul_self_nonneg (a.Z - b.Z)]
      have hy : a.Y - b.Y = 0 := by
        by_contra hne
        have := mul_self_pos.mpr hne
        linarith [mul_self_nonneg (a.X - b.X), mul_self_nonneg (a.Z - b.Z)]
      have hz : a.Z - b.Z = 0 := by
        by_contra hne
        have := mul_self_pos.mpr hne
        linarith [mul_self_nonneg (a.Y - b.Y), mul_self_nonneg (a.X - b.X)]
      unfold castQ
      rw [sub_eq_zero.mp hx, sub_eq_zero.mp hy, sub_eq_zero.mp hz]

section
variable (srt : List (R3.Vector F64) → List (R3.Vector F64)) (Vs : List (R3.Vector F64))

/-- C75, C16 in float64: every input point is on or to the left of every edge of the polygon, computed with exact coordinates -/
theorem C75_encloses (hs : SortsHullF srt Vs) (h : IntCoords Vs) (hf : Flat Vs) :
    ∀ e ∈ edges ((ConvexHull srt Vs).map exactV), ∀ q ∈ Vs, OnLeft e.1 e.2 (exactV q) := by
  intro e he q hq
  rw [convexHull_map h.ints.agrees hs] at he
  exact (C16_encloses _ (sortAs_sorts h.ints.agrees hs) _ (ints_separated h.ints hf)).1 e he _ (List.mem_map_of_mem hq)

/-- C75, C73 in float64: the polygon goes through every boundary point exactly once -/
theorem C75_boundary (hs : SortsHullF srt Vs) (h : IntCoords Vs) (hf : Flat Vs) (hn : NotCollinear (Vs.map exactV)) :
    BoundaryPolygon (Vs.map exactV) ((ConvexHull srt Vs).map exactV) := by
  rw [convexHull_map h.ints.agrees hs]
  exact C73_convexHull _ (sortAs_sorts h.ints.agrees hs) _ (ints_separated h.ints hf) hn

/-- C75, the order claim C17 in float64: any two correct sorts and any two orders of the input give the same polygon -/
theorem C75_order (srt' : List (R3.Vector F64) → List (R3.Vector F64)) (Vs' : List (R3.Vector F64)) (hs : SortsHullF srt Vs)
    (hs' : SortsHullF srt' Vs') (h : IntCoords Vs) (hf : Flat Vs) (hp : Vs.Perm Vs') :
    (ConvexHull srt Vs).map exactV = (ConvexHull srt' Vs').map exactV := by
  have h' : IntCoords Vs' := fun v hv => h v (hp.symm.subset hv)
  rw [convexHull_map h.ints.agrees hs, convexHull_map h'.ints.agrees hs']
  exact C17_order _ _ (sortAs_sorts h.ints.agrees hs) (sortAs_sorts h'.ints.agrees hs') _ _ (hp.map _) (separated_distinct (ints_separated h.ints hf))

theorem popU_mem {P : R3.Vector F64 → Prop} (p : R3.Vector F64) : ∀ l : List (R3.Vector F64), (∀ v ∈ l, P v) → ∀ v ∈ popU p l, P v := by
  intro l
  induction l with
  | nil => intro h; exact h
  | cons b l ih =>
    cases l with
    | nil => intro h; exact h
    | cons a rest =>
      intro h
      simp only [popU]
      split
      · exact ih fun v hv => h v (List.mem_cons_of_mem _ hv)
      · exact h

theorem popL_mem {P : R3.Vector F64 → Prop} (p : R3.Vector F64) : ∀ l : List (R3.Vector F64), (∀ v ∈ l, P v) → ∀ v ∈ popL p l, P v := by
  intro l
  induction l with
  | nil => intro h; exact h
  | cons b l ih =>
    cases l with
    | nil => intro h; exact h
    | cons a rest =>
      intro h
      simp only [popL]
      split
      · exact ih fun v hv => h v (List.mem_cons_of_mem _ hv)
      · exact h

/-- C17 in float64, for every input including NaN and infinite coordinates and every sort that permutes: the vertices are input points -/
theorem C17_members_float (hs : (srt Vs).Perm Vs) : ∀ p ∈ ConvexHull srt Vs, p ∈ Vs := by
  have key : ∀ (L : List (R3.Vector F64)), (∀ v ∈ L, v ∈ Vs) → ∀ U W : List (R3.Vector F64), (∀ v ∈ U, v ∈ Vs) → (∀ v ∈ W, v ∈ Vs) →
      (∀ v ∈ (L.foldl (fun st p => (p :: popU p st.1, p :: popL p st.2)) (U, W)).1, v ∈ Vs) ∧
      (∀ v ∈ (L.foldl (fun st p => (p :: popU p st.1, p :: popL p st.2)) (U, W)).2, v ∈ Vs) := by
    intro L
    induction L with
    | nil => intro _ U W hU hW; exact ⟨hU, hW⟩
    | cons p L ih =>
      intro h U W hU hW
      have hp := h p (by simp)
      exact ih (fun v hv => h v (List.mem_cons_of_mem _ hv)) (p :: popU p U) (p :: popL p W)
        (fun v hv => by rcases List.mem_cons.mp hv with rfl | hv; exacts [hp, popU_mem p U hU v hv])
        (fun v hv => by rcases List.mem_cons.mp hv with rfl | hv; exacts [hp, popL_mem p W hW v hv])
  obtain ⟨k1, k2⟩ := key (filterDup (srt Vs)) (filterLoop_mem _ _ _ _ fun v hv => hs.subset hv) [] [] (by simp) (by simp)
  intro p hp
  rcases List.mem_append.mp hp with h | h
  · exact k2 p (List.mem_reverse.mp (List.mem_of_mem_dropLast h))
  · exact k1 p (List.mem_of_mem_dropLast h)

end

/-- the hypotheses hold: five points with a boundary point in the middle of a side and coordinates near the limit -/
def wideSquare : List (R3.Vector F64) :=
  [⟨flt (-16777216) 0, flt (-16777216) 0, 0⟩, ⟨flt (-16777216) 0, flt 16777216 0, 0⟩, ⟨0, flt (-16777216) 0, 0⟩,
   ⟨flt 16777216 0, flt (-16777216) 0, 0⟩, ⟨flt 16777216 0, flt 16777216 0, 0⟩]

theorem wideSquare_int : IntCoords wideSquare := by
  have w : ∀ n : ℤ, n = -16777216 ∨ n = 0 ∨ n = 16777216 → Whole (2^24) (flt n 0) := by
    rintro n (rfl | rfl | rfl)
    · exact ⟨by decide +kernel, -16777216, by decide +kernel, by decide +kernel⟩
    · exact ⟨by decide +kernel, 0, by decide +kernel, by decide +kernel⟩
    · exact ⟨by decide +kernel, 16777216, by decide +kernel, by decide +kernel⟩
  have z : Whole (2^24) (0 : F64) := ⟨by decide +kernel, 0, by decide +kernel, by decide +kernel⟩
  intro v hv
  simp only [wideSquare, List.mem_cons, List.not_mem_nil, or_false] at hv
  rcases hv with rfl | rfl | rfl | rfl | rfl
  · exact ⟨w _ (by simp), w _ (by simp), z⟩
  · exact ⟨w _ (by simp), w _ (by simp), z⟩
  · exact ⟨z, w _ (by simp), z⟩
  · exact ⟨w _ (by simp), w _ (by simp), z⟩
  · exact ⟨w _ (by simp), w _ (by simp), z⟩

example : SortsHullF (fun l => l) wideSquare ∧ Flat wideSquare ∧ NotCollinear (wideSquare.map exactV) ∧ (ConvexHull (fun l => l) wideSquare).length = 5 :=
  ⟨⟨List.Perm.refl _, by decide +kernel⟩, by decide +kernel,
    ⟨⟨-16777216, -16777216, 0⟩, by decide +kernel, ⟨-16777216, 16777216, 0⟩, by decide +kernel, ⟨0, -16777216, 0⟩, by decide +kernel, by decide +kernel⟩, by decide +kernel⟩

/-- three points in the plane with coordinates below `10^12` -/
def thinTriangle : List (R3.Vector F64) :=
  [⟨flt 68488075643 0, flt 183650339789 0, 0⟩, ⟨flt 118889064872 0, flt 318800272244 0, 0⟩, ⟨flt 246947412442 0, flt 662187917787 0, 0⟩]

/-- **C16 and C73 fail in float64** for larger integers: the polygon of three points has four vertices, one of them twice, and a point is strictly to the
right of an edge. The points are sorted and far apart. -/
theorem C16_float_refuted : ∃ Vs : List (R3.Vector F64), FinitePlanar Vs ∧ Vs.Pairwise (fun a b => hullLess b a = false) ∧ Flat Vs ∧
    Separated (Vs.map exactV) ∧ NotCollinear (Vs.map exactV) ∧ ¬ (ConvexHull (fun l => l) Vs).Nodup ∧
    ∃ e ∈ edges ((ConvexHull (fun l => l) Vs).map exactV), ∃ q ∈ Vs, ¬ OnLeft e.1 e.2 (exactV q) := by
  refine ⟨thinTriangle, by decide +kernel, by decide +kernel, by decide +kernel, ?_, ?_, by decide +kernel, ?_⟩
  · unfold Separated; decide +kernel
  · exact ⟨⟨68488075643, 183650339789, 0⟩, by decide +kernel, ⟨118889064872, 318800272244, 0⟩, by decide +kernel, ⟨246947412442, 662187917787, 0⟩, by decide +kernel,
      by decide +kernel⟩
  · exact ⟨(⟨118889064872, 318800272244, 0⟩, ⟨246947412442, 662187917787, 0⟩), by decide +kernel, ⟨flt 68488075643 0, flt 183650339789 0, 0⟩, by decide +kernel,
      by unfold OnLeft; decide +kernel⟩

end Verif.Props
