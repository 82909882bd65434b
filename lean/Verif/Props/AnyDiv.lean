import Verif.Proofs.AnyDiv
import Verif.Props.DelaunatorExact
/-!
# C88: no result of the triangulator rests on a division by zero (triangulate2/util.go:12-20, 47-83, triangulator.go:50-253)

In a field of Lean `x / 0 = 0`; in Go it is an infinity or NaN. The exact theorems about `Triangulate` would be about another program if such a division
ever took part in its result. Here the division is any operation `d` that agrees with the division of the field for divisors that are not zero.
-/
namespace Verif.Props
open Verif Verif.Tri2 Verif.Proofs
set_option linter.unusedSectionVars false

variable {K : Type} [Field K] [LinearOrder K] [IsStrictOrderedRing K] [FloorRing K] (d : K → K → K) (hd : ∀ x y : K, y ≠ 0 → d x y = x / y)
include hd

/-- C88: `circumradius` divides by zero for collinear points, but returns the infinite radius for them whatever the quotients are -/
theorem C88_circumradius (a b c : R3.Vector K) : @circumradius K _ _ _ ⟨d⟩ _ _ _ a b c = circumradius a b c := circumradius_div d hd a b c

omit hd in
/-- the centre of the seed circle is not one of the points -/
theorem seed_centre {Vs : List (R3.Vector K)} {i0 i1 i2 : ℕ} {p0 p1 p2 : R3.Vector K} (S : Seeds Vs i0 i1 i2 p0 p1 p2) {v : R3.Vector K} (hv : v ∈ Vs) :
    v.X ≠ (circumcenter p0 p1 p2).X ∨ v.Y ≠ (circumcenter p0 p1 p2).Y := by
  have hpos := S.pos
  have hemp := S.empty v hv
  have hz : dOf p0 p1 p2 ≠ 0 := by
    intro e; rw [area_dOf, e, neg_zero] at hpos; exact lt_irrefl _ hpos
  obtain ⟨_, e1, e2⟩ := C13_circumcenter p0 p1 p2 (fun e => hz ((ccw_zero_iff p0 p1 p2).mpr e))
  generalize circumcenter p0 p1 p2 = o at *
  by_contra hn
  push Not at hn
  obtain ⟨hx, hy⟩ := hn
  have e : inCircleDet p0 p1 p2 v = area p0 p1 p2 * (dist2 v o - dist2 p0 o) + area p0 v p2 * (dist2 p0 o - dist2 p1 o) + area p0 p1 v * (dist2 p0 o - dist2 p2 o) := by
    simp only [inCircleDet, area, dist2]; ring
  have f1 : dist2 p1 o = dist2 p0 o := e1
  have f2 : dist2 p2 o = dist2 p0 o := e2
  have f3 : dist2 v o = 0 := by unfold dist2; rw [hx, hy]; ring
  rw [e, f1, f2, f3] at hemp
  have h0 : 0 ≤ dist2 p0 o := by unfold dist2; positivity
  have h1 : dist2 p0 o = 0 := by
    rcases h0.lt_or_eq with h | h
    · have := mul_pos hpos h
      linarith
    · exact h.symm
  rw [h1] at f1 f2
  have zero : ∀ p : R3.Vector K, dist2 p o = 0 → p.X = o.X ∧ p.Y = o.Y := by
    intro p hp
    by_contra h
    have := (dist2_pos (p := p) (q := o)).mpr h
    linarith
  obtain ⟨x0, y0⟩ := zero p0 h1
  obtain ⟨x1, y1⟩ := zero p1 f1
  apply hz
  unfold dOf
  rw [x0, y0, x1, y1]; ring

/-- C88: the hash bucket of a point that is not the centre -/
theorem C88_hashKey (m : ℕ) {c v : R3.Vector K} (h : v.X ≠ c.X ∨ v.Y ≠ c.Y) :
    @hashKey K _ _ _ ⟨d⟩ _ _ _ _ _ _ _ _ _ _ _ m c v = hashKey m c v := by
  have hs : |v.X - c.X| + |v.Y - c.Y| ≠ 0 := by
    intro e
    have h1 := abs_nonneg (v.X - c.X)
    have h2 := abs_nonneg (v.Y - c.Y)
    have e1 : |v.X - c.X| = 0 := by linarith
    have e2 : |v.Y - c.Y| = 0 := by linarith
    rcases h with h | h
    · exact h (sub_eq_zero.mp (abs_eq_zero.mp e1))
    · exact h (sub_eq_zero.mp (abs_eq_zero.mp e2))
  have h4 : ∀ x : K, @HDiv.hDiv K K K (@instHDiv K ⟨d⟩) x 4 = x / 4 := fun x => hd x 4 four_ne_zero
  unfold hashKey pseudoAngle
  simp only [h4]
  have e : @HDiv.hDiv K K K (@instHDiv K ⟨d⟩) (R3.Sub v c).X (GoAbs.abs (R3.Sub v c).X + GoAbs.abs (R3.Sub v c).Y) =
      (R3.Sub v c).X / (GoAbs.abs (R3.Sub v c).X + GoAbs.abs (R3.Sub v c).Y) := hd _ _ hs
  rw [e]

/-- C88: `Triangulate` in exact arithmetic does not depend on the value of a division by zero, for points in a horizontal plane -/
theorem C88_triangulate (srt : R3.Vector K → List ℤ → List ℤ) (hashSize : ℕ → ℕ) (fuel : ℕ) (Vs : List (R3.Vector K)) (hp : Planar Vs) :
    @Triangulate K _ _ _ ⟨d⟩ _ _ _ _ _ _ _ _ _ _ _ _ _ _ _ _ srt hashSize fuel Vs = Triangulate srt hashSize fuel Vs := by
  by_cases hn : Vs.length = 0
  · unfold Triangulate
    rw [if_pos hn, if_pos hn]
  · have t1 := tri_div d hd srt hashSize fuel Vs hn
    have t2 := tri_div (fun x y : K => x / y) (fun _ _ _ => rfl) srt hashSize fuel Vs hn
    have hE : (⟨fun x y : K => x / y⟩ : Div K) = (inferInstance : Div K) := rfl
    have t3 : Triangulate srt hashSize fuel Vs = @Triangulate K _ _ _ ⟨fun x y : K => x / y⟩ _ _ _ _ _ _ _ _ _ _ _ _ _ _ _ _ srt hashSize fuel Vs :=
      congrArg (fun D : Div K => @Triangulate K _ _ _ D _ _ _ _ _ _ _ _ _ _ _ _ _ _ _ _ srt hashSize fuel Vs) hE.symm
    rw [t3, t1, t2]
    rcases Nat.lt_or_ge Vs.length 2 with h1 | h2
    · obtain ⟨v, rfl⟩ : ∃ v, Vs = [v] := List.length_eq_one_iff.mp (by omega)
      have e : seedsQ [v] = .panic := rfl
      rw [e, Res.bind_panic, Res.bind_panic]
    · rcases seedsQ_spec hp h2 with ⟨_, e⟩ | ⟨_, i0, i1, i2, p0, p1, p2, S, e⟩
      · rw [e, Res.bind_ok, Res.bind_ok]
      · rw [e, Res.bind_ok, Res.bind_ok]
        simp only [afterSeedsD]
        have A : Agree Vs id id (@Geo.ofScalar K _ _ _ ⟨d⟩ _ _ _ _ _ _ _ _ _ _ _ _ _ (hashSize Vs.length) (circumcenter p0 p1 p2))
            (@Geo.ofScalar K _ _ _ ⟨fun x y : K => x / y⟩ _ _ _ _ _ _ _ _ _ _ _ _ _ (hashSize Vs.length) (circumcenter p0 p1 p2)) := by
          refine ⟨fun _ _ _ _ _ _ => rfl, fun _ _ _ _ _ _ => rfl, fun _ _ _ _ _ _ _ _ => rfl, fun _ _ _ _ => rfl, fun v hv => ?_⟩
          exact (C88_hashKey d hd (hashSize Vs.length) (seed_centre S hv)).trans
            (congrArg (fun D : Div K => @hashKey K _ _ _ D _ _ _ _ _ _ _ _ _ _ _ (hashSize Vs.length) (circumcenter p0 p1 p2) v) hE.symm)
        have := core_map A fuel (hashSize Vs.length) i0 i1 i2 (srt (circumcenter p0 p1 p2) ((List.range Vs.length).map Int.ofNat))
        rw [List.map_id] at this
        rw [this]

/-- a division with another value at zero, and four points in a plane, three of them on a line -/
example : @Triangulate ℚ _ _ _ ⟨fun x y => if y = 0 then 7 else x / y⟩ _ _ _ _ _ _ _ _ _ _ _ _ _ _ _ _ (fun _ l => l) (fun _ => 2) 40
      [⟨0, 0, 0⟩, ⟨1, 0, 0⟩, ⟨2, 0, 0⟩, ⟨0, 3, 0⟩] = Triangulate (fun _ l => l) (fun _ => 2) 40 [⟨0, 0, 0⟩, ⟨1, 0, 0⟩, ⟨2, 0, 0⟩, ⟨0, 3, 0⟩] :=
  C88_triangulate _ (fun x y h => if_neg h) _ _ _ _ ⟨0, by simp⟩

end Verif.Props
