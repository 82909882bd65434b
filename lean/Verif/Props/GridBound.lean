import Verif.Props.DelaunatorGrid
import Verif.Props.HashSize

/-!
# C74: integer coordinates are not enough

`C74_cover` is about whole coordinates of at most 64. With whole coordinates below `2^14` the triangulator, computed in float64, can lose a point: the three seeds are
nearly on one line, their circle has a radius of about `2^40`, and the rounded squared distances from its centre put the points in a wrong order. A point in the middle
of a boundary edge then comes last, and is dropped (`triangulate2/triangulator.go`, lines 137–246).
-/

namespace Verif.Props
open Verif.Spec Verif.Proofs Verif.Tri2

/-- five points with whole coordinates -/
def lostPts : List (R3.Vector F64) :=
  [⟨flt 9971 0, flt 11430 0, 0⟩, ⟨flt (-12257) 0, flt (-2499) 0, 0⟩, ⟨flt (-7385) 0, flt 554 0, 0⟩, ⟨flt (-11724) 0, flt (-2165) 0, 0⟩, ⟨flt 1293 0, flt 5992 0, 0⟩]

theorem lostPts_whole : ∀ v ∈ lostPts, Whole (2 ^ 14) v.X ∧ Whole (2 ^ 14) v.Y ∧ Whole 0 v.Z := by
  have w : ∀ n : ℤ, n ∈ ([9971, 11430, -12257, -2499, -7385, 554, -11724, -2165, 1293, 5992] : List ℤ) → Whole (2 ^ 14) (flt n 0) := by
    intro n hn
    simp only [List.mem_cons, List.not_mem_nil, or_false] at hn
    rcases hn with rfl | rfl | rfl | rfl | rfl | rfl | rfl | rfl | rfl | rfl
    · exact ⟨by decide +kernel, 9971, by decide +kernel, by decide +kernel⟩
    · exact ⟨by decide +kernel, 11430, by decide +kernel, by decide +kernel⟩
    · exact ⟨by decide +kernel, -12257, by decide +kernel, by decide +kernel⟩
    · exact ⟨by decide +kernel, -2499, by decide +kernel, by decide +kernel⟩
    · exact ⟨by decide +kernel, -7385, by decide +kernel, by decide +kernel⟩
    · exact ⟨by decide +kernel, 554, by decide +kernel, by decide +kernel⟩
    · exact ⟨by decide +kernel, -11724, by decide +kernel, by decide +kernel⟩
    · exact ⟨by decide +kernel, -2165, by decide +kernel, by decide +kernel⟩
    · exact ⟨by decide +kernel, 1293, by decide +kernel, by decide +kernel⟩
    · exact ⟨by decide +kernel, 5992, by decide +kernel, by decide +kernel⟩
  have z : Whole 0 (0 : F64) := ⟨by decide +kernel, 0, by decide +kernel, by simp⟩
  intro v hv
  simp only [lostPts, List.mem_cons, List.not_mem_nil, or_false] at hv
  rcases hv with rfl | rfl | rfl | rfl | rfl <;> exact ⟨w _ (by simp), w _ (by simp), z⟩

theorem lostPts_data : CallData lostPts 4 1 0 ⟨flt (-1140513194277) (-1), flt 1820039296143 (-1), 0⟩ [1, 4, 0, 3, 2] := by
  constructor
  · decide +kernel
  · decide +kernel
  · decide +kernel
  · decide +kernel

/-- C74 does not hold for all whole coordinates below `2^14`: for five distinct such points, not on one line, and every correct sort, `Triangulate` with its own hash size
returns a triangulation without error, and one of the points is not at the position of any of its vertices -/
theorem C74_bound_refuted : ∃ Vs : List (R3.Vector F64), (∀ v ∈ Vs, Whole (2 ^ 14) v.X ∧ Whole (2 ^ 14) v.Y ∧ Whole 0 v.Z) ∧ Vs.length = 5 ∧
    (Vs.map exactV).Nodup ∧ NotCollinear (Vs.map exactV) ∧ (∃ srt, SortsCall srt Vs) ∧ ∀ srt, SortsCall srt Vs →
    ∃ hull ts hs, Triangulate srt hashSize64 100 Vs = .ok (.triangulation hull ts hs) ∧ ∃ p ∈ Vs, ¬ IsVertex (Vs.map exactV) ts (exactV p) := by
  refine ⟨lostPts, lostPts_whole, rfl, by decide +kernel, ?_, ⟨_, lostPts_data.sorts⟩, fun srt hs => ?_⟩
  · rw [← not_not (a := NotCollinear _), ← collinear_iff]
    unfold Proofs.Collinear
    decide +kernel
  have hz : hashSize64 lostPts.length = 3 := size_small (n := 5) (by norm_num) (by norm_num) (by norm_num) (by norm_num)
  rw [lostPts_data.run (by decide) hs, hz]
  have : ∃ x, restOf 3 100 lostPts 4 1 0 ⟨flt (-1140513194277) (-1), flt 1820039296143 (-1), 0⟩ [1, 4, 0, 3, 2] = x ∧
      (match x with | .ok (.triangulation _ ts _) => decide (ts = [4, 1, 0, 4, 3, 1]) | _ => false) = true := ⟨_, rfl, by decide +kernel⟩
  obtain ⟨x, hx, h⟩ := this
  rw [hx]
  match x, h with
  | .ok (.triangulation hull ts hs), h =>
    refine ⟨hull, ts, hs, rfl, ⟨flt (-7385) 0, flt 554 0, 0⟩, by simp [lostPts], ?_⟩
    simp only [decide_eq_true_eq] at h
    subst h
    rintro ⟨i, hi, e⟩
    have h2 : (lostPts.map exactV)[2]? = some (exactV ⟨flt (-7385) 0, flt 554 0, 0⟩) := rfl
    have hi2 : i = 2 := by
      have hnd : (lostPts.map exactV).Nodup := by decide +kernel
      obtain ⟨h1, e1⟩ := List.getElem?_eq_some_iff.mp e
      obtain ⟨h3, e3⟩ := List.getElem?_eq_some_iff.mp h2
      exact (List.Nodup.getElem_inj_iff hnd).mp (e1.trans e3.symm)
    subst hi2
    revert hi
    decide

end Verif.Props
