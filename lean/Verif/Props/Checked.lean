import Verif.Props.Nurbs
import Verif.Props.Predicates
/-!
# C13 with checked division

Division by zero is zero in a field of Lean but not in Go. Here the scalars are `Chk K`: a division by zero gives `err`, everything computed from `err` is `err`, and `err`
is equal to nothing (as NaN). The theorems of C13 hold with these scalars too, so they do not rest on the value of `x / 0`.
-/
namespace Verif.Props
open Verif Verif.Tri2
set_option linter.unusedSectionVars false
variable {K : Type} [Field K] [LinearOrder K] [IsStrictOrderedRing K]

namespace Chk
/-- comparison: `err` is equal to nothing -/
def beq : Chk K → Chk K → Bool
  | val x, val y => decide (x = y)
  | _, _ => false
instance : BEq (Chk K) := ⟨beq⟩
instance : GoConst (Chk K) := ⟨fun q => val (q : K)⟩

theorem val_add (x y : K) : (val x + val y : Chk K) = val (x + y) := rfl
theorem val_sub (x y : K) : (val x - val y : Chk K) = val (x - y) := rfl
theorem val_mul (x y : K) : (val x * val y : Chk K) = val (x * y) := rfl
theorem val_div (x : K) {y : K} (h : y ≠ 0) : (val x / val y : Chk K) = val (x / y) := by
  show (if y = 0 then err else val (x / y)) = _
  rw [if_neg h]
theorem val_beq (x y : K) : (val x == val y) = decide (x = y) := rfl
theorem val_zero : (0 : Chk K) = val 0 := rfl
theorem val_const (q : ℚ) : (GoConst.const q : Chk K) = val (q : K) := rfl
end Chk

/-- the vector as checked scalars -/
def chkV (v : R3.Vector K) : R3.Vector (Chk K) := ⟨.val v.X, .val v.Y, .val v.Z⟩

/-- C13: with checked division the radius is infinite exactly for collinear points, and otherwise it is defined -/
theorem C13_checked_radius (a b c : R3.Vector K) :
    (circumradius (chkV a) (chkV b) (chkV c) = none ↔ Collinear3 a b c) ∧
    (¬ Collinear3 a b c → ∀ o R, Circumcircle a b c o R → circumradius (chkV a) (chkV b) (chkV c) = some (.val R)) := by
  by_cases h : Collinear3 a b c
  · have hd : (b.X - a.X) * (c.Y - a.Y) - (b.Y - a.Y) * (c.X - a.X) = 0 := (ccw_zero_iff a b c).mpr h
    refine ⟨iff_of_true ?_ h, fun h' => absurd h h'⟩
    unfold circumradius chkV
    simp only [Chk.val_add, Chk.val_sub, Chk.val_mul, Chk.val_zero, Chk.val_beq, hd, decide_true, Bool.or_true, Bool.true_or, if_true]
  · have hd : (b.X - a.X) * (c.Y - a.Y) - (b.Y - a.Y) * (c.X - a.X) ≠ 0 := fun e => h ((ccw_zero_iff a b c).mp e)
    have key : circumradius (chkV a) (chkV b) (chkV c) = (circumradius a b c).map .val := by
      unfold circumradius chkV
      simp only [Chk.val_add, Chk.val_sub, Chk.val_mul, Chk.val_zero, Chk.val_beq, Chk.val_const, Chk.val_div _ hd]
      simp only [Bool.or_eq_true, decide_eq_true_eq, beq_iff_eq]
      show ite _ _ _ = Option.map _ (ite _ _ _)
      rw [apply_ite (Option.map _)]
      rfl
    obtain ⟨h1, h2⟩ := C13_circumradius a b c
    rw [key]
    refine ⟨?_, fun h' o R hc => by rw [h2 h' o R hc]; rfl⟩
    rw [Option.map_eq_none_iff]
    exact h1

/-- C13: with checked division the circumcentre of points not on a line is defined, and it is the centre -/
theorem C13_checked_center (a b c : R3.Vector K) (h : ¬ Collinear3 a b c) :
    ∃ o : R3.Vector K, circumcenter (chkV a) (chkV b) (chkV c) = chkV o ∧ Circumcircle a b c o (e2 a o) := by
  have hd : (b.X - a.X) * (c.Y - a.Y) - (b.Y - a.Y) * (c.X - a.X) ≠ 0 := fun e => h ((ccw_zero_iff a b c).mp e)
  refine ⟨circumcenter a b c, ?_, C13_circumcenter a b c h⟩
  unfold circumcenter chkV
  simp only [Chk.val_add, Chk.val_sub, Chk.val_mul, Chk.val_const, Chk.val_div _ hd]
  rfl

example : ¬ Collinear3 (⟨0, 0, 0⟩ : R3.Vector ℚ) ⟨1, 0, 0⟩ ⟨0, 1, 0⟩ := by
  rw [← ccw_zero_iff]; simp [ccw]

end Verif.Props
