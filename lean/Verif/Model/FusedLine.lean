import Verif.Go.Fma
import Verif.Model.R3
/-!
# Normalisation and the intersection of a line and a plane with fused multiply-adds

The results the functions of r3/vector.go and r3/line.go may return if the compiler fuses some of the products with the following addition (see `Verif.Go.Fma`).
The three calls of `Normalize` in `IntersectPlane` may be inlined and fused differently, so each has its own result.
-/
namespace Verif.R3
open Verif

/-- a vector of float64 variables -/
def leafs (v : Vector F64) : Vector (Expr F64) := ⟨.leaf v.X, .leaf v.Y, .leaf v.Z⟩

/-- r3/vector.go:24 `Norm`: `n` is a length the program may compute for `v` -/
def NormEv (v : Vector F64) (n : F64) : Prop := ∃ n2, Ev (Dot (leafs v) (leafs v)) n2 ∧ n = GoSqrt.sqrt n2

/-- r3/vector.go:40-46 `Normalize`: `w` is a vector the program may compute for `v` -/
def NormalizeEv (v w : Vector F64) : Prop :=
  ∃ n2, Ev (leafs v).Norm2 n2 ∧ w = if n2 == (0 : F64) then ⟨0, 0, 0⟩ else v.Scaled (1 / GoSqrt.sqrt n2)

/-- r3/vector.go:141-144 `Distance`: the distances the program may compute; the differences are operands of products and not fused -/
def DistanceEv (v ov : Vector F64) (n : F64) : Prop := NormEv (Sub v ov) n

/-- r3/vector.go:49-52 `IsUnit`: the answers the program may give -/
def IsUnitEv (v : Vector F64) (b : Bool) : Prop :=
  ∃ a, Ev (GoAbs.abs ((leafs v).Norm2 - 1)) a ∧ b = decide (a ≤ GoConst.const (5 / 10 ^ 14))

/-- r3/line.go:13-20 `IntersectPlane`: the outcomes the program may have -/
inductive IntersectEv (line : Line F64) (plane : Plane3D F64) : Res (Vector F64) → Prop where
  | panic {w c} : NormalizeEv line.Direction w → Ev (Dot (leafs plane.Normal) (leafs w)) c → (c == (0 : F64)) = true → IntersectEv line plane .panic
  | ok {w c w' num den w'' r} : NormalizeEv line.Direction w → Ev (Dot (leafs plane.Normal) (leafs w)) c → ¬ (c == (0 : F64)) = true →
      Ev (Dot (leafs plane.Normal) (leafs plane.point) - Dot (leafs plane.Normal) (leafs line.point)) num →
      NormalizeEv line.Direction w' → Ev (Dot (leafs plane.Normal) (leafs w')) den → NormalizeEv line.Direction w'' →
      Ev (Add (leafs line.point) ((leafs w'').Scaled (.leaf (num / den)))).X r.X →
      Ev (Add (leafs line.point) ((leafs w'').Scaled (.leaf (num / den)))).Y r.Y →
      Ev (Add (leafs line.point) ((leafs w'').Scaled (.leaf (num / den)))).Z r.Z → IntersectEv line plane (.ok r)

end Verif.R3
