import Verif.Model.Fused
import Verif.Model.Tri3
/-!
# The point-in-tetrahedron test with fused multiply-adds

The answers `SameSide` and `VectorInTetrahedron` of triangulate3/util.go (the same text as in meshing/util.go) may give if the compiler fuses some of the products.
-/
namespace Verif.Tri3
open Verif Verif.R3 Verif.Tri2

/-- triangulate3/util.go:6-11 the dot product of the normal of the plane through `v1`, `v2`, `v3` with the direction to `q`; the normal may be fused differently in the two dot products -/
def SideEv (v1 v2 v3 q : Vector F64) (d : F64) : Prop :=
  Ev (Dot (Cross (Sub (lf v2) (lf v1)) (Sub (lf v3) (lf v1))) (Sub (lf q) (lf v1))) d

/-- triangulate3/util.go:5-18 `SameSide` -/
def SameSideEv (v1 v2 v3 v4 p : Vector F64) (b : Bool) : Prop :=
  ∃ dotV4 dotP, SideEv v1 v2 v3 v4 dotV4 ∧ SideEv v1 v2 v3 p dotP ∧
    b = if dotV4 ≤ 0 ∧ dotP ≤ 0 then true else if 0 ≤ dotV4 ∧ 0 ≤ dotP then true else false

/-- triangulate3/util.go:20-25 `VectorInTetrahedron` -/
def VectorInTetrahedronEv (v1 v2 v3 v4 p : Vector F64) (b : Bool) : Prop :=
  ∃ b1 b2 b3 b4, SameSideEv v1 v2 v3 v4 p b1 ∧ SameSideEv v2 v3 v4 v1 p b2 ∧ SameSideEv v3 v4 v1 v2 p b3 ∧ SameSideEv v4 v1 v2 v3 p b4 ∧
    b = (b1 && b2 && b3 && b4)

end Verif.Tri3
