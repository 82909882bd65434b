import Verif.Model.R3
/-!
# Model of package `triangulate3` (util.go, gdel3d.go, englober.go) and of meshing/util.go

`tessellator.go` only prints and is not modelled.
-/
namespace Verif.Tri3
open Verif Verif.R3

variable {F : Type u}

/-- triangulate3/util.go:5-18 `SameSide`; meshing/util.go:12-24 `sameSide` is the same text -/
def SameSide [_root_.Add F] [_root_.Sub F] [Mul F] [LE F] [DecidableLE F] [OfNat F 0]
    (v1 v2 v3 v4 p : Vector F) : Bool :=
  let normal := Cross (Sub v2 v1) (Sub v3 v1)
  let dotV4 := Dot normal (Sub v4 v1)
  let dotP := Dot normal (Sub p v1)
  if dotV4 ≤ 0 ∧ dotP ≤ 0 then true
  else if 0 ≤ dotV4 ∧ 0 ≤ dotP then true
  else false

/-- triangulate3/util.go:20-25 `VectorInTetrahedron`; meshing/util.go:26-31 `vectorInTetrahedron` is the same text -/
def VectorInTetrahedron [_root_.Add F] [_root_.Sub F] [Mul F] [LE F] [DecidableLE F] [OfNat F 0]
    (v1 v2 v3 v4 p : Vector F) : Bool :=
  SameSide v1 v2 v3 v4 p && SameSide v2 v3 v4 v1 p && SameSide v3 v4 v1 v2 p && SameSide v4 v1 v2 v3 p

/-- triangulate3/util.go:27-32 `findCentroid`; meshing/util.go:5-10 is the same text -/
def findCentroid [_root_.Add F] [Div F] [OfNat F 4] (p0 p1 p2 p3 : Vector F) : Vector F :=
  ⟨(p0.X + p1.X + p2.X + p3.X) / 4, (p0.Y + p1.Y + p2.Y + p3.Y) / 4, (p0.Z + p1.Z + p2.Z + p3.Z) / 4⟩

/-- triangulate3/util.go:34-51 `Get2Ddist` -/
def Get2Ddist [_root_.Add F] [_root_.Sub F] [Mul F] (a b c : Vector F) : F :=
  let abx := b.X - a.X
  let aby := b.Y - a.Y
  let abz := b.Z - a.Z
  let acx := c.X - a.X
  let acy := c.Y - a.Y
  let acz := c.Z - a.Z
  let xy := abx*acy - aby*acx
  let yz := aby*acz - abz*acy
  let zx := abz*acx - abx*acz
  xy*xy + yz*yz + zx*zx

/-- triangulate3/util.go:53-72 `Get3Ddist` -/
def Get3Ddist [_root_.Add F] [_root_.Sub F] [Mul F] (a b c d : Vector F) : F :=
  let abx := b.X - a.X
  let aby := b.Y - a.Y
  let abz := b.Z - a.Z
  let acx := c.X - a.X
  let acy := c.Y - a.Y
  let acz := c.Z - a.Z
  let adx := d.X - a.X
  let ady := d.Y - a.Y
  let adz := d.Z - a.Z
  let bc := abx*acy - aby*acx
  let cd := acx*ady - acy*adx
  let db := adx*aby - ady*abx
  abz*cd + acz*db + adz*bc

/-- `math.MaxFloat32` = (2^24 - 1) * 2^104 -/
def maxFloat32 : ℚ := (2^24 - 1) * 2^104

/-- triangulate3/englober.go:60-88 `computeBoundingBoxForVectors` -/
def computeBoundingBoxForVectors [LT F] [DecidableLT F] [GoConst F] [Neg F]
    (Vs : List (Vector F)) : Vector F × Vector F :=
  let m : F := GoConst.const maxFloat32
  Vs.foldl (fun (acc : Vector F × Vector F) v =>
    let mn := acc.1
    let mx := acc.2
    let mn := if v.X < mn.X then { mn with X := v.X } else mn
    let mn := if v.Y < mn.Y then { mn with Y := v.Y } else mn
    let mn := if v.Z < mn.Z then { mn with Z := v.Z } else mn
    let mx := if mx.X < v.X then { mx with X := v.X } else mx
    let mx := if mx.Y < v.Y then { mx with Y := v.Y } else mx
    let mx := if mx.Z < v.Z then { mx with Z := v.Z } else mx
    (mn, mx)) (⟨m, m, m⟩, ⟨-m, -m, -m⟩)

/-- triangulate3/englober.go:52-58 `getTopVectorOfTetrahedron` -/
def getTopVectorOfTetrahedron [Mul F] [OfNat F 2] (mn mx : Vector F) : Vector F :=
  ⟨mn.X, 2 * mx.Y, mn.Z⟩

/-- triangulate3/englober.go:9-51 `constructEnglobingTetra`: the four vertices of the returned mesh
(the index list is the constant of lines 42-45, see `englobingIndices`). -/
def constructEnglobingTetra [_root_.Add F] [_root_.Sub F] [Mul F] [Div F] [Neg F] [GoSqrt F] [BEq F] [LT F]
    [DecidableLT F] [GoConst F] [OfNat F 0] [OfNat F 1] [OfNat F 2] (Vs : List (Vector F)) :
    Res (Vector F × Vector F × Vector F × Vector F) := do
  let offset : F := 1
  let (mn, mx) := computeBoundingBoxForVectors Vs
  let mn := mn.addM ⟨-offset, -offset, -offset⟩
  let mx := mx.addM ⟨offset, offset, offset⟩
  let normal : Vector F := ⟨0, 1, 0⟩
  let lowerPlane : Plane3D F := ⟨normal, mn⟩
  let top := getTopVectorOfTetrahedron mn mx
  let upperVector1 : Vector F := ⟨mn.X, mx.Y, mx.Z⟩
  let Direct1 := Sub top upperVector1
  let tetraPoint1 ← (Line.mk upperVector1 Direct1).IntersectPlane lowerPlane
  let upperVector2 : Vector F := ⟨mx.X, mx.Y, mx.Z⟩
  let Direct2 := Sub top upperVector2
  let tetraPoint2 ← (Line.mk upperVector2 Direct2).IntersectPlane lowerPlane
  let upperVector3 : Vector F := ⟨mx.X, mx.Y, mn.Z⟩
  let Direct3 := Sub top upperVector3
  let tetraPoint3 ← (Line.mk upperVector3 Direct3).IntersectPlane lowerPlane
  pure (top, tetraPoint1, tetraPoint2, tetraPoint3)

/-- triangulate3/englober.go:42-45 -/
def englobingIndices : List Nat := [0, 1, 2, 0, 2, 3, 0, 3, 1, 1, 2, 3]

/-- triangulate3/gdel3d.go:46-63 `computeExtremitiesForAxeX` -/
def computeExtremitiesForAxeX [LT F] [DecidableLT F] [GoConst F] [Neg F]
    (Vs : List (Vector F)) : Vector F × Vector F :=
  let m : F := GoConst.const maxFloat32
  Vs.foldl (fun (acc : Vector F × Vector F) v =>
    let mn := if v.X < acc.1.X then v else acc.1
    let mx := if acc.2.X < v.X then v else acc.2
    (mn, mx)) (⟨m, m, m⟩, ⟨-m, -m, -m⟩)

/-- triangulate3/gdel3d.go:20-31 `getFurthestFromTwoVectors` -/
def getFurthestFromTwoVectors [_root_.Add F] [_root_.Sub F] [Mul F] [LT F] [DecidableLT F] [OfNat F 0]
    (Vs : List (Vector F)) (a b : Vector F) : Vector F :=
  (Vs.foldl (fun (acc : F × Vector F) v =>
    let dist := Get2Ddist a b v
    if acc.1 < dist then (dist, v) else acc) (0, ⟨0, 0, 0⟩)).2

/-- triangulate3/gdel3d.go:33-44 `getFurthestFromthreeVectors` (note the comparison `max > dist`) -/
def getFurthestFromthreeVectors [_root_.Add F] [_root_.Sub F] [Mul F] [LT F] [DecidableLT F] [OfNat F 0]
    (Vs : List (Vector F)) (a b c : Vector F) : Vector F :=
  (Vs.foldl (fun (acc : F × Vector F) v =>
    let dist := Get3Ddist a b c v
    if dist < acc.1 then (dist, v) else acc) (0, ⟨0, 0, 0⟩)).2

/-- triangulate3/gdel3d.go:10-19 `createInitialTetra` -/
def createInitialTetra [_root_.Add F] [_root_.Sub F] [Mul F] [Neg F] [LT F] [DecidableLT F] [GoConst F]
    [OfNat F 0] (Vs : List (Vector F)) : List (Vector F) :=
  let (v0, v1) := computeExtremitiesForAxeX Vs
  let v2 := getFurthestFromTwoVectors Vs v0 v1
  let v3 := getFurthestFromthreeVectors Vs v0 v1 v2
  [v0, v1, v2, v3]

end Verif.Tri3
