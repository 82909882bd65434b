import Verif.Go.Res
import Verif.Go.Scalar
/-!
# Model of package `r3`

All definitions are polymorphic in the scalar type `F` (Go: `float64`); the arithmetic is written in the
order of the Go text. A method on a pointer receiver becomes a function returning the new receiver.
-/
namespace Verif.R3
open Verif

/-- r3/vector.go:8-10 `type Vector struct { X, Y, Z float64 }` -/
@[ext] structure Vector (F : Type u) where
  X : F
  Y : F
  Z : F
  deriving DecidableEq, Repr

variable {F : Type u}

/-- r3/vector.go:15-21 `createVector` -/
def createVector [Sub F] (a b : Vector F) : Vector F :=
  ⟨a.X - b.X, a.Y - b.Y, a.Z - b.Z⟩

/-- r3/vector.go:104 `Dot` -/
def Dot [Add F] [Mul F] (v ov : Vector F) : F := v.X*ov.X + v.Y*ov.Y + v.Z*ov.Z

/-- r3/vector.go:24 `Norm` -/
def Vector.Norm [Add F] [Mul F] [GoSqrt F] (v : Vector F) : F := GoSqrt.sqrt (Dot v v)

/-- r3/vector.go:27 `Norm2` -/
def Vector.Norm2 [Add F] [Mul F] (v : Vector F) : F := Dot v v

/-- r3/vector.go:68-73 the in-place method `Scale`: the new value of the receiver -/
def Vector.scaleM [Mul F] (v : Vector F) (f : F) : Vector F :=
  let v := { v with X := f * v.X }
  let v := { v with Y := f * v.Y }
  let v := { v with Z := f * v.Z }
  v

/-- r3/vector.go:76 `Scaled` -/
def Vector.Scaled [Mul F] (v : Vector F) (f : F) : Vector F := ⟨f * v.X, f * v.Y, f * v.Z⟩

/-- r3/vector.go:30-37 the in-place method `Normalize`: the new value of the receiver.
Note that the zero branch does not return. -/
def Vector.normalizeM [Add F] [Mul F] [Div F] [GoSqrt F] [BEq F] [OfNat F 0] [OfNat F 1]
    (v : Vector F) : Vector F :=
  let n2 := v.Norm2
  let v := if n2 == (0 : F) then (⟨0, 0, 0⟩ : Vector F) else v
  v.scaleM (1 / GoSqrt.sqrt n2)

/-- r3/vector.go:40-46 `Normalize` -/
def Normalize [Add F] [Mul F] [Div F] [GoSqrt F] [BEq F] [OfNat F 0] [OfNat F 1]
    (v : Vector F) : Vector F :=
  let n2 := v.Norm2
  if n2 == (0 : F) then ⟨0, 0, 0⟩ else v.Scaled (1 / GoSqrt.sqrt n2)

/-- r3/vector.go:49-52 `IsUnit`; with the untyped constant `epsilon = 5e-14` -/
def Vector.IsUnit [Add F] [Mul F] [Sub F] [GoAbs F] [LE F] [DecidableLE F] [OfNat F 1] [GoConst F]
    (v : Vector F) : Bool :=
  decide (GoAbs.abs (v.Norm2 - 1) ≤ GoConst.const (5 / 10^14))

/-- r3/vector.go:55-59 the in-place method `Abs` -/
def Vector.absM [GoAbs F] (v : Vector F) : Vector F :=
  let v := { v with X := GoAbs.abs v.X }
  let v := { v with Y := GoAbs.abs v.Y }
  let v := { v with Z := GoAbs.abs v.Z }
  v

/-- r3/vector.go:61-65 `Abs` -/
def Abs [GoAbs F] (v : Vector F) : Vector F := ⟨GoAbs.abs v.X, GoAbs.abs v.Y, GoAbs.abs v.Z⟩

/-- r3/vector.go:79-84 the in-place method `Add` -/
def Vector.addM [Add F] (v ov : Vector F) : Vector F :=
  let v := { v with X := v.X + ov.X }
  let v := { v with Y := v.Y + ov.Y }
  let v := { v with Z := v.Z + ov.Z }
  v

/-- r3/vector.go:87-89 `Add` -/
def Add [Add F] (v ov : Vector F) : Vector F := ⟨v.X + ov.X, v.Y + ov.Y, v.Z + ov.Z⟩

/-- r3/vector.go:92-96 the in-place method `Sub` -/
def Vector.subM [Sub F] (v ov : Vector F) : Vector F :=
  let v := { v with X := v.X - ov.X }
  let v := { v with Y := v.Y - ov.Y }
  let v := { v with Z := v.Z - ov.Z }
  v

/-- r3/vector.go:99-101 `Sub` -/
def Sub [Sub F] (v ov : Vector F) : Vector F := ⟨v.X - ov.X, v.Y - ov.Y, v.Z - ov.Z⟩

/-- r3/vector.go:107-109 `Cross` -/
def Cross [_root_.Sub F] [Mul F] (v ov : Vector F) : Vector F :=
  ⟨v.Y*ov.Z - ov.Y*v.Z, v.Z*ov.X - ov.Z*v.X, v.X*ov.Y - ov.X*v.Y⟩

/-- r3/plane.go:4-7 `type Plane struct` -/
structure Plane (F : Type u) where
  Normal : Vector F
  Distance : F

/-- r3/plane.go:9-11 `newPlane` -/
def newPlane [_root_.Add F] [Mul F] [Neg F] (normal origin : Vector F) : Plane F :=
  ⟨normal, -(Dot normal origin)⟩

/-- r3/plane.go:12-21 `calculateNormal` (the receiver is not used) -/
def calculateNormal [_root_.Sub F] [Mul F] (a b c : Vector F) : Vector F :=
  let U := createVector b a
  let V := createVector c a
  ⟨U.Y*V.Z - U.Z*V.Y, U.Z*V.X - U.X*V.Z, U.X*V.Y - U.Y*V.X⟩

/-- r3/vector.go:112 `CalculateDistanceToPlane` (the field `Distance` of the plane is not read) -/
def Vector.CalculateDistanceToPlane [_root_.Add F] [Mul F] (v : Vector F) (p : Plane F) : F :=
  Dot p.Normal v + p.Normal.Norm2

/-- r3/vector.go:114-116 `det2D` -/
def det2D [_root_.Sub F] [Mul F] (a b : Vector F) : F := a.X*b.Y - a.Y*b.X

/-- r3/vector.go:119-128 `GetInterpolationVector` -/
def Vector.GetInterpolationVector [_root_.Add F] [_root_.Sub F] [Mul F] [OfNat F 1]
    (v b : Vector F) (divisor : F) : Vector F :=
  ⟨v.X*divisor + b.X*(1-divisor), v.Y*divisor + b.Y*(1-divisor), v.Z*divisor + b.Z*(1-divisor)⟩

/-- r3/vector.go:136-138 `SquaredMagnitude` -/
def Vector.SquaredMagnitude [_root_.Add F] [Mul F] (v : Vector F) : F := Dot v v

/-- r3/vector.go:131-133 `Magnitude` -/
def Vector.Magnitude [_root_.Add F] [Mul F] [GoSqrt F] (v : Vector F) : F :=
  GoSqrt.sqrt v.SquaredMagnitude

/-- r3/vector.go:141-144 `Distance` -/
def Distance [_root_.Add F] [_root_.Sub F] [Mul F] [GoSqrt F] (v ov : Vector F) : F :=
  (Sub v ov).Norm

/-- r3/vector.go:147-150 `SquaredDistance` -/
def SquaredDistance [_root_.Add F] [_root_.Sub F] [Mul F] (v ov : Vector F) : F :=
  (Sub v ov).Norm2

/-- r3/vector.go:153-160 `Interpolate` (pointers `a`, `b` are only read; nil pointers are not modelled) -/
def Interpolate [_root_.Add F] [_root_.Sub F] [Mul F] [OfNat F 1] (a b : Vector F) (t : F) : Vector F :=
  let t1 := 1 - t
  ⟨a.X*t1 + b.X*t, a.Y*t1 + b.Y*t, a.Z*t1 + b.Z*t⟩

/-- r3/line.go:3-6 `type Line struct` -/
structure Line (F : Type u) where
  point : Vector F
  Direction : Vector F

/-- r3/line.go:8-11 `type Plane3D struct` -/
structure Plane3D (F : Type u) where
  Normal : Vector F
  point : Vector F

/-- r3/line.go:13-20 `IntersectPlane`: panics when the dot product is zero. -/
def Line.IntersectPlane [_root_.Add F] [_root_.Sub F] [Mul F] [Div F] [GoSqrt F] [BEq F]
    [OfNat F 0] [OfNat F 1] (line : Line F) (plane : Plane3D F) : Res (Vector F) :=
  if Dot plane.Normal (Normalize line.Direction) == (0 : F) then .panic
  else
    let t := (Dot plane.Normal plane.point - Dot plane.Normal line.point) /
      (Dot plane.Normal (Normalize line.Direction))
    .ok (Add line.point ((Normalize line.Direction).Scaled t))

end Verif.R3
