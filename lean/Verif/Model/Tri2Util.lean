import Verif.Model.R3
/-!
# Model of triangulate2/util.go
-/
namespace Verif.Tri2
open Verif Verif.R3

variable {F : Type u}

/-- triangulate2/util.go:8 `eps = math.Nextafter(1,2) - 1`, i.e. 2^-52 exactly. -/
def eps [GoConst F] : F := GoConst.const (1 / 2^52)

/-- triangulate2/util.go:12-20 `pseudoAngle` -/
def pseudoAngle [_root_.Add F] [_root_.Sub F] [Div F] [LT F] [DecidableLT F] [GoAbs F] [GoMinMax F]
    [GoConst F] [OfNat F 0] [OfNat F 1] [OfNat F 3] [OfNat F 4] (dx dy : F) : F :=
  let p := dx / (GoAbs.abs dx + GoAbs.abs dy)
  let p := if (0 : F) < dy then (3 - p) / 4 else (1 + p) / 4
  GoMinMax.max 0 (GoMinMax.min (1 - eps) p)

/-- triangulate2/util.go:22-24 `area` (twice the signed area, positive for clockwise triangles) -/
def area [_root_.Sub F] [Mul F] (a b c : Vector F) : F :=
  (b.Y-a.Y)*(c.X-b.X) - (b.X-a.X)*(c.Y-b.Y)

/-- triangulate2/util.go:27-45: the determinant whose sign `inCircle` tests -/
def inCircleDet [_root_.Add F] [_root_.Sub F] [Mul F] (a b c p : Vector F) : F :=
  let dx := a.X - p.X
  let dy := a.Y - p.Y
  let ex := b.X - p.X
  let ey := b.Y - p.Y
  let fx := c.X - p.X
  let fy := c.Y - p.Y
  let ap := dx*dx + dy*dy
  let bp := ex*ex + ey*ey
  let cp := fx*fx + fy*fy
  dx*(ey*cp-bp*fy)-dy*(ex*cp-bp*fx)+ap*(ex*fy-ey*fx)

/-- triangulate2/util.go:27-45 `inCircle` -/
def inCircle [_root_.Add F] [_root_.Sub F] [Mul F] [LT F] [DecidableLT F] [OfNat F 0]
    (a b c p : Vector F) : Bool :=
  decide (inCircleDet a b c p < 0)

/-- triangulate2/util.go:47-67 `circumradius` (the squared radius). `none` is the return value `infinity`
of line 63; the test of line 62 is evaluated on the same quantities. -/
def circumradius [_root_.Add F] [_root_.Sub F] [Mul F] [Div F] [BEq F] [OfNat F 0] [GoConst F]
    (a b c : Vector F) : Option F :=
  let dx := b.X - a.X
  let dy := b.Y - a.Y
  let ex := c.X - a.X
  let ey := c.Y - a.Y
  let bl := dx*dx + dy*dy
  let cl := ex*ex + ey*ey
  let d := dx*ey - dy*ex
  let x := (ey*bl - dy*cl) * GoConst.const (1/2) / d
  let y := (dx*cl - ex*bl) * GoConst.const (1/2) / d
  let r := x*x + y*y
  if bl == (0 : F) || cl == (0 : F) || d == (0 : F) || r == (0 : F) then none else some r

/-- triangulate2/util.go:69-83 `circumcenter` -/
def circumcenter [_root_.Add F] [_root_.Sub F] [Mul F] [Div F] [OfNat F 0] [GoConst F]
    (a b c : Vector F) : Vector F :=
  let dx := b.X - a.X
  let dy := b.Y - a.Y
  let ex := c.X - a.X
  let ey := c.Y - a.Y
  let bl := dx*dx + dy*dy
  let cl := ex*ex + ey*ey
  let d := dx*ey - dy*ex
  let x := a.X + (ey*bl-dy*cl)*GoConst.const (1/2)/d
  let y := a.Y + (dx*cl-ex*bl)*GoConst.const (1/2)/d
  ⟨x, y, 0⟩

/-- triangulate2/util.go:85-92 `polygonArea`: the loop over `i`, with `q = Vectors[(i+1)%len]`. -/
def polygonArea [_root_.Add F] [_root_.Sub F] [Mul F] [Div F] [OfNat F 0] [OfNat F 2]
    (Vs : List (Vector F)) : F :=
  let result := (List.finRange Vs.length).foldl (fun (result : F) i =>
    let p := Vs[i]
    let q := Vs[(i.1 + 1) % Vs.length]'(Nat.mod_lt _ (Nat.zero_lt_of_lt i.2))
    result + (p.X - q.X) * (p.Y + q.Y)) 0
  result / 2

/-- triangulate2/util.go:94-105 `polygonPerimeter`: `q` is the previous vertex, initially the last one. -/
def polygonPerimeter [_root_.Add F] [_root_.Sub F] [Mul F] [GoSqrt F] [OfNat F 0]
    (Vs : List (Vector F)) : F :=
  match Vs.getLast? with
  | none => 0
  | some last =>
    (Vs.foldl (fun (st : F × Vector F) p => (st.1 + Distance p st.2, p)) (0, last)).1

end Verif.Tri2
