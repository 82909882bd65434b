import Verif.Go.Fma
import Verif.Model.Delaunator
import Verif.Model.Predicates
/-!
# The triangulator compiled with fused multiply-adds

`TriangulateA A` is `Triangulate` (Model/Delaunator.lean) with the values of its float64 formulas taken from `A`, one entry for every place where the Go
code evaluates such a formula (the two tests `area < 0` of triangulator.go:219 and 229 share one). `Fused A` says that every entry is a value which the Go
specification allows for the formula of the code: the formulas are those of the model, evaluated at the scalar type of expressions. Not covered by `A`
are the parts of the code without a product next to a sum: the bounds and the middle (60-82), `pseudoAngle` and `hashKey`.
-/
namespace Verif.Tri2
open Verif Verif.R3

/-- the float64 values of the formulas of package triangulate2 -/
structure Arith where
  /-- triangulator.go:87 -/
  sqMid : Vector F64 → Vector F64 → F64
  /-- triangulator.go:100 -/
  sqSeed : Vector F64 → Vector F64 → F64
  /-- triangulator.go:113 -/
  radius : Vector F64 → Vector F64 → Vector F64 → Option F64
  /-- triangulator.go:124 -/
  areaSwap : Vector F64 → Vector F64 → Vector F64 → F64
  /-- triangulator.go:128 -/
  center : Vector F64 → Vector F64 → Vector F64 → Vector F64
  /-- triangulator.go:133 -/
  sqCenter : Vector F64 → Vector F64 → F64
  /-- triangulator.go:170 -/
  sqPrev : Vector F64 → Vector F64 → F64
  /-- triangulator.go:196 -/
  areaGe : Vector F64 → Vector F64 → Vector F64 → F64
  /-- triangulator.go:219 and 229 -/
  areaLt : Vector F64 → Vector F64 → Vector F64 → F64
  /-- triangulator.go:312 -/
  inDet : Vector F64 → Vector F64 → Vector F64 → Vector F64 → F64

namespace Arith

/-- nothing is fused -/
def plain : Arith where
  sqMid := SquaredDistance
  sqSeed := SquaredDistance
  radius := circumradius
  areaSwap := area
  center := circumcenter
  sqCenter := SquaredDistance
  sqPrev := SquaredDistance
  areaGe := area
  areaLt := area
  inDet := inCircleDet

variable (A : Arith)

/-- the predicates of the main loop -/
def geo (hashLen : Nat) (center : Vector F64) : Geo (Vector F64) where
  areaGe a b c := decide (0 ≤ A.areaGe a b c)
  areaLt a b c := decide (A.areaLt a b c < 0)
  inC a b c p := decide (A.inDet a b c p < 0)
  near p q := decide (A.sqPrev p q < eps)
  key := hashKey hashLen center

/-- triangulator.go:83-92 -/
def seed0 (Vs : List (Vector F64)) (m : Vector F64) : Nat :=
  (Vs.zipIdx.foldl (fun (acc : Nat × Option F64) pi =>
    let d := A.sqMid pi.1 m
    if ltInf d acc.2 then (pi.2, some d) else acc) (0, none)).1

/-- triangulator.go:94-105 -/
def seed1 (Vs : List (Vector F64)) (i0 : Nat) (p0 : Vector F64) : Nat :=
  (Vs.zipIdx.foldl (fun (acc : Nat × Option F64) pi =>
    if pi.2 = i0 then acc
    else
      let d := A.sqSeed pi.1 p0
      if decide ((0 : F64) < d) && ltInf d acc.2 then (pi.2, some d) else acc) (0, none)).1

/-- triangulator.go:107-118 -/
def seed2 (Vs : List (Vector F64)) (i0 i1 : Nat) (p0 p1 : Vector F64) : Nat × Option F64 :=
  Vs.zipIdx.foldl (fun (acc : Nat × Option F64) pi =>
    if pi.2 = i0 ∨ pi.2 = i1 then acc
    else match A.radius p0 p1 pi.1 with
      | none => acc
      | some r => if ltInf r acc.2 then (pi.2, some r) else acc) (0, none)

/-- triangulator.go:36-48 -/
def idLess (center p1 p2 : Vector F64) : Bool :=
  let d1 := A.sqCenter p1 center
  let d2 := A.sqCenter p2 center
  if d1 != d2 then decide (d1 < d2)
  else if p1.X != p2.X then decide (p1.X < p2.X)
  else decide (p1.Y < p2.Y)

/-- triangulator.go:60-128: the seeds and the centre, `none` for the error return -/
def seeds (Vs : List (Vector F64)) : Res (Option (Nat × Nat × Nat × Vector F64)) := do
  let (x0, x1, y0, y1) ← bounds Vs
  let m : Vector F64 := ⟨(x0 + x1) / 2, (y0 + y1) / 2, 0⟩
  let i0 := A.seed0 Vs m
  let p0 ← goGet Vs i0
  let i1 := A.seed1 Vs i0 p0
  let p1 ← goGet Vs i1
  let (i2, minRadius) := A.seed2 Vs i0 i1 p0 p1
  match minRadius with
  | none => pure none
  | some _ => do
    let p2 ← goGet Vs i2
    let (i1, i2) := if A.areaSwap p0 p1 p2 < (0 : F64) then (i2, i1) else (i1, i2)
    let p1 ← goGet Vs i1
    let p2 ← goGet Vs i2
    pure (some (i0, i1, i2, A.center p0 p1 p2))

end Arith

/-- triangulate2/triangulation.go:17-21 with triangulator.go:50-247 -/
def TriangulateA (A : Arith) (srt : (center : Vector F64) → List Int → List Int) (hashSize : Nat → Nat) (fuel : Nat)
    (Vs : List (Vector F64)) : Res (TriOut F64) := do
  let n := Vs.length
  if n = 0 then pure (.triangulation [] [] [])
  else do
    match ← A.seeds Vs with
    | none => pure .noTriangulation
    | some (i0, i1, i2, center) => do
      let ids := srt center ((List.range n).map Int.ofNat)
      let s ← triangulateCore (A.geo (hashSize n) center) Vs fuel (hashSize n) i0 i1 i2 ids
      let hull ← hullWalk Vs s fuel s.hull []
      pure (.triangulation hull s.triangles s.halfedges)

/-- without fusing it is `Triangulate` -/
theorem triangulateA_plain (srt : (center : Vector F64) → List Int → List Int) (hashSize : Nat → Nat) (fuel : Nat) (Vs : List (Vector F64)) :
    TriangulateA Arith.plain srt hashSize fuel Vs = Triangulate srt hashSize fuel Vs := by
  unfold TriangulateA Triangulate
  dsimp only
  by_cases hn : Vs.length = 0
  · rw [if_pos hn, if_pos hn]
  · rw [if_neg hn, if_neg hn]
    unfold Arith.seeds
    have e0 : ∀ m, Arith.plain.seed0 Vs m = Tri2.seed0 Vs m := fun _ => rfl
    have e1 : ∀ i p, Arith.plain.seed1 Vs i p = Tri2.seed1 Vs i p := fun _ _ => rfl
    have e2 : ∀ i j p q, Arith.plain.seed2 Vs i j p q = Tri2.seed2 Vs i j p q := by
      intro i j p q
      unfold Arith.seed2 Tri2.seed2
      congr 1
      funext acc pi
      have : Arith.plain.radius p q pi.1 = circumradius p q pi.1 := rfl
      rw [this]
      cases circumradius p q pi.1 <;> rfl
    simp only [e0, e1, e2]
    cases bounds Vs with
    | panic => rfl
    | fuel => rfl
    | ok b =>
      obtain ⟨x0, x1, y0, y1⟩ := b
      simp only [Res.bind_ok]
      generalize Tri2.seed0 Vs ⟨(x0 + x1) / 2, (y0 + y1) / 2, 0⟩ = i0
      cases goGet Vs (i0 : Int) with
      | panic => rfl
      | fuel => rfl
      | ok p0 =>
        simp only [Res.bind_ok]
        generalize Tri2.seed1 Vs i0 p0 = i1
        cases goGet Vs (i1 : Int) with
        | panic => rfl
        | fuel => rfl
        | ok p1 =>
          simp only [Res.bind_ok]
          obtain ⟨i2, r⟩ := Tri2.seed2 Vs i0 i1 p0 p1
          cases r with
          | none => rfl
          | some r =>
            dsimp only
            cases goGet Vs (i2 : Int) with
            | panic => rfl
            | fuel => rfl
            | ok p2 =>
              simp only [Res.bind_ok]
              have e3 : Arith.plain.areaSwap p0 p1 p2 = area p0 p1 p2 := rfl
              rw [e3]
              obtain ⟨j1, j2⟩ := (if area p0 p1 p2 < (0 : F64) then (i2, i1) else (i1, i2))
              dsimp only
              cases goGet Vs (j1 : Int) with
              | panic => rfl
              | fuel => rfl
              | ok q1 =>
                simp only [Res.bind_ok]
                cases goGet Vs (j2 : Int) with
                | panic => rfl
                | fuel => rfl
                | ok q2 => rfl

/-! ## The formulas -/

/-- the terms of util.go:47-67 that the tests of `circumradius` look at: `bl`, `cl`, `d` and `r` -/
def radiusTerms {F : Type} [_root_.Add F] [_root_.Sub F] [Mul F] [Div F] [GoConst F] (a b c : Vector F) : F × F × F × F :=
  let dx := b.X - a.X
  let dy := b.Y - a.Y
  let ex := c.X - a.X
  let ey := c.Y - a.Y
  let bl := dx*dx + dy*dy
  let cl := ex*ex + ey*ey
  let d := dx*ey - dy*ex
  let x := (ey*bl - dy*cl) * GoConst.const (1/2) / d
  let y := (dx*cl - ex*bl) * GoConst.const (1/2) / d
  (bl, cl, d, x*x + y*y)

/-- the result of `circumradius` from these terms -/
def radiusOf (bl cl d r : F64) : Option F64 := if bl == (0 : F64) || cl == (0 : F64) || d == (0 : F64) || r == (0 : F64) then none else some r

theorem circumradius_terms (a b c : Vector F64) :
    circumradius a b c = radiusOf (radiusTerms a b c).1 (radiusTerms a b c).2.1 (radiusTerms a b c).2.2.1 (radiusTerms a b c).2.2.2 := rfl

/-- the expressions of the coordinates -/
def lf (v : Vector F64) : Vector (Expr F64) := ⟨.leaf v.X, .leaf v.Y, .leaf v.Z⟩

/-- every value is one that the formula of the code may have with some of the products fused -/
structure Fused (A : Arith) : Prop where
  sqMid : ∀ u v, Ev (SquaredDistance (lf u) (lf v)) (A.sqMid u v)
  sqSeed : ∀ u v, Ev (SquaredDistance (lf u) (lf v)) (A.sqSeed u v)
  radius : ∀ u v w, ∃ bl cl d r, Ev (radiusTerms (lf u) (lf v) (lf w)).1 bl ∧ Ev (radiusTerms (lf u) (lf v) (lf w)).2.1 cl ∧
    Ev (radiusTerms (lf u) (lf v) (lf w)).2.2.1 d ∧ Ev (radiusTerms (lf u) (lf v) (lf w)).2.2.2 r ∧ A.radius u v w = radiusOf bl cl d r
  areaSwap : ∀ u v w, Ev (area (lf u) (lf v) (lf w)) (A.areaSwap u v w)
  center : ∀ u v w, Ev (circumcenter (lf u) (lf v) (lf w)).X (A.center u v w).X ∧ Ev (circumcenter (lf u) (lf v) (lf w)).Y (A.center u v w).Y ∧
    Ev (circumcenter (lf u) (lf v) (lf w)).Z (A.center u v w).Z
  sqCenter : ∀ u v, Ev (SquaredDistance (lf u) (lf v)) (A.sqCenter u v)
  sqPrev : ∀ u v, Ev (SquaredDistance (lf u) (lf v)) (A.sqPrev u v)
  areaGe : ∀ u v w, Ev (area (lf u) (lf v) (lf w)) (A.areaGe u v w)
  areaLt : ∀ u v w, Ev (area (lf u) (lf v) (lf w)) (A.areaLt u v w)
  inDet : ∀ u v w p, Ev (inCircleDet (lf u) (lf v) (lf w) (lf p)) (A.inDet u v w p)

/-- nothing has to be fused -/
theorem plain_fused : Fused Arith.plain where
  sqMid _ _ := Ev.eval _
  sqSeed _ _ := Ev.eval _
  radius _ _ _ := ⟨_, _, _, _, Ev.eval _, Ev.eval _, Ev.eval _, Ev.eval _, rfl⟩
  areaSwap _ _ _ := Ev.eval _
  center _ _ _ := ⟨Ev.eval _, Ev.eval _, Ev.eval _⟩
  sqCenter _ _ := Ev.eval _
  sqPrev _ _ := Ev.eval _
  areaGe _ _ _ := Ev.eval _
  areaLt _ _ _ := Ev.eval _
  inDet _ _ _ _ := Ev.eval _

/-- everything is fused that can be -/
def Arith.fuse : Arith where
  sqMid u v := (SquaredDistance (lf u) (lf v)).fuse
  sqSeed u v := (SquaredDistance (lf u) (lf v)).fuse
  radius u v w :=
    let t := radiusTerms (lf u) (lf v) (lf w)
    radiusOf t.1.fuse t.2.1.fuse t.2.2.1.fuse t.2.2.2.fuse
  areaSwap u v w := (area (lf u) (lf v) (lf w)).fuse
  center u v w :=
    let c := circumcenter (lf u) (lf v) (lf w)
    ⟨c.X.fuse, c.Y.fuse, c.Z.fuse⟩
  sqCenter u v := (SquaredDistance (lf u) (lf v)).fuse
  sqPrev u v := (SquaredDistance (lf u) (lf v)).fuse
  areaGe u v w := (area (lf u) (lf v) (lf w)).fuse
  areaLt u v w := (area (lf u) (lf v) (lf w)).fuse
  inDet u v w p := (inCircleDet (lf u) (lf v) (lf w) (lf p)).fuse

theorem fuse_fused : Fused Arith.fuse where
  sqMid _ _ := Ev.fuse _
  sqSeed _ _ := Ev.fuse _
  radius _ _ _ := ⟨_, _, _, _, Ev.fuse _, Ev.fuse _, Ev.fuse _, Ev.fuse _, rfl⟩
  areaSwap _ _ _ := Ev.fuse _
  center _ _ _ := ⟨Ev.fuse _, Ev.fuse _, Ev.fuse _⟩
  sqCenter _ _ := Ev.fuse _
  sqPrev _ _ := Ev.fuse _
  areaGe _ _ _ := Ev.fuse _
  areaLt _ _ _ := Ev.fuse _
  inDet _ _ _ _ := Ev.fuse _

end Verif.Tri2

namespace Verif.Predicates
open Verif Verif.R3

/-- predicates/insphere.go:45-113: the determinant and the error bound that it is compared with -/
def inSphereTerms {F : Type} [_root_.Add F] [_root_.Sub F] [Mul F] [GoAbs F] [GoConst F] (ax ay az bx by' bz cx cy cz dx dy dz ex ey ez : F) : F × F :=
  let aex := ax - ex
  let bex := bx - ex
  let cex := cx - ex
  let dex := dx - ex
  let aey := ay - ey
  let bey := by' - ey
  let cey := cy - ey
  let dey := dy - ey
  let aez := az - ez
  let bez := bz - ez
  let cez := cz - ez
  let dez := dz - ez
  let aexbey := aex * bey
  let bexaey := bex * aey
  let ab := aexbey - bexaey
  let bexcey := bex * cey
  let cexbey := cex * bey
  let bc := bexcey - cexbey
  let cexdey := cex * dey
  let dexcey := dex * cey
  let cd := cexdey - dexcey
  let dexaey := dex * aey
  let aexdey := aex * dey
  let da := dexaey - aexdey
  let aexcey := aex * cey
  let cexaey := cex * aey
  let ac := aexcey - cexaey
  let bexdey := bex * dey
  let dexbey := dex * bey
  let bd := bexdey - dexbey
  let abc := aez*bc - bez*ac + cez*ab
  let bcd := bez*cd - cez*bd + dez*bc
  let cda := cez*da + dez*ac + aez*cd
  let dab := dez*ab + aez*bd + bez*da
  let alift := aex*aex + aey*aey + aez*aez
  let blift := bex*bex + bey*bey + bez*bez
  let clift := cex*cex + cey*cey + cez*cez
  let dlift := dex*dex + dey*dey + dez*dez
  let det := (clift*dab - dlift*abc) + (alift*bcd - blift*cda)
  let aezplus := GoAbs.abs aez
  let bezplus := GoAbs.abs bez
  let cezplus := GoAbs.abs cez
  let dezplus := GoAbs.abs dez
  let aexbeyplus := GoAbs.abs aexbey
  let bexaeyplus := GoAbs.abs bexaey
  let bexceyplus := GoAbs.abs bexcey
  let cexbeyplus := GoAbs.abs cexbey
  let cexdeyplus := GoAbs.abs cexdey
  let dexceyplus := GoAbs.abs dexcey
  let dexaeyplus := GoAbs.abs dexaey
  let aexdeyplus := GoAbs.abs aexdey
  let aexceyplus := GoAbs.abs aexcey
  let cexaeyplus := GoAbs.abs cexaey
  let bexdeyplus := GoAbs.abs bexdey
  let dexbeyplus := GoAbs.abs dexbey
  let permanent := ((cexdeyplus+dexceyplus)*bezplus+(dexbeyplus+bexdeyplus)*cezplus+(bexceyplus+cexbeyplus)*dezplus)*alift +
    ((dexaeyplus+aexdeyplus)*cezplus+(aexceyplus+cexaeyplus)*dezplus+(cexdeyplus+dexceyplus)*aezplus)*blift +
    ((aexbeyplus+bexaeyplus)*dezplus+(bexdeyplus+dexbeyplus)*aezplus+(dexaeyplus+aexdeyplus)*bezplus)*clift +
    ((bexceyplus+cexbeyplus)*aezplus+(cexaeyplus+aexceyplus)*bezplus+(aexbeyplus+bexaeyplus)*cezplus)*dlift
  (det, GoConst.const isperrboundA * permanent)

/-- the result of `inSphere` from these two -/
def inSphereOf (det errbound : F64) : F64 := if errbound < det ∨ errbound < -det then det else -0

theorem inSphere_terms (ax ay az bx by' bz cx cy cz dx dy dz ex ey ez : F64) :
    inSphere ax ay az bx by' bz cx cy cz dx dy dz ex ey ez =
      inSphereOf (inSphereTerms ax ay az bx by' bz cx cy cz dx dy dz ex ey ez).1 (inSphereTerms ax ay az bx by' bz cx cy cz dx dy dz ex ey ez).2 := rfl

end Verif.Predicates
