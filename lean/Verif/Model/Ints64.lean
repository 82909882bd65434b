import Verif.Model.Nurbs64
import Verif.Model.Shape
import Verif.Model.Meshing
/-!
# Machine integers in packages `nurbs`, `shape` and `mesh`

The functions of `Model/Nurbs.lean`, `Model/Shape.lean` and `Model/Meshing.lean` that compute with `int`s, with a function `w` applied to every result of an
integer addition, subtraction, negation or multiplication. For `w = Tri2.wrap64` this is Go's arithmetic on a 64-bit machine.
-/
namespace Verif.Nurbs
open Verif Verif.R3

variable {F : Type} (w : ℤ → ℤ)

/-- nurbs/basis.go:55-59 -/
def basisInnerW [_root_.Add F] [Mul F] [Div F] (left right : List F) (j : ℤ) :
    (m : ℕ) → (r : ℤ) → (N : List F) → (saved : F) → Res (List F × F)
  | 0, _, N, saved => pure (N, saved)
  | m + 1, r, N, saved => do
    let nr ← goGet N r
    let rr ← goGet right (w (r+1))
    let lj ← goGet left (w (j-r))
    let temp := nr / (rr + lj)
    let N ← goSet N r (saved + rr*temp)
    let saved := lj * temp
    basisInnerW left right j m (w (r+1)) N saved

/-- nurbs/basis.go:51-61 -/
def basisOuterW [_root_.Add F] [_root_.Sub F] [Mul F] [Div F] [OfNat F 0] [GoOfInt F] (i : ℤ) (u : F) (U : List ℤ) :
    (m : ℕ) → (j : ℤ) → (left right N : List F) → Res (List F)
  | 0, _, _, _, N => pure N
  | m + 1, j, left, right, N => do
    let ul ← goGet U (w (w (i+1)-j))
    let left ← goSet left j (u - GoOfInt.ofInt ul)
    let ur ← goGet U (w (i+j))
    let right ← goSet right j (GoOfInt.ofInt ur - u)
    let (N, saved) ← basisInnerW w left right j j.toNat 0 N 0
    let N ← goSet N j saved
    basisOuterW i u U m (w (j+1)) left right N

/-- nurbs/basis.go:45-63 `basisFuns` -/
def basisFunsW [_root_.Add F] [_root_.Sub F] [Mul F] [Div F] [OfNat F 0] [OfNat F 1] [GoOfInt F]
    (i : ℤ) (u : F) (p : ℤ) (U : List ℤ) : Res (List F) := do
  if w (p + 1) < 0 then .panic
  else do
    let N : List F := List.replicate (w (p+1)).toNat 0
    let left : List F := List.replicate (w (p+1)).toNat 0
    let right : List F := List.replicate (w (p+1)).toNat 0
    let N ← goSet N 0 1
    basisOuterW w i u U p.toNat 1 left right N

/-- nurbs/curve.go:22-25 -/
def curveLoopW [_root_.Add F] [Mul F] (P : List (Vector F)) (N : List F) (base : ℤ) :
    (m : ℕ) → (i : ℤ) → (C : Vector F) → Res (Vector F)
  | 0, _, C => pure C
  | m + 1, i, C => do
    let pt ← goGet P (w (base + i))
    let wt ← goGet N i
    let B : Vector F := ⟨pt.X * wt, pt.Y * wt, pt.Z * wt⟩
    curveLoopW P N base m (w (i+1)) ⟨C.X + B.X, C.Y + B.Y, C.Z + B.Z⟩

/-- nurbs/curve.go:17-27 `curvePoint`; the loop is `for i := 0; i <= p; i++` -/
def curvePointW [_root_.Add F] [_root_.Sub F] [Mul F] [Div F] [LT F] [DecidableLT F] [LE F] [DecidableLE F]
    [BEq F] [OfNat F 0] [OfNat F 1] [GoOfInt F]
    (fuel : ℕ) (n p : ℤ) (U : List ℤ) (P : List (Vector F)) (u : F) : Res (Vector F) := do
  let span ← findSpanW w fuel n p u U
  let N ← basisFunsW w span u p U
  curveLoopW w P N (w (span - p)) (p+1).toNat 0 ⟨0, 0, 0⟩

/-- nurbs/basis.go:98-105 -/
def dersInnerW [_root_.Add F] [Mul F] [Div F] (left right : List F) (j : ℤ) :
    (m : ℕ) → (r : ℤ) → (ndu : List (List F)) → (saved : F) → Res (List (List F) × F)
  | 0, _, ndu, saved => pure (ndu, saved)
  | m + 1, r, ndu, saved => do
    let rr ← goGet right (w (r+1))
    let lj ← goGet left (w (j-r))
    let ndu ← set2 ndu j r (rr + lj)
    let x ← get2 ndu r (w (j-1))
    let y ← get2 ndu j r
    let temp := x / y
    let ndu ← set2 ndu r j (saved + rr*temp)
    let saved := lj * temp
    dersInnerW left right j m (w (r+1)) ndu saved

/-- nurbs/basis.go:94-107; the knot differences are integer subtractions -/
def dersOuterW [_root_.Add F] [Mul F] [Div F] [OfNat F 0] [GoOfInt F] (i u : ℤ) (U : List ℤ) :
    (m : ℕ) → (j : ℤ) → (left right : List F) → (ndu : List (List F)) → Res (List (List F))
  | 0, _, _, _, ndu => pure ndu
  | m + 1, j, left, right, ndu => do
    let ul ← goGet U (w (w (i+1)-j))
    let left ← goSet left j (GoOfInt.ofInt (w (u - ul)))
    let ur ← goGet U (w (i+1))
    let right ← goSet right j (GoOfInt.ofInt (w (ur - u)))
    let (ndu, saved) ← dersInnerW w left right j j.toNat 0 ndu 0
    let ndu ← set2 ndu j j saved
    dersOuterW i u U m (w (j+1)) left right ndu

/-- nurbs/basis.go:110-112 -/
def dersLoadW (p : ℤ) (ndu : List (List F)) : (m : ℕ) → (j : ℤ) → (ders : List (List F)) → Res (List (List F))
  | 0, _, ders => pure ders
  | m + 1, j, ders => do
    let x ← get2 ndu j p
    let ders ← set2 ders 0 j x
    dersLoadW p ndu m (w (j+1)) ders

/-- nurbs/basis.go:142-145 -/
def dersJW [_root_.Add F] [_root_.Sub F] [Mul F] [Div F] (ndu : List (List F)) (s1 s2 r rk pk : ℤ) :
    (m : ℕ) → (j : ℤ) → (a : List (List F)) → (d : F) → Res (List (List F) × F)
  | 0, _, a, d => pure (a, d)
  | m + 1, j, a, d => do
    let x ← get2 a s1 j
    let y ← get2 a s1 (w (j-1))
    let z ← get2 ndu (w (pk+1)) (w (rk+j))
    let a ← set2 a s2 j ((x - y) / z)
    let wt ← get2 a s2 j
    let v ← get2 ndu r pk
    dersJW ndu s1 s2 r rk pk m (w (j+1)) a (d + wt*v)

/-- nurbs/basis.go:122-155 -/
def dersKW [_root_.Add F] [_root_.Sub F] [Neg F] [Mul F] [Div F] [OfNat F 0] (ndu : List (List F)) (p r : ℤ) :
    (m : ℕ) → (k s1 s2 : ℤ) → (a ders : List (List F)) → Res (List (List F) × List (List F))
  | 0, _, _, _, a, ders => pure (a, ders)
  | m + 1, k, s1, s2, a, ders => do
    let rk := w (r - k)
    let pk := w (p - k)
    let (a, d) ← (if k ≤ r then do
        let x ← get2 a s1 0
        let y ← get2 ndu (w (pk+1)) rk
        let a ← set2 a s2 0 (x / y)
        let wt ← get2 a s2 0
        let v ← get2 ndu rk pk
        pure (a, wt*v)
      else pure (a, (0 : F)) : Res (List (List F) × F))
    let j1 : ℤ := if -1 ≤ rk then 1 else w (-rk)
    let j2 : ℤ := if w (r - 1) ≤ pk then w (k - 1) else w (p - r)
    let (a, d) ← dersJW w ndu s1 s2 r rk pk (j2 + 1 - j1).toNat j1 a d
    let (a, d) ← (if r ≤ pk then do
        let x ← get2 a s1 (w (k-1))
        let y ← get2 ndu (w (pk+1)) r
        let a ← set2 a s2 k (-x / y)
        let wt ← get2 a s2 k
        let v ← get2 ndu r pk
        pure (a, d + wt*v)
      else pure (a, d) : Res (List (List F) × F))
    let ders ← set2 ders k r d
    dersKW ndu p r m (w (k+1)) s2 s1 a ders

/-- nurbs/basis.go:116-156 -/
def dersRW [_root_.Add F] [_root_.Sub F] [Neg F] [Mul F] [Div F] [OfNat F 0] [OfNat F 1]
    (ndu : List (List F)) (p n : ℤ) : (m : ℕ) → (r : ℤ) → (a ders : List (List F)) → Res (List (List F))
  | 0, _, _, ders => pure ders
  | m + 1, r, a, ders => do
    let a ← set2 a 0 0 1
    let (a, ders) ← dersKW w ndu p r n.toNat 1 0 1 a ders
    dersRW ndu p n m (w (r+1)) a ders

/-- nurbs/basis.go:160-162 -/
def dersScaleRowW [Mul F] [GoOfInt F] (k r : ℤ) : (m : ℕ) → (j : ℤ) → (ders : List (List F)) → Res (List (List F))
  | 0, _, ders => pure ders
  | m + 1, j, ders => do
    let x ← get2 ders k j
    let ders ← set2 ders k j (x * GoOfInt.ofInt r)
    dersScaleRowW k r m (w (j+1)) ders

/-- nurbs/basis.go:159-164; `r *= (p - k)` is an integer product -/
def dersScaleW [Mul F] [GoOfInt F] (p : ℤ) : (m : ℕ) → (k r : ℤ) → (ders : List (List F)) → Res (List (List F))
  | 0, _, _, ders => pure ders
  | m + 1, k, r, ders => do
    let ders ← dersScaleRowW w k r (p+1).toNat 0 ders
    dersScaleW p m (w (k+1)) (w (r * w (p - k))) ders

/-- nurbs/basis.go:79-166 `dersBasisFuns` -/
def dersBasisFunsW [_root_.Add F] [_root_.Sub F] [Neg F] [Mul F] [Div F] [OfNat F 0] [OfNat F 1] [GoOfInt F]
    (i u p n : ℤ) (U : List ℤ) : Res (List (List F)) := do
  if w (p + 1) < 0 then .panic
  else do
    let sz := (w (p+1)).toNat
    let zeros : List (List F) := List.replicate sz (List.replicate sz 0)
    let vec : List F := List.replicate sz 0
    let ndu ← dersOuterW w i u U p.toNat 1 vec vec zeros
    let ders ← dersLoadW w p ndu sz 0 zeros
    let ders ← dersRW w ndu p n sz 0 zeros ders
    dersScaleW w p n.toNat 1 p ders

end Verif.Nurbs

namespace Verif.Shape
open Verif Verif.R3

variable {F : Type} (w : ℤ → ℤ)

/-- the values of `j` in `for ; j < n; j++` -/
def forLt (n : ℤ) : (fuel : ℕ) → (j : ℤ) → Res (List ℤ)
  | 0, _ => .fuel
  | fuel + 1, j => if j < n then do
      let r ← forLt n fuel (w (j+1))
      pure (j :: r)
    else pure []

/-- the values of `j` in `for ; j <= n; j++` -/
def forLe (n : ℤ) : (fuel : ℕ) → (j : ℤ) → Res (List ℤ)
  | 0, _ => .fuel
  | fuel + 1, j => if j ≤ n then do
      let r ← forLe n fuel (w (j+1))
      pure (j :: r)
    else pure []

/-- shape/sphere.go:48-73 the inner loop for stack `i` (`for j := 0; j <= sd.sectorCount; j++`) -/
def ringVerticesW [Mul F] [Div F] [GoTrig F] [GoOfInt F] (fuel : ℕ)
    (sectorCount stackCount : ℤ) (lengthInv xy z : F) (i : ℤ) : Res (List (VertexRec F)) := do
  let sectorStep : F := GoTrig.piMul 2 / GoOfInt.ofInt sectorCount
  let js ← forLe w sectorCount fuel 0
  loopRecs (fun j => do
    let sectorAngle : F := GoOfInt.ofInt j * sectorStep
    let x := xy * GoTrig.cos sectorAngle
    let y := xy * GoTrig.sin sectorAngle
    let nx := x * lengthInv
    let ny := y * lengthInv
    let nz := z * lengthInv
    let s ← goDiv j sectorCount
    let t ← goDiv i stackCount
    pure (⟨⟨x, y, z⟩, (nx, ny, nz), (GoOfInt.ofInt s, GoOfInt.ofInt t)⟩ : VertexRec F)) js

/-- shape/sphere.go:29-75 `generateVertices` -/
def Sphere.generateVerticesW [_root_.Sub F] [Mul F] [Div F] [OfNat F 1] [GoTrig F] [GoOfInt F]
    (fuel : ℕ) (sd : Sphere F) : Res (List (VertexRec F)) := do
  let stackStep : F := GoTrig.piMul 1 / GoOfInt.ofInt sd.stackCount
  let lengthInv : F := 1 / sd.radius
  let is ← forLt w sd.stackCount fuel 0
  let rings ← loopRecs (fun i =>
    let stackAngle : F := GoTrig.piMul (1/2) - GoOfInt.ofInt i * stackStep
    let xy := sd.radius * GoTrig.cos stackAngle
    let z := sd.radius * GoTrig.sin stackAngle
    ringVerticesW w fuel sd.sectorCount sd.stackCount lengthInv xy z i) is
  pure rings.flatten

/-- shape/sphere.go:77-122 and torus.go:77-122 `generateIndices` -/
def gridIndicesW (fuel : ℕ) (sectorCount stackCount : ℤ) : Res (List ℕ) := do
  let js ← forLt w sectorCount fuel 0
  let top := topIndices js.length 0 (u32 (w (sectorCount + 1)))
  let is ← forLt w (w (stackCount - 1)) fuel 1
  let mid ← loopRecs (fun i => do
    let k1 := u32 (w (i * w (sectorCount + 1)))
    let k2 := u32add k1 (u32 (w (sectorCount + 1)))
    let js ← forLt w sectorCount fuel 0
    pure (midIndices js.length k1 k2)) is
  pure (top ++ mid.flatten)

/-- shape/sphere.go:18-27 `Construct` -/
def Sphere.ConstructW [_root_.Sub F] [Mul F] [Div F] [OfNat F 1] [GoTrig F] [GoOfInt F]
    (fuel : ℕ) (sd : Sphere F) : Res (Mesh F) := do
  let vs ← sd.generateVerticesW w fuel
  let ix ← gridIndicesW w fuel sd.sectorCount sd.stackCount
  pure ⟨vs.map (·.pos), vs.map (·.normal), vs.map (·.tex), ix⟩

/-- shape/torus.go:29-75 `generateVertices` -/
def Torus.generateVerticesW [_root_.Add F] [_root_.Sub F] [Mul F] [Div F] [OfNat F 1] [GoTrig F] [GoOfInt F]
    (fuel : ℕ) (td : Torus F) : Res (List (VertexRec F)) := do
  let stackStep : F := GoTrig.piMul 2 / GoOfInt.ofInt td.stackCount
  let lengthInv : F := 1 / td.radius
  let is ← forLt w td.stackCount fuel 0
  let rings ← loopRecs (fun i =>
    let stackAngle : F := GoTrig.piMul (1/2) - GoOfInt.ofInt i * stackStep
    let xy := td.radius + td.tubeRadius * GoTrig.cos stackAngle
    let z := td.tubeRadius * GoTrig.sin stackAngle
    ringVerticesW w fuel td.sectorCount td.stackCount lengthInv xy z i) is
  pure rings.flatten

/-- shape/torus.go:18-27 `Construct` -/
def Torus.ConstructW [_root_.Add F] [_root_.Sub F] [Mul F] [Div F] [OfNat F 1] [GoTrig F] [GoOfInt F]
    (fuel : ℕ) (td : Torus F) : Res (Mesh F) := do
  let vs ← td.generateVerticesW w fuel
  let ix ← gridIndicesW w fuel td.sectorCount td.stackCount
  pure ⟨vs.map (·.pos), vs.map (·.normal), vs.map (·.tex), ix⟩

/-- shape/ellipse.go:26-45 `generateVertices` -/
def Ellipse.generateVerticesW [_root_.Add F] [_root_.Sub F] [Mul F] [Div F] [OfNat F 0] [GoTrig F] [GoOfInt F]
    (fuel : ℕ) (e : Ellipse F) : Res (List (Vector F)) := do
  let sectorStep : F := GoTrig.piMul 2 / GoOfInt.ofInt e.sectorCount
  let is ← forLt w e.sectorCount fuel 0
  pure (e.center :: is.map (fun i =>
    let sectorAngle : F := GoTrig.piMul (1/2) - GoOfInt.ofInt i * sectorStep
    let x := e.semiAxis1 * GoTrig.cos sectorAngle
    let y := e.semiAxis2 * GoTrig.sin sectorAngle
    let vertex : Vector F := ⟨x, y, 0⟩
    vertex.addM e.center))

/-- shape/circle.go:24-43 `generateVertices` -/
def Circle.generateVerticesW [_root_.Add F] [_root_.Sub F] [Mul F] [Div F] [OfNat F 0] [GoTrig F] [GoOfInt F]
    (fuel : ℕ) (c : Circle F) : Res (List (Vector F)) := do
  let sectorStep : F := GoTrig.piMul 2 / GoOfInt.ofInt c.sectorCount
  let is ← forLt w c.sectorCount fuel 0
  pure (c.center :: is.map (fun i =>
    let sectorAngle : F := GoTrig.piMul (1/2) - GoOfInt.ofInt i * sectorStep
    let x := c.radius * GoTrig.cos sectorAngle
    let y := c.radius * GoTrig.sin sectorAngle
    let vertex : Vector F := ⟨x, y, 0⟩
    vertex.addM c.center))

/-- shape/circle.go:45-55 and shape/ellipse.go:47-57 `generateIndices` -/
def fanIndicesW (fuel : ℕ) (lenVertices : ℕ) : Res (List ℕ) := do
  let is ← forLt w lenVertices fuel 1
  pure ((is.map (fun i => [0, u32 i, u32 (w (i+1)), u32 (w (i+1)), u32 i, 0])).flatten ++
    [0, u32 (w (lenVertices - 1)), 1] ++ [1, u32 (w (lenVertices - 1)), 0])

/-- shape/circle.go:15-22 `Construct` -/
def Circle.ConstructW [_root_.Add F] [_root_.Sub F] [Mul F] [Div F] [OfNat F 0] [GoTrig F] [GoOfInt F]
    (fuel : ℕ) (c : Circle F) : Res (Mesh F) := do
  let vs ← c.generateVerticesW w fuel
  let ix ← fanIndicesW w fuel vs.length
  pure ⟨vs, [], [], ix⟩

/-- shape/ellipse.go:17-24 `Construct` -/
def Ellipse.ConstructW [_root_.Add F] [_root_.Sub F] [Mul F] [Div F] [OfNat F 0] [GoTrig F] [GoOfInt F]
    (fuel : ℕ) (e : Ellipse F) : Res (Mesh F) := do
  let vs ← e.generateVerticesW w fuel
  let ix ← fanIndicesW w fuel vs.length
  pure ⟨vs, [], [], ix⟩

end Verif.Shape

namespace Verif.Meshing
open Verif Verif.R3

variable {F : Type} (w : ℤ → ℤ)

/-- meshing/mesh.go:135-138 `addFace` -/
def addFaceW (meshIndices : List ℤ) (f : Face) : List ℤ := meshIndices ++ [w (f.pa - 4), w (f.pb - 4), w (f.pc - 4)]

/-- meshing/mesh.go:164-205 one iteration of the outer loop; the new point has index `pointIndex+4` -/
def bwStepW {P : Type} (test : P → P → P → P → P → Bool) (sched : Sched) (points : List P)
    (t : Tetrahedrisation) (pointIndex : ℕ) (point : P) : Res Tetrahedrisation := do
  let badTetras ← findBad test points point (sched.tetras pointIndex t)
  let faceSet := faceLoop badTetras
  let polyhedron ← collectFaces badTetras (sched.faces pointIndex faceSet)
  let t := badTetras.foldl (fun t bad => GoMap.erase t (tetraHash bad)) t
  pure (polyhedron.foldl (fun t f => addTetra t (connect f (w (pointIndex + 4)))) t)

/-- meshing/mesh.go:164-205 -/
def bwLoopW {P : Type} (test : P → P → P → P → P → Bool) (sched : Sched) (points : List P) :
    List (P × ℕ) → Tetrahedrisation → Res Tetrahedrisation
  | [], t => pure t
  | (p, k) :: rest, t => do
    let t ← bwStepW w test sched points t k p
    bwLoopW test sched points rest t

/-- meshing/mesh.go:207-215 -/
def meshFacesW (t : Tetrahedrisation) : List ℤ :=
  t.foldl (fun acc kt => kt.2.faces.foldl (fun acc f => if f.isPartOfMesh then addFaceW w acc f else acc) acc) []

/-- meshing/mesh.go:156-220 `bowyerWatson` for a given test and a given englobing function -/
def bowyerWatsonWithW {P : Type} (test : P → P → P → P → P → Bool) (sched : Sched)
    (englobed : List P) (points : List P) : Res (List ℤ) := do
  let t := addTetra [] initialTetra
  let t ← bwLoopW w test sched englobed points.zipIdx t
  pure (meshFacesW w (sched.final t))

/-- meshing/mesh.go:156-220 `bowyerWatson` -/
def bowyerWatsonW [_root_.Add F] [_root_.Sub F] [Mul F] [Neg F] [LT F] [DecidableLT F] [LE F] [DecidableLE F]
    [GoConst F] [OfNat F 0] [OfNat F 3] (sched : Sched) (points : List (Vector F)) : Res (List ℤ) :=
  bowyerWatsonWithW w (fun a b c d e => decide ((0 : F) ≤ Predicates.InSphereFast a b c d e)) sched
    (englobe points).1 points

end Verif.Meshing
