import Verif.Model.R3
import Mathlib.Analysis.SpecialFunctions.Trigonometric.Basic
/-!
# Model of packages `shape` and `glTF`

`icosphere.go` is entirely commented out. Unsigned 32-bit arithmetic is done modulo 2^32.
-/
namespace Verif.Shape
open Verif Verif.R3

/-- `math.Cos`, `math.Sin` and the untyped constant multiples of `math.Pi` -/
class GoTrig (F : Type) where
  cos : F → F
  sin : F → F
  /-- the constant expression `q * math.Pi`, evaluated exactly and converted -/
  piMul : ℚ → F

noncomputable instance : GoTrig ℝ := ⟨Real.cos, Real.sin, fun q => (q : ℝ) * Real.pi⟩

@[simp] theorem goCos_real (x : ℝ) : GoTrig.cos x = Real.cos x := rfl
@[simp] theorem goSin_real (x : ℝ) : GoTrig.sin x = Real.sin x := rfl
@[simp] theorem goPi_real (q : ℚ) : (GoTrig.piMul q : ℝ) = (q : ℝ) * Real.pi := rfl

variable {F : Type}

/-- conversion `uint32(i)` of an `int` -/
def u32 (i : Int) : Nat := (i % 2^32).toNat

/-- addition of `uint32` values -/
def u32add (a b : Nat) : Nat := (a + b) % 2^32

/-- shape/mesh.go:6-11 `type Mesh struct` -/
structure Mesh (F : Type) where
  Vertices : List (Vector F)
  Normals : List (F × F × F)
  TexCoords : List (F × F)
  Indices : List Nat

/-- `for j := 0; j < n; j++` over an `int` bound: the values of `j` -/
def loopTo (n : Int) : List Int := (List.range n.toNat).map Int.ofNat

/-- one output record of the vertex loops -/
structure VertexRec (F : Type) where
  pos : Vector F
  normal : F × F × F
  tex : F × F

/-- Go integer division panics for a zero divisor -/
def goDiv (a b : Int) : Res Int := if b = 0 then .panic else .ok (Int.tdiv a b)

/-- run a loop body that produces one record per iteration -/
def loopRecs {α β : Type} (body : α → Res β) : List α → Res (List β)
  | [] => pure []
  | x :: xs => do
    let y ← body x
    let ys ← loopRecs body xs
    pure (y :: ys)

/-- shape/sphere.go:48-73 (and torus.go:48-73, the same text): the inner loop for stack `i`, with `xy` and
`z` of that stack -/
def ringVertices [Mul F] [Div F] [GoTrig F] [GoOfInt F]
    (sectorCount stackCount : Int) (lengthInv xy z : F) (i : Int) : Res (List (VertexRec F)) :=
  let sectorStep : F := GoTrig.piMul 2 / GoOfInt.ofInt sectorCount
  loopRecs (fun j => do
    let sectorAngle : F := GoOfInt.ofInt j * sectorStep
    let x := xy * GoTrig.cos sectorAngle
    let y := xy * GoTrig.sin sectorAngle
    let nx := x * lengthInv
    let ny := y * lengthInv
    let nz := z * lengthInv
    let s ← goDiv j sectorCount
    let t ← goDiv i stackCount
    pure (⟨⟨x, y, z⟩, (nx, ny, nz), (GoOfInt.ofInt s, GoOfInt.ofInt t)⟩ : VertexRec F))
    (loopTo (sectorCount + 1))

/-- shape/sphere.go:10-15 `type Sphere struct` -/
structure Sphere (F : Type) where
  center : Vector F
  radius : F
  sectorCount : Int
  stackCount : Int

/-- shape/sphere.go:29-75 `generateVertices` (the field `center` is not read) -/
def Sphere.generateVertices [_root_.Sub F] [Mul F] [Div F] [OfNat F 1] [GoTrig F] [GoOfInt F]
    (sd : Sphere F) : Res (List (VertexRec F)) := do
  let stackStep : F := GoTrig.piMul 1 / GoOfInt.ofInt sd.stackCount
  let lengthInv : F := 1 / sd.radius
  let rings ← loopRecs (fun i =>
    let stackAngle : F := GoTrig.piMul (1/2) - GoOfInt.ofInt i * stackStep
    let xy := sd.radius * GoTrig.cos stackAngle
    let z := sd.radius * GoTrig.sin stackAngle
    ringVertices sd.sectorCount sd.stackCount lengthInv xy z i) (loopTo sd.stackCount)
  pure rings.flatten

/-- shape/sphere.go:86-90 the top loop: `m` iterations remain -/
def topIndices : (m : Nat) → (k1 k2 : Nat) → List Nat
  | 0, _, _ => []
  | m + 1, k1, k2 => u32add k1 1 :: k2 :: u32add k2 1 :: topIndices m (u32add k1 1) (u32add k2 1)

/-- shape/sphere.go:109-118 the inner loop of the middle part -/
def midIndices : (m : Nat) → (k1 k2 : Nat) → List Nat
  | 0, _, _ => []
  | m + 1, k1, k2 =>
    k1 :: k2 :: u32add k1 1 :: u32add k1 1 :: k2 :: u32add k2 1 ::
      midIndices m (u32add k1 1) (u32add k2 1)

/-- shape/sphere.go:77-122 `generateIndices`; torus.go:77-122 is the same text -/
def gridIndices (sectorCount stackCount : Int) : List Nat :=
  topIndices sectorCount.toNat 0 (u32 (sectorCount + 1)) ++
  -- `for i := 1; i < stackCount-1; i++`
  ((loopTo (stackCount - 2)).map (fun i' =>
    let i := i' + 1
    let k1 := u32 (i * (sectorCount + 1))
    let k2 := u32add k1 (u32 (sectorCount + 1))
    midIndices sectorCount.toNat k1 k2)).flatten

/-- shape/sphere.go:18-27 `Construct` -/
def Sphere.Construct [_root_.Sub F] [Mul F] [Div F] [OfNat F 1] [GoTrig F] [GoOfInt F]
    (sd : Sphere F) : Res (Mesh F) := do
  let vs ← sd.generateVertices
  pure ⟨vs.map (·.pos), vs.map (·.normal), vs.map (·.tex), gridIndices sd.sectorCount sd.stackCount⟩

/-- shape/torus.go:9-15 `type Torus struct` -/
structure Torus (F : Type) where
  center : Vector F
  radius : F
  tubeRadius : F
  sectorCount : Int
  stackCount : Int

/-- shape/torus.go:29-75 `generateVertices` (the field `center` is not read) -/
def Torus.generateVertices [_root_.Add F] [_root_.Sub F] [Mul F] [Div F] [OfNat F 1] [GoTrig F] [GoOfInt F]
    (td : Torus F) : Res (List (VertexRec F)) := do
  let stackStep : F := GoTrig.piMul 2 / GoOfInt.ofInt td.stackCount
  let lengthInv : F := 1 / td.radius
  let rings ← loopRecs (fun i =>
    let stackAngle : F := GoTrig.piMul (1/2) - GoOfInt.ofInt i * stackStep
    let xy := td.radius + td.tubeRadius * GoTrig.cos stackAngle
    let z := td.tubeRadius * GoTrig.sin stackAngle
    ringVertices td.sectorCount td.stackCount lengthInv xy z i) (loopTo td.stackCount)
  pure rings.flatten

/-- shape/torus.go:18-27 `Construct` -/
def Torus.Construct [_root_.Add F] [_root_.Sub F] [Mul F] [Div F] [OfNat F 1] [GoTrig F] [GoOfInt F]
    (td : Torus F) : Res (Mesh F) := do
  let vs ← td.generateVertices
  pure ⟨vs.map (·.pos), vs.map (·.normal), vs.map (·.tex), gridIndices td.sectorCount td.stackCount⟩

/-- shape/ellipse.go:9-14 `type Ellipse struct`; shape/circle.go:8-12 `Circle` is the case of equal axes -/
structure Ellipse (F : Type) where
  center : Vector F
  semiAxis1 : F
  semiAxis2 : F
  sectorCount : Int

/-- shape/circle.go:8-12 `type Circle struct` -/
structure Circle (F : Type) where
  center : Vector F
  radius : F
  sectorCount : Int

/-- shape/ellipse.go:26-45 `generateVertices` -/
def Ellipse.generateVertices [_root_.Add F] [_root_.Sub F] [Mul F] [Div F] [OfNat F 0] [GoTrig F] [GoOfInt F]
    (e : Ellipse F) : List (Vector F) :=
  let sectorStep : F := GoTrig.piMul 2 / GoOfInt.ofInt e.sectorCount
  e.center :: (loopTo e.sectorCount).map (fun i =>
    let sectorAngle : F := GoTrig.piMul (1/2) - GoOfInt.ofInt i * sectorStep
    let x := e.semiAxis1 * GoTrig.cos sectorAngle
    let y := e.semiAxis2 * GoTrig.sin sectorAngle
    let vertex : Vector F := ⟨x, y, 0⟩
    vertex.addM e.center)

/-- shape/circle.go:24-43 `generateVertices` -/
def Circle.generateVertices [_root_.Add F] [_root_.Sub F] [Mul F] [Div F] [OfNat F 0] [GoTrig F] [GoOfInt F]
    (c : Circle F) : List (Vector F) :=
  let sectorStep : F := GoTrig.piMul 2 / GoOfInt.ofInt c.sectorCount
  c.center :: (loopTo c.sectorCount).map (fun i =>
    let sectorAngle : F := GoTrig.piMul (1/2) - GoOfInt.ofInt i * sectorStep
    let x := c.radius * GoTrig.cos sectorAngle
    let y := c.radius * GoTrig.sin sectorAngle
    let vertex : Vector F := ⟨x, y, 0⟩
    vertex.addM c.center)

/-- shape/circle.go:45-55 and shape/ellipse.go:47-57 `generateIndices` -/
def fanIndices (lenVertices : Nat) : List Nat :=
  -- `for i := 1; i < lenVertices; i++`
  ((loopTo (lenVertices - 1)).map (fun i' =>
    let i := i' + 1
    [0, u32 i, u32 (i+1), u32 (i+1), u32 i, 0])).flatten ++
  [0, u32 (lenVertices - 1), 1] ++ [1, u32 (lenVertices - 1), 0]

/-- shape/circle.go:15-22 `Construct` -/
def Circle.Construct [_root_.Add F] [_root_.Sub F] [Mul F] [Div F] [OfNat F 0] [GoTrig F] [GoOfInt F]
    (c : Circle F) : Mesh F :=
  let vs := c.generateVertices
  ⟨vs, [], [], fanIndices vs.length⟩

/-- shape/ellipse.go:17-24 `Construct` -/
def Ellipse.Construct [_root_.Add F] [_root_.Sub F] [Mul F] [Div F] [OfNat F 0] [GoTrig F] [GoOfInt F]
    (e : Ellipse F) : Mesh F :=
  let vs := e.generateVertices
  ⟨vs, [], [], fanIndices vs.length⟩

/-- shape/shape.go:9-18 `ConstructSphere` -/
def ConstructSphere [_root_.Sub F] [Mul F] [Div F] [OfNat F 1] [GoTrig F] [GoOfInt F]
    (center : Vector F) (radius : F) : Res (Mesh F) :=
  Sphere.Construct ⟨center, radius, 300, 300⟩

/-- shape/shape.go:22-28 `ConstructCircle` -/
def ConstructCircle [_root_.Add F] [_root_.Sub F] [Mul F] [Div F] [OfNat F 0] [GoTrig F] [GoOfInt F]
    (center : Vector F) (radius : F) : Mesh F :=
  Circle.Construct ⟨center, radius, 100⟩

/-- shape/shape.go:32-39 `ConstructTorus` -/
def ConstructTorus [_root_.Add F] [_root_.Sub F] [Mul F] [Div F] [OfNat F 1] [GoTrig F] [GoOfInt F]
    (center : Vector F) (radius tubeRadius : F) : Res (Mesh F) :=
  Torus.Construct ⟨center, radius, tubeRadius, 100, 100⟩

/-- shape/shape.go:42-48 `ConstructEllipse` -/
def ConstructEllipse [_root_.Add F] [_root_.Sub F] [Mul F] [Div F] [OfNat F 0] [GoTrig F] [GoOfInt F]
    (center : Vector F) (semiAxis1 semiAxis2 : F) : Mesh F :=
  Ellipse.Construct ⟨center, semiAxis1, semiAxis2, 100⟩

/-- glTF/model.go:5-8 `type Model struct`; `G` is `float32` -/
structure Model (G : Type) where
  Positions : List (G × G × G)
  Indices : List Nat

/-- glTF/model.go:10-26 `transferModel`; `f32` is the conversion `float32(·)` -/
def transferModel {G : Type} (f32 : F → G) (mesh : Mesh F) : Model G :=
  ⟨mesh.Vertices.map (fun v => (f32 v.X, f32 v.Y, f32 v.Z)), mesh.Indices⟩

/-- what `Export` hands to the glTF writer: positions, indices and colours -/
structure Document (G : Type) where
  positions : List (G × G × G)
  indices : List Nat
  colors : List (Nat × Nat × Nat)

/-- glTF/export.go:11-34 the buffers written by `Export` (the file output of lines 36-52 is not modelled) -/
def exportBuffers {G : Type} (f32 : F → G) (mesh : Mesh F) : Document G :=
  let model := transferModel f32 mesh
  ⟨model.Positions, model.Indices, mesh.Vertices.map (fun _ => (255, 255, 255))⟩

end Verif.Shape
