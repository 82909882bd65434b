import Verif.Model.Tri3
import Verif.Model.Predicates
import Verif.Go.Map
import Mathlib.Data.Nat.Digits.Defs
import Mathlib.Data.List.Sort
/-!
# Model of package `mesh` (directory meshing: mesh.go, helper.go, flip.go, util.go)

`findCentroid`, `sameSide` and `vectorInTetrahedron` of meshing/util.go are the same text as in package
`triangulate3` and are shared with `Verif.Tri3`. Printing is not modelled. Empty functions
(`addPoint`, `flip41`, `flip32`, `flip23`) are not modelled.
-/
namespace Verif.Meshing
open Verif Verif.R3

variable {F : Type}

/-- meshing/mesh.go:16-18 `type face struct` -/
structure Face where
  pa : Int
  pb : Int
  pc : Int
  deriving DecidableEq, Repr

/-- meshing/mesh.go:12-15 `type tetra struct` -/
structure Tetra where
  ia : Int
  ib : Int
  ic : Int
  id : Int
  faces : List Face
  deriving DecidableEq, Repr

/-- meshing/mesh.go:19-21 `type edge struct` -/
structure Edge where
  start : Int
  stop : Int
  deriving DecidableEq, Repr

/-- meshing/mesh.go:45-52 `isEqual` -/
def Edge.isEqual (e e1 : Edge) : Bool :=
  if e.start = e1.start then (if e.stop = e1.stop then true else false) else false

/-- meshing/mesh.go:54-71 `isPartOfMesh` -/
def Face.isPartOfMesh (f : Face) : Bool :=
  if 0 ≤ f.pa ∧ f.pa ≤ 3 then false
  else if 0 ≤ f.pb ∧ f.pb ≤ 3 then false
  else if 0 ≤ f.pc ∧ f.pc ≤ 3 then false
  else true

/-- the decimal digits of a natural number, as `strconv.Itoa` prints them -/
def natDigits (n : Nat) : List Char :=
  if n = 0 then ['0'] else ((Nat.digits 10 n).map Nat.digitChar).reverse

/-- `strconv.Itoa` -/
def itoa (i : Int) : List Char :=
  if i < 0 then '-' :: natDigits i.natAbs else natDigits i.natAbs

/-- meshing/mesh.go:73-79 `hash` of a face. `sort.Ints` yields the sorted list. -/
def Face.hash (f : Face) : List Char :=
  match List.insertionSort (· ≤ ·) [f.pa, f.pb, f.pc] with
  | [a, b, c] => itoa a ++ ['.'] ++ itoa b ++ ['.'] ++ itoa c
  | _ => []

/-- meshing/mesh.go:107-109 `tetraHash` -/
def tetraHash (t : Tetra) : List Char :=
  itoa t.ia ++ ['.'] ++ itoa t.ib ++ ['.'] ++ itoa t.ic ++ ['.'] ++ itoa t.id

/-- `math.MaxFloat64` = (2^53 - 1) * 2^971 -/
def maxFloat64 : ℚ := (2^53 - 1) * 2^971

/-- meshing/helper.go:26-44 `getNearestPoint` -/
def getNearestPoint [_root_.Add F] [_root_.Sub F] [Mul F] [GoSqrt F] [LE F] [DecidableLE F] [GoConst F]
    [OfNat F 0] (vertices : List (Vector F)) (centroid : Vector F) : Vector F :=
  (vertices.foldl (fun (acc : F × Vector F) vertex =>
    let distance := Distance vertex centroid
    if distance ≤ acc.1 then (distance, vertex) else acc) (GoConst.const maxFloat64, ⟨0, 0, 0⟩)).2

/-- meshing/mesh.go:81-90 `getNearestPointToCentroid` -/
def Tetra.getNearestPointToCentroid [_root_.Add F] [_root_.Sub F] [Mul F] [Div F] [GoSqrt F] [LE F]
    [DecidableLE F] [GoConst F] [OfNat F 0] [OfNat F 4] (t : Tetra) (points : List (Vector F)) :
    Res (Vector F) := do
  let pa ← goGet points t.ia
  let pb ← goGet points t.ib
  let pc ← goGet points t.ic
  let pd ← goGet points t.id
  pure (getNearestPoint points (Tri3.findCentroid pa pb pc pd))

/-- meshing/helper.go:9-11 `type helper struct` -/
structure Helper (F : Type) where
  min : Vector F
  max : Vector F

/-- meshing/helper.go:46-72 `findExtremas` -/
def findExtremas [LT F] [DecidableLT F] [Neg F] [GoConst F] (points : List (Vector F)) : Helper F :=
  let m : F := GoConst.const maxFloat64
  points.foldl (fun (h : Helper F) p =>
    let h := if h.max.X < p.X then { h with max := { h.max with X := p.X } } else h
    let h := if h.max.Y < p.Y then { h with max := { h.max with Y := p.Y } } else h
    let h := if h.max.Z < p.Z then { h with max := { h.max with Z := p.Z } } else h
    let h := if p.X < h.min.X then { h with min := { h.min with X := p.X } } else h
    let h := if p.Y < h.min.Y then { h with min := { h.min with Y := p.Y } } else h
    let h := if p.Z < h.min.Z then { h with min := { h.min with Z := p.Z } } else h
    h) ⟨⟨m, m, m⟩, ⟨-m, -m, -m⟩⟩

/-- meshing/helper.go:94-109 `computerInitialTetraPoints` (`computeBoundingBox`, lines 74-92, has no effect) -/
def computerInitialTetraPoints [_root_.Add F] [_root_.Sub F] [Mul F] [OfNat F 3] (h : Helper F) :
    Vector F × Vector F × Vector F × Vector F :=
  let xtetra := h.min.X + 3*(h.max.X-h.min.X)
  let ytetra := h.min.Y + 3*(h.max.Y-h.min.Y)
  let ztetra := h.min.Z + 3*(h.max.Z-h.min.Z)
  (⟨h.min.X, h.min.Y, h.min.Z⟩, ⟨xtetra, h.min.Y, h.min.Z⟩, ⟨h.min.X, ytetra, h.min.Z⟩,
   ⟨h.min.X, h.min.Y, ztetra⟩)

/-- meshing/mesh.go:124-131 the initial tetrahedron -/
def initialTetra : Tetra :=
  ⟨0, 1, 2, 3, [⟨0, 1, 2⟩, ⟨1, 2, 3⟩, ⟨2, 3, 0⟩, ⟨3, 0, 1⟩]⟩

/-- meshing/mesh.go:111-133 `englobe`: the new value of `*points` and the tetrahedron -/
def englobe [_root_.Add F] [_root_.Sub F] [Mul F] [Neg F] [LT F] [DecidableLT F] [GoConst F] [OfNat F 3]
    (points : List (Vector F)) : List (Vector F) × Tetra :=
  let h := findExtremas points
  let (p1, p2, p3, p4) := computerInitialTetraPoints h
  (p1 :: p2 :: p3 :: p4 :: points, initialTetra)

/-- meshing/mesh.go:23 `type tetrahedrisation map[string]tetra` -/
abbrev Tetrahedrisation := List (List Char × Tetra)

/-- meshing/mesh.go:102-105 `addTetra` -/
def addTetra (t : Tetrahedrisation) (newTetra : Tetra) : Tetrahedrisation :=
  GoMap.set t (tetraHash newTetra) newTetra

/-- meshing/mesh.go:145-154 `connect` -/
def connect (f : Face) (pointIndex : Int) : Tetra :=
  ⟨f.pa, f.pb, f.pc, pointIndex,
   [⟨f.pa, f.pb, f.pc⟩, ⟨f.pb, f.pc, pointIndex⟩, ⟨f.pc, pointIndex, f.pa⟩, ⟨pointIndex, f.pa, f.pb⟩]⟩

/-- meshing/mesh.go:135-138 `addFace` -/
def addFace (meshIndices : List Int) (f : Face) : List Int :=
  meshIndices ++ [f.pa - 4, f.pb - 4, f.pc - 4]

/-- meshing/mesh.go:39-43 `type faceCheck struct` -/
structure FaceCheck where
  check : Bool
  tetraID : Int
  faceID : Int
  deriving DecidableEq, Repr

abbrev FaceSet := List (List Char × FaceCheck)

/-- The unspecified iteration orders of the three `range` loops over maps (mesh.go:171, 188, 208): for the
insertion of point number `k`, the order in which the map `t` and the map `faceSet` are visited, and the
order of the last loop. -/
structure Sched where
  tetras : Nat → Tetrahedrisation → Tetrahedrisation
  faces : Nat → FaceSet → FaceSet
  final : Tetrahedrisation → Tetrahedrisation

/-- a legal schedule visits every entry exactly once -/
def Sched.WF (s : Sched) : Prop :=
  (∀ k t, (s.tetras k t).Perm t) ∧ (∀ k f, (s.faces k f).Perm f) ∧ (∀ t, (s.final t).Perm t)

/-- meshing/mesh.go:171-175: the tetrahedra whose sphere test is `>= 0`; `test` is the predicate
`InSphereFast(...) >= 0` -/
def findBad {P : Type} (test : P → P → P → P → P → Bool) (points : List P) (point : P) :
    Tetrahedrisation → Res (List Tetra)
  | [] => pure []
  | (_, t) :: rest => do
    let a ← goGet points t.ia
    let b ← goGet points t.ib
    let c ← goGet points t.ic
    let d ← goGet points t.id
    let r ← findBad test points point rest
    pure (if test a b c d point then t :: r else r)

/-- meshing/mesh.go:181-185 -/
def faceStep (fs : FaceSet) (f : Face) (badTetraIndex faceIndex : Nat) : FaceSet :=
  match GoMap.get? fs f.hash with
  | none => GoMap.set fs f.hash ⟨false, badTetraIndex, faceIndex⟩
  | some _ => GoMap.set fs f.hash ⟨true, -1, -1⟩

/-- meshing/mesh.go:179-187 -/
def faceLoop (badTetras : List Tetra) : FaceSet :=
  badTetras.zipIdx.foldl (fun fs tk =>
    tk.1.faces.zipIdx.foldl (fun fs fk => faceStep fs fk.1 tk.2 fk.2) fs) []

/-- meshing/mesh.go:188-193 -/
def collectFaces (badTetras : List Tetra) : FaceSet → Res (List Face)
  | [] => pure []
  | (_, fc) :: rest =>
    if fc.check = false then do
      let bt ← goGet badTetras fc.tetraID
      let f ← goGet bt.faces fc.faceID
      let r ← collectFaces badTetras rest
      pure (f :: r)
    else collectFaces badTetras rest

/-- meshing/mesh.go:164-205 one iteration of the outer loop, for point number `pointIndex` -/
def bwStep {P : Type} (test : P → P → P → P → P → Bool) (sched : Sched) (points : List P)
    (t : Tetrahedrisation) (pointIndex : Nat) (point : P) : Res Tetrahedrisation := do
  let badTetras ← findBad test points point (sched.tetras pointIndex t)
  let faceSet := faceLoop badTetras
  let polyhedron ← collectFaces badTetras (sched.faces pointIndex faceSet)
  let t := badTetras.foldl (fun t bad => GoMap.erase t (tetraHash bad)) t
  pure (polyhedron.foldl (fun t f => addTetra t (connect f (pointIndex + 4))) t)

/-- meshing/mesh.go:164-205 the loop over `triangulationPoints` -/
def bwLoop {P : Type} (test : P → P → P → P → P → Bool) (sched : Sched) (points : List P) :
    List (P × Nat) → Tetrahedrisation → Res Tetrahedrisation
  | [], t => pure t
  | (p, k) :: rest, t => do
    let t ← bwStep test sched points t k p
    bwLoop test sched points rest t

/-- meshing/mesh.go:207-215 -/
def meshFaces (t : Tetrahedrisation) : List Int :=
  t.foldl (fun acc kt => kt.2.faces.foldl (fun acc f =>
    if f.isPartOfMesh then addFace acc f else acc) acc) []

/-- meshing/mesh.go:156-220 `bowyerWatson` for a given test and a given englobing function -/
def bowyerWatsonWith {P : Type} (test : P → P → P → P → P → Bool) (sched : Sched)
    (englobed : List P) (points : List P) : Res (List Int) := do
  let t := addTetra [] initialTetra
  let t ← bwLoop test sched englobed points.zipIdx t
  pure (meshFaces (sched.final t))

/-- meshing/mesh.go:156-220 `bowyerWatson` -/
def bowyerWatson [_root_.Add F] [_root_.Sub F] [Mul F] [Neg F] [LT F] [DecidableLT F] [LE F] [DecidableLE F]
    [GoConst F] [OfNat F 0] [OfNat F 3] (sched : Sched) (points : List (Vector F)) : Res (List Int) :=
  bowyerWatsonWith (fun a b c d e => decide ((0 : F) ≤ Predicates.InSphereFast a b c d e)) sched
    (englobe points).1 points

/-- meshing/util.go:33-37 `duplicateInReverse`: `m` iterations remain, the next index is `m-1` -/
def duplicateInReverseLoop : (m : Nat) → List Nat → Res (List Nat)
  | 0, l => pure l
  | m + 1, l => do
    let x ← goGet l (m : Int)
    duplicateInReverseLoop m (l ++ [x])

/-- meshing/util.go:33-37 -/
def duplicateInReverse (l : List Nat) : Res (List Nat) := duplicateInReverseLoop l.length l

/-- meshing/mesh.go:33-37 `type Meshing struct` (the field `triangulationMap` is never used) -/
structure MeshState (F : Type) where
  vertices : List (Vector F)
  indices : List Nat

/-- meshing/flip.go:14-51 `flip14` -/
def flip14 (t : MeshState F) (p : Vector F) : Res (MeshState F) := do
  let vertices := t.vertices ++ [p]
  let t1 ← duplicateInReverse [0, 1, 2, 1, 2, 4, 2, 4, 0, 4, 0, 1]
  let t2 ← duplicateInReverse [0, 1, 3, 1, 3, 4, 3, 4, 0, 4, 0, 1]
  let t3 ← duplicateInReverse [1, 2, 3, 2, 3, 4, 3, 4, 1, 4, 1, 2]
  let t4 ← duplicateInReverse [0, 2, 3, 2, 3, 4, 3, 4, 0, 4, 0, 2]
  pure ⟨vertices, t1 ++ t2 ++ t3 ++ t4⟩

end Verif.Meshing
