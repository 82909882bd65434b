import Verif.Model.Work
import Verif.Model.Hull
import Verif.Model.Meshing
/-!
# `ConvexHull` and `bowyerWatson` with a counter

The loops of triangulate2/hull.go and meshing/mesh.go once more, statement by statement, with a counter (`Wk`, see `Model/Work.lean`).
`Props/Steps.lean` shows that the results are those of `Model/Hull.lean` and `Model/Meshing.lean`.
-/
namespace Verif.Tri2
open Verif Verif.R3

variable {F : Type}

/-- hull.go:42-44; every evaluation of `cross2D` adds one -/
def popUCt [_root_.Sub F] [Mul F] [LT F] [DecidableLT F] [OfNat F 0] (p : Vector F) : List (Vector F) → Wk (List (Vector F))
  | b :: a :: rest => do
    Wk.tick 1
    if (0 : F) < cross2D a b p then popUCt p (a :: rest) else pure (b :: a :: rest)
  | l => pure l

/-- hull.go:45-47; every evaluation of `cross2D` adds one -/
def popLCt [_root_.Sub F] [Mul F] [LT F] [DecidableLT F] [OfNat F 0] (p : Vector F) : List (Vector F) → Wk (List (Vector F))
  | b :: a :: rest => do
    Wk.tick 1
    if cross2D a b p < (0 : F) then popLCt p (a :: rest) else pure (b :: a :: rest)
  | l => pure l

/-- hull.go:40-50, both stacks reversed -/
def hullLoopCt [_root_.Sub F] [Mul F] [LT F] [DecidableLT F] [OfNat F 0] (Vs : List (Vector F)) : Wk (List (Vector F) × List (Vector F)) :=
  Vs.foldlM (fun st p => do
    let U ← popUCt p st.1
    let L ← popLCt p st.2
    pure (p :: U, p :: L)) ([], [])

/-- hull.go:12-65 `ConvexHull` -/
def ConvexHullCt [_root_.Add F] [_root_.Sub F] [Mul F] [LT F] [DecidableLT F] [GoConst F] [OfNat F 0]
    (srt : List (Vector F) → List (Vector F)) (Vs : List (Vector F)) : Wk (List (Vector F)) := do
  let distinct := filterDup (srt Vs)
  let (Ur, Lr) ← hullLoopCt distinct
  pure (Lr.reverse.dropLast ++ Ur.dropLast)

end Verif.Tri2

namespace Verif.Meshing
open Verif Verif.R3 Verif.Tri2

/-- what each kind of step adds -/
structure BwWeights where
  /-- a call of `InSphereFast`: an iteration of the loop of mesh.go:171-175 -/
  sphere : Nat
  /-- an iteration of the loop of lines 180-186 -/
  face : Nat
  /-- an iteration of the loop of lines 188-193 -/
  entry : Nat
  /-- an iteration of the loop of lines 197-200 -/
  drop : Nat
  /-- an iteration of the loop of lines 203-205 -/
  add : Nat
  /-- an iteration of the loop of lines 210-214 -/
  out : Nat

/-- meshing/mesh.go:171-175 -/
def findBadCt {P : Type} (w : BwWeights) (test : P → P → P → P → P → Bool) (points : List P) (point : P) :
    Tetrahedrisation → Wk (List Tetra)
  | [] => pure []
  | (_, t) :: rest => do
    let a ← goGet points t.ia
    let b ← goGet points t.ib
    let c ← goGet points t.ic
    let d ← goGet points t.id
    Wk.tick w.sphere
    let r ← findBadCt w test points point rest
    pure (if test a b c d point then t :: r else r)

/-- meshing/mesh.go:179-187 -/
def faceLoopCt (w : BwWeights) (badTetras : List Tetra) : Wk FaceSet :=
  badTetras.zipIdx.foldlM (fun fs tk =>
    tk.1.faces.zipIdx.foldlM (fun fs fk => do
      Wk.tick w.face
      pure (faceStep fs fk.1 tk.2 fk.2)) fs) []

/-- meshing/mesh.go:188-193 -/
def collectFacesCt (w : BwWeights) (badTetras : List Tetra) : FaceSet → Wk (List Face)
  | [] => pure []
  | (_, fc) :: rest => do
    Wk.tick w.entry
    if fc.check = false then
      let bt ← goGet badTetras fc.tetraID
      let f ← goGet bt.faces fc.faceID
      let r ← collectFacesCt w badTetras rest
      pure (f :: r)
    else collectFacesCt w badTetras rest

/-- meshing/mesh.go:164-205 one iteration of the outer loop -/
def bwStepCt {P : Type} (w : BwWeights) (test : P → P → P → P → P → Bool) (sched : Sched) (points : List P)
    (t : Tetrahedrisation) (pointIndex : Nat) (point : P) : Wk Tetrahedrisation := do
  let badTetras ← findBadCt w test points point (sched.tetras pointIndex t)
  let faceSet ← faceLoopCt w badTetras
  let polyhedron ← collectFacesCt w badTetras (sched.faces pointIndex faceSet)
  let t ← badTetras.foldlM (fun t bad => do
    Wk.tick w.drop
    pure (GoMap.erase t (tetraHash bad))) t
  polyhedron.foldlM (fun t f => do
    Wk.tick w.add
    pure (addTetra t (connect f (pointIndex + 4)))) t

/-- meshing/mesh.go:164-205 -/
def bwLoopCt {P : Type} (w : BwWeights) (test : P → P → P → P → P → Bool) (sched : Sched) (points : List P) :
    List (P × Nat) → Tetrahedrisation → Wk Tetrahedrisation
  | [], t => pure t
  | (p, k) :: rest, t => do
    let t ← bwStepCt w test sched points t k p
    bwLoopCt w test sched points rest t

/-- meshing/mesh.go:207-215 -/
def meshFacesCt (w : BwWeights) (t : Tetrahedrisation) : Wk (List Int) :=
  t.foldlM (fun acc kt => kt.2.faces.foldlM (fun acc f => do
    Wk.tick w.out
    pure (if f.isPartOfMesh then addFace acc f else acc)) acc) []

/-- meshing/mesh.go:156-220 `bowyerWatson` -/
def bowyerWatsonCt {P : Type} (w : BwWeights) (test : P → P → P → P → P → Bool) (sched : Sched)
    (englobed : List P) (points : List P) : Wk (List Int) := do
  let t := addTetra [] initialTetra
  let t ← bwLoopCt w test sched englobed points.zipIdx t
  meshFacesCt w (sched.final t)

end Verif.Meshing
