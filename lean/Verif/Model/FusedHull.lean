import Verif.Model.Fused
import Verif.Model.Hull
import Verif.Model.Meshing
/-!
# `ConvexHull` and `bowyerWatson` compiled with fused multiply-adds

As Model/Fused.lean for the triangulator: the functions of Model/Hull.lean and Model/Meshing.lean with the values of their float64 formulas taken from a
record, one entry for every place where the Go code evaluates such a formula, and a condition that says that every entry is a value which the Go
specification allows for that formula.
-/
namespace Verif.Tri2
open Verif Verif.R3

/-- the float64 values of the formulas in triangulate2/hull.go -/
structure HullArith where
  /-- hull.go:32 -/
  near : Vector F64 → Vector F64 → F64
  /-- hull.go:42 -/
  up : Vector F64 → Vector F64 → Vector F64 → F64
  /-- hull.go:45 -/
  low : Vector F64 → Vector F64 → Vector F64 → F64

/-- no fusing -/
def HullArith.plain : HullArith := ⟨SquaredDistance, cross2D, cross2D⟩

/-- hull.go:30-37, see `filterLoop` -/
def filterLoopA (A : HullArith) : (n i k : Nat) → (arr : List (Vector F64)) → List (Vector F64)
  | 0, _, k, arr => arr.take k
  | n + 1, i, k, arr =>
    match arr[i]? with
    | none => arr.take k
    | some p =>
      let dup := match i with
        | 0 => false
        | j + 1 => match arr[j]? with
          | none => false
          | some q => decide (A.near p q < eps)
      if dup then filterLoopA A n (i + 1) k arr
      else filterLoopA A n (i + 1) (k + 1) (arr.set k p)

/-- hull.go:42-44, see `popU` -/
def popUA (A : HullArith) (p : Vector F64) : List (Vector F64) → List (Vector F64)
  | b :: a :: rest => if (0 : F64) < A.up a b p then popUA A p (a :: rest) else b :: a :: rest
  | l => l

/-- hull.go:45-47, see `popL` -/
def popLA (A : HullArith) (p : Vector F64) : List (Vector F64) → List (Vector F64)
  | b :: a :: rest => if A.low a b p < (0 : F64) then popLA A p (a :: rest) else b :: a :: rest
  | l => l

/-- hull.go:40-50 -/
def hullLoopA (A : HullArith) (Vs : List (Vector F64)) : List (Vector F64) × List (Vector F64) :=
  Vs.foldl (fun st p => (p :: popUA A p st.1, p :: popLA A p st.2)) ([], [])

/-- hull.go:12-65 `ConvexHull`, see Model/Hull.lean -/
def ConvexHullA (A : HullArith) (srt : List (Vector F64) → List (Vector F64)) (Vs : List (Vector F64)) : List (Vector F64) :=
  let sorted := srt Vs
  let distinct := filterLoopA A sorted.length 0 0 sorted
  let (Ur, Lr) := hullLoopA A distinct
  Lr.reverse.dropLast ++ Ur.dropLast

/-- every value is one that the formula of the code may have with some of the products fused -/
structure FusedHull (A : HullArith) : Prop where
  near : ∀ u v, Ev (SquaredDistance (lf u) (lf v)) (A.near u v)
  up : ∀ u v w, Ev (cross2D (lf u) (lf v) (lf w)) (A.up u v w)
  low : ∀ u v w, Ev (cross2D (lf u) (lf v) (lf w)) (A.low u v w)

theorem plainHull_fused : FusedHull HullArith.plain where
  near _ _ := Ev.eval _
  up _ _ _ := Ev.eval _
  low _ _ _ := Ev.eval _

/-- everything fused that can be -/
def HullArith.fused : HullArith :=
  ⟨fun u v => (SquaredDistance (lf u) (lf v)).fuse, fun u v w => (cross2D (lf u) (lf v) (lf w)).fuse, fun u v w => (cross2D (lf u) (lf v) (lf w)).fuse⟩

theorem fusedHull_fused : FusedHull HullArith.fused where
  near _ _ := Ev.fuse _
  up _ _ _ := Ev.fuse _
  low _ _ _ := Ev.fuse _

end Verif.Tri2

namespace Verif.Meshing
open Verif Verif.R3 Verif.Tri2

/-- the float64 values of the formulas in package meshing used by `bowyerWatson` -/
structure MeshArith where
  /-- helper.go:98 -/
  xtetra : Helper F64 → F64
  /-- helper.go:99 -/
  ytetra : Helper F64 → F64
  /-- helper.go:100 -/
  ztetra : Helper F64 → F64
  /-- mesh.go:172 -/
  sphere : Vector F64 → Vector F64 → Vector F64 → Vector F64 → Vector F64 → F64

/-- no fusing -/
def MeshArith.plain : MeshArith :=
  ⟨fun h => (computerInitialTetraPoints h).2.1.X, fun h => (computerInitialTetraPoints h).2.2.1.Y, fun h => (computerInitialTetraPoints h).2.2.2.Z,
    Predicates.InSphereFast⟩

/-- meshing/mesh.go:111-133 `englobe`, see Model/Meshing.lean -/
def englobeA (A : MeshArith) (points : List (Vector F64)) : List (Vector F64) :=
  let h := findExtremas points
  ⟨h.min.X, h.min.Y, h.min.Z⟩ :: ⟨A.xtetra h, h.min.Y, h.min.Z⟩ :: ⟨h.min.X, A.ytetra h, h.min.Z⟩ :: ⟨h.min.X, h.min.Y, A.ztetra h⟩ :: points

/-- meshing/mesh.go:156-220 `bowyerWatson`, see Model/Meshing.lean -/
def bowyerWatsonA (A : MeshArith) (sched : Sched) (points : List (Vector F64)) : Res (List Int) :=
  bowyerWatsonWith (fun a b c d e => decide ((0 : F64) ≤ A.sphere a b c d e)) sched (englobeA A points) points

/-- the expressions of the coordinates -/
def lfh (h : Helper F64) : Helper (Expr F64) := ⟨lf h.min, lf h.max⟩

/-- every value is one that the formula of the code may have with some of the products fused -/
structure FusedMesh (A : MeshArith) : Prop where
  xtetra : ∀ h, Ev (computerInitialTetraPoints (lfh h)).2.1.X (A.xtetra h)
  ytetra : ∀ h, Ev (computerInitialTetraPoints (lfh h)).2.2.1.Y (A.ytetra h)
  ztetra : ∀ h, Ev (computerInitialTetraPoints (lfh h)).2.2.2.Z (A.ztetra h)
  sphere : ∀ a b c d e, Ev (Predicates.InSphereFast (lf a) (lf b) (lf c) (lf d) (lf e)) (A.sphere a b c d e)

theorem plainMesh_fused : FusedMesh MeshArith.plain where
  xtetra _ := Ev.eval _
  ytetra _ := Ev.eval _
  ztetra _ := Ev.eval _
  sphere _ _ _ _ _ := Ev.eval _

/-- everything fused that can be -/
def MeshArith.fused : MeshArith :=
  ⟨fun h => (computerInitialTetraPoints (lfh h)).2.1.X.fuse, fun h => (computerInitialTetraPoints (lfh h)).2.2.1.Y.fuse,
    fun h => (computerInitialTetraPoints (lfh h)).2.2.2.Z.fuse, fun a b c d e => (Predicates.InSphereFast (lf a) (lf b) (lf c) (lf d) (lf e)).fuse⟩

theorem fusedMesh_fused : FusedMesh MeshArith.fused where
  xtetra _ := Ev.fuse _
  ytetra _ := Ev.fuse _
  ztetra _ := Ev.fuse _
  sphere _ _ _ _ _ := Ev.fuse _

end Verif.Meshing
