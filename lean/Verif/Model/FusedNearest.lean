import Verif.Model.FusedLine
import Verif.Model.Meshing
/-!
# The nearest point with fused multiply-adds
-/
namespace Verif.Meshing
open Verif Verif.R3

/-- meshing/helper.go:32-42 the loop of `getNearestPoint`: from `minDistance` and `nearestPoint` to their final values; every distance may be fused differently -/
inductive NearestLoop (centroid : Vector F64) : F64 × Vector F64 → List (Vector F64) → F64 × Vector F64 → Prop where
  | done (acc) : NearestLoop centroid acc [] acc
  | step {acc vertex rest distance r} : DistanceEv vertex centroid distance →
      NearestLoop centroid (if distance ≤ acc.1 then (distance, vertex) else acc) rest r → NearestLoop centroid acc (vertex :: rest) r

/-- meshing/helper.go:26-44 `getNearestPoint`: the points the program may return -/
def NearestEv (vertices : List (Vector F64)) (centroid p : Vector F64) : Prop :=
  ∃ m, NearestLoop centroid (GoConst.const maxFloat64, ⟨0, 0, 0⟩) vertices (m, p)

end Verif.Meshing
