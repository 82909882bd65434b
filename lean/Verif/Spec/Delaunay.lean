import Mathlib.Algebra.Order.Field.Basic
import Verif.Model.R3
/-!
# What a Delaunay triangulation is

Independent of the model: a triangulation is a list `ts` of vertex numbers, three per triangle, into a list of points `Vs`.
-/
namespace Verif.Spec
open Verif

variable {K : Type} [Field K] [LinearOrder K] [IsStrictOrderedRing K]

/-- positive for a counter-clockwise triple -/
def orient (a b c : R3.Vector K) : K := (b.X - a.X) * (c.Y - a.Y) - (b.Y - a.Y) * (c.X - a.X)

/-- squared distance in the plane -/
def sqd (a b : R3.Vector K) : K := (a.X - b.X)^2 + (a.Y - b.Y)^2

/-- `a`, `b`, `c` are the corners of the triangle with number `k` -/
def Corners (Vs : List (R3.Vector K)) (ts : List ℤ) (k : ℕ) (a b c : R3.Vector K) : Prop :=
  ∃ i j l : ℕ, ts[3*k]? = some (i:ℤ) ∧ ts[3*k+1]? = some (j:ℤ) ∧ ts[3*k+2]? = some (l:ℤ) ∧ Vs[i]? = some a ∧ Vs[j]? = some b ∧ Vs[l]? = some c

/-- `v` is a corner of some triangle -/
def IsVertex (Vs : List (R3.Vector K)) (ts : List ℤ) (v : R3.Vector K) : Prop := ∃ i : ℕ, (i:ℤ) ∈ ts ∧ Vs[i]? = some v

/-- all triangles are clockwise, and no vertex lies strictly inside the circumcircle of a triangle -/
structure Delaunay (Vs : List (R3.Vector K)) (ts : List ℤ) : Prop where
  corners : ∀ k, 3*k < ts.length → ∃ a b c, Corners Vs ts k a b c
  clockwise : ∀ k a b c, Corners Vs ts k a b c → orient a b c < 0
  empty : ∀ k a b c, Corners Vs ts k a b c → ∃ o, sqd o a = sqd o b ∧ sqd o a = sqd o c ∧ ∀ v, IsVertex Vs ts v → sqd o a ≤ sqd o v

/-- `p q` is an edge of the closed polygon `hull` -/
def HullEdge (hull : List (R3.Vector K)) (p q : R3.Vector K) : Prop :=
  ∃ i, hull[i]? = some p ∧ hull[(i+1) % hull.length]? = some q

/-- `x` lies inside the polygon or on its boundary (for a convex counter-clockwise polygon) -/
def Inside (hull : List (R3.Vector K)) (x : R3.Vector K) : Prop := ∀ p q, HullEdge hull p q → 0 ≤ orient p q x

/-- `x` lies in the clockwise triangle `a b c` or on its boundary -/
def InTri (a b c x : R3.Vector K) : Prop := orient a b x ≤ 0 ∧ orient b c x ≤ 0 ∧ orient c a x ≤ 0

end Verif.Spec
