import Verif.Model.Nurbs
import Verif.Model.Fused
/-!
# Model of `basisFuns` and `curvePoint` with fused multiply-adds

The branches, the slice indices and the panics of `basisFuns` and of the loop of `curvePoint` do not depend on the values of the scalars. The model of
nurbs/basis.go and nurbs/curve.go taken at expressions as scalars therefore returns, for every call, the formulas of the results in the parameter, the knots and
the coordinates of the control points; `Ev` of `Go/Fma.lean` gives the values that a program may compute for them. The fused sites are `saved + right[r+1]*temp`
(basis.go:57), also with `saved = left[j-r]*temp` of line 58 of the iteration before as the fused product, and `C.Add(B)` with `B = P[..].Scaled(N[i])`
(curve.go:23-24) once both are inlined. `findSpan` computes no product.
-/
namespace Verif.Nurbs
open Verif Verif.R3
open Verif.Tri2 (lf)

/-- `float64(n)` -/
instance {F : Type} [GoOfInt F] : GoOfInt (Expr F) := ⟨fun n => .leaf (GoOfInt.ofInt n)⟩

/-- nurbs/basis.go:45-63 `basisFuns`: the formulas of the values -/
def basisExpr (i : Int) (u : F64) (p : Int) (U : List Int) : Res (List (Expr F64)) := basisFuns i (Expr.leaf u) p U

/-- nurbs/curve.go:17-27 `curvePoint`: the formulas of the coordinates -/
def curveExpr (fuel : Nat) (n p : Int) (U : List Int) (P : List (Vector F64)) (u : F64) : Res (Vector (Expr F64)) := do
  let span ← findSpan fuel n p u U
  let N ← basisExpr span u p U
  curveLoop (P.map lf) N (span - p) (p+1).toNat 0 ⟨0, 0, 0⟩

end Verif.Nurbs
