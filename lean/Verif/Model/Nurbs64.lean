import Verif.Model.Nurbs
/-!
# `findSpan` with machine integers

`w` is applied to every result of an integer addition; `(low + high) / 2` is Go's truncating division of the wrapped sum.
-/
namespace Verif.Nurbs
open Verif Verif.R3

variable {F : Type} (w : ℤ → ℤ)

/-- nurbs/basis.go:22-32 the binary search loop -/
def findSpanLoopW [LT F] [DecidableLT F] [LE F] [DecidableLE F] [GoOfInt F] (u : F) (U : List ℤ) :
    (fuel : ℕ) → (low high mid : ℤ) → Res ℤ
  | 0, _, _, _ => .fuel
  | fuel + 1, low, high, mid => do
    let um ← goGet U mid
    let below := decide (u < GoOfInt.ofInt um)
    let go ← if below then pure true else do
      let um1 ← goGet U (w (mid+1))
      pure (decide ((GoOfInt.ofInt um1 : F) ≤ u))
    if go then
      let low' := if below then low else mid
      let high' := if below then mid else high
      findSpanLoopW u U fuel low' high' (Int.tdiv (w (low' + high')) 2)
    else pure mid

/-- nurbs/basis.go:13-34 `findSpan` -/
def findSpanW [LT F] [DecidableLT F] [LE F] [DecidableLE F] [BEq F] [GoOfInt F]
    (fuel : ℕ) (n p : ℤ) (u : F) (U : List ℤ) : Res ℤ := do
  let un1 ← goGet U (w (n+1))
  if u == (GoOfInt.ofInt un1 : F) then pure n
  else findSpanLoopW w u U fuel p (w (n+1)) (Int.tdiv (w (p + w (n+1))) 2)

end Verif.Nurbs
