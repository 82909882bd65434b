import Verif.Model.R3
/-!
# Model of package `nurbs` (basis.go, curve.go)

Knots are Go `int`s, parameters are scalars of type `F`. The `fmt.Println` calls are not modelled. The
external type `vec3.T` is represented by `R3.Vector`; `Scaled` multiplies and `Add` adds componentwise.
-/
namespace Verif.Nurbs
open Verif Verif.R3

variable {F : Type}

/-- nurbs/basis.go:22-32 the binary search loop -/
def findSpanLoop [LT F] [DecidableLT F] [LE F] [DecidableLE F] [GoOfInt F] (u : F) (U : List Int) :
    (fuel : Nat) → (low high mid : Int) → Res Int
  | 0, _, _, _ => .fuel
  | fuel + 1, low, high, mid => do
    let um ← goGet U mid
    let below := decide (u < GoOfInt.ofInt um)
    -- the right operand of `||` is evaluated only if the left one is false
    let go ← if below then pure true else do
      let um1 ← goGet U (mid+1)
      pure (decide ((GoOfInt.ofInt um1 : F) ≤ u))
    if go then
      let low' := if below then low else mid
      let high' := if below then mid else high
      findSpanLoop u U fuel low' high' (Int.tdiv (low' + high') 2)
    else pure mid

/-- nurbs/basis.go:13-34 `findSpan` -/
def findSpan [LT F] [DecidableLT F] [LE F] [DecidableLE F] [BEq F] [GoOfInt F]
    (fuel : Nat) (n p : Int) (u : F) (U : List Int) : Res Int := do
  let un1 ← goGet U (n+1)
  if u == (GoOfInt.ofInt un1 : F) then pure n
  else findSpanLoop u U fuel p (n+1) (Int.tdiv (p + (n+1)) 2)

/-- nurbs/basis.go:55-59 the inner loop of `basisFuns`; `m` iterations remain, returns `N` and `saved` -/
def basisInner [_root_.Add F] [Mul F] [Div F] (left right : List F) (j : Int) :
    (m : Nat) → (r : Int) → (N : List F) → (saved : F) → Res (List F × F)
  | 0, _, N, saved => pure (N, saved)
  | m + 1, r, N, saved => do
    let nr ← goGet N r
    let rr ← goGet right (r+1)
    let lj ← goGet left (j-r)
    let temp := nr / (rr + lj)
    let N ← goSet N r (saved + rr*temp)
    let saved := lj * temp
    basisInner left right j m (r+1) N saved

/-- nurbs/basis.go:51-61 the outer loop of `basisFuns` -/
def basisOuter [_root_.Add F] [_root_.Sub F] [Mul F] [Div F] [OfNat F 0] [GoOfInt F]
    (i : Int) (u : F) (U : List Int) :
    (m : Nat) → (j : Int) → (left right N : List F) → Res (List F)
  | 0, _, _, _, N => pure N
  | m + 1, j, left, right, N => do
    let ul ← goGet U (i+1-j)
    let left ← goSet left j (u - GoOfInt.ofInt ul)
    let ur ← goGet U (i+j)
    let right ← goSet right j (GoOfInt.ofInt ur - u)
    let (N, saved) ← basisInner left right j j.toNat 0 N 0
    let N ← goSet N j saved
    basisOuter i u U m (j+1) left right N

/-- nurbs/basis.go:45-63 `basisFuns` -/
def basisFuns [_root_.Add F] [_root_.Sub F] [Mul F] [Div F] [OfNat F 0] [OfNat F 1] [GoOfInt F]
    (i : Int) (u : F) (p : Int) (U : List Int) : Res (List F) := do
  -- `make` panics for a negative length; `N[0] = 1.` panics for length zero
  if p + 1 < 0 then .panic
  else do
    let N : List F := List.replicate (p+1).toNat 0
    let left : List F := List.replicate (p+1).toNat 0
    let right : List F := List.replicate (p+1).toNat 0
    let N ← goSet N 0 1
    basisOuter i u U p.toNat 1 left right N

/-- nurbs/curve.go:22-25 the accumulation loop: `m` iterations remain -/
def curveLoop [_root_.Add F] [Mul F] (P : List (Vector F)) (N : List F) (base : Int) :
    (m : Nat) → (i : Int) → (C : Vector F) → Res (Vector F)
  | 0, _, C => pure C
  | m + 1, i, C => do
    let pt ← goGet P (base + i)
    let w ← goGet N i
    let B : Vector F := ⟨pt.X * w, pt.Y * w, pt.Z * w⟩
    curveLoop P N base m (i+1) ⟨C.X + B.X, C.Y + B.Y, C.Z + B.Z⟩

/-- nurbs/curve.go:17-27 `curvePoint` -/
def curvePoint [_root_.Add F] [_root_.Sub F] [Mul F] [Div F] [LT F] [DecidableLT F] [LE F] [DecidableLE F]
    [BEq F] [OfNat F 0] [OfNat F 1] [GoOfInt F]
    (fuel : Nat) (n p : Int) (U : List Int) (P : List (Vector F)) (u : F) : Res (Vector F) := do
  let span ← findSpan fuel n p u U
  let N ← basisFuns span u p U
  curveLoop P N (span - p) (p+1).toNat 0 ⟨0, 0, 0⟩

/-- `m[i][j]` -/
def get2 (m : List (List F)) (i j : Int) : Res F := do
  let row ← goGet m i
  goGet row j

/-- `m[i][j] = v` -/
def set2 (m : List (List F)) (i j : Int) (v : F) : Res (List (List F)) := do
  let row ← goGet m i
  let row ← goSet row j v
  goSet m i row

/-- nurbs/basis.go:98-105 -/
def dersInner [_root_.Add F] [Mul F] [Div F] (left right : List F) (j : Int) :
    (m : Nat) → (r : Int) → (ndu : List (List F)) → (saved : F) → Res (List (List F) × F)
  | 0, _, ndu, saved => pure (ndu, saved)
  | m + 1, r, ndu, saved => do
    let rr ← goGet right (r+1)
    let lj ← goGet left (j-r)
    let ndu ← set2 ndu j r (rr + lj)
    let x ← get2 ndu r (j-1)
    let y ← get2 ndu j r
    let temp := x / y
    let ndu ← set2 ndu r j (saved + rr*temp)
    let saved := lj * temp
    dersInner left right j m (r+1) ndu saved

/-- nurbs/basis.go:94-107 (the parameter `u` is an `int` here; line 96 reads `U[i+1]`) -/
def dersOuter [_root_.Add F] [Mul F] [Div F] [OfNat F 0] [GoOfInt F] (i u : Int) (U : List Int) :
    (m : Nat) → (j : Int) → (left right : List F) → (ndu : List (List F)) → Res (List (List F))
  | 0, _, _, _, ndu => pure ndu
  | m + 1, j, left, right, ndu => do
    let ul ← goGet U (i+1-j)
    let left ← goSet left j (GoOfInt.ofInt (u - ul))
    let ur ← goGet U (i+1)
    let right ← goSet right j (GoOfInt.ofInt (ur - u))
    let (ndu, saved) ← dersInner left right j j.toNat 0 ndu 0
    let ndu ← set2 ndu j j saved
    dersOuter i u U m (j+1) left right ndu

/-- nurbs/basis.go:110-112 -/
def dersLoad (p : Int) (ndu : List (List F)) :
    (m : Nat) → (j : Int) → (ders : List (List F)) → Res (List (List F))
  | 0, _, ders => pure ders
  | m + 1, j, ders => do
    let x ← get2 ndu j p
    let ders ← set2 ders 0 j x
    dersLoad p ndu m (j+1) ders

/-- nurbs/basis.go:142-145 (line 144 reads `ndu[r][pk]`) -/
def dersJ [_root_.Add F] [_root_.Sub F] [Mul F] [Div F] (ndu : List (List F)) (s1 s2 r rk pk : Int) :
    (m : Nat) → (j : Int) → (a : List (List F)) → (d : F) → Res (List (List F) × F)
  | 0, _, a, d => pure (a, d)
  | m + 1, j, a, d => do
    let x ← get2 a s1 j
    let y ← get2 a s1 (j-1)
    let z ← get2 ndu (pk+1) (rk+j)
    let a ← set2 a s2 j ((x - y) / z)
    let w ← get2 a s2 j
    let v ← get2 ndu r pk
    dersJ ndu s1 s2 r rk pk m (j+1) a (d + w*v)

/-- nurbs/basis.go:122-155 -/
def dersK [_root_.Add F] [_root_.Sub F] [Neg F] [Mul F] [Div F] [OfNat F 0] (ndu : List (List F)) (p r : Int) :
    (m : Nat) → (k s1 s2 : Int) → (a ders : List (List F)) → Res (List (List F) × List (List F))
  | 0, _, _, _, a, ders => pure (a, ders)
  | m + 1, k, s1, s2, a, ders => do
    let rk := r - k
    let pk := p - k
    let (a, d) ← (if k ≤ r then do
        let x ← get2 a s1 0
        let y ← get2 ndu (pk+1) rk
        let a ← set2 a s2 0 (x / y)
        let w ← get2 a s2 0
        let v ← get2 ndu rk pk
        pure (a, w*v)
      else pure (a, (0 : F)) : Res (List (List F) × F))
    let j1 : Int := if -1 ≤ rk then 1 else -rk
    let j2 : Int := if r - 1 ≤ pk then k - 1 else p - r
    let (a, d) ← dersJ ndu s1 s2 r rk pk (j2 + 1 - j1).toNat j1 a d
    let (a, d) ← (if r ≤ pk then do
        let x ← get2 a s1 (k-1)
        let y ← get2 ndu (pk+1) r
        let a ← set2 a s2 k (-x / y)
        let w ← get2 a s2 k
        let v ← get2 ndu r pk
        pure (a, d + w*v)
      else pure (a, d) : Res (List (List F) × F))
    let ders ← set2 ders k r d
    dersK ndu p r m (k+1) s2 s1 a ders

/-- nurbs/basis.go:116-156 -/
def dersR [_root_.Add F] [_root_.Sub F] [Neg F] [Mul F] [Div F] [OfNat F 0] [OfNat F 1]
    (ndu : List (List F)) (p n : Int) :
    (m : Nat) → (r : Int) → (a ders : List (List F)) → Res (List (List F))
  | 0, _, _, ders => pure ders
  | m + 1, r, a, ders => do
    let a ← set2 a 0 0 1
    let (a, ders) ← dersK ndu p r n.toNat 1 0 1 a ders
    dersR ndu p n m (r+1) a ders

/-- nurbs/basis.go:160-162 -/
def dersScaleRow [Mul F] [GoOfInt F] (k r : Int) :
    (m : Nat) → (j : Int) → (ders : List (List F)) → Res (List (List F))
  | 0, _, ders => pure ders
  | m + 1, j, ders => do
    let x ← get2 ders k j
    let ders ← set2 ders k j (x * GoOfInt.ofInt r)
    dersScaleRow k r m (j+1) ders

/-- nurbs/basis.go:159-164 -/
def dersScale [Mul F] [GoOfInt F] (p : Int) :
    (m : Nat) → (k r : Int) → (ders : List (List F)) → Res (List (List F))
  | 0, _, _, ders => pure ders
  | m + 1, k, r, ders => do
    let ders ← dersScaleRow k r (p+1).toNat 0 ders
    dersScale p m (k+1) (r * (p - k)) ders

/-- nurbs/basis.go:79-166 `dersBasisFuns`. Note that `ndu[0][0]` is never set (it stays 0). -/
def dersBasisFuns [_root_.Add F] [_root_.Sub F] [Neg F] [Mul F] [Div F] [OfNat F 0] [OfNat F 1] [GoOfInt F]
    (i u p n : Int) (U : List Int) : Res (List (List F)) := do
  if p + 1 < 0 then .panic
  else do
    let sz := (p+1).toNat
    let zeros : List (List F) := List.replicate sz (List.replicate sz 0)
    let vec : List F := List.replicate sz 0
    let ndu ← dersOuter i u U p.toNat 1 vec vec zeros
    let ders ← dersLoad p ndu sz 0 zeros
    let ders ← dersR ndu p n sz 0 zeros ders
    dersScale p n.toNat 1 p ders

end Verif.Nurbs
