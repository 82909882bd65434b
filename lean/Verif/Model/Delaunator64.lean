import Verif.Model.Delaunator
/-!
# The triangulator with machine integers

The functions of `Model/Delaunator.lean` that add, subtract or multiply `int`s, with a function `w` applied to every result of such an operation.
For `w = wrap64` this is Go's 64-bit arithmetic, where results are taken modulo 2^64 into the range from -2^63 to 2^63-1. `%` with a constant positive
divisor cannot overflow. Conversions of `len` and of the loop index of `range` do not overflow either.
-/
namespace Verif.Tri2
open Verif Verif.R3

/-- Go `int` on a 64-bit machine: the representative of `z` modulo 2^64 in [-2^63, 2^63) -/
def wrap64 (z : ℤ) : ℤ := (z + 2^63) % 2^64 - 2^63

variable (w : ℤ → ℤ)

/-- triangulate2/triangulator.go:259-269 `addTriangle` -/
def addTriangleW (s : St) (i0 i1 i2 a b c : ℤ) : Res (St × ℤ) := do
  let i := s.trianglesLen
  let t ← goSet s.triangles i i0
  let t ← goSet t (w (i+1)) i1
  let t ← goSet t (w (i+2)) i2
  let s := { s with triangles := t }
  let s ← link s i a
  let s ← link s (w (i+1)) b
  let s ← link s (w (i+2)) c
  pure ({ s with trianglesLen := w (s.trianglesLen + 3) }, i)

variable {P : Type}

/-- triangulate2/triangulator.go:278-345 `legalize` -/
def legalizeW (g : Geo P) (Vs : List P) : (fuel : ℕ) → St → ℤ → Res (St × ℤ)
  | 0, _, _ => .fuel
  | fuel + 1, s, a => do
    let b ← goGet s.halfedges a
    let a0 := w (a - Int.tmod a 3)
    let b0 := w (b - Int.tmod b 3)
    let al := w (a0 + Int.tmod (w (a+1)) 3)
    let ar := w (a0 + Int.tmod (w (a+2)) 3)
    let bl := w (b0 + Int.tmod (w (b+2)) 3)
    if b < 0 then pure (s, ar)
    else do
      let p0 ← goGet s.triangles ar
      let pr ← goGet s.triangles a
      let pl ← goGet s.triangles al
      let p1 ← goGet s.triangles bl
      let v0 ← goGet Vs p0
      let vr ← goGet Vs pr
      let vl ← goGet Vs pl
      let v1 ← goGet Vs p1
      if g.inC v0 vr vl v1 then do
        let t ← goSet s.triangles a p1
        let t ← goSet t b p0
        let s := { s with triangles := t }
        let hbl ← goGet s.halfedges bl
        let s ← if hbl = -1 then fixHull bl a (s.nodes.length + 1) s s.hull else pure s
        let hbl ← goGet s.halfedges bl
        let s ← link s a hbl
        let har ← goGet s.halfedges ar
        let s ← link s b har
        let s ← link s ar bl
        let br := w (b0 + Int.tmod (w (b+1)) 3)
        let (s, _) ← legalizeW g Vs fuel s a
        legalizeW g Vs fuel s br
      else pure (s, ar)

/-- triangulate2/triangulator.go:183-192 -/
def findStartW (s : St) : (m : ℕ) → (key : ℤ) → (start : Option ℕ) → Res (Option ℕ)
  | 0, _, start => pure start
  | m + 1, key, _ => do
    let start ← goGet s.hash key
    let live ← match start with
      | none => pure false
      | some _ => do let n ← s.deref start; pure (decide (0 ≤ n.i))
    if live then pure start
    else
      let key := w (key + 1)
      let key := if (s.hash.length : ℤ) ≤ key then 0 else key
      findStartW s m key start

/-- triangulate2/triangulator.go:219-224 the forward walk -/
def walkForwardW (g : Geo P) (Vs : List P) (lf : ℕ) (i : ℤ) (p : P) :
    (fuel : ℕ) → St → (q : Option ℕ) → Res St
  | 0, _, _ => .fuel
  | fuel + 1, s, q => do
    let nq ← s.deref q
    let a ← goGet Vs nq.i
    let nn ← s.deref nq.next
    let b ← goGet Vs nn.i
    if g.areaLt p a b then do
      let np ← s.deref nq.prev
      let (s, t) ← addTriangleW w s nq.i i nn.i np.t (-1) nq.t
      let (s, r) ← legalizeW w g Vs lf s (w (t+2))
      let nq ← s.deref q
      let s ← s.modNode nq.prev (fun x => { x with t := r })
      let (s, h) ← remove s q
      let s := { s with hull := h }
      let nq ← s.deref q
      walkForwardW g Vs lf i p fuel s nq.next
    else pure s

/-- triangulate2/triangulator.go:229-235 the backward walk -/
def walkBackwardW (g : Geo P) (Vs : List P) (lf : ℕ) (i : ℤ) (p : P) :
    (fuel : ℕ) → St → (q : Option ℕ) → Res St
  | 0, _, _ => .fuel
  | fuel + 1, s, q => do
    let nq ← s.deref q
    let np ← s.deref nq.prev
    let a ← goGet Vs np.i
    let b ← goGet Vs nq.i
    if g.areaLt p a b then do
      let (s, t) ← addTriangleW w s np.i i nq.i (-1) nq.t np.t
      let (s, _) ← legalizeW w g Vs lf s (w (t+2))
      let nq ← s.deref q
      let s ← s.modNode nq.prev (fun x => { x with t := t })
      let (s, h) ← remove s q
      let s := { s with hull := h }
      let nq ← s.deref q
      walkBackwardW g Vs lf i p fuel s nq.prev
    else pure s

/-- triangulate2/triangulator.go:180-240: insertion of the point with index `i` -/
def insertPointW (g : Geo P) (Vs : List P) (fuel : ℕ) (s : St) (i : ℤ) (p : P) : Res St := do
  let start ← findStartW w s s.hash.length (g.key p) none
  let ns ← s.deref start
  let start := ns.prev
  let e ← findVisible g Vs p start s fuel start
  match e with
  | none => pure s
  | some _ => do
    let walkBack := decide (e = start)
    let ne ← s.deref e
    let nn ← s.deref ne.next
    let (s, t) ← addTriangleW w s ne.i i nn.i (-1) (-1) ne.t
    let s ← s.modNode e (fun x => { x with t := t })
    let (s, e) ← newNode s i e
    let (s, r) ← legalizeW w g Vs fuel s (w (t+2))
    let s ← s.modNode e (fun x => { x with t := r })
    let ne ← s.deref e
    let s ← walkForwardW w g Vs fuel i p fuel s ne.next
    let s ← if walkBack then do
        let ne ← s.deref e
        walkBackwardW w g Vs fuel i p fuel s ne.prev
      else pure s
    let s ← hashEdge g Vs s e
    let ne ← s.deref e
    hashEdge g Vs s ne.prev

/-- triangulate2/triangulator.go:165-241: the main loop -/
def mainLoopW (g : Geo P) (Vs : List P) (fuel : ℕ) (i0 i1 i2 : ℤ) :
    List ℤ → Option P → St → Res St
  | [], _, s => pure s
  | i :: ids, pp, s => do
    let p ← goGet Vs i
    let skip := match pp with
      | none => false
      | some q => g.near p q
    if skip then mainLoopW g Vs fuel i0 i1 i2 ids pp s
    else if i = i0 ∨ i = i1 ∨ i = i2 then mainLoopW g Vs fuel i0 i1 i2 ids (some p) s
    else do
      let s ← insertPointW w g Vs fuel s i p
      mainLoopW g Vs fuel i0 i1 i2 ids (some p) s

/-- triangulate2/triangulator.go:137-162: the state before the main loop -/
def initStateW (g : Geo P) (Vs : List P) (hashSize : ℕ) (i0 i1 i2 : ℤ) : Res St := do
  let n := Vs.length
  let s : St := ⟨[], [], 0, none, List.replicate hashSize none, List.replicate n Node.zero⟩
  let (s, e) ← newNode s i0 none
  let s ← s.modNode e (fun x => { x with t := 0 })
  let s ← hashEdge g Vs s e
  let (s, e) ← newNode s i1 e
  let s ← s.modNode e (fun x => { x with t := 1 })
  let s ← hashEdge g Vs s e
  let (s, e) ← newNode s i2 e
  let s ← s.modNode e (fun x => { x with t := 2 })
  let s ← hashEdge g Vs s e
  let s := { s with hull := e }
  let maxTriangles : ℤ := w (w (2 * n) - 5)
  -- `make([]int, maxTriangles*3)` panics for a negative length
  if w (maxTriangles * 3) < 0 then .panic
  else do
    let s := { s with triangles := List.replicate (w (maxTriangles * 3)).toNat 0
                      halfedges := List.replicate (w (maxTriangles * 3)).toNat 0 }
    let (s, _) ← addTriangleW w s i0 i1 i2 (-1) (-1) (-1)
    pure s

/-- triangulate2/triangulator.go:137-246 for given seed indices and sorted ids -/
def triangulateCoreW (g : Geo P) (Vs : List P) (fuel : ℕ) (hashSize : ℕ) (i0 i1 i2 : ℤ)
    (ids : List ℤ) : Res St := do
  let s ← initStateW w g Vs hashSize i0 i1 i2
  let s ← mainLoopW w g Vs fuel i0 i1 i2 ids none s
  pure { s with triangles := s.triangles.take s.trianglesLen.toNat
                halfedges := s.halfedges.take s.trianglesLen.toNat }

/-- triangulate2/triangulation.go:17-21 `Triangulate` with machine integers; the search for the seeds, the sort and the walk along the hull do no integer
arithmetic except counting up to `n` -/
def TriangulateW {F : Type} [_root_.Add F] [_root_.Sub F] [Mul F] [Div F] [LT F] [DecidableLT F] [GoTop F] [LE F] [DecidableLE F]
    [BEq F] [GoAbs F] [GoMinMax F] [GoConst F] [GoTrunc F] [GoOfInt F]
    [OfNat F 0] [OfNat F 1] [OfNat F 2] [OfNat F 3] [OfNat F 4]
    (srt : (center : Vector F) → List ℤ → List ℤ) (hashSize : ℕ → ℕ) (fuel : ℕ)
    (Vs : List (Vector F)) : Res (TriOut F) := do
  let n := Vs.length
  if n = 0 then pure (.triangulation [] [] [])
  else do
    let (x0, x1, y0, y1) ← bounds Vs
    let m : Vector F := ⟨(x0 + x1) / 2, (y0 + y1) / 2, 0⟩
    let i0 := seed0 Vs m
    let p0 ← goGet Vs i0
    let i1 := seed1 Vs i0 p0
    let p1 ← goGet Vs i1
    let (i2, minRadius) := seed2 Vs i0 i1 p0 p1
    match minRadius with
    | none => pure .noTriangulation
    | some _ => do
      let p2 ← goGet Vs i2
      let (i1, i2) := if area p0 p1 p2 < (0 : F) then (i2, i1) else (i1, i2)
      let p1 ← goGet Vs i1
      let p2 ← goGet Vs i2
      let center := circumcenter p0 p1 p2
      let ids := srt center ((List.range n).map Int.ofNat)
      let g : Geo (Vector F) := Geo.ofScalar (hashSize n) center
      let s ← triangulateCoreW w g Vs fuel (hashSize n) i0 i1 i2 ids
      let hull ← hullWalk Vs s fuel s.hull []
      pure (.triangulation hull s.triangles s.halfedges)

end Verif.Tri2
