import Verif.Model.Hull
/-!
# Model of triangulate2/node.go, triangulator.go and triangulation.go

Pointers to `node` are indices into the slice `nodes` (every `*node` of the program is `&nodes[i]`),
`none` is `nil`. The point type `P` and the float predicates are collected in a structure `Geo`, so that the
data structure code can be studied for arbitrary predicates as well as for the real ones (`Geo.ofScalar`).
Loops and recursion without an evident bound take `fuel`.
-/
namespace Verif.Tri2
open Verif Verif.R3



/-- triangulate2/node.go:3-8 `type node struct` -/
structure Node where
  i : Int
  t : Int
  prev : Option Nat
  next : Option Nat
  deriving DecidableEq, Repr

/-- the zero value of `node` (elements of `make([]node, n)`) -/
def Node.zero : Node := ⟨0, 0, none, none⟩

/-- triangulate2/triangulator.go:10-20 the mutable part of `type triangulator struct`, together with the
slice `nodes` of line 142 -/
structure St where
  triangles : List Int
  halfedges : List Int
  trianglesLen : Int
  hull : Option Nat
  hash : List (Option Nat)
  nodes : List Node
  deriving DecidableEq, Repr

/-- The float predicates used by the triangulator on points of type `P`. -/
structure Geo (P : Type) where
  /-- `area(a,b,c) >= 0` -/
  areaGe : P → P → P → Bool
  /-- `area(a,b,c) < 0` -/
  areaLt : P → P → P → Bool
  /-- `inCircle(a,b,c,p)` -/
  inC : P → P → P → P → Bool
  /-- `SquaredDistance(p, pp) < eps` -/
  near : P → P → Bool
  /-- `hashKey(p)` -/
  key : P → Int

/-- pointer dereference -/
def St.deref (s : St) (p : Option Nat) : Res Node :=
  match p with
  | none => .panic
  | some k => Res.ofOption s.nodes[k]?

/-- assignment to fields of a node through a pointer -/
def St.modNode (s : St) (p : Option Nat) (f : Node → Node) : Res St :=
  match p with
  | none => .panic
  | some k => match s.nodes[k]? with
    | none => .panic
    | some n => .ok { s with nodes := s.nodes.set k (f n) }

/-- triangulate2/node.go:10-23 `newNode`: returns the new state and the pointer -/
def newNode (s : St) (i : Int) (prev : Option Nat) : Res (St × Option Nat) := do
  -- `n := &nodes[i]` panics when out of range
  let _ ← goGet s.nodes i
  let n : Option Nat := some i.toNat
  let s ← s.modNode n (fun x => { x with i := i })
  match prev with
  | none =>
    let s ← s.modNode n (fun x => { x with prev := n })
    let s ← s.modNode n (fun x => { x with next := n })
    pure (s, n)
  | some _ =>
    let pv ← s.deref prev
    let s ← s.modNode n (fun x => { x with next := pv.next })
    let s ← s.modNode n (fun x => { x with prev := prev })
    let pv ← s.deref prev
    let s ← s.modNode pv.next (fun x => { x with prev := n })
    let s ← s.modNode prev (fun x => { x with next := n })
    pure (s, n)

/-- triangulate2/node.go:25-30 `remove` -/
def remove (s : St) (n : Option Nat) : Res (St × Option Nat) := do
  let x ← s.deref n
  let s ← s.modNode x.prev (fun y => { y with next := x.next })
  let x ← s.deref n
  let s ← s.modNode x.next (fun y => { y with prev := x.prev })
  let s ← s.modNode n (fun y => { y with i := -1 })
  let x ← s.deref n
  pure (s, x.prev)

/-- triangulate2/triangulator.go:271-276 `link` -/
def link (s : St) (a b : Int) : Res St := do
  let h ← goSet s.halfedges a b
  let h ← if 0 ≤ b then goSet h b a else pure h
  pure { s with halfedges := h }

/-- triangulate2/triangulator.go:259-269 `addTriangle` -/
def addTriangle (s : St) (i0 i1 i2 a b c : Int) : Res (St × Int) := do
  let i := s.trianglesLen
  let t ← goSet s.triangles i i0
  let t ← goSet t (i+1) i1
  let t ← goSet t (i+2) i2
  let s := { s with triangles := t }
  let s ← link s i a
  let s ← link s (i+1) b
  let s ← link s (i+2) c
  pure ({ s with trianglesLen := s.trianglesLen + 3 }, i)

/-- triangulate2/triangulator.go:321-331: the search for the hull node whose `t` is `bl` -/
def fixHull (bl a : Int) : (fuel : Nat) → St → (e : Option Nat) → Res St
  | 0, _, _ => .fuel
  | fuel + 1, s, e => do
    let ne ← s.deref e
    if ne.t = bl then s.modNode e (fun n => { n with t := a })
    else if ne.next = s.hull then pure s
    else fixHull bl a fuel s ne.next

variable {P : Type}

/-- triangulate2/triangulator.go:278-345 `legalize`. Go's `%` truncates towards zero. -/
def legalize (g : Geo P) (Vs : List P) : (fuel : Nat) → St → Int → Res (St × Int)
  | 0, _, _ => .fuel
  | fuel + 1, s, a => do
    let b ← goGet s.halfedges a
    let a0 := a - Int.tmod a 3
    let b0 := b - Int.tmod b 3
    let al := a0 + Int.tmod (a+1) 3
    let ar := a0 + Int.tmod (a+2) 3
    let bl := b0 + Int.tmod (b+2) 3
    if b < 0 then pure (s, ar)
    else do
      let p0 ← goGet s.triangles ar
      let pr ← goGet s.triangles a
      let pl ← goGet s.triangles al
      let p1 ← goGet s.triangles bl
      let v0 ← goGet Vs p0
      let vr ← goGet Vs pr
      let vl ← goGet Vs pl
      let v1 ← goGet Vs p1
      if g.inC v0 vr vl v1 then do
        let t ← goSet s.triangles a p1
        let t ← goSet t b p0
        let s := { s with triangles := t }
        let hbl ← goGet s.halfedges bl
        let s ← if hbl = -1 then fixHull bl a (s.nodes.length + 1) s s.hull else pure s
        let hbl ← goGet s.halfedges bl
        let s ← link s a hbl
        let har ← goGet s.halfedges ar
        let s ← link s b har
        let s ← link s ar bl
        let br := b0 + Int.tmod (b+1) 3
        let (s, _) ← legalize g Vs fuel s a
        legalize g Vs fuel s br
      else pure (s, ar)

/-- triangulate2/triangulator.go:255-257 `hashEdge` -/
def hashEdge (g : Geo P) (Vs : List P) (s : St) (e : Option Nat) : Res St := do
  let ne ← s.deref e
  let p ← goGet Vs ne.i
  let h ← goSet s.hash (g.key p) e
  pure { s with hash := h }

/-- triangulate2/triangulator.go:183-192: `m` iterations remain, `start` is the current value of the
variable; returns the final value of `start`. -/
def findStart (s : St) : (m : Nat) → (key : Int) → (start : Option Nat) → Res (Option Nat)
  | 0, _, start => pure start
  | m + 1, key, _ => do
    let start ← goGet s.hash key
    let live ← match start with
      | none => pure false
      | some _ => do let n ← s.deref start; pure (decide (0 ≤ n.i))
    if live then pure start
    else
      let key := key + 1
      let key := if (s.hash.length : Int) ≤ key then 0 else key
      findStart s m key start

/-- triangulate2/triangulator.go:196-202: returns the final `e`, `none` for `nil` -/
def findVisible (g : Geo P) (Vs : List P) (p : P) (start : Option Nat) (s : St) :
    (fuel : Nat) → (e : Option Nat) → Res (Option Nat)
  | 0, _ => .fuel
  | fuel + 1, e => do
    let ne ← s.deref e
    let a ← goGet Vs ne.i
    let nn ← s.deref ne.next
    let b ← goGet Vs nn.i
    if g.areaGe p a b then
      let e := ne.next
      if e = start then pure none else findVisible g Vs p start s fuel e
    else pure e

/-- triangulate2/triangulator.go:219-224 the forward walk (`i` is the index of `p`); `lf` is the recursion
fuel handed to `legalize` -/
def walkForward (g : Geo P) (Vs : List P) (lf : Nat) (i : Int) (p : P) :
    (fuel : Nat) → St → (q : Option Nat) → Res St
  | 0, _, _ => .fuel
  | fuel + 1, s, q => do
    let nq ← s.deref q
    let a ← goGet Vs nq.i
    let nn ← s.deref nq.next
    let b ← goGet Vs nn.i
    if g.areaLt p a b then do
      let np ← s.deref nq.prev
      let (s, t) ← addTriangle s nq.i i nn.i np.t (-1) nq.t
      let (s, r) ← legalize g Vs lf s (t+2)
      -- `q.prev` is not changed by `legalize`
      let nq ← s.deref q
      let s ← s.modNode nq.prev (fun x => { x with t := r })
      let (s, h) ← remove s q
      let s := { s with hull := h }
      let nq ← s.deref q
      walkForward g Vs lf i p fuel s nq.next
    else pure s

/-- triangulate2/triangulator.go:229-235 the backward walk -/
def walkBackward (g : Geo P) (Vs : List P) (lf : Nat) (i : Int) (p : P) :
    (fuel : Nat) → St → (q : Option Nat) → Res St
  | 0, _, _ => .fuel
  | fuel + 1, s, q => do
    let nq ← s.deref q
    let np ← s.deref nq.prev
    let a ← goGet Vs np.i
    let b ← goGet Vs nq.i
    if g.areaLt p a b then do
      let (s, t) ← addTriangle s np.i i nq.i (-1) nq.t np.t
      let (s, _) ← legalize g Vs lf s (t+2)
      let nq ← s.deref q
      let s ← s.modNode nq.prev (fun x => { x with t := t })
      let (s, h) ← remove s q
      let s := { s with hull := h }
      let nq ← s.deref q
      walkBackward g Vs lf i p fuel s nq.prev
    else pure s

/-- triangulate2/triangulator.go:180-240: insertion of the point with index `i` -/
def insertPoint (g : Geo P) (Vs : List P) (fuel : Nat) (s : St) (i : Int) (p : P) : Res St := do
  let start ← findStart s s.hash.length (g.key p) none
  let ns ← s.deref start
  let start := ns.prev
  let e ← findVisible g Vs p start s fuel start
  match e with
  | none => pure s
  | some _ => do
    let walkBack := decide (e = start)
    let ne ← s.deref e
    let nn ← s.deref ne.next
    let (s, t) ← addTriangle s ne.i i nn.i (-1) (-1) ne.t
    let s ← s.modNode e (fun x => { x with t := t })
    let (s, e) ← newNode s i e
    let (s, r) ← legalize g Vs fuel s (t+2)
    let s ← s.modNode e (fun x => { x with t := r })
    let ne ← s.deref e
    let s ← walkForward g Vs fuel i p fuel s ne.next
    let s ← if walkBack then do
        let ne ← s.deref e
        walkBackward g Vs fuel i p fuel s ne.prev
      else pure s
    let s ← hashEdge g Vs s e
    let ne ← s.deref e
    hashEdge g Vs s ne.prev

/-- triangulate2/triangulator.go:165-241: the main loop over the sorted ids; `pp` is the last point that was
not skipped as a near-duplicate (`none`: the initial value `{inf, inf, 0}`, at distance `+Inf` or `NaN` from
everything). -/
def mainLoop (g : Geo P) (Vs : List P) (fuel : Nat) (i0 i1 i2 : Int) :
    List Int → Option P → St → Res St
  | [], _, s => pure s
  | i :: ids, pp, s => do
    let p ← goGet Vs i
    let skip := match pp with
      | none => false
      | some q => g.near p q
    if skip then mainLoop g Vs fuel i0 i1 i2 ids pp s
    else if i = i0 ∨ i = i1 ∨ i = i2 then mainLoop g Vs fuel i0 i1 i2 ids (some p) s
    else do
      let s ← insertPoint g Vs fuel s i p
      mainLoop g Vs fuel i0 i1 i2 ids (some p) s

/-- triangulate2/triangulator.go:137-162: the state before the main loop; `hashSize` is the value of line 138 -/
def initState (g : Geo P) (Vs : List P) (hashSize : Nat) (i0 i1 i2 : Int) : Res St := do
  let n := Vs.length
  let s : St := ⟨[], [], 0, none, List.replicate hashSize none, List.replicate n Node.zero⟩
  let (s, e) ← newNode s i0 none
  let s ← s.modNode e (fun x => { x with t := 0 })
  let s ← hashEdge g Vs s e
  let (s, e) ← newNode s i1 e
  let s ← s.modNode e (fun x => { x with t := 1 })
  let s ← hashEdge g Vs s e
  let (s, e) ← newNode s i2 e
  let s ← s.modNode e (fun x => { x with t := 2 })
  let s ← hashEdge g Vs s e
  let s := { s with hull := e }
  -- `make([]int, maxTriangles*3)` panics for a negative length
  let maxTriangles : Int := 2 * n - 5
  if maxTriangles < 0 then .panic
  else do
    let s := { s with triangles := List.replicate (maxTriangles * 3).toNat 0
                      halfedges := List.replicate (maxTriangles * 3).toNat 0 }
    let (s, _) ← addTriangle s i0 i1 i2 (-1) (-1) (-1)
    pure s

/-- triangulate2/triangulator.go:137-246 for given seed indices and sorted ids; lines 243-244 truncate the
arrays. -/
def triangulateCore (g : Geo P) (Vs : List P) (fuel : Nat) (hashSize : Nat) (i0 i1 i2 : Int)
    (ids : List Int) : Res St := do
  let s ← initState g Vs hashSize i0 i1 i2
  let s ← mainLoop g Vs fuel i0 i1 i2 ids none s
  pure { s with triangles := s.triangles.take s.trianglesLen.toNat
                halfedges := s.halfedges.take s.trianglesLen.toNat }

/-- triangulate2/triangulator.go:347-358 `convexHull` (method): `acc` is `result`, in order -/
def hullWalk (Vs : List P) (s : St) : (fuel : Nat) → (e : Option Nat) → List P → Res (List P)
  | 0, _, _ => .fuel
  | fuel + 1, e, acc =>
    match e with
    | none => pure acc
    | some _ => do
      let ne ← s.deref e
      let p ← goGet Vs ne.i
      let acc := acc ++ [p]
      if ne.prev = s.hull then pure acc else hullWalk Vs s fuel ne.prev acc

section scalar
variable {F : Type}

/-- triangulate2/triangulator.go:249-253 `hashKey` -/
def hashKey [_root_.Add F] [_root_.Sub F] [Mul F] [Div F] [LT F] [DecidableLT F] [GoAbs F] [GoMinMax F]
    [GoConst F] [GoTrunc F] [GoOfInt F] [OfNat F 0] [OfNat F 1] [OfNat F 3] [OfNat F 4]
    (hashLen : Nat) (center v : Vector F) : Int :=
  let d := Sub v center
  GoTrunc.trunc (pseudoAngle d.X d.Y * GoOfInt.ofInt (hashLen : Int))

/-- the predicates the code really uses, over a scalar type -/
def Geo.ofScalar [_root_.Add F] [_root_.Sub F] [Mul F] [Div F] [LT F] [DecidableLT F] [LE F] [DecidableLE F]
    [GoAbs F] [GoMinMax F] [GoConst F] [GoTrunc F] [GoOfInt F]
    [OfNat F 0] [OfNat F 1] [OfNat F 3] [OfNat F 4] (hashLen : Nat) (center : Vector F) :
    Geo (Vector F) where
  areaGe a b c := decide (0 ≤ area a b c)
  areaLt a b c := decide (area a b c < 0)
  inC := inCircle
  near p q := decide (SquaredDistance p q < eps)
  key := hashKey hashLen center

/-- triangulate2/triangulator.go:60-79: the bounds (x0, x1, y0, y1); `Vectors[1]` panics for one point -/
def bounds [LT F] [DecidableLT F] (Vs : List (Vector F)) : Res (F × F × F × F) := do
  let v0 ← goGet Vs 0
  let v1 ← goGet Vs 1
  pure (Vs.foldl (fun (b : F × F × F × F) p =>
    let (x0, x1, y0, y1) := b
    (if p.X < x0 then p.X else x0, if x1 < p.X then p.X else x1,
     if p.Y < y0 then p.Y else y0, if y1 < p.Y then p.Y else y1)) (v0.X, v1.X, v0.Y, v1.Y))

/-- the comparison `d < m` where `m` starts as `+Inf` (`none`) -/
def ltInf [LT F] [DecidableLT F] [GoTop F] (d : F) (m : Option F) : Bool :=
  match m with
  | none => GoTop.ltTop d
  | some x => decide (d < x)

/-- triangulate2/triangulator.go:83-92 the index of the point closest to `m` -/
def seed0 [_root_.Add F] [_root_.Sub F] [Mul F] [LT F] [DecidableLT F] [GoTop F] (Vs : List (Vector F))
    (m : Vector F) : Nat :=
  (Vs.zipIdx.foldl (fun (acc : Nat × Option F) pi =>
    let d := SquaredDistance pi.1 m
    if ltInf d acc.2 then (pi.2, some d) else acc) (0, none)).1

/-- triangulate2/triangulator.go:94-105 the index of the closest distinct point to `Vectors[i0]` -/
def seed1 [_root_.Add F] [_root_.Sub F] [Mul F] [LT F] [DecidableLT F] [GoTop F] [OfNat F 0] (Vs : List (Vector F))
    (i0 : Nat) (p0 : Vector F) : Nat :=
  (Vs.zipIdx.foldl (fun (acc : Nat × Option F) pi =>
    if pi.2 = i0 then acc
    else
      let d := SquaredDistance pi.1 p0
      if decide ((0 : F) < d) && ltInf d acc.2 then (pi.2, some d) else acc) (0, none)).1

/-- triangulate2/triangulator.go:107-118 the third seed and `minRadius` (`none` is `+Inf`) -/
def seed2 [_root_.Add F] [_root_.Sub F] [Mul F] [Div F] [BEq F] [LT F] [DecidableLT F] [GoTop F] [OfNat F 0] [GoConst F]
    (Vs : List (Vector F)) (i0 i1 : Nat) (p0 p1 : Vector F) : Nat × Option F :=
  Vs.zipIdx.foldl (fun (acc : Nat × Option F) pi =>
    if pi.2 = i0 ∨ pi.2 = i1 then acc
    else match circumradius p0 p1 pi.1 with
      | none => acc
      | some r => if ltInf r acc.2 then (pi.2, some r) else acc) (0, none)

/-- triangulate2/triangulator.go:36-48 `Less` on the points of two ids -/
def idLess [_root_.Add F] [_root_.Sub F] [Mul F] [LT F] [DecidableLT F] [BEq F]
    (center p1 p2 : Vector F) : Bool :=
  let d1 := SquaredDistance p1 center
  let d2 := SquaredDistance p2 center
  if d1 != d2 then decide (d1 < d2)
  else if p1.X != p2.X then decide (p1.X < p2.X)
  else decide (p1.Y < p2.Y)

/-- outcome of `Triangulate`: the error return, or the triangulation -/
inductive TriOut (F : Type) where
  /-- `No Delaunay triangulation exists for this input.` (hull and arrays are empty then) -/
  | noTriangulation
  | triangulation (hull : List (Vector F)) (triangles halfedges : List Int)

/-- triangulate2/triangulation.go:17-21 `Triangulate` with triangulator.go:50-247 `triangulate`. `srt center` stands for `sort.Sort` with `Less` on
`ids = [0, ..., n-1]`. `hashSize n` is `int(math.Ceil(math.Sqrt(float64(n))))`. -/
def Triangulate [_root_.Add F] [_root_.Sub F] [Mul F] [Div F] [LT F] [DecidableLT F] [GoTop F] [LE F] [DecidableLE F]
    [BEq F] [GoAbs F] [GoMinMax F] [GoConst F] [GoTrunc F] [GoOfInt F]
    [OfNat F 0] [OfNat F 1] [OfNat F 2] [OfNat F 3] [OfNat F 4]
    (srt : (center : Vector F) → List Int → List Int) (hashSize : Nat → Nat) (fuel : Nat)
    (Vs : List (Vector F)) : Res (TriOut F) := do
  let n := Vs.length
  if n = 0 then pure (.triangulation [] [] [])
  else do
    let (x0, x1, y0, y1) ← bounds Vs
    let m : Vector F := ⟨(x0 + x1) / 2, (y0 + y1) / 2, 0⟩
    let i0 := seed0 Vs m
    let p0 ← goGet Vs i0
    let i1 := seed1 Vs i0 p0
    let p1 ← goGet Vs i1
    let (i2, minRadius) := seed2 Vs i0 i1 p0 p1
    match minRadius with
    | none => pure .noTriangulation
    | some _ => do
      let p2 ← goGet Vs i2
      let (i1, i2) := if area p0 p1 p2 < (0 : F) then (i2, i1) else (i1, i2)
      let p1 ← goGet Vs i1
      let p2 ← goGet Vs i2
      let center := circumcenter p0 p1 p2
      let ids := srt center ((List.range n).map Int.ofNat)
      let g : Geo (Vector F) := Geo.ofScalar (hashSize n) center
      let s ← triangulateCore g Vs fuel (hashSize n) i0 i1 i2 ids
      let hull ← hullWalk Vs s fuel s.hull []
      pure (.triangulation hull s.triangles s.halfedges)

/-- triangulate2/triangulation.go:23-34 the method `area` of `Triangulation`; a trailing group of fewer than
three indices makes the Go code panic -/
def triAreaLoop [_root_.Add F] [_root_.Sub F] [Mul F] (Vs : List (Vector F)) : List Int → F → Res F
  | [], r => pure r
  | a :: b :: c :: ts, r => do
    let p0 ← goGet Vs a
    let p1 ← goGet Vs b
    let p2 ← goGet Vs c
    triAreaLoop Vs ts (r + area p0 p1 p2)
  | _, _ => .panic

/-- triangulate2/triangulation.go:23-34 -/
def triArea [_root_.Add F] [_root_.Sub F] [Mul F] [Div F] [OfNat F 0] [OfNat F 2]
    (Vs : List (Vector F)) (ts : List Int) : Res F := do
  let r ← triAreaLoop Vs ts 0
  pure (r / 2)

/-- triangulate2/triangulation.go:41-48 the halfedge check of `Validate`: `true` if no error is returned.
`rest` are the pairs still to be visited. -/
def checkHalfedges (hs : List Int) : List (Int × Nat) → Res Bool
  | [] => pure true
  | (i2, i1) :: rest => do
    let x ← goGet hs (i1 : Int)
    if x ≠ i2 then pure false
    else if i2 ≠ -1 then do
      let y ← goGet hs i2
      if y ≠ (i1 : Int) then pure false else checkHalfedges hs rest
    else checkHalfedges hs rest

/-- triangulate2/triangulation.go:39-68 `Validate`: `true` for a nil error. `srt` is the sort used by
`ConvexHull`. -/
def Validate [_root_.Add F] [_root_.Sub F] [Mul F] [Div F] [LT F] [DecidableLT F] [GoAbs F] [GoSqrt F]
    [GoConst F] [OfNat F 0] [OfNat F 2] (srt : List (Vector F) → List (Vector F))
    (Vs hull : List (Vector F)) (ts hs : List Int) : Res Bool := do
  let ok ← checkHalfedges hs hs.zipIdx
  if !ok then pure false
  else do
    let hull2 := ConvexHull srt Vs
    let area1 := polygonArea hull
    let area2 := polygonArea hull2
    let area3 ← triArea Vs ts
    if (GoConst.const (1/10^9) : F) < GoAbs.abs (area1 - area2) ∨
        (GoConst.const (1/10^9) : F) < GoAbs.abs (area1 - area3) then pure false
    else
      let perimeter1 := polygonPerimeter hull
      let perimeter2 := polygonPerimeter hull2
      if (GoConst.const (1/10^9) : F) < GoAbs.abs (perimeter1 - perimeter2) then pure false
      else pure true

end scalar

end Verif.Tri2
