import Verif.Model.Delaunator
/-!
# The triangulator with a counter

The functions of `Model/Delaunator.lean` once more, statement by statement, with a counter: every call of `legalize`, every flip and every
iteration of a loop adds a weight to the counter. With the weights one can ask for the number of flips alone, for the number of calls, or for all
steps together. `Proofs/Work.lean` shows that the functions return the same results as those of `Model/Delaunator.lean`.
-/
namespace Verif.Tri2
open Verif Verif.R3

/-- a computation with a counter -/
structure Wk (α : Type) where
  run : Res (α × Nat)

def Wk.bind {α β : Type} (x : Wk α) (f : α → Wk β) : Wk β :=
  ⟨x.run >>= fun ak => (f ak.1).run >>= fun bl => .ok (bl.1, ak.2 + bl.2)⟩

instance : Monad Wk where
  pure a := ⟨.ok (a, 0)⟩
  bind := Wk.bind

/-- a step that is not counted -/
def Wk.lift {α : Type} (x : Res α) : Wk α := ⟨x >>= fun a => .ok (a, 0)⟩

instance : MonadLift Res Wk := ⟨Wk.lift⟩

/-- add `k` to the counter -/
def Wk.tick (k : Nat) : Wk Unit := ⟨.ok ((), k)⟩

/-- what each kind of step adds -/
structure Weights where
  /-- a call of `legalize` (triangulator.go:278) -/
  call : Nat
  /-- a flip (triangulator.go:317-341) -/
  flip : Nat
  /-- an iteration of the loop of lines 321-331 -/
  fix : Nat
  /-- an iteration of the loop of lines 183-192 -/
  start : Nat
  /-- an iteration of the loop of lines 196-202 -/
  visible : Nat
  /-- an iteration of the loops of lines 219-224 and 229-235, with the last test -/
  walk : Nat
  /-- an iteration of the main loop, lines 165-241 -/
  main : Nat

/-- triangulate2/triangulator.go:321-331 -/
def fixHullCt (w : Weights) (bl a : Int) : (fuel : Nat) → St → (e : Option Nat) → Wk St
  | 0, _, _ => ⟨.fuel⟩
  | fuel + 1, s, e => do
    Wk.tick w.fix
    let ne ← s.deref e
    if ne.t = bl then s.modNode e (fun n => { n with t := a })
    else if ne.next = s.hull then pure s
    else fixHullCt w bl a fuel s ne.next

variable {P : Type}

/-- triangulate2/triangulator.go:278-345 `legalize` -/
def legalizeCt (w : Weights) (g : Geo P) (Vs : List P) : (fuel : Nat) → St → Int → Wk (St × Int)
  | 0, _, _ => ⟨.fuel⟩
  | fuel + 1, s, a => do
    Wk.tick w.call
    let b ← goGet s.halfedges a
    let a0 := a - Int.tmod a 3
    let b0 := b - Int.tmod b 3
    let al := a0 + Int.tmod (a+1) 3
    let ar := a0 + Int.tmod (a+2) 3
    let bl := b0 + Int.tmod (b+2) 3
    if b < 0 then pure (s, ar)
    else do
      let p0 ← goGet s.triangles ar
      let pr ← goGet s.triangles a
      let pl ← goGet s.triangles al
      let p1 ← goGet s.triangles bl
      let v0 ← goGet Vs p0
      let vr ← goGet Vs pr
      let vl ← goGet Vs pl
      let v1 ← goGet Vs p1
      if g.inC v0 vr vl v1 then do
        Wk.tick w.flip
        let t ← goSet s.triangles a p1
        let t ← goSet t b p0
        let s := { s with triangles := t }
        let hbl ← goGet s.halfedges bl
        let s ← if hbl = -1 then fixHullCt w bl a (s.nodes.length + 1) s s.hull else pure s
        let hbl ← goGet s.halfedges bl
        let s ← link s a hbl
        let har ← goGet s.halfedges ar
        let s ← link s b har
        let s ← link s ar bl
        let br := b0 + Int.tmod (b+1) 3
        let (s, _) ← legalizeCt w g Vs fuel s a
        legalizeCt w g Vs fuel s br
      else pure (s, ar)

/-- triangulate2/triangulator.go:183-192 -/
def findStartCt (w : Weights) (s : St) : (m : Nat) → (key : Int) → (start : Option Nat) → Wk (Option Nat)
  | 0, _, start => pure start
  | m + 1, key, _ => do
    Wk.tick w.start
    let start ← goGet s.hash key
    let live ← match start with
      | none => pure false
      | some _ => do let n ← s.deref start; pure (decide (0 ≤ n.i))
    if live then pure start
    else
      let key := key + 1
      let key := if (s.hash.length : Int) ≤ key then 0 else key
      findStartCt w s m key start

/-- triangulate2/triangulator.go:196-202 -/
def findVisibleCt (w : Weights) (g : Geo P) (Vs : List P) (p : P) (start : Option Nat) (s : St) :
    (fuel : Nat) → (e : Option Nat) → Wk (Option Nat)
  | 0, _ => ⟨.fuel⟩
  | fuel + 1, e => do
    Wk.tick w.visible
    let ne ← s.deref e
    let a ← goGet Vs ne.i
    let nn ← s.deref ne.next
    let b ← goGet Vs nn.i
    if g.areaGe p a b then
      let e := ne.next
      if e = start then pure none else findVisibleCt w g Vs p start s fuel e
    else pure e

/-- triangulate2/triangulator.go:219-224 -/
def walkForwardCt (w : Weights) (g : Geo P) (Vs : List P) (lf : Nat) (i : Int) (p : P) :
    (fuel : Nat) → St → (q : Option Nat) → Wk St
  | 0, _, _ => ⟨.fuel⟩
  | fuel + 1, s, q => do
    Wk.tick w.walk
    let nq ← s.deref q
    let a ← goGet Vs nq.i
    let nn ← s.deref nq.next
    let b ← goGet Vs nn.i
    if g.areaLt p a b then do
      let np ← s.deref nq.prev
      let (s, t) ← addTriangle s nq.i i nn.i np.t (-1) nq.t
      let (s, r) ← legalizeCt w g Vs lf s (t+2)
      let nq ← s.deref q
      let s ← s.modNode nq.prev (fun x => { x with t := r })
      let (s, h) ← remove s q
      let s := { s with hull := h }
      let nq ← s.deref q
      walkForwardCt w g Vs lf i p fuel s nq.next
    else pure s

/-- triangulate2/triangulator.go:229-235 -/
def walkBackwardCt (w : Weights) (g : Geo P) (Vs : List P) (lf : Nat) (i : Int) (p : P) :
    (fuel : Nat) → St → (q : Option Nat) → Wk St
  | 0, _, _ => ⟨.fuel⟩
  | fuel + 1, s, q => do
    Wk.tick w.walk
    let nq ← s.deref q
    let np ← s.deref nq.prev
    let a ← goGet Vs np.i
    let b ← goGet Vs nq.i
    if g.areaLt p a b then do
      let (s, t) ← addTriangle s np.i i nq.i (-1) nq.t np.t
      let (s, _) ← legalizeCt w g Vs lf s (t+2)
      let nq ← s.deref q
      let s ← s.modNode nq.prev (fun x => { x with t := t })
      let (s, h) ← remove s q
      let s := { s with hull := h }
      let nq ← s.deref q
      walkBackwardCt w g Vs lf i p fuel s nq.prev
    else pure s

/-- triangulate2/triangulator.go:180-240 -/
def insertPointCt (w : Weights) (g : Geo P) (Vs : List P) (fuel : Nat) (s : St) (i : Int) (p : P) : Wk St := do
  let start ← findStartCt w s s.hash.length (g.key p) none
  let ns ← s.deref start
  let start := ns.prev
  let e ← findVisibleCt w g Vs p start s fuel start
  match e with
  | none => pure s
  | some _ => do
    let walkBack := decide (e = start)
    let ne ← s.deref e
    let nn ← s.deref ne.next
    let (s, t) ← addTriangle s ne.i i nn.i (-1) (-1) ne.t
    let s ← s.modNode e (fun x => { x with t := t })
    let (s, e) ← newNode s i e
    let (s, r) ← legalizeCt w g Vs fuel s (t+2)
    let s ← s.modNode e (fun x => { x with t := r })
    let ne ← s.deref e
    let s ← walkForwardCt w g Vs fuel i p fuel s ne.next
    let s ← if walkBack then do
        let ne ← s.deref e
        walkBackwardCt w g Vs fuel i p fuel s ne.prev
      else pure s
    let s ← hashEdge g Vs s e
    let ne ← s.deref e
    hashEdge g Vs s ne.prev

/-- triangulate2/triangulator.go:165-241 -/
def mainLoopCt (w : Weights) (g : Geo P) (Vs : List P) (fuel : Nat) (i0 i1 i2 : Int) :
    List Int → Option P → St → Wk St
  | [], _, s => pure s
  | i :: ids, pp, s => do
    Wk.tick w.main
    let p ← goGet Vs i
    let skip := match pp with
      | none => false
      | some q => g.near p q
    if skip then mainLoopCt w g Vs fuel i0 i1 i2 ids pp s
    else if i = i0 ∨ i = i1 ∨ i = i2 then mainLoopCt w g Vs fuel i0 i1 i2 ids (some p) s
    else do
      let s ← insertPointCt w g Vs fuel s i p
      mainLoopCt w g Vs fuel i0 i1 i2 ids (some p) s

/-- triangulate2/triangulator.go:137-246 -/
def triangulateCoreCt (w : Weights) (g : Geo P) (Vs : List P) (fuel : Nat) (hashSize : Nat) (i0 i1 i2 : Int)
    (ids : List Int) : Wk St := do
  let s ← initState g Vs hashSize i0 i1 i2
  let s ← mainLoopCt w g Vs fuel i0 i1 i2 ids none s
  pure { s with triangles := s.triangles.take s.trianglesLen.toNat
                halfedges := s.halfedges.take s.trianglesLen.toNat }

section scalar
variable {F : Type}

/-- triangulate2/triangulation.go:17-21, triangulator.go:50-247: `Triangulate` with the counter -/
def TriangulateCt [_root_.Add F] [_root_.Sub F] [Mul F] [Div F] [LT F] [DecidableLT F] [GoTop F] [LE F] [DecidableLE F]
    [BEq F] [GoAbs F] [GoMinMax F] [GoConst F] [GoTrunc F] [GoOfInt F]
    [OfNat F 0] [OfNat F 1] [OfNat F 2] [OfNat F 3] [OfNat F 4]
    (w : Weights) (srt : (center : Vector F) → List Int → List Int) (hashSize : Nat → Nat) (fuel : Nat)
    (Vs : List (Vector F)) : Wk (TriOut F) := do
  let n := Vs.length
  if n = 0 then pure (.triangulation [] [] [])
  else do
    let (x0, x1, y0, y1) ← bounds Vs
    let m : Vector F := ⟨(x0 + x1) / 2, (y0 + y1) / 2, 0⟩
    let i0 := seed0 Vs m
    let p0 ← goGet Vs i0
    let i1 := seed1 Vs i0 p0
    let p1 ← goGet Vs i1
    let (i2, minRadius) := seed2 Vs i0 i1 p0 p1
    match minRadius with
    | none => pure .noTriangulation
    | some _ => do
      let p2 ← goGet Vs i2
      let (i1, i2) := if area p0 p1 p2 < (0 : F) then (i2, i1) else (i1, i2)
      let p1 ← goGet Vs i1
      let p2 ← goGet Vs i2
      let center := circumcenter p0 p1 p2
      let ids := srt center ((List.range n).map Int.ofNat)
      let g : Geo (Vector F) := Geo.ofScalar (hashSize n) center
      let s ← triangulateCoreCt w g Vs fuel (hashSize n) i0 i1 i2 ids
      let hull ← hullWalk Vs s fuel s.hull []
      pure (.triangulation hull s.triangles s.halfedges)
end scalar

end Verif.Tri2
