import Verif.Model.Tri2Util
/-!
# Model of triangulate2/hull.go
-/
namespace Verif.Tri2
open Verif Verif.R3

variable {F : Type u}

/-- triangulate2/hull.go:8-10 `cross2D` -/
def cross2D [_root_.Sub F] [Mul F] (p a b : Vector F) : F :=
  (a.X-p.X)*(b.Y-p.Y) - (a.Y-p.Y)*(b.X-p.X)

/-- triangulate2/hull.go:20-27 the comparison passed to `sort.Slice` -/
def hullLess [LT F] [DecidableLT F] [BEq F] (a b : Vector F) : Bool :=
  if a.X != b.X then decide (a.X < b.X) else decide (a.Y < b.Y)

/-- triangulate2/hull.go:30-37 the in-place duplicate filter. `distinctVectors` shares the backing array
`arr` and has length `k`; the loop variable is `i`; the remaining iterations are counted by `n`. Returns the
first `k` elements of the array. An index out of range would stop the loop (it never happens, see
`filterLoop_eq`). -/
def filterLoop [_root_.Add F] [_root_.Sub F] [Mul F] [LT F] [DecidableLT F] [GoConst F] :
    (n i k : Nat) → (arr : List (Vector F)) → List (Vector F)
  | 0, _, k, arr => arr.take k
  | n + 1, i, k, arr =>
    match arr[i]? with
    | none => arr.take k
    | some p =>
      -- `i > 0 && SquaredDistance(p, Vectors[i-1]) < eps`, reading the live array
      let dup := match i with
        | 0 => false
        | j + 1 => match arr[j]? with
          | none => false
          | some q => decide (SquaredDistance p q < eps)
      if dup then filterLoop n (i + 1) k arr
      else filterLoop n (i + 1) (k + 1) (arr.set k p)

/-- hull.go:30-37 on a whole slice -/
def filterDup [_root_.Add F] [_root_.Sub F] [Mul F] [LT F] [DecidableLT F] [GoConst F]
    (Vs : List (Vector F)) : List (Vector F) :=
  filterLoop Vs.length 0 0 Vs

/-- hull.go:42-44, the upper stack is kept with its last element first -/
def popU [_root_.Sub F] [Mul F] [LT F] [DecidableLT F] [OfNat F 0] (p : Vector F) :
    List (Vector F) → List (Vector F)
  | b :: a :: rest => if (0 : F) < cross2D a b p then popU p (a :: rest) else b :: a :: rest
  | l => l

/-- hull.go:45-47, the lower stack is kept with its last element first -/
def popL [_root_.Sub F] [Mul F] [LT F] [DecidableLT F] [OfNat F 0] (p : Vector F) :
    List (Vector F) → List (Vector F)
  | b :: a :: rest => if cross2D a b p < (0 : F) then popL p (a :: rest) else b :: a :: rest
  | l => l

/-- hull.go:40-50: one pass over the points, both stacks reversed -/
def hullLoop [_root_.Sub F] [Mul F] [LT F] [DecidableLT F] [OfNat F 0] (Vs : List (Vector F)) :
    List (Vector F) × List (Vector F) :=
  Vs.foldl (fun st p => (p :: popU p st.1, p :: popL p st.2)) ([], [])

/-- hull.go:12-65 `ConvexHull`. `srt` stands for `sort.Slice` with the comparison `hullLess`; it works on
the copy made in lines 15-17, so the caller's slice is not touched. The swap loop of lines 53-55 reverses `U`
(here: the stack is already reversed); lines 58-64 drop the last element of each chain. -/
def ConvexHull [_root_.Add F] [_root_.Sub F] [Mul F] [LT F] [DecidableLT F] [GoConst F] [OfNat F 0]
    (srt : List (Vector F) → List (Vector F)) (Vs : List (Vector F)) : List (Vector F) :=
  let VectorsCopy := Vs
  let sorted := srt VectorsCopy
  let distinct := filterDup sorted
  let (Ur, Lr) := hullLoop distinct
  let U := Ur            -- reversed upper chain
  let L := Lr.reverse
  let U := U.dropLast
  let L := L.dropLast
  L ++ U

/-- hull.go:30-37 as `filterLoop`, but also returning the backing array and the length of `distinctVectors` -/
def filterArr [_root_.Add F] [_root_.Sub F] [Mul F] [LT F] [DecidableLT F] [GoConst F] :
    (n i k : Nat) → (arr : List (Vector F)) → List (Vector F) × Nat
  | 0, _, k, arr => (arr, k)
  | n + 1, i, k, arr =>
    match arr[i]? with
    | none => (arr, k)
    | some p =>
      let dup := match i with
        | 0 => false
        | j + 1 => match arr[j]? with
          | none => false
          | some q => decide (SquaredDistance p q < eps)
      if dup then filterArr n (i + 1) k arr
      else filterArr n (i + 1) (k + 1) (arr.set k p)

/-- hull.go:12-65 `ConvexHull` with the memory made explicit: `mem` is the list of all arrays, the argument is the slice
`mem[a][off : off+len]`. Line 15 allocates a new array, line 16 copies into it, the sort and the duplicate filter write to
the array `Vectors` refers to. Returns the new memory and the result. `none` if the slice does not exist. -/
def ConvexHullMem [_root_.Add F] [_root_.Sub F] [Mul F] [LT F] [DecidableLT F] [GoConst F] [OfNat F 0]
    (srt : List (Vector F) → List (Vector F)) (mem : List (List (Vector F))) (a off len : Nat) :
    Option (List (List (Vector F)) × List (Vector F)) := do
  let arr ← mem[a]?
  let arg := (arr.drop off).take len
  -- VectorsCopy := make([]r3.Vector, len(Vectors))
  let copyAt := mem.length
  let mem := mem ++ [List.replicate arg.length ⟨0, 0, 0⟩]
  -- copy(VectorsCopy, Vectors); Vectors = VectorsCopy
  let mem := mem.set copyAt arg
  let vectors := copyAt
  -- sort.Slice(Vectors, ...)
  let cur ← mem[vectors]?
  let mem := mem.set vectors (srt cur)
  -- the filter
  let cur ← mem[vectors]?
  let (arr, k) := filterArr cur.length 0 0 cur
  let mem := mem.set vectors arr
  let cur ← mem[vectors]?
  let (Ur, Lr) := hullLoop (cur.take k)
  pure (mem, Lr.reverse.dropLast ++ Ur.dropLast)

end Verif.Tri2
