import Verif.Go.F64
import Verif.Model.Delaunator

/-! # The size of the hash table of the triangulator, as the Go code computes it in float64 -/

namespace Verif

/-- `math.Ceil` of the Go standard library on float64: `±0`, `±Inf` and NaN are returned as they are, and a negative number above `-1` gives `-0` -/
def F64.ceil : F64 → F64
  | .nan => .nan
  | .inf s => .inf s
  | .zero s => .zero s
  | .fin q _ => F64.round (decide (q < 0)) ((⌈q⌉ : ℤ) : ℚ)

namespace Tri2

/-- triangulate2/triangulator.go:138 `hashSize := int(math.Ceil(math.Sqrt(float64(n))))` and line 139 `make([]*node, hashSize)`: the length is not
negative, see `C98_range` (a negative one would make `make` panic) -/
noncomputable def hashSize64 (n : Nat) : Nat := (F64.trunc (F64.ceil (F64.sqrt (GoOfInt.ofInt (n : Int) : F64)))).toNat

/-- triangulate2/triangulation.go:17-21 `Triangulate` on float64, with the size of the hash table the code chooses -/
noncomputable def Triangulate64 (srt : (center : R3.Vector F64) → List Int → List Int) (fuel : Nat) (Vs : List (R3.Vector F64)) : Res (TriOut F64) :=
  Triangulate srt hashSize64 fuel Vs

end Tri2
end Verif
