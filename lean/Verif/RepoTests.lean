import Verif.Model.Bufio
import Verif.Model.Nurbs
import Verif.Model.Meshing
import Verif.Model.Tri3
import Verif.Go.F64
import Verif.Props.R3
import Mathlib.Tactic.NormNum
/-!
# The inputs of the test files in /repo, run through the model

These are tests of the transcription, not proofs of properties: each evaluates the model on the input of a Go test and states
the value that the Go code computes by hand evaluation (or that the comment in the test announces). The Go code itself is not
run here.
-/
namespace Verif.RepoTests
open Verif Verif.Step Verif.R3

/-- a vector with integer coordinates -/
def vec (x y z : Int) : Vector F64 := ⟨GoOfInt.ofInt x, GoOfInt.ofInt y, GoOfInt.ofInt z⟩

/-- an ASCII literal -/
def lit (s : List Char) : GoString := ascii s

/-! ## step -/

/-- step/testfiles/in/undefined.stp, byte by byte -/
def undefinedStp : GoString :=
  [35, 49, 61, 67, 65, 82, 84, 69, 83, 73, 65, 78, 95, 80, 79, 73, 78, 84, 40, 39, 39, 44, 40, 49, 44, 10, 45, 50, 44,
  51, 41, 41, 59, 10, 35, 50, 61, 67, 65, 82, 84, 69, 83, 73, 65, 78, 95, 80, 79, 73, 78, 84, 40, 39, 39, 44, 40, 49,
  44, 10, 45, 50, 44, 51, 41, 41, 59, 10, 35, 51, 61, 67, 65, 82, 84, 69, 83, 73, 65, 78, 95, 80, 79, 73, 78, 84, 40,
  39, 39, 44, 40, 49, 44, 10, 45, 50, 44, 51, 41, 41, 59, 10, 35, 52, 61, 67, 65, 82, 84, 69, 83, 73, 65, 78, 95, 80,
  79, 73, 78, 84, 40, 39, 39, 44, 40, 49, 44, 10, 45, 50, 44, 51, 41, 41, 59, 10, 35, 52, 61, 66, 76, 65, 95, 66, 76,
  65, 95, 66, 76, 65, 40, 39, 39, 44, 40, 49, 44, 10, 45, 50, 44, 51, 41, 41, 59, 10]

/-- step/testfiles/in/surface.stp, byte by byte -/
def surfaceStp : GoString :=
  [35, 49, 61, 67, 65, 82, 84, 69, 83, 73, 65, 78, 95, 80, 79, 73, 78, 84, 40, 39, 39, 44, 40, 48, 44, 48, 44, 45, 49,
  48, 41, 41, 59, 10, 35, 50, 61, 67, 65, 82, 84, 69, 83, 73, 65, 78, 95, 80, 79, 73, 78, 84, 40, 39, 39, 44, 40, 50,
  48, 44, 48, 44, 48, 41, 41, 59, 10, 35, 51, 61, 67, 65, 82, 84, 69, 83, 73, 65, 78, 95, 80, 79, 73, 78, 84, 40, 39,
  39, 44, 40, 51, 48, 44, 48, 44, 48, 41, 41, 59, 10, 35, 52, 61, 67, 65, 82, 84, 69, 83, 73, 65, 78, 95, 80, 79, 73,
  78, 84, 40, 39, 39, 44, 40, 53, 48, 44, 48, 44, 48, 41, 41, 59, 10, 35, 53, 61, 67, 65, 82, 84, 69, 83, 73, 65, 78,
  95, 80, 79, 73, 78, 84, 40, 39, 39, 44, 40, 48, 44, 45, 50, 48, 44, 48, 41, 41, 59, 10, 35, 54, 61, 67, 65, 82, 84,
  69, 83, 73, 65, 78, 95, 80, 79, 73, 78, 84, 40, 39, 39, 44, 40, 49, 48, 44, 45, 50, 48, 44, 49, 48, 41, 41, 59, 10,
  35, 55, 61, 67, 65, 82, 84, 69, 83, 73, 65, 78, 95, 80, 79, 73, 78, 84, 40, 39, 39, 44, 40, 50, 48, 44, 45, 50, 48,
  44, 49, 48, 41, 41, 59, 10, 35, 56, 61, 67, 65, 82, 84, 69, 83, 73, 65, 78, 95, 80, 79, 73, 78, 84, 40, 39, 39, 44,
  40, 51, 48, 44, 45, 49, 48, 44, 48, 41, 41, 59, 10, 35, 57, 61, 67, 65, 82, 84, 69, 83, 73, 65, 78, 95, 80, 79, 73,
  78, 84, 40, 39, 39, 44, 40, 52, 48, 44, 45, 49, 48, 44, 48, 41, 41, 59, 10, 35, 49, 48, 61, 67, 65, 82, 84, 69, 83,
  73, 65, 78, 95, 80, 79, 73, 78, 84, 40, 39, 39, 44, 40, 53, 48, 44, 45, 49, 48, 44, 48, 41, 41, 59, 10, 35, 49, 50,
  61, 67, 65, 82, 84, 69, 83, 73, 65, 78, 95, 80, 79, 73, 78, 84, 40, 39, 39, 44, 40, 48, 44, 32, 45, 50, 48, 44, 32,
  48, 41, 41, 59, 10, 35, 49, 51, 61, 67, 65, 82, 84, 69, 83, 73, 65, 78, 95, 80, 79, 73, 78, 84, 40, 39, 39, 44, 40,
  49, 48, 44, 32, 45, 50, 48, 44, 32, 49, 48, 41, 41, 59, 10, 35, 49, 52, 61, 67, 65, 82, 84, 69, 83, 73, 65, 78, 95,
  80, 79, 73, 78, 84, 40, 39, 39, 44, 40, 50, 48, 44, 32, 45, 50, 48, 44, 32, 49, 48, 41, 41, 59, 10, 35, 49, 53, 61,
  67, 65, 82, 84, 69, 83, 73, 65, 78, 95, 80, 79, 73, 78, 84, 40, 39, 39, 44, 40, 51, 48, 44, 32, 45, 50, 48, 44, 32,
  48, 41, 41, 59, 10, 35, 49, 54, 61, 67, 65, 82, 84, 69, 83, 73, 65, 78, 95, 80, 79, 73, 78, 84, 40, 39, 39, 44, 40,
  52, 48, 44, 32, 45, 50, 48, 44, 32, 45, 50, 41, 41, 59, 10, 35, 49, 55, 61, 67, 65, 82, 84, 69, 83, 73, 65, 78, 95,
  80, 79, 73, 78, 84, 40, 39, 39, 44, 40, 53, 48, 44, 32, 45, 50, 48, 44, 32, 45, 49, 50, 41, 41, 59, 10, 35, 49, 56,
  61, 67, 65, 82, 84, 69, 83, 73, 65, 78, 95, 80, 79, 73, 78, 84, 40, 39, 39, 44, 40, 32, 48, 44, 45, 51, 48, 44, 48,
  32, 41, 41, 32, 59, 10, 35, 50, 49, 61, 67, 65, 82, 84, 69, 83, 73, 65, 78, 95, 80, 79, 73, 78, 84, 40, 39, 39, 44,
  40, 32, 49, 48, 44, 45, 51, 48, 44, 48, 32, 41, 41, 32, 59, 10, 35, 50, 52, 61, 67, 65, 82, 84, 69, 83, 73, 65, 78,
  95, 80, 79, 73, 78, 84, 40, 39, 39, 44, 40, 32, 50, 48, 44, 45, 51, 48, 44, 45, 50, 51, 32, 41, 41, 32, 59, 10, 35,
  50, 55, 61, 67, 65, 82, 84, 69, 83, 73, 65, 78, 95, 80, 79, 73, 78, 84, 40, 39, 39, 44, 40, 32, 51, 48, 44, 45, 51,
  48, 44, 48, 32, 41, 41, 32, 59, 10, 35, 51, 48, 61, 67, 65, 82, 84, 69, 83, 73, 65, 78, 95, 80, 79, 73, 78, 84, 40,
  39, 39, 44, 40, 32, 52, 48, 44, 45, 51, 48, 44, 48, 32, 41, 41, 32, 59, 10, 35, 51, 51, 61, 67, 65, 82, 84, 69, 83,
  73, 65, 78, 95, 80, 79, 73, 78, 84, 40, 39, 39, 44, 40, 32, 53, 48, 44, 45, 51, 48, 44, 48, 32, 41, 41, 32, 59, 10,
  35, 51, 54, 61, 67, 65, 82, 84, 69, 83, 73, 65, 78, 95, 80, 79, 73, 78, 84, 40, 39, 39, 44, 40, 32, 48, 44, 45, 52,
  48, 44, 48, 32, 41, 41, 32, 59, 10, 35, 51, 57, 61, 67, 65, 82, 84, 69, 83, 73, 65, 78, 95, 80, 79, 73, 78, 84, 40,
  39, 39, 44, 40, 32, 49, 48, 44, 45, 52, 48, 44, 48, 32, 41, 41, 32, 59, 10, 35, 52, 50, 61, 67, 65, 82, 84, 69, 83,
  73, 65, 78, 95, 80, 79, 73, 78, 84, 40, 39, 39, 44, 40, 32, 50, 48, 44, 45, 52, 48, 44, 48, 32, 41, 41, 32, 59, 10,
  35, 52, 53, 61, 67, 65, 82, 84, 69, 83, 73, 65, 78, 95, 80, 79, 73, 78, 84, 40, 39, 39, 44, 40, 32, 51, 48, 44, 45,
  52, 48, 44, 52, 32, 41, 41, 32, 59, 10, 35, 52, 56, 61, 67, 65, 82, 84, 69, 83, 73, 65, 78, 95, 80, 79, 73, 78, 84,
  40, 39, 39, 44, 40, 32, 52, 48, 44, 45, 52, 48, 44, 45, 50, 48, 32, 41, 41, 32, 59, 10, 35, 53, 49, 61, 67, 65, 82,
  84, 69, 83, 73, 65, 78, 95, 80, 79, 73, 78, 84, 40, 39, 39, 44, 40, 32, 53, 48, 44, 45, 52, 48, 44, 48, 32, 41, 41,
  32, 59, 10, 35, 53, 52, 61, 67, 65, 82, 84, 69, 83, 73, 65, 78, 95, 80, 79, 73, 78, 84, 40, 39, 39, 44, 40, 32, 48,
  44, 45, 53, 48, 44, 49, 50, 32, 41, 41, 32, 59, 10, 35, 53, 55, 61, 67, 65, 82, 84, 69, 83, 73, 65, 78, 95, 80, 79,
  73, 78, 84, 40, 39, 39, 44, 40, 32, 49, 48, 44, 45, 53, 48, 44, 48, 32, 41, 41, 32, 59, 10, 35, 54, 48, 61, 67, 65,
  82, 84, 69, 83, 73, 65, 78, 95, 80, 79, 73, 78, 84, 40, 39, 39, 44, 40, 32, 50, 48, 44, 45, 53, 48, 44, 50, 48, 32,
  41, 41, 32, 59, 10, 35, 54, 51, 61, 67, 65, 82, 84, 69, 83, 73, 65, 78, 95, 80, 79, 73, 78, 84, 40, 39, 39, 44, 40,
  32, 51, 48, 44, 45, 53, 48, 44, 48, 32, 41, 41, 32, 59, 10, 35, 54, 54, 61, 67, 65, 82, 84, 69, 83, 73, 65, 78, 95,
  80, 79, 73, 78, 84, 40, 39, 39, 44, 40, 32, 53, 48, 44, 45, 53, 48, 44, 45, 49, 48, 32, 41, 41, 32, 59, 10, 35, 54,
  57, 61, 67, 65, 82, 84, 69, 83, 73, 65, 78, 95, 80, 79, 73, 78, 84, 40, 39, 39, 44, 40, 32, 53, 48, 44, 45, 53, 48,
  44, 45, 49, 53, 32, 41, 41, 32, 59, 10, 35, 55, 48, 61, 86, 69, 82, 84, 69, 88, 95, 80, 79, 73, 78, 84, 40, 39, 39,
  44, 35, 49, 41, 59, 10, 35, 55, 49, 61, 86, 69, 82, 84, 69, 88, 95, 80, 79, 73, 78, 84, 40, 39, 39, 44, 35, 50, 41,
  59, 10, 35, 55, 50, 61, 86, 69, 82, 84, 69, 88, 95, 80, 79, 73, 78, 84, 40, 39, 39, 44, 35, 51, 41, 59, 10, 35, 55,
  51, 61, 86, 69, 82, 84, 69, 88, 95, 80, 79, 73, 78, 84, 40, 39, 39, 44, 35, 52, 41, 59, 10, 35, 55, 52, 61, 86, 69,
  82, 84, 69, 88, 95, 80, 79, 73, 78, 84, 40, 39, 39, 44, 35, 53, 41, 59, 10, 35, 55, 53, 61, 86, 69, 82, 84, 69, 88,
  95, 80, 79, 73, 78, 84, 40, 39, 39, 44, 35, 54, 41, 59, 10, 35, 55, 54, 61, 86, 69, 82, 84, 69, 88, 95, 80, 79, 73,
  78, 84, 40, 39, 39, 44, 35, 55, 41, 59, 10, 35, 55, 55, 61, 86, 69, 82, 84, 69, 88, 95, 80, 79, 73, 78, 84, 40, 39,
  39, 44, 35, 56, 41, 59, 10, 35, 55, 56, 61, 86, 69, 82, 84, 69, 88, 95, 80, 79, 73, 78, 84, 40, 39, 39, 44, 35, 57,
  41, 59, 10, 35, 55, 57, 61, 86, 69, 82, 84, 69, 88, 95, 80, 79, 73, 78, 84, 40, 39, 39, 44, 35, 49, 48, 41, 59, 10,
  35, 56, 48, 61, 86, 69, 82, 84, 69, 88, 95, 80, 79, 73, 78, 84, 40, 39, 39, 44, 35, 49, 49, 41, 59, 10, 35, 56, 49,
  61, 86, 69, 82, 84, 69, 88, 95, 80, 79, 73, 78, 84, 40, 39, 39, 44, 35, 49, 50, 41, 59, 10, 35, 56, 50, 61, 86, 69,
  82, 84, 69, 88, 95, 80, 79, 73, 78, 84, 40, 39, 39, 44, 35, 49, 51, 41, 59, 10, 35, 56, 51, 61, 86, 69, 82, 84, 69,
  88, 95, 80, 79, 73, 78, 84, 40, 39, 39, 44, 35, 49, 52, 41, 59, 10, 35, 56, 52, 61, 86, 69, 82, 84, 69, 88, 95, 80,
  79, 73, 78, 84, 40, 39, 39, 44, 35, 49, 53, 41, 59, 10, 35, 56, 53, 61, 86, 69, 82, 84, 69, 88, 95, 80, 79, 73, 78,
  84, 40, 39, 39, 44, 35, 49, 54, 41, 59, 10, 35, 56, 54, 61, 86, 69, 82, 84, 69, 88, 95, 80, 79, 73, 78, 84, 40, 39,
  39, 44, 35, 49, 55, 41, 59, 10, 35, 56, 55, 61, 86, 69, 82, 84, 69, 88, 95, 80, 79, 73, 78, 84, 40, 39, 39, 44, 35,
  49, 56, 41, 59, 10, 35, 56, 56, 61, 86, 69, 82, 84, 69, 88, 95, 80, 79, 73, 78, 84, 40, 39, 39, 44, 35, 49, 57, 41,
  59, 10, 35, 56, 57, 61, 86, 69, 82, 84, 69, 88, 95, 80, 79, 73, 78, 84, 40, 39, 39, 44, 35, 50, 48, 41, 59, 10, 35,
  57, 48, 61, 86, 69, 82, 84, 69, 88, 95, 80, 79, 73, 78, 84, 40, 39, 39, 44, 35, 50, 49, 41, 59, 10, 35, 57, 49, 61,
  86, 69, 82, 84, 69, 88, 95, 80, 79, 73, 78, 84, 40, 39, 39, 44, 35, 50, 50, 41, 59, 10, 35, 57, 50, 61, 86, 69, 82,
  84, 69, 88, 95, 80, 79, 73, 78, 84, 40, 39, 39, 44, 35, 50, 51, 41, 59, 10, 35, 57, 51, 61, 86, 69, 82, 84, 69, 88,
  95, 80, 79, 73, 78, 84, 40, 39, 39, 44, 35, 50, 52, 41, 59, 10, 35, 57, 52, 61, 86, 69, 82, 84, 69, 88, 95, 80, 79,
  73, 78, 84, 40, 39, 39, 44, 35, 50, 53, 41, 59, 10, 35, 57, 53, 61, 86, 69, 82, 84, 69, 88, 95, 80, 79, 73, 78, 84,
  40, 39, 39, 44, 35, 50, 54, 41, 59, 10, 35, 57, 54, 61, 86, 69, 82, 84, 69, 88, 95, 80, 79, 73, 78, 84, 40, 39, 39,
  44, 35, 50, 55, 41, 59, 10, 35, 57, 55, 61, 86, 69, 82, 84, 69, 88, 95, 80, 79, 73, 78, 84, 40, 39, 39, 44, 35, 50,
  56, 41, 59, 10, 35, 57, 56, 61, 86, 69, 82, 84, 69, 88, 95, 80, 79, 73, 78, 84, 40, 39, 39, 44, 35, 50, 57, 41, 59,
  10, 35, 57, 57, 61, 86, 69, 82, 84, 69, 88, 95, 80, 79, 73, 78, 84, 40, 39, 39, 44, 35, 51, 48, 41, 59, 10, 35, 49,
  48, 48, 61, 86, 69, 82, 84, 69, 88, 95, 80, 79, 73, 78, 84, 40, 39, 39, 44, 35, 51, 49, 41, 59, 10, 35, 49, 48, 49,
  61, 86, 69, 82, 84, 69, 88, 95, 80, 79, 73, 78, 84, 40, 39, 39, 44, 35, 51, 50, 41, 59, 10, 35, 49, 48, 50, 61, 86,
  69, 82, 84, 69, 88, 95, 80, 79, 73, 78, 84, 40, 39, 39, 44, 35, 51, 51, 41, 59, 10, 35, 49, 48, 51, 61, 86, 69, 82,
  84, 69, 88, 95, 80, 79, 73, 78, 84, 40, 39, 39, 44, 35, 51, 52, 41, 59, 10, 35, 49, 48, 52, 61, 86, 69, 82, 84, 69,
  88, 95, 80, 79, 73, 78, 84, 40, 39, 39, 44, 35, 51, 53, 41, 59, 10, 35, 49, 48, 53, 61, 86, 69, 82, 84, 69, 88, 95,
  80, 79, 73, 78, 84, 40, 39, 39, 44, 35, 51, 54, 41, 59, 10, 35, 49, 48, 54, 61, 86, 69, 82, 84, 69, 88, 95, 80, 79,
  73, 78, 84, 40, 39, 39, 44, 35, 51, 55, 41, 59, 10, 35, 49, 48, 55, 61, 86, 69, 82, 84, 69, 88, 95, 80, 79, 73, 78,
  84, 40, 39, 39, 44, 35, 51, 56, 41, 59, 10, 35, 49, 48, 56, 61, 86, 69, 82, 84, 69, 88, 95, 80, 79, 73, 78, 84, 40,
  39, 39, 44, 35, 51, 57, 41, 59, 10, 35, 49, 48, 57, 61, 86, 69, 82, 84, 69, 88, 95, 80, 79, 73, 78, 84, 40, 39, 39,
  44, 35, 52, 48, 41, 59, 10, 35, 49, 49, 48, 61, 86, 69, 82, 84, 69, 88, 95, 80, 79, 73, 78, 84, 40, 39, 39, 44, 35,
  52, 49, 41, 59, 10, 35, 49, 49, 49, 61, 86, 69, 82, 84, 69, 88, 95, 80, 79, 73, 78, 84, 40, 39, 39, 44, 35, 52, 50,
  41, 59, 10, 35, 49, 49, 50, 61, 86, 69, 82, 84, 69, 88, 95, 80, 79, 73, 78, 84, 40, 39, 39, 44, 35, 52, 51, 41, 59,
  10, 35, 49, 49, 51, 61, 86, 69, 82, 84, 69, 88, 95, 80, 79, 73, 78, 84, 40, 39, 39, 44, 35, 52, 52, 41, 59, 10, 35,
  49, 49, 52, 61, 86, 69, 82, 84, 69, 88, 95, 80, 79, 73, 78, 84, 40, 39, 39, 44, 35, 52, 53, 41, 59, 10, 35, 49, 49,
  53, 61, 86, 69, 82, 84, 69, 88, 95, 80, 79, 73, 78, 84, 40, 39, 39, 44, 35, 52, 54, 41, 59, 10, 35, 49, 49, 54, 61,
  86, 69, 82, 84, 69, 88, 95, 80, 79, 73, 78, 84, 40, 39, 39, 44, 35, 52, 55, 41, 59, 10, 35, 49, 49, 55, 61, 86, 69,
  82, 84, 69, 88, 95, 80, 79, 73, 78, 84, 40, 39, 39, 44, 35, 52, 56, 41, 59, 10, 35, 49, 49, 56, 61, 86, 69, 82, 84,
  69, 88, 95, 80, 79, 73, 78, 84, 40, 39, 39, 44, 35, 52, 57, 41, 59, 10, 35, 49, 49, 57, 61, 86, 69, 82, 84, 69, 88,
  95, 80, 79, 73, 78, 84, 40, 39, 39, 44, 35, 53, 48, 41, 59, 10, 35, 49, 50, 48, 61, 86, 69, 82, 84, 69, 88, 95, 80,
  79, 73, 78, 84, 40, 39, 39, 44, 35, 53, 49, 41, 59, 10, 35, 49, 50, 49, 61, 86, 69, 82, 84, 69, 88, 95, 80, 79, 73,
  78, 84, 40, 39, 39, 44, 35, 53, 50, 41, 59, 10, 35, 49, 50, 50, 61, 86, 69, 82, 84, 69, 88, 95, 80, 79, 73, 78, 84,
  40, 39, 39, 44, 35, 53, 51, 41, 59, 10, 35, 49, 50, 51, 61, 86, 69, 82, 84, 69, 88, 95, 80, 79, 73, 78, 84, 40, 39,
  39, 44, 35, 53, 52, 41, 59, 10, 35, 49, 50, 52, 61, 86, 69, 82, 84, 69, 88, 95, 80, 79, 73, 78, 84, 40, 39, 39, 44,
  35, 53, 53, 41, 59, 10, 35, 49, 50, 53, 61, 86, 69, 82, 84, 69, 88, 95, 80, 79, 73, 78, 84, 40, 39, 39, 44, 35, 53,
  54, 41, 59, 10, 35, 49, 50, 54, 61, 86, 69, 82, 84, 69, 88, 95, 80, 79, 73, 78, 84, 40, 39, 39, 44, 35, 53, 55, 41,
  59, 10, 35, 49, 50, 55, 61, 86, 69, 82, 84, 69, 88, 95, 80, 79, 73, 78, 84, 40, 39, 39, 44, 35, 53, 56, 41, 59, 10,
  35, 49, 50, 56, 61, 86, 69, 82, 84, 69, 88, 95, 80, 79, 73, 78, 84, 40, 39, 39, 44, 35, 53, 57, 41, 59, 10, 35, 49,
  50, 57, 61, 86, 69, 82, 84, 69, 88, 95, 80, 79, 73, 78, 84, 40, 39, 39, 44, 35, 54, 48, 41, 59, 10, 35, 49, 51, 48,
  61, 86, 69, 82, 84, 69, 88, 95, 80, 79, 73, 78, 84, 40, 39, 39, 44, 35, 54, 49, 41, 59, 10, 35, 49, 51, 49, 61, 86,
  69, 82, 84, 69, 88, 95, 80, 79, 73, 78, 84, 40, 39, 39, 44, 35, 54, 50, 41, 59, 10, 35, 49, 51, 50, 61, 86, 69, 82,
  84, 69, 88, 95, 80, 79, 73, 78, 84, 40, 39, 39, 44, 35, 54, 51, 41, 59, 10, 35, 49, 51, 51, 61, 86, 69, 82, 84, 69,
  88, 95, 80, 79, 73, 78, 84, 40, 39, 39, 44, 35, 54, 52, 41, 59, 10, 35, 49, 51, 52, 61, 86, 69, 82, 84, 69, 88, 95,
  80, 79, 73, 78, 84, 40, 39, 39, 44, 35, 54, 53, 41, 59, 10, 35, 49, 51, 53, 61, 86, 69, 82, 84, 69, 88, 95, 80, 79,
  73, 78, 84, 40, 39, 39, 44, 35, 54, 54, 41, 59, 10, 35, 49, 51, 54, 61, 86, 69, 82, 84, 69, 88, 95, 80, 79, 73, 78,
  84, 40, 39, 39, 44, 35, 54, 55, 41, 59, 10, 35, 49, 51, 55, 61, 86, 69, 82, 84, 69, 88, 95, 80, 79, 73, 78, 84, 40,
  39, 39, 44, 35, 54, 56, 41, 59, 10, 35, 49, 51, 56, 61, 86, 69, 82, 84, 69, 88, 95, 80, 79, 73, 78, 84, 40, 39, 39,
  44, 35, 54, 57, 41, 59, 10, 35, 49, 51, 57, 61, 66, 95, 83, 80, 76, 73, 78, 69, 95, 83, 85, 82, 70, 65, 67, 69, 95,
  87, 73, 84, 72, 95, 75, 78, 79, 84, 83, 40, 39, 39, 44, 51, 44, 51, 44, 40, 40, 35, 48, 44, 35, 49, 44, 35, 50, 44,
  35, 51, 44, 35, 52, 44, 35, 53, 41, 44, 40, 35, 54, 44, 35, 55, 44, 35, 56, 44, 35, 57, 44, 35, 49, 48, 44, 35, 49,
  49, 41, 44, 10, 40, 35, 49, 50, 44, 35, 49, 51, 44, 35, 49, 52, 44, 35, 49, 53, 44, 35, 49, 54, 44, 35, 49, 55, 41,
  44, 40, 35, 49, 56, 44, 35, 49, 57, 44, 35, 50, 48, 44, 35, 50, 49, 44, 35, 50, 50, 44, 35, 50, 51, 41, 44, 40, 35,
  50, 52, 44, 35, 50, 53, 44, 35, 50, 54, 44, 35, 50, 55, 44, 35, 50, 56, 44, 35, 50, 57, 41, 44, 10, 40, 35, 51, 48,
  44, 35, 51, 49, 44, 35, 51, 50, 44, 35, 51, 51, 44, 35, 51, 52, 44, 35, 51, 53, 41, 41, 44, 46, 85, 78, 83, 80, 69,
  67, 73, 70, 73, 69, 68, 46, 44, 46, 70, 46, 44, 46, 70, 46, 44, 46, 70, 46, 44, 40, 48, 44, 32, 48, 44, 32, 48, 44,
  32, 48, 44, 32, 48, 46, 51, 51, 51, 44, 32, 48, 46, 54, 54, 54, 44, 32, 49, 44, 32, 49, 44, 32, 49, 44, 32, 49, 41,
  44, 10, 40, 48, 44, 32, 48, 44, 32, 48, 44, 32, 48, 44, 32, 48, 46, 51, 51, 51, 44, 32, 48, 46, 54, 54, 54, 44, 32,
  49, 44, 32, 49, 44, 32, 49, 44, 32, 49, 41, 44, 40, 49, 44, 32, 49, 44, 32, 49, 44, 32, 49, 44, 32, 49, 44, 32, 49,
  44, 32, 49, 44, 32, 49, 44, 32, 49, 44, 32, 49, 41, 44, 40, 49, 44, 32, 49, 44, 32, 49, 44, 32, 49, 44, 32, 49, 44,
  32, 49, 44, 32, 49, 44, 32, 49, 44, 32, 49, 44, 32, 49, 41, 41, 59]

/-- step/lex_test.go:8-18 `TestLex`: the second definition of `#4` replaces the first -/
example : Lex undefinedStp = .ok [
    (lit "#1".toList, ⟨lit "CARTESIAN_POINT".toList, [lit "''".toList, lit "(1,-2,3)".toList]⟩),
    (lit "#2".toList, ⟨lit "CARTESIAN_POINT".toList, [lit "''".toList, lit "(1,-2,3)".toList]⟩),
    (lit "#3".toList, ⟨lit "CARTESIAN_POINT".toList, [lit "''".toList, lit "(1,-2,3)".toList]⟩),
    (lit "#4".toList, ⟨lit "BLA_BLA_BLA".toList, [lit "''".toList, lit "(1,-2,3)".toList]⟩)] := by decide +kernel

/-- the same through the buffered reader, with reads of 7 bytes -/
example : LexFile 200 (some ⟨undefinedStp, .eof, fun _ => 7, 0⟩) = Lex undefinedStp := by decide +kernel

/-- step/parse_test.go:5-10 `TestParseUndefined`: unknown types are skipped, nothing is pushed -/
example : (Lex undefinedStp >>= fun t => Parse 10 t t) = .ok
    ⟨[lit "#4".toList, lit "#3".toList, lit "#2".toList, lit "#1".toList],
     [⟨.skipUtility, lit "#1".toList⟩, ⟨.skipUtility, lit "#2".toList⟩, ⟨.skipUtility, lit "#3".toList⟩,
      ⟨.skipUtility, lit "#4".toList⟩]⟩ := by decide +kernel

/-- step/parse_test.go:12-17 `TestParseSurface`: the definition over four lines is put together, with 12 arguments -/
example : (Lex surfaceStp >>= fun t => pure (t.length, t.getLast?)) = .ok (104, some (lit "#139".toList,
    ⟨lit "B_SPLINE_SURFACE_WITH_KNOTS".toList,
     [lit "''".toList, lit "3".toList, lit "3".toList,
      lit ("((#0,#1,#2,#3,#4,#5),(#6,#7,#8,#9,#10,#11),(#12,#13,#14,#15,#16,#17),(#18,#19,#20,#21,#22,#23)," ++
        "(#24,#25,#26,#27,#28,#29),(#30,#31,#32,#33,#34,#35))").toList,
      lit ".UNSPECIFIED.".toList, lit ".F.".toList, lit ".F.".toList, lit ".F.".toList,
      lit "(0, 0, 0, 0, 0.333, 0.666, 1, 1, 1, 1)".toList, lit "(0, 0, 0, 0, 0.333, 0.666, 1, 1, 1, 1)".toList,
      lit "(1, 1, 1, 1, 1, 1, 1, 1, 1, 1)".toList, lit "(1, 1, 1, 1, 1, 1, 1, 1, 1, 1)".toList]⟩)) := by
  decide +kernel

/-- a blank before the final semicolon leaves the closing bracket in the last argument (line 17 of the file) -/
example : (Lex surfaceStp >>= fun t => pure (lookup t (lit "#18".toList))) = .ok
    ⟨lit "CARTESIAN_POINT".toList, [lit "''".toList, lit "( 0,-30,0 ))".toList]⟩ := by decide +kernel

/-- the parser calls one handler for every symbol and the one for B-spline surfaces on the last -/
example : (Lex surfaceStp >>= fun t => Parse 10 t t >>= fun st => pure (st.trace.length, st.trace.getLast?,
      (st.trace.dropLast.all (fun q => q.fn = .skipUtility) : Bool))) = .ok
    (104, some ⟨.bSplineSurfaceWithKnots, lit "#139".toList⟩, true) := by decide +kernel

/-- step/util_test.go:9-14 `TestGetArray` -/
example : getArray (lit "(bla,(bla,bla,(bla,bla)),bla,(bla,bla),bla)".toList) = .ok
    [lit "bla".toList, lit "(bla,bla,(bla,bla))".toList, lit "bla".toList, lit "(bla,bla)".toList, lit "bla".toList] := by
  decide +kernel

/-! ## nurbs -/

/-- nurbs/curve_test.go:10-36 `TestCurvePoint`, exact: the weights are 1/48, 23/48, 23/48, 1/48 -/
example : Nurbs.curvePoint 20 8 3 [0, 1, 2, 3, 4, 5, 6, 7, 8, 9, 10, 11, 12]
    [⟨0, 0, 0⟩, ⟨1, 0, 0⟩, ⟨0, 1, 0⟩, ⟨1, 1, 0⟩, ⟨0, 0, 1⟩, ⟨1, 0, 1⟩, ⟨0, 1, 1⟩, ⟨1, 1, 1⟩, ⟨2, 2, 2⟩] (9/2 : ℚ) =
    .ok ⟨1/2, 23/24, 1/48⟩ := by decide +kernel

/-- the same at float64: the first coordinate is 0.49999999999999994 -/
example : Nurbs.curvePoint 20 8 3 [0, 1, 2, 3, 4, 5, 6, 7, 8, 9, 10, 11, 12]
    [vec 0 0 0, vec 1 0 0, vec 0 1 0, vec 1 1 0, vec 0 0 1, vec 1 0 1, vec 0 1 1, vec 1 1 1, vec 2 2 2]
    (GoConst.const (9/2) : F64) =
    .ok ⟨GoConst.const (9007199254740991/18014398509481984), GoConst.const (4315949642896725/4503599627370496),
      GoConst.const (6004799503160661/288230376151711744)⟩ := by decide +kernel

/-- the third row of derivatives, with the sign of each summand; rows 0 and 1 vanish (see C46) -/
example : Nurbs.dersBasisFuns (F := ℚ) 4 4 3 3 [0, 1, 2, 3, 4, 5, 6, 7, 8, 9] = .ok
    [[0, 0, 0, 0], [0, 0, 0, 0], [0, 0, -9, 0], [0, 11/2, -21, 0]] := by decide +kernel

/-! ## triangulate3 -/

/-- triangulate3/englober_test.go:11-24 `TestComputeBoundingBoxForVectors` -/
example : Tri3.computeBoundingBoxForVectors
    [vec 0 0 0, vec 0 1 0, vec 1 0 0, vec 1 1 0, vec 0 9 1, vec 0 1 1, vec 1 0 8, vec 1 1 1] =
    (vec 0 0 0, vec 1 9 8) := by decide +kernel

/-- the corners of a cube -/
def cube : List (Vector F64) :=
  [vec 0 0 0, vec 0 1 0, vec 1 0 0, vec 1 1 0, vec 0 0 1, vec 0 1 1, vec 1 0 1, vec 1 1 1]

/-- triangulate3/englober_test.go:57-74 `TestCreateInitialTetra`: the tetrahedron does not contain the points, so the test in
the repository ends with its panic "WRAPPING MISSES VectorS" -/
example : Tri3.createInitialTetra cube = [vec 0 0 0, vec 1 0 0, vec 0 1 1, vec 0 1 0] ∧
    cube.map (Tri3.VectorInTetrahedron (vec 0 0 0) (vec 1 0 0) (vec 0 1 1) (vec 0 1 0)) =
      [true, true, true, false, false, true, false, false] := by decide +kernel

/-! ## meshing -/

/-- meshing/mesh_test.go:26-45 `TestEnglobe`: all points lie in the tetrahedron -/
example :
    let pts := [vec 0 0 0, vec 0 999 0, vec 1 17 0, vec 1 1 0, vec 0 0 12, vec (-123) 1 15, vec 1 123 1, vec 1 1 1]
    (Meshing.englobe pts).1 = vec (-123) 0 0 :: vec 249 0 0 :: vec (-123) 2997 0 :: vec (-123) 0 45 :: pts ∧
    pts.all (Tri3.VectorInTetrahedron (vec (-123) 0 0) (vec 249 0 0) (vec (-123) 2997 0) (vec (-123) 0 45)) = true := by
  decide +kernel

/-- meshing/mesh_test.go:47-66 `TestBowyerWatson`, with the maps visited in the order of insertion -/
example : Meshing.bowyerWatson ⟨fun _ t => t, fun _ t => t, id⟩
    [vec 0 0 0, vec 0 5 0, vec 1 7 0, vec 1 1 0, vec 0 0 2, vec (-3) 1 5, vec 1 3 1, vec 1 1 1] = .ok
      [1, 3, 0, 3, 4, 0, 0, 1, 3, 1, 3, 5, 3, 5, 0, 5, 0, 1, 5, 4, 3, 3, 5, 2, 5, 3, 1, 4, 3, 5, 2, 3, 5, 5,
      3, 4, 6, 1, 3, 4, 6, 3, 3, 1, 6, 3, 6, 4, 0, 6, 3, 6, 5, 3, 5, 6, 4, 5, 1, 6, 0, 6, 3, 6, 5, 3, 5, 6, 2,
      6, 1, 5, 1, 0, 7, 1, 0, 5, 0, 5, 7, 5, 7, 1, 7, 1, 0, 7, 0, 5, 1, 7, 5, 0, 4, 7, 7, 4, 6, 0, 7, 6, 0, 4,
      5, 4, 5, 7, 5, 7, 0, 7, 0, 4, 0, 5, 7, 7, 5, 6, 0, 7, 6, 2, 7, 5, 2, 6, 7, 2, 6, 5, 6, 5, 7, 5, 7, 2, 7,
      2, 6, 5, 7, 4, 7, 6, 4, 4, 7, 5, 4, 6, 7, 7, 6, 5] := by decide +kernel

/-- `strconv.Itoa` -/
example : Meshing.itoa 0 = "0".toList ∧ Meshing.itoa (-120) = "-120".toList ∧ Meshing.itoa 1234567890 = "1234567890".toList := by
  decide +kernel

/-! ## r3 -/

/-- r3/line_test.go:8-49 `TestIntersection`: the two points announced in the comments, and the panic -/
example :
    (Line.mk ⟨1, 2, 3⟩ ⟨0, 1, 0⟩ : Line ℝ).IntersectPlane ⟨⟨0, 1, 0⟩, ⟨0, 0, 0⟩⟩ = .ok ⟨1, 0, 3⟩ ∧
    (Line.mk ⟨1, 2, 3⟩ ⟨1, 1, 0⟩ : Line ℝ).IntersectPlane ⟨⟨0, 1, 0⟩, ⟨0, 0, 0⟩⟩ = .ok ⟨-1, 0, 3⟩ ∧
    (Line.mk ⟨1, 2, 3⟩ ⟨1, 0, 0⟩ : Line ℝ).IntersectPlane ⟨⟨0, 1, 0⟩, ⟨0, 0, 0⟩⟩ = .panic := by
  have run : ∀ (l : Line ℝ) (p : Plane3D ℝ) (x : Vector ℝ), l.Direction ≠ ⟨0, 0, 0⟩ → Props.normalDotDir l p ≠ 0 →
      Props.OnPlane p x → Props.OnLine l x → l.IntersectPlane p = .ok x := by
    intro l p x h1 h2 h3 h4
    cases h : l.IntersectPlane p with
    | ok r => rw [(Props.C05_result l p r h).2.2 x h3 h4]
    | panic => exact absurd ((Props.C05_panics l p).1 h) (by push Not; exact ⟨h1, h2⟩)
    | fuel => simp [Line.IntersectPlane] at h; split at h <;> simp at h
  refine ⟨run _ _ _ ?_ ?_ ?_ ⟨-2, ?_⟩, run _ _ _ ?_ ?_ ?_ ⟨-2, ?_⟩, (Props.C05_panics _ _).2 (Or.inr ?_)⟩ <;>
    norm_num [Props.normalDotDir, Props.OnPlane, R3.Vector.ext_iff]

end Verif.RepoTests
