import Verif.Model.Step
/-!
# Model of step/job.go and of the surface record built in step/template.go

`Step.runHandler` keeps of a handler only the states it appends. Here the record that `bSplineSurfaceWithKnots` fills and prints is kept too.
-/
namespace Verif.Step
open Verif

/-- step/job.go:5-18 `type bSplineSurfaceWithKnots struct` -/
structure BSplineSurface where
  name : GoString
  uDegree : GoString
  vDegree : GoString
  controlPointsList : List (List GoString)
  surfaceForm : GoString
  uClosed : Bool
  vClosed : Bool
  selfIntersect : Bool
  uMultiplicities : List GoString
  vMultiplicities : List GoString
  uKnots : List GoString
  vKnots : List GoString
  deriving DecidableEq, Repr

/-- step/template.go:143-189 `bSplineSurfaceWithKnots`: the record that line 188 prints -/
def surfaceJob (lexemes : SymbolTable) (key : GoString) : Res BSplineSurface := do
  let args := (lookup lexemes key).Arguments
  let name ← goGet args 0
  let uDegree ← goGet args 1
  let vDegree ← goGet args 2
  let a3 ← goGet args 3
  let controlPointsList ← getMatrix a3
  let surfaceForm ← goGet args 4
  let a5 ← goGet args 5
  let uClosed := getLogical a5
  let a6 ← goGet args 6
  let vClosed := getLogical a6
  let a7 ← goGet args 7
  let selfIntersect := getLogical a7
  let a8 ← goGet args 8
  let uMultiplicities ← getArray a8
  let a9 ← goGet args 9
  let vMultiplicities ← getArray a9
  let a10 ← goGet args 10
  let uKnots ← getArray a10
  let a11 ← goGet args 11
  let vKnots ← getArray a11
  pure ⟨name, uDegree, vDegree, controlPointsList, surfaceForm, uClosed, vClosed, selfIntersect, uMultiplicities, vMultiplicities, uKnots, vKnots⟩

/-- the records printed by the calls of a run, in order, with the keys of their entities -/
def printed (lexemes : SymbolTable) : List ParseState → Res (List (GoString × BSplineSurface))
  | [] => pure []
  | s :: rest =>
    if s.fn = .bSplineSurfaceWithKnots then do
      let job ← surfaceJob lexemes s.key
      let jobs ← printed lexemes rest
      pure ((s.key, job) :: jobs)
    else printed lexemes rest

/-- step/parse.go:71-80 `Parse` with its output: the printed surfaces -/
def ParseJobs (fuel : Nat) (lexemes : SymbolTable) (order : List (GoString × Definition)) : Res (List (GoString × BSplineSurface)) := do
  let st ← Parse fuel lexemes order
  printed lexemes st.trace

end Verif.Step
