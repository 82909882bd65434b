import Verif.Go.Res
import Verif.Go.Map
import Verif.Go.Str
/-!
# Model of package `step` (util.go, lex.go, parse.go, bridge.go, template.go)

Printing, `flag.Parse`, the JSON dump and the unused channel are not modelled. The input of `Lex` is the
byte content of the file. `Parse` has no result; the model returns the sequence of handler calls.
-/
namespace Verif.Step
open Verif

/-- the code of `(`, `)`, `,`, `=` -/
def lp : Nat := 40
def rp : Nat := 41
def comma : Nat := 44
def eqSign : Nat := 61

/-- state of the splitting loops of `getArguments` and `getArray`: finished pieces, bracket depth, current
piece (in runes) -/
structure SplitSt where
  done : List GoString
  depth : Int
  cur : List Rune
  deriving DecidableEq, Repr

/-- step/util.go:17-30 and 50-63: the body of the loop over the runes -/
def splitStep (st : SplitSt) (r : Rune) : SplitSt :=
  let depth := if r = lp then st.depth + 1 else st.depth
  let depth := if r = rp then depth - 1 else depth
  if depth = 0 ∧ r = comma then ⟨st.done ++ [encode st.cur], depth, []⟩
  else ⟨st.done, depth, st.cur ++ [r]⟩

/-- step/util.go:17-30: the whole loop -/
def splitLoop (rs : List Rune) : SplitSt := rs.foldl splitStep ⟨[], 0, []⟩

/-- step/util.go:13-35 `getArguments`. Line 32 slices the *bytes* of the last argument with a bound computed
from its number of *runes*; the slice expression panics when the bound is negative. (The bound never exceeds
the byte length.) -/
def getArguments (argumentsText : GoString) : Res (List GoString) :=
  let st := splitLoop (runes argumentsText)
  if st.cur.length < 2 then .panic
  else .ok (st.done ++ [(encode st.cur).take (st.cur.length - 2)])

/-- step/util.go:44-66 `getArray`: `arrayText[1 : len(arrayText)-1]` panics for fewer than two bytes -/
def getArray (arrayText : GoString) : Res (List GoString) :=
  if arrayText.length < 2 then .panic
  else
    let inner := (arrayText.drop 1).take (arrayText.length - 2)
    let st := splitLoop (runes inner)
    .ok (st.done ++ [encode st.cur])

/-- step/util.go:72-75 -/
def getRows : List GoString → Res (List (List GoString))
  | [] => pure []
  | c :: cs => do
    let row ← getArray c
    let rows ← getRows cs
    pure (row :: rows)

/-- step/util.go:69-77 `getMatrix` -/
def getMatrix (matrixText : GoString) : Res (List (List GoString)) := do
  let cols ← getArray matrixText
  getRows cols

/-- step/util.go:80-89 `getLogical` -/
def getLogical (logicText : GoString) : Bool :=
  if logicText = ascii ['.', 'T', '.'] then true
  else if logicText = ascii ['.', 'F', '.'] then false
  else false

/-- step/util.go:91-100 `stripWhiteSpaces` -/
def stripWhiteSpaces (str : GoString) : GoString :=
  encode ((runes str).filter (fun r => !isSpace r))

/-- step/lex.go:34-37 `type Definition struct` -/
structure Definition where  -- field `Type` is called `Typ` here
  Typ : GoString
  Arguments : List GoString
  deriving DecidableEq, Repr

/-- the zero value of `Definition` -/
def Definition.zero : Definition := ⟨[], []⟩

/-- step/lex.go:30 `type SymbolTable map[string]Definition` -/
abbrev SymbolTable := List (GoString × Definition)

/-- `strings.SplitN(s, sep, 2)` for a one-byte separator: `none` for the second part if `sep` does not occur -/
def splitN2 (sep : UInt8) : GoString → GoString × Option GoString
  | [] => ([], none)
  | b :: rest =>
    if b = sep then ([], some rest)
    else
      let (x, y) := splitN2 sep rest
      (b :: x, y)

/-- step/lex.go:133-143 `tokenize`; `split[1]` panics when there is no `(` -/
def tokenize (definitionText : GoString) : Res Definition := do
  let split := splitN2 40 definitionText
  let argumentsText ← Res.ofOption split.2
  let definitionArguments ← getArguments argumentsText
  let definitionType := stripWhiteSpaces split.1
  pure ⟨definitionType, definitionArguments⟩

/-- step/lex.go:124-130 `add`; `split[1]` panics when there is no `=` -/
def add (st : SymbolTable) (symbolText : GoString) : Res SymbolTable := do
  let split := splitN2 61 symbolText
  let rhs ← Res.ofOption split.2
  let definition ← tokenize rhs
  pure (GoMap.set st split.1 definition)

/-- `strings.Contains(buffer, "=")` -/
def containsEq (buffer : GoString) : Bool := buffer.any (· = 61)

/-- step/lex.go:67-111 the loop over the lines returned by `ReadLine`, with the variables `symbolText` and
`symbolTable` -/
def lexLoop : List GoString → GoString → SymbolTable → Res (GoString × SymbolTable)
  | [], symbolText, symbolTable => pure (symbolText, symbolTable)
  | buffer :: rest, symbolText, symbolTable =>
    if buffer.length = 0 then lexLoop rest symbolText symbolTable
    else if containsEq buffer then do
      let symbolTable ← if symbolText.length > 0 then add symbolTable symbolText else pure symbolTable
      lexLoop rest buffer symbolTable
    else lexLoop rest (symbolText ++ buffer) symbolTable

/-- step/lex.go:54-114 `Lex` on the lines of the file -/
def lexLines (lines : List GoString) : Res SymbolTable := do
  let (symbolText, symbolTable) ← lexLoop lines [] []
  add symbolTable symbolText

/-- the buffer size of `bufio.NewReader` -/
def bufSize : Nat := 4096

/-- bufio `ReadLine` drops a final `\n` and a `\r` before it -/
def dropEOL (line : GoString) : GoString :=
  let l := line.dropLast
  if l.getLast? = some 13 then l.dropLast else l

/-- bufio `ReadLine` on the remaining input: the line and the input after it; `none` at end of file.
If the first 4096 bytes hold no `\n`, they are returned as a line of their own (`isPrefix`, ignored by
lex.go:68), except that a final `\r` is left in the input. -/
def readLine (input : GoString) : Option (GoString × GoString) :=
  match input with
  | [] => none
  | _ =>
    let window := input.take bufSize
    match window.idxOf? 10 with
    | some i => some (dropEOL (window.take (i+1)), input.drop (i+1))
    | none =>
      if window.length = bufSize then
        if window.getLast? = some 13 then some (window.dropLast, input.drop (bufSize - 1))
        else some (window, input.drop bufSize)
      else some (window, [])

/-- all the lines returned by successive calls of `ReadLine`; `fuel` bounds the number of calls -/
def readLinesFuel : (fuel : Nat) → GoString → List GoString
  | 0, _ => []
  | fuel + 1, input =>
    match readLine input with
    | none => []
    | some (line, rest) => line :: readLinesFuel fuel rest

/-- every call consumes at least one byte, so `length + 1` calls reach the end of the file -/
def readLines (input : GoString) : List GoString := readLinesFuel (input.length + 1) input

/-- step/lex.go:54-114 `Lex` on the content of the file -/
def Lex (content : GoString) : Res SymbolTable := lexLines (readLines content)

/-! ## Parser -/

/-- the methods of `Parser` that are used as `parseFn` -/
inductive Handler where
  | skipUtility | vertexLoop | axis2Placement3D | face | bSplineSurfaceWithKnots | advancedFace
  | closedShell | direction | productDefinition | productDefinitionContext | productDefinitionFormation
  | productDefinitionShape | sphericalSurface | toroidalSurface | cartesianPoint
  deriving DecidableEq, Repr

/-- step/bridge.go:9-48 `bridge` -/
def bridge (d : Definition) : Handler :=
  if d.Typ = ascii "CARTESIAN_POINT".toList then .skipUtility
  else if d.Typ = ascii "VERTEX_POINT".toList then .skipUtility
  else if d.Typ = ascii "VERTEX_LOOP".toList then .vertexLoop
  else if d.Typ = ascii "AXIS_2_PLACEMENT_3D".toList then .axis2Placement3D
  else if d.Typ = ascii "FACE".toList then .face
  else if d.Typ = ascii "B_SPLINE_SURFACE_WITH_KNOTS".toList then .bSplineSurfaceWithKnots
  else if d.Typ = ascii "ADVENCED_FACE".toList then .advancedFace
  else if d.Typ = ascii "CLOSED_SHELL".toList then .closedShell
  else if d.Typ = ascii "DIRECTION".toList then .direction
  else if d.Typ = ascii "PRODUCT_DEFINITION".toList then .productDefinition
  else if d.Typ = ascii "PRODUCT_DEFINITION_CONTEXT".toList then .productDefinitionContext
  else if d.Typ = ascii "PRODUCT_DEFINITION_FORMATION".toList then .productDefinitionFormation
  else if d.Typ = ascii "PRODUCT_DEFINITION_SHAPE".toList then .productDefinitionShape
  else if d.Typ = ascii "SPHERICAL_SURFACE".toList then .sphericalSurface
  else if d.Typ = ascii "TOROIDAL_SURFACE".toList then .toroidalSurface
  else .skipUtility

/-- `p.lexemes[key]`: the zero value for a missing key -/
def lookup (lexemes : SymbolTable) (key : GoString) : Definition :=
  (GoMap.get? lexemes key).getD Definition.zero

/-- step/parse.go:36-39 `type parseState struct` -/
structure ParseState where
  fn : Handler
  key : GoString
  deriving DecidableEq, Repr

/-- step/template.go:10-189 the handlers: the states they append to `nextStates`, or a panic -/
def runHandler (lexemes : SymbolTable) : Handler → GoString → Res (List ParseState)
  | .productDefinitionShape, key => do                                        -- lines 14-19
    let a ← goGet (lookup lexemes key).Arguments 2
    pure [⟨.productDefinition, a⟩]
  | .productDefinition, key => do                                             -- lines 20-27
    let a ← goGet (lookup lexemes key).Arguments 2
    let b ← goGet (lookup lexemes key).Arguments 2
    pure [⟨.productDefinitionFormation, a⟩, ⟨.productDefinitionContext, b⟩]
  | .axis2Placement3D, key => do                                              -- lines 37-44
    let a ← goGet (lookup lexemes key).Arguments 1
    let b ← goGet (lookup lexemes key).Arguments 1
    let c ← goGet (lookup lexemes key).Arguments 1
    pure [⟨.cartesianPoint, a⟩, ⟨.direction, b⟩, ⟨.direction, c⟩]
  | .cartesianPoint, key => do                                                -- lines 46-55
    let a ← goGet (lookup lexemes key).Arguments 1
    let _ ← getArray a
    pure []
  | .advancedFace, key => do                                                  -- lines 88-111
    let neighbourID ← goGet (lookup lexemes key).Arguments 1
    let faceType := trimSpace (lookup lexemes neighbourID).Typ
    if faceType = ascii "SPHERICAL_SURFACE".toList then pure [⟨.sphericalSurface, neighbourID⟩]
    else if faceType = ascii "TOROIDAL_SURFACE".toList then pure [⟨.toroidalSurface, neighbourID⟩]
    else pure []
  | .sphericalSurface, key => do                                              -- lines 113-121
    let _ ← goGet (lookup lexemes key).Arguments 2
    pure []
  | .bSplineSurfaceWithKnots, key => do                                       -- lines 143-189
    let args := (lookup lexemes key).Arguments
    let _name ← goGet args 0
    let _uDegree ← goGet args 1
    let _vDegree ← goGet args 2
    let a3 ← goGet args 3
    let _ ← getMatrix a3
    let _surfaceForm ← goGet args 4
    let _ ← goGet args 5
    let _ ← goGet args 6
    let _ ← goGet args 7
    let a8 ← goGet args 8
    let _ ← getArray a8
    let a9 ← goGet args 9
    let _ ← getArray a9
    let a10 ← goGet args 10
    let _ ← getArray a10
    let a11 ← goGet args 11
    let _ ← getArray a11
    pure []
  -- skipUtility (10-12), productDefinitionFormation (29-31), productDefinitionContext (33-35),
  -- direction (57-59), closedShell (77-79), toroidalSurface (123-128), vertexLoop (134-135), face (137-141)
  | _, _ => pure []

/-- the state of the parser: `visited`, and (for observation) the trace of handler calls -/
structure ParserSt where
  visited : List GoString
  trace : List ParseState
  deriving DecidableEq, Repr

/-- step/parse.go:57-66 the loop of `runInferenceModel` on the queue `nextStates` -/
def runQueue (lexemes : SymbolTable) : (fuel : Nat) → List ParseState → ParserSt → Res ParserSt
  | _, [], st => pure st
  | 0, _ :: _, _ => .fuel
  | fuel + 1, popState :: queue, st =>
    if popState.key ∈ st.visited then runQueue lexemes fuel queue st
    else do
      let pushed ← runHandler lexemes popState.fn popState.key
      runQueue lexemes fuel (queue ++ pushed)
        ⟨popState.key :: st.visited, st.trace ++ [popState]⟩

/-- step/parse.go:75-79 the loop over the symbol table, in the iteration order `order` -/
def parseLoop (lexemes : SymbolTable) (fuel : Nat) : List (GoString × Definition) → ParserSt → Res ParserSt
  | [], st => pure st
  | (key, lexeme) :: rest, st => do
    let st ← runQueue lexemes fuel [⟨bridge lexeme, key⟩] st
    parseLoop lexemes fuel rest st

/-- step/parse.go:71-80 `Parse`: `order` is the order in which `range lexemes` visits the map -/
def Parse (fuel : Nat) (lexemes : SymbolTable) (order : List (GoString × Definition)) : Res ParserSt :=
  parseLoop lexemes fuel order ⟨[], []⟩

end Verif.Step
