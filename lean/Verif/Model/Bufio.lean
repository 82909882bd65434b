import Verif.Model.Step
/-!
# Model of the way `Lex` reads its file

step/lex.go:56-72 opens a file, wraps it in a `bufio.Reader` and calls `ReadLine` until `io.EOF`. `Verif.Step.Lex` is a
function of the byte content of the file. Here the file and the buffered reader are explicit: the operating system may deliver
the content in pieces of any size, and may report an error other than end of file. `bufio.Reader` is part of the standard
library; its methods `fill`, `ReadSlice` and `ReadLine` are transcribed from their source.
-/
namespace Verif.Step
open Verif

/-- the error values that `ReadSlice` and `ReadLine` can report here -/
inductive IOErr where
  | eof
  | bufferFull
  /-- any other error of the operating system, for instance `EISDIR` when the file is a directory -/
  | other
  deriving DecidableEq, Repr

/-- an open file: the bytes not delivered yet, the error reported after them (again at every later call), and the number of
bytes that the operating system delivers at each call -/
structure File where
  rest : GoString
  last : IOErr
  chunk : Nat → Nat
  calls : Nat

/-- `(*os.File).Read(p)` with `len(p) = room`: at least one byte and at most `room` bytes, or the final error -/
def File.read (f : File) (room : Nat) : GoString × Option IOErr × File :=
  if f.rest = [] then ([], some f.last, { f with calls := f.calls + 1 })
  else
    let n := min room (max 1 (f.chunk f.calls))
    (f.rest.take n, none, { f with rest := f.rest.drop n, calls := f.calls + 1 })

/-- bufio `Reader`: the unread part `buf[r:w]` of the buffer, the pending error, the file -/
structure Reader where
  buf : GoString
  err : Option IOErr
  file : File

/-- bufio `fill`: one call of `Read` into the free part of the buffer -/
def Reader.fill (b : Reader) : Reader :=
  let (bytes, err, file) := b.file.read (bufSize - b.buf.length)
  ⟨b.buf ++ bytes, err, file⟩

/-- bufio `ReadSlice('\n')` -/
def Reader.readSlice : (fuel : Nat) → Reader → Res (GoString × Option IOErr × Reader)
  | 0, _ => .fuel
  | fuel + 1, b =>
    match b.buf.idxOf? 10 with
    | some i => pure (b.buf.take (i+1), none, { b with buf := b.buf.drop (i+1) })
    | none =>
      match b.err with
      | some e => pure (b.buf, some e, { b with buf := [], err := none })
      | none =>
        if bufSize ≤ b.buf.length then pure (b.buf, some .bufferFull, { b with buf := [] })
        else Reader.readSlice fuel b.fill

/-- bufio `ReadLine` (the result `isPrefix`, which lex.go:68 drops, is left out) -/
def Reader.readLine (b : Reader) : Res (GoString × Option IOErr × Reader) := do
  let (line, err, b) ← b.readSlice (bufSize + 2)
  if err = some .bufferFull then
    -- `\r\n` straddling the buffer: the `\r` is put back
    if line.getLast? = some 13 then pure (line.dropLast, none, { b with buf := 13 :: b.buf })
    else pure (line, none, b)
  else if line.length = 0 then pure (line, err, b)
  else if line.getLast? = some 10 then pure (dropEOL line, none, b)
  else pure (line, none, b)

/-- step/lex.go:67-112 the loop of `Lex` over the reader, followed by the last `add`. An error other than `io.EOF` is not
looked at (line 70): the line is empty then, and the loop goes on (line 84). -/
def lexReader : (fuel : Nat) → Reader → GoString → SymbolTable → Res SymbolTable
  | 0, _, _, _ => .fuel
  | fuel + 1, b, symbolText, symbolTable => do
    let (buffer, err, b) ← b.readLine
    if err = some .eof then add symbolTable symbolText
    else if buffer.length = 0 then lexReader fuel b symbolText symbolTable
    else if containsEq buffer then do
      let symbolTable ← if symbolText.length > 0 then add symbolTable symbolText else pure symbolTable
      lexReader fuel b buffer symbolTable
    else lexReader fuel b (symbolText ++ buffer) symbolTable

/-- step/lex.go:54-114 `Lex` on what `os.Open` returns; `none` is an error, on which `check` (step/util.go:115-119) panics -/
def LexFile (fuel : Nat) (file : Option File) : Res SymbolTable :=
  match file with
  | none => .panic
  | some f => lexReader fuel ⟨[], none, f⟩ [] []

end Verif.Step
