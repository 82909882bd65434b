/-!
# Go strings and runes

A Go string is a sequence of bytes. `range` over a string decodes UTF-8; an invalid byte yields the rune
U+FFFD and advances by one byte. `string([]rune)` encodes, replacing invalid runes by U+FFFD.
-/
namespace Verif

abbrev GoString := List UInt8

abbrev Rune := Nat

/-- the bytes of an ASCII literal -/
def ascii (s : List Char) : GoString := s.map (fun c => UInt8.ofNat c.toNat)

/-- unicode/utf8: a continuation byte -/
def isCont (b : UInt8) : Bool := decide (128 ≤ b.toNat) && decide (b.toNat ≤ 191)

/-- unicode/utf8 `DecodeRune` on the first byte `b` and the rest of the string: the rune and the remaining
bytes. The second-byte ranges for E0, ED, F0, F4 exclude overlong encodings, surrogates and values above
U+10FFFF. -/
def decodeRune (b : UInt8) (rest : GoString) : Rune × GoString :=
  let n := b.toNat
  if n < 128 then (n, rest)
  else if n < 194 then (65533, rest)
  else if n < 224 then
    match rest with
    | c :: r => if isCont c then ((n - 192) * 64 + (c.toNat - 128), r) else (65533, rest)
    | _ => (65533, rest)
  else if n < 240 then
    match rest with
    | c :: d :: r =>
      if isCont c && isCont d && (n != 224 || decide (160 ≤ c.toNat)) && (n != 237 || decide (c.toNat ≤ 159)) then
        ((n - 224) * 4096 + (c.toNat - 128) * 64 + (d.toNat - 128), r)
      else (65533, rest)
    | _ => (65533, rest)
  else if n < 245 then
    match rest with
    | c :: d :: e :: r =>
      if isCont c && isCont d && isCont e && (n != 240 || decide (144 ≤ c.toNat)) &&
          (n != 244 || decide (c.toNat ≤ 143)) then
        ((n - 240) * 262144 + (c.toNat - 128) * 4096 + (d.toNat - 128) * 64 + (e.toNat - 128), r)
      else (65533, rest)
    | _ => (65533, rest)
  else (65533, rest)

theorem decodeRune_length (b : UInt8) (rest : GoString) : (decodeRune b rest).2.length ≤ rest.length := by
  unfold decodeRune
  simp only
  repeat' split
  all_goals simp
  all_goals omega

/-- the runes visited by `for _, r := range s` -/
def runes : GoString → List Rune
  | [] => []
  | b :: rest => (decodeRune b rest).1 :: runes (decodeRune b rest).2
termination_by s => s.length
decreasing_by
  have := decodeRune_length b rest
  simp; omega

/-- is `r` a Unicode scalar value -/
def validRune (r : Nat) : Bool := (decide (r < 55296)) || (decide (57344 ≤ r) && decide (r < 1114112))

/-- unicode/utf8 `EncodeRune` -/
def encodeRune (r : Nat) : GoString :=
  let r := if validRune r then r else 65533
  if r < 128 then [UInt8.ofNat r]
  else if r < 2048 then [UInt8.ofNat (192 + r / 64), UInt8.ofNat (128 + r % 64)]
  else if r < 65536 then
    [UInt8.ofNat (224 + r / 4096), UInt8.ofNat (128 + r / 64 % 64), UInt8.ofNat (128 + r % 64)]
  else [UInt8.ofNat (240 + r / 262144), UInt8.ofNat (128 + r / 4096 % 64),
        UInt8.ofNat (128 + r / 64 % 64), UInt8.ofNat (128 + r % 64)]

/-- `string(rs)` for a slice of runes -/
def encode (rs : List Rune) : GoString := (rs.map encodeRune).flatten

/-- `unicode.IsSpace` -/
def isSpace (r : Nat) : Bool :=
  (decide (9 ≤ r) && decide (r ≤ 13)) || r == 32 || r == 133 || r == 160 || r == 5760 ||
  (decide (8192 ≤ r) && decide (r ≤ 8202)) || r == 8232 || r == 8233 || r == 8239 || r == 8287 || r == 12288

/-- `strings.TrimSpace`: leading and trailing white space runes are cut off. The bytes in between are kept;
for a string that is not valid UTF-8 the result of this model has its invalid bytes replaced by U+FFFD
(irrelevant for the comparison with ASCII literals, the only use). -/
def trimSpace (s : GoString) : GoString :=
  encode ((((runes s).dropWhile isSpace).reverse.dropWhile isSpace).reverse)

end Verif
