import Verif.Go.Fmt
import Verif.Go.Utf8
/-!
# `json.MarshalIndent(v, "", "  ")` (Go standard library 1.14, `encoding/json`)

`MarshalIndent` writes the compact form and then lays it out with `Indent`; the two steps are modelled as one recursive
function. HTML escaping is on, as it always is for `Marshal` and `MarshalIndent`. Values are those the service writes: whole
numbers, strings, arrays, objects and `null`. The keys of an object are written in the order given: a Go map is written in the
order of its keys, a struct in the order of its fields.
-/

namespace Verif

inductive Json where
  | null
  | num (n : Int)
  | str (s : Bytes)
  | arr (l : List Json)
  | obj (l : List (Bytes × Json))
  deriving Repr

/-- `hex[n]`: lower-case hexadecimal digit. -/
def hexLower (n : Nat) : UInt8 := if n < 10 then UInt8.ofNat (48 + n) else UInt8.ofNat (87 + n)

/-- `encodeState.string`, an ASCII byte (`htmlSafeSet`). -/
def quoteAscii (b : UInt8) : Bytes :=
  if b = 92 ∨ b = 34 then [92, b]
  else if b = 10 then [92, 110]
  else if b = 13 then [92, 114]
  else if b = 9 then [92, 116]
  else if b < 32 ∨ b = 60 ∨ b = 62 ∨ b = 38 then [92, 117, 48, 48, hexLower (b.toNat / 16), hexLower (b.toNat % 16)]
  else [b]

/-- `encodeState.string`, one rune. -/
def quoteRune (r : Rune) : Bytes :=
  if r.val < 0x80 then quoteAscii (UInt8.ofNat r.val)
  else if r.val = 0xFFFD ∧ r.bytes.length = 1 then ascii "\\ufffd"
  else if r.val = 0x2028 ∨ r.val = 0x2029 then ascii "\\u202" ++ [hexLower (r.val % 16)]
  else r.bytes

/-- `encodeState.string`. -/
def quote (s : Bytes) : Bytes := 34 :: (runes s).flatMap quoteRune ++ [34]

/-- `newline` of `Indent`. -/
def jsonNewline (depth : Nat) : Bytes := 10 :: List.replicate (2 * depth) 32

mutual
/-- A value at the given depth. -/
def Json.render (depth : Nat) : Json → Bytes
  | .null => ascii "null"
  | .num n => decInt n
  | .str s => quote s
  | .arr [] => ascii "[]"
  | .arr (v :: l) => 91 :: jsonNewline (depth + 1) ++ v.render (depth + 1) ++ renderItems (depth + 1) l ++ jsonNewline depth ++ [93]
  | .obj [] => ascii "{}"
  | .obj ((k, v) :: l) =>
    123 :: jsonNewline (depth + 1) ++ quote k ++ 58 :: 32 :: v.render (depth + 1) ++ renderFields (depth + 1) l ++ jsonNewline depth ++ [125]

/-- The further elements of an array. -/
def renderItems (depth : Nat) : List Json → Bytes
  | [] => []
  | v :: l => 44 :: jsonNewline depth ++ v.render depth ++ renderItems depth l

/-- The further fields of an object. -/
def renderFields (depth : Nat) : List (Bytes × Json) → Bytes
  | [] => []
  | (k, v) :: l => 44 :: jsonNewline depth ++ quote k ++ 58 :: 32 :: v.render depth ++ renderFields depth l
end

end Verif
