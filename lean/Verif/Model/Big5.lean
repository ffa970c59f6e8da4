import Verif.Go.Utf8
import Verif.Model.Cstr
/-!
# `Utf8ToBig5` and `Big5ToUtf8` — /repo/big5.go

`Utf8ToBig5` (/repo/big5.go:27-31) runs the encoder of `golang.org/x/text/encoding/traditionalchinese` (version 0.3.8 by
/repo/go.mod:8) over the whole input with `transform.Bytes` and drops the error: what was converted before the error is
returned. `Big5ToUtf8` (/repo/big5.go:33-37) runs the decoder with `transform.String`. The two transformers are modelled
here; their tables are parameters. Both see the whole input at once (`atEOF`), and a destination that is too short only
makes `transform` go on with a larger one, so destination sizes do not occur.
-/

namespace Verif

/-- The tables of the package: `decode` maps the number of a pair of bytes to a code point (0: none, also behind the end
of the table), `encode` maps a code point to the two bytes of its code (0: none, also outside every table). -/
structure Big5Tables where
  decode : Nat → Nat
  encode : Nat → Nat

/-- `utf8.EncodeRune` (Go standard library): anything that is not a scalar value is written as U+FFFD. -/
def encodeRune (r : Nat) : Bytes :=
  if r ≤ 0x7F then [UInt8.ofNat r]
  else if r ≤ 0x7FF then [UInt8.ofNat (0xC0 + r / 64), UInt8.ofNat (0x80 + r % 64)]
  else if 0x10FFFF < r ∨ (0xD800 ≤ r ∧ r ≤ 0xDFFF) then [0xEF, 0xBF, 0xBD]
  else if r ≤ 0xFFFF then
    [UInt8.ofNat (0xE0 + r / 4096), UInt8.ofNat (0x80 + r / 64 % 64), UInt8.ofNat (0x80 + r % 64)]
  else
    [UInt8.ofNat (0xF0 + r / 262144), UInt8.ofNat (0x80 + r / 4096 % 64), UInt8.ofNat (0x80 + r / 64 % 64),
      UInt8.ofNat (0x80 + r % 64)]

/-- `utf8.RuneError` as written by the decoder. -/
def runeError : Bytes := encodeRune 0xFFFD

/-- What the decoder writes for pair number `i`: four pairs stand for two runes each, an empty entry for U+FFFD. -/
def Big5Tables.pair (T : Big5Tables) (i : Nat) : Bytes :=
  if i = 1133 then encodeRune 0xCA ++ encodeRune 0x304
  else if i = 1135 then encodeRune 0xCA ++ encodeRune 0x30C
  else if i = 1164 then encodeRune 0xEA ++ encodeRune 0x304
  else if i = 1166 then encodeRune 0xEA ++ encodeRune 0x30C
  else if T.decode i = 0 then runeError
  else encodeRune (T.decode i)

/-- `big5Decoder.Transform` at the end of the input. -/
def Big5Tables.dec (T : Big5Tables) : Bytes → Bytes
  | [] => []
  | [c0] => if c0 < 0x80 then [c0] else runeError
  | c0 :: c1 :: rest =>
    if c0 < 0x80 then c0 :: T.dec (c1 :: rest)
    else if 0x81 ≤ c0 ∧ c0 < 0xFF then
      if 0x40 ≤ c1 ∧ c1 < 0x7F then T.pair ((c0.toNat - 0x81) * 157 + (c1.toNat - 0x40)) ++ T.dec rest
      else if 0xA1 ≤ c1 ∧ c1 < 0xFF then T.pair ((c0.toNat - 0x81) * 157 + (c1.toNat - 0x62)) ++ T.dec rest
      else if c1 < 0x40 then runeError ++ T.dec (c1 :: rest)
      else runeError ++ T.dec rest
    else runeError ++ T.dec (c1 :: rest)

/-- `big5Encoder.Transform` on the runes of the input: it stops at the first rune without a code. -/
def Big5Tables.encRunes (T : Big5Tables) : List Rune → Bytes
  | [] => []
  | r :: rs =>
    if r.val < 0x80 then UInt8.ofNat r.val :: T.encRunes rs
    else if T.encode r.val = 0 then []
    else UInt8.ofNat (T.encode r.val / 256) :: UInt8.ofNat (T.encode r.val) :: T.encRunes rs

/-- `Utf8ToBig5` — /repo/big5.go:27-31. -/
def Big5Tables.enc (T : Big5Tables) (s : Bytes) : Bytes := T.encRunes (runes s)

/-- The codec behind /repo/big5.go with the given tables. -/
def big5Codec (T : Big5Tables) : Codec := ⟨T.enc, T.dec⟩

end Verif
