import Verif.Go.Buf
/-!
# Model of `/repo/cstr.go`, `/repo/big5.go` and `/repo/pttbbs/encoding.go`
-/

namespace Verif

/-- `bytes.IndexByte(b, c)` (Go standard library): index of the first `c`, `none` for `-1`. -/
def indexByte (b : Bytes) (c : UInt8) : Option Nat := b.findIdx? (· == c)

/-- `CstrToBytes` — /repo/cstr.go:42-49. -/
def cstrToBytes (cstr : Bytes) : Bytes :=
  match indexByte cstr 0 with
  | none => cstr
  | some len => cstr.take len

/-- `CstrToString` — /repo/cstr.go:27-30; `newStringFormCString` — /repo/pttbbs/encoding.go:16-18.
Go's `string(b)` keeps the bytes. -/
def cstrToString (cstr : Bytes) : Bytes := cstrToBytes cstr

/-- The Big5 codec used by `Utf8ToBig5` / `Big5ToUtf8` — /repo/big5.go:27-37.
Simplification: the tables and algorithm live in golang.org/x/text (not in /repo), so the two directions are
abstract total functions on byte strings; errors are ignored by /repo (`big5, _, _ :=`), so "total" is faithful. -/
structure Codec where
  enc : Bytes → Bytes
  dec : Bytes → Bytes

/-- `newStringFormBig5UAOCString` — /repo/pttbbs/encoding.go:20-22. -/
def Codec.ofCstr (c : Codec) (cs : Bytes) : Bytes := c.dec (cstrToBytes cs)

/-- On ASCII text Big5 and UTF-8 coincide: the codec restricted to ASCII, used as an instance in examples. -/
def asciiCodec : Codec := ⟨id, id⟩

end Verif
