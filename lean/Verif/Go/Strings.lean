import Verif.Go.Path
/-!
# `strings` and `bufio.Scanner`
-/

namespace Verif

/-- The text before the first occurrence of `sep` (not empty) — element 0 of `strings.Split` — and the text after it. -/
def breakOn (sep : Bytes) : Bytes → Bytes × Option Bytes
  | [] => ([], none)
  | b :: s =>
    if sep.isPrefixOf (b :: s) then ([], some ((b :: s).drop sep.length))
    else (b :: (breakOn sep s).1, (breakOn sep s).2)

/-! ## `strings.TrimSpace` -/

/-- ASCII white space. -/
def isAsciiSpace (b : UInt8) : Bool := b == 32 || (9 ≤ b && b ≤ 13)

/-- Last byte of the encodings of U+2000–U+200A, U+2028, U+2029 and U+202F after `E2 80`. -/
def isSpaceE280 (b : UInt8) : Bool := (0x80 ≤ b && b ≤ 0x8A) || b == 0xA8 || b == 0xA9 || b == 0xAF

/-- The two bytes encode a space (U+0085, U+00A0). -/
def isSpace2 (a b : UInt8) : Bool := a == 0xC2 && (b == 0x85 || b == 0xA0)

/-- The three bytes encode a space (U+1680, U+2000–U+200A, U+2028, U+2029, U+202F, U+205F, U+3000). -/
def isSpace3 (a b c : UInt8) : Bool :=
  (a == 0xE1 && b == 0x9A && c == 0x80) || (a == 0xE2 && b == 0x80 && isSpaceE280 c) ||
    (a == 0xE2 && b == 0x81 && c == 0x9F) || (a == 0xE3 && b == 0x80 && c == 0x80)

/-- Remove leading `unicode.IsSpace` runes; `fuel` bounds the length. -/
def trimLeftAux : Nat → Bytes → Bytes
  | 0, s => s
  | fuel + 1, s =>
    match s with
    | [] => []
    | [a] => if isAsciiSpace a then [] else s
    | [a, b] => if isAsciiSpace a then trimLeftAux fuel [b] else if isSpace2 a b then [] else s
    | a :: b :: c :: t =>
      if isAsciiSpace a then trimLeftAux fuel (b :: c :: t)
      else if isSpace2 a b then trimLeftAux fuel (c :: t)
      else if isSpace3 a b c then trimLeftAux fuel t
      else s

/-- Remove trailing `unicode.IsSpace` runes of a reversed string. -/
def trimRightAux : Nat → Bytes → Bytes
  | 0, s => s
  | fuel + 1, s =>
    match s with
    | [] => []
    | [a] => if isAsciiSpace a then [] else s
    | [a, b] => if isAsciiSpace a then trimRightAux fuel [b] else if isSpace2 b a then [] else s
    | a :: b :: c :: t =>
      if isAsciiSpace a then trimRightAux fuel (b :: c :: t)
      else if isSpace2 b a then trimRightAux fuel (c :: t)
      else if isSpace3 c b a then trimRightAux fuel t
      else s

def trimLeft (s : Bytes) : Bytes := trimLeftAux s.length s
def trimRight (s : Bytes) : Bytes := (trimRightAux s.length s.reverse).reverse

/-- `strings.TrimSpace`. -/
def trimSpace (s : Bytes) : Bytes := trimRight (trimLeft s)

/-- `strings.TrimLeft` with an ASCII cutset. -/
def trimLeftSet (cut : Bytes) (s : Bytes) : Bytes := s.dropWhile (cut.contains ·)

/-! ## `bufio.Scanner` with `ScanLines` -/

/-- `bufio.MaxScanTokenSize`. -/
def maxToken : Nat := 65536

/-- Drop one trailing carriage return. -/
def dropCR (l : Bytes) : Bytes := if l.getLast? = some 13 then l.dropLast else l

/-- The lines `Scan` delivers, and whether it stopped with `ErrTooLong`: a line of `maxToken` bytes or more fills the
buffer, and nothing from there on is delivered. `fuel` bounds the number of lines. -/
def scanAux : Nat → Bytes → List Bytes × Bool
  | 0, _ => ([], false)
  | fuel + 1, d =>
    if d = [] then ([], false)
    else
      let raw := d.takeWhile (· != 10)
      if maxToken ≤ raw.length then ([], true)
      else
        match d.dropWhile (· != 10) with
        | [] => ([dropCR raw], false)
        | _ :: rest => (dropCR raw :: (scanAux fuel rest).1, (scanAux fuel rest).2)

def scanLines (d : Bytes) : List Bytes × Bool := scanAux d.length d

end Verif
