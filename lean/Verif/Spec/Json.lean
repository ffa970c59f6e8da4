import Verif.Spec.Unicode
import Verif.Go.Json
/-!
# A reader of JSON texts (RFC 8259)

Independent of the writer. It takes every value of the grammar but numbers with a fraction or exponent, `true` and `false`, and
escapes of surrogates, which it rejects. Strings are returned in UTF-8. All fields of an object are kept, in order.
-/

namespace Verif.Spec

/-- White space. -/
def skipWs : Bytes → Bytes
  | [] => []
  | b :: r => if b = 32 ∨ b = 10 ∨ b = 13 ∨ b = 9 then skipWs r else b :: r

/-- A hexadecimal digit. -/
def hexVal (b : UInt8) : Option Nat :=
  if 48 ≤ b ∧ b ≤ 57 then some (b.toNat - 48)
  else if 65 ≤ b ∧ b ≤ 70 then some (b.toNat - 55)
  else if 97 ≤ b ∧ b ≤ 102 then some (b.toNat - 87)
  else none

/-- The escapes of one character. -/
def simpleEscape (b : UInt8) : Option UInt8 :=
  if b = 34 ∨ b = 92 ∨ b = 47 then some b
  else if b = 98 then some 8
  else if b = 102 then some 12
  else if b = 110 then some 10
  else if b = 114 then some 13
  else if b = 116 then some 9
  else none

/-- The characters of a string up to the closing quote, and what follows. -/
def readChars : Bytes → Option (Bytes × Bytes)
  | [] => none
  | 34 :: r => some ([], r)
  | 92 :: 117 :: a :: b :: c :: d :: r => do
    let n := (← hexVal a) * 4096 + (← hexVal b) * 256 + (← hexVal c) * 16 + (← hexVal d)
    if 0xD800 ≤ n ∧ n < 0xE000 then none
    else
      let (s, r') ← readChars r
      some (utf8Char n ++ s, r')
  | 92 :: e :: r => do
    let x ← simpleEscape e
    let (s, r') ← readChars r
    some (x :: s, r')
  | b :: r =>
    if b < 32 ∨ b = 92 then none
    else do
      let (s, r') ← readChars r
      some (b :: s, r')

def isDec (b : UInt8) : Bool := 48 ≤ b && b ≤ 57

/-- Digits without a superfluous zero, not followed by a fraction or exponent. -/
def readNat (s : Bytes) : Option (Nat × Bytes) :=
  let ds := s.takeWhile isDec
  let r := s.dropWhile isDec
  if ds = [] ∨ (ds.head? = some 48 ∧ ds ≠ [48]) ∨ r.head? = some 46 ∨ r.head? = some 101 ∨ r.head? = some 69 then none
  else some (ds.foldl (fun a b => 10 * a + (b.toNat - 48)) 0, r)

/-- A whole number. -/
def readNum : Bytes → Option (Int × Bytes)
  | 45 :: r => do
    let (n, r') ← readNat r
    some (-(n : Int), r')
  | s => do
    let (n, r') ← readNat s
    some ((n : Int), r')

mutual
/-- A value and what follows. The first argument bounds the work. -/
def readValue : Nat → Bytes → Option (Json × Bytes)
  | 0, _ => none
  | n + 1, s =>
    match skipWs s with
    | 123 :: r =>
      match skipWs r with
      | 125 :: r' => some (.obj [], r')
      | r' => do
        let (l, r'') ← readFields n r'
        some (.obj l, r'')
    | 91 :: r =>
      match skipWs r with
      | 93 :: r' => some (.arr [], r')
      | r' => do
        let (l, r'') ← readItems n r'
        some (.arr l, r'')
    | 34 :: r => do
      let (x, r') ← readChars r
      some (.str x, r')
    | 110 :: 117 :: 108 :: 108 :: r => some (.null, r)
    | r => do
      let (x, r') ← readNum r
      some (.num x, r')

/-- The elements of an array up to the bracket. -/
def readItems : Nat → Bytes → Option (List Json × Bytes)
  | 0, _ => none
  | n + 1, s => do
    let (v, r) ← readValue n s
    match skipWs r with
    | 44 :: r' => do
      let (l, r'') ← readItems n r'
      some (v :: l, r'')
    | 93 :: r' => some ([v], r')
    | _ => none

/-- The fields of an object up to the brace. -/
def readFields : Nat → Bytes → Option (List (Bytes × Json) × Bytes)
  | 0, _ => none
  | n + 1, s =>
    match skipWs s with
    | 34 :: r => do
      let (k, r') ← readChars r
      match skipWs r' with
      | 58 :: r'' => do
        let (v, t) ← readValue n r''
        match skipWs t with
        | 44 :: t' => do
          let (l, t'') ← readFields n t'
          some ((k, v) :: l, t'')
        | 125 :: t' => some ([(k, v)], t')
        | _ => none
      | _ => none
    | _ => none
end

/-- A whole text. -/
def readJson (s : Bytes) : Option Json :=
  match readValue (s.length + 1) s with
  | some (v, r) => if skipWs r = [] then some v else none
  | none => none

/-- Every byte that is no part of a character becomes U+FFFD. -/
def cleaned (s : Bytes) : Bytes := (runes s).flatMap fun r => utf8Char r.val

end Verif.Spec
