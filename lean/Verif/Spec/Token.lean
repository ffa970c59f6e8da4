import Verif.Spec.Json
/-!
# A reader of tokens (RFC 7515, RFC 7519; base64url of RFC 4648, section 5, without padding)
-/

namespace Verif.Spec

/-- The value of a digit. -/
def b64Val (b : UInt8) : Option Nat :=
  if 65 ≤ b ∧ b ≤ 90 then some (b.toNat - 65)
  else if 97 ≤ b ∧ b ≤ 122 then some (b.toNat - 97 + 26)
  else if 48 ≤ b ∧ b ≤ 57 then some (b.toNat - 48 + 52)
  else if b = 45 then some 62
  else if b = 95 then some 63
  else none

/-- The bytes. Bits that are left over must be zero. -/
def readB64 : Bytes → Option Bytes
  | w :: x :: y :: z :: r => do
    let n := ((← b64Val w) * 64 + (← b64Val x)) * 4096 + (← b64Val y) * 64 + (← b64Val z)
    let l ← readB64 r
    some (UInt8.ofNat (n / 65536) :: UInt8.ofNat (n / 256 % 256) :: UInt8.ofNat (n % 256) :: l)
  | [w, x, y] => do
    let n := ((← b64Val w) * 64 + (← b64Val x)) * 64 + (← b64Val y)
    if n % 4 = 0 then some [UInt8.ofNat (n / 1024), UInt8.ofNat (n / 4 % 256)] else none
  | [w, x] => do
    let n := (← b64Val w) * 64 + (← b64Val x)
    if n % 16 = 0 then some [UInt8.ofNat (n / 16)] else none
  | [_] => none
  | [] => some []

/-- A number, the highest byte first. -/
def bigNat (s : Bytes) : Nat := s.foldl (fun a b => 256 * a + b.toNat) 0

/-- The text is a token with this header, these claims and this signature, the numbers `r` and `s` of 32 bytes each. -/
def TokenSays (t : Bytes) (header claims : Json) (r s : Nat) : Prop :=
  ∃ a b c ha cb sig : Bytes, t = a ++ 46 :: (b ++ 46 :: c) ∧ 46 ∉ a ∧ 46 ∉ b ∧ 46 ∉ c ∧
    readB64 a = some ha ∧ readB64 b = some cb ∧ readB64 c = some sig ∧ readJson ha = some header ∧ readJson cb = some claims ∧
    sig.length = 64 ∧ bigNat (sig.take 32) = r ∧ bigNat (sig.drop 32) = s

/-- The value of a field; of several with the name, the first. -/
def fieldOf (j : Json) (name : Bytes) : Option Json :=
  match j with
  | .obj l => (l.find? fun p => p.1 = name).map (·.2)
  | _ => none

end Verif.Spec
