import Verif.Go.Basic
/-!
# Specification of Unicode texts
-/

namespace Verif.Spec

/-- A Unicode scalar value: a code point that is no surrogate. -/
def Scalar (n : Nat) : Prop := n < 0xD800 ∨ (0xE000 ≤ n ∧ n < 0x110000)

instance (n : Nat) : Decidable (Scalar n) := by unfold Scalar; infer_instance

/-- The UTF-8 form of a scalar value (RFC 3629, section 3). -/
def utf8Char (n : Nat) : Bytes :=
  if n < 0x80 then [UInt8.ofNat n]
  else if n < 0x800 then [UInt8.ofNat (0xC0 + n / 64), UInt8.ofNat (0x80 + n % 64)]
  else if n < 0x10000 then
    [UInt8.ofNat (0xE0 + n / 4096), UInt8.ofNat (0x80 + n / 64 % 64), UInt8.ofNat (0x80 + n % 64)]
  else
    [UInt8.ofNat (0xF0 + n / 262144), UInt8.ofNat (0x80 + n / 4096 % 64), UInt8.ofNat (0x80 + n / 64 % 64),
      UInt8.ofNat (0x80 + n % 64)]

/-- The UTF-8 form of a text. -/
def utf8Text (cs : List Nat) : Bytes := cs.flatMap utf8Char

end Verif.Spec
