import Verif.Spec.Unicode
import Verif.Model.Big5
/-!
# Specification of Big5 texts
-/

namespace Verif.Spec

/-- Two bytes that form a double-byte character. -/
def IsPair (a b : Nat) : Prop := 0x81 ≤ a ∧ a ≤ 0xFE ∧ ((0x40 ≤ b ∧ b ≤ 0x7E) ∨ (0xA1 ≤ b ∧ b ≤ 0xFE))

instance (a b : Nat) : Decidable (IsPair a b) := by unfold IsPair; infer_instance

/-- The number of a pair (the "pointer" of the WHATWG encoding standard): 157 trail bytes for every lead byte. -/
def pairNo (a b : Nat) : Nat := (a - 0x81) * 157 + (b - if b < 0x7F then 0x40 else 0x62)

/-- The pairs that stand for two characters. -/
def TwoChars (i : Nat) : Prop := i = 1133 ∨ i = 1135 ∨ i = 1164 ∨ i = 1166

/-- The tables fit together: the code of a character is a pair that is decoded to that character, and U+FFFD has no code. -/
structure Fit (T : Big5Tables) : Prop where
  wide : ∀ c, T.encode c ≠ 0 → Scalar c ∧ 0x80 ≤ c
  pair : ∀ c, T.encode c ≠ 0 → T.encode c < 65536 ∧ IsPair (T.encode c / 256) (T.encode c % 256)
  back : ∀ c, T.encode c ≠ 0 → T.decode (pairNo (T.encode c / 256) (T.encode c % 256)) = c
  single : ∀ c, T.encode c ≠ 0 → ¬ TwoChars (pairNo (T.encode c / 256) (T.encode c % 256))
  noError : T.encode 0xFFFD = 0

/-- A character that can be written in Big5. -/
def Encodable (T : Big5Tables) (c : Nat) : Prop := Scalar c ∧ (c < 0x80 ∨ T.encode c ≠ 0)

instance (T : Big5Tables) (c : Nat) : Decidable (Encodable T c) := by unfold Encodable; infer_instance

/-- The Big5 form of a character. -/
def big5Char (T : Big5Tables) (c : Nat) : Bytes :=
  if c < 0x80 then [UInt8.ofNat c] else [UInt8.ofNat (T.encode c / 256), UInt8.ofNat (T.encode c % 256)]

/-- The Big5 form of a text. -/
def big5Text (T : Big5Tables) (cs : List Nat) : Bytes := cs.flatMap (big5Char T)

/-- The string does not start with a character that can be written in Big5. -/
def Stuck (T : Big5Tables) (s : Bytes) : Prop := ¬ ∃ c t, Encodable T c ∧ s = utf8Char c ++ t

end Verif.Spec
