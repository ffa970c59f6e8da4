import Verif.Go.Basic
/-!
# Specification of coloured text
-/

namespace Verif.Spec

/-- A decimal digit. -/
def Digit (b : UInt8) : Prop := 48 ≤ b.toNat ∧ b.toNat ≤ 57

instance (b : UInt8) : Decidable (Digit b) := by unfold Digit; infer_instance

/-- A letter or a digit. -/
def AlNum (b : UInt8) : Prop :=
  (48 ≤ b.toNat ∧ b.toNat ≤ 57) ∨ (65 ≤ b.toNat ∧ b.toNat ≤ 90) ∨ (97 ≤ b.toNat ∧ b.toNat ≤ 122)

instance (b : UInt8) : Decidable (AlNum b) := by unfold AlNum; infer_instance

/-- A letter. -/
def Alpha (b : UInt8) : Prop := (65 ≤ b.toNat ∧ b.toNat ≤ 90) ∨ (97 ≤ b.toNat ∧ b.toNat ≤ 122)

instance (b : UInt8) : Decidable (Alpha b) := by unfold Alpha; infer_instance

/-- `g1;g2;…;gn`. -/
def params : List Bytes → Bytes
  | [] => []
  | g :: gs => g ++ gs.flatMap (0x3B :: ·)

/-- `ESC [ g1;…;gn m`. -/
def colour (gs : List Bytes) : Bytes := [0x1B, 0x5B] ++ params gs ++ [0x6D]

/-- Parameters of a colour sequence: groups of at most four digits, possibly empty. -/
def Params (gs : List Bytes) : Prop := ∀ g ∈ gs, g.length ≤ 4 ∧ ∀ b ∈ g, Digit b

instance (gs : List Bytes) : Decidable (Params gs) := by unfold Params; infer_instance

/-- No escape introducer: neither ESC nor the encoding of U+009B. -/
def Plain (s : Bytes) : Prop := (0x1B : UInt8) ∉ s ∧ ¬ [0xC2, 0x9B] <:+: s

instance (s : Bytes) : Decidable (Plain s) := by unfold Plain; infer_instance

/-- The text starts with letters, digits and semicolons followed by BEL, and `y` is what comes after. -/
def BellRun (s y : Bytes) : Prop := ∃ x, s = x ++ 7 :: y ∧ ∀ b ∈ x, AlNum b ∨ b = 0x3B

/-- Plain text in different colours: each piece preceded by a colour sequence. -/
def coloured : List (List Bytes × Bytes) → Bytes
  | [] => []
  | (gs, t) :: rest => colour gs ++ t ++ coloured rest

end Verif.Spec
