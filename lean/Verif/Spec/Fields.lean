import Verif.Go.Buf
/-!
# Specification: what it means for a value to fit a fixed-width field
-/

namespace Verif.Spec

/-- `s` fits an `n`-byte field whose reader trims NULs at both ends. -/
def FitsTrim (n : Nat) (s : Bytes) : Prop := s.length ≤ n ∧ NulEndsFree s

/-- `s` fits an `n`-byte field whose reader stops at the first NUL. -/
def FitsCstr (n : Nat) (s : Bytes) : Prop := s.length ≤ n ∧ (0 : UInt8) ∉ s

/-- `t` (Unix seconds) is representable in the 32-bit time field. -/
def FitsTime (t : Int) : Prop := 0 ≤ t ∧ t < 4294967296

/-- What an `n`-byte field whose reader stops at the first NUL keeps of `s`. -/
def cut (n : Nat) (s : Bytes) : Bytes := (s.take n).takeWhile (· != 0)

/-- What an `n`-byte field whose reader trims NULs at both ends keeps of `s`. -/
def cutTrim (n : Nat) (s : Bytes) : Bytes := trimNul (s.take n)

/-- What a 32-bit time field keeps of `t`: the remainder modulo 2³². -/
def wrap32 (t : Int) : Int := t % 4294967296

instance (n : Nat) (s : Bytes) : Decidable (FitsTrim n s) := by unfold FitsTrim; infer_instance
instance (n : Nat) (s : Bytes) : Decidable (FitsCstr n s) := by unfold FitsCstr; infer_instance
instance (t : Int) : Decidable (FitsTime t) := by unfold FitsTime; infer_instance

end Verif.Spec
