import Verif.Proofs.Calendar
/-!
# A reader of RFC 3339 times
-/

namespace Verif.Spec

/-- A decimal digit. -/
def digit (b : UInt8) : Option Nat := if 48 ≤ b ∧ b ≤ 57 then some (b.toNat - 48) else none

/-- Two digits. -/
def two (a b : UInt8) : Option Nat := do some (10 * (← digit a) + (← digit b))

/-- `Z`, or hours and minutes east of UTC; in seconds. -/
def readOffset : Bytes → Option Int
  | [90] => some 0
  | [s, a, b, 58, c, d] => do
    let h ← two a b
    let m ← two c d
    if 23 < h ∨ 59 < m then none
    else if s = 43 then some ((h * 3600 + m * 60 : Nat) : Int)
    else if s = 45 then some (-((h * 3600 + m * 60 : Nat) : Int))
    else none
  | _ => none

/-- The instant that a text such as `2006-01-02T15:04:05+08:00` denotes, in Unix seconds. -/
def readRFC3339 : Bytes → Option Int
  | y1 :: y2 :: y3 :: y4 :: 45 :: m1 :: m2 :: 45 :: d1 :: d2 :: 84 :: h1 :: h2 :: 58 :: n1 :: n2 :: 58 :: s1 :: s2 :: z => do
    let t : Civil := ⟨100 * (← two y1 y2) + (← two y3 y4), ← two m1 m2, ← two d1 d2, ← two h1 h2, ← two n1 n2, ← two s1 s2⟩
    let off ← readOffset z
    if t.Valid then some (instant t - off) else none
  | _ => none

end Verif.Spec
