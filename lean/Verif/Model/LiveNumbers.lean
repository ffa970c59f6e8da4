import Verif.Model.Cache
/-!
# Numbers read from shared memory while another process writes them

/repo/pttbbs/cache.go:310-313 and 324-328: `binary.LittleEndian.Uint32` on a slice of the segment. The function loads four bytes, each by
an instruction of its own or several by one, in an order that the compiler chooses.
-/

namespace Verif

/-- The four loads of `binary.LittleEndian.Uint32` at `start`: byte `k` is loaded at time `at_ k`. `mem` is the content of the segment over
time; outside it the model gives 0. -/
def numberLive (mem : Nat → Bytes) (start : Nat) (at_ : Nat → Nat) : UInt32 :=
  rd32 [(mem (at_ 0)).getD start 0, (mem (at_ 1)).getD (start + 1) 0, (mem (at_ 2)).getD (start + 2) 0, (mem (at_ 3)).getD (start + 3) 0]

/-- `Version` — /repo/pttbbs/cache.go:310-313. -/
def versionLive (p : CachePos) (mem : Nat → Bytes) (at_ : Nat → Nat) : UInt32 := numberLive mem p.version.toNat at_

/-- `Money` — /repo/pttbbs/cache.go:324-328. -/
def moneyLive (p : CachePos) (mem : Nat → Bytes) (uid : Int) (at_ : Nat → Nat) : Int32 :=
  (numberLive mem (p.money + 4 * uid).toNat at_).toInt32

end Verif
