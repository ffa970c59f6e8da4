import Verif.Go.Buf
import Verif.Go.Path
import Verif.Model.UserInfo
/-!
# The shared-memory cache

/repo/pttbbs/cache.go and /repo/cache/cache.go. Go's `int` is 64 bits wide: a value is an `Int`, and `i64` wraps the result
of a sum or product (wrapping once at the end equals wrapping after every operation).
-/

namespace Verif

/-- Wrap to a signed 64-bit integer. -/
def i64 (x : Int) : Int := Int.bmod x (2 ^ 64)

/-- `MemoryMappingSetting` — /repo/pttbbs/cache.go:75-82. -/
structure Layout where
  alignment : Int
  maxUsers : Int
  idLen : Int
  useCoolDown : Bool
  hashBits : Int
  deriving DecidableEq, Repr

/-- The positions `caculatePos` sets — /repo/pttbbs/cache.go:11-67. The others stay 0 and are never read. -/
structure CachePos where
  version : Int
  size : Int
  userID : Int
  nextInHash : Int
  money : Int
  cooldownTime : Int
  hashHead : Int
  userNumber : Int
  userLoaded : Int
  userInfo : Int
  deriving DecidableEq, Repr

/-- `1 << n` of type int: a negative count panics, bits beyond 63 are lost. -/
def oneShl (n : Int) : Res Int := if n < 0 then .panic else .ok (i64 (2 ^ n.toNat))

/-- Lines 109-113 of `caculatePos`: round up to the alignment. `%` by zero panics, and truncates towards zero. -/
def alignUp (x a : Int) : Res Int :=
  if a = 0 then .panic
  else if x.tmod a ≠ 0 then .ok (i64 (x + (a - x.tmod a))) else .ok x

/-- `caculatePos` — /repo/pttbbs/cache.go:102-126. The print on line 114 has no effect on the positions. -/
def caculatePos (s : Layout) : Res CachePos := do
  let version : Int := 0
  let size := i64 (version + 4)
  let userID := i64 (size + 4)
  let nextInHash ← alignUp (i64 ((s.idLen + 1) + userID + s.maxUsers * (s.idLen + 1))) s.alignment
  let money := i64 (4 + nextInHash + s.maxUsers * 4)
  let cooldownTime := if s.useCoolDown then i64 (4 + money + s.maxUsers * 4) else 0
  let hashHead := if s.useCoolDown then i64 (4 + cooldownTime + s.maxUsers * 4) else i64 (4 + 4 + money + s.maxUsers * 4)
  let shl ← oneShl s.hashBits
  let userNumber := i64 (4 + hashHead + shl * 4)
  let userLoaded := i64 (userNumber + 4)
  let userInfo := i64 (userLoaded + 4)
  .ok ⟨version, size, userID, nextInHash, money, cooldownTime, hashHead, userNumber, userLoaded, userInfo⟩

/-- Go's slice expression `d[lo:hi]` (capacity taken equal to length). -/
def goSlice (d : Bytes) (lo hi : Int) : Res Bytes :=
  if 0 ≤ lo ∧ lo ≤ hi ∧ hi ≤ d.length then .ok (slice d lo.toNat hi.toNat) else .panic

/-- An open cache: the segment, the settings and the positions. `lenOfUserInfo` (/repo/pttbbs/cache.go:69-71) is never
assigned, so it is 0. -/
structure CacheState where
  bytes : Bytes
  layout : Layout
  pos : CachePos
  lenOfUserInfo : Int := 0
  deriving DecidableEq, Repr

/-- The second half of `NewCache` — /repo/pttbbs/cache.go:300-305. -/
def newCacheState (bytes : Bytes) (s : Layout) : Res CacheState := do
  let pos ← caculatePos s
  .ok { bytes := bytes, layout := s, pos := pos }

/-- `Version` — /repo/pttbbs/cache.go:310-313. -/
def CacheState.version (c : CacheState) : Res UInt32 := do
  let b ← goSlice c.bytes c.pos.version (i64 (c.pos.version + 4))
  .ok (rd32 b)

/-- `UserID` — /repo/pttbbs/cache.go:317-321: the text before the first NUL (element 0 of `bytes.Split`). -/
def CacheState.userID (c : CacheState) (uid : Int) : Res Bytes := do
  let s := i64 (c.pos.userID + (c.layout.idLen + 1) * uid)
  let b ← goSlice c.bytes s (i64 (s + c.layout.idLen + 1))
  .ok ((splitByte 0 b).headD [])

/-- `Money` — /repo/pttbbs/cache.go:324-328. -/
def CacheState.money (c : CacheState) (uid : Int) : Res Int32 := do
  let s := i64 (c.pos.money + 4 * uid)
  let b ← goSlice c.bytes s (i64 (s + 4))
  .ok (rd32 b).toInt32

/-- `d[lo:hi]` as a slice: it keeps the capacity up to the end of the segment. -/
def goReslice (d : Bytes) (lo hi : Int) : Res GSlice := do
  let b ← goSlice d lo hi
  .ok ⟨d.drop lo.toNat, b.length⟩

/-- `UserInfo` — /repo/pttbbs/cache.go:330-333. The decoder gets a slice with the capacity of the rest of the segment. -/
def CacheState.userInfo (cd : Codec) (c : CacheState) (uid : Int) : Res UserInfo := do
  let b ← goReslice c.bytes (i64 (c.pos.userInfo + c.lenOfUserInfo * uid)) (i64 (c.pos.userInfo + c.lenOfUserInfo * (uid + 1)))
  UserInfo.decode cd b

/-! ## The connection string -/

/-- What a connection string opens: a file or a System V key. -/
inductive Backend where
  | mmap (path : Bytes)
  | shm (key : Int)
  deriving DecidableEq, Repr

/-- A decimal digit. -/
def isDecDigit (b : UInt8) : Bool := 48 ≤ b && b ≤ 57

/-- `strconv.Atoi` (Go standard library) on 64 bits: an optional sign, at least one digit, nothing else, in range. -/
def atoi (s : Bytes) : Option Int :=
  let digits := if s.head? = some 43 ∨ s.head? = some 45 then s.tail else s
  if digits = [] ∨ ¬ digits.all isDecDigit then none
  else
    let n : Int := digits.foldl (fun a b => 10 * a + (b.toNat - 48)) 0
    let v := if s.head? = some 45 then -n else n
    if -(2 ^ 63) ≤ v ∧ v < 2 ^ 63 then some v else none

/-- `NewCache` — /repo/cache/cache.go:16-36: which back-end is opened. Whether the file or segment exists is up to the
system. -/
def selectBackend (conn : Bytes) : Res Backend :=
  match splitByte 58 conn with
  | [] => .panic
  | [p] => .ok (.mmap p)
  | scheme :: arg :: _ =>
    if scheme = ascii "shmkey" then
      match atoi arg with
      | none => .err "atoi error"
      | some k => .ok (.shm k)
    else if scheme = ascii "file" then .ok (.mmap arg)
    else .err "unsupport scheme"

end Verif
