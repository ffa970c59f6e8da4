import Verif.Go.Buf
/-!
# The FNV-1a hash with a chosen offset

/repo/pttbbs/internal/fnv/fnv.go and the parts of Go's `hash/fnv` it uses. The state of a `sum32a` is one uint32.
-/

namespace Verif

/-- `New32a` (hash/fnv): the standard offset basis. -/
def fnvNew32a : UInt32 := 2166136261

/-- `sum32a.MarshalBinary` (hash/fnv): the magic "fnv\x02" and the state, big-endian. -/
def fnvMarshal (h : UInt32) : Bytes :=
  [0x66, 0x6E, 0x76, 2, (h >>> 24).toUInt8, (h >>> 16).toUInt8, (h >>> 8).toUInt8, h.toUInt8]

/-- `sum32a.UnmarshalBinary` (hash/fnv): an error leaves the state alone. -/
def fnvUnmarshal (h : UInt32) (b : Bytes) : UInt32 :=
  if b.take 4 ≠ [0x66, 0x6E, 0x76, 2] then h
  else if b.length ≠ 8 then h
  else (byteAt b 7).toUInt32 ||| (byteAt b 6).toUInt32 <<< 8 ||| (byteAt b 5).toUInt32 <<< 16 |||
    (byteAt b 4).toUInt32 <<< 24

/-- `New32aWith` — /repo/pttbbs/internal/fnv/fnv.go:13-24. The errors of both calls are ignored. -/
def fnvNew32aWith (offset : UInt32) : UInt32 :=
  let h := fnvNew32a
  let b := fnvMarshal h
  let b := b.set 4 ((offset >>> 24) &&& 0xFF).toUInt8
  let b := b.set 5 (offset >>> 16 &&& 0xFF).toUInt8
  let b := b.set 6 (offset >>> 8 &&& 0xFF).toUInt8
  let b := b.set 7 (offset &&& 0xFF).toUInt8
  fnvUnmarshal h b

/-- `sum32a.Write` (hash/fnv). -/
def fnvWrite (h : UInt32) (data : Bytes) : UInt32 := data.foldl (fun h c => (h ^^^ c.toUInt32) * 16777619) h

/-- `sum32a.Sum32` (hash/fnv). -/
def fnvSum32 (h : UInt32) : UInt32 := h

/-- `sum32a.Sum` (hash/fnv): the sum, big-endian, behind the given bytes. -/
def fnvSum (h : UInt32) (pre : Bytes) : Bytes :=
  pre ++ [(h >>> 24).toUInt8, (h >>> 16).toUInt8, (h >>> 8).toUInt8, h.toUInt8]

end Verif
