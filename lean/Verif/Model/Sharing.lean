import Verif.Model.OnlineFile
/-!
# Memory that decoded records share with the buffer they were decoded from

Every other field of every record is a number, an array of numbers, or a string made from a slice (`newStringFormCString`, /repo/pttbbs/cstr.go, and
`newStringFormBig5UAOCString`), and a Go string is a copy. `UserInfoCache.Msgs` is the exception: its elements are slices of the buffer
(/repo/pttbbs/userinfo.go:202-205).
-/

namespace Verif

/-- The blocks of memory that have been allocated. A mapped segment is a block too. Blocks do not change their size. -/
abbrev Blocks := List Bytes

/-- A slice: `len` bytes from `off` on in a block. Its capacity reaches to the end of the block. -/
structure BlockSlice where
  block : Nat
  off : Nat
  len : Nat
  deriving DecidableEq, Repr

def Blocks.block (H : Blocks) (k : Nat) : Bytes := H.getD k []

/-- The bytes of a slice. -/
def BlockSlice.read (H : Blocks) (v : BlockSlice) : Bytes := slice (H.block v.block) v.off (v.off + v.len)

/-- `v[j] = b`. -/
def BlockSlice.store (H : Blocks) (v : BlockSlice) (j : Nat) (b : UInt8) : Res Blocks :=
  if j < v.len then .ok (H.set v.block (writeAt (H.block v.block) (v.off + j) [b])) else .panic

/-- `append(v, x...)`: in place if the capacity suffices, else in a new block, with as much room to spare as the
runtime likes. -/
def BlockSlice.append (spare : Nat) (H : Blocks) (v : BlockSlice) (x : Bytes) : Blocks × BlockSlice :=
  if v.off + v.len + x.length ≤ (H.block v.block).length then
    (H.set v.block (writeAt (H.block v.block) (v.off + v.len) x), { v with len := v.len + x.length })
  else (H ++ [v.read H ++ x ++ List.replicate spare 0], ⟨H.length, 0, v.len + x.length⟩)

/-- A record in memory: the fields that are its own, and the slices of its messages. -/
structure Online where
  own : UserInfo
  msgs : Vector BlockSlice 10
  deriving DecidableEq, Repr

/-- What is found in the fields of the record now. -/
def Online.seen (H : Blocks) (o : Online) : UserInfo := { o.own with msgs := o.msgs.map (BlockSlice.read H) }

/-- `UnmarshalUserInfo(data)` with `data` the `len` bytes from `start` on in a block — /repo/pttbbs/userinfo.go:168-253, the slices of the
messages at lines 202-205. -/
def UserInfo.decodeIn (c : Codec) (H : Blocks) (block start len : Nat) : Res Online := do
  let u ← UserInfo.decode c ⟨(H.block block).drop start, len⟩
  .ok ⟨u, Vector.ofFn fun i : Fin 10 => ⟨block, start + (2292 + 100 * i), 100⟩⟩

/-- The read loop of `OpenUserInfoCache` — /repo/pttbbs/userinfo.go:149-163: `buf := make([]byte, 3484)` in every round. -/
def onlineLoopIn (c : Codec) (src : Nat → ReadRes) : Nat → Nat → Blocks → Res (Blocks × List Online)
  | 0, _, _ => .diverge
  | fuel + 1, k, H =>
    match src k with
    | .eof => .ok (H, [])
    | .fail => .err "read error"
    | .data bs => do
      let H := H ++ [padTo 3484 bs]
      let o ← UserInfo.decodeIn c H (H.length - 1) 0 3484
      let (H, rest) ← onlineLoopIn c src fuel (k + 1) H
      .ok (H, o :: rest)

/-- `OpenUserInfoCache` — /repo/pttbbs/userinfo.go:140-166. -/
def openUserInfoCacheIn (c : Codec) (H : Blocks) : Option Bytes → Res (Blocks × List Online)
  | none => .err "no such file or directory"
  | some d => onlineLoopIn c (fileSrc 3484 d) (d.length + 1) 0 H

end Verif
