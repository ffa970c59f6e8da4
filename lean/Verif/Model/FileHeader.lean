import Verif.Go.Slice
import Verif.Model.Cstr
/-!
# Model of `/repo/pttbbs/file.go`: the 128-byte article record
-/

namespace Verif

/-- `VoteLimits` — /repo/pttbbs/file.go:53-58. -/
structure VoteLimits where
  posts : UInt8
  logins : UInt8
  regtime : UInt8
  badpost : UInt8
  deriving DecidableEq, Repr

/-- `FileHeader` — /repo/pttbbs/file.go:61-76. `modified` is kept as Unix seconds.
Simplification: `ReferRef`/`ReferFlag` are never read or written by any code and are omitted. -/
structure FileHeader where
  filename : Bytes
  modified : Int
  recommend : Int8
  owner : Bytes
  date : Bytes
  title : Bytes
  money : Nat
  annoUID : Nat
  voteLimits : VoteLimits
  filemode : UInt8
  deriving DecidableEq, Repr

/-- `IsVotePost` (on the mode byte) — /repo/pttbbs/file.go:246-248, `FileVote = 0x40` const.go:91. -/
def isVotePost (filemode : UInt8) : Bool := filemode &&& 0x40 != 0

/-- `NewFileHeader()` / zero value — /repo/pttbbs/file.go:98-100. -/
def FileHeader.zero : FileHeader :=
  { filename := [], modified := zeroTimeUnix, recommend := 0, owner := [], date := [], title := [],
    money := 0, annoUID := 0, voteLimits := ⟨0, 0, 0, 0⟩, filemode := 0 }

/-- Buffer writes of `MarshalToByte`, in program order — /repo/pttbbs/file.go:230-244, offsets file.go:41-49
(`FileNameLength` 28, `IDLength` 12, `TitleLength` 64). -/
def FileHeader.writes (c : Codec) (f : FileHeader) : List Write :=
  [ wCopy 0 28 f.filename,
    w32 28 (unixU32 f.modified),
    w8 33 f.recommend.toUInt8,
    wCopy 34 48 f.owner,
    wCopy 48 54 f.date,
    wCopy 54 119 (c.enc f.title) ]

/-- `MarshalToByte` — /repo/pttbbs/file.go:230-244. -/
def FileHeader.marshal (c : Codec) (f : FileHeader) : Bytes := runWrites 128 (f.writes c)

/-- The fields read by `NewFileHeaderWithByte` from a buffer of at least 125 bytes — /repo/pttbbs/file.go:199-228. -/
def FileHeader.parse (c : Codec) (data : Bytes) : FileHeader :=
  let filemode := byteAt data 124
  { filename := trimNul (slice data 0 28)
    modified := timeOfU32 (rd32 (slice data 28 32))
    recommend := (byteAt data 33).toInt8
    owner := trimNul (slice data 34 48)
    date := trimNul (slice data 48 54)
    title := c.dec (trimNul (slice data 54 119))
    money := (rd32 (slice data 120 124)).toNat
    annoUID := (rd32 (slice data 120 124)).toNat
    voteLimits :=
      if isVotePost filemode then
        ⟨byteAt data 120, byteAt data 121, byteAt data 122, byteAt data 123⟩
      else ⟨0, 0, 0, 0⟩
    filemode := filemode }

/-- `NewFileHeaderWithByte` — /repo/pttbbs/file.go:199-228, with every bounds check: a slice expression is checked against the capacity, an index
against the length. -/
def FileHeader.decode (c : Codec) (s : GSlice) : Res FileHeader := do
  let filename ← s.sub 0 28
  let modified ← s.sub 28 32
  let recommend ← s.at 33
  let owner ← s.sub 34 48
  let date ← s.sub 48 54
  let title ← s.sub 54 119
  let money ← s.sub 120 124
  let annoUID ← s.sub 120 124
  let filemode ← s.at 124
  let voteLimits ← if isVotePost filemode then do
      let posts ← s.at 120
      let logins ← s.at 121
      let regtime ← s.at 122
      let badpost ← s.at 123
      Res.ok (VoteLimits.mk posts logins regtime badpost)
    else Res.ok ⟨0, 0, 0, 0⟩
  return { filename := trimNul filename, modified := timeOfU32 (rd32 modified), recommend := recommend.toInt8,
           owner := trimNul owner, date := trimNul date, title := c.dec (trimNul title), money := (rd32 money).toNat,
           annoUID := (rd32 annoUID).toNat, voteLimits := voteLimits, filemode := filemode }

/-- `NewFileHeaderWithByte` on a buffer made by `make` (capacity = length). -/
def FileHeader.unmarshal (c : Codec) (data : Bytes) : Res FileHeader := FileHeader.decode c (GSlice.full data)

/-- `AddRecommend` — /repo/pttbbs/file.go:85 (int8 addition wraps). -/
def FileHeader.addRecommend (f : FileHeader) (u : Int8) : FileHeader := { f with recommend := f.recommend + u }

/-- `Recommend()` — /repo/pttbbs/file.go:84. -/
def FileHeader.recommendInt (f : FileHeader) : Int := f.recommend.toInt

end Verif
