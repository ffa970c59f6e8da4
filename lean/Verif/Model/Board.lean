import Verif.Go.Slice
import Verif.Model.Cstr
/-!
# Model of `/repo/pttbbs/board.go`: the 256-byte board record
-/

namespace Verif

/-- `BoardHeader` — /repo/pttbbs/board.go:36-67. Times are Unix seconds; Go strings are bytes;
`Next`/`FirstChild` are slices of any length, as in Go. -/
structure BoardHeader where
  brdName : Bytes
  title : Bytes
  bm : Bytes
  brdattr : UInt32
  chessCountry : Bytes
  voteLimitPosts : UInt8
  voteLimitLogins : UInt8
  bUpdate : Int
  postLimitPosts : UInt8
  postLimitLogins : UInt8
  bVote : UInt8
  vTime : Int
  level : UInt32
  permReload : Int
  gid : Int32
  next : List Int32
  firstChild : List Int32
  parent : Int32
  childCount : Int32
  nuser : Int32
  postExpire : Int32
  endGamble : Int
  postType : Bytes
  postTypeF : Bytes
  fastRecommendPause : UInt8
  voteLimitBadPost : UInt8
  postLimitBadPost : UInt8
  srExpire : Int
  deriving DecidableEq, Repr

/-- `NewBoardHeader()` — /repo/pttbbs/board.go:167-169 (zero value; nil slices are empty lists). -/
def BoardHeader.zero : BoardHeader :=
  { brdName := [], title := [], bm := [], brdattr := 0, chessCountry := [], voteLimitPosts := 0,
    voteLimitLogins := 0, bUpdate := zeroTimeUnix, postLimitPosts := 0, postLimitLogins := 0, bVote := 0,
    vTime := zeroTimeUnix, level := 0, permReload := zeroTimeUnix, gid := 0, next := [], firstChild := [],
    parent := 0, childCount := 0, nuser := 0, postExpire := 0, endGamble := zeroTimeUnix, postType := [],
    postTypeF := [], fastRecommendPause := 0, voteLimitBadPost := 0, postLimitBadPost := 0,
    srExpire := zeroTimeUnix }

/-- The two `PutUint32` of lines 336-339 / 341-344: only performed when the slice has exactly two elements. -/
def wPair (a : Nat) : List Int32 → List Write
  | [x, y] => [w32 a x.toUInt32, w32 (a + 4) y.toUInt32]
  | _ => []

/-- Buffer writes of `MarshalBinary`, in program order — /repo/pttbbs/board.go:317-362, offsets board.go:121-150. -/
def BoardHeader.writes (c : Codec) (b : BoardHeader) : List Write :=
  [ wCopy 0 13 (c.enc b.brdName),
    wCopy 13 62 (c.enc b.title),
    wCopy 62 101 b.bm,
    w32 104 b.brdattr,
    w8 109 b.voteLimitPosts,
    w8 110 b.voteLimitLogins,
    wCopy 108 109 b.chessCountry,
    w32 112 (unixU32 b.bUpdate),
    w8 116 b.postLimitPosts,
    w8 117 b.postLimitLogins,
    w8 119 b.bVote,
    w32 120 (unixU32 b.vTime),
    w32 124 b.level,
    w32 128 (unixU32 b.permReload),
    w32 132 b.gid.toUInt32 ]
  ++ wPair 136 b.next ++ wPair 144 b.firstChild ++
  [ w32 152 b.parent.toUInt32,
    w32 156 b.childCount.toUInt32,
    w32 160 b.nuser.toUInt32,
    w32 164 b.postExpire.toUInt32,
    w32 168 (unixU32 b.endGamble),
    wCopy 172 205 (c.enc b.postType),
    wCopy 205 206 (c.enc b.postTypeF),
    w8 206 b.fastRecommendPause,
    w8 207 b.voteLimitBadPost,
    w8 208 b.postLimitBadPost,
    w32 212 (unixU32 b.srExpire) ]

/-- `MarshalBinary` — /repo/pttbbs/board.go:317-362 (`BoardHeaderRecordLength` = 256). -/
def BoardHeader.marshal (c : Codec) (b : BoardHeader) : Bytes := runWrites 256 (b.writes c)

/-- `bytes.Split(b, []byte("\x00"))[0]`: everything before the first NUL. -/
def splitNulHead (b : Bytes) : Bytes := b.takeWhile (· != 0)

/-- The fields read by `UnmarshalBoardHeader` from a buffer of at least 216 bytes — /repo/pttbbs/board.go:273-315. -/
def BoardHeader.parse (c : Codec) (data : Bytes) : BoardHeader :=
  { brdName := c.dec (splitNulHead (slice data 0 13))
    title := c.dec (splitNulHead (slice data 13 62))
    bm := trimNul (slice data 62 101)
    brdattr := rd32 (slice data 104 108)
    voteLimitPosts := byteAt data 109
    voteLimitLogins := byteAt data 110
    chessCountry := trimNul (slice data 108 109)
    bUpdate := timeOfU32 (rd32 (slice data 112 116))
    postLimitPosts := byteAt data 116
    postLimitLogins := byteAt data 117
    bVote := byteAt data 119
    vTime := timeOfU32 (rd32 (slice data 120 124))
    level := rd32 (slice data 124 128)
    permReload := timeOfU32 (rd32 (slice data 128 132))
    gid := (rd32 (slice data 132 136)).toInt32
    next := [(rd32 (slice data 136 140)).toInt32, (rd32 (slice data 140 144)).toInt32]
    firstChild := [(rd32 (slice data 144 148)).toInt32, (rd32 (slice data 148 152)).toInt32]
    parent := (rd32 (slice data 152 156)).toInt32
    childCount := (rd32 (slice data 156 160)).toInt32
    nuser := (rd32 (slice data 160 164)).toInt32
    postExpire := (rd32 (slice data 164 168)).toInt32
    endGamble := timeOfU32 (rd32 (slice data 168 172))
    postType := c.dec (trimNul (slice data 172 205))
    postTypeF := c.dec (trimNul (slice data 205 206))
    fastRecommendPause := byteAt data 206
    voteLimitBadPost := byteAt data 207
    postLimitBadPost := byteAt data 208
    srExpire := timeOfU32 (rd32 (slice data 212 216)) }

/-- `UnmarshalBoardHeader` — /repo/pttbbs/board.go:273-315, with every bounds check: a slice expression is checked against the
capacity, an index against the length. -/
def BoardHeader.decode (c : Codec) (s : GSlice) : Res BoardHeader := do
  return {
    brdName := c.dec (splitNulHead (← s.sub 0 13))
    title := c.dec (splitNulHead (← s.sub 13 62))
    bm := trimNul (← s.sub 62 101)
    brdattr := rd32 (← s.sub 104 108)
    voteLimitPosts := (← s.at 109)
    voteLimitLogins := (← s.at 110)
    chessCountry := trimNul (← s.sub 108 109)
    bUpdate := timeOfU32 (rd32 (← s.sub 112 116))
    postLimitPosts := (← s.at 116)
    postLimitLogins := (← s.at 117)
    bVote := (← s.at 119)
    vTime := timeOfU32 (rd32 (← s.sub 120 124))
    level := rd32 (← s.sub 124 128)
    permReload := timeOfU32 (rd32 (← s.sub 128 132))
    gid := (rd32 (← s.sub 132 136)).toInt32
    next := [(rd32 (← s.sub 136 140)).toInt32, (rd32 (← s.sub 140 144)).toInt32]
    firstChild := [(rd32 (← s.sub 144 148)).toInt32, (rd32 (← s.sub 148 152)).toInt32]
    parent := (rd32 (← s.sub 152 156)).toInt32
    childCount := (rd32 (← s.sub 156 160)).toInt32
    nuser := (rd32 (← s.sub 160 164)).toInt32
    postExpire := (rd32 (← s.sub 164 168)).toInt32
    endGamble := timeOfU32 (rd32 (← s.sub 168 172))
    postType := c.dec (trimNul (← s.sub 172 205))
    postTypeF := c.dec (trimNul (← s.sub 205 206))
    fastRecommendPause := (← s.at 206)
    voteLimitBadPost := (← s.at 207)
    postLimitBadPost := (← s.at 208)
    srExpire := timeOfU32 (rd32 (← s.sub 212 216)) }

/-- `UnmarshalBoardHeader` on a buffer made by `make` (capacity = length). -/
def BoardHeader.unmarshal (c : Codec) (data : Bytes) : Res BoardHeader := BoardHeader.decode c (GSlice.full data)

/-- A mask test `b.Brdattr&mask != 0` — /repo/pttbbs/board.go:78-103. -/
def attrTest (attr mask : UInt32) : Bool := attr &&& mask != 0

namespace BoardHeader
/-! Attribute queries — /repo/pttbbs/board.go:75-103, in source order. -/
def isNoCount (b : BoardHeader) : Bool := attrTest b.brdattr 0x00000002
def isGroupBoard (b : BoardHeader) : Bool := attrTest b.brdattr 0x00000008
def isHide (b : BoardHeader) : Bool := attrTest b.brdattr 0x00000010
def isPostMask (b : BoardHeader) : Bool := attrTest b.brdattr 0x00000020
def isAnonymous (b : BoardHeader) : Bool := attrTest b.brdattr 0x00000040
def isDefaultAnonymous (b : BoardHeader) : Bool := attrTest b.brdattr 0x00000080
def isNoCredit (b : BoardHeader) : Bool := attrTest b.brdattr 0x00000100
def isVoteBoard (b : BoardHeader) : Bool := attrTest b.brdattr 0x00000200
def isWarnEL (b : BoardHeader) : Bool := attrTest b.brdattr 0x00000400
def isTop (b : BoardHeader) : Bool := attrTest b.brdattr 0x00000800
def isNoRecommend (b : BoardHeader) : Bool := attrTest b.brdattr 0x00001000
def isAngelAnonymous (b : BoardHeader) : Bool := attrTest b.brdattr 0x00002000
def isBMCount (b : BoardHeader) : Bool := attrTest b.brdattr 0x00004000
def isSymbolic (b : BoardHeader) : Bool := attrTest b.brdattr 0x00008000
def isNoBoo (b : BoardHeader) : Bool := attrTest b.brdattr 0x00010000
def isRestrictedPost (b : BoardHeader) : Bool := attrTest b.brdattr 0x00040000
def isGuestPost (b : BoardHeader) : Bool := attrTest b.brdattr 0x00080000
def isCooldown (b : BoardHeader) : Bool := attrTest b.brdattr 0x00100000
def isCPLog (b : BoardHeader) : Bool := attrTest b.brdattr 0x00200000
def isNoFastRecommend (b : BoardHeader) : Bool := attrTest b.brdattr 0x00400000
def isIPLogRecommend (b : BoardHeader) : Bool := attrTest b.brdattr 0x00800000
def isOver18 (b : BoardHeader) : Bool := attrTest b.brdattr 0x01000000
def isNoReply (b : BoardHeader) : Bool := attrTest b.brdattr 0x02000000
def isAlignedComment (b : BoardHeader) : Bool := attrTest b.brdattr 0x04000000
def isNoSelfDeletePost (b : BoardHeader) : Bool := attrTest b.brdattr 0x08000000
def isBMMaskContent (b : BoardHeader) : Bool := attrTest b.brdattr 0x10000000
/-- `IsClass` — /repo/pttbbs/board.go:75. -/
def isClass (b : BoardHeader) : Bool := b.isGroupBoard
end BoardHeader

end Verif
