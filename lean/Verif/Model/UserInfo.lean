import Verif.Go.Slice
import Verif.Model.Userec
/-!
# Model of `/repo/pttbbs/userinfo.go`: the 3484-byte online-user record
-/

namespace Verif

/-- `UserInfoCache` — /repo/pttbbs/userinfo.go:79-137. Go arrays `[N]T` are `Vector T N`;
`MessageQueueCache` is a byte slice (/repo/pttbbs/cache.go:94).
Times are Unix seconds. -/
structure UserInfo where
  uid : Int32
  pid : Int32
  sockAddr : Int32
  userLevel : UInt32
  userID : Bytes
  nickname : Bytes
  fromHost : Bytes
  fromIP : UInt32
  darkChess : GameScore
  angelPause : UInt8
  friendTotal : Int32
  numFriends : Int16
  myFriend : Vector Int32 256
  friendOnline : Vector UInt32 256
  reject : Vector Int32 32
  msgCount : UInt8
  msgs : Vector Bytes 10
  birth : Bool
  active : Bool
  invisible : Bool
  mode : UInt8
  pager : Bool
  conn6 : GameScore
  lastAct : Int
  alerts : UInt8
  signature : UInt8
  destUID : Int32
  destUIP : Int32
  sockActive : UInt8
  inChat : UInt8
  chatID : Bytes
  lockMode : UInt8
  turn : Bool
  mateID : Bytes
  color : UInt8
  five : GameScore
  chineseChess : GameScore
  chessEloRating : UInt16
  goChess : GameScore
  withMe : UInt32
  brcID : UInt32
  wbTime : Int
  deriving DecidableEq, Repr

/-- Buffer writes of `MarshalBinary` up to `Color`, in program order — /repo/pttbbs/userinfo.go:255-349,
offsets userinfo.go:12-59. -/
def UserInfo.writesA (c : Codec) (u : UserInfo) : List Write :=
  [ w32 0 u.uid.toUInt32,
    w32 4 u.pid.toUInt32,
    w32 8 u.sockAddr.toUInt32,
    w32 12 u.userLevel,
    wCopy 16 29 (c.enc u.userID),
    wCopy 29 53 (c.enc u.nickname),
    wCopy 53 80 (c.enc u.fromHost),
    w32 80 u.fromIP,
    w16 84 u.darkChess.win,
    w16 86 u.darkChess.lose,
    w8 89 u.angelPause,
    w16 90 u.darkChess.tie,
    w32 92 u.friendTotal.toUInt32,
    w16 96 u.numFriends.toUInt16 ]
  ++ List.ofFn (fun i : Fin 256 => w32 (100 + 4 * i) u.myFriend[i].toUInt32)
  ++ List.ofFn (fun i : Fin 256 => w32 (1128 + 4 * i) u.friendOnline[i])
  ++ List.ofFn (fun i : Fin 32 => w32 (2156 + 4 * i) u.reject[i].toUInt32)
  ++ [ w8 2288 u.msgCount ]
  ++ List.ofFn (fun i : Fin 10 => wCopy (2292 + 100 * i) (2292 + 100 * i + 100) u.msgs[i])
  ++ [ w8 3392 (boolByte u.birth),
    w8 3393 (boolByte u.active),
    w8 3394 (boolByte u.invisible),
    w8 3395 u.mode,
    w8 3396 (boolByte u.pager),
    w16 3398 u.conn6.win,
    w32 3400 (unixU32 u.lastAct),
    w8 3404 u.alerts,
    w16 3406 u.conn6.lose,
    w8 3409 u.signature,
    w16 3410 u.conn6.tie,
    w32 3412 u.destUID.toUInt32,
    w32 3416 u.destUIP.toUInt32,
    w8 3420 u.sockActive,
    w8 3421 u.inChat,
    wCopy 3422 3433 (c.enc u.chatID),
    w8 3433 u.lockMode,
    w8 3434 (boolByte u.turn),
    wCopy 3435 3448 (c.enc u.mateID),
    w8 3448 u.color ]

/-- The remaining writes: game scores and trailer — /repo/pttbbs/userinfo.go:351-368, offsets userinfo.go:61-75.
`PosOfUserInfoChcTie` is `PosOfUserInfoFiveLose + 2` (line 66), so these targets overlap, as in the source. -/
def UserInfo.writesB (u : UserInfo) : List Write :=
  [ w16 3449 u.five.win,
    w16 3451 u.five.lose,
    w16 3453 u.five.tie,
    w16 3455 u.chineseChess.win,
    w16 3457 u.chineseChess.lose,
    w16 3453 u.chineseChess.tie,
    w16 3455 u.chessEloRating,
    w16 3457 u.goChess.win,
    w16 3459 u.goChess.lose,
    w16 3461 u.goChess.tie,
    w32 3463 u.withMe,
    w32 3467 u.brcID,
    w32 3471 (unixU32 u.wbTime) ]

/-- All writes in program order — /repo/pttbbs/userinfo.go:255-372. -/
def UserInfo.writes (c : Codec) (u : UserInfo) : List Write := u.writesA c ++ u.writesB

/-- `MarshalBinary` — /repo/pttbbs/userinfo.go:255-372. -/
def UserInfo.marshal (c : Codec) (u : UserInfo) : Bytes := runWrites 3484 (u.writes c)

/-- The fields read by `UnmarshalUserInfo` from a buffer of at least 3475 bytes — /repo/pttbbs/userinfo.go:168-253. -/
def UserInfo.parse (c : Codec) (data : Bytes) : UserInfo :=
  { uid := (rd32 (slice data 0 4)).toInt32
    pid := (rd32 (slice data 4 8)).toInt32
    sockAddr := (rd32 (slice data 8 12)).toInt32
    userLevel := rd32 (slice data 12 16)
    userID := cstrToString (slice data 16 29)
    nickname := c.ofCstr (slice data 29 53)
    fromHost := cstrToString (slice data 53 80)
    fromIP := rd32 (slice data 80 84)
    darkChess := ⟨rd16 (slice data 84 86), rd16 (slice data 86 88), rd16 (slice data 90 92)⟩
    angelPause := byteAt data 89
    friendTotal := (rd32 (slice data 92 96)).toInt32
    numFriends := (rd16 (slice data 96 98)).toInt16
    myFriend := Vector.ofFn fun i : Fin 256 => (rd32 (slice data (100 + 4 * i) (100 + 4 * i + 4))).toInt32
    friendOnline := Vector.ofFn fun i : Fin 256 => rd32 (slice data (1128 + 4 * i) (1128 + 4 * i + 4))
    reject := Vector.ofFn fun i : Fin 32 => (rd32 (slice data (2156 + 4 * i) (2156 + 4 * i + 4))).toInt32
    msgCount := byteAt data 2288
    msgs := Vector.ofFn fun i : Fin 10 => slice data (2292 + 100 * i) (2292 + 100 * i + 100)
    birth := byteAt data 3392 != 0
    active := byteAt data 3393 != 0
    invisible := byteAt data 3394 != 0
    mode := byteAt data 3395
    pager := byteAt data 3396 != 0
    conn6 := ⟨rd16 (slice data 3398 3400), rd16 (slice data 3406 3408), rd16 (slice data 3410 3412)⟩
    lastAct := timeOfU32 (rd32 (slice data 3400 3404))
    alerts := byteAt data 3404
    signature := byteAt data 3409
    destUID := (rd32 (slice data 3412 3416)).toInt32
    destUIP := (rd32 (slice data 3416 3420)).toInt32
    sockActive := byteAt data 3420
    inChat := byteAt data 3421
    chatID := cstrToString (slice data 3422 3433)
    lockMode := byteAt data 3433
    turn := byteAt data 3434 != 0
    mateID := c.ofCstr (slice data 3435 3448)
    color := byteAt data 3448
    five := ⟨rd16 (slice data 3449 3451), rd16 (slice data 3451 3453), rd16 (slice data 3453 3455)⟩
    chineseChess := ⟨rd16 (slice data 3455 3457), rd16 (slice data 3457 3459), rd16 (slice data 3453 3455)⟩
    chessEloRating := rd16 (slice data 3455 3457)
    goChess := ⟨rd16 (slice data 3457 3459), rd16 (slice data 3459 3461), rd16 (slice data 3461 3463)⟩
    withMe := rd32 (slice data 3463 3467)
    brcID := rd32 (slice data 3467 3471)
    wbTime := timeOfU32 (rd32 (slice data 3471 3475)) }

/-- `UnmarshalUserInfo` — /repo/pttbbs/userinfo.go:168-253, with every bounds check: a slice expression is checked against the
capacity, an index against the length. -/
def UserInfo.decode (c : Codec) (s : GSlice) : Res UserInfo := do
  return {
    uid := (rd32 (← s.sub 0 4)).toInt32
    pid := (rd32 (← s.sub 4 8)).toInt32
    sockAddr := (rd32 (← s.sub 8 12)).toInt32
    userLevel := rd32 (← s.sub 12 16)
    userID := cstrToString (← s.sub 16 29)
    nickname := c.ofCstr (← s.sub 29 53)
    fromHost := cstrToString (← s.sub 53 80)
    fromIP := rd32 (← s.sub 80 84)
    darkChess := ⟨rd16 (← s.sub 84 86), rd16 (← s.sub 86 88), rd16 (← s.sub 90 92)⟩
    angelPause := (← s.at 89)
    friendTotal := (rd32 (← s.sub 92 96)).toInt32
    numFriends := (rd16 (← s.sub 96 98)).toInt16
    myFriend := (← vecM 256 fun i => do return (rd32 (← s.sub (100 + 4 * i) (100 + 4 * i + 4))).toInt32)
    friendOnline := (← vecM 256 fun i => do return rd32 (← s.sub (1128 + 4 * i) (1128 + 4 * i + 4)))
    reject := (← vecM 32 fun i => do return (rd32 (← s.sub (2156 + 4 * i) (2156 + 4 * i + 4))).toInt32)
    msgCount := (← s.at 2288)
    msgs := (← vecM 10 fun i => s.sub (2292 + 100 * i) (2292 + 100 * i + 100))
    birth := (← s.at 3392) != 0
    active := (← s.at 3393) != 0
    invisible := (← s.at 3394) != 0
    mode := (← s.at 3395)
    pager := (← s.at 3396) != 0
    conn6 := ⟨rd16 (← s.sub 3398 3400), rd16 (← s.sub 3406 3408), rd16 (← s.sub 3410 3412)⟩
    lastAct := timeOfU32 (rd32 (← s.sub 3400 3404))
    alerts := (← s.at 3404)
    signature := (← s.at 3409)
    destUID := (rd32 (← s.sub 3412 3416)).toInt32
    destUIP := (rd32 (← s.sub 3416 3420)).toInt32
    sockActive := (← s.at 3420)
    inChat := (← s.at 3421)
    chatID := cstrToString (← s.sub 3422 3433)
    lockMode := (← s.at 3433)
    turn := (← s.at 3434) != 0
    mateID := c.ofCstr (← s.sub 3435 3448)
    color := (← s.at 3448)
    five := ⟨rd16 (← s.sub 3449 3451), rd16 (← s.sub 3451 3453), rd16 (← s.sub 3453 3455)⟩
    chineseChess := ⟨rd16 (← s.sub 3455 3457), rd16 (← s.sub 3457 3459), rd16 (← s.sub 3453 3455)⟩
    chessEloRating := rd16 (← s.sub 3455 3457)
    goChess := ⟨rd16 (← s.sub 3457 3459), rd16 (← s.sub 3459 3461), rd16 (← s.sub 3461 3463)⟩
    withMe := rd32 (← s.sub 3463 3467)
    brcID := rd32 (← s.sub 3467 3471)
    wbTime := timeOfU32 (rd32 (← s.sub 3471 3475)) }

/-- `UnmarshalUserInfo` on a buffer made by `make` (capacity = length). -/
def UserInfo.unmarshal (c : Codec) (data : Bytes) : Res UserInfo := UserInfo.decode c (GSlice.full data)

end Verif
