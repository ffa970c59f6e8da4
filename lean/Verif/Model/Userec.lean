import Verif.Go.Slice
import Verif.Model.Cstr
/-!
# Model of `/repo/pttbbs/passwd.go`: the 512-byte user record
-/

namespace Verif

/-- `GameScore` — /repo/pttbbs/passwd.go:91-95. -/
structure GameScore where
  win : UInt16
  lose : UInt16
  tie : UInt16
  deriving DecidableEq, Repr

/-- `Userec` — /repo/pttbbs/passwd.go:97-148. Times are Unix seconds; Go strings are bytes. -/
structure Userec where
  version : UInt32
  userID : Bytes
  realName : Bytes
  nickname : Bytes
  password : Bytes
  userFlag : UInt32
  userLevel : UInt32
  numLoginDays : UInt32
  numPosts : UInt32
  firstLogin : Int
  lastLogin : Int
  lastHost : Bytes
  money : Int32
  email : Bytes
  address : Bytes
  justify : Bytes
  over18 : Bool
  pagerUIType : UInt8
  pager : UInt8
  invisible : Bool
  exMailBox : UInt32
  career : Bytes
  role : UInt32
  lastSeen : Int
  timeSetAngel : Int
  timePlayAngel : Int
  lastSong : Int
  loginView : UInt32
  violateLaw : UInt16
  five : GameScore
  chineseChess : GameScore
  conn6 : GameScore
  goChess : GameScore
  darkChess : GameScore
  uaVersion : UInt8
  signature : UInt8
  badPost : UInt8
  myAngel : Bytes
  chessEloRating : UInt16
  withMe : UInt32
  timeRemoveBadPost : Int
  timeViolateLaw : Int
  deriving DecidableEq, Repr

/-- `&Userec{}` — /repo/pttbbs/passwd.go:234. -/
def Userec.zero : Userec :=
  { version := 0, userID := [], realName := [], nickname := [], password := [], userFlag := 0, userLevel := 0,
    numLoginDays := 0, numPosts := 0, firstLogin := zeroTimeUnix, lastLogin := zeroTimeUnix, lastHost := [],
    money := 0, email := [], address := [], justify := [], over18 := false, pagerUIType := 0, pager := 0,
    invisible := false, exMailBox := 0, career := [], role := 0, lastSeen := zeroTimeUnix, timeSetAngel :=
    zeroTimeUnix, timePlayAngel := zeroTimeUnix, lastSong := zeroTimeUnix, loginView := 0, violateLaw := 0,
    five := ⟨0, 0, 0⟩, chineseChess := ⟨0, 0, 0⟩, conn6 := ⟨0, 0, 0⟩, goChess := ⟨0, 0, 0⟩, darkChess := ⟨0,
    0, 0⟩, uaVersion := 0, signature := 0, badPost := 0, myAngel := [], chessEloRating := 0, withMe := 0,
    timeRemoveBadPost := zeroTimeUnix, timeViolateLaw := zeroTimeUnix }

/-- `if b { ret[i] = 1 } else { ret[i] = 0 }` — /repo/pttbbs/passwd.go:327-331. -/
def boolByte (b : Bool) : UInt8 := if b then 1 else 0

/-- Buffer writes of `MarshalBinary`, in program order — /repo/pttbbs/passwd.go:305-385, offsets passwd.go:30-86.
`Role` is not written; `Justify` is written with 38 bytes (line 325) although its field has 39. -/
def Userec.writes (c : Codec) (u : Userec) : List Write :=
  [ w32 0 u.version,
    wCopy 4 17 (c.enc u.userID),
    wCopy 17 37 (c.enc u.realName),
    wCopy 37 61 (c.enc u.nickname),
    wCopy 61 75 (c.enc u.password),
    w32 76 u.userFlag,
    w32 84 u.userLevel,
    w32 88 u.numLoginDays,
    w32 92 u.numPosts,
    w32 96 (unixU32 u.firstLogin),
    w32 100 (unixU32 u.lastLogin),
    wCopy 104 120 (c.enc u.lastHost),
    w32 120 u.money.toUInt32,
    wCopy 128 178 (c.enc u.email),
    wCopy 178 228 (c.enc u.address),
    wCopy 228 266 (c.enc u.justify),
    w8 270 (boolByte u.over18),
    w8 271 u.pagerUIType,
    w8 272 u.pager,
    w8 273 (boolByte u.invisible),
    w32 276 u.exMailBox,
    wCopy 284 324 (c.enc u.career),
    w32 396 (unixU32 u.lastSeen),
    w32 400 (unixU32 u.timeSetAngel),
    w32 404 (unixU32 u.timePlayAngel),
    w32 408 (unixU32 u.lastSong),
    w32 412 u.loginView,
    w16 418 u.violateLaw,
    w16 420 u.five.win,
    w16 422 u.five.lose,
    w16 424 u.five.tie,
    w16 426 u.chineseChess.win,
    w16 428 u.chineseChess.lose,
    w16 430 u.chineseChess.tie,
    w16 432 u.conn6.win,
    w16 434 u.conn6.lose,
    w16 436 u.conn6.tie,
    w16 440 u.goChess.win,
    w16 442 u.goChess.lose,
    w16 444 u.goChess.tie,
    w16 446 u.darkChess.win,
    w16 448 u.darkChess.lose,
    w8 450 u.uaVersion,
    w8 451 u.signature,
    w8 453 u.badPost,
    w16 454 u.darkChess.tie,
    wCopy 456 470 (c.enc u.myAngel),
    w16 470 u.chessEloRating,
    w32 472 u.withMe,
    w32 476 (unixU32 u.timeRemoveBadPost),
    w32 480 (unixU32 u.timeViolateLaw) ]

/-- `MarshalBinary` — /repo/pttbbs/passwd.go:305-385. -/
def Userec.marshal (c : Codec) (u : Userec) : Bytes := runWrites 512 (u.writes c)

/-- The fields read by `UnmarshalUserec` from a buffer of at least 484 bytes — /repo/pttbbs/passwd.go:233-303. -/
def Userec.parse (c : Codec) (data : Bytes) : Userec :=
  { version := rd32 (slice data 0 4)
    userID := cstrToString (slice data 4 17)
    realName := c.ofCstr (slice data 17 37)
    nickname := c.ofCstr (slice data 37 61)
    password := cstrToString (slice data 61 75)
    userFlag := rd32 (slice data 76 80)
    userLevel := rd32 (slice data 84 88)
    numLoginDays := rd32 (slice data 88 92)
    numPosts := rd32 (slice data 92 96)
    firstLogin := timeOfU32 (rd32 (slice data 96 100))
    lastLogin := timeOfU32 (rd32 (slice data 100 104))
    lastHost := cstrToString (slice data 104 120)
    money := (rd32 (slice data 120 124)).toInt32
    email := c.ofCstr (slice data 128 178)
    address := c.ofCstr (slice data 178 228)
    justify := c.ofCstr (slice data 228 267)
    over18 := byteAt data 270 != 0
    pagerUIType := byteAt data 271
    pager := byteAt data 272
    invisible := byteAt data 273 != 0
    exMailBox := rd32 (slice data 276 280)
    career := c.ofCstr (slice data 284 324)
    role := rd32 (slice data 392 396)
    lastSeen := timeOfU32 (rd32 (slice data 396 400))
    timeSetAngel := timeOfU32 (rd32 (slice data 400 404))
    timePlayAngel := timeOfU32 (rd32 (slice data 404 408))
    lastSong := timeOfU32 (rd32 (slice data 408 412))
    loginView := rd32 (slice data 412 416)
    violateLaw := rd16 (slice data 418 420)
    five := ⟨rd16 (slice data 420 422), rd16 (slice data 422 424), rd16 (slice data 424 426)⟩
    chineseChess := ⟨rd16 (slice data 426 428), rd16 (slice data 428 430), rd16 (slice data 430 432)⟩
    conn6 := ⟨rd16 (slice data 432 434), rd16 (slice data 434 436), rd16 (slice data 436 438)⟩
    goChess := ⟨rd16 (slice data 440 442), rd16 (slice data 442 444), rd16 (slice data 444 446)⟩
    darkChess := ⟨rd16 (slice data 446 448), rd16 (slice data 448 450), rd16 (slice data 454 456)⟩
    uaVersion := byteAt data 450
    signature := byteAt data 451
    badPost := byteAt data 453
    myAngel := cstrToString (slice data 456 470)
    chessEloRating := rd16 (slice data 470 472)
    withMe := rd32 (slice data 472 476)
    timeRemoveBadPost := timeOfU32 (rd32 (slice data 476 480))
    timeViolateLaw := timeOfU32 (rd32 (slice data 480 484)) }

/-- `UnmarshalUserec` — /repo/pttbbs/passwd.go:233-303, with every bounds check: a slice expression is checked against the
capacity, an index against the length. -/
def Userec.decode (c : Codec) (s : GSlice) : Res Userec := do
  return {
    version := rd32 (← s.sub 0 4)
    userID := cstrToString (← s.sub 4 17)
    realName := c.ofCstr (← s.sub 17 37)
    nickname := c.ofCstr (← s.sub 37 61)
    password := cstrToString (← s.sub 61 75)
    userFlag := rd32 (← s.sub 76 80)
    userLevel := rd32 (← s.sub 84 88)
    numLoginDays := rd32 (← s.sub 88 92)
    numPosts := rd32 (← s.sub 92 96)
    firstLogin := timeOfU32 (rd32 (← s.sub 96 100))
    lastLogin := timeOfU32 (rd32 (← s.sub 100 104))
    lastHost := cstrToString (← s.sub 104 120)
    money := (rd32 (← s.sub 120 124)).toInt32
    email := c.ofCstr (← s.sub 128 178)
    address := c.ofCstr (← s.sub 178 228)
    justify := c.ofCstr (← s.sub 228 267)
    over18 := (← s.at 270) != 0
    pagerUIType := (← s.at 271)
    pager := (← s.at 272)
    invisible := (← s.at 273) != 0
    exMailBox := rd32 (← s.sub 276 280)
    career := c.ofCstr (← s.sub 284 324)
    role := rd32 (← s.sub 392 396)
    lastSeen := timeOfU32 (rd32 (← s.sub 396 400))
    timeSetAngel := timeOfU32 (rd32 (← s.sub 400 404))
    timePlayAngel := timeOfU32 (rd32 (← s.sub 404 408))
    lastSong := timeOfU32 (rd32 (← s.sub 408 412))
    loginView := rd32 (← s.sub 412 416)
    violateLaw := rd16 (← s.sub 418 420)
    five := ⟨rd16 (← s.sub 420 422), rd16 (← s.sub 422 424), rd16 (← s.sub 424 426)⟩
    chineseChess := ⟨rd16 (← s.sub 426 428), rd16 (← s.sub 428 430), rd16 (← s.sub 430 432)⟩
    conn6 := ⟨rd16 (← s.sub 432 434), rd16 (← s.sub 434 436), rd16 (← s.sub 436 438)⟩
    goChess := ⟨rd16 (← s.sub 440 442), rd16 (← s.sub 442 444), rd16 (← s.sub 444 446)⟩
    darkChess := ⟨rd16 (← s.sub 446 448), rd16 (← s.sub 448 450), rd16 (← s.sub 454 456)⟩
    uaVersion := (← s.at 450)
    signature := (← s.at 451)
    badPost := (← s.at 453)
    myAngel := cstrToString (← s.sub 456 470)
    chessEloRating := rd16 (← s.sub 470 472)
    withMe := rd32 (← s.sub 472 476)
    timeRemoveBadPost := timeOfU32 (rd32 (← s.sub 476 480))
    timeViolateLaw := timeOfU32 (rd32 (← s.sub 480 484)) }

/-- `UnmarshalUserec` on a buffer made by `make` (capacity = length). -/
def Userec.unmarshal (c : Codec) (data : Bytes) : Res Userec := Userec.decode c (GSlice.full data)

end Verif
