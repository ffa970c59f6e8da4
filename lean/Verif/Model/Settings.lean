import Verif.Model.Board
import Verif.Model.Userec
import Verif.Go.Path
/-!
# User settings and the moderators of a board

/repo/pttbbs/usersettings.go, `BM` of /repo/pttbbs/board.go.
-/

namespace Verif

/-- `findUserecByID` — /repo/pttbbs/usersettings.go:20-27 and, word for word, /repo/serverlet/route_token.go:69-76. The global
`userRecs` is an argument; no code of package pttbbs ever assigns its `userRecs`. -/
def findUserecByID (userRecs : List Userec) (userid : Bytes) : Res Userec :=
  match userRecs with
  | [] => .err "user record not found"
  | it :: rest => if userid = it.userID then .ok it else findUserecByID rest userid

/-- `uFlags` — /repo/pttbbs/usersettings.go:30-46. -/
structure UFlags where
  dbanner : Bool
  dbannerUsong : Bool
  rejOuttamail : Bool
  defBackup : Bool
  secureLogin : Bool
  favAddnew : Bool
  favNohilight : Bool
  noModmark : Bool
  coloredModmark : Bool
  dbcsAware : Bool
  dbcsDropRepeat : Bool
  dbcsNointresc : Bool
  cursorASCII : Bool
  menuLightbar : Bool
  newAngelPager : Bool
  deriving DecidableEq, Repr

/-! The masks — /repo/pttbbs/const.go:102-130. -/
def ufFavNohilight : UInt32 := 0x00000001
def ufFavAddnew : UInt32 := 0x00000002
def ufAdbanner : UInt32 := 0x00000040
def ufAdbannerUsong : UInt32 := 0x00000080
def ufDbcsAware : UInt32 := 0x00000200
def ufDbcsNointresc : UInt32 := 0x00000400
def ufDbscDropRepeat : UInt32 := 0x00000800
def ufNoModmark : UInt32 := 0x00001000
def ufColoredModmark : UInt32 := 0x00002000
def ufDefbackup : UInt32 := 0x00010000
def ufNewAngelPager : UInt32 := 0x00020000
def ufRejOuttamail : UInt32 := 0x00040000
def ufSecureLogin : UInt32 := 0x00080000
def ufMenuLightbar : UInt32 := 0x01000000
def ufCursorASCII : UInt32 := 0x02000000

/-- The flags of a record — /repo/pttbbs/usersettings.go:53-73, 93-155. -/
def Userec.flags (u : Userec) : UFlags :=
  { dbanner := attrTest u.userFlag ufAdbanner
    dbannerUsong := attrTest u.userFlag ufAdbannerUsong
    rejOuttamail := attrTest u.userFlag ufRejOuttamail
    defBackup := attrTest u.userFlag ufDefbackup
    secureLogin := attrTest u.userFlag ufSecureLogin
    favAddnew := attrTest u.userFlag ufFavAddnew
    favNohilight := attrTest u.userFlag ufFavNohilight
    noModmark := attrTest u.userFlag ufNoModmark
    coloredModmark := attrTest u.userFlag ufColoredModmark
    dbcsAware := attrTest u.userFlag ufDbcsAware
    dbcsDropRepeat := attrTest u.userFlag ufDbscDropRepeat
    dbcsNointresc := attrTest u.userFlag ufDbcsNointresc
    cursorASCII := attrTest u.userFlag ufCursorASCII
    menuLightbar := attrTest u.userFlag ufMenuLightbar
    newAngelPager := attrTest u.userFlag ufNewAngelPager }

/-- `getUserFlagAllByID` — /repo/pttbbs/usersettings.go:48-91. -/
def getUserFlagAllByID (userRecs : List Userec) (userid : Bytes) : Res UFlags :=
  match findUserecByID userRecs userid with
  | .ok u => .ok u.flags
  | .err _ => .err "user record not found"
  | .panic => .panic
  | .diverge => .diverge

/-- `BM` — /repo/pttbbs/board.go:109-114. -/
def BoardHeader.moderators (b : BoardHeader) : List Bytes := if b.bm = [] then [] else splitByte slash b.bm

end Verif
