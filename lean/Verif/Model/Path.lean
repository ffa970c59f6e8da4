import Verif.Go.Path
/-!
# /repo/pttbbs/path.go — where everything is stored

Every function takes the BBS home directory and ids supplied by the caller.
-/

namespace Verif

/-- `fmt.Sprintf("%c", b)` for a byte `b`: the UTF-8 encoding of the code point `b`. -/
def fmtC (b : UInt8) : Bytes :=
  if b < 0x80 then [b] else [(0xC0 : UInt8) ||| (b >>> 6), (0x80 : UInt8) ||| (b &&& 0x3F)]

/-- `id[0]`: panics on the empty string. -/
def firstByte : Bytes → Res UInt8
  | [] => .panic
  | b :: _ => .ok b

/-- `strings.Join(path, "/")`. -/
def joinSlash : List Bytes → Bytes
  | [] => []
  | [x] => x
  | x :: y :: ys => x ++ slash :: joinSlash (y :: ys)

/-- /repo/pttbbs/path.go:28-30 -/
def getPasswdsPath (home : Bytes) : Res Bytes := .ok (home ++ ascii "/.PASSWDS")

/-- /repo/pttbbs/path.go:33-35 -/
def getBoardPath (home : Bytes) : Res Bytes := .ok (home ++ ascii "/.BRD")

/-- /repo/pttbbs/path.go:38-40 -/
def getUserFavoritePath (home userID : Bytes) : Res Bytes := do
  let c ← firstByte userID
  .ok (home ++ ascii "/home/" ++ fmtC c ++ ascii "/" ++ userID ++ ascii "/.fav")

/-- /repo/pttbbs/path.go:43-45 -/
def getUserDraftPath (home userID draftID : Bytes) : Res Bytes := do
  let c ← firstByte userID
  .ok (home ++ ascii "/home/" ++ fmtC c ++ ascii "/" ++ userID ++ ascii "/buf." ++ draftID)

/-- /repo/pttbbs/path.go:51-53 -/
def getUserMailPath (home userID filename : Bytes) : Res Bytes := do
  let c ← firstByte userID
  .ok (home ++ ascii "/home/" ++ fmtC c ++ ascii "/" ++ userID ++ ascii "/" ++ filename)

/-- /repo/pttbbs/path.go:56-58 -/
def getLoginRecentPath (home userID : Bytes) : Res Bytes := do
  let c ← firstByte userID
  .ok (home ++ ascii "/home/" ++ fmtC c ++ ascii "/" ++ userID ++ ascii "/logins.recent")

/-- /repo/pttbbs/path.go:61-63 -/
def getBoardArticlesDirectoryPath (home boardID : Bytes) : Res Bytes := do
  let c ← firstByte boardID
  .ok (home ++ ascii "/boards/" ++ fmtC c ++ ascii "/" ++ boardID ++ ascii "/.DIR")

/-- /repo/pttbbs/path.go:69-71 -/
def getBoardArticleFilePath (home boardID filename : Bytes) : Res Bytes := do
  let c ← firstByte boardID
  .ok (home ++ ascii "/boards/" ++ fmtC c ++ ascii "/" ++ boardID ++ ascii "/" ++ filename)

/-- /repo/pttbbs/path.go:77-81. The `append` on the caller's slice is modelled in `Verif.Model.Treasure`. -/
def getBoardTreasuresDirectoryPath (home boardID : Bytes) (path : List Bytes) : Res Bytes := do
  let subPath := joinSlash (path ++ [[]])
  let c ← firstByte boardID
  .ok (home ++ ascii "/man/boards/" ++ fmtC c ++ ascii "/" ++ boardID ++ ascii "/" ++ subPath ++ ascii ".DIR")

/-- /repo/pttbbs/path.go:83-87 -/
def getBoardTreasureFilePath (home boardID : Bytes) (path : List Bytes) (filename : Bytes) : Res Bytes := do
  let subPath := joinSlash (path ++ [[]])
  let c ← firstByte boardID
  .ok (home ++ ascii "/man/boards/" ++ fmtC c ++ ascii "/" ++ boardID ++ ascii "/" ++ subPath ++ filename)

/-- /repo/pttbbs/path.go:90-92 -/
def getBoardNameFilePath (home boardID : Bytes) : Res Bytes := do
  let c ← firstByte boardID
  .ok (home ++ ascii "/boards/" ++ fmtC c ++ ascii "/" ++ boardID ++ ascii "/.Name")

end Verif
