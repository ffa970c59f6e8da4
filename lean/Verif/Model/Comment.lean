import Verif.Go.Regexp
import Verif.Go.Strings
import Verif.Go.Time
import Verif.Model.DB
/-!
# ANSI filtering and comment lines

/repo/ansi.go, /repo/user_comment_record.go and `GetBoardArticleCommentRecords` of /repo/bbs.go.
-/

namespace Verif

/-! ## ANSI sequences -/

/-- `[\u001B\u009B]` -/
def isEsc (v : Nat) : Bool := v == 0x1B || v == 0x9B

/-- `[[\]()#;?]` -/
def isIntro (v : Nat) : Bool := v == 0x5B || v == 0x5D || v == 0x28 || v == 0x29 || v == 0x23 || v == 0x3B || v == 0x3F

def inRange (lo hi v : Nat) : Bool := Nat.ble lo v && Nat.ble v hi

/-- `\d` -/
def isDigitV (v : Nat) : Bool := inRange 48 57 v

/-- `[a-zA-Z]` -/
def isAlphaV (v : Nat) : Bool := inRange 97 122 v || inRange 65 90 v

/-- `[a-zA-Z\d]` -/
def isAlnumV (v : Nat) : Bool := isAlphaV v || isDigitV v

/-- `[\dA-PRZcf-ntqry=><~]` -/
def isFinal (v : Nat) : Bool :=
  isDigitV v || inRange 0x41 0x50 v || v == 0x52 || v == 0x5A || v == 0x63 || inRange 0x66 0x6E v || v == 0x74 ||
    v == 0x71 || v == 0x72 || v == 0x79 || v == 0x3D || v == 0x3E || v == 0x3C || v == 0x7E

/-- `(?:(?:[a-zA-Z\d]*(?:;[a-zA-Z\d]*)*)?\u0007)` -/
def bellRx : Rx :=
  .seq (.opt (.seq (.star (.cls isAlnumV)) (.star (.seq (.chr 0x3B) (.star (.cls isAlnumV)))))) (.chr 7)

/-- `(?:(?:\d{1,4}(?:;\d{0,4})*)?[\dA-PRZcf-ntqry=><~])` -/
def csiRx : Rx :=
  .seq (.opt (.seq (.seq (.cls isDigitV) (.upTo (.cls isDigitV) 3))
    (.star (.seq (.chr 0x3B) (.upTo (.cls isDigitV) 4))))) (.cls isFinal)

/-- `const ansi` — /repo/ansi.go:7. -/
def ansiRx : Rx := .seq (.cls isEsc) (.seq (.star (.cls isIntro)) (.alt bellRx csiRx))

/-- `FilterStringANSI` — /repo/ansi.go:11-13. -/
def filterANSI (s : Bytes) : Bytes := unrunes (ansiRx.delete (runes s))

/-! ## Comments -/

/-- `[0-9][0-9]` -/
def twoDigits : Rx := .seq (.cls isDigitV) (.cls isDigitV)

/-- `\s`: `[\t\n\f\r ]` -/
def isSpaceV (v : Nat) : Bool := v == 9 || v == 10 || v == 12 || v == 13 || v == 32

/-- `[0-9][0-9]\/[0-9][0-9]\s[0-9][0-9]:[0-9][0-9]` -/
def timeRx : Rx :=
  .seq twoDigits (.seq (.chr 0x2F) (.seq twoDigits (.seq (.cls isSpaceV) (.seq twoDigits (.seq (.chr 0x3A) twoDigits)))))

/-- `[a-zA-Z][a-zA-Z0-9]+` -/
def ownerRx : Rx := .seq (.cls isAlphaV) (.plus (.cls isAlnumV))

/-- `.` -/
def notNewline (v : Nat) : Bool := v != 10

/-- `userCommentPattern` — /repo/user_comment_record.go:17. -/
def commentRx : Rx := .seq (.cap 1 ownerRx) (.seq (.chr 0x3A) (.seq (.star (.cls notNewline)) (.cap 2 timeRx)))

/-- The text rebuilt from the pieces between the colons — /repo/user_comment_record.go:132-144. -/
def joinPieces : List Bytes → Bytes
  | [] => []
  | [_] => []
  | _ :: p1 :: ps => trimSpace p1 ++ ps.flatMap (fun p => trimSpace p ++ [0x3A])

/-- `ErrNotUserComment` — /repo/user_comment_record.go:11. -/
def errNotUserComment : String := "data is not a user comment"

/-- `parseUserComment` — /repo/user_comment_record.go:96-147: owner, time and text. The checks for an empty owner or an
empty match (lines 112-115, 124-127) cannot succeed and are kept as in the code. -/
def parseUserComment (data : Bytes) : Res (Bytes × Civil × Bytes) :=
  match commentRx.find (runes data) with
  | none => .err errNotUserComment
  | some (start, t) =>
    let owner := unrunes (Rx.group start t 1)
    if owner.length = 0 then .err "user comment has empty name"
    else do
      let ctimeStr := unrunes (Rx.group start t 2)
      let ctime ← timeParse layoutComment ctimeStr
      let commentStr := unrunes (Rx.group start t 0)
      if commentStr.length = 0 then .err "user comment detail has empty"
      else .ok (owner, ctime, joinPieces (splitByte 0x3A (breakOn ctimeStr commentStr).1))

/-- `userCommentRecord` — /repo/user_comment_record.go:33-41. The IP is always empty. -/
structure UserComment where
  order : UInt32
  time : Civil
  owner : Bytes
  board : Bytes
  filename : Bytes
  comment : Bytes
  deriving DecidableEq, Repr

/-- `NewUserCommentRecord` — /repo/user_comment_record.go:45-59. -/
def newUserComment (order : UInt32) (data board filename : Bytes) : Res UserComment := do
  let (owner, ctime, comment) ← parseUserComment data
  .ok ⟨order, ctime, owner, board, filename, comment⟩

/-- The loop over the lines of an article — /repo/bbs.go:676-691. -/
def commentLoop (board filename : Bytes) : UInt32 → List Bytes → Res (List UserComment)
  | _, [] => .ok []
  | floor, l :: ls =>
    match newUserComment floor (filterANSI l) board filename with
    | .ok cr => do
      let rest ← commentLoop board filename (floor + 1) ls
      .ok (cr :: rest)
    | .err e => if e = errNotUserComment then commentLoop board filename floor ls else .err e
    | .panic => .panic
    | .diverge => .diverge

/-- `GetBoardArticleCommentRecords` on the article's content — /repo/bbs.go:668-698. `scanner.Err()` is not checked. -/
def articleComments (board filename content : Bytes) : Res (List UserComment) :=
  commentLoop board filename 1 (scanLines content).1

end Verif
