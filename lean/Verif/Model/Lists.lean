import Verif.Model.DB
import Verif.Model.Comment
/-!
# What a user has written

`GetUserArticleRecordFile`, `GetUserCommentRecordFile` and the functions they use — /repo/bbs.go:333-348, 518-698. The
pttbbs connector implements neither `UserArticleConnector` nor `UserCommentConnector`, so the first part of both
functions (bbs.go:522-540, 588-606) is never run.
-/

namespace Verif

/-- `userArticleRecord` — /repo/user_article_record.go. -/
structure UserArticle where
  board : Bytes
  title : Bytes
  owner : Bytes
  article : Bytes
  deriving DecidableEq, Repr

namespace DB

/-- `OpenBoardHeaderFile` on a path — /repo/pttbbs/board.go:171-199. A directory opens, and every read fails. -/
def openBoardList (db : DB) (c : Codec) (fs : FS) (p : Bytes) : Res (List BoardHeader) := do
  let l ← fs.lookup db.cwd p
  match fs.get l with
  | none => .err "no such file or directory"
  | some .dir => .diverge
  | some (.file d) => openBoardHeaderFile c (some d)

/-- `ReadBoardRecords` — /repo/bbs.go:333-348, /repo/pttbbs/pttbbs.go:104-111. -/
def readBoardRecords (db : DB) (c : Codec) (fs : FS) : Res (List BoardHeader) := do
  let p ← getBoardPath db.home
  db.openBoardList c fs p

/-- `shouldSkip` — /repo/bbs.go:548-553, 615-620. -/
def shouldSkip (board : Bytes) : Bool := board = ascii "ALLPOST"

/-- The loop over the boards of `GetUserArticleRecordFile` — /repo/bbs.go:555-578. -/
def userArticleLoop (db : DB) (c : Codec) (fs : FS) (user : Bytes) : List BoardHeader → Res (List UserArticle)
  | [] => .ok []
  | b :: bs =>
    if shouldSkip b.brdName then userArticleLoop db c fs user bs
    else do
      let ars ← db.readArticleRecords c fs b.brdName
      let recs := (ars.filter (fun ar => ar.owner = user)).map (fun ar => ⟨b.brdName, ar.title, ar.owner, ar.filename⟩)
      let rest ← userArticleLoop db c fs user bs
      .ok (recs ++ rest)

/-- `GetUserArticleRecordFile` — /repo/bbs.go:519-581. -/
def userArticles (db : DB) (c : Codec) (fs : FS) (user : Bytes) : Res (List UserArticle) := do
  let bs ← db.readBoardRecords c fs
  db.userArticleLoop c fs user bs

/-- `GetBoardArticleCommentRecords` — /repo/bbs.go:668-698. -/
def boardArticleComments (db : DB) (fs : FS) (board file : Bytes) : Res (List UserComment) := do
  let content ← db.readBoardArticleFile fs board file
  articleComments board file content

/-- The loop of `GetBoardUserCommentRecord` — /repo/bbs.go:649-661. -/
def boardUserCommentLoop (db : DB) (fs : FS) (board user : Bytes) : List FileHeader → Res (List UserComment)
  | [] => .ok []
  | ar :: ars => do
    let crs ← db.boardArticleComments fs board ar.filename
    let rest ← boardUserCommentLoop db fs board user ars
    .ok (crs.filter (fun cr => cr.owner = user) ++ rest)

/-- `GetBoardUserCommentRecord` — /repo/bbs.go:641-664. -/
def boardUserComments (db : DB) (c : Codec) (fs : FS) (board user : Bytes) : Res (List UserComment) := do
  let ars ← db.readArticleRecords c fs board
  db.boardUserCommentLoop fs board user ars

/-- The loop over the boards of `GetUserCommentRecordFile` — /repo/bbs.go:622-634. -/
def userCommentLoop (db : DB) (c : Codec) (fs : FS) (user : Bytes) : List BoardHeader → Res (List UserComment)
  | [] => .ok []
  | b :: bs =>
    if shouldSkip b.brdName then userCommentLoop db c fs user bs
    else do
      let ucr ← db.boardUserComments c fs b.brdName user
      let rest ← userCommentLoop db c fs user bs
      .ok (ucr ++ rest)

/-- `GetUserCommentRecordFile` — /repo/bbs.go:585-637. -/
def userComments (db : DB) (c : Codec) (fs : FS) (user : Bytes) : Res (List UserComment) := do
  let bs ← db.readBoardRecords c fs
  db.userCommentLoop c fs user bs

end DB

end Verif
