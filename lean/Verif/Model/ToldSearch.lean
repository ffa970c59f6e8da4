import Verif.Model.Told
import Verif.Model.Lists
/-!
# What the log says of searches

`GetUserArticleRecordFile` and `GetUserCommentRecordFile` once more, with every line they write.
-/

namespace Verif

namespace DB

/-- `ReadBoardRecords` — /repo/bbs.go:333-348, /repo/pttbbs/board.go:171-176. -/
def boardsTold (db : DB) (c : Codec) (fs : FS) : Told (List BoardHeader) :=
  .path (getBoardPath db.home) "bbs: open file error:" fun p =>
    ((Told.of (db.openBoardList c fs p)).complain "").complain "bbs: get user rec error:"

/-- `ReadBoardArticleRecordsFile` — /repo/bbs.go:350-370, /repo/pttbbs/file.go:104-109. -/
def articlesTold (db : DB) (c : Codec) (fs : FS) (board : Bytes) : Told (List FileHeader) :=
  .path (getBoardArticlesDirectoryPath db.home board) "bbs: open file error:" fun p =>
    match (Told.of (db.openArticleList c fs p)).complain "" with
    | ⟨lines, .err e⟩ => if e = "no such file or directory" then ⟨lines, .ok []⟩
      else ⟨lines ++ [.trouble "bbs: ReadArticleRecordsFile error:" e], .err e⟩
    | m => m

/-- `ReadBoardArticleFile` — /repo/bbs.go:387-402. -/
def articleTold (db : DB) (fs : FS) (board file : Bytes) : Told Bytes :=
  .path (getBoardArticleFilePath db.home board file) "bbs: open file error:" fun p =>
    (Told.of (fs.readFile db.cwd p)).complain "bbs: get user rec error:"

/-- The loop over the boards of `GetUserArticleRecordFile` — /repo/bbs.go:555-578; `n` records have been found. -/
def userArticleLoopTold (db : DB) (c : Codec) (fs : FS) (user : Bytes) (n : Nat) : List BoardHeader → Told (List UserArticle)
  | [] => .of (.ok [])
  | b :: bs =>
    if shouldSkip b.brdName then userArticleLoopTold db c fs user n bs
    else
      ((db.articlesTold c fs b.brdName).complain "bbs: ReadBoardArticleRecordsFile error:").andThen fun ars =>
        let recs : List UserArticle := (ars.filter (fun ar => ar.owner = user)).map (fun ar => ⟨b.brdName, ar.title, ar.owner, ar.filename⟩)
        Told.andThen ⟨(List.range recs.length).map fun i => .hit b.brdName (n + i), .ok ()⟩ fun _ =>
          (userArticleLoopTold db c fs user (n + recs.length) bs).andThen fun rest => .of (.ok (recs ++ rest))

/-- `GetUserArticleRecordFile` — /repo/bbs.go:519-581. -/
def userArticlesTold (db : DB) (c : Codec) (fs : FS) (user : Bytes) : Told (List UserArticle) :=
  ((db.boardsTold c fs).complain "bbs: ReadBoardRecords error:").andThen (db.userArticleLoopTold c fs user 0)

/-- `GetBoardArticleCommentRecords` — /repo/bbs.go:668-698. -/
def boardArticleCommentsTold (db : DB) (fs : FS) (board file : Bytes) : Told (List UserComment) :=
  ((db.articleTold fs board file).complain "bbs: ReadBoardArticleFile error:").andThen fun content =>
    ((Told.of (articleComments board file content)).complain "bbs: NewUserCommentRecord error:").andThen fun crs =>
      ⟨if crs.length > 1 then [.content content] else [], .ok crs⟩

/-- The loop of `GetBoardUserCommentRecord` — /repo/bbs.go:649-661. -/
def boardUserCommentLoopTold (db : DB) (fs : FS) (board user : Bytes) : List FileHeader → Told (List UserComment)
  | [] => .of (.ok [])
  | ar :: ars =>
    ((db.boardArticleCommentsTold fs board ar.filename).complain "bbs: GetBoardArticleCommentRecords error:").andThen fun crs =>
      (boardUserCommentLoopTold db fs board user ars).andThen fun rest =>
        .of (.ok (crs.filter (fun cr => cr.owner = user) ++ rest))

/-- `GetBoardUserCommentRecord` — /repo/bbs.go:641-664. -/
def boardUserCommentsTold (db : DB) (c : Codec) (fs : FS) (board user : Bytes) : Told (List UserComment) :=
  ((db.articlesTold c fs board).complain "bbs: ReadBoardArticleRecordsFile error:").andThen (db.boardUserCommentLoopTold fs board user)

/-- The loop over the boards of `GetUserCommentRecordFile` — /repo/bbs.go:622-634. -/
def userCommentLoopTold (db : DB) (c : Codec) (fs : FS) (user : Bytes) : List BoardHeader → Told (List UserComment)
  | [] => .of (.ok [])
  | b :: bs =>
    if shouldSkip b.brdName then userCommentLoopTold db c fs user bs
    else
      ((db.boardUserCommentsTold c fs b.brdName user).complain "bbs: GetUserCommentRecordOfBoard error:").andThen fun ucr =>
        (userCommentLoopTold db c fs user bs).andThen fun rest => .of (.ok (ucr ++ rest))

/-- `GetUserCommentRecordFile` — /repo/bbs.go:585-637. -/
def userCommentsTold (db : DB) (c : Codec) (fs : FS) (user : Bytes) : Told (List UserComment) :=
  ((db.boardsTold c fs).complain "bbs: ReadBoardRecords error:").andThen (db.userCommentLoopTold c fs user)

end DB

end Verif
