import Verif.Model.Server
import Verif.Model.Api
/-!
# What is written to the log

The package `log` of the Go library writes a time stamp, the operands and a newline; strings are written as they are. Simplification: of the
database only the lines with a path are here (bbs.go:303, 321, 340, 357, 378, 395, 412, 433, 477, 495, 707, 724, 736) and that with the
text of an article; the lines about errors have the same path in them.
-/

namespace Verif

/-- One call of `log.Println`. -/
structure LogEntry where
  stamp : Bytes
  message : Bytes
  deriving DecidableEq

def LogEntry.text (e : LogEntry) : Bytes := e.stamp ++ e.message ++ [10]

/-- The log. -/
def logText (es : List LogEntry) : Bytes := es.flatMap LogEntry.text

/-! ## The service -/

/-- `getUsers` with `getTokenFromRequest` — /repo/serverlet/route_users.go:22-37, route_token.go:83-91. `err` is always nil. -/
def usersLog (r : Request) : List Bytes :=
  match parseUserPath r.path with
  | .ok (userID, item) =>
    if item = ascii "information" then
      if (splitByte 32 r.auth).length < 2 then
        [ascii "getTokenFromRequest error: len(s) < 2, got " ++ dec (splitByte 32 r.auth).length]
      else []
    else if item = ascii "favorites" then []
    else [userID ++ 32 :: item ++ ascii " <nil>"]
  | _ => []

/-- `postToken` — /repo/serverlet/route_token.go:41, 79. `shown` is what `%v` makes of a record. -/
def tokenLog (shown : Userec → Bytes) (st : ServerState) (r : Request) : List Bytes :=
  (postTokenLog st r).map fun
    | .foundUser u => ascii "found user: " ++ shown u
    | .password h => ascii "password " ++ h

/-- The handlers: those of boards and classes write nothing. -/
def routeLog (shown : Userec → Bytes) (st : ServerState) (r : Request) : Option Route → List Bytes
  | some .token => if r.method = ascii "POST" then tokenLog shown st r else []
  | some .users => if r.method = ascii "GET" then usersLog r else []
  | _ => []

/-- The messages of a request, by the routes of `serve`. -/
def requestLog (shown : Userec → Bytes) (st : ServerState) (r : Request) : List Bytes :=
  if r.path = ascii "*" then []
  else if r.method = ascii "CONNECT" then
    if muxWantsSlash r.path then [] else routeLog shown st r (muxMatch r.path)
  else if muxWantsSlash (cleanPath r.path) ∨ cleanPath r.path ≠ r.path then []
  else routeLog shown st r (muxMatch (cleanPath r.path))

/-! ## The database -/

/-- The path that a call writes to the log — the lines above; making an article's file, adding to an article and reading the boards of
favourites write none. -/
def Call.loggedPath (home : Bytes) : Call → Res Bytes
  | .readUsers => getPasswdsPath home
  | .readFavourites u => getUserFavoritePath home u
  | .readBoards => getBoardPath home
  | .listArticles b => getBoardArticlesDirectoryPath home b
  | .listTreasure b ds => getBoardTreasuresDirectoryPath home b ds
  | .readArticle b f => getBoardArticleFilePath home b f
  | .readTreasure b ds f => getBoardTreasureFilePath home b ds f
  | .addBoard _ => getBoardPath home
  | .createArticle .. => .err "none"
  | .addRecord b _ => getBoardArticlesDirectoryPath home b
  | .writeArticle b f _ => getBoardArticleFilePath home b f
  | .appendArticle .. => .err "none"
  | .readDraft u d => getUserDraftPath home u d
  | .deleteDraft u d => getUserDraftPath home u d
  | .writeDraft u d _ => getUserDraftPath home u d

def Call.log (home : Bytes) (op : Call) : List Bytes :=
  match op.loggedPath home with
  | .ok p => [ascii "path: " ++ p]
  | _ => []

/-! ## Texts of articles -/

/-- `%v` of a `[]byte`: the numbers, in brackets. -/
def printBytes (bs : Bytes) : Bytes := 91 :: List.intercalate [32] (bs.map fun b => dec b.toNat) ++ [93]

/-- The texts written so far, and a result. -/
structure Logged (α : Type) where
  texts : List Bytes
  result : Res α

def Logged.andThen (m : Logged α) (f : α → Logged β) : Logged β :=
  match m.result with
  | .ok a => ⟨m.texts ++ (f a).texts, (f a).result⟩
  | .err e => ⟨m.texts, .err e⟩
  | .panic => ⟨m.texts, .panic⟩
  | .diverge => ⟨m.texts, .diverge⟩

/-- Without writing. -/
def Logged.quiet (r : Res α) : Logged α := ⟨[], r⟩

namespace DB

/-- `GetBoardArticleCommentRecords` — /repo/bbs.go:668-698: `if len(crs) > 1 { log.Println(content) }`. -/
def boardArticleCommentsLogged (db : DB) (fs : FS) (board file : Bytes) : Logged (List UserComment) :=
  (Logged.quiet (db.readBoardArticleFile fs board file)).andThen fun content =>
    (Logged.quiet (articleComments board file content)).andThen fun crs =>
      ⟨if crs.length > 1 then [content] else [], .ok crs⟩

/-- The loop of `GetBoardUserCommentRecord` — /repo/bbs.go:649-661. -/
def boardUserCommentLoopLogged (db : DB) (fs : FS) (board user : Bytes) : List FileHeader → Logged (List UserComment)
  | [] => .quiet (.ok [])
  | ar :: ars =>
    (db.boardArticleCommentsLogged fs board ar.filename).andThen fun crs =>
      (boardUserCommentLoopLogged db fs board user ars).andThen fun rest =>
        .quiet (.ok (crs.filter (fun cr => cr.owner = user) ++ rest))

/-- `GetBoardUserCommentRecord` — /repo/bbs.go:641-664. -/
def boardUserCommentsLogged (db : DB) (c : Codec) (fs : FS) (board user : Bytes) : Logged (List UserComment) :=
  (Logged.quiet (db.readArticleRecords c fs board)).andThen (db.boardUserCommentLoopLogged fs board user)

/-- The loop over the boards of `GetUserCommentRecordFile` — /repo/bbs.go:622-634. -/
def userCommentLoopLogged (db : DB) (c : Codec) (fs : FS) (user : Bytes) : List BoardHeader → Logged (List UserComment)
  | [] => .quiet (.ok [])
  | b :: bs =>
    if shouldSkip b.brdName then userCommentLoopLogged db c fs user bs
    else
      (db.boardUserCommentsLogged c fs b.brdName user).andThen fun ucr =>
        (userCommentLoopLogged db c fs user bs).andThen fun rest => .quiet (.ok (ucr ++ rest))

/-- `GetUserCommentRecordFile` — /repo/bbs.go:585-637. -/
def userCommentsLogged (db : DB) (c : Codec) (fs : FS) (user : Bytes) : Logged (List UserComment) :=
  (Logged.quiet (db.readBoardRecords c fs)).andThen (db.userCommentLoopLogged c fs user)

end DB

end Verif
