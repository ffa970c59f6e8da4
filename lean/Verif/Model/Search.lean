import Verif.Model.Script
/-!
# The searches over all boards as sequences of calls

`GetUserArticleRecordFile`, `GetUserCommentRecordFile` and the functions they use (/repo/bbs.go:519-698, see `Verif.Model.Lists`) make calls of the
database one after the other; while they run, other clients may change what the next call finds.
-/

namespace Verif

/-- A function that makes calls of the database and returns something. -/
inductive Prog (α : Type) where
  | ret (a : α)
  | ask (op : Call) (next : Res Answer → Prog α)

namespace Prog

/-- The calls it makes. -/
def script {α : Type} : Prog α → Script
  | .ret _ => .stop
  | .ask op next => .make op fun r => (next r).script

/-- What it returns when it gets these answers. -/
def after {α : Type} : Prog α → List (Res Answer) → Option α
  | .ret a, [] => some a
  | .ret _, _ :: _ => none
  | .ask _ _, [] => none
  | .ask _ next, r :: rs => (next r).after rs

/-- What it returns when nobody else makes calls. -/
def alone {α : Type} (db : DB) (c : Codec) (fs : FS) : Prog α → FS × α
  | .ret a => (fs, a)
  | .ask op next => (next (op.exec db c fs).2).alone db c (op.exec db c fs).1

/-- Go on with the result. -/
def bind {α β : Type} : Prog α → (α → Prog β) → Prog β
  | .ret a, f => f a
  | .ask op next, f => .ask op fun r => (next r).bind f

/-- Go on unless the result is an error. -/
def andThen {α β : Type} (m : Prog (Res α)) (f : α → Prog (Res β)) : Prog (Res β) :=
  m.bind fun
    | .ok a => f a
    | .err e => .ret (.err e)
    | .panic => .ret .panic
    | .diverge => .ret .diverge

/-- `ReadBoardRecords` — /repo/bbs.go:333-348. -/
def boards : Prog (Res (List BoardHeader)) := .ask .readBoards fun
  | .ok (.boards l) => .ret (.ok l)
  | .ok _ => .ret (.ok [])
  | .err e => .ret (.err e)
  | .panic => .ret .panic
  | .diverge => .ret .diverge

/-- `ReadBoardArticleRecordsFile` — /repo/bbs.go:350-369. -/
def articles (board : Bytes) : Prog (Res (List FileHeader)) := .ask (.listArticles board) fun
  | .ok (.articles l) => .ret (.ok l)
  | .ok _ => .ret (.ok [])
  | .err e => .ret (.err e)
  | .panic => .ret .panic
  | .diverge => .ret .diverge

/-- `ReadBoardArticleFile` — /repo/bbs.go:388-403. -/
def article (board file : Bytes) : Prog (Res Bytes) := .ask (.readArticle board file) fun
  | .ok (.bytes y) => .ret (.ok y)
  | .ok _ => .ret (.ok [])
  | .err e => .ret (.err e)
  | .panic => .ret .panic
  | .diverge => .ret .diverge

/-- The loop over the boards of `GetUserArticleRecordFile` — /repo/bbs.go:555-578. -/
def userArticleLoop (user : Bytes) : List BoardHeader → Prog (Res (List UserArticle))
  | [] => .ret (.ok [])
  | b :: bs =>
    if DB.shouldSkip b.brdName then userArticleLoop user bs
    else (articles b.brdName).andThen fun ars => (userArticleLoop user bs).andThen fun rest =>
      .ret (.ok ((ars.filter (fun ar => ar.owner = user)).map (fun ar => ⟨b.brdName, ar.title, ar.owner, ar.filename⟩) ++ rest))

/-- `GetUserArticleRecordFile` — /repo/bbs.go:519-581. -/
def userArticles (user : Bytes) : Prog (Res (List UserArticle)) := boards.andThen (userArticleLoop user)

/-- `GetBoardArticleCommentRecords` — /repo/bbs.go:668-698. -/
def articleComments (board file : Bytes) : Prog (Res (List UserComment)) :=
  (article board file).andThen fun content => .ret (Verif.articleComments board file content)

/-- The loop of `GetBoardUserCommentRecord` — /repo/bbs.go:649-661. -/
def boardUserCommentLoop (board user : Bytes) : List FileHeader → Prog (Res (List UserComment))
  | [] => .ret (.ok [])
  | ar :: ars => (articleComments board ar.filename).andThen fun crs => (boardUserCommentLoop board user ars).andThen fun rest =>
      .ret (.ok (crs.filter (fun cr => cr.owner = user) ++ rest))

/-- `GetBoardUserCommentRecord` — /repo/bbs.go:641-664. -/
def boardUserComments (board user : Bytes) : Prog (Res (List UserComment)) := (articles board).andThen (boardUserCommentLoop board user)

/-- The loop over the boards of `GetUserCommentRecordFile` — /repo/bbs.go:622-634. -/
def userCommentLoop (user : Bytes) : List BoardHeader → Prog (Res (List UserComment))
  | [] => .ret (.ok [])
  | b :: bs =>
    if DB.shouldSkip b.brdName then userCommentLoop user bs
    else (boardUserComments b.brdName user).andThen fun ucr => (userCommentLoop user bs).andThen fun rest => .ret (.ok (ucr ++ rest))

/-- `GetUserCommentRecordFile` — /repo/bbs.go:585-637. -/
def userComments (user : Bytes) : Prog (Res (List UserComment)) := boards.andThen (userCommentLoop user)

end Prog

end Verif
