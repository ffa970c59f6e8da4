import Verif.Model.Connector
import Verif.Model.Factory
import Verif.Model.ServerMain
/-!
# The calls of `bbs.DB` — /repo/bbs.go:296-516, 700-738
-/

namespace Verif

namespace DB

/-- `ReadBoardTreasureRecordsFile` — /repo/bbs.go:371-386, /repo/pttbbs/pttbbs.go:117-133. A missing list is an error here, unlike in
`ReadBoardArticleRecordsFile`. -/
def readTreasureRecords (db : DB) (c : Codec) (fs : FS) (board : Bytes) (dirs : List Bytes) : Res (List FileHeader) := do
  let p ← getBoardTreasuresDirectoryPath db.home board dirs
  db.openArticleList c fs p

/-- `ReadBoardTreasureFile` — /repo/bbs.go:405-420, /repo/pttbbs/pttbbs.go:139-152. -/
def readTreasureFile (db : DB) (fs : FS) (board : Bytes) (dirs : List Bytes) (file : Bytes) : Res Bytes := do
  let p ← getBoardTreasureFilePath db.home board dirs file
  fs.readFile db.cwd p

end DB

/-- A call of the database. The calls that search all boards (bbs.go:519-698) are loops over `listArticles` and `readArticle`. -/
inductive Call where
  | readUsers
  | readFavourites (user : Bytes)
  | readBoards
  | listArticles (board : Bytes)
  | listTreasure (board : Bytes) (dirs : List Bytes)
  | readArticle (board file : Bytes)
  | readTreasure (board : Bytes) (dirs : List Bytes) (file : Bytes)
  | addBoard (r : BoardHeader)
  | createArticle (board owner date title : Bytes) (draw : Nat → Int × Fin 4096) (fuel : Nat)
  | addRecord (board : Bytes) (r : FileHeader)
  | writeArticle (board file content : Bytes)
  | appendArticle (board file content : Bytes)
  | readDraft (user draft : Bytes)
  | deleteDraft (user draft : Bytes)
  | writeDraft (user draft content : Bytes)

/-- What a call returns when it succeeds. -/
inductive Answer where
  | done
  | bytes (b : Bytes)
  | record (r : FileHeader)
  | users (l : List Userec)
  | boards (l : List BoardHeader)
  | articles (l : List FileHeader)
  | favourites (l : List FavItem)

/-- A call that only reads. -/
def reads {α : Type} (fs : FS) (f : α → Answer) (r : Res α) : FS × Res Answer := (fs, do .ok (f (← r)))

/-- A call that writes; if it fails the disk is as before. -/
def writes (fs : FS) : Res FS → FS × Res Answer
  | .ok fs' => (fs', .ok .done)
  | .err e => (fs, .err e)
  | .panic => (fs, .panic)
  | .diverge => (fs, .diverge)

/-- One call: the disk afterwards and the answer. -/
def Call.exec (db : DB) (c : Codec) (fs : FS) : Call → FS × Res Answer
  | .readUsers => reads fs .users (db.readUserRecords c fs)
  | .readFavourites u => reads fs .favourites (db.readFavorites c fs u)
  | .readBoards => reads fs .boards (db.readBoardRecords c fs)
  | .listArticles b => reads fs .articles (db.readArticleRecords c fs b)
  | .listTreasure b ds => reads fs .articles (db.readTreasureRecords c fs b ds)
  | .readArticle b f => reads fs .bytes (db.readBoardArticleFile fs b f)
  | .readTreasure b ds f => reads fs .bytes (db.readTreasureFile fs b ds f)
  | .addBoard r => writes fs (db.addBoardRecord c fs r)
  | .createArticle b o d t draw fuel => match db.createArticleRecord fs b o d t draw fuel with
    | .ok (r, fs') => (fs', .ok (.record r))
    | .err e => (fs, .err e)
    | .panic => (fs, .panic)
    | .diverge => (fs, .diverge)
  | .addRecord b r => writes fs (db.addArticleRecord c fs b r)
  | .writeArticle b f x => writes fs (db.writeBoardArticleFile fs b f x)
  | .appendArticle b f x => writes fs (db.appendBoardArticleFile fs b f x)
  | .readDraft u d => reads fs .bytes (db.getUserDraft fs u d)
  | .deleteDraft u d => writes fs (db.deleteUserDraft fs u d)
  | .writeDraft u d x => writes fs (db.writeUserDraft fs u d x)

/-- A history of calls. -/
def Call.execAll (db : DB) (c : Codec) (fs : FS) : List Call → FS × List (Res Answer)
  | [] => (fs, [])
  | op :: ops =>
    let (fs', r) := op.exec db c fs
    let (fs'', rs) := Call.execAll db c fs' ops
    (fs'', r :: rs)

end Verif
