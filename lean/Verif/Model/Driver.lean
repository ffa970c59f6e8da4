import Verif.Model.ErrText
import Verif.Model.Api
/-!
# The database in front of any driver

/repo/bbs.go:138-738: `bbs.DB` asks a driver — a value of the interface `Connector` and of as many of the optional interfaces as it likes — for paths,
and gives the paths back to it. The other files of the model are about the driver `pttbbs`; here it may be any.
-/

namespace Verif

/-- A method of a driver: it may change what the driver works on (its fields, files, the network), and it returns, fails, panics or does not return. -/
abbrev Method (σ α : Type) := σ → σ × Res α

namespace Method

/-- `x, err := f(); if err != nil { return nil, err }`. -/
def andThen {σ α β : Type} (m : Method σ α) (f : α → Method σ β) : Method σ β := fun s => match m s with
  | (s', .ok a) => f a s'
  | (s', .err e) => (s', .err e)
  | (s', .panic) => (s', .panic)
  | (s', .diverge) => (s', .diverge)

/-- Nothing is asked. -/
def pure {σ α : Type} (r : Res α) : Method σ α := fun s => (s, r)

/-- The value is put into another type. -/
def map {σ α β : Type} (f : α → β) (m : Method σ α) : Method σ β := m.andThen fun a => .pure (.ok (f a))

end Method

/-- The types of the records of a driver, and the methods of the interfaces `BoardRecord` and `ArticleRecord` (/repo/bbs.go:83-93, 127-136) that the database
calls. Simplification: they change nothing and return. -/
structure Kinds where
  User : Type
  Favourite : Type
  Board : Type
  Article : Type
  boardID : Board → Bytes
  filename : Article → Bytes
  title : Article → Bytes
  owner : Article → Bytes

/-- `WriteBoardConnector` — /repo/bbs.go:179-197, what `DB` uses of it. -/
structure BoardWriter (σ : Type) (K : Kinds) where
  new : Args → Method σ K.Board
  add : Bytes → K.Board → Method σ Unit

/-- `WriteArticleConnector` — /repo/bbs.go:200-221, what `DB` uses of it. -/
structure ArticleWriter (σ : Type) (K : Kinds) where
  createFilename : Bytes → Method σ Bytes
  new : Bytes → Bytes → Bytes → Bytes → Method σ K.Article
  add : Bytes → K.Article → Method σ Unit
  write : Bytes → Bytes → Method σ Unit
  append : Bytes → Bytes → Method σ Unit

/-- `UserArticleConnector` and `UserCommentConnector` — /repo/bbs.go:224-250, what `DB` uses of them: the lists a driver keeps for a user. -/
structure Keeper (σ α : Type) where
  path : Bytes → Method σ Bytes
  read : Bytes → Method σ (List α)

/-- `UserDraftConnector` — /repo/bbs.go:254-268. -/
structure DraftStore (σ : Type) where
  path : Bytes → Bytes → Method σ Bytes
  read : Bytes → Method σ Bytes
  delete : Bytes → Method σ Unit
  write : Bytes → Bytes → Method σ Unit

/-- A driver: `Connector` — /repo/bbs.go:146-176 without `Open` (see `Registry.openDB`), and the optional interfaces. -/
structure Driver (σ : Type) (K : Kinds) where
  usersPath : Method σ Bytes
  readUsers : Bytes → Method σ (List K.User)
  favouritesPath : Bytes → Method σ Bytes
  readFavourites : Bytes → Method σ (List K.Favourite)
  boardsPath : Method σ Bytes
  readBoards : Bytes → Method σ (List K.Board)
  articlesPath : Bytes → Method σ Bytes
  treasuresPath : Bytes → List Bytes → Method σ Bytes
  readArticles : Bytes → Method σ (List K.Article)
  articlePath : Bytes → Bytes → Method σ Bytes
  treasurePath : Bytes → List Bytes → Bytes → Method σ Bytes
  readArticle : Bytes → Method σ Bytes
  boardWriter : Option (BoardWriter σ K)
  articleWriter : Option (ArticleWriter σ K)
  articleKeeper : Option (Keeper σ UserArticle)
  commentKeeper : Option (Keeper σ UserComment)
  drafts : Option (DraftStore σ)

/-- A call of `bbs.DB`. A draft is a value of an interface, which may be nil. -/
inductive FrontCall (K : Kinds) where
  | readUsers
  | readFavourites (user : Bytes)
  | readBoards
  | listArticles (board : Bytes)
  | listTreasure (board : Bytes) (dirs : List Bytes)
  | readArticle (board file : Bytes)
  | readTreasure (board : Bytes) (dirs : List Bytes) (file : Bytes)
  | newBoard (args : Args)
  | addBoard (r : K.Board)
  | updateBoard (index : UInt64) (r : K.Board)
  | readBoard (index : UInt64)
  | removeBoard (index : UInt64)
  | createArticle (board owner date title : Bytes)
  | addRecord (board : Bytes) (r : K.Article)
  | writeArticle (board file content : Bytes)
  | appendArticle (board file content : Bytes)
  | userArticles (user : Bytes)
  | userComments (user : Bytes)
  | boardUserComments (board user : Bytes)
  | articleComments (board : Bytes) (r : K.Article)
  | readDraft (user draft : Bytes)
  | deleteDraft (user draft : Bytes)
  | writeDraft (user draft : Bytes) (content : Option Bytes)

/-- What it returns when it succeeds. -/
inductive FrontAnswer (K : Kinds) where
  | done
  | bytes (b : Bytes)
  | users (l : List K.User)
  | favourites (l : List K.Favourite)
  | boards (l : List K.Board)
  | board (r : K.Board)
  | articles (l : List K.Article)
  | article (r : K.Article)
  | userArticles (l : List UserArticle)
  | userComments (l : List UserComment)

namespace Driver

variable {σ : Type} {K : Kinds} (d : Driver σ K)

/-- `ReadUserRecords` — /repo/bbs.go:296-311. -/
def readUserRecords : Method σ (List K.User) := d.usersPath.andThen d.readUsers

/-- `ReadUserFavoriteRecords` — /repo/bbs.go:314-330. -/
def readUserFavourites (user : Bytes) : Method σ (List K.Favourite) := (d.favouritesPath user).andThen d.readFavourites

/-- `ReadBoardRecords` — /repo/bbs.go:333-348. -/
def readBoardRecords : Method σ (List K.Board) := d.boardsPath.andThen d.readBoards

/-- `db.connector.ReadArticleRecordsFile(path)` and the search in the text of its error — /repo/bbs.go:359-367. -/
def readOrEmpty (p : Bytes) : Method σ (List K.Article) := fun s => match d.readArticles p s with
  | (s', .err e) => if containsPhrase missingPhrase (ascii e) then (s', .ok []) else (s', .err e)
  | r => r

/-- `ReadBoardArticleRecordsFile` — /repo/bbs.go:350-369. -/
def listArticles (board : Bytes) : Method σ (List K.Article) := (d.articlesPath board).andThen d.readOrEmpty

/-- `ReadBoardTreasureRecordsFile` — /repo/bbs.go:371-386. -/
def listTreasure (board : Bytes) (dirs : List Bytes) : Method σ (List K.Article) := (d.treasuresPath board dirs).andThen d.readArticles

/-- `ReadBoardArticleFile` — /repo/bbs.go:388-403. -/
def articleText (board file : Bytes) : Method σ Bytes := (d.articlePath board file).andThen d.readArticle

/-- `ReadBoardTreasureFile` — /repo/bbs.go:405-420. -/
def treasureText (board : Bytes) (dirs : List Bytes) (file : Bytes) : Method σ Bytes := (d.treasurePath board dirs file).andThen d.readArticle

/-- `NewBoardRecord` — /repo/bbs.go:422-424: the type assertion panics if the driver does not have the interface. -/
def newBoard (args : Args) : Method σ K.Board := match d.boardWriter with
  | some w => w.new args
  | none => .pure .panic

/-- `AddBoardRecord` — /repo/bbs.go:426-441. -/
def addBoard (r : K.Board) : Method σ Unit := d.boardsPath.andThen fun p => match d.boardWriter with
  | some w => w.add p r
  | none => .pure .panic

/-- `CreateArticleRecord` — /repo/bbs.go:461-467. -/
def createArticle (board owner date title : Bytes) : Method σ K.Article := match d.articleWriter with
  | some w => (w.createFilename board).andThen fun f => w.new f owner date title
  | none => .pure .panic

/-- `AddArticleRecordFileRecord` — /repo/bbs.go:470-480. -/
def addArticle (board : Bytes) (r : K.Article) : Method σ Unit := (d.articlesPath board).andThen fun p => match d.articleWriter with
  | some w => w.add p r
  | none => .pure .panic

/-- `WriteBoardArticleFile` — /repo/bbs.go:483-503. -/
def writeArticle (board file content : Bytes) : Method σ Unit := match d.articleWriter with
  | some w => (d.articlePath board file).andThen fun p => w.write p content
  | none => .pure (.err "bbs: connector don't support WriteArticleConnector")

/-- `AppendBoardArticleFile` — /repo/bbs.go:505-516. -/
def appendArticle (board file content : Bytes) : Method σ Unit := (d.articlePath board file).andThen fun p => match d.articleWriter with
  | some w => w.append p content
  | none => .pure (.err "bbs: connector don't support WriteArticleConnector")

/-- The loop over the boards of `GetUserArticleRecordFile` — /repo/bbs.go:556-578: the records are added to those found so far. -/
def userArticleLoop (user : Bytes) : List K.Board → List UserArticle → Method σ (List UserArticle)
  | [], recs => .pure (.ok recs)
  | b :: bs, recs =>
    if DB.shouldSkip (K.boardID b) then userArticleLoop user bs recs
    else (d.listArticles (K.boardID b)).andThen fun ars => userArticleLoop user bs
      (recs ++ (ars.filter (fun ar => K.owner ar = user)).map (fun ar => ⟨K.boardID b, K.title ar, K.owner ar, K.filename ar⟩))

/-- `GetUserArticleRecordFile` — /repo/bbs.go:519-581: if the driver keeps a list, and it is not empty, that is the answer. -/
def userArticles (user : Bytes) : Method σ (List UserArticle) :=
  let search (recs : List UserArticle) := d.readBoardRecords.andThen fun bs => d.userArticleLoop user bs recs
  match d.articleKeeper with
  | some k => (k.path user).andThen fun p => (k.read p).andThen fun recs => if recs.length ≠ 0 then .pure (.ok recs) else search recs
  | none => search []

/-- `GetBoardArticleCommentRecords` — /repo/bbs.go:668-698. -/
def articleCommentsOf (board : Bytes) (ar : K.Article) : Method σ (List UserComment) :=
  (d.articleText board (K.filename ar)).andThen fun content => .pure (Verif.articleComments board (K.filename ar) content)

/-- The loop of `GetBoardUserCommentRecord` — /repo/bbs.go:649-661. -/
def boardUserCommentLoop (board user : Bytes) : List K.Article → List UserComment → Method σ (List UserComment)
  | [], recs => .pure (.ok recs)
  | ar :: ars, recs => (d.articleCommentsOf board ar).andThen fun crs =>
      boardUserCommentLoop board user ars (recs ++ crs.filter (fun cr => cr.owner = user))

/-- `GetBoardUserCommentRecord` — /repo/bbs.go:641-664. -/
def boardUserComments (board user : Bytes) : Method σ (List UserComment) :=
  (d.listArticles board).andThen fun ars => d.boardUserCommentLoop board user ars []

/-- The loop over the boards of `GetUserCommentRecordFile` — /repo/bbs.go:623-634. -/
def userCommentLoop (user : Bytes) : List K.Board → List UserComment → Method σ (List UserComment)
  | [], recs => .pure (.ok recs)
  | b :: bs, recs =>
    if DB.shouldSkip (K.boardID b) then userCommentLoop user bs recs
    else (d.boardUserComments (K.boardID b) user).andThen fun ucr => userCommentLoop user bs (recs ++ ucr)

/-- `GetUserCommentRecordFile` — /repo/bbs.go:585-637. -/
def userComments (user : Bytes) : Method σ (List UserComment) :=
  let search (recs : List UserComment) := d.readBoardRecords.andThen fun bs => d.userCommentLoop user bs recs
  match d.commentKeeper with
  | some k => (k.path user).andThen fun p => (k.read p).andThen fun recs => if recs.length ≠ 0 then .pure (.ok recs) else search recs
  | none => search []

/-- `GetUserDrafts` — /repo/bbs.go:700-715, /repo/user_draft.go:11-17. -/
def readDraft (user draft : Bytes) : Method σ Bytes := match d.drafts with
  | some w => (w.path user draft).andThen w.read
  | none => .pure .panic

/-- `DeleteUserDraft` — /repo/bbs.go:717-727. -/
def deleteDraft (user draft : Bytes) : Method σ Unit := match d.drafts with
  | some w => (w.path user draft).andThen w.delete
  | none => .pure .panic

/-- `WriteUserDraft` — /repo/bbs.go:729-738: `draftContent.Raw()` panics for a nil draft. -/
def writeDraft (user draft : Bytes) (content : Option Bytes) : Method σ Unit := match d.drafts with
  | some w => (w.path user draft).andThen fun p => match content with
    | some x => w.write p x
    | none => .pure .panic
  | none => .pure .panic

/-- The call; `UpdateBoardRecord`, `ReadBoardRecord` and `RemoveBoardRecord` — /repo/bbs.go:445-457 — ask the driver for nothing. -/
def call : FrontCall K → Method σ (FrontAnswer K)
  | .readUsers => d.readUserRecords.map .users
  | .readFavourites u => (d.readUserFavourites u).map .favourites
  | .readBoards => d.readBoardRecords.map .boards
  | .listArticles b => (d.listArticles b).map .articles
  | .listTreasure b ds => (d.listTreasure b ds).map .articles
  | .readArticle b f => (d.articleText b f).map .bytes
  | .readTreasure b ds f => (d.treasureText b ds f).map .bytes
  | .newBoard args => (d.newBoard args).map .board
  | .addBoard r => (d.addBoard r).map fun _ => .done
  | .updateBoard _ _ => .pure (.err "not implement")
  | .readBoard _ => .pure (.err "not implement")
  | .removeBoard _ => .pure (.err "not implement")
  | .createArticle b o t' t => (d.createArticle b o t' t).map .article
  | .addRecord b r => (d.addArticle b r).map fun _ => .done
  | .writeArticle b f x => (d.writeArticle b f x).map fun _ => .done
  | .appendArticle b f x => (d.appendArticle b f x).map fun _ => .done
  | .userArticles u => (d.userArticles u).map .userArticles
  | .userComments u => (d.userComments u).map .userComments
  | .boardUserComments b u => (d.boardUserComments b u).map .userComments
  | .articleComments b r => (d.articleCommentsOf b r).map .userComments
  | .readDraft u n => (d.readDraft u n).map .bytes
  | .deleteDraft u n => (d.deleteDraft u n).map fun _ => .done
  | .writeDraft u n x => (d.writeDraft u n x).map fun _ => .done

end Driver

/-! ## The driver `pttbbs` -/

/-- A record given to a driver: one of its own, a nil pointer of its own type, or something else. -/
inductive Given (α : Type) where
  | own (r : α)
  | null
  | foreign

/-- The records of `pttbbs`. Its lists hold its own records only; reading a field through a nil pointer panics, which `DB` never does with it, so what the
methods return for the other two does not matter. -/
def pttKinds : Kinds where
  User := Userec
  Favourite := FavItem
  Board := Given BoardHeader
  Article := Given FileHeader
  boardID | .own r => r.brdName | _ => []
  filename | .own r => r.filename | _ => []
  title | .own r => r.title | _ => []
  owner | .own r => r.owner | _ => []

/-- A method that only reads the disk. -/
def onDisk {α : Type} (f : FS → Res α) : Method FS α := fun fs => (fs, f fs)

/-- A method that writes; if it fails the disk is as before. -/
def toDisk (f : FS → Res FS) : Method FS Unit := fun fs => match f fs with
  | .ok fs' => (fs', .ok ())
  | .err e => (fs, .err e)
  | .panic => (fs, .panic)
  | .diverge => (fs, .diverge)

/-- `AddBoardRecordFileRecord` and `AddArticleRecordFileRecord` of `pttbbs` — /repo/pttbbs/pttbbs_write_board_connector.go:30-37,
pttbbs_write_article_connector.go:138-144: a record of another type is refused; `MarshalBinary` of a nil pointer panics, at a time when the file is open and
perhaps new (/repo/pttbbs/board.go:201-226, file.go:135-163). -/
def pttAdd {α : Type} (db : DB) (refusal : String) (marshal : α → Bytes) (p : Bytes) : Given α → Method FS Unit
  | .own r => toDisk fun fs => fs.appendCreate db.cwd p (marshal r)
  | .null => fun fs => match fs.appendCreate db.cwd p [] with
    | .ok fs' => (fs', .panic)
    | .err e => (fs, .err e)
    | .panic => (fs, .panic)
    | .diverge => (fs, .diverge)
  | .foreign => .pure (.err refusal)

/-- `pttbbs.Connector` with `home` and the working directory of `db` — /repo/pttbbs/pttbbs.go, pttbbs_write_board_connector.go,
pttbbs_write_article_connector.go, pttbss_append_new_line.go, draft.go. The clock and the random numbers are `draw`, and `fuel` bounds the rounds of
`CreateBoardArticleFilename` as in `DB.createFilename`. -/
def pttDriver (db : DB) (c : Codec) (draw : Nat → Int × Fin 4096) (fuel : Nat) : Driver FS pttKinds where
  usersPath := .pure (getPasswdsPath db.home)
  readUsers p := onDisk fun fs => db.openUserList c fs p
  favouritesPath u := .pure (getUserFavoritePath db.home u)
  readFavourites p := onDisk fun fs => db.readFavoriteFile c fs p
  boardsPath := .pure (getBoardPath db.home)
  readBoards p := onDisk fun fs => do .ok ((← db.openBoardList c fs p).map .own)
  articlesPath b := .pure (getBoardArticlesDirectoryPath db.home b)
  treasuresPath b ds := .pure (getBoardTreasuresDirectoryPath db.home b ds)
  readArticles p := onDisk fun fs => do .ok ((← db.openArticleList c fs p).map .own)
  articlePath b f := .pure (getBoardArticleFilePath db.home b f)
  treasurePath b ds f := .pure (getBoardTreasureFilePath db.home b ds f)
  readArticle p := onDisk fun fs => fs.readFile db.cwd p
  boardWriter := some {
    new := fun args => .pure (do .ok (.own (← newBoardRecord args)))
    add := pttAdd db "brd should be create with NewBoardRecord" (fun r => BoardHeader.marshal c r) }
  articleWriter := some {
    createFilename := fun b fs => match db.createFilename fs b draw fuel 0 with
      | .ok (f, fs') => (fs', .ok f)
      | .err e => (fs, .err e)
      | .panic => (fs, .panic)
      | .diverge => (fs, .diverge)
    new := fun f o d t => .pure (.ok (.own (DB.newArticleRecord f o d t)))
    add := pttAdd db "article should be create with NewArticleRecord" (fun r => FileHeader.marshal c r)
    write := fun p x => toDisk fun fs => fs.overwrite db.cwd p x
    append := fun p x => toDisk fun fs => fs.append db.cwd p x }
  articleKeeper := none
  commentKeeper := none
  drafts := some {
    path := fun u n => .pure (getUserDraftPath db.home u n)
    read := fun p => onDisk fun fs => if fs.statOk db.cwd p then fs.readFile db.cwd p else .ok []
    delete := fun p => toDisk fun fs => fs.remove db.cwd p
    write := fun p x => toDisk fun fs => fs.writeFile db.cwd p x }

end Verif
