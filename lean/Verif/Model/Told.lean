import Verif.Model.Log
import Verif.Model.ServerMain
/-!
# What the log says of failures

The calls once more, with every line that the database and the driver write. Simplification: the text of an error is the reason alone; in
the log the operation and the path stand before it.
-/

namespace Verif

/-- One line: `log.Println("path:", path)`, or `log.Println(who, err)`. The driver writes the error alone. -/
inductive LogWord where
  | path (p : Bytes)
  | trouble (who : String) (e : String)
  /-- `log.Println` of a slice of pointers: their addresses, which are not here, so only how many there are. -/
  | pointers (n : Nat)
  /-- `log.Println("board: ", boardID, len(recs))` — /repo/bbs.go:568. -/
  | hit (board : Bytes) (n : Nat)
  /-- `log.Println(content)` — /repo/bbs.go:694. -/
  | content (text : Bytes)
  deriving DecidableEq

/-- What has been written, and what comes of it. -/
structure Told (α : Type) where
  lines : List LogWord
  result : Res α

namespace Told

def of (r : Res α) : Told α := ⟨[], r⟩

/-- `if err != nil { log.Println(who, err); return err }` -/
def complain (m : Told α) (who : String) : Told α :=
  match m.result with
  | .err e => ⟨m.lines ++ [.trouble who e], m.result⟩
  | _ => m

def andThen (m : Told α) (f : α → Told β) : Told β :=
  match m.result with
  | .ok a => ⟨m.lines ++ (f a).lines, (f a).result⟩
  | .err e => ⟨m.lines, .err e⟩
  | .panic => ⟨m.lines, .panic⟩
  | .diverge => ⟨m.lines, .diverge⟩

/-- The path, with `log.Println("path:", path)`. -/
def path (r : Res Bytes) (who : String) (f : Bytes → Told α) : Told α :=
  ((of r).complain who).andThen fun p => andThen ⟨[.path p], .ok ()⟩ fun _ => f p

end Told

/-- The answer of a call that changes the disk. -/
def finished (r : Res FS) : Res Answer := do
  let _ ← r
  .ok .done

namespace DB

/-- `OpenUserecFile`, `OpenBoardHeaderFile`, `OpenFileHeaderFile` — /repo/pttbbs/passwd.go:203-208, board.go:171-176, file.go:104-109:
the error of `os.Open` is written. -/
def opened (r : Res α) (f : α → Answer) : Told Answer := (Told.of (do .ok (f (← r)))).complain ""

/-- `ReadBoardArticleRecordsFile` after the path — /repo/bbs.go:359-368: a missing list is empty, but the driver has written. -/
def listedTold (db : DB) (c : Codec) (fs : FS) (p : Bytes) : Told Answer :=
  match opened (db.openArticleList c fs p) .articles with
  | ⟨lines, .err e⟩ => if e = "no such file or directory" then ⟨lines, .ok (.articles [])⟩
    else ⟨lines ++ [.trouble "bbs: ReadArticleRecordsFile error:" e], .err e⟩
  | m => m

/-- `ReadUserFavoriteRecordsFile` — /repo/pttbbs/pttbbs.go:56-80: only the list of boards is opened with a word. -/
def favouritesTold (db : DB) (c : Codec) (fs : FS) (p : Bytes) : Told Answer :=
  if !fs.statOk db.cwd p then .of (.ok (.favourites []))
  else
    (Told.of (fs.readFile db.cwd p)).andThen fun data =>
      (Told.of (loadFav c data)).andThen fun rec =>
        (Told.of (getBoardPath db.home)).andThen fun bp =>
          ((Told.of (db.openBoardList c fs bp)).complain "").andThen fun br =>
            .of (do .ok (.favourites (← rec.folder.resolve br).items))

end DB

/-- A call — /repo/bbs.go:296-511, 700-738. -/
def Call.told (db : DB) (c : Codec) (fs : FS) : Call → Told Answer
  | .readUsers => .path (getPasswdsPath db.home) "bbs: open file error:" fun p =>
      (DB.opened (db.openUserList c fs p) .users).complain "bbs: get user rec error:"
  | .readFavourites u => .path (getUserFavoritePath db.home u) "bbs: get user favorite records path error:" fun p =>
      (db.favouritesTold c fs p).complain "bbs: read user favorite records error:"
  | .readBoards => .path (getBoardPath db.home) "bbs: open file error:" fun p =>
      (DB.opened (db.openBoardList c fs p) .boards).complain "bbs: get user rec error:"
  | .listArticles b => .path (getBoardArticlesDirectoryPath db.home b) "bbs: open file error:" fun p => db.listedTold c fs p
  | .listTreasure b ds => .path (getBoardTreasuresDirectoryPath db.home b ds) "bbs: open file error:" fun p =>
      (DB.opened (db.openArticleList c fs p) .articles).complain "bbs: get user rec error:"
  | .readArticle b f => .path (getBoardArticleFilePath db.home b f) "bbs: open file error:" fun p =>
      (Told.of (do .ok (.bytes (← fs.readFile db.cwd p)))).complain "bbs: get user rec error:"
  | .readTreasure b ds f => .path (getBoardTreasureFilePath db.home b ds f) "bbs: open file error:" fun p =>
      (Told.of (do .ok (.bytes (← fs.readFile db.cwd p)))).complain "bbs: get user rec error:"
  | .addBoard r => .path (getBoardPath db.home) "bbs: open file error:" fun p =>
      (Told.of (finished (fs.appendCreate db.cwd p (r.marshal c)))).complain "bbs: AddBoardRecordFileRecord error:"
  | .createArticle b o d t draw fuel => .of (do .ok (.record (← db.createArticleRecord fs b o d t draw fuel).1))
  | .addRecord b r => .path (getBoardArticlesDirectoryPath db.home b) "bbs: open file error:" fun p =>
      .of (finished (fs.appendCreate db.cwd p (r.marshal c)))
  | .writeArticle b f x => .path (getBoardArticleFilePath db.home b f) "bbs: open file error:" fun p =>
      (Told.of (finished (fs.overwrite db.cwd p x))).complain "bbs: write board article file error:"
  | .appendArticle b f x => .of (finished (db.appendBoardArticleFile fs b f x))
  | .readDraft u d => .path (getUserDraftPath db.home u d) "bbs: GetUserDraftPath error:" fun p =>
      .of ((if fs.statOk db.cwd p then fs.readFile db.cwd p else .ok []) >>= fun b => .ok (.bytes b))
  | .deleteDraft u d => .path (getUserDraftPath db.home u d) "bbs: GetUserDraftPath error:" fun p => .of (finished (fs.remove db.cwd p))
  | .writeDraft u d x => .path (getUserDraftPath db.home u d) "bbs: GetUserDraftPath error:" fun p => .of (finished (fs.writeFile db.cwd p x))

/-! ## The start of the service -/

/-- `loadPasswdsFile` and `loadBoardFile` — /repo/serverlet/main.go:40-58: the error, or the slice. -/
def loadTold (who : String) (m : Told Answer) (count : Answer → Nat) : Told Unit :=
  match m.result with
  | .ok a => ⟨m.lines ++ [.pointers (count a)], .ok ()⟩
  | .err e => ⟨m.lines ++ [.trouble who e], .ok ()⟩
  | .panic => ⟨m.lines, .panic⟩
  | .diverge => ⟨m.lines, .diverge⟩

def Answer.count : Answer → Nat
  | .users l => l.length
  | .boards l => l.length
  | _ => 0

/-- `main` until it listens — /repo/serverlet/main.go:19-30. Println of a slice shows the elements by the verb %v at depth one, where a
pointer is written as its address (Go fmt/print.go, `printValue`); the elements are pointers to records. -/
def startTold (c : Codec) (cwd : Path) (fs : FS) : Told Unit :=
  let db : DB := ⟨ascii "../home/bbs", cwd⟩
  (loadTold "get user rec error:" (Call.readUsers.told db c fs) Answer.count).andThen fun _ =>
    loadTold "get board header error:" (Call.readBoards.told db c fs) Answer.count

end Verif
